import Verif.Exchange.Account
import Verif.Exchange.Pool
import Verif.Exchange.Twap
import Verif.Exchange.Ids
import Verif.Exchange.Echo

/-
State of the exchange contract and the helpers every method uses:
`/repo/ref-exchange/src/lib.rs:115-144` and `645-760`.
-/

namespace Verif

/-- Where a rate comes from: `Rate`, `rated_swap/rate.rs:20-25`. The contracts of `Stnear`, `Linear`
and `Nearx` tokens report the rate themselves (`direct`); an `Sfrax` rate is the ratio of two prices
of one of two oracles, `rated_swap/sfrax_rate.rs:16-43`. The account of the oracle matters only for
the cross-contract call and is omitted. Times are in seconds; the 32 bytes of a price identifier of
the Pyth oracle are one number. -/
inductive RateSource where
  | direct
  | sfraxPrice (base : AccountId) (recency staleness : Nat)
  | sfraxPyth (base rate : Nat) (validFor : Nat)

/-- A stored token rate: `rated_swap/linear_rate.rs:14-18` and the other rate types. -/
structure RateInfo where
  rate : Nat
  updated : Nat
  source : RateSource

/-- Where the price of a degen token comes from: `DegenType`, `degen_swap/degen.rs:55-62`. The price
oracle quotes whole units of a token with the given number of decimals. -/
inductive DegenSource where
  | priceOracle (decimals : Nat)
  | pyth (priceId : Nat)

/-- A degen token: `degen_swap/price_oracle.rs:29-33`, `degen_swap/pyth_oracle.rs:23-26`. `price` is
the price and its timestamp. -/
structure DegenInfo where
  price : Option (Nat × Nat)
  source : DegenSource

/-- `PriceOracleConfig`, `degen_swap/price_oracle.rs:15-26`, without the account of the oracle. The
expiry is in nanoseconds, the other times in seconds. -/
structure PriceOracleConfig where
  expire : Nat
  recency : Nat
  staleness : Nat

/-- `PythOracleConfig`, `degen_swap/pyth_oracle.rs:14-20`, without the account of the oracle. -/
structure PythOracleConfig where
  expire : Nat
  validFor : Nat

/-- `DegenOracleConfig`, `degen_swap/degen.rs:27-30`. -/
inductive OracleConfig where
  | price (o : PriceOracleConfig)
  | pyth (o : PythOracleConfig)

/-- The part of the state that only the owner and the guardians (and the price oracles) change:
fields of `Contract`, `lib.rs:115-144`, and the maps stored under fixed keys (rates, degen tokens
and oracle configurations, pool limits, client-echo lists). Sets are lists. `priceOracle` and
`pythOracle` are the configurations of the two oracles, `none` if it is not registered. -/
structure Config where
  owner : AccountId
  boostFarm : AccountId
  burrowland : AccountId
  adminFeeBps : Nat
  whitelist : List AccountId
  guardians : List AccountId
  running : Bool
  frozen : List AccountId
  referrals : FMap AccountId Nat
  recordInterval : Nat
  wnear : Option AccountId
  postfixes : List (List Char)
  limits : FMap Nat Nat
  echoTokens : List (List Char)
  echoSenders : List (List Char)
  secureSenders : List (List Char)
  rates : FMap AccountId RateInfo
  degens : FMap AccountId DegenInfo
  priceOracle : Option PriceOracleConfig
  pythOracle : Option PythOracleConfig

/-- The state of the exchange. `self` is the contract's own account. `lostfound` is keyed by account
and token (`account_lostfound.rs`), `volumes` by pool id modulo 2^32 (`swap_volume.rs:47-61`), with
one (input, output) pair per token. -/
structure Contract where
  self : AccountId
  cfg : Config
  pools : List Pool
  accounts : FMap AccountId Account
  lostfound : FMap (AccountId × AccountId) Nat
  twaps : FMap Nat CumInfo
  volumes : FMap Nat (List (Nat × Nat))

/-- What a call can see of its surroundings. `grew` and `shrank` are the bytes by which
`env::storage_usage()` grew or shrank over the part of the call where the code measures it; the
model takes them as arbitrary inputs instead of modelling the byte layout of the storage.
`nearBalance` is `env::account_balance()` and `usage` is `env::storage_usage()`. -/
structure Ctx where
  pred : AccountId
  deposit : Nat
  now : Nat
  grew : Nat
  shrank : Nat
  nearBalance : Nat
  usage : Nat

/-- A promise created by a call. All but `near` and `ftPlain` have a callback to the contract. -/
inductive Out where
  /-- `ft_transfer`, callback `exchange_callback_post_withdraw`. -/
  | ft (token to : AccountId) (amount : Nat)
  /-- `ft_transfer_call`, callback `exchange_callback_post_withdraw`. -/
  | ftCall (token to : AccountId) (amount : Nat)
  /-- `near_withdraw`, callback `exchange_callback_post_withdraw_near`. -/
  | unwrap (token to : AccountId) (amount : Nat)
  /-- `ft_transfer` without callback. -/
  | ftPlain (token to : AccountId) (amount : Nat)
  /-- A transfer of NEAR. -/
  | near (to : AccountId) (amount : Nat)
  /-- `mft_on_transfer`, callback `mft_resolve_transfer`. -/
  | mftCall (tokenId : List Char) (sender receiver : AccountId) (amount : Nat)
  /-- `on_cast_shadow` or `on_remove_shadow`, callback `callback_on_shadow`. -/
  | shadow (act : ShadowAction) (sender : AccountId) (pool amount fee : Nat)
  /-- `on_remove_shadow`, callback `callback_on_burrow_liquidation`, which only logs. -/
  | liquidated (account : AccountId) (pool amount : Nat)
  deriving DecidableEq

/-- `ActionResult`, `action.rs:110-126`. -/
abbrev ActionResult := Option Nat

namespace Config

/-- `assert_contract_running`, `lib.rs:648-653`. -/
def assertRunning (g : Config) : R Unit := assertE (g.running = true) (.e 51)

/-- `assert_no_frozen_tokens`, `lib.rs:655-662`. -/
def assertNoFrozen (g : Config) (toks : List AccountId) : R Unit :=
  assertE (∀ t ∈ toks, t ∉ g.frozen) (.e 52)

/-- `is_whitelisted_token`, `lib.rs:664-666`. -/
def isWhitelisted (g : Config) (t : AccountId) : Bool :=
  decide (t ∈ g.whitelist) || g.postfixes.any fun p => p.isSuffixOf t

/-- The guard of `execute_actions`, `lib.rs:263-273`, and of `internal_deposit`,
`account_deposit.rs:543-548`. -/
def tokenAllowed (g : Config) (a : Account) (t : AccountId) : Bool :=
  a.registered t || g.isWhitelisted t

/-- `assert_owner`, `owner.rs:492-498`. -/
def assertOwner (g : Config) (x : Ctx) : R Unit := assertE (x.pred = g.owner) (.e 100)

/-- `is_owner_or_guardians`, `owner.rs:500-503`. -/
def assertManager (g : Config) (x : Ctx) : R Unit :=
  assertE (x.pred = g.owner ∨ x.pred ∈ g.guardians) (.e 100)

/-- The rate a rated pool uses for a token, `rated_swap/mod.rs:94-105`. -/
def rateOf (g : Config) (t : AccountId) : Nat :=
  match g.rates.get? t with
  | some r => r.rate
  | none => PRECISION

/-- `rates_updated_at + EXPIRE_TS`, 24 hours in nanoseconds. -/
def RATE_EXPIRE : Nat := 24 * 3600 * 1000000000

/-- `is_global_rate_valid`, `rated_swap/rate.rs:214-232`. The `u64` addition would overflow only
in the year 2554, then the model reports "not valid" instead of an overflow panic. -/
def rateValid (g : Config) (now : Nat) (t : AccountId) : Bool :=
  match g.rates.get? t with
  | some r => decide (now ≤ r.updated + RATE_EXPIRE) && decide (r.updated + RATE_EXPIRE < 2 ^ 64)
  | none => true

/-- The price a degen pool uses for a token, `degen_swap/mod.rs:94-101`: a panic if the token is
not registered or has no price. -/
def degenOf (g : Config) (t : AccountId) : R Nat := do
  let d ← expectE (g.degens.get? t) .other
  let p ← expectE d.price .other
  .ok p.1

/-- The `expire_ts` of the configuration of an oracle. -/
def expire (g : Config) : DegenSource → Option Nat
  | .priceOracle _ => g.priceOracle.map PriceOracleConfig.expire
  | .pyth _ => g.pythOracle.map PythOracleConfig.expire

/-- `is_global_degen_price_valid`, `degen_swap/degen.rs:290-293`, `price_oracle.rs:46-49`,
`pyth_oracle.rs:38-41`. Where the code panics (no such token, no price, no oracle configuration,
overflow) the model says "not valid", which makes the caller panic. -/
def degenValid (g : Config) (now : Nat) (t : AccountId) : Bool :=
  match g.degens.get? t with
  | some ⟨some (_, updated), source⟩ =>
    match g.expire source with
    | some e => decide (now ≤ updated + e) && decide (updated + e < 2 ^ 64)
    | none => false
  | _ => false

/-- `get_degens`. -/
def degensOf (g : Config) : List AccountId → R (List Nat)
  | [] => .ok []
  | t :: ts => do
    let p ← g.degenOf t
    let ps ← g.degensOf ts
    .ok (p :: ps)

/-- What a pool reads from storage: rates or prices of its tokens, and whether they are valid. -/
def env (g : Config) (now : Nat) (p : Pool) : R CurveEnv :=
  match p with
  | .simple _ => .ok ⟨now, [], true⟩
  | .curve p =>
    match p.kind with
    | .stable => .ok ⟨now, [], true⟩
    | .rated => .ok ⟨now, p.toks.map g.rateOf, p.toks.all (g.rateValid now)⟩
    | .degen => do
      let ps ← g.degensOf p.toks
      .ok ⟨now, ps, p.toks.all (g.degenValid now)⟩

end Config

/-- `assert_one_yocto()`. -/
def Ctx.oneYocto (x : Ctx) : R Unit := assertE (x.deposit = 1) .other

/-- `internal_check_storage`, `lib.rs:670-688`: returns the cost and the refund, if any. -/
def Ctx.checkStorage (x : Ctx) : R (Nat × List Out) := do
  let refund ← subW x.deposit (x.grew * BYTE_COST)
  .ok (x.grew * BYTE_COST, if refund > 0 then [.near x.pred refund] else [])

namespace Contract

/-- `self.pools.get(id).expect(ERR85_NO_POOL)`. -/
def pool (c : Contract) (id : Nat) : R Pool := expectE (c.pools[id]?) (.e 85)

/-- `self.pools.replace(id, pool)`. -/
def setPool (c : Contract) (id : Nat) (p : Pool) : Contract := { c with pools := c.pools.set id p }

/-- `internal_unwrap_account`, `account_deposit.rs:559-562`. -/
def account (c : Contract) (a : AccountId) : R Account := expectE (c.accounts.get? a) (.e 10)

/-- `internal_unwrap_or_default_account`, `account_deposit.rs:564-567`. -/
def accountOrNew (c : Contract) (a : AccountId) : Account := (c.accounts.get? a).getD Account.new

/-- `self.accounts.insert`. -/
def putAccount (c : Contract) (a : AccountId) (acc : Account) : Contract :=
  { c with accounts := c.accounts.insert a acc }

/-- `internal_save_account`, `account_deposit.rs:496-499`. -/
def saveAccount (c : Contract) (a : AccountId) (acc : Account) : R Contract := do
  assertE (acc.storageUsage ≤ acc.near) (.e 11)
  .ok (c.putAccount a acc)

/-- `AdminFees::new`, `admin_fee.rs:22-28`, and the literals of `lib.rs:834-838`. -/
def fees (c : Contract) (referral : Option (AccountId × Nat)) : AdminFees :=
  { adminFeeBps := c.cfg.adminFeeBps, exchangeId := c.self, referral }

/-- The referral lookup, `lib.rs:335-337`. -/
def referralInfo (c : Contract) (r : Option AccountId) : Option (AccountId × Nat) :=
  match r with
  | some a => (c.cfg.referrals.get? a).map fun bps => (a, bps)
  | none => none

/-- `internal_update_unit_share_cumulative_info`, `unit_lpt_cumulative_infos.rs:147-154`. -/
def twapHook (c : Contract) (now id : Nat) : R Contract :=
  match c.twaps.get? id with
  | none => .ok c
  | some u => do
    let p ← c.pool id
    let unit ← p.unitShare
    match unit with
    | none => .ok c
    | some amounts => do
      let u' ← u.update (nanoToSec now) amounts c.cfg.recordInterval
      .ok { c with twaps := c.twaps.insert id u' }

/-- `internal_get_swap_volume_u256_vec_or_default`, `swap_volume.rs:47-56`. Pools created before
this map existed keep their old volumes in the pool; the model starts them at zero. -/
def volumesOf (c : Contract) (id : Nat) (p : Pool) : List (Nat × Nat) :=
  (c.volumes.get? (id % 2 ^ 32)).getD (p.tokens.map fun _ => (0, 0))

/-- `internal_update_swap_volume_u256_vec`, `swap_volume.rs:63-92`, with the index computation of
`lib.rs:841-847`: in a simple pool both amounts are recorded at the input token. -/
def recordVolume (c : Contract) (id : Nat) (p : Pool) (ti tout : AccountId) (a out : Nat)
    (vols : List (Nat × Nat)) : R Contract := do
  let i ← expectE (p.tokens.findIdx? fun t => decide (t = ti)) (.e 63)
  let o ← (match p with
    | .simple _ => .ok i
    | .curve _ => expectE (p.tokens.findIdx? fun t => decide (t = tout)) (.e 63) : R Nat)
  let vi ← expectE (vols[i]?) .index
  let n ← addW 256 vi.1 a
  let vols := vols.set i (n, vi.2)
  let vo ← expectE (vols[o]?) .index
  let m ← addW 256 vo.2 out
  .ok { c with volumes := c.volumes.insert (id % 2 ^ 32) (vols.set o (vo.1, m)) }

/-- `internal_send_tokens`, `account_deposit.rs:582-626`. -/
def sendTokens (c : Contract) (to token : AccountId) (amount : Nat) (skipUnwrap : Option Bool) :
    Out :=
  if c.cfg.wnear = some token ∧ skipUnwrap = some false then .unwrap token to amount
  else .ft token to amount

/-- `internal_add_pool`, `lib.rs:693-702`. -/
def addPool (c : Contract) (x : Ctx) (p : Pool) : R (Contract × List Out) := do
  let q ← p.shareRegister c.self
  let id := c.pools.length
  let (_, outs) ← x.checkStorage
  .ok ({ c with pools := c.pools ++ [q],
                volumes := c.volumes.insert (id % 2 ^ 32) (q.tokens.map fun _ => (0, 0)) }, outs)

end Contract
end Verif

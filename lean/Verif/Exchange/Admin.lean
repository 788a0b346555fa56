import Verif.Exchange.PoolInfo

/-
The methods of the owner and the guardians: `/repo/ref-exchange/src/owner.rs`,
`unit_lpt_cumulative_infos.rs:157-187`, `client_echo_limit.rs:82-176`, and the constructor
`lib.rs:149-167`.
-/

namespace Verif

/-- The methods that change only the configuration. -/
inductive Setting where
  | setOwner (a : AccountId)
  | extendGuardians (l : List AccountId)
  | removeGuardians (l : List AccountId)
  | extendPostfixes (l : List (List Char))
  | removePostfixes (l : List (List Char))
  | boostFarm (a : AccountId)
  | burrowland (a : AccountId)
  | wnear (a : AccountId)
  | changeState (running : Bool)
  | extendWhitelist (l : List AccountId)
  | removeWhitelist (l : List AccountId)
  | extendFrozen (l : List AccountId)
  | removeFrozen (l : List AccountId)
  | insertReferral (a : AccountId) (bps : Nat)
  | updateReferral (a : AccountId) (bps : Nat)
  | removeReferral (a : AccountId)
  | adminFee (bps : Nat)
  | recordInterval (sec : Nat)
  | registerRate (typeOk : Bool) (t : AccountId) (source : RateSource)
  | unregisterRate (t : AccountId)
  | rateExtraInfo (t : AccountId) (source : RateSource)
  | registerDegen (t : AccountId) (source : DegenSource)
  | updateDegen (t : AccountId) (source : DegenSource)
  | unregisterDegen (t : AccountId)
  | registerOracle (o : OracleConfig)
  | unregisterOracle (pyth : Bool)
  | updateOracle (o : OracleConfig)
  | addLimit (pool limit : Nat)
  | updateLimit (pool limit : Nat)
  | removeLimit (pool : Nat)
  | extendEchoTokens (l : List (List Char))
  | removeEchoTokens (l : List (List Char))
  | extendEchoSenders (l : List (List Char))
  | removeEchoSenders (l : List (List Char))
  | extendSecureSenders (l : List (List Char))
  | removeSecureSenders (l : List (List Char))

/-- Insertion of several elements into a set. -/
def setInsertAll (set items : List (List Char)) : List (List Char) :=
  items.foldl (fun s a => if a ∈ s then s else a :: s) set

/-- Removal of several elements from a set; a missing one panics. -/
def setRemoveAll (e : Err) : (set items : List (List Char)) → R (List (List Char))
  | set, [] => .ok set
  | set, a :: rest => do
    assertE (a ∈ set) e
    setRemoveAll e (set.filter (· ≠ a)) rest

namespace Config

/-- Whether a configuration is stored under the key of the given one,
`degen_swap/degen.rs:33-38`, `190-191`, `250-251`. -/
def hasOracle (g : Config) : OracleConfig → Bool
  | .price _ => g.priceOracle.isSome
  | .pyth _ => g.pythOracle.isSome

/-- Store the configuration of an oracle. -/
def setOracle (g : Config) : OracleConfig → Config
  | .price o => { g with priceOracle := some o }
  | .pyth o => { g with pythOracle := some o }

/-- Remove the configuration of an oracle. -/
def dropOracle (g : Config) (pyth : Bool) : Config :=
  if pyth then { g with pythOracle := none } else { g with priceOracle := none }

end Config

namespace RateSource

/-- `SfraxExtraInfo::assert_valid`, `rated_swap/sfrax_rate.rs:46-61`: 10 seconds to 5 minutes. -/
def assertValid : RateSource → R Unit
  | .direct => .ok ()
  | .sfraxPrice _ _ staleness => assertE (10 ≤ staleness ∧ staleness ≤ 300) .other
  | .sfraxPyth _ _ validFor => assertE (10 ≤ validFor ∧ validFor ≤ 300) .other

/-- Is it the source of an `Sfrax` rate? -/
def sfrax : RateSource → Bool
  | .direct => false
  | _ => true

end RateSource

namespace Contract

/-- `self.get_pool(pool_id).pool_kind == "DEGEN_SWAP"`, `owner.rs:465`, `476`. The view computes the
whole report, so it panics for a degen pool with a token that has no price. -/
def assertDegenPool (c : Contract) (now id : Nat) : R Unit := do
  let i ← c.getPool now id
  assertE (i.kind = some .degen) .other

/-- The configuration methods of `owner.rs` and `client_echo_limit.rs`; the lines are given with
each case. -/
def applySetting (c : Contract) (x : Ctx) (s : Setting) : R Config := do
  x.oneYocto
  let g := c.cfg
  match s with
  -- `owner.rs:15-19`
  | .setOwner a => do
    g.assertOwner x
    .ok { g with owner := a }
  -- `owner.rs:55-61`
  | .extendGuardians l => do
    g.assertOwner x
    .ok { g with guardians := setInsertAll g.guardians l }
  -- `owner.rs:65-73`
  | .removeGuardians l => do
    g.assertOwner x
    let s ← setRemoveAll (.e 104) g.guardians l
    .ok { g with guardians := s }
  -- `owner.rs:76-82`
  | .extendPostfixes l => do
    g.assertManager x
    .ok { g with postfixes := setInsertAll g.postfixes l }
  -- `owner.rs:85-92`
  | .removePostfixes l => do
    g.assertManager x
    let s ← setRemoveAll (.e 105) g.postfixes l
    .ok { g with postfixes := s }
  -- `owner.rs:95-100`
  | .boostFarm a => do
    g.assertManager x
    .ok { g with boostFarm := a }
  -- `owner.rs:103-108`
  | .burrowland a => do
    g.assertManager x
    .ok { g with burrowland := a }
  -- `owner.rs:111-116`
  | .wnear a => do
    g.assertOwner x
    .ok { g with wnear := some a }
  -- `owner.rs:120-138`
  | .changeState r => do
    g.assertManager x
    if g.running ≠ r then do
      assertE (r = true → x.pred = g.owner) (.e 100)
      .ok { g with running := r }
    else .ok g
  -- `owner.rs:142-148`
  | .extendWhitelist l => do
    g.assertManager x
    .ok { g with whitelist := setInsertAll g.whitelist l }
  -- `owner.rs:152-159`
  | .removeWhitelist l => do
    g.assertManager x
    let s ← setRemoveAll (.e 53) g.whitelist l
    .ok { g with whitelist := s }
  -- `owner.rs:163-169`
  | .extendFrozen l => do
    g.assertManager x
    .ok { g with frozen := setInsertAll g.frozen l }
  -- `owner.rs:173-180`
  | .removeFrozen l => do
    g.assertManager x
    let s ← setRemoveAll (.e 53) g.frozen l
    .ok { g with frozen := s }
  -- `owner.rs:184-198`
  | .insertReferral a bps => do
    g.assertManager x
    assertE (bps > 0 ∧ bps < FEE_DIVISOR) (.e 132)
    assertE (g.referrals.get? a = none) (.e 130)
    .ok { g with referrals := g.referrals.insert a bps }
  -- `owner.rs:202-216`
  | .updateReferral a bps => do
    g.assertManager x
    assertE (bps > 0 ∧ bps < FEE_DIVISOR) (.e 132)
    assertE ((g.referrals.get? a).isSome = true) (.e 131)
    .ok { g with referrals := g.referrals.insert a bps }
  -- `owner.rs:220-233`
  | .removeReferral a => do
    g.assertManager x
    assertE ((g.referrals.get? a).isSome = true) (.e 131)
    .ok { g with referrals := g.referrals.erase a }
  -- `owner.rs:238-243`
  | .adminFee bps => do
    g.assertOwner x
    assertE (bps ≤ MAX_ADMIN_FEE_BPS) (.e 101)
    .ok { g with adminFeeBps := bps }
  -- `unit_lpt_cumulative_infos.rs:176-180`
  | .recordInterval sec => do
    g.assertManager x
    .ok { g with recordInterval := sec }
  -- `owner.rs:353-362`, `rate.rs:112-132`; a new rate is `PRECISION` and never updated
  | .registerRate typeOk t source => do
    g.assertManager x
    assertE (typeOk = true) (.e 127)
    assertE (g.rates.contains t = false) .other
    source.assertValid
    .ok { g with rates := g.rates.insert t ⟨PRECISION, 0, source⟩ }
  -- `owner.rs:366-375`
  | .unregisterRate t => do
    g.assertOwner x
    .ok { g with rates := g.rates.erase t }
  -- `owner.rs:378-384`, `rate.rs:157-171`: changes only where an `Sfrax` rate is read from
  | .rateExtraInfo t source => do
    g.assertManager x
    let r ← expectE (g.rates.get? t) .other
    assertE (r.source.sfrax = true ∧ source.sfrax = true) .other
    source.assertValid
    .ok { g with rates := g.rates.insert t { r with source := source } }
  -- `owner.rs:388-397`
  | .registerDegen t source => do
    g.assertManager x
    assertE (g.degens.contains t = false) .other
    .ok { g with degens := g.degens.insert t ⟨none, source⟩ }
  -- `owner.rs:401-410`
  | .updateDegen t source => do
    g.assertOwner x
    assertE (g.degens.contains t = true) .other
    .ok { g with degens := g.degens.insert t ⟨none, source⟩ }
  -- `owner.rs:414-423`
  | .unregisterDegen t => do
    g.assertOwner x
    .ok { g with degens := g.degens.erase t }
  -- `owner.rs:427-435`
  | .registerOracle o => do
    g.assertManager x
    assertE (g.hasOracle o = false) .other
    .ok (g.setOracle o)
  -- `owner.rs:439-447`
  | .unregisterOracle pyth => do
    g.assertOwner x
    .ok (g.dropOracle pyth)
  -- `owner.rs:451-459`
  | .updateOracle o => do
    g.assertOwner x
    assertE (g.hasOracle o = true) .other
    .ok (g.setOracle o)
  -- `owner.rs:462-470`
  | .addLimit id limit => do
    g.assertManager x
    c.assertDegenPool x.now id
    assertE (g.limits.get? id = none) .other
    .ok { g with limits := g.limits.insert id limit }
  -- `owner.rs:473-481`
  | .updateLimit id limit => do
    g.assertOwner x
    c.assertDegenPool x.now id
    assertE ((g.limits.get? id).isSome = true) .other
    .ok { g with limits := g.limits.insert id limit }
  -- `owner.rs:484-490`
  | .removeLimit id => do
    g.assertOwner x
    assertE ((g.limits.get? id).isSome = true) .other
    .ok { g with limits := g.limits.erase id }
  -- `client_echo_limit.rs:85-97`
  | .extendEchoTokens l => do
    g.assertManager x
    let s ← extendEcho true g.echoTokens l
    .ok { g with echoTokens := s }
  -- `client_echo_limit.rs:100-109`
  | .removeEchoTokens l => do
    g.assertOwner x
    let s ← removeEcho g.echoTokens l
    .ok { g with echoTokens := s }
  -- `client_echo_limit.rs:117-126`
  | .extendEchoSenders l => do
    g.assertManager x
    let s ← extendEcho false g.echoSenders l
    .ok { g with echoSenders := s }
  -- `client_echo_limit.rs:129-138`
  | .removeEchoSenders l => do
    g.assertOwner x
    let s ← removeEcho g.echoSenders l
    .ok { g with echoSenders := s }
  -- `client_echo_limit.rs:146-158`
  | .extendSecureSenders l => do
    g.assertManager x
    let s ← extendEcho true g.secureSenders l
    .ok { g with secureSenders := s }
  -- `client_echo_limit.rs:161-170`
  | .removeSecureSenders l => do
    g.assertOwner x
    let s ← removeEcho g.secureSenders l
    .ok { g with secureSenders := s }

/-- The configuration methods on the whole state. -/
def setting (c : Contract) (x : Ctx) (s : Setting) : R Contract := do
  let g ← c.applySetting x s
  .ok { c with cfg := g }

/-- `retrieve_unmanaged_token`, `owner.rs:30-51`. -/
def retrieveUnmanaged (c : Contract) (x : Ctx) (token : AccountId) (amount : Nat) :
    R (List Out) := do
  c.cfg.assertOwner x
  x.oneYocto
  assertE (amount > 0) (.e 29)
  .ok [.ftPlain token c.cfg.owner amount]

/-- `modify_total_fee`, `owner.rs:246-256`. -/
def modifyTotalFee (c : Contract) (x : Ctx) (id fee : Nat) : R Contract := do
  x.oneYocto
  c.cfg.assertManager x
  assertE (fee < FEE_DIVISOR) (.e 62)
  let p ← c.pool id
  .ok (c.setPool id (p.setFee fee))

/-- `remove_exchange_fee_liquidity`, `owner.rs:261-284`. -/
def removeExchangeFee (c : Contract) (x : Ctx) (id shares : Nat) (mins : List Nat) :
    R Contract := do
  x.oneYocto
  c.cfg.assertManager x
  c.cfg.assertRunning
  let p ← c.pool id
  let (q, paid) ← p.removeLiquidity c.self shares mins false
  let own ← c.account c.cfg.owner
  let own ← own.depositAll q.tokens paid
  (c.setPool id q).saveAccount c.cfg.owner own

/-- `withdraw_owner_token`, `owner.rs:289-306`. -/
def withdrawOwnerToken (c : Contract) (x : Ctx) (token : AccountId) (amount : Nat)
    (skipUnwrap : Option Bool) : R (Contract × List Out) := do
  x.oneYocto
  c.cfg.assertManager x
  c.cfg.assertRunning
  assertE (amount > 0) (.e 29)
  let own ← c.account c.cfg.owner
  let own ← own.withdraw token amount
  .ok (c.putAccount c.cfg.owner own, [c.sendTokens c.cfg.owner token amount skipUnwrap])

/-- `stable_swap_ramp_amp`, `owner.rs:313-335`. -/
def rampAmp (c : Contract) (x : Ctx) (id future futureTime : Nat) : R Contract := do
  x.oneYocto
  c.cfg.assertManager x
  let p ← c.pool id
  let q ← p.ramp future futureTime x.now (c.cfg.env x.now p)
  .ok (c.setPool id q)

/-- `stable_swap_stop_ramp_amp`, `owner.rs:338-349`. -/
def stopRampAmp (c : Contract) (x : Ctx) (id : Nat) : R Contract := do
  x.oneYocto
  c.cfg.assertManager x
  let p ← c.pool id
  let q ← p.stopRamp x.now (c.cfg.env x.now p)
  .ok (c.setPool id q)

/-- `register_pool_twap_record`, `unit_lpt_cumulative_infos.rs:160-166`. -/
def registerTwap (c : Contract) (x : Ctx) (id : Nat) : R Contract := do
  x.oneYocto
  c.cfg.assertManager x
  assertE (c.twaps.get? id = none) .other
  let p ← c.pool id
  let unit ← p.unitShare
  let amounts ← expectE unit .other
  .ok { c with twaps := c.twaps.insert id (CumInfo.new (nanoToSec x.now) amounts) }

/-- `unregister_pool_twap_record`, `unit_lpt_cumulative_infos.rs:169-173`. -/
def unregisterTwap (c : Contract) (x : Ctx) (id : Nat) : R Contract := do
  x.oneYocto
  c.cfg.assertManager x
  assertE (c.twaps.contains id = true) (.e 85)
  .ok { c with twaps := c.twaps.erase id }

/-- `sync_pool_twap_record`, `unit_lpt_cumulative_infos.rs:182-187`: open to everybody. -/
def syncTwap (c : Contract) (x : Ctx) (id : Nat) : R Contract := do
  x.noDeposit
  let u ← expectE (c.twaps.get? id) .other
  let p ← c.pool id
  let unit ← p.unitShare
  let amounts ← expectE unit .other
  let u' ← u.update (nanoToSec x.now) amounts c.cfg.recordInterval
  .ok { c with twaps := c.twaps.insert id u' }

/-- The constructor, `lib.rs:149-167`. -/
def init (self owner boostFarm burrowland : AccountId) (exchangeFee referralFee : Nat) :
    R Contract := do
  let fee ← addW 32 exchangeFee referralFee
  .ok {
    self
    cfg := {
      owner, boostFarm, burrowland
      adminFeeBps := fee
      whitelist := [], guardians := [], running := true, frozen := []
      referrals := FMap.empty, recordInterval := 720, wnear := none, postfixes := []
      limits := FMap.empty, echoTokens := [], echoSenders := [], secureSenders := []
      rates := FMap.empty, degens := FMap.empty, priceOracle := none, pythOracle := none }
    pools := []
    accounts := FMap.empty
    lostfound := FMap.empty
    twaps := FMap.empty
    volumes := FMap.empty }

end Contract
end Verif

import Verif.Exchange.Swap

/-
The methods a user calls: `/repo/ref-exchange/src/lib.rs`, `account_deposit.rs`,
`account_lostfound.rs`, `token_receiver.rs`, `multi_fungible_token.rs`, `storage_impl.rs`,
`shadow_actions.rs`, `donation.rs`. Each takes the state and the surroundings of the call and
returns the new state, the promises it creates and, where callers rely on it, its result.
-/

namespace Verif

/-- `AddLiquidityInfo`, `token_receiver.rs:13-18`. -/
structure AddInfo where
  pool : Nat
  amounts : List Nat
  minAmounts : Option (List Nat)
  minShares : Option Nat

/-- The `msg` of `ft_on_transfer`, `token_receiver.rs:24-45`: `deposit` is the empty string and
`bad` anything that cannot be decoded. `echo` tells whether `client_echo` is given; its text is only
passed on. -/
inductive Msg where
  | deposit
  | bad
  | execute (referral : Option AccountId) (actions : List Action) (echo : Bool)
      (skipUnwrap : Option Bool) (recipient : Option AccountId)
  | hotZap (referral : Option AccountId) (actions : List Action) (infos : List AddInfo)

/-- A method without `#[payable]` refuses an attached deposit (generated by `near_bindgen`). -/
def Ctx.noDeposit (x : Ctx) : R Unit := assertE (x.deposit = 0) .other

/-- The zip loop `amount >= min_amount`, `lib.rs:409-411`, `token_receiver.rs:204-206`. -/
def checkMins : (amounts mins : List Nat) → R Unit
  | a :: as, m :: ms => do
    assertE (m ≤ a) (.e 86)
    checkMins as ms
  | _, _ => .ok ()

/-- `free_shares` if the account has pledged shares of this pool, else all of them. -/
def Account.freeOf (a : Account) (pool total : Nat) : R Nat :=
  match a.shadow.get? pool with
  | some r => r.freeShares total
  | none => .ok total

namespace Contract

/-! ### Pools -/

/-- `add_simple_pool`, `lib.rs:172-180`; duplicates are refused, `utils.rs:116-119`. -/
def addSimplePool (c : Contract) (x : Ctx) (tokens : List AccountId) (fee : Nat) :
    R (Contract × List Out) := do
  c.cfg.assertRunning
  assertE tokens.Nodup (.e 92)
  let p ← SimplePool.new tokens fee
  c.addPool x (.simple p)

/-- `add_stable_swap_pool`, `add_rated_swap_pool`, `add_degen_swap_pool`, `lib.rs:189-247`. -/
def addCurvePool (c : Contract) (x : Ctx) (kind : CurveKind) (tokens : List AccountId)
    (decimals : List Nat) (fee amp : Nat) : R (Contract × List Out) := do
  c.cfg.assertManager x
  assertE (tokens.length = decimals.length) .other
  assertE tokens.Nodup (.e 92)
  let p ← CurvePool.new kind tokens decimals amp fee
  c.addPool x (.curve p)

/-! ### Swaps -/

/-- The whitelist guard of calls without deposit, `lib.rs:262-274`, `321-333`. -/
def assertTokensAllowed (c : Contract) (x : Ctx) (acc : Account) (actions : List Action) : R Unit :=
  assertE (x.deposit = 0 → ∀ t ∈ Action.tokensOf actions, c.cfg.tokenAllowed acc t = true) (.e 27)

/-- `execute_actions`, `lib.rs:310-343`. `swap` (349-361) and `swap_by_output` (367-379) are the
same with a homogeneous list and the result turned into a number. -/
def executeActions (c : Contract) (x : Ctx) (actions : List Action) (referral : Option AccountId) :
    R (Contract × ActionResult) := do
  c.cfg.assertRunning
  assertE (actions ≠ []) (.e 72)
  let acc ← c.account x.pred
  c.assertTokensAllowed x acc actions
  let (c, acc, res) ← c.runActions x.now (c.referralInfo referral) acc none actions
  let c ← c.saveAccount x.pred acc
  .ok (c, res)

/-- The loop that moves tokens to the virtual account, `lib.rs:280-283`. -/
def useTokens (acc virt : Account) : List (AccountId × Nat) → R (Account × Account)
  | [] => .ok (acc, virt)
  | p :: ps => do
    let acc ← acc.withdraw p.1 p.2
    let virt ← virt.deposit p.1 p.2
    useTokens acc virt ps

/-- `execute_actions_in_va`, `lib.rs:250-302`. -/
def executeInVa (c : Contract) (x : Ctx) (uses : List (AccountId × Nat)) (actions : List Action)
    (referral : Option AccountId) : R (Contract × List (AccountId × Nat)) := do
  c.cfg.assertRunning
  assertE (actions ≠ []) (.e 72)
  let acc ← c.account x.pred
  c.assertTokensAllowed x acc actions
  let (acc, virt) ← useTokens acc Account.new uses
  let (c, virt, _) ← c.runActions x.now (c.referralInfo referral) virt none actions
  let acc ← acc.depositPairs virt.positive
  let c ← c.saveAccount x.pred acc
  .ok (c, virt.positive)

/-! ### Liquidity -/

/-- `add_liquidity`, `lib.rs:383-424`. -/
def addLiquidity (c : Contract) (x : Ctx) (id : Nat) (amounts : List Nat)
    (mins : Option (List Nat)) : R (Contract × List Out × Nat) := do
  c.cfg.assertRunning
  assertE (x.deposit > 0) (.e 35)
  let c ← c.twapHook x.now id
  let p ← c.pool id
  c.cfg.assertNoFrozen p.tokens
  let (q, used, minted) ← p.addLiquidity x.pred amounts false
  checkMins used (mins.getD [])
  let acc ← c.account x.pred
  let acc ← acc.withdrawAll q.tokens used
  let c ← c.saveAccount x.pred acc
  let (_, outs) ← x.checkStorage
  .ok (c.setPool id q, outs, minted)

/-- `add_stable_liquidity`, `lib.rs:432-470`. -/
def addStableLiquidity (c : Contract) (x : Ctx) (id : Nat) (amounts : List Nat) (minShares : Nat) :
    R (Contract × List Out × Nat) := do
  c.cfg.assertRunning
  assertE (x.deposit > 0) (.e 35)
  let c ← c.twapHook x.now id
  let p ← c.pool id
  c.cfg.assertNoFrozen p.tokens
  let (q, minted) ← p.addStable x.pred amounts minShares (c.fees none) (c.cfg.env x.now p) false
  q.assertTvl (c.cfg.limits.get? id) (c.cfg.env x.now q)
  let acc ← c.account x.pred
  let acc ← acc.withdrawAll q.tokens amounts
  let c ← c.saveAccount x.pred acc
  let (_, outs) ← x.checkStorage
  .ok (c.setPool id q, outs, minted)

/-- `remove_liquidity`, `lib.rs:484-516`. -/
def removeLiquidity (c : Contract) (x : Ctx) (id shares : Nat) (mins : List Nat) :
    R (Contract × List Nat) := do
  x.oneYocto
  c.cfg.assertRunning
  let c ← c.twapHook x.now id
  let p ← c.pool id
  let acc ← c.account x.pred
  (match acc.shadow.get? id with
    | some r => do
      let free ← r.freeShares (p.shareBalance x.pred)
      assertE (shares ≤ free) .other
    | none => .ok () : R Unit)
  c.cfg.assertNoFrozen p.tokens
  let (q, paid) ← p.removeLiquidity x.pred shares mins false
  let acc ← acc.depositAll q.tokens paid
  let c ← (c.setPool id q).saveAccount x.pred acc
  .ok (c, paid)

/-- `remove_liquidity_by_tokens`, `lib.rs:523-560`. -/
def removeByTokens (c : Contract) (x : Ctx) (id : Nat) (amounts : List Nat) (maxBurn : Nat) :
    R (Contract × Nat) := do
  x.oneYocto
  c.cfg.assertRunning
  let c ← c.twapHook x.now id
  let p ← c.pool id
  let acc ← c.account x.pred
  let free ← acc.freeOf id (p.shareBalance x.pred)
  c.cfg.assertNoFrozen p.tokens
  let (q, burnt) ← p.removeByTokens x.pred amounts maxBurn (c.fees none) (c.cfg.env x.now p) false
  assertE (burnt ≤ free) .other
  let acc ← acc.depositAll q.tokens amounts
  let c ← (c.setPool id q).saveAccount x.pred acc
  .ok (c, burnt)

/-! ### Deposits and withdrawals -/

/-- `register_tokens`, `account_deposit.rs:322-329`. -/
def registerTokens (c : Contract) (x : Ctx) (tokens : List AccountId) : R Contract := do
  x.oneYocto
  c.cfg.assertRunning
  let acc ← c.account x.pred
  c.saveAccount x.pred (acc.register tokens)

/-- `unregister_tokens`, `account_deposit.rs:334-343`. -/
def unregisterTokens (c : Contract) (x : Ctx) (tokens : List AccountId) : R Contract := do
  x.oneYocto
  c.cfg.assertRunning
  let acc ← c.account x.pred
  let acc ← acc.unregisterAll tokens
  c.saveAccount x.pred acc

/-- The optional `unregister`, `account_deposit.rs:381-383`, `donation.rs:56-58`. -/
def unregisterIf (flag : Bool) (acc : Account) (t : AccountId) : R Account :=
  if flag then acc.unregister t else .ok acc

/-- `withdraw`, `account_deposit.rs:357-386`. -/
def withdraw (c : Contract) (x : Ctx) (token : AccountId) (amount : Nat) (unregister : Bool)
    (skipUnwrap : Option Bool) : R (Contract × List Out) := do
  x.oneYocto
  c.cfg.assertRunning
  c.cfg.assertNoFrozen [token]
  let acc ← c.account x.pred
  let n ← (if amount = 0 then expectE (acc.balance? token) (.e 21) else .ok amount : R Nat)
  assertE (n > 0) (.e 29)
  let acc ← acc.withdraw token n
  let acc ← unregisterIf unregister acc token
  let c ← c.saveAccount x.pred acc
  .ok (c, [c.sendTokens x.pred token n skipUnwrap])

/-- `claim_lostfound`, `account_lostfound.rs:52-62`, `94-108`. -/
def claimLostfound (c : Contract) (x : Ctx) (token : AccountId) : R (Contract × List Out) := do
  x.oneYocto
  c.cfg.assertRunning
  c.cfg.assertNoFrozen [token]
  let n := c.lostfound.getD (x.pred, token) 0
  assertE (n > 0) (.e 29)
  let c := { c with lostfound := c.lostfound.erase (x.pred, token) }
  .ok (c, [c.sendTokens x.pred token n none])

/-- `internal_deposit`, `account_deposit.rs:536-551`. -/
def deposit (c : Contract) (sender token : AccountId) (amount : Nat) : R Contract := do
  let acc ← c.account sender
  assertE (c.cfg.tokenAllowed acc token = true) (.e 12)
  let acc ← acc.deposit token amount
  c.saveAccount sender acc

/-- The promises of an instant swap, `token_receiver.rs:140-146`. -/
def payOut (c : Contract) (sender : AccountId) (echo : Bool) (skipUnwrap : Option Bool)
    (recipient : Option AccountId) (p : AccountId × Nat) : Out :=
  if echo then .ftCall p.1 sender p.2
  else c.sendTokens (recipient.getD sender) p.1 p.2 skipUnwrap

/-- The `Execute` branch of `ft_on_transfer`, `token_receiver.rs:114-149`. -/
def instantSwap (c : Contract) (now : Nat) (tokenIn sender : AccountId) (amount : Nat)
    (referral : Option AccountId) (actions : List Action) (echo : Bool) (skipUnwrap : Option Bool)
    (recipient : Option AccountId) : R (Contract × List Out) := do
  assertE (¬ (recipient.isSome = true ∧ echo = true)) .other
  assertE (actions ≠ []) (.e 72)
  if echo = true then
    assertClientEchoValid c.cfg.secureSenders c.cfg.echoTokens c.cfg.echoSenders tokenIn sender
  else .ok ()
  let (c, outs) ← c.directActions now referral tokenIn amount actions
  assertE (echo = true → sender = c.cfg.burrowland → outs.length = 1) .other
  .ok (c, outs.map (c.payOut sender echo skipUnwrap recipient))

/-- `get_hot_zap_tokens`, `token_receiver.rs:255-265`, the part for the pools. -/
def infoTokens (c : Contract) : List AddInfo → R (List AccountId)
  | [] => .ok []
  | i :: is => do
    let p ← c.pool i.pool
    let ts ← c.infoTokens is
    .ok (p.tokens ++ ts)

/-- The pool part of one step of the loop, `token_receiver.rs:195-218`: the pool after
the deposit and the amounts it took. -/
def zapAdd (c : Contract) (now : Nat) (sender : AccountId) (i : AddInfo) (p : Pool) :
    R (Pool × List Nat) :=
  match p with
  | .simple _ => do
    let (q, used, _) ← p.addLiquidity sender i.amounts false
    let mins ← expectE i.minAmounts .other
    checkMins used mins
    .ok (q, used)
  | .curve _ => do
    let m ← expectE i.minShares .other
    let (q, _) ← p.addStable sender i.amounts m (c.fees none) (c.cfg.env now p) false
    .ok (q, i.amounts)

/-- The loop over the pools, `token_receiver.rs:184-226`. -/
def zapLoop (c : Contract) (now : Nat) (sender : AccountId) (cache : TokenCache) :
    List AddInfo → R (Contract × TokenCache)
  | [] => .ok (c, cache)
  | i :: is => do
    let p ← c.pool i.pool
    let (q, used) ← c.zapAdd now sender i p
    q.assertTvl (c.cfg.limits.get? i.pool) (c.cfg.env now q)
    let cache ← TokenCache.subAll cache p.tokens used
    zapLoop (c.setPool i.pool q) now sender cache is

/-- The `HotZap` branch of `ft_on_transfer`, `token_receiver.rs:150-248`. -/
def hotZap (c : Contract) (x : Ctx) (sender : AccountId) (amount : Nat)
    (referral : Option AccountId) (actions : List Action) (infos : List AddInfo) : R Contract := do
  assertE (actions ≠ [] ∧ infos ≠ []) .other
  let acc ← c.account sender
  let ts ← c.infoTokens infos
  let all := Action.tokensOf actions ++ ts
  assertE (∀ t ∈ all, c.cfg.tokenAllowed acc t = true) (.e 12)
  c.cfg.assertNoFrozen all
  let (c, outs) ← c.directActions x.now referral x.pred amount actions
  let cache ← TokenCache.addPairs FMap.empty outs
  let (c, cache) ← c.zapLoop x.now sender cache infos
  assertE (x.grew * BYTE_COST ≤ acc.near) (.e 11)
  let acc := { acc with near := acc.near - x.grew * BYTE_COST }
  let acc ← acc.depositPairs cache.entries
  c.saveAccount sender acc

/-- `ft_on_transfer`, `token_receiver.rs:96-251`. The token is the predecessor. It always returns 0,
so the token contract keeps the whole amount with the exchange unless the call panics. -/
def ftOnTransfer (c : Contract) (x : Ctx) (sender : AccountId) (amount : Nat) (msg : Msg) :
    R (Contract × List Out) := do
  x.noDeposit
  c.cfg.assertRunning
  match msg with
  | .deposit => do
    c.cfg.assertNoFrozen [x.pred]
    let c ← c.deposit sender x.pred amount
    .ok (c, [])
  | .bad => .error (.e 28)
  | .execute referral actions echo skipUnwrap recipient =>
    c.instantSwap x.now x.pred sender amount referral actions echo skipUnwrap recipient
  | .hotZap referral actions infos => do
    let c ← c.hotZap x sender amount referral actions infos
    .ok (c, [])

/-! ### Internal transfers of tokens and shares -/

/-- The shares an account may move, `multi_fungible_token.rs:74-83`. -/
def freeShares (c : Contract) (a : AccountId) (id total : Nat) : R Nat :=
  match c.accounts.get? a with
  | some acc => acc.freeOf id total
  | none => .ok total

/-- The `Pool` branch of `internal_mft_transfer`, `multi_fungible_token.rs:71-98`. -/
def transferShares (c : Contract) (id : Nat) (sender receiver : AccountId) (amount : Option Nat) :
    R (Contract × Nat) := do
  let p ← c.pool id
  let free ← c.freeShares sender id (p.shareBalance sender)
  let n := amount.getD free
  assertE (n > 0) .other
  assertE (n ≤ free) .other
  let q ← p.shareTransfer sender receiver n
  .ok (c.setPool id q, n)

/-- The `Token` branch of `internal_mft_transfer`, `multi_fungible_token.rs:99-118`. -/
def transferToken (c : Contract) (token sender receiver : AccountId) (amount : Option Nat) :
    R (Contract × Nat) := do
  let n ← expectE amount .other
  let s ← c.account sender
  let r ← c.account receiver
  let s ← s.withdraw token n
  let r ← r.deposit token n
  let c ← c.saveAccount sender s
  let c ← c.saveAccount receiver r
  .ok (c, n)

/-- `internal_mft_transfer`, `multi_fungible_token.rs:60-124`. -/
def internalMftTransfer (c : Contract) (tokenId : List Char) (sender receiver : AccountId)
    (amount : Option Nat) : R (Contract × Nat) := do
  assertE (sender ≠ receiver) (.e 33)
  match parseTokenId tokenId with
  | .pool id => c.transferShares id sender receiver amount
  | .token t => c.transferToken t sender receiver amount

/-- `internal_mft_balance`, `multi_fungible_token.rs:126-134`. -/
def mftBalance (c : Contract) (tokenId : List Char) (a : AccountId) : R Nat :=
  match parseTokenId tokenId with
  | .pool id => do
    let p ← c.pool id
    .ok (p.shareBalance a)
  | .token t =>
    match c.accounts.get? a with
    | some acc => .ok (acc.bal t)
    | none => .ok 0

/-- `mft_transfer`, `multi_fungible_token.rs:212-228`. -/
def mftTransfer (c : Contract) (x : Ctx) (tokenId : List Char) (receiver : AccountId)
    (amount : Nat) : R Contract := do
  x.oneYocto
  c.cfg.assertRunning
  let (c, _) ← c.internalMftTransfer tokenId x.pred receiver (some amount)
  .ok c

/-- `mft_transfer_call`, `multi_fungible_token.rs:231-268`, and with `amount = none`
`mft_transfer_all_call`, `multi_fungible_token.rs:271-307`. -/
def mftTransferCall (c : Contract) (x : Ctx) (tokenId : List Char) (receiver : AccountId)
    (amount : Option Nat) : R (Contract × List Out) := do
  x.oneYocto
  c.cfg.assertRunning
  let (c, n) ← c.internalMftTransfer tokenId x.pred receiver amount
  .ok (c, [.mftCall tokenId x.pred receiver n])

/-- `mft_register`, `multi_fungible_token.rs:174-186`. -/
def mftRegister (c : Contract) (x : Ctx) (tokenId : List Char) (a : AccountId) :
    R (Contract × List Out) := do
  c.cfg.assertRunning
  match parseTokenId tokenId with
  | .token _ => .error (.e 110)
  | .pool id => do
    let p ← c.pool id
    let q ← p.shareRegister a
    let (_, outs) ← x.checkStorage
    .ok (c.setPool id q, outs)

/-- A refund of freed storage, `multi_fungible_token.rs:201-204`. -/
def storageRefund (x : Ctx) (a : AccountId) : List Out :=
  if x.shrank > 0 then [.near a (x.shrank * BYTE_COST)] else []

/-- `mft_unregister`, `multi_fungible_token.rs:190-207`. -/
def mftUnregister (c : Contract) (x : Ctx) (tokenId : List Char) : R (Contract × List Out) := do
  x.oneYocto
  c.cfg.assertRunning
  match parseTokenId tokenId with
  | .token _ => .error (.e 111)
  | .pool id => do
    let p ← c.pool id
    let q ← p.shareUnregister x.pred
    .ok (c.setPool id q, storageRefund x x.pred)

/-! ### Storage deposits -/

/-- `internal_register_account`, `account_deposit.rs:513-517`. -/
def registerAccount (c : Contract) (a : AccountId) (amount : Nat) : R Contract := do
  let acc := c.accountOrNew a
  let n ← addW 128 acc.near amount
  c.saveAccount a { acc with near := n }

/-- `storage_deposit`, `storage_impl.rs:7-42`. -/
def storageDeposit (c : Contract) (x : Ctx) (account : Option AccountId) (registrationOnly : Bool) :
    R (Contract × List Out) := do
  c.cfg.assertRunning
  let a := account.getD x.pred
  let known := c.accounts.contains a
  assertE (¬ (x.deposit < Account.minStorageUsage ∧ known = false)) (.e 17)
  if registrationOnly = true then
    if known = true then
      .ok (c, if x.deposit > 0 then [.near x.pred x.deposit] else [])
    else do
      let c ← c.registerAccount a Account.minStorageUsage
      let refund ← subW x.deposit Account.minStorageUsage
      .ok (c, if refund > 0 then [.near x.pred refund] else [])
  else do
    let c ← c.registerAccount a x.deposit
    .ok (c, [])

/-- `storage_withdraw`, `storage_impl.rs:45-54`, with `internal_storage_withdraw`,
`account_deposit.rs:520-532`. -/
def storageWithdraw (c : Contract) (x : Ctx) (amount : Nat) : R (Contract × List Out) := do
  x.oneYocto
  c.cfg.assertRunning
  let acc ← c.account x.pred
  assertE (acc.storageAvailable > 0) (.e 15)
  let n := if amount = 0 then acc.storageAvailable else amount
  assertE (n ≤ acc.storageAvailable) (.e 16)
  let c ← c.saveAccount x.pred { acc with near := acc.near - n }
  .ok (c, [.near x.pred n])

/-- `storage_unregister`, `storage_impl.rs:59-75`. -/
def storageUnregister (c : Contract) (x : Ctx) : R (Contract × List Out) := do
  x.oneYocto
  c.cfg.assertRunning
  match c.accounts.get? x.pred with
  | none => .ok (c, [])
  | some acc => do
    assertE (acc.tokens.size = 0 ∧ acc.shadow.size = 0) (.e 18)
    .ok ({ c with accounts := c.accounts.erase x.pred }, [.near x.pred acc.near])

/-! ### Shadow positions -/

/-- The amount that can be moved, `shadow_actions.rs:72-105`. -/
def shadowMax (acc : Account) (act : ShadowAction) (id total : Nat) : R Nat :=
  match acc.shadow.get? id with
  | some r =>
    match act with
    | .toFarming => r.availableFarming total
    | .toBurrowland => r.availableBurrow total
    | .fromFarming => .ok r.farm
    | .fromBurrowland => .ok r.burrow
  | none =>
    match act with
    | .toFarming | .toBurrowland => .ok total
    | .fromFarming | .fromBurrowland => .ok 0

/-- `shadow_action`, `shadow_actions.rs:64-169`. -/
def shadowAction (c : Contract) (x : Ctx) (act : ShadowAction) (id : Nat) (amount : Option Nat) :
    R (Contract × List Out) := do
  c.cfg.assertRunning
  let acc ← c.account x.pred
  let p ← c.pool id
  let max ← shadowMax acc act id (p.shareBalance x.pred)
  let n := amount.getD max
  assertE (n > 0) .other
  assertE (n ≤ max) .other
  match act with
  | .toFarming | .toBurrowland => do
    let acc ← acc.updateShadow id act n
    let c ← c.saveAccount x.pred acc
    let (fee, outs) ← x.checkStorage
    .ok (c, outs ++ [.shadow act x.pred id n fee])
  | .fromFarming | .fromBurrowland => .ok (c, [.shadow act x.pred id n 0])

/-- Freed storage credited to an account, `shadow_actions.rs:195-198`, `277-279`. -/
def creditStorage (x : Ctx) (acc : Account) : R Account := do
  let n ← addW 128 acc.near (x.shrank * BYTE_COST)
  .ok { acc with near := n }

/-- The farm shares to release, `shadow_actions.rs:187-191`. -/
def seedToWithdraw (available amount : Nat) : Nat :=
  if available > 0 then (if available > amount then 0 else amount - available) else amount

/-- The release of the farm shares, `shadow_actions.rs:192-194`. -/
def releaseSeed (acc : Account) (id seed : Nat) : R Account :=
  if seed > 0 then acc.updateShadow id .fromFarming seed else .ok acc

/-- `on_burrow_liquidation`, `shadow_actions.rs:171-238`. -/
def onBurrowLiquidation (c : Contract) (x : Ctx) (liquidator debtor : AccountId)
    (shadowId : List Char) (amount : Nat) (mins : List Nat) : R (Contract × List Out) := do
  x.noDeposit
  assertE (c.cfg.burrowland = x.pred) .other
  let id ← shadowIdToPoolId shadowId
  let p ← c.pool id
  c.cfg.assertNoFrozen p.tokens
  let acc ← c.account debtor
  let acc ← acc.updateShadow id .fromBurrowland amount
  let available ← acc.freeOf id (p.shareBalance debtor)
  let seed := seedToWithdraw available amount
  let acc ← releaseSeed acc id seed
  let acc ← creditStorage x acc
  let c ← c.saveAccount debtor acc
  let liq ← c.account liquidator
  let (q, paid) ← p.removeLiquidity debtor amount mins false
  let liq ← liq.depositAll q.tokens paid
  let c ← (c.setPool id q).saveAccount liquidator liq
  .ok (c, if seed > 0 then [.liquidated debtor id seed] else [])

/-! ### Donations -/

/-- `donation_share`, `donation.rs:15-38`. -/
def donationShare (c : Contract) (x : Ctx) (id : Nat) (amount : Option Nat) (unregister : Bool) :
    R (Contract × List Out) := do
  x.oneYocto
  c.cfg.assertRunning
  let p ← c.pool id
  let n := amount.getD (p.shareBalance x.pred)
  assertE (n > 0) .other
  let q ← p.shareTransfer x.pred c.self n
  let q ← (if unregister = true then q.shareUnregister x.pred else .ok q : R Pool)
  let c := c.setPool id q
  if x.shrank > 0 then
    match c.accounts.get? x.pred with
    | some acc => do
      let acc ← creditStorage x acc
      let c ← c.saveAccount x.pred acc
      .ok (c, [])
    | none => .ok (c, [.near x.pred (x.shrank * BYTE_COST)])
  else .ok (c, [])

/-- `donation_token`, `donation.rs:48-64`. The default amount is computed even if an amount is
given, so the token must be registered. -/
def donationToken (c : Contract) (x : Ctx) (token : AccountId) (amount : Option Nat)
    (unregister : Bool) : R Contract := do
  x.oneYocto
  c.cfg.assertRunning
  let acc ← c.account x.pred
  let all ← expectE (acc.balance? token) .other
  let n := amount.getD all
  assertE (n > 0) .other
  let acc ← acc.withdraw token n
  let acc ← unregisterIf unregister acc token
  let c ← c.saveAccount x.pred acc
  let own ← c.account c.cfg.owner
  let own ← own.deposit token n
  .ok (c.putAccount c.cfg.owner own)

end Contract
end Verif

import Verif.Exchange.Admin

/-
All entry points of the contract in one type, and the callbacks the contract receives from itself.
-/

namespace Verif

/-- A call of a public method, except views and callbacks. -/
inductive Call where
  | addSimplePool (tokens : List AccountId) (fee : Nat)
  | addCurvePool (kind : CurveKind) (tokens : List AccountId) (decimals : List Nat) (fee amp : Nat)
  | executeActions (actions : List Action) (referral : Option AccountId)
  | executeInVa (uses : List (AccountId × Nat)) (actions : List Action)
      (referral : Option AccountId)
  | addLiquidity (id : Nat) (amounts : List Nat) (mins : Option (List Nat))
  | addStableLiquidity (id : Nat) (amounts : List Nat) (minShares : Nat)
  | removeLiquidity (id shares : Nat) (mins : List Nat)
  | removeByTokens (id : Nat) (amounts : List Nat) (maxBurn : Nat)
  | registerTokens (tokens : List AccountId)
  | unregisterTokens (tokens : List AccountId)
  | withdraw (token : AccountId) (amount : Nat) (unregister : Bool) (skipUnwrap : Option Bool)
  | claimLostfound (token : AccountId)
  | ftOnTransfer (sender : AccountId) (amount : Nat) (msg : Msg)
  | mftTransfer (tokenId : List Char) (receiver : AccountId) (amount : Nat)
  | mftTransferCall (tokenId : List Char) (receiver : AccountId) (amount : Option Nat)
  | mftRegister (tokenId : List Char) (account : AccountId)
  | mftUnregister (tokenId : List Char)
  | storageDeposit (account : Option AccountId) (registrationOnly : Bool)
  | storageWithdraw (amount : Nat)
  | storageUnregister
  | shadowAction (act : ShadowAction) (id : Nat) (amount : Option Nat)
  | onBurrowLiquidation (liquidator debtor : AccountId) (shadowId : List Char) (amount : Nat)
      (mins : List Nat)
  | donationShare (id : Nat) (amount : Option Nat) (unregister : Bool)
  | donationToken (token : AccountId) (amount : Option Nat) (unregister : Bool)
  | setting (s : Setting)
  | retrieveUnmanaged (token : AccountId) (amount : Nat)
  | modifyTotalFee (id fee : Nat)
  | removeExchangeFee (id shares : Nat) (mins : List Nat)
  | withdrawOwnerToken (token : AccountId) (amount : Nat) (skipUnwrap : Option Bool)
  | rampAmp (id future futureTime : Nat)
  | stopRampAmp (id : Nat)
  | registerTwap (id : Nat)
  | unregisterTwap (id : Nat)
  | syncTwap (id : Nat)

/-- The outcome of a promise as its callback sees it. `value` is the number returned by
`mft_on_transfer`, `none` if it cannot be decoded. -/
inductive Outcome where
  | success (value : Option Nat)
  | failure

namespace Contract

/-- Dispatch of a call. -/
def exec (c : Contract) (x : Ctx) : Call → R (Contract × List Out)
  | .addSimplePool tokens fee => c.addSimplePool x tokens fee
  | .addCurvePool kind tokens decimals fee amp => c.addCurvePool x kind tokens decimals fee amp
  | .executeActions actions referral => do
    let (c, _) ← c.executeActions x actions referral
    .ok (c, [])
  | .executeInVa uses actions referral => do
    let (c, _) ← c.executeInVa x uses actions referral
    .ok (c, [])
  | .addLiquidity id amounts mins => do
    let (c, outs, _) ← c.addLiquidity x id amounts mins
    .ok (c, outs)
  | .addStableLiquidity id amounts minShares => do
    let (c, outs, _) ← c.addStableLiquidity x id amounts minShares
    .ok (c, outs)
  | .removeLiquidity id shares mins => do
    let (c, _) ← c.removeLiquidity x id shares mins
    .ok (c, [])
  | .removeByTokens id amounts maxBurn => do
    let (c, _) ← c.removeByTokens x id amounts maxBurn
    .ok (c, [])
  | .registerTokens tokens => do
    let c ← c.registerTokens x tokens
    .ok (c, [])
  | .unregisterTokens tokens => do
    let c ← c.unregisterTokens x tokens
    .ok (c, [])
  | .withdraw token amount unregister skipUnwrap => c.withdraw x token amount unregister skipUnwrap
  | .claimLostfound token => c.claimLostfound x token
  | .ftOnTransfer sender amount msg => c.ftOnTransfer x sender amount msg
  | .mftTransfer tokenId receiver amount => do
    let c ← c.mftTransfer x tokenId receiver amount
    .ok (c, [])
  | .mftTransferCall tokenId receiver amount => c.mftTransferCall x tokenId receiver amount
  | .mftRegister tokenId account => c.mftRegister x tokenId account
  | .mftUnregister tokenId => c.mftUnregister x tokenId
  | .storageDeposit account only => c.storageDeposit x account only
  | .storageWithdraw amount => c.storageWithdraw x amount
  | .storageUnregister => c.storageUnregister x
  | .shadowAction act id amount => c.shadowAction x act id amount
  | .onBurrowLiquidation liquidator debtor shadowId amount mins =>
    c.onBurrowLiquidation x liquidator debtor shadowId amount mins
  | .donationShare id amount unregister => c.donationShare x id amount unregister
  | .donationToken token amount unregister => do
    let c ← c.donationToken x token amount unregister
    .ok (c, [])
  | .setting s => do
    let c ← c.setting x s
    .ok (c, [])
  | .retrieveUnmanaged token amount => do
    let outs ← c.retrieveUnmanaged x token amount
    .ok (c, outs)
  | .modifyTotalFee id fee => do
    let c ← c.modifyTotalFee x id fee
    .ok (c, [])
  | .removeExchangeFee id shares mins => do
    let c ← c.removeExchangeFee x id shares mins
    .ok (c, [])
  | .withdrawOwnerToken token amount skipUnwrap => c.withdrawOwnerToken x token amount skipUnwrap
  | .rampAmp id future futureTime => do
    let c ← c.rampAmp x id future futureTime
    .ok (c, [])
  | .stopRampAmp id => do
    let c ← c.stopRampAmp x id
    .ok (c, [])
  | .registerTwap id => do
    let c ← c.registerTwap x id
    .ok (c, [])
  | .unregisterTwap id => do
    let c ← c.unregisterTwap x id
    .ok (c, [])
  | .syncTwap id => do
    let c ← c.syncTwap x id
    .ok (c, [])

/-- `insert_lostfound_token`, `account_lostfound.rs:81-92`. -/
def insertLostfound (c : Contract) (a token : AccountId) (amount : Nat) : R Contract := do
  let n ← addW 128 (c.lostfound.getD (a, token) 0) amount
  .ok { c with lostfound := c.lostfound.insert (a, token) n }

/-- `internal_lostfound`, `account_deposit.rs:503-507`. -/
def ownerLostfound (c : Contract) (token : AccountId) (amount : Nat) : R Contract := do
  let acc ← (c.accountOrNew c.cfg.owner).deposit token amount
  .ok (c.putAccount c.cfg.owner acc)

/-- `MIN_CONTRACT_FREE_BALANCE`, 100 NEAR. -/
def MIN_FREE : Nat := 100 * 10 ^ 24

/-- The second half of the failure handling, `account_deposit.rs:471-491`. -/
def handleLost (c : Contract) (x : Ctx) (a token : AccountId) (amount : Nat) : R Contract := do
  let locked ← mulW 128 BYTE_COST x.usage
  let limit ← addW 128 locked MIN_FREE
  if x.nearBalance > limit then c.insertLostfound a token amount
  else c.ownerLostfound token amount

/-- `internal_handle_fail_in_withdraw_callback`, `account_deposit.rs:440-492`. -/
def handleFail (c : Contract) (x : Ctx) (a token : AccountId) (amount : Nat) : R Contract :=
  match c.accounts.get? a with
  | some acc => do
    let r ← acc.depositChecked token amount
    match r with
    | some acc' => .ok (c.putAccount a acc')
    | none => c.handleLost x a token amount
  | none => c.handleLost x a token amount

/-- The amount to give back after a transfer-call, `multi_fungible_token.rs:321-331`. -/
def unusedOf (amount : Nat) : Outcome → Nat
  | .success (some v) => min amount v
  | .success none => amount
  | .failure => amount

/-- `mft_resolve_transfer`, `multi_fungible_token.rs:313-347`: the new state and the reported
refund. -/
def mftResolve (c : Contract) (tokenId : List Char) (sender receiver : AccountId) (amount : Nat)
    (o : Outcome) : R (Contract × Nat) := do
  let unused := unusedOf amount o
  if unused > 0 then do
    let held ← c.mftBalance tokenId receiver
    if held > 0 then do
      let to := if c.accounts.contains sender = true then sender else c.self
      let (c, _) ← c.internalMftTransfer tokenId receiver to (some (min held unused))
      .ok (c, unused)
    else .ok (c, unused)
  else .ok (c, unused)

/-- The opposite of a `To…` action. -/
def _root_.Verif.ShadowAction.undo : ShadowAction → ShadowAction
  | .toFarming => .fromFarming
  | .toBurrowland => .fromBurrowland
  | a => a

/-- `callback_on_shadow`, `shadow_actions.rs:244-286`. -/
def callbackOnShadow (c : Contract) (x : Ctx) (act : ShadowAction) (sender : AccountId)
    (id amount fee : Nat) (o : Outcome) : R (Contract × List Out) :=
  match o with
  | .failure => do
    let acc ← c.account sender
    match act with
    | .toFarming | .toBurrowland => do
      let acc ← acc.updateShadow id act.undo amount
      let c ← c.saveAccount sender acc
      .ok (c, if fee > 0 then [.near sender fee] else [])
    | .fromFarming | .fromBurrowland => do
      let c ← c.saveAccount sender acc
      .ok (c, [])
  | .success _ =>
    match act with
    | .fromFarming | .fromBurrowland => do
      let acc ← c.account sender
      let acc ← acc.updateShadow id act amount
      let acc ← creditStorage x acc
      let c ← c.saveAccount sender acc
      .ok (c, [])
    | .toFarming | .toBurrowland => .ok (c, [])

/-- The callback that a promise triggers: `exchange_callback_post_withdraw`,
`exchange_callback_post_withdraw_near` (`account_deposit.rs:389-435`), `mft_resolve_transfer`,
`callback_on_shadow`, `callback_on_burrow_liquidation`. -/
def callback (c : Contract) (x : Ctx) (out : Out) (o : Outcome) : R (Contract × List Out) :=
  match out with
  | .ft token to amount | .ftCall token to amount =>
    match o with
    | .success _ => .ok (c, [])
    | .failure => do
      let c ← c.handleFail x to token amount
      .ok (c, [])
  | .unwrap _ to amount =>
    match o with
    | .success _ => .ok (c, [.near to amount])
    | .failure => do
      let token ← expectE c.cfg.wnear .index
      let c ← c.handleFail x to token amount
      .ok (c, [])
  | .mftCall tokenId sender receiver amount => do
    let (c, _) ← c.mftResolve tokenId sender receiver amount o
    .ok (c, [])
  | .shadow act sender id amount fee => c.callbackOnShadow x act sender id amount fee o
  | .ftPlain .. | .near .. | .liquidated .. => .ok (c, [])

/-- `update_token_rate_callback`, `lib.rs:582-610`, with an arbitrary new rate and time. A failed
call changes nothing. `Oracle.lean` models where the rate comes from. -/
def setRate (c : Contract) (t : AccountId) (rate time : Nat) : Contract :=
  match c.cfg.rates.get? t with
  | some r =>
    let r := { r with rate := rate, updated := time }
    { c with cfg := { c.cfg with rates := c.cfg.rates.insert t r } }
  | none => c

/-- The callbacks that store a degen price, `lib.rs:632-642`, `price_oracle.rs:100-122`,
`pyth_oracle.rs:95-120`, with an arbitrary price and time. `Oracle.lean` models where the price comes
from. -/
def setDegenPrice (c : Contract) (t : AccountId) (price time : Nat) : Contract :=
  match c.cfg.degens.get? t with
  | some d =>
    let d := { d with price := some (price, time) }
    { c with cfg := { c.cfg with degens := c.cfg.degens.insert t d } }
  | none => c

end Contract
end Verif

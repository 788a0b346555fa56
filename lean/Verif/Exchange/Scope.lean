import Verif.Exchange.Spec

/-
What an event is about: the accounts and the pools it names. Vocabulary of C78.
-/

namespace Verif

/-- Some accounts and some pools. -/
structure Scope where
  accounts : List AccountId
  pools : List Nat

namespace Scope

/-- No account and no pool in common. The recorded volumes are keyed by the pool id modulo `2^32`,
so pools whose ids agree modulo `2^32` count as common. -/
def Disjoint (s r : Scope) : Prop :=
  (∀ a ∈ s.accounts, a ∉ r.accounts) ∧
  ∀ i ∈ s.pools, ∀ j ∈ r.pools, i % 2 ^ 32 ≠ j % 2 ^ 32

/-- All accounts and pools of `s` are in `r`. -/
def Within (s r : Scope) : Prop :=
  (∀ a ∈ s.accounts, a ∈ r.accounts) ∧ ∀ i ∈ s.pools, i ∈ r.pools

end Scope

/-- Two states agree on everything that is stored for the accounts and the pools of a scope, and on
the settings. -/
structure SameOn (s : Scope) (c d : Contract) : Prop where
  self : c.self = d.self
  cfg : c.cfg = d.cfg
  accounts : ∀ a ∈ s.accounts, c.accounts.get? a = d.accounts.get? a
  lostfound : ∀ a ∈ s.accounts, ∀ t, c.lostfound.get? (a, t) = d.lostfound.get? (a, t)
  pools : ∀ i ∈ s.pools, c.pools[i]? = d.pools[i]?
  twaps : ∀ i ∈ s.pools, c.twaps.get? i = d.twaps.get? i
  volumes : ∀ i ∈ s.pools, c.volumes.get? (i % 2 ^ 32) = d.volumes.get? (i % 2 ^ 32)

/-- Two states agree on everything that is stored for the accounts and the pools outside a scope,
on the number of pools and on the settings. -/
structure SameOff (s : Scope) (c d : Contract) : Prop where
  self : c.self = d.self
  cfg : c.cfg = d.cfg
  accounts : ∀ a, a ∉ s.accounts → c.accounts.get? a = d.accounts.get? a
  lostfound : ∀ a, a ∉ s.accounts → ∀ t, c.lostfound.get? (a, t) = d.lostfound.get? (a, t)
  count : c.pools.length = d.pools.length
  pools : ∀ i, i ∉ s.pools → c.pools[i]? = d.pools[i]?
  twaps : ∀ i, i ∉ s.pools → c.twaps.get? i = d.twaps.get? i
  volumes : ∀ v, (∀ i ∈ s.pools, i % 2 ^ 32 ≠ v) → c.volumes.get? v = d.volumes.get? v

/-- Two states that hold the same. -/
structure Same (c d : Contract) : Prop where
  self : c.self = d.self
  cfg : c.cfg = d.cfg
  pools : c.pools = d.pools
  accounts : ∀ a, c.accounts.get? a = d.accounts.get? a
  lostfound : ∀ p, c.lostfound.get? p = d.lostfound.get? p
  twaps : ∀ i, c.twaps.get? i = d.twaps.get? i
  volumes : ∀ v, c.volumes.get? v = d.volumes.get? v

/-- The pool named by a token id of the multi-token interface. -/
def poolsOf (tokenId : List Char) : List Nat :=
  match parseTokenId tokenId with
  | .pool id => [id]
  | .token _ => []

/-- The account that is credited by a message with tokens, if any, and the pools it names. An
instant swap needs no account. -/
def Msg.scope (sender : AccountId) : Msg → Scope
  | .deposit => ⟨[sender], []⟩
  | .bad => ⟨[], []⟩
  | .execute _ actions _ _ _ => ⟨[], actions.map Action.pool⟩
  | .hotZap _ actions infos => ⟨[sender], actions.map Action.pool ++ infos.map AddInfo.pool⟩

/-- The accounts and pools that a call names, `none` for the creation of a pool and for settings.
`owner` is the owner of the exchange: donations and exchange fees go there. -/
def Call.scope (owner : AccountId) (x : Ctx) : Call → Option Scope
  | .addSimplePool .. | .addCurvePool .. | .setting .. => none
  | .executeActions actions _ | .executeInVa _ actions _ =>
    some ⟨[x.pred], actions.map Action.pool⟩
  | .addLiquidity id _ _ | .addStableLiquidity id _ _ | .removeLiquidity id _ _
  | .removeByTokens id _ _ | .shadowAction _ id _ | .donationShare id _ _ => some ⟨[x.pred], [id]⟩
  | .registerTokens _ | .unregisterTokens _ | .withdraw .. | .claimLostfound _
  | .storageWithdraw _ | .storageUnregister => some ⟨[x.pred], []⟩
  | .ftOnTransfer sender _ msg => some (msg.scope sender)
  | .mftTransfer tokenId receiver _ | .mftTransferCall tokenId receiver _ =>
    some ⟨[x.pred, receiver], poolsOf tokenId⟩
  | .mftRegister tokenId _ | .mftUnregister tokenId => some ⟨[], poolsOf tokenId⟩
  | .storageDeposit account _ => some ⟨[account.getD x.pred], []⟩
  | .onBurrowLiquidation liquidator debtor shadowId _ _ =>
    some ⟨[liquidator, debtor], match shadowIdToPoolId shadowId with | .ok id => [id] | _ => []⟩
  | .donationToken .. => some ⟨[x.pred, owner], []⟩
  | .retrieveUnmanaged .. => some ⟨[], []⟩
  | .removeExchangeFee id _ _ => some ⟨[owner], [id]⟩
  | .withdrawOwnerToken .. => some ⟨[owner], []⟩
  | .modifyTotalFee id _ | .rampAmp id _ _ | .stopRampAmp id | .registerTwap id
  | .unregisterTwap id | .syncTwap id => some ⟨[], [id]⟩

/-- The accounts and pools that a callback is about. Tokens that cannot be given back to the account
they came from go to the owner, shares go to the exchange. -/
def Out.scope (self owner : AccountId) : Out → Outcome → Scope
  | .ft _ to _, .failure | .ftCall _ to _, .failure | .unwrap _ to _, .failure => ⟨[to, owner], []⟩
  | .mftCall tokenId sender receiver _, _ => ⟨[sender, receiver, self], poolsOf tokenId⟩
  | .shadow _ sender _ _ _, _ => ⟨[sender], []⟩
  | _, _ => ⟨[], []⟩

/-- The accounts and pools that an event is about. -/
def Event.scope (self owner : AccountId) : Event → Option Scope
  | call x k => k.scope owner x
  | callback _ out o => some (out.scope self owner o)
  | rate .. | price .. => none

/-- The creation of a pool. -/
def Event.creates : Event → Prop
  | call _ (.addSimplePool ..) | call _ (.addCurvePool ..) => True
  | _ => False

namespace Contract

/-- What can be seen of an event: the promises it creates, or the panic. -/
def seen (c : Contract) (e : Event) : R (List Out) :=
  match c.apply e with
  | .ok r => .ok r.2
  | .error e => .error e

/-- What the events that satisfy `mine` bring about, in a run of all of them. -/
def outcomes (c : Contract) (mine : Event → Bool) : List Event → List (R (List Out))
  | [] => []
  | e :: es => (if mine e then [c.seen e] else []) ++ (c.step e).outcomes mine es

end Contract
end Verif

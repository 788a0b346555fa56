import Verif.Exchange.View
import Verif.Paging

/-
Views about the holdings of one account: `/repo/ref-exchange/src/views.rs:513-569` and `622-641`,
`storage_impl.rs:77-95`, `account_lostfound.rs:27-49` and `multi_fungible_token.rs:141-169`.
`get_deposit` and `get_pool_shares` are in `Spec.lean` and `PoolView.lean`. A view that returns a map
is modelled as a list of its entries, whose order means nothing.
-/

namespace Verif

/-- `StorageBalance` of the storage standard. -/
structure StorageBalance where
  total : Nat
  available : Nat
  deriving DecidableEq

namespace Contract

/-- `storage_balance_bounds`, `storage_impl.rs:77-82`: the minimum; there is no maximum. -/
def storageBalanceBounds (_ : Contract) : Nat := Account.minStorageUsage

/-- `storage_balance_of`, `storage_impl.rs:84-95`. -/
def storageBalanceOf (c : Contract) (a : AccountId) : Option StorageBalance :=
  (c.accounts.get? a).map fun acc => ⟨acc.near, acc.storageAvailable⟩

/-- `get_user_storage_state`, `views.rs:629-641`: what was paid for storage and what is used. -/
def getUserStorageState (c : Contract) (a : AccountId) : Option (Nat × Nat) :=
  (c.accounts.get? a).map fun acc => (acc.near, acc.storageUsage)

/-- `get_user_whitelisted_tokens`, `views.rs:622-626`, with `get_tokens`,
`account_deposit.rs:110-118`. -/
def getUserTokens (c : Contract) (a : AccountId) : List AccountId :=
  match c.accounts.get? a with
  | some acc => acc.tokens.keys
  | none => []

/-- `get_deposits`, `views.rs:513-523`. -/
def getDeposits (c : Contract) (a : AccountId) : R (List (AccountId × Nat)) :=
  match c.accounts.get? a with
  | some acc => acc.tokens.keys.mapM fun t => do
    let n ← expectE (acc.balance? t) .other
    .ok (t, n)
  | none => .ok []

/-- `get_tokens_paged`, `views.rs:525-539`. `keys` is the order in which the map `tokens` keeps its
keys; tokens that are still in `legacy_tokens` are not among them. -/
def getTokensPaged (c : Contract) (keys : List AccountId) (a : AccountId)
    (start limit : Option Nat) : R (List (AccountId × Nat)) :=
  match c.accounts.get? a with
  | some acc =>
    page keys.length (fun i => do
      let t ← expectE keys[i]? .other
      let s ← expectE (acc.tokens.get? t) .other
      assertE (s.legacy = false) .other
      .ok (t, s.amt)) (start.getD 0) (limit.getD keys.length)
  | none => .ok []

/-- `get_shadow_records`, `views.rs:553-563`. -/
def getShadowRecords (c : Contract) (a : AccountId) : List (Nat × ShadowRecord) :=
  match c.accounts.get? a with
  | some acc => acc.shadow.entries
  | none => []

/-- `get_lostfound_token`, `account_lostfound.rs:27-33`. -/
def getLostfoundToken (c : Contract) (a t : AccountId) : Nat := c.lostfound.getD (a, t) 0

/-- `list_lostfound_tokens`, `account_lostfound.rs:35-49`. `keys` is the order in which the map of
the account keeps its tokens. -/
def listLostfoundTokens (c : Contract) (keys : List AccountId) (a : AccountId)
    (start limit : Option Nat) : R (List (AccountId × Nat)) :=
  page keys.length (fun i => do
    let t ← expectE keys[i]? .other
    let n ← expectE (c.lostfound.get? (a, t)) .other
    .ok (t, n)) (start.getD 0) (limit.getD keys.length)

/-- `mft_total_supply`, `multi_fungible_token.rs:148-156`. -/
def mftTotalSupply (c : Contract) (tokenId : List Char) : R Nat :=
  match parseTokenId tokenId with
  | .pool id => do
    let p ← c.pool id
    .ok p.supply
  | .token _ => .error .other

/-- `mft_has_registered`, `multi_fungible_token.rs:158-169`. -/
def mftHasRegistered (c : Contract) (tokenId : List Char) (a : AccountId) : Bool :=
  match parseTokenId tokenId with
  | .token _ => false
  | .pool id =>
    match c.pools[id]? with
    | some p => p.shareRegistered a
    | none => false

end Contract
end Verif

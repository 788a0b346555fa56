import Verif.Simple.Model

/-
Model of a user's internal account: `/repo/ref-exchange/src/account_deposit.rs:73-316`, and of
the token cache of `/repo/ref-exchange/src/utils.rs:136-160`.
-/

namespace Verif

/-- `env::storage_byte_cost()`: 10^19 yoctoNEAR per byte. -/
def BYTE_COST : Nat := 10 ^ 19

/-- One token balance of an account. `legacy` tells whether it is stored in `legacy_tokens`
rather than in `tokens`; the two maps never share a key, because a deposit or withdrawal removes the
legacy entry before it writes the new one. -/
structure Slot where
  amt : Nat
  legacy : Bool
  deriving DecidableEq

/-- `ShadowRecord`, `account_deposit.rs:229-233`: shares of one pool that are pledged to the farm
and to the lending contract. -/
structure ShadowRecord where
  farm : Nat
  burrow : Nat
  deriving DecidableEq

namespace ShadowRecord

/-- `free_shares`, `account_deposit.rs:240-243`. -/
def freeShares (r : ShadowRecord) (total : Nat) : R Nat := subW total (max r.farm r.burrow)

/-- `available_farming_shares`, `account_deposit.rs:245-247`. -/
def availableFarming (r : ShadowRecord) (total : Nat) : R Nat := subW total r.farm

/-- `available_burrowland_shares`, `account_deposit.rs:249-251`. -/
def availableBurrow (r : ShadowRecord) (total : Nat) : R Nat := subW total r.burrow

end ShadowRecord

/-- `ShadowActions`, `account_deposit.rs:274-281`. -/
inductive ShadowAction where
  | toFarming
  | fromFarming
  | toBurrowland
  | fromBurrowland
  deriving DecidableEq

/-- `Account`, `account_deposit.rs:73-83`. `tokens` holds both token maps, see `Slot`. The unused
field `storage_used` is omitted. -/
structure Account where
  near : Nat
  tokens : FMap AccountId Slot
  shadow : FMap Nat ShadowRecord

namespace Account

/-- `Account::new`, `account_deposit.rs:86-98`. -/
def new : Account := ⟨0, FMap.empty, FMap.empty⟩

/-- `get_balance`, `account_deposit.rs:100-108`. -/
def balance? (a : Account) (t : AccountId) : Option Nat := (a.tokens.get? t).map Slot.amt

/-- Balance, 0 if the token is not registered. -/
def bal (a : Account) (t : AccountId) : Nat := (a.balance? t).getD 0

/-- Some balance, possibly 0, is recorded for the token. -/
def registered (a : Account) (t : AccountId) : Bool := a.tokens.contains t

/-- `storage_usage`, `account_deposit.rs:177-183`: 102 bytes plus 84 per legacy token and 148 per
token. The computation cannot overflow as long as the account has fewer than 2^56 tokens, so
no check is modelled. -/
def storageUsage (a : Account) : Nat :=
  (102 + a.tokens.sum fun _ s => if s.legacy then 84 else 148) * BYTE_COST

/-- `storage_available`, `account_deposit.rs:186-194`; truncated subtraction. -/
def storageAvailable (a : Account) : Nat := a.near - a.storageUsage

/-- `min_storage_usage`, `account_deposit.rs:206-208`. -/
def minStorageUsage : Nat := 102 * BYTE_COST

/-- `deposit_with_storage_check`, `account_deposit.rs:122-142`: `none` stands for `false`, in which
case the account is left unchanged. -/
def depositChecked (a : Account) (t : AccountId) (amount : Nat) : R (Option Account) :=
  match a.tokens.get? t with
  | some s => do
    let n ← addW 128 s.amt amount
    .ok (some { a with tokens := a.tokens.insert t ⟨n, s.legacy⟩ })
  | none =>
    let b : Account := { a with tokens := a.tokens.insert t ⟨amount, false⟩ }
    if b.storageUsage ≤ b.near then .ok (some b) else .ok none

/-- `deposit`, `account_deposit.rs:145-156`. -/
def deposit (a : Account) (t : AccountId) (amount : Nat) : R Account :=
  if amount > 0 then do
    let n ← addW 128 amount (a.bal t)
    .ok { a with tokens := a.tokens.insert t ⟨n, false⟩ }
  else .ok a

/-- `withdraw`, `account_deposit.rs:160-173`. -/
def withdraw (a : Account) (t : AccountId) (amount : Nat) : R Account :=
  if amount > 0 then do
    let s ← expectE (a.tokens.get? t) (.e 21)
    assertE (s.amt ≥ amount) (.e 22)
    .ok { a with tokens := a.tokens.insert t ⟨s.amt - amount, false⟩ }
  else .ok a

/-- `register`, `account_deposit.rs:211-218`. -/
def register (a : Account) : List AccountId → Account
  | [] => a
  | t :: ts =>
    register (if a.registered t then a else { a with tokens := a.tokens.insert t ⟨0, false⟩ }) ts

/-- `unregister`, `account_deposit.rs:222-227`. -/
def unregister (a : Account) (t : AccountId) : R Account := do
  assertE (a.bal t = 0) (.e 24)
  .ok { a with tokens := a.tokens.erase t }

/-- The loop of `unregister_tokens`, `account_deposit.rs:339-341`. -/
def unregisterAll (a : Account) : List AccountId → R Account
  | [] => .ok a
  | t :: ts => do
    let b ← a.unregister t
    b.unregisterAll ts

/-- The loops that deposit one amount per token, e.g. `lib.rs:511-513`. Extra amounts are ignored,
a missing one is an index panic. -/
def depositAll (a : Account) : (toks : List AccountId) → (amounts : List Nat) → R Account
  | [], _ => .ok a
  | _ :: _, [] => .error .index
  | t :: ts, n :: ns => do
    let b ← a.deposit t n
    b.depositAll ts ns

/-- The loops that withdraw one amount per token, e.g. `lib.rs:416-418`. -/
def withdrawAll (a : Account) : (toks : List AccountId) → (amounts : List Nat) → R Account
  | [], _ => .ok a
  | _ :: _, [] => .error .index
  | t :: ts, n :: ns => do
    let b ← a.withdraw t n
    b.withdrawAll ts ns

/-- A loop that deposits each pair, e.g. `lib.rs:292-297`, `token_receiver.rs:233-235`. -/
def depositPairs (a : Account) : List (AccountId × Nat) → R Account
  | [] => .ok a
  | p :: ps => do
    let b ← a.deposit p.1 p.2
    b.depositPairs ps

/-- The positive balances, `lib.rs:292-297`, `token_receiver.rs:78-83`. -/
def positive (a : Account) : List (AccountId × Nat) :=
  (a.tokens.entries.filter fun p => p.2.amt > 0).map fun p => (p.1, p.2.amt)

/-- The record after `update_shadow_record`, `account_deposit.rs:290-308`. -/
def movedRecord (r : ShadowRecord) (act : ShadowAction) (amount : Nat) : R ShadowRecord :=
  match act with
  | .toFarming => do
    let n ← addW 128 r.farm amount
    .ok { r with farm := n }
  | .toBurrowland => do
    let n ← addW 128 r.burrow amount
    .ok { r with burrow := n }
  | .fromFarming => do
    let n ← subW r.farm amount
    .ok { r with farm := n }
  | .fromBurrowland => do
    let n ← subW r.burrow amount
    .ok { r with burrow := n }

/-- `update_shadow_record`, `account_deposit.rs:289-314`. -/
def updateShadow (a : Account) (pool : Nat) (act : ShadowAction) (amount : Nat) : R Account := do
  let r ← movedRecord ((a.shadow.get? pool).getD ⟨0, 0⟩) act amount
  if r.farm = 0 ∧ r.burrow = 0 then .ok { a with shadow := a.shadow.erase pool }
  else .ok { a with shadow := a.shadow.insert pool r }

end Account

/-- `TokenCache`, `utils.rs:136-160`. -/
abbrev TokenCache := FMap AccountId Nat

namespace TokenCache

/-- `TokenCache::add`, `utils.rs:143-145`. -/
def add (m : TokenCache) (t : AccountId) (amount : Nat) : R TokenCache := do
  let n ← addW 128 (m.getD t 0) amount
  .ok (m.insert t n)

/-- `TokenCache::sub`, `utils.rs:147-159`: an entry that reaches 0 is removed. -/
def sub (m : TokenCache) (t : AccountId) (amount : Nat) : R TokenCache :=
  if amount > 0 then do
    let prev ← expectE (m.get? t) (.e 22)
    assertE (amount ≤ prev) (.e 22)
    if prev - amount > 0 then .ok (m.insert t (prev - amount)) else .ok (m.erase t)
  else .ok m

/-- The loop over `tokens.iter().zip(amounts)`, `token_receiver.rs:221-223`. -/
def subAll (m : TokenCache) : (toks : List AccountId) → (amounts : List Nat) → R TokenCache
  | t :: ts, n :: ns => do
    let k ← sub m t n
    subAll k ts ns
  | _, _ => .ok m

/-- The loop of `token_receiver.rs:179-181`. -/
def addPairs (m : TokenCache) : List (AccountId × Nat) → R TokenCache
  | [] => .ok m
  | p :: ps => do
    let k ← add m p.1 p.2
    addPairs k ps

end TokenCache
end Verif

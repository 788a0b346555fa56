import Verif.Exchange.Account

/-
Accounts as they are stored: `/repo/ref-exchange/src/account_deposit.rs:46-227` and
`/repo/ref-exchange/src/legacy.rs:12-66`. An account saved by an earlier version is converted when it
is read; its balances stay in a map of their own, `legacy_tokens`, until they are touched. The rest of
the model works with one map of slots (`Account`); `LegacyProps.lean` shows that this is the same.
-/

namespace Verif

/-- `Account`, `account_deposit.rs:73-83`, with both token maps. -/
structure StoredAccount where
  near : Nat
  legacy : FMap AccountId Nat
  tokens : FMap AccountId Nat
  shadow : FMap Nat ShadowRecord

/-- `VAccount`, `account_deposit.rs:46-51`, with `AccountV1`, `legacy.rs:12-21`, and `AccountV2`,
`legacy.rs:38-47`. -/
inductive VAccount where
  | v1 (near : Nat) (tokens : FMap AccountId Nat)
  | v2 (near : Nat) (legacy tokens : FMap AccountId Nat)
  | current (a : StoredAccount)

/-- `VAccount::into_current`, `account_deposit.rs:55-61`, `legacy.rs:24-35`, `50-65`. -/
def VAccount.intoCurrent : VAccount → StoredAccount
  | .v1 near tokens => ⟨near, tokens, FMap.empty, FMap.empty⟩
  | .v2 near legacy tokens => ⟨near, legacy, tokens, FMap.empty⟩
  | .current a => a

namespace StoredAccount

/-- `Account::new`, `account_deposit.rs:86-98`. -/
def new : StoredAccount := ⟨0, FMap.empty, FMap.empty, FMap.empty⟩

/-- `get_balance`, `account_deposit.rs:100-108`. -/
def balance? (a : StoredAccount) (t : AccountId) : Option Nat :=
  match a.tokens.get? t with
  | some n => some n
  | none => a.legacy.get? t

/-- `get_tokens`, `account_deposit.rs:110-118`. -/
def getTokens (a : StoredAccount) : List AccountId := a.tokens.keys ++ a.legacy.keys

/-- `storage_usage`, `account_deposit.rs:177-183`. -/
def storageUsage (a : StoredAccount) : Nat :=
  (102 + a.legacy.size * 84 + a.tokens.size * 148) * BYTE_COST

/-- `deposit_with_storage_check`, `account_deposit.rs:122-142`. -/
def depositChecked (a : StoredAccount) (t : AccountId) (amount : Nat) : R (Option StoredAccount) :=
  match a.tokens.get? t with
  | some n => do
    let n ← addW 128 n amount
    .ok (some { a with tokens := a.tokens.insert t n })
  | none =>
    match a.legacy.get? t with
    | some n => do
      let n ← addW 128 n amount
      .ok (some { a with legacy := a.legacy.insert t n })
    | none =>
      let b := { a with tokens := a.tokens.insert t amount }
      if b.storageUsage ≤ b.near then .ok (some b) else .ok none

/-- `deposit`, `account_deposit.rs:145-156`. -/
def deposit (a : StoredAccount) (t : AccountId) (amount : Nat) : R StoredAccount :=
  if amount > 0 then
    match a.legacy.get? t with
    | some n => do
      let n ← addW 128 amount n
      .ok { a with legacy := a.legacy.erase t, tokens := a.tokens.insert t n }
    | none =>
      match a.tokens.get? t with
      | some n => do
        let n ← addW 128 amount n
        .ok { a with tokens := a.tokens.insert t n }
      | none => do
        let n ← fit 128 amount
        .ok { a with tokens := a.tokens.insert t n }
  else .ok a

/-- `withdraw`, `account_deposit.rs:160-173`. -/
def withdraw (a : StoredAccount) (t : AccountId) (amount : Nat) : R StoredAccount :=
  if amount > 0 then
    match a.legacy.get? t with
    | some n => do
      assertE (n ≥ amount) (.e 22)
      .ok { a with legacy := a.legacy.erase t, tokens := a.tokens.insert t (n - amount) }
    | none =>
      match a.tokens.get? t with
      | some n => do
        assertE (n ≥ amount) (.e 22)
        .ok { a with tokens := a.tokens.insert t (n - amount) }
      | none => .error (.e 21)
  else .ok a

/-- `register`, `account_deposit.rs:211-218`. -/
def register (a : StoredAccount) : List AccountId → StoredAccount
  | [] => a
  | t :: ts =>
    register (if (a.balance? t).isNone then { a with tokens := a.tokens.insert t 0 } else a) ts

/-- `unregister`, `account_deposit.rs:222-227`. -/
def unregister (a : StoredAccount) (t : AccountId) : R StoredAccount := do
  assertE (a.legacy.getD t 0 = 0) (.e 24)
  assertE (a.tokens.getD t 0 = 0) (.e 24)
  .ok { a with legacy := a.legacy.erase t, tokens := a.tokens.erase t }

/-- `get_deposits`, `views.rs:513-523`. -/
def getDeposits (a : StoredAccount) : R (List (AccountId × Nat)) :=
  a.getTokens.mapM fun t => do
    let n ← expectE (a.balance? t) .other
    .ok (t, n)

/-- `get_tokens_paged`, `views.rs:525-539`, with both arguments given. The sum of the arguments is a
`u64`. -/
def tokensPaged (a : StoredAccount) (start limit : Nat) : R (List (AccountId × Nat)) := do
  let stop ← addW 64 start limit
  .ok ((a.tokens.entries.take stop).drop start)

/-- What a call does with an account between reading and saving it, apart from the storage check. -/
inductive Op where
  | deposit (t : AccountId) (amount : Nat)
  | depositChecked (t : AccountId) (amount : Nat)
  | withdraw (t : AccountId) (amount : Nat)
  | register (ts : List AccountId)
  | unregister (t : AccountId)

/-- The effect of an operation; a deposit that is refused for lack of storage changes nothing. -/
def apply (a : StoredAccount) : Op → R StoredAccount
  | .deposit t n => a.deposit t n
  | .depositChecked t n => do
    let r ← a.depositChecked t n
    .ok (r.getD a)
  | .withdraw t n => a.withdraw t n
  | .register ts => .ok (a.register ts)
  | .unregister t => a.unregister t

/-- A series of operations; those that panic change nothing. Between two operations the account may be
saved and read again, which changes nothing. -/
def run (a : StoredAccount) (ops : List Op) : StoredAccount :=
  ops.foldl (fun a o => match a.apply o with | .ok b => b | .error _ => a) a

end StoredAccount

/-- The same operation on an account with one map. -/
def Account.apply (a : Account) : StoredAccount.Op → R Account
  | .deposit t n => a.deposit t n
  | .depositChecked t n => do
    let r ← a.depositChecked t n
    .ok (r.getD a)
  | .withdraw t n => a.withdraw t n
  | .register ts => .ok (a.register ts)
  | .unregister t => a.unregister t

/-- A series of operations. -/
def Account.run (a : Account) (ops : List StoredAccount.Op) : Account :=
  ops.foldl (fun a o => match a.apply o with | .ok b => b | .error _ => a) a

end Verif

import Verif.Exchange.AccountView
import Verif.Exchange.Exit
import Verif.Exchange.TransferProps

/-
When calls that move deposits or shares succeed: equivalences for the operations on accounts and
pools.
-/

namespace Verif

namespace Account

/-- The bytes the account is charged for its record of a token, `account_deposit.rs:177-183`. -/
def recordOf (a : Account) (t : AccountId) : Nat :=
  match a.tokens.get? t with
  | some s => if s.legacy then 84 else 148
  | none => 0

/-- The storage deposit of the account pays for all its records when that of `t` has been written
anew, which happens unless the amount is 0. -/
def PaysRecord (a : Account) (t : AccountId) (n : Nat) : Prop :=
  if 0 < n then a.storageUsage + 148 * BYTE_COST ≤ a.near + a.recordOf t * BYTE_COST
  else a.storageUsage ≤ a.near

theorem recordOf_eq (a : Account) (t : AccountId) :
    a.recordOf t = a.tokens.term (fun _ s => if s.legacy then 84 else 148) t := by
  unfold recordOf
  cases h : a.tokens.get? t with
  | none => rw [FMap.term_none _ h]
  | some s => rw [FMap.term_some _ h]

theorem usage_write (a : Account) (t : AccountId) (n : Nat) :
    ({ a with tokens := a.tokens.insert t ⟨n, false⟩ } : Account).storageUsage +
      a.recordOf t * BYTE_COST = a.storageUsage + 148 * BYTE_COST := by
  have h := FMap.sum_insert a.tokens (fun _ s => if s.legacy then 84 else 148) t ⟨n, false⟩
  rw [← recordOf_eq] at h
  simp only [Bool.false_eq_true, if_false] at h
  rw [storageUsage_eq, storageUsage_eq, ← Nat.add_mul, ← Nat.add_mul]
  unfold recordBytes
  simp only
  congr 1
  omega

theorem usage_close (a : Account) (t : AccountId) (s : Slot) :
    ({ a with tokens := (a.tokens.insert t s).erase t } : Account).storageUsage +
      a.recordOf t * BYTE_COST = a.storageUsage := by
  have h1 := FMap.sum_erase (a.tokens.insert t s) (fun _ s => if s.legacy then 84 else 148) t
  have h2 := FMap.sum_insert a.tokens (fun _ s => if s.legacy then 84 else 148) t s
  rw [FMap.term_some _ (FMap.get?_insert_self _ _ _)] at h1
  rw [← recordOf_eq] at h2
  rw [storageUsage_eq, storageUsage_eq, ← Nat.add_mul]
  unfold recordBytes
  simp only at h1 h2 ⊢
  congr 1
  omega

theorem deposit_iff {a : Account} {t : AccountId} {n : Nat} :
    (∃ b, a.deposit t n = .ok b ∧ b.storageUsage ≤ b.near) ↔
      (0 < n → a.bal t + n < 2 ^ 128) ∧ a.PaysRecord t n := by
  unfold deposit PaysRecord
  by_cases h0 : 0 < n
  · have hu := usage_write a t (n + a.bal t)
    simp only [gt_iff_lt, if_pos h0, bind_ok, addW_ok, Except.ok.injEq]
    constructor
    · rintro ⟨b, ⟨m, ⟨h1, rfl⟩, rfl⟩, h2⟩
      change _ ≤ a.near at h2
      exact ⟨fun _ => by omega, by omega⟩
    · rintro ⟨h1, h2⟩
      refine ⟨_, ⟨_, ⟨by have := h1 h0; omega, rfl⟩, rfl⟩, ?_⟩
      change _ ≤ a.near
      omega
  · simp only [gt_iff_lt, if_neg h0, Except.ok.injEq]
    constructor
    · rintro ⟨b, rfl, h⟩; exact ⟨fun h => absurd h h0, h⟩
    · rintro ⟨-, h⟩; exact ⟨a, rfl, h⟩

theorem withdraw_iff {a : Account} {t : AccountId} {n : Nat} :
    (∃ b, a.withdraw t n = .ok b ∧ b.storageUsage ≤ b.near) ↔ n ≤ a.bal t ∧ a.PaysRecord t n := by
  unfold withdraw PaysRecord
  by_cases h0 : 0 < n
  · simp only [gt_iff_lt, if_pos h0, bind_ok, expectE_ok, assertE_ok, Except.ok.injEq]
    constructor
    · rintro ⟨b, ⟨s, h1, -, h2, rfl⟩, h3⟩
      have hu := usage_write a t (s.amt - n)
      change _ ≤ a.near at h3
      rw [bal_def, h1]
      exact ⟨h2, by omega⟩
    · rintro ⟨h1, h2⟩
      rw [bal_def] at h1
      cases hs : a.tokens.get? t with
      | none => rw [hs] at h1; simp at h1; omega
      | some s =>
        rw [hs] at h1
        have hu := usage_write a t (s.amt - n)
        refine ⟨_, ⟨s, rfl, (), h1, rfl⟩, ?_⟩
        change _ ≤ a.near
        omega
  · simp only [gt_iff_lt, if_neg h0, Except.ok.injEq]
    constructor
    · rintro ⟨b, rfl, h⟩; exact ⟨by omega, h⟩
    · rintro ⟨-, h⟩; exact ⟨a, rfl, h⟩

theorem close_iff {a : Account} {t : AccountId} {n : Nat} (h0 : 0 < n) :
    (∃ b b', a.withdraw t n = .ok b ∧ b.unregister t = .ok b' ∧ b'.storageUsage ≤ b'.near) ↔
      n = a.bal t ∧ a.storageUsage ≤ a.near + a.recordOf t * BYTE_COST := by
  unfold withdraw unregister
  simp only [gt_iff_lt, if_pos h0, bind_ok, expectE_ok, assertE_ok, Except.ok.injEq]
  constructor
  · rintro ⟨b, b', ⟨s, h1, -, h2, rfl⟩, ⟨-, h3, rfl⟩, h4⟩
    rw [bal_insert, if_pos rfl] at h3
    have hu := usage_close a t ⟨s.amt - n, false⟩
    change _ ≤ a.near at h4
    rw [bal_def, h1]
    simp only [Option.map_some, Option.getD_some] at h3 ⊢
    simp only at hu h4
    exact ⟨by omega, by omega⟩
  · rintro ⟨h1, h2⟩
    rw [bal_def] at h1
    cases hs : a.tokens.get? t with
    | none => rw [hs] at h1; simp at h1; omega
    | some s =>
      rw [hs] at h1
      simp only [Option.map_some, Option.getD_some] at h1
      have hu := usage_close a t ⟨s.amt - n, false⟩
      refine ⟨_, _, ⟨s, rfl, (), by omega, rfl⟩, ⟨(), ?_, rfl⟩, ?_⟩
      · rw [bal_insert, if_pos rfl]
        simp only
        omega
      · change _ ≤ a.near
        simp only at hu ⊢
        omega

end Account

theorem FMap.two_le_sum {K : Type} [DecidableEq K] (m : FMap K Nat) {a b : K} (h : a ≠ b) :
    m.getD a 0 + m.getD b 0 ≤ m.sum fun _ n => n := by
  have h1 := FMap.sum_insert m (fun _ n => n) a 0
  have h2 := FMap.term_le_sum (m.insert a 0) (fun _ n => n) b
  rw [FMap.term_insert_ne _ _ _ (Ne.symm h)] at h2
  have e : ∀ k, m.term (fun _ n => n) k = m.getD k 0 := by
    intro k
    unfold FMap.getD
    cases hk : m.get? k with
    | none => rw [FMap.term_none _ hk]; rfl
    | some v => rw [FMap.term_some _ hk]; rfl
  rw [e] at h1 h2
  omega

theorem SimplePool.shareTransfer_iff {p : SimplePool} {a b : AccountId} {n : Nat} (hab : a ≠ b)
    (h0 : 0 < n) (hs : p.shares.getD a 0 + p.shares.getD b 0 < 2 ^ 128) :
    (∃ q, p.shareTransfer a b n = .ok q) ↔
      n ≤ p.shares.getD a 0 ∧ p.shares.contains b = true := by
  unfold shareTransfer
  simp only [bind_ok, expectE_ok, assertE_ok, addW_ok, Except.ok.injEq,
    FMap.get?_insert_ne _ _ hab.symm]
  unfold FMap.getD FMap.contains at *
  constructor
  · rintro ⟨q, v, h1, -, h2, w, h3, -⟩
    rw [h1, h3]
    exact ⟨h2, rfl⟩
  · rintro ⟨h1, h2⟩
    cases ha : p.shares.get? a with
    | none => rw [ha] at h1; simp at h1; omega
    | some v =>
      cases hb : p.shares.get? b with
      | none => rw [hb] at h2; cases h2
      | some w =>
        rw [ha] at h1 hs
        rw [hb] at hs
        simp only [Option.getD_some] at h1 hs
        exact ⟨_, v, rfl, (), h1, w, rfl, _, ⟨by omega, rfl⟩, rfl⟩

theorem CurvePool.shareTransfer_iff {p : CurvePool} {a b : AccountId} {n : Nat} (hab : a ≠ b)
    (h0 : 0 < n) (hs : p.shares.getD a 0 + p.shares.getD b 0 < 2 ^ 128) :
    (∃ q, p.shareTransfer a b n = .ok q) ↔
      n ≤ p.shares.getD a 0 ∧ p.shares.contains b = true := by
  unfold shareTransfer
  simp only [bind_ok, expectE_ok, assertE_ok, addW_ok, Except.ok.injEq,
    FMap.get?_insert_ne _ _ hab.symm]
  unfold FMap.getD FMap.contains at *
  constructor
  · rintro ⟨q, v, h1, -, h2, w, h3, -⟩
    rw [h1, h3]
    exact ⟨h2, rfl⟩
  · rintro ⟨h1, h2⟩
    cases ha : p.shares.get? a with
    | none => rw [ha] at h1; simp at h1; omega
    | some v =>
      cases hb : p.shares.get? b with
      | none => rw [hb] at h2; cases h2
      | some w =>
        rw [ha] at h1 hs
        rw [hb] at hs
        simp only [Option.getD_some] at h1 hs
        exact ⟨_, v, rfl, (), h1, w, rfl, _, ⟨by omega, rfl⟩, rfl⟩

theorem map_ok {α β : Type} {f : α → β} {x : R α} :
    (∃ b, f <$> x = .ok b) ↔ ∃ a, x = .ok a := by
  cases x with
  | error e => exact ⟨(fun ⟨_, h⟩ => nomatch h), (fun ⟨_, h⟩ => nomatch h)⟩
  | ok a => exact ⟨fun _ => ⟨a, rfl⟩, fun _ => ⟨f a, rfl⟩⟩

theorem Pool.shareTransfer_iff {p : Pool} {a b : AccountId} {n : Nat} (hs : p.Sound) (hab : a ≠ b)
    (h0 : 0 < n) :
    (∃ q, p.shareTransfer a b n = .ok q) ↔ n ≤ p.shareBalance a ∧ p.shareRegistered b = true := by
  have h1 := FMap.two_le_sum p.shares hab
  have h2 := hs.sum
  have h3 := hs.supply_lt
  unfold sumVals at h2
  cases p with
  | simple p =>
    exact map_ok.trans (SimplePool.shareTransfer_iff hab h0 (by
      change p.shares.getD a 0 + p.shares.getD b 0 ≤ _ at h1
      omega))
  | curve p =>
    exact map_ok.trans (CurvePool.shareTransfer_iff hab h0 (by
      change p.shares.getD a 0 + p.shares.getD b 0 ≤ _ at h1
      omega))

end Verif

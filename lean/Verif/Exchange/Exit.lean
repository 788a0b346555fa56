import Verif.Exchange.StorageProps
import Verif.Exchange.PredictProps

/-
When the calls by which a user leaves the exchange succeed: storage deposits, removals of liquidity
and withdrawals.
-/

namespace Verif

/-- The NEAR that the record of one token costs, `account_deposit.rs:177-183`. -/
def RECORD_COST : Nat := 148 * BYTE_COST

namespace Account

/-- The bytes an account is charged for its token records. -/
def recordBytes (a : Account) : Nat := a.tokens.sum fun _ s => if s.legacy then 84 else 148

theorem storageUsage_eq (a : Account) : a.storageUsage = (102 + a.recordBytes) * BYTE_COST := rfl

theorem usage_mono {a b : Account} {k : Nat} (h : b.recordBytes ≤ a.recordBytes + 148 * k) :
    b.storageUsage ≤ a.storageUsage + k * RECORD_COST := by
  rw [storageUsage_eq, storageUsage_eq]
  unfold RECORD_COST
  generalize BYTE_COST = c
  calc (102 + b.recordBytes) * c ≤ (102 + (a.recordBytes + 148 * k)) * c :=
        Nat.mul_le_mul_right _ (by omega)
    _ = (102 + a.recordBytes) * c + k * (148 * c) := by
        rw [← Nat.add_assoc, Nat.add_mul _ (148 * k), Nat.mul_comm 148 k, Nat.mul_assoc]

theorem recordBytes_insert (a : Account) (t : AccountId) (n : Nat) :
    ({ a with tokens := a.tokens.insert t ⟨n, false⟩ } : Account).recordBytes ≤ a.recordBytes + 148 := by
  have := FMap.sum_insert a.tokens (fun _ s => if s.legacy then 84 else 148) t ⟨n, false⟩
  simp only [Bool.false_eq_true, if_false] at this
  unfold recordBytes
  simp only
  omega

theorem recordBytes_insert_same (a : Account) {t : AccountId} {s : Slot} (n : Nat)
    (h : a.tokens.get? t = some s) (hs : s.legacy = false) :
    ({ a with tokens := a.tokens.insert t ⟨n, false⟩ } : Account).recordBytes = a.recordBytes := by
  have := FMap.sum_insert a.tokens (fun _ s => if s.legacy then 84 else 148) t ⟨n, false⟩
  rw [FMap.term_some _ h, hs] at this
  simp only [Bool.false_eq_true, if_false] at this
  unfold recordBytes
  simp only
  omega

theorem recordBytes_erase_insert (a : Account) (t : AccountId) (s : Slot) :
    ({ a with tokens := (a.tokens.insert t s).erase t } : Account).recordBytes ≤ a.recordBytes := by
  have h1 := FMap.sum_erase (a.tokens.insert t s) (fun _ s => if s.legacy then 84 else 148) t
  have h2 := FMap.sum_insert a.tokens (fun _ s => if s.legacy then 84 else 148) t s
  rw [FMap.term_some _ (FMap.get?_insert_self _ _ _)] at h1
  unfold recordBytes
  simp only at h1 h2 ⊢
  omega

theorem deposit_run {a : Account} {t : AccountId} {n : Nat} (h : a.bal t + n < 2 ^ 128) :
    ∃ b, a.deposit t n = .ok b ∧ b.recordBytes ≤ a.recordBytes + 148 := by
  unfold deposit
  split
  · rw [addW_ok.2 ⟨by omega, rfl⟩, ok_bind]
    exact ⟨_, rfl, recordBytes_insert _ _ _⟩
  · exact ⟨a, rfl, by omega⟩

theorem depositAll_run : ∀ {ts : List AccountId} {ns : List Nat} {a : Account},
    ns.length = ts.length → (∀ t ∈ ts, a.bal t + flow ts ns t < 2 ^ 128) →
    ∃ b, a.depositAll ts ns = .ok b ∧ b.recordBytes ≤ a.recordBytes + 148 * ts.length
  | [], ns, a, _, _ => ⟨a, rfl, by simp⟩
  | t :: ts, [], a, hl, _ => by simp at hl
  | t :: ts, n :: ns, a, hl, hf => by
    have ht := hf t List.mem_cons_self
    simp only [flow, if_pos] at ht
    obtain ⟨b, hb, hr⟩ := deposit_run (a := a) (t := t) (n := n) (by omega)
    obtain ⟨-, h2, -⟩ := deposit_ok hb
    obtain ⟨b', hb', hr'⟩ := depositAll_run (ts := ts) (ns := ns) (a := b) (by simpa using hl) (by
      intro u hu
      have := hf u (List.mem_cons_of_mem _ hu)
      simp only [flow] at this
      rw [h2]
      omega)
    refine ⟨b', ?_, ?_⟩
    · unfold depositAll
      rw [hb, ok_bind, hb']
    · rw [List.length_cons]; omega

/-- Taking out all of a token and closing its record. -/
theorem takeAll_run {a : Account} {t : AccountId} (h : 0 < a.bal t) :
    ∃ b b', a.withdraw t (a.bal t) = .ok b ∧ b.unregister t = .ok b' ∧
      b'.recordBytes ≤ a.recordBytes ∧ b'.near = a.near ∧ b'.shadow = a.shadow ∧
      (∀ u, b'.bal u = if u = t then 0 else a.bal u) ∧ b'.registered t = false := by
  cases hs : a.tokens.get? t with
  | none => rw [bal_def, hs] at h; simp at h
  | some s =>
    have hb : a.bal t = s.amt := by rw [bal_def, hs]; rfl
    rw [hb] at h ⊢
    refine ⟨{ a with tokens := a.tokens.insert t ⟨0, false⟩ },
      { a with tokens := (a.tokens.insert t ⟨0, false⟩).erase t }, ?_, ?_,
      recordBytes_erase_insert _ _ _, rfl, rfl, ?_, ?_⟩
    · unfold withdraw
      rw [if_pos h, hs]
      simp [expectE, assertE, ok_bind]
    · unfold unregister
      rw [bal_insert, if_pos rfl, (assertE_ok (u := ())).2 rfl, ok_bind]
    · intro u
      simp only [bal_def, FMap.get?_erase, FMap.get?_insert]
      by_cases hu : u = t
      · simp [hu]
      · simp [hu]
    · simp [registered, FMap.contains, FMap.get?_erase_self]

/-- Taking out a part of a token, whose record is kept. -/
theorem take_run {a : Account} {t : AccountId} {n : Nat} {s : Slot} (hs : a.tokens.get? t = some s)
    (hl : s.legacy = false) (h0 : 0 < n) (h : n ≤ a.bal t) :
    ∃ b, a.withdraw t n = .ok b ∧ b.recordBytes = a.recordBytes := by
  have hb : a.bal t = s.amt := by rw [bal_def, hs]; rfl
  rw [hb] at h
  refine ⟨{ a with tokens := a.tokens.insert t ⟨s.amt - n, false⟩ }, ?_,
    recordBytes_insert_same a _ hs hl⟩
  unfold withdraw
  rw [if_pos h0, hs]
  simp [expectE, assertE, ok_bind, h]

end Account

/-! ### Removals that the view reports -/

theorem SimplePool.remove_run {p p' : SimplePool} {v a : AccountId} {n : Nat} {ms paid : List Nat}
    (h : p.removeLiquidity v n ms true = .ok (p', paid)) (h0 : 0 < n) (hn : n ≤ p.shares.getD a 0) :
    ∃ q, p.removeLiquidity a n ms false = .ok (q, paid) := by
  unfold removeLiquidity at h ⊢
  have hs : ∃ s, p.shares.get? a = some s ∧ n ≤ s := by
    unfold FMap.getD at hn
    cases hg : p.shares.get? a with
    | none => rw [hg] at hn; simp at hn; omega
    | some s => rw [hg] at hn; exact ⟨s, rfl, hn⟩
  obtain ⟨s, hs, hle⟩ := hs
  split at h
  · rename_i m0 m1
    simp only [if_true, ok_bind] at h
    unpack at h
    obtain ⟨r0, n0, h1, r1, n1, h2, h3, -, rfl⟩ := h
    simp only [Bool.false_eq_true, if_false, hs, expectE, ok_bind]
    rw [(assertE_ok (u := ())).2 (show s ≥ n from hle), ok_bind]
    simp only [ok_bind]
    rw [h1]
    simp only [ok_bind]
    rw [h2]
    simp only [ok_bind]
    rw [subW_ok.2 ⟨h3, rfl⟩]
    exact ⟨_, rfl⟩
  · cases h

theorem CurvePool.remove_run {p p' : CurvePool} {v a : AccountId} {n : Nat} {ms paid : List Nat}
    (h : p.removeByShares v n ms true = .ok (p', paid)) (h0 : 0 < n) (hn : n ≤ p.shares.getD a 0) :
    ∃ q, p.removeByShares a n ms false = .ok (q, paid) := by
  unfold removeByShares at h ⊢
  have hs : ∃ s, p.shares.get? a = some s ∧ n ≤ s := by
    unfold FMap.getD at hn
    cases hg : p.shares.get? a with
    | none => rw [hg] at hn; simp at hn; omega
    | some s => rw [hg] at hn; exact ⟨s, rfl, hn⟩
  obtain ⟨s, hs, hle⟩ := hs
  simp only [if_true, ok_bind] at h
  unpack at h
  obtain ⟨h1, cs, out, h2, h3, -, rfl⟩ := h
  rw [(assertE_ok (u := ())).2 h1, ok_bind]
  simp only [Bool.false_eq_true, if_false, hs, expectE, ok_bind]
  rw [(assertE_ok (u := ())).2 (show s ≥ n from hle), ok_bind]
  unfold burnShares
  rw [if_neg (by omega), subW_ok.2 ⟨hle, rfl⟩]
  simp only [ok_bind]
  rw [h2]
  simp only [ok_bind]
  rw [subW_ok.2 ⟨h3, rfl⟩]
  exact ⟨_, rfl⟩

theorem Pool.remove_run {p p' : Pool} {v a : AccountId} {n : Nat} {ms paid : List Nat}
    (h : p.removeLiquidity v n ms true = .ok (p', paid)) (h0 : 0 < n) (hn : n ≤ p.shareBalance a) :
    ∃ q, p.removeLiquidity a n ms false = .ok (q, paid) := by
  cases p with
  | simple p =>
    unfold removeLiquidity at h ⊢
    unpack at h
    obtain ⟨p', _, h, -, rfl⟩ := h
    obtain ⟨q, hq⟩ := SimplePool.remove_run h h0 hn
    exact ⟨.simple q, by simp only [hq]; rfl⟩
  | curve p =>
    unfold removeLiquidity at h ⊢
    unpack at h
    obtain ⟨p', _, h, -, rfl⟩ := h
    obtain ⟨q, hq⟩ := CurvePool.remove_run h h0 hn
    exact ⟨.curve q, by simp only [hq]; rfl⟩

end Verif

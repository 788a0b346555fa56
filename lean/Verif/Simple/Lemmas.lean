import Verif.Simple.Model
import Mathlib.Tactic.Linarith
import Mathlib.Tactic.Ring
import Mathlib.Tactic.Positivity

/-
Helper lemmas about the simple pool. The properties themselves are in `Simple/Props.lean`.
-/

namespace Verif

/-! ### Integer square root -/

/-- One Newton step from `g > 0` does not fall below the root. -/
theorem newton_step_ge (v g : Nat) (hg : 0 < g) :
    v < ((v / g + g) / 2 + 1) * ((v / g + g) / 2 + 1) := by
  have h1 : v < (v / g + 1) * g := by
    have := Nat.div_add_mod v g
    have := Nat.mod_lt v hg
    nlinarith
  generalize v / g = q at *
  have h2 : q + g ≤ 2 * ((q + g) / 2) + 1 := by omega
  generalize (q + g) / 2 = m at *
  -- (q+1) * g ≤ ((q+1+g)/2)^2 ≤ (m+1)^2
  have h3 : (q + 1) + g ≤ 2 * (m + 1) := by omega
  have h4 : 4 * ((q + 1) * g) ≤ ((q + 1) + g) * ((q + 1) + g) := by
    rcases Nat.le_total (q + 1) g with h | h
    · obtain ⟨d, rfl⟩ := Nat.exists_eq_add_of_le h
      nlinarith [Nat.zero_le (d * d)]
    · obtain ⟨d, hd⟩ := Nat.exists_eq_add_of_le h
      rw [hd]; nlinarith [Nat.zero_le (d * d)]
  have h5 : ((q + 1) + g) * ((q + 1) + g) ≤ (2 * (m + 1)) * (2 * (m + 1)) :=
    Nat.mul_le_mul h3 h3
  nlinarith

theorem isqrtLoop_spec (v : Nat) (hv : v + 1 < 2 ^ 256) : ∀ (fuel guess res : Nat),
    res < fuel → (res = 0 ∨ 0 < guess) → res ≤ v →
    v < (guess + 1) * (guess + 1) → (guess < res ∨ res * res ≤ v) →
    v < (res + 1) * (res + 1) → (guess < res → guess ≤ (v + 1) / 2) →
    ∃ r, isqrtLoop v fuel guess res = .ok r ∧ r * r ≤ v ∧ v < (r + 1) * (r + 1) := by
  intro fuel
  induction fuel with
  | zero => intro g r h; omega
  | succ f ih =>
    intro g r hf hg hrv hlo hexit hhi hhalf
    unfold isqrtLoop
    split
    · rename_i hlt
      have hgpos : 0 < g := by omega
      have hq : v / g ≤ v := Nat.div_le_self _ _
      have hgh := hhalf hlt
      have hsum : v / g + g < 2 ^ 256 := by
        rcases Nat.lt_or_ge g 2 with h | h
        · omega
        · have : v / g ≤ v / 2 := Nat.div_le_div_left h (by omega)
          omega
      simp only [divW, show g ≠ 0 by omega, if_false, ok_bind, addW, fit, hsum, if_true]
      have hstep := newton_step_ge v g hgpos
      apply ih
      · omega
      · rcases Nat.eq_zero_or_pos (v / g) with h0 | h0
        · right
          have hvg : v < g := (Nat.div_eq_zero_iff.1 h0).resolve_left (by omega)
          omega
        · right; omega
      · omega
      · exact hstep
      · by_cases h : (v / g + g) / 2 < g
        · exact Or.inl h
        · right
          have hge : g ≤ v / g := by omega
          have := Nat.div_mul_le_self v g
          nlinarith
      · exact hlo
      · omega
    · rename_i hge
      rcases hexit with h | h
      · exact absurd h hge
      · exact ⟨r, rfl, h, hhi⟩

/-- `integer_sqrt` terminates and returns the floor of the square root. -/
theorem integerSqrt_spec (v : Nat) (hv : v + 1 < 2 ^ 256) :
    ∃ r, integerSqrt v = .ok r ∧ r * r ≤ v ∧ v < (r + 1) * (r + 1) := by
  unfold integerSqrt
  simp only [addW, fit, hv, if_true, ok_bind]
  apply isqrtLoop_spec v hv
  · omega
  · omega
  · omega
  · have : v < 2 * ((v + 1) / 2) + 1 := by omega
    nlinarith [Nat.zero_le ((v + 1) / 2 * ((v + 1) / 2))]
  · rcases Nat.lt_or_ge v 2 with h | h
    · right
      have : v = 0 ∨ v = 1 := by omega
      rcases this with rfl | rfl <;> simp
    · left; omega
  · nlinarith
  · omega


/-- The result of `integer_sqrt`, when it returns one. -/
theorem integerSqrt_ok {v r : Nat} (h : integerSqrt v = .ok r) :
    r * r ≤ v ∧ v < (r + 1) * (r + 1) := by
  have hv : v + 1 < 2 ^ 256 := by
    unfold integerSqrt at h; unpack at h; exact h.1
  obtain ⟨r', h', hr⟩ := integerSqrt_spec v hv
  rw [h'] at h
  cases h
  exact hr

/-- Sum of all share balances. -/
def sumVals (m : FMap AccountId Nat) : Nat := m.sum fun _ v => v

theorem sumVals_insert (m : FMap AccountId Nat) (k : AccountId) (v : Nat) :
    sumVals (m.insert k v) + m.getD k 0 = sumVals m + v := by
  have h := m.sum_insert (fun _ v => v) k v
  have : m.term (fun _ v => v) k = m.getD k 0 := by
    unfold FMap.term FMap.getD; cases m.get? k <;> rfl
  unfold sumVals; omega

theorem sumVals_erase (m : FMap AccountId Nat) (k : AccountId) :
    sumVals (m.erase k) + m.getD k 0 = sumVals m := by
  have h := m.sum_erase (fun _ v => v) k
  have : m.term (fun _ v => v) k = m.getD k 0 := by
    unfold FMap.term FMap.getD; cases m.get? k <;> rfl
  unfold sumVals; omega

theorem getD_le_sumVals (m : FMap AccountId Nat) (k : AccountId) : m.getD k 0 ≤ sumVals m := by
  have := sumVals_erase m k; omega

theorem getD_of_get? {m : FMap AccountId Nat} {k : AccountId} {v d : Nat}
    (h : m.get? k = some v) : m.getD k d = v := by simp [FMap.getD, h]

theorem u128Ratio_ok {a n d r : Nat} (h : u128Ratio a n d = .ok r) :
    d ≠ 0 ∧ r = a * n / d := by
  unfold u128Ratio at h; unpack at h; exact ⟨h.2.1, h.2.2.2⟩

theorem addToCollection_ok {c c' : FMap AccountId Nat} {k : AccountId} {v : Nat}
    (h : addToCollection c k v = .ok c') :
    c' = c.insert k (c.getD k 0 + v) ∧ c.getD k 0 + v < 2 ^ 128 := by
  unfold addToCollection at h; unpack at h; exact ⟨h.2.symm, h.1⟩

namespace SimplePool

theorem mintShares_ok {p q : SimplePool} {a : AccountId} {s : Nat} {v : Bool}
    (h : p.mintShares a s v = .ok q) :
    q = { p with supply := p.supply + s,
                 shares := if v ∨ s = 0 then p.shares
                           else p.shares.insert a (p.shares.getD a 0 + s) } ∧
    (s = 0 ∨ p.supply + s < 2 ^ 128) := by
  unfold mintShares at h
  split at h
  · subst_vars; cases h; simp
  · rename_i hs
    unpack at h
    obtain ⟨hlt, h⟩ := h
    split at h
    · rename_i hv; cases h; simp [hv, hlt]
    · rename_i hv
      unpack at h
      obtain ⟨sh, hsh, rfl⟩ := h
      simp [(addToCollection_ok hsh).1, hs, hv, hlt]

theorem mintShares_sum {p q : SimplePool} {a : AccountId} {s : Nat}
    (h : p.mintShares a s false = .ok q) : sumVals q.shares = sumVals p.shares + s := by
  obtain ⟨rfl, -⟩ := mintShares_ok h
  by_cases hs : s = 0
  · simp [hs]
  · have := sumVals_insert p.shares a (p.shares.getD a 0 + s)
    simp only [hs, Bool.false_eq_true, or_self, if_false]
    omega

theorem getReturn_ok {p : SimplePool} {i o : Bool} {a r : Nat}
    (h : p.internalGetReturn i a o = .ok r) :
    0 < p.amt i ∧ 0 < p.amt o ∧ i ≠ o ∧ 0 < a ∧ p.totalFee ≤ 10000 ∧
    r = a * (10000 - p.totalFee) * p.amt o /
      (10000 * p.amt i + a * (10000 - p.totalFee)) := by
  unfold internalGetReturn at h
  unpack at h
  simp only [FEE_DIVISOR] at h
  exact ⟨h.1, h.2.1, h.2.2.1, h.2.2.2.1, h.2.2.2.2.1, h.2.2.2.2.2.2.2.2.2.2.2⟩

theorem getReturnByOutput_ok {p : SimplePool} {i o : Bool} {a r : Nat}
    (h : p.internalGetReturnByOutput i a o = .ok r) :
    0 < p.amt i ∧ a < p.amt o ∧ i ≠ o ∧ 0 < a ∧ p.totalFee < 10000 ∧
    r = p.amt i * a * 10000 / ((p.amt o - a) * (10000 - p.totalFee)) + 1 := by
  unfold internalGetReturnByOutput at h
  unpack at h
  simp only [FEE_DIVISOR] at h
  obtain ⟨h1, -, h3, h4, -, -, h7, h8, -, h10, -, -, h13⟩ := h
  have h11 : p.amt o - a ≠ 0 ∧ 10000 - p.totalFee ≠ 0 := by
    constructor <;> (intro hz; apply h10; rw [hz]; simp)
  exact ⟨h1, by omega, h3, h4, by omega, h13⟩

/-- Everything `update_pool_and_distribute_fee` does, in one statement: `m` is the number of
shares minted, split into `rs` for the referral and the rest for the exchange. -/
theorem updatePool_ok {p q : SimplePool} {i o : Bool} {a r : Nat} {fees : AdminFees} {v : Bool}
    (hio : i ≠ o) (h : p.updatePool i a o r fees v = .ok q) :
    q.amt i = p.amt i + a ∧ r ≤ p.amt o ∧ q.amt o = p.amt o - r ∧ p.amt i + a < 2 ^ 128 ∧
    q.tok0 = p.tok0 ∧ q.tok1 = p.tok1 ∧ q.totalFee = p.totalFee ∧
    ∃ s0 s1 m, integerSqrt (p.amt i * p.amt o) = .ok s0 ∧
      integerSqrt (q.amt i * q.amt o) = .ok s1 ∧ s0 ≤ s1 ∧
      q.supply = p.supply + m ∧
      (v = false → sumVals q.shares = sumVals p.shares + m) ∧
      (v = true → q.shares = p.shares) ∧
      (m = 0 ∨ (0 < fees.adminFeeBps ∧ s0 * 10000 / fees.adminFeeBps ≠ 0 ∧
        m = (s1 - s0) * p.supply / (s0 * 10000 / fees.adminFeeBps))) := by
  unfold updatePool at h
  unpack at h
  obtain ⟨-, s0, hs0, hlt, hr, -, s1, hs1, hle, -, h⟩ := h
  have hamt : ∀ (x y : Nat), ((p.setAmt i x).setAmt o y).amt i = x ∧
      ((p.setAmt i x).setAmt o y).amt o = y ∧ (p.setAmt i x).amt o = p.amt o := by
    intro x y; cases i <;> cases o <;> simp_all [setAmt, amt]
  have hflds : ∀ (x y : Nat), ((p.setAmt i x).setAmt o y).tok0 = p.tok0 ∧
      ((p.setAmt i x).setAmt o y).tok1 = p.tok1 ∧
      ((p.setAmt i x).setAmt o y).totalFee = p.totalFee ∧
      ((p.setAmt i x).setAmt o y).supply = p.supply ∧
      ((p.setAmt i x).setAmt o y).shares = p.shares := by
    intro x y; cases i <;> cases o <;> simp [setAmt]
  rw [(hamt (p.amt i + a) 0).2.2] at hr hs1 h
  obtain ⟨ha1, ha2, -⟩ := hamt (p.amt i + a) (p.amt o - r)
  obtain ⟨f1, f2, f3, f4, f5⟩ := hflds (p.amt i + a) (p.amt o - r)
  generalize hp1 : (p.setAmt i (p.amt i + a)).setAmt o (p.amt o - r) = p1 at *
  clear hp1 hamt hflds
  suffices key : ∃ m, q.amt i = p1.amt i ∧ q.amt o = p1.amt o ∧ q.tok0 = p1.tok0 ∧
      q.tok1 = p1.tok1 ∧ q.totalFee = p1.totalFee ∧ q.supply = p1.supply + m ∧
      (v = false → sumVals q.shares = sumVals p1.shares + m) ∧
      (v = true → q.shares = p1.shares) ∧
      (m = 0 ∨ (0 < fees.adminFeeBps ∧ s0 * 10000 / fees.adminFeeBps ≠ 0 ∧
        m = (s1 - s0) * p.supply / (s0 * 10000 / fees.adminFeeBps))) by
    obtain ⟨m, h1, h2, h3, h4, h5, h6, h7, h8, h9⟩ := key
    refine ⟨h1.trans ha1, hr, h2.trans ha2, hlt, h3.trans f1, h4.trans f2, h5.trans f3,
      s0, s1, m, hs0, ?_, hle, ?_, ?_, ?_, h9⟩
    · rw [h1, h2]; exact hs1
    · rw [h6, f4]
    · rw [← f5]; exact h7
    · rw [← f5]; exact h8
  split at h
  · rename_i hc
    unpack at h
    obtain ⟨-, hb, hd, -, rs, hrs, p2, hp2, hle2, hq⟩ := h
    simp only [FEE_DIVISOR] at hd hrs hq hle2 hb
    rw [f4] at hq hle2 hrs
    obtain ⟨hq, -⟩ := mintShares_ok hq
    have hp2' : p2.amt i = p1.amt i ∧ p2.amt o = p1.amt o ∧ p2.tok0 = p1.tok0 ∧
        p2.tok1 = p1.tok1 ∧ p2.totalFee = p1.totalFee ∧ p2.supply = p1.supply + rs ∧
        (v = false → sumVals p2.shares = sumVals p1.shares + rs) ∧
        (v = true → p2.shares = p1.shares) := by
      cases hr' : fees.referral with
      | none =>
        simp only [referralShare, hr', Except.ok.injEq] at hrs hp2
        subst hrs hp2; simp
      | some x =>
        obtain ⟨rid, rf⟩ := x
        simp only [hr'] at hp2
        split at hp2
        · have hsum : v = false → sumVals p2.shares = sumVals p1.shares + rs := by
            intro hv; subst hv; exact mintShares_sum hp2
          obtain ⟨hp2, -⟩ := mintShares_ok hp2
          refine ⟨?_, ?_, ?_, ?_, ?_, ?_, hsum, ?_⟩ <;> rw [hp2]
          · cases i <;> rfl
          · cases o <;> rfl
          · simp +contextual
        · have : rs = 0 := by omega
          cases hp2; simp [this]
    obtain ⟨g1, g2, g3, g4, g5, g6, g7, g8⟩ := hp2'
    refine ⟨(s1 - s0) * p.supply / (s0 * 10000 / fees.adminFeeBps),
      ?_, ?_, ?_, ?_, ?_, ?_, ?_, ?_, ?_⟩
    · rw [hq, ← g1]; cases i <;> rfl
    · rw [hq, ← g2]; cases o <;> rfl
    · rw [hq, ← g3]
    · rw [hq, ← g4]
    · rw [hq, ← g5]
    · rw [hq]; simp only [g6]; omega
    · intro hv
      have h7 := g7 hv
      rw [hq]
      simp only [hv, Bool.false_eq_true, false_or]
      split
      · omega
      · have := sumVals_insert p2.shares fees.exchangeId (p2.shares.getD fees.exchangeId 0 +
          ((s1 - s0) * p.supply / (s0 * 10000 / fees.adminFeeBps) - rs))
        omega
    · intro hv
      rw [hq, ← g8 hv]; simp [hv]
    · right; exact ⟨by omega, by simpa using hd, rfl⟩
  · cases h
    exact ⟨0, rfl, rfl, rfl, rfl, rfl, rfl, fun _ => rfl, fun _ => rfl, Or.inl rfl⟩

theorem tokenIndex_ok {p : SimplePool} {t : AccountId} {i : Bool} (h : p.tokenIndex t = .ok i) :
    t = (if i then p.tok1 else p.tok0) := by
  unfold tokenIndex at h
  split at h
  · cases h; simp_all
  · split at h
    · cases h; simp_all
    · cases h

theorem swap_ok {p q : SimplePool} {ti tout : AccountId} {a mo out : Nat} {fees : AdminFees}
    {v : Bool} (h : p.swap ti a tout mo fees v = .ok (q, out)) :
    ∃ i o, ti ≠ tout ∧ p.tokenIndex ti = .ok i ∧ p.tokenIndex tout = .ok o ∧ i ≠ o ∧
      p.internalGetReturn i a o = .ok out ∧ mo ≤ out ∧ p.updatePool i a o out fees v = .ok q := by
  unfold swap at h
  unpack at h
  obtain ⟨h1, i, hi, o, ho, r, hr, hm, q', hq, rfl, rfl⟩ := h
  exact ⟨i, o, h1, hi, ho, (getReturn_ok hr).2.2.1, hr, hm, hq⟩

theorem swapByOutput_ok {p q : SimplePool} {ti tout : AccountId} {a inn : Nat} {mi : Option Nat}
    {fees : AdminFees} {v : Bool} (h : p.swapByOutput ti a tout mi fees v = .ok (q, inn)) :
    ∃ i o, ti ≠ tout ∧ p.tokenIndex ti = .ok i ∧ p.tokenIndex tout = .ok o ∧ i ≠ o ∧
      p.internalGetReturnByOutput i a o = .ok inn ∧ (∀ m, mi = some m → inn ≤ m) ∧
      p.updatePool i inn o a fees v = .ok q := by
  unfold swapByOutput at h
  unpack at h
  obtain ⟨h1, i, hi, o, ho, r, hr, hm, q', hq, rfl, rfl⟩ := h
  refine ⟨i, o, h1, hi, ho, (getReturnByOutput_ok hr).2.2.1, hr, ?_, hq⟩
  intro m hm'; subst hm'; simpa using hm

/-- Forward formula: the fee-adjusted product does not fall, and one unit more would make it
fall. -/
theorem return_optimal (X Y f a : Nat) (hX : 0 < X) :
    let r := a * f * Y / (10000 * X + a * f)
    r ≤ Y ∧ 10000 * X * Y ≤ (10000 * X + a * f) * (Y - r) ∧
    (∀ o, o ≤ Y → 10000 * X * Y ≤ (10000 * X + a * f) * (Y - o) → o ≤ r) := by
  intro r
  have hD : 0 < 10000 * X + a * f := by positivity
  have hle : r * (10000 * X + a * f) ≤ a * f * Y := Nat.div_mul_le_self _ _
  have hrY : r ≤ Y := by
    by_contra hlt
    have : (Y + 1) * (10000 * X + a * f) ≤ r * (10000 * X + a * f) :=
      Nat.mul_le_mul_right _ (by omega)
    nlinarith [Nat.zero_le (X * Y)]
  refine ⟨hrY, ?_, ?_⟩
  · obtain ⟨d, hd⟩ := Nat.exists_eq_add_of_le hrY
    rw [hd, Nat.add_sub_cancel_left]
    rw [hd] at hle
    nlinarith
  · intro o ho hk
    apply (Nat.le_div_iff_mul_le hD).2
    obtain ⟨d, hd⟩ := Nat.exists_eq_add_of_le ho
    rw [hd, Nat.add_sub_cancel_left] at hk
    rw [hd]
    nlinarith

theorem return_lt (X Y f a : Nat) (hX : 0 < X) (hY : 0 < Y) :
    a * f * Y / (10000 * X + a * f) < Y := by
  rw [Nat.div_lt_iff_lt_mul (by positivity)]
  nlinarith [Nat.mul_pos hX hY]

/-- Forward formula with a fee factor of at most one: the plain product does not fall. -/
theorem return_product (X Y f a r : Nat) (hf : f ≤ 10000) (hr : r ≤ Y)
    (h : 10000 * X * Y ≤ (10000 * X + a * f) * (Y - r)) : X * Y ≤ (X + a) * (Y - r) := by
  obtain ⟨d, rfl⟩ := Nat.exists_eq_add_of_le hr
  rw [Nat.add_sub_cancel_left] at *
  have h2 : (10000 * X + a * f) * d ≤ (10000 * X + a * 10000) * d :=
    Nat.mul_le_mul_right _ (Nat.add_le_add_left (Nat.mul_le_mul_left _ hf) _)
  nlinarith

/-- By-output formula: the charged input satisfies the fee-adjusted inequality. -/
theorem byOutput_sufficient (X Y f o : Nat) (hf : 0 < f) (ho : o < Y) :
    let a := X * o * 10000 / ((Y - o) * f) + 1
    10000 * X * Y ≤ (10000 * X + a * f) * (Y - o) := by
  intro a
  obtain ⟨d, rfl⟩ := Nat.exists_eq_add_of_le ho.le
  have hd : 0 < d := by omega
  simp only [a, Nat.add_sub_cancel_left] at *
  have hp : 0 < d * f := Nat.mul_pos hd hf
  have h1 := Nat.div_add_mod (X * o * 10000) (d * f)
  have h2 := Nat.mod_lt (X * o * 10000) hp
  generalize X * o * 10000 / (d * f) = q at *
  nlinarith

/-- By-output formula: an input smaller by two or more does not satisfy it. -/
theorem byOutput_minimal (X Y f o a' : Nat) (ho : o < Y) (hf : 0 < f)
    (ha : a' + 1 < X * o * 10000 / ((Y - o) * f) + 1) :
    (10000 * X + a' * f) * (Y - o) < 10000 * X * Y := by
  obtain ⟨d, rfl⟩ := Nat.exists_eq_add_of_le ho.le
  have hd : 0 < d := by omega
  simp only [Nat.add_sub_cancel_left] at *
  have hp : 0 < d * f := Nat.mul_pos hd hf
  have h1 : a' + 1 ≤ X * o * 10000 / (d * f) := by omega
  have h2 := (Nat.le_div_iff_mul_le hp).1 h1
  nlinarith

end SimplePool
end Verif

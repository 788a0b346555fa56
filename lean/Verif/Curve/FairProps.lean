import Verif.Curve.Fair

/-
C87: deposits into a curve pool are credited in full, and withdrawals of tokens are not overcharged,
apart from the fee on what is not in proportion.
-/

namespace Verif
namespace CurvePool

section stable
variable {A B c n : Nat} {p q : CurvePool} {env : CurveEnv} {s : AccountId} {am : List Nat}
  {fees : AdminFees}

/-- The computed invariant is at least the exact one. -/
theorem value_le_computed {ys : List Nat} {d : Nat} (h : computeD 256 (.ok A) ys = .ok d) :
    ({ p with cAmts := ys } : CurvePool).value A ≤ d := by
  by_cases hs : ys.sum = 0
  · have := value_le (A := A) (p := { p with cAmts := ys })
    simp only [hs] at this
    omega
  · exact (C64_computed h hs).1 _ value_spec

/-- **C87**, deposits into a stable pool. With `ys` the new reserves less the fee on their distance from
proportion, the shares that the provider gets are worth at least the gain in the pool's exact invariant
up to `ys`, except for `opLoss` units. -/
theorem C87_deposit {mn : Nat} (tp : Tame A B c p) (tq : Tame A B c q)
    (hroom : Room p.cAmts.length B c) (hsound : p.Sound) (hamp : AmpIs A env.now p)
    (hb : fees.adminFeeBps ≤ 10000) (h0 : 0 < p.supply)
    (hs : p.addLiquidity s am mn fees env false = .ok (q, n)) :
    ∃ d0 d1 ys, p.value A ≤ d0 ∧ d0 ≤ p.value A + dError p.cAmts.length c ∧
      q.value A ≤ d1 ∧ d1 ≤ q.value A + dError p.cAmts.length c ∧
      AfterFee p.totalFee p.cAmts.length d0 d1 p.cAmts q.cAmts ys ∧
      (({ p with cAmts := ys } : CurvePool).value A : ℚ) ≤
        p.value A + q.worth A n + opLoss p.cAmts.length c := by
  have hB0 := hroom.pos tp.length
  obtain ⟨hc, hB⟩ := hroom
  obtain ⟨d0, d1, d2, ys, g0, g1, g2, hf, hd0, -, hn, hle, hsup, -⟩ :=
    addLiquidity_invariants hsound (by omega) hb hs
  have hlen : q.cAmts.length = p.cAmts.length := hf.1.symm
  obtain ⟨ha, hd0'⟩ := tp.inv_amp hamp hB0 g0
  have hd1 := tp.inv_of ha g1
  have hd2 := tp.inv_of ha g2
  obtain ⟨k0, l0⟩ := tp.computed hc hB hd0'
  obtain ⟨k1, l1⟩ := tq.computed hc (by rw [hlen]; exact hB) hd1
  rw [hlen] at l1
  exact ⟨d0, d1, ys, k0, l0, k1, l1, hf, credited h0 hd0 hsup hn hle (value_le_computed hd2) l0 l1
    (value_le.trans tq.price)⟩

/-- **C87**, withdrawals of given amounts from a stable pool. With `ys` the new reserves less the fee on
their distance from proportion, the shares that are taken from the provider were worth at most the fall
of the pool's exact invariant to `ys`, except for the error of Newton's method. -/
theorem C87_withdrawal {mb : Nat} (tp : Tame A B c p) (tq : Tame A B c q)
    (hroom : Room p.cAmts.length B c) (hsound : p.Sound) (hamp : AmpIs A env.now p)
    (h0 : 0 < p.supply)
    (hs : p.removeByTokens s am mb fees env false = .ok (q, n)) :
    ∃ d0 d1 ys, p.value A ≤ d0 ∧ d0 ≤ p.value A + dError p.cAmts.length c ∧
      q.value A ≤ d1 ∧ d1 ≤ q.value A + dError p.cAmts.length c ∧
      AfterFee p.totalFee p.cAmts.length d0 d1 p.cAmts q.cAmts ys ∧
      p.worth A n + ({ p with cAmts := ys } : CurvePool).value A ≤
        p.value A + dError p.cAmts.length c := by
  have hB0 := hroom.pos tp.length
  obtain ⟨hc, hB⟩ := hroom
  obtain ⟨d0, d1, d2, ys, g0, g1, g2, hf, hd0, hle, hn, -, -⟩ := removeByTokens_invariants hsound hs
  have hlen : q.cAmts.length = p.cAmts.length := hf.1.symm
  obtain ⟨ha, hd0'⟩ := tp.inv_amp hamp hB0 g0
  have hd1 := tp.inv_of ha g1
  have hd2 := tp.inv_of ha g2
  obtain ⟨k0, l0⟩ := tp.computed hc hB hd0'
  obtain ⟨k1, l1⟩ := tq.computed hc (by rw [hlen]; exact hB) hd1
  rw [hlen] at l1
  exact ⟨d0, d1, ys, k0, l0, k1, l1, hf, charged h0 hle hn k0 l0 (value_le_computed hd2)⟩

/-- The fee is small where the reserves are in proportion. -/
theorem fee_small {b d0 d1 e k m v0 v1 x : Nat} (hm : 0 < m) (hx : b * m = x * (m + k))
    (k0 : v0 ≤ d0) (l0 : d0 ≤ v0 + e) (k1 : v1 ≤ d1) (l1 : d1 ≤ v1 + e) (hv0 : 0 < v0)
    (hup : v1 * m < (v0 + 1) * (m + k)) (hlo : v0 * (m + k) < (v1 + 1) * m) (hbc : b ≤ c * v0) :
    (d1 * x / d0 - b) + (b - d1 * x / d0) ≤ c * (e + 1) + 1 := by
  have hxb : x ≤ b := by
    refine Nat.le_of_mul_le_mul_right ?_ hm
    rw [hx]
    exact Nat.mul_le_mul_left _ (by omega)
  have hbm : b * m = x * m + x * k := by rw [hx]; ring
  have up : d1 * x / d0 ≤ b + c * (e + 1) := by
    refine (Nat.div_le_div_left k0 hv0).trans ?_
    rw [Nat.div_le_iff_le_mul_add_pred hv0]
    refine Nat.le_add_right_of_le (Nat.le_of_mul_le_mul_right (c := m) ?_ hm)
    have h1 := Nat.mul_le_mul_right (x * m) l1
    have h2 := Nat.mul_le_mul_right x hup.le
    have h3 : e * x * m ≤ c * v0 * e * m := by
      have := Nat.mul_le_mul_right (e * m) (hxb.trans hbc)
      calc e * x * m = x * (e * m) := by ring
        _ ≤ c * v0 * (e * m) := this
        _ = c * v0 * e * m := by ring
    have h4 := Nat.mul_le_mul_right m hbc
    have e1 : d1 * x * m = d1 * (x * m) := by ring
    have e2 : (v1 + e) * (x * m) = v1 * m * x + e * x * m := by ring
    have e3 : (v0 + 1) * (m + k) * x = v0 * (b * m) + b * m := by rw [hx]; ring
    have e4 : v0 * (b + c * (e + 1)) * m = v0 * (b * m) + c * v0 * e * m + c * v0 * m := by ring
    omega
  have low : b ≤ d1 * x / d0 + (c * (e + 1) + 1) := by
    have hd0 : 0 < d0 := by omega
    have h1 := Nat.lt_mul_div_succ (d1 * x) hd0
    generalize d1 * x / d0 = i at *
    by_contra hcon
    have h2 : i + 1 + c * (e + 1) ≤ b := by omega
    have h3 : d0 * (i + 1 + c * (e + 1)) ≤ d0 * b := Nat.mul_le_mul_left _ h2
    have h4 : d0 * (i + 1 + c * (e + 1)) = d0 * (i + 1) + d0 * (c * (e + 1)) := by ring
    have h5 : v1 * x ≤ d1 * x := Nat.mul_le_mul_right _ k1
    have h6 : d0 * b ≤ v0 * b + e * b := by
      have := Nat.mul_le_mul_right b l0
      rwa [Nat.add_mul] at this
    have h7 : e * b ≤ e * (c * v0) := Nat.mul_le_mul_left _ hbc
    have h8 : v0 * (c * (e + 1)) ≤ d0 * (c * (e + 1)) := Nat.mul_le_mul_right _ k0
    have h9 : v0 * (c * (e + 1)) = e * (c * v0) + c * v0 := by ring
    have h10 : v0 * b ≤ v1 * x + x := by
      refine Nat.le_of_mul_le_mul_right (c := m) ?_ hm
      have := Nat.mul_le_mul_right x hlo.le
      calc v0 * b * m = v0 * (m + k) * x := by rw [Nat.mul_assoc, hx]; ring
        _ ≤ (v1 + 1) * m * x := this
        _ = (v1 * x + x) * m := by ring
    omega
  omega

/-- **C87**, deposits in proportion. Whoever deposits into a stable pool in the proportions of its
reserves, so that all grow by `k / m`, pays no fee: their shares are worth the whole gain in the pool's
exact invariant, except for a fixed number of units. -/
theorem C87_proportional {k m mn : Nat} (tp : Tame A B c p) (tq : Tame A B c q)
    (hroom : Room p.cAmts.length B c) (hsound : p.Sound) (hamp : AmpIs A env.now p) (hA : 1 ≤ A)
    (hb : fees.adminFeeBps ≤ 10000) (h0 : 0 < p.supply)
    (hm : 0 < m) (hprop : q.cAmts.map (· * m) = p.cAmts.map (· * (m + k)))
    (hlow : ∀ b ∈ q.cAmts, B ≤ c * b)
    (hs : p.addLiquidity s am mn fees env false = .ok (q, n)) :
    (q.value A : ℚ) ≤ p.value A + q.worth A n +
      (opLoss p.cAmts.length c + c ^ 2 * (c * (dError p.cAmts.length c + 1) + 1) + 1 : Nat) := by
  obtain ⟨d0, d1, ys, k0, l0, k1, l1, ⟨hlen, hyl, hf⟩, hw⟩ :=
    C87_deposit tp tq hroom hsound hamp hb h0 hs
  replace hlen := hlen.symm
  have hn1 := tp.length
  have hB0 := hroom.pos hn1
  have hc := hroom.1
  have hAn : 1 ≤ A * p.cAmts.length ^ p.cAmts.length := by
    have : 0 < A * p.cAmts.length ^ p.cAmts.length := by positivity
    omega
  have each : ∀ (i x b : Nat), p.cAmts[i]? = some x → q.cAmts[i]? = some b →
      b * m = x * (m + k) := by
    intro i x b hx hb
    have := congrArg (·[i]?) hprop
    simpa [hx, hb] using this
  have hv0 : 0 < p.value A := lt_of_lt_of_le hB0 tp.size_le
  have hup : q.value A * m < (p.value A + 1) * (m + k) := by
    have h1 : OnOrAboveCurve A (q.value A * m / (m + k)) p.cAmts 0 := by
      refine (value_spec (A := A) (p := q)).ratio (M := m) (N := m + k) (by rw [hlen]; exact hAn)
        (by omega) ?_ ?_
      · rw [List.forall₂_iff_get]
        refine ⟨hlen, fun j h1 h2 => ?_⟩
        simp only [List.get_eq_getElem]
        have := each j _ _ (List.getElem?_eq_getElem h2) (List.getElem?_eq_getElem h1)
        rw [Nat.mul_comm m, this, Nat.mul_comm]
      · rw [Nat.mul_comm m]; exact Nat.mul_div_le _ _
    have h2 := value_max tp.some h1
    have h3 := Nat.lt_mul_div_succ (q.value A * m) (by omega : 0 < m + k)
    rw [Nat.mul_comm (p.value A + 1)]
    exact h3.trans_le (Nat.mul_le_mul_left _ (by omega))
  have hlo : p.value A * (m + k) < (q.value A + 1) * m := by
    have h1 : OnOrAboveCurve A (p.value A * (m + k) / m) q.cAmts 0 := by
      refine (value_spec (A := A) (p := p)).ratio (M := m + k) (N := m) hAn hm ?_ ?_
      · rw [List.forall₂_iff_get]
        refine ⟨hlen.symm, fun j h1 h2 => ?_⟩
        simp only [List.get_eq_getElem]
        have := each j _ _ (List.getElem?_eq_getElem h1) (List.getElem?_eq_getElem h2)
        rw [Nat.mul_comm (m + k), ← this, Nat.mul_comm]
      · rw [Nat.mul_comm (m + k)]; exact Nat.mul_div_le _ _
    have h2 := value_max tq.some h1
    have h3 := Nat.lt_mul_div_succ (p.value A * (m + k)) hm
    rw [Nat.mul_comm (q.value A + 1)]
    exact h3.trans_le (Nat.mul_le_mul_left _ (by omega))
  generalize hF : c * (dError p.cAmts.length c + 1) + 1 = F at *
  have hphi : p.totalFee * p.cAmts.length / (4 * (p.cAmts.length - 1)) ≤ 10000 := by
    have hfee := hsound.fee
    rcases Nat.lt_or_ge p.cAmts.length 2 with h1 | h1
    · have : p.cAmts.length - 1 = 0 := by omega
      rw [this]; simp
    · apply Nat.div_le_of_le_mul
      have : p.totalFee * p.cAmts.length ≤ 10000 * p.cAmts.length := Nat.mul_le_mul_right _ hfee.le
      omega
  have hy : ∀ (i b y : Nat), q.cAmts[i]? = some b → ys[i]? = some y → b ≤ y + F := by
    intro i b y hb hy
    have hi : i < p.cAmts.length := by rw [← hlen]; exact (List.getElem?_eq_some_iff.1 hb).1
    have hx := List.getElem?_eq_getElem hi
    have h1 := hf i _ b y hx hb hy
    have hbc : b ≤ c * p.value A := by
      have h2 := tq.even b (List.mem_of_getElem? hb)
      have h3 : b * 1 ≤ b * q.cAmts.length := Nat.mul_le_mul_left _ tq.length
      have h4 := Nat.mul_le_mul_left c tp.size_le
      omega
    have h2 := fee_small (c := c) hm (each i _ b hx hb) k0 l0 k1 l1 hv0 hup hlo hbc
    rw [hF] at h2
    have h3 := Nat.div_le_div_right (c := 10000) (Nat.mul_le_mul h2 hphi)
    rw [Nat.mul_div_cancel _ (by decide : 0 < 10000)] at h3
    omega
  have hne : ys ≠ [] := by
    intro e
    rw [e] at hyl
    exact tq.some (List.length_eq_zero_iff.1 hyl.symm)
  have hval : q.value A * (B - c * F) / B ≤ ({ p with cAmts := ys } : CurvePool).value A := by
    refine value_max hne ((value_spec (A := A) (p := q)).ratio (M := B - c * F) (N := B)
      (by rw [hlen]; exact hAn) hB0 ?_ ?_)
    · rw [List.forall₂_iff_get]
      refine ⟨hyl.symm, fun j h1 h2 => ?_⟩
      simp only [List.get_eq_getElem]
      have h3 := hy j _ _ (List.getElem?_eq_getElem h1) (List.getElem?_eq_getElem h2)
      have h4 := hlow _ (List.getElem_mem h1)
      generalize q.cAmts[j] = b at *
      generalize ys[j] = y at *
      have h5 := Nat.mul_le_mul_left B h3
      have h6 := Nat.mul_le_mul_right F h4
      have e1 : (B - c * F) * b = B * b - c * b * F := by
        rw [Nat.sub_mul]; congr 1; ring
      rw [Nat.mul_add] at h5
      omega
    · rw [Nat.mul_comm (B - c * F)]; exact Nat.mul_div_le _ _
  have hfin : q.value A ≤ ({ p with cAmts := ys } : CurvePool).value A + c ^ 2 * F + 1 := by
    have h1 := Nat.lt_mul_div_succ (q.value A * (B - c * F)) hB0
    have h2 : q.value A ≤ c * B := by
      refine value_le.trans (Nat.le_of_mul_le_mul_left ?_ (Nat.lt_of_lt_of_le Nat.zero_lt_one tq.length))
      rw [Nat.mul_comm]
      exact sum_le_of_even tq.even
    have h3 : q.value A * (c * F) ≤ B * (c ^ 2 * F) := by
      have := Nat.mul_le_mul_right (c * F) h2
      calc q.value A * (c * F) ≤ c * B * (c * F) := this
        _ = B * (c ^ 2 * F) := by ring
    rw [Nat.mul_sub] at h1
    have h4 : B * q.value A ≤ B * (({ p with cAmts := ys } : CurvePool).value A + c ^ 2 * F + 1) := by
      have := Nat.mul_le_mul_left B (Nat.succ_le_succ hval)
      simp only [Nat.succ_eq_add_one] at this
      have e : B * (({ p with cAmts := ys } : CurvePool).value A + c ^ 2 * F + 1) =
        B * (({ p with cAmts := ys } : CurvePool).value A + 1) + B * (c ^ 2 * F) := by ring
      rw [Nat.mul_comm B (q.value A)]
      rw [Nat.mul_sub] at this
      omega
    exact Nat.le_of_mul_le_mul_left h4 hB0
  have : (q.value A : ℚ) ≤ (({ p with cAmts := ys } : CurvePool).value A + c ^ 2 * F + 1 : Nat) := by
    exact_mod_cast hfin
  push_cast at this ⊢
  linarith

end stable

section rated
variable {A B c g n : Nat} {p q : CurvePool} {env : CurveEnv} {s : AccountId} {am : List Nat}
  {fees : AdminFees}

/-- The computed invariant is at least the exact one. -/
theorem ratedValue_le_computed {r : CurvePool} {rs : List Nat} {w d : Nat}
    (h : computeD w (.ok A) (r.atRates rs) = .ok d) : r.ratedValue A rs ≤ d := by
  by_cases hs : (r.atRates rs).sum = 0
  · have := ratedValue_le (A := A) (rs := rs) (p := r)
    omega
  · exact (C64_computed h hs).1 _ ratedValue_spec

/-- **C87**, deposits into a rated or degen pool, at the rates or prices of the time. -/
theorem C87_rated_deposit {mn : Nat} (tp : RatedTame A B c g env.rates p)
    (tq : RatedTame A B c g env.rates q) (hroom : RatedRoom p.cAmts.length B c g) (hsound : p.Sound)
    (hamp : AmpIs A env.now p) (hb : fees.adminFeeBps ≤ 10000) (h0 : 0 < p.supply)
    (hs : p.addLiquidity s am mn fees env false = .ok (q, n)) :
    ∃ d0 d1 ys, p.ratedValue A env.rates ≤ d0 ∧
      d0 ≤ p.ratedValue A env.rates + dError p.cAmts.length c ∧
      q.ratedValue A env.rates ≤ d1 ∧ d1 ≤ q.ratedValue A env.rates + dError p.cAmts.length c ∧
      AfterFee p.totalFee p.cAmts.length d0 d1 p.cAmts q.cAmts ys ∧
      (({ p with cAmts := ys } : CurvePool).ratedValue A env.rates : ℚ) ≤
        p.ratedValue A env.rates + q.ratedWorth A env.rates n + opLoss p.cAmts.length c := by
  have hB0 := hroom.pos tp.length.2
  obtain ⟨hc, hB, -⟩ := hroom
  obtain ⟨d0, d1, d2, ys, g0, g1, g2, hf, hd0, -, hn, hle, hsup, hkind⟩ :=
    addLiquidity_invariants hsound (by omega) hb hs
  have hlen : q.cAmts.length = p.cAmts.length := hf.1.symm
  have ha := tp.inv_amp hamp hB0 g0
  obtain ⟨k0, l0⟩ := tp.computed hc hB (dWithRates_rated rfl ha g0)
  obtain ⟨k1, l1⟩ := tq.computed hc (by rw [hlen]; exact hB) (dWithRates_rated hkind ha g1)
  have k2 := ratedValue_le_computed
    (dWithRates_rated (s := { p with cAmts := ys }) rfl ha g2)
  rw [hlen] at l1
  exact ⟨d0, d1, ys, k0, l0, k1, l1, hf, credited h0 hd0 hsup hn hle k2 l0 l1
    (ratedValue_le.trans tq.price)⟩

/-- **C87**, withdrawals of given amounts from a rated or degen pool. -/
theorem C87_rated_withdrawal {mb : Nat} (tp : RatedTame A B c g env.rates p)
    (tq : RatedTame A B c g env.rates q) (hroom : RatedRoom p.cAmts.length B c g) (hsound : p.Sound)
    (hamp : AmpIs A env.now p) (h0 : 0 < p.supply)
    (hs : p.removeByTokens s am mb fees env false = .ok (q, n)) :
    ∃ d0 d1 ys, p.ratedValue A env.rates ≤ d0 ∧
      d0 ≤ p.ratedValue A env.rates + dError p.cAmts.length c ∧
      q.ratedValue A env.rates ≤ d1 ∧ d1 ≤ q.ratedValue A env.rates + dError p.cAmts.length c ∧
      AfterFee p.totalFee p.cAmts.length d0 d1 p.cAmts q.cAmts ys ∧
      p.ratedWorth A env.rates n + ({ p with cAmts := ys } : CurvePool).ratedValue A env.rates ≤
        p.ratedValue A env.rates + dError p.cAmts.length c := by
  have hB0 := hroom.pos tp.length.2
  obtain ⟨hc, hB, -⟩ := hroom
  obtain ⟨d0, d1, d2, ys, g0, g1, g2, hf, hd0, hle, hn, -, hkind⟩ :=
    removeByTokens_invariants hsound hs
  have hlen : q.cAmts.length = p.cAmts.length := hf.1.symm
  have ha := tp.inv_amp hamp hB0 g0
  obtain ⟨k0, l0⟩ := tp.computed hc hB (dWithRates_rated rfl ha g0)
  obtain ⟨k1, l1⟩ := tq.computed hc (by rw [hlen]; exact hB) (dWithRates_rated hkind ha g1)
  have k2 := ratedValue_le_computed
    (dWithRates_rated (s := { p with cAmts := ys }) rfl ha g2)
  rw [hlen] at l1
  exact ⟨d0, d1, ys, k0, l0, k1, l1, hf, charged h0 hle hn k0 l0 k2⟩

end rated
end CurvePool
end Verif

import Verif.Curve.HoldingsProps

/-
How fast the invariant of a curve pool falls when one reserve is taken away.
-/

namespace Verif

theorem sum_prod_set {i x y : Nat} : ∀ {xs : List Nat}, xs[i]? = some x →
    ∃ P S, xs.prod = x * P ∧ (xs.set i y).prod = y * P ∧ xs.sum = x + S ∧ (xs.set i y).sum = y + S := by
  intro xs
  induction xs generalizing i with
  | nil => intro h; simp at h
  | cons z zs ih =>
    intro h
    cases i with
    | zero =>
      simp at h
      subst h
      exact ⟨zs.prod, zs.sum, by simp, by simp, by simp, by simp⟩
    | succ i =>
      simp only [List.getElem?_cons_succ] at h
      obtain ⟨P, S, h1, h2, h3, h4⟩ := ih h
      refine ⟨z * P, z + S, ?_, ?_, ?_, ?_⟩
      · rw [List.prod_cons, h1]; ring
      · rw [List.set_cons_succ, List.prod_cons, h2]; ring
      · rw [List.sum_cons, h3]; omega
      · rw [List.set_cons_succ, List.sum_cons, h4]; omega

/-- If only one reserve is lower than before, it is lower by at most what the invariant has fallen,
or by the part of the reserve that corresponds to it. -/
theorem OnOrAboveCurve.slope {A E F i x y : Nat} {xs : List Nat} (hx : xs[i]? = some x) (hyx : y ≤ x)
    (h : OnOrAboveCurve A E (xs.set i y) 0) (hF : ¬ OnOrAboveCurve A F xs 0) (hEF : E ≤ F) :
    x - y ≤ F - E ∨ F * (x - y) ≤ (xs.length + 1) * x * (F - E) := by
  obtain ⟨P, S, h1, h2, h3, h4⟩ := sum_prod_set (y := y) hx
  unfold OnOrAboveCurve at h hF
  simp only [List.length_set, h1, h2, h3, h4, Nat.add_zero, Nat.not_le] at h hF
  generalize hn : xs.length = n at *
  obtain ⟨d, rfl⟩ := Nat.exists_eq_add_of_le hyx
  obtain ⟨m, rfl⟩ := Nat.exists_eq_add_of_le hEF
  simp only [Nat.add_sub_cancel_left]
  by_cases hd : d ≤ m
  · exact .inl hd
  refine .inr ?_
  have ht := tangent_le (E + m) E n
  generalize hQ : n ^ n * P = Q at *
  have e1 : n ^ n * (y * P) = y * Q := by rw [← hQ]; ring
  have e2 : n ^ n * ((y + d) * P) = (y + d) * Q := by rw [← hQ]; ring
  rw [e1] at h
  rw [e2] at hF
  generalize A * n ^ n = a at *
  -- in integers
  generalize hx' : y + d = z at *
  have hy : (y : Int) = z - d := by omega
  have hmd : (m : Int) ≤ d := by omega
  have h' : ((E : Int) ^ (n + 1)) ≤ (a * (y + S - E) + E) * (y * Q) := by
    have : ((E : Int) ^ (n + 1)) + a * E * (y * Q) ≤ (a * (y + S) + E) * (y * Q) := by exact_mod_cast h
    linarith
  have hF' : (a * ((z : Int) + S - (E + m)) + (E + m)) * (z * Q) < ((E : Int) + m) ^ (n + 1) := by
    have : ((a : Int) * (z + S) + (E + m)) * (z * Q) < (E + m) ^ (n + 1) + a * (E + m) * (z * Q) := by
      exact_mod_cast hF
    linarith
  have ht' : ((n : Int) + 1) * (((E : Int) + m) ^ n * E) ≤ (E : Int) ^ (n + 1) + n * ((E : Int) + m) ^ (n + 1) := by
    exact_mod_cast ht
  generalize hU : (a : Int) * (z + S - (E + m)) + (E + m) = U at *
  have hb : (a : Int) * (y + S - E) + E = U - (a * (d - m) + m) := by rw [← hU, hy]; ring
  rw [hb] at h'
  have hpow : ((E : Int) + m) ^ (n + 1) = (E + m) ^ n * (E + m) := pow_succ _ _
  generalize hG : ((E : Int) + m) ^ n = G at *
  have hG0 : 0 ≤ G := by rw [← hG]; positivity
  have hz0 : (0 : Int) ≤ z := by positivity
  have hy0 : (0 : Int) ≤ y := by positivity
  have hQ0 : (0 : Int) ≤ Q := by positivity
  -- `E ^ (n+1) * z ≤ F ^ (n+1) * y`
  have k1 : (E : Int) ^ (n + 1) * z ≤ (U * (z * Q)) * y := by
    have h5 : 0 ≤ ((a : Int) * (d - m) + m) * (y * Q * z) := by
      have : (0 : Int) ≤ a * (d - m) := mul_nonneg (by positivity) (by omega)
      positivity
    have h6 := mul_le_mul_of_nonneg_right h' hz0
    nlinarith
  have k2 : (U * (z * Q)) * y ≤ G * (E + m) * y := by
    rw [hpow] at hF'
    exact mul_le_mul_of_nonneg_right hF'.le hy0
  have k3 : (E : Int) ^ (n + 1) * z ≤ G * (E + m) * (z - d) := by rw [← hy]; exact k1.trans k2
  have k4 : (G * (E + m) - (n + 1) * (G * m)) * z ≤ (E : Int) ^ (n + 1) * z := by
    apply mul_le_mul_of_nonneg_right _ hz0
    rw [hpow] at ht'
    linarith
  have k5 : G * ((E + m) * d) ≤ G * ((n + 1) * z * m) := by linarith
  rcases hG0.eq_or_lt with h0 | h0
  · -- then the upper value is zero
    exfalso
    rw [← h0] at hG
    have hz : (E : Int) + m = 0 := by
      rcases Nat.eq_zero_or_pos n with hn0 | hn0
      · rw [hn0] at hG; simp at hG
      · exact pow_eq_zero_iff (by omega) |>.1 hG
    have hm0 : m = 0 := by omega
    have hE0 : E = 0 := by omega
    subst hm0; subst hE0
    have : (0 : Int) ≤ U * (z * Q) := by
      rw [← hU]
      simp only [Nat.cast_zero, add_zero, sub_zero]
      positivity
    rw [hpow, ← h0] at hF'
    simp at hF'
    omega
  · have := le_of_mul_le_mul_left k5 h0
    exact_mod_cast this

end Verif

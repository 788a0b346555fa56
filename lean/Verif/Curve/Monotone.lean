import Verif.Curve.AccuracyProps

/-
`compute_y` is monotone: the more of one token, the less of the other is left on the curve, exactly.
-/

namespace Verif

theorem yStep_eq {w b c d y y' : Nat} (h : yStep w b c d y = .ok y') :
    d < y * 2 + b ∧ y' = (y * y + c) / (y * 2 + b - d) := by
  unfold yStep at h
  unpack at h
  obtain ⟨-, -, -, -, h1, h2, rfl⟩ := h
  exact ⟨by omega, rfl⟩

/-- Let `t` be above the root of the solver's equation, not just by a rounding error. A round from
`t - 1`, `t` or `t + 1` ends below `t`, and from further above it halves the distance. -/
theorem yStep_lt {w b c d y y' t : Nat} (h : yStep w b c d y = .ok y')
    (ht : c + d * t + 2 ≤ t * t + b * t) (h0 : 0 < t) (hy : t ≤ y + 1) :
    y' < t ∨ (t + 2 ≤ y ∧ 2 * (y' + 1 - t) ≤ y + 1 - t) := by
  obtain ⟨hd, rfl⟩ := yStep_eq h
  have hbt : d < t + b := by
    refine Nat.lt_of_mul_lt_mul_right (a := t) ?_
    rw [Nat.add_mul]
    omega
  obtain ⟨n, hn⟩ : ∃ n, y * 2 + b = d + n := ⟨y * 2 + b - d, by omega⟩
  rw [show y * 2 + b - d = n by omega]
  have hn0 : 0 < n := by omega
  have htn : t * n + d * t = t * (y * 2) + b * t := by
    have : t * (y * 2 + b) = t * (d + n) := by rw [hn]
    nlinarith
  rcases Nat.lt_or_ge y (t + 2) with hlt | hge
  · left
    rw [Nat.div_lt_iff_lt_mul hn0]
    rcases Nat.lt_or_ge y t with h1 | h1
    · obtain rfl : t = y + 1 := by omega
      have e1 : (y + 1) * (y + 1) = y * y + 2 * y + 1 := by ring
      have e2 : (y + 1) * (y * 2) = 2 * (y * y) + 2 * y := by ring
      omega
    rcases Nat.eq_or_lt_of_le h1 with h2 | h2
    · subst h2
      have e2 : t * (t * 2) = 2 * (t * t) := by ring
      omega
    · obtain rfl : y = t + 1 := by omega
      have e1 : (t + 1) * (t + 1) = t * t + 2 * t + 1 := by ring
      have e2 : t * ((t + 1) * 2) = 2 * (t * t) + 2 * t := by ring
      omega
  · obtain ⟨e, rfl⟩ := Nat.exists_eq_add_of_le (show t ≤ y by omega)
    right
    refine ⟨hge, ?_⟩
    suffices hs : ((t + e) * (t + e) + c) / n < t + (e + 1) / 2 by omega
    rw [Nat.div_lt_iff_lt_mul hn0]
    have hf : e ≤ 2 * ((e + 1) / 2) := by omega
    generalize (e + 1) / 2 = f at hf
    have h2 : e * e + 1 ≤ f * n := by
      have h3 : f * (2 * e + 2) ≤ f * n := Nat.mul_le_mul_left _ (by omega)
      have h4 : e * (e + 1) ≤ 2 * f * (e + 1) := Nat.mul_le_mul_right _ hf
      have e3 : f * (2 * e + 2) = 2 * f * (e + 1) := by ring
      have e4 : e * (e + 1) = e * e + e := by ring
      omega
    have e1 : (t + e) * (t + e) = t * t + 2 * (t * e) + e * e := by ring
    have e2 : t * ((t + e) * 2) = 2 * (t * t) + 2 * (t * e) := by ring
    have e3 : (t + f) * n = t * n + f * n := by ring
    omega

/-- A round from a point that is not below the root by more than one unit. -/
theorem yStep_le_succ {w b c d y y' : Nat} (h : yStep w b c d y = .ok y')
    (hy : ¬ (y + 1) * (y + 1) + b * (y + 1) ≤ c + d * (y + 1)) : y' ≤ y + 1 := by
  obtain ⟨hd, rfl⟩ := yStep_eq h
  obtain ⟨n, hn⟩ : ∃ n, y * 2 + b = d + n := ⟨y * 2 + b - d, by omega⟩
  rw [show y * 2 + b - d = n by omega]
  have hn0 : 0 < n := by omega
  refine Nat.div_le_of_le_mul ?_
  have : (y + 1) * (y * 2 + b) = (y + 1) * (d + n) := by rw [hn]
  nlinarith

/-- The loop ends below `t`. -/
theorem yLoop_below {w b c d t : Nat} (ht : c + d * t + 2 ≤ t * t + b * t) (h0 : 0 < t) :
    ∀ {k y r : Nat}, yLoop w b c d k y = .ok r →
    (∀ z, z * z + b * z ≤ c + d * z → z ≤ y) → y + 1 < t + 2 ^ k → r < t := by
  intro k
  induction k with
  | zero => intro y r h _ hy; cases h; simpa using hy
  | succ k ih =>
    intro y r h hmax hy
    unfold yLoop at h
    rw [bind_ok] at h
    obtain ⟨y', hy', h⟩ := h
    have hmax' : ∀ z, z * z + b * z ≤ c + d * z → z ≤ y' := fun z hz => yStep_ge hy' hz
    have hpow := Nat.one_le_two_pow (n := k)
    rw [Nat.pow_succ] at hy
    have done : y' < t → r < t := by
      intro hlt
      split at h
      · cases h; exact hlt
      · exact ih h hmax' (by omega)
    rcases Nat.lt_or_ge (y + 1) t with hlt | hge
    · exact done (by
        have h1 : ¬ ((y + 1) * (y + 1) + b * (y + 1) ≤ c + d * (y + 1)) :=
          fun hc => by have := hmax _ hc; omega
        have h2 := yStep_le_succ hy' h1
        omega)
    · rcases yStep_lt hy' ht h0 hge with h1 | ⟨h1, h2⟩
      · exact done h1
      · split at h
        · rename_i hn
          cases h
          simp only [near, decide_eq_true_eq] at hn
          omega
        · exact ih h hmax' (by omega)

/-- The loop as it is run: 256 rounds from the invariant. -/
theorem yLoop_lt {w b c d t r : Nat} (ht : c + d * t + 2 ≤ t * t + b * t) (h0 : 0 < t)
    (h : yLoop w b c d 256 d = .ok r) (hb : 0 < b) (hd0 : 0 < d) (hd : d < 2 ^ 255)
    (ht2 : t ≤ 2 ^ 128) : r < t := by
  rw [show (256 : Nat) = 255 + 1 from rfl] at h
  unfold yLoop at h
  rw [bind_ok] at h
  obtain ⟨y', hy', h⟩ := h
  have hmax' : ∀ z, z * z + b * z ≤ c + d * z → z ≤ y' := fun z hz => yStep_ge hy' hz
  have done : y' < t → r < t := by
    intro hlt
    split at h
    · cases h; exact hlt
    · exact yLoop_below ht h0 h hmax' (by omega)
  rcases Nat.lt_or_ge (d + 1) t with hlt | hge
  · by_cases hy : y' < t
    · exact done hy
    split at h
    · rename_i hn
      simp only [near, decide_eq_true_eq] at hn
      omega
    refine yLoop_below ht h0 h hmax' ?_
    obtain ⟨-, hq⟩ := yStep_eq hy'
    rw [show d * 2 + b - d = d + b by omega] at hq
    obtain ⟨e, rfl⟩ := Nat.exists_eq_add_of_le (show d ≤ t by omega)
    obtain ⟨f, hf⟩ := Nat.exists_eq_add_of_le (show d + e ≤ y' by omega)
    have h1 : y' * (d + b) ≤ d * d + c := by rw [hq]; exact Nat.div_mul_le_self _ _
    rw [hf] at h1 ⊢
    have h2 : f * (d + b) + 2 ≤ e * e := by
      have e1 : (d + e + f) * (d + b) = d * d + d * b + e * d + e * b + f * (d + b) := by ring
      have e2 : (d + e) * (d + e) = d * d + 2 * (e * d) + e * e := by ring
      have e3 : d * (d + e) = d * d + e * d := by ring
      have e4 : b * (d + e) = d * b + e * b := by ring
      omega
    have h3 : f * 2 ≤ f * (d + b) := Nat.mul_le_mul_left _ (by omega)
    have h4 : e * e ≤ (2 ^ 128 - 1) * (2 ^ 128 - 1) := Nat.mul_le_mul (by omega) (by omega)
    have h5 : (2 ^ 128 - 1) * (2 ^ 128 - 1) < 2 * 2 ^ 255 := by norm_num
    omega
  · rcases yStep_lt hy' ht h0 hge with h1 | ⟨h1, h2⟩
    · exact done h1
    · split at h
      · rename_i hn
        simp only [near, decide_eq_true_eq] at hn
        omega
      · exact yLoop_below ht h0 h hmax' (by omega)

/-- The products and sums over the other balances keep their order. -/
theorem yOthersLoop_mono {w d ix iy : Nat} : ∀ {xs : List Nat} {idx s c s1 c1 s' c' s1' c1' : Nat},
    yOthersLoop w d ix iy xs idx s c = .ok (s1, c1) →
    yOthersLoop w d ix iy xs idx s' c' = .ok (s1', c1') → c' ≤ c → c1' ≤ c1 ∧ s1' + s = s1 + s' := by
  intro xs
  induction xs with
  | nil =>
    intro idx s c s1 c1 s' c' s1' c1' h h' hc
    cases h; cases h'
    exact ⟨hc, Nat.add_comm _ _⟩
  | cons x xs ih =>
    intro idx s c s1 c1 s' c' s1' c1' h h' hc
    unfold yOthersLoop at h h'
    split at h
    · rename_i hne
      rw [if_pos hne] at h'
      unpack at h
      unpack at h'
      obtain ⟨-, -, hx, h⟩ := h
      obtain ⟨-, -, -, h'⟩ := h'
      obtain ⟨h1, h2⟩ := ih h h' (Nat.div_le_div_right (Nat.mul_le_mul_right _ hc))
      exact ⟨h1, by omega⟩
    · rename_i hne
      rw [if_neg hne] at h'
      exact ih h h' hc

/-- The more there is of the token paid in, the less of the other is left. -/
theorem computeY_mono {w : Nat} {amp : R Nat} {x x' y y' i o : Nat} {xs : List Nat}
    (h : computeY w amp x xs i o = .ok y) (h' : computeY w amp x' xs i o = .ok y') (hx : x ≤ x')
    (hl : 2 ≤ xs.length) (hy : y < 2 ^ 128) : y' ≤ y := by
  rcases Nat.eq_or_lt_of_le hx with rfl | hlt
  · rw [h] at h'; cases h'; exact Nat.le_refl _
  unfold computeY at h h'
  unpack at h
  unpack at h'
  obtain ⟨A, hA, -, -, D, hD, -, hx0, s, c, hloop, -, -, hann, hann1, -, hy1⟩ := h
  obtain ⟨A', hA', -, -, D', hD', -, hx0', s', c', hloop', -, -, -, -, -, hy1'⟩ := h'
  rw [hA] at hA'; cases hA'
  rw [hD] at hD'; cases hD'
  obtain ⟨hc, hs⟩ := yOthersLoop_mono hloop hloop' (Nat.div_le_div_left hx (by omega))
  rw [hA] at hD
  have hDlt := computeD_lt hD hl (by assumption)
  rcases Nat.eq_zero_or_pos D with rfl | hD0
  · rw [show (256 : Nat) = 255 + 1 from rfl] at hy1'
    unfold yLoop at hy1'
    rw [bind_ok] at hy1'
    obtain ⟨z, h1, hz⟩ := hy1'
    obtain ⟨-, rfl⟩ := yStep_eq h1
    simp only [Nat.mul_zero, Nat.zero_div, Nat.add_zero] at hz
    rw [if_pos (show near 0 0 = true from rfl)] at hz
    cases hz
    exact Nat.zero_le _
  have hq := Nat.div_le_div_right (c := A * xs.length ^ xs.length * xs.length ^ xs.length)
    (Nat.mul_le_mul_right D hc)
  generalize c * D / _ = q at *
  generalize c' * D / _ = q' at *
  have hno : ¬ ((y + 1) * (y + 1) + (D / (A * xs.length ^ xs.length) + s) * (y + 1) ≤
      q + D * (y + 1)) := by
    intro hcon
    have := yLoop_ge hcon (Or.inl (by norm_num)) hy1
    omega
  have := yLoop_lt (t := y + 1) ?_ (by omega) hy1'
    (Nat.add_pos_right _ (by omega)) hD0
    (lt_trans hDlt (by norm_num)) (by omega)
  · omega
  · obtain ⟨e, rfl⟩ : ∃ e, s' = s + e + 1 := ⟨s' - s - 1, by omega⟩
    have : (D / (A * xs.length ^ xs.length) + (s + e + 1)) * (y + 1) =
      (D / (A * xs.length ^ xs.length) + s) * (y + 1) + e * (y + 1) + (y + 1) := by ring
    omega

end Verif

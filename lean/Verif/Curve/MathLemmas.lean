import Verif.Curve.Lemmas
import Mathlib.Tactic.Ring

/-
Lemmas about the curve arithmetic: the amplification ramp, the two Newton iterations.
-/

namespace Verif

/-! ### The amplification factor -/

theorem computeAmp_ok {i t now s e a : Nat} (h : computeAmp i t now s e = .ok a) :
    (e ≤ now ∧ a = t) ∨
    (s ≤ now ∧ now < e ∧ i ≤ t ∧ a = i + (t - i) * (now - s) / (e - s)) ∨
    (s ≤ now ∧ now < e ∧ t < i ∧ a = i - (i - t) * (now - s) / (e - s)) := by
  unfold computeAmp at h
  split at h
  · rename_i hlt
    unpack at h
    obtain ⟨h1, h2, h⟩ := h
    split at h
    · rename_i hti
      unpack at h
      right; left
      exact ⟨h2, hlt, hti, h.2.2.2⟩
    · rename_i hti
      unpack at h
      right; right
      exact ⟨h2, hlt, by omega, h.2.2.2⟩
  · cases h; left; omega

theorem ramp_part_le {w now s e : Nat} (h : now < e) :
    w * (now - s) / (e - s) ≤ w := by
  rcases Nat.eq_zero_or_pos (e - s) with h0 | h0
  · simp [h0]
  · apply Nat.div_le_of_le_mul
    rw [Nat.mul_comm]
    exact Nat.mul_le_mul_right _ (by omega)

/-- The ramp never panics on values the contract can hold. -/
theorem computeAmp_total {i t now s e : Nat} (hi : i ≤ MAX_AMP) (ht : t ≤ MAX_AMP)
    (hs : s ≤ now) (hnow : now < 2 ^ 64) : ∃ a, computeAmp i t now s e = .ok a := by
  unfold computeAmp
  split
  · rename_i hlt
    have hb : ∀ w, w ≤ MAX_AMP → w * (now - s) < 2 ^ 128 := by
      intro w hw
      have : w * (now - s) ≤ MAX_AMP * 2 ^ 64 := Nat.mul_le_mul hw (by omega)
      unfold MAX_AMP at this; omega
    have hne : e - s ≠ 0 := by omega
    have h1 := hb (t - i) (by omega)
    have h2 := hb (i - t) (by omega)
    have h3 := ramp_part_le (w := t - i) (s := s) hlt
    have h4 := ramp_part_le (w := i - t) (s := s) hlt
    unfold MAX_AMP at hi ht
    split
    · rename_i hti
      refine ⟨i + (t - i) * (now - s) / (e - s), ?_⟩
      simp only [bind_ok, subW_ok, mulW_ok, divW_ok, addW_ok]
      exact ⟨_, ⟨by omega, rfl⟩, _, ⟨hs, rfl⟩, _, ⟨h1, rfl⟩, _, ⟨hne, rfl⟩, by omega, rfl⟩
    · rename_i hti
      refine ⟨i - (i - t) * (now - s) / (e - s), ?_⟩
      simp only [bind_ok, subW_ok, mulW_ok, divW_ok]
      exact ⟨_, ⟨by omega, rfl⟩, _, ⟨hs, rfl⟩, _, ⟨h2, rfl⟩, _, ⟨hne, rfl⟩, by omega, rfl⟩
  · exact ⟨_, rfl⟩

theorem computeAmp_between {i t now s e a : Nat} (h : computeAmp i t now s e = .ok a) :
    min i t ≤ a ∧ a ≤ max i t := by
  rcases computeAmp_ok h with ⟨-, rfl⟩ | ⟨-, hlt, hti, rfl⟩ | ⟨-, hlt, hti, rfl⟩
  · omega
  · have := ramp_part_le (w := t - i) (s := s) hlt
    generalize (t - i) * (now - s) / (e - s) = z at *; omega
  · have := ramp_part_le (w := i - t) (s := s) hlt
    generalize (i - t) * (now - s) / (e - s) = z at *; omega

/-! ### The Newton iteration for y -/

/-- One round never goes below a number on or under the (solver's) curve. -/
theorem yStep_ge {w b c d y y' t : Nat} (h : yStep w b c d y = .ok y')
    (ht : t * t + b * t ≤ c + d * t) : t ≤ y' := by
  unfold yStep at h
  unpack at h
  obtain ⟨-, -, -, -, hge, hne, rfl⟩ := h
  rw [Nat.le_div_iff_mul_le (by omega)]
  have hsq : 2 * (t * y) ≤ t * t + y * y := by nlinarith [sq_nonneg ((t : Int) - y), Int.natCast_nonneg t]
  have he : t * (y * 2 + b - d) + t * d = t * (y * 2 + b) := by
    rw [← Nat.mul_add]; congr 1; omega
  nlinarith

theorem yLoop_ge {w b c d t : Nat} (ht : t * t + b * t ≤ c + d * t) :
    ∀ {k y r : Nat}, 0 < k ∨ t ≤ y → yLoop w b c d k y = .ok r → t ≤ r := by
  intro k
  induction k with
  | zero => intro y r hk h; cases h; omega
  | succ k ih =>
    intro y r _ h
    unfold yLoop at h
    rw [bind_ok] at h
    obtain ⟨y', hy', h⟩ := h
    have := yStep_ge hy' ht
    split at h
    · cases h; exact this
    · exact ih (Or.inr this) h

/-- The others' sum and the product of the balances other than the two traded ones. -/
def othersOf (ix iy : Nat) : List Nat → Nat → List Nat
  | [], _ => []
  | x :: xs, idx => if idx ≠ ix ∧ idx ≠ iy then x :: othersOf ix iy xs (idx + 1)
      else othersOf ix iy xs (idx + 1)

/-- Rounding slack of the chain of divisions: `slack D x [o₁, …]` bounds
`D^(2+k) - c * (x * o₁ * … * o_k)`. -/
def curveSlack (D : Nat) : (m e : Nat) → List Nat → Nat
  | _, e, [] => e
  | m, e, o :: os => curveSlack D (m * o) (e * D + m * o) os

theorem yOthersLoop_ok {w d ix iy : Nat} : ∀ {xs : List Nat} {idx s c s' c' m e T : Nat},
    yOthersLoop w d ix iy xs idx s c = .ok (s', c') → T ≤ c * m + e →
    s' = s + (othersOf ix iy xs idx).sum ∧
    T * d ^ (othersOf ix iy xs idx).length ≤
      c' * (m * (othersOf ix iy xs idx).prod) + curveSlack d m e (othersOf ix iy xs idx) := by
  intro xs
  induction xs with
  | nil =>
    intro idx s c s' c' m e T h hT
    cases h
    simp [othersOf, curveSlack, hT]
  | cons x xs ih =>
    intro idx s c s' c' m e T h hT
    unfold yOthersLoop at h
    unfold othersOf
    split at h
    · rename_i hne
      rw [if_pos hne]
      unpack at h
      obtain ⟨-, -, hx, h⟩ := h
      have hT' : T * d ≤ c * d / x * (m * x) + (e * d + m * x) := by
        have h1 := Nat.div_add_mod (c * d) x
        have h2 := Nat.mod_lt (c * d) (Nat.pos_of_ne_zero hx)
        generalize c * d / x = q at *
        have h3 : c * d ≤ q * x + x := by nlinarith
        have h4 : T * d ≤ (c * m + e) * d := Nat.mul_le_mul_right _ hT
        have h5 : c * d * m ≤ (q * x + x) * m := Nat.mul_le_mul_right _ h3
        nlinarith
      obtain ⟨i1, i2⟩ := ih h hT'
      refine ⟨by rw [i1]; simp; omega, ?_⟩
      simp only [List.length_cons, List.prod_cons, curveSlack]
      rw [show T * d ^ ((othersOf ix iy xs (idx + 1)).length + 1)
        = T * d * d ^ (othersOf ix iy xs (idx + 1)).length by rw [pow_succ]; ring,
        show m * (x * (othersOf ix iy xs (idx + 1)).prod)
        = m * x * (othersOf ix iy xs (idx + 1)).prod by ring]
      exact i2
    · rename_i hne
      rw [if_neg hne]
      exact ih h hT

/-- What `compute_y` guarantees, for the computed invariant `D`. -/
theorem computeY_ok {w : Nat} {amp : R Nat} {x y ix iy : Nat} {xs : List Nat}
    (h : computeY w amp x xs ix iy = .ok y) :
    ∃ A D b c, amp = .ok A ∧ computeD w amp xs = .ok D ∧ x ≠ 0 ∧ A * xs.length ^ xs.length ≠ 0 ∧
      b = D / (A * xs.length ^ xs.length) + (x + (othersOf ix iy xs 0).sum) ∧
      (∀ t, t * t + b * t ≤ c + D * t → t ≤ y) ∧
      D ^ (2 + (othersOf ix iy xs 0).length + 1) ≤
        (c + 1) * (A * xs.length ^ xs.length * xs.length ^ xs.length) *
          (x * (othersOf ix iy xs 0).prod) + D * curveSlack D x x (othersOf ix iy xs 0) := by
  unfold computeY at h
  unpack at h
  obtain ⟨A, hA, hnn, -, D, hD, -, hx, s, c, hloop, -, -, hann, hann1, -, hy⟩ := h
  have hT : D * D ≤ D * D / x * x + x := by
    have h1 := Nat.div_add_mod (D * D) x
    have h2 := Nat.mod_lt (D * D) (Nat.pos_of_ne_zero hx)
    nlinarith
  obtain ⟨hs, hc⟩ := yOthersLoop_ok hloop hT
  refine ⟨A, D, _, c * D / (A * xs.length ^ xs.length * xs.length ^ xs.length), hA, hD, hx, hann1, rfl, ?_, ?_⟩
  · intro t ht
    rw [← hs] at ht
    exact yLoop_ge ht (Or.inl (by norm_num)) hy
  · generalize othersOf ix iy xs 0 = os at *
    generalize hW : A * xs.length ^ xs.length * xs.length ^ xs.length = W at *
    generalize curveSlack D x x os = E at *
    have h1 := Nat.div_add_mod (c * D) W
    have h2 := Nat.mod_lt (c * D) (Nat.pos_of_ne_zero hann)
    generalize c * D / W = q at *
    have h3 : c * D ≤ (q + 1) * W := by nlinarith
    have h4 : D ^ (2 + os.length + 1) = D * D * D ^ os.length * D := by ring
    rw [h4]
    have h5 : D * D * D ^ os.length * D ≤ (c * (x * os.prod) + E) * D :=
      Nat.mul_le_mul_right _ hc
    have h6 : c * D * (x * os.prod) ≤ (q + 1) * W * (x * os.prod) := Nat.mul_le_mul_right _ h3
    have h7 : (c * (x * os.prod) + E) * D = c * D * (x * os.prod) + D * E := by ring
    omega

/-! ### Balanced pools -/

theorem sumU128_ok : ∀ {xs : List Nat} {acc r : Nat}, sumU128 xs acc = .ok r →
    r = acc + xs.sum := by
  intro xs
  induction xs with
  | nil => intro acc r h; cases h; simp
  | cons x xs ih =>
    intro acc r h
    unfold sumU128 at h
    unpack at h
    rw [ih h.2, List.sum_cons]; omega

theorem sumU128_total : ∀ {xs : List Nat} {acc : Nat}, acc + xs.sum < 2 ^ 128 →
    sumU128 xs acc = .ok (acc + xs.sum) := by
  intro xs
  induction xs with
  | nil => intro acc _; rfl
  | cons x xs ih =>
    intro acc h
    rw [List.sum_cons] at h
    unfold sumU128
    rw [addW_ok.2 ⟨by omega, rfl⟩, ok_bind, ih (by omega), List.sum_cons]
    congr 1; omega

theorem dProdLoop_balanced {w n x : Nat} (hx : x * n ≠ 0) (hlt : x * n < 2 ^ 128)
    (hsq : x * n * (x * n) < 2 ^ w) : ∀ k,
    dProdLoop w n (x * n) (List.replicate k x) (x * n) = .ok (x * n) := by
  intro k
  induction k with
  | zero => rfl
  | succ k ih =>
    rw [List.replicate_succ]
    unfold dProdLoop
    rw [mulW_ok.2 ⟨hsq, rfl⟩, ok_bind, mulW_ok.2 ⟨hlt, rfl⟩, ok_bind, divW_ok.2 ⟨hx, rfl⟩, ok_bind,
      Nat.mul_div_cancel _ (Nat.pos_of_ne_zero hx)]
    exact ih

/-! ### Replacing two balances of a list -/

theorem othersOf_of_lt {ix iy : Nat} : ∀ {xs : List Nat} {idx : Nat}, ix < idx → iy < idx →
    othersOf ix iy xs idx = xs := by
  intro xs
  induction xs with
  | nil => intros; rfl
  | cons x xs ih =>
    intro idx h1 h2
    unfold othersOf
    rw [if_pos ⟨by omega, by omega⟩, ih (by omega) (by omega)]

theorem othersOf_symm (ix iy : Nat) : ∀ (xs : List Nat) (idx : Nat),
    othersOf ix iy xs idx = othersOf iy ix xs idx := by
  intro xs
  induction xs with
  | nil => intros; rfl
  | cons x xs ih =>
    intro idx
    unfold othersOf
    rw [ih]
    simp only [and_comm]

theorem othersOf_one {iy : Nat} : ∀ {xs : List Nat} {idx ix : Nat} {k b : Nat},
    ix < idx → iy = idx + k → k < xs.length →
    (xs.set k b).sum = b + (othersOf ix iy xs idx).sum ∧
    (xs.set k b).prod = b * (othersOf ix iy xs idx).prod ∧
    xs.length = 1 + (othersOf ix iy xs idx).length := by
  intro xs
  induction xs with
  | nil => intro idx ix k b _ _ h; simp at h
  | cons x xs ih =>
    intro idx ix k b h1 h2 h3
    unfold othersOf
    cases k with
    | zero =>
      rw [if_neg (by omega), othersOf_of_lt (by omega) (by omega)]
      simp; omega
    | succ k =>
      rw [if_pos ⟨by omega, by omega⟩]
      obtain ⟨i1, i2, i3⟩ := ih (idx := idx + 1) (ix := ix) (k := k) (b := b) (by omega)
        (by omega) (by simpa using h3)
      simp only [List.set_cons_succ, List.sum_cons, List.prod_cons, List.length_cons]
      refine ⟨by omega, ?_, by omega⟩
      rw [i2]; ring

theorem othersOf_two_aux {ix iy : Nat} : ∀ {xs : List Nat} {idx k l : Nat} {a b : Nat},
    ix = idx + k → iy = idx + l → k < l → l < xs.length →
    ((xs.set k a).set l b).sum = a + b + (othersOf ix iy xs idx).sum ∧
    ((xs.set k a).set l b).prod = a * b * (othersOf ix iy xs idx).prod ∧
    xs.length = 2 + (othersOf ix iy xs idx).length := by
  intro xs
  induction xs with
  | nil => intro idx k l a b _ _ _ h; simp at h
  | cons x xs ih =>
    intro idx k l a b h1 h2 h3 h4
    unfold othersOf
    obtain ⟨l, rfl⟩ : ∃ m, l = m + 1 := ⟨l - 1, by omega⟩
    cases k with
    | zero =>
      rw [if_neg (by omega)]
      obtain ⟨i1, i2, i3⟩ := othersOf_one (iy := iy) (xs := xs) (idx := idx + 1) (ix := ix)
        (k := l) (b := b) (by omega) (by omega) (by simpa using h4)
      simp only [List.set_cons_zero, List.set_cons_succ, List.sum_cons, List.prod_cons,
        List.length_cons]
      refine ⟨by omega, ?_, by omega⟩
      rw [i2]; ring
    | succ k =>
      rw [if_pos ⟨by omega, by omega⟩]
      obtain ⟨i1, i2, i3⟩ := ih (idx := idx + 1) (k := k) (l := l) (a := a) (b := b) (by omega)
        (by omega) (by omega) (by simpa using h4)
      simp only [List.set_cons_succ, List.sum_cons, List.prod_cons, List.length_cons]
      refine ⟨by omega, ?_, by omega⟩
      rw [i2]; ring

theorem othersOf_two {i o a b : Nat} {xs : List Nat} (hio : i ≠ o) (hi : i < xs.length)
    (ho : o < xs.length) :
    ((xs.set i a).set o b).sum = a + b + (othersOf i o xs 0).sum ∧
    ((xs.set i a).set o b).prod = a * b * (othersOf i o xs 0).prod ∧
    xs.length = 2 + (othersOf i o xs 0).length := by
  rcases Nat.lt_or_gt_of_ne hio with h | h
  · exact othersOf_two_aux (by omega) (by omega) h ho
  · rw [List.set_comm _ _ hio, othersOf_symm]
    obtain ⟨h1, h2, h3⟩ := othersOf_two_aux (ix := o) (iy := i) (xs := xs) (idx := 0) (a := b)
      (b := a) (by omega) (by omega) h hi
    exact ⟨by omega, by rw [h2]; ring, h3⟩

theorem mem_othersOf {i o x : Nat} : ∀ {xs : List Nat} {idx : Nat}, x ∈ othersOf i o xs idx →
    x ∈ xs := by
  intro xs
  induction xs with
  | nil => intro idx h; exact h
  | cons y ys ih =>
    intro idx h
    unfold othersOf at h
    split at h
    · rcases List.mem_cons.1 h with rfl | h
      · simp
      · exact List.mem_cons_of_mem _ (ih h)
    · exact List.mem_cons_of_mem _ (ih h)

theorem curveSlack_le {D M x : Nat} (hD : D ≤ M) : ∀ {os : List Nat} {m e j : Nat},
    (∀ o ∈ os, o ≤ M) → m ≤ x * M ^ j → e ≤ (j + 1) * (x * M ^ j) →
    curveSlack D m e os ≤ (os.length + j + 1) * (x * M ^ (os.length + j)) := by
  intro os
  induction os with
  | nil => intro m e j _ _ he; simpa [curveSlack] using he
  | cons o os ih =>
    intro m e j ho hm he
    unfold curveSlack
    have h1 : m * o ≤ x * M ^ (j + 1) := by
      rw [pow_succ, ← Nat.mul_assoc]
      exact Nat.mul_le_mul hm (ho o (by simp))
    have h2 : e * D + m * o ≤ (j + 1 + 1) * (x * M ^ (j + 1)) := by
      have : e * D ≤ (j + 1) * (x * M ^ j) * M := Nat.mul_le_mul he hD
      have h3 : (j + 1) * (x * M ^ j) * M = (j + 1) * (x * M ^ (j + 1)) := by ring
      have h4 : (j + 1 + 1) * (x * M ^ (j + 1)) = (j + 1) * (x * M ^ (j + 1)) + x * M ^ (j + 1) := by
        ring
      omega
    have := ih (fun o' ho' => ho o' (by simp [ho'])) h1 h2
    simp only [List.length_cons]
    rw [show os.length + 1 + j = os.length + (j + 1) by omega]
    exact this

end Verif

import Verif.Curve.Accuracy

/-
C91, the curve: the arithmetic of a curve pool of ordinary size runs to an end. No intermediate
value leaves its integer, no denominator is zero and no subtraction goes below zero.
-/

namespace Verif

/-- Sizes for which the arithmetic of a curve with `n` tokens runs in integers of `w` bits: all
balances together are at most `M`, the smallest is at least `2 M / (c n)`, and `ann` is the
amplification times `n ^ n`. -/
structure OrdinarySize (w n ann c M : Nat) : Prop where
  w256 : 256 ≤ w
  n2 : 2 ≤ n
  c1 : 1 ≤ c
  m1 : 1 ≤ M
  a2 : 2 ≤ ann
  wide : ann * n ^ n < 2 ^ 128
  sum : n * M < 2 ^ 128
  room : 9 * (M * ((c * n) ^ n + ann)) ^ 2 < 2 ^ w

namespace OrdinarySize

variable {w n ann c M : Nat}

theorem pow_le (h : OrdinarySize w n ann c M) : n * c ^ n ≤ (c * n) ^ n := by
  rw [Nat.mul_pow, Nat.mul_comm]
  exact Nat.mul_le_mul_left _ (Nat.le_self_pow (by have := h.n2; omega) n)

theorem bound (h : OrdinarySize w n ann c M) {x : Nat}
    (hx : x ≤ 9 * (M * ((c * n) ^ n + ann)) ^ 2) : x < 2 ^ w := lt_of_le_of_lt hx h.room

/-- Everything linear in the sizes fits. -/
theorem linear (h : OrdinarySize w n ann c M) {x : Nat}
    (hx : x ≤ 9 * (M * ((c * n) ^ n + ann))) : x < 2 ^ w := by
  refine h.bound (hx.trans (Nat.mul_le_mul_left _ (Nat.le_self_pow (by omega) _)))

end OrdinarySize

theorem dProdLoop_runs {w n d c : Nat} (hc : 1 ≤ c) : ∀ {xs : List Nat} {dp : Nat},
    (∀ x ∈ xs, 0 < x * n ∧ x * n < 2 ^ 128 ∧ d ≤ c * (x * n)) → dp * c ^ xs.length * d < 2 ^ w →
    ∃ r, dProdLoop w n d xs dp = .ok r ∧ r ≤ dp * c ^ xs.length := by
  intro xs
  induction xs with
  | nil => intro dp _ _; exact ⟨dp, rfl, by simp⟩
  | cons x xs ih =>
    intro dp hx hw
    obtain ⟨h0, h1, h2⟩ := hx x List.mem_cons_self
    have hp : dp ≤ dp * c ^ (x :: xs).length := Nat.le_mul_of_pos_right _ (Nat.pow_pos hc)
    have hm : dp * d < 2 ^ w := lt_of_le_of_lt (Nat.mul_le_mul_right _ hp) hw
    have hq : dp * d / (x * n) ≤ dp * c := by
      refine Nat.div_le_of_le_mul ?_
      calc dp * d ≤ dp * (c * (x * n)) := Nat.mul_le_mul_left _ h2
        _ = x * n * (dp * c) := by ring
    have hle : dp * d / (x * n) * c ^ xs.length ≤ dp * c ^ (x :: xs).length := by
      calc _ ≤ dp * c * c ^ xs.length := Nat.mul_le_mul_right _ hq
        _ = _ := by rw [List.length_cons, Nat.pow_succ]; ring
    obtain ⟨r, hr, hrl⟩ := ih (dp := dp * d / (x * n)) (fun y hy => hx y (List.mem_cons_of_mem _ hy))
      (lt_of_le_of_lt (Nat.mul_le_mul_right _ hle) hw)
    refine ⟨r, ?_, hrl.trans hle⟩
    unfold dProdLoop
    rw [mulW_ok.2 ⟨hm, rfl⟩, ok_bind, mulW_ok.2 ⟨h1, rfl⟩, ok_bind, divW_ok.2 ⟨by omega, rfl⟩, ok_bind]
    exact hr

/-- One round of the iteration for D has a result. -/
theorem dStep_runs {w n ann c M S d : Nat} {xs : List Nat} (h : OrdinarySize w n ann c M)
    (hn : xs.length = n) (hx : ∀ x ∈ xs, 2 * M ≤ c * (x * n)) (hS : S ≤ M) (hle : ∀ x ∈ xs, x ≤ S)
    (hd0 : 0 < d) (hd : d ≤ 2 * M) : ∃ r, dStep w n ann S xs d = .ok r := by
  have hn2 := h.n2
  have hm1 := h.m1
  have ha2 := h.a2
  have hsum := h.sum
  have hpow := h.pow_le
  have hu : M ≤ M * ((c * n) ^ n + ann) := Nat.le_mul_of_pos_right _ (by omega)
  have hall : ∀ x ∈ xs, 0 < x * n ∧ x * n < 2 ^ 128 ∧ d ≤ c * (x * n) := by
    intro x hxm
    have h1 := hx x hxm
    have h2 : x * n ≤ n * M := by rw [Nat.mul_comm]; exact Nat.mul_le_mul_left _ ((hle x hxm).trans hS)
    refine ⟨Nat.pos_of_ne_zero fun e => ?_, by omega, by omega⟩
    rw [e] at h1; omega
  have hdc : d * c ^ n ≤ 2 * (M * (c * n) ^ n) := by
    calc d * c ^ n ≤ 2 * M * c ^ n := Nat.mul_le_mul_right _ hd
      _ ≤ 2 * M * (c * n) ^ n := by
        refine Nat.mul_le_mul_left _ (le_trans ?_ hpow)
        exact Nat.le_mul_of_pos_left _ (by omega)
      _ = _ := by ring
  have hdcn : d * c ^ n * n ≤ 2 * (M * (c * n) ^ n) := by
    calc d * c ^ n * n ≤ 2 * M * c ^ n * n := by gcongr
      _ = 2 * M * (n * c ^ n) := by ring
      _ ≤ 2 * M * (c * n) ^ n := Nat.mul_le_mul_left _ hpow
      _ = _ := by ring
  generalize hU : M * ((c * n) ^ n + ann) = U at hu
  have hU' : M * (c * n) ^ n + M * ann = U := by rw [← hU]; ring
  have hb : ∀ {x}, x ≤ 9 * U ^ 2 → x < 2 ^ w := fun hx => h.bound (by rw [hU]; exact hx)
  have hl : ∀ {x}, x ≤ 9 * U → x < 2 ^ w := fun hx => h.linear (by rw [hU]; exact hx)
  have hUU : 2 * M * (2 * U) ≤ 9 * U ^ 2 := by
    calc 2 * M * (2 * U) ≤ 2 * U * (2 * U) := by gcongr
      _ ≤ 9 * U ^ 2 := by nlinarith [Nat.zero_le (U ^ 2)]
  obtain ⟨dp, hdp, hdpl⟩ := dProdLoop_runs (w := w) (xs := xs) (dp := d) (n := n) (d := d) h.c1 hall (by
    rw [hn]
    refine hb (le_trans ?_ hUU)
    calc d * c ^ n * d ≤ 2 * (M * (c * n) ^ n) * (2 * M) := Nat.mul_le_mul hdc hd
      _ = 2 * M * (2 * (M * (c * n) ^ n)) := by ring
      _ ≤ 2 * M * (2 * U) := by gcongr; omega)
  rw [hn] at hdpl
  have hlev : S * ann ≤ M * ann := Nat.mul_le_mul_right _ hS
  have ha : dp * n ≤ 2 * (M * (c * n) ^ n) := (Nat.mul_le_mul_right _ hdpl).trans hdcn
  have hnum : d * (dp * n + S * ann) ≤ 2 * M * (2 * U) := Nat.mul_le_mul hd (by omega)
  have he : d * (ann - 1) ≤ 2 * (M * ann) := by
    calc d * (ann - 1) ≤ 2 * M * ann := Nat.mul_le_mul hd (Nat.sub_le _ _)
      _ = _ := by ring
  have hg : dp * (n + 1) ≤ 4 * (M * (c * n) ^ n) := by
    have : dp * (n + 1) = dp * n + dp := by ring
    have h2 : dp ≤ dp * n := Nat.le_mul_of_pos_right _ (by omega)
    omega
  have hden : 0 < d * (ann - 1) := Nat.mul_pos hd0 (by omega)
  unfold dStep
  rw [hdp, ok_bind, mulW_ok.2 ⟨hl (by omega), rfl⟩, ok_bind, mulW_ok.2 ⟨hl (by omega), rfl⟩, ok_bind,
    addW_ok.2 ⟨hl (by omega), rfl⟩, ok_bind, mulW_ok.2 ⟨hb (hnum.trans hUU), rfl⟩, ok_bind,
    subW_ok.2 ⟨by omega, rfl⟩, ok_bind, mulW_ok.2 ⟨hl (by omega), rfl⟩, ok_bind,
    mulW_ok.2 ⟨hl (by omega), rfl⟩, ok_bind, addW_ok.2 ⟨hl (by omega), rfl⟩, ok_bind]
  exact ⟨_, divW_ok.2 ⟨by omega, rfl⟩⟩

theorem dLoop_runs {w n ann c M S : Nat} {xs : List Nat} (h : OrdinarySize w n ann c M)
    (hn : xs.length = n) (hx : ∀ x ∈ xs, 2 * M ≤ c * (x * n)) (hS : S ≤ M) (hS0 : 0 < S)
    (hle : ∀ x ∈ xs, x ≤ S) : ∀ {k d : Nat}, 0 < d → (ann - 1) * d ≤ ann * S →
    ∃ r, dLoop w n ann S xs k d = .ok r ∧ 0 < r ∧ r ≤ 2 * S := by
  have ha2 := h.a2
  have small : ∀ {d}, (ann - 1) * d ≤ ann * S → d ≤ 2 * S := by
    intro d hd
    obtain ⟨m, rfl⟩ : ∃ m, ann = m + 2 := ⟨ann - 2, by omega⟩
    refine Nat.le_of_mul_le_mul_left (c := m + 1) ?_ (by omega)
    rw [show m + 2 - 1 = m + 1 by omega] at hd
    have : (m + 1) * (2 * S) = (m + 2) * S + m * S := by ring
    omega
  intro k
  induction k with
  | zero => intro d hd0 hd; exact ⟨d, rfl, hd0, small hd⟩
  | succ k ih =>
    intro d hd0 hd
    have hd2 := small hd
    obtain ⟨r, hr⟩ := dStep_runs h hn hx hS hle hd0 (by omega : d ≤ 2 * M)
    have hlow := dStep_low (hn ▸ hr) hd
    obtain ⟨hr2, -, hK, hlt⟩ := hlow
    have hr0 : 0 < r := by
      refine Nat.pos_of_ne_zero fun e => ?_
      subst e
      rw [Nat.zero_add, Nat.one_pow, Nat.mul_one] at hlt
      generalize xs.length ^ xs.length * xs.prod = K at *
      have : ann * K ≤ ann * S * K := by
        rw [Nat.mul_assoc]
        exact Nat.mul_le_mul_left _ (Nat.le_mul_of_pos_left _ hS0)
      rw [Nat.add_mul] at hlt
      omega
    unfold dLoop
    rw [hr, ok_bind]
    split
    · exact ⟨r, rfl, hr0, small hr2⟩
    · exact ih hr0 hr2

/-- **C91**, the curve: the invariant of balances of ordinary size can be computed. -/
theorem computeD_runs {w A c M : Nat} {xs : List Nat}
    (h : OrdinarySize w xs.length (A * xs.length ^ xs.length) c M) (hS : xs.sum ≤ M)
    (hx : ∀ x ∈ xs, 2 * M ≤ c * (x * xs.length)) :
    ∃ D, computeD w (.ok A) xs = .ok D ∧ 0 < D ∧ D ≤ 2 * xs.sum := by
  have hn2 := h.n2
  have hm1 := h.m1
  have ha2 := h.a2
  have hsum := h.sum
  have hle : ∀ x ∈ xs, x ≤ xs.sum := fun x hx => List.le_sum_of_mem hx
  have hMle : M ≤ xs.length * M := Nat.le_mul_of_pos_left _ (by omega)
  have hS0 : 0 < xs.sum := by
    obtain ⟨x, hxm⟩ : ∃ x, x ∈ xs := List.exists_mem_of_length_pos (by omega)
    refine Nat.pos_of_ne_zero fun e => ?_
    have h1 := hx x hxm
    have h2 := hle x hxm
    rw [e] at h2
    rw [show x = 0 by omega] at h1
    simp at h1
    omega
  have hnn0 : 0 < xs.length ^ xs.length := Nat.pow_pos (by omega)
  have hann : A * xs.length ^ xs.length < 2 ^ 128 :=
    lt_of_le_of_lt (Nat.le_mul_of_pos_right _ hnn0) h.wide
  have hnn : xs.length ^ xs.length < 2 ^ 128 :=
    lt_of_le_of_lt (Nat.le_mul_of_pos_left _ (by omega)) h.wide
  obtain ⟨D, hD, h0, h1⟩ := dLoop_runs (k := 256) (d := xs.sum) h rfl hx hS hS0 hle hS0
    (Nat.mul_le_mul_right _ (Nat.sub_le _ _))
  refine ⟨D, ?_, h0, h1⟩
  unfold computeD
  rw [sumU128_total (by omega), ok_bind, Nat.zero_add, if_neg (by omega)]
  simp only [ok_bind]
  rw [fit_ok.2 ⟨hnn, rfl⟩, ok_bind, mulW_ok.2 ⟨hann, rfl⟩, ok_bind]
  exact hD

theorem yOthersLoop_runs {w d e ix iy : Nat} (he : 1 ≤ e) : ∀ {xs : List Nat} {idx s c : Nat},
    (∀ x ∈ othersOf ix iy xs idx, 0 < x ∧ d ≤ e * x) →
    s + (othersOf ix iy xs idx).sum < 2 ^ 128 → c * e ^ (othersOf ix iy xs idx).length * d < 2 ^ w →
    ∃ c', yOthersLoop w d ix iy xs idx s c = .ok (s + (othersOf ix iy xs idx).sum, c') ∧
      c' ≤ c * e ^ (othersOf ix iy xs idx).length := by
  intro xs
  induction xs with
  | nil => intro idx s c _ _ _; exact ⟨c, by simp [yOthersLoop, othersOf], by simp [othersOf]⟩
  | cons x xs ih =>
    intro idx s c hx hs hw
    unfold yOthersLoop
    unfold othersOf at hx hs hw ⊢
    split
    · rename_i hi
      rw [if_pos hi] at hx hs hw
      simp only [List.sum_cons, List.length_cons] at hs hw ⊢
      obtain ⟨h0, h1⟩ := hx x List.mem_cons_self
      have hp : c ≤ c * e ^ ((othersOf ix iy xs (idx + 1)).length + 1) :=
        Nat.le_mul_of_pos_right _ (Nat.pow_pos he)
      have hq : c * d / x ≤ c * e := by
        refine Nat.div_le_of_le_mul ?_
        calc c * d ≤ c * (e * x) := Nat.mul_le_mul_left _ h1
          _ = x * (c * e) := by ring
      have hle : c * d / x * e ^ (othersOf ix iy xs (idx + 1)).length ≤
          c * e ^ ((othersOf ix iy xs (idx + 1)).length + 1) := by
        calc _ ≤ c * e * e ^ (othersOf ix iy xs (idx + 1)).length := Nat.mul_le_mul_right _ hq
          _ = _ := by rw [Nat.pow_succ]; ring
      obtain ⟨c', hc', hl⟩ := ih (idx := idx + 1) (s := s + x) (c := c * d / x)
        (fun y hy => hx y (List.mem_cons_of_mem _ hy)) (by omega)
        (lt_of_le_of_lt (Nat.mul_le_mul_right _ hle) hw)
      refine ⟨c', ?_, hl.trans hle⟩
      rw [addW_ok.2 ⟨by omega, rfl⟩, ok_bind,
        mulW_ok.2 ⟨lt_of_le_of_lt (Nat.mul_le_mul_right _ hp) hw, rfl⟩, ok_bind,
        divW_ok.2 ⟨by omega, rfl⟩, ok_bind, hc', Nat.add_assoc]
    · rename_i hi
      rw [if_neg hi] at hx hs hw
      exact ih hx hs hw

/-- The states the iteration for y passes after its first round: not a unit below the root. -/
def YGood (b c d y : Nat) : Prop := c + d * (y + 1) < (y + 1) * (y + 1) + b * (y + 1)

theorem YGood.low {b c d y : Nat} (h : YGood b c d y) : d ≤ y + b := by
  unfold YGood at h
  by_contra hlt
  have : (y + 1 + b) * (y + 1) ≤ d * (y + 1) := Nat.mul_le_mul_right _ (by omega)
  rw [Nat.add_mul] at this
  omega

theorem yStep_good {w b c d y y' : Nat} (h : yStep w b c d y = .ok y') : YGood b c d y' := by
  unfold YGood
  by_contra hlt
  have := yStep_ge (t := y' + 1) h (by omega)
  omega

/-- One round has a result, if the denominator is positive and the numbers fit. -/
theorem yStep_runs {w b c d y Y : Nat} (hy : y ≤ Y) (hpos : d < 2 * y + b) (hw : Y * Y + c < 2 ^ w)
    (hw2 : 2 * Y + b < 2 ^ w) : yStep w b c d y = .ok ((y * y + c) / (2 * y + b - d)) := by
  have h1 : y * y ≤ Y * Y := Nat.mul_le_mul hy hy
  unfold yStep
  rw [mulW_ok.2 ⟨by omega, rfl⟩, ok_bind, addW_ok.2 ⟨by omega, rfl⟩, ok_bind,
    mulW_ok.2 ⟨by omega, rfl⟩, ok_bind, addW_ok.2 ⟨by omega, rfl⟩, ok_bind,
    subW_ok.2 ⟨by omega, rfl⟩, ok_bind, Nat.mul_comm y 2]
  exact divW_ok.2 ⟨by omega, rfl⟩

/-- A round does not climb above a value that is above the root. -/
theorem yStep_bounded {b c d y Y : Nat} (hg : YGood b c d y) (hy : y ≤ Y) (hpos : d < 2 * y + b)
    (hY : c + d * Y < Y * Y + b * Y) : (y * y + c) / (2 * y + b - d) ≤ Y := by
  have hlow := hg.low
  unfold YGood at hg
  obtain ⟨k, hk⟩ : ∃ k, 2 * y + b = d + k := ⟨2 * y + b - d, by omega⟩
  have hk0 : 0 < k := by omega
  have hky : y ≤ k := by omega
  rw [show 2 * y + b - d = k by omega]
  by_cases hroot : c + d * y < y * y + b * y
  · -- above the root the next value is not larger
    refine le_trans (Nat.div_le_of_le_mul ?_) hy
    have : (2 * y + b) * y = (d + k) * y := by rw [hk]
    nlinarith
  · -- at the root the next value is at most one more, which is still at most `Y`
    have hlt : y < Y := by
      refine lt_of_le_of_ne hy fun e => ?_
      subst e
      exact hroot hY
    refine le_trans (Nat.le_of_lt_succ ?_) (Nat.succ_le_of_lt hlt)
    rw [Nat.div_lt_iff_lt_mul hk0]
    have : (2 * y + b) * (y + 1) = (d + k) * (y + 1) := by rw [hk]
    nlinarith

/-- After a round the iteration stops or the next denominator is positive. -/
theorem yStep_next {w b c d y r : Nat} (hs : yStep w b c d y = .ok r)
    (hv : r = (y * y + c) / (2 * y + b - d)) (hpos : d < 2 * y + b) :
    near r y = true ∨ d < 2 * r + b := by
  have hg := yStep_good hs
  have hlow := hg.low
  by_cases hle : d < 2 * r + b
  · exact .inr hle
  -- otherwise the root is zero, the round halves, and the last halving is within one unit
  have hr0 : r = 0 := by omega
  have hbd : b = d := by omega
  subst hr0 hbd
  unfold YGood at hg
  have hc0 : c = 0 := by omega
  subst hc0
  rw [show 2 * y + b - b = 2 * y by omega, Nat.add_zero,
    Nat.mul_div_mul_right _ _ (by omega : 0 < y)] at hv
  left
  unfold near
  simp only [decide_eq_true_eq]
  omega

theorem yLoop_runs {w b c d Y : Nat} (hw : Y * Y + c < 2 ^ w) (hw2 : 2 * Y + b < 2 ^ w)
    (hY : c + d * Y < Y * Y + b * Y) : ∀ {k y : Nat}, YGood b c d y → y ≤ Y → d < 2 * y + b →
    ∃ r, yLoop w b c d k y = .ok r ∧ r ≤ Y := by
  intro k
  induction k with
  | zero => intro y _ hy _; exact ⟨y, rfl, hy⟩
  | succ k ih =>
    intro y hg hy hpos
    have hs := yStep_runs hy hpos hw hw2
    have hb := yStep_bounded hg hy hpos hY
    have hg' := yStep_good hs
    generalize hr : (y * y + c) / (2 * y + b - d) = r at *
    unfold yLoop
    rw [hs, ok_bind]
    split
    · exact ⟨r, rfl, hb⟩
    · rename_i hnear
      exact ih hg' hb ((yStep_next hs hr.symm hpos).resolve_left hnear)

/-- **C91**, the curve: the balance that a swap leaves can be computed. -/
theorem computeY_runs {w A c M x i o : Nat} {xs : List Nat}
    (h : OrdinarySize w xs.length (A * xs.length ^ xs.length) c M) (hS : xs.sum ≤ M)
    (hx : ∀ y ∈ xs, 2 * M ≤ c * (y * xs.length)) (hxx : 2 * M ≤ c * (x * xs.length))
    (hio : i ≠ o) (hi : i < xs.length) (ho : o < xs.length)
    (hsum : x + (othersOf i o xs 0).sum < 2 ^ 128) :
    ∃ y, computeY w (.ok A) x xs i o = .ok y := by
  have hn2 := h.n2
  have hm1 := h.m1
  have ha2 := h.a2
  have hM := h.sum
  obtain ⟨D, hD, hD0, hD2⟩ := computeD_runs h hS hx
  have hlen := (othersOf_two (a := 0) (b := 0) hio hi ho).2.2
  have hnn0 : 0 < xs.length ^ xs.length := Nat.pow_pos (by omega)
  have hann : A * xs.length ^ xs.length < 2 ^ 128 :=
    lt_of_le_of_lt (Nat.le_mul_of_pos_right _ hnn0) h.wide
  have hnn : xs.length ^ xs.length < 2 ^ 128 :=
    lt_of_le_of_lt (Nat.le_mul_of_pos_left _ (by omega)) h.wide
  have hc1 := h.c1
  have hwide := h.wide
  have hlin : ∀ {z}, z ≤ 9 * (M * ((c * xs.length) ^ xs.length + A * xs.length ^ xs.length)) → z < 2 ^ w :=
    fun hz => h.linear hz
  have hbd : ∀ {z}, z ≤ 9 * (M * ((c * xs.length) ^ xs.length + A * xs.length ^ xs.length)) ^ 2 →
      z < 2 ^ w := fun hz => h.bound hz
  generalize hos : othersOf i o xs 0 = os at *
  generalize hann' : A * xs.length ^ xs.length = ann at *
  generalize hnn' : xs.length ^ xs.length = nn at *
  have he1 : 1 ≤ c * xs.length := Nat.mul_pos hc1 (by omega)
  have hx0 : 0 < x := by
    refine Nat.pos_of_ne_zero fun e => ?_
    subst e
    simp at hxx
    omega
  -- the bound of the products
  have hpow : (c * xs.length) ^ (1 + os.length) * 2 ≤ (c * xs.length) ^ xs.length := by
    have h2 : 2 ≤ c * xs.length := by
      calc 2 ≤ 1 * xs.length := by omega
        _ ≤ c * xs.length := Nat.mul_le_mul_right _ hc1
    generalize c * xs.length = e at *
    calc e ^ (1 + os.length) * 2 ≤ e ^ (1 + os.length) * e := Nat.mul_le_mul_left _ h2
      _ = e ^ xs.length := by rw [← Nat.pow_succ]; congr 1; omega
  have hq0 : 1 ≤ (c * xs.length) ^ (1 + os.length) := Nat.pow_pos he1
  generalize hQ : (c * xs.length) ^ (1 + os.length) = Q at *
  generalize (c * xs.length) ^ xs.length = q at *
  have hDe : D ≤ c * xs.length * x := by
    have : c * (x * xs.length) = c * xs.length * x := by ring
    omega
  have hc0 : D * D / x ≤ D * (c * xs.length) := by
    refine Nat.div_le_of_le_mul ?_
    calc D * D ≤ D * (c * xs.length * x) := Nat.mul_le_mul_left _ hDe
      _ = _ := by ring
  have hDM : D ≤ 2 * M := by omega
  have hDQ : D * Q ≤ M * q := by
    calc D * Q ≤ 2 * M * Q := Nat.mul_le_mul_right _ hDM
      _ = M * (Q * 2) := by ring
      _ ≤ M * q := Nat.mul_le_mul_left _ hpow
  generalize hU : M * (q + ann) = U at *
  have hU' : M * q + M * ann = U := by rw [← hU]; ring
  have hMann : 2 * M ≤ M * ann := by rw [Nat.mul_comm]; exact Nat.mul_le_mul_left _ ha2
  have hDU : D ≤ U := by omega
  have hDQU : D * Q + 2 * M ≤ U := by omega
  have hDD : D * Q * D ≤ U * U := Nat.mul_le_mul (by omega) hDU
  have hUU : 9 * U ^ 2 = 9 * (U * U) := by ring
  rw [hUU] at hbd
  have hcl : D * D / x * (c * xs.length) ^ os.length ≤ D * Q := by
    calc _ ≤ D * (c * xs.length) * (c * xs.length) ^ os.length := Nat.mul_le_mul_right _ hc0
      _ = D * Q := by rw [← hQ, Nat.pow_add, Nat.pow_one]; ring
  obtain ⟨c', hc', hc'l⟩ := yOthersLoop_runs (w := w) (d := D) (ix := i) (iy := o) (xs := xs) (idx := 0)
    (s := x) (c := D * D / x) he1 (by
      intro z hz
      have hzx := hx z (mem_othersOf hz)
      refine ⟨Nat.pos_of_ne_zero fun e => ?_, ?_⟩
      · subst e; simp at hzx; omega
      · have : c * (z * xs.length) = c * xs.length * z := by ring
        omega) (by rw [hos]; exact hsum) (by
      rw [hos]
      exact hbd (le_trans (Nat.mul_le_mul_right _ hcl) (by omega)))
  rw [hos] at hc' hc'l
  have hm : c' * D ≤ U * U := (Nat.mul_le_mul_right _ (hc'l.trans hcl)).trans hDD
  have hDDU : D * D ≤ U * U := Nat.mul_le_mul hDU hDU
  generalize hcc : c' * D / (ann * nn) = cc
  have hccl : cc ≤ D * Q * D := by
    rw [← hcc]
    exact (Nat.div_le_self _ _).trans (Nat.mul_le_mul_right _ (hc'l.trans hcl))
  have hb0 : D / ann ≤ D := Nat.div_le_self _ _
  -- the first round
  have hM1 : 1 ≤ M := hm1
  have hU2 : 2 ≤ U := by omega
  have hbig : 18 * U ≤ 9 * (U * U) := by
    have : 2 * U ≤ U * U := Nat.mul_le_mul_right _ hU2
    omega
  have hroom : 9 * (U * U) < 2 ^ w := hbd le_rfl
  have hw : 2 ^ 128 * 2 ^ 128 ≤ 2 ^ w := by
    rw [← Nat.pow_add]; exact Nat.pow_le_pow_right (by omega) h.w256
  generalize hW : 2 ^ w = W at *
  unfold computeY
  simp only [ok_bind]
  rw [hnn', fit_ok.2 ⟨hnn, rfl⟩, ok_bind, mulW_ok.2 ⟨by rw [hann']; exact hann, rfl⟩, ok_bind, hD, ok_bind,
    mulW_ok.2 ⟨by rw [hW]; omega, rfl⟩, ok_bind, divW_ok.2 ⟨by omega, rfl⟩, ok_bind, hc', ok_bind]
  simp only
  rw [hann', mulW_ok.2 ⟨by rw [hW]; omega, rfl⟩, ok_bind, mulW_ok.2 ⟨hwide, rfl⟩, ok_bind,
    divW_ok.2 ⟨by have : 0 < ann * nn := Nat.mul_pos (by omega) hnn0
                  omega, rfl⟩, ok_bind, divW_ok.2 ⟨by omega, rfl⟩, ok_bind, hcc,
    addW_ok.2 ⟨by rw [hW]; omega, rfl⟩, ok_bind]
  generalize hb : D / ann + (x + os.sum) = b
  have hbl : b < U + 2 ^ 128 := by omega
  have hs := yStep_runs (w := w) (b := b) (c := cc) (d := D) (y := D) le_rfl (by omega)
    (by rw [hW]; omega) (by rw [hW]; omega)
  have hg := yStep_good hs
  have hn := yStep_next hs rfl (by omega)
  have hy1 : (D * D + cc) / (2 * D + b - D) ≤ D + D * Q := by
    refine Nat.div_le_of_le_mul ?_
    have h1 : D * (D + D * Q) ≤ (2 * D + b - D) * (D + D * Q) := Nat.mul_le_mul_right _ (by omega)
    have h2 : D * (D + D * Q) = D * D + D * Q * D := by ring
    omega
  generalize (D * D + cc) / (2 * D + b - D) = y1 at *
  unfold yLoop
  rw [hs, ok_bind]
  split
  · exact ⟨_, rfl⟩
  · rename_i hnear
    have hYU : y1 + 1 ≤ 2 * U := by omega
    have hYY : (y1 + 1) * (y1 + 1) ≤ 4 * (U * U) := by
      calc (y1 + 1) * (y1 + 1) ≤ 2 * U * (2 * U) := Nat.mul_le_mul hYU hYU
        _ = _ := by ring
    obtain ⟨r, hr, -⟩ := yLoop_runs (w := w) (k := 255) (Y := y1 + 1) (by rw [hW]; omega)
      (by rw [hW]; omega) hg hg (by omega) (hn.resolve_left hnear)
    exact ⟨r, hr⟩

end Verif

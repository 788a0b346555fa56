import Mathlib.Tactic.FieldSimp
import Verif.Curve.Monotone

/-
What the curve pays is concave in what it is paid, up to rounding: the region on or above the exact
curve is convex, and the solver stays within a few units of its border.
-/

namespace Verif

theorem three_le_sum {u v w : ℚ} (hu : 0 < u) (hv : 0 < v) (hw : 0 < w) (h : 1 < u * v * w) :
    3 < u + v + w := by
  by_contra hc
  have hc : u + v + w ≤ 3 := not_lt.1 hc
  have h1 : 27 * (u * v * w) ≤ (u + v + w) ^ 3 := by
    nlinarith [mul_nonneg hu.le (sq_nonneg (v - w)), mul_nonneg hv.le (sq_nonneg (u - w)),
      mul_nonneg hw.le (sq_nonneg (u - v)),
      mul_nonneg (add_pos (add_pos hu hv) hw).le (sq_nonneg (u - v)),
      mul_nonneg (add_pos (add_pos hu hv) hw).le (sq_nonneg (v - w)),
      mul_nonneg (add_pos (add_pos hu hv) hw).le (sq_nonneg (u - w))]
  have h2 : (u + v + w) ^ 3 ≤ 3 ^ 3 := pow_le_pow_left₀ (by positivity) hc 3
  linarith

/-- The points with a product of at least `G` form a convex set. -/
theorem mix_prod {r x t r' x' t' a b G : Nat} (h : G ≤ r * x * t) (h' : G ≤ r' * x' * t')
    (hG : 0 < G) (hab : 0 < a + b) :
    (a + b) ^ 3 * G ≤ (a * r + b * r') * (a * x + b * x') * (a * t + b * t') := by
  have pos : ∀ {r x t : Nat}, G ≤ r * x * t → 0 < r ∧ 0 < x ∧ 0 < t := by
    intro r x t h
    refine ⟨?_, ?_, ?_⟩ <;> refine Nat.pos_of_ne_zero fun e => ?_ <;> subst e <;> simp at h <;> omega
  obtain ⟨r0, x0, t0⟩ := pos h
  obtain ⟨r0', x0', t0'⟩ := pos h'
  have mixpos : ∀ {u v : Nat}, 0 < u → 0 < v → 0 < a * u + b * v := by
    intro u v hu hv
    rcases Nat.eq_zero_or_pos a with e | e
    · subst e
      have := Nat.mul_pos (show 0 < b by omega) hv
      omega
    · have := Nat.mul_pos e hu
      omega
  have hR := mixpos r0 r0'
  have hX := mixpos x0 x0'
  have hT := mixpos t0 t0'
  by_contra hc
  have hc : (a * r + b * r') * (a * x + b * x') * (a * t + b * t') < (a + b) ^ 3 * G := not_le.1 hc
  generalize hRe : a * r + b * r' = R at *
  generalize hXe : a * x + b * x' = X at *
  generalize hTe : a * t + b * t' = T at *
  have hW : (0 : ℚ) < (a + b : Nat) := by exact_mod_cast hab
  generalize hWe : a + b = W at *
  have big : ∀ {r x t : Nat}, 0 < r → 0 < x → 0 < t → G ≤ r * x * t →
      3 < (r * W / R + x * W / X + t * W / T : ℚ) := by
    intro r x t h1 h2 h3 h
    have q1 : (0 : ℚ) < r := by exact_mod_cast h1
    have q2 : (0 : ℚ) < x := by exact_mod_cast h2
    have q3 : (0 : ℚ) < t := by exact_mod_cast h3
    have p1 : (0 : ℚ) < R := by exact_mod_cast hR
    have p2 : (0 : ℚ) < X := by exact_mod_cast hX
    have p3 : (0 : ℚ) < T := by exact_mod_cast hT
    refine three_le_sum (by positivity) (by positivity) (by positivity) ?_
    have e : (r * W / R * (x * W / X) * (t * W / T) : ℚ) = (W ^ 3 * (r * x * t)) / (R * X * T) := by
      field_simp
    rw [e, one_lt_div (by positivity)]
    have k1 : ((R * X * T : Nat) : ℚ) < ((W ^ 3 * G : Nat) : ℚ) := by exact_mod_cast hc
    have k2 : ((W ^ 3 * G : Nat) : ℚ) ≤ ((W ^ 3 * (r * x * t) : Nat) : ℚ) := by
      exact_mod_cast Nat.mul_le_mul_left _ h
    push_cast at k1 k2
    linarith
  have g := big r0 x0 t0 h
  have g' := big r0' x0' t0' h'
  have p1 : (0 : ℚ) < R := by exact_mod_cast hR
  have p2 : (0 : ℚ) < X := by exact_mod_cast hX
  have p3 : (0 : ℚ) < T := by exact_mod_cast hT
  have mixq : ∀ {u v U : Nat}, 0 < U → a * u + b * v = U →
      (a * (u * W / U) + b * (v * W / U) : ℚ) = W := by
    intro u v U hU e
    have hU' : (U : ℚ) ≠ 0 := by exact_mod_cast hU.ne'
    have e' : (a * u + b * v : ℚ) = U := by exact_mod_cast e
    field_simp
    linarith
  have m1 := mixq hR hRe
  have m2 := mixq hX hXe
  have m3 := mixq hT hTe
  have hWq : (a + b : ℚ) = W := by exact_mod_cast hWe
  rcases Nat.eq_zero_or_pos a with e | e
  · have eb : (0 : ℚ) < b := by
      have : 0 < b := by omega
      exact_mod_cast this
    subst e
    push_cast at *
    nlinarith
  · have ea : (0 : ℚ) < a := by exact_mod_cast e
    have eb : (0 : ℚ) ≤ b := by positivity
    nlinarith [mul_lt_mul_of_pos_left g ea, mul_le_mul_of_nonneg_left g'.le eb]

/-- Where the curve's formula leaves room: `r` is `A·nⁿ·(Σx - D) + D`. -/
theorem onOrAbove_iff {A D x t i o : Nat} {xs : List Nat} (hio : i ≠ o) (hi : i < xs.length)
    (ho : o < xs.length) (e : Nat) :
    OnOrAboveCurve A D ((xs.set i x).set o t) e ↔
      D ^ (xs.length + 1) + A * xs.length ^ xs.length * D *
          (xs.length ^ xs.length * (x * t * (othersOf i o xs 0).prod)) ≤
        (A * xs.length ^ xs.length * (x + t + (othersOf i o xs 0).sum) + D) *
          (xs.length ^ xs.length * (x * t * (othersOf i o xs 0).prod)) + e := by
  obtain ⟨hs, hp, -⟩ := othersOf_two (a := x) (b := t) hio hi ho
  unfold OnOrAboveCurve
  simp only [List.length_set]
  rw [hs, hp]

/-- A few more units of one token make up for slack. -/
theorem OnOrAboveCurve.bump {A D x t i o e j : Nat} {xs : List Nat} (hio : i ≠ o)
    (hi : i < xs.length) (ho : o < xs.length)
    (h : OnOrAboveCurve A D ((xs.set i x).set o t) e) (h0 : 0 < t) (hD : 0 < D)
    (he : e * (t + j) ≤ j * D ^ (xs.length + 1)) :
    OnOrAboveCurve A D ((xs.set i x).set o (t + j)) 0 := by
  rw [onOrAbove_iff hio hi ho] at *
  generalize hN : xs.length ^ xs.length = nn at *
  generalize (othersOf i o xs 0).prod = P at *
  generalize (othersOf i o xs 0).sum = S at *
  generalize A * nn = ann at *
  have hΓ : 0 < D ^ (xs.length + 1) := Nat.pow_pos hD
  generalize D ^ (xs.length + 1) = Γ at *
  have hj : e < Γ := by
    by_contra hc
    have h1 : Γ * (t + j) ≤ e * (t + j) := Nat.mul_le_mul_right _ (by omega)
    have h2 : 0 < Γ * t := Nat.mul_pos hΓ h0
    have e4 : Γ * (t + j) = Γ * t + j * Γ := by ring
    omega
  have hlt : ann * D * (nn * (x * t * P)) < (ann * (x + t + S) + D) * (nn * (x * t * P)) := by omega
  have hlt := Nat.lt_of_mul_lt_mul_right hlt
  obtain ⟨r, hr⟩ : ∃ r, ann * (x + t + S) + D = ann * D + r := ⟨_, (Nat.add_sub_cancel' hlt.le).symm⟩
  have hr' : ann * (x + (t + j) + S) + D = ann * D + (r + ann * j) := by
    have : ann * (x + (t + j) + S) = ann * (x + t + S) + ann * j := by ring
    omega
  rw [hr, Nat.add_mul] at h
  rw [hr', Nat.add_mul]
  have h1 : Γ ≤ r * (nn * (x * t * P)) + e := by omega
  suffices h2 : Γ ≤ r * (nn * (x * (t + j) * P)) by
    have : r * (nn * (x * (t + j) * P)) ≤ (r + ann * j) * (nn * (x * (t + j) * P)) :=
      Nat.mul_le_mul_right _ (by omega)
    omega
  have e1 : r * (nn * (x * t * P)) = r * nn * x * P * t := by ring
  have e2 : r * (nn * (x * (t + j) * P)) = r * nn * x * P * (t + j) := by ring
  rw [e1] at h1
  rw [e2]
  generalize r * nn * x * P = q at *
  refine Nat.le_of_mul_le_mul_right ?_ h0
  have h3 := Nat.mul_le_mul_right (t + j) h1
  have e3 : (q * t + e) * (t + j) = q * (t + j) * t + e * (t + j) := by ring
  have e4 : Γ * (t + j) = Γ * t + j * Γ := by ring
  omega

/-- The region on or above the curve is convex. -/
theorem OnOrAboveCurve.mix {A D x t x' t' x2 t2 a b i o : Nat} {xs : List Nat} (hio : i ≠ o)
    (hi : i < xs.length) (ho : o < xs.length) (hD : 0 < D)
    (h : OnOrAboveCurve A D ((xs.set i x).set o t) 0)
    (h' : OnOrAboveCurve A D ((xs.set i x').set o t') 0) (hab : 0 < a + b)
    (hx : a * x + b * x' = (a + b) * x2) (ht : a * t + b * t' ≤ (a + b) * t2) :
    OnOrAboveCurve A D ((xs.set i x2).set o t2) 0 := by
  rw [onOrAbove_iff hio hi ho] at *
  generalize hN : xs.length ^ xs.length = nn at *
  generalize (othersOf i o xs 0).prod = P at *
  generalize (othersOf i o xs 0).sum = S at *
  generalize A * nn = ann at *
  have hΓ : 0 < D ^ (xs.length + 1) := Nat.pow_pos hD
  generalize D ^ (xs.length + 1) = Γ at *
  have room : ∀ {x t : Nat}, Γ + ann * D * (nn * (x * t * P)) ≤
      (ann * (x + t + S) + D) * (nn * (x * t * P)) + 0 →
      ∃ r, ann * (x + t + S) + D = ann * D + r ∧ Γ ≤ nn * P * r * x * t := by
    intro x t h
    have hlt := Nat.lt_of_mul_lt_mul_right
      (show ann * D * (nn * (x * t * P)) < (ann * (x + t + S) + D) * (nn * (x * t * P)) by omega)
    obtain ⟨r, hr⟩ : ∃ r, ann * (x + t + S) + D = ann * D + r :=
      ⟨_, (Nat.add_sub_cancel' hlt.le).symm⟩
    refine ⟨r, hr, ?_⟩
    rw [hr, Nat.add_mul] at h
    have : nn * P * r * x * t = r * (nn * (x * t * P)) := by ring
    omega
  obtain ⟨r, hr, g⟩ := room h
  obtain ⟨r', hr', g'⟩ := room h'
  have key := mix_prod (a := a) (b := b) g g' hΓ hab
  rw [hx] at key
  have hsum : (a + b) * (ann * D) + (a * r + b * r') ≤ (a + b) * (ann * (x2 + t2 + S) + D) := by
    have k1 := congrArg (a * ·) hr
    have k2 := congrArg (b * ·) hr'
    have k3 : ann * (a * x + b * x' + (a * t + b * t')) ≤ ann * ((a + b) * x2 + (a + b) * t2) :=
      Nat.mul_le_mul_left _ (by omega)
    nlinarith
  have hle : ann * D ≤ ann * (x2 + t2 + S) + D := by
    refine Nat.le_of_mul_le_mul_left (c := a + b) ?_ hab
    omega
  obtain ⟨r2, hr2⟩ : ∃ r2, ann * (x2 + t2 + S) + D = ann * D + r2 :=
    ⟨_, (Nat.add_sub_cancel' hle).symm⟩
  rw [hr2] at hsum ⊢
  have hrr : a * r + b * r' ≤ (a + b) * r2 := by rw [Nat.mul_add] at hsum; omega
  have hrr' : a * (nn * P * r) + b * (nn * P * r') ≤ nn * P * ((a + b) * r2) := by
    have := Nat.mul_le_mul_left (nn * P) hrr
    rw [show a * (nn * P * r) + b * (nn * P * r') = nn * P * (a * r + b * r') by ring]
    exact this
  have fin := key.trans (Nat.mul_le_mul (Nat.mul_le_mul_right ((a + b) * x2) hrr') ht)
  have e : nn * P * ((a + b) * r2) * ((a + b) * x2) * ((a + b) * t2) =
      (a + b) ^ 3 * (r2 * (nn * (x2 * t2 * P))) := by ring
  rw [e] at fin
  have fin := Nat.le_of_mul_le_mul_left fin (Nat.pow_pos hab)
  rw [Nat.add_mul]
  omega

/-- What is left on the curve is convex in what is paid, up to `j + 4` units: `M` bounds the invariant
and the balances, and `j` is how far above the invariant they may be. -/
theorem computeY_convex {w : Nat} {amp : R Nat} {x1 x2 x3 y1 y2 y3 i o M j D : Nat} {xs : List Nat}
    (hio : i ≠ o) (hi : i < xs.length) (ho : o < xs.length)
    (h1 : computeY w amp x1 xs i o = .ok y1) (h2 : computeY w amp x2 xs i o = .ok y2)
    (h3 : computeY w amp x3 xs i o = .ok y3) (h12 : x1 ≤ x2) (h23 : x2 ≤ x3) (h13 : x1 < x3)
    (hD : computeD w amp xs = .ok D) (hDM : D ≤ M) (hM : ∀ b ∈ xs, b ≤ M) (hx3 : x3 ≤ M)
    (hy1 : y1 + 1 + j ≤ M) (hy3 : y3 + 1 + j ≤ M)
    (hj : (xs.length - 1) * M ^ xs.length ≤ j * D ^ xs.length) (hj2 : M < 2 ^ 128) :
    (x3 - x1) * y2 ≤ (x3 - x2) * y1 + (x2 - x1) * y3 + (x3 - x1) * (j + 4) := by
  have hothers : ∀ b ∈ othersOf i o xs 0, b ≤ M :=
    fun b hb => hM b (mem_othersOf hb)
  have hl : 2 ≤ xs.length := by omega
  have above : ∀ {x y : Nat}, computeY w amp x xs i o = .ok y → x ≤ M → y + 1 + j ≤ M → 0 < D →
      ∃ A, amp = .ok A ∧ OnOrAboveCurve A D ((xs.set i x).set o (y + 1 + j)) 0 := by
    intro x y h hx hy hD0
    obtain ⟨A, D', hA, hD', hann, hc⟩ := computeY_curve hio hi ho h
    rw [hD] at hD'; cases hD'
    refine ⟨A, hA, (hc M hDM hothers).bump hio hi ho (by omega) hD0 ?_⟩
    obtain ⟨n, hn⟩ : ∃ n, xs.length = n + 2 := ⟨xs.length - 2, by omega⟩
    rw [hn] at hj ⊢
    simp only [Nat.add_sub_cancel, show n + 2 - 1 = n + 1 by omega] at hj ⊢
    calc D * ((n + 1) * (x * M ^ n)) * (y + 1 + j)
        ≤ D * ((n + 1) * (M * M ^ n)) * M := by gcongr
      _ = D * ((n + 1) * M ^ (n + 2)) := by ring
      _ ≤ D * (j * D ^ (n + 2)) := Nat.mul_le_mul_left _ hj
      _ = j * D ^ (n + 2 + 1) := by ring
  rcases Nat.eq_zero_or_pos D with h0 | h0
  · subst h0
    rw [Nat.zero_pow (by omega), Nat.mul_zero, Nat.le_zero, Nat.mul_eq_zero] at hj
    rcases hj with hj | hj
    · omega
    · have := Nat.pow_pos (n := xs.length) (show 0 < M by omega)
      omega
  obtain ⟨A, hA, c1⟩ := above h1 (by omega) hy1 h0
  obtain ⟨A', hA', c3⟩ := above h3 hx3 hy3 h0
  rw [hA] at hA'; cases hA'
  obtain ⟨a, rfl⟩ := Nat.exists_eq_add_of_le h12
  obtain ⟨b, rfl⟩ := Nat.exists_eq_add_of_le h23
  have hab : 0 < b + a := by omega
  obtain ⟨t, ht, ht'⟩ : ∃ t, b * (y1 + 1 + j) + a * (y3 + 1 + j) ≤ (b + a) * t ∧
      (b + a) * t < b * (y1 + 1 + j) + a * (y3 + 1 + j) + (b + a) := by
    generalize b * (y1 + 1 + j) + a * (y3 + 1 + j) = q
    refine ⟨(q + (b + a) - 1) / (b + a), ?_, ?_⟩
    · have := Nat.lt_mul_div_succ (q + (b + a) - 1) hab
      rw [Nat.mul_add] at this
      omega
    · have := Nat.mul_div_le (q + (b + a) - 1) (b + a)
      omega
  have c2 := c1.mix (x2 := x1 + a) (t2 := t) (a := b) (b := a) hio hi ho h0 c3 hab (by ring) ht
  have ht0 : 0 < t := by
    refine Nat.pos_of_ne_zero fun e => ?_
    subst e
    have : b * (y1 + 1 + j) + a * (y3 + 1 + j) = 0 := by omega
    have hb : b * (y1 + 1 + j) = 0 := by omega
    have ha : a * (y3 + 1 + j) = 0 := by omega
    rw [Nat.mul_eq_zero] at ha hb
    omega
  have htM : t ≤ M := by
    have k1 : b * (y1 + 1 + j) ≤ b * M := Nat.mul_le_mul_left _ hy1
    have k3 : a * (y3 + 1 + j) ≤ a * M := Nat.mul_le_mul_left _ hy3
    have : (b + a) * t < (b + a) * (M + 1) := by
      have : (b + a) * (M + 1) = b * M + a * M + (b + a) := by ring
      omega
    have := Nat.lt_of_mul_lt_mul_left this
    omega
  have hD' := hD
  rw [hA] at hD'
  have top := computeY_top hio hi ho h2 hA hD (by omega) ht0 (by omega) c2
  have k := Nat.mul_le_mul_left (b + a) top
  have e1 : x1 + a + b - x1 = b + a := by omega
  have e2 : x1 + a + b - (x1 + a) = b := by omega
  have e3 : x1 + a - x1 = a := by omega
  rw [e1, e2, e3]
  nlinarith

end Verif

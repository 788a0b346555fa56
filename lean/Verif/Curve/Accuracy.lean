import Verif.Curve.Invariant
import Mathlib.Tactic.Linarith
import Mathlib.Tactic.LinearCombination

/-
How far the two Newton iterations of the curve pools end above the real curve.
-/

namespace Verif

/-! ### The reserve that a swap leaves -/

/-- One round ends near every number on or above the solver's curve: Newton's method converges
quadratically. -/
theorem yStep_le {w b c d y y' t : Nat} (h : yStep w b c d y = .ok y')
    (ht : c + d * t ≤ t * t + b * t) :
    ((y' : Int) - t) * (2 * y + b - d) ≤ (y - t) * (y - t) ∧ d < y * 2 + b := by
  unfold yStep at h
  unpack at h
  obtain ⟨-, -, -, -, hge, hne, rfl⟩ := h
  have hlt : d < y * 2 + b := by omega
  refine ⟨?_, hlt⟩
  have h1 : (y * y + c) / (y * 2 + b - d) * (y * 2 + b - d) ≤ y * y + c := Nat.div_mul_le_self _ _
  generalize (y * y + c) / (y * 2 + b - d) = r at *
  obtain ⟨s, hs⟩ : ∃ s, y * 2 + b = d + s := ⟨y * 2 + b - d, by omega⟩
  rw [hs, Nat.add_sub_cancel_left] at h1
  have hs' : (2 * (y : Int) + b - d) = s := by omega
  rw [hs']
  have h2 : (r : Int) * s ≤ y * y + c := by exact_mod_cast h1
  have h3 : (c : Int) + d * t ≤ t * t + b * t := by exact_mod_cast ht
  have h4 : (s : Int) = 2 * y + b - d := hs'.symm
  have h5 : (t : Int) * s = t * (2 * y + b - d) := by rw [h4]
  nlinarith

/-- From above a number on or above the curve, the distance to it is halved. -/
theorem yStep_halves {w b c d y y' t : Nat} (h : yStep w b c d y = .ok y')
    (ht : c + d * t ≤ t * t + b * t) (h0 : 0 < t) (hy : t ≤ y) : 2 * y' ≤ y + t := by
  obtain ⟨h1, -⟩ := yStep_le h ht
  have hd : d ≤ t + b := by
    have : d * t ≤ (t + b) * t := by rw [Nat.add_mul]; omega
    exact Nat.le_of_mul_le_mul_right this h0
  obtain ⟨e, rfl⟩ := Nat.exists_eq_add_of_le hy
  obtain ⟨s, hs⟩ := Nat.exists_eq_add_of_le hd
  by_contra hc
  have hc : t + e + t < 2 * y' := by omega
  have hs' : (t : Int) + b = d + s := by exact_mod_cast hs
  have e1 : (2 * ((t + e : Nat) : Int) + b - d) = 2 * e + t + s := by push_cast; linarith
  have e2 : (((t + e : Nat) : Int) - t) = e := by push_cast; ring
  rw [e1, e2] at h1
  obtain ⟨f, hf⟩ : ∃ f, y' = t + f := ⟨y' - t, by omega⟩
  subst hf
  have e3 : (((t + f : Nat) : Int) - t) = f := by push_cast; ring
  rw [e3] at h1
  have h2 : f * (2 * e + t + s) ≤ e * e := by exact_mod_cast h1
  have h3 : e < 2 * f := by omega
  nlinarith

/-- A round from just below stays within a unit. -/
theorem yStep_from_below {w b c d y y' t : Nat} (h : yStep w b c d y = .ok y')
    (hmax : ∀ z, z * z + b * z ≤ c + d * z → z ≤ y) (hy : y < t) : y' ≤ t + 1 := by
  have hq : c + d * (y + 1) ≤ (y + 1) * (y + 1) + b * (y + 1) := by
    by_contra hc
    have := hmax (y + 1) (by omega)
    omega
  obtain ⟨h1, h2⟩ := yStep_le h hq
  by_contra hc
  obtain ⟨f, hf⟩ : ∃ f, y' = y + 1 + 2 + f := ⟨y' - (y + 1 + 2), by omega⟩
  subst hf
  obtain ⟨s, hs⟩ : ∃ s, y * 2 + b = d + 1 + s := ⟨y * 2 + b - d - 1, by omega⟩
  have e1 : (2 * (y : Int) + b - d) = 1 + s := by omega
  rw [e1] at h1
  push_cast at h1
  nlinarith

/-- The rounds that are left bring the result within a unit of every number on or above the
curve. -/
theorem yLoop_le {w b c d t : Nat} (ht : c + d * t ≤ t * t + b * t) (h0 : 0 < t) :
    ∀ {k y r : Nat}, yLoop w b c d k y = .ok r →
    (∀ z, z * z + b * z ≤ c + d * z → z ≤ y) → y ≤ t + 2 ^ k → r ≤ t + 1 := by
  intro k
  induction k with
  | zero => intro y r h _ hy; cases h; simpa using hy
  | succ k ih =>
    intro y r h hmax hy
    unfold yLoop at h
    rw [bind_ok] at h
    obtain ⟨y', hy', h⟩ := h
    have hmax' : ∀ z, z * z + b * z ≤ c + d * z → z ≤ y' := fun z hz => yStep_ge hy' hz
    rw [Nat.pow_succ] at hy
    rcases Nat.lt_or_ge y t with hlt | hge
    · have h1 := yStep_from_below hy' hmax hlt
      split at h
      · cases h; exact h1
      · exact ih h hmax' (by have := Nat.one_le_two_pow (n := k); omega)
    · have h1 := yStep_halves hy' ht h0 hge
      split at h
      · rename_i hn
        cases h
        simp only [near, decide_eq_true_eq] at hn
        omega
      · exact ih h hmax' (by omega)

/-- The loop as it is run: 256 rounds from the invariant. -/
theorem yLoop_top {w b c d t r : Nat} (ht : c + d * t ≤ t * t + b * t) (h0 : 0 < t)
    (h : yLoop w b c d 256 d = .ok r) (hb : 0 < b) (hd0 : 0 < d) (hd : d < 2 ^ 255)
    (ht2 : t ≤ 2 ^ 128) : r ≤ t + 1 := by
  rw [show (256 : Nat) = 255 + 1 from rfl] at h
  have h' := h
  unfold yLoop at h
  rw [bind_ok] at h
  obtain ⟨y', hy', h⟩ := h
  have hmax' : ∀ z, z * z + b * z ≤ c + d * z → z ≤ y' := fun z hz => yStep_ge hy' hz
  rcases Nat.lt_or_ge d t with hlt | hge
  · obtain ⟨h1, -⟩ := yStep_le hy' ht
    obtain ⟨e, rfl⟩ := Nat.exists_eq_add_of_le hlt.le
    have e1 : (2 * (d : Int) + b - d) = d + b := by ring
    have e2 : ((d : Int) - ((d + e : Nat) : Int)) = -e := by push_cast; ring
    rw [e1, e2] at h1
    have he : e * e ≤ 2 ^ 128 * 2 ^ 128 := Nat.mul_le_mul (by omega) (by omega)
    have hle : y' ≤ d + e + 2 ^ 255 := by
      by_contra hc
      obtain ⟨f, hf⟩ : ∃ f, y' = d + e + f := ⟨y' - (d + e), by omega⟩
      subst hf
      have e3 : (((d + e + f : Nat) : Int) - ((d + e : Nat) : Int)) = f := by push_cast; ring
      rw [e3] at h1
      have h2 : f * (d + b) ≤ e * e := by
        have : ((f * (d + b) : Nat) : Int) ≤ ((e * e : Nat) : Int) := by push_cast; linarith
        exact_mod_cast this
      have h3 : f * 2 ≤ f * (d + b) := Nat.mul_le_mul_left _ (by omega)
      have h4 : (2 : Nat) ^ 128 * 2 ^ 128 = 2 * 2 ^ 255 := by norm_num
      omega
    split at h
    · rename_i hn
      cases h
      simp only [near, decide_eq_true_eq] at hn
      omega
    · exact yLoop_le ht h0 h hmax' hle
  · have h1 := yStep_halves hy' ht h0 hge
    split at h
    · rename_i hn
      cases h
      simp only [near, decide_eq_true_eq] at hn
      omega
    · exact yLoop_le ht h0 h hmax' (by omega)

/-- The product over the other balances is rounded down. -/
theorem yOthersLoop_le {w d ix iy : Nat} : ∀ {xs : List Nat} {idx s c s' c' m T : Nat},
    yOthersLoop w d ix iy xs idx s c = .ok (s', c') → c * m ≤ T →
    c' * (m * (othersOf ix iy xs idx).prod) ≤ T * d ^ (othersOf ix iy xs idx).length ∧
    (othersOf ix iy xs idx).prod ≠ 0 := by
  intro xs
  induction xs with
  | nil =>
    intro idx s c s' c' m T h hT
    cases h
    simpa [othersOf] using hT
  | cons x xs ih =>
    intro idx s c s' c' m T h hT
    unfold yOthersLoop at h
    unfold othersOf
    split at h
    · rename_i hne
      rw [if_pos hne]
      unpack at h
      obtain ⟨-, -, hx, h⟩ := h
      have hT' : c * d / x * (m * x) ≤ T * d := by
        calc c * d / x * (m * x) = c * d / x * x * m := by ring
          _ ≤ c * d * m := Nat.mul_le_mul_right _ (Nat.div_mul_le_self _ _)
          _ = c * m * d := by ring
          _ ≤ T * d := Nat.mul_le_mul_right _ hT
      obtain ⟨h1, h2⟩ := ih h hT'
      refine ⟨?_, ?_⟩
      · simp only [List.length_cons, List.prod_cons]
        rw [show T * d ^ ((othersOf ix iy xs (idx + 1)).length + 1)
          = T * d * d ^ (othersOf ix iy xs (idx + 1)).length by rw [pow_succ]; ring,
          show m * (x * (othersOf ix iy xs (idx + 1)).prod)
          = m * x * (othersOf ix iy xs (idx + 1)).prod by ring]
        exact h1
      · rw [List.prod_cons]; exact Nat.mul_ne_zero hx h2
    · rename_i hne
      rw [if_neg hne]
      exact ih h hT

/-- The computed reserve exceeds every reserve on or above the curve by at most two units. -/
theorem computeY_top {w : Nat} {amp : R Nat} {x y i o : Nat} {xs : List Nat} (hio : i ≠ o)
    (hi : i < xs.length) (ho : o < xs.length) (h : computeY w amp x xs i o = .ok y)
    {A D t : Nat} (hA : amp = .ok A) (hD : computeD w amp xs = .ok D) (hD2 : D < 2 ^ 255)
    (h0 : 0 < t) (ht : t < 2 ^ 128)
    (hc : OnOrAboveCurve A D ((xs.set i x).set o t) 0) : y ≤ t + 2 := by
  obtain ⟨hs, hp, hl⟩ := othersOf_two (a := x) (b := t) hio hi ho
  unfold computeY at h
  unpack at h
  obtain ⟨A', hA', hnn, -, D', hD', -, hx, s, c, hloop, -, -, hann, hann1, -, hy⟩ := h
  rw [hA] at hA'; cases hA'
  rw [hD] at hD'; cases hD'
  have hss := (yOthersLoop_ok (m := 1) (e := 0) (T := 0) hloop (by simp)).1
  obtain ⟨hcc, hprod⟩ := yOthersLoop_le (m := x) (T := D * D) hloop (Nat.div_mul_le_self _ _)
  rcases Nat.eq_zero_or_pos D with hz | hz
  · subst hz
    rw [show (256 : Nat) = 255 + 1 from rfl] at hy
    unfold yLoop at hy
    rw [bind_ok] at hy
    obtain ⟨y', h1, hy⟩ := hy
    unfold yStep at h1
    unpack at h1
    obtain ⟨-, -, -, -, -, -, h1⟩ := h1
    simp only [Nat.mul_zero, Nat.zero_div, Nat.add_zero] at h1
    subst h1
    rw [if_pos (show near 0 0 = true from rfl)] at hy
    cases hy
    omega
  unfold OnOrAboveCurve at hc
  simp only [List.length_set, Nat.add_zero] at hc
  rw [hs, hp] at hc
  subst hss
  generalize hos : othersOf i o xs 0 = os at *
  have hlen : xs.length = os.length + 2 := by omega
  generalize hn : xs.length = n at *
  subst hlen
  generalize hN : (os.length + 2) ^ (os.length + 2) = nn at *
  generalize hcq : c * D / (A * nn * nn) = q at *
  have hq : q * (A * nn * nn) ≤ c * D := by rw [← hcq]; exact Nat.div_mul_le_self _ _
  generalize hbq : D / (A * nn) = b0 at *
  have hb0 : D ≤ A * nn * (b0 + 1) := by
    rw [← hbq]; exact (Nat.lt_mul_div_succ _ (Nat.pos_of_ne_zero hann1)).le
  generalize hann' : A * nn = ann at *
  have hpow : D ^ (os.length + 2 + 1) = D * D * D ^ os.length * D := by ring
  rw [hpow] at hc
  generalize D ^ os.length = Dk at *
  generalize os.sum = S at *
  have hnn0 : 0 < nn := by rw [← hN]; exact Nat.pow_pos (by omega)
  have hann0 : 0 < ann := Nat.pos_of_ne_zero hann1
  -- the solver's curve at `t`, with the rounding of `b`
  have key : q + D * t ≤ t * t + (b0 + (x + S) + 1) * t := by
    have hP : 0 < ann * (nn * (x * os.prod)) :=
      Nat.mul_pos hann0 (Nat.mul_pos hnn0 (Nat.mul_pos (Nat.pos_of_ne_zero hx) (Nat.pos_of_ne_zero hprod)))
    refine Nat.le_of_mul_le_mul_right ?_ hP
    have g1 : q * (ann * (nn * (x * os.prod))) ≤ D * D * Dk * D := by
      calc q * (ann * (nn * (x * os.prod))) = q * (ann * nn) * (x * os.prod) := by ring
        _ ≤ c * D * (x * os.prod) := Nat.mul_le_mul_right _ hq
        _ = c * (x * os.prod) * D := by ring
        _ ≤ D * D * Dk * D := Nat.mul_le_mul_right _ hcc
    have g2 : D * (nn * (x * t * os.prod)) ≤ ann * (b0 + 1) * (nn * (x * t * os.prod)) :=
      Nat.mul_le_mul_right _ hb0
    have e1 : (q + D * t) * (ann * (nn * (x * os.prod))) =
        q * (ann * (nn * (x * os.prod))) + ann * D * (nn * (x * t * os.prod)) := by ring
    have e2 : (t * t + (b0 + (x + S) + 1) * t) * (ann * (nn * (x * os.prod))) =
        ann * (x + t + S) * (nn * (x * t * os.prod)) +
          ann * (b0 + 1) * (nn * (x * t * os.prod)) := by ring
    rw [e1, e2]
    rw [Nat.add_mul] at hc
    omega
  have hDt : D ≤ t + 1 + (b0 + (x + S)) := by
    have : D * t ≤ (t + 1 + (b0 + (x + S))) * t := by
      have : (t + 1 + (b0 + (x + S))) * t = t * t + (b0 + (x + S) + 1) * t := by ring
      omega
    exact Nat.le_of_mul_le_mul_right this h0
  have ht1 : q + D * (t + 1) ≤ (t + 1) * (t + 1) + (b0 + (x + S)) * (t + 1) := by
    have e1 : (t + 1) * (t + 1) + (b0 + (x + S)) * (t + 1) =
        t * t + (b0 + (x + S) + 1) * t + (t + 1 + (b0 + (x + S))) := by ring
    rw [e1, Nat.mul_add]
    omega
  have := yLoop_top ht1 (by omega) hy (by omega) hz hD2 (by omega)
  omega

/-! ### The invariant -/

/-- The product computed by the Newton step falls short of the real one by at most
`len * c ^ len` units of `d ^ len`, if no balance exceeds `c` times its even share of `d`. -/
theorem dProdLoop_ge {w n d c : Nat} : ∀ {xs : List Nat} {dp r : Nat},
    dProdLoop w n d xs dp = .ok r → (∀ x ∈ xs, x * n ≤ c * d) →
    dp * d ^ xs.length ≤ r * (n ^ xs.length * xs.prod) + xs.length * c ^ xs.length * d ^ xs.length := by
  intro xs
  induction xs with
  | nil => intro dp r h _; cases h; simp
  | cons x xs ih =>
    intro dp r h hx
    unfold dProdLoop at h
    unpack at h
    obtain ⟨_, _, hne, h⟩ := h
    have h1 := ih h (fun z hz => hx z (List.mem_cons_of_mem _ hz))
    have hxn := hx x List.mem_cons_self
    have hdm : dp * d ≤ dp * d / (x * n) * (x * n) + c * d := by
      have := Nat.lt_div_mul_add (a := dp * d) (Nat.pos_of_ne_zero hne)
      omega
    have hK : n ^ (x :: xs).length * (x :: xs).prod = x * n * (n ^ xs.length * xs.prod) := by
      rw [List.length_cons, List.prod_cons]; ring
    rw [hK, List.length_cons]
    generalize hl : xs.length = l at *
    generalize dp * d / (x * n) = q at *
    generalize n ^ l * xs.prod = K at *
    have hcl : c ≤ c ^ (l + 1) := Nat.le_self_pow (by omega) c
    calc dp * d ^ (l + 1) = dp * d * d ^ l := by ring
      _ ≤ (q * (x * n) + c * d) * d ^ l := Nat.mul_le_mul_right _ hdm
      _ = x * n * (q * d ^ l) + c * d ^ (l + 1) := by ring
      _ ≤ x * n * (r * K + l * c ^ l * d ^ l) + c ^ (l + 1) * d ^ (l + 1) :=
          Nat.add_le_add (Nat.mul_le_mul_left _ h1) (Nat.mul_le_mul_right _ hcl)
      _ = r * (x * n * K) + x * n * (l * c ^ l * d ^ l) + c ^ (l + 1) * d ^ (l + 1) := by ring
      _ ≤ r * (x * n * K) + c * d * (l * c ^ l * d ^ l) + c ^ (l + 1) * d ^ (l + 1) := by
          have := Nat.mul_le_mul_right (l * c ^ l * d ^ l) hxn
          omega
      _ = r * (x * n * K) + (l + 1) * c ^ (l + 1) * d ^ (l + 1) := by ring

/-- The distance after a Newton step for the invariant, in terms of the distance before it and of
the rounding `δ` of the product. -/
theorem newton_distance (n : Nat) {d r t m K S dp δ : Int} (hd : 0 ≤ d) (hK : 0 ≤ K)
    (hdp : dp * K = d ^ (n + 1) - δ)
    (hle : r * (d * m + dp * (n + 1)) ≤ d * (dp * n + S * (m + 1)))
    (hF : (m + 1) * S * K ≤ t ^ (n + 1) + m * t * K) :
    (r - t) * d * (m * K + (n + 1) * d ^ n) ≤
      d * (n * d ^ (n + 1) + t ^ (n + 1) - (n + 1) * t * d ^ n) + δ * ((n + 1) * r - n * d) := by
  have h1 := mul_le_mul_of_nonneg_right hle hK
  have h2 := mul_le_mul_of_nonneg_left hF hd
  linear_combination h1 + h2 - ((n + 1) * r - n * d) * hdp

/-- The same with the rounding of the product bounded by `ρ` units of `d ^ n`. -/
theorem newton_gap (n : Nat) {d r t m K S dp ρ : Nat} (hrt : t ≤ r)
    (hdp : dp * K ≤ d ^ (n + 1)) (hdp' : d ^ (n + 1) ≤ dp * K + ρ * d ^ n)
    (hle : r * (d * m + dp * (n + 1)) ≤ d * (dp * n + S * (m + 1)))
    (hF : (m + 1) * S * K ≤ t ^ (n + 1) + m * t * K) :
    ((r : Int) - t) * d * ((n + 1) * d ^ n) ≤
      d * (n * d ^ (n + 1) + t ^ (n + 1) - (n + 1) * t * d ^ n) +
        ρ * d ^ n * max 0 (((n : Int) + 1) * r - n * d) := by
  obtain ⟨δ, hδ⟩ := Nat.exists_eq_add_of_le hdp
  have hδ' : (δ : Int) ≤ ρ * d ^ n := by
    have : δ ≤ ρ * d ^ n := by omega
    exact_mod_cast this
  have hδ2 : (d : Int) ^ (n + 1) = dp * K + δ := by exact_mod_cast hδ
  have star := newton_distance n (d := d) (r := r) (t := t) (m := m) (K := K) (S := S) (dp := dp)
    (δ := δ) (by positivity) (by positivity) (by linarith)
    (by exact_mod_cast hle) (by exact_mod_cast hF)
  have h1 : (0 : Int) ≤ (r - t) * d * (m * K) := by
    have : (0 : Int) ≤ r - t := by omega
    positivity
  have h2 : (δ : Int) * ((n + 1) * r - n * d) ≤ ρ * d ^ n * max 0 (((n : Int) + 1) * r - n * d) :=
    (mul_le_mul_of_nonneg_left (le_max_right _ _) (by positivity)).trans
      (mul_le_mul_of_nonneg_right hδ' (le_max_left _ _))
  have e1 : ((r : Int) - t) * d * (m * K + (n + 1) * d ^ n) =
      (r - t) * d * (m * K) + (r - t) * d * ((n + 1) * d ^ n) := by ring
  rw [e1] at star
  linarith

/-- The convex part of the distance is at most quadratic. -/
theorem convex_gap (n : Nat) {d t : Nat} (ht : t ≤ d) :
    ((n : Int) * d ^ (n + 1) + t ^ (n + 1) - (n + 1) * t * d ^ n ≤ n * d ^ n * (d - t)) ∧
    (d : Int) * (n * d ^ (n + 1) + t ^ (n + 1) - (n + 1) * t * d ^ n) ≤
      n * n * ((d - t) * (d - t)) * d ^ n := by
  constructor
  · have h1 : t ^ (n + 1) ≤ t * d ^ n := by
      rw [Nat.pow_succ, Nat.mul_comm]; exact Nat.mul_le_mul_left _ (Nat.pow_le_pow_left ht n)
    have h2 : (t : Int) ^ (n + 1) ≤ t * d ^ n := by exact_mod_cast h1
    have e1 : (n : Int) * d ^ n * (d - t) = n * d ^ (n + 1) - n * t * d ^ n := by ring
    rw [e1]
    linarith
  · cases n with
    | zero => simp
    | succ l =>
      have a1 : ((l : Int) + 1) * (t ^ l * d) ≤ d ^ (l + 1) + l * t ^ (l + 1) := by
        exact_mod_cast tangent_le t d l
      have a2 : ((l : Int) + 1) * (d ^ l * t) ≤ t ^ (l + 1) + l * d ^ (l + 1) := by
        exact_mod_cast tangent_le d t l
      have hz : (0 : Int) ≤ d - t := by omega
      have b1 := mul_le_mul_of_nonneg_left (mul_le_mul_of_nonneg_left a1 (Int.natCast_nonneg t))
        (Int.natCast_nonneg d)
      have b2 := mul_le_mul_of_nonneg_left (mul_le_mul_of_nonneg_left a2 (Int.natCast_nonneg d))
        (mul_nonneg (by positivity : (0 : Int) ≤ (l : Int) + 1) hz)
      push_cast
      linear_combination b1 + b2

/-- From above: the distance shrinks by `n / (n+1)`, and quadratically, up to rounding. -/
theorem newton_above (n : Nat) {d r t m K S dp ρ : Nat} (ht : t ≤ d) (h0 : 0 < d) (hρ : 2 * ρ ≤ d)
    (hn : 1 ≤ n) (hdp : dp * K ≤ d ^ (n + 1)) (hdp' : d ^ (n + 1) ≤ dp * K + ρ * d ^ n)
    (hle : r * (d * m + dp * (n + 1)) ≤ d * (dp * n + S * (m + 1)))
    (hF : (m + 1) * S * K ≤ t ^ (n + 1) + m * t * K) :
    r ≤ t + ρ ∨ (t < r ∧ r ≤ d ∧ (n + 1) * (r - t) ≤ n * (d - t) + ρ ∧
      (n + 1) * (r - t) * d ≤ n * n * ((d - t) * (d - t)) + ρ * d) := by
  by_cases hr : r ≤ t + ρ
  · exact Or.inl hr
  right
  have hrt : t < r := by omega
  have gap := newton_gap n hrt.le hdp hdp' hle hF
  obtain ⟨g1, g2⟩ := convex_gap n ht
  have hP : (0 : Int) < d ^ n := by positivity
  have hd : (0 : Int) ≤ d := by positivity
  have g1' := mul_le_mul_of_nonneg_left g1 hd
  generalize hG : (n : Int) * d ^ (n + 1) + t ^ (n + 1) - (n + 1) * t * d ^ n = G at *
  generalize (d : Int) ^ n = P at *
  have k1 : ((r : Int) - t) * d * (n + 1) ≤ n * d * (d - t) + ρ * max 0 (((n : Int) + 1) * r - n * d) := by
    refine le_of_mul_le_mul_right ?_ hP
    linear_combination gap + g1'
  have k2 : ((r : Int) - t) * d * (n + 1) ≤
      n * n * ((d - t) * (d - t)) + ρ * max 0 (((n : Int) + 1) * r - n * d) := by
    refine le_of_mul_le_mul_right ?_ hP
    linear_combination gap + g2
  obtain ⟨z, rfl⟩ := Nat.exists_eq_add_of_le ht
  rcases Nat.lt_or_ge (t + z) r with hlt | hge
  · exfalso
    obtain ⟨u, rfl⟩ := Nat.exists_eq_add_of_le hlt.le
    have hmax : max 0 (((n : Int) + 1) * ((t + z + u : Nat) : Int) - n * ((t + z : Nat) : Int)) =
        (t + z) + (n + 1) * u := by
      rw [max_eq_right]
      · push_cast; ring
      · push_cast
        have : (0 : Int) ≤ t + z + (n + 1) * u := by positivity
        linarith
    rw [hmax] at k1
    push_cast at k1
    have k3 : (z + u) * (t + z) * (n + 1) ≤ n * (t + z) * z + ρ * ((t + z) + (n + 1) * u) := by
      have : (((z + u) * (t + z) * (n + 1) : Nat) : Int) ≤
          ((n * (t + z) * z + ρ * ((t + z) + (n + 1) * u) : Nat) : Int) := by
        push_cast; linarith
      exact_mod_cast this
    generalize hdz : t + z = d at *
    have k4 : 2 * ρ * ((n + 1) * u) ≤ d * ((n + 1) * u) := Nat.mul_le_mul_right _ hρ
    have k5 : (2 * z + (n + 1) * u) * d ≤ 2 * ρ * d := by nlinarith
    have k6 : 2 * z + (n + 1) * u ≤ 2 * ρ := Nat.le_of_mul_le_mul_right k5 h0
    have k7 : 2 * u ≤ (n + 1) * u := Nat.mul_le_mul_right _ (by omega)
    omega
  · refine ⟨hrt, hge, ?_⟩
    obtain ⟨f, rfl⟩ := Nat.exists_eq_add_of_le hrt.le
    have hmax : max 0 (((n : Int) + 1) * ((t + f : Nat) : Int) - n * ((t + z : Nat) : Int)) ≤
        (t + z : Nat) := by
      apply max_le (by positivity)
      have : ((t + f : Nat) : Int) ≤ ((t + z : Nat) : Int) := by exact_mod_cast hge
      nlinarith
    have hm := mul_le_mul_of_nonneg_left hmax (Int.natCast_nonneg ρ)
    rw [Nat.add_sub_cancel_left, Nat.add_sub_cancel_left]
    constructor
    · have k3 : (n + 1) * f * (t + z) ≤ (n * z + ρ) * (t + z) := by
        have : (((n + 1) * f * (t + z) : Nat) : Int) ≤ (((n * z + ρ) * (t + z) : Nat) : Int) := by
          push_cast at *; linarith
        exact_mod_cast this
      exact Nat.le_of_mul_le_mul_right k3 h0
    · have : (((n + 1) * f * (t + z) : Nat) : Int) ≤ ((n * n * (z * z) + ρ * (t + z) : Nat) : Int) := by
        push_cast at *
        have e1 : ((t : Int) + z - t) = z := by ring
        rw [e1] at k2
        linarith
      exact_mod_cast this

/-- From one unit below: the step ends a few units above. -/
theorem newton_below (n : Nat) {d r m K S dp ρ : Nat} (h0 : 0 < d) (hρ : 2 * ρ ≤ d)
    (hn : 1 ≤ n) (hnd : 2 * n ≤ d + 1)
    (hdp : dp * K ≤ d ^ (n + 1)) (hdp' : d ^ (n + 1) ≤ dp * K + ρ * d ^ n)
    (hle : r * (d * m + dp * (n + 1)) ≤ d * (dp * n + S * (m + 1)))
    (hF : (m + 1) * S * K ≤ (d + 1) ^ (n + 1) + m * (d + 1) * K) :
    r ≤ d + 4 + ρ := by
  by_contra hr
  have hrt : d + 1 ≤ r := by omega
  have gap := newton_gap n hrt hdp hdp' hle hF
  have hP : (0 : Int) < d ^ n := by positivity
  have hd : (0 : Int) ≤ d := by positivity
  -- the power grows by at most a factor of two
  have a1 : (d + 1) ^ (n + 1) ≤ d ^ (n + 1) + (n + 1) * (d + 1) ^ n := by
    have := tangent_le (d + 1) d n
    have e1 : (n + 1) * ((d + 1) ^ n * (d + 1)) = (n + 1) * ((d + 1) ^ n * d) + (n + 1) * (d + 1) ^ n := by
      ring
    have e2 : (n + 1) * ((d + 1) ^ n * (d + 1)) = n * (d + 1) ^ (n + 1) + (d + 1) ^ (n + 1) := by ring
    omega
  have a2 : (d + 1) ^ n ≤ 2 * d ^ n := by
    obtain ⟨l, rfl⟩ : ∃ l, n = l + 1 := ⟨n - 1, by omega⟩
    have := tangent_le (d + 1) d l
    have e1 : (l + 1) * ((d + 1) ^ l * (d + 1)) = (l + 1) * ((d + 1) ^ l * d) + (l + 1) * (d + 1) ^ l := by
      ring
    have e2 : (l + 1) * ((d + 1) ^ l * (d + 1)) = l * (d + 1) ^ (l + 1) + (d + 1) ^ (l + 1) := by ring
    have e3 : 2 * (l + 1) * (d + 1) ^ l ≤ (d + 1) * (d + 1) ^ l := Nat.mul_le_mul_right _ hnd
    have e4 : (d + 1) * (d + 1) ^ l = (d + 1) ^ (l + 1) := by ring
    have e5 : 2 * (l + 1) * (d + 1) ^ l = 2 * ((l + 1) * (d + 1) ^ l) := by ring
    omega
  have a3 : (d + 1) ^ (n + 1) ≤ d ^ (n + 1) + 2 * ((n + 1) * d ^ n) := by
    have := Nat.mul_le_mul_left (n + 1) a2
    have e1 : (n + 1) * (2 * d ^ n) = 2 * ((n + 1) * d ^ n) := by ring
    omega
  have a4 : ((d + 1 : Nat) : Int) ^ (n + 1) ≤ d ^ (n + 1) + 2 * ((n + 1) * d ^ n) := by
    exact_mod_cast a3
  have g1 : (n : Int) * d ^ (n + 1) + ((d + 1 : Nat) : Int) ^ (n + 1) -
      (n + 1) * ((d + 1 : Nat) : Int) * d ^ n ≤ (n + 1) * d ^ n := by
    have e1 : ((n : Int) + 1) * ((d + 1 : Nat) : Int) * d ^ n = (n + 1) * d ^ (n + 1) + (n + 1) * d ^ n := by
      push_cast; ring
    rw [e1]
    linarith
  have g1' := mul_le_mul_of_nonneg_left g1 hd
  generalize hG : (n : Int) * d ^ (n + 1) + ((d + 1 : Nat) : Int) ^ (n + 1) -
      (n + 1) * ((d + 1 : Nat) : Int) * d ^ n = G at *
  generalize (d : Int) ^ n = P at *
  have k1 : ((r : Int) - (d + 1 : Nat)) * d * (n + 1) ≤
      d * (n + 1) + ρ * max 0 (((n : Int) + 1) * r - n * d) := by
    refine le_of_mul_le_mul_right ?_ hP
    linear_combination gap + g1'
  obtain ⟨u, rfl⟩ : ∃ u, r = d + 1 + u := ⟨r - (d + 1), by omega⟩
  have hmax : max 0 (((n : Int) + 1) * ((d + 1 + u : Nat) : Int) - n * d) = d + (n + 1) * (1 + u) := by
    rw [max_eq_right]
    · push_cast; ring
    · push_cast
      have : (0 : Int) ≤ d + (n + 1) * (1 + u) := by positivity
      linarith
  rw [hmax] at k1
  have k3 : u * d * (n + 1) ≤ d * (n + 1) + ρ * (d + (n + 1) * (1 + u)) := by
    have : ((u * d * (n + 1) : Nat) : Int) ≤
        ((d * (n + 1) + ρ * (d + (n + 1) * (1 + u)) : Nat) : Int) := by
      push_cast at *; linarith
    exact_mod_cast this
  have k4 : 2 * ρ * ((n + 1) * (1 + u)) ≤ d * ((n + 1) * (1 + u)) := Nat.mul_le_mul_right _ hρ
  have k5 : (n + 1) * u * d ≤ (3 * (n + 1) + 2 * ρ) * d := by nlinarith
  have k6 : (n + 1) * u ≤ 3 * (n + 1) + 2 * ρ := Nat.le_of_mul_le_mul_right k5 h0
  have k7 : (n + 1) * (u - 3) ≤ 2 * ρ := by
    rw [Nat.mul_sub]; omega
  have k8 : 2 * (u - 3) ≤ (n + 1) * (u - 3) := Nat.mul_le_mul_right _ (by omega)
  omega

/-- Where one round for the invariant ends, for the largest value `E` on or under the exact
invariant: within a few units of it, or closer to it than before. -/
theorem dStep_top {w ann S d r c E : Nat} {xs : List Nat}
    (h : dStep w xs.length ann S xs d = .ok r) (hne : 1 ≤ xs.length) (hc : 1 ≤ c)
    (hE : (ann * S + (E + 1)) * (xs.length ^ xs.length * xs.prod) <
      (E + 1) ^ (xs.length + 1) + ann * (E + 1) * (xs.length ^ xs.length * xs.prod))
    (hx : ∀ x ∈ xs, x * xs.length ≤ c * E) (hroom : 2 * (xs.length * c ^ xs.length) ≤ E)
    (hd : E ≤ d) :
    r ≤ E + 4 + xs.length * c ^ xs.length ∨
      (E + 1 < r ∧ r ≤ d ∧
        (xs.length + 1) * (r - (E + 1)) ≤ xs.length * (d - (E + 1)) + xs.length * c ^ xs.length ∧
        (xs.length + 1) * (r - (E + 1)) * d ≤
          xs.length * xs.length * ((d - (E + 1)) * (d - (E + 1))) + xs.length * c ^ xs.length * d) := by
  unfold dStep at h
  unpack at h
  obtain ⟨dp, hdp, _, _, _, _, hann, _, _, _, hnz, rfl⟩ := h
  have h1 := (dProdLoop_le hdp).1
  have h2 := dProdLoop_ge hdp (fun x hxx => (hx x hxx).trans (Nat.mul_le_mul_left c hd))
  have hle := Nat.div_mul_le_self (d * (dp * xs.length + S * ann))
    (d * (ann - 1) + dp * (xs.length + 1))
  have hnc : xs.length ≤ xs.length * c ^ xs.length :=
    Nat.le_mul_of_pos_right _ (Nat.pow_pos hc)
  generalize d * (dp * xs.length + S * ann) / (d * (ann - 1) + dp * (xs.length + 1)) = r at *
  generalize xs.length * c ^ xs.length = ρ at *
  generalize xs.length ^ xs.length * xs.prod = K at *
  generalize xs.length = n at *
  obtain ⟨m, rfl⟩ : ∃ m, ann = m + 1 := ⟨ann - 1, by omega⟩
  simp only [Nat.add_sub_cancel] at *
  have e1 : d ^ (n + 1) = d * d ^ n := by ring
  have hF : (m + 1) * S * K ≤ (E + 1) ^ (n + 1) + m * (E + 1) * K := by
    have e2 : ((m + 1) * S + (E + 1)) * K = (m + 1) * S * K + (E + 1) * K := by ring
    have e3 : (m + 1) * (E + 1) * K = m * (E + 1) * K + (E + 1) * K := by ring
    omega
  rcases Nat.lt_or_ge E d with hlt | hge
  · rcases newton_above n (ρ := ρ) hlt (by omega) (by omega) hne (by omega) (by omega) hle hF with h3 | h3
    · left; omega
    · right; exact h3
  · obtain rfl : d = E := by omega
    left
    exact newton_below n (by omega) (by omega) hne (by omega) (by omega) (by omega) hle hF

/-- What is known of the value after `j` of the 256 rounds. -/
def DReach (n c S E j d : Nat) : Prop :=
  d ≤ E + 4 + n + 2 * (n * c ^ n) ∨
  (j ≤ 248 ∧ (n + 1) ^ j * (d - (E + 1 + n * c ^ n)) ≤ n ^ j * S) ∨
  ∃ i, j = 248 + i ∧ 2 * n * (d - (E + 1)) * 2 ^ 2 ^ i ≤ E

theorem DReach.step {n c S E j d r : Nat} (hn : 1 ≤ n) (hj : j < 256)
    (hS : 8 * n * (n ^ 248 * S) ≤ (n + 1) ^ 248 * E) (hroom : 8 * n * (n * c ^ n) ≤ E)
    (hd : DReach n c S E j d)
    (h : r ≤ E + 4 + n * c ^ n ∨ (E + 1 < r ∧ r ≤ d ∧
        (n + 1) * (r - (E + 1)) ≤ n * (d - (E + 1)) + n * c ^ n ∧
        (n + 1) * (r - (E + 1)) * d ≤ n * n * ((d - (E + 1)) * (d - (E + 1))) + n * c ^ n * d)) :
    DReach n c S E (j + 1) r ∧ (near r d = true → r ≤ E + 4 + n + 2 * (n * c ^ n)) := by
  have hnρ : n ≤ 8 * n * (n * c ^ n) ∨ n * c ^ n = 0 := by
    rcases Nat.eq_zero_or_pos (n * c ^ n) with h0 | h0
    · exact Or.inr h0
    · left
      calc n ≤ n * (8 * (n * c ^ n)) := Nat.le_mul_of_pos_right _ (by omega)
        _ = 8 * n * (n * c ^ n) := by ring
  generalize hρ : n * c ^ n = ρ at *
  rcases h with h | ⟨h1, h2, h3, h4⟩
  · exact ⟨Or.inl (by rw [hρ]; omega), fun _ => by omega⟩
  obtain ⟨f, rfl⟩ : ∃ f, r = E + 1 + f := ⟨r - (E + 1), by omega⟩
  obtain ⟨z, rfl⟩ : ∃ z, d = E + 1 + z := ⟨d - (E + 1), by omega⟩
  simp only [Nat.add_sub_cancel_left] at h3 h4
  refine ⟨?_, ?_⟩
  · unfold DReach at hd ⊢
    rw [hρ] at hd ⊢
    -- the quadratic step
    have quad : ∀ i, 2 * n * z * 2 ^ 2 ^ i ≤ E → E + 1 + f ≤ E + 4 + n + 2 * ρ ∨
        2 * n * f * 2 ^ 2 ^ (i + 1) ≤ E := by
      intro i hi
      by_cases hsmall : f ≤ 2 * ρ
      · left; omega
      right
      have hp : 2 ^ 2 ^ (i + 1) = 2 ^ 2 ^ i * 2 ^ 2 ^ i := by
        rw [← Nat.pow_add]; congr 1; rw [Nat.pow_succ]; omega
      rw [hp]
      generalize (2 : Nat) ^ 2 ^ i = W at *
      rcases Nat.eq_zero_or_pos E with h0 | h0
      · subst h0
        have : 2 * n * z * W = 0 := by omega
        have hfz : f ≤ z := by omega
        have := Nat.mul_le_mul_right W (Nat.mul_le_mul_left (2 * n) hfz)
        have : 2 * n * f * W = 0 := by omega
        rw [← Nat.mul_assoc, this]; simp
      -- rounding is at most half of the step
      have k1 : 2 * (ρ * (E + 1 + z)) ≤ f * (E + 1 + z) := by
        rw [← Nat.mul_assoc]; exact Nat.mul_le_mul_right _ (by omega)
      have k2 : (n + 1) * f * (E + 1 + z) = n * (f * (E + 1 + z)) + f * (E + 1 + z) := by ring
      have k3 : n * (f * (E + 1 + z)) ≤ n * (n * (z * z)) := by
        have : n * n * (z * z) = n * (n * (z * z)) := by ring
        omega
      have k4 : f * (E + 1 + z) ≤ n * (z * z) := Nat.le_of_mul_le_mul_left k3 (by omega)
      have k5 : f * E ≤ n * (z * z) := (Nat.mul_le_mul_left f (by omega)).trans k4
      have k6 : 2 * n * z * W * (2 * n * z * W) ≤ E * E := Nat.mul_le_mul hi hi
      have k7 : 2 * n * f * (W * W) * E ≤ E * E := by
        calc 2 * n * f * (W * W) * E = 2 * n * (W * W) * (f * E) := by ring
          _ ≤ 2 * n * (W * W) * (n * (z * z)) := Nat.mul_le_mul_left _ k5
          _ ≤ 2 * (2 * n * (W * W) * (n * (z * z))) := by omega
          _ = 2 * n * z * W * (2 * n * z * W) := by ring
          _ ≤ E * E := k6
      exact Nat.le_of_mul_le_mul_right k7 h0
    rcases hd with hd | ⟨hj', hd⟩ | ⟨i, rfl, hd⟩
    · left
      have : (n + 1) * f ≤ (n + 1) * (3 + n + 2 * ρ) := by
        have : n * z ≤ n * (3 + n + 2 * ρ) := Nat.mul_le_mul_left _ (by omega)
        have e1 : (n + 1) * (3 + n + 2 * ρ) = n * (3 + n + 2 * ρ) + (3 + n + 2 * ρ) := by ring
        omega
      have := Nat.le_of_mul_le_mul_left this (by omega)
      omega
    · rcases Nat.lt_or_ge j 248 with hlt | hge
      · right; left
        refine ⟨hlt, ?_⟩
        have e1 : E + 1 + f - (E + 1 + ρ) = f - ρ := by omega
        have e2 : E + 1 + z - (E + 1 + ρ) = z - ρ := by omega
        rw [e1]
        rw [e2] at hd
        have k1 : (n + 1) * (f - ρ) ≤ n * (z - ρ) := by
          rw [Nat.mul_sub, Nat.mul_sub]
          have : (n + 1) * ρ = n * ρ + ρ := by ring
          omega
        calc (n + 1) ^ (j + 1) * (f - ρ) = (n + 1) ^ j * ((n + 1) * (f - ρ)) := by ring
          _ ≤ (n + 1) ^ j * (n * (z - ρ)) := Nat.mul_le_mul_left _ k1
          _ = n * ((n + 1) ^ j * (z - ρ)) := by ring
          _ ≤ n * (n ^ j * S) := Nat.mul_le_mul_left _ hd
          _ = n ^ (j + 1) * S := by ring
      · obtain rfl : j = 248 := by omega
        have e2 : E + 1 + z - (E + 1 + ρ) = z - ρ := by omega
        rw [e2] at hd
        have k1 : 8 * n * (z - ρ) ≤ E := by
          have hpos : 0 < (n + 1) ^ 248 := Nat.pow_pos (by omega)
          refine Nat.le_of_mul_le_mul_left ?_ hpos
          calc (n + 1) ^ 248 * (8 * n * (z - ρ)) = 8 * n * ((n + 1) ^ 248 * (z - ρ)) := by ring
            _ ≤ 8 * n * (n ^ 248 * S) := Nat.mul_le_mul_left _ hd
            _ ≤ (n + 1) ^ 248 * E := hS
        have k2 : 2 * n * z * 2 ^ 2 ^ 0 ≤ E := by
          have e3 : 2 * (2 * n * z * 2 ^ 2 ^ 0) = 8 * n * z := by
            rw [show (2 : Nat) ^ 2 ^ 0 = 2 from rfl]; ring
          have e4 : 8 * n * z ≤ 8 * n * (z - ρ) + 8 * n * ρ := by
            rw [← Nat.mul_add]; exact Nat.mul_le_mul_left _ (by omega)
          omega
        rcases quad 0 k2 with h5 | h5
        · exact Or.inl h5
        · right; right
          exact ⟨1, rfl, by rw [Nat.add_sub_cancel_left]; exact h5⟩
    · rw [Nat.add_sub_cancel_left] at hd
      rcases quad i hd with h5 | h5
      · exact Or.inl h5
      · right; right
        exact ⟨i + 1, by omega, by rw [Nat.add_sub_cancel_left]; exact h5⟩
  · intro hnr
    simp only [near, decide_eq_true_eq] at hnr
    have : n * z ≤ n * (f + 1) := Nat.mul_le_mul_left _ (by omega)
    have e1 : (n + 1) * f = n * f + f := by ring
    have e2 : n * (f + 1) = n * f + n := by ring
    omega

/-- The product of balances is at most that of equal ones. -/
theorem prod_le_even : ∀ xs : List Nat, xs.length ^ xs.length * xs.prod ≤ xs.sum ^ xs.length := by
  intro xs
  induction xs with
  | nil => simp
  | cons x xs ih =>
    rw [List.length_cons, List.prod_cons, List.sum_cons]
    generalize xs.length = n at *
    generalize xs.sum = S at *
    generalize xs.prod = P at *
    rcases Nat.eq_zero_or_pos n with h0 | h0
    · subst h0
      simp at ih
      have := Nat.mul_le_mul_left x ih
      simp
      omega
    have ht := tangent_le ((n + 1) * S) (n * (x + S)) n
    -- the tangent at `S / n`
    have k1 : n * ((n + 1) ^ (n + 1) * (x * S ^ n)) ≤ n * (n ^ n * (x + S) ^ (n + 1)) := by
      have e1 : (n + 1) * (((n + 1) * S) ^ n * (n * (x + S))) =
          n * ((n + 1) ^ (n + 1) * (x * S ^ n)) + n * ((n + 1) * S) ^ (n + 1) := by
        rw [Nat.mul_pow, Nat.mul_pow]; ring
      have e2 : (n * (x + S)) ^ (n + 1) = n * (n ^ n * (x + S) ^ (n + 1)) := by
        rw [Nat.mul_pow]; ring
      omega
    have k2 := Nat.le_of_mul_le_mul_left k1 h0
    have hpos : 0 < n ^ n := Nat.pow_pos h0
    refine Nat.le_of_mul_le_mul_left ?_ hpos
    calc n ^ n * ((n + 1) ^ (n + 1) * (x * P)) = (n + 1) ^ (n + 1) * (x * (n ^ n * P)) := by ring
      _ ≤ (n + 1) ^ (n + 1) * (x * S ^ n) := by
          exact Nat.mul_le_mul_left _ (Nat.mul_le_mul_left _ ih)
      _ ≤ n ^ n * (x + S) ^ (n + 1) := k2

/-- The exact invariant is at most the sum of the balances. -/
theorem OnOrAboveCurve.le_sum {A E : Nat} {xs : List Nat} (h : OnOrAboveCurve A E xs 0)
    (hA : 1 ≤ A * xs.length ^ xs.length) (hK : 0 < xs.length ^ xs.length * xs.prod) :
    E ≤ xs.sum := by
  by_contra hc
  have hp := prod_le_even xs
  unfold OnOrAboveCurve at h
  simp only [Nat.add_zero] at h
  generalize xs.length ^ xs.length * xs.prod = K at *
  generalize A * xs.length ^ xs.length = ann at *
  generalize xs.sum = S at *
  generalize xs.length = n at *
  obtain ⟨e, rfl⟩ : ∃ e, E = S + 1 + e := ⟨E - (S + 1), by omega⟩
  have h1 : K ≤ (S + 1 + e) ^ n := hp.trans (Nat.pow_le_pow_left (by omega) n)
  have h2 : (S + 1 + e) * K ≤ (S + 1 + e) ^ (n + 1) := by
    rw [Nat.pow_succ, Nat.mul_comm]; exact Nat.mul_le_mul_right _ h1
  have e1 : ann * (S + 1 + e) * K = ann * S * K + ann * (1 + e) * K := by ring
  have e2 : (ann * S + (S + 1 + e)) * K = ann * S * K + (S + 1 + e) * K := by ring
  have h3 : 0 < ann * (1 + e) * K := Nat.mul_pos (Nat.mul_pos (by omega) (by omega)) hK
  omega

/-- 248 rounds are enough for the linear part, for every number of tokens that the pools can have. -/
theorem rounds_enough {n c : Nat} (hn : 1 ≤ n) (hn2 : n ≤ 26)
    (hc : 8 * n * (n * c ^ n) < 2 ^ 129) : 8 * n * (n ^ 248 * c) ≤ (n + 1) ^ 248 := by
  have hnum : ∀ n ≤ 26, 1 ≤ n →
      2 ^ 129 * (8 * n) ^ n * n ^ (248 * n) ≤ 8 * n * n * (n + 1) ^ (248 * n) := by
    decide +kernel
  have h1 := hnum n hn2 hn
  by_contra hlt
  have hlt : (n + 1) ^ 248 < 8 * n * (n ^ 248 * c) := by omega
  have h2 := Nat.pow_lt_pow_left hlt (show n ≠ 0 by omega)
  rw [← Nat.pow_mul] at h2
  have e1 : (8 * n * (n ^ 248 * c)) ^ n = (8 * n) ^ n * n ^ (248 * n) * c ^ n := by
    rw [Nat.mul_pow, Nat.mul_pow (n ^ 248), ← Nat.pow_mul]; ring
  rw [e1] at h2
  have h3 : 8 * n * n * (n + 1) ^ (248 * n) < 8 * n * n * ((8 * n) ^ n * n ^ (248 * n) * c ^ n) :=
    Nat.mul_lt_mul_of_pos_left h2 (Nat.mul_pos (by omega) (by omega))
  have e2 : 8 * n * n * ((8 * n) ^ n * n ^ (248 * n) * c ^ n) =
      8 * n * (n * c ^ n) * ((8 * n) ^ n * n ^ (248 * n)) := by ring
  rw [e2] at h3
  have h4 : 8 * n * (n * c ^ n) * ((8 * n) ^ n * n ^ (248 * n)) ≤
      2 ^ 129 * ((8 * n) ^ n * n ^ (248 * n)) := Nat.mul_le_mul_right _ hc.le
  rw [Nat.mul_assoc (2 ^ 129)] at h1
  omega

theorem dLoop_top {w ann S c E : Nat} {xs : List Nat} (hne : 1 ≤ xs.length) (hc : 1 ≤ c)
    (hann : 1 ≤ ann)
    (hcur : E ^ (xs.length + 1) + ann * E * (xs.length ^ xs.length * xs.prod) ≤
      (ann * S + E) * (xs.length ^ xs.length * xs.prod))
    (hE : (ann * S + (E + 1)) * (xs.length ^ xs.length * xs.prod) <
      (E + 1) ^ (xs.length + 1) + ann * (E + 1) * (xs.length ^ xs.length * xs.prod))
    (hx : ∀ x ∈ xs, x * xs.length ≤ c * E)
    (hroom : 8 * xs.length * (xs.length * c ^ xs.length) ≤ E) (hE2 : E < 2 ^ 128)
    (hS : 8 * xs.length * (xs.length ^ 248 * S) ≤ (xs.length + 1) ^ 248 * E) :
    ∀ {k j d r : Nat}, dLoop w xs.length ann S xs k d = .ok r → j + k = 256 → E ≤ d →
      (ann - 1) * d ≤ ann * S → DReach xs.length c S E j d →
      r ≤ E + 4 + xs.length + 2 * (xs.length * c ^ xs.length) := by
  intro k
  induction k with
  | zero =>
    intro j d r h hj hd _ hr
    cases h
    rcases hr with hr | ⟨hr, -⟩ | ⟨i, hi, hr⟩
    · exact hr
    · omega
    · obtain rfl : i = 8 := by omega
      have hz : d - (E + 1) = 0 := by
        by_contra hz
        have h1 : 1 * 2 ^ 2 ^ 8 ≤ 2 * xs.length * (d - (E + 1)) * 2 ^ 2 ^ 8 :=
          Nat.mul_le_mul_right _ (Nat.mul_pos (by omega) (by omega))
        have h2 : (2 : Nat) ^ 128 ≤ 1 * 2 ^ 2 ^ 8 := by decide +kernel
        exact absurd (h2.trans (h1.trans hr)) (by omega)
      omega
  | succ k ih =>
    intro j d r h hj hd hlow hr
    unfold dLoop at h
    simp only [bind_ok] at h
    obtain ⟨d', h1, h⟩ := h
    obtain ⟨l1, -, -, l2⟩ := dStep_low h1 hlow
    have hroom2 : 2 * (xs.length * c ^ xs.length) ≤ E := by
      have : 2 * (xs.length * c ^ xs.length) ≤ 8 * xs.length * (xs.length * c ^ xs.length) :=
        Nat.mul_le_mul_right _ (by omega)
      omega
    have h2 := dStep_top h1 hne hc hE hx hroom2 hd
    obtain ⟨s1, s2⟩ := DReach.step hne (by omega) hS hroom hr h2
    split at h
    · rename_i hn
      cases h
      exact s2 hn
    · refine ih h (by omega) ?_ l1 s1
      -- the step does not go below `E`
      by_contra hlt
      have hle : d' + 1 ≤ E := by omega
      obtain ⟨m, rfl⟩ : ∃ m, ann = m + 1 := ⟨ann - 1, by omega⟩
      generalize xs.length ^ xs.length * xs.prod = K at *
      have p1 : (d' + 1) ^ (xs.length + 1) ≤ E ^ (xs.length + 1) := Nat.pow_le_pow_left hle _
      have p2 : m * (d' + 1) * K ≤ m * E * K := Nat.mul_le_mul_right _ (Nat.mul_le_mul_left _ hle)
      have e1 : (m + 1) * E * K = m * E * K + E * K := by ring
      have e2 : (m + 1) * (d' + 1) * K = m * (d' + 1) * K + (d' + 1) * K := by ring
      have e3 : ((m + 1) * S + E) * K = (m + 1) * S * K + E * K := by ring
      have e4 : ((m + 1) * S + (d' + 1)) * K = (m + 1) * S * K + (d' + 1) * K := by ring
      rw [e1, e3] at hcur
      rw [e2, e4] at l2
      omega

theorem sumU128_lt : ∀ {xs : List Nat} {acc r : Nat}, sumU128 xs acc = .ok r → acc < 2 ^ 128 →
    r < 2 ^ 128 := by
  intro xs
  induction xs with
  | nil => intro acc r h hacc; cases h; exact hacc
  | cons x xs ih =>
    intro acc r h _
    unfold sumU128 at h
    unpack at h
    exact ih h.2 (by omega)

/-- The computed invariant is at most a few units above the exact one, if no balance exceeds `c`
times its even share of it. -/
theorem computeD_top {w A D E c : Nat} {xs : List Nat} (h : computeD w (.ok A) xs = .ok D)
    (hs : xs.sum ≠ 0) (hc : 1 ≤ c) (hE : OnOrAboveCurve A E xs 0)
    (hE' : ¬ OnOrAboveCurve A (E + 1) xs 0) (hx : ∀ x ∈ xs, x * xs.length ≤ c * E)
    (hroom : 8 * xs.length * (xs.length * c ^ xs.length) ≤ E) :
    D ≤ E + 4 + xs.length + 2 * (xs.length * c ^ xs.length) := by
  obtain ⟨A', hA', hann, hK, -⟩ := computeD_low h hs
  cases hA'
  have hne : 1 ≤ xs.length := by
    rcases xs with _ | ⟨x, xs⟩
    · simp at hs
    · simp
  have hES := hE.le_sum hann hK
  unfold computeD at h
  simp only [bind_ok] at h
  obtain ⟨s, h1, h⟩ := h
  have hs128 := sumU128_lt h1 (by omega)
  have h1 := sumU128_ok h1
  rw [Nat.zero_add] at h1
  subst h1
  rw [if_neg hs] at h
  simp only [bind_ok, fit_ok, mulW_ok] at h
  obtain ⟨A', hA, _, ⟨hnn, rfl⟩, _, ⟨_, rfl⟩, h⟩ := h
  cases hA
  have hn26 : xs.length ≤ 26 := by
    by_contra hgt
    have h1 : 27 ^ 27 ≤ xs.length ^ 27 := Nat.pow_le_pow_left (by omega) 27
    have h2 : xs.length ^ 27 ≤ xs.length ^ xs.length := Nat.pow_le_pow_right (by omega) (by omega)
    have h3 : (2 : Nat) ^ 128 ≤ 27 ^ 27 := by norm_num
    omega
  have hSc : xs.sum ≤ c * E := by
    have key : ∀ l : List Nat, (∀ x ∈ l, x * xs.length ≤ c * E) →
        l.sum * xs.length ≤ l.length * (c * E) := by
      intro l
      induction l with
      | nil => simp
      | cons y l ih =>
        intro hl
        have i1 := ih (fun x hx => hl x (List.mem_cons_of_mem _ hx))
        have i2 := hl y List.mem_cons_self
        rw [List.sum_cons, List.length_cons, Nat.add_mul, Nat.add_mul]
        omega
    have := key xs hx
    rw [Nat.mul_comm] at this
    exact Nat.le_of_mul_le_mul_left this (by omega)
  have hround : 8 * xs.length * (xs.length ^ 248 * xs.sum) ≤ (xs.length + 1) ^ 248 * E := by
    have h1 := rounds_enough hne hn26 (c := c) (by omega)
    calc 8 * xs.length * (xs.length ^ 248 * xs.sum)
        ≤ 8 * xs.length * (xs.length ^ 248 * (c * E)) :=
          Nat.mul_le_mul_left _ (Nat.mul_le_mul_left _ hSc)
      _ = 8 * xs.length * (xs.length ^ 248 * c) * E := by ring
      _ ≤ (xs.length + 1) ^ 248 * E := Nat.mul_le_mul_right _ h1
  unfold OnOrAboveCurve at hE hE'
  simp only [Nat.add_zero] at hE hE'
  refine dLoop_top (j := 0) hne hc hann hE (by omega) hx hroom (by omega) hround h rfl hES
    (Nat.mul_le_mul_right _ (Nat.sub_le _ _)) ?_
  right; left
  exact ⟨by omega, by simp⟩

theorem dLoop_bound {w ann S : Nat} {xs : List Nat} : ∀ {k d r : Nat},
    dLoop w xs.length ann S xs k d = .ok r → (ann - 1) * d ≤ ann * S → (ann - 1) * r ≤ ann * S := by
  intro k
  induction k with
  | zero => intro d r h hd; cases h; exact hd
  | succ k ih =>
    intro d r h hd
    unfold dLoop at h
    simp only [bind_ok] at h
    obtain ⟨d', h1, h⟩ := h
    have := (dStep_low h1 hd).1
    split at h
    · cases h; exact this
    · exact ih h this

/-- The computed invariant of a pool with at least two tokens fits. -/
theorem computeD_lt {w A D : Nat} {xs : List Nat} (h : computeD w (.ok A) xs = .ok D)
    (hn : 2 ≤ xs.length) (hA : A * xs.length ^ xs.length ≠ 0) : D < 2 ^ 129 := by
  unfold computeD at h
  simp only [bind_ok] at h
  obtain ⟨s, h1, h⟩ := h
  have hs128 := sumU128_lt h1 (by omega)
  split at h
  · cases h; norm_num
  · simp only [bind_ok, fit_ok, mulW_ok] at h
    obtain ⟨A', hA', _, ⟨hnn, rfl⟩, _, ⟨_, rfl⟩, h⟩ := h
    cases hA'
    have hb := dLoop_bound h (Nat.mul_le_mul_right _ (Nat.sub_le _ _))
    have hann : 2 ≤ A * xs.length ^ xs.length := by
      have h1 : 2 ^ 1 ≤ xs.length ^ xs.length :=
        (Nat.pow_le_pow_left hn 1).trans (Nat.pow_le_pow_right (by omega) (by omega))
      have h2 : 1 ≤ A := by
        rcases Nat.eq_zero_or_pos A with h0 | h0
        · subst h0; simp at hA
        · exact h0
      calc 2 = 1 * 2 ^ 1 := rfl
        _ ≤ A * xs.length ^ xs.length := Nat.mul_le_mul h2 h1
    generalize A * xs.length ^ xs.length = ann at *
    obtain ⟨m, rfl⟩ : ∃ m, ann = m + 2 := ⟨ann - 2, by omega⟩
    have h3 : (m + 1) * D ≤ (m + 1) * (2 * s) := by
      have e1 : (m + 2 - 1) * D = (m + 1) * D := rfl
      have e2 : (m + 2) * s ≤ (m + 1) * (2 * s) := by nlinarith
      omega
    have := Nat.le_of_mul_le_mul_left h3 (by omega)
    omega

end Verif

import Verif.Curve.Props

/-
The invariant D that the curve pools compute, compared with the real curve.
-/

namespace Verif

/-- The tangent of `E ^ (n+1)` at `D` stays below it. -/
theorem tangent_le (D E : Nat) : ∀ n : Nat,
    (n + 1) * (D ^ n * E) ≤ E ^ (n + 1) + n * D ^ (n + 1) := by
  intro n
  have key : ∀ (n : Nat) (d e : Int), 0 ≤ d → 0 ≤ e →
      ((n : Int) + 1) * (d ^ n * e) ≤ e ^ (n + 1) + n * d ^ (n + 1) := by
    intro n d e hd he
    induction n with
    | zero => simp
    | succ n ih =>
      have h1 := mul_le_mul_of_nonneg_right ih he
      have h2 : 0 ≤ ((n : Int) + 1) * (d ^ n * (e - d) ^ 2) := by positivity
      have e1 : ((n : Int) + 1) * (d ^ n * e) * e = (n + 1) * (d ^ n * e ^ 2) := by ring
      have e2 : (e ^ (n + 1) + n * d ^ (n + 1)) * e = e ^ (n + 1 + 1) + n * (d ^ n * (d * e)) := by
        ring
      have e3 : ((n : Int) + 1) * (d ^ n * (e - d) ^ 2) = (n + 1) * (d ^ n * e ^ 2)
          - 2 * (n + 1) * (d ^ n * (d * e)) + (n + 1) * (d ^ n * d ^ 2) := by ring
      push_cast
      have e4 : ((n : Int) + 1 + 1) * (d ^ (n + 1) * e) = (n + 2) * (d ^ n * (d * e)) := by ring
      have e5 : ((n : Int) + 1) * d ^ (n + 1 + 1) = (n + 1) * (d ^ n * d ^ 2) := by ring
      rw [e4, e5]
      rw [e1, e2] at h1
      rw [e3] at h2
      have e6 : 2 * ((n : Int) + 1) * (d ^ n * (d * e)) =
          (n + 2) * (d ^ n * (d * e)) + n * (d ^ n * (d * e)) := by ring
      rw [e6] at h2
      linarith
  have := key n D E (by positivity) (by positivity)
  exact_mod_cast this

/-- The product computed by the Newton step is at most the real one. -/
theorem dProdLoop_le {w n d : Nat} : ∀ {xs : List Nat} {dp r : Nat},
    dProdLoop w n d xs dp = .ok r →
    r * (n ^ xs.length * xs.prod) ≤ dp * d ^ xs.length ∧ 0 < n ^ xs.length * xs.prod := by
  intro xs
  induction xs with
  | nil => intro dp r h; cases h; simp
  | cons x xs ih =>
    intro dp r h
    unfold dProdLoop at h
    unpack at h
    obtain ⟨_, _, hne, h⟩ := h
    obtain ⟨h1, h2⟩ := ih h
    have hpos : 0 < x * n := Nat.pos_of_ne_zero hne
    have hfl : dp * d / (x * n) * (x * n) ≤ dp * d := Nat.div_mul_le_self _ _
    have hK : n ^ (x :: xs).length * (x :: xs).prod = x * n * (n ^ xs.length * xs.prod) := by
      rw [List.length_cons, List.prod_cons]; ring
    rw [hK]
    constructor
    · calc r * (x * n * (n ^ xs.length * xs.prod))
          = r * (n ^ xs.length * xs.prod) * (x * n) := by ring
        _ ≤ dp * d / (x * n) * d ^ xs.length * (x * n) := Nat.mul_le_mul_right _ h1
        _ = dp * d / (x * n) * (x * n) * d ^ xs.length := by ring
        _ ≤ dp * d * d ^ xs.length := Nat.mul_le_mul_right _ hfl
        _ = dp * d ^ (x :: xs).length := by rw [List.length_cons]; ring
    · exact Nat.mul_pos hpos h2

/-- A Newton step from anywhere below `ann * S / (ann - 1)` ends less than one unit below the root of
the curve, and stays in that range. -/
theorem dStep_low {w ann S d r : Nat} {xs : List Nat}
    (h : dStep w xs.length ann S xs d = .ok r) (hd : (ann - 1) * d ≤ ann * S) :
    (ann - 1) * r ≤ ann * S ∧ 1 ≤ ann ∧ 0 < xs.length ^ xs.length * xs.prod ∧
    (ann * S + (r + 1)) * (xs.length ^ xs.length * xs.prod) <
      (r + 1) ^ (xs.length + 1) + ann * (r + 1) * (xs.length ^ xs.length * xs.prod) := by
  unfold dStep at h
  unpack at h
  obtain ⟨dp, hdp, _, _, _, _, hann, _, _, _, hne, rfl⟩ := h
  obtain ⟨h1, hK⟩ := dProdLoop_le hdp
  generalize hn : xs.length = n at *
  generalize n ^ n * xs.prod = K at *
  obtain ⟨m, rfl⟩ : ∃ m, ann = m + 1 := ⟨ann - 1, by omega⟩
  simp only [Nat.add_sub_cancel] at *
  generalize hq : d * (dp * n + S * (m + 1)) / (d * m + dp * (n + 1)) = r at *
  have hden : 0 < d * m + dp * (n + 1) := Nat.pos_of_ne_zero hne
  have hle : r * (d * m + dp * (n + 1)) ≤ d * (dp * n + S * (m + 1)) := by
    rw [← hq]; exact Nat.div_mul_le_self _ _
  have hlt : d * (dp * n + S * (m + 1)) < (r + 1) * (d * m + dp * (n + 1)) := by
    rw [← hq, Nat.mul_comm (_ + 1)]; exact Nat.lt_mul_div_succ _ hden
  have hd0 : 0 < d := by
    rcases Nat.eq_zero_or_pos d with h0 | h0
    · subst h0
      have : dp = 0 := by
        rcases Nat.eq_zero_or_pos dp with h2 | h2
        · exact h2
        · have := Nat.mul_pos h2 hK
          simp at h1
          omega
      subst this
      omega
    · exact h0
  have hr : m * r ≤ (m + 1) * S := by
    by_contra hc
    have hc : (m + 1) * S < m * r := by omega
    have a1 : d * ((m + 1) * S) < d * (m * r) := Nat.mul_lt_mul_of_pos_left hc hd0
    have e1 : r * (d * m + dp * (n + 1)) = d * (m * r) + r * (n + 1) * dp := by ring
    have e2 : d * (dp * n + S * (m + 1)) = d * n * dp + d * ((m + 1) * S) := by ring
    rw [e1, e2] at hle
    have a2 : r * (n + 1) * dp < d * n * dp := by omega
    have a3 : r * (n + 1) < d * n := Nat.lt_of_mul_lt_mul_right a2
    have a4 : m * r * (n + 1) ≤ m * d * n := by
      calc m * r * (n + 1) = m * (r * (n + 1)) := by ring
        _ ≤ m * (d * n) := Nat.mul_le_mul_left _ a3.le
        _ = m * d * n := by ring
    have a5 : m * d * n ≤ (m + 1) * S * n := Nat.mul_le_mul_right _ hd
    have a6 : (m + 1) * S * n ≤ m * r * n := Nat.mul_le_mul_right _ hc.le
    have a7 : m * r * (n + 1) = m * r * n + m * r := by ring
    omega
  refine ⟨hr, by omega, hK, ?_⟩
  -- the step shrinks `d` by at most `n / (n+1)`
  have hshrink : d * n ≤ (r + 1) * (n + 1) := by
    by_contra hc
    have hc : (r + 1) * (n + 1) < d * n := by omega
    have e1 : (r + 1) * (d * m + dp * (n + 1)) = (r + 1) * m * d + (r + 1) * (n + 1) * dp := by ring
    have e2 : d * (dp * n + S * (m + 1)) = d * n * dp + (m + 1) * S * d := by ring
    rw [e1, e2] at hlt
    have a1 : (r + 1) * (n + 1) * dp ≤ d * n * dp := Nat.mul_le_mul_right _ hc.le
    have a2 : (m + 1) * S * d < (r + 1) * m * d := by omega
    have a3 : (m + 1) * S < (r + 1) * m := Nat.lt_of_mul_lt_mul_right a2
    have a4 : (r + 1) * (n + 1) * m ≤ d * n * m := Nat.mul_le_mul_right _ hc.le
    have a5 : m * d * n ≤ (m + 1) * S * n := Nat.mul_le_mul_right _ hd
    have a6 : (m + 1) * S * n ≤ (r + 1) * m * n := Nat.mul_le_mul_right _ a3.le
    have a7 : (r + 1) * (n + 1) * m = (r + 1) * m * n + (r + 1) * m := by ring
    have a8 : d * n * m = m * d * n := by ring
    omega
  generalize hE : r + 1 = e at *
  obtain ⟨δ, hδ⟩ : ∃ δ, d ^ (n + 1) = dp * K + δ := by
    refine ⟨d ^ (n + 1) - dp * K, ?_⟩
    have : d ^ (n + 1) = d * d ^ n := by ring
    omega
  have b1 : d * (dp * n + S * (m + 1)) * K < e * (d * m + dp * (n + 1)) * K :=
    Nat.mul_lt_mul_of_pos_right hlt hK
  have b2 : d * n * δ ≤ e * (n + 1) * δ := Nat.mul_le_mul_right _ hshrink
  have b3 : d * (n * d ^ (n + 1) + (m + 1) * S * K) < d * (e * ((n + 1) * d ^ n) + e * m * K) := by
    have e1 : d * (n * d ^ (n + 1) + (m + 1) * S * K) =
        d * (dp * n + S * (m + 1)) * K + d * n * δ := by rw [hδ]; ring
    have e2 : d * (e * ((n + 1) * d ^ n) + e * m * K) =
        e * (n + 1) * d ^ (n + 1) + e * m * d * K := by ring
    have e3 : e * (n + 1) * d ^ (n + 1) + e * m * d * K =
        e * (d * m + dp * (n + 1)) * K + e * (n + 1) * δ := by rw [hδ]; ring
    rw [e1, e2, e3]
    omega
  have b4 := Nat.lt_of_mul_lt_mul_left b3
  have b5 := tangent_le d e n
  have e4 : e * ((n + 1) * d ^ n) = (n + 1) * (d ^ n * e) := by ring
  have e5 : ((m + 1) * S + e) * K = (m + 1) * S * K + e * K := by ring
  have e6 : (m + 1) * e * K = e * m * K + e * K := by ring
  rw [e5, e6]
  omega

theorem dLoop_low {w ann S : Nat} {xs : List Nat} : ∀ {k d r : Nat},
    dLoop w xs.length ann S xs (k + 1) d = .ok r → (ann - 1) * d ≤ ann * S →
    1 ≤ ann ∧ 0 < xs.length ^ xs.length * xs.prod ∧
    (ann * S + (r + 1)) * (xs.length ^ xs.length * xs.prod) <
      (r + 1) ^ (xs.length + 1) + ann * (r + 1) * (xs.length ^ xs.length * xs.prod) := by
  intro k
  induction k with
  | zero =>
    intro d r h hd
    unfold dLoop at h
    simp only [bind_ok] at h
    obtain ⟨d', h1, h⟩ := h
    have := dStep_low h1 hd
    split at h
    · cases h; exact this.2
    · unfold dLoop at h
      cases h; exact this.2
  | succ k ih =>
    intro d r h hd
    unfold dLoop at h
    simp only [bind_ok] at h
    obtain ⟨d', h1, h⟩ := h
    have := dStep_low h1 hd
    split at h
    · cases h; exact this.2
    · exact ih h this.1

/-- The computed invariant of a pool with reserves is less than one unit below the real one: the
next integer is beyond the curve. -/
theorem computeD_low {w D : Nat} {amp : R Nat} {xs : List Nat} (h : computeD w amp xs = .ok D)
    (hs : xs.sum ≠ 0) : ∃ A, amp = .ok A ∧ 1 ≤ A * xs.length ^ xs.length ∧
      0 < xs.length ^ xs.length * xs.prod ∧ ¬ OnOrAboveCurve A (D + 1) xs 0 := by
  unfold computeD at h
  simp only [bind_ok] at h
  obtain ⟨s, h1, h⟩ := h
  have h1 := sumU128_ok h1
  rw [Nat.zero_add] at h1
  subst h1
  rw [if_neg hs] at h
  simp only [bind_ok, fit_ok, mulW_ok] at h
  obtain ⟨A, hA, _, ⟨_, rfl⟩, _, ⟨_, rfl⟩, h⟩ := h
  obtain ⟨g1, g2, g3⟩ := dLoop_low h (Nat.mul_le_mul_right _ (Nat.sub_le _ _))
  refine ⟨A, hA, g1, g2, ?_⟩
  unfold OnOrAboveCurve
  simp only
  omega

/-- Balances on or above the curve for `D` are so for every smaller value. -/
theorem OnOrAboveCurve.mono {A D E : Nat} {xs : List Nat} (h : OnOrAboveCurve A D xs 0)
    (hA : 1 ≤ A * xs.length ^ xs.length) (hE : E ≤ D) : OnOrAboveCurve A E xs 0 := by
  unfold OnOrAboveCurve at *
  simp only [Nat.add_zero] at *
  generalize xs.length ^ xs.length * xs.prod = K at *
  obtain ⟨m, hm⟩ : ∃ m, A * xs.length ^ xs.length = m + 1 := ⟨_ - 1, (Nat.sub_add_cancel hA).symm⟩
  rw [hm] at h ⊢
  have h1 : E ^ (xs.length + 1) ≤ D ^ (xs.length + 1) := Nat.pow_le_pow_left hE _
  have h2 : m * E * K ≤ m * D * K := Nat.mul_le_mul_right _ (Nat.mul_le_mul_left _ hE)
  have e1 : (m + 1) * D * K = m * D * K + D * K := by ring
  have e2 : (m + 1) * E * K = m * E * K + E * K := by ring
  have e3 : ((m + 1) * xs.sum + D) * K = (m + 1) * xs.sum * K + D * K := by ring
  have e4 : ((m + 1) * xs.sum + E) * K = (m + 1) * xs.sum * K + E * K := by ring
  rw [e1, e3] at h
  rw [e2, e4]
  omega

/-- The computed invariant is at least every value for which the balances are on or above the
curve. -/
theorem computeD_max {w A D E : Nat} {xs : List Nat} (h : computeD w (.ok A) xs = .ok D)
    (hne : xs ≠ []) (hE : OnOrAboveCurve A E xs 0) : E ≤ D := by
  by_cases hs : xs.sum = 0
  · have hp : xs.prod = 0 := by
      obtain ⟨x, l, rfl⟩ := List.exists_cons_of_ne_nil hne
      rw [List.sum_cons] at hs
      rw [List.prod_cons, show x = 0 by omega, Nat.zero_mul]
    unfold OnOrAboveCurve at hE
    simp only [hp, Nat.mul_zero, Nat.add_zero, Nat.le_zero] at hE
    have : E = 0 := eq_zero_of_pow_eq_zero hE
    omega
  · obtain ⟨A', hA, h1, h2, h3⟩ := computeD_low h hs
    cases hA
    by_contra hc
    exact h3 (hE.mono h1 (by omega))

/-- Slack is worth `k` units of the invariant. -/
theorem OnOrAboveCurve.absorb {A D k e : Nat} {xs : List Nat} (h : OnOrAboveCurve A D xs e)
    (hA : 1 ≤ A * xs.length ^ xs.length) (hk : k ≤ D)
    (he : e ≤ k * ((xs.length + 1) * (D - k) ^ xs.length)) : OnOrAboveCurve A (D - k) xs 0 := by
  obtain ⟨E, rfl⟩ : ∃ E, D = E + k := ⟨D - k, by omega⟩
  rw [Nat.add_sub_cancel] at *
  unfold OnOrAboveCurve at *
  simp only [Nat.add_zero] at *
  generalize xs.length ^ xs.length * xs.prod = K at *
  obtain ⟨m, hm⟩ : ∃ m, A * xs.length ^ xs.length = m + 1 := ⟨_ - 1, (Nat.sub_add_cancel hA).symm⟩
  rw [hm] at h ⊢
  generalize xs.length = n at *
  have ht := tangent_le E (E + k) n
  have e0 : (n + 1) * (E ^ n * (E + k)) = E ^ (n + 1) + n * E ^ (n + 1) +
      k * ((n + 1) * E ^ n) := by ring
  have e1 : (m + 1) * (E + k) * K = m * E * K + m * k * K + E * K + k * K := by ring
  have e2 : (m + 1) * E * K = m * E * K + E * K := by ring
  have e3 : ((m + 1) * xs.sum + (E + k)) * K = (m + 1) * xs.sum * K + E * K + k * K := by ring
  have e4 : ((m + 1) * xs.sum + E) * K = (m + 1) * xs.sum * K + E * K := by ring
  rw [e1, e3] at h
  rw [e0] at ht
  rw [e2, e4]
  omega

/-- Two balances of a pool on or above the curve may grow. -/
theorem OnOrAboveCurve.raise {A D i o a b a' b' : Nat} {xs : List Nat} (hio : i ≠ o)
    (hi : i < xs.length) (ho : o < xs.length) (ha : a ≤ a') (hb : b ≤ b')
    (h : OnOrAboveCurve A D ((xs.set i a).set o b) 0) :
    OnOrAboveCurve A D ((xs.set i a').set o b') 0 := by
  obtain ⟨hs, hp, -⟩ := othersOf_two (a := a) (b := b) hio hi ho
  obtain ⟨hs', hp', -⟩ := othersOf_two (a := a') (b := b') hio hi ho
  unfold OnOrAboveCurve at *
  simp only [List.length_set, Nat.add_zero] at *
  rw [hs, hp] at h
  rw [hs', hp']
  generalize hO : (othersOf i o xs 0).prod = P at *
  generalize (othersOf i o xs 0).sum = S at *
  generalize hann : A * xs.length ^ xs.length = ann at *
  generalize xs.length ^ xs.length = nn at *
  generalize xs.length = n at *
  have hK : nn * (a * b * P) ≤ nn * (a' * b' * P) :=
    Nat.mul_le_mul_left _ (Nat.mul_le_mul_right _ (Nat.mul_le_mul ha hb))
  generalize nn * (a * b * P) = K at *
  generalize nn * (a' * b' * P) = K' at *
  have hS : ann * (a + b + S) ≤ ann * (a' + b' + S) := Nat.mul_le_mul_left _ (by omega)
  generalize ann * (a + b + S) = T at *
  generalize ann * (a' + b' + S) = T' at *
  rcases Nat.eq_zero_or_pos D with h0 | h0
  · subst h0; simp
  · have hpow : 0 < D ^ (n + 1) := Nat.pow_pos h0
    have hlt : ann * D * K < (T + D) * K := by omega
    have hlt : ann * D < T + D := Nat.lt_of_mul_lt_mul_right hlt
    obtain ⟨r, hr⟩ : ∃ r, T + D = ann * D + r := ⟨T + D - ann * D, by omega⟩
    obtain ⟨r', hr'⟩ : ∃ r', T' + D = ann * D + r' := ⟨T' + D - ann * D, by omega⟩
    rw [hr, Nat.add_mul] at h
    rw [hr', Nat.add_mul]
    have := Nat.mul_le_mul (show r ≤ r' by omega) hK
    omega

/-- The reserves of a stable pool after a swap: the input is added, what is paid is taken away; the
admin fee stays in. -/
theorem stable_swap_reserves {p q : CurvePool} {ti tout : AccountId} {a mo out : Nat}
    {fees : AdminFees} {env : CurveEnv} {v : Bool} (hk : p.kind = .stable)
    (h : p.swap ti a tout mo fees env v = .ok (q, out)) :
    ∃ i o xi xo x y sw, i ≠ o ∧ p.cAmts[i]? = some xi ∧ p.cAmts[o]? = some xo ∧
      computeY 256 (p.inv env).amp (xi + x) p.cAmts i o = .ok y ∧ y ≤ xo ∧ sw ≤ xo - y - 1 ∧
      q.cAmts = (p.cAmts.set i (xi + x)).set o (xo - sw) ∧ (q.inv env).amp = (p.inv env).amp ∧
      q.kind = .stable := by
  obtain ⟨i, o, r, di, do_, x, hne, hti, hto, hio, -, hdi, hdo, hx, hr, hout, hmo, hmin, hq⟩ :=
    CurvePool.swap_ok h
  obtain ⟨rin, rout, inn, xs, xi, xo, y, fee, adm, sw, hrin, hrout, hinn, hxs, hxi, hxo, hy, hyx,
    hfee, hadm, hsw, hsa, -, d1, d2, d3, d4, -⟩ := CurvePool.swapTo_ok hr
  have hk' : (p.inv env).kind = .stable := hk
  have hw : (p.inv env).kind.width = 256 := by rw [hk']; rfl
  rw [hw] at hy
  rw [hk'] at hinn hxs d1 d2 d3 d4
  cases hinn; cases hxs
  have d1 : xi + x = r.newSource := Except.ok.inj d1
  have d2 : xo - sw - adm = r.newDest := Except.ok.inj d2
  have d4 : adm = r.adminFee := Except.ok.inj d4
  have hol : o < (p.cAmts.set i r.newSource).length := by
    simpa using (List.getElem?_eq_some_iff.1 hxo).1
  refine ⟨i, o, xi, xo, x, y, sw, hio, hxi, hxo, by rw [Nat.add_comm]; exact hy, hyx, by omega, ?_⟩
  rcases CurvePool.swapFee_ok hq with ⟨rfl, hz⟩ | ⟨-, -, m, f, old, -, hold, hlt, hm⟩
  · have h0 : adm = 0 := by
      rcases hz with h0 | h0
      · rw [hadm]; simp only [h0]; simp
      · omega
    refine ⟨?_, rfl, hk⟩
    simp only
    rw [← d1, ← d2, h0, Nat.sub_zero]
  · simp only [List.getElem?_set_self hol, Option.some.injEq] at hold
    subst hold
    simp only [List.set_set] at hm
    rw [hm.frame]
    refine ⟨?_, rfl, hk⟩
    simp only
    rw [← d1, ← d2, ← d4]
    congr 1
    omega

/-- The other balances keep their places. -/
theorem othersOf_at {i o z : Nat} : ∀ {xs : List Nat} {idx : Nat}, z ∈ othersOf i o xs idx →
    ∃ j, idx + j ≠ i ∧ idx + j ≠ o ∧ xs[j]? = some z := by
  intro xs
  induction xs with
  | nil => intro idx h; cases h
  | cons x xs ih =>
    intro idx h
    unfold othersOf at h
    have tail : z ∈ othersOf i o xs (idx + 1) →
        ∃ j, idx + j ≠ i ∧ idx + j ≠ o ∧ (x :: xs)[j]? = some z := by
      intro h
      obtain ⟨j, h1, h2, h3⟩ := ih h
      exact ⟨j + 1, by omega, by omega, by simpa using h3⟩
    split at h
    · rename_i hc
      rcases List.mem_cons.1 h with rfl | h
      · exact ⟨0, by omega, by omega, rfl⟩
      · exact tail h
    · exact tail h

theorem mem_set_of_othersOf {i o a b z : Nat} {xs : List Nat} (h : z ∈ othersOf i o xs 0) :
    z ∈ (xs.set i a).set o b := by
  obtain ⟨j, h1, h2, h3⟩ := othersOf_at h
  refine List.mem_of_getElem? (i := j) ?_
  rw [List.getElem?_set_ne (by omega), List.getElem?_set_ne (by omega)]
  exact h3

/-- A trade along the curve with room `k` for the rounding of the chained divisions. -/
theorem computeY_keeps {w A D E i o x y xi xo sw k M : Nat} {xs : List Nat} (hio : i ≠ o)
    (hxi : xs[i]? = some xi) (hxo : xs[o]? = some xo)
    (hy : computeY w (.ok A) (xi + x) xs i o = .ok y) (hsw : sw ≤ xo - y - 1)
    (hE : OnOrAboveCurve A E xs 0) (hD : computeD w (.ok A) xs = .ok D) (hkD : k ≤ D)
    (hDM : D ≤ M) (hM : ∀ b ∈ (xs.set i (xi + x)).set o (xo - sw), b ≤ M)
    (hroom : D * ((xs.length - 1) * M ^ (xs.length - 1)) ≤
      k * ((xs.length + 1) * (D - k) ^ xs.length)) :
    OnOrAboveCurve A (E - k) ((xs.set i (xi + x)).set o (xo - sw)) 0 := by
  have hil := (List.getElem?_eq_some_iff.1 hxi).1
  have hol := (List.getElem?_eq_some_iff.1 hxo).1
  obtain ⟨A', D', hA', hD', hann, hcurve⟩ := computeY_curve hio hil hol hy
  cases hA'
  rw [hD] at hD'
  cases hD'
  have hann : 1 ≤ A * xs.length ^ xs.length := Nat.one_le_iff_ne_zero.2 hann
  have hsame : (xs.set i xi).set o xo = xs := by
    have hset : ∀ {l : List Nat} {j z : Nat}, l[j]? = some z → l.set j z = l := by
      intro l j z hz
      obtain ⟨hj, rfl⟩ := List.getElem?_eq_some_iff.1 hz
      exact List.set_getElem_self hj
    rw [hset hxi, hset hxo]
  by_cases h0 : xo - y - 1 = 0
  · have : sw = 0 := by omega
    subst this
    refine OnOrAboveCurve.mono (D := E) ?_ (by simpa using hann) (by omega)
    refine OnOrAboveCurve.raise (a := xi) (b := xo) hio hil hol (by omega) (by omega) ?_
    rw [hsame]
    exact hE
  · have hl : 2 ≤ xs.length := by omega
    have hx : xi + x ≤ M := by
      refine hM _ (List.mem_of_getElem? (i := i) ?_)
      rw [List.getElem?_set_ne (by omega), List.getElem?_set_self hil]
    have h1 := hcurve M hDM (fun z hz => hM z (mem_set_of_othersOf hz))
    have h2 := h1.absorb (k := k) (by simpa using hann) hkD ?_
    · refine OnOrAboveCurve.mono (D := D - k) ?_ (by simpa using hann)
        (by have := computeD_max hD (by intro hc; rw [hc] at hil; simp at hil) hE; omega)
      exact OnOrAboveCurve.raise (b := y + 1) hio hil hol (Nat.le_refl _) (by omega) h2
    · simp only [List.length_set]
      refine Nat.le_trans (Nat.mul_le_mul_left _ (Nat.mul_le_mul_left _ ?_)) hroom
      rw [show xs.length - 1 = (xs.length - 2) + 1 by omega, Nat.pow_succ, Nat.mul_comm]
      exact Nat.mul_le_mul_left _ hx

/-- A swap of a stable pool. -/
theorem stable_swap_curve {p q : CurvePool} {ti tout : AccountId} {a mo out A D E k M : Nat}
    {fees : AdminFees} {env : CurveEnv} {v : Bool} (hk : p.kind = .stable)
    (h : p.swap ti a tout mo fees env v = .ok (q, out)) (hA : (p.inv env).amp = .ok A)
    (hE : OnOrAboveCurve A E p.cAmts 0) (hD : computeD 256 (.ok A) p.cAmts = .ok D) (hkD : k ≤ D)
    (hDM : D ≤ M) (hM : ∀ b ∈ q.cAmts, b ≤ M)
    (hroom : D * ((p.cAmts.length - 1) * M ^ (p.cAmts.length - 1)) ≤
      k * ((p.cAmts.length + 1) * (D - k) ^ p.cAmts.length)) :
    OnOrAboveCurve A (E - k) q.cAmts 0 := by
  obtain ⟨i, o, xi, xo, x, y, sw, hio, hxi, hxo, hy, -, hsw, hq, -, -⟩ :=
    stable_swap_reserves hk h
  rw [hA] at hy
  rw [hq] at hM ⊢
  exact computeY_keeps hio hxi hxo hy hsw hE hD hkD hDM hM hroom

/-! ### Rated and degen pools -/

/-- Balances may grow. -/
theorem OnOrAboveCurve.grow {A D : Nat} {xs ys : List Nat} (h : OnOrAboveCurve A D xs 0)
    (hle : List.Forall₂ (· ≤ ·) xs ys) : OnOrAboveCurve A D ys 0 := by
  have hl := hle.length_eq
  have hs : xs.sum ≤ ys.sum := List.Forall₂.sum_le_sum hle
  have hp : xs.prod ≤ ys.prod := List.Forall₂.prod_le_prod' hle
  unfold OnOrAboveCurve at *
  simp only [Nat.add_zero] at *
  rw [← hl]
  generalize hann : A * xs.length ^ xs.length = ann at *
  generalize xs.length ^ xs.length = nn at *
  generalize xs.length = n at *
  have hK : nn * xs.prod ≤ nn * ys.prod := Nat.mul_le_mul_left _ hp
  generalize nn * xs.prod = K at *
  generalize nn * ys.prod = K' at *
  have hS : ann * xs.sum ≤ ann * ys.sum := Nat.mul_le_mul_left _ hs
  generalize ann * xs.sum = T at *
  generalize ann * ys.sum = T' at *
  rcases Nat.eq_zero_or_pos D with h0 | h0
  · subst h0; simp
  · have hpow : 0 < D ^ (n + 1) := Nat.pow_pos h0
    have hlt : ann * D * K < (T + D) * K := by omega
    have hlt : ann * D < T + D := Nat.lt_of_mul_lt_mul_right hlt
    obtain ⟨r, hr⟩ : ∃ r, T + D = ann * D + r := ⟨T + D - ann * D, by omega⟩
    obtain ⟨r', hr'⟩ : ∃ r', T' + D = ann * D + r' := ⟨T' + D - ann * D, by omega⟩
    rw [hr, Nat.add_mul] at h
    rw [hr', Nat.add_mul]
    have := Nat.mul_le_mul (show r ≤ r' by omega) hK
    omega

theorem sum_map_mul (t : Nat) : ∀ xs : List Nat, (xs.map (t * ·)).sum = t * xs.sum
  | [] => by simp
  | x :: xs => by simp [sum_map_mul t xs, Nat.mul_add]

theorem prod_map_mul (t : Nat) : ∀ xs : List Nat, (xs.map (t * ·)).prod = t ^ xs.length * xs.prod
  | [] => by simp
  | x :: xs => by
    rw [List.map_cons, List.prod_cons, prod_map_mul t xs, List.length_cons, List.prod_cons]; ring

/-- The curve is the same at every scale. -/
theorem OnOrAboveCurve.scale {A D t : Nat} {xs : List Nat} (ht : 0 < t) :
    OnOrAboveCurve A (t * D) (xs.map (t * ·)) 0 ↔ OnOrAboveCurve A D xs 0 := by
  unfold OnOrAboveCurve
  simp only [List.length_map, Nat.add_zero, sum_map_mul, prod_map_mul]
  generalize xs.length ^ xs.length = nn
  generalize xs.length = n
  have e1 : (t * D) ^ (n + 1) + A * nn * (t * D) * (nn * (t ^ n * xs.prod)) =
      t ^ (n + 1) * (D ^ (n + 1) + A * nn * D * (nn * xs.prod)) := by
    rw [Nat.mul_pow]; ring
  have e2 : (A * nn * (t * xs.sum) + t * D) * (nn * (t ^ n * xs.prod)) =
      t ^ (n + 1) * ((A * nn * xs.sum + D) * (nn * xs.prod)) := by ring
  rw [e1, e2]
  exact Nat.mul_le_mul_left_iff (Nat.pow_pos ht)

/-- If every balance shrinks by at most one part in `N + 1`, so does the invariant. -/
theorem OnOrAboveCurve.shrink {A D D' N : Nat} {xs ys : List Nat} (h : OnOrAboveCurve A D xs 0)
    (hA : 1 ≤ A * xs.length ^ xs.length)
    (hle : List.Forall₂ (fun x y => N * x ≤ (N + 1) * y) xs ys) (hD : (N + 1) * D' ≤ N * D) :
    OnOrAboveCurve A D' ys 0 := by
  have hl := hle.length_eq
  rcases Nat.eq_zero_or_pos N with rfl | hN
  · have : D' = 0 := by omega
    subst this
    unfold OnOrAboveCurve
    simp
  · refine (OnOrAboveCurve.scale (Nat.succ_pos N)).1 ?_
    have h1 : OnOrAboveCurve A (N * D) (ys.map ((N + 1) * ·)) 0 := by
      refine ((OnOrAboveCurve.scale hN).2 h).grow ?_
      rw [List.forall₂_map_left_iff, List.forall₂_map_right_iff]
      exact hle
    exact h1.mono (by simpa [← hl] using hA) hD

/-- Converting to the unit of a token and back loses at most the value of one unit, rounded up. -/
theorem unrate_rate {s r g : Nat} (hr : r ≠ 0) (hg : r ≤ g * PRECISION) :
    s ≤ s * PRECISION / r * r / PRECISION + g := by
  have hP : 0 < PRECISION := by decide
  generalize PRECISION = P at *
  have h1 : s * P < s * P / r * r + r := by
    have := Nat.lt_mul_div_succ (s * P) (Nat.pos_of_ne_zero hr)
    rw [Nat.mul_add, Nat.mul_one] at this
    rw [Nat.mul_comm (_ / _)]
    exact this
  generalize s * P / r * r = u at *
  have h2 : u < u / P * P + P := by
    have := Nat.lt_mul_div_succ u hP
    rw [Nat.mul_add, Nat.mul_one] at this
    rw [Nat.mul_comm (_ / _)]
    exact this
  have h3 : s * P < (u / P + g + 1) * P := by
    rw [Nat.add_mul, Nat.add_mul]
    omega
  have := Nat.lt_of_mul_lt_mul_right h3
  omega

/-- The same for two amounts that are converted separately. -/
theorem unrate_rate_two {s t r g : Nat} (hr : r ≠ 0) (hg : r ≤ g * PRECISION) :
    s + t ≤ (s * PRECISION / r + t * PRECISION / r) * r / PRECISION + 2 * g := by
  have hP : 0 < PRECISION := by decide
  generalize PRECISION = P at *
  have key : ∀ s, s * P < s * P / r * r + r := by
    intro s
    have := Nat.lt_mul_div_succ (s * P) (Nat.pos_of_ne_zero hr)
    rw [Nat.mul_add, Nat.mul_one] at this
    rw [Nat.mul_comm (_ / _)]
    exact this
  have h1 := key s
  have h1' := key t
  rw [Nat.add_mul]
  generalize s * P / r * r = u at *
  generalize t * P / r * r = v at *
  have h2 : u + v < (u + v) / P * P + P := by
    have := Nat.lt_mul_div_succ (u + v) hP
    rw [Nat.mul_add, Nat.mul_one] at this
    rw [Nat.mul_comm (_ / _)]
    exact this
  have h3 : (s + t) * P < ((u + v) / P + 2 * g + 1) * P := by
    have e : ((u + v) / P + 2 * g + 1) * P = (u + v) / P * P + P + g * P + g * P := by ring
    rw [e, Nat.add_mul]
    omega
  have := Nat.lt_of_mul_lt_mul_right h3
  omega

theorem rated_set {i a r : Nat} {as rs : List Nat} (hr : rs[i]? = some r) :
    List.zipWith (fun c r => c * r / PRECISION) (as.set i a) rs =
      (List.zipWith (fun c r => c * r / PRECISION) as rs).set i (a * r / PRECISION) := by
  apply List.ext_getElem?
  intro j
  by_cases hj : i = j
  · subst hj
    by_cases hi : i < as.length
    · have hi' := (List.getElem?_eq_some_iff.1 hr).1
      rw [List.getElem?_set_self (by simp; omega), List.getElem?_zipWith,
        List.getElem?_set_self hi, hr]
    · rw [List.set_eq_of_length_le (by omega), List.set_eq_of_length_le (by simp; omega)]
  · rw [List.getElem?_set_ne hj, List.getElem?_zipWith, List.getElem?_zipWith,
      List.getElem?_set_ne hj]

theorem divRate_ne {k : CurveKind} {a r x : Nat} (hk : k ≠ .stable) (h : divRate k a r = .ok x) :
    r ≠ 0 := by
  unfold divRate at h
  cases k with
  | stable => exact absurd rfl hk
  | rated => simp only at h; unpack at h; simp_all
  | degen => simp only at h; unpack at h; simp_all

/-- The balances of a rated or degen pool after a swap, in the units of the curve: what the curve
asks for, up to the value of one unit of the incoming and two units of the outgoing token. -/
theorem rated_swap_reserves {p q : CurvePool} {ti tout : AccountId} {a mo out g : Nat}
    {fees : AdminFees} {env : CurveEnv} {v : Bool} (hk : p.kind ≠ .stable)
    (hg : ∀ r ∈ env.rates, r ≤ g * PRECISION)
    (h : p.swap ti a tout mo fees env v = .ok (q, out)) :
    ∃ i o xi xo x y sw a' b', i ≠ o ∧ (p.rated env)[i]? = some xi ∧ (p.rated env)[o]? = some xo ∧
      computeY p.kind.width (p.inv env).amp (xi + x) (p.rated env) i o = .ok y ∧
      sw ≤ xo - y - 1 ∧ q.rated env = ((p.rated env).set i a').set o b' ∧
      xi + x ≤ a' + g ∧ xo - sw ≤ b' + 2 * g ∧ 1 ≤ g ∧ q.kind = p.kind := by
  obtain ⟨i, o, r, di, do_, x, hne, hti, hto, hio, -, hdi, hdo, hx, hr, hout, hmo, hmin, hq⟩ :=
    CurvePool.swap_ok h
  obtain ⟨rin, rout, inn, xs, xi, xo, y, fee, adm, sw, hrin, hrout, hinn, hxs, hxi, hxo, hy, hyx,
    hfee, hadm, hsw, hsa, -, d1, d2, d3, d4, -⟩ := CurvePool.swapTo_ok hr
  have hxs' := rated_of_rateBalances (p := p) (env := env) hxs
  subst hxs'
  have hk' : (p.inv env).kind ≠ .stable := hk
  have rate : ∀ {j z : Nat}, (p.inv env).rateAt j = .ok z → env.rates[j]? = some z := by
    intro j z hz
    unfold Inv.rateAt at hz
    simp only [CurvePool.inv] at hz
    cases hkk : p.kind <;> simp_all [expectE_ok]
  have ri := rate hrin
  have ro := rate hrout
  have gi := hg _ (List.mem_of_getElem? ri)
  have go := hg _ (List.mem_of_getElem? ro)
  have ni := divRate_ne hk' d1
  have no := divRate_ne hk' d2
  have e1 := (CurvePool.divRate_ok d1).1
  have e2 := (CurvePool.divRate_ok d2).1
  have e4 := (CurvePool.divRate_ok d4).1
  rw [if_neg hk'] at e1 e2 e4
  have hco : o < p.cAmts.length := by
    obtain ⟨c, hc, -⟩ := CurvePool.rateBalances_at hxs hxo
    exact (List.getElem?_eq_some_iff.1 hc).1
  have rated_eq : ∀ s : CurvePool, s.kind = p.kind →
      s.rated env = List.zipWith (fun c r => c * r / PRECISION) s.cAmts env.rates := by
    intro s hs
    unfold CurvePool.rated
    rw [hs]
    cases hkk : p.kind <;> simp_all
  have hg1 : 1 ≤ g := by
    rcases Nat.eq_zero_or_pos g with h0 | h0
    · subst h0; omega
    · exact h0
  have main : q.kind = p.kind ∧
      q.cAmts = (p.cAmts.set i r.newSource).set o (r.newDest + r.adminFee) := by
    rcases CurvePool.swapFee_ok hq with ⟨rfl, hz⟩ | ⟨-, -, m, f, old, -, hold, hlt, hm⟩
    · refine ⟨rfl, ?_⟩
      have h0 : r.adminFee = 0 := by
        rcases hz with h0 | h0
        · rw [e4, hadm]; simp only [h0]; simp
        · exact h0
      rw [h0]; rfl
    · have hol : o < (p.cAmts.set i r.newSource).length := by simpa using hco
      simp only [List.getElem?_set_self hol, Option.some.injEq] at hold
      subst hold
      simp only [List.set_set] at hm
      rw [hm.frame]
      exact ⟨rfl, rfl⟩
  refine ⟨i, o, xi, xo, inn, y, sw, r.newSource * rin / PRECISION,
    (r.newDest + r.adminFee) * rout / PRECISION, hio, hxi, hxo, by rw [Nat.add_comm]; exact hy,
    by omega, ?_, ?_, ?_, hg1, main.1⟩
  · rw [rated_eq q main.1, main.2, rated_set ro, rated_set ri, rated_eq p rfl]
  · rw [e1]
    exact unrate_rate ni gi
  · rw [e2, e4]
    have := unrate_rate_two (s := xo - sw - adm) (t := adm) no go
    omega

end Verif

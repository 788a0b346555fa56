import Mathlib.Algebra.Order.Field.Rat
import Mathlib.Data.Nat.Find
import Mathlib.Tactic.FieldSimp
import Mathlib.Tactic.Positivity
import Verif.Curve.HoldingsProps
import Verif.Curve.Liquidity

/-
What shares of a stable pool are worth, in units of the pool's invariant, and how the operations of
the pool change it.
-/

namespace Verif

instance (A : Nat) (xs : List Nat) : DecidablePred fun E => OnOrAboveCurve A E xs 0 :=
  fun _ => inferInstanceAs (Decidable (_ ≤ _))

namespace CurvePool

/-- The exact invariant of a stable pool, rounded down to whole units: the greatest `E` such that
the reserves are on or above the curve for `E`. An evenly balanced pool has as many tokens. -/
def value (A : Nat) (p : CurvePool) : Nat :=
  Nat.findGreatest (fun E => OnOrAboveCurve A E p.cAmts 0) p.cAmts.sum

/-- What `h` shares of the pool are worth: their part of the invariant. -/
def worth (A h : Nat) (p : CurvePool) : ℚ := h * p.value A / p.supply

/-- The pool uses the amplification `A` at the time `t`. -/
def AmpIs (A t : Nat) (p : CurvePool) : Prop :=
  ∀ a, computeAmp p.initAmp p.targetAmp t p.initTime p.stopTime = .ok a → a = A

/-- The pool is of ordinary size and shape: with the amplification `A` it is worth at least `B` units,
no reserve exceeds `c` times an even part of `B`, and a share is worth at most `c` units. -/
structure Tame (A B c : Nat) (p : CurvePool) : Prop where
  kind : p.kind = .stable
  some : p.cAmts ≠ []
  size : OnOrAboveCurve A B p.cAmts 0
  even : ∀ x ∈ p.cAmts, x * p.cAmts.length ≤ c * B
  price : p.cAmts.sum ≤ c * p.supply

/-- The units by which Newton's method may exceed the exact invariant (C71). -/
def dError (n c : Nat) : Nat := 2 * n * c ^ n + n + 4

/-- The units that an operation may take from the worth of any number of shares. -/
def opLoss (n c : Nat) : Nat := 2 * dError n c + c

end CurvePool

theorem OnOrAboveCurve.zero (A : Nat) (xs : List Nat) : OnOrAboveCurve A 0 xs 0 := by
  unfold OnOrAboveCurve
  simp

/-- Reserves in a ratio. -/
theorem OnOrAboveCurve.ratio {A D D' M N : Nat} {xs ys : List Nat} (h : OnOrAboveCurve A D xs 0)
    (hA : 1 ≤ A * xs.length ^ xs.length) (hN : 0 < N)
    (hle : List.Forall₂ (fun x y => M * x ≤ N * y) xs ys) (hD : N * D' ≤ M * D) :
    OnOrAboveCurve A D' ys 0 := by
  rcases Nat.eq_zero_or_pos M with rfl | hM
  · have : D' = 0 := by
      rw [Nat.zero_mul, Nat.le_zero, Nat.mul_eq_zero] at hD
      omega
    subst this
    exact .zero _ _
  have h1 := (OnOrAboveCurve.scale (A := A) (D := D) (xs := xs) hM).2 h
  have h2 : OnOrAboveCurve A (N * D') (xs.map (M * ·)) 0 :=
    h1.mono (by simpa using hA) hD
  refine (OnOrAboveCurve.scale hN).1 (h2.grow ?_)
  rw [List.forall₂_map_left_iff, List.forall₂_map_right_iff]
  exact hle

namespace CurvePool

section value
variable {A E : Nat} {p : CurvePool}

theorem value_spec : OnOrAboveCurve A (p.value A) p.cAmts 0 :=
  Nat.findGreatest_spec (P := fun E => OnOrAboveCurve A E p.cAmts 0) (Nat.zero_le _) (.zero _ _)

theorem value_max (hp : p.cAmts ≠ []) (h : OnOrAboveCurve A E p.cAmts 0) : E ≤ p.value A :=
  Nat.le_findGreatest (h.le_holdings hp) h

theorem value_le : p.value A ≤ p.cAmts.sum := Nat.findGreatest_le _

theorem value_succ (hp : p.cAmts ≠ []) : ¬ OnOrAboveCurve A (p.value A + 1) p.cAmts 0 := by
  intro h
  have := value_max hp h
  omega

/-- A pool that is not being changed uses its only amplification. -/
theorem ampIs_const {t : Nat} (h : p.initAmp = A) (h' : p.targetAmp = A) : AmpIs A t p := by
  intro a ha
  have := computeAmp_between ha
  rw [h, h'] at this
  omega

/-- After a change has ended, the pool uses the new amplification. -/
theorem ampIs_after {t : Nat} (h : p.targetAmp = A) (ht : p.stopTime ≤ t) : AmpIs A t p := by
  intro a ha
  unfold computeAmp at ha
  rw [if_neg (by omega)] at ha
  cases ha
  exact h

/-- With a higher amplification the reserves are worth no less. -/
theorem _root_.Verif.OnOrAboveCurve.amp_le {A' : Nat} {xs : List Nat} (h : OnOrAboveCurve A E xs 0)
    (hx : xs ≠ []) (hA : A ≤ A') : OnOrAboveCurve A' E xs 0 := by
  have hE := h.le_holdings hx
  unfold OnOrAboveCurve at *
  simp only [Nat.add_zero] at *
  generalize xs.length ^ xs.length * xs.prod = K at *
  generalize xs.length ^ xs.length = n at *
  generalize xs.sum = s at *
  obtain ⟨d, rfl⟩ := Nat.exists_eq_add_of_le hA
  have h1 := Nat.mul_le_mul_right K (Nat.mul_le_mul_left (d * n) hE)
  have e1 : (A + d) * n * E * K = A * n * E * K + d * n * E * K := by ring
  have e2 : ((A + d) * n * s + E) * K = (A * n * s + E) * K + d * n * s * K := by ring
  omega

theorem value_amp {A' : Nat} (hp : p.cAmts ≠ []) (hA : A ≤ A') : p.value A ≤ p.value A' :=
  value_max hp (value_spec.amp_le hp hA)

theorem worth_amp {A' : Nat} (h : Nat) (hp : p.cAmts ≠ []) (hA : A ≤ A') :
    p.worth A h ≤ p.worth A' h := by
  unfold worth
  have : (p.value A : ℚ) ≤ p.value A' := by exact_mod_cast value_amp hp hA
  gcongr

theorem value_congr {q : CurvePool} (h : q.cAmts = p.cAmts) : q.value A = p.value A := by
  unfold value
  rw [h]

end value

/-- From the comparison of the invariants to that of their parts. -/
theorem part_of {h k m v w S T : Nat} (h0 : 0 < h) (hS : h ≤ S) (hT : h ≤ T)
    (hv : v * T ≤ (w + k) * S + m * T) :
    (h : ℚ) * v / S ≤ h * w / T + (k + m : Nat) := by
  have p0 : (0 : ℚ) < S := by exact_mod_cast (by omega : 0 < S)
  have q0 : (0 : ℚ) < T := by exact_mod_cast (by omega : 0 < T)
  have hp' : (h : ℚ) ≤ S := by exact_mod_cast hS
  have hq' : (h : ℚ) ≤ T := by exact_mod_cast hT
  have hv' : (v : ℚ) * T ≤ (w + k) * S + m * T := by exact_mod_cast hv
  have h1 : (v : ℚ) / S ≤ (w + k) / T + m / S := by
    rw [div_add_div _ _ q0.ne' p0.ne', div_le_div_iff₀ p0 (by positivity)]
    nlinarith
  have h2 : (h : ℚ) * (k / T) ≤ k := by
    rw [← mul_div_assoc, div_le_iff₀ q0, mul_comm]
    exact mul_le_mul_of_nonneg_left hq' (by positivity)
  have h3 : (h : ℚ) * (m / S) ≤ m := by
    rw [← mul_div_assoc, div_le_iff₀ p0, mul_comm]
    exact mul_le_mul_of_nonneg_left hp' (by positivity)
  have h4 := mul_le_mul_of_nonneg_left h1 (by positivity : (0 : ℚ) ≤ h)
  rw [mul_div_assoc, mul_div_assoc]
  push_cast
  rw [add_div] at h4
  linarith

/-- From the comparison of the invariants to that of the worth. -/
theorem worth_of {A h k m : Nat} {p q : CurvePool} (h0 : 0 < h) (hp : h ≤ p.supply)
    (hq : h ≤ q.supply)
    (hv : p.value A * q.supply ≤ (q.value A + k) * p.supply + m * q.supply) :
    p.worth A h ≤ q.worth A h + (k + m : Nat) := part_of h0 hp hq hv

section ops
variable {A B c h : Nat} {p q : CurvePool} {env : CurveEnv}

theorem Tame.length (t : Tame A B c p) : 1 ≤ p.cAmts.length :=
  List.length_pos_iff.2 t.some

theorem Tame.size_le (t : Tame A B c p) : B ≤ p.value A := value_max t.some t.size

theorem Tame.sum_ne (t : Tame A B c p) (hB : 0 < B) : p.cAmts.sum ≠ 0 := by
  have := t.size.le_holdings t.some
  omega

theorem Tame.inv_amp (t : Tame A B c p) (ha : AmpIs A env.now p) (hB : 0 < B) {D : Nat}
    (h : (p.inv env).dWithRates p.cAmts = .ok D) :
    (p.inv env).amp = .ok A ∧ computeD 256 (.ok A) p.cAmts = .ok D := by
  have hk : (p.inv env).kind = .stable := t.kind
  unfold Inv.dWithRates rateBalances at h
  rw [hk] at h
  have h : computeD 256 (p.inv env).amp p.cAmts = .ok D := h
  obtain ⟨a, ha', -⟩ := computeD_low h (t.sum_ne hB)
  have := ha a ha'
  subst this
  rw [ha'] at h
  exact ⟨ha', h⟩

/-- How far the computed invariant is from the exact one. -/
theorem Tame.computed (t : Tame A B c p) {D : Nat} (hc : 1 ≤ c)
    (hB : 8 * p.cAmts.length * (p.cAmts.length * c ^ p.cAmts.length) ≤ B)
    (h : computeD 256 (.ok A) p.cAmts = .ok D) :
    p.value A ≤ D ∧ D ≤ p.value A + dError p.cAmts.length c := by
  have hn := t.length
  have hpos : 0 < p.cAmts.length * c ^ p.cAmts.length := by positivity
  have hB0 : 0 < B := by nlinarith
  obtain ⟨h1, h2⟩ := C71_invariant h (t.sum_ne hB0) hc value_spec (value_succ t.some)
    (fun x hx => (t.even x hx).trans (Nat.mul_le_mul_left _ t.size_le)) (hB.trans t.size_le)
  unfold dError
  exact ⟨h1, by omega⟩

theorem Tame.inv_of (t : Tame A B c p) {cs : List Nat} {D : Nat} (ha : (p.inv env).amp = .ok A)
    (h : (p.inv env).dWithRates cs = .ok D) : computeD 256 (.ok A) cs = .ok D := by
  have hk : (p.inv env).kind = .stable := t.kind
  unfold Inv.dWithRates rateBalances at h
  rw [hk, ha] at h
  exact h

/-- The size that makes the rounding of Newton's method small. -/
def Room (n B c : Nat) : Prop := 1 ≤ c ∧ 8 * n * (n * c ^ n) ≤ B

theorem Room.pos {n : Nat} (hr : Room n B c) (hn : 1 ≤ n) : 0 < B := by
  obtain ⟨hc, hB⟩ := hr
  have hpos : 0 < n * c ^ n := by positivity
  nlinarith

/-- A swap. -/
theorem swap_worth {ti tout : AccountId} {a mo out : Nat} {fees : AdminFees}
    (tp : Tame A B c p) (tq : Tame A B c q) (hroom : Room p.cAmts.length B c)
    (hamp : AmpIs A env.now p) (hb : fees.adminFeeBps ≤ 10000) (h0 : 0 < h) (hp : h ≤ p.supply) (hq : h ≤ q.supply)
    (hs : p.swap ti a tout mo fees env false = .ok (q, out)) :
    p.worth A h ≤ q.worth A h + opLoss p.cAmts.length c := by
  have hn := tp.length
  have hB0 := hroom.pos hn
  obtain ⟨hc, hB⟩ := hroom
  obtain ⟨i, o, di, do_, A', D, cin, xi, xo, inn, gross, fee, paid, co, -, -, -, -, -, hA, hD, -⟩ :=
    C32_swap_keeps_curve hs
  have hAA := hamp A' hA
  subst hAA
  have hrated : p.rated env = p.cAmts := by unfold rated; rw [tp.kind]
  rw [hrated, tp.kind] at hD
  have hD : computeD 256 (.ok A') p.cAmts = .ok D := hD
  have hlen : q.cAmts.length = p.cAmts.length := by
    obtain ⟨i, o, xi, xo, x, y, sw, -, -, -, -, -, -, e, -⟩ := stable_swap_reserves tp.kind hs
    rw [e]; simp
  obtain ⟨hlo, -⟩ := tp.computed hc hB hD
  have hBD : B ≤ D := tp.size_le.trans hlo
  have hM : ∀ b ∈ q.cAmts, b ≤ c * D := by
    intro b hb
    have h1 := tq.even b hb
    have h2 : b * 1 ≤ b * q.cAmts.length := Nat.mul_le_mul_left _ tq.length
    have h3 : c * B ≤ c * D := Nat.mul_le_mul_left _ hBD
    omega
  have hroom : p.cAmts.length * (p.cAmts.length + 1) * c ^ (p.cAmts.length - 1) ≤ 2 * D := by
    have h1 : c ^ (p.cAmts.length - 1) ≤ c ^ p.cAmts.length := Nat.pow_le_pow_right hc (by omega)
    have h2 : p.cAmts.length * (p.cAmts.length + 1) ≤ 8 * p.cAmts.length * p.cAmts.length := by nlinarith
    calc p.cAmts.length * (p.cAmts.length + 1) * c ^ (p.cAmts.length - 1)
        ≤ 8 * p.cAmts.length * p.cAmts.length * c ^ p.cAmts.length := Nat.mul_le_mul h2 h1
      _ = 8 * p.cAmts.length * (p.cAmts.length * c ^ p.cAmts.length) := by ring
      _ ≤ 2 * D := by omega
  have hk : c ^ (p.cAmts.length - 1) ≤ dError p.cAmts.length c := by
    have h1 : c ^ (p.cAmts.length - 1) ≤ c ^ p.cAmts.length := Nat.pow_le_pow_right hc (by omega)
    have h2 : 1 * c ^ p.cAmts.length ≤ 2 * p.cAmts.length * c ^ p.cAmts.length :=
      Nat.mul_le_mul_right _ (by omega)
    unfold dError
    omega
  have key : p.value A' * q.supply ≤ (q.value A' + dError p.cAmts.length c) * p.supply +
      dError p.cAmts.length c * q.supply := by
    obtain ⟨_, _, _, _, _, _, _, _, -, -, -, -, -, -, -, -, -, -, hsup⟩ := C35_swap_fee_split hb hs
    rcases hsup with hsup | ⟨_, d1, _, -, hd1, -, -, -, -⟩
    · have h1 := value_max tq.some (C64_swap tp.kind hs hA hD hc hM hroom value_spec)
      have h2 : p.value A' ≤ q.value A' + dError p.cAmts.length c := by omega
      rw [hsup]
      have := Nat.mul_le_mul_right p.supply h2
      omega
    · have hD' := tp.inv_of hA hd1
      have h1 := C64_share_value tp.kind hs hA hD hc hM hroom hb value_spec hD'
      have h2 := (tq.computed hc (by rw [hlen]; exact hB) hD').2
      rw [hlen] at h2
      have h3 := Nat.mul_le_mul_right p.supply h2
      have h4 := Nat.mul_le_mul_right q.supply hk
      rw [Nat.sub_mul] at h1
      omega
  have := worth_of h0 hp hq key
  refine this.trans ?_
  unfold opLoss
  push_cast
  have : (0 : ℚ) ≤ c := by positivity
  linarith

/-- A deposit of liquidity. -/
theorem addLiquidity_worth {s : AccountId} {am : List Nat} {mn n : Nat} {fees : AdminFees}
    (tp : Tame A B c p) (tq : Tame A B c q) (hroom : Room p.cAmts.length B c) (hsound : p.Sound)
    (hamp : AmpIs A env.now p) (hb : fees.adminFeeBps ≤ 10000) (h0 : 0 < h) (hp : h ≤ p.supply) (hq : h ≤ q.supply)
    (hlen : q.cAmts.length = p.cAmts.length)
    (hs : p.addLiquidity s am mn fees env false = .ok (q, n)) :
    p.worth A h ≤ q.worth A h + opLoss p.cAmts.length c := by
  have hB0 := hroom.pos tp.length
  obtain ⟨hc, hB⟩ := hroom
  obtain ⟨d0, d1, g0, g1, -, hle, -⟩ := C51_add_not_dilutive hsound (by omega) hb hs
  obtain ⟨ha, hd0⟩ := tp.inv_amp hamp hB0 g0
  have hd1 := tp.inv_of ha g1
  have h1 := (tp.computed hc hB hd0).1
  have h2 := (tq.computed hc (by rw [hlen]; exact hB) hd1).2
  rw [hlen] at h2
  have key : p.value A * q.supply ≤ (q.value A + dError p.cAmts.length c) * p.supply +
      0 * q.supply := by
    have h3 := Nat.mul_le_mul_right q.supply h1
    have h4 := Nat.mul_le_mul_right p.supply h2
    omega
  refine (worth_of h0 hp hq key).trans ?_
  unfold opLoss
  push_cast
  have : (0 : ℚ) ≤ c := by positivity
  have : (0 : ℚ) ≤ dError p.cAmts.length c := by positivity
  linarith

/-- A withdrawal of given amounts. -/
theorem removeByTokens_worth {s : AccountId} {am : List Nat} {mb n : Nat} {fees : AdminFees}
    (tp : Tame A B c p) (tq : Tame A B c q) (hroom : Room p.cAmts.length B c) (hsound : p.Sound)
    (hamp : AmpIs A env.now p) (hb : fees.adminFeeBps ≤ 10000) (h0 : 0 < h) (hp : h ≤ p.supply) (hq : h ≤ q.supply)
    (hlen : q.cAmts.length = p.cAmts.length)
    (hs : p.removeByTokens s am mb fees env false = .ok (q, n)) :
    p.worth A h ≤ q.worth A h + opLoss p.cAmts.length c := by
  have hB0 := hroom.pos tp.length
  obtain ⟨hc, hB⟩ := hroom
  obtain ⟨d0, d1, g0, g1, -, hle, -⟩ := C51_remove_tokens_not_dilutive hsound hb hs
  obtain ⟨ha, hd0⟩ := tp.inv_amp hamp hB0 g0
  have hd1 := tp.inv_of ha g1
  obtain ⟨h1, h1'⟩ := tp.computed hc hB hd0
  have h2 := (tq.computed hc (by rw [hlen]; exact hB) hd1).2
  rw [hlen] at h2
  have key : p.value A * q.supply ≤ (q.value A + opLoss p.cAmts.length c) * p.supply +
      0 * q.supply := by
    have h3 := Nat.mul_le_mul_right q.supply h1
    have h4 := Nat.mul_le_mul_right p.supply h2
    have h5 : d0 ≤ (c + dError p.cAmts.length c) * p.supply := by
      have h6 := (value_le (A := A) (p := p)).trans tp.price
      have h7 : dError p.cAmts.length c * 1 ≤ dError p.cAmts.length c * p.supply :=
        Nat.mul_le_mul_left _ (by omega)
      rw [Nat.add_mul]
      omega
    unfold opLoss
    have h8 : (q.value A + (2 * dError p.cAmts.length c + c)) * p.supply =
      (q.value A + dError p.cAmts.length c) * p.supply +
        (c + dError p.cAmts.length c) * p.supply := by ring
    omega
  simpa using worth_of h0 hp hq key

/-- A withdrawal in proportion. -/
theorem removeByShares_worth {s : AccountId} {n : Nat} {mins paid : List Nat}
    (tp : Tame A B c p) (hA : 1 ≤ A) (h0 : 0 < h) (hp : h ≤ p.supply)
    (hq : h ≤ q.supply) (hs : p.removeByShares s n mins false = .ok (q, paid)) :
    p.worth A h ≤ q.worth A h + opLoss p.cAmts.length c := by
  obtain ⟨-, hn, hsup, hl, -⟩ := removeByShares_ok hs
  obtain ⟨hlen, -, -, hall⟩ := removeLoop_ok hl
  have hne : q.cAmts ≠ [] := by
    intro e
    rw [e] at hlen
    exact tp.some (List.length_eq_zero_iff.1 hlen.symm)
  have hS : 0 < p.supply := by omega
  have hcur : OnOrAboveCurve A (q.supply * p.value A / p.supply) q.cAmts 0 := by
    refine (value_spec (A := A) (p := p)).ratio (M := q.supply) (N := p.supply) ?_ hS ?_ ?_
    · have := tp.length
      have : 0 < A * p.cAmts.length ^ p.cAmts.length := by positivity
      omega
    · rw [List.forall₂_iff_get]
      refine ⟨hlen.symm, fun j h1 h2 => ?_⟩
      simp only [List.get_eq_getElem]
      obtain ⟨_, _, _, -, -, -, hle, hnew, -⟩ := hall j _ (List.getElem?_eq_getElem h1)
      rw [List.getElem?_eq_getElem h2, Option.some.injEq] at hnew
      rw [hnew, hsup]
      generalize p.cAmts[j] = x at *
      have h3 := Nat.div_mul_le_self (x * n) p.supply
      rw [Nat.mul_sub, Nat.sub_mul, Nat.mul_comm p.supply (x * n / p.supply), Nat.mul_comm n x]
      omega
    · exact Nat.mul_div_le _ _
  have h1 := value_max hne hcur
  have key : p.value A * q.supply ≤ (q.value A + 1) * p.supply + 0 * q.supply := by
    have h2 := Nat.lt_mul_div_succ (q.supply * p.value A) hS
    have h3 := Nat.mul_le_mul_left p.supply (Nat.succ_le_succ h1)
    rw [Nat.mul_comm (p.value A), Nat.mul_comm (q.value A + 1)]
    simp only [Nat.succ_eq_add_one] at h3
    omega
  refine (worth_of h0 hp hq key).trans ?_
  have : (1 : ℚ) ≤ opLoss p.cAmts.length c := by
    have : 1 ≤ opLoss p.cAmts.length c := by unfold opLoss dError; omega
    exact_mod_cast this
  push_cast
  linarith

end ops
end CurvePool
end Verif

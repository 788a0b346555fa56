import Verif.Curve.RatedValue
import Verif.Curve.Worth

/-
What shares of a rated or degen pool are worth, in units of the pool's invariant at given rates, and
how the operations of the pool change it.
-/

namespace Verif
namespace CurvePool

/-- The reserves in the units of the curve, at the rates or prices `rs`. -/
def atRates (rs : List Nat) (p : CurvePool) : List Nat := p.rated ⟨0, rs, true⟩

/-- The exact invariant at the rates `rs`, rounded down to whole units. -/
def ratedValue (A : Nat) (rs : List Nat) (p : CurvePool) : Nat :=
  Nat.findGreatest (fun E => OnOrAboveCurve A E (p.atRates rs) 0) (p.atRates rs).sum

/-- What `h` shares of the pool are worth at the rates `rs`: their part of the invariant. -/
def ratedWorth (A : Nat) (rs : List Nat) (h : Nat) (p : CurvePool) : ℚ :=
  h * p.ratedValue A rs / p.supply

/-- The pool is of ordinary size and shape: with the amplification `A` it is worth at least `B` units,
no reserve exceeds `c` times an even part of `B` or falls below `6 / c` of `B`, and a share is worth at
most `c` units. No rate exceeds `g`. -/
structure RatedTame (A B c g : Nat) (rs : List Nat) (p : CurvePool) : Prop where
  kind : p.kind ≠ .stable
  len : rs.length = p.cAmts.length
  some : p.cAmts ≠ []
  size : OnOrAboveCurve A B (p.atRates rs) 0
  even : ∀ x ∈ p.atRates rs, x * p.cAmts.length + 2 * g ≤ c * B
  low : ∀ x ∈ p.atRates rs, 6 * B ≤ c * x
  price : (p.atRates rs).sum ≤ c * p.supply
  rate : ∀ r ∈ rs, r ≤ g * PRECISION

/-- The size that makes the rounding small. -/
def RatedRoom (n B c g : Nat) : Prop :=
  1 ≤ c ∧ 8 * n * (n * c ^ n) ≤ B ∧ n * (n + 1) * (c ^ 2) ^ (n - 1) ≤ 2 * B ∧
    5 * dError n c + 10 * g * c ^ 2 ≤ B

/-- The units that an operation may take from the worth of any number of shares. -/
def ratedLoss (n c g : Nat) : Nat :=
  2 * dError n c + (c ^ 2) ^ (n - 1) + 2 * (g + 1) * c ^ 2

section value
variable {A E : Nat} {rs : List Nat} {p : CurvePool}

theorem rated_eq_atRates (env : CurveEnv) : p.rated env = p.atRates env.rates := by
  unfold atRates
  exact rated_congr _ rfl

theorem atRates_zip (hk : p.kind ≠ .stable) :
    p.atRates rs = List.zipWith (fun c r => c * r / PRECISION) p.cAmts rs := by
  unfold atRates rated
  cases h : p.kind <;> simp_all

theorem ratedValue_spec : OnOrAboveCurve A (p.ratedValue A rs) (p.atRates rs) 0 :=
  Nat.findGreatest_spec (P := fun E => OnOrAboveCurve A E (p.atRates rs) 0) (Nat.zero_le _) (.zero _ _)

theorem ratedValue_max (hp : p.atRates rs ≠ []) (h : OnOrAboveCurve A E (p.atRates rs) 0) :
    E ≤ p.ratedValue A rs :=
  Nat.le_findGreatest (h.le_holdings hp) h

theorem ratedValue_le : p.ratedValue A rs ≤ (p.atRates rs).sum := Nat.findGreatest_le _

theorem ratedValue_succ (hp : p.atRates rs ≠ []) :
    ¬ OnOrAboveCurve A (p.ratedValue A rs + 1) (p.atRates rs) 0 := by
  intro h
  have := ratedValue_max hp h
  omega

theorem ratedValue_amp {A' : Nat} (hp : p.atRates rs ≠ []) (hA : A ≤ A') :
    p.ratedValue A rs ≤ p.ratedValue A' rs :=
  ratedValue_max hp (ratedValue_spec.amp_le hp hA)

theorem ratedWorth_amp {A' : Nat} (h : Nat) (hp : p.atRates rs ≠ []) (hA : A ≤ A') :
    p.ratedWorth A rs h ≤ p.ratedWorth A' rs h := by
  unfold ratedWorth
  have : (p.ratedValue A rs : ℚ) ≤ p.ratedValue A' rs := by exact_mod_cast ratedValue_amp hp hA
  gcongr

theorem ratedValue_congr {q : CurvePool} (h : q.cAmts = p.cAmts) (hk : q.kind = p.kind) :
    q.ratedValue A rs = p.ratedValue A rs := by
  unfold ratedValue atRates rated
  rw [h, hk]

end value

theorem _root_.Verif.sum_le_of_even {M n : Nat} : ∀ {xs : List Nat}, (∀ x ∈ xs, x * n ≤ M) →
    xs.sum * n ≤ xs.length * M := by
  intro xs
  induction xs with
  | nil => intro _; simp
  | cons x xs ih =>
    intro h
    have h1 := h x (List.mem_cons_self ..)
    have h2 := ih fun y hy => h y (List.mem_cons_of_mem _ hy)
    rw [List.sum_cons, List.length_cons, Nat.add_mul, Nat.add_mul]
    omega

section ops
variable {A B c g h : Nat} {rs : List Nat} {p q : CurvePool} {env : CurveEnv}

theorem RatedTame.length (t : RatedTame A B c g rs p) :
    (p.atRates rs).length = p.cAmts.length ∧ 1 ≤ p.cAmts.length := by
  rw [atRates_zip t.kind, List.length_zipWith, t.len]
  exact ⟨by omega, List.length_pos_iff.2 t.some⟩

theorem RatedTame.ne (t : RatedTame A B c g rs p) : p.atRates rs ≠ [] := by
  intro e
  have := t.length
  rw [e] at this
  simp at this
  omega

theorem RatedTame.size_le (t : RatedTame A B c g rs p) : B ≤ p.ratedValue A rs :=
  ratedValue_max t.ne t.size

theorem RatedTame.sum_ne (t : RatedTame A B c g rs p) (hB : 0 < B) : (p.atRates rs).sum ≠ 0 := by
  have := t.size.le_holdings t.ne
  omega

theorem RatedTame.sum_le (t : RatedTame A B c g rs p) : (p.atRates rs).sum ≤ c * B := by
  have h := sum_le_of_even (M := c * B) (n := p.cAmts.length) (xs := p.atRates rs)
    fun x hx => (Nat.le_add_right _ _).trans (t.even x hx)
  rw [t.length.1, Nat.mul_comm] at h
  exact Nat.le_of_mul_le_mul_left h t.length.2

theorem dWithRates_rated {s : CurvePool} {D : Nat} (hk : s.kind = p.kind)
    (ha : (p.inv env).amp = .ok A) (h : (p.inv env).dWithRates s.cAmts = .ok D) :
    computeD p.kind.width (.ok A) (s.atRates env.rates) = .ok D := by
  unfold Inv.dWithRates at h
  obtain ⟨zs, h1, h2⟩ := bind_ok.1 h
  have h3 := rated_of_rateBalances (p := s) (env := env) (xs := zs) (by rw [hk]; exact h1)
  rw [← rated_eq_atRates, ← h3, ← ha]
  exact h2

theorem RatedTame.inv_amp (t : RatedTame A B c g env.rates p) (hamp : AmpIs A env.now p) (hB : 0 < B)
    {D : Nat}
    (h : (p.inv env).dWithRates p.cAmts = .ok D) : (p.inv env).amp = .ok A := by
  unfold Inv.dWithRates at h
  obtain ⟨zs, h1, h2⟩ := bind_ok.1 h
  have h3 := rated_of_rateBalances (p := p) (env := env) (xs := zs) h1
  rw [rated_eq_atRates] at h3
  obtain ⟨a, ha, -⟩ := computeD_low h2 (by rw [h3]; exact t.sum_ne hB)
  have := hamp _ ha
  subst this
  exact ha

/-- How far the computed invariant is from the exact one. -/
theorem RatedTame.computed {w : Nat} (t : RatedTame A B c g rs p) {D : Nat} (hc : 1 ≤ c)
    (hB : 8 * p.cAmts.length * (p.cAmts.length * c ^ p.cAmts.length) ≤ B)
    (h : computeD w (.ok A) (p.atRates rs) = .ok D) :
    p.ratedValue A rs ≤ D ∧ D ≤ p.ratedValue A rs + dError p.cAmts.length c := by
  obtain ⟨hl, hn⟩ := t.length
  have hpos : 0 < p.cAmts.length * c ^ p.cAmts.length := by positivity
  have hB0 : 0 < B := by nlinarith
  obtain ⟨h1, h2⟩ := C71_invariant h (t.sum_ne hB0) hc ratedValue_spec (ratedValue_succ t.ne)
    (fun x hx => by
      rw [hl]
      exact (Nat.le_add_right _ _).trans ((t.even x hx).trans (Nat.mul_le_mul_left _ t.size_le)))
    (by rw [hl]; exact hB.trans t.size_le)
  rw [hl] at h2
  unfold dError
  exact ⟨h1, by omega⟩

theorem RatedRoom.pos {n : Nat} (hr : RatedRoom n B c g) (hn : 1 ≤ n) : 0 < B := by
  obtain ⟨hc, hB, -⟩ := hr
  have hpos : 0 < n * c ^ n := by positivity
  nlinarith

/-- A swap. -/
theorem swap_ratedWorth {ti tout : AccountId} {a mo out : Nat} {fees : AdminFees}
    (tp : RatedTame A B c g env.rates p) (tq : RatedTame A B c g env.rates q)
    (hroom : RatedRoom p.cAmts.length B c g) (hkind : q.kind = p.kind)
    (hlen : q.cAmts.length = p.cAmts.length) (hamp : AmpIs A env.now p)
    (hb : fees.adminFeeBps ≤ 8000) (h0 : 0 < h) (hp : h ≤ p.supply) (hq : h ≤ q.supply)
    (hs : p.swap ti a tout mo fees env false = .ok (q, out)) :
    p.ratedWorth A env.rates h ≤ q.ratedWorth A env.rates h + ratedLoss p.cAmts.length c g := by
  obtain ⟨hl, hn⟩ := tp.length
  have hB0 := hroom.pos hn
  obtain ⟨hc, hB, hB2, hB3⟩ := hroom
  obtain ⟨i, o, di, do_, A', D, cin, xi, xo, inn, gross, fee, paid, co, -, -, -, -, -, hA, hD, -⟩ :=
    C32_swap_keeps_curve hs
  have hAA := hamp A' hA
  subst hAA
  have hc2 : 1 ≤ c ^ 2 := Nat.one_le_pow _ _ hc
  have hcc : c ≤ c ^ 2 := by nlinarith
  obtain ⟨hlo, hhi⟩ := tp.computed hc hB (by rw [← rated_eq_atRates]; exact hD)
  have hBD : B ≤ D := tp.size_le.trans hlo
  have hDs : D ≤ c * B + dError p.cAmts.length c := by
    have := (ratedValue_le (A := A') (rs := env.rates) (p := p)).trans tp.sum_le
    omega
  have hM : ∀ b ∈ q.rated env, b + 2 * g ≤ c ^ 2 * D ∧ 5 * (D + 2 * g * c ^ 2) ≤ c ^ 2 * b := by
    intro b hb
    rw [rated_eq_atRates] at hb
    have h1 := tq.even b hb
    have h2 : b * 1 ≤ b * q.cAmts.length := Nat.mul_le_mul_left _ tq.length.2
    have h3 : c * B ≤ c ^ 2 * D := Nat.mul_le_mul hcc hBD
    refine ⟨by omega, ?_⟩
    have h4 := Nat.mul_le_mul_left c (tq.low b hb)
    have h5 : c ^ 2 * b = c * (c * b) := by ring
    have h6 : 1 * B ≤ c * B := Nat.mul_le_mul_right _ hc
    have h7 : c * (6 * B) = 6 * (c * B) := by ring
    have h8 : 5 * (D + 2 * g * c ^ 2) = 5 * D + 10 * g * c ^ 2 := by ring
    omega
  have hroom : (p.rated env).length * ((p.rated env).length + 1) *
      (c ^ 2) ^ ((p.rated env).length - 1) ≤ 2 * D := by
    rw [rated_eq_atRates, hl]
    omega
  generalize hLdef : (c ^ 2) ^ (p.cAmts.length - 1) + 2 * g * c ^ 2 = L
  have key : p.ratedValue A' env.rates * q.supply ≤
      (q.ratedValue A' env.rates + dError p.cAmts.length c) * p.supply + L * q.supply := by
    obtain ⟨_, _, _, _, _, _, _, _, -, -, -, -, -, -, -, -, -, -, hsup⟩ :=
      C35_swap_fee_split (hb.trans (by decide)) hs
    rcases hsup with hsup | ⟨_, d1, _, -, hd1, -, -, -, -⟩
    · have h1 := C64_rated_swap (c := c ^ 2) (g := g) (E := p.ratedValue A' env.rates) tp.kind hs hA
        hD hc2 tp.rate (fun b hb => ⟨(hM b hb).1, by have := (hM b hb).2; omega⟩) hroom
        (by rw [rated_eq_atRates]; exact ratedValue_spec)
      rw [rated_eq_atRates, rated_eq_atRates, hl, hLdef] at h1
      have h2 := ratedValue_max tq.ne h1
      have h3 : p.ratedValue A' env.rates ≤ q.ratedValue A' env.rates + L := by omega
      rw [hsup]
      have h4 := Nat.mul_le_mul_right p.supply h3
      rw [Nat.add_mul] at h4 ⊢
      omega
    · have hD' := dWithRates_rated hkind hA hd1
      have h1 := C64_rated_share_value (c := c ^ 2) (g := g) (E := p.ratedValue A' env.rates) tp.kind
        hs hA hD hc2 tp.rate hM hroom hb (by rw [rated_eq_atRates]; exact ratedValue_spec)
        (by rw [rated_eq_atRates]; exact hD')
      rw [rated_eq_atRates, hl, hLdef] at h1
      have h2 := (tq.computed hc (by rw [hlen]; exact hB) hD').2
      rw [hlen] at h2
      have h3 := Nat.mul_le_mul_right p.supply h2
      rw [Nat.sub_mul] at h1
      omega
  refine (part_of h0 hp hq key).trans (add_le_add_right ?_ _)
  have : dError p.cAmts.length c + L ≤ ratedLoss p.cAmts.length c g := by
    unfold ratedLoss
    have : 2 * (g + 1) * c ^ 2 = 2 * g * c ^ 2 + 2 * c ^ 2 := by ring
    omega
  exact_mod_cast this

/-- A deposit of liquidity. -/
theorem addLiquidity_ratedWorth {s : AccountId} {am : List Nat} {mn n : Nat} {fees : AdminFees}
    (tp : RatedTame A B c g env.rates p) (tq : RatedTame A B c g env.rates q)
    (hroom : RatedRoom p.cAmts.length B c g) (hsound : p.Sound) (hkind : q.kind = p.kind)
    (hlen : q.cAmts.length = p.cAmts.length) (hamp : AmpIs A env.now p)
    (hb : fees.adminFeeBps ≤ 10000) (h0 : 0 < h) (hp : h ≤ p.supply) (hq : h ≤ q.supply)
    (hs : p.addLiquidity s am mn fees env false = .ok (q, n)) :
    p.ratedWorth A env.rates h ≤ q.ratedWorth A env.rates h + ratedLoss p.cAmts.length c g := by
  have hB0 := hroom.pos tp.length.2
  obtain ⟨hc, hB, -⟩ := hroom
  obtain ⟨d0, d1, g0, g1, -, hle, -⟩ := C51_add_not_dilutive hsound (by omega) hb hs
  have ha := tp.inv_amp hamp hB0 g0
  have h1 := (tp.computed hc hB (dWithRates_rated rfl ha g0)).1
  have h2 := (tq.computed hc (by rw [hlen]; exact hB) (dWithRates_rated hkind ha g1)).2
  rw [hlen] at h2
  have key : p.ratedValue A env.rates * q.supply ≤
      (q.ratedValue A env.rates + dError p.cAmts.length c) * p.supply + 0 * q.supply := by
    have h3 := Nat.mul_le_mul_right q.supply h1
    have h4 := Nat.mul_le_mul_right p.supply h2
    omega
  refine (part_of h0 hp hq key).trans (add_le_add_right ?_ _)
  have : dError p.cAmts.length c + 0 ≤ ratedLoss p.cAmts.length c g := by
    unfold ratedLoss
    omega
  exact_mod_cast this

/-- A withdrawal of given amounts. -/
theorem removeByTokens_ratedWorth {s : AccountId} {am : List Nat} {mb n : Nat} {fees : AdminFees}
    (tp : RatedTame A B c g env.rates p) (tq : RatedTame A B c g env.rates q)
    (hroom : RatedRoom p.cAmts.length B c g) (hsound : p.Sound) (hkind : q.kind = p.kind)
    (hlen : q.cAmts.length = p.cAmts.length) (hamp : AmpIs A env.now p)
    (hb : fees.adminFeeBps ≤ 10000) (h0 : 0 < h) (hp : h ≤ p.supply) (hq : h ≤ q.supply)
    (hs : p.removeByTokens s am mb fees env false = .ok (q, n)) :
    p.ratedWorth A env.rates h ≤ q.ratedWorth A env.rates h + ratedLoss p.cAmts.length c g := by
  have hB0 := hroom.pos tp.length.2
  obtain ⟨hc, hB, -⟩ := hroom
  obtain ⟨d0, d1, g0, g1, -, hle, -⟩ := C51_remove_tokens_not_dilutive hsound hb hs
  have ha := tp.inv_amp hamp hB0 g0
  obtain ⟨h1, h1'⟩ := tp.computed hc hB (dWithRates_rated rfl ha g0)
  have h2 := (tq.computed hc (by rw [hlen]; exact hB) (dWithRates_rated hkind ha g1)).2
  rw [hlen] at h2
  generalize hL : dError p.cAmts.length c = L at *
  have key : p.ratedValue A env.rates * q.supply ≤
      (q.ratedValue A env.rates + (2 * L + c)) * p.supply + 0 * q.supply := by
    have h3 := Nat.mul_le_mul_right q.supply h1
    have h4 := Nat.mul_le_mul_right p.supply h2
    have h5 : d0 ≤ (c + L) * p.supply := by
      have h6 := (ratedValue_le (A := A) (rs := env.rates) (p := p)).trans tp.price
      have h7 : L * 1 ≤ L * p.supply := Nat.mul_le_mul_left _ (by omega)
      rw [Nat.add_mul]
      omega
    have h8 : (q.ratedValue A env.rates + (2 * L + c)) * p.supply =
      (q.ratedValue A env.rates + L) * p.supply + (c + L) * p.supply := by ring
    omega
  refine (part_of h0 hp hq key).trans (add_le_add_right ?_ _)
  have : 2 * L + c + 0 ≤ ratedLoss p.cAmts.length c g := by
    unfold ratedLoss
    rw [hL]
    have : c ≤ c ^ 2 := by nlinarith
    have : 2 * (g + 1) * c ^ 2 = 2 * g * c ^ 2 + 2 * c ^ 2 := by ring
    omega
  exact_mod_cast this

/-- A withdrawal in proportion. -/
theorem removeByShares_ratedWorth {s : AccountId} {n : Nat} {mins paid : List Nat}
    (tp : RatedTame A B c g rs p) (tq : RatedTame A B c g rs q)
    (hroom : RatedRoom p.cAmts.length B c g) (hA : 1 ≤ A) (h0 : 0 < h) (hp : h ≤ p.supply)
    (hq : h ≤ q.supply) (hs : p.removeByShares s n mins false = .ok (q, paid)) :
    p.ratedWorth A rs h ≤ q.ratedWorth A rs h + ratedLoss p.cAmts.length c g := by
  have hB0 := hroom.pos tp.length.2
  obtain ⟨hc, hB, -, hB3⟩ := hroom
  obtain ⟨-, hn, hsup, hl, -⟩ := removeByShares_ok hs
  obtain ⟨hlen, -, -, hall⟩ := removeLoop_ok hl
  have hS : 0 < p.supply := by omega
  have hT : 0 < q.supply := by omega
  -- one unit is lost in the product with the rate; `N` is below every reserve
  generalize hN : 6 * B / c = N
  have hNx : ∀ x ∈ q.atRates rs, N ≤ x := by
    intro x hx
    rw [← hN]
    exact Nat.div_le_of_le_mul (tq.low x hx)
  have hN1 : 6 * B < c * (N + 1) := by
    rw [← hN]
    exact Nat.lt_mul_div_succ _ hc
  have hcB : c ≤ B := by
    have h1 : c ^ 1 ≤ c ^ p.cAmts.length := Nat.pow_le_pow_right hc tp.length.2
    rw [Nat.pow_one] at h1
    have h2 : 1 * c ^ p.cAmts.length ≤ 8 * p.cAmts.length * p.cAmts.length * c ^ p.cAmts.length :=
      Nat.mul_le_mul_right _ (by nlinarith [tp.length.2])
    have h3 : 8 * p.cAmts.length * (p.cAmts.length * c ^ p.cAmts.length) =
      8 * p.cAmts.length * p.cAmts.length * c ^ p.cAmts.length := by ring
    omega
  have hcN : 5 * B ≤ c * N := by
    rw [Nat.mul_add, Nat.mul_one] at hN1
    omega
  generalize hD' : N * q.supply * p.ratedValue A rs / ((N + 1) * p.supply) = D'
  have hden : 0 < (N + 1) * p.supply := by positivity
  have hcur : OnOrAboveCurve A D' (q.atRates rs) 0 := by
    refine (ratedValue_spec (A := A) (rs := rs) (p := p)).ratio (M := N * q.supply)
      (N := (N + 1) * p.supply) ?_ hden ?_ ?_
    · rw [tp.length.1]
      have := tp.length.2
      have : 0 < A * p.cAmts.length ^ p.cAmts.length := by positivity
      omega
    · rw [List.forall₂_iff_get]
      refine ⟨by rw [tp.length.1, tq.length.1, hlen], fun j h1 h2 => ?_⟩
      simp only [List.get_eq_getElem]
      have hy := hNx _ (List.getElem_mem h2)
      have hj : j < p.cAmts.length := by rw [← tp.length.1]; exact h1
      have hj' : j < q.cAmts.length := by rw [hlen]; exact hj
      have hjr : j < rs.length := by rw [tp.len]; exact hj
      obtain ⟨_, _, _, -, -, -, hle, hnew, -⟩ := hall j _ (List.getElem?_eq_getElem hj)
      rw [List.getElem?_eq_getElem hj', Option.some.injEq] at hnew
      have e1 : (p.atRates rs)[j] = p.cAmts[j] * rs[j] / PRECISION := by
        simp only [atRates_zip tp.kind, List.getElem_zipWith]
      have e2 : (q.atRates rs)[j] = q.cAmts[j] * rs[j] / PRECISION := by
        simp only [atRates_zip tq.kind, List.getElem_zipWith]
      have hx : q.supply * p.cAmts[j] ≤ p.supply * q.cAmts[j] := by
        rw [hnew, hsup]
        generalize p.cAmts[j] = x at *
        have h3 := Nat.div_mul_le_self (x * n) p.supply
        rw [Nat.mul_sub, Nat.sub_mul, Nat.mul_comm p.supply (x * n / p.supply), Nat.mul_comm n x]
        omega
      have hr : q.supply * (p.atRates rs)[j] ≤ p.supply * ((q.atRates rs)[j] + 1) := by
        rw [e1, e2]
        have hP : 0 < PRECISION := by decide
        have h3 := Nat.mul_div_le (p.cAmts[j] * rs[j]) PRECISION
        have h4 := (Nat.lt_mul_div_succ (q.cAmts[j] * rs[j]) hP).le
        refine Nat.le_of_mul_le_mul_left ?_ hP
        calc PRECISION * (q.supply * (p.cAmts[j] * rs[j] / PRECISION))
            = q.supply * (PRECISION * (p.cAmts[j] * rs[j] / PRECISION)) := by ring
          _ ≤ q.supply * (p.cAmts[j] * rs[j]) := Nat.mul_le_mul_left _ h3
          _ = q.supply * p.cAmts[j] * rs[j] := by ring
          _ ≤ p.supply * q.cAmts[j] * rs[j] := Nat.mul_le_mul_right _ hx
          _ = p.supply * (q.cAmts[j] * rs[j]) := by ring
          _ ≤ p.supply * (PRECISION * (q.cAmts[j] * rs[j] / PRECISION + 1)) :=
            Nat.mul_le_mul_left _ h4
          _ = PRECISION * (p.supply * (q.cAmts[j] * rs[j] / PRECISION + 1)) := by ring
      generalize (q.atRates rs)[j] = y at *
      generalize (p.atRates rs)[j] = x at *
      calc N * q.supply * x = N * (q.supply * x) := by ring
        _ ≤ N * (p.supply * (y + 1)) := Nat.mul_le_mul_left _ hr
        _ = p.supply * (N * y + N) := by ring
        _ ≤ p.supply * (N * y + y) := Nat.mul_le_mul_left _ (by omega)
        _ = (N + 1) * p.supply * y := by ring
    · rw [← hD']
      exact Nat.mul_div_le _ _
  have h1 := ratedValue_max tq.ne hcur
  have key : p.ratedValue A rs * q.supply ≤
      (q.ratedValue A rs + (1 + c ^ 2)) * p.supply + 0 * q.supply := by
    have h2 := (Nat.lt_mul_div_succ (N * q.supply * p.ratedValue A rs) hden).le
    rw [hD'] at h2
    have h3 := (ratedValue_le (A := A) (rs := rs) (p := q)).trans tq.sum_le
    have hN0 : 0 < N := by
      rcases Nat.eq_zero_or_pos N with e | e
      · subst e; omega
      · exact e
    generalize p.ratedValue A rs = v at *
    generalize q.ratedValue A rs = w at *
    have h4 : D' + 1 ≤ c ^ 2 * N := by
      have h5 := Nat.mul_le_mul_left c hcN
      have h6 : c * (c * N) = c ^ 2 * N := by ring
      have h7 : c * (5 * B) = 5 * (c * B) := by ring
      have h8 : 1 * 1 ≤ c * B := Nat.mul_le_mul hc hB0
      omega
    rw [Nat.zero_mul, Nat.add_zero]
    refine Nat.le_of_mul_le_mul_left ?_ hN0
    calc N * (v * q.supply) = N * q.supply * v := by ring
      _ ≤ (N + 1) * p.supply * (D' + 1) := h2
      _ = N * (p.supply * (D' + 1)) + p.supply * (D' + 1) := by ring
      _ ≤ N * (p.supply * (w + 1)) + p.supply * (c ^ 2 * N) :=
        Nat.add_le_add (Nat.mul_le_mul_left _ (Nat.mul_le_mul_left _ (by omega)))
          (Nat.mul_le_mul_left _ h4)
      _ = N * ((w + (1 + c ^ 2)) * p.supply) := by ring
  refine (part_of h0 hp hq key).trans (add_le_add_right ?_ _)
  have : 1 + c ^ 2 + 0 ≤ ratedLoss p.cAmts.length c g := by
    unfold ratedLoss dError
    have : 2 * (g + 1) * c ^ 2 = 2 * g * c ^ 2 + 2 * c ^ 2 := by ring
    omega
  exact_mod_cast this

end ops
end CurvePool
end Verif

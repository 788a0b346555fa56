import Verif.Curve.Live
import Verif.Exchange.Execute
import Verif.Exchange.ConcaveProps
import Verif.Curve.HoldingsProps
import Verif.Curve.Slope

/-
C91, stable pools: a swap of ordinary size is never refused. The steps of `swap`, each with the
conditions under which it has a result.
-/

namespace Verif

theorem forall₂_replicate_le {m : Nat} : ∀ {xs : List Nat}, (∀ x ∈ xs, m ≤ x) →
    List.Forall₂ (· ≤ ·) (List.replicate xs.length m) xs
  | [], _ => .nil
  | x :: xs, h => .cons (h x List.mem_cons_self)
      (forall₂_replicate_le fun y hy => h y (List.mem_cons_of_mem _ hy))

/-- Balances of at least `m` each are on or above the curve of `n m`. -/
theorem onOrAbove_least {A m : Nat} {xs : List Nat} (h : ∀ x ∈ xs, m ≤ x) :
    OnOrAboveCurve A (xs.length * m) xs 0 :=
  (OnOrAboveCurve.even A xs.length m).grow (forall₂_replicate_le h)

/-- The exact invariant. -/
theorem exists_exact {A m : Nat} {xs : List Nat} (hne : xs ≠ []) (h : ∀ x ∈ xs, m ≤ x) :
    ∃ E, xs.length * m ≤ E ∧ OnOrAboveCurve A E xs 0 ∧ ¬ OnOrAboveCurve A (E + 1) xs 0 := by
  by_contra hno
  have all : ∀ k, OnOrAboveCurve A (xs.length * m + k) xs 0 := by
    intro k
    induction k with
    | zero => exact onOrAbove_least h
    | succ k ih =>
      by_contra hc
      exact hno ⟨_, by omega, ih, hc⟩
  have h1 := (all (xs.sum + 1)).le_holdings hne
  omega

/-- Raising a balance does not leave the curve, also with slack. -/
theorem OnOrAboveCurve.raise_slack {A D i o a b b' e : Nat} {xs : List Nat} (hio : i ≠ o)
    (hi : i < xs.length) (ho : o < xs.length) (hb : b ≤ b') (he : e < D ^ (xs.length + 1))
    (h : OnOrAboveCurve A D ((xs.set i a).set o b) e) :
    OnOrAboveCurve A D ((xs.set i a).set o b') e := by
  rw [onOrAbove_iff hio hi ho] at *
  generalize xs.length ^ xs.length = nn at *
  generalize (othersOf i o xs 0).prod = P at *
  generalize (othersOf i o xs 0).sum = S at *
  generalize A * nn = ann at *
  generalize D ^ (xs.length + 1) = Γ at *
  have hK : nn * (a * b * P) ≤ nn * (a * b' * P) :=
    Nat.mul_le_mul_left _ (Nat.mul_le_mul_right _ (Nat.mul_le_mul_left _ hb))
  generalize nn * (a * b * P) = K at *
  generalize nn * (a * b' * P) = K' at *
  have hS : ann * (a + b + S) ≤ ann * (a + b' + S) := Nat.mul_le_mul_left _ (by omega)
  generalize ann * (a + b + S) = T at *
  generalize ann * (a + b' + S) = T' at *
  have hlt : ann * D * K < (T + D) * K := by omega
  have hlt : ann * D < T + D := Nat.lt_of_mul_lt_mul_right hlt
  obtain ⟨r, hr⟩ : ∃ r, T + D = ann * D + r := ⟨T + D - ann * D, by omega⟩
  obtain ⟨r', hr'⟩ : ∃ r', T' + D = ann * D + r' := ⟨T' + D - ann * D, by omega⟩
  rw [hr, Nat.add_mul] at h
  rw [hr', Nat.add_mul]
  have := Nat.mul_le_mul (show r ≤ r' by omega) hK
  omega

theorem depositBalances_set {o x a : Nat} : ∀ {xs : List Nat}, (∀ y ∈ xs, y < 2 ^ 128) →
    xs[o]? = some x → x + a < 2 ^ 128 →
    depositBalances xs ((xs.map fun _ => 0).set o a) = .ok (xs.set o (x + a)) := by
  have zero : ∀ {xs : List Nat}, (∀ y ∈ xs, y < 2 ^ 128) →
      depositBalances xs (xs.map fun _ => 0) = .ok xs := by
    intro xs
    induction xs with
    | nil => intro _; rfl
    | cons y ys ih =>
      intro h
      rw [List.map_cons]
      unfold depositBalances
      rw [addW_ok.2 ⟨by have := h y List.mem_cons_self; omega, rfl⟩, ok_bind,
        ih fun z hz => h z (List.mem_cons_of_mem _ hz), ok_bind, Nat.add_zero]
  intro xs
  induction xs generalizing o with
  | nil => intro _ h; simp at h
  | cons y ys ih =>
    intro h hx hw
    rw [List.map_cons]
    cases o with
    | zero =>
      simp only [List.length_cons, Nat.zero_lt_succ, List.getElem?_eq_getElem, List.getElem_cons_zero,
        Option.some.injEq] at hx
      subst hx
      simp only [List.set_cons_zero]
      unfold depositBalances
      rw [addW_ok.2 ⟨hw, rfl⟩, ok_bind, zero fun z hz => h z (List.mem_cons_of_mem _ hz), ok_bind]
    | succ o =>
      simp only [List.set_cons_succ]
      unfold depositBalances
      rw [addW_ok.2 ⟨by have := h y List.mem_cons_self; omega, rfl⟩, ok_bind,
        ih (fun z hz => h z (List.mem_cons_of_mem _ hz)) (by simpa using hx) hw, ok_bind, Nat.add_zero]

/-- Without a trade fee nothing is taken for the imbalance. -/
theorem feeBalances_zero {w n d0 d1 : Nat} (hn : 2 ≤ n) (hn' : 4 * n < 2 ^ 32) (hd : d0 ≠ 0) :
    ∀ {old new : List Nat}, old.length = new.length →
    (∀ x ∈ old, d1 * x < 2 ^ w ∧ d1 * x / d0 < 2 ^ 128) → (∀ x ∈ new, x < 2 ^ 128) →
    feeBalances w n ⟨0, 0⟩ d0 d1 old new = .ok new := by
  intro old
  induction old with
  | nil =>
    intro new hl _ _
    cases new with
    | nil => rfl
    | cons _ _ => cases hl
  | cons x xs ih =>
    intro new hl ho hb
    cases new with
    | nil => cases hl
    | cons y ys =>
      obtain ⟨h1, h2⟩ := ho x List.mem_cons_self
      have hy := hb y List.mem_cons_self
      unfold feeBalances
      rw [mulW_ok.2 ⟨h1, rfl⟩, ok_bind, divW_ok.2 ⟨hd, rfl⟩, ok_bind, fit_ok.2 ⟨h2, rfl⟩, ok_bind]
      simp only
      have hfee : ∀ {z}, z < 2 ^ 128 → CurveFees.normalizedTradeFee ⟨0, 0⟩ n z = .ok 0 := by
        intro z hz
        unfold CurveFees.normalizedTradeFee
        simp only
        rw [mulW_ok.2 ⟨by omega, rfl⟩, ok_bind, subW_ok.2 ⟨by omega, rfl⟩, ok_bind,
          mulW_ok.2 ⟨by omega, rfl⟩, ok_bind, divW_ok.2 ⟨by omega, rfl⟩, ok_bind, Nat.zero_mul,
          Nat.zero_div, u128Ratio_run hz (Nat.zero_le _) (by decide) (by decide), Nat.mul_zero, Nat.zero_div]
      generalize d1 * x / d0 = ideal at *
      rw [hfee (by split <;> omega), ok_bind, subW_ok.2 ⟨Nat.zero_le _, rfl⟩, ok_bind, Nat.sub_zero,
        ih (by simpa using hl) (fun z hz => ho z (List.mem_cons_of_mem _ hz))
          (fun z hz => hb z (List.mem_cons_of_mem _ hz)), ok_bind]

theorem OrdinarySize.n_small {w n ann c M : Nat} (h : OrdinarySize w n ann c M) : n < 128 := by
  have h1 : 2 ^ n ≤ n ^ n := Nat.pow_le_pow_left h.n2 n
  have h2 : n ^ n ≤ ann * n ^ n := Nat.le_mul_of_pos_left _ (by have := h.a2; omega)
  have h3 := h.wide
  exact (Nat.pow_lt_pow_iff_right (by decide : 1 < 2)).1 (by omega : 2 ^ n < 2 ^ 128)

/-- Giving the pool units of one token for shares has a result if the invariant rises. -/
theorem lpOne_runs {v : Inv} {A c M m o x adm supply : Nat} {xs : List Nat} (hk : v.kind = .stable)
    (hv : v.amp = .ok A) (h : OrdinarySize 256 xs.length (A * xs.length ^ xs.length) c M)
    (hx : xs[o]? = some x) (hS : xs.sum + adm ≤ M) (hm : ∀ y ∈ xs, m ≤ y)
    (hcm : 2 * M ≤ c * (m * xs.length)) (hcM : c * M < 2 ^ 128) (hsup : supply * (c + 1) < 2 ^ 128) :
    ∃ d0 d1, computeD 256 (.ok A) xs = .ok d0 ∧ computeD 256 (.ok A) (xs.set o (x + adm)) = .ok d1 ∧
      (d0 < d1 → ∃ s f, v.lpForDeposit ((xs.map fun _ => 0).set o adm) xs supply ⟨0, 0⟩ = .ok (s, f) ∧
        s ≤ supply * c) := by
  have hn2 := h.n2
  have hn128 := h.n_small
  have hM := h.sum
  have hMn : 2 * M ≤ xs.length * M := Nat.mul_le_mul_right _ hn2
  have hset := sum_set_one (a := x + adm) hx
  have hxm := hm x (List.mem_of_getElem? hx)
  have hm' : ∀ y ∈ xs.set o (x + adm), m ≤ y := by
    intro y hy
    rcases List.mem_or_eq_of_mem_set hy with hy | rfl
    · exact hm y hy
    · omega
  have hcm' : ∀ {y}, m ≤ y → 2 * M ≤ c * (y * xs.length) := fun hy =>
    hcm.trans (Nat.mul_le_mul_left _ (Nat.mul_le_mul_right _ hy))
  obtain ⟨d0, h0, p0, -⟩ := computeD_runs h (by omega) fun y hy => hcm' (hm y hy)
  have h' : OrdinarySize 256 (xs.set o (x + adm)).length
      (A * (xs.set o (x + adm)).length ^ (xs.set o (x + adm)).length) c M := by
    rw [List.length_set]; exact h
  obtain ⟨d1, h1, p1, l1⟩ := computeD_runs h' (by omega) (by
    intro y hy; rw [List.length_set]; exact hcm' (hm' y hy))
  refine ⟨d0, d1, h0, h1, fun hlt => ?_⟩
  have hne : xs ≠ [] := by rintro rfl; simp at hx
  have hd0 : xs.length * m ≤ d0 := computeD_max h0 hne (onOrAbove_least hm)
  have hd1 : d1 ≤ 2 * M := by omega
  have hdc : d1 ≤ c * d0 := by
    calc d1 ≤ c * (m * xs.length) := by omega
      _ ≤ c * d0 := Nat.mul_le_mul_left _ (by rw [Nat.mul_comm]; exact hd0)
  have hle : ∀ {y}, y ∈ xs → y ≤ M := fun hy => (List.le_sum_of_mem hy).trans (by omega)
  have hle' : ∀ {y}, y ∈ xs.set o (x + adm) → y ≤ M :=
    fun hy => (List.le_sum_of_mem hy).trans (by omega)
  have hprod : ∀ {a b : Nat}, a < 2 ^ 128 → b < 2 ^ 128 → a * b < 2 ^ 256 := by
    intro a b ha hb
    calc a * b < 2 ^ 128 * 2 ^ 128 := Nat.mul_lt_mul'' ha hb
      _ = 2 ^ 256 := by norm_num
  have hsup1 : supply < 2 ^ 128 :=
    lt_of_le_of_lt (Nat.le_mul_of_pos_right _ (Nat.succ_pos c)) hsup
  have hsc : supply * c < 2 ^ 128 := lt_of_le_of_lt (Nat.mul_le_mul_left _ (Nat.le_succ c)) hsup
  have hshare : ∀ {z}, z ≤ d1 → ∃ s, sharesFor 256 supply z d0 = .ok s ∧ s = supply * z / d0 ∧
      s ≤ supply * c := by
    intro z hz
    have hq : supply * z / d0 ≤ supply * c := by
      refine Nat.div_le_of_le_mul ?_
      calc supply * z ≤ supply * (c * d0) := Nat.mul_le_mul_left _ (by omega)
        _ = d0 * (supply * c) := by ring
    refine ⟨_, ?_, rfl, hq⟩
    unfold sharesFor
    rw [mulW_ok.2 ⟨hprod hsup1 (by omega), rfl⟩, ok_bind, divW_ok.2 ⟨by omega, rfl⟩, ok_bind]
    exact fit_ok.2 ⟨by omega, rfl⟩
  obtain ⟨s, hs, -, hsl⟩ := hshare (Nat.sub_le d1 d0)
  refine ⟨s, s - s, ?_, hsl⟩
  have hdr : ∀ ys, v.dWithRates ys = computeD 256 (.ok A) ys := by
    intro ys
    unfold Inv.dWithRates rateBalances
    simp only [hk, hv, ok_bind, CurveKind.width]
  unfold Inv.lpForDeposit
  simp only [hdr, hk, CurveKind.width]
  rw [h0, ok_bind, depositBalances_set (fun y hy => by have := hle hy; omega) hx
      (by have := hle' (List.mem_of_getElem? (List.getElem?_set_self (by
            exact (List.getElem?_eq_some_iff.1 hx).1))); omega), ok_bind, h1, ok_bind,
    assertE_true hlt, ok_bind, feeBalances_zero hn2 (by omega) (by omega) (by rw [List.length_set]) (by
      intro y hy
      have hyM := hle hy
      refine ⟨hprod (by omega) (by omega), ?_⟩
      refine lt_of_le_of_lt (Nat.div_le_of_le_mul ?_) hcM
      calc d1 * y ≤ c * d0 * M := Nat.mul_le_mul hdc hyM
        _ = d0 * (c * M) := by ring) (fun y hy => by have := hle' hy; omega), ok_bind, h1, ok_bind,
    subW_ok.2 ⟨by omega, rfl⟩, ok_bind, hs, ok_bind, ok_bind, hs, ok_bind,
    subW_ok.2 ⟨le_rfl, rfl⟩, ok_bind]

/-- The units above which the protocol's part of a fee is worth shares, in a pool of `n` tokens whose
largest balance is at most `c n / 2` times the smallest. -/
def feeFloor (n c : Nat) : Nat := (n + 1) * c * (6 + n + 2 * (n * (c * n) ^ n))

/-- A deposit of that many units of one token raises the computed invariant. -/
theorem computeD_rises {A c M m o x adm d0 d1 : Nat} {xs : List Nat} (hn : 2 ≤ xs.length) (hc : 1 ≤ c)
    (hx : xs[o]? = some x) (hS : xs.sum + adm ≤ M) (hm : ∀ y ∈ xs, m ≤ y) (hm0 : 0 < m)
    (hcm : 2 * M ≤ c * (m * xs.length)) (hroom : 8 * (xs.length * (c * xs.length) ^ xs.length) ≤ m)
    (h0 : computeD 256 (.ok A) xs = .ok d0) (h1 : computeD 256 (.ok A) (xs.set o (x + adm)) = .ok d1)
    (hadm : feeFloor xs.length c ≤ adm) : d0 < d1 := by
  have hne : xs ≠ [] := by rintro rfl; simp at hx
  have hol : o < xs.length := (List.getElem?_eq_some_iff.1 hx).1
  have hle : ∀ {y}, y ∈ xs → y ≤ M := fun hy => (List.le_sum_of_mem hy).trans (by omega)
  obtain ⟨E, hE0, hE, hE'⟩ := exists_exact (A := A) hne hm
  have hS0 : xs.sum ≠ 0 := by
    have := hm x (List.mem_of_getElem? hx)
    have := List.le_sum_of_mem (List.mem_of_getElem? hx)
    omega
  have hcn : 1 ≤ c * xs.length := Nat.mul_pos hc (by omega)
  have htop := computeD_top (c := c * xs.length) h0 hS0 hcn hE hE' (by
    intro y hy
    have h2 : 2 * (y * xs.length) ≤ c * xs.length * (xs.length * m) := by
      calc 2 * (y * xs.length) = 2 * y * xs.length := by ring
        _ ≤ 2 * M * xs.length := Nat.mul_le_mul_right _ (Nat.mul_le_mul_left _ (hle hy))
        _ ≤ c * (m * xs.length) * xs.length := Nat.mul_le_mul_right _ hcm
        _ = _ := by ring
    have h3 : c * xs.length * (xs.length * m) ≤ c * xs.length * E := Nat.mul_le_mul_left _ hE0
    omega) (by
    calc 8 * xs.length * (xs.length * (c * xs.length) ^ xs.length)
        = xs.length * (8 * (xs.length * (c * xs.length) ^ xs.length)) := by ring
      _ ≤ xs.length * m := Nat.mul_le_mul_left _ hroom
      _ ≤ E := hE0)
  have hd0 : xs.length * m ≤ d0 := computeD_max h0 hne (onOrAbove_least hm)
  have hEd : E ≤ d0 := computeD_max h0 hne hE
  have hg : (xs.set o (x + adm))[o]? = some (x + adm) := List.getElem?_set_self hol
  unfold feeFloor at hadm
  generalize hk : 6 + xs.length + 2 * (xs.length * (c * xs.length) ^ xs.length) = k at *
  have hk1 : d0 + 1 - E < k := by omega
  have hnc : k ≤ (xs.length + 1) * c * k := Nat.le_mul_of_pos_left _ (Nat.mul_pos (Nat.succ_pos _) hc)
  by_contra hno
  have hF : ¬ OnOrAboveCurve A (d0 + 1) (xs.set o (x + adm)) 0 := by
    intro hc
    have := computeD_max h1 (by intro e; rw [e] at hg; simp at hg) hc
    omega
  have hself : xs.set o x = xs := by
    obtain ⟨hl, rfl⟩ := List.getElem?_eq_some_iff.1 hx
    exact List.set_getElem_self hl
  have hs := OnOrAboveCurve.slope (y := x) (E := E) hg (by omega)
    (by rw [List.set_set, hself]; exact hE) hF (by omega)
  rw [List.length_set, Nat.add_sub_cancel_left] at hs
  rcases hs with hs | hs
  · omega
  · have hxM : x + adm ≤ M := by
      have := List.le_sum_of_mem (List.mem_of_getElem? hx)
      omega
    have hlo : xs.length * m * ((xs.length + 1) * c * k) ≤ (d0 + 1) * adm :=
      Nat.mul_le_mul (by omega) hadm
    have hhi : 2 * ((xs.length + 1) * (x + adm) * (d0 + 1 - E)) ≤ (xs.length + 1) * (c * (m * xs.length)) * (k - 1) := by
      calc 2 * ((xs.length + 1) * (x + adm) * (d0 + 1 - E))
          = (xs.length + 1) * (2 * (x + adm)) * (d0 + 1 - E) := by ring
        _ ≤ (xs.length + 1) * (c * (m * xs.length)) * (k - 1) :=
          Nat.mul_le_mul (Nat.mul_le_mul_left _ (by omega)) (by omega)
    have hmono : (xs.length + 1) * (c * (m * xs.length)) * (k - 1) ≤
        xs.length * m * ((xs.length + 1) * c * k) := by
      calc _ ≤ (xs.length + 1) * (c * (m * xs.length)) * k := Nat.mul_le_mul_left _ (Nat.sub_le _ _)
        _ = _ := by ring
    have hpos : 0 < xs.length * m * ((xs.length + 1) * c * k) := by
      have hk0 : 0 < k := by omega
      positivity
    omega

namespace CurvePool

/-- **C91**, stable pools. A swap is never refused if: the pool holds both tokens; all balances with
the input are at most `M`, and the smallest, before and after, is at least `m`; the sizes are
ordinary; the exact curve lets go of at least two units of the other token (`t` is on or above it)
and keeps at least `m` of it; and the protocol's part of the fee is nothing or at least
`feeFloor` units. -/
theorem C91_swap_stable {p : CurvePool} {ti tout : AccountId} {a A D c M m t i o di do_ x xi xo : Nat}
    {fees : AdminFees} {env : CurveEnv} (hp : p.Sound) (hk : p.kind = .stable) (hne : ti ≠ tout)
    (hti : p.tokenIndex ti = .ok i) (hto : p.tokenIndex tout = .ok o)
    (hdi : p.decs[i]? = some di) (hdo : p.decs[o]? = some do_)
    (hxi : p.cAmts[i]? = some xi) (hxo : p.cAmts[o]? = some xo)
    (hA : (p.inv env).amp = .ok A) (hx : amountToC .stable di a = .ok x)
    (hpay : xo * CurveKind.tokPerC .stable do_ < 2 ^ 128)
    (hsize : OrdinarySize 256 p.cAmts.length (A * p.cAmts.length ^ p.cAmts.length) c M)
    (hsum : p.cAmts.sum + x ≤ M) (hmin : ∀ y ∈ p.cAmts, m ≤ y) (hm : 10 ^ 15 ≤ m)
    (hcm : 2 * M ≤ c * (m * p.cAmts.length)) (hcM : c * M < 2 ^ 128)
    (hroom : 8 * (p.cAmts.length * (c * p.cAmts.length) ^ p.cAmts.length) ≤ m)
    (hD : computeD 256 (.ok A) p.cAmts = .ok D)
    (ht0 : 0 < t) (ht : t + 2 ≤ xo) (htop : OnOrAboveCurve A D ((p.cAmts.set i (xi + x)).set o t) 0)
    (hlow : ¬ OnOrAboveCurve A D ((p.cAmts.set i (xi + x)).set o m)
      (D * ((p.cAmts.length - 1) * ((xi + x) * (2 * M) ^ (p.cAmts.length - 2)))))
    (hslack : D * ((p.cAmts.length - 1) * ((xi + x) * (2 * M) ^ (p.cAmts.length - 2))) <
      D ^ (p.cAmts.length + 1))
    (hb : fees.adminFeeBps ≤ 10000) (href : fees.referral = none)
    (hsup : p.supply * (c + 1) < 2 ^ 128)
    (hfee : fees.adminFeeBps = 0 ∨ p.totalFee = 0 ∨ feeFloor p.cAmts.length c ≤
      (xo - t - 3) * p.totalFee / 10000 * fees.adminFeeBps / 10000) :
    ∃ q out, p.swap ti a tout 0 fees env true = .ok (q, out) := by
  have hn2 := hsize.n2
  have hM := hsize.sum
  have hMn : 2 * M ≤ p.cAmts.length * M := Nat.mul_le_mul_right _ hn2
  have hil : i < p.cAmts.length := (List.getElem?_eq_some_iff.1 hxi).1
  have hol : o < p.cAmts.length := (List.getElem?_eq_some_iff.1 hxo).1
  have hio : i ≠ o := by
    rintro rfl
    have h1 := tokenIndex_ok hti
    have h2 := tokenIndex_ok hto
    rw [h1] at h2
    exact hne (Option.some.inj h2)
  have hle : ∀ {y}, y ∈ p.cAmts → y ≤ M := fun hy => (List.le_sum_of_mem hy).trans (by omega)
  have hcm' : ∀ {y}, m ≤ y → 2 * M ≤ c * (y * p.cAmts.length) := fun hy =>
    hcm.trans (Nat.mul_le_mul_left _ (Nat.mul_le_mul_right _ hy))
  have hxim := hmin xi (List.mem_of_getElem? hxi)
  have hxom := hmin xo (List.mem_of_getElem? hxo)
  have hxoM := hle (List.mem_of_getElem? hxo)
  have htwo := (othersOf_two (a := xi) (b := xo) hio hil hol).1
  have hself : (p.cAmts.set i xi).set o xo = p.cAmts := by
    obtain ⟨h1, rfl⟩ := List.getElem?_eq_some_iff.1 hxi
    obtain ⟨h2, rfl⟩ := List.getElem?_eq_some_iff.1 hxo
    rw [List.set_getElem_self, List.set_getElem_self]
  rw [hself] at htwo
  have hfeep := hp.fee
  -- the new balance
  obtain ⟨y, hy⟩ := computeY_runs (x := x + xi) hsize (by omega) (fun z hz => hcm' (hmin z hz))
    (hcm' (by omega)) hio hil hol (by omega)
  obtain ⟨D', hD', hD0, hD2⟩ := computeD_runs hsize (by omega) fun z hz => hcm' (hmin z hz)
  rw [hD] at hD'
  cases hD'
  have hyt : y ≤ t + 2 := by
    refine computeY_top hio hil hol hy rfl hD (by omega) ht0 (by omega) ?_
    rw [Nat.add_comm x]; exact htop
  have hym : m ≤ y := by
    by_contra hlt
    obtain ⟨A', D', hA', hD', -, hcur⟩ := computeY_curve hio hil hol hy
    cases hA'
    rw [hD] at hD'
    cases hD'
    have h1 := hcur (2 * M) (by omega) fun z hz => by have := hle (mem_othersOf hz); omega
    rw [Nat.add_comm x] at h1
    exact hlow (OnOrAboveCurve.raise_slack hio hil hol (by omega) hslack h1)
  -- what is paid and what is kept
  generalize hdy : xo - y - 1 = dy
  have hfee1 : dy * p.totalFee / 10000 ≤ dy := by
    refine Nat.div_le_of_le_mul ?_
    rw [Nat.mul_comm]; exact Nat.mul_le_mul_right _ (by omega)
  generalize hfe : dy * p.totalFee / 10000 = fee at hfee1
  have hadm1 : fee * fees.adminFeeBps / 10000 ≤ fee := by
    refine Nat.div_le_of_le_mul ?_
    rw [Nat.mul_comm]; exact Nat.mul_le_mul_right _ hb
  generalize had : fee * fees.adminFeeBps / 10000 = adm at hadm1
  have hret : p.getReturn i a o fees env = .ok ⟨xi + x, xo - (dy - fee) - adm, dy - fee, adm, fee⟩ := by
    unfold getReturn Inv.swapTo Inv.rateAt mulRate divRate rateBalances CurveFees.tradeFee
      CurveFees.adminTradeFee
    have hkv : (p.inv env).kind = .stable := hk
    simp only [hkv, hk, CurveKind.width, hA]
    rw [hdi]
    simp only [expectE, ok_bind]
    rw [hx, ok_bind, hxi]
    simp only [ok_bind]
    rw [addW_ok.2 ⟨by omega, rfl⟩, ok_bind, hy, ok_bind, fit_ok.2 ⟨by omega, rfl⟩, ok_bind, hxo]
    simp only [ok_bind]
    rw [subW_ok.2 ⟨by omega, rfl⟩, ok_bind, hdy]
    simp only [FEE_DIVISOR]
    rw [u128Ratio_run (by omega) (by omega) (by decide) (by decide), ok_bind, hfe,
      u128Ratio_run (by omega) hb (by decide) (by decide), ok_bind, had,
      subW_ok.2 ⟨hfee1, rfl⟩, ok_bind, subW_ok.2 ⟨by omega, rfl⟩, ok_bind, subW_ok.2 ⟨by omega, rfl⟩, ok_bind,
      addW_ok.2 ⟨by omega, rfl⟩, ok_bind]
  have hout : ∃ out, cToAmount .stable do_ (dy - fee) = .ok out := by
    unfold cToAmount
    split
    · exact ⟨_, divW_ok.2 ⟨by positivity, rfl⟩⟩
    · refine ⟨_, mulW_ok.2 ⟨lt_of_le_of_lt (Nat.mul_le_mul_right _ ?_) hpay, rfl⟩⟩
      omega
  obtain ⟨out, hout⟩ := hout
  have hnd : m ≤ xo - (dy - fee) - adm := by omega
  unfold swap
  rw [assertE_true hne, ok_bind, hti, ok_bind, hto, ok_bind]
  unfold assertRates
  simp only [hk, ok_bind]
  rw [hret, ok_bind, hdo]
  simp only [expectE, ok_bind]
  rw [hout, ok_bind, assertE_true (Nat.zero_le _), ok_bind]
  simp only [if_true, ok_bind]
  rw [assertE_true (by unfold CurveKind.minReserve; simp only; omega), ok_bind]
  unfold swapFee
  split
  · rename_i hpos
    rw [href]
    simp only
    have hfl : feeFloor p.cAmts.length c ≤ adm := by
      rcases hfee with h0 | h0 | h0
      · omega
      · have : adm = 0 := by rw [← had, ← hfe, h0]; simp
        omega
      · refine h0.trans ?_
        rw [← had, ← hfe]
        have h1 : (xo - t - 3) * p.totalFee / 10000 ≤ dy * p.totalFee / 10000 :=
          Nat.div_le_div_right (Nat.mul_le_mul_right _ (by omega))
        exact Nat.div_le_div_right (Nat.mul_le_mul_right _ h1)
    -- the pool while the protocol's part is given back
    generalize hxs : (p.cAmts.set i (xi + x)).set o (xo - (dy - fee) - adm) = xs
    have hlen : xs.length = p.cAmts.length := by rw [← hxs]; simp
    have hxsum : xs.sum + adm ≤ M := by
      have := (othersOf_two (a := xi + x) (b := xo - (dy - fee) - adm) hio hil hol).1
      rw [hxs] at this
      omega
    have hxs_o : xs[o]? = some (xo - (dy - fee) - adm) := by
      rw [← hxs]; exact List.getElem?_set_self (by rw [List.length_set]; exact hol)
    have hxmin : ∀ z ∈ xs, m ≤ z := by
      intro z hz
      rw [← hxs] at hz
      rcases List.mem_or_eq_of_mem_set hz with hz | rfl
      · rcases List.mem_or_eq_of_mem_set hz with hz | rfl
        · exact hmin z hz
        · omega
      · exact hnd
    rw [← hlen] at hsize hcm hroom hfl
    obtain ⟨d0, d1, h0, h1, hlp⟩ := lpOne_runs (v := p.inv env) (supply := p.supply) (adm := adm) hk hA
      hsize hxs_o hxsum hxmin hcm hcM hsup
    have hrise := computeD_rises (by omega) hsize.c1 hxs_o hxsum hxmin (by omega) hcm hroom h0 h1 hfl
    obtain ⟨s, f, hlp, hs⟩ := hlp hrise
    have hinv : ∀ {cs : List Nat}, inv { p with cAmts := cs, kind := .stable } env = p.inv env := by
      intro cs; unfold inv; simp only [hk]
    unfold distributeAdminFee
    simp only [hinv]
    rw [hlp, ok_bind]
    simp only [expectE, hxs_o, ok_bind]
    rw [addW_ok.2 ⟨by have := hle (List.mem_of_getElem? hxo); omega, rfl⟩, ok_bind]
    simp only [Nat.lt_irrefl, if_false, ok_bind, gt_iff_lt]
    have hsup2 : p.supply + s < 2 ^ 128 := by
      have : p.supply * (c + 1) = p.supply * c + p.supply := by ring
      omega
    unfold mintShares
    simp only [if_true, ok_bind]
    rw [subW_ok.2 ⟨Nat.zero_le _, rfl⟩, ok_bind, Nat.sub_zero]
    split
    · exact ⟨_, _, rfl⟩
    · rw [addW_ok.2 ⟨hsup2, rfl⟩, ok_bind, ok_bind]
      exact ⟨_, _, rfl⟩
  · exact ⟨_, _, rfl⟩

end CurvePool
end Verif

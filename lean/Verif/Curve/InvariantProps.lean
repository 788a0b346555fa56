import Verif.Curve.Invariant

/-
The invariant of the curve pools: what is computed and what swaps do to it (C64).
-/

namespace Verif

/-- **C64**. The invariant that a pool computes for its balances is at least every value for which
the balances are on or above the exact curve; the exact value is less than one unit larger. -/
theorem C64_computed {w A D : Nat} {xs : List Nat} (h : computeD w (.ok A) xs = .ok D)
    (hs : xs.sum ≠ 0) :
    (∀ E, OnOrAboveCurve A E xs 0 → E ≤ D) ∧ ¬ OnOrAboveCurve A (D + 1) xs 0 := by
  obtain ⟨A', hA, _, _, h3⟩ := computeD_low h hs
  cases hA
  refine ⟨fun E hE => computeD_max h ?_ hE, h3⟩
  rintro rfl
  exact hs rfl

/-- An unbalanced pool: the computed value is on the curve and the next one is not. -/
example : computeD 256 (.ok 240) [3 * 10 ^ 18, 10 ^ 18] = .ok 3998615435877331301 ∧
    OnOrAboveCurve 240 3998615435877331301 [3 * 10 ^ 18, 10 ^ 18] 0 ∧
    ¬ OnOrAboveCurve 240 3998615435877331302 [3 * 10 ^ 18, 10 ^ 18] 0 := by
  unfold OnOrAboveCurve
  decide +kernel

/-- `k` units of the invariant outweigh the rounding of one swap. -/
theorem rounding_room {n D c k : Nat} (hn : 1 ≤ n) (hk : k = c ^ (n - 1))
    (hD : n * (n + 1) * k ≤ 2 * D) :
    k ≤ D ∧ D * ((n - 1) * (c * D) ^ (n - 1)) ≤ k * ((n + 1) * (D - k) ^ n) := by
  have hkD : k ≤ D := by
    have : 2 * k ≤ n * (n + 1) * k := Nat.mul_le_mul_right _ (by nlinarith)
    omega
  refine ⟨hkD, ?_⟩
  rw [Nat.mul_pow, ← hk]
  obtain ⟨m, rfl⟩ : ∃ m, n = m + 1 := ⟨n - 1, by omega⟩
  obtain ⟨d, rfl⟩ : ∃ d, D = d + k := ⟨D - k, by omega⟩
  simp only [Nat.add_sub_cancel] at *
  have ht := tangent_le (d + k) d m
  have h1 : (m + 1) * (m + 1 + 1) * k * (d + k) ^ m ≤ 2 * (d + k) * (d + k) ^ m :=
    Nat.mul_le_mul_right _ hD
  have h2 : m * (d + k) ^ (m + 1) ≤ (m + 2) * d ^ (m + 1) := by
    rw [Nat.pow_succ (d + k)] at *
    generalize d ^ (m + 1) = Q at *
    generalize (d + k) ^ m = P at *
    have h3 := Nat.mul_le_mul_left (m + 2) ht
    nlinarith
  calc (d + k) * (m * (k * (d + k) ^ m)) = k * (m * (d + k) ^ (m + 1)) := by ring
    _ ≤ k * ((m + 2) * d ^ (m + 1)) := Nat.mul_le_mul_left _ h2

/-- **C64**. If no balance of a stable pool after a swap exceeds `c` times the invariant `D`, the
swap lowers the exact invariant by at most `c ^ (n-1)` units (of 10⁻¹⁸ tokens): balances that were on
or above the curve for `E` are afterwards on or above the curve for `E - c ^ (n-1)`. In a pool whose
balances are at most `D` that is one unit. -/
theorem C64_swap {p q : CurvePool} {ti tout : AccountId} {a mo out A D E c : Nat}
    {fees : AdminFees} {env : CurveEnv} {v : Bool} (hk : p.kind = .stable)
    (h : p.swap ti a tout mo fees env v = .ok (q, out)) (hA : (p.inv env).amp = .ok A)
    (hD : computeD 256 (.ok A) p.cAmts = .ok D) (hc : 1 ≤ c) (hM : ∀ b ∈ q.cAmts, b ≤ c * D)
    (hroom : p.cAmts.length * (p.cAmts.length + 1) * c ^ (p.cAmts.length - 1) ≤ 2 * D)
    (hE : OnOrAboveCurve A E p.cAmts 0) :
    OnOrAboveCurve A (E - c ^ (p.cAmts.length - 1)) q.cAmts 0 := by
  have hn : 1 ≤ p.cAmts.length := by
    obtain ⟨i, _, _, _, _, _, _, _, hi, _⟩ := stable_swap_reserves hk h
    have := (List.getElem?_eq_some_iff.1 hi).1
    omega
  obtain ⟨h1, h2⟩ := rounding_room hn rfl hroom
  exact stable_swap_curve hk h hA hE hD h1 (Nat.le_mul_of_pos_left _ hc) hM h2

/-- A swap without fee: all its output is paid, one unit of the invariant is enough. -/
example : (({ exStable with totalFee := 0 } : CurvePool).swap exA (10 ^ 21) exB 1 exFees exEnv false).holds
    (fun (q, _) => match computeD 256 (.ok 550) exStable.cAmts with
      | .ok D => decide ((∀ b ∈ q.cAmts, b ≤ 1 * D) ∧ 3 * (3 + 1) * 1 ^ (3 - 1) ≤ 2 * D)
      | .error _ => false) = true ∧
    exStable.getAmp exEnv = 550 := by
  decide +kernel

/-- **C64**. A swap does not lower the value of a share of a stable pool either, although it mints
shares for the protocol's part of the fee: the invariant per share after the swap is at least what
it was, up to the `c ^ (n-1)` units. -/
theorem C64_share_value {p q : CurvePool} {ti tout : AccountId} {a mo out A D D' E c : Nat}
    {fees : AdminFees} {env : CurveEnv} {v : Bool} (hk : p.kind = .stable)
    (h : p.swap ti a tout mo fees env v = .ok (q, out)) (hA : (p.inv env).amp = .ok A)
    (hD : computeD 256 (.ok A) p.cAmts = .ok D) (hc : 1 ≤ c) (hM : ∀ b ∈ q.cAmts, b ≤ c * D)
    (hroom : p.cAmts.length * (p.cAmts.length + 1) * c ^ (p.cAmts.length - 1) ≤ 2 * D)
    (hb : fees.adminFeeBps ≤ 10000) (hE : OnOrAboveCurve A E p.cAmts 0)
    (hD' : computeD 256 (.ok A) q.cAmts = .ok D') :
    (E - c ^ (p.cAmts.length - 1)) * q.supply ≤ D' * p.supply := by
  have hswap := C64_swap hk h hA hD hc hM hroom hE
  obtain ⟨i, o, r, di, do_, x, hne, hti, hto, hio, -, hdi, hdo, hx, hr, hout, hmo, hmin, hq⟩ :=
    CurvePool.swap_ok h
  obtain ⟨rin, rout, inn, xs, xi, xo, y, fee, adm, sw, hrin, hrout, hinn, hxs, hxi, hxo, hy, hyx,
    hfee, hadm, hsw, hsa, -, d1, d2, d3, d4, -⟩ := CurvePool.swapTo_ok hr
  have hk' : (p.inv env).kind = .stable := hk
  have hw : (p.inv env).kind.width = 256 := by rw [hk']; rfl
  rw [hw, hA, Nat.add_comm] at hy
  rw [hk'] at hinn hxs d1 d2 d3 d4
  cases hinn; cases hxs
  have d1 : xi + x = r.newSource := Except.ok.inj d1
  have d2 : xo - sw - adm = r.newDest := Except.ok.inj d2
  have d4 : adm = r.adminFee := Except.ok.inj d4
  have hil := (List.getElem?_eq_some_iff.1 hxi).1
  have hol := (List.getElem?_eq_some_iff.1 hxo).1
  have hqne : q.cAmts ≠ [] := by
    intro hcn
    have := hswap
    rcases CurvePool.swapFee_ok hq with ⟨rfl, -⟩ | ⟨-, -, m, f, old, -, hold, hlt, hm⟩
    · simp only at hcn
      have := congrArg List.length hcn
      simp at this
      rw [this] at hil; simp at hil
    · rw [hm.frame] at hcn
      have := congrArg List.length hcn
      simp at this
      rw [this] at hil; simp at hil
  rcases CurvePool.swapFee_ok hq with ⟨rfl, -⟩ | ⟨-, -, m, f, old, hlp, hold, hlt, hm⟩
  · exact Nat.mul_le_mul_right _ (computeD_max hD' hqne hswap)
  · simp only [List.getElem?_set_self (show o < (p.cAmts.set i r.newSource).length by simpa using hol),
      Option.some.injEq] at hold
    subst hold
    obtain ⟨d0, e1, e2, new, new', g0, gn, g1, -, -, glt, -, -, -, gm⟩ := lpForDeposit_ok hlp
    simp only at g0 gn g1 hm
    -- the reserves before the protocol's part of the fee comes back
    have hmid : (p.cAmts.set i r.newSource).set o r.newDest =
        (p.cAmts.set i (xi + x)).set o (xo - (sw + adm)) := by
      rw [← d1, ← d2, Nat.sub_sub]
    have hqc : q.cAmts = (p.cAmts.set i (xi + x)).set o (xo - sw) := by
      rw [hm.frame]
      simp only [List.set_set]
      rw [← d1, ← d2, ← d4]
      congr 1
      omega
    have inv : ∀ {zs : List Nat} {d : Nat}, (p.inv env).dWithRates zs = .ok d →
        computeD 256 (.ok A) zs = .ok d := by
      intro zs d hz
      unfold Inv.dWithRates rateBalances at hz
      rw [hk', hA] at hz
      exact hz
    have hd0 := inv g0
    have hd1 := inv g1
    have hnew : new = q.cAmts := by
      obtain ⟨b1, b2⟩ := depositBalances_eq gn (by simp)
      rw [hmid] at b1 b2
      rw [hqc]
      apply List.ext_getElem?
      intro j
      rcases Nat.lt_or_ge j p.cAmts.length with hj | hj
      · by_cases ho : j = o
        · subst ho
          rw [b2 j (xo - (sw + adm)) r.adminFee (List.getElem?_set_self (by simpa using hj))
            (List.getElem?_set_self (by simpa using hj)), List.getElem?_set_self (by simpa using hj),
            ← d4]
          congr 1
          omega
        · have e3 : ((p.cAmts.set i (xi + x)).set o (xo - (sw + adm)))[j]? =
              (p.cAmts.set i (xi + x))[j]? := List.getElem?_set_ne (by omega)
          have hj' : j < (p.cAmts.set i (xi + x)).length := by simpa using hj
          rw [List.getElem?_set_ne (by omega), List.getElem?_eq_getElem hj']
          refine b2 j _ 0 (e3.trans (List.getElem?_eq_getElem hj')) ?_
          rw [List.getElem?_set_ne (by omega), List.getElem?_map, List.getElem?_eq_getElem (by simpa using hj)]
          rfl
      · rw [List.getElem?_eq_none (by rw [b1]; simpa using hj), List.getElem?_eq_none (by simpa using hj)]
    rw [hnew, hD'] at hd1
    cases hd1
    have hadmle : adm ≤ fee := by
      rw [hadm]
      apply Nat.div_le_of_le_mul
      rw [Nat.mul_comm]
      exact Nat.mul_le_mul_right _ hb
    obtain ⟨h1, h2⟩ := rounding_room (D := D) (c := c) (by omega : 1 ≤ p.cAmts.length) rfl hroom
    have key := computeY_keeps (sw := sw + adm) hio hxi hxo hy (by omega) hE hD h1 (M := c * D)
      (Nat.le_mul_of_pos_left _ hc) ?_ h2
    · have hmne : (p.cAmts.set i (xi + x)).set o (xo - (sw + adm)) ≠ [] := by
        intro hcn
        have := congrArg List.length hcn
        simp at this
        rw [this] at hil; simp at hil
      rw [hmid] at hd0
      have hle := computeD_max hd0 hmne key
      have hS : q.supply = p.supply + m := hm.supply
      rw [hS]
      have h3 : m ≤ p.supply * (D' - d0) / d0 := by
        have : m + f = p.supply * (D' - d0) / d0 := gm
        omega
      have h4 : m * d0 ≤ p.supply * (D' - d0) :=
        (Nat.mul_le_mul_right _ h3).trans (Nat.div_mul_le_self _ _)
      obtain ⟨e, rfl⟩ := Nat.exists_eq_add_of_le glt.le
      rw [Nat.add_sub_cancel_left] at h4
      calc (E - c ^ (p.cAmts.length - 1)) * (p.supply + m) ≤ d0 * (p.supply + m) :=
            Nat.mul_le_mul_right _ hle
        _ = d0 * p.supply + m * d0 := by ring
        _ ≤ d0 * p.supply + p.supply * e := by omega
        _ = (d0 + e) * p.supply := by ring
    · intro b hb'
      rw [hqc] at hM
      have hlast := hM (xo - sw) (List.mem_of_getElem? (i := o)
        (List.getElem?_set_self (by simpa using hol)))
      obtain ⟨j, hj⟩ := List.mem_iff_getElem?.1 hb'
      by_cases ho : j = o
      · subst ho
        rw [List.getElem?_set_self (by simpa using hol)] at hj
        cases hj
        omega
      · rw [List.getElem?_set_ne (by omega)] at hj
        exact hM _ (List.mem_of_getElem? (i := j) (by rw [List.getElem?_set_ne (by omega)]; exact hj))

/-- A swap that mints shares for the exchange and the referral: the value of a share grows. -/
example : (exStable.swap exA (10 ^ 21) exB 1 exFees exEnv false).holds (fun (q, _) =>
    match computeD 256 (.ok 550) exStable.cAmts, computeD 256 (.ok 550) q.cAmts with
      | .ok D, .ok D' => decide (exStable.supply < q.supply ∧ D * q.supply < D' * exStable.supply ∧
          (∀ b ∈ q.cAmts, b ≤ 1 * D) ∧ exFees.adminFeeBps ≤ 10000)
      | _, _ => false) = true := by
  decide +kernel

/-- `m` swaps in a stable pool with amplification `A`, during which no balance exceeds `c` times the
invariant. -/
inductive CurvePool.Trades (A c : Nat) : Nat → CurvePool → CurvePool → Prop
  | none (p : CurvePool) : CurvePool.Trades A c 0 p p
  | swap {m : Nat} {p q r : CurvePool} {ti tout : AccountId} {a mo out D : Nat} {fees : AdminFees}
      {env : CurveEnv} (ts : CurvePool.Trades A c m p q)
      (h : q.swap ti a tout mo fees env false = .ok (r, out)) (hA : (q.inv env).amp = .ok A)
      (hD : computeD 256 (.ok A) q.cAmts = .ok D) (hM : ∀ b ∈ r.cAmts, b ≤ c * D)
      (hroom : q.cAmts.length * (q.cAmts.length + 1) * c ^ (q.cAmts.length - 1) ≤ 2 * D) :
      CurvePool.Trades A c (m + 1) p r

/-- **C64**. No sequence of trades, in any direction and with any amounts, extracts value from a
stable pool beyond the rounding of each swap: `m` swaps lower the exact invariant by at most
`m * c ^ (n-1)` units. -/
theorem C64_trades {A c m E : Nat} {p q : CurvePool} (hc : 1 ≤ c)
    (h : CurvePool.Trades A c m p q) (hk : p.kind = .stable) (hE : OnOrAboveCurve A E p.cAmts 0) :
    OnOrAboveCurve A (E - m * c ^ (p.cAmts.length - 1)) q.cAmts 0 ∧ q.kind = .stable ∧
      q.cAmts.length = p.cAmts.length := by
  induction h with
  | none => simpa using ⟨hE, hk⟩
  | swap ts h hA hD hM hroom ih =>
    obtain ⟨h1, h2, h3⟩ := ih hk hE
    have h4 := C64_swap h2 h hA hD hc hM hroom h1
    obtain ⟨i, o, _, _, _, _, _, _, _, _, _, _, _, hq, _, hs⟩ := stable_swap_reserves h2 h
    refine ⟨?_, hs, by rw [hq]; simpa using h3⟩
    rw [h3, Nat.sub_sub] at h4
    rw [Nat.add_mul, Nat.one_mul]
    exact h4

/-- Forth and back without fee in the demo pool: the trader loses a little, all balances stay below
the invariant, and the invariant falls by at most two units. -/
example : (do
      let p : CurvePool := { exStable with totalFee := 0 }
      let (q, out) ← p.swap exA (10 ^ 21) exB 1 exFees exEnv false
      let (r, back) ← q.swap exB out exA 1 exFees exEnv false
      .ok (q, r, back) : R (CurvePool × CurvePool × Nat)).holds (fun (q, r, back) =>
        decide (back ≤ 10 ^ 21 ∧ 10 ^ 21 ≤ back + 10 ^ 13 ∧
          computeD 256 (.ok 550) exStable.cAmts = .ok (3 * 10 ^ 23) ∧
          (∀ b ∈ q.cAmts, b ≤ 3 * 10 ^ 23) ∧
          (computeD 256 (.ok 550) q.cAmts).holds (fun D => decide (∀ b ∈ r.cAmts, b ≤ D)) = true ∧
          (computeD 256 (.ok 550) r.cAmts).holds (fun D => 3 * 10 ^ 23 - 2 ≤ D) = true)) = true := by
  decide +kernel

/-! ### Rated and degen pools -/

theorem forall₂_set_two {R : Nat → Nat → Prop} (hR : ∀ x, R x x) {i o a b a' b' : Nat}
    {xs : List Nat} (ha : R a a') (hb : R b b') :
    List.Forall₂ R ((xs.set i a).set o b) ((xs.set i a').set o b') := by
  rw [List.forall₂_iff_get]
  refine ⟨by simp, fun j h1 h2 => ?_⟩
  simp only [List.get_eq_getElem, List.getElem_set]
  split
  · exact hb
  · split
    · exact ha
    · exact hR _

/-- **C64**, rated and degen pools. The balances are taken in the units of the curve, that is times
the rates. If no rate exceeds `g`, no balance after a swap exceeds `c` times the invariant `D` and
both traded balances are at least `D / c`, the swap lowers the exact invariant by at most
`c ^ (n-1) + 2 * g * c` units (of 10⁻²⁴ tokens). -/
theorem C64_rated_swap {p q : CurvePool} {ti tout : AccountId} {a mo out A D E c g : Nat}
    {fees : AdminFees} {env : CurveEnv} {v : Bool} (hk : p.kind ≠ .stable)
    (h : p.swap ti a tout mo fees env v = .ok (q, out)) (hA : (p.inv env).amp = .ok A)
    (hD : computeD p.kind.width (.ok A) (p.rated env) = .ok D) (hc : 1 ≤ c)
    (hg : ∀ r ∈ env.rates, r ≤ g * PRECISION)
    (hM : ∀ b ∈ q.rated env, b + 2 * g ≤ c * D ∧ D ≤ c * b)
    (hroom : (p.rated env).length * ((p.rated env).length + 1) * c ^ ((p.rated env).length - 1) ≤
      2 * D)
    (hE : OnOrAboveCurve A E (p.rated env) 0) :
    OnOrAboveCurve A (E - (c ^ ((p.rated env).length - 1) + 2 * g * c)) (q.rated env) 0 := by
  obtain ⟨i, o, xi, xo, x, y, sw, a', b', hio, hxi, hxo, hy, hsw, hq, hi, ho, hg1, -⟩ :=
    rated_swap_reserves hk hg h
  rw [hA] at hy
  have hil := (List.getElem?_eq_some_iff.1 hxi).1
  have hol := (List.getElem?_eq_some_iff.1 hxo).1
  have hne : p.rated env ≠ [] := by intro hc; rw [hc] at hil; simp at hil
  obtain ⟨h1, h2⟩ := rounding_room (D := D) (c := c) (by omega : 1 ≤ (p.rated env).length) rfl hroom
  have ma : a' ∈ q.rated env := by
    rw [hq]
    refine List.mem_of_getElem? (i := i) ?_
    rw [List.getElem?_set_ne (by omega), List.getElem?_set_self hil]
  have mb : b' ∈ q.rated env := by
    rw [hq]
    refine List.mem_of_getElem? (i := o) ?_
    rw [List.getElem?_set_self (by simpa using hol)]
  have hla := hM _ ma
  have hlb := hM _ mb
  have hann : 1 ≤ A * (p.rated env).length ^ (p.rated env).length := by
    obtain ⟨A', D', hA', hD', hann, -⟩ := computeY_curve hio hil hol hy
    cases hA'
    exact Nat.one_le_iff_ne_zero.2 hann
  have hED := computeD_max hD hne hE
  have key := computeY_keeps hio hxi hxo hy hsw hE hD h1 (M := c * D)
    (Nat.le_mul_of_pos_left _ hc) ?_ h2
  · rw [← Nat.sub_sub, hq]
    have hgc : 0 < 2 * g * c := Nat.mul_pos (by omega) hc
    have hN := Nat.div_mul_le_self D (2 * g * c)
    have hN' := Nat.lt_mul_div_succ D hgc
    generalize D / (2 * g * c) = N at *
    refine key.shrink (N := N) (by simpa using hann) ?_ ?_
    · have dust : ∀ {s b : Nat}, s ≤ b + 2 * g → D ≤ c * b → N * s ≤ (N + 1) * b := by
        intro s b hs hb
        have e1 : c * (N * (2 * g)) ≤ c * b := by
          calc c * (N * (2 * g)) = N * (2 * g * c) := by ring
            _ ≤ c * b := Nat.le_trans hN hb
        have e2 := Nat.le_of_mul_le_mul_left e1 hc
        calc N * s ≤ N * (b + 2 * g) := Nat.mul_le_mul_left _ hs
          _ = N * b + N * (2 * g) := by ring
          _ ≤ (N + 1) * b := by rw [Nat.add_mul]; omega
      refine forall₂_set_two (fun x => ?_) (dust (by omega) hla.2) (dust ho hlb.2)
      exact Nat.mul_le_mul_right _ (Nat.le_succ N)
    · have hF : E - c ^ ((p.rated env).length - 1) ≤ D := by omega
      generalize E - c ^ ((p.rated env).length - 1) = F at *
      rcases Nat.le_total F (2 * g * c) with hle | hle
      · rw [Nat.sub_eq_zero_of_le hle]; simp
      · rw [Nat.mul_sub, Nat.mul_comm (N + 1) (2 * g * c)]
        have : (N + 1) * F = N * F + F := by ring
        omega
  · intro b hb
    obtain ⟨j, hj⟩ := List.mem_iff_getElem?.1 hb
    by_cases h3 : j = o
    · subst h3
      rw [List.getElem?_set_self (by simpa using hol)] at hj
      cases hj
      omega
    · rw [List.getElem?_set_ne (by omega)] at hj
      by_cases h4 : j = i
      · subst h4
        rw [List.getElem?_set_self hil] at hj
        cases hj
        omega
      · rw [List.getElem?_set_ne (by omega)] at hj
        have : b ∈ q.rated env := by
          rw [hq]
          refine List.mem_of_getElem? (i := j) ?_
          rw [List.getElem?_set_ne (by omega), List.getElem?_set_ne (by omega)]
          exact hj
        have := hM _ this
        omega

/-- A swap in the demo pool, with rates 1 and 1.5 and without fee. -/
example : (({ exRated with totalFee := 0 } : CurvePool).swap exB (10 ^ 27) exA 1 exFees exEnv
      false).holds (fun (q, _) => match computeD 384 (.ok 240) (exRated.rated exEnv) with
      | .ok D => decide ((∀ b ∈ q.rated exEnv, b + 2 * 2 ≤ 3 * D ∧ D ≤ 3 * b) ∧
          (∀ r ∈ exEnv.rates, r ≤ 2 * PRECISION) ∧ 2 * (2 + 1) * 3 ^ (2 - 1) ≤ 2 * D)
      | .error _ => false) = true ∧
    exRated.kind.width = 384 ∧ exRated.getAmp exEnv = 240 := by
  decide +kernel

/-- `m` swaps in a rated or degen pool with amplification `A` while the rates are `rs`. -/
inductive CurvePool.RatedTrades (A c g : Nat) (rs : List Nat) : Nat → CurvePool → CurvePool → Prop
  | none (p : CurvePool) : CurvePool.RatedTrades A c g rs 0 p p
  | swap {m : Nat} {p q r : CurvePool} {ti tout : AccountId} {a mo out D : Nat} {fees : AdminFees}
      {env : CurveEnv} (ts : CurvePool.RatedTrades A c g rs m p q) (hr : env.rates = rs)
      (h : q.swap ti a tout mo fees env false = .ok (r, out)) (hA : (q.inv env).amp = .ok A)
      (hD : computeD q.kind.width (.ok A) (q.rated env) = .ok D)
      (hM : ∀ b ∈ r.rated env, b + 2 * g ≤ c * D ∧ D ≤ c * b)
      (hroom : (q.rated env).length * ((q.rated env).length + 1) *
        c ^ ((q.rated env).length - 1) ≤ 2 * D) :
      CurvePool.RatedTrades A c g rs (m + 1) p r

theorem CurvePool.rated_congr (p : CurvePool) {env env' : CurveEnv} (h : env.rates = env'.rates) :
    p.rated env = p.rated env' := by
  unfold CurvePool.rated
  rw [h]

/-- **C64**, rated and degen pools. While the rates stand, no sequence of trades, in any direction
and with any amounts, extracts value beyond the rounding of each swap. -/
theorem C64_rated_trades {A c g m E : Nat} {p q : CurvePool} {env : CurveEnv} (hc : 1 ≤ c)
    (hg : ∀ r ∈ env.rates, r ≤ g * PRECISION)
    (h : CurvePool.RatedTrades A c g env.rates m p q) (hk : p.kind ≠ .stable)
    (hE : OnOrAboveCurve A E (p.rated env) 0) :
    OnOrAboveCurve A (E - m * (c ^ ((p.rated env).length - 1) + 2 * g * c)) (q.rated env) 0 ∧
      q.kind = p.kind ∧ (q.rated env).length = (p.rated env).length := by
  induction h with
  | none => simpa using hE
  | swap ts hr h hA hD hM hroom ih =>
    obtain ⟨h1, h2, h3⟩ := ih hk hE
    rw [CurvePool.rated_congr _ hr] at hD hroom
    rw [CurvePool.rated_congr _ hr] at hM
    have h4 := C64_rated_swap (env := _) (h2 ▸ hk) h hA (by rwa [CurvePool.rated_congr _ hr]) hc
      (by rwa [hr]) (by rwa [CurvePool.rated_congr _ hr]) (by rwa [CurvePool.rated_congr _ hr])
      (by rw [CurvePool.rated_congr _ hr]; exact h1)
    obtain ⟨i, o, _, _, _, _, _, _, _, _, _, _, _, _, hq, _, _, _, hs⟩ :=
      rated_swap_reserves (h2 ▸ hk) (by rwa [hr]) h
    rw [CurvePool.rated_congr _ hr, CurvePool.rated_congr _ hr] at hq
    rw [CurvePool.rated_congr _ hr, CurvePool.rated_congr _ hr, h3, Nat.sub_sub] at h4
    refine ⟨?_, hs.trans h2, by rw [hq]; simpa using h3⟩
    rw [Nat.add_mul, Nat.one_mul]
    exact h4

/-- Forth and back without fee in the demo pool: the trader loses a little and the invariant falls
by less than the bound. -/
example : (do
      let p : CurvePool := { exRated with totalFee := 0 }
      let (q, out) ← p.swap exA (10 ^ 27) exB 1 exFees exEnv false
      let (r, back) ← q.swap exB out exA 1 exFees exEnv false
      let d0 ← computeD 384 (.ok 240) (p.rated exEnv)
      let d1 ← computeD 384 (.ok 240) (q.rated exEnv)
      let d2 ← computeD 384 (.ok 240) (r.rated exEnv)
      .ok (q, r, back, d0, d1, d2) : R (CurvePool × CurvePool × Nat × Nat × Nat × Nat)).holds
        (fun (q, r, back, d0, d1, d2) =>
        decide (back ≤ 10 ^ 27 ∧ 10 ^ 27 ≤ back + 100 ∧
          (∀ b ∈ q.rated exEnv, b + 2 * 2 ≤ 3 * d0 ∧ d0 ≤ 3 * b) ∧
          (∀ b ∈ r.rated exEnv, b + 2 * 2 ≤ 3 * d1 ∧ d1 ≤ 3 * b) ∧
          d0 ≤ d2 + 2 * (3 ^ (2 - 1) + 2 * 2 * 3))) = true := by
  decide +kernel

end Verif

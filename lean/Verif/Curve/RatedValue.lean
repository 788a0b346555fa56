import Verif.Curve.InvariantProps

/-
C64 for the shares of rated and degen pools: a swap does not lower the value of a share, although it
mints shares for the protocol's part of the fee.
-/

namespace Verif

/-- Reserves that are short of what the curve asks for by at most the dust `2 * g` of each of the two
traded tokens. -/
theorem rated_keeps {w A D E c g i o x y xi xo sw a' b' : Nat} {xs : List Nat} (hio : i ≠ o)
    (hxi : xs[i]? = some xi) (hxo : xs[o]? = some xo)
    (hy : computeY w (.ok A) (xi + x) xs i o = .ok y) (hsw : sw ≤ xo - y - 1)
    (hE : OnOrAboveCurve A E xs 0) (hD : computeD w (.ok A) xs = .ok D) (hc : 1 ≤ c) (hg1 : 1 ≤ g)
    (hroom : xs.length * (xs.length + 1) * c ^ (xs.length - 1) ≤ 2 * D)
    (hi : xi + x ≤ a' + 2 * g) (ho : xo - sw ≤ b' + 2 * g) (hla : D ≤ c * a') (hlb : D ≤ c * b')
    (hM : ∀ b ∈ (xs.set i (xi + x)).set o (xo - sw), b ≤ c * D) :
    OnOrAboveCurve A (E - (c ^ (xs.length - 1) + 2 * g * c)) ((xs.set i a').set o b') 0 := by
  have hil := (List.getElem?_eq_some_iff.1 hxi).1
  have hol := (List.getElem?_eq_some_iff.1 hxo).1
  have hne : xs ≠ [] := by intro hc; rw [hc] at hil; simp at hil
  obtain ⟨h1, h2⟩ := rounding_room (D := D) (c := c) (by omega : 1 ≤ xs.length) rfl hroom
  have hann : 1 ≤ A * xs.length ^ xs.length := by
    obtain ⟨A', D', hA', hD', hann, -⟩ := computeY_curve hio hil hol hy
    cases hA'
    exact Nat.one_le_iff_ne_zero.2 hann
  have hED := computeD_max hD hne hE
  have key := computeY_keeps hio hxi hxo hy hsw hE hD h1 (M := c * D)
    (Nat.le_mul_of_pos_left _ hc) hM h2
  rw [← Nat.sub_sub]
  have hgc : 0 < 2 * g * c := Nat.mul_pos (by omega) hc
  have hN := Nat.div_mul_le_self D (2 * g * c)
  have hN' := Nat.lt_mul_div_succ D hgc
  generalize D / (2 * g * c) = N at *
  refine key.shrink (N := N) (by simpa using hann) ?_ ?_
  · have dust : ∀ {s b : Nat}, s ≤ b + 2 * g → D ≤ c * b → N * s ≤ (N + 1) * b := by
      intro s b hs hb
      have e1 : c * (N * (2 * g)) ≤ c * b := by
        calc c * (N * (2 * g)) = N * (2 * g * c) := by ring
          _ ≤ c * b := Nat.le_trans hN hb
      have e2 := Nat.le_of_mul_le_mul_left e1 hc
      calc N * s ≤ N * (b + 2 * g) := Nat.mul_le_mul_left _ hs
        _ = N * b + N * (2 * g) := by ring
        _ ≤ (N + 1) * b := by rw [Nat.add_mul]; omega
    refine forall₂_set_two (fun x => ?_) (dust hi hla) (dust ho hlb)
    exact Nat.mul_le_mul_right _ (Nat.le_succ N)
  · have hF : E - c ^ (xs.length - 1) ≤ D := by omega
    generalize E - c ^ (xs.length - 1) = F at *
    rcases Nat.le_total F (2 * g * c) with hle | hle
    · rw [Nat.sub_eq_zero_of_le hle]; simp
    · rw [Nat.mul_sub, Nat.mul_comm (N + 1) (2 * g * c)]
      have : (N + 1) * F = N * F + F := by ring
      omega

/-- A deposit of one token. -/
theorem depositBalances_one {old new : List Nat} {o x a : Nat} (ho : old[o]? = some x)
    (h : depositBalances old ((old.map fun _ => 0).set o a) = .ok new) : new = old.set o (x + a) := by
  obtain ⟨b1, b2⟩ := depositBalances_eq h (by simp)
  have hol := (List.getElem?_eq_some_iff.1 ho).1
  apply List.ext_getElem?
  intro j
  rcases Nat.lt_or_ge j old.length with hj | hj
  · by_cases hjo : j = o
    · subst hjo
      rw [b2 j x a ho (List.getElem?_set_self (by simpa using hj)), List.getElem?_set_self hj]
    · rw [List.getElem?_set_ne (by omega), List.getElem?_eq_getElem hj]
      refine b2 j _ 0 (List.getElem?_eq_getElem hj) ?_
      rw [List.getElem?_set_ne (by omega), List.getElem?_map, List.getElem?_eq_getElem hj]
      rfl
  · rw [List.getElem?_eq_none (by omega), List.getElem?_eq_none (by simpa using hj)]

/-- Two amounts turned into tokens and back are worth no more than they were. -/
theorem rate_unrate_two (s t r : Nat) :
    (s * PRECISION / r + t * PRECISION / r) * r / PRECISION ≤ s + t := by
  apply Nat.div_le_of_le_mul
  have h1 := Nat.div_mul_le_self (s * PRECISION) r
  have h2 := Nat.div_mul_le_self (t * PRECISION) r
  calc (s * PRECISION / r + t * PRECISION / r) * r
      = s * PRECISION / r * r + t * PRECISION / r * r := by ring
    _ ≤ s * PRECISION + t * PRECISION := Nat.add_le_add h1 h2
    _ = PRECISION * (s + t) := by ring

/-- **C64**, rated and degen pools. A swap does not lower the value of a share, although it mints
shares for the protocol's part of the fee: the invariant per share after the swap is at least what it
was, up to the rounding. The admin fee is at most the 80 % the contract allows; no rate exceeds `g`
and the balances after the swap are, in the units of the curve, at most `c` times and (by a factor 5)
at least `1 / c` of the invariant. -/
theorem C64_rated_share_value {p q : CurvePool} {ti tout : AccountId} {a mo out A D D' E c g : Nat}
    {fees : AdminFees} {env : CurveEnv} {v : Bool} (hk : p.kind ≠ .stable)
    (h : p.swap ti a tout mo fees env v = .ok (q, out)) (hA : (p.inv env).amp = .ok A)
    (hD : computeD p.kind.width (.ok A) (p.rated env) = .ok D) (hc : 1 ≤ c)
    (hg : ∀ r ∈ env.rates, r ≤ g * PRECISION)
    (hM : ∀ b ∈ q.rated env, b + 2 * g ≤ c * D ∧ 5 * (D + 2 * g * c) ≤ c * b)
    (hroom : (p.rated env).length * ((p.rated env).length + 1) * c ^ ((p.rated env).length - 1) ≤
      2 * D)
    (hb : fees.adminFeeBps ≤ 8000) (hE : OnOrAboveCurve A E (p.rated env) 0)
    (hD' : computeD p.kind.width (.ok A) (q.rated env) = .ok D') :
    (E - (c ^ ((p.rated env).length - 1) + 2 * g * c)) * q.supply ≤ D' * p.supply := by
  have hM' : ∀ b ∈ q.rated env, b + 2 * g ≤ c * D ∧ D ≤ c * b := by
    intro b hbm
    obtain ⟨h1, h2⟩ := hM b hbm
    exact ⟨h1, by omega⟩
  have hswap := C64_rated_swap hk h hA hD hc hg hM' hroom hE
  obtain ⟨i, o, r, di, do_, x, hne, hti, hto, hio, -, hdi, hdo, hx, hr, hout, hmo, hmin, hq⟩ :=
    CurvePool.swap_ok h
  obtain ⟨rin, rout, inn, xs, xi, xo, y, fee, adm, sw, hrin, hrout, hinn, hxs, hxi, hxo, hy, hyx,
    hfee, hadm, hsw, hsa, -, d1, d2, d3, d4, -⟩ := CurvePool.swapTo_ok hr
  have hxs' := rated_of_rateBalances (p := p) (env := env) hxs
  subst hxs'
  have hk' : (p.inv env).kind ≠ .stable := hk
  rw [hA, Nat.add_comm] at hy
  have rate : ∀ {j z : Nat}, (p.inv env).rateAt j = .ok z → env.rates[j]? = some z := by
    intro j z hz
    unfold Inv.rateAt at hz
    simp only [CurvePool.inv] at hz
    cases hkk : p.kind <;> simp_all [expectE_ok]
  have ri := rate hrin
  have ro := rate hrout
  have gi := hg _ (List.mem_of_getElem? ri)
  have go := hg _ (List.mem_of_getElem? ro)
  have ni := divRate_ne hk' d1
  have no := divRate_ne hk' d2
  have e1 := (CurvePool.divRate_ok d1).1
  have e2 := (CurvePool.divRate_ok d2).1
  have e4 := (CurvePool.divRate_ok d4).1
  rw [if_neg hk'] at e1 e2 e4
  have hil := (List.getElem?_eq_some_iff.1 hxi).1
  have hol := (List.getElem?_eq_some_iff.1 hxo).1
  have hco : o < p.cAmts.length := by
    obtain ⟨c, hc, -⟩ := CurvePool.rateBalances_at hxs hxo
    exact (List.getElem?_eq_some_iff.1 hc).1
  have rated_eq : ∀ s : CurvePool, s.kind = p.kind →
      s.rated env = List.zipWith (fun c r => c * r / PRECISION) s.cAmts env.rates := by
    intro s hs
    unfold CurvePool.rated
    rw [hs]
    cases hkk : p.kind <;> simp_all
  have hg1 : 1 ≤ g := by
    rcases Nat.eq_zero_or_pos g with h0 | h0
    · subst h0; omega
    · exact h0
  rcases CurvePool.swapFee_ok hq with ⟨rfl, hz⟩ | ⟨-, -, m, f, old, hlp, hold, hlt, hm⟩
  · refine Nat.mul_le_mul_right _ (computeD_max hD' ?_ hswap)
    rw [rated_eq _ (by rfl), rated_set ro, rated_set ri, ← rated_eq p rfl]
    intro h0
    have := congrArg List.length h0
    simp at this
    rw [this] at hil; simp at hil
  · have hol' : o < (p.cAmts.set i r.newSource).length := by simpa using hco
    simp only [List.getElem?_set_self hol', Option.some.injEq] at hold
    subst hold
    obtain ⟨d0, e5, e6, new, new', g0, gn, g1, -, -, glt, -, -, -, gm⟩ := lpForDeposit_ok hlp
    have hnew := depositBalances_one (List.getElem?_set_self hol') gn
    subst hnew
    simp only [List.set_set] at g1 hm
    have inv : ∀ {s : CurvePool} {d : Nat}, s.kind = p.kind →
        (p.inv env).dWithRates s.cAmts = .ok d → computeD p.kind.width (.ok A) (s.rated env) = .ok d := by
      intro s d hs hz
      unfold Inv.dWithRates at hz
      obtain ⟨zs, h1, h2⟩ := bind_ok.1 hz
      have h3 := rated_of_rateBalances (p := s) (env := env) (xs := zs) (by rw [hs]; exact h1)
      rw [← h3, ← hA]
      exact h2
    have hqc : q.cAmts = (p.cAmts.set i r.newSource).set o (r.newDest + r.adminFee) := by
      rw [hm.frame]
    have hqk : q.kind = p.kind := by rw [hm.frame]
    have hd1 := inv (s := q) hqk (by rw [hqc]; exact g1)
    rw [hD'] at hd1
    cases hd1
    have hd0 := inv (s := { p with cAmts := (p.cAmts.set i r.newSource).set o r.newDest }) rfl g0
    rw [rated_eq { p with cAmts := (p.cAmts.set i r.newSource).set o r.newDest } rfl] at hd0
    simp only at hd0
    rw [rated_set ro, rated_set ri, ← rated_eq p rfl] at hd0
    have hqr : q.rated env = ((p.rated env).set i (r.newSource * rin / PRECISION)).set o
        ((r.newDest + r.adminFee) * rout / PRECISION) := by
      rw [rated_eq q hqk, hqc, rated_set ro, rated_set ri, ← rated_eq p rfl]
    have u1 : xi + inn ≤ r.newSource * rin / PRECISION + g := by rw [e1]; exact unrate_rate ni gi
    have u2 : xo - sw - adm ≤ r.newDest * rout / PRECISION + g := by rw [e2]; exact unrate_rate no go
    have u3 : (r.newDest + r.adminFee) * rout / PRECISION ≤ xo - sw := by
      rw [e2, e4]
      have := rate_unrate_two (xo - sw - adm) adm rout
      omega
    have u4 : xo - sw ≤ (r.newDest + r.adminFee) * rout / PRECISION + 2 * g := by
      rw [e2, e4]
      have := unrate_rate_two (s := xo - sw - adm) (t := adm) no go
      omega
    have ma := hM (r.newSource * rin / PRECISION) (by
      rw [hqr]
      refine List.mem_of_getElem? (i := i) ?_
      rw [List.getElem?_set_ne (by omega), List.getElem?_set_self hil])
    have mb := hM ((r.newDest + r.adminFee) * rout / PRECISION) (by
      rw [hqr]
      refine List.mem_of_getElem? (i := o) ?_
      rw [List.getElem?_set_self (by simpa using hol)])
    have hadm5 : 5 * adm ≤ 4 * fee := by
      have h1 : adm * 10000 ≤ fee * 8000 := by
        rw [hadm]
        exact (Nat.div_mul_le_self _ _).trans (Nat.mul_le_mul_left _ hb)
      omega
    have hlow : D ≤ c * (r.newDest * rout / PRECISION) := by
      have h1 : xo - sw ≤ 5 * (r.newDest * rout / PRECISION + g) := by omega
      have h2 := Nat.mul_le_mul_left c (u3.trans h1)
      have h3 := mb.2.trans h2
      have h4 : c * (5 * (r.newDest * rout / PRECISION + g)) =
          5 * (c * (r.newDest * rout / PRECISION)) + 5 * (g * c) := by ring
      have h5 : 5 * (D + 2 * g * c) = 5 * D + 10 * (g * c) := by ring
      omega
    have key := rated_keeps (sw := sw + adm) (a' := r.newSource * rin / PRECISION)
      (b' := r.newDest * rout / PRECISION) hio hxi hxo hy (by omega) hE hD hc hg1 hroom (by omega)
      (by omega) (by omega) hlow ?_
    · have hmne : ((p.rated env).set i (r.newSource * rin / PRECISION)).set o
          (r.newDest * rout / PRECISION) ≠ [] := by
        intro hcn
        have := congrArg List.length hcn
        simp at this
        rw [this] at hil; simp at hil
      have hle := computeD_max hd0 hmne key
      have hS : q.supply = p.supply + m := hm.supply
      rw [hS]
      have h3 : m ≤ p.supply * (D' - d0) / d0 := by
        have : m + f = p.supply * (D' - d0) / d0 := gm
        omega
      have h4 : m * d0 ≤ p.supply * (D' - d0) :=
        (Nat.mul_le_mul_right _ h3).trans (Nat.div_mul_le_self _ _)
      obtain ⟨e, rfl⟩ := Nat.exists_eq_add_of_le glt.le
      rw [Nat.add_sub_cancel_left] at h4
      calc (E - (c ^ ((p.rated env).length - 1) + 2 * g * c)) * (p.supply + m)
          ≤ d0 * (p.supply + m) := Nat.mul_le_mul_right _ hle
        _ = d0 * p.supply + m * d0 := by ring
        _ ≤ d0 * p.supply + p.supply * e := by omega
        _ = (d0 + e) * p.supply := by ring
    · intro b hb'
      obtain ⟨j, hj⟩ := List.mem_iff_getElem?.1 hb'
      by_cases h3 : j = o
      · subst h3
        rw [List.getElem?_set_self (by simpa using hol)] at hj
        cases hj
        omega
      · rw [List.getElem?_set_ne (by omega)] at hj
        by_cases h4 : j = i
        · subst h4
          rw [List.getElem?_set_self hil] at hj
          cases hj
          omega
        · rw [List.getElem?_set_ne (by omega)] at hj
          have : b ∈ q.rated env := by
            rw [hqr]
            refine List.mem_of_getElem? (i := j) ?_
            rw [List.getElem?_set_ne (by omega), List.getElem?_set_ne (by omega)]
            exact hj
          have := (hM _ this).1
          omega

/-- A swap in the rated demo pool that mints shares for the exchange and the referral: the value of
a share grows. -/
example : (exRated.swap exB (10 ^ 27) exA 1 exFees exEnv false).holds (fun (q, _) =>
    match computeD 384 (.ok 240) (exRated.rated exEnv), computeD 384 (.ok 240) (q.rated exEnv) with
      | .ok D, .ok D' => decide (exRated.supply < q.supply ∧ D * q.supply < D' * exRated.supply ∧
          (∀ b ∈ q.rated exEnv, b + 2 * 2 ≤ 12 * D ∧ 5 * (D + 2 * 2 * 12) ≤ 12 * b) ∧
          (∀ r ∈ exEnv.rates, r ≤ 2 * PRECISION) ∧ 2 * (2 + 1) * 12 ^ (2 - 1) ≤ 2 * D ∧
          exFees.adminFeeBps ≤ 8000)
      | _, _ => false) = true ∧
    exRated.kind.width = 384 ∧ exRated.getAmp exEnv = 240 := by
  decide +kernel

end Verif

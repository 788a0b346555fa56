import Verif.Curve.Accuracy
import Verif.Curve.InvariantProps

/-
How accurate the curve pools are: invariant and output of a swap (C71).
-/

namespace Verif

/-- **C71**. The invariant that a pool computes is the exact one, up to a few units: with `E` the
largest integer for which the balances are on or above the exact curve, and no balance above `c`
times its even share `E / n`, it is at least `E` and at most `2 * n * c ^ n + n + 4` units larger.
The 256 rounds of the iteration are always enough. -/
theorem C71_invariant {w A D E c : Nat} {xs : List Nat} (h : computeD w (.ok A) xs = .ok D)
    (hs : xs.sum ≠ 0) (hc : 1 ≤ c) (hE : OnOrAboveCurve A E xs 0)
    (hE' : ¬ OnOrAboveCurve A (E + 1) xs 0) (hx : ∀ x ∈ xs, x * xs.length ≤ c * E)
    (hroom : 8 * xs.length * (xs.length * c ^ xs.length) ≤ E) :
    E ≤ D ∧ D ≤ E + 2 * xs.length * c ^ xs.length + xs.length + 4 := by
  refine ⟨(C64_computed h hs).1 E hE, ?_⟩
  have := computeD_top h hs hc hE hE' hx hroom
  rw [show 2 * xs.length * c ^ xs.length = 2 * (xs.length * c ^ xs.length) by ring]
  omega

/-- Very unbalanced: the computed value is six units too large, and no two values of the iteration
come within a unit of each other. -/
def lopsided : List Nat :=
  [6351095294143338435291, 45677458050079880816134, 8066638633830757252, 9329831552077085228]

example : computeD 256 (.ok 3) lopsided = .ok 11189891915913336427432 ∧
    OnOrAboveCurve 3 11189891915913336427426 lopsided 0 ∧
    ¬ OnOrAboveCurve 3 (11189891915913336427426 + 1) lopsided 0 ∧ lopsided.sum ≠ 0 ∧
    (∀ x ∈ lopsided, x * lopsided.length ≤ 17 * 11189891915913336427426) ∧
    8 * lopsided.length * (lopsided.length * 17 ^ lopsided.length) ≤ 11189891915913336427426 := by
  unfold OnOrAboveCurve
  decide +kernel

theorem computeD_sum_lt {w A D : Nat} {xs : List Nat} (h : computeD w (.ok A) xs = .ok D) :
    xs.sum < 2 ^ 128 := by
  unfold computeD at h
  simp only [bind_ok] at h
  obtain ⟨s, h1, -⟩ := h
  have := sumU128_lt h1 (by omega)
  rw [sumU128_ok h1, Nat.zero_add] at this
  exact this

/-- **C71**. A trader is not paid less than the curve allows: in a successful swap of a stable, rated
or degen pool, `D` is the pool's own invariant before the trade, `inn` the input and `gross` the
output before fees, in the units of the curve. Every amount `g` after whose payment the balances
would still be on or above the exact curve of `D` is at most three units more than `gross`. The
trader gets `gross` minus the fee, converted back with the loss of less than one unit at each
conversion. -/
theorem C71_swap {p q : CurvePool} {ti tout : AccountId} {a mo out : Nat}
    {fees : AdminFees} {env : CurveEnv} {v : Bool}
    (h : p.swap ti a tout mo fees env v = .ok (q, out)) :
    ∃ i o di do_ A D cin xi xo inn gross fee paid,
      p.toks[i]? = some ti ∧ p.toks[o]? = some tout ∧ i ≠ o ∧
      p.decs[i]? = some di ∧ p.decs[o]? = some do_ ∧
      (p.inv env).amp = .ok A ∧ computeD p.kind.width (.ok A) (p.rated env) = .ok D ∧
      (p.rated env)[i]? = some xi ∧ (p.rated env)[o]? = some xo ∧
      CoveredBy p.kind di a (cin + 1) ∧ cin * p.kind.tokPerC di ≤ a * p.kind.cPerTok di ∧
      inn = p.ratedAmount env i cin ∧
      (∀ g < xo, OnOrAboveCurve A D (((p.rated env).set i (xi + inn)).set o (xo - g)) 0 →
        g ≤ gross + 3) ∧
      fee = gross * p.totalFee / 10000 ∧
      gross - fee ≤ p.ratedAmount env o (paid + 1) ∧
      paid * p.kind.tokPerC do_ < (out + 1) * p.kind.cPerTok do_ := by
  obtain ⟨i, o, r, di, do_, x, hne, hti, hto, hio, -, hdi, hdo, hx, hr, hout, -, -, -⟩ := CurvePool.swap_ok h
  obtain ⟨rin, rout, inn, xs, xi, xo, y, fee, adm, sw, hrin, hrout, hinn, hxs, hxi, hxo, hy, hyx,
    hfee, hadm, hsw, -, -, -, -, d3, -, -⟩ := CurvePool.swapTo_ok hr
  have hxs' := rated_of_rateBalances (p := p) (env := env) hxs
  subst hxs'
  have hil : i < (p.rated env).length := (List.getElem?_eq_some_iff.1 hxi).1
  have hol : o < (p.rated env).length := (List.getElem?_eq_some_iff.1 hxo).1
  obtain ⟨A, D, _, _, hA, hD, -, hann, -⟩ := computeY_ok hy
  have hD' : computeD p.kind.width (.ok A) (p.rated env) = .ok D := by
    rw [← hA]; exact hD
  obtain ⟨hxe, -⟩ := CurvePool.amountToC_ok hx
  obtain ⟨hoe, -⟩ := CurvePool.cToAmount_ok hout
  refine ⟨i, o, di, do_, A, D, x, xi, xo, inn, xo - y - 1, fee, r.swapped, hti, hto, hio, hdi,
    hdo, hA, hD', hxi, hxo, ?_, ?_, ?_, ?_, hfee, ?_, ?_⟩
  · unfold CoveredBy
    rw [hxe]
    have := Nat.div_add_mod (a * p.kind.cPerTok di) (p.kind.tokPerC di)
    have := Nat.mod_lt (a * p.kind.cPerTok di) (p.kind.tokPerC_pos di)
    nlinarith
  · rw [hxe]; exact Nat.div_mul_le_self _ _
  · have hm := CurvePool.mulRate_ok hinn
    unfold CurvePool.ratedAmount
    unfold Inv.rateAt at hrin
    simp only [CurvePool.inv] at hm hrin
    cases hk : p.kind <;> simp_all [expectE_ok, List.getD]
  · intro g hg hcur
    have hlt : xo - g < 2 ^ 128 := by
      have h1 := computeD_sum_lt hD'
      have h2 := List.le_sum_of_mem (List.mem_of_getElem? hxo)
      omega
    have hlen : 2 ≤ (p.rated env).length := by omega
    rw [Nat.add_comm] at hcur
    have := computeY_top hio hil hol hy hA hD
      (lt_trans (computeD_lt hD' hlen hann) (by norm_num)) (t := xo - g) (by omega) hlt hcur
    omega
  · have hm := (CurvePool.divRate_ok d3).1
    have hsw' : sw = xo - y - 1 - fee := by omega
    rw [← hsw']
    unfold CurvePool.ratedAmount
    unfold Inv.rateAt at hrout
    simp only [CurvePool.inv] at hm hrout
    have aux : ∀ rr, 0 < rr → sw ≤ (sw * PRECISION / rr + 1) * rr / PRECISION := by
      intro rr hrr
      rw [Nat.le_div_iff_mul_le (by unfold PRECISION; norm_num)]
      have := Nat.lt_mul_div_succ (sw * PRECISION) hrr
      rw [Nat.mul_comm rr] at this
      exact this.le
    have hr0 : p.kind ≠ .stable → 0 < rout := by
      intro hk
      unfold divRate at d3
      split at d3
      · rename_i hs; exact absurd hs hk
      · unpack at d3
        omega
    cases hk : p.kind <;> simp_all [expectE_ok, List.getD]
  · rw [hoe, Nat.mul_comm (_ + 1)]
    exact Nat.lt_mul_div_succ _ (p.kind.cPerTok_pos do_)

example : (exStable.swap exA (10 ^ 21) exB 1 exFees exEnv false).holds
    (fun (_, out) => out = 997497985) := by decide +kernel
example : (exRated.swap exB (10 ^ 27) exA 1 exFees exEnv false).holds
    (fun (_, out) => out = 1498629096729274908847985806) := by decide +kernel

end Verif

import Verif.Curve.Concave
import Verif.Exchange.MonotoneProps

/-
C90: every further part of a swap is paid no better than the part before.
-/

namespace Verif

section rounding
variable {a b T : Nat}

/-- A fee takes away at most one more unit of concavity. -/
theorem net_concave {f g1 g2 g3 : Nat} (hf : f ≤ 10000) (h : b * g1 + a * g3 ≤ (a + b) * (g2 + T)) :
    b * (g1 - g1 * f / 10000) + a * (g3 - g3 * f / 10000) ≤
      (a + b) * (g2 - g2 * f / 10000 + (T + 1)) := by
  obtain ⟨k, hk⟩ := Nat.exists_eq_add_of_le hf
  have net : ∀ g, g * k ≤ (g - g * f / 10000) * 10000 ∧ (g - g * f / 10000) * 10000 < g * k + 10000 := by
    intro g
    have e : g * 10000 = g * f + g * k := by rw [hk]; ring
    have e1 := Nat.div_add_mod (g * f) 10000
    have e2 := Nat.mod_lt (g * f) (show 0 < 10000 by decide)
    omega
  obtain ⟨-, u1⟩ := net g1
  obtain ⟨l2, -⟩ := net g2
  obtain ⟨-, u3⟩ := net g3
  generalize g1 - g1 * f / 10000 = n1 at *
  generalize g2 - g2 * f / 10000 = n2 at *
  generalize g3 - g3 * f / 10000 = n3 at *
  have hk' : k ≤ 10000 := by omega
  refine Nat.le_of_mul_le_mul_right (c := 10000) ?_ (by decide)
  calc (b * n1 + a * n3) * 10000 = b * (n1 * 10000) + a * (n3 * 10000) := by ring
    _ ≤ b * (g1 * k + 10000) + a * (g3 * k + 10000) :=
      Nat.add_le_add (Nat.mul_le_mul_left _ u1.le) (Nat.mul_le_mul_left _ u3.le)
    _ = (b * g1 + a * g3) * k + (a + b) * 10000 := by ring
    _ ≤ (a + b) * (g2 + T) * k + (a + b) * 10000 :=
      Nat.add_le_add_right (Nat.mul_le_mul_right _ h) _
    _ = (a + b) * (g2 * k + T * k + 10000) := by ring
    _ ≤ (a + b) * (n2 * 10000 + T * 10000 + 10000) :=
      Nat.mul_le_mul_left _ (by have := Nat.mul_le_mul_left T hk'; omega)
    _ = (a + b) * (n2 + (T + 1)) * 10000 := by ring

/-- So does a conversion. -/
theorem conv_concave {t c n1 n2 n3 : Nat} (hc : 0 < c) (h : b * n1 + a * n3 ≤ (a + b) * (n2 + T)) :
    b * (n1 * t / c) + a * (n3 * t / c) ≤ (a + b) * (n2 * t / c + (T * t / c + 2)) := by
  have h1 : b * (n1 * t / c) * c ≤ b * n1 * t := by
    rw [Nat.mul_assoc, Nat.mul_assoc]; exact Nat.mul_le_mul_left _ (Nat.div_mul_le_self _ _)
  have h3 : a * (n3 * t / c) * c ≤ a * n3 * t := by
    rw [Nat.mul_assoc, Nat.mul_assoc]; exact Nat.mul_le_mul_left _ (Nat.div_mul_le_self _ _)
  have h2 : n2 * t + T * t ≤ (n2 * t / c + (T * t / c + 2)) * c := by
    have k1 := Nat.lt_mul_div_succ (n2 * t) hc
    have k2 := Nat.lt_mul_div_succ (T * t) hc
    have e : (n2 * t / c + (T * t / c + 2)) * c =
      c * (n2 * t / c + 1) + c * (T * t / c + 1) := by ring
    omega
  refine Nat.le_of_mul_le_mul_right ?_ hc
  calc (b * (n1 * t / c) + a * (n3 * t / c)) * c
      = b * (n1 * t / c) * c + a * (n3 * t / c) * c := by ring
    _ ≤ b * n1 * t + a * n3 * t := Nat.add_le_add h1 h3
    _ = (b * n1 + a * n3) * t := by ring
    _ ≤ (a + b) * (n2 + T) * t := Nat.mul_le_mul_right _ h
    _ = (a + b) * (n2 * t + T * t) := by ring
    _ ≤ (a + b) * ((n2 * t / c + (T * t / c + 2)) * c) := Nat.mul_le_mul_left _ h2
    _ = _ := by ring

/-- The form in which the property is stated. -/
theorem marginal {o1 o2 o3 : Nat} (h12 : o1 ≤ o2) (h23 : o2 ≤ o3)
    (h : b * o1 + a * o3 ≤ (a + b) * (o2 + T)) :
    (o3 - o2) * a ≤ (o2 - o1) * b + (a + b) * T := by
  obtain ⟨u, rfl⟩ := Nat.exists_eq_add_of_le h12
  obtain ⟨v, rfl⟩ := Nat.exists_eq_add_of_le h23
  rw [Nat.add_sub_cancel_left, Nat.add_sub_cancel_left]
  nlinarith

end rounding

/-- **C90**, constant-product pools. Of three swaps of growing size in the same state: what the third
gets beyond the second is paid no better, per unit paid in, than what the second gets beyond the first,
up to one unit of output. -/
theorem C90_simple {p q1 q2 q3 : SimplePool} {ti tout : AccountId} {fees1 fees2 fees3 : AdminFees}
    {v1 v2 v3 : Bool} {a1 a2 a3 m1 m2 m3 out1 out2 out3 : Nat}
    (h1 : p.swap ti a1 tout m1 fees1 v1 = .ok (q1, out1))
    (h2 : p.swap ti a2 tout m2 fees2 v2 = .ok (q2, out2))
    (h3 : p.swap ti a3 tout m3 fees3 v3 = .ok (q3, out3)) (h12 : a1 ≤ a2) (h23 : a2 ≤ a3) :
    (out3 - out2) * (a2 - a1) ≤ (out2 - out1) * (a3 - a2) + (a3 - a1) * 1 := by
  have o12 := (C88_simple h1 h2 h12).1
  have o23 := (C88_simple h2 h3 h23).1
  obtain ⟨i, o, -, hi, ho, -, r1, -, -⟩ := SimplePool.swap_ok h1
  obtain ⟨i2, o2, -, hi2, ho2, -, r2, -, -⟩ := SimplePool.swap_ok h2
  obtain ⟨i3, o3, -, hi3, ho3, -, r3, -, -⟩ := SimplePool.swap_ok h3
  rw [hi] at hi2; cases hi2
  rw [ho] at ho2; cases ho2
  rw [hi] at hi3; cases hi3
  rw [ho] at ho3; cases ho3
  obtain ⟨hX, -, -, -, -, e1⟩ := SimplePool.getReturn_ok r1
  obtain ⟨-, -, -, -, -, e2⟩ := SimplePool.getReturn_ok r2
  obtain ⟨-, -, -, -, -, e3⟩ := SimplePool.getReturn_ok r3
  generalize 10000 - p.totalFee = f at *
  generalize p.amt i = X at *
  generalize p.amt o = Y at *
  obtain ⟨a, rfl⟩ := Nat.exists_eq_add_of_le h12
  obtain ⟨b, rfl⟩ := Nat.exists_eq_add_of_le h23
  rw [show a1 + a + b - (a1 + a) = b by omega, show a1 + a - a1 = a by omega,
    show a1 + a + b - a1 = a + b by omega]
  refine marginal o12 o23 ?_
  have d1 : 0 < 10000 * X + a1 * f := by omega
  have d2 : 0 < 10000 * X + (a1 + a) * f := by omega
  have d3 : 0 < 10000 * X + (a1 + a + b) * f := by omega
  have l1 : out1 * (10000 * X + a1 * f) ≤ a1 * f * Y := by rw [e1]; exact Nat.div_mul_le_self _ _
  have l3 : out3 * (10000 * X + (a1 + a + b) * f) ≤ (a1 + a + b) * f * Y := by
    rw [e3]; exact Nat.div_mul_le_self _ _
  have u2 : (a1 + a) * f * Y < (out2 + 1) * (10000 * X + (a1 + a) * f) := by
    rw [e2, Nat.mul_comm (_ + 1)]; exact Nat.lt_mul_div_succ _ d2
  clear e1 e2 e3 h1 h2 h3 r1 r2 r3 o12 o23
  have q1 : (out1 : ℚ) * (10000 * X + a1 * f) ≤ a1 * f * Y := by exact_mod_cast l1
  have q3 : (out3 : ℚ) * (10000 * X + (a1 + a + b) * f) ≤ (a1 + a + b) * f * Y := by exact_mod_cast l3
  have q2 : ((a1 : ℚ) + a) * f * Y < (out2 + 1) * (10000 * X + (a1 + a) * f) := by exact_mod_cast u2
  have p1 : (0 : ℚ) < 10000 * X + a1 * f := by exact_mod_cast d1
  have p2 : (0 : ℚ) < 10000 * X + (a1 + a) * f := by exact_mod_cast d2
  have p3 : (0 : ℚ) < 10000 * X + (a1 + a + b) * f := by exact_mod_cast d3
  rw [← le_div_iff₀ p1] at q1
  rw [← le_div_iff₀ p3] at q3
  rw [← div_lt_iff₀ p2] at q2
  have conc : (b : ℚ) * (a1 * f * Y / (10000 * X + a1 * f)) +
      a * ((a1 + a + b) * f * Y / (10000 * X + (a1 + a + b) * f)) ≤
      (a + b) * ((a1 + a) * f * Y / (10000 * X + (a1 + a) * f)) := by
    have hn : (0 : ℚ) ≤ a * b * (a + b) * f * f * Y * X * 10000 := by positivity
    rw [← sub_nonneg]
    have e : (a + b : ℚ) * ((a1 + a) * f * Y / (10000 * X + (a1 + a) * f)) -
        (b * (a1 * f * Y / (10000 * X + a1 * f)) +
          a * ((a1 + a + b) * f * Y / (10000 * X + (a1 + a + b) * f))) =
        a * b * (a + b) * f * f * Y * X * 10000 /
          ((10000 * X + a1 * f) * (10000 * X + (a1 + a) * f) * (10000 * X + (a1 + a + b) * f)) := by
      have := p1.ne'
      have := p2.ne'
      have := p3.ne'
      field_simp
      ring
    rw [e]
    positivity
  have hb : (0 : ℚ) ≤ b := by positivity
  have ha : (0 : ℚ) ≤ a := by positivity
  have k1 := mul_le_mul_of_nonneg_left q1 hb
  have k3 := mul_le_mul_of_nonneg_left q3 ha
  have k2 := mul_le_mul_of_nonneg_left q2.le (add_nonneg ha hb)
  have : (b * out1 + a * out3 : ℚ) ≤ (a + b) * (out2 + 1) := by linarith
  exact_mod_cast this

/-- `c` units of the curve in the units in which a pool keeps its `o`-th token. -/
def CurvePool.unrated (p : CurvePool) (env : CurveEnv) (o c : Nat) : Nat :=
  match p.kind with
  | .stable => c
  | _ => c * PRECISION / env.rates.getD o 0

/-- `T` units of the curve in units of the `o`-th token, which has `d` decimals, with the rounding of
the conversions. -/
def CurvePool.outUnits (p : CurvePool) (env : CurveEnv) (o d T : Nat) : Nat :=
  (p.unrated env o T + 2) * p.kind.tokPerC d / p.kind.cPerTok d + 2

/-- What a pool that uses a curve counts `a` units of its `i`-th token, which has `d` decimals, as. -/
def CurvePool.counted (p : CurvePool) (env : CurveEnv) (i d a : Nat) : Nat :=
  p.ratedAmount env i (a * p.kind.cPerTok d / p.kind.tokPerC d)

theorem CurvePool.counted_mono (p : CurvePool) (env : CurveEnv) (i d : Nat) {a a' : Nat} (h : a ≤ a') :
    p.counted env i d a ≤ p.counted env i d a' := by
  unfold counted ratedAmount
  have := Nat.div_le_div_right (c := p.kind.tokPerC d) (Nat.mul_le_mul_right (p.kind.cPerTok d) h)
  split
  · exact this
  · exact Nat.div_le_div_right (Nat.mul_le_mul_right _ this)

/-- What a swap of a curve pool pays, from the solver's answer. -/
theorem CurvePool.swap_shape {p q : CurvePool} {ti tout : AccountId} {fees : AdminFees}
    {env : CurveEnv} {v : Bool} {a m out i o di do_ : Nat} (hp : (Pool.curve p).Sound)
    (h : p.swap ti a tout m fees env v = .ok (q, out))
    (hti : p.toks[i]? = some ti) (hto : p.toks[o]? = some tout)
    (hdi : p.decs[i]? = some di) (hdo : p.decs[o]? = some do_) :
    ∃ xi xo y, i ≠ o ∧ (p.rated env)[i]? = some xi ∧ (p.rated env)[o]? = some xo ∧
      computeY p.kind.width (p.inv env).amp (xi + p.counted env i di a) (p.rated env) i o = .ok y ∧
      y ≤ xo ∧ (p.kind ≠ .stable → 0 < env.rates.getD o 0) ∧
      out = p.unrated env o ((xo - y - 1) - (xo - y - 1) * p.totalFee / 10000) *
        p.kind.tokPerC do_ / p.kind.cPerTok do_ := by
  obtain ⟨i', o', r, di', do', x, -, hti', hto', hio, -, hdi', hdo', hx, hr, hout, -, -, -⟩ :=
    CurvePool.swap_ok h
  have same : ∀ {n n' : Nat} {t : AccountId}, p.toks[n]? = some t → p.toks[n']? = some t → n' = n := by
    intro n n' t ha hb
    obtain ⟨l, rfl⟩ := List.getElem?_eq_some_iff.1 ha
    obtain ⟨l', hb⟩ := List.getElem?_eq_some_iff.1 hb
    exact (hp.2.getElem_inj_iff).1 hb
  have ei := same hti hti'
  have eo := same hto hto'
  subst i' o'
  rw [hdi] at hdi'; cases hdi'
  rw [hdo] at hdo'; cases hdo'
  obtain ⟨rin, rout, inn, xs, xi, xo, y, fee, adm, sw, hrin, hrout, hinn, hxs, hxi, hxo, hy, hyx,
    hfee, -, hsw, -, -, -, -, d3, -, -⟩ := CurvePool.swapTo_ok hr
  have hxs' := rated_of_rateBalances (p := p) (env := env) hxs
  subst hxs'
  obtain ⟨rfl, -⟩ := CurvePool.amountToC_ok hx
  obtain ⟨rfl, -⟩ := CurvePool.cToAmount_ok hout
  have hinn' : inn = p.counted env i di a := by
    have hm := CurvePool.mulRate_ok hinn
    unfold CurvePool.counted CurvePool.ratedAmount
    unfold Inv.rateAt at hrin
    simp only [CurvePool.inv] at hm hrin
    cases hk : p.kind <;> simp_all [expectE_ok, List.getD]
  subst hinn'
  have hr0 : p.kind ≠ .stable → 0 < rout := by
    intro hk
    unfold divRate at d3
    split at d3
    · rename_i hs; exact absurd hs hk
    · unpack at d3
      omega
  have hrg : p.kind ≠ .stable → rout = env.rates.getD o 0 := by
    unfold Inv.rateAt at hrout
    simp only [CurvePool.inv] at hrout
    cases hk : p.kind <;> simp_all [expectE_ok, List.getD]
  have hm := (CurvePool.divRate_ok d3).1
  simp only at hfee
  have hsw' : sw = xo - y - 1 - (xo - y - 1) * p.totalFee / 10000 := by omega
  refine ⟨xi, xo, y, hio, hxi, hxo, ?_, hyx, ?_, ?_⟩
  · rw [Nat.add_comm]; exact hy
  · intro hk; rw [← hrg hk]; exact hr0 hk
  · rw [← hsw', hm]
    have : (if (p.inv env).kind = CurveKind.stable then sw else sw * PRECISION / rout) =
        p.unrated env o sw := by
      unfold CurvePool.unrated
      split
      · rename_i hk
        have hk : p.kind = .stable := hk
        rw [hk]
      · rename_i hk
        have hk : p.kind ≠ .stable := hk
        rw [hrg hk]
        cases hk2 : p.kind with
        | stable => exact absurd hk2 hk
        | rated => rfl
        | degen => rfl
    rw [this]

/-- **C90**, stable, rated and degen pools. Of three swaps of growing size in the same state: what the
third gets beyond the second is paid no better, per unit that the pool counts, than what the second
gets beyond the first, up to `j + 6` units of the curve and the rounding of the conversions. `M` bounds
the pool's invariant `D` and its balances, and `j` is larger the further apart they are. -/
theorem C90_curve {p q1 q2 q3 : CurvePool} {ti tout : AccountId} {fees1 fees2 fees3 : AdminFees}
    {env : CurveEnv} {v1 v2 v3 : Bool} {a1 a2 a3 m1 m2 m3 out1 out2 out3 i o di do_ D M j : Nat}
    (hp : (Pool.curve p).Sound)
    (h1 : p.swap ti a1 tout m1 fees1 env v1 = .ok (q1, out1))
    (h2 : p.swap ti a2 tout m2 fees2 env v2 = .ok (q2, out2))
    (h3 : p.swap ti a3 tout m3 fees3 env v3 = .ok (q3, out3)) (h12 : a1 ≤ a2) (h23 : a2 ≤ a3)
    (hti : p.toks[i]? = some ti) (hto : p.toks[o]? = some tout)
    (hdi : p.decs[i]? = some di) (hdo : p.decs[o]? = some do_)
    (hD : computeD p.kind.width (p.inv env).amp (p.rated env) = .ok D) (hDM : D ≤ M)
    (hM : ∀ x ∈ p.rated env, x + p.counted env i di a3 + j + 1 ≤ M)
    (hj : ((p.rated env).length - 1) * M ^ (p.rated env).length ≤ j * D ^ (p.rated env).length)
    (hM2 : M < 2 ^ 128) :
    (out3 - out2) * (p.counted env i di a2 - p.counted env i di a1) ≤
      (out2 - out1) * (p.counted env i di a3 - p.counted env i di a2) +
        (p.counted env i di a3 - p.counted env i di a1) * p.outUnits env o do_ (j + 6) := by
  have o12 := C88_curve hp h1 h2 h12
  have o23 := C88_curve hp h2 h3 h23
  have c12 := p.counted_mono env i di h12
  have c23 := p.counted_mono env i di h23
  obtain ⟨xi, xo, y1, hio, hxi, hxo, hy1, hyx1, hr0, e1⟩ := p.swap_shape hp h1 hti hto hdi hdo
  obtain ⟨xi', xo', y2, -, hxi', hxo', hy2, hyx2, -, e2⟩ := p.swap_shape hp h2 hti hto hdi hdo
  rw [hxi] at hxi'; cases hxi'
  rw [hxo] at hxo'; cases hxo'
  obtain ⟨xi', xo', y3, -, hxi', hxo', hy3, hyx3, -, e3⟩ := p.swap_shape hp h3 hti hto hdi hdo
  rw [hxi] at hxi'; cases hxi'
  rw [hxo] at hxo'; cases hxo'
  have hil : i < (p.rated env).length := (List.getElem?_eq_some_iff.1 hxi).1
  have hol : o < (p.rated env).length := (List.getElem?_eq_some_iff.1 hxo).1
  have hMi := hM _ (List.mem_of_getElem? hxi)
  have hMo := hM _ (List.mem_of_getElem? hxo)
  generalize p.counted env i di a1 = n1 at *
  generalize p.counted env i di a2 = n2 at *
  generalize p.counted env i di a3 = n3 at *
  rcases Nat.eq_or_lt_of_le (c12.trans c23) with heq | hlt
  · have : n2 - n1 = 0 := by omega
    rw [this, Nat.mul_zero]
    exact Nat.zero_le _
  have conv := computeY_convex (M := M) (j := j) hio hil hol hy1 hy2 hy3 (by omega) (by omega) (by omega)
    hD hDM (fun b hb => by have := hM b hb; omega) (by omega) (by omega) (by omega) hj hM2
  obtain ⟨a, rfl⟩ := Nat.exists_eq_add_of_le c12
  obtain ⟨b, rfl⟩ := Nat.exists_eq_add_of_le c23
  rw [show xi + (n1 + a + b) - (xi + n1) = a + b by omega,
    show xi + (n1 + a + b) - (xi + (n1 + a)) = b by omega,
    show xi + (n1 + a) - (xi + n1) = a by omega] at conv
  rw [show n1 + a + b - (n1 + a) = b by omega, show n1 + a - n1 = a by omega,
    show n1 + a + b - n1 = a + b by omega]
  refine marginal o12 o23 ?_
  have gross : b * (xo - y1 - 1) + a * (xo - y3 - 1) ≤ (a + b) * (xo - y2 - 1 + (j + 5)) := by
    have k1 := Nat.mul_le_mul_left b (show xo - y1 - 1 + y1 ≤ xo by omega)
    have k3 := Nat.mul_le_mul_left a (show xo - y3 - 1 + y3 ≤ xo by omega)
    have k2 := Nat.mul_le_mul_left (a + b) (show xo ≤ xo - y2 - 1 + y2 + 1 by omega)
    rw [Nat.mul_add] at k1 k3
    nlinarith
  have net := net_concave hp.1.fee.le gross
  rw [e1, e2, e3]
  unfold CurvePool.outUnits
  refine conv_concave (p.kind.cPerTok_pos do_) ?_
  unfold CurvePool.unrated
  cases hk : p.kind with
  | stable => exact net.trans (Nat.mul_le_mul_left _ (Nat.add_le_add_left (Nat.le_add_right (j + 6) 2) _))
  | rated => exact conv_concave (hr0 (by rw [hk]; decide)) net
  | degen => exact conv_concave (hr0 (by rw [hk]; decide)) net

/-- **C90**, stable pools, for a token of at most 18 decimals paid in: the same per unit paid. -/
theorem C90_stable {p q1 q2 q3 : CurvePool} {ti tout : AccountId} {fees1 fees2 fees3 : AdminFees}
    {env : CurveEnv} {v1 v2 v3 : Bool} {a1 a2 a3 m1 m2 m3 out1 out2 out3 i o di do_ D M j : Nat}
    (hp : (Pool.curve p).Sound) (hk : p.kind = .stable)
    (h1 : p.swap ti a1 tout m1 fees1 env v1 = .ok (q1, out1))
    (h2 : p.swap ti a2 tout m2 fees2 env v2 = .ok (q2, out2))
    (h3 : p.swap ti a3 tout m3 fees3 env v3 = .ok (q3, out3)) (h12 : a1 ≤ a2) (h23 : a2 ≤ a3)
    (hti : p.toks[i]? = some ti) (hto : p.toks[o]? = some tout)
    (hdi : p.decs[i]? = some di) (hdi2 : di ≤ 18) (hdo : p.decs[o]? = some do_)
    (hD : computeD 256 (p.inv env).amp p.cAmts = .ok D) (hDM : D ≤ M)
    (hM : ∀ x ∈ p.cAmts, x + a3 * 10 ^ (18 - di) + j + 1 ≤ M)
    (hj : (p.cAmts.length - 1) * M ^ p.cAmts.length ≤ j * D ^ p.cAmts.length) (hM2 : M < 2 ^ 128) :
    (out3 - out2) * (a2 - a1) ≤ (out2 - out1) * (a3 - a2) +
      (a3 - a1) * ((j + 8) * 10 ^ (do_ - 18) / 10 ^ (18 - do_) + 2) := by
  have hr : p.rated env = p.cAmts := by unfold CurvePool.rated; rw [hk]
  have hc : ∀ a, p.counted env i di a = a * 10 ^ (18 - di) := by
    intro a
    unfold CurvePool.counted CurvePool.ratedAmount CurveKind.cPerTok CurveKind.tokPerC
    rw [hk]
    simp [CurveKind.target, Nat.sub_eq_zero_of_le hdi2]
  have hw : p.kind.width = 256 := by rw [hk]; rfl
  have key := C90_curve (D := D) (M := M) (j := j) hp h1 h2 h3 h12 h23 hti hto hdi hdo
    (by rw [hr, hw]; exact hD) hDM (by rw [hr, hc]; exact hM) (by rw [hr]; exact hj) hM2
  have hu : p.outUnits env o do_ (j + 6) = (j + 8) * 10 ^ (do_ - 18) / 10 ^ (18 - do_) + 2 := by
    unfold CurvePool.outUnits CurvePool.unrated CurveKind.cPerTok CurveKind.tokPerC
    rw [hk]
    rfl
  rw [hu, hc, hc, hc, ← Nat.sub_mul, ← Nat.sub_mul, ← Nat.sub_mul] at key
  refine Nat.le_of_mul_le_mul_right (c := 10 ^ (18 - di)) ?_ (by positivity)
  generalize 10 ^ (18 - di) = t at *
  generalize (j + 8) * 10 ^ (do_ - 18) / 10 ^ (18 - do_) + 2 = T at *
  calc (out3 - out2) * (a2 - a1) * t = (out3 - out2) * ((a2 - a1) * t) := by ring
    _ ≤ _ := key
    _ = _ := by ring

/-- A rated pool meets the conditions of `C90_curve`, with `j = 2`, and gives less for each further
thousand tokens. -/
example : (exRated.swap exB (10 ^ 27) exA 1 exFees exEnv false).holds
      (fun (_, out) => out = 1498629096729274908847985806) = true ∧
    (exRated.swap exB (2 * 10 ^ 27) exA 1 exFees exEnv false).holds
      (fun (_, out) => out = 2997167522014980297873460120) = true ∧
    (exRated.swap exB (3 * 10 ^ 27) exA 1 exFees exEnv false).holds
      (fun (_, out) => out = 4495613643532336551666974653) = true ∧
    (computeD exRated.kind.width (exRated.inv exEnv).amp (exRated.rated exEnv)).holds (fun D =>
      D ≤ 25 * 10 ^ 28 ∧
      (∀ x ∈ exRated.rated exEnv, x + exRated.counted exEnv 1 24 (3 * 10 ^ 27) + 2 + 1 ≤ 25 * 10 ^ 28) ∧
      ((exRated.rated exEnv).length - 1) * (25 * 10 ^ 28) ^ (exRated.rated exEnv).length ≤
        2 * D ^ (exRated.rated exEnv).length) = true ∧
    exRated.outUnits exEnv 0 24 (2 + 6) = 12 := by
  decide +kernel

namespace Contract

/-- **C90**. What the view `get_return` reports of a constant-product pool, for three amounts. -/
theorem C90_get_return_simple {c : Contract} {p : SimplePool} {now id a1 a2 a3 out1 out2 out3 : Nat}
    {ti tout : AccountId} (hp : c.pools[id]? = some (.simple p))
    (h1 : c.getReturn now id ti a1 tout = .ok out1) (h2 : c.getReturn now id ti a2 tout = .ok out2)
    (h3 : c.getReturn now id ti a3 tout = .ok out3) (h12 : a1 ≤ a2) (h23 : a2 ≤ a3) :
    (out3 - out2) * (a2 - a1) ≤ (out2 - out1) * (a3 - a2) + (a3 - a1) := by
  have shape : ∀ {a out : Nat}, c.getReturn now id ti a tout = .ok out →
      ∃ m fees v q, p.swap ti a tout m fees v = .ok (q, out) := by
    intro a out h
    unfold getReturn at h
    unpack at h
    obtain ⟨p', hp', q, o, hs, rfl⟩ := h
    have hp' := pool_ok.1 hp'
    rw [hp] at hp'
    cases hp'
    simp only [Pool.swap] at hs
    unpack at hs
    obtain ⟨_, _, hs, -, rfl⟩ := hs
    exact ⟨_, _, _, _, hs⟩
  obtain ⟨_, _, _, _, h1⟩ := shape h1
  obtain ⟨_, _, _, _, h2⟩ := shape h2
  obtain ⟨_, _, _, _, h3⟩ := shape h3
  have := C90_simple h1 h2 h3 h12 h23
  omega

/-- **C90**. What the view `get_return` reports of a stable pool, for three amounts. `M` bounds the
pool's invariant `D` and its balances, and `j` is larger the further apart they are. -/
theorem C90_get_return_stable {c : Contract} (hc : c.Reachable) {p : CurvePool}
    {now id a1 a2 a3 out1 out2 out3 i o di do_ D M j : Nat} {ti tout : AccountId} {env : CurveEnv}
    (hp : c.pools[id]? = some (.curve p)) (hk : p.kind = .stable)
    (henv : c.cfg.env now (.curve p) = .ok env)
    (h1 : c.getReturn now id ti a1 tout = .ok out1) (h2 : c.getReturn now id ti a2 tout = .ok out2)
    (h3 : c.getReturn now id ti a3 tout = .ok out3) (h12 : a1 ≤ a2) (h23 : a2 ≤ a3)
    (hti : p.toks[i]? = some ti) (hto : p.toks[o]? = some tout)
    (hdi : p.decs[i]? = some di) (hdi2 : di ≤ 18) (hdo : p.decs[o]? = some do_)
    (hD : computeD 256 (p.inv env).amp p.cAmts = .ok D) (hDM : D ≤ M)
    (hM : ∀ x ∈ p.cAmts, x + a3 * 10 ^ (18 - di) + j + 1 ≤ M)
    (hj : (p.cAmts.length - 1) * M ^ p.cAmts.length ≤ j * D ^ p.cAmts.length) (hM2 : M < 2 ^ 128) :
    (out3 - out2) * (a2 - a1) ≤ (out2 - out1) * (a3 - a2) +
      (a3 - a1) * ((j + 8) * 10 ^ (do_ - 18) / 10 ^ (18 - do_) + 2) := by
  have shape : ∀ {a out : Nat}, c.getReturn now id ti a tout = .ok out →
      ∃ m fees v q, p.swap ti a tout m fees env v = .ok (q, out) := by
    intro a out h
    unfold getReturn at h
    unpack at h
    obtain ⟨p', hp', q, o, hs, rfl⟩ := h
    have hp' := pool_ok.1 hp'
    rw [hp] at hp'
    cases hp'
    simp only [Pool.swap, henv, ok_bind] at hs
    unpack at hs
    obtain ⟨_, _, hs, -, rfl⟩ := hs
    exact ⟨_, _, _, _, hs⟩
  obtain ⟨_, _, _, _, h1⟩ := shape h1
  obtain ⟨_, _, _, _, h2⟩ := shape h2
  obtain ⟨_, _, _, _, h3⟩ := shape h3
  exact C90_stable (hc.sound _ (List.mem_of_getElem? hp)) hk h1 h2 h3 h12 h23 hti hto hdi hdi2 hdo hD
    hDM hM hj hM2

open Demo

/-- In a constant-product pool the second thousand gets less than the first. -/
example : (c4.getReturn (10 ^ 18) 0 A 1000 B).holds (fun r1 =>
    (c4.getReturn (10 ^ 18) 0 A 2000 B).holds (fun r2 =>
      (c4.getReturn (10 ^ 18) 0 A 3000 B).holds (fun r3 =>
        0 < r1 ∧ 0 < r3 - r2 ∧ r3 - r2 < r2 - r1) = true) = true) = true := by decide +kernel

/-- The stable pool meets the conditions, with `j = 2`. -/
example : (match (c4.pools[1]? : Option Pool) with
    | some (.curve p) => decide (p.kind = .stable ∧ p.toks = [A, B] ∧ p.decs = [18, 18] ∧
        p.cAmts.length = 2) &&
      (c4.cfg.env (10 ^ 18) (.curve p)).holds (fun env =>
        (computeD 256 (p.inv env).amp p.cAmts).holds (fun D =>
          decide (D ≤ 9 * 10 ^ 23 ∧ (∀ x ∈ p.cAmts, x + 3 * 10 ^ 23 + 2 + 1 ≤ 9 * 10 ^ 23) ∧
            (p.cAmts.length - 1) * (9 * 10 ^ 23) ^ p.cAmts.length ≤ 2 * D ^ p.cAmts.length)))
    | _ => false) = true ∧
    (c4.getReturn (10 ^ 18) 1 A (10 ^ 23) B).holds (fun r1 =>
      (c4.getReturn (10 ^ 18) 1 A (2 * 10 ^ 23) B).holds (fun r2 =>
        (c4.getReturn (10 ^ 18) 1 A (3 * 10 ^ 23) B).holds (fun r3 =>
          0 < r1 ∧ 0 < r3 - r2 ∧ r3 - r2 < r2 - r1) = true) = true) = true := by decide +kernel

end Contract

end Verif

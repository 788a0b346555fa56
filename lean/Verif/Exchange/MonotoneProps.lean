import Verif.Curve.Monotone
import Verif.Exchange.PredictProps
import Verif.Exchange.PoolSteps

/-
C88: whoever pays more never gets less.
-/

namespace Verif

/-- What is left after a fee keeps its order. -/
theorem net_mono {f g g' : Nat} (hf : f ≤ 10000) (hg : g ≤ g') :
    g - g * f / 10000 ≤ g' - g' * f / 10000 := by
  obtain ⟨e, rfl⟩ := Nat.exists_eq_add_of_le hg
  have h1 : (g + e) * f ≤ g * f + e * 10000 := by
    rw [Nat.add_mul]
    exact Nat.add_le_add_left (Nat.mul_le_mul_left _ hf) _
  have h2 := Nat.div_le_div_right (c := 10000) h1
  rw [Nat.add_mul_div_right _ _ (by decide : 0 < 10000)] at h2
  have h3 : g * f / 10000 ≤ g := by
    apply Nat.div_le_of_le_mul
    rw [Nat.mul_comm]
    exact Nat.mul_le_mul_right _ hf
  omega

section simple
variable {p q q' : SimplePool} {ti tout : AccountId} {fees fees' : AdminFees} {v v' : Bool}

/-- **C88**, constant-product pools. Of two swaps in the same state, the one that pays more gets no
less, and at no better price: per unit paid it gets no more than the other would get with one more unit
paid out. -/
theorem C88_simple {a a' m m' out out' : Nat} (h : p.swap ti a tout m fees v = .ok (q, out))
    (h' : p.swap ti a' tout m' fees' v' = .ok (q', out')) (ha : a ≤ a') :
    out ≤ out' ∧ out' * a < (out + 1) * a' := by
  obtain ⟨i, o, -, hi, ho, -, hr, -, -⟩ := SimplePool.swap_ok h
  obtain ⟨i', o', -, hi', ho', -, hr', -, -⟩ := SimplePool.swap_ok h'
  rw [hi] at hi'; cases hi'
  rw [ho] at ho'; cases ho'
  obtain ⟨hX, hY, -, ha0, hf, hout⟩ := SimplePool.getReturn_ok hr
  obtain ⟨-, -, -, ha0', -, hout'⟩ := SimplePool.getReturn_ok hr'
  generalize 10000 - p.totalFee = f at *
  generalize p.amt i = X at *
  generalize p.amt o = Y at *
  have hd : 0 < 10000 * X + a * f := by omega
  have hd' : 0 < 10000 * X + a' * f := by omega
  constructor
  · rw [hout', Nat.le_div_iff_mul_le hd']
    have h1 : out * (10000 * X + a * f) ≤ a * f * Y := by rw [hout]; exact Nat.div_mul_le_self _ _
    refine Nat.le_of_mul_le_mul_right ?_ hd
    have h2 := Nat.mul_le_mul_right (10000 * X + a' * f) h1
    obtain ⟨e, rfl⟩ := Nat.exists_eq_add_of_le ha
    nlinarith [Nat.zero_le (e * f * Y * X)]
  · have h1 : a * f * Y < (out + 1) * (10000 * X + a * f) := by
      rw [hout, Nat.mul_comm (_ + 1)]
      exact Nat.lt_mul_div_succ _ hd
    have h2 : out' * (10000 * X + a' * f) ≤ a' * f * Y := by
      rw [hout']; exact Nat.div_mul_le_self _ _
    refine Nat.lt_of_mul_lt_mul_right (a := 10000 * X + a * f) ?_
    have h3 : out' * (10000 * X + a * f) ≤ out' * (10000 * X + a' * f) :=
      Nat.mul_le_mul_left _ (Nat.add_le_add_left (Nat.mul_le_mul_right _ ha) _)
    calc out' * a * (10000 * X + a * f) = out' * (10000 * X + a * f) * a := by ring
      _ ≤ a' * f * Y * a := Nat.mul_le_mul_right _ (h3.trans h2)
      _ = a * f * Y * a' := by ring
      _ < (out + 1) * (10000 * X + a * f) * a' := Nat.mul_lt_mul_of_pos_right h1 ha0'
      _ = (out + 1) * a' * (10000 * X + a * f) := by ring

/-- **C88**, swaps that ask for an exact output: asking for more costs no less. -/
theorem C88_simple_by_output {a a' inn inn' : Nat} {m m' : Option Nat}
    (h : p.swapByOutput ti a tout m fees v = .ok (q, inn))
    (h' : p.swapByOutput ti a' tout m' fees' v' = .ok (q', inn')) (ha : a ≤ a') : inn ≤ inn' := by
  obtain ⟨i, o, -, hi, ho, -, hr, -, -⟩ := SimplePool.swapByOutput_ok h
  obtain ⟨i', o', -, hi', ho', -, hr', -, -⟩ := SimplePool.swapByOutput_ok h'
  rw [hi] at hi'; cases hi'
  rw [ho] at ho'; cases ho'
  obtain ⟨-, -, -, -, -, rfl⟩ := SimplePool.getReturnByOutput_ok hr
  obtain ⟨-, hlt, -, -, hf, rfl⟩ := SimplePool.getReturnByOutput_ok hr'
  refine Nat.succ_le_succ (Nat.div_le_div (Nat.mul_le_mul_right _ (Nat.mul_le_mul_left _ ha))
    (Nat.mul_le_mul_right _ (by omega)) ?_)
  exact Nat.mul_ne_zero (by omega) (by omega)

end simple

/-- **C88**, stable, rated and degen pools. Of two swaps in the same state, the one that pays more gets
no less. -/
theorem C88_curve {p q q' : CurvePool} {ti tout : AccountId} {a a' m m' out out' : Nat}
    {fees fees' : AdminFees} {env : CurveEnv} {v v' : Bool} (hp : (Pool.curve p).Sound)
    (h : p.swap ti a tout m fees env v = .ok (q, out))
    (h' : p.swap ti a' tout m' fees' env v' = .ok (q', out')) (ha : a ≤ a') : out ≤ out' := by
  obtain ⟨i, o, r, di, do_, x, -, hti, hto, hio, -, hdi, hdo, hx, hr, hout, -, -, -⟩ :=
    CurvePool.swap_ok h
  obtain ⟨i', o', r', di', do', x', -, hti', hto', -, -, hdi', hdo', hx', hr', hout', -, -, -⟩ :=
    CurvePool.swap_ok h'
  have same : ∀ {n n' : Nat} {t : AccountId}, p.toks[n]? = some t → p.toks[n']? = some t → n' = n := by
    intro n n' t ha hb
    obtain ⟨l, rfl⟩ := List.getElem?_eq_some_iff.1 ha
    obtain ⟨l', hb⟩ := List.getElem?_eq_some_iff.1 hb
    exact (hp.2.getElem_inj_iff).1 hb
  have ei := same hti hti'
  have eo := same hto hto'
  subst i' o'
  rw [hdi] at hdi'; cases hdi'
  rw [hdo] at hdo'; cases hdo'
  obtain ⟨rin, rout, inn, xs, xi, xo, y, fee, adm, sw, hrin, hrout, hinn, hxs, hxi, hxo, hy, hyx,
    hfee, -, hsw, -, -, -, -, d3, -, -⟩ := CurvePool.swapTo_ok hr
  obtain ⟨rin', rout', inn', xs', xi', xo', y', fee', adm', sw', hrin', hrout', hinn', hxs', hxi', hxo',
    hy', -, hfee', -, hsw', -, -, -, -, d3', -, -⟩ := CurvePool.swapTo_ok hr'
  rw [hrin] at hrin'; cases hrin'
  rw [hrout] at hrout'; cases hrout'
  rw [hxs] at hxs'; cases hxs'
  rw [hxi] at hxi'; cases hxi'
  rw [hxo] at hxo'; cases hxo'
  obtain ⟨rfl, -⟩ := CurvePool.amountToC_ok hx
  obtain ⟨rfl, -⟩ := CurvePool.amountToC_ok hx'
  obtain ⟨rfl, -⟩ := CurvePool.cToAmount_ok hout
  obtain ⟨rfl, -⟩ := CurvePool.cToAmount_ok hout'
  have hinn2 : inn ≤ inn' := by
    rw [CurvePool.mulRate_ok hinn, CurvePool.mulRate_ok hinn']
    have := Nat.div_le_div_right (c := p.kind.tokPerC di) (Nat.mul_le_mul_right (p.kind.cPerTok di) ha)
    split
    · exact this
    · exact Nat.div_le_div_right (Nat.mul_le_mul_right _ this)
  have hil : i < xs.length := (List.getElem?_eq_some_iff.1 hxi).1
  have hol : o < xs.length := (List.getElem?_eq_some_iff.1 hxo).1
  have hyy : y' ≤ y := by
    refine computeY_mono hy hy' (by omega) (by omega) ?_
    obtain ⟨A, D, _, _, hA, hD, -⟩ := computeY_ok hy
    rw [hA] at hD
    have h1 := computeD_sum_lt hD
    have h2 := List.le_sum_of_mem (List.mem_of_getElem? hxo)
    omega
  have hsw2 : sw ≤ sw' := by
    have := net_mono (f := p.totalFee) (Nat.le_of_lt hp.1.fee) (show xo - y - 1 ≤ xo - y' - 1 by omega)
    simp only at hfee hfee'
    omega
  have hs3 : r.swapped ≤ r'.swapped := by
    rw [(CurvePool.divRate_ok d3).1, (CurvePool.divRate_ok d3').1]
    split
    · exact hsw2
    · exact Nat.div_le_div_right (Nat.mul_le_mul_right _ hsw2)
  exact Nat.div_le_div_right (Nat.mul_le_mul_right _ hs3)

/-- **C88** for a pool of any kind. -/
theorem C88_pool {p q q' : Pool} {ti tout : AccountId} {a a' m m' out out' : Nat}
    {fees fees' : AdminFees} {env : R CurveEnv} {v v' : Bool} (hp : p.Sound)
    (h : p.swap ti a tout m fees env v = .ok (q, out))
    (h' : p.swap ti a' tout m' fees' env v' = .ok (q', out')) (ha : a ≤ a') : out ≤ out' := by
  cases p with
  | simple p =>
    simp only [Pool.swap] at h h'
    unpack at h
    unpack at h'
    obtain ⟨_, _, h, -, rfl⟩ := h
    obtain ⟨_, _, h', -, rfl⟩ := h'
    exact (C88_simple h h' ha).1
  | curve p =>
    simp only [Pool.swap] at h h'
    unpack at h
    unpack at h'
    obtain ⟨e, he, _, _, h, -, rfl⟩ := h
    obtain ⟨e', he', _, _, h', -, rfl⟩ := h'
    rw [he] at he'; cases he'
    exact C88_curve hp h h' ha

namespace Contract

/-- **C88**. In any reachable state and for any pool, the view `get_return` reports no less for a larger
amount. -/
theorem C88_get_return {c : Contract} (hc : c.Reachable) {now id a a' out out' : Nat}
    {ti tout : AccountId} (h : c.getReturn now id ti a tout = .ok out)
    (h' : c.getReturn now id ti a' tout = .ok out') (ha : a ≤ a') : out ≤ out' := by
  unfold getReturn at h h'
  unpack at h
  unpack at h'
  obtain ⟨p, hp, q, o, hs, rfl⟩ := h
  obtain ⟨p', hp', q', o', hs', rfl⟩ := h'
  rw [hp] at hp'; cases hp'
  exact C88_pool (hc.sound _ (List.mem_of_getElem? (pool_ok.1 hp))) hs hs' ha

/-- **C88**. The view `get_return_by_output` reports no less for a larger output. -/
theorem C88_get_return_by_output {c : Contract} {id a a' inn inn' : Nat} {ti tout : AccountId}
    (h : c.getReturnByOutput id ti a tout = .ok inn)
    (h' : c.getReturnByOutput id ti a' tout = .ok inn') (ha : a ≤ a') : inn ≤ inn' := by
  unfold getReturnByOutput at h h'
  unpack at h
  unpack at h'
  obtain ⟨p, hp, q, o, hs, rfl⟩ := h
  obtain ⟨p', hp', q', o', hs', rfl⟩ := h'
  rw [hp] at hp'; cases hp'
  cases p with
  | simple p =>
    simp only [Pool.swapByOutput] at hs hs'
    unpack at hs
    unpack at hs'
    obtain ⟨_, _, hs, -, rfl⟩ := hs
    obtain ⟨_, _, hs', -, rfl⟩ := hs'
    exact C88_simple_by_output hs hs' ha
  | curve p => cases hs

/-- Two runs of the same swaps through different pools: the run that starts with more ends with
more. -/
theorem runSwaps_mono {c0 : Contract} (hc : c0.Reachable) {now : Nat} {l : List SwapAction}
    (hl : (l.map (·.pool)).Nodup) (hn : ∀ s ∈ l, s.amtIn = none) :
    ∀ {c c' d d' : Contract} {r r' : Option (AccountId × Nat)} {acc acc' bcc bcc' : Account} {n m : Nat}
      {x y : ActionResult}, n ≤ m → c.cfg = c0.cfg → d.cfg = c0.cfg →
      (∀ s ∈ l, c.pools[s.pool]? = c0.pools[s.pool]? ∧ d.pools[s.pool]? = c0.pools[s.pool]?) →
      c.runSwaps now r acc (some n) l = .ok (c', acc', x) →
      d.runSwaps now r' bcc (some m) l = .ok (d', bcc', y) →
      ∃ n' m', x = some n' ∧ y = some m' ∧ n' ≤ m' := by
  induction l with
  | nil =>
    intro c c' d d' r r' acc acc' bcc bcc' n m x y hnm _ _ _ h h'
    cases h
    cases h'
    exact ⟨_, _, rfl, rfl, hnm⟩
  | cons s l ih =>
    intro c c' d d' r r' acc acc' bcc bcc' n m x y hnm e1 e2 hp h h'
    have hs := hn s (by simp)
    rw [List.map_cons, List.nodup_cons] at hl
    simp only [runSwaps, amountOr, hs, expectE, ok_bind] at h h'
    unpack at h
    unpack at h'
    obtain ⟨a1, -, c1, out, hs, a2, -, h⟩ := h
    obtain ⟨b1, -, d1, out', hs', b2, -, h'⟩ := h'
    obtain ⟨tw, vs, p, q, hp1, w, -, rfl⟩ := poolSwap_ok hs
    obtain ⟨tw', vs', p', q', hp2, w', -, rfl⟩ := poolSwap_ok hs'
    obtain ⟨k1, k2⟩ := hp s (by simp)
    rw [k1] at hp1
    rw [k2, hp1] at hp2
    cases hp2
    rw [e1] at w
    rw [e2] at w'
    refine ih hl.2 (fun s h => hn s (by simp [h]))
      (C88_pool (hc.sound _ (List.mem_of_getElem? hp1)) w w' hnm) ?_ ?_ (fun t ht => ?_) h h'
    · exact e1
    · exact e2
    have hne : s.pool ≠ t.pool := fun e => hl.1 (e ▸ List.mem_map_of_mem ht)
    obtain ⟨k3, k4⟩ := hp t (by simp [ht])
    simp only [List.getElem?_set_ne hne]
    exact ⟨k3, k4⟩

/-- A route: pay `a` into the first swap, and pass what each swap gives on to the next. -/
def route (s : SwapAction) (a : Nat) (l : List SwapAction) : List Action :=
  .swap { s with amtIn := some a } :: l.map .swap

/-- **C88**, routes. Two calls, in the same state and at the same time, that take the same route through
different pools, by whomever and with whatever referral: the one that pays more gets no less. -/
theorem C88_route {c c' d' : Contract} (hc : c.Reachable) {x x' : Ctx} {s : SwapAction}
    {l : List SwapAction} {a a' : Nat} {ref ref' : Option AccountId} {res res' : ActionResult}
    (hl : ((s :: l).map (·.pool)).Nodup) (hn : ∀ s ∈ l, s.amtIn = none) (ht : x.now = x'.now)
    (h : c.executeActions x (route s a l) ref = .ok (c', res))
    (h' : c.executeActions x' (route s a' l) ref' = .ok (d', res')) (ha : a ≤ a') :
    ∃ out out', res = some out ∧ res' = some out' ∧ out ≤ out' := by
  obtain ⟨acc, acc', c1, -, -, -, -, g, -⟩ := executeActions_inv h
  obtain ⟨bcc, bcc', d1, -, -, -, -, g', -⟩ := executeActions_inv h'
  unfold runActions route at g g'
  unpack at g
  unpack at g'
  obtain ⟨-, _, -, g⟩ := g
  obtain ⟨-, _, -, g'⟩ := g'
  have e : ∀ l : List SwapAction, (l.map Action.swap).filterMap Action.asSwap = l := by
    intro l
    induction l with
    | nil => rfl
    | cons s l ih => simp [Action.asSwap, ih]
  simp only [List.filterMap_cons, Action.asSwap, e, runSwaps, amountOr, ok_bind] at g g'
  unpack at g
  unpack at g'
  obtain ⟨a1, -, c2, out, hs, a2, -, g⟩ := g
  obtain ⟨b1, -, d2, out', hs', b2, -, g'⟩ := g'
  obtain ⟨tw, vs, p, q, hp, w, -, rfl⟩ := poolSwap_ok hs
  obtain ⟨tw', vs', p', q', hp', w', -, rfl⟩ := poolSwap_ok hs'
  rw [hp] at hp'; cases hp'
  rw [← ht] at w' g'
  rw [List.map_cons, List.nodup_cons] at hl
  refine runSwaps_mono hc hl.2 hn (C88_pool (hc.sound _ (List.mem_of_getElem? hp)) w w' ha) ?_ ?_
    (fun t ht => ?_) g g'
  · rfl
  · rfl
  have hne : s.pool ≠ t.pool := fun e => hl.1 (e ▸ List.mem_map_of_mem ht)
  exact ⟨List.getElem?_set_ne hne, List.getElem?_set_ne hne⟩

open Demo

/-- The views give growing answers on pools of every kind. -/
example : (c4.getReturn (10 ^ 18) 0 A 1000 B).holds (fun r =>
      (c4.getReturn (10 ^ 18) 0 A 1001 B).holds (fun r' => 0 < r ∧ r < r') = true) = true ∧
    (c4.getReturn (10 ^ 18) 1 A (10 ^ 20) B).holds (fun r =>
      (c4.getReturn (10 ^ 18) 1 A (10 ^ 20 + 10 ^ 19) B).holds (fun r' => 0 < r ∧ r < r') = true) = true ∧
    (c4.getReturn (10 ^ 18) 3 A (10 ^ 18) B).holds (fun r =>
      (c4.getReturn (10 ^ 18) 3 A (10 ^ 19) B).holds (fun r' => 0 < r ∧ r < r') = true) = true ∧
    (c4.getReturnByOutput 0 A 1000 B).holds (fun r =>
      (c4.getReturnByOutput 0 A 1010 B).holds (fun r' => 0 < r ∧ r < r') = true) = true := by
  decide +kernel

/-- Bob takes a route through two pools. -/
example : (c2.executeActions (by' bo) (route ⟨0, A, none, B, 1⟩ 1000 [⟨1, B, none, A, 1⟩]) none).holds
    (fun r => (c2.executeActions (by' bo) (route ⟨0, A, none, B, 1⟩ 1500 [⟨1, B, none, A, 1⟩]) none).holds
      (fun r' => 0 < r.2.getD 0 ∧ r.2.getD 0 < r'.2.getD 0) = true) = true := by decide +kernel

end Contract
end Verif

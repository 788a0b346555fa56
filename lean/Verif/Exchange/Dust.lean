import Verif.Exchange.ExactLedger

/-
C95: what the rounding of stable, rated and degen pools can take away from the books.
-/

namespace Verif

open CurvePool

/-! ### Arithmetic -/

/-- Converting with a rate and back loses little: the source of a swap. -/
theorem unrate_source {a b g r : Nat} (hg : PRECISION ≤ g * r) :
    a + b ≤ (a * r / PRECISION + b * r / PRECISION) * PRECISION / r + 2 * g := by
  have hP : 0 < PRECISION := by decide
  have hr : 0 < r := by
    rcases Nat.eq_zero_or_pos r with rfl | h
    · omega
    · exact h
  have h1 := Nat.lt_mul_div_succ (a * r) hP
  have h2 := Nat.lt_mul_div_succ (b * r) hP
  generalize a * r / PRECISION = x at *
  generalize b * r / PRECISION = y at *
  have h3 := Nat.lt_mul_div_succ ((x + y) * PRECISION) hr
  generalize (x + y) * PRECISION / r = N at *
  have h4 : (a + b) * r < (N + 1 + 2 * g) * r := by nlinarith
  have := Nat.lt_of_mul_lt_mul_right h4
  omega

/-- The destination of a swap: payment, protocol fee and what stays. -/
theorem unrate_dest {a b c old g r : Nat} (hg : PRECISION ≤ g * r) (h : a + b + c = old * r / PRECISION) :
    old ≤ a * PRECISION / r + b * PRECISION / r + c * PRECISION / r + (g + 2) := by
  have hP : 0 < PRECISION := by decide
  have hr : 0 < r := by
    rcases Nat.eq_zero_or_pos r with rfl | h
    · omega
    · exact h
  have h1 := Nat.lt_mul_div_succ (old * r) hP
  rw [← h] at h1
  have h2 := Nat.lt_mul_div_succ (a * PRECISION) hr
  have h3 := Nat.lt_mul_div_succ (b * PRECISION) hr
  have h4 := Nat.lt_mul_div_succ (c * PRECISION) hr
  generalize a * PRECISION / r = x at *
  generalize b * PRECISION / r = y at *
  generalize c * PRECISION / r = z at *
  have h5 : old * r < (x + y + z + 3 + g) * r := by nlinarith
  have := Nat.lt_of_mul_lt_mul_right h5
  omega

/-- What the conversion with rates can lose in a swap, in internal units; stable pools have none. -/
def CurveKind.slack (k : CurveKind) (g : Nat) : Nat × Nat :=
  match k with
  | .stable => (0, 0)
  | _ => (2 * g, g + 2)

theorem swapTo_slack {v : Inv} {i o a g : Nat} {cur : List Nat} {f : CurveFees} {r : SwapResult}
    (h : v.swapTo i a o cur f = .ok r) {ci co : Nat} (hci : cur[i]? = some ci) (hco : cur[o]? = some co) :
    ((v.kind ≠ .stable → ∀ r, v.rates[i]? = some r → PRECISION ≤ g * r) →
      ci + a ≤ r.newSource + (v.kind.slack g).1) ∧
    ((v.kind ≠ .stable → ∀ r, v.rates[o]? = some r → PRECISION ≤ g * r) →
      co ≤ r.newDest + r.swapped + r.adminFee + (v.kind.slack g).2) := by
  obtain ⟨rin, rout, inn, xs, xi, xo, y, fee, adm, sw, hrin, hrout, hinn, hxs, hxi, hxo, -, -,
    -, -, -, hsa, -, d1, d2, d3, d4, -⟩ := swapTo_ok h
  obtain ⟨ci', hci', hi⟩ := rateBalances_at hxs hxi
  obtain ⟨co', hco', ho⟩ := rateBalances_at hxs hxo
  rw [hci] at hci'
  rw [hco] at hco'
  cases hci'
  cases hco'
  have hsl : v.kind ≠ .stable → v.kind.slack g = (2 * g, g + 2) := by
    intro hk
    cases hv : v.kind <;> simp_all [CurveKind.slack]
  constructor
  · intro hg
    have hm := mulRate_ok hinn
    obtain ⟨hd, -⟩ := divRate_ok d1
    rcases hi with ⟨hk, rfl⟩ | ⟨hk, r', hr', hx⟩
    · rw [if_pos hk] at hm hd; omega
    · rw [if_neg hk] at hm hd
      have hrr : rin = r' := by
        unfold Inv.rateAt at hrin
        cases hkk : v.kind <;> simp_all [expectE_ok]
      subst hrr
      rw [hsl hk, hd, hx, hm]
      exact unrate_source (hg hk _ hr')
  · intro hg
    obtain ⟨e2, -⟩ := divRate_ok d2
    obtain ⟨e3, -⟩ := divRate_ok d3
    obtain ⟨e4, -⟩ := divRate_ok d4
    rcases ho with ⟨hk, rfl⟩ | ⟨hk, r', hr', hx⟩
    · rw [if_pos hk] at e2 e3 e4; omega
    · rw [if_neg hk] at e2 e3 e4
      have hrr : rout = r' := by
        unfold Inv.rateAt at hrout
        cases hkk : v.kind <;> simp_all [expectE_ok]
      subst hrr
      rw [hsl hk, e2, e3, e4]
      exact unrate_dest (hg hk _ hr') (by omega)

theorem flow_at {t : AccountId} : ∀ {us : List AccountId} {xs : List Nat} {j : Nat}, us.Nodup →
    us[j]? = some t → flow us xs t = xs.getD j 0
  | [], _, _, _, h => by simp at h
  | u :: us, xs, 0, hn, h => by
    simp at h
    subst h
    rw [flow_cons, if_pos rfl, flow_not_mem (List.nodup_cons.1 hn).1]
    rfl
  | u :: us, xs, j + 1, hn, h => by
    have h' : us[j]? = some t := by simpa using h
    have : u ≠ t := by
      rintro rfl
      exact (List.nodup_cons.1 hn).1 (List.mem_of_getElem? h')
    rw [flow_cons, if_neg this, flow_at (List.nodup_cons.1 hn).2 h', Nat.zero_add]
    cases xs <;> simp

/-! ### Pools -/

/-- How coarse the internal units of the pool are for token `t`: the token has no more decimals than
the pool, and its rate, if the pool has rates, is at least `1/g`. -/
def Pool.Grained (t : AccountId) (g : Nat) (env : Nat → R CurveEnv) : Pool → Prop
  | .simple _ => True
  | .curve p => ∀ i d : Nat, p.toks[i]? = some t → p.decs[i]? = some d → d ≤ p.kind.target ∧
      (p.kind ≠ .stable → ∀ (now : Nat) (e : CurveEnv) (r : Nat), env now = .ok e → e.rates[i]? = some r → PRECISION ≤ g * r)

theorem CurveKind.weight_fine {k : CurveKind} {d : Nat} (h : d ≤ k.target) :
    k.weight d * k.cPerTok d = ATOMS ∧ k.tokPerC d = 1 ∧ k.weight d ≤ ATOMS := by
  have h1 : k.tokPerC d = 1 := by simp [CurveKind.tokPerC, Nat.sub_eq_zero_of_le h]
  have h2 := k.weight_spec d
  rw [h1, Nat.mul_one] at h2
  refine ⟨h2, h1, ?_⟩
  have := k.cPerTok_pos d
  rw [← h2]
  exact Nat.le_mul_of_pos_right _ this

/-- Conversion of an amount is exact. -/
theorem credited_exact {k : CurveKind} {d a c : Nat} (hd : d ≤ k.target) (h : amountToC k d a = .ok c) :
    c * k.weight d = a * ATOMS := by
  obtain ⟨h1, h2, -⟩ := CurveKind.weight_fine hd
  obtain ⟨rfl, -⟩ := amountToC_ok h
  rw [h2, Nat.div_one, ← h1]
  ring

/-- Conversion to an amount loses less than a unit. -/
theorem covered_close {k : CurveKind} {d a c : Nat} (hd : d ≤ k.target) (h : cToAmount k d c = .ok a) :
    c * k.weight d ≤ a * ATOMS + ATOMS := by
  obtain ⟨h1, h2, -⟩ := CurveKind.weight_fine hd
  obtain ⟨rfl, -⟩ := cToAmount_ok h
  rw [h2, Nat.mul_one]
  have h3 := (Nat.lt_mul_div_succ c (k.cPerTok_pos d)).le
  calc c * k.weight d ≤ k.cPerTok d * (c / k.cPerTok d + 1) * k.weight d := Nat.mul_le_mul_right _ h3
    _ = (c / k.cPerTok d + 1) * (k.weight d * k.cPerTok d) := by ring
    _ = _ := by rw [h1]; ring

/-- The largest loss of a swap in units of the token. -/
def dustOf (g : Nat) : Nat := 3 * g + 1

theorem slack_dust {k : CurveKind} {d g : Nat} (hd : d ≤ k.target) (hg : k ≠ .stable → 0 < g) :
    (k.slack g).1 * k.weight d ≤ ATOMS * dustOf g ∧
    (k.slack g).2 * k.weight d + ATOMS ≤ ATOMS * dustOf g := by
  obtain ⟨-, -, hw⟩ := CurveKind.weight_fine hd
  by_cases hk : k = .stable
  · subst hk
    simp only [CurveKind.slack, Nat.zero_mul, Nat.zero_add, dustOf, Nat.zero_le, true_and]
    exact Nat.le_mul_of_pos_right _ (by omega)
  · have hs : k.slack g = (2 * g, g + 2) := by cases k <;> simp_all [CurveKind.slack]
    have h0 := hg hk
    rw [hs]
    unfold dustOf
    constructor
    · nlinarith
    · have : (g + 2) * k.weight d ≤ (g + 2) * ATOMS := Nat.mul_le_mul_left _ hw
      nlinarith

namespace Pool

theorem curve_at {p : CurvePool} {t : AccountId} {j c d : Nat} (hn : p.toks.Nodup)
    (hj : p.toks[j]? = some t) (hc : p.cAmts[j]? = some c) (hd : p.decs[j]? = some d) :
    (Pool.curve p).atoms t = c * p.kind.weight d := by
  unfold atoms
  rw [show (Pool.curve p).tokens = p.toks from rfl, flow_at hn hj, weighted_getD hc hd]

theorem swap_dust {p q : Pool} {ti tout : AccountId} {a mo out now g : Nat} {fees : AdminFees}
    {env : Nat → R CurveEnv} {v : Bool} (hp : p.Sound) {t : AccountId} (ht : p.Grained t g env)
    (h : p.swap ti a tout mo fees (env now) v = .ok (q, out)) :
    p.atoms t + (if ti = t then a * ATOMS else 0) ≤
      q.atoms t + (if tout = t then out * ATOMS else 0) +
        (if ti = t ∨ tout = t then ATOMS * dustOf g else 0) := by
  have hsh := swap_shape h
  cases p with
  | simple p =>
    have := swap_exact hp (t := t) (fun _ => ⟨p, rfl⟩) h
    omega
  | curve p =>
    by_cases hm : t ∈ p.toks
    · replace h := swap_curve h
      obtain ⟨e, q', he, rfl, h⟩ := h
      obtain ⟨i, o, r, di, dd, x, hne, hti, hto, hio, -, hdi, hdo, hx, hr, hout, -, -, hq⟩ :=
        CurvePool.swap_ok h
      obtain ⟨ci, co, hci, hco, -, -⟩ := swapTo_conserves hr
      obtain ⟨l1, l2⟩ := swapTo_slack (g := g) hr hci hco
      have hnd := hp.2
      have hil := (List.getElem?_eq_some_iff.1 hci).1
      have hol := (List.getElem?_eq_some_iff.1 hco).1
      have hqa : ∃ co', r.newDest + r.adminFee = co' ∧ q'.toks = p.toks ∧ q'.decs = p.decs ∧
          q'.kind = p.kind ∧ q'.cAmts = (p.cAmts.set i r.newSource).set o co' := by
        refine ⟨_, rfl, ?_⟩
        rcases swapFee_ok hq with ⟨rfl, hz⟩ | ⟨-, -, m, f, old, -, hold, hlt, hm⟩
        · have : r.adminFee = 0 := by
            rcases hz with hz | hz
            · obtain ⟨_, _, _, _, _, _, _, _, adm, _, -, -, -, -, -, -, -, -, -, hadm, -, -, -, -, -, -, d4, -⟩ :=
                swapTo_ok hr
              simp only [hz, Nat.mul_zero, Nat.zero_div] at hadm
              subst hadm
              rw [(divRate_ok d4).1]
              split <;> simp
            · exact hz
          rw [this]
          exact ⟨rfl, rfl, rfl, rfl⟩
        · rw [List.getElem?_set_self (by simpa using hol)] at hold
          cases hold
          rw [hm.frame]
          refine ⟨rfl, rfl, rfl, ?_⟩
          simp
      obtain ⟨co', hco', e1, e2, e3, e4⟩ := hqa
      obtain ⟨j, hj⟩ := List.getElem?_of_mem hm
      have hjl := (List.getElem?_eq_some_iff.1 hj).1
      have hlen := hp.1.len
      have hdl := hp.1.decs
      by_cases jo : j = o
      · subst jo
        rw [hto] at hj
        cases hj
        obtain ⟨hd, hg⟩ := ht j dd hto hdo
        have hrate : (p.inv e).kind ≠ .stable → ∀ r, (p.inv e).rates[j]? = some r → PRECISION ≤ g * r :=
          fun hk r hr => hg hk now e r he hr
        have l2 := l2 hrate
        have hg0 : p.kind ≠ .stable → 0 < g := by
          intro hk
          obtain ⟨_, rout, _, xs, _, xo, _, _, _, _, -, -, -, hxs, -, hxo, -⟩ := swapTo_ok hr
          obtain ⟨_, -, ⟨hk', -⟩ | ⟨-, r', hr', -⟩⟩ := rateBalances_at hxs hxo
          · exact absurd hk' hk
          · have := hrate hk r' hr'
            rcases Nat.eq_zero_or_pos g with rfl | h
            · rw [Nat.zero_mul] at this
              exact absurd this (by decide)
            · exact h
        rw [curve_at hnd hto hco hdo, curve_at (c := co') (d := dd) (j := j) (by rw [e1]; exact hnd)
          (by rw [e1]; exact hto) (by rw [e4, List.getElem?_set_self (by simpa using hol)])
          (by rw [e2]; exact hdo), e3, if_neg hne, if_pos rfl, if_pos (.inr rfl), ← hco']
        have h1 := covered_close hd hout
        have h2 := (slack_dust hd hg0).2
        have h3 : co * p.kind.weight dd ≤
            (r.newDest + r.swapped + r.adminFee + (p.kind.slack g).2) * p.kind.weight dd :=
          Nat.mul_le_mul_right _ l2
        nlinarith
      · by_cases ji : j = i
        · subst ji
          rw [hti] at hj
          cases hj
          obtain ⟨hd, hg⟩ := ht j di hti hdi
          have hrate : (p.inv e).kind ≠ .stable → ∀ r, (p.inv e).rates[j]? = some r → PRECISION ≤ g * r :=
            fun hk r hr => hg hk now e r he hr
          have l1 := l1 hrate
          have hg0 : p.kind ≠ .stable → 0 < g := by
            intro hk
            obtain ⟨_, rout, _, xs, xi, _, _, _, _, _, -, -, -, hxs, hxi, -⟩ := swapTo_ok hr
            obtain ⟨_, -, ⟨hk', -⟩ | ⟨-, r', hr', -⟩⟩ := rateBalances_at hxs hxi
            · exact absurd hk' hk
            · have := hrate hk r' hr'
              rcases Nat.eq_zero_or_pos g with rfl | h
              · rw [Nat.zero_mul] at this
                exact absurd this (by decide)
              · exact h
          rw [curve_at hnd hti hci hdi, curve_at (c := r.newSource) (d := di) (j := j)
            (by rw [e1]; exact hnd) (by rw [e1]; exact hti)
            (by rw [e4, List.getElem?_set_ne (Ne.symm jo), List.getElem?_set_self hil])
            (by rw [e2]; exact hdi), e3, if_pos rfl, if_neg (Ne.symm hne), if_pos (.inl rfl)]
          have h1 := credited_exact hd hx
          have h2 := (slack_dust hd hg0).1
          have h3 : (ci + x) * p.kind.weight di ≤
              (r.newSource + (p.kind.slack g).1) * p.kind.weight di :=
            Nat.mul_le_mul_right _ l1
          nlinarith
        · obtain ⟨c, hc⟩ : ∃ c, p.cAmts[j]? = some c := ⟨_, List.getElem?_eq_getElem (by omega)⟩
          obtain ⟨d, hd⟩ : ∃ d, p.decs[j]? = some d := ⟨_, List.getElem?_eq_getElem (by omega)⟩
          have n1 : ti ≠ t := by
            rintro rfl
            have := (List.getElem?_inj hjl hnd).1 (hj.trans hti.symm)
            exact ji this
          have n2 : tout ≠ t := by
            rintro rfl
            have := (List.getElem?_inj hjl hnd).1 (hj.trans hto.symm)
            exact jo this
          rw [curve_at hnd hj hc hd, curve_at (c := c) (d := d) (j := j) (by rw [e1]; exact hnd)
            (by rw [e1]; exact hj)
            (by rw [e4, List.getElem?_set_ne (Ne.symm jo), List.getElem?_set_ne (Ne.symm ji)]; exact hc)
            (by rw [e2]; exact hd), e3, if_neg n1, if_neg n2]
          omega
    · have e1 : ti ≠ t := fun e => hm (e ▸ hsh.2.2.2.1)
      have e2 : tout ≠ t := fun e => hm (e ▸ hsh.2.2.2.2.1)
      rw [if_neg e1, if_neg e2, atoms_absent hsh.1 hm]
      omega

theorem addStable_dust {p q : Pool} {s : AccountId} {am : List Nat} {mn n g : Nat}
    {fees : AdminFees} {env : Nat → R CurveEnv} {e' : R CurveEnv} {v : Bool} (hp : p.Sound)
    {t : AccountId} (ht : p.Grained t g env)
    (h : p.addStable s am mn fees e' v = .ok (q, n)) :
    q.atoms t = p.atoms t + flow p.tokens am t * ATOMS := by
  have hsh := (addStable_shape h).1
  replace h := addStable_curve h
  obtain ⟨p, q, e, rfl, rfl, -, h⟩ := h
  by_cases hm : t ∈ p.toks
  · obtain ⟨j, hj⟩ := List.getElem?_of_mem hm
    have hjl := (List.getElem?_eq_some_iff.1 hj).1
    have hlen := hp.1.len
    obtain ⟨c, hc⟩ : ∃ c, p.cAmts[j]? = some c := ⟨_, List.getElem?_eq_getElem (by omega)⟩
    obtain ⟨fp, cs, p1, -, -, -, hcs, -, -, hm⟩ := CurvePool.addLiquidity_ok h
    obtain ⟨-, -, hall⟩ := addAmounts_ok hcs
    obtain ⟨d, a, x, hd, ha, hx, hn⟩ := hall j c hc
    simp only [shape, Prod.mk.injEq, Option.some.injEq] at hsh
    rw [curve_at hp.2 hj hc hd, curve_at (c := c + x) (d := d) (j := j) (by rw [hsh.2.1]; exact hp.2)
      (by rw [hsh.2.1]; exact hj) (by rw [hm.frame]; exact hn) (by rw [hsh.2.2]; exact hd), hsh.1,
      show (Pool.curve p).tokens = p.toks from rfl, flow_at hp.2 hj]
    have := credited_exact (ht j d hj hd).1 hx
    simp only [List.getD_eq_getElem?_getD, ha, Option.getD_some]
    rw [Nat.add_mul, this]
  · rw [atoms_absent hsh hm, show (Pool.curve p).tokens = p.toks from rfl, flow_not_mem hm]; omega

theorem removeByTokens_dust {p q : Pool} {s : AccountId} {am : List Nat} {mb n g : Nat}
    {fees : AdminFees} {env : Nat → R CurveEnv} {e' : R CurveEnv} {v : Bool} (hp : p.Sound)
    {t : AccountId} (ht : p.Grained t g env)
    (h : p.removeByTokens s am mb fees e' v = .ok (q, n)) :
    q.atoms t + flow p.tokens am t * ATOMS = p.atoms t := by
  have hsh := (removeByTokens_shape h).1
  replace h := removeByTokens_curve h
  obtain ⟨p, q, e, rfl, rfl, -, h⟩ := h
  by_cases hm : t ∈ p.toks
  · obtain ⟨j, hj⟩ := List.getElem?_of_mem hm
    have hjl := (List.getElem?_eq_some_iff.1 hj).1
    have hlen := hp.1.len
    have hdl := hp.1.decs
    obtain ⟨c, hc⟩ : ∃ c, p.cAmts[j]? = some c := ⟨_, List.getElem?_eq_getElem (by omega)⟩
    obtain ⟨d, hd⟩ : ∃ d, p.decs[j]? = some d := ⟨_, List.getElem?_eq_getElem (by omega)⟩
    obtain ⟨cs, _, ns, -, hcs, -, -, hns, -, hf, -⟩ := removeByTokens_ok h
    obtain ⟨-, -, hall⟩ := amountsToC_ok hcs
    obtain ⟨a, w, ha, hw, hx⟩ := hall j d hd
    obtain ⟨-, hall⟩ := subReserves_ok hns
    obtain ⟨w', hw', hle, hn, -⟩ := hall j c hc
    rw [hw] at hw'
    cases hw'
    simp only [shape, Prod.mk.injEq, Option.some.injEq] at hsh
    rw [curve_at hp.2 hj hc hd, curve_at (c := c - w) (d := d) (j := j) (by rw [hsh.2.1]; exact hp.2)
      (by rw [hsh.2.1]; exact hj) (by rw [hf]; exact hn) (by rw [hsh.2.2]; exact hd), hsh.1,
      show (Pool.curve p).tokens = p.toks from rfl, flow_at hp.2 hj]
    have := credited_exact (ht j d hj hd).1 hx
    simp only [List.getD_eq_getElem?_getD, ha, Option.getD_some]
    rw [← this, ← Nat.add_mul, Nat.sub_add_cancel hle]
  · rw [atoms_absent hsh hm, show (Pool.curve p).tokens = p.toks from rfl, flow_not_mem hm]; omega

theorem removeLiquidity_dust {p q : Pool} {s : AccountId} {n g : Nat} {mins paid : List Nat}
    {env : Nat → R CurveEnv} {v : Bool} (hp : p.Sound) {t : AccountId} (ht : p.Grained t g env)
    (h : p.removeLiquidity s n mins v = .ok (q, paid)) :
    p.atoms t ≤ q.atoms t + flow p.tokens paid t * ATOMS + ATOMS := by
  have hsh := (removeLiquidity_shape h).1
  have hc := removeLiquidity_cases h
  rcases hc with ⟨p, q, rfl, rfl, -⟩ | ⟨p, q, rfl, rfl, hc⟩
  · have := removeLiquidity_exact (t := t) (fun _ => ⟨p, rfl⟩) h
    omega
  · by_cases hm : t ∈ p.toks
    · obtain ⟨j, hj⟩ := List.getElem?_of_mem hm
      have hjl := (List.getElem?_eq_some_iff.1 hj).1
      have hlen := hp.1.len
      obtain ⟨c, hcj⟩ : ∃ c, p.cAmts[j]? = some c := ⟨_, List.getElem?_eq_getElem (by omega)⟩
      obtain ⟨-, -, -, hl, -⟩ := removeByShares_ok hc
      obtain ⟨-, -, -, hall⟩ := removeLoop_ok hl
      obtain ⟨d, m, a, hd, -, ha, hle, hn, -, hca, -⟩ := hall j c hcj
      simp only [shape, Prod.mk.injEq, Option.some.injEq] at hsh
      rw [curve_at hp.2 hj hcj hd, curve_at (d := d) (j := j) (by rw [hsh.2.1]; exact hp.2)
        (by rw [hsh.2.1]; exact hj) hn (by rw [hsh.2.2]; exact hd), hsh.1,
        show (Pool.curve p).tokens = p.toks from rfl, flow_at hp.2 hj]
      have := covered_close (ht j d hj hd).1 hca
      simp only [List.getD_eq_getElem?_getD, ha, Option.getD_some]
      have e : c * p.kind.weight d = (c - c * n / p.supply) * p.kind.weight d +
          c * n / p.supply * p.kind.weight d := by rw [← Nat.add_mul, Nat.sub_add_cancel hle]
      omega
    · rw [atoms_absent hsh hm, show (Pool.curve p).tokens = p.toks from rfl, flow_not_mem hm]; omega

end Pool
end Verif

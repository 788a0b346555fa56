import Verif.Exchange.PoolProps
import Verif.Exchange.ZapProps

/-
C58: a pool with shares holds some of every token; an empty constant-product pool holds nothing.
-/

namespace Verif

/-- A stable pool whose shares exist holds some of every token. -/
def Pool.Backed : Pool → Prop
  | .simple _ => True
  | .curve p => p.kind = .stable → 0 < p.supply → ∀ c ∈ p.cAmts, 0 < c

namespace CurvePool

/-- The first deposit must bring some of every token. -/
theorem addLiquidity_first {p q : CurvePool} {s : AccountId} {am : List Nat} {mn n : Nat}
    {fees : AdminFees} {env : CurveEnv} {v : Bool} (hp : p.Sound) (h0 : p.supply = 0)
    (h : p.addLiquidity s am mn fees env v = .ok (q, n)) :
    (∀ c ∈ q.cAmts, 0 < c) ∧ ∀ a ∈ am, 0 < a := by
  obtain ⟨fp, cs, p1, hl, hc, -, hcs, -, -, hm⟩ := addLiquidity_ok h
  unfold calcAdd at hc
  unpack at hc
  obtain ⟨dep, hdep, hc⟩ := hc
  rw [if_pos h0] at hc
  unpack at hc
  obtain ⟨-, -, hpos, -⟩ := hc
  obtain ⟨hlen, -, hall⟩ := addAmounts_ok hcs
  obtain ⟨-, -, hdall⟩ := amountsToC_ok hdep
  have key : ∀ (i a : Nat), am[i]? = some a → ∃ d x, p.decs[i]? = some d ∧
      amountToC p.kind d a = .ok x ∧ 0 < x := by
    intro i a ha
    have hi := (List.getElem?_eq_some_iff.1 ha).1
    have hd : p.decs[i]? = some (p.decs[i]'(by rw [hp.decs]; omega)) :=
      List.getElem?_eq_getElem _
    obtain ⟨a', c, ha', hc, hx⟩ := hdall i _ hd
    rw [ha] at ha'; cases ha'
    exact ⟨_, c, hd, hx, hpos c (List.mem_of_getElem? hc)⟩
  constructor
  · intro c hc
    rw [hm.frame] at hc
    obtain ⟨i, hi, rfl⟩ := List.getElem_of_mem hc
    simp only at hi ⊢
    obtain ⟨d, a, x, hd, ha, hx, hn⟩ := hall i _ (List.getElem?_eq_getElem (by omega))
    obtain ⟨d', x', hd', hx', hpx⟩ := key i a ha
    rw [hd] at hd'; cases hd'
    rw [hx] at hx'; cases hx'
    rw [List.getElem?_eq_getElem hi] at hn
    rw [Option.some.inj hn]
    omega
  · intro a ha
    obtain ⟨i, hi, rfl⟩ := List.getElem_of_mem ha
    obtain ⟨d, x, -, hx, hpx⟩ := key i _ (List.getElem?_eq_getElem hi)
    unfold amountToC at hx
    rcases Nat.eq_zero_or_pos am[i] with h0 | h0
    · exfalso
      rw [h0] at hx
      split at hx
      · rw [mulW_ok] at hx; omega
      · split at hx
        · rw [divW_ok] at hx
          obtain ⟨-, rfl⟩ := hx
          simp at hpx
        · cases hx
    · exact h0

/-- Later deposits only add to the reserves. -/
theorem addLiquidity_grows {p q : CurvePool} {s : AccountId} {am : List Nat} {mn n : Nat}
    {fees : AdminFees} {env : CurveEnv} {v : Bool} (hp : ∀ c ∈ p.cAmts, 0 < c)
    (h : p.addLiquidity s am mn fees env v = .ok (q, n)) : ∀ c ∈ q.cAmts, 0 < c := by
  obtain ⟨fp, cs, p1, hl, hc, -, hcs, -, -, hm⟩ := addLiquidity_ok h
  obtain ⟨hlen, -, hall⟩ := addAmounts_ok hcs
  intro c hc
  rw [hm.frame] at hc
  obtain ⟨i, hi, rfl⟩ := List.getElem_of_mem hc
  simp only at hi ⊢
  have hi' : i < p.cAmts.length := by omega
  obtain ⟨d, a, x, hd, ha, hx, hn⟩ := hall i _ (List.getElem?_eq_getElem hi')
  rw [List.getElem?_eq_getElem hi] at hn
  rw [Option.some.inj hn]
  have := hp _ (List.getElem_mem hi')
  omega

theorem swap_backed {p q : CurvePool} {ti tout : AccountId} {a mo out : Nat} {fees : AdminFees}
    {env : CurveEnv} {v : Bool} (hk : p.kind = .stable) (hp : 0 < p.supply → ∀ c ∈ p.cAmts, 0 < c)
    (h : p.swap ti a tout mo fees env v = .ok (q, out)) (h0 : 0 < q.supply) :
    ∀ c ∈ q.cAmts, 0 < c := by
  obtain ⟨i, o, r, _, _, x, -, -, -, hio, -, -, -, -, hsw, -, -, hmin, hf⟩ := swap_ok h
  obtain ⟨rin, rout, inn, xs, xi, xo, y, fee, adm, sw, -, -, hinn, hxs, hxi, hxo, -, -, -, -, -, -,
    -, hns, -⟩ := swapTo_ok hsw
  simp only [CurvePool.inv, hk] at hinn hxs hns
  cases hinn; cases hxs
  have hns : xi + x = r.newSource := Except.ok.inj hns
  rw [← hns] at hf
  have hmr : 0 < p.kind.minReserve := by rw [hk]; decide
  have hall : 0 < p.supply → ∀ c ∈ (p.cAmts.set i (xi + x)).set o r.newDest, 0 < c := by
    intro hs c hc
    rcases List.mem_or_eq_of_mem_set hc with hc | rfl
    · rcases List.mem_or_eq_of_mem_set hc with hc | rfl
      · exact hp hs c hc
      · have := hp hs xi (List.mem_of_getElem? hxi)
        omega
    · omega
  rcases swapFee_ok hf with ⟨rfl, -⟩ | ⟨-, -, m, f, old, hlp, hold, -, hm⟩
  · exact hall h0
  · simp only at hlp hold hm
    rw [hm.supply] at h0
    obtain ⟨d0, _, _, _, _, -, -, -, -, -, -, -, -, hmm, -⟩ := lpForDeposit_ok hlp
    have hs : 0 < p.supply := by
      rcases Nat.eq_zero_or_pos p.supply with hz | hz
      · exfalso
        rw [hz, Nat.zero_mul, Nat.zero_div] at hmm
        simp only at h0
        omega
      · exact hz
    intro c hc
    rw [hm.frame] at hc
    simp only at hc
    rcases List.mem_or_eq_of_mem_set hc with hc | rfl
    · exact hall hs c hc
    · have := hall hs old (List.mem_of_getElem? hold)
      omega

end CurvePool

theorem Pool.Op.backed {p q : Pool} (h : p.Op q) (hs : p.Sound) (hp : p.Backed) : q.Backed := by
  have hsh := h.shape
  cases q with
  | simple q => trivial
  | curve q =>
    cases p with
    | simple p => cases hsh
    | curve p =>
      intro hk h0
      have hk' : p.kind = .stable := by
        simp only [Pool.shape, Prod.mk.injEq, Option.some.injEq] at hsh
        exact hsh.1 ▸ hk
      have hp' := hp hk'
      have hmr : 0 < p.kind.minReserve := by rw [hk']; decide
      have same : q.cAmts = p.cAmts → q.supply = p.supply → ∀ c ∈ q.cAmts, 0 < c := by
        intro e1 e2
        rw [e1]; exact hp' (e2 ▸ h0)
      cases h with
      | swap h =>
        unfold Pool.swap at h
        unpack at h
        obtain ⟨e, -, q', out', h, hq, -⟩ := h
        cases hq
        exact CurvePool.swap_backed hk' hp' h h0
      | swapByOutput h => cases h
      | addLiquidity h => cases h
      | addStable h =>
        unfold Pool.addStable at h
        unpack at h
        obtain ⟨e, -, q', n', h, hq, -⟩ := h
        cases hq
        rcases Nat.eq_zero_or_pos p.supply with hz | hz
        · exact (CurvePool.addLiquidity_first hs.1 hz h).1
        · exact CurvePool.addLiquidity_grows (hp' hz) h
      | removeLiquidity h =>
        unfold Pool.removeLiquidity at h
        unpack at h
        obtain ⟨q', n', h, hq, -⟩ := h
        cases hq
        intro c hc
        have := C34_remove_shares_min_reserve h c hc
        omega
      | removeByTokens h =>
        unfold Pool.removeByTokens at h
        unpack at h
        obtain ⟨e, -, q', n', h, hq, -⟩ := h
        cases hq
        intro c hc
        have := C34_remove_tokens_min_reserve h c hc
        omega
      | shareTransfer h =>
        obtain ⟨q', h, hq⟩ := Pool.map_curve_ok h
        cases hq
        unfold CurvePool.shareTransfer at h
        unpack at h
        obtain ⟨_, -, -, _, -, -, rfl⟩ := h
        exact same rfl rfl
      | shareRegister h =>
        obtain ⟨q', h, hq⟩ := Pool.map_curve_ok h
        cases hq
        unfold CurvePool.shareRegister at h
        unpack at h
        obtain ⟨-, rfl⟩ := h
        exact same rfl rfl
      | shareUnregister h =>
        obtain ⟨q', h, hq⟩ := Pool.map_curve_ok h
        cases hq
        unfold CurvePool.shareUnregister at h
        unpack at h
        obtain ⟨_, -, -, rfl⟩ := h
        exact same rfl rfl
      | ramp h =>
        unfold Pool.ramp at h
        unpack at h
        obtain ⟨_, -, h⟩ := h
        obtain ⟨q', h, hq⟩ := Pool.map_curve_ok h
        cases hq
        unfold CurvePool.ramp at h
        unpack at h
        obtain ⟨-, -, -, -, _, -, -, -, -, rfl⟩ := h
        exact same rfl rfl
      | stopRamp h =>
        unfold Pool.stopRamp at h
        unpack at h
        obtain ⟨_, -, h⟩ := h
        obtain ⟨q', h, hq⟩ := Pool.map_curve_ok h
        cases hq
        unfold CurvePool.stopRamp at h
        unpack at h
        obtain ⟨_, -, rfl⟩ := h
        exact same rfl rfl
      | setFee h => exact same rfl rfl

theorem PoolsTo.backed {l l' : List Pool} (h : PoolsTo l l') (hl : ∀ p ∈ l, p.Sound)
    (hb : ∀ p ∈ l, p.Backed) : ∀ p ∈ l', p.Backed := by
  induction h with
  | refl => exact hb
  | op h1 h2 _ ih =>
    have hm := List.mem_of_getElem? h1
    apply ih
    · intro r hr
      rcases List.mem_or_eq_of_mem_set hr with hr | rfl
      · exact hl _ hr
      · exact h2.sound (hl _ hm)
    · intro r hr
      rcases List.mem_or_eq_of_mem_set hr with hr | rfl
      · exact hb _ hr
      · exact h2.backed (hl _ hm) (hb _ hm)
  | @add l p q a hf hr =>
    intro r hm
    rw [List.mem_append, List.mem_singleton] at hm
    rcases hm with hm | rfl
    · exact hb _ hm
    · refine (Pool.Op.shareRegister hr).backed hf.sound ?_
      cases hf with
      | simple => trivial
      | curve _ _ h =>
        intro _ h0
        unfold CurvePool.new at h
        unpack at h
        obtain ⟨-, -, -, -, rfl⟩ := h
        exact absurd h0 (Nat.lt_irrefl 0)

namespace Contract

theorem Reachable.backed {c : Contract} (hc : c.Reachable) : ∀ p ∈ c.pools, p.Backed := by
  refine (hc.induct (P := fun c => (∀ p ∈ c.pools, p.Sound) ∧ ∀ p ∈ c.pools, p.Backed) ?_ ?_).2
  · intro self owner farm burrow fee ref c h
    unfold Contract.init at h
    unpack at h
    obtain ⟨-, rfl⟩ := h
    simp
  · intro c e c' outs hc h
    have := Contract.apply_poolsTo h
    exact ⟨this.sound hc.1, this.backed hc.1 hc.2⟩

/-- **C58**. In every reachable state: a constant-product pool holds some of both tokens if shares of
it exist, and nothing if none exist; a stable pool holds some of every token if shares exist. -/
theorem C58_reserves {c : Contract} (hc : c.Reachable) {id : Nat} {p : Pool}
    (hp : c.pools[id]? = some p) :
    (p.isSimple = true → (0 < p.supply → ∀ a ∈ p.amounts, 0 < a) ∧
      (p.supply = 0 → ∀ a ∈ p.amounts, a = 0)) ∧
    (∀ q, p = .curve q → q.kind = .stable → 0 < p.supply → ∀ a ∈ p.amounts, 0 < a) := by
  have hm := List.mem_of_getElem? hp
  have hs := hc.sound p hm
  have hb := hc.backed p hm
  cases p with
  | simple p =>
    refine ⟨fun _ => ⟨fun h a ha => ?_, fun h a ha => ?_⟩, nofun⟩
    · have := hs.1.pos h
      simp only [Pool.amounts, List.mem_cons, List.not_mem_nil, or_false] at ha
      rcases ha with rfl | rfl <;> omega
    · have := hs.1.zero h
      simp only [Pool.amounts, List.mem_cons, List.not_mem_nil, or_false] at ha
      rcases ha with rfl | rfl <;> omega
  | curve p =>
    refine ⟨nofun, ?_⟩
    rintro q ⟨⟩ hk h0
    exact hb hk h0

/-- **C58**, first deposit. The first deposit into a stable, rated or degen pool brings some of every
token, so that no pool starts one-sided. -/
theorem C58_first_deposit {c : Contract} (hc : c.Reachable) {id : Nat} {p q : Pool}
    (hp : c.pools[id]? = some p) (h0 : p.supply = 0) {s : AccountId} {am : List Nat} {mn n : Nat}
    {fees : AdminFees} {env : R CurveEnv} (h : p.addStable s am mn fees env false = .ok (q, n)) :
    (∀ a ∈ am, 0 < a) ∧ am.length = p.tokens.length ∧ ∀ a ∈ q.amounts, 0 < a := by
  have hs := hc.sound p (List.mem_of_getElem? hp)
  have hl := (Pool.addStable_shape h).2.2.1
  cases p with
  | simple p => cases h
  | curve p =>
    unfold Pool.addStable at h
    unpack at h
    obtain ⟨e, -, q', n', h, rfl, -⟩ := h
    have := CurvePool.addLiquidity_first hs.1 h0 h
    exact ⟨this.2, hl, this.1⟩

open Demo

/-- Two funded pools of different kinds. -/
example : c2.pools.map (fun p => (p.isSimple, decide (0 < p.supply), p.amounts.all (0 < ·))) =
    [(true, true, true), (false, true, true)] := by decide +kernel

end Contract

end Verif

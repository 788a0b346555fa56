import Verif.Curve.FairProps
import Verif.Exchange.RatedWorthProps

/-
C87 for the calls of the contract.
-/

namespace Verif
namespace Contract
open Demo

/-- What a deposit into a curve pool does, for C87. -/
theorem add_fair {c c' : Contract} {x : Ctx} {id n mn : Nat} {am : List Nat} {outs : List Out}
    {p q : CurvePool} (h : c.addStableLiquidity x id am mn = .ok (c', outs, n))
    (hp : c.pools[id]? = some (.curve p)) (hq : c'.pools[id]? = some (.curve q)) :
    c.sharesOf id x.pred + n ≤ c'.sharesOf id x.pred ∧
    ∃ e, c.cfg.env x.now (.curve p) = .ok e ∧ e.now = x.now ∧
      p.addLiquidity x.pred am mn (c.fees none) e false = .ok (q, n) := by
  obtain ⟨tw, p', q', acc, acc', fee, -, -, hp', -, ha, -, -, -, -, -, rfl⟩ := addStableLiquidity_inv h
  rw [hp] at hp'; cases hp'
  have hid : id < c.pools.length := (List.getElem?_eq_some_iff.1 hp).1
  have hq' := hq
  simp only [List.getElem?_set_self hid, Option.some.injEq] at hq'
  subst hq'
  obtain ⟨p', q', e, e1, e2, he, hl⟩ := Pool.addStable_curve ha
  cases e1; cases e2
  refine ⟨?_, e, he, Config.EnvOf.now_eq (g := c.cfg) he, hl⟩
  have := (Pool.addStable_shares ha).1 x.pred
  simp only [if_true] at this
  simp only [sharesOf, hp]
  simp only [List.getElem?_set_self hid]
  exact this

/-- What a withdrawal of given amounts from a curve pool does, for C87. -/
theorem remove_fair {c c' : Contract} {x : Ctx} {id n mb : Nat} {am : List Nat} {p q : CurvePool}
    (h : c.removeByTokens x id am mb = .ok (c', n))
    (hp : c.pools[id]? = some (.curve p)) (hq : c'.pools[id]? = some (.curve q)) :
    c.sharesOf id x.pred ≤ c'.sharesOf id x.pred + n ∧ n ≤ c.sharesOf id x.pred ∧
    ∃ e, c.cfg.env x.now (.curve p) = .ok e ∧ e.now = x.now ∧
      p.removeByTokens x.pred am mb (c.fees none) e false = .ok (q, n) := by
  obtain ⟨tw, p', q', acc, acc', -, -, hp', -, -, -, hr, -, -, rfl⟩ := removeByTokens_inv h
  rw [hp] at hp'; cases hp'
  have hid : id < c.pools.length := (List.getElem?_eq_some_iff.1 hp).1
  have hq' := hq
  simp only [List.getElem?_set_self hid, Option.some.injEq] at hq'
  subst hq'
  obtain ⟨p', q', e, e1, e2, he, hl⟩ := Pool.removeByTokens_curve hr
  cases e1; cases e2
  obtain ⟨-, h1, h2, -, -⟩ := Pool.removeByTokens_shares hr
  refine ⟨?_, ?_, e, he, Config.EnvOf.now_eq (g := c.cfg) he, hl⟩
  · simp only [sharesOf, hp]
    simp only [List.getElem?_set_self hid]
    exact h2
  · simp only [sharesOf, hp]
    exact h1

section
variable {c c' : Contract} {x : Ctx} {A B d g id n m : Nat} {am : List Nat} {outs : List Out}
  {p q : CurvePool}

/-- **C87**, deposits. In any reachable state, whoever adds liquidity to a stable-swap pool of ordinary
size and shape gets `n` shares, and these are worth at least the gain in the pool's exact invariant up to
the reserves `ys`, the new reserves less the fee on their distance from proportion, except for a fixed
number of units. -/
theorem C87_add (hc : c.Reachable) (hb : c.cfg.adminFeeBps ≤ 10000)
    (h : c.addStableLiquidity x id am m = .ok (c', outs, n))
    (hp : c.pools[id]? = some (.curve p)) (hq : c'.pools[id]? = some (.curve q))
    (h0 : 0 < p.supply) (hroom : CurvePool.Room p.cAmts.length B d) (tp : p.Tame A B d)
    (tq : q.Tame A B d) (ha : p.AmpIs A x.now) :
    c.sharesOf id x.pred + n ≤ c'.sharesOf id x.pred ∧
    ∃ d0 d1 ys, p.value A ≤ d0 ∧ d0 ≤ p.value A + CurvePool.dError p.cAmts.length d ∧
      q.value A ≤ d1 ∧ d1 ≤ q.value A + CurvePool.dError p.cAmts.length d ∧
      AfterFee p.totalFee p.cAmts.length d0 d1 p.cAmts q.cAmts ys ∧
      (({ p with cAmts := ys } : CurvePool).value A : ℚ) ≤
        p.value A + q.worth A n + CurvePool.opLoss p.cAmts.length d := by
  obtain ⟨h1, e, -, he, hl⟩ := add_fair h hp hq
  exact ⟨h1, CurvePool.C87_deposit tp tq hroom (hc.sound _ (List.mem_of_getElem? hp)).1
    (by rw [he]; exact ha) hb h0 hl⟩

/-- **C87**, deposits in proportion. If all reserves of the stable-swap pool grow by the same part
`k / m'`, then the provider pays no fee: their shares are worth the whole gain in the pool's exact
invariant, except for a fixed number of units. -/
theorem C87_add_proportional {k m' : Nat} (hc : c.Reachable) (hb : c.cfg.adminFeeBps ≤ 10000)
    (h : c.addStableLiquidity x id am m = .ok (c', outs, n))
    (hp : c.pools[id]? = some (.curve p)) (hq : c'.pools[id]? = some (.curve q))
    (h0 : 0 < p.supply) (hA : 1 ≤ A) (hroom : CurvePool.Room p.cAmts.length B d) (tp : p.Tame A B d)
    (tq : q.Tame A B d) (ha : p.AmpIs A x.now) (hm : 0 < m')
    (hprop : q.cAmts.map (· * m') = p.cAmts.map (· * (m' + k)))
    (hlow : ∀ b ∈ q.cAmts, B ≤ d * b) :
    (q.value A : ℚ) ≤ p.value A + q.worth A n + (CurvePool.opLoss p.cAmts.length d +
      d ^ 2 * (d * (CurvePool.dError p.cAmts.length d + 1) + 1) + 1 : Nat) := by
  obtain ⟨-, e, -, he, hl⟩ := add_fair h hp hq
  exact CurvePool.C87_proportional tp tq hroom (hc.sound _ (List.mem_of_getElem? hp)).1
    (by rw [he]; exact ha) hA hb h0 hm hprop hlow hl

/-- **C87**, withdrawals of given amounts. In any reachable state, whoever takes given amounts from a
stable-swap pool of ordinary size and shape loses `n` shares, and these were worth at most the fall of the
pool's exact invariant to the reserves `ys`, the new reserves less the fee on their distance from
proportion, except for a fixed number of units. -/
theorem C87_remove (hc : c.Reachable) (h : c.removeByTokens x id am m = .ok (c', n))
    (hp : c.pools[id]? = some (.curve p)) (hq : c'.pools[id]? = some (.curve q))
    (h0 : 0 < p.supply) (hroom : CurvePool.Room p.cAmts.length B d) (tp : p.Tame A B d)
    (tq : q.Tame A B d) (ha : p.AmpIs A x.now) :
    c.sharesOf id x.pred ≤ c'.sharesOf id x.pred + n ∧
    ∃ d0 d1 ys, p.value A ≤ d0 ∧ d0 ≤ p.value A + CurvePool.dError p.cAmts.length d ∧
      q.value A ≤ d1 ∧ d1 ≤ q.value A + CurvePool.dError p.cAmts.length d ∧
      AfterFee p.totalFee p.cAmts.length d0 d1 p.cAmts q.cAmts ys ∧
      p.worth A n + ({ p with cAmts := ys } : CurvePool).value A ≤
        p.value A + CurvePool.dError p.cAmts.length d := by
  obtain ⟨h1, -, e, -, he, hl⟩ := remove_fair h hp hq
  exact ⟨h1, CurvePool.C87_withdrawal tp tq hroom (hc.sound _ (List.mem_of_getElem? hp)).1
    (by rw [he]; exact ha) h0 hl⟩

/-- **C87**, deposits into rated and degen pools, at the rates or prices of the time of the call. -/
theorem C87_rated_add {e : CurveEnv} (hc : c.Reachable) (hb : c.cfg.adminFeeBps ≤ 10000)
    (h : c.addStableLiquidity x id am m = .ok (c', outs, n))
    (hp : c.pools[id]? = some (.curve p)) (hq : c'.pools[id]? = some (.curve q))
    (he : c.cfg.env x.now (.curve p) = .ok e)
    (h0 : 0 < p.supply) (hroom : CurvePool.RatedRoom p.cAmts.length B d g)
    (tp : p.RatedTame A B d g e.rates) (tq : q.RatedTame A B d g e.rates) (ha : p.AmpIs A x.now) :
    c.sharesOf id x.pred + n ≤ c'.sharesOf id x.pred ∧
    ∃ d0 d1 ys, p.ratedValue A e.rates ≤ d0 ∧
      d0 ≤ p.ratedValue A e.rates + CurvePool.dError p.cAmts.length d ∧
      q.ratedValue A e.rates ≤ d1 ∧
      d1 ≤ q.ratedValue A e.rates + CurvePool.dError p.cAmts.length d ∧
      AfterFee p.totalFee p.cAmts.length d0 d1 p.cAmts q.cAmts ys ∧
      (({ p with cAmts := ys } : CurvePool).ratedValue A e.rates : ℚ) ≤
        p.ratedValue A e.rates + q.ratedWorth A e.rates n + CurvePool.opLoss p.cAmts.length d := by
  obtain ⟨h1, e', he', hn, hl⟩ := add_fair h hp hq
  rw [he] at he'; cases he'
  exact ⟨h1, CurvePool.C87_rated_deposit tp tq hroom (hc.sound _ (List.mem_of_getElem? hp)).1
    (by rw [hn]; exact ha) hb h0 hl⟩

/-- **C87**, withdrawals of given amounts from rated and degen pools. -/
theorem C87_rated_remove {e : CurveEnv} (hc : c.Reachable)
    (h : c.removeByTokens x id am m = .ok (c', n))
    (hp : c.pools[id]? = some (.curve p)) (hq : c'.pools[id]? = some (.curve q))
    (he : c.cfg.env x.now (.curve p) = .ok e)
    (h0 : 0 < p.supply) (hroom : CurvePool.RatedRoom p.cAmts.length B d g)
    (tp : p.RatedTame A B d g e.rates) (tq : q.RatedTame A B d g e.rates) (ha : p.AmpIs A x.now) :
    c.sharesOf id x.pred ≤ c'.sharesOf id x.pred + n ∧
    ∃ d0 d1 ys, p.ratedValue A e.rates ≤ d0 ∧
      d0 ≤ p.ratedValue A e.rates + CurvePool.dError p.cAmts.length d ∧
      q.ratedValue A e.rates ≤ d1 ∧
      d1 ≤ q.ratedValue A e.rates + CurvePool.dError p.cAmts.length d ∧
      AfterFee p.totalFee p.cAmts.length d0 d1 p.cAmts q.cAmts ys ∧
      p.ratedWorth A e.rates n + ({ p with cAmts := ys } : CurvePool).ratedValue A e.rates ≤
        p.ratedValue A e.rates + CurvePool.dError p.cAmts.length d := by
  obtain ⟨h1, -, e', he', hn, hl⟩ := remove_fair h hp hq
  rw [he] at he'; cases he'
  exact ⟨h1, CurvePool.C87_rated_withdrawal tp tq hroom (hc.sound _ (List.mem_of_getElem? hp)).1
    (by rw [hn]; exact ha) h0 hl⟩

end

/-! ### Examples -/

/-- Deposits into the demo stable pool, in proportion and not, and a withdrawal. -/
example : 0 < (demoStable c2).supply ∧ (demoStable c2).Tame 100 (8 * 10 ^ 23) 2 ∧
    (demoStable c2).AmpIs 100 (Demo.near al).now ∧ (demoStable c2).AmpIs 100 (y al).now ∧
    (∀ am ∈ [[10 ^ 23, 10 ^ 23], [10 ^ 23, 2 * 10 ^ 23]],
      (c2.addStableLiquidity (Demo.near al) 1 am 1).holds (fun r =>
        decide (0 < r.2.2 ∧ (demoStable r.1).Tame 100 (8 * 10 ^ 23) 2 ∧
          ∀ b ∈ (demoStable r.1).cAmts, 8 * 10 ^ 23 ≤ 2 * b)) = true) ∧
    (c2.addStableLiquidity (Demo.near al) 1 [10 ^ 23, 10 ^ 23] 1).holds (fun r =>
      (demoStable r.1).cAmts.map (· * (4 * 10 ^ 23 + 500000)) =
        (demoStable c2).cAmts.map (· * (4 * 10 ^ 23 + 500000 + 10 ^ 23))) = true ∧
    (c2.removeByTokens (y al) 1 [10 ^ 22, 5 * 10 ^ 21] (10 ^ 23)).holds (fun r =>
      decide (0 < r.2 ∧ (demoStable r.1).Tame 100 (7 * 10 ^ 23) 2 ∧
        (demoStable c2).Tame 100 (7 * 10 ^ 23) 2)) = true := by decide +kernel

/-- The same in the demo degen pool. -/
example : 0 < (demoDegen c4).supply ∧ (demoDegen c4).RatedTame 100 (3 * 10 ^ 26) 12 2 demoPrices ∧
    (c4.cfg.env (Demo.near al).now (.curve (demoDegen c4))).holds (·.rates = demoPrices) = true ∧
    (demoDegen c4).AmpIs 100 (Demo.near al).now ∧
    (c4.addStableLiquidity (Demo.near al) 3 [10 ^ 19, 10 ^ 19] 1).holds (fun r =>
      decide (0 < r.2.2 ∧ (demoDegen r.1).RatedTame 100 (3 * 10 ^ 26) 12 2 demoPrices)) = true ∧
    (c4.removeByTokens (y al) 3 [10 ^ 18, 5 * 10 ^ 17] (10 ^ 25)).holds (fun r =>
      decide (0 < r.2 ∧ (demoDegen r.1).RatedTame 100 (3 * 10 ^ 26) 12 2 demoPrices)) = true := by
  decide +kernel

end Contract
end Verif

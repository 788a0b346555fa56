import Verif.Exchange.RatedView
import Verif.Exchange.PredictProps

/-
C18 for rated and degen pools at supposed rates. A frontend asks "what would this give me if the
rates were r". The theorems compare the answer, given in one state of the contract, with what the
call does in another state in which the rates have become r: the pool and the protocol's part of the
fee are the same in both, everything else may differ.
-/

namespace Verif

theorem Config.env_now {g : Config} {now : Nat} {p : Pool} {e : CurveEnv}
    (h : g.env now p = .ok e) : e.now = now := by
  unfold Config.env at h
  cases p with
  | simple p => cases h; rfl
  | curve p =>
    simp only at h
    split at h
    · cases h; rfl
    · cases h; rfl
    · unpack at h
      obtain ⟨_, -, rfl⟩ := h
      rfl

theorem CurvePool.inv_suppose {g0 g : Config} {now : Nat} {p : CurvePool} {e0 e : CurveEnv}
    {rates : Option (List Nat)} (h0 : g0.env now (.curve p) = .ok e0) (h : g.env now (.curve p) = .ok e)
    (hr : rates.getD e0.rates = e.rates) : p.inv (e0.suppose rates) = p.inv e := by
  unfold CurvePool.inv CurveEnv.suppose
  simp only [Config.env_now h0, Config.env_now h, hr]

namespace Contract

theorem ratedPool_of {c : Contract} {id : Nat} {p : CurvePool} (h : c.pools[id]? = some (.curve p)) :
    c.ratedPool p.kind id = .ok p := by
  unfold ratedPool
  rw [pool_ok.2 h, ok_bind]
  simp only [if_true]

/-- **C18**, `get_rated_return` and `get_degen_return`: if a swap succeeds, its result is what the view
reported for the rates that now hold. -/
theorem C18_rated_return {c0 c c' : Contract} {x : Ctx} {id a minOut : Nat} {ti tout : AccountId}
    {referral : Option AccountId} {res : ActionResult}
    (h : c.executeActions x [.swap ⟨id, ti, some a, tout, minOut⟩] referral = .ok (c', res))
    {p : CurvePool} (hp : c.pools[id]? = some (.curve p)) (hp0 : c0.pools[id]? = some (.curve p))
    (hf : c0.cfg.adminFeeBps = c.cfg.adminFeeBps) {e0 e : CurveEnv} {rates : Option (List Nat)}
    (he0 : c0.cfg.env x.now (.curve p) = .ok e0) (he : c.cfg.env x.now (.curve p) = .ok e)
    (hr : rates.getD e0.rates = e.rates) :
    ∃ out, c0.getRatedReturn p.kind x.now id ti a tout rates = .ok out ∧ res = some out := by
  obtain ⟨acc, acc', c1, -, -, -, -, g, -⟩ := executeActions_inv h
  unfold runActions at g
  unpack at g
  obtain ⟨-, _, -, g⟩ := g
  change c.runSwaps x.now _ acc none [_] = _ at g
  simp only [runSwaps, amountOr, ok_bind] at g
  unpack at g
  obtain ⟨acc1, -, c2, out, hs, acc2, -, -, -, rfl⟩ := g
  obtain ⟨tw, vs, p', q, hp', hs1, -, -⟩ := poolSwap_ok hs
  rw [hp] at hp'
  cases hp'
  refine ⟨out, ?_, rfl⟩
  unfold Pool.swap at hs1
  simp only [he, ok_bind] at hs1
  unpack at hs1
  obtain ⟨q, out', hs1, -, rfl⟩ := hs1
  unfold CurvePool.swap at hs1
  unpack at hs1
  obtain ⟨h1, i, h2, o, h3, _, -, r, h4, d, h5, out, h6, -, _, -, -, _, -, -, rfl⟩ := hs1
  unfold getRatedReturn
  rw [ratedPool_of hp0, ok_bind, he0, ok_bind]
  unfold CurvePool.getRatedReturn
  have e4 : p.getReturn i a o (c0.fees none) (e0.suppose rates) = .ok r := by
    rw [← h4]
    unfold CurvePool.getReturn fees
    rw [CurvePool.inv_suppose he0 he hr]
    simp only [hf]
  rw [assertE_true h1, ok_bind, h2, ok_bind, h3, ok_bind, e4, ok_bind, h5]
  exact h6

/-- **C18**, `predict_add_rated_liquidity` and `predict_add_degen_liquidity`: an addition of liquidity
mints the shares that the view reported for the rates that now hold. For the first liquidity of a pool
the view also wants the rates stored when it was asked to be up to date. -/
theorem C18_add_rated {c0 c c' : Contract} {x : Ctx} {id minShares : Nat} {amounts : List Nat}
    {outs : List Out} {minted : Nat}
    (h : c.addStableLiquidity x id amounts minShares = .ok (c', outs, minted))
    {p : CurvePool} (hp : c.pools[id]? = some (.curve p)) (hp0 : c0.pools[id]? = some (.curve p))
    (hf : c0.cfg.adminFeeBps = c.cfg.adminFeeBps) {e0 e : CurveEnv} {rates : Option (List Nat)}
    (he0 : c0.cfg.env x.now (.curve p) = .ok e0) (he : c.cfg.env x.now (.curve p) = .ok e)
    (hr : rates.getD e0.rates = e.rates) (hv : p.supply ≠ 0 ∨ e0.valid = true) :
    c0.predictAddRated p.kind x.now id amounts rates = .ok minted := by
  obtain ⟨tw, p', q, acc, acc', _, -, -, hp', -, ha, -⟩ := addStableLiquidity_inv h
  rw [hp] at hp'
  cases hp'
  unfold Pool.addStable at ha
  simp only [he, ok_bind] at ha
  unpack at ha
  obtain ⟨q, n, ha, -, rfl⟩ := ha
  unfold CurvePool.addLiquidity at ha
  unpack at ha
  obtain ⟨h1, s, f, h2, -, _, -, _, -, _, -, -, rfl⟩ := ha
  unfold predictAddRated
  rw [ratedPool_of hp0, ok_bind, he0, ok_bind]
  unfold CurvePool.predictAdd
  have e2 : p.calcAdd amounts (c0.fees none) (e0.suppose rates) = .ok (s, f) := by
    rw [← h2]
    unfold CurvePool.calcAdd fees
    rw [CurvePool.inv_suppose he0 he hr]
    simp only [hf]
    split
    next hz =>
      have hv := hv.resolve_left (fun h => h hz)
      have g1 : p.assertRates (e0.suppose rates) = .ok () := by
        have : (e0.suppose rates).valid = true := hv
        unfold CurvePool.assertRates
        cases p.kind <;> simp only [this] <;> rfl
      unfold CurvePool.calcAdd at h2
      unpack at h2
      obtain ⟨cs, -, h2⟩ := h2
      rw [if_pos hz] at h2
      unpack at h2
      obtain ⟨_, g2, -⟩ := h2
      rw [g1, g2]
    · rfl
  rw [assertE_true h1, ok_bind, e2]
  rfl

/-- **C18**, `predict_remove_rated_liquidity_by_tokens` and the same for degen pools: a withdrawal of
given amounts burns the shares that the view reported for the rates that now hold. -/
theorem C18_remove_rated {c0 c c' : Contract} {x : Ctx} {id maxBurn burnt : Nat} {amounts : List Nat}
    (h : c.removeByTokens x id amounts maxBurn = .ok (c', burnt))
    {p : CurvePool} (hp : c.pools[id]? = some (.curve p)) (hp0 : c0.pools[id]? = some (.curve p))
    (hf : c0.cfg.adminFeeBps = c.cfg.adminFeeBps) {e0 e : CurveEnv} {rates : Option (List Nat)}
    (he0 : c0.cfg.env x.now (.curve p) = .ok e0) (he : c.cfg.env x.now (.curve p) = .ok e)
    (hr : rates.getD e0.rates = e.rates) :
    c0.predictRemoveRated p.kind x.now id amounts rates = .ok burnt := by
  obtain ⟨tw, p', q, acc, acc', -, -, hp', -, -, -, ha, -⟩ := removeByTokens_inv h
  rw [hp] at hp'
  cases hp'
  unfold Pool.removeByTokens at ha
  simp only [he, ok_bind] at ha
  unpack at ha
  obtain ⟨q, n, ha, -, rfl⟩ := ha
  unfold CurvePool.removeByTokens at ha
  unpack at ha
  obtain ⟨-, cs, h1, _, h2, _, -, burn, f, h3, _, -, _, -, -, _, -, -, rfl⟩ := ha
  unfold predictRemoveRated
  rw [ratedPool_of hp0, ok_bind, he0, ok_bind]
  unfold CurvePool.predictRemoveTokens
  rw [h1, ok_bind, h2, ok_bind, CurvePool.inv_suppose he0 he hr]
  unfold fees at h3 ⊢
  simp only [hf]
  rw [h3]
  rfl

open Demo

/-- The rate of token A is going to be 1.2; Alice's swap then gives what the view promised before, and
not what it promised for the old rate. -/
example : (c4.getRatedReturn .rated (10 ^ 18) 2 A (10 ^ 19) B (some [12 * 10 ^ 23, 10 ^ 24])).holds
    (fun out => ((c4.run [.rate A (12 * 10 ^ 23) (10 ^ 18)]).exec (by' al)
      (.executeActions [.swap ⟨2, A, some (10 ^ 19), B, 1⟩] none)).holds
      (fun r => r.1.depositOf al B = c4.depositOf al B + out) = true ∧
      (c4.getRatedReturn .rated (10 ^ 18) 2 A (10 ^ 19) B none).holds (fun n => n < out) = true) =
    true := by decide +kernel

/-- The price of token B is going to double: the shares for an addition to the degen pool and for a
withdrawal from it. -/
example : (c4.predictAddRated .degen (10 ^ 18) 3 [10 ^ 18, 0] (some [2 * 10 ^ 24, 2 * 10 ^ 24])).holds
    (fun n => 0 < n ∧ ((c4.run [.price B (2 * 10 ^ 24) (10 ^ 18)]).addStableLiquidity (Demo.near al) 3
      [10 ^ 18, 0] 1).holds (fun r => r.2.2 = n) = true) = true ∧
    (c4.predictRemoveRated .degen (10 ^ 18) 3 [10 ^ 18, 0] (some [2 * 10 ^ 24, 2 * 10 ^ 24])).holds
    (fun n => 0 < n ∧ ((c4.run [.price B (2 * 10 ^ 24) (10 ^ 18)]).removeByTokens (y al) 3
      [10 ^ 18, 0] (10 ^ 30)).holds (fun r => r.2 = n) = true) = true := by decide +kernel

/-- The views for rated pools do not answer for other pools. -/
example : (c4.getRatedReturn .rated (10 ^ 18) 3 A (10 ^ 18) B none).isOk = false ∧
    (c4.getRatedReturn .degen (10 ^ 18) 3 A (10 ^ 18) B none).isOk = true ∧
    (c4.getRatedReturn .rated (10 ^ 18) 1 A (10 ^ 18) B none).isOk = false := by decide +kernel

end Contract
end Verif

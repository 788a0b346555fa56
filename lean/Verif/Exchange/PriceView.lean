import Verif.Curve.Price
import Verif.Exchange.PoolView
import Verif.Exchange.SwapLemmas
import Verif.Exchange.Demo

/-
C75 at the contract: the view `get_pool_share_price`.
-/

namespace Verif
namespace Contract

/-- `get_pool_share_price`, `views.rs:481-483` with `pool.rs:159-166`: not implemented for pools of
two tokens. -/
def getPoolSharePrice (c : Contract) (now id : Nat) : R Nat := do
  match ← c.pool id with
  | .curve p => do
    let e ← c.cfg.env now (.curve p)
    p.sharePrice e
  | .simple _ => .error .other

/-- **C75**. The view answers for the pool with that id, at the time of the call and with the rates or
prices that are stored for its tokens; it never answers for a pool of two tokens. -/
theorem C75_view {c : Contract} {now id P : Nat} (h : c.getPoolSharePrice now id = .ok P) :
    ∃ p e, c.pools[id]? = some (.curve p) ∧ e.now = now ∧ p.sharePrice e = .ok P ∧
      (p.kind = .rated → e.rates = p.toks.map c.cfg.rateOf) ∧
      (p.kind = .degen → c.cfg.degensOf p.toks = .ok e.rates) := by
  unfold getPoolSharePrice at h
  obtain ⟨q, hq, h⟩ := bind_ok.1 h
  cases q with
  | simple p => cases h
  | curve p =>
    obtain ⟨e, he, h⟩ := bind_ok.1 h
    cases hk : p.kind with
    | stable =>
      simp only [Config.env, hk] at he
      cases he
      exact ⟨p, _, pool_ok.1 hq, rfl, h, by simp [hk], by simp [hk]⟩
    | rated =>
      simp only [Config.env, hk] at he
      cases he
      exact ⟨p, _, pool_ok.1 hq, rfl, h, fun _ => rfl, by simp [hk]⟩
    | degen =>
      simp only [Config.env, hk] at he
      obtain ⟨ps, hps, he⟩ := bind_ok.1 he
      cases he
      exact ⟨p, _, pool_ok.1 hq, rfl, h, by simp [hk], fun _ => hps⟩

/-- The demo contract: no price for the pool of two tokens, the prices of a stable pool and of those
whose tokens have rates or prices. -/
example : (Demo.c4.getPoolSharePrice (10 ^ 18) 0).isOk = false ∧
    (Demo.c4.getPoolSharePrice (10 ^ 18) 1).holds (· = 100000000) = true ∧
    (Demo.c4.getPoolSharePrice (10 ^ 18) 2).holds (· = 100000000) = true ∧
    (Demo.c4.getPoolSharePrice (10 ^ 18) 3).holds (· = 100000000) = true := by
  decide +kernel

end Contract
end Verif

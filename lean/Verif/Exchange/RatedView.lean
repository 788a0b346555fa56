import Verif.Exchange.View

/-
Predictions for rated and degen pools at rates the caller supposes:
`/repo/ref-exchange/src/views.rs:748-852`, `pool.rs:287-373`, `rated_swap/mod.rs:249-266`,
`384-411`, `543-561`, `degen_swap/mod.rs:251-268`, `386-413`, `545-563`.
-/

namespace Verif

namespace CurvePool

/-- `predict_add_rated_liquidity`, `rated_swap/mod.rs:249-266`, `degen_swap/mod.rs:251-268`. -/
def predictAdd (p : CurvePool) (amounts : List Nat) (fees : AdminFees) (env : CurveEnv) : R Nat := do
  assertE (amounts.length = p.toks.length) (.e 64)
  let (s, _) ← p.calcAdd amounts fees env
  .ok s

/-- `predict_remove_rated_liquidity_by_tokens`, `rated_swap/mod.rs:384-411`,
`degen_swap/mod.rs:386-413`. -/
def predictRemoveTokens (p : CurvePool) (amounts : List Nat) (fees : AdminFees) (env : CurveEnv) :
    R Nat := do
  let cs ← amountsToC p.kind p.decs amounts
  checkReserves p.kind p.cAmts cs
  let (burn, _) ← (p.inv env).lpForWithdraw cs p.cAmts p.supply ⟨p.totalFee, fees.adminFeeBps⟩
  .ok burn

end CurvePool

/-- `rates.as_ref().unwrap_or(&self.get_rates())`: the supposed rates, else the stored ones. The
stored ones are read in any case, and their validity is still that of the stored ones. -/
def CurveEnv.suppose (e : CurveEnv) (rates : Option (List Nat)) : CurveEnv :=
  { e with rates := rates.getD e.rates }

namespace Contract

/-- The pool of the given kind; the dispatchers `pool.rs:287-373` panic for the other kinds. -/
def ratedPool (c : Contract) (k : CurveKind) (id : Nat) : R CurvePool := do
  match ← c.pool id with
  | .curve p => if p.kind = k then .ok p else .error .other
  | .simple _ => .error .other

/-- `get_rated_return` (`k = .rated`), `views.rs:819-834`; `get_degen_return` (`k = .degen`),
`views.rs:837-852`. -/
def getRatedReturn (c : Contract) (k : CurveKind) (now id : Nat) (ti : AccountId) (a : Nat)
    (tout : AccountId) (rates : Option (List Nat)) : R Nat := do
  let p ← c.ratedPool k id
  let e ← c.cfg.env now (.curve p)
  p.getRatedReturn ti a tout (c.fees none) (e.suppose rates)

/-- `predict_add_rated_liquidity`, `views.rs:749-765`; `predict_add_degen_liquidity`,
`views.rs:768-784`. -/
def predictAddRated (c : Contract) (k : CurveKind) (now id : Nat) (amounts : List Nat)
    (rates : Option (List Nat)) : R Nat := do
  let p ← c.ratedPool k id
  let e ← c.cfg.env now (.curve p)
  p.predictAdd amounts (c.fees none) (e.suppose rates)

/-- `predict_remove_rated_liquidity_by_tokens`, `views.rs:787-800`;
`predict_remove_degen_liquidity_by_tokens`, `views.rs:803-816`. -/
def predictRemoveRated (c : Contract) (k : CurveKind) (now id : Nat) (amounts : List Nat)
    (rates : Option (List Nat)) : R Nat := do
  let p ← c.ratedPool k id
  let e ← c.cfg.env now (.curve p)
  p.predictRemoveTokens amounts (c.fees none) (e.suppose rates)

end Contract
end Verif

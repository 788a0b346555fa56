import Verif.Simple.Model
import Mathlib.Data.Nat.Sqrt

/-
Specification vocabulary for the simple pool: what a user sees. Nothing here depends on
how the pool computes its results.
-/

namespace Verif

/-- The amount of token `t` a pool reports. -/
def SimplePool.reserve (p : SimplePool) (t : AccountId) : Nat :=
  if t = p.tok0 then p.amt0 else if t = p.tok1 then p.amt1 else 0

/-- Product of the two reserves. -/
def SimplePool.product (p : SimplePool) : Nat := p.amt0 * p.amt1

/-- `out` units may leave a pool with reserves `X` (bought) and `Y` (sold) for `inn` units of
input when a fraction `fee/10000` of the input is kept out of the product:
`(X + inn * (1 - fee)) * (Y - out) ≥ X * Y`. -/
def FeeProductKept (X Y fee inn out : Nat) : Prop :=
  out ≤ Y ∧ 10000 * X * Y ≤ (10000 * X + inn * (10000 - fee)) * (Y - out)

/-- A trade on a pool, as a user asks for it. -/
inductive Trade where
  /-- sell exactly `amount` of `tokenIn`, accept at least `minOut` -/
  | exactIn (tokenIn : AccountId) (amount : Nat) (tokenOut : AccountId) (minOut : Nat)
      (fees : AdminFees)
  /-- buy exactly `amount` of `tokenOut`, pay at most `maxIn` -/
  | exactOut (tokenIn : AccountId) (amount : Nat) (tokenOut : AccountId) (maxIn : Option Nat)
      (fees : AdminFees)

/-- Execute a trade. -/
def SimplePool.trade (p : SimplePool) : Trade → R SimplePool
  | .exactIn ti a tout mo fees => (·.1) <$> p.swap ti a tout mo fees false
  | .exactOut ti a tout mi fees => (·.1) <$> p.swapByOutput ti a tout mi fees false

/-- Execute a list of trades; a failing trade leaves the pool unchanged. -/
def SimplePool.trades (p : SimplePool) (ts : List Trade) : SimplePool :=
  ts.foldl (fun p t => match p.trade t with | .ok q => q | .error _ => p) p

/-- Every operation that can act on a simple pool. -/
inductive SimpleOp where
  | register (a : AccountId)
  | unregister (a : AccountId)
  | transfer (sender receiver : AccountId) (n : Nat)
  | add (sender : AccountId) (amounts : List Nat)
  | remove (sender : AccountId) (shares : Nat) (mins : List Nat)
  | trade (t : Trade)
  | setFee (fee : Nat)

/-- Effect of one operation. `setFee` is `modify_total_fee`
(`/repo/ref-exchange/src/simple_pool.rs:67-69`) under the guard of its only caller
(`/repo/ref-exchange/src/owner.rs:246-258`). -/
def SimplePool.run (p : SimplePool) : SimpleOp → R SimplePool
  | .register a => p.shareRegister a
  | .unregister a => p.shareUnregister a
  | .transfer s r n => p.shareTransfer s r n
  | .add s am => (·.1) <$> p.addLiquidity s am false
  | .remove s n m => (·.1) <$> p.removeLiquidity s n m false
  | .trade t => p.trade t
  | .setFee f => if f < FEE_DIVISOR then .ok { p with totalFee := f } else .error (.e 62)

/-- Any history; failing operations change nothing. -/
def SimplePool.history (p : SimplePool) (ops : List SimpleOp) : SimplePool :=
  ops.foldl (fun p op => match p.run op with | .ok q => q | .error _ => p) p

end Verif

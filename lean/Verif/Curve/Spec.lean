import Verif.Curve.Model

/-
What the curve-pool properties mean, independently of how the pools compute.
-/

namespace Verif

/-- Internal units per token unit (1 when the token has more decimals than the pool). -/
def CurveKind.cPerTok (k : CurveKind) (d : Nat) : Nat := 10 ^ (k.target - d)
/-- Token units per internal unit (1 when the token has fewer decimals than the pool). -/
def CurveKind.tokPerC (k : CurveKind) (d : Nat) : Nat := 10 ^ (d - k.target)

/-- `a` units of a token with `d` decimals are worth at most `c` internal units. -/
def CoveredBy (k : CurveKind) (d a c : Nat) : Prop := a * k.cPerTok d ≤ c * k.tokPerC d

/-- The StableSwap invariant `A·nⁿ·Σx + D = A·D·nⁿ + D^(n+1) / (nⁿ·Πx)`, multiplied out: the
balances `xs` are on or above the curve for `D`, up to the integer slack `e`. -/
def OnOrAboveCurve (A D : Nat) (xs : List Nat) (e : Nat) : Prop :=
  let n := xs.length
  let K := n ^ n * xs.prod
  D ^ (n + 1) + A * n ^ n * D * K ≤ (A * n ^ n * xs.sum + D) * K + e

/-- The balances the curve is applied to: reserves times rates (reserves for a stable pool). -/
def CurvePool.rated (p : CurvePool) (env : CurveEnv) : List Nat :=
  match p.kind with
  | .stable => p.cAmts
  | _ => List.zipWith (fun c r => c * r / PRECISION) p.cAmts env.rates

/-- An amount of token `i` in the curve's units. -/
def CurvePool.ratedAmount (p : CurvePool) (env : CurveEnv) (i c : Nat) : Nat :=
  match p.kind with
  | .stable => c
  | _ => c * env.rates.getD i 0 / PRECISION

/-- The operations of a curve pool; every one carries the block time and rates of its call. -/
inductive CurveOp where
  | register (a : AccountId)
  | unregister (a : AccountId)
  | transfer (a b : AccountId) (n : Nat)
  | add (s : AccountId) (amounts : List Nat) (minShares : Nat) (fees : AdminFees)
  | removeShares (s : AccountId) (n : Nat) (mins : List Nat)
  | removeTokens (s : AccountId) (amounts : List Nat) (maxBurn : Nat) (fees : AdminFees)
  | swap (ti : AccountId) (a : Nat) (tout : AccountId) (minOut : Nat) (fees : AdminFees)
  | setFee (f : Nat)
  | ramp (future futureTime : Nat)
  | stopRamp

/-- Run one operation; an error leaves the pool unchanged. -/
def CurvePool.run (p : CurvePool) (env : CurveEnv) : CurveOp → R CurvePool
  | .register a => p.shareRegister a
  | .unregister a => p.shareUnregister a
  | .transfer a b n => p.shareTransfer a b n
  | .add s am mn fees => (·.1) <$> p.addLiquidity s am mn fees env false
  | .removeShares s n mins => (·.1) <$> p.removeByShares s n mins false
  | .removeTokens s am mb fees => (·.1) <$> p.removeByTokens s am mb fees env false
  | .swap ti a tout mo fees => (·.1) <$> p.swap ti a tout mo fees env false
  | .setFee f => if f < FEE_DIVISOR then .ok { p with totalFee := f } else .error (.e 62)
  | .ramp f t => p.ramp f t env.now
  | .stopRamp => p.stopRamp env.now

/-- Any history; failing operations change nothing. -/
def CurvePool.history (p : CurvePool) (ops : List (CurveEnv × CurveOp)) : CurvePool :=
  ops.foldl (fun p o => match p.run o.1 o.2 with | .ok q => q | .error _ => p) p

/-- Block times of a history do not decrease, and fit in 64 bits. -/
def Timed : Nat → List (CurveEnv × CurveOp) → Prop
  | _, [] => True
  | t, o :: ops => t ≤ o.1.now ∧ o.1.now < 2 ^ 64 ∧ Timed o.1.now ops

/-- Block time at the end of a history that starts at `t`. -/
def lastTime : Nat → List (CurveEnv × CurveOp) → Nat
  | t, [] => t
  | _, o :: ops => lastTime o.1.now ops

end Verif

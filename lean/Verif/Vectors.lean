import Verif.Curve.Model

/-
Conformance vectors: the expected values in the repository's own unit and simulation tests,
replayed on the model. They are tests of the model's fidelity, not properties.
-/

namespace Verif.Vectors
open Verif

def acc (n : Nat) : AccountId := ['u', Char.ofNat (48 + n)]
def noFees : AdminFees := ⟨0, acc 0, none⟩
def env0 : CurveEnv := ⟨0, [], true⟩

/-- `new` followed by the first deposit. -/
def withDeposit (k : CurveKind) (decs : List Nat) (amp fee : Nat) (amounts : List Nat)
    (fees : AdminFees) (env : CurveEnv) : R (CurvePool × Nat) := do
  let p ← CurvePool.new k (decs.zipIdx.map fun (_, i) => acc (i + 1)) decs amp fee
  p.addLiquidity (acc 0) amounts 1 fees env false

def swapTest (decs : List Nat) (amounts : List Nat) (x : Nat) : R (Nat × List Nat) := do
  let (p, _) ← withDeposit .stable decs 1000 0 amounts noFees env0
  let (p, out) ← p.swap (acc 1) x (acc 2) 0 noFees env0 false
  .ok (out, p.cAmts)

/-- `test_stable_julia_01`, `/repo/ref-exchange/src/stable_swap/mod.rs:752-770` -/
example : (swapTest [6, 6] [100000000000, 100000000000] 10000000000).holds
    (· == (9999495232, [110000000000000000000000, 90000504767247802010005])) = true := by
  decide +kernel
/-- `test_stable_romeo_01` -/
example : (swapTest [18, 24] [100000000000000000000000, 100000000000000000000000000000]
    10000000000000000000000).holds
    (· == (9999495232752197989995000000, [110000000000000000000000, 90000504767247802010005]))
    = true := by decide +kernel
/-- `test_stable_julia_02` -/
example : (swapTest [6, 6] [100000000000, 100000000000] 0).holds
    (· == (0, [100000000000000000000000, 100000000000000000000000])) = true := by
  decide +kernel
/-- `test_stable_julia_03` -/
example : (swapTest [6, 6] [100000000000, 100000000000] 1).holds
    (· == (0, [100000000001000000000000, 99999999999000000000001])) = true := by decide +kernel
/-- `test_stable_romeo_03` -/
example : (swapTest [18, 24] [100000000000000000000000, 100000000000000000000000000000] 1).holds
    (· == (0, [100000000000000000000001, 100000000000000000000000])) = true := by decide +kernel
/-- `test_stable_julia_04` -/
example : (swapTest [6, 6] [100000000000, 100000000000] 100000000000).holds
    (· == (98443663539, [200000000000000000000000, 1556336460086846919344])) = true := by
  decide +kernel
/-- `test_stable_romeo_05` -/
example : (swapTest [18, 24] [100000000000000000000000, 100000000000000000000000000000]
    99999000000000000000000).holds
    (· == (98443167413204135506296000000, [199999000000000000000000, 1556832586795864493704]))
    = true := by decide +kernel

/-- `test_stable_basics`, `/repo/ref-exchange/src/stable_swap/mod.rs:1046-1101` -/
def basics : R Bool := do
  let (p, _) ← withDeposit .stable [6, 6] 10000 0 [5000000, 10000000] noFees env0
  let (p, o1) ← p.swap (acc 1) 1000000 (acc 2) 0 noFees env0 false
  let c1 := p.cAmts
  let (p, o2) ← p.swap (acc 2) o1 (acc 1) 0 noFees env0 false
  let c2 := p.cAmts
  let (p, n1) ← p.addLiquidity (acc 0) [5000000, 0] 1 noFees env0 false
  let (p, b1) ← p.removeByTokens (acc 0) [5000000, 0] n1 noFees env0 false
  let (p, n2) ← p.addLiquidity (acc 0) [5000000, 0] 1 noFees env0 false
  let (p, t) ← p.removeByShares (acc 0) n2 [1, 1] false
  let (p, n3) ← p.addLiquidity (acc 0) [5000000, 0] 1 noFees env0 false
  let (_, b3) ← p.removeByTokens (acc 0) [0, 5000000 - 1200] n3 noFees env0 false
  .ok (o1 == 1000031 && c1 == [6000000000000000000, 8999968751649207661] &&
    o2 == 999999 && c2 == [5000000248340316023, 9999999751649207661] &&
    b1 == n1 && t == [2500023, 2500023] && decide (b3 < n3))
example : basics.holds id = true := by decide +kernel

/-- `test_stable_with_fees`, `/repo/ref-exchange/src/stable_swap/mod.rs:1105-1126` -/
def withFees : R (List Nat) := do
  let fees : AdminFees := ⟨1000, acc 9, none⟩
  let (p, n) ← withDeposit .stable [6, 6] 10000 2000 [5000000, 10000000] fees env0
  let (p, _) ← p.swap (acc 1) 1000000 (acc 2) 1 fees env0 false
  let (_, t) ← p.removeByShares (acc 0) (n / 2) [1, 1] false
  .ok t
example : withFees.holds (· == [2996052, 4593934]) = true := by decide +kernel

def L : Nat := 1000000000000000000
def M : Nat := 1000000

/-- `sim_stable_e2e`, `/repo/ref-exchange/tests/test_stable_pool.rs:60-121` -/
def e2e : R Bool := do
  let fees : AdminFees := ⟨2000, acc 9, none⟩
  let (p, _) ← withDeposit .stable [18, 6, 6] 10000 25 [100000 * L, 100000 * M, 100000 * M]
    fees env0
  let (p, o1) ← p.swap (acc 1) L (acc 3) 1 fees env0 false
  let (p, o2) ← p.swap (acc 1) L (acc 2) 1 fees env0 false
  let a ← p.getAmounts
  .ok (o1 == 997499 && o2 == 997499 && a == [100002 * L, 99999 * M + 2500, 99999 * M + 2500]
    && p.supply == 300000 * L + 499999996666583 + 499999993277742)
example : e2e.holds id = true := by decide +kernel

/-- `sim_stable_lp`, `/repo/ref-exchange/tests/test_stable_pool.rs:124-335` -/
def simLp : R Bool := do
  let fees : AdminFees := ⟨2000, acc 9, none⟩
  let (p, _) ← withDeposit .stable [18, 6, 6] 10000 25 [100000 * L, 100000 * M, 100000 * M]
    fees env0
  let s0 := p.supply
  let (p, n) ← p.addLiquidity (acc 5) [500 * L, 500 * M, 500 * M] 1 fees env0 false
  let s1 := p.supply
  let (p, t) ← p.removeByShares (acc 5) (300 * L) [L, M, M] false
  let s2 := p.supply
  let (p, m) ← p.addLiquidity (acc 6) [100 * L, 200 * M, 400 * M] 1 fees env0 false
  let s3 := p.supply
  let (p, b) ← p.removeByTokens (acc 5) [L, 500 * M, M] (550 * L) fees env0 false
  let s4 := p.supply
  let a4 ← p.getAmounts
  let (p, b2) ← (do
    let p ← p.shareTransfer (acc 5) (acc 6) (100 * L)
    let (p, _) ← p.removeByShares (acc 6) (300 * L) [L, M, M] false
    p.removeByTokens (acc 6) [498 * L, 0, 0] (499 * L) fees env0 false : R (CurvePool × Nat))
  let s5 := p.supply
  let (p, m3) ← p.addLiquidity (acc 7)
    [100000000000 * L, 100000000000 * M, 100000000000 * M] 1 fees env0 false
  .ok (n == 1500 * L && s1 == s0 + 1500 * L && t == [100 * L, 100 * M, 100 * M]
    && s2 == s1 - 300 * L && m == 699699997426210330025
    && s3 == s2 + 699699997426210330025 + 59999999669779069
    && b == 502598511257512352631 && s4 == s3 - 502598511257512352631 + 119779860286480103
    && a4 == [100499 * L, 100100 * M, 100799 * M]
    && b2 == 498596320225563082252
    && s5 == s4 - 300 * L - 498596320225563082252 + 119500087140295361
    && m3 == 299997911758886758506069372942
    && p.supply == s5 + 299997911758886758506069372942 + 179161638119093657369691)
example : simLp.holds id = true := by decide +kernel

/-- `test_rated_julia_07`, `/repo/ref-exchange/src/rated_swap/mod.rs:838-863`, and the same
numbers in `test_mix`, `/repo/ref-exchange/src/degen_swap/mod.rs:842-901` -/
def rated (k : CurveKind) : R (Nat × List Nat) := do
  let env : CurveEnv := ⟨0, [2 * PRECISION, PRECISION], true⟩
  let (p, _) ← withDeposit k [24, 24] 1000 0 [100000 * PRECISION, 200000 * PRECISION] noFees env
  let (p, out) ← p.swap (acc 1) PRECISION (acc 2) 0 noFees env false
  .ok (out, p.cAmts)
example : (rated .rated).holds (· == (1999999990004997550200911,
    [100001 * PRECISION, 199998000000009995002449799089])) = true := by decide +kernel
example : (rated .degen).holds (· == (1999999990004997550200911,
    [100001 * PRECISION, 199998000000009995002449799089])) = true := by decide +kernel

/-- `test_stable_ramp_amp`, `/repo/ref-exchange/src/stable_swap/mod.rs`: the ramps succeed. -/
def rampTest : R Nat := do
  let p ← CurvePool.new .stable [acc 1, acc 2] [6, 6] 10000 0
  let t := MIN_RAMP_DURATION + 1000000000
  let p ← p.ramp 50000 (t + MIN_RAMP_DURATION * 10) t
  let p ← p.ramp 150000 (t + MIN_RAMP_DURATION * 20) (t + MIN_RAMP_DURATION * 3)
  let p ← p.stopRamp (t + MIN_RAMP_DURATION * 5)
  .ok p.targetAmp
example : rampTest.holds (· == 37058) = true := by decide +kernel

end Verif.Vectors

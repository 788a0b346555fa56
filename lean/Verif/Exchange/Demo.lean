import Verif.Exchange.Spec

/-
A small concrete history of the exchange. The examples beside the theorems use its states.
-/

namespace Verif.Demo

def ex : AccountId := "ex".toList
def own : AccountId := "own".toList
def guard : AccountId := "gd".toList
def farm : AccountId := "farm".toList
def bur : AccountId := "bur".toList
def al : AccountId := "al".toList
def bo : AccountId := "bo".toList
def A : AccountId := "A".toList
def B : AccountId := "B".toList
def W : AccountId := "W".toList

/-- A call without deposit. -/
def by' (a : AccountId) : Ctx :=
  { pred := a, deposit := 0, now := 10 ^ 18, grew := 0, shrank := 0, nearBalance := 10 ^ 27,
    usage := 1000 }
/-- A call with one yoctoNEAR. -/
def y (a : AccountId) : Ctx := { by' a with deposit := 1 }
/-- A call with one NEAR. -/
def near (a : AccountId) : Ctx := { by' a with deposit := 10 ^ 24 }

/-- The contract after its construction. -/
def c0 : Contract :=
  match Contract.init ex own farm bur 1600 400 with
  | .ok c => c
  | .error _ => ⟨ex, ⟨own, farm, bur, 0, [], [], true, [], FMap.empty, 0, none, [], FMap.empty, [],
      [], [], FMap.empty, FMap.empty, none, none⟩, [], FMap.empty, FMap.empty, FMap.empty,
      FMap.empty⟩

/-- The owner appoints a guardian and lists two tokens, accounts are opened, tokens arrive, two
pools are created and funded. -/
def setup : List Event := [
  .call (y own) (.setting (.extendGuardians [guard])),
  .call (y own) (.setting (.extendWhitelist [A, B, W])),
  .call (y own) (.setting (.wnear W)),
  .call (near al) (.storageDeposit none false),
  .call (near bo) (.storageDeposit none false),
  .call (near own) (.storageDeposit none false),
  .call (by' A) (.ftOnTransfer al 1000000 .deposit),
  .call (by' B) (.ftOnTransfer al 4000000 .deposit),
  .call (by' W) (.ftOnTransfer al 700 .deposit),
  .call (by' A) (.ftOnTransfer bo 5000 .deposit),
  .call (near al) (.addSimplePool [A, B] 30),
  .call (near own) (.addCurvePool .stable [A, B] [18, 18] 5 100),
  .call (near al) (.addLiquidity 0 [100000, 400000] none),
  .call (near al) (.addStableLiquidity 1 [500000, 500000] 1)]

/-- The state after `setup`. -/
def c1 : Contract := c0.run setup

theorem c1_reachable : c1.Reachable :=
  ⟨ex, own, farm, bur, 1600, 400, c0, setup, rfl, rfl⟩

example : c1.pools.length = 2 ∧ c1.depositOf al A = 400000 ∧ c1.depositOf bo A = 5000 ∧
    c1.sharesOf 0 al = 10 ^ 24 ∧ 0 < c1.sharesOf 1 al := by decide +kernel

/-- More tokens arrive and the stable pool grows beyond its minimum reserve. -/
def setup2 : List Event := setup ++ [
  .call (by' A) (.ftOnTransfer al (10 ^ 24) .deposit),
  .call (by' B) (.ftOnTransfer al (10 ^ 24) .deposit),
  .call (near al) (.addStableLiquidity 1 [4 * 10 ^ 23, 4 * 10 ^ 23] 1)]

/-- The state after `setup2`. -/
def c2 : Contract := c0.run setup2

theorem c2_reachable : c2.Reachable :=
  ⟨ex, own, farm, bur, 1600, 400, c0, setup2, rfl, rfl⟩

example : (c2.exec (by' al) (.executeActions [.swap ⟨1, B, some (10 ^ 20), A, 1⟩] none)).holds
    (fun r => c2.depositOf al A + 99 * 10 ^ 18 < r.1.depositOf al A) = true := by decide +kernel

/-- A swap of 1000 of token A. -/
def swapA : Action := .swap ⟨0, A, some 1000, B, 1⟩

example : (c1.exec (by' bo) (.executeActions [swapA] none)).holds
    (fun r => r.1.depositOf bo A = 4000 ∧ 3000 < r.1.depositOf bo B) = true := by decide +kernel

/-- The owner adds a rated pool and a degen pool with a limit of 1000; oracles report a rate and
prices; Alice funds the pools. -/
def setup4 : List Event := setup2 ++ [
  .call (y own) (.setting (.registerRate true A .direct)),
  .rate A (11 * 10 ^ 23) (10 ^ 18),
  .call (near own) (.addCurvePool .rated [A, B] [18, 18] 5 100),
  .call (near al) (.addStableLiquidity 2 [10 ^ 21, 10 ^ 21] 1),
  .call (y own) (.setting (.registerOracle (.price ⟨10 ^ 12, 90, 60⟩))),
  .call (y own) (.setting (.registerDegen A (.priceOracle 18))),
  .call (y own) (.setting (.registerDegen B (.priceOracle 18))),
  .price A (2 * 10 ^ 24) (10 ^ 18),
  .price B (10 ^ 24) (10 ^ 18),
  .call (near own) (.addCurvePool .degen [A, B] [18, 18] 5 100),
  .call (y own) (.setting (.addLimit 3 1000)),
  .call (near al) (.addStableLiquidity 3 [10 ^ 20, 2 * 10 ^ 20] 1)]

/-- The state after `setup4`. -/
def c4 : Contract := c0.run setup4

theorem c4_reachable : c4.Reachable :=
  ⟨ex, own, farm, bur, 1600, 400, c0, setup4, rfl, rfl⟩

example : c4.pools.length = 4 ∧ 0 < c4.sharesOf 2 al ∧ 0 < c4.sharesOf 3 al := by decide +kernel

end Verif.Demo

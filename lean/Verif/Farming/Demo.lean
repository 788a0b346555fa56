import Verif.Farming.Spec

/-
A small concrete history of the farming contract. The examples beside the theorems use its states.
-/

namespace Verif.Farming.Demo

def own : AccountId := "own".toList
def al : AccountId := "al".toList
def bo : AccountId := "bo".toList
def cy : AccountId := "cy".toList
def S : AccountId := "S".toList
def R' : AccountId := "R".toList
/-- The id of the first farm. -/
def F : FarmId := "S#0".toList
/-- The exchange whose pool shares can be staked. -/
def X : AccountId := "X".toList
/-- The shares of its pool 3. -/
def XS : SeedId := "X@3".toList

/-- A call at second `t`, without deposit. -/
def at' (t : Nat) (a : AccountId) : Ctx := ⟨a, 0, t * 10 ^ 9, 0, .id⟩
/-- A call with one yoctoNEAR. -/
def y (t : Nat) (a : AccountId) : Ctx := { at' t a with deposit := 1 }
/-- A call with one NEAR. -/
def near (t : Nat) (a : AccountId) : Ctx := { at' t a with deposit := 10 ^ 24 }

/-- 100 units of `R` every 10 seconds for those who stake `S`. -/
def terms : Terms := ⟨S, R', 0, 100, 10⟩

/-- The owner creates two farms, the farmers register, `own` funds the first farm, the farmers
stake: `al` 30 and `bo` 10 of `S`, `bo` shares of a pool. -/
def setup : List Event := [
  .call (near 1000 own) (.createSimpleFarm terms (some 1)),
  .call (near 1000 own) (.createSimpleFarm ⟨XS, R', 0, 100, 10⟩ (some 1)),
  .call (near 1000 al) (.storageDeposit none false),
  .call (near 1000 bo) (.storageDeposit none false),
  .call (at' 1000 R') (.ftOnTransfer own 1000 F),
  .call (at' 1001 S) (.ftOnTransfer al 30 []),
  .call (at' 1001 S) (.ftOnTransfer bo 10 []),
  .call (at' 1001 X) (.mftOnTransfer ":3".toList bo 500 [])]

/-- The state after `setup`. -/
def c1 : Contract := (Contract.init own).run setup

theorem c1_reachable : c1.Reachable := ⟨own, setup, rfl⟩

/-- `al` claims after two sessions. -/
def c2 : Contract := c1.step (.call (at' 1020 al) (.claimRewardByFarm F))

theorem c2_reachable : c2.Reachable := c1_reachable.step _

/-- Later all reward has been released; `bo` claims. -/
def c3 : Contract := c2.step (.call (at' 1200 bo) (.claimRewardBySeed S))

theorem c3_reachable : c3.Reachable := c2_reachable.step _

example : c1.stakeOf al S = 30 ∧ c1.stakeOf bo S = 10 ∧ c1.stakeOf bo XS = 500 := by decide +kernel
example : c1.rewardOf al R' = 0 ∧ c2.rewardOf al R' = 150 ∧ c3.rewardOf bo R' = 250 := by
  decide +kernel
example : (c3.farms.get? F).map (fun f => (f.status, f.dist.undistributed, f.dist.unclaimed)) =
    some (.ended, 0, 600) := by decide +kernel

end Verif.Farming.Demo

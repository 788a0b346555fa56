import Verif.Boost.Steps

/-
A small concrete history of the boost farming contract. The examples beside the theorems use its
states.
-/

namespace Verif.Boost.Demo

def own : AccountId := "own".toList
def al : AccountId := "al".toList
def bo : AccountId := "bo".toList
def cy : AccountId := "cy".toList
def S : SeedId := "S".toList
/-- A seed that boosts `S`. -/
def L : SeedId := "L".toList
def T : AccountId := "T".toList
/-- The farm of `S`. -/
def F : FarmId := "S#0".toList

/-- Every unit of the logarithm's base adds a tenth. -/
def fl : Floats := ⟨fun n r => n * r.logBase / 10, fun r => by simp⟩

/-- A call at second `t`, without deposit. -/
def at' (t : Nat) (a : AccountId) : Ctx := ⟨a, 0, t * 10 ^ 9⟩
/-- A call with one yoctoNEAR. -/
def y (t : Nat) (a : AccountId) : Ctx := ⟨a, 1, t * 10 ^ 9⟩
/-- A call with one NEAR. -/
def near (t : Nat) (a : AccountId) : Ctx := ⟨a, 10 ^ 24, t * 10 ^ 9⟩

/-- The owner creates two seeds and a farm that releases 100 units a second; `al` stakes 3000, `bo`
locks 1000 for the longest time. -/
def setup : List Event := [
  ⟨y 999 own, .createSeed S 0 (some 1) (some 100)⟩,
  ⟨y 999 own, .createSeed L 0 (some 1) none⟩,
  ⟨y 999 own, .createFarm S T 1000 8640000⟩,
  ⟨y 999 own, .setting (.booster L ⟨0, FMap.empty.insert S 5⟩)⟩,
  ⟨near 999 al, .storageDeposit none⟩,
  ⟨near 999 bo, .storageDeposit none⟩,
  ⟨at' 999 T, .ftOnTransfer own 1000 (.reward F)⟩,
  ⟨at' 1001 S, .ftOnTransfer al 3000 .free⟩,
  ⟨at' 1001 S, .ftOnTransfer bo 1000 (.lock 31104000)⟩]

/-- The state after `setup`. -/
def c1 : Contract := (Contract.init own).run fl setup

theorem c1_reachable : c1.Reachable fl := ⟨own, setup, rfl⟩

theorem _root_.Verif.Boost.Contract.run_append (fl : Floats) (es es' : List Event) (c : Contract) :
    c.run fl (es ++ es') = (c.run fl es).run fl es' := by
  induction es generalizing c with
  | nil => rfl
  | cons e es ih => exact ih _

theorem _root_.Verif.Boost.Contract.Reachable.step {fl : Floats} {c : Contract} (h : c.Reachable fl)
    (e : Event) : (c.step fl e).Reachable fl := by
  obtain ⟨o, es, rfl⟩ := h
  exact ⟨o, es ++ [e], by rw [Contract.run_append]; rfl⟩

/-- `al` claims. -/
def c2 : Contract := c1.step fl ⟨at' 1003 al, .claimReward S⟩

theorem c2_reachable : c2.Reachable fl := c1_reachable.step _

/-- `al` stakes in the booster. -/
def c3 : Contract := c2.step fl ⟨at' 1004 L, .ftOnTransfer al 4 .free⟩

theorem c3_reachable : c3.Reachable fl := c2_reachable.step _

/-- `bo` unlocks half before the time. -/
def c4 : Contract := c3.step fl ⟨y 1005 bo, .forceUnlock S 500⟩

theorem c4_reachable : c4.Reachable fl := c3_reachable.step _

/-- The farm has released all its reward; it is removed before `bo` claims again. -/
def c5 : Contract := (c4.step fl ⟨at' 1100 al, .claimReward S⟩).step fl ⟨y 1101 own, .removeFarm F⟩

theorem c5_reachable : c5.Reachable fl := (c4_reachable.step _).step _

example : c1.amountOf S = 4000 ∧ (c1.stakeOf bo S).xLocked = 2000 := by decide +kernel
example : c2.rewardOf al T = 120 ∧ c3.rewardOf al T = 180 ∧ (c3.stakeOf al S).pow fl = 4500 := by
  decide +kernel
example : c4.slashedOf S = 9 ∧ (c4.stakeOf bo S).free = 491 ∧ (c4.stakeOf bo S).locked = 500 ∧
    c4.rewardOf bo T = 80 + 40 + 30 := by decide +kernel
example : c5.outdated.size = 1 := by decide +kernel

end Verif.Boost.Demo

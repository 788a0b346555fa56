import Verif.Farming.Demo

/-
Ways to lose a failed withdrawal (C47) and to be locked out (C49).
-/

namespace Verif.Farming.Contract

open Demo

/-! ### C47 -/

/-- **C47 is violated.** A farmer withdraws 30 seeds and 150 of reward and unregisters. Both transfers
fail, and both callbacks panic: what was withdrawn is neither staked nor credited to anyone. -/
theorem C47_lost : ∃ c : Contract, c.Reachable ∧ c.stakeOf al S = 30 ∧
    (∃ c1 c2 c3 outs, c.exec (y 1020 al) (.withdrawSeed S 30) = .ok (c1, [.ftSeed S al 30]) ∧
      c1.exec (y 1020 al) (.withdrawReward R' none) = .ok (c2, [.reward R' al 150]) ∧
      c2.exec (y 1020 al) .storageUnregister = .ok (c3, outs) ∧
      c3.callback (at' 1021 own) (.ftSeed S al 30) false = .error (.e 10) ∧
      c3.callback (at' 1021 own) (.reward R' al 150) false = .error (.e 10) ∧
      c3.stakeOf al S = 0 ∧ c3.rewardOf al R' = 0) := by
  refine ⟨c1, c1_reachable, by decide +kernel, ?_⟩
  have key : (c1.exec (y 1020 al) (.withdrawSeed S 30)).holds (fun r1 =>
      decide (r1.2 = [.ftSeed S al 30]) &&
      (r1.1.exec (y 1020 al) (.withdrawReward R' none)).holds (fun r2 =>
        decide (r2.2 = [.reward R' al 150]) &&
        (r2.1.exec (y 1020 al) .storageUnregister).holds (fun r3 =>
          (match r3.1.callback (at' 1021 own) (.ftSeed S al 30) false with
            | .error (.e 10) => true | _ => false) &&
          (match r3.1.callback (at' 1021 own) (.reward R' al 150) false with
            | .error (.e 10) => true | _ => false) &&
          decide (r3.1.stakeOf al S = 0 ∧ r3.1.rewardOf al R' = 0)))) = true := by decide +kernel
  simp only [R.holds_iff, Bool.and_eq_true, decide_eq_true_eq] at key
  obtain ⟨⟨d1, o1⟩, h1, rfl, ⟨d2, o2⟩, h2, rfl, ⟨d3, o3⟩, h3, ⟨h4, h5⟩, h6, h7⟩ := key
  refine ⟨d1, d2, d3, o3, h1, h2, h3, ?_, ?_, h6, h7⟩
  · simp only at h4
    split at h4
    · assumption
    · cases h4
  · simp only at h5
    split at h5
    · assumption
    · cases h5

/-! ### C49 -/

/-- `bo` has no stake in `S` any more, but claims once; then `al` leaves the farm, and somebody else
claims while nobody stakes. -/
def emptied : List Event := [
  .call (y 1020 bo) (.withdrawSeed S 10),
  .call (at' 1021 bo) (.claimRewardByFarm F),
  .call (y 1030 al) (.withdrawSeed S 30),
  .call (at' 1050 al) (.claimRewardByFarm F)]

/-- **C49 is violated.** Claiming without a stake records the current rate of the farm. If later nobody
stakes, the rate starts again from zero; then every claim, and every attempt to stake, of the farmer
with the recorded rate panics (subtraction overflow). -/
theorem C49_locked_out : ∃ c : Contract, c.Reachable ∧ c.running = true ∧
    (c.farmerStorage bo).1 < (c.farmerStorage bo).2 ∧
    c.exec (at' 1060 bo) (.claimRewardByFarm F) = .error .arith ∧
    c.exec (at' 1060 S) (.ftOnTransfer bo 10 []) = .error .arith ∧
    ∃ c' outs, c.exec (at' 1060 S) (.ftOnTransfer al 10 []) = .ok (c', outs) := by
  have key : (decide ((c1.run emptied).running = true) &&
      decide (((c1.run emptied).farmerStorage bo).1 < ((c1.run emptied).farmerStorage bo).2) &&
      (match (c1.run emptied).exec (at' 1060 bo) (.claimRewardByFarm F) with
        | .error .arith => true | _ => false) &&
      (match (c1.run emptied).exec (at' 1060 S) (.ftOnTransfer bo 10 []) with
        | .error .arith => true | _ => false) &&
      ((c1.run emptied).exec (at' 1060 S) (.ftOnTransfer al 10 [])).holds (fun _ => true)) = true := by
    decide +kernel
  have hr := c1_reachable.run emptied
  generalize c1.run emptied = c at key hr
  simp only [R.holds_iff, Bool.and_eq_true, decide_eq_true_eq] at key
  obtain ⟨⟨⟨⟨h1, h2⟩, h3⟩, h4⟩, ⟨c', o⟩, h5, _⟩ := key
  refine ⟨c, hr, h1, h2, ?_, ?_, c', o, h5⟩
  · split at h3
    · assumption
    · cases h3
  · split at h4
    · assumption
    · cases h4

/-- `cy` claims without a stake, unregisters, registers again and stakes. -/
def returning : List Event := [
  .call (near 1002 cy) (.storageDeposit none false),
  .call (at' 1003 cy) (.claimRewardByFarm F),
  .call (y 1004 cy) .storageUnregister,
  .call (near 1005 cy) (.storageDeposit none false),
  .call (at' 1006 S) (.ftOnTransfer cy 20 [])]

/-- **C49 is violated.** Rates recorded for a farmer outlive the account, its counter of recorded rates
does not. A farmer who claimed, unregistered and came back cannot withdraw the whole stake: the counter
underflows. -/
theorem C49_stuck : ∃ c : Contract, c.Reachable ∧ c.running = true ∧ c.stakeOf cy S = 20 ∧
    (c.farmerStorage cy).1 < (c.farmerStorage cy).2 ∧
    c.exec (y 1007 cy) (.withdrawSeed S 20) = .error .arith ∧
    ∃ c' outs, c.exec (y 1007 cy) (.withdrawSeed S 19) = .ok (c', outs) := by
  have key : (decide ((c1.run returning).running = true ∧ (c1.run returning).stakeOf cy S = 20) &&
      decide (((c1.run returning).farmerStorage cy).1 < ((c1.run returning).farmerStorage cy).2) &&
      (match (c1.run returning).exec (y 1007 cy) (.withdrawSeed S 20) with
        | .error .arith => true | _ => false) &&
      ((c1.run returning).exec (y 1007 cy) (.withdrawSeed S 19)).holds (fun _ => true)) = true := by
    decide +kernel
  have hr := c1_reachable.run returning
  generalize c1.run returning = c at key hr
  simp only [R.holds_iff, Bool.and_eq_true, decide_eq_true_eq] at key
  obtain ⟨⟨⟨⟨h1, h2⟩, h3⟩, h4⟩, ⟨c', o⟩, h5, _⟩ := key
  refine ⟨c, hr, h1, h2, h3, ?_, c', o, h5⟩
  split at h4
  · assumption
  · cases h4

/-- The owner adds a farm whose sessions last zero seconds, and it is funded. -/
def badFarm : List Event := [
  .call (near 1010 own) (.createSimpleFarm ⟨S, R', 0, 100, 0⟩ none),
  .call (at' 1010 R') (.ftOnTransfer own 1000 "S#1".toList)]

/-- **C49 is violated.** The terms of a farm are not checked. A session length of zero makes every
claim, stake and withdrawal of the seed panic (division by zero). -/
theorem C49_zero_interval : ∃ c : Contract, c.Reachable ∧ c.running = true ∧ c.stakeOf al S = 30 ∧
    c.exec (y 1011 al) (.withdrawSeed S 30) = .error .arith ∧
    c.exec (at' 1011 al) (.claimRewardBySeed S) = .error .arith ∧
    c.exec (at' 1011 S) (.ftOnTransfer al 5 []) = .error .arith := by
  have key : (decide ((c1.run badFarm).running = true ∧ (c1.run badFarm).stakeOf al S = 30) &&
      (match (c1.run badFarm).exec (y 1011 al) (.withdrawSeed S 30) with
        | .error .arith => true | _ => false) &&
      (match (c1.run badFarm).exec (at' 1011 al) (.claimRewardBySeed S) with
        | .error .arith => true | _ => false) &&
      (match (c1.run badFarm).exec (at' 1011 S) (.ftOnTransfer al 5 []) with
        | .error .arith => true | _ => false)) = true := by
    decide +kernel
  have hr := c1_reachable.run badFarm
  generalize c1.run badFarm = c at key hr
  simp only [Bool.and_eq_true, decide_eq_true_eq] at key
  obtain ⟨⟨⟨⟨h1, h2⟩, h3⟩, h4⟩, h5⟩ := key
  refine ⟨c, hr, h1, h2, ?_, ?_, ?_⟩
  · split at h3
    · assumption
    · cases h3
  · split at h4
    · assumption
    · cases h4
  · split at h5
    · assumption
    · cases h5

/-- A farm that hands out 2^127 per session of one second, funded with 10. -/
def hugeFarm : List Event := [
  .call (near 1010 own) (.createSimpleFarm ⟨S, R', 0, 2 ^ 127, 1⟩ none),
  .call (at' 1010 R') (.ftOnTransfer own 10 "S#1".toList)]

/-- **C49 is violated.** A large reward per session overflows once some sessions have passed without a
claim, with the same effect. -/
theorem C49_overflow : ∃ c : Contract, c.Reachable ∧ c.running = true ∧ c.stakeOf al S = 30 ∧
    c.exec (y 1012 al) (.withdrawSeed S 30) = .error .arith := by
  have key : (decide ((c1.run hugeFarm).running = true ∧ (c1.run hugeFarm).stakeOf al S = 30) &&
      (match (c1.run hugeFarm).exec (y 1012 al) (.withdrawSeed S 30) with
        | .error .arith => true | _ => false)) = true := by
    decide +kernel
  have hr := c1_reachable.run hugeFarm
  generalize c1.run hugeFarm = c at key hr
  simp only [Bool.and_eq_true, decide_eq_true_eq] at key
  obtain ⟨⟨h1, h2⟩, h3⟩ := key
  refine ⟨c, hr, h1, h2, ?_⟩
  split at h3
  · assumption
  · cases h3

end Verif.Farming.Contract

import Verif.Farming.Demo
import Verif.Farming.FarmProps

/-
No call fails for lack of reward or of staked seeds (C44).
-/

namespace Verif.Farming

/-- The computation does not fail with the internal error `E500`. -/
def Sound {α : Type} (x : R α) : Prop := x ≠ .error (.e 500)

namespace Sound

theorem ok {α : Type} (a : α) : Sound (.ok a : R α) := nofun
theorem bind {α β : Type} {x : R α} {f : α → R β} (hx : Sound x)
    (hf : ∀ a, x = .ok a → Sound (f a)) : Sound (x >>= f) := by
  cases x with
  | error e => exact fun h => hx (by cases h; rfl)
  | ok a => exact hf a rfl
theorem fit (w n : Nat) : Sound (fit w n) := by
  unfold Verif.fit; split <;> nofun
theorem addW (w a b : Nat) : Sound (addW w a b) := fit _ _
theorem mulW (w a b : Nat) : Sound (mulW w a b) := fit _ _
theorem subW (a b : Nat) : Sound (subW a b) := by
  unfold Verif.subW; split <;> nofun
theorem divW (a b : Nat) : Sound (divW a b) := by
  unfold Verif.divW; split <;> nofun
theorem assertE {c : Prop} [Decidable c] {e : Err} (h : c ∨ e ≠ .e 500) : Sound (assertE c e) := by
  unfold Verif.assertE
  split
  · nofun
  · rename_i hc
    rcases h with h | h
    · exact absurd h hc
    · intro h'; cases h'; exact h rfl
theorem expectE {α : Type} {o : Option α} {e : Err} (h : e ≠ .e 500) : Sound (expectE o e) := by
  unfold Verif.expectE
  split
  · nofun
  · intro h'; cases h'; exact h rfl
theorem error {α : Type} {e : Err} (h : e ≠ .e 500) : Sound (.error e : R α) := by
  intro h'; cases h'; exact h rfl

end Sound

/-- Discharges `Sound` for straight-line code. -/
macro "sound" : tactic => `(tactic| repeat' first
  | exact Sound.ok _
  | exact Sound.addW _ _ _
  | exact Sound.mulW _ _ _
  | exact Sound.subW _ _
  | exact Sound.divW _ _
  | exact Sound.fit _ _
  | exact Sound.assertE (.inr (by decide))
  | exact Sound.expectE (by decide)
  | exact Sound.error (by decide)
  | assumption
  | refine Sound.bind ?_ fun _ _ => ?_
  | split)

theorem Dist.lastRound_sound (d : Dist) (p : Nat) : Sound (d.lastRound p) := by
  unfold lastRound; sound

theorem Dist.advance_sound (d : Dist) (p rr due : Nat) : Sound (d.advance p rr due) := by
  unfold advance; split
  · exact d.lastRound_sound p
  · sound

theorem nextRps_sound (rps added total : Nat) : Sound (nextRps rps added total) := by
  unfold nextRps; sound

namespace SimpleFarm

theorem tryDistribute_sound (f : SimpleFarm) (now total : Nat) : Sound (f.tryDistribute now total) := by
  have h1 := f.dist.advance_sound f.terms.rewardPerSession
  unfold tryDistribute
  split
  · split
    · sound
    · refine .bind (by sound) fun _ _ => .bind (by sound) fun _ _ => .bind (by sound) fun _ _ =>
        .bind (by sound) fun _ _ => .bind (h1 _ _) fun _ _ => ?_
      refine .bind (by sound) fun _ _ => .bind (by sound) fun _ _ =>
        .bind (nextRps_sound _ _ _) fun _ _ => .ok _
  · sound

theorem adopt_sound (f : SimpleFarm) (d : Dist) (total : Nat) : Sound (f.adopt d total) := by
  unfold adopt; sound

theorem distribute_sound (f : SimpleFarm) (now total : Nat) : Sound (f.distribute now total) := by
  unfold distribute
  refine .bind (f.tryDistribute_sound now total) fun o _ => ?_
  split
  · sound
  · exact .bind (f.adopt_sound _ _) fun _ _ => .ok _

theorem reward_sound (s rps last : Nat) : Sound (reward s rps last) := by
  unfold reward; sound

theorem addReward_sound (f : SimpleFarm) (now n : Nat) : Sound (f.addReward now n) := by
  have := f.tryDistribute_sound now DENOM
  unfold addReward; sound

theorem clear_sound (f : SimpleFarm) : Sound f.clear := by
  unfold clear; sound

theorem moveToClear_sound (f : SimpleFarm) (now total : Nat) : Sound (f.moveToClear now total) := by
  unfold moveToClear
  split
  · exact .bind (f.distribute_sound now total) fun g _ => g.clear_sound
  · exact f.clear_sound

theorem canBeRemoved_sound (f : SimpleFarm) (now total : Nat) : Sound (f.canBeRemoved now total) := by
  have := f.tryDistribute_sound now total
  unfold canBeRemoved; sound

end SimpleFarm

theorem parseFarmId_sound (id : FarmId) : Sound (parseFarmId id) := by
  unfold parseFarmId; sound

theorem parseSeedId_sound (id : SeedId) : Sound (parseSeedId id) := by
  unfold parseSeedId; sound

theorem setRps_sound (m : RpsMap) (u : Farmer) (who : AccountId) (id : FarmId) (v : Nat) :
    Sound (setRps m u who id v) := by
  unfold setRps; sound

theorem removeRps_sound (m : RpsMap) (u : Farmer) (who : AccountId) (id : FarmId) :
    Sound (removeRps m u who id) := by
  unfold removeRps; sound

theorem removeAllRps_sound (who : AccountId) (ids : List FarmId) (m : RpsMap) (u : Farmer) :
    Sound (removeAllRps who ids m u) := by
  induction ids generalizing m u with
  | nil => exact .ok _
  | cons id ids ih => exact .bind (removeRps_sound m u who id) fun p _ => ih p.1 p.2

theorem Farmer.addReward_sound (u : Farmer) (t : AccountId) (n : Nat) : Sound (u.addReward t n) := by
  unfold addReward; sound

theorem Farmer.subReward_sound (u : Farmer) (t : AccountId) (n : Nat) : Sound (u.subReward t n) := by
  unfold subReward; sound

theorem Farmer.addSeed_sound (u : Farmer) (s : SeedId) (n : Nat) : Sound (u.addSeed s n) := by
  unfold addSeed; sound

theorem Farmer.subSeed_sound (u : Farmer) (s : SeedId) (n : Nat) : Sound (u.subSeed s n) := by
  unfold subSeed; sound

/-- A claim from a live farm finds what it pays in the pot. -/
theorem Inv.claim_sound {c : Contract} (hI : Inv c) {x : Ctx} {who : AccountId} {u : Farmer}
    {id : FarmId} {f : SimpleFarm} {fs : FarmSeed} (hu : c.farmers.get? who = some u)
    (hf : c.farms.get? id = some f) (hs : c.seeds.get? f.terms.seedId = some fs) :
    Sound (claimFromFarm x who f fs.amount c.rps u) := by
  have hl := hI.farms id f hf
  unfold claimFromFarm
  refine .bind ?_ fun _ _ => .bind (setRps_sound _ _ _ _ _) fun _ _ => ?_
  · unfold SimpleFarm.claimUserReward
    refine .bind (f.distribute_sound _ _) fun g hg => .bind (SimpleFarm.reward_sound _ _ _) fun n hn => ?_
    split
    · refine .bind (Sound.assertE (.inl ?_)) fun _ _ => by sound
      obtain ⟨added, hd⟩ := SimpleFarm.distribute_ok hg
      obtain ⟨hfund, _⟩ := hd.funded hl (hI.seeds _ fs hs).total
      rw [hl.id_eq] at hn
      have h1 := (SimpleFarm.reward_ok hn).2
      have h2 := c.farmers.term_le_sum
        (fun a u => u.stake g.terms.seedId * (g.dist.rps - c.rps.getD (a, id) 0)) who
      rw [FMap.term_some _ hu, hd.terms] at h2
      rw [h1]
      refine Nat.le_of_mul_le_mul_right (Nat.le_trans (Nat.div_mul_le_self _ DENOM) ?_) DENOM_pos
      refine Nat.le_trans h2 ?_
      unfold Contract.claimable at hfund
      rw [hd.terms] at hfund
      exact hfund
    · sound
  · simp only
    split
    · exact .bind (Farmer.addReward_sound _ _ _) fun _ _ => .ok _
    · sound

namespace Contract

theorem claimFarms_sound {x : Ctx} {who : AccountId} {s : SeedId} {fs : FarmSeed} {c : Contract}
    {ids : List FarmId} {u : Farmer} (hI : Inv c) (hs : c.seeds.get? s = some fs)
    (hu : c.farmers.get? who = some u)
    (hids : ∀ id ∈ ids, ∃ f, c.farms.get? id = some f ∧ f.terms.seedId = s) :
    Sound (claimFarms x who fs.amount ids c.farms c.rps u) := by
  induction ids generalizing c u with
  | nil => exact .ok _
  | cons id ids ih =>
    unfold claimFarms
    refine .bind (Sound.expectE (by decide)) fun f hf => ?_
    rw [expectE_ok] at hf
    obtain ⟨f', hf', hsd⟩ := hids id (by simp)
    rw [hf] at hf'
    cases hf'
    have hs' : c.seeds.get? f.terms.seedId = some fs := by rw [hsd]; exact hs
    refine .bind (hI.claim_sound hu hf hs') fun r hc => ?_
    obtain ⟨f1, m1, u1⟩ := r
    refine ih (hI.claimStep hu hf hs' hc) hs (FMap.get?_insert_self _ _ _) ?_
    intro id' hid'
    obtain ⟨f', hf', hsd'⟩ := hids id' (by simp [hid'])
    show ∃ f, (c.farms.insert id f1).get? id' = some f ∧ _
    rw [FMap.get?_insert]
    split
    · obtain ⟨g, added, n, hcl⟩ := claimFromFarm_ok hc
      exact ⟨f1, rfl, by rw [hcl.farm]; simp only [hcl.dist.terms]; exact hsd⟩
    · exact ⟨f', hf', hsd'⟩

theorem claimBySeed_sound {c : Contract} (hI : Inv c) (x : Ctx) (who : AccountId) (s : SeedId) :
    Sound (c.claimBySeed x who s) := by
  unfold claimBySeed farmer
  refine .bind (Sound.expectE (by decide)) fun u hu => ?_
  rw [expectE_ok] at hu
  split
  · exact .ok _
  · rename_i fs hs
    exact .bind (claimFarms_sound hI hs hu fun id hid =>
      (hI.seeds s fs hs).farms id ((x.order.perm fs.farms).mem_iff.1 hid)) fun _ _ => .ok _

theorem claimByFarm_sound {c : Contract} (hI : Inv c) (x : Ctx) (who : AccountId) (id : FarmId) :
    Sound (c.claimByFarm x who id) := by
  unfold claimByFarm farmer
  refine .bind (Sound.expectE (by decide)) fun u hu => ?_
  rw [expectE_ok] at hu
  refine .bind (parseFarmId_sound id) fun s hp => ?_
  split
  · rename_i fs f hs hf
    obtain ⟨fs', _, _, i, _, hg⟩ := (hI.farms id f hf).seed
    rw [hg] at hp
    have := parseFarmId_gen hp
    subst this
    exact .bind (hI.claim_sound hu hf hs) fun _ _ => .ok _
  · exact .ok _

theorem assertStorage_sound (c : Contract) (a : AccountId) : Sound (c.assertStorage a) := by
  unfold assertStorage; sound

theorem register_sound (c : Contract) (a : AccountId) (n : Nat) : Sound (c.register a n) := by
  unfold register; sound

theorem seedDeposit_sound {c : Contract} (hI : Inv c) (x : Ctx) (who : AccountId) (s : SeedId)
    (n : Nat) (mft : Bool) : Sound (c.seedDeposit x who s n mft) := by
  unfold seedDeposit addStake seed farmer
  refine .bind (claimBySeed_sound hI x who s) fun c1 _ => ?_
  exact .bind (by sound) fun _ _ => .bind (by sound) fun _ _ => .bind (by sound) fun _ _ =>
    .bind (Farmer.addSeed_sound _ _ _) fun _ _ => .ok _

theorem seedWithdraw_sound {c : Contract} (hI : Inv c) (x : Ctx) (who : AccountId) (s : SeedId)
    (n : Nat) : Sound (c.seedWithdraw x who s n) := by
  unfold seedWithdraw seed farmer
  refine .bind (claimBySeed_sound hI x who s) fun c1 h1 => ?_
  have hI1 := hI.claimBySeed h1
  refine .bind (by sound) fun fs hs => .bind (by sound) fun u hu =>
    .bind (Farmer.subSeed_sound _ _ _) fun r hr => ?_
  obtain ⟨u1, remain⟩ := r
  rw [expectE_ok] at hs hu
  refine .bind (Sound.assertE (.inl ?_)) fun _ _ =>
    .bind (removeAllRps_sound _ _ _ _) fun _ _ => .ok _
  obtain ⟨_, _, _, _, _, h6, _⟩ := Farmer.subSeed_ok hr
  have h7 := c1.farmers.term_le_sum (fun _ u => u.stake s) who
  rw [FMap.term_some _ hu] at h7
  have h8 := (hI1.seeds s fs hs).total
  unfold stakes at h8
  omega

theorem exec_sound {c : Contract} (hI : Inv c) (x : Ctx) (k : Call) : Sound (c.exec x k) := by
  cases k with
  | createSimpleFarm t m =>
    show Sound (c.createSimpleFarm x t m)
    unfold createSimpleFarm assertOwner
    refine .bind (by sound) fun _ _ => .bind (by sound) fun _ _ => .bind ?_ fun _ _ => by sound
    unfold addFarm
    refine .bind ?_ fun _ _ => by sound
    split
    · exact .ok _
    · exact .bind (parseSeedId_sound _) fun _ _ => .ok _
  | forceCleanFarm id =>
    refine .bind ?_ fun _ _ => .ok _
    unfold forceCleanFarm assertOwner Ctx.noDeposit
    refine .bind (by sound) fun _ _ => .bind (by sound) fun _ _ => ?_
    unfold removeFarm
    refine .bind (parseFarmId_sound id) fun _ _ => ?_
    split
    · refine .bind (SimpleFarm.canBeRemoved_sound _ _ _) fun _ _ => ?_
      split
      · exact .bind (SimpleFarm.moveToClear_sound _ _ _) fun _ _ => .ok _
      · exact .ok _
    · exact .ok _
  | setOwner a =>
    refine .bind ?_ fun _ _ => .ok _
    unfold setOwner assertOwner Ctx.noDeposit; sound
  | modifyMinDeposit s n =>
    refine .bind ?_ fun _ _ => .ok _
    unfold modifyMinDeposit assertOwner Ctx.noDeposit seed; sound
  | setRunning b =>
    refine .bind ?_ fun _ _ => .ok _
    unfold setRunning assertOwner Ctx.oneYocto; sound
  | removeUserRps id =>
    refine .bind ?_ fun _ _ => .ok _
    unfold removeUserRps assertRunning Ctx.noDeposit farmer seed
    refine .bind (by sound) fun _ _ => .bind (by sound) fun _ _ => .bind (by sound) fun _ _ =>
      .bind (parseFarmId_sound id) fun _ _ => .bind (by sound) fun _ _ => ?_
    split
    · exact .ok _
    · exact .bind (removeRps_sound _ _ _ _) fun _ _ => .ok _
  | claimRewardByFarm id =>
    refine .bind ?_ fun _ _ => .ok _
    unfold claimRewardByFarm assertRunning Ctx.noDeposit
    exact .bind (by sound) fun _ _ => .bind (by sound) fun _ _ =>
      .bind (claimByFarm_sound hI x x.pred id) fun _ _ => .bind (assertStorage_sound _ _) fun _ _ => .ok _
  | claimRewardBySeed s =>
    refine .bind ?_ fun _ _ => .ok _
    unfold claimRewardBySeed assertRunning Ctx.noDeposit
    exact .bind (by sound) fun _ _ => .bind (by sound) fun _ _ =>
      .bind (claimBySeed_sound hI x x.pred s) fun _ _ => .bind (assertStorage_sound _ _) fun _ _ => .ok _
  | withdrawReward t n =>
    show Sound (c.withdrawReward x t n)
    unfold withdrawReward assertRunning Ctx.oneYocto farmer
    exact .bind (by sound) fun _ _ => .bind (by sound) fun _ _ => .bind (by sound) fun _ _ =>
      .bind (Farmer.subReward_sound _ _ _) fun _ _ => .ok _
  | withdrawSeed s n =>
    show Sound (c.withdrawSeed x s n)
    unfold withdrawSeed assertRunning Ctx.oneYocto
    refine .bind (by sound) fun _ _ => .bind (by sound) fun _ _ =>
      .bind (seedWithdraw_sound hI x x.pred s n) fun _ _ => ?_
    simp only
    split
    · exact .bind (parseSeedId_sound s) fun _ _ => .ok _
    · exact .ok _
  | ftOnTransfer a n msg =>
    refine .bind ?_ fun _ _ => .ok _
    unfold ftOnTransfer
    split
    · unfold ftStake assertRunning Ctx.noDeposit seed
      exact .bind (by sound) fun _ _ => .bind (by sound) fun _ _ => .bind (by sound) fun _ _ =>
        .bind (by sound) fun _ _ => .bind (seedDeposit_sound hI _ _ _ _ _) fun _ _ =>
        .bind (assertStorage_sound _ _) fun _ _ => .ok _
    · unfold ftReward assertRunning Ctx.noDeposit
      refine .bind (by sound) fun _ _ => .bind (by sound) fun _ _ => .bind (by sound) fun _ _ =>
        .bind (by sound) fun _ _ => .bind (SimpleFarm.addReward_sound _ _ _) fun _ _ => ?_
      sound
  | mftOnTransfer t a n msg =>
    refine .bind ?_ fun _ _ => .ok _
    unfold mftOnTransfer assertRunning Ctx.noDeposit seed
    refine .bind (by sound) fun _ _ => .bind (by sound) fun _ _ => ?_
    split
    · sound
    · exact .bind (by sound) fun _ _ => .bind (by sound) fun _ _ =>
        .bind (by sound) fun _ _ => .bind (seedDeposit_sound hI _ _ _ _ _) fun _ _ =>
        .bind (assertStorage_sound _ _) fun _ _ => .ok _
  | storageDeposit a b =>
    have := c.register_sound
    show Sound (c.storageDeposit x a b)
    unfold storageDeposit assertRunning
    refine .bind (by sound) fun _ _ => ?_
    simp only
    repeat' first
      | exact this _ _
      | exact .ok _
      | exact Sound.error (by decide)
      | exact Sound.assertE (.inr (by decide))
      | exact Sound.addW _ _ _
      | refine .bind ?_ fun _ _ => ?_
      | split
  | storageWithdraw n =>
    show Sound (c.storageWithdraw x n)
    unfold storageWithdraw assertRunning Ctx.oneYocto farmer; sound
  | storageUnregister =>
    show Sound (c.storageUnregister x)
    unfold storageUnregister assertRunning Ctx.oneYocto; sound

/-- **C44.** No call and no callback ever fails because the reward or the seeds it has to pay are not
there (the internal error `E500`). -/
theorem C44_never_short {c : Contract} (hr : c.Reachable) (e : Event) :
    c.apply e ≠ .error (.e 500) := by
  have hI := hr.inv
  cases e with
  | call x k => exact exec_sound hI x k
  | callback x o ok =>
    refine Sound.bind ?_ fun _ _ => .ok _
    unfold callback farmer
    split
    · exact .ok _
    · split
      · exact .ok _
      · exact .bind (by sound) fun _ _ => .bind (Farmer.addReward_sound _ _ _) fun _ _ => .ok _
      · exact seedDeposit_sound hI _ _ _ _ _
      · exact seedDeposit_sound hI _ _ _ _ _

/-- `al`'s claim and withdrawal of everything, and the callback of the failed transfer, in the demo. -/
example : (Demo.c1.apply (.call (Demo.y 1040 Demo.al) (.withdrawSeed Demo.S 30))).holds (fun r =>
    (r.1.apply (.callback (Demo.at' 1041 Demo.own) (.ftSeed Demo.S Demo.al 30) false)).holds
      (fun _ => true)) = true := by decide +kernel

end Contract
end Verif.Farming

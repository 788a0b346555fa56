import Verif.Farming.FarmProps

/-
Stakes (C46) and who can change a farmer's account (C54).
-/

namespace Verif.Farming

/-- What an event leaves alone of account `a`. -/
def SameFarmer (c c' : Contract) (a : AccountId) : Prop :=
  c'.farmers.get? a = c.farmers.get? a ∧ ∀ id, c'.rps.get? (a, id) = c.rps.get? (a, id)

namespace Contract

variable {c c' : Contract}

theorem Claims.sameFarmer {x : Ctx} {who a : AccountId} {ids : List FarmId}
    (h : Claims x who c ids c') (ha : a ≠ who) : SameFarmer c c' a :=
  ⟨h.same.others a ha, fun id => h.same.rps a id ha⟩

theorem seedDeposit_same {x : Ctx} {who a : AccountId} {s : SeedId} {n : Nat} {mft : Bool}
    (hI : Inv c) (h : c.seedDeposit x who s n mft = .ok c') (ha : a ≠ who) : SameFarmer c c' a := by
  obtain ⟨fs, c1, u, u', hs, hc, hu, hu', hlt, rfl⟩ := seedDeposit_ok hI h
  exact ⟨(FMap.get?_insert_ne _ _ ha).trans (hc.same.others a ha), fun id => hc.same.rps a id ha⟩

theorem seedWithdraw_same {x : Ctx} {who a : AccountId} {s : SeedId} {n : Nat} {mft : Bool}
    (hI : Inv c) (h : c.seedWithdraw x who s n = .ok (c', mft)) (ha : a ≠ who) :
    SameFarmer c c' a := by
  obtain ⟨fs, c1, u, u1, u', remain, m, hs, hc, hu, hu1, hle, rfl, hm, rfl⟩ := seedWithdraw_ok hI h
  refine ⟨(FMap.get?_insert_ne _ _ ha).trans (hc.same.others a ha), fun id => ?_⟩
  obtain ⟨_, _, _, h6⟩ := removeAllRps_ok hm
  rw [h6, if_neg (fun h => ha h.1)]
  exact hc.same.rps a id ha

theorem register_same {who a : AccountId} {n : Nat} (h : c.register who n = .ok c') (ha : a ≠ who) :
    SameFarmer c c' a := by
  unfold register at h
  split at h
  · unpack at h
    obtain ⟨_, rfl⟩ := h
    exact ⟨FMap.get?_insert_ne _ _ ha, fun _ => rfl⟩
  · unpack at h
    obtain ⟨_, rfl⟩ := h
    exact ⟨FMap.get?_insert_ne _ _ ha, fun _ => rfl⟩

theorem event_same {e : Event} {outs : List Out} (hI : Inv c) (h : c.apply e = .ok (c', outs))
    {a : AccountId} (ha : e.farmer ≠ some a) : SameFarmer c c' a := by
  have refl : SameFarmer c c a := ⟨rfl, fun _ => rfl⟩
  cases e with
  | callback x o ok =>
    obtain rfl | ⟨_, ⟨t, who, n, u, u1, rfl, hu, h1, rfl⟩ | ⟨s, who, n, rfl, h1⟩ |
      ⟨s, _, _, who, n, rfl, h1⟩⟩ := callback_inv (exec_quiet h).1
    · exact refl
    · have hne : a ≠ who := fun h => ha (by rw [h]; rfl)
      exact ⟨FMap.get?_insert_ne _ _ hne, fun _ => rfl⟩
    · exact seedDeposit_same hI h1 (fun h => ha (by rw [h]; rfl))
    · exact seedDeposit_same hI h1 (fun h => ha (by rw [h]; rfl))
  | call x k =>
    simp only [apply] at h
    cases k with
    | createSimpleFarm t m =>
      obtain ⟨_, h1, _, hr, _⟩ := createSimpleFarm_inv h
      obtain ⟨fs, hfs, _, rfl⟩ := addFarm_ok h1
      exact refl
    | forceCleanFarm i =>
      obtain ⟨_, h1⟩ := forceCleanFarm_inv (exec_quiet h).1
      obtain rfl | ⟨f, fs, g, hf, hs, hb, hg, rfl⟩ := removeFarm_ok hI h1
      · exact refl
      · exact refl
    | setOwner b =>
      obtain ⟨_, rfl⟩ := setOwner_inv (exec_quiet h).1
      exact refl
    | modifyMinDeposit s n =>
      obtain ⟨_, fs, hs, rfl⟩ := modifyMinDeposit_inv (exec_quiet h).1
      exact refl
    | setRunning b =>
      obtain ⟨_, _, rfl⟩ := setRunning_inv (exec_quiet h).1
      exact refl
    | removeUserRps id =>
      have hne : a ≠ x.pred := fun h => ha (by rw [h]; rfl)
      obtain ⟨_, u, s, fs, hu, hp, hs, ⟨_, rfl⟩ | ⟨hnot, m, u1, hm, rfl⟩⟩ :=
        removeUserRps_inv (exec_quiet h).1
      · exact refl
      · obtain ⟨_, _, _, rfl⟩ := removeRps_ok hm
        exact ⟨FMap.get?_insert_ne _ _ hne,
          fun id' => FMap.get?_erase_ne _ (fun h => hne (Prod.mk.inj h).1)⟩
    | claimRewardByFarm id =>
      have hne : a ≠ x.pred := fun h => ha (by rw [h]; rfl)
      obtain ⟨_, h1, _⟩ := claimRewardByFarm_inv (exec_quiet h).1
      obtain ⟨_, _, rfl | ⟨_, h2⟩⟩ := claimByFarm_ok hI h1
      · exact refl
      · exact Claims.sameFarmer h2 hne
    | claimRewardBySeed s =>
      have hne : a ≠ x.pred := fun h => ha (by rw [h]; rfl)
      obtain ⟨_, h1, _⟩ := claimRewardBySeed_inv (exec_quiet h).1
      obtain ⟨_, _, ⟨_, rfl⟩ | ⟨_, _, h2⟩⟩ := claimBySeed_ok hI h1
      · exact refl
      · exact Claims.sameFarmer h2 hne
    | withdrawReward t n =>
      have hne : a ≠ x.pred := fun h => ha (by rw [h]; rfl)
      obtain ⟨_, _, u, u1, k, hu, h1, rfl, _⟩ := withdrawReward_inv h
      exact ⟨FMap.get?_insert_ne _ _ hne, fun _ => rfl⟩
    | withdrawSeed s n =>
      have hne : a ≠ x.pred := fun h => ha (by rw [h]; rfl)
      obtain ⟨_, _, mft, h1, _⟩ := withdrawSeed_inv h
      exact seedWithdraw_same hI h1 hne
    | ftOnTransfer b n msg =>
      obtain ⟨_, ⟨hm, _, _, _, h1, _⟩ | ⟨_, f, f1, hf, _, h1, rfl⟩⟩ := ftOnTransfer_inv (exec_quiet h).1
      · exact seedDeposit_same hI h1 (fun h => ha (by rw [h, hm]; rfl))
      · exact refl
    | mftOnTransfer t b n msg =>
      obtain ⟨_, p, fs, _, _, _, h1, _⟩ := mftOnTransfer_inv (exec_quiet h).1
      exact seedDeposit_same hI h1 (fun h => ha (by rw [h]; rfl))
    | storageDeposit b only =>
      obtain ⟨_, n, h1, _⟩ := storageDeposit_inv h
      exact register_same h1 (fun h => ha (by rw [h]; rfl))
    | storageWithdraw n =>
      have hne : a ≠ x.pred := fun h => ha (by rw [h]; rfl)
      obtain ⟨_, u, k, hu, _, _, rfl, _⟩ := storageWithdraw_inv h
      exact ⟨FMap.get?_insert_ne _ _ hne, fun _ => rfl⟩
    | storageUnregister =>
      have hne : a ≠ x.pred := fun h => ha (by rw [h]; rfl)
      obtain ⟨_, ⟨_, rfl, _⟩ | ⟨u, hu, _, _, _, rfl, _⟩⟩ := storageUnregister_inv h
      · exact refl
      · exact ⟨FMap.get?_erase_ne _ hne, fun _ => rfl⟩

/-- **C54.** Stakes, rewards, the registration and the NEAR deposit of a farmer, and the rates up to
which they have claimed, only change in an event about that farmer. -/
theorem C54_own_account (hr : c.Reachable) (e : Event) {a : AccountId} (ha : e.farmer ≠ some a) :
    (c.step e).farmers.get? a = c.farmers.get? a ∧
    (∀ s, (c.step e).stakeOf a s = c.stakeOf a s) ∧
    (∀ t, (c.step e).rewardOf a t = c.rewardOf a t) ∧
    ∀ id, (c.step e).rps.get? (a, id) = c.rps.get? (a, id) := by
  have key : SameFarmer c (c.step e) a := by
    unfold step
    cases h : c.apply e with
    | error _ => exact ⟨rfl, fun _ => rfl⟩
    | ok r => exact event_same (outs := r.2) hr.inv h ha
  exact ⟨key.1, fun s => by unfold stakeOf; rw [key.1], fun t => by unfold rewardOf; rw [key.1], key.2⟩

open Demo in
/-- `al` claims and withdraws; `bo` is not affected. -/
example : Event.farmer (.call (y 1040 al) (.withdrawSeed S 30)) ≠ some bo ∧
    (c1.exec (y 1040 al) (.withdrawSeed S 30)).holds (fun r =>
      r.1.stakeOf al S = 0 ∧ r.1.rewardOf al R' = 300 ∧ r.1.stakeOf bo S = 10) = true := by
  decide +kernel

/-- **C46.** The recorded total of a seed is the sum of all stakes in it. -/
theorem C46_total (hr : c.Reachable) (s : SeedId) : c.seedTotal s = c.stakes s := by
  unfold seedTotal
  cases hs : c.seeds.get? s with
  | none => exact (hr.inv.no_stake hs).symm
  | some fs => exact (hr.inv.seeds s fs hs).total

open Demo in
example : c1.seedTotal S = 40 ∧ c1.stakes S = 40 ∧ c1.seedTotal XS = 500 := by decide +kernel

theorem stakeOf_some {a : AccountId} {u : Farmer} (hu : c.farmers.get? a = some u)
    (s : SeedId) : c.stakeOf a s = u.stake s := by
  unfold stakeOf; rw [hu]

theorem stakeOf_claims {x : Ctx} {who : AccountId} {ids : List FarmId}
    (h : Claims x who c ids c') (a : AccountId) (s : SeedId) : c'.stakeOf a s = c.stakeOf a s := by
  by_cases ha : a = who
  · subst ha
    cases hu : c.farmers.get? a with
    | none =>
      cases h with
      | nil => rfl
      | cons hu' => rw [hu] at hu'; cases hu'
    | some u =>
      obtain ⟨u', h1, _, h2, _⟩ := h.same.farmer u hu
      rw [stakeOf_some h1, stakeOf_some hu]
      exact stake_congr h2 s
  · unfold stakeOf
    rw [h.same.others a ha]

private theorem stake_other {u u' : Farmer} {r s : SeedId}
    (h : ∀ r, r ≠ s → u'.seeds.get? r = u.seeds.get? r) (hr : r ≠ s) : u'.stake r = u.stake r := by
  unfold Farmer.stake FMap.getD; rw [h r hr]

theorem seedDeposit_stake {x : Ctx} {who : AccountId} {s : SeedId} {n : Nat} {mft : Bool}
    (hI : Inv c) (h : c.seedDeposit x who s n mft = .ok c') (a : AccountId) (r : SeedId) :
    c'.stakeOf a r = c.stakeOf a r + if a = who ∧ r = s then n else 0 := by
  obtain ⟨fs, c1, u, u', hs, hc, hu, hu', hlt, rfl⟩ := seedDeposit_ok hI h
  rw [← stakeOf_claims hc]
  obtain ⟨_, _, _, h1, h2, _⟩ := Farmer.addSeed_ok hu'
  by_cases ha : a = who
  · subst ha
    rw [stakeOf_some hu, stakeOf_some (u := u') (FMap.get?_insert_self c1.farmers _ _)]
    by_cases hrs : r = s
    · subst hrs; rw [h2, if_pos ⟨rfl, rfl⟩]
    · rw [if_neg (fun h => hrs h.2), stake_other h1 hrs]; rfl
  · rw [if_neg (fun h => ha h.1)]
    unfold stakeOf
    simp only
    rw [FMap.get?_insert_ne _ _ ha]; rfl

theorem seedWithdraw_stake {x : Ctx} {who : AccountId} {s : SeedId} {n : Nat} {mft : Bool}
    (hI : Inv c) (h : c.seedWithdraw x who s n = .ok (c', mft)) (a : AccountId) (r : SeedId) :
    c'.stakeOf a r + (if a = who ∧ r = s then n else 0) = c.stakeOf a r := by
  obtain ⟨fs, c1, u, u1, u', remain, m, hs, hc, hu, hu1, hle, rfl, hm, rfl⟩ := seedWithdraw_ok hI h
  rw [← stakeOf_claims hc]
  obtain ⟨_, _, _, h1, h2, h3, _⟩ := Farmer.subSeed_ok hu1
  obtain ⟨h5, _, _, _⟩ := removeAllRps_ok hm
  by_cases ha : a = who
  · subst ha
    rw [stakeOf_some hu, stakeOf_some (u := u') (FMap.get?_insert_self c1.farmers _ _),
      stake_congr h5]
    by_cases hrs : r = s
    · subst hrs; rw [if_pos ⟨rfl, rfl⟩]; omega
    · rw [if_neg (fun h => hrs h.2), stake_other h1 hrs]; rfl
  · rw [if_neg (fun h => ha h.1)]
    unfold stakeOf
    simp only
    rw [FMap.get?_insert_ne _ _ ha]; rfl

theorem stakeOf_same_seeds {who : AccountId} {u u' : Farmer} (hu : c.farmers.get? who = some u)
    (hs : u'.seeds = u.seeds) (hc : c'.farmers = c.farmers.insert who u') (a : AccountId)
    (s : SeedId) : c'.stakeOf a s = c.stakeOf a s := by
  by_cases ha : a = who
  · subst ha
    rw [stakeOf_some hu, stakeOf_some (u := u') (by rw [hc]; exact FMap.get?_insert_self _ _ _)]
    exact stake_congr hs s
  · unfold stakeOf
    rw [hc, FMap.get?_insert_ne _ _ ha]

/-- **C46.** Stakes change by exactly what is deposited and withdrawn. -/
theorem C46_ledger (hr : c.Reachable) {e : Event} {outs : List Out}
    (h : c.apply e = .ok (c', outs)) (a : AccountId) (s : SeedId) :
    c'.stakeOf a s + e.unstaked a s = c.stakeOf a s + e.staked a s := by
  have hI := hr.inv
  cases e with
  | callback x o ok =>
    show c'.stakeOf a s + 0 = _
    obtain rfl | ⟨rfl, ⟨t, who, n, u, u1, rfl, hu, h1, rfl⟩ | ⟨s', who, n, rfl, h1⟩ |
      ⟨s', _, _, who, n, rfl, h1⟩⟩ := callback_inv (exec_quiet h).1
    · have : Event.staked a s (.callback x o ok) = 0 ∨ ok = false := by
        cases ok
        · exact .inr rfl
        · left; cases o <;> rfl
      rcases this with h0 | rfl
      · rw [h0]
      · cases o with
        | near => rfl
        | reward => rfl
        | ftSeed s' who n => 
          have := seedDeposit_stake hI (exec_quiet h).1 a s
          exact this
        | mftSeed s' _ _ who n =>
          have := seedDeposit_stake hI (exec_quiet h).1 a s
          exact this
    · exact stakeOf_same_seeds hu (Farmer.addReward_ok h1).1 rfl a s
    · exact seedDeposit_stake hI h1 a s
    · exact seedDeposit_stake hI h1 a s
  | call x k =>
    simp only [apply] at h
    cases k with
    | createSimpleFarm t m =>
      obtain ⟨_, h1, _, hr, _⟩ := createSimpleFarm_inv h
      obtain ⟨fs, hfs, _, rfl⟩ := addFarm_ok h1
      rfl
    | forceCleanFarm i =>
      obtain ⟨_, h1⟩ := forceCleanFarm_inv (exec_quiet h).1
      obtain rfl | ⟨f, fs, g, hf, hs, hb, hg, rfl⟩ := removeFarm_ok hI h1
      · rfl
      · rfl
    | setOwner b =>
      obtain ⟨_, rfl⟩ := setOwner_inv (exec_quiet h).1
      rfl
    | modifyMinDeposit s' n =>
      obtain ⟨_, fs, hs, rfl⟩ := modifyMinDeposit_inv (exec_quiet h).1
      rfl
    | setRunning b =>
      obtain ⟨_, _, rfl⟩ := setRunning_inv (exec_quiet h).1
      rfl
    | removeUserRps id =>
      show c'.stakeOf a s = _
      obtain ⟨_, u, s', fs, hu, hp, hs, ⟨_, rfl⟩ | ⟨hnot, m, u1, hm, rfl⟩⟩ :=
        removeUserRps_inv (exec_quiet h).1
      · rfl
      · exact stakeOf_same_seeds hu (removeRps_ok hm).1 rfl a s
    | claimRewardByFarm id =>
      show c'.stakeOf a s = _
      obtain ⟨_, h1, _⟩ := claimRewardByFarm_inv (exec_quiet h).1
      obtain ⟨_, _, rfl | ⟨_, h2⟩⟩ := claimByFarm_ok hI h1
      · rfl
      · exact stakeOf_claims h2 a s
    | claimRewardBySeed s' =>
      show c'.stakeOf a s = _
      obtain ⟨_, h1, _⟩ := claimRewardBySeed_inv (exec_quiet h).1
      obtain ⟨_, _, ⟨_, rfl⟩ | ⟨_, _, h2⟩⟩ := claimBySeed_ok hI h1
      · rfl
      · exact stakeOf_claims h2 a s
    | withdrawReward t n =>
      show c'.stakeOf a s = _
      obtain ⟨_, _, u, u1, k, hu, h1, rfl, _⟩ := withdrawReward_inv h
      exact stakeOf_same_seeds hu (Farmer.subReward_ok h1).1 rfl a s
    | withdrawSeed s' n =>
      obtain ⟨_, _, mft, h1, _⟩ := withdrawSeed_inv h
      exact seedWithdraw_stake hI h1 a s
    | ftOnTransfer b n msg =>
      show c'.stakeOf a s + 0 = _
      obtain ⟨_, ⟨hm, _, _, _, h1, _⟩ | ⟨hm, f, f1, hf, _, h1, rfl⟩⟩ := ftOnTransfer_inv (exec_quiet h).1
      · rw [Nat.add_zero, seedDeposit_stake hI h1 a s]
        simp only [Event.staked, hm, true_and]
      · simp only [Event.staked, hm, false_and, if_false]
        rfl
    | mftOnTransfer t b n msg =>
      show c'.stakeOf a s + 0 = _
      obtain ⟨_, p, fs, hp, _, _, h1, _⟩ := mftOnTransfer_inv (exec_quiet h).1
      rw [Nat.add_zero, seedDeposit_stake hI h1 a s]
      simp only [Event.staked, hp]
    | storageDeposit b only =>
      show c'.stakeOf a s = _
      obtain ⟨_, n, h1, _⟩ := storageDeposit_inv h
      unfold register at h1
      split at h1
      · unpack at h1
        obtain ⟨_, rfl⟩ := h1
        refine stakeOf_same_seeds ‹_› ?_ rfl a s
        rfl
      · rename_i hn
        unpack at h1
        obtain ⟨_, rfl⟩ := h1
        by_cases hb : a = b.getD x.pred
        · subst hb
          rw [stakeOf_some (u := .new n) (FMap.get?_insert_self c.farmers _ _)]
          unfold stakeOf
          rw [hn]
          rfl
        · unfold stakeOf
          simp only
          rw [FMap.get?_insert_ne _ _ hb]
          rfl
    | storageWithdraw n =>
      show c'.stakeOf a s = _
      obtain ⟨_, u, k, hu, _, _, rfl, _⟩ := storageWithdraw_inv h
      refine stakeOf_same_seeds hu ?_ rfl a s
      rfl
    | storageUnregister =>
      show c'.stakeOf a s = _
      obtain ⟨_, ⟨_, rfl, _⟩ | ⟨u, hu, _, hsz, _, rfl, _⟩⟩ := storageUnregister_inv h
      · rfl
      · by_cases hb : a = x.pred
        · subst hb
          rw [stakeOf_some hu]
          unfold stakeOf Farmer.stake
          simp only
          rw [FMap.get?_erase_self, size_zero hsz]
          rfl
        · unfold stakeOf
          simp only
          rw [FMap.get?_erase_ne _ hb]
          rfl

/-- **C46.** A withdrawal is covered by the caller's stake, and one transfer of exactly the amount
that is deducted goes out, to the caller. -/
theorem C46_withdraw (hr : c.Reachable) {x : Ctx} {s : SeedId} {n : Nat} {outs : List Out}
    (h : c.exec x (.withdrawSeed s n) = .ok (c', outs)) :
    n ≤ c.stakeOf x.pred s ∧ c'.stakeOf x.pred s = c.stakeOf x.pred s - n ∧
    (outs = [.ftSeed s x.pred n] ∨
      ∃ contract token, parseSeedId s = .ok (contract, token) ∧
        outs = [.mftSeed s contract token x.pred n]) := by
  have h1 := C46_ledger (e := .call x (.withdrawSeed s n)) hr h x.pred s
  have h2 : Event.unstaked x.pred s (.call x (.withdrawSeed s n)) = n := by simp [Event.unstaked]
  have h3 : Event.staked x.pred s (.call x (.withdrawSeed s n)) = 0 := rfl
  rw [h2, h3] at h1
  refine ⟨by omega, by omega, ?_⟩
  obtain ⟨_, _, mft, _, h4⟩ := withdrawSeed_inv h
  rcases h4 with ⟨_, h5⟩ | ⟨_, a, b, h5, h6⟩
  · exact .inl h5
  · exact .inr ⟨a, b, h5, h6⟩

open Demo in
/-- A withdrawal of a token and one of pool shares; more than the stake is refused; a failed transfer
is staked again. -/
example : (c1.exec (y 1040 al) (.withdrawSeed S 12)).holds (fun r =>
      decide (r.1.stakeOf al S = 18) && decide (r.2 = [.ftSeed S al 12]) &&
      (r.1.callback (at' 1041 own) (.ftSeed S al 12) false).holds (fun c => c.stakeOf al S = 30)) =
        true ∧
    (c1.exec (y 1040 bo) (.withdrawSeed XS 500)).holds (fun r =>
      r.1.stakeOf bo XS = 0 ∧ r.2 = [.mftSeed XS X "3".toList bo 500]) = true ∧
    (c1.exec (y 1040 al) (.withdrawSeed S 31)).holds (fun _ => true) = false := by decide +kernel

end Contract
end Verif.Farming

import Verif.Farming.Reach

/-
What an event does to a single farm and to a single farmer.
-/

namespace Verif.Farming

/-- What an event at time `now` does to the farm `id`. -/
inductive FarmEffect (c c' : Contract) (e : Event) (id : FarmId) : Prop where
  /-- Nothing. -/
  | same : c'.farms.get? id = c.farms.get? id → c'.outdated.get? id = c.outdated.get? id →
      FarmEffect c c' e id
  /-- Reward is released and a farmer claims `n`. -/
  | claimed {f g : SimpleFarm} {fs : FarmSeed} {added n : Nat} :
      c.farms.get? id = some f → c.seeds.get? f.terms.seedId = some fs →
      f.Distributed e.ctx.now fs.amount g added → n ≤ g.dist.unclaimed →
      c'.farms.get? id = some { g with
        dist := { g.dist with unclaimed := g.dist.unclaimed - n }
        amountOfClaimed := g.amountOfClaimed + n } →
      c'.outdated.get? id = c.outdated.get? id → FarmEffect c c' e id
  /-- Reward is deposited. -/
  | funded {f g : SimpleFarm} {x : Ctx} {a : AccountId} {n : Nat} :
      e = .call x (.ftOnTransfer a n id) → id ≠ [] → f.terms.rewardToken = x.pred →
      c.farms.get? id = some f → f.Funded x.now n g → c'.farms.get? id = some g →
      c'.outdated.get? id = c.outdated.get? id → FarmEffect c c' e id
  /-- The farm is cleared. -/
  | cleared {f f1 : SimpleFarm} {fs : FarmSeed} {added : Nat} :
      c.farms.get? id = some f → c.seeds.get? f.terms.seedId = some fs →
      f.Distributed e.ctx.now fs.amount f1 added → f1.status = .ended →
      c'.farms.get? id = none → c'.outdated.get? id = some { f1 with
        dist := { f1.dist with unclaimed := 0 }
        amountOfClaimed := f1.amountOfClaimed + f1.dist.unclaimed
        amountOfBeneficiary := f1.amountOfBeneficiary + f1.dist.unclaimed
        status := .cleared } → FarmEffect c c' e id
  /-- The farm is created. -/
  | created {t : Terms} :
      c.farms.get? id = none → c.outdated.get? id = none →
      t.startAt < 2 ^ 32 ∧ t.sessionInterval < 2 ^ 32 ∧ t.rewardPerSession < 2 ^ 128 →
      c'.farms.get? id = some (.new id t) →
      c'.outdated.get? id = none → FarmEffect c c' e id

/-- Claims do nothing to a farm or claim from it once. -/
theorem Claims.effect {x : Ctx} {who : AccountId} {c c' : Contract} {ids : List FarmId}
    (h : Claims x who c ids c') (hI : Inv c) (hn : ids.Nodup) {e : Event} (he : e.ctx = x)
    (id : FarmId) : FarmEffect c c' e id := by
  induction h with
  | nil => exact .same rfl rfl
  | @cons c c' i ids u u1 f f1 fs m1 hu hf hs hc hrest ih =>
    simp only [List.nodup_cons] at hn
    have hI' := hI.claimStep hu hf hs hc
    obtain ⟨g, added, n, hcl⟩ := claimFromFarm_ok hc
    by_cases hid : id = i
    · subst hid
      obtain ⟨h1, _⟩ := hrest.other hI' hn.1
      have hd := hcl.dist
      rw [← he] at hd
      refine .claimed hf hs hd hcl.covered (h1.trans ?_) (by rw [hrest.same.outdated])
      show (c.farms.insert id f1).get? id = _
      rw [FMap.get?_insert_self, hcl.farm]
    · have hne : (c.farms.insert i f1).get? id = c.farms.get? id := FMap.get?_insert_ne _ _ hid
      rcases ih hI' hn.2 with ⟨h1, h2⟩ | ⟨h1, h2, h3, h4, h5, h6⟩ | ⟨h1, h2, h3, h4, h5, h6, h7⟩ |
        ⟨h1, h2, h3, h4, h5, h6⟩ | ⟨h1, h2, h3, h4, h5⟩
      · exact .same (h1.trans hne) h2
      · exact .claimed (hne.symm.trans h1) h2 h3 h4 h5 h6
      · exact .funded h1 h2 h3 (hne.symm.trans h4) h5 h6 h7
      · exact .cleared (hne.symm.trans h1) h2 h3 h4 h5 h6
      · exact .created (hne.symm.trans h1) h2 h3 h4 h5

/-- The effect does not depend on the other fields. -/
theorem FarmEffect.congr {c c' d : Contract} {e : Event} {id : FarmId} (h : FarmEffect c d e id)
    (h1 : c'.farms = d.farms) (h2 : c'.outdated = d.outdated) : FarmEffect c c' e id := by
  rcases h with ⟨a1, a2⟩ | ⟨a1, a2, a3, a4, a5, a6⟩ | ⟨a1, a2, a3, a4, a5, a6, a7⟩ |
    ⟨a1, a2, a3, a4, a5, a6⟩ | ⟨a1, a2, a3, a4, a5⟩
  · exact .same (by rw [h1]; exact a1) (by rw [h2]; exact a2)
  · exact .claimed a1 a2 a3 a4 (by rw [h1]; exact a5) (by rw [h2]; exact a6)
  · exact .funded a1 a2 a3 a4 a5 (by rw [h1]; exact a6) (by rw [h2]; exact a7)
  · exact .cleared a1 a2 a3 a4 (by rw [h1]; exact a5) (by rw [h2]; exact a6)
  · exact .created a1 a2 a3 (by rw [h1]; exact a4) (by rw [h2]; exact a5)

theorem Inv.order_nodup {c : Contract} (hI : Inv c) {s : SeedId} {fs : FarmSeed}
    (hs : c.seeds.get? s = some fs) (x : Ctx) : (x.order.f fs.farms).Nodup :=
  (x.order.perm fs.farms).nodup_iff.2 (hI.seeds s fs hs).nodup

theorem seedDeposit_effect {c c' : Contract} {x : Ctx} {who : AccountId} {s : SeedId} {n : Nat}
    {mft : Bool} (hI : Inv c) (h : c.seedDeposit x who s n mft = .ok c') {e : Event}
    (he : e.ctx = x) (id : FarmId) : FarmEffect c c' e id := by
  obtain ⟨fs, c1, u, u', hs, hc, hu, hu', hlt, rfl⟩ := seedDeposit_ok hI h
  exact (hc.effect hI (hI.order_nodup hs x) he id).congr rfl rfl

/-- The effect of an event on a farm. -/
theorem farm_effect {c c' : Contract} {e : Event} {outs : List Out} (hI : Inv c)
    (h : c.apply e = .ok (c', outs)) (id : FarmId) : FarmEffect c c' e id := by
  cases e with
  | callback x o ok =>
    obtain rfl | ⟨_, ⟨t, who, n, u, u1, _, hu, h1, rfl⟩ | ⟨s, who, n, _, h1⟩ |
      ⟨s, _, _, who, n, _, h1⟩⟩ := Contract.callback_inv (Contract.exec_quiet h).1
    · exact .same rfl rfl
    · exact .same rfl rfl
    · exact seedDeposit_effect hI h1 rfl id
    · exact seedDeposit_effect hI h1 rfl id
  | call x k =>
    simp only [Contract.apply] at h
    cases k with
    | createSimpleFarm t m =>
      obtain ⟨_, h1, _, hr, _⟩ := Contract.createSimpleFarm_inv h
      have hI' := hI.addFarm h1
      obtain ⟨fs, hfs, _, hc'⟩ := addFarm_ok h1
      by_cases he : id = genFarmId t.seedId fs.nextIndex
      · have h2 : c'.farms.get? id = some (.new id t) := by
          rw [hc', ← he]; exact FMap.get?_insert_self _ _ _
        have hnot : ¬ c.Issued id := by
          rintro ⟨s, fs', i, g1, g2, g3⟩
          obtain ⟨g4, g5⟩ := genFarmId_inj (he.symm.trans g3)
          rcases hfs with hs | ⟨hs, _⟩
          · rw [← g4, hs] at g1
            cases g1
            omega
          · rw [← g4, hs] at g1
            cases g1
        refine .created ?_ ?_ hr h2 ?_
        · cases hf : c.farms.get? id with
          | none => rfl
          | some f =>
            obtain ⟨fs', g1, _, i, g2, g3⟩ := (hI.farms id f hf).seed
            exact absurd ⟨_, fs', i, g1, g2, g3⟩ hnot
        · cases hf : c.outdated.get? id with
          | none => rfl
          | some f => exact absurd (hI.outdated id f hf).2.1 hnot
        · rw [hc']
          cases hf : c.outdated.get? id with
          | none => rfl
          | some f => exact absurd (hI.outdated id f hf).2.1 hnot
      · exact .same (by rw [hc']; exact FMap.get?_insert_ne _ _ he) (by rw [hc'])
    | forceCleanFarm i =>
      obtain ⟨_, h1⟩ := Contract.forceCleanFarm_inv (Contract.exec_quiet h).1
      obtain rfl | ⟨f, fs, g, hf, hs, hb, hg, rfl⟩ := removeFarm_ok hI h1
      · exact .same rfl rfl
      · by_cases he : id = i
        · subst he
          obtain ⟨f1, added, hd, hend, hgeq⟩ := SimpleFarm.moveToClear_ok hb hg
          exact .cleared hf hs hd hend (FMap.get?_erase_self _ _)
            (by rw [← hgeq]; exact FMap.get?_insert_self _ _ _)
        · exact .same (FMap.get?_erase_ne _ he) (FMap.get?_insert_ne _ _ he)
    | setOwner a =>
      obtain ⟨_, rfl⟩ := Contract.setOwner_inv (Contract.exec_quiet h).1
      exact .same rfl rfl
    | modifyMinDeposit s n =>
      obtain ⟨_, fs, hs, rfl⟩ := Contract.modifyMinDeposit_inv (Contract.exec_quiet h).1
      exact .same rfl rfl
    | setRunning b =>
      obtain ⟨_, _, rfl⟩ := Contract.setRunning_inv (Contract.exec_quiet h).1
      exact .same rfl rfl
    | removeUserRps i =>
      obtain ⟨_, u, s, fs, hu, hp, hs, ⟨_, rfl⟩ | ⟨hnot, m, u1, hm, rfl⟩⟩ :=
        Contract.removeUserRps_inv (Contract.exec_quiet h).1
      · exact .same rfl rfl
      · exact .same rfl rfl
    | claimRewardByFarm i =>
      obtain ⟨_, h1, _⟩ := Contract.claimRewardByFarm_inv (Contract.exec_quiet h).1
      obtain ⟨_, _, rfl | ⟨_, h2⟩⟩ := claimByFarm_ok hI h1
      · exact .same rfl rfl
      · exact h2.effect hI (by simp) rfl id
    | claimRewardBySeed s =>
      obtain ⟨_, h1, _⟩ := Contract.claimRewardBySeed_inv (Contract.exec_quiet h).1
      obtain ⟨_, _, ⟨_, rfl⟩ | ⟨fs, hs, h2⟩⟩ := claimBySeed_ok hI h1
      · exact .same rfl rfl
      · exact h2.effect hI (hI.order_nodup hs x) rfl id
    | withdrawReward t n =>
      obtain ⟨_, _, u, u1, k, hu, h1, rfl, _⟩ := Contract.withdrawReward_inv h
      exact .same rfl rfl
    | withdrawSeed s n =>
      obtain ⟨_, _, mft, h1, _⟩ := Contract.withdrawSeed_inv h
      obtain ⟨fs, c1, u, u1, u', remain, m, hs, hc, hu, hu1, hle, rfl, hm, rfl⟩ :=
        seedWithdraw_ok hI h1
      exact (hc.effect hI (hI.order_nodup hs x) rfl id).congr rfl rfl
    | ftOnTransfer a n msg =>
      obtain ⟨_, ⟨_, _, _, _, h1, _⟩ | ⟨hne, f, f1, hf, ht, h1, rfl⟩⟩ :=
        Contract.ftOnTransfer_inv (Contract.exec_quiet h).1
      · exact seedDeposit_effect hI h1 rfl id
      · by_cases he : id = msg
        · subst he
          exact .funded rfl hne ht hf (SimpleFarm.addReward_ok h1) (FMap.get?_insert_self _ _ _) rfl
        · exact .same (FMap.get?_insert_ne _ _ he) rfl
    | mftOnTransfer t a n msg =>
      obtain ⟨_, p, fs, _, _, _, h1, _⟩ := Contract.mftOnTransfer_inv (Contract.exec_quiet h).1
      exact seedDeposit_effect hI h1 rfl id
    | storageDeposit a b =>
      obtain ⟨_, n, h1, _⟩ := Contract.storageDeposit_inv h
      unfold Contract.register at h1
      split at h1
      · unpack at h1
        obtain ⟨_, rfl⟩ := h1
        exact .same rfl rfl
      · unpack at h1
        obtain ⟨_, rfl⟩ := h1
        exact .same rfl rfl
    | storageWithdraw n =>
      obtain ⟨_, u, k, hu, _, _, rfl, _⟩ := Contract.storageWithdraw_inv h
      exact .same rfl rfl
    | storageUnregister =>
      obtain ⟨_, ⟨_, rfl, _⟩ | ⟨u, hu, _, h1, _, rfl, _⟩⟩ := Contract.storageUnregister_inv h
      · exact .same rfl rfl
      · exact .same rfl rfl

end Verif.Farming

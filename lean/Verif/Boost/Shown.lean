import Verif.Boost.Moves

/-
What calls of one moment do to the rate that a farm shows at that moment.
-/

namespace Verif.Boost

/-- A farm of an updated seed and what a call makes of it: the rate stays, deposits only add, and the
time of the last release stays unless it is put to `now`. -/
structure SeedFarm.Kept (now : Nat) (g f' : SeedFarm) : Prop where
  rps : f'.rps = g.rps
  distributed : f'.distributed = g.distributed
  total : g.total ≤ f'.total
  token : f'.token = g.token
  time : (f'.startAt = g.startAt ∧ f'.distributedAt = g.distributedAt) ∨ now ≤ f'.distributedAt

theorem SeedFarm.Kept.refl (now : Nat) (g : SeedFarm) : g.Kept now g :=
  ⟨rfl, rfl, Nat.le_refl _, rfl, .inl ⟨rfl, rfl⟩⟩

/-- What a call at `now` does to a seed: nothing, or it updates the seed first and keeps its farms. -/
def SeedKept (now : Nat) (s : SeedId) (sd sd' : Seed) : Prop :=
  sd' = sd ∨ ∃ up, sd.Updates now up ∧ ∀ id f', sd'.farms.get? id = some f' →
    (∃ i, sd.nextIndex ≤ i ∧ i < 2 ^ 32 ∧ id = genFarmId s i ∧ f'.rps = 0) ∨
      ∃ g, up.farms.get? id = some g ∧ g.Kept now f'

/-- What a call at `now` does to all seeds. -/
structure Kept (now : Nat) (c c' : Contract) : Prop where
  seed : ∀ s sd, c.seeds.get? s = some sd → ∃ sd', c'.seeds.get? s = some sd' ∧ SeedKept now s sd sd'
  fresh : ∀ s, c.seeds.get? s = none → ∀ sd', c'.seeds.get? s = some sd' → sd'.farms = FMap.empty

theorem Kept.fresh_insert {now : Nat} {c : Contract} {s : SeedId} {sd : Seed}
    (hsd : c.seed now s = .ok sd) {m : FMap SeedId Seed} {sd1 : Seed}
    (hm : ∀ r, c.seeds.get? r = none → m.get? r = none) (r : SeedId) (hr : c.seeds.get? r = none)
    (sd' : Seed) (h : (m.insert s sd1).get? r = some sd') : sd'.farms = FMap.empty := by
  obtain ⟨old, hold, _⟩ := Contract.seed_ok hsd
  rw [FMap.get?_insert_ne _ _ (by rintro rfl; rw [hold] at hr; cases hr), hm r hr] at h
  cases h

theorem Kept.of_eq {now : Nat} {c c' : Contract} (h : c'.seeds = c.seeds) : Kept now c c' :=
  ⟨fun _ sd hs => ⟨sd, by rw [h]; exact hs, .inl rfl⟩,
    fun _ hs sd' hs' => by rw [h, hs] at hs'; cases hs'⟩

theorem Claims.kept {fl : Floats} {u u' : Farmer} {old sd sd1 sd' : Seed} {now : Nat} {s : SeedId}
    (cl : Claims fl u sd u' sd1) (up : old.Updates now sd) (hfs : sd'.farms = sd1.farms) :
    SeedKept now s old sd' := by
  refine .inr ⟨sd, up, fun id f' hf' => .inr ?_⟩
  rw [hfs] at hf'
  cases hg : sd.farms.get? id with
  | none => rw [cl.gone id hg] at hf'; cases hf'
  | some g =>
    obtain ⟨_, hcl⟩ := cl.farm id g hg
    rw [hf'] at hcl
    cases hcl
    exact ⟨g, rfl, rfl, rfl, Nat.le_refl _, rfl, .inl ⟨rfl, rfl⟩⟩

theorem restake_kept {fl : Floats} {c c2 : Contract} {now : Nat} {a : AccountId} {s : SeedId}
    {u u1 u2 : Farmer} {sd sd1 : Seed} {w : FarmerSeed} {amount power : Nat}
    {sl : FMap SeedId Nat} (h : Inv fl c)
    (hsd : c.seed now s = .ok sd) (hc : doClaim fl c.cfg u sd = .ok (u1, sd1))
    (him : Contract.updateImpacted fl { c with slashed := sl } now
      { u1 with seeds := u1.seeds.insert s w } s = .ok (c2, u2)) :
    Kept now c ((c2.setFarmer a u2).setSeed s { sd1 with amount, power }) := by
  obtain ⟨old, hold, up⟩ := Contract.seed_ok hsd
  have cl := doClaim_ok hc
  refine ⟨fun r sr hr => ?_, Kept.fresh_insert hsd fun r hr => ?_⟩
  rotate_left
  · rcases updateImpacted_once (c := { c with slashed := sl }) h.ids him r with ⟨h1, _⟩ |
      ⟨sa, _, _, _, h3, _⟩
    · exact h1.trans hr
    · obtain ⟨o, ho, _⟩ := Contract.seed_ok (c := c) h3
      rw [hr] at ho
      cases ho
  show ∃ sd', (c2.seeds.insert s _).get? r = some sd' ∧ _
  by_cases hrs : r = s
  · subst hrs
    rw [hold] at hr
    cases hr
    exact ⟨_, FMap.get?_insert_self _ _ _, cl.kept up rfl⟩
  · rw [FMap.get?_insert_ne _ _ hrs]
    rcases updateImpacted_once (c := { c with slashed := sl }) h.ids him r with ⟨h1, _⟩ |
      ⟨sa, sb, ua, ub, h3, h4, _, _, h7⟩
    · exact ⟨sr, h1.trans hr, .inl rfl⟩
    · have h3 : c.seed now r = .ok sa := h3
      obtain ⟨o, ho, up'⟩ := Contract.seed_ok h3
      rw [hr] at ho
      cases ho
      exact ⟨sb, h7, h4.kept up' rfl⟩

theorem edit_kept {c c' : Contract} {now : Nat} {s : SeedId} {sd sd' : Seed}
    (hsd : c.seed now s = .ok sd) (hs : c'.seeds = c.seeds.insert s sd')
    (hfs : ∀ id f', sd'.farms.get? id = some f' →
      (∃ i, sd.nextIndex ≤ i ∧ i < 2 ^ 32 ∧ id = genFarmId s i ∧ f'.rps = 0) ∨
      ∃ g, sd.farms.get? id = some g ∧ g.Kept now f') : Kept now c c' := by
  obtain ⟨old, hold, up⟩ := Contract.seed_ok hsd
  refine ⟨fun r sr hr => ?_, by rw [hs]; exact Kept.fresh_insert hsd fun _ h => h⟩
  rw [hs]
  by_cases hrs : r = s
  · subst hrs
    rw [hold] at hr
    cases hr
    refine ⟨sd', FMap.get?_insert_self _ _ _, .inr ⟨sd, up, fun id f' hf' => ?_⟩⟩
    rcases hfs id f' hf' with h1 | h1
    · left
      rw [← up.quiet.next]
      exact h1
    · exact .inr h1
  · exact ⟨sr, by rw [FMap.get?_insert_ne _ _ hrs, hr], .inl rfl⟩

theorem edit_kept_farm {c c' : Contract} {now : Nat} {s : SeedId} {sd : Seed} {id : FarmId}
    {f g : SeedFarm} (hsd : c.seed now s = .ok sd) (hf : sd.farms.get? id = some f)
    (hs : c'.seeds = c.seeds.insert s { sd with farms := sd.farms.insert id g })
    (hk : f.Kept now g) : Kept now c c' := by
  refine edit_kept hsd hs fun i f' hi => .inr ?_
  change (sd.farms.insert id g).get? i = some f' at hi
  rw [FMap.get?_insert] at hi
  split at hi
  · cases hi
    subst_vars
    exact ⟨f, hf, hk⟩
  · exact ⟨f', hi, .refl _ _⟩

theorem edit_kept_terms {c c' : Contract} {now : Nat} {s : SeedId} {sd sd' : Seed}
    (hsd : c.seed now s = .ok sd) (hs : c'.seeds = c.seeds.insert s sd') (h2 : sd'.farms = sd.farms) :
    Kept now c c' :=
  edit_kept hsd hs fun _ f' hi => .inr ⟨f', by rw [← h2]; exact hi, .refl _ _⟩

namespace Contract

theorem stakeFree_kept {fl : Floats} {c c' : Contract} (h : Inv fl c) {now : Nat}
    {a : AccountId} {s : SeedId} {n : Nat} (he : c.stakeFree fl now a s n = .ok c') : Kept now c c' := by
  unfold stakeFree at he
  unpack at he
  obtain ⟨u, hu, sd, hsd, hmin, u1, sd1, hcl, v, hv, w, d, hw, ham, hpw, c2, u2, him, rfl⟩ := he
  exact restake_kept (w := w) (sl := c.slashed) h hsd hcl him

theorem stakeLock_kept {fl : Floats} {c c' : Contract} (h : Inv fl c) {now : Nat}
    {a : AccountId} {s : SeedId} {n d : Nat} (he : c.stakeLock fl now a s n d = .ok c') :
    Kept now c c' := by
  unfold stakeLock at he
  unpack at he
  obtain ⟨u, hu, sd, hsd, hmin, h1, h2, h3, u1, sd1, hcl, v, hv, w, e, hw, ham, hpw, c2, u2, him, rfl⟩ :=
    he
  exact restake_kept (sl := c.slashed) h hsd hcl him

theorem lockFree_kept {fl : Floats} {c c' : Contract} (h : Inv fl c) {x : Ctx}
    {s : SeedId} {d : Nat} {amount : Option Nat} (he : c.lockFree fl x s d amount = .ok c') :
    Kept x.now c c' := by
  unfold lockFree oneYocto assertRunning at he
  unpack at he
  obtain ⟨_, _, u, hu, sd, hsd, h1, h2, h3, u1, sd1, hcl, v, hv, w, e, hw, hpw, c2, u2, him, rfl⟩ := he
  exact restake_kept (sl := c.slashed) (amount := sd1.amount) h hsd hcl him

theorem forceUnlock_kept {fl : Floats} {c c' : Contract} (h : Inv fl c) {x : Ctx}
    {s : SeedId} {n : Nat} (he : c.forceUnlock fl x s n = .ok c') : Kept x.now c c' := by
  unfold forceUnlock oneYocto assertRunning at he
  unpack at he
  obtain ⟨_, _, u, hu, sd, hsd, u1, sd1, hcl, v, hv, w, d, slash, hw, ham, hpw, hsl, c2, u2, him, rfl⟩ :=
    he
  exact restake_kept (sl := c.slashed.insert s (c.slashed.getD s 0 + slash)) h hsd hcl him

theorem claimReward_kept {fl : Floats} {c c' : Contract} (h : Inv fl c) {x : Ctx} {s : SeedId}
    (he : c.claimReward fl x s = .ok c') : Kept x.now c c' := by
  obtain ⟨u, sd, u', sd', hu, hsd, _, hid, cl, rfl, _⟩ := claimReward_ok h he
  obtain ⟨old, hold, up⟩ := Contract.seed_ok hsd
  refine ⟨fun r sr hr => ?_, Kept.fresh_insert hsd fun _ h => h⟩
  show ∃ sd1, (c.seeds.insert s sd').get? r = some sd1 ∧ _
  by_cases hrs : r = s
  · subst hrs
    rw [hold] at hr
    cases hr
    exact ⟨_, FMap.get?_insert_self _ _ _, cl.kept up rfl⟩
  · exact ⟨sr, by rw [FMap.get?_insert_ne _ _ hrs, hr], .inl rfl⟩

theorem depositReward_kept {c c' : Contract} {now : Nat}
    {id : FarmId} {token : AccountId} {n : Nat} (he : c.depositReward now id token n = .ok c') :
    Kept now c c' := by
  unfold depositReward at he
  unpack at he
  obtain ⟨s, hs, sd, hsd, f, hf, g, hg, rfl⟩ := he
  refine edit_kept_farm hsd hf rfl ?_
  unfold SeedFarm.addReward at hg
  unpack at hg
  obtain ⟨ht, _, rfl⟩ := hg
  split
  · exact ⟨rfl, rfl, Nat.le_add_right _ _, rfl, .inr (Nat.le_refl _)⟩
  · exact ⟨rfl, rfl, Nat.le_add_right _ _, rfl, .inl ⟨rfl, rfl⟩⟩

theorem setting_kept {c c' : Contract} {x : Ctx} {k : Setting}
    (he : c.setting x k = .ok c') : Kept x.now c c' := by
  unfold setting oneYocto assertManager assertRunning at he
  unpack at he
  obtain ⟨_, _, _, he⟩ := he
  cases k with
  | dailyReward id n =>
    unpack at he
    obtain ⟨s, hs, sd, hsd, f, hf, rfl⟩ := he
    exact edit_kept_farm (g := { f with daily := n }) hsd hf rfl
      ⟨rfl, rfl, Nat.le_refl _, rfl, .inl ⟨rfl, rfl⟩⟩
  | lockingPolicy d r =>
    unpack at he
    obtain ⟨_, rfl⟩ := he
    exact .of_eq rfl
  | maxFarmsPerSeed n =>
    cases he
    exact .of_eq rfl
  | defaultSlashRate n =>
    unpack at he
    obtain ⟨_, rfl⟩ := he
    exact .of_eq rfl
  | minDeposit s n =>
    unpack at he
    obtain ⟨sd, hsd, rfl⟩ := he
    exact edit_kept_terms hsd rfl rfl
  | minLocking s n =>
    unpack at he
    obtain ⟨_, sd, hsd, rfl⟩ := he
    exact edit_kept_terms hsd rfl rfl
  | slashRate s n =>
    unpack at he
    obtain ⟨sd, hsd, rfl⟩ := he
    exact edit_kept_terms hsd rfl rfl
  | booster s b =>
    unpack at he
    obtain ⟨sd, hsd, hself, _, n, _, _, rfl⟩ := he
    exact .of_eq rfl

/-- What every call does to the rates. -/
theorem exec_kept {fl : Floats} {c c' : Contract} (h : Inv fl c) {x : Ctx} {k : Call}
    {o : List Out} (he : c.exec fl x k = .ok (c', o)) : Kept x.now c c' := by
  cases k with
  | ftOnTransfer a n m =>
    simp only [exec] at he
    unpack at he
    obtain ⟨_, c1, he, rfl, _⟩ := he
    unfold ftOnTransfer assertRunning at he
    unpack at he
    obtain ⟨_, he⟩ := he
    cases m with
    | free => exact stakeFree_kept h he
    | lock d => exact stakeLock_kept h he
    | reward id => exact depositReward_kept he
    | bad => cases he
  | mftOnTransfer tid a n m =>
    simp only [exec] at he
    unpack at he
    obtain ⟨_, c1, he, rfl, _⟩ := he
    unfold mftOnTransfer assertRunning at he
    unpack at he
    obtain ⟨_, he⟩ := he
    split at he
    · cases m with
      | free => exact stakeFree_kept h he
      | lock d => exact stakeLock_kept h he
      | reward id => cases he
      | bad => cases he
    · cases he
  | lockFreeSeed s d n =>
    simp only [exec] at he
    unpack at he
    obtain ⟨c1, he, rfl, _⟩ := he
    exact lockFree_kept h he
  | forceUnlock s n =>
    simp only [exec] at he
    unpack at he
    obtain ⟨c1, he, rfl, _⟩ := he
    exact forceUnlock_kept h he
  | claimReward s =>
    simp only [exec] at he
    unpack at he
    obtain ⟨c1, he, rfl, _⟩ := he
    exact claimReward_kept h he
  | createSeed s d m l =>
    simp only [exec] at he
    unpack at he
    obtain ⟨c1, he, rfl, _⟩ := he
    unfold createSeed oneYocto assertManager assertRunning at he
    unpack at he
    obtain ⟨_, _, _, hno, rfl⟩ := he
    have hno : c.seeds.get? s = none := Option.isNone_iff_eq_none.1 hno
    refine ⟨fun r sr hr => ⟨sr, ?_, .inl rfl⟩, fun r hr sd' hs' => ?_⟩
    · show (c.seeds.insert s _).get? r = some sr
      rw [FMap.get?_insert_ne _ _ (by rintro rfl; rw [hno] at hr; cases hr), hr]
    · change (c.seeds.insert s _).get? r = some sd' at hs'
      rw [FMap.get?_insert] at hs'
      split at hs'
      · cases hs'; rfl
      · rw [hr] at hs'; cases hs'
  | createFarm s t a d =>
    simp only [exec] at he
    unpack at he
    obtain ⟨c1, he, rfl, _⟩ := he
    unfold createFarm oneYocto assertManager assertRunning at he
    unpack at he
    obtain ⟨_, _, _, sd, hsd, _, hnext, hcount, _, _, rfl⟩ := he
    refine edit_kept hsd rfl fun id f' hf => ?_
    change (sd.farms.insert _ _).get? id = some f' at hf
    rw [FMap.get?_insert] at hf
    split at hf
    · cases hf
      exact .inl ⟨sd.nextIndex, Nat.le_refl _, by omega, by assumption, rfl⟩
    · exact .inr ⟨f', hf, .refl _ _⟩
  | cancelFarm id =>
    simp only [exec] at he
    unpack at he
    obtain ⟨c1, he, rfl, _⟩ := he
    unfold cancelFarm oneYocto assertManager assertRunning at he
    unpack at he
    obtain ⟨_, _, _, s, hs, sd, hsd, f, hf, htot, _, rfl⟩ := he
    exact edit_kept hsd rfl fun _ f' hi => .inr ⟨f', (Edit.erase_farm hi).2, .refl _ _⟩
  | removeFarm id =>
    simp only [exec] at he
    unpack at he
    obtain ⟨c1, he, rfl, _⟩ := he
    unfold removeFarm oneYocto assertOwner assertRunning SeedFarm.finalize at he
    unpack at he
    obtain ⟨_, _, _, s, hs, sd, hsd, f, hf, hst, hle, hcnt, rfl⟩ := he
    exact edit_kept hsd rfl fun _ f' hi => .inr ⟨f', (Edit.erase_farm hi).2, .refl _ _⟩
  | setting k =>
    simp only [exec] at he
    unpack at he
    obtain ⟨c1, he, rfl, _⟩ := he
    exact setting_kept he
  | setOwner a =>
    simp only [exec, setOwner, oneYocto, assertOwner] at he
    unpack at he
    obtain ⟨_, _, rfl, _⟩ := he
    exact .of_eq rfl
  | setRunning b =>
    simp only [exec, setRunning, oneYocto, assertOwner] at he
    unpack at he
    obtain ⟨_, _, rfl, _⟩ := he
    exact .of_eq rfl
  | extendOperators l =>
    simp only [exec, extendOperators, oneYocto, assertOwner] at he
    unpack at he
    obtain ⟨_, _, rfl, _⟩ := he
    exact .of_eq rfl
  | removeOperators l =>
    simp only [exec] at he
    unpack at he
    obtain ⟨c1, he, rfl, _⟩ := he
    unfold removeOperators oneYocto assertOwner at he
    unpack at he
    obtain ⟨_, _, _, _, rfl⟩ := he
    exact .of_eq rfl
  | storageDeposit a =>
    replace he : c.storageDeposit x a = .ok (c', o) := he
    unfold storageDeposit assertRunning at he
    unpack at he
    obtain ⟨_, he⟩ := he
    split at he
    · unpack at he
      obtain ⟨rfl, _⟩ := he
      exact .of_eq rfl
    · unpack at he
      obtain ⟨_, _, rfl, _⟩ := he
      exact .of_eq rfl
  | storageUnregister =>
    replace he : c.storageUnregister x = .ok (c', o) := he
    unfold storageUnregister oneYocto assertRunning at he
    unpack at he
    obtain ⟨_, _, he⟩ := he
    split at he
    · unpack at he
      obtain ⟨rfl, _⟩ := he
      exact .of_eq rfl
    · unpack at he
      obtain ⟨hr, hs, _, rfl, _⟩ := he
      exact .of_eq rfl

end Contract

/-- A farm that has been updated at `now` shows the same rate when it is updated again, whatever the
power of the seed is then. -/
theorem SeedFarm.update_again {now p p' : Nat} {f g f' : SeedFarm} (h : f.update now p = .ok g)
    (hk : g.Kept now f') (ht : 0 < f.total) :
    ∃ g', f'.update now p' = .ok g' ∧ g'.rps = g.rps ∧ g'.token = g.token := by
  have hu := SeedFarm.update_ok h
  have noop : now ≤ f'.distributedAt → ∃ g', f'.update now p' = .ok g' ∧ g'.rps = g.rps ∧
      g'.token = g.token := by
    intro hle
    exact ⟨f', by unfold update; rw [if_pos hle], hk.rps, hk.token⟩
  rcases hk.time with ⟨h1, h2⟩ | h1
  · unfold update at h
    split at h
    · cases h
      exact noop (by omega)
    · rename_i hlt
      split at h
      · cases h
        exact noop (by rw [h2])
      · unpack at h
        obtain ⟨r, hr, _, h⟩ := h
        split at h <;>
        · unpack at h
          obtain ⟨_, rfl⟩ := h
          exact noop (by rw [h2])
      · rename_i hne hnr
        cases h
        have hcr : f.status now = .created := by
          unfold status at hne hnr ⊢
          split
          · rfl
          · rename_i h3
            rw [if_neg h3] at hne hnr
            rw [if_neg (by omega)] at hne hnr
            split at hne
            · exact absurd rfl hne
            · rename_i h4; rw [if_neg h4] at hnr; exact absurd rfl hnr
        have hs : f'.status now = .created := by
          unfold status at hcr ⊢
          rw [h1]
          split
          · rfl
          · rename_i h3
            rw [if_neg h3, if_neg (by omega)] at hcr
            split at hcr <;> cases hcr
        refine ⟨f', ?_, hk.rps, hk.token⟩
        unfold update
        rw [if_neg (by rw [h2]; exact hlt), hs]
  · exact noop h1

end Verif.Boost

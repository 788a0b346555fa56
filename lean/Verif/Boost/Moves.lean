import Verif.Boost.Steps

/-
What every call does to the farms of a seed and to what the farmers have earned in them.
-/

namespace Verif.Boost

/-- What a call by `act` does to a farm of a seed of power `power` and to the stakes in the seed: the
farm may release something, and a stake is left alone or paid what it has earned. -/
structure FarmMoves (fl : Floats) (act : Option AccountId) (power : Nat)
    (before after : AccountId → FarmerSeed) (id : FarmId) (f f' : SeedFarm) : Prop where
  released : ∃ r, f'.distributed = f.distributed + r ∧
    f'.rps = f.rps + (if power > 0 then r * D27 / power else 0) ∧
    f'.beneficiary = f.beneficiary + (if power > 0 then 0 else r)
  each : ∀ a, (after a = before a ∧ (act = some a → f'.claimed = f.claimed)) ∨
    (act = some a ∧ f'.claimed = f.claimed + (before a).earned ((before a).pow fl) id f' ∧
      (before a).userRps.getD id 0 ≤ f'.rps ∧ (after a).userRps.getD id 0 = f'.rps)
  quiet : act = none → f'.claimed = f.claimed

/-- What a call does to a seed and its farms. -/
structure SeedMoves (fl : Floats) (act : Option AccountId) (before after : AccountId → FarmerSeed)
    (s : SeedId) (sd sd' : Seed) : Prop where
  next : sd.nextIndex ≤ sd'.nextIndex
  farms : ∀ id f', sd'.farms.get? id = some f' → (∃ i, sd.nextIndex ≤ i ∧ id = genFarmId s i) ∨
    ∃ f, sd.farms.get? id = some f ∧ FarmMoves fl act sd.power before after id f f'

/-- What a call by `act` does to all seeds. -/
def Moves (fl : Floats) (act : Option AccountId) (c c' : Contract) : Prop :=
  ∀ s sd, c.seeds.get? s = some sd → ∃ sd', c'.seeds.get? s = some sd' ∧
    SeedMoves fl act (c.stakeOf · s) (c'.stakeOf · s) s sd sd'

theorem FarmMoves.refl {fl : Floats} {act : Option AccountId} {power : Nat}
    {before after : AccountId → FarmerSeed} {id : FarmId} {f : SeedFarm}
    (h : ∀ a, after a = before a) : FarmMoves fl act power before after id f f :=
  ⟨⟨0, rfl, by split <;> simp, by split <;> simp⟩, fun a => .inl ⟨h a, fun _ => rfl⟩, fun _ => rfl⟩

theorem SeedMoves.refl {fl : Floats} {act : Option AccountId} {before after : AccountId → FarmerSeed}
    {s : SeedId} {sd : Seed} (h : ∀ a, after a = before a) : SeedMoves fl act before after s sd sd :=
  ⟨Nat.le_refl _, fun _ f' hf => .inr ⟨f', hf, .refl h⟩⟩

/-- Calls that leave seeds and stakes alone. -/
theorem Moves.refl {fl : Floats} {act : Option AccountId} {c c' : Contract} (hs : c'.seeds = c.seeds)
    (h : ∀ a s, c'.stakeOf a s = c.stakeOf a s) : Moves fl act c c' :=
  fun s sd hsd => ⟨sd, by rw [hs]; exact hsd, .refl fun a => h a s⟩

theorem Moves.of_eq {fl : Floats} {act : Option AccountId} {c c' : Contract} (hs : c'.seeds = c.seeds)
    (h : c'.farmers = c.farmers) : Moves fl act c c' :=
  .refl hs fun a s => by unfold Contract.stakeOf; rw [h]

/-- A seed that is updated and of which farmer `a` claims. -/
theorem Claims.moves {fl : Floats} {u u' : Farmer} {old sd sd1 sd' : Seed} {now : Nat} {a : AccountId}
    {s : SeedId} {before after : AccountId → FarmerSeed} (cl : Claims fl u sd u' sd1)
    (up : old.Updates now sd) (hid : sd.id = s)
    (hz : ∀ id f, sd.farms.get? id = some f → f.total = 0 → f.rps = 0)
    (hb : before a = u.stakeIn s) (ha : (after a).userRps = (u'.stakeIn s).userRps)
    (ho : ∀ b, b ≠ a → after b = before b) (hn : sd'.nextIndex = sd1.nextIndex)
    (hfs : sd'.farms = sd1.farms) : SeedMoves fl (some a) before after s old sd' := by
  subst hid
  refine ⟨by rw [hn, cl.quiet.next, up.quiet.next], fun id f' hf' => .inr ?_⟩
  rw [hfs] at hf'
  cases hg : sd.farms.get? id with
  | none => rw [cl.gone id hg] at hf'; cases hf'
  | some g =>
    obtain ⟨hle, hcl⟩ := cl.farm id g hg
    rw [hf'] at hcl
    cases hcl
    obtain ⟨f, hf, hupd⟩ := up.inv id g hg
    have hupd := SeedFarm.update_ok hupd
    obtain ⟨r, h1, _, _, h4, h5⟩ := hupd.released
    obtain ⟨w, hw, _, _, hsync, _⟩ := cl.stake
    refine ⟨f, hf, ⟨r, h1, h4, h5⟩, fun b => ?_, fun h => by cases h⟩
    by_cases hba : b = a
    · subst hba
      refine .inr ⟨rfl, ?_, ?_, ?_⟩
      · rw [hb]
        show g.claimed + _ = f.claimed + _
        rw [hupd.claimed]
        rfl
      · rw [hb]; exact hle
      · rw [ha, Farmer.stakeIn_some hw]
        unfold FMap.getD
        rw [hsync id g hg]
        by_cases ht : g.total > 0
        · rw [if_pos ht]; rfl
        · rw [if_neg ht]
          exact (hz id g hg (by omega)).symm
    · exact .inl ⟨ho b hba, fun h => absurd (Option.some.inj h).symm hba⟩

/-- The claims for the boosted seeds are at most one for each seed. -/
theorem impactedLoop_once {fl : Floats} {now : Nat} : ∀ {l : List (SeedId × Nat)}
    {c c' : Contract} {u u' : Farmer}, (l.map Prod.fst).Nodup →
    (∀ r sd, c.seeds.get? r = some sd → sd.id = r) →
    Contract.impactedLoop fl now l c u = .ok (c', u') → ∀ r,
    (c'.seeds.get? r = c.seeds.get? r ∧ u'.stakeIn r = u.stakeIn r) ∨
    (r ∈ l.map Prod.fst ∧ ∃ sd sd1 ua ub, c.seed now r = .ok sd ∧ Claims fl ua sd ub sd1 ∧
      ua.stakeIn r = u.stakeIn r ∧ ub.stakeIn r = u'.stakeIn r ∧ c'.seeds.get? r = some sd1) := by
  intro l
  induction l with
  | nil =>
    intro c c' u u' _ _ h r
    cases h
    exact .inl ⟨rfl, rfl⟩
  | cons p l ih =>
    intro c c' u u' hn hids h r
    obtain ⟨q, b⟩ := p
    simp only [List.map_cons, List.nodup_cons] at hn
    unfold Contract.impactedLoop at h
    split at h
    · unpack at h
      obtain ⟨sd, hsd, u1, sd1, hcl, h⟩ := h
      obtain ⟨old, hold, up⟩ := Contract.seed_ok hsd
      have cl := doClaim_ok hcl
      have hid : sd.id = q := by rw [up.quiet.id]; exact hids q old hold
      have hid1 : sd1.id = q := by rw [cl.quiet.id, hid]
      have hrest := ih hn.2 (by
        intro q' sq hq
        change (c.seeds.insert q sd1).get? q' = some sq at hq
        rw [FMap.get?_insert] at hq
        split at hq
        · cases hq; subst_vars; exact hid1
        · exact hids q' sq hq) h r
      by_cases hrq : r = q
      · subst hrq
        rcases hrest with ⟨h1, h2⟩ | ⟨h1, _⟩
        · refine .inr ⟨by simp, sd, sd1, u, u1, hsd, cl, rfl, h2.symm, h1.trans ?_⟩
          exact FMap.get?_insert_self _ _ _
        · exact absurd h1 hn.1
      · have hs : (c.setSeed q sd1).seeds.get? r = c.seeds.get? r := FMap.get?_insert_ne _ _ hrq
        have hu : u1.stakeIn r = u.stakeIn r := by
          unfold Farmer.stakeIn
          rw [cl.others r (by rw [hid]; exact hrq)]
        rcases hrest with ⟨h1, h2⟩ | ⟨h1, sa, sb, ua, ub, h3, h4, h5, h6, h7⟩
        · exact .inl ⟨h1.trans hs, h2.trans hu⟩
        · refine .inr ⟨by simp only [List.map_cons, List.mem_cons]; exact .inr h1, sa, sb, ua, ub, ?_, h4,
            h5.trans hu, h6, h7⟩
          unfold Contract.seed at h3 ⊢
          rw [hs] at h3
          exact h3
    · rcases ih hn.2 hids h r with h1 | ⟨h1, h2⟩
      · exact .inl h1
      · exact .inr ⟨by simp only [List.map_cons, List.mem_cons]; exact .inr h1, h2⟩

theorem updateImpacted_once {fl : Floats} {now : Nat} {s : SeedId} {c c' : Contract} {u u' : Farmer}
    (hids : ∀ r sd, c.seeds.get? r = some sd → sd.id = r)
    (h : c.updateImpacted fl now u s = .ok (c', u')) (r : SeedId) :
    (c'.seeds.get? r = c.seeds.get? r ∧ u'.stakeIn r = u.stakeIn r) ∨
    ∃ sd sd1 ua ub, c.seed now r = .ok sd ∧ Claims fl ua sd ub sd1 ∧
      ua.stakeIn r = u.stakeIn r ∧ ub.stakeIn r = u'.stakeIn r ∧ c'.seeds.get? r = some sd1 := by
  unfold Contract.updateImpacted at h
  split at h
  · rename_i b hk
    rcases impactedLoop_once b.affected.nodup hids h r with h1 | ⟨_, h2⟩
    · exact .inl h1
    · exact .inr h2
  · cases h
    exact .inl ⟨rfl, rfl⟩

theorem Inv.loaded_zero {fl : Floats} {c : Contract} (h : Inv fl c) {now : Nat} {s : SeedId} {sd : Seed}
    (hsd : c.seed now s = .ok sd) (id : FarmId) (f : SeedFarm) (hf : sd.farms.get? id = some f) :
    f.total = 0 → f.rps = 0 :=
  ((h.load hsd).books s sd id f (FMap.get?_insert_self _ _ _) hf).zero

/-- A call that changes the stake of a farmer. -/
theorem restake_moves {fl : Floats} {c c2 : Contract} {now : Nat} {a : AccountId} {s : SeedId}
    {u u1 u2 : Farmer} {sd sd1 : Seed} {v w : FarmerSeed} {amount power : Nat}
    {sl : FMap SeedId Nat} (h : Inv fl c)
    (hu : c.farmer a = .ok u) (hsd : c.seed now s = .ok sd) (hc : doClaim fl c.cfg u sd = .ok (u1, sd1))
    (hv : u1.seeds.get? s = some v) (hrps : w.userRps = v.userRps)
    (him : Contract.updateImpacted fl { c with slashed := sl } now
      { u1 with seeds := u1.seeds.insert s w } s = .ok (c2, u2)) :
    Moves fl (some a) c ((c2.setFarmer a u2).setSeed s { sd1 with amount, power }) := by
  have hu := expectE_ok.1 hu
  obtain ⟨old, hold, up⟩ := Contract.seed_ok hsd
  have cl := doClaim_ok hc
  have hid : sd.id = s := by rw [up.quiet.id]; exact h.ids s old hold
  have im := updateImpacted_ok (c := { c with slashed := sl }) h.boost h.ids him
  have hfm : c2.farmers = c.farmers := by rw [im.eq]
  have hbef : ∀ r, c.stakeOf a r = u.stakeIn r := fun r => by unfold Contract.stakeOf; rw [hu]
  have hown : ∀ r, ((c2.setFarmer a u2).setSeed s { sd1 with amount, power }).stakeOf a r =
      u2.stakeIn r := by
    intro r
    unfold Contract.stakeOf
    show (match (c2.farmers.insert a u2).get? a with | some u => u.stakeIn r | none => FarmerSeed.zero) = _
    rw [FMap.get?_insert_self]
  have hoth : ∀ r b, b ≠ a → ((c2.setFarmer a u2).setSeed s { sd1 with amount, power }).stakeOf b r =
      c.stakeOf b r := by
    intro r b hb
    unfold Contract.stakeOf
    show (match (c2.farmers.insert a u2).get? b with | some u => u.stakeIn r | none => FarmerSeed.zero) = _
    rw [FMap.get?_insert_ne _ _ hb, hfm]
    rfl
  intro r sr hr
  show ∃ sd', (c2.seeds.insert s _).get? r = some sd' ∧ _
  by_cases hrs : r = s
  · subst hrs
    rw [hold] at hr
    cases hr
    refine ⟨_, FMap.get?_insert_self _ _ _, cl.moves up hid (h.loaded_zero hsd) (hbef r) ?_ (hoth r) rfl rfl⟩
    rw [hown, Farmer.stakeIn_some (im.stake.trans (FMap.get?_insert_self _ _ _)), hrps,
      Farmer.stakeIn_some hv]
  · rw [FMap.get?_insert_ne _ _ hrs]
    have hu1 : ({ u1 with seeds := u1.seeds.insert s w } : Farmer).stakeIn r = u.stakeIn r := by
      unfold Farmer.stakeIn
      rw [FMap.get?_insert_ne _ _ hrs, cl.others r (by rw [hid]; exact hrs)]
    rcases updateImpacted_once (c := { c with slashed := sl }) h.ids him r with ⟨h1, h2⟩ |
      ⟨sa, sb, ua, ub, h3, h4, h5, h6, h7⟩
    · refine ⟨sr, h1.trans hr, .refl fun b => ?_⟩
      by_cases hb : b = a
      · subst hb
        rw [hown, hbef, h2, hu1]
      · exact hoth r b hb
    · have h3 : c.seed now r = .ok sa := h3
      obtain ⟨o, ho, up'⟩ := Contract.seed_ok h3
      rw [hr] at ho
      cases ho
      refine ⟨sb, h7, h4.moves up' ?_ (h.loaded_zero h3) ?_ ?_ (hoth r) rfl rfl⟩
      · rw [up'.quiet.id]; exact h.ids r sr hr
      · rw [hbef, h5, hu1]
      · rw [hown, h6]

/-- A call that edits one seed after its update. -/
theorem edit_moves {fl : Floats} {c c' : Contract} {now : Nat} {s : SeedId} {sd sd' : Seed}
    (hsd : c.seed now s = .ok sd) (hs : c'.seeds = c.seeds.insert s sd')
    (hfm : c'.farmers = c.farmers) (hn : sd.nextIndex ≤ sd'.nextIndex)
    (hfs : ∀ id f', sd'.farms.get? id = some f' → (∃ i, sd.nextIndex ≤ i ∧ id = genFarmId s i) ∨
      ∃ f, sd.farms.get? id = some f ∧ f'.distributed = f.distributed ∧ f'.rps = f.rps ∧
        f'.claimed = f.claimed ∧ f'.beneficiary = f.beneficiary) : Moves fl none c c' := by
  obtain ⟨old, hold, up⟩ := Contract.seed_ok hsd
  have hst : ∀ a r, c'.stakeOf a r = c.stakeOf a r := fun a r => by unfold Contract.stakeOf; rw [hfm]
  intro r sr hr
  rw [hs]
  by_cases hrs : r = s
  · subst hrs
    rw [hold] at hr
    cases hr
    refine ⟨sd', FMap.get?_insert_self _ _ _, by rw [← up.quiet.next]; exact hn, fun id f' hf' => ?_⟩
    rcases hfs id f' hf' with h1 | ⟨g, hg, h1, h2, h3, h4⟩
    · left
      rw [← up.quiet.next]
      exact h1
    · right
      obtain ⟨f, hf, hupd⟩ := up.inv id g hg
      have hupd := SeedFarm.update_ok hupd
      obtain ⟨q, e1, _, _, e4, e5⟩ := hupd.released
      exact ⟨f, hf, ⟨q, h1.trans e1, h2.trans e4, h4.trans e5⟩, fun a => .inl ⟨hst a r, fun h => by cases h⟩,
        fun _ => h3.trans hupd.claimed⟩
  · exact ⟨sr, by rw [FMap.get?_insert_ne _ _ hrs, hr], .refl fun a => hst a r⟩

/-- An edit that replaces one farm. -/
theorem edit_farm {fl : Floats} {c c' : Contract} {now : Nat} {s : SeedId} {sd : Seed} {id : FarmId}
    {f g : SeedFarm} (hsd : c.seed now s = .ok sd) (hf : sd.farms.get? id = some f)
    (hs : c'.seeds = c.seeds.insert s { sd with farms := sd.farms.insert id g })
    (hfm : c'.farmers = c.farmers) (h1 : g.distributed = f.distributed) (h2 : g.rps = f.rps)
    (h3 : g.claimed = f.claimed) (h4 : g.beneficiary = f.beneficiary) : Moves fl none c c' := by
  refine edit_moves hsd hs hfm (Nat.le_refl _) fun i f' hi => .inr ?_
  change (sd.farms.insert id g).get? i = some f' at hi
  rw [FMap.get?_insert] at hi
  split at hi
  · cases hi
    subst_vars
    exact ⟨f, hf, h1, h2, h3, h4⟩
  · exact ⟨f', hi, rfl, rfl, rfl, rfl⟩

/-- An edit that removes one farm. -/
theorem edit_erase {fl : Floats} {c c' : Contract} {now : Nat} {s : SeedId} {sd : Seed} {id : FarmId}
    (hsd : c.seed now s = .ok sd)
    (hs : c'.seeds = c.seeds.insert s { sd with farms := sd.farms.erase id })
    (hfm : c'.farmers = c.farmers) : Moves fl none c c' :=
  edit_moves hsd hs hfm (Nat.le_refl _) fun _ f' hi =>
    .inr ⟨f', (Edit.erase_farm hi).2, rfl, rfl, rfl, rfl⟩

/-- An edit that leaves the farms alone. -/
theorem edit_terms {fl : Floats} {c c' : Contract} {now : Nat} {s : SeedId} {sd sd' : Seed}
    (hsd : c.seed now s = .ok sd) (hs : c'.seeds = c.seeds.insert s sd')
    (hfm : c'.farmers = c.farmers) (h1 : sd'.nextIndex = sd.nextIndex) (h2 : sd'.farms = sd.farms) :
    Moves fl none c c' :=
  edit_moves hsd hs hfm (by omega) fun _ f' hi => .inr ⟨f', by rw [← h2]; exact hi, rfl, rfl, rfl, rfl⟩

namespace Contract

theorem stakeFree_moves {fl : Floats} {c c' : Contract} (h : Inv fl c) {now : Nat}
    {a : AccountId} {s : SeedId} {n : Nat} (he : c.stakeFree fl now a s n = .ok c') :
    Moves fl (some a) c c' := by
  unfold stakeFree at he
  unpack at he
  obtain ⟨u, hu, sd, hsd, hmin, u1, sd1, hcl, v, hv, w, d, hw, ham, hpw, c2, u2, him, rfl⟩ := he
  obtain ⟨rfl, hp⟩ := FarmerSeed.addFree_ok hw
  exact restake_moves (w := { v with free := v.free + n }) (sl := c.slashed) h hu hsd hcl hv rfl him

theorem stakeLock_moves {fl : Floats} {c c' : Contract} (h : Inv fl c) {now : Nat}
    {a : AccountId} {s : SeedId} {n d : Nat} (he : c.stakeLock fl now a s n d = .ok c') :
    Moves fl (some a) c c' := by
  unfold stakeLock at he
  unpack at he
  obtain ⟨u, hu, sd, hsd, hmin, h1, h2, h3, u1, sd1, hcl, v, hv, w, e, hw, ham, hpw, c2, u2, him, rfl⟩ :=
    he
  obtain ⟨hl, hp⟩ := FarmerSeed.addLock_ok hw
  exact restake_moves (sl := c.slashed) h hu hsd hcl hv hl.rps him

theorem lockFree_moves {fl : Floats} {c c' : Contract} (h : Inv fl c) {x : Ctx}
    {s : SeedId} {d : Nat} {amount : Option Nat} (he : c.lockFree fl x s d amount = .ok c') :
    Moves fl (some x.pred) c c' := by
  unfold lockFree oneYocto assertRunning at he
  unpack at he
  obtain ⟨_, _, u, hu, sd, hsd, h1, h2, h3, u1, sd1, hcl, v, hv, w, e, hw, hpw, c2, u2, him, rfl⟩ := he
  obtain ⟨hn, _, hl, hp⟩ := FarmerSeed.freeToLock_ok hw
  exact restake_moves (sl := c.slashed) (amount := sd1.amount) h hu hsd hcl hv hl.rps him

theorem forceUnlock_moves {fl : Floats} {c c' : Contract} (h : Inv fl c) {x : Ctx}
    {s : SeedId} {n : Nat} (he : c.forceUnlock fl x s n = .ok c') : Moves fl (some x.pred) c c' := by
  unfold forceUnlock oneYocto assertRunning at he
  unpack at he
  obtain ⟨_, _, u, hu, sd, hsd, u1, sd1, hcl, v, hv, w, d, slash, hw, ham, hpw, hsl, c2, u2, him, rfl⟩ :=
    he
  obtain ⟨hl, hp⟩ := FarmerSeed.unlockSlashed_ok hw
  exact restake_moves (sl := c.slashed.insert s (c.slashed.getD s 0 + slash)) h hu hsd hcl hv hl.rps him

theorem claimReward_moves {fl : Floats} {c c' : Contract} (h : Inv fl c) {x : Ctx} {s : SeedId}
    (he : c.claimReward fl x s = .ok c') : Moves fl (some x.pred) c c' := by
  obtain ⟨u, sd, u', sd', hu, hsd, _, hid, cl, rfl, _⟩ := claimReward_ok h he
  obtain ⟨old, hold, up⟩ := Contract.seed_ok hsd
  have hbef : ∀ r, c.stakeOf x.pred r = u.stakeIn r := fun r => by unfold Contract.stakeOf; rw [hu]
  have hown : ∀ r, ((c.setFarmer x.pred u').setSeed s sd').stakeOf x.pred r = u'.stakeIn r := by
    intro r
    unfold Contract.stakeOf
    show (match (c.farmers.insert x.pred u').get? x.pred with
      | some u => u.stakeIn r | none => FarmerSeed.zero) = _
    rw [FMap.get?_insert_self]
  have hoth : ∀ r b, b ≠ x.pred → ((c.setFarmer x.pred u').setSeed s sd').stakeOf b r = c.stakeOf b r := by
    intro r b hb
    unfold Contract.stakeOf
    show (match (c.farmers.insert x.pred u').get? b with
      | some u => u.stakeIn r | none => FarmerSeed.zero) = _
    rw [FMap.get?_insert_ne _ _ hb]
    rfl
  intro r sr hr
  show ∃ sd1, (c.seeds.insert s sd').get? r = some sd1 ∧ _
  by_cases hrs : r = s
  · subst hrs
    rw [hold] at hr
    cases hr
    exact ⟨_, FMap.get?_insert_self _ _ _, cl.moves up hid (h.loaded_zero hsd) (hbef r)
      (by rw [hown]) (hoth r) rfl rfl⟩
  · refine ⟨sr, by rw [FMap.get?_insert_ne _ _ hrs, hr], .refl fun b => ?_⟩
    by_cases hb : b = x.pred
    · subst hb
      rw [hown, hbef]
      unfold Farmer.stakeIn
      rw [cl.others r (by rw [hid]; exact hrs)]
    · exact hoth r b hb

theorem depositReward_moves {fl : Floats} {c c' : Contract} {now : Nat}
    {id : FarmId} {token : AccountId} {n : Nat} (he : c.depositReward now id token n = .ok c') :
    Moves fl none c c' := by
  unfold depositReward at he
  unpack at he
  obtain ⟨s, hs, sd, hsd, f, hf, g, hg, rfl⟩ := he
  have key : g.distributed = f.distributed ∧ g.rps = f.rps ∧ g.claimed = f.claimed ∧
      g.beneficiary = f.beneficiary := by
    unfold SeedFarm.addReward at hg
    unpack at hg
    obtain ⟨ht, _, rfl⟩ := hg
    split <;> exact ⟨rfl, rfl, rfl, rfl⟩
  exact edit_farm hsd hf rfl rfl key.1 key.2.1 key.2.2.1 key.2.2.2

theorem setting_moves {fl : Floats} {c c' : Contract} {x : Ctx} {k : Setting}
    (he : c.setting x k = .ok c') : Moves fl none c c' := by
  unfold setting oneYocto assertManager assertRunning at he
  unpack at he
  obtain ⟨_, _, _, he⟩ := he
  cases k with
  | dailyReward id n =>
    unpack at he
    obtain ⟨s, hs, sd, hsd, f, hf, rfl⟩ := he
    exact edit_farm (g := { f with daily := n }) hsd hf rfl rfl rfl rfl rfl rfl
  | lockingPolicy d r =>
    unpack at he
    obtain ⟨_, rfl⟩ := he
    exact .of_eq rfl rfl
  | maxFarmsPerSeed n =>
    cases he
    exact .of_eq rfl rfl
  | defaultSlashRate n =>
    unpack at he
    obtain ⟨_, rfl⟩ := he
    exact .of_eq rfl rfl
  | minDeposit s n =>
    unpack at he
    obtain ⟨sd, hsd, rfl⟩ := he
    exact edit_terms hsd rfl rfl rfl rfl
  | minLocking s n =>
    unpack at he
    obtain ⟨_, sd, hsd, rfl⟩ := he
    exact edit_terms hsd rfl rfl rfl rfl
  | slashRate s n =>
    unpack at he
    obtain ⟨sd, hsd, rfl⟩ := he
    exact edit_terms hsd rfl rfl rfl rfl
  | booster s b =>
    unpack at he
    obtain ⟨sd, hsd, hself, _, n, _, _, rfl⟩ := he
    exact .of_eq rfl rfl

/-- What every call does to the seeds. -/
theorem exec_moves {fl : Floats} {c c' : Contract} (h : Inv fl c) {x : Ctx} {k : Call}
    {o : List Out} (he : c.exec fl x k = .ok (c', o)) : Moves fl (k.actor x) c c' := by
  cases k with
  | ftOnTransfer a n m =>
    simp only [exec] at he
    unpack at he
    obtain ⟨_, c1, he, rfl, _⟩ := he
    unfold ftOnTransfer assertRunning at he
    unpack at he
    obtain ⟨_, he⟩ := he
    cases m with
    | free => exact stakeFree_moves h he
    | lock d => exact stakeLock_moves h he
    | reward id => exact depositReward_moves he
    | bad => cases he
  | mftOnTransfer tid a n m =>
    simp only [exec] at he
    unpack at he
    obtain ⟨_, c1, he, rfl, _⟩ := he
    unfold mftOnTransfer assertRunning at he
    unpack at he
    obtain ⟨_, he⟩ := he
    split at he
    · cases m with
      | free => exact stakeFree_moves h he
      | lock d => exact stakeLock_moves h he
      | reward id => cases he
      | bad => cases he
    · cases he
  | lockFreeSeed s d n =>
    simp only [exec] at he
    unpack at he
    obtain ⟨c1, he, rfl, _⟩ := he
    exact lockFree_moves h he
  | forceUnlock s n =>
    simp only [exec] at he
    unpack at he
    obtain ⟨c1, he, rfl, _⟩ := he
    exact forceUnlock_moves h he
  | claimReward s =>
    simp only [exec] at he
    unpack at he
    obtain ⟨c1, he, rfl, _⟩ := he
    exact claimReward_moves h he
  | createSeed s d m l =>
    simp only [exec] at he
    unpack at he
    obtain ⟨c1, he, rfl, _⟩ := he
    unfold createSeed oneYocto assertManager assertRunning at he
    unpack at he
    obtain ⟨_, _, _, hno, rfl⟩ := he
    have hno : c.seeds.get? s = none := Option.isNone_iff_eq_none.1 hno
    intro r sr hr
    refine ⟨sr, ?_, .refl fun _ => rfl⟩
    show (c.seeds.insert s _).get? r = some sr
    rw [FMap.get?_insert_ne _ _ (by rintro rfl; rw [hno] at hr; cases hr), hr]
  | createFarm s t a d =>
    simp only [exec] at he
    unpack at he
    obtain ⟨c1, he, rfl, _⟩ := he
    unfold createFarm oneYocto assertManager assertRunning at he
    unpack at he
    obtain ⟨_, _, _, sd, hsd, _, hnext, hcount, _, _, rfl⟩ := he
    refine edit_moves hsd rfl rfl (Nat.le_succ _) fun id f' hf => ?_
    change (sd.farms.insert _ _).get? id = some f' at hf
    rw [FMap.get?_insert] at hf
    split at hf
    · exact .inl ⟨sd.nextIndex, Nat.le_refl _, by assumption⟩
    · exact .inr ⟨f', hf, rfl, rfl, rfl, rfl⟩
  | cancelFarm id =>
    simp only [exec] at he
    unpack at he
    obtain ⟨c1, he, rfl, _⟩ := he
    unfold cancelFarm oneYocto assertManager assertRunning at he
    unpack at he
    obtain ⟨_, _, _, s, hs, sd, hsd, f, hf, htot, _, rfl⟩ := he
    exact edit_erase hsd rfl rfl
  | removeFarm id =>
    simp only [exec] at he
    unpack at he
    obtain ⟨c1, he, rfl, _⟩ := he
    unfold removeFarm oneYocto assertOwner assertRunning SeedFarm.finalize at he
    unpack at he
    obtain ⟨_, _, _, s, hs, sd, hsd, f, hf, hst, hle, hcnt, rfl⟩ := he
    exact edit_erase hsd rfl rfl
  | setting k =>
    simp only [exec] at he
    unpack at he
    obtain ⟨c1, he, rfl, _⟩ := he
    exact setting_moves he
  | setOwner a =>
    simp only [exec, setOwner, oneYocto, assertOwner] at he
    unpack at he
    obtain ⟨_, _, rfl, _⟩ := he
    exact .of_eq rfl rfl
  | setRunning b =>
    simp only [exec, setRunning, oneYocto, assertOwner] at he
    unpack at he
    obtain ⟨_, _, rfl, _⟩ := he
    exact .of_eq rfl rfl
  | extendOperators l =>
    simp only [exec, extendOperators, oneYocto, assertOwner] at he
    unpack at he
    obtain ⟨_, _, rfl, _⟩ := he
    exact .of_eq rfl rfl
  | removeOperators l =>
    simp only [exec] at he
    unpack at he
    obtain ⟨c1, he, rfl, _⟩ := he
    unfold removeOperators oneYocto assertOwner at he
    unpack at he
    obtain ⟨_, _, _, _, rfl⟩ := he
    exact .of_eq rfl rfl
  | storageDeposit a =>
    replace he : c.storageDeposit x a = .ok (c', o) := he
    unfold storageDeposit assertRunning at he
    unpack at he
    obtain ⟨_, he⟩ := he
    split at he
    · unpack at he
      obtain ⟨rfl, _⟩ := he
      exact .of_eq rfl rfl
    · rename_i hno
      unpack at he
      obtain ⟨_, _, rfl, _⟩ := he
      have hno : c.farmers.get? (a.getD x.pred) = none := by
        unfold FMap.contains at hno
        cases hg : c.farmers.get? (a.getD x.pred) with
        | none => rfl
        | some u => rw [hg] at hno; simp at hno
      refine .refl rfl fun b s => ?_
      unfold stakeOf
      show (match (c.farmers.insert (a.getD x.pred) ⟨x.pred, FMap.empty, FMap.empty⟩).get? b with
        | some u => u.stakeIn s | none => FarmerSeed.zero) = _
      by_cases hb : b = a.getD x.pred
      · rw [hb, FMap.get?_insert_self, hno]
        rfl
      · rw [FMap.get?_insert_ne _ _ hb]
        rfl
  | storageUnregister =>
    replace he : c.storageUnregister x = .ok (c', o) := he
    unfold storageUnregister oneYocto assertRunning at he
    unpack at he
    obtain ⟨_, _, he⟩ := he
    split at he
    · unpack at he
      obtain ⟨rfl, _⟩ := he
      exact .of_eq rfl rfl
    · rename_i u hu
      unpack at he
      obtain ⟨hr, hs, _, rfl, _⟩ := he
      refine .refl rfl fun b s => ?_
      unfold stakeOf
      show (match (c.farmers.erase x.pred).get? b with
        | some u => u.stakeIn s | none => FarmerSeed.zero) = _
      by_cases hb : b = x.pred
      · rw [hb, FMap.get?_erase_self, hu]
        exact (Farmer.stakeIn_none (FMap_size_zero hs s)).symm
      · rw [FMap.get?_erase_ne _ hb]
        rfl

end Contract

end Verif.Boost

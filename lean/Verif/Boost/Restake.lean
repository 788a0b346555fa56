import Verif.Boost.Inv

/-
The calls that change a stake: a claim for the seed, the change, and claims for the seeds it boosts.
-/

namespace Verif.Boost

theorem FarmerSeed.SameStake.refl (v : FarmerSeed) : v.SameStake v := ⟨rfl, rfl, rfl, rfl, rfl⟩

theorem FarmerSeed.SameStake.trans {v w z : FarmerSeed} (h : v.SameStake w) (h' : w.SameStake z) :
    v.SameStake z :=
  ⟨h'.1.trans h.1, h'.2.1.trans h.2.1, h'.2.2.1.trans h.2.2.1, h'.2.2.2.1.trans h.2.2.2.1,
    h'.2.2.2.2.trans h.2.2.2.2⟩

theorem FarmerSeed.SameStake.stake {v w : FarmerSeed} (h : v.SameStake w) : w.stake = v.stake := by
  unfold FarmerSeed.stake
  rw [h.1, h.2.1]

/-- What updates and claims leave as it is in a farm. -/
def SeedFarm.terms (f : SeedFarm) : AccountId × Nat × Nat × Nat := (f.token, f.startAt, f.daily, f.total)

/-- What updates and claims leave as it is in a seed. -/
structure Seed.Quiet (sd sd' : Seed) : Prop where
  id : sd'.id = sd.id
  decimals : sd'.decimals = sd.decimals
  next : sd'.nextIndex = sd.nextIndex
  amount : sd'.amount = sd.amount
  minDeposit : sd'.minDeposit = sd.minDeposit
  slashRate : sd'.slashRate = sd.slashRate
  minLock : sd'.minLock = sd.minLock
  totals : ∀ t, sd'.farms.sum (fun _ => SeedFarm.totalIn t) = sd.farms.sum (fun _ => SeedFarm.totalIn t)
  farms : ∀ id, (sd'.farms.get? id).map SeedFarm.terms = (sd.farms.get? id).map SeedFarm.terms

theorem Seed.Quiet.refl (sd : Seed) : sd.Quiet sd :=
  ⟨rfl, rfl, rfl, rfl, rfl, rfl, rfl, fun _ => rfl, fun _ => rfl⟩

theorem Seed.Quiet.trans {a b c : Seed} (h : a.Quiet b) (h' : b.Quiet c) : a.Quiet c :=
  ⟨h'.id.trans h.id, h'.decimals.trans h.decimals, h'.next.trans h.next, h'.amount.trans h.amount,
    h'.minDeposit.trans h.minDeposit, h'.slashRate.trans h.slashRate, h'.minLock.trans h.minLock,
    fun t => (h'.totals t).trans (h.totals t), fun id => (h'.farms id).trans (h.farms id)⟩

/-- The seeds are the same but for updates and claims. -/
def QuietSeeds (m m' : FMap SeedId Seed) : Prop :=
  ∀ r, (m.get? r = none → m'.get? r = none) ∧
    ∀ sd, m.get? r = some sd → ∃ sd', m'.get? r = some sd' ∧ sd.Quiet sd'

theorem QuietSeeds.refl (m : FMap SeedId Seed) : QuietSeeds m m :=
  fun _ => ⟨fun h => h, fun sd h => ⟨sd, h, .refl sd⟩⟩

theorem QuietSeeds.trans {m m' m'' : FMap SeedId Seed} (h : QuietSeeds m m') (h' : QuietSeeds m' m'') :
    QuietSeeds m m'' := by
  intro r
  refine ⟨fun h0 => (h' r).1 ((h r).1 h0), ?_⟩
  intro sd hs
  obtain ⟨sd1, h1, q1⟩ := (h r).2 sd hs
  obtain ⟨sd2, h2, q2⟩ := (h' r).2 sd1 h1
  exact ⟨sd2, h2, q1.trans q2⟩

theorem QuietSeeds.insert {m : FMap SeedId Seed} {s : SeedId} {sd sd' : Seed} (h : m.get? s = some sd)
    (q : sd.Quiet sd') : QuietSeeds m (m.insert s sd') := by
  intro r
  by_cases hr : r = s
  · subst hr
    refine ⟨fun h0 => (by rw [h] at h0; cases h0), ?_⟩
    intro sr hsr
    rw [h] at hsr
    cases hsr
    exact ⟨sd', FMap.get?_insert_self _ _ _, q⟩
  · rw [FMap.get?_insert_ne _ _ hr]
    exact ⟨fun h => h, fun sr h => ⟨sr, h, .refl sr⟩⟩

theorem Seed.Updates.quiet {now : Nat} {sd sd' : Seed} (h : sd.Updates now sd') : sd.Quiet sd' := by
  obtain ⟨fs, he⟩ := h.eq
  refine ⟨by rw [he], by rw [he], by rw [he], by rw [he], by rw [he], by rw [he], by rw [he], ?_, ?_⟩
  · intro t
    refine h.sum _ ?_
    intro id f g hu
    unfold SeedFarm.totalIn
    rw [hu.token, hu.total]
  · intro id
    cases hf : sd.farms.get? id with
    | none => rw [h.gone id hf]
    | some f =>
      obtain ⟨g, hg, hu⟩ := h.kept id f hf
      rw [hg]
      simp only [Option.map_some, SeedFarm.terms, hu.token, hu.startAt, hu.daily, hu.total]

theorem Claims.quiet {fl : Floats} {u u' : Farmer} {sd sd' : Seed} (h : Claims fl u sd u' sd') :
    sd.Quiet sd' := by
  obtain ⟨p, fs, he⟩ := h.eq
  refine ⟨by rw [he], by rw [he], by rw [he], by rw [he], by rw [he], by rw [he], by rw [he], h.totals, ?_⟩
  intro id
  cases hf : sd.farms.get? id with
  | none => rw [h.gone id hf]
  | some f => rw [(h.farm id f hf).2]; rfl

/-- Claims leave the stakes of the farmer as they are. -/
theorem Claims.same {fl : Floats} {u u' : Farmer} {sd sd' : Seed} (h : Claims fl u sd u' sd')
    (r : SeedId) : (u.stakeIn r).SameStake (u'.stakeIn r) := by
  by_cases hr : r = sd.id
  · subst hr
    obtain ⟨w, hw, hs, _⟩ := h.stake
    rw [Farmer.stakeIn_some hw]
    exact hs
  · unfold Farmer.stakeIn
    rw [h.others r hr]
    exact .refl _

theorem Inv.of_eq {fl : Floats} {c c' : Contract} (h : Inv fl c) (h1 : c'.seeds = c.seeds)
    (h2 : c'.farmers = c.farmers) (h3 : c'.outdated = c.outdated)
    (h4 : c'.cfg.boosters = c.cfg.boosters) : Inv fl c' := by
  obtain ⟨o, r, p, cfg, sds, fms, out, sl, lf, n, m⟩ := c
  obtain ⟨o', r', p', cfg', sds', fms', out', sl', lf', n', m'⟩ := c'
  simp only at h1 h2 h3 h4
  subst h1 h2 h3
  refine ⟨h.ids, h.amount, h.power, h.orphan, h.farmIds, h.outIds, h.rps, ?_, h.outBooks, ?_,
    h.rewards, h.x⟩
  · intro s sd id f hs hf
    have b := h.books s sd id f hs hf
    exact ⟨b.le, b.zero, b.owed⟩
  · intro k b hk
    simp only [h4] at hk
    exact h.boost k b hk

/-- Effects of changes of seeds on the deposited totals. -/
theorem sum_insert_totals {m : FMap SeedId Seed} {s : SeedId} {sd sd' : Seed} (hs : m.get? s = some sd)
    (t : AccountId) :
    (m.insert s sd').sum (fun _ sd => sd.farms.sum fun _ => SeedFarm.totalIn t) +
      sd.farms.sum (fun _ => SeedFarm.totalIn t) =
    m.sum (fun _ sd => sd.farms.sum fun _ => SeedFarm.totalIn t) +
      sd'.farms.sum (fun _ => SeedFarm.totalIn t) := by
  have := m.sum_insert (fun _ sd => sd.farms.sum fun _ => SeedFarm.totalIn t) s sd'
  rw [FMap.term_some _ hs] at this
  exact this

/-- What the claims for the boosted seeds do. -/
structure Impact (fl : Floats) (s : SeedId) (c : Contract) (u : Farmer) (c' : Contract) (u' : Farmer) :
    Prop where
  eq : c' = { c with seeds := c'.seeds }
  seeds : QuietSeeds c.seeds c'.seeds
  seed : c'.seeds.get? s = c.seeds.get? s
  sums : ∀ t, c'.seeds.sum (fun _ sd => sd.farms.sum fun _ => SeedFarm.totalIn t) =
    c.seeds.sum (fun _ sd => sd.farms.sum fun _ => SeedFarm.totalIn t)
  sponsor : u'.sponsor = u.sponsor
  stake : u'.seeds.get? s = u.seeds.get? s
  same : ∀ r, (u.stakeIn r).SameStake (u'.stakeIn r)
  more : ∀ t, u.rewards.getD t 0 ≤ u'.rewards.getD t 0
  inv : ∀ (a : AccountId) (sd3 : Seed), Inv fl ((c.setFarmer a u).setSeed s sd3) →
    (c.seeds.get? s).isSome = true → Inv fl ((c'.setFarmer a u').setSeed s sd3)

theorem Inv.claim {fl : Floats} {c : Contract} (h : Inv fl c) {now : Nat} {a : AccountId} {s : SeedId}
    {u u' : Farmer} {sd sd' : Seed} (hu : c.farmers.get? a = some u) (hsd : c.seed now s = .ok sd)
    (hc : doClaim fl c.cfg u sd = .ok (u', sd')) : Inv fl ((c.setFarmer a u').setSeed s sd') := by
  have h1 := h.load hsd
  have hg : (c.setSeed s sd).seeds.get? s = some sd := FMap.get?_insert_self _ _ _
  have h2 := h1.change (a := a) (u := u) hu hg
    ((doClaim_ok hc).change (h1.ids _ _ hg) (h1.stakeIn_x hu s))
  have e : ((c.setSeed s sd).setFarmer a u').setSeed s sd' = (c.setFarmer a u').setSeed s sd' := by
    simp only [Contract.setSeed, Contract.setFarmer, FMap.insert_insert]
  rw [← e]
  exact h2

theorem impactedLoop_ok {fl : Floats} {now : Nat} {s : SeedId} : ∀ {l : List (SeedId × Nat)}
    {c c' : Contract} {u u' : Farmer}, (∀ p ∈ l, p.1 ≠ s) →
    (∀ r sd, c.seeds.get? r = some sd → sd.id = r) →
    Contract.impactedLoop fl now l c u = .ok (c', u') → Impact fl s c u c' u' := by
  intro l
  induction l with
  | nil =>
    intro c c' u u' _ _ h
    cases h
    exact ⟨rfl, .refl _, rfl, fun _ => rfl, rfl, rfl, fun _ => .refl _, fun _ => Nat.le_refl _,
      fun _ _ h _ => h⟩
  | cons p l ih =>
    intro c c' u u' hl hids h
    obtain ⟨r, b⟩ := p
    have hrs : r ≠ s := hl (r, b) (by simp)
    unfold Contract.impactedLoop at h
    split at h
    · unpack at h
      obtain ⟨sd, hsd, u1, sd1, hcl, h⟩ := h
      obtain ⟨old, hold, up⟩ := Contract.seed_ok hsd
      have cl := doClaim_ok hcl
      have hid : sd.id = r := by rw [up.quiet.id]; exact hids r old hold
      have hid1 : sd1.id = r := by rw [cl.quiet.id, hid]
      have im := ih (fun q hq => hl q (by simp [hq])) (by
        intro q sq hq
        change (c.seeds.insert r sd1).get? q = some sq at hq
        rw [FMap.get?_insert] at hq
        split at hq
        · cases hq; subst_vars; exact hid1
        · exact hids q sq hq) h
      refine ⟨?_, ?_, ?_, ?_, ?_, ?_, ?_, ?_, ?_⟩
      · rw [im.eq]; rfl
      · exact (QuietSeeds.insert hold (up.quiet.trans cl.quiet)).trans im.seeds
      · rw [im.seed]; exact FMap.get?_insert_ne _ _ (Ne.symm hrs)
      · intro t
        rw [im.sums t]
        exact FMap.sum_insert_same _ _ _ _ _ hold ((up.quiet.trans cl.quiet).totals t)
      · rw [im.sponsor, cl.sponsor]
      · rw [im.stake]; exact cl.others s (by rw [hid]; exact Ne.symm hrs)
      · exact fun q => (cl.same q).trans (im.same q)
      · exact fun t => Nat.le_trans (cl.more t) (im.more t)
      · intro a sd3 hinv hsome
        refine im.inv a sd3 ?_ ?_
        · obtain ⟨z, hz⟩ := Option.isSome_iff_exists.1 hsome
          have hX : ((c.setFarmer a u).setSeed s sd3).seed now r = .ok sd := by
            unfold Contract.seed at hsd ⊢
            show (do let x ← expectE ((c.seeds.insert s sd3).get? r) _; _) = _
            rw [FMap.get?_insert_ne _ _ hrs]
            exact hsd
          have := hinv.claim (a := a) (u := u) (FMap.get?_insert_self _ _ _) hX hcl
          have e : (((c.setFarmer a u).setSeed s sd3).setFarmer a u1).setSeed r sd1 =
              ((c.setSeed r sd1).setFarmer a u1).setSeed s sd3 := by
            simp only [Contract.setSeed, Contract.setFarmer, FMap.insert_insert]
            rw [FMap.insert_comm c.seeds sd3 sd1 hrs hz hold]
          rw [← e]
          exact this
        · show ((c.seeds.insert r sd1).get? s).isSome = true
          rw [FMap.get?_insert_ne _ _ (Ne.symm hrs)]
          exact hsome
    · exact ih (fun q hq => hl q (by simp [hq])) hids h

theorem updateImpacted_ok {fl : Floats} {now : Nat} {s : SeedId} {c c' : Contract} {u u' : Farmer}
    (hb : ∀ k b, c.cfg.boosters.get? k = some b → b.affected.get? k = none)
    (hids : ∀ r sd, c.seeds.get? r = some sd → sd.id = r)
    (h : c.updateImpacted fl now u s = .ok (c', u')) : Impact fl s c u c' u' := by
  unfold Contract.updateImpacted at h
  split at h
  · rename_i b hk
    refine impactedLoop_ok ?_ hids h
    rintro ⟨r, n⟩ hp rfl
    have := (b.affected.mem_entries_iff).1 hp
    rw [hb _ b hk] at this
    cases this
  · cases h
    exact ⟨rfl, .refl _, rfl, fun _ => rfl, rfl, rfl, fun _ => .refl _, fun _ => Nat.le_refl _,
      fun _ _ h _ => h⟩

/-- What a call that changes the stake of farmer `a` in seed `s` from `v` to `w` does. -/
structure Restake (fl : Floats) (c : Contract) (a : AccountId) (s : SeedId) (v w : FarmerSeed)
    (c' : Contract) : Prop where
  eq : c' = { c with seeds := c'.seeds, farmers := c'.farmers, slashed := c'.slashed }
  farmer : ∃ u u', c.farmers.get? a = some u ∧ c'.farmers = c.farmers.insert a u' ∧
    u'.sponsor = u.sponsor ∧ (u.stakeIn s).SameStake v ∧ u'.seeds.get? s = some w ∧
    (∀ r, r ≠ s → (u.stakeIn r).SameStake (u'.stakeIn r)) ∧
    ∀ t, u.rewards.getD t 0 ≤ u'.rewards.getD t 0
  seed : ∃ sd sd' sq, c.seeds.get? s = some sd ∧ c'.seeds.get? s = some sd' ∧ sd.Quiet sq ∧
    sd' = { sq with amount := sd'.amount, power := sd'.power } ∧
    sd'.amount + v.stake = sd.amount + w.stake
  others : ∀ r, r ≠ s → (c.seeds.get? r = none → c'.seeds.get? r = none) ∧
    ∀ sd, c.seeds.get? r = some sd → ∃ sd', c'.seeds.get? r = some sd' ∧ sd.Quiet sd'
  totals : ∀ t, c'.totalOf t = c.totalOf t
  inv : Inv fl c'

theorem restake {fl : Floats} {c c2 : Contract} {now : Nat} {a : AccountId} {s : SeedId}
    {u u1 u2 : Farmer} {sd sd1 : Seed} {v w : FarmerSeed} {amount power : Nat}
    {sl : FMap SeedId Nat} (h : Inv fl c)
    (hu : c.farmer a = .ok u) (hsd : c.seed now s = .ok sd) (hc : doClaim fl c.cfg u sd = .ok (u1, sd1))
    (hv : u1.seeds.get? s = some v) (hrps : w.userRps = v.userRps)
    (hx : v.locked ≤ v.xLocked → w.locked ≤ w.xLocked)
    (hamt : amount + v.stake = sd1.amount + w.stake)
    (hpow : power + v.pow fl = sd1.power + w.pow fl)
    (him : Contract.updateImpacted fl { c with slashed := sl } now
      { u1 with seeds := u1.seeds.insert s w } s = .ok (c2, u2)) :
    Restake fl c a s v w ((c2.setFarmer a u2).setSeed s { sd1 with amount, power }) ∧
    c2.slashed = sl := by
  have hu := expectE_ok.1 hu
  obtain ⟨old, hold, up⟩ := Contract.seed_ok hsd
  have cl := doClaim_ok hc
  have hid : sd.id = s := by rw [up.quiet.id]; exact h.ids s old hold
  have im := updateImpacted_ok (c := { c with slashed := sl }) h.boost h.ids him
  have h1 : Inv fl (c.setSeed s sd) := h.load hsd
  have hg : (c.setSeed s sd).seeds.get? s = some sd := FMap.get?_insert_self _ _ _
  have ch := cl.change hid (h1.stakeIn_x (a := a) (u := u) hu s)
  have hvs : (u.stakeIn s).SameStake v := by
    have := cl.same s
    rwa [Farmer.stakeIn_some hv] at this
  have ch2 : Change fl s u sd { u1 with seeds := u1.seeds.insert s w } { sd1 with amount, power } := by
    obtain ⟨v', hv', hvx, ha, hp, hsync, hkeys⟩ := ch.stake
    rw [hv] at hv'
    cases hv'
    refine ⟨?_, ch.id, ch.next, ch.gone, ch.rewards, ch.farm, w, FMap.get?_insert_self _ _ _, hx hvx,
      ?_, ?_, by rw [hrps]; exact hsync, by rw [hrps]; exact hkeys⟩
    · intro r hr
      show (u1.seeds.insert s w).get? r = _
      rw [FMap.get?_insert_ne _ _ hr]
      exact ch.others r hr
    · show amount + _ = _; omega
    · show power + _ = _; omega
  have hinv := h1.change (a := a) hu hg ch2
  have e : ((c.setSeed s sd).setFarmer a { u1 with seeds := u1.seeds.insert s w }).setSeed s
      { sd1 with amount, power } =
      (c.setFarmer a { u1 with seeds := u1.seeds.insert s w }).setSeed s { sd1 with amount, power } := by
    simp only [Contract.setSeed, Contract.setFarmer, FMap.insert_insert]
  rw [e] at hinv
  have hinv2 := im.inv a { sd1 with amount, power } (hinv.of_eq rfl rfl rfl rfl)
    (by show (c.seeds.get? s).isSome = true; rw [hold]; rfl)
  have heq := im.eq
  refine ⟨⟨?_, ⟨u, u2, hu, ?_, ?_, hvs, ?_, ?_,
    fun t => Nat.le_trans (cl.more t) (im.more t)⟩, ⟨old, { sd1 with amount, power }, sd1, hold,
    FMap.get?_insert_self _ _ _, up.quiet.trans cl.quiet, rfl, ?_⟩, ?_, ?_, hinv2⟩, ?_⟩
  · rw [heq]; rfl
  · rw [heq]; rfl
  · rw [im.sponsor]; exact cl.sponsor
  · rw [im.stake]; exact FMap.get?_insert_self _ _ _
  · intro r hr
    have h3 := im.same r
    have h4 : ({ u1 with seeds := u1.seeds.insert s w } : Farmer).stakeIn r = u1.stakeIn r := by
      unfold Farmer.stakeIn
      rw [FMap.get?_insert_ne _ _ hr]
    rw [h4] at h3
    exact (cl.same r).trans h3
  · show amount + _ = _
    rw [hamt, (up.quiet.trans cl.quiet).amount]
  · intro r hr
    show (c.seeds.get? r = none → (c2.seeds.insert s _).get? r = none) ∧ ∀ sd, c.seeds.get? r = some sd →
      ∃ sd', (c2.seeds.insert s _).get? r = some sd' ∧ sd.Quiet sd'
    rw [FMap.get?_insert_ne _ _ hr]
    exact im.seeds r
  · intro t
    have e1 := im.sums t
    have e2 := sum_insert_totals (m := c2.seeds) (sd' := { sd1 with amount, power }) (im.seed.trans hold) t
    have e3 := (up.quiet.trans cl.quiet).totals t
    have e4 : c2.outdated = c.outdated := by rw [heq]
    unfold Contract.totalOf
    show (c2.seeds.insert s _).sum _ + c2.outdated.sum _ = _
    rw [e4]
    simp only at e1 e2
    omega
  · rw [heq]

end Verif.Boost

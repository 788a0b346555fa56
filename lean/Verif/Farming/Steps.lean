import Verif.Farming.Inv

/-
The invariant is preserved by the steps the methods are made of.
-/

namespace Verif.Farming

/-! ### Farmers -/

theorem setRps_ok {m m' : RpsMap} {u u' : Farmer} {who : AccountId} {id : FarmId} {v : Nat}
    (h : setRps m u who id v = .ok (m', u')) :
    m' = m.insert (who, id) v ∧ u'.seeds = u.seeds ∧ u'.rewards = u.rewards ∧ u'.near = u.near := by
  unfold setRps at h
  split at h
  · cases h; exact ⟨rfl, rfl, rfl, rfl⟩
  · unpack at h
    obtain ⟨_, rfl, rfl⟩ := h
    exact ⟨rfl, rfl, rfl, rfl⟩

theorem Farmer.addReward_ok {u u' : Farmer} {t : AccountId} {n : Nat} (h : u.addReward t n = .ok u') :
    u'.seeds = u.seeds ∧ u'.near = u.near ∧ u'.rpsCount = u.rpsCount ∧
    ∀ k, u'.rewards.getD k 0 = u.rewards.getD k 0 + if k = t then n else 0 := by
  unfold addReward at h
  split at h
  · rename_i v hv
    unpack at h
    obtain ⟨_, rfl⟩ := h
    refine ⟨rfl, rfl, rfl, ?_⟩
    intro k
    simp only [FMap.getD_insert]
    split
    · rename_i hk; subst hk; simp [FMap.getD, hv]
    · rfl
  · rename_i hv
    cases h
    refine ⟨rfl, rfl, rfl, ?_⟩
    intro k
    simp only [FMap.getD_insert]
    split
    · rename_i hk; subst hk; simp [FMap.getD, hv]
    · rfl

/-- What claiming from one farm does. -/
structure Claimed (x : Ctx) (who : AccountId) (f : SimpleFarm) (total : Nat) (m : RpsMap)
    (u : Farmer) (f1 : SimpleFarm) (m1 : RpsMap) (u1 : Farmer) (g : SimpleFarm) (added n : Nat) :
    Prop where
  dist : f.Distributed x.now total g added
  last : m.getD (who, f.id) 0 ≤ g.dist.rps
  amount : n = u.stake f.terms.seedId * (g.dist.rps - m.getD (who, f.id) 0) / DENOM
  covered : n ≤ g.dist.unclaimed
  farm : f1 = { g with
    dist := { g.dist with unclaimed := g.dist.unclaimed - n }
    amountOfClaimed := g.amountOfClaimed + n }
  rps : m1 = m.insert (who, f.id) g.dist.rps
  seeds : u1.seeds = u.seeds
  near : u1.near = u.near
  rewards : ∀ k, u1.rewards.getD k 0 =
    u.rewards.getD k 0 + if k = f.terms.rewardToken then n else 0
  run : f.distribute x.now total = .ok g

theorem claimFromFarm_ok {x : Ctx} {who : AccountId} {f f1 : SimpleFarm} {total : Nat}
    {m m1 : RpsMap} {u u1 : Farmer} (h : claimFromFarm x who f total m u = .ok (f1, m1, u1)) :
    ∃ g added n, Claimed x who f total m u f1 m1 u1 g added n := by
  unfold claimFromFarm at h
  simp only [bind_ok, Prod.exists] at h
  obtain ⟨f2, v, n, hc, m2, u2, hs, h⟩ := h
  obtain ⟨g, hg, hlast, rfl, hn, hcov, rfl⟩ := SimpleFarm.claimUserReward_ok hc
  obtain ⟨added, hd⟩ := SimpleFarm.distribute_ok hg
  obtain ⟨rfl, h1, h2, h3⟩ := setRps_ok hs
  refine ⟨g, added, n, ?_⟩
  split at h
  · unpack at h
    obtain ⟨u3, h4, rfl, rfl, rfl⟩ := h
    obtain ⟨h5, h6, _, h7⟩ := Farmer.addReward_ok h4
    exact ⟨hd, hlast, hn, hcov, rfl, rfl, h5.trans h1, h6.trans h3, by rw [← h2]; exact h7, hg⟩
  · cases h
    have h0 : n = 0 := by omega
    refine ⟨hd, hlast, hn, hcov, rfl, rfl, h1, h3, ?_, hg⟩
    intro k
    rw [h2, h0]
    simp

theorem stake_congr {u v : Farmer} (h : u.seeds = v.seeds) (s : SeedId) : u.stake s = v.stake s := by
  unfold Farmer.stake; rw [h]

/-! ### Pieces of the invariant -/

theorem Contract.claimable_eq (c : Contract) (id : FarmId) (f : SimpleFarm) (k : AccountId) :
    c.claimable id f = (c.farmers.erase k).sum (fun a u =>
        u.stake f.terms.seedId * (f.dist.rps - c.rps.getD (a, id) 0)) +
      c.farmers.term (fun a u => u.stake f.terms.seedId * (f.dist.rps - c.rps.getD (a, id) 0)) k := by
  unfold claimable
  rw [FMap.sum_erase]

theorem SimpleFarm.Distributed.balanced {f g : SimpleFarm} {now total added : Nat}
    (h : f.Distributed now total g added) (hb : f.Balanced) : g.Balanced := by
  have h1 := h.undistributed
  have h2 := h.reward
  obtain ⟨h3, h4⟩ := hb
  by_cases h0 : total = 0
  · rcases h.empty h0 with ⟨ha, hd, hc, hbn⟩ | ⟨hu, _, hc, hbn⟩
    · constructor
      · rw [h2, hd, hc, h3]
      · rw [hbn, hc]; exact h4
    · constructor
      · omega
      · omega
  · have h5 := h.unclaimed h0
    have h6 := h.claimed h0
    have h7 := h.beneficiary h0
    constructor <;> omega

/-- A distribution leaves the farm able to pay everyone. -/
theorem SimpleFarm.Distributed.funded {c : Contract} {id : FarmId} {f g : SimpleFarm}
    {now total added : Nat} (h : f.Distributed now total g added) (hl : LiveFarm c id f)
    (ht : total = c.stakes f.terms.seedId) :
    c.claimable id g ≤ g.dist.unclaimed * DENOM ∧
    ∀ a u, c.farmers.get? a = some u → 0 < u.stake f.terms.seedId →
      c.rps.getD (a, id) 0 ≤ g.dist.rps := by
  by_cases h0 : total = 0
  · have hz : ∀ a u, c.farmers.get? a = some u → u.stake f.terms.seedId = 0 := by
      intro a u hu
      have h1 := c.farmers.term_le_sum (fun _ u => u.stake f.terms.seedId) a
      rw [FMap.term_some _ hu] at h1
      have h2 : c.stakes f.terms.seedId = 0 := by omega
      unfold Contract.stakes at h2
      omega
    constructor
    · have : c.claimable id g = 0 := by
        unfold Contract.claimable
        rw [c.farmers.sum_congr _ (fun _ _ => 0 * 0)]
        · rw [FMap.sum_mul]; rfl
        · intro a u hu
          rw [h.terms, hz a u hu]; simp
      rw [this]; exact Nat.zero_le _
    · intro a u hu hp
      rw [hz a u hu] at hp
      omega
  · have hrps := h.rps h0
    have hun := h.unclaimed h0
    constructor
    · have h1 : c.claimable id g ≤ c.claimable id f +
          c.stakes f.terms.seedId * (added * DENOM / total) := by
        unfold Contract.claimable Contract.stakes
        rw [← FMap.sum_mul, ← FMap.sum_add, h.terms]
        apply FMap.sum_le
        intro a u _
        rw [← Nat.mul_add, hrps]
        apply Nat.mul_le_mul_left
        generalize added * DENOM / total = q
        omega
      have h2 : c.stakes f.terms.seedId * (added * DENOM / total) ≤ added * DENOM := by
        rw [← ht]; exact Nat.mul_div_le _ _
      have h3 := hl.funded
      rw [hun, Nat.add_mul]
      omega
    · intro a u hu hp
      exact Nat.le_trans (hl.behind a u hu hp) (hrps ▸ Nat.le_add_right _ _)

/-- Claiming from one live farm preserves the invariant. -/
theorem Inv.claimStep {c : Contract} (hI : Inv c) {x : Ctx} {who : AccountId} {u u1 : Farmer}
    {id : FarmId} {f f1 : SimpleFarm} {fs : FarmSeed} {m1 : RpsMap}
    (hu : c.farmers.get? who = some u) (hf : c.farms.get? id = some f)
    (hs : c.seeds.get? f.terms.seedId = some fs)
    (h : claimFromFarm x who f fs.amount c.rps u = .ok (f1, m1, u1)) :
    Inv { c with
      farms := c.farms.insert id f1, rps := m1, farmers := c.farmers.insert who u1 } := by
  obtain ⟨g, added, n, hc⟩ := claimFromFarm_ok h
  have hl := hI.farms id f hf
  have hst : ∀ s, u1.stake s = u.stake s := stake_congr hc.seeds
  have hseed : f1.terms = f.terms := by rw [hc.farm]; exact hc.dist.terms
  have htot : fs.amount = c.stakes f.terms.seedId := (hI.seeds _ _ hs).total
  obtain ⟨hfund, hbeh⟩ := hc.dist.funded hl htot
  have hm : m1 = c.rps.insert (who, id) g.dist.rps := by rw [hc.rps, hl.id_eq]
  have hgetF : ∀ a v, (c.farmers.insert who u1).get? a = some v → ∃ w, c.farmers.get? a = some w ∧
      ∀ s, v.stake s = w.stake s := by
    intro a v hv
    rw [FMap.get?_insert] at hv
    split at hv
    · rename_i ha; cases hv; exact ⟨u, by rw [ha]; exact hu, hst⟩
    · exact ⟨v, hv, fun _ => rfl⟩
  have hstakes : ∀ s, (c.farmers.insert who u1).sum (fun _ v => v.stake s) = c.stakes s := fun s =>
    c.farmers.sum_insert_same _ who u u1 hu (hst s)
  constructor
  · intro s fs' hs'
    have hg := hI.seeds s fs' hs'
    refine ⟨hg.id_eq, hg.nodup, ?_, ?_⟩
    · intro id' hid'
      obtain ⟨f', hf', hsd⟩ := hg.farms id' hid'
      show ∃ f, (c.farms.insert id f1).get? id' = some f ∧ _
      rw [FMap.get?_insert]
      split
      · rename_i he
        subst he
        rw [hf] at hf'
        cases hf'
        exact ⟨f1, rfl, by rw [hseed]; exact hsd⟩
      · exact ⟨f', hf', hsd⟩
    · rw [hg.total]; exact (hstakes s).symm
  · intro id' f' hf'
    simp only [FMap.get?_insert] at hf'
    split at hf'
    · rename_i he
      subst he
      cases hf'
      have hb := hc.dist.balanced hl.balanced
      have hcov := hc.covered
      refine ⟨?_, ?_, ?_, ?_, ?_⟩
      · rw [hc.farm]; exact hc.dist.id.trans hl.id_eq
      · obtain ⟨fs', h1, h2, h3⟩ := hl.seed
        rw [hseed]
        exact ⟨fs', h1, h2, h3⟩
      · rw [hc.farm]
        obtain ⟨h1, h2⟩ := hb
        constructor
        · simp only; omega
        · simp only; omega
      · intro a v hv hp
        obtain ⟨w, hw, hvw⟩ := hgetF a v hv
        have hr : f1.dist.rps = g.dist.rps := by rw [hc.farm]
        rw [hseed, hvw] at hp
        rw [hr]
        show m1.getD (a, id') 0 ≤ _
        rw [hm, FMap.getD_insert]
        split
        · exact Nat.le_refl _
        · exact hbeh a w hw hp
      · have h1 := c.claimable_eq id' g who
        rw [FMap.term_some _ hu] at h1
        have h2 : Contract.claimable { c with
            farms := c.farms.insert id' f1, rps := m1, farmers := c.farmers.insert who u1 } id' f1 =
            (c.farmers.erase who).sum (fun a u =>
              u.stake g.terms.seedId * (g.dist.rps - c.rps.getD (a, id') 0)) := by
          unfold Contract.claimable
          simp only
          rw [FMap.sum_insert_erase, hm, FMap.getD_insert, if_pos rfl]
          have hr : f1.dist.rps = g.dist.rps := by rw [hc.farm]
          rw [hr, Nat.sub_self, Nat.mul_zero, Nat.add_zero]
          apply FMap.sum_erase_congr
          intro a v ha _
          rw [FMap.getD_insert, if_neg (by intro h; exact ha (Prod.mk.inj h).1), hseed, hc.dist.terms]
        rw [h2]
        have h3 : f1.dist.unclaimed = g.dist.unclaimed - n := by rw [hc.farm]
        rw [h3, Nat.sub_mul]
        have h4 : n * DENOM ≤ u.stake f.terms.seedId * (g.dist.rps - c.rps.getD (who, id') 0) := by
          rw [hc.amount, hl.id_eq]; exact Nat.div_mul_le_self _ _
        rw [hc.dist.terms] at h1
        rw [hc.dist.terms]
        omega
    · rename_i he
      have hl' := hI.farms id' f' hf'
      refine ⟨hl'.id_eq, hl'.seed, hl'.balanced, ?_, ?_⟩
      · intro a v hv hp
        obtain ⟨w, hw, hvw⟩ := hgetF a v hv
        show m1.getD (a, id') 0 ≤ _
        rw [hm, FMap.getD_insert, if_neg (by intro h; exact he (Prod.mk.inj h).2)]
        rw [hvw] at hp
        exact hl'.behind a w hw hp
      · have h1 : Contract.claimable { c with
            farms := c.farms.insert id f1, rps := m1, farmers := c.farmers.insert who u1 } id' f' =
            c.claimable id' f' := by
          unfold Contract.claimable
          simp only
          have h2 : ∀ a, m1.getD (a, id') 0 = c.rps.getD (a, id') 0 := by
            intro a
            rw [hm, FMap.getD_insert, if_neg (by intro h; exact he (Prod.mk.inj h).2)]
          simp only [h2]
          exact c.farmers.sum_insert_same _ who u u1 hu (by rw [hst])
        rw [h1]
        exact hl'.funded
  · intro id' f' hf'
    obtain ⟨h1, h2, h3, h4, h5⟩ := hI.outdated id' f' hf'
    refine ⟨h1, h2, h3, h4, ?_⟩
    show (c.farms.insert id f1).get? id' = none
    rw [FMap.get?_insert, if_neg (by rintro rfl; rw [hf] at h5; cases h5)]
    exact h5
  · intro a id' v hv
    simp only [hm, FMap.get?_insert] at hv
    split at hv
    · rename_i he
      obtain ⟨fs', h1, _, i, h2, h3⟩ := hl.seed
      rw [(Prod.mk.inj he).2]
      exact ⟨_, fs', i, h1, h2, h3⟩
    · exact hI.rps a id' v hv
  · intro a v s k hv hk
    simp only [FMap.get?_insert] at hv
    split at hv
    · rename_i ha
      cases hv
      rw [hc.seeds] at hk
      exact hI.stakes who u s k hu hk
    · exact hI.stakes a v s k hv hk

/-! ### Claims -/

/-- Claims by `who` from a list of farms, one after the other. -/
inductive Claims (x : Ctx) (who : AccountId) : Contract → List FarmId → Contract → Prop where
  | nil (c : Contract) : Claims x who c [] c
  | cons {c c' : Contract} {id : FarmId} {ids : List FarmId} {u u1 : Farmer} {f f1 : SimpleFarm}
      {fs : FarmSeed} {m1 : RpsMap} :
      c.farmers.get? who = some u → c.farms.get? id = some f →
      c.seeds.get? f.terms.seedId = some fs →
      claimFromFarm x who f fs.amount c.rps u = .ok (f1, m1, u1) →
      Claims x who { c with
        farms := c.farms.insert id f1, rps := m1, farmers := c.farmers.insert who u1 } ids c' →
      Claims x who c (id :: ids) c'

theorem Claims.inv {x : Ctx} {who : AccountId} {c c' : Contract} {ids : List FarmId}
    (h : Claims x who c ids c') (hI : Inv c) : Inv c' := by
  induction h with
  | nil => exact hI
  | cons hu hf hs hc _ ih => exact ih (hI.claimStep hu hf hs hc)

/-- What claims leave alone. -/
structure Claims.Same (c c' : Contract) (who : AccountId) : Prop where
  seeds : c'.seeds = c.seeds
  outdated : c'.outdated = c.outdated
  owner : c'.owner = c.owner
  running : c'.running = c.running
  count : c'.farmerCount = c.farmerCount
  info : c'.rewardInfo = c.rewardInfo
  others : ∀ a, a ≠ who → c'.farmers.get? a = c.farmers.get? a
  farmer : ∀ u, c.farmers.get? who = some u → ∃ u', c'.farmers.get? who = some u' ∧
    c'.farmers = c.farmers.insert who u' ∧ u'.seeds = u.seeds ∧ u'.near = u.near
  rps : ∀ a id, a ≠ who → c'.rps.get? (a, id) = c.rps.get? (a, id)

theorem Claims.same {x : Ctx} {who : AccountId} {c c' : Contract} {ids : List FarmId}
    (h : Claims x who c ids c') : Claims.Same c c' who := by
  induction h with
  | nil c =>
    exact ⟨rfl, rfl, rfl, rfl, rfl, rfl, fun _ _ => rfl,
      fun u hu => ⟨u, hu, (FMap.insert_same hu).symm, rfl, rfl⟩, fun _ _ _ => rfl⟩
  | @cons c c' id ids u u1 f f1 fs m1 hu hf hs hc _ ih =>
    obtain ⟨g, added, n, hcl⟩ := claimFromFarm_ok hc
    refine ⟨ih.seeds, ih.outdated, ih.owner, ih.running, ih.count, ih.info, ?_, ?_, ?_⟩
    · intro a ha
      rw [ih.others a ha]
      exact FMap.get?_insert_ne _ _ ha
    · intro v hv
      rw [hu] at hv
      cases hv
      obtain ⟨u', h1, h2, h3, h4⟩ := ih.farmer u1 (FMap.get?_insert_self _ _ _)
      exact ⟨u', h1, by rw [h2]; exact FMap.insert_insert _ _ _ _, h3.trans hcl.seeds,
        h4.trans hcl.near⟩
    · intro a id' ha
      rw [ih.rps a id' ha]
      show m1.get? _ = _
      rw [hcl.rps]
      exact FMap.get?_insert_ne _ _ (by intro h; exact ha (Prod.mk.inj h).1)

/-- Claims leave the other farms alone. -/
theorem Claims.other {x : Ctx} {who : AccountId} {c c' : Contract} {ids : List FarmId}
    (h : Claims x who c ids c') (hI : Inv c) {id : FarmId} (hid : id ∉ ids) :
    c'.farms.get? id = c.farms.get? id ∧ ∀ a, c'.rps.getD (a, id) 0 = c.rps.getD (a, id) 0 := by
  induction h with
  | nil => exact ⟨rfl, fun _ => rfl⟩
  | @cons c c' id' ids u u1 f f1 fs m1 hu hf hs hc _ ih =>
    simp only [List.mem_cons, not_or] at hid
    obtain ⟨h1, h2⟩ := ih (hI.claimStep hu hf hs hc) hid.2
    obtain ⟨g, added, n, hcl⟩ := claimFromFarm_ok hc
    refine ⟨h1.trans (FMap.get?_insert_ne _ _ hid.1), fun a => (h2 a).trans ?_⟩
    show m1.getD _ 0 = _
    rw [hcl.rps, FMap.getD_insert, (hI.farms id' f hf).id_eq,
      if_neg (by intro h; exact hid.1 (Prod.mk.inj h).2)]

/-- After the claims the farmer is up to date with the farms. -/
theorem Claims.caught {x : Ctx} {who : AccountId} {c c' : Contract} {ids : List FarmId}
    (h : Claims x who c ids c') (hI : Inv c) (hn : ids.Nodup) {id : FarmId} (hid : id ∈ ids) :
    ∃ f', c'.farms.get? id = some f' ∧ c'.rps.getD (who, id) 0 = f'.dist.rps := by
  induction h with
  | nil => cases hid
  | @cons c c' id' ids u u1 f f1 fs m1 hu hf hs hc hrest ih =>
    simp only [List.nodup_cons] at hn
    have hI' := hI.claimStep hu hf hs hc
    by_cases he : id = id'
    · subst he
      obtain ⟨h1, h2⟩ := hrest.other hI' hn.1
      obtain ⟨g, added, n, hcl⟩ := claimFromFarm_ok hc
      refine ⟨f1, h1.trans (FMap.get?_insert_self _ _ _), (h2 who).trans ?_⟩
      show m1.getD _ 0 = _
      rw [hcl.rps, FMap.getD_insert, (hI.farms id f hf).id_eq, if_pos rfl, hcl.farm]
    · simp only [List.mem_cons, he, false_or] at hid
      exact ih hI' hn.2 hid

theorem claimFarms_ok {x : Ctx} {who : AccountId} {s : SeedId} {fs : FarmSeed} {c : Contract}
    {ids : List FarmId} {farms : FMap FarmId SimpleFarm} {m : RpsMap} {u u' : Farmer} (hI : Inv c)
    (hs : c.seeds.get? s = some fs) (hu : c.farmers.get? who = some u)
    (hids : ∀ id ∈ ids, ∃ f, c.farms.get? id = some f ∧ f.terms.seedId = s)
    (h : claimFarms x who fs.amount ids c.farms c.rps u = .ok (farms, m, u')) :
    Claims x who c ids { c with farms := farms, rps := m, farmers := c.farmers.insert who u' } := by
  induction ids generalizing c u with
  | nil =>
    cases h
    rw [FMap.insert_same hu]
    exact .nil c
  | cons id ids ih =>
    unfold claimFarms at h
    simp only [bind_ok, Prod.exists, expectE_ok] at h
    obtain ⟨f, hf, f1, m1, u1, hc, h⟩ := h
    obtain ⟨f', hf', hsd⟩ := hids id (by simp)
    rw [hf] at hf'
    cases hf'
    have hI' := hI.claimStep hu hf (by rw [hsd]; exact hs) hc
    refine .cons hu hf (by rw [hsd]; exact hs) hc ?_
    have := ih hI' (u := u1) hs (FMap.get?_insert_self _ _ _) ?_ h
    · simpa only [FMap.insert_insert] using this
    · intro id' hid'
      obtain ⟨f', hf', hsd'⟩ := hids id' (by simp [hid'])
      show ∃ f, (c.farms.insert id f1).get? id' = some f ∧ _
      rw [FMap.get?_insert]
      split
      · obtain ⟨g, added, n, hcl⟩ := claimFromFarm_ok hc
        exact ⟨f1, rfl, by rw [hcl.farm]; simp only [hcl.dist.terms]; exact hsd⟩
      · exact ⟨f', hf', hsd'⟩

theorem claimBySeed_ok {c c' : Contract} {x : Ctx} {who : AccountId} {s : SeedId} (hI : Inv c)
    (h : c.claimBySeed x who s = .ok c') :
    ∃ u, c.farmers.get? who = some u ∧
      ((c.seeds.get? s = none ∧ c' = c) ∨
        ∃ fs, c.seeds.get? s = some fs ∧ Claims x who c (x.order.f fs.farms) c') := by
  unfold Contract.claimBySeed Contract.farmer at h
  simp only [bind_ok, expectE_ok] at h
  obtain ⟨u, hu, h⟩ := h
  refine ⟨u, hu, ?_⟩
  split at h
  · rename_i hs
    cases h
    exact .inl ⟨hs, rfl⟩
  · rename_i fs hs
    simp only [bind_ok, Prod.exists, Except.ok.injEq] at h
    obtain ⟨farms, m, u1, hc, rfl⟩ := h
    refine .inr ⟨fs, hs, claimFarms_ok hI hs hu ?_ hc⟩
    intro id hid
    exact (hI.seeds s fs hs).farms id ((x.order.perm fs.farms).mem_iff.1 hid)

theorem claimByFarm_ok {c c' : Contract} {x : Ctx} {who : AccountId} {id : FarmId} (hI : Inv c)
    (h : c.claimByFarm x who id = .ok c') :
    ∃ u, c.farmers.get? who = some u ∧ (c' = c ∨
      ((∃ f, c.farms.get? id = some f) ∧ Claims x who c [id] c')) := by
  unfold Contract.claimByFarm Contract.farmer at h
  simp only [bind_ok, expectE_ok] at h
  obtain ⟨u, hu, s, hp, h⟩ := h
  refine ⟨u, hu, ?_⟩
  split at h
  · rename_i fs f hs hf
    simp only [bind_ok, Prod.exists, Except.ok.injEq] at h
    obtain ⟨f1, m, u1, hc, rfl⟩ := h
    right
    obtain ⟨fs', h1, _, i, h2, h3⟩ := (hI.farms id f hf).seed
    rw [h3] at hp
    have := parseFarmId_gen hp
    subst this
    exact ⟨⟨f, hf⟩, .cons hu hf hs hc (.nil _)⟩
  · cases h
    exact .inl rfl

/-! ### Stakes -/

/-- A live farm of a seed is listed there. -/
theorem Inv.listed {c : Contract} (hI : Inv c) {id : FarmId} {f : SimpleFarm} {fs : FarmSeed}
    (hf : c.farms.get? id = some f) (hs : c.seeds.get? f.terms.seedId = some fs) : id ∈ fs.farms := by
  obtain ⟨fs', h1, h2, _⟩ := (hI.farms id f hf).seed
  rw [hs] at h1
  cases h1
  exact h2

/-- Changing the stake of a farmer who is up to date with the farms of the seed. -/
theorem Inv.restake {c : Contract} (hI : Inv c) {who : AccountId} {u u' : Farmer} {s : SeedId}
    {fs : FarmSeed} {m : RpsMap} {total : Nat} {mft : Bool}
    (hu : c.farmers.get? who = some u) (hs : c.seeds.get? s = some fs)
    (hother : ∀ r, r ≠ s → u'.seeds.get? r = u.seeds.get? r)
    (hpos : ∀ n, u'.seeds.get? s = some n → 0 < n)
    (htot : total + u.stake s = fs.amount + u'.stake s)
    (hm1 : ∀ a id, a ≠ who ∨ id ∉ fs.farms → m.getD (a, id) 0 = c.rps.getD (a, id) 0)
    (hm2 : ∀ a id v, m.get? (a, id) = some v → ∃ w, c.rps.get? (a, id) = some w)
    (hcaught : ∀ id ∈ fs.farms, ∀ f, c.farms.get? id = some f → 0 < u'.stake s →
      m.getD (who, id) 0 = f.dist.rps) :
    Inv { c with
      farmers := c.farmers.insert who u'
      seeds := c.seeds.insert s { fs with mft := mft, amount := total }
      rps := m } := by
  have hst : ∀ r, r ≠ s → u'.stake r = u.stake r := by
    intro r hr
    unfold Farmer.stake FMap.getD
    rw [hother r hr]
  have hseeds : ∀ r fr, (c.seeds.insert s { fs with mft := mft, amount := total }).get? r = some fr →
      ∃ fr', c.seeds.get? r = some fr' ∧ fr.farms = fr'.farms ∧ fr.nextIndex = fr'.nextIndex ∧
        fr.id = fr'.id ∧ (r ≠ s → fr.amount = fr'.amount) ∧ (r = s → fr.amount = total) := by
    intro r fr hr
    rw [FMap.get?_insert] at hr
    split at hr
    · rename_i he
      cases hr
      exact ⟨fs, by rw [he]; exact hs, rfl, rfl, rfl, fun h => absurd he h, fun _ => rfl⟩
    · rename_i he
      exact ⟨fr, hr, rfl, rfl, rfl, fun _ => rfl, fun h => absurd h he⟩
  have hseeds' : ∀ r fr, c.seeds.get? r = some fr →
      ∃ fr', (c.seeds.insert s { fs with mft := mft, amount := total }).get? r = some fr' ∧
        fr'.farms = fr.farms ∧ fr'.nextIndex = fr.nextIndex := by
    intro r fr hr
    rw [FMap.get?_insert]
    split
    · rename_i he
      rw [he, hs] at hr
      cases hr
      exact ⟨_, rfl, rfl, rfl⟩
    · exact ⟨fr, hr, rfl, rfl⟩
  have hissued : ∀ id, c.Issued id → Contract.Issued { c with
      farmers := c.farmers.insert who u'
      seeds := c.seeds.insert s { fs with mft := mft, amount := total }
      rps := m } id := by
    rintro id ⟨r, fr, i, h1, h2, h3⟩
    obtain ⟨fr', h4, _, h5⟩ := hseeds' r fr h1
    exact ⟨r, fr', i, h4, by rw [h5]; exact h2, h3⟩
  constructor
  · intro r fr hr
    obtain ⟨fr', h1, h2, h3, h4, h5, h6⟩ := hseeds r fr hr
    have hg := hI.seeds r fr' h1
    refine ⟨h4.trans hg.id_eq, by rw [h2]; exact hg.nodup, by rw [h2]; exact hg.farms, ?_⟩
    have h7 := c.farmers.sum_insert (fun _ v => v.stake r) who u'
    rw [FMap.term_some _ hu] at h7
    show _ = (c.farmers.insert who u').sum (fun _ v => v.stake r)
    have h8 := hg.total
    unfold Contract.stakes at h8
    by_cases he : r = s
    · subst he
      rw [hs] at h1
      cases h1
      rw [h6 rfl]
      omega
    · rw [h5 he]
      rw [hst r he] at h7
      omega
  · intro id f hf
    have hl := hI.farms id f hf
    obtain ⟨fs', h1, h2, i, h3, h4⟩ := hl.seed
    obtain ⟨fr', h5, h6, h7⟩ := hseeds' _ _ h1
    refine ⟨hl.id_eq, ⟨fr', h5, by rw [h6]; exact h2, i, by rw [h7]; exact h3, h4⟩, hl.balanced, ?_, ?_⟩
    · intro a v hv hp
      simp only [FMap.get?_insert] at hv
      show m.getD (a, id) 0 ≤ _
      split at hv
      · rename_i ha
        cases hv
        by_cases he : f.terms.seedId = s
        · rw [he, hs] at h1
          cases h1
          rw [he] at hp
          rw [ha, hcaught id h2 f hf hp]
        · have hn : id ∉ fs.farms := by
            intro hin
            obtain ⟨f', hf', hsd⟩ := (hI.seeds s fs hs).farms id hin
            rw [hf] at hf'
            cases hf'
            exact he hsd
          rw [hm1 a id (.inr hn), ha]
          rw [hst _ he] at hp
          exact hl.behind who u hu hp
      · rename_i ha
        rw [hm1 a id (.inl ha)]
        exact hl.behind a v hv hp
    · refine Nat.le_trans ?_ hl.funded
      rw [c.claimable_eq id f who, FMap.term_some _ hu]
      unfold Contract.claimable
      simp only
      rw [FMap.sum_insert_erase]
      have h8 : (c.farmers.erase who).sum (fun a u =>
          u.stake f.terms.seedId * (f.dist.rps - m.getD (a, id) 0)) =
          (c.farmers.erase who).sum (fun a u =>
          u.stake f.terms.seedId * (f.dist.rps - c.rps.getD (a, id) 0)) := by
        apply FMap.sum_erase_congr
        intro a v ha _
        rw [hm1 a id (.inl ha)]
      rw [h8]
      apply Nat.add_le_add_left
      by_cases he : f.terms.seedId = s
      · rw [he, hs] at h1
        cases h1
        rw [he]
        rcases Nat.eq_zero_or_pos (u'.stake s) with h0 | h0
        · rw [h0]; simp
        · rw [hcaught id h2 f hf h0]; simp
      · have hn : id ∉ fs.farms := by
          intro hin
          obtain ⟨f', hf', hsd⟩ := (hI.seeds s fs hs).farms id hin
          rw [hf] at hf'
          cases hf'
          exact he hsd
        rw [hm1 who id (.inr hn), hst _ he]
  · intro id f hf
    obtain ⟨h1, h2, h3, h4, h5⟩ := hI.outdated id f hf
    exact ⟨h1, hissued id h2, h3, h4, h5⟩
  · intro a id v hv
    obtain ⟨w, hw⟩ := hm2 a id v hv
    exact hissued id (hI.rps a id w hw)
  · intro a v r k hv hk
    have hex : ∀ fr, c.seeds.get? r = some fr →
        ∃ fr', (c.seeds.insert s { fs with mft := mft, amount := total }).get? r = some fr' :=
      fun fr h => ⟨_, (hseeds' r fr h).choose_spec.1⟩
    simp only [FMap.get?_insert] at hv
    split at hv
    · cases hv
      by_cases hr : r = s
      · subst hr
        exact ⟨hpos k hk, hex fs hs⟩
      · rw [hother r hr] at hk
        obtain ⟨h1, fr, h2⟩ := hI.stakes who u r k hu hk
        exact ⟨h1, hex fr h2⟩
    · obtain ⟨h1, fr, h2⟩ := hI.stakes a v r k hv hk
      exact ⟨h1, hex fr h2⟩

/-- Changing a farmer but not its stakes, and the rates of farms that are not live. -/
theorem Inv.refarmer {c : Contract} (hI : Inv c) {who : AccountId} {u u' : Farmer} {m : RpsMap}
    (hu : c.farmers.get? who = some u) (hsd : u'.seeds = u.seeds)
    (hm1 : ∀ a id, (∃ f, c.farms.get? id = some f) → m.getD (a, id) 0 = c.rps.getD (a, id) 0)
    (hm2 : ∀ a id v, m.get? (a, id) = some v → ∃ w, c.rps.get? (a, id) = some w) :
    Inv { c with farmers := c.farmers.insert who u', rps := m } := by
  have hst : ∀ s, u'.stake s = u.stake s := stake_congr hsd
  constructor
  · intro s fs hs
    have hg := hI.seeds s fs hs
    exact ⟨hg.id_eq, hg.nodup, hg.farms, hg.total.trans
      (c.farmers.sum_insert_same _ who u u' hu (hst s)).symm⟩
  · intro id f hf
    have hl := hI.farms id f hf
    refine ⟨hl.id_eq, hl.seed, hl.balanced, ?_, ?_⟩
    · intro a v hv hp
      simp only [FMap.get?_insert] at hv
      show m.getD (a, id) 0 ≤ _
      rw [hm1 a id ⟨f, hf⟩]
      split at hv
      · rename_i ha
        cases hv
        rw [hst] at hp
        rw [ha]
        exact hl.behind who u hu hp
      · exact hl.behind a v hv hp
    · refine Nat.le_trans (Nat.le_of_eq ?_) hl.funded
      unfold Contract.claimable
      simp only [fun a => hm1 a id ⟨f, hf⟩]
      exact c.farmers.sum_insert_same _ who u u' hu (by rw [hst])
  · exact hI.outdated
  · intro a id v hv
    obtain ⟨w, hw⟩ := hm2 a id v hv
    exact hI.rps a id w hw
  · intro a v s k hv hk
    simp only [FMap.get?_insert] at hv
    split at hv
    · cases hv
      rw [hsd] at hk
      exact hI.stakes who u s k hu hk
    · exact hI.stakes a v s k hv hk

/-- A farmer without stakes registers. -/
theorem Inv.newFarmer {c : Contract} (hI : Inv c) {who : AccountId} {u : Farmer} {k : Nat}
    (hu : c.farmers.get? who = none) (hsd : u.seeds = FMap.empty) :
    Inv { c with farmers := c.farmers.insert who u, farmerCount := k } := by
  have hst : ∀ s, u.stake s = 0 := by
    intro s; unfold Farmer.stake; rw [hsd]; rfl
  have hsum : ∀ F : AccountId → Farmer → Nat, F who u = 0 →
      (c.farmers.insert who u).sum F = c.farmers.sum F := by
    intro F hF
    have := c.farmers.sum_insert F who u
    rw [FMap.term_none F hu, hF] at this
    omega
  constructor
  · intro s fs hs
    have hg := hI.seeds s fs hs
    exact ⟨hg.id_eq, hg.nodup, hg.farms, hg.total.trans (hsum _ (hst s)).symm⟩
  · intro id f hf
    have hl := hI.farms id f hf
    refine ⟨hl.id_eq, hl.seed, hl.balanced, ?_, ?_⟩
    · intro a v hv hp
      simp only [FMap.get?_insert] at hv
      split at hv
      · cases hv
        rw [hst] at hp
        omega
      · exact hl.behind a v hv hp
    · refine Nat.le_trans (Nat.le_of_eq ?_) hl.funded
      unfold Contract.claimable
      exact hsum _ (by rw [hst]; simp)
  · exact hI.outdated
  · exact hI.rps
  · intro a v s k hv hk
    simp only [FMap.get?_insert] at hv
    split at hv
    · cases hv
      rw [hsd] at hk
      cases hk
    · exact hI.stakes a v s k hv hk

theorem size_zero {K V : Type} {m : FMap K V} (h : m.size = 0) : m = FMap.empty := by
  obtain ⟨l, hl⟩ := m
  have : l = [] := List.eq_nil_of_length_eq_zero h
  subst this
  rfl

/-- A farmer without stakes leaves. -/
theorem Inv.eraseFarmer {c : Contract} (hI : Inv c) {who : AccountId} {u : Farmer} {k : Nat}
    (hu : c.farmers.get? who = some u) (hsd : u.seeds.size = 0) :
    Inv { c with farmers := c.farmers.erase who, farmerCount := k } := by
  have hst : ∀ s, u.stake s = 0 := by
    intro s; unfold Farmer.stake; rw [size_zero hsd]; rfl
  have hsum : ∀ F : AccountId → Farmer → Nat, F who u = 0 →
      (c.farmers.erase who).sum F = c.farmers.sum F := by
    intro F hF
    have := c.farmers.sum_erase F who
    rw [FMap.term_some F hu, hF] at this
    omega
  have hget : ∀ a v, (c.farmers.erase who).get? a = some v → c.farmers.get? a = some v := by
    intro a v hv
    rw [FMap.get?_erase] at hv
    split at hv
    · cases hv
    · exact hv
  constructor
  · intro s fs hs
    have hg := hI.seeds s fs hs
    exact ⟨hg.id_eq, hg.nodup, hg.farms, hg.total.trans (hsum _ (hst s)).symm⟩
  · intro id f hf
    have hl := hI.farms id f hf
    refine ⟨hl.id_eq, hl.seed, hl.balanced, fun a v hv => hl.behind a v (hget a v hv), ?_⟩
    refine Nat.le_trans (Nat.le_of_eq ?_) hl.funded
    unfold Contract.claimable
    exact hsum _ (by rw [hst]; simp)
  · exact hI.outdated
  · exact hI.rps
  · exact fun a v s k hv => hI.stakes a v s k (hget a v hv)

end Verif.Farming

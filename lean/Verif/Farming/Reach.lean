import Verif.Farming.Steps
import Verif.Farming.CallLemmas

/-
The invariant holds in every reachable state.
-/

namespace Verif.Farming

theorem Farmer.addSeed_ok {u u' : Farmer} {s : SeedId} {n : Nat} (h : u.addSeed s n = .ok u') :
    u'.rewards = u.rewards ∧ u'.near = u.near ∧ u'.rpsCount = u.rpsCount ∧
    (∀ r, r ≠ s → u'.seeds.get? r = u.seeds.get? r) ∧ u'.stake s = u.stake s + n ∧
    ((∀ k, u.seeds.get? s = some k → 0 < k) → ∀ k, u'.seeds.get? s = some k → 0 < k) := by
  unfold addSeed at h
  split at h
  · unpack at h
    obtain ⟨_, rfl⟩ := h
    refine ⟨rfl, rfl, rfl, fun r hr => FMap.get?_insert_ne _ _ hr, ?_, ?_⟩
    · show FMap.getD _ s 0 = _
      simp only [FMap.getD_insert, if_true]
      omega
    · intro _ k hk
      simp only [FMap.get?_insert_self, Option.some.injEq] at hk
      omega
  · cases h
    exact ⟨rfl, rfl, rfl, fun _ _ => rfl, by omega, fun h => h⟩

theorem Farmer.subSeed_ok {u u' : Farmer} {s : SeedId} {n remain : Nat}
    (h : u.subSeed s n = .ok (u', remain)) :
    u'.rewards = u.rewards ∧ u'.near = u.near ∧ u'.rpsCount = u.rpsCount ∧
    (∀ r, r ≠ s → u'.seeds.get? r = u.seeds.get? r) ∧ u'.stake s = remain ∧
    remain + n = u.stake s ∧ (∀ k, u'.seeds.get? s = some k → 0 < k) ∧
    u.seeds.get? s = some (u.stake s) := by
  unfold subSeed at h
  unpack at h
  obtain ⟨v, hv, hn, h⟩ := h
  have hst : u.stake s = v := by unfold stake FMap.getD; rw [hv]; rfl
  split at h
  · rename_i hp
    cases h
    refine ⟨rfl, rfl, rfl, fun r hr => FMap.get?_insert_ne _ _ hr, ?_, by omega, ?_, by rw [hst]; exact hv⟩
    · show FMap.getD _ s 0 = _
      simp only [FMap.getD_insert, if_true]
    · intro k hk
      simp only [FMap.get?_insert_self, Option.some.injEq] at hk
      omega
  · rename_i hp
    cases h
    refine ⟨rfl, rfl, rfl, fun r hr => FMap.get?_erase_ne _ hr, ?_, by omega, ?_, by rw [hst]; exact hv⟩
    · show FMap.getD _ s 0 = _
      simp only [FMap.getD_erase, if_true]
      omega
    · intro k hk
      simp only [FMap.get?_erase_self] at hk
      cases hk

theorem Farmer.subReward_ok {u u' : Farmer} {t : AccountId} {n k : Nat}
    (h : u.subReward t n = .ok (u', k)) :
    u'.seeds = u.seeds ∧ u'.near = u.near ∧ u'.rpsCount = u.rpsCount ∧
    (k = if n = 0 then u.rewards.getD t 0 else n) ∧
    (∃ v, u.rewards.get? t = some v) ∧
    (∀ r, r ≠ t → u'.rewards.get? r = u.rewards.get? r) ∧
    u'.rewards.getD t 0 + k = u.rewards.getD t 0 := by
  unfold subReward at h
  unpack at h
  obtain ⟨v, hv, hn, h⟩ := h
  have hst : u.rewards.getD t 0 = v := by unfold FMap.getD; rw [hv]; rfl
  split at h
  · rename_i h0
    cases h
    refine ⟨rfl, rfl, rfl, by rw [if_pos h0, hst], ⟨_, hv⟩, fun r hr => FMap.get?_erase_ne _ hr, ?_⟩
    simp only [FMap.getD_erase, if_true]
    omega
  · rename_i h0
    cases h
    refine ⟨rfl, rfl, rfl, by rw [if_neg h0], ⟨v, hv⟩, fun r hr => FMap.get?_insert_ne _ _ hr, ?_⟩
    simp only [FMap.getD_insert, if_true]
    omega

theorem removeRps_ok {m m' : RpsMap} {u u' : Farmer} {who : AccountId} {id : FarmId}
    (h : removeRps m u who id = .ok (m', u')) :
    u'.seeds = u.seeds ∧ u'.rewards = u.rewards ∧ u'.near = u.near ∧
    (m' = m.erase (who, id)) := by
  unfold removeRps at h
  split at h
  · unpack at h
    obtain ⟨_, rfl, rfl⟩ := h
    exact ⟨rfl, rfl, rfl, rfl⟩
  · rename_i hc
    cases h
    refine ⟨rfl, rfl, rfl, ?_⟩
    have : m.get? (who, id) = none := by
      unfold FMap.contains at hc
      cases hg : m.get? (who, id) with
      | none => rfl
      | some v => rw [hg] at hc; simp at hc
    exact (FMap.erase_none this).symm

theorem removeAllRps_ok {who : AccountId} {ids : List FarmId} {m m' : RpsMap} {u u' : Farmer}
    (h : removeAllRps who ids m u = .ok (m', u')) :
    u'.seeds = u.seeds ∧ u'.rewards = u.rewards ∧ u'.near = u.near ∧
    ∀ a id, m'.get? (a, id) = if a = who ∧ id ∈ ids then none else m.get? (a, id) := by
  induction ids generalizing m u with
  | nil => cases h; exact ⟨rfl, rfl, rfl, by simp⟩
  | cons i ids ih =>
    unfold removeAllRps at h
    simp only [bind_ok, Prod.exists] at h
    obtain ⟨m1, u1, h1, h⟩ := h
    obtain ⟨h2, h3, h4, rfl⟩ := removeRps_ok h1
    obtain ⟨h5, h6, h7, h8⟩ := ih h
    refine ⟨h5.trans h2, h6.trans h3, h7.trans h4, ?_⟩
    intro a id
    rw [h8]
    by_cases h9 : a = who ∧ id ∈ ids
    · rw [if_pos h9, if_pos ⟨h9.1, by simp [h9.2]⟩]
    · rw [if_neg h9, FMap.get?_erase]
      by_cases h10 : a = who ∧ id = i
      · rw [if_pos (by rw [h10.1, h10.2]), if_pos ⟨h10.1, by simp [h10.2]⟩]
      · rw [if_neg (by intro h; exact h10 (Prod.mk.inj h)), if_neg]
        rintro ⟨h11, h12⟩
        simp only [List.mem_cons] at h12
        rcases h12 with h12 | h12
        · exact h10 ⟨h11, h12⟩
        · exact h9 ⟨h11, h12⟩

/-! ### Deposits and withdrawals of stakes -/

/-- What a deposit does. -/
theorem seedDeposit_ok {c c' : Contract} {x : Ctx} {who : AccountId} {s : SeedId} {n : Nat}
    {mft : Bool} (hI : Inv c) (h : c.seedDeposit x who s n mft = .ok c') :
    ∃ fs c1 u u', c.seeds.get? s = some fs ∧ Claims x who c (x.order.f fs.farms) c1 ∧
      c1.farmers.get? who = some u ∧ u.addSeed s n = .ok u' ∧ fs.amount + n < 2 ^ 128 ∧
      c' = { c1 with
        seeds := c1.seeds.insert s { fs with mft := mft, amount := fs.amount + n }
        farmers := c1.farmers.insert who u' } := by
  unfold Contract.seedDeposit at h
  rw [bind_ok] at h
  obtain ⟨c1, h1, h⟩ := h
  unfold Contract.addStake Contract.seed Contract.farmer at h
  unpack at h
  obtain ⟨fs, hs, hlt, u, hu, u', hu', rfl⟩ := h
  obtain ⟨_, _, ⟨h2, rfl⟩ | ⟨fs', h2, h3⟩⟩ := claimBySeed_ok hI h1
  · rw [hs] at h2; cases h2
  · rw [h3.same.seeds, h2] at hs
    cases hs
    exact ⟨fs, c1, u, u', h2, h3, hu, hu', hlt, rfl⟩

theorem Inv.seedDeposit {c c' : Contract} {x : Ctx} {who : AccountId} {s : SeedId} {n : Nat}
    {mft : Bool} (hI : Inv c) (h : c.seedDeposit x who s n mft = .ok c') : Inv c' := by
  obtain ⟨fs, c1, u, u', hs, hc, hu, hu', hlt, rfl⟩ := seedDeposit_ok hI h
  have hI1 := hc.inv hI
  have hs1 : c1.seeds.get? s = some fs := by rw [hc.same.seeds]; exact hs
  obtain ⟨_, _, _, h1, h2, h3⟩ := Farmer.addSeed_ok hu'
  refine hI1.restake (u := u) (m := c1.rps) hu hs1 h1
    (h3 fun k hk => (hI1.stakes who u s k hu hk).1) (by omega) (fun _ _ _ => rfl)
    (fun _ _ v hv => ⟨v, hv⟩) ?_
  intro id hid f hf _
  obtain ⟨f', hf', hr⟩ := hc.caught hI
    ((x.order.perm fs.farms).nodup_iff.2 (hI.seeds s fs hs).nodup)
    ((x.order.perm fs.farms).mem_iff.2 hid)
  rw [hf] at hf'
  cases hf'
  exact hr

/-- What a withdrawal does. -/
theorem seedWithdraw_ok {c c' : Contract} {x : Ctx} {who : AccountId} {s : SeedId} {n : Nat}
    {mft : Bool} (hI : Inv c) (h : c.seedWithdraw x who s n = .ok (c', mft)) :
    ∃ fs c1 u u1 u' remain m, c.seeds.get? s = some fs ∧ Claims x who c (x.order.f fs.farms) c1 ∧
      c1.farmers.get? who = some u ∧ u.subSeed s n = .ok (u1, remain) ∧ n ≤ fs.amount ∧
      mft = fs.mft ∧
      removeAllRps who (if remain = 0 then x.order.f fs.farms else []) c1.rps u1 = .ok (m, u') ∧
      c' = { c1 with
        farmers := c1.farmers.insert who u'
        seeds := c1.seeds.insert s { fs with amount := fs.amount - n }
        rps := m } := by
  unfold Contract.seedWithdraw at h
  rw [bind_ok] at h
  obtain ⟨c1, h1, h⟩ := h
  unfold Contract.seed Contract.farmer at h
  unpack at h
  obtain ⟨fs, hs, u, hu, u1, remain, hu1, hle, m, u', hm, rfl, rfl⟩ := h
  obtain ⟨_, _, ⟨h2, rfl⟩ | ⟨fs', h2, h3⟩⟩ := claimBySeed_ok hI h1
  · rw [hs] at h2; cases h2
  · rw [h3.same.seeds, h2] at hs
    cases hs
    exact ⟨fs, c1, u, u1, u', remain, m, h2, h3, hu, hu1, hle, rfl, hm, rfl⟩

theorem Inv.seedWithdraw {c c' : Contract} {x : Ctx} {who : AccountId} {s : SeedId} {n : Nat}
    {mft : Bool} (hI : Inv c) (h : c.seedWithdraw x who s n = .ok (c', mft)) : Inv c' := by
  obtain ⟨fs, c1, u, u1, u', remain, m, hs, hc, hu, hu1, hle, rfl, hm, rfl⟩ := seedWithdraw_ok hI h
  have hI1 := hc.inv hI
  have hs1 : c1.seeds.get? s = some fs := by rw [hc.same.seeds]; exact hs
  obtain ⟨_, _, _, h1, h2, h3, h4, _⟩ := Farmer.subSeed_ok hu1
  obtain ⟨h5, _, _, h6⟩ := removeAllRps_ok hm
  have hst : u'.stake s = remain := (stake_congr h5 s).trans h2
  have hin : ∀ id, id ∈ (if remain = 0 then x.order.f fs.farms else []) →
      remain = 0 ∧ id ∈ fs.farms := by
    intro id hid
    split at hid
    · exact ⟨‹_›, (x.order.perm fs.farms).mem_iff.1 hid⟩
    · cases hid
  refine hI1.restake (u := u) (mft := fs.mft) hu hs1 (by rw [h5]; exact h1) (by rw [h5]; exact h4)
    (by omega) ?_ ?_ ?_
  · intro a id hid
    unfold FMap.getD
    rw [h6, if_neg]
    rintro ⟨ha, hmem⟩
    rcases hid with h | h
    · exact h ha
    · exact h (hin id hmem).2
  · intro a id v hv
    rw [h6] at hv
    by_cases hc : a = who ∧ id ∈ (if remain = 0 then x.order.f fs.farms else [])
    · rw [if_pos hc] at hv; cases hv
    · rw [if_neg hc] at hv; exact ⟨v, hv⟩
  · intro id hid f hf hp
    obtain ⟨f', hf', hr⟩ := hc.caught hI
      ((x.order.perm fs.farms).nodup_iff.2 (hI.seeds s fs hs).nodup)
      ((x.order.perm fs.farms).mem_iff.2 hid)
    rw [hf] at hf'
    cases hf'
    rw [← hr]
    unfold FMap.getD
    rw [h6, if_neg]
    rintro ⟨_, hmem⟩
    have := (hin id hmem).1
    omega

theorem Inv.claimBySeed {c c' : Contract} {x : Ctx} {who : AccountId} {s : SeedId} (hI : Inv c)
    (h : c.claimBySeed x who s = .ok c') : Inv c' := by
  obtain ⟨_, _, ⟨_, rfl⟩ | ⟨_, _, h1⟩⟩ := claimBySeed_ok hI h
  · exact hI
  · exact h1.inv hI

theorem Inv.claimByFarm {c c' : Contract} {x : Ctx} {who : AccountId} {id : FarmId} (hI : Inv c)
    (h : c.claimByFarm x who id = .ok c') : Inv c' := by
  obtain ⟨_, _, rfl | ⟨_, h1⟩⟩ := claimByFarm_ok hI h
  · exact hI
  · exact h1.inv hI

/-! ### Farms -/

/-- A farm that has released nothing yet, or whose released and claimed amounts did not change,
replaces a live farm. -/
theorem Inv.refarm {c : Contract} (hI : Inv c) {id : FarmId} {f g : SimpleFarm} {now n : Nat}
    {info : FMap AccountId Nat} (hf : c.farms.get? id = some f) (hg : f.Funded now n g) :
    Inv { c with farms := c.farms.insert id g, rewardInfo := info } := by
  constructor
  · intro s fs hs
    have h := hI.seeds s fs hs
    refine ⟨h.id_eq, h.nodup, ?_, h.total⟩
    intro id' hid'
    obtain ⟨f', hf', hsd⟩ := h.farms id' hid'
    show ∃ f, (c.farms.insert id g).get? id' = some f ∧ _
    rw [FMap.get?_insert]
    split
    · rename_i he
      rw [he, hf] at hf'
      cases hf'
      exact ⟨g, rfl, hg.seed.trans hsd⟩
    · exact ⟨f', hf', hsd⟩
  · intro id' f' hf'
    simp only [FMap.get?_insert] at hf'
    split at hf'
    · rename_i he
      subst he
      cases hf'
      have hl := hI.farms id' f hf
      refine ⟨hg.id.trans hl.id_eq, by rw [hg.seed]; exact hl.seed, ?_, ?_, ?_⟩
      · have h1 := hl.balanced.total
        have h2 := hl.balanced.beneficiary
        have := hg.reward
        have := hg.undistributed
        have := hg.unclaimed
        have := hg.claimed
        have := hg.beneficiary
        constructor <;> omega
      · rw [hg.seed, hg.rps]; exact hl.behind
      · have h3 := hl.funded
        rw [hg.unclaimed]
        unfold Contract.claimable at h3 ⊢
        rw [hg.seed, hg.rps]
        exact h3
    · have hl := hI.farms id' f' hf'
      exact ⟨hl.id_eq, hl.seed, hl.balanced, hl.behind, hl.funded⟩
  · intro id' f' hf'
    obtain ⟨h1, h2, h3, h4, h5⟩ := hI.outdated id' f' hf'
    refine ⟨h1, h2, h3, h4, ?_⟩
    show (c.farms.insert id g).get? id' = none
    rw [FMap.get?_insert, if_neg (by rintro rfl; rw [hf] at h5; cases h5)]
    exact h5
  · exact hI.rps
  · exact hI.stakes

/-- What removing a farm does. -/
theorem removeFarm_ok {c c' : Contract} {x : Ctx} {id : FarmId} (hI : Inv c)
    (h : c.removeFarm x id = .ok c') :
    c' = c ∨ ∃ f fs g, c.farms.get? id = some f ∧ c.seeds.get? f.terms.seedId = some fs ∧
      f.canBeRemoved x.now fs.amount = .ok true ∧ f.moveToClear x.now fs.amount = .ok g ∧
      c' = { c with
        farms := c.farms.erase id
        outdated := c.outdated.insert id g
        seeds := c.seeds.insert f.terms.seedId { fs with farms := fs.farms.filter (· ≠ id) } } := by
  unfold Contract.removeFarm at h
  rw [bind_ok] at h
  obtain ⟨s, hp, h⟩ := h
  split at h
  · rename_i fs f hs hf
    rw [bind_ok] at h
    obtain ⟨b, hb, h⟩ := h
    cases b with
    | false => left; cases h; rfl
    | true =>
      right
      simp only [if_true] at h
      rw [bind_ok] at h
      obtain ⟨g, hg, h⟩ := h
      cases h
      obtain ⟨fs', h1, _, i, h2, h3⟩ := (hI.farms id f hf).seed
      rw [h3] at hp
      have := parseFarmId_gen hp
      subst this
      exact ⟨f, fs, g, hf, hs, hb, hg, rfl⟩
  · left; cases h; rfl

theorem Inv.removeFarm {c c' : Contract} {x : Ctx} {id : FarmId} (hI : Inv c)
    (h : c.removeFarm x id = .ok c') : Inv c' := by
  obtain rfl | ⟨f, fs, g, hf, hs, hb, hg, rfl⟩ := removeFarm_ok hI h
  · exact hI
  have hl := hI.farms id f hf
  obtain ⟨f1, added, hd, hend, hgeq⟩ := SimpleFarm.moveToClear_ok hb hg
  have hissued : ∀ i, c.Issued i → Contract.Issued { c with
      farms := c.farms.erase id
      outdated := c.outdated.insert id g
      seeds := c.seeds.insert f.terms.seedId { fs with farms := fs.farms.filter (· ≠ id) } } i := by
    rintro i ⟨s, fs', k, h1, h2, h3⟩
    by_cases he : s = f.terms.seedId
    · rw [he, hs] at h1
      cases h1
      subst he
      exact ⟨_, _, k, FMap.get?_insert_self c.seeds _ _, h2, h3⟩
    · exact ⟨s, fs', k, (FMap.get?_insert_ne _ _ he).trans h1, h2, h3⟩
  have hid : c.Issued id := by
    obtain ⟨fs', h1, _, i, h2, h3⟩ := hl.seed
    exact ⟨_, fs', i, h1, h2, h3⟩
  constructor
  · intro s fs' hs'
    simp only [FMap.get?_insert] at hs'
    split at hs'
    · rename_i he
      cases hs'
      have h := hI.seeds _ fs hs
      refine ⟨h.id_eq.trans he.symm, h.nodup.filter _, ?_, by rw [he]; exact h.total⟩
      intro i hi
      simp only [List.mem_filter, decide_eq_true_eq] at hi
      obtain ⟨f', hf', hsd⟩ := h.farms i hi.1
      exact ⟨f', (FMap.get?_erase_ne _ hi.2).trans hf', hsd.trans he.symm⟩
    · rename_i he
      have h := hI.seeds s fs' hs'
      refine ⟨h.id_eq, h.nodup, ?_, h.total⟩
      intro i hi
      obtain ⟨f', hf', hsd⟩ := h.farms i hi
      refine ⟨f', (FMap.get?_erase_ne _ ?_).trans hf', hsd⟩
      rintro rfl
      rw [hf] at hf'
      cases hf'
      exact he hsd.symm
  · intro i f' hf'
    simp only [FMap.get?_erase] at hf'
    split at hf'
    · cases hf'
    · rename_i hne
      have hl' := hI.farms i f' hf'
      refine ⟨hl'.id_eq, ?_, hl'.balanced, hl'.behind, hl'.funded⟩
      obtain ⟨fs', h1, h2, k, h3, h4⟩ := hl'.seed
      show ∃ fs'', (c.seeds.insert f.terms.seedId
        { fs with farms := fs.farms.filter (· ≠ id) }).get? f'.terms.seedId = some fs'' ∧ _
      rw [FMap.get?_insert]
      split
      · rename_i he
        rw [he, hs] at h1
        cases h1
        exact ⟨_, rfl, by simp [h2, hne], k, h3, h4⟩
      · exact ⟨fs', h1, h2, k, h3, h4⟩
  · intro i f' hf'
    simp only [FMap.get?_insert] at hf'
    split at hf'
    · rename_i he
      subst he
      cases hf'
      have h1 := (hd.balanced hl.balanced).total
      have h2 := (hd.balanced hl.balanced).beneficiary
      refine ⟨?_, hissued i hid, ?_, ?_, FMap.get?_erase_self _ _⟩
      · rw [hgeq]; exact hd.id.trans hl.id_eq
      · rw [hgeq]
        constructor
        · simp only; omega
        · simp only; omega
      · rw [hgeq]
    · rename_i hne
      obtain ⟨h1, h2, h3, h4, h5⟩ := hI.outdated i f' hf'
      exact ⟨h1, hissued i h2, h3, h4, (FMap.get?_erase_ne _ hne).trans h5⟩
  · intro a i v hv
    exact hissued i (hI.rps a i v hv)
  · intro a v s k hv hk
    obtain ⟨h1, fs', h2⟩ := hI.stakes a v s k hv hk
    refine ⟨h1, ?_⟩
    show ∃ fs'', (c.seeds.insert f.terms.seedId
      { fs with farms := fs.farms.filter (· ≠ id) }).get? s = some fs''
    rw [FMap.get?_insert]
    split
    · exact ⟨_, rfl⟩
    · exact ⟨fs', h2⟩

/-- What adding a farm does. -/
theorem addFarm_ok {c c' : Contract} {t : Terms} {d : Nat} (h : c.addFarm t d = .ok c') :
    ∃ fs, (c.seeds.get? t.seedId = some fs ∨
        (c.seeds.get? t.seedId = none ∧ FarmSeed.new t.seedId d = .ok fs)) ∧
      fs.nextIndex + 1 < 2 ^ 32 ∧
      c' = { c with
        seeds := c.seeds.insert t.seedId { fs with
          farms := if genFarmId t.seedId fs.nextIndex ∈ fs.farms then fs.farms
            else fs.farms ++ [genFarmId t.seedId fs.nextIndex]
          nextIndex := fs.nextIndex + 1 }
        farms := c.farms.insert (genFarmId t.seedId fs.nextIndex)
          (SimpleFarm.new (genFarmId t.seedId fs.nextIndex) t) } := by
  unfold Contract.addFarm at h
  rw [bind_ok] at h
  obtain ⟨fs, hfs, h⟩ := h
  unpack at h
  obtain ⟨hk, rfl⟩ := h
  refine ⟨fs, ?_, hk, rfl⟩
  split at hfs
  · rename_i hs
    cases hfs
    exact .inl hs
  · rename_i hs
    exact .inr ⟨hs, hfs⟩

theorem FarmSeed.new_ok {s : SeedId} {d : Nat} {fs : FarmSeed} (h : FarmSeed.new s d = .ok fs) :
    fs.id = s ∧ fs.farms = [] ∧ fs.nextIndex = 0 ∧ fs.amount = 0 ∧ fs.minDeposit = d ∧
    ∃ a b, parseSeedId s = .ok (a, b) ∧ fs.mft = decide (a ≠ b) := by
  unfold FarmSeed.new at h
  simp only [bind_ok, Prod.exists, Except.ok.injEq] at h
  obtain ⟨a, b, h1, rfl⟩ := h
  exact ⟨rfl, rfl, rfl, rfl, rfl, a, b, h1, rfl⟩

/-- A seed that is not listed has no stakes. -/
theorem Inv.no_stake {c : Contract} (hI : Inv c) {s : SeedId} (hs : c.seeds.get? s = none) :
    c.stakes s = 0 := by
  unfold Contract.stakes
  rw [c.farmers.sum_congr _ (fun _ _ => 0 * 0)]
  · rw [FMap.sum_mul]; rfl
  · intro a u hu
    unfold Farmer.stake FMap.getD
    cases hk : u.seeds.get? s with
    | none => rfl
    | some n =>
      obtain ⟨_, fs, h⟩ := hI.stakes a u s n hu hk
      rw [hs] at h
      cases h

theorem Inv.addFarm {c c' : Contract} {t : Terms} {d : Nat} (hI : Inv c)
    (h : c.addFarm t d = .ok c') : Inv c' := by
  obtain ⟨fs, hfs, hk, rfl⟩ := addFarm_ok h
  have hgood : GoodSeed c t.seedId fs := by
    rcases hfs with hs | ⟨hs, hnew⟩
    · exact hI.seeds _ _ hs
    · obtain ⟨h1, h2, h3, h4, _⟩ := FarmSeed.new_ok hnew
      exact ⟨h1, by rw [h2]; exact .nil, by rw [h2]; simp, by rw [h4, hI.no_stake hs]⟩
  have hnot : ¬ c.Issued (genFarmId t.seedId fs.nextIndex) := by
    rintro ⟨s, fs', i, h1, h2, h3⟩
    obtain ⟨h4, h5⟩ := genFarmId_inj h3
    subst h4
    subst h5
    rcases hfs with hs | ⟨hs, hnew⟩
    · rw [hs] at h1
      cases h1
      omega
    · rw [hs] at h1
      cases h1
  have hnofarm : c.farms.get? (genFarmId t.seedId fs.nextIndex) = none := by
    cases hf : c.farms.get? (genFarmId t.seedId fs.nextIndex) with
    | none => rfl
    | some f =>
      obtain ⟨fs', h1, _, i, h2, h3⟩ := (hI.farms _ f hf).seed
      exact absurd ⟨_, fs', i, h1, h2, h3⟩ hnot
  have hnotin : genFarmId t.seedId fs.nextIndex ∉ fs.farms := by
    intro hin
    obtain ⟨f, hf, _⟩ := hgood.farms _ hin
    rw [hnofarm] at hf
    cases hf
  have hnorps : ∀ a, c.rps.getD (a, genFarmId t.seedId fs.nextIndex) 0 = 0 := by
    intro a
    unfold FMap.getD
    cases hr : c.rps.get? (a, genFarmId t.seedId fs.nextIndex) with
    | none => rfl
    | some v => exact absurd (hI.rps a _ v hr) hnot
  rw [if_neg hnotin]
  generalize hid : genFarmId t.seedId fs.nextIndex = id at *
  have hseed' : ∀ s fs', c.seeds.get? s = some fs' →
      ∃ fs'', (c.seeds.insert t.seedId { fs with
        farms := fs.farms ++ [id], nextIndex := fs.nextIndex + 1 }).get? s = some fs'' ∧
        (∀ i ∈ fs'.farms, i ∈ fs''.farms) ∧ fs'.nextIndex ≤ fs''.nextIndex := by
    intro s fs' hs'
    rw [FMap.get?_insert]
    split
    · rename_i he
      rcases hfs with hs | ⟨hs, _⟩
      · rw [he, hs] at hs'
        cases hs'
        exact ⟨_, rfl, fun i hi => by simp [hi], Nat.le_succ _⟩
      · rw [he, hs] at hs'
        cases hs'
    · exact ⟨fs', hs', fun _ h => h, Nat.le_refl _⟩
  have hissued : ∀ i, c.Issued i → Contract.Issued { c with
      seeds := c.seeds.insert t.seedId { fs with
        farms := fs.farms ++ [id], nextIndex := fs.nextIndex + 1 }
      farms := c.farms.insert id (SimpleFarm.new id t) } i := by
    rintro i ⟨s, fs', k, h1, h2, h3⟩
    obtain ⟨fs'', h4, _, h5⟩ := hseed' s fs' h1
    exact ⟨s, fs'', k, h4, by omega, h3⟩
  constructor
  · intro s fs' hs'
    simp only [FMap.get?_insert] at hs'
    split at hs'
    · rename_i he
      cases hs'
      refine ⟨hgood.id_eq.trans he.symm, ?_, ?_, by rw [he]; exact hgood.total⟩
      · simp only [List.nodup_append, List.nodup_cons, List.not_mem_nil, not_false_eq_true,
          List.nodup_nil, true_and, and_true, List.mem_singleton]
        refine ⟨hgood.nodup, ?_⟩
        rintro a ha b rfl rfl
        exact hnotin ha
      · intro i hi
        simp only [List.mem_append, List.mem_singleton] at hi
        show ∃ f, (c.farms.insert id _).get? i = some f ∧ _
        rcases hi with hi | rfl
        · obtain ⟨f, hf, hsd⟩ := hgood.farms i hi
          exact ⟨f, (FMap.get?_insert_ne _ _ (by rintro rfl; exact hnotin hi)).trans hf,
            hsd.trans he.symm⟩
        · exact ⟨_, FMap.get?_insert_self _ _ _, he.symm⟩
    · have h := hI.seeds s fs' hs'
      refine ⟨h.id_eq, h.nodup, ?_, h.total⟩
      intro i hi
      obtain ⟨f, hf, hsd⟩ := h.farms i hi
      exact ⟨f, (FMap.get?_insert_ne _ _
        (by rintro rfl; rw [hnofarm] at hf; cases hf)).trans hf, hsd⟩
  · intro i f hf
    simp only [FMap.get?_insert] at hf
    split at hf
    · rename_i he
      subst he
      cases hf
      refine ⟨rfl, ⟨_, FMap.get?_insert_self _ _ _, by simp, fs.nextIndex, Nat.lt_succ_self _,
        hid.symm⟩, ⟨rfl, Nat.le_refl _⟩, ?_, ?_⟩
      · intro a u hu _
        show c.rps.getD (a, i) 0 ≤ _
        rw [hnorps]
        exact Nat.zero_le _
      · refine Nat.le_trans (Nat.le_of_eq ?_) (Nat.zero_le _)
        unfold Contract.claimable
        show c.farmers.sum (fun a u => u.stake t.seedId * (0 - c.rps.getD (a, i) 0)) = 0
        rw [c.farmers.sum_congr _ (fun _ _ => 0 * 0)]
        · rw [FMap.sum_mul]; rfl
        · intro a u _; simp
    · have hl := hI.farms i f hf
      obtain ⟨fs', h1, h2, k, h3, h4⟩ := hl.seed
      obtain ⟨fs'', h5, h6, h7⟩ := hseed' _ _ h1
      exact ⟨hl.id_eq, ⟨fs'', h5, h6 i h2, k, by omega, h4⟩, hl.balanced, hl.behind, hl.funded⟩
  · intro i f hf
    obtain ⟨h1, h2, h3, h4, h5⟩ := hI.outdated i f hf
    refine ⟨h1, hissued i h2, h3, h4, (FMap.get?_insert_ne _ _ ?_).trans h5⟩
    rintro rfl
    exact hnot h2
  · intro a i v hv
    exact hissued i (hI.rps a i v hv)
  · intro a v s k hv hk
    obtain ⟨h1, fs', h2⟩ := hI.stakes a v s k hv hk
    obtain ⟨fs'', h3, _⟩ := hseed' s fs' h2
    exact ⟨h1, fs'', h3⟩

theorem Inv.modifyMinDeposit {c : Contract} (hI : Inv c) {s : SeedId} {fs : FarmSeed} {n : Nat}
    (hs : c.seeds.get? s = some fs) :
    Inv { c with seeds := c.seeds.insert s { fs with minDeposit := n } } := by
  have hseed' : ∀ r fr, c.seeds.get? r = some fr →
      ∃ fr', (c.seeds.insert s { fs with minDeposit := n }).get? r = some fr' ∧
        fr'.farms = fr.farms ∧ fr'.nextIndex = fr.nextIndex := by
    intro r fr hr
    rw [FMap.get?_insert]
    split
    · rename_i he
      rw [he, hs] at hr
      cases hr
      exact ⟨_, rfl, rfl, rfl⟩
    · exact ⟨fr, hr, rfl, rfl⟩
  have hissued : ∀ i, c.Issued i →
      Contract.Issued { c with seeds := c.seeds.insert s { fs with minDeposit := n } } i := by
    rintro i ⟨r, fr, k, h1, h2, h3⟩
    obtain ⟨fr', h4, _, h5⟩ := hseed' r fr h1
    exact ⟨r, fr', k, h4, by rw [h5]; exact h2, h3⟩
  constructor
  · intro r fr hr
    simp only [FMap.get?_insert] at hr
    split at hr
    · rename_i he
      cases hr
      have h := hI.seeds s fs hs
      rw [he]
      exact ⟨h.id_eq, h.nodup, h.farms, h.total⟩
    · have h := hI.seeds r fr hr
      exact ⟨h.id_eq, h.nodup, h.farms, h.total⟩
  · intro i f hf
    have hl := hI.farms i f hf
    obtain ⟨fs', h1, h2, k, h3, h4⟩ := hl.seed
    obtain ⟨fs'', h5, h6, h7⟩ := hseed' _ _ h1
    exact ⟨hl.id_eq, ⟨fs'', h5, by rw [h6]; exact h2, k, by rw [h7]; exact h3, h4⟩, hl.balanced,
      hl.behind, hl.funded⟩
  · intro i f hf
    obtain ⟨h1, h2, h3, h4, h5⟩ := hI.outdated i f hf
    exact ⟨h1, hissued i h2, h3, h4, h5⟩
  · intro a i v hv
    exact hissued i (hI.rps a i v hv)
  · intro a v r k hv hk
    obtain ⟨h1, fs', h2⟩ := hI.stakes a v r k hv hk
    obtain ⟨fs'', h3, _⟩ := hseed' r fs' h2
    exact ⟨h1, fs'', h3⟩

/-- Changes of the fields the invariant does not speak of. -/
theorem Inv.fields {c : Contract} (hI : Inv c) (owner : AccountId) (running : Bool) :
    Inv { c with owner := owner, running := running } := by
  constructor
  · intro s fs hs
    have h := hI.seeds s fs hs
    exact ⟨h.id_eq, h.nodup, h.farms, h.total⟩
  · intro i f hf
    have h := hI.farms i f hf
    exact ⟨h.id_eq, h.seed, h.balanced, h.behind, h.funded⟩
  · exact hI.outdated
  · exact hI.rps
  · exact hI.stakes

theorem Inv.register {c c' : Contract} {a : AccountId} {n : Nat} (hI : Inv c)
    (h : c.register a n = .ok c') : Inv c' := by
  unfold Contract.register at h
  split at h
  · rename_i u hu
    unpack at h
    obtain ⟨_, rfl⟩ := h
    exact hI.refarmer (m := c.rps) hu rfl (fun _ _ _ => rfl) (fun _ _ v hv => ⟨v, hv⟩)
  · rename_i hu
    unpack at h
    obtain ⟨_, rfl⟩ := h
    exact hI.newFarmer hu rfl

/-! ### Calls -/

theorem Inv.removeUserRps {c c' : Contract} {x : Ctx} {id : FarmId} (hI : Inv c)
    (h : c.removeUserRps x id = .ok c') : Inv c' := by
  obtain ⟨_, u, s, fs, hu, hp, hs, ⟨_, rfl⟩ | ⟨hnot, m, u1, hm, rfl⟩⟩ := Contract.removeUserRps_inv h
  · exact hI
  obtain ⟨h1, _, _, rfl⟩ := removeRps_ok hm
  refine hI.refarmer hu h1 ?_ ?_
  · rintro a i ⟨f, hf⟩
    rw [FMap.getD_erase, if_neg]
    intro he
    have he := (Prod.mk.inj he).2
    subst he
    obtain ⟨fs', h2, h3, j, _, h4⟩ := (hI.farms i f hf).seed
    rw [h4] at hp
    have := parseFarmId_gen hp
    subst this
    rw [hs] at h2
    cases h2
    exact hnot h3
  · intro a i v hv
    rw [FMap.get?_erase] at hv
    split at hv
    · cases hv
    · exact ⟨v, hv⟩

theorem Inv.ftOnTransfer {c c' : Contract} {x : Ctx} {a : AccountId} {n : Nat} {msg : List Char}
    (hI : Inv c) (h : c.ftOnTransfer x a n msg = .ok c') : Inv c' := by
  obtain ⟨_, ⟨_, _, _, _, h1, _⟩ | ⟨_, f, f1, hf, _, h1, rfl⟩⟩ := Contract.ftOnTransfer_inv h
  · exact hI.seedDeposit h1
  · exact hI.refarm hf (SimpleFarm.addReward_ok h1)

theorem Inv.exec {c c' : Contract} {x : Ctx} {k : Call} {outs : List Out} (hI : Inv c)
    (h : c.exec x k = .ok (c', outs)) : Inv c' := by
  cases k with
  | createSimpleFarm t m => exact hI.addFarm (Contract.createSimpleFarm_inv h).2.1
  | forceCleanFarm id =>
    exact hI.removeFarm (Contract.forceCleanFarm_inv (Contract.exec_quiet h).1).2
  | setOwner a =>
    obtain ⟨_, rfl⟩ := Contract.setOwner_inv (Contract.exec_quiet h).1
    exact hI.fields a c.running
  | modifyMinDeposit s n =>
    obtain ⟨_, fs, hs, rfl⟩ := Contract.modifyMinDeposit_inv (Contract.exec_quiet h).1
    exact hI.modifyMinDeposit hs
  | setRunning b =>
    obtain ⟨_, _, rfl⟩ := Contract.setRunning_inv (Contract.exec_quiet h).1
    exact hI.fields c.owner b
  | removeUserRps id => exact hI.removeUserRps (Contract.exec_quiet h).1
  | claimRewardByFarm id =>
    exact hI.claimByFarm (Contract.claimRewardByFarm_inv (Contract.exec_quiet h).1).2.1
  | claimRewardBySeed s =>
    exact hI.claimBySeed (Contract.claimRewardBySeed_inv (Contract.exec_quiet h).1).2.1
  | withdrawReward t n =>
    obtain ⟨_, _, u, u1, k, hu, h1, rfl, _⟩ := Contract.withdrawReward_inv h
    exact hI.refarmer (m := c.rps) hu (Farmer.subReward_ok h1).1 (fun _ _ _ => rfl)
      (fun _ _ v hv => ⟨v, hv⟩)
  | withdrawSeed s n =>
    obtain ⟨_, _, mft, h1, _⟩ := Contract.withdrawSeed_inv h
    exact hI.seedWithdraw h1
  | ftOnTransfer a n msg => exact hI.ftOnTransfer (Contract.exec_quiet h).1
  | mftOnTransfer t a n msg =>
    obtain ⟨_, p, fs, _, _, _, h1, _⟩ := Contract.mftOnTransfer_inv (Contract.exec_quiet h).1
    exact hI.seedDeposit h1
  | storageDeposit a b =>
    obtain ⟨_, n, h1, _⟩ := Contract.storageDeposit_inv h
    exact hI.register h1
  | storageWithdraw n =>
    obtain ⟨_, u, k, hu, _, _, rfl, _⟩ := Contract.storageWithdraw_inv h
    exact hI.refarmer (m := c.rps) hu rfl (fun _ _ _ => rfl) (fun _ _ v hv => ⟨v, hv⟩)
  | storageUnregister =>
    obtain ⟨_, ⟨_, rfl, _⟩ | ⟨u, hu, _, h1, _, rfl, _⟩⟩ := Contract.storageUnregister_inv h
    · exact hI
    · exact hI.eraseFarmer hu h1

theorem Inv.callback {c c' : Contract} {x : Ctx} {o : Out} {ok : Bool} (hI : Inv c)
    (h : c.callback x o ok = .ok c') : Inv c' := by
  obtain rfl | ⟨_, ⟨t, who, n, u, u1, _, hu, h1, rfl⟩ | ⟨s, who, n, _, h1⟩ | ⟨s, _, _, who, n, _, h1⟩⟩ :=
    Contract.callback_inv h
  · exact hI
  · exact hI.refarmer (m := c.rps) hu (Farmer.addReward_ok h1).1 (fun _ _ _ => rfl)
      (fun _ _ v hv => ⟨v, hv⟩)
  · exact hI.seedDeposit h1
  · exact hI.seedDeposit h1

theorem Inv.apply {c c' : Contract} {e : Event} {outs : List Out} (hI : Inv c)
    (h : c.apply e = .ok (c', outs)) : Inv c' := by
  cases e with
  | call x k => exact hI.exec h
  | callback x o ok =>
    simp only [Contract.apply] at h
    unpack at h
    obtain ⟨c1, h1, rfl, _⟩ := h
    exact hI.callback h1

theorem Contract.Reachable.inv {c : Contract} (h : c.Reachable) : Inv c :=
  Reachable.induct Inv.init (fun _ _ _ _ hI ha => hI.apply ha) h

end Verif.Farming

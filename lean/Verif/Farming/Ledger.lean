import Verif.Farming.World
import Verif.Farming.StakeProps
import Verif.Exchange.IdProps

/-
What events do to the sums the contract owes.
-/

namespace Verif.Farming

/-! ### Ids of seeds -/

theorem at_not_digit (i : Nat) : '@' ∉ Nat.toDigits 10 i := by
  intro h
  have := Nat.isDigit_of_mem_toDigits (by norm_num : 0 < 10) (by norm_num : 10 ≤ 10) h
  revert this
  decide

theorem mem_mftSeedId (e : AccountId) (p : Nat) : '@' ∈ mftSeedId e p := by simp [mftSeedId]

theorem parseSeedId_mft {e : AccountId} {p : Nat} (he : '@' ∉ e) :
    parseSeedId (mftSeedId e p) = .ok (e, Nat.toDigits 10 p) := by
  obtain ⟨q, qs, h1, h2⟩ := splitOn_append (sep := '@') e (Nat.toDigits 10 p)
  rw [splitOn_no he] at h1
  cases h1
  unfold parseSeedId mftSeedId
  rw [h2, splitOn_no (at_not_digit p)]
  rfl

theorem mftSeedId_inj {e e' : AccountId} {p p' : Nat} (he : '@' ∉ e) (he' : '@' ∉ e')
    (h : mftSeedId e p = mftSeedId e' p') : e = e' ∧ p = p' := by
  have h1 := parseSeedId_mft (p := p) he
  rw [h, parseSeedId_mft he'] at h1
  have h2 := Except.ok.inj h1
  exact ⟨(Prod.mk.inj h2).1.symm, digits_inj (Prod.mk.inj h2).2.symm⟩

theorem parseTokenId_digits {p : Nat} (hp : p < 2 ^ 64) :
    parseTokenId (':' :: Nat.toDigits 10 p) = .pool p := C41_lp_id hp

/-! ### Rewards -/

theorem SimpleFarm.Distributed.owes {f g : SimpleFarm} {now total added : Nat}
    (h : f.Distributed now total g added) (t : AccountId) : g.owes t = f.owes t := by
  unfold SimpleFarm.owes
  rw [h.terms]
  split
  · have h1 := h.undistributed
    by_cases h0 : total = 0
    · rcases h.empty h0 with ⟨ha, hd, _, hb⟩ | ⟨hu, _, _, hb⟩
      · rw [hd, hb]
      · omega
    · have h2 := h.unclaimed h0
      have h3 := h.beneficiary h0
      omega
  · rfl

theorem SimpleFarm.Funded.owes {f g : SimpleFarm} {now n : Nat} (h : f.Funded now n g)
    (t : AccountId) : g.owes t = f.owes t + if f.terms.rewardToken = t then n else 0 := by
  unfold SimpleFarm.owes
  rw [h.token, h.undistributed, h.unclaimed, h.beneficiary]
  split <;> omega

theorem Claims.rewardsOwed {x : Ctx} {who : AccountId} {c c' : Contract} {ids : List FarmId}
    (h : Claims x who c ids c') (t : AccountId) : c'.rewardsOwed t = c.rewardsOwed t := by
  induction h with
  | nil => rfl
  | @cons c c' id ids u u1 f f1 fs m1 hu hf hs hc _ ih =>
    rw [ih]
    obtain ⟨g, added, n, hcl⟩ := claimFromFarm_ok hc
    have h1 := hcl.dist.owes t
    have h2 : f1.owes t + (if f.terms.rewardToken = t then n else 0) = g.owes t := by
      have := hcl.covered
      unfold SimpleFarm.owes
      rw [hcl.farm]
      simp only [hcl.dist.terms]
      split <;> omega
    have h3 := hcl.rewards t
    have h4 := c.farms.sum_insert (fun _ f => f.owes t) id f1
    rw [FMap.term_some _ hf] at h4
    have h5 := c.farmers.sum_insert (fun _ u => u.rewards.getD t 0) who u1
    rw [FMap.term_some _ hu] at h5
    unfold Contract.rewardsOwed
    simp only
    have h6 : (if t = f.terms.rewardToken then n else 0) = if f.terms.rewardToken = t then n else 0 := by
      by_cases he : t = f.terms.rewardToken
      · rw [if_pos he, if_pos he.symm]
      · rw [if_neg he, if_neg (Ne.symm he)]
    rw [h6] at h3
    omega

/-- Changing a farmer but not the rewards. -/
theorem rewardsOwed_farmer {c c' : Contract} {who : AccountId} {u u' : Farmer} (t : AccountId)
    (hu : c.farmers.get? who = some u) (hf : c'.farms = c.farms) (ho : c'.outdated = c.outdated)
    (hc : c'.farmers = c.farmers.insert who u') :
    c'.rewardsOwed t + u.rewards.getD t 0 = c.rewardsOwed t + u'.rewards.getD t 0 := by
  have h5 := c.farmers.sum_insert (fun _ u => u.rewards.getD t 0) who u'
  rw [FMap.term_some _ hu] at h5
  unfold Contract.rewardsOwed
  rw [hf, ho, hc]
  omega

theorem seedDeposit_rewards {c c' : Contract} {x : Ctx} {who : AccountId} {s : SeedId} {n : Nat}
    {mft : Bool} (hI : Inv c) (h : c.seedDeposit x who s n mft = .ok c') (t : AccountId) :
    c'.rewardsOwed t = c.rewardsOwed t := by
  obtain ⟨fs, c1, u, u', hs, hc, hu, hu', hlt, rfl⟩ := seedDeposit_ok hI h
  rw [← hc.rewardsOwed t]
  have := rewardsOwed_farmer (c' := { c1 with
    seeds := c1.seeds.insert s { fs with mft := mft, amount := fs.amount + n }
    farmers := c1.farmers.insert who u' }) t hu rfl rfl rfl
  rw [(Farmer.addSeed_ok hu').1] at this
  omega

theorem seedWithdraw_rewards {c c' : Contract} {x : Ctx} {who : AccountId} {s : SeedId} {n : Nat}
    {mft : Bool} (hI : Inv c) (h : c.seedWithdraw x who s n = .ok (c', mft)) (t : AccountId) :
    c'.rewardsOwed t = c.rewardsOwed t := by
  obtain ⟨fs, c1, u, u1, u', remain, m, hs, hc, hu, hu1, hle, rfl, hm, rfl⟩ := seedWithdraw_ok hI h
  rw [← hc.rewardsOwed t]
  have := rewardsOwed_farmer (c' := { c1 with
    farmers := c1.farmers.insert who u'
    seeds := c1.seeds.insert s { fs with amount := fs.amount - n }
    rps := m }) t hu rfl rfl rfl
  rw [(removeAllRps_ok hm).2.1, (Farmer.subSeed_ok hu1).1] at this
  omega

/-! ### Stakes -/

/-- Changing the stakes of one farmer. -/
theorem stakes_farmer {c c' : Contract} {who : AccountId} {u u' : Farmer} (s : SeedId)
    (hu : c.farmers.get? who = some u) (hc : c'.farmers = c.farmers.insert who u') :
    c'.stakes s + u.stake s = c.stakes s + u'.stake s := by
  have h5 := c.farmers.sum_insert (fun _ u => u.stake s) who u'
  rw [FMap.term_some _ hu] at h5
  unfold Contract.stakes
  rw [hc]
  exact h5

theorem Claims.stakes {x : Ctx} {who : AccountId} {c c' : Contract} {ids : List FarmId}
    (h : Claims x who c ids c') (s : SeedId) : c'.stakes s = c.stakes s := by
  cases hu : c.farmers.get? who with
  | none =>
    cases h with
    | nil => rfl
    | cons hu' => rw [hu] at hu'; cases hu'
  | some u =>
    obtain ⟨u', _, h2, h3, _⟩ := h.same.farmer u hu
    have := stakes_farmer s hu h2
    rw [stake_congr h3] at this
    omega

theorem seedDeposit_stakes {c c' : Contract} {x : Ctx} {who : AccountId} {s : SeedId} {n : Nat}
    {mft : Bool} (hI : Inv c) (h : c.seedDeposit x who s n mft = .ok c') (r : SeedId) :
    c'.stakes r = c.stakes r + if r = s then n else 0 := by
  obtain ⟨fs, c1, u, u', hs, hc, hu, hu', hlt, rfl⟩ := seedDeposit_ok hI h
  rw [← hc.stakes r]
  obtain ⟨_, _, _, h1, h2, _⟩ := Farmer.addSeed_ok hu'
  have := stakes_farmer (c' := { c1 with
    seeds := c1.seeds.insert s { fs with mft := mft, amount := fs.amount + n }
    farmers := c1.farmers.insert who u' }) r hu rfl
  split
  · rename_i hr; subst hr; omega
  · rename_i hr
    have h3 : u'.stake r = u.stake r := by unfold Farmer.stake FMap.getD; rw [h1 r hr]
    omega

theorem seedWithdraw_stakes {c c' : Contract} {x : Ctx} {who : AccountId} {s : SeedId} {n : Nat}
    {mft : Bool} (hI : Inv c) (h : c.seedWithdraw x who s n = .ok (c', mft)) (r : SeedId) :
    c'.stakes r + (if r = s then n else 0) = c.stakes r := by
  obtain ⟨fs, c1, u, u1, u', remain, m, hs, hc, hu, hu1, hle, rfl, hm, rfl⟩ := seedWithdraw_ok hI h
  rw [← hc.stakes r]
  obtain ⟨_, _, _, h1, h2, h3, _⟩ := Farmer.subSeed_ok hu1
  have h4 := (removeAllRps_ok hm).1
  have := stakes_farmer (c' := { c1 with
    farmers := c1.farmers.insert who u'
    seeds := c1.seeds.insert s { fs with amount := fs.amount - n }
    rps := m }) r hu rfl
  rw [stake_congr h4] at this
  split
  · rename_i hr; subst hr; omega
  · rename_i hr
    have h3 : u1.stake r = u.stake r := by unfold Farmer.stake FMap.getD; rw [h1 r hr]
    omega

/-! ### Seed types -/

/-- The type of a seed with stakes tells how they are paid back: as the token the seed is named
after, or as the pool shares it is named after. -/
def Contract.Typed (c : Contract) : Prop :=
  ∀ s fs, c.seeds.get? s = some fs → ('@' ∉ s → fs.mft = false) ∧
    ('@' ∈ s → 0 < fs.amount → fs.mft = true ∧ ∃ e p, '@' ∉ e ∧ p < 2 ^ 64 ∧ s = mftSeedId e p)

/-- A promise to pay back a stake pays the asset the seed is named after. -/
def Out.Typed : Out → Prop
  | .ftSeed s _ _ => '@' ∉ s
  | .mftSeed s e token _ _ =>
    ∃ p, '@' ∉ e ∧ p < 2 ^ 64 ∧ s = mftSeedId e p ∧ token = Nat.toDigits 10 p
  | _ => True

theorem Contract.Typed.congr {c c' : Contract} (h : c.Typed) (hs : c'.seeds = c.seeds) :
    c'.Typed := by
  unfold Contract.Typed; rw [hs]; exact h

theorem Contract.Typed.insert {c c' : Contract} (h : c.Typed) {s : SeedId} {fs : FarmSeed}
    (hs : c'.seeds = c.seeds.insert s fs) (h1 : '@' ∉ s → fs.mft = false)
    (h2 : '@' ∈ s → 0 < fs.amount → fs.mft = true ∧
      ∃ e p, '@' ∉ e ∧ p < 2 ^ 64 ∧ s = mftSeedId e p) : c'.Typed := by
  intro r fr hr
  rw [hs, FMap.get?_insert] at hr
  split at hr
  · rename_i he; subst he; cases hr; exact ⟨h1, h2⟩
  · exact h r fr hr

theorem Contract.Typed.deposit {c c' : Contract} (hT : c.Typed) (hI : Inv c) {x : Ctx}
    {who : AccountId} {s : SeedId} {n : Nat} {mft : Bool}
    (h : c.seedDeposit x who s n mft = .ok c') (h1 : '@' ∉ s → mft = false)
    (h2 : '@' ∈ s → mft = true ∧ ∃ e p, '@' ∉ e ∧ p < 2 ^ 64 ∧ s = mftSeedId e p) : c'.Typed := by
  obtain ⟨fs, c1, u, u', hs, hc, hu, hu', hlt, rfl⟩ := seedDeposit_ok hI h
  exact (hT.congr hc.same.seeds).insert rfl h1 (fun h _ => h2 h)

theorem Contract.Typed.withdraw {c c' : Contract} (hT : c.Typed) (hI : Inv c) {x : Ctx}
    {who : AccountId} {s : SeedId} {n : Nat} {mft : Bool}
    (h : c.seedWithdraw x who s n = .ok (c', mft)) : c'.Typed ∧
      (mft = false → '@' ∉ s) ∧ (mft = true → ∃ e p, '@' ∉ e ∧ p < 2 ^ 64 ∧ s = mftSeedId e p) := by
  obtain ⟨fs, c1, u, u1, u', remain, m, hs, hc, hu, hu1, hle, rfl, hm, rfl⟩ := seedWithdraw_ok hI h
  obtain ⟨h1, h2⟩ := hT s fs hs
  have hpos : 0 < fs.amount := by
    have hI1 := hc.inv hI
    obtain ⟨_, _, _, _, _, _, _, h3⟩ := Farmer.subSeed_ok hu1
    have h4 := (hI1.stakes who u s _ hu h3).1
    have h5 := (hI.seeds s fs hs).total
    rw [← hc.stakes s] at h5
    have h6 := c1.farmers.term_le_sum (fun _ u => u.stake s) who
    rw [FMap.term_some _ hu] at h6
    unfold Contract.stakes at h5
    omega
  refine ⟨(hT.congr hc.same.seeds).insert (fs := { fs with amount := fs.amount - n }) rfl h1
    (fun h _ => h2 h hpos), ?_, ?_⟩
  · intro hm hat
    rw [(h2 hat hpos).1] at hm
    cases hm
  · intro hm
    by_cases hat : '@' ∈ s
    · exact (h2 hat hpos).2
    · rw [h1 hat] at hm; cases hm

end Verif.Farming

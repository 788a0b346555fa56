import Verif.Farming.LifeProps
import Verif.Farming.StakeProps
import Verif.Farming.LockWitness
import Mathlib.Tactic.NormNum

/-
Farmers can stake, claim and withdraw (C49), failed transfers are restored (C47): what does hold.
-/

namespace Verif.Farming

theorem _root_.Verif.FMap.size_insert_le {K V : Type} [DecidableEq K] (m : FMap K V) (k : K) (v : V) :
    (m.insert k v).size ≤ m.size + 1 := by
  unfold FMap.size FMap.insert
  simp only
  induction m.entries with
  | nil => simp [FMap.put]
  | cons p l ih =>
    obtain ⟨k', v'⟩ := p
    simp only [FMap.put]
    split
    · simp
    · simpa using ih

/-- The numbers of a farm are in range. -/
structure SimpleFarm.Ranged (f : SimpleFarm) : Prop where
  reward : f.amountOfReward < 2 ^ 128
  rps : f.dist.rps ≤ f.released * DENOM

theorem SimpleFarm.Distributed.ranged {f g : SimpleFarm} {now total added : Nat}
    (h : f.Distributed now total g added) (hr : f.Ranged) : g.Ranged := by
  refine ⟨by rw [h.reward]; exact hr.reward, ?_⟩
  have h1 := hr.rps
  rw [h.released, Nat.add_mul]
  by_cases h0 : total = 0
  · rcases h.empty h0 with ⟨_, hd, _⟩ | ⟨_, h2, _⟩
    · rw [hd]; omega
    · omega
  · rw [h.rps h0]
    have := Nat.div_le_self (added * DENOM) total
    generalize added * DENOM / total = q at *
    omega

namespace Contract

theorem Reachable.ranged {c : Contract} (hr : c.Reachable) {id : FarmId} {f : SimpleFarm}
    (h : c.IsFarm id f) : f.Ranged := by
  have key : Inv c ∧ ∀ id f, c.IsFarm id f → f.Ranged := by
    refine Reachable.induct (P := fun c => Inv c ∧ ∀ id f, c.IsFarm id f → f.Ranged) ?_ ?_ hr
    · intro owner
      refine ⟨Inv.init owner, ?_⟩
      rintro id f (hf | hf) <;> simp [Contract.init, FMap.get?_empty] at hf
    · rintro c e c' outs ⟨hI, ha⟩ h
      refine ⟨hI.apply h, ?_⟩
      intro id f' hf'
      rcases (farm_effect hI h id).cases' hI hf' with h1 | ⟨f, g, t, ad, n, h1, h2, h3, rfl⟩ |
        ⟨f, n, h1, h2⟩ | ⟨f, g, t, ad, h1, h2, h3, rfl⟩ | ⟨_, t, rfl⟩
      · exact ha id f' h1
      · have hg := h2.ranged (ha id f (.inl h1))
        refine ⟨hg.reward, Nat.le_trans hg.rps (Nat.mul_le_mul_right _ ?_)⟩
        unfold SimpleFarm.released; simp only; omega
      · have hg := ha id f (.inl h1)
        refine ⟨h2.reward_lt, ?_⟩
        unfold SimpleFarm.released
        rw [h2.rps, h2.unclaimed, h2.claimed]
        exact hg.rps
      · have hg := h2.ranged (ha id f (.inl h1))
        refine ⟨hg.reward, Nat.le_trans hg.rps (Nat.mul_le_mul_right _ ?_)⟩
        unfold SimpleFarm.released; simp only; omega
      · exact ⟨show 0 < 2 ^ 128 by decide, Nat.zero_le _⟩
  exact key.2 id f h

end Contract

/-- Terms under which distribution cannot overflow: sessions last at least a second and the reward of a
session is below 2^96. -/
def Terms.Sane (t : Terms) : Prop := t.sessionInterval ≠ 0 ∧ t.rewardPerSession < 2 ^ 96

/-- The farm can be served at time `now`. -/
structure SimpleFarm.Fit (f : SimpleFarm) (now : Nat) : Prop where
  sane : f.terms.Sane
  balanced : f.Balanced
  ranged : f.Ranged
  clock : now < 2 ^ 32 * 10 ^ 9
  round : f.dist.rr = 0 ∨ (f.terms.startAt ≤ toSec now ∧
    f.dist.rr ≤ (toSec now - f.terms.startAt) / f.terms.sessionInterval)

theorem Dist.lastRound_total {d : Dist} {p k : Nat} (hk : d.undistributed < k * p)
    (hr : d.rr + k < 2 ^ 32) (hu : d.undistributed < 2 ^ 128) :
    ∃ rr, d.lastRound p = .ok (rr, d.undistributed) := by
  have hp : p ≠ 0 := by intro h; rw [h] at hk; omega
  have hq : d.undistributed / p < k := Nat.div_lt_of_lt_mul (by rwa [Nat.mul_comm])
  have hle := Nat.div_mul_le_self d.undistributed p
  unfold lastRound
  rw [show divW d.undistributed p = .ok (d.undistributed / p) from divW_ok.2 ⟨hp, rfl⟩, ok_bind]
  simp only
  rw [Nat.mod_eq_of_lt (by omega)]
  generalize d.undistributed / p = q at *
  rw [show addW 32 d.rr q = .ok (d.rr + q) from addW_ok.2 ⟨by omega, rfl⟩, ok_bind,
    show mulW 128 q p = .ok (q * p) from mulW_ok.2 ⟨by omega, rfl⟩, ok_bind]
  split
  · rw [show addW 32 (d.rr + q) 1 = .ok (d.rr + q + 1) from addW_ok.2 ⟨by omega, rfl⟩, ok_bind]
    exact ⟨_, rfl⟩
  · exact ⟨_, rfl⟩

theorem nextRps_total {rps added total k : Nat} (h1 : rps ≤ k * DENOM) (h2 : k + added < 2 ^ 129) :
    ∃ r, nextRps rps added total = .ok r := by
  have hD : DENOM < 2 ^ 80 := by decide
  have h3 : (k + added) * DENOM < 2 ^ 129 * 2 ^ 80 := Nat.mul_lt_mul'' h2 hD
  have h4 : (2 ^ 129 * 2 ^ 80 : Nat) < 2 ^ 256 := by norm_num
  rw [Nat.add_mul] at h3
  unfold nextRps
  split
  · exact ⟨_, rfl⟩
  · rename_i h0
    have h5 := Nat.div_le_self (added * DENOM) total
    have e1 : mulW 256 added DENOM = .ok (added * DENOM) := mulW_ok.2 ⟨by omega, rfl⟩
    rw [e1, ok_bind, show divW (added * DENOM) total = .ok (added * DENOM / total) from
      divW_ok.2 ⟨h0, rfl⟩, ok_bind]
    generalize added * DENOM / total = q at *
    exact ⟨_, addW_ok.2 ⟨by omega, rfl⟩⟩

theorem SimpleFarm.Fit.tryDistribute {f : SimpleFarm} {now : Nat} (h : f.Fit now) (total : Nat) :
    ∃ o, f.tryDistribute now total = .ok o := by
  unfold SimpleFarm.tryDistribute
  split
  swap
  · exact ⟨_, rfl⟩
  split
  · exact ⟨_, rfl⟩
  rename_i hnow
  obtain ⟨hi, hps⟩ := h.sane
  have hbal := h.balanced.total
  have hrew := h.ranged.reward
  have hstart : f.terms.startAt ≤ toSec now := by
    unfold toNano at hnow
    unfold toSec
    have h1 : now / 10 ^ 9 < 2 ^ 32 := Nat.div_lt_of_lt_mul (by have := h.clock; omega)
    rw [Nat.mod_eq_of_lt h1]
    exact (Nat.le_div_iff_mul_le (by norm_num)).2 (by omega)
  have hsec := toSec_lt now
  have hrr : f.dist.rr ≤ (toSec now - f.terms.startAt) / f.terms.sessionInterval := by
    rcases h.round with h1 | ⟨_, h1⟩
    · rw [h1]; exact Nat.zero_le _
    · exact h1
  have hround := Nat.div_le_self (toSec now - f.terms.startAt) f.terms.sessionInterval
  rw [show subW (toSec now) f.terms.startAt = .ok (toSec now - f.terms.startAt) from
      subW_ok.2 ⟨hstart, rfl⟩, ok_bind,
    show divW (toSec now - f.terms.startAt) f.terms.sessionInterval = .ok _ from divW_ok.2 ⟨hi, rfl⟩,
    ok_bind]
  generalize (toSec now - f.terms.startAt) / f.terms.sessionInterval = rr at *
  have hmul : (rr - f.dist.rr) * f.terms.rewardPerSession < 2 ^ 128 :=
    Nat.lt_of_lt_of_eq (Nat.mul_lt_mul'' (show rr - f.dist.rr < 2 ^ 32 by omega) hps) (by norm_num)
  rw [show subW rr f.dist.rr = .ok (rr - f.dist.rr) from subW_ok.2 ⟨hrr, rfl⟩, ok_bind,
    show mulW 128 (rr - f.dist.rr) f.terms.rewardPerSession = .ok _ from mulW_ok.2 ⟨hmul, rfl⟩, ok_bind]
  have hadv : ∃ rr' added, f.dist.advance f.terms.rewardPerSession rr
      ((rr - f.dist.rr) * f.terms.rewardPerSession) = .ok (rr', added) ∧
      added ≤ f.dist.undistributed := by
    unfold Dist.advance
    split
    · rename_i hlt
      obtain ⟨r, hr⟩ := Dist.lastRound_total hlt (by omega) (by omega)
      exact ⟨r, _, hr, Nat.le_refl _⟩
    · exact ⟨_, _, rfl, by omega⟩
  obtain ⟨rr', added, hadv, hle⟩ := hadv
  rw [hadv, ok_bind]
  simp only
  have hrps := h.ranged.rps
  have hrel : f.released = f.dist.unclaimed + f.amountOfClaimed := rfl
  obtain ⟨r, hr⟩ := nextRps_total (total := total) (added := added) hrps (by omega)
  rw [show addW 128 f.dist.unclaimed added = .ok _ from addW_ok.2 ⟨by omega, rfl⟩, ok_bind,
    show subW f.dist.undistributed added = .ok _ from subW_ok.2 ⟨hle, rfl⟩, ok_bind, hr, ok_bind]
  exact ⟨_, rfl⟩

theorem SimpleFarm.Fit.distribute {f : SimpleFarm} {now : Nat} (h : f.Fit now) (total : Nat) :
    ∃ g, f.distribute now total = .ok g := by
  obtain ⟨o, ho⟩ := h.tryDistribute total
  unfold SimpleFarm.distribute
  rw [ho, ok_bind]
  cases o with
  | none => exact ⟨_, rfl⟩
  | some d =>
    simp only
    obtain ⟨added, hd⟩ := SimpleFarm.tryDistribute_some ho
    have h1 := hd.undistributed
    have h2 := hd.unclaimed
    have h3 := h.balanced.total
    have h4 := h.balanced.beneficiary
    have h5 := h.ranged.reward
    have : ∃ f1, f.adopt d total = .ok f1 := by
      unfold SimpleFarm.adopt
      split
      · exact ⟨_, rfl⟩
      · split
        · rw [show addW 128 f.amountOfClaimed d.unclaimed = .ok _ from addW_ok.2 ⟨by omega, rfl⟩,
            ok_bind, show addW 128 f.amountOfBeneficiary d.unclaimed = .ok _ from
              addW_ok.2 ⟨by omega, rfl⟩, ok_bind]
          exact ⟨_, rfl⟩
        · exact ⟨_, rfl⟩
    obtain ⟨f1, h6⟩ := this
    rw [h6, ok_bind]
    exact ⟨_, rfl⟩

/-- A single claim succeeds if the farm can be brought up to date. -/
theorem claimFromFarm_of_distribute {c : Contract} (hI : Inv c) {x : Ctx} {who : AccountId}
    {u : Farmer} {id : FarmId} {f g : SimpleFarm} {fs : FarmSeed} (hu : c.farmers.get? who = some u)
    (hf : c.farms.get? id = some f) (hs : c.seeds.get? f.terms.seedId = some fs)
    (hg : f.distribute x.now fs.amount = .ok g) (hmax : f.amountOfReward < 2 ^ 128)
    (hrate : 0 < u.stake f.terms.seedId ∨ c.rps.getD (who, id) 0 = 0)
    (hroom : ∀ t, u.rewards.getD t 0 + f.amountOfReward < 2 ^ 128) (hcount : u.rpsCount + 1 < 2 ^ 32) :
    ∃ f1 m1 u1, claimFromFarm x who f fs.amount c.rps u = .ok (f1, m1, u1) ∧
      (∀ t, u1.rewards.getD t 0 ≤ u.rewards.getD t 0 + f.amountOfReward) ∧
      u1.rpsCount = (if c.rps.contains (who, id) then u.rpsCount else u.rpsCount + 1) ∧
      u1.rewards.size ≤ u.rewards.size + 1 ∧ u1.seeds = u.seeds ∧ u1.near = u.near ∧
      m1 = c.rps.insert (who, id) (m1.getD (who, id) 0) := by
  have hl := hI.farms id f hf
  have htot := (hI.seeds _ _ hs).total
  obtain ⟨added, hd⟩ := SimpleFarm.distribute_ok hg
  obtain ⟨hfund, hbeh⟩ := hd.funded hl htot
  have hbal := (hd.balanced hl.balanced).total
  have hrew : g.amountOfReward < 2 ^ 128 := by rw [hd.reward]; exact hmax
  have hlast : c.rps.getD (who, id) 0 ≤ g.dist.rps := by
    rcases hrate with h | h
    · exact hbeh who u hu h
    · rw [h]; exact Nat.zero_le _
  have hpart : u.stake f.terms.seedId * (g.dist.rps - c.rps.getD (who, id) 0) ≤
      g.dist.unclaimed * DENOM := by
    refine Nat.le_trans ?_ hfund
    have := c.farmers.term_le_sum
      (fun a v => v.stake g.terms.seedId * (g.dist.rps - c.rps.getD (a, id) 0)) who
    rw [FMap.term_some _ hu] at this
    unfold Contract.claimable
    rw [hd.terms] at this ⊢
    exact this
  have hD : DENOM < 2 ^ 80 := by decide
  have hlt : g.dist.unclaimed * DENOM < 2 ^ 256 :=
    Nat.lt_of_lt_of_eq (Nat.mul_lt_mul'' (show g.dist.unclaimed < 2 ^ 176 by omega) hD) (by norm_num)
  have hn : u.stake f.terms.seedId * (g.dist.rps - c.rps.getD (who, id) 0) / DENOM ≤
      g.dist.unclaimed :=
    Nat.div_le_of_le_mul (by rw [Nat.mul_comm DENOM]; exact hpart)
  have hreward : SimpleFarm.reward (u.stake f.terms.seedId) g.dist.rps (c.rps.getD (who, id) 0) =
      .ok (u.stake f.terms.seedId * (g.dist.rps - c.rps.getD (who, id) 0) / DENOM) := by
    unfold SimpleFarm.reward
    rw [show subW g.dist.rps (c.rps.getD (who, id) 0) = .ok _ from subW_ok.2 ⟨hlast, rfl⟩, ok_bind,
      show mulW 256 _ _ = .ok _ from mulW_ok.2 ⟨by omega, rfl⟩, ok_bind,
      show divW _ DENOM = .ok _ from divW_ok.2 ⟨by decide, rfl⟩, ok_bind]
    generalize u.stake f.terms.seedId * (g.dist.rps - c.rps.getD (who, id) 0) / DENOM = n at *
    exact fit_ok.2 ⟨by omega, rfl⟩
  generalize u.stake f.terms.seedId * (g.dist.rps - c.rps.getD (who, id) 0) / DENOM = n at *
  have hclaim : ∃ f1, f.claimUserReward x.now (c.rps.getD (who, f.id) 0)
      (u.stake f.terms.seedId) fs.amount = .ok (f1, g.dist.rps, n) := by
    unfold SimpleFarm.claimUserReward
    rw [hl.id_eq, hg, ok_bind, hreward, ok_bind]
    split
    · rw [assertE_true (show g.dist.unclaimed ≥ n from hn), ok_bind,
        show addW 128 g.amountOfClaimed n = .ok _ from addW_ok.2 ⟨by omega, rfl⟩, ok_bind]
      exact ⟨_, rfl⟩
    · exact ⟨_, rfl⟩
  obtain ⟨f1, hclaim⟩ := hclaim
  have hset : setRps c.rps u who f.id g.dist.rps = .ok (c.rps.insert (who, id) g.dist.rps,
      { u with rpsCount := if c.rps.contains (who, id) then u.rpsCount else u.rpsCount + 1 }) := by
    unfold setRps
    rw [hl.id_eq]
    split
    · rfl
    · rw [show addW 32 u.rpsCount 1 = .ok _ from addW_ok.2 ⟨hcount, rfl⟩, ok_bind]
  unfold claimFromFarm
  rw [hclaim, ok_bind]
  simp only
  rw [hset, ok_bind]
  simp only
  generalize hk : (if c.rps.contains (who, id) then u.rpsCount else u.rpsCount + 1) = k
  have hself : ∀ v, c.rps.insert (who, id) v =
      c.rps.insert (who, id) ((c.rps.insert (who, id) v).getD (who, id) 0) := by
    intro v; rw [FMap.getD_insert, if_pos rfl]
  have hnf : n ≤ f.amountOfReward := by
    have := hd.reward
    omega
  split
  · have hadd : ∃ u2, Farmer.addReward { u with rpsCount := k } f.terms.rewardToken n = .ok u2 ∧
        u2.rewards.size ≤ u.rewards.size + 1 := by
      unfold Farmer.addReward
      simp only
      split
      · rename_i v hv
        have := hroom f.terms.rewardToken
        unfold FMap.getD at this
        rw [hv] at this
        simp only [Option.getD_some] at this
        rw [show addW 128 v n = .ok _ from addW_ok.2 ⟨by omega, rfl⟩, ok_bind]
        refine ⟨_, rfl, ?_⟩
        exact Nat.le_trans (u.rewards.size_insert_le _ _) (Nat.le_refl _)
      · refine ⟨_, rfl, ?_⟩
        exact u.rewards.size_insert_le _ _
    obtain ⟨u2, hadd, hsz⟩ := hadd
    obtain ⟨h1, h2, h3, h4⟩ := Farmer.addReward_ok hadd
    rw [hadd, ok_bind]
    refine ⟨_, _, _, rfl, ?_, h3, hsz, h1, h2, hself _⟩
    intro t
    rw [h4]
    simp only
    split <;> omega
  · exact ⟨_, _, _, rfl, fun t => by simp only; omega, rfl, by simp only; omega, rfl, rfl, hself _⟩

/-- A single claim succeeds. -/
theorem claimFromFarm_total {c : Contract} (hI : Inv c) {x : Ctx} {who : AccountId} {u : Farmer}
    {id : FarmId} {f : SimpleFarm} {fs : FarmSeed} (hu : c.farmers.get? who = some u)
    (hf : c.farms.get? id = some f) (hs : c.seeds.get? f.terms.seedId = some fs) (hfit : f.Fit x.now)
    (hrate : 0 < u.stake f.terms.seedId ∨ c.rps.getD (who, id) 0 = 0)
    (hroom : ∀ t, u.rewards.getD t 0 + f.amountOfReward < 2 ^ 128) (hcount : u.rpsCount + 1 < 2 ^ 32) :
    ∃ f1 m1 u1, claimFromFarm x who f fs.amount c.rps u = .ok (f1, m1, u1) ∧
      (∀ t, u1.rewards.getD t 0 ≤ u.rewards.getD t 0 + f.amountOfReward) ∧
      u1.rpsCount = (if c.rps.contains (who, id) then u.rpsCount else u.rpsCount + 1) ∧
      u1.rewards.size ≤ u.rewards.size + 1 ∧ u1.seeds = u.seeds ∧ u1.near = u.near ∧
      m1 = c.rps.insert (who, id) (m1.getD (who, id) 0) := by
  obtain ⟨g, hg⟩ := hfit.distribute fs.amount
  exact claimFromFarm_of_distribute hI hu hf hs hg hfit.ranged.reward hrate hroom hcount


/-- The rewards deposited in a list of farms. -/
def Contract.farmRewards (c : Contract) (ids : List FarmId) : Nat :=
  (ids.map fun id => match c.farms.get? id with
    | some f => f.amountOfReward
    | none => 0).sum

/-- The number of farms in a list for which the farmer has a reward rate. -/
def Contract.rated (c : Contract) (a : AccountId) (ids : List FarmId) : Nat :=
  (ids.filter fun id => c.rps.contains (a, id)).length

/-- What is known after the claims of a farmer. -/
structure ClaimsTotal (who : AccountId) (ids : List FarmId) (c : Contract) (u : Farmer) (m : RpsMap)
    (u1 : Farmer) : Prop where
  rewards : u1.rewards.size ≤ u.rewards.size + ids.length
  count : u1.rpsCount + c.rated who ids = u.rpsCount + ids.length
  seeds : u1.seeds = u.seeds
  near : u1.near = u.near
  rps : ∀ id, m.contains (who, id) = (c.rps.contains (who, id) || decide (id ∈ ids))

theorem claimFarms_total {x : Ctx} {who : AccountId} {s : SeedId} {fs : FarmSeed} (ids : List FarmId) :
    ∀ {c : Contract} {u : Farmer}, Inv c → c.farmers.get? who = some u → c.seeds.get? s = some fs →
    (∀ id ∈ ids, ∃ f, c.farms.get? id = some f ∧ f.terms.seedId = s ∧ f.Fit x.now ∧
      (0 < u.stake s ∨ c.rps.getD (who, id) 0 = 0)) →
    ids.Nodup → (∀ t, u.rewards.getD t 0 + c.farmRewards ids < 2 ^ 128) →
    u.rpsCount + ids.length < 2 ^ 32 →
    ∃ farms m u1, claimFarms x who fs.amount ids c.farms c.rps u = .ok (farms, m, u1) ∧
      ClaimsTotal who ids c u m u1 := by
  induction ids with
  | nil =>
    intro c u _ _ _ _ _ _ _
    exact ⟨_, _, _, rfl, by simp, by simp [Contract.rated], rfl, rfl, by simp⟩
  | cons id ids ih =>
    intro c u hI hu hs hfarms hnd hroom hcount
    rw [List.nodup_cons] at hnd
    obtain ⟨f, hf, hsd, hfit, hrate⟩ := hfarms id (by simp)
    have hcap : c.farmRewards (id :: ids) = f.amountOfReward + c.farmRewards ids := by
      unfold Contract.farmRewards
      rw [List.map_cons, List.sum_cons, hf]
    simp only [List.length_cons] at hcount
    obtain ⟨f1, m1, u1, h1, h2, h3, h4, h5, h6, h7⟩ := claimFromFarm_total hI hu hf (hsd ▸ hs) hfit
      (hsd ▸ hrate) (fun t => by have := hroom t; omega) (by omega)
    have hI1 := hI.claimStep hu hf (hsd ▸ hs) h1
    have hne : ∀ id' ∈ ids, id' ≠ id := fun id' h he => hnd.1 (he ▸ h)
    have hrps : ∀ id' ∈ ids, m1.get? (who, id') = c.rps.get? (who, id') := by
      intro id' hid'
      rw [h7, FMap.get?_insert_ne]
      intro he
      exact hne id' hid' (Prod.mk.inj he).2
    have hsame : ∀ id' ∈ ids, (c.farms.insert id f1).get? id' = c.farms.get? id' := fun id' hid' =>
      FMap.get?_insert_ne _ _ (hne id' hid')
    have hcap1 : Contract.farmRewards { c with
        farms := c.farms.insert id f1, rps := m1, farmers := c.farmers.insert who u1 } ids =
        c.farmRewards ids := by
      unfold Contract.farmRewards
      congr 1
      apply List.map_congr_left
      intro id' hid'
      simp only [hsame id' hid']
    have hrated : Contract.rated { c with
        farms := c.farms.insert id f1, rps := m1, farmers := c.farmers.insert who u1 } who ids =
        c.rated who ids := by
      unfold Contract.rated
      congr 1
      apply List.filter_congr
      intro id' hid'
      simp only [FMap.contains, hrps id' hid']
    obtain ⟨farms, m, u2, h8, h9⟩ := ih hI1 (FMap.get?_insert_self _ _ _) hs
      (by
        intro id' hid'
        obtain ⟨f', hf', hsd', hfit', hrate'⟩ := hfarms id' (by simp [hid'])
        refine ⟨f', (hsame id' hid').trans hf', hsd', hfit', ?_⟩
        rw [stake_congr h5]
        simp only [FMap.getD, hrps id' hid']
        exact hrate')
      hnd.2
      (by
        intro t
        rw [hcap1]
        have := hroom t
        have := h2 t
        omega)
      (by rw [h3]; split <;> omega)
    have hct : c.rated who (id :: ids) =
        (if c.rps.contains (who, id) then 1 else 0) + c.rated who ids := by
      unfold Contract.rated
      rw [List.filter_cons]
      split
      · simp only [List.length_cons]; omega
      · omega
    refine ⟨farms, m, u2, ?_, ?_, ?_, ?_, ?_, ?_⟩
    · unfold claimFarms
      rw [expectE_ok.2 hf, ok_bind, h1, ok_bind]
      exact h8
    · have := h9.rewards
      simp only [List.length_cons]
      omega
    · have := h9.count
      rw [hrated, h3] at this
      rw [hct]
      simp only [List.length_cons]
      split at this <;> rename_i hcc <;> simp only [hcc, if_true] <;> first | omega | (simp; omega)
    · exact h9.seeds.trans h5
    · exact h9.near.trans h6
    · intro id'
      rw [h9.rps id', h7]
      simp only [FMap.contains, FMap.get?_insert, List.mem_cons]
      by_cases he : id' = id
      · subst he; simp
      · rw [if_neg (by intro h; exact he (Prod.mk.inj h).2)]
        simp [he]

namespace Contract

/-- The farmer is registered and their claims from the farms of the seed cannot overflow anything: the
clock runs forward and fits 32 bits of seconds, the terms of the farms are sane, and the farmer either
has a stake or has not recorded a rate of these farms (otherwise see `C49_locked_out`). -/
structure Ready (c : Contract) (x : Ctx) (a : AccountId) (s : SeedId) (u : Farmer) (fs : FarmSeed) :
    Prop where
  history : ∃ t, c.At t ∧ t ≤ x.now
  clock : x.now < 2 ^ 32 * 10 ^ 9
  farmer : c.farmers.get? a = some u
  seed : c.seeds.get? s = some fs
  sane : ∀ id ∈ fs.farms, ∀ f, c.farms.get? id = some f → f.terms.Sane
  rates : 0 < c.stakeOf a s ∨ ∀ id ∈ fs.farms, c.rps.getD (a, id) 0 = 0
  room : ∀ t, c.rewardOf a t + c.farmRewards fs.farms < 2 ^ 128
  count : u.rpsCount + fs.farms.length < 2 ^ 32

variable {c : Contract} {x : Ctx} {a : AccountId} {s : SeedId} {u : Farmer} {fs : FarmSeed}

theorem rated_perm {l l' : List FarmId} (h : l.Perm l') : c.rated a l = c.rated a l' :=
  (h.filter _).length_eq

/-- Claims by seed succeed. -/
theorem Ready.claims (h : c.Ready x a s u fs) : ∃ farms m u1,
    c.claimBySeed x a s = .ok { c with farms := farms, rps := m, farmers := c.farmers.insert a u1 } ∧
    ClaimsTotal a fs.farms c u m u1 := by
  obtain ⟨t, hat, hle⟩ := h.history
  have hI := hat.reachable.inv
  have hp := x.order.perm fs.farms
  have hg := hI.seeds s fs h.seed
  have hst : c.stakeOf a s = u.stake s := by unfold stakeOf; rw [h.farmer]
  have hrw : ∀ t, c.rewardOf a t = u.rewards.getD t 0 := by
    intro t; unfold rewardOf; rw [h.farmer]
  have hcap : c.farmRewards (x.order.f fs.farms) = c.farmRewards fs.farms := (hp.map _).sum_nat
  obtain ⟨farms, m, u1, h1, h2⟩ := claimFarms_total (x := x) (x.order.f fs.farms) hI h.farmer h.seed
    (by
      intro id hid
      have hid := hp.mem_iff.1 hid
      obtain ⟨f, hf, hsd⟩ := hg.farms id hid
      refine ⟨f, hf, hsd, ?_, ?_⟩
      · refine ⟨h.sane id hid f hf, (hI.farms id f hf).balanced, hat.reachable.ranged (.inl hf),
          h.clock, ?_⟩
        rcases (hat.timely (by have := h.clock; omega) (.inl hf)).mono hle h.clock with h1 | ⟨h1, _, h2⟩
        · exact .inl h1
        · exact .inr ⟨h1, h2⟩
      · rcases h.rates with h1 | h1
        · exact .inl (hst ▸ h1)
        · exact .inr (h1 id hid))
    (hp.nodup_iff.2 hg.nodup)
    (by intro t; rw [hcap, ← hrw]; exact h.room t)
    (by rw [hp.length_eq]; exact h.count)
  refine ⟨farms, m, u1, ?_, ?_⟩
  · unfold claimBySeed Contract.farmer
    rw [expectE_ok.2 h.farmer, ok_bind, h.seed]
    simp only
    rw [h1, ok_bind]
  · refine ⟨by rw [← hp.length_eq]; exact h2.rewards, ?_, h2.seeds, h2.near, ?_⟩
    · have := h2.count
      rwa [hp.length_eq, rated_perm hp] at this
    · intro id
      rw [h2.rps id]
      simp only [hp.mem_iff]

/-- The farmer has paid for the storage of `n` more farms and `k` more seeds. -/
def Paid (u : Farmer) (n k : Nat) : Prop :=
  0 < u.near ∧
  (92 + (u.rewards.size + n) * 84 + (u.seeds.size + k) * 84 + (u.rpsCount + n) * 165) * 10 ^ 19 ≤ u.near

/-- **C49, in part.** A registered farmer can claim the rewards of a seed. Missing: farms with insane
terms (`C49_zero_interval`, `C49_overflow`), farmers who claimed without a stake (`C49_locked_out`). -/
theorem C49_claim_partial (h : c.Ready x x.pred s u fs) (hx : x.deposit = 0) (hrun : c.running = true)
    (hpaid : Paid u fs.farms.length 0) :
    ∃ c', c.exec x (.claimRewardBySeed s) = .ok (c', []) := by
  obtain ⟨farms, m, u1, h1, h2⟩ := h.claims
  have hsz := h2.rewards
  have hct := h2.count
  obtain ⟨hp1, hp2⟩ := hpaid
  simp only [exec]
  unfold claimRewardBySeed Ctx.noDeposit assertRunning
  rw [assertE_true hx, ok_bind, assertE_true hrun, ok_bind, h1, ok_bind]
  unfold assertStorage farmerStorage
  simp only [FMap.get?_insert_self]
  rw [assertE_true (show u1.near > 0 by rw [h2.near]; exact hp1), ok_bind,
    assertE_true (show u1.storageUsage ≤ u1.near from by
      rw [h2.near]
      refine Nat.le_trans ?_ hp2
      unfold Farmer.storageUsage
      rw [h2.seeds]
      apply Nat.mul_le_mul_right
      omega)]
  exact ⟨_, rfl⟩

/-- **C49, in part.** A registered farmer can stake any amount that reaches the minimum of the seed,
under the same conditions. -/
theorem C49_stake_partial (h : c.Ready x a x.pred u fs) (hx : x.deposit = 0) (hrun : c.running = true)
    (hpaid : Paid u fs.farms.length 1) {n : Nat} (hn : fs.minDeposit ≤ n)
    (hlt : c.seedTotal x.pred + n < 2 ^ 128) :
    ∃ c', c.exec x (.ftOnTransfer a n []) = .ok (c', []) ∧
      c'.stakeOf a x.pred = c.stakeOf a x.pred + n := by
  have hI : Inv c := (h.history.choose_spec.1).reachable.inv
  obtain ⟨farms, m, u1, h1, h2⟩ := h.claims
  have hsz := h2.rewards
  have hct := h2.count
  obtain ⟨hp1, hp2⟩ := hpaid
  have htot : c.seedTotal x.pred = fs.amount := by unfold seedTotal; rw [h.seed]
  have hstk : u1.stake x.pred ≤ fs.amount := by
    have hg := (hI.seeds _ _ h.seed).total
    have := c.farmers.term_le_sum (fun _ u => u.stake x.pred) a
    rw [FMap.term_some _ h.farmer] at this
    unfold stakes at hg
    rw [stake_congr h2.seeds]
    omega
  have hadd : ∃ u2, u1.addSeed x.pred n = .ok u2 ∧ u2.near = u.near ∧
      u2.storageUsage ≤ u.near := by
    unfold Farmer.addSeed
    split
    · rw [show addW 128 n (u1.stake x.pred) = .ok _ from addW_ok.2 ⟨by omega, rfl⟩, ok_bind]
      refine ⟨_, rfl, h2.near, Nat.le_trans ?_ hp2⟩
      unfold Farmer.storageUsage
      apply Nat.mul_le_mul_right
      have := u1.seeds.size_insert_le x.pred (n + u1.stake x.pred)
      rw [h2.seeds] at this
      simp only [h2.seeds]
      omega
    · refine ⟨_, rfl, h2.near, Nat.le_trans ?_ hp2⟩
      unfold Farmer.storageUsage
      apply Nat.mul_le_mul_right
      rw [h2.seeds]
      omega
  obtain ⟨u2, hadd, hnear, husage⟩ := hadd
  have hdep : ∃ c', c.seedDeposit x a x.pred n false = .ok c' ∧ c'.farmers.get? a = some u2 := by
    unfold seedDeposit
    rw [h1, ok_bind]
    unfold addStake Contract.seed Contract.farmer
    simp only
    rw [expectE_ok.2 h.seed, ok_bind,
      show addW 128 fs.amount n = .ok _ from addW_ok.2 ⟨by omega, rfl⟩, ok_bind,
      FMap.get?_insert_self, expectE_ok.2 rfl, ok_bind, hadd, ok_bind]
    exact ⟨_, rfl, FMap.get?_insert_self _ _ _⟩
  obtain ⟨c', hdep, hu2⟩ := hdep
  have hst := seedDeposit_stake hI hdep a x.pred
  refine ⟨c', ?_, by simpa using hst⟩
  simp only [exec]
  unfold ftOnTransfer ftStake Ctx.noDeposit assertRunning Contract.seed
  rw [if_pos rfl, assertE_true hx, ok_bind, assertE_true hrun, ok_bind, expectE_ok.2 h.seed, ok_bind,
    assertE_true hn, ok_bind, hdep, ok_bind]
  unfold assertStorage farmerStorage
  rw [hu2]
  simp only
  rw [assertE_true (show u2.near > 0 by rw [hnear]; exact hp1), ok_bind,
    assertE_true (show u2.storageUsage ≤ u2.near by rw [hnear]; exact husage)]
  rfl

/-- Removing the rates of a list of farms succeeds if there are no more of them than the counter says. -/
theorem removeAllRps_total (ids : List FarmId) : ∀ {m : RpsMap} {u : Farmer}, ids.Nodup →
    (ids.filter fun id => m.contains (a, id)).length ≤ u.rpsCount →
    ∃ m' u', removeAllRps a ids m u = .ok (m', u') := by
  induction ids with
  | nil => intro m u _ _; exact ⟨_, _, rfl⟩
  | cons id ids ih =>
    intro m u hnd hle
    rw [List.nodup_cons] at hnd
    rw [List.filter_cons] at hle
    unfold removeAllRps removeRps
    split at hle
    · rename_i hc
      simp only [List.length_cons] at hle
      rw [if_pos hc, show subW u.rpsCount 1 = .ok _ from subW_ok.2 ⟨by omega, rfl⟩, ok_bind, ok_bind]
      apply ih hnd.2
      simp only
      have : ids.filter (fun i => (m.erase (a, id)).contains (a, i)) =
          ids.filter (fun i => m.contains (a, i)) := by
        apply List.filter_congr
        intro i hi
        simp only [FMap.contains]
        rw [FMap.get?_erase_ne]
        intro he
        exact hnd.1 ((Prod.mk.inj he).2 ▸ hi)
      rw [this]
      omega
    · rename_i hc
      rw [if_neg hc, ok_bind]
      exact ih hnd.2 hle

/-- **C49, in part.** A registered farmer can withdraw any part of their stake, and all of it if the
counter of their recorded rates is right (`C49_stuck` if it is not; `rated_le` says when it is). -/
theorem C49_withdraw_partial (h : c.Ready x x.pred s u fs) (hx : x.deposit = 1)
    (hrun : c.running = true) {n : Nat} (hn : n ≤ c.stakeOf x.pred s) (h0 : 0 < c.stakeOf x.pred s)
    (hall : n < c.stakeOf x.pred s ∨ c.rated x.pred fs.farms ≤ u.rpsCount)
    (hseed : fs.mft = true → ∃ p, parseSeedId s = .ok p) :
    ∃ c' outs, c.exec x (.withdrawSeed s n) = .ok (c', outs) ∧
      c'.stakeOf x.pred s = c.stakeOf x.pred s - n := by
  have hI : Inv c := (h.history.choose_spec.1).reachable.inv
  have hg := hI.seeds _ _ h.seed
  obtain ⟨farms, m, u1, h1, h2⟩ := h.claims
  have hst : c.stakeOf x.pred s = u1.stake s := by
    unfold stakeOf; rw [h.farmer]; exact (stake_congr h2.seeds s).symm
  have hle : c.stakeOf x.pred s ≤ fs.amount := by
    have := c.farmers.term_le_sum (fun _ u => u.stake s) x.pred
    rw [FMap.term_some _ h.farmer] at this
    have := hg.total
    unfold stakes at this
    rw [hst, stake_congr h2.seeds]
    omega
  rw [hst] at hn hall h0 hle
  have hget : ∃ v, u1.seeds.get? s = some v ∧ u1.stake s = v := by
    unfold Farmer.stake FMap.getD at h0 ⊢
    cases hv : u1.seeds.get? s with
    | none => rw [hv] at h0; cases h0
    | some v => exact ⟨v, rfl, rfl⟩
  obtain ⟨v, hv, hvs⟩ := hget
  rw [hvs] at hn hall hle
  have hsub : ∃ u2, u1.subSeed s n = .ok (u2, v - n) ∧ u2.rpsCount = u1.rpsCount := by
    unfold Farmer.subSeed
    rw [expectE_ok.2 hv, ok_bind, assertE_true hn, ok_bind]
    split
    · exact ⟨_, rfl, rfl⟩
    · exact ⟨_, rfl, rfl⟩
  obtain ⟨u2, hsub, hcnt⟩ := hsub
  have hrem : ∃ m' u', removeAllRps x.pred (if v - n = 0 then x.order.f fs.farms else []) m u2 =
      .ok (m', u') := by
    split
    · have hp := x.order.perm fs.farms
      apply removeAllRps_total
      · exact hp.nodup_iff.2 hg.nodup
      · rw [(hp.filter _).length_eq, hcnt]
        have h3 := List.length_filter_le (fun id => m.contains (x.pred, id)) fs.farms
        have h4 := h2.count
        rcases hall with h5 | h5 <;> omega
    · exact ⟨_, _, rfl⟩
  obtain ⟨m', u3, hrem⟩ := hrem
  have hw : ∃ c', c.seedWithdraw x x.pred s n = .ok (c', fs.mft) := by
    unfold seedWithdraw
    rw [h1, ok_bind]
    unfold Contract.seed Contract.farmer
    simp only
    rw [expectE_ok.2 h.seed, ok_bind, FMap.get?_insert_self, expectE_ok.2 rfl, ok_bind, hsub, ok_bind]
    simp only
    rw [assertE_true (show fs.amount ≥ n by omega), ok_bind, hrem, ok_bind]
    exact ⟨_, rfl⟩
  obtain ⟨c', hw⟩ := hw
  have hfin := seedWithdraw_stake hI hw x.pred s
  rw [if_pos ⟨rfl, rfl⟩] at hfin
  have : ∃ outs, c.exec x (.withdrawSeed s n) = .ok (c', outs) := by
    simp only [exec]
    unfold withdrawSeed Ctx.oneYocto assertRunning
    rw [assertE_true hx, ok_bind, assertE_true hrun, ok_bind, hw, ok_bind]
    simp only
    split
    · rename_i hm
      obtain ⟨p, hp⟩ := hseed hm
      rw [hp, ok_bind]
      exact ⟨_, rfl⟩
    · exact ⟨_, rfl⟩
  obtain ⟨outs, ho⟩ := this
  exact ⟨c', outs, ho, by omega⟩

/-- **C47, in part.** If the transfer of a withdrawn reward fails while the farmer is registered, the
amount is credited to them again. Missing: the farmer has unregistered (`C47_lost`). -/
theorem C47_reward_partial {x : Ctx} {t : AccountId} {n : Nat} (hu : c.farmers.get? a = some u)
    (hlt : c.rewardOf a t + n < 2 ^ 128) :
    ∃ c', c.callback x (.reward t a n) false = .ok c' ∧
      c'.rewardOf a t = c.rewardOf a t + n := by
  have hrw : c.rewardOf a t = u.rewards.getD t 0 := by unfold rewardOf; rw [hu]
  have hadd : ∃ u1, u.addReward t n = .ok u1 := by
    unfold Farmer.addReward
    split
    · rename_i v hv
      unfold FMap.getD at hrw
      rw [hv] at hrw
      simp only [Option.getD_some] at hrw
      rw [show addW 128 v n = .ok _ from addW_ok.2 ⟨by omega, rfl⟩, ok_bind]
      exact ⟨_, rfl⟩
    · exact ⟨_, rfl⟩
  obtain ⟨u1, hadd⟩ := hadd
  obtain ⟨_, _, _, h4⟩ := Farmer.addReward_ok hadd
  unfold callback Contract.farmer
  simp only [Bool.false_eq_true, if_false]
  rw [expectE_ok.2 hu, ok_bind, hadd, ok_bind]
  refine ⟨_, rfl, ?_⟩
  have : rewardOf { c with farmers := c.farmers.insert a u1 } a t = u1.rewards.getD t 0 := by
    unfold rewardOf; simp only; rw [FMap.get?_insert_self]
  rw [this, h4, if_pos rfl, hrw]

/-- **C47, in part.** If the transfer of a withdrawn seed fails while the farmer can claim, the amount
is staked again. Missing: the farmer has unregistered (`C47_lost`) or is locked out (C49). -/
theorem C47_seed_partial (h : c.Ready x a s u fs) {n : Nat} (hlt : c.seedTotal s + n < 2 ^ 128)
    (o : Out) (ho : o = .ftSeed s a n ∨ ∃ k t, o = .mftSeed s k t a n) :
    ∃ c', c.callback x o false = .ok c' ∧ c'.stakeOf a s = c.stakeOf a s + n := by
  have hI : Inv c := (h.history.choose_spec.1).reachable.inv
  obtain ⟨farms, m, u1, h1, h2⟩ := h.claims
  have htot : c.seedTotal s = fs.amount := by unfold seedTotal; rw [h.seed]
  have hstk : u1.stake s ≤ fs.amount := by
    have hg := (hI.seeds _ _ h.seed).total
    have := c.farmers.term_le_sum (fun _ u => u.stake s) a
    rw [FMap.term_some _ h.farmer] at this
    unfold stakes at hg
    rw [stake_congr h2.seeds]
    omega
  have hadd : ∃ u2, u1.addSeed s n = .ok u2 := by
    unfold Farmer.addSeed
    split
    · rw [show addW 128 n (u1.stake s) = .ok _ from addW_ok.2 ⟨by omega, rfl⟩, ok_bind]
      exact ⟨_, rfl⟩
    · exact ⟨_, rfl⟩
  obtain ⟨u2, hadd⟩ := hadd
  have hdep : ∀ mft, ∃ c', c.seedDeposit x a s n mft = .ok c' := by
    intro mft
    unfold seedDeposit
    rw [h1, ok_bind]
    unfold addStake Contract.seed Contract.farmer
    simp only
    rw [expectE_ok.2 h.seed, ok_bind,
      show addW 128 fs.amount n = .ok _ from addW_ok.2 ⟨by omega, rfl⟩, ok_bind,
      FMap.get?_insert_self, expectE_ok.2 rfl, ok_bind, hadd, ok_bind]
    exact ⟨_, rfl⟩
  unfold callback
  simp only [Bool.false_eq_true, if_false]
  rcases ho with rfl | ⟨k, t, rfl⟩
  · obtain ⟨c', hc⟩ := hdep false
    exact ⟨c', hc, by simpa using seedDeposit_stake hI hc a s⟩
  · obtain ⟨c', hc⟩ := hdep true
    exact ⟨c', hc, by simpa using seedDeposit_stake hI hc a s⟩

end Contract
end Verif.Farming

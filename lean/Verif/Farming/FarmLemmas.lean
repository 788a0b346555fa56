import Verif.Farming.Spec

/-
What the operations on a single farm do.
-/

namespace Verif.Farming

theorem DENOM_pos : 0 < DENOM := by decide

theorem toSec_lt (t : Nat) : toSec t < 2 ^ 32 := Nat.mod_lt _ (by decide)

theorem Dist.lastRound_ok {d : Dist} {p rr added k : Nat} (h : d.lastRound p = .ok (rr, added))
    (hk : d.undistributed < k * p) (hk2 : k < 2 ^ 32) :
    added = d.undistributed ∧ d.rr ≤ rr ∧ added ≤ (rr - d.rr) * p ∧ rr ≤ d.rr + k := by
  unfold lastRound at h
  unpack at h
  obtain ⟨hp, hrr, hc, h⟩ := h
  have hq : d.undistributed / p < k := Nat.div_lt_of_lt_mul (by rwa [Nat.mul_comm])
  rw [Nat.mod_eq_of_lt (by omega)] at *
  have hdiv := Nat.div_add_mod d.undistributed p
  have hlt := Nat.mod_lt d.undistributed (Nat.pos_of_ne_zero hp)
  have hcomm : p * (d.undistributed / p) = d.undistributed / p * p := Nat.mul_comm _ _
  generalize d.undistributed / p = q at *
  split at h
  · unpack at h
    obtain ⟨_, rfl, rfl⟩ := h
    refine ⟨rfl, by omega, ?_, by omega⟩
    rw [show d.rr + q + 1 - d.rr = q + 1 by omega, Nat.add_mul]
    omega
  · unpack at h
    obtain ⟨rfl, rfl⟩ := h
    refine ⟨rfl, by omega, ?_, by omega⟩
    rw [show d.rr + q - d.rr = q by omega]
    omega

theorem nextRps_ok {rps added total r : Nat} (h : nextRps rps added total = .ok r) :
    (total = 0 ∧ r = 0) ∨ (total ≠ 0 ∧ r = rps + added * DENOM / total) := by
  unfold nextRps at h
  split at h
  · left; cases h; exact ⟨‹_›, rfl⟩
  · right
    unpack at h
    exact ⟨‹_›, h.2.2.2⟩

namespace SimpleFarm

/-- What `try_distribute` computes. `added` is what is newly handed out. -/
structure Due (f : SimpleFarm) (now total : Nat) (d : Dist) (added : Nat) : Prop where
  running : f.status = .running
  started : toNano f.terms.startAt ≤ now
  start : f.terms.startAt ≤ toSec now
  interval : f.terms.sessionInterval ≠ 0
  undistributed : d.undistributed + added = f.dist.undistributed
  unclaimed : d.unclaimed = f.dist.unclaimed + added
  rr_le : f.dist.rr ≤ d.rr
  round : d.rr ≤ (toSec now - f.terms.startAt) / f.terms.sessionInterval
  pace : added ≤ (d.rr - f.dist.rr) * f.terms.rewardPerSession
  rps0 : total = 0 → d.rps = 0
  rps : total ≠ 0 → d.rps = f.dist.rps + added * DENOM / total

theorem tryDistribute_some {f : SimpleFarm} {now total : Nat} {d : Dist}
    (h : f.tryDistribute now total = .ok (some d)) : ∃ added, f.Due now total d added := by
  unfold tryDistribute at h
  split at h
  · rename_i hrun
    split at h
    · cases h
    · rename_i hnow
      simp only [bind_ok, subW_ok, divW_ok, mulW_ok, addW_ok] at h
      obtain ⟨_, ⟨hs, rfl⟩, _, ⟨hi, rfl⟩, _, ⟨hrr, rfl⟩, _, ⟨hdue, rfl⟩, ⟨rr', added⟩, hb, h⟩ := h
      simp only at h
      obtain ⟨_, ⟨hun, rfl⟩, _, ⟨hle, rfl⟩, rps, hrps, h⟩ := h
      cases h
      have hround : (toSec now - f.terms.startAt) / f.terms.sessionInterval < 2 ^ 32 :=
        Nat.lt_of_le_of_lt (Nat.div_le_self _ _) (by have := toSec_lt now; omega)
      have key : f.dist.rr ≤ rr' ∧
          rr' ≤ (toSec now - f.terms.startAt) / f.terms.sessionInterval ∧
          added ≤ (rr' - f.dist.rr) * f.terms.rewardPerSession := by
        unfold Dist.advance at hb
        split at hb
        · rename_i hlt
          obtain ⟨_, h1, h2, h3⟩ := Dist.lastRound_ok hb hlt (by omega)
          exact ⟨h1, by omega, h2⟩
        · cases hb
          exact ⟨hrr, Nat.le_refl _, Nat.le_refl _⟩
      refine ⟨added, hrun, by omega, hs, hi, by simp only; omega, rfl, key.1, key.2.1, key.2.2, ?_, ?_⟩
      · intro h0
        rcases nextRps_ok hrps with ⟨_, h⟩ | ⟨h, _⟩
        · exact h
        · exact absurd h0 h
      · intro h0
        rcases nextRps_ok hrps with ⟨h, _⟩ | ⟨_, h⟩
        · exact absurd h h0
        · exact h
  · cases h

/-- What `distribute` does. -/
structure Distributed (f : SimpleFarm) (now total : Nat) (g : SimpleFarm) (added : Nat) : Prop where
  id : g.id = f.id
  terms : g.terms = f.terms
  reward : g.amountOfReward = f.amountOfReward
  undistributed : g.dist.undistributed + added = f.dist.undistributed
  unclaimed : total ≠ 0 → g.dist.unclaimed = f.dist.unclaimed + added
  claimed : total ≠ 0 → g.amountOfClaimed = f.amountOfClaimed
  beneficiary : total ≠ 0 → g.amountOfBeneficiary = f.amountOfBeneficiary
  rps : total ≠ 0 → g.dist.rps = f.dist.rps + added * DENOM / total
  empty : total = 0 →
    (added = 0 ∧ g.dist = f.dist ∧ g.amountOfClaimed = f.amountOfClaimed ∧
      g.amountOfBeneficiary = f.amountOfBeneficiary) ∨
    (g.dist.unclaimed = 0 ∧ g.dist.rps = 0 ∧
      g.amountOfClaimed = f.amountOfClaimed + (f.dist.unclaimed + added) ∧
      g.amountOfBeneficiary = f.amountOfBeneficiary + (f.dist.unclaimed + added))
  idle : f.status ≠ .running ∨ now < toNano f.terms.startAt → g = f
  status : g.status = f.status ∨ (f.status = .running ∧ g.status = .ended ∧ g.dist.undistributed = 0)
  rr_le : f.dist.rr ≤ g.dist.rr
  pace : added ≤ (g.dist.rr - f.dist.rr) * f.terms.rewardPerSession
  round : g.dist.rr = f.dist.rr ∨
    (f.terms.startAt ≤ toSec now ∧
      g.dist.rr ≤ (toSec now - f.terms.startAt) / f.terms.sessionInterval)
  ends : added ≠ 0 → g.dist.undistributed = 0 → g.status = .ended

theorem distribute_ok {f g : SimpleFarm} {now total : Nat} (h : f.distribute now total = .ok g) :
    ∃ added, f.Distributed now total g added := by
  unfold distribute at h
  rw [bind_ok] at h
  obtain ⟨o, ho, h⟩ := h
  cases o with
  | none =>
    cases h
    exact ⟨0, rfl, rfl, rfl, rfl, fun _ => rfl, fun _ => rfl, fun _ => rfl, by simp,
      fun _ => .inl ⟨rfl, rfl, rfl, rfl⟩, fun _ => rfl, .inl rfl, Nat.le_refl _, by simp, .inl rfl,
      fun h => absurd rfl h⟩
  | some d =>
    obtain ⟨added, hd⟩ := tryDistribute_some ho
    simp only [bind_ok] at h
    obtain ⟨f1, h1, h⟩ := h
    cases h
    have idle : ∀ g' : SimpleFarm,
        (f.status ≠ .running ∨ now < toNano f.terms.startAt → g' = f) := by
      rintro g' (h | h)
      · exact absurd hd.running h
      · exact absurd hd.started (by omega)
    -- whatever the status is set to
    have key : ∀ st : Status, (added ≠ 0 → f1.dist.undistributed = 0 → st = .ended) →
        (st = f.status ∨ (f.status = .running ∧ st = .ended ∧ f1.dist.undistributed = 0)) →
        f.Distributed now total { f1 with status := st } added := by
      intro st hends hst
      unfold adopt at h1
      split at h1
      · rename_i hrr
        cases h1
        have h0 : added = 0 := by
          have := hd.pace
          rw [← hrr] at this
          simpa using this
        subst h0
        exact ⟨rfl, rfl, rfl, rfl, fun _ => rfl, fun _ => rfl, fun _ => rfl, by simp,
          fun _ => .inl ⟨rfl, rfl, rfl, rfl⟩, idle _, hst, Nat.le_refl _, by simp,
          .inl rfl, hends⟩
      · split at h1
        · rename_i h0
          unpack at h1
          obtain ⟨_, _, rfl⟩ := h1
          exact ⟨rfl, rfl, rfl, hd.undistributed, fun h => absurd h0 h, fun h => absurd h0 h,
            fun h => absurd h0 h, fun h => absurd h0 h,
            fun _ => .inr ⟨rfl, hd.rps0 h0, by simp only [hd.unclaimed],
              by simp only [hd.unclaimed]⟩,
            idle _, hst, hd.rr_le, hd.pace, .inr ⟨hd.start, hd.round⟩, hends⟩
        · rename_i h0
          cases h1
          exact ⟨rfl, rfl, rfl, hd.undistributed, fun _ => hd.unclaimed, fun _ => rfl,
            fun _ => rfl, hd.rps, fun h => absurd h h0, idle _, hst, hd.rr_le, hd.pace,
            .inr ⟨hd.start, hd.round⟩, hends⟩
    have hst : f1.status = f.status := by
      unfold adopt at h1
      split at h1
      · cases h1; rfl
      · split at h1
        · unpack at h1
          obtain ⟨_, _, rfl⟩ := h1
          rfl
        · cases h1; rfl
    refine ⟨added, ?_⟩
    split
    · rename_i hz
      exact key .ended (fun _ _ => rfl) (.inr ⟨hd.running, rfl, hz⟩)
    · rename_i hz
      have := key f1.status (fun _ h => absurd h hz) (.inl hst)
      exact this

theorem reward_ok {seeds rps last n : Nat} (h : reward seeds rps last = .ok n) :
    last ≤ rps ∧ n = seeds * (rps - last) / DENOM := by
  unfold reward at h
  unpack at h
  exact ⟨h.1, h.2.2.2.2⟩

/-- What `claim_user_reward` does. -/
theorem claimUserReward_ok {f g : SimpleFarm} {now last seeds total v n : Nat}
    (h : f.claimUserReward now last seeds total = .ok (g, v, n)) :
    ∃ f1, f.distribute now total = .ok f1 ∧ last ≤ f1.dist.rps ∧ v = f1.dist.rps ∧
      n = seeds * (f1.dist.rps - last) / DENOM ∧ n ≤ f1.dist.unclaimed ∧
      g = { f1 with
        dist := { f1.dist with unclaimed := f1.dist.unclaimed - n }
        amountOfClaimed := f1.amountOfClaimed + n } := by
  unfold claimUserReward at h
  simp only [bind_ok] at h
  obtain ⟨f1, h1, r, hr, h⟩ := h
  obtain ⟨hle, hn⟩ := reward_ok hr
  refine ⟨f1, h1, hle, ?_⟩
  split at h
  · unpack at h
    obtain ⟨hu, _, rfl, rfl, rfl⟩ := h
    exact ⟨rfl, hn, hu, rfl⟩
  · rename_i hz
    cases h
    have : n = 0 := by omega
    subst this
    exact ⟨rfl, hn, Nat.zero_le _, rfl⟩

/-- What `add_reward` does. -/
structure Funded (f : SimpleFarm) (now n : Nat) (g : SimpleFarm) : Prop where
  id : g.id = f.id
  seed : g.terms.seedId = f.terms.seedId
  token : g.terms.rewardToken = f.terms.rewardToken
  perSession : g.terms.rewardPerSession = f.terms.rewardPerSession
  interval : g.terms.sessionInterval = f.terms.sessionInterval
  start : g.terms.startAt = f.terms.startAt ∨ (f.status = .created ∧ g.terms.startAt = toSec now)
  reward : g.amountOfReward = f.amountOfReward + n
  reward_lt : g.amountOfReward < 2 ^ 128
  undistributed : g.dist.undistributed = f.dist.undistributed + n
  unclaimed : g.dist.unclaimed = f.dist.unclaimed
  rps : g.dist.rps = f.dist.rps
  rr : g.dist.rr = f.dist.rr
  claimed : g.amountOfClaimed = f.amountOfClaimed
  beneficiary : g.amountOfBeneficiary = f.amountOfBeneficiary
  before : f.status = .created ∨ f.status = .running
  after : g.status = .running

theorem addReward_ok {f g : SimpleFarm} {now n : Nat} (h : f.addReward now n = .ok (some g)) :
    f.Funded now n g := by
  unfold addReward at h
  split at h
  · rename_i hs
    unpack at h
    obtain ⟨h1, h2, h⟩ := h
    cases h
    refine ⟨rfl, rfl, rfl, rfl, rfl, ?_, rfl, h1, rfl, rfl, rfl, rfl, rfl, rfl, .inl hs, rfl⟩
    simp only
    split
    · exact .inr ⟨hs, rfl⟩
    · exact .inl rfl
  · rename_i hs
    simp only [bind_ok] at h
    obtain ⟨o, _, h⟩ := h
    split at h
    · cases h
    · unpack at h
      obtain ⟨h1, h2, h⟩ := h
      cases h
      exact ⟨rfl, rfl, rfl, rfl, rfl, .inl rfl, rfl, h1, rfl, rfl, rfl, rfl, rfl, rfl, .inr hs, hs⟩
  · cases h

theorem clear_ok {f g : SimpleFarm} (hs : f.status = .ended) (h : f.clear = .ok g) :
    g = { f with
      dist := { f.dist with unclaimed := 0 }
      amountOfClaimed := f.amountOfClaimed + f.dist.unclaimed
      amountOfBeneficiary := f.amountOfBeneficiary + f.dist.unclaimed
      status := .cleared } := by
  unfold clear at h
  rw [if_pos hs] at h
  split at h
  · unpack at h
    exact h.2.2.symm
  · rename_i hz
    cases h
    have h0 : f.dist.unclaimed = 0 := by omega
    obtain ⟨id, terms, status, ⟨und, unc, rps, rr⟩, rew, cl, ben⟩ := f
    simp only at h0
    subst h0
    rfl

theorem Distributed.refl (f : SimpleFarm) (now total : Nat) : f.Distributed now total f 0 :=
  ⟨rfl, rfl, rfl, rfl, fun _ => rfl, fun _ => rfl, fun _ => rfl, by simp,
    fun _ => .inl ⟨rfl, rfl, rfl, rfl⟩, fun _ => rfl, .inl rfl, Nat.le_refl _, by simp, .inl rfl,
    fun h => absurd rfl h⟩

/-- What clearing a removable farm does. -/
theorem moveToClear_ok {f g : SimpleFarm} {now total : Nat}
    (hr : f.canBeRemoved now total = .ok true) (h : f.moveToClear now total = .ok g) :
    ∃ f1 added, f.Distributed now total f1 added ∧ f1.status = .ended ∧
      g = { f1 with
        dist := { f1.dist with unclaimed := 0 }
        amountOfClaimed := f1.amountOfClaimed + f1.dist.unclaimed
        amountOfBeneficiary := f1.amountOfBeneficiary + f1.dist.unclaimed
        status := .cleared } := by
  unfold canBeRemoved at hr
  unfold moveToClear at h
  split at hr
  · rename_i hs
    rw [if_neg (by rw [hs]; decide)] at h
    exact ⟨f, 0, .refl f now total, hs, clear_ok hs h⟩
  · rename_i hs
    rw [if_pos hs, bind_ok] at h
    obtain ⟨f1, h1, h⟩ := h
    obtain ⟨added, hd⟩ := distribute_ok h1
    have he : f1.status = .ended := by
      rw [bind_ok] at hr
      obtain ⟨o, ho, hr⟩ := hr
      cases o with
      | none => simp at hr
      | some d =>
        have hz : d.undistributed = 0 := by simpa using hr
        unfold distribute at h1
        rw [ho, ok_bind] at h1
        simp only [bind_ok] at h1
        obtain ⟨f2, h2, h1⟩ := h1
        have hu : f2.dist.undistributed = 0 := by
          obtain ⟨a, hdue⟩ := tryDistribute_some ho
          unfold adopt at h2
          split at h2
          · rename_i hrr
            cases h2
            have h0 : a = 0 := by
              have := hdue.pace
              rw [← hrr] at this
              simpa using this
            have := hdue.undistributed
            omega
          · split at h2
            · unpack at h2
              obtain ⟨_, _, rfl⟩ := h2
              exact hz
            · cases h2; exact hz
        rw [if_pos hu] at h1
        cases h1
        rfl
    exact ⟨f1, added, hd, he, clear_ok he h⟩
  · cases hr

end SimpleFarm
end Verif.Farming

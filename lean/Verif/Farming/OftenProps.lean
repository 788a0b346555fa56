import Verif.Boost.WaitProps

/-
C114: claiming more often does not earn more in the farming contract.
-/

namespace Verif.Farming

theorem add_div_le (a b n : Nat) : a / n + b / n ≤ (a + b) / n := by
  rcases Nat.eq_zero_or_pos n with rfl | h
  · simp
  · rw [Nat.le_div_iff_mul_le h, Nat.add_mul]
    exact Nat.add_le_add (Nat.div_mul_le_self a n) (Nat.div_mul_le_self b n)

/-- The round of a farm at a moment. -/
def SimpleFarm.roundAt (f : SimpleFarm) (now : Nat) : Nat :=
  (toSec now - f.terms.startAt) / f.terms.sessionInterval

/-- What a distribution does to a running farm. -/
structure SimpleFarm.Runs (f : SimpleFarm) (now total : Nat) (g : SimpleFarm) (m : Nat) : Prop where
  running : f.status = .running
  started : toNano f.terms.startAt ≤ now
  round : f.dist.rr ≤ f.roundAt now
  terms : g.terms = f.terms
  amount : m = min f.dist.undistributed ((f.roundAt now - f.dist.rr) * f.terms.rewardPerSession)
  rps : g.dist.rps = f.dist.rps + m * DENOM / total
  left : g.dist.undistributed + m = f.dist.undistributed
  rr : m = f.dist.undistributed ∨ g.dist.rr = f.roundAt now
  over : g.dist.undistributed = 0 → g.status ≠ .running

theorem SimpleFarm.distribute_runs {f g : SimpleFarm} {now total : Nat} (h : f.distribute now total = .ok g)
    (h0 : total ≠ 0) :
    ((f.status ≠ .running ∨ now < toNano f.terms.startAt) ∧ g = f) ∨ ∃ m, f.Runs now total g m := by
  unfold SimpleFarm.distribute at h
  rw [bind_ok] at h
  obtain ⟨o, ho, h⟩ := h
  cases o with
  | none => cases h; exact .inl ⟨SimpleFarm.tryDistribute_none ho, rfl⟩
  | some d =>
    right
    simp only at h
    rw [bind_ok] at h
    obtain ⟨f1, h1, h⟩ := h
    unfold SimpleFarm.tryDistribute at ho
    split at ho
    swap
    · cases ho
    rename_i hrun
    split at ho
    · cases ho
    rename_i hnow
    simp only [bind_ok, subW_ok, divW_ok, mulW_ok, addW_ok] at ho
    obtain ⟨_, ⟨_, rfl⟩, _, ⟨_, rfl⟩, _, ⟨hrr, rfl⟩, _, ⟨_, rfl⟩, ⟨rr', m⟩, hb, ho⟩ := ho
    simp only at ho
    obtain ⟨_, ⟨_, rfl⟩, _, ⟨hle, rfl⟩, rps, hrps, ho⟩ := ho
    have hm := Dist.advance_amount hb
    have hrps : rps = f.dist.rps + m * DENOM / total := by
      rcases nextRps_ok hrps with ⟨h1, _⟩ | ⟨_, h1⟩
      · exact absurd h1 h0
      · exact h1
    have hr' : m = f.dist.undistributed ∨ rr' = f.roundAt now := by
      unfold Dist.advance at hb
      split at hb
      · left; omega
      · cases hb; exact .inr rfl
    have hpace : rr' = f.dist.rr → m = 0 := by
      intro e
      unfold Dist.advance at hb
      split at hb
      · unfold Dist.lastRound at hb
        simp only [bind_ok, divW_ok, addW_ok, mulW_ok] at hb
        obtain ⟨_, ⟨_, rfl⟩, _, ⟨_, rfl⟩, _, ⟨_, rfl⟩, hb⟩ := hb
        generalize f.dist.undistributed / f.terms.rewardPerSession % 2 ^ 32 = q at hb
        split at hb
        · unpack at hb
          omega
        · rename_i hq
          cases hb
          have : q = 0 := by omega
          subst this
          omega
      · cases hb
        rw [e]; simp
    cases ho
    unfold SimpleFarm.adopt at h1
    refine ⟨m, ?_⟩
    have fin : ∀ {f1 : SimpleFarm}, f1.terms = f.terms → f1.dist.rps = f.dist.rps + m * DENOM / total →
        f1.dist.undistributed + m = f.dist.undistributed →
        (m = f.dist.undistributed ∨ f1.dist.rr = f.roundAt now) →
        (.ok (if f1.dist.undistributed = 0 then { f1 with status := .ended } else f1) : R SimpleFarm) = .ok g →
        f.Runs now total g m := by
      intro f1 e1 e2 e3 e4 h
      have h := Except.ok.inj h
      subst h
      refine ⟨hrun, by omega, hrr, ?_, hm, ?_, ?_, ?_, ?_⟩
      · split <;> exact e1
      · split <;> exact e2
      · split <;> exact e3
      · split <;> exact e4
      · split
        · exact fun _ => by simp
        · intro h; contradiction
    simp only at h1
    split at h1
    · rename_i e
      have hm0 := hpace e.symm
      cases h1
      exact fin (f1 := f) rfl (by rw [hm0]; simp) (by omega) (by rw [e]; exact hr') h
    · cases h1
      exact fin (f1 := { f with dist := ⟨f.dist.undistributed - m, f.dist.unclaimed + m, rps, rr'⟩ }) rfl
        hrps (by show f.dist.undistributed - m + m = _; omega) hr' h

/-- Distributing in between does not raise the rate. -/
theorem SimpleFarm.distribute_between {f g g1 g2 k : SimpleFarm} {now now' total : Nat} (hle : now ≤ now')
    (hlt : now' < 2 ^ 32 * 10 ^ 9) (h0 : total ≠ 0) (h : f.distribute now total = .ok g)
    (hs : g1.status = g.status) (ht : g1.terms = g.terms)
    (hu : g1.dist.undistributed = g.dist.undistributed) (hrr : g1.dist.rr = g.dist.rr)
    (hrps : g1.dist.rps = g.dist.rps) (h1 : g1.distribute now' total = .ok g2)
    (h' : f.distribute now' total = .ok k) : g2.dist.rps ≤ k.dist.rps := by
  have hsec : toSec now ≤ toSec now' := by
    have h1 : now' / 10 ^ 9 < 2 ^ 32 := Nat.div_lt_of_lt_mul (by omega)
    have h2 : now / 10 ^ 9 ≤ now' / 10 ^ 9 := Nat.div_le_div_right hle
    unfold toSec
    rw [Nat.mod_eq_of_lt h1, Nat.mod_eq_of_lt (by omega)]
    exact h2
  rcases SimpleFarm.distribute_runs h h0 with ⟨_, rfl⟩ | ⟨m, a⟩
  · rcases SimpleFarm.distribute_runs h1 h0 with ⟨i, rfl⟩ | ⟨m1, b⟩
    · rw [hrps]
      rcases SimpleFarm.distribute_runs h' h0 with ⟨_, rfl⟩ | ⟨m', b⟩
      · exact Nat.le_refl _
      · rw [b.rps]; exact Nat.le_add_right _ _
    · rcases SimpleFarm.distribute_runs h' h0 with ⟨i, rfl⟩ | ⟨m', b'⟩
      · have b1 := b.running
        have b2 := b.started
        rw [hs] at b1
        rw [ht] at b2
        rcases i with i | i
        · exact absurd b1 i
        · omega
      · have e : m1 = m' := by
          rw [b.amount, b'.amount]
          unfold SimpleFarm.roundAt
          rw [ht, hu, hrr]
        rw [b.rps, b'.rps, hrps, e]
  · rcases SimpleFarm.distribute_runs h' h0 with ⟨i, rfl⟩ | ⟨m', b'⟩
    · have := a.started
      rcases i with i | i
      · exact absurd a.running i
      · omega
    · have hround : f.roundAt now ≤ f.roundAt now' := Nat.div_le_div_right (by omega)
      have hmm : m ≤ m' := by
        have e2 := Nat.mul_le_mul_right f.terms.rewardPerSession (Nat.sub_le_sub_right hround f.dist.rr)
        rw [a.amount, b'.amount]
        omega
      rcases SimpleFarm.distribute_runs h1 h0 with ⟨i, rfl⟩ | ⟨m1, b⟩
      · rw [hrps, a.rps, b'.rps]
        exact Nat.add_le_add_left (Nat.div_le_div_right (Nat.mul_le_mul_right _ hmm)) _
      · have hsum : m + m1 ≤ m' := by
          have b1 := b.amount
          have e : g1.roundAt now' = f.roundAt now' := by
            unfold SimpleFarm.roundAt
            rw [ht, a.terms]
          rw [hu, hrr, e, ht, a.terms] at b1
          have a1 := a.left
          rcases a.rr with r | r
          · omega
          · rw [r] at b1
            have b2 := b'.amount
            have a2 := a.amount
            have e3 : (f.roundAt now - f.dist.rr) * f.terms.rewardPerSession +
                (f.roundAt now' - f.roundAt now) * f.terms.rewardPerSession =
                (f.roundAt now' - f.dist.rr) * f.terms.rewardPerSession := by
              rw [← Nat.add_mul]
              have := a.round
              congr 1
              omega
            omega
        rw [b.rps, b'.rps, hrps, a.rps, Nat.add_assoc]
        refine Nat.add_le_add_left (Nat.le_trans (add_div_le _ _ _)
          (Nat.div_le_div_right ?_)) _
        rw [← Nat.add_mul]
        exact Nat.mul_le_mul_right _ hsum

namespace Contract

variable {c c' c'' d : Contract}

/-- A claim from a farm moves no stake. -/
theorem claimByFarm_stake {x : Ctx} {a : AccountId} {id : FarmId} {u u' : Farmer}
    (h : c.claimByFarm x a id = .ok c') (hu : c.farmers.get? a = some u)
    (hu' : c'.farmers.get? a = some u') : c'.seeds = c.seeds ∧ u'.seeds = u.seeds := by
  unfold claimByFarm farmer at h
  simp only [bind_ok, expectE_ok] at h
  obtain ⟨v, hv, s, _, h⟩ := h
  rw [hu] at hv
  cases hv
  split at h
  · simp only [bind_ok, Prod.exists, Except.ok.injEq] at h
    obtain ⟨f1, m, u1, hc, rfl⟩ := h
    rw [FMap.get?_insert_self] at hu'
    cases hu'
    refine ⟨rfl, ?_⟩
    unfold claimFromFarm at hc
    simp only [bind_ok, Prod.exists] at hc
    obtain ⟨_, _, n, _, _, u2, hset, hc⟩ := hc
    have h1 := (setRps_ok hset).2.1
    split at hc
    · unpack at hc
      obtain ⟨u3, h4, rfl, rfl, rfl⟩ := hc
      exact (Farmer.addReward_ok h4).1.trans h1
    · cases hc
      exact h1
  · cases h
    rw [hu] at hu'
    cases hu'
    exact ⟨rfl, rfl⟩

/-- **C114.** A farmer who claims from a farm and claims again later has, in every token, at most what
they would have had if they had claimed only at the later moment. -/
theorem C114_often (hr : c.Reachable) {x x' : Ctx} {id : FarmId} {o1 o2 o : List Out}
    (ha : x'.pred = x.pred) (hle : x.now ≤ x'.now) (hlt : x'.now < 2 ^ 32 * 10 ^ 9)
    (h1 : c.exec x (.claimRewardByFarm id) = .ok (c', o1))
    (h2 : c'.exec x' (.claimRewardByFarm id) = .ok (c'', o2))
    (h : c.exec x' (.claimRewardByFarm id) = .ok (d, o)) (t : AccountId) :
    c''.rewardOf x.pred t ≤ d.rewardOf x.pred t := by
  have hr1 : c'.Reachable := by
    have h3 := hr.step (.call x (.claimRewardByFarm id))
    unfold step apply at h3
    simp only [h1] at h3
    exact h3
  have k1 := (claimRewardByFarm_inv (exec_quiet h1).1).2.1
  have k2 := (claimRewardByFarm_inv (exec_quiet h2).1).2.1
  have k := (claimRewardByFarm_inv (exec_quiet h).1).2.1
  rw [ha] at k2 k
  generalize x.pred = a at *
  rcases claimByFarm_paid hr.inv k1 with ⟨hn, rfl⟩ |
    ⟨f, g, fs, u, u1, _, n1, hf, hs, hu, hu1, hg, hd, hrw1, _, _, hf1, hl1, hrew1⟩
  · rw [k] at k2
    cases k2
    exact Nat.le_refl _
  obtain ⟨hseeds, hus⟩ := claimByFarm_stake k1 hu hu1
  rcases claimByFarm_paid hr1.inv k2 with ⟨hn, _⟩ |
    ⟨f', g2, fs', v, u2, _, n2, hf', hs', hv, hu2, hg2, _, hrw2, _, _, _, _, hrew2⟩
  · rw [hf1] at hn; cases hn
  rw [hf1] at hf'
  cases hf'
  rw [hu1] at hv
  cases hv
  simp only [hd.terms] at hs' hrw2 hrew2
  rw [hseeds, hs] at hs'
  cases hs'
  rcases claimByFarm_paid hr.inv k with ⟨hn, _⟩ |
    ⟨f', g', fs', v, u', _, n, hf', hs', hv, hu', hg', _, hrw, _, _, _, _, hrew⟩
  · rw [hf] at hn; cases hn
  rw [hf] at hf'
  cases hf'
  rw [hs] at hs'
  cases hs'
  rw [hu] at hv
  cases hv
  have hst : u1.stake f.terms.seedId = u.stake f.terms.seedId := by
    unfold Farmer.stake
    rw [hus]
  have hsum : n1 + n2 ≤ n := by
    obtain ⟨l1, e1⟩ := SimpleFarm.reward_ok hrw1
    obtain ⟨l2, e2⟩ := SimpleFarm.reward_ok hrw2
    obtain ⟨l, e⟩ := SimpleFarm.reward_ok hrw
    rw [hl1] at l2 e2
    rw [hst] at e2
    by_cases h0 : fs.amount = 0
    · have hz : u.stake f.terms.seedId = 0 := by
        have h2 := c.farmers.term_le_sum (fun _ u => u.stake f.terms.seedId) a
        rw [FMap.term_some _ hu] at h2
        have h3 := (hr.inv.seeds _ fs hs).total
        unfold stakes at h3
        omega
      rw [e1, e2, hz]
      simp
    · have hrate := SimpleFarm.distribute_between hle hlt h0 hg (g1 := { g with
        dist := { g.dist with unclaimed := g.dist.unclaimed - n1 }
        amountOfClaimed := g.amountOfClaimed + n1 }) rfl rfl rfl rfl rfl hg2 hg'
      rw [e1, e2, e]
      refine Nat.le_trans (add_div_le _ _ _) (Nat.div_le_div_right ?_)
      rw [← Nat.mul_add]
      exact Nat.mul_le_mul_left _ (by omega)
  rw [rewardOf_some hu2, rewardOf_some hu', hrew2, hrew1, hrew]
  split <;> omega

open Demo in
example : (c1.exec (at' 1025 al) (.claimRewardByFarm F)).holds (fun r => r.1.rewardOf al R' < 225 ∧
      (r.1.exec (at' 1035 al) (.claimRewardByFarm F)).holds (fun r => r.1.rewardOf al R' = 225)) = true ∧
    (c1.exec (at' 1035 al) (.claimRewardByFarm F)).holds (fun r => r.1.rewardOf al R' = 225) = true := by
  decide +kernel

/-- `a` claims from the farm at some moments and at last in `x'`, which leads from the first contract to
the second. A claim in `x'` would have succeeded at any time. -/
def Claims (a : AccountId) (id : FarmId) (x' : Ctx) : Contract → List Ctx → Contract → Prop
  | c, [], d => ∃ o, c.exec x' (.claimRewardByFarm id) = .ok (d, o)
  | c, x :: xs, d => x.pred = a ∧ x.now ≤ x'.now ∧
      (∃ c' o, c.exec x (.claimRewardByFarm id) = .ok (c', o) ∧ Claims a id x' c' xs d) ∧
      ∃ r, c.exec x' (.claimRewardByFarm id) = .ok r

/-- **C114, any number of claims.** However often a farmer claims from a farm, they have in every token
at most what they would have had if they had claimed only at the last of these moments. -/
theorem C114_any_number {x' : Ctx} {id : FarmId} {o : List Out} {xs : List Ctx} (hr : c.Reachable)
    (hlt : x'.now < 2 ^ 32 * 10 ^ 9) (hx : Claims x'.pred id x' c xs c'')
    (h : c.exec x' (.claimRewardByFarm id) = .ok (d, o)) (t : AccountId) :
    c''.rewardOf x'.pred t ≤ d.rewardOf x'.pred t := by
  induction xs generalizing c d o with
  | nil =>
    obtain ⟨_, hx⟩ := hx
    rw [h] at hx
    cases hx
    exact Nat.le_refl _
  | cons x xs ih =>
    obtain ⟨ha, hle, ⟨c1, o1, h1, hx⟩, _⟩ := hx
    have hr1 : c1.Reachable := by
      have h3 := hr.step (.call x (.claimRewardByFarm id))
      unfold step apply at h3
      simp only [h1] at h3
      exact h3
    have : ∃ r, c1.exec x' (.claimRewardByFarm id) = .ok r := by
      cases xs with
      | nil => obtain ⟨_, hx⟩ := hx; exact ⟨_, hx⟩
      | cons y ys => exact hx.2.2.2
    obtain ⟨⟨e, o2⟩, h2⟩ := this
    have h4 := C114_often hr ha.symm hle hlt h1 h2 h t
    rw [ha] at h4
    exact Nat.le_trans (ih hr1 hx h2) h4

open Demo in
example : (c1.exec (at' 1015 al) (.claimRewardByFarm F)).holds (fun r => r.1.rewardOf al R' < 225 ∧
      (r.1.exec (at' 1035 al) (.claimRewardByFarm F)).holds (fun _ => true) ∧
      (r.1.exec (at' 1025 al) (.claimRewardByFarm F)).holds (fun r => r.1.rewardOf al R' < 225 ∧
        (r.1.exec (at' 1035 al) (.claimRewardByFarm F)).holds (fun r => r.1.rewardOf al R' = 225))) =
      true := by
  decide +kernel

end Contract

end Verif.Farming

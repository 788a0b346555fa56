import Verif.Boost.FrontProps
import Verif.Farming.FrontProps

/-
C113: waiting never lowers an unclaimed farming reward.
-/

namespace Verif.Farming

theorem Dist.advance_amount {d : Dist} {n rr due rr' m : Nat} (h : d.advance n rr due = .ok (rr', m)) :
    m = min d.undistributed due := by
  unfold Dist.advance at h
  split at h
  · unfold Dist.lastRound at h
    unpack at h
    obtain ⟨_, _, _, h⟩ := h
    split at h
    · unpack at h
      omega
    · unpack at h
      omega
  · cases h
    omega

/-- The rate after a distribution is the rate before and what the rounds that have passed call for, or
what is left if that is less. -/
theorem SimpleFarm.tryDistribute_rate {f : SimpleFarm} {now total : Nat} {d : Dist}
    (h : f.tryDistribute now total = .ok (some d)) (h0 : total ≠ 0) :
    f.status = .running ∧ toNano f.terms.startAt ≤ now ∧ d.rps = f.dist.rps + min f.dist.undistributed
      (((toSec now - f.terms.startAt) / f.terms.sessionInterval - f.dist.rr) * f.terms.rewardPerSession) *
        DENOM / total := by
  unfold SimpleFarm.tryDistribute at h
  split at h
  · rename_i hrun
    split at h
    · cases h
    · rename_i hnow
      simp only [bind_ok, subW_ok, divW_ok, mulW_ok, addW_ok] at h
      obtain ⟨_, ⟨_, rfl⟩, _, ⟨_, rfl⟩, _, ⟨_, rfl⟩, _, ⟨_, rfl⟩, ⟨rr', added⟩, hb, h⟩ := h
      simp only at h
      obtain ⟨_, _, _, _, rps, hrps, h⟩ := h
      cases h
      refine ⟨hrun, by omega, ?_⟩
      rcases nextRps_ok hrps with ⟨h1, _⟩ | ⟨_, h1⟩
      · exact absurd h1 h0
      · rw [h1, Dist.advance_amount hb]
  · cases h

theorem SimpleFarm.tryDistribute_none {f : SimpleFarm} {now total : Nat}
    (h : f.tryDistribute now total = .ok none) : f.status ≠ .running ∨ now < toNano f.terms.startAt := by
  unfold SimpleFarm.tryDistribute at h
  split at h
  · split at h
    · exact .inr ‹_›
    · simp only [bind_ok] at h
      obtain ⟨_, _, _, _, _, _, _, _, ⟨_, _⟩, _, h⟩ := h
      simp only at h
      obtain ⟨_, _, _, _, _, _, h⟩ := h
      cases h
  · exact .inl ‹_›

theorem SimpleFarm.viewUnclaimed_mono {f : SimpleFarm} {now now' last seeds total n n' : Nat}
    (hle : now ≤ now') (hlt : now' < 2 ^ 32 * 10 ^ 9) (h : f.viewUnclaimed now last seeds total = .ok n)
    (h' : f.viewUnclaimed now' last seeds total = .ok n') : n ≤ n' := by
  unfold SimpleFarm.viewUnclaimed at h h'
  split at h
  · cases h; exact Nat.zero_le _
  rename_i h0
  rw [if_neg h0] at h'
  split at h
  · cases h; exact Nat.zero_le _
  rename_i h1
  rw [if_neg h1] at h'
  rw [bind_ok] at h h'
  obtain ⟨o, ho, h⟩ := h
  obtain ⟨o', ho', h'⟩ := h'
  have hs : toSec now ≤ toSec now' := by
    have h1 : now' / 10 ^ 9 < 2 ^ 32 := Nat.div_lt_of_lt_mul (by omega)
    have h2 : now / 10 ^ 9 ≤ now' / 10 ^ 9 := Nat.div_le_div_right hle
    unfold toSec
    rw [Nat.mod_eq_of_lt h1, Nat.mod_eq_of_lt (by omega)]
    exact h2
  have key : ∀ {r r' : Nat}, r ≤ r' → SimpleFarm.reward seeds r last = .ok n →
      SimpleFarm.reward seeds r' last = .ok n' → n ≤ n' := by
    intro r r' hr h h'
    rw [(SimpleFarm.reward_ok h).2, (SimpleFarm.reward_ok h').2]
    exact Nat.div_le_div_right (Nat.mul_le_mul_left _ (by omega))
  cases o with
  | none =>
    cases o' with
    | none => exact key (Nat.le_refl _) h h'
    | some d' => exact key (by rw [(SimpleFarm.tryDistribute_rate ho' h0).2.2]; exact Nat.le_add_right _ _) h h'
  | some d =>
    obtain ⟨g1, g2, g3⟩ := SimpleFarm.tryDistribute_rate ho h0
    cases o' with
    | none =>
      rcases SimpleFarm.tryDistribute_none ho' with g | g
      · exact absurd g1 g
      · omega
    | some d' =>
      obtain ⟨_, _, g4⟩ := SimpleFarm.tryDistribute_rate ho' h0
      refine key ?_ h h'
      rw [g3, g4]
      have e1 : (toSec now - f.terms.startAt) / f.terms.sessionInterval ≤
          (toSec now' - f.terms.startAt) / f.terms.sessionInterval := Nat.div_le_div_right (by omega)
      have e2 := Nat.mul_le_mul_right f.terms.rewardPerSession (Nat.sub_le_sub_right e1 f.dist.rr)
      refine Nat.add_le_add_left (Nat.div_le_div_right (Nat.mul_le_mul_right _ ?_)) _
      omega

namespace Contract

variable {c c' : Contract}

/-- **C113.** While nothing is called, what a farmer can claim from a farm does not fall. -/
theorem C113_waiting {now now' n n' : Nat} {a : AccountId} {id : FarmId} (hle : now ≤ now')
    (hlt : now' < 2 ^ 32 * 10 ^ 9) (h : c.getUnclaimedReward now a id = .ok n)
    (h' : c.getUnclaimedReward now' a id = .ok n') : n ≤ n' := by
  unfold getUnclaimedReward at h h'
  rw [bind_ok] at h h'
  obtain ⟨s, hs, h⟩ := h
  obtain ⟨s', hs', h'⟩ := h'
  rw [hs] at hs'
  cases hs'
  split at h
  · simp only [*] at h'
    exact SimpleFarm.viewUnclaimed_mono hle hlt h h'
  · cases h
    exact Nat.zero_le _

/-- From time `t` to time `t'` the calls `es` are made, none of them by `a` and none that clears farm
`id`, and at each of these moments the farm tells what `a` can claim. -/
def Watched (a : AccountId) (id : FarmId) (t' : Nat) : Contract → Nat → List Event → Prop
  | _, t, [] => t ≤ t'
  | c, t, e :: es => t ≤ e.ctx.now ∧ e.farmer ≠ some a ∧ (∀ x, e ≠ .call x (.forceCleanFarm id)) ∧
      (c.getUnclaimedReward e.ctx.now a id).isOk = true ∧ Watched a id t' (c.step e) e.ctx.now es

theorem Watched.le {a : AccountId} {id : FarmId} {t' : Nat} : ∀ {es : List Event} {c : Contract} {t : Nat},
    c.Watched a id t' t es → t ≤ t'
  | [], _, _, h => h
  | _ :: _, _, _, h => Nat.le_trans h.1 h.2.2.2.2.le

/-- **C113.** It does not fall either through what others do in the meantime. -/
theorem C113_others (hr : c.Reachable) {a : AccountId} {id : FarmId} {f : SimpleFarm}
    (hf : c.farms.get? id = some f) (hc : f.status ≠ .created) {es : List Event} {t t' n n' : Nat}
    (hlt : t' < 2 ^ 32 * 10 ^ 9) (hes : c.Watched a id t' t es) (h : c.getUnclaimedReward t a id = .ok n)
    (h' : (c.run es).getUnclaimedReward t' a id = .ok n') : n ≤ n' := by
  induction es generalizing c f t n with
  | nil => exact C113_waiting hes hlt h h'
  | cons e es ih =>
    obtain ⟨h1, h2, h3, h4, h5⟩ := hes
    obtain ⟨⟨f', hf', _, hc'⟩, h6⟩ := step_view hr hf hc h2 h3
    cases h7 : c.getUnclaimedReward e.ctx.now a id with
    | error e => rw [h7] at h4; cases h4
    | ok m =>
      exact Nat.le_trans (C113_waiting h1 (Nat.lt_of_le_of_lt h5.le hlt) h h7)
        (ih (hr.step e) hf' hc' h5 (h6.trans h7) h')

open Demo in
/-- While `al` waits, `bo` doubles their stake and claims. -/
private def meanwhile : List Event := [
  .call (at' 1025 S) (.ftOnTransfer bo 10 []),
  .call (at' 1030 bo) (.claimRewardByFarm F)]

open Demo in
example : c1.Watched al F (1035 * 10 ^ 9) (1020 * 10 ^ 9) meanwhile :=
  ⟨by decide, by decide, fun _ h => (by cases h), by decide +kernel,
    ⟨by decide, by decide, fun _ h => (by cases h), by decide +kernel,
      (by decide : 1030 * 10 ^ 9 ≤ 1035 * 10 ^ 9)⟩⟩

open Demo in
example : (c1.farms.get? F).map (·.status) = some .running ∧
    c1.getUnclaimedReward (1020 * 10 ^ 9) al F = .ok 150 ∧
    (c1.run meanwhile).getUnclaimedReward (1035 * 10 ^ 9) al F = .ok 210 := by decide +kernel

end Contract

end Verif.Farming

namespace Verif.Boost

theorem SeedFarm.release_ok {now r : Nat} {f : SeedFarm} (h : f.release now = .ok r) :
    r = min (f.total - f.distributed) (f.daily * (now - f.distributedAt) / (24 * 60 * 60 * 10 ^ 9)) := by
  unfold SeedFarm.release u128Ratio at h
  unpack at h
  obtain ⟨_, _, _, rfl⟩ := h
  rfl

theorem SeedFarm.update_mono {now now' power : Nat} {f g g' : SeedFarm} (hle : now ≤ now')
    (h : f.update now power = .ok g) (h' : f.update now' power = .ok g') : g.rps ≤ g'.rps := by
  have up := SeedFarm.update_ok h'
  have low : f.rps ≤ g'.rps := by
    obtain ⟨r, _, _, _, hr, _⟩ := up.released
    rw [hr]
    exact Nat.le_add_right _ _
  unfold SeedFarm.update at h
  split at h
  · cases h; exact low
  rename_i hd
  cases hst : f.status now <;> rw [hst] at h <;> simp only at h
  · cases h; exact low
  · cases h; exact low
  · have hst' : f.status now' = .running := by
      unfold SeedFarm.status at hst ⊢
      split at hst
      · cases hst
      rename_i h1
      split at hst
      · cases hst
      rename_i h2
      split at hst
      · cases hst
      rename_i h3
      rw [if_neg (by omega), if_neg (by omega), if_neg h3]
    unfold SeedFarm.update at h'
    rw [if_neg (by omega), hst'] at h'
    simp only at h'
    rw [bind_ok] at h h'
    obtain ⟨r, hr, h⟩ := h
    obtain ⟨r', hr', h'⟩ := h'
    rw [bind_ok] at h h'
    obtain ⟨_, _, h⟩ := h
    obtain ⟨_, _, h'⟩ := h'
    have hrr : r ≤ r' := by
      rw [SeedFarm.release_ok hr, SeedFarm.release_ok hr']
      have := Nat.div_le_div_right (c := 24 * 60 * 60 * 10 ^ 9)
        (Nat.mul_le_mul_left f.daily (Nat.sub_le_sub_right hle f.distributedAt))
      generalize f.daily * (now - f.distributedAt) / (24 * 60 * 60 * 10 ^ 9) = y at this ⊢
      generalize f.daily * (now' - f.distributedAt) / (24 * 60 * 60 * 10 ^ 9) = z at this ⊢
      omega
    split at h
    · rename_i hp
      rw [if_pos hp] at h'
      rw [bind_ok] at h h'
      obtain ⟨a, ha, h⟩ := h
      obtain ⟨b, hb, h'⟩ := h'
      rw [addW_ok] at ha hb
      rw [← Except.ok.inj h, ← Except.ok.inj h']
      show a ≤ b
      rw [ha.2, hb.2]
      exact Nat.add_le_add_left (Nat.div_le_div_right (Nat.mul_le_mul_right _ hrr)) _
    · rw [bind_ok] at h
      obtain ⟨_, _, h⟩ := h
      rw [← Except.ok.inj h]
      exact low
  · cases h; exact low

namespace Contract

variable {fl : Floats} {c : Contract}

/-- What the farms of an updated seed show as earned by `a` in token `t`. -/
def shows (fl : Floats) (c : Contract) (a : AccountId) (s : SeedId) (t : AccountId) (sd : Seed) : Nat :=
  sd.farms.sum fun id g => if g.token = t then (c.stakeOf a s).earned ((c.stakeOf a s).pow fl) id g else 0

theorem shows_later {now now' : Nat} {a t : AccountId} {s : SeedId} {sd sd' : Seed} (hle : now ≤ now')
    (h : c.seed now s = .ok sd) (h' : c.seed now' s = .ok sd') :
    c.shows fl a s t sd ≤ c.shows fl a s t sd' := by
  obtain ⟨old, hs, up⟩ := Contract.seed_ok h
  obtain ⟨old', hs', up'⟩ := Contract.seed_ok h'
  rw [hs] at hs'
  cases hs'
  refine FMap.sum_le_terms fun id => ?_
  cases hg : sd.farms.get? id with
  | none => rw [FMap.term_none _ hg]; exact Nat.zero_le _
  | some g =>
    obtain ⟨f, hf, hu⟩ := up.inv id g hg
    obtain ⟨g', hg', _⟩ := up'.kept id f hf
    obtain ⟨f', hf', hu'⟩ := up'.inv id g' hg'
    rw [hf] at hf'
    cases hf'
    rw [FMap.term_some _ hg, FMap.term_some _ hg', (SeedFarm.update_ok hu).token,
      (SeedFarm.update_ok hu').token]
    split
    · unfold FarmerSeed.earned
      exact Nat.div_le_div_right (Nat.mul_le_mul_right _ (Nat.sub_le_sub_right
        (SeedFarm.update_mono hle hu hu') _))
    · exact Nat.le_refl _

theorem shows_step (hr : c.Reachable fl) {e : Event} {a t : AccountId} {s : SeedId} {sd sd' : Seed}
    (ha : e.k.actor e.x ≠ some a)
    (hlive : ∀ id f, c.farmOf s id = some f → 0 < f.total → ∃ f', (c.step fl e).farmOf s id = some f')
    (h : c.seed e.x.now s = .ok sd) (h' : (c.step fl e).seed e.x.now s = .ok sd') :
    c.shows fl a s t sd ≤ (c.step fl e).shows fl a s t sd' := by
  obtain ⟨old, hs, up⟩ := Contract.seed_ok h
  obtain ⟨old', hs', up'⟩ := Contract.seed_ok h'
  refine FMap.sum_le_terms fun id => ?_
  cases hg : sd.farms.get? id with
  | none => rw [FMap.term_none _ hg]; exact Nat.zero_le _
  | some g =>
    rw [FMap.term_some _ hg]
    obtain ⟨f, hf, hu⟩ := up.inv id g hg
    by_cases ht : f.total = 0
    · rw [earned_unfunded hr.inv h hg (by rw [(SeedFarm.update_ok hu).total, ht])]
      split <;> exact Nat.zero_le _
    · obtain ⟨f', hf'⟩ := hlive id f (by rw [farmOf_of hs, hf]) (by omega)
      rw [farmOf_of hs'] at hf'
      obtain ⟨g', hg', _⟩ := up'.kept id f' hf'
      obtain ⟨e1, e2⟩ := shown_earned (es := [e]) hr.inv
        (fun e' he => by rw [List.mem_singleton.1 he]; exact ⟨rfl, ha⟩) hs up hs' up' hf hf' hg hg' (by omega)
      rw [FMap.term_some _ hg', e1]
      exact Nat.le_of_eq (by rw [← e2]; rfl)

/-- From time `t` to time `t'` the calls `es` are made, none of them by `a` and none that removes a farm
of seed `s` with reward, and at each of these moments the seed can be read. -/
def Watched (fl : Floats) (a : AccountId) (s : SeedId) (t' : Nat) : Contract → Nat → List Event → Prop
  | _, t, [] => t ≤ t'
  | c, t, e :: es => t ≤ e.x.now ∧ e.k.actor e.x ≠ some a ∧
      (∀ id f, c.farmOf s id = some f → 0 < f.total → ∃ f', (c.step fl e).farmOf s id = some f') ∧
      (c.seed e.x.now s).isOk = true ∧ ((c.step fl e).seed e.x.now s).isOk = true ∧
      Watched fl a s t' (c.step fl e) e.x.now es

theorem Watched.shows {a t : AccountId} {s : SeedId} {t1 : Nat} : ∀ {es : List Event} {c : Contract}
    {t0 : Nat} {sd sd' : Seed}, c.Reachable fl → c.Watched fl a s t1 t0 es → c.seed t0 s = .ok sd →
    (c.run fl es).seed t1 s = .ok sd' →
    c.shows fl a s t sd ≤ (c.run fl es).shows fl a s t sd' ∧ ∀ e ∈ es, e.k.actor e.x ≠ some a
  | [], _, _, _, _, _, hes, h, h' => ⟨shows_later hes h h', fun _ h => (List.not_mem_nil h).elim⟩
  | e :: es, c, _, _, _, hr, hes, h, h' => by
    obtain ⟨h1, h2, h3, h4, h5, h6⟩ := hes
    cases h7 : c.seed e.x.now s with
    | error _ => rw [h7] at h4; cases h4
    | ok sd1 =>
      cases h8 : (c.step fl e).seed e.x.now s with
      | error _ => rw [h8] at h5; cases h5
      | ok sd2 =>
        obtain ⟨g1, g2⟩ := Watched.shows (hr.step e) h6 h8 h'
        exact ⟨Nat.le_trans (shows_later h1 h h7) (Nat.le_trans (shows_step hr h2 h3 h7 h8) g1),
          List.forall_mem_cons.2 ⟨h2, g2⟩⟩

/-- **C113.** A claim that is made later credits no less in any token, whatever others do in the
meantime. -/
theorem C113_later_claim (hr : c.Reachable fl) {x x' : Ctx} {s : SeedId} (ha : x.pred = x'.pred)
    {es : List Event} (hes : c.Watched fl x.pred s x'.now x.now es) {c1 c2 : Contract} {o1 o2 : List Out}
    (h1 : c.exec fl x (.claimReward s) = .ok (c1, o1))
    (h2 : (c.run fl es).exec fl x' (.claimReward s) = .ok (c2, o2))
    (t : AccountId) : c1.rewardOf x.pred t ≤ c2.rewardOf x.pred t := by
  obtain ⟨_, sd, _, _, hsd, hp, _⟩ := claim_pays hr.inv h1
  obtain ⟨_, sd', _, _, hsd', hp', _⟩ := claim_pays (hr.inv.run (es := es)) h2
  rw [← ha] at hp'
  obtain ⟨h3, h4⟩ := hes.shows (t := t) hr hsd hsd'
  rw [hp t, hp' t, rewardOf_run es hr h4 t]
  exact Nat.add_le_add_left h3 _

open Demo in
/-- While `al` waits, `bo` doubles their stake. -/
private def meanwhile : List Event := [⟨at' 1004 S, .ftOnTransfer bo 3000 .free⟩]

open Demo in
example : c1.Watched Demo.fl al S (at' 1005 al).now (at' 1003 al).now meanwhile := by
  refine ⟨by decide, by decide, fun id f hf _ => ?_, by decide +kernel, by decide +kernel,
    (by decide : 1004 * 10 ^ 9 ≤ 1005 * 10 ^ 9)⟩
  have key : ∀ p ∈ ((c1.seeds.get? S).map (fun sd => sd.farms.keys)).getD [],
      ((c1.step Demo.fl ⟨at' 1004 S, .ftOnTransfer bo 3000 .free⟩).farmOf S p).isSome = true := by
    decide +kernel
  obtain ⟨sd, hs, hf⟩ := farmOf_some hf
  exact Option.isSome_iff_exists.1 (key id (by
    rw [hs]
    exact List.mem_map.2 ⟨(id, f), (sd.farms.mem_entries_iff).2 hf, rfl⟩))

open Demo in
example : (c1.exec Demo.fl (at' 1003 al) (.claimReward S)).toOption.map (·.1.rewardOf al T) = some 120 ∧
    (c1.exec Demo.fl (at' 1005 al) (.claimReward S)).toOption.map (·.1.rewardOf al T) = some 240 ∧
    ((c1.run Demo.fl meanwhile).exec Demo.fl (at' 1005 al) (.claimReward S)).toOption.map
      (·.1.rewardOf al T) = some 217 := by
  decide +kernel

end Contract

end Verif.Boost

import Verif.Farming.Demo
import Verif.Farming.Effects

/-
The life of a farm (C48).
-/

namespace Verif.Farming

/-- What is true of a farm at every time. -/
structure SimpleFarm.Alive (f : SimpleFarm) : Prop where
  fresh : f.status = .created → f.dist.unclaimed = 0 ∧ f.amountOfClaimed = 0 ∧ f.dist.rr = 0
  over : f.status = .ended ∨ f.status = .cleared → f.dist.undistributed = 0
  pace : f.released ≤ f.dist.rr * f.terms.rewardPerSession

theorem SimpleFarm.Distributed.released {f g : SimpleFarm} {now total added : Nat}
    (h : f.Distributed now total g added) : g.released = f.released + added := by
  unfold SimpleFarm.released
  by_cases h0 : total = 0
  · rcases h.empty h0 with ⟨ha, hd, hc, _⟩ | ⟨hu, _, hc, _⟩
    · rw [hd, hc, ha]; rfl
    · omega
  · have := h.unclaimed h0
    have := h.claimed h0
    omega

theorem SimpleFarm.Distributed.alive {f g : SimpleFarm} {now total added : Nat}
    (h : f.Distributed now total g added) (ha : f.Alive) : g.Alive := by
  by_cases hr : f.status = .running
  · refine ⟨?_, ?_, ?_⟩
    · intro hs
      rcases h.status with h1 | ⟨_, h1, _⟩
      · rw [h1, hr] at hs; cases hs
      · rw [h1] at hs; cases hs
    · intro hs
      rcases h.status with h1 | ⟨_, h1, h2⟩
      · rw [h1, hr] at hs; rcases hs with hs | hs <;> cases hs
      · exact h2
    · rw [h.released, h.terms]
      have h1 := ha.pace
      have h2 := h.pace
      have h3 := h.rr_le
      have h4 : g.dist.rr * f.terms.rewardPerSession =
          f.dist.rr * f.terms.rewardPerSession + (g.dist.rr - f.dist.rr) * f.terms.rewardPerSession := by
        rw [← Nat.add_mul]; congr 1; omega
      omega
  · rw [h.idle (.inl hr)]; exact ha

theorem SimpleFarm.Alive.claim {g : SimpleFarm} (ha : g.Alive) {n : Nat} (hn : n ≤ g.dist.unclaimed) :
    SimpleFarm.Alive { g with
      dist := { g.dist with unclaimed := g.dist.unclaimed - n }
      amountOfClaimed := g.amountOfClaimed + n } ∧
    SimpleFarm.released { g with
      dist := { g.dist with unclaimed := g.dist.unclaimed - n }
      amountOfClaimed := g.amountOfClaimed + n } = g.released := by
  have hrel : SimpleFarm.released { g with
      dist := { g.dist with unclaimed := g.dist.unclaimed - n }
      amountOfClaimed := g.amountOfClaimed + n } = g.released := by
    unfold SimpleFarm.released; simp only; omega
  refine ⟨⟨?_, ha.over, ?_⟩, hrel⟩
  · intro hs
    obtain ⟨h1, h2, h3⟩ := ha.fresh hs
    exact ⟨by simp only; omega, by simp only; omega, h3⟩
  · rw [hrel]; exact ha.pace

theorem SimpleFarm.Alive.clear {g : SimpleFarm} (ha : g.Alive) (he : g.status = .ended) :
    SimpleFarm.Alive { g with
      dist := { g.dist with unclaimed := 0 }
      amountOfClaimed := g.amountOfClaimed + g.dist.unclaimed
      amountOfBeneficiary := g.amountOfBeneficiary + g.dist.unclaimed
      status := .cleared } ∧
    SimpleFarm.released { g with
      dist := { g.dist with unclaimed := 0 }
      amountOfClaimed := g.amountOfClaimed + g.dist.unclaimed
      amountOfBeneficiary := g.amountOfBeneficiary + g.dist.unclaimed
      status := .cleared } = g.released := by
  have hrel : SimpleFarm.released { g with
      dist := { g.dist with unclaimed := 0 }
      amountOfClaimed := g.amountOfClaimed + g.dist.unclaimed
      amountOfBeneficiary := g.amountOfBeneficiary + g.dist.unclaimed
      status := .cleared } = g.released := by
    unfold SimpleFarm.released; simp only; omega
  refine ⟨⟨fun h => (by cases h), fun _ => ha.over (.inl he), ?_⟩, hrel⟩
  rw [hrel]; exact ha.pace

theorem SimpleFarm.Funded.alive {f g : SimpleFarm} {now n : Nat} (h : f.Funded now n g)
    (ha : f.Alive) : g.Alive ∧ g.released = f.released := by
  have hrel : g.released = f.released := by
    unfold SimpleFarm.released; rw [h.unclaimed, h.claimed]
  refine ⟨⟨?_, ?_, ?_⟩, hrel⟩
  · intro hs; rw [h.after] at hs; cases hs
  · intro hs; rw [h.after] at hs; rcases hs with hs | hs <;> cases hs
  · rw [hrel, h.rr, h.perSession]; exact ha.pace

theorem SimpleFarm.new_alive (id : FarmId) (t : Terms) : (SimpleFarm.new id t).Alive :=
  ⟨fun _ => ⟨rfl, rfl, rfl⟩, fun h => (by rcases h with h | h <;> cases h), Nat.zero_le _⟩

/-- How a farm changes in an event. -/
theorem FarmEffect.cases' {c c' : Contract} {e : Event} {id : FarmId} (hI : Inv c)
    (h : FarmEffect c c' e id) {f' : SimpleFarm} (hf' : c'.IsFarm id f') :
    c.IsFarm id f' ∨
    (∃ f g total added n, c.farms.get? id = some f ∧ f.Distributed e.ctx.now total g added ∧
      n ≤ g.dist.unclaimed ∧ f' = { g with
        dist := { g.dist with unclaimed := g.dist.unclaimed - n }
        amountOfClaimed := g.amountOfClaimed + n }) ∨
    (∃ f n, c.farms.get? id = some f ∧ f.Funded e.ctx.now n f') ∨
    (∃ f g total added, c.farms.get? id = some f ∧ f.Distributed e.ctx.now total g added ∧
      g.status = .ended ∧ f' = { g with
        dist := { g.dist with unclaimed := 0 }
        amountOfClaimed := g.amountOfClaimed + g.dist.unclaimed
        amountOfBeneficiary := g.amountOfBeneficiary + g.dist.unclaimed
        status := .cleared }) ∨
    ((∀ f, ¬ c.IsFarm id f) ∧ ∃ t, f' = .new id t) := by
  have hno : ∀ {f : SimpleFarm}, c.farms.get? id = some f → c.outdated.get? id = none := by
    intro f hf
    cases ho : c.outdated.get? id with
    | none => rfl
    | some g =>
      have := (hI.outdated id g ho).2.2.2.2
      rw [hf] at this
      cases this
  rcases h with ⟨a1, a2⟩ | ⟨a1, a2, a3, a4, a5, a6⟩ | ⟨a1, a2, a3, a4, a5, a6, a7⟩ |
    ⟨a1, a2, a3, a4, a5, a6⟩ | ⟨a1, a2, a3, a4, a5⟩
  · left
    unfold Contract.IsFarm at hf' ⊢
    rw [a1, a2] at hf'
    exact hf'
  · right; left
    rcases hf' with hf' | hf'
    · rw [a5] at hf'; cases hf'
      exact ⟨_, _, _, _, _, a1, a3, a4, rfl⟩
    · rw [a6, hno a1] at hf'; cases hf'
  · right; right; left
    rcases hf' with hf' | hf'
    · rw [a6] at hf'; cases hf'
      rw [a1]
      exact ⟨_, _, a4, a5⟩
    · rw [a7, hno a4] at hf'; cases hf'
  · right; right; right; left
    rcases hf' with hf' | hf'
    · rw [a5] at hf'; cases hf'
    · rw [a6] at hf'; cases hf'
      exact ⟨_, _, _, _, a1, a3, a4, rfl⟩
  · right; right; right; right
    rcases hf' with hf' | hf'
    · rw [a4] at hf'; cases hf'
      refine ⟨?_, _, rfl⟩
      rintro f (hf | hf)
      · rw [a1] at hf; cases hf
      · rw [a2] at hf; cases hf
    · rw [a5] at hf'; cases hf'

namespace Contract

theorem Reachable.alive {c : Contract} (hr : c.Reachable) {id : FarmId} {f : SimpleFarm}
    (h : c.IsFarm id f) : f.Alive := by
  have key : Inv c ∧ ∀ id f, c.IsFarm id f → f.Alive := by
    refine Reachable.induct (P := fun c => Inv c ∧ ∀ id f, c.IsFarm id f → f.Alive) ?_ ?_ hr
    · intro owner
      refine ⟨Inv.init owner, ?_⟩
      rintro id f (hf | hf) <;> simp [Contract.init, FMap.get?_empty] at hf
    · rintro c e c' outs ⟨hI, ha⟩ h
      refine ⟨hI.apply h, ?_⟩
      intro id f' hf'
      rcases (farm_effect hI h id).cases' hI hf' with h1 | ⟨f, g, t, ad, n, h1, h2, h3, rfl⟩ |
        ⟨f, n, h1, h2⟩ | ⟨f, g, t, ad, h1, h2, h3, rfl⟩ | ⟨_, t, rfl⟩
      · exact ha id f' h1
      · exact ((h2.alive (ha id f (.inl h1))).claim h3).1
      · exact (h2.alive (ha id f (.inl h1))).1
      · exact ((h2.alive (ha id f (.inl h1))).clear h3).1
      · exact SimpleFarm.new_alive id t
  exact key.2 id f h

/-- A farm stays a farm. -/
theorem FarmEffect.persists {c c' : Contract} {e : Event} {id : FarmId} (h : FarmEffect c c' e id)
    {f : SimpleFarm} (hf : c.IsFarm id f) : ∃ f', c'.IsFarm id f' := by
  rcases h with ⟨a1, a2⟩ | ⟨a1, a2, a3, a4, a5, a6⟩ | ⟨a1, a2, a3, a4, a5, a6, a7⟩ |
    ⟨a1, a2, a3, a4, a5, a6⟩ | ⟨a1, a2, a3, a4, a5⟩
  · refine ⟨f, ?_⟩
    unfold IsFarm at hf ⊢
    rw [a1, a2]; exact hf
  · exact ⟨_, .inl a5⟩
  · exact ⟨_, .inl a6⟩
  · exact ⟨_, .inr a6⟩
  · exact ⟨_, .inl a4⟩

private theorem isFarm_unique {c : Contract} (hI : Inv c) {id : FarmId} {f g : SimpleFarm}
    (hf : c.IsFarm id f) (hg : c.IsFarm id g) : f = g := by
  rcases hf with hf | hf <;> rcases hg with hg | hg
  · rw [hf] at hg; cases hg; rfl
  · have := (hI.outdated id g hg).2.2.2.2; rw [hf] at this; cases this
  · have := (hI.outdated id f hf).2.2.2.2; rw [hg] at this; cases this
  · rw [hf] at hg; cases hg; rfl

/-- One event: the farm is still there, its stage does not go back, and what it has released does not
shrink. If it was ended, nothing changes but that reward is claimed or handed to the beneficiary. -/
theorem C48_step {c c' : Contract} (hr : c.Reachable) {e : Event} {outs : List Out}
    (h : c.apply e = .ok (c', outs)) {id : FarmId} {f : SimpleFarm} (hf : c.IsFarm id f) :
    ∃ f', c'.IsFarm id f' ∧ f.status.rank ≤ f'.status.rank ∧ f.released ≤ f'.released ∧
      f.amountOfReward ≤ f'.amountOfReward ∧
      (2 ≤ f.status.rank → f'.released = f.released ∧ f'.amountOfReward = f.amountOfReward ∧
        f'.dist.undistributed = 0) ∧
      (f'.released ≠ f.released → f.status = .running ∧ toNano f.terms.startAt ≤ e.ctx.now) ∧
      (f'.released ≠ f.released → f'.dist.undistributed = 0 → 2 ≤ f'.status.rank) := by
  have hI := hr.inv
  have ha := hr.alive hf
  have he := farm_effect hI h id
  obtain ⟨f', hf'⟩ := FarmEffect.persists he hf
  have dist : ∀ {g : SimpleFarm} {t ad : Nat}, f.Distributed e.ctx.now t g ad →
      f.status.rank ≤ g.status.rank ∧ f.released ≤ g.released ∧ g.amountOfReward = f.amountOfReward ∧
      (2 ≤ f.status.rank → g.released = f.released ∧ g.dist.undistributed = 0) ∧
      (g.released ≠ f.released → f.status = .running ∧ toNano f.terms.startAt ≤ e.ctx.now) ∧
      (g.released ≠ f.released → g.dist.undistributed = 0 → g.status = .ended) := by
    intro g t ad hd
    have hrel := hd.released
    refine ⟨?_, by omega, hd.reward, ?_, ?_, fun hne => hd.ends (by omega)⟩
    · rcases hd.status with h1 | ⟨h1, h2, _⟩
      · rw [h1]
      · rw [h1, h2]; decide
    · intro h2
      have hne : f.status ≠ .running := by intro h3; rw [h3] at h2; exact absurd h2 (by decide)
      rw [hd.idle (.inl hne)]
      refine ⟨rfl, ha.over ?_⟩
      cases hs : f.status <;> rw [hs] at h2 <;> first | exact absurd h2 (by decide) | simp
    · intro hne
      by_contra hcon
      apply hne
      rw [hd.idle]
      by_cases hs : f.status = .running
      · right
        by_contra hlt
        exact hcon ⟨hs, by omega⟩
      · exact .inl hs
  refine ⟨f', hf', ?_⟩
  rcases he.cases' hI hf' with h1 | ⟨f0, g, t, ad, n, h1, h2, h3, rfl⟩ |
    ⟨f0, n, h1, h2⟩ | ⟨f0, g, t, ad, h1, h2, h3, rfl⟩ | ⟨hno, t, rfl⟩
  · have := isFarm_unique hI hf h1
    subst this
    refine ⟨Nat.le_refl _, Nat.le_refl _, Nat.le_refl _, ?_, fun h => absurd rfl h, fun h => absurd rfl h⟩
    intro h2
    refine ⟨rfl, rfl, ha.over ?_⟩
    cases hs : f.status <;> rw [hs] at h2 <;> first | exact absurd h2 (by decide) | simp
  · have := isFarm_unique hI hf (.inl h1)
    subst this
    obtain ⟨_, hrel⟩ := (h2.alive ha).claim h3
    obtain ⟨d1, d2, d3, d4, d5, d6⟩ := dist h2
    rw [hrel]
    refine ⟨d1, d2, Nat.le_of_eq d3.symm, fun h => ⟨(d4 h).1, d3, (d4 h).2⟩, d5, ?_⟩
    intro hne hz
    show 2 ≤ g.status.rank
    rw [d6 hne hz]; decide
  · have := isFarm_unique hI hf (.inl h1)
    subst this
    obtain ⟨_, hrel⟩ := h2.alive ha
    rw [hrel]
    refine ⟨?_, Nat.le_refl _, by rw [h2.reward]; omega, ?_, fun h => absurd rfl h, fun h => absurd rfl h⟩
    · rw [h2.after]
      rcases h2.before with h3 | h3 <;> rw [h3] <;> decide
    · intro h3
      rcases h2.before with h4 | h4 <;> rw [h4] at h3 <;> exact absurd h3 (by decide)
  · have := isFarm_unique hI hf (.inl h1)
    subst this
    obtain ⟨_, hrel⟩ := (h2.alive ha).clear h3
    obtain ⟨d1, d2, d3, d4, d5, _⟩ := dist h2
    rw [hrel]
    refine ⟨?_, d2, Nat.le_of_eq d3.symm, fun h => ⟨(d4 h).1, d3, (d4 h).2⟩, d5, fun _ _ => (by decide : 2 ≤ Status.cleared.rank)⟩
    show f.status.rank ≤ Status.cleared.rank
    cases f.status <;> decide
  · exact absurd hf (hno f)

/-- **C48.** Once a farm is ended it has handed out all its reward, and whatever happens afterwards it
stays ended (or is cleared), accepts no further reward and hands out nothing more. -/
theorem C48_ended {c : Contract} (hr : c.Reachable) {id : FarmId} {f : SimpleFarm}
    (hf : c.IsFarm id f) (hs : f.status = .ended ∨ f.status = .cleared) (es : List Event) :
    f.dist.undistributed = 0 ∧ ∃ f', (c.run es).IsFarm id f' ∧
      (f'.status = .ended ∨ f'.status = .cleared) ∧ f'.released = f.released ∧
      f'.amountOfReward = f.amountOfReward ∧ f'.dist.undistributed = 0 := by
  have rank : ∀ s : Status, (s = .ended ∨ s = .cleared) ↔ 2 ≤ s.rank := by
    intro s; cases s <;> simp [Status.rank]
  refine ⟨(hr.alive hf).over hs, ?_⟩
  have h0 := (hr.alive hf).over hs
  rw [rank] at hs
  induction es generalizing c f with
  | nil => exact ⟨f, hf, (rank _).2 hs, rfl, rfl, h0⟩
  | cons e es ih =>
    have hstep : ∃ f', (c.step e).IsFarm id f' ∧ 2 ≤ f'.status.rank ∧ f'.released = f.released ∧
        f'.amountOfReward = f.amountOfReward ∧ f'.dist.undistributed = 0 := by
      unfold step
      cases ha : c.apply e with
      | error _ => exact ⟨f, hf, hs, rfl, rfl, h0⟩
      | ok r =>
        obtain ⟨f', h1, h2, _, _, h5, _⟩ := C48_step hr ha hf
        obtain ⟨h6, h7, h8⟩ := h5 hs
        exact ⟨f', h1, by omega, h6, h7, h8⟩
    obtain ⟨f', h1, h2, h3, h4, h5⟩ := hstep
    obtain ⟨f'', g1, g2, g3, g4, g5⟩ := ih (hr.step e) h1 h2 h5
    exact ⟨f'', g1, g2, g3.trans h3, g4.trans h4, g5⟩

open Demo in
/-- In `c3` the farm has ended; further reward is refused and nothing more is released. -/
example : (c3.farms.get? F).map (·.status) = some .ended ∧
    (c3.exec (at' 1300 R') (.ftOnTransfer own 5 F)).holds (fun _ => true) = false ∧
    (c3.exec (at' 1300 al) (.claimRewardByFarm F)).holds (fun r =>
      (r.1.farms.get? F).map (·.released) = some 1000) = true ∧
    (c3.farms.get? F).map (·.released) = some 1000 := by decide +kernel

/-- Whatever is due is paid from what is left. -/
theorem Dist.lastRound_all {d : Dist} {p rr added : Nat} (h : d.lastRound p = .ok (rr, added)) :
    added = d.undistributed := by
  unfold Dist.lastRound at h
  unpack at h
  obtain ⟨_, _, _, h⟩ := h
  split at h
  · unpack at h
    exact h.2.2.symm
  · cases h; rfl

/-- **C48.** A farm is funded only while it has reward left to release: reward sent to an ended
farm, or to one whose remaining reward is due for the sessions that have passed, is refused, even if
nobody has called the contract since. -/
theorem C48_exhausted {c c' : Contract} {x : Ctx} {sender : AccountId} {n : Nat} {id : FarmId}
    {outs : List Out} {f : SimpleFarm} (hf : c.farms.get? id = some f) (hid : id ≠ [])
    (h : c.exec x (.ftOnTransfer sender n id) = .ok (c', outs)) :
    f.status = .created ∨ (f.status = .running ∧
      (toNano f.terms.startAt ≤ x.now →
        ((toSec x.now - f.terms.startAt) / f.terms.sessionInterval - f.dist.rr) *
          f.terms.rewardPerSession < f.dist.undistributed)) := by
  obtain ⟨_, ⟨h0, _⟩ | ⟨_, f', f1, hf', _, ha, _⟩⟩ := ftOnTransfer_inv (exec_quiet h).1
  · exact absurd h0 hid
  rw [hf] at hf'
  cases hf'
  unfold SimpleFarm.addReward at ha
  cases hs : f.status with
  | created => exact .inl rfl
  | ended => rw [hs] at ha; cases ha
  | cleared => rw [hs] at ha; cases ha
  | running =>
    right
    refine ⟨rfl, fun hnow => ?_⟩
    rw [hs] at ha
    simp only [bind_ok] at ha
    obtain ⟨o, ho, ha⟩ := ha
    by_cases h0 : (o.any (fun d => d.undistributed = 0)) = true
    · rw [if_pos h0] at ha
      cases ha
    · unfold SimpleFarm.tryDistribute at ho
      rw [if_pos hs, if_neg (by omega)] at ho
      simp only [bind_ok, subW_ok, divW_ok, mulW_ok, addW_ok] at ho
      obtain ⟨_, ⟨_, rfl⟩, _, ⟨_, rfl⟩, _, ⟨_, rfl⟩, _, ⟨_, rfl⟩, ⟨rr', added⟩, hb, ho⟩ := ho
      simp only at ho
      obtain ⟨_, ⟨_, rfl⟩, _, ⟨hle, rfl⟩, rps, _, ho⟩ := ho
      cases ho
      simp only [Option.any_some, decide_eq_true_eq] at h0
      unfold Dist.advance at hb
      split at hb
      · have := Dist.lastRound_all hb
        omega
      · cases hb
        omega

open Demo in
/-- Ten sessions pay out the whole reward: before that the farm can be funded, after that not,
although it is still recorded as running with all its reward left. -/
example : (c1.farms.get? F).map (fun f => (f.status, f.dist.undistributed)) =
      some (.running, 1000) ∧
    (c1.exec (at' 1099 R') (.ftOnTransfer own 500 F)).isOk = true ∧
    (c1.exec (at' 1100 R') (.ftOnTransfer own 500 F)).isOk = false ∧
    (c3.exec (at' 1200 R') (.ftOnTransfer own 500 F)).isOk = false := by decide +kernel

/-- **C48.** The stage of a farm never goes back, and an event that hands out the last of the reward
ends the farm. -/
theorem C48_forward {c c' : Contract} (hr : c.Reachable) {e : Event} {outs : List Out}
    (h : c.apply e = .ok (c', outs)) {id : FarmId} {f : SimpleFarm} (hf : c.IsFarm id f) :
    ∃ f', c'.IsFarm id f' ∧ f.status.rank ≤ f'.status.rank ∧ f.released ≤ f'.released ∧
      (f'.released ≠ f.released → f'.dist.undistributed = 0 →
        f'.status = .ended ∨ f'.status = .cleared) := by
  obtain ⟨f', h1, h2, h3, _, _, _, h7⟩ := C48_step hr h hf
  refine ⟨f', h1, h2, h3, fun hne hz => ?_⟩
  have := h7 hne hz
  cases hs : f'.status <;> rw [hs] at this <;> first | exact absurd this (by decide) | simp

open Demo in
/-- The claim that leads to `c3` releases the last of the reward. -/
example : (c2.farms.get? F).map (fun f => (f.status, f.released)) = some (.running, 200) ∧
    (c3.farms.get? F).map (fun f => (f.status, f.released, f.dist.undistributed)) =
      some (.ended, 1000, 0) := by decide +kernel

/-- The clock of the contract: seconds with 32 bits. It wraps around in the year 2106. -/
private theorem toSec_mono {t t' : Nat} (h : t ≤ t') (hlt : t' < 2 ^ 32 * 10 ^ 9) :
    toSec t ≤ toSec t' ∧ toSec t' = t' / 10 ^ 9 := by
  have h1 : t' / 10 ^ 9 < 2 ^ 32 := Nat.div_lt_of_lt_mul (by omega)
  have h2 : t / 10 ^ 9 ≤ t' / 10 ^ 9 := Nat.div_le_div_right h
  unfold toSec
  rw [Nat.mod_eq_of_lt h1, Nat.mod_eq_of_lt (by omega)]
  exact ⟨h2, rfl⟩

/-- The round of a farm is one that has begun. -/
def Timely (f : SimpleFarm) (t : Nat) : Prop :=
  f.dist.rr = 0 ∨ (f.terms.startAt ≤ toSec t ∧ toNano f.terms.startAt ≤ t ∧
    f.dist.rr ≤ (toSec t - f.terms.startAt) / f.terms.sessionInterval)

theorem Timely.mono {f : SimpleFarm} {t t' : Nat} (h : Timely f t) (hle : t ≤ t')
    (hlt : t' < 2 ^ 32 * 10 ^ 9) : Timely f t' := by
  have := (toSec_mono hle hlt).1
  rcases h with h | ⟨h1, h2, h3⟩
  · exact .inl h
  · exact .inr ⟨by omega, by omega, Nat.le_trans h3 (Nat.div_le_div_right (by omega))⟩

theorem At.timely {c : Contract} {t : Nat} (h : c.At t) (hlt : t < 2 ^ 32 * 10 ^ 9) {id : FarmId}
    {f : SimpleFarm} (hf : c.IsFarm id f) : Timely f t := by
  induction h generalizing f with
  | init owner t =>
    rcases hf with hf | hf <;> simp [Contract.init, FMap.get?_empty] at hf
  | @step c t e hat hle ih =>
    have hI := hat.reachable.inv
    unfold Contract.step at hf
    cases ha : c.apply e with
    | error _ =>
      rw [ha] at hf
      exact (ih (by omega) hf).mono hle hlt
    | ok r =>
      rw [ha] at hf
      have old : ∀ {f : SimpleFarm}, c.IsFarm id f → Timely f e.ctx.now := fun h =>
        (ih (by omega) h).mono hle hlt
      have dist : ∀ {f g : SimpleFarm} {tt ad : Nat}, c.IsFarm id f →
          f.Distributed e.ctx.now tt g ad → Timely g e.ctx.now := by
        intro f g tt ad hf hd
        by_cases hi : f.status ≠ .running ∨ e.ctx.now < toNano f.terms.startAt
        · rw [hd.idle hi]; exact old hf
        · rcases hd.round with h1 | ⟨h1, h2⟩
          · unfold Timely
            rw [h1, hd.terms]
            exact old hf
          · right
            rw [hd.terms]
            exact ⟨h1, by omega, h2⟩
      rcases (farm_effect hI ha id).cases' hI hf with h1 | ⟨f0, g, tt, ad, n, h1, h2, h3, rfl⟩ |
        ⟨f0, n, h1, h2⟩ | ⟨f0, g, tt, ad, h1, h2, h3, rfl⟩ | ⟨_, tt, rfl⟩
      · exact old h1
      · have := dist (.inl h1) h2
        exact this
      · have := old (.inl h1)
        unfold Timely at this ⊢
        rw [h2.rr, h2.interval]
        rcases h2.start with h3 | ⟨h3, _⟩
        · rw [h3]; exact this
        · exact .inl (((hat.reachable).alive (.inl h1)).fresh h3).2.2
      · have := dist (.inl h1) h2
        exact this
      · exact .inl rfl

/-- **C48.** A farm releases nothing before its start, and by any later time at most its reward per
session for every session that has passed since. -/
theorem C48_pace {c : Contract} {t : Nat} (h : c.At t) (hlt : t < 2 ^ 32 * 10 ^ 9) {id : FarmId}
    {f : SimpleFarm} (hf : c.IsFarm id f) :
    (t < toNano f.terms.startAt → f.released = 0) ∧
    f.released ≤
      (t / 10 ^ 9 - f.terms.startAt) / f.terms.sessionInterval * f.terms.rewardPerSession := by
  have ht := h.timely hlt hf
  have hp := (h.reachable.alive hf).pace
  have hsec := (toSec_mono (Nat.le_refl t) hlt).2
  constructor
  · intro hb
    rcases ht with h1 | ⟨_, h2, _⟩
    · rw [h1] at hp; simpa using hp
    · omega
  · refine Nat.le_trans hp (Nat.mul_le_mul_right _ ?_)
    rw [← hsec]
    rcases ht with h1 | ⟨_, _, h3⟩
    · rw [h1]; exact Nat.zero_le _
    · exact h3

open Demo in
/-- The farm started at second 1000. At second 1035 it has released three sessions. -/
example : (c1.farms.get? F).map (·.terms.startAt) = some 1000 ∧
    (c1.exec (at' 1035 al) (.claimRewardByFarm F)).holds (fun r =>
      (r.1.farms.get? F).map (·.released) = some ((1035 - 1000) / 10 * 100)) = true ∧
    (c1.exec (at' 1009 al) (.claimRewardByFarm F)).holds (fun r =>
      (r.1.farms.get? F).map (·.released) = some 0) = true := by decide +kernel

open Demo in
/-- The clock of the demo runs forward. -/
example : c3.At (1200 * 10 ^ 9) := by
  have h := (At.init own (1000 * 10 ^ 9)).run setup (by decide +kernel)
  have h1 : ((setup.map (·.ctx.now)).getLastD (1000 * 10 ^ 9)) ≤ 1020 * 10 ^ 9 := by decide +kernel
  exact (h.step (.call (at' 1020 al) (.claimRewardByFarm F)) h1).step
    (.call (at' 1200 bo) (.claimRewardBySeed S)) (by decide +kernel)

end Contract
end Verif.Farming

import Verif.Farming.EarnProps
import Mathlib.Algebra.BigOperators.Group.Finset.Basic
import Mathlib.Algebra.BigOperators.Field
import Mathlib.Algebra.BigOperators.Ring.Finset
import Mathlib.Algebra.Order.BigOperators.Group.Finset

/-
What farms release does not get stuck: it reaches the farmers (C94).
-/

namespace Verif.Farming.Contract

variable {c c' : Contract}

open Finset in
/-- The stakes of all accounts add up to the total. -/
theorem stakes_sum (s : SeedId) {S : Finset AccountId}
    (hS : ∀ a u, c.farmers.get? a = some u → a ∈ S) : c.stakes s = ∑ a ∈ S, c.stakeOf a s := by
  have h1 : c.stakes s = ∑ a ∈ c.farmers.keys.toFinset, c.stakeOf a s := by
    unfold stakes FMap.sum FMap.keys
    rw [List.sum_toFinset _ c.farmers.nodup]
    rw [List.map_map]
    congr 1
    refine List.map_congr_left fun p hp => ?_
    have := (c.farmers.mem_entries_iff (k := p.1) (v := p.2)).1 hp
    simp only [Function.comp]
    rw [stakeOf_some this]
  rw [h1]
  refine Finset.sum_subset ?_ ?_
  · intro a ha
    rw [List.mem_toFinset] at ha
    unfold FMap.keys at ha
    rw [List.mem_map] at ha
    obtain ⟨p, hp, rfl⟩ := ha
    exact hS p.1 p.2 ((c.farmers.mem_entries_iff (k := p.1) (v := p.2)).1 hp)
  · intro a _ ha
    cases hu : c.farmers.get? a with
    | none => unfold stakeOf; rw [hu]
    | some u =>
      refine absurd ?_ ha
      rw [List.mem_toFinset]
      unfold FMap.keys
      exact List.mem_map.2 ⟨(a, u), (c.farmers.mem_entries_iff).2 hu, rfl⟩

/-- The registered accounts. -/
def accounts (c : Contract) : Finset AccountId := c.farmers.keys.toFinset

theorem mem_accounts {a : AccountId} {u : Farmer} (h : c.farmers.get? a = some u) : a ∈ c.accounts := by
  unfold accounts
  rw [List.mem_toFinset]
  unfold FMap.keys
  exact List.mem_map.2 ⟨(a, u), (c.farmers.mem_entries_iff).2 h, rfl⟩

/-- What a farm releases and does not pay becomes `unclaimed_reward`. -/
theorem flow (hr : c.Reachable) (e : Event) {id : FarmId} {f f' : SimpleFarm}
    (hf : c.farms.get? id = some f) (hf' : (c.step e).farms.get? id = some f') :
    (c.seedTotal f.terms.seedId ≠ 0 → f.released ≤ f'.released ∧ f.paidOut ≤ f'.paidOut ∧
      f'.dist.unclaimed + (f'.paidOut - f.paidOut) = f.dist.unclaimed + (f'.released - f.released)) ∧
    (c.seedTotal f.terms.seedId = 0 → f'.dist.unclaimed ≤ f.dist.unclaimed) := by
  have hI := hr.inv
  have hb := (hI.farms id f hf).balanced.beneficiary
  revert hf'
  unfold step
  cases h : c.apply e with
  | error _ =>
    intro hf'
    simp only at hf'
    rw [hf] at hf'; cases hf'
    exact ⟨fun _ => ⟨by omega, by omega, by omega⟩, fun _ => by omega⟩
  | ok r =>
    intro hf'
    simp only at hf'
    rcases farm_effect (outs := r.2) hI h id with ⟨a1, a2⟩ | ⟨a1, a2, a3, a4, a5, a6⟩ |
      ⟨a1, a2, a3, a4, a5, a6, a7⟩ | ⟨a1, a2, a3, a4, a5, a6⟩ | ⟨a1, a2, a3, a4, a5⟩
    · rw [hf, hf'] at a1; cases a1
      exact ⟨fun _ => ⟨by omega, by omega, by omega⟩, fun _ => by omega⟩
    · rw [hf] at a1; cases a1
      rw [hf'] at a5; cases a5
      rename_i g fs added n
      have hT : c.seedTotal f.terms.seedId = fs.amount := by unfold seedTotal; rw [a2]
      rw [hT]
      refine ⟨fun h0 => ?_, fun h0 => ?_⟩
      · have b1 := a3.claimed h0
        have b2 := a3.beneficiary h0
        have b3 := a3.unclaimed h0
        unfold SimpleFarm.released SimpleFarm.paidOut
        simp only
        omega
      · simp only
        rcases a3.empty h0 with ⟨_, h1, _⟩ | ⟨h1, _⟩
        · rw [h1]; omega
        · omega
    · rw [hf] at a4; cases a4
      rw [hf'] at a6; cases a6
      have b1 := a5.claimed
      have b2 := a5.beneficiary
      have b3 := a5.unclaimed
      unfold SimpleFarm.released SimpleFarm.paidOut
      refine ⟨fun _ => ⟨by omega, by omega, by omega⟩, fun _ => by omega⟩
    · rw [hf'] at a5; cases a5
    · rw [hf] at a1; cases a1

open Finset in
/-- The account of one event, for all farmers together. -/
theorem event_total (hr : c.Reachable) (e : Event) {id : FarmId} {f f' : SimpleFarm}
    (hf : c.farms.get? id = some f) (hf' : (c.step e).farms.get? id = some f')
    {S : Finset AccountId} (hS : ∀ a u, c.farmers.get? a = some u → a ∈ S)
    (hseed : f'.terms.seedId = f.terms.seedId) :
    (f'.dist.unclaimed : ℚ) - ∑ a ∈ S, pend (c.step e) a f.terms.seedId id f' ≤
      f.dist.unclaimed - ∑ a ∈ S, pend c a f.terms.seedId id f +
        (if e.farmer.isSome then 1 else 0 : Nat) + (c.seedTotal f.terms.seedId : ℚ) / DENOM := by
  have hD := DENOM_posQ
  obtain ⟨k1, k2⟩ := flow hr e hf hf'
  have hone : (0 : ℚ) ≤ ((if e.farmer.isSome then 1 else 0 : Nat) : ℚ) := by positivity
  by_cases hT : c.seedTotal f.terms.seedId = 0
  · have h1 : ∑ a ∈ S, pend c a f.terms.seedId id f = 0 := by
      refine Finset.sum_eq_zero fun a _ => ?_
      unfold pend; rw [stake_zero hr a hT]; simp
    have h2 : 0 ≤ ∑ a ∈ S, pend (c.step e) a f.terms.seedId id f' := by
      refine Finset.sum_nonneg fun a _ => ?_
      rw [← hseed]
      exact pend_nonneg (hr.step e) a hf'
    have h3 : (f'.dist.unclaimed : ℚ) ≤ f.dist.unclaimed := by exact_mod_cast k2 hT
    rw [h1, hT, Nat.cast_zero, zero_div]
    linarith
  · obtain ⟨r1, r2, r3⟩ := k1 hT
    have hTq : (c.seedTotal f.terms.seedId : ℚ) ≠ 0 := by exact_mod_cast hT
    have hst : ∑ a ∈ S, (c.stakeOf a f.terms.seedId : ℚ) = c.seedTotal f.terms.seedId := by
      rw [C46_total hr, stakes_sum _ hS]
      push_cast
      rfl
    have hrel : ∀ {x : Contract} {g : SimpleFarm}, x.farms.get? id = some g → x.releasedBy id = g.released :=
      fun h => by unfold releasedBy; rw [h]; rfl
    have hpd : ∀ {x : Contract} {g : SimpleFarm}, x.farms.get? id = some g → x.paidBy id = g.paidOut :=
      fun h => by unfold paidBy; rw [h]; rfl
    have hall := Finset.sum_le_sum fun a (_ : a ∈ S) => (event_account hr e a hf hf').2
    simp only [Finset.sum_add_distrib] at hall
    rw [← Finset.sum_div, ← Finset.sum_div, ← Finset.sum_mul, hst, hrel hf, hrel hf', hpd hf, hpd hf',
      mul_div_cancel_left₀ _ hTq] at hall
    have hp : ∑ a ∈ S, ((if e.farmer = some a then f'.paidOut - f.paidOut else 0 : Nat) : ℚ) ≤
        ((f'.paidOut - f.paidOut : Nat) : ℚ) := by
      cases he : e.farmer with
      | none => simp
      | some b =>
        simp only [Option.some.injEq, Nat.cast_ite, Nat.cast_zero]
        rw [Finset.sum_ite_eq]
        split
        · exact le_refl _
        · positivity
    have ho : ∑ a ∈ S, (if e.farmer = some a then 1 else 0 : ℚ) ≤
        ((if e.farmer.isSome then 1 else 0 : Nat) : ℚ) := by
      cases he : e.farmer with
      | none => simp
      | some b =>
        simp only [Option.some.injEq, Option.isSome_some, if_true, Nat.cast_one]
        rw [Finset.sum_ite_eq]
        split
        · exact le_refl _
        · norm_num
    have hu : (f'.dist.unclaimed : ℚ) + ((f'.paidOut - f.paidOut : Nat) : ℚ) =
        f.dist.unclaimed + ((f'.released : ℚ) - f.released) := by
      rw [← Nat.cast_sub r1]
      exact_mod_cast r3
    linarith

/-- The total stakes before each event of a history, added up. -/
def totalOver (s : SeedId) : Contract → List Event → Nat
  | _, [] => 0
  | c, e :: es => c.seedTotal s + totalOver s (c.step e) es

open Finset in
private theorem run_total (es : List Event) (hr : c.Reachable) {id : FarmId} {f f' : SimpleFarm}
    (hf : c.farms.get? id = some f) (hf' : (c.run es).farms.get? id = some f') :
    (f'.dist.unclaimed : ℚ) - ∑ a ∈ (c.run es).accounts, pend (c.run es) a f.terms.seedId id f' ≤
      f.dist.unclaimed - ∑ a ∈ c.accounts, pend c a f.terms.seedId id f +
        (es.countP fun e => e.farmer.isSome : Nat) + (totalOver f.terms.seedId c es : ℚ) / DENOM := by
  induction es generalizing c f with
  | nil =>
    have : (c.run []).farms.get? id = c.farms.get? id := rfl
    rw [this, hf] at hf'
    cases hf'
    simp only [totalOver, List.countP_nil]
    have : c.run [] = c := rfl
    rw [this]
    simp
  | cons e es ih =>
    have hr' := hr.step e
    have hrun : c.run (e :: es) = (c.step e).run es := rfl
    have wide : ∀ (d : Contract) (g : SimpleFarm) (s : SeedId) (S : Finset AccountId), d.accounts ⊆ S →
        ∑ a ∈ d.accounts, pend d a s id g = ∑ a ∈ S, pend d a s id g := by
      intro d g s S hS
      refine Finset.sum_subset hS fun a _ ha => ?_
      have : d.stakeOf a s = 0 := by
        unfold stakeOf
        cases hu : d.farmers.get? a with
        | none => rfl
        | some u => exact absurd (mem_accounts hu) ha
      unfold pend; rw [this]; simp
    rcases step_live hr e hf with ⟨g, hg, hs⟩ | ⟨g, hg⟩
    · have h1 := ih hr' hg hf'
      have h2 := event_total hr e hf hg (S := c.accounts ∪ (c.step e).accounts)
        (fun a u h => Finset.mem_union_left _ (mem_accounts h)) hs
      rw [← wide c f _ _ Finset.subset_union_left, ← wide (c.step e) g _ _ Finset.subset_union_right] at h2
      rw [hs] at h1
      rw [hrun]
      simp only [totalOver, List.countP_cons]
      rw [Nat.cast_add, Nat.cast_add, add_div]
      linarith
    · rw [hrun, run_outdated es hr' hg] at hf'
      cases hf'

/-- **C94.** From any state `c`, after any history `es`: when every account has claimed what the farm
has released, or has no stake, the farm's `unclaimed_reward` has grown by at most one unit for every
event about a farmer and `10^-24` of the total stake for every event. All else that was released has
been paid to farmers, or to the beneficiary while nobody staked. -/
theorem C94_nothing_stuck (hr : c.Reachable) {id : FarmId} {f f' : SimpleFarm}
    (hf : c.farms.get? id = some f) (es : List Event) (hf' : (c.run es).farms.get? id = some f')
    (hend : ∀ a, (c.run es).CaughtUp a id ∨ (c.run es).stakeOf a f.terms.seedId = 0) :
    (f'.dist.unclaimed : ℚ) ≤ f.dist.unclaimed + (es.countP fun e => e.farmer.isSome : Nat) +
      (totalOver f.terms.seedId c es : ℚ) / DENOM := by
  have h := run_total es hr hf hf'
  have h1 : ∑ a ∈ (c.run es).accounts, pend (c.run es) a f.terms.seedId id f' = 0 := by
    refine Finset.sum_eq_zero fun a _ => ?_
    unfold pend
    rcases hend a with ⟨g, hg, h1⟩ | h1
    · rw [hf'] at hg; cases hg
      rw [h1]; simp
    · rw [h1]; simp
  have h2 : 0 ≤ ∑ a ∈ c.accounts, pend c a f.terms.seedId id f :=
    Finset.sum_nonneg fun a _ => pend_nonneg hr a hf
  rw [h1] at h
  linarith

/-- **C94.** What a farm has released has been paid to farmers or to the beneficiary, or is
`unclaimed_reward`. -/
theorem C94_where_it_went (hr : c.Reachable) {id : FarmId} {f : SimpleFarm}
    (hf : c.farms.get? id = some f) :
    f.released = f.paidOut + f.amountOfBeneficiary + f.dist.unclaimed ∧
    f.amountOfReward = f.dist.undistributed + f.released := by
  have hb := (hr.inv.farms id f hf).balanced
  have h1 := hb.beneficiary
  have h2 := hb.total
  unfold SimpleFarm.released SimpleFarm.paidOut
  omega

open Demo in
/-- In `c1` nothing is released yet. `bo` stakes 20 more, both farmers claim: of 500 released two units
remain unclaimed. -/
example :
    let es : List Event := [.call (at' 1030 S) (.ftOnTransfer bo 20 []),
      .call (at' 1055 al) (.claimRewardByFarm F), .call (at' 1055 bo) (.claimRewardBySeed S)]
    (c1.farms.get? F).map (·.dist.unclaimed) = some 0 ∧
    ((c1.run es).farms.get? F).map (fun f => (f.released, f.dist.unclaimed)) = some (500, 2) ∧
    ((c1.run es).farms.get? F).map (·.dist.rps) = some ((c1.run es).rps.getD (al, F) 0) ∧
    ((c1.run es).farms.get? F).map (·.dist.rps) = some ((c1.run es).rps.getD (bo, F) 0) ∧
    (c1.run es).farmers.keys = [al, bo] := by
  decide +kernel

end Verif.Farming.Contract

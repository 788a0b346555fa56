import Verif.Farming.Demo
import Verif.Farming.Effects

/-
Properties of farms: conservation of rewards (C43), funds for claims (C44), seed totals (C46),
lifecycle (C48).
-/

namespace Verif.Farming

/-! ### C43 -/

theorem Inv.id_ne {c : Contract} (hI : Inv c) {id : FarmId} {f : SimpleFarm} (h : c.IsFarm id f) :
    id ≠ [] := by
  have hi : c.Issued id := by
    rcases h with h | h
    · obtain ⟨fs, h1, _, i, h2, h3⟩ := (hI.farms id f h).seed
      exact ⟨_, fs, i, h1, h2, h3⟩
    · exact (hI.outdated id f h).2.1
  obtain ⟨s, _, i, _, _, rfl⟩ := hi
  unfold genFarmId
  simp

theorem Inv.balanced {c : Contract} (hI : Inv c) {id : FarmId} {f : SimpleFarm} (h : c.IsFarm id f) :
    f.Balanced := by
  rcases h with h | h
  · exact (hI.farms id f h).balanced
  · exact (hI.outdated id f h).2.2.1

namespace Contract

/-- The farm has been given `k` in total; zero if it does not exist. -/
private def Got (c : Contract) (id : FarmId) (k : Nat) : Prop :=
  (∀ f, c.IsFarm id f → f.amountOfReward = k) ∧ ((∀ f, ¬ c.IsFarm id f) → k = 0)

private theorem got_step {c c' : Contract} {e : Event} {outs : List Out} {id : FarmId} {k : Nat}
    (hI : Inv c) (hid : id ≠ []) (h : c.apply e = .ok (c', outs)) (hg : c.Got id k) :
    c'.Got id (k + c.funding id e) := by
  have hI' := hI.apply h
  -- the deposit in this farm
  by_cases hfund : ∃ x a n, e = .call x (.ftOnTransfer a n id)
  · obtain ⟨x, a, n, rfl⟩ := hfund
    have hk : c.funding id (.call x (.ftOnTransfer a n id)) = n := by
      unfold funding; rw [h]; simp
    rw [hk]
    obtain ⟨_, ⟨he, _⟩ | ⟨_, f, f1, hf, _, h1, rfl⟩⟩ := ftOnTransfer_inv (exec_quiet h).1
    · exact absurd he hid
    have hgf := SimpleFarm.addReward_ok h1
    have h2 : (c.farms.insert id f1).get? id = some f1 := FMap.get?_insert_self _ _ _
    constructor
    · rintro f' (hf' | hf')
      · have hf' : (c.farms.insert id f1).get? id = some f' := hf'
        rw [h2] at hf'
        cases hf'
        rw [hgf.reward, hg.1 f (.inl hf)]
      · exact absurd ((hI.outdated id f' hf').2.2.2.2) (by rw [hf]; simp)
    · intro hno
      exact absurd (.inl h2) (hno f1)
  · have hk : c.funding id e = 0 := by
      unfold funding
      split
      · split
        · rename_i hm
          subst hm
          exact absurd ⟨_, _, _, rfl⟩ hfund
        · rfl
      · rfl
    rw [hk, Nat.add_zero]
    rcases farm_effect hI h id with ⟨a1, a2⟩ | ⟨a1, a2, a3, a4, a5, a6⟩ |
      ⟨a1, a2, a3, a4, a5, a6, a7⟩ | ⟨a1, a2, a3, a4, a5, a6⟩ | ⟨a1, a2, a3, a4, a5⟩
    · have : ∀ f, c'.IsFarm id f ↔ c.IsFarm id f := by
        intro f; unfold IsFarm; rw [a1, a2]
      exact ⟨fun f hf => hg.1 f ((this f).1 hf), fun hno => hg.2 fun f hf => hno f ((this f).2 hf)⟩
    · constructor
      · rintro f' (hf' | hf')
        · rw [a5] at hf'
          cases hf'
          exact a3.reward.trans (hg.1 _ (.inl a1))
        · rw [a6] at hf'
          exact absurd ((hI.outdated id f' hf').2.2.2.2) (by rw [a1]; simp)
      · intro hno; exact absurd (.inl a5) (hno _)
    · exact absurd ⟨_, _, _, a1⟩ hfund
    · constructor
      · rintro f' (hf' | hf')
        · rw [a5] at hf'; cases hf'
        · rw [a6] at hf'
          cases hf'
          exact a3.reward.trans (hg.1 _ (.inl a1))
      · intro hno; exact absurd (.inr a6) (hno _)
    · have hk0 : k = 0 := by
        apply hg.2
        rintro f (hf | hf)
        · rw [a1] at hf; cases hf
        · rw [a2] at hf; cases hf
      constructor
      · rintro f' (hf' | hf')
        · rw [a4] at hf'; cases hf'; exact hk0.symm
        · rw [a5] at hf'; cases hf'
      · intro _; exact hk0

private theorem got_run {id : FarmId} (hid : id ≠ []) (es : List Event) {c : Contract} {k : Nat}
    (hI : Inv c) (hg : c.Got id k) : (c.run es).Got id (k + fundings id c es) := by
  induction es generalizing c k with
  | nil => exact hg
  | cons e es ih =>
    show ((c.step e).run es).Got id (k + (c.funding id e + fundings id (c.step e) es))
    rw [← Nat.add_assoc]
    cases ha : c.apply e with
    | error err =>
      have h1 : c.step e = c := by unfold step; rw [ha]
      have h2 : c.funding id e = 0 := by unfold funding; split <;> simp_all
      rw [h1, h2, Nat.add_zero]
      exact ih hI hg
    | ok r =>
      have h1 : c.step e = r.1 := by unfold step; rw [ha]
      rw [h1]
      exact ih (hI.apply ha) (got_step hI hid ha hg)

/-- **C43.** In every history, for every farm, live or cleared: all reward ever sent to it is either
not yet distributed, or waiting to be claimed, or claimed (by farmers or by the beneficiary, the
latter when there was nobody to claim it or the farm was cleared). -/
theorem C43_conserved (owner : AccountId) (es : List Event) {id : FarmId} {f : SimpleFarm}
    (h : ((init owner).run es).IsFarm id f) :
    fundings id (init owner) es = f.dist.undistributed + f.dist.unclaimed + f.amountOfClaimed ∧
    f.amountOfReward = fundings id (init owner) es ∧ f.amountOfBeneficiary ≤ f.amountOfClaimed := by
  have hI : Inv ((init owner).run es) := Reachable.inv ⟨owner, es, rfl⟩
  have hg : ((init owner).run es).Got id (0 + fundings id (init owner) es) :=
    got_run (hI.id_ne h) es (Inv.init owner)
      ⟨by rintro f (hf | hf) <;> simp [init, FMap.get?_empty] at hf, fun _ => rfl⟩
  rw [Nat.zero_add] at hg
  have hb := hI.balanced h
  exact ⟨by rw [← hg.1 f h]; exact hb.total, hg.1 f h, hb.beneficiary⟩

open Demo in
/-- 1000 were deposited; after two sessions 200 are released and 150 of them are claimed. -/
example : fundings F (init own) setup = 1000 ∧
    (c2.farms.get? F).map (fun f => (f.dist.undistributed, f.dist.unclaimed, f.amountOfClaimed)) =
      some (800, 50, 150) := by decide +kernel

/-! ### C44 -/

/-- What `get_unclaimed_reward` reports, zero if it panics. -/
def unclaimedOf (c : Contract) (now : Nat) (a : AccountId) (id : FarmId) : Nat :=
  match c.getUnclaimedReward now a id with
  | .ok n => n
  | .error _ => 0

/-- The pot of a farm as reported by `get_farm` (`unclaimed_reward`): what has been released by now
and not been claimed yet, `view.rs:57-107`. -/
def pot (now : Nat) (f : SimpleFarm) : R Nat := do
  match ← f.tryDistribute now DENOM with
  | some d => .ok d.unclaimed
  | none => .ok f.dist.unclaimed

end Contract

/-- The amount released does not depend on the total stake. -/
theorem SimpleFarm.tryDistribute_pot {f : SimpleFarm} {now p q : Nat} {o o' : Option Dist}
    (h : f.tryDistribute now p = .ok o) (h' : f.tryDistribute now q = .ok o') :
    o.map (·.unclaimed) = o'.map (·.unclaimed) ∧ o.map (·.undistributed) = o'.map (·.undistributed) ∧
    o.map (·.rr) = o'.map (·.rr) := by
  unfold tryDistribute at h h'
  split at h
  · rename_i hr
    rw [if_pos hr] at h'
    split at h
    · rename_i hn
      rw [if_pos hn] at h'
      cases h
      cases h'
      exact ⟨rfl, rfl, rfl⟩
    · rename_i hn
      rw [if_neg hn] at h'
      simp only [bind_ok, subW_ok, divW_ok, mulW_ok, addW_ok] at h h'
      obtain ⟨_, ⟨_, rfl⟩, _, ⟨_, rfl⟩, _, ⟨_, rfl⟩, _, ⟨_, rfl⟩, ⟨r1, a1⟩, hb, h⟩ := h
      obtain ⟨_, ⟨_, rfl⟩, _, ⟨_, rfl⟩, _, ⟨_, rfl⟩, _, ⟨_, rfl⟩, ⟨r2, a2⟩, hb', h'⟩ := h'
      rw [hb] at hb'
      cases hb'
      simp only at h h'
      obtain ⟨_, ⟨_, rfl⟩, _, ⟨_, rfl⟩, _, _, h⟩ := h
      obtain ⟨_, ⟨_, rfl⟩, _, ⟨_, rfl⟩, _, _, h'⟩ := h'
      cases h
      cases h'
      exact ⟨rfl, rfl, rfl⟩
  · rename_i hr
    rw [if_neg hr] at h'
    cases h
    cases h'
    exact ⟨rfl, rfl, rfl⟩

/-- The distribution that `try_distribute` computes, adopted. -/
theorem SimpleFarm.Due.distributed {f : SimpleFarm} {now total added : Nat} {d : Dist}
    (h : f.Due now total d added) (h0 : total ≠ 0) : f.Distributed now total
      { f with dist := d, status := if d.undistributed = 0 then .ended else f.status } added := by
  refine ⟨rfl, rfl, rfl, h.undistributed, fun _ => h.unclaimed, fun _ => rfl, fun _ => rfl, h.rps,
    fun h' => absurd h' h0, ?_, ?_, h.rr_le, h.pace, .inr ⟨h.start, h.round⟩, ?_⟩
  · rintro (h' | h')
    · exact absurd h.running h'
    · exact absurd h.started (by omega)
  · simp only
    split
    · exact .inr ⟨h.running, rfl, ‹_›⟩
    · exact .inl rfl
  · intro _ hz
    simp only at hz ⊢
    rw [if_pos hz]

namespace Contract

private theorem sum_floor (m : FMap AccountId Farmer) (F : AccountId → Farmer → Nat) (k : Nat)
    (h : m.sum F ≤ k * DENOM) : m.sum (fun a u => F a u / DENOM) ≤ k := by
  have h1 : m.sum (fun a u => DENOM * (F a u / DENOM)) ≤ m.sum F :=
    FMap.sum_le _ _ _ fun a u _ => Nat.mul_div_le _ _
  have h2 := m.sum_mul (fun a u => F a u / DENOM) DENOM
  simp only [Nat.mul_comm] at h1 h2
  rw [h2] at h1
  exact Nat.le_of_mul_le_mul_right (Nat.le_trans (Nat.mul_comm _ _ ▸ h1) h) DENOM_pos

/-- **C44.** At any time, what all farmers together could claim from a farm is covered by the pot the
farm reports, and the pot by the reward deposited in the farm that has not been claimed yet. -/
theorem C44_covered {c : Contract} (hr : c.Reachable) {now k : Nat} {id : FarmId} {f : SimpleFarm}
    (hf : c.farms.get? id = some f) (hk : pot now f = .ok k) :
    c.farmers.sum (fun a _ => c.unclaimedOf now a id) ≤ k ∧ k + f.amountOfClaimed ≤ f.amountOfReward := by
  have hI := hr.inv
  have hl := hI.farms id f hf
  obtain ⟨fs, hs, _, i, _, hgen⟩ := hl.seed
  have htot := (hI.seeds _ fs hs).total
  unfold pot at hk
  rw [bind_ok] at hk
  obtain ⟨o, ho, hk⟩ := hk
  have hb := hl.balanced.total
  -- each farmer's amount, given the current distribution
  have key : ∀ g added, f.Distributed now fs.amount g added → fs.amount ≠ 0 →
      (∀ o', f.tryDistribute now fs.amount = .ok o' →
        (match o' with | some d => d.rps | none => f.dist.rps) = g.dist.rps) →
      (∃ o', f.tryDistribute now fs.amount = .ok o') → 
      c.farmers.sum (fun a _ => c.unclaimedOf now a id) ≤ g.dist.unclaimed := by
    intro g added hd h0 hrps hex
    obtain ⟨h1, _⟩ := hd.funded hl htot
    refine Nat.le_trans ?_ (sum_floor _ _ _ h1)
    apply FMap.sum_le
    intro a u hu
    unfold unclaimedOf
    split
    · rename_i n hn
      unfold getUnclaimedReward at hn
      rw [bind_ok] at hn
      obtain ⟨s, hp, hn⟩ := hn
      rw [hgen] at hp
      have := parseFarmId_gen hp
      subst this
      simp only [hu, hs, hf] at hn
      unfold SimpleFarm.viewUnclaimed at hn
      rw [if_neg h0] at hn
      split at hn
      · cases hn; exact Nat.zero_le _
      · rw [bind_ok] at hn
        obtain ⟨o', ho', hn⟩ := hn
        have hr := hrps o' ho'
        rw [hl.id_eq] at hn
        have hn : SimpleFarm.reward (u.stake f.terms.seedId) g.dist.rps (c.rps.getD (a, id) 0) = .ok n := by
          cases o' with
          | none => rw [← hr]; exact hn
          | some d => rw [← hr]; exact hn
        rw [(SimpleFarm.reward_ok hn).2, hd.terms]
    · exact Nat.zero_le _
  -- nobody staked, or the distribution for the views panics
  have zero : (fs.amount = 0 ∨ ∀ o', f.tryDistribute now fs.amount ≠ .ok o') →
      c.farmers.sum (fun a _ => c.unclaimedOf now a id) ≤ 0 := by
    intro hz
    refine Nat.le_trans (FMap.sum_le _ _ (fun _ _ => 0 * 0) ?_) (by rw [FMap.sum_mul]; simp)
    intro a u hu
    unfold unclaimedOf
    split
    · rename_i n hn
      unfold getUnclaimedReward at hn
      rw [bind_ok] at hn
      obtain ⟨s, hp, hn⟩ := hn
      rw [hgen] at hp
      have := parseFarmId_gen hp
      subst this
      simp only [hu, hs, hf] at hn
      unfold SimpleFarm.viewUnclaimed at hn
      split at hn
      · cases hn; exact Nat.zero_le _
      · split at hn
        · cases hn; exact Nat.zero_le _
        · rw [bind_ok] at hn
          obtain ⟨o', ho', hn⟩ := hn
          rcases hz with hz | hz
          · exact absurd hz ‹_›
          · exact absurd ho' (hz o')
    · exact Nat.zero_le _
  have hpot : k + f.amountOfClaimed ≤ f.amountOfReward := by
    cases o with
    | none => cases hk; omega
    | some d =>
      cases hk
      obtain ⟨added, hd⟩ := SimpleFarm.tryDistribute_some ho
      have := hd.undistributed
      have := hd.unclaimed
      omega
  refine ⟨?_, hpot⟩
  by_cases h0 : fs.amount = 0
  · exact Nat.le_trans (zero (.inl h0)) (Nat.zero_le _)
  cases hx : f.tryDistribute now fs.amount with
  | error err =>
    exact Nat.le_trans (zero (.inr fun o' ho' => by rw [hx] at ho'; cases ho')) (Nat.zero_le _)
  | ok o' =>
    have hsame := (SimpleFarm.tryDistribute_pot ho hx).1
    cases o' with
    | none =>
      cases o with
      | some d => simp at hsame
      | none =>
        cases hk
        refine key f 0 (.refl f now _) h0 ?_ ⟨_, hx⟩
        intro o' ho'
        rw [hx] at ho'
        cases ho'
        rfl
    | some d' =>
      cases o with
      | none => simp at hsame
      | some d =>
        cases hk
        obtain ⟨added, hd⟩ := SimpleFarm.tryDistribute_some hx
        have := key _ added (hd.distributed h0) h0 (by
          intro o' ho'
          rw [hx] at ho'
          cases ho'
          rfl) ⟨_, hx⟩
        simp only [Option.map_some, Option.some.injEq] at hsame
        rw [hsame]
        exact this

open Demo in
/-- After 35 seconds the pot holds 300; `al` could claim 225 and `bo` 75. -/
example : (c1.farms.get? F).any (fun f => (pot (at' 1035 al).now f).holds (· = 300)) = true ∧
    c1.unclaimedOf (at' 1035 al).now al F = 225 ∧ c1.unclaimedOf (at' 1035 al).now bo F = 75 := by
  decide +kernel

end Contract
end Verif.Farming

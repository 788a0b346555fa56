import Verif.Farming.LockProps
import Mathlib.Data.List.Perm.Subperm

/-
The counter of recorded rates is right for farmers who have never unregistered (C49).
-/

namespace Verif.Farming

/-- Exactly `n` rates are recorded for `a`. -/
def Counted (m : RpsMap) (a : AccountId) (n : Nat) : Prop :=
  ∃ l : List FarmId, l.Nodup ∧ l.length = n ∧ ∀ id, m.contains (a, id) = true ↔ id ∈ l

variable {m m' : RpsMap} {a who : AccountId} {n : Nat} {u u' : Farmer}

theorem Counted.congr (h : Counted m a n) (he : ∀ id, m'.get? (a, id) = m.get? (a, id)) :
    Counted m' a n := by
  obtain ⟨l, h1, h2, h3⟩ := h
  refine ⟨l, h1, h2, fun id => ?_⟩
  rw [← h3]
  simp only [FMap.contains, he]

theorem Counted.setRps (h : Counted m a u.rpsCount) {id : FarmId} {v : Nat}
    (hs : setRps m u a id v = .ok (m', u')) : Counted m' a u'.rpsCount := by
  obtain ⟨l, h1, h2, h3⟩ := h
  unfold Verif.Farming.setRps at hs
  split at hs
  · rename_i hc
    cases hs
    refine ⟨l, h1, h2, fun id' => ?_⟩
    rw [← h3]
    simp only [FMap.contains, FMap.get?_insert] at hc ⊢
    split
    · rename_i he; rw [(Prod.mk.inj he).2]; simp [hc]
    · rfl
  · rename_i hc
    unpack at hs
    obtain ⟨_, rfl, rfl⟩ := hs
    refine ⟨id :: l, List.nodup_cons.2 ⟨fun hm => hc ((h3 id).2 hm), h1⟩, by simp [h2], fun id' => ?_⟩
    rw [List.mem_cons, ← h3]
    simp only [FMap.contains, FMap.get?_insert, Prod.mk.injEq, true_and]
    split
    · simp [*]
    · simp [*]

theorem Counted.removeRps (h : Counted m a u.rpsCount) {id : FarmId}
    (hs : removeRps m u a id = .ok (m', u')) : Counted m' a u'.rpsCount := by
  obtain ⟨l, h1, h2, h3⟩ := h
  unfold Verif.Farming.removeRps at hs
  split at hs
  · rename_i hc
    unpack at hs
    obtain ⟨_, rfl, rfl⟩ := hs
    have hm := (h3 id).1 hc
    refine ⟨l.erase id, h1.erase id, ?_, fun id' => ?_⟩
    · rw [List.length_erase_of_mem hm, h2]
    · rw [h1.mem_erase_iff, ← h3]
      simp only [FMap.contains, FMap.get?_erase, Prod.mk.injEq, true_and]
      split
      · simp [*]
      · simp [*]
  · cases hs
    exact ⟨l, h1, h2, h3⟩

theorem Counted.removeAllRps (ids : List FarmId) : ∀ {m : RpsMap} {u : Farmer},
    Counted m a u.rpsCount → removeAllRps a ids m u = .ok (m', u') → Counted m' a u'.rpsCount := by
  induction ids with
  | nil => intro m u h hs; cases hs; exact h
  | cons id ids ih =>
    intro m u h hs
    unfold Verif.Farming.removeAllRps at hs
    simp only [bind_ok, Prod.exists] at hs
    obtain ⟨m1, u1, h1, h2⟩ := hs
    exact ih (h.removeRps h1) h2

theorem Counted.claimFromFarm (h : Counted m a u.rpsCount) {x : Ctx} {f f1 : SimpleFarm} {t : Nat}
    (hs : claimFromFarm x a f t m u = .ok (f1, m', u')) : Counted m' a u'.rpsCount := by
  unfold Verif.Farming.claimFromFarm at hs
  simp only [bind_ok, Prod.exists] at hs
  obtain ⟨_, _, _, _, m1, u1, h1, hs⟩ := hs
  have h2 := h.setRps h1
  split at hs
  · unpack at hs
    obtain ⟨u3, h4, rfl, rfl, rfl⟩ := hs
    rw [(Farmer.addReward_ok h4).2.2.1]
    exact h2
  · cases hs
    exact h2

namespace Contract

variable {c c' : Contract}

/-- The counter of the farmer is right, and nothing is recorded for an account that is not registered. -/
def RatesCounted (c : Contract) (a : AccountId) : Prop :=
  Counted c.rps a (match c.farmers.get? a with
    | some u => u.rpsCount
    | none => 0)

theorem RatesCounted.iff (hu : c.farmers.get? a = some u) :
    c.RatesCounted a ↔ Counted c.rps a u.rpsCount := by
  unfold RatesCounted; rw [hu]

theorem RatesCounted.claims (h : c.RatesCounted a) {x : Ctx} {ids : List FarmId}
    (hc : Claims x a c ids c') : c'.RatesCounted a := by
  induction hc with
  | nil => exact h
  | cons hu hf hs h1 _ ih =>
    apply ih
    rw [RatesCounted.iff (FMap.get?_insert_self _ _ _)]
    exact ((RatesCounted.iff hu).1 h).claimFromFarm h1

theorem RatesCounted.keep (h : c.RatesCounted a) (hu : c.farmers.get? a = some u)
    (hk : u'.rpsCount = u.rpsCount) (hc : c'.farmers.get? a = some u') (hr : c'.rps = c.rps) :
    c'.RatesCounted a := by
  rw [RatesCounted.iff hc, hr, hk]
  exact (RatesCounted.iff hu).1 h

theorem RatesCounted.seedDeposit (h : c.RatesCounted a) (hI : Inv c) {x : Ctx} {s : SeedId} {n : Nat}
    {mft : Bool} (hd : c.seedDeposit x a s n mft = .ok c') : c'.RatesCounted a := by
  obtain ⟨fs, c1, u, u', hs, hc, hu, hu', hlt, rfl⟩ := seedDeposit_ok hI hd
  refine (h.claims hc).keep hu ?_ (FMap.get?_insert_self c1.farmers _ _) rfl
  unfold Farmer.addSeed at hu'
  split at hu'
  · unpack at hu'
    obtain ⟨_, rfl⟩ := hu'
    rfl
  · cases hu'; rfl

theorem RatesCounted.seedWithdraw (h : c.RatesCounted a) (hI : Inv c) {x : Ctx} {s : SeedId} {n : Nat}
    {mft : Bool} (hd : c.seedWithdraw x a s n = .ok (c', mft)) : c'.RatesCounted a := by
  obtain ⟨fs, c1, u, u1, u', remain, m, hs, hc, hu, hu1, hle, rfl, hm, rfl⟩ := seedWithdraw_ok hI hd
  have h1 := (RatesCounted.iff hu).1 (h.claims hc)
  have hk : u1.rpsCount = u.rpsCount := by
    unfold Farmer.subSeed at hu1
    simp only [bind_ok, assertE_ok, expectE_ok] at hu1
    obtain ⟨v, _, _, _, hu1⟩ := hu1
    split at hu1 <;> cases hu1 <;> rfl
  rw [← hk] at h1
  rw [RatesCounted.iff (FMap.get?_insert_self _ _ _)]
  exact Counted.removeAllRps _ h1 hm

theorem RatesCounted.register (h : c.RatesCounted a) {n : Nat} (hd : c.register a n = .ok c') :
    c'.RatesCounted a := by
  unfold Contract.register at hd
  split at hd
  · rename_i u hu
    unpack at hd
    obtain ⟨_, rfl⟩ := hd
    exact h.keep hu (u' := { u with near := u.near + n }) rfl (FMap.get?_insert_self c.farmers _ _) rfl
  · rename_i hu
    unpack at hd
    obtain ⟨_, rfl⟩ := hd
    unfold RatesCounted at h
    rw [hu] at h
    rw [RatesCounted.iff (FMap.get?_insert_self _ _ _)]
    exact h

/-- An event that is not the unregistration of `a`. -/
def _root_.Verif.Farming.Event.Keeps (a : AccountId) : Event → Prop
  | .call x .storageUnregister => x.pred ≠ a
  | _ => True

theorem RatesCounted.apply (h : c.RatesCounted a) (hI : Inv c) {e : Event} (hk : e.Keeps a)
    {outs : List Out} (ha : c.apply e = .ok (c', outs)) : c'.RatesCounted a := by
  by_cases hf : e.farmer = some a
  swap
  · obtain ⟨h1, h2⟩ := event_same hI ha hf
    unfold RatesCounted at h ⊢
    rw [h1]
    exact h.congr h2
  cases e with
  | callback x o ok =>
    obtain rfl | ⟨_, ⟨t, who, n, u, u1, rfl, hu, h1, rfl⟩ | ⟨s, who, n, rfl, h1⟩ |
      ⟨s, _, _, who, n, rfl, h1⟩⟩ := callback_inv (exec_quiet ha).1
    · exact h
    · cases hf
      exact h.keep hu (Farmer.addReward_ok h1).2.2.1 (FMap.get?_insert_self c.farmers _ _) rfl
    · cases hf
      exact h.seedDeposit hI h1
    · cases hf
      exact h.seedDeposit hI h1
  | call x k =>
    simp only [Contract.apply] at ha
    cases k with
    | createSimpleFarm t m => cases hf
    | forceCleanFarm i => cases hf
    | setOwner b => cases hf
    | modifyMinDeposit s n => cases hf
    | setRunning b => cases hf
    | removeUserRps id =>
      cases hf
      obtain ⟨_, u, s, fs, hu, hp, hs, ⟨_, rfl⟩ | ⟨hnot, m, u1, hm, rfl⟩⟩ :=
        removeUserRps_inv (exec_quiet ha).1
      · exact h
      · rw [RatesCounted.iff (FMap.get?_insert_self c.farmers _ _)]
        exact ((RatesCounted.iff hu).1 h).removeRps hm
    | claimRewardByFarm id =>
      cases hf
      obtain ⟨_, h1, _⟩ := claimRewardByFarm_inv (exec_quiet ha).1
      obtain ⟨_, _, rfl | ⟨_, h2⟩⟩ := claimByFarm_ok hI h1
      · exact h
      · exact h.claims h2
    | claimRewardBySeed s =>
      cases hf
      obtain ⟨_, h1, _⟩ := claimRewardBySeed_inv (exec_quiet ha).1
      obtain ⟨_, _, ⟨_, rfl⟩ | ⟨_, _, h2⟩⟩ := claimBySeed_ok hI h1
      · exact h
      · exact h.claims h2
    | withdrawReward t n =>
      cases hf
      obtain ⟨_, _, u, u1, k, hu, h1, rfl, _⟩ := withdrawReward_inv ha
      refine h.keep hu ?_ (FMap.get?_insert_self c.farmers _ _) rfl
      unfold Farmer.subReward at h1
      simp only [bind_ok, assertE_ok, expectE_ok] at h1
      obtain ⟨v, _, _, _, h1⟩ := h1
      split at h1 <;> cases h1 <;> rfl
    | withdrawSeed s n =>
      cases hf
      obtain ⟨_, _, mft, h1, _⟩ := withdrawSeed_inv ha
      exact h.seedWithdraw hI h1
    | ftOnTransfer b n msg =>
      obtain ⟨_, ⟨hm, _, _, _, h1, _⟩ | ⟨hm, _⟩⟩ := ftOnTransfer_inv (exec_quiet ha).1
      · subst hm
        cases hf
        exact h.seedDeposit hI h1
      · simp only [Event.farmer, if_neg hm] at hf
        cases hf
    | mftOnTransfer t b n msg =>
      cases hf
      obtain ⟨_, p, fs, _, _, _, h1, _⟩ := mftOnTransfer_inv (exec_quiet ha).1
      exact h.seedDeposit hI h1
    | storageDeposit b only =>
      cases hf
      obtain ⟨_, n, h1, _⟩ := storageDeposit_inv ha
      exact h.register h1
    | storageWithdraw n =>
      cases hf
      obtain ⟨_, u, k, hu, _, _, rfl, _⟩ := storageWithdraw_inv ha
      exact h.keep hu (u' := { u with near := u.near - k }) rfl (FMap.get?_insert_self c.farmers _ _) rfl
    | storageUnregister =>
      cases hf
      exact absurd rfl hk

/-- For a farmer who has never unregistered the counter of recorded rates is right: the condition of
`C49_withdraw_partial` for withdrawing the whole stake holds. -/
theorem rated_le {owner : AccountId} {es : List Event} (hc : c = (init owner).run es)
    (hk : ∀ e ∈ es, e.Keeps a) (hu : c.farmers.get? a = some u) {ids : List FarmId} (hn : ids.Nodup) :
    c.rated a ids ≤ u.rpsCount := by
  have key : c.RatesCounted a ∧ Inv c := by
    subst hc
    have h0 : (init owner).RatesCounted a ∧ Inv (init owner) :=
      ⟨⟨[], List.nodup_nil, rfl, fun id => by simp [init, FMap.contains, FMap.get?_empty]⟩, Inv.init owner⟩
    clear hu
    generalize init owner = c at h0
    unfold run
    induction es generalizing c with
    | nil => exact h0
    | cons e es ih =>
      refine ih (fun e h => hk e (by simp [h])) _ ?_
      unfold step
      cases ha : c.apply e with
      | error _ => exact h0
      | ok r => exact ⟨h0.1.apply h0.2 (hk e (by simp)) (outs := r.2) ha, h0.2.apply (outs := r.2) ha⟩
  obtain ⟨l, h1, h2, h3⟩ := (RatesCounted.iff hu).1 key.1
  rw [← h2]
  unfold rated
  apply List.Subperm.length_le
  apply List.subperm_of_subset (hn.filter _)
  intro id hid
  rw [List.mem_filter] at hid
  exact (h3 id).1 hid.2

open Demo

theorem c1_at : c1.At (1001 * 10 ^ 9) :=
  (At.init own (1000 * 10 ^ 9)).run setup (by decide +kernel)

theorem rewards_le (c : Contract) (a t : AccountId) :
    c.rewardOf a t ≤ match c.farmers.get? a with
      | some u => u.rewards.sum fun _ v => v
      | none => 0 := by
  unfold rewardOf
  cases hu : c.farmers.get? a with
  | some u =>
    simp only
    have := u.rewards.term_le_sum (fun _ v => v) t
    unfold FMap.getD
    cases hv : u.rewards.get? t with
    | none => exact Nat.zero_le _
    | some v =>
      rw [FMap.term_some _ hv] at this
      exact this
  | none => exact Nat.le_refl 0

/-- `al` can claim, stake more, and withdraw everything at second 1040. -/
theorem ready_demo (x : Ctx) (hx : x.now = 1040 * 10 ^ 9) : ∃ u fs, c1.Ready x al S u fs ∧
    Paid u fs.farms.length 1 ∧ fs.minDeposit = 1 ∧ fs.mft = false ∧ c1.stakeOf al S = 30 ∧
    c1.rated al fs.farms ≤ u.rpsCount ∧ c1.running = true ∧ c1.seedTotal S = 40 := by
  have key : (match c1.farmers.get? al, c1.seeds.get? S with
      | some u, some fs =>
        (fs.farms.all fun id => match c1.farms.get? id with
          | some f => decide (f.terms.sessionInterval ≠ 0 ∧ f.terms.rewardPerSession < 2 ^ 96)
          | none => true) &&
        decide (c1.stakeOf al S = 30) &&
        decide ((u.rewards.sum fun _ v => v) + c1.farmRewards fs.farms < 2 ^ 128) &&
        decide (u.rpsCount + fs.farms.length < 2 ^ 32) &&
        decide (0 < u.near ∧ (92 + (u.rewards.size + fs.farms.length) * 84 + (u.seeds.size + 1) * 84 +
          (u.rpsCount + fs.farms.length) * 165) * 10 ^ 19 ≤ u.near) &&
        decide (fs.minDeposit = 1) && decide (fs.mft = false) && decide (c1.running = true) &&
        decide (c1.seedTotal S = 40) && decide (c1.rated al fs.farms ≤ u.rpsCount)
      | _, _ => false) = true := by decide +kernel
  have hat := c1_at
  have hrew := rewards_le c1 al
  generalize c1 = c at key hat hrew
  split at key
  · rename_i u fs hu hs
    simp only [Bool.and_eq_true, decide_eq_true_eq, List.all_eq_true] at key
    obtain ⟨⟨⟨⟨⟨⟨⟨⟨⟨h1, h2⟩, h3⟩, h4⟩, h5⟩, h6⟩, h7⟩, h8⟩, h9⟩, h10⟩ := key
    refine ⟨u, fs, ⟨⟨_, hat, by rw [hx]; decide⟩, by rw [hx]; decide, hu, hs, ?_, .inl (by omega), ?_,
      h4⟩, h5, h6, h7, h2, h10, h8, h9⟩
    · intro id hid f hf
      have := h1 id hid
      rw [hf] at this
      exact (of_decide_eq_true this : _ ∧ _)
    · intro t
      have := hrew t
      rw [hu] at this
      simp only at this
      omega
  · cases key

/-- The theorems apply to `al`. -/
example : (∃ c', c1.exec (at' 1040 al) (.claimRewardBySeed S) = .ok (c', [])) ∧
    (∃ c', c1.exec (at' 1040 S) (.ftOnTransfer al 7 []) = .ok (c', []) ∧ c'.stakeOf al S = 37) ∧
    (∃ c' outs, c1.exec (y 1040 al) (.withdrawSeed S 30) = .ok (c', outs) ∧ c'.stakeOf al S = 0) ∧
    (∃ c', c1.callback (at' 1040 own) (.ftSeed S al 5) false = .ok c' ∧ c'.stakeOf al S = 35) := by
  refine ⟨?_, ?_, ?_, ?_⟩
  · obtain ⟨u, fs, h, hp, _, _, _, _, hr, _⟩ := ready_demo (at' 1040 al) rfl
    refine C49_claim_partial h rfl hr ⟨hp.1, Nat.le_trans (Nat.mul_le_mul_right _ (by omega)) hp.2⟩
  · obtain ⟨u, fs, h, hp, hm, _, hst, _, hr, ht⟩ := ready_demo (at' 1040 S) rfl
    obtain ⟨c', h1, h2⟩ := C49_stake_partial (x := at' 1040 S) h rfl hr hp (n := 7) (by omega)
      (by show c1.seedTotal S + 7 < _; rw [ht]; decide)
    refine ⟨c', h1, ?_⟩
    have h2 : c'.stakeOf al S = c1.stakeOf al S + 7 := h2
    rw [h2, hst]
  · obtain ⟨u, fs, h, hp, hm, hf, hst, hk, hr, ht⟩ := ready_demo (y 1040 al) rfl
    have hst : c1.stakeOf (y 1040 al).pred S = 30 := hst
    obtain ⟨c', o, h1, h2⟩ := C49_withdraw_partial (x := y 1040 al) h rfl hr (n := 30) (by omega)
      (by omega) (.inr hk) (by rw [hf]; intro h; cases h)
    refine ⟨c', o, h1, ?_⟩
    rw [hst] at h2
    exact h2
  · obtain ⟨u, fs, h, hp, hm, hf, hst, hk, hr, ht⟩ := ready_demo (at' 1040 own) rfl
    obtain ⟨c', h1, h2⟩ := C47_seed_partial h (n := 5) (by rw [ht]; decide) (.ftSeed S al 5) (.inl rfl)
    exact ⟨c', h1, by rw [h2, hst]⟩

example : (c2.callback (at' 1040 own) (.reward R' al 100) false).holds
    (fun c => c.rewardOf al R' = 250) = true := by decide +kernel

end Contract
end Verif.Farming

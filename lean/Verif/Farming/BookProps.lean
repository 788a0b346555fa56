import Verif.Farming.Kinds
import Verif.Farming.Demo

/-
C59 to C63: storage deposits of farmers, what only the owner can do, the pause, the totals the
contract reports, and the minimum stake.
-/

namespace Verif.Farming

/-! ### Vocabulary -/

/-- The view `storage_balance_of`: what has been paid for the storage of account `a`. -/
def Contract.depositOf (c : Contract) (a : AccountId) : Nat := (c.farmerStorage a).2

/-- The view `get_user_storage_state`: what the storage of account `a` costs. -/
def Contract.usageOf (c : Contract) (a : AccountId) : Nat := (c.farmerStorage a).1

/-- All storage deposits. -/
def Contract.deposits (c : Contract) : Nat := c.farmers.sum fun _ u => u.near

/-- The NEAR a list of promises transfers. -/
def nearOut (outs : List Out) : Nat :=
  (outs.map fun | .near _ n => n | _ => 0).sum

/-- The NEAR attached to an event to pay for the storage of a farmer, or refundable. Creating a farm
uses up `grew` bytes at 10^19 yoctoNEAR each. -/
def Event.attached : Event → Nat
  | .call x (.storageDeposit ..) => x.deposit
  | .call x (.createSimpleFarm ..) => x.deposit - x.grew * 10 ^ 19
  | _ => 0

/-- The NEAR an event adds to the storage deposit of account `a`: what is attached for it and not
sent back. -/
def Event.putIn (a : AccountId) (outs : List Out) : Event → Nat
  | .call x (.storageDeposit account _) =>
    if account.getD x.pred = a then x.deposit - nearOut outs else 0
  | _ => 0

/-- The NEAR an event takes out of the storage deposit of account `a`. -/
def Event.takenOut (a : AccountId) (outs : List Out) : Event → Nat
  | .call x (.storageWithdraw _) => if x.pred = a then nearOut outs else 0
  | .call x .storageUnregister => if x.pred = a then nearOut outs else 0
  | _ => 0

/-- A call by account `a`. -/
def Event.by (a : AccountId) : Event → Prop
  | .call x _ => x.pred = a
  | .callback .. => False

/-- A method for the owner. -/
def Call.forOwner : Call → Prop
  | .createSimpleFarm .. | .forceCleanFarm _ | .setOwner _ | .modifyMinDeposit .. | .setRunning _ =>
    True
  | _ => False

/-- What the owner decides about a seed: its farms, how many it has had, the minimum stake. -/
def FarmSeed.settings (s : FarmSeed) : List FarmId × Nat × Nat := (s.farms, s.nextIndex, s.minDeposit)

/-- What the owner decides about a farm, except for its start. -/
def SimpleFarm.settings (f : SimpleFarm) : SeedId × AccountId × Nat × Nat :=
  (f.terms.seedId, f.terms.rewardToken, f.terms.rewardPerSession, f.terms.sessionInterval)

/-- The reward that farms, live or cleared, have received in token `t`. -/
def Contract.funded (c : Contract) (t : AccountId) : Nat :=
  c.farms.sum (fun _ f => if f.terms.rewardToken = t then f.amountOfReward else 0) +
    c.outdated.sum (fun _ f => if f.terms.rewardToken = t then f.amountOfReward else 0)

/-! ### Lemmas -/

theorem SeedsAlike.settings {m m' : FMap SeedId FarmSeed} (h : SeedsAlike m m') (s : SeedId) :
    (m'.get? s).map FarmSeed.settings = (m.get? s).map FarmSeed.settings := by
  have := h s
  cases h1 : m.get? s <;> cases h2 : m'.get? s <;> rw [h1, h2] at this
  · exact False.elim this
  · exact False.elim this
  · obtain ⟨h3, h4, h5⟩ := this
    simp [FarmSeed.settings, h3, h4, h5]

theorem Claims.farms_get {x : Ctx} {who : AccountId} {c c' : Contract} {ids : List FarmId}
    (h : Claims x who c ids c') (id : FarmId) :
    (c'.farms.get? id).map (fun f => (f.terms, f.amountOfReward)) =
      (c.farms.get? id).map (fun f => (f.terms, f.amountOfReward)) := by
  induction h with
  | nil => rfl
  | @cons c c' i ids u u1 f f1 fs m1 hu hf hs hc _ ih =>
    obtain ⟨g, added, n, hcl⟩ := claimFromFarm_ok hc
    rw [ih]
    simp only [FMap.get?_insert]
    split
    · rename_i hi
      subst hi
      rw [hf]
      simp [hcl.farm, hcl.dist.terms, hcl.dist.reward]
    · rfl

theorem Claims.farms_sum {x : Ctx} {who : AccountId} {c c' : Contract} {ids : List FarmId}
    (h : Claims x who c ids c') (t : AccountId) :
    c'.farms.sum (fun _ f => if f.terms.rewardToken = t then f.amountOfReward else 0) =
      c.farms.sum (fun _ f => if f.terms.rewardToken = t then f.amountOfReward else 0) := by
  induction h with
  | nil => rfl
  | @cons c c' i ids u u1 f f1 fs m1 hu hf hs hc _ ih =>
    obtain ⟨g, added, n, hcl⟩ := claimFromFarm_ok hc
    rw [ih]
    exact FMap.sum_insert_same _ _ _ _ _ hf (by simp [hcl.farm, hcl.dist.terms, hcl.dist.reward])

theorem nearOut_if (a : AccountId) (n : Nat) : nearOut (if n > 0 then [.near a n] else []) = n := by
  split
  · simp [nearOut]
  · simp [nearOut]; omega

theorem nearOut_one (a : AccountId) (n : Nat) : nearOut [.near a n] = n := by simp [nearOut]

theorem nearOut_none {outs : List Out} (h : ∀ o ∈ outs, ∀ a n, o ≠ .near a n) : nearOut outs = 0 := by
  unfold nearOut
  rw [List.sum_eq_zero_iff_forall_eq_nat]
  intro x hx
  obtain ⟨o, ho, rfl⟩ := List.mem_map.1 hx
  cases o with
  | near a n => exact absurd rfl (h _ ho a n)
  | _ => rfl

theorem Contract.depositOf_some {c : Contract} {a : AccountId} {u : Farmer}
    (h : c.farmers.get? a = some u) : c.depositOf a = u.near := by
  unfold depositOf farmerStorage; rw [h]

theorem Contract.depositOf_congr {c c' : Contract} (a : AccountId)
    (h : (c'.farmers.get? a).map Farmer.near = (c.farmers.get? a).map Farmer.near) :
    c'.depositOf a = c.depositOf a := by
  unfold depositOf farmerStorage
  cases h1 : c.farmers.get? a <;> cases h2 : c'.farmers.get? a <;> rw [h1, h2] at h <;>
    simp_all

theorem Contract.register_near {c c' : Contract} {b : AccountId} {n : Nat}
    (h : c.register b n = .ok c') (a : AccountId) :
    c'.depositOf a = c.depositOf a + if b = a then n else 0 := by
  unfold Contract.register at h
  unfold depositOf farmerStorage
  split at h
  · rename_i u hu
    unpack at h
    obtain ⟨_, rfl⟩ := h
    simp only [FMap.get?_insert]
    by_cases hab : a = b
    · subst hab; simp [hu]
    · simp [hab, Ne.symm hab]
  · rename_i hu
    unpack at h
    obtain ⟨_, rfl⟩ := h
    simp only [FMap.get?_insert]
    by_cases hab : a = b
    · subst hab; simp [hu, Farmer.new]
    · simp [hab, Ne.symm hab]

theorem Contract.register_deposits {c c' : Contract} {b : AccountId} {n : Nat}
    (h : c.register b n = .ok c') : c'.deposits = c.deposits + n := by
  unfold Contract.register at h
  unfold deposits
  split at h
  · rename_i u hu
    unpack at h
    obtain ⟨_, rfl⟩ := h
    have := c.farmers.sum_insert (fun _ u => u.near) b { u with near := u.near + n }
    rw [FMap.term_some _ hu] at this
    simp only at this ⊢
    omega
  · rename_i hu
    unpack at h
    obtain ⟨_, rfl⟩ := h
    have := c.farmers.sum_insert (fun _ u => u.near) b (Farmer.new n)
    rw [FMap.term_none _ hu] at this
    simp only [Farmer.new] at this ⊢
    omega

theorem Contract.register_frame {c c' : Contract} {b : AccountId} {n : Nat}
    (h : c.register b n = .ok c') : c'.owner = c.owner ∧ c'.running = c.running ∧
      c'.seeds = c.seeds ∧ c'.farms = c.farms ∧ c'.outdated = c.outdated ∧
      c'.rewardInfo = c.rewardInfo := by
  unfold Contract.register at h
  split at h <;> (unpack at h; obtain ⟨_, rfl⟩ := h; exact ⟨rfl, rfl, rfl, rfl, rfl, rfl⟩)

theorem Contract.addFarm_frame {c c' : Contract} {t : Terms} {d : Nat} (h : c.addFarm t d = .ok c') :
    c'.farmers = c.farmers ∧ c'.farmerCount = c.farmerCount := by
  obtain ⟨_, _, _, rfl⟩ := addFarm_ok h
  exact ⟨rfl, rfl⟩

theorem Contract.removeFarm_frame {c c' : Contract} {x : Ctx} {id : FarmId} (hI : Inv c)
    (h : c.removeFarm x id = .ok c') : c'.farmers = c.farmers ∧ c'.farmerCount = c.farmerCount := by
  obtain rfl | ⟨_, _, _, _, _, _, _, rfl⟩ := removeFarm_ok hI h <;> exact ⟨rfl, rfl⟩

theorem FMap.size_eq_sum {K V : Type} (m : FMap K V) : m.size = m.sum fun _ _ => 1 := by
  obtain ⟨l, _⟩ := m
  simp [FMap.size, FMap.sum, List.map_const']

namespace Contract

open Demo

variable {c c' : Contract} {e : Event} {outs : List Out}

/-- What can be seen of a call: the promises, and some view of the state after it. -/
def seen (c : Contract) (x : Ctx) (k : Call) (f : Contract → List Nat) : Option (List Out × List Nat) :=
  match c.exec x k with
  | .ok r => some (r.2, f r.1)
  | .error _ => none

/-! ### C59 -/

/-- **C59.** The storage deposit of an account changes by what is paid in for it and what its owner
takes out, nothing else touches it. -/
theorem C59_account (hc : c.Reachable) (h : c.apply e = .ok (c', outs)) (a : AccountId) :
    c'.depositOf a + e.takenOut a outs = c.depositOf a + e.putIn a outs := by
  have hI := hc.inv
  have same : ∀ {c'' : Contract}, c''.farmers = c.farmers → c''.depositOf a = c.depositOf a := by
    intro c'' h; unfold depositOf farmerStorage; rw [h]
  cases kind_of_apply hI h with
  | create _ h1 => exact same (addFarm_frame h1).1
  | clean _ h1 => exact same (removeFarm_frame hI h1).1
  | owner => rfl
  | minimum => rfl
  | running => rfl
  | @farmer _ who ids c1 u u' seeds m _ _ hcl hu hn _ _ h1 h2 h3 _ =>
    have e1 : e.takenOut a outs = 0 := by
      cases e with
      | callback => rfl
      | call x k =>
        cases k <;> first | rfl | exact absurd rfl (h2 _ _) | exact absurd rfl (h3 _)
    have e2 : e.putIn a outs = 0 := by
      cases e with
      | callback => rfl
      | call x k => cases k <;> first | rfl | exact absurd rfl (h1 _ _ _)
    rw [e1, e2]
    show depositOf _ a = depositOf _ a
    apply depositOf_congr
    simp only [FMap.get?_insert]
    split
    · rename_i ha
      subst ha
      cases hu0 : c.farmers.get? a with
      | none =>
        cases hcl with
        | nil => rw [hu] at hu0; cases hu0
        | cons h => rw [h] at hu0; cases hu0
      | some u0 =>
        obtain ⟨v, hv, _, _, h5⟩ := hcl.same.farmer u0 hu0
        rw [hu] at hv
        cases hv
        simp [hn, h5]
    · rename_i ha; rw [hcl.same.others a ha]
  | nothing hw h1 h2 h3 =>
    cases e with
    | callback => rfl
    | call x k =>
      cases k <;> first
        | rfl
        | exact absurd rfl (h1 _ _ _)
        | exact absurd rfl (h2 _ _)
        | skip
      simp [Event.takenOut, Event.putIn, nearOut]
  | fund => rfl
  | @deposit x b only n _ _ h1 h2 =>
    simp only [Event.takenOut, Event.putIn, nearOut_if, register_near h1]
    split <;> omega
  | @withdraw x n u k _ hu h1 _ =>
    simp only [Event.takenOut, Event.putIn, nearOut_one]
    by_cases ha : x.pred = a
    · subst ha
      rw [depositOf_some hu, depositOf_some (FMap.get?_insert_self _ _ _), if_pos rfl]
      simp only
      omega
    · rw [if_neg ha]
      congr 1
      apply depositOf_congr
      rw [FMap.get?_insert_ne _ _ (Ne.symm ha)]
  | @leave x u _ hu =>
    simp only [Event.takenOut, Event.putIn, nearOut_one]
    by_cases ha : x.pred = a
    · subst ha
      rw [depositOf_some hu, if_pos rfl]
      unfold depositOf farmerStorage
      simp only [FMap.get?_erase_self]
      omega
    · rw [if_neg ha]
      congr 1
      apply depositOf_congr
      rw [FMap.get?_erase_ne _ (Ne.symm ha)]

/-- `cy` registers `al` again with one NEAR, `al` then takes out 3 NEAR/10: the deposits follow. -/
example : c1.seen (near 1002 cy) (.storageDeposit (some al) false) (fun c => [c.depositOf al, c.depositOf bo]) =
    some ([], [2 * 10 ^ 24, 10 ^ 24]) := by decide +kernel
example : c1.seen (y 1002 al) (.storageWithdraw (some (3 * 10 ^ 23))) (fun c => [c.depositOf al, c.depositOf bo]) =
    some ([.near al (3 * 10 ^ 23)], [7 * 10 ^ 23, 10 ^ 24]) := by decide +kernel
/-- Registering only, the rest is sent back. -/
example : c1.seen (near 1002 cy) (.storageDeposit none true) (fun c => [c.depositOf cy]) =
    some ([.near cy (10 ^ 24 - 1852 * 10 ^ 19)], [1852 * 10 ^ 19]) := by decide +kernel

/-- **C59.** No NEAR is created or lost: what is attached for storage is added to the deposits or sent
back, what is taken out of the deposits is sent. -/
theorem C59_total (hc : c.Reachable) (h : c.apply e = .ok (c', outs)) :
    c'.deposits + nearOut outs = c.deposits + e.attached := by
  have hI := hc.inv
  cases kind_of_apply hI h with
  | create _ h1 => rw [nearOut_if]; unfold deposits; rw [(addFarm_frame h1).1]; rfl
  | clean _ h1 => unfold deposits; rw [(removeFarm_frame hI h1).1]; rfl
  | owner => rfl
  | minimum => rfl
  | running => rfl
  | @farmer _ who ids c1 u u' seeds m _ hw hcl hu hn _ ho h1 h2 h3 _ =>
    have e1 : e.attached = 0 := by
      cases e with
      | callback => rfl
      | call x k =>
        cases k <;> first | rfl | exact absurd rfl (h1 _ _ _) | cases hw
    rw [nearOut_none ho, e1]
    show deposits _ = deposits _
    have key : c1.deposits = c.deposits := by
      cases hu0 : c.farmers.get? who with
      | none =>
        cases hcl with
        | nil => rfl
        | cons h => rw [h] at hu0; cases hu0
      | some u0 =>
        obtain ⟨v, hv, h4, _, h5⟩ := hcl.same.farmer u0 hu0
        unfold deposits
        rw [h4]
        exact FMap.sum_insert_same _ _ _ _ _ hu0 h5
    rw [← key]
    exact FMap.sum_insert_same _ _ _ _ _ hu hn
  | nothing hw h1 h2 h3 h4 =>
    cases e with
    | callback => rfl
    | call x k =>
      cases k <;> first
        | rfl
        | exact absurd rfl (h1 _ _ _)
        | cases hw
  | fund => rfl
  | @deposit x b only n _ _ h1 h2 =>
    simp only [Event.attached, nearOut_if, register_deposits h1]
    omega
  | @withdraw x n u k _ hu h1 _ =>
    simp only [Event.attached, nearOut_one]
    have := c.farmers.sum_insert (fun _ u => u.near) x.pred { u with near := u.near - k }
    rw [FMap.term_some _ hu] at this
    unfold deposits
    simp only at this ⊢
    omega
  | @leave x u _ hu =>
    simp only [Event.attached, nearOut_one]
    have := c.farmers.sum_erase (fun _ u => u.near) x.pred
    rw [FMap.term_some _ hu] at this
    unfold deposits
    simp only at this ⊢
    omega

example : c1.deposits = 2 * 10 ^ 24 := by decide +kernel

/-- **C59.** NEAR is sent to the caller only. -/
theorem C59_receiver (hc : c.Reachable) (h : c.apply e = .ok (c', outs)) {a : AccountId} {n : Nat}
    (ho : .near a n ∈ outs) : ∃ x k, e = .call x k ∧ a = x.pred := by
  cases kind_of_apply hc.inv h with
  | create =>
    split at ho
    · cases List.mem_singleton.1 ho; exact ⟨_, _, rfl, rfl⟩
    · cases ho
  | deposit =>
    split at ho
    · cases List.mem_singleton.1 ho; exact ⟨_, _, rfl, rfl⟩
    · cases ho
  | withdraw => cases List.mem_singleton.1 ho; exact ⟨_, _, rfl, rfl⟩
  | leave => cases List.mem_singleton.1 ho; exact ⟨_, _, rfl, rfl⟩
  | farmer _ _ _ _ _ h1 => exact absurd rfl (h1 _ ho _ _)
  | _ => cases ho

/-- **C59.** Whoever takes out NEAR keeps their storage paid. -/
theorem C59_withdraw {x : Ctx} {n : Option Nat} (hc : c.Reachable)
    (h : c.exec x (.storageWithdraw n) = .ok (c', outs)) :
    c'.usageOf x.pred ≤ c'.depositOf x.pred := by
  cases kind_of_apply (e := .call x (.storageWithdraw n)) hc.inv h with
  | farmer _ _ _ _ _ _ _ h1 => exact absurd rfl (h1 _ _)
  | nothing _ _ h1 => exact absurd rfl (h1 _ _)
  | withdraw _ hu h1 =>
    unfold usageOf depositOf farmerStorage
    simp only [FMap.get?_insert_self]
    exact Nat.le_sub_of_add_le h1

/-- `al` takes out all they can. -/
example : c1.seen (y 1002 al) (.storageWithdraw none) (fun c => [c.depositOf al, c.usageOf al]) =
    some ([.near al (10 ^ 24 - 341 * 10 ^ 19)], [341 * 10 ^ 19, 341 * 10 ^ 19]) := by decide +kernel

theorem assertStorage_inv {a : AccountId} (h : c.assertStorage a = .ok ()) :
    0 < c.depositOf a ∧ c.usageOf a ≤ c.depositOf a := by
  unfold assertStorage at h
  unpack at h
  exact h

/-- **C59.** Whoever claims has paid for the storage of their account afterwards. -/
theorem C59_claim {x : Ctx} {k : Call} (hk : (∃ id, k = .claimRewardByFarm id) ∨
    ∃ s, k = .claimRewardBySeed s) (h : c.exec x k = .ok (c', outs)) :
    c'.usageOf x.pred ≤ c'.depositOf x.pred := by
  obtain ⟨id, rfl⟩ | ⟨s, rfl⟩ := hk
  · obtain ⟨h0, rfl⟩ := exec_quiet h
    exact (assertStorage_inv (claimRewardByFarm_inv h0).2.2).2
  · obtain ⟨h0, rfl⟩ := exec_quiet h
    exact (assertStorage_inv (claimRewardBySeed_inv h0).2.2).2

example : c1.seen (at' 1020 al) (.claimRewardByFarm F) (fun c => [c.depositOf al, c.usageOf al]) =
    some ([], [10 ^ 24, 425 * 10 ^ 19]) := by decide +kernel

/-- **C59.** Whoever leaves has nothing staked and nothing to withdraw, and is sent all their storage
deposit. -/
theorem C59_leave {x : Ctx} (hc : c.Reachable) (h : c.exec x .storageUnregister = .ok (c', outs)) :
    nearOut outs = c.depositOf x.pred ∧ c'.depositOf x.pred = 0 ∧
      (∀ s, c.stakeOf x.pred s = 0) ∧ ∀ t, c.rewardOf x.pred t = 0 := by
  cases kind_of_apply (e := .call x .storageUnregister) hc.inv h with
  | farmer _ _ _ _ _ _ _ _ h1 => exact absurd rfl (h1 _)
  | nothing _ _ _ h1 =>
    have := h1 x rfl
    unfold depositOf farmerStorage stakeOf rewardOf
    rw [this]
    exact ⟨rfl, rfl, fun _ => rfl, fun _ => rfl⟩
  | leave _ hu h1 h2 =>
    refine ⟨by rw [nearOut_one, depositOf_some hu], ?_, ?_, ?_⟩
    · unfold depositOf farmerStorage
      simp only [FMap.get?_erase_self]
    · intro s
      unfold stakeOf Farmer.stake
      rw [hu]
      simp only [size_zero h2]
      rfl
    · intro t
      unfold rewardOf
      rw [hu]
      simp only [size_zero h1]
      rfl

/-- `cy` leaves, `al` cannot because of their stake. -/
example : (c1.step (.call (near 1002 cy) (.storageDeposit none false))).seen (y 1003 cy) .storageUnregister
    (fun c => [c.depositOf cy]) = some ([.near cy (10 ^ 24)], [0]) := by decide +kernel
example : c1.seen (y 1003 al) .storageUnregister (fun _ => []) = none := by decide +kernel

/-- Registered farmers have paid for a bare account at least. -/
theorem registered_paid (hc : c.Reachable) {a : AccountId} {u : Farmer}
    (hu : c.farmers.get? a = some u) : 92 * 10 ^ 19 ≤ u.near := by
  suffices h : c.Reachable ∧ ∀ a u, c.farmers.get? a = some u → 92 * 10 ^ 19 ≤ u.near from
    h.2 _ _ hu
  clear hu
  refine Reachable.induct (P := fun c => c.Reachable ∧
    ∀ a u, c.farmers.get? a = some u → 92 * 10 ^ 19 ≤ u.near) ?_ ?_ hc
  · intro owner
    exact ⟨⟨owner, [], rfl⟩, fun a u h => by cases h⟩
  intro c e c' outs ⟨hc, ih⟩ h
  refine ⟨hc.apply h, ?_⟩
  have hI := hc.inv
  intro a v hv
  cases kind_of_apply hI h with
  | create _ h1 => rw [(addFarm_frame h1).1] at hv; exact ih _ _ hv
  | clean _ h1 => rw [(removeFarm_frame hI h1).1] at hv; exact ih _ _ hv
  | owner => exact ih _ _ hv
  | minimum => exact ih _ _ hv
  | running => exact ih _ _ hv
  | @farmer _ who ids c1 u u' seeds m _ hw hcl hu hn _ ho h1 h2 h3 _ =>
    have key : ∀ v, c1.farmers.get? who = some v → 92 * 10 ^ 19 ≤ v.near := by
      intro v hv
      cases hu0 : c.farmers.get? who with
      | none =>
        cases hcl with
        | nil => rw [hv] at hu0; cases hu0
        | cons h => rw [h] at hu0; cases hu0
      | some u0 =>
        obtain ⟨w, hw, _, _, h5⟩ := hcl.same.farmer u0 hu0
        rw [hv] at hw
        cases hw
        rw [h5]
        exact ih _ _ hu0
    simp only [FMap.get?_insert] at hv
    split at hv
    · cases hv
      rw [hn]
      exact key u hu
    · rename_i ha
      rw [hcl.same.others a ha] at hv
      exact ih _ _ hv
  | nothing => exact ih _ _ hv
  | fund => exact ih _ _ hv
  | @deposit x b only n _ _ h1 h2 _ h3 =>
    unfold Contract.register at h1
    split at h1
    · rename_i u hu
      unpack at h1
      obtain ⟨_, rfl⟩ := h1
      simp only [FMap.get?_insert] at hv
      split at hv
      · cases hv
        exact Nat.le_trans (ih _ _ hu) (Nat.le_add_right _ _)
      · exact ih _ _ hv
    · rename_i hu
      unpack at h1
      obtain ⟨_, rfl⟩ := h1
      simp only [FMap.get?_insert] at hv
      split at hv
      · cases hv
        have h4 : minStorage ≤ n := by
          apply h3
          unfold farmerStorage
          rw [hu]
        refine Nat.le_trans ?_ h4
        decide
      · exact ih _ _ hv
  | @withdraw x n u k _ hu h1 _ =>
    simp only [FMap.get?_insert] at hv
    split at hv
    · cases hv
      unfold Farmer.storageUsage at h1
      simp only
      omega
    · exact ih _ _ hv
  | @leave x u _ hu =>
    by_cases ha : a = x.pred
    · subst ha
      simp only [FMap.get?_erase_self] at hv
      cases hv
    · simp only [FMap.get?_erase_ne _ ha] at hv
      exact ih _ _ hv

/-! ### C60 -/

/-- **C60.** Only the owner can change the owner, pause or resume, create or clear farms, or change
what is decided about a seed or a farm. -/
theorem C60_owner_only (hc : c.Reachable) (h : c.apply e = .ok (c', outs)) (he : ¬ e.by c.owner) :
    c'.owner = c.owner ∧ c'.running = c.running ∧ c'.outdated = c.outdated ∧
      (∀ s, (c'.seeds.get? s).map FarmSeed.settings = (c.seeds.get? s).map FarmSeed.settings) ∧
      ∀ id, (c'.farms.get? id).map SimpleFarm.settings = (c.farms.get? id).map SimpleFarm.settings := by
  cases kind_of_apply hc.inv h with
  | create h1 => exact absurd h1 he
  | clean h1 => exact absurd h1 he
  | owner h1 => exact absurd h1 he
  | minimum h1 => exact absurd h1 he
  | running h1 => exact absurd h1 he
  | farmer _ hcl _ _ hs =>
    refine ⟨hcl.same.owner, hcl.same.running, hcl.same.outdated, ?_, ?_⟩
    · intro s
      simp only
      rw [hs.settings s, hcl.same.seeds]
    · intro id
      have := congrArg (Option.map fun q : Terms × Nat => (q.1.seedId, q.1.rewardToken,
        q.1.rewardPerSession, q.1.sessionInterval)) (hcl.farms_get id)
      rw [Option.map_map, Option.map_map] at this
      exact this
  | nothing => exact ⟨rfl, rfl, rfl, fun _ => rfl, fun _ => rfl⟩
  | @fund x a n i f f1 _ _ hf _ h1 =>
    refine ⟨rfl, rfl, rfl, fun _ => rfl, ?_⟩
    intro id
    simp only [FMap.get?_insert]
    split
    · rename_i hi
      subst hi
      rw [hf]
      have := SimpleFarm.addReward_ok h1
      simp [SimpleFarm.settings, this.seed, this.token, this.perSession, this.interval]
    · rfl
  | deposit _ h1 =>
    obtain ⟨h2, h3, h4, h5, h6, _⟩ := register_frame h1
    rw [h2, h3, h4, h5, h6]
    exact ⟨rfl, rfl, rfl, fun _ => rfl, fun _ => rfl⟩
  | withdraw => exact ⟨rfl, rfl, rfl, fun _ => rfl, fun _ => rfl⟩
  | leave => exact ⟨rfl, rfl, rfl, fun _ => rfl, fun _ => rfl⟩

/-- `al`'s claim is an event that is not by the owner; it leaves the farm as the owner has set it up. -/
example : ¬ (Event.call (at' 1020 al) (.claimRewardByFarm F)).by c1.owner ∧
    (c2.farms.get? F).map SimpleFarm.settings = some (S, R', 100, 10) :=
  ⟨by show ¬ al = own; decide, by decide +kernel⟩

/-- **C60.** The methods for the owner refuse everybody else. -/
theorem C60_refused {x : Ctx} {k : Call} (hk : k.forOwner) (hx : x.pred ≠ c.owner) :
    ∃ err, c.exec x k = .error err := by
  cases h : c.exec x k with
  | error err => exact ⟨err, rfl⟩
  | ok r =>
    exfalso
    obtain ⟨c', outs⟩ := r
    cases k with
    | createSimpleFarm => exact hx (createSimpleFarm_inv h).1
    | forceCleanFarm => exact hx (forceCleanFarm_inv (exec_quiet h).1).1
    | setOwner => exact hx (setOwner_inv (exec_quiet h).1).1
    | modifyMinDeposit => exact hx (modifyMinDeposit_inv (exec_quiet h).1).1
    | setRunning => exact hx (setRunning_inv (exec_quiet h).1).1
    | _ => exact hk

example : (Call.setOwner al).forOwner ∧ (y 1002 al).pred ≠ c1.owner := ⟨trivial, by decide +kernel⟩

/-! ### C61 -/

/-- **C61.** While the contract is paused every call but those for the owner fails. -/
theorem C61_paused {x : Ctx} {k : Call} (hp : c.running = false) (hk : ¬ k.forOwner) :
    ∃ err, c.exec x k = .error err := by
  cases h : c.exec x k with
  | error err => exact ⟨err, rfl⟩
  | ok r =>
    exfalso
    obtain ⟨c', outs⟩ := r
    have no : c.running = true → False := by rw [hp]; simp
    cases k with
    | removeUserRps => exact no (removeUserRps_inv (exec_quiet h).1).1
    | claimRewardByFarm => exact no (claimRewardByFarm_inv (exec_quiet h).1).1
    | claimRewardBySeed => exact no (claimRewardBySeed_inv (exec_quiet h).1).1
    | withdrawReward => exact no (withdrawReward_inv h).1
    | withdrawSeed => exact no (withdrawSeed_inv h).1
    | ftOnTransfer => exact no (ftOnTransfer_inv (exec_quiet h).1).1
    | mftOnTransfer => exact no (mftOnTransfer_inv (exec_quiet h).1).1
    | storageDeposit => exact no (storageDeposit_inv h).1
    | storageWithdraw => exact no (storageWithdraw_inv h).1
    | storageUnregister => exact no (storageUnregister_inv h).1
    | _ => exact hk trivial

/-- The owner pauses, `al` can do nothing; the owner resumes, `al` can claim. -/
example : ((c1.step (.call (y 1002 own) (.setRunning false))).running,
    ((c1.step (.call (y 1002 own) (.setRunning false))).seen (at' 1020 al) (.claimRewardByFarm F)
      (fun _ => [])).isNone,
    ((c1.step (.call (y 1002 own) (.setRunning false))).step (.call (y 1003 own) (.setRunning true))).seen
      (at' 1020 al) (.claimRewardByFarm F) (fun c => [c.rewardOf al R'])) = (false, true, some ([], [150])) := by
  decide +kernel

/-- **C61.** While the contract is paused no call changes the account of a farmer. -/
theorem C61_accounts {x : Ctx} {k : Call} (hc : c.Reachable) (hp : c.running = false)
    (h : c.exec x k = .ok (c', outs)) : c'.farmers = c.farmers := by
  have no : c.running = true → False := by rw [hp]; simp
  cases kind_of_apply (e := .call x k) hc.inv h with
  | create _ h1 => exact (addFarm_frame h1).1
  | clean _ h1 => exact (removeFarm_frame hc.inv h1).1
  | owner => rfl
  | minimum => rfl
  | running => rfl
  | farmer _ _ _ _ _ _ _ _ _ h1 => exact (no (h1 _ _ rfl)).elim
  | nothing => rfl
  | fund h1 => exact (no h1).elim
  | deposit h1 => exact (no h1).elim
  | withdraw h1 => exact (no h1).elim
  | leave h1 => exact (no h1).elim

/-! ### C62 -/

/-- **C62.** The total that `list_rewards_info` reports for a token is what farms, live or cleared, have
received in it. -/
theorem C62_reward_info (hc : c.Reachable) (t : AccountId) : c.rewardInfo.getD t 0 = c.funded t := by
  suffices h : c.Reachable ∧ c.rewardInfo.getD t 0 = c.funded t from h.2
  refine Reachable.induct (P := fun c => c.Reachable ∧ c.rewardInfo.getD t 0 = c.funded t) ?_ ?_ hc
  · intro owner
    exact ⟨⟨owner, [], rfl⟩, rfl⟩
  intro c e c' outs ⟨hc, ih⟩ h
  refine ⟨hc.apply h, ?_⟩
  have hI := hc.inv
  cases kind_of_apply hI h with
  | create _ h1 =>
    obtain ⟨fs, hfs, hk, rfl⟩ := addFarm_ok h1
    rename_i x t' d _ _
    have hnofarm : c.farms.get? (genFarmId t'.seedId fs.nextIndex) = none := by
      cases hf : c.farms.get? (genFarmId t'.seedId fs.nextIndex) with
      | none => rfl
      | some f =>
        obtain ⟨fs', h1, _, i, h2, h3⟩ := (hI.farms _ f hf).seed
        obtain ⟨h4, h5⟩ := genFarmId_inj h3
        rw [← h4] at h1
        rcases hfs with hs | ⟨hs, _⟩
        · rw [hs] at h1; cases h1; omega
        · rw [hs] at h1; cases h1
    have h5 := c.farms.sum_insert
      (fun _ f => if f.terms.rewardToken = t then f.amountOfReward else 0)
      (genFarmId t'.seedId fs.nextIndex) (SimpleFarm.new (genFarmId t'.seedId fs.nextIndex) t')
    rw [FMap.term_none _ hnofarm] at h5
    have h6 : (if (SimpleFarm.new (genFarmId t'.seedId fs.nextIndex) t').terms.rewardToken = t then
      (SimpleFarm.new (genFarmId t'.seedId fs.nextIndex) t').amountOfReward else 0) = 0 := by
      split <;> rfl
    unfold funded at ih ⊢
    simp only at h5 ⊢
    omega
  | clean _ h1 =>
    rename_i x id _
    obtain rfl | ⟨f, fs, g, hf, hs, hb, hg, rfl⟩ := removeFarm_ok hI h1
    · exact ih
    · obtain ⟨f1, added, hd, _, hg'⟩ := SimpleFarm.moveToClear_ok hb hg
      have h2 : (if g.terms.rewardToken = t then g.amountOfReward else 0) =
          if f.terms.rewardToken = t then f.amountOfReward else 0 := by
        rw [hg']; simp only [hd.terms, hd.reward]
      have h3 := c.farms.sum_erase
        (fun _ f => if f.terms.rewardToken = t then f.amountOfReward else 0) id
      rw [FMap.term_some _ hf] at h3
      have h4 := c.outdated.sum_insert
        (fun _ f => if f.terms.rewardToken = t then f.amountOfReward else 0) id g
      have h5 : c.outdated.get? id = none := by
        cases ho : c.outdated.get? id with
        | none => rfl
        | some f' => rw [(hI.outdated id f' ho).2.2.2.2] at hf; cases hf
      rw [FMap.term_none _ h5] at h4
      unfold funded at ih ⊢
      simp only at h3 h4 ⊢
      omega
  | owner => exact ih
  | minimum => exact ih
  | running => exact ih
  | farmer _ hcl =>
    unfold funded at ih ⊢
    simp only [hcl.farms_sum, hcl.same.info, hcl.same.outdated]
    exact ih
  | nothing => exact ih
  | @fund x a n i f f1 _ _ hf ht h1 =>
    have h2 := SimpleFarm.addReward_ok h1
    have h3 := c.farms.sum_insert
      (fun _ f => if f.terms.rewardToken = t then f.amountOfReward else 0) i f1
    rw [FMap.term_some _ hf] at h3
    unfold funded at ih ⊢
    simp only [FMap.getD_insert]
    simp only [h2.token, h2.reward, ht] at h3
    by_cases hx : x.pred = t
    · subst hx
      simp only [if_true] at h3 ⊢
      omega
    · simp only [if_neg hx, if_neg (Ne.symm hx)] at h3 ⊢
      omega
  | deposit _ h1 =>
    obtain ⟨_, _, _, h2, h3, h4⟩ := register_frame h1
    unfold funded at ih ⊢
    rw [h2, h3, h4]
    exact ih
  | withdraw => exact ih
  | leave => exact ih

example : c3.rewardInfo.getD R' 0 = 1000 ∧ c3.funded R' = 1000 := by decide +kernel
/-- Also when the farm has been cleared. -/
example : (c3.step (.call (at' 1300 own) (.forceCleanFarm F))).outdated.size = 1 ∧
    (c3.step (.call (at' 1300 own) (.forceCleanFarm F))).funded R' = 1000 := by decide +kernel

/-- **C62.** The number of farmers that `get_metadata` reports is the number of registered accounts. -/
theorem C62_farmer_count (hc : c.Reachable) : c.farmerCount = c.farmers.size := by
  suffices h : c.Reachable ∧ c.farmerCount = c.farmers.sum fun _ _ => 1 by
    rw [FMap.size_eq_sum]; exact h.2
  refine Reachable.induct (P := fun c => c.Reachable ∧
    c.farmerCount = c.farmers.sum fun _ _ => 1) ?_ ?_ hc
  · intro owner
    exact ⟨⟨owner, [], rfl⟩, rfl⟩
  intro c e c' outs ⟨hc, ih⟩ h
  refine ⟨hc.apply h, ?_⟩
  have hI := hc.inv
  cases kind_of_apply hI h with
  | create _ h1 => rw [(addFarm_frame h1).1, (addFarm_frame h1).2]; exact ih
  | clean _ h1 => rw [(removeFarm_frame hI h1).1, (removeFarm_frame hI h1).2]; exact ih
  | owner => exact ih
  | minimum => exact ih
  | running => exact ih
  | @farmer _ who ids c1 u u' seeds m _ hw hcl hu hn _ ho h1 h2 h3 _ =>
    have key : c1.farmers.sum (fun _ _ => 1) = c.farmers.sum fun _ _ => 1 := by
      cases hu0 : c.farmers.get? who with
      | none =>
        cases hcl with
        | nil => rfl
        | cons h => rw [h] at hu0; cases hu0
      | some u0 =>
        obtain ⟨v, hv, h4, _, h5⟩ := hcl.same.farmer u0 hu0
        rw [h4]
        exact FMap.sum_insert_same _ _ _ _ _ hu0 rfl
    simp only
    rw [hcl.same.count, ih, ← key]
    exact (FMap.sum_insert_same _ (fun _ _ => 1) _ _ _ hu rfl).symm
  | nothing => exact ih
  | fund => exact ih
  | @deposit x b only n _ _ h1 =>
    unfold Contract.register at h1
    split at h1
    · rename_i u hu
      unpack at h1
      obtain ⟨_, rfl⟩ := h1
      simp only
      rw [ih]
      exact (FMap.sum_insert_same _ (fun _ _ => 1) _ _ _ hu rfl).symm
    · rename_i hu
      unpack at h1
      obtain ⟨_, rfl⟩ := h1
      have := c.farmers.sum_insert (fun _ _ => 1) (b.getD x.pred) (Farmer.new n)
      rw [FMap.term_none _ hu] at this
      simp only
      omega
  | @withdraw x n u k _ hu h1 _ =>
    simp only
    rw [ih]
    exact (FMap.sum_insert_same _ (fun _ _ => 1) _ _ _ hu rfl).symm
  | @leave x u _ hu =>
    have := c.farmers.sum_erase (fun _ _ => 1) x.pred
    rw [FMap.term_some _ hu] at this
    simp only
    omega

example : c1.farmerCount = 2 ∧ c1.farmers.size = 2 := by decide +kernel

/-! ### C63 -/

/-- **C63.** A stake is accepted only if the seed exists, the stake reaches its minimum, and the
account it is for is registered and has paid for its storage. -/
theorem C63_minimum {x : Ctx} {k : Call} {a : AccountId} {s : SeedId}
    (h : c.exec x k = .ok (c', outs)) (hs : 0 < (Event.call x k).staked a s) :
    (∃ fs, c.seeds.get? s = some fs ∧ fs.minDeposit ≤ (Event.call x k).staked a s) ∧
      0 < c'.depositOf a ∧ c'.usageOf a ≤ c'.depositOf a := by
  cases k <;> first | exact absurd hs (Nat.lt_irrefl 0) | skip
  case ftOnTransfer sender n msg =>
    obtain ⟨h0, rfl⟩ := exec_quiet h
    simp only [Event.staked] at hs ⊢
    split at hs
    · rename_i hx
      obtain ⟨rfl, rfl, rfl⟩ := hx
      rw [if_pos (by simp)]
      obtain ⟨_, ⟨_, fs, hfs, h1, _, h2⟩ | ⟨h1, _⟩⟩ := ftOnTransfer_inv h0
      · exact ⟨⟨fs, hfs, h1⟩, assertStorage_inv h2⟩
      · exact absurd rfl h1
    · exact absurd hs (Nat.lt_irrefl 0)
  case mftOnTransfer tok sender n msg =>
    obtain ⟨h0, rfl⟩ := exec_quiet h
    obtain ⟨_, p, fs, hp, hfs, h1, _, h2⟩ := mftOnTransfer_inv h0
    simp only [Event.staked, hp] at hs ⊢
    split at hs
    · rename_i hx
      obtain ⟨rfl, rfl⟩ := hx
      rw [if_pos (by simp)]
      exact ⟨⟨fs, hfs, h1⟩, assertStorage_inv h2⟩
    · exact absurd hs (Nat.lt_irrefl 0)

/-- The minimum is 1: `al` stakes 7 more of `S`; 0 are refused. -/
example : c1.seen (at' 1002 S) (.ftOnTransfer al 7 []) (fun c => [c.stakeOf al S]) = some ([], [37]) ∧
    (Event.call (at' 1002 S) (.ftOnTransfer al 7 [])).staked al S = 7 ∧
    c1.seen (at' 1002 S) (.ftOnTransfer al 0 []) (fun _ => []) = none := by decide +kernel

end Contract
end Verif.Farming

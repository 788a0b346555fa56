import Verif.Farming.Reach

/-
A classification of the events: what each can change.
-/

namespace Verif.Farming

/-- The seed keeps its farms, its counter and its minimum. -/
def FarmSeed.Alike (a b : FarmSeed) : Prop :=
  a.farms = b.farms ∧ a.nextIndex = b.nextIndex ∧ a.minDeposit = b.minDeposit

/-- The seeds keep their farms, their counters and their minima. -/
def SeedsAlike (m m' : FMap SeedId FarmSeed) : Prop :=
  ∀ s, match m.get? s, m'.get? s with
    | some a, some b => a.Alike b
    | none, none => True
    | _, _ => False

theorem SeedsAlike.refl (m : FMap SeedId FarmSeed) : SeedsAlike m m := by
  intro s
  cases m.get? s <;> simp [FarmSeed.Alike]

theorem SeedsAlike.insert {m : FMap SeedId FarmSeed} {s : SeedId} {a b : FarmSeed}
    (h : m.get? s = some a) (hab : a.Alike b) : SeedsAlike m (m.insert s b) := by
  intro r
  rw [FMap.get?_insert]
  by_cases hr : r = s
  · rw [if_pos hr, hr, h]; exact hab
  · rw [if_neg hr]; exact SeedsAlike.refl m r

/-- The receiver of a transfer. -/
def Out.receiver : Out → AccountId
  | .near who _ | .reward _ who _ | .ftSeed _ who _ | .mftSeed _ _ _ who _ => who

/-- What a successful event did. -/
inductive Kind (c : Contract) : Event → Contract → List Out → Prop where
  | create {x : Ctx} {t : Terms} {d : Option Nat} {c' : Contract} :
      x.pred = c.owner → c.addFarm t (d.getD (10 ^ 18)) = .ok c' → x.grew * 10 ^ 19 ≤ x.deposit →
      Kind c (.call x (.createSimpleFarm t d)) c'
        (if x.deposit - x.grew * 10 ^ 19 > 0 then [.near x.pred (x.deposit - x.grew * 10 ^ 19)] else [])
  | clean {x : Ctx} {id : FarmId} {c' : Contract} :
      x.pred = c.owner → c.removeFarm x id = .ok c' → Kind c (.call x (.forceCleanFarm id)) c' []
  | owner {x : Ctx} {a : AccountId} :
      x.pred = c.owner → Kind c (.call x (.setOwner a)) { c with owner := a } []
  | minimum {x : Ctx} {s : SeedId} {n : Nat} {fs : FarmSeed} :
      x.pred = c.owner → c.seeds.get? s = some fs →
      Kind c (.call x (.modifyMinDeposit s n))
        { c with seeds := c.seeds.insert s { fs with minDeposit := n } } []
  | running {x : Ctx} {b : Bool} :
      x.pred = c.owner → Kind c (.call x (.setRunning b)) { c with running := b } []
  /-- The account of one farmer: claims, then changes to what they are owed or have staked. -/
  | farmer {e : Event} {who : AccountId} {ids : List FarmId} {c1 : Contract} {u u' : Farmer}
      {seeds : FMap SeedId FarmSeed} {m : RpsMap} {outs : List Out} :
      e.farmer = some who → Claims e.ctx who c ids c1 → c1.farmers.get? who = some u →
      u'.near = u.near → SeedsAlike c1.seeds seeds → (∀ o ∈ outs, ∀ a n, o ≠ .near a n) →
      (∀ x a b, e ≠ .call x (.storageDeposit a b)) → (∀ x n, e ≠ .call x (.storageWithdraw n)) →
      (∀ x, e ≠ .call x .storageUnregister) →
      (∀ x k, e = .call x k → c.running = true) →
      Kind c e { c1 with farmers := c1.farmers.insert who u', seeds := seeds, rps := m } outs
  /-- Nothing. -/
  | nothing {e : Event} {who : AccountId} : e.farmer = some who → (∀ x a b, e ≠ .call x (.storageDeposit a b)) → (∀ x n, e ≠ .call x (.storageWithdraw n)) →
      (∀ x, e = .call x .storageUnregister → c.farmers.get? x.pred = none) →
      (∀ x k, e = .call x k → c.running = true) → Kind c e c []
  | fund {x : Ctx} {a : AccountId} {n : Nat} {id : FarmId} {f f1 : SimpleFarm} :
      c.running = true → id ≠ [] → c.farms.get? id = some f → f.terms.rewardToken = x.pred →
      f.addReward x.now n = .ok (some f1) →
      Kind c (.call x (.ftOnTransfer a n id)) { c with
          farms := c.farms.insert id f1
          rewardInfo := c.rewardInfo.insert x.pred (c.rewardInfo.getD x.pred 0 + n) } []
  | deposit {x : Ctx} {a : Option AccountId} {only : Bool} {n : Nat} {c' : Contract} :
      c.running = true → c.register (a.getD x.pred) n = .ok c' → n ≤ x.deposit →
      (n = x.deposit ∨ (only = true ∧ n = minStorage)) →
      ((c.farmerStorage (a.getD x.pred)).2 = 0 → minStorage ≤ n) →
      Kind c (.call x (.storageDeposit a only)) c'
        (if x.deposit - n > 0 then [.near x.pred (x.deposit - n)] else [])
  | withdraw {x : Ctx} {n : Option Nat} {u : Farmer} {k : Nat} :
      c.running = true → c.farmers.get? x.pred = some u → u.storageUsage + k ≤ u.near →
      k = n.getD (u.near - u.storageUsage) →
      Kind c (.call x (.storageWithdraw n))
        { c with farmers := c.farmers.insert x.pred { u with near := u.near - k } } [.near x.pred k]
  | leave {x : Ctx} {u : Farmer} :
      c.running = true → c.farmers.get? x.pred = some u → u.rewards.size = 0 → u.seeds.size = 0 →
      1 ≤ c.farmerCount →
      Kind c (.call x .storageUnregister)
        { c with farmers := c.farmers.erase x.pred, farmerCount := c.farmerCount - 1 }
        [.near x.pred u.near]

theorem Claims.kind {c c' : Contract} {e : Event} {who : AccountId} {ids : List FarmId}
    (h : Claims e.ctx who c ids c') {u0 : Farmer} (hu : c.farmers.get? who = some u0)
    (hw : e.farmer = some who)
    (h1 : ∀ x a b, e ≠ .call x (.storageDeposit a b)) (h2 : ∀ x n, e ≠ .call x (.storageWithdraw n))
    (h3 : ∀ x, e ≠ .call x .storageUnregister)
    (h4 : ∀ x k, e = .call x k → c.running = true) : Kind c e c' [] := by
  obtain ⟨u, hu', _⟩ := h.same.farmer u0 hu
  have := Kind.farmer (u' := u) (m := c'.rps) hw h hu' rfl (.refl _) (outs := []) (by simp) h1 h2 h3 h4
  rwa [FMap.insert_same hu'] at this

theorem seedDeposit_kind {c c' : Contract} {e : Event} {who : AccountId} {s : SeedId} {n : Nat}
    {mft : Bool} (hI : Inv c) (h : c.seedDeposit e.ctx who s n mft = .ok c')
    (hw : e.farmer = some who)
    (h1 : ∀ x a b, e ≠ .call x (.storageDeposit a b)) (h2 : ∀ x n, e ≠ .call x (.storageWithdraw n))
    (h3 : ∀ x, e ≠ .call x .storageUnregister)
    (h4 : ∀ x k, e = .call x k → c.running = true) : Kind c e c' [] := by
  obtain ⟨fs, c1, u, u', hs, hc, hu, hu', _, rfl⟩ := seedDeposit_ok hI h
  refine Kind.farmer (m := c1.rps) hw hc hu (Farmer.addSeed_ok hu').2.1 ?_ (by simp) h1 h2 h3 h4
  refine .insert (a := fs) ?_ ⟨rfl, rfl, rfl⟩
  rw [hc.same.seeds]
  exact hs

/-- Every successful event is of one of these kinds. -/
theorem kind_of_apply {c c' : Contract} {e : Event} {outs : List Out} (hI : Inv c)
    (h : c.apply e = .ok (c', outs)) : Kind c e c' outs := by
  cases e with
  | callback x o ok =>
    obtain ⟨h0, rfl⟩ := Contract.exec_quiet h
    obtain rfl | ⟨rfl, ⟨t, who, n, u, u1, rfl, hu, h1, rfl⟩ | ⟨s, who, n, rfl, h1⟩ |
      ⟨s, a, b, who, n, rfl, h1⟩⟩ := Contract.callback_inv h0
    · exact .nothing (who := o.receiver) (by cases o <;> rfl) (by simp) (by simp) (by simp) (by simp)
    · exact .farmer (c1 := c) (ids := []) (seeds := c.seeds) (m := c.rps) rfl (.nil _) hu
        (Farmer.addReward_ok h1).2.1 (.refl _) (by simp) (by simp) (by simp) (by simp) (by simp)
    · exact seedDeposit_kind hI h1 rfl (by simp) (by simp) (by simp) (by simp)
    · exact seedDeposit_kind hI h1 rfl (by simp) (by simp) (by simp) (by simp)
  | call x k =>
    cases k with
    | createSimpleFarm t d =>
      obtain ⟨h0, h1, h2, _, rfl⟩ := Contract.createSimpleFarm_inv h
      exact .create h0 h1 h2
    | forceCleanFarm id =>
      obtain ⟨h0, rfl⟩ := Contract.exec_quiet h
      obtain ⟨h1, h2⟩ := Contract.forceCleanFarm_inv h0
      exact .clean h1 h2
    | setOwner a =>
      obtain ⟨h0, rfl⟩ := Contract.exec_quiet h
      obtain ⟨h1, rfl⟩ := Contract.setOwner_inv h0
      exact .owner h1
    | modifyMinDeposit s n =>
      obtain ⟨h0, rfl⟩ := Contract.exec_quiet h
      obtain ⟨h1, fs, hs, rfl⟩ := Contract.modifyMinDeposit_inv h0
      exact .minimum h1 hs
    | setRunning b =>
      obtain ⟨h0, rfl⟩ := Contract.exec_quiet h
      obtain ⟨h1, _, rfl⟩ := Contract.setRunning_inv h0
      exact .running h1
    | removeUserRps id =>
      obtain ⟨h0, rfl⟩ := Contract.exec_quiet h
      obtain ⟨hr, u, s, fs, hu, hp, hs, ⟨_, rfl⟩ | ⟨hnot, m, u1, hm, rfl⟩⟩ :=
        Contract.removeUserRps_inv h0
      · exact .nothing (who := x.pred) rfl (by simp) (by simp) (by simp) (fun _ _ _ => hr)
      · exact .farmer (e := .call x (.removeUserRps id)) (c1 := c) (ids := []) (seeds := c.seeds)
          rfl (.nil _) hu (removeRps_ok hm).2.2.1
          (.refl _) (by simp) (by simp) (by simp) (by simp) (fun _ _ _ => hr)
    | claimRewardByFarm id =>
      obtain ⟨h0, rfl⟩ := Contract.exec_quiet h
      obtain ⟨hr, h1, _⟩ := Contract.claimRewardByFarm_inv h0
      obtain ⟨u, hu, rfl | ⟨_, h2⟩⟩ := claimByFarm_ok hI h1
      · exact .nothing (who := x.pred) rfl (by simp) (by simp) (by simp) (fun _ _ _ => hr)
      · exact h2.kind (e := .call x (.claimRewardByFarm id)) hu rfl (by simp) (by simp) (by simp)
          (fun _ _ _ => hr)
    | claimRewardBySeed s =>
      obtain ⟨h0, rfl⟩ := Contract.exec_quiet h
      obtain ⟨hr, h1, _⟩ := Contract.claimRewardBySeed_inv h0
      obtain ⟨u, hu, ⟨_, rfl⟩ | ⟨_, _, h2⟩⟩ := claimBySeed_ok hI h1
      · exact .nothing (who := x.pred) rfl (by simp) (by simp) (by simp) (fun _ _ _ => hr)
      · exact h2.kind (e := .call x (.claimRewardBySeed s)) hu rfl (by simp) (by simp) (by simp)
          (fun _ _ _ => hr)
    | withdrawReward t n =>
      obtain ⟨hr, _, u, u1, k, hu, h1, rfl, rfl⟩ := Contract.withdrawReward_inv h
      exact .farmer (e := .call x (.withdrawReward t n)) (c1 := c) (ids := []) (seeds := c.seeds)
        (m := c.rps) rfl (.nil _) hu (Farmer.subReward_ok h1).2.1 (.refl _) (by simp) (by simp)
        (by simp) (by simp) (fun _ _ _ => hr)
    | withdrawSeed s n =>
      obtain ⟨hr, _, mft, h1, h2⟩ := Contract.withdrawSeed_inv h
      obtain ⟨fs, c1, u, u1, u', remain, m, hs, hc, hu, hu1, _, _, hm, rfl⟩ := seedWithdraw_ok hI h1
      refine .farmer (e := .call x (.withdrawSeed s n)) rfl hc hu ?_ ?_ ?_ (by simp) (by simp)
        (by simp) (fun _ _ _ => hr)
      · rw [(removeAllRps_ok hm).2.2.1, (Farmer.subSeed_ok hu1).2.1]
      · refine .insert (a := fs) ?_ ⟨rfl, rfl, rfl⟩
        rw [hc.same.seeds]
        exact hs
      · rcases h2 with ⟨_, rfl⟩ | ⟨_, _, _, _, rfl⟩ <;> simp
    | ftOnTransfer a n msg =>
      obtain ⟨h0, rfl⟩ := Contract.exec_quiet h
      obtain ⟨hr, ⟨rfl, _, _, _, h1, _⟩ | ⟨hm, f, f1, hf, ht, h1, rfl⟩⟩ := Contract.ftOnTransfer_inv h0
      · exact seedDeposit_kind (e := .call x (.ftOnTransfer a n [])) hI h1 rfl (by simp) (by simp)
          (by simp) (fun _ _ _ => hr)
      · exact .fund hr hm hf ht h1
    | mftOnTransfer tok a n msg =>
      obtain ⟨h0, rfl⟩ := Contract.exec_quiet h
      obtain ⟨hr, p, fs, hp, _, _, h1, _⟩ := Contract.mftOnTransfer_inv h0
      exact seedDeposit_kind (e := .call x (.mftOnTransfer tok a n msg)) hI h1 rfl (by simp) (by simp)
        (by simp) (fun _ _ _ => hr)
    | storageDeposit a only =>
      obtain ⟨hr, n, h1, h2, rfl, h3, h4⟩ := Contract.storageDeposit_inv h
      refine .deposit hr h1 h2 h3 ?_
      rcases h3 with rfl | ⟨_, rfl⟩
      · exact h4
      · exact fun _ => Nat.le_refl _
    | storageWithdraw n =>
      obtain ⟨hr, u, k, hu, h1, h2, rfl, rfl⟩ := Contract.storageWithdraw_inv h
      exact .withdraw hr hu h2 h1
    | storageUnregister =>
      obtain ⟨hr, ⟨h1, rfl, rfl⟩ | ⟨u, hu, h1, h2, h3, rfl, rfl⟩⟩ := Contract.storageUnregister_inv h
      · refine .nothing (who := x.pred) rfl (by simp) (by simp) ?_ (fun _ _ _ => hr)
        intro y hy
        cases hy
        exact h1
      · exact .leave hr hu h1 h2 h3

end Verif.Farming

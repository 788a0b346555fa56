import Verif.Boost.RewardProps

/-
C100: who may do what in the boost farming contract, and the NEAR paid for registrations.
-/

namespace Verif.Boost

open Demo

/-- What a call sends out. -/
def outs (o : List Out) : Nat := (o.map Out.amount).sum

/-- The NEAR the successful calls of a history brought. -/
def Contract.nearIn (fl : Floats) (c : Contract) : List Event → Nat
  | [] => 0
  | e :: es => (match c.exec fl e.x e.k with
      | .ok _ => e.x.deposit
      | .error _ => 0) + (c.step fl e).nearIn fl es

/-- The NEAR the successful calls of a history sent out. -/
def Contract.nearOut (fl : Floats) (c : Contract) : List Event → Nat
  | [] => 0
  | e :: es => (match c.exec fl e.x e.k with
      | .ok (_, o) => outs o
      | .error _ => 0) + (c.step fl e).nearOut fl es

/-- The number of registered farmers. -/
def Contract.registered (c : Contract) : Nat := c.farmers.sum fun _ _ => 1

/-- The calls only the owner can make. -/
def Call.ownerOnly : Call → Bool
  | .removeFarm _ | .setOwner _ | .setRunning _ | .extendOperators _ | .removeOperators _ => true
  | _ => false

/-- The calls only the owner and the operators can make. -/
def Call.managerOnly : Call → Bool
  | .createSeed .. | .createFarm .. | .cancelFarm _ | .setting _ => true
  | _ => false

/-- The calls that work while the contract is paused. -/
def Call.whilePaused : Call → Bool
  | .setOwner _ | .setRunning _ | .extendOperators _ | .removeOperators _ => true
  | _ => false

namespace Contract

/-- **C100.** Removing farms, pausing and naming the owner and the operators is for the owner. -/
theorem C100_owner {fl : Floats} {c c' : Contract} {x : Ctx} {k : Call} {o : List Out}
    (he : c.exec fl x k = .ok (c', o)) (hk : k.ownerOnly = true) : x.pred = c.owner ∧ x.deposit = 1 := by
  cases k with
  | removeFarm id =>
    simp only [exec, removeFarm, oneYocto, assertOwner] at he
    unpack at he
    exact ⟨he.2.1, he.1⟩
  | setOwner a =>
    simp only [exec, setOwner, oneYocto, assertOwner] at he
    unpack at he
    exact ⟨he.2.1, he.1⟩
  | setRunning a =>
    simp only [exec, setRunning, oneYocto, assertOwner] at he
    unpack at he
    exact ⟨he.2.1, he.1⟩
  | extendOperators l =>
    simp only [exec, extendOperators, oneYocto, assertOwner] at he
    unpack at he
    exact ⟨he.2.1, he.1⟩
  | removeOperators l =>
    simp only [exec, removeOperators, oneYocto, assertOwner] at he
    unpack at he
    exact ⟨he.2.1, he.1⟩
  | _ => cases hk

/-- **C100.** Creating seeds and farms, cancelling farms and changing parameters is for the owner and
the operators. -/
theorem C100_manager {fl : Floats} {c c' : Contract} {x : Ctx} {k : Call} {o : List Out}
    (he : c.exec fl x k = .ok (c', o)) (hk : k.managerOnly = true) :
    (x.pred = c.owner ∨ x.pred ∈ c.operators) ∧ x.deposit = 1 := by
  cases k with
  | createSeed s d m l =>
    simp only [exec, createSeed, oneYocto, assertManager] at he
    unpack at he
    exact ⟨he.2.1, he.1⟩
  | createFarm s t a d =>
    simp only [exec, createFarm, oneYocto, assertManager] at he
    unpack at he
    obtain ⟨h1, h2, _⟩ := he
    exact ⟨h2, h1⟩
  | cancelFarm id =>
    simp only [exec, cancelFarm, oneYocto, assertManager] at he
    unpack at he
    exact ⟨he.2.1, he.1⟩
  | setting s =>
    simp only [exec] at he
    unpack at he
    obtain ⟨_, he, _⟩ := he
    unfold setting oneYocto assertManager at he
    unpack at he
    exact ⟨he.2.1, he.1⟩
  | _ => cases hk

/-- **C100.** While the contract is paused only the owner's calls on ownership, operators and pausing
work. -/
theorem C100_paused {fl : Floats} {c c' : Contract} {x : Ctx} {k : Call} {o : List Out}
    (he : c.exec fl x k = .ok (c', o)) (hr : c.running = false) : k.whilePaused = true := by
  have no : ∀ {p : Prop}, c.running = true → p := by intro p h; rw [hr] at h; cases h
  cases k with
  | setOwner a => rfl
  | setRunning a => rfl
  | extendOperators l => rfl
  | removeOperators l => rfl
  | ftOnTransfer a n m =>
    simp only [exec] at he
    unpack at he
    obtain ⟨_, _, he, _⟩ := he
    unfold ftOnTransfer assertRunning at he
    unpack at he
    exact no he.1
  | mftOnTransfer t a n m =>
    simp only [exec] at he
    unpack at he
    obtain ⟨_, _, he, _⟩ := he
    unfold mftOnTransfer assertRunning at he
    unpack at he
    exact no he.1
  | lockFreeSeed s d n =>
    simp only [exec] at he
    unpack at he
    obtain ⟨_, he, _⟩ := he
    unfold lockFree oneYocto assertRunning at he
    unpack at he
    exact no he.2.1
  | forceUnlock s n =>
    simp only [exec] at he
    unpack at he
    obtain ⟨_, he, _⟩ := he
    unfold forceUnlock oneYocto assertRunning at he
    unpack at he
    exact no he.2.1
  | claimReward s =>
    simp only [exec] at he
    unpack at he
    obtain ⟨_, he, _⟩ := he
    unfold claimReward assertRunning at he
    unpack at he
    exact no he.2.1
  | createSeed s d m l =>
    simp only [exec] at he
    unpack at he
    obtain ⟨_, he, _⟩ := he
    unfold createSeed oneYocto assertManager assertRunning at he
    unpack at he
    exact no he.2.2.1
  | createFarm s t a d =>
    simp only [exec] at he
    unpack at he
    obtain ⟨_, he, _⟩ := he
    unfold createFarm oneYocto assertManager assertRunning at he
    unpack at he
    exact no he.2.2.1
  | cancelFarm id =>
    simp only [exec] at he
    unpack at he
    obtain ⟨_, he, _⟩ := he
    unfold cancelFarm oneYocto assertManager assertRunning at he
    unpack at he
    exact no he.2.2.1
  | removeFarm id =>
    simp only [exec] at he
    unpack at he
    obtain ⟨_, he, _⟩ := he
    unfold removeFarm oneYocto assertOwner assertRunning at he
    unpack at he
    exact no he.2.2.1
  | setting s =>
    simp only [exec] at he
    unpack at he
    obtain ⟨_, he, _⟩ := he
    unfold setting oneYocto assertManager assertRunning at he
    unpack at he
    exact no he.2.2.1
  | storageDeposit a =>
    simp only [exec, storageDeposit, assertRunning] at he
    unpack at he
    exact no he.1
  | storageUnregister =>
    simp only [exec, storageUnregister, oneYocto, assertRunning] at he
    unpack at he
    exact no he.2.1

example : ((c1.step fl ⟨y 1002 own, .setRunning false⟩).exec fl (at' 1003 al) (.claimReward S)).isOk = false ∧
    ((c1.step fl ⟨y 1002 own, .setRunning false⟩).exec fl (y 1003 own) (.setRunning true)).isOk = true ∧
    (c1.exec fl (y 1003 al) (.setRunning false)).isOk = false ∧
    (c1.exec fl (y 1003 al) (.setting (.maxFarmsPerSeed 3))).isOk = false ∧
    ((c1.step fl ⟨y 1002 own, .extendOperators [al]⟩).exec fl (y 1003 al)
      (.setting (.maxFarmsPerSeed 3))).isOk = true := by decide +kernel

/-- **C100.** Nobody can stake for an account that is not registered, and such an account cannot lock,
unlock or claim. -/
theorem C100_registered {fl : Floats} {c c' : Contract} (h : c.Reachable fl) {x : Ctx} {k : Call}
    {o : List Out} (he : c.exec fl x k = .ok (c', o)) {a : AccountId} (ha : k.actor x = some a) :
    ∃ u, c.farmers.get? a = some u := by
  have stake : ∀ {s n c1}, c.stakeFree fl x.now a s n = .ok c1 → ∃ u, c.farmers.get? a = some u := by
    intro s n c1 h1
    obtain ⟨v, rs, _⟩ := stakeFree_ok h.inv h1
    obtain ⟨u, _, hu, _⟩ := rs.farmer
    exact ⟨u, hu⟩
  have lock : ∀ {s n d c1}, c.stakeLock fl x.now a s n d = .ok c1 →
      ∃ u, c.farmers.get? a = some u := by
    intro s n d c1 h1
    obtain ⟨v, _, rs, _⟩ := stakeLock_ok h.inv h1
    obtain ⟨u, _, hu, _⟩ := rs.farmer
    exact ⟨u, hu⟩
  cases k with
  | ftOnTransfer a' n m =>
    simp only [exec] at he
    unpack at he
    obtain ⟨_, c1, he, _⟩ := he
    unfold ftOnTransfer at he
    unpack at he
    obtain ⟨_, _, he⟩ := he
    cases m with
    | free => cases ha; exact stake he
    | lock d => cases ha; exact lock he
    | reward id => cases ha
    | bad => cases ha
  | mftOnTransfer t a' n m =>
    simp only [exec] at he
    unpack at he
    obtain ⟨_, c1, he, _⟩ := he
    unfold mftOnTransfer at he
    unpack at he
    obtain ⟨_, _, he⟩ := he
    split at he
    · cases m with
      | free => cases ha; exact stake he
      | lock d => cases ha; exact lock he
      | reward id => cases ha
      | bad => cases ha
    · cases he
  | lockFreeSeed s d n =>
    cases ha
    simp only [exec] at he
    unpack at he
    obtain ⟨c1, he, _⟩ := he
    obtain ⟨v, _, _, _, _, rs, _⟩ := lockFree_ok h.inv he
    obtain ⟨u, _, hu, _⟩ := rs.farmer
    exact ⟨u, hu⟩
  | forceUnlock s n =>
    cases ha
    simp only [exec] at he
    unpack at he
    obtain ⟨c1, he, _⟩ := he
    obtain ⟨v, _, _, _, rs, _⟩ := forceUnlock_ok h.inv he
    obtain ⟨u, _, hu, _⟩ := rs.farmer
    exact ⟨u, hu⟩
  | claimReward s =>
    cases ha
    simp only [exec] at he
    unpack at he
    obtain ⟨c1, he, _⟩ := he
    obtain ⟨u, _, _, _, hu, _⟩ := claimReward_ok h.inv he
    exact ⟨u, hu⟩
  | _ => cases ha

example : (c1.exec fl (at' 1003 S) (.ftOnTransfer cy 5 .free)).isOk = false ∧
    (c1.exec fl (at' 1003 S) (.ftOnTransfer al 5 .free)).isOk = true := by decide +kernel

theorem outs_refund {a : AccountId} {d b : Nat} (h : b ≤ d) :
    outs (if d - b > 0 then [⟨a, d - b⟩] else []) + b = d := by
  split
  · simp only [outs, List.map_cons, List.map_nil, List.sum_cons, List.sum_nil]
    omega
  · simp only [outs, List.map_nil, List.sum_nil]
    omega

theorem storageDeposit_ok {c c' : Contract} {x : Ctx} {a : Option AccountId} {o : List Out}
    (he : c.storageDeposit x a = .ok (c', o)) :
    (∀ p ∈ o, p.receiver = x.pred) ∧
    ((∃ u, c.farmers.get? (a.getD x.pred) = some u ∧ c' = c ∧ outs o = x.deposit) ∨
     (c.farmers.get? (a.getD x.pred) = none ∧
      c'.farmers.get? (a.getD x.pred) = some ⟨x.pred, FMap.empty, FMap.empty⟩ ∧
      outs o + storageBound = x.deposit)) := by
  unfold storageDeposit assertRunning at he
  unpack at he
  obtain ⟨_, he⟩ := he
  split at he
  · rename_i hc
    unpack at he
    obtain ⟨rfl, rfl⟩ := he
    refine ⟨fun p hp => ?_, .inl ?_⟩
    · split at hp
      · rw [List.mem_singleton.1 hp]
      · exact absurd hp List.not_mem_nil
    · unfold FMap.contains at hc
      cases hu : c.farmers.get? (a.getD x.pred) with
      | none => rw [hu] at hc; cases hc
      | some u =>
        refine ⟨u, rfl, rfl, ?_⟩
        split
        · simp [outs]
        · simp only [outs, List.map_nil, List.sum_nil]; omega
  · rename_i hc
    unpack at he
    obtain ⟨hb, _, rfl, rfl⟩ := he
    refine ⟨fun p hp => ?_, .inr ⟨?_, FMap.get?_insert_self _ _ _, ?_⟩⟩
    · split at hp
      · rw [List.mem_singleton.1 hp]
      · exact absurd hp List.not_mem_nil
    · unfold FMap.contains at hc
      cases hu : c.farmers.get? (a.getD x.pred) with
      | none => rfl
      | some u => rw [hu] at hc; exact absurd rfl hc
    · exact outs_refund hb

/-- **C100.** A registration costs a tenth of a NEAR; the rest of the deposit is sent back, all of it
if the account was registered already. -/
theorem C100_register {fl : Floats} {c c' : Contract} {x : Ctx} {a : Option AccountId} {o : List Out}
    (he : c.exec fl x (.storageDeposit a) = .ok (c', o)) :
    (∀ p ∈ o, p.receiver = x.pred) ∧
    ((∃ u, c.farmers.get? (a.getD x.pred) = some u ∧ c' = c ∧ outs o = x.deposit) ∨
     (c.farmers.get? (a.getD x.pred) = none ∧
      c'.farmers.get? (a.getD x.pred) = some ⟨x.pred, FMap.empty, FMap.empty⟩ ∧
      outs o + 10 ^ 23 = x.deposit)) := by
  exact storageDeposit_ok he

/-- **C100.** Only an account without stakes and rewards can unregister. What was paid for its
registration goes back to who paid it. -/
theorem C100_unregister {fl : Floats} {c c' : Contract} {x : Ctx} {o : List Out}
    (he : c.exec fl x .storageUnregister = .ok (c', o)) :
    (c.farmers.get? x.pred = none ∧ c' = c ∧ o = []) ∨
    ∃ u, c.farmers.get? x.pred = some u ∧ c'.farmers.get? x.pred = none ∧
      (∀ s, c.stakeOf x.pred s = FarmerSeed.zero) ∧ (∀ t, c.rewardOf x.pred t = 0) ∧
      o = [⟨u.sponsor, 10 ^ 23⟩] := by
  simp only [exec, storageUnregister, oneYocto, assertRunning] at he
  unpack at he
  obtain ⟨_, _, he⟩ := he
  cases hu : c.farmers.get? x.pred with
  | none =>
    rw [hu] at he
    unpack at he
    obtain ⟨rfl, rfl⟩ := he
    exact .inl ⟨rfl, rfl, rfl⟩
  | some u =>
    rw [hu] at he
    unpack at he
    obtain ⟨h1, h2, _, rfl, rfl⟩ := he
    refine .inr ⟨u, rfl, FMap.get?_erase_self _ _, fun s => ?_, fun t => ?_, rfl⟩
    · unfold stakeOf
      rw [hu]
      exact Farmer.stakeIn_none (FMap_size_zero h2 s)
    · unfold rewardOf FMap.getD
      rw [hu, ]
      simp only [FMap_size_zero h1 t]
      rfl

example : (c1.exec fl (near 1003 al) (.storageDeposit (some cy))).toOption.map
      (fun p => outs p.2) = some (9 * 10 ^ 23) ∧
    ((c1.step fl ⟨near 1003 al, .storageDeposit (some cy)⟩).exec fl (y 1004 cy)
      .storageUnregister).toOption.map (fun p => p.2.map fun o => (o.receiver, o.amount)) =
      some [(al, 10 ^ 23)] ∧
    (c1.exec fl (y 1004 al) .storageUnregister).isOk = false := by decide +kernel

theorem registered_insert {m : FMap AccountId Farmer} {a : AccountId} {u u' : Farmer}
    (h : m.get? a = some u) : (m.insert a u').sum (fun _ _ => 1) = m.sum fun _ _ => 1 := by
  have := m.sum_insert (fun _ _ => 1) a u'
  rw [FMap.term_some _ h] at this
  omega

theorem near_step {fl : Floats} {c c' : Contract} (h : Inv fl c) {x : Ctx} {k : Call}
    {o : List Out} (he : c.exec fl x k = .ok (c', o)) :
    outs o + storageBound * c'.registered ≤ x.deposit + storageBound * c.registered ∧
    c'.farmerCount + c.registered = c.farmerCount + c'.registered := by
  have same : ∀ {c1 : Contract}, c1.farmers = c.farmers → c1.farmerCount = c.farmerCount →
      outs [] + storageBound * c1.registered ≤ x.deposit + storageBound * c.registered ∧
      c1.farmerCount + c.registered = c.farmerCount + c1.registered := by
    intro c1 h1 h2
    have : c1.registered = c.registered := by unfold registered; rw [h1]
    rw [this, h2]
    exact ⟨by simp [outs], rfl⟩
  have re : ∀ {a s v w c1}, Restake fl c a s v w c1 →
      outs [] + storageBound * c1.registered ≤ x.deposit + storageBound * c.registered ∧
      c1.farmerCount + c.registered = c.farmerCount + c1.registered := by
    intro a s v w c1 rs
    obtain ⟨u, u', hu, hf, _⟩ := rs.farmer
    have h1 : c1.registered = c.registered := by
      unfold registered
      rw [hf]
      exact registered_insert hu
    have h2 : c1.farmerCount = c.farmerCount := by rw [rs.eq]
    rw [h1, h2]
    exact ⟨by simp [outs], rfl⟩
  have free : ∀ {a s n c1}, c.stakeFree fl x.now a s n = .ok c1 →
      outs [] + storageBound * c1.registered ≤ x.deposit + storageBound * c.registered ∧
      c1.farmerCount + c.registered = c.farmerCount + c1.registered := by
    intro a s n c1 h1
    obtain ⟨v, rs, _⟩ := stakeFree_ok h h1
    exact re rs
  have lock : ∀ {a s n d c1}, c.stakeLock fl x.now a s n d = .ok c1 →
      outs [] + storageBound * c1.registered ≤ x.deposit + storageBound * c.registered ∧
      c1.farmerCount + c.registered = c.farmerCount + c1.registered := by
    intro a s n d c1 h1
    obtain ⟨v, _, rs, _⟩ := stakeLock_ok h h1
    exact re rs
  cases k with
  | ftOnTransfer a' n m =>
    simp only [exec] at he
    unpack at he
    obtain ⟨_, c1, he, rfl, rfl⟩ := he
    unfold ftOnTransfer at he
    unpack at he
    obtain ⟨_, _, he⟩ := he
    cases m with
    | free => exact free he
    | lock d => exact lock he
    | reward id =>
      simp only [depositReward] at he
      unpack at he
      obtain ⟨_, _, _, _, _, _, _, _, rfl⟩ := he
      exact same rfl rfl
    | bad => cases he
  | mftOnTransfer t a' n m =>
    simp only [exec] at he
    unpack at he
    obtain ⟨_, c1, he, rfl, rfl⟩ := he
    unfold mftOnTransfer at he
    unpack at he
    obtain ⟨_, _, he⟩ := he
    split at he
    · cases m with
      | free => exact free he
      | lock d => exact lock he
      | reward id => cases he
      | bad => cases he
    · cases he
  | lockFreeSeed s d n =>
    simp only [exec] at he
    unpack at he
    obtain ⟨c1, he, rfl, rfl⟩ := he
    obtain ⟨v, _, _, _, _, rs, _⟩ := lockFree_ok h he
    exact re rs
  | forceUnlock s n =>
    simp only [exec] at he
    unpack at he
    obtain ⟨c1, he, rfl, rfl⟩ := he
    obtain ⟨v, _, _, _, rs, _⟩ := forceUnlock_ok h he
    exact re rs
  | claimReward s =>
    simp only [exec] at he
    unpack at he
    obtain ⟨c1, he, rfl, rfl⟩ := he
    obtain ⟨u, _, u', _, hu, _, _, _, _, rfl, _⟩ := claimReward_ok h he
    have h1 : (c.farmers.insert x.pred u').sum (fun _ _ => 1) = c.registered := registered_insert hu
    show outs [] + storageBound * (c.farmers.insert x.pred u').sum (fun _ _ => 1) ≤ _ ∧
      c.farmerCount + _ = c.farmerCount + (c.farmers.insert x.pred u').sum (fun _ _ => 1)
    rw [h1]
    exact ⟨by simp [outs], rfl⟩
  | createSeed s d m l =>
    simp only [exec] at he
    unpack at he
    obtain ⟨c1, he, rfl, rfl⟩ := he
    unfold createSeed at he
    unpack at he
    obtain ⟨_, _, _, _, _, _, _, rfl⟩ := he
    exact same rfl rfl
  | createFarm s t a d =>
    simp only [exec] at he
    unpack at he
    obtain ⟨c1, he, rfl, rfl⟩ := he
    unfold createFarm oneYocto assertManager assertRunning at he
    unpack at he
    obtain ⟨_, _, _, sd, _, _, _, _, _, _, rfl⟩ := he
    exact same rfl rfl
  | cancelFarm id =>
    simp only [exec] at he
    unpack at he
    obtain ⟨c1, he, rfl, rfl⟩ := he
    unfold cancelFarm oneYocto assertManager assertRunning at he
    unpack at he
    obtain ⟨_, _, _, _, _, _, _, _, _, _, _, rfl⟩ := he
    exact same rfl rfl
  | removeFarm id =>
    simp only [exec] at he
    unpack at he
    obtain ⟨c1, he, rfl, rfl⟩ := he
    unfold removeFarm oneYocto assertOwner assertRunning at he
    unpack at he
    obtain ⟨_, _, _, _, _, _, _, _, _, _, _, _, rfl⟩ := he
    exact same rfl rfl
  | setting s =>
    simp only [exec] at he
    unpack at he
    obtain ⟨c1, he, rfl, rfl⟩ := he
    unfold setting oneYocto assertManager assertRunning at he
    unpack at he
    obtain ⟨_, _, _, he⟩ := he
    cases s with
    | dailyReward id n =>
      simp only at he
      unpack at he
      obtain ⟨_, _, _, _, _, _, rfl⟩ := he
      exact same rfl rfl
    | lockingPolicy d r =>
      simp only at he
      unpack at he
      obtain ⟨_, rfl⟩ := he
      exact same rfl rfl
    | maxFarmsPerSeed n =>
      simp only at he
      unpack at he
      subst he
      exact same rfl rfl
    | defaultSlashRate n =>
      simp only at he
      unpack at he
      obtain ⟨_, rfl⟩ := he
      exact same rfl rfl
    | minDeposit s n =>
      simp only at he
      unpack at he
      obtain ⟨_, _, rfl⟩ := he
      exact same rfl rfl
    | minLocking s n =>
      simp only at he
      unpack at he
      obtain ⟨_, _, _, rfl⟩ := he
      exact same rfl rfl
    | slashRate s n =>
      simp only at he
      unpack at he
      obtain ⟨_, _, rfl⟩ := he
      exact same rfl rfl
    | booster s b =>
      simp only at he
      unpack at he
      obtain ⟨_, _, _, _, _, _, _, rfl⟩ := he
      exact same rfl rfl
  | setOwner a =>
    simp only [exec, setOwner, oneYocto, assertOwner] at he
    unpack at he
    obtain ⟨_, _, rfl, rfl⟩ := he
    exact same rfl rfl
  | setRunning b =>
    simp only [exec, setRunning, oneYocto, assertOwner] at he
    unpack at he
    obtain ⟨_, _, rfl, rfl⟩ := he
    exact same rfl rfl
  | extendOperators l =>
    simp only [exec, extendOperators, oneYocto, assertOwner] at he
    unpack at he
    obtain ⟨_, _, rfl, rfl⟩ := he
    exact same rfl rfl
  | removeOperators l =>
    simp only [exec] at he
    unpack at he
    obtain ⟨c1, he, rfl, rfl⟩ := he
    unfold removeOperators oneYocto assertOwner at he
    unpack at he
    obtain ⟨_, _, _, _, rfl⟩ := he
    exact same rfl rfl
  | storageDeposit a =>
    obtain ⟨_, ⟨u, _, rfl, ho⟩ | ⟨hn, _, ho⟩⟩ := C100_register he
    · exact ⟨by omega, rfl⟩
    · simp only [exec, storageDeposit, assertRunning] at he
      unpack at he
      obtain ⟨_, he⟩ := he
      rw [if_neg (by unfold FMap.contains; rw [hn]; exact Bool.false_ne_true)] at he
      unpack at he
      obtain ⟨_, _, rfl, _⟩ := he
      have h1 := c.farmers.sum_insert (fun _ _ => 1) (a.getD x.pred) ⟨x.pred, FMap.empty, FMap.empty⟩
      rw [FMap.term_none _ hn] at h1
      have h2 : storageBound = 10 ^ 23 := rfl
      show outs o + storageBound * (c.farmers.insert (a.getD x.pred) _).sum (fun _ _ => 1) ≤
          x.deposit + storageBound * c.farmers.sum (fun _ _ => 1) ∧
        c.farmerCount + 1 + c.farmers.sum (fun _ _ => 1) = c.farmerCount +
          (c.farmers.insert (a.getD x.pred) _).sum (fun _ _ => 1)
      rw [Nat.add_zero] at h1
      rw [h1, Nat.mul_add]
      omega
  | storageUnregister =>
    rcases C100_unregister he with ⟨_, rfl, rfl⟩ | ⟨u, hu, _, _, _, rfl⟩
    · exact same rfl rfl
    · simp only [exec, storageUnregister, oneYocto, assertRunning] at he
      unpack at he
      obtain ⟨_, _, he⟩ := he
      rw [hu] at he
      simp only at he
      unpack at he
      obtain ⟨_, _, _, rfl, _⟩ := he
      have h1 := c.farmers.sum_erase (fun _ _ => 1) x.pred
      rw [FMap.term_some _ hu] at h1
      show outs [⟨u.sponsor, storageBound⟩] + storageBound * (c.farmers.erase x.pred).sum (fun _ _ => 1) ≤
          x.deposit + storageBound * c.farmers.sum (fun _ _ => 1) ∧
        c.farmerCount - 1 + c.farmers.sum (fun _ _ => 1) = c.farmerCount +
          (c.farmers.erase x.pred).sum (fun _ _ => 1)
      rw [← h1, Nat.mul_add]
      simp only [outs, List.map_cons, List.map_nil, List.sum_cons, List.sum_nil]
      omega

theorem near_run {fl : Floats} : ∀ {es : List Event} {c : Contract}, Inv fl c →
    c.nearOut fl es + storageBound * (c.run fl es).registered ≤
      c.nearIn fl es + storageBound * c.registered ∧
    (c.run fl es).farmerCount + c.registered = c.farmerCount + (c.run fl es).registered := by
  intro es
  induction es with
  | nil => intro c _; exact ⟨Nat.le_refl _, rfl⟩
  | cons e es ih =>
    intro c h
    obtain ⟨h1, h2⟩ := ih (h.step e)
    simp only [run, nearIn, nearOut]
    unfold step at h1 h2 ⊢
    cases he : c.exec fl e.x e.k with
    | error er => rw [he] at h1 h2; simp only at h1 h2 ⊢; omega
    | ok p =>
      obtain ⟨c', o⟩ := p
      obtain ⟨h3, h4⟩ := near_step h he
      rw [he] at h1 h2
      simp only at h1 h2 ⊢
      generalize storageBound * (c'.run fl es).registered = z1 at *
      generalize storageBound * c'.registered = z2 at *
      generalize storageBound * c.registered = z3 at *
      omega

/-- **C100.** The contract has kept a tenth of a NEAR for each registered account, so that
unregistering can always be paid. The number of farmers it shows is right. -/
theorem C100_covered {fl : Floats} (owner : AccountId) (es : List Event) :
    (init owner).nearOut fl es + 10 ^ 23 * ((init owner).run fl es).registered ≤
      (init owner).nearIn fl es ∧
    ((init owner).run fl es).farmerCount = ((init owner).run fl es).registered := by
  obtain ⟨h1, h2⟩ := near_run (es := es) (Inv.init fl owner)
  have h3 : (init owner).registered = 0 := rfl
  have h4 : (init owner).farmerCount = 0 := rfl
  have h5 : storageBound = 10 ^ 23 := rfl
  rw [h3, h5] at h1
  rw [h3, h4] at h2
  omega

example : (init own).nearIn fl setup = 2 * 10 ^ 24 + 4 ∧ (init own).nearOut fl setup = 18 * 10 ^ 23 ∧
    c1.registered = 2 ∧ c1.farmerCount = 2 := by decide +kernel

/-- **C100, finding.** A claim without a stake leaves an entry that keeps the account from
unregistering. -/
example : ((c1.step fl ⟨near 1003 cy, .storageDeposit none⟩).exec fl (y 1004 cy)
      .storageUnregister).isOk = true ∧
    (((c1.step fl ⟨near 1003 cy, .storageDeposit none⟩).step fl ⟨at' 1003 cy, .claimReward S⟩).exec fl
      (y 1004 cy) .storageUnregister).isOk = false := by decide +kernel

end Contract

end Verif.Boost

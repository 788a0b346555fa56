import Verif.Boost.ViewProps

/-
C100 and C108: who has paid for a registration, and that nothing is ever lost and found in the boost
farming contract.
-/

namespace Verif.Boost

namespace Contract

open Demo

variable {fl : Floats} {c c' : Contract}

/-- What a call does to the registrations: nothing, unless it registers or unregisters. -/
def Call.registers : Call → Bool
  | .storageDeposit _ => true
  | .storageUnregister => true
  | _ => false

theorem exec_sponsor (h : Inv fl c) {x : Ctx} {k : Call} {o : List Out}
    (he : c.exec fl x k = .ok (c', o)) (hk : Call.registers k = false) :
    (∀ a, c'.farmerSponsor a = c.farmerSponsor a) ∧ c'.lostfound = c.lostfound := by
  have same : ∀ {c1 : Contract}, c1.farmers = c.farmers → c1.lostfound = c.lostfound →
      (∀ a, c1.farmerSponsor a = c.farmerSponsor a) ∧ c1.lostfound = c.lostfound :=
    fun h1 h2 => ⟨fun a => by unfold farmerSponsor; rw [h1], h2⟩
  have put : ∀ {c1 : Contract} {b : AccountId} {u u' : Farmer}, c.farmers.get? b = some u →
      c1.farmers = c.farmers.insert b u' → u'.sponsor = u.sponsor →
      ∀ a, c1.farmerSponsor a = c.farmerSponsor a := by
    intro c1 b u u' hu hf hs a
    unfold farmerSponsor
    rw [hf, FMap.get?_insert]
    split
    · subst_vars
      rw [hu]
      exact congrArg some hs
    · rfl
  have re : ∀ {a s v w c1}, Restake fl c a s v w c1 →
      (∀ a, c1.farmerSponsor a = c.farmerSponsor a) ∧ c1.lostfound = c.lostfound := by
    intro a s v w c1 rs
    obtain ⟨u, u', hu, hf, hs, _⟩ := rs.farmer
    exact ⟨put hu hf hs, by rw [rs.eq]⟩
  have free : ∀ {a s n c1}, c.stakeFree fl x.now a s n = .ok c1 →
      (∀ a, c1.farmerSponsor a = c.farmerSponsor a) ∧ c1.lostfound = c.lostfound := by
    intro a s n c1 h1
    obtain ⟨v, rs, _⟩ := stakeFree_ok h h1
    exact re rs
  have lock : ∀ {a s n d c1}, c.stakeLock fl x.now a s n d = .ok c1 →
      (∀ a, c1.farmerSponsor a = c.farmerSponsor a) ∧ c1.lostfound = c.lostfound := by
    intro a s n d c1 h1
    obtain ⟨v, _, rs, _⟩ := stakeLock_ok h h1
    exact re rs
  cases k with
  | ftOnTransfer a' n m =>
    simp only [exec] at he
    unpack at he
    obtain ⟨_, c1, he, rfl, rfl⟩ := he
    unfold ftOnTransfer at he
    unpack at he
    obtain ⟨_, _, he⟩ := he
    cases m with
    | free => exact free he
    | lock d => exact lock he
    | reward id =>
      simp only [depositReward] at he
      unpack at he
      obtain ⟨_, _, _, _, _, _, _, _, rfl⟩ := he
      exact same rfl rfl
    | bad => cases he
  | mftOnTransfer t a' n m =>
    simp only [exec] at he
    unpack at he
    obtain ⟨_, c1, he, rfl, rfl⟩ := he
    unfold mftOnTransfer at he
    unpack at he
    obtain ⟨_, _, he⟩ := he
    split at he
    · cases m with
      | free => exact free he
      | lock d => exact lock he
      | reward id => cases he
      | bad => cases he
    · cases he
  | lockFreeSeed s d n =>
    simp only [exec] at he
    unpack at he
    obtain ⟨c1, he, rfl, rfl⟩ := he
    obtain ⟨v, _, _, _, _, rs, _⟩ := lockFree_ok h he
    exact re rs
  | forceUnlock s n =>
    simp only [exec] at he
    unpack at he
    obtain ⟨c1, he, rfl, rfl⟩ := he
    obtain ⟨v, _, _, _, rs, _⟩ := forceUnlock_ok h he
    exact re rs
  | claimReward s =>
    simp only [exec] at he
    unpack at he
    obtain ⟨c1, he, rfl, rfl⟩ := he
    obtain ⟨u, _, u', _, hu, _, _, _, cl, rfl, _⟩ := claimReward_ok h he
    exact ⟨put (c1 := (c.setFarmer x.pred u').setSeed s _) hu rfl cl.sponsor, rfl⟩
  | createSeed s d m l =>
    simp only [exec] at he
    unpack at he
    obtain ⟨c1, he, rfl, rfl⟩ := he
    unfold createSeed at he
    unpack at he
    obtain ⟨_, _, _, _, _, _, _, rfl⟩ := he
    exact same rfl rfl
  | createFarm s t a d =>
    simp only [exec] at he
    unpack at he
    obtain ⟨c1, he, rfl, rfl⟩ := he
    unfold createFarm oneYocto assertManager assertRunning at he
    unpack at he
    obtain ⟨_, _, _, sd, _, _, _, _, _, _, rfl⟩ := he
    exact same rfl rfl
  | cancelFarm id =>
    simp only [exec] at he
    unpack at he
    obtain ⟨c1, he, rfl, rfl⟩ := he
    unfold cancelFarm oneYocto assertManager assertRunning at he
    unpack at he
    obtain ⟨_, _, _, _, _, _, _, _, _, _, _, rfl⟩ := he
    exact same rfl rfl
  | removeFarm id =>
    simp only [exec] at he
    unpack at he
    obtain ⟨c1, he, rfl, rfl⟩ := he
    unfold removeFarm oneYocto assertOwner assertRunning at he
    unpack at he
    obtain ⟨_, _, _, _, _, _, _, _, _, _, _, _, rfl⟩ := he
    exact same rfl rfl
  | setting s =>
    simp only [exec] at he
    unpack at he
    obtain ⟨c1, he, rfl, rfl⟩ := he
    unfold setting oneYocto assertManager assertRunning at he
    unpack at he
    obtain ⟨_, _, _, he⟩ := he
    cases s with
    | dailyReward id n =>
      simp only at he
      unpack at he
      obtain ⟨_, _, _, _, _, _, rfl⟩ := he
      exact same rfl rfl
    | lockingPolicy d r =>
      simp only at he
      unpack at he
      obtain ⟨_, rfl⟩ := he
      exact same rfl rfl
    | maxFarmsPerSeed n =>
      simp only at he
      unpack at he
      subst he
      exact same rfl rfl
    | defaultSlashRate n =>
      simp only at he
      unpack at he
      obtain ⟨_, rfl⟩ := he
      exact same rfl rfl
    | minDeposit s n =>
      simp only at he
      unpack at he
      obtain ⟨_, _, rfl⟩ := he
      exact same rfl rfl
    | minLocking s n =>
      simp only at he
      unpack at he
      obtain ⟨_, _, _, rfl⟩ := he
      exact same rfl rfl
    | slashRate s n =>
      simp only at he
      unpack at he
      obtain ⟨_, _, rfl⟩ := he
      exact same rfl rfl
    | booster s b =>
      simp only at he
      unpack at he
      obtain ⟨_, _, _, _, _, _, _, rfl⟩ := he
      exact same rfl rfl
  | setOwner a =>
    simp only [exec, setOwner, oneYocto, assertOwner] at he
    unpack at he
    obtain ⟨_, _, rfl, rfl⟩ := he
    exact same rfl rfl
  | setRunning b =>
    simp only [exec, setRunning, oneYocto, assertOwner] at he
    unpack at he
    obtain ⟨_, _, rfl, rfl⟩ := he
    exact same rfl rfl
  | extendOperators l =>
    simp only [exec, extendOperators, oneYocto, assertOwner] at he
    unpack at he
    obtain ⟨_, _, rfl, rfl⟩ := he
    exact same rfl rfl
  | removeOperators l =>
    simp only [exec] at he
    unpack at he
    obtain ⟨c1, he, rfl, rfl⟩ := he
    unfold removeOperators oneYocto assertOwner at he
    unpack at he
    obtain ⟨_, _, _, _, rfl⟩ := he
    exact same rfl rfl
  | storageDeposit a => cases hk
  | storageUnregister => cases hk

theorem register_sponsor {x : Ctx} {b : Option AccountId} {o : List Out}
    (he : c.exec fl x (.storageDeposit b) = .ok (c', o)) (a : AccountId) :
    c'.lostfound = c.lostfound ∧ (c'.farmerSponsor a = c.farmerSponsor a ∨
    (c.farmerSponsor a = none ∧ b.getD x.pred = a ∧ 10 ^ 23 ≤ x.deposit ∧
      c'.farmerSponsor a = some x.pred)) := by
  replace he : c.storageDeposit x b = .ok (c', o) := he
  unfold storageDeposit assertRunning at he
  unpack at he
  obtain ⟨_, he⟩ := he
  split at he
  · unpack at he
    obtain ⟨rfl, _⟩ := he
    exact ⟨rfl, .inl rfl⟩
  · rename_i hno
    unpack at he
    obtain ⟨hd, _, rfl, _⟩ := he
    refine ⟨rfl, ?_⟩
    unfold farmerSponsor
    show ((c.farmers.insert (b.getD x.pred) _).get? a).map Farmer.sponsor = _ ∨ _ ∧ _ ∧ _ ∧
      ((c.farmers.insert (b.getD x.pred) _).get? a).map Farmer.sponsor = _
    rw [FMap.get?_insert]
    split
    · subst_vars
      right
      unfold FMap.contains at hno
      cases hu : c.farmers.get? (b.getD x.pred) with
      | none => exact ⟨rfl, rfl, hd, rfl⟩
      | some u => rw [hu] at hno; exact absurd rfl hno
    · exact .inl rfl

theorem unregister_sponsor {x : Ctx} {o : List Out}
    (he : c.exec fl x .storageUnregister = .ok (c', o)) (a : AccountId) :
    c'.lostfound = c.lostfound ∧ (c'.farmerSponsor a = c.farmerSponsor a ∨
    (x.pred = a ∧ c'.farmerSponsor a = none ∧ ∀ p, c.farmerSponsor a = some p → o = [⟨p, 10 ^ 23⟩])) := by
  replace he : c.storageUnregister x = .ok (c', o) := he
  unfold storageUnregister oneYocto assertRunning at he
  unpack at he
  obtain ⟨_, _, he⟩ := he
  cases hu : c.farmers.get? x.pred with
  | none =>
    rw [hu] at he
    unpack at he
    obtain ⟨rfl, _⟩ := he
    exact ⟨rfl, .inl rfl⟩
  | some u =>
    rw [hu] at he
    simp only at he
    unpack at he
    obtain ⟨_, _, _, rfl, rfl⟩ := he
    refine ⟨rfl, ?_⟩
    by_cases ha : x.pred = a
    · subst ha
      right
      unfold farmerSponsor
      refine ⟨rfl, ?_, fun p hp => ?_⟩
      · show ((c.farmers.erase x.pred).get? x.pred).map _ = none
        rw [FMap.get?_erase_self]
        rfl
      · rw [hu] at hp
        cases hp
        rfl
    · left
      unfold farmerSponsor
      show ((c.farmers.erase x.pred).get? a).map _ = _
      rw [FMap.get?_erase_ne _ (Ne.symm ha)]

/-- **C100.** The account that `get_farmer_sponsor` reports is the one that paid for the registration:
a registered farmer keeps the sponsor until the farmer unregisters, and then the sponsor is paid; and
a farmer becomes registered only by a call of the sponsor with at least a tenth of a NEAR. -/
theorem C100_sponsor (h : c.Reachable fl) {x : Ctx} {k : Call} {o : List Out}
    (he : c.exec fl x k = .ok (c', o)) (a : AccountId) :
    (∀ p, c.farmerSponsor a = some p → c'.farmerSponsor a = some p ∨
      (k = .storageUnregister ∧ x.pred = a ∧ c'.farmerSponsor a = none ∧ o = [⟨p, 10 ^ 23⟩])) ∧
    (∀ p, c.farmerSponsor a = none → c'.farmerSponsor a = some p →
      ∃ b, k = .storageDeposit b ∧ b.getD x.pred = a ∧ x.pred = p ∧ 10 ^ 23 ≤ x.deposit) := by
  have same : c'.farmerSponsor a = c.farmerSponsor a →
      (∀ p, c.farmerSponsor a = some p → c'.farmerSponsor a = some p ∨
      (k = .storageUnregister ∧ x.pred = a ∧ c'.farmerSponsor a = none ∧ o = [⟨p, 10 ^ 23⟩])) ∧
    (∀ p, c.farmerSponsor a = none → c'.farmerSponsor a = some p →
      ∃ b, k = .storageDeposit b ∧ b.getD x.pred = a ∧ x.pred = p ∧ 10 ^ 23 ≤ x.deposit) := by
    intro e
    rw [e]
    exact ⟨fun p hp => .inl hp, fun p h1 h2 => by rw [h1] at h2; cases h2⟩
  cases hk : Call.registers k with
  | false => exact same ((exec_sponsor h.inv he hk).1 a)
  | true =>
    cases k with
    | storageDeposit b =>
      rcases (register_sponsor he a).2 with e | ⟨h1, h2, h3, h4⟩
      · exact same e
      · rw [h1, h4]
        exact ⟨fun p hp => (by cases hp), fun p _ hp => ⟨b, rfl, h2, Option.some.inj hp, h3⟩⟩
    | storageUnregister =>
      rcases (unregister_sponsor he a).2 with e | ⟨h1, h2, h3⟩
      · exact same e
      · refine ⟨fun p hp => .inr ⟨rfl, h1, h2, h3 p hp⟩, fun p _ hp => ?_⟩
        rw [h2] at hp
        cases hp
    | _ => cases hk

example : c1.farmerSponsor al = some al ∧ c1.farmerSponsor cy = none ∧
    ((c1.step Demo.fl ⟨near 1002 bo, .storageDeposit (some cy)⟩).farmerSponsor cy) = some bo ∧
    ((c1.step Demo.fl ⟨near 1002 bo, .storageDeposit (some cy)⟩).exec Demo.fl (y 1003 cy)
      .storageUnregister).toOption.map (fun p => p.2.map fun q => (q.receiver, q.amount)) =
      some [(bo, 10 ^ 23)] := by decide +kernel

theorem lostfound_run : ∀ (es : List Event) {c : Contract}, Inv fl c → (c.run fl es).lostfound = c.lostfound
  | [], _, _ => rfl
  | e :: es, c, h => by
    have h1 := lostfound_run es (h.step e)
    refine h1.trans ?_
    unfold step
    split
    · rename_i c' o he
      obtain ⟨x, k⟩ := e
      cases hk : Call.registers k with
      | false => exact (exec_sponsor h he hk).2
      | true =>
        cases k with
        | storageDeposit b => exact (register_sponsor he x.pred).1
        | storageUnregister => exact (unregister_sponsor he x.pred).1
        | _ => cases hk
    · rfl

/-- **C108.** No stake is ever lost and found: `list_lostfound` is always empty. -/
theorem C108_lostfound (h : c.Reachable fl) {keys : List SeedId}
    (hk : ∀ s, s ∈ keys ↔ c.lostfound.contains s = true) {start limit : Option Nat}
    {l : List (SeedId × Nat)} (hl : c.listLostfound keys start limit = .ok l) : l = [] := by
  obtain ⟨owner, es, rfl⟩ := h
  have h0 := lostfound_run (fl := fl) es (Inv.init fl owner)
  have hn : keys = [] := by
    rw [List.eq_nil_iff_forall_not_mem]
    intro s hs
    have := (hk s).1 hs
    rw [h0] at this
    cases this
  subst hn
  unfold listLostfound pageOfMap page at hl
  unpack at hl
  obtain ⟨_, hl⟩ := hl
  rw [List.length_nil, Nat.min_zero, Nat.zero_sub] at hl
  cases hl
  rfl

example : (c4.listLostfound [] none none).toOption = some [] := by decide +kernel

/-- **C108.** Without arguments the lists show the same as all their pages. -/
theorem C108_defaults {keys : List SeedId} {l : List Seed}
    (h : c.listSeeds keys none none = .ok l) :
    readPages (fun s n => c.listSeeds keys (some s) (some n)) 0 [keys.length] = .ok l ∧
    (∀ {fs : List FarmId} {lo}, c.listOutdated fs none none = .ok lo →
      readPages (fun s n => c.listOutdated fs (some s) (some n)) 0 [fs.length] = .ok lo) ∧
    (∀ {ss : List SeedId} {ls}, c.listSlashed ss none none = .ok ls →
      readPages (fun s n => c.listSlashed ss (some s) (some n)) 0 [ss.length] = .ok ls) ∧
    ∀ {ss : List SeedId} {a ls}, c.listFarmerSeeds ss a none none = .ok ls →
      readPages (fun s n => c.listFarmerSeeds ss a (some s) (some n)) 0 [ss.length] = .ok ls := by
  have key : ∀ {α : Type} {f : Nat → Nat → R (List α)} {n : Nat} {l : List α}, f 0 n = .ok l →
      readPages f 0 [n] = .ok l := by
    intro α f n l h
    simp only [readPages, h, ok_bind, List.append_nil]
  exact ⟨key h, fun h => key h, fun h => key h, fun h => key h⟩

example : ((c4.listSeeds [S, L] none none).toOption.map fun l => l.map (·.id)) = some [S, L] := by
  decide +kernel

end Contract

end Verif.Boost

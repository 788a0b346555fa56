import Verif.Boost.Demo

/-
C96 and C97: stakes in the boost farming contract.
-/

namespace Verif.Boost

open Demo

/-- What the successful calls of a history have staked in a seed. -/
def Contract.stakedBy (fl : Floats) (c : Contract) (s : SeedId) : List Event → Nat
  | [] => 0
  | e :: es => (if (c.exec fl e.x e.k).isOk then e.k.stakedIn e.x s else 0) +
      (c.step fl e).stakedBy fl s es

namespace Contract

/-- **C96.** The total stake and the total power of a seed are the sums of the stakes and powers of
all farmers. -/
theorem C96_seed_totals {fl : Floats} {c : Contract} (h : c.Reachable fl) {s : SeedId} {sd : Seed}
    (hs : c.seeds.get? s = some sd) :
    sd.amount = (c.farmers.sum fun _ u => (u.stakeIn s).free + (u.stakeIn s).locked) ∧
    sd.power = c.farmers.sum fun _ u => (u.stakeIn s).pow fl :=
  ⟨h.inv.amount s sd hs, h.inv.power s sd hs⟩

example : (c4.seeds.get? S).map (fun sd => (sd.amount, sd.power)) =
    some (3991, 4500 + 491 + 1000) := by decide +kernel

theorem amount_run {fl : Floats} : ∀ {es : List Event} {c : Contract}, Inv fl c → ∀ s,
    (c.run fl es).amountOf s + (c.run fl es).slashedOf s =
      c.amountOf s + c.slashedOf s + c.stakedBy fl s es := by
  intro es
  induction es with
  | nil => intro c _ s; rfl
  | cons e es ih =>
    intro c h s
    have h1 := ih (h.step e) s
    simp only [run, stakedBy]
    rw [h1]
    unfold step
    cases he : c.exec fl e.x e.k with
    | error er => simp [Except.isOk, Except.toBool]
    | ok p =>
      obtain ⟨c', o⟩ := p
      have := (exec_effect h he).amount s
      simp only [Except.isOk, Except.toBool, if_true]
      omega

/-- **C96.** Everything ever staked in a seed is in the stakes of the farmers or has been slashed. -/
theorem C96_all_accounted {fl : Floats} (owner : AccountId) (es : List Event) (s : SeedId) :
    ((init owner).run fl es).stakes s + ((init owner).run fl es).slashedOf s =
      (init owner).stakedBy fl s es := by
  have h := amount_run (es := es) (Inv.init fl owner) s
  have hi : Inv fl ((init owner).run fl es) := (Inv.init fl owner).run
  have e0 : (init owner).amountOf s + (init owner).slashedOf s = 0 := rfl
  cases hs : ((init owner).run fl es).seeds.get? s with
  | some sd =>
    have h1 := hi.amount s sd hs
    have h2 : ((init owner).run fl es).amountOf s = sd.amount := by unfold amountOf; rw [hs]
    omega
  | none =>
    have h2 : ((init owner).run fl es).amountOf s = 0 := by unfold amountOf; rw [hs]
    have h3 : ((init owner).run fl es).stakes s = 0 := by
      unfold stakes
      rw [FMap.sum_congr _ _ (fun _ _ => 0) (fun a u hu => by
        rw [Farmer.stakeIn_none (hi.orphan a u s hu hs)]; rfl)]
      have := ((init owner).run fl es).farmers.sum_mul (fun _ _ => 0) 0
      simp only [Nat.mul_zero] at this
      omega
    omega

example : (init own).stakedBy fl S (setup ++ [⟨at' 1003 al, .claimReward S⟩,
    ⟨at' 1004 L, .ftOnTransfer al 4 .free⟩, ⟨y 1005 bo, .forceUnlock S 500⟩]) = 4000 ∧
    c4.stakes S = 3991 ∧ c4.slashedOf S = 9 := by decide +kernel

/-- **C97.** A call that is not a stake of the account in the seed, nor a locking or unlocking by the
account, leaves the account's stake in the seed as it is. -/
theorem C97_others_cannot {fl : Floats} {c : Contract} (h : c.Reachable fl) (e : Event) {a : AccountId}
    {s : SeedId} (ha : e.k.about e.x ≠ some (a, s)) :
    (c.stakeOf a s).SameStake ((c.step fl e).stakeOf a s) := by
  unfold step
  cases he : c.exec fl e.x e.k with
  | error er => exact .refl _
  | ok p =>
    obtain ⟨c', o⟩ := p
    exact (exec_effect h.inv he).stake a s ha

example : (Call.claimReward S).about (at' 1003 al) ≠ some (bo, S) ∧
    (Call.ftOnTransfer al 4 .free).about (at' 1004 L) ≠ some (al, S) := by decide +kernel

theorem _root_.Verif.Boost.Restake.stakes {fl : Floats} {c : Contract} {a : AccountId} {s : SeedId}
    {v w : FarmerSeed} {c' : Contract} (rs : Restake fl c a s v w c') :
    (c.stakeOf a s).SameStake v ∧ c'.stakeOf a s = w := by
  obtain ⟨u, u', hu, hf, _, hv, hw, _⟩ := rs.farmer
  unfold stakeOf
  rw [hu, hf, FMap.get?_insert_self]
  exact ⟨hv, Farmer.stakeIn_some hw⟩

/-- **C97.** A free stake adds to what is free. -/
theorem C97_stake_free {fl : Floats} {c c' : Contract} (h : c.Reachable fl) {x : Ctx} {k : Call}
    {o : List Out} {a : AccountId} {s : SeedId} {n : Nat} (hs : k.stakes x = some (a, s, n))
    (hk : (∃ a n, k = .ftOnTransfer a n .free) ∨ ∃ t a n, k = .mftOnTransfer t a n .free)
    (he : c.exec fl x k = .ok (c', o)) :
    (c'.stakeOf a s).free = (c.stakeOf a s).free + n ∧
    (c'.stakeOf a s).locked = (c.stakeOf a s).locked ∧
    (c'.stakeOf a s).unlockAt = (c.stakeOf a s).unlockAt := by
  have key : ∀ c1, c.stakeFree fl x.now a s n = .ok c1 →
      (c1.stakeOf a s).free = (c.stakeOf a s).free + n ∧
      (c1.stakeOf a s).locked = (c.stakeOf a s).locked ∧
      (c1.stakeOf a s).unlockAt = (c.stakeOf a s).unlockAt := by
    intro c1 h1
    obtain ⟨v, rs, _⟩ := stakeFree_ok h.inv h1
    obtain ⟨hv, hw⟩ := rs.stakes
    rw [hw, ← hv.1, ← hv.2.1, ← hv.2.2.2.1]
    exact ⟨rfl, rfl, rfl⟩
  rcases hk with ⟨a', n', rfl⟩ | ⟨t, a', n', rfl⟩
  · cases hs
    simp only [exec] at he
    unpack at he
    obtain ⟨_, c1, he, rfl, _⟩ := he
    unfold ftOnTransfer assertRunning at he
    unpack at he
    exact key _ he.2
  · simp only [exec] at he
    unpack at he
    obtain ⟨_, c1, he, rfl, _⟩ := he
    unfold mftOnTransfer assertRunning at he
    unpack at he
    obtain ⟨_, he⟩ := he
    split at he
    · cases hs
      exact key _ he
    · cases he

/-- **C97.** Locking: what is locked is added to what was locked, the lock runs for the given duration
from now and never ends earlier than the one it replaces. -/
theorem C97_stake_lock {fl : Floats} {c c' : Contract} (h : c.Reachable fl) {x : Ctx} {k : Call}
    {o : List Out} {a : AccountId} {s : SeedId} {n d : Nat} (hs : k.stakes x = some (a, s, n))
    (hk : (∃ a n, k = .ftOnTransfer a n (.lock d)) ∨ ∃ t a n, k = .mftOnTransfer t a n (.lock d))
    (he : c.exec fl x k = .ok (c', o)) :
    (c'.stakeOf a s).free = (c.stakeOf a s).free ∧
    (c'.stakeOf a s).locked = (c.stakeOf a s).locked + n ∧
    (c'.stakeOf a s).unlockAt = x.now + d * 10 ^ 9 ∧
    (x.now < (c.stakeOf a s).unlockAt → (c.stakeOf a s).unlockAt ≤ (c'.stakeOf a s).unlockAt ∧
      (c.stakeOf a s).xLocked + n ≤ (c'.stakeOf a s).xLocked) := by
  have key : ∀ c1, c.stakeLock fl x.now a s n d = .ok c1 →
      (c1.stakeOf a s).free = (c.stakeOf a s).free ∧
      (c1.stakeOf a s).locked = (c.stakeOf a s).locked + n ∧
      (c1.stakeOf a s).unlockAt = x.now + d * 10 ^ 9 ∧
      (x.now < (c.stakeOf a s).unlockAt → (c.stakeOf a s).unlockAt ≤ (c1.stakeOf a s).unlockAt ∧
        (c.stakeOf a s).xLocked + n ≤ (c1.stakeOf a s).xLocked) := by
    intro c1 h1
    obtain ⟨v, w, rs, hl, _⟩ := stakeLock_ok h.inv h1
    obtain ⟨hv, hw⟩ := rs.stakes
    rw [hw, ← hv.1, ← hv.2.1, ← hv.2.2.1, ← hv.2.2.2.1]
    exact ⟨hl.free, hl.locked, hl.unlockAt, fun hr => ⟨hl.later hr, hl.kept hr⟩⟩
  rcases hk with ⟨a', n', rfl⟩ | ⟨t, a', n', rfl⟩
  · cases hs
    simp only [exec] at he
    unpack at he
    obtain ⟨_, c1, he, rfl, _⟩ := he
    unfold ftOnTransfer assertRunning at he
    unpack at he
    exact key _ he.2
  · simp only [exec] at he
    unpack at he
    obtain ⟨_, c1, he, rfl, _⟩ := he
    unfold mftOnTransfer assertRunning at he
    unpack at he
    obtain ⟨_, he⟩ := he
    split at he
    · cases hs
      exact key _ he
    · cases he

/-- **C97.** Locking what is free moves it to what is locked. -/
theorem C97_lock_free {fl : Floats} {c c' : Contract} (h : c.Reachable fl) {x : Ctx} {o : List Out}
    {s : SeedId} {d : Nat} {amount : Option Nat}
    (he : c.exec fl x (.lockFreeSeed s d amount) = .ok (c', o)) :
    ∃ n, n = amount.getD (c.stakeOf x.pred s).free ∧
    (c'.stakeOf x.pred s).free + n = (c.stakeOf x.pred s).free ∧
    (c'.stakeOf x.pred s).locked = (c.stakeOf x.pred s).locked + n ∧
    (c'.stakeOf x.pred s).unlockAt = x.now + d * 10 ^ 9 ∧
    (x.now < (c.stakeOf x.pred s).unlockAt →
      (c.stakeOf x.pred s).unlockAt ≤ (c'.stakeOf x.pred s).unlockAt) := by
  simp only [exec] at he
  unpack at he
  obtain ⟨c1, he, rfl, _⟩ := he
  obtain ⟨v, w, n, hn, hle, rs, hl, _⟩ := lockFree_ok h.inv he
  obtain ⟨hv, hw⟩ := rs.stakes
  have e1 := hl.free
  simp only at e1
  rw [hw, ← hv.1, ← hv.2.1, ← hv.2.2.2.1]
  exact ⟨n, hn, by omega, hl.locked, hl.unlockAt, hl.later⟩

/-- **C97.** A forced unlock works only while the lock runs. It moves the given amount from locked to
free, less what is slashed, which is the seed's rate of it in proportion to the time left. What stays
locked stays locked until the same time. -/
theorem C97_force_unlock {fl : Floats} {c c' : Contract} (h : c.Reachable fl) {x : Ctx} {o : List Out}
    {s : SeedId} {n : Nat} (he : c.exec fl x (.forceUnlock s n) = .ok (c', o)) :
    ∃ sd slash, c.seeds.get? s = some sd ∧ x.now < (c.stakeOf x.pred s).unlockAt ∧
    slash = n * sd.slashRate / 10000 * ((c.stakeOf x.pred s).unlockAt - x.now) /
      ((c.stakeOf x.pred s).duration * 10 ^ 9) ∧ slash ≤ n ∧
    (c'.stakeOf x.pred s).free + slash = (c.stakeOf x.pred s).free + n ∧
    (c'.stakeOf x.pred s).locked + n = (c.stakeOf x.pred s).locked ∧
    c'.slashedOf s = c.slashedOf s + slash ∧
    (n < (c.stakeOf x.pred s).locked →
      (c'.stakeOf x.pred s).unlockAt = (c.stakeOf x.pred s).unlockAt) := by
  simp only [exec] at he
  unpack at he
  obtain ⟨c1, he, rfl, _⟩ := he
  obtain ⟨v, w, sd, slash, rs, hsd, hl, hsl⟩ := forceUnlock_ok h.inv he
  obtain ⟨hv, hw⟩ := rs.stakes
  rw [hw, ← hv.1, ← hv.2.1, ← hv.2.2.2.1, ← hv.2.2.2.2]
  refine ⟨sd, slash, hsd, hl.running, hl.slash, hl.slash_le, hl.free, hl.locked, ?_,
    fun hn => (hl.part hn).1⟩
  unfold slashedOf
  rw [hsl, FMap.getD_insert, if_pos rfl]

/-- **C97.** A stake, free and locked together, becomes smaller only when its owner unlocks it before
the time, and then by what is slashed. -/
theorem C97_no_loss {fl : Floats} {c : Contract} (h : c.Reachable fl) (e : Event) {a : AccountId}
    {s : SeedId} (hlt : ((c.step fl e).stakeOf a s).stake < (c.stakeOf a s).stake) :
    ∃ n, e.k = .forceUnlock s n ∧ e.x.pred = a ∧ e.x.now < (c.stakeOf a s).unlockAt ∧
      (c.stakeOf a s).stake = ((c.step fl e).stakeOf a s).stake +
        ((c.step fl e).slashedOf s - c.slashedOf s) := by
  by_cases ha : e.k.about e.x = some (a, s)
  case neg => exact absurd (C97_others_cannot h e ha).stake (by omega)
  unfold step at hlt ⊢
  cases he : c.exec fl e.x e.k with
  | error er => rw [he] at hlt; simp only at hlt; omega
  | ok p =>
    obtain ⟨c', o⟩ := p
    rw [he] at hlt
    simp only at hlt ⊢
    obtain ⟨x, k⟩ := e
    simp only at *
    have no : ∀ n, k.stakes x = some (a, s, n) → False := by
      intro n hn
      unfold FarmerSeed.stake at hlt
      cases k with
      | ftOnTransfer a' n' m =>
        cases m with
        | free =>
          obtain ⟨e1, e2, _⟩ := C97_stake_free h hn (.inl ⟨_, _, rfl⟩) he
          omega
        | lock d =>
          obtain ⟨e1, e2, _⟩ := C97_stake_lock h hn (.inl ⟨_, _, rfl⟩) he
          omega
        | reward id => cases hn
        | bad => cases hn
      | mftOnTransfer t a' n' m =>
        cases m with
        | free =>
          obtain ⟨e1, e2, _⟩ := C97_stake_free h hn (.inr ⟨_, _, _, rfl⟩) he
          omega
        | lock d =>
          obtain ⟨e1, e2, _⟩ := C97_stake_lock h hn (.inr ⟨_, _, _, rfl⟩) he
          omega
        | reward id => simp [Call.stakes] at hn
        | bad => simp [Call.stakes] at hn
      | _ => cases hn
    have st : ∀ k', k = k' → (k'.stakes x).map (fun p => (p.1, p.2.1)) = some (a, s) → False := by
      rintro k' rfl h1
      rw [Option.map_eq_some_iff] at h1
      obtain ⟨⟨a', s', n'⟩, h2, h3⟩ := h1
      cases h3
      exact no n' h2
    cases k with
    | forceUnlock s' n =>
      cases ha
      obtain ⟨sd, slash, _, hr, _, hle, e1, e2, e3, _⟩ := C97_force_unlock h he
      refine ⟨n, rfl, rfl, hr, ?_⟩
      unfold FarmerSeed.stake
      omega
    | lockFreeSeed s' d n =>
      cases ha
      obtain ⟨n, _, e1, e2, _⟩ := C97_lock_free h he
      unfold FarmerSeed.stake at hlt
      omega
    | ftOnTransfer a' n' m => exact (st _ rfl ha).elim
    | mftOnTransfer t a' n' m => exact (st _ rfl ha).elim
    | _ => cases ha

example : ((c3.step fl ⟨y 1005 bo, .forceUnlock S 500⟩).stakeOf bo S).stake = 991 ∧
    (c3.stakeOf bo S).stake = 1000 := by decide +kernel

/-- **C97.** A stake never has less power than what it is worth: locking and boosting only add. -/
theorem C97_power {fl : Floats} {c : Contract} (h : c.Reachable fl) (a : AccountId) (s : SeedId) :
    (c.stakeOf a s).free + (c.stakeOf a s).locked ≤ (c.stakeOf a s).pow fl := by
  have hx : (c.stakeOf a s).locked ≤ (c.stakeOf a s).xLocked := by
    unfold stakeOf
    cases hu : c.farmers.get? a with
    | none => exact Nat.le_refl _
    | some u => exact h.inv.stakeIn_x hu s
  unfold FarmerSeed.pow
  omega

example : (c3.stakeOf al S).stake = 3000 ∧ (c3.stakeOf al S).pow fl = 4500 ∧
    (c3.stakeOf bo S).stake = 1000 ∧ (c3.stakeOf bo S).pow fl = 2000 := by decide +kernel

/-- The hypotheses of the theorems on staking, locking and unlocking are met by calls of the demo. -/
example : (c1.exec fl (at' 1002 S) (.ftOnTransfer al 5 .free)).isOk = true ∧
    (Call.ftOnTransfer al 5 .free).stakes (at' 1002 S) = some (al, S, 5) ∧
    (c1.exec fl (at' 1002 S) (.ftOnTransfer bo 5 (.lock 31104000))).isOk = true ∧
    (c1.exec fl (y 1002 al) (.lockFreeSeed S 200 none)).isOk = true ∧
    (c3.exec fl (y 1005 bo) (.forceUnlock S 500)).isOk = true := by decide +kernel

/-- **C97, finding.** Once a lock has run out there is no call that unlocks it: forcing is refused. A
stake that stays locked forever can only be locked again. -/
theorem C97_expired_stays {fl : Floats} {c : Contract} {x : Ctx} {s : SeedId} {n : Nat}
    (h : c.Reachable fl) (he : (c.stakeOf x.pred s).unlockAt ≤ x.now) :
    (c.exec fl x (.forceUnlock s n)).isOk = false := by
  cases hx : c.exec fl x (.forceUnlock s n) with
  | error er => rfl
  | ok p =>
    obtain ⟨c', o⟩ := p
    obtain ⟨_, _, _, h1, _⟩ := C97_force_unlock h hx
    omega

example : (c1.stakeOf bo S).unlockAt ≤ (y 99999999 bo).now ∧
    (c1.exec fl (y 99999999 bo) (.forceUnlock S 500)).isOk = false := by decide +kernel

/-- **C97, finding.** The slash rate of a seed has no upper bound: above ten thousand, forcing the
unlock of a fresh lock always fails. -/
example : ((c1.step fl ⟨y 1002 own, .setting (.slashRate S 20000)⟩).exec fl (y 1005 bo)
    (.forceUnlock S 500)).isOk = false ∧
    (c1.exec fl (y 1005 bo) (.forceUnlock S 500)).isOk = true := by decide +kernel

/-- **C97, finding.** Locking for a shorter time after a lock has run out can fail, because the power
would become less. -/
example : (c1.exec fl (y 99999999 own) (.setOwner own)).isOk = true ∧
    (c1.exec fl (at' 99999999 S) (.ftOnTransfer bo 1 (.lock 100))).isOk = false ∧
    (c1.exec fl (at' 99999999 S) (.ftOnTransfer bo 1 (.lock 31104000))).isOk = true := by
  decide +kernel

end Contract

end Verif.Boost

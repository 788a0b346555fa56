import Verif.Boost.BoostProps

/-
C102: the terms of the boost farming contract: what locks are worth, limits, releases, and the life of
a farm.
-/

namespace Verif.Boost

open Demo

/-- What `n` locked for `d` seconds count for: up to the maximal multiplier for the maximal
duration. -/
def Config.worth (cfg : Config) (n d : Nat) : Nat :=
  n + n * ((cfg.maxMultiplier - 10000) * d) / (cfg.maxDuration * 10000)

theorem FarmerSeed.xAmount_worth {cfg : Config} {n d x : Nat} (h : xAmount cfg n d = .ok x) :
    x = cfg.worth n d := by
  rw [(xAmount_ok h).1]
  unfold Config.worth toNano
  have e1 : n * ((cfg.maxMultiplier - 10000) * (d * 10 ^ 9)) =
      n * ((cfg.maxMultiplier - 10000) * d) * 10 ^ 9 := by ring
  have e2 : cfg.maxDuration * 10 ^ 9 * 10000 = cfg.maxDuration * 10000 * 10 ^ 9 := by ring
  rw [e1, e2, Nat.mul_div_mul_right _ _ (by decide)]

theorem FarmerSeed.lock_worth {cfg : Config} {now n d : Nat} {v w : FarmerSeed}
    (h : v.lock cfg now n d = .ok w) : w.xLocked =
      if now < v.unlockAt then max v.xLocked (cfg.worth v.locked d) + cfg.worth n d
      else cfg.worth (v.locked + n) d := by
  unfold lock at h
  unpack at h
  obtain ⟨_, h⟩ := h
  split at h
  · rename_i hc
    unpack at h
    obtain ⟨hle, r, hr, e, he, _, _, rfl⟩ := h
    rw [if_pos hc.2]
    show max v.xLocked r + e = _
    rw [xAmount_worth hr, xAmount_worth he]
  · rename_i hc
    unpack at h
    obtain ⟨_, x, hx, _, rfl⟩ := h
    rw [if_neg (fun hh => hc ⟨by omega, hh⟩)]
    exact xAmount_worth hx

/-- The duration of a lock that a call sets. -/
def Call.lockFor : Call → Option Nat
  | .ftOnTransfer _ _ (.lock d) => some d
  | .mftOnTransfer _ _ _ (.lock d) => some d
  | .lockFreeSeed _ d _ => some d
  | _ => none

namespace Contract

theorem stakeLock_terms {fl : Floats} {c c' : Contract} (h : Inv fl c) {now : Nat} {a : AccountId}
    {s : SeedId} {n d : Nat} (he : c.stakeLock fl now a s n d = .ok c') :
    ∃ sd, c.seeds.get? s = some sd ∧ sd.minDeposit ≤ n ∧ 0 < sd.minLock ∧ sd.minLock ≤ d ∧
      d ≤ c.cfg.maxDuration ∧ (c'.stakeOf a s).xLocked =
        if now < (c.stakeOf a s).unlockAt then
          max (c.stakeOf a s).xLocked (c.cfg.worth (c.stakeOf a s).locked d) + c.cfg.worth n d
        else c.cfg.worth ((c.stakeOf a s).locked + n) d := by
  unfold stakeLock at he
  unpack at he
  obtain ⟨u, hu, sd, hsd, hmin, h1, h2, h3, u1, sd1, hcl, v, hv, w, e, hw, ham, hpw, c2, u2, him, rfl⟩ :=
    he
  obtain ⟨hl, hp⟩ := FarmerSeed.addLock_ok hw
  have rs := (restake (sl := c.slashed) (amount := sd1.amount + n) (power := sd1.power + e) h hu hsd hcl hv
    hl.rps (fun _ => hl.x) (by unfold FarmerSeed.stake; rw [hl.free, hl.locked]; omega) (by omega) him).1
  obtain ⟨hs, hs'⟩ := rs.stakes
  obtain ⟨old, hold, up⟩ := Contract.seed_ok hsd
  obtain ⟨farms, rfl⟩ := up.eq
  refine ⟨old, hold, hmin, h1, h2, h3, ?_⟩
  rw [hs', ← hs.2.1, ← hs.2.2.1, ← hs.2.2.2.1]
  unfold FarmerSeed.addLock at hw
  unpack at hw
  obtain ⟨_, _, w', hw', _, _, _, rfl, _⟩ := hw
  exact FarmerSeed.lock_worth hw'

theorem lockFree_terms {fl : Floats} {c c' : Contract} (h : Inv fl c) {x : Ctx}
    {s : SeedId} {d : Nat} {amount : Option Nat} (he : c.lockFree fl x s d amount = .ok c') :
    ∃ sd, c.seeds.get? s = some sd ∧ 0 < sd.minLock ∧ sd.minLock ≤ d ∧
      d ≤ c.cfg.maxDuration ∧ (c'.stakeOf x.pred s).xLocked =
        if x.now < (c.stakeOf x.pred s).unlockAt then
          max (c.stakeOf x.pred s).xLocked (c.cfg.worth (c.stakeOf x.pred s).locked d) +
            c.cfg.worth (amount.getD (c.stakeOf x.pred s).free) d
        else c.cfg.worth ((c.stakeOf x.pred s).locked + amount.getD (c.stakeOf x.pred s).free) d := by
  have hok := lockFree_ok h he
  unfold lockFree oneYocto assertRunning at he
  unpack at he
  obtain ⟨_, _, u, hu, sd, hsd, h1, h2, h3, u1, sd1, hcl, v, hv, w, e, hw, hpw, c2, u2, him, rfl⟩ := he
  obtain ⟨hn, _, hl, hp⟩ := FarmerSeed.freeToLock_ok hw
  have rs := (restake (sl := c.slashed) (amount := sd1.amount) (power := sd1.power + e) h hu hsd hcl hv
    hl.rps (fun _ => hl.x) (by
      have e1 := hl.free
      have e2 := hl.locked
      simp only at e1 e2
      unfold FarmerSeed.stake; omega) (by omega) him).1
  obtain ⟨hs, hs'⟩ := rs.stakes
  obtain ⟨old, hold, up⟩ := Contract.seed_ok hsd
  obtain ⟨farms, rfl⟩ := up.eq
  refine ⟨old, hold, h1, h2, h3, ?_⟩
  rw [show stakeOf _ x.pred s = w from hs', ← hs.1, ← hs.2.1, ← hs.2.2.1, ← hs.2.2.2.1]
  unfold FarmerSeed.freeToLock at hw
  unpack at hw
  obtain ⟨_, _, _, _, w', hw', _, _, _, rfl, _⟩ := hw
  have := FarmerSeed.lock_worth hw'
  exact this

/-- **C102.** What is locked counts for the more the longer it is locked, linearly up to the maximal
multiplier, and a lock that is still running does not lose what it counts for. The duration is within
the limits of the seed and the contract. -/
theorem C102_lock_worth {fl : Floats} {c c' : Contract} (h : c.Reachable fl) {x : Ctx} {k : Call}
    {o : List Out} (he : c.exec fl x k = .ok (c', o)) {a : AccountId} {s : SeedId} {d : Nat}
    (ha : k.about x = some (a, s)) (hd : k.lockFor = some d) :
    ∃ sd n, c.seeds.get? s = some sd ∧ 0 < sd.minLock ∧ sd.minLock ≤ d ∧ d ≤ c.cfg.maxDuration ∧
      (c'.stakeOf a s).locked = (c.stakeOf a s).locked + n ∧
      (c'.stakeOf a s).xLocked =
        if x.now < (c.stakeOf a s).unlockAt then
          max (c.stakeOf a s).xLocked (c.cfg.worth (c.stakeOf a s).locked d) + c.cfg.worth n d
        else c.cfg.worth ((c.stakeOf a s).locked + n) d := by
  have key : ∀ {a s n c1}, c.stakeLock fl x.now a s n d = .ok c1 → ∃ sd n,
      c.seeds.get? s = some sd ∧ 0 < sd.minLock ∧ sd.minLock ≤ d ∧ d ≤ c.cfg.maxDuration ∧
      (c1.stakeOf a s).locked = (c.stakeOf a s).locked + n ∧
      (c1.stakeOf a s).xLocked =
        if x.now < (c.stakeOf a s).unlockAt then
          max (c.stakeOf a s).xLocked (c.cfg.worth (c.stakeOf a s).locked d) + c.cfg.worth n d
        else c.cfg.worth ((c.stakeOf a s).locked + n) d := by
    intro a s n c1 h1
    obtain ⟨sd, e1, _, e2, e3, e4, e5⟩ := stakeLock_terms h.inv h1
    obtain ⟨v, w, rs, hl, _⟩ := stakeLock_ok h.inv h1
    obtain ⟨hv, hw⟩ := rs.stakes
    exact ⟨sd, n, e1, e2, e3, e4, by rw [hw, ← hv.2.1]; exact hl.locked, e5⟩
  cases k with
  | ftOnTransfer a' n m =>
    simp only [exec] at he
    unpack at he
    obtain ⟨_, c1, he, rfl, _⟩ := he
    unfold ftOnTransfer at he
    unpack at he
    obtain ⟨_, _, he⟩ := he
    cases m with
    | free => cases hd
    | lock d' => cases hd; cases ha; exact key he
    | reward id => cases hd
    | bad => cases hd
  | mftOnTransfer t a' n m =>
    simp only [exec] at he
    unpack at he
    obtain ⟨_, c1, he, rfl, _⟩ := he
    unfold mftOnTransfer at he
    unpack at he
    obtain ⟨_, _, he⟩ := he
    split at he
    · cases m with
      | free => cases hd
      | lock d' => cases hd; cases ha; exact key he
      | reward id => cases hd
      | bad => cases hd
    · cases he
  | lockFreeSeed s' d' n =>
    cases hd
    cases ha
    obtain ⟨n, hn, _, hl, _⟩ := C97_lock_free h he
    simp only [exec] at he
    unpack at he
    obtain ⟨c1, he, rfl, _⟩ := he
    obtain ⟨sd, e1, e2, e3, e4, e5⟩ := lockFree_terms h.inv he
    exact ⟨sd, n, e1, e2, e3, e4, hl, by rw [e5, hn]⟩
  | _ => cases hd

example : c1.cfg.worth 1000 31104000 = 2000 ∧ c1.cfg.worth 1000 15552000 = 1500 ∧
    (c1.exec fl (at' 1002 S) (.ftOnTransfer bo 5 (.lock 31104000))).isOk = true ∧
    (c1.exec fl (at' 1002 S) (.ftOnTransfer bo 5 (.lock 31104001))).isOk = false ∧
    (c1.exec fl (at' 1002 S) (.ftOnTransfer al 5 (.lock 99))).isOk = false := by decide +kernel

/-- **C102.** A stake is at least the seed's minimal deposit. -/
theorem C102_min_deposit {fl : Floats} {c c' : Contract} (h : c.Reachable fl) {x : Ctx} {k : Call}
    {o : List Out} (he : c.exec fl x k = .ok (c', o)) {a : AccountId} {s : SeedId} {n : Nat}
    (hs : k.stakes x = some (a, s, n)) : ∃ sd, c.seeds.get? s = some sd ∧ sd.minDeposit ≤ n := by
  have free : ∀ {a s n c1}, c.stakeFree fl x.now a s n = .ok c1 →
      ∃ sd, c.seeds.get? s = some sd ∧ sd.minDeposit ≤ n := by
    intro a s n c1 h1
    unfold stakeFree at h1
    unpack at h1
    obtain ⟨u, hu, sd, hsd, hmin, _⟩ := h1
    obtain ⟨old, hold, up⟩ := Contract.seed_ok hsd
    obtain ⟨farms, rfl⟩ := up.eq
    exact ⟨old, hold, hmin⟩
  have lock : ∀ {a s n d c1}, c.stakeLock fl x.now a s n d = .ok c1 →
      ∃ sd, c.seeds.get? s = some sd ∧ sd.minDeposit ≤ n := by
    intro a s n d c1 h1
    obtain ⟨sd, e1, e2, _⟩ := stakeLock_terms h.inv h1
    exact ⟨sd, e1, e2⟩
  cases k with
  | ftOnTransfer a' n m =>
    simp only [exec] at he
    unpack at he
    obtain ⟨_, c1, he, rfl, _⟩ := he
    unfold ftOnTransfer at he
    unpack at he
    obtain ⟨_, _, he⟩ := he
    cases m with
    | free => cases hs; exact free he
    | lock d' => cases hs; exact lock he
    | reward id => cases hs
    | bad => cases hs
  | mftOnTransfer t a' n m =>
    simp only [exec] at he
    unpack at he
    obtain ⟨_, c1, he, rfl, _⟩ := he
    unfold mftOnTransfer at he
    unpack at he
    obtain ⟨_, _, he⟩ := he
    split at he
    · cases m with
      | free => cases hs; exact free he
      | lock d' => cases hs; exact lock he
      | reward id => cases hs
      | bad => cases hs
    · cases he
  | _ => cases hs

example : (c1.exec fl (at' 1002 S) (.ftOnTransfer al 0 .free)).isOk = false ∧
    (c1.exec fl (at' 1002 S) (.ftOnTransfer al 1 .free)).isOk = true := by decide +kernel

/-- **C102.** After a forced unlock what is still locked counts for its part of what all of it
counted for. -/
theorem C102_unlock_worth {fl : Floats} {c c' : Contract} (h : c.Reachable fl) {x : Ctx} {o : List Out}
    {s : SeedId} {n : Nat} (he : c.exec fl x (.forceUnlock s n) = .ok (c', o)) :
    (c'.stakeOf x.pred s).xLocked = (c.stakeOf x.pred s).xLocked *
      (c'.stakeOf x.pred s).locked / (c.stakeOf x.pred s).locked := by
  simp only [exec] at he
  unpack at he
  obtain ⟨c1, he, rfl, _⟩ := he
  obtain ⟨v, w, sd, slash, rs, hsd, hl, hsl⟩ := forceUnlock_ok h.inv he
  obtain ⟨hv, hw⟩ := rs.stakes
  rw [hw, ← hv.2.1, ← hv.2.2.1]
  have h1 := hl.locked
  by_cases hn : n = v.locked
  · have h2 : w.locked = 0 := by omega
    rw [(hl.all hn).1, h2, Nat.mul_zero, Nat.zero_div]
  · have h2 : w.locked = v.locked - n := by omega
    rw [(hl.part (by have := hl.le; omega)).2.2, h2]

example : (c3.stakeOf bo S).xLocked = 2000 ∧ (c4.stakeOf bo S).xLocked = 1000 ∧
    (c3.stakeOf bo S).locked = 1000 ∧ (c4.stakeOf bo S).locked = 500 := by decide +kernel

/-- **C102.** The release of a farm: nothing before its start and without reward; from then on the daily
reward in proportion to the time since the last update, until the reward is used up. It goes to the
farmers if there are stakes, else to the beneficiary. -/
theorem C102_release {fl : Floats} {c : Contract} (h : c.Reachable fl) {now : Nat} {s : SeedId}
    {sd0 sd : Seed} (hs : c.seeds.get? s = some sd0) (hsd : c.seed now s = .ok sd) {id : FarmId}
    {f : SeedFarm} (hf : sd0.farms.get? id = some f) :
    ∃ g r, sd.farms.get? id = some g ∧
      r = (if 0 < f.startAt ∧ f.startAt * 10 ^ 9 < now ∧ f.distributedAt < now then f.due now else 0) ∧
      g.distributed = f.distributed + r ∧ g.total = f.total ∧ g.claimed = f.claimed ∧
      g.rps = f.rps + (if 0 < sd0.power then r * D27 / sd0.power else 0) ∧
      g.beneficiary = f.beneficiary + (if 0 < sd0.power then 0 else r) := by
  have hle := (h.inv.books s sd0 id f hs hf).le
  obtain ⟨old, hold, up⟩ := Contract.seed_ok hsd
  rw [hs] at hold
  cases hold
  obtain ⟨g, hg, _⟩ := up.kept id f hf
  obtain ⟨f0, hf0, hupd⟩ := up.inv id g hg
  rw [hf] at hf0
  cases hf0
  refine ⟨g, _, hg, rfl, ?_⟩
  have none : g.distributed = f.distributed ∧ g.total = f.total ∧ g.claimed = f.claimed ∧ g.rps = f.rps ∧
      g.beneficiary = f.beneficiary →
      (0 < f.startAt ∧ f.startAt * 10 ^ 9 < now ∧ f.distributedAt < now → f.due now = 0) →
      g.distributed = f.distributed + (if 0 < f.startAt ∧ f.startAt * 10 ^ 9 < now ∧
        f.distributedAt < now then f.due now else 0) ∧ g.total = f.total ∧ g.claimed = f.claimed ∧
      g.rps = f.rps + (if 0 < sd0.power then (if 0 < f.startAt ∧ f.startAt * 10 ^ 9 < now ∧
        f.distributedAt < now then f.due now else 0) * D27 / sd0.power else 0) ∧
      g.beneficiary = f.beneficiary + (if 0 < sd0.power then 0 else if 0 < f.startAt ∧
        f.startAt * 10 ^ 9 < now ∧ f.distributedAt < now then f.due now else 0) := by
    rintro ⟨h1, h2, h3, h4, h5⟩ h0
    have hr : (if 0 < f.startAt ∧ f.startAt * 10 ^ 9 < now ∧ f.distributedAt < now then f.due now
        else 0) = 0 := by
      split
      · exact h0 (by assumption)
      · rfl
    rw [hr, h1, h2, h3, h4, h5]
    simp
  have hzero : f.total ≤ f.distributed → f.due now = 0 := by
    intro hh
    unfold SeedFarm.due
    omega
  unfold SeedFarm.update at hupd
  split at hupd
  · rename_i hn
    cases hupd
    exact none ⟨rfl, rfl, rfl, rfl, rfl⟩ (fun hh => absurd hh.2.2 (by omega))
  · rename_i hn
    cases hst : f.status now with
    | ended =>
      rw [hst] at hupd
      cases hupd
      refine none ⟨rfl, rfl, rfl, rfl, rfl⟩ (fun _ => hzero ?_)
      unfold SeedFarm.status at hst
      split at hst
      · cases hst
      · split at hst
        · cases hst
        · split at hst
          · rename_i hh; exact hh.2
          · cases hst
    | created =>
      rw [hst] at hupd
      cases hupd
      refine none ⟨rfl, rfl, rfl, rfl, rfl⟩ (fun hh => ?_)
      unfold SeedFarm.status toNano at hst
      rw [if_neg (by omega)] at hst
      split at hst
      · cases hst
      · split at hst <;> cases hst
    | pending =>
      rw [hst] at hupd
      cases hupd
      refine none ⟨rfl, rfl, rfl, rfl, rfl⟩ (fun _ => hzero ?_)
      unfold SeedFarm.status at hst
      split at hst
      · cases hst
      · split at hst
        · rename_i hh; omega
        · split at hst <;> cases hst
    | running =>
      have hrun : 0 < f.startAt ∧ f.startAt * 10 ^ 9 < now ∧ f.distributedAt < now := by
        unfold SeedFarm.status toNano at hst
        split at hst
        · cases hst
        · rename_i hh
          exact ⟨by omega, by omega, by omega⟩
      rw [if_pos hrun]
      rw [hst] at hupd
      simp only at hupd
      unpack at hupd
      obtain ⟨r, hr, _, hupd⟩ := hupd
      obtain rfl : r = f.due now := by
        unfold SeedFarm.release at hr
        unpack at hr
        obtain ⟨_, q, hq, hr⟩ := hr
        unfold u128Ratio at hq
        unpack at hq
        unfold SeedFarm.due
        omega
      split at hupd
      · rename_i hp
        unpack at hupd
        obtain ⟨_, rfl⟩ := hupd
        exact ⟨rfl, rfl, rfl, by rw [if_pos hp], by rw [if_pos hp]; rfl⟩
      · rename_i hp
        unpack at hupd
        obtain ⟨_, rfl⟩ := hupd
        exact ⟨rfl, rfl, rfl, by rw [if_neg hp]; rfl, by rw [if_neg hp]⟩

/-- **C102.** A deposit of reward goes to the named farm, in the farm's token. A farm without a start
begins now. -/
theorem C102_deposit {fl : Floats} {c c' : Contract} {x : Ctx} {a : AccountId} {n : Nat} {id : FarmId}
    {o : List Out} (he : c.exec fl x (.ftOnTransfer a n (.reward id)) = .ok (c', o)) :
    ∃ s sd sd' f f', c.seed x.now s = .ok sd ∧ c'.seeds = c.seeds.insert s sd' ∧
      sd.farms.get? id = some f ∧ sd'.farms = sd.farms.insert id f' ∧ f.token = x.pred ∧
      f'.token = f.token ∧ f'.total = f.total + n ∧ f'.distributed = f.distributed ∧
      f'.claimed = f.claimed ∧ f'.rps = f.rps ∧ f'.daily = f.daily ∧
      (0 < f.startAt → f'.startAt = f.startAt ∧ f'.distributedAt = f.distributedAt) ∧
      (f.startAt = 0 → f'.startAt = x.now / 10 ^ 9 % 2 ^ 32 ∧ f'.distributedAt = x.now) := by
  simp only [exec] at he
  unpack at he
  obtain ⟨_, c1, he, rfl, _⟩ := he
  unfold ftOnTransfer at he
  unpack at he
  obtain ⟨_, _, he⟩ := he
  simp only [depositReward] at he
  unpack at he
  obtain ⟨s, _, sd, hsd, f, hf, f', hadd, rfl⟩ := he
  refine ⟨s, sd, _, f, f', hsd, rfl, hf, rfl, ?_⟩
  unfold SeedFarm.addReward at hadd
  unpack at hadd
  obtain ⟨ht, _, rfl⟩ := hadd
  by_cases h0 : f.startAt = 0
  · simp only [h0, if_true, ht, true_and]
    exact ⟨fun hh => absurd hh (Nat.lt_irrefl 0), fun _ => ⟨rfl, trivial⟩⟩
  · simp only [h0, if_false, ht, true_and]
    exact ⟨fun _ => trivial, fun hh => absurd hh (by simp)⟩

example : (c1.exec fl (at' 1002 T) (.ftOnTransfer own 500 (.reward F))).isOk = true ∧
    (c1.exec fl (at' 1002 S) (.ftOnTransfer own 500 (.reward F))).isOk = false := by decide +kernel

/-- **C102.** Only a farm that never had a reward can be cancelled, and only one that has released all
its reward can be removed. -/
theorem C102_farm_ends {fl : Floats} {c c' : Contract} (h : c.Reachable fl) {x : Ctx} {id : FarmId}
    {o : List Out} : 
    (c.exec fl x (.cancelFarm id) = .ok (c', o) → ∃ s sd f, c.seed x.now s = .ok sd ∧
      sd.farms.get? id = some f ∧ f.total = 0 ∧
      c'.seeds = c.seeds.insert s { sd with farms := sd.farms.erase id }) ∧
    (c.exec fl x (.removeFarm id) = .ok (c', o) → ∃ s sd f, c.seed x.now s = .ok sd ∧
      sd.farms.get? id = some f ∧ 0 < f.total ∧ f.distributed = f.total ∧
      c'.seeds = c.seeds.insert s { sd with farms := sd.farms.erase id } ∧
      c'.outdated = c.outdated.insert id { f with beneficiary := f.distributed - f.claimed }) := by
  constructor
  · intro he
    simp only [exec] at he
    unpack at he
    obtain ⟨c1, he, rfl, _⟩ := he
    unfold cancelFarm oneYocto assertManager assertRunning at he
    unpack at he
    obtain ⟨_, _, _, s, hs, sd, hsd, f, hf, h0, _, rfl⟩ := he
    exact ⟨s, sd, f, hsd, hf, h0, rfl⟩
  · intro he
    simp only [exec] at he
    unpack at he
    obtain ⟨c1, he, rfl, _⟩ := he
    obtain ⟨s, sd, f, hsd, hf, hst, _, h1, h2, _⟩ := removeFarm_ok h.inv he
    have hle := ((h.inv.load hsd).books s sd id f (FMap.get?_insert_self _ _ _) hf).le
    unfold SeedFarm.status at hst
    split at hst
    · cases hst
    · split at hst
      · cases hst
      · split at hst
        · rename_i hh
          exact ⟨s, sd, f, hsd, hf, hh.1, by omega, h1, h2⟩
        · cases hst

example : (c4.exec fl (y 1006 own) (.removeFarm F)).isOk = false ∧
    (c4.exec fl (y 1006 own) (.cancelFarm F)).isOk = false ∧
    (c4.exec fl (y 1101 own) (.removeFarm F)).isOk = true ∧
    ((c4.step fl ⟨y 1006 own, .createFarm S T 0 1⟩).exec fl (y 1007 own)
      (.cancelFarm "S#1".toList)).isOk = true := by decide +kernel

/-- A farm whose start has passed gets its reward. -/
def late : Contract := (c1.step fl ⟨y 1002 own, .createFarm S T 1000 8640000⟩).step fl
  ⟨at' 1502 T, .ftOnTransfer own 70000 (.reward "S#1".toList)⟩

/-- **C102, finding.** A farm whose start has passed before it gets its reward releases at once what it
would have released since the start. -/
theorem C102_retroactive : late.Reachable fl ∧ ((c1.step fl ⟨y 1002 own, .createFarm S T 1000
      8640000⟩).getFarm (1502 * 10 ^ 9) "S#1".toList).toOption.map (·.map (·.distributed)) =
        some (some 0) ∧
    (late.getFarm (1502 * 10 ^ 9) "S#1".toList).toOption.map (·.map (·.distributed)) =
      some (some 50200) :=
  ⟨(c1_reachable.step _).step _, by decide +kernel, by decide +kernel⟩

end Contract

end Verif.Boost

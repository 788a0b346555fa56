import Verif.Boost.Edit

/-
The effect of every call on stakes and deposits.
-/

namespace Verif.Boost

/-- What is staked in a seed according to the contract: `total_seed_amount` of `get_seed`. -/
def Contract.amountOf (c : Contract) (s : SeedId) : Nat :=
  match c.seeds.get? s with
  | some sd => sd.amount
  | none => 0

/-- What the contract has taken from stakes of a seed: `list_slashed`. -/
def Contract.slashedOf (c : Contract) (s : SeedId) : Nat := c.slashed.getD s 0

/-- The stake of an account in a seed, no stake if there is none. -/
def Contract.stakeOf (c : Contract) (a : AccountId) (s : SeedId) : FarmerSeed :=
  match c.farmers.get? a with
  | some u => u.stakeIn s
  | none => FarmerSeed.zero

/-- Who stakes, in which seed and how much, in a call. -/
def Call.stakes (x : Ctx) : Call → Option (AccountId × SeedId × Nat)
  | .ftOnTransfer a n .free => some (a, x.pred, n)
  | .ftOnTransfer a n (.lock _) => some (a, x.pred, n)
  | .mftOnTransfer (':' :: sub) a n .free => some (a, x.pred ++ '@' :: sub, n)
  | .mftOnTransfer (':' :: sub) a n (.lock _) => some (a, x.pred ++ '@' :: sub, n)
  | _ => none

/-- The account and the seed whose stake a call may change. -/
def Call.about (x : Ctx) : Call → Option (AccountId × SeedId)
  | .lockFreeSeed s _ _ => some (x.pred, s)
  | .forceUnlock s _ => some (x.pred, s)
  | k => (k.stakes x).map fun p => (p.1, p.2.1)

/-- The account whose rewards a call may change. -/
def Call.actor (x : Ctx) : Call → Option AccountId
  | .claimReward _ => some x.pred
  | k => (k.about x).map Prod.fst

/-- What a call stakes in a seed. -/
def Call.stakedIn (x : Ctx) (k : Call) (s : SeedId) : Nat :=
  match k.stakes x with
  | some (_, r, n) => if r = s then n else 0
  | none => 0

/-- What a call deposits as reward in a token. -/
def Call.rewardIn (x : Ctx) (k : Call) (t : AccountId) : Nat :=
  match k with
  | .ftOnTransfer _ n (.reward _) => if x.pred = t then n else 0
  | _ => 0

/-- The effect of a call: it may change the stake `who` and the rewards of `act`, stakes `n` in the
seeds and deposits `r` in the tokens. -/
structure Effect (fl : Floats) (c : Contract) (who : Option (AccountId × SeedId))
    (act : Option AccountId) (n : SeedId → Nat) (r : AccountId → Nat) (c' : Contract) : Prop where
  inv : Inv fl c'
  amount : ∀ s, c'.amountOf s + c'.slashedOf s = c.amountOf s + c.slashedOf s + n s
  total : ∀ t, c'.totalOf t = c.totalOf t + r t
  stake : ∀ a s, who ≠ some (a, s) → (c.stakeOf a s).SameStake (c'.stakeOf a s)
  more : ∀ a t, c.rewardOf a t ≤ c'.rewardOf a t
  paid : ∀ a t, act ≠ some a → c'.rewardOf a t = c.rewardOf a t

theorem Effect.of_eq {fl : Floats} {c : Contract} {who : Option (AccountId × SeedId)}
    {act : Option AccountId} {n : SeedId → Nat} {r : AccountId → Nat} {c1 c' : Contract} (h : Effect fl c who act n r c1)
    (h1 : c'.seeds = c1.seeds) (h2 : c'.farmers = c1.farmers) (h3 : c'.outdated = c1.outdated)
    (h4 : c'.slashed = c1.slashed) (h5 : c'.cfg.boosters = c1.cfg.boosters) :
    Effect fl c who act n r c' := by
  refine ⟨h.inv.of_eq h1 h2 h3 h5, ?_, ?_, ?_, ?_, ?_⟩
  · intro s
    have := h.amount s
    unfold Contract.amountOf Contract.slashedOf at *
    rw [h1, h4]
    exact this
  · intro t
    have := h.total t
    unfold Contract.totalOf at *
    rw [h1, h3]
    exact this
  · intro a s hw
    have := h.stake a s hw
    unfold Contract.stakeOf at *
    rw [h2]
    exact this
  · intro a t
    have := h.more a t
    unfold Contract.rewardOf at *
    rw [h2]
    exact this
  · intro a t ha
    have := h.paid a t ha
    unfold Contract.rewardOf at *
    rw [h2]
    exact this

theorem Effect.refl {fl : Floats} {c : Contract} (h : Inv fl c) :
    Effect fl c none none (fun _ => 0) (fun _ => 0) c :=
  ⟨h, fun _ => rfl, fun _ => rfl, fun _ _ _ => .refl _, fun _ _ => Nat.le_refl _, fun _ _ _ => rfl⟩

theorem Restake.effect {fl : Floats} {c : Contract} {a : AccountId} {s : SeedId} {v w : FarmerSeed}
    {c' : Contract} (rs : Restake fl c a s v w c') (m : Nat)
    (hsl : ∀ r, r ≠ s → c'.slashedOf r = c.slashedOf r)
    (hm : w.stake + c'.slashedOf s = v.stake + c.slashedOf s + m) :
    Effect fl c (some (a, s)) (some a) (fun r => if s = r then m else 0) (fun _ => 0) c' := by
  obtain ⟨sd, sd', sq, h1, h2, _, _, h3⟩ := rs.seed
  obtain ⟨u, u', hu, hf, _, hv, hw, ho, hmore⟩ := rs.farmer
  refine ⟨rs.inv, ?_, fun t => rs.totals t, ?_, ?_, ?_⟩
  · intro r
    by_cases hr : r = s
    · subst hr
      unfold Contract.amountOf
      rw [h1, h2, if_pos rfl]
      simp only
      omega
    · rw [if_neg (Ne.symm hr), hsl r hr]
      unfold Contract.amountOf
      cases hg : c.seeds.get? r with
      | none => rw [(rs.others r hr).1 hg]; rfl
      | some sr =>
        obtain ⟨sr', hr', q⟩ := (rs.others r hr).2 sr hg
        rw [hr']
        simp only [q.amount]
        rfl
  · intro b r hw'
    unfold Contract.stakeOf
    rw [hf, FMap.get?_insert]
    by_cases hb : b = a
    · subst hb
      rw [if_pos rfl, hu]
      exact ho r (fun hr => hw' (by rw [hr]))
    · rw [if_neg hb]
      exact .refl _
  · intro b t
    unfold Contract.rewardOf
    rw [hf, FMap.get?_insert]
    by_cases hb : b = a
    · subst hb
      rw [if_pos rfl, hu]
      exact hmore t
    · rw [if_neg hb]
  · intro b t hb
    unfold Contract.rewardOf
    rw [hf, FMap.get?_insert, if_neg (fun h => hb (by rw [h]))]

/-! ### Calls that change stakes -/

theorem Contract.stakeFree_ok {fl : Floats} {c c' : Contract} (h : Inv fl c) {now : Nat}
    {a : AccountId} {s : SeedId} {n : Nat} (he : c.stakeFree fl now a s n = .ok c') :
    ∃ v, Restake fl c a s v { v with free := v.free + n } c' ∧ c'.slashed = c.slashed := by
  unfold stakeFree at he
  unpack at he
  obtain ⟨u, hu, sd, hsd, hmin, u1, sd1, hcl, v, hv, w, d, hw, ham, hpw, c2, u2, him, rfl⟩ := he
  obtain ⟨rfl, hp⟩ := FarmerSeed.addFree_ok hw
  have := restake (w := { v with free := v.free + n }) (sl := c.slashed) (amount := sd1.amount + n)
    (power := sd1.power + d) h hu hsd hcl hv rfl (fun h => h)
    (by unfold FarmerSeed.stake; simp only; omega) (by omega) him
  exact ⟨v, this.1, this.2⟩

theorem Contract.stakeLock_ok {fl : Floats} {c c' : Contract} (h : Inv fl c) {now : Nat}
    {a : AccountId} {s : SeedId} {n d : Nat} (he : c.stakeLock fl now a s n d = .ok c') :
    ∃ v w, Restake fl c a s v w c' ∧ FarmerSeed.Locks c.cfg now n d v w ∧ c'.slashed = c.slashed := by
  unfold stakeLock at he
  unpack at he
  obtain ⟨u, hu, sd, hsd, hmin, h1, h2, h3, u1, sd1, hcl, v, hv, w, e, hw, ham, hpw, c2, u2, him, rfl⟩ :=
    he
  obtain ⟨hl, hp⟩ := FarmerSeed.addLock_ok hw
  have := restake (sl := c.slashed) (amount := sd1.amount + n) (power := sd1.power + e) h hu hsd hcl hv
    hl.rps (fun _ => hl.x) (by unfold FarmerSeed.stake; rw [hl.free, hl.locked]; omega) (by omega) him
  exact ⟨v, w, this.1, hl, this.2⟩

theorem Contract.lockFree_ok {fl : Floats} {c c' : Contract} (h : Inv fl c) {x : Ctx}
    {s : SeedId} {d : Nat} {amount : Option Nat} (he : c.lockFree fl x s d amount = .ok c') :
    ∃ v w n, n = amount.getD v.free ∧ n ≤ v.free ∧ Restake fl c x.pred s v w c' ∧
      FarmerSeed.Locks c.cfg x.now n d { v with free := v.free - n } w ∧ c'.slashed = c.slashed := by
  unfold lockFree oneYocto assertRunning at he
  unpack at he
  obtain ⟨_, _, u, hu, sd, hsd, h1, h2, h3, u1, sd1, hcl, v, hv, w, e, hw, hpw, c2, u2, him, rfl⟩ := he
  obtain ⟨hn, _, hl, hp⟩ := FarmerSeed.freeToLock_ok hw
  have := restake (sl := c.slashed) (amount := sd1.amount) (power := sd1.power + e) h hu hsd hcl hv
    hl.rps (fun _ => hl.x) (by
      have e1 := hl.free
      have e2 := hl.locked
      simp only at e1 e2
      unfold FarmerSeed.stake; omega) (by omega) him
  exact ⟨v, w, _, rfl, hn, this.1, hl, this.2⟩

theorem Contract.forceUnlock_ok {fl : Floats} {c c' : Contract} (h : Inv fl c) {x : Ctx}
    {s : SeedId} {n : Nat} (he : c.forceUnlock fl x s n = .ok c') :
    ∃ v w sd slash, Restake fl c x.pred s v w c' ∧ c.seeds.get? s = some sd ∧
      FarmerSeed.Unlocks x.now n sd.slashRate slash v w ∧
      c'.slashed = c.slashed.insert s (c.slashed.getD s 0 + slash) := by
  unfold forceUnlock oneYocto assertRunning at he
  unpack at he
  obtain ⟨_, _, u, hu, sd, hsd, u1, sd1, hcl, v, hv, w, d, slash, hw, ham, hpw, hsl, c2, u2, him, rfl⟩ :=
    he
  obtain ⟨hl, hp⟩ := FarmerSeed.unlockSlashed_ok hw
  obtain ⟨old, hold, up⟩ := Contract.seed_ok hsd
  have q := up.quiet.trans (doClaim_ok hcl).quiet
  have := restake (sl := c.slashed.insert s (c.slashed.getD s 0 + slash)) (amount := sd1.amount - slash)
    (power := sd1.power - d) h hu hsd hcl hv hl.rps (by
      intro hx
      by_cases hn : n = v.locked
      · have e1 := (hl.all hn).1
        have e2 := hl.locked
        omega
      · have hn' : n < v.locked := by have := hl.le; omega
        have e1 := (hl.part hn').2.2
        have e2 := hl.locked
        have e3 : w.locked = v.locked - n := by omega
        rw [e1, e3, Nat.le_div_iff_mul_le (by omega), Nat.mul_comm]
        exact Nat.mul_le_mul_right _ hx)
    (by
      have e1 := hl.free
      have e2 := hl.locked
      unfold FarmerSeed.stake; omega) (by omega) him
  rw [q.slashRate] at hl
  exact ⟨v, w, old, slash, this.1, hold, hl, this.2⟩

theorem Contract.claimReward_ok {fl : Floats} {c c' : Contract} (h : Inv fl c) {x : Ctx} {s : SeedId}
    (he : c.claimReward fl x s = .ok c') : ∃ u sd u' sd', c.farmers.get? x.pred = some u ∧
      c.seed x.now s = .ok sd ∧ doClaim fl c.cfg u sd = .ok (u', sd') ∧ sd.id = s ∧
      Claims fl u sd u' sd' ∧ c' = (c.setFarmer x.pred u').setSeed s sd' ∧ Inv fl c' := by
  unfold claimReward assertRunning at he
  unpack at he
  obtain ⟨_, _, u, hu, sd, hsd, u', sd', hcl, rfl⟩ := he
  have hu := expectE_ok.1 hu
  obtain ⟨old, hold, up⟩ := Contract.seed_ok hsd
  exact ⟨u, sd, u', sd', hu, hsd, hcl, by rw [up.quiet.id]; exact h.ids _ _ hold, doClaim_ok hcl, rfl,
    h.claim hu hsd hcl⟩

theorem Contract.claim_effect {fl : Floats} {c c' : Contract} (h : Inv fl c) {x : Ctx} {s : SeedId}
    (he : c.claimReward fl x s = .ok c') : Effect fl c none (some x.pred) (fun _ => 0) (fun _ => 0) c' := by
  obtain ⟨u, sd, u', sd', hu, hsd, _, hid, cl, rfl, hi⟩ := claimReward_ok h he
  obtain ⟨old, hold, up⟩ := Contract.seed_ok hsd
  have q := up.quiet.trans cl.quiet
  refine ⟨hi, ?_, ?_, ?_, ?_, ?_⟩
  · intro r
    unfold amountOf
    show (match (c.seeds.insert s sd').get? r with | some sd => sd.amount | none => 0) + c.slashedOf r = _
    by_cases hr : r = s
    · subst hr
      rw [FMap.get?_insert_self, hold]
      simp only [q.amount]
      rfl
    · rw [FMap.get?_insert_ne _ _ hr]
      rfl
  · intro t
    have e := sum_insert_totals (sd' := sd') hold t
    have e2 := q.totals t
    unfold totalOf
    show (c.seeds.insert s sd').sum _ + c.outdated.sum _ = _
    omega
  · intro b r _
    unfold stakeOf
    show FarmerSeed.SameStake _ (match (c.farmers.insert x.pred u').get? b with
      | some u => u.stakeIn r | none => FarmerSeed.zero)
    by_cases hb : b = x.pred
    · subst hb
      rw [FMap.get?_insert_self, hu]
      exact cl.same r
    · rw [FMap.get?_insert_ne _ _ hb]
      exact .refl _
  · intro b t
    unfold rewardOf
    show _ ≤ (match (c.farmers.insert x.pred u').get? b with
      | some u => u.rewards.getD t 0 | none => 0)
    by_cases hb : b = x.pred
    · subst hb
      rw [FMap.get?_insert_self, hu]
      exact cl.more t
    · rw [FMap.get?_insert_ne _ _ hb]
      exact Nat.le_refl _
  · intro b t hb
    unfold rewardOf
    show (match (c.farmers.insert x.pred u').get? b with
      | some u => u.rewards.getD t 0 | none => 0) = _
    rw [FMap.get?_insert_ne _ _ (fun h => hb (by rw [h]))]
    rfl

theorem slashedOf_eq {c c' : Contract} (h : c'.slashed = c.slashed) (s : SeedId) :
    c'.slashedOf s = c.slashedOf s := by unfold Contract.slashedOf; rw [h]

theorem Contract.stakeFree_effect {fl : Floats} {c c' : Contract} (h : Inv fl c) {now : Nat}
    {a : AccountId} {s : SeedId} {n : Nat} (he : c.stakeFree fl now a s n = .ok c') :
    Effect fl c (some (a, s)) (some a) (fun r => if s = r then n else 0) (fun _ => 0) c' := by
  obtain ⟨v, rs, hs⟩ := stakeFree_ok h he
  refine rs.effect n (fun r _ => slashedOf_eq hs r) ?_
  rw [slashedOf_eq hs]
  unfold FarmerSeed.stake
  simp only
  omega

theorem Contract.stakeLock_effect {fl : Floats} {c c' : Contract} (h : Inv fl c) {now : Nat}
    {a : AccountId} {s : SeedId} {n d : Nat} (he : c.stakeLock fl now a s n d = .ok c') :
    Effect fl c (some (a, s)) (some a) (fun r => if s = r then n else 0) (fun _ => 0) c' := by
  obtain ⟨v, w, rs, hl, hs⟩ := stakeLock_ok h he
  refine rs.effect n (fun r _ => slashedOf_eq hs r) ?_
  rw [slashedOf_eq hs]
  unfold FarmerSeed.stake
  rw [hl.free, hl.locked]
  omega

theorem Contract.lockFree_effect {fl : Floats} {c c' : Contract} (h : Inv fl c) {x : Ctx}
    {s : SeedId} {d : Nat} {amount : Option Nat} (he : c.lockFree fl x s d amount = .ok c') :
    Effect fl c (some (x.pred, s)) (some x.pred) (fun _ => 0) (fun _ => 0) c' := by
  obtain ⟨v, w, n, _, hn, rs, hl, hs⟩ := lockFree_ok h he
  have := rs.effect 0 (fun r _ => slashedOf_eq hs r) (by
    have e1 := hl.free
    have e2 := hl.locked
    simp only at e1 e2
    rw [slashedOf_eq hs]
    unfold FarmerSeed.stake
    omega)
  simpa using this

theorem Contract.forceUnlock_effect {fl : Floats} {c c' : Contract} (h : Inv fl c) {x : Ctx}
    {s : SeedId} {n : Nat} (he : c.forceUnlock fl x s n = .ok c') :
    Effect fl c (some (x.pred, s)) (some x.pred) (fun _ => 0) (fun _ => 0) c' := by
  obtain ⟨v, w, sd, slash, rs, _, hl, hs⟩ := forceUnlock_ok h he
  have e0 : ∀ r, c'.slashedOf r = if r = s then c.slashedOf s + slash else c.slashedOf r := by
    intro r
    unfold slashedOf
    rw [hs, FMap.getD_insert]
  have := rs.effect 0 (fun r hr => by rw [e0, if_neg hr]) (by
    have e1 := hl.free
    have e2 := hl.locked
    rw [e0, if_pos rfl]
    unfold FarmerSeed.stake
    omega)
  simpa using this

/-! ### Calls that change seeds -/

theorem Edit.effect {fl : Floats} {c : Contract} (h : Inv fl c) {now : Nat} {s : SeedId} {sd sd' : Seed}
    {out' : FMap FarmId SeedFarm} {r : AccountId → Nat} (hsd : c.seed now s = .ok sd)
    (ed : Edit s sd c.outdated sd' out')
    (ht : ∀ t, sd'.farms.sum (fun _ => SeedFarm.totalIn t) + out'.sum (fun _ => SeedFarm.totalIn t) =
      sd.farms.sum (fun _ => SeedFarm.totalIn t) + c.outdated.sum (fun _ => SeedFarm.totalIn t) + r t) :
    Effect fl c none none (fun _ => 0) r { c.setSeed s sd' with outdated := out' } := by
  obtain ⟨old, hold, up⟩ := Contract.seed_ok hsd
  have h1 := h.load hsd
  have h2 := h1.edit (out' := out') (FMap.get?_insert_self _ _ _) ed
  refine ⟨h2.of_eq ?_ rfl rfl rfl, ?_, ?_, fun _ _ _ => .refl _, fun _ _ => Nat.le_refl _,
    fun _ _ _ => rfl⟩
  · simp only [Contract.setSeed, FMap.insert_insert]
  · intro q
    unfold Contract.amountOf
    show (match (c.seeds.insert s sd').get? q with | some sd => sd.amount | none => 0) + c.slashedOf q = _
    by_cases hr : q = s
    · subst hr
      rw [FMap.get?_insert_self, hold]
      simp only [ed.amount, up.quiet.amount]
      rfl
    · rw [FMap.get?_insert_ne _ _ hr]
      rfl
  · intro t
    have e := sum_insert_totals (sd' := sd') hold t
    have e2 := up.quiet.totals t
    have e3 := ht t
    unfold Contract.totalOf
    show (c.seeds.insert s sd').sum _ + out'.sum _ = _
    omega

theorem Edit.effect_same {fl : Floats} {c : Contract} (h : Inv fl c) {now : Nat} {s : SeedId}
    {sd sd' : Seed} (hsd : c.seed now s = .ok sd) (h1 : sd'.id = sd.id)
    (h2 : sd'.amount = sd.amount) (h3 : sd'.power = sd.power) (h4 : sd'.nextIndex = sd.nextIndex)
    (h5 : sd'.farms = sd.farms) :
    Effect fl c none none (fun _ => 0) (fun _ => 0) (c.setSeed s sd') :=
  (Edit.effect (r := fun _ => 0) h hsd (Edit.same h1 h2 h3 h4 h5) (fun t => by rw [h5]; rfl)).of_eq
    rfl rfl rfl rfl rfl

theorem Contract.depositReward_effect {fl : Floats} {c c' : Contract} (h : Inv fl c) {now : Nat}
    {id : FarmId} {token : AccountId} {n : Nat} (he : c.depositReward now id token n = .ok c') :
    Effect fl c none none (fun _ => 0) (fun t => if token = t then n else 0) c' := by
  unfold depositReward at he
  unpack at he
  obtain ⟨s, hs, sd, hsd, f, hf, g, hg, rfl⟩ := he
  have key : g.token = f.token ∧ f.token = token ∧ g.rps = f.rps ∧ g.claimed = f.claimed ∧
      g.beneficiary = f.beneficiary ∧ g.distributed = f.distributed ∧ g.total = f.total + n := by
    unfold SeedFarm.addReward at hg
    unpack at hg
    obtain ⟨ht, _, rfl⟩ := hg
    split <;> exact ⟨rfl, ht, rfl, rfl, rfl, rfl, rfl⟩
  obtain ⟨e0, et, e1, e2, e3, e4, e5⟩ := key
  refine (Edit.effect h hsd (Edit.farm' hf e0 e1 e2 e3 e4 (by omega)) ?_).of_eq rfl rfl rfl rfl rfl
  intro t
  show (sd.farms.insert id g).sum _ + _ = _
  have e := sd.farms.sum_insert (fun _ => SeedFarm.totalIn t) id g
  rw [FMap.term_some _ hf] at e
  have : SeedFarm.totalIn t g = SeedFarm.totalIn t f + if token = t then n else 0 := by
    unfold SeedFarm.totalIn
    rw [e0, et, e5]
    split <;> simp
  omega

theorem Contract.createFarm_effect {fl : Floats} {c c' : Contract} (h : Inv fl c) {x : Ctx}
    {s : SeedId} {token : AccountId} {startAt daily : Nat}
    (he : c.createFarm x s token startAt daily = .ok c') :
    Effect fl c none none (fun _ => 0) (fun _ => 0) c' := by
  unfold createFarm oneYocto assertManager assertRunning at he
  unpack at he
  obtain ⟨_, _, _, sd, hsd, _, hnext, hcount, _, _, rfl⟩ := he
  have h1 := h.load hsd
  have hg : (c.setSeed s sd).seeds.get? s = some sd := FMap.get?_insert_self _ _ _
  have hno : sd.farms.get? (genFarmId s sd.nextIndex) = none := by
    cases hf : sd.farms.get? (genFarmId s sd.nextIndex) with
    | none => rfl
    | some f =>
      obtain ⟨i, hi, hid⟩ := h1.farmIds _ _ _ f hg hf
      have := (genFarmId_inj hid).2
      omega
  refine (Edit.effect (r := fun _ => 0) (sd' := { sd with
      nextIndex := sd.nextIndex + 1
      farms := sd.farms.insert (genFarmId s sd.nextIndex) (SeedFarm.new token startAt daily) })
    (out' := c.outdated) h hsd ⟨rfl, rfl, rfl, Nat.le_succ _, ?_, fun _ _ h => .inl h, ?_⟩ ?_).of_eq
    rfl rfl rfl rfl rfl
  · intro id f hf
    change (sd.farms.insert _ _).get? id = some f at hf
    rw [FMap.get?_insert] at hf
    split at hf
    · cases hf
      exact .inr ⟨sd.nextIndex, Nat.le_refl _, Nat.lt_succ_self _, by assumption, rfl, rfl, rfl, rfl⟩
    · exact .inl ⟨f, hf, rfl, rfl, rfl, rfl, Nat.le_refl _⟩
  · intro t
    show _ = (sd.farms.insert _ _).sum _ + _
    have e := sd.farms.sum_insert (fun _ => SeedFarm.claimedIn t) (genFarmId s sd.nextIndex)
      (SeedFarm.new token startAt daily)
    rw [FMap.term_none _ hno] at e
    have : SeedFarm.claimedIn t (SeedFarm.new token startAt daily) = 0 := by
      unfold SeedFarm.claimedIn SeedFarm.new; simp
    omega
  · intro t
    show (sd.farms.insert _ _).sum _ + _ = _
    have e := sd.farms.sum_insert (fun _ => SeedFarm.totalIn t) (genFarmId s sd.nextIndex)
      (SeedFarm.new token startAt daily)
    rw [FMap.term_none _ hno] at e
    have : SeedFarm.totalIn t (SeedFarm.new token startAt daily) = 0 := by
      unfold SeedFarm.totalIn SeedFarm.new; simp
    omega

theorem Edit.erase_farm {sd : Seed} {id i : FarmId} {f : SeedFarm}
    (h : (sd.farms.erase id).get? i = some f) : i ≠ id ∧ sd.farms.get? i = some f := by
  rw [FMap.get?_erase] at h
  split at h
  · cases h
  · exact ⟨by assumption, h⟩

theorem Contract.cancelFarm_effect {fl : Floats} {c c' : Contract} (h : Inv fl c) {x : Ctx}
    {id : FarmId} (he : c.cancelFarm x id = .ok c') :
    Effect fl c none none (fun _ => 0) (fun _ => 0) c' := by
  unfold cancelFarm oneYocto assertManager assertRunning at he
  unpack at he
  obtain ⟨_, _, _, s, hs, sd, hsd, f, hf, htot, _, rfl⟩ := he
  have h1 := h.load hsd
  have hg : (c.setSeed s sd).seeds.get? s = some sd := FMap.get?_insert_self _ _ _
  have b := h1.books _ _ id f hg hf
  have hcl : f.claimed = 0 := by
    have e1 := b.le
    have e2 : f.distributed = 0 := by omega
    have e3 := b.owed
    rw [e2, Nat.mul_zero] at e3
    have e4 : D27 * (f.claimed + f.beneficiary) = 0 := by omega
    rcases Nat.mul_eq_zero.1 e4 with e5 | e5
    · exact absurd e5 (by decide)
    · omega
  refine (Edit.effect (r := fun _ => 0) (sd' := { sd with farms := sd.farms.erase id })
    (out' := c.outdated) h hsd ⟨rfl, rfl, rfl, Nat.le_refl _, ?_, fun _ _ h => .inl h, ?_⟩ ?_).of_eq
    rfl rfl rfl rfl rfl
  · intro i g hi
    exact .inl ⟨g, (Edit.erase_farm hi).2, rfl, rfl, rfl, rfl, Nat.le_refl _⟩
  · intro t
    show _ = (sd.farms.erase id).sum _ + _
    have e := sd.farms.sum_erase (fun _ => SeedFarm.claimedIn t) id
    rw [FMap.term_some _ hf] at e
    have : SeedFarm.claimedIn t f = 0 := by unfold SeedFarm.claimedIn; rw [hcl]; simp
    omega
  · intro t
    show (sd.farms.erase id).sum _ + _ = _
    have e := sd.farms.sum_erase (fun _ => SeedFarm.totalIn t) id
    rw [FMap.term_some _ hf] at e
    have : SeedFarm.totalIn t f = 0 := by unfold SeedFarm.totalIn; rw [htot]; simp
    omega

/-- What removing a farm does: the farm has released everything, and what has not been claimed goes to
the beneficiary. -/
theorem Contract.removeFarm_ok {fl : Floats} {c c' : Contract} (h : Inv fl c) {x : Ctx}
    {id : FarmId} (he : c.removeFarm x id = .ok c') : ∃ s sd f, c.seed x.now s = .ok sd ∧
      sd.farms.get? id = some f ∧ f.status x.now = .ended ∧ f.claimed ≤ f.distributed ∧
      c'.seeds = c.seeds.insert s { sd with farms := sd.farms.erase id } ∧
      c'.outdated = c.outdated.insert id { f with beneficiary := f.distributed - f.claimed } ∧
      Effect fl c none none (fun _ => 0) (fun _ => 0) c' := by
  unfold removeFarm oneYocto assertOwner assertRunning SeedFarm.finalize at he
  unpack at he
  obtain ⟨_, _, _, s, hs, sd, hsd, f, hf, hst, hle, hcnt, rfl⟩ := he
  have h1 := h.load hsd
  have hg : (c.setSeed s sd).seeds.get? s = some sd := FMap.get?_insert_self _ _ _
  have b := h1.books _ _ id f hg hf
  obtain ⟨i, hi, hid⟩ := h1.farmIds _ _ id f hg hf
  have hno : c.outdated.get? id = none := by
    cases ho : c.outdated.get? id with
    | none => rfl
    | some g =>
      obtain ⟨r, sr, j, hr, _, hjd, hn⟩ := h1.outIds id g ho
      have := (genFarmId_inj (hid.symm.trans hjd)).1
      subst this
      rw [hg] at hr
      cases hr
      rw [hf] at hn
      cases hn
  refine ⟨s, sd, f, hsd, hf, hst, hle, rfl, rfl, ?_⟩
  refine (Edit.effect (r := fun _ => 0) (sd' := { sd with farms := sd.farms.erase id })
    (out' := c.outdated.insert id { f with beneficiary := f.distributed - f.claimed }) h hsd
    ⟨rfl, rfl, rfl, Nat.le_refl _, ?_, ?_, ?_⟩ ?_).of_eq rfl rfl rfl rfl rfl
  · intro i g hi
    exact .inl ⟨g, (Edit.erase_farm hi).2, rfl, rfl, rfl, rfl, Nat.le_refl _⟩
  · intro j g hj
    rw [FMap.get?_insert] at hj
    split at hj
    · cases hj
      subst_vars
      refine .inr ⟨⟨i, hi, rfl⟩, FMap.get?_erase_self _ _, ?_⟩
      have := b.le
      simp only
      omega
    · exact .inl hj
  · intro t
    show _ = (sd.farms.erase id).sum _ + (c.outdated.insert id _).sum _
    have e := sd.farms.sum_erase (fun _ => SeedFarm.claimedIn t) id
    rw [FMap.term_some _ hf] at e
    have e2 := c.outdated.sum_insert (fun _ => SeedFarm.claimedIn t) id
      { f with beneficiary := f.distributed - f.claimed }
    rw [FMap.term_none _ hno] at e2
    have : SeedFarm.claimedIn t { f with beneficiary := f.distributed - f.claimed } =
      SeedFarm.claimedIn t f := rfl
    omega
  · intro t
    show (sd.farms.erase id).sum _ + (c.outdated.insert id _).sum _ = _
    have e := sd.farms.sum_erase (fun _ => SeedFarm.totalIn t) id
    rw [FMap.term_some _ hf] at e
    have e2 := c.outdated.sum_insert (fun _ => SeedFarm.totalIn t) id
      { f with beneficiary := f.distributed - f.claimed }
    rw [FMap.term_none _ hno] at e2
    have : SeedFarm.totalIn t { f with beneficiary := f.distributed - f.claimed } =
      SeedFarm.totalIn t f := rfl
    omega

theorem Contract.createSeed_effect {fl : Floats} {c c' : Contract} (h : Inv fl c) {x : Ctx}
    {s : SeedId} {d : Nat} {m l : Option Nat} (he : c.createSeed x s d m l = .ok c') :
    Effect fl c none none (fun _ => 0) (fun _ => 0) c' := by
  unfold createSeed oneYocto assertManager assertRunning at he
  unpack at he
  obtain ⟨_, _, _, hno, rfl⟩ := he
  have hno : c.seeds.get? s = none := Option.isNone_iff_eq_none.1 hno
  have hz : ∀ {a u}, c.farmers.get? a = some u → u.stakeIn s = FarmerSeed.zero :=
    fun hu => Farmer.stakeIn_none (h.orphan _ _ _ hu hno)
  have zero : ∀ F : Farmer → Nat, (∀ a u, c.farmers.get? a = some u → F u = 0) →
      c.farmers.sum (fun _ u => F u) = 0 := by
    intro F hF
    rw [c.farmers.sum_congr _ (fun _ _ => 0) (fun a u hu => hF a u hu)]
    have := c.farmers.sum_mul (fun _ _ => 0) 0
    simp only [Nat.mul_zero] at this
    omega
  have sget : ∀ {r sr sd'}, (c.seeds.insert s sd').get? r = some sr →
      (r = s ∧ sr = sd') ∨ (r ≠ s ∧ c.seeds.get? r = some sr) := by
    intro r sr sd' hr
    rw [FMap.get?_insert] at hr
    split at hr
    · cases hr; exact .inl ⟨by assumption, rfl⟩
    · exact .inr ⟨by assumption, hr⟩
  have old : ∀ {r sr sd'}, c.seeds.get? r = some sr → (c.seeds.insert s sd').get? r = some sr := by
    intro r sr sd' hr
    rw [FMap.get?_insert_ne _ _ (by rintro rfl; rw [hno] at hr; cases hr), hr]
  refine ⟨⟨?_, ?_, ?_, ?_, ?_, ?_, ?_, ?_, h.outBooks, h.boost, ?_, h.x⟩, ?_, ?_, fun _ _ _ => .refl _,
    fun _ _ => Nat.le_refl _, fun _ _ _ => rfl⟩
  · intro r sr hr
    rcases sget hr with ⟨rfl, rfl⟩ | ⟨_, hr⟩
    · rfl
    · exact h.ids _ _ hr
  · intro r sr hr
    rcases sget hr with ⟨rfl, rfl⟩ | ⟨_, hr⟩
    · exact (zero (fun u => (u.stakeIn r).stake) (fun a u hu => by rw [hz hu]; rfl)).symm
    · exact h.amount _ _ hr
  · intro r sr hr
    rcases sget hr with ⟨rfl, rfl⟩ | ⟨_, hr⟩
    · exact (zero (fun u => (u.stakeIn r).pow fl) (fun a u hu => by
        rw [hz hu]; exact FarmerSeed.pow_zero rfl)).symm
    · exact h.power _ _ hr
  · intro a u r hu hr
    change (c.seeds.insert s _).get? r = none at hr
    rw [FMap.get?_insert] at hr
    split at hr
    · cases hr
    · exact h.orphan a u r hu hr
  · intro r sr id f hr hf
    rcases sget hr with ⟨rfl, rfl⟩ | ⟨_, hr⟩
    · cases hf
    · exact h.farmIds _ _ id f hr hf
  · intro id f hf
    obtain ⟨r, sr, i, hr, hi⟩ := h.outIds id f hf
    exact ⟨r, sr, i, old hr, hi⟩
  · intro a u r v id q hu hv hq
    obtain ⟨sr, i, hr, hi⟩ := h.rps a u r v id q hu hv hq
    exact ⟨sr, i, old hr, hi⟩
  · intro r sr id f hr hf
    rcases sget hr with ⟨rfl, rfl⟩ | ⟨_, hr⟩
    · cases hf
    · have b := h.books _ _ id f hr hf
      exact ⟨b.le, b.zero, b.owed⟩
  · intro t
    have e := c.seeds.sum_insert (fun _ sd => sd.farms.sum fun _ => SeedFarm.claimedIn t) s
      ⟨s, d, FMap.empty, 0, 0, 0, m.getD (10 ^ 18), c.cfg.slashRate, l.getD (3600 * 24 * 30)⟩
    rw [FMap.term_none _ hno] at e
    have e2 := h.rewards t
    unfold credited claimedOf at *
    show c.farmers.sum _ = (c.seeds.insert s _).sum _ + c.outdated.sum _
    rw [FMap.sum_empty] at e
    omega
  · intro r
    unfold amountOf
    show (match (c.seeds.insert s _).get? r with | some sd => sd.amount | none => 0) + c.slashedOf r = _
    by_cases hr : r = s
    · subst hr
      rw [FMap.get?_insert_self, hno]
      rfl
    · rw [FMap.get?_insert_ne _ _ hr]
      rfl
  · intro t
    have e := c.seeds.sum_insert (fun _ sd => sd.farms.sum fun _ => SeedFarm.totalIn t) s
      ⟨s, d, FMap.empty, 0, 0, 0, m.getD (10 ^ 18), c.cfg.slashRate, l.getD (3600 * 24 * 30)⟩
    rw [FMap.term_none _ hno] at e
    unfold totalOf
    show (c.seeds.insert s _).sum _ + c.outdated.sum _ = _
    rw [FMap.sum_empty] at e
    omega

theorem Contract.setting_effect {fl : Floats} {c c' : Contract} (h : Inv fl c) {x : Ctx} {k : Setting}
    (he : c.setting x k = .ok c') : Effect fl c none none (fun _ => 0) (fun _ => 0) c' := by
  unfold setting oneYocto assertManager assertRunning at he
  unpack at he
  obtain ⟨_, _, _, he⟩ := he
  cases k with
  | dailyReward id n =>
    unpack at he
    obtain ⟨s, hs, sd, hsd, f, hf, rfl⟩ := he
    refine (Edit.effect (r := fun _ => 0) h hsd (Edit.farm' (g := { f with daily := n }) hf rfl rfl rfl rfl
      rfl (Nat.le_refl _)) ?_).of_eq rfl rfl rfl rfl rfl
    intro t
    show (sd.farms.insert id _).sum _ + _ = _
    rw [sd.farms.sum_insert_same _ id f { f with daily := n } hf rfl]
    rfl
  | lockingPolicy d r =>
    unpack at he
    obtain ⟨_, rfl⟩ := he
    exact (Effect.refl h).of_eq rfl rfl rfl rfl rfl
  | maxFarmsPerSeed n =>
    cases he
    exact (Effect.refl h).of_eq rfl rfl rfl rfl rfl
  | defaultSlashRate n =>
    unpack at he
    obtain ⟨_, rfl⟩ := he
    exact (Effect.refl h).of_eq rfl rfl rfl rfl rfl
  | minDeposit s n =>
    unpack at he
    obtain ⟨sd, hsd, rfl⟩ := he
    exact Edit.effect_same h hsd rfl rfl rfl rfl rfl
  | minLocking s n =>
    unpack at he
    obtain ⟨_, sd, hsd, rfl⟩ := he
    exact Edit.effect_same h hsd rfl rfl rfl rfl rfl
  | slashRate s n =>
    unpack at he
    obtain ⟨sd, hsd, rfl⟩ := he
    exact Edit.effect_same h hsd rfl rfl rfl rfl rfl
  | booster s b =>
    unpack at he
    obtain ⟨sd, hsd, hself, _, n, _, _, rfl⟩ := he
    have e := Effect.refl h
    refine ⟨⟨h.ids, h.amount, h.power, h.orphan, h.farmIds, h.outIds, h.rps, ?_, h.outBooks, ?_,
      h.rewards, h.x⟩, e.amount, e.total, e.stake, e.more, e.paid⟩
    · intro s sd id f hs hf
      have b := h.books s sd id f hs hf
      exact ⟨b.le, b.zero, b.owed⟩
    · intro k b' hk
      change (c.cfg.boosters.insert s b).get? k = some b' at hk
      rw [FMap.get?_insert] at hk
      split at hk
      · cases hk
        subst_vars
        unfold FMap.contains at hself
        cases hg : b.affected.get? k with
        | none => rfl
        | some n => rw [hg] at hself; cases hself
      · exact h.boost k b' hk

theorem FMap_size_zero {K V : Type} [DecidableEq K] {m : FMap K V} (h : m.size = 0) (k : K) :
    m.get? k = none := by
  obtain ⟨l, hl⟩ := m
  cases l with
  | nil => rfl
  | cons p l => simp [FMap.size] at h

theorem Contract.storageDeposit_effect {fl : Floats} {c c' : Contract} (h : Inv fl c) {x : Ctx}
    {a : Option AccountId} {o : List Out} (he : c.storageDeposit x a = .ok (c', o)) :
    Effect fl c none none (fun _ => 0) (fun _ => 0) c' := by
  unfold storageDeposit assertRunning at he
  unpack at he
  obtain ⟨_, he⟩ := he
  split at he
  · unpack at he
    obtain ⟨rfl, _⟩ := he
    exact Effect.refl h
  · rename_i hno
    unpack at he
    obtain ⟨_, _, rfl, _⟩ := he
    have hno : c.farmers.get? (a.getD x.pred) = none := by
      unfold FMap.contains at hno
      cases hg : c.farmers.get? (a.getD x.pred) with
      | none => rfl
      | some u => rw [hg] at hno; exact absurd rfl hno
    have fget : ∀ {b ub}, (c.farmers.insert (a.getD x.pred) ⟨x.pred, FMap.empty, FMap.empty⟩).get? b =
        some ub → c.farmers.get? b = some ub ∨ ub = ⟨x.pred, FMap.empty, FMap.empty⟩ := by
      intro b ub hb
      rw [FMap.get?_insert] at hb
      split at hb
      · cases hb; exact .inr rfl
      · exact .inl hb
    have sum : ∀ F : AccountId → Farmer → Nat,
        F (a.getD x.pred) ⟨x.pred, FMap.empty, FMap.empty⟩ = 0 →
        (c.farmers.insert (a.getD x.pred) ⟨x.pred, FMap.empty, FMap.empty⟩).sum F = c.farmers.sum F := by
      intro F hF
      have := c.farmers.sum_insert F (a.getD x.pred) ⟨x.pred, FMap.empty, FMap.empty⟩
      rw [FMap.term_none _ hno, hF] at this
      omega
    have same : ∀ b t, ({ c.setFarmer (a.getD x.pred) ⟨x.pred, FMap.empty, FMap.empty⟩ with
        farmerCount := c.farmerCount + 1 } : Contract).rewardOf b t = c.rewardOf b t := by
      intro b t
      unfold rewardOf
      show (match (c.farmers.insert _ _).get? b with | some u => u.rewards.getD t 0 | none => 0) = _
      by_cases hb : b = a.getD x.pred
      · subst hb
        rw [FMap.get?_insert_self, hno]
        rfl
      · rw [FMap.get?_insert_ne _ _ hb]
        rfl
    refine ⟨⟨h.ids, ?_, ?_, ?_, h.farmIds, h.outIds, ?_, ?_, h.outBooks, h.boost, ?_, ?_⟩,
      fun _ => rfl, fun _ => rfl, ?_, fun b t => (same b t).ge, fun b t _ => same b t⟩
    · intro s sd hs
      rw [h.amount s sd hs]
      exact (sum _ rfl).symm
    · intro s sd hs
      rw [h.power s sd hs]
      exact (sum _ (FarmerSeed.pow_zero rfl)).symm
    · intro b ub s hb hs
      rcases fget hb with hb | rfl
      · exact h.orphan _ _ _ hb hs
      · rfl
    · intro b ub s v id r hb hv hr
      rcases fget hb with hb | rfl
      · exact h.rps _ _ _ _ _ _ hb hv hr
      · cases hv
    · intro s sd id f hs hf
      have b := h.books s sd id f hs hf
      refine ⟨b.le, b.zero, ?_⟩
      have e := sum (fun _ u => (u.stakeIn s).pow fl * (f.rps - (u.stakeIn s).userRps.getD id 0))
        (by rw [show (Farmer.stakeIn _ s).pow fl = 0 from FarmerSeed.pow_zero rfl, Nat.zero_mul])
      show _ + (c.farmers.insert _ _).sum _ ≤ _
      rw [e]
      exact b.owed
    · intro t
      have := h.rewards t
      have e := sum (fun _ u => u.rewards.getD t 0) rfl
      show (c.farmers.insert _ _).sum _ = c.claimedOf t
      rw [e]
      exact this
    · intro b ub s v hb hv
      rcases fget hb with hb | rfl
      · exact h.x _ _ _ _ hb hv
      · cases hv
    · intro b s _
      unfold stakeOf
      show FarmerSeed.SameStake _ (match (c.farmers.insert _ _).get? b with
        | some u => u.stakeIn s | none => FarmerSeed.zero)
      by_cases hb : b = a.getD x.pred
      · subst hb
        rw [FMap.get?_insert_self, hno]
        exact .refl _
      · rw [FMap.get?_insert_ne _ _ hb]
        exact .refl _

theorem Contract.storageUnregister_effect {fl : Floats} {c c' : Contract} (h : Inv fl c) {x : Ctx}
    {o : List Out} (he : c.storageUnregister x = .ok (c', o)) :
    Effect fl c none none (fun _ => 0) (fun _ => 0) c' := by
  unfold storageUnregister oneYocto assertRunning at he
  unpack at he
  obtain ⟨_, _, he⟩ := he
  split at he
  · unpack at he
    obtain ⟨rfl, _⟩ := he
    exact Effect.refl h
  · rename_i u hu
    unpack at he
    obtain ⟨hr, hs, _, rfl, _⟩ := he
    have hz : ∀ s, u.stakeIn s = FarmerSeed.zero := fun s => Farmer.stakeIn_none (FMap_size_zero hs s)
    have fget : ∀ {b ub}, (c.farmers.erase x.pred).get? b = some ub → c.farmers.get? b = some ub := by
      intro b ub hb
      rw [FMap.get?_erase] at hb
      split at hb
      · cases hb
      · exact hb
    have sum : ∀ F : AccountId → Farmer → Nat, F x.pred u = 0 →
        (c.farmers.erase x.pred).sum F = c.farmers.sum F := by
      intro F hF
      have := c.farmers.sum_erase F x.pred
      rw [FMap.term_some _ hu, hF] at this
      omega
    have same : ∀ b t, ({ c with farmers := c.farmers.erase x.pred, farmerCount := c.farmerCount - 1 } :
        Contract).rewardOf b t = c.rewardOf b t := by
      intro b t
      unfold rewardOf
      show (match (c.farmers.erase x.pred).get? b with | some u => u.rewards.getD t 0 | none => 0) = _
      by_cases hb : b = x.pred
      · subst hb
        rw [FMap.get?_erase_self, hu]
        show 0 = u.rewards.getD t 0
        unfold FMap.getD
        rw [FMap_size_zero hr]
        rfl
      · rw [FMap.get?_erase_ne _ hb]
        rfl
    refine ⟨⟨h.ids, ?_, ?_, ?_, h.farmIds, h.outIds, ?_, ?_, h.outBooks, h.boost, ?_, ?_⟩,
      fun _ => rfl, fun _ => rfl, ?_, fun b t => (same b t).ge, fun b t _ => same b t⟩
    · intro s sd hs
      rw [h.amount s sd hs]
      exact (sum _ (by rw [hz s]; rfl)).symm
    · intro s sd hs
      rw [h.power s sd hs]
      exact (sum _ (by rw [hz s]; exact FarmerSeed.pow_zero rfl)).symm
    · intro b ub s hb hs
      exact h.orphan _ _ _ (fget hb) hs
    · intro b ub s v id r hb hv hr
      exact h.rps _ _ _ _ _ _ (fget hb) hv hr
    · intro s sd id f hs hf
      have b := h.books s sd id f hs hf
      refine ⟨b.le, b.zero, ?_⟩
      have e := sum (fun _ u => (u.stakeIn s).pow fl * (f.rps - (u.stakeIn s).userRps.getD id 0))
        (by rw [hz s, show FarmerSeed.zero.pow fl = 0 from FarmerSeed.pow_zero rfl, Nat.zero_mul])
      show _ + (c.farmers.erase _).sum _ ≤ _
      rw [e]
      exact b.owed
    · intro t
      have := h.rewards t
      have e := sum (fun _ u => u.rewards.getD t 0) (by
        unfold FMap.getD; rw [FMap_size_zero hr]; rfl)
      show (c.farmers.erase _).sum _ = c.claimedOf t
      rw [e]
      exact this
    · intro b ub s v hb hv
      exact h.x _ _ _ _ (fget hb) hv
    · intro b s _
      unfold stakeOf
      show FarmerSeed.SameStake _ (match (c.farmers.erase x.pred).get? b with
        | some u => u.stakeIn s | none => FarmerSeed.zero)
      by_cases hb : b = x.pred
      · subst hb
        rw [FMap.get?_erase_self, hu]
        simp only [hz s]
        exact .refl _
      · rw [FMap.get?_erase_ne _ hb]
        exact .refl _

/-! ### All calls -/

theorem Contract.exec_effect {fl : Floats} {c c' : Contract} (h : Inv fl c) {x : Ctx} {k : Call}
    {o : List Out} (he : c.exec fl x k = .ok (c', o)) :
    Effect fl c (k.about x) (k.actor x) (k.stakedIn x) (k.rewardIn x) c' := by
  cases k with
  | ftOnTransfer a n m =>
    simp only [exec] at he
    unpack at he
    obtain ⟨_, c1, he, rfl, _⟩ := he
    unfold ftOnTransfer assertRunning at he
    unpack at he
    obtain ⟨_, he⟩ := he
    cases m with
    | free => exact stakeFree_effect h he
    | lock d => exact stakeLock_effect h he
    | reward id => exact depositReward_effect h he
    | bad => cases he
  | mftOnTransfer tid a n m =>
    simp only [exec] at he
    unpack at he
    obtain ⟨_, c1, he, rfl, _⟩ := he
    unfold mftOnTransfer assertRunning at he
    unpack at he
    obtain ⟨_, he⟩ := he
    split at he
    · cases m with
      | free => exact stakeFree_effect h he
      | lock d => exact stakeLock_effect h he
      | reward id => cases he
      | bad => cases he
    · cases he
  | lockFreeSeed s d n =>
    simp only [exec] at he
    unpack at he
    obtain ⟨c1, he, rfl, _⟩ := he
    exact lockFree_effect h he
  | forceUnlock s n =>
    simp only [exec] at he
    unpack at he
    obtain ⟨c1, he, rfl, _⟩ := he
    exact forceUnlock_effect h he
  | claimReward s =>
    simp only [exec] at he
    unpack at he
    obtain ⟨c1, he, rfl, _⟩ := he
    exact claim_effect h he
  | createSeed s d m l =>
    simp only [exec] at he
    unpack at he
    obtain ⟨c1, he, rfl, _⟩ := he
    exact createSeed_effect h he
  | createFarm s t a d =>
    simp only [exec] at he
    unpack at he
    obtain ⟨c1, he, rfl, _⟩ := he
    exact createFarm_effect h he
  | cancelFarm id =>
    simp only [exec] at he
    unpack at he
    obtain ⟨c1, he, rfl, _⟩ := he
    exact cancelFarm_effect h he
  | removeFarm id =>
    simp only [exec] at he
    unpack at he
    obtain ⟨c1, he, rfl, _⟩ := he
    obtain ⟨_, _, _, _, _, _, _, _, _, e⟩ := removeFarm_ok h he
    exact e
  | setting k =>
    simp only [exec] at he
    unpack at he
    obtain ⟨c1, he, rfl, _⟩ := he
    exact setting_effect h he
  | setOwner a =>
    simp only [exec, setOwner, oneYocto, assertOwner] at he
    unpack at he
    obtain ⟨_, _, rfl, _⟩ := he
    exact (Effect.refl h).of_eq rfl rfl rfl rfl rfl
  | setRunning b =>
    simp only [exec, setRunning, oneYocto, assertOwner] at he
    unpack at he
    obtain ⟨_, _, rfl, _⟩ := he
    exact (Effect.refl h).of_eq rfl rfl rfl rfl rfl
  | extendOperators l =>
    simp only [exec, extendOperators, oneYocto, assertOwner] at he
    unpack at he
    obtain ⟨_, _, rfl, _⟩ := he
    exact (Effect.refl h).of_eq rfl rfl rfl rfl rfl
  | removeOperators l =>
    simp only [exec] at he
    unpack at he
    obtain ⟨c1, he, rfl, _⟩ := he
    unfold removeOperators oneYocto assertOwner at he
    unpack at he
    obtain ⟨_, _, _, _, rfl⟩ := he
    exact (Effect.refl h).of_eq rfl rfl rfl rfl rfl
  | storageDeposit a => exact storageDeposit_effect h he
  | storageUnregister => exact storageUnregister_effect h he

theorem Inv.init (fl : Floats) (owner : AccountId) : Inv fl (Contract.init owner) := by
  constructor
  · intro s sd hs; cases hs
  · intro s sd hs; cases hs
  · intro s sd hs; cases hs
  · intro a u s hu; cases hu
  · intro s sd id f hs; cases hs
  · intro id f hf; cases hf
  · intro a u s v id r hu; cases hu
  · intro s sd id f hs; cases hs
  · intro id f hf; cases hf
  · intro k b hk; cases hk
  · intro t; rfl
  · intro a u s v hu; cases hu

theorem Inv.step {fl : Floats} {c : Contract} (h : Inv fl c) (e : Event) : Inv fl (c.step fl e) := by
  unfold Contract.step
  split
  · rename_i c' o he
    exact (Contract.exec_effect h he).inv
  · exact h

theorem Inv.run {fl : Floats} : ∀ {es : List Event} {c : Contract}, Inv fl c → Inv fl (c.run fl es) := by
  intro es
  induction es with
  | nil => intro c h; exact h
  | cons e es ih => intro c h; exact ih (h.step e)

theorem Contract.Reachable.inv {fl : Floats} {c : Contract} (h : c.Reachable fl) : Inv fl c := by
  obtain ⟨owner, es, rfl⟩ := h
  exact (Inv.init fl owner).run

end Verif.Boost

import Verif.Boost.StakeProps

/-
C98 and C99: rewards of the boost farming contract.
-/

namespace Verif.Boost

open Demo

/-- What the successful calls of a history have deposited as reward in a token. -/
def Contract.rewardBy (fl : Floats) (c : Contract) (t : AccountId) : List Event → Nat
  | [] => 0
  | e :: es => (if (c.exec fl e.x e.k).isOk then e.k.rewardIn e.x t else 0) +
      (c.step fl e).rewardBy fl t es

/-- What a farmer has earned in a farm since the last claim. -/
def Contract.earnedOf (fl : Floats) (u : Farmer) (s : SeedId) (id : FarmId) (f : SeedFarm) : Nat :=
  (u.stakeIn s).earned ((u.stakeIn s).pow fl) id f

/-- What the farms still owe in a token: what the farmers have earned and not claimed, and what
belongs to the beneficiary. -/
def Contract.owes (fl : Floats) (c : Contract) (t : AccountId) : Nat :=
  c.seeds.sum (fun s sd => sd.farms.sum fun id f =>
    if f.token = t then f.beneficiary + c.farmers.sum (fun _ u => earnedOf fl u s id f) else 0) +
  c.outdated.sum fun _ f => if f.token = t then f.beneficiary else 0

namespace Contract

theorem total_run {fl : Floats} : ∀ {es : List Event} {c : Contract}, Inv fl c → ∀ t,
    (c.run fl es).totalOf t = c.totalOf t + c.rewardBy fl t es := by
  intro es
  induction es with
  | nil => intro c _ s; rfl
  | cons e es ih =>
    intro c h s
    have h1 := ih (h.step e) s
    simp only [run, rewardBy]
    rw [h1]
    unfold step
    cases he : c.exec fl e.x e.k with
    | error er => simp [Except.isOk, Except.toBool]
    | ok p =>
      obtain ⟨c', o⟩ := p
      have := (exec_effect h he).total s
      simp only [Except.isOk, Except.toBool, if_true]
      omega

theorem Inv.owes_le {fl : Floats} {c : Contract} (h : Inv fl c) (t : AccountId) :
    c.credited t + c.owes fl t ≤ c.totalOf t := by
  rw [h.rewards t]
  unfold claimedOf owes totalOf
  have h1 : c.outdated.sum (fun _ => SeedFarm.claimedIn t) +
      c.outdated.sum (fun _ f => if f.token = t then f.beneficiary else 0) ≤
      c.outdated.sum fun _ => SeedFarm.totalIn t := by
    rw [← FMap.sum_add]
    refine FMap.sum_le _ _ _ fun id f hf => ?_
    have := h.outBooks id f hf
    unfold SeedFarm.claimedIn SeedFarm.totalIn
    split <;> omega
  have h2 : c.seeds.sum (fun _ sd => sd.farms.sum fun _ => SeedFarm.claimedIn t) +
      c.seeds.sum (fun s sd => sd.farms.sum fun id f => if f.token = t then
        f.beneficiary + c.farmers.sum (fun _ u => earnedOf fl u s id f) else 0) ≤
      c.seeds.sum fun _ sd => sd.farms.sum fun _ => SeedFarm.totalIn t := by
    rw [← FMap.sum_add]
    refine FMap.sum_le _ _ _ fun s sd hs => ?_
    rw [← FMap.sum_add]
    refine FMap.sum_le _ _ _ fun id f hf => ?_
    unfold SeedFarm.claimedIn SeedFarm.totalIn
    split
    · have b := h.books s sd id f hs hf
      have hle : c.farmers.sum (fun _ u => earnedOf fl u s id f) * D27 ≤ c.pending fl s id f := by
        rw [← FMap.sum_mul]
        refine FMap.sum_le _ _ _ fun a u _ => ?_
        unfold earnedOf FarmerSeed.earned
        rw [Nat.mul_comm ((u.stakeIn s).pow fl)]
        exact Nat.div_mul_le_self _ _
      have h0 : 0 < D27 := by decide
      have h3 : D27 * (f.claimed + (f.beneficiary +
          c.farmers.sum fun _ u => earnedOf fl u s id f)) ≤ D27 * f.distributed := by
        refine Nat.le_trans ?_ b.owed
        rw [Nat.mul_comm _ D27] at hle
        rw [← Nat.add_assoc, Nat.mul_add]
        omega
      exact Nat.le_trans (Nat.le_of_mul_le_mul_left h3 h0) b.le
    · omega
  omega

/-- **C98.** In every token, what the farmers have been credited, what they have earned and not yet
claimed and what belongs to the beneficiary is together at most what has been deposited as reward. -/
theorem C98_covered {fl : Floats} (owner : AccountId) (es : List Event) (t : AccountId) :
    ((init owner).run fl es).farmers.sum (fun _ u => u.rewards.getD t 0) +
      ((init owner).run fl es).owes fl t ≤ (init owner).rewardBy fl t es := by
  have h := Inv.owes_le ((Inv.init fl owner).run (es := es)) t
  have h2 := total_run (es := es) (Inv.init fl owner) t
  have h0 : (init owner).totalOf t = 0 := rfl
  unfold credited at h
  omega

example : (init own).rewardBy fl T (setup ++ [⟨at' 1003 al, .claimReward S⟩,
    ⟨at' 1004 L, .ftOnTransfer al 4 .free⟩, ⟨y 1005 bo, .forceUnlock S 500⟩]) = 1000 ∧
    c4.credited T = 330 ∧ c4.owes fl T = 100 + 69 := by decide +kernel

/-- **C98.** What a farm owes is covered farm by farm: no farm pays from the reward of another. -/
theorem C98_each_farm {fl : Floats} {c : Contract} (h : c.Reachable fl) {s : SeedId} {sd : Seed}
    {id : FarmId} {f : SeedFarm} (hs : c.seeds.get? s = some sd) (hf : sd.farms.get? id = some f) :
    f.claimed + f.beneficiary + c.farmers.sum (fun _ u => earnedOf fl u s id f) ≤ f.distributed ∧
    f.distributed ≤ f.total := by
  have b := h.inv.books s sd id f hs hf
  refine ⟨?_, b.le⟩
  have hle : c.farmers.sum (fun _ u => earnedOf fl u s id f) * D27 ≤ c.pending fl s id f := by
    rw [← FMap.sum_mul]
    refine FMap.sum_le _ _ _ fun a u _ => ?_
    unfold earnedOf FarmerSeed.earned
    rw [Nat.mul_comm ((u.stakeIn s).pow fl)]
    exact Nat.div_mul_le_self _ _
  have h0 : 0 < D27 := by decide
  refine Nat.le_of_mul_le_mul_left ?_ h0
  refine Nat.le_trans ?_ b.owed
  rw [Nat.mul_comm _ D27] at hle
  rw [Nat.mul_add]
  omega

example : ((c4.seeds.get? S).bind fun sd => sd.farms.get? F).map
    (fun f => (f.claimed, f.beneficiary, f.distributed, f.total)) = some (330, 100, 500, 1000) := by
  decide +kernel

/-- **C98.** A farmer's rewards never become less, and only the farmer's own calls and stakes change
them. -/
theorem C98_rewards_kept {fl : Floats} {c : Contract} (h : c.Reachable fl) (e : Event)
    (a t : AccountId) : c.rewardOf a t ≤ (c.step fl e).rewardOf a t ∧
    (e.k.actor e.x ≠ some a → (c.step fl e).rewardOf a t = c.rewardOf a t) := by
  unfold step
  cases he : c.exec fl e.x e.k with
  | error er => exact ⟨Nat.le_refl _, fun _ => rfl⟩
  | ok p =>
    obtain ⟨c', o⟩ := p
    exact ⟨(exec_effect h.inv he).more a t, (exec_effect h.inv he).paid a t⟩

example : c2.rewardOf al T = 120 ∧ c3.rewardOf al T = 180 ∧ c3.rewardOf bo T = 0 ∧
    c4.rewardOf bo T = 150 := by decide +kernel

/-- **C99.** A claim credits in every token what the view of unclaimed rewards shows. -/
theorem C99_claim {fl : Floats} {c c' : Contract} (h : c.Reachable fl) {x : Ctx} {s : SeedId}
    {o : List Out} (he : c.exec fl x (.claimReward s) = .ok (c', o)) :
    ∃ m, c.unclaimed fl x.now x.pred s = .ok m ∧
      ∀ t, c'.rewardOf x.pred t = c.rewardOf x.pred t + m.getD t 0 := by
  simp only [exec] at he
  unpack at he
  obtain ⟨c1, he, rfl, _⟩ := he
  obtain ⟨u, sd, u', sd', hu, hsd, hcl, _, _, rfl, _⟩ := claimReward_ok h.inv he
  unfold doClaim at hcl
  unpack at hcl
  obtain ⟨v, k, hcalc, rw', hrw, _, _, _, _, _, _, _, _, _, _, rfl, _⟩ := hcl
  refine ⟨k.rewards, ?_, fun t => ?_⟩
  · unfold unclaimed farmer
    rw [hu, hsd]
    simp only [expectE, ok_bind, hcalc]
  · have h1 := addRewards_ok hrw t
    have h2 := k.rewards.sum_key t
    unfold FMap.sum at h2
    unfold rewardOf
    show (match (c.farmers.insert x.pred _).get? x.pred with | some u => u.rewards.getD t 0 | none => 0) = _
    rw [FMap.get?_insert_self, hu]
    simp only
    rw [h1]
    exact congrArg (_ + ·) h2

/-- **C99.** After a claim there is nothing left to claim at that time. -/
theorem C99_nothing_left {fl : Floats} {c c' : Contract} (h : c.Reachable fl) {x : Ctx} {s : SeedId}
    {o : List Out} (he : c.exec fl x (.claimReward s) = .ok (c', o)) {sd : Seed} {id : FarmId}
    {f : SeedFarm} {u : Farmer} (hs : c'.seeds.get? s = some sd) (hf : sd.farms.get? id = some f)
    (hu : c'.farmers.get? x.pred = some u) : earnedOf fl u s id f = 0 := by
  simp only [exec] at he
  unpack at he
  obtain ⟨c1, he, rfl, _⟩ := he
  obtain ⟨u0, sd0, u', sd', hu0, hsd, _, hid, cl, rfl, hi⟩ := claimReward_ok h.inv he
  change (c.seeds.insert s sd').get? s = _ at hs
  change (c.farmers.insert x.pred u').get? x.pred = _ at hu
  rw [FMap.get?_insert_self] at hs hu
  cases hs
  cases hu
  obtain ⟨w, hw, _, _, hr, _⟩ := cl.stake
  cases hf0 : sd0.farms.get? id with
  | none => rw [cl.gone id hf0] at hf; cases hf
  | some f0 =>
    obtain ⟨_, hf1⟩ := cl.farm id f0 hf0
    rw [hf] at hf1
    cases hf1
    have hr := hr id f0 hf0
    rw [hid] at hw
    unfold earnedOf FarmerSeed.earned
    rw [Farmer.stakeIn_some hw]
    unfold FMap.getD
    rw [hr]
    by_cases ht : 0 < f0.total
    · rw [if_pos ht]
      simp
    · rw [if_neg ht]
      have := (hi.books s sd id _ (FMap.get?_insert_self _ _ _) hf).zero (by simp only; omega)
      simp only at this
      simp [this]

example : (c1.exec fl (at' 1003 al) (.claimReward S)).isOk = true ∧
    (c1.unclaimed fl (at' 1003 al).now al S).toOption.map (·.getD T 0) = some 120 ∧
    c1.rewardOf al T = 0 ∧ c2.rewardOf al T = 120 ∧
    (c2.unclaimed fl (at' 1003 al).now al S).toOption.map (·.getD T 0) = some 0 := by decide +kernel

/-- What a farm releases between its last update and `now`: its daily reward in proportion to the
time, as long as there is something left. -/
def _root_.Verif.Boost.SeedFarm.due (now : Nat) (f : SeedFarm) : Nat :=
  min (f.total - f.distributed) (f.daily * (now - f.distributedAt) / (24 * 60 * 60 * 10 ^ 9))

theorem _root_.Verif.Boost.SeedFarm.update_due {now power : Nat} {f g : SeedFarm}
    (h : f.update now power = .ok g) (hs : f.status now = .running) (hn : f.distributedAt < now)
    (hp : 0 < power) :
    g = { f with
      distributed := f.distributed + f.due now,
      rps := f.rps + f.due now * D27 / power,
      distributedAt := now } := by
  unfold SeedFarm.update at h
  rw [if_neg (by omega), hs] at h
  simp only at h
  unpack at h
  obtain ⟨r, hr, _, h⟩ := h
  unfold SeedFarm.release at hr
  unpack at hr
  obtain ⟨_, q, hq, hr⟩ := hr
  unfold u128Ratio at hq
  unpack at hq
  rw [if_pos hp] at h
  unpack at h
  obtain ⟨_, rfl⟩ := h
  obtain rfl : r = f.due now := by
    unfold SeedFarm.due
    omega
  rfl

theorem share {D P p q e r : Nat} (hD : 0 < D) (hP : 0 < P) (hq : q = r * D / P)
    (he : e = q * p / D) (hp : p ≤ D) : e * P ≤ r * p ∧ r * p < (e + 2) * P := by
  have h1 : q * P ≤ r * D := by rw [hq]; exact Nat.div_mul_le_self _ _
  have h2 : r * D < (q + 1) * P := by
    rw [hq, Nat.mul_comm _ P]
    exact Nat.lt_mul_div_succ _ hP
  have h3 : e * D ≤ q * p := by rw [he]; exact Nat.div_mul_le_self _ _
  have h4 : q * p < (e + 1) * D := by
    rw [he, Nat.mul_comm _ D]
    exact Nat.lt_mul_div_succ _ hD
  constructor
  · refine Nat.le_of_mul_le_mul_right (c := D) ?_ hD
    calc e * P * D = e * D * P := by ring
      _ ≤ q * p * P := Nat.mul_le_mul_right _ h3
      _ = q * P * p := by ring
      _ ≤ r * D * p := Nat.mul_le_mul_right _ h1
      _ = r * p * D := by ring
  · refine Nat.lt_of_mul_lt_mul_right (a := D) ?_
    calc r * p * D = r * D * p := by ring
      _ ≤ (q + 1) * P * p := Nat.mul_le_mul_right _ (Nat.le_of_lt h2)
      _ = q * p * P + P * p := by ring
      _ < (e + 1) * D * P + P * p := Nat.add_lt_add_right (Nat.mul_lt_mul_of_pos_right h4 hP) _
      _ ≤ (e + 1) * D * P + P * D := Nat.add_le_add_left (Nat.mul_le_mul_left _ hp) _
      _ = (e + 2) * P * D := by ring

/-- **C99.** What a farm releases is shared by power. When a farmer who had claimed up to the farm's
last update claims again, the farm pays the share of the farmer's power in the seed's power of what it
has released since then, rounded down by less than two units. -/
theorem C99_share {fl : Floats} {c c' : Contract} (h : c.Reachable fl) {x : Ctx} {s : SeedId}
    {o : List Out} (he : c.exec fl x (.claimReward s) = .ok (c', o)) {sd : Seed} {id : FarmId}
    {f : SeedFarm} (hs : c.seeds.get? s = some sd) (hf : sd.farms.get? id = some f)
    (hrun : f.status x.now = .running) (hnow : f.distributedAt < x.now) (hpow : 0 < sd.power)
    (hsync : (c.stakeOf x.pred s).userRps.getD id 0 = f.rps)
    (hp : (c.stakeOf x.pred s).pow fl ≤ D27) :
    ∃ sd' f' pay, c'.seeds.get? s = some sd' ∧ sd'.farms.get? id = some f' ∧
      f'.claimed = f.claimed + pay ∧
      pay * sd.power ≤ f.due x.now * (c.stakeOf x.pred s).pow fl ∧
      f.due x.now * (c.stakeOf x.pred s).pow fl < (pay + 2) * sd.power := by
  simp only [exec] at he
  unpack at he
  obtain ⟨c1, he, rfl, _⟩ := he
  obtain ⟨u, sd1, u', sd', hu, hsd, _, hid, cl, rfl, hi⟩ := claimReward_ok h.inv he
  obtain ⟨old, hold, up⟩ := Contract.seed_ok hsd
  rw [hs] at hold
  cases hold
  obtain ⟨g, hg, _⟩ := up.kept id f hf
  obtain ⟨f0, hf0, hupd⟩ := up.inv id g hg
  rw [hf] at hf0
  cases hf0
  have hdue := SeedFarm.update_due hupd hrun hnow hpow
  obtain ⟨_, hf1⟩ := cl.farm id g hg
  have hst : c.stakeOf x.pred s = u.stakeIn sd1.id := by unfold stakeOf; rw [hu, hid]
  refine ⟨sd', _, _, FMap.get?_insert_self _ _ _, hf1,
    congrArg (· + _) (by rw [hdue]), ?_⟩
  rw [hst] at hsync hp ⊢
  have hq : g.rps - (u.stakeIn sd1.id).userRps.getD id 0 = f.due x.now * D27 / sd.power := by
    rw [hsync, hdue]
    exact Nat.add_sub_cancel_left ..
  refine share (D := D27) (q := f.due x.now * D27 / sd.power) (by decide) hpow rfl ?_ hp
  unfold FarmerSeed.earned
  rw [hq]

example : (c2.exec fl (at' 1004 al) (.claimReward S)).isOk = true ∧
    ((c2.seeds.get? S).bind fun sd => sd.farms.get? F).map
      (fun f => (f.status (at' 1004 al).now, f.distributedAt, f.due (at' 1004 al).now,
        decide ((c2.stakeOf al S).userRps.getD F 0 = f.rps))) =
      some (.running, 1003 * 10 ^ 9, 100, true) ∧
    (c2.stakeOf al S).pow fl = 3000 ∧ (c2.seeds.get? S).map Seed.power = some 5000 := by decide +kernel

/-- **C99, finding.** Removing an ended farm takes what the farmers had earned and not claimed: it goes
to the beneficiary. -/
example : ((c4.step fl ⟨at' 1100 al, .claimReward S⟩).unclaimed fl (at' 1100 al).now bo S).toOption.map
      (·.getD T 0) = some 124 ∧
    (c5.unclaimed fl (at' 1101 al).now bo S).toOption.map (·.getD T 0) = some 0 ∧
    (c5.outdated.get? F).map (fun f => (f.claimed, f.beneficiary)) = some (774, 226) := by decide +kernel

end Contract

end Verif.Boost

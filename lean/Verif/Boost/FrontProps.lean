import Verif.Boost.Shown
import Verif.Boost.AllPaidProps
import Verif.Boost.RewardProps

/-
C106: nobody can dilute or take what a farmer of the boost farming contract has earned by acting just
before the claim.
-/

namespace Verif

open Finset in
theorem FMap.sum_le_terms {K V W : Type} [DecidableEq K] {m : FMap K V} {m' : FMap K W}
    {f : K → V → Nat} {g : K → W → Nat} (h : ∀ k, m.term f k ≤ m'.term g k) : m.sum f ≤ m'.sum g := by
  have key : ∀ {X : Type} (n : FMap K X) (e : K → X → Nat) (S : Finset K), n.keys.toFinset ⊆ S →
      n.sum e = ∑ k ∈ S, n.term e k := by
    intro X n e S hS
    have h1 : n.sum e = ∑ k ∈ n.keys.toFinset, n.term e k := by
      unfold FMap.sum FMap.keys
      rw [List.sum_toFinset _ n.nodup, List.map_map]
      congr 1
      refine List.map_congr_left fun p hp => ?_
      exact (n.term_some e ((n.mem_entries_iff (k := p.1) (v := p.2)).1 hp)).symm
    rw [h1]
    refine Finset.sum_subset hS fun k _ hk => ?_
    cases hx : n.get? k with
    | none => exact FMap.term_none _ hx
    | some v =>
      refine absurd ?_ hk
      rw [List.mem_toFinset]
      exact List.mem_map.2 ⟨(k, v), (n.mem_entries_iff).2 hx, rfl⟩
  rw [key m f (m.keys.toFinset ∪ m'.keys.toFinset) Finset.subset_union_left,
    key m' g (m.keys.toFinset ∪ m'.keys.toFinset) Finset.subset_union_right]
  exact Finset.sum_le_sum fun k _ => h k

theorem FMap.sum_eq_terms {K V W : Type} [DecidableEq K] {m : FMap K V} {m' : FMap K W}
    {f : K → V → Nat} {g : K → W → Nat} (h : ∀ k, m.term f k = m'.term g k) : m.sum f = m'.sum g :=
  Nat.le_antisymm (FMap.sum_le_terms fun k => (h k).le) (FMap.sum_le_terms fun k => (h k).ge)

namespace Boost

namespace Contract

variable {fl : Floats} {c c' : Contract}

/-- What a claim pays: farm by farm and in every token. -/
theorem claim_pays (hI : Inv fl c) {x : Ctx} {s : SeedId} {o : List Out}
    (he : c.exec fl x (.claimReward s) = .ok (c', o)) :
    ∃ old sd, c.seeds.get? s = some old ∧ old.Updates x.now sd ∧ c.seed x.now s = .ok sd ∧
      (∀ t, c'.rewardOf x.pred t = c.rewardOf x.pred t + sd.farms.sum (fun id g => if g.token = t then
        (c.stakeOf x.pred s).earned ((c.stakeOf x.pred s).pow fl) id g else 0)) ∧
      ∀ id g, sd.farms.get? id = some g → c'.paidBy s id = c.paidBy s id +
        (c.stakeOf x.pred s).earned ((c.stakeOf x.pred s).pow fl) id g := by
  simp only [exec] at he
  unpack at he
  obtain ⟨c1, he, rfl, _⟩ := he
  obtain ⟨u, sd, u', sd', hu, hsd, _, hid, cl, rfl, _⟩ := claimReward_ok hI he
  obtain ⟨old, hold, up⟩ := Contract.seed_ok hsd
  have hst : c.stakeOf x.pred s = u.stakeIn sd.id := by unfold stakeOf; rw [hu, hid]
  rw [hst]
  refine ⟨old, sd, hold, up, hsd, fun t => ?_, fun id g hg => ?_⟩
  · have h1 := cl.rewards t
    have h2 : sd'.farms.sum (fun _ => SeedFarm.claimedIn t) =
        sd.farms.sum (fun id g => SeedFarm.claimedIn t g + if g.token = t then
          (u.stakeIn sd.id).earned ((u.stakeIn sd.id).pow fl) id g else 0) := by
      refine FMap.sum_eq_terms fun id => ?_
      cases hg : sd.farms.get? id with
      | none => rw [FMap.term_none _ hg, FMap.term_none _ (cl.gone id hg)]
      | some g =>
        rw [FMap.term_some _ hg, FMap.term_some _ (cl.farm id g hg).2]
        unfold SeedFarm.claimedIn
        simp only
        split <;> simp
    rw [FMap.sum_add] at h2
    unfold rewardOf
    show (match (c.farmers.insert x.pred u').get? x.pred with
      | some u => u.rewards.getD t 0 | none => 0) = _
    rw [FMap.get?_insert_self, hu]
    simp only
    omega
  · obtain ⟨f, hf, hupd⟩ := up.inv id g hg
    have h1 : c.paidBy s id = f.claimed := by unfold paidBy; rw [farmOf_of hold, hf]; rfl
    have h2 : ((c.setFarmer x.pred u').setSeed s sd').paidBy s id =
        g.claimed + (u.stakeIn sd.id).earned ((u.stakeIn sd.id).pow fl) id g := by
      unfold paidBy
      rw [farmOf_of (sd := sd') (FMap.get?_insert_self _ _ _), (cl.farm id g hg).2]
      rfl
    rw [h1, h2, (SeedFarm.update_ok hupd).claimed]

/-- The calls of others at one moment: the rate a farm shows and the stake of `a` stay. -/
theorem run_shown {now : Nat} {a : AccountId} : ∀ (es : List Event) {c : Contract}, Inv fl c →
    (∀ e ∈ es, e.x.now = now ∧ e.k.actor e.x ≠ some a) → ∀ {s : SeedId} {sd sd' : Seed} {id : FarmId}
    {f f' g : SeedFarm}, c.seeds.get? s = some sd → sd.farms.get? id = some f → 0 < f.total →
    f.update now sd.power = .ok g → (c.run fl es).seeds.get? s = some sd' →
    sd'.farms.get? id = some f' →
    (c.run fl es).stakeOf a s = c.stakeOf a s ∧
    ∃ g', f'.update now sd'.power = .ok g' ∧ g'.rps = g.rps ∧ g'.token = g.token := by
  intro es
  induction es with
  | nil =>
    intro c _ _ s sd sd' id f f' g hs hf _ hg hs' hf'
    have hrun : c.run fl [] = c := rfl
    rw [hrun] at hs' ⊢
    rw [hs] at hs'
    cases hs'
    rw [hf] at hf'
    cases hf'
    exact ⟨rfl, g, hg, rfl, rfl⟩
  | cons e es ih =>
    intro c hI hes s sd sd' id f f' g hs hf ht hg hs' hf'
    have hrun : c.run fl (e :: es) = (c.step fl e).run fl es := rfl
    rw [hrun] at hs' ⊢
    obtain ⟨hnow, hact⟩ := hes e (by simp)
    obtain ⟨i, hi, rfl⟩ := hI.farmIds s sd id f hs hf
    obtain ⟨sd1, hs1, hm⟩ := step_moves hI e s sd hs
    have hlive : (Contract.run fl (c.step fl e) es).farmOf s (genFarmId s i) = some f' := by
      rw [farmOf_of hs', hf']
    obtain ⟨f1, hf1⟩ := run_live es (hI.step e) hs1 (Nat.lt_of_lt_of_le hi hm.next) hlive
    have mv := step_farm hI e hs hf hf1
    have hst : (c.step fl e).stakeOf a s = c.stakeOf a s := by
      rcases mv.each a with ⟨h1, _⟩ | ⟨h1, _⟩
      · exact h1
      · exact absurd h1 hact
    rw [farmOf_of hs1] at hf1
    have hk : Kept e.x.now c (c.step fl e) := by
      unfold step
      cases he : c.exec fl e.x e.k with
      | error _ => exact .of_eq rfl
      | ok r => exact exec_kept (o := r.2) hI he
    obtain ⟨sd2, hs2, hk⟩ := hk.seed s sd hs
    rw [hs1] at hs2
    cases hs2
    obtain ⟨g1, hg1, h1, h2, h3⟩ : ∃ g1, f1.update now sd1.power = .ok g1 ∧ g1.rps = g.rps ∧
        g1.token = g.token ∧ 0 < f1.total := by
      rcases hk with rfl | ⟨up, hup, hk⟩
      · rw [hf] at hf1
        cases hf1
        exact ⟨g, hg, rfl, rfl, ht⟩
      · rcases hk _ _ hf1 with ⟨j, hj, _, he, _⟩ | ⟨g0, hg0, hk⟩
        · have := (genFarmId_inj he).2
          omega
        · obtain ⟨f0, hf0, hu0⟩ := hup.inv _ g0 hg0
          rw [hf] at hf0
          cases hf0
          rw [hnow] at hu0 hk
          rw [hg] at hu0
          cases hu0
          obtain ⟨g1, e1, e2, e3⟩ := SeedFarm.update_again (p' := sd1.power) hg hk ht
          refine ⟨g1, e1, e2, e3, ?_⟩
          have := (SeedFarm.update_ok hg).total
          have := hk.total
          omega
    obtain ⟨q1, g', q2, q3, q4⟩ := ih (hI.step e) (fun e he => hes e (by simp [he])) hs1 hf1 h3 hg1 hs' hf'
    exact ⟨q1.trans hst, g', q2, q3.trans h1, q4.trans h2⟩

/-- What the claims before and after the calls of others find in a farm. -/
theorem shown_earned (hI : Inv fl c) {now : Nat} {a : AccountId} {es : List Event}
    (hes : ∀ e ∈ es, e.x.now = now ∧ e.k.actor e.x ≠ some a) {s : SeedId} {old sd old' sd' : Seed}
    (hs : c.seeds.get? s = some old) (up : old.Updates now sd)
    (hs' : (c.run fl es).seeds.get? s = some old') (up' : old'.Updates now sd') {id : FarmId}
    {f f' g g' : SeedFarm} (hf : old.farms.get? id = some f) (hf' : old'.farms.get? id = some f')
    (hg : sd.farms.get? id = some g) (hg' : sd'.farms.get? id = some g') (ht : 0 < f.total) :
    g'.token = g.token ∧
    ((c.run fl es).stakeOf a s).earned (((c.run fl es).stakeOf a s).pow fl) id g' =
      (c.stakeOf a s).earned ((c.stakeOf a s).pow fl) id g := by
  obtain ⟨f0, hf0, hu⟩ := up.inv id g hg
  rw [hf] at hf0
  cases hf0
  obtain ⟨f0, hf0, hu'⟩ := up'.inv id g' hg'
  rw [hf'] at hf0
  cases hf0
  obtain ⟨h1, g2, h2, h3, h4⟩ := run_shown es hI hes hs hf ht hu hs' hf'
  rw [hu'] at h2
  cases h2
  refine ⟨h4, ?_⟩
  unfold FarmerSeed.earned
  rw [h1, h3]

/-- **C106.** The claim of a farmer is made at once, or others act first at the same moment: they stake,
lock, unlock, claim, deposit reward, change settings. A farm that has reward and is not removed pays the
farmer the same. -/
theorem C106_farm_pays_same (hr : c.Reachable fl) {x : Ctx} {s : SeedId} {es : List Event}
    (hes : ∀ e ∈ es, e.x.now = x.now ∧ e.k.actor e.x ≠ some x.pred) {c1 c2 : Contract}
    {o1 o2 : List Out} (h1 : c.exec fl x (.claimReward s) = .ok (c1, o1))
    (h2 : (c.run fl es).exec fl x (.claimReward s) = .ok (c2, o2)) {id : FarmId} {f f' : SeedFarm}
    (hf : c.farmOf s id = some f) (ht : 0 < f.total) (hf' : (c.run fl es).farmOf s id = some f') :
    c2.paidBy s id - (c.run fl es).paidBy s id = c1.paidBy s id - c.paidBy s id := by
  obtain ⟨old, sd, hs, up, _, _, hp⟩ := claim_pays hr.inv h1
  obtain ⟨old', sd', hs', up', _, _, hp'⟩ := claim_pays (hr.inv.run (es := es)) h2
  rw [farmOf_of hs] at hf
  rw [farmOf_of hs'] at hf'
  obtain ⟨g, hg, _⟩ := up.kept id f hf
  obtain ⟨g', hg', _⟩ := up'.kept id f' hf'
  rw [hp id g hg, hp' id g' hg', Nat.add_sub_cancel_left, Nat.add_sub_cancel_left]
  exact (shown_earned hr.inv hes hs up hs' up' hf hf' hg hg' ht).2

theorem rewardOf_run {a : AccountId} : ∀ (es : List Event) {c : Contract}, c.Reachable fl →
    (∀ e ∈ es, e.k.actor e.x ≠ some a) → ∀ t, (c.run fl es).rewardOf a t = c.rewardOf a t := by
  intro es
  induction es with
  | nil => intro c _ _ t; rfl
  | cons e es ih =>
    intro c hr hes t
    exact (ih (hr.step e) (fun e he => hes e (by simp [he])) t).trans
      ((C98_rewards_kept hr e a t).2 (hes e (by simp)))

theorem earned_unfunded (hI : Inv fl c) {now : Nat} {s : SeedId} {sd : Seed}
    (hsd : c.seed now s = .ok sd) {id : FarmId} {g : SeedFarm} (hg : sd.farms.get? id = some g)
    (ht : g.total = 0) (v : FarmerSeed) (p : Nat) : v.earned p id g = 0 := by
  unfold FarmerSeed.earned
  rw [hI.loaded_zero hsd id g hg ht]
  simp

/-- **C106.** If no farm of the seed that has reward is removed in between, the farmer is credited at
least as much in every token when others act first. -/
theorem C106_no_less (hr : c.Reachable fl) {x : Ctx} {s : SeedId} {es : List Event}
    (hes : ∀ e ∈ es, e.x.now = x.now ∧ e.k.actor e.x ≠ some x.pred)
    (hlive : ∀ id f, c.farmOf s id = some f → 0 < f.total → ∃ f', (c.run fl es).farmOf s id = some f')
    {c1 c2 : Contract} {o1 o2 : List Out} (h1 : c.exec fl x (.claimReward s) = .ok (c1, o1))
    (h2 : (c.run fl es).exec fl x (.claimReward s) = .ok (c2, o2)) (t : AccountId) :
    c1.rewardOf x.pred t ≤ c2.rewardOf x.pred t := by
  obtain ⟨old, sd, hs, up, hsd, hp, _⟩ := claim_pays hr.inv h1
  obtain ⟨old', sd', hs', up', _, hp', _⟩ := claim_pays (hr.inv.run (es := es)) h2
  rw [hp t, hp' t, rewardOf_run es hr (fun e he => (hes e he).2) t]
  refine Nat.add_le_add_left (FMap.sum_le_terms fun id => ?_) _
  cases hg : sd.farms.get? id with
  | none => rw [FMap.term_none _ hg]; exact Nat.zero_le _
  | some g =>
    rw [FMap.term_some _ hg]
    obtain ⟨f, hf, hu⟩ := up.inv id g hg
    by_cases ht : f.total = 0
    · rw [earned_unfunded hr.inv hsd hg (by rw [(SeedFarm.update_ok hu).total, ht])]
      split <;> exact Nat.zero_le _
    · obtain ⟨f', hf'⟩ := hlive id f (by rw [farmOf_of hs, hf]) (by omega)
      rw [farmOf_of hs'] at hf'
      obtain ⟨g', hg', _⟩ := up'.kept id f' hf'
      obtain ⟨e1, e2⟩ := shown_earned hr.inv hes hs up hs' up' hf hf' hg hg' (by omega)
      rw [FMap.term_some _ hg', e1, e2]

/-- **C106.** If moreover no farm of the seed gets its first reward in between, the farmer is credited
exactly the same. -/
theorem C106_same (hr : c.Reachable fl) {x : Ctx} {s : SeedId} {es : List Event}
    (hes : ∀ e ∈ es, e.x.now = x.now ∧ e.k.actor e.x ≠ some x.pred)
    (hlive : ∀ id f, c.farmOf s id = some f → 0 < f.total → ∃ f', (c.run fl es).farmOf s id = some f')
    (hfirst : ∀ id f', (c.run fl es).farmOf s id = some f' → 0 < f'.total →
      ∃ f, c.farmOf s id = some f ∧ 0 < f.total)
    {c1 c2 : Contract} {o1 o2 : List Out} (h1 : c.exec fl x (.claimReward s) = .ok (c1, o1))
    (h2 : (c.run fl es).exec fl x (.claimReward s) = .ok (c2, o2)) (t : AccountId) :
    c1.rewardOf x.pred t = c2.rewardOf x.pred t := by
  refine Nat.le_antisymm (C106_no_less hr hes hlive h1 h2 t) ?_
  obtain ⟨old, sd, hs, up, _, hp, _⟩ := claim_pays hr.inv h1
  obtain ⟨old', sd', hs', up', hsd', hp', _⟩ := claim_pays (hr.inv.run (es := es)) h2
  rw [hp t, hp' t, rewardOf_run es hr (fun e he => (hes e he).2) t]
  refine Nat.add_le_add_left (FMap.sum_le_terms fun id => ?_) _
  cases hg' : sd'.farms.get? id with
  | none => rw [FMap.term_none _ hg']; exact Nat.zero_le _
  | some g' =>
    rw [FMap.term_some _ hg']
    obtain ⟨f', hf', hu'⟩ := up'.inv id g' hg'
    by_cases ht : f'.total = 0
    · rw [earned_unfunded hr.inv.run hsd' hg' (by rw [(SeedFarm.update_ok hu').total, ht])]
      split <;> exact Nat.zero_le _
    · obtain ⟨f, hf, hpos⟩ := hfirst id f' (by rw [farmOf_of hs', hf']) (by omega)
      rw [farmOf_of hs] at hf
      obtain ⟨g, hg, _⟩ := up.kept id f hf
      obtain ⟨e1, e2⟩ := shown_earned hr.inv hes hs up hs' up' hf hf' hg hg' hpos
      rw [FMap.term_some _ hg, e1, e2]

open Demo in
/-- Before the claim of `al`, `bo` stakes a thousand times as much, claims and unlocks, and `own` adds
reward and lowers the daily reward. -/
def _root_.Verif.Boost.Demo.before : List Event := [⟨at' 1003 S, .ftOnTransfer bo 3000000 .free⟩,
  ⟨at' 1003 bo, .claimReward S⟩, ⟨y 1003 bo, .forceUnlock S 500⟩,
  ⟨at' 1003 T, .ftOnTransfer own 500 (.reward F)⟩, ⟨y 1003 own, .setting (.dailyReward F 1)⟩]

open Demo in
example : (∀ e ∈ before, e.x.now = (at' 1003 al).now ∧ e.k.actor e.x ≠ some al) ∧
    ((c1.exec Demo.fl (at' 1003 al) (.claimReward S)).toOption.map (·.1.rewardOf al T)) = some 120 ∧
    (((c1.run Demo.fl before).exec Demo.fl (at' 1003 al) (.claimReward S)).toOption.map
      (·.1.rewardOf al T)) = some 120 ∧
    (c1.farmOf S F).map (·.total) = some 1000 ∧
    ((c1.run Demo.fl before).farmOf S F).map (fun f => (f.total, f.daily)) = some (1500, 1) ∧
    (c1.powerOf S, (c1.run Demo.fl before).powerOf S) = (5000, 3004491) := by decide +kernel

/-- **C106.** Two farmers who claim at the same moment are credited the same, whoever comes first. -/
theorem C106_order (hr : c.Reachable fl) {x y : Ctx} {s : SeedId} (hnow : x.now = y.now)
    (hne : x.pred ≠ y.pred) {c1 c2 d1 d2 : Contract} {o1 o2 o3 o4 : List Out}
    (h1 : c.exec fl x (.claimReward s) = .ok (c1, o1)) (h2 : c1.exec fl y (.claimReward s) = .ok (c2, o2))
    (h3 : c.exec fl y (.claimReward s) = .ok (d1, o3)) (h4 : d1.exec fl x (.claimReward s) = .ok (d2, o4))
    (t : AccountId) :
    c2.rewardOf x.pred t = d2.rewardOf x.pred t ∧ c2.rewardOf y.pred t = d2.rewardOf y.pred t := by
  have key : ∀ {c1 d1 d2 : Contract} {x y : Ctx} {o1 o3 o4 : List Out}, x.now = y.now → x.pred ≠ y.pred →
      c.exec fl x (.claimReward s) = .ok (c1, o1) → c.exec fl y (.claimReward s) = .ok (d1, o3) →
      d1.exec fl x (.claimReward s) = .ok (d2, o4) → ∀ t, c1.rewardOf x.pred t = d2.rewardOf x.pred t := by
    intro c1 d1 d2 x y o1 o3 o4 hnow hne h1 h3 h4 t
    have hstep : c.step fl ⟨y, .claimReward s⟩ = d1 := by
      unfold step
      simp only [h3]
    have hrun : c.run fl [⟨y, .claimReward s⟩] = d1 := hstep
    have hI := hr.inv
    obtain ⟨old, sd, hs, up, _, _, _⟩ := claim_pays hI h1
    obtain ⟨old', hs', hm⟩ := step_moves hI ⟨y, .claimReward s⟩ s old hs
    rw [hstep] at hs'
    have hfarms : ∀ id, ((c.farmOf s id).map (·.total)) = ((d1.farmOf s id).map (·.total)) := by
      intro id
      have h3' := h3
      simp only [exec] at h3'
      unpack at h3'
      obtain ⟨e1, h3', rfl, _⟩ := h3'
      obtain ⟨u, sdy, u', sdy', _, hsd, _, hid, cl, rfl, _⟩ := claimReward_ok hI h3'
      obtain ⟨oldy, holdy, upy⟩ := Contract.seed_ok hsd
      rw [hs] at holdy
      cases holdy
      rw [farmOf_of hs, farmOf_of (sd := sdy') (FMap.get?_insert_self _ _ _)]
      cases hf : old.farms.get? id with
      | none => rw [cl.gone id (upy.gone id hf)]
      | some f =>
        obtain ⟨g, hg, hu⟩ := upy.kept id f hf
        rw [(cl.farm id g hg).2]
        exact congrArg some hu.total.symm
    refine C106_same hr (es := [⟨y, .claimReward s⟩]) ?_ ?_ ?_ h1 (by rw [hrun]; exact h4) t
    · intro e he
      rw [List.mem_singleton] at he
      subst he
      exact ⟨hnow.symm, fun h => hne (Option.some.inj h).symm⟩
    · intro id f hf _
      rw [hrun]
      have := hfarms id
      rw [hf] at this
      cases hd : d1.farmOf s id with
      | none => rw [hd] at this; cases this
      | some f' => exact ⟨f', rfl⟩
    · intro id f' hf' ht
      rw [hrun] at hf'
      have := hfarms id
      rw [hf'] at this
      cases hd : c.farmOf s id with
      | none => rw [hd] at this; cases this
      | some f =>
        rw [hd] at this
        refine ⟨f, rfl, ?_⟩
        have : f.total = f'.total := Option.some.inj this
        omega
  have r1 : c1.rewardOf y.pred t = c.rewardOf y.pred t := by
    have := (C98_rewards_kept hr ⟨x, .claimReward s⟩ y.pred t).2 fun h => hne (Option.some.inj h)
    unfold step at this
    simp only [h1] at this
    exact this
  have hc1 : c1.Reachable fl := by
    have := hr.step ⟨x, .claimReward s⟩
    unfold step at this
    simp only [h1] at this
    exact this
  have hd1 : d1.Reachable fl := by
    have := hr.step ⟨y, .claimReward s⟩
    unfold step at this
    simp only [h3] at this
    exact this
  have k1 : c2.rewardOf x.pred t = c1.rewardOf x.pred t := by
    have := (C98_rewards_kept hc1 ⟨y, .claimReward s⟩ x.pred t).2 fun h => hne (Option.some.inj h).symm
    unfold step at this
    simp only [h2] at this
    exact this
  have k2 : d2.rewardOf y.pred t = d1.rewardOf y.pred t := by
    have := (C98_rewards_kept hd1 ⟨x, .claimReward s⟩ y.pred t).2 fun h => hne (Option.some.inj h)
    unfold step at this
    simp only [h4] at this
    exact this
  exact ⟨k1.trans (key hnow hne h1 h3 h4 t), ((key hnow.symm hne.symm h3 h1 h2 t).symm.trans rfl).trans k2.symm⟩

open Demo in
example : ((c1.exec Demo.fl (at' 1003 al) (.claimReward S)).toOption.bind fun r =>
      (r.1.exec Demo.fl (at' 1003 bo) (.claimReward S)).toOption.map
        fun r => (r.1.rewardOf al T, r.1.rewardOf bo T)) = some (120, 80) ∧
    ((c1.exec Demo.fl (at' 1003 bo) (.claimReward S)).toOption.bind fun r =>
      (r.1.exec Demo.fl (at' 1003 al) (.claimReward S)).toOption.map
        fun r => (r.1.rewardOf al T, r.1.rewardOf bo T)) = some (120, 80) := by decide +kernel

end Contract
end Boost
end Verif

import Verif.Farming.View
import Verif.Farming.LifeProps
import Verif.Farming.FarmProps

/-
The register of farms as the views report it (C65), and C44 in terms of `get_farm`.
-/

namespace Verif.Farming

theorem listInfo_ok {now : Nat} {farms : FMap FarmId SimpleFarm} {ids : List FarmId}
    {l : List FarmInfo} (h : listInfo now farms ids = .ok l) :
    List.Forall₂ (fun id i => ∃ f, farms.get? id = some f ∧ f.info now = .ok i) ids l := by
  induction ids generalizing l with
  | nil => cases h; exact .nil
  | cons id ids ih =>
    unfold listInfo at h
    simp only [bind_ok, expectE_ok] at h
    obtain ⟨f, hf, i, hi, l', hl, h⟩ := h
    cases h
    exact .cons ⟨f, hf, hi⟩ (ih hl)

theorem listInfo_mem {R : FarmId → FarmInfo → Prop} {ids : List FarmId} {l : List FarmInfo}
    (h : List.Forall₂ R ids l) {i : FarmInfo} (hi : i ∈ l) : ∃ id ∈ ids, R id i := by
  induction h with
  | nil => cases hi
  | cons hd _ ih =>
    rcases List.mem_cons.1 hi with rfl | hi
    · exact ⟨_, List.mem_cons_self .., hd⟩
    · obtain ⟨id, h1, h2⟩ := ih hi
      exact ⟨id, List.mem_cons_of_mem _ h1, h2⟩

theorem SimpleFarm.info_ok {f : SimpleFarm} {now : Nat} {i : FarmInfo} (h : f.info now = .ok i) :
    ∃ o, f.tryDistribute now DENOM = .ok o ∧
      ((o = none ∧ i = f.stored) ∨ ∃ d, o = some d ∧ i = { f.stored with
        status := if f.status = .running ∧ d.undistributed = 0 then .ended else f.status
        curRound := d.rr
        unclaimed := d.unclaimed }) := by
  unfold info at h
  rw [bind_ok] at h
  obtain ⟨o, ho, h⟩ := h
  refine ⟨o, ho, ?_⟩
  cases o with
  | none => cases h; exact .inl ⟨rfl, rfl⟩
  | some d => cases h; exact .inr ⟨d, rfl, rfl⟩

theorem SimpleFarm.info_same {f : SimpleFarm} {now : Nat} {i : FarmInfo} (h : f.info now = .ok i) :
    i.farmId = f.id ∧ i.seedId = f.terms.seedId ∧ i.rewardToken = f.terms.rewardToken ∧
      i.totalReward = f.amountOfReward ∧ i.claimed = f.amountOfClaimed ∧
      i.beneficiary = f.amountOfBeneficiary ∧ i.rewardPerSession = f.terms.rewardPerSession := by
  obtain ⟨_, _, ⟨_, rfl⟩ | ⟨_, _, rfl⟩⟩ := f.info_ok h <;> exact ⟨rfl, rfl, rfl, rfl, rfl, rfl, rfl⟩

namespace Contract

theorem getFarm_some {c : Contract} {now : Nat} {id : FarmId} {i : FarmInfo} :
    c.getFarm now id = .ok (some i) ↔ ∃ f, c.farms.get? id = some f ∧ f.info now = .ok i := by
  unfold getFarm optInfo
  cases c.farms.get? id with
  | none => simp
  | some f =>
    simp only [bind_ok, Option.some.injEq, exists_eq_left']
    constructor
    · rintro ⟨j, hj, h⟩; cases h; exact hj
    · intro h; exact ⟨i, h, rfl⟩

theorem getOutdatedFarm_some {c : Contract} {now : Nat} {id : FarmId} {i : FarmInfo} :
    c.getOutdatedFarm now id = .ok (some i) ↔
      ∃ f, c.outdated.get? id = some f ∧ f.info now = .ok i := by
  unfold getOutdatedFarm optInfo
  cases c.outdated.get? id with
  | none => simp
  | some f =>
    simp only [bind_ok, Option.some.injEq, exists_eq_left']
    constructor
    · rintro ⟨j, hj, h⟩; cases h; exact hj
    · intro h; exact ⟨i, h, rfl⟩

/-- **C65.** `list_farms_by_seed` lists every live farm of the seed exactly once and nothing else, in
whatever order the set is traversed: the same information that `get_farm` gives. -/
theorem C65_listed {c : Contract} (hr : c.Reachable) {now : Nat} {o : Order} {s : SeedId}
    {l : List FarmInfo} (h : c.listFarmsBySeed now o s = .ok l) :
    (l.map (·.farmId)).Nodup ∧
    ∀ i, i ∈ l ↔ c.getFarm now i.farmId = .ok (some i) ∧ i.seedId = s := by
  have hI := hr.inv
  unfold listFarmsBySeed seed at h
  simp only [bind_ok, expectE_ok] at h
  obtain ⟨fs, hfs, h⟩ := h
  have hg := hI.seeds s fs hfs
  have hall := listInfo_ok h
  have hids : l.map (·.farmId) = o.f fs.farms := by
    clear h
    generalize o.f fs.farms = ids at hall
    induction hall with
    | nil => rfl
    | cons hd _ ih =>
      obtain ⟨f, hf, hi⟩ := hd
      rw [List.map_cons, ih, (f.info_same hi).1, (hI.farms _ f hf).id_eq]
  refine ⟨by rw [hids]; exact (o.perm _).nodup_iff.2 hg.nodup, fun i => ?_⟩
  constructor
  · intro hi
    obtain ⟨id, hid, f, hf, hfi⟩ : ∃ id ∈ o.f fs.farms, ∃ f, c.farms.get? id = some f ∧
        f.info now = .ok i :=
      listInfo_mem hall hi
    obtain ⟨f', hf', hs⟩ := hg.farms id ((o.perm _).mem_iff.1 hid)
    rw [hf] at hf'
    cases hf'
    obtain ⟨e1, e2, _⟩ := f.info_same hfi
    rw [e1, (hI.farms id f hf).id_eq, getFarm_some, e2]
    exact ⟨⟨f, hf, hfi⟩, hs⟩
  · rintro ⟨hgf, hs⟩
    obtain ⟨f, hf, hfi⟩ := getFarm_some.1 hgf
    obtain ⟨fs', hfs', hmem, _⟩ := (hI.farms _ f hf).seed
    rw [← (f.info_same hfi).2.1, hs, hfs] at hfs'
    cases hfs'
    rw [← (o.perm _).mem_iff, ← hids, List.mem_map] at hmem
    obtain ⟨j, hj, he⟩ := hmem
    obtain ⟨id, _, f', hf', hfj⟩ : ∃ id ∈ o.f fs.farms, ∃ f, c.farms.get? id = some f ∧
        f.info now = .ok j :=
      listInfo_mem hall hj
    rw [← he, (f'.info_same hfj).1, (hI.farms _ f' hf').id_eq, hf'] at hf
    cases hf
    rw [hfi] at hfj
    cases hfj
    exact hj

open Demo in
/-- One live farm for `S`, named once. -/
example : (c1.listFarmsBySeed (1020 * 10 ^ 9) .id S).holds
    (fun l => decide (l.map (fun i => (i.farmId, i.status, i.totalReward, i.unclaimed)) =
      [(F, .running, 1000, 200)])) = true := by decide +kernel

/-- What an archived farm looks like. -/
structure Archived (f : SimpleFarm) : Prop where
  cleared : f.status = .cleared
  undistributed : f.dist.undistributed = 0
  unclaimed : f.dist.unclaimed = 0

theorem Reachable.not_cleared {c : Contract} (hr : c.Reachable) {id : FarmId} {f : SimpleFarm}
    (h : c.farms.get? id = some f) : f.status ≠ .cleared := by
  have key : Inv c ∧ ∀ id f, c.farms.get? id = some f → f.status ≠ .cleared := by
    refine Reachable.induct
      (P := fun c => Inv c ∧ ∀ id f, c.farms.get? id = some f → f.status ≠ .cleared) ?_ ?_ hr
    · intro owner
      refine ⟨Inv.init owner, fun id f hf => ?_⟩
      simp [Contract.init, FMap.get?_empty] at hf
    · rintro c e c' outs ⟨hI, ha⟩ h
      refine ⟨hI.apply h, fun id f' hf' => ?_⟩
      rcases farm_effect hI h id with ⟨a1, a2⟩ | ⟨a1, a2, a3, a4, a5, a6⟩ |
        ⟨a1, a2, a3, a4, a5, a6, a7⟩ | ⟨a1, a2, a3, a4, a5, a6⟩ | ⟨a1, a2, a3, a4, a5⟩
      · exact ha id f' (a1 ▸ hf')
      · rw [a5] at hf'
        cases hf'
        rcases a3.status with hs | ⟨_, hs, _⟩
        · show _ ≠ _
          simp only
          rw [hs]
          exact ha id _ a1
        · show _ ≠ _
          simp only
          rw [hs]
          decide
      · rw [a6] at hf'
        cases hf'
        rw [a5.after]
        decide
      · rw [a5] at hf'; cases hf'
      · rw [a4] at hf'
        cases hf'
        show Status.created ≠ _
        decide
  exact key.2 id f h

theorem Reachable.archived {c : Contract} (hr : c.Reachable) {id : FarmId} {f : SimpleFarm}
    (h : c.outdated.get? id = some f) : Archived f := by
  have key : Inv c ∧ (∀ id f, c.IsFarm id f → f.Alive) ∧
      ∀ id f, c.outdated.get? id = some f → f.dist.unclaimed = 0 := by
    refine Reachable.induct (P := fun c => Inv c ∧ (∀ id f, c.IsFarm id f → f.Alive) ∧
      ∀ id f, c.outdated.get? id = some f → f.dist.unclaimed = 0) ?_ ?_ hr
    · intro owner
      refine ⟨Inv.init owner, ?_, ?_⟩
      · rintro id f (hf | hf) <;> simp [Contract.init, FMap.get?_empty] at hf
      · intro id f hf; simp [Contract.init, FMap.get?_empty] at hf
    · rintro c e c' outs ⟨hI, ha, hu⟩ h
      refine ⟨hI.apply h, fun id f' hf' => ?_, fun id f' hf' => ?_⟩
      · rcases (farm_effect hI h id).cases' hI hf' with h1 | ⟨f, g, t, ad, n, h1, h2, h3, rfl⟩ |
          ⟨f, n, h1, h2⟩ | ⟨f, g, t, ad, h1, h2, h3, rfl⟩ | ⟨_, t, rfl⟩
        · exact ha id f' h1
        · exact ((h2.alive (ha id f (.inl h1))).claim h3).1
        · exact (h2.alive (ha id f (.inl h1))).1
        · exact ((h2.alive (ha id f (.inl h1))).clear h3).1
        · exact SimpleFarm.new_alive id t
      · rcases farm_effect hI h id with ⟨a1, a2⟩ | ⟨a1, a2, a3, a4, a5, a6⟩ |
          ⟨a1, a2, a3, a4, a5, a6, a7⟩ | ⟨a1, a2, a3, a4, a5, a6⟩ | ⟨a1, a2, a3, a4, a5⟩
        · exact hu id f' (a2 ▸ hf')
        · exact hu id f' (a6 ▸ hf')
        · exact hu id f' (a7 ▸ hf')
        · rw [a6] at hf'; cases hf'; rfl
        · rw [a5] at hf'; cases hf'
  have hc := (key.1.outdated id f h).2.2.2.1
  exact ⟨hc, (hr.alive (.inr h)).over (.inr hc), key.2.2 id f h⟩

/-- The archive never changes. -/
theorem archive_step {c c' : Contract} (hI : Inv c) {e : Event} {outs : List Out}
    (h : c.apply e = .ok (c', outs)) {id : FarmId} {f : SimpleFarm}
    (hf : c.outdated.get? id = some f) : c'.outdated.get? id = some f := by
  have hlive := (hI.outdated id f hf).2.2.2.2
  rcases farm_effect hI h id with ⟨a1, a2⟩ | ⟨a1, a2, a3, a4, a5, a6⟩ |
    ⟨a1, a2, a3, a4, a5, a6, a7⟩ | ⟨a1, a2, a3, a4, a5, a6⟩ | ⟨a1, a2, a3, a4, a5⟩
  · exact a2.trans hf
  · exact a6.trans hf
  · exact a7.trans hf
  · rw [hlive] at a1; cases a1
  · rw [hf] at a2; cases a2

theorem archive_run {c : Contract} (hr : c.Reachable) (es : List Event) {id : FarmId}
    {f : SimpleFarm} (hf : c.outdated.get? id = some f) :
    (c.run es).outdated.get? id = some f := by
  induction es generalizing c with
  | nil => exact hf
  | cons e es ih =>
    refine ih (hr.step e) ?_
    unfold step
    cases h : c.apply e with
    | error _ => exact hf
    | ok r => exact archive_step hr.inv h hf

/-- **C65.** An archived farm is cleared, all its reward has been handed out, and it is no longer
live. What `get_outdated_farm` says about it stays the same for ever. -/
theorem C65_archived {c : Contract} (hr : c.Reachable) {now : Nat} {id : FarmId} {i : FarmInfo}
    (h : c.getOutdatedFarm now id = .ok (some i)) :
    i.farmId = id ∧ i.status = .cleared ∧ i.unclaimed = 0 ∧ i.claimed = i.totalReward ∧
    i.beneficiary ≤ i.claimed ∧ c.getFarm now id = .ok none ∧
    ∀ es now', (c.run es).getOutdatedFarm now' id = .ok (some i) ∧
      (c.run es).getFarm now' id = .ok none := by
  obtain ⟨f, hf, hi⟩ := getOutdatedFarm_some.1 h
  have hA := hr.archived hf
  have hstored : ∀ t, f.info t = .ok f.stored := by
    intro t
    unfold SimpleFarm.info SimpleFarm.tryDistribute
    rw [hA.cleared]
    rfl
  rw [hstored] at hi
  cases hi
  obtain ⟨h1, _, h3, h4, h5⟩ := hr.inv.outdated id f hf
  have hno : ∀ {c : Contract}, c.farms.get? id = none → ∀ t, c.getFarm t id = .ok none := by
    intro c hc t
    unfold getFarm
    rw [hc]
    rfl
  refine ⟨h1, h4, hA.unclaimed, ?_, h3.beneficiary, hno h5 now, fun es now' => ⟨?_, ?_⟩⟩
  · have := h3.total
    have := hA.unclaimed
    have := hA.undistributed
    show f.amountOfClaimed = f.amountOfReward
    omega
  · exact getOutdatedFarm_some.2 ⟨f, archive_run hr es hf, hstored now'⟩
  · exact hno ((hr.run es).inv.outdated id f (archive_run hr es hf)).2.2.2.2 now'

open Demo in
/-- The owner cleans the ended farm: 600 of 1000 units go to the beneficiary. -/
example : ((c3.step (.call (at' 1300 own) (.forceCleanFarm F))).getOutdatedFarm (1400 * 10 ^ 9) F).holds
    (fun i => i.map (fun i => (i.status, i.totalReward, i.claimed, i.beneficiary)) =
      some (.cleared, 1000, 1000, 600)) = true := by decide +kernel

open Demo in
/-- Two sessions after the start, before anybody claimed: 200 of 1000 units are released. -/
example : (c1.getFarm (1020 * 10 ^ 9) F).holds
    (fun i => i.map (fun i => (i.claimed, i.unclaimed, i.totalReward, i.lastRound, i.curRound)) =
      some (0, 200, 1000, 0, 2)) = true := by decide +kernel

/-- **C65.** The books of a live farm as reported: what has been claimed and what is there to claim
add up to at most the reward put in, the rounds do not run backwards, and a farm reported as ended has
released everything. -/
theorem C65_books {c : Contract} (hr : c.Reachable) {now : Nat} {id : FarmId} {i : FarmInfo}
    (h : c.getFarm now id = .ok (some i)) :
    i.farmId = id ∧ i.status ≠ .cleared ∧ i.claimed + i.unclaimed ≤ i.totalReward ∧
    i.beneficiary ≤ i.claimed ∧ i.lastRound ≤ i.curRound ∧
    i.claimed + i.unclaimed ≤ i.curRound * i.rewardPerSession ∧
    (i.status = .ended → i.claimed + i.unclaimed = i.totalReward) := by
  obtain ⟨f, hf, hi⟩ := getFarm_some.1 h
  have hl := hr.inv.farms id f hf
  have ha := hr.alive (.inl hf)
  have ht := hl.balanced.total
  have hp := ha.pace
  unfold SimpleFarm.released at hp
  obtain ⟨o, ho, ⟨rfl, rfl⟩ | ⟨d, rfl, rfl⟩⟩ := f.info_ok hi
  · refine ⟨hl.id_eq, ?_, ?_, hl.balanced.beneficiary, Nat.le_refl _, ?_, ?_⟩
    · exact hr.not_cleared hf
    · show f.amountOfClaimed + f.dist.unclaimed ≤ f.amountOfReward
      omega
    · show f.amountOfClaimed + f.dist.unclaimed ≤ f.dist.rr * f.terms.rewardPerSession
      omega
    · intro he
      have := ha.over (.inl he)
      show f.amountOfClaimed + f.dist.unclaimed = f.amountOfReward
      omega
  · obtain ⟨added, hd⟩ := SimpleFarm.tryDistribute_some ho
    have h1 := hd.undistributed
    have h2 := hd.unclaimed
    refine ⟨hl.id_eq, ?_, ?_, hl.balanced.beneficiary, hd.rr_le, ?_, ?_⟩
    · show (if _ then _ else _) ≠ Status.cleared
      rw [hd.running]
      split <;> decide
    · show f.amountOfClaimed + d.unclaimed ≤ f.amountOfReward
      omega
    · show f.amountOfClaimed + d.unclaimed ≤ d.rr * f.terms.rewardPerSession
      have h3 := hd.pace
      have h4 := hd.rr_le
      obtain ⟨k, hk⟩ : ∃ k, d.rr = f.dist.rr + k := ⟨d.rr - f.dist.rr, by omega⟩
      rw [hk, Nat.add_sub_cancel_left] at h3
      rw [hk, Nat.add_mul]
      omega
    · show (if _ then _ else _) = Status.ended → f.amountOfClaimed + d.unclaimed = f.amountOfReward
      intro he
      by_cases hz : f.status = .running ∧ d.undistributed = 0
      · omega
      · rw [if_neg hz, hd.running] at he
        cases he

/-- **C65.** The reported status decides whether the farm can be funded: reward sent in the farm's
token is accepted while the farm is reported as created or running (as long as the totals fit 128
bits and the contract is not paused), and refused once it is reported as ended. -/
theorem C65_status {c : Contract} {x : Ctx} {sender : AccountId} {n : Nat} {id : FarmId}
    {i : FarmInfo} (hid : id ≠ []) (hx : x.deposit = 0) (hrun : c.running = true)
    (h : c.getFarm x.now id = .ok (some i)) (htok : i.rewardToken = x.pred)
    (hr : c.Reachable) (hfit : c.rewardInfo.getD x.pred 0 + n < 2 ^ 128)
    (hfit' : i.totalReward + n < 2 ^ 128) :
    (∃ r, c.exec x (.ftOnTransfer sender n id) = .ok r) ↔
      i.status = .created ∨ i.status = .running := by
  obtain ⟨f, hf, hi⟩ := getFarm_some.1 h
  have hb := (hr.inv.farms id f hf).balanced.total
  obtain ⟨_, _, e3, e4, _⟩ := f.info_same hi
  rw [e3] at htok
  rw [e4] at hfit'
  have hexec : (∃ r, c.exec x (.ftOnTransfer sender n id) = .ok r) ↔
      ∃ f1, f.addReward x.now n = .ok (some f1) := by
    constructor
    · rintro ⟨⟨c', outs⟩, h⟩
      obtain ⟨_, ⟨h0, _⟩ | ⟨_, f', f1, hf', _, ha, _⟩⟩ := ftOnTransfer_inv (exec_quiet h).1
      · exact absurd h0 hid
      · rw [hf] at hf'
        cases hf'
        exact ⟨f1, ha⟩
    · rintro ⟨f1, h1⟩
      have hc : c.ftOnTransfer x sender n id = .ok { c with
          farms := c.farms.insert id f1
          rewardInfo := c.rewardInfo.insert x.pred (c.rewardInfo.getD x.pred 0 + n) } := by
        unfold ftOnTransfer ftReward Ctx.noDeposit assertRunning
        rw [if_neg hid, hf, assertE_true hx, assertE_true hrun, ok_bind, ok_bind]
        show (do assertE (f.terms.rewardToken = x.pred) (.e 44); _) = _
        rw [assertE_true htok, ok_bind, h1, ok_bind]
        show (addW 128 (c.rewardInfo.getD x.pred 0) n >>= _) = _
        rw [addW_ok.2 ⟨hfit, rfl⟩]
        rfl
      exact ⟨_, by simp only [exec, hc]; rfl⟩
  rw [hexec]
  have h1 : addW 128 f.amountOfReward n = .ok (f.amountOfReward + n) := addW_ok.2 ⟨hfit', rfl⟩
  have h2 : addW 128 f.dist.undistributed n = .ok (f.dist.undistributed + n) :=
    addW_ok.2 ⟨by omega, rfl⟩
  unfold SimpleFarm.addReward
  obtain ⟨o, ho, ⟨rfl, rfl⟩ | ⟨d, rfl, rfl⟩⟩ := f.info_ok hi
  · show _ ↔ f.status = .created ∨ f.status = .running
    rw [ho, h1, h2]
    cases hs : f.status
    · exact ⟨fun _ => .inl rfl, fun _ => ⟨_, rfl⟩⟩
    · exact ⟨fun _ => .inr rfl, fun _ => ⟨_, rfl⟩⟩
    · exact ⟨fun ⟨_, h⟩ => (by cases h), fun h => (by rcases h with h | h <;> cases h)⟩
    · exact ⟨fun ⟨_, h⟩ => (by cases h), fun h => (by rcases h with h | h <;> cases h)⟩
  · obtain ⟨added, hd⟩ := SimpleFarm.tryDistribute_some ho
    show _ ↔ (if f.status = .running ∧ d.undistributed = 0 then Status.ended else f.status) = .created ∨
      (if f.status = .running ∧ d.undistributed = 0 then Status.ended else f.status) = .running
    by_cases hz : d.undistributed = 0
    · have hst : (if f.status = .running ∧ d.undistributed = 0 then Status.ended else f.status) =
          .ended := if_pos ⟨hd.running, hz⟩
      rw [hst, ho, h1, h2, hd.running]
      refine ⟨fun ⟨_, h⟩ => ?_, fun h => (by rcases h with h | h <;> cases h)⟩
      simp [hz, ok_bind] at h
    · have hst : (if f.status = .running ∧ d.undistributed = 0 then Status.ended else f.status) =
          .running := (if_neg (fun h => hz h.2)).trans hd.running
      rw [hst, ho, h1, h2, hd.running]
      refine ⟨fun _ => .inr rfl, fun _ => ?_⟩
      simp [hz, ok_bind]

open Demo in
/-- Running until its last session is due, ended from then on. -/
example : (c1.getFarm (1099 * 10 ^ 9) F).holds (fun i => i.map (·.status) = some .running) = true ∧
    (c1.getFarm (1100 * 10 ^ 9) F).holds (fun i => i.map (·.status) = some .ended) = true ∧
    c1.running = true ∧ (c1.exec (at' 1099 R') (.ftOnTransfer own 500 F)).isOk = true ∧
    (c1.exec (at' 1100 R') (.ftOnTransfer own 500 F)).isOk = false := by decide +kernel

/-- **C65.** A farm never disappears: once `get_farm` or `get_outdated_farm` know an id, one of them
does for ever. -/
theorem C65_kept {c : Contract} (hr : c.Reachable) {id : FarmId} {f : SimpleFarm}
    (h : c.IsFarm id f) (es : List Event) : ∃ f', (c.run es).IsFarm id f' := by
  induction es generalizing c f with
  | nil => exact ⟨f, h⟩
  | cons e es ih =>
    suffices hs : ∃ f', (c.step e).IsFarm id f' by
      obtain ⟨f', hf'⟩ := hs
      exact ih (hr.step e) hf'
    unfold step
    cases ha : c.apply e with
    | error _ => exact ⟨f, h⟩
    | ok r => exact FarmEffect.persists (farm_effect hr.inv ha id) h

open Demo in
/-- The farm of the demo is live. -/
example : (c1.farms.get? F).isSome = true := by decide +kernel

/-- **C44.** At any time, what all farmers together could claim from a farm (`get_unclaimed_reward`)
is covered by the `unclaimed_reward` that `get_farm` reports. -/
theorem C44_reported {c : Contract} (hr : c.Reachable) {now : Nat} {id : FarmId} {i : FarmInfo}
    (h : c.getFarm now id = .ok (some i)) :
    c.farmers.sum (fun a _ => c.unclaimedOf now a id) ≤ i.unclaimed ∧
      i.unclaimed + i.claimed ≤ i.totalReward := by
  obtain ⟨f, hf, hi⟩ := getFarm_some.1 h
  obtain ⟨o, ho, hoi⟩ := f.info_ok hi
  have hk : pot now f = .ok i.unclaimed := by
    unfold pot
    rw [ho]
    rcases hoi with ⟨rfl, rfl⟩ | ⟨d, rfl, rfl⟩ <;> rfl
  have hc := C44_covered hr hf hk
  obtain ⟨_, _, _, e4, e5, _⟩ := f.info_same hi
  rwa [← e4, ← e5] at hc

open Demo in
/-- Two sessions after the start: 150 and 50 of the 200 units reported. -/
example : (c1.getFarm (1020 * 10 ^ 9) F).holds (fun i => i.map (·.unclaimed) = some 200) = true ∧
    c1.unclaimedOf (1020 * 10 ^ 9) al F = 150 ∧ c1.unclaimedOf (1020 * 10 ^ 9) bo F = 50 := by
  decide +kernel

end Contract
end Verif.Farming

import Verif.Farming.StakeProps

/-
What a claim pays: exactly what the view announces (C53), the farmer's share of what was released
(C45).
-/

namespace Verif.Farming

/-- If a distribution is possible, so is computing it, and it leads to the same rate. -/
theorem SimpleFarm.distribute_view {f g : SimpleFarm} {now total : Nat}
    (h : f.distribute now total = .ok g) (h0 : total ≠ 0) :
    ∃ o, f.tryDistribute now total = .ok o ∧
      (match o with | some d => d.rps | none => f.dist.rps) = g.dist.rps := by
  unfold distribute at h
  rw [bind_ok] at h
  obtain ⟨o, ho, h⟩ := h
  refine ⟨o, ho, ?_⟩
  cases o with
  | none => cases h; rfl
  | some d =>
    obtain ⟨added, hd⟩ := tryDistribute_some ho
    simp only [bind_ok] at h
    obtain ⟨f1, h1, h⟩ := h
    have hr : d.rps = f1.dist.rps := by
      unfold adopt at h1
      split at h1
      · rename_i hrr
        cases h1
        have ha : added = 0 := by
          have := hd.pace
          rw [← hrr] at this
          simpa using this
        rw [hd.rps h0, ha]
        simp
      · cases h1
        rfl
    cases h
    simp only [hr]
    split <;> rfl

namespace Contract

variable {c c' : Contract}

/-- The details of a claim from a single farm. -/
theorem claimByFarm_paid (hI : Inv c) {x : Ctx} {a : AccountId} {id : FarmId}
    (h : c.claimByFarm x a id = .ok c') :
    (c.farms.get? id = none ∧ c' = c) ∨
    ∃ f g fs u u' added n, c.farms.get? id = some f ∧ c.seeds.get? f.terms.seedId = some fs ∧
      c.farmers.get? a = some u ∧ c'.farmers.get? a = some u' ∧
      f.distribute x.now fs.amount = .ok g ∧
      f.Distributed x.now fs.amount g added ∧
      SimpleFarm.reward (u.stake f.terms.seedId) g.dist.rps (c.rps.getD (a, id) 0) = .ok n ∧
      n ≤ g.dist.unclaimed ∧
      parseFarmId id = .ok f.terms.seedId ∧
      c'.farms.get? id = some { g with
        dist := { g.dist with unclaimed := g.dist.unclaimed - n }
        amountOfClaimed := g.amountOfClaimed + n } ∧
      c'.rps.getD (a, id) 0 = g.dist.rps ∧
      ∀ t, u'.rewards.getD t 0 = u.rewards.getD t 0 + if t = f.terms.rewardToken then n else 0 := by
  unfold claimByFarm farmer at h
  simp only [bind_ok, expectE_ok] at h
  obtain ⟨u, hu, s, hp, h⟩ := h
  cases hf : c.farms.get? id with
  | none =>
    left
    refine ⟨rfl, ?_⟩
    rw [hf] at h
    split at h
    · simp_all
    · cases h; rfl
  | some f =>
    right
    have hl := hI.farms id f hf
    obtain ⟨fs, hs, _, i, _, hgen⟩ := hl.seed
    have hp' := hp
    rw [hgen] at hp'
    have := parseFarmId_gen hp'
    subst this
    simp only [hs, hf, bind_ok, Prod.exists, Except.ok.injEq] at h
    obtain ⟨f1, m, u1, hc, rfl⟩ := h
    unfold claimFromFarm at hc
    simp only [bind_ok, Prod.exists] at hc
    obtain ⟨f2, v, n, hcl, m2, u2, hset, hc⟩ := hc
    obtain ⟨hm, h1, h2, h3⟩ := setRps_ok hset
    have hcl' := hcl
    unfold SimpleFarm.claimUserReward at hcl'
    simp only [bind_ok] at hcl'
    obtain ⟨g, hg, r, hr, hcl'⟩ := hcl'
    have hrn : r = n := by
      split at hcl'
      · unpack at hcl'; exact hcl'.2.2.2.2
      · cases hcl'; rfl
    subst hrn
    obtain ⟨g', hg', _, hv, _, hcov, hf2⟩ := SimpleFarm.claimUserReward_ok hcl
    rw [hg] at hg'
    cases hg'
    obtain ⟨added, hd⟩ := SimpleFarm.distribute_ok hg
    rw [hl.id_eq] at hr hm
    have fin : f1 = f2 ∧ m = m2 ∧ ∀ t, u1.rewards.getD t 0 =
        u.rewards.getD t 0 + if t = f.terms.rewardToken then r else 0 := by
      split at hc
      · unpack at hc
        obtain ⟨u3, h4, rfl, rfl, rfl⟩ := hc
        obtain ⟨_, _, _, h5⟩ := Farmer.addReward_ok h4
        rw [h2] at h5
        exact ⟨rfl, rfl, h5⟩
      · cases hc
        refine ⟨rfl, rfl, fun t => ?_⟩
        have : r = 0 := by omega
        rw [h2, this]
        simp
    obtain ⟨rfl, rfl, hrew⟩ := fin
    refine ⟨f, g, fs, u, u1, added, r, rfl, hs, hu, FMap.get?_insert_self c.farmers _ _, hg, hd, hr,
      hcov, hp, ?_, ?_, hrew⟩
    · rw [← hf2]; exact FMap.get?_insert_self c.farms _ _
    · simp only [hm, FMap.getD_insert, if_true, hv]

theorem rewardOf_some {a : AccountId} {u : Farmer} (hu : c.farmers.get? a = some u)
    (t : AccountId) : c.rewardOf a t = u.rewards.getD t 0 := by
  unfold rewardOf; rw [hu]

/-- A claim credits what `get_unclaimed_reward` reported just before. -/
theorem claimByFarm_view (hI : Inv c) {x : Ctx} {a : AccountId} {id : FarmId}
    (h1 : c.claimByFarm x a id = .ok c') :
    ∃ n, c.getUnclaimedReward x.now a id = .ok n ∧
      (∀ f, c.farms.get? id = some f → ∀ t, c'.rewardOf a t =
        c.rewardOf a t + if t = f.terms.rewardToken then n else 0) ∧
      (c.farms.get? id = none → n = 0 ∧ ∀ t, c'.rewardOf a t = c.rewardOf a t) := by
  rcases claimByFarm_paid hI h1 with ⟨hn, rfl⟩ |
    ⟨f, g, fs, u, u', added, n, hf, hs, hu, hu', hg, hd, hrw, hcov, hp, _, _, hrew⟩
  · refine ⟨0, ?_, by rw [hn]; nofun, fun _ => ⟨rfl, fun _ => rfl⟩⟩
    unfold claimByFarm at h1
    simp only [bind_ok] at h1
    obtain ⟨_, _, s, hp, _⟩ := h1
    unfold getUnclaimedReward
    rw [hp, ok_bind, hn]
    split
    · simp_all
    · rfl
  · refine ⟨n, ?_, ?_, by rw [hf]; nofun⟩
    · unfold getUnclaimedReward
      rw [hp, ok_bind]
      simp only [hu, hs, hf]
      rw [(hI.farms id f hf).id_eq]
      unfold SimpleFarm.viewUnclaimed
      have hn := (SimpleFarm.reward_ok hrw).2
      split
      · rename_i h0
        have hz : u.stake f.terms.seedId = 0 := by
          have h2 := c.farmers.term_le_sum (fun _ u => u.stake f.terms.seedId) a
          rw [FMap.term_some _ hu] at h2
          have h3 := (hI.seeds _ fs hs).total
          unfold stakes at h3
          omega
        rw [hn, hz]; simp
      · rename_i h0
        split
        · rename_i hz; rw [hn, hz]; simp
        · obtain ⟨o, ho, hrps⟩ := SimpleFarm.distribute_view hg h0
          rw [ho, ok_bind]
          cases o with
          | none => simp only at hrps ⊢; rw [hrps]; exact hrw
          | some d => simp only at hrps ⊢; rw [hrps]; exact hrw
    · intro f' hf' t
      rw [hf] at hf'
      cases hf'
      rw [rewardOf_some hu, rewardOf_some hu']
      exact hrew t

/-- **C53.** If `claim_reward_by_farm` succeeds, it credits the caller with exactly what
`get_unclaimed_reward` reported just before, in the reward token of the farm and in no other. -/
theorem C53_view_is_paid (hr : c.Reachable) {x : Ctx} {id : FarmId} {outs : List Out}
    (h : c.exec x (.claimRewardByFarm id) = .ok (c', outs)) :
    ∃ n, c.getUnclaimedReward x.now x.pred id = .ok n ∧
      (∀ f, c.farms.get? id = some f → ∀ t, c'.rewardOf x.pred t =
        c.rewardOf x.pred t + if t = f.terms.rewardToken then n else 0) ∧
      (c.farms.get? id = none → n = 0 ∧ ∀ t, c'.rewardOf x.pred t = c.rewardOf x.pred t) :=
  claimByFarm_view hr.inv (claimRewardByFarm_inv (exec_quiet h).1).2.1

open Demo in
example : (c1.getUnclaimedReward (at' 1035 al).now al F).holds (· = 225) = true ∧
    (c1.exec (at' 1035 al) (.claimRewardByFarm F)).holds (fun r => r.1.rewardOf al R' = 225) = true := by
  decide +kernel

/-! ### C45 -/

/-- After a claim the farmer has caught up. -/
theorem C45_caught_up_by_farm (hr : c.Reachable) {x : Ctx} {id : FarmId} {f : SimpleFarm}
    {outs : List Out} (hf : c.farms.get? id = some f)
    (h : c.exec x (.claimRewardByFarm id) = .ok (c', outs)) : c'.CaughtUp x.pred id := by
  obtain ⟨_, h1, _⟩ := claimRewardByFarm_inv (exec_quiet h).1
  rcases claimByFarm_paid hr.inv h1 with ⟨hn, rfl⟩ |
    ⟨f, g, fs, u, u', added, n, hf, hs, hu, hu', hg, hd, hrw, hcov, hp, h2, h3, hrew⟩
  · rw [hf] at hn; cases hn
  · exact ⟨_, h2, h3⟩

theorem C45_caught_up_by_seed (hr : c.Reachable) {x : Ctx} {id : FarmId} {f : SimpleFarm}
    {outs : List Out} (hf : c.farms.get? id = some f)
    (h : c.exec x (.claimRewardBySeed f.terms.seedId) = .ok (c', outs)) : c'.CaughtUp x.pred id := by
  have hI := hr.inv
  obtain ⟨_, h1, _⟩ := claimRewardBySeed_inv (exec_quiet h).1
  obtain ⟨fs, hs, hin, _⟩ := (hI.farms id f hf).seed
  obtain ⟨_, _, ⟨h2, rfl⟩ | ⟨fs', h2, h3⟩⟩ := claimBySeed_ok hI h1
  · rw [hs] at h2; cases h2
  · rw [hs] at h2
    cases h2
    exact h3.caught hI (hI.order_nodup hs x) ((x.order.perm fs.farms).mem_iff.2 hin)

theorem C45_caught_up_by_stake (hr : c.Reachable) {x : Ctx} {id : FarmId} {f : SimpleFarm}
    {outs : List Out} {a : AccountId} {n : Nat} (hf : c.farms.get? id = some f)
    (hseed : f.terms.seedId = x.pred)
    (h : c.exec x (.ftOnTransfer a n []) = .ok (c', outs)) : c'.CaughtUp a id := by
  have hI := hr.inv
  obtain ⟨_, ⟨_, _, _, _, h1, _⟩ | ⟨h1, _⟩⟩ := ftOnTransfer_inv (exec_quiet h).1
  · obtain ⟨fs, c1, u, u', hs, hc, hu, hu', hlt, rfl⟩ := seedDeposit_ok hI h1
    obtain ⟨fs', hs', hin, _⟩ := (hI.farms id f hf).seed
    rw [hseed, hs] at hs'
    cases hs'
    exact hc.caught hI (hI.order_nodup hs x) ((x.order.perm fs.farms).mem_iff.2 hin)
  · exact absurd rfl h1

/-- The rate of a farm follows what it releases, `k` roundings below. -/
private structure Tracks (T k r0 d0 : Nat) (g : SimpleFarm) : Prop where
  rps_le : r0 ≤ g.dist.rps
  rel_le : d0 ≤ g.released
  upper : T * (g.dist.rps - r0) ≤ (g.released - d0) * DENOM
  lower : (g.released - d0) * DENOM ≤ T * (g.dist.rps - r0) + k * T

private theorem Tracks.mono {T k k' r0 d0 : Nat} {g : SimpleFarm} (h : Tracks T k r0 d0 g)
    (hk : k ≤ k') : Tracks T k' r0 d0 g :=
  ⟨h.1, h.2, h.3, Nat.le_trans h.4 (Nat.add_le_add_left (Nat.mul_le_mul_right _ hk) _)⟩

private theorem Tracks.congr {T k r0 d0 : Nat} {g g' : SimpleFarm} (h : Tracks T k r0 d0 g)
    (h1 : g'.dist.rps = g.dist.rps) (h2 : g'.released = g.released) : Tracks T k r0 d0 g' :=
  ⟨by rw [h1]; exact h.1, by rw [h2]; exact h.2, by rw [h1, h2]; exact h.3,
    by rw [h1, h2]; exact h.4⟩

private theorem released_eq {f g : SimpleFarm} {now T added : Nat} (h : f.Distributed now T g added)
    (h0 : T ≠ 0) : g.released = f.released + added := by
  unfold SimpleFarm.released
  rw [h.unclaimed h0, h.claimed h0]
  omega

private theorem Tracks.dist {T k r0 d0 now added : Nat} {f g : SimpleFarm} (h : Tracks T k r0 d0 f)
    (h0 : T ≠ 0) (hd : f.Distributed now T g added) : Tracks T (k + 1) r0 d0 g := by
  have h1 := hd.rps h0
  have h2 := released_eq hd h0
  obtain ⟨a1, a2, a3, a4⟩ := h
  have e1 : g.dist.rps - r0 = (f.dist.rps - r0) + added * DENOM / T := by
    generalize added * DENOM / T = q at *
    omega
  have e2 : g.released - d0 = (f.released - d0) + added := by omega
  have h3 := Nat.div_add_mod (added * DENOM) T
  have h4 := Nat.mod_lt (added * DENOM) (Nat.pos_of_ne_zero h0)
  generalize added * DENOM / T = q at *
  refine ⟨by omega, by omega, ?_, ?_⟩
  · rw [e1, e2, Nat.mul_add, Nat.add_mul]
    omega
  · rw [e1, e2, Nat.mul_add, Nat.add_mul, Nat.add_mul]
    omega

private theorem tracks_run {T r0 d0 : Nat} (h0 : T ≠ 0) {a tok : AccountId} {id : FarmId} {s : SeedId}
    (es : List Event) {c : Contract} {k : Nat} (hr : c.Reachable) (hst : Steady s T c es)
    (hes : ∀ e ∈ es, e.farmer ≠ some a)
    (hc : (∃ f, c.farms.get? id = some f ∧ f.terms.seedId = s ∧
        f.terms.rewardToken = tok ∧ Tracks T k r0 d0 f) ∨
      ∃ f, c.outdated.get? id = some f) :
    (c.run es).seedTotal s = T ∧
    (c.run es).rps.getD (a, id) 0 = c.rps.getD (a, id) 0 ∧
    (c.run es).stakeOf a s = c.stakeOf a s ∧
    ((∃ f, (c.run es).farms.get? id = some f ∧ f.terms.seedId = s ∧
        f.terms.rewardToken = tok ∧ Tracks T (k + es.length) r0 d0 f) ∨
      ∃ f, (c.run es).outdated.get? id = some f) := by
  induction es generalizing c k with
  | nil => exact ⟨hst, rfl, rfl, hc⟩
  | cons e es ih =>
    obtain ⟨htot, hst⟩ := hst
    have hI := hr.inv
    have hsame := C54_own_account hr e (hes e (by simp))
    have hnext : (∃ f, (c.step e).farms.get? id = some f ∧ f.terms.seedId = s ∧
        f.terms.rewardToken = tok ∧ Tracks T (k + 1) r0 d0 f) ∨ ∃ f, (c.step e).outdated.get? id = some f := by
      unfold step
      cases ha : c.apply e with
      | error _ =>
        rcases hc with ⟨f, h1, h2, h2', h3⟩ | hc
        · exact .inl ⟨f, h1, h2, h2', h3.mono (by omega)⟩
        · exact .inr hc
      | ok r =>
        show (∃ f, r.1.farms.get? id = some f ∧ _) ∨ ∃ f, r.1.outdated.get? id = some f
        rcases hc with ⟨f, h1, h2, h2', h3⟩ | ⟨f, hf⟩
        · rcases farm_effect hI ha id with ⟨a1, a2⟩ | ⟨a1, a2, a3, a4, a5, a6⟩ |
            ⟨a1, a2, a3, a4, a5, a6, a7⟩ | ⟨a1, a2, a3, a4, a5, a6⟩ | ⟨a1, a2, a3, a4, a5⟩
          · exact .inl ⟨f, a1.trans h1, h2, h2', h3.mono (by omega)⟩
          · rw [h1] at a1
            cases a1
            rename_i g fs added n
            have hT : fs.amount = T := by
              rw [← htot, ← h2]; unfold seedTotal; rw [a2]
            rw [hT] at a3
            refine .inl ⟨_, a5, ?_, ?_, (h3.dist h0 a3).congr rfl ?_⟩
            · show g.terms.seedId = s
              rw [a3.terms]; exact h2
            · show g.terms.rewardToken = tok
              rw [a3.terms]; exact h2'
            · unfold SimpleFarm.released; simp only; omega
          · rw [h1] at a4
            cases a4
            refine .inl ⟨_, a6, a5.seed.trans h2, a5.token.trans h2', (h3.mono (by omega)).congr a5.rps ?_⟩
            unfold SimpleFarm.released
            rw [a5.unclaimed, a5.claimed]
          · exact .inr ⟨_, a6⟩
          · rw [h1] at a1; cases a1
        · have hno := (hI.outdated id f hf).2.2.2.2
          right
          rcases farm_effect hI ha id with ⟨a1, a2⟩ | ⟨a1, a2, a3, a4, a5, a6⟩ |
            ⟨a1, a2, a3, a4, a5, a6, a7⟩ | ⟨a1, a2, a3, a4, a5, a6⟩ | ⟨a1, a2, a3, a4, a5⟩
          · exact ⟨f, a2.trans hf⟩
          · exact ⟨f, a6.trans hf⟩
          · exact ⟨f, a7.trans hf⟩
          · exact ⟨_, a6⟩
          · rw [hf] at a2; cases a2
    obtain ⟨g1, g2, g3, g4⟩ := ih (hr.step e) hst (fun e he => hes e (by simp [he])) hnext
    refine ⟨g1, g2.trans ?_, g3.trans (hsame.2.1 s), ?_⟩
    · unfold FMap.getD; rw [hsame.2.2.2 id]
    · rw [List.length_cons, show k + (es.length + 1) = k + 1 + es.length by omega]
      exact g4

/-- **C45.** A farmer `a` with stake `st` has claimed everything so far (state `c`). Then a history
`es` follows in which `a` does nothing and the total stake `T` stays the same; other farmers may do
anything else. If `a` then claims `n` in state `c.run es`, and the farm has released `D` since `c`, then
`n ≤ st * D / T`, and `n` falls short of the exact share `st * D / T` by less than
`1 + (es.length + 1) * st / 10^24`. -/
theorem C45_share (hr : c.Reachable) {a : AccountId} {id : FarmId} {f f' : SimpleFarm}
    (hf : c.farms.get? id = some f) (hcaught : c.CaughtUp a id) {T : Nat} (hT : T ≠ 0)
    {es : List Event} (hes : ∀ e ∈ es, e.farmer ≠ some a) (hst : Steady f.terms.seedId T c es)
    {x : Ctx} (hx : x.pred = a) {outs : List Out}
    (h : (c.run es).exec x (.claimRewardByFarm id) = .ok (c', outs))
    (hf' : c'.farms.get? id = some f') {st D n : Nat} (hstake : st = c.stakeOf a f.terms.seedId)
    (hD : D = f'.released - f.released)
    (hn : n = c'.rewardOf a f.terms.rewardToken - (c.run es).rewardOf a f.terms.rewardToken) :
    n * T ≤ st * D ∧ st * D * DENOM < (n + 1) * DENOM * T + (es.length + 1) * st * T := by
  subst hx
  have hr' : (c.run es).Reachable := hr.run es
  obtain ⟨f0, hf0, hrate⟩ := hcaught
  rw [hf] at hf0
  cases hf0
  have htr0 : Tracks T 0 f.dist.rps f.released f := ⟨Nat.le_refl _, Nat.le_refl _, by simp, by simp⟩
  obtain ⟨h1, h2, h3, h4⟩ := tracks_run hT es hr hst hes (.inl ⟨f, hf, rfl, rfl, htr0⟩)
  obtain ⟨_, hcl, _⟩ := claimRewardByFarm_inv (exec_quiet h).1
  have hI' := hr'.inv
  rcases claimByFarm_paid hI' hcl with ⟨hno, rfl⟩ |
    ⟨f1, g, fs, u, u', added, k, hf1, hs, hu, hu', hg, hd, hrw, hcov, hp, hfin, _, hrew⟩
  · rw [hno] at hf'; cases hf'
  rcases h4 with ⟨f2, hf2, hsd, htok, htr⟩ | ⟨f2, hf2⟩
  swap
  · have := (hI'.outdated id f2 hf2).2.2.2.2
    rw [hf1] at this; cases this
  rw [hf1] at hf2
  cases hf2
  rw [hf'] at hfin
  cases hfin
  have hamt : fs.amount = T := by
    rw [← h1, ← hsd]; unfold seedTotal; rw [hs]
  rw [hamt] at hd
  have htrg := htr.dist hT hd
  have hrel : SimpleFarm.released { g with
      dist := { g.dist with unclaimed := g.dist.unclaimed - k }
      amountOfClaimed := g.amountOfClaimed + k } = g.released := by
    unfold SimpleFarm.released; simp only; omega
  rw [hrel] at hD
  have hstake' : u.stake f1.terms.seedId = st := by
    rw [hstake, ← h3, hsd]; unfold stakeOf; rw [hu]
  obtain ⟨hle, hk⟩ := SimpleFarm.reward_ok hrw
  rw [h2, hrate] at hk hle
  rw [hstake'] at hk
  have hnk : n = k := by
    rw [hn, rewardOf_some hu, rewardOf_some hu', hrew, htok, if_pos rfl]
    omega
  subst hnk
  obtain ⟨_, _, hup, hlow⟩ := htrg
  rw [← hD] at hup hlow
  generalize g.dist.rps - f.dist.rps = Δ at *
  have hq := Nat.div_add_mod (st * Δ) DENOM
  have hlt := Nat.mod_lt (st * Δ) DENOM_pos
  rw [← hk] at hq
  constructor
  · -- n * DENOM * T ≤ st * Δ * T ≤ st * D * DENOM
    have e1 : n * DENOM ≤ st * Δ := by rw [Nat.mul_comm]; omega
    have e2 := Nat.mul_le_mul_right T e1
    have e3 := Nat.mul_le_mul_left st hup
    have e4 : st * (T * Δ) = st * Δ * T := by rw [Nat.mul_comm T, Nat.mul_assoc]
    have e5 : (n * T) * DENOM ≤ (st * D) * DENOM := by
      rw [show n * T * DENOM = n * DENOM * T by rw [Nat.mul_assoc, Nat.mul_comm T, ← Nat.mul_assoc],
        Nat.mul_assoc st]
      omega
    exact Nat.le_of_mul_le_mul_right e5 DENOM_pos
  · have e1 : st * Δ < (n + 1) * DENOM := by rw [Nat.add_mul, Nat.mul_comm n]; omega
    have e2 := Nat.mul_lt_mul_of_pos_right e1 (Nat.pos_of_ne_zero hT)
    have e3 := Nat.mul_le_mul_left st hlow
    have e4 : st * (T * Δ + (0 + es.length + 1) * T) = st * Δ * T + (es.length + 1) * st * T := by
      rw [Nat.mul_add, Nat.mul_comm T, ← Nat.mul_assoc, Nat.zero_add, ← Nat.mul_assoc,
        Nat.mul_comm st (es.length + 1)]
    rw [e4, ← Nat.mul_assoc] at e3
    omega

open Demo in
/-- `al` has caught up in `c2`; `bo` claims twice; then `al` claims a share of 3/4 of the 300
released since. -/
example :
    let es : List Event := [.call (at' 1031 bo) (.claimRewardByFarm F),
      .call (at' 1042 bo) (.claimRewardByFarm F)]
    (c2.farms.get? F).map (·.dist.rps) = some (c2.rps.getD (al, F) 0) ∧
    (∀ e ∈ es, e.farmer ≠ some al) ∧ c2.seedTotal S = 40 ∧ (c2.run es).seedTotal S = 40 ∧
    ((c2.run es).exec (at' 1055 al) (.claimRewardByFarm F)).holds (fun r =>
      decide (r.1.rewardOf al R' = (c2.run es).rewardOf al R' + 225) &&
      decide ((r.1.farms.get? F).map (·.released) =
        (c2.farms.get? F).map (fun f => f.released + 300))) = true := by decide +kernel

end Contract
end Verif.Farming

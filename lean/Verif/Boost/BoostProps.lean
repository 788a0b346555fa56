import Verif.Boost.AccessProps

/-
C101: boosts follow the stakes.
-/

namespace Verif.Boost

open Demo

/-- What boosts the stake of a farmer in seed `s` through booster `k`: the farmer's own stake in the
booster, if there is one and if the booster is set to boost `s`. -/
def boostOf (cfg : Config) (u : Farmer) (s k : SeedId) : Option Ratio :=
  match cfg.boosters.get? k with
  | none => none
  | some b =>
    let n := (u.stakeIn k).free + (u.stakeIn k).xLocked
    let base := b.affected.getD s 0
    if k ≠ s ∧ 0 < n ∧ 0 < base then some ⟨n, b.decimals, base⟩ else none

theorem Farmer.basicOf_ok {u : Farmer} {s : SeedId} {n : Nat} (h : u.basicOf s = .ok n) :
    n = (u.stakeIn s).free + (u.stakeIn s).xLocked := by
  unfold basicOf at h
  split at h
  · rename_i v hv
    unfold FarmerSeed.basic at h
    unpack at h
    rw [Farmer.stakeIn_some hv, ← h.2]
  · rename_i hv
    cases h
    rw [Farmer.stakeIn_none hv]
    rfl

theorem ratiosLoop_ok {s : SeedId} {u : Farmer} : ∀ {l : List (SeedId × Booster)}
    {m m' : FMap SeedId Ratio}, (l.map Prod.fst).Nodup → ratiosLoop s u l m = .ok m' →
    (∀ k, k ∉ l.map Prod.fst → m'.get? k = m.get? k) ∧
    ∀ p ∈ l, m.get? p.1 = none → m'.get? p.1 =
      if p.1 ≠ s ∧ 0 < (u.stakeIn p.1).free + (u.stakeIn p.1).xLocked ∧ 0 < p.2.affected.getD s 0 then
        some ⟨(u.stakeIn p.1).free + (u.stakeIn p.1).xLocked, p.2.decimals, p.2.affected.getD s 0⟩
      else none := by
  intro l
  induction l with
  | nil =>
    intro m m' _ h
    cases h
    exact ⟨fun _ _ => rfl, fun p hp => absurd hp List.not_mem_nil⟩
  | cons p l ih =>
    intro m m' hn h
    obtain ⟨k, b⟩ := p
    simp only [List.map_cons, List.nodup_cons] at hn
    -- the map after this booster
    have key : ∃ m1, ratiosLoop s u l m1 = .ok m' ∧ (∀ i, i ≠ k → m1.get? i = m.get? i) ∧
        (m.get? k = none → m1.get? k =
          if k ≠ s ∧ 0 < (u.stakeIn k).free + (u.stakeIn k).xLocked ∧ 0 < b.affected.getD s 0 then
            some ⟨(u.stakeIn k).free + (u.stakeIn k).xLocked, b.decimals, b.affected.getD s 0⟩
          else none) := by
      unfold ratiosLoop at h
      split at h
      · rename_i base hb
        have hbase : b.affected.getD s 0 = base := by unfold FMap.getD; rw [hb]; rfl
        rw [hbase]
        split at h
        · rename_i hk
          unpack at h
          obtain ⟨n, hn', h⟩ := h
          have := Farmer.basicOf_ok hn'
          subst this
          split at h
          · rename_i hc
            unpack at h
            obtain ⟨_, h⟩ := h
            refine ⟨_, h, fun i hi => FMap.get?_insert_ne _ _ hi, fun _ => ?_⟩
            rw [FMap.get?_insert_self, if_pos ⟨hk, hc.1, hc.2⟩]
          · rename_i hc
            refine ⟨m, h, fun _ _ => rfl, fun h0 => ?_⟩
            rw [h0, if_neg (fun hh => hc ⟨hh.2.1, hh.2.2⟩)]
        · rename_i hk
          refine ⟨m, h, fun _ _ => rfl, fun h0 => ?_⟩
          rw [h0, if_neg (fun hh => hk hh.1)]
      · rename_i hb
        refine ⟨m, h, fun _ _ => rfl, fun h0 => ?_⟩
        have hbase : b.affected.getD s 0 = 0 := by unfold FMap.getD; rw [hb]; rfl
        rw [h0, hbase, if_neg (fun hh => absurd hh.2.2 (Nat.lt_irrefl 0))]
    obtain ⟨m1, h1, h2, h3⟩ := key
    obtain ⟨g1, g2⟩ := ih hn.2 h1
    refine ⟨fun i hi => ?_, fun q hq hq0 => ?_⟩
    · simp only [List.map_cons, List.mem_cons, not_or] at hi
      rw [g1 i hi.2, h2 i hi.1]
    · rcases List.mem_cons.1 hq with rfl | hq
      · rw [g1 _ hn.1]
        exact h3 hq0
      · have hne : q.1 ≠ k := by
          intro hqk
          exact hn.1 (hqk ▸ List.mem_map.2 ⟨q, hq, rfl⟩)
        exact g2 q hq (by rw [h2 _ hne]; exact hq0)

theorem genRatios_ok {cfg : Config} {s : SeedId} {u : Farmer} {m : FMap SeedId Ratio}
    (h : genRatios cfg s u = .ok m) (k : SeedId) : m.get? k = boostOf cfg u s k := by
  unfold genRatios at h
  obtain ⟨h1, h2⟩ := ratiosLoop_ok cfg.boosters.nodup h
  unfold boostOf
  cases hb : cfg.boosters.get? k with
  | none =>
    rw [h1 k]
    · exact FMap.get?_empty _
    · intro hm
      obtain ⟨q, hq, rfl⟩ := List.mem_map.1 hm
      rw [(cfg.boosters.mem_entries_iff).1 hq] at hb
      cases hb
  | some b =>
    exact h2 (k, b) ((cfg.boosters.mem_entries_iff).2 hb) (FMap.get?_empty _)

/-- Boosts depend on the stakes in the boosters only. -/
theorem boostOf_congr {cfg : Config} {u u' : Farmer} {s : SeedId}
    (h : ∀ k, k ≠ s → (u.stakeIn k).SameStake (u'.stakeIn k)) (k : SeedId) :
    boostOf cfg u' s k = boostOf cfg u s k := by
  unfold boostOf
  by_cases hk : k = s
  · subst hk
    cases cfg.boosters.get? k with
    | none => rfl
    | some b =>
      simp only
      rw [if_neg (fun hh => hh.1 rfl), if_neg (fun hh => hh.1 rfl)]
  · obtain ⟨h1, _, h3, _⟩ := h k hk
    rw [h1, h3]

/-- The boosts of a stake are as the stakes in the boosters and the settings say. -/
def Boosted (cfg : Config) (u : Farmer) (s : SeedId) : Prop :=
  ∃ v, u.seeds.get? s = some v ∧ ∀ k, v.ratios.get? k = boostOf cfg u s k

theorem doClaim_boosted {fl : Floats} {cfg : Config} {u u' : Farmer} {sd sd' : Seed}
    (h : doClaim fl cfg u sd = .ok (u', sd')) : Boosted cfg u' sd.id := by
  have cl := doClaim_ok h
  unfold doClaim at h
  unpack at h
  obtain ⟨v, k, hcalc, rw', hrw, prev, hprev, ratios, hrat, p, hp, _, hsub, farms, hfarms, rfl, rfl⟩ := h
  refine ⟨_, FMap.get?_insert_self _ _ _, fun k => ?_⟩
  have h1 := genRatios_ok hrat k
  refine h1.trans (boostOf_congr (fun r hr => ?_) k).symm
  have : ({ u with rewards := rw' } : Farmer).stakeIn r = u.stakeIn r := rfl
  rw [this]
  exact cl.same r

theorem impactedLoop_boosted {fl : Floats} {now : Nat} {s : SeedId} : ∀ {l : List (SeedId × Nat)}
    {c c' : Contract} {u u' : Farmer}, (l.map Prod.fst).Nodup → (∀ p ∈ l, p.1 ≠ s) →
    (∀ r sd, c.seeds.get? r = some sd → sd.id = r) →
    Contract.impactedLoop fl now l c u = .ok (c', u') →
    (∀ r, r ∉ l.map Prod.fst → u'.seeds.get? r = u.seeds.get? r) ∧
    ∀ p ∈ l, u.seeds.contains p.1 = true → Boosted c.cfg u' p.1 := by
  intro l
  induction l with
  | nil =>
    intro c c' u u' _ _ _ h
    cases h
    exact ⟨fun _ _ => rfl, fun p hp => absurd hp List.not_mem_nil⟩
  | cons p l ih =>
    intro c c' u u' hn hl hids h
    obtain ⟨r, b⟩ := p
    simp only [List.map_cons, List.nodup_cons] at hn
    have hl' : ∀ q ∈ l, q.1 ≠ s := fun q hq => hl q (by simp [hq])
    unfold Contract.impactedLoop at h
    split at h
    · unpack at h
      obtain ⟨sd, hsd, u1, sd1, hcl, h⟩ := h
      obtain ⟨old, hold, up⟩ := Contract.seed_ok hsd
      have cl := doClaim_ok hcl
      have hid : sd.id = r := by rw [up.quiet.id]; exact hids r old hold
      have hid1 : sd1.id = r := by rw [cl.quiet.id, hid]
      have hids1 : ∀ q sq, (c.setSeed r sd1).seeds.get? q = some sq → sq.id = q := by
        intro q sq hq
        change (c.seeds.insert r sd1).get? q = some sq at hq
        rw [FMap.get?_insert] at hq
        split at hq
        · cases hq; subst_vars; exact hid1
        · exact hids q sq hq
      obtain ⟨g1, g2⟩ := ih hn.2 hl' hids1 h
      have im := impactedLoop_ok hl' hids1 h
      refine ⟨fun q hq => ?_, fun q hq hc => ?_⟩
      · simp only [List.map_cons, List.mem_cons, not_or] at hq
        rw [g1 q hq.2]
        exact cl.others q (by rw [hid]; exact hq.1)
      · rcases List.mem_cons.1 hq with rfl | hq
        · obtain ⟨v, hv, hb⟩ := doClaim_boosted hcl
          rw [hid] at hv hb
          refine ⟨v, by rw [g1 _ hn.1]; exact hv, fun k => ?_⟩
          rw [hb k]
          exact (boostOf_congr (fun q _ => im.same q) k).symm
        · refine g2 q hq ?_
          have hne : q.1 ≠ r := by
            intro hqr
            exact hn.1 (hqr ▸ List.mem_map.2 ⟨q, hq, rfl⟩)
          unfold FMap.contains at hc ⊢
          rw [cl.others q.1 (by rw [hid]; exact hne)]
          exact hc
    · rename_i hnc
      obtain ⟨g1, g2⟩ := ih hn.2 hl' hids h
      refine ⟨fun q hq => ?_, fun q hq hc => ?_⟩
      · simp only [List.map_cons, List.mem_cons, not_or] at hq
        exact g1 q hq.2
      · rcases List.mem_cons.1 hq with rfl | hq
        · exact absurd hc hnc
        · exact g2 q hq hc

/-- After a call that changes a stake in `s`, the boosts of the stake and of all stakes that `s` boosts
are up to date. -/
theorem restake_boosted {fl : Floats} {c c2 : Contract} {now : Nat} {s : SeedId}
    {u u1 u2 : Farmer} {sd sd1 : Seed} {v w : FarmerSeed} {sl : FMap SeedId Nat} (h : Inv fl c)
    (hsd : c.seed now s = .ok sd) (hc : doClaim fl c.cfg u sd = .ok (u1, sd1))
    (hv : u1.seeds.get? s = some v) (hw : w.ratios = v.ratios)
    (him : Contract.updateImpacted fl { c with slashed := sl } now
      { u1 with seeds := u1.seeds.insert s w } s = .ok (c2, u2)) :
    Boosted c.cfg u2 s ∧
    ∀ b r n, c.cfg.boosters.get? s = some b → b.affected.get? r = some n →
      u.seeds.contains r = true → Boosted c.cfg u2 r := by
  obtain ⟨old, hold, up⟩ := Contract.seed_ok hsd
  have cl := doClaim_ok hc
  have hid : sd.id = s := by rw [up.quiet.id]; exact h.ids s old hold
  have im := updateImpacted_ok (c := { c with slashed := sl }) h.boost h.ids him
  constructor
  · obtain ⟨v', hv', hb⟩ := doClaim_boosted hc
    rw [hid] at hv' hb
    rw [hv] at hv'
    cases hv'
    refine ⟨w, by rw [im.stake]; exact FMap.get?_insert_self _ _ _, fun k => ?_⟩
    rw [hw, hb k]
    refine (boostOf_congr (fun q hq => ?_) k).symm
    have h4 : ({ u1 with seeds := u1.seeds.insert s w } : Farmer).stakeIn q = u1.stakeIn q := by
      unfold Farmer.stakeIn
      rw [FMap.get?_insert_ne _ _ hq]
    have := im.same q
    rwa [h4] at this
  · intro b r n hb hr hu
    have hrs : r ≠ s := by
      rintro rfl
      rw [h.boost _ b hb] at hr
      cases hr
    unfold Contract.updateImpacted at him
    simp only [hb] at him
    have hne : ∀ p ∈ b.affected.entries, p.1 ≠ s := by
      rintro ⟨q, n⟩ hp rfl
      have := (b.affected.mem_entries_iff).1 hp
      rw [h.boost _ b hb] at this
      cases this
    refine (impactedLoop_boosted (c := { c with slashed := sl }) b.affected.nodup hne h.ids him).2 (r, n)
      ((b.affected.mem_entries_iff).2 hr) ?_
    unfold FMap.contains at hu ⊢
    show ((u1.seeds.insert s w).get? r).isSome = true
    rw [FMap.get?_insert_ne _ _ hrs, cl.others r (by rw [hid]; exact hrs)]
    exact hu

/-- The seed whose stake or rewards a call is about. -/
def Call.target (x : Ctx) : Call → Option (AccountId × SeedId)
  | .claimReward s => some (x.pred, s)
  | k => k.about x

namespace Contract

theorem stakeFree_boosted {fl : Floats} {c c' : Contract} (h : Inv fl c) {now : Nat} {a : AccountId}
    {s : SeedId} {n : Nat} (he : c.stakeFree fl now a s n = .ok c') :
    ∃ u u', c.farmers.get? a = some u ∧ c'.farmers.get? a = some u' ∧ Boosted c.cfg u' s ∧
      ∀ b r n, c.cfg.boosters.get? s = some b → b.affected.get? r = some n →
        u.seeds.contains r = true → Boosted c.cfg u' r := by
  unfold stakeFree at he
  unpack at he
  obtain ⟨u, hu, sd, hsd, hmin, u1, sd1, hcl, v, hv, w, d, hw, ham, hpw, c2, u2, him, rfl⟩ := he
  obtain ⟨rfl, hp⟩ := FarmerSeed.addFree_ok hw
  exact ⟨u, u2, expectE_ok.1 hu, FMap.get?_insert_self _ _ _,
    restake_boosted (w := { v with free := v.free + n }) (sl := c.slashed) h hsd hcl hv rfl him⟩

theorem stakeLock_boosted {fl : Floats} {c c' : Contract} (h : Inv fl c) {now : Nat} {a : AccountId}
    {s : SeedId} {n d : Nat} (he : c.stakeLock fl now a s n d = .ok c') :
    ∃ u u', c.farmers.get? a = some u ∧ c'.farmers.get? a = some u' ∧ Boosted c.cfg u' s ∧
      ∀ b r n, c.cfg.boosters.get? s = some b → b.affected.get? r = some n →
        u.seeds.contains r = true → Boosted c.cfg u' r := by
  unfold stakeLock at he
  unpack at he
  obtain ⟨u, hu, sd, hsd, hmin, h1, h2, h3, u1, sd1, hcl, v, hv, w, e, hw, ham, hpw, c2, u2, him, rfl⟩ :=
    he
  exact ⟨u, u2, expectE_ok.1 hu, FMap.get?_insert_self _ _ _,
    restake_boosted (sl := c.slashed) h hsd hcl hv (FarmerSeed.addLock_ok hw).1.ratios him⟩

/-- **C101.** After a claim, stake, locking or unlocking of an account in a seed, the account's stake in
that seed and its stakes in all seeds that this seed boosts are boosted as the settings and the
account's stakes in the boosters say, no more and no less. -/
theorem C101_boosts {fl : Floats} {c c' : Contract} (h : c.Reachable fl) {x : Ctx} {k : Call}
    {o : List Out} (he : c.exec fl x k = .ok (c', o)) {a : AccountId} {s : SeedId}
    (ha : k.target x = some (a, s)) :
    ∃ u u', c.farmers.get? a = some u ∧ c'.farmers.get? a = some u' ∧ Boosted c.cfg u' s ∧
      ∀ b r n, k ≠ .claimReward s → c.cfg.boosters.get? s = some b → b.affected.get? r = some n →
        u.seeds.contains r = true → Boosted c.cfg u' r := by
  have weaken : ∀ {c1 : Contract} {a s}, (∃ u u', c.farmers.get? a = some u ∧
      c1.farmers.get? a = some u' ∧ Boosted c.cfg u' s ∧
      ∀ b r n, c.cfg.boosters.get? s = some b → b.affected.get? r = some n →
        u.seeds.contains r = true → Boosted c.cfg u' r) →
      ∃ u u', c.farmers.get? a = some u ∧ c1.farmers.get? a = some u' ∧ Boosted c.cfg u' s ∧
      ∀ b r n, k ≠ .claimReward s → c.cfg.boosters.get? s = some b → b.affected.get? r = some n →
        u.seeds.contains r = true → Boosted c.cfg u' r := by
    rintro c1 a s ⟨u, u', h1, h2, h3, h4⟩
    exact ⟨u, u', h1, h2, h3, fun b r n _ => h4 b r n⟩
  cases k with
  | ftOnTransfer a' n m =>
    simp only [exec] at he
    unpack at he
    obtain ⟨_, c1, he, rfl, _⟩ := he
    unfold ftOnTransfer at he
    unpack at he
    obtain ⟨_, _, he⟩ := he
    cases m with
    | free => cases ha; exact weaken (stakeFree_boosted h.inv he)
    | lock d => cases ha; exact weaken (stakeLock_boosted h.inv he)
    | reward id => cases ha
    | bad => cases ha
  | mftOnTransfer t a' n m =>
    simp only [exec] at he
    unpack at he
    obtain ⟨_, c1, he, rfl, _⟩ := he
    unfold mftOnTransfer at he
    unpack at he
    obtain ⟨_, _, he⟩ := he
    split at he
    · cases m with
      | free => cases ha; exact weaken (stakeFree_boosted h.inv he)
      | lock d => cases ha; exact weaken (stakeLock_boosted h.inv he)
      | reward id => cases ha
      | bad => cases ha
    · cases he
  | lockFreeSeed s' d n =>
    cases ha
    simp only [exec] at he
    unpack at he
    obtain ⟨c1, he, rfl, _⟩ := he
    unfold lockFree oneYocto assertRunning at he
    unpack at he
    obtain ⟨_, _, u, hu, sd, hsd, h1, h2, h3, u1, sd1, hcl, v, hv, w, e, hw, hpw, c2, u2, him, rfl⟩ := he
    obtain ⟨hn, _, hl, hp⟩ := FarmerSeed.freeToLock_ok hw
    exact weaken ⟨u, u2, expectE_ok.1 hu, FMap.get?_insert_self _ _ _,
      restake_boosted (sl := c.slashed) h.inv hsd hcl hv hl.ratios him⟩
  | forceUnlock s' n =>
    cases ha
    simp only [exec] at he
    unpack at he
    obtain ⟨c1, he, rfl, _⟩ := he
    unfold forceUnlock oneYocto assertRunning at he
    unpack at he
    obtain ⟨_, _, u, hu, sd, hsd, u1, sd1, hcl, v, hv, w, d, slash, hw, ham, hpw, hsl, c2, u2, him, rfl⟩ :=
      he
    obtain ⟨hl, hp⟩ := FarmerSeed.unlockSlashed_ok hw
    exact weaken ⟨u, u2, expectE_ok.1 hu, FMap.get?_insert_self _ _ _,
      restake_boosted h.inv hsd hcl hv hl.ratios him⟩
  | claimReward s' =>
    cases ha
    simp only [exec] at he
    unpack at he
    obtain ⟨c1, he, rfl, _⟩ := he
    obtain ⟨u, sd, u', sd', hu, hsd, hcl, hid, _, rfl, _⟩ := claimReward_ok h.inv he
    refine ⟨u, u', hu, FMap.get?_insert_self _ _ _, ?_, fun b r n hk => absurd rfl hk⟩
    have := doClaim_boosted hcl
    rwa [hid] at this
  | _ => cases ha

example : (c2.exec fl (at' 1004 L) (.ftOnTransfer al 4 .free)).isOk = true ∧
    (Call.ftOnTransfer al 4 .free).target (at' 1004 L) = some (al, L) ∧
    (c2.stakeOf al S).ratios.size = 0 ∧
    ((c3.stakeOf al S).ratios.get? L).map (fun r => (r.balance, r.logBase)) = some (4, 5) := by
  decide +kernel

end Contract

end Verif.Boost

import Verif.Boost.Lemmas

/-
What a claim does when it succeeds.
-/

namespace Verif

theorem FMap.sum_key {K : Type} [DecidableEq K] (m : FMap K Nat) (t : K) :
    m.sum (fun k v => if k = t then v else 0) = m.getD t 0 := by
  have h := m.sum_erase (fun k v => if k = t then v else 0) t
  have h0 : (m.erase t).sum (fun k v => if k = t then v else 0) = 0 := by
    rw [(m.erase t).sum_congr _ (fun _ _ => 0)]
    · have := (m.erase t).sum_mul (fun _ _ => 0) 0
      simp only [Nat.mul_zero] at this
      omega
    · intro k v hk
      rw [if_neg]
      rintro rfl
      rw [FMap.get?_erase_self] at hk
      cases hk
  rw [h0] at h
  unfold FMap.term at h
  unfold FMap.getD
  cases hg : m.get? t with
  | none => rw [hg] at h; simp at h; simpa using h.symm
  | some v => rw [hg] at h; simp at h; simpa using h.symm

namespace Boost

/-- What a stake of power `power` has earned in a farm since its last claim. -/
def FarmerSeed.earned (v : FarmerSeed) (power : Nat) (id : FarmId) (f : SeedFarm) : Nat :=
  (f.rps - v.userRps.getD id 0) * power / D27

/-- What has been claimed from a farm, if it pays in token `t`. -/
def SeedFarm.claimedIn (t : AccountId) (f : SeedFarm) : Nat := if f.token = t then f.claimed else 0

/-- What has been deposited in a farm, if it pays in token `t`. -/
def SeedFarm.totalIn (t : AccountId) (f : SeedFarm) : Nat := if f.token = t then f.total else 0

theorem addRewards_ok : ∀ {l : List (AccountId × Nat)} {m m' : FMap AccountId Nat},
    addRewards l m = .ok m' →
    ∀ t, m'.getD t 0 = m.getD t 0 + (l.map fun p => if p.1 = t then p.2 else 0).sum := by
  intro l
  induction l with
  | nil => intro m m' h t; cases h; simp
  | cons p l ih =>
    intro m m' h t
    obtain ⟨k, n⟩ := p
    unfold addRewards at h
    unpack at h
    obtain ⟨_, h⟩ := h
    rw [ih h t, FMap.getD_insert]
    simp only [List.map_cons, List.sum_cons]
    by_cases hk : t = k
    · subst hk
      simp only [if_true]
      omega
    · rw [if_neg hk, if_neg (Ne.symm hk)]
      omega

theorem claimLoop_ok {v : FarmerSeed} {power : Nat} : ∀ {l : List (FarmId × SeedFarm)} {k k' : Claim},
    (l.map Prod.fst).Nodup → (∀ p ∈ l, k.claimed.get? p.1 = none) →
    claimLoop v power l k = .ok k' →
    (∀ id, id ∉ l.map Prod.fst →
      k'.claimed.get? id = k.claimed.get? id ∧ k'.rps.get? id = k.rps.get? id) ∧
    (∀ p ∈ l, v.userRps.getD p.1 0 ≤ p.2.rps ∧
      k'.claimed.getD p.1 0 = v.earned power p.1 p.2 ∧
      k'.rps.get? p.1 = if p.2.total > 0 then some p.2.rps else k.rps.get? p.1) ∧
    (∀ (tok : FarmId → AccountId) (t : AccountId), (∀ p ∈ l, tok p.1 = p.2.token) →
      k'.rewards.getD t 0 + k.claimed.sum (fun id n => if tok id = t then n else 0) =
      k.rewards.getD t 0 + k'.claimed.sum (fun id n => if tok id = t then n else 0)) := by
  intro l
  induction l with
  | nil =>
    intro k k' _ _ h
    cases h
    exact ⟨fun _ _ => ⟨rfl, rfl⟩, ⟨fun p hp => (List.not_mem_nil hp).elim, fun _ _ _ => rfl⟩⟩
  | cons p l ih =>
    intro k k' hn hk h
    obtain ⟨id, f⟩ := p
    simp only [List.map_cons, List.nodup_cons] at hn
    have hid : k.claimed.get? id = none := hk (id, f) (by simp)
    have hne : ∀ q ∈ l, q.1 ≠ id := by
      rintro q hq rfl
      exact hn.1 (List.mem_map.2 ⟨q, hq, rfl⟩)
    unfold claimLoop at h
    unpack at h
    obtain ⟨hle, hmul, hfit, h⟩ := h
    -- the state after this farm
    have key : ∃ k1 : Claim,
        claimLoop v power l (if 0 < f.total then { k1 with rps := k1.rps.insert id f.rps } else k1)
          = .ok k' ∧ k1.rps = k.rps ∧
        (∀ i, i ≠ id → k1.claimed.get? i = k.claimed.get? i) ∧
        k1.claimed.getD id 0 = v.earned power id f ∧
        (∀ (tok : FarmId → AccountId) (t : AccountId), tok id = f.token →
          k1.rewards.getD t 0 + k.claimed.sum (fun id n => if tok id = t then n else 0) =
          k.rewards.getD t 0 + k1.claimed.sum (fun id n => if tok id = t then n else 0)) := by
      split at h
      · rename_i hpos
        unpack at h
        obtain ⟨_, h⟩ := h
        refine ⟨_, h, rfl, fun i hi => FMap.get?_insert_ne _ _ hi, ?_, ?_⟩
        · simp only [FMap.getD_insert, if_true]; rfl
        · intro tok t ht
          have hs := k.claimed.sum_insert (fun id n => if tok id = t then n else 0) id
            ((f.rps - v.userRps.getD id 0) * power / D27)
          rw [FMap.term_none _ hid] at hs
          simp only [FMap.getD_insert]
          by_cases htt : t = f.token
          · subst htt
            rw [if_pos ht] at hs
            simp only [if_true]
            omega
          · rw [if_neg (fun h => htt (h.symm.trans ht))] at hs
            rw [if_neg htt]
            omega
      · rename_i hpos
        refine ⟨k, h, rfl, fun _ _ => rfl, ?_, fun _ _ _ => rfl⟩
        unfold FMap.getD FarmerSeed.earned
        rw [hid]
        simp only [Option.getD_none]
        exact (Nat.eq_zero_of_not_pos hpos).symm
    obtain ⟨k1, h, hr1, hc1, he1, hw1⟩ := key
    obtain ⟨h1, h2, h3⟩ := ih hn.2 (by
      intro q hq
      have : ∀ b : Bool, (if b then ({ k1 with rps := k1.rps.insert id f.rps } : Claim) else k1).claimed =
        k1.claimed := by intro b; cases b <;> rfl
      split <;> simp only [hc1 _ (hne q hq), hk q (by simp [hq])]) h
    have hcl : (if 0 < f.total then ({ k1 with rps := k1.rps.insert id f.rps } : Claim) else k1).claimed =
        k1.claimed := by split <;> rfl
    have hrw : (if 0 < f.total then ({ k1 with rps := k1.rps.insert id f.rps } : Claim) else k1).rewards =
        k1.rewards := by split <;> rfl
    have hrp : ∀ i, (if 0 < f.total then ({ k1 with rps := k1.rps.insert id f.rps } : Claim)
        else k1).rps.get? i = if i = id ∧ 0 < f.total then some f.rps else k.rps.get? i := by
      intro i
      split
      · rename_i ht
        simp only [FMap.get?_insert, hr1, ht, and_true]
      · rename_i ht
        simp only [hr1, ht, and_false, if_false]
    rw [hcl] at h1 h3
    rw [hrw] at h3
    refine ⟨?_, ?_, ?_⟩
    · intro i hi
      simp only [List.map_cons, List.mem_cons, not_or] at hi
      obtain ⟨ha, hb⟩ := h1 i hi.2
      rw [ha, hb, hc1 i hi.1, hrp, if_neg (fun h => hi.1 h.1)]
      exact ⟨rfl, rfl⟩
    · intro q hq
      rcases List.mem_cons.1 hq with rfl | hq
      · obtain ⟨ha, hb⟩ := h1 id hn.1
        refine ⟨hle, ?_, ?_⟩
        · rw [← he1]
          unfold FMap.getD
          rw [ha]
        · rw [hb, hrp]
          simp only [true_and, gt_iff_lt]
      · obtain ⟨ha, hb, hc⟩ := h2 q hq
        refine ⟨ha, hb, ?_⟩
        rw [hc, hrp, if_neg (c := q.1 = id ∧ 0 < f.total) (fun h => hne q hq h.1)]
    · intro tok t ht
      have e1 := h3 tok t (fun q hq => ht q (by simp [hq]))
      have e2 := hw1 tok t (ht (id, f) (by simp))
      omega

theorem updateClaimed_ok : ∀ {l : List (FarmId × Nat)} {m m' : FMap FarmId SeedFarm},
    (l.map Prod.fst).Nodup → updateClaimed l m = .ok m' →
    (∀ id, id ∉ l.map Prod.fst → m'.get? id = m.get? id) ∧
    (∀ p ∈ l, ∃ f, m.get? p.1 = some f ∧ m'.get? p.1 = some { f with claimed := f.claimed + p.2 }) ∧
    (∀ F : FarmId → SeedFarm → Nat, (∀ id f n, F id { f with claimed := n } = F id f) →
      m'.sum F = m.sum F) ∧
    (∀ (tok : FarmId → AccountId) (t : AccountId),
      (∀ id f, m.get? id = some f → tok id = f.token) →
      m'.sum (fun _ => SeedFarm.claimedIn t) = m.sum (fun _ => SeedFarm.claimedIn t) +
        (l.map fun p => if tok p.1 = t then p.2 else 0).sum) := by
  intro l
  induction l with
  | nil =>
    intro m m' _ h
    cases h
    exact ⟨fun _ _ => rfl, ⟨fun p hp => (List.not_mem_nil hp).elim,
      ⟨fun _ _ => rfl, fun _ _ _ => by simp⟩⟩⟩
  | cons p l ih =>
    intro m m' hn h
    obtain ⟨id, n⟩ := p
    simp only [List.map_cons, List.nodup_cons] at hn
    unfold updateClaimed at h
    unpack at h
    obtain ⟨f, hf, _, h⟩ := h
    obtain ⟨h1, h2, h3, h4⟩ := ih hn.2 h
    have hne : ∀ q ∈ l, q.1 ≠ id := by
      rintro q hq rfl
      exact hn.1 (List.mem_map.2 ⟨q, hq, rfl⟩)
    refine ⟨?_, ?_, ?_, ?_⟩
    · intro i hi
      simp only [List.map_cons, List.mem_cons, not_or] at hi
      rw [h1 i hi.2, FMap.get?_insert_ne _ _ hi.1]
    · intro q hq
      rcases List.mem_cons.1 hq with rfl | hq
      · exact ⟨f, hf, by rw [h1 id hn.1, FMap.get?_insert_self]⟩
      · obtain ⟨g, hg, hg'⟩ := h2 q hq
        rw [FMap.get?_insert_ne _ _ (hne q hq)] at hg
        exact ⟨g, hg, hg'⟩
    · intro F hF
      rw [h3 F hF, m.sum_insert_same F id f _ hf (hF id f _)]
    · intro tok t ht
      have e := h4 tok t (by
        intro i g hg
        rw [FMap.get?_insert] at hg
        split at hg
        · cases hg
          subst_vars
          exact ht _ f hf
        · exact ht i g hg)
      have e2 := m.sum_insert (fun _ => SeedFarm.claimedIn t) id { f with claimed := f.claimed + n }
      rw [FMap.term_some _ hf] at e2
      simp only [List.map_cons, List.sum_cons]
      have e3 : SeedFarm.claimedIn t { f with claimed := f.claimed + n } =
          SeedFarm.claimedIn t f + if tok id = t then n else 0 := by
        unfold SeedFarm.claimedIn
        rw [ht id f hf]
        split <;> simp
      rw [e3] at e2
      omega

/-- No stake. -/
def FarmerSeed.zero : FarmerSeed := ⟨0, 0, 0, 0, 0, FMap.empty, FMap.empty⟩

/-- The stake of a farmer in a seed. -/
def Farmer.stakeIn (u : Farmer) (s : SeedId) : FarmerSeed := (u.seeds.get? s).getD FarmerSeed.zero

theorem Farmer.stakeIn_some {u : Farmer} {s : SeedId} {v : FarmerSeed} (h : u.seeds.get? s = some v) :
    u.stakeIn s = v := by unfold stakeIn; rw [h]; rfl

theorem Farmer.stakeIn_none {u : Farmer} {s : SeedId} (h : u.seeds.get? s = none) :
    u.stakeIn s = FarmerSeed.zero := by unfold stakeIn; rw [h]; rfl

/-- What a claim for the seed `sd` does to a farmer and to the seed. -/
structure Claims (fl : Floats) (u : Farmer) (sd : Seed) (u' : Farmer) (sd' : Seed) : Prop where
  sponsor : u'.sponsor = u.sponsor
  others : ∀ r, r ≠ sd.id → u'.seeds.get? r = u.seeds.get? r
  stake : ∃ w, u'.seeds.get? sd.id = some w ∧ (u.stakeIn sd.id).SameStake w ∧
    sd'.power + (u.stakeIn sd.id).pow fl = sd.power + w.pow fl ∧
    (∀ id f, sd.farms.get? id = some f →
      w.userRps.get? id = if f.total > 0 then some f.rps else none) ∧
    (∀ id r, w.userRps.get? id = some r → ∃ f, sd.farms.get? id = some f ∧ r = f.rps)
  eq : ∃ power farms, sd' = { sd with power, farms }
  gone : ∀ id, sd.farms.get? id = none → sd'.farms.get? id = none
  farm : ∀ id f, sd.farms.get? id = some f → (u.stakeIn sd.id).userRps.getD id 0 ≤ f.rps ∧
    sd'.farms.get? id = some { f with claimed :=
      f.claimed + (u.stakeIn sd.id).earned ((u.stakeIn sd.id).pow fl) id f }
  rewards : ∀ t, u'.rewards.getD t 0 + sd.farms.sum (fun _ => SeedFarm.claimedIn t) =
    u.rewards.getD t 0 + sd'.farms.sum (fun _ => SeedFarm.claimedIn t)
  totals : ∀ t, sd'.farms.sum (fun _ => SeedFarm.totalIn t) =
    sd.farms.sum (fun _ => SeedFarm.totalIn t)
  more : ∀ t, u.rewards.getD t 0 ≤ u'.rewards.getD t 0

/-- The stake a claim is computed for has the stakes and rates of the farmer's stake. -/
theorem calcClaim_ok {fl : Floats} {cfg : Config} {u : Farmer} {sd : Seed} {v : FarmerSeed} {k : Claim}
    (h : calcClaim fl cfg u sd = .ok (v, k)) :
    (u.stakeIn sd.id).SameStake v ∧ v.pow fl = (u.stakeIn sd.id).pow fl ∧ v.userRps = k.rps ∧
    ∃ v0 : FarmerSeed, v0.userRps = (u.stakeIn sd.id).userRps ∧
      claimLoop v0 ((u.stakeIn sd.id).pow fl) sd.farms.entries
        ⟨FMap.empty, FMap.empty, FMap.empty⟩ = .ok k := by
  unfold calcClaim at h
  split at h
  · rename_i v0 hv
    unpack at h
    obtain ⟨p, hp, k', hk, rfl, rfl⟩ := h
    have hp := FarmerSeed.power_ok hp
    subst hp
    rw [Farmer.stakeIn_some hv]
    exact ⟨⟨rfl, rfl, rfl, rfl, rfl⟩, rfl, rfl, v0, rfl, hk⟩
  · rename_i hv
    unpack at h
    obtain ⟨r, hr, p, hp, k', hk, rfl, rfl⟩ := h
    have hp := FarmerSeed.power_ok hp
    rw [Farmer.stakeIn_none hv]
    have h0 : FarmerSeed.zero.pow fl = 0 := FarmerSeed.pow_zero rfl
    rw [FarmerSeed.pow_zero rfl] at hp
    subst hp
    refine ⟨⟨rfl, rfl, rfl, rfl, rfl⟩, ?_, rfl,
      ⟨0, 0, 0, 0, 0, r, FMap.empty⟩, rfl, ?_⟩
    · rw [h0]; exact FarmerSeed.pow_zero rfl
    · rw [h0]; exact hk

theorem doClaim_ok {fl : Floats} {cfg : Config} {u u' : Farmer} {sd sd' : Seed}
    (h : doClaim fl cfg u sd = .ok (u', sd')) : Claims fl u sd u' sd' := by
  unfold doClaim at h
  unpack at h
  obtain ⟨v, k, hcalc, rw', hrw, prev, hprev, ratios, hrat, p, hp, _, hsub, farms, hfarms, rfl, rfl⟩ := h
  obtain ⟨hsame, hpow, hrps, v0, hv0, hloop⟩ := calcClaim_ok hcalc
  obtain ⟨h1, h2, h3⟩ := claimLoop_ok sd.farms.nodup (fun _ _ => FMap.get?_empty _) hloop
  obtain ⟨g1, g2, g3, g4⟩ := updateClaimed_ok k.claimed.nodup hfarms
  have hprev := FarmerSeed.power_ok hprev
  have hp := FarmerSeed.power_ok hp
  have mem : ∀ {id f}, sd.farms.get? id = some f → (id, f) ∈ sd.farms.entries :=
    fun hf => (sd.farms.mem_entries_iff).2 hf
  have notmem : ∀ {id}, sd.farms.get? id = none → id ∉ sd.farms.entries.map Prod.fst := by
    intro id hid hm
    obtain ⟨q, hq, rfl⟩ := List.mem_map.1 hm
    rw [(sd.farms.mem_entries_iff).1 hq] at hid
    cases hid
  have hclaimed : ∀ id, id ∉ k.claimed.entries.map Prod.fst → k.claimed.getD id 0 = 0 := by
    intro id hid
    unfold FMap.getD
    cases hg : k.claimed.get? id with
    | none => rfl
    | some n => exact absurd (List.mem_map.2 ⟨(id, n), (k.claimed.mem_entries_iff).2 hg, rfl⟩) hid
  refine ⟨rfl, fun r hr => FMap.get?_insert_ne _ _ hr, ⟨_, FMap.get?_insert_self _ _ _, ?_, ?_, ?_, ?_⟩,
    ⟨_, _, rfl⟩, ?_, ?_, ?_, ?_, ?_⟩
  · exact hsame
  · show sd.power + p - prev + _ = sd.power + _
    rw [← hp, ← hpow, ← hprev]
    omega
  · intro id f hf
    show v.userRps.get? id = _
    rw [hrps, (h2 (id, f) (mem hf)).2.2]
    rfl
  · intro id r hr
    change v.userRps.get? id = some r at hr
    rw [hrps] at hr
    cases hf : sd.farms.get? id with
    | none =>
      rw [(h1 id (notmem hf)).2] at hr
      cases hr
    | some f =>
      rw [(h2 (id, f) (mem hf)).2.2] at hr
      split at hr
      · cases hr; exact ⟨f, rfl, rfl⟩
      · cases hr
  · intro id hid
    show farms.get? id = none
    rw [g1 id, hid]
    intro hm
    obtain ⟨q, hq, rfl⟩ := List.mem_map.1 hm
    obtain ⟨f, hf, _⟩ := g2 q hq
    rw [hid] at hf
    cases hf
  · intro id f hf
    obtain ⟨ha, hb, _⟩ := h2 (id, f) (mem hf)
    rw [hv0] at ha
    refine ⟨ha, ?_⟩
    have hb' : k.claimed.getD id 0 = (u.stakeIn sd.id).earned ((u.stakeIn sd.id).pow fl) id f := by
      rw [hb]; unfold FarmerSeed.earned; rw [hv0]
    show farms.get? id = _
    rw [← hb']
    by_cases hm : id ∈ k.claimed.entries.map Prod.fst
    · obtain ⟨q, hq, rfl⟩ := List.mem_map.1 hm
      obtain ⟨f', hf', hf''⟩ := g2 q hq
      rw [hf] at hf'
      cases hf'
      rw [hf'']
      have : k.claimed.getD q.1 0 = q.2 := by
        unfold FMap.getD; rw [(k.claimed.mem_entries_iff).1 hq]; rfl
      rw [this]
    · rw [g1 id hm, hclaimed id hm, hf]
      rfl
  · intro t
    show rw'.getD t 0 + _ = _ + farms.sum _
    have e1 := addRewards_ok hrw t
    have e2 : (k.rewards.entries.map fun p => if p.1 = t then p.2 else 0).sum = k.rewards.getD t 0 :=
      k.rewards.sum_key t
    have htok : ∀ id f, sd.farms.get? id = some f →
        (fun id => ((sd.farms.get? id).map SeedFarm.token).getD []) id = f.token := by
      intro id f hf
      simp [hf]
    have e3 := h3 (fun id => ((sd.farms.get? id).map SeedFarm.token).getD []) t
      (fun q hq => htok q.1 q.2 ((sd.farms.mem_entries_iff).1 hq))
    have e4 := g4 (fun id => ((sd.farms.get? id).map SeedFarm.token).getD []) t htok
    have e5 : (FMap.empty : FMap AccountId Nat).getD t 0 = 0 := rfl
    have e6 : (FMap.empty : FMap FarmId Nat).sum (fun id n =>
      if ((sd.farms.get? id).map SeedFarm.token).getD [] = t then n else 0) = 0 := rfl
    have e7 : (k.claimed.entries.map fun p =>
        if ((sd.farms.get? p.1).map SeedFarm.token).getD [] = t then p.2 else 0).sum =
        k.claimed.sum (fun id n => if ((sd.farms.get? id).map SeedFarm.token).getD [] = t then n else 0) :=
      rfl
    simp only at e3 e4
    rw [e5, e6] at e3
    rw [e7] at e4
    omega
  · intro t
    exact g3 _ (fun _ _ _ => rfl)
  · intro t
    show _ ≤ rw'.getD t 0
    have := addRewards_ok hrw t
    omega

end Boost

end Verif

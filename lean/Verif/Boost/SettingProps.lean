import Verif.Boost.TermsProps

/-
C103: what is set for seeds, farms and boosters of the boost farming contract, and who is what.
-/

namespace Verif

/-- Maps that look the same to `f` have the same sum. -/
theorem FMap.sum_ext {K V : Type} [DecidableEq K] {m m' : FMap K V} {f : K → V → Nat}
    (h : ∀ k, (m.get? k).map (f k) = (m'.get? k).map (f k)) : m.sum f = m'.sum f := by
  have nodup : ∀ m : FMap K V, (m.entries.map fun p => (p.1, f p.1 p.2)).Nodup := by
    intro m
    refine List.Pairwise.of_map (S := (· ≠ ·)) Prod.fst (fun a b hab he => hab (by rw [he])) ?_
    rw [List.map_map]
    exact m.nodup
  have mem : ∀ (m : FMap K V) (q : K × Nat), q ∈ m.entries.map (fun p => (p.1, f p.1 p.2)) ↔
      (m.get? q.1).map (f q.1) = some q.2 := by
    intro m q
    constructor
    · intro hq
      obtain ⟨p, hp, rfl⟩ := List.mem_map.1 hq
      rw [(FMap.mem_entries_iff m).1 hp]
      rfl
    · intro hq
      cases hg : m.get? q.1 with
      | none => rw [hg] at hq; cases hq
      | some v =>
        rw [hg] at hq
        simp only [Option.map_some, Option.some.injEq] at hq
        exact List.mem_map.2 ⟨(q.1, v), (FMap.mem_entries_iff m).2 hg, by simp only [hq]⟩
  have perm := (List.perm_ext_iff_of_nodup (nodup m) (nodup m')).2 fun q => by
    rw [mem, mem, h]
  have := (perm.map Prod.snd).sum_nat
  rw [List.map_map, List.map_map] at this
  exact this

theorem FMap.size_eq_sum {K V : Type} (m : FMap K V) : m.size = m.sum fun _ _ => 1 := by
  unfold FMap.size FMap.sum
  induction m.entries with
  | nil => rfl
  | cons p l ih => rw [List.map_cons, List.sum_cons, ← ih, List.length_cons, Nat.add_comm]

end Verif

namespace Verif.Boost

open Demo

/-- What is set for a seed: its decimals, minimal deposit, slash rate and minimal locking time. -/
def Seed.terms (sd : Seed) : Nat × Nat × Nat × Nat := (sd.decimals, sd.minDeposit, sd.slashRate, sd.minLock)

/-- What is set for a seed, as `get_seed` shows it. -/
def Contract.seedTerms (c : Contract) (s : SeedId) : Option (Nat × Nat × Nat × Nat) :=
  (c.seeds.get? s).map Seed.terms

/-- What is set for a farm: its token, start and daily reward, and the reward it got, as `get_farm`
shows it. -/
def Contract.farmTerms (c : Contract) (s : SeedId) (id : FarmId) :
    Option (AccountId × Nat × Nat × Nat) :=
  (c.seeds.get? s).bind fun sd => (sd.farms.get? id).map SeedFarm.terms

/-- The farm a call deposits reward for. -/
def Call.rewardTo : Call → Option FarmId
  | .ftOnTransfer _ _ (.reward id) => some id
  | _ => none

/-- All that is set stays as it is, but for one farm. -/
structure Contract.Kept (c : Contract) (x : Option FarmId) (c' : Contract) : Prop where
  cfg : c'.cfg = c.cfg
  owner : c'.owner = c.owner
  operators : c'.operators = c.operators
  running : c'.running = c.running
  outdated : c'.outdated = c.outdated
  count : c'.farmCount = c.farmCount
  seed : ∀ s, c'.seedTerms s = c.seedTerms s
  farm : ∀ s id, x ≠ some id → c'.farmTerms s id = c.farmTerms s id
  keys : ∀ s id, (c'.farmTerms s id).isSome = (c.farmTerms s id).isSome

namespace Contract

theorem Kept.same {c c' : Contract} (h1 : c' = { c with seeds := c'.seeds, farmers := c'.farmers, slashed := c'.slashed, farmerCount := c'.farmerCount })
    (h2 : ∀ s, c'.seedTerms s = c.seedTerms s) (h3 : ∀ s id, c'.farmTerms s id = c.farmTerms s id) :
    Kept c none c' :=
  ⟨by rw [h1], by rw [h1], by rw [h1], by rw [h1], by rw [h1], by rw [h1], h2, fun s id _ => h3 s id,
    fun s id => by rw [h3]⟩

theorem Seed_Quiet_terms {sd sd' : Seed} (q : sd.Quiet sd') : sd'.terms = sd.terms := by
  unfold Seed.terms
  rw [q.decimals, q.minDeposit, q.slashRate, q.minLock]

theorem _root_.Verif.Boost.Restake.kept {fl : Floats} {c c' : Contract} {a : AccountId} {s : SeedId}
    {v w : FarmerSeed} (rs : Restake fl c a s v w c') : Kept c none c' := by
  obtain ⟨sd, sd', sq, h1, h2, q, h3, _⟩ := rs.seed
  refine Kept.same (by have := rs.eq; rw [this]) ?_ ?_
  · intro r
    unfold seedTerms
    by_cases hr : r = s
    · subst hr
      rw [h1, h2, Option.map_some, Option.map_some, h3]
      have := Seed_Quiet_terms q
      exact congrArg some this
    · cases hg : c.seeds.get? r with
      | none => rw [(rs.others r hr).1 hg]
      | some sr =>
        obtain ⟨sr', hr', q'⟩ := (rs.others r hr).2 sr hg
        rw [hr']
        exact congrArg some (Seed_Quiet_terms q')
  · intro r id
    unfold farmTerms
    by_cases hr : r = s
    · subst hr
      rw [h1, h2, Option.bind_some, Option.bind_some, h3]
      exact q.farms id
    · cases hg : c.seeds.get? r with
      | none => rw [(rs.others r hr).1 hg]
      | some sr =>
        obtain ⟨sr', hr', q'⟩ := (rs.others r hr).2 sr hg
        rw [hr', Option.bind_some, Option.bind_some]
        exact q'.farms id

theorem seedTerms_load {c : Contract} {now : Nat} {s : SeedId} {sd : Seed} (h : c.seed now s = .ok sd) :
    c.seedTerms s = some sd.terms ∧ ∀ id, c.farmTerms s id = (sd.farms.get? id).map SeedFarm.terms := by
  obtain ⟨old, hold, up⟩ := Contract.seed_ok h
  unfold seedTerms farmTerms
  rw [hold]
  exact ⟨congrArg some (Seed_Quiet_terms up.quiet).symm, fun id => (up.quiet.farms id).symm⟩

theorem seedTerms_set {c : Contract} {s r : SeedId} {sd : Seed} {m : FMap SeedId Seed}
    (h : m = c.seeds.insert s sd) : ((m.get? r).map Seed.terms) =
      if r = s then some sd.terms else c.seedTerms r := by
  subst h
  rw [FMap.get?_insert]
  split <;> rfl

theorem farmTerms_set {c : Contract} {s r : SeedId} {sd : Seed} {m : FMap SeedId Seed} {id : FarmId}
    (h : m = c.seeds.insert s sd) : ((m.get? r).bind fun sd => (sd.farms.get? id).map SeedFarm.terms) =
      if r = s then (sd.farms.get? id).map SeedFarm.terms else c.farmTerms r id := by
  subst h
  rw [FMap.get?_insert]
  split <;> rfl

/-- **C103.** Whatever users do, with stakes, claims, registrations and deposits of reward, changes
nothing that owner and operators set: the parameters, the roles, the seeds, and the farms but for the
reward and the start of the one that gets a deposit. -/
theorem C103_users {fl : Floats} {c c' : Contract} (h : c.Reachable fl) {x : Ctx} {k : Call}
    {o : List Out} (he : c.exec fl x k = .ok (c', o)) (h1 : k.ownerOnly = false)
    (h2 : k.managerOnly = false) : Kept c k.rewardTo c' := by
  have free : ∀ {a s n c1}, c.stakeFree fl x.now a s n = .ok c1 → Kept c none c1 := by
    intro a s n c1 h1
    obtain ⟨v, rs, _⟩ := stakeFree_ok h.inv h1
    exact rs.kept
  have lock : ∀ {a s n d c1}, c.stakeLock fl x.now a s n d = .ok c1 → Kept c none c1 := by
    intro a s n d c1 h1
    obtain ⟨v, _, rs, _⟩ := stakeLock_ok h.inv h1
    exact rs.kept
  have same : ∀ {c1 : Contract}, c1 = { c with farmers := c1.farmers, farmerCount := c1.farmerCount } →
      Kept c none c1 := by
    intro c1 e
    have e1 : c1.seeds = c.seeds := by rw [e]
    refine Kept.same (by rw [e]) (fun s => ?_) (fun s id => ?_)
    · unfold seedTerms; rw [e1]
    · unfold farmTerms; rw [e1]
  cases k with
  | ftOnTransfer a' n m =>
    simp only [exec] at he
    unpack at he
    obtain ⟨_, c1, he, rfl, rfl⟩ := he
    unfold ftOnTransfer at he
    unpack at he
    obtain ⟨_, _, he⟩ := he
    cases m with
    | free => exact free he
    | lock d => exact lock he
    | reward id =>
      simp only [depositReward] at he
      unpack at he
      obtain ⟨s, _, sd, hsd, f, hf, g, hadd, rfl⟩ := he
      obtain ⟨e1, e2⟩ := seedTerms_load hsd
      refine ⟨rfl, rfl, rfl, rfl, rfl, rfl, fun r => ?_, fun r i hi => ?_, fun r i => ?_⟩
      · refine (seedTerms_set rfl).trans ?_
        split
        · rename_i hr; rw [hr, e1]; rfl
        · rfl
      · refine (farmTerms_set rfl).trans ?_
        split
        · rename_i hr
          rw [hr, e2]
          show (((sd.farms.insert id g).get? i).map _) = _
          rw [FMap.get?_insert_ne _ _ (fun hh => hi (by rw [hh]; rfl))]
        · rfl
      · refine (congrArg Option.isSome (farmTerms_set rfl)).trans ?_
        split
        · rename_i hr
          rw [hr, e2]
          show (((sd.farms.insert id g).get? i).map _).isSome = _
          rw [FMap.get?_insert]
          split
          · rename_i hi; rw [hi, hf]; rfl
          · rfl
        · rfl
    | bad => cases he
  | mftOnTransfer t a' n m =>
    simp only [exec] at he
    unpack at he
    obtain ⟨_, c1, he, rfl, rfl⟩ := he
    unfold mftOnTransfer at he
    unpack at he
    obtain ⟨_, _, he⟩ := he
    split at he
    · cases m with
      | free => exact free he
      | lock d => exact lock he
      | reward id => cases he
      | bad => cases he
    · cases he
  | lockFreeSeed s d n =>
    simp only [exec] at he
    unpack at he
    obtain ⟨c1, he, rfl, rfl⟩ := he
    obtain ⟨v, _, _, _, _, rs, _⟩ := lockFree_ok h.inv he
    exact rs.kept
  | forceUnlock s n =>
    simp only [exec] at he
    unpack at he
    obtain ⟨c1, he, rfl, rfl⟩ := he
    obtain ⟨v, _, _, _, rs, _⟩ := forceUnlock_ok h.inv he
    exact rs.kept
  | claimReward s =>
    simp only [exec] at he
    unpack at he
    obtain ⟨c1, he, rfl, rfl⟩ := he
    obtain ⟨u, sd, u', sd', hu, hsd, hcl, hid, cl, rfl, _⟩ := claimReward_ok h.inv he
    obtain ⟨e1, e2⟩ := seedTerms_load hsd
    refine Kept.same rfl (fun r => ?_) (fun r i => ?_)
    · refine (seedTerms_set rfl).trans ?_
      split
      · rename_i hr; rw [hr, e1, Seed_Quiet_terms cl.quiet]
      · rfl
    · refine (farmTerms_set rfl).trans ?_
      split
      · rename_i hr; rw [hr, e2, cl.quiet.farms]
      · rfl
  | storageDeposit a =>
    simp only [exec, storageDeposit, assertRunning] at he
    unpack at he
    obtain ⟨_, he⟩ := he
    split at he
    · unpack at he
      obtain ⟨rfl, _⟩ := he
      exact same rfl
    · unpack at he
      obtain ⟨_, _, rfl, _⟩ := he
      exact same rfl
  | storageUnregister =>
    simp only [exec, storageUnregister, oneYocto, assertRunning] at he
    unpack at he
    obtain ⟨_, _, he⟩ := he
    split at he
    · unpack at he
      obtain ⟨rfl, _⟩ := he
      exact same rfl
    · unpack at he
      obtain ⟨_, _, _, rfl, _⟩ := he
      exact same rfl
  | createSeed s d m l => cases h2
  | createFarm s t a d => cases h2
  | cancelFarm id => cases h2
  | setting s => cases h2
  | removeFarm id => cases h1
  | setOwner a => cases h1
  | setRunning b => cases h1
  | extendOperators l => cases h1
  | removeOperators l => cases h1

example : c1.farmTerms S F = some (T, 1000, 8640000, 1000) ∧ c1.seedTerms S = some (0, 1, 200, 100) ∧
    c4.farmTerms S F = c1.farmTerms S F ∧ c4.seedTerms S = c1.seedTerms S := by decide +kernel

/-- What a setting changes in the parameters of the contract. -/
def _root_.Verif.Boost.Setting.cfg : Setting → Config → Config
  | .lockingPolicy d r, g => { g with maxDuration := d, maxMultiplier := r }
  | .maxFarmsPerSeed n, g => { g with maxPerSeed := n }
  | .defaultSlashRate n, g => { g with slashRate := n }
  | .booster s b, g => { g with boosters := g.boosters.insert s b }
  | _, g => g

/-- What a setting changes in what is set for a seed. -/
def _root_.Verif.Boost.Setting.seed (k : Setting) (r : SeedId) :
    Nat × Nat × Nat × Nat → Nat × Nat × Nat × Nat
  | (d, m, sl, l) => match k with
    | .minDeposit s n => (d, if r = s then n else m, sl, l)
    | .slashRate s n => (d, m, if r = s then n else sl, l)
    | .minLocking s n => (d, m, sl, if r = s then n else l)
    | _ => (d, m, sl, l)

/-- What a setting changes in what is set for a farm. -/
def _root_.Verif.Boost.Setting.farm (k : Setting) (id : FarmId) :
    AccountId × Nat × Nat × Nat → AccountId × Nat × Nat × Nat
  | (t, a, d, n) => match k with
    | .dailyReward id' m => (t, a, if id = id' then m else d, n)
    | _ => (t, a, d, n)

theorem option_map_id {α : Type} {f : α → α} (h : ∀ a, f a = a) (o : Option α) : o = o.map f := by
  cases o with
  | none => rfl
  | some a => exact congrArg some (h a).symm

theorem splitLast_digits {l : List Char} (h : ∀ ch ∈ l, ch ≠ '#') : splitLast l = none := by
  induction l with
  | nil => rfl
  | cons ch l ih =>
    unfold splitLast
    rw [ih (fun d hd => h d (List.mem_cons_of_mem _ hd))]
    simp only
    rw [if_neg (h ch (List.mem_cons_self ..))]

theorem splitLast_gen (s : SeedId) {l : List Char} (h : ∀ ch ∈ l, ch ≠ '#') :
    splitLast (s ++ '#' :: l) = some (s, l) := by
  induction s with
  | nil =>
    simp only [List.nil_append]
    unfold splitLast
    rw [splitLast_digits h]
    simp
  | cons ch s ih =>
    simp only [List.cons_append]
    unfold splitLast
    rw [ih]

/-- The seed of a farm id is the seed that has a farm with it. -/
theorem parseFarmId_gen {s r : SeedId} {i : Nat} (h : parseFarmId (genFarmId s i) = .ok r) : r = s := by
  unfold parseFarmId genFarmId at h
  unpack at h
  obtain ⟨a, b, hs, _, _, _, rfl⟩ := h
  have hd : ∀ ch ∈ Nat.toDigits 10 i, ch ≠ '#' := by
    intro ch hch he
    have := Nat.isDigit_of_mem_toDigits (by decide) (by decide) hch
    rw [he] at this
    exact absurd this (by decide)
  rw [splitLast_gen s hd] at hs
  cases hs
  rfl

/-- **C103.** A setting changes the one thing it names, for the seed or farm it names, and nothing
else; and what it sets is within the limits. -/
theorem C103_setting {fl : Floats} {c c' : Contract} (h : c.Reachable fl) {x : Ctx} {k : Setting}
    {o : List Out} (he : c.exec fl x (.setting k) = .ok (c', o)) :
    c'.cfg = k.cfg c.cfg ∧ (∀ s, c'.seedTerms s = (c.seedTerms s).map (k.seed s)) ∧
    (∀ s id, c'.farmTerms s id = (c.farmTerms s id).map (k.farm id)) ∧
    c' = { c with cfg := c'.cfg, seeds := c'.seeds } ∧
    (match k with
      | .dailyReward id _ => ∃ s, (c.farmTerms s id).isSome
      | .minDeposit s _ | .slashRate s _ => (c.seedTerms s).isSome
      | .minLocking s n => (c.seedTerms s).isSome ∧ n ≤ c.cfg.maxDuration
      | .lockingPolicy _ r => 10000 < r
      | .defaultSlashRate n => n < 10000
      | .maxFarmsPerSeed _ => True
      | .booster s b => (c.seedTerms s).isSome ∧ b.affected.get? s = none ∧ b.affected.size ≤ 16) := by
  replace he : c.setting x k = .ok c' := by
    simp only [exec] at he
    unpack at he
    obtain ⟨c1, h1, rfl, _⟩ := he
    exact h1
  unfold setting oneYocto assertManager assertRunning at he
  unpack at he
  obtain ⟨_, _, _, he⟩ := he
  have seeds : (∀ r, ∀ t, k.seed r t = t) → ∀ s, c.seedTerms s = (c.seedTerms s).map (k.seed s) :=
    fun hk s => option_map_id (hk s) _
  have farms : (∀ r, ∀ t, k.farm r t = t) → ∀ s id, c.farmTerms s id = (c.farmTerms s id).map (k.farm id) :=
    fun hk s id => option_map_id (hk id) _
  cases k with
  | dailyReward id n =>
    simp only at he
    unpack at he
    obtain ⟨s, hs, sd, hsd, f, hf, rfl⟩ := he
    obtain ⟨e1, e2⟩ := seedTerms_load hsd
    refine ⟨rfl, fun r => ?_, fun r i => ?_, rfl, s, by rw [e2, hf]; rfl⟩
    · refine (seedTerms_set rfl).trans ?_
      split
      · rename_i hr; rw [hr, e1]; rfl
      · exact seeds (fun _ _ => rfl) r
    · refine (farmTerms_set rfl).trans ?_
      split
      · rename_i hr
        rw [hr, e2]
        show (((sd.farms.insert id _).get? i).map _) = _
        rw [FMap.get?_insert]
        split
        · rename_i hi
          rw [hi, hf]
          simp only [Option.map_some, SeedFarm.terms, Setting.farm, if_true]
        · rename_i hi
          cases sd.farms.get? i with
          | none => rfl
          | some g => simp only [Option.map_some, SeedFarm.terms, Setting.farm, if_neg hi]
      · rename_i hr
        cases hg : c.farmTerms r i with
        | none => rfl
        | some t =>
          have hi : i ≠ id := by
            intro hi
            subst hi
            unfold farmTerms at hg
            cases hr' : c.seeds.get? r with
            | none => rw [hr'] at hg; cases hg
            | some sr =>
              rw [hr', Option.bind_some] at hg
              cases hf' : sr.farms.get? i with
              | none => rw [hf'] at hg; cases hg
              | some g =>
                obtain ⟨j, _, rfl⟩ := h.inv.farmIds r sr i g hr' hf'
                exact hr (parseFarmId_gen hs).symm
          obtain ⟨t1, t2, t3, t4⟩ := t
          simp only [Option.map_some, Setting.farm, if_neg hi]
  | lockingPolicy d r =>
    simp only at he
    unpack at he
    obtain ⟨h1, rfl⟩ := he
    exact ⟨rfl, seeds fun _ _ => rfl, farms fun _ _ => rfl, rfl, h1⟩
  | maxFarmsPerSeed n =>
    simp only at he
    unpack at he
    subst he
    exact ⟨rfl, seeds fun _ _ => rfl, farms fun _ _ => rfl, rfl, trivial⟩
  | defaultSlashRate n =>
    simp only at he
    unpack at he
    obtain ⟨h1, rfl⟩ := he
    exact ⟨rfl, seeds fun _ _ => rfl, farms fun _ _ => rfl, rfl, h1⟩
  | minDeposit s n =>
    simp only at he
    unpack at he
    obtain ⟨sd, hsd, rfl⟩ := he
    obtain ⟨e1, e2⟩ := seedTerms_load hsd
    refine ⟨rfl, fun r => ?_, fun r i => ?_, rfl, by simp only [e1, Option.isSome_some]⟩
    · refine (seedTerms_set rfl).trans ?_
      split
      · rename_i hr
        rw [hr, e1]
        simp only [Option.map_some, Seed.terms, Setting.seed, if_true]
      · rename_i hr
        exact option_map_id (fun t => by simp only [Setting.seed, if_neg hr]) _
    · refine (farmTerms_set rfl).trans (Eq.trans ?_ (farms (fun _ _ => rfl) r i))
      split
      · rename_i hr; rw [hr, e2]
      · rfl
  | minLocking s n =>
    simp only at he
    unpack at he
    obtain ⟨hn, sd, hsd, rfl⟩ := he
    obtain ⟨e1, e2⟩ := seedTerms_load hsd
    refine ⟨rfl, fun r => ?_, fun r i => ?_, rfl, by simp only [e1, Option.isSome_some], hn⟩
    · refine (seedTerms_set rfl).trans ?_
      split
      · rename_i hr
        rw [hr, e1]
        simp only [Option.map_some, Seed.terms, Setting.seed, if_true]
      · rename_i hr
        exact option_map_id (fun t => by simp only [Setting.seed, if_neg hr]) _
    · refine (farmTerms_set rfl).trans (Eq.trans ?_ (farms (fun _ _ => rfl) r i))
      split
      · rename_i hr; rw [hr, e2]
      · rfl
  | slashRate s n =>
    simp only at he
    unpack at he
    obtain ⟨sd, hsd, rfl⟩ := he
    obtain ⟨e1, e2⟩ := seedTerms_load hsd
    refine ⟨rfl, fun r => ?_, fun r i => ?_, rfl, by simp only [e1, Option.isSome_some]⟩
    · refine (seedTerms_set rfl).trans ?_
      split
      · rename_i hr
        rw [hr, e1]
        simp only [Option.map_some, Seed.terms, Setting.seed, if_true]
      · rename_i hr
        exact option_map_id (fun t => by simp only [Setting.seed, if_neg hr]) _
    · refine (farmTerms_set rfl).trans (Eq.trans ?_ (farms (fun _ _ => rfl) r i))
      split
      · rename_i hr; rw [hr, e2]
      · rfl
  | booster s b =>
    simp only at he
    unpack at he
    obtain ⟨sd, hsd, h1, h2, n, hn, h3, rfl⟩ := he
    obtain ⟨e1, _⟩ := seedTerms_load hsd
    refine ⟨rfl, seeds fun _ _ => rfl, farms fun _ _ => rfl, rfl, by simp only [e1, Option.isSome_some],
      ?_, h2⟩
    unfold FMap.contains at h1
    cases hb : b.affected.get? s with
    | none => rfl
    | some v => rw [hb] at h1; cases h1

example : (c1.step fl ⟨y 1002 own, .setting (.slashRate S 300)⟩).seedTerms S = some (0, 1, 300, 100) ∧
    (c1.step fl ⟨y 1002 own, .setting (.dailyReward F 7)⟩).farmTerms S F = some (T, 1000, 7, 1000) ∧
    (c1.exec fl (y 1002 own) (.setting (.minLocking S 31104001))).isOk = false ∧
    (c1.exec fl (y 1002 own) (.setting (.defaultSlashRate 10000))).isOk = false := by decide +kernel

/-- **C103.** A new seed has the given terms, the default slash rate and no farms; a new farm has the
given terms, no reward and an id that no farm of the seed has had. -/
theorem C103_create {fl : Floats} {c c' : Contract} (h : c.Reachable fl) {x : Ctx} {o : List Out}
    {s : SeedId} :
    (∀ d m l, c.exec fl x (.createSeed s d m l) = .ok (c', o) → c.seedTerms s = none ∧
      c'.seedTerms s = some (d, m.getD (10 ^ 18), c.cfg.slashRate, l.getD (30 * 86400)) ∧
      (∀ id, c'.farmTerms s id = none) ∧ (∀ r, r ≠ s → c'.seedTerms r = c.seedTerms r) ∧
      (∀ r id, r ≠ s → c'.farmTerms r id = c.farmTerms r id) ∧ c' = { c with seeds := c'.seeds }) ∧
    (∀ t a d, c.exec fl x (.createFarm s t a d) = .ok (c', o) → ∃ sd i, c.seeds.get? s = some sd ∧
      i = sd.nextIndex ∧ sd.farms.size < c.cfg.maxPerSeed ∧ c.farmTerms s (genFarmId s i) = none ∧
      c.outdated.get? (genFarmId s i) = none ∧ c'.farmTerms s (genFarmId s i) = some (t, a, d, 0) ∧
      (∀ r, c'.seedTerms r = c.seedTerms r) ∧
      (∀ r id, (r, id) ≠ (s, genFarmId s i) → c'.farmTerms r id = c.farmTerms r id) ∧
      c' = { c with seeds := c'.seeds, farmCount := c.farmCount + 1 }) := by
  constructor
  · intro d m l he
    simp only [exec] at he
    unpack at he
    obtain ⟨c1, he, rfl, rfl⟩ := he
    unfold createSeed oneYocto assertManager assertRunning at he
    unpack at he
    obtain ⟨_, _, _, hn, rfl⟩ := he
    have hn' : c.seeds.get? s = none := by
      cases hs : c.seeds.get? s with
      | none => rfl
      | some sd => rw [hs] at hn; cases hn
    refine ⟨by unfold seedTerms; rw [hn']; rfl, ?_, fun id => ?_, fun r hr => ?_, fun r id hr => ?_, rfl⟩
    · refine (seedTerms_set rfl).trans ?_
      rw [if_pos rfl]
      rfl
    · refine (farmTerms_set rfl).trans ?_
      rw [if_pos rfl]
      rfl
    · refine (seedTerms_set rfl).trans ?_
      rw [if_neg hr]
    · refine (farmTerms_set rfl).trans ?_
      rw [if_neg hr]
  · intro t a d he
    simp only [exec] at he
    unpack at he
    obtain ⟨c1, he, rfl, rfl⟩ := he
    unfold createFarm oneYocto assertManager assertRunning at he
    unpack at he
    obtain ⟨_, _, _, sd, hsd, hsz, _, _, _, hb, rfl⟩ := he
    obtain ⟨e1, e2⟩ := seedTerms_load hsd
    obtain ⟨old, hold, up⟩ := Contract.seed_ok hsd
    have hsize : sd.farms.size = old.farms.size := by
      rw [FMap.size_eq_sum, FMap.size_eq_sum]
      exact up.sum _ (fun _ _ _ _ => rfl)
    have hnew : sd.farms.get? (genFarmId s sd.nextIndex) = none := by
      cases hf : sd.farms.get? (genFarmId s sd.nextIndex) with
      | none => rfl
      | some f =>
        obtain ⟨i, hi, hid⟩ := (h.inv.load hsd).farmIds s sd _ f (FMap.get?_insert_self _ _ _) hf
        have := (genFarmId_inj hid).2
        omega
    have hnext : sd.nextIndex = old.nextIndex := up.quiet.next
    refine ⟨old, sd.nextIndex, hold, hnext, by rw [← hsize]; exact hsz, by rw [e2, hnew]; rfl, ?_, ?_,
      fun r => ?_, fun r id hr => ?_, rfl⟩
    · cases ho : c.outdated.get? (genFarmId s sd.nextIndex) with
      | none => rfl
      | some f =>
        obtain ⟨r, sr, i, hr, hi, hid, _⟩ := h.inv.outIds _ f ho
        obtain ⟨rfl, hh⟩ := genFarmId_inj hid
        rw [hold] at hr
        cases hr
        omega
    · refine (farmTerms_set rfl).trans ?_
      rw [if_pos rfl]
      show ((sd.farms.insert _ _).get? _).map _ = _
      rw [FMap.get?_insert_self]
      rfl
    · refine (seedTerms_set rfl).trans ?_
      split
      · rename_i hr; rw [hr, e1]; rfl
      · rfl
    · refine (farmTerms_set rfl).trans ?_
      split
      · rename_i hr'
        subst hr'
        rw [e2]
        show ((sd.farms.insert _ _).get? _).map _ = _
        rw [FMap.get?_insert_ne _ _ (fun hh => hr (by rw [hh]))]
      · rfl

example : (c1.step fl ⟨y 1002 own, .createFarm S T 7 8⟩).farmTerms S "S#1".toList = some (T, 7, 8, 0) ∧
    (c1.exec fl (y 1002 own) (.createSeed S 0 none none)).isOk = false ∧
    (c1.step fl ⟨y 1002 own, .createSeed T 18 none none⟩).seedTerms T =
      some (18, 10 ^ 18, 200, 2592000) := by decide +kernel

theorem mem_extend {l : List AccountId} : ∀ {ops : List AccountId} {a : AccountId},
    a ∈ l.foldl (fun ops a => if a ∈ ops then ops else ops ++ [a]) ops ↔ a ∈ ops ∨ a ∈ l := by
  induction l with
  | nil => intro ops a; simp
  | cons b l ih =>
    intro ops a
    rw [List.foldl_cons, ih, List.mem_cons]
    split
    · rename_i hb
      constructor
      · rintro (h | h)
        · exact .inl h
        · exact .inr (.inr h)
      · rintro (h | rfl | h)
        · exact .inl h
        · exact .inl hb
        · exact .inr h
    · rw [List.mem_append, List.mem_singleton, or_assoc]

theorem mem_drop {l : List AccountId} : ∀ {ops ops' : List AccountId},
    dropOperators l ops = .ok ops' → (∀ a ∈ l, a ∈ ops) ∧ ∀ a, a ∈ ops' ↔ a ∈ ops ∧ a ∉ l := by
  induction l with
  | nil =>
    intro ops ops' h
    cases h
    exact ⟨fun a ha => absurd ha List.not_mem_nil, fun a => by simp⟩
  | cons b l ih =>
    intro ops ops' h
    unfold dropOperators at h
    unpack at h
    obtain ⟨hb, h⟩ := h
    obtain ⟨h1, h2⟩ := ih h
    refine ⟨fun a ha => ?_, fun a => ?_⟩
    · rcases List.mem_cons.1 ha with rfl | ha
      · exact hb
      · exact (List.mem_filter.1 (h1 a ha)).1
    · rw [h2, List.mem_filter, List.mem_cons]
      simp only [ne_eq, decide_not, Bool.not_eq_true', decide_eq_false_iff_not]
      tauto

/-- **C103.** The owner's calls on roles do what they say and nothing else. -/
theorem C103_roles {fl : Floats} {c c' : Contract} {x : Ctx} {o : List Out} :
    (∀ a, c.exec fl x (.setOwner a) = .ok (c', o) → c' = { c with owner := a }) ∧
    (∀ b, c.exec fl x (.setRunning b) = .ok (c', o) → c' = { c with running := b }) ∧
    (∀ l, c.exec fl x (.extendOperators l) = .ok (c', o) → c' = { c with operators := c'.operators } ∧
      ∀ a, a ∈ c'.operators ↔ a ∈ c.operators ∨ a ∈ l) ∧
    (∀ l, c.exec fl x (.removeOperators l) = .ok (c', o) → c' = { c with operators := c'.operators } ∧
      (∀ a ∈ l, a ∈ c.operators) ∧ ∀ a, a ∈ c'.operators ↔ a ∈ c.operators ∧ a ∉ l) := by
  refine ⟨fun a he => ?_, fun b he => ?_, fun l he => ?_, fun l he => ?_⟩
  · simp only [exec, setOwner, oneYocto, assertOwner] at he
    unpack at he
    obtain ⟨_, _, rfl, _⟩ := he
    rfl
  · simp only [exec, setRunning, oneYocto, assertOwner] at he
    unpack at he
    obtain ⟨_, _, rfl, _⟩ := he
    rfl
  · simp only [exec, extendOperators, oneYocto, assertOwner] at he
    unpack at he
    obtain ⟨_, _, rfl, _⟩ := he
    exact ⟨rfl, fun a => mem_extend⟩
  · simp only [exec] at he
    unpack at he
    obtain ⟨c1, he, rfl, _⟩ := he
    unfold removeOperators oneYocto assertOwner at he
    unpack at he
    obtain ⟨_, _, ops, hd, rfl⟩ := he
    exact ⟨rfl, mem_drop hd⟩

example : (c1.step fl ⟨y 1002 own, .extendOperators [al, bo]⟩).operators = [al, bo] ∧
    ((c1.step fl ⟨y 1002 own, .extendOperators [al, bo]⟩).step fl
      ⟨y 1002 own, .removeOperators [al]⟩).operators = [bo] ∧
    (c1.exec fl (y 1002 own) (.removeOperators [al])).isOk = false := by decide +kernel

/-- The number of farms of a seed. -/
def sizeOf (c : Contract) (s : SeedId) : Option Nat := (c.seeds.get? s).map fun sd => sd.farms.size

/-- The number of farms of all seeds a booster boosts. -/
def boosted (c : Contract) (b : Booster) : Nat := b.affected.sum fun s _ => (c.sizeOf s).getD 0

/-- The limits a contract keeps. -/
structure Limits (c : Contract) : Prop where
  max : c.cfg.maxPerBooster = 64
  multiplier : 10000 < c.cfg.maxMultiplier
  rate : c.cfg.slashRate < 10000
  booster : ∀ k b, c.cfg.boosters.get? k = some b → b.affected.get? k = none ∧ b.affected.size ≤ 16 ∧
    c.boosted b ≤ 64
  count : c.farmCount = c.seeds.sum fun _ sd => sd.farms.size

theorem sizeOf_terms {c c' : Contract} (h1 : ∀ s, (c'.seedTerms s).isSome = (c.seedTerms s).isSome)
    (h2 : ∀ s id, (c'.farmTerms s id).isSome = (c.farmTerms s id).isSome) (s : SeedId) :
    c'.sizeOf s = c.sizeOf s := by
  have h1 := h1 s
  have h2 := h2 s
  unfold sizeOf
  unfold seedTerms at h1
  unfold farmTerms at h2
  cases hs : c.seeds.get? s with
  | none =>
    rw [hs] at h1
    cases hs' : c'.seeds.get? s with
    | none => rfl
    | some sd' => rw [hs'] at h1; cases h1
  | some sd =>
    cases hs' : c'.seeds.get? s with
    | none => rw [hs, hs'] at h1; cases h1
    | some sd' =>
      rw [Option.map_some, Option.map_some, FMap.size_eq_sum, FMap.size_eq_sum]
      refine congrArg some (FMap.sum_ext fun id => ?_)
      have := h2 id
      rw [hs, hs', Option.bind_some, Option.bind_some, Option.isSome_map, Option.isSome_map] at this
      cases ha : sd'.farms.get? id <;> cases hb : sd.farms.get? id <;> rw [ha, hb] at this <;>
        first | rfl | cases this

theorem boosted_le {c c' : Contract} (h : ∀ s, (c'.sizeOf s).getD 0 ≤ (c.sizeOf s).getD 0) (b : Booster) :
    c'.boosted b ≤ c.boosted b :=
  FMap.sum_le _ _ _ fun s _ _ => h s

theorem count_sizes {c c' : Contract} (h : ∀ s, c'.sizeOf s = c.sizeOf s) :
    (c'.seeds.sum fun _ sd => sd.farms.size) = c.seeds.sum fun _ sd => sd.farms.size :=
  FMap.sum_ext fun s => h s

theorem Limits.kept {c c' : Contract} (h : Limits c) (h1 : c'.cfg = c.cfg) (h2 : c'.farmCount = c.farmCount)
    (h3 : ∀ s, c'.sizeOf s = c.sizeOf s) : Limits c' := by
  refine ⟨by rw [h1]; exact h.max, by rw [h1]; exact h.multiplier, by rw [h1]; exact h.rate, ?_, ?_⟩
  · intro k b hb
    rw [h1] at hb
    obtain ⟨e1, e2, e3⟩ := h.booster k b hb
    exact ⟨e1, e2, Nat.le_trans (boosted_le (fun s => by rw [h3]) b) e3⟩
  · rw [h2, h.count, count_sizes h3]

theorem affectedFarms_ok {c : Contract} {l : List (SeedId × Nat)} : ∀ {n : Nat},
    c.affectedFarms l = .ok n → n = (l.map fun p => (c.sizeOf p.1).getD 0).sum := by
  induction l with
  | nil => intro n h; cases h; rfl
  | cons p l ih =>
    intro n h
    obtain ⟨s, lb⟩ := p
    unfold affectedFarms at h
    unpack at h
    obtain ⟨sd, hs, m, hm, _, rfl⟩ := h
    rw [List.map_cons, List.sum_cons, ← ih hm]
    simp only [sizeOf, hs, Option.map_some, Option.getD_some]

theorem assertBoosters_ok {c : Contract} {l : List (SeedId × Booster)} :
    c.assertBoosters l = .ok () → ∀ p ∈ l, c.boosted p.2 ≤ c.cfg.maxPerBooster := by
  induction l with
  | nil => intro _ p hp; exact absurd hp List.not_mem_nil
  | cons q l ih =>
    intro h p hp
    obtain ⟨s, b⟩ := q
    unfold assertBoosters at h
    unpack at h
    obtain ⟨n, hn, hle, h⟩ := h
    rcases List.mem_cons.1 hp with rfl | hp
    · show b.affected.sum _ ≤ _
      rw [affectedFarms_ok hn] at hle
      exact hle
    · exact ih h p hp

theorem Limits.step {fl : Floats} {c c' : Contract} (hl : Limits c) (h : c.Reachable fl) {x : Ctx}
    {k : Call} {o : List Out} (he : c.exec fl x k = .ok (c', o)) : Limits c' := by
  by_cases hu : k.ownerOnly = false ∧ k.managerOnly = false
  · have kp := C103_users h he hu.1 hu.2
    exact hl.kept kp.cfg kp.count (sizeOf_terms (fun s => by rw [kp.seed]) kp.keys)
  have erase : ∀ {s sd id f}, c.seed x.now s = .ok sd → sd.farms.get? id = some f →
      c'.seeds = c.seeds.insert s { sd with farms := sd.farms.erase id } → c'.cfg = c.cfg →
      c'.farmCount = c.farmCount - 1 → Limits c' := by
    intro s sd id f hsd hf hs hc hn
    obtain ⟨old, hold, up⟩ := Contract.seed_ok hsd
    have hsize : sd.farms.size = old.farms.size := by
      rw [FMap.size_eq_sum, FMap.size_eq_sum]
      exact up.sum _ (fun _ _ _ _ => rfl)
    have he : (sd.farms.erase id).size + 1 = sd.farms.size := by
      have := sd.farms.sum_erase (fun _ _ => 1) id
      rw [FMap.term_some _ hf] at this
      rw [FMap.size_eq_sum, FMap.size_eq_sum]
      omega
    refine ⟨by rw [hc]; exact hl.max, by rw [hc]; exact hl.multiplier, by rw [hc]; exact hl.rate, ?_, ?_⟩
    · intro k b hb
      rw [hc] at hb
      obtain ⟨e1, e2, e3⟩ := hl.booster k b hb
      refine ⟨e1, e2, Nat.le_trans (boosted_le (fun r => ?_) b) e3⟩
      unfold sizeOf
      rw [hs, FMap.get?_insert]
      split
      · rename_i hr
        rw [hr, hold]
        simp only [Option.map_some, Option.getD_some]
        omega
      · exact Nat.le_refl _
    · have h1 := c.seeds.sum_insert (fun _ sd => sd.farms.size) s { sd with farms := sd.farms.erase id }
      rw [FMap.term_some _ hold] at h1
      have h2 := hl.count
      rw [hn, hs]
      simp only at h1
      omega
  cases k with
  | createSeed s d m l =>
    obtain ⟨e1, e2, e3, e4, e5, e6⟩ := (C103_create h).1 d m l he
    have hs : c.seeds.get? s = none := by
      unfold seedTerms at e1
      cases hs : c.seeds.get? s with
      | none => rfl
      | some sd => rw [hs] at e1; cases e1
    replace he : c.createSeed x s d m l = .ok c' := by
      simp only [exec] at he
      unpack at he
      obtain ⟨c1, h1, rfl, _⟩ := he
      exact h1
    unfold createSeed oneYocto assertManager assertRunning at he
    unpack at he
    obtain ⟨_, _, _, _, rfl⟩ := he
    refine ⟨hl.max, hl.multiplier, hl.rate, ?_, ?_⟩
    · intro k b hb
      obtain ⟨e1, e2, e3⟩ := hl.booster k b hb
      refine ⟨e1, e2, Nat.le_trans (boosted_le (fun r => ?_) b) e3⟩
      unfold sizeOf
      show ((((c.seeds.insert s _).get? r).map _).getD 0) ≤ _
      rw [FMap.get?_insert]
      split
      · exact Nat.zero_le _
      · exact Nat.le_refl _
    · have h1 := c.seeds.sum_insert (fun _ sd => sd.farms.size) s
        ⟨s, d, FMap.empty, 0, 0, 0, m.getD (10 ^ 18), c.cfg.slashRate, l.getD (3600 * 24 * 30)⟩
      rw [FMap.term_none _ hs] at h1
      have h2 := hl.count
      exact h2.trans h1.symm
  | createFarm s t a d =>
    replace he : c.createFarm x s t a d = .ok c' := by
      simp only [exec] at he
      unpack at he
      obtain ⟨c1, h1, rfl, _⟩ := he
      exact h1
    unfold createFarm oneYocto assertManager assertRunning at he
    unpack at he
    obtain ⟨_, _, _, sd, hsd, hsz, _, _, u, hb, rfl⟩ := he
    obtain ⟨old, hold, up⟩ := Contract.seed_ok hsd
    have hsize : sd.farms.size = old.farms.size := by
      rw [FMap.size_eq_sum, FMap.size_eq_sum]
      exact up.sum _ (fun _ _ _ _ => rfl)
    have hnew : sd.farms.get? (genFarmId s sd.nextIndex) = none := by
      cases hf : sd.farms.get? (genFarmId s sd.nextIndex) with
      | none => rfl
      | some f =>
        obtain ⟨i, hi, hid⟩ := (h.inv.load hsd).farmIds s sd _ f (FMap.get?_insert_self _ _ _) hf
        have := (genFarmId_inj hid).2
        omega
    have hins : (sd.farms.insert (genFarmId s sd.nextIndex) (SeedFarm.new t a d)).size =
        sd.farms.size + 1 := by
      have := sd.farms.sum_insert (fun _ _ => 1) (genFarmId s sd.nextIndex) (SeedFarm.new t a d)
      rw [FMap.term_none _ hnew] at this
      rw [FMap.size_eq_sum, FMap.size_eq_sum]
      omega
    refine ⟨hl.max, hl.multiplier, hl.rate, ?_, ?_⟩
    · intro k b hk
      obtain ⟨e1, e2, _⟩ := hl.booster k b hk
      have := assertBoosters_ok hb (k, b) ((FMap.mem_entries_iff _).2 hk)
      exact ⟨e1, e2, by rw [← hl.max]; exact this⟩
    · have h1 := c.seeds.sum_insert (fun _ sd => sd.farms.size) s { sd with
        nextIndex := sd.nextIndex + 1
        farms := sd.farms.insert (genFarmId s sd.nextIndex) (SeedFarm.new t a d) }
      rw [FMap.term_some _ hold] at h1
      have h2 := hl.count
      show c.farmCount + 1 = (c.seeds.insert s _).sum fun _ sd => sd.farms.size
      simp only at h1
      omega
  | cancelFarm id =>
    obtain ⟨s, sd, f, hsd, hf, _, hs⟩ := (C102_farm_ends h).1 he
    replace he : c.cancelFarm x id = .ok c' := by
      simp only [exec] at he
      unpack at he
      obtain ⟨c1, h1, rfl, _⟩ := he
      exact h1
    unfold cancelFarm oneYocto assertManager assertRunning at he
    unpack at he
    obtain ⟨_, _, _, _, _, _, _, _, _, _, _, rfl⟩ := he
    exact erase hsd hf hs rfl rfl
  | removeFarm id =>
    obtain ⟨s, sd, f, hsd, hf, _, _, hs, _⟩ := (C102_farm_ends h).2 he
    replace he : c.removeFarm x id = .ok c' := by
      simp only [exec] at he
      unpack at he
      obtain ⟨c1, h1, rfl, _⟩ := he
      exact h1
    unfold removeFarm oneYocto assertOwner assertRunning at he
    unpack at he
    obtain ⟨_, _, _, _, _, _, _, _, _, _, _, _, rfl⟩ := he
    exact erase hsd hf hs rfl rfl
  | setting k =>
    obtain ⟨e1, e2, e3, e4, e5⟩ := C103_setting h he
    have hsz : ∀ s, c'.sizeOf s = c.sizeOf s :=
      sizeOf_terms (fun s => by rw [e2, Option.isSome_map]) (fun s id => by rw [e3, Option.isSome_map])
    have hcnt : c'.farmCount = c.farmCount := by rw [e4]
    replace he : c.setting x k = .ok c' := by
      simp only [exec] at he
      unpack at he
      obtain ⟨c1, h1, rfl, _⟩ := he
      exact h1
    have old : ∀ k b, c.cfg.boosters.get? k = some b → b.affected.get? k = none ∧ b.affected.size ≤ 16 ∧
        c'.boosted b ≤ 64 := by
      intro k b hb
      obtain ⟨f1, f2, f3⟩ := hl.booster k b hb
      exact ⟨f1, f2, Nat.le_trans (boosted_le (fun s => by rw [hsz]) b) f3⟩
    refine ⟨?_, ?_, ?_, ?_, by rw [hcnt, count_sizes hsz]; exact hl.count⟩
    · rw [e1, ← hl.max]; cases k <;> rfl
    · rw [e1]
      cases k with
      | lockingPolicy d r => exact e5
      | _ => exact hl.multiplier
    · rw [e1]
      cases k with
      | defaultSlashRate n => exact e5
      | _ => exact hl.rate
    · rw [e1]
      cases k with
      | booster s b =>
        intro k' b' hb
        change (c.cfg.boosters.insert s b).get? k' = some b' at hb
        rw [FMap.get?_insert] at hb
        split at hb
        · rename_i hk
          cases hb
          subst hk
          refine ⟨e5.2.1, e5.2.2, ?_⟩
          unfold setting oneYocto assertManager assertRunning at he
          unpack at he
          obtain ⟨_, _, _, sd, hsd, h1, h2, n, hn, h3, rfl⟩ := he
          rw [affectedFarms_ok hn, hl.max] at h3
          exact h3
        · exact old k' b' hb
      | _ => exact old
  | setOwner a =>
    rw [C103_roles.1 a he]
    exact hl.kept rfl rfl fun _ => rfl
  | setRunning b =>
    rw [C103_roles.2.1 b he]
    exact hl.kept rfl rfl fun _ => rfl
  | extendOperators l =>
    rw [(C103_roles.2.2.1 l he).1]
    exact hl.kept rfl rfl fun _ => rfl
  | removeOperators l =>
    rw [(C103_roles.2.2.2 l he).1]
    exact hl.kept rfl rfl fun _ => rfl
  | _ => exact absurd ⟨rfl, rfl⟩ hu

theorem Limits.run {fl : Floats} : ∀ {es : List Event} {c : Contract}, Limits c → c.Reachable fl →
    Limits (c.run fl es) := by
  intro es
  induction es with
  | nil => intro c h _; exact h
  | cons e es ih =>
    intro c hl h
    refine ih ?_ (h.step e)
    unfold Contract.step
    cases he : c.exec fl e.x e.k with
    | error er => exact hl
    | ok p => exact hl.step h he

/-- **C103.** In every state, a booster boosts at most 16 seeds with together at most 64 farms, and not
itself; so what a stake in it has to renew is bounded. The multiplier of locks is above one, the
default slash rate below one, and the number of farms shown is right. -/
theorem C103_limits {fl : Floats} {c : Contract} (h : c.Reachable fl) :
    10000 < c.cfg.maxMultiplier ∧ c.cfg.slashRate < 10000 ∧
    (∀ k b, c.cfg.boosters.get? k = some b → b.affected.get? k = none ∧ b.affected.size ≤ 16 ∧
      (b.affected.sum fun s _ => ((c.seeds.get? s).map fun sd => sd.farms.size).getD 0) ≤ 64) ∧
    c.farmCount = c.seeds.sum fun _ sd => sd.farms.size := by
  obtain ⟨owner, es, rfl⟩ := h
  have := Limits.run (fl := fl) (es := es) (c := init owner)
    ⟨rfl, (by decide : 10000 < 20000), (by decide : 200 < 10000), (fun k b hb => nomatch hb), rfl⟩ ⟨owner, [], rfl⟩
  exact ⟨this.multiplier, this.rate, this.booster, this.count⟩

example : c1.farmCount = 1 ∧ c1.boosted ⟨0, FMap.empty.insert S 5⟩ = 1 ∧
    (c1.exec fl (y 1002 own) (.setting (.booster S ⟨0, FMap.empty.insert S 5⟩))).isOk = false := by
  decide +kernel

end Contract

end Verif.Boost

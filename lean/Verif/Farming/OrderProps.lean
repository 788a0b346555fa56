import Verif.Farming.ApartProps
import Verif.Farming.Effects

/-
C111: the order in which the contract visits the farms of a seed does not matter.
-/

namespace Verif.Farming

/-- Both computations fail, or both succeed with related results. -/
def Both {α : Type} (r : α → α → Prop) : R α → R α → Prop
  | .ok a, .ok b => r a b
  | .error _, .error _ => True
  | _, _ => False

namespace Both

variable {α β : Type}

theorem bind {r : β → β → Prop} {x : R α} {f g : α → R β}
    (h : ∀ v, x = .ok v → Both r (f v) (g v)) : Both r (x >>= f) (x >>= g) := by
  cases x with
  | error e => trivial
  | ok v => exact h v rfl

theorem bind2 {q : α → α → Prop} {r : β → β → Prop} {x y : R α} {f g : α → R β}
    (hx : Both q x y) (h : ∀ v w, x = .ok v → y = .ok w → q v w → Both r (f v) (g w)) :
    Both r (x >>= f) (y >>= g) := by
  cases x with
  | error e =>
    cases y with
    | error e' => trivial
    | ok v => exact hx.elim
  | ok v =>
    cases y with
    | error e' => exact hx.elim
    | ok w => exact h v w rfl rfl hx

theorem trans {r : α → α → Prop} (hr : ∀ a b c, r a b → r b c → r a c) {x y z : R α} (h : Both r x y)
    (g : Both r y z) : Both r x z := by
  cases x <;> cases y <;> cases z <;> first | trivial | exact h.elim | exact g.elim | exact hr _ _ _ h g

/-- It is enough that each computation succeeds when the other does. -/
theorem intro {r : α → α → Prop} {x y : R α} (h : ∀ a, x = .ok a → ∃ b, y = .ok b ∧ r a b)
    (g : ∀ b, y = .ok b → ∃ a, x = .ok a) : Both r x y := by
  cases hx : x with
  | error e =>
    cases hy : y with
    | error e' => trivial
    | ok b =>
      obtain ⟨a, ha⟩ := g b hy
      rw [ha] at hx
      cases hx
  | ok a =>
    obtain ⟨b, hb, hr⟩ := h a hx
    rw [hb]
    exact hr

end Both

/-- Two maps with the same entries. -/
abbrev Equal {κ V : Type} [DecidableEq κ] (m n : FMap κ V) : Prop := Same (fun _ => true) m n

theorem Equal.symm {κ V : Type} [DecidableEq κ] {m n : FMap κ V} (h : Equal m n) : Equal n m :=
  fun z hz => (h z hz).symm

theorem Equal.size {κ V : Type} [DecidableEq κ] {m n : FMap κ V} (h : Equal m n) : m.size = n.size := by
  have hp : m.entries.Perm n.entries := by
    have nd : ∀ l : FMap κ V, l.entries.Nodup := fun l =>
      List.Pairwise.of_map Prod.fst (fun _ _ h e => h (congrArg Prod.fst e)) l.nodup
    refine (List.perm_ext_iff_of_nodup (nd m) (nd n)).2 ?_
    rintro ⟨k, v⟩
    rw [m.mem_entries_iff, n.mem_entries_iff, h k rfl]
  exact hp.length_eq

/-- Two farmers that differ only in the order in which their rewards are stored. -/
structure Farmer.Like (u v : Farmer) : Prop where
  near : u.near = v.near
  seeds : u.seeds = v.seeds
  count : u.rpsCount = v.rpsCount
  rewards : Equal u.rewards v.rewards

namespace Farmer

variable {u v w : Farmer}

theorem Like.refl (u : Farmer) : u.Like u := ⟨rfl, rfl, rfl, .refl _⟩

theorem Like.trans (h : u.Like v) (g : v.Like w) : u.Like w :=
  ⟨h.near.trans g.near, h.seeds.trans g.seeds, h.count.trans g.count, h.rewards.trans g.rewards⟩

theorem Like.stake (h : u.Like v) (s : SeedId) : u.stake s = v.stake s := by
  unfold Farmer.stake
  rw [h.seeds]

theorem Like.usage (h : u.Like v) : u.storageUsage = v.storageUsage := by
  unfold storageUsage
  rw [h.rewards.size, h.seeds, h.count]

theorem addReward_both {t : AccountId} {n : Nat} (h : u.Like v) :
    Both Like (u.addReward t n) (v.addReward t n) := by
  unfold addReward
  rw [← h.rewards t rfl]
  split
  · exact Both.bind fun _ _ => ⟨h.near, h.seeds, h.count, h.rewards.insert _ _⟩
  · exact ⟨h.near, h.seeds, h.count, h.rewards.insert _ _⟩

theorem subReward_both {t : AccountId} {n : Nat} (h : u.Like v) :
    Both (fun p q => p.1.Like q.1 ∧ p.2 = q.2) (u.subReward t n) (v.subReward t n) := by
  unfold subReward
  rw [← h.rewards t rfl]
  refine Both.bind fun _ _ => Both.bind fun _ _ => ?_
  split
  · exact ⟨⟨h.near, h.seeds, h.count, h.rewards.erase _⟩, rfl⟩
  · exact ⟨⟨h.near, h.seeds, h.count, h.rewards.insert _ _⟩, rfl⟩

theorem addSeed_both {s : SeedId} {n : Nat} (h : u.Like v) :
    Both Like (u.addSeed s n) (v.addSeed s n) := by
  unfold addSeed
  rw [← h.stake s, ← h.seeds]
  split
  · exact Both.bind fun _ _ => ⟨h.near, rfl, h.count, h.rewards⟩
  · exact h

theorem subSeed_both {s : SeedId} {n : Nat} (h : u.Like v) :
    Both (fun p q => p.1.Like q.1 ∧ p.2 = q.2) (u.subSeed s n) (v.subSeed s n) := by
  unfold subSeed
  rw [← h.seeds]
  refine Both.bind fun _ _ => Both.bind fun _ _ => ?_
  split
  · exact ⟨⟨h.near, rfl, h.count, h.rewards⟩, rfl⟩
  · exact ⟨⟨h.near, rfl, h.count, h.rewards⟩, rfl⟩

/-- What a claim from a farm does to the farmer: a new rate is counted, a reward is added. -/
def credit (u : Farmer) (has : Bool) (t : AccountId) (n : Nat) : R Farmer := do
  let u1 ← (if has then .ok u else do
    let k ← addW 32 u.rpsCount 1
    .ok { u with rpsCount := k } : R Farmer)
  if n > 0 then u1.addReward t n else .ok u1

/-- The result of `credit`. -/
structure Credited (u : Farmer) (has : Bool) (t : AccountId) (n : Nat) (v : Farmer) : Prop where
  count_fits : has = false → u.rpsCount + 1 < 2 ^ 32
  reward_fits : 0 < n → ∀ x, u.rewards.get? t = some x → x + n < 2 ^ 128
  near : v.near = u.near
  seeds : v.seeds = u.seeds
  count : v.rpsCount = u.rpsCount + if has then 0 else 1
  rewards : ∀ z, v.rewards.get? z =
    if z = t ∧ 0 < n then some ((u.rewards.get? t).getD 0 + n) else u.rewards.get? z

theorem addReward_get {t : AccountId} {n : Nat} (h : u.addReward t n = .ok v) :
    (∀ x, u.rewards.get? t = some x → x + n < 2 ^ 128) ∧ v.near = u.near ∧ v.seeds = u.seeds ∧
    v.rpsCount = u.rpsCount ∧
    ∀ z, v.rewards.get? z = if z = t then some ((u.rewards.get? t).getD 0 + n) else u.rewards.get? z := by
  unfold addReward at h
  split at h
  · rename_i x hx
    simp only [bind_ok, Except.ok.injEq] at h
    obtain ⟨s, hs, rfl⟩ := h
    obtain ⟨hb, rfl⟩ := addW_ok.1 hs
    refine ⟨fun y hy => ?_, rfl, rfl, rfl, fun z => ?_⟩
    · rw [hx] at hy
      cases hy
      exact hb
    · show (u.rewards.insert t (x + n)).get? z = _
      rw [FMap.get?_insert, hx]
      rfl
  · rename_i hx
    cases h
    refine ⟨fun y hy => ?_, rfl, rfl, rfl, fun z => ?_⟩
    · rw [hx] at hy
      cases hy
    · show (u.rewards.insert t n).get? z = _
      rw [FMap.get?_insert, hx]
      simp

theorem credit_ok {has : Bool} {t : AccountId} {n : Nat} (h : u.credit has t n = .ok v) :
    Credited u has t n v := by
  unfold credit at h
  simp only [bind_ok] at h
  obtain ⟨u1, h1, h⟩ := h
  have h2 : (has = false → u.rpsCount + 1 < 2 ^ 32) ∧
      u1 = { u with rpsCount := u.rpsCount + if has then 0 else 1 } := by
    cases has with
    | true =>
      cases h1
      exact ⟨fun h => (by cases h), rfl⟩
    | false =>
      simp only [Bool.false_eq_true, if_false, bind_ok, Except.ok.injEq] at h1
      obtain ⟨k, hk, rfl⟩ := h1
      obtain ⟨hb, rfl⟩ := addW_ok.1 hk
      exact ⟨fun _ => hb, rfl⟩
  obtain ⟨hb, rfl⟩ := h2
  split at h
  · rename_i hn
    obtain ⟨g1, g2, g3, g4, g5⟩ := addReward_get h
    exact ⟨hb, fun _ => g1, g2, g3, g4, fun z => by rw [g5]; simp [show 0 < n from hn]⟩
  · rename_i hn
    cases h
    exact ⟨hb, fun h => absurd h hn, rfl, rfl, rfl, fun z => by simp [show ¬ 0 < n from hn]⟩

theorem credit_goes {has : Bool} {t : AccountId} {n : Nat} (h1 : has = false → u.rpsCount + 1 < 2 ^ 32)
    (h2 : 0 < n → ∀ x, u.rewards.get? t = some x → x + n < 2 ^ 128) : ∃ v, u.credit has t n = .ok v := by
  have add : ∀ w : Farmer, w.rewards = u.rewards →
      ∃ v, (if n > 0 then w.addReward t n else .ok w : R Farmer) = .ok v := by
    intro w hw
    split
    · rename_i hn
      unfold addReward
      rw [hw]
      split
      · rename_i x hx
        rw [addW_ok.2 ⟨h2 hn x hx, rfl⟩]
        exact ⟨_, rfl⟩
      · exact ⟨_, rfl⟩
    · exact ⟨_, rfl⟩
  unfold credit
  cases has with
  | true => exact add u rfl
  | false =>
    simp only [Bool.false_eq_true, if_false]
    rw [addW_ok.2 ⟨h1 rfl, rfl⟩]
    exact add _ rfl

theorem credit_both {has : Bool} {t : AccountId} {n : Nat} (h : u.Like v) :
    Both Like (u.credit has t n) (v.credit has t n) := by
  unfold credit
  refine Both.bind2 (q := Like) ?_ fun a b _ _ hab => ?_
  · rw [← h.count]
    split
    · exact h
    · exact Both.bind fun _ _ => ⟨h.near, h.seeds, rfl, h.rewards⟩
  · split
    · exact addReward_both hab
    · exact hab

/-- Two claims can be credited in either order. -/
theorem credit_swap {a b : Bool} {s t : AccountId} {m n : Nat} {u1 u2 : Farmer}
    (h1 : u.credit a s m = .ok u1) (h2 : u1.credit b t n = .ok u2) :
    ∃ v1 v2, u.credit b t n = .ok v1 ∧ v1.credit a s m = .ok v2 ∧ u2.Like v2 := by
  have c1 := credit_ok h1
  have c2 := credit_ok h2
  obtain ⟨v1, hv1⟩ : ∃ v, u.credit b t n = .ok v := by
    refine credit_goes (fun hb => ?_) fun hn x hx => ?_
    · have := c2.count_fits hb
      have := c1.count
      omega
    · have h3 := c2.reward_fits hn
      rw [c1.rewards] at h3
      split at h3
      · rename_i hc
        have := h3 _ rfl
        rw [← hc.1, hx] at this
        simp only [Option.getD_some] at this
        omega
      · exact h3 x hx
  have d1 := credit_ok hv1
  obtain ⟨v2, hv2⟩ : ∃ v, v1.credit a s m = .ok v := by
    refine credit_goes (fun ha => ?_) fun hm x hx => ?_
    · have h3 := c1.count_fits ha
      have h4 := c1.count
      have h5 := d1.count
      cases b with
      | true =>
        rw [if_pos rfl] at h5
        omega
      | false =>
        have h6 := c2.count_fits rfl
        rw [ha] at h4
        simp only [Bool.false_eq_true, if_false] at h4 h5
        omega
    · rw [d1.rewards] at hx
      split at hx
      · rename_i hc
        obtain ⟨rfl, hn⟩ := hc
        cases hx
        have h3 := c2.reward_fits hn
        rw [c1.rewards, if_pos ⟨rfl, hm⟩] at h3
        have := h3 _ rfl
        omega
      · exact c1.reward_fits hm x hx
  have d2 := credit_ok hv2
  refine ⟨v1, v2, hv1, hv2, ?_, ?_, ?_, fun z _ => ?_⟩
  · rw [c2.near, c1.near, d2.near, d1.near]
  · rw [c2.seeds, c1.seeds, d2.seeds, d1.seeds]
  · rw [c2.count, c1.count, d2.count, d1.count]
    omega
  · rw [c2.rewards, d2.rewards, c1.rewards, d1.rewards, c1.rewards, d1.rewards]
    by_cases hm : 0 < m <;> by_cases hn : 0 < n <;> simp only [hm, hn, and_true, and_false, if_false]
    by_cases hst : t = s
    · subst hst
      by_cases hz : z = t
      · subst hz
        simp only [if_true, Option.getD_some, Option.some.injEq]
        omega
      · simp only [hz, if_false]
    · have hts : s ≠ t := fun h => hst h.symm
      by_cases hz : z = t
      · subst hz
        simp only [if_true, hst, if_false]
      · simp only [hz, if_false, hts]

end Farmer

/-! ### Claiming from the farms of a seed -/

section Claims

variable {x : Ctx} {who : AccountId} {total : Nat}

theorem claimFromFarm_eq (f : SimpleFarm) (m : RpsMap) (u : Farmer) :
    claimFromFarm x who f total m u = (do
      let r ← f.claimUserReward x.now (m.getD (who, f.id) 0) (u.stake f.terms.seedId) total
      let u1 ← u.credit (m.contains (who, f.id)) f.terms.rewardToken r.2.2
      .ok (r.1, m.insert (who, f.id) r.2.1, u1)) := by
  unfold claimFromFarm
  congr 1
  funext r
  obtain ⟨f1, v, n⟩ := r
  unfold setRps Farmer.credit
  simp only
  cases hc : m.contains (who, f.id) with
  | true =>
    simp only [if_true, ok_bind]
    split
    · rfl
    · rfl
  | false =>
    simp only [Bool.false_eq_true, if_false, bind_assoc, ok_bind]
    congr 1
    funext k
    split
    · rfl
    · rfl

/-- Farms, rates and the farmer while claiming. -/
abbrev Books := FMap FarmId SimpleFarm × RpsMap × Farmer

/-- Equal up to the order of storage. -/
def Books.Like (p q : Books) : Prop := Equal p.1 q.1 ∧ Equal p.2.1 q.2.1 ∧ p.2.2.Like q.2.2

theorem Books.Like.trans (p q r : Books) (h : p.Like q) (g : q.Like r) : p.Like r :=
  ⟨h.1.trans g.1, h.2.1.trans g.2.1, h.2.2.trans g.2.2⟩

/-- Every farm is stored under its id. -/
def Filed (fs : FMap FarmId SimpleFarm) : Prop := ∀ id f, fs.get? id = some f → f.id = id

/-- One round of the loop. -/
def claimOne (x : Ctx) (who : AccountId) (total : Nat) (id : FarmId) (p : Books) : R Books := do
  let f ← expectE (p.1.get? id) .index
  let r ← claimFromFarm x who f total p.2.1 p.2.2
  .ok (p.1.insert id r.1, r.2.1, r.2.2)

theorem claimFarms_cons (id : FarmId) (ids : List FarmId) (p : Books) :
    claimFarms x who total (id :: ids) p.1 p.2.1 p.2.2 = (do
      let q ← claimOne x who total id p
      claimFarms x who total ids q.1 q.2.1 q.2.2) := by
  unfold claimOne
  rw [claimFarms]
  simp only [bind_assoc, ok_bind]

/-- What one round does. -/
structure One (x : Ctx) (who : AccountId) (total : Nat) (id : FarmId) (p q : Books) (f : SimpleFarm)
    (r : SimpleFarm × Nat × Nat) : Prop where
  farm : p.1.get? id = some f
  reward : f.claimUserReward x.now (p.2.1.getD (who, id) 0) (p.2.2.stake f.terms.seedId) total = .ok r
  credit : p.2.2.credit (p.2.1.contains (who, id)) f.terms.rewardToken r.2.2 = .ok q.2.2
  farms : q.1 = p.1.insert id r.1
  rps : q.2.1 = p.2.1.insert (who, id) r.2.1
  id_eq : r.1.id = id

theorem claimOne_ok {id : FarmId} {p q : Books} (hp : Filed p.1) (h : claimOne x who total id p = .ok q) :
    ∃ f r, One x who total id p q f r := by
  unfold claimOne at h
  simp only [claimFromFarm_eq, bind_ok, Except.ok.injEq] at h
  obtain ⟨f, hf, r', ⟨r, hr, u1, hu, rfl⟩, rfl⟩ := h
  rw [expectE_ok] at hf
  have hid := hp id f hf
  rw [hid] at hr hu
  refine ⟨f, r, hf, hr, hu, rfl, by rw [hid], ?_⟩
  obtain ⟨f1, v, n⟩ := r
  obtain ⟨g, hg, _, _, _, _, rfl⟩ := SimpleFarm.claimUserReward_ok hr
  obtain ⟨_, hd⟩ := SimpleFarm.distribute_ok hg
  rw [← hid]
  exact hd.id

theorem claimOne_of {id : FarmId} {p : Books} {f : SimpleFarm} {r : SimpleFarm × Nat × Nat} {u : Farmer}
    (hp : Filed p.1) (hf : p.1.get? id = some f)
    (hr : f.claimUserReward x.now (p.2.1.getD (who, id) 0) (p.2.2.stake f.terms.seedId) total = .ok r)
    (hu : p.2.2.credit (p.2.1.contains (who, id)) f.terms.rewardToken r.2.2 = .ok u) :
    claimOne x who total id p = .ok (p.1.insert id r.1, p.2.1.insert (who, id) r.2.1, u) := by
  unfold claimOne
  have hid := hp id f hf
  rw [expectE_ok.2 hf, ok_bind, claimFromFarm_eq, hid, hr, ok_bind, hu]
  rfl

theorem Filed.insert {fs : FMap FarmId SimpleFarm} (h : Filed fs) {id : FarmId} {f : SimpleFarm}
    (hf : f.id = id) : Filed (fs.insert id f) := by
  intro z g hg
  rw [FMap.get?_insert] at hg
  split at hg
  · rename_i hz
    cases hg
    rw [hf, hz]
  · exact h z g hg

theorem One.filed {id : FarmId} {p q : Books} {f : SimpleFarm} {r : SimpleFarm × Nat × Nat}
    (h : One x who total id p q f r) (hp : Filed p.1) : Filed q.1 := by
  rw [h.farms]
  exact hp.insert h.id_eq

theorem claimOne_both {id : FarmId} {p q : Books} (h : p.Like q) :
    Both Books.Like (claimOne x who total id p) (claimOne x who total id q) := by
  unfold claimOne
  rw [← h.1 id rfl]
  refine Both.bind fun f _ => ?_
  rw [claimFromFarm_eq, claimFromFarm_eq, ← h.2.1.getD (k := (who, f.id)) rfl, ← h.2.2.stake,
    ← h.2.1.contains (k := (who, f.id)) rfl]
  simp only [bind_assoc, ok_bind]
  exact Both.bind fun r _ => Both.bind2 (Farmer.credit_both h.2.2) fun u v _ _ huv =>
    ⟨h.1.insert _ _, h.2.1.insert _ _, huv⟩

theorem insert_swap {κ V : Type} [DecidableEq κ] (m : FMap κ V) {j k : κ} (h : j ≠ k) (v w : V) :
    Equal ((m.insert j v).insert k w) ((m.insert k w).insert j v) := by
  intro z _
  rw [FMap.get?_insert, FMap.get?_insert, FMap.get?_insert, FMap.get?_insert]
  by_cases hj : z = j
  · subst hj
    rw [if_neg h, if_pos rfl, if_pos rfl]
  · rw [if_neg hj, if_neg hj]

theorem credit_stake {u v : Farmer} {has : Bool} {t : AccountId} {n : Nat}
    (h : u.credit has t n = .ok v) (s : SeedId) : v.stake s = u.stake s := by
  unfold Farmer.stake
  rw [(Farmer.credit_ok h).seeds]

/-- Two rounds can be swapped. -/
theorem claim_swap {a b : FarmId} (hab : a ≠ b) {p q r : Books} (hp : Filed p.1)
    (h1 : claimOne x who total a p = .ok q) (h2 : claimOne x who total b q = .ok r) :
    ∃ q' r', claimOne x who total b p = .ok q' ∧ claimOne x who total a q' = .ok r' ∧ r.Like r' := by
  obtain ⟨f, u, o1⟩ := claimOne_ok hp h1
  obtain ⟨g, w, o2⟩ := claimOne_ok (o1.filed hp) h2
  have hk : ((who, b) : AccountId × FarmId) ≠ (who, a) := fun h => hab (congrArg Prod.snd h).symm
  have hk' : ((who, a) : AccountId × FarmId) ≠ (who, b) := fun h => hk h.symm
  have hg : p.1.get? b = some g := by
    have := o2.farm
    rwa [o1.farms, FMap.get?_insert_ne _ _ (Ne.symm hab)] at this
  have e1 : q.2.1.getD (who, b) 0 = p.2.1.getD (who, b) 0 := by
    rw [o1.rps]
    unfold FMap.getD
    rw [FMap.get?_insert_ne _ _ hk]
  have e2 : q.2.1.contains (who, b) = p.2.1.contains (who, b) := by
    rw [o1.rps]
    unfold FMap.contains
    rw [FMap.get?_insert_ne _ _ hk]
  have hw := o2.reward
  rw [e1, credit_stake o1.credit] at hw
  have hc := o2.credit
  rw [e2] at hc
  obtain ⟨v1, v2, k1, k2, kl⟩ := Farmer.credit_swap o1.credit hc
  have hq := claimOne_of hp hg hw k1
  refine ⟨_, _, hq, claimOne_of (f := f) (r := u) (u := v2) (hp.insert o2.id_eq) ?_ ?_ ?_, ?_, ?_, kl⟩
  · show (p.1.insert b w.1).get? a = _
    rw [FMap.get?_insert_ne _ _ hab]
    exact o1.farm
  · show f.claimUserReward x.now ((p.2.1.insert (who, b) w.2.1).getD (who, a) 0) (v1.stake _) total = _
    unfold FMap.getD
    rw [FMap.get?_insert_ne _ _ hk', credit_stake k1]
    exact o1.reward
  · show v1.credit ((p.2.1.insert (who, b) w.2.1).contains (who, a)) _ _ = _
    unfold FMap.contains
    rw [FMap.get?_insert_ne _ _ hk']
    exact k2
  · rw [o2.farms, o1.farms]
    exact insert_swap _ hab _ _
  · rw [o2.rps, o1.rps]
    exact insert_swap _ hk' _ _

theorem claimOne_filed {id : FarmId} {p q : Books} (hp : Filed p.1)
    (h : claimOne x who total id p = .ok q) : Filed q.1 := by
  obtain ⟨f, r, o⟩ := claimOne_ok hp h
  exact o.filed hp

/-- Claiming from the farms in another order. -/
theorem claimFarms_perm {ids js : List FarmId} (h : ids.Perm js) : ∀ {p q : Books}, ids.Nodup →
    Filed p.1 → Filed q.1 → p.Like q →
    Both Books.Like (claimFarms x who total ids p.1 p.2.1 p.2.2)
      (claimFarms x who total js q.1 q.2.1 q.2.2) := by
  induction h with
  | nil => intro p q _ _ _ hl; exact hl
  | cons a _ ih =>
    intro p q hn hp hq hl
    rw [claimFarms_cons, claimFarms_cons]
    exact Both.bind2 (claimOne_both hl) fun r s h1 h2 hrs =>
      ih (List.nodup_cons.1 hn).2 (claimOne_filed hp h1) (claimOne_filed hq h2) hrs
  | swap a b l =>
    intro p q hn hp hq hl
    have hab : b ≠ a := by
      rw [List.nodup_cons] at hn
      intro h
      exact hn.1 (h ▸ List.mem_cons_self)
    have same : ∀ (l : List FarmId) {p q : Books}, p.Like q →
        Both Books.Like (claimFarms x who total l p.1 p.2.1 p.2.2)
          (claimFarms x who total l q.1 q.2.1 q.2.2) := by
      intro l
      induction l with
      | nil => intro p q hl; exact hl
      | cons c l ih =>
        intro p q hl
        rw [claimFarms_cons, claimFarms_cons]
        exact Both.bind2 (claimOne_both hl) fun r s _ _ hrs => ih hrs
    refine Both.trans Books.Like.trans (same (b :: a :: l) hl) ?_
    have step : ∀ {a b : FarmId}, claimFarms x who total (a :: b :: l) q.1 q.2.1 q.2.2 = (do
        let r ← (do
          let r ← claimOne x who total a q
          claimOne x who total b r)
        claimFarms x who total l r.1 r.2.1 r.2.2) := by
      intro a b
      rw [claimFarms_cons]
      simp only [bind_assoc]
      congr 1
      funext r
      rw [claimFarms_cons]
    rw [step, step]
    refine Both.bind2 (q := Books.Like) (Both.intro (fun r hr => ?_) fun r hr => ?_)
      fun r s _ _ hrs => same l hrs
    · rw [bind_ok] at hr
      obtain ⟨t, h1, h2⟩ := hr
      obtain ⟨q', r', h3, h4, h5⟩ := claim_swap hab hq h1 h2
      exact ⟨r', by rw [h3, ok_bind, h4], h5⟩
    · rw [bind_ok] at hr
      obtain ⟨t, h1, h2⟩ := hr
      obtain ⟨q', r', h3, h4, h5⟩ := claim_swap hab.symm hq h1 h2
      exact ⟨r', by rw [h3, ok_bind, h4]⟩
  | trans _ _ ih1 ih2 =>
    rename_i l1 l2 l3 g1 g2
    intro p q hn hp hq hl
    exact Both.trans Books.Like.trans
      (ih1 hn hp hp ⟨.refl _, .refl _, .refl _⟩) (ih2 (g1.nodup_iff.1 hn) hp hq hl)

/-- Rates and the farmer. -/
abbrev Rates := RpsMap × Farmer

/-- Equal up to the order of storage. -/
def Rates.Like (p q : Rates) : Prop := Equal p.1 q.1 ∧ p.2.Like q.2

theorem Rates.Like.trans (p q r : Rates) (h : p.Like q) (g : q.Like r) : p.Like r :=
  ⟨h.1.trans g.1, h.2.trans g.2⟩

theorem removeRps_both {id : FarmId} {p q : Rates} (h : p.Like q) :
    Both Rates.Like (removeRps p.1 p.2 who id) (removeRps q.1 q.2 who id) := by
  unfold removeRps
  rw [← h.1.contains (k := (who, id)) rfl, ← h.2.count]
  split
  · exact Both.bind fun _ _ => ⟨h.1.erase _, h.2.near, h.2.seeds, rfl, h.2.rewards⟩
  · exact h

theorem removeRps_get {id : FarmId} {p q : Rates} (h : removeRps p.1 p.2 who id = .ok q) :
    (p.1.contains (who, id) = true → 1 ≤ p.2.rpsCount) ∧
    q.2 = { p.2 with rpsCount := p.2.rpsCount - if p.1.contains (who, id) then 1 else 0 } ∧
    ∀ z, q.1.get? z = if z = (who, id) then none else p.1.get? z := by
  unfold removeRps at h
  split at h
  · rename_i hc
    simp only [bind_ok, Except.ok.injEq] at h
    obtain ⟨k, hk, rfl⟩ := h
    obtain ⟨hb, rfl⟩ := subW_ok.1 hk
    refine ⟨fun _ => hb, by rw [if_pos hc], fun z => ?_⟩
    exact FMap.get?_erase ..
  · rename_i hc
    cases h
    refine ⟨fun h => absurd h hc, by rw [if_neg hc]; rfl, fun z => ?_⟩
    split
    · rename_i hz
      subst hz
      unfold FMap.contains at hc
      cases hg : p.1.get? (who, id) with
      | none => rfl
      | some v => rw [hg] at hc; exact absurd rfl hc
    · rfl

theorem removeRps_goes {id : FarmId} {p : Rates} (h : p.1.contains (who, id) = true → 1 ≤ p.2.rpsCount) :
    ∃ q, removeRps p.1 p.2 who id = .ok q := by
  unfold removeRps
  split
  · rename_i hc
    rw [subW_ok.2 ⟨h hc, rfl⟩]
    exact ⟨_, rfl⟩
  · exact ⟨_, rfl⟩

theorem remove_swap {a b : FarmId} (hab : a ≠ b) {p q r : Rates}
    (h1 : removeRps p.1 p.2 who a = .ok q) (h2 : removeRps q.1 q.2 who b = .ok r) :
    ∃ q' r', removeRps p.1 p.2 who b = .ok q' ∧ removeRps q'.1 q'.2 who a = .ok r' ∧ r.Like r' := by
  obtain ⟨a1, a2, a3⟩ := removeRps_get h1
  obtain ⟨b1, b2, b3⟩ := removeRps_get h2
  have hk : ((who, b) : AccountId × FarmId) ≠ (who, a) := fun h => hab (congrArg Prod.snd h).symm
  have e1 : q.1.contains (who, b) = p.1.contains (who, b) := by
    unfold FMap.contains
    rw [a3, if_neg hk]
  rw [e1] at b1 b2
  have n1 : q.2.rpsCount = p.2.rpsCount - if p.1.contains (who, a) then 1 else 0 := by rw [a2]
  obtain ⟨q', hq⟩ : ∃ q, removeRps p.1 p.2 who b = .ok q := removeRps_goes fun hc => by
    have := b1 hc
    omega
  obtain ⟨c1, c2, c3⟩ := removeRps_get hq
  have e2 : q'.1.contains (who, a) = p.1.contains (who, a) := by
    unfold FMap.contains
    rw [c3, if_neg hk.symm]
  have n2 : q'.2.rpsCount = p.2.rpsCount - if p.1.contains (who, b) then 1 else 0 := by rw [c2]
  obtain ⟨r', hr⟩ : ∃ q, removeRps q'.1 q'.2 who a = .ok q := removeRps_goes fun hc => by
    rw [e2] at hc
    have h3 := a1 hc
    rw [if_pos hc] at n1
    cases hb : p.1.contains (who, b) with
    | false =>
      rw [hb] at n2
      simp only [Bool.false_eq_true, if_false] at n2
      omega
    | true =>
      have := b1 hb
      rw [hb, if_pos rfl] at n2
      omega
  obtain ⟨d1, d2, d3⟩ := removeRps_get hr
  rw [e2] at d2
  refine ⟨q', r', hq, hr, fun z _ => ?_, ?_⟩
  · rw [b3, a3, d3, c3]
    by_cases h : z = (who, a)
    · subst h
      rw [if_neg hk.symm, if_pos rfl, if_pos rfl]
    · rw [if_neg h, if_neg h]
  · rw [b2, a2, d2, c2]
    refine ⟨rfl, rfl, ?_, .refl _⟩
    show p.2.rpsCount - _ - _ = p.2.rpsCount - _ - _
    omega

theorem removeAllRps_cons (id : FarmId) (ids : List FarmId) (p : Rates) :
    removeAllRps who (id :: ids) p.1 p.2 = (do
      let q ← removeRps p.1 p.2 who id
      removeAllRps who ids q.1 q.2) := by
  rw [removeAllRps]

theorem removeAllRps_both (ids : List FarmId) : ∀ {p q : Rates}, p.Like q →
    Both Rates.Like (removeAllRps who ids p.1 p.2) (removeAllRps who ids q.1 q.2) := by
  induction ids with
  | nil => intro p q hl; exact hl
  | cons c l ih =>
    intro p q hl
    rw [removeAllRps_cons, removeAllRps_cons]
    exact Both.bind2 (removeRps_both hl) fun r s _ _ hrs => ih hrs

/-- Forgetting the rates for the farms in another order. -/
theorem removeAllRps_perm {ids js : List FarmId} (h : ids.Perm js) : ∀ {p q : Rates}, ids.Nodup →
    p.Like q → Both Rates.Like (removeAllRps who ids p.1 p.2) (removeAllRps who js q.1 q.2) := by
  induction h with
  | nil => intro p q _ hl; exact hl
  | cons a _ ih =>
    intro p q hn hl
    rw [removeAllRps_cons, removeAllRps_cons]
    exact Both.bind2 (removeRps_both hl) fun r s _ _ hrs => ih (List.nodup_cons.1 hn).2 hrs
  | swap a b l =>
    intro p q hn hl
    have hab : b ≠ a := by
      rw [List.nodup_cons] at hn
      intro h
      exact hn.1 (h ▸ List.mem_cons_self)
    refine Both.trans Rates.Like.trans (removeAllRps_both (b :: a :: l) hl) ?_
    have step : ∀ {a b : FarmId}, removeAllRps who (a :: b :: l) q.1 q.2 = (do
        let r ← (do
          let r ← removeRps q.1 q.2 who a
          removeRps r.1 r.2 who b)
        removeAllRps who l r.1 r.2) := by
      intro a b
      rw [removeAllRps_cons]
      simp only [bind_assoc]
      congr 1
    rw [step, step]
    refine Both.bind2 (q := Rates.Like) (Both.intro (fun r hr => ?_) fun r hr => ?_)
      fun r s _ _ hrs => removeAllRps_both l hrs
    · rw [bind_ok] at hr
      obtain ⟨t, h1, h2⟩ := hr
      obtain ⟨q', r', h3, h4, h5⟩ := remove_swap hab h1 h2
      exact ⟨r', by rw [h3, ok_bind, h4], h5⟩
    · rw [bind_ok] at hr
      obtain ⟨t, h1, h2⟩ := hr
      obtain ⟨q', r', h3, h4, h5⟩ := remove_swap hab.symm h1 h2
      exact ⟨r', by rw [h3, ok_bind, h4]⟩
  | trans _ _ ih1 ih2 =>
    rename_i l1 l2 l3 g1 g2
    intro p q hn hl
    exact Both.trans Rates.Like.trans
      (ih1 hn ⟨.refl _, .refl _⟩) (ih2 (g1.nodup_iff.1 hn) hl)

end Claims

/-- The same surroundings with another iteration order. -/
def Ctx.reorder (x : Ctx) (o : Order) : Ctx := { x with order := o }

/-- The same event with another iteration order. -/
def Event.reorder (o : Order) : Event → Event
  | .call x k => .call (x.reorder o) k
  | .callback x out ok => .callback (x.reorder o) out ok

namespace Contract

variable {c d : Contract} {x : Ctx} {o : Order}

/-- Farmers of two states that differ only in the order of storage. -/
def LikeFarmer : Option Farmer → Option Farmer → Prop
  | some u, some v => u.Like v
  | none, none => True
  | _, _ => False

/-- Two states that differ only in the order in which reward rates and rewards are stored, which no
method shows. -/
structure Like (c d : Contract) : Prop where
  owner : c.owner = d.owner
  seeds : c.seeds = d.seeds
  farmers : ∀ a, LikeFarmer (c.farmers.get? a) (d.farmers.get? a)
  farms : Equal c.farms d.farms
  outdated : c.outdated = d.outdated
  count : c.farmerCount = d.farmerCount
  info : c.rewardInfo = d.rewardInfo
  running : c.running = d.running
  rps : Equal c.rps d.rps

theorem Like.refl (c : Contract) : Like c c :=
  ⟨rfl, rfl, fun a => by cases c.farmers.get? a with
    | none => trivial
    | some u => exact .refl u, .refl _, rfl, rfl, rfl, rfl, .refl _⟩

theorem Like.farmer (h : Like c d) (a : AccountId) : Both Farmer.Like (c.farmer a) (d.farmer a) := by
  have hf := h.farmers a
  unfold Contract.farmer
  cases hc : c.farmers.get? a <;> cases hd : d.farmers.get? a <;> rw [hc, hd] at hf
  · trivial
  · exact hf.elim
  · exact hf.elim
  · exact hf

theorem Like.seed (h : Like c d) (s : SeedId) : d.seed s = c.seed s := by
  unfold Contract.seed
  rw [h.seeds]

theorem Like.put (h : Like c d) (a : AccountId) {u v : Farmer} (huv : u.Like v) :
    ∀ z, LikeFarmer ((c.farmers.insert a u).get? z) ((d.farmers.insert a v).get? z) := by
  intro z
  rw [FMap.get?_insert, FMap.get?_insert]
  split
  · exact huv
  · exact h.farmers z

theorem Like.storage (h : Like c d) (a : AccountId) : c.farmerStorage a = d.farmerStorage a := by
  have hf := h.farmers a
  unfold farmerStorage
  cases hc : c.farmers.get? a <;> cases hd : d.farmers.get? a <;> rw [hc, hd] at hf
  · exact hf.elim
  · exact hf.elim
  · simp only
    rw [Farmer.Like.usage hf, Farmer.Like.near hf]

theorem _root_.Verif.Farming.Inv.filed (h : Inv c) : Filed c.farms := fun id f hf => (h.farms id f hf).id_eq

theorem claimFarms_reorder {who : AccountId} {total : Nat} : ∀ (ids : List FarmId)
    (farms : FMap FarmId SimpleFarm) (m : FMap (AccountId × FarmId) Nat) (u : Farmer),
    claimFarms (x.reorder o) who total ids farms m u = claimFarms x who total ids farms m u
  | [], _, _, _ => rfl
  | id :: ids, farms, m, u => by
    unfold claimFarms
    simp only [claimFarms_reorder ids]
    rfl

theorem claimBySeed_both {who : AccountId} {s : SeedId} (hI : Inv c) (hJ : Inv d) (h : Like c d) :
    Both Like (c.claimBySeed x who s) (d.claimBySeed (x.reorder o) who s) := by
  unfold claimBySeed
  refine Both.bind2 (h.farmer who) fun u v _ _ huv => ?_
  rw [← h.seeds]
  cases hs : c.seeds.get? s with
  | none => exact h
  | some fs =>
    have hn := (hI.seeds s fs hs).nodup
    simp only
    rw [claimFarms_reorder]
    refine Both.bind2 (claimFarms_perm (p := (c.farms, c.rps, u)) (q := (d.farms, d.rps, v))
      ((x.order.perm fs.farms).trans (o.perm fs.farms).symm) ((x.order.perm fs.farms).nodup_iff.2 hn)
      hI.filed hJ.filed ⟨h.farms, h.rps, huv⟩) ?_
    rintro ⟨f1, m1, u1⟩ ⟨f2, m2, u2⟩ _ _ ⟨h1, h2, h3⟩
    exact ⟨h.owner, rfl, h.put who h3, h1, h.outdated, h.count, h.info, h.running, h2⟩

theorem claimByFarm_both {who : AccountId} {id : FarmId} (h : Like c d) :
    Both Like (c.claimByFarm x who id) (d.claimByFarm (x.reorder o) who id) := by
  unfold claimByFarm
  refine Both.bind2 (h.farmer who) fun u v _ _ huv => Both.bind fun s _ => ?_
  rw [← h.seeds, ← h.farms id rfl]
  split
  · rename_i fs f _ _
    rw [claimFromFarm_eq, claimFromFarm_eq, ← h.rps.getD (k := (who, f.id)) rfl, ← huv.stake,
      ← h.rps.contains (k := (who, f.id)) rfl]
    simp only [bind_assoc, ok_bind]
    exact Both.bind fun r _ => Both.bind2 (Farmer.credit_both huv) fun u1 v1 _ _ h1 =>
      ⟨h.owner, rfl, h.put who h1, h.farms.insert _ _, h.outdated, h.count, h.info, h.running,
        h.rps.insert _ _⟩
  · exact h

theorem addStake_both {who : AccountId} {s : SeedId} {n : Nat} {mft : Bool} (h : Like c d) :
    Both Like (c.addStake who s n mft) (d.addStake who s n mft) := by
  unfold addStake
  rw [h.seed s]
  exact Both.bind fun fs _ => Both.bind fun _ _ => Both.bind2 (h.farmer who) fun u v _ _ huv =>
    Both.bind2 (Farmer.addSeed_both huv) fun u1 v1 _ _ h1 =>
    ⟨h.owner, by simp only [h.seeds], h.put who h1, h.farms, h.outdated, h.count, h.info, h.running,
      h.rps⟩

theorem seedDeposit_both {who : AccountId} {s : SeedId} {n : Nat} {mft : Bool} (hI : Inv c) (hJ : Inv d)
    (h : Like c d) :
    Both Like (c.seedDeposit x who s n mft) (d.seedDeposit (x.reorder o) who s n mft) :=
  Both.bind2 (claimBySeed_both hI hJ h) fun _ _ _ _ h => addStake_both h

theorem claimBySeed_seeds {c' : Contract} {who : AccountId} {s : SeedId}
    (h : c.claimBySeed x who s = .ok c') : c'.seeds = c.seeds := by
  unfold claimBySeed at h
  simp only [bind_ok] at h
  obtain ⟨u, _, h⟩ := h
  split at h
  · cases h
    rfl
  · simp only [bind_ok, Prod.exists, Except.ok.injEq] at h
    obtain ⟨_, _, _, _, rfl⟩ := h
    rfl

theorem seedWithdraw_both {who : AccountId} {s : SeedId} {n : Nat} (hI : Inv c) (hJ : Inv d)
    (h : Like c d) : Both (fun p q => Like p.1 q.1 ∧ p.2 = q.2) (c.seedWithdraw x who s n)
      (d.seedWithdraw (x.reorder o) who s n) := by
  unfold seedWithdraw
  refine Both.bind2 (claimBySeed_both hI hJ h) fun c1 d1 hc1 _ h => ?_
  rw [h.seed s]
  refine Both.bind fun fs hfs => Both.bind2 (h.farmer who) fun u v _ _ huv =>
    Both.bind2 (Farmer.subSeed_both huv) ?_
  rintro ⟨u1, remain⟩ ⟨v1, _⟩ _ _ ⟨h1, rfl⟩
  have hn : fs.farms.Nodup := by
    unfold Contract.seed at hfs
    rw [expectE_ok, claimBySeed_seeds hc1] at hfs
    exact (hI.seeds s fs hfs).nodup
  have hp : (if remain = 0 then x.order.f fs.farms else []).Perm
      (if remain = 0 then o.f fs.farms else []) := by
    split
    · exact (x.order.perm fs.farms).trans (o.perm fs.farms).symm
    · exact .refl _
  have hd : (if remain = 0 then x.order.f fs.farms else []).Nodup := by
    split
    · exact (x.order.perm fs.farms).nodup_iff.2 hn
    · exact List.nodup_nil
  refine Both.bind fun _ _ =>
    Both.bind2 (removeAllRps_perm (p := (c1.rps, u1)) (q := (d1.rps, v1)) hp hd ⟨h.rps, h1⟩) ?_
  rintro ⟨m1, u2⟩ ⟨m2, v2⟩ _ _ ⟨h2, h3⟩
  exact ⟨⟨h.owner, by simp only [h.seeds], h.put who h3, h.farms, h.outdated, h.count, h.info, h.running,
    h2⟩, rfl⟩

theorem register_both {a : AccountId} {n : Nat} (h : Like c d) :
    Both Like (c.register a n) (d.register a n) := by
  have hf := h.farmers a
  unfold register
  cases hc : c.farmers.get? a <;> cases hd : d.farmers.get? a <;> rw [hc, hd] at hf <;> try trivial
  · simp only
    rw [← h.count]
    exact Both.bind fun _ _ => ⟨h.owner, h.seeds, h.put a (.refl _), h.farms, h.outdated, rfl, h.info,
      h.running, h.rps⟩
  · rename_i u v
    have huv : u.Like v := hf
    simp only
    rw [← huv.near]
    exact Both.bind fun _ _ => ⟨h.owner, h.seeds, h.put a ⟨rfl, huv.seeds, huv.count, huv.rewards⟩,
      h.farms, h.outdated, h.count, h.info, h.running, h.rps⟩

/-- Two states that differ in the order of storage are checked alike. -/
theorem stored_both {a : AccountId} {f g : R Contract} (h : Both Like f g) :
    Both Like (f >>= fun c => c.assertStorage a >>= fun _ => .ok c)
      (g >>= fun c => c.assertStorage a >>= fun _ => .ok c) := by
  refine Both.bind2 h fun c d _ _ h => ?_
  have e : c.assertStorage a = d.assertStorage a := by
    unfold assertStorage
    rw [h.storage a]
  rw [e]
  exact Both.bind fun _ _ => h

theorem addFarm_both {t : Terms} {n : Nat} (h : Like c d) : Both Like (c.addFarm t n) (d.addFarm t n) := by
  unfold addFarm
  rw [← h.seeds]
  exact Both.bind fun fs _ => Both.bind fun _ _ => ⟨h.owner, rfl, h.farmers, h.farms.insert _ _,
    h.outdated, h.count, h.info, h.running, h.rps⟩

theorem removeFarm_both {id : FarmId} (h : Like c d) :
    Both Like (c.removeFarm x id) (d.removeFarm (x.reorder o) id) := by
  unfold removeFarm
  rw [← h.seeds, ← h.farms id rfl, ← h.outdated]
  refine Both.bind fun s _ => ?_
  split
  · refine Both.bind fun b _ => ?_
    cases b with
    | true =>
      exact Both.bind fun _ _ => ⟨h.owner, rfl, h.farmers, h.farms.erase _, rfl, h.count, h.info,
        h.running, h.rps⟩
    | false => exact h
  · exact h

/-- **C111.** Whatever the order in which a call or callback visits the farms of a seed: it succeeds or
fails alike, makes the same transfers and leaves states that differ at most in the order of storage. -/
theorem C111_event (hc : c.Reachable) (hd : d.Reachable) (h : Like c d) (e : Event) (o : Order) :
    Both (fun p q => Like p.1 q.1 ∧ p.2 = q.2) (c.apply e) (d.apply (e.reorder o)) := by
  have hI := hc.inv
  have hJ := hd.inv
  have fin : ∀ {f g : R Contract}, Both Like f g →
      Both (fun p q : Contract × List Out => Like p.1 q.1 ∧ p.2 = q.2)
        (f >>= fun c => .ok (c, [])) (g >>= fun c => .ok (c, [])) :=
    fun h => Both.bind2 h fun _ _ _ _ h => ⟨h, rfl⟩
  have hrun : d.assertRunning = c.assertRunning := by
    unfold assertRunning
    rw [h.running]
  have hown : ∀ x, d.assertOwner (x.reorder o) = c.assertOwner x := by
    intro x
    unfold assertOwner
    rw [h.owner]
    rfl
  cases e with
  | callback x out ok =>
    refine fin ?_
    unfold callback
    split
    · exact h
    cases out with
    | near => exact h
    | reward t who n =>
      exact Both.bind2 (h.farmer who) fun u v _ _ huv => Both.bind2 (Farmer.addReward_both huv)
        fun u1 v1 _ _ h1 => ⟨h.owner, h.seeds, h.put who h1, h.farms, h.outdated, h.count, h.info,
          h.running, h.rps⟩
    | ftSeed s who n => exact seedDeposit_both hI hJ h
    | mftSeed s _ _ who n => exact seedDeposit_both hI hJ h
  | call x k =>
    show Both _ (c.exec x k) (d.exec (x.reorder o) k)
    cases k with
    | createSimpleFarm t n =>
      show Both _ (c.createSimpleFarm x t n) (d.createSimpleFarm (x.reorder o) t n)
      unfold createSimpleFarm
      rw [hown]
      exact Both.bind fun _ _ => Both.bind fun _ _ => Both.bind2 (addFarm_both h) fun c1 d1 _ _ h1 =>
        Both.bind fun _ _ => Both.bind fun _ _ => ⟨h1, rfl⟩
    | forceCleanFarm id =>
      refine fin ?_
      unfold forceCleanFarm
      rw [hown]
      exact Both.bind fun _ _ => Both.bind fun _ _ => removeFarm_both h
    | setOwner a =>
      refine fin ?_
      unfold setOwner
      rw [hown]
      exact Both.bind fun _ _ => Both.bind fun _ _ => ⟨rfl, h.seeds, h.farmers, h.farms, h.outdated,
        h.count, h.info, h.running, h.rps⟩
    | modifyMinDeposit s n =>
      refine fin ?_
      unfold modifyMinDeposit
      rw [hown, h.seed s, ← h.seeds]
      exact Both.bind fun _ _ => Both.bind fun _ _ => Both.bind fun _ _ => ⟨h.owner, rfl, h.farmers,
        h.farms, h.outdated, h.count, h.info, h.running, h.rps⟩
    | setRunning b =>
      refine fin ?_
      unfold setRunning
      rw [hown]
      exact Both.bind fun _ _ => Both.bind fun _ _ => ⟨h.owner, h.seeds, h.farmers, h.farms, h.outdated,
        h.count, h.info, rfl, h.rps⟩
    | removeUserRps id =>
      refine fin ?_
      unfold removeUserRps
      rw [hrun]
      refine Both.bind fun _ _ => Both.bind fun _ _ => Both.bind2 (h.farmer _) fun u v _ _ huv =>
        Both.bind fun s hs => ?_
      rw [h.seed s]
      refine Both.bind fun fs _ => ?_
      split
      · exact h
      · refine Both.bind2 (removeRps_both (p := (c.rps, u)) (q := (d.rps, v)) ⟨h.rps, huv⟩) ?_
        rintro ⟨m1, u1⟩ ⟨m2, v1⟩ _ _ ⟨h1, h2⟩
        exact ⟨h.owner, h.seeds, h.put _ h2, h.farms, h.outdated, h.count, h.info, h.running, h1⟩
    | claimRewardByFarm id =>
      refine fin ?_
      unfold claimRewardByFarm
      rw [hrun]
      exact Both.bind fun _ _ => Both.bind fun _ _ => stored_both (claimByFarm_both h)
    | claimRewardBySeed s =>
      refine fin ?_
      unfold claimRewardBySeed
      rw [hrun]
      exact Both.bind fun _ _ => Both.bind fun _ _ => stored_both (claimBySeed_both hI hJ h)
    | withdrawReward t n =>
      show Both _ (c.withdrawReward x t n) (d.withdrawReward (x.reorder o) t n)
      unfold withdrawReward
      rw [hrun]
      refine Both.bind fun _ _ => Both.bind fun _ _ => Both.bind2 (h.farmer _) fun u v _ _ huv =>
        Both.bind2 (Farmer.subReward_both huv) ?_
      rintro ⟨u1, k⟩ ⟨v1, _⟩ _ _ ⟨h1, rfl⟩
      exact ⟨⟨h.owner, h.seeds, h.put _ h1, h.farms, h.outdated, h.count, h.info, h.running, h.rps⟩, rfl⟩
    | withdrawSeed s n =>
      show Both _ (c.withdrawSeed x s n) (d.withdrawSeed (x.reorder o) s n)
      unfold withdrawSeed
      rw [hrun]
      refine Both.bind fun _ _ => Both.bind fun _ _ => Both.bind2 (seedWithdraw_both hI hJ h) ?_
      rintro ⟨c1, mft⟩ ⟨d1, _⟩ _ _ ⟨h1, rfl⟩
      simp only
      split
      · refine Both.bind ?_
        rintro ⟨_, _⟩ _
        exact ⟨h1, rfl⟩
      · exact ⟨h1, rfl⟩
    | ftOnTransfer a n m =>
      refine fin ?_
      unfold ftOnTransfer
      split
      · unfold ftStake
        rw [hrun, h.seed]
        exact Both.bind fun _ _ => Both.bind fun _ _ => Both.bind fun fs _ => Both.bind fun _ _ =>
          stored_both (seedDeposit_both hI hJ h)
      · unfold ftReward
        rw [hrun, ← h.farms m rfl, ← h.info]
        refine Both.bind fun _ _ => Both.bind fun _ _ => Both.bind fun f _ => Both.bind fun _ _ =>
          Both.bind fun f1 _ => ?_
        cases f1 with
        | none => trivial
        | some f1 =>
          exact Both.bind fun _ _ => ⟨h.owner, h.seeds, h.farmers, h.farms.insert _ _, h.outdated,
            h.count, rfl, h.running, h.rps⟩
    | mftOnTransfer t a n m =>
      refine fin ?_
      unfold mftOnTransfer
      rw [hrun]
      refine Both.bind fun _ _ => Both.bind fun _ _ => ?_
      split
      · trivial
      · simp only
        rw [h.seed]
        exact Both.bind fun _ _ => Both.bind fun fs _ => Both.bind fun _ _ =>
          stored_both (seedDeposit_both hI hJ h)
    | storageDeposit a only =>
      show Both _ (c.storageDeposit x a only) (d.storageDeposit (x.reorder o) a only)
      unfold storageDeposit
      rw [hrun]
      refine Both.bind fun _ _ => ?_
      have hp : (x.reorder o).pred = x.pred := rfl
      have hn : (x.reorder o).deposit = x.deposit := rfl
      simp only [hp, hn]
      rw [← h.storage]
      split
      · refine Both.bind fun _ _ => ?_
        split
        · exact Both.bind2 (register_both h) fun _ _ _ _ h => ⟨h, rfl⟩
        · exact Both.bind2 (register_both h) fun _ _ _ _ h => ⟨h, rfl⟩
      · split
        · trivial
        · exact Both.bind fun _ _ => Both.bind fun _ _ =>
            Both.bind2 (register_both h) fun _ _ _ _ h => ⟨h, rfl⟩
    | storageWithdraw n =>
      show Both _ (c.storageWithdraw x n) (d.storageWithdraw (x.reorder o) n)
      unfold storageWithdraw
      rw [hrun]
      refine Both.bind fun _ _ => Both.bind fun _ _ => ?_
      simp only
      rw [← h.storage]
      refine Both.bind fun _ _ => Both.bind fun _ _ => Both.bind fun _ _ => Both.bind fun _ _ =>
        Both.bind2 (h.farmer _) fun u v _ _ huv => ?_
      rw [← huv.near]
      exact Both.bind fun _ _ => ⟨⟨h.owner, h.seeds,
        h.put _ ⟨rfl, huv.seeds, huv.count, huv.rewards⟩, h.farms, h.outdated, h.count, h.info,
        h.running, h.rps⟩, rfl⟩
    | storageUnregister =>
      show Both _ (c.storageUnregister x) (d.storageUnregister (x.reorder o))
      unfold storageUnregister
      rw [hrun]
      refine Both.bind fun _ _ => Both.bind fun _ _ => ?_
      have hf := h.farmers x.pred
      show Both _ (match c.farmers.get? x.pred with | none => _ | some u => _)
        (match d.farmers.get? x.pred with | none => _ | some u => _)
      cases hu : c.farmers.get? x.pred <;> cases hv : d.farmers.get? x.pred <;> rw [hu, hv] at hf <;>
        try trivial
      · rename_i u v
        have huv : u.Like v := hf
        simp only
        rw [← huv.rewards.size, ← huv.seeds, ← huv.near, ← h.count]
        refine Both.bind fun _ _ => Both.bind fun _ _ => Both.bind fun _ _ =>
          ⟨⟨h.owner, h.seeds, fun z => ?_, h.farms, h.outdated, rfl, h.info, h.running, h.rps⟩, rfl⟩
        show LikeFarmer ((c.farmers.erase x.pred).get? z) ((d.farmers.erase x.pred).get? z)
        rw [FMap.get?_erase, FMap.get?_erase]
        split
        · trivial
        · exact h.farmers z

theorem step_like (hc : c.Reachable) (hd : d.Reachable) (h : Like c d) (e : Event) (o : Order) :
    Like (c.step e) (d.step (e.reorder o)) := by
  have hx := C111_event hc hd h e o
  unfold step
  cases h1 : c.apply e with
  | error e1 =>
    cases h2 : d.apply (e.reorder o) with
    | error e2 => exact h
    | ok q => rw [h1, h2] at hx; exact hx.elim
  | ok p =>
    cases h2 : d.apply (e.reorder o) with
    | error e2 => rw [h1, h2] at hx; exact hx.elim
    | ok q => rw [h1, h2] at hx; exact hx.1

/-- **C111.** A history and the same history with other iteration orders lead to states that differ at
most in the order of storage. -/
theorem C111_history : ∀ (es : List (Event × Order)) {c d : Contract}, c.Reachable → d.Reachable →
    Like c d → Like (c.run (es.map Prod.fst)) (d.run (es.map fun p => p.1.reorder p.2))
  | [], _, _, _, _, h => h
  | (e, o) :: es, _, _, hc, hd, h =>
    C111_history es (hc.step e) (hd.step (e.reorder o)) (step_like hc hd h e o)

/-- **C111.** No view tells such states apart. -/
theorem C111_views (h : Like c d) (now : Nat) (a t : AccountId) (s : SeedId) (id : FarmId) :
    c.stakeOf a s = d.stakeOf a s ∧ c.rewardOf a t = d.rewardOf a t ∧
    c.getUnclaimedReward now a id = d.getUnclaimedReward now a id ∧
    c.getFarm now id = d.getFarm now id ∧ c.getOutdatedFarm now id = d.getOutdatedFarm now id ∧
    c.getSeedInfo s = d.getSeedInfo s ∧ c.storageBalanceOf a = d.storageBalanceOf a ∧
    (c.getUserRps a id).toOption = (d.getUserRps a id).toOption ∧ c.getMetadata = d.getMetadata := by
  have hf := h.farmers a
  refine ⟨?_, ?_, ?_, ?_, ?_, ?_, ?_, ?_, ?_⟩
  · unfold stakeOf
    cases hu : c.farmers.get? a <;> cases hv : d.farmers.get? a <;> rw [hu, hv] at hf <;> try trivial
    exact Farmer.Like.stake hf s
  · unfold rewardOf
    cases hu : c.farmers.get? a <;> cases hv : d.farmers.get? a <;> rw [hu, hv] at hf <;> try trivial
    exact (Farmer.Like.rewards hf).getD rfl 0
  · unfold getUnclaimedReward
    rw [h.seeds, h.farms id rfl]
    cases hu : c.farmers.get? a <;> cases hv : d.farmers.get? a <;> rw [hu, hv] at hf <;> try trivial
    congr 1
    funext s
    cases d.seeds.get? s <;> cases d.farms.get? id <;> try rfl
    simp only
    rw [Farmer.Like.stake hf, h.rps.getD rfl]
  · unfold getFarm
    rw [h.farms id rfl]
  · unfold getOutdatedFarm
    rw [h.outdated]
  · unfold getSeedInfo
    rw [h.seeds]
  · unfold storageBalanceOf
    rw [h.storage a]
  · unfold getUserRps
    have := h.farmer a
    cases hu : c.farmer a <;> cases hv : d.farmer a <;> rw [hu, hv] at this <;> try trivial
    simp only [ok_bind]
    rw [h.rps.getD (k := (a, id)) rfl]
  · unfold getMetadata
    rw [h.owner, h.count, h.farms.size, h.seeds, h.info, h.running]

end Contract

/-! ## Examples -/

namespace OrderDemo

open Demo

/-- Visits the farms last to first. -/
def back : Order := ⟨List.reverse, List.reverse_perm⟩

def Q : AccountId := "Q".toList
/-- The id of the second farm of `S`. -/
def F1 : FarmId := "S#1".toList

/-- A second farm for those who stake `S` pays in `Q`. Later the farmers claim and `bo` leaves. -/
def tail : List (Event × Order) := [
  (.call (near 1002 own) (.createSimpleFarm ⟨S, Q, 0, 60, 10⟩ none), .id),
  (.call (at' 1002 Q) (.ftOnTransfer own 600 F1), back),
  (.call (at' 1030 al) (.claimRewardBySeed S), back),
  (.call (y 1050 bo) (.withdrawSeed S 10), back)]

def c4 : Contract := c1.run (tail.map Prod.fst)
def d4 : Contract := c1.run (tail.map fun p => p.1.reorder p.2)

example : c4.Like d4 := Contract.C111_history tail c1_reachable c1_reachable (.refl c1)

-- The two states are not the same: the reward balances are stored in another order.
example : (c4.farmers.get? al).map (fun u => u.rewards.entries.map Prod.fst) = some [R', Q] ∧
    (d4.farmers.get? al).map (fun u => u.rewards.entries.map Prod.fst) = some [Q, R'] := by decide +kernel

-- All the calls succeed and pay.
example : d4.rewardOf al R' = 225 ∧ d4.rewardOf al Q = 90 ∧ d4.rewardOf bo Q = 60 ∧ d4.stakeOf bo S = 0 ∧
    c4.rewardOf al R' = 225 ∧ c4.rewardOf al Q = 90 ∧ c4.rewardOf bo Q = 60 := by decide +kernel

end OrderDemo

end Verif.Farming

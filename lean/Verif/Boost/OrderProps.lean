import Verif.Boost.ApartProps
import Verif.Boost.LiveProps
import Verif.Boost.SettingProps
import Verif.Farming.OrderProps

/-
C112: the order in which the boost farming contract visits the entries of its hash maps does not matter.
-/

namespace Verif

open Farming (Both Equal Same)

/-! ## Loops in another order -/

/-- A loop that stops at the first failure. -/
def loop {ι σ : Type} (f : ι → σ → R σ) : List ι → σ → R σ
  | [], s => .ok s
  | a :: l, s => f a s >>= loop f l

section

variable {ι σ : Type} {f g : ι → σ → R σ} {r : σ → σ → Prop}

theorem loop_both (h : ∀ a s t, r s t → Both r (f a s) (g a t)) : ∀ (l : List ι) {s t : σ}, r s t →
    Both r (loop f l s) (loop g l t)
  | [], _, _, hr => hr
  | a :: l, _, _, hr => Both.bind2 (h a _ _ hr) fun _ _ _ _ h1 => loop_both h l h1

/-- A loop whose neighbouring steps can be exchanged can run in any order. -/
theorem loop_perm {q : ι → ι → Prop} (hq : ∀ a b, q a b → q b a)
    (ht : ∀ a b c, r a b → r b c → r a c) (hl : ∀ s t, r s t → r t t)
    (h : ∀ a s t, r s t → Both r (f a s) (f a t))
    (hswap : ∀ a b s, q a b → r s s → Both r (f a s >>= f b) (f b s >>= f a))
    {l l' : List ι} (hp : l.Perm l') : ∀ {s t : σ}, l.Pairwise q → r s t →
      Both r (loop f l s) (loop f l' t) := by
  induction hp with
  | nil => intro s t _ hr; exact hr
  | cons a _ ih =>
    intro s t hn hr
    exact Both.bind2 (h a _ _ hr) fun _ _ _ _ h1 => ih (List.pairwise_cons.1 hn).2 h1
  | swap a b l =>
    intro s t hn hr
    refine Both.trans ht (loop_both h (b :: a :: l) hr) ?_
    have step : ∀ {a b : ι}, loop f (a :: b :: l) t = (f a t >>= f b) >>= loop f l := by
      intro a b
      rw [bind_assoc]
      rfl
    rw [step, step]
    refine Both.bind2 (hswap b a t ((List.pairwise_cons.1 hn).1 a List.mem_cons_self) (hl _ _ hr))
      fun _ _ _ _ h1 => loop_both h l h1
  | trans h1 _ ih1 ih2 =>
    intro s t hn hr
    exact Both.trans ht (ih1 hn hr) (ih2 ((h1.pairwise_iff (fun {a b} => hq a b)).1 hn) (hl _ _ hr))

end

theorem FMap.entries_perm {K V W : Type} [DecidableEq K] {m n : FMap K V} (h : V → W)
    (e : ∀ k, (m.get? k).map h = (n.get? k).map h) :
    (m.entries.map fun p => (p.1, h p.2)).Perm (n.entries.map fun p => (p.1, h p.2)) := by
  have nd : ∀ l : FMap K V, (l.entries.map fun p => (p.1, h p.2)).Nodup := fun l =>
    List.Pairwise.of_map (S := (· ≠ ·)) Prod.fst (fun _ _ h e => h (congrArg Prod.fst e))
      (by rw [List.map_map]; exact l.nodup)
  have side : ∀ (m n : FMap K V), (∀ k, (m.get? k).map h = (n.get? k).map h) → ∀ x,
      x ∈ m.entries.map (fun p => (p.1, h p.2)) → x ∈ n.entries.map (fun p => (p.1, h p.2)) := by
    intro m n e x hx
    obtain ⟨⟨k, v⟩, hp, rfl⟩ := List.mem_map.1 hx
    have := e k
    rw [(m.mem_entries_iff).1 hp, Option.map_some, eq_comm, Option.map_eq_some_iff] at this
    obtain ⟨w, hw, e2⟩ := this
    exact List.mem_map.2 ⟨(k, w), (n.mem_entries_iff).2 hw, by simp [e2]⟩
  exact (List.perm_ext_iff_of_nodup (nd m) (nd n)).2 fun x => ⟨side m n e x, side n m (fun k => (e k).symm) x⟩

theorem Equal.perm {K V : Type} [DecidableEq K] {m n : FMap K V} (h : Equal m n) :
    m.entries.Perm n.entries := by
  have := FMap.entries_perm (m := m) (n := n) id (fun k => by rw [h k rfl])
  simpa using this

theorem Equal.sum {K V : Type} [DecidableEq K] {m n : FMap K V} (h : Equal m n) (f : K → V → Nat) :
    m.sum f = n.sum f :=
  ((Equal.perm h).map _).sum_eq

theorem Equal.swap {K V : Type} [DecidableEq K] {m n : FMap K V} (h : Equal m n) {k x : K} (hk : k ≠ x)
    (v w : V) : Equal ((m.insert k v).insert x w) ((n.insert x w).insert k v) := by
  intro z _
  simp only [FMap.get?_insert, h z rfl]
  split
  · subst_vars
    rw [if_neg (fun e => hk e.symm)]
  · rfl

namespace Boost

/-! ## States with the same contents -/

/-- Two stakes with the same contents. -/
structure FarmerSeed.Like (v w : FarmerSeed) : Prop where
  free : v.free = w.free
  locked : v.locked = w.locked
  xLocked : v.xLocked = w.xLocked
  unlockAt : v.unlockAt = w.unlockAt
  duration : v.duration = w.duration
  ratios : Equal v.ratios w.ratios
  userRps : Equal v.userRps w.userRps

/-- Two farmers with the same contents. -/
structure Farmer.Like (u v : Farmer) : Prop where
  sponsor : u.sponsor = v.sponsor
  rewards : Equal u.rewards v.rewards
  seeds : ∀ s, Option.Rel FarmerSeed.Like (u.seeds.get? s) (v.seeds.get? s)

/-- Two seeds with the same contents. -/
structure Seed.Like (a b : Seed) : Prop where
  id : a.id = b.id
  decimals : a.decimals = b.decimals
  farms : Equal a.farms b.farms
  nextIndex : a.nextIndex = b.nextIndex
  amount : a.amount = b.amount
  power : a.power = b.power
  minDeposit : a.minDeposit = b.minDeposit
  slashRate : a.slashRate = b.slashRate
  minLock : a.minLock = b.minLock

/-- Two boosters with the same contents. -/
structure Booster.Like (a b : Booster) : Prop where
  decimals : a.decimals = b.decimals
  affected : Equal a.affected b.affected

/-- Two configurations with the same contents. -/
structure Config.Like (a b : Config) : Prop where
  slashRate : a.slashRate = b.slashRate
  boosters : ∀ s, Option.Rel Booster.Like (a.boosters.get? s) (b.boosters.get? s)
  maxPerBooster : a.maxPerBooster = b.maxPerBooster
  maxPerSeed : a.maxPerSeed = b.maxPerSeed
  maxDuration : a.maxDuration = b.maxDuration
  maxMultiplier : a.maxMultiplier = b.maxMultiplier

/-- Two states with the same contents: the hash maps may be stored in any order. -/
structure Contract.Like (c d : Contract) : Prop where
  owner : c.owner = d.owner
  running : c.running = d.running
  operators : c.operators = d.operators
  cfg : c.cfg.Like d.cfg
  seeds : ∀ s, Option.Rel Seed.Like (c.seeds.get? s) (d.seeds.get? s)
  farmers : ∀ a, Option.Rel Farmer.Like (c.farmers.get? a) (d.farmers.get? a)
  outdated : Equal c.outdated d.outdated
  slashed : Equal c.slashed d.slashed
  lostfound : Equal c.lostfound d.lostfound
  farmerCount : c.farmerCount = d.farmerCount
  farmCount : c.farmCount = d.farmCount

theorem rel_refl {α : Type} {r : α → α → Prop} (h : ∀ a, r a a) : ∀ o : Option α, Option.Rel r o o
  | none => .none
  | some a => .some (h a)

theorem rel_trans {α : Type} {r : α → α → Prop} (h : ∀ a b c, r a b → r b c → r a c) {x y z : Option α}
    (h1 : Option.Rel r x y) (h2 : Option.Rel r y z) : Option.Rel r x z := by
  cases h1 with
  | none => exact h2
  | some h1 =>
    cases h2 with
    | some h2 => exact .some (h _ _ _ h1 h2)

theorem rel_insert {K α : Type} [DecidableEq K] {r : α → α → Prop} {m n : FMap K α}
    (h : ∀ k, Option.Rel r (m.get? k) (n.get? k)) {k : K} {a b : α} (hab : r a b) :
    ∀ z, Option.Rel r ((m.insert k a).get? z) ((n.insert k b).get? z) := by
  intro z
  rw [FMap.get?_insert, FMap.get?_insert]
  split
  · exact .some hab
  · exact h z

theorem rel_erase {K α : Type} [DecidableEq K] {r : α → α → Prop} {m n : FMap K α}
    (h : ∀ k, Option.Rel r (m.get? k) (n.get? k)) {k : K} :
    ∀ z, Option.Rel r ((m.erase k).get? z) ((n.erase k).get? z) := by
  intro z
  rw [FMap.get?_erase, FMap.get?_erase]
  split
  · exact .none
  · exact h z

theorem rel_map {α β : Type} {r : α → α → Prop} {x y : Option α} (h : Option.Rel r x y) {f : α → β}
    (hf : ∀ a b, r a b → f a = f b) : x.map f = y.map f := by
  cases h with
  | none => rfl
  | some h => rw [Option.map_some, Option.map_some, hf _ _ h]

theorem rel_size {K α : Type} [DecidableEq K] {r : α → α → Prop} {m n : FMap K α}
    (h : ∀ k, Option.Rel r (m.get? k) (n.get? k)) : m.size = n.size := by
  have := (FMap.entries_perm (m := m) (n := n) (fun _ => ()) fun k =>
    rel_map (h k) fun _ _ _ => rfl).length_eq
  rwa [List.length_map, List.length_map] at this

theorem rel_contains {K α : Type} [DecidableEq K] {r : α → α → Prop} {m n : FMap K α}
    (h : ∀ k, Option.Rel r (m.get? k) (n.get? k)) (k : K) : m.contains k = n.contains k := by
  have := rel_map (h k) (f := fun _ => ()) fun _ _ _ => rfl
  unfold FMap.contains
  rw [← Option.isSome_map (f := fun _ => ()), this, Option.isSome_map]

theorem rel_expect {α : Type} {r : α → α → Prop} {x y : Option α} (h : Option.Rel r x y) {e : Err} :
    Both r (expectE x e) (expectE y e) := by
  cases h with
  | none => trivial
  | some h => exact h

namespace FarmerSeed

variable {v w z : FarmerSeed}

theorem Like.refl (v : FarmerSeed) : v.Like v := ⟨rfl, rfl, rfl, rfl, rfl, .refl _, .refl _⟩

theorem Like.trans (h : v.Like w) (g : w.Like z) : v.Like z :=
  ⟨h.1.trans g.1, h.2.trans g.2, h.3.trans g.3, h.4.trans g.4, h.5.trans g.5, h.6.trans g.6, h.7.trans g.7⟩

theorem Like.basic (h : v.Like w) : v.basic = w.basic := by
  unfold FarmerSeed.basic
  rw [h.free, h.xLocked]

theorem Like.power (h : v.Like w) (fl : Floats) : v.power fl = w.power fl := by
  unfold FarmerSeed.power
  rw [h.basic]
  simp only [Equal.sum h.ratios]

theorem Like.eta (h : v.Like w) : ∃ R U, w = { v with ratios := R, userRps := U } ∧ Equal v.ratios R ∧
    Equal v.userRps U := by
  obtain ⟨a, b, x, d, e, R, U⟩ := w
  obtain ⟨h1, h2, h3, h4, h5, h6, h7⟩ := h
  simp only at h1 h2 h3 h4 h5 h6 h7
  subst h1 h2 h3 h4 h5
  exact ⟨R, U, rfl, h6, h7⟩

theorem addFree_both {fl : Floats} {n : Nat} (h : v.Like w) :
    Both (fun p q => p.1.Like q.1 ∧ p.2 = q.2) (v.addFree fl n) (w.addFree fl n) := by
  unfold addFree
  rw [h.power, h.free]
  refine Both.bind fun _ _ => Both.bind fun f _ => ?_
  have h1 : FarmerSeed.Like { v with free := f } { w with free := f } :=
    ⟨rfl, h.2, h.3, h.4, h.5, h.6, h.7⟩
  simp only
  rw [h1.power]
  exact Both.bind fun _ _ => Both.bind fun _ _ => ⟨h1, rfl⟩

theorem xAmount_like {a b : Config} (h : a.Like b) (n d : Nat) : xAmount a n d = xAmount b n d := by
  unfold xAmount
  rw [h.maxMultiplier, h.maxDuration]

theorem lock_both {a b : Config} (hc : a.Like b) {now n d : Nat} (h : v.Like w) :
    Both Like (v.lock a now n d) (w.lock b now n d) := by
  unfold lock
  simp only [xAmount_like hc]
  rw [h.unlockAt, h.locked, h.xLocked]
  refine Both.bind fun _ _ => ?_
  split
  · exact Both.bind fun _ _ => Both.bind fun _ _ => Both.bind fun _ _ => Both.bind fun _ _ =>
      Both.bind fun _ _ => ⟨h.1, rfl, rfl, rfl, rfl, h.6, h.7⟩
  · exact Both.bind fun _ _ => Both.bind fun _ _ => Both.bind fun _ _ =>
      ⟨h.1, rfl, rfl, rfl, rfl, h.6, h.7⟩

theorem addLock_both {fl : Floats} {a b : Config} (hc : a.Like b) {now n d : Nat} (h : v.Like w) :
    Both (fun p q => p.1.Like q.1 ∧ p.2 = q.2) (v.addLock fl a now n d) (w.addLock fl b now n d) := by
  unfold addLock
  rw [h.power]
  refine Both.bind fun _ _ => Both.bind2 (lock_both hc h) fun _ _ _ _ h1 => ?_
  rw [h1.power]
  exact Both.bind fun _ _ => Both.bind fun _ _ => ⟨h1, rfl⟩

theorem freeToLock_both {fl : Floats} {a b : Config} (hc : a.Like b) {now n d : Nat} (h : v.Like w) :
    Both (fun p q => p.1.Like q.1 ∧ p.2 = q.2) (v.freeToLock fl a now n d)
      (w.freeToLock fl b now n d) := by
  unfold freeToLock
  rw [h.power, h.free, hc.maxDuration]
  have h0 : FarmerSeed.Like { v with free := w.free - n } { w with free := w.free - n } :=
    ⟨rfl, h.2, h.3, h.4, h.5, h.6, h.7⟩
  refine Both.bind fun _ _ => Both.bind fun _ _ => Both.bind fun _ _ =>
    Both.bind2 (lock_both hc h0) fun _ _ _ _ h1 => ?_
  rw [h1.power]
  exact Both.bind fun _ _ => Both.bind fun _ _ => ⟨h1, rfl⟩

theorem unlockSlashed_both {fl : Floats} {now n rate : Nat} (h : v.Like w) :
    Both (fun p q => p.1.Like q.1 ∧ p.2 = q.2) (v.unlockSlashed fl now n rate)
      (w.unlockSlashed fl now n rate) := by
  have key : ∀ {v1 w1 : FarmerSeed} {prev slashed : Nat}, v1.Like w1 →
      Both (fun p q : FarmerSeed × Nat × Nat => p.1.Like q.1 ∧ p.2 = q.2) (do
        let rest ← subW n slashed
        let free ← addW 128 v1.free rest
        let locked ← subW v1.locked n
        let w := { v1 with free, locked }
        let p ← w.power fl
        let d ← subW prev p
        .ok (w, d, slashed)) (do
        let rest ← subW n slashed
        let free ← addW 128 w1.free rest
        let locked ← subW w1.locked n
        let w := { w1 with free, locked }
        let p ← w.power fl
        let d ← subW prev p
        .ok (w, d, slashed)) := by
    intro v1 w1 prev slashed h1
    rw [h1.free, h1.locked]
    refine Both.bind fun _ _ => Both.bind fun f _ => Both.bind fun l _ => ?_
    have h2 : FarmerSeed.Like { v1 with free := f, locked := l } { w1 with free := f, locked := l } :=
      ⟨rfl, rfl, h1.3, h1.4, h1.5, h1.6, h1.7⟩
    simp only
    rw [h2.power]
    exact Both.bind fun _ _ => Both.bind fun _ _ => ⟨h2, rfl⟩
  obtain ⟨R, U, rfl, h6, h7⟩ := h.eta
  unfold unlockSlashed
  rw [h.power]
  refine Both.bind fun _ _ => Both.bind fun _ _ => Both.bind fun _ _ => Both.bind fun _ _ =>
    Both.bind fun _ _ => ?_
  simp only
  split
  · simp only [ok_bind]
    exact Both.bind fun x _ => Both.bind fun _ _ => key (v1 := { v with xLocked := x })
      (w1 := { v with xLocked := x, ratios := R, userRps := U }) ⟨rfl, rfl, rfl, rfl, rfl, h6, h7⟩
  · simp only [ok_bind]
    exact key (v1 := { v with xLocked := 0, unlockAt := 0, duration := 0 })
      (w1 := { v with xLocked := 0, unlockAt := 0, duration := 0, ratios := R, userRps := U })
      ⟨rfl, rfl, rfl, rfl, rfl, h6, h7⟩

end FarmerSeed

/-- Entries with different keys. -/
abbrev Apart {K V : Type} (p q : K × V) : Prop := p.1 ≠ q.1

theorem FMap.apart {K V : Type} [DecidableEq K] (m : FMap K V) : m.entries.Pairwise Apart :=
  List.Pairwise.of_map (S := (· ≠ ·)) Prod.fst (fun _ _ h => h) m.nodup

/-! ## The loops over farms -/

theorem Seed.Like.refl (a : Seed) : a.Like a := ⟨rfl, rfl, .refl _, rfl, rfl, rfl, rfl, rfl, rfl⟩

theorem Seed.Like.trans {a b c : Seed} (h : a.Like b) (g : b.Like c) : a.Like c :=
  ⟨h.1.trans g.1, h.2.trans g.2, h.3.trans g.3, h.4.trans g.4, h.5.trans g.5, h.6.trans g.6, h.7.trans g.7,
    h.8.trans g.8, h.9.trans g.9⟩

theorem updateFarms_eq {now power : Nat} : ∀ (l : List (FarmId × SeedFarm)) (m : FMap FarmId SeedFarm),
    updateFarms now power l m =
      loop (fun p m => p.2.update now power >>= fun g => .ok (m.insert p.1 g)) l m
  | [], _ => rfl
  | (id, f) :: l, m => by
    unfold updateFarms loop
    simp only [bind_assoc, ok_bind, updateFarms_eq l]

theorem Seed.update_both {a b : Seed} {now : Nat} (h : a.Like b) :
    Both Seed.Like (a.update now) (b.update now) := by
  unfold Seed.update
  rw [updateFarms_eq, updateFarms_eq, h.power]
  refine Both.bind2 (q := Equal) (loop_perm (q := Apart) (fun _ _ h => h.symm) (fun _ _ _ h g => h.trans g)
    (fun _ _ _ => .refl _) ?_ ?_ (Equal.perm h.farms) (FMap.apart _) h.farms) ?_
  · intro p s t hst
    exact Both.bind fun _ _ => hst.insert _ _
  · rintro ⟨k, x⟩ ⟨l, y⟩ s hkl hs
    cases x.update now b.power <;> cases y.update now b.power <;> simp only [ok_bind] <;> try trivial
    exact Equal.swap hs hkl _ _
  · intro v w _ _ hvw
    exact ⟨h.1, h.2, hvw, h.4, h.5, rfl, h.7, h.8, h.9⟩

theorem updateClaimed_eq : ∀ (l : List (FarmId × Nat)) (m : FMap FarmId SeedFarm), updateClaimed l m =
    loop (fun p m => expectE (m.get? p.1) .index >>= fun f => addW 128 f.claimed p.2 >>= fun claimed =>
      .ok (m.insert p.1 { f with claimed })) l m
  | [], _ => rfl
  | (id, f) :: l, m => by
    unfold updateClaimed loop
    simp only [bind_assoc, ok_bind, updateClaimed_eq l]

theorem updateClaimed_both {k k' : FMap FarmId Nat} {m m' : FMap FarmId SeedFarm} (hk : Equal k k')
    (h : Equal m m') : Both Equal (updateClaimed k.entries m) (updateClaimed k'.entries m') := by
  rw [updateClaimed_eq, updateClaimed_eq]
  refine loop_perm (q := Apart) (fun _ _ h => h.symm) (fun _ _ _ h g => h.trans g) (fun _ _ _ => .refl _) ?_ ?_
    (Equal.perm hk) (FMap.apart _) h
  · intro p s t hst
    rw [hst p.1 rfl]
    exact Both.bind fun _ _ => Both.bind fun _ _ => hst.insert _ _
  · rintro ⟨k, x⟩ ⟨l, y⟩ s hkl hs
    have hlk : ∀ v, (s.insert k v).get? l = s.get? l := fun v => FMap.get?_insert_ne _ _ (Ne.symm hkl)
    have hkl' : ∀ v, (s.insert l v).get? k = s.get? k := fun v => FMap.get?_insert_ne _ _ hkl
    simp only [bind_assoc, ok_bind, hlk, hkl']
    cases hx : s.get? k <;> cases hy : s.get? l <;> simp only [expectE, ok_bind] <;> try trivial
    · rename_i f
      cases addW 128 f.claimed y <;> trivial
    · rename_i f
      cases addW 128 f.claimed x <;> trivial
    · rename_i f g
      cases addW 128 f.claimed x <;> cases addW 128 g.claimed y <;> try trivial
      exact Equal.swap hs hkl _ _

/-! ## The loops over rewards -/

/-- One round of `addRewards`. -/
def credit (p : AccountId × Nat) (m : FMap AccountId Nat) : R (FMap AccountId Nat) :=
  addW 128 p.2 (m.getD p.1 0) >>= fun s => .ok (m.insert p.1 s)

theorem addRewards_eq : ∀ (l : List (AccountId × Nat)) (m : FMap AccountId Nat), addRewards l m =
    loop credit l m
  | [], _ => rfl
  | (t, n) :: l, m => by
    rw [addRewards, loop, credit]
    simp only [bind_assoc, ok_bind, addRewards_eq l]

theorem credit_both (p : AccountId × Nat) {s t : FMap AccountId Nat} (h : Equal s t) :
    Both Equal (credit p s) (credit p t) := by
  unfold credit
  rw [h.getD rfl]
  exact Both.bind fun _ _ => h.insert _ _

/-- Two credits can be exchanged. -/
theorem credit_swap (p q : AccountId × Nat) (s : FMap AccountId Nat) :
    Both Equal (credit p s >>= credit q) (credit q s >>= credit p) := by
  have fwd : ∀ {p q : AccountId × Nat} {a : FMap AccountId Nat}, (credit p s >>= credit q) = .ok a →
      ∃ b, (credit q s >>= credit p) = .ok b ∧ Equal a b := by
    rintro ⟨k, x⟩ ⟨l, y⟩ a h
    unfold credit at h
    simp only [bind_ok, addW_ok, Except.ok.injEq] at h
    obtain ⟨_, ⟨_, ⟨h1, rfl⟩, rfl⟩, _, ⟨h2, rfl⟩, rfl⟩ := h
    unfold credit
    simp only [bind_ok, addW_ok, Except.ok.injEq]
    by_cases hkl : k = l
    · subst hkl
      rw [FMap.getD_insert, if_pos rfl] at h2
      refine ⟨_, ⟨_, ⟨_, ⟨by omega, rfl⟩, rfl⟩, _, ⟨?_, rfl⟩, rfl⟩, ?_⟩
      · rw [FMap.getD_insert, if_pos rfl]
        omega
      · intro z _
        simp only [FMap.get?_insert, FMap.getD_insert, if_true]
        split
        · congr 1
          omega
        · rfl
    · have e1 : ∀ v, (s.insert k v).getD l 0 = s.getD l 0 := fun v => by
        rw [FMap.getD_insert, if_neg (Ne.symm hkl)]
      have e2 : ∀ v, (s.insert l v).getD k 0 = s.getD k 0 := fun v => by
        rw [FMap.getD_insert, if_neg hkl]
      rw [e1] at h2
      refine ⟨_, ⟨_, ⟨_, ⟨h2, rfl⟩, rfl⟩, _, ⟨?_, rfl⟩, rfl⟩, ?_⟩
      · rw [e2]
        exact h1
      · rw [e1, e2]
        exact Equal.swap (.refl _) hkl _ _
  exact Both.intro (fun _ h => fwd h) fun _ h => let ⟨b, hb, _⟩ := fwd h; ⟨b, hb⟩

theorem addRewards_perm {l l' : List (AccountId × Nat)} (hp : l.Perm l') {m m' : FMap AccountId Nat}
    (h : Equal m m') : Both Equal (addRewards l m) (addRewards l' m') := by
  rw [addRewards_eq, addRewards_eq]
  exact loop_perm (q := fun _ _ => True) (fun _ _ _ => trivial) (fun _ _ _ h g => h.trans g)
    (fun _ _ _ => .refl _) (fun p _ _ h => credit_both p h) (fun p q s _ _ => credit_swap p q s) hp
    (List.pairwise_of_forall fun _ _ => trivial) h

theorem addRewards_append : ∀ (l l' : List (AccountId × Nat)) (m : FMap AccountId Nat),
    addRewards (l ++ l') m = addRewards l m >>= addRewards l'
  | [], _, _ => rfl
  | (t, n) :: l, l', m => by
    rw [List.cons_append, addRewards, addRewards, bind_assoc]
    simp only [addRewards_append l l']

/-- Two claims with the same contents. -/
structure Claim.Like (a b : Claim) : Prop where
  rewards : Equal a.rewards b.rewards
  claimed : Equal a.claimed b.claimed
  rps : Equal a.rps b.rps

theorem Claim.Like.refl (a : Claim) : a.Like a := ⟨.refl _, .refl _, .refl _⟩

/-- What a farm pays for a stake, `farmer.rs:103-105`. -/
def payOf (v : FarmerSeed) (power : Nat) (p : FarmId × SeedFarm) : R Nat := do
  let diff ← subW p.2.rps (v.userRps.getD p.1 0)
  let m ← mulW 384 diff power
  fit 128 (m / D27)

/-- A credit unless it is zero. -/
def creditPos (t : AccountId) (n : Nat) (m : FMap AccountId Nat) : R (FMap AccountId Nat) :=
  if n > 0 then credit (t, n) m else .ok m

/-- An entry unless the condition fails. -/
def putIf {K V : Type} [DecidableEq K] (b : Prop) [Decidable b] (k : K) (v : V) (m : FMap K V) : FMap K V :=
  if b then m.insert k v else m

theorem putIf_both {K V : Type} [DecidableEq K] {b : Prop} [Decidable b] {k : K} {v : V} {m n : FMap K V}
    (h : Equal m n) : Equal (putIf b k v m) (putIf b k v n) := by
  unfold putIf
  split
  · exact h.insert _ _
  · exact h

theorem putIf_swap {K V : Type} [DecidableEq K] {a b : Prop} [Decidable a] [Decidable b] {k l : K} {v w : V}
    {m : FMap K V} (hkl : k ≠ l) : Equal (putIf b l w (putIf a k v m)) (putIf a k v (putIf b l w m)) := by
  unfold putIf
  split <;> split
  · exact Equal.swap (.refl _) hkl _ _
  all_goals exact .refl _

theorem creditPos_swap {t t' : AccountId} {n n' : Nat} {m : FMap AccountId Nat} :
    Both Equal (creditPos t n m >>= creditPos t' n') (creditPos t' n' m >>= creditPos t n) := by
  by_cases h1 : n > 0 <;> by_cases h2 : n' > 0
  · have e1 : creditPos t n = credit (t, n) := funext fun m => if_pos h1
    have e2 : creditPos t' n' = credit (t', n') := funext fun m => if_pos h2
    rw [e1, e2]
    exact credit_swap _ _ _
  · have e2 : ∀ m, creditPos t' n' m = .ok m := fun m => if_neg h2
    cases h : creditPos t n m <;> simp only [e2, ok_bind, h] <;> first | trivial | exact .refl _
  · have e2 : ∀ m, creditPos t n m = .ok m := fun m => if_neg h1
    cases h : creditPos t' n' m <;> simp only [e2, ok_bind, h] <;> first | trivial | exact .refl _
  · have e1 : ∀ m, creditPos t n m = .ok m := fun m => if_neg h1
    have e2 : ∀ m, creditPos t' n' m = .ok m := fun m => if_neg h2
    simp only [e1, e2, ok_bind]
    exact .refl _

/-- One round of `claimLoop`. -/
def claimRound (v : FarmerSeed) (power : Nat) (p : FarmId × SeedFarm) (k : Claim) : R Claim :=
  payOf v power p >>= fun n => creditPos p.2.token n k.rewards >>= fun r =>
    .ok ⟨r, putIf (n > 0) p.1 n k.claimed, putIf (p.2.total > 0) p.1 p.2.rps k.rps⟩

theorem claimLoop_eq {v : FarmerSeed} {power : Nat} : ∀ (l : List (FarmId × SeedFarm)) (k : Claim),
    claimLoop v power l k = loop (claimRound v power) l k
  | [], _ => rfl
  | (id, f) :: l, k => by
    rw [claimLoop, loop, claimRound, payOf]
    simp only [bind_assoc, claimLoop_eq l]
    congr 1; funext diff; congr 1; funext m; congr 1; funext n
    by_cases hn : n > 0 <;> by_cases ht : f.total > 0 <;>
      simp only [hn, ht, if_true, if_false, ok_bind, bind_assoc, creditPos, putIf, credit]

theorem claimRound_both {v w : FarmerSeed} {power : Nat} (h : Equal v.userRps w.userRps)
    (p : FarmId × SeedFarm) {a b : Claim} (hab : a.Like b) :
    Both Claim.Like (claimRound v power p a) (claimRound w power p b) := by
  unfold claimRound payOf
  rw [h.getD rfl]
  refine Both.bind fun n _ => Both.bind2 (q := Equal) ?_ fun _ _ _ _ h1 =>
    ⟨h1, putIf_both hab.claimed, putIf_both hab.rps⟩
  unfold creditPos
  split
  · exact credit_both _ hab.rewards
  · exact hab.rewards

theorem claimRound_swap {v : FarmerSeed} {power : Nat} (p q : FarmId × SeedFarm) (hpq : p.1 ≠ q.1)
    (a : Claim) : Both Claim.Like (claimRound v power p a >>= claimRound v power q)
      (claimRound v power q a >>= claimRound v power p) := by
  unfold claimRound
  cases payOf v power p with
  | error e =>
    cases payOf v power q with
    | error e' => trivial
    | ok n' =>
      simp only [ok_bind]
      cases creditPos q.2.token n' a.rewards <;> trivial
  | ok n =>
    cases payOf v power q with
    | error e' =>
      simp only [ok_bind]
      cases creditPos p.2.token n a.rewards <;> trivial
    | ok n' =>
      simp only [ok_bind, bind_assoc]
      rw [← bind_assoc, ← bind_assoc]
      exact Both.bind2 creditPos_swap fun _ _ _ _ h => ⟨h, putIf_swap hpq, putIf_swap hpq⟩

theorem claimLoop_both {v w : FarmerSeed} {power : Nat} (h : Equal v.userRps w.userRps)
    {m n : FMap FarmId SeedFarm} (hm : Equal m n) (k : Claim) :
    Both Claim.Like (claimLoop v power m.entries k) (claimLoop w power n.entries k) := by
  have tr : ∀ a b c : Claim, a.Like b → b.Like c → a.Like c := fun _ _ _ h g =>
    ⟨h.1.trans g.1, h.2.trans g.2, h.3.trans g.3⟩
  rw [claimLoop_eq, claimLoop_eq]
  refine Both.trans tr (loop_both (g := claimRound w power) (fun p _ _ hab => claimRound_both h p hab)
    m.entries (.refl k)) ?_
  exact loop_perm (q := Apart) (fun _ _ h => h.symm) tr (fun _ _ _ => .refl _)
    (fun p _ _ hab => claimRound_both (.refl _) p hab) (fun p q a hpq _ => claimRound_swap p q hpq a)
    (Equal.perm hm) (FMap.apart _) (.refl k)

/-! ## The loop over boosters -/

/-- One round of `ratiosLoop`, with the decimals of the booster and its entry for the seed. -/
def ratioRound (s : SeedId) (u : Farmer) (p : SeedId × Nat × Option Nat) (m : FMap SeedId Ratio) :
    R (FMap SeedId Ratio) :=
  match p.2.2 with
  | some logBase =>
    if p.1 ≠ s then do
      let n ← u.basicOf p.1
      if n > 0 ∧ logBase > 0 then do
        let _ ← fit 128 (10 ^ p.2.1)
        .ok (m.insert p.1 ⟨n, p.2.1, logBase⟩)
      else .ok m
    else .ok m
  | none => .ok m

theorem ratiosLoop_eq {s : SeedId} {u : Farmer} : ∀ (l : List (SeedId × Booster)) (m : FMap SeedId Ratio),
    ratiosLoop s u l m = loop (ratioRound s u)
      (l.map fun p => (p.1, (p.2.decimals, p.2.affected.get? s))) m
  | [], _ => rfl
  | (k, b) :: l, m => by
    rw [ratiosLoop, List.map_cons, loop, ratioRound]
    simp only [ratiosLoop_eq l]
    cases b.affected.get? s with
    | none => rfl
    | some logBase =>
      simp only
      split
      · rw [bind_assoc]
        congr 1
        funext n
        split
        · rw [bind_assoc]
          rfl
        · rfl
      · rfl

/-- What a round adds. -/
theorem ratioRound_cases (s : SeedId) (u : Farmer) (p : SeedId × Nat × Option Nat) :
    (∀ m, ∃ e, ratioRound s u p m = .error e) ∨ (∀ m, ratioRound s u p m = .ok m) ∨
      ∃ r, ∀ m, ratioRound s u p m = .ok (m.insert p.1 r) := by
  unfold ratioRound
  cases p.2.2 with
  | none => exact .inr (.inl fun _ => rfl)
  | some logBase =>
    simp only
    by_cases hs : p.1 ≠ s
    · simp only [if_pos hs]
      cases u.basicOf p.1 with
      | error e => exact .inl fun _ => ⟨e, rfl⟩
      | ok n =>
        simp only [ok_bind]
        by_cases hn : n > 0 ∧ logBase > 0
        · simp only [if_pos hn]
          cases fit 128 (10 ^ p.2.1) with
          | error e => exact .inl fun _ => ⟨e, rfl⟩
          | ok _ => exact .inr (.inr ⟨_, fun _ => rfl⟩)
        · simp only [if_neg hn]
          exact .inr (.inl fun _ => trivial)
    · simp only [if_neg hs]
      exact .inr (.inl fun _ => trivial)

theorem ratioRound_both (s : SeedId) (u : Farmer) (p : SeedId × Nat × Option Nat) {m n : FMap SeedId Ratio}
    (h : Equal m n) : Both Equal (ratioRound s u p m) (ratioRound s u p n) := by
  rcases ratioRound_cases s u p with h1 | h1 | ⟨r, h1⟩
  · obtain ⟨e1, h2⟩ := h1 m
    obtain ⟨e2, h3⟩ := h1 n
    rw [h2, h3]
    trivial
  · rw [h1, h1]
    exact h
  · rw [h1, h1]
    exact h.insert _ _

theorem ratioRound_swap (s : SeedId) (u : Farmer) (p q : SeedId × Nat × Option Nat) (hpq : p.1 ≠ q.1)
    (m : FMap SeedId Ratio) : Both Equal (ratioRound s u p m >>= ratioRound s u q)
      (ratioRound s u q m >>= ratioRound s u p) := by
  rcases ratioRound_cases s u p with h1 | h1 | ⟨r, h1⟩ <;>
    rcases ratioRound_cases s u q with h2 | h2 | ⟨r', h2⟩
  · obtain ⟨e1, h3⟩ := h1 m
    obtain ⟨e2, h4⟩ := h2 m
    rw [h3, h4]
    trivial
  · obtain ⟨e1, h3⟩ := h1 m
    rw [h3, h2, ok_bind, h3]
    trivial
  · obtain ⟨e1, h3⟩ := h1 m
    obtain ⟨e2, h4⟩ := h1 (m.insert q.1 r')
    rw [h3, h2, ok_bind, h4]
    trivial
  · obtain ⟨e1, h3⟩ := h2 m
    rw [h3, h1, ok_bind, h3]
    trivial
  · rw [h1, h2, ok_bind, ok_bind, h1, h2]
    exact .refl _
  · rw [h1, h2, ok_bind, ok_bind, h1, h2]
    exact .refl _
  · obtain ⟨e1, h3⟩ := h2 m
    obtain ⟨e2, h4⟩ := h2 (m.insert p.1 r)
    rw [h3, h1, ok_bind, h4]
    trivial
  · rw [h1, h2, ok_bind, ok_bind, h1, h2]
    exact .refl _
  · rw [h1, h2, ok_bind, ok_bind, h1, h2]
    exact Equal.swap (.refl _) hpq _ _

/-- Ratios depend only on the boosters' settings and the farmer's stakes in them. -/
theorem genRatios_both {a b : Config} (hc : a.Like b) {s : SeedId} {u v : Farmer}
    (h : ∀ k, u.basicOf k = v.basicOf k) : Both Equal (genRatios a s u) (genRatios b s v) := by
  unfold genRatios
  rw [ratiosLoop_eq, ratiosLoop_eq]
  have e : ratioRound s u = ratioRound s v := by
    funext p m
    unfold ratioRound
    rw [h]
  rw [e]
  refine loop_perm (q := Apart) (fun _ _ h => h.symm) (fun _ _ _ h g => h.trans g) (fun _ _ _ => .refl _)
    (fun p _ _ h => ratioRound_both s v p h) (fun p q m hpq _ => ratioRound_swap s v p q hpq m)
    (FMap.entries_perm (fun b : Booster => (b.decimals, b.affected.get? s)) fun k =>
      rel_map (hc.boosters k) fun _ _ hb => by rw [hb.decimals, hb.affected s rfl]) ?_ (.refl _)
  exact List.pairwise_map.2 (FMap.apart a.boosters)

/-! ## Claims -/

/-- What a claim reads of a farmer, apart from the rewards credited before. -/
structure Farmer.Near (s : SeedId) (u v : Farmer) : Prop where
  stake : Option.Rel FarmerSeed.Like (u.seeds.get? s) (v.seeds.get? s)
  basic : ∀ k, u.basicOf k = v.basicOf k

theorem Farmer.Like.near {u v : Farmer} (h : u.Like v) (s : SeedId) : u.Near s v := by
  refine ⟨h.seeds s, fun k => ?_⟩
  unfold Farmer.basicOf
  have := h.seeds k
  revert this
  generalize u.seeds.get? k = x
  generalize v.seeds.get? k = y
  intro h
  cases h with
  | none => rfl
  | some h => exact h.basic

/-- A claim without the credit of the rewards: what is credited, the stake and the seed. -/
def claimPart (fl : Floats) (cfg : Config) (u : Farmer) (sd : Seed) :
    R (FMap AccountId Nat × FarmerSeed × Seed) := do
  let (v, k) ← calcClaim fl cfg u sd
  let prev ← v.power fl
  let ratios ← genRatios cfg sd.id u
  let v := { v with ratios }
  let p ← v.power fl
  let s ← addW 128 sd.power p
  let power ← subW s prev
  let farms ← updateClaimed k.claimed.entries sd.farms
  .ok (k.rewards, v, { sd with power, farms })

theorem genRatios_rewards {cfg : Config} {s : SeedId} {u : Farmer} {m : FMap AccountId Nat} :
    genRatios cfg s { u with rewards := m } = genRatios cfg s u := by
  unfold genRatios
  exact Contract.ratiosLoop_seeds (u := u) (u' := { u with rewards := m }) rfl _ _

theorem doClaim_iff {fl : Floats} {cfg : Config} {u u' : Farmer} {sd sd' : Seed} :
    doClaim fl cfg u sd = .ok (u', sd') ↔ ∃ k v m, claimPart fl cfg u sd = .ok (k, v, sd') ∧
      addRewards k.entries u.rewards = .ok m ∧
      u' = { u with rewards := m, seeds := u.seeds.insert sd.id v } := by
  unfold doClaim claimPart
  simp only [bind_ok, genRatios_rewards, Except.ok.injEq, Prod.mk.injEq, Prod.exists]
  constructor
  · rintro ⟨v, k, h1, m, h2, prev, h3, r, h4, p, h5, s, h6, q, h7, f, h8, rfl, rfl⟩
    exact ⟨_, _, m, ⟨v, k, h1, prev, h3, r, h4, p, h5, s, h6, q, h7, f, h8, rfl, rfl, rfl⟩, h2, rfl⟩
  · rintro ⟨_, _, m, ⟨v, k, h1, prev, h3, r, h4, p, h5, s, h6, q, h7, f, h8, rfl, rfl, rfl⟩, h2, rfl⟩
    exact ⟨v, k, h1, m, h2, prev, h3, r, h4, p, h5, s, h6, q, h7, f, h8, rfl, rfl⟩

theorem calcClaim_both {fl : Floats} {a b : Config} (hc : a.Like b) {u v : Farmer} {sd se : Seed}
    (h : u.Near sd.id v) (hs : sd.Like se) :
    Both (fun p q => p.1.Like q.1 ∧ p.2.Like q.2) (calcClaim fl a u sd) (calcClaim fl b v se) := by
  have rest : ∀ {x y : FarmerSeed}, x.Like y → Both (fun p q => p.1.Like q.1 ∧ p.2.Like q.2) (do
      let p ← x.power fl
      let k ← claimLoop x p sd.farms.entries ⟨FMap.empty, FMap.empty, FMap.empty⟩
      .ok ({ x with userRps := k.rps }, k)) (do
      let p ← y.power fl
      let k ← claimLoop y p se.farms.entries ⟨FMap.empty, FMap.empty, FMap.empty⟩
      .ok ({ y with userRps := k.rps }, k)) := by
    intro x y hxy
    rw [hxy.power]
    exact Both.bind fun _ _ => Both.bind2 (claimLoop_both hxy.userRps hs.farms _) fun _ _ _ _ h1 =>
      ⟨⟨hxy.1, hxy.2, hxy.3, hxy.4, hxy.5, hxy.6, h1.rps⟩, h1⟩
  unfold calcClaim
  have h1 := h.stake
  rw [← hs.id]
  revert h1
  generalize u.seeds.get? sd.id = x
  generalize v.seeds.get? sd.id = y
  intro h1
  cases h1 with
  | none =>
    simp only [ok_bind]
    exact Both.bind2 (genRatios_both hc h.basic) fun _ _ _ _ h2 =>
      rest ⟨rfl, rfl, rfl, rfl, rfl, h2, .refl _⟩
  | some h1 => exact rest h1

theorem claimPart_both {fl : Floats} {a b : Config} (hc : a.Like b) {u v : Farmer} {sd se : Seed}
    (h : u.Near sd.id v) (hs : sd.Like se) :
    Both (fun p q => Equal p.1 q.1 ∧ p.2.1.Like q.2.1 ∧ p.2.2.Like q.2.2) (claimPart fl a u sd)
      (claimPart fl b v se) := by
  unfold claimPart
  refine Both.bind2 (calcClaim_both hc h hs) ?_
  rintro ⟨x, k⟩ ⟨y, l⟩ _ _ ⟨h1, h2⟩
  simp only at h1 h2
  simp only
  rw [h1.power, ← hs.id, hs.power]
  refine Both.bind fun _ _ => Both.bind2 (genRatios_both hc h.basic) fun r1 r2 _ _ h3 => ?_
  have h4 : FarmerSeed.Like { x with ratios := r1 } { y with ratios := r2 } :=
    ⟨h1.1, h1.2, h1.3, h1.4, h1.5, h3, h1.7⟩
  rw [h4.power]
  exact Both.bind fun _ _ => Both.bind fun _ _ => Both.bind fun _ _ =>
    Both.bind2 (updateClaimed_both h2.claimed hs.farms) fun _ _ _ _ h5 =>
    ⟨h2.rewards, h4, ⟨rfl, hs.2, h5, hs.4, hs.5, rfl, hs.7, hs.8, hs.9⟩⟩

theorem claimPart_basic {fl : Floats} {cfg : Config} {u : Farmer} {sd sd' : Seed} {k : FMap AccountId Nat}
    {v w : FarmerSeed} (h : claimPart fl cfg u sd = .ok (k, v, sd')) (hw : u.seeds.get? sd.id = some w) :
    v.basic = w.basic := by
  unfold claimPart calcClaim at h
  rw [hw] at h
  simp only [bind_ok, ok_bind, Except.ok.injEq, Prod.mk.injEq, Prod.exists] at h
  obtain ⟨v1, k1, ⟨p, h1, k2, h2, rfl, rfl⟩, prev, h3, r, h4, p, h5, s, h6, q, h7, f, h8, rfl, rfl, rfl⟩ := h
  rfl

theorem claimPart_id {fl : Floats} {cfg : Config} {u : Farmer} {sd sd' : Seed} {k : FMap AccountId Nat}
    {v : FarmerSeed} (h : claimPart fl cfg u sd = .ok (k, v, sd')) : sd'.id = sd.id := by
  unfold claimPart at h
  simp only [bind_ok, Except.ok.injEq, Prod.mk.injEq, Prod.exists] at h
  obtain ⟨v1, k1, h1, prev, h3, r, h4, p, h5, s, h6, q, h7, f, h8, rfl, rfl, rfl⟩ := h
  rfl

theorem doClaim_both {fl : Floats} {a b : Config} (hc : a.Like b) {u v : Farmer} {sd se : Seed}
    (h : u.Like v) (hs : sd.Like se) :
    Both (fun p q => p.1.Like q.1 ∧ p.2.Like q.2) (doClaim fl a u sd) (doClaim fl b v se) := by
  have hp := claimPart_both (fl := fl) hc (h.near sd.id) hs
  refine Both.intro ?_ ?_
  · rintro ⟨u', sd'⟩ h1
    obtain ⟨k, x, m, h2, h3, rfl⟩ := doClaim_iff.1 h1
    rw [h2] at hp
    cases h4 : claimPart fl b v se with
    | error e => rw [h4] at hp; exact hp.elim
    | ok q =>
      obtain ⟨l, y, se'⟩ := q
      rw [h4] at hp
      obtain ⟨hkl, hxy, hse⟩ := hp
      have hr := addRewards_perm (Equal.perm hkl) h.rewards
      rw [h3] at hr
      cases h5 : addRewards l.entries v.rewards with
      | error e => rw [h5] at hr; exact hr.elim
      | ok m' =>
        rw [h5] at hr
        refine ⟨_, doClaim_iff.2 ⟨l, y, m', h4, h5, rfl⟩, ⟨h.sponsor, hr, ?_⟩, hse⟩
        simp only
        rw [hs.id]
        exact rel_insert h.seeds hxy
  · rintro ⟨v', se'⟩ h1
    obtain ⟨l, y, m', h4, h5, rfl⟩ := doClaim_iff.1 h1
    rw [h4] at hp
    cases h2 : claimPart fl a u sd with
    | error e => rw [h2] at hp; exact hp.elim
    | ok q =>
      obtain ⟨k, x, sd'⟩ := q
      rw [h2] at hp
      obtain ⟨hkl, hxy, hse⟩ := hp
      have hr := addRewards_perm (Equal.perm hkl) h.rewards
      rw [h5] at hr
      cases h3 : addRewards k.entries u.rewards with
      | error e => rw [h3] at hr; exact hr.elim
      | ok m => exact ⟨_, doClaim_iff.2 ⟨k, x, m, h2, h3, rfl⟩⟩

theorem Farmer.Like.refl (u : Farmer) : u.Like u := ⟨rfl, .refl _, fun _ => rel_refl .refl _⟩

theorem Farmer.Like.trans {u v w : Farmer} (h : u.Like v) (g : v.Like w) : u.Like w :=
  ⟨h.1.trans g.1, h.2.trans g.2, fun s => rel_trans (fun _ _ _ h g => h.trans g) (h.3 s) (g.3 s)⟩

theorem Booster.Like.refl (b : Booster) : b.Like b := ⟨rfl, .refl _⟩

theorem Config.Like.refl (a : Config) : a.Like a := ⟨rfl, fun _ => rel_refl .refl _, rfl, rfl, rfl, rfl⟩

theorem Config.Like.trans {a b c : Config} (h : a.Like b) (g : b.Like c) : a.Like c :=
  ⟨h.1.trans g.1, fun s => rel_trans (fun _ _ _ h g => ⟨h.1.trans g.1, h.2.trans g.2⟩) (h.2 s) (g.2 s),
    h.3.trans g.3, h.4.trans g.4, h.5.trans g.5, h.6.trans g.6⟩

namespace Contract

variable {fl : Floats} {c d e : Contract} {now : Nat}

theorem Like.refl (c : Contract) : c.Like c :=
  ⟨rfl, rfl, rfl, .refl _, fun _ => rel_refl .refl _, fun _ => rel_refl .refl _, .refl _, .refl _, .refl _,
    rfl, rfl⟩

theorem Like.trans (h : c.Like d) (g : d.Like e) : c.Like e :=
  ⟨h.1.trans g.1, h.2.trans g.2, h.3.trans g.3, h.4.trans g.4,
    fun s => rel_trans (fun _ _ _ h g => h.trans g) (h.5 s) (g.5 s),
    fun s => rel_trans (fun _ _ _ h g => h.trans g) (h.6 s) (g.6 s),
    h.7.trans g.7, h.8.trans g.8, h.9.trans g.9, h.10.trans g.10, h.11.trans g.11⟩

theorem Like.setSeed (h : c.Like d) {s : SeedId} {sd se : Seed} (hs : sd.Like se) :
    (c.setSeed s sd).Like (d.setSeed s se) :=
  ⟨h.1, h.2, h.3, h.4, rel_insert h.5 hs, h.6, h.7, h.8, h.9, h.10, h.11⟩

theorem Like.setFarmer (h : c.Like d) {a : AccountId} {u v : Farmer} (hs : u.Like v) :
    (c.setFarmer a u).Like (d.setFarmer a v) :=
  ⟨h.1, h.2, h.3, h.4, h.5, rel_insert h.6 hs, h.7, h.8, h.9, h.10, h.11⟩

theorem Like.farmer (h : c.Like d) (a : AccountId) : Both Farmer.Like (c.farmer a) (d.farmer a) :=
  rel_expect (h.farmers a)

theorem Like.seed (h : c.Like d) (s : SeedId) : Both Seed.Like (c.seed now s) (d.seed now s) := by
  unfold Contract.seed
  exact Both.bind2 (rel_expect (h.seeds s)) fun _ _ _ _ h1 => Seed.update_both h1

/-- Seeds are stored under their ids. -/
def Filed (c : Contract) : Prop := ∀ s sd, c.seeds.get? s = some sd → sd.id = s

theorem Filed.like (hc : c.Filed) (h : c.Like d) : d.Filed := by
  intro s sd hs
  have h1 := h.seeds s
  have h2 := hc s
  revert h1 h2
  rw [hs]
  generalize c.seeds.get? s = x
  intro h1 h2
  cases h1 with
  | some h1 => exact h1.id ▸ h2 _ rfl

theorem Filed.setSeed (hc : c.Filed) {s : SeedId} {sd : Seed} (h : sd.id = s) : (c.setSeed s sd).Filed := by
  intro z se hz
  unfold Contract.setSeed at hz
  rw [FMap.get?_insert] at hz
  split at hz
  · cases hz
    subst_vars
    rfl
  · exact hc z se hz

theorem Filed.seed (hc : c.Filed) {s : SeedId} {sd : Seed} (h : c.seed now s = .ok sd) : sd.id = s := by
  unfold Contract.seed Seed.update at h
  simp only [Verif.bind_ok, expectE_ok, Except.ok.injEq] at h
  obtain ⟨old, ho, f, _, rfl⟩ := h
  exact hc s old ho

theorem seed_setSeed {s z : SeedId} (h : z ≠ s) {sd : Seed} :
    (c.setSeed s sd).seed now z = c.seed now z := by
  unfold Contract.seed Contract.setSeed
  rw [FMap.get?_insert_ne _ _ h]

/-! ## The loop over boosted seeds -/

/-- One round of `impactedLoop`. -/
def impactRound (fl : Floats) (now : Nat) (p : SeedId × Nat) (x : Contract × Farmer) :
    R (Contract × Farmer) :=
  if x.2.seeds.contains p.1 then
    x.1.seed now p.1 >>= fun sd => doClaim fl x.1.cfg x.2 sd >>= fun y => .ok (x.1.setSeed p.1 y.2, y.1)
  else .ok x

theorem impactedLoop_eq : ∀ (l : List (SeedId × Nat)) (c : Contract) (u : Farmer),
    impactedLoop fl now l c u = loop (impactRound fl now) l (c, u)
  | [], _, _ => rfl
  | (s, _) :: l, c, u => by
    rw [impactedLoop, loop, impactRound]
    simp only [impactedLoop_eq l]
    split
    · simp only [bind_assoc, ok_bind]
    · rfl

/-- Pairs of contract and farmer with the same contents. -/
structure Pair (x y : Contract × Farmer) : Prop where
  filed : x.1.Filed
  like : x.1.Like y.1
  farmer : x.2.Like y.2

theorem Pair.trans {x y z : Contract × Farmer} (h : Pair x y) (g : Pair y z) : Pair x z :=
  ⟨h.filed, h.like.trans g.like, h.farmer.trans g.farmer⟩

theorem Pair.right {x y : Contract × Farmer} (h : Pair x y) : Pair y y :=
  ⟨h.filed.like h.like, .refl _, .refl _⟩

theorem impactRound_both (p : SeedId × Nat) {x y : Contract × Farmer} (h : Pair x y) :
    Both Pair (impactRound fl now p x) (impactRound fl now p y) := by
  unfold impactRound
  rw [rel_contains h.farmer.seeds]
  split
  · refine Both.bind2 (h.like.seed p.1) fun sd se hsd _ h1 => Both.bind2 (doClaim_both h.like.cfg h.farmer h1) ?_
    rintro ⟨u1, sd1⟩ ⟨v1, se1⟩ hd _ ⟨h2, h3⟩
    obtain ⟨_, _, _, hp, _, _⟩ := doClaim_iff.1 hd
    exact ⟨h.filed.setSeed ((claimPart_id hp).trans (h.filed.seed hsd)), h.like.setSeed h3, h2⟩
  · exact h

theorem impactRound_ok {p : SeedId × Nat} {u : Farmer} {y : Contract × Farmer} (hc : c.Filed)
    (hu : u.seeds.contains p.1 = true) : impactRound fl now p (c, u) = .ok y ↔
    ∃ sd k v m sd', c.seed now p.1 = .ok sd ∧ claimPart fl c.cfg u sd = .ok (k, v, sd') ∧
      addRewards k.entries u.rewards = .ok m ∧ y.1 = c.setSeed p.1 sd' ∧
      y.2 = { u with rewards := m, seeds := u.seeds.insert p.1 v } := by
  have e : impactRound fl now p (c, u) = (c.seed now p.1 >>= fun sd => doClaim fl c.cfg u sd >>= fun y =>
      .ok (c.setSeed p.1 y.2, y.1)) := if_pos hu
  rw [e]
  simp only [Verif.bind_ok, Except.ok.injEq]
  constructor
  · rintro ⟨sd, hs, ⟨u', sd'⟩, h, rfl⟩
    obtain ⟨k, v, m, h1, h2, rfl⟩ := doClaim_iff.1 h
    exact ⟨sd, k, v, m, sd', hs, h1, h2, rfl, by rw [hc.seed hs]⟩
  · rintro ⟨sd, k, v, m, sd', hs, h1, h2, h3, h4⟩
    refine ⟨sd, hs, _, doClaim_iff.2 ⟨k, v, m, h1, h2, rfl⟩, ?_⟩
    obtain ⟨y1, y2⟩ := y
    simp only at h3 h4
    rw [h3, h4, hc.seed hs]

/-- A claim from one seed leaves what a claim from another seed reads. -/
theorem near_insert {u : Farmer} {s z : SeedId} (h : z ≠ s) {w v : FarmerSeed} {m : FMap AccountId Nat}
    (hw : u.seeds.get? s = some w) (hv : v.basic = w.basic) :
    Farmer.Near z { u with rewards := m, seeds := u.seeds.insert s v } u := by
  constructor
  · simp only
    rw [FMap.get?_insert_ne _ _ h]
    exact rel_refl .refl _
  · intro k
    unfold Farmer.basicOf
    simp only
    rw [FMap.get?_insert]
    by_cases h1 : k = s
    · rw [if_pos h1, h1, hw]
      exact hv
    · rw [if_neg h1]

theorem Farmer.near_symm {s : SeedId} {u v : Farmer} (h : u.Near s v) : v.Near s u := by
  refine ⟨?_, fun k => (h.basic k).symm⟩
  have := h.stake
  revert this
  generalize u.seeds.get? s = x
  generalize v.seeds.get? s = y
  intro h
  cases h with
  | none => exact .none
  | some h => exact .some ⟨h.1.symm, h.2.symm, h.3.symm, h.4.symm, h.5.symm, Equal.symm h.6, Equal.symm h.7⟩

/-- The claims for two boosted seeds can be exchanged. -/
theorem impactRound_swap (p q : SeedId × Nat) (hpq : p.1 ≠ q.1) {x : Contract × Farmer} (hx : x.1.Filed) :
    Both Pair (impactRound fl now p x >>= impactRound fl now q)
      (impactRound fl now q x >>= impactRound fl now p) := by
  obtain ⟨c, u⟩ := x
  have hc : c.Filed := hx
  have self : ∀ (p : SeedId × Nat), Both Pair (impactRound fl now p (c, u)) (impactRound fl now p (c, u)) :=
    fun p => impactRound_both p ⟨hc, .refl _, .refl _⟩
  have skip : ∀ {p : SeedId × Nat} {x : Contract × Farmer}, x.2.seeds.contains p.1 = false →
      impactRound fl now p x = .ok x := fun h => by
    unfold impactRound
    rw [h]
    rfl
  -- a round keeps the seeds the farmer has a stake in
  have keep : ∀ {p q : SeedId × Nat} {y}, p.1 ≠ q.1 → impactRound fl now p (c, u) = .ok y →
      y.2.seeds.contains q.1 = u.seeds.contains q.1 := by
    intro p q y hpq h
    cases hu : u.seeds.contains p.1 with
    | false =>
      rw [skip hu] at h
      cases h
      rfl
    | true =>
      obtain ⟨sd, k, v, m, sd', _, _, _, _, h5⟩ := (impactRound_ok hc hu).1 h
      rw [h5]
      unfold FMap.contains
      simp only
      rw [FMap.get?_insert_ne _ _ hpq.symm]
  have one : ∀ {p q : SeedId × Nat}, p.1 ≠ q.1 → u.seeds.contains q.1 = false →
      (impactRound fl now p (c, u) >>= impactRound fl now q) = impactRound fl now p (c, u) := by
    intro p q hpq hq
    cases h : impactRound fl now p (c, u) with
    | error e => rfl
    | ok y =>
      rw [ok_bind, skip ((keep hpq h).trans hq)]
  cases hq : u.seeds.contains q.1 with
  | false =>
    rw [one hpq hq, skip (x := (c, u)) hq, ok_bind]
    exact self p
  | true =>
  cases hp : u.seeds.contains p.1 with
  | false =>
    rw [one hpq.symm hp, skip (x := (c, u)) hp, ok_bind]
    exact self q
  | true =>
  have fwd : ∀ {p q : SeedId × Nat}, p.1 ≠ q.1 → u.seeds.contains p.1 = true → u.seeds.contains q.1 = true →
      ∀ y, (impactRound fl now p (c, u) >>= impactRound fl now q) = .ok y →
      ∃ z, (impactRound fl now q (c, u) >>= impactRound fl now p) = .ok z ∧ Pair y z := by
    intro p q hpq hp hq y h
    rw [Verif.bind_ok] at h
    obtain ⟨⟨c1, u1⟩, h1, h2⟩ := h
    have k1 := (keep hpq h1).trans hq
    obtain ⟨sd, k, v, m, sd', a1, a2, a3, rfl, rfl⟩ := (impactRound_ok hc hp).1 h1
    have hsd : sd.id = p.1 := hc.seed a1
    have hc1 : (c.setSeed p.1 sd').Filed := hc.setSeed ((claimPart_id a2).trans hsd)
    obtain ⟨se, l, w, n, se', b1, b2, b3, b4, b5⟩ := (impactRound_ok hc1 k1).1 h2
    obtain ⟨y1, y2⟩ := y
    simp only at b4 b5
    subst b4 b5
    rw [seed_setSeed hpq.symm] at b1
    have hse : se.id = q.1 := hc.seed b1
    obtain ⟨v0, hv0⟩ := Option.isSome_iff_exists.1 hp
    obtain ⟨w0, hw0⟩ := Option.isSome_iff_exists.1 hq
    have hv := claimPart_basic a2 (by rw [hsd]; exact hv0)
    -- the claim from the other seed can come first
    have e1 := claimPart_both (fl := fl) (Config.Like.refl c.cfg) (near_insert (z := se.id) (m := m)
      (by rw [hse]; exact hpq.symm) hv0 hv) (Seed.Like.refl se)
    rw [show claimPart fl c.cfg _ se = _ from b2] at e1
    cases f2 : claimPart fl c.cfg u se with
    | error e => rw [f2] at e1; exact e1.elim
    | ok t =>
    obtain ⟨l', w', se2⟩ := t
    rw [f2] at e1
    obtain ⟨g1, g2, g3⟩ := e1
    -- the credits can be exchanged
    have r1 : addRewards (k.entries ++ l.entries) u.rewards = .ok n := by
      rw [addRewards_append, a3]
      exact b3
    have r2 := addRewards_perm (m := u.rewards) (m' := u.rewards)
      (List.perm_append_comm.trans ((Equal.perm g1).append_right k.entries)) (.refl _) (l := k.entries ++ l.entries)
    rw [r1, addRewards_append] at r2
    cases f3 : addRewards l'.entries u.rewards with
    | error e => rw [f3] at r2; exact r2.elim
    | ok m' =>
    rw [f3, ok_bind] at r2
    -- and then the claim from the first seed
    have hw' := claimPart_basic f2 (by rw [hse]; exact hw0)
    have e2 := claimPart_both (fl := fl) (Config.Like.refl c.cfg) (Farmer.near_symm (near_insert (z := sd.id)
      (m := m') (by rw [hsd]; exact hpq) hw0 hw')) (Seed.Like.refl sd)
    rw [a2] at e2
    cases f4 : claimPart fl c.cfg { u with rewards := m', seeds := u.seeds.insert q.1 w' } sd with
    | error e => rw [f4] at e2; exact e2.elim
    | ok t =>
    obtain ⟨k', v', sd2⟩ := t
    rw [f4] at e2
    obtain ⟨i1, i2, i3⟩ := e2
    have r3 := addRewards_perm (Equal.perm i1) (Same.refl m' : Equal m' m')
    have r4 := Both.trans (r := Equal) (fun _ _ _ h g => Same.trans h g) r2 r3
    cases f5 : addRewards k'.entries m' with
    | error e => rw [f5] at r4; exact r4.elim
    | ok n' =>
    rw [f5] at r4
    have hc2 : (c.setSeed q.1 se2).Filed := hc.setSeed ((claimPart_id f2).trans hse)
    have j1 : impactRound fl now q (c, u) =
        .ok (c.setSeed q.1 se2, { u with rewards := m', seeds := u.seeds.insert q.1 w' }) :=
      (impactRound_ok hc hq).2 ⟨se, l', w', m', se2, b1, f2, f3, rfl, rfl⟩
    have k2 := (keep hpq.symm j1).trans hp
    refine ⟨((c.setSeed q.1 se2).setSeed p.1 sd2,
      { u with rewards := n', seeds := (u.seeds.insert q.1 w').insert p.1 v' }), ?_, ?_⟩
    · rw [j1, ok_bind]
      exact (impactRound_ok hc2 k2).2 ⟨sd, k', v', n', sd2, by rw [seed_setSeed hpq]; exact a1, f4, f5, rfl, rfl⟩
    · refine ⟨hc1.setSeed ?_, ⟨rfl, rfl, rfl, .refl _, ?_, fun _ => rel_refl .refl _, .refl _, .refl _, .refl _,
        rfl, rfl⟩, ⟨rfl, r4, ?_⟩⟩
      · exact (claimPart_id b2).trans hse
      · intro z
        simp only [Contract.setSeed, FMap.get?_insert]
        by_cases h1 : z = q.1
        · rw [if_pos h1, if_neg (fun h => hpq (h.symm.trans h1)), if_pos h1]
          exact .some g3
        · rw [if_neg h1]
          by_cases h2 : z = p.1
          · rw [if_pos h2, if_pos h2]
            exact .some i3
          · rw [if_neg h2, if_neg h2, if_neg h1]
            exact rel_refl .refl _
      · intro z
        simp only [FMap.get?_insert]
        by_cases h1 : z = q.1
        · rw [if_pos h1, if_neg (fun h => hpq (h.symm.trans h1)), if_pos h1]
          exact .some g2
        · rw [if_neg h1]
          by_cases h2 : z = p.1
          · rw [if_pos h2, if_pos h2]
            exact .some i2
          · rw [if_neg h2, if_neg h2, if_neg h1]
            exact rel_refl .refl _
  exact Both.intro (fwd hpq hp hq) fun z hz => let ⟨y, hy, _⟩ := fwd hpq.symm hq hp z hz; ⟨y, hy⟩

theorem updateImpacted_both {u v : Farmer} (hc : c.Filed) (h : c.Like d) (hu : u.Like v) (s : SeedId) :
    Both Pair (c.updateImpacted fl now u s) (d.updateImpacted fl now v s) := by
  unfold updateImpacted
  have hb := h.cfg.boosters s
  revert hb
  generalize c.cfg.boosters.get? s = x
  generalize d.cfg.boosters.get? s = y
  intro hb
  cases hb with
  | none => exact ⟨hc, h, hu⟩
  | some hb =>
    simp only
    rw [impactedLoop_eq, impactedLoop_eq]
    exact loop_perm (r := Pair) (q := Boost.Apart) (fun _ _ h => Ne.symm h) (fun _ _ _ h g => Pair.trans h g)
      (fun _ _ h => Pair.right h)
      (fun p _ _ h => impactRound_both p h) (fun p q x hpq hx => impactRound_swap p q hpq hx.filed)
      (Equal.perm hb.affected) (FMap.apart _) ⟨hc, h, hu⟩

/-! ## The checks of the limits -/

theorem affectedFarms_iff : ∀ {l : List (SeedId × Nat)} {n : Nat}, c.affectedFarms l = .ok n ↔
    (∀ p ∈ l, (c.seeds.get? p.1).isSome = true) ∧
      n = (l.map fun p => ((c.seeds.get? p.1).map fun sd => sd.farms.size).getD 0).sum ∧ n < 2 ^ 32
  | [], n => by
    simp only [affectedFarms, Except.ok.injEq, List.map_nil, List.sum_nil, List.not_mem_nil]
    constructor
    · rintro rfl
      exact ⟨fun _ h => h.elim, rfl, by decide⟩
    · rintro ⟨_, rfl, _⟩
      rfl
  | (s, b) :: l, n => by
    unfold affectedFarms
    simp only [Verif.bind_ok, expectE_ok, addW_ok, affectedFarms_iff (l := l), List.map_cons, List.sum_cons,
      List.forall_mem_cons]
    constructor
    · rintro ⟨sd, hs, m, ⟨h1, rfl, h2⟩, h3, rfl⟩
      rw [hs]
      exact ⟨⟨rfl, h1⟩, rfl, h3⟩
    · rintro ⟨⟨h0, h1⟩, rfl, h2⟩
      obtain ⟨sd, hs⟩ := Option.isSome_iff_exists.1 h0
      rw [hs] at h2 ⊢
      exact ⟨sd, rfl, _, ⟨h1, rfl, Nat.lt_of_le_of_lt (Nat.le_add_left _ _) h2⟩, h2, rfl⟩

theorem Like.affected (h : c.Like d) {l l' : List (SeedId × Nat)} (hl : l.Perm l') :
    Both Eq (c.affectedFarms l) (d.affectedFarms l') := by
  have e1 : ∀ s, (c.seeds.get? s).isSome = (d.seeds.get? s).isSome := fun s => rel_contains h.seeds s
  have e2 : ∀ s, ((c.seeds.get? s).map fun sd => sd.farms.size) =
      ((d.seeds.get? s).map fun sd => sd.farms.size) := fun s =>
    rel_map (h.seeds s) fun _ _ h => h.farms.size
  have key : ∀ n, c.affectedFarms l = .ok n ↔ d.affectedFarms l' = .ok n := by
    intro n
    rw [affectedFarms_iff, affectedFarms_iff]
    simp only [e1, e2, hl.mem_iff, (hl.map _).sum_eq]
  exact Both.intro (fun n hn => ⟨n, (key n).1 hn, rfl⟩) fun n hn => ⟨n, (key n).2 hn⟩

theorem assertBoosters_iff : ∀ {l : List (SeedId × Booster)} {x : Unit}, c.assertBoosters l = .ok x ↔
    ∀ p ∈ l, ∃ n, c.affectedFarms p.2.affected.entries = .ok n ∧ n ≤ c.cfg.maxPerBooster
  | [], x => by
    exact ⟨fun _ _ h => (List.not_mem_nil h).elim, fun _ => rfl⟩
  | (k, b) :: l, x => by
    unfold assertBoosters
    simp only [Verif.bind_ok, assertE_ok, assertBoosters_iff (l := l), List.forall_mem_cons]
    constructor
    · rintro ⟨n, h1, _, h2, h3⟩
      exact ⟨⟨n, h1, h2⟩, h3⟩
    · rintro ⟨⟨n, h1, h2⟩, h3⟩
      exact ⟨n, h1, (), h2, h3⟩

theorem Like.symm (h : c.Like d) : d.Like c := by
  have flip : ∀ {α : Type} {r : α → α → Prop}, (∀ a b, r a b → r b a) → ∀ {x y : Option α},
      Option.Rel r x y → Option.Rel r y x := by
    intro α r hr x y h
    cases h with
    | none => exact .none
    | some h => exact .some (hr _ _ h)
  exact ⟨h.1.symm, h.2.symm, h.3.symm,
    ⟨h.4.1.symm, fun s => flip (fun _ _ h => ⟨h.1.symm, Equal.symm h.2⟩) (h.4.2 s), h.4.3.symm, h.4.4.symm,
      h.4.5.symm, h.4.6.symm⟩,
    fun s => flip (fun _ _ h => ⟨h.1.symm, h.2.symm, Equal.symm h.3, h.4.symm, h.5.symm, h.6.symm, h.7.symm,
      h.8.symm, h.9.symm⟩) (h.5 s),
    fun a => flip (fun _ _ h => ⟨h.1.symm, Equal.symm h.2, fun s => flip (fun _ _ h => ⟨h.1.symm, h.2.symm,
      h.3.symm, h.4.symm, h.5.symm, Equal.symm h.6, Equal.symm h.7⟩) (h.3 s)⟩) (h.6 a),
    Equal.symm h.7, Equal.symm h.8, Equal.symm h.9, h.10.symm, h.11.symm⟩

theorem Like.limits (h : c.Like d) : Both Eq (c.assertBoosters c.cfg.boosters.entries)
    (d.assertBoosters d.cfg.boosters.entries) := by
  have key : ∀ {c d : Contract}, c.Like d → ∀ x, c.assertBoosters c.cfg.boosters.entries = .ok x →
      d.assertBoosters d.cfg.boosters.entries = .ok x := by
    intro c d h x hx
    rw [assertBoosters_iff] at hx ⊢
    rintro ⟨k, b⟩ hp
    have hb := h.cfg.boosters k
    have hx := fun a => hx (k, a)
    rw [(d.cfg.boosters.mem_entries_iff).1 hp] at hb
    simp only [c.cfg.boosters.mem_entries_iff] at hx
    revert hb hx
    generalize c.cfg.boosters.get? k = y
    intro hb hx
    cases hb with
    | some hb =>
      obtain ⟨n, h1, h2⟩ := hx _ rfl
      have h3 := h.affected (Equal.perm hb.affected)
      rw [h1] at h3
      cases h4 : d.affectedFarms b.affected.entries with
      | error e => rw [h4] at h3; exact h3.elim
      | ok m =>
        rw [h4] at h3
        have h3 : n = m := h3
        exact ⟨m, rfl, by rw [← h.cfg.maxPerBooster, ← h3]; exact h2⟩
  exact Both.intro (fun x hx => ⟨x, key h x hx, rfl⟩) fun x hx => ⟨x, key h.symm x hx⟩

/-! ## The calls -/

/-- The end of the calls that change a stake. -/
theorem finish_both {a : AccountId} {s : SeedId} {sd se : Seed} {u v : Farmer} (hc : c.Filed) (h : c.Like d)
    (hu : u.Like v) (hs : sd.Like se) : Both Like
      (c.updateImpacted fl now u s >>= fun y => .ok ((y.1.setFarmer a y.2).setSeed s sd))
      (d.updateImpacted fl now v s >>= fun y => .ok ((y.1.setFarmer a y.2).setSeed s se)) :=
  Both.bind2 (updateImpacted_both hc h hu s) fun _ _ _ _ h1 => (h1.like.setFarmer h1.farmer).setSeed hs

theorem stakeFree_both {a : AccountId} {s : SeedId} {n : Nat} (hc : c.Filed) (h : c.Like d) :
    Both Like (c.stakeFree fl now a s n) (d.stakeFree fl now a s n) := by
  unfold stakeFree
  refine Both.bind2 (h.farmer a) fun u v _ _ hu => Both.bind2 (h.seed s) fun sd se _ _ hs => ?_
  rw [hs.minDeposit]
  refine Both.bind fun _ _ => Both.bind2 (doClaim_both h.cfg hu hs) ?_
  rintro ⟨u, sd⟩ ⟨v, se⟩ _ _ ⟨hu, hs⟩
  refine Both.bind2 (rel_expect (hu.seeds s)) fun x y _ _ hx => Both.bind2 (FarmerSeed.addFree_both hx) ?_
  rintro ⟨x, g⟩ ⟨y, _⟩ _ _ ⟨hx, rfl⟩
  simp only at hu hs hx ⊢
  rw [hs.amount, hs.power]
  exact Both.bind fun _ _ => Both.bind fun _ _ => finish_both hc h
    ⟨hu.1, hu.2, rel_insert hu.3 hx⟩ ⟨hs.1, hs.2, hs.3, hs.4, rfl, rfl, hs.7, hs.8, hs.9⟩

theorem stakeLock_both {a : AccountId} {s : SeedId} {n t : Nat} (hc : c.Filed) (h : c.Like d) :
    Both Like (c.stakeLock fl now a s n t) (d.stakeLock fl now a s n t) := by
  unfold stakeLock
  refine Both.bind2 (h.farmer a) fun u v _ _ hu => Both.bind2 (h.seed s) fun sd se _ _ hs => ?_
  rw [hs.minDeposit, hs.minLock, h.cfg.maxDuration]
  refine Both.bind fun _ _ => Both.bind fun _ _ => Both.bind fun _ _ => Both.bind fun _ _ =>
    Both.bind2 (doClaim_both h.cfg hu hs) ?_
  rintro ⟨u, sd⟩ ⟨v, se⟩ _ _ ⟨hu, hs⟩
  refine Both.bind2 (rel_expect (hu.seeds s)) fun x y _ _ hx =>
    Both.bind2 (FarmerSeed.addLock_both h.cfg hx) ?_
  rintro ⟨x, g⟩ ⟨y, _⟩ _ _ ⟨hx, rfl⟩
  simp only at hu hs hx ⊢
  rw [hs.amount, hs.power]
  exact Both.bind fun _ _ => Both.bind fun _ _ => finish_both hc h
    ⟨hu.1, hu.2, rel_insert hu.3 hx⟩ ⟨hs.1, hs.2, hs.3, hs.4, rfl, rfl, hs.7, hs.8, hs.9⟩

theorem depositReward_both {id : FarmId} {t : AccountId} {n : Nat} (h : c.Like d) :
    Both Like (c.depositReward now id t n) (d.depositReward now id t n) := by
  unfold depositReward
  refine Both.bind fun s _ => Both.bind2 (h.seed s) fun sd se _ _ hs => ?_
  rw [hs.farms id rfl]
  exact Both.bind fun _ _ => Both.bind fun _ _ =>
    h.setSeed ⟨hs.1, hs.2, hs.3.insert _ _, hs.4, hs.5, hs.6, hs.7, hs.8, hs.9⟩

theorem Like.assertRunning (h : c.Like d) : c.assertRunning = d.assertRunning := by
  unfold Contract.assertRunning
  rw [h.running]

theorem Like.assertOwner (h : c.Like d) (x : Ctx) : c.assertOwner x = d.assertOwner x := by
  unfold Contract.assertOwner
  rw [h.owner]

theorem Like.assertManager (h : c.Like d) (x : Ctx) : c.assertManager x = d.assertManager x := by
  unfold Contract.assertManager
  rw [h.owner, h.operators]

theorem lockFree_both {x : Ctx} {s : SeedId} {t : Nat} {n : Option Nat} (hc : c.Filed) (h : c.Like d) :
    Both Like (c.lockFree fl x s t n) (d.lockFree fl x s t n) := by
  unfold lockFree
  rw [h.assertRunning]
  refine Both.bind fun _ _ => Both.bind fun _ _ => Both.bind2 (h.farmer _) fun u v _ _ hu =>
    Both.bind2 (h.seed s) fun sd se _ _ hs => ?_
  rw [hs.minLock, h.cfg.maxDuration]
  refine Both.bind fun _ _ => Both.bind fun _ _ => Both.bind fun _ _ =>
    Both.bind2 (doClaim_both h.cfg hu hs) ?_
  rintro ⟨u, sd⟩ ⟨v, se⟩ _ _ ⟨hu, hs⟩
  refine Both.bind2 (rel_expect (hu.seeds s)) fun x y _ _ hx => ?_
  rw [hx.free]
  refine Both.bind2 (FarmerSeed.freeToLock_both h.cfg hx) ?_
  rintro ⟨x, g⟩ ⟨y, _⟩ _ _ ⟨hx, rfl⟩
  simp only at hu hs hx ⊢
  rw [hs.power]
  exact Both.bind fun _ _ => finish_both hc h
    ⟨hu.1, hu.2, rel_insert hu.3 hx⟩ ⟨hs.1, hs.2, hs.3, hs.4, hs.5, rfl, hs.7, hs.8, hs.9⟩

theorem forceUnlock_both {x : Ctx} {s : SeedId} {n : Nat} (hc : c.Filed) (h : c.Like d) :
    Both Like (c.forceUnlock fl x s n) (d.forceUnlock fl x s n) := by
  unfold forceUnlock
  rw [h.assertRunning]
  refine Both.bind fun _ _ => Both.bind fun _ _ => Both.bind2 (h.farmer _) fun u v _ _ hu =>
    Both.bind2 (h.seed s) fun sd se _ _ hs => Both.bind2 (doClaim_both h.cfg hu hs) ?_
  rintro ⟨u, sd⟩ ⟨v, se⟩ _ _ ⟨hu, hs⟩
  simp only at hu hs ⊢
  rw [hs.slashRate]
  refine Both.bind2 (rel_expect (hu.seeds s)) fun x y _ _ hx =>
    Both.bind2 (FarmerSeed.unlockSlashed_both hx) ?_
  rintro ⟨x, g⟩ ⟨y, _⟩ _ _ ⟨hx, rfl⟩
  simp only at hx ⊢
  rw [hs.amount, hs.power, h.slashed.getD rfl]
  refine Both.bind fun _ _ => Both.bind fun _ _ => Both.bind fun t _ => ?_
  exact finish_both (c := { c with slashed := c.slashed.insert s t })
    (d := { d with slashed := d.slashed.insert s t }) hc
    ⟨h.1, h.2, h.3, h.4, h.5, h.6, h.7, h.8.insert _ _, h.9, h.10, h.11⟩
    ⟨hu.1, hu.2, rel_insert hu.3 hx⟩ ⟨hs.1, hs.2, hs.3, hs.4, rfl, rfl, hs.7, rfl, hs.9⟩

theorem setting_both {x : Ctx} {k : Setting} (h : c.Like d) : Both Like (c.setting x k) (d.setting x k) := by
  unfold setting
  rw [h.assertManager, h.assertRunning]
  refine Both.bind fun _ _ => Both.bind fun _ _ => Both.bind fun _ _ => ?_
  cases k with
  | dailyReward id n =>
    refine Both.bind fun s _ => Both.bind2 (h.seed s) fun sd se _ _ hs => ?_
    rw [hs.farms id rfl]
    exact Both.bind fun _ _ => h.setSeed ⟨hs.1, hs.2, hs.3.insert _ _, hs.4, hs.5, hs.6, hs.7, hs.8, hs.9⟩
  | lockingPolicy t r =>
    exact Both.bind fun _ _ => ⟨h.1, h.2, h.3, ⟨h.4.1, h.4.2, h.4.3, h.4.4, rfl, rfl⟩, h.5, h.6, h.7, h.8,
      h.9, h.10, h.11⟩
  | maxFarmsPerSeed n =>
    exact ⟨h.1, h.2, h.3, ⟨h.4.1, h.4.2, h.4.3, rfl, h.4.5, h.4.6⟩, h.5, h.6, h.7, h.8, h.9, h.10, h.11⟩
  | defaultSlashRate n =>
    exact Both.bind fun _ _ => ⟨h.1, h.2, h.3, ⟨rfl, h.4.2, h.4.3, h.4.4, h.4.5, h.4.6⟩, h.5, h.6, h.7, h.8,
      h.9, h.10, h.11⟩
  | minDeposit s n =>
    exact Both.bind2 (h.seed s) fun sd se _ _ hs =>
      h.setSeed ⟨hs.1, hs.2, hs.3, hs.4, hs.5, hs.6, rfl, hs.8, hs.9⟩
  | minLocking s n =>
    simp only
    rw [h.cfg.maxDuration]
    exact Both.bind fun _ _ => Both.bind2 (h.seed s) fun sd se _ _ hs =>
      h.setSeed ⟨hs.1, hs.2, hs.3, hs.4, hs.5, hs.6, hs.7, hs.8, rfl⟩
  | slashRate s n =>
    exact Both.bind2 (h.seed s) fun sd se _ _ hs =>
      h.setSeed ⟨hs.1, hs.2, hs.3, hs.4, hs.5, hs.6, hs.7, rfl, hs.9⟩
  | booster s b =>
    simp only
    rw [h.cfg.maxPerBooster]
    refine Both.bind2 (h.seed s) fun sd se _ _ hs => Both.bind fun _ _ => Both.bind fun _ _ =>
      Both.bind2 (h.affected (.refl _)) fun n m _ _ hn => ?_
    rw [hn]
    exact Both.bind fun _ _ => ⟨h.1, h.2, h.3, ⟨h.4.1, rel_insert h.4.2 (.refl b), rfl, h.4.4, h.4.5,
      h.4.6⟩, h.5, h.6, h.7, h.8, h.9, h.10, h.11⟩

theorem createFarm_both {x : Ctx} {s : SeedId} {t : AccountId} {n m : Nat} (h : c.Like d) :
    Both Like (c.createFarm x s t n m) (d.createFarm x s t n m) := by
  unfold createFarm
  rw [h.assertManager, h.assertRunning]
  refine Both.bind fun _ _ => Both.bind fun _ _ => Both.bind fun _ _ =>
    Both.bind2 (h.seed s) fun sd se _ _ hs => ?_
  rw [hs.farms.size, h.cfg.maxPerSeed, hs.nextIndex, h.farmCount]
  refine Both.bind fun _ _ => Both.bind fun i _ => Both.bind fun k _ => ?_
  have h1 : ∀ g : SeedFarm, Like
      { c.setSeed s { sd with nextIndex := i, farms := sd.farms.insert (genFarmId s se.nextIndex) g } with
        farmCount := k }
      { d.setSeed s { se with nextIndex := i, farms := se.farms.insert (genFarmId s se.nextIndex) g } with
        farmCount := k } := fun g =>
    ⟨h.1, h.2, h.3, h.4, rel_insert h.5 ⟨hs.1, hs.2, hs.3.insert _ _, rfl, hs.5, hs.6, hs.7, hs.8, hs.9⟩, h.6,
      h.7, h.8, h.9, h.10, rfl⟩
  have h1 := h1 (SeedFarm.new t n m)
  exact Both.bind2 h1.limits fun _ _ _ _ _ => h1

/-- **C112.** In two states with the same contents, each call succeeds or fails alike, makes the same
transfers and leads to states with the same contents. -/
theorem C112_call (hr : c.Reachable fl) (h : c.Like d) (x : Ctx) (k : Call) :
    Both (fun p q => p.1.Like q.1 ∧ p.2 = q.2) (c.exec fl x k) (d.exec fl x k) := by
  have hc : c.Filed := hr.inv.ids
  have fin : ∀ {f g : R Contract}, Both Like f g →
      Both (fun p q : Contract × List Out => p.1.Like q.1 ∧ p.2 = q.2)
        (f >>= fun c => .ok (c, [])) (g >>= fun c => .ok (c, [])) :=
    fun h => Both.bind2 h fun _ _ _ _ h => ⟨h, rfl⟩
  have hrun := h.assertRunning
  have hown := h.assertOwner x
  have hman := h.assertManager x
  cases k with
  | ftOnTransfer a n m =>
    refine Both.bind fun _ _ => fin ?_
    unfold ftOnTransfer
    rw [hrun]
    refine Both.bind fun _ _ => ?_
    cases m with
    | free => exact stakeFree_both hc h
    | lock t => exact stakeLock_both hc h
    | reward id => exact depositReward_both h
    | bad => trivial
  | mftOnTransfer t a n m =>
    refine Both.bind fun _ _ => fin ?_
    unfold mftOnTransfer
    rw [hrun]
    refine Both.bind fun _ _ => ?_
    split
    · cases m with
      | free => exact stakeFree_both hc h
      | lock t => exact stakeLock_both hc h
      | reward id => trivial
      | bad => trivial
    · trivial
  | lockFreeSeed s t n => exact fin (lockFree_both hc h)
  | forceUnlock s n => exact fin (forceUnlock_both hc h)
  | claimReward s =>
    refine fin ?_
    unfold claimReward
    rw [hrun]
    refine Both.bind fun _ _ => Both.bind fun _ _ => Both.bind2 (h.farmer _) fun u v _ _ hu =>
      Both.bind2 (h.seed s) fun sd se _ _ hs => Both.bind2 (doClaim_both h.cfg hu hs) ?_
    rintro ⟨u, sd⟩ ⟨v, se⟩ _ _ ⟨hu, hs⟩
    exact (h.setSeed hs).setFarmer hu
  | createSeed s n m l =>
    refine fin ?_
    unfold createSeed
    have e : (c.seeds.get? s).isNone = (d.seeds.get? s).isNone := by
      rw [← Option.not_isSome, ← Option.not_isSome]
      exact congrArg _ (rel_contains h.seeds s)
    rw [hrun, hman, e, h.cfg.slashRate]
    exact Both.bind fun _ _ => Both.bind fun _ _ => Both.bind fun _ _ => Both.bind fun _ _ =>
      h.setSeed (.refl _)
  | createFarm s t n m => exact fin (createFarm_both h)
  | cancelFarm id =>
    refine fin ?_
    unfold cancelFarm
    rw [hrun, hman, h.farmCount]
    refine Both.bind fun _ _ => Both.bind fun _ _ => Both.bind fun _ _ => Both.bind fun s _ =>
      Both.bind2 (h.seed s) fun sd se _ _ hs => ?_
    rw [hs.farms id rfl]
    exact Both.bind fun _ _ => Both.bind fun _ _ => Both.bind fun _ _ => ⟨h.1, h.2, h.3, h.4,
      rel_insert h.5 ⟨hs.1, hs.2, hs.3.erase _, hs.4, hs.5, hs.6, hs.7, hs.8, hs.9⟩, h.6, h.7, h.8, h.9, h.10,
      rfl⟩
  | removeFarm id =>
    refine fin ?_
    unfold removeFarm
    rw [hrun, hown, h.farmCount]
    refine Both.bind fun _ _ => Both.bind fun _ _ => Both.bind fun _ _ => Both.bind fun s _ =>
      Both.bind2 (h.seed s) fun sd se _ _ hs => ?_
    rw [hs.farms id rfl]
    exact Both.bind fun _ _ => Both.bind fun _ _ => Both.bind fun _ _ => ⟨h.1, h.2, h.3, h.4,
      rel_insert h.5 ⟨hs.1, hs.2, hs.3.erase _, hs.4, hs.5, hs.6, hs.7, hs.8, hs.9⟩, h.6, h.7.insert _ _, h.8,
      h.9, h.10, rfl⟩
  | setting k => exact fin (setting_both h)
  | setOwner a =>
    refine fin ?_
    unfold setOwner
    rw [hown]
    exact Both.bind fun _ _ => Both.bind fun _ _ => ⟨rfl, h.2, h.3, h.4, h.5, h.6, h.7, h.8, h.9, h.10, h.11⟩
  | setRunning b =>
    refine fin ?_
    unfold setRunning
    rw [hown]
    exact Both.bind fun _ _ => Both.bind fun _ _ => ⟨h.1, rfl, h.3, h.4, h.5, h.6, h.7, h.8, h.9, h.10, h.11⟩
  | extendOperators l =>
    refine fin ?_
    unfold extendOperators
    rw [hown, h.operators]
    exact Both.bind fun _ _ => Both.bind fun _ _ => ⟨h.1, h.2, rfl, h.4, h.5, h.6, h.7, h.8, h.9, h.10, h.11⟩
  | removeOperators l =>
    refine fin ?_
    unfold removeOperators
    rw [hown, h.operators]
    exact Both.bind fun _ _ => Both.bind fun _ _ => Both.bind fun _ _ =>
      ⟨h.1, h.2, rfl, h.4, h.5, h.6, h.7, h.8, h.9, h.10, h.11⟩
  | storageDeposit a =>
    show Both _ (c.storageDeposit x a) (d.storageDeposit x a)
    unfold storageDeposit
    rw [hrun]
    refine Both.bind fun _ _ => ?_
    simp only
    rw [rel_contains h.farmers, h.farmerCount]
    split
    · exact ⟨h, rfl⟩
    · exact Both.bind fun _ _ => Both.bind fun _ _ => ⟨⟨h.1, h.2, h.3, h.4, h.5, rel_insert h.6 (.refl _), h.7,
        h.8, h.9, rfl, h.11⟩, rfl⟩
  | storageUnregister =>
    show Both _ (c.storageUnregister x) (d.storageUnregister x)
    unfold storageUnregister
    rw [hrun]
    refine Both.bind fun _ _ => Both.bind fun _ _ => ?_
    have hf := h.farmers x.pred
    revert hf
    generalize c.farmers.get? x.pred = u
    generalize d.farmers.get? x.pred = v
    intro hf
    cases hf with
    | none => exact ⟨h, rfl⟩
    | some hf =>
      simp only
      rw [hf.rewards.size, rel_size hf.seeds, h.farmerCount, hf.sponsor]
      exact Both.bind fun _ _ => Both.bind fun _ _ => Both.bind fun _ _ => ⟨⟨h.1, h.2, h.3, h.4, h.5,
        rel_erase h.6, h.7, h.8, h.9, rfl, h.11⟩, rfl⟩

theorem step_like (hr : c.Reachable fl) (h : c.Like d) (e : Event) : (c.step fl e).Like (d.step fl e) := by
  have hx := C112_call hr h e.x e.k
  unfold step
  cases h1 : c.exec fl e.x e.k with
  | error e1 =>
    cases h2 : d.exec fl e.x e.k with
    | error e2 => exact h
    | ok q => rw [h1, h2] at hx; exact hx.elim
  | ok p =>
    cases h2 : d.exec fl e.x e.k with
    | error e2 => rw [h1, h2] at hx; exact hx.elim
    | ok q => rw [h1, h2] at hx; exact hx.1

/-- `d` is a state after the calls `es` from `c`, if before each call the entries of all hash maps may be
brought into any other order. -/
inductive Shuffled (fl : Floats) : Contract → List Event → Contract → Prop where
  | done {c d : Contract} (h : c.Like d) : Shuffled fl c [] d
  | call {c c' d : Contract} {e : Event} {es : List Event} (h : c.Like c')
      (hs : Shuffled fl (c'.step fl e) es d) : Shuffled fl c (e :: es) d

/-- **C112.** In whatever order the hash maps are visited during a history: the final state has the
same contents. -/
theorem C112_history {es : List Event} (hr : c.Reachable fl) (h : Shuffled fl c es d) :
    (c.run fl es).Like d := by
  suffices key : ∀ {a : Contract}, a.Reachable fl → a.Like c → (a.run fl es).Like d from key hr (.refl c)
  clear hr
  induction h with
  | done h => intro a _ ha; exact ha.trans h
  | call h _ ih =>
    intro a hr ha
    obtain ⟨o, es, rfl⟩ := hr
    exact ih ⟨o, es ++ [_], by rw [run_append]; rfl⟩ (step_like ⟨o, es, rfl⟩ (ha.trans h) _)

/-- **C112.** No view tells such states apart. -/
theorem C112_views (h : c.Like d) (now : Nat) (a t : AccountId) (s : SeedId) (id : FarmId) :
    c.rewardOf a t = d.rewardOf a t ∧
    Option.Rel FarmerSeed.Like (c.farmerSeed a s) (d.farmerSeed a s) ∧
    Both Equal (c.unclaimed fl now a s) (d.unclaimed fl now a s) ∧
    Both Eq (c.getFarm now id) (d.getFarm now id) ∧
    Both Seed.Like (c.seed now s) (d.seed now s) := by
  refine ⟨?_, ?_, ?_, ?_, h.seed s⟩
  · unfold rewardOf
    have hf := h.farmers a
    revert hf
    generalize c.farmers.get? a = u
    generalize d.farmers.get? a = v
    intro hf
    cases hf with
    | none => rfl
    | some hf => exact hf.rewards.getD rfl 0
  · unfold farmerSeed
    have hf := h.farmers a
    revert hf
    generalize c.farmers.get? a = u
    generalize d.farmers.get? a = v
    intro hf
    cases hf with
    | none => exact .none
    | some hf => exact hf.seeds s
  · unfold unclaimed
    refine Both.bind2 (h.farmer a) fun u v _ _ hu => Both.bind2 (h.seed s) fun sd se _ _ hs =>
      Both.bind2 (calcClaim_both h.cfg (hu.near sd.id) hs) ?_
    rintro ⟨_, k⟩ ⟨_, l⟩ _ _ ⟨_, hk⟩
    exact hk.rewards
  · unfold getFarm
    exact Both.bind fun s _ => Both.bind2 (h.seed s) fun sd se _ _ hs => hs.farms id rfl

end Contract

/-! ## Examples -/

namespace OrderDemo

open Demo

def K : SeedId := "K".toList
def Q : AccountId := "Q".toList
/-- The farm of `K`. -/
def G : FarmId := "K#0".toList

/-- What `L` boosts. -/
def boosted : FMap SeedId Nat := (FMap.empty.insert S 5).insert K 6
/-- The same in another order. -/
def boosted' : FMap SeedId Nat := (FMap.empty.insert K 6).insert S 5

/-- A second seed with a farm that pays in `Q`; `L` boosts both seeds and `al` has staked in both. -/
def more : List Event := [
  ⟨y 1001 own, .createSeed K 0 (some 1) (some 100)⟩,
  ⟨y 1001 own, .createFarm K Q 1000 8640000⟩,
  ⟨y 1001 own, .setting (.booster L ⟨0, boosted⟩)⟩,
  ⟨at' 1001 Q, .ftOnTransfer own 1000 (.reward G)⟩,
  ⟨at' 1001 K, .ftOnTransfer al 3000 .free⟩]

def c2 : Contract := c1.run fl more

theorem c2_reachable : c2.Reachable fl := ⟨own, setup ++ more, by rw [Contract.run_append]; rfl⟩

/-- The same state with the map of the booster in another order. -/
def d2 : Contract := { c2 with cfg := { c2.cfg with boosters := c2.cfg.boosters.insert L ⟨0, boosted'⟩ } }

theorem c2_booster : (c2.cfg.boosters.get? L).map (fun b => (b.decimals, b.affected.entries)) =
    some (0, boosted.entries) := by decide +kernel

theorem like_of {c2 : Contract} (h : (c2.cfg.boosters.get? L).map (fun b => (b.decimals, b.affected.entries)) =
    some (0, boosted.entries)) :
    c2.Like { c2 with cfg := { c2.cfg with boosters := c2.cfg.boosters.insert L ⟨0, boosted'⟩ } } := by
  obtain ⟨b, hb, h⟩ := Option.map_eq_some_iff.1 h
  have h1 : b.decimals = 0 := congrArg Prod.fst h
  have h2 : b.affected.entries = boosted.entries := congrArg Prod.snd h
  have h0 := Contract.Like.refl c2
  refine ⟨h0.1, h0.2, h0.3, ⟨h0.4.1, fun k => ?_, h0.4.3, h0.4.4, h0.4.5, h0.4.6⟩, h0.5, h0.6, h0.7, h0.8, h0.9,
    h0.10, h0.11⟩
  show Option.Rel Booster.Like (c2.cfg.boosters.get? k) ((c2.cfg.boosters.insert L ⟨0, boosted'⟩).get? k)
  rw [FMap.get?_insert]
  split
  · next hk =>
    subst hk
    rw [hb]
    refine .some ⟨h1, fun s _ => ?_⟩
    have e : b.affected = boosted := by
      cases hx : b.affected
      simp only [hx] at h2
      subst h2
      rfl
    rw [e]
    exact (Equal.swap (.refl _) (by decide) 5 6) s rfl
  · exact h0.cfg.boosters k

theorem like : c2.Like d2 := like_of c2_booster

/-- `al` stakes in the booster and is first paid for both boosted seeds. -/
def e : Event := ⟨at' 1004 L, .ftOnTransfer al 4 .free⟩

example : (c2.run fl [e]).Like (d2.step fl e) :=
  Contract.C112_history c2_reachable (.call like (.done (.refl _)))

-- The two states are not the same: the rewards are stored in another order.
example : ((c2.step fl e).farmers.get? al).map (fun u => u.rewards.entries.map Prod.fst) = some [T, Q] ∧
    ((d2.step fl e).farmers.get? al).map (fun u => u.rewards.entries.map Prod.fst) = some [Q, T] := by
  decide +kernel

-- The call succeeds and pays.
example : c2.rewardOf al T = 0 ∧ (d2.step fl e).rewardOf al T = 180 ∧ (d2.step fl e).rewardOf al Q = 300 ∧
    (c2.step fl e).rewardOf al T = 180 ∧ (c2.step fl e).rewardOf al Q = 300 := by
  decide +kernel

end OrderDemo

end Boost

end Verif

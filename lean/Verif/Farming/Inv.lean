import Verif.Farming.FarmLemmas
import Mathlib.Tactic.Ring
import Mathlib.Tactic.NormNum

/-
The invariant of the farming contract and its preservation by the steps the methods are made of.
-/

namespace Verif

namespace FMap

variable {K V : Type} [DecidableEq K]

theorem put_put (l : List (K × V)) (k : K) (v w : V) : put (put l k v) k w = put l k w := by
  induction l with
  | nil => simp [put]
  | cons p l ih =>
    obtain ⟨k', v'⟩ := p
    simp only [put]
    split
    · simp [put]
    · rename_i h; simp [put, h, ih]

theorem insert_insert (m : FMap K V) (k : K) (v w : V) : (m.insert k v).insert k w = m.insert k w := by
  simp only [insert, put_put]

theorem put_same {l : List (K × V)} {k : K} {v : V} (h : lookup l k = some v) : put l k v = l := by
  induction l with
  | nil => simp [lookup] at h
  | cons p l ih =>
    obtain ⟨k', v'⟩ := p
    simp only [lookup] at h
    simp only [put]
    split at h
    · rename_i hk; cases h; subst hk; simp
    · rename_i hk; simp [hk, ih h]

theorem insert_same {m : FMap K V} {k : K} {v : V} (h : m.get? k = some v) : m.insert k v = m := by
  obtain ⟨l, hl⟩ := m
  simp only [insert]
  congr 1
  exact put_same h

theorem sum_insert_erase (m : FMap K V) (f : K → V → Nat) (k : K) (v : V) :
    (m.insert k v).sum f = (m.erase k).sum f + f k v := by
  have h1 := m.sum_insert f k v
  have h2 := m.sum_erase f k
  omega

/-- Sums over all keys but one. -/
theorem sum_erase_congr (m : FMap K V) (f g : K → V → Nat) (k : K)
    (h : ∀ x v, x ≠ k → m.get? x = some v → f x v = g x v) :
    (m.erase k).sum f = (m.erase k).sum g := by
  apply sum_congr
  intro x v hx
  rw [get?_erase] at hx
  split at hx
  · cases hx
  · exact h x v ‹_› hx

/-- Replacing an entry without changing its contribution. -/
theorem sum_insert_same (m : FMap K V) (f : K → V → Nat) (k : K) (v w : V)
    (hv : m.get? k = some v) (h : f k w = f k v) : (m.insert k w).sum f = m.sum f := by
  have h1 := m.sum_insert f k w
  rw [term_some f hv, h] at h1
  omega

theorem getD_insert (m : FMap K V) (k x : K) (v d : V) :
    (m.insert k v).getD x d = if x = k then v else m.getD x d := by
  unfold getD
  rw [get?_insert]
  split <;> rfl

theorem getD_erase (m : FMap K V) (k x : K) (d : V) :
    (m.erase k).getD x d = if x = k then d else m.getD x d := by
  unfold getD
  rw [get?_erase]
  split <;> rfl

theorem erase_none {m : FMap K V} {k : K} (h : m.get? k = none) : m.erase k = m := by
  obtain ⟨l, hl⟩ := m
  simp only [erase]
  congr 1
  change lookup l k = none at h
  clear hl
  induction l with
  | nil => rfl
  | cons p l ih =>
    obtain ⟨k', v'⟩ := p
    simp only [lookup] at h
    split at h
    · cases h
    · rename_i hk; simp [del, hk, ih h]

end FMap

namespace Farming

namespace Contract

/-- The id was given to a farm. -/
def Issued (c : Contract) (id : FarmId) : Prop :=
  ∃ s fs i, c.seeds.get? s = some fs ∧ i < fs.nextIndex ∧ id = genFarmId s i

/-- What the farmers could claim from a farm at its current rate, in units of `1 / DENOM`. -/
def claimable (c : Contract) (id : FarmId) (f : SimpleFarm) : Nat :=
  c.farmers.sum fun a u => u.stake f.terms.seedId * (f.dist.rps - c.rps.getD (a, id) 0)

end Contract

/-- The books of a farm balance. -/
structure SimpleFarm.Balanced (f : SimpleFarm) : Prop where
  total : f.amountOfReward = f.dist.undistributed + f.dist.unclaimed + f.amountOfClaimed
  beneficiary : f.amountOfBeneficiary ≤ f.amountOfClaimed

/-- A live farm. -/
structure LiveFarm (c : Contract) (id : FarmId) (f : SimpleFarm) : Prop where
  id_eq : f.id = id
  seed : ∃ fs, c.seeds.get? f.terms.seedId = some fs ∧ id ∈ fs.farms ∧
    ∃ i, i < fs.nextIndex ∧ id = genFarmId f.terms.seedId i
  balanced : f.Balanced
  behind : ∀ a u, c.farmers.get? a = some u → 0 < u.stake f.terms.seedId →
    c.rps.getD (a, id) 0 ≤ f.dist.rps
  funded : c.claimable id f ≤ f.dist.unclaimed * DENOM

/-- A seed. -/
structure GoodSeed (c : Contract) (s : SeedId) (fs : FarmSeed) : Prop where
  id_eq : fs.id = s
  nodup : fs.farms.Nodup
  farms : ∀ id ∈ fs.farms, ∃ f, c.farms.get? id = some f ∧ f.terms.seedId = s
  total : fs.amount = c.stakes s

/-- The invariant. -/
structure Inv (c : Contract) : Prop where
  seeds : ∀ s fs, c.seeds.get? s = some fs → GoodSeed c s fs
  farms : ∀ id f, c.farms.get? id = some f → LiveFarm c id f
  outdated : ∀ id f, c.outdated.get? id = some f → f.id = id ∧ c.Issued id ∧ f.Balanced ∧
    f.status = .cleared ∧ c.farms.get? id = none
  rps : ∀ a id v, c.rps.get? (a, id) = some v → c.Issued id
  stakes : ∀ a u s n, c.farmers.get? a = some u → u.seeds.get? s = some n →
    0 < n ∧ ∃ fs, c.seeds.get? s = some fs

theorem Inv.init (owner : AccountId) : Inv (.init owner) where
  seeds := by intro s fs h; cases h
  farms := by intro s fs h; cases h
  outdated := by intro s fs h; cases h
  rps := by intro s fs v h; cases h
  stakes := by intro a u s n h; cases h

/-! ### Ids -/

theorem digits_inj {i j : Nat} (h : Nat.toDigits 10 i = Nat.toDigits 10 j) : i = j := by
  have := congrArg (fun l => Nat.ofDigitChars 10 l 0) h
  simpa only [Nat.ofDigitChars_toDigits (by norm_num : 1 < 10) (by norm_num : 10 ≤ 10)] using this

theorem hash_not_digit (i : Nat) : '#' ∉ Nat.toDigits 10 i := by
  intro h
  have := Nat.isDigit_of_mem_toDigits (by norm_num : 0 < 10) (by norm_num : 10 ≤ 10) h
  revert this
  decide

theorem split_unique {s t d e : List Char} (hd : '#' ∉ d) (he : '#' ∉ e)
    (h : s ++ '#' :: d = t ++ '#' :: e) : s = t ∧ d = e := by
  induction s generalizing t with
  | nil =>
    cases t with
    | nil => simpa using h
    | cons c t =>
      simp only [List.nil_append, List.cons_append, List.cons.injEq] at h
      exact absurd (by rw [h.2]; simp) hd
  | cons b s ih =>
    cases t with
    | nil =>
      simp only [List.nil_append, List.cons_append, List.cons.injEq] at h
      exact absurd (by rw [← h.2]; simp) he
    | cons c t =>
      simp only [List.cons_append, List.cons.injEq] at h
      obtain ⟨h1, h2⟩ := ih h.2
      exact ⟨by rw [h.1, h1], h2⟩

/-- Different farms have different ids. -/
theorem genFarmId_inj {s t : SeedId} {i j : Nat} (h : genFarmId s i = genFarmId t j) :
    s = t ∧ i = j := by
  obtain ⟨h1, h2⟩ := split_unique (hash_not_digit i) (hash_not_digit j) h
  exact ⟨h1, digits_inj h2⟩

theorem splitOn_no {sep : Char} {s : List Char} (h : sep ∉ s) : splitOn sep s = [s] := by
  induction s with
  | nil => rfl
  | cons c s ih =>
    simp only [List.mem_cons, not_or] at h
    simp [splitOn, Ne.symm h.1, ih h.2]

theorem splitOn_append {sep : Char} (s t : List Char) :
    ∃ p ps, splitOn sep s = p :: ps ∧
      splitOn sep (s ++ sep :: t) = (p :: ps) ++ splitOn sep t := by
  induction s with
  | nil => exact ⟨[], [], rfl, by simp [splitOn]⟩
  | cons c s ih =>
    obtain ⟨p, ps, h1, h2⟩ := ih
    by_cases hc : c = sep
    · subst hc
      exact ⟨[], p :: ps, by simp [splitOn, h1], by simp [splitOn, h2]⟩
    · exact ⟨c :: p, ps, by simp [splitOn, hc, h1], by simp [splitOn, hc, h2]⟩

theorem splitOn_single {sep : Char} {s a : List Char} (h : splitOn sep s = [a]) : a = s := by
  induction s generalizing a with
  | nil => simp [splitOn] at h; exact h.symm ▸ rfl
  | cons c s ih =>
    simp only [splitOn] at h
    split at h
    · simp only [List.cons.injEq] at h
      cases hs : splitOn sep s with
      | nil => 
        exfalso
        obtain ⟨p, ps, h1, _⟩ := splitOn_append (sep := sep) s []
        rw [hs] at h1; cases h1
      | cons => rw [hs] at h; exact absurd h.2 (by simp)
    · cases hs : splitOn sep s with
      | nil =>
        exfalso
        obtain ⟨p, ps, h1, _⟩ := splitOn_append (sep := sep) s []
        rw [hs] at h1; cases h1
      | cons p ps =>
        rw [hs] at h
        simp only [List.cons.injEq] at h
        obtain ⟨rfl, rfl⟩ := h
        rw [ih hs]

/-- Parsing the id of a farm yields its seed. -/
theorem parseFarmId_gen {s t : SeedId} {i : Nat} (h : parseFarmId (genFarmId s i) = .ok t) : t = s := by
  unfold parseFarmId genFarmId at h
  obtain ⟨p, ps, h1, h2⟩ := splitOn_append (sep := '#') s (Nat.toDigits 10 i)
  rw [h2, splitOn_no (hash_not_digit i)] at h
  cases ps with
  | nil =>
    simp only [List.cons_append, List.nil_append] at h
    unpack at h
    obtain ⟨_, _, _, rfl⟩ := h
    exact splitOn_single h1
  | cons q qs =>
    exfalso
    cases qs <;> simp at h

end Farming
end Verif

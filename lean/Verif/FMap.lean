/-
Finite maps, used for `LookupMap`, `UnorderedMap` and `HashMap`.

Only lookup, insertion, removal and the key set are ever observed by the modelled
code, so a list of pairs with distinct keys is an exact model.
-/

namespace Verif

/-- Finite map: a list of key/value pairs with distinct keys. -/
structure FMap (K V : Type) where
  entries : List (K × V)
  nodup : (entries.map Prod.fst).Nodup

namespace FMap

variable {K V : Type}

/-- The empty map. -/
def empty : FMap K V := ⟨[], by simp⟩

instance : Inhabited (FMap K V) := ⟨empty⟩

variable [DecidableEq K]

def lookup : List (K × V) → K → Option V
  | [], _ => none
  | (k', v) :: l, k => if k' = k then some v else lookup l k

def put : List (K × V) → K → V → List (K × V)
  | [], k, v => [(k, v)]
  | (k', v') :: l, k, v => if k' = k then (k, v) :: l else (k', v') :: put l k v

def del : List (K × V) → K → List (K × V)
  | [], _ => []
  | (k', v') :: l, k => if k' = k then l else (k', v') :: del l k

theorem mem_put {l : List (K × V)} {k x : K} {v : V} :
    x ∈ (put l k v).map Prod.fst ↔ x = k ∨ x ∈ l.map Prod.fst := by
  induction l with
  | nil => simp [put]
  | cons p l ih =>
    obtain ⟨k', v'⟩ := p
    simp only [put]
    split
    · subst_vars; simp
    · simp only [List.map_cons, List.mem_cons, ih]
      constructor <;> (intro h; rcases h with h | h | h <;> simp_all)

theorem nodup_put {l : List (K × V)} {k : K} {v : V} (h : (l.map Prod.fst).Nodup) :
    ((put l k v).map Prod.fst).Nodup := by
  induction l with
  | nil => simp [put]
  | cons p l ih =>
    obtain ⟨k', v'⟩ := p
    simp only [List.map_cons, List.nodup_cons] at h
    simp only [put]
    split
    · subst_vars; simpa using h
    · rename_i hne
      simp only [List.map_cons, List.nodup_cons, mem_put]
      refine ⟨?_, ih h.2⟩
      rintro (h' | h')
      · exact hne h'
      · exact h.1 h'

theorem mem_del {l : List (K × V)} {k x : K} (h : x ∈ (del l k).map Prod.fst) :
    x ∈ l.map Prod.fst := by
  induction l with
  | nil => simp [del] at h
  | cons p l ih =>
    obtain ⟨k', v'⟩ := p
    simp only [del] at h
    split at h
    · exact List.mem_cons_of_mem _ h
    · simp only [List.map_cons, List.mem_cons] at h ⊢
      rcases h with h | h
      · exact Or.inl h
      · exact Or.inr (ih h)

theorem nodup_del {l : List (K × V)} {k : K} (h : (l.map Prod.fst).Nodup) :
    ((del l k).map Prod.fst).Nodup := by
  induction l with
  | nil => simp [del]
  | cons p l ih =>
    obtain ⟨k', v'⟩ := p
    simp only [List.map_cons, List.nodup_cons] at h
    simp only [del]
    split
    · exact h.2
    · simp only [List.map_cons, List.nodup_cons]
      exact ⟨fun h' => h.1 (mem_del h'), ih h.2⟩

/-- `map.get(k)`. -/
def get? (m : FMap K V) (k : K) : Option V := lookup m.entries k
/-- `map.insert(k, v)`. -/
def insert (m : FMap K V) (k : K) (v : V) : FMap K V :=
  ⟨put m.entries k v, nodup_put m.nodup⟩
/-- `map.remove(k)`. -/
def erase (m : FMap K V) (k : K) : FMap K V := ⟨del m.entries k, nodup_del m.nodup⟩
/-- `map.contains_key(k)`. -/
def contains (m : FMap K V) (k : K) : Bool := (m.get? k).isSome
omit [DecidableEq K] in
/-- `map.len()`. -/
def size (m : FMap K V) : Nat := m.entries.length
omit [DecidableEq K] in
/-- `map.keys()`. -/
def keys (m : FMap K V) : List K := m.entries.map Prod.fst
/-- `map.get(k).unwrap_or(d)`. -/
def getD (m : FMap K V) (k : K) (d : V) : V := (m.get? k).getD d

omit [DecidableEq K] in
/-- Sum of `f k v` over all entries. -/
def sum (m : FMap K V) (f : K → V → Nat) : Nat := (m.entries.map fun p => f p.1 p.2).sum

/-- The contribution of key `k` to `sum`. -/
def term (m : FMap K V) (f : K → V → Nat) (k : K) : Nat :=
  match m.get? k with
  | some v => f k v
  | none => 0

theorem lookup_put_self (l : List (K × V)) (k : K) (v : V) : lookup (put l k v) k = some v := by
  induction l with
  | nil => simp [put, lookup]
  | cons p l ih =>
    obtain ⟨k', v'⟩ := p
    simp only [put]; split
    · simp [lookup]
    · rename_i h; simp [lookup, h, ih]

theorem lookup_put_ne (l : List (K × V)) {k x : K} (v : V) (h : x ≠ k) :
    lookup (put l k v) x = lookup l x := by
  induction l with
  | nil => simp [put, lookup, Ne.symm h]
  | cons p l ih =>
    obtain ⟨k', v'⟩ := p
    simp only [put]; split
    · subst_vars; simp [lookup, Ne.symm h]
    · simp only [lookup]; split <;> simp_all

theorem lookup_none_of_not_mem (l : List (K × V)) {k : K} (h : k ∉ l.map Prod.fst) :
    lookup l k = none := by
  induction l with
  | nil => rfl
  | cons p l ih =>
    obtain ⟨k', v'⟩ := p
    simp only [List.map_cons, List.mem_cons, not_or] at h
    simp [lookup, Ne.symm h.1, ih h.2]

theorem lookup_del_self (l : List (K × V)) (k : K) (h : (l.map Prod.fst).Nodup) :
    lookup (del l k) k = none := by
  induction l with
  | nil => rfl
  | cons p l ih =>
    obtain ⟨k', v'⟩ := p
    simp only [List.map_cons, List.nodup_cons] at h
    simp only [del]; split
    · subst_vars; exact lookup_none_of_not_mem _ h.1
    · rename_i hne; simp [lookup, hne, ih h.2]

theorem lookup_del_ne (l : List (K × V)) {k x : K} (h : x ≠ k) :
    lookup (del l k) x = lookup l x := by
  induction l with
  | nil => rfl
  | cons p l ih =>
    obtain ⟨k', v'⟩ := p
    simp only [del]; split
    · subst_vars; simp [lookup, Ne.symm h]
    · simp only [lookup]; split <;> simp_all

theorem get?_empty (k : K) : (empty : FMap K V).get? k = none := rfl

theorem get?_insert_self (m : FMap K V) (k : K) (v : V) : (m.insert k v).get? k = some v :=
  lookup_put_self _ _ _

theorem get?_insert_ne (m : FMap K V) {k x : K} (v : V) (h : x ≠ k) :
    (m.insert k v).get? x = m.get? x := lookup_put_ne _ _ h

theorem get?_insert (m : FMap K V) (k x : K) (v : V) :
    (m.insert k v).get? x = if x = k then some v else m.get? x := by
  split
  · subst_vars; exact get?_insert_self _ _ _
  · rename_i h; exact get?_insert_ne _ _ h

theorem get?_erase_self (m : FMap K V) (k : K) : (m.erase k).get? k = none :=
  lookup_del_self _ _ m.nodup

theorem get?_erase_ne (m : FMap K V) {k x : K} (h : x ≠ k) :
    (m.erase k).get? x = m.get? x := lookup_del_ne _ h

theorem get?_erase (m : FMap K V) (k x : K) :
    (m.erase k).get? x = if x = k then none else m.get? x := by
  split
  · subst_vars; exact get?_erase_self _ _
  · rename_i h; exact get?_erase_ne _ h

omit [DecidableEq K] in
theorem sum_empty (f : K → V → Nat) : (empty : FMap K V).sum f = 0 := rfl

theorem sum_insert (m : FMap K V) (f : K → V → Nat) (k : K) (v : V) :
    (m.insert k v).sum f + m.term f k = m.sum f + f k v := by
  obtain ⟨l, hl⟩ := m
  simp only [sum, insert, term, get?]
  clear hl
  induction l with
  | nil => simp [put, lookup]
  | cons p l ih =>
    obtain ⟨k', v'⟩ := p
    simp only [put, lookup]
    split
    · subst_vars; simp; omega
    · simp only [List.map_cons, List.sum_cons]
      omega

theorem sum_erase (m : FMap K V) (f : K → V → Nat) (k : K) :
    (m.erase k).sum f + m.term f k = m.sum f := by
  obtain ⟨l, hl⟩ := m
  simp only [sum, erase, term, get?]
  clear hl
  induction l with
  | nil => simp [del, lookup]
  | cons p l ih =>
    obtain ⟨k', v'⟩ := p
    simp only [del, lookup]
    split
    · subst_vars; simp; omega
    · simp only [List.map_cons, List.sum_cons]
      omega

theorem term_le_sum (m : FMap K V) (f : K → V → Nat) (k : K) : m.term f k ≤ m.sum f := by
  have := m.sum_erase f k; omega

theorem term_insert_self (m : FMap K V) (f : K → V → Nat) (k : K) (v : V) :
    (m.insert k v).term f k = f k v := by
  simp [term, get?_insert_self]

theorem term_insert_ne (m : FMap K V) (f : K → V → Nat) {k x : K} (v : V) (h : x ≠ k) :
    (m.insert k v).term f x = m.term f x := by
  simp [term, get?_insert_ne _ _ h]

theorem term_some {m : FMap K V} {k : K} {v : V} (f : K → V → Nat) (h : m.get? k = some v) :
    m.term f k = f k v := by simp [term, h]

theorem term_none {m : FMap K V} {k : K} (f : K → V → Nat) (h : m.get? k = none) :
    m.term f k = 0 := by simp [term, h]

theorem lookup_some_mem {l : List (K × V)} {k : K} {v : V} (h : lookup l k = some v) :
    (k, v) ∈ l := by
  induction l with
  | nil => simp [lookup] at h
  | cons p l ih =>
    obtain ⟨k', v'⟩ := p
    simp only [lookup] at h
    split at h
    · simp_all
    · exact List.mem_cons_of_mem _ (ih h)

theorem lookup_of_mem {l : List (K × V)} (hn : (l.map Prod.fst).Nodup) {k : K} {v : V}
    (h : (k, v) ∈ l) : lookup l k = some v := by
  induction l with
  | nil => simp at h
  | cons p l ih =>
    obtain ⟨k', v'⟩ := p
    simp only [List.map_cons, List.nodup_cons] at hn
    simp only [List.mem_cons, Prod.mk.injEq] at h
    simp only [lookup]
    rcases h with ⟨rfl, rfl⟩ | h
    · simp
    · split
      · subst_vars; exact absurd (List.mem_map_of_mem (f := Prod.fst) h) hn.1
      · exact ih hn.2 h

theorem mem_entries_iff (m : FMap K V) {k : K} {v : V} :
    (k, v) ∈ m.entries ↔ m.get? k = some v :=
  ⟨lookup_of_mem m.nodup, lookup_some_mem⟩

/-- Sums agree when the functions agree on every entry. -/
theorem sum_congr (m : FMap K V) (f g : K → V → Nat)
    (h : ∀ k v, m.get? k = some v → f k v = g k v) : m.sum f = m.sum g := by
  unfold sum
  congr 1
  apply List.map_congr_left
  rintro ⟨k, v⟩ hm
  exact h k v ((m.mem_entries_iff).1 hm)

omit [DecidableEq K] in
theorem list_sum_le (l : List (K × V)) (f g : K → V → Nat)
    (h : ∀ k v, (k, v) ∈ l → f k v ≤ g k v) :
    (l.map fun p => f p.1 p.2).sum ≤ (l.map fun p => g p.1 p.2).sum := by
  induction l with
  | nil => simp
  | cons p l ih =>
    obtain ⟨k, v⟩ := p
    have h1 := h k v (by simp)
    have h2 := ih (fun k v hm => h k v (List.mem_cons_of_mem _ hm))
    simp only [List.map_cons, List.sum_cons]
    omega

theorem sum_le (m : FMap K V) (f g : K → V → Nat)
    (h : ∀ k v, m.get? k = some v → f k v ≤ g k v) : m.sum f ≤ m.sum g :=
  list_sum_le _ _ _ fun k v hm => h k v ((m.mem_entries_iff).1 hm)

omit [DecidableEq K] in
theorem sum_add (m : FMap K V) (f g : K → V → Nat) :
    m.sum (fun k v => f k v + g k v) = m.sum f + m.sum g := by
  obtain ⟨l, hl⟩ := m
  simp only [sum]
  clear hl
  induction l with
  | nil => rfl
  | cons p l ih => simp only [List.map_cons, List.sum_cons, ih]; omega

omit [DecidableEq K] in
theorem sum_mul (m : FMap K V) (f : K → V → Nat) (c : Nat) :
    m.sum (fun k v => f k v * c) = m.sum f * c := by
  obtain ⟨l, hl⟩ := m
  simp only [sum]
  clear hl
  induction l with
  | nil => simp
  | cons p l ih => simp only [List.map_cons, List.sum_cons, ih, Nat.add_mul]

end FMap
end Verif

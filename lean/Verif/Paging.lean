import Verif.FMap
import Verif.Num
import Mathlib.Data.List.Forall2

/-
Views that report a list in pages, and what reading all pages gives.
-/

namespace Verif

variable {α β ι κ : Type}

/-- The paged views, for instance `/repo/ref-exchange/src/views.rs:397-399`: entry `i` of `len` is
given by `f`, indices are `u64`, and the sum panics when it overflows. -/
def page (len : Nat) (f : Nat → R α) (start limit : Nat) : R (List α) := do
  let stop ← addW 64 start limit
  (List.range' start (min stop len - start)).mapM f

/-- The paged views of maps, `/repo/ref-exchange/src/views.rs:596-609` and `998-1009`,
`/repo/ref-farming/src/view.rs:187-202`: `keys` is the order in which the map keeps its keys. -/
def pageOfMap [DecidableEq κ] (m : FMap κ α) (keys : List κ) (start limit : Option Nat) :
    R (List (κ × α)) :=
  page keys.length (fun i => do
    let k ← expectE keys[i]? .other
    let v ← expectE (m.get? k) .other
    .ok (k, v)) (start.getD 0) (limit.getD keys.length)

/-! ### Reading page by page -/

/-- Reads pages of the given sizes one after the other and puts them together. -/
def readPages (read : Nat → Nat → R (List α)) : (start : Nat) → (sizes : List Nat) → R (List α)
  | _, [] => .ok []
  | start, n :: ns => do
    let l ← read start n
    let r ← readPages read (start + n) ns
    .ok (l ++ r)

theorem mapM_forall₂ {f : ι → R α} : ∀ {is : List ι} {l : List α}, is.mapM f = .ok l →
    List.Forall₂ (fun i a => f i = .ok a) is l
  | [], l, h => by cases h; exact .nil
  | i :: is, l, h => by
    rw [List.mapM_cons] at h
    cases hi : f i with
    | error e => rw [hi] at h; cases h
    | ok a =>
      cases hs : is.mapM f with
      | error e => rw [hi, hs] at h; cases h
      | ok as =>
        rw [hi, hs] at h
        cases h
        exact .cons hi (mapM_forall₂ hs)

theorem mapM_of_forall {f : ι → R α} : ∀ {is : List ι}, (∀ i ∈ is, (f i).isOk = true) →
    ∃ l, is.mapM f = .ok l
  | [], _ => ⟨[], rfl⟩
  | i :: is, h => by
    obtain ⟨as, hs⟩ := mapM_of_forall (is := is) fun j hj => h j (List.mem_cons_of_mem _ hj)
    cases hi : f i with
    | error e => have := h i (List.mem_cons_self ..); rw [hi] at this; cases this
    | ok a =>
      refine ⟨a :: as, ?_⟩
      rw [List.mapM_cons, hi, hs]
      rfl

theorem forall₂_append {R : α → β → Prop} {l1 l2 : List α} {m1 m2 : List β}
    (h1 : List.Forall₂ R l1 m1) (h2 : List.Forall₂ R l2 m2) : List.Forall₂ R (l1 ++ l2) (m1 ++ m2) := by
  induction h1 with
  | nil => exact h2
  | cons h _ ih => exact .cons h ih

/-- Pages that together reach the end list every entry from `start` on exactly once and in order. -/
theorem pages_tile {len : Nat} {f : Nat → R α} : ∀ {sizes : List Nat} {start : Nat} {l : List α},
    readPages (page len f) start sizes = .ok l → len ≤ start + sizes.sum →
    List.Forall₂ (fun i a => f i = .ok a) (List.range' start (len - start)) l
  | [], start, l, h, hle => by
    cases h
    rw [List.sum_nil] at hle
    rw [show len - start = 0 by omega]
    exact .nil
  | n :: ns, start, l, h, hle => by
    unfold readPages at h
    unpack at h
    obtain ⟨l1, h1, l2, h2, rfl⟩ := h
    unfold page at h1
    unpack at h1
    obtain ⟨-, h1⟩ := h1
    rw [List.sum_cons] at hle
    have e2 := pages_tile h2 (by omega)
    have e := forall₂_append (mapM_forall₂ h1) e2
    by_cases hs : start + n ≤ len
    · rw [Nat.min_eq_left hs, Nat.add_sub_cancel_left] at e
      rw [show len - start = n + (len - (start + n)) by omega, ← List.range'_append_1]
      exact e
    · rw [Nat.min_eq_right (by omega), show len - (start + n) = 0 by omega] at e
      simpa using e

/-- If every entry can be reported, every such reading succeeds, as long as the indices fit. -/
theorem pages_read {len : Nat} {f : Nat → R α} (hf : ∀ i, i < len → (f i).isOk = true) :
    ∀ {sizes : List Nat} {start : Nat}, start + sizes.sum < 2 ^ 64 →
    ∃ l, readPages (page len f) start sizes = .ok l
  | [], start, _ => ⟨[], rfl⟩
  | n :: ns, start, h => by
    rw [List.sum_cons] at h
    obtain ⟨l1, h1⟩ := mapM_of_forall (f := f) (is := List.range' start (min (start + n) len - start))
      (by
        intro i hi
        rw [List.mem_range'_1] at hi
        exact hf i (by omega))
    obtain ⟨l2, h2⟩ := pages_read hf (sizes := ns) (start := start + n) (by omega)
    refine ⟨l1 ++ l2, ?_⟩
    unfold readPages page
    rw [addW_ok.2 ⟨by omega, rfl⟩, ok_bind, h1, ok_bind]
    change (do let r ← readPages (page len f) (start + n) ns; .ok (l1 ++ r) : R (List α)) = _
    rw [h2]
    rfl

theorem forall₂_range {R : Nat → α → Prop} {n : Nat} {l : List α}
    (h : List.Forall₂ R (List.range' 0 n) l) :
    l.length = n ∧ ∀ (i : Nat) (a : α), l[i]? = some a → R i a := by
  have hl := h.length_eq
  rw [List.length_range'] at hl
  refine ⟨hl.symm, fun i a ha => ?_⟩
  obtain ⟨hi, rfl⟩ := List.getElem?_eq_some_iff.1 ha
  have := List.Forall₂.get h (i := i) (by rw [List.length_range']; omega) hi
  simpa using this

/-- `l` lists the `n` entries that `f` reports, in order. -/
def Lists (n : Nat) (f : Nat → R α) (l : List α) : Prop :=
  l.length = n ∧ ∀ (i : Nat) (a : α), i < n → (f i = .ok a ↔ l[i]? = some a)

theorem lists_of_pages {len : Nat} {f : Nat → R α} {sizes : List Nat} {l : List α}
    (h : readPages (page len f) 0 sizes = .ok l) (hle : len ≤ sizes.sum) : Lists len f l := by
  obtain ⟨h1, h2⟩ := forall₂_range (pages_tile h (by omega))
  refine ⟨h1, fun i a hi => ⟨fun e => ?_, h2 i a⟩⟩
  have hg : l[i]? = some l[i] := List.getElem?_eq_getElem (by omega)
  rw [h2 i _ hg] at e
  cases e
  exact hg

/-- Pages over keys list what is reported for each key, in their order. -/
theorem key_pages {keys : List κ} {g : κ → R α} {sizes : List Nat} {l : List α}
    (h : readPages (page keys.length fun i => do
      let k ← expectE keys[i]? .other
      g k) 0 sizes = .ok l) (hle : keys.length ≤ sizes.sum) :
    List.Forall₂ (fun k a => g k = .ok a) keys l := by
  obtain ⟨h1, h2⟩ := lists_of_pages h hle
  rw [List.forall₂_iff_get]
  refine ⟨h1.symm, fun i hi hi' => ?_⟩
  have := (h2 i l[i] hi).2 (List.getElem?_eq_getElem hi')
  simp only [bind_ok, expectE_ok] at this
  obtain ⟨k, e, this⟩ := this
  rw [List.getElem?_eq_getElem hi] at e
  cases e
  exact this

/-- The pages of a map list every entry exactly once. -/
theorem map_pages [DecidableEq κ] {m : FMap κ α} {keys : List κ} (hn : keys.Nodup)
    (hk : ∀ k, k ∈ keys ↔ m.contains k = true) {sizes : List Nat} {l : List (κ × α)}
    (h : readPages (fun s n => pageOfMap m keys (some s) (some n)) 0 sizes = .ok l)
    (hle : keys.length ≤ sizes.sum) :
    (l.map Prod.fst).Nodup ∧ ∀ k v, (k, v) ∈ l ↔ m.get? k = some v := by
  obtain ⟨h1, h2⟩ := lists_of_pages (f := fun i => do
    let k ← expectE keys[i]? .other
    let v ← expectE (m.get? k) .other
    .ok (k, v)) h hle
  have key : ∀ (i : Nat) (kv : κ × α), l[i]? = some kv → keys[i]? = some kv.1 ∧ m.get? kv.1 = some kv.2 := by
    intro i kv hi
    have hlt := (List.getElem?_eq_some_iff.1 hi).1
    have := (h2 i kv (by omega)).2 hi
    unpack at this
    obtain ⟨k, e1, v, e2, rfl⟩ := this
    exact ⟨e1, e2⟩
  have hm : l.map Prod.fst = keys := by
    apply List.ext_getElem?
    intro i
    rw [List.getElem?_map]
    cases hi : l[i]? with
    | none =>
      rw [List.getElem?_eq_none_iff] at hi
      exact (List.getElem?_eq_none (by omega)).symm
    | some kv => exact (key i kv hi).1.symm
  refine ⟨hm ▸ hn, fun k v => ⟨fun e => ?_, fun e => ?_⟩⟩
  · obtain ⟨i, hi, e⟩ := List.getElem_of_mem e
    exact (key i (k, v) (by rw [List.getElem?_eq_getElem hi, e])).2
  · have hk' : k ∈ keys := (hk k).2 (by unfold FMap.contains; rw [e]; rfl)
    rw [← hm, List.mem_map] at hk'
    obtain ⟨⟨k', v'⟩, hmem, rfl⟩ := hk'
    obtain ⟨i, hi, e'⟩ := List.getElem_of_mem hmem
    have := (key i (k', v') (by rw [List.getElem?_eq_getElem hi, e'])).2
    simp only at this e
    rw [this] at e
    cases e
    exact hmem

/-- Without arguments a view of a map lists every entry exactly once. -/
theorem map_all [DecidableEq κ] {m : FMap κ α} {keys : List κ} (hn : keys.Nodup)
    (hk : ∀ k, k ∈ keys ↔ m.contains k = true) {l : List (κ × α)}
    (h : pageOfMap m keys none none = .ok l) :
    (l.map Prod.fst).Nodup ∧ ∀ k v, (k, v) ∈ l ↔ m.get? k = some v := by
  refine map_pages hn hk (sizes := [keys.length]) ?_ (by simp)
  unfold readPages
  rw [show pageOfMap m keys (some 0) (some keys.length) = .ok l from h, ok_bind]
  unfold readPages
  rw [ok_bind, List.append_nil]

end Verif

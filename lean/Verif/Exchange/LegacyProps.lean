import Verif.Exchange.Legacy
import Verif.Exchange.StorageProps

/-
C67 (accounts saved by earlier versions): conversion keeps every balance, and afterwards such an
account behaves as a current one with the same balances.
-/

namespace Verif

open Demo

/-- What the holder of an account saved by some version has of a token. -/
def VAccount.held : VAccount → AccountId → Nat
  | .v1 _ tokens, t => tokens.getD t 0
  | .v2 _ legacy tokens, t => legacy.getD t 0 + tokens.getD t 0
  | .current a, t => a.legacy.getD t 0 + a.tokens.getD t 0

/-- The NEAR deposited for storage. -/
def VAccount.near : VAccount → Nat
  | .v1 near _ => near
  | .v2 near _ _ => near
  | .current a => a.near

/-- No token is in both maps. -/
def StoredAccount.Disjoint (s : StoredAccount) : Prop :=
  ∀ t n, s.legacy.get? t = some n → s.tokens.get? t = none

/-- What the holder has of a token. -/
def StoredAccount.bal (s : StoredAccount) (t : AccountId) : Nat := (s.balance? t).getD 0

namespace FMap

variable {K V : Type} [DecidableEq K]

theorem erase_of_none {m : FMap K V} {k : K} (h : m.get? k = none) : m.erase k = m := by
  obtain ⟨l, hl⟩ := m
  have : del l k = l := by
    replace h : lookup l k = none := h
    clear hl
    induction l with
    | nil => rfl
    | cons p l ih =>
      obtain ⟨k', v⟩ := p
      simp only [lookup] at h
      split at h
      · cases h
      · rename_i hne
        simp only [del]
        rw [if_neg hne, ih h]
  simp only [erase, this]

theorem size_insert_none {m : FMap K V} {k : K} (v : V) (h : m.get? k = none) :
    (m.insert k v).size = m.size + 1 := by
  have := m.sum_insert (fun _ _ => 1) k v
  rw [term_none _ h] at this
  simp only [size, ← List.length_map (f := fun _ : K × V => 1)] at *
  simpa [sum, List.map_const'] using this

theorem size_insert_some {m : FMap K V} {k : K} {w : V} (v : V) (h : m.get? k = some w) :
    (m.insert k v).size = m.size := by
  have := m.sum_insert (fun _ _ => 1) k v
  rw [term_some _ h] at this
  simpa [sum, size, List.map_const'] using this

theorem size_erase_some {m : FMap K V} {k : K} {w : V} (h : m.get? k = some w) :
    (m.erase k).size + 1 = m.size := by
  have := m.sum_erase (fun _ _ => 1) k
  rw [term_some _ h] at this
  simpa [sum, size, List.map_const'] using this

end FMap

/-- The bytes one slot is charged for, 84 or 148. -/
def slotBytes (_ : AccountId) (s : Slot) : Nat := if s.legacy then 84 else 148

theorem slotBytes_current (t : AccountId) (n : Nat) : slotBytes t ⟨n, false⟩ = 148 := rfl

theorem slotBytes_legacy (t : AccountId) (n : Nat) : slotBytes t ⟨n, true⟩ = 84 := rfl

/-- `a` is the stored account `s`, with one map instead of two. -/
structure Represents (s : StoredAccount) (a : Account) : Prop where
  near : a.near = s.near
  shadow : a.shadow = s.shadow
  disjoint : s.Disjoint
  slots : ∀ t, a.tokens.get? t =
    (s.tokens.get? t).elim ((s.legacy.get? t).map (⟨·, true⟩)) fun n => some ⟨n, false⟩
  bytes : a.tokens.sum slotBytes = s.legacy.size * 84 + s.tokens.size * 148

namespace Represents

variable {s : StoredAccount} {a : Account}

theorem balance (h : Represents s a) (t : AccountId) : s.balance? t = a.balance? t := by
  unfold StoredAccount.balance? Account.balance?
  rw [h.slots t]
  cases s.tokens.get? t with
  | some n => rfl
  | none => cases s.legacy.get? t <;> rfl

theorem usage (h : Represents s a) : s.storageUsage = a.storageUsage := by
  have := h.bytes
  unfold slotBytes at this
  unfold StoredAccount.storageUsage Account.storageUsage
  rw [this, Nat.add_assoc]

/-- Writing a balance moves it to the new map. -/
theorem put (h : Represents s a) (t : AccountId) (n : Nat) :
    Represents { s with legacy := s.legacy.erase t, tokens := s.tokens.insert t n }
      { a with tokens := a.tokens.insert t ⟨n, false⟩ } := by
  refine ⟨h.near, h.shadow, ?_, ?_, ?_⟩
  · intro u m hu
    by_cases e : u = t
    · subst e; rw [FMap.get?_erase_self] at hu; cases hu
    · rw [FMap.get?_erase_ne _ e] at hu
      show (s.tokens.insert t n).get? u = none
      rw [FMap.get?_insert_ne _ _ e]
      exact h.disjoint u m hu
  · intro u
    by_cases e : u = t
    · subst e; simp only [FMap.get?_insert_self]; rfl
    · simp only [FMap.get?_insert_ne _ _ e, FMap.get?_erase_ne _ e]; exact h.slots u
  · have h1 := a.tokens.sum_insert slotBytes t ⟨n, false⟩
    have hs := h.slots t
    have hb := h.bytes
    show (a.tokens.insert t _).sum slotBytes = (s.legacy.erase t).size * 84 + (s.tokens.insert t n).size * 148
    cases ht : s.tokens.get? t with
    | some m =>
      have hl : s.legacy.get? t = none := by
        cases hl : s.legacy.get? t with
        | none => rfl
        | some k => rw [h.disjoint t k hl] at ht; cases ht
      rw [ht] at hs
      rw [FMap.term_some _ hs] at h1
      rw [FMap.erase_of_none hl, FMap.size_insert_some _ ht]
      simp only [slotBytes_current] at h1
      omega
    | none =>
      rw [ht] at hs
      rw [FMap.size_insert_none _ ht]
      cases hl : s.legacy.get? t with
      | none =>
        rw [hl] at hs
        rw [FMap.term_none _ hs] at h1
        rw [FMap.erase_of_none hl]
        simp only [slotBytes_current] at h1
        omega
      | some k =>
        rw [hl] at hs
        rw [FMap.term_some _ hs] at h1
        have := FMap.size_erase_some hl
        simp only [slotBytes_current, slotBytes_legacy] at h1
        omega

/-- A new balance of a token without a legacy one. -/
theorem put_new (h : Represents s a) {t : AccountId} (n : Nat) (hl : s.legacy.get? t = none) :
    Represents { s with tokens := s.tokens.insert t n }
      { a with tokens := a.tokens.insert t ⟨n, false⟩ } := by
  have := h.put t n
  rwa [FMap.erase_of_none hl] at this

/-- A legacy balance may be updated in place. -/
theorem put_legacy (h : Represents s a) {t : AccountId} {m : Nat} (n : Nat)
    (hl : s.legacy.get? t = some m) :
    Represents { s with legacy := s.legacy.insert t n }
      { a with tokens := a.tokens.insert t ⟨n, true⟩ } := by
  have ht := h.disjoint t m hl
  refine ⟨h.near, h.shadow, ?_, ?_, ?_⟩
  · intro u k hu
    by_cases e : u = t
    · subst e; exact ht
    · exact h.disjoint u k (by rwa [FMap.get?_insert_ne _ _ e] at hu)
  · intro u
    by_cases e : u = t
    · subst e; simp only [FMap.get?_insert_self, ht]; rfl
    · simp only [FMap.get?_insert_ne _ _ e]; exact h.slots u
  · have h1 := a.tokens.sum_insert slotBytes t ⟨n, true⟩
    have hs := h.slots t
    have hb := h.bytes
    rw [ht, hl] at hs
    rw [FMap.term_some _ hs] at h1
    show (a.tokens.insert t _).sum slotBytes = (s.legacy.insert t n).size * 84 + s.tokens.size * 148
    rw [FMap.size_insert_some _ hl]
    simp only [slotBytes_legacy] at h1
    omega

/-- Removing a token. -/
theorem remove (h : Represents s a) (t : AccountId) :
    Represents { s with legacy := s.legacy.erase t, tokens := s.tokens.erase t }
      { a with tokens := a.tokens.erase t } := by
  refine ⟨h.near, h.shadow, ?_, ?_, ?_⟩
  · intro u m hu
    by_cases e : u = t
    · subst e; rw [FMap.get?_erase_self] at hu; cases hu
    · rw [FMap.get?_erase_ne _ e] at hu
      show (s.tokens.erase t).get? u = none
      rw [FMap.get?_erase_ne _ e]
      exact h.disjoint u m hu
  · intro u
    by_cases e : u = t
    · subst e; simp only [FMap.get?_erase_self]; rfl
    · simp only [FMap.get?_erase_ne _ e]; exact h.slots u
  · have h1 := a.tokens.sum_erase slotBytes t
    have hs := h.slots t
    have hb := h.bytes
    show (a.tokens.erase t).sum slotBytes = (s.legacy.erase t).size * 84 + (s.tokens.erase t).size * 148
    cases ht : s.tokens.get? t with
    | some m =>
      have hl : s.legacy.get? t = none := by
        cases hl : s.legacy.get? t with
        | none => rfl
        | some k => rw [h.disjoint t k hl] at ht; cases ht
      rw [ht] at hs
      rw [FMap.term_some _ hs] at h1
      have := FMap.size_erase_some ht
      rw [FMap.erase_of_none hl]
      simp only [slotBytes_current] at h1
      omega
    | none =>
      rw [ht] at hs
      rw [FMap.erase_of_none ht]
      cases hl : s.legacy.get? t with
      | none =>
        rw [hl] at hs
        rw [FMap.term_none _ hs] at h1
        rw [FMap.erase_of_none hl]
        omega
      | some k =>
        rw [hl] at hs
        rw [FMap.term_some _ hs] at h1
        have := FMap.size_erase_some hl
        simp only [slotBytes_legacy] at h1
        omega

end Represents

/-- Two runs agree: both panic for the same reason, or both succeed with related results. -/
def Agree {α β : Type} (Q : α → β → Prop) : R α → R β → Prop
  | .ok a, .ok b => Q a b
  | .error e, .error f => e = f
  | _, _ => False

theorem Agree.bind {α β γ δ : Type} {Q : α → β → Prop} {P : γ → δ → Prop} {x : R α} {y : R β}
    {f : α → R γ} {g : β → R δ} (h : Agree Q x y) (hf : ∀ a b, Q a b → Agree P (f a) (g b)) :
    Agree P (x >>= f) (y >>= g) := by
  cases x <;> cases y
  · exact h
  · exact h.elim
  · exact h.elim
  · exact hf _ _ h

theorem Agree.same {γ δ α : Type} {P : γ → δ → Prop} {x : R α} {f : α → R γ} {g : α → R δ}
    (hf : ∀ a, x = .ok a → Agree P (f a) (g a)) : Agree P (x >>= f) (x >>= g) := by
  cases x with
  | error => rfl
  | ok a => exact hf a rfl

theorem Represents.deposit {s : StoredAccount} {a : Account} (h : Represents s a) (t : AccountId)
    (n : Nat) : Agree Represents (s.deposit t n) (a.deposit t n) := by
  have hb := h.balance t
  unfold StoredAccount.deposit Account.deposit Account.bal
  rw [← hb]
  unfold StoredAccount.balance?
  split
  · cases hl : s.legacy.get? t with
    | some m =>
      rw [h.disjoint t m hl]
      exact Agree.same fun k _ => h.put t k
    | none =>
      cases ht : s.tokens.get? t with
      | some m => exact Agree.same fun k _ => h.put_new k hl
      | none => exact Agree.same fun k _ => h.put_new k hl
  · exact h

theorem Represents.withdraw {s : StoredAccount} {a : Account} (h : Represents s a) (t : AccountId)
    (n : Nat) : Agree Represents (s.withdraw t n) (a.withdraw t n) := by
  have hs := h.slots t
  unfold StoredAccount.withdraw Account.withdraw
  rw [hs]
  split
  · cases hl : s.legacy.get? t with
    | some m =>
      rw [h.disjoint t m hl]
      exact Agree.same fun _ _ => h.put t (m - n)
    | none =>
      cases ht : s.tokens.get? t with
      | some m => exact Agree.same fun _ _ => h.put_new (m - n) hl
      | none => rfl
  · exact h

theorem Represents.depositChecked {s : StoredAccount} {a : Account} (h : Represents s a)
    (t : AccountId) (n : Nat) :
    Agree (fun r q => match r, q with
      | some s', some a' => Represents s' a'
      | none, none => True
      | _, _ => False) (s.depositChecked t n) (a.depositChecked t n) := by
  have hs := h.slots t
  unfold StoredAccount.depositChecked Account.depositChecked
  rw [hs]
  cases ht : s.tokens.get? t with
  | some m =>
    have hl : s.legacy.get? t = none := by
      cases hl : s.legacy.get? t with
      | none => rfl
      | some k => rw [h.disjoint t k hl] at ht; cases ht
    exact Agree.same fun k _ => h.put_new k hl
  | none =>
    cases hl : s.legacy.get? t with
    | some m => exact Agree.same fun k _ => h.put_legacy k hl
    | none =>
      have h' := h.put_new n hl
      have hu := h'.usage
      have hn := h'.near
      simp only [Option.elim, Option.map]
      by_cases hle : ({ a with tokens := a.tokens.insert t ⟨n, false⟩ } : Account).storageUsage ≤ a.near
      · rw [if_pos hle, if_pos (by rw [hu]; exact hn ▸ hle)]
        exact h'
      · rw [if_neg hle, if_neg (by rw [hu]; exact hn ▸ hle)]
        trivial

theorem Represents.register {s : StoredAccount} {a : Account} (h : Represents s a)
    (ts : List AccountId) : Represents (s.register ts) (a.register ts) := by
  induction ts generalizing s a with
  | nil => exact h
  | cons t ts ih =>
    unfold StoredAccount.register Account.register
    refine ih ?_
    have hs := h.slots t
    unfold StoredAccount.balance? Account.registered FMap.contains
    rw [hs]
    cases ht : s.tokens.get? t with
    | some m => exact h
    | none =>
      cases hl : s.legacy.get? t with
      | some m => exact h
      | none => exact h.put_new 0 hl

theorem Represents.unregister {s : StoredAccount} {a : Account} (h : Represents s a)
    (t : AccountId) : Agree Represents (s.unregister t) (a.unregister t) := by
  have hb := h.balance t
  have hr := h.remove t
  unfold StoredAccount.unregister Account.unregister Account.bal FMap.getD
  rw [← hb]
  unfold StoredAccount.balance?
  cases ht : s.tokens.get? t with
  | some m =>
    have hl : s.legacy.get? t = none := by
      cases hl : s.legacy.get? t with
      | none => rfl
      | some k => rw [h.disjoint t k hl] at ht; cases ht
    rw [hl]
    simp only [Option.getD_none, Option.getD_some, assertE_true, ok_bind]
    exact Agree.same fun _ _ => hr
  | none =>
    cases hl : s.legacy.get? t with
    | some m =>
      by_cases e : m = 0
      · subst e; exact hr
      · simp only [Option.getD_some, assertE_false e, error_bind]
        rfl
    | none => exact hr

/-- **C67**. Every operation does the same to the stored account, with balances of earlier versions in
a map of their own, and to the account with one map: it panics for the same reason or gives related
results. -/
theorem C67_operation {s : StoredAccount} {a : Account} (h : Represents s a) (o : StoredAccount.Op) :
    Agree Represents (s.apply o) (a.apply o) := by
  cases o with
  | deposit t n => exact h.deposit t n
  | depositChecked t n =>
    refine (h.depositChecked t n).bind fun r q hrq => ?_
    cases r <;> cases q
    · exact h
    · exact hrq.elim
    · exact hrq.elim
    · exact hrq
  | withdraw t n => exact h.withdraw t n
  | register ts => exact h.register ts
  | unregister t => exact h.unregister t

theorem Represents.run {s : StoredAccount} {a : Account} (h : Represents s a)
    (ops : List StoredAccount.Op) : Represents (s.run ops) (a.run ops) := by
  induction ops generalizing s a with
  | nil => exact h
  | cons o ops ih =>
    have ha := C67_operation h o
    refine ih (s := match s.apply o with | .ok b => b | .error _ => s)
      (a := match a.apply o with | .ok b => b | .error _ => a) ?_
    revert ha
    cases s.apply o <;> cases a.apply o
    · exact fun _ => h
    · exact fun h => h.elim
    · exact fun h => h.elim
    · exact fun h => h

/-! ### Conversion -/

/-- **C67**. Reading an account saved by an earlier version keeps every balance and the storage
deposit. -/
theorem C67_upgrade {v : VAccount} (hd : v.intoCurrent.Disjoint) :
    (∀ t, v.intoCurrent.bal t = v.held t) ∧ v.intoCurrent.near = v.near := by
  have key : ∀ (s : StoredAccount), s.Disjoint → ∀ t, s.bal t = s.legacy.getD t 0 + s.tokens.getD t 0 := by
    intro s hs t
    unfold StoredAccount.bal StoredAccount.balance? FMap.getD
    cases ht : s.tokens.get? t with
    | some m =>
      cases hl : s.legacy.get? t with
      | none => simp
      | some k => rw [hs t k hl] at ht; cases ht
    | none => simp
  cases v with
  | v1 near tokens => exact ⟨fun t => by rw [key _ hd t]; rfl, rfl⟩
  | v2 near legacy tokens => exact ⟨fun t => key _ hd t, rfl⟩
  | current a => exact ⟨fun t => key _ hd t, rfl⟩

/-- The maps of an account of the first version are disjoint, and so are those of a new account. -/
theorem C67_disjoint (near : Nat) (tokens : FMap AccountId Nat) :
    (VAccount.v1 near tokens).intoCurrent.Disjoint ∧ StoredAccount.new.Disjoint :=
  ⟨fun _ _ _ => rfl, fun _ _ _ => rfl⟩

/-- Every stored account with disjoint maps is some account with one map. -/
theorem C67_represented {s : StoredAccount} (hd : s.Disjoint) : ∃ a, Represents s a := by
  have step1 : ∀ (l : List (AccountId × Nat)) (hl : (l.map Prod.fst).Nodup),
      ∃ a, Represents ⟨s.near, ⟨l, hl⟩, FMap.empty, s.shadow⟩ a := by
    intro l
    induction l with
    | nil =>
      intro hl
      exact ⟨⟨s.near, FMap.empty, s.shadow⟩, rfl, rfl, fun _ _ _ => rfl, fun _ => rfl, rfl⟩
    | cons p l ih =>
      obtain ⟨u, n⟩ := p
      intro hl
      have hl' := hl
      simp only [List.map_cons, List.nodup_cons] at hl'
      obtain ⟨a, ha⟩ := ih hl'.2
      have hu : (⟨l, hl'.2⟩ : FMap AccountId Nat).get? u = none :=
        FMap.lookup_none_of_not_mem l hl'.1
      have hau : a.tokens.get? u = none := by rw [ha.slots u]; simp only [hu]; rfl
      refine ⟨{ a with tokens := a.tokens.insert u ⟨n, true⟩ }, ha.near, ha.shadow,
        fun _ _ _ => rfl, fun t => ?_, ?_⟩
      · show (a.tokens.insert u _).get? t = Option.map _ (FMap.lookup ((u, n) :: l) t)
        rw [FMap.get?_insert]
        simp only [FMap.lookup]
        by_cases e : t = u
        · subst e; simp
        · rw [if_neg e, if_neg (Ne.symm e)]; exact ha.slots t
      · have h1 := a.tokens.sum_insert slotBytes u ⟨n, true⟩
        have hb := ha.bytes
        rw [FMap.term_none _ hau] at h1
        show (a.tokens.insert u _).sum slotBytes = ((u, n) :: l).length * 84 + 0 * 148
        have hb' : a.tokens.sum slotBytes = l.length * 84 + 0 * 148 := hb
        rw [List.length_cons]
        simp only [slotBytes_legacy] at h1
        omega
  have step2 : ∀ (l : List (AccountId × Nat)) (hl : (l.map Prod.fst).Nodup),
      (∀ t, t ∈ l.map Prod.fst → s.legacy.get? t = none) →
      ∃ a, Represents ⟨s.near, s.legacy, ⟨l, hl⟩, s.shadow⟩ a := by
    intro l
    induction l with
    | nil => intro hl _; exact step1 s.legacy.entries s.legacy.nodup
    | cons p l ih =>
      obtain ⟨u, n⟩ := p
      intro hl hdis
      have hl' := hl
      simp only [List.map_cons, List.nodup_cons] at hl'
      obtain ⟨a, ha⟩ := ih hl'.2 fun t ht => hdis t (List.mem_cons_of_mem _ ht)
      have hu : (⟨l, hl'.2⟩ : FMap AccountId Nat).get? u = none :=
        FMap.lookup_none_of_not_mem l hl'.1
      have hul : s.legacy.get? u = none := hdis u List.mem_cons_self
      have hau : a.tokens.get? u = none := by rw [ha.slots u]; simp only [hu, hul]; rfl
      refine ⟨{ a with tokens := a.tokens.insert u ⟨n, false⟩ }, ha.near, ha.shadow,
        fun t m ht => ?_, fun t => ?_, ?_⟩
      · show FMap.lookup ((u, n) :: l) t = none
        simp only [FMap.lookup]
        by_cases e : u = t
        · subst e; rw [hul] at ht; cases ht
        · rw [if_neg e]; exact ha.disjoint t m ht
      · show (a.tokens.insert u _).get? t = (FMap.lookup ((u, n) :: l) t).elim _ _
        rw [FMap.get?_insert]
        simp only [FMap.lookup]
        by_cases e : t = u
        · subst e; simp
        · rw [if_neg e, if_neg (Ne.symm e)]; exact ha.slots t
      · have h1 := a.tokens.sum_insert slotBytes u ⟨n, false⟩
        have hb := ha.bytes
        rw [FMap.term_none _ hau] at h1
        show (a.tokens.insert u _).sum slotBytes = s.legacy.size * 84 + ((u, n) :: l).length * 148
        have hb' : a.tokens.sum slotBytes = s.legacy.size * 84 + l.length * 148 := hb
        rw [List.length_cons]
        simp only [slotBytes_current] at h1
        omega
  refine step2 s.tokens.entries s.tokens.nodup fun t ht => ?_
  obtain ⟨⟨u, n⟩, hm, rfl⟩ := List.mem_map.1 ht
  cases hl : s.legacy.get? u with
  | none => rfl
  | some k =>
    have := hd u k hl
    rw [(s.tokens.mem_entries_iff).1 hm] at this
    cases this

/-- **C67**, histories. An account saved by an earlier version is, after any series of operations, an
account with one map after the same operations: same balances, same storage cost. So what the other
properties say about accounts holds for it. -/
theorem C67_history {v : VAccount} (hd : v.intoCurrent.Disjoint) :
    ∃ a : Account, (∀ t, a.bal t = v.held t) ∧ a.near = v.near ∧ ∀ ops,
      Represents (v.intoCurrent.run ops) (a.run ops) ∧
      (∀ t, (v.intoCurrent.run ops).bal t = (a.run ops).bal t) ∧
      (v.intoCurrent.run ops).storageUsage = (a.run ops).storageUsage := by
  obtain ⟨a, ha⟩ := C67_represented hd
  obtain ⟨h1, h2⟩ := C67_upgrade hd
  have hb : ∀ {s : StoredAccount} {a : Account}, Represents s a → ∀ t, s.bal t = a.bal t :=
    fun h t => by unfold StoredAccount.bal Account.bal; rw [h.balance t]
  exact ⟨a, fun t => by rw [← hb ha t, h1 t], by rw [ha.near, h2], fun ops =>
    ⟨ha.run ops, hb (ha.run ops), (ha.run ops).usage⟩⟩

/-! ### Storage -/

theorem StoredAccount.usage_le {s s' : StoredAccount} (h1 : s'.legacy.size ≤ s.legacy.size)
    (h2 : s'.tokens.size ≤ s.tokens.size) : s'.storageUsage ≤ s.storageUsage := by
  unfold StoredAccount.storageUsage
  exact Nat.mul_le_mul_right _ (by omega)

/-- **C67**. A holder can always leave: withdrawing the whole balance of a token and unregistering it
works in whichever map the balance is, does not increase the storage cost, and leaves the other
balances alone. -/
theorem C67_exit {s : StoredAccount} {t : AccountId} (hd : s.Disjoint) :
    ∃ s1 s2, s.withdraw t (s.bal t) = .ok s1 ∧ s1.unregister t = .ok s2 ∧
      s2.balance? t = none ∧ (∀ u, u ≠ t → s2.balance? u = s.balance? u) ∧
      s2.near = s.near ∧ s2.storageUsage ≤ s.storageUsage := by
  have hrest : ∀ (l m : FMap AccountId Nat), (∀ u, u ≠ t → l.get? u = s.legacy.get? u) →
      (∀ u, u ≠ t → m.get? u = s.tokens.get? u) → l.get? t = none → m.get? t = none →
      (⟨s.near, l, m, s.shadow⟩ : StoredAccount).balance? t = none ∧
      ∀ u, u ≠ t → (⟨s.near, l, m, s.shadow⟩ : StoredAccount).balance? u = s.balance? u := by
    intro l m hl hm hl0 hm0
    unfold StoredAccount.balance?
    simp only [hl0, hm0]
    exact ⟨trivial, fun u hu => by rw [hl u hu, hm u hu]⟩
  have erase_size : ∀ (m : FMap AccountId Nat), (m.erase t).size ≤ m.size := by
    intro m
    cases h : m.get? t with
    | none => rw [FMap.erase_of_none h]
    | some k => have := FMap.size_erase_some h; omega
  have again_size : ∀ (m : FMap AccountId Nat) n, ((m.insert t n).erase t).size ≤ m.size := by
    intro m n
    have h1 := FMap.size_erase_some (m.get?_insert_self t n)
    cases h : m.get? t with
    | none => rw [FMap.size_insert_none n h] at h1; omega
    | some k => rw [FMap.size_insert_some n h] at h1; omega
  by_cases h0 : s.bal t = 0
  · refine ⟨s, { s with legacy := s.legacy.erase t, tokens := s.tokens.erase t }, ?_, ?_, ?_⟩
    · unfold StoredAccount.withdraw; rw [h0]; rfl
    · have hz : s.legacy.getD t 0 = 0 ∧ s.tokens.getD t 0 = 0 := by
        have := (C67_upgrade (v := .current s) hd).1 t
        have h' : s.bal t = s.legacy.getD t 0 + s.tokens.getD t 0 := this
        omega
      unfold StoredAccount.unregister
      rw [assertE_true hz.1, ok_bind, assertE_true hz.2, ok_bind]
    · obtain ⟨h1, h2⟩ := hrest (s.legacy.erase t) (s.tokens.erase t)
        (fun u hu => FMap.get?_erase_ne _ hu) (fun u hu => FMap.get?_erase_ne _ hu)
        (FMap.get?_erase_self ..) (FMap.get?_erase_self ..)
      exact ⟨h1, h2, rfl, StoredAccount.usage_le (erase_size _) (erase_size _)⟩
  · refine ⟨{ s with legacy := s.legacy.erase t, tokens := s.tokens.insert t 0 },
      { s with legacy := (s.legacy.erase t).erase t, tokens := (s.tokens.insert t 0).erase t },
      ?_, ?_, ?_⟩
    · unfold StoredAccount.bal StoredAccount.balance? at h0 ⊢
      unfold StoredAccount.withdraw
      cases hl : s.legacy.get? t with
      | some n =>
        rw [hd t n hl, hl] at h0
        rw [hd t n hl]
        simp only [Option.getD_some] at h0 ⊢
        rw [if_pos (Nat.pos_of_ne_zero h0), assertE_true (Nat.le_refl n), ok_bind, Nat.sub_self]
      | none =>
        rw [hl] at h0
        cases ht : s.tokens.get? t with
        | none => rw [ht] at h0; exact absurd rfl h0
        | some n =>
          rw [ht] at h0
          simp only [Option.getD_some] at h0 ⊢
          rw [if_pos (Nat.pos_of_ne_zero h0), assertE_true (Nat.le_refl n), ok_bind, Nat.sub_self,
            FMap.erase_of_none hl]
    · unfold StoredAccount.unregister FMap.getD
      simp only [FMap.get?_erase_self, FMap.get?_insert_self, Option.getD_none, Option.getD_some,
        assertE_true, ok_bind]
    · obtain ⟨h1, h2⟩ := hrest ((s.legacy.erase t).erase t) ((s.tokens.insert t 0).erase t)
        (fun u hu => by rw [FMap.get?_erase_ne _ hu, FMap.get?_erase_ne _ hu])
        (fun u hu => by rw [FMap.get?_erase_ne _ hu, FMap.get?_insert_ne _ _ hu])
        (FMap.get?_erase_self ..) (FMap.get?_erase_self ..)
      exact ⟨h1, h2, rfl, StoredAccount.usage_le
        (Nat.le_trans (erase_size _) (erase_size _)) (again_size _ _)⟩

/-! ### Views -/

/-- **C67**. `get_deposits` lists exactly the balances, of all versions. -/
theorem C67_deposits_listed (s : StoredAccount) :
    ∃ l, s.getDeposits = .ok l ∧ ∀ t n, (t, n) ∈ l ↔ s.balance? t = some n := by
  have key : ∀ ts : List AccountId, (∀ t ∈ ts, (s.balance? t).isSome = true) →
      ∃ l, (ts.mapM fun t => do
        let n ← expectE (s.balance? t) .other
        .ok (t, n) : R (List (AccountId × Nat))) = .ok l ∧
        ∀ t n, (t, n) ∈ l ↔ t ∈ ts ∧ s.balance? t = some n := by
    intro ts
    induction ts with
    | nil => intro _; exact ⟨[], rfl, by simp⟩
    | cons u ts ih =>
      intro h
      obtain ⟨l, hl, hm⟩ := ih fun t ht => h t (List.mem_cons_of_mem _ ht)
      obtain ⟨m, hu⟩ := Option.isSome_iff_exists.1 (h u List.mem_cons_self)
      refine ⟨(u, m) :: l, ?_, fun t n => ?_⟩
      · rw [List.mapM_cons, hu, hl]; rfl
      · rw [List.mem_cons, List.mem_cons, hm, Prod.mk.injEq]
        constructor
        · rintro (⟨rfl, rfl⟩ | ⟨h1, h2⟩)
          · exact ⟨.inl rfl, hu⟩
          · exact ⟨.inr h1, h2⟩
        · rintro ⟨rfl | h1, h2⟩
          · rw [hu] at h2; cases h2; exact .inl ⟨rfl, rfl⟩
          · exact .inr ⟨h1, h2⟩
  have mem : ∀ t, t ∈ s.getTokens ↔ (s.balance? t).isSome = true := by
    intro t
    unfold StoredAccount.getTokens StoredAccount.balance? FMap.keys
    rw [List.mem_append, List.mem_map, List.mem_map]
    have hk : ∀ m : FMap AccountId Nat, (∃ p ∈ m.entries, p.1 = t) ↔ (m.get? t).isSome = true := by
      intro m
      rw [Option.isSome_iff_exists]
      constructor
      · rintro ⟨⟨u, n⟩, hm, rfl⟩; exact ⟨n, (m.mem_entries_iff).1 hm⟩
      · rintro ⟨n, hn⟩; exact ⟨(t, n), (m.mem_entries_iff).2 hn, rfl⟩
    rw [hk, hk]
    cases s.tokens.get? t <;> simp
  obtain ⟨l, hl, hm⟩ := key s.getTokens fun t ht => (mem t).1 ht
  exact ⟨l, hl, fun t n => by
    rw [hm, mem]
    exact ⟨fun h => h.2, fun h => ⟨by rw [h]; rfl, h⟩⟩⟩

/-! ### Examples and exceptions -/

/-- Alice has 500 of token A in an account saved by the first version, whose storage deposit just covers
it. -/
def oldAlice : VAccount := .v1 (186 * BYTE_COST) (FMap.empty.insert A 500)

example : oldAlice.intoCurrent.Disjoint ∧ oldAlice.held A = 500 ∧
    oldAlice.intoCurrent.storageUsage = oldAlice.near :=
  ⟨(C67_disjoint _ _).1, by decide +kernel, by decide +kernel⟩

/-- **The paged view omits balances of earlier versions**: `get_tokens_paged` shows an empty list for an
account that holds tokens, whatever the page. -/
theorem C67_paged_view_omits : ∃ v : VAccount, ∃ t, 0 < v.held t ∧ v.intoCurrent.bal t = v.held t ∧
    ∀ start limit l, v.intoCurrent.tokensPaged start limit = .ok l → l = [] := by
  refine ⟨oldAlice, A, by decide +kernel, by decide +kernel, fun start limit l h => ?_⟩
  unfold StoredAccount.tokensPaged at h
  unpack at h
  rw [← h.2]
  show (List.take _ []).drop _ = _
  simp

/-- The same account with one map. -/
def oldAccount : Account := ⟨186 * BYTE_COST, FMap.empty.insert A ⟨500, true⟩, FMap.empty⟩

/-- The exchange of the example with that account of Alice. -/
def withOldAlice : Contract := { c1 with accounts := c1.accounts.insert al oldAccount }

/-- **A holder whose storage deposit just covers an account of the first version cannot withdraw a part
of a balance**: that converts the entry to the larger current form, and the storage check fails.
Withdrawing everything and unregistering the token works. -/
theorem C67_partial_withdrawal_blocked :
    Represents oldAlice.intoCurrent oldAccount ∧
    (withOldAlice.exec (y al) (.withdraw A 100 false none)).isOk = false ∧
    (withOldAlice.exec (y al) (.withdraw A 500 false none)).isOk = false ∧
    (withOldAlice.exec (y al) (.withdraw A 500 true none)).isOk = true := by
  refine ⟨⟨rfl, rfl, (C67_disjoint _ _).1, fun t => ?_, by decide +kernel⟩, by decide +kernel⟩
  show (FMap.empty.insert A _).get? t = Option.map _ ((FMap.empty.insert A 500).get? t)
  rw [FMap.get?_insert, FMap.get?_insert]
  split <;> rfl

end Verif

import Verif.Exchange.Spec
import Verif.Exchange.PoolLemmas

/-
What the operations on an account and on the token cache do to balances.
-/

namespace Verif

theorem amountIn_append (l m : List (AccountId × Nat)) (t : AccountId) :
    amountIn (l ++ m) t = amountIn l t + amountIn m t := by
  induction l with
  | nil => simp [amountIn]
  | cons p l ih => simp only [List.cons_append, amountIn, ih]; omega

/-- The sum over the entries of a map, with distinct keys, is the entry. -/
theorem amountIn_entries_aux {V : Type} (f : V → Nat) (l : List (AccountId × V))
    (hn : (l.map Prod.fst).Nodup) (t : AccountId) :
    amountIn (l.map fun p => (p.1, f p.2)) t = ((FMap.lookup l t).map f).getD 0 := by
  induction l with
  | nil => rfl
  | cons p l ih =>
    obtain ⟨k, v⟩ := p
    simp only [List.map_cons, List.nodup_cons] at hn
    simp only [List.map_cons, amountIn, FMap.lookup]
    rw [ih hn.2]
    by_cases hk : k = t
    · subst hk
      simp [FMap.lookup_none_of_not_mem l hn.1]
    · simp [hk]

theorem amountIn_filter_pos (l : List (AccountId × Nat)) (t : AccountId) :
    amountIn (l.filter fun p => p.2 > 0) t = amountIn l t := by
  induction l with
  | nil => rfl
  | cons p l ih =>
    rw [List.filter_cons]
    split
    · simp only [amountIn, ih]
    · rename_i h
      simp only [amountIn, ih]
      have : p.2 = 0 := by simpa using h
      simp [this]

theorem TokenCache.amountIn_entries (m : TokenCache) (t : AccountId) :
    amountIn m.entries t = m.getD t 0 := by
  have := amountIn_entries_aux id m.entries m.nodup t
  simpa [FMap.getD, FMap.get?] using this

namespace Account

theorem bal_def (a : Account) (t : AccountId) :
    a.bal t = ((a.tokens.get? t).map Slot.amt).getD 0 := rfl

theorem bal_insert (a : Account) (t u : AccountId) (s : Slot) :
    ({ a with tokens := a.tokens.insert t s } : Account).bal u = if u = t then s.amt else a.bal u := by
  simp only [bal_def, FMap.get?_insert]
  split <;> simp

theorem bal_of_not_registered {a : Account} {t : AccountId} (h : a.registered t = false) :
    a.bal t = 0 := by
  unfold registered FMap.contains at h
  rw [bal_def]
  cases hg : a.tokens.get? t <;> simp_all

/-- Only tokens differ. -/
structure Same (a b : Account) : Prop where
  near : b.near = a.near
  shadow : b.shadow = a.shadow

theorem Same.rfl' (a : Account) : Same a a := ⟨rfl, rfl⟩
theorem Same.trans {a b c : Account} (h : Same a b) (g : Same b c) : Same a c :=
  ⟨g.near.trans h.near, g.shadow.trans h.shadow⟩

theorem deposit_ok {a b : Account} {t : AccountId} {n : Nat} (h : a.deposit t n = .ok b) :
    Same a b ∧ (∀ u, b.bal u = a.bal u + if t = u then n else 0) ∧
    (∀ u, a.registered u = true → b.registered u = true) ∧
    (∀ u, u ≠ t → b.registered u = a.registered u) ∧ (0 < n → b.bal t < 2 ^ 128) := by
  unfold deposit at h
  split at h
  · rename_i hn
    unpack at h
    obtain ⟨hlt, rfl⟩ := h
    refine ⟨⟨rfl, rfl⟩, ?_, ?_, ?_, ?_⟩
    · intro u
      rw [bal_insert]
      by_cases hu : u = t
      · subst hu; simp; omega
      · simp [hu, Ne.symm hu]
    · intro u hu
      simp only [registered, FMap.contains, FMap.get?_insert] at *
      split <;> simp_all
    · intro u hu
      simp [registered, FMap.contains, FMap.get?_insert_ne _ _ hu]
    · intro _; rw [bal_insert]; simpa using hlt
  · rename_i hn
    have hn : n = 0 := by omega
    subst hn
    cases h
    exact ⟨Same.rfl' _, by simp, fun _ h => h, fun _ _ => rfl, by simp⟩

theorem withdraw_ok {a b : Account} {t : AccountId} {n : Nat} (h : a.withdraw t n = .ok b) :
    Same a b ∧ n ≤ a.bal t ∧ (∀ u, b.bal u + (if t = u then n else 0) = a.bal u) ∧
    (∀ u, b.registered u = a.registered u) := by
  unfold withdraw at h
  split at h
  · rename_i hn
    unpack at h
    obtain ⟨s, hs, hle, rfl⟩ := h
    have hb : a.bal t = s.amt := by simp [bal_def, hs]
    refine ⟨⟨rfl, rfl⟩, by omega, ?_, ?_⟩
    · intro u
      rw [bal_insert]
      by_cases hu : u = t
      · subst hu; simp; omega
      · simp [hu, Ne.symm hu]
    · intro u
      simp only [registered, FMap.contains, FMap.get?_insert]
      split
      · rename_i hu; subst hu; simp [hs]
      · rfl
  · rename_i hn
    have hn : n = 0 := by omega
    subst hn
    cases h
    exact ⟨Same.rfl' _, by simp, by simp, fun _ => rfl⟩

theorem depositAll_ok : ∀ {ts : List AccountId} {ns : List Nat} {a b : Account},
    a.depositAll ts ns = .ok b →
    Same a b ∧ (∀ u, b.bal u = a.bal u + flow ts ns u) ∧
    (∀ u, u ∉ ts → b.registered u = a.registered u) := by
  intro ts
  induction ts with
  | nil =>
    intro ns a b h
    simp only [depositAll, Except.ok.injEq] at h
    subst h
    exact ⟨Same.rfl' _, by simp, fun _ _ => rfl⟩
  | cons t ts ih =>
    intro ns a b h
    cases ns with
    | nil => cases h
    | cons n ns =>
      unfold depositAll at h
      unpack at h
      obtain ⟨a1, h1, h2⟩ := h
      obtain ⟨s1, b1, -, r1, -⟩ := deposit_ok h1
      obtain ⟨s2, b2, r2⟩ := ih h2
      refine ⟨s1.trans s2, ?_, ?_⟩
      · intro u; rw [b2, b1]; simp only [flow]; omega
      · intro u hu
        simp only [List.mem_cons, not_or] at hu
        rw [r2 u hu.2, r1 u hu.1]

theorem withdrawAll_ok : ∀ {ts : List AccountId} {ns : List Nat} {a b : Account},
    a.withdrawAll ts ns = .ok b →
    Same a b ∧ (∀ u, b.bal u + flow ts ns u = a.bal u) ∧
    (∀ u, b.registered u = a.registered u) := by
  intro ts
  induction ts with
  | nil =>
    intro ns a b h
    simp only [withdrawAll, Except.ok.injEq] at h
    subst h
    exact ⟨Same.rfl' _, by simp, fun _ => rfl⟩
  | cons t ts ih =>
    intro ns a b h
    cases ns with
    | nil => cases h
    | cons n ns =>
      unfold withdrawAll at h
      unpack at h
      obtain ⟨a1, h1, h2⟩ := h
      obtain ⟨s1, -, b1, r1⟩ := withdraw_ok h1
      obtain ⟨s2, b2, r2⟩ := ih h2
      refine ⟨s1.trans s2, ?_, fun u => (r2 u).trans (r1 u)⟩
      intro u
      have e1 := b1 u
      have e2 := b2 u
      simp only [flow]; omega

theorem depositPairs_ok : ∀ {ps : List (AccountId × Nat)} {a b : Account},
    a.depositPairs ps = .ok b →
    Same a b ∧ (∀ u, b.bal u = a.bal u + amountIn ps u) ∧
    (∀ u, u ∉ ps.map Prod.fst → b.registered u = a.registered u) := by
  intro ps
  induction ps with
  | nil =>
    intro a b h
    simp only [depositPairs, Except.ok.injEq] at h
    subst h
    exact ⟨Same.rfl' _, by simp [amountIn], fun _ _ => rfl⟩
  | cons p ps ih =>
    intro a b h
    unfold depositPairs at h
    unpack at h
    obtain ⟨a1, h1, h2⟩ := h
    obtain ⟨s1, b1, -, r1, -⟩ := deposit_ok h1
    obtain ⟨s2, b2, r2⟩ := ih h2
    refine ⟨s1.trans s2, ?_, ?_⟩
    · intro u; rw [b2, b1]; simp only [amountIn]; omega
    · intro u hu
      simp only [List.map_cons, List.mem_cons, not_or] at hu
      rw [r2 u hu.2, r1 u hu.1]

theorem amountIn_positive (a : Account) (t : AccountId) : amountIn a.positive t = a.bal t := by
  unfold positive
  have : (a.tokens.entries.filter fun p => p.2.amt > 0).map (fun p => (p.1, p.2.amt)) =
      (a.tokens.entries.map fun p => (p.1, p.2.amt)).filter fun p => p.2 > 0 := by
    rw [List.filter_map]; rfl
  rw [this, amountIn_filter_pos, amountIn_entries_aux Slot.amt _ a.tokens.nodup]
  rfl

theorem register_ok (ts : List AccountId) : ∀ (a : Account),
    Same a (a.register ts) ∧ (∀ u, (a.register ts).bal u = a.bal u) ∧
    (∀ u, (a.register ts).registered u = (a.registered u || decide (u ∈ ts))) := by
  induction ts with
  | nil => intro a; exact ⟨Same.rfl' _, fun _ => rfl, by simp [register]⟩
  | cons t ts ih =>
    intro a
    unfold register
    split
    · rename_i hr
      obtain ⟨h1, h2, h3⟩ := ih a
      refine ⟨h1, h2, ?_⟩
      intro u
      rw [h3]
      by_cases hu : u = t
      · subst hu; simp [hr]
      · simp [hu]
    · rename_i hr
      obtain ⟨h1, h2, h3⟩ := ih { a with tokens := a.tokens.insert t ⟨0, false⟩ }
      refine ⟨⟨h1.near, h1.shadow⟩, ?_, ?_⟩
      · intro u
        rw [h2, bal_insert]
        split
        · rename_i hu; subst hu
          rw [bal_of_not_registered (by simpa using hr)]
        · rfl
      · intro u
        rw [h3]
        by_cases hu : u = t
        · subst hu; simp [registered, FMap.contains, FMap.get?_insert_self]
        · simp [registered, FMap.contains, FMap.get?_insert_ne _ _ hu, hu]

theorem unregister_ok {a b : Account} {t : AccountId} (h : a.unregister t = .ok b) :
    a.bal t = 0 ∧ Same a b ∧ (∀ u, b.bal u = a.bal u) ∧
    (∀ u, b.registered u = (a.registered u && decide (u ≠ t))) := by
  unfold unregister at h
  unpack at h
  obtain ⟨h0, rfl⟩ := h
  refine ⟨h0, ⟨rfl, rfl⟩, ?_, ?_⟩
  · intro u
    simp only [bal_def, FMap.get?_erase]
    split
    · rename_i hu; subst hu; rw [bal_def] at h0; simp [h0]
    · rfl
  · intro u
    simp only [registered, FMap.contains, FMap.get?_erase]
    by_cases hu : u = t <;> simp [hu]

theorem unregisterAll_ok : ∀ {ts : List AccountId} {a b : Account}, a.unregisterAll ts = .ok b →
    Same a b ∧ (∀ u, b.bal u = a.bal u) ∧ (∀ t ∈ ts, a.bal t = 0) := by
  intro ts
  induction ts with
  | nil =>
    intro a b h
    simp only [unregisterAll, Except.ok.injEq] at h
    subst h
    exact ⟨Same.rfl' _, fun _ => rfl, by simp⟩
  | cons t ts ih =>
    intro a b h
    unfold unregisterAll at h
    unpack at h
    obtain ⟨a1, h1, h2⟩ := h
    obtain ⟨z1, s1, b1, -⟩ := unregister_ok h1
    obtain ⟨s2, b2, z2⟩ := ih h2
    refine ⟨s1.trans s2, fun u => (b2 u).trans (b1 u), ?_⟩
    intro u hu
    rcases List.mem_cons.1 hu with rfl | hu
    · exact z1
    · rw [← b1]; exact z2 u hu

theorem depositChecked_some {a b : Account} {t : AccountId} {n : Nat}
    (h : a.depositChecked t n = .ok (some b)) :
    Same a b ∧ (∀ u, b.bal u = a.bal u + if t = u then n else 0) := by
  unfold depositChecked at h
  split at h
  · rename_i s hs
    unpack at h
    obtain ⟨-, h⟩ := h
    cases h
    refine ⟨⟨rfl, rfl⟩, ?_⟩
    intro u
    rw [bal_insert]
    by_cases hu : u = t
    · subst hu; simp [bal_def, hs]
    · simp [hu, Ne.symm hu]
  · rename_i hs
    simp only [] at h
    split at h
    · cases h
      refine ⟨⟨rfl, rfl⟩, ?_⟩
      intro u
      rw [bal_insert]
      by_cases hu : u = t
      · subst hu; simp [bal_def, hs]
      · simp [hu, Ne.symm hu]
    · cases h

theorem pledged_def (a : Account) (id : Nat) : a.pledged id = (a.shadow.get? id).getD ⟨0, 0⟩ := rfl

theorem updateShadow_ok {a b : Account} {id n : Nat} {act : ShadowAction}
    (h : a.updateShadow id act n = .ok b) :
    b.near = a.near ∧ b.tokens = a.tokens ∧
    movedRecord (a.pledged id) act n = .ok (b.pledged id) ∧
    (∀ j, j ≠ id → b.pledged j = a.pledged j ∧ b.shadow.get? j = a.shadow.get? j) := by
  unfold updateShadow at h
  unpack at h
  obtain ⟨r, hr, h⟩ := h
  split at h
  · rename_i hz
    cases h
    refine ⟨rfl, rfl, ?_, ?_⟩
    · rw [pledged_def, hr]
      obtain ⟨f, b⟩ := r
      simp only at hz
      simp [pledged_def, FMap.get?_erase_self, hz.1, hz.2]
    · intro j hj
      simp [pledged_def, FMap.get?_erase_ne _ hj]
  · cases h
    refine ⟨rfl, rfl, ?_, ?_⟩
    · rw [pledged_def, hr]; simp [pledged_def, FMap.get?_insert_self]
    · intro j hj
      simp [pledged_def, FMap.get?_insert_ne _ _ hj]

theorem bal_congr {a b : Account} (h : b.tokens = a.tokens) (t : AccountId) : b.bal t = a.bal t := by
  rw [bal_def, bal_def, h]

theorem Same.pledged {a b : Account} (h : Same a b) (id : Nat) : b.pledged id = a.pledged id := by
  rw [pledged_def, pledged_def, h.shadow]

/-- An account that could not move more than its free shares. -/
theorem freeOf_ok {a : Account} {id total free : Nat} (h : a.freeOf id total = .ok free) :
    free + max (a.pledged id).farm (a.pledged id).burrow = total := by
  unfold freeOf at h
  rw [pledged_def]
  split at h
  · rename_i r hr
    unfold ShadowRecord.freeShares at h
    unpack at h
    obtain ⟨h1, rfl⟩ := h
    simp only [hr, Option.getD_some]
    omega
  · rename_i hr
    cases h
    simp [hr]

end Account

namespace TokenCache

theorem add_ok {m k : TokenCache} {t : AccountId} {n : Nat} (h : add m t n = .ok k) :
    ∀ u, k.getD u 0 = m.getD u 0 + if t = u then n else 0 := by
  unfold add at h
  unpack at h
  obtain ⟨-, rfl⟩ := h
  intro u
  simp only [FMap.getD, FMap.get?_insert]
  by_cases hu : u = t
  · subst hu; simp
  · simp [hu, Ne.symm hu]

theorem sub_ok {m k : TokenCache} {t : AccountId} {n : Nat} (h : sub m t n = .ok k) :
    ∀ u, k.getD u 0 + (if t = u then n else 0) = m.getD u 0 := by
  unfold sub at h
  split at h
  · unpack at h
    obtain ⟨prev, hp, hle, h⟩ := h
    intro u
    split at h
    · cases h
      simp only [FMap.getD, FMap.get?_insert]
      by_cases hu : u = t
      · subst hu; simp [hp]; omega
      · simp [hu, Ne.symm hu]
    · cases h
      simp only [FMap.getD, FMap.get?_erase]
      by_cases hu : u = t
      · subst hu; simp [hp]; omega
      · simp [hu, Ne.symm hu]
  · rename_i hn
    have hn : n = 0 := by omega
    subst hn
    cases h
    simp

theorem subAll_ok : ∀ {ts : List AccountId} {ns : List Nat} {m k : TokenCache},
    subAll m ts ns = .ok k → ∀ u, k.getD u 0 + flow ts ns u = m.getD u 0 := by
  intro ts
  induction ts with
  | nil => intro ns m k h; simp only [subAll, Except.ok.injEq] at h; subst h; simp
  | cons t ts ih =>
    intro ns m k h
    cases ns with
    | nil => simp only [subAll, Except.ok.injEq] at h; subst h; simp
    | cons n ns =>
      unfold subAll at h
      unpack at h
      obtain ⟨m1, h1, h2⟩ := h
      intro u
      have e1 := sub_ok h1 u
      have e2 := ih h2 u
      simp only [flow]; omega

theorem addPairs_ok : ∀ {ps : List (AccountId × Nat)} {m k : TokenCache},
    addPairs m ps = .ok k → ∀ u, k.getD u 0 = m.getD u 0 + amountIn ps u := by
  intro ps
  induction ps with
  | nil => intro m k h; simp only [addPairs, Except.ok.injEq] at h; subst h; simp [amountIn]
  | cons p ps ih =>
    intro m k h
    unfold addPairs at h
    unpack at h
    obtain ⟨m1, h1, h2⟩ := h
    intro u
    rw [ih h2, add_ok h1]
    simp only [amountIn]; omega

end TokenCache

theorem checkMins_ok : ∀ {as ms : List Nat} {u : Unit}, checkMins as ms = .ok u →
    ∀ (i a m : Nat), as[i]? = some a → ms[i]? = some m → m ≤ a := by
  intro as
  induction as with
  | nil => intro ms u _ i a m h; simp at h
  | cons x as ih =>
    intro ms u h
    cases ms with
    | nil => intro i a m _ h; simp at h
    | cons y ms =>
      unfold checkMins at h
      unpack at h
      obtain ⟨hle, h⟩ := h
      intro i a m ha hm
      cases i with
      | zero => simp at ha hm; omega
      | succ i => exact ih h i a m (by simpa using ha) (by simpa using hm)

/-- Moving tokens to the virtual account. -/
theorem Contract.useTokens_ok : ∀ {ps : List (AccountId × Nat)} {a v a' v' : Account},
    Contract.useTokens a v ps = .ok (a', v') →
    Account.Same a a' ∧ Account.Same v v' ∧
    (∀ u, a'.bal u + amountIn ps u = a.bal u) ∧ (∀ u, v'.bal u = v.bal u + amountIn ps u) ∧
    (∀ u, a'.registered u = a.registered u) := by
  intro ps
  induction ps with
  | nil =>
    intro a v a' v' h
    simp only [useTokens, Except.ok.injEq, Prod.mk.injEq] at h
    obtain ⟨rfl, rfl⟩ := h
    exact ⟨.rfl' _, .rfl' _, by simp [amountIn], by simp [amountIn], fun _ => rfl⟩
  | cons p ps ih =>
    intro a v a' v' h
    unfold useTokens at h
    unpack at h
    obtain ⟨a1, h1, v1, h2, h3⟩ := h
    obtain ⟨s1, -, b1, r1⟩ := Account.withdraw_ok h1
    obtain ⟨t1, c1, -⟩ := Account.deposit_ok h2
    obtain ⟨s2, t2, b2, c2, r2⟩ := ih h3
    refine ⟨s1.trans s2, t1.trans t2, ?_, ?_, fun u => (r2 u).trans (r1 u)⟩
    · intro u
      have e1 := b1 u
      have e2 := b2 u
      simp only [amountIn]; omega
    · intro u
      rw [c2, c1]; simp only [amountIn]; omega

end Verif

import Verif.Exchange.CallLemmas

/-
How the observations of the state (deposits, shares, pledges, lost-and-found) change when one
account, one pool or the configuration is replaced.
-/

namespace Verif

/-- `depositOf` as a function of the accounts. -/
def balIn (m : FMap AccountId Account) (a t : AccountId) : Nat :=
  match m.get? a with
  | some acc => acc.bal t
  | none => 0

/-- `pledgedOf` as a function of the accounts. -/
def pledgeIn (m : FMap AccountId Account) (a : AccountId) (id : Nat) : ShadowRecord :=
  match m.get? a with
  | some acc => acc.pledged id
  | none => ⟨0, 0⟩

/-- `sharesOf` as a function of the pools. -/
def sharesIn (l : List Pool) (id : Nat) (a : AccountId) : Nat :=
  match l[id]? with
  | some p => p.shareBalance a
  | none => 0

namespace Contract

theorem depositOf_eq (c : Contract) (a t : AccountId) : c.depositOf a t = balIn c.accounts a t := rfl
theorem pledgedOf_eq (c : Contract) (a : AccountId) (id : Nat) :
    c.pledgedOf a id = pledgeIn c.accounts a id := rfl
theorem sharesOf_eq (c : Contract) (id : Nat) (a : AccountId) :
    c.sharesOf id a = sharesIn c.pools id a := rfl

theorem accountOrNew_bal (c : Contract) (a t : AccountId) :
    (c.accountOrNew a).bal t = balIn c.accounts a t := by
  unfold accountOrNew balIn
  cases c.accounts.get? a <;> rfl

theorem accountOrNew_pledged (c : Contract) (a : AccountId) (id : Nat) :
    (c.accountOrNew a).pledged id = pledgeIn c.accounts a id := by
  unfold accountOrNew pledgeIn
  cases c.accounts.get? a <;> rfl

end Contract

theorem balIn_some {m : FMap AccountId Account} {a : AccountId} {acc : Account}
    (h : m.get? a = some acc) (t : AccountId) : balIn m a t = acc.bal t := by
  simp [balIn, h]

theorem pledgeIn_some {m : FMap AccountId Account} {a : AccountId} {acc : Account}
    (h : m.get? a = some acc) (id : Nat) : pledgeIn m a id = acc.pledged id := by
  simp [pledgeIn, h]

theorem balIn_insert (m : FMap AccountId Account) (a b t : AccountId) (acc : Account) :
    balIn (m.insert a acc) b t = if b = a then acc.bal t else balIn m b t := by
  unfold balIn
  rw [FMap.get?_insert]
  by_cases h : b = a <;> simp [h]

theorem pledgeIn_insert (m : FMap AccountId Account) (a b : AccountId) (id : Nat) (acc : Account) :
    pledgeIn (m.insert a acc) b id = if b = a then acc.pledged id else pledgeIn m b id := by
  unfold pledgeIn
  rw [FMap.get?_insert]
  by_cases h : b = a <;> simp [h]

theorem balIn_erase (m : FMap AccountId Account) (a b t : AccountId) :
    balIn (m.erase a) b t = if b = a then 0 else balIn m b t := by
  unfold balIn
  rw [FMap.get?_erase]
  by_cases h : b = a <;> simp [h]

theorem pledgeIn_erase (m : FMap AccountId Account) (a b : AccountId) (id : Nat) :
    pledgeIn (m.erase a) b id = if b = a then ⟨0, 0⟩ else pledgeIn m b id := by
  unfold pledgeIn
  rw [FMap.get?_erase]
  by_cases h : b = a <;> simp [h]

theorem getElem?_set_some {l : List Pool} {id : Nat} {p : Pool} (hp : l[id]? = some p) (q : Pool)
    (j : Nat) : (l.set id q)[j]? = if j = id then some q else l[j]? := by
  rw [List.getElem?_set]
  by_cases h : j = id
  · subst h
    have : j < l.length := by
      rcases Nat.lt_or_ge j l.length with h | h
      · exact h
      · rw [List.getElem?_eq_none h] at hp; cases hp
    simp [this]
  · simp [h, Ne.symm h]

theorem sharesIn_some {l : List Pool} {id : Nat} {p : Pool} (h : l[id]? = some p) (a : AccountId) :
    sharesIn l id a = p.shareBalance a := by simp [sharesIn, h]

theorem sharesIn_set {l : List Pool} {id : Nat} {p : Pool} (hp : l[id]? = some p) (q : Pool)
    (j : Nat) (a : AccountId) :
    sharesIn (l.set id q) j a = if j = id then q.shareBalance a else sharesIn l j a := by
  unfold sharesIn
  rw [getElem?_set_some hp]
  by_cases h : j = id <;> simp [h]

theorem sharesIn_append (l : List Pool) (q : Pool) (j : Nat) (a : AccountId) :
    sharesIn (l ++ [q]) j a = if j = l.length then q.shareBalance a else sharesIn l j a := by
  unfold sharesIn
  rw [List.getElem?_append]
  by_cases h1 : j < l.length
  · simp [h1, Nat.ne_of_lt h1]
  · simp only [h1, if_false]
    by_cases h2 : j = l.length
    · simp [h2]
    · have : 0 < j - l.length := by omega
      have h3 : l[j]? = none := List.getElem?_eq_none (by omega)
      simp [h2, h3, List.getElem?_eq_none (l := [q]) (i := j - l.length) (by simp; omega)]

theorem sharesIn_none {l : List Pool} {id : Nat} (h : l.length ≤ id) (a : AccountId) :
    sharesIn l id a = 0 := by
  simp [sharesIn, List.getElem?_eq_none h]

end Verif

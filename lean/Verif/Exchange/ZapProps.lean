import Verif.Exchange.TransferProps

/-
C16 for hot zaps: a token transfer whose message asks for swaps and additions of liquidity.
-/

namespace Verif

/-- The amounts a pool took are within what the sender stated: at most the offered amounts, and in a
constant-product pool at least the minimum amounts, which must be given. -/
def AddInfo.Within (i : AddInfo) (isSimple : Bool) (s : ZapStep) : Prop :=
  s.pool = i.pool ∧
  (∀ (k u : Nat), s.used[k]? = some u → ∃ a, i.amounts[k]? = some a ∧ u ≤ a) ∧
  (isSimple = true → ∃ mins, i.minAmounts = some mins ∧
    ∀ (k u m : Nat), s.used[k]? = some u → mins[k]? = some m → m ≤ u) ∧
  (isSimple = false → s.used = i.amounts ∧ i.minShares.isSome = true)

/-- The pool is a constant-product pool. -/
def Pool.isSimple : Pool → Bool
  | .simple _ => true
  | .curve _ => false

/-- The shares the additions to pool `id` must yield at least. -/
def minSharesOf (id : Nat) (is : List AddInfo) : Nat :=
  (is.map fun i => if i.pool = id then i.minShares.getD 0 else 0).sum

theorem Pool.isSimple_of_shape {p q : Pool} (h : q.shape = p.shape) : q.isSimple = p.isSimple := by
  cases p <;> cases q <;> first | rfl | cases h

namespace Contract

/-- The pool with this id is a constant-product pool. -/
def isSimple (c : Contract) (id : Nat) : Bool :=
  match c.pools[id]? with
  | some p => p.isSimple
  | none => false

theorem ZapsTo.within {now : Nat} {sender : AccountId} {c c' : Contract} {i : AddInfo}
    {s : ZapStep} (h : c.ZapsTo now sender i s c') : i.Within (c.isSimple i.pool) s ∧
      (∀ id, c'.isSimple id = c.isSimple id) ∧ ∀ id, c.sharesOf id sender +
        (if i.pool = id ∧ c.isSimple id = false then i.minShares.getD 0 else 0) ≤
          c'.sharesOf id sender := by
  have hz := h.ok
  obtain ⟨p, q, hp, e1, e2, h3, -, rfl⟩ := h
  obtain ⟨p', q', hp', hf, e⟩ := hz
  rw [e1, hp] at hp'
  cases hp'
  have hlt := (List.getElem?_eq_some_iff.1 hp).1
  have hset : c.pools.set i.pool q = c.pools.set i.pool q' := by
    have := congrArg Contract.pools e
    rw [e1] at this; exact this
  have hqq : q = q' := by
    have := congrArg (·[i.pool]?) hset
    simp only [List.getElem?_set_self hlt] at this
    simpa using this
  subst hqq
  have hkind : ∀ id, ({ c with pools := c.pools.set i.pool q } : Contract).isSimple id =
      c.isSimple id := by
    intro id
    unfold isSimple
    by_cases hid : i.pool = id
    · subst hid
      simp only [List.getElem?_set_self hlt, hp]
      exact Pool.isSimple_of_shape hf.shape
    · simp only [List.getElem?_set_ne hid]
  refine ⟨?_, hkind, ?_⟩
  · rw [isSimple, hp]
    simp only
    unfold zapAdd at h3
    split at h3
    · unpack at h3
      obtain ⟨q', used', n, h1, mins, hm, _, hc, rfl, rfl⟩ := h3
      refine ⟨e1, fun k u hu => Pool.addLiquidity_used h1 k u hu, fun _ => ⟨mins, hm, ?_⟩,
        fun h => by cases h⟩
      intro k u m hu hm
      exact checkMins_ok hc k u m hu hm
    · unpack at h3
      obtain ⟨m, hm, q', n, h1, rfl, hu⟩ := h3
      exact ⟨e1, fun k u hk => ⟨u, hu ▸ hk, Nat.le_refl _⟩, (fun h => by cases h),
        fun _ => ⟨hu.symm, by rw [hm]; rfl⟩⟩
  · intro id
    simp only [sharesOf_eq, sharesIn_set hp]
    by_cases hid : i.pool = id
    · subst hid
      simp only [if_true, sharesIn_some hp, true_and]
      rw [isSimple, hp]
      simp only
      unfold zapAdd at h3
      split at h3
      · rw [if_neg (by simp [Pool.isSimple])]
        exact hf.shares sender
      · unpack at h3
        obtain ⟨m, hm, q', n, h1, rfl, -⟩ := h3
        rw [if_pos (show (Pool.curve _).isSimple = false from rfl), hm]
        have h4 := (Pool.addStable_shares h1).1 sender
        have h5 := (Pool.addStable_shape h1).2.2.2
        rw [if_pos rfl] at h4
        simp only [Option.getD_some]
        omega
    · rw [if_neg (fun h => hid h.1), if_neg (fun h => hid h.symm)]
      exact Nat.le_refl _

theorem _root_.Verif.Zaps.within {now : Nat} {sender : AccountId} {c c' : Contract}
    {is : List AddInfo} {steps : List ZapStep} (h : Zaps now sender c is steps c') :
    List.Forall₂ (fun i s => i.Within (c.isSimple i.pool) s) is steps ∧
    ∀ id, c.isSimple id = false → c.sharesOf id sender + minSharesOf id is ≤ c'.sharesOf id sender := by
  induction h with
  | nil => exact ⟨.nil, fun _ _ => Nat.le_refl _⟩
  | cons h _ ih =>
    obtain ⟨h1, h2, h3⟩ := h.within
    obtain ⟨i1, i2⟩ := ih
    refine ⟨.cons h1 (by simpa only [h2] using i1), fun id hid => ?_⟩
    have := i2 id ((h2 id).trans hid)
    have h4 := h3 id
    simp only [hid, and_true] at h4
    simp only [minSharesOf, List.map_cons, List.sum_cons] at this ⊢
    omega

theorem _root_.Verif.Swaps.shares_le {now : Nat} {ref : Option (AccountId × Nat)} {c c' : Contract}
    {steps : List SwapStep} (h : Swaps now ref c steps c') (id : Nat) (a : AccountId) :
    c.sharesOf id a ≤ c'.sharesOf id a ∧ c'.isSimple id = c.isSimple id := by
  induction h with
  | nil => exact ⟨Nat.le_refl _, rfl⟩
  | cons h _ ih =>
    obtain ⟨tw, vs, p, q, hp, ht, -, rfl⟩ := h.ok
    refine ⟨Nat.le_trans ?_ ih.1, ih.2.trans ?_⟩
    · simp only [sharesOf_eq, sharesIn_set hp]
      split
      · rename_i e; subst e
        rw [sharesIn_some hp]; exact ht.shares a
      · exact Nat.le_refl _
    · have hlt := (List.getElem?_eq_some_iff.1 hp).1
      unfold isSimple
      rename_i s _ _
      by_cases hid : s.pool = id
      · subst hid
        simp only [List.getElem?_set_self hlt, hp]
        exact Pool.isSimple_of_shape ht.shape
      · simp only [List.getElem?_set_ne hid]

/-- **C16** for a hot zap: the swaps stay within their bounds, every pool takes amounts between the
stated minimum and the offered ones, a stable-swap pool yields at least the stated shares, and what
is left is credited to the sender to the unit. Nobody else's deposit changes. -/
theorem C16_hot_zap {c c' : Contract} {x : Ctx} {sender : AccountId} {amount : Nat}
    {referral : Option AccountId} {actions : List Action} {infos : List AddInfo} {outs : List Out}
    (h : c.exec x (.ftOnTransfer sender amount (.hotZap referral actions infos)) = .ok (c', outs)) :
    ∃ steps zaps c1, Swaps x.now (c.referralInfo referral) c steps c1 ∧
      List.Forall₂ Action.Bounds actions steps ∧
      List.Forall₂ (fun i s => i.Within (c.isSimple i.pool) s) infos zaps ∧
      (∀ id, c.isSimple id = false →
        c.sharesOf id sender + minSharesOf id infos ≤ c'.sharesOf id sender) ∧
      (∀ t, c'.depositOf sender t + zapped zaps t + paidIn steps t = c.depositOf sender t +
        (if x.pred = t then amount else 0) + paidOut steps t) ∧
      (∀ b t, b ≠ sender → c'.depositOf b t = c.depositOf b t) ∧ outs = [] := by
  simp only [exec] at h
  obtain ⟨-, -, ⟨hd, -⟩ | ⟨_, _, _, _, _, hd, -⟩ | ⟨_, _, _, hd, ho, h2⟩⟩ := ftOnTransfer_inv h <;>
    cases hd
  obtain ⟨acc, ts, left, c1, zaps, c2, rest, acc', -, -, ha, -, -, -, hsw, hz, hrest, -,
    ⟨acc0, e1, -, -, h4⟩, -, rfl⟩ := hotZap_inv h2
  obtain ⟨steps, _, _, hs, hf, -, hb, -⟩ := directActions_ok hsw
  obtain ⟨w1, w2⟩ := hz.within
  refine ⟨steps, zaps, c1, hs, hf.bounds, ?_, ?_, ?_, ?_, ho⟩
  · have : ∀ id, c1.isSimple id = c.isSimple id := fun id => (hs.shares_le id sender).2
    simpa only [this] using w1
  · intro id hid
    obtain ⟨s1, s2⟩ := hs.shares_le id sender
    have := w2 id (s2.trans hid)
    show _ ≤ c2.sharesOf id sender
    omega
  · intro t
    have h5 := (Account.depositPairs_ok h4).2.1 t
    have h6 : acc0.bal t = acc.bal t := Account.bal_congr e1 t
    have h7 := hrest t
    have h8 := hb t
    simp only [depositOf_eq, putAccount, balIn_insert, if_true, balIn_some ha]
    omega
  · intro b t hb
    simp only [depositOf_eq, putAccount, balIn_insert, if_neg hb, hz.framed.1.accounts,
      hs.framed.accounts]

open Demo

/-- Alice sends 2000 of A, swaps 1000 of them for B and adds both to the pool; the rest is
credited. With a minimum that cannot be met the whole transfer is refused. -/
example : (c1.exec (by' A) (.ftOnTransfer al 2000 (.hotZap none [.swap ⟨0, A, some 1000, B, 1⟩]
      [⟨0, [900, 3700], some [800, 3000], none⟩]))).holds
      (fun r => c1.depositOf al A < r.1.depositOf al A ∧ c1.depositOf al B < r.1.depositOf al B ∧
        c1.sharesOf 0 al < r.1.sharesOf 0 al) = true ∧
    (c1.exec (by' A) (.ftOnTransfer al 2000 (.hotZap none [.swap ⟨0, A, some 1000, B, 1⟩]
      [⟨0, [900, 3700], some [899, 3700], none⟩]))).holds (fun _ => true) = false := by
  decide +kernel

end Contract

end Verif

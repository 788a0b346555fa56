import Verif.Exchange.AccountLemmas

/-
What the swap engine does: single swaps, lists of actions, the virtual account.
-/

namespace Verif

/-- What a swap does to its pool. -/
structure Pool.Traded (p q : Pool) (s : SwapStep) : Prop where
  shape : q.shape = p.shape
  fee : q.totalFee = p.totalFee
  ne : s.tokIn ≠ s.tokOut
  memIn : s.tokIn ∈ p.tokens
  memOut : s.tokOut ∈ p.tokens
  shares : ∀ x, p.shareBalance x ≤ q.shareBalance x
  regs : ∀ x, p.shareRegistered x = true → q.shareRegistered x = true
  sound : p.Sound → q.Sound
  atoms : p.Sound → ∀ t, q.atoms t + (if s.tokOut = t then s.amtOut * ATOMS else 0) ≤
    p.atoms t + (if s.tokIn = t then s.amtIn * ATOMS else 0)

namespace Contract

theorem pool_ok {c : Contract} {id : Nat} {p : Pool} : c.pool id = .ok p ↔ c.pools[id]? = some p :=
  expectE_ok

theorem account_ok {c : Contract} {a : AccountId} {acc : Account} :
    c.account a = .ok acc ↔ c.accounts.get? a = some acc := expectE_ok

theorem saveAccount_ok {c c' : Contract} {a : AccountId} {acc : Account} :
    c.saveAccount a acc = .ok c' ↔ acc.storageUsage ≤ acc.near ∧ c' = c.putAccount a acc := by
  unfold saveAccount
  simp only [bind_ok, assertE_ok, Except.ok.injEq, exists_const]
  constructor <;> rintro ⟨h1, h2⟩ <;> exact ⟨h1, h2.symm⟩

theorem twapHook_ok {c c' : Contract} {now id : Nat} (h : c.twapHook now id = .ok c') :
    ∃ tw, c' = { c with twaps := tw } := by
  unfold twapHook at h
  split at h
  · cases h; exact ⟨c.twaps, rfl⟩
  · unpack at h
    obtain ⟨p, -, unit, -, h⟩ := h
    split at h
    · cases h; exact ⟨c.twaps, rfl⟩
    · unpack at h
      obtain ⟨u', -, rfl⟩ := h
      exact ⟨_, rfl⟩

theorem recordVolume_ok {c c' : Contract} {id a out : Nat} {p : Pool} {ti tout : AccountId}
    {vols : List (Nat × Nat)} (h : c.recordVolume id p ti tout a out vols = .ok c') :
    ∃ vs, c' = { c with volumes := vs } := by
  unfold recordVolume at h
  unpack at h
  obtain ⟨_, -, _, -, _, _, -, -, _, _, -, -, rfl⟩ := h
  exact ⟨_, rfl⟩

theorem poolSwap_ok {c c' : Contract} {now id a minOut out : Nat} {ref : Option (AccountId × Nat)}
    {ti tout : AccountId} (h : c.poolSwap now ref id ti a tout minOut = .ok (c', out)) :
    ∃ tw vs p q, c.pools[id]? = some p ∧
      p.swap ti a tout minOut (c.fees ref) (c.cfg.env now p) false = .ok (q, out) ∧
      ({ c with twaps := tw } : Contract).recordVolume id q ti tout a out (c.volumesOf id p) =
        .ok { c with twaps := tw, volumes := vs } ∧
      c' = { c with twaps := tw, volumes := vs, pools := c.pools.set id q } := by
  unfold poolSwap at h
  unpack at h
  obtain ⟨c1, h1, p, hp, q, _, hs, c2, h2, rfl, rfl⟩ := h
  obtain ⟨tw, rfl⟩ := twapHook_ok h1
  obtain ⟨vs, rfl⟩ := recordVolume_ok h2
  exact ⟨tw, vs, p, q, pool_ok.1 hp, hs, h2, rfl⟩

theorem poolSwapByOutput_ok {c c' : Contract} {now id a out : Nat}
    {ref : Option (AccountId × Nat)} {ti tout : AccountId} {maxIn : Option Nat}
    (h : c.poolSwapByOutput now ref id ti out tout maxIn = .ok (c', a)) :
    ∃ tw vs p q, c.pools[id]? = some p ∧
      p.swapByOutput ti out tout maxIn (c.fees ref) false = .ok (q, a) ∧
      ({ c with twaps := tw } : Contract).recordVolume id q ti tout a out (c.volumesOf id p) =
        .ok { c with twaps := tw, volumes := vs } ∧
      c' = { c with twaps := tw, volumes := vs, pools := c.pools.set id q } := by
  unfold poolSwapByOutput at h
  unpack at h
  obtain ⟨c1, h1, p, hp, q, _, hs, c2, h2, rfl, rfl⟩ := h
  obtain ⟨tw, rfl⟩ := twapHook_ok h1
  obtain ⟨vs, rfl⟩ := recordVolume_ok h2
  exact ⟨tw, vs, p, q, pool_ok.1 hp, hs, h2, rfl⟩

/-- One swap changes one pool, the volumes and the price records. -/
theorem SwapsTo.ok {now : Nat} {ref : Option (AccountId × Nat)} {c c' : Contract} {s : SwapStep}
    (h : c.SwapsTo now ref s c') :
    ∃ tw vs p q, c.pools[s.pool]? = some p ∧ p.Traded q s ∧
      ({ c with twaps := tw } : Contract).recordVolume s.pool q s.tokIn s.tokOut s.amtIn s.amtOut
        (c.volumesOf s.pool p) = .ok { c with twaps := tw, volumes := vs } ∧
      c' = { c with twaps := tw, volumes := vs, pools := c.pools.set s.pool q } := by
  rcases h with ⟨m, h⟩ | ⟨m, h⟩
  · obtain ⟨tw, vs, p, q, hp, hs, hv, rfl⟩ := poolSwap_ok h
    obtain ⟨h1, h2, h3, h4, h5, -⟩ := Pool.swap_shape hs
    have h6 := Pool.swap_shares hs
    exact ⟨tw, vs, p, q, hp, ⟨h1, h2, h3, h4, h5, h6.1, h6.2, fun hp => hp.swap hs,
      fun hp t => Pool.swap_atoms hp hs t⟩, hv, rfl⟩
  · obtain ⟨tw, vs, p, q, hp, hs, hv, rfl⟩ := poolSwapByOutput_ok h
    obtain ⟨h1, h2, h3, h4, h5, -⟩ := Pool.swapByOutput_shape hs
    have h6 := Pool.swapByOutput_shares hs
    exact ⟨tw, vs, p, q, hp, ⟨h1, h2, h3, h4, h5, h6.1, h6.2, fun hp => hp.swapByOutput hs,
      fun hp t => Pool.swapByOutput_atoms hp hs t⟩, hv, rfl⟩

end Contract

/-- What a list of swaps leaves alone. -/
structure Contract.Framed (c c' : Contract) : Prop where
  self : c'.self = c.self
  cfg : c'.cfg = c.cfg
  accounts : c'.accounts = c.accounts
  lostfound : c'.lostfound = c.lostfound
  length : c'.pools.length = c.pools.length

theorem Contract.Framed.rfl' (c : Contract) : c.Framed c := ⟨rfl, rfl, rfl, rfl, rfl⟩

theorem Contract.Framed.trans {a b c : Contract} (h : a.Framed b) (g : b.Framed c) : a.Framed c :=
  ⟨g.self.trans h.self, g.cfg.trans h.cfg, g.accounts.trans h.accounts,
    g.lostfound.trans h.lostfound, g.length.trans h.length⟩

theorem Contract.SwapsTo.framed {now : Nat} {ref : Option (AccountId × Nat)} {c c' : Contract}
    {s : SwapStep} (h : c.SwapsTo now ref s c') : c.Framed c' := by
  obtain ⟨tw, vs, p, q, -, -, -, rfl⟩ := h.ok
  exact ⟨rfl, rfl, rfl, rfl, by simp⟩

theorem Swaps.framed {now : Nat} {ref : Option (AccountId × Nat)} {c c' : Contract}
    {steps : List SwapStep} (h : Swaps now ref c steps c') : c.Framed c' := by
  induction h with
  | nil c => exact .rfl' c
  | cons h1 _ ih => exact h1.framed.trans ih

theorem Swaps.append {now : Nat} {ref : Option (AccountId × Nat)} {c c1 c2 : Contract}
    {s1 s2 : List SwapStep} (h1 : Swaps now ref c s1 c1) (h2 : Swaps now ref c1 s2 c2) :
    Swaps now ref c (s1 ++ s2) c2 := by
  induction h1 with
  | nil c => exact h2
  | cons h _ ih => exact .cons h (ih h2)

/-- A property of the state that every single swap preserves is preserved by a list of swaps. -/
theorem Swaps.induct {now : Nat} {ref : Option (AccountId × Nat)} {P : Contract → Prop}
    (hs : ∀ c s c', P c → c.SwapsTo now ref s c' → P c') {c c' : Contract}
    {steps : List SwapStep} (h : Swaps now ref c steps c') (h0 : P c) : P c' := by
  induction h with
  | nil c => exact h0
  | cons h1 _ ih => exact ih (hs _ _ _ h0 h1)

@[simp] theorem paidIn_cons (s : SwapStep) (l : List SwapStep) (t : AccountId) :
    paidIn (s :: l) t = (if s.tokIn = t then s.amtIn else 0) + paidIn l t := rfl
@[simp] theorem paidOut_cons (s : SwapStep) (l : List SwapStep) (t : AccountId) :
    paidOut (s :: l) t = (if s.tokOut = t then s.amtOut else 0) + paidOut l t := rfl
@[simp] theorem paidIn_nil (t : AccountId) : paidIn [] t = 0 := rfl
@[simp] theorem paidOut_nil (t : AccountId) : paidOut [] t = 0 := rfl

namespace Contract

theorem amountOr_ok {own : Option Nat} {prev : ActionResult} {n : Nat}
    (h : amountOr own prev = .ok n) : own = some n ∨ own = none ∧ prev = some n := by
  unfold amountOr at h
  split at h
  · cases h; exact .inl rfl
  · unpack at h; exact .inr ⟨rfl, h⟩

theorem runSwaps_ok {now : Nat} {ref : Option (AccountId × Nat)} : ∀ {l : List SwapAction}
    {c c' : Contract} {acc acc' : Account} {prev res : ActionResult},
    c.runSwaps now ref acc prev l = .ok (c', acc', res) →
    ∃ steps, Swaps now ref c steps c' ∧ Follows prev (l.map .swap) steps res ∧
      Account.Same acc acc' ∧ (∀ t, acc'.bal t + paidIn steps t = acc.bal t + paidOut steps t) ∧
      (∀ t, t ∉ Action.tokensOf (l.map .swap) → acc'.registered t = acc.registered t) := by
  intro l
  induction l with
  | nil =>
    intro c c' acc acc' prev res h
    simp only [runSwaps, Except.ok.injEq, Prod.mk.injEq] at h
    obtain ⟨rfl, rfl, rfl⟩ := h
    exact ⟨[], .nil _, rfl, .rfl' _, by simp, fun _ _ => rfl⟩
  | cons a l ih =>
    intro c c' acc acc' prev res h
    unfold runSwaps at h
    unpack at h
    obtain ⟨n, hn, acc1, h1, c1, out, h2, acc2, h3, h4⟩ := h
    obtain ⟨steps, hs, hf, hsame, hb, hr⟩ := ih h4
    obtain ⟨s1, -, b1, r1⟩ := Account.withdraw_ok h1
    obtain ⟨s2, b2, -, r2, -⟩ := Account.deposit_ok h3
    have hmin : a.minOut ≤ out := by
      obtain ⟨_, _, p, q, -, hsw, -⟩ := poolSwap_ok h2
      exact (Pool.swap_shape hsw).2.2.2.2.2
    refine ⟨⟨a.pool, a.tokIn, n, a.tokOut, out⟩ :: steps, .cons (.inl ⟨_, h2⟩) hs, ?_,
      s1.trans (s2.trans hsame), ?_, ?_⟩
    · exact ⟨rfl, rfl, rfl, amountOr_ok hn, hmin, hf⟩
    · intro t
      have e0 := b1 t
      have e1 := b2 t
      have e2 := hb t
      simp only [paidIn_cons, paidOut_cons]
      omega
    · intro t ht
      simp only [List.map_cons, Action.tokensOf, List.flatMap_cons, Action.tokens, List.mem_append,
        List.mem_cons, not_or] at ht
      rw [hr t (by simpa [Action.tokensOf] using ht.2), r2 t ht.1.2.1, r1]

/-- What is still to be paid for the chain in progress. -/
def debt (prevIn : Option AccountId) (res : ActionResult) (t : AccountId) : Nat :=
  if prevIn = some t then res.getD 0 else 0

theorem finalize_ok {acc acc' : Account} {prevIn : Option AccountId} {res : ActionResult}
    (h : finalize acc prevIn res = .ok acc') :
    Account.Same acc acc' ∧ (∀ t, acc'.bal t + debt prevIn res t = acc.bal t) ∧
    (∀ t, acc'.registered t = acc.registered t) := by
  unfold finalize at h
  split at h
  · cases h; exact ⟨.rfl' _, by simp [debt], fun _ => rfl⟩
  · unpack at h
    obtain ⟨a, rfl, h⟩ := h
    obtain ⟨s, -, b, r⟩ := Account.withdraw_ok h
    refine ⟨s, ?_, r⟩
    intro t
    have := b t
    simp only [debt, Option.some.injEq, Option.getD_some]
    exact this

theorem startOut_ok {acc acc' : Account} {prevIn : Option AccountId} {res : ActionResult}
    {s : OutAction} {out : Nat} (h : startOut acc prevIn res s = .ok acc')
    (ho : amountOr s.amtOut res = .ok out) :
    Account.Same acc acc' ∧
    (∀ t, acc'.bal t + debt prevIn res t = acc.bal t + if s.tokOut = t then out else 0) ∧
    (∀ t, t ≠ s.tokOut → acc'.registered t = acc.registered t) := by
  unfold startOut at h
  cases hs : s.amtOut with
  | some n =>
    rw [hs] at h ho
    unpack at h
    obtain ⟨acc1, h1, h2⟩ := h
    cases ho
    obtain ⟨s1, b1, r1⟩ := finalize_ok h1
    obtain ⟨s2, b2, -, r2, -⟩ := Account.deposit_ok h2
    refine ⟨s1.trans s2, ?_, fun t ht => (r2 t ht).trans (r1 t)⟩
    intro t
    have e1 := b1 t
    have e2 := b2 t
    omega
  | none =>
    rw [hs] at h ho
    unpack at h
    obtain ⟨t', rfl, rfl, rfl⟩ := h
    have hres : res = some out := by
      rcases amountOr_ok ho with h | ⟨-, h⟩
      · cases h
      · exact h
    refine ⟨.rfl' _, ?_, fun _ _ => rfl⟩
    intro t
    simp [debt, hres]

theorem runOuts_ok {now : Nat} {ref : Option (AccountId × Nat)} : ∀ {l : List OutAction}
    {c c' : Contract} {acc acc' : Account} {prevIn : Option AccountId} {prev res : ActionResult},
    c.runOuts now ref acc prevIn prev l = .ok (c', acc', res) →
    ∃ steps, Swaps now ref c steps c' ∧ Follows prev (l.map .byOutput) steps res ∧
      Account.Same acc acc' ∧
      (∀ t, acc'.bal t + paidIn steps t + debt prevIn prev t = acc.bal t + paidOut steps t) ∧
      (∀ t, t ∉ Action.tokensOf (l.map .byOutput) → acc'.registered t = acc.registered t) := by
  intro l
  induction l with
  | nil =>
    intro c c' acc acc' prevIn prev res h
    unfold runOuts at h
    unpack at h
    obtain ⟨acc1, h1, rfl, rfl, rfl⟩ := h
    obtain ⟨s1, b1, r1⟩ := finalize_ok h1
    exact ⟨[], .nil _, rfl, s1, by simpa using b1, fun t _ => r1 t⟩
  | cons a l ih =>
    intro c c' acc acc' prevIn prev res h
    unfold runOuts at h
    unpack at h
    obtain ⟨acc1, h1, out, hn, c1, inn, h2, h4⟩ := h
    obtain ⟨steps, hs, hf, hsame, hb, hr⟩ := ih h4
    obtain ⟨s1, b1, r1⟩ := startOut_ok h1 hn
    have hmax : ∀ m, a.maxIn = some m → inn ≤ m := by
      obtain ⟨_, _, p, q, -, hsw, -⟩ := poolSwapByOutput_ok h2
      exact (Pool.swapByOutput_shape hsw).2.2.2.2.2
    refine ⟨⟨a.pool, a.tokIn, inn, a.tokOut, out⟩ :: steps, .cons (.inr ⟨_, h2⟩) hs, ?_,
      s1.trans hsame, ?_, ?_⟩
    · exact ⟨rfl, rfl, rfl, amountOr_ok hn, hmax, hf⟩
    · intro t
      have e1 := b1 t
      have e2 := hb t
      have e3 : debt (some a.tokIn) (some inn) t = if a.tokIn = t then inn else 0 := by
        simp [debt]
      simp only [paidIn_cons, paidOut_cons]
      omega
    · intro t ht
      simp only [List.map_cons, Action.tokensOf, List.flatMap_cons, Action.tokens, List.mem_append,
        List.mem_cons, not_or] at ht
      rw [hr t (by simpa [Action.tokensOf] using ht.2), r1 t ht.1.2.1]

theorem filterMap_asSwap : ∀ {l : List Action}, Action.allSwap l = true →
    (l.filterMap Action.asSwap).map Action.swap = l := by
  intro l
  induction l with
  | nil => intro _; rfl
  | cons a l ih =>
    intro h
    simp only [Action.allSwap, List.all_cons, Bool.and_eq_true] at h
    cases a with
    | swap s => simpa [Action.asSwap] using ih h.2
    | byOutput s => simp [Action.asSwap] at h

theorem filterMap_asOut : ∀ {l : List Action}, Action.allOut l = true →
    (l.filterMap Action.asOut).map Action.byOutput = l := by
  intro l
  induction l with
  | nil => intro _; rfl
  | cons a l ih =>
    intro h
    simp only [Action.allOut, List.all_cons, Bool.and_eq_true] at h
    cases a with
    | byOutput s => simpa [Action.asOut] using ih h.2
    | swap s => simp [Action.asOut] at h

/-- A list of actions is a list of swaps, and the account moves by their inputs and outputs. -/
theorem runActions_ok {c c' : Contract} {now : Nat} {ref : Option (AccountId × Nat)}
    {acc acc' : Account} {prev res : ActionResult} {actions : List Action}
    (h : c.runActions now ref acc prev actions = .ok (c', acc', res)) :
    ∃ steps, Swaps now ref c steps c' ∧ Follows prev actions steps res ∧
      Account.Same acc acc' ∧ (∀ t, acc'.bal t + paidIn steps t = acc.bal t + paidOut steps t) ∧
      (∀ t, t ∉ Action.tokensOf actions → acc'.registered t = acc.registered t) ∧
      (∀ t ∈ Action.tokensOf actions, t ∉ c.cfg.frozen) ∧
      (Action.allSwap actions = true ∨ Action.allOut actions = true) := by
  unfold runActions Config.assertNoFrozen at h
  unpack at h
  obtain ⟨hk, hf, h⟩ := h
  split at h
  · cases h
  · rename_i a l
    have hall : Action.allSwap (.swap a :: l) = true := by
      rcases hk with h | h
      · exact h
      · simp [Action.allOut, Action.asOut] at h
    obtain ⟨steps, hs, hfo, hsame, hb, hr⟩ := runSwaps_ok h
    rw [filterMap_asSwap hall] at hfo hr
    exact ⟨steps, hs, hfo, hsame, hb, hr, hf, hk⟩
  · rename_i a l
    have hall : Action.allOut (.byOutput a :: l) = true := by
      rcases hk with h | h
      · simp [Action.allSwap, Action.asSwap] at h
      · exact h
    obtain ⟨steps, hs, hfo, hsame, hb, hr⟩ := runOuts_ok h
    rw [filterMap_asOut hall] at hfo hr
    exact ⟨steps, hs, hfo, hsame, by simpa [debt] using hb, hr, hf, hk⟩

/-- The swaps of an instant swap, and what is left afterwards. -/
theorem directActions_ok {c c' : Contract} {now amountIn' : Nat} {ref : Option AccountId}
    {tokenIn : AccountId} {actions : List Action} {left : List (AccountId × Nat)}
    (h : c.directActions now ref tokenIn amountIn' actions = .ok (c', left)) :
    ∃ steps prev res, Swaps now (c.referralInfo ref) c steps c' ∧
      Follows prev actions steps res ∧
      (Action.allSwap actions = true → prev = some amountIn') ∧
      (∀ t, amountIn left t + paidIn steps t =
        (if tokenIn = t then amountIn' else 0) + paidOut steps t) ∧
      (∀ t ∈ Action.tokensOf actions, t ∉ c.cfg.frozen) := by
  unfold directActions at h
  unpack at h
  obtain ⟨acc, h1, prev, hp, c1, acc1, res, h2, rfl, rfl⟩ := h
  obtain ⟨steps, hs, hf, -, hb, -, hfr, -⟩ := runActions_ok h2
  obtain ⟨-, b1, -⟩ := Account.deposit_ok h1
  refine ⟨steps, prev, res, hs, hf, ?_, ?_, hfr⟩
  · intro hall
    split at hp
    · cases hp
    · cases hp; rfl
    · simp [Action.allSwap, Action.asSwap] at hall
  · intro t
    have e1 := b1 t
    have e2 := hb t
    have e3 : Account.new.bal t = 0 := rfl
    rw [Account.amountIn_positive]
    omega

end Contract
end Verif

import Verif.Exchange.CfgLemmas
import Verif.Exchange.Demo

/-
Properties of swaps and liquidity calls as a caller sees them: C16 (slippage), C17 (lists of
actions), C30 (swaps on a token transfer).
-/

namespace Verif

open Demo

/-! ### Vocabulary -/

/-- The executed swap is within the bound the action states: the minimum output, or the maximum
input of a swap by output. -/
def Action.Bounds : Action → SwapStep → Prop
  | .swap a, s => s.tokIn = a.tokIn ∧ s.tokOut = a.tokOut ∧ s.pool = a.pool ∧ a.minOut ≤ s.amtOut
  | .byOutput a, s => s.tokIn = a.tokIn ∧ s.tokOut = a.tokOut ∧ s.pool = a.pool ∧
      ∀ m, a.maxIn = some m → s.amtIn ≤ m

/-- The list of actions a call executes. -/
def Call.actions : Call → Option (List Action)
  | .executeActions as _ => some as
  | .executeInVa _ as _ => some as
  | .ftOnTransfer _ _ (.execute _ as _ _ _) => some as
  | .ftOnTransfer _ _ (.hotZap _ as _) => some as
  | _ => none

/-- The token and amount a promise takes out of the contract. -/
def Out.pays : Out → AccountId → Nat
  | .ft u _ n, t | .ftCall u _ n, t | .unwrap u _ n, t | .ftPlain u _ n, t => if u = t then n else 0
  | _, _ => 0

/-- The receiver of an outgoing token transfer. -/
def Out.receiver : Out → Option AccountId
  | .ft _ a _ | .ftCall _ a _ | .unwrap _ a _ | .ftPlain _ a _ => some a
  | _ => none

/-- What a list of promises takes out of the contract. -/
def paysOut (outs : List Out) (t : AccountId) : Nat := (outs.map fun o => o.pays t).sum

theorem Follows.bounds : ∀ {actions : List Action} {steps : List SwapStep} {prev res : ActionResult},
    Follows prev actions steps res → List.Forall₂ Action.Bounds actions steps
  | [], [], _, _, _ => .nil
  | .swap a :: as, s :: ss, _, _, h => by
    obtain ⟨h1, h2, h3, -, h4, h5⟩ := h
    exact .cons ⟨h2, h3, h1, h4⟩ h5.bounds
  | .byOutput a :: as, s :: ss, _, _, h => by
    obtain ⟨h1, h2, h3, -, h4, h5⟩ := h
    exact .cons ⟨h2, h3, h1, h4⟩ h5.bounds
  | [], _ :: _, _, _, h => by cases h
  | .swap _ :: _, [], _, _, h => by cases h
  | .byOutput _ :: _, [], _, _, h => by cases h

namespace Contract

/-! ### C17: lists of actions -/

/-- C17: a successful `execute_actions` (also `swap`, `swap_by_output`) executes every action, in
order, each on the pools the previous ones left; the caller's deposits change exactly by the
inputs and outputs, nobody else's deposit changes. -/
theorem C17_execute_actions {c c' : Contract} {x : Ctx} {actions : List Action}
    {referral : Option AccountId} {outs : List Out}
    (h : c.exec x (.executeActions actions referral) = .ok (c', outs)) :
    ∃ steps res c1, Swaps x.now (c.referralInfo referral) c steps c1 ∧ c'.pools = c1.pools ∧
      Follows none actions steps res ∧ steps.length = actions.length ∧ outs = [] ∧
      (∀ t, c'.depositOf x.pred t + paidIn steps t = c.depositOf x.pred t + paidOut steps t) ∧
      (∀ b t, b ≠ x.pred → c'.depositOf b t = c.depositOf b t) ∧
      (∀ b t, c'.lostOf b t = c.lostOf b t) := by
  simp only [exec] at h
  unpack at h; obtain ⟨_, _, h, rfl, rfl⟩ := h
  obtain ⟨acc, acc', c1, -, -, h1, -, h2, -, rfl⟩ := executeActions_inv h
  obtain ⟨steps, hs, hf, -, hb, -⟩ := runActions_ok h2
  refine ⟨steps, _, c1, hs, rfl, hf, hf.bounds.length_eq.symm, rfl, ?_, ?_, ?_⟩
  · intro t
    simp only [depositOf_eq, putAccount, balIn_insert, if_true, balIn_some h1]
    exact hb t
  · intro b t hb
    simp only [depositOf_eq, putAccount, balIn_insert, if_neg hb, hs.framed.accounts]
  · intro b t
    simp only [lostOf, putAccount, hs.framed.lostfound]

/-- C17 for `execute_actions_in_va`: the same, and the swaps can use only the tokens set aside for
them and what they produce. -/
theorem C17_execute_in_va {c c' : Contract} {x : Ctx} {uses : List (AccountId × Nat)}
    {actions : List Action} {referral : Option AccountId} {outs : List Out}
    (h : c.exec x (.executeInVa uses actions referral) = .ok (c', outs)) :
    ∃ steps res c1, Swaps x.now (c.referralInfo referral) c steps c1 ∧ c'.pools = c1.pools ∧
      Follows none actions steps res ∧ steps.length = actions.length ∧ outs = [] ∧
      (∀ t, amountIn uses t ≤ c.depositOf x.pred t) ∧
      (∀ t, paidIn steps t ≤ amountIn uses t + paidOut steps t) ∧
      (∀ t, c'.depositOf x.pred t + paidIn steps t = c.depositOf x.pred t + paidOut steps t) ∧
      (∀ b t, b ≠ x.pred → c'.depositOf b t = c.depositOf b t) ∧
      (∀ b t, c'.lostOf b t = c.lostOf b t) := by
  simp only [exec] at h
  unpack at h; obtain ⟨_, _, h, rfl, rfl⟩ := h
  obtain ⟨acc, acc1, virt, virt', acc', c1, _, -, -, h1, -, hu, h2, -, h3, -, rfl⟩ :=
    executeInVa_inv h
  obtain ⟨steps, hs, hf, -, hb, -⟩ := runActions_ok h2
  obtain ⟨-, -, e1, e2, -⟩ := useTokens_ok hu
  have e3 := (Account.depositPairs_ok h3).2.1
  have e0 : ∀ t, Account.new.bal t = 0 := fun _ => rfl
  refine ⟨steps, _, c1, hs, rfl, hf, hf.bounds.length_eq.symm, rfl, ?_, ?_, ?_, ?_, ?_⟩
  · intro t
    rw [depositOf_eq, balIn_some h1]
    have := e1 t; omega
  · intro t
    have a1 := hb t; have a2 := e2 t; rw [e0] at a2; omega
  · intro t
    simp only [depositOf_eq, putAccount, balIn_insert, if_true, balIn_some h1]
    have a1 := hb t; have a2 := e1 t; have a3 := e2 t; have a4 := e3 t
    rw [e0] at a3; rw [Account.amountIn_positive] at a4
    omega
  · intro b t hb
    simp only [depositOf_eq, putAccount, balIn_insert, if_neg hb, hs.framed.accounts]
  · intro b t
    simp only [lostOf, putAccount, hs.framed.lostfound]

/-- C17, C16: a call that fails leaves no trace, whichever step failed. -/
theorem C17_atomic (c : Contract) (e : Event) (err : Err) (h : c.apply e = .error err) :
    c.step e = c := by simp [step, h]

/-! ### C16: slippage -/

/-- C16 for swaps, however they are started: every action of a successful call was executed within
its minimum output or maximum input. -/
theorem C16_swaps {c c' : Contract} {x : Ctx} {k : Call} {actions : List Action} {outs : List Out}
    (ha : k.actions = some actions) (h : c.exec x k = .ok (c', outs)) :
    ∃ ref steps c1, Swaps x.now ref c steps c1 ∧ List.Forall₂ Action.Bounds actions steps := by
  cases k <;> simp only [Call.actions] at ha <;> try cases ha
  case executeActions =>
    obtain ⟨steps, _, c1, hs, -, hf, -⟩ := C17_execute_actions h
    exact ⟨_, steps, c1, hs, hf.bounds⟩
  case executeInVa =>
    obtain ⟨steps, _, c1, hs, -, hf, -⟩ := C17_execute_in_va h
    exact ⟨_, steps, c1, hs, hf.bounds⟩
  case ftOnTransfer sender amount msg =>
    obtain ⟨-, -, ⟨rfl, -⟩ | ⟨_, _, _, _, _, rfl, h2⟩ | ⟨_, _, _, rfl, -, h2⟩⟩ := ftOnTransfer_inv h
    · cases ha
    · cases ha
      obtain ⟨_, -, -, -, h, -⟩ := instantSwap_inv h2
      obtain ⟨steps, _, _, hs, hf, -⟩ := directActions_ok h
      exact ⟨_, steps, _, hs, hf.bounds⟩
    · cases ha
      obtain ⟨_, _, _, c1, _, _, _, _, -, -, -, -, -, -, h, -⟩ := hotZap_inv h2
      obtain ⟨steps, _, _, hs, hf, -⟩ := directActions_ok h
      exact ⟨_, steps, c1, hs, hf.bounds⟩

/-- What a simple pool takes is at most what is offered. -/
theorem _root_.Verif.Pool.addLiquidity_used {p q : Pool} {s : AccountId} {am used : List Nat}
    {n : Nat} (h : p.addLiquidity s am false = .ok (q, used, n)) :
    ∀ (i u : Nat), used[i]? = some u → ∃ a, am[i]? = some a ∧ u ≤ a := by
  replace h := Pool.addLiquidity_simple h
  obtain ⟨p, q, rfl, rfl, h⟩ := h
  obtain ⟨a0, a1, b0, b1, rfl, rfl, -⟩ := addLiquidity_ok h
  have hle : b0 ≤ a0 ∧ b1 ≤ a1 := by
    by_cases hs : 0 < p.supply
    · obtain ⟨_, _, e, -, g0, -, g1, -⟩ := C06_add_liquidity hs h
      simp only [List.cons.injEq] at e
      obtain ⟨rfl, rfl, -⟩ := e
      exact ⟨g0, g1⟩
    · have := (C06_first_deposit (by omega) h).1
      simp only [List.cons.injEq] at this
      obtain ⟨rfl, rfl, -⟩ := this
      exact ⟨Nat.le_refl _, Nat.le_refl _⟩
  intro i u hu
  match i with
  | 0 => simp at hu; subst hu; exact ⟨a0, rfl, hle.1⟩
  | 1 => simp at hu; subst hu; exact ⟨a1, rfl, hle.2⟩
  | i + 2 => simp at hu

/-- What a pool pays is at least the stated minimum. -/
theorem _root_.Verif.Pool.removeLiquidity_mins {p q : Pool} {s : AccountId} {n : Nat}
    {mins paid : List Nat} (h : p.removeLiquidity s n mins false = .ok (q, paid)) :
    mins.length = p.tokens.length ∧
    ∀ (i a : Nat), paid[i]? = some a → ∃ m, mins[i]? = some m ∧ m ≤ a := by
  replace h := Pool.removeLiquidity_cases h
  rcases h with ⟨p, q, rfl, rfl, h⟩ | ⟨p, q, rfl, rfl, h⟩
  · obtain ⟨m0, m1, r0, r1, rfl, rfl, -, -, -, -, h0, h1, -⟩ := removeLiquidity_ok h
    refine ⟨rfl, ?_⟩
    intro i u hu
    match i with
    | 0 => simp at hu; subst hu; exact ⟨m0, rfl, h0⟩
    | 1 => simp at hu; subst hu; exact ⟨m1, rfl, h1⟩
    | i + 2 => simp at hu
  · obtain ⟨hl, -, -, h, -⟩ := CurvePool.removeByShares_ok h
    refine ⟨hl, ?_⟩
    obtain ⟨-, hlen, -, hall⟩ := CurvePool.removeLoop_ok h
    intro i a hi
    have hlt : i < p.cAmts.length := by
      rw [← hlen]; exact (List.getElem?_eq_some_iff.1 hi).1
    obtain ⟨d, m, a', -, hm, ha, -, -, -, -, hle⟩ := hall i _ (List.getElem?_eq_getElem hlt)
    rw [hi] at ha
    cases ha
    exact ⟨m, hm, hle⟩

/-- C16 for `add_liquidity`: the caller pays exactly the used amounts, each at most the offered one
and at least the stated minimum, and receives exactly the reported shares. -/
theorem C16_add_liquidity {c c' : Contract} {x : Ctx} {id : Nat} {amounts : List Nat}
    {mins : Option (List Nat)} {outs : List Out} {minted : Nat}
    (h : c.addLiquidity x id amounts mins = .ok (c', outs, minted)) :
    ∃ p used, c.pools[id]? = some p ∧ used.length = p.tokens.length ∧
      (∀ (i u : Nat), used[i]? = some u → (∃ a, amounts[i]? = some a ∧ u ≤ a) ∧
        ∀ m, (mins.getD [])[i]? = some m → m ≤ u) ∧
      (∀ t, c'.depositOf x.pred t + flow p.tokens used t = c.depositOf x.pred t) ∧
      (∀ b t, b ≠ x.pred → c'.depositOf b t = c.depositOf b t) ∧
      c'.sharesOf id x.pred = c.sharesOf id x.pred + minted ∧ 0 < minted := by
  obtain ⟨tw, p, q, used, acc, acc', _, -, -, hp, -, ha, hm, h1, h2, -, -, rfl⟩ :=
    addLiquidity_inv h
  have hsh := Pool.addLiquidity_shape ha
  refine ⟨p, used, hp, hsh.2.2, ?_, ?_, ?_, ?_, ?_⟩
  · intro i u hu
    exact ⟨Pool.addLiquidity_used ha i u hu, fun m h => checkMins_ok hm i u m hu h⟩
  · intro t
    simp only [depositOf_eq, balIn_insert, if_true, balIn_some h1]
    rw [← Pool.tokens_of_shape hsh.1]
    exact (Account.withdrawAll_ok h2).2.1 t
  · intro b t hb
    simp only [depositOf_eq, balIn_insert, if_neg hb]
  · simp only [sharesOf_eq, sharesIn_set hp, if_true, sharesIn_some hp]
    rw [Pool.addLiquidity_shares ha, if_pos rfl]
  · obtain ⟨p', q', rfl, rfl, h4⟩ := Pool.addLiquidity_simple ha
    obtain ⟨_, _, _, _, -, -, h5, -⟩ := Verif.addLiquidity_ok h4
    exact h5

/-- C16 for `add_stable_liquidity`: the caller pays exactly the offered amounts and receives at
least the reported shares, which are at least the stated minimum. -/
theorem C16_add_stable {c c' : Contract} {x : Ctx} {id minShares : Nat} {amounts : List Nat}
    {outs : List Out} {minted : Nat}
    (h : c.addStableLiquidity x id amounts minShares = .ok (c', outs, minted)) :
    ∃ p, c.pools[id]? = some p ∧ amounts.length = p.tokens.length ∧ minShares ≤ minted ∧
      (∀ t, c'.depositOf x.pred t + flow p.tokens amounts t = c.depositOf x.pred t) ∧
      (∀ b t, b ≠ x.pred → c'.depositOf b t = c.depositOf b t) ∧
      c.sharesOf id x.pred + minted ≤ c'.sharesOf id x.pred := by
  obtain ⟨tw, p, q, acc, acc', _, -, -, hp, -, ha, -, h1, h2, -, -, rfl⟩ :=
    addStableLiquidity_inv h
  have hsh := Pool.addStable_shape ha
  refine ⟨p, hp, hsh.2.2.1, hsh.2.2.2, ?_, ?_, ?_⟩
  · intro t
    simp only [depositOf_eq, balIn_insert, if_true, balIn_some h1]
    rw [← Pool.tokens_of_shape hsh.1]
    exact (Account.withdrawAll_ok h2).2.1 t
  · intro b t hb
    simp only [depositOf_eq, balIn_insert, if_neg hb]
  · simp only [sharesOf_eq, sharesIn_set hp, if_true, sharesIn_some hp]
    have := (Pool.addStable_shares ha).1 x.pred
    rw [if_pos rfl] at this; exact this

/-- C16 for `remove_liquidity`: the caller gives up exactly the stated shares and is paid exactly
the reported amounts, each at least the stated minimum. -/
theorem C16_remove_liquidity {c c' : Contract} {x : Ctx} {id shares : Nat} {mins paid : List Nat}
    (h : c.removeLiquidity x id shares mins = .ok (c', paid)) :
    ∃ p, c.pools[id]? = some p ∧ mins.length = p.tokens.length ∧
      (∀ (i a : Nat), paid[i]? = some a → ∃ m, mins[i]? = some m ∧ m ≤ a) ∧
      (∀ t, c'.depositOf x.pred t = c.depositOf x.pred t + flow p.tokens paid t) ∧
      (∀ b t, b ≠ x.pred → c'.depositOf b t = c.depositOf b t) ∧
      c'.sharesOf id x.pred + shares = c.sharesOf id x.pred := by
  obtain ⟨tw, p, q, acc, acc', -, -, hp, h1, -, -, hr, h2, -, rfl⟩ := removeLiquidity_inv h
  have hm := Pool.removeLiquidity_mins hr
  refine ⟨p, hp, hm.1, hm.2, ?_, ?_, ?_⟩
  · intro t
    simp only [depositOf_eq, balIn_insert, if_true, balIn_some h1]
    rw [← Pool.tokens_of_shape (Pool.removeLiquidity_shape hr).1]
    exact (Account.depositAll_ok h2).2.1 t
  · intro b t hb
    simp only [depositOf_eq, balIn_insert, if_neg hb]
  · simp only [sharesOf_eq, sharesIn_set hp, if_true, sharesIn_some hp]
    exact (Pool.removeLiquidity_shares hr).1

/-- C16 for `remove_liquidity_by_tokens`: the caller is paid exactly the requested amounts and gives
up at most the stated maximum of shares. -/
theorem C16_remove_by_tokens {c c' : Contract} {x : Ctx} {id maxBurn burnt : Nat}
    {amounts : List Nat} (h : c.removeByTokens x id amounts maxBurn = .ok (c', burnt)) :
    ∃ p, c.pools[id]? = some p ∧ burnt ≤ maxBurn ∧
      (∀ t, c'.depositOf x.pred t = c.depositOf x.pred t + flow p.tokens amounts t) ∧
      (∀ b t, b ≠ x.pred → c'.depositOf b t = c.depositOf b t) ∧
      c.sharesOf id x.pred ≤ c'.sharesOf id x.pred + burnt := by
  obtain ⟨tw, p, q, acc, acc', -, -, hp, h1, -, -, hr, h2, -, rfl⟩ := removeByTokens_inv h
  have hm := Pool.removeByTokens_shares hr
  refine ⟨p, hp, hm.1, ?_, ?_, ?_⟩
  · intro t
    simp only [depositOf_eq, balIn_insert, if_true, balIn_some h1]
    rw [← Pool.tokens_of_shape (Pool.removeByTokens_shape hr).1]
    exact (Account.depositAll_ok h2).2.1 t
  · intro b t hb
    simp only [depositOf_eq, balIn_insert, if_neg hb]
  · simp only [sharesOf_eq, sharesIn_set hp, if_true, sharesIn_some hp]
    exact hm.2.2.1

/-- The two-token minimum of `add_liquidity` is checked pairwise, so a list that is too short leaves
the other token unchecked: with one minimum given, any amount of the second token is accepted. -/
theorem C16_short_minimum_list :
    ∃ c' outs n, c1.Reachable ∧
      c1.addLiquidity (Demo.near al) 0 [1000, 4000] (some [1]) = .ok (c', outs, n) ∧
      (c1.addLiquidity (Demo.near al) 0 [1000, 4000] (some [1, 4000000])).holds
        (fun _ => true) = false := by
  have key : (c1.addLiquidity (Demo.near al) 0 [1000, 4000] (some [1])).holds
      (fun _ => true) = true := by decide +kernel
  obtain ⟨r, h1, -⟩ := R.holds_iff.1 key
  exact ⟨r.1, r.2.1, r.2.2, ⟨ex, own, farm, bur, 1600, 400, c0, setup, rfl, rfl⟩, h1,
    by decide +kernel⟩

/-! ### C30: swaps on a token transfer -/

/-- A chain of swaps that starts with token `t`: every further action consumes what the previous one
produced. -/
def _root_.Verif.Chained : AccountId → List Action → Prop
  | _, [] => True
  | t, .swap a :: as => a.tokIn = t ∧ a.amtIn = none ∧ Chained a.tokOut as
  | _, .byOutput _ :: _ => False

/-- The token a chain ends with. -/
def _root_.Verif.lastToken : AccountId → List Action → AccountId
  | t, [] => t
  | _, .swap a :: as => lastToken a.tokOut as
  | _, .byOutput a :: as => lastToken a.tokOut as

/-- In a chain everything but the last output is consumed. -/
theorem _root_.Verif.Follows.chained : ∀ {actions : List Action} {steps : List SwapStep}
    {t0 : AccountId} {n : Nat} {res : ActionResult}, Chained t0 actions →
    Follows (some n) actions steps res → ∃ r, res = some r ∧ ∀ t : AccountId,
      (if t0 = t then n else 0) + paidOut steps t =
        paidIn steps t + if lastToken t0 actions = t then r else 0
  | [], [], t0, n, res, _, h => ⟨n, h, fun t => by
      have e : lastToken t0 [] = t0 := rfl
      rw [e]; simp [paidIn, paidOut]⟩
  | .swap a :: as, s :: ss, t0, n, res, hc, h => by
    obtain ⟨rfl, h2, h3⟩ := hc
    obtain ⟨-, e1, e2, h4, -, h5⟩ := h
    rw [h2] at h4
    rcases h4 with h4 | ⟨-, h4⟩
    · cases h4
    injection h4 with h4
    obtain ⟨r, hr, hall⟩ := Follows.chained h3 h5
    refine ⟨r, hr, fun t => ?_⟩
    have := hall t
    have e : lastToken a.tokIn (.swap a :: as) = lastToken a.tokOut as := rfl
    simp only [paidIn, paidOut, List.map_cons, List.sum_cons] at this ⊢
    rw [e, e1, e2, ← h4]
    omega
  | [], _ :: _, _, _, _, _, h => by cases h
  | .swap _ :: _, [], _, _, _, _, h => by cases h
  | .byOutput _ :: _, _, _, _, _, h, _ => by cases h

theorem payOut_pays (c : Contract) (sender : AccountId) (echo : Bool) (skip : Option Bool)
    (recipient : Option AccountId) (he : ¬ (recipient.isSome = true ∧ echo = true))
    (l : List (AccountId × Nat)) :
    (∀ t, paysOut (l.map (c.payOut sender echo skip recipient)) t = amountIn l t) ∧
    ∀ o ∈ l.map (c.payOut sender echo skip recipient), o.receiver = some (recipient.getD sender) := by
  have one : ∀ p : AccountId × Nat,
      (∀ t, (c.payOut sender echo skip recipient p).pays t = if p.1 = t then p.2 else 0) ∧
      (c.payOut sender echo skip recipient p).receiver = some (recipient.getD sender) := by
    intro p
    unfold payOut sendTokens
    cases echo with
    | true =>
      cases recipient with
      | none => exact ⟨fun _ => rfl, rfl⟩
      | some r => exact absurd ⟨rfl, rfl⟩ he
    | false =>
      by_cases hw : c.cfg.wnear = some p.1 ∧ skip = some false
      · simp only [hw, Bool.false_eq_true, if_false, and_self, if_true]; exact ⟨fun _ => rfl, rfl⟩
      · simp only [if_neg hw, Bool.false_eq_true, if_false]; exact ⟨fun _ => rfl, rfl⟩
  constructor
  · intro t
    induction l with
    | nil => rfl
    | cons p ps ih =>
      simp only [paysOut, List.map_cons, List.sum_cons, amountIn] at ih ⊢
      rw [(one p).1 t, ih]
  · intro o ho
    obtain ⟨p, -, rfl⟩ := List.mem_map.1 ho
    exact (one p).2

/-- C30: a swap on a token transfer changes no deposit, pledge or lost-and-found entry. For each
token the payouts are exactly what arrived plus the outputs minus the inputs of the executed
swaps, and all of them go to the sender or the recipient the sender named. -/
theorem C30_instant_swap {c c' : Contract} {x : Ctx} {sender : AccountId} {amount : Nat}
    {referral : Option AccountId} {actions : List Action} {echo : Bool} {skip : Option Bool}
    {recipient : Option AccountId} {outs : List Out}
    (h : c.exec x (.ftOnTransfer sender amount (.execute referral actions echo skip recipient)) =
      .ok (c', outs)) :
    c'.accounts = c.accounts ∧ c'.lostfound = c.lostfound ∧
    (∀ o ∈ outs, o.receiver = some (recipient.getD sender)) ∧
    ∃ steps prev res, Swaps x.now (c.referralInfo referral) c steps c' ∧
      Follows prev actions steps res ∧
      ∀ t, paysOut outs t + paidIn steps t = (if x.pred = t then amount else 0) + paidOut steps t := by
  simp only [exec] at h
  obtain ⟨-, -, ⟨hd, -⟩ | ⟨_, _, _, _, _, hd, h⟩ | ⟨_, _, _, hd, -⟩⟩ := ftOnTransfer_inv h <;>
    cases hd
  obtain ⟨left, he, -, -, h2, -, rfl⟩ := instantSwap_inv h
  obtain ⟨steps, prev, res, hs, hf, -, hb, -⟩ := directActions_ok h2
  have hp := payOut_pays c' sender echo skip recipient he left
  refine ⟨hs.framed.accounts, hs.framed.lostfound, hp.2, steps, prev, res, hs, hf, ?_⟩
  intro t
  rw [hp.1]; exact hb t

/-- C30 for a chain that starts with the arriving token and spends all of it: the payout is exactly
the result of the last action and nothing else. -/
theorem C30_last_result {c c' : Contract} {x : Ctx} {sender : AccountId} {amount : Nat}
    {referral : Option AccountId} {a : SwapAction} {rest : List Action} {echo : Bool}
    {skip : Option Bool} {recipient : Option AccountId} {outs : List Out}
    (h : c.exec x (.ftOnTransfer sender amount
      (.execute referral (.swap a :: rest) echo skip recipient)) = .ok (c', outs))
    (h1 : a.tokIn = x.pred) (h2 : a.amtIn = none ∨ a.amtIn = some amount)
    (h3 : Chained a.tokOut rest) :
    ∃ steps last, Swaps x.now (c.referralInfo referral) c steps c' ∧
      steps.length = rest.length + 1 ∧ steps.getLast? = some last ∧
      last.tokOut = lastToken a.tokOut rest ∧
      ∀ t, paysOut outs t = if last.tokOut = t then last.amtOut else 0 := by
  simp only [exec] at h
  obtain ⟨-, -, ⟨hd, -⟩ | ⟨_, _, _, _, _, hd, h⟩ | ⟨_, _, _, hd, -⟩⟩ := ftOnTransfer_inv h <;>
    cases hd
  obtain ⟨left, he, -, -, h4, -, rfl⟩ := instantSwap_inv h
  have hall : Action.allSwap (.swap a :: rest) = true := by
    have : ∀ (l : List Action) t, Chained t l → Action.allSwap l = true := by
      intro l
      induction l with
      | nil => intro _ _; rfl
      | cons b bs ih =>
        intro t hc
        cases b with
        | swap b => exact ih _ hc.2.2
        | byOutput b => cases hc
    exact this rest _ h3
  obtain ⟨steps, prev, res, hs, hf, hprev, hb, -⟩ := directActions_ok h4
  have hp := payOut_pays c' sender echo skip recipient he left
  have hpr := hprev hall
  subst hpr
  match steps, hf with
  | s :: ss, hf =>
    obtain ⟨-, e1, e2, h4, -, h5⟩ := hf
    have hs1 : s.amtIn = amount := by
      rcases h4 with h4 | ⟨-, h4⟩
      · rcases h2 with h2 | h2 <;> rw [h2] at h4 <;> cases h4; rfl
      · injection h4 with h4; exact h4.symm
    obtain ⟨r, hr, hch⟩ := Follows.chained h3 h5
    have hlast : ∀ (l : List Action) (ss : List SwapStep) (s : SwapStep) (t : AccountId),
        Chained t l → s.tokOut = t → Follows (some s.amtOut) l ss (some r) →
        ∃ last, (s :: ss).getLast? = some last ∧ last.tokOut = lastToken t l ∧ last.amtOut = r := by
      intro l
      induction l with
      | nil =>
        intro ss s t _ ht hf
        cases ss with
        | nil =>
          injection hf with hf
          exact ⟨s, rfl, ht, hf.symm⟩
        | cons _ _ => cases hf
      | cons b bs ih =>
        intro ss s t hc ht hf
        cases b with
        | byOutput b => cases hc
        | swap b =>
          cases ss with
          | nil => cases hf
          | cons u us =>
            obtain ⟨-, -, g2, -, -, g5⟩ := hf
            obtain ⟨last, k1, k2, k3⟩ := ih us u b.tokOut hc.2.2 g2 g5
            exact ⟨last, by rw [List.getLast?_cons_cons]; exact k1, k2, k3⟩
    subst hr
    obtain ⟨last, k1, k2, k3⟩ := hlast rest ss s a.tokOut h3 e2 h5
    refine ⟨s :: ss, last, hs, ?_, k1, k2, ?_⟩
    · rw [List.length_cons, h5.bounds.length_eq]
    · intro t
      have g1 := hb t
      have g2 := hch t
      rw [hp.1]
      simp only [paidIn, paidOut, List.map_cons, List.sum_cons] at g1 g2
      rw [e1, e2, h1, hs1] at g1
      rw [k2, k3]
      omega

/-- Two swaps back and forth on a transfer of 3000 of token A: one payout, to the sender. -/
example : (c1.exec (by' A) (.ftOnTransfer bo 3000 (.execute none
    [.swap ⟨0, A, none, B, 1⟩, .swap ⟨0, B, none, A, 1⟩] false none none))).holds
    (fun r => r.2.length = 1 ∧ 2900 < paysOut r.2 A ∧ r.1.depositOf bo A = 5000) = true := by
  decide +kernel

/-- A list of two swaps from deposits, and the same list with a minimum that is out of reach. -/
example : (c1.exec (by' bo) (.executeActions [.swap ⟨0, A, some 3000, B, 1⟩,
      .swap ⟨0, B, none, A, 1⟩] none)).holds (fun r => 4900 < r.1.depositOf bo A) = true ∧
    (c1.exec (by' bo) (.executeActions [.swap ⟨0, A, some 3000, B, 1⟩,
      .swap ⟨0, B, none, A, 3000⟩] none)).holds (fun _ => true) = false ∧
    (c1.exec (by' bo) (.executeInVa [(A, 3000)] [.swap ⟨0, A, some 3000, B, 1⟩] none)).holds
      (fun r => r.1.depositOf bo A = 2000 ∧ 10000 < r.1.depositOf bo B) = true ∧
    (c1.exec (by' bo) (.executeInVa [(A, 2999)] [.swap ⟨0, A, some 3000, B, 1⟩] none)).holds
      (fun _ => true) = false := by decide +kernel

/-- Liquidity calls within and outside their bounds. -/
example : (c1.addLiquidity (Demo.near al) 0 [1000, 4000] (some [900, 3000])).holds
      (fun r => 0 < r.2.2) = true ∧
    (c1.addLiquidity (Demo.near al) 0 [1000, 4000] (some [900, 4001])).holds
      (fun _ => true) = false ∧
    (c2.addStableLiquidity (Demo.near al) 1 [100, 100] 1).holds (fun r => 0 < r.2.2) = true ∧
    (c1.removeLiquidity (y al) 0 (10 ^ 23) [9000, 40000]).holds
      (fun r => r.2 = [10000, 40000]) = true ∧
    (c1.removeLiquidity (y al) 0 (10 ^ 23) [10001, 40000]).holds (fun _ => true) = false ∧
    (c2.removeByTokens (y al) 1 [1000, 0] 1200).holds (fun r => r.2 ≤ 1200) = true := by
  decide +kernel

end Contract
end Verif

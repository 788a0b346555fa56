import Verif.Exchange.View
import Verif.Exchange.Step

/-
Vocabulary of the exchange's properties: what a user can observe of the state, what a history is.
-/

namespace Verif

namespace Account

/-- The shares of a pool this account has pledged, zero if there is no record. -/
def pledged (a : Account) (id : Nat) : ShadowRecord := (a.shadow.get? id).getD ⟨0, 0⟩

end Account

namespace Contract

/-- The view `get_deposit`: what account `a` has deposited of token `t`. -/
def depositOf (c : Contract) (a t : AccountId) : Nat :=
  match c.accounts.get? a with
  | some acc => acc.bal t
  | none => 0

/-- The view `get_pool_shares`: the shares of pool `id` that `a` holds. -/
def sharesOf (c : Contract) (id : Nat) (a : AccountId) : Nat :=
  match c.pools[id]? with
  | some p => p.shareBalance a
  | none => 0

/-- What `a` can claim of token `t` from lost-and-found. -/
def lostOf (c : Contract) (a t : AccountId) : Nat := c.lostfound.getD (a, t) 0

/-- The shares of pool `id` that `a` has pledged to the farm and to the lending contract. -/
def pledgedOf (c : Contract) (a : AccountId) (id : Nat) : ShadowRecord :=
  match c.accounts.get? a with
  | some acc => acc.pledged id
  | none => ⟨0, 0⟩

/-- The NEAR an account has paid for storage. -/
def nearOf (c : Contract) (a : AccountId) : Nat :=
  match c.accounts.get? a with
  | some acc => acc.near
  | none => 0

end Contract

/-- Something that happens to the contract: a call, the callback of a promise, or a new rate or
price. The promise is arbitrary, so a history may contain callbacks of promises that were never
made; what holds for all these histories holds for the real ones. -/
inductive Event where
  | call (x : Ctx) (k : Call)
  | callback (x : Ctx) (out : Out) (o : Outcome)
  | rate (t : AccountId) (rate time : Nat)
  | price (t : AccountId) (price time : Nat)

namespace Contract

/-- The effect of an event, an error if the receipt panics. -/
def apply (c : Contract) : Event → R (Contract × List Out)
  | .call x k => c.exec x k
  | .callback x out o => c.callback x out o
  | .rate t r time => .ok (c.setRate t r time, [])
  | .price t p time => .ok (c.setDegenPrice t p time, [])

/-- The state after an event: a receipt that panics is rolled back. -/
def step (c : Contract) (e : Event) : Contract :=
  match c.apply e with
  | .ok r => r.1
  | .error _ => c

/-- The state after a sequence of events. -/
def run (c : Contract) (es : List Event) : Contract := es.foldl step c

/-- The states the contract can be in: some history after its construction. -/
def Reachable (c : Contract) : Prop :=
  ∃ self owner farm burrow fee ref c0 es,
    Contract.init self owner farm burrow fee ref = .ok c0 ∧ c = c0.run es

/-- A property of states that construction establishes and every event preserves holds in every
reachable state. -/
theorem Reachable.induct {P : Contract → Prop}
    (h0 : ∀ self owner farm burrow fee ref c, init self owner farm burrow fee ref = .ok c → P c)
    (hs : ∀ c e c' outs, P c → c.apply e = .ok (c', outs) → P c') {c : Contract}
    (h : c.Reachable) : P c := by
  obtain ⟨self, owner, farm, burrow, fee, ref, c0, es, hi, rfl⟩ := h
  have hc0 := h0 _ _ _ _ _ _ _ hi
  clear hi
  unfold run
  induction es generalizing c0 with
  | nil => exact hc0
  | cons e es ih =>
    apply ih
    unfold step
    cases ha : c0.apply e with
    | error _ => exact hc0
    | ok r => exact hs c0 e r.1 r.2 hc0 ha

theorem Reachable.run {c : Contract} (h : c.Reachable) (es : List Event) : (c.run es).Reachable := by
  obtain ⟨self, owner, farm, burrow, fee, ref, c0, es0, h0, rfl⟩ := h
  exact ⟨self, owner, farm, burrow, fee, ref, c0, es0 ++ es, h0, (List.foldl_append ..).symm⟩

theorem Reachable.step {c : Contract} (h : c.Reachable) (e : Event) : (c.step e).Reachable :=
  h.run [e]

end Contract

/-! ### Swaps -/

/-- One executed swap. -/
structure SwapStep where
  pool : Nat
  tokIn : AccountId
  amtIn : Nat
  tokOut : AccountId
  amtOut : Nat
  deriving DecidableEq

/-- What the swaps took of token `t`. -/
def paidIn (steps : List SwapStep) (t : AccountId) : Nat :=
  (steps.map fun s => if s.tokIn = t then s.amtIn else 0).sum

/-- What the swaps gave of token `t`. -/
def paidOut (steps : List SwapStep) (t : AccountId) : Nat :=
  (steps.map fun s => if s.tokOut = t then s.amtOut else 0).sum

/-- One swap by a pool, with a given input or a given output. -/
def Contract.SwapsTo (now : Nat) (ref : Option (AccountId × Nat)) (c : Contract) (s : SwapStep)
    (c' : Contract) : Prop :=
  (∃ m, c.poolSwap now ref s.pool s.tokIn s.amtIn s.tokOut m = .ok (c', s.amtOut)) ∨
  (∃ m, c.poolSwapByOutput now ref s.pool s.tokIn s.amtOut s.tokOut m = .ok (c', s.amtIn))

/-- Swaps one after the other. -/
inductive Swaps (now : Nat) (ref : Option (AccountId × Nat)) :
    Contract → List SwapStep → Contract → Prop where
  | nil (c : Contract) : Swaps now ref c [] c
  | cons {c c1 c2 : Contract} {s : SwapStep} {steps : List SwapStep} :
      c.SwapsTo now ref s c1 → Swaps now ref c1 steps c2 → Swaps now ref c (s :: steps) c2

/-- `steps` is what the list of actions asks for: same pools and tokens, amounts as given or, where
an action leaves its amount open, the result of the previous one (`prev` for the first), minimum
outputs and maximum inputs respected. `res` is the result of the last action. -/
def Follows : (prev : ActionResult) → List Action → List SwapStep → (res : ActionResult) → Prop
  | prev, [], [], res => res = prev
  | prev, .swap a :: as, s :: ss, res =>
    s.pool = a.pool ∧ s.tokIn = a.tokIn ∧ s.tokOut = a.tokOut ∧
    (a.amtIn = some s.amtIn ∨ a.amtIn = none ∧ prev = some s.amtIn) ∧ a.minOut ≤ s.amtOut ∧
    Follows (some s.amtOut) as ss res
  | prev, .byOutput a :: as, s :: ss, res =>
    s.pool = a.pool ∧ s.tokIn = a.tokIn ∧ s.tokOut = a.tokOut ∧
    (a.amtOut = some s.amtOut ∨ a.amtOut = none ∧ prev = some s.amtOut) ∧
    (∀ m, a.maxIn = some m → s.amtIn ≤ m) ∧ Follows (some s.amtIn) as ss res
  | _, _, _, _ => False

/-- What a list of payments contains of token `t`. -/
def amountIn : (l : List (AccountId × Nat)) → (t : AccountId) → Nat
  | [], _ => 0
  | p :: ps, t => (if p.1 = t then p.2 else 0) + amountIn ps t

end Verif

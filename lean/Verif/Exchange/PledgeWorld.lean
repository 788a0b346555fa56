import Verif.Exchange.Spec

/-
The exchange together with the two contracts shares are pledged to, the farm and the lending contract:
receipts under way, in any order. Vocabulary of C81.

The two contracts behave as the interface `shadow_receiver` asks (`shadow_actions.rs:9-20`): each keeps
for every account and pool the number of shares pledged to it; `on_cast_shadow` either adds the
amount or fails, `on_remove_shadow` either takes it off or fails. The lending contract liquidates
only what is pledged to it and books that when the exchange accepts. Everybody else may call the
exchange in any way. The owner does not replace the farm or the lending contract.
-/

namespace Verif

/-- The contract a pledge goes to. -/
inductive Side where
  | farm
  | lender
  deriving DecidableEq

/-- Which contract an action concerns. -/
def ShadowAction.side : ShadowAction → Side
  | .toFarming | .fromFarming => .farm
  | .toBurrowland | .fromBurrowland => .lender

/-- Whether the action pledges shares, rather than taking them back. -/
def ShadowAction.casts : ShadowAction → Bool
  | .toFarming | .toBurrowland => true
  | .fromFarming | .fromBurrowland => false

/-- What a record of the exchange says about one of the contracts. -/
def ShadowRecord.on (r : ShadowRecord) : Side → Nat
  | .farm => r.farm
  | .lender => r.burrow

/-- A number for every contract, account and pool. -/
abbrev Books := Side → AccountId → Nat → Nat

/-- The books with one number replaced. -/
def Books.set (b : Books) (s : Side) (a : AccountId) (id n : Nat) : Books :=
  fun s' a' id' => if s' = s ∧ a' = a ∧ id' = id then n else b s' a' id'

/-- A receipt under way. -/
inductive Notice where
  /-- A promise of the exchange that has not run yet. -/
  | pending (out : Out)
  /-- `on_cast_shadow` or `on_remove_shadow` has run, `callback_on_shadow` has not. -/
  | answered (act : ShadowAction) (a : AccountId) (id n fee : Nat) (accepted : Bool)

/-- The exchange, the books of the farm and of the lending contract, and the receipts under way.
`refused` are the shares whose return to a liquidator the farm refused, `unbooked` those of answers
the exchange could not book because the callback failed. -/
structure PledgeWorld where
  c : Contract
  books : Books
  queue : List Notice
  refused : AccountId → Nat → Nat
  unbooked : Books

/-- What the callback learns. -/
def answer (accepted : Bool) (v : Option Nat) : Outcome := if accepted then .success v else .failure

/-- One receipt, and the event of the exchange it is, if any. -/
inductive PledgeWorld.Step : PledgeWorld → Option Event → PledgeWorld → Prop where
  /-- A call of the exchange, other than a liquidation. -/
  | call {w : PledgeWorld} {x : Ctx} {k : Call} {c' : Contract} {outs : List Out} :
      w.c.exec x k = .ok (c', outs) → (∀ l d s n m, k ≠ .onBurrowLiquidation l d s n m) →
      c'.cfg.boostFarm = w.c.cfg.boostFarm → c'.cfg.burrowland = w.c.cfg.burrowland →
      Step w (some (.call x k)) { w with c := c', queue := w.queue ++ outs.map .pending }
  /-- The lending contract liquidates shares pledged to it. -/
  | liquidate {w : PledgeWorld} {x : Ctx} {liq debtor : AccountId} {sid : List Char} {id n : Nat}
      {mins : List Nat} {c' : Contract} {outs : List Out} :
      w.c.exec x (.onBurrowLiquidation liq debtor sid n mins) = .ok (c', outs) →
      shadowIdToPoolId sid = .ok id → n ≤ w.books .lender debtor id →
      Step w (some (.call x (.onBurrowLiquidation liq debtor sid n mins)))
        { w with
          c := c'
          books := w.books.set .lender debtor id (w.books .lender debtor id - n)
          queue := w.queue ++ outs.map .pending }
  /-- A pledge is accepted. -/
  | accept {w : PledgeWorld} {q r : List Notice} {act : ShadowAction} {a : AccountId}
      {id n fee : Nat} : w.queue = q ++ .pending (.shadow act a id n fee) :: r → act.casts = true →
      Step w none { w with
        books := w.books.set act.side a id (w.books act.side a id + n)
        queue := q ++ .answered act a id n fee true :: r }
  /-- Pledged shares are given back. -/
  | release {w : PledgeWorld} {q r : List Notice} {act : ShadowAction} {a : AccountId}
      {id n fee : Nat} : w.queue = q ++ .pending (.shadow act a id n fee) :: r → act.casts = false →
      n ≤ w.books act.side a id →
      Step w none { w with
        books := w.books.set act.side a id (w.books act.side a id - n)
        queue := q ++ .answered act a id n fee true :: r }
  /-- A pledge or the return of shares is refused. -/
  | refuse {w : PledgeWorld} {q r : List Notice} {act : ShadowAction} {a : AccountId}
      {id n fee : Nat} : w.queue = q ++ .pending (.shadow act a id n fee) :: r →
      Step w none { w with queue := q ++ .answered act a id n fee false :: r }
  /-- The farm gives back shares that were liquidated; the callback only logs. -/
  | seed {w : PledgeWorld} {q r : List Notice} {a : AccountId} {id n : Nat} :
      w.queue = q ++ .pending (.liquidated a id n) :: r → n ≤ w.books .farm a id →
      Step w none { w with
        books := w.books.set .farm a id (w.books .farm a id - n)
        queue := q ++ r }
  /-- The farm refuses to give back shares that were liquidated; the callback only logs. -/
  | seedRefused {w : PledgeWorld} {q r : List Notice} {a : AccountId} {id n : Nat} :
      w.queue = q ++ .pending (.liquidated a id n) :: r →
      Step w none { w with
        queue := q ++ r
        refused := fun a' id' => w.refused a' id' + if a' = a ∧ id' = id then n else 0 }
  /-- The callback of a pledge or a return. -/
  | book {w : PledgeWorld} {q r : List Notice} {act : ShadowAction} {a : AccountId} {id n fee : Nat}
      {ok : Bool} {x : Ctx} {v : Option Nat} {c' : Contract} {outs : List Out} :
      w.queue = q ++ .answered act a id n fee ok :: r →
      w.c.callback x (.shadow act a id n fee) (answer ok v) = .ok (c', outs) →
      Step w (some (.callback x (.shadow act a id n fee) (answer ok v)))
        { w with c := c', queue := q ++ r ++ outs.map .pending }
  /-- The callback of a pledge or a return fails. If the exchange had to take shares off the record,
  they stay on it. -/
  | fail {w : PledgeWorld} {q r : List Notice} {act : ShadowAction} {a : AccountId} {id n fee : Nat}
      {ok : Bool} {x : Ctx} {v : Option Nat} {e : Err} :
      w.queue = q ++ .answered act a id n fee ok :: r →
      w.c.callback x (.shadow act a id n fee) (answer ok v) = .error e →
      Step w (some (.callback x (.shadow act a id n fee) (answer ok v))) { w with
        queue := q ++ r
        unbooked := w.unbooked.set act.side a id (w.unbooked act.side a id +
          if act.casts = ok then 0 else n) }
  /-- Any other receipt of the exchange: callbacks of transfers, rates and prices. -/
  | other {w : PledgeWorld} {e : Event} {c' : Contract} {outs : List Out} :
      w.c.apply e = .ok (c', outs) → (∀ x k, e ≠ .call x k) →
      (∀ x act a id n fee o, e ≠ .callback x (.shadow act a id n fee) o) →
      Step w (some e) { w with c := c', queue := w.queue ++ outs.map .pending }

/-- The worlds that can come about when every event of the exchange satisfies `P` in the state in which
it happens. -/
inductive PledgeWorld.Reachable (P : Contract → Event → Prop) : PledgeWorld → Prop where
  | init {self owner farm burrow : AccountId} {fee ref : Nat} {c : Contract} :
      Contract.init self owner farm burrow fee ref = .ok c →
      Reachable P ⟨c, fun _ _ _ => 0, [], fun _ _ => 0, fun _ _ _ => 0⟩
  | step {w w' : PledgeWorld} {e : Option Event} : w.Reachable P → w.Step e w' →
      (∀ ev, e = some ev → P w.c ev) → w'.Reachable P

/-- Shares of the account and pool that the record of the exchange counts and the books of the contract
do not: pledges not yet accepted or refused and not yet booked, returns accepted and not yet
booked. -/
def Notice.ahead (s : Side) (a : AccountId) (id : Nat) : Notice → Nat
  | .pending (.shadow act a' id' n _) =>
    if act.side = s ∧ a' = a ∧ id' = id ∧ act.casts = true then n else 0
  | .answered act a' id' n _ ok =>
    if act.side = s ∧ a' = a ∧ id' = id ∧ act.casts ≠ ok then n else 0
  | _ => 0

/-- Shares that were liquidated and that the farm still has in its books. -/
def Notice.behind (s : Side) (a : AccountId) (id : Nat) : Notice → Nat
  | .pending (.liquidated a' id' n) => if s = .farm ∧ a' = a ∧ id' = id then n else 0
  | _ => 0

def ahead (q : List Notice) (s : Side) (a : AccountId) (id : Nat) : Nat :=
  (q.map (Notice.ahead s a id)).sum

def behind (q : List Notice) (s : Side) (a : AccountId) (id : Nat) : Nat :=
  (q.map (Notice.behind s a id)).sum

end Verif

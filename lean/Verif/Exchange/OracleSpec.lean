import Verif.Exchange.Oracle
import Mathlib.Algebra.Order.Field.Basic
import Mathlib.Data.Rat.Cast.Order

/-
Vocabulary of C66: what a reply of an oracle says, which reply justifies a stored price or rate, and
histories in which rates and prices change only through replies.
-/

namespace Verif

/-- The price of a whole token with `dec` decimals that the price oracle states. -/
def AssetPrice.value (p : AssetPrice) (dec : Nat) : ℚ :=
  p.multiplier / 10 ^ ((p.decimals : ℤ) - dec)

/-- The price the Pyth oracle states. -/
def PythPrice.value (p : PythPrice) : ℚ := p.price * 10 ^ p.expo

/-- `v` is `x` in units of 10^-24, rounded down. -/
def RoundsTo (x : ℚ) (v : Nat) : Prop := (v : ℚ) ≤ 10 ^ 24 * x ∧ 10 ^ 24 * x < v + 1

/-- The data is recent enough, not from the future, and at most `staleness` seconds old. -/
def PriceData.Fresh (d : PriceData) (now recency staleness : Nat) : Prop :=
  d.recency ≤ recency ∧ d.timestamp ≤ now ∧ now ≤ d.timestamp + staleness * 10 ^ 9

/-- The price is positive and was published at most `validFor` seconds ago. -/
def PythPrice.Fresh (p : PythPrice) (now validFor : Nat) : Prop :=
  0 < p.price ∧ 0 < p.publishTime ∧ (now : ℤ) ≤ (p.publishTime + validFor) * 10 ^ 9

/-- The reply `r` to the request `k`, arriving at time `now` under the configuration `g`, justifies the
price `v` of token `t`. A single request uses the source of the price registered now, a request for
several tokens the one registered when it was made. -/
def Justifies (g : Config) (now : Nat) (t : AccountId) (v : Nat) : OracleCall → Reply → Prop
  | .degen u, .prices d => u = t ∧ ∃ o i dec p, g.priceOracle = some o ∧
      d.Fresh now o.recency o.staleness ∧ g.degens.get? t = some i ∧ i.source = .priceOracle dec ∧
      d.prices[0]? = some (t, some p) ∧ RoundsTo (p.value dec) v
  | .degen u, .pyth p => u = t ∧ ∃ o i id, g.pythOracle = some o ∧ p.Fresh now o.validFor ∧
      g.degens.get? t = some i ∧ i.source = .pyth id ∧ RoundsTo p.value v
  | .batchPrice decs, .prices d => ∃ o dec p, g.priceOracle = some o ∧
      d.Fresh now o.recency o.staleness ∧ decs.get? t = some dec ∧ (t, some p) ∈ d.prices ∧
      RoundsTo (p.value dec) v
  | .batchPyth ids, .pythMap m => ∃ o id ts p, g.pythOracle = some o ∧ p.Fresh now o.validFor ∧
      (id, ts) ∈ ids ∧ t ∈ ts ∧ m.get? id = some (some p) ∧ RoundsTo p.value v
  | _, _ => False

/-- The reply `r` to the request `k`, arriving at time `now`, justifies the rate `v` of token `t`. An
`Sfrax` rate is the ratio of two prices; prices of the Pyth oracle are rounded first. -/
def JustifiesRate (g : Config) (now : Nat) (t : AccountId) (v : Nat) : OracleCall → Reply → Prop
  | .rate u, .number n => u = t ∧ v = n ∧ ∃ i, g.rates.get? t = some i ∧ i.source = .direct
  | .rate u, .prices d => u = t ∧ ∃ i base recency staleness b r dec, g.rates.get? t = some i ∧
      i.source = .sfraxPrice base recency staleness ∧ d.Fresh now recency staleness ∧
      d.prices[0]? = some (base, some b) ∧ d.prices[1]? = some (t, some r) ∧
      b.value dec ≠ 0 ∧ RoundsTo (r.value dec / b.value dec) v
  | .rate u, .pythPair b r => u = t ∧ ∃ i bid rid validFor bv rv, g.rates.get? t = some i ∧
      i.source = .sfraxPyth bid rid validFor ∧ b.Fresh now validFor ∧ r.Fresh now validFor ∧
      RoundsTo b.value bv ∧ RoundsTo r.value rv ∧ bv ≠ 0 ∧ RoundsTo (rv / bv) v
  | _, _ => False

/-- The contract and the callbacks that wait for a reply. -/
structure OracleWorld where
  c : Contract
  waiting : List OracleCall

/-- What happens: a call or a callback of the contract that has nothing to do with oracles, a request,
or the reply to the request at position `i` of the waiting list, `none` if the oracle failed. Requests
for several tokens name the order in which the callback goes through its `HashMap`. Swaps in degen
pools make such requests too (`lib.rs:756-759`); here they are separate events. -/
inductive OracleEvent where
  | call (x : Ctx) (k : Call)
  | callback (x : Ctx) (out : Out) (o : Outcome)
  | askRate (t : AccountId)
  | askDegen (t : AccountId)
  | askBatch (ts : List AccountId) (order : List (Nat × List AccountId))
  | reply (i now : Nat) (r : Option Reply)

namespace OracleWorld

/-- The effect of an event. A receipt that panics is rolled back; a reply is delivered once. -/
def step (w : OracleWorld) : OracleEvent → OracleWorld
  | .call x k => { w with c := w.c.step (.call x k) }
  | .callback x out o => { w with c := w.c.step (.callback x out o) }
  | .askRate t => { w with waiting := w.waiting ++ w.c.askRate t }
  | .askDegen t =>
    match w.c.askDegen t with
    | .ok l => { w with waiting := w.waiting ++ l }
    | .error _ => w
  | .askBatch ts order =>
    match w.c.askBatch ts order with
    | .ok l => { w with waiting := w.waiting ++ l }
    | .error _ => w
  | .reply i now r =>
    match w.waiting[i]? with
    | none => w
    | some k =>
      match w.c.reply now r k with
      | .ok c => ⟨c, w.waiting.eraseIdx i⟩
      | .error _ => ⟨w.c, w.waiting.eraseIdx i⟩

/-- The world after a history. -/
def run (w : OracleWorld) (es : List OracleEvent) : OracleWorld := es.foldl step w

/-- The state of a freshly constructed contract. -/
def Fresh (w : OracleWorld) : Prop :=
  w.waiting = [] ∧ ∃ self owner farm burrow fee ref,
    Contract.init self owner farm burrow fee ref = .ok w.c

end OracleWorld
end Verif

import Verif.Exchange.Ledger

/-
The exchange together with the ledger of one token: receipts under way, in any order. Vocabulary of
C12 and C13.

The token behaves as NEP-141 prescribes: a transfer to the exchange moves the balance first and then
calls `ft_on_transfer`, and what that call refuses is sent back; a transfer by the exchange either
succeeds and moves the balance or fails and moves nothing. All other contracts, including other
tokens, may call the exchange in any way they like.
-/

namespace Verif

/-- `PoolInfo::amounts`, `views.rs:110-140`: the reserves a pool reports. -/
def Pool.reported : Pool → R (List Nat)
  | .simple p => .ok [p.amt0, p.amt1]
  | .curve p => p.getAmounts

/-- A receipt under way. -/
inductive Item where
  /-- Tokens have been moved to the exchange, `ft_on_transfer` is about to run. -/
  | arriving (sender : AccountId) (amount : Nat) (msg : Msg)
  /-- `ft_on_transfer` failed, the token contract is about to take the tokens back. -/
  | refund (amount : Nat)
  /-- A promise of the exchange that has not run yet. -/
  | pending (out : Out)
  /-- A promise of the exchange that has run and whose callback has not. -/
  | settled (out : Out) (result : Outcome)

/-- The exchange, its balance on the ledger of the token, and the receipts under way. -/
structure World where
  c : Contract
  held : Nat
  queue : List Item

/-- Whether the contract learns about the failure of a transfer: `ftPlain` has no callback. -/
def Out.tracked : Out → Bool
  | .ftPlain .. => false
  | _ => true

/-- How much of the token a receipt accounts for. -/
def Item.inFlight (t : AccountId) : Item → Nat
  | .arriving _ n _ => n
  | .refund n => n
  | .pending o => o.pays t
  | .settled o .failure => if o.tracked then o.pays t else 0
  | .settled _ (.success _) => 0

/-- The unwrapping of wrapped NEAR that may still have to be booked. -/
def Item.unwraps : Item → Option AccountId
  | .pending (.unwrap u _ _) | .settled (.unwrap u _ _) .failure => some u
  | _ => none

/-- How much of the token is on its way. -/
def inFlight (q : List Item) (t : AccountId) : Nat := (q.map (Item.inFlight t)).sum

/-- One receipt. Receipts that panic and have no further effect are left out.

Three restrictions: no stable pool lists the token with more than 18 decimals (see C36), the owner
retrieves no more of the token than is not accounted for, and the wrapped NEAR token is not replaced
while an unwrapping is under way. -/
inductive World.Step (t : AccountId) : World → World → Prop where
  /-- Anybody but the token contract calls the exchange. -/
  | call {w : World} {x : Ctx} {k : Call} {c' : Contract} {outs : List Out} :
      w.c.exec x k = .ok (c', outs) → x.pred ≠ t → (∀ n, k ≠ .retrieveUnmanaged t n) →
      (∀ p ∈ c'.pools, p.Fine t) →
      ((∃ i ∈ w.queue, i.unwraps.isSome = true) → c'.cfg.wnear = w.c.cfg.wnear) →
      Step t w ⟨c', w.held, w.queue ++ outs.map .pending⟩
  /-- The owner retrieves tokens that are not accounted for. -/
  | retrieve {w : World} {x : Ctx} {n : Nat} {outs : List Out} :
      w.c.retrieveUnmanaged x t n = .ok outs →
      w.c.owed t + ATOMS * (inFlight w.queue t + n) ≤ ATOMS * w.held →
      Step t w ⟨w.c, w.held, w.queue ++ outs.map .pending⟩
  /-- Somebody sends tokens with `ft_transfer_call`. -/
  | send {w : World} (sender : AccountId) (n : Nat) (msg : Msg) : w.held + n < 2 ^ 128 →
      Step t w ⟨w.c, w.held + n, w.queue ++ [.arriving sender n msg]⟩
  /-- Somebody sends tokens with `ft_transfer`, or the receiver of an `ft_transfer_call` by the
  exchange returns a part. -/
  | gift {w : World} (n : Nat) : w.held + n < 2 ^ 128 → Step t w ⟨w.c, w.held + n, w.queue⟩
  | delivered {w : World} {l1 l2 : List Item} {x : Ctx} {sender : AccountId} {n : Nat} {msg : Msg}
      {c' : Contract} {outs : List Out} :
      w.queue = l1 ++ .arriving sender n msg :: l2 → x.pred = t →
      w.c.exec x (.ftOnTransfer sender n msg) = .ok (c', outs) →
      Step t w ⟨c', w.held, l1 ++ l2 ++ outs.map .pending⟩
  | refused {w : World} {l1 l2 : List Item} {x : Ctx} {sender : AccountId} {n : Nat} {msg : Msg}
      {e : Err} :
      w.queue = l1 ++ .arriving sender n msg :: l2 → x.pred = t →
      w.c.exec x (.ftOnTransfer sender n msg) = .error e →
      Step t w ⟨w.c, w.held, l1 ++ .refund n :: l2⟩
  | refunded {w : World} {l1 l2 : List Item} {n : Nat} : w.queue = l1 ++ .refund n :: l2 →
      Step t w ⟨w.c, w.held - min n w.held, l1 ++ l2⟩
  /-- A promise succeeds. If it moves the token, the balance suffices. -/
  | succeeded {w : World} {l1 l2 : List Item} {o : Out} (v : Option Nat) :
      w.queue = l1 ++ .pending o :: l2 → o.pays t ≤ w.held →
      Step t w ⟨w.c, w.held - o.pays t, l1 ++ .settled o (.success v) :: l2⟩
  | failed {w : World} {l1 l2 : List Item} {o : Out} : w.queue = l1 ++ .pending o :: l2 →
      Step t w ⟨w.c, w.held, l1 ++ .settled o .failure :: l2⟩
  /-- The callback of a promise runs. -/
  | resolved {w : World} {l1 l2 : List Item} {x : Ctx} {o : Out} {r : Outcome} {c' : Contract}
      {outs : List Out} :
      w.queue = l1 ++ .settled o r :: l2 → w.c.callback x o r = .ok (c', outs) →
      Step t w ⟨c', w.held, l1 ++ l2 ++ outs.map .pending⟩
  /-- The callback of a promise panics. -/
  | dropped {w : World} {l1 l2 : List Item} {x : Ctx} {o : Out} {r : Outcome} {e : Err} :
      w.queue = l1 ++ .settled o r :: l2 → w.c.callback x o r = .error e →
      Step t w ⟨w.c, w.held, l1 ++ l2⟩
  | rate {w : World} (u : AccountId) (r time : Nat) :
      Step t w ⟨w.c.setRate u r time, w.held, w.queue⟩
  | price {w : World} (u : AccountId) (p time : Nat) :
      Step t w ⟨w.c.setDegenPrice u p time, w.held, w.queue⟩

/-- The worlds that can come about after the construction of the exchange. -/
inductive World.Reachable (t : AccountId) : World → Prop where
  | init {self owner farm burrow : AccountId} {fee ref : Nat} {c : Contract} :
      Contract.init self owner farm burrow fee ref = .ok c → Reachable t ⟨c, 0, []⟩
  | step {w w' : World} : w.Reachable t → w.Step t w' → Reachable t w'

end Verif

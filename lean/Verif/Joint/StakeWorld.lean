import Verif.Exchange.Spec
import Verif.Farming.World

/-
The exchange and the farming contract together: shares of the exchange's pools are staked in farms, and
every message between the two contracts is a receipt that may run at any later time. Vocabulary of C82.

Nothing is assumed about how the exchange keeps shares or how the farming contract keeps stakes: both
sides are the models of the code. Any receipt may fail for want of gas. All other accounts may call
both contracts in any way they like. The farming contract calls the exchange only as its code does.
-/

namespace Verif

/-- A receipt under way. -/
inductive Parcel where
  /-- A promise of the exchange that has not run yet. -/
  | promised (out : Out)
  /-- A promise of the exchange that has run and whose callback has not. -/
  | answered (out : Out) (o : Outcome)
  /-- A promise of the farming contract that has not run yet. -/
  | requested (out : Farming.Out)
  /-- A promise of the farming contract that has run and whose callback has not. -/
  | settled (out : Farming.Out) (ok : Bool)

/-- The exchange, the farming contract and the receipts under way. -/
structure StakeWorld where
  e : Contract
  f : Farming.Contract
  queue : List Parcel

/-- What a receipt is for the two contracts. -/
inductive Deed where
  /-- An event of the exchange. -/
  | exchange (ev : Event)
  /-- An event of the farming contract. -/
  | farm (ev : Farming.Event)
  /-- The callback of a promise of the exchange fails. -/
  | unresolved (out : Out) (o : Outcome)
  /-- The callback of a promise of the farming contract fails. -/
  | unsettled (out : Farming.Out) (ok : Bool)
  /-- Something that happens elsewhere. -/
  | elsewhere

/-- One receipt; `fa` is the account of the farming contract. Receipts that panic and have no further
effect are left out. -/
inductive StakeWorld.Step (fa : AccountId) : StakeWorld → Deed → StakeWorld → Prop where
  /-- Somebody calls the exchange. -/
  | call {w : StakeWorld} {x : Ctx} {k : Call} {e' : Contract} {outs : List Out} :
      w.e.exec x k = .ok (e', outs) → x.pred ≠ fa →
      Step fa w (.exchange (.call x k)) ⟨e', w.f, w.queue ++ outs.map .promised⟩
  /-- An oracle reports a rate. -/
  | rate {w : StakeWorld} {t : AccountId} {r time : Nat} :
      Step fa w (.exchange (.rate t r time)) ⟨w.e.setRate t r time, w.f, w.queue⟩
  /-- An oracle reports a price. -/
  | price {w : StakeWorld} {t : AccountId} {p time : Nat} :
      Step fa w (.exchange (.price t p time)) ⟨w.e.setDegenPrice t p time, w.f, w.queue⟩
  /-- Somebody calls the farming contract. -/
  | callFarm {w : StakeWorld} {x : Farming.Ctx} {k : Farming.Call} {f' : Farming.Contract}
      {outs : List Farming.Out} :
      w.f.exec x k = .ok (f', outs) → x.pred ≠ w.e.self → '@' ∉ x.pred →
      Step fa w (.farm (.call x k)) ⟨w.e, f', w.queue ++ outs.map .requested⟩
  /-- The exchange tells the farming contract that `a` has sent it shares; it accepts and returns 0,
  `token_receiver.rs:128-177`. The message is not part of the promise in the model. -/
  | deliver {w : StakeWorld} {l1 l2 : List Parcel} {t : List Char} {a : AccountId} {n : Nat}
      {msg : List Char} {x : Farming.Ctx} {f' : Farming.Contract} {outs : List Farming.Out} :
      w.queue = l1 ++ .promised (.mftCall t a fa n) :: l2 → x.pred = w.e.self →
      w.f.exec x (.mftOnTransfer t a n msg) = .ok (f', outs) →
      Step fa w (.farm (.call x (.mftOnTransfer t a n msg)))
        ⟨w.e, f', l1 ++ .answered (.mftCall t a fa n) (.success (some 0)) :: l2 ++
          outs.map .requested⟩
  /-- A promise of the exchange fails. -/
  | refuse {w : StakeWorld} {l1 l2 : List Parcel} {out : Out} :
      w.queue = l1 ++ .promised out :: l2 →
      Step fa w .elsewhere ⟨w.e, w.f, l1 ++ .answered out .failure :: l2⟩
  /-- A promise of the exchange to another contract succeeds. -/
  | accept {w : StakeWorld} {l1 l2 : List Parcel} {out : Out} {v : Option Nat} :
      w.queue = l1 ++ .promised out :: l2 → (∀ t a n, out ≠ .mftCall t a fa n) →
      Step fa w .elsewhere ⟨w.e, w.f, l1 ++ .answered out (.success v) :: l2⟩
  /-- The callback of the exchange runs. -/
  | resolve {w : StakeWorld} {l1 l2 : List Parcel} {out : Out} {o : Outcome} {x : Ctx}
      {e' : Contract} {outs : List Out} :
      w.queue = l1 ++ .answered out o :: l2 → w.e.callback x out o = .ok (e', outs) →
      Step fa w (.exchange (.callback x out o)) ⟨e', w.f, l1 ++ l2 ++ outs.map .promised⟩
  /-- The callback of the exchange fails. -/
  | leave {w : StakeWorld} {l1 l2 : List Parcel} {out : Out} {o : Outcome} :
      w.queue = l1 ++ .answered out o :: l2 → Step fa w (.unresolved out o) ⟨w.e, w.f, l1 ++ l2⟩
  /-- The farming contract sends shares back to `a`, `actions_of_seed.rs:44-65`. -/
  | transfer {w : StakeWorld} {l1 l2 : List Parcel} {s : Farming.SeedId} {token : List Char}
      {a : AccountId} {n : Nat} {x : Ctx} {e' : Contract} {outs : List Out} :
      w.queue = l1 ++ .requested (.mftSeed s w.e.self token a n) :: l2 → x.pred = fa →
      w.e.exec x (.mftTransfer (':' :: token) a n) = .ok (e', outs) →
      Step fa w (.exchange (.call x (.mftTransfer (':' :: token) a n)))
        ⟨e', w.f, l1 ++ .settled (.mftSeed s w.e.self token a n) true :: l2 ++ outs.map .promised⟩
  /-- A promise of the farming contract fails. -/
  | decline {w : StakeWorld} {l1 l2 : List Parcel} {out : Farming.Out} :
      w.queue = l1 ++ .requested out :: l2 →
      Step fa w .elsewhere ⟨w.e, w.f, l1 ++ .settled out false :: l2⟩
  /-- A promise of the farming contract to another contract succeeds. -/
  | pay {w : StakeWorld} {l1 l2 : List Parcel} {out : Farming.Out} :
      w.queue = l1 ++ .requested out :: l2 → (∀ s t a n, out ≠ .mftSeed s w.e.self t a n) →
      Step fa w .elsewhere ⟨w.e, w.f, l1 ++ .settled out true :: l2⟩
  /-- The callback of the farming contract runs. -/
  | settle {w : StakeWorld} {l1 l2 : List Parcel} {out : Farming.Out} {ok : Bool} {x : Farming.Ctx}
      {f' : Farming.Contract} :
      w.queue = l1 ++ .settled out ok :: l2 → w.f.callback x out ok = .ok f' →
      Step fa w (.farm (.callback x out ok)) ⟨w.e, f', l1 ++ l2⟩
  /-- The callback of the farming contract fails. -/
  | forfeit {w : StakeWorld} {l1 l2 : List Parcel} {out : Farming.Out} {ok : Bool} :
      w.queue = l1 ++ .settled out ok :: l2 → Step fa w (.unsettled out ok) ⟨w.e, w.f, l1 ++ l2⟩

/-- The worlds that can come about after the construction of both contracts. -/
inductive StakeWorld.Reachable (fa : AccountId) : StakeWorld → Prop where
  | init {self owner farm burrow fowner : AccountId} {fee ref : Nat} {e : Contract} :
      Contract.init self owner farm burrow fee ref = .ok e → self ≠ fa → '@' ∉ self →
      Reachable fa ⟨e, .init fowner, []⟩
  | step {w w' : StakeWorld} {d : Deed} : w.Reachable fa → w.Step fa d w' → Reachable fa w'

/-- The shares of pool `id` of the exchange `ex` that the farming contract holds on account of a
receipt: shares sent to it and not yet staked, shares it has to give back, and shares it has taken off
a stake and not yet sent. -/
def Parcel.shares (ex fa : AccountId) (id : Nat) : Parcel → Nat
  | .promised (.mftCall t _ r n) => if r = fa ∧ parseTokenId t = .pool id then n else 0
  | .answered (.mftCall t _ r n) o =>
    if r = fa ∧ parseTokenId t = .pool id then Contract.unusedOf n o else 0
  | .requested o => o.pays (.mft ex id)
  | .settled o ok => if ok then 0 else o.pays (.mft ex id)
  | _ => 0

/-- Whose shares a receipt carries. -/
def Parcel.owner : Parcel → AccountId
  | .promised (.mftCall _ a _ _) | .answered (.mftCall _ a _ _) _ => a
  | .requested (.mftSeed _ _ _ a _) | .settled (.mftSeed _ _ _ a _) _ => a
  | _ => []

/-- The shares under way. -/
def underway (ex fa : AccountId) (id : Nat) (q : List Parcel) : Nat :=
  (q.map (Parcel.shares ex fa id)).sum

/-- The shares of `a` under way. -/
def underwayOf (ex fa a : AccountId) (id : Nat) (q : List Parcel) : Nat :=
  underway ex fa id (q.filter (·.owner = a))

namespace StakeWorld

/-- The shares of pool `id` staked by all farmers. -/
def staked (w : StakeWorld) (id : Nat) : Nat := w.f.seedTotal (Farming.mftSeedId w.e.self id)

/-- The shares of pool `id` that `a` has: in the exchange, staked, and on the way between the two. -/
def owns (w : StakeWorld) (fa a : AccountId) (id : Nat) : Nat :=
  w.e.sharesOf id a + w.f.stakeOf a (Farming.mftSeedId w.e.self id) +
    underwayOf w.e.self fa a id w.queue

/-- The receipts that may take shares of pool `id` from `a`. -/
inductive Takes (w : StakeWorld) (fa a : AccountId) (id : Nat) : Deed → Prop where
  /-- A call of the exchange by `a` that does not send shares to the farming contract. -/
  | own {x : Ctx} {k : Call} : x.pred = a → (∀ t n, k ≠ .mftTransferCall t fa n) →
      Takes w fa a id (.exchange (.call x k))
  /-- The lending contract liquidates shares that `a` has pledged. -/
  | liquidated {x : Ctx} {liq : AccountId} {sid : List Char} {n : Nat} {mins : List Nat} :
      x.pred = w.e.cfg.burrowland → shadowIdToPoolId sid = .ok id → n ≤ (w.e.pledgedOf a id).burrow →
      Takes w fa a id (.exchange (.call x (.onBurrowLiquidation liq a sid n mins)))
  /-- The owner or a guardian withdraws the exchange's own shares. -/
  | fee {x : Ctx} {n : Nat} {mins : List Nat} : a = w.e.self →
      Takes w fa a id (.exchange (.call x (.removeExchangeFee id n mins)))
  /-- `a` gives back what it has been sent by a transfer-call and has not used. -/
  | returned {x : Ctx} {t : List Char} {s : AccountId} {n : Nat} {o : Outcome} :
      parseTokenId t = .pool id → Takes w fa a id (.exchange (.callback x (.mftCall t s a n) o))
  /-- The farming contract has refused shares of `a`, and `a` has no account at the exchange. -/
  | homeless {x : Ctx} {t : List Char} {n : Nat} {o : Outcome} :
      parseTokenId t = .pool id → w.e.accounts.contains a = false → 0 < Contract.unusedOf n o →
      Takes w fa a id (.exchange (.callback x (.mftCall t a fa n) o))
  /-- The farming contract has refused shares of `a`, and the callback of the exchange fails. -/
  | unresolved {t : List Char} {n : Nat} {o : Outcome} :
      parseTokenId t = .pool id → 0 < Contract.unusedOf n o →
      Takes w fa a id (.unresolved (.mftCall t a fa n) o)
  /-- The exchange has refused a transfer to `a`, and the callback of the farming contract fails. -/
  | unsettled {s : Farming.SeedId} {token : List Char} {n : Nat} :
      Takes w fa a id (.unsettled (.mftSeed s w.e.self token a n) false)

/-- `w'` comes after `w`, and no receipt in between may take shares of pool `id` from `a`. -/
inductive Keeps (fa a : AccountId) (id : Nat) : StakeWorld → StakeWorld → Prop where
  | refl {w : StakeWorld} : Keeps fa a id w w
  | step {w w' w'' : StakeWorld} {d : Deed} : Keeps fa a id w w' → w'.Step fa d w'' →
      ¬ w'.Takes fa a id d → Keeps fa a id w w''

end StakeWorld
end Verif

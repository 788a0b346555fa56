import Verif.Farming.Spec

/-
The farming contract together with the ledger of one asset: receipts under way, in any order.
Vocabulary of C50.

The asset behaves as the standards prescribe: a transfer to the farming contract moves the balance
first and then calls `ft_on_transfer` or `mft_on_transfer`, and what that call refuses is sent back;
a transfer by the farming contract either succeeds and moves the balance or fails and moves nothing.
All other contracts may call the farming contract in any way they like.
-/

namespace Verif.Farming

/-- Something the farming contract can hold: a fungible token, or the shares of a pool of an
exchange. -/
inductive Asset where
  | ft (token : AccountId)
  | mft (exchange : AccountId) (pool : Nat)
  deriving DecidableEq

/-- Account ids consist of letters, digits and `-`, `_`, `.`; pool ids have 64 bits. -/
def Asset.Valid : Asset → Prop
  | .ft t => '@' ∉ t
  | .mft e p => '@' ∉ e ∧ p < 2 ^ 64

/-- What a farm owes of token `t`: what it has not released, what it has released and nobody has
claimed, and what it has put aside for the beneficiary. -/
def SimpleFarm.owes (f : SimpleFarm) (t : AccountId) : Nat :=
  if f.terms.rewardToken = t then f.dist.undistributed + f.dist.unclaimed + f.amountOfBeneficiary
  else 0

namespace Contract

/-- The rewards the contract owes in token `t`: by its farms, live or cleared, and to the farmers who
have claimed them. -/
def rewardsOwed (c : Contract) (t : AccountId) : Nat :=
  c.farms.sum (fun _ f => f.owes t) + c.outdated.sum (fun _ f => f.owes t) +
    c.farmers.sum (fun _ u => u.rewards.getD t 0)

/-- What the contract owes of an asset: rewards and stakes. -/
def owed (c : Contract) : Asset → Nat
  | .ft t => c.rewardsOwed t + c.stakes t
  | .mft e p => c.stakes (mftSeedId e p)

end Contract

/-- What a promise pays of an asset. -/
def Out.pays : Out → Asset → Nat
  | .reward token _ n, .ft t => if token = t then n else 0
  | .ftSeed seed _ n, .ft t => if seed = t then n else 0
  | .mftSeed _ contract token _ n, .mft e p =>
    if contract = e ∧ parseTokenId (':' :: token) = .pool p then n else 0
  | _, _ => 0

/-- What promises pay of an asset. -/
def paysOut (outs : List Out) (a : Asset) : Nat := (outs.map (Out.pays · a)).sum

/-- What a call by `pred` tells the contract it has received of an asset. -/
def Call.receives (pred : AccountId) : Call → Asset → Nat
  | .ftOnTransfer _ n _, .ft t => if pred = t then n else 0
  | .mftOnTransfer token _ n _, .mft e p =>
    if pred = e ∧ parseTokenId token = .pool p then n else 0
  | _, _ => 0

/-- A receipt under way. -/
inductive Item where
  /-- The asset has been moved to the farming contract, its contract `pred` is about to call `k`. -/
  | arriving (pred : AccountId) (k : Call)
  /-- That call failed, the contract of the asset is about to take `n` back. -/
  | refund (n : Nat)
  /-- A promise of the farming contract that has not run yet. -/
  | pending (out : Out)
  /-- A promise of the farming contract that has run and whose callback has not. -/
  | settled (out : Out) (ok : Bool)

/-- How much of the asset a receipt accounts for. -/
def Item.inFlight (a : Asset) : Item → Nat
  | .arriving pred k => k.receives pred a
  | .refund n => n
  | .pending o => o.pays a
  | .settled o ok => if ok then 0 else o.pays a

/-- How much of the asset is on its way. -/
def inFlight (q : List Item) (a : Asset) : Nat := (q.map (Item.inFlight a)).sum

/-- The farming contract, its balance of the asset, and the receipts under way. -/
structure World where
  c : Contract
  held : Nat
  queue : List Item

/-- One receipt. Receipts that panic and have no further effect are left out. -/
inductive World.Step (a : Asset) : World → World → Prop where
  /-- Somebody calls the farming contract. A call that announces the asset comes with the asset. -/
  | call {w : World} {x : Ctx} {k : Call} {c' : Contract} {outs : List Out} :
      w.c.exec x k = .ok (c', outs) → '@' ∉ x.pred → k.receives x.pred a = 0 →
      Step a w ⟨c', w.held, w.queue ++ outs.map .pending⟩
  /-- Somebody sends some of the asset and has its contract call `k`. -/
  | send {w : World} (pred : AccountId) (k : Call) : '@' ∉ pred →
      Step a w ⟨w.c, w.held + k.receives pred a, w.queue ++ [.arriving pred k]⟩
  /-- Somebody sends some of the asset without a call. -/
  | gift {w : World} (n : Nat) : Step a w ⟨w.c, w.held + n, w.queue⟩
  | delivered {w : World} {l1 l2 : List Item} {x : Ctx} {k : Call} {c' : Contract}
      {outs : List Out} :
      w.queue = l1 ++ .arriving x.pred k :: l2 → '@' ∉ x.pred → w.c.exec x k = .ok (c', outs) →
      Step a w ⟨c', w.held, l1 ++ l2 ++ outs.map .pending⟩
  | refused {w : World} {l1 l2 : List Item} {x : Ctx} {k : Call} {e : Err} :
      w.queue = l1 ++ .arriving x.pred k :: l2 → w.c.exec x k = .error e →
      Step a w ⟨w.c, w.held, l1 ++ .refund (k.receives x.pred a) :: l2⟩
  | refunded {w : World} {l1 l2 : List Item} {n : Nat} : w.queue = l1 ++ .refund n :: l2 →
      Step a w ⟨w.c, w.held - min n w.held, l1 ++ l2⟩
  /-- A promise succeeds. If it moves the asset, the balance suffices. -/
  | succeeded {w : World} {l1 l2 : List Item} {o : Out} :
      w.queue = l1 ++ .pending o :: l2 → o.pays a ≤ w.held →
      Step a w ⟨w.c, w.held - o.pays a, l1 ++ .settled o true :: l2⟩
  | failed {w : World} {l1 l2 : List Item} {o : Out} : w.queue = l1 ++ .pending o :: l2 →
      Step a w ⟨w.c, w.held, l1 ++ .settled o false :: l2⟩
  /-- The callback of a promise runs. -/
  | resolved {w : World} {l1 l2 : List Item} {x : Ctx} {o : Out} {ok : Bool} {c' : Contract} :
      w.queue = l1 ++ .settled o ok :: l2 → w.c.callback x o ok = .ok c' →
      Step a w ⟨c', w.held, l1 ++ l2⟩
  /-- The callback of a promise panics. -/
  | dropped {w : World} {l1 l2 : List Item} {x : Ctx} {o : Out} {ok : Bool} {e : Err} :
      w.queue = l1 ++ .settled o ok :: l2 → w.c.callback x o ok = .error e →
      Step a w ⟨w.c, w.held, l1 ++ l2⟩

/-- The worlds that can come about after the construction of the farming contract. -/
inductive World.Reachable (a : Asset) : World → Prop where
  | init (owner : AccountId) : Reachable a ⟨.init owner, 0, []⟩
  | step {w w' : World} : w.Reachable a → w.Step a w' → Reachable a w'

end Verif.Farming

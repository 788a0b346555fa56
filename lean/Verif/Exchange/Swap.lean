import Verif.Exchange.State

/-
Swaps: `/repo/ref-exchange/src/action.rs`, `/repo/ref-exchange/src/lib.rs:704-904`.
-/

namespace Verif

/-- `SwapAction`, `action.rs:9-22`. -/
structure SwapAction where
  pool : Nat
  tokIn : AccountId
  amtIn : Option Nat
  tokOut : AccountId
  minOut : Nat

/-- `SwapByOutputAction`, `action.rs:27-40`. -/
structure OutAction where
  pool : Nat
  tokIn : AccountId
  amtOut : Option Nat
  tokOut : AccountId
  maxIn : Option Nat

/-- `Action`, `action.rs:46-49`. -/
inductive Action where
  | swap (s : SwapAction)
  | byOutput (s : OutAction)

namespace Action

/-- `tokens`, `action.rs:53-62`. -/
def tokens : Action → List AccountId
  | swap s => [s.tokIn, s.tokOut]
  | byOutput s => [s.tokIn, s.tokOut]

/-- The pool that an action uses, `action.rs:11`, `29`. -/
def pool : Action → Nat
  | swap s => s.pool
  | byOutput s => s.pool

def asSwap : Action → Option SwapAction
  | swap s => some s
  | byOutput _ => none

def asOut : Action → Option OutAction
  | byOutput s => some s
  | swap _ => none

/-- All actions are `Swap`. -/
def allSwap (l : List Action) : Bool := l.all fun a => a.asSwap.isSome
/-- All actions are `SwapByOutput`. -/
def allOut (l : List Action) : Bool := l.all fun a => a.asOut.isSome

/-- `get_tokens_in_actions`, `action.rs:129-135`. -/
def tokensOf (l : List Action) : List AccountId := l.flatMap tokens

end Action

namespace Contract

/-- `internal_pool_swap`, `lib.rs:816-858`. -/
def poolSwap (c : Contract) (now : Nat) (ref : Option (AccountId × Nat)) (id : Nat)
    (ti : AccountId) (a : Nat) (tout : AccountId) (minOut : Nat) : R (Contract × Nat) := do
  let c ← c.twapHook now id
  let p ← c.pool id
  let (q, out) ← p.swap ti a tout minOut (c.fees ref) (c.cfg.env now p) false
  let c' ← c.recordVolume id q ti tout a out (c.volumesOf id p)
  .ok (c'.setPool id q, out)

/-- `internal_pool_swap_by_output`, `lib.rs:862-904`. -/
def poolSwapByOutput (c : Contract) (now : Nat) (ref : Option (AccountId × Nat)) (id : Nat)
    (ti : AccountId) (out : Nat) (tout : AccountId) (maxIn : Option Nat) : R (Contract × Nat) := do
  let c ← c.twapHook now id
  let p ← c.pool id
  let (q, a) ← p.swapByOutput ti out tout maxIn (c.fees ref) false
  let c' ← c.recordVolume id q ti tout a out (c.volumesOf id p)
  .ok (c'.setPool id q, a)

/-- The amount of an action: its own, or the result of the previous action
(`value.unwrap_or_else(|| prev_result.to_amount())`, `lib.rs:779-782`, `797-800`). -/
def amountOr (own : Option Nat) (prev : ActionResult) : R Nat :=
  match own with
  | some n => .ok n
  | none => expectE prev (.e 41)

/-- The `Swap` loop, `lib.rs:736-740` with `lib.rs:778-795`. -/
def runSwaps (c : Contract) (now : Nat) (ref : Option (AccountId × Nat)) (acc : Account)
    (prev : ActionResult) : List SwapAction → R (Contract × Account × ActionResult)
  | [] => .ok (c, acc, prev)
  | s :: rest => do
    let a ← amountOr s.amtIn prev
    let acc ← acc.withdraw s.tokIn a
    let (c, out) ← c.poolSwap now ref s.pool s.tokIn a s.tokOut s.minOut
    let acc ← acc.deposit s.tokOut out
    runSwaps c now ref acc (some out) rest

/-- `finalize_prev_swap_chain`, `lib.rs:763-767`: pay for the previous chain, `prevIn` is the input
token of the previous action. -/
def finalize (acc : Account) (prevIn : Option AccountId) (res : ActionResult) : R Account :=
  match prevIn with
  | none => .ok acc
  | some t => do
    let a ← expectE res (.e 41)
    acc.withdraw t a

/-- Start of one step of the `SwapByOutput` loop, `lib.rs:744-749`: an action with its own output
amount starts a new chain, any other must produce what the previous action consumes. -/
def startOut (acc : Account) (prevIn : Option AccountId) (res : ActionResult) (s : OutAction) :
    R Account :=
  match s.amtOut with
  | some n => do
    let acc ← finalize acc prevIn res
    acc.deposit s.tokOut n
  | none => do
    let t ← expectE prevIn .index
    assertE (t = s.tokOut) .other
    .ok acc

/-- The `SwapByOutput` loop, `lib.rs:741-754` with `lib.rs:796-810`. -/
def runOuts (c : Contract) (now : Nat) (ref : Option (AccountId × Nat)) (acc : Account)
    (prevIn : Option AccountId) (res : ActionResult) :
    List OutAction → R (Contract × Account × ActionResult)
  | [] => do
    let acc ← finalize acc prevIn res
    .ok (c, acc, res)
  | s :: rest => do
    let acc ← startOut acc prevIn res s
    let out ← amountOr s.amtOut res
    let (c, a) ← c.poolSwapByOutput now ref s.pool s.tokIn out s.tokOut s.maxIn
    runOuts c now ref acc (some s.tokIn) (some a) rest

/-- `internal_execute_actions`, `lib.rs:716-761`. After the type check (E77) every action is of the
kind of the first one. The price sync at the end only creates oracle calls; it could panic for a
token or oracle configuration that is missing, but then the swap on that pool has already
panicked (`degenValid`), so it is omitted. -/
def runActions (c : Contract) (now : Nat) (ref : Option (AccountId × Nat)) (acc : Account)
    (prev : ActionResult) (actions : List Action) : R (Contract × Account × ActionResult) := do
  assertE (Action.allSwap actions = true ∨ Action.allOut actions = true) (.e 77)
  c.cfg.assertNoFrozen (Action.tokensOf actions)
  match actions with
  | [] => .error .index
  | .swap _ :: _ => c.runSwaps now ref acc prev (actions.filterMap Action.asSwap)
  | .byOutput _ :: _ => c.runOuts now ref acc none prev (actions.filterMap Action.asOut)

/-- `internal_direct_actions`, `token_receiver.rs:50-87`: swaps on a virtual account that starts
with the given tokens; returns what is left on it. -/
def directActions (c : Contract) (now : Nat) (ref : Option AccountId) (tokenIn : AccountId)
    (amountIn : Nat) (actions : List Action) : R (Contract × List (AccountId × Nat)) := do
  let acc ← Account.new.deposit tokenIn amountIn
  let prev ← (match actions with
    | [] => .error .index
    | .swap _ :: _ => .ok (some amountIn)
    | .byOutput _ :: _ => .ok none : R ActionResult)
  let (c, acc, _) ← c.runActions now (c.referralInfo ref) acc prev actions
  .ok (c, acc.positive)

end Contract
end Verif

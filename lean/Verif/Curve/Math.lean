import Verif.Simple.Model

/-
Model of the curve arithmetic shared by the stable, rated and degen pools:
`/repo/ref-exchange/src/stable_swap/math.rs`, `rated_swap/math.rs`, `degen_swap/math.rs`.

The three Rust files are copies of each other. `degen_swap/math.rs` is `rated_swap/math.rs`
with `rate` renamed to `degen`; `stable_swap/math.rs` uses 256-bit instead of 384-bit
integers and has no rates. One model with a `kind` parameter covers all three. Line numbers
are given for the stable file first, then for the rated file (the degen file has the same
line numbers as the rated one).

In Rust these functions return `Option`; every caller that changes state calls `expect` on
the result. Here `None` and a panic are both an error of `R`.
-/

namespace Verif

/-- The three curve pools (`Pool::StableSwapPool`, `RatedSwapPool`, `DegenSwapPool`,
`/repo/ref-exchange/src/pool.rs:14-19`). -/
inductive CurveKind where
  | stable
  | rated
  | degen
  deriving DecidableEq, Repr

namespace CurveKind

/-- `TARGET_DECIMAL`: `stable_swap/mod.rs:18`, `rated_swap/mod.rs:23`,
`degen_swap/mod.rs:24`. -/
def target : CurveKind → Nat
  | stable => 18
  | _ => 24

/-- `MIN_RESERVE`: `stable_swap/mod.rs:19`, `rated_swap/mod.rs:27`, `degen_swap/mod.rs:28`. -/
def minReserve : CurveKind → Nat
  | stable => 1000000000000000
  | _ => 1000000000000000000000

/-- Width of the big integers: `U256` in `stable_swap/math.rs`, `U384` in the others. -/
def width : CurveKind → Nat
  | stable => 256
  | _ => 384

end CurveKind

/-- `PRECISION`, `/repo/ref-exchange/src/rated_swap/mod.rs:26`. -/
def PRECISION : Nat := 1000000000000000000000000

/-- `MIN_RAMP_DURATION`, `stable_swap/math.rs:9`, `rated_swap/math.rs:11`. -/
def MIN_RAMP_DURATION : Nat := 86400 * 1000000000
/-- `MIN_AMP`, `stable_swap/math.rs:11`, `rated_swap/math.rs:13`. -/
def MIN_AMP : Nat := 1
/-- `MAX_AMP`, `stable_swap/math.rs:13`, `rated_swap/math.rs:15`. -/
def MAX_AMP : Nat := 1000000
/-- `MAX_AMP_CHANGE`, `stable_swap/math.rs:15`, `rated_swap/math.rs:17`. -/
def MAX_AMP_CHANGE : Nat := 10

/-- `Fees`, `stable_swap/math.rs:18-36`, `rated_swap/math.rs:20-38`. -/
structure CurveFees where
  trade : Nat
  admin : Nat

/-- `Fees::trade_fee`, `stable_swap/math.rs:38-40`, `rated_swap/math.rs:40-42`. -/
def CurveFees.tradeFee (f : CurveFees) (amount : Nat) : R Nat :=
  u128Ratio amount f.trade FEE_DIVISOR

/-- `Fees::admin_trade_fee`, `stable_swap/math.rs:42-44`, `rated_swap/math.rs:44-46`. -/
def CurveFees.adminTradeFee (f : CurveFees) (amount : Nat) : R Nat :=
  u128Ratio amount f.admin FEE_DIVISOR

/-- `Fees::normalized_trade_fee`, `stable_swap/math.rs:48-51`, `rated_swap/math.rs:50-53`.
The inner arithmetic is on `u32`. -/
def CurveFees.normalizedTradeFee (f : CurveFees) (n amount : Nat) : R Nat := do
  let a ← mulW 32 f.trade n
  let m ← subW n 1
  let b ← mulW 32 4 m
  let adj ← divW a b
  u128Ratio amount adj FEE_DIVISOR

/-- `compute_amp_factor`, `stable_swap/math.rs:101-134`, `rated_swap/math.rs:144-177`. -/
def computeAmp (init target now start stop : Nat) : R Nat :=
  if now < stop then do
    let range ← subW stop start
    let delta ← subW now start
    if target ≥ init then do
      let m ← mulW 128 (target - init) delta
      let d ← divW m range
      addW 128 init d
    else do
      let m ← mulW 128 (init - target) delta
      let d ← divW m range
      subW init d
  else .ok target

/-- The `fold` that sums the balances, `stable_swap/math.rs:141`, `rated_swap/math.rs:189`. -/
def sumU128 : List Nat → Nat → R Nat
  | [], acc => .ok acc
  | x :: xs, acc => do
    let a ← addW 128 acc x
    sumU128 xs a

/-- The inner loop computing `d_prod`, `stable_swap/math.rs:150-154`,
`rated_swap/math.rs:198-202`. -/
def dProdLoop (w n d : Nat) : List Nat → Nat → R Nat
  | [], dp => .ok dp
  | x :: xs, dp => do
    let m ← mulW w dp d
    let xn ← mulW 128 x n
    let q ← divW m xn
    dProdLoop w n d xs q

/-- One round of the Newton iteration for D, `stable_swap/math.rs:149-168`,
`rated_swap/math.rs:197-216`. -/
def dStep (w n ann sum : Nat) (xs : List Nat) (d : Nat) : R Nat := do
  let dp ← dProdLoop w n d xs d
  let lev ← mulW w sum ann
  let a ← mulW w dp n
  let b ← addW w a lev
  let num ← mulW w d b
  let ann1 ← subW ann 1
  let e ← mulW w d ann1
  let g ← mulW w dp (n + 1)
  let den ← addW w e g
  divW num den

/-- `|a - b| ≤ 1`, the exit test `stable_swap/math.rs:171-177`, `rated_swap/math.rs:219-225`. -/
def near (a b : Nat) : Bool := decide (a ≤ b + 1 ∧ b ≤ a + 1)

/-- The `for _ in 0..256` loop of `compute_d`, `stable_swap/math.rs:148-178`,
`rated_swap/math.rs:196-226`; the first argument is the number of rounds left. -/
def dLoop (w n ann sum : Nat) (xs : List Nat) : Nat → Nat → R Nat
  | 0, d => .ok d
  | k + 1, d => do
    let d' ← dStep w n ann sum xs d
    if near d' d then .ok d' else dLoop w n ann sum xs k d'

/-- `compute_d`, `stable_swap/math.rs:139-181`, `rated_swap/math.rs:187-229`. `ann` does not
change between rounds, so it is computed once before the loop. -/
def computeD (w : Nat) (amp : R Nat) (xs : List Nat) : R Nat := do
  let sum ← sumU128 xs 0
  if sum = 0 then .ok 0
  else do
    let amp ← amp
    let n := xs.length
    let nn ← fit 128 (n ^ n)
    let ann ← mulW 128 amp nn
    dLoop w n ann sum xs 256 sum

/-- The loop over the other balances in `compute_y`, `stable_swap/math.rs:259-265`,
`rated_swap/math.rs:307-313`. Accumulates `s_` and `c`; `idx` is the current index. -/
def yOthersLoop (w d ix iy : Nat) : List Nat → (idx s c : Nat) → R (Nat × Nat)
  | [], _, s, c => .ok (s, c)
  | x :: xs, idx, s, c =>
    if idx ≠ ix ∧ idx ≠ iy then do
      let s' ← addW 128 s x
      let m ← mulW w c d
      let c' ← divW m x
      yOthersLoop w d ix iy xs (idx + 1) s' c'
    else yOthersLoop w d ix iy xs (idx + 1) s c

/-- One round of the Newton iteration for y, `stable_swap/math.rs:278-280`,
`rated_swap/math.rs:326-328`. -/
def yStep (w b c d y : Nat) : R Nat := do
  let y2 ← mulW w y y
  let num ← addW w y2 c
  let t ← mulW w y 2
  let t ← addW w t b
  let den ← subW t d
  divW num den

/-- The `for _ in 0..256` loop of `compute_y`, `stable_swap/math.rs:275-288`,
`rated_swap/math.rs:323-336`. -/
def yLoop (w b c d : Nat) : Nat → Nat → R Nat
  | 0, y => .ok y
  | k + 1, y => do
    let y' ← yStep w b c d y
    if near y' y then .ok y' else yLoop w b c d k y'

/-- `compute_y`, `stable_swap/math.rs:245-290`, `rated_swap/math.rs:293-338`. -/
def computeY (w : Nat) (amp : R Nat) (x : Nat) (xs : List Nat) (ix iy : Nat) : R Nat := do
  let n := xs.length
  let a ← amp
  let nn ← fit 128 (n ^ n)
  let ann ← mulW 128 a nn
  let d ← computeD w amp xs
  let dd ← mulW w d d
  let c0 ← divW dd x
  let (s, c) ← yOthersLoop w d ix iy xs 0 x c0
  let m ← mulW w c d
  let annn ← mulW 128 ann nn
  let c ← divW m annn
  let b0 ← divW d ann
  let b ← addW w b0 s
  yLoop w b c d 256 d

/-- `mul_rate`, `rated_swap/math.rs:125-128`; stable pools have no rates. -/
def mulRate (k : CurveKind) (amount rate : Nat) : R Nat :=
  match k with
  | .stable => .ok amount
  | _ => do
    let m ← mulW 384 amount rate
    fit 128 (m / PRECISION)

/-- `div_rate`, `rated_swap/math.rs:131-134`; stable pools have no rates. -/
def divRate (k : CurveKind) (amount rate : Nat) : R Nat :=
  match k with
  | .stable => .ok amount
  | _ => do
    let m ← mulW 384 amount PRECISION
    let q ← divW m rate
    fit 128 q

/-- The `zip`/`map` of `rate_balances`, `rated_swap/math.rs:137-141`. -/
def rateZip (k : CurveKind) : List Nat → List Nat → R (List Nat)
  | a :: as, r :: rs => do
    let x ← mulRate k a r
    let xs ← rateZip k as rs
    .ok (x :: xs)
  | _, _ => .ok []

/-- `rate_balances`; the identity for stable pools. -/
def rateBalances (k : CurveKind) (rates : List Nat) (amounts : List Nat) : R (List Nat) :=
  match k with
  | .stable => .ok amounts
  | _ => rateZip k amounts rates

/-- The calculator: `StableSwap` (`stable_swap/math.rs:70-98`), `RatedSwap`
(`rated_swap/math.rs:90-122`), `DegenSwap` (`degen_swap/math.rs:90-122`). `amp` is the result
of `compute_amp_factor`, which depends only on the fields of the calculator. -/
structure Inv where
  kind : CurveKind
  amp : R Nat
  rates : List Nat

/-- `compute_d` of the stable calculator and `compute_d_with_rates` of the others,
`rated_swap/math.rs:180-182`. -/
def Inv.dWithRates (v : Inv) (xs : List Nat) : R Nat := do
  let r ← rateBalances v.kind v.rates xs
  computeD v.kind.width v.amp r

/-- `old[i].checked_add(deposit[i])` for every index of the deposit; the other entries stay 0
(`stable_swap/math.rs:197-200`, `rated_swap/math.rs:245-248`). -/
def depositBalances : (old dep : List Nat) → R (List Nat)
  | old, [] => .ok (old.map fun _ => 0)
  | [], _ :: _ => .error .index
  | o :: os, d :: ds => do
    let s ← addW 128 o d
    let r ← depositBalances os ds
    .ok (s :: r)

/-- `old[i].checked_sub(withdraw[i])`, `stable_swap/math.rs:308-311`,
`rated_swap/math.rs:356-359`. -/
def withdrawBalances : (old wd : List Nat) → R (List Nat)
  | old, [] => .ok (old.map fun _ => 0)
  | [], _ :: _ => .error .index
  | o :: os, d :: ds => do
    let s ← subW o d
    let r ← withdrawBalances os ds
    .ok (s :: r)

/-- The loop that charges the imbalance fee, `stable_swap/math.rs:207-219` and `320-333`,
`rated_swap/math.rs:255-267` and `368-381`. -/
def feeBalances (w n : Nat) (f : CurveFees) (d0 d1 : Nat) : (old new : List Nat) → R (List Nat)
  | o :: os, b :: bs => do
    let m ← mulW w d1 o
    let q ← divW m d0
    let ideal ← fit 128 q
    let diff := if ideal > b then ideal - b else b - ideal
    let fee ← f.normalizedTradeFee n diff
    let b' ← subW b fee
    let rest ← feeBalances w n f d0 d1 os bs
    .ok (b' :: rest)
  | _, _ => .ok []

/-- `supply * diff / d0` as `u128`, `stable_swap/math.rs:229-237`, `rated_swap/math.rs:277-285`. -/
def sharesFor (w supply diff d0 : Nat) : R Nat := do
  let m ← mulW w supply diff
  let q ← divW m d0
  fit 128 q

/-- `compute_lp_amount_for_deposit`, `stable_swap/math.rs:185-241`,
`rated_swap/math.rs:233-289`. -/
def Inv.lpForDeposit (v : Inv) (dep old : List Nat) (supply : Nat) (f : CurveFees) :
    R (Nat × Nat) := do
  let w := v.kind.width
  let d0 ← v.dWithRates old
  let new ← depositBalances old dep
  let d1 ← v.dWithRates new
  assertE (d0 < d1) (.e 67)
  let new ← feeBalances w old.length f d0 d1 old new
  let d2 ← v.dWithRates new
  let x ← subW d2 d0
  let mint ← sharesFor w supply x d0
  let y ← subW d1 d0
  let diff ← sharesFor w supply y d0
  let fee ← subW diff mint
  .ok (mint, fee)

/-- `compute_lp_amount_for_withdraw`, `stable_swap/math.rs:296-354`,
`rated_swap/math.rs:344-402`. -/
def Inv.lpForWithdraw (v : Inv) (wd old : List Nat) (supply : Nat) (f : CurveFees) :
    R (Nat × Nat) := do
  let w := v.kind.width
  let d0 ← v.dWithRates old
  let new ← withdrawBalances old wd
  let d1 ← v.dWithRates new
  assertE (d1 < d0) (.e 67)
  let new ← feeBalances w old.length f d0 d1 old new
  let d2 ← v.dWithRates new
  let x ← subW d0 d2
  let burn ← sharesFor w supply x d0
  let y ← subW d0 d1
  let diff ← sharesFor w supply y d0
  let fee ← subW burn diff
  .ok (burn, fee)

/-- `SwapResult`, `stable_swap/math.rs:56-67`, `rated_swap/math.rs:58-69`. -/
structure SwapResult where
  newSource : Nat
  newDest : Nat
  swapped : Nat
  adminFee : Nat
  fee : Nat

/-- `rates[i]`; stable pools have no rates, the value is then unused. -/
def Inv.rateAt (v : Inv) (i : Nat) : R Nat :=
  match v.kind with
  | .stable => .ok PRECISION
  | _ => expectE v.rates[i]? .index

/-- `swap_to`, `stable_swap/math.rs:358-392`, `rated_swap/math.rs:406-448`. -/
def Inv.swapTo (v : Inv) (i amountIn o : Nat) (cur : List Nat) (f : CurveFees) :
    R SwapResult := do
  let k := v.kind
  let rin ← v.rateAt i
  let rout ← v.rateAt o
  let inn ← mulRate k amountIn rin
  let xs ← rateBalances k v.rates cur
  let xi ← expectE xs[i]? .index
  let x ← addW 128 inn xi
  let y ← computeY k.width v.amp x xs i o
  let y ← fit 128 y
  let xo ← expectE xs[o]? .index
  let g ← subW xo y
  let dy := g - 1
  let fee ← f.tradeFee dy
  let adm ← f.adminTradeFee fee
  let sw ← subW dy fee
  let nd ← subW xo sw
  let nd ← subW nd adm
  let ns ← addW 128 xi inn
  let a ← divRate k ns rin
  let b ← divRate k nd rout
  let c ← divRate k sw rout
  let d ← divRate k adm rout
  let e ← divRate k fee rout
  .ok { newSource := a, newDest := b, swapped := c, adminFee := d, fee := e }

end Verif

import Verif.Num
import Verif.FMap

/-
Model of the constant-product pool, `/repo/ref-exchange/src/simple_pool.rs`, and of
the helpers it uses from `utils.rs` and `admin_fee.rs`.
-/

namespace Verif

/-- `AccountId` is a `String`; it is modelled by its list of characters
(near_sdk `AccountId = String`). -/
abbrev AccountId := List Char

/-- `/repo/ref-exchange/src/utils.rs:39` -/
def FEE_DIVISOR : Nat := 10000
/-- `/repo/ref-exchange/src/utils.rs:40` -/
def MAX_ADMIN_FEE_BPS : Nat := 8000
/-- `/repo/ref-exchange/src/utils.rs:43` -/
def INIT_SHARES_SUPPLY : Nat := 1000000000000000000000000

/-- The `while` loop of `integer_sqrt`, `/repo/ref-exchange/src/utils.rs:125-128`.
`fuel` only makes the recursion structural: `res` strictly decreases in each round, so
with `fuel = value + 1` it is never exhausted (`Simple/Lemmas.lean`,
`isqrtLoop_spec`). Running out of fuel is an error here. -/
def isqrtLoop (value : Nat) : (fuel guess res : Nat) → R Nat
  | 0, _, _ => .error .other
  | fuel + 1, guess, res =>
    if guess < res then do
      let q ← divW value guess
      let s ← addW 256 q guess
      isqrtLoop value fuel (s / 2) guess
    else .ok res

/-- `integer_sqrt`, `/repo/ref-exchange/src/utils.rs:122-130`. `>> 1` is `/ 2`. -/
def integerSqrt (value : Nat) : R Nat := do
  let v1 ← addW 256 value 1
  isqrtLoop value (value + 1) (v1 / 2) value

/-- `u128_ratio`, `/repo/ref-exchange/src/utils.rs:132-134`. -/
def u128Ratio (a num denom : Nat) : R Nat := do
  let m ← mulW 256 a num
  let q ← divW m denom
  fit 128 q

/-- `AdminFees`, `/repo/ref-exchange/src/admin_fee.rs:11-19`. -/
structure AdminFees where
  adminFeeBps : Nat
  exchangeId : AccountId
  referral : Option (AccountId × Nat)

/-- `SimplePool`, `/repo/ref-exchange/src/simple_pool.rs:21-38`. The constructor forces
exactly two tokens, so the two vectors are two pairs of fields. The obsolete fields
`volumes`, `exchange_fee`, `referral_fee` are never read after creation and are
omitted (volumes live in a separate map, see `swap_volume.rs`). -/
structure SimplePool where
  tok0 : AccountId
  tok1 : AccountId
  amt0 : Nat
  amt1 : Nat
  totalFee : Nat
  shares : FMap AccountId Nat
  supply : Nat

/-- `add_to_collection`, `/repo/ref-exchange/src/utils.rs:110-113`. -/
def addToCollection (c : FMap AccountId Nat) (k : AccountId) (v : Nat) :
    R (FMap AccountId Nat) := do
  let n ← addW 128 (c.getD k 0) v
  .ok (c.insert k n)

namespace SimplePool

/-- `SimplePool::new`, `/repo/ref-exchange/src/simple_pool.rs:41-65`. -/
def new (tokens : List AccountId) (totalFee : Nat) : R SimplePool := do
  assertE (totalFee < FEE_DIVISOR) (.e 90)
  match tokens with
  | [t0, t1] => .ok { tok0 := t0, tok1 := t1, amt0 := 0, amt1 := 0, totalFee,
                      shares := FMap.empty, supply := 0 }
  | _ => .error (.e 89)

/-- Index into `amounts`: `false` is 0 and `true` is 1. -/
def amt (p : SimplePool) : Bool → Nat
  | false => p.amt0
  | true => p.amt1

/-- `self.amounts[i] = v`. -/
def setAmt (p : SimplePool) (i : Bool) (v : Nat) : SimplePool :=
  match i with
  | false => { p with amt0 := v }
  | true => { p with amt1 := v }

/-- `share_register`, `/repo/ref-exchange/src/simple_pool.rs:78-83`. -/
def shareRegister (p : SimplePool) (a : AccountId) : R SimplePool := do
  assertE (p.shares.contains a = false) (.e 14)
  .ok { p with shares := p.shares.insert a 0 }

/-- `share_unregister`, `/repo/ref-exchange/src/simple_pool.rs:87-90`. -/
def shareUnregister (p : SimplePool) (a : AccountId) : R SimplePool := do
  let s ← expectE (p.shares.get? a) (.e 13)
  assertE (s = 0) (.e 19)
  .ok { p with shares := p.shares.erase a }

/-- `share_transfer`, `/repo/ref-exchange/src/simple_pool.rs:93-105`. -/
def shareTransfer (p : SimplePool) (sender receiver : AccountId) (amount : Nat) :
    R SimplePool := do
  let bal ← expectE (p.shares.get? sender) (.e 13)
  assertE (amount ≤ bal) (.e 91)
  let shares1 := p.shares.insert sender (bal - amount)
  let balOut ← expectE (shares1.get? receiver) (.e 13)
  let n ← addW 128 balOut amount
  .ok { p with shares := shares1.insert receiver n }

/-- `share_balance_of`, `/repo/ref-exchange/src/simple_pool.rs:108-110`. -/
def shareBalanceOf (p : SimplePool) (a : AccountId) : Nat := p.shares.getD a 0

/-- `mint_shares`, `/repo/ref-exchange/src/simple_pool.rs:175-183`. -/
def mintShares (p : SimplePool) (a : AccountId) (s : Nat) (isView : Bool) : R SimplePool := do
  if s = 0 then .ok p
  else
    assertE (p.supply + s < 2 ^ 128) (.e 36)
    let p := { p with supply := p.supply + s }
    if isView then .ok p
    else
      let sh ← addToCollection p.shares a s
      .ok { p with shares := sh }

/-- One round of the first loop of `add_liquidity`
(`/repo/ref-exchange/src/simple_pool.rs:132-138`): the ratio for one token. -/
def fairRatio (supply bal amount : Nat) : R Nat := do
  assertE (amount > 0) (.e 31)
  let m ← mulW 256 (amount - 1) supply
  divW m bal

/-- One round of the second loop of `add_liquidity`
(`/repo/ref-exchange/src/simple_pool.rs:139-146`): the amount taken of one token. -/
def fairAmount (supply bal fair : Nat) : R Nat := do
  let m ← mulW 256 bal fair
  let q ← divW m supply
  let q ← fit 128 q
  let a ← addW 128 q 1
  assertE (a > 0) (.e 31)
  .ok a

/-- `add_liquidity`, `/repo/ref-exchange/src/simple_pool.rs:124-172`. Returns the new
pool, the amounts taken and the shares minted. -/
def addLiquidity (p : SimplePool) (sender : AccountId) (amounts : List Nat) (isView : Bool) :
    R (SimplePool × List Nat × Nat) := do
  match amounts with
  | [a0, a1] =>
    let (p, a0, a1, s) ← (if p.supply > 0 then do
        let r0 ← fairRatio p.supply p.amt0 a0
        let r1 ← fairRatio p.supply p.amt1 a1
        let fair := min (min (2 ^ 256 - 1) r0) r1
        let b0 ← fairAmount p.supply p.amt0 fair
        let n0 ← addW 128 p.amt0 b0
        let b1 ← fairAmount p.supply p.amt1 fair
        let n1 ← addW 128 p.amt1 b1
        let s ← fit 128 fair
        .ok ({ p with amt0 := n0, amt1 := n1 }, b0, b1, s)
      else do
        assertE (a0 > 0) (.e 31)
        let n0 ← addW 128 p.amt0 a0
        assertE (a1 > 0) (.e 31)
        let n1 ← addW 128 p.amt1 a1
        .ok ({ p with amt0 := n0, amt1 := n1 }, a0, a1, INIT_SHARES_SUPPLY) :
        R (SimplePool × Nat × Nat × Nat))
    let p ← p.mintShares sender s isView
    assertE (s > 0) (.e 32)
    .ok (p, [a0, a1], s)
  | _ => .error (.e 89)

/-- One round of the loop of `remove_liquidity`
(`/repo/ref-exchange/src/simple_pool.rs:211-217`): amount paid and new reserve. -/
def payOut (bal shares supply minAmount : Nat) : R (Nat × Nat) := do
  let m ← mulW 256 bal shares
  let q ← divW m supply
  let a ← fit 128 q
  assertE (a ≥ minAmount) (.e 68)
  let n ← subW bal a
  .ok (a, n)

/-- `remove_liquidity`, `/repo/ref-exchange/src/simple_pool.rs:186-234`. Both branches at
200-206 store `prev - shares`. -/
def removeLiquidity (p : SimplePool) (sender : AccountId) (shares : Nat)
    (minAmounts : List Nat) (isView : Bool) : R (SimplePool × List Nat) := do
  match minAmounts with
  | [m0, m1] =>
    let p ← (if isView then .ok p
      else do
        let prev ← expectE (p.shares.get? sender) (.e 13)
        assertE (prev ≥ shares) (.e 91)
        .ok { p with shares := p.shares.insert sender (prev - shares) } : R SimplePool)
    let (r0, n0) ← payOut p.amt0 shares p.supply m0
    let (r1, n1) ← payOut p.amt1 shares p.supply m1
    let s ← subW p.supply shares
    .ok ({ p with amt0 := n0, amt1 := n1, supply := s }, [r0, r1])
  | _ => .error (.e 89)

/-- `token_index`, `/repo/ref-exchange/src/simple_pool.rs:237-242`. -/
def tokenIndex (p : SimplePool) (t : AccountId) : R Bool :=
  if p.tok0 = t then .ok false
  else if p.tok1 = t then .ok true
  else .error (.e 102)

/-- `internal_get_return`, `/repo/ref-exchange/src/simple_pool.rs:246-264`. -/
def internalGetReturn (p : SimplePool) (i : Bool) (amountIn : Nat) (o : Bool) : R Nat := do
  assertE (p.amt i > 0 ∧ p.amt o > 0 ∧ i ≠ o ∧ amountIn > 0) (.e 76)
  let f ← subW FEE_DIVISOR p.totalFee
  let awf ← mulW 256 amountIn f
  let num ← mulW 256 awf (p.amt o)
  let d0 ← mulW 256 FEE_DIVISOR (p.amt i)
  let den ← addW 256 d0 awf
  let q ← divW num den
  fit 128 q

/-- `internal_get_return_by_output`, `/repo/ref-exchange/src/simple_pool.rs:268-286`. -/
def internalGetReturnByOutput (p : SimplePool) (i : Bool) (amountOut : Nat) (o : Bool) :
    R Nat := do
  assertE (p.amt i > 0 ∧ p.amt o > 0 ∧ i ≠ o ∧ amountOut > 0) (.e 76)
  let n0 ← mulW 256 (p.amt i) amountOut
  let num ← mulW 256 n0 FEE_DIVISOR
  let d0 ← subW (p.amt o) amountOut
  let f ← subW FEE_DIVISOR p.totalFee
  let den ← mulW 256 d0 f
  let q ← divW num den
  let r ← addW 256 q 1
  fit 128 r

/-- The referral's part of the admin shares,
`/repo/ref-exchange/src/simple_pool.rs:393-401`. -/
def referralShare (p : SimplePool) (fees : AdminFees) (adminShares : Nat) : R Nat :=
  match fees.referral with
  | some (rid, rfee) =>
    if p.shares.contains rid then u128Ratio adminShares rfee FEE_DIVISOR else .ok 0
  | none => .ok 0

/-- `update_pool_and_distribute_fee`,
`/repo/ref-exchange/src/simple_pool.rs:357-432`. -/
def updatePool (p : SimplePool) (i : Bool) (amountIn : Nat) (o : Bool) (amountOut : Nat)
    (fees : AdminFees) (isView : Bool) : R SimplePool := do
  let k0 ← mulW 256 (p.amt i) (p.amt o)
  let prevInv ← integerSqrt k0
  let ai ← addW 128 (p.amt i) amountIn
  let p := p.setAmt i ai
  let ao ← subW (p.amt o) amountOut
  let p := p.setAmt o ao
  let k1 ← mulW 256 (p.amt i) (p.amt o)
  let newInv ← integerSqrt k1
  assertE (newInv ≥ prevInv) (.e 75)
  let num ← mulW 256 (newInv - prevInv) p.supply
  if fees.adminFeeBps > 0 ∧ num > 0 then do
    let d0 ← mulW 256 prevInv FEE_DIVISOR
    let den ← divW d0 fees.adminFeeBps
    let q ← divW num den
    let adminShares ← fit 128 q
    let rs ← p.referralShare fees adminShares
    let p ← (match fees.referral with
      | some (rid, _) => if rs > 0 then p.mintShares rid rs isView else .ok p
      | none => .ok p : R SimplePool)
    let ex ← subW adminShares rs
    p.mintShares fees.exchangeId ex isView
  else .ok p

/-- `swap`, `/repo/ref-exchange/src/simple_pool.rs:300-325`. -/
def swap (p : SimplePool) (tokenIn : AccountId) (amountIn : Nat) (tokenOut : AccountId)
    (minOut : Nat) (fees : AdminFees) (isView : Bool) : R (SimplePool × Nat) := do
  assertE (tokenIn ≠ tokenOut) (.e 73)
  let i ← p.tokenIndex tokenIn
  let o ← p.tokenIndex tokenOut
  let out ← p.internalGetReturn i amountIn o
  assertE (out ≥ minOut) (.e 68)
  let p ← p.updatePool i amountIn o out fees isView
  .ok (p, out)

/-- `swap_by_output`, `/repo/ref-exchange/src/simple_pool.rs:330-355`. -/
def swapByOutput (p : SimplePool) (tokenIn : AccountId) (amountOut : Nat)
    (tokenOut : AccountId) (maxIn : Option Nat) (fees : AdminFees) (isView : Bool) :
    R (SimplePool × Nat) := do
  assertE (tokenIn ≠ tokenOut) (.e 73)
  let i ← p.tokenIndex tokenIn
  let o ← p.tokenIndex tokenOut
  let inn ← p.internalGetReturnByOutput i amountOut o
  assertE (maxIn.all (fun m => decide (inn ≤ m)) = true) (.e 68)
  let p ← p.updatePool i inn o amountOut fees isView
  .ok (p, inn)

end SimplePool
end Verif

import Verif.Curve.Math

/-
Model of the stable, rated and degen pools: `/repo/ref-exchange/src/stable_swap/mod.rs`,
`rated_swap/mod.rs`, `degen_swap/mod.rs`. One model with a `kind` field covers the three,
see `Curve/Math.lean`. Line numbers are given for the stable file first, then the rated
file; the degen file is the rated one shifted by a few lines.
-/

namespace Verif

/-- `StableSwapPool` (`stable_swap/mod.rs:22-45`), `RatedSwapPool` (`rated_swap/mod.rs:32-55`),
`DegenSwapPool` (`degen_swap/mod.rs:31-54`). The obsolete `volumes` field is omitted. -/
structure CurvePool where
  kind : CurveKind
  toks : List AccountId
  decs : List Nat
  cAmts : List Nat
  totalFee : Nat
  shares : FMap AccountId Nat
  supply : Nat
  initAmp : Nat
  targetAmp : Nat
  initTime : Nat
  stopTime : Nat

/-- What a call reads from its surroundings: the block timestamp, `get_rates()`
(`rated_swap/mod.rs:94-105`, `degen_swap/mod.rs:94-101`) and the outcome of
`assert_rates_valid` (`rated_swap/mod.rs:107-111`, `degen_swap/mod.rs:103-107`). Stable pools
ignore the last two. -/
structure CurveEnv where
  now : Nat
  rates : List Nat
  valid : Bool

namespace CurvePool

/-- `new`, `stable_swap/mod.rs:48-78`, `rated_swap/mod.rs:58-88`, `degen_swap/mod.rs:57-87`.
`MIN_DECIMAL` is 1 and `MAX_DECIMAL` is 24 for all kinds. -/
def new (kind : CurveKind) (tokens : List AccountId) (decs : List Nat) (amp totalFee : Nat) :
    R CurvePool := do
  assertE (∀ d ∈ decs, d ≤ 24 ∧ 1 ≤ d) (.e 60)
  assertE (amp ≥ MIN_AMP ∧ amp ≤ MAX_AMP) (.e 61)
  assertE (totalFee < FEE_DIVISOR) (.e 62)
  .ok { kind, toks := tokens, decs, cAmts := tokens.map fun _ => 0, totalFee,
        shares := FMap.empty, supply := 0, initAmp := amp, targetAmp := amp,
        initTime := 0, stopTime := 0 }

/-- `amount_to_c_amount`, `stable_swap/mod.rs:120-133`, `rated_swap/mod.rs:135-141`: from token
units to the pool's internal units, `d` is the token's decimals. In a rated or degen pool
`TARGET_DECIMAL - value` would underflow for `d > 24`. -/
def amountToC (k : CurveKind) (d amount : Nat) : R Nat :=
  if d ≤ k.target then mulW 128 amount (10 ^ (k.target - d))
  else match k with
    | .stable => divW amount (10 ^ (d - k.target))
    | _ => .error .arith

/-- `c_amount_to_amount`, `stable_swap/mod.rs:135-148`, `rated_swap/mod.rs:143-149`. -/
def cToAmount (k : CurveKind) (d c : Nat) : R Nat :=
  if d ≤ k.target then divW c (10 ^ (k.target - d))
  else match k with
    | .stable => mulW 128 c (10 ^ (d - k.target))
    | _ => .error .arith

/-- `amounts_to_c_amounts`, `stable_swap/mod.rs:102-118`, `rated_swap/mod.rs:124-133`: a loop
over the decimals that overwrites a copy of the amounts. -/
def amountsToC (k : CurveKind) : (decs amounts : List Nat) → R (List Nat)
  | [], as => .ok as
  | _ :: _, [] => .error .index
  | d :: ds, a :: as => do
    let c ← amountToC k d a
    let r ← amountsToC k ds as
    .ok (c :: r)

/-- `get_amounts`, `stable_swap/mod.rs:84-100`, `rated_swap/mod.rs:113-122`. -/
def amountsOf (k : CurveKind) : (decs cs : List Nat) → R (List Nat)
  | [], cs => .ok cs
  | _ :: _, [] => .error .index
  | d :: ds, c :: cs => do
    let a ← cToAmount k d c
    let r ← amountsOf k ds cs
    .ok (a :: r)

/-- `get_amounts` -/
def getAmounts (p : CurvePool) : R (List Nat) := amountsOf p.kind p.decs p.cAmts

/-- The calculator for the current time: `get_invariant` (`stable_swap/mod.rs:166-174`),
`get_invariant_with_rates` (`rated_swap/mod.rs:167-176`). -/
def inv (p : CurvePool) (env : CurveEnv) : Inv :=
  { kind := p.kind
    amp := computeAmp p.initAmp p.targetAmp env.now p.initTime p.stopTime
    rates := env.rates }

/-- `get_amp`, `stable_swap/mod.rs:158-164`, `rated_swap/mod.rs:159-165`; `as u64` truncates. -/
def getAmp (p : CurvePool) (env : CurveEnv) : Nat :=
  match (p.inv env).amp with
  | .ok a => a % 2 ^ 64
  | .error _ => 0

/-- `assert_rates_valid`, `rated_swap/mod.rs:107-111` (error E120), `degen_swap/mod.rs:103-107`
(error E129); nothing for stable pools. -/
def assertRates (p : CurvePool) (env : CurveEnv) : R Unit :=
  match p.kind with
  | .stable => .ok ()
  | .rated => assertE (env.valid = true) (.e 120)
  | .degen => assertE (env.valid = true) (.e 129)

/-- `token_index`, `stable_swap/mod.rs:177-182`, `rated_swap/mod.rs:179-184`. -/
def tokenIndex (p : CurvePool) (t : AccountId) : R Nat :=
  expectE (p.toks.findIdx? (fun x => decide (x = t))) (.e 63)

/-- `mint_shares`, `stable_swap/mod.rs:591-599`, `rated_swap/mod.rs:681-689`. -/
def mintShares (p : CurvePool) (a : AccountId) (s : Nat) (isView : Bool) : R CurvePool := do
  if s = 0 then .ok p
  else
    let t ← addW 128 p.supply s
    let p := { p with supply := t }
    if isView then .ok p
    else
      let sh ← addToCollection p.shares a s
      .ok { p with shares := sh }

/-- `burn_shares`, `stable_swap/mod.rs:602-613`, `rated_swap/mod.rs:692-703`. -/
def burnShares (p : CurvePool) (a : AccountId) (prev s : Nat) : R CurvePool := do
  if s = 0 then .ok p
  else
    let n ← subW prev s
    .ok { p with shares := p.shares.insert a n }

/-- `calc_add_liquidity`, `stable_swap/mod.rs:209-243`; `calc_add_liquidity_with_rates`,
`rated_swap/mod.rs:210-247`. Returns the shares for the provider and the fee part. -/
def calcAdd (p : CurvePool) (amounts : List Nat) (fees : AdminFees) (env : CurveEnv) :
    R (Nat × Nat) := do
  let cs ← amountsToC p.kind p.decs amounts
  if p.supply = 0 then do
    p.assertRates env
    assertE (∀ c ∈ cs, c > 0) (.e 65)
    let d ← (p.inv env).dWithRates cs
    let s ← fit 128 d
    .ok (s, 0)
  else
    (p.inv env).lpForDeposit cs p.cAmts p.supply ⟨p.totalFee, fees.adminFeeBps⟩

/-- The loop that adds the deposit to the reserves, `stable_swap/mod.rs:263-265`,
`rated_swap/mod.rs:288-290`. `c_amounts` has one entry per token from construction on. -/
def addAmounts (k : CurveKind) : (cs decs amounts : List Nat) → R (List Nat)
  | [], _, _ => .ok []
  | c :: cs, d :: ds, a :: as => do
    let x ← amountToC k d a
    let n ← addW 128 c x
    let r ← addAmounts k cs ds as
    .ok (n :: r)
  | _, _, _ => .error .index

/-- The protocol's part of an imbalance fee is minted to the referral and the exchange,
`stable_swap/mod.rs:277-304` and `417-444`, `rated_swap/mod.rs:303-330` and `473-500`, with
`calc_referral_share` of `/repo/ref-exchange/src/admin_fee.rs:35-42`. -/
def mintFeePart (p : CurvePool) (feePart : Nat) (fees : AdminFees) (isView : Bool) :
    R CurvePool := do
  if feePart > 0 then do
    let adm ← u128Ratio feePart fees.adminFeeBps FEE_DIVISOR
    let (rs, rid) ← (match fees.referral with
      | some (rid, rfee) => do
        let s ← u128Ratio adm rfee FEE_DIVISOR
        .ok (s, rid)
      | none => .ok (0, fees.exchangeId) : R (Nat × AccountId))
    let rs := if rs > 0 ∧ p.shares.contains rid = false then 0 else rs
    let p ← p.mintShares rid rs isView
    let ex ← subW adm rs
    p.mintShares fees.exchangeId ex isView
  else .ok p

/-- `add_liquidity`, `stable_swap/mod.rs:248-307`, `rated_swap/mod.rs:271-333`. -/
def addLiquidity (p : CurvePool) (sender : AccountId) (amounts : List Nat) (minShares : Nat)
    (fees : AdminFees) (env : CurveEnv) (isView : Bool) : R (CurvePool × Nat) := do
  assertE (amounts.length = p.toks.length) (.e 64)
  let (s, feePart) ← p.calcAdd amounts fees env
  assertE (s ≥ minShares) (.e 68)
  let cs ← addAmounts p.kind p.cAmts p.decs amounts
  let p := { p with cAmts := cs }
  let p ← p.mintShares sender s isView
  let p ← p.mintFeePart feePart fees isView
  .ok (p, s)

/-- The loop of `remove_liquidity_by_shares`, `stable_swap/mod.rs:330-341`,
`rated_swap/mod.rs:356-367`: new reserves and amounts paid. -/
def removeLoop (k : CurveKind) (shares supply : Nat) : (cs decs mins : List Nat) →
    R (List Nat × List Nat)
  | [], _, _ => .ok ([], [])
  | c :: cs, d :: ds, m :: ms => do
    let x ← mulW 256 c shares
    let q ← divW x supply
    let q ← fit 128 q
    let n ← subW c q
    assertE (n ≥ k.minReserve) (.e 69)
    let a ← cToAmount k d q
    assertE (a ≥ m) (.e 68)
    let (ns, as) ← removeLoop k shares supply cs ds ms
    .ok (n :: ns, a :: as)
  | _, _, _ => .error .index

/-- `remove_liquidity_by_shares`, `stable_swap/mod.rs:310-356`, `rated_swap/mod.rs:336-382`. -/
def removeByShares (p : CurvePool) (sender : AccountId) (shares : Nat) (mins : List Nat)
    (isView : Bool) : R (CurvePool × List Nat) := do
  assertE (mins.length = p.toks.length) (.e 64)
  let p ← (if isView then .ok p
    else do
      let prev ← expectE (p.shares.get? sender) (.e 13)
      assertE (prev ≥ shares) (.e 34)
      p.burnShares sender prev shares : R CurvePool)
  let (cs, out) ← removeLoop p.kind shares p.supply p.cAmts p.decs mins
  let s ← subW p.supply shares
  .ok ({ p with cAmts := cs, supply := s }, out)

/-- First check loop of `remove_liquidity_by_tokens`, `stable_swap/mod.rs:374-376`,
`rated_swap/mod.rs:428-430`. -/
def checkReserves (k : CurveKind) : (cs wd : List Nat) → R Unit
  | [], _ => .ok ()
  | c :: cs, x :: xs => do
    assertE (c - x ≥ k.minReserve) (.e 69)
    checkReserves k cs xs
  | _ :: _, [] => .error .index

/-- Second loop of `remove_liquidity_by_tokens`, `stable_swap/mod.rs:401-404`,
`rated_swap/mod.rs:457-460`. -/
def subReserves (k : CurveKind) : (cs wd : List Nat) → R (List Nat)
  | [], _ => .ok []
  | c :: cs, x :: xs => do
    let n ← subW c x
    assertE (n ≥ k.minReserve) (.e 69)
    let r ← subReserves k cs xs
    .ok (n :: r)
  | _ :: _, [] => .error .index

/-- `remove_liquidity_by_tokens`, `stable_swap/mod.rs:361-447`, `rated_swap/mod.rs:414-503`. -/
def removeByTokens (p : CurvePool) (sender : AccountId) (amounts : List Nat) (maxBurn : Nat)
    (fees : AdminFees) (env : CurveEnv) (isView : Bool) : R (CurvePool × Nat) := do
  assertE (amounts.length = p.toks.length) (.e 64)
  let cs ← amountsToC p.kind p.decs amounts
  checkReserves p.kind p.cAmts cs
  p.assertRates env
  let (burn, feePart) ←
    (p.inv env).lpForWithdraw cs p.cAmts p.supply ⟨p.totalFee, fees.adminFeeBps⟩
  let p ← (if isView then .ok p
    else do
      let prev ← expectE (p.shares.get? sender) (.e 13)
      assertE (burn ≤ prev) (.e 34)
      assertE (burn ≤ maxBurn) (.e 68)
      p.burnShares sender prev burn : R CurvePool)
  let ns ← subReserves p.kind p.cAmts cs
  let s ← subW p.supply burn
  let p := { p with cAmts := ns, supply := s }
  let p ← p.mintFeePart feePart fees isView
  .ok (p, burn)

/-- `internal_get_return`, `stable_swap/mod.rs:452-472`; `internal_get_return_with_rates`,
`rated_swap/mod.rs:519-540`. -/
def getReturn (p : CurvePool) (i amountIn o : Nat) (fees : AdminFees) (env : CurveEnv) :
    R SwapResult := do
  let d ← expectE p.decs[i]? .index
  let c ← amountToC p.kind d amountIn
  (p.inv env).swapTo i c o p.cAmts ⟨p.totalFee, fees.adminFeeBps⟩

/-- `distribute_admin_fee`, `stable_swap/mod.rs:554-588`, `rated_swap/mod.rs:644-678`. -/
def distributeAdminFee (p : CurvePool) (exchangeId referralId : AccountId) (referralBps : Nat)
    (tok cAmount : Nat) (env : CurveEnv) (isView : Bool) : R CurvePool := do
  let dep := (p.cAmts.map fun _ => 0).set tok cAmount
  let (s, _) ← (p.inv env).lpForDeposit dep p.cAmts p.supply ⟨0, 0⟩
  let old ← expectE p.cAmts[tok]? .index
  let n ← addW 128 old cAmount
  let p := { p with cAmts := p.cAmts.set tok n }
  let rs ← (if referralBps > 0 then u128Ratio s referralBps FEE_DIVISOR else .ok 0 : R Nat)
  let p ← p.mintShares referralId rs isView
  let ex ← subW s rs
  p.mintShares exchangeId ex isView

/-- The admin fee part of `swap`, `stable_swap/mod.rs:517-547`, `rated_swap/mod.rs:607-637`. -/
def swapFee (p : CurvePool) (o adminFee : Nat) (fees : AdminFees) (env : CurveEnv)
    (isView : Bool) : R CurvePool :=
  if fees.adminFeeBps > 0 ∧ adminFee > 0 then
    match fees.referral with
    | some (rid, rfee) =>
      if p.shares.contains rid then
        p.distributeAdminFee fees.exchangeId rid rfee o adminFee env isView
      else p.distributeAdminFee fees.exchangeId rid 0 o adminFee env isView
    | none => p.distributeAdminFee fees.exchangeId fees.exchangeId 0 o adminFee env isView
  else .ok p

/-- `swap`, `stable_swap/mod.rs:476-550`, `rated_swap/mod.rs:565-640`. The log line of a
non-view run converts the two fees and can panic there, so it is part of the model. -/
def swap (p : CurvePool) (tokenIn : AccountId) (amountIn : Nat) (tokenOut : AccountId)
    (minOut : Nat) (fees : AdminFees) (env : CurveEnv) (isView : Bool) :
    R (CurvePool × Nat) := do
  assertE (tokenIn ≠ tokenOut) (.e 71)
  let i ← p.tokenIndex tokenIn
  let o ← p.tokenIndex tokenOut
  p.assertRates env
  let r ← p.getReturn i amountIn o fees env
  let d ← expectE p.decs[o]? .index
  let out ← cToAmount p.kind d r.swapped
  assertE (out ≥ minOut) (.e 68)
  (if isView then .ok ()
    else do
      let _ ← cToAmount p.kind d r.fee
      let _ ← cToAmount p.kind d r.adminFee
      .ok () : R Unit)
  let p := { p with cAmts := (p.cAmts.set i r.newSource).set o r.newDest }
  assertE (r.newDest ≥ p.kind.minReserve) (.e 69)
  let p ← p.swapFee o r.adminFee fees env isView
  .ok (p, out)

/-- `get_rated_return`, `rated_swap/mod.rs:543-561` (and `degen_swap/mod.rs:545-563`); for a
stable pool a quote is a view run of `swap`. The rates are the ones in `env` (either the
stored ones or the ones given by the caller). -/
def getRatedReturn (p : CurvePool) (tokenIn : AccountId) (amountIn : Nat)
    (tokenOut : AccountId) (fees : AdminFees) (env : CurveEnv) : R Nat := do
  assertE (tokenIn ≠ tokenOut) (.e 71)
  let i ← p.tokenIndex tokenIn
  let o ← p.tokenIndex tokenOut
  let r ← p.getReturn i amountIn o fees env
  let d ← expectE p.decs[o]? .index
  cToAmount p.kind d r.swapped

/-- `share_register`, `stable_swap/mod.rs:622-627`, `rated_swap/mod.rs:712-717`. -/
def shareRegister (p : CurvePool) (a : AccountId) : R CurvePool := do
  assertE (p.shares.contains a = false) (.e 14)
  .ok { p with shares := p.shares.insert a 0 }

/-- `share_unregister`, `stable_swap/mod.rs:631-634`, `rated_swap/mod.rs:721-724`. -/
def shareUnregister (p : CurvePool) (a : AccountId) : R CurvePool := do
  let s ← expectE (p.shares.get? a) (.e 13)
  assertE (s = 0) (.e 19)
  .ok { p with shares := p.shares.erase a }

/-- `share_transfer`, `stable_swap/mod.rs:637-649`, `rated_swap/mod.rs:727-739`. -/
def shareTransfer (p : CurvePool) (sender receiver : AccountId) (amount : Nat) :
    R CurvePool := do
  let bal ← expectE (p.shares.get? sender) (.e 13)
  assertE (amount ≤ bal) (.e 34)
  let shares1 := p.shares.insert sender (bal - amount)
  let balOut ← expectE (shares1.get? receiver) (.e 13)
  let n ← addW 128 balOut amount
  .ok { p with shares := shares1.insert receiver n }

/-- `share_balance_of`, `stable_swap/mod.rs:652-654`, `rated_swap/mod.rs:742-744`. -/
def shareBalanceOf (p : CurvePool) (a : AccountId) : Nat := p.shares.getD a 0

/-- `ramp_amplification`, `stable_swap/mod.rs:667-705`, `rated_swap/mod.rs:757-788`. Timestamps
are `u64`. -/
def ramp (p : CurvePool) (future futureTime now : Nat) : R CurvePool := do
  let t ← addW 64 p.initTime MIN_RAMP_DURATION
  assertE (now ≥ t) (.e 81)
  let t ← addW 64 now MIN_RAMP_DURATION
  assertE (futureTime ≥ t) (.e 82)
  let amp ← computeAmp p.initAmp p.targetAmp now p.initTime p.stopTime
  assertE (future > 0 ∧ future < MAX_AMP) (.e 83)
  assertE ((future ≥ amp ∧ future ≤ amp * MAX_AMP_CHANGE) ∨
    (future < amp ∧ future * MAX_AMP_CHANGE ≥ amp)) (.e 84)
  .ok { p with initAmp := amp, initTime := now, targetAmp := future, stopTime := futureTime }

/-- `stop_ramp_amplification`, `stable_swap/mod.rs:708-724`, `rated_swap/mod.rs:791-800`. -/
def stopRamp (p : CurvePool) (now : Nat) : R CurvePool := do
  let amp ← computeAmp p.initAmp p.targetAmp now p.initTime p.stopTime
  .ok { p with initAmp := amp, targetAmp := amp, initTime := now, stopTime := now }

/-- `get_share_price`, `stable_swap/mod.rs:195-205`, `rated_swap/mod.rs:197-206`. -/
def sharePrice (p : CurvePool) (env : CurveEnv) : R Nat := do
  let v ← (match p.kind with
    | .stable => sumU128 p.cAmts 0
    | _ => (p.inv env).dWithRates p.cAmts : R Nat)
  let m ← mulW p.kind.width v 100000000
  if p.supply = 0 then .ok 100000000 else fit 128 (m / p.supply)

/-- `get_tvl`, `degen_swap/mod.rs:204-209`, without the validity check of
`/repo/ref-exchange/src/pool.rs:173-176`. -/
def tvl (p : CurvePool) (env : CurveEnv) : R Nat := do
  let xs ← rateBalances p.kind env.rates p.cAmts
  sumU128 (xs.map (· / PRECISION)) 0

end CurvePool
end Verif

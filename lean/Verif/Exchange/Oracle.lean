import Verif.Exchange.Spec

/-
How rates and prices get into the contract: `/repo/ref-exchange/src/oracle.rs`,
`rated_swap/{rate,stnear_rate,linear_rate,nearx_rate,sfrax_rate}.rs`,
`degen_swap/{degen,price_oracle,pyth_oracle}.rs` and the methods `lib.rs:562-642`.

Anyone may ask for an update. The contract then calls the oracle, and the reply arrives in a callback,
which is a later receipt. The model starts from the decoded reply: a reply that does not decode to the
type the callback expects is `Reply.other` or another constructor and makes the callback panic, as
`from_slice(..).expect(..)` does. The confidence interval of a Pyth price is not read by the contract
and is omitted.
-/

namespace Verif

/-- `price_oracle::Price`, `oracle.rs:13-17`. -/
structure AssetPrice where
  multiplier : Nat
  decimals : Nat

/-- `price_oracle::PriceData`, `oracle.rs:21-33`. -/
structure PriceData where
  timestamp : Nat
  recency : Nat
  prices : List (AccountId × Option AssetPrice)

/-- `pyth_oracle::Price`, `oracle.rs:65-73`. The price and the times are signed. -/
structure PythPrice where
  price : Int
  expo : Int
  publishTime : Int

/-- What an oracle (or the contract of a rated token) replies: a number, the data of the price
oracle, one or two prices of the Pyth oracle, a map of such prices, or something else. -/
inductive Reply where
  | number (n : Nat)
  | prices (d : PriceData)
  | pyth (p : PythPrice)
  | pythPair (base rate : PythPrice)
  | pythMap (m : FMap Nat (Option PythPrice))
  | other

/-- A callback that waits for a reply, with its arguments: `update_token_rate_callback`,
`update_degen_token_price_callback`, `batch_update_degen_token_by_price_oracle_callback` and
`batch_update_degen_token_by_pyth_oracle_callback`. The last one goes through a `HashMap`, in any
order. -/
inductive OracleCall where
  | rate (t : AccountId)
  | degen (t : AccountId)
  | batchPrice (decs : FMap AccountId Nat)
  | batchPyth (ids : List (Nat × List AccountId))

/-- `to_nano`, `utils.rs:172-174`: a `u32` times 10^9 fits into a `u64`. -/
def toNano (sec : Nat) : Nat := sec * 10 ^ 9

/-- `10u128.pow(n)`: 10^38 is the last power that fits. -/
def pow10 (n : Nat) : R Nat := if n ≤ 38 then .ok (10 ^ n) else .error .arith

/-- `PriceData::assert_valid`, `oracle.rs:36-49`, and the same three assertions in
`sfrax_rate.rs:103-114`. -/
def PriceData.assertValid (d : PriceData) (now recency staleness : Nat) : R Unit := do
  assertE (d.recency ≤ recency) .other
  assertE (d.timestamp ≤ now) .other
  assertE (now - d.timestamp ≤ toNano staleness) .other

/-- The price of the base unit of a token with `dec` decimals, `price_oracle.rs:65-66`, `111-112`. The
difference of the decimals is a `u8`. -/
def AssetPrice.scaled (p : AssetPrice) (dec : Nat) : R Nat := do
  let k ← subW p.decimals dec
  let f ← pow10 k
  u128Ratio PRECISION p.multiplier f

/-- `publish_time as u32 + valid_duration`, in nanoseconds, not before the block time:
`oracle.rs:78-79`, `pyth_oracle.rs:54`, `sfrax_rate.rs:135-136`. The cast keeps the low 32 bits; the
addition is on `u32`. -/
def PythPrice.inTime (p : PythPrice) (now validFor : Nat) : R Bool := do
  if 0 < p.publishTime then
    let s ← addW 32 (p.publishTime.toNat % 2 ^ 32) validFor
    .ok (decide (now ≤ toNano s))
  else .ok false

/-- `Price::is_valid`, `oracle.rs:76-80`. -/
def PythPrice.isValid (p : PythPrice) (now validFor : Nat) : R Bool :=
  if 0 < p.price then p.inTime now validFor else .ok false

/-- The assertions on a price, `pyth_oracle.rs:53-54`, `sfrax_rate.rs:133-136`. -/
def PythPrice.assertValid (p : PythPrice) (now validFor : Nat) : R Unit := do
  assertE (0 < p.price) .other
  let b ← p.inTime now validFor
  assertE (b = true) .other

/-- The price times `PRECISION` as a `U256`, `pyth_oracle.rs:56-60`, `103-107`,
`sfrax_rate.rs:138-148`. Only called with a positive price. -/
def PythPrice.scaled (p : PythPrice) : R Nat := do
  let m ← mulW 256 PRECISION p.price.toNat
  let f ← pow10 p.expo.natAbs
  if 0 < p.expo then mulW 256 m f else divW m f

namespace Contract

/-! ### Requests -/

/-- `update_token_rate`, `lib.rs:563-579`: without a rate nothing is asked. -/
def askRate (c : Contract) (t : AccountId) : List OracleCall :=
  if c.cfg.rates.contains t then [.rate t] else []

/-- Is the oracle of this source configured? `degen.rs:263-279`. -/
def hasOracleFor (c : Contract) : DegenSource → Bool
  | .priceOracle _ => c.cfg.priceOracle.isSome
  | .pyth _ => c.cfg.pythOracle.isSome

/-- `update_degen_token_price`, `lib.rs:622-628`, `degen.rs:73-80`. -/
def askDegen (c : Contract) (t : AccountId) : R (List OracleCall) := do
  let d ← expectE (c.cfg.degens.get? t) .other
  assertE (c.hasOracleFor d.source = true) .other
  .ok [.degen t]

/-- The loop of `internal_batch_update_degen_token_price`, `degen.rs:296-312`. -/
def sortTokens (c : Contract) : FMap AccountId Nat → FMap Nat (List AccountId) → List AccountId →
    R (FMap AccountId Nat × FMap Nat (List AccountId))
  | decs, ids, [] => .ok (decs, ids)
  | decs, ids, t :: ts => do
    let d ← expectE (c.cfg.degens.get? t) .other
    match d.source with
    | .priceOracle dec => c.sortTokens (decs.insert t dec) ids ts
    | .pyth id => c.sortTokens decs (ids.insert id (ids.getD id [] ++ [t])) ts

/-- The rest of `internal_batch_update_degen_token_price`, `degen.rs:313-318`, with
`price_oracle.rs:80-94` and `pyth_oracle.rs:74-90`: a request needs the configuration of its oracle.
`order` is the second map in the order in which the callback goes through it. -/
def askBatch (c : Contract) (ts : List AccountId) (order : List (Nat × List AccountId)) :
    R (List OracleCall) := do
  let (decs, ids) ← c.sortTokens FMap.empty FMap.empty ts
  assertE (decs.entries ≠ [] → c.cfg.priceOracle.isSome = true) .other
  assertE (ids.entries ≠ [] → c.cfg.pythOracle.isSome = true) .other
  assertE (order.isPerm ids.entries = true) .other
  .ok ((if decs.entries.isEmpty then [] else [.batchPrice decs]) ++
    (if order.isEmpty then [] else [.batchPyth order]))

/-! ### Callbacks -/

/-- `Degen::set_price`, `degen.rs:127-132`, `price_oracle.rs:57-73`, `pyth_oracle.rs:49-68`: the price
that is stored. -/
def degenPrice (c : Contract) (now : Nat) (t : AccountId) (s : DegenSource) : Reply → R Nat
  | .prices d => do
    match s with
    | .pyth _ => .error .other
    | .priceOracle dec =>
      let o ← expectE c.cfg.priceOracle .other
      d.assertValid now o.recency o.staleness
      let a ← expectE d.prices[0]? .index
      assertE (a.1 = t) .other
      let p ← expectE a.2 .other
      p.scaled dec
  | .pyth p => do
    match s with
    | .priceOracle _ => .error .other
    | .pyth _ =>
      let o ← expectE c.cfg.pythOracle .other
      p.assertValid now o.validFor
      let v ← p.scaled
      fit 128 v
  | _ => .error .other

/-- `update_degen_token_price_callback`, `lib.rs:632-642`; `none` is a failed call. -/
def degenCallback (c : Contract) (now : Nat) (t : AccountId) : Option Reply → R Contract
  | none => .ok c
  | some r => do
    let d ← expectE (c.cfg.degens.get? t) .other
    let v ← c.degenPrice now t d.source r
    .ok (c.setDegenPrice t v now)

/-- The loop of `batch_update_degen_token_by_price_oracle_callback`, `price_oracle.rs:106-120`. -/
def storePrices (now : Nat) (decs : FMap AccountId Nat) :
    Contract → List (AccountId × Option AssetPrice) → R Contract
  | c, [] => .ok c
  | c, (_, none) :: l => storePrices now decs c l
  | c, (t, some p) :: l =>
    match decs.get? t with
    | none => storePrices now decs c l
    | some dec => do
      let _ ← expectE (c.cfg.degens.get? t) .other
      let v ← p.scaled dec
      storePrices now decs (c.setDegenPrice t v now) l

/-- `batch_update_degen_token_by_price_oracle_callback`, `price_oracle.rs:98-122`. -/
def batchPriceCallback (c : Contract) (now : Nat) (decs : FMap AccountId Nat) :
    Option Reply → R Contract
  | none => .ok c
  | some (.prices d) => do
    let o ← expectE c.cfg.priceOracle .other
    d.assertValid now o.recency o.staleness
    storePrices now decs c d.prices
  | some _ => .error (.e 126)

/-- The inner loop of `batch_update_degen_token_by_pyth_oracle_callback`,
`pyth_oracle.rs:108-115`. -/
def storeAll (now v : Nat) : Contract → List AccountId → R Contract
  | c, [] => .ok c
  | c, t :: ts => do
    let _ ← expectE (c.cfg.degens.get? t) .other
    storeAll now v (c.setDegenPrice t v now) ts

/-- The outer loop, `pyth_oracle.rs:100-118`. -/
def storePyth (now validFor : Nat) (m : FMap Nat (Option PythPrice)) :
    Contract → List (Nat × List AccountId) → R Contract
  | c, [] => .ok c
  | c, (id, ts) :: l =>
    match m.get? id with
    | some (some p) => do
      let b ← p.isValid now validFor
      if b then
        let v ← p.scaled
        let v ← fit 128 v
        let c ← storeAll now v c ts
        storePyth now validFor m c l
      else storePyth now validFor m c l
    | _ => storePyth now validFor m c l

/-- `batch_update_degen_token_by_pyth_oracle_callback`, `pyth_oracle.rs:93-120`. -/
def batchPythCallback (c : Contract) (now : Nat) (ids : List (Nat × List AccountId)) :
    Option Reply → R Contract
  | none => .ok c
  | some (.pythMap m) => do
    let o ← expectE c.cfg.pythOracle .other
    storePyth now o.validFor m c ids
  | some _ => .error (.e 126)

/-- `Rate::set`, `rate.rs:68-75`, `stnear_rate.rs:41-49`, `linear_rate.rs:41-49`,
`nearx_rate.rs:41-49`, `sfrax_rate.rs:98-157`: the rate that is stored. -/
def newRate (now : Nat) (t : AccountId) : RateSource → Reply → R Nat
  | .direct, .number n => fit 128 n
  | .sfraxPrice base recency staleness, .prices d => do
    d.assertValid now recency staleness
    let b ← expectE d.prices[0]? .index
    let r ← expectE d.prices[1]? .index
    assertE (b.1 = base ∧ r.1 = t) .other
    let bp ← expectE b.2 .other
    let rp ← expectE r.2 .other
    assertE (bp.decimals = rp.decimals) .other
    u128Ratio PRECISION rp.multiplier bp.multiplier
  | .sfraxPyth _ _ validFor, .pythPair b r => do
    b.assertValid now validFor
    r.assertValid now validFor
    let bv ← b.scaled
    let rv ← r.scaled
    let m ← mulW 256 PRECISION rv
    let q ← divW m bv
    fit 128 q
  | _, _ => .error (.e 126)

/-- `update_token_rate_callback`, `lib.rs:582-610`. A failed call panics; a reply for a token that is
no longer registered is ignored. -/
def rateCallback (c : Contract) (now : Nat) (t : AccountId) : Option Reply → R Contract
  | none => .error (.e 124)
  | some r =>
    match c.cfg.rates.get? t with
    | none => .ok c
    | some i => do
      let v ← newRate now t i.source r
      .ok (c.setRate t v now)

/-- The reply to a request arrives. -/
def reply (c : Contract) (now : Nat) (r : Option Reply) : OracleCall → R Contract
  | .rate t => c.rateCallback now t r
  | .degen t => c.degenCallback now t r
  | .batchPrice decs => c.batchPriceCallback now decs r
  | .batchPyth ids => c.batchPythCallback now ids r

end Contract
end Verif

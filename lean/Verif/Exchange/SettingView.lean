import Verif.Exchange.AccountView
import Verif.Exchange.PoolView
import Verif.Exchange.TwapView
import Verif.Exchange.Admin

/-
What the views report about the settings of the exchange, `/repo/ref-exchange/src/views.rs:13-80`,
`364-383`, `611-619`, `687-746` and `1011-1024`.
-/

namespace Verif

/-- `ContractMetadata`, `views.rs:13-27`, without the version, which is a constant. -/
structure Metadata where
  owner : AccountId
  boostFarm : AccountId
  burrowland : AccountId
  guardians : List AccountId
  poolCount : Nat
  running : Bool
  adminFeeBps : Nat
  recordInterval : Nat
  wnear : Option AccountId
  postfixes : List (List Char)
  deriving DecidableEq

/-- `RatedTokenInfo`, `views.rs:40-46`. The type of the rate and the extra information are one value,
the source. -/
structure RatedTokenInfo where
  rate : Nat
  updated : Nat
  isValid : Bool
  source : RateSource

/-- `DegenTokenInfo`, `views.rs:51-58`. The type, the price identifier and the decimals are one value,
the source. -/
structure DegenTokenInfo where
  price : Nat
  updated : Nat
  isValid : Bool
  source : DegenSource

namespace Contract

/-- `metadata`, `views.rs:364-378`. -/
def metadata (c : Contract) : Metadata :=
  ⟨c.cfg.owner, c.cfg.boostFarm, c.cfg.burrowland, c.cfg.guardians, c.pools.length, c.cfg.running,
    c.cfg.adminFeeBps, c.cfg.recordInterval, c.cfg.wnear, c.cfg.postfixes⟩

/-- `get_guardians`, `views.rs:381-383`. -/
def getGuardians (c : Contract) : List AccountId := c.cfg.guardians

/-- `get_frozenlist_tokens`, `views.rs:612-614`. -/
def getFrozenTokens (c : Contract) : List AccountId := c.cfg.frozen

/-- `get_whitelisted_tokens`, `views.rs:617-619`. -/
def getWhitelistedTokens (c : Contract) : List AccountId := c.cfg.whitelist

/-- One entry of `list_rated_tokens`, `views.rs:697-713`; `are_actual`,
`rated_swap/linear_rate.rs:29-31` and the other rate types. -/
def ratedTokenInfo (now : Nat) (r : RateInfo) : R RatedTokenInfo := do
  let stop ← addW 64 r.updated Config.RATE_EXPIRE
  .ok ⟨r.rate, r.updated, decide (now ≤ stop), r.source⟩

/-- `list_rated_tokens`, `views.rs:687-718`. The result of the code is a map. -/
def listRatedTokens (c : Contract) (now : Nat) : R (List (AccountId × RatedTokenInfo)) :=
  c.cfg.rates.entries.mapM fun (t, r) => do
    let i ← ratedTokenInfo now r
    .ok (t, i)

/-- `From<&Degen> for DegenTokenInfo`, `views.rs:60-80`; `is_price_valid` and `get_price_info`,
`degen_swap/price_oracle.rs:46-52`, `degen_swap/pyth_oracle.rs:38-44`: a panic without a price or
without a configuration of the oracle. -/
def degenTokenInfo (c : Contract) (now : Nat) (d : DegenInfo) : R DegenTokenInfo := do
  let (price, updated) ← expectE d.price .other
  let e ← expectE (c.cfg.expire d.source) .other
  let stop ← addW 64 updated e
  .ok ⟨price, updated, decide (now ≤ stop), d.source⟩

/-- `batch_get_degen_tokens`, `views.rs:725-731`. -/
def batchGetDegenTokens (c : Contract) (now : Nat) (ts : List AccountId) :
    R (List (AccountId × Option DegenTokenInfo)) :=
  ts.mapM fun t =>
    match c.cfg.degens.get? t with
    | some d => do
      let i ← c.degenTokenInfo now d
      .ok (t, some i)
    | none => .ok (t, none)

/-- `list_degen_tokens`, `views.rs:733-742`. The result of the code is a map. -/
def listDegenTokens (c : Contract) (now : Nat) : R (List (AccountId × DegenTokenInfo)) :=
  c.cfg.degens.entries.mapM fun (t, d) => do
    let i ← c.degenTokenInfo now d
    .ok (t, i)

/-- `list_degen_oracle_configs`, `views.rs:744-746`. -/
def listOracleConfigs (c : Contract) : List OracleConfig :=
  (c.cfg.priceOracle.map OracleConfig.price).toList ++ (c.cfg.pythOracle.map OracleConfig.pyth).toList

end Contract
end Verif

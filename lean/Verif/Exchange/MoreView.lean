import Verif.Exchange.PoolView
import Verif.Exchange.AccountView
import Verif.Exchange.SettingView
import Verif.Exchange.TwapView
import Verif.Exchange.View

/-
The remaining views: those on pools of one kind, those that answer several questions at once, the
metadata of the shares of a pool and the lists for client echoes.
-/

namespace Verif

/-- `FungibleTokenMetadata` of the shares of a pool, without the fields that are constant. -/
structure ShareMetadata where
  name : List Char
  symbol : List Char
  decimals : Nat
  deriving DecidableEq

namespace Contract

/-- `get_pool_fee`, `views.rs:455-457`. -/
def getPoolFee (c : Contract) (id : Nat) : R Nat := do
  let p ← c.pool id
  .ok p.totalFee

/-- `get_stable_pool`, `get_rated_pool` and `get_degen_pool`, `views.rs:440-452`, with the conversions
in `views.rs:223-317`: a panic for a pool of another kind. -/
def getCurvePool (c : Contract) (k : CurveKind) (now id : Nat) : R (PoolInfo × CurveInfo) := do
  match ← c.pool id with
  | .simple _ => .error .other
  | .curve p =>
    if p.kind = k then do
      let e ← c.cfg.env now (.curve p)
      let i ← c.poolInfo now (.curve p)
      .ok (i, ⟨p.decs, p.cAmts, if p.kind = .stable then [] else e.rates⟩)
    else .error .other

/-- `get_pool_detail_info_by_ids`, `views.rs:433-437`. -/
def getPoolDetailByIds (c : Contract) (now : Nat) (ids : List Nat) :
    R (List (PoolInfo × Option CurveInfo)) :=
  ids.mapM (c.getPoolDetail now)

/-- `get_pool_volumes_by_ids`, `views.rs:468-473`. -/
def getPoolVolumesByIds (c : Contract) (ids : List Nat) : R (List (List (Nat × Nat))) :=
  ids.mapM c.getPoolVolumes

/-- `batch_predict_swap_actions`, `views.rs:872-882`: the list of deposits is indexed with the indices
of the list of actions. -/
def batchPredictSwapActions (c : Contract) (now : Nat) (deposits : List TokenCache)
    (actions : List (List Action)) : R (List TokenCache) :=
  (List.range' 0 actions.length).mapM fun i => do
    let d ← expectE deposits[i]? .index
    let l ← expectE actions[i]? .index
    c.predictSwapActions now d l

/-- `get_unit_lpt_assets`, `shadow_actions.rs:44-61`, for several pools. -/
def getUnitLptAssetsOf (c : Contract) (now : Nat) :
    List Nat → FMap (List Char) (Nat × List (AccountId × Nat)) →
      R (FMap (List Char) (Nat × List (AccountId × Nat)))
  | [], m => .ok m
  | id :: ids, m => do
    match ← c.getUnitLptAssets now id with
    | some v => c.getUnitLptAssetsOf now ids (m.insert (poolIdToShadowId id) v)
    | none => c.getUnitLptAssetsOf now ids m

/-- `batch_views`, `views.rs:1011-1024`. -/
def batchViews (c : Contract) (now : Nat) (a : Option AccountId) (ids : Option (List Nat)) :
    R (Option (List (Nat × ShadowRecord)) ×
      Option (FMap (List Char) (Nat × List (AccountId × Nat))) × Option (List Nat)) := do
  let records := a.map c.getShadowRecords
  let assets ← (match ids with
    | some ids => do
      let m ← c.getUnitLptAssetsOf now ids FMap.empty
      .ok (some m)
    | none => .ok none : R (Option (FMap (List Char) (Nat × List (AccountId × Nat)))))
  let shares ← (match a, ids with
    | some a, some ids => do
      let l ← c.getPoolSharesBatch ids a
      .ok (some l)
    | _, _ => .ok none : R (Option (List Nat)))
  .ok (records, assets, shares)

/-- `mft_metadata`, `multi_fungible_token.rs:349-368`: not implemented for other tokens. -/
def mftMetadata (c : Contract) (tokenId : List Char) : R ShareMetadata :=
  match parseTokenId tokenId with
  | .pool id => do
    let p ← c.pool id
    .ok ⟨"ref-pool-".toList ++ Nat.toDigits 10 id, "REF-POOL-".toList ++ Nat.toDigits 10 id,
      p.shareDecimal⟩
  | .token _ => .error .other

/-- `list_pool_twap_info_view`, `unit_lpt_cumulative_infos.rs:197-210`. -/
def listTwapInfos (c : Contract) (keys : List Nat) (start limit : Option Nat) :
    R (List (Nat × CumInfo)) :=
  pageOfMap c.twaps keys start limit

/-- `get_client_echo_token_id_whitelist`, `client_echo_limit.rs:111-114`. -/
def getEchoTokens (c : Contract) : List (List Char) := c.cfg.echoTokens

/-- `get_client_echo_sender_id_whitelist`, `client_echo_limit.rs:140-143`. -/
def getEchoSenders (c : Contract) : List (List Char) := c.cfg.echoSenders

/-- `get_secure_sender_whitelist`, `client_echo_limit.rs:172-175`. -/
def getSecureSenders (c : Contract) : List (List Char) := c.cfg.secureSenders

/-- `get_account_basic_info`, `views.rs:541-551`, without the counter `storage_used`, which the code
sets to 0 for new accounts (`account_deposit.rs:93`) and never changes. -/
def getAccountBasicInfo (c : Contract) (a : AccountId) : Option Nat :=
  (c.accounts.get? a).map Account.near

end Contract
end Verif

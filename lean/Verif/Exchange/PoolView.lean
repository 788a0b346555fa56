import Verif.Exchange.PoolInfo
import Verif.Paging

/-
What the views report about pools, `/repo/ref-exchange/src/views.rs:83-317`, `390-510`, `596-609`,
`990-1009`.
-/

namespace Verif

/-- What the details of curve pools add, `views.rs:207-221`, `243-258`, `282-297`. -/
structure CurveInfo where
  decimals : List Nat
  cAmounts : List Nat
  rates : List Nat
  deriving DecidableEq

namespace Contract

/-- `get_number_of_pools`, `views.rs:391-393`. -/
def numberOfPools (c : Contract) : Nat := c.pools.length

/-- `get_pools`, `views.rs:396-400`. -/
def getPools (c : Contract) (now start limit : Nat) : R (List PoolInfo) :=
  page c.pools.length (c.getPool now) start limit

/-- `get_pool_by_ids`, `views.rs:408-412`. -/
def getPoolByIds (c : Contract) (now : Nat) (ids : List Nat) : R (List PoolInfo) :=
  ids.mapM (c.getPool now)

/-- `get_pool_detail_info`, `views.rs:422-430`: the fields of `PoolInfo` and, for curve pools, those
of `CurveInfo`. The rates of a stable pool are not reported. -/
def getPoolDetail (c : Contract) (now id : Nat) : R (PoolInfo × Option CurveInfo) := do
  let p ← c.pool id
  let i ← c.poolInfo now p
  match p with
  | .simple _ => .ok (i, none)
  | .curve p => do
    let e ← c.cfg.env now (.curve p)
    .ok (i, some ⟨p.decs, p.cAmts, if p.kind = .stable then [] else e.rates⟩)

/-- `get_pool_detail_infos`, `views.rs:415-419`. -/
def getPoolDetails (c : Contract) (now start limit : Nat) :
    R (List (PoolInfo × Option CurveInfo)) :=
  page c.pools.length (c.getPoolDetail now) start limit

/-- `get_pool_volumes`, `views.rs:460-466`. -/
def getPoolVolumes (c : Contract) (id : Nat) : R (List (Nat × Nat)) := do
  let p ← c.pool id
  .ok (c.volumesOf id p)

/-- `list_pool_volumes`, `views.rs:475-479`. -/
def listPoolVolumes (c : Contract) (start limit : Nat) : R (List (List (Nat × Nat))) :=
  page c.pools.length c.getPoolVolumes start limit

/-- `get_pool_shares`, `views.rs:486-492`. -/
def getPoolShares (c : Contract) (id : Nat) (a : AccountId) : R Nat := do
  let p ← c.pool id
  .ok (p.shareBalance a)

/-- `get_pool_shares_batch`, `views.rs:494-500`. -/
def getPoolSharesBatch (c : Contract) (ids : List Nat) (a : AccountId) : R (List Nat) :=
  ids.mapM fun id => c.getPoolShares id a

/-- `get_pool_total_shares`, `views.rs:503-509`. -/
def getPoolTotalShares (c : Contract) (id : Nat) : R Nat := do
  let p ← c.pool id
  .ok p.supply

/-- `list_referrals`, `views.rs:596-609`. -/
def listReferrals (c : Contract) (keys : List AccountId) (start limit : Option Nat) :
    R (List (AccountId × Nat)) :=
  pageOfMap c.cfg.referrals keys start limit

/-- `get_degen_pool_tvl`, `views.rs:990-992` with `pool.rs:168-178`. -/
def getDegenPoolTvl (c : Contract) (now id : Nat) : R Nat := do
  match ← c.pool id with
  | .curve p =>
    if p.kind = .degen then do
      let e ← c.cfg.env now (.curve p)
      p.assertRates e
      p.tvl e
    else .error .other
  | .simple _ => .error .other

/-- `get_pool_limit_by_pool_id`, `views.rs:994-996`. -/
def getPoolLimit (c : Contract) (id : Nat) : Option Nat := c.cfg.limits.get? id

/-- `get_pool_limit_paged`, `views.rs:998-1009`. -/
def getPoolLimits (c : Contract) (keys : List Nat) (start limit : Option Nat) :
    R (List (Nat × Nat)) :=
  pageOfMap c.cfg.limits keys start limit

end Contract
end Verif

import Verif.Farming.ListView

/-
The views of the farming contract about a farmer and about a seed: `/repo/ref-farming/src/view.rs` and
`storage_impl.rs`.
-/

namespace Verif.Farming

/-- `StorageBalance` of the storage standard, in yoctoNEAR. -/
structure StorageBalance where
  total : Nat
  available : Nat
  deriving DecidableEq

/-- `Metadata`, `view.rs:21-31`, without the version. -/
structure Metadata where
  owner : AccountId
  farmerCount : Nat
  farmCount : Nat
  seedCount : Nat
  rewardCount : Nat
  running : Bool
  deriving DecidableEq

namespace Contract

/-- The minimum of `storage_balance_bounds`, `storage_impl.rs:116-121`. -/
def storageBalanceBounds (_ : Contract) : Nat := minStorage

/-- `storage_balance_of`, `storage_impl.rs:123-133`. -/
def storageBalanceOf (c : Contract) (a : AccountId) : Option StorageBalance :=
  let (locked, deposited) := c.farmerStorage a
  if locked > 0 then some ⟨deposited, deposited - locked⟩ else none

/-- `get_user_storage_state`, `view.rs:302-312`: what was paid for storage and what is used. -/
def getUserStorageState (c : Contract) (a : AccountId) : Option (Nat × Nat) :=
  let (locked, deposited) := c.farmerStorage a
  if locked > 0 then some (deposited, locked) else none

/-- `get_reward`, `view.rs:215-218`, with `internal_get_reward`, `actions_of_reward.rs:249-257`. -/
def getReward (c : Contract) (a t : AccountId) : Nat :=
  (((c.farmers.get? a).getD (Farmer.new 0)).rewards.get? t).getD 0

/-- `get_seed_info`, `view.rs:272-278`, with `farm_seed.rs:136-151`. The information has the fields
of `FarmSeed`. -/
def getSeedInfo (c : Contract) (s : SeedId) : Option FarmSeed := c.seeds.get? s

/-- `list_seeds_info`, `view.rs:280-290`. -/
def listSeedsInfo (c : Contract) (keys : List SeedId) (start limit : Nat) :
    R (List (SeedId × FarmSeed)) :=
  page keys.length (fun i => do
    let k ← expectE keys[i]? .other
    let s ← c.seed k
    .ok (k, s)) start limit

/-- `get_user_rps`, `view.rs:292-299`, as a number instead of its decimal digits. -/
def getUserRps (c : Contract) (a : AccountId) (id : FarmId) : R Nat := do
  let _ ← c.farmer a
  .ok (c.rps.getD (a, id) 0)

/-- `get_metadata`, `view.rs:117-127`. -/
def getMetadata (c : Contract) : Metadata :=
  ⟨c.owner, c.farmerCount, c.farms.size, c.seeds.size, c.rewardInfo.size, c.running⟩

end Contract
end Verif.Farming

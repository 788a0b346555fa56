import Verif.Boost.Calls
import Verif.Paging

/-
The views of the boost farming contract that list and count, `/repo/mock-boost-farming/src/view.rs`.
The paged ones follow the order in which the map keeps its keys, here `keys`. A farm carries its id in
the code; in the model the id stands beside it. The status of a farm is computed when its seed is
read, after the farm's update, and `SeedFarm.status` gives the same.
-/

namespace Verif.Boost

/-- `Metadata`, `view.rs:7-16`, without the version. -/
structure Metadata where
  owner : AccountId
  running : Bool
  operators : List AccountId
  farmerCount : Nat
  farmCount : Nat
  outdatedCount : Nat
  seedCount : Nat

namespace Contract

/-- `get_metadata`, `view.rs:29-40`. -/
def metadata (c : Contract) : Metadata :=
  ⟨c.owner, c.running, c.operators, c.farmerCount, c.farmCount, c.outdated.size, c.seeds.size⟩

/-- `list_outdated_farms`, `view.rs:54-65`. -/
def listOutdated (c : Contract) (keys : List FarmId) (start limit : Option Nat) :
    R (List (FarmId × SeedFarm)) :=
  pageOfMap c.outdated keys start limit

/-- `get_outdated_farm`, `view.rs:67-72`. -/
def getOutdated (c : Contract) (id : FarmId) : Option SeedFarm := c.outdated.get? id

/-- `list_slashed`, `view.rs:75-91`. -/
def listSlashed (c : Contract) (keys : List SeedId) (start limit : Option Nat) :
    R (List (SeedId × Nat)) :=
  pageOfMap c.slashed keys start limit

/-- `list_lostfound`, `view.rs:93-108`. -/
def listLostfound (c : Contract) (keys : List SeedId) (start limit : Option Nat) :
    R (List (SeedId × Nat)) :=
  pageOfMap c.lostfound keys start limit

/-- `list_seeds_info`, `view.rs:110-117`. -/
def listSeeds (c : Contract) (keys : List SeedId) (start limit : Option Nat) : R (List Seed) :=
  page keys.length (fun i => do
    let k ← expectE keys[i]? .other
    expectE (c.seeds.get? k) .other) (start.getD 0) (limit.getD keys.length)

/-- `get_seed`, `view.rs:119-124`: the stored seed. -/
def getSeed (c : Contract) (s : SeedId) : Option Seed := c.seeds.get? s

/-- `list_seed_farms`, `view.rs:126-135`: the entries of a hash map. -/
def listSeedFarms (c : Contract) (now : Nat) (s : SeedId) : R (List (FarmId × SeedFarm)) := do
  let sd ← c.seed now s
  .ok sd.farms.entries

/-- `list_farmer_seeds`, `view.rs:161-180`. -/
def listFarmerSeeds (c : Contract) (keys : List SeedId) (a : AccountId) (start limit : Option Nat) :
    R (List (SeedId × FarmerSeed)) :=
  match c.farmers.get? a with
  | some u => pageOfMap u.seeds keys start limit
  | none => .ok []

/-- `list_farmer_rewards`, `view.rs:192-200`: the entries of a hash map. -/
def listFarmerRewards (c : Contract) (a : AccountId) : List (AccountId × Nat) :=
  match c.farmers.get? a with
  | some u => u.rewards.entries
  | none => []

/-- `get_farmer_sponsor`, `view.rs:213-219`. -/
def farmerSponsor (c : Contract) (a : AccountId) : Option AccountId :=
  (c.farmers.get? a).map (·.sponsor)

end Contract

end Verif.Boost

import Verif.Farming.View
import Verif.Paging

/-
The views of the farming contract that list farms, seeds and rewards, `/repo/ref-farming/src/view.rs`.
The paged ones follow the order in which the map keeps its keys, here `keys`.
-/

namespace Verif.Farming.Contract

/-- `list_farms`, `view.rs:139-147`. -/
def listFarms (c : Contract) (now : Nat) (keys : List FarmId) (start limit : Nat) :
    R (List FarmInfo) :=
  page keys.length (fun i => do
    let k ← expectE keys[i]? .other
    let f ← expectE (c.farms.get? k) .other
    f.info now) start limit

/-- `list_outdated_farms`, `view.rs:149-157`. -/
def listOutdatedFarms (c : Contract) (now : Nat) (keys : List FarmId) (start limit : Nat) :
    R (List FarmInfo) :=
  page keys.length (fun i => do
    let k ← expectE keys[i]? .other
    let f ← expectE (c.outdated.get? k) .other
    f.info now) start limit

/-- `list_rewards_info`, `view.rs:187-202`. -/
def listRewardsInfo (c : Contract) (keys : List AccountId) (start limit : Nat) :
    R (List (AccountId × Nat)) :=
  page keys.length (fun i => do
    let k ← expectE keys[i]? .other
    .ok (k, c.rewardInfo.getD k 0)) start limit

/-- `list_seeds`, `view.rs:241-254`. -/
def listSeeds (c : Contract) (keys : List SeedId) (start limit : Nat) : R (List (SeedId × Nat)) :=
  page keys.length (fun i => do
    let k ← expectE keys[i]? .other
    let s ← c.seed k
    .ok (k, s.amount)) start limit

/-- `list_user_seeds`, `view.rs:257-268`: the entries of a hash map. -/
def listUserSeeds (c : Contract) (a : AccountId) : List (SeedId × Nat) :=
  match c.farmers.get? a with
  | some u => u.seeds.entries
  | none => []

/-- `list_rewards`, `view.rs:206-213`: the entries of a hash map. -/
def listRewards (c : Contract) (a : AccountId) : List (AccountId × Nat) :=
  match c.farmers.get? a with
  | some u => u.rewards.entries
  | none => []

end Verif.Farming.Contract

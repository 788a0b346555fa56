import Verif.Farming.Calls

/-
The views of the farming contract on farms, `/repo/ref-farming/src/view.rs`.
-/

namespace Verif.Farming

/-- `FarmInfo`, `view.rs:41-59`, without `farm_kind`, which is always `SIMPLE_FARM`. -/
structure FarmInfo where
  farmId : FarmId
  status : Status
  seedId : SeedId
  rewardToken : AccountId
  startAt : Nat
  rewardPerSession : Nat
  sessionInterval : Nat
  totalReward : Nat
  curRound : Nat
  lastRound : Nat
  claimed : Nat
  unclaimed : Nat
  beneficiary : Nat
  deriving DecidableEq

/-- The fields that do not depend on what is due, `view.rs:89-108`. -/
def SimpleFarm.stored (f : SimpleFarm) : FarmInfo where
  farmId := f.id
  status := f.status
  seedId := f.terms.seedId
  rewardToken := f.terms.rewardToken
  startAt := f.terms.startAt
  rewardPerSession := f.terms.rewardPerSession
  sessionInterval := f.terms.sessionInterval
  totalReward := f.amountOfReward
  curRound := f.dist.rr
  lastRound := f.dist.rr
  claimed := f.amountOfClaimed
  unclaimed := f.dist.unclaimed
  beneficiary := f.amountOfBeneficiary

/-- `FarmInfo::from`, `view.rs:61-113`. -/
def SimpleFarm.info (f : SimpleFarm) (now : Nat) : R FarmInfo := do
  match ← f.tryDistribute now DENOM with
  | some d => .ok { f.stored with
      status := if f.status = .running ∧ d.undistributed = 0 then .ended else f.status
      curRound := d.rr
      unclaimed := d.unclaimed }
  | none => .ok f.stored

/-- The information on an optional farm. -/
def optInfo (now : Nat) : Option SimpleFarm → R (Option FarmInfo)
  | some f => do .ok (some (← f.info now))
  | none => .ok none

/-- `list_farms_by_seed`, the loop `view.rs:162-167`. -/
def listInfo (now : Nat) (farms : FMap FarmId SimpleFarm) : List FarmId → R (List FarmInfo)
  | [] => .ok []
  | id :: ids => do
    let f ← expectE (farms.get? id) .index
    let i ← f.info now
    let l ← listInfo now farms ids
    .ok (i :: l)

namespace Contract

/-- `get_farm`, `view.rs:171-177`. -/
def getFarm (c : Contract) (now : Nat) (id : FarmId) : R (Option FarmInfo) :=
  optInfo now (c.farms.get? id)

/-- `get_outdated_farm`, `view.rs:179-185`. -/
def getOutdatedFarm (c : Contract) (now : Nat) (id : FarmId) : R (Option FarmInfo) :=
  optInfo now (c.outdated.get? id)

/-- `list_farms_by_seed`, `view.rs:159-168`. The farms of a seed are kept in a hash set; `o` is the
order in which it is traversed. -/
def listFarmsBySeed (c : Contract) (now : Nat) (o : Order) (s : SeedId) : R (List FarmInfo) := do
  let fs ← c.seed s
  listInfo now c.farms (o.f fs.farms)

/-- `get_number_of_farms`, `view.rs:130-132`. -/
def getNumberOfFarms (c : Contract) : Nat := c.farms.size

/-- `get_number_of_outdated_farms`, `view.rs:134-136`. -/
def getNumberOfOutdatedFarms (c : Contract) : Nat := c.outdated.size

end Contract
end Verif.Farming

import Verif.Num
import Verif.FMap
import Verif.Exchange.Ids

/-
Model of a single farm: `/repo/ref-farming/src/simple_farm.rs`. Timestamps, amounts and reward
rates are natural numbers; every operation checks the range of the Rust type. Log messages are
omitted.
-/

namespace Verif.Farming

/-- `SeedId`, `farm_seed.rs:16`. -/
abbrev SeedId := List Char
/-- `FarmId`, `farm.rs:9`. -/
abbrev FarmId := List Char

/-- `DENOM`, `simple_farm.rs:28`. -/
def DENOM : Nat := 10 ^ 24

/-- `to_nano`, `utils.rs:97-99`. The argument has 32 bits, so the product fits 64 bits. -/
def toNano (s : Nat) : Nat := s * 10 ^ 9

/-- `to_sec`, `utils.rs:101-103`; `as u32` truncates. -/
def toSec (t : Nat) : Nat := t / 10 ^ 9 % 2 ^ 32

/-- `SimpleFarmTerms`, `simple_farm.rs:37-43`. -/
structure Terms where
  seedId : SeedId
  rewardToken : AccountId
  startAt : Nat
  rewardPerSession : Nat
  sessionInterval : Nat
  deriving DecidableEq

/-- `SimpleFarmStatus`, `simple_farm.rs:68-70`. -/
inductive Status where
  | created
  | running
  | ended
  | cleared
  deriving DecidableEq

/-- `SimpleFarmRewardDistribution`, `simple_farm.rs:85-96`. `rps` is the 256-bit number stored in
little-endian order. -/
structure Dist where
  undistributed : Nat
  unclaimed : Nat
  rps : Nat
  rr : Nat
  deriving DecidableEq

/-- `SimpleFarm`, `simple_farm.rs:101-119`. -/
structure SimpleFarm where
  id : FarmId
  terms : Terms
  status : Status
  dist : Dist
  amountOfReward : Nat
  amountOfClaimed : Nat
  amountOfBeneficiary : Nat
  deriving DecidableEq

namespace SimpleFarm

/-- `SimpleFarm::new`, `simple_farm.rs:122-136`. -/
def new (id : FarmId) (terms : Terms) : SimpleFarm :=
  ⟨id, terms, .created, ⟨0, 0, 0, 0⟩, 0, 0, 0⟩

end SimpleFarm

/-- The reward that is left is less than the rounds that have passed call for:
`simple_farm.rs:191-202`. Returns the new round and the amount to distribute. `as u32`
truncates. -/
def Dist.lastRound (d : Dist) (perSession : Nat) : R (Nat × Nat) := do
  let q ← divW d.undistributed perSession
  let inc := q % 2 ^ 32
  let rr ← addW 32 d.rr inc
  let calc' ← mulW 128 inc perSession
  if calc' < d.undistributed then do
    let rr' ← addW 32 rr 1
    .ok (rr', d.undistributed)
  else .ok (rr, d.undistributed)

/-- The new round and the amount to distribute if `due` is called for in round `rr`:
`simple_farm.rs:189-211`. -/
def Dist.advance (d : Dist) (perSession rr due : Nat) : R (Nat × Nat) :=
  if d.undistributed < due then d.lastRound perSession else .ok (rr, due)

/-- The new reward per seed, `simple_farm.rs:214-223`. -/
def nextRps (rps added total : Nat) : R Nat :=
  if total = 0 then .ok 0
  else do
    let m ← mulW 256 added DENOM
    let q ← divW m total
    addW 256 rps q

namespace SimpleFarm

/-- `try_distribute`, `simple_farm.rs:178-229`. -/
def tryDistribute (f : SimpleFarm) (now total : Nat) : R (Option Dist) :=
  if f.status = .running then
    if now < toNano f.terms.startAt then .ok none
    else do
      let elapsed ← subW (toSec now) f.terms.startAt
      let rr ← divW elapsed f.terms.sessionInterval
      let rounds ← subW rr f.dist.rr
      let due ← mulW 128 rounds f.terms.rewardPerSession
      let (rr', added) ← f.dist.advance f.terms.rewardPerSession rr due
      let unclaimed ← addW 128 f.dist.unclaimed added
      let undistributed ← subW f.dist.undistributed added
      let rps ← nextRps f.dist.rps added total
      .ok (some ⟨undistributed, unclaimed, rps, rr'⟩)
  else .ok none

/-- `add_reward`, `simple_farm.rs:140-171`. `none` if the farm accepts no reward any more. -/
def addReward (f : SimpleFarm) (now amount : Nat) : R (Option SimpleFarm) :=
  match f.status with
  | .created => do
    let start := if f.terms.startAt = 0 then toSec now else f.terms.startAt
    let total ← addW 128 f.amountOfReward amount
    let und ← addW 128 f.dist.undistributed amount
    .ok (some { f with
      status := .running
      terms := { f.terms with startAt := start }
      amountOfReward := total
      dist := { f.dist with undistributed := und } })
  | .running => do
    let dis ← f.tryDistribute now DENOM
    if dis.any (fun d => d.undistributed = 0) then .ok none
    else do
      let total ← addW 128 f.amountOfReward amount
      let und ← addW 128 f.dist.undistributed amount
      .ok (some { f with
        amountOfReward := total
        dist := { f.dist with undistributed := und } })
  | _ => .ok none

/-- Adopt a new distribution, `simple_farm.rs:262-269`. -/
def adopt (f : SimpleFarm) (d : Dist) (total : Nat) : R SimpleFarm :=
  if f.dist.rr = d.rr then .ok f
  else if total = 0 then do
    let claimed ← addW 128 f.amountOfClaimed d.unclaimed
    let benef ← addW 128 f.amountOfBeneficiary d.unclaimed
    .ok { f with
      dist := { d with unclaimed := 0 }
      amountOfClaimed := claimed
      amountOfBeneficiary := benef }
  else .ok { f with dist := d }

/-- `distribute`, `simple_farm.rs:260-285`. -/
def distribute (f : SimpleFarm) (now total : Nat) : R SimpleFarm := do
  match ← f.tryDistribute now total with
  | none => .ok f
  | some d => do
    let f1 ← f.adopt d total
    .ok (if f1.dist.undistributed = 0 then { f1 with status := .ended } else f1)

/-- The reward of `seeds` staked between the rates `last` and `rps`: `simple_farm.rs:246-248` and
`303-307`. -/
def reward (seeds rps last : Nat) : R Nat := do
  let diff ← subW rps last
  let m ← mulW 256 seeds diff
  let q ← divW m DENOM
  fit 128 q

/-- `view_farmer_unclaimed_reward`, `simple_farm.rs:233-254`. -/
def viewUnclaimed (f : SimpleFarm) (now last seeds total : Nat) : R Nat :=
  if total = 0 then .ok 0
  else if seeds = 0 then .ok 0
  else do
    match ← f.tryDistribute now total with
    | some d => reward seeds d.rps last
    | none => reward seeds f.dist.rps last

/-- `claim_user_reward`, `simple_farm.rs:290-320`. Returns the farm, the user's new rate and the
amount. -/
def claimUserReward (f : SimpleFarm) (now last seeds total : Nat) :
    R (SimpleFarm × Nat × Nat) := do
  let f1 ← f.distribute now total
  let n ← reward seeds f1.dist.rps last
  if n > 0 then do
    assertE (f1.dist.unclaimed ≥ n) (.e 500)
    let claimed ← addW 128 f1.amountOfClaimed n
    .ok ({ f1 with
      dist := { f1.dist with unclaimed := f1.dist.unclaimed - n }
      amountOfClaimed := claimed }, f1.dist.rps, n)
  else .ok (f1, f1.dist.rps, n)

/-- The second half of `move_to_clear`, `simple_farm.rs:327-337`. -/
def clear (f : SimpleFarm) : R SimpleFarm :=
  if f.status = .ended then
    if f.dist.unclaimed > 0 then do
      let claimed ← addW 128 f.amountOfClaimed f.dist.unclaimed
      let benef ← addW 128 f.amountOfBeneficiary f.dist.unclaimed
      .ok { f with
        dist := { f.dist with unclaimed := 0 }
        amountOfClaimed := claimed
        amountOfBeneficiary := benef
        status := .cleared }
    else .ok { f with status := .cleared }
  else .ok f

/-- `move_to_clear`, `simple_farm.rs:323-338`. -/
def moveToClear (f : SimpleFarm) (now total : Nat) : R SimpleFarm :=
  if f.status = .running then do
    let f1 ← f.distribute now total
    f1.clear
  else f.clear

/-- `can_be_removed`, `simple_farm.rs:340-356`. -/
def canBeRemoved (f : SimpleFarm) (now total : Nat) : R Bool :=
  match f.status with
  | .ended => .ok true
  | .running => do
    let dis ← f.tryDistribute now total
    .ok (dis.any fun d => d.undistributed = 0)
  | _ => .ok false

end SimpleFarm
end Verif.Farming

import Verif.Farming.Inv

/-
The boost farming contract: `/repo/mock-boost-farming/src`. File names in the comments below are
relative to that directory. This file has the state and the internal functions.

Boost ratios are 64-bit floats in the code. The model keeps, instead of a ratio, the three numbers
it was computed from, and takes the only place where a ratio is used, the extra power
`((base_power as f64) * ratio) as u128`, as a parameter. The theorems hold for every such function
that gives no extra power to an empty stake.

The version wrappers (`VSeed`, `VSeedFarm`, `VFarmer`, `VersionedContractData`) have a single live
version and are omitted. The cache of seeds (`seed.rs:3`) lives as long as one call, and a seed that
is read twice in one call is updated at the same block time; so the model reads the storage.
-/

namespace Verif.Boost

abbrev SeedId := List Char
abbrev FarmId := List Char

/-- What a boost ratio is computed from: the power of the booster stake, the decimals of the booster
and the base of the logarithm, `booster.rs:62-76`. -/
structure Ratio where
  balance : Nat
  decimals : Nat
  logBase : Nat
  deriving DecidableEq

/-- The float arithmetic: `extra base r` is `((base as f64) * ratio) as u128`, `farmer_seed.rs:29`,
with the ratio of `booster.rs:69-74`. Zero times a ratio is zero or not a number, and both become
the integer zero. -/
structure Floats where
  extra : Nat → Ratio → Nat
  zero : ∀ r, extra 0 r = 0

/-- `to_nano`, `utils.rs:83-85`. A `u32` times `10^9` always fits. -/
def toNano (sec : Nat) : Nat := sec * 10 ^ 9

/-- `nano_to_sec`, `utils.rs:87-89`, with its truncation. -/
def nanoToSec (n : Nat) : Nat := n / 10 ^ 9 % 2 ^ 32

/-- `u128_ratio`, `utils.rs:91-93`. The product of two 128-bit numbers fits 256 bits. -/
def u128Ratio (a num denom : Nat) : R Nat := do
  let q ← divW (a * num) denom
  fit 128 q

/-- `gen_farm_id`, `utils.rs:95-97`. -/
def genFarmId (s : SeedId) (i : Nat) : FarmId := s ++ '#' :: Nat.toDigits 10 i

/-- The characters up to the last `#` and those after it: `rfind` and `split_at`,
`utils.rs:100-101`. -/
def splitLast (l : List Char) : Option (List Char × List Char) :=
  match l with
  | [] => none
  | c :: rest =>
    match splitLast rest with
    | some (a, b) => some (c :: a, b)
    | none => if c = '#' then some ([], rest) else none

/-- `parse_farm_id`, `utils.rs:99-103`. Only the seed is used by the callers. -/
def parseFarmId (id : FarmId) : R SeedId := do
  let (s, i) ← expectE (splitLast id) (.e 406)
  let n ← expectE (parseU64 i) .index
  assertE (n < 2 ^ 32) .index
  .ok s

/-- `BoosterInfo`, `booster.rs:5-9`: the decimals of the booster and the bases of the logarithm for
the seeds it boosts. -/
structure Booster where
  decimals : Nat
  affected : FMap SeedId Nat

/-- `Config`, `lib.rs:68-85`. -/
structure Config where
  slashRate : Nat
  boosters : FMap SeedId Booster
  maxPerBooster : Nat
  maxPerSeed : Nat
  maxDuration : Nat
  maxMultiplier : Nat

/-- `Config::default`, `lib.rs:87-98` and `utils.rs:10-15`. -/
def Config.init : Config := ⟨200, FMap.empty, 64, 32, 3600 * 24 * 30 * 12, 20000⟩

/-- `FarmerSeed`, `farmer_seed.rs:6-24`. -/
structure FarmerSeed where
  free : Nat
  locked : Nat
  xLocked : Nat
  unlockAt : Nat
  duration : Nat
  ratios : FMap SeedId Ratio
  userRps : FMap FarmId Nat

/-- The rates in decimals have 27 digits, `big_decimal.rs:25-26`. -/
def D27 : Nat := 10 ^ 27

namespace FarmerSeed

/-- `get_basic_seed_power`, `farmer_seed.rs:33-35`. -/
def basic (v : FarmerSeed) : R Nat := addW 128 v.free v.xLocked

/-- `get_seed_power`, `farmer_seed.rs:27-31`. The sum of the extras is checked together with the
last addition; it fits whenever the total does. -/
def power (fl : Floats) (v : FarmerSeed) : R Nat := do
  let b ← v.basic
  addW 128 b (v.ratios.sum fun _ r => fl.extra b r)

/-- `add_free`, `farmer_seed.rs:41-45`: the stake and the increase of its power. -/
def addFree (fl : Floats) (v : FarmerSeed) (n : Nat) : R (FarmerSeed × Nat) := do
  let prev ← v.power fl
  let free ← addW 128 v.free n
  let v := { v with free }
  let p ← v.power fl
  let d ← subW p prev
  .ok (v, d)

/-- `compute_x_amount`, `farmer_seed.rs:156-163`, with `MIN_LOCKING_REWARD_RATIO = 10000`. -/
def xAmount (cfg : Config) (n duration : Nat) : R Nat := do
  let m ← subW cfg.maxMultiplier 10000
  let e ← u128Ratio n (m * toNano duration) (toNano cfg.maxDuration * 10000)
  addW 128 n e

/-- The part `add_lock` (`farmer_seed.rs:57-72`) and `free_to_lock` (`87-102`) have in common:
`n` is locked in addition to what is locked already. -/
def lock (cfg : Config) (now : Nat) (v : FarmerSeed) (n duration : Nat) : R FarmerSeed := do
  let unlockAt ← addW 64 now (toNano duration)
  let x ← if v.unlockAt > 0 ∧ v.unlockAt > now then do
      assertE (v.unlockAt ≤ unlockAt) (.e 304)
      let relocked ← xAmount cfg v.locked duration
      let extra ← xAmount cfg n duration
      addW 128 (max v.xLocked relocked) extra
    else do
      let s ← addW 128 v.locked n
      xAmount cfg s duration
  let locked ← addW 128 v.locked n
  .ok { v with xLocked := x, unlockAt, locked, duration }

/-- `add_lock`, `farmer_seed.rs:54-75`. -/
def addLock (fl : Floats) (cfg : Config) (now : Nat) (v : FarmerSeed) (n duration : Nat) :
    R (FarmerSeed × Nat) := do
  let prev ← v.power fl
  let v ← v.lock cfg now n duration
  let p ← v.power fl
  let d ← subW p prev
  .ok (v, d)

/-- `free_to_lock`, `farmer_seed.rs:77-105`. -/
def freeToLock (fl : Floats) (cfg : Config) (now : Nat) (v : FarmerSeed) (n duration : Nat) :
    R (FarmerSeed × Nat) := do
  assertE (n ≤ v.free) (.e 101)
  let prev ← v.power fl
  let v := { v with free := v.free - n }
  assertE (duration ≤ cfg.maxDuration) (.e 201)
  let v ← v.lock cfg now n duration
  let p ← v.power fl
  let d ← subW p prev
  .ok (v, d)

/-- `unlock_to_free_with_slashed`, `farmer_seed.rs:129-153`: the stake, the decrease of its power and
the slashed amount. -/
def unlockSlashed (fl : Floats) (now : Nat) (v : FarmerSeed) (n rate : Nat) :
    R (FarmerSeed × Nat × Nat) := do
  let prev ← v.power fl
  assertE (v.unlockAt > now) (.e 309)
  assertE (n ≤ v.locked ∧ n ≠ 0) (.e 101)
  let full ← u128Ratio n rate 10000
  let slashed ← u128Ratio full (v.unlockAt - now) (toNano v.duration)
  let w ← if n < v.locked then do
      let x ← u128Ratio v.xLocked (v.locked - n) v.locked
      assertE (x < v.xLocked) (.e 306)
      .ok { v with xLocked := x }
    else .ok { v with xLocked := 0, unlockAt := 0, duration := 0 }
  let rest ← subW n slashed
  let free ← addW 128 w.free rest
  let locked ← subW w.locked n
  let w := { w with free, locked }
  let p ← w.power fl
  let d ← subW prev p
  .ok (w, d, slashed)

end FarmerSeed

/-- `SeedFarm` with its `FarmTerms`, `seed_farm.rs:6-12` and `49-80`. The status is not stored
(`borsh_skip`); it is computed on every read. -/
structure SeedFarm where
  token : AccountId
  startAt : Nat
  daily : Nat
  total : Nat
  distributedAt : Nat
  distributed : Nat
  claimed : Nat
  beneficiary : Nat
  rps : Nat

/-- `FarmStatus`, `seed_farm.rs:36-45`. -/
inductive Status where
  | created | pending | running | ended
  deriving DecidableEq

namespace SeedFarm

/-- `SeedFarm::new`, `seed_farm.rs:83-95`. -/
def new (token : AccountId) (startAt daily : Nat) : SeedFarm :=
  ⟨token, startAt, daily, 0, toNano startAt, 0, 0, 0, 0⟩

/-- `internal_update_status`, `seed_farm.rs:104-114`. -/
def status (now : Nat) (f : SeedFarm) : Status :=
  if f.startAt = 0 ∨ toNano f.startAt ≥ now then .created
  else if f.total = 0 ∧ toNano f.startAt < now then .pending
  else if f.total > 0 ∧ f.distributed ≥ f.total then .ended
  else .running

/-- What a running farm releases until `now`, `seed_farm.rs:131-138`, with
`NANOS_PER_DAY = 24 * 60 * 60 * 10^9`. -/
def release (now : Nat) (f : SeedFarm) : R Nat := do
  let left ← subW f.total f.distributed
  let r ← u128Ratio f.daily (now - f.distributedAt) (24 * 60 * 60 * 10 ^ 9)
  .ok (min left r)

/-- `update`, `seed_farm.rs:116-150`. -/
def update (now power : Nat) (f : SeedFarm) : R SeedFarm :=
  if now ≤ f.distributedAt then .ok f
  else match f.status now with
    | .ended => .ok { f with distributedAt := now }
    | .running => do
      let r ← f.release now
      let distributed ← addW 128 f.distributed r
      if power > 0 then do
        let rps ← addW 384 f.rps (r * D27 / power)
        .ok { f with distributed, rps, distributedAt := now }
      else do
        let beneficiary ← addW 128 f.beneficiary r
        .ok { f with distributed, beneficiary, distributedAt := now }
    | _ => .ok f

/-- `add_reward`, `seed_farm.rs:152-160`. -/
def addReward (now : Nat) (f : SeedFarm) (token : AccountId) (n : Nat) : R SeedFarm := do
  assertE (f.token = token) (.e 404)
  let f := if f.startAt = 0 then { f with startAt := nanoToSec now, distributedAt := now } else f
  let total ← addW 128 f.total n
  .ok { f with total }

/-- `finalize`, `seed_farm.rs:162-167`. -/
def finalize (now : Nat) (f : SeedFarm) : R SeedFarm := do
  assertE (f.status now = .ended) (.e 405)
  let b ← subW f.distributed f.claimed
  .ok { f with beneficiary := b }

end SeedFarm

/-- `Seed`, `seed.rs:7-27`. -/
structure Seed where
  id : SeedId
  decimals : Nat
  farms : FMap FarmId SeedFarm
  nextIndex : Nat
  amount : Nat
  power : Nat
  minDeposit : Nat
  slashRate : Nat
  minLock : Nat

/-- The loop of `Seed::update`, `seed.rs:49-58`. -/
def updateFarms (now power : Nat) : List (FarmId × SeedFarm) → FMap FarmId SeedFarm →
    R (FMap FarmId SeedFarm)
  | [], m => .ok m
  | (id, f) :: rest, m => do
    let g ← f.update now power
    updateFarms now power rest (m.insert id g)

/-- `Seed::update`, `seed.rs:49-58`. -/
def Seed.update (now : Nat) (sd : Seed) : R Seed := do
  let farms ← updateFarms now sd.power sd.farms.entries sd.farms
  .ok { sd with farms }

/-- The loop of `Seed::update_claimed`, `seed.rs:60-65`. -/
def updateClaimed : List (FarmId × Nat) → FMap FarmId SeedFarm → R (FMap FarmId SeedFarm)
  | [], m => .ok m
  | (id, n) :: rest, m => do
    let f ← expectE (m.get? id) .index
    let claimed ← addW 128 f.claimed n
    updateClaimed rest (m.insert id { f with claimed })

/-- `Farmer`, `farmer.rs:6-15`. -/
structure Farmer where
  sponsor : AccountId
  rewards : FMap AccountId Nat
  seeds : FMap SeedId FarmerSeed

/-- `Farmer::add_rewards`, `farmer.rs:49-56`. -/
def addRewards : List (AccountId × Nat) → FMap AccountId Nat → R (FMap AccountId Nat)
  | [], m => .ok m
  | (t, n) :: rest, m => do
    let s ← addW 128 n (m.getD t 0)
    addRewards rest (m.insert t s)

/-- The power of a farmer's stake in a booster, zero if there is none: `booster.rs:61-65`. -/
def Farmer.basicOf (u : Farmer) (s : SeedId) : R Nat :=
  match u.seeds.get? s with
  | some v => v.basic
  | none => .ok 0

/-- The loop of `gen_booster_ratios`, `booster.rs:60-79`, over the boosters of the configuration;
`get_boosters_from_seed`, `lib.rs:113-119`, selects those that boost the seed. -/
def ratiosLoop (s : SeedId) (u : Farmer) : List (SeedId × Booster) → FMap SeedId Ratio →
    R (FMap SeedId Ratio)
  | [], m => .ok m
  | (k, b) :: rest, m =>
    match b.affected.get? s with
    | some logBase =>
      if k ≠ s then do
        let n ← u.basicOf k
        if n > 0 ∧ logBase > 0 then do
          let _ ← fit 128 (10 ^ b.decimals)
          ratiosLoop s u rest (m.insert k ⟨n, b.decimals, logBase⟩)
        else ratiosLoop s u rest m
      else ratiosLoop s u rest m
    | none => ratiosLoop s u rest m

/-- `gen_booster_ratios`, `booster.rs:59-80`. -/
def genRatios (cfg : Config) (s : SeedId) (u : Farmer) : R (FMap SeedId Ratio) :=
  ratiosLoop s u cfg.boosters.entries FMap.empty

/-- The results of the loop of `internal_calc_farmer_claim`, `farmer.rs:81-82` and `101`. -/
structure Claim where
  rewards : FMap AccountId Nat
  claimed : FMap FarmId Nat
  rps : FMap FarmId Nat

/-- The loop of `internal_calc_farmer_claim`, `farmer.rs:102-120`. -/
def claimLoop (v : FarmerSeed) (power : Nat) : List (FarmId × SeedFarm) → Claim → R Claim
  | [], k => .ok k
  | (id, f) :: rest, k => do
    let diff ← subW f.rps (v.userRps.getD id 0)
    let m ← mulW 384 diff power
    let n ← fit 128 (m / D27)
    let k1 ← if n > 0 then do
        let s ← addW 128 n (k.rewards.getD f.token 0)
        .ok { k with rewards := k.rewards.insert f.token s, claimed := k.claimed.insert id n }
      else .ok k
    claimLoop v power rest (if f.total > 0 then { k1 with rps := k1.rps.insert id f.rps } else k1)

/-- `internal_calc_farmer_claim`, `farmer.rs:72-124`. -/
def calcClaim (fl : Floats) (cfg : Config) (u : Farmer) (sd : Seed) : R (FarmerSeed × Claim) := do
  let v ← match u.seeds.get? sd.id with
    | some v => .ok v
    | none => do
      let r ← genRatios cfg sd.id u
      .ok ⟨0, 0, 0, 0, 0, r, FMap.empty⟩
  let p ← v.power fl
  let k ← claimLoop v p sd.farms.entries ⟨FMap.empty, FMap.empty, FMap.empty⟩
  .ok ({ v with userRps := k.rps }, k)

/-- `internal_do_farmer_claim`, `farmer.rs:126-138`. -/
def doClaim (fl : Floats) (cfg : Config) (u : Farmer) (sd : Seed) : R (Farmer × Seed) := do
  let (v, k) ← calcClaim fl cfg u sd
  let rewards ← addRewards k.rewards.entries u.rewards
  let u := { u with rewards }
  let prev ← v.power fl
  let ratios ← genRatios cfg sd.id u
  let v := { v with ratios }
  let p ← v.power fl
  let s ← addW 128 sd.power p
  let power ← subW s prev
  let farms ← updateClaimed k.claimed.entries sd.farms
  .ok ({ u with seeds := u.seeds.insert sd.id v }, { sd with power, farms })

/-- `ContractData`, `lib.rs:130-147`. -/
structure Contract where
  owner : AccountId
  running : Bool
  operators : List AccountId
  cfg : Config
  seeds : FMap SeedId Seed
  farmers : FMap AccountId Farmer
  outdated : FMap FarmId SeedFarm
  slashed : FMap SeedId Nat
  lostfound : FMap SeedId Nat
  farmerCount : Nat
  farmCount : Nat

/-- What a call can see of its surroundings. -/
structure Ctx where
  pred : AccountId
  deposit : Nat
  now : Nat

namespace Contract

/-- `Contract::new`, `lib.rs:164-181`. -/
def init (owner : AccountId) : Contract :=
  ⟨owner, true, [], Config.init, FMap.empty, FMap.empty, FMap.empty, FMap.empty, FMap.empty, 0, 0⟩

/-- `internal_unwrap_farmer`, `farmer.rs:144-147`. -/
def farmer (c : Contract) (a : AccountId) : R Farmer := expectE (c.farmers.get? a) (.e 100)

/-- `internal_unwrap_seed`, `internal_get_seed`, `seed.rs:90-105`: a seed is updated when read. -/
def seed (c : Contract) (now : Nat) (s : SeedId) : R Seed := do
  let sd ← expectE (c.seeds.get? s) (.e 301)
  sd.update now

/-- `internal_set_seed`, `seed.rs:107-113`. -/
def setSeed (c : Contract) (s : SeedId) (sd : Seed) : Contract :=
  { c with seeds := c.seeds.insert s sd }

/-- `internal_set_farmer`, `farmer.rs:149-151`. -/
def setFarmer (c : Contract) (a : AccountId) (u : Farmer) : Contract :=
  { c with farmers := c.farmers.insert a u }

/-- The loop of `update_impacted_seeds`, `booster.rs:85-92`. -/
def impactedLoop (fl : Floats) (now : Nat) : List (SeedId × Nat) → Contract → Farmer →
    R (Contract × Farmer)
  | [], c, u => .ok (c, u)
  | (s, _) :: rest, c, u =>
    if u.seeds.contains s then do
      let sd ← c.seed now s
      let (u1, sd1) ← doClaim fl c.cfg u sd
      impactedLoop fl now rest (c.setSeed s sd1) u1
    else impactedLoop fl now rest c u

/-- `update_impacted_seeds`, `booster.rs:83-94`. The claims for the affected seeds do not depend on
each other, so the order of the hash map does not matter. -/
def updateImpacted (fl : Floats) (c : Contract) (now : Nat) (u : Farmer) (booster : SeedId) :
    R (Contract × Farmer) :=
  match c.cfg.boosters.get? booster with
  | some b => impactedLoop fl now b.affected.entries c u
  | none => .ok (c, u)

/-- `affected_farm_count`, `booster.rs:38-47`. -/
def affectedFarms (c : Contract) : List (SeedId × Nat) → R Nat
  | [] => .ok 0
  | (s, _) :: rest => do
    let sd ← expectE (c.seeds.get? s) (.e 301)
    let n ← affectedFarms c rest
    addW 32 sd.farms.size n

/-- `assert_booster_affected_farm_num`, `booster.rs:49-54`. -/
def assertBoosters (c : Contract) : List (SeedId × Booster) → R Unit
  | [] => .ok ()
  | (_, b) :: rest => do
    let n ← c.affectedFarms b.affected.entries
    assertE (n ≤ c.cfg.maxPerBooster) (.e 203)
    assertBoosters c rest

end Contract

end Verif.Boost

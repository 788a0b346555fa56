import Verif.Farming.Farm

/-
State of the farming contract and its helpers: `/repo/ref-farming/src/lib.rs`, `farm_seed.rs`,
`farmer.rs`, `utils.rs` and the internal parts of `storage_impl.rs`, `actions_of_reward.rs` and
`actions_of_seed.rs`. The version wrappers (`VersionedFarmSeed`, `VersionedFarmer`,
`VersionedContractData`) have a single live version and are omitted.
-/

namespace Verif.Farming

/-- `s.split(sep)`: the pieces between the separators, used by `utils.rs:73` and `86`. -/
def splitOn (sep : Char) : List Char → List (List Char)
  | [] => [[]]
  | c :: rest =>
    if c = sep then [] :: splitOn sep rest
    else match splitOn sep rest with
      | [] => [[c]]
      | p :: ps => (c :: p) :: ps

/-- `parse_seed_id`, `utils.rs:72-81`. -/
def parseSeedId (s : SeedId) : R (List Char × List Char) :=
  match splitOn '@' s with
  | [a, b] => .ok (a, b)
  | [a] => .ok (a, a)
  | _ => .error (.e 33)

/-- `parse_farm_id`, `utils.rs:84-90`. `usize` has 32 bits on wasm32. Only the seed is used by the
callers. -/
def parseFarmId (s : FarmId) : R SeedId :=
  match splitOn '#' s with
  | [a, b] => do
    let i ← expectE (parseU64 b) .index
    assertE (i < 2 ^ 32) .index
    .ok a
  | _ => .error (.e 42)

/-- `gen_farm_id`, `utils.rs:92-94`. -/
def genFarmId (s : SeedId) (i : Nat) : FarmId := s ++ '#' :: Nat.toDigits 10 i

/-- The seed id of the shares of a pool: `token_receiver.rs:141`. -/
def mftSeedId (contract : AccountId) (pool : Nat) : SeedId := contract ++ '@' :: Nat.toDigits 10 pool

/-- `FarmSeed`, `farm_seed.rs:26-39`. `mft` is the seed type, `farms` lists the hash set. -/
structure FarmSeed where
  id : SeedId
  mft : Bool
  farms : List FarmId
  nextIndex : Nat
  amount : Nat
  minDeposit : Nat

/-- `FarmSeed::new`, `farm_seed.rs:42-58`. -/
def FarmSeed.new (id : SeedId) (minDeposit : Nat) : R FarmSeed := do
  let (a, b) ← parseSeedId id
  .ok ⟨id, decide (a ≠ b), [], 0, 0, minDeposit⟩

/-- `Farmer`, `farmer.rs:23-34`. The lookup map `user_rps` is a field of `Contract`, because its
entries stay in the storage of the contract when the farmer is removed. -/
structure Farmer where
  near : Nat
  rewards : FMap AccountId Nat
  seeds : FMap SeedId Nat
  rpsCount : Nat

namespace Farmer

/-- `VersionedFarmer::new`, `farmer.rs:125-135`. -/
def new (near : Nat) : Farmer := ⟨near, FMap.empty, FMap.empty, 0⟩

/-- `add_reward`, `farmer.rs:39-45`. -/
def addReward (u : Farmer) (token : AccountId) (n : Nat) : R Farmer :=
  match u.rewards.get? token with
  | some x => do
    let s ← addW 128 x n
    .ok { u with rewards := u.rewards.insert token s }
  | none => .ok { u with rewards := u.rewards.insert token n }

/-- `sub_reward`, `farmer.rs:51-61`. Returns the amount that was subtracted. -/
def subReward (u : Farmer) (token : AccountId) (n : Nat) : R (Farmer × Nat) := do
  let v ← expectE (u.rewards.get? token) (.e 21)
  assertE (v ≥ n) (.e 22)
  if n = 0 then .ok ({ u with rewards := u.rewards.erase token }, v)
  else .ok ({ u with rewards := u.rewards.insert token (v - n) }, n)

/-- The stake in a seed, zero if there is none. -/
def stake (u : Farmer) (s : SeedId) : Nat := u.seeds.getD s 0

/-- `add_seed`, `farmer.rs:63-71`. -/
def addSeed (u : Farmer) (s : SeedId) (n : Nat) : R Farmer :=
  if n > 0 then do
    let v ← addW 128 n (u.stake s)
    .ok { u with seeds := u.seeds.insert s v }
  else .ok u

/-- `sub_seed`, `farmer.rs:74-84`. Returns what remains. -/
def subSeed (u : Farmer) (s : SeedId) (n : Nat) : R (Farmer × Nat) := do
  let v ← expectE (u.seeds.get? s) (.e 31)
  assertE (v ≥ n) (.e 32)
  if v - n > 0 then .ok ({ u with seeds := u.seeds.insert s (v - n) }, v - n)
  else .ok ({ u with seeds := u.seeds.erase s }, v - n)

/-- `storage_usage`, `farmer.rs:105-113`, with `MIN_FARMER_LENGTH = 92` and
`MAX_ACCOUNT_LENGTH = 64`. The maps are held in the memory of a 32-bit machine, so the
computation cannot overflow and no check is modelled. -/
def storageUsage (u : Farmer) : Nat :=
  (92 + u.rewards.size * 84 + u.seeds.size * 84 + u.rpsCount * 165) * 10 ^ 19

end Farmer

/-- `suggested_min_storage_usage`, `storage_impl.rs:165-171`. -/
def minStorage : Nat := (92 + 2 * 5 * (64 + 16) + 10 * (64 + 32)) * 10 ^ 19

/-- Last reward rates of the farmers: `user_rps` of all farmers, `farmer.rs:32`, stored under a
prefix made of the account id (`lib.rs:45-53`, `farmer.rs:130-132`). -/
abbrev RpsMap := FMap (AccountId × FarmId) Nat

/-- `ContractData`, `lib.rs:64-88`. -/
structure Contract where
  owner : AccountId
  seeds : FMap SeedId FarmSeed
  farmers : FMap AccountId Farmer
  farms : FMap FarmId SimpleFarm
  outdated : FMap FarmId SimpleFarm
  farmerCount : Nat
  rewardInfo : FMap AccountId Nat
  running : Bool
  rps : RpsMap

/-- An iteration order of hash sets. -/
structure Order where
  f : List FarmId → List FarmId
  perm : ∀ l, (f l).Perm l

/-- The order in which the model lists the set. -/
def Order.id : Order := ⟨fun l => l, fun _ => .refl _⟩

/-- What a call can see of its surroundings. `grew` is the number of bytes by which
`env::storage_usage()` grew over the part of the call where the code measures it; the model
takes it as an arbitrary input instead of modelling the byte layout of the storage. `order` is the
order in which the call iterates over hash sets, arbitrary as well. -/
structure Ctx where
  pred : AccountId
  deposit : Nat
  now : Nat
  grew : Nat
  order : Order

/-- A promise created by a call. All but `near` have a callback. -/
inductive Out where
  /-- A transfer of native NEAR. -/
  | near (receiver : AccountId) (amount : Nat)
  /-- `ft_transfer` of a reward, callback `callback_post_withdraw_reward`. -/
  | reward (token receiver : AccountId) (amount : Nat)
  /-- `ft_transfer` of a seed, callback `callback_post_withdraw_ft_seed`. -/
  | ftSeed (seed : SeedId) (receiver : AccountId) (amount : Nat)
  /-- `mft_transfer` of token `:<token>` of the contract, callback
  `callback_post_withdraw_mft_seed`. -/
  | mftSeed (seed : SeedId) (contract : AccountId) (token : List Char) (receiver : AccountId)
      (amount : Nat)
  deriving DecidableEq

/-- `set_rps`, `farmer.rs:90-95`. -/
def setRps (m : RpsMap) (u : Farmer) (who : AccountId) (id : FarmId) (v : Nat) :
    R (RpsMap × Farmer) :=
  if m.contains (who, id) then .ok (m.insert (who, id) v, u)
  else do
    let n ← addW 32 u.rpsCount 1
    .ok (m.insert (who, id) v, { u with rpsCount := n })

/-- `remove_rps`, `farmer.rs:97-102`. -/
def removeRps (m : RpsMap) (u : Farmer) (who : AccountId) (id : FarmId) : R (RpsMap × Farmer) :=
  if m.contains (who, id) then do
    let n ← subW u.rpsCount 1
    .ok (m.erase (who, id), { u with rpsCount := n })
  else .ok (m, u)

/-- The loop of `actions_of_seed.rs:240-243`. -/
def removeAllRps (who : AccountId) : List FarmId → RpsMap → Farmer → R (RpsMap × Farmer)
  | [], m, u => .ok (m, u)
  | id :: ids, m, u => do
    let (m1, u1) ← removeRps m u who id
    removeAllRps who ids m1 u1

/-- `claim_user_reward_from_farm`, `actions_of_reward.rs:121-153`. -/
def claimFromFarm (x : Ctx) (who : AccountId) (f : SimpleFarm) (total : Nat) (m : RpsMap)
    (u : Farmer) : R (SimpleFarm × RpsMap × Farmer) := do
  let (f1, v, n) ← f.claimUserReward x.now (m.getD (who, f.id) 0) (u.stake f.terms.seedId) total
  let (m1, u1) ← setRps m u who f.id v
  if n > 0 then do
    let u2 ← u1.addReward f.terms.rewardToken n
    .ok (f1, m1, u2)
  else .ok (f1, m1, u1)

/-- The loop of `actions_of_reward.rs:164-173`. -/
def claimFarms (x : Ctx) (who : AccountId) (total : Nat) :
    List FarmId → FMap FarmId SimpleFarm → RpsMap → Farmer →
    R (FMap FarmId SimpleFarm × RpsMap × Farmer)
  | [], fs, m, u => .ok (fs, m, u)
  | id :: ids, fs, m, u => do
    let f ← expectE (fs.get? id) .index
    let (f1, m1, u1) ← claimFromFarm x who f total m u
    claimFarms x who total ids (fs.insert id f1) m1 u1

namespace Contract

/-- `Contract::new`, `lib.rs:103-118`. -/
def init (owner : AccountId) : Contract :=
  ⟨owner, FMap.empty, FMap.empty, FMap.empty, FMap.empty, 0, FMap.empty, true, FMap.empty⟩

/-- `get_farmer`, `actions_of_reward.rs:207-216`. -/
def farmer (c : Contract) (a : AccountId) : R Farmer := expectE (c.farmers.get? a) (.e 10)

/-- `get_seed`, `actions_of_seed.rs:166-173`. -/
def seed (c : Contract) (s : SeedId) : R FarmSeed := expectE (c.seeds.get? s) (.e 31)

/-- `internal_claim_user_reward_by_seed_id`, `actions_of_reward.rs:157-177`. The seed is written
back unchanged. -/
def claimBySeed (c : Contract) (x : Ctx) (who : AccountId) (s : SeedId) : R Contract := do
  let u ← c.farmer who
  match c.seeds.get? s with
  | none => .ok c
  | some fs => do
    let (farms, m, u1) ← claimFarms x who fs.amount (x.order.f fs.farms) c.farms c.rps u
    .ok { c with farms := farms, rps := m, farmers := c.farmers.insert who u1 }

/-- `internal_claim_user_reward_by_farm_id`, `actions_of_reward.rs:179-203`. -/
def claimByFarm (c : Contract) (x : Ctx) (who : AccountId) (id : FarmId) : R Contract := do
  let u ← c.farmer who
  let s ← parseFarmId id
  match c.seeds.get? s, c.farms.get? id with
  | some fs, some f => do
    let (f1, m, u1) ← claimFromFarm x who f fs.amount c.rps u
    .ok { c with farms := c.farms.insert id f1, rps := m, farmers := c.farmers.insert who u1 }
  | _, _ => .ok c

/-- `internal_farmer_storage`, `storage_impl.rs:136-146`: the NEAR needed and the NEAR paid. -/
def farmerStorage (c : Contract) (a : AccountId) : Nat × Nat :=
  match c.farmers.get? a with
  | some u => (u.storageUsage, u.near)
  | none => (0, 0)

/-- `assert_storage_usage`, `storage_impl.rs:148-160`. -/
def assertStorage (c : Contract) (a : AccountId) : R Unit := do
  let (locked, deposited) := c.farmerStorage a
  assertE (deposited > 0) (.e 10)
  assertE (locked ≤ deposited) (.e 11)

/-- `internal_register_account`, `storage_impl.rs:174-183`. -/
def register (c : Contract) (a : AccountId) (n : Nat) : R Contract :=
  match c.farmers.get? a with
  | some u => do
    let s ← addW 128 u.near n
    .ok { c with farmers := c.farmers.insert a { u with near := s } }
  | none => do
    let k ← addW 64 c.farmerCount 1
    .ok { c with farmers := c.farmers.insert a (Farmer.new n), farmerCount := k }

/-- Book an amount as staked: the part of `internal_seed_deposit` after the claim,
`actions_of_seed.rs:205-213`, which is also what the failed withdrawals do, `102-110` and
`149-157`. -/
def addStake (c : Contract) (who : AccountId) (s : SeedId) (n : Nat) (mft : Bool) :
    R Contract := do
  let fs ← c.seed s
  let total ← addW 128 fs.amount n
  let u ← c.farmer who
  let u1 ← u.addSeed s n
  .ok { c with
    seeds := c.seeds.insert s { fs with mft := mft, amount := total }
    farmers := c.farmers.insert who u1 }

/-- `internal_seed_deposit`, `actions_of_seed.rs:189-214`. -/
def seedDeposit (c : Contract) (x : Ctx) (who : AccountId) (s : SeedId) (n : Nat) (mft : Bool) :
    R Contract := do
  let c1 ← c.claimBySeed x who s
  c1.addStake who s n mft

/-- `internal_seed_withdraw`, `actions_of_seed.rs:216-248`. Returns the seed type. -/
def seedWithdraw (c : Contract) (x : Ctx) (who : AccountId) (s : SeedId) (n : Nat) :
    R (Contract × Bool) := do
  let c1 ← c.claimBySeed x who s
  let fs ← c1.seed s
  let u ← c1.farmer who
  let (u1, remain) ← u.subSeed s n
  assertE (fs.amount ≥ n) (.e 500)
  let (m, u2) ← removeAllRps who (if remain = 0 then x.order.f fs.farms else []) c1.rps u1
  .ok ({ c1 with
    farmers := c1.farmers.insert who u2
    seeds := c1.seeds.insert s { fs with amount := fs.amount - n }
    rps := m }, fs.mft)

end Contract
end Verif.Farming

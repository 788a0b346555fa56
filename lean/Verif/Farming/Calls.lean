import Verif.Farming.State

/-
The methods of the farming contract: `/repo/ref-farming/src/actions_of_farm.rs`,
`actions_of_seed.rs`, `actions_of_reward.rs`, `token_receiver.rs`, `storage_impl.rs` and `owner.rs`.
Not modelled: `migrate` and `upgrade` (they replace the code), return values that no other contract
uses, and log messages.
-/

namespace Verif.Farming

/-- `near_bindgen`: a method without `#[payable]` refuses a deposit. -/
def Ctx.noDeposit (x : Ctx) : R Unit := assertE (x.deposit = 0) .other

/-- `assert_one_yocto`, `utils.rs:62-64`. -/
def Ctx.oneYocto (x : Ctx) : R Unit := assertE (x.deposit = 1) .other

namespace Contract

/-- The check at the start of most methods, for example `actions_of_seed.rs:21`. -/
def assertRunning (c : Contract) : R Unit := assertE (c.running = true) (.e 600)

/-- `assert_owner`, `owner.rs:73-79`. -/
def assertOwner (c : Contract) (x : Ctx) : R Unit := assertE (x.pred = c.owner) .other

/-- `internal_add_farm`, `actions_of_farm.rs:44-82`. -/
def addFarm (c : Contract) (t : Terms) (minDeposit : Nat) : R Contract := do
  let fs ← (match c.seeds.get? t.seedId with
    | some fs => .ok fs
    | none => FarmSeed.new t.seedId minDeposit : R FarmSeed)
  let id := genFarmId t.seedId fs.nextIndex
  let k ← addW 32 fs.nextIndex 1
  .ok { c with
    seeds := c.seeds.insert t.seedId { fs with
      farms := if id ∈ fs.farms then fs.farms else fs.farms ++ [id]
      nextIndex := k }
    farms := c.farms.insert id (SimpleFarm.new id t) }

/-- `create_simple_farm`, `actions_of_farm.rs:13-38`. Method arguments are range checked when they
are deserialized; `min_deposit` defaults to `MIN_SEED_DEPOSIT`, `utils.rs:9`. -/
def createSimpleFarm (c : Contract) (x : Ctx) (t : Terms) (minDeposit : Option Nat) :
    R (Contract × List Out) := do
  assertE (t.startAt < 2 ^ 32 ∧ t.sessionInterval < 2 ^ 32 ∧ t.rewardPerSession < 2 ^ 128 ∧
    minDeposit.getD 0 < 2 ^ 128) .other
  c.assertOwner x
  let c1 ← c.addFarm t (minDeposit.getD (10 ^ 18))
  let cost ← mulW 128 x.grew (10 ^ 19)
  assertE (cost ≤ x.deposit) (.e 11)
  .ok (c1, if x.deposit - cost > 0 then [.near x.pred (x.deposit - cost)] else [])

/-- `internal_remove_farm_by_farm_id`, `actions_of_farm.rs:84-104`. -/
def removeFarm (c : Contract) (x : Ctx) (id : FarmId) : R Contract := do
  let s ← parseFarmId id
  match c.seeds.get? s, c.farms.get? id with
  | some fs, some f => do
    if ← f.canBeRemoved x.now fs.amount then do
      let f1 ← f.moveToClear x.now fs.amount
      .ok { c with
        farms := c.farms.erase id
        outdated := c.outdated.insert id f1
        seeds := c.seeds.insert s { fs with farms := fs.farms.filter (· ≠ id) } }
    else .ok c
  | _, _ => .ok c

/-- `force_clean_farm`, `owner.rs:13-16`. -/
def forceCleanFarm (c : Contract) (x : Ctx) (id : FarmId) : R Contract := do
  x.noDeposit
  c.assertOwner x
  c.removeFarm x id

/-- `set_owner`, `owner.rs:7-10`. -/
def setOwner (c : Contract) (x : Ctx) (a : AccountId) : R Contract := do
  x.noDeposit
  c.assertOwner x
  .ok { c with owner := a }

/-- `modify_seed_min_deposit`, `owner.rs:18-23`. -/
def modifyMinDeposit (c : Contract) (x : Ctx) (s : SeedId) (n : Nat) : R Contract := do
  x.noDeposit
  c.assertOwner x
  let fs ← c.seed s
  .ok { c with seeds := c.seeds.insert s { fs with minDeposit := n } }

/-- `pause_contract` and `resume_contract`, `owner.rs:25-49`. -/
def setRunning (c : Contract) (x : Ctx) (b : Bool) : R Contract := do
  x.oneYocto
  c.assertOwner x
  .ok { c with running := b }

/-- `remove_user_rps_by_farm`, `actions_of_reward.rs:20-34`. -/
def removeUserRps (c : Contract) (x : Ctx) (id : FarmId) : R Contract := do
  x.noDeposit
  c.assertRunning
  let u ← c.farmer x.pred
  let s ← parseFarmId id
  let fs ← c.seed s
  if id ∈ fs.farms then .ok c
  else do
    let (m, u1) ← removeRps c.rps u x.pred id
    .ok { c with rps := m, farmers := c.farmers.insert x.pred u1 }

/-- `claim_reward_by_farm`, `actions_of_reward.rs:36-42`. -/
def claimRewardByFarm (c : Contract) (x : Ctx) (id : FarmId) : R Contract := do
  x.noDeposit
  c.assertRunning
  let c1 ← c.claimByFarm x x.pred id
  c1.assertStorage x.pred
  .ok c1

/-- `claim_reward_by_seed`, `actions_of_reward.rs:44-50`. -/
def claimRewardBySeed (c : Contract) (x : Ctx) (s : SeedId) : R Contract := do
  x.noDeposit
  c.assertRunning
  let c1 ← c.claimBySeed x x.pred s
  c1.assertStorage x.pred
  .ok c1

/-- `withdraw_reward`, `actions_of_reward.rs:53-83`. -/
def withdrawReward (c : Contract) (x : Ctx) (token : AccountId) (amount : Option Nat) :
    R (Contract × List Out) := do
  x.oneYocto
  c.assertRunning
  let u ← c.farmer x.pred
  let (u1, n) ← u.subReward token (amount.getD 0)
  .ok ({ c with farmers := c.farmers.insert x.pred u1 }, [.reward token x.pred n])

/-- `withdraw_seed`, `actions_of_seed.rs:18-66`. -/
def withdrawSeed (c : Contract) (x : Ctx) (s : SeedId) (n : Nat) : R (Contract × List Out) := do
  x.oneYocto
  c.assertRunning
  let (c1, mft) ← c.seedWithdraw x x.pred s n
  if mft then do
    let (contract, token) ← parseSeedId s
    .ok (c1, [.mftSeed s contract token x.pred n])
  else .ok (c1, [.ftSeed s x.pred n])

/-- `ft_on_transfer` with an empty message, `token_receiver.rs:24-58`. -/
def ftStake (c : Contract) (x : Ctx) (sender : AccountId) (n : Nat) : R Contract := do
  x.noDeposit
  c.assertRunning
  let fs ← c.seed x.pred
  assertE (n ≥ fs.minDeposit) (.e 34)
  let c1 ← c.seedDeposit x sender x.pred n false
  c1.assertStorage sender
  .ok c1

/-- `ft_on_transfer` with a farm id as message, `token_receiver.rs:24-31` and `60-85`. -/
def ftReward (c : Contract) (x : Ctx) (n : Nat) (id : FarmId) : R Contract := do
  x.noDeposit
  c.assertRunning
  let f ← expectE (c.farms.get? id) (.e 41)
  assertE (f.terms.rewardToken = x.pred) (.e 44)
  match ← f.addReward x.now n with
  | none => .error (.e 43)
  | some f1 => do
    let total ← addW 128 (c.rewardInfo.getD x.pred 0) n
    .ok { c with farms := c.farms.insert id f1, rewardInfo := c.rewardInfo.insert x.pred total }

/-- `ft_on_transfer`, `token_receiver.rs:18-87`. Parsing a string as `FarmId` always succeeds. -/
def ftOnTransfer (c : Contract) (x : Ctx) (sender : AccountId) (n : Nat) (msg : List Char) :
    R Contract :=
  if msg = [] then c.ftStake x sender n else c.ftReward x n msg

/-- `mft_on_transfer`, `token_receiver.rs:128-177`. `parse_token_id` is the function of the same
name in ref-exchange, `parseTokenId`. -/
def mftOnTransfer (c : Contract) (x : Ctx) (tokenId : List Char) (sender : AccountId) (n : Nat)
    (msg : List Char) : R Contract := do
  x.noDeposit
  c.assertRunning
  match parseTokenId tokenId with
  | .token _ => .error (.e 35)
  | .pool p => do
    let s := mftSeedId x.pred p
    assertE (msg = []) .other
    let fs ← c.seed s
    assertE (n ≥ fs.minDeposit) (.e 34)
    let c1 ← c.seedDeposit x sender s n true
    c1.assertStorage sender
    .ok c1

/-- `storage_deposit`, `storage_impl.rs:20-59`. -/
def storageDeposit (c : Contract) (x : Ctx) (account : Option AccountId) (only : Bool) :
    R (Contract × List Out) := do
  c.assertRunning
  let a := account.getD x.pred
  let (locked, deposited) := c.farmerStorage a
  if deposited = 0 then do
    assertE (x.deposit ≥ minStorage) (.e 11)
    if only then do
      let c1 ← c.register a minStorage
      .ok (c1, if x.deposit - minStorage > 0 then [.near x.pred (x.deposit - minStorage)] else [])
    else do
      let c1 ← c.register a x.deposit
      .ok (c1, [])
  else if only then .error (.e 14)
  else do
    let s ← addW 128 x.deposit deposited
    assertE (s ≥ locked) (.e 11)
    let c1 ← c.register a x.deposit
    .ok (c1, [])

/-- `storage_withdraw`, `storage_impl.rs:61-84`. -/
def storageWithdraw (c : Contract) (x : Ctx) (amount : Option Nat) : R (Contract × List Out) := do
  x.oneYocto
  c.assertRunning
  let (locked, deposited) := c.farmerStorage x.pred
  assertE (deposited > 0) (.e 10)
  assertE (deposited ≥ locked) (.e 11)
  let n := amount.getD (deposited - locked)
  let s ← addW 128 locked n
  assertE (deposited ≥ s) (.e 11)
  let u ← c.farmer x.pred
  let rest ← subW u.near n
  .ok ({ c with farmers := c.farmers.insert x.pred { u with near := rest } }, [.near x.pred n])

/-- `storage_unregister`, `storage_impl.rs:88-115`. -/
def storageUnregister (c : Contract) (x : Ctx) : R (Contract × List Out) := do
  x.oneYocto
  c.assertRunning
  match c.farmers.get? x.pred with
  | none => .ok (c, [])
  | some u => do
    assertE (u.rewards.size = 0) (.e 12)
    assertE (u.seeds.size = 0) (.e 13)
    let k ← subW c.farmerCount 1
    .ok ({ c with farmers := c.farmers.erase x.pred, farmerCount := k }, [.near x.pred u.near])

/-- The callback of a promise: `callback_post_withdraw_reward`, `actions_of_reward.rs:85-118`,
`callback_post_withdraw_ft_seed`, `actions_of_seed.rs:68-112`, and
`callback_post_withdraw_mft_seed`, `114-159`. `ok` tells whether the transfer succeeded. -/
def callback (c : Contract) (x : Ctx) (o : Out) (ok : Bool) : R Contract := do
  if ok then .ok c
  else match o with
    | .near .. => .ok c
    | .reward token who n => do
      let u ← c.farmer who
      let u1 ← u.addReward token n
      .ok { c with farmers := c.farmers.insert who u1 }
    | .ftSeed s who n => c.seedDeposit x who s n false
    | .mftSeed s _ _ who n => c.seedDeposit x who s n true

end Contract

/-- A call of a method. -/
inductive Call where
  | createSimpleFarm (terms : Terms) (minDeposit : Option Nat)
  | forceCleanFarm (id : FarmId)
  | setOwner (a : AccountId)
  | modifyMinDeposit (s : SeedId) (n : Nat)
  | setRunning (b : Bool)
  | removeUserRps (id : FarmId)
  | claimRewardByFarm (id : FarmId)
  | claimRewardBySeed (s : SeedId)
  | withdrawReward (token : AccountId) (amount : Option Nat)
  | withdrawSeed (s : SeedId) (n : Nat)
  | ftOnTransfer (sender : AccountId) (n : Nat) (msg : List Char)
  | mftOnTransfer (tokenId : List Char) (sender : AccountId) (n : Nat) (msg : List Char)
  | storageDeposit (account : Option AccountId) (only : Bool)
  | storageWithdraw (amount : Option Nat)
  | storageUnregister

/-- The effect of a call, an error if it panics. -/
def Contract.exec (c : Contract) (x : Ctx) : Call → R (Contract × List Out)
  | .createSimpleFarm t m => c.createSimpleFarm x t m
  | .forceCleanFarm id => do .ok (← c.forceCleanFarm x id, [])
  | .setOwner a => do .ok (← c.setOwner x a, [])
  | .modifyMinDeposit s n => do .ok (← c.modifyMinDeposit x s n, [])
  | .setRunning b => do .ok (← c.setRunning x b, [])
  | .removeUserRps id => do .ok (← c.removeUserRps x id, [])
  | .claimRewardByFarm id => do .ok (← c.claimRewardByFarm x id, [])
  | .claimRewardBySeed s => do .ok (← c.claimRewardBySeed x s, [])
  | .withdrawReward t n => c.withdrawReward x t n
  | .withdrawSeed s n => c.withdrawSeed x s n
  | .ftOnTransfer a n msg => do .ok (← c.ftOnTransfer x a n msg, [])
  | .mftOnTransfer t a n msg => do .ok (← c.mftOnTransfer x t a n msg, [])
  | .storageDeposit a b => c.storageDeposit x a b
  | .storageWithdraw n => c.storageWithdraw x n
  | .storageUnregister => c.storageUnregister x

/-- `get_unclaimed_reward`, `view.rs:220-240`. -/
def Contract.getUnclaimedReward (c : Contract) (now : Nat) (a : AccountId) (id : FarmId) :
    R Nat := do
  let s ← parseFarmId id
  match c.farmers.get? a, c.seeds.get? s, c.farms.get? id with
  | some u, some fs, some f => f.viewUnclaimed now (c.rps.getD (a, f.id) 0) (u.stake s) fs.amount
  | _, _, _ => .ok 0

end Verif.Farming

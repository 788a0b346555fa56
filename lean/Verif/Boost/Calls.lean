import Verif.Boost.State

/-
The public methods of the boost farming contract and its histories. The private callbacks
(`callback_withdraw_seed`, `callback_post_withdraw_reward`, `callback_withdraw_seed_slashed`,
`callback_withdraw_seed_lostfound`) resolve promises which no method of this version creates (the
withdrawals are commented out), so they cannot run and are not modelled; neither are `migrate` and
the log messages.
-/

namespace Verif.Boost

/-- `TokenReceiverMessage`, `token_receiver.rs:8-12`; `bad` is any text that is none of these. -/
inductive Msg where
  | free
  | lock (duration : Nat)
  | reward (id : FarmId)
  | bad

/-- A transfer of native NEAR. -/
structure Out where
  receiver : AccountId
  amount : Nat
  deriving DecidableEq

/-- Changes of one setting by owner or operators, `management.rs` and `booster.rs:21-34`. -/
inductive Setting where
  | dailyReward (id : FarmId) (n : Nat)
  | lockingPolicy (maxDuration maxRatio : Nat)
  | maxFarmsPerSeed (n : Nat)
  | defaultSlashRate (n : Nat)
  | minDeposit (s : SeedId) (n : Nat)
  | minLocking (s : SeedId) (n : Nat)
  | slashRate (s : SeedId) (n : Nat)
  | booster (s : SeedId) (b : Booster)

namespace Contract

/-- `assert_one_yocto`. -/
def oneYocto (x : Ctx) : R Unit := assertE (x.deposit = 1) .other

/-- The check of the running state at the start of most methods. -/
def assertRunning (c : Contract) : R Unit := assertE (c.running = true) (.e 4)

/-- `assert_owner`, `owner.rs:23-28`. -/
def assertOwner (c : Contract) (x : Ctx) : R Unit := assertE (x.pred = c.owner) (.e 2)

/-- `is_owner_or_operators`, `lib.rs:205-211`, asserted. -/
def assertManager (c : Contract) (x : Ctx) : R Unit :=
  assertE (x.pred = c.owner ∨ x.pred ∈ c.operators) (.e 2)

/-- `stake_free_seed`, `token_receiver.rs:101-128`. -/
def stakeFree (fl : Floats) (c : Contract) (now : Nat) (a : AccountId) (s : SeedId) (n : Nat) :
    R Contract := do
  let u ← c.farmer a
  let sd ← c.seed now s
  assertE (n ≥ sd.minDeposit) (.e 307)
  let (u, sd) ← doClaim fl c.cfg u sd
  let v ← expectE (u.seeds.get? s) .index
  let (v, d) ← v.addFree fl n
  let u := { u with seeds := u.seeds.insert s v }
  let amount ← addW 128 sd.amount n
  let power ← addW 128 sd.power d
  let sd := { sd with amount, power }
  let (c, u) ← c.updateImpacted fl now u s
  .ok ((c.setFarmer a u).setSeed s sd)

/-- `stake_lock_seed`, `token_receiver.rs:130-168`. -/
def stakeLock (fl : Floats) (c : Contract) (now : Nat) (a : AccountId) (s : SeedId)
    (n duration : Nat) : R Contract := do
  let u ← c.farmer a
  let sd ← c.seed now s
  assertE (n ≥ sd.minDeposit) (.e 307)
  assertE (sd.minLock > 0) (.e 300)
  assertE (duration ≥ sd.minLock) (.e 201)
  assertE (duration ≤ c.cfg.maxDuration) (.e 201)
  let (u, sd) ← doClaim fl c.cfg u sd
  let v ← expectE (u.seeds.get? s) .index
  let (v, d) ← v.addLock fl c.cfg now n duration
  let u := { u with seeds := u.seeds.insert s v }
  let amount ← addW 128 sd.amount n
  let power ← addW 128 sd.power d
  let sd := { sd with amount, power }
  let (c, u) ← c.updateImpacted fl now u s
  .ok ((c.setFarmer a u).setSeed s sd)

/-- `internal_deposit_reward`, `actions_of_seed.rs:128-139`. -/
def depositReward (c : Contract) (now : Nat) (id : FarmId) (token : AccountId) (n : Nat) :
    R Contract := do
  let s ← parseFarmId id
  let sd ← c.seed now s
  let f ← expectE (sd.farms.get? id) (.e 401)
  let f ← f.addReward now token n
  .ok (c.setSeed s { sd with farms := sd.farms.insert id f })

/-- `ft_on_transfer`, `token_receiver.rs:16-50`. -/
def ftOnTransfer (fl : Floats) (c : Contract) (x : Ctx) (sender : AccountId) (n : Nat) (msg : Msg) :
    R Contract := do
  c.assertRunning
  match msg with
  | .free => c.stakeFree fl x.now sender x.pred n
  | .lock d => c.stakeLock fl x.now sender x.pred n d
  | .reward id => c.depositReward x.now id x.pred n
  | .bad => .error (.e 500)

/-- `mft_on_transfer`, `token_receiver.rs:68-97`. -/
def mftOnTransfer (fl : Floats) (c : Contract) (x : Ctx) (tokenId : List Char) (sender : AccountId)
    (n : Nat) (msg : Msg) : R Contract := do
  c.assertRunning
  match tokenId with
  | ':' :: sub =>
    match msg with
    | .free => c.stakeFree fl x.now sender (x.pred ++ '@' :: sub) n
    | .lock d => c.stakeLock fl x.now sender (x.pred ++ '@' :: sub) n d
    | .reward _ => .error (.e 601)
    | .bad => .error (.e 500)
  | _ => .error (.e 600)

/-- `lock_free_seed`, `actions_of_farmer_seed.rs:8-57`. -/
def lockFree (fl : Floats) (c : Contract) (x : Ctx) (s : SeedId) (duration : Nat)
    (amount : Option Nat) : R Contract := do
  oneYocto x
  c.assertRunning
  let u ← c.farmer x.pred
  let sd ← c.seed x.now s
  assertE (sd.minLock > 0) (.e 300)
  assertE (duration ≥ sd.minLock) (.e 201)
  assertE (duration ≤ c.cfg.maxDuration) (.e 201)
  let (u, sd) ← doClaim fl c.cfg u sd
  let v ← expectE (u.seeds.get? s) .index
  let (v, d) ← v.freeToLock fl c.cfg x.now (amount.getD v.free) duration
  let u := { u with seeds := u.seeds.insert s v }
  let power ← addW 128 sd.power d
  let sd := { sd with power }
  let (c, u) ← c.updateImpacted fl x.now u s
  .ok ((c.setFarmer x.pred u).setSeed s sd)

/-- `force_unlock`, `actions_of_farmer_seed.rs:128-172`. -/
def forceUnlock (fl : Floats) (c : Contract) (x : Ctx) (s : SeedId) (n : Nat) : R Contract := do
  oneYocto x
  c.assertRunning
  let u ← c.farmer x.pred
  let sd ← c.seed x.now s
  let (u, sd) ← doClaim fl c.cfg u sd
  let v ← expectE (u.seeds.get? s) .index
  let (v, d, slash) ← v.unlockSlashed fl x.now n sd.slashRate
  let amount ← subW sd.amount slash
  let power ← subW sd.power d
  let sd := { sd with amount, power }
  let t ← addW 128 (c.slashed.getD s 0) slash
  let c := { c with slashed := c.slashed.insert s t }
  let u := { u with seeds := u.seeds.insert s v }
  let (c, u) ← c.updateImpacted fl x.now u s
  .ok ((c.setFarmer x.pred u).setSeed s sd)

/-- `claim_reward_by_seed`, `actions_of_farmer_reward.rs:6-21`. -/
def claimReward (fl : Floats) (c : Contract) (x : Ctx) (s : SeedId) : R Contract := do
  assertE (x.deposit = 0) .other
  c.assertRunning
  let u ← c.farmer x.pred
  let sd ← c.seed x.now s
  let (u, sd) ← doClaim fl c.cfg u sd
  .ok ((c.setSeed s sd).setFarmer x.pred u)

/-- `create_seed`, `actions_of_seed.rs:7-32`. A seed that exists is updated before it is refused; either
way the call panics. -/
def createSeed (c : Contract) (x : Ctx) (s : SeedId) (decimals : Nat)
    (minDeposit minLock : Option Nat) : R Contract := do
  oneYocto x
  c.assertManager x
  c.assertRunning
  assertE ((c.seeds.get? s).isNone = true) (.e 302)
  .ok (c.setSeed s ⟨s, decimals, FMap.empty, 0, 0, 0, minDeposit.getD (10 ^ 18), c.cfg.slashRate,
    minLock.getD (3600 * 24 * 30)⟩)

/-- `create_farm` and `internal_add_farm`, `actions_of_seed.rs:35-54` and `93-114`. -/
def createFarm (c : Contract) (x : Ctx) (s : SeedId) (token : AccountId) (startAt daily : Nat) :
    R Contract := do
  oneYocto x
  c.assertManager x
  c.assertRunning
  let sd ← c.seed x.now s
  assertE (sd.farms.size < c.cfg.maxPerSeed) (.e 303)
  let next ← addW 32 sd.nextIndex 1
  let farms := sd.farms.insert (genFarmId s sd.nextIndex) (SeedFarm.new token startAt daily)
  let count ← addW 64 c.farmCount 1
  let c := { c.setSeed s { sd with nextIndex := next, farms } with farmCount := count }
  c.assertBoosters c.cfg.boosters.entries
  .ok c

/-- `cancel_farm` and `internal_cancel_farm`, `actions_of_seed.rs:58-71` and `116-125`. -/
def cancelFarm (c : Contract) (x : Ctx) (id : FarmId) : R Contract := do
  oneYocto x
  c.assertManager x
  c.assertRunning
  let s ← parseFarmId id
  let sd ← c.seed x.now s
  let f ← expectE (sd.farms.get? id) (.e 401)
  assertE (f.total = 0) (.e 403)
  let count ← subW c.farmCount 1
  .ok { c.setSeed s { sd with farms := sd.farms.erase id } with farmCount := count }

/-- `remove_farm_from_seed`, `actions_of_seed.rs:74-88`. -/
def removeFarm (c : Contract) (x : Ctx) (id : FarmId) : R Contract := do
  oneYocto x
  c.assertOwner x
  c.assertRunning
  let s ← parseFarmId id
  let sd ← c.seed x.now s
  let f ← expectE (sd.farms.get? id) (.e 401)
  let f ← f.finalize x.now
  let count ← subW c.farmCount 1
  .ok { c.setSeed s { sd with farms := sd.farms.erase id } with
    outdated := c.outdated.insert id f, farmCount := count }

/-- The methods of `management.rs:7-122` and `modify_booster`, `booster.rs:21-34`. -/
def setting (c : Contract) (x : Ctx) (k : Setting) : R Contract := do
  oneYocto x
  c.assertManager x
  c.assertRunning
  match k with
  | .dailyReward id n => do
    let s ← parseFarmId id
    let sd ← c.seed x.now s
    let f ← expectE (sd.farms.get? id) (.e 401)
    .ok (c.setSeed s { sd with farms := sd.farms.insert id { f with daily := n } })
  | .lockingPolicy d r => do
    assertE (r > 10000) (.e 200)
    .ok { c with cfg := { c.cfg with maxDuration := d, maxMultiplier := r } }
  | .maxFarmsPerSeed n => .ok { c with cfg := { c.cfg with maxPerSeed := n } }
  | .defaultSlashRate n => do
    assertE (10000 > n) (.e 205)
    .ok { c with cfg := { c.cfg with slashRate := n } }
  | .minDeposit s n => do
    let sd ← c.seed x.now s
    .ok (c.setSeed s { sd with minDeposit := n })
  | .minLocking s n => do
    assertE (n ≤ c.cfg.maxDuration) (.e 201)
    let sd ← c.seed x.now s
    .ok (c.setSeed s { sd with minLock := n })
  | .slashRate s n => do
    let sd ← c.seed x.now s
    .ok (c.setSeed s { sd with slashRate := n })
  | .booster s b => do
    let _ ← c.seed x.now s
    assertE ((b.affected.contains s) = false) (.e 202)
    assertE (b.affected.size ≤ 16) (.e 204)
    let n ← c.affectedFarms b.affected.entries
    assertE (n ≤ c.cfg.maxPerBooster) (.e 203)
    .ok { c with cfg := { c.cfg with boosters := c.cfg.boosters.insert s b } }

/-- `set_owner`, `owner.rs:34-38`. -/
def setOwner (c : Contract) (x : Ctx) (a : AccountId) : R Contract := do
  oneYocto x
  c.assertOwner x
  .ok { c with owner := a }

/-- `pause_contract` and `resume_contract`, `owner.rs:41-64`. -/
def setRunning (c : Contract) (x : Ctx) (b : Bool) : R Contract := do
  oneYocto x
  c.assertOwner x
  .ok { c with running := b }

/-- `extend_operators`, `owner.rs:68-74`. -/
def extendOperators (c : Contract) (x : Ctx) (l : List AccountId) : R Contract := do
  oneYocto x
  c.assertOwner x
  .ok { c with operators := l.foldl (fun ops a => if a ∈ ops then ops else ops ++ [a]) c.operators }

/-- The loop of `remove_operators`, `owner.rs:81-84`. -/
def dropOperators : List AccountId → List AccountId → R (List AccountId)
  | [], ops => .ok ops
  | a :: rest, ops => do
    assertE (a ∈ ops) (.e 7)
    dropOperators rest (ops.filter (· ≠ a))

/-- `remove_operators`, `owner.rs:78-85`. -/
def removeOperators (c : Contract) (x : Ctx) (l : List AccountId) : R Contract := do
  oneYocto x
  c.assertOwner x
  let operators ← dropOperators l c.operators
  .ok { c with operators }

/-- `STORAGE_BALANCE_MIN_BOUND`, `utils.rs:19`. -/
def storageBound : Nat := 10 ^ 23

/-- `storage_deposit`, `storage_impl.rs:21-53`. -/
def storageDeposit (c : Contract) (x : Ctx) (account : Option AccountId) :
    R (Contract × List Out) := do
  c.assertRunning
  let a := account.getD x.pred
  if c.farmers.contains a then
    .ok (c, if x.deposit > 0 then [⟨x.pred, x.deposit⟩] else [])
  else do
    assertE (x.deposit ≥ storageBound) (.e 102)
    let count ← addW 64 c.farmerCount 1
    let refund := x.deposit - storageBound
    .ok ({ c.setFarmer a ⟨x.pred, FMap.empty, FMap.empty⟩ with farmerCount := count },
      if refund > 0 then [⟨x.pred, refund⟩] else [])

/-- `storage_unregister`, `storage_impl.rs:65-91`. -/
def storageUnregister (c : Contract) (x : Ctx) : R (Contract × List Out) := do
  oneYocto x
  c.assertRunning
  match c.farmers.get? x.pred with
  | none => .ok (c, [])
  | some u => do
    assertE (u.rewards.size = 0) (.e 103)
    assertE (u.seeds.size = 0) (.e 104)
    let count ← subW c.farmerCount 1
    .ok ({ c with farmers := c.farmers.erase x.pred, farmerCount := count },
      [⟨u.sponsor, storageBound⟩])

end Contract

/-- The public methods that change the state; `storage_withdraw` always panics,
`storage_impl.rs:57-61`. -/
inductive Call where
  | ftOnTransfer (sender : AccountId) (n : Nat) (msg : Msg)
  | mftOnTransfer (tokenId : List Char) (sender : AccountId) (n : Nat) (msg : Msg)
  | lockFreeSeed (s : SeedId) (duration : Nat) (amount : Option Nat)
  | forceUnlock (s : SeedId) (n : Nat)
  | claimReward (s : SeedId)
  | createSeed (s : SeedId) (decimals : Nat) (minDeposit minLock : Option Nat)
  | createFarm (s : SeedId) (token : AccountId) (startAt daily : Nat)
  | cancelFarm (id : FarmId)
  | removeFarm (id : FarmId)
  | setting (k : Setting)
  | setOwner (a : AccountId)
  | setRunning (b : Bool)
  | extendOperators (l : List AccountId)
  | removeOperators (l : List AccountId)
  | storageDeposit (account : Option AccountId)
  | storageUnregister

/-- The effect of a call, an error if it panics. `ft_on_transfer` and `mft_on_transfer` are not
payable. -/
def Contract.exec (fl : Floats) (c : Contract) (x : Ctx) : Call → R (Contract × List Out)
  | .ftOnTransfer a n m => do
    assertE (x.deposit = 0) .other
    .ok (← c.ftOnTransfer fl x a n m, [])
  | .mftOnTransfer t a n m => do
    assertE (x.deposit = 0) .other
    .ok (← c.mftOnTransfer fl x t a n m, [])
  | .lockFreeSeed s d n => do .ok (← c.lockFree fl x s d n, [])
  | .forceUnlock s n => do .ok (← c.forceUnlock fl x s n, [])
  | .claimReward s => do .ok (← c.claimReward fl x s, [])
  | .createSeed s d m l => do .ok (← c.createSeed x s d m l, [])
  | .createFarm s t a d => do .ok (← c.createFarm x s t a d, [])
  | .cancelFarm id => do .ok (← c.cancelFarm x id, [])
  | .removeFarm id => do .ok (← c.removeFarm x id, [])
  | .setting k => do .ok (← c.setting x k, [])
  | .setOwner a => do .ok (← c.setOwner x a, [])
  | .setRunning b => do .ok (← c.setRunning x b, [])
  | .extendOperators l => do .ok (← c.extendOperators x l, [])
  | .removeOperators l => do .ok (← c.removeOperators x l, [])
  | .storageDeposit a => c.storageDeposit x a
  | .storageUnregister => c.storageUnregister x

/-- One call in a history. -/
structure Event where
  x : Ctx
  k : Call

/-- A call that panics leaves the state as it was. -/
def Contract.step (fl : Floats) (c : Contract) (e : Event) : Contract :=
  match c.exec fl e.x e.k with
  | .ok (c', _) => c'
  | .error _ => c

/-- A history of calls. -/
def Contract.run (fl : Floats) (c : Contract) : List Event → Contract
  | [] => c
  | e :: es => (c.step fl e).run fl es

/-- The states a newly deployed contract can get into. -/
def Contract.Reachable (fl : Floats) (c : Contract) : Prop :=
  ∃ owner es, c = (Contract.init owner).run fl es

/-- `get_unclaimed_rewards`, `view.rs:147-159`. -/
def Contract.unclaimed (fl : Floats) (c : Contract) (now : Nat) (a : AccountId) (s : SeedId) :
    R (FMap AccountId Nat) := do
  let u ← c.farmer a
  let sd ← c.seed now s
  let (_, k) ← calcClaim fl c.cfg u sd
  .ok k.rewards

/-- `get_farmer_reward`, `view.rs:203-211`. -/
def Contract.rewardOf (c : Contract) (a t : AccountId) : Nat :=
  match c.farmers.get? a with
  | some u => u.rewards.getD t 0
  | none => 0

/-- `get_farmer_seed`, `view.rs:182-188`. -/
def Contract.farmerSeed (c : Contract) (a : AccountId) (s : SeedId) : Option FarmerSeed :=
  (c.farmers.get? a).bind fun u => u.seeds.get? s

/-- `get_farm`, `view.rs:137-144`. -/
def Contract.getFarm (c : Contract) (now : Nat) (id : FarmId) : R (Option SeedFarm) := do
  let s ← parseFarmId id
  let sd ← c.seed now s
  .ok (sd.farms.get? id)

end Verif.Boost

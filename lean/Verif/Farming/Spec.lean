import Verif.Farming.Calls

/-
Vocabulary of the farming properties: what can be observed of the contract, what a history is.
-/

namespace Verif.Farming

/-- What a farm has handed out so far: claimed by farmers or given to the beneficiary, or waiting to
be claimed. Reported by `get_farm` as `claimed_reward` and `unclaimed_reward`. -/
def SimpleFarm.released (f : SimpleFarm) : Nat := f.dist.unclaimed + f.amountOfClaimed

/-- The stages of a farm in order. -/
def Status.rank : Status → Nat
  | .created => 0
  | .running => 1
  | .ended => 2
  | .cleared => 3

namespace Contract

/-- The view `list_user_seeds`: what account `a` has staked of seed `s`. -/
def stakeOf (c : Contract) (a : AccountId) (s : SeedId) : Nat :=
  match c.farmers.get? a with
  | some u => u.stake s
  | none => 0

/-- The view `get_reward`: what account `a` can withdraw of the reward token `t`. -/
def rewardOf (c : Contract) (a t : AccountId) : Nat :=
  match c.farmers.get? a with
  | some u => u.rewards.getD t 0
  | none => 0

/-- The view `list_seeds`: what is staked of seed `s` in total. -/
def seedTotal (c : Contract) (s : SeedId) : Nat :=
  match c.seeds.get? s with
  | some fs => fs.amount
  | none => 0

/-- The sum of all stakes in seed `s`. -/
def stakes (c : Contract) (s : SeedId) : Nat := c.farmers.sum fun _ u => u.stake s

/-- A farm, live (`get_farm`) or cleared (`get_outdated_farm`). -/
def IsFarm (c : Contract) (id : FarmId) (f : SimpleFarm) : Prop :=
  c.farms.get? id = some f ∨ c.outdated.get? id = some f

end Contract

/-- Something that happens to the contract: a call, or the callback of a promise. The promise is
arbitrary, so a history may contain callbacks of promises that were never made; what holds for all
these histories holds for the real ones. -/
inductive Event where
  | call (x : Ctx) (k : Call)
  | callback (x : Ctx) (o : Out) (ok : Bool)

/-- The surroundings of an event. -/
def Event.ctx : Event → Ctx
  | .call x _ => x
  | .callback x _ _ => x

/-- The farmer whose account an event is about: the caller of a method that concerns its caller, the
sender of staked tokens, the account registered, or the receiver of a transfer whose callback runs. -/
def Event.farmer : Event → Option AccountId
  | .call x (.removeUserRps _) => some x.pred
  | .call x (.claimRewardByFarm _) => some x.pred
  | .call x (.claimRewardBySeed _) => some x.pred
  | .call x (.withdrawReward ..) => some x.pred
  | .call x (.withdrawSeed ..) => some x.pred
  | .call _ (.ftOnTransfer sender _ msg) => if msg = [] then some sender else none
  | .call _ (.mftOnTransfer _ sender _ _) => some sender
  | .call x (.storageDeposit account _) => some (account.getD x.pred)
  | .call x (.storageWithdraw _) => some x.pred
  | .call x .storageUnregister => some x.pred
  | .call _ _ => none
  | .callback _ (.near who _) _ => some who
  | .callback _ (.reward _ who _) _ => some who
  | .callback _ (.ftSeed _ who _) _ => some who
  | .callback _ (.mftSeed _ _ _ who _) _ => some who

/-- What account `a` stakes of seed `s` in an event: by sending the token, by sending shares of a
pool, or because a transfer of withdrawn seeds failed. -/
def Event.staked (a : AccountId) (s : SeedId) : Event → Nat
  | .call x (.ftOnTransfer sender n msg) => if msg = [] ∧ a = sender ∧ s = x.pred then n else 0
  | .call x (.mftOnTransfer t sender n _) =>
    match parseTokenId t with
    | .pool p => if a = sender ∧ s = mftSeedId x.pred p then n else 0
    | .token _ => 0
  | .callback _ (.ftSeed s' who n) false => if a = who ∧ s = s' then n else 0
  | .callback _ (.mftSeed s' _ _ who n) false => if a = who ∧ s = s' then n else 0
  | _ => 0

/-- What account `a` withdraws of seed `s` in an event. -/
def Event.unstaked (a : AccountId) (s : SeedId) : Event → Nat
  | .call x (.withdrawSeed s' n) => if a = x.pred ∧ s = s' then n else 0
  | _ => 0

namespace Contract

/-- The effect of an event, an error if the receipt panics. -/
def apply (c : Contract) : Event → R (Contract × List Out)
  | .call x k => c.exec x k
  | .callback x o ok => do .ok (← c.callback x o ok, [])

/-- The state after an event: a receipt that panics is rolled back. -/
def step (c : Contract) (e : Event) : Contract :=
  match c.apply e with
  | .ok r => r.1
  | .error _ => c

/-- The state after a sequence of events. -/
def run (c : Contract) (es : List Event) : Contract := es.foldl step c

/-- The states the contract can be in: some history after its construction. -/
def Reachable (c : Contract) : Prop := ∃ owner es, c = (init owner).run es

/-- A property of states that construction establishes and every event preserves holds in every
reachable state. -/
theorem Reachable.induct {P : Contract → Prop} (h0 : ∀ owner, P (init owner))
    (hs : ∀ c e c' outs, P c → c.apply e = .ok (c', outs) → P c') {c : Contract}
    (h : c.Reachable) : P c := by
  obtain ⟨owner, es, rfl⟩ := h
  have hc0 := h0 owner
  generalize init owner = c0 at hc0
  unfold run
  induction es generalizing c0 with
  | nil => exact hc0
  | cons e es ih =>
    apply ih
    unfold step
    cases ha : c0.apply e with
    | error _ => exact hc0
    | ok r => exact hs c0 e r.1 r.2 hc0 ha

theorem Reachable.run {c : Contract} (h : c.Reachable) (es : List Event) : (c.run es).Reachable := by
  obtain ⟨owner, es0, rfl⟩ := h
  exact ⟨owner, es0 ++ es, (List.foldl_append ..).symm⟩

theorem Reachable.step {c : Contract} (h : c.Reachable) (e : Event) : (c.step e).Reachable :=
  h.run [e]

theorem Reachable.apply {c c' : Contract} {e : Event} {outs : List Out} (h : c.Reachable)
    (ha : c.apply e = .ok (c', outs)) : c'.Reachable := by
  have := h.step e
  unfold Contract.step at this
  rwa [ha] at this

/-- The state `c` can be reached by a history whose clock never goes back and shows `t` (nanoseconds)
at the end. -/
inductive At : Contract → Nat → Prop where
  | init (owner : AccountId) (t : Nat) : At (init owner) t
  | step {c : Contract} {t : Nat} (e : Event) : At c t → t ≤ e.ctx.now → At (c.step e) e.ctx.now

theorem At.reachable {c : Contract} {t : Nat} (h : c.At t) : c.Reachable := by
  induction h with
  | init owner => exact ⟨owner, [], rfl⟩
  | step e _ _ ih => exact ih.step e

theorem At.run {c : Contract} {t : Nat} (h : c.At t) (es : List Event)
    (hf : (t :: es.map (·.ctx.now)).Pairwise (· ≤ ·)) :
    (c.run es).At ((es.map (·.ctx.now)).getLastD t) := by
  induction es generalizing c t with
  | nil => exact h
  | cons e es ih =>
    rw [List.map_cons, List.getLastD_cons]
    simp only [List.map_cons, List.pairwise_cons] at hf
    exact ih (h.step e (hf.1 _ (by simp))) (List.pairwise_cons.2 hf.2)

/-- Throughout the history, from its first state to its last, the total stake in seed `s` is `T`. -/
def Steady (s : SeedId) (T : Nat) : Contract → List Event → Prop
  | c, [] => c.seedTotal s = T
  | c, e :: es => c.seedTotal s = T ∧ Steady s T (c.step e) es

/-- Farmer `a` has claimed all that farm `id` has released so far: the rate up to which they have been
paid is the current one. -/
def CaughtUp (c : Contract) (a : AccountId) (id : FarmId) : Prop :=
  ∃ f, c.farms.get? id = some f ∧ c.rps.getD (a, id) 0 = f.dist.rps

/-- The reward an event deposits in a farm: the amount of an `ft_on_transfer` call with the farm id as
message, if it succeeds. -/
def funding (c : Contract) (id : FarmId) (e : Event) : Nat :=
  match e, c.apply e with
  | .call _ (.ftOnTransfer _ n msg), .ok _ => if msg = id then n else 0
  | _, _ => 0

/-- The reward a history deposits in a farm. -/
def fundings (id : FarmId) : Contract → List Event → Nat
  | _, [] => 0
  | c, e :: es => c.funding id e + fundings id (c.step e) es

end Contract
end Verif.Farming

import Verif.Farming.FarmerView
import Verif.Farming.ListProps
import Verif.Farming.BookProps
import Verif.Farming.LockProps
import Verif.Farming.ShareProps

/-
C76: what the views of the farming contract report about a farmer is what the farmer can use.
C77: whoever has taken out everything can leave.
-/

namespace Verif.Farming
namespace Contract
open Demo

variable {c c' : Contract} {x : Ctx}

/-- The call does not panic. -/
def Succeeds (c : Contract) (x : Ctx) (k : Call) : Prop := ∃ r, c.exec x k = .ok r

theorem usage_pos (u : Farmer) : 0 < u.storageUsage := by
  unfold Farmer.storageUsage
  exact Nat.mul_pos (by omega) (by norm_num)

/-- An account is registered exactly if the views report its storage. -/
theorem storageBalance_iff (a : AccountId) {b : StorageBalance} :
    c.storageBalanceOf a = some b ↔
      ∃ u, c.farmers.get? a = some u ∧ b = ⟨u.near, u.near - u.storageUsage⟩ := by
  unfold storageBalanceOf farmerStorage
  cases c.farmers.get? a with
  | none => simp
  | some u =>
    have := usage_pos u
    simp only [gt_iff_lt, this, if_true, Option.some.injEq, exists_eq_left']
    exact eq_comm

theorem storageState_iff (a : AccountId) {p : Nat × Nat} :
    c.getUserStorageState a = some p ↔
      ∃ u, c.farmers.get? a = some u ∧ p = (u.near, u.storageUsage) := by
  unfold getUserStorageState farmerStorage
  cases c.farmers.get? a with
  | none => simp
  | some u =>
    have := usage_pos u
    simp only [gt_iff_lt, this, if_true, Option.some.injEq, exists_eq_left']
    exact eq_comm

theorem storageState_none (a : AccountId) :
    c.getUserStorageState a = none ↔ c.farmers.get? a = none := by
  unfold getUserStorageState farmerStorage
  cases c.farmers.get? a with
  | none => simp
  | some u => simp [usage_pos u]

/-! ### Storage deposits -/

theorem storageWithdraw_run {n : Option Nat} {u : Farmer} {used : Nat}
    (hu : c.farmers.get? x.pred = some u) (he : c.farmerStorage x.pred = (used, u.near))
    (hd : x.deposit = 1) (h1 : c.running = true) (hpos : 0 < used) (hlt : u.near < 2 ^ 128)
    (hm : used + n.getD (u.near - used) ≤ u.near) : ∃ r, c.storageWithdraw x n = .ok r := by
  unfold storageWithdraw Ctx.oneYocto assertRunning Contract.farmer
  rw [assertE_true hd, ok_bind, assertE_true h1, ok_bind, he]
  simp only
  rw [assertE_true (show u.near > 0 by omega), ok_bind,
    assertE_true (show u.near ≥ used by omega), ok_bind,
    show addW 128 used (n.getD (u.near - used)) = .ok _ from addW_ok.2 ⟨by omega, rfl⟩, ok_bind,
    assertE_true (show u.near ≥ used + n.getD (u.near - used) from hm), ok_bind, expectE_ok.2 hu,
    ok_bind, show subW u.near (n.getD (u.near - used)) = .ok _ from subW_ok.2 ⟨by omega, rfl⟩,
    ok_bind]
  exact ⟨_, rfl⟩

/-- **C76.** `storage_withdraw` succeeds exactly if the storage of the account is paid and the amount
is at most what `storage_balance_of` reports as available; without an amount it takes all of that. Both
reported numbers fall by what it pays. -/
theorem C76_storage_withdraw {n : Option Nat}
    (hlt : ∀ b, c.storageBalanceOf x.pred = some b → b.total < 2 ^ 128) :
    (c.Succeeds x (.storageWithdraw n) ↔ x.deposit = 1 ∧ c.running = true ∧
      ∃ b paid used, c.storageBalanceOf x.pred = some b ∧
        c.getUserStorageState x.pred = some (paid, used) ∧ used ≤ paid ∧ n.getD 0 ≤ b.available) ∧
    ∀ {c' : Contract} {outs : List Out}, c.exec x (.storageWithdraw n) = .ok (c', outs) →
      ∃ b m, c.storageBalanceOf x.pred = some b ∧ m = n.getD b.available ∧
        outs = [.near x.pred m] ∧ m ≤ b.available ∧
        c'.storageBalanceOf x.pred = some ⟨b.total - m, b.available - m⟩ := by
  constructor
  · constructor
    · rintro ⟨⟨c', outs⟩, h⟩
      simp only [exec] at h
      have hd : x.deposit = 1 := by
        unfold storageWithdraw Ctx.oneYocto at h
        rw [bind_ok] at h
        obtain ⟨_, h, -⟩ := h
        exact assertE_ok.1 h
      obtain ⟨h1, u, k, hu, hk, hle, -, -⟩ := storageWithdraw_inv h
      refine ⟨hd, h1, _, _, _, (storageBalance_iff _).2 ⟨u, hu, rfl⟩,
        (storageState_iff _).2 ⟨u, hu, rfl⟩, by omega, ?_⟩
      simp only
      cases n with
      | none => exact Nat.zero_le _
      | some n => simp only [Option.getD_some] at hk ⊢; omega
    · rintro ⟨hd, h1, b, paid, used, hb, hs, hle, hn⟩
      have hlt := hlt b hb
      obtain ⟨u, hu, rfl⟩ := (storageBalance_iff _).1 hb
      obtain ⟨u', hu', he⟩ := (storageState_iff _).1 hs
      rw [hu] at hu'
      obtain rfl := Option.some.inj hu'
      rw [Prod.mk.injEq] at he
      obtain ⟨rfl, rfl⟩ := he
      have hpos := usage_pos u
      simp only at hlt hn
      have hm : ∀ U : Nat, U ≤ u.near → n.getD 0 ≤ u.near - U → U + n.getD (u.near - U) ≤ u.near := by
        intro U h2 h3
        cases n with
        | none => simp only [Option.getD_none]; omega
        | some n => simp only [Option.getD_some] at h3 ⊢; omega
      have hm := hm _ hle hn
      have he : c.farmerStorage x.pred = (u.storageUsage, u.near) := by unfold farmerStorage; rw [hu]
      exact storageWithdraw_run hu he hd h1 hpos hlt hm
  · intro c' outs h
    simp only [exec] at h
    obtain ⟨h1, u, k, hu, hk, hle, rfl, rfl⟩ := storageWithdraw_inv h
    refine ⟨_, k, (storageBalance_iff _).2 ⟨u, hu, rfl⟩, hk, rfl, by simp only; omega, ?_⟩
    refine (storageBalance_iff _).2 ⟨{ u with near := u.near - k }, FMap.get?_insert_self _ _ _, ?_⟩
    have : ({ u with near := u.near - k } : Farmer).storageUsage = u.storageUsage := rfl
    simp only [this, StorageBalance.mk.injEq, true_and]
    omega

example : c1.storageBalanceOf al = some ⟨10 ^ 24, 10 ^ 24 - 341 * 10 ^ 19⟩ ∧
    c1.seen (y 1002 al) (.storageWithdraw (some 7)) (fun c => [c.depositOf al]) =
      some ([.near al 7], [10 ^ 24 - 7]) := by decide +kernel

/-- Registered farmers have a storage deposit. -/
theorem Reachable.near_pos (hc : c.Reachable) : ∀ {a : AccountId} {u : Farmer},
    c.farmers.get? a = some u → 0 < u.near := by
  suffices h : c.Reachable ∧ ∀ a u, c.farmers.get? a = some u → 0 < u.near from
    fun {a u} h1 => h.2 a u h1
  refine Reachable.induct (P := fun c => c.Reachable ∧
    ∀ a u, c.farmers.get? a = some u → 0 < u.near) ?_ ?_ hc
  · intro owner
    exact ⟨⟨owner, [], rfl⟩, fun a u h => nomatch h⟩
  intro c e c' outs ⟨hc, ih⟩ h
  refine ⟨hc.apply h, ?_⟩
  have hI := hc.inv
  intro a v hv
  cases kind_of_apply hI h with
  | create _ h1 => rw [(addFarm_frame h1).1] at hv; exact ih a v hv
  | clean _ h1 => rw [(removeFarm_frame hI h1).1] at hv; exact ih a v hv
  | owner => exact ih a v hv
  | minimum => exact ih a v hv
  | running => exact ih a v hv
  | nothing => exact ih a v hv
  | fund => exact ih a v hv
  | @farmer _ who ids c1 u u' seeds m _ _ hcl hu hn =>
    simp only [FMap.get?_insert] at hv
    split at hv
    · cases hv
      rw [hn]
      rcases Option.eq_none_or_eq_some (c.farmers.get? who) with hu0 | ⟨u0, hu0⟩
      · cases hcl with
        | nil => rw [hu] at hu0; cases hu0
        | cons h => rw [h] at hu0; cases hu0
      · obtain ⟨w, hw, _, _, h5⟩ := hcl.same.farmer u0 hu0
        rw [hu] at hw
        cases hw
        rw [h5]
        exact ih _ _ hu0
    · rename_i ha
      rw [hcl.same.others a ha] at hv
      exact ih a v hv
  | @deposit x b only n _ _ h1 _ _ hm =>
    unfold register at h1
    split at h1
    · rename_i u hu
      unpack at h1
      obtain ⟨_, rfl⟩ := h1
      simp only [FMap.get?_insert] at hv
      split at hv
      · cases hv
        have := ih _ _ hu
        simp only
        omega
      · exact ih a v hv
    · rename_i hu
      unpack at h1
      obtain ⟨_, rfl⟩ := h1
      simp only [FMap.get?_insert] at hv
      split at hv
      · cases hv
        have h0 : (c.farmerStorage (b.getD x.pred)).2 = 0 := by unfold farmerStorage; rw [hu]
        have h2 := hm h0
        have h3 : 0 < minStorage := by unfold minStorage; norm_num
        exact Nat.lt_of_lt_of_le h3 h2
      · exact ih a v hv
  | @withdraw x n u k _ hu h1 =>
    simp only [FMap.get?_insert] at hv
    split at hv
    · cases hv
      have := usage_pos u
      simp only
      omega
    · exact ih a v hv
  | @leave x u _ hu =>
    simp only [FMap.get?_erase] at hv
    split at hv
    · cases hv
    · exact ih a v hv

example : c1.Reachable ∧ (c1.farmers.get? al).map Farmer.near = some (10 ^ 24) :=
  ⟨c1_reachable, by decide +kernel⟩

theorem storageDeposit_new {a : AccountId} {acc : Option AccountId} {only : Bool}
    (ha : acc.getD x.pred = a) (h0 : c.farmers.get? a = none) (hr : c.running = true) :
    c.storageDeposit x acc only = (assertE (x.deposit ≥ minStorage) (.e 11)).bind fun _ =>
      (addW 64 c.farmerCount 1).bind fun k =>
      let n := if only then minStorage else x.deposit
      .ok ({ c with farmers := c.farmers.insert a (Farmer.new n), farmerCount := k },
        if x.deposit - n > 0 then [.near x.pred (x.deposit - n)] else []) := by
  have he : c.farmerStorage a = (0, 0) := by unfold farmerStorage; rw [h0]
  unfold storageDeposit assertRunning
  rw [assertE_true hr, ok_bind, ha]
  simp only [he, if_true]
  unfold register
  rw [h0]
  cases only
  · simp only [Bool.false_eq_true, if_false, Nat.sub_self, Nat.lt_irrefl, gt_iff_lt]
    cases assertE (x.deposit ≥ minStorage) (.e 11) <;> cases addW 64 c.farmerCount 1 <;> rfl
  · simp only [if_true]
    cases assertE (x.deposit ≥ minStorage) (.e 11) <;> cases addW 64 c.farmerCount 1 <;> rfl

theorem storageDeposit_old {a : AccountId} {acc : Option AccountId} {only : Bool} {u : Farmer}
    {used : Nat} (ha : acc.getD x.pred = a) (h0 : c.farmers.get? a = some u)
    (he : c.farmerStorage a = (used, u.near)) (hp : 0 < u.near) (hr : c.running = true) :
    c.storageDeposit x acc only = if only then .error (.e 14) else
      (addW 128 x.deposit u.near).bind fun s =>
      (assertE (s ≥ used) (.e 11)).bind fun _ =>
      .ok ({ c with farmers := c.farmers.insert a { u with near := s } }, []) := by
  unfold storageDeposit assertRunning
  rw [assertE_true hr, ok_bind, ha]
  simp only [he, Nat.ne_of_gt hp, if_false]
  unfold register
  simp only [h0, show addW 128 u.near x.deposit = addW 128 x.deposit u.near by
    unfold addW; rw [Nat.add_comm]]
  cases only
  · simp only [Bool.false_eq_true, if_false]
    cases h1 : addW 128 x.deposit u.near with
    | error => rfl
    | ok s =>
      simp only [ok_bind, Except.bind]
      cases h2 : assertE (s ≥ used) (.e 11) <;> rfl
  · rfl

/-- **C76.** `storage_deposit` for an account that `get_user_storage_state` does not know succeeds
exactly if the deposit reaches the minimum of `storage_balance_bounds`; the views then know the account
with the whole deposit or, for a registration only, with the minimum, the rest is sent back. For an
account that is known it is refused as a registration; otherwise it succeeds exactly if the storage in
use is paid afterwards, and the reported deposit rises by the deposit. -/
theorem C76_storage_deposit (hc : c.Reachable) {acc : Option AccountId} {only : Bool} {a : AccountId}
    (ha : acc.getD x.pred = a) :
    (c.Succeeds x (.storageDeposit acc only) ↔ c.running = true ∧
      match c.getUserStorageState a with
      | none => c.storageBalanceBounds ≤ x.deposit ∧ c.getMetadata.farmerCount + 1 < 2 ^ 64
      | some (paid, used) => only = false ∧ used ≤ paid + x.deposit ∧ paid + x.deposit < 2 ^ 128) ∧
    ∀ {c' : Contract} {outs : List Out}, c.exec x (.storageDeposit acc only) = .ok (c', outs) →
      match c.getUserStorageState a with
      | none => ∃ n, n = (if only then c.storageBalanceBounds else x.deposit) ∧
          c'.getUserStorageState a = some (n, 92 * 10 ^ 19) ∧
          outs = (if x.deposit - n > 0 then [.near x.pred (x.deposit - n)] else []) ∧
          c'.getMetadata.farmerCount = c.getMetadata.farmerCount + 1
      | some (paid, used) => c'.getUserStorageState a = some (paid + x.deposit, used) ∧ outs = [] ∧
          c'.getMetadata.farmerCount = c.getMetadata.farmerCount := by
  have hrun : ∀ r, c.exec x (.storageDeposit acc only) = .ok r → c.running = true := by
    rintro ⟨c', outs⟩ h
    exact (storageDeposit_inv h).1
  rcases Option.eq_none_or_eq_some (c.farmers.get? a) with h0 | ⟨u, hu⟩
  · rw [(storageState_none a).2 h0]
    simp only
    have key : ∀ r, c.exec x (.storageDeposit acc only) = .ok r ↔ c.running = true ∧
        minStorage ≤ x.deposit ∧ c.farmerCount + 1 < 2 ^ 64 ∧
        r = ({ c with
              farmers := c.farmers.insert a (Farmer.new (if only then minStorage else x.deposit))
              farmerCount := c.farmerCount + 1 },
            if x.deposit - (if only then minStorage else x.deposit) > 0 then
              [.near x.pred (x.deposit - (if only then minStorage else x.deposit))] else []) := by
      intro r
      constructor
      · intro h
        have hr := hrun r h
        simp only [exec] at h
        rw [storageDeposit_new ha h0 hr] at h
        obtain ⟨_, h1, h⟩ := bind_ok.1 h
        obtain ⟨k, h2, h⟩ := bind_ok.1 h
        obtain ⟨h3, rfl⟩ := addW_ok.1 h2
        exact ⟨hr, assertE_ok.1 h1, h3, (Except.ok.inj h).symm⟩
      · rintro ⟨hr, h1, h2, rfl⟩
        simp only [exec]
        rw [storageDeposit_new ha h0 hr]
        exact bind_ok.2 ⟨(), assertE_ok.2 h1, bind_ok.2 ⟨_, addW_ok.2 ⟨h2, rfl⟩, rfl⟩⟩
    constructor
    · constructor
      · rintro ⟨r, h⟩
        obtain ⟨hr, h1, h2, _⟩ := (key r).1 h
        exact ⟨hr, h1, h2⟩
      · rintro ⟨hr, h1, h2⟩
        exact ⟨_, (key _).2 ⟨hr, h1, h2, rfl⟩⟩
    · intro c' outs h
      obtain ⟨_, _, _, h3⟩ := (key _).1 h
      rw [Prod.mk.injEq] at h3
      obtain ⟨rfl, rfl⟩ := h3
      exact ⟨_, rfl, (storageState_iff a).2 ⟨_, FMap.get?_insert_self _ _ _, rfl⟩, rfl, rfl⟩
  · have hs := (storageState_iff a).2 ⟨u, hu, rfl⟩
    rw [hs]
    have hp := hc.near_pos hu
    have he : c.farmerStorage a = (u.storageUsage, u.near) := by unfold farmerStorage; rw [hu]
    have key : ∀ r, c.exec x (.storageDeposit acc only) = .ok r ↔ c.running = true ∧ only = false ∧
        u.storageUsage ≤ u.near + x.deposit ∧ u.near + x.deposit < 2 ^ 128 ∧
        r = ({ c with farmers := c.farmers.insert a { u with near := u.near + x.deposit } }, []) := by
      intro r
      generalize hU : u.storageUsage = used at he
      constructor
      · intro h
        have hr := hrun r h
        simp only [exec] at h
        rw [storageDeposit_old ha hu he hp hr] at h
        split at h
        · cases h
        · rename_i ho
          obtain ⟨s, h1, h⟩ := bind_ok.1 h
          obtain ⟨_, h2, h⟩ := bind_ok.1 h
          obtain ⟨h3, rfl⟩ := addW_ok.1 h1
          rw [Nat.add_comm u.near]
          exact ⟨hr, by simpa using ho, assertE_ok.1 h2, h3, (Except.ok.inj h).symm⟩
      · rintro ⟨hr, rfl, h1, h2, rfl⟩
        simp only [exec]
        rw [storageDeposit_old ha hu he hp hr, if_neg (by simp)]
        rw [Nat.add_comm u.near] at h1 h2 ⊢
        exact bind_ok.2 ⟨_, addW_ok.2 ⟨h2, rfl⟩, bind_ok.2 ⟨(), assertE_ok.2 h1, rfl⟩⟩
    simp only
    constructor
    · constructor
      · rintro ⟨r, h⟩
        obtain ⟨hr, h1, h2, h3, _⟩ := (key r).1 h
        exact ⟨hr, h1, h2, h3⟩
      · rintro ⟨hr, h1, h2, h3⟩
        exact ⟨_, (key _).2 ⟨hr, h1, h2, h3, rfl⟩⟩
    · intro c' outs h
      obtain ⟨_, _, _, _, h3⟩ := (key _).1 h
      rw [Prod.mk.injEq] at h3
      obtain ⟨rfl, rfl⟩ := h3
      exact ⟨(storageState_iff a).2 ⟨_, FMap.get?_insert_self _ _ _, rfl⟩, rfl, rfl⟩

/-- `cy` is new and registers with one NEAR or with the minimum, `al` adds to their deposit and cannot
register again. -/
example : c1.getUserStorageState cy = none ∧ c1.getUserStorageState al = some (10 ^ 24, 341 * 10 ^ 19) ∧
    (c1.exec (near 1002 cy) (.storageDeposit none false)).holds (fun r =>
      r.1.getUserStorageState cy = some (10 ^ 24, 92 * 10 ^ 19)) = true ∧
    (c1.exec (near 1002 cy) (.storageDeposit none true)).holds (fun r =>
      r.1.getUserStorageState cy = some (1852 * 10 ^ 19, 92 * 10 ^ 19)) = true ∧
    (c1.exec (near 1002 cy) (.storageDeposit (some al) false)).holds (fun r =>
      r.1.getUserStorageState al = some (2 * 10 ^ 24, 341 * 10 ^ 19)) = true ∧
    (c1.exec (near 1002 al) (.storageDeposit none true)).isOk = false ∧
    (c1.exec (y 1002 cy) (.storageDeposit none false)).isOk = false := by decide +kernel

/-! ### Rewards -/

/-- **C76.** The views agree: `get_reward` is the entry of `list_rewards`, zero if there is none. -/
theorem C76_reward_views (a t : AccountId) :
    c.getReward a t = c.rewardOf a t ∧
    (∀ n, (t, n) ∈ c.listRewards a → c.getReward a t = n) ∧
    ((∀ n, (t, n) ∉ c.listRewards a) → c.getReward a t = 0) := by
  unfold getReward rewardOf listRewards
  cases c.farmers.get? a with
  | none => simp [Farmer.new, FMap.empty, FMap.get?, FMap.lookup]
  | some u =>
    simp only [Option.getD_some, FMap.getD, true_and]
    constructor
    · intro n hn
      rw [(FMap.mem_entries_iff _).1 hn]
      rfl
    · intro h
      cases hg : u.rewards.get? t with
      | none => rfl
      | some n => exact absurd ((FMap.mem_entries_iff _).2 hg) (h n)

example : c2.listRewards al = [(R', 150)] ∧ c2.getReward al R' = 150 ∧ c2.getReward al S = 0 := by
  decide +kernel

/-- **C76.** `withdraw_reward` succeeds exactly for the tokens that `list_rewards` lists, up to the
amount listed. It pays the amount or, without an amount, all of it; the reported reward falls by what is
paid, other rewards stay. Only a withdrawal without an amount removes the token from the list. -/
theorem C76_withdraw_reward {t : AccountId} {n : Option Nat} :
    (c.Succeeds x (.withdrawReward t n) ↔ x.deposit = 1 ∧ c.running = true ∧
      ∃ v, (t, v) ∈ c.listRewards x.pred ∧ n.getD 0 ≤ v) ∧
    ∀ {c' : Contract} {outs : List Out}, c.exec x (.withdrawReward t n) = .ok (c', outs) →
      ∃ m, m = (if n.getD 0 = 0 then c.getReward x.pred t else n.getD 0) ∧
        outs = [.reward t x.pred m] ∧ c'.getReward x.pred t + m = c.getReward x.pred t ∧
        (∀ s, s ≠ t → c'.getReward x.pred s = c.getReward x.pred s) ∧
        ((∃ v, (t, v) ∈ c'.listRewards x.pred) ↔ n.getD 0 ≠ 0) := by
  constructor
  · constructor
    · rintro ⟨⟨c', outs⟩, h⟩
      simp only [exec] at h
      obtain ⟨hr, hd, u, u1, k, hu, hs, -, -⟩ := withdrawReward_inv h
      unfold Farmer.subReward at hs
      rw [bind_ok] at hs
      obtain ⟨v, hv, hs⟩ := hs
      rw [bind_ok] at hs
      obtain ⟨_, hle, -⟩ := hs
      refine ⟨hd, hr, v, ?_, assertE_ok.1 hle⟩
      unfold listRewards
      rw [hu]
      exact (FMap.mem_entries_iff _).2 (expectE_ok.1 hv)
    · rintro ⟨hd, hr, v, hv, hle⟩
      unfold listRewards at hv
      rcases Option.eq_none_or_eq_some (c.farmers.get? x.pred) with hu | ⟨u, hu⟩
      · rw [hu] at hv; cases hv
      rw [hu] at hv
      have hv := (FMap.mem_entries_iff _).1 hv
      unfold Succeeds
      simp only [exec]
      unfold withdrawReward Ctx.oneYocto assertRunning Contract.farmer Farmer.subReward
      rw [assertE_true hd, ok_bind, assertE_true hr, ok_bind, expectE_ok.2 hu, ok_bind,
        expectE_ok.2 hv, ok_bind, assertE_true (show v ≥ n.getD 0 from hle), ok_bind]
      split <;> exact ⟨_, rfl⟩
  · intro c' outs h
    simp only [exec] at h
    obtain ⟨hr, hd, u, u1, k, hu, hs, rfl, rfl⟩ := withdrawReward_inv h
    unfold Farmer.subReward at hs
    rw [bind_ok] at hs
    obtain ⟨v, hv, hs⟩ := hs
    rw [bind_ok] at hs
    obtain ⟨_, hle, hs⟩ := hs
    have hle := assertE_ok.1 hle
    have hv := expectE_ok.1 hv
    refine ⟨k, ?_⟩
    unfold getReward listRewards
    simp only [hu, FMap.get?_insert_self, Option.getD_some, hv]
    by_cases h0 : n.getD 0 = 0
    · rw [if_pos h0] at hs ⊢
      rw [Except.ok.injEq, Prod.mk.injEq] at hs
      obtain ⟨rfl, rfl⟩ := hs
      simp only [FMap.get?_erase_self, Option.getD_none, Nat.zero_add, true_and]
      refine ⟨fun s hs => by rw [FMap.get?_erase_ne _ hs], ⟨?_, fun h => absurd h0 h⟩⟩
      rintro ⟨w, hw⟩
      have := (FMap.mem_entries_iff _).1 hw
      rw [FMap.get?_erase_self] at this
      cases this
    · rw [if_neg h0] at hs ⊢
      rw [Except.ok.injEq, Prod.mk.injEq] at hs
      obtain ⟨rfl, rfl⟩ := hs
      simp only [FMap.get?_insert_self, Option.getD_some, true_and]
      refine ⟨by omega, fun s hs => by rw [FMap.get?_insert_ne _ _ hs], ⟨fun _ => h0, fun _ => ?_⟩⟩
      exact ⟨_, (FMap.mem_entries_iff _).2 (FMap.get?_insert_self _ _ _)⟩

/-- `al` has earned 150: they take out 60, or all, but not 151; and of no other token. -/
example : (c2.exec (y 1030 al) (.withdrawReward R' (some 60))).holds (fun r =>
      r.2 = [.reward R' al 60] ∧ r.1.listRewards al = [(R', 90)]) = true ∧
    (c2.exec (y 1030 al) (.withdrawReward R' none)).holds (fun r =>
      r.2 = [.reward R' al 150] ∧ r.1.listRewards al = []) = true ∧
    (c2.exec (y 1030 al) (.withdrawReward R' (some 151))).isOk = false ∧
    (c2.exec (y 1030 al) (.withdrawReward S none)).isOk = false := by decide +kernel

/-! ### Leaving -/

theorem entries_nil {K V : Type} {m : FMap K V} : m.size = 0 ↔ m.entries = [] := by
  obtain ⟨l, _⟩ := m
  simp [FMap.size]

/-- **C76.** `storage_unregister` succeeds exactly if `list_rewards` and `list_user_seeds` list nothing
for the caller. It pays back the whole deposit that `storage_balance_of` reports, and the views do not
know the account any more; for an account that is not registered nothing happens. -/
theorem C76_unregister (hc : c.Reachable) :
    (c.Succeeds x .storageUnregister ↔ x.deposit = 1 ∧ c.running = true ∧
      c.listRewards x.pred = [] ∧ c.listUserSeeds x.pred = []) ∧
    ∀ {c' : Contract} {outs : List Out}, c.exec x .storageUnregister = .ok (c', outs) →
      c'.storageBalanceOf x.pred = none ∧
      match c.storageBalanceOf x.pred with
      | some b => outs = [.near x.pred b.total] ∧
          c'.getMetadata.farmerCount + 1 = c.getMetadata.farmerCount
      | none => outs = [] ∧ c' = c := by
  have bal : ∀ c : Contract, c.farmers.get? x.pred = none → c.storageBalanceOf x.pred = none := by
    intro c h
    unfold storageBalanceOf farmerStorage
    rw [h]
    rfl
  constructor
  · constructor
    · rintro ⟨⟨c', outs⟩, h⟩
      simp only [exec] at h
      have hd : x.deposit = 1 := by
        unfold storageUnregister Ctx.oneYocto at h
        rw [bind_ok] at h
        obtain ⟨_, h, -⟩ := h
        exact assertE_ok.1 h
      unfold listRewards listUserSeeds
      obtain ⟨hr, ⟨hu, -, -⟩ | ⟨u, hu, h1, h2, -⟩⟩ := storageUnregister_inv h
      · rw [hu]; exact ⟨hd, hr, rfl, rfl⟩
      · rw [hu]; exact ⟨hd, hr, entries_nil.1 h1, entries_nil.1 h2⟩
    · rintro ⟨hd, hr, h1, h2⟩
      unfold Succeeds
      simp only [exec]
      unfold storageUnregister Ctx.oneYocto assertRunning
      rw [assertE_true hd, ok_bind, assertE_true hr, ok_bind]
      unfold listRewards at h1
      unfold listUserSeeds at h2
      rcases Option.eq_none_or_eq_some (c.farmers.get? x.pred) with hu | ⟨u, hu⟩
      · rw [hu]; exact ⟨_, rfl⟩
      · rw [hu] at h1 h2 ⊢
        have hcount := C62_farmer_count hc
        have hpos : 1 ≤ c.farmers.size := by
          rw [FMap.size_eq_sum]
          have := c.farmers.term_le_sum (fun _ _ => 1) x.pred
          rwa [FMap.term_some _ hu] at this
        simp only
        rw [assertE_true (entries_nil.2 h1), ok_bind, assertE_true (entries_nil.2 h2), ok_bind,
          show subW c.farmerCount 1 = .ok _ from subW_ok.2 ⟨by omega, rfl⟩, ok_bind]
        exact ⟨_, rfl⟩
  · intro c' outs h
    simp only [exec] at h
    obtain ⟨-, ⟨hu, rfl, rfl⟩ | ⟨u, hu, -, -, h3, rfl, rfl⟩⟩ := storageUnregister_inv h
    · rw [bal _ hu]
      exact ⟨rfl, rfl, rfl⟩
    · rw [(storageBalance_iff x.pred).2 ⟨u, hu, rfl⟩]
      refine ⟨bal _ (FMap.get?_erase_self _ _), rfl, ?_⟩
      show c.farmerCount - 1 + 1 = c.farmerCount
      omega

/-- `cy` registers and leaves; `al` has a stake, so they cannot. -/
example : ((c1.step (.call (near 1002 cy) (.storageDeposit none false))).exec (y 1003 cy)
      .storageUnregister).holds (fun r => r.2 = [.near cy (10 ^ 24)] ∧ r.1.storageBalanceOf cy = none) =
      true ∧
    c1.listUserSeeds al = [(S, 30)] ∧ (c1.exec (y 1003 al) .storageUnregister).isOk = false := by
  decide +kernel

/-! ### Claiming -/

theorem _root_.Verif.Farming.SimpleFarm.distribute_total {f : SimpleFarm} {now total : Nat}
    {o : Option Dist} (h : f.tryDistribute now total = .ok o) (h0 : total ≠ 0) :
    ∃ g, f.distribute now total = .ok g := by
  unfold SimpleFarm.distribute
  rw [h, ok_bind]
  cases o with
  | none => exact ⟨_, rfl⟩
  | some d =>
    simp only
    unfold SimpleFarm.adopt
    by_cases h1 : f.dist.rr = d.rr
    · rw [if_pos h1]; exact ⟨_, rfl⟩
    · rw [if_neg h1, if_neg h0]; exact ⟨_, rfl⟩

/-- What a positive answer of `get_unclaimed_reward` tells. -/
theorem unclaimed_pos {now : Nat} {a : AccountId} {id : FarmId} {v : Nat} (hI : Inv c)
    (h : c.getUnclaimedReward now a id = .ok v) (hv : 0 < v) :
    ∃ u f fs, c.farmers.get? a = some u ∧ c.farms.get? id = some f ∧
      c.seeds.get? f.terms.seedId = some fs ∧ parseFarmId id = .ok f.terms.seedId ∧
      0 < u.stake f.terms.seedId ∧ ∃ g, f.distribute now fs.amount = .ok g := by
  unfold getUnclaimedReward at h
  rw [bind_ok] at h
  obtain ⟨s, hp, h⟩ := h
  split at h
  · rename_i u fs f hu hs hf
    obtain ⟨_, _, _, i, _, hgen⟩ := (hI.farms id f hf).seed
    have hp' := hp
    rw [hgen] at hp'
    have := parseFarmId_gen hp'
    subst this
    unfold SimpleFarm.viewUnclaimed at h
    split at h
    · cases h; exact absurd hv (Nat.lt_irrefl _)
    rename_i h0
    split at h
    · cases h; exact absurd hv (Nat.lt_irrefl _)
    rename_i h1
    rw [bind_ok] at h
    obtain ⟨o, ho, -⟩ := h
    exact ⟨u, f, fs, hu, hf, hs, hp, Nat.pos_of_ne_zero h1, SimpleFarm.distribute_total ho h0⟩
  · cases h
    exact absurd hv (Nat.lt_irrefl _)

theorem usage_le {u u1 : Farmer} (h1 : u1.rewards.size ≤ u.rewards.size + 1)
    (h2 : u1.rpsCount ≤ u.rpsCount + 1) (h3 : u1.seeds = u.seeds) :
    u1.storageUsage ≤ u.storageUsage + (84 + 165) * 10 ^ 19 := by
  unfold Farmer.storageUsage
  rw [h3, ← Nat.add_mul]
  apply Nat.mul_le_mul_right
  omega

/-- **C76.** If `get_unclaimed_reward` reports a reward, `claim_reward_by_farm` succeeds for a farmer
whose storage deposit covers one more reward token and one more farm, and what `get_reward` reports rises
by exactly that amount. -/
theorem C76_claim (hc : c.Reachable) {id : FarmId} {v paid used : Nat}
    (h : c.getUnclaimedReward x.now x.pred id = .ok v) (hv : 0 < v) (hx : x.deposit = 0)
    (hrun : c.running = true) (hs : c.getUserStorageState x.pred = some (paid, used))
    (hroom : used + (84 + 165) * 10 ^ 19 ≤ paid)
    (hcount : ∀ u, c.farmers.get? x.pred = some u → u.rpsCount + 1 < 2 ^ 32)
    (hmax : ∀ f, c.farms.get? id = some f → ∀ t,
      c.getReward x.pred t + f.amountOfReward < 2 ^ 128) :
    ∃ c' f, c.exec x (.claimRewardByFarm id) = .ok (c', []) ∧ c.farms.get? id = some f ∧
      ∀ t, c'.getReward x.pred t =
        c.getReward x.pred t + if t = f.terms.rewardToken then v else 0 := by
  have hI := hc.inv
  obtain ⟨u, f, fs, hu, hf, hsd, hp, hst, g, hg⟩ := unclaimed_pos hI h hv
  have hmax := hmax f hf
  have hrew : ∀ t, c.getReward x.pred t = u.rewards.getD t 0 := by
    intro t
    unfold getReward
    rw [hu]
    rfl
  obtain ⟨f1, m1, u1, hcl, -, hcnt, hsz, hseeds, hnear, -⟩ :=
    claimFromFarm_of_distribute (x := x) hI hu hf hsd hg
      (Nat.lt_of_le_of_lt (Nat.le_add_left _ _) (hmax f.terms.rewardToken)) (.inl hst)
      (fun t => by rw [← hrew]; exact hmax t) (hcount u hu)
  obtain ⟨u', hu', he⟩ := (storageState_iff _).1 hs
  rw [hu] at hu'
  obtain rfl := Option.some.inj hu'
  rw [Prod.mk.injEq] at he
  obtain ⟨rfl, rfl⟩ := he
  have hle : u1.storageUsage ≤ u1.near := by
    rw [hnear]
    exact Nat.le_trans (usage_le hsz (by rw [hcnt]; split <;> omega) hseeds) hroom
  have key : c.exec x (.claimRewardByFarm id) = .ok ({ c with
      farms := c.farms.insert id f1, rps := m1, farmers := c.farmers.insert x.pred u1 }, []) := by
    simp only [exec]
    unfold claimRewardByFarm Ctx.noDeposit assertRunning
    rw [assertE_true hx, ok_bind, assertE_true hrun, ok_bind]
    unfold claimByFarm Contract.farmer
    rw [expectE_ok.2 hu, ok_bind, hp, ok_bind]
    simp only [hsd, hf]
    rw [hcl, ok_bind]
    unfold assertStorage farmerStorage
    simp only [ok_bind, FMap.get?_insert_self]
    rw [assertE_true (show u1.near > 0 by rw [hnear]; exact hc.near_pos hu), ok_bind,
      assertE_true hle]
    rfl
  refine ⟨_, f, key, hf, ?_⟩
  obtain ⟨n, hn, hpaid, -⟩ := C53_view_is_paid hc key
  rw [h] at hn
  obtain rfl := Except.ok.inj hn
  intro t
  rw [(C76_reward_views x.pred t).1, (C76_reward_views x.pred t).1]
  exact hpaid f hf t

/-- `al` sees 225 and claims it. -/
example : (c1.getUnclaimedReward (at' 1035 al).now al F).holds (· = 225) = true ∧
    (c1.exec (at' 1035 al) (.claimRewardByFarm F)).holds (fun r => r.1.getReward al R' = 225) = true ∧
    c1.getUserStorageState al = some (10 ^ 24, 341 * 10 ^ 19) ∧
    (c1.farmers.get? al).map Farmer.rpsCount = some 1 ∧
    (c1.farms.get? F).map SimpleFarm.amountOfReward = some 1000 := by
  decide +kernel

/-- **C76.** `get_user_rps` reports the rate up to which the farmer has been paid: a claim pays the stake
times the rate of the farm less the reported rate, and the rate of the farm is reported from then on. -/
theorem C76_user_rps (hc : c.Reachable) {id : FarmId} {f : SimpleFarm} {outs : List Out}
    (h : c.exec x (.claimRewardByFarm id) = .ok (c', outs)) (hf : c.farms.get? id = some f) :
    ∃ v f', c.getUserRps x.pred id = .ok v ∧ c'.farms.get? id = some f' ∧
      c'.getUserRps x.pred id = .ok f'.dist.rps ∧ v ≤ f'.dist.rps ∧
      ∀ t, c'.getReward x.pred t = c.getReward x.pred t + if t = f.terms.rewardToken then
        c.stakeOf x.pred f.terms.seedId * (f'.dist.rps - v) / 10 ^ 24 else 0 := by
  obtain ⟨-, h, -⟩ := claimRewardByFarm_inv (exec_quiet h).1
  rcases claimByFarm_paid hc.inv h with ⟨hn, -⟩ |
    ⟨f0, g, fs, u, u', added, n, hf0, -, hu, hu', -, -, hr, -, -, hf', hrps, hrew⟩
  · rw [hf] at hn; cases hn
  · rw [hf] at hf0
    obtain rfl := Option.some.inj hf0
    obtain ⟨hle, hn⟩ := SimpleFarm.reward_ok hr
    refine ⟨c.rps.getD (x.pred, id) 0, _, ?_, hf', ?_, hle, fun t => ?_⟩
    · unfold getUserRps Contract.farmer
      rw [expectE_ok.2 hu]; rfl
    · unfold getUserRps Contract.farmer
      rw [expectE_ok.2 hu', ok_bind, hrps]
    · rw [(C76_reward_views x.pred t).1, (C76_reward_views x.pred t).1]
      unfold rewardOf stakeOf
      rw [hu, hu']
      simp only
      rw [hrew t, hn]
      rfl

example : (c1.getUserRps al F).holds (· = 0) = true ∧
    (c1.exec (at' 1035 al) (.claimRewardByFarm F)).holds (fun r =>
      (r.1.getUserRps al F).holds (· = 75 * 10 ^ 23) && r.1.getReward al R' = 225) = true := by
  decide +kernel

/-! ### Seeds and counts -/

/-- **C76.** `list_seeds_info`, read to the end in pages of any sizes, lists every seed exactly once, as
`get_seed_info` reports it. -/
theorem C76_list_seeds_info {keys : List SeedId} (hn : keys.Nodup)
    (hk : ∀ s, s ∈ keys ↔ c.seeds.contains s = true) {sizes : List Nat}
    {l : List (SeedId × FarmSeed)} (h : readPages (c.listSeedsInfo keys) 0 sizes = .ok l)
    (hs : keys.length ≤ sizes.sum) :
    (l.map Prod.fst).Nodup ∧ ∀ s i, (s, i) ∈ l ↔ c.getSeedInfo s = some i := by
  have hl := key_pages (g := fun k => do
    let s ← c.seed k
    .ok (k, s)) h hs
  obtain ⟨h1, h2⟩ := read_all (R := fun k (fs : FarmSeed) b => b = (k, fs))
    (id := Prod.fst) hn hk (hl.imp fun k b hb => by
      unfold seed at hb
      simp only [bind_ok, expectE_ok] at hb
      obtain ⟨fs, h1, h2⟩ := hb
      cases h2
      exact ⟨fs, h1, rfl⟩)
    (fun k fs b _ hb => by rw [hb])
    (fun _ fs i j hi hj => by rw [hi, hj])
  refine ⟨h1, fun s i => (h2 (s, i)).trans ?_⟩
  unfold getSeedInfo
  constructor
  · rintro ⟨a, h3, h4⟩
    cases h4
    exact h3
  · intro h3
    exact ⟨i, h3, rfl⟩

example : (readPages (c1.listSeedsInfo [S, XS]) 0 [1, 1]).holds (fun l =>
    l.map (fun e => (e.1, e.2.amount, e.2.minDeposit)) = [(S, 40, 1), (XS, 500, 1)]) = true := by
  decide +kernel

theorem size_eq_length {κ β : Type} [DecidableEq κ] {m : FMap κ β} {keys : List κ} (hn : keys.Nodup)
    (hk : ∀ k, k ∈ keys ↔ m.contains k = true) : m.size = keys.length := by
  have hp : keys.Perm m.keys := (List.perm_ext_iff_of_nodup hn m.nodup).2 fun k =>
    (hk k).trans (by
      unfold FMap.contains
      constructor
      · intro h
        obtain ⟨v, hv⟩ := Option.isSome_iff_exists.1 h
        exact List.mem_map.2 ⟨(k, v), (m.mem_entries_iff).2 hv, rfl⟩
      · intro h
        obtain ⟨⟨k', v⟩, he, rfl⟩ := List.mem_map.1 h
        rw [(m.mem_entries_iff).1 he]
        rfl)
  rw [hp.length_eq]
  unfold FMap.size FMap.keys
  rw [List.length_map]

/-- **C76.** `get_metadata` counts the accounts that `storage_balance_of` knows, the farms that
`get_farm` knows and the seeds that `get_seed_info` knows. -/
theorem C76_metadata (hc : c.Reachable) :
    (∀ {as : List AccountId}, as.Nodup → (∀ a, a ∈ as ↔ (c.storageBalanceOf a).isSome = true) →
      c.getMetadata.farmerCount = as.length) ∧
    (∀ {ids : List FarmId}, ids.Nodup → (∀ id, id ∈ ids ↔ c.farms.contains id = true) →
      c.getMetadata.farmCount = ids.length) ∧
    (∀ {ss : List SeedId}, ss.Nodup → (∀ s, s ∈ ss ↔ (c.getSeedInfo s).isSome = true) →
      c.getMetadata.seedCount = ss.length) := by
  refine ⟨fun hn hk => ?_, fun hn hk => size_eq_length hn hk, fun hn hk => size_eq_length hn hk⟩
  refine (C62_farmer_count hc).trans (size_eq_length hn fun a => (hk a).trans ?_)
  rw [Option.isSome_iff_exists]
  unfold FMap.contains
  rw [Option.isSome_iff_exists]
  constructor
  · rintro ⟨b, hb⟩
    obtain ⟨u, hu, -⟩ := (storageBalance_iff a).1 hb
    exact ⟨u, hu⟩
  · rintro ⟨u, hu⟩
    exact ⟨_, (storageBalance_iff a).2 ⟨u, hu, rfl⟩⟩

example : c1.getMetadata = ⟨own, 2, 2, 2, 1, true⟩ := by decide +kernel

end Contract
end Verif.Farming

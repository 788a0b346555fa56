import Verif.Farming.FarmerViewProps

/-
C77: whoever has taken out everything can leave.
-/

namespace Verif.Farming

namespace Contract
open Demo

variable {c c' : Contract} {x : Ctx}

/-- The farmer has no stake and no reward. -/
def HasNothing (c : Contract) (a : AccountId) : Prop :=
  (∀ s, c.stakeOf a s = 0) ∧ ∀ t, c.getReward a t = 0

/-- **C77 is violated.** A reward of zero that `list_rewards` lists for a farmer keeps them from
leaving: `storage_unregister` fails. Withdrawing it asks the token for a transfer of zero, which tokens
refuse; the callback then lists the zero again. -/
theorem C77_zero_blocks {t : AccountId} (h : (t, 0) ∈ c.listRewards x.pred) :
    ¬ c.Succeeds x .storageUnregister ∧
    ∀ {n : Option Nat} {c1 : Contract} {outs : List Out},
      c.exec x (.withdrawReward t n) = .ok (c1, outs) → outs = [.reward t x.pred 0] ∧
      ∀ {y : Ctx} {c2 : Contract}, c1.callback y (.reward t x.pred 0) false = .ok c2 →
        (t, 0) ∈ c2.listRewards x.pred := by
  constructor
  · rintro ⟨⟨c', outs⟩, h1⟩
    simp only [exec] at h1
    unfold listRewards at h
    obtain ⟨-, ⟨hu, -, -⟩ | ⟨u, hu, h2, -⟩⟩ := storageUnregister_inv h1
    · rw [hu] at h; cases h
    · rw [hu] at h
      simp only [entries_nil.1 h2] at h
      cases h
  · intro n c1 outs h1
    have hg := (C76_reward_views x.pred t).2.1 0 h
    obtain ⟨m, hm, rfl, hsum, -⟩ := (C76_withdraw_reward (c := c)).2 h1
    obtain rfl : m = 0 := by omega
    refine ⟨rfl, ?_⟩
    intro y c2 h2
    simp only [exec] at h1
    obtain ⟨-, -, u, u1, k, hu, hs, rfl, -⟩ := withdrawReward_inv h1
    unfold callback Contract.farmer at h2
    simp only [Bool.false_eq_true, if_false, FMap.get?_insert_self, bind_ok, expectE_ok,
      Except.ok.injEq] at h2
    obtain ⟨v, hv, u2, h3, rfl⟩ := h2
    cases hv
    unfold listRewards
    simp only [FMap.get?_insert_self]
    refine (FMap.mem_entries_iff _).2 ?_
    rw [hg] at hsum
    unfold getReward at hsum
    simp only [FMap.get?_insert_self, Option.getD_some] at hsum
    unfold Farmer.addReward at h3
    split at h3
    · rename_i w hw
      unpack at h3
      obtain ⟨_, rfl⟩ := h3
      rw [hw] at hsum
      simp only [Option.getD_some, Nat.add_zero] at hsum
      rw [FMap.get?_insert_self, hsum]
    · cases h3
      exact FMap.get?_insert_self _ _ _

/-- `al` takes out the stake and claims, then takes out the 150 of reward they see. -/
def exactly : List Event := [
  .call (y 1021 al) (.withdrawSeed S 30),
  .call (y 1022 al) (.withdrawReward R' (some 150))]

/-- **C77 is violated.** `al` has withdrawn the stake and, naming the amount, the whole reward, and both
transfers succeeded; they have nothing left and cannot leave with the storage deposit. -/
theorem C77_stuck : ∃ c : Contract, c.Reachable ∧ c.running = true ∧ c.HasNothing al ∧
    c.storageBalanceOf al = some ⟨10 ^ 24, 10 ^ 24 - 176 * 10 ^ 19⟩ ∧
    c.listRewards al = [(R', 0)] ∧ c.exec (y 1030 al) .storageUnregister = .error (.e 12) := by
  have key : (decide ((c2.run exactly).running = true ∧
      (c2.run exactly).storageBalanceOf al = some ⟨10 ^ 24, 10 ^ 24 - 176 * 10 ^ 19⟩ ∧
      (c2.run exactly).listRewards al = [(R', 0)] ∧ (c2.run exactly).listUserSeeds al = []) &&
      (match (c2.run exactly).exec (y 1030 al) .storageUnregister with
        | .error (.e 12) => true | _ => false)) = true := by
    decide +kernel
  have hr := c2_reachable.run exactly
  generalize c2.run exactly = c at key hr
  simp only [Bool.and_eq_true, decide_eq_true_eq] at key
  obtain ⟨⟨h1, h2, h3, h4⟩, h5⟩ := key
  refine ⟨c, hr, h1, ⟨fun s => ?_, fun t => ?_⟩, h2, h3, ?_⟩
  · unfold listUserSeeds at h4
    unfold stakeOf
    cases hu : c.farmers.get? al with
    | none => rfl
    | some u =>
      rw [hu] at h4
      simp only at h4 ⊢
      unfold Farmer.stake FMap.getD FMap.get?
      rw [h4]
      rfl
  · by_cases ht : t = R'
    · rw [ht]
      exact (C76_reward_views al R').2.1 0 (by rw [h3]; exact List.mem_cons_self ..)
    · refine (C76_reward_views al t).2.2 fun n hn => ?_
      rw [h3, List.mem_singleton] at hn
      exact ht (Prod.mk.inj hn).1
  · split at h5
    · assumption
    · cases h5

/-! ### Leaving -/

/-- Calls that all succeed, one after the other, and the transfers they start. -/
def execAll (c : Contract) : List (Ctx × Call) → R (Contract × List Out)
  | [] => .ok (c, [])
  | (x, k) :: l => do
    let (c1, o1) ← c.exec x k
    let (c2, o2) ← c1.execAll l
    .ok (c2, o1 ++ o2)

theorem execAll_cons {c c1 c2 : Contract} {x : Ctx} {k : Call} {l : List (Ctx × Call)}
    {o1 o2 : List Out} (h1 : c.exec x k = .ok (c1, o1)) (h2 : c1.execAll l = .ok (c2, o2)) :
    c.execAll ((x, k) :: l) = .ok (c2, o1 ++ o2) := by
  have hl : c.execAll ((x, k) :: l) = (do
    let (c1, o1) ← c.exec x k
    let (c2, o2) ← c1.execAll l
    .ok (c2, o1 ++ o2)) := rfl
  rw [hl, h1, ok_bind]
  simp only
  rw [h2, ok_bind]

/-- The calls that take out all rewards, and the last call. -/
def leaving (x : AccountId → Ctx) (last : Ctx) (ts : List AccountId) : List (Ctx × Call) :=
  ts.map (fun t => (x t, .withdrawReward t none)) ++ [(last, .storageUnregister)]

/-- **C77, in part.** A farmer without a stake can leave: they withdraw every listed reward without
naming an amount, in any order, then `storage_unregister` succeeds and pays back the storage deposit.
Missing: after withdrawals that name the whole amount this needs transfers of zero to succeed
(`C77_zero_blocks`), and taking out the stake first is subject to C49. -/
theorem C77_leave_partial (hc : c.Reachable) {a : AccountId} (hrun : c.running = true)
    {x : AccountId → Ctx} {last : Ctx} (hx : ∀ t, (x t).pred = a ∧ (x t).deposit = 1)
    (hl : last.pred = a ∧ last.deposit = 1) (hseeds : c.listUserSeeds a = []) {b : StorageBalance}
    (hb : c.storageBalanceOf a = some b) {ts : List AccountId} (hn : ts.Nodup)
    (hts : ∀ t, t ∈ ts ↔ ∃ v, (t, v) ∈ c.listRewards a) :
    ∃ c', c.execAll (leaving x last ts) =
        .ok (c', ts.map (fun t => .reward t a (c.getReward a t)) ++ [.near a b.total]) ∧
      c'.storageBalanceOf a = none := by
  induction ts generalizing c b with
  | nil =>
    have hnil : c.listRewards last.pred = [] := by
      rw [hl.1]
      cases he : c.listRewards a with
      | nil => rfl
      | cons e l =>
        have := (hts e.1).2 ⟨e.2, by rw [he]; exact List.mem_cons_self ..⟩
        cases this
    obtain ⟨h1, h2⟩ := C76_unregister (x := last) hc
    obtain ⟨⟨c', outs⟩, he⟩ := h1.2 ⟨hl.2, hrun, hnil, by rw [hl.1]; exact hseeds⟩
    have h3 := h2 he
    rw [hl.1, hb] at h3
    simp only at h3
    obtain ⟨h4, rfl, -⟩ := h3
    exact ⟨c', execAll_cons (o2 := []) he rfl, h4⟩
  | cons t ts ih =>
    obtain ⟨hnt, hn⟩ := List.nodup_cons.1 hn
    obtain ⟨v, hv⟩ := (hts t).1 (List.mem_cons_self ..)
    obtain ⟨ha, hd⟩ := hx t
    obtain ⟨h1, h2⟩ := C76_withdraw_reward (c := c) (x := x t) (t := t) (n := none)
    rw [ha] at h1
    obtain ⟨⟨c1, outs⟩, he⟩ := h1.2 ⟨hd, hrun, v, hv, Nat.zero_le _⟩
    obtain ⟨m, hm, rfl, -, hoth, -⟩ := h2 he
    rw [ha] at hm hoth
    simp only [Option.getD_none, if_true] at hm
    subst hm
    have he' := he
    simp only [exec] at he'
    obtain ⟨-, -, u, u1, k, hu, hs, rfl, -⟩ := withdrawReward_inv he'
    rw [ha] at hu
    unfold Farmer.subReward at hs
    simp only [bind_ok, Option.getD_none, if_true, Except.ok.injEq, Prod.mk.injEq] at hs
    obtain ⟨w, hw, _, _, rfl, rfl⟩ := hs
    have hreach : Contract.Reachable { c with
        farmers := c.farmers.insert (x t).pred { u with rewards := u.rewards.erase t } } :=
      hc.apply (e := .call (x t) (.withdrawReward t none)) he
    rw [ha] at hreach he
    obtain ⟨v', hv', hbe⟩ := (storageBalance_iff a).1 hb
    rw [hu] at hv'
    obtain rfl := Option.some.inj hv'
    have hb' : ∃ b' : StorageBalance, b'.total = b.total ∧ storageBalanceOf { c with
        farmers := c.farmers.insert a { u with rewards := u.rewards.erase t } } a = some b' := by
      refine ⟨_, ?_, (storageBalance_iff a).2 ⟨_, FMap.get?_insert_self _ _ _, rfl⟩⟩
      rw [hbe]
    obtain ⟨b', hbt, hb'⟩ := hb'
    have hmem : ∀ t', t' ∈ ts ↔ ∃ v, (t', v) ∈ listRewards { c with
        farmers := c.farmers.insert a { u with rewards := u.rewards.erase t } } a := by
      intro t'
      have h0 := hts t'
      unfold listRewards at h0 ⊢
      simp only [FMap.get?_insert_self, hu, FMap.mem_entries_iff, List.mem_cons] at h0 ⊢
      by_cases e : t' = t
      · subst e
        simp [hnt, FMap.get?_erase_self]
      · rw [FMap.get?_erase_ne _ e, ← h0]
        simp [e]
    have hsd : listUserSeeds { c with
        farmers := c.farmers.insert a { u with rewards := u.rewards.erase t } } a = [] := by
      unfold listUserSeeds at hseeds ⊢
      rw [hu] at hseeds
      simp only [FMap.get?_insert_self]
      exact hseeds
    obtain ⟨c', h5, h6⟩ := ih hreach hrun hsd hb' hn hmem
    refine ⟨c', ?_, h6⟩
    have h7 := execAll_cons he h5
    rw [hbt] at h7
    have h8 : ts.map (fun t' => Out.reward t' a (getReward { c with
        farmers := c.farmers.insert a { u with rewards := u.rewards.erase t } } a t')) =
        ts.map (fun t' => Out.reward t' a (c.getReward a t')) := by
      apply List.map_congr_left
      intro t' ht'
      rw [ha] at hoth
      rw [hoth t' (fun e => hnt (e ▸ ht'))]
    rw [h8] at h7
    exact h7

/-- `al` takes out the stake, then the reward, then leaves with one NEAR. -/
example : ((c2.step (.call (y 1021 al) (.withdrawSeed S 30))).listUserSeeds al,
    (c2.step (.call (y 1021 al) (.withdrawSeed S 30))).listRewards al) = ([], [(R', 150)]) ∧
    ((c2.step (.call (y 1021 al) (.withdrawSeed S 30))).execAll
      (leaving (fun _ => y 1022 al) (y 1023 al) [R'])).holds (fun r =>
        r.2 = [.reward R' al 150, .near al (10 ^ 24)] ∧ r.1.storageBalanceOf al = none) = true := by
  decide +kernel

end Contract
end Verif.Farming

import Verif.Farming.Spec

/-
What a method did if it did not panic.
-/

namespace Verif.Farming.Contract

variable {c c' : Contract} {x : Ctx} {outs : List Out}

theorem createSimpleFarm_inv {t : Terms} {d : Option Nat}
    (h : c.createSimpleFarm x t d = .ok (c', outs)) :
    x.pred = c.owner ∧ c.addFarm t (d.getD (10 ^ 18)) = .ok c' ∧ x.grew * 10 ^ 19 ≤ x.deposit ∧
    (t.startAt < 2 ^ 32 ∧ t.sessionInterval < 2 ^ 32 ∧ t.rewardPerSession < 2 ^ 128) ∧
    outs = if x.deposit - x.grew * 10 ^ 19 > 0 then
      [.near x.pred (x.deposit - x.grew * 10 ^ 19)] else [] := by
  unfold createSimpleFarm assertOwner at h
  unpack at h
  obtain ⟨h1, h2, h3, _, ho, c1, hc, _, hd, rfl, rfl⟩ := h
  exact ⟨ho, hc, hd, ⟨h1, h2, h3⟩, rfl⟩

theorem forceCleanFarm_inv {id : FarmId} (h : c.forceCleanFarm x id = .ok c') :
    x.pred = c.owner ∧ c.removeFarm x id = .ok c' := by
  unfold forceCleanFarm assertOwner Ctx.noDeposit at h
  unpack at h
  exact h.2

theorem setOwner_inv {a : AccountId} (h : c.setOwner x a = .ok c') :
    x.pred = c.owner ∧ c' = { c with owner := a } := by
  unfold setOwner assertOwner Ctx.noDeposit at h
  unpack at h
  exact ⟨h.2.1, h.2.2.symm⟩

theorem modifyMinDeposit_inv {s : SeedId} {n : Nat} (h : c.modifyMinDeposit x s n = .ok c') :
    x.pred = c.owner ∧ ∃ fs, c.seeds.get? s = some fs ∧
      c' = { c with seeds := c.seeds.insert s { fs with minDeposit := n } } := by
  unfold modifyMinDeposit assertOwner Ctx.noDeposit seed at h
  unpack at h
  obtain ⟨_, ho, fs, hs, rfl⟩ := h
  exact ⟨ho, fs, hs, rfl⟩

theorem setRunning_inv {b : Bool} (h : c.setRunning x b = .ok c') :
    x.pred = c.owner ∧ x.deposit = 1 ∧ c' = { c with running := b } := by
  unfold setRunning assertOwner Ctx.oneYocto at h
  unpack at h
  exact ⟨h.2.1, h.1, h.2.2.symm⟩

theorem removeUserRps_inv {id : FarmId} (h : c.removeUserRps x id = .ok c') :
    c.running = true ∧ ∃ u s fs, c.farmers.get? x.pred = some u ∧ parseFarmId id = .ok s ∧
      c.seeds.get? s = some fs ∧ ((id ∈ fs.farms ∧ c' = c) ∨ (id ∉ fs.farms ∧
        ∃ m u1, removeRps c.rps u x.pred id = .ok (m, u1) ∧
          c' = { c with rps := m, farmers := c.farmers.insert x.pred u1 })) := by
  unfold removeUserRps assertRunning Ctx.noDeposit farmer seed at h
  unpack at h
  obtain ⟨_, hr, u, hu, s, hp, fs, hs, h⟩ := h
  refine ⟨hr, u, s, fs, hu, hp, hs, ?_⟩
  split at h
  · cases h; exact .inl ⟨‹_›, rfl⟩
  · unpack at h
    obtain ⟨m, u1, hm, rfl⟩ := h
    exact .inr ⟨‹_›, m, u1, hm, rfl⟩

theorem claimRewardByFarm_inv {id : FarmId} (h : c.claimRewardByFarm x id = .ok c') :
    c.running = true ∧ c.claimByFarm x x.pred id = .ok c' ∧ c'.assertStorage x.pred = .ok () := by
  unfold claimRewardByFarm assertRunning Ctx.noDeposit at h
  unpack at h
  obtain ⟨_, hr, c1, hc, _, ha, rfl⟩ := h
  exact ⟨hr, hc, ha⟩

theorem claimRewardBySeed_inv {s : SeedId} (h : c.claimRewardBySeed x s = .ok c') :
    c.running = true ∧ c.claimBySeed x x.pred s = .ok c' ∧ c'.assertStorage x.pred = .ok () := by
  unfold claimRewardBySeed assertRunning Ctx.noDeposit at h
  unpack at h
  obtain ⟨_, hr, c1, hc, _, ha, rfl⟩ := h
  exact ⟨hr, hc, ha⟩

theorem withdrawReward_inv {t : AccountId} {n : Option Nat}
    (h : c.withdrawReward x t n = .ok (c', outs)) :
    c.running = true ∧ x.deposit = 1 ∧ ∃ u u1 k, c.farmers.get? x.pred = some u ∧
      u.subReward t (n.getD 0) = .ok (u1, k) ∧
      c' = { c with farmers := c.farmers.insert x.pred u1 } ∧ outs = [.reward t x.pred k] := by
  unfold withdrawReward assertRunning Ctx.oneYocto farmer at h
  unpack at h
  obtain ⟨hd, hr, u, hu, u1, k, h1, rfl, rfl⟩ := h
  exact ⟨hr, hd, u, u1, k, hu, h1, rfl, rfl⟩

theorem withdrawSeed_inv {s : SeedId} {n : Nat} (h : c.withdrawSeed x s n = .ok (c', outs)) :
    c.running = true ∧ x.deposit = 1 ∧ ∃ mft, c.seedWithdraw x x.pred s n = .ok (c', mft) ∧
      ((mft = false ∧ outs = [.ftSeed s x.pred n]) ∨
        (mft = true ∧ ∃ a b, parseSeedId s = .ok (a, b) ∧ outs = [.mftSeed s a b x.pred n])) := by
  unfold withdrawSeed assertRunning Ctx.oneYocto at h
  unpack at h
  obtain ⟨hd, hr, c1, mft, h1, h⟩ := h
  refine ⟨hr, hd, ?_⟩
  cases mft with
  | true =>
    simp only [if_true] at h
    unpack at h
    obtain ⟨a, b, hp, rfl, rfl⟩ := h
    exact ⟨true, h1, .inr ⟨rfl, a, b, hp, rfl⟩⟩
  | false =>
    cases h
    exact ⟨false, h1, .inl ⟨rfl, rfl⟩⟩

theorem ftOnTransfer_inv {a : AccountId} {n : Nat} {msg : List Char}
    (h : c.ftOnTransfer x a n msg = .ok c') :
    c.running = true ∧
    ((msg = [] ∧ ∃ fs, c.seeds.get? x.pred = some fs ∧ fs.minDeposit ≤ n ∧
        c.seedDeposit x a x.pred n false = .ok c' ∧ c'.assertStorage a = .ok ()) ∨
      (msg ≠ [] ∧ ∃ f f1, c.farms.get? msg = some f ∧ f.terms.rewardToken = x.pred ∧
        f.addReward x.now n = .ok (some f1) ∧
        c' = { c with
          farms := c.farms.insert msg f1
          rewardInfo := c.rewardInfo.insert x.pred (c.rewardInfo.getD x.pred 0 + n) })) := by
  unfold ftOnTransfer at h
  split at h
  · unfold ftStake assertRunning Ctx.noDeposit seed at h
    unpack at h
    obtain ⟨_, hr, fs, hs, hm, c1, h1, _, ha, rfl⟩ := h
    exact ⟨hr, .inl ⟨‹_›, fs, hs, hm, h1, ha⟩⟩
  · unfold ftReward assertRunning Ctx.noDeposit at h
    unpack at h
    obtain ⟨_, hr, f, hf, ht, o, ho, h⟩ := h
    cases o with
    | none => cases h
    | some f1 =>
      unpack at h
      obtain ⟨_, rfl⟩ := h
      exact ⟨hr, .inr ⟨‹_›, f, f1, hf, ht, ho, rfl⟩⟩

theorem mftOnTransfer_inv {t : List Char} {a : AccountId} {n : Nat} {msg : List Char}
    (h : c.mftOnTransfer x t a n msg = .ok c') :
    c.running = true ∧ ∃ p fs, parseTokenId t = .pool p ∧
      c.seeds.get? (mftSeedId x.pred p) = some fs ∧ fs.minDeposit ≤ n ∧
      c.seedDeposit x a (mftSeedId x.pred p) n true = .ok c' ∧ c'.assertStorage a = .ok () := by
  unfold mftOnTransfer assertRunning Ctx.noDeposit seed at h
  simp only [bind_ok, assertE_ok] at h
  obtain ⟨_, _, _, hr, h⟩ := h
  split at h
  · cases h
  · unpack at h
    obtain ⟨_, fs, hs, hm, c1, h1, _, ha, rfl⟩ := h
    exact ⟨hr, _, fs, ‹_›, hs, hm, h1, ha⟩

theorem storageDeposit_inv {a : Option AccountId} {only : Bool}
    (h : c.storageDeposit x a only = .ok (c', outs)) :
    c.running = true ∧ ∃ n, c.register (a.getD x.pred) n = .ok c' ∧ n ≤ x.deposit ∧
      outs = (if x.deposit - n > 0 then [.near x.pred (x.deposit - n)] else []) ∧
      (n = x.deposit ∨ (only = true ∧ n = minStorage)) ∧
      ((c.farmerStorage (a.getD x.pred)).2 = 0 → minStorage ≤ x.deposit) := by
  unfold storageDeposit assertRunning at h
  simp only [bind_ok, assertE_ok] at h
  obtain ⟨_, hr, h⟩ := h
  refine ⟨hr, ?_⟩
  split at h
  · rename_i h0
    split at h
    · unpack at h
      obtain ⟨hd, c1, h1, rfl, rfl⟩ := h
      exact ⟨minStorage, h1, hd, rfl, .inr ⟨‹_›, rfl⟩, fun _ => hd⟩
    · unpack at h
      obtain ⟨hd, c1, h1, rfl, rfl⟩ := h
      exact ⟨x.deposit, h1, Nat.le_refl _, by simp, .inl rfl, fun _ => hd⟩
  · rename_i h0
    split at h
    · cases h
    · unpack at h
      obtain ⟨_, _, c1, h1, rfl, rfl⟩ := h
      exact ⟨x.deposit, h1, Nat.le_refl _, by simp, .inl rfl, fun h => absurd h h0⟩

theorem storageWithdraw_inv {n : Option Nat} (h : c.storageWithdraw x n = .ok (c', outs)) :
    c.running = true ∧ ∃ u k, c.farmers.get? x.pred = some u ∧
      k = n.getD (u.near - u.storageUsage) ∧ u.storageUsage + k ≤ u.near ∧
      c' = { c with farmers := c.farmers.insert x.pred { u with near := u.near - k } } ∧
      outs = [.near x.pred k] := by
  unfold storageWithdraw assertRunning Ctx.oneYocto farmer at h
  unpack at h
  obtain ⟨_, hr, _, _, _, hle, u, hu, _, rfl, rfl⟩ := h
  have he : c.farmerStorage x.pred = (u.storageUsage, u.near) := by
    unfold farmerStorage; rw [hu]
  rw [he] at hle
  simp only [he]
  exact ⟨hr, u, _, hu, rfl, hle, rfl, rfl⟩

theorem storageUnregister_inv (h : c.storageUnregister x = .ok (c', outs)) :
    c.running = true ∧ ((c.farmers.get? x.pred = none ∧ c' = c ∧ outs = []) ∨
      ∃ u, c.farmers.get? x.pred = some u ∧ u.rewards.size = 0 ∧ u.seeds.size = 0 ∧
        1 ≤ c.farmerCount ∧
        c' = { c with farmers := c.farmers.erase x.pred, farmerCount := c.farmerCount - 1 } ∧
        outs = [.near x.pred u.near]) := by
  unfold storageUnregister assertRunning Ctx.oneYocto at h
  simp only [bind_ok, assertE_ok] at h
  obtain ⟨_, _, _, hr, h⟩ := h
  refine ⟨hr, ?_⟩
  split at h
  · cases h; exact .inl ⟨‹_›, rfl, rfl⟩
  · unpack at h
    obtain ⟨h1, h2, h3, rfl, rfl⟩ := h
    exact .inr ⟨_, ‹_›, h1, h2, h3, rfl, rfl⟩

theorem callback_inv {o : Out} {ok : Bool} (h : c.callback x o ok = .ok c') :
    c' = c ∨ (ok = false ∧
      ((∃ t who n u u1, o = .reward t who n ∧ c.farmers.get? who = some u ∧
          u.addReward t n = .ok u1 ∧ c' = { c with farmers := c.farmers.insert who u1 }) ∨
        (∃ s who n, o = .ftSeed s who n ∧ c.seedDeposit x who s n false = .ok c') ∨
        (∃ s a b who n, o = .mftSeed s a b who n ∧ c.seedDeposit x who s n true = .ok c'))) := by
  unfold callback farmer at h
  split at h
  · cases h; exact .inl rfl
  · rename_i hok
    split at h
    · cases h; exact .inl rfl
    · unpack at h
      obtain ⟨u, hu, u1, h1, rfl⟩ := h
      exact .inr ⟨by simpa using hok, .inl ⟨_, _, _, u, u1, rfl, hu, h1, rfl⟩⟩
    · exact .inr ⟨by simpa using hok, .inr (.inl ⟨_, _, _, rfl, h⟩)⟩
    · exact .inr ⟨by simpa using hok, .inr (.inr ⟨_, _, _, _, _, rfl, h⟩)⟩

/-- Methods without promises. -/
theorem exec_quiet {f : R Contract} (h : (do .ok (← f, []) : R (Contract × List Out)) = .ok (c', outs)) :
    f = .ok c' ∧ outs = [] := by
  unpack at h
  obtain ⟨c1, h1, rfl, rfl⟩ := h
  exact ⟨h1, rfl⟩

end Verif.Farming.Contract

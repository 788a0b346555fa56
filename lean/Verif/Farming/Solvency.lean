import Verif.Farming.Ledger

/-
C50: the farming contract can pay what it owes.
-/

namespace Verif.Farming

/-- The seed an asset is staked in. -/
def Asset.seed : Asset → SeedId
  | .ft t => t
  | .mft e p => mftSeedId e p

/-- The rewards owed in an asset. -/
def Contract.rewardsIn (c : Contract) : Asset → Nat
  | .ft t => c.rewardsOwed t
  | .mft _ _ => 0

theorem Contract.owed_eq (c : Contract) (a : Asset) : c.owed a = c.rewardsIn a + c.stakes a.seed := by
  cases a <;> simp [owed, rewardsIn, Asset.seed]

theorem Asset.seed_ft {a : Asset} {s : SeedId} (hs : '@' ∉ s) (n : Nat) :
    (if a.seed = s then n else 0) = match a with
      | .ft t => if s = t then n else 0
      | .mft _ _ => 0 := by
  cases a with
  | ft t =>
    show (if t = s then n else 0) = if s = t then n else 0
    by_cases h : s = t
    · rw [if_pos h, if_pos h.symm]
    · rw [if_neg h, if_neg (Ne.symm h)]
  | mft e p =>
    rw [if_neg]
    rintro rfl
    exact hs (mem_mftSeedId e p)

theorem Asset.seed_mft {a : Asset} (ha : a.Valid) {e : AccountId} {p : Nat} (he : '@' ∉ e) (n : Nat) :
    (if a.seed = mftSeedId e p then n else 0) = match a with
      | .ft _ => 0
      | .mft e' p' => if e = e' ∧ p = p' then n else 0 := by
  cases a with
  | ft t =>
    rw [if_neg]
    intro h
    have ha : '@' ∉ t := ha
    rw [show t = mftSeedId e p from h] at ha
    exact ha (mem_mftSeedId e p)
  | mft e' p' =>
    by_cases h : e = e' ∧ p = p'
    · rw [if_pos (show Asset.seed (.mft e' p') = mftSeedId e p by rw [h.1, h.2]; rfl)]
      simp [h]
    · rw [if_neg]
      · simp [h]
      · intro hs
        obtain ⟨h1, h2⟩ := mftSeedId_inj ha.1 he hs
        exact h ⟨h1.symm, h2.symm⟩

theorem owed_deposit {c c' : Contract} {x : Ctx} {who : AccountId} {s : SeedId} {n : Nat}
    {mft : Bool} (hI : Inv c) (h : c.seedDeposit x who s n mft = .ok c') (a : Asset) :
    c'.owed a = c.owed a + if a.seed = s then n else 0 := by
  rw [c'.owed_eq, c.owed_eq, seedDeposit_stakes hI h]
  have : c'.rewardsIn a = c.rewardsIn a := by
    cases a with
    | ft t => exact seedDeposit_rewards hI h t
    | mft => rfl
  omega

theorem owed_withdraw {c c' : Contract} {x : Ctx} {who : AccountId} {s : SeedId} {n : Nat}
    {mft : Bool} (hI : Inv c) (h : c.seedWithdraw x who s n = .ok (c', mft)) (a : Asset) :
    c'.owed a + (if a.seed = s then n else 0) = c.owed a := by
  rw [c'.owed_eq, c.owed_eq]
  have h1 := seedWithdraw_stakes hI h a.seed
  have : c'.rewardsIn a = c.rewardsIn a := by
    cases a with
    | ft t => exact seedWithdraw_rewards hI h t
    | mft => rfl
  omega

theorem owed_same {c c' : Contract} (h1 : ∀ t, c'.rewardsOwed t = c.rewardsOwed t)
    (h2 : ∀ s, c'.stakes s = c.stakes s) (a : Asset) : c'.owed a = c.owed a := by
  cases a with
  | ft t => simp only [Contract.owed, h1, h2]
  | mft e p => simp only [Contract.owed, h2]

theorem Claims.owed {x : Ctx} {who : AccountId} {c c' : Contract} {ids : List FarmId}
    (h : Claims x who c ids c') (a : Asset) : c'.owed a = c.owed a :=
  owed_same (fun t => h.rewardsOwed t) (fun s => h.stakes s) a

/-- Changing what a farmer is owed of a reward. -/
theorem owed_farmer {c c' : Contract} {who : AccountId} {u u' : Farmer} (a : Asset)
    (hu : c.farmers.get? who = some u) (hf : c'.farms = c.farms) (ho : c'.outdated = c.outdated)
    (hc : c'.farmers = c.farmers.insert who u') (hs : u'.seeds = u.seeds) {t : AccountId} {p q : Nat}
    (hr : ∀ r, u'.rewards.getD r 0 + (if t = r then p else 0) =
      u.rewards.getD r 0 + if t = r then q else 0) :
    c'.owed a + (Out.reward t who p).pays a = c.owed a + (Out.reward t who q).pays a := by
  have h1 : ∀ s, c'.stakes s = c.stakes s := by
    intro s
    have := stakes_farmer s hu hc
    rw [stake_congr hs] at this
    omega
  cases a with
  | ft r =>
    have h2 := rewardsOwed_farmer r hu hf ho hc
    have h3 := hr r
    simp only [Contract.owed, h1, Out.pays]
    omega
  | mft e p => simp only [Contract.owed, h1, Out.pays]

theorem Out.pays_zero (t who : AccountId) (a : Asset) : (Out.reward t who 0).pays a = 0 := by
  cases a <;> simp [Out.pays]

theorem owed_register {c c' : Contract} {who : AccountId} {n : Nat} (h : c.register who n = .ok c')
    (a : Asset) : c'.owed a = c.owed a := by
  unfold Contract.register at h
  split at h
  · rename_i u hu
    unpack at h
    obtain ⟨_, rfl⟩ := h
    have := owed_farmer (t := []) (p := 0) (q := 0) (c' := { c with
      farmers := c.farmers.insert who { u with near := u.near + n } }) a hu rfl rfl rfl rfl
      (fun _ => rfl)
    rw [Out.pays_zero] at this
    omega
  · rename_i hu
    unpack at h
    obtain ⟨_, rfl⟩ := h
    apply owed_same
    · intro t
      have h5 := c.farmers.sum_insert (fun _ u => u.rewards.getD t 0) who (Farmer.new n)
      rw [FMap.term_none _ hu] at h5
      have h6 : (Farmer.new n).rewards.getD t 0 = 0 := rfl
      unfold Contract.rewardsOwed
      simp only
      omega
    · intro s
      have h5 := c.farmers.sum_insert (fun _ u => u.stake s) who (Farmer.new n)
      rw [FMap.term_none _ hu] at h5
      have h6 : (Farmer.new n).stake s = 0 := rfl
      unfold Contract.stakes
      simp only
      omega

theorem Contract.register_seeds {c c' : Contract} {who : AccountId} {n : Nat}
    (h : c.register who n = .ok c') : c'.seeds = c.seeds := by
  unfold Contract.register at h
  split at h <;> (unpack at h; obtain ⟨_, rfl⟩ := h; rfl)

theorem paysOut_near (who : AccountId) (n : Nat) (p : Prop) [Decidable p] (a : Asset) :
    paysOut (if p then [.near who n] else []) a = 0 := by
  split <;> simp [paysOut, Out.pays]

theorem near_typed (who : AccountId) (n : Nat) (p : Prop) [Decidable p] :
    ∀ o ∈ (if p then [Out.near who n] else []), o.Typed := by
  intro o ho
  split at ho
  · cases List.mem_singleton.1 ho; trivial
  · cases ho

/-- A call books exactly what it receives and what it promises to pay. -/
theorem exec_ledger {c c' : Contract} {x : Ctx} {k : Call} {outs : List Out} {a : Asset} (hI : Inv c)
    (hT : c.Typed) (hx : '@' ∉ x.pred) (ha : a.Valid) (h : c.exec x k = .ok (c', outs)) :
    c'.owed a + paysOut outs a = c.owed a + k.receives x.pred a ∧ c'.Typed ∧ ∀ o ∈ outs, o.Typed := by
  have quiet : c'.owed a = c.owed a → k.receives x.pred a = 0 → outs = [] → c'.Typed →
      c'.owed a + paysOut outs a = c.owed a + k.receives x.pred a ∧ c'.Typed ∧
        ∀ o ∈ outs, o.Typed := by
    rintro h1 h2 rfl h3
    refine ⟨by rw [h1, h2]; rfl, h3, by simp⟩
  have nothing : ∀ k : Call, (∀ s n m, k ≠ .ftOnTransfer s n m) →
      (∀ t s n m, k ≠ .mftOnTransfer t s n m) → k.receives x.pred a = 0 := by
    intro k h1 h2
    cases k <;> first | rfl | exact absurd rfl (h1 _ _ _) | exact absurd rfl (h2 _ _ _ _)
  cases k with
  | createSimpleFarm t d =>
    obtain ⟨_, h1, _, _, rfl⟩ := Contract.createSimpleFarm_inv h
    obtain ⟨fs, hfs, hk, rfl⟩ := addFarm_ok h1
    have hnofarm : c.farms.get? (genFarmId t.seedId fs.nextIndex) = none := by
      cases hf : c.farms.get? (genFarmId t.seedId fs.nextIndex) with
      | none => rfl
      | some f =>
        obtain ⟨fs', h1, _, i, h2, h3⟩ := (hI.farms _ f hf).seed
        obtain ⟨h4, h5⟩ := genFarmId_inj h3
        rw [← h4] at h1
        rcases hfs with hs | ⟨hs, _⟩
        · rw [hs] at h1; cases h1; omega
        · rw [hs] at h1; cases h1
    refine ⟨?_, ?_, near_typed _ _ _⟩
    · rw [paysOut_near, nothing _ (by simp) (by simp)]
      congr 1
      apply owed_same
      · intro r
        have h5 := c.farms.sum_insert (fun _ f => f.owes r) (genFarmId t.seedId fs.nextIndex)
          (SimpleFarm.new (genFarmId t.seedId fs.nextIndex) t)
        rw [FMap.term_none _ hnofarm] at h5
        have h6 : (SimpleFarm.new (genFarmId t.seedId fs.nextIndex) t).owes r = 0 := by
          unfold SimpleFarm.owes SimpleFarm.new; split <;> rfl
        unfold Contract.rewardsOwed
        simp only
        omega
      · intro s; rfl
    · refine hT.insert rfl ?_ ?_
      · intro hs
        rcases hfs with h2 | ⟨_, h2⟩
        · exact (hT _ _ h2).1 hs
        · obtain ⟨_, _, _, _, _, a, b, h3, h4⟩ := FarmSeed.new_ok h2
          show fs.mft = false
          unfold parseSeedId at h3
          rw [splitOn_no hs] at h3
          cases h3
          rw [h4]; simp
      · intro hs hp
        rcases hfs with h2 | ⟨_, h2⟩
        · exact (hT _ _ h2).2 hs hp
        · obtain ⟨_, _, _, h3, _⟩ := FarmSeed.new_ok h2
          simp only [h3] at hp
          omega
  | forceCleanFarm id =>
    obtain ⟨h0, rfl⟩ := Contract.exec_quiet h
    obtain rfl | ⟨f, fs, g, hf, hs, hb, hg, rfl⟩ :=
      removeFarm_ok hI (Contract.forceCleanFarm_inv h0).2
    · exact quiet rfl (nothing _ (by simp) (by simp)) rfl hT
    · refine quiet ?_ (nothing _ (by simp) (by simp)) rfl ?_
      · apply owed_same
        · intro r
          obtain ⟨f1, added, hd, _, hg'⟩ := SimpleFarm.moveToClear_ok hb hg
          have h1 := hd.owes r
          have h2 : g.owes r = f1.owes r := by
            rw [hg']; unfold SimpleFarm.owes; simp only; split <;> omega
          have h3 := c.farms.sum_erase (fun _ f => f.owes r) id
          rw [FMap.term_some _ hf] at h3
          have h4 := c.outdated.sum_insert (fun _ f => f.owes r) id g
          have h5 : c.outdated.get? id = none := by
            cases ho : c.outdated.get? id with
            | none => rfl
            | some f' => rw [(hI.outdated id f' ho).2.2.2.2] at hf; cases hf
          rw [FMap.term_none _ h5] at h4
          unfold Contract.rewardsOwed
          simp only
          omega
        · intro s; rfl
      · exact hT.insert rfl (hT _ _ hs).1 (hT _ _ hs).2
  | setOwner b =>
    obtain ⟨h0, rfl⟩ := Contract.exec_quiet h
    obtain ⟨_, rfl⟩ := Contract.setOwner_inv h0
    exact quiet (owed_same (fun _ => rfl) (fun _ => rfl) a) (nothing _ (by simp) (by simp)) rfl
      (hT.congr rfl)
  | modifyMinDeposit s n =>
    obtain ⟨h0, rfl⟩ := Contract.exec_quiet h
    obtain ⟨_, fs, hs, rfl⟩ := Contract.modifyMinDeposit_inv h0
    exact quiet (owed_same (fun _ => rfl) (fun _ => rfl) a) (nothing _ (by simp) (by simp)) rfl
      (hT.insert rfl (hT _ _ hs).1 (hT _ _ hs).2)
  | setRunning b =>
    obtain ⟨h0, rfl⟩ := Contract.exec_quiet h
    obtain ⟨_, _, rfl⟩ := Contract.setRunning_inv h0
    exact quiet (owed_same (fun _ => rfl) (fun _ => rfl) a) (nothing _ (by simp) (by simp)) rfl
      (hT.congr rfl)
  | removeUserRps id =>
    obtain ⟨h0, rfl⟩ := Contract.exec_quiet h
    obtain ⟨_, u, s, fs, hu, hp, hs, ⟨_, rfl⟩ | ⟨hnot, m, u1, hm, rfl⟩⟩ :=
      Contract.removeUserRps_inv h0
    · exact quiet rfl (nothing _ (by simp) (by simp)) rfl hT
    · obtain ⟨h1, h2, _⟩ := removeRps_ok hm
      have := owed_farmer (t := []) (p := 0) (q := 0) (c' := { c with
        rps := m, farmers := c.farmers.insert x.pred u1 }) a hu rfl rfl rfl h1
        (fun _ => by rw [h2])
      rw [Out.pays_zero] at this
      exact quiet this (nothing _ (by simp) (by simp)) rfl (hT.congr rfl)
  | claimRewardByFarm id =>
    obtain ⟨h0, rfl⟩ := Contract.exec_quiet h
    obtain ⟨_, h1, _⟩ := Contract.claimRewardByFarm_inv h0
    obtain ⟨_, _, rfl | ⟨_, h2⟩⟩ := claimByFarm_ok hI h1
    · exact quiet rfl (nothing _ (by simp) (by simp)) rfl hT
    · exact quiet (h2.owed a) (nothing _ (by simp) (by simp)) rfl (hT.congr h2.same.seeds)
  | claimRewardBySeed s =>
    obtain ⟨h0, rfl⟩ := Contract.exec_quiet h
    obtain ⟨_, h1, _⟩ := Contract.claimRewardBySeed_inv h0
    obtain ⟨_, _, ⟨_, rfl⟩ | ⟨_, _, h2⟩⟩ := claimBySeed_ok hI h1
    · exact quiet rfl (nothing _ (by simp) (by simp)) rfl hT
    · exact quiet (h2.owed a) (nothing _ (by simp) (by simp)) rfl (hT.congr h2.same.seeds)
  | withdrawReward t n =>
    obtain ⟨_, _, u, u1, k, hu, h1, rfl, rfl⟩ := Contract.withdrawReward_inv h
    obtain ⟨h2, _, _, _, _, h3, h4⟩ := Farmer.subReward_ok h1
    have := owed_farmer (t := t) (p := k) (q := 0) (c' := { c with
      farmers := c.farmers.insert x.pred u1 }) a hu rfl rfl rfl h2 (fun r => by
        by_cases hr : t = r
        · subst hr; rw [if_pos rfl, if_pos rfl]; omega
        · rw [if_neg hr, if_neg hr]; unfold FMap.getD; rw [h3 r (Ne.symm hr)])
    rw [Out.pays_zero] at this
    refine ⟨?_, hT.congr rfl, ?_⟩
    · rw [nothing _ (by simp) (by simp)]
      simpa [paysOut, Out.pays] using this
    · intro o ho
      cases List.mem_singleton.1 ho
      trivial
  | withdrawSeed s n =>
    obtain ⟨_, _, mft, h1, h2⟩ := Contract.withdrawSeed_inv h
    obtain ⟨h3, h4, h5⟩ := hT.withdraw hI h1
    have h6 := owed_withdraw hI h1 a
    rw [nothing _ (by simp) (by simp)]
    rcases h2 with ⟨rfl, rfl⟩ | ⟨rfl, e, b, hp, rfl⟩
    · have h4 := h4 rfl
      rw [Asset.seed_ft h4] at h6
      refine ⟨?_, h3, ?_⟩
      · cases a <;> simpa [paysOut, Out.pays] using h6
      · intro o ho
        cases List.mem_singleton.1 ho
        exact h4
    · obtain ⟨e', p, he, hp', rfl⟩ := h5 rfl
      rw [parseSeedId_mft he] at hp
      cases hp
      rw [Asset.seed_mft ha he] at h6
      refine ⟨?_, h3, ?_⟩
      · cases a with
        | ft t => simpa [paysOut, Out.pays] using h6
        | mft e p => simpa [paysOut, Out.pays, parseTokenId_digits hp'] using h6
      · intro o ho
        cases List.mem_singleton.1 ho
        exact ⟨p, he, hp', rfl, rfl⟩
  | ftOnTransfer s n msg =>
    obtain ⟨h0, rfl⟩ := Contract.exec_quiet h
    obtain ⟨_, ⟨_, _, _, _, h1, _⟩ | ⟨_, f, f1, hf, ht, h1, rfl⟩⟩ := Contract.ftOnTransfer_inv h0
    · have h2 := owed_deposit hI h1 a
      rw [Asset.seed_ft hx] at h2
      refine ⟨?_, hT.deposit hI h1 (fun _ => rfl) (fun h => absurd h hx), by simp⟩
      cases a <;> simpa [paysOut, Call.receives] using h2
    · refine ⟨?_, hT.congr rfl, by simp⟩
      have h2 : ∀ r, f1.owes r = f.owes r + if x.pred = r then n else 0 := by
        intro r
        rw [← ht]
        exact (SimpleFarm.addReward_ok h1).owes r
      cases a with
      | mft => rfl
      | ft t =>
        have h3 := c.farms.sum_insert (fun _ f => f.owes t) msg f1
        rw [FMap.term_some _ hf] at h3
        have h4 := h2 t
        simp only [Contract.owed, Contract.rewardsOwed, Contract.stakes, paysOut, Call.receives,
          List.map_nil, List.sum_nil]
        omega
  | mftOnTransfer tok s n msg =>
    obtain ⟨h0, rfl⟩ := Contract.exec_quiet h
    obtain ⟨_, p, fs, hp, _, _, h1, _⟩ := Contract.mftOnTransfer_inv h0
    have h2 := owed_deposit hI h1 a
    rw [Asset.seed_mft ha hx] at h2
    have hlt : p < 2 ^ 64 := (C41_pool_id_range hp).1
    refine ⟨?_, hT.deposit hI h1 (fun h => absurd (mem_mftSeedId _ _) h)
      (fun _ => ⟨rfl, _, _, hx, hlt, rfl⟩), by simp⟩
    cases a with
    | ft t => simpa [paysOut, Call.receives] using h2
    | mft e q => simpa [paysOut, Call.receives, hp] using h2
  | storageDeposit b only =>
    obtain ⟨_, n, h1, _, rfl, _⟩ := Contract.storageDeposit_inv h
    refine ⟨?_, hT.congr (Contract.register_seeds h1), near_typed _ _ _⟩
    rw [paysOut_near, nothing _ (by simp) (by simp), owed_register h1]
  | storageWithdraw n =>
    obtain ⟨_, u, k, hu, _, _, rfl, rfl⟩ := Contract.storageWithdraw_inv h
    have := owed_farmer (t := []) (p := 0) (q := 0) (c' := { c with
      farmers := c.farmers.insert x.pred { u with near := u.near - k } }) a hu rfl rfl rfl rfl
      (fun _ => rfl)
    rw [Out.pays_zero] at this
    refine ⟨?_, hT.congr rfl, ?_⟩
    · rw [nothing _ (by simp) (by simp)]
      simpa [paysOut, Out.pays] using this
    · intro o ho
      cases List.mem_singleton.1 ho
      trivial
  | storageUnregister =>
    obtain ⟨_, ⟨_, rfl, rfl⟩ | ⟨u, hu, h1, h2, _, rfl, rfl⟩⟩ := Contract.storageUnregister_inv h
    · exact quiet rfl (nothing _ (by simp) (by simp)) rfl hT
    · refine ⟨?_, hT.congr rfl, ?_⟩
      · rw [nothing _ (by simp) (by simp)]
        have h3 : paysOut [.near x.pred u.near] a = 0 := by simp [paysOut, Out.pays]
        rw [h3]
        congr 1
        apply owed_same
        · intro t
          have h4 := c.farmers.sum_erase (fun _ u => u.rewards.getD t 0) x.pred
          rw [FMap.term_some _ hu] at h4
          have h5 : u.rewards.getD t 0 = 0 := by rw [size_zero h1]; rfl
          unfold Contract.rewardsOwed
          simp only
          omega
        · intro s
          have h4 := c.farmers.sum_erase (fun _ u => u.stake s) x.pred
          rw [FMap.term_some _ hu] at h4
          have h5 : u.stake s = 0 := by unfold Farmer.stake; rw [size_zero h2]; rfl
          unfold Contract.stakes
          simp only
          omega
      · intro o ho
        cases List.mem_singleton.1 ho
        trivial

/-- A callback books what a failed promise has not paid. -/
theorem callback_ledger {c c' : Contract} {x : Ctx} {o : Out} {ok : Bool} {a : Asset} (hI : Inv c)
    (hT : c.Typed) (ha : a.Valid) (ho : o.Typed) (h : c.callback x o ok = .ok c') :
    c'.owed a = c.owed a + (if ok then 0 else o.pays a) ∧ c'.Typed := by
  cases ok with
  | true =>
    simp only [Contract.callback, if_true] at h
    cases h
    exact ⟨rfl, hT⟩
  | false =>
    simp only [Contract.callback, Bool.false_eq_true, if_false] at h ⊢
    cases o with
    | near => cases h; exact ⟨by simp [Out.pays], hT⟩
    | reward t who n =>
      simp only [Contract.farmer] at h
      unpack at h
      obtain ⟨u, hu, u1, h1, rfl⟩ := h
      obtain ⟨h2, _, _, h3⟩ := Farmer.addReward_ok h1
      have := owed_farmer (t := t) (p := 0) (q := n) (c' := { c with
        farmers := c.farmers.insert who u1 }) a hu rfl rfl rfl h2 (fun r => by
          rw [h3 r]
          by_cases hr : t = r
          · subst hr; simp
          · simp [hr, Ne.symm hr])
      rw [Out.pays_zero] at this
      refine ⟨?_, hT.congr rfl⟩
      cases a <;> simpa [Out.pays] using this
    | ftSeed s who n =>
      have ho : '@' ∉ s := ho
      have h2 := owed_deposit hI h a
      rw [Asset.seed_ft ho] at h2
      refine ⟨?_, hT.deposit hI h (fun _ => rfl) (fun h => absurd h ho)⟩
      cases a <;> simpa [Out.pays] using h2
    | mftSeed s e tok who n =>
      obtain ⟨p, he, hp, rfl, rfl⟩ := ho
      have h2 := owed_deposit hI h a
      rw [Asset.seed_mft ha he] at h2
      refine ⟨?_, hT.deposit hI h (fun h => absurd (mem_mftSeedId _ _) h)
        (fun _ => ⟨rfl, _, _, he, hp, rfl⟩)⟩
      cases a with
      | ft t => simpa [Out.pays] using h2
      | mft e' p' => simpa [Out.pays, parseTokenId_digits hp] using h2

/-! ### Worlds -/

theorem inFlight_append (p q : List Item) (a : Asset) :
    inFlight (p ++ q) a = inFlight p a + inFlight q a := by
  simp [inFlight]

theorem inFlight_cons (i : Item) (q : List Item) (a : Asset) :
    inFlight (i :: q) a = i.inFlight a + inFlight q a := rfl

theorem inFlight_pending (outs : List Out) (a : Asset) :
    inFlight (outs.map .pending) a = paysOut outs a := by
  simp [inFlight, paysOut, Item.inFlight, Function.comp_def]

/-- The promise behind a receipt. -/
def Item.Typed : Item → Prop
  | .pending o | .settled o _ => o.Typed
  | _ => True

/-- The invariant of worlds. -/
structure World.Inv (a : Asset) (w : World) : Prop where
  inv : Farming.Inv w.c
  typed : w.c.Typed
  outs : ∀ i ∈ w.queue, i.Typed
  solvent : w.c.owed a + inFlight w.queue a ≤ w.held

theorem World.Inv.step {a : Asset} (ha : a.Valid) {w w' : World} (h : w.Inv a) (hs : w.Step a w') :
    w'.Inv a := by
  obtain ⟨hI, hT, hq, hsol⟩ := h
  have gone : ∀ {l1 l2 : List Item} {i : Item}, w.queue = l1 ++ i :: l2 →
      ∀ j ∈ l1 ++ l2, j.Typed := by
    intro l1 l2 i e j hj
    apply hq
    rw [e]
    rcases List.mem_append.1 hj with hj | hj
    · exact List.mem_append_left _ hj
    · exact List.mem_append_right _ (List.mem_cons_of_mem _ hj)
  have swapped : ∀ {l1 l2 : List Item} {i i' : Item}, w.queue = l1 ++ i :: l2 →
      (i.Typed → i'.Typed) → ∀ j ∈ l1 ++ i' :: l2, j.Typed := by
    intro l1 l2 i i' e hi j hj
    rcases List.mem_append.1 hj with hj | hj
    · exact hq j (by rw [e]; exact List.mem_append_left _ hj)
    · rcases List.mem_cons.1 hj with rfl | hj
      · exact hi (hq i (by rw [e]; simp))
      · exact hq j (by rw [e]; simp [hj])
  have more : ∀ {q : List Item} {outs : List Out}, (∀ i ∈ q, i.Typed) → (∀ o ∈ outs, o.Typed) →
      ∀ i ∈ q ++ outs.map .pending, i.Typed := by
    intro q outs h1 h2 i hi
    rcases List.mem_append.1 hi with hi | hi
    · exact h1 i hi
    · obtain ⟨o, ho, rfl⟩ := List.mem_map.1 hi
      exact h2 o ho
  cases hs with
  | call he hx hk =>
    obtain ⟨h1, h2, h3⟩ := exec_ledger hI hT hx ha he
    refine ⟨hI.exec he, h2, more hq h3, ?_⟩
    simp only [inFlight_append, inFlight_pending]
    omega
  | send pred k hx =>
    refine ⟨hI, hT, ?_, ?_⟩
    · intro i hi
      rcases List.mem_append.1 hi with hi | hi
      · exact hq i hi
      · cases List.mem_singleton.1 hi; trivial
    · simp only [inFlight_append, inFlight_cons, Item.inFlight]
      have : inFlight [] a = 0 := rfl
      omega
  | gift n => exact ⟨hI, hT, hq, by simp only; omega⟩
  | delivered e hx he =>
    obtain ⟨h1, h2, h3⟩ := exec_ledger hI hT hx ha he
    refine ⟨hI.exec he, h2, more (gone e) h3, ?_⟩
    rw [e] at hsol
    simp only [inFlight_append, inFlight_cons, inFlight_pending, Item.inFlight] at hsol ⊢
    omega
  | refused e he =>
    refine ⟨hI, hT, swapped e (fun _ => trivial), ?_⟩
    rw [e] at hsol
    simp only [inFlight_append, inFlight_cons, Item.inFlight] at hsol ⊢
    omega
  | refunded e =>
    refine ⟨hI, hT, gone e, ?_⟩
    rw [e] at hsol
    simp only [inFlight_append, inFlight_cons, Item.inFlight] at hsol ⊢
    omega
  | succeeded e hle =>
    refine ⟨hI, hT, swapped e id, ?_⟩
    rw [e] at hsol
    simp only [inFlight_append, inFlight_cons, Item.inFlight, if_true] at hsol ⊢
    omega
  | failed e =>
    refine ⟨hI, hT, swapped e id, ?_⟩
    rw [e] at hsol
    simp only [inFlight_append, inFlight_cons, Item.inFlight, Bool.false_eq_true, if_false] at hsol ⊢
    omega
  | resolved e he =>
    have ho := hq _ (by rw [e]; exact List.mem_append_right _ (List.mem_cons_self ..))
    obtain ⟨h1, h2⟩ := callback_ledger hI hT ha ho he
    refine ⟨hI.callback he, h2, gone e, ?_⟩
    rw [e] at hsol
    simp only [inFlight_append, inFlight_cons, Item.inFlight] at hsol ⊢
    omega
  | dropped e he =>
    refine ⟨hI, hT, gone e, ?_⟩
    rw [e] at hsol
    simp only [inFlight_append, inFlight_cons, Item.inFlight] at hsol ⊢
    omega

theorem World.Reachable.inv {a : Asset} (ha : a.Valid) {w : World} (h : w.Reachable a) : w.Inv a := by
  induction h with
  | init owner =>
    refine ⟨Farming.Inv.init owner, (fun _ _ h => by cases h), (fun _ h => by cases h), ?_⟩
    cases a <;> exact Nat.le_refl 0
  | step _ hs ih => exact ih.step ha hs

/-- **C50.** Whatever happens, in whatever order the receipts run and whichever transfers fail, the
farming contract holds at least what it owes of an asset, as rewards and as stakes, and what is on
its way. -/
theorem C50_solvent {a : Asset} (ha : a.Valid) {w : World} (h : w.Reachable a) :
    w.c.owed a + inFlight w.queue a ≤ w.held := (h.inv ha).solvent

/-- **C50.** A transfer the contract has promised is covered by its balance. -/
theorem C50_transfers_covered {a : Asset} (ha : a.Valid) {w : World} (h : w.Reachable a) {o : Out}
    (ho : .pending o ∈ w.queue) : o.pays a ≤ w.held := by
  have h1 := C50_solvent ha h
  obtain ⟨l1, l2, e⟩ := List.append_of_mem ho
  rw [e, inFlight_append, inFlight_cons] at h1
  simp only [Item.inFlight] at h1
  omega

/-- **C50.** All farmers can be paid all they have claimed and staked of a token, all at once, and
the farms can pay what they have left. -/
theorem C50_everyone {t : AccountId} (ht : '@' ∉ t) {w : World} (h : w.Reachable (.ft t)) :
    w.c.farmers.sum (fun _ u => u.rewards.getD t 0) + w.c.farmers.sum (fun _ u => u.stake t) +
      w.c.farms.sum (fun _ f => if f.terms.rewardToken = t then
        f.dist.undistributed + f.dist.unclaimed else 0) ≤ w.held := by
  have h1 := C50_solvent (a := .ft t) ht h
  have h2 : w.c.farms.sum (fun _ f => if f.terms.rewardToken = t then
      f.dist.undistributed + f.dist.unclaimed else 0) ≤ w.c.farms.sum (fun _ f => f.owes t) := by
    apply FMap.sum_le
    intro _ f _
    unfold SimpleFarm.owes
    split <;> omega
  simp only [Contract.owed, Contract.rewardsOwed, Contract.stakes] at h1
  omega

/-- **C50.** The books are exact: a call changes what is owed of an asset by what it announces to
have arrived and what it promises to pay, nothing is created and nothing disappears. -/
theorem C50_exact {a : Asset} (ha : a.Valid) {w : World} (hw : w.Reachable a) {x : Ctx} {k : Call}
    {c' : Contract} {outs : List Out} (hx : '@' ∉ x.pred) (h : w.c.exec x k = .ok (c', outs)) :
    c'.owed a + paysOut outs a = w.c.owed a + k.receives x.pred a :=
  (exec_ledger (hw.inv ha).inv (hw.inv ha).typed hx ha h).1

end Verif.Farming

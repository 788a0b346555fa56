import Verif.Exchange.CfgLemmas

/-
Every event changes the pools only through the operations of the pools themselves, and by
appending new pools. Invariants of pools follow by induction over these operations.
-/

namespace Verif

/-- One operation of a pool. -/
inductive Pool.Op : Pool → Pool → Prop where
  | swap {p q : Pool} {ti tout : AccountId} {a m out : Nat} {fees : AdminFees} {env : R CurveEnv} :
      p.swap ti a tout m fees env false = .ok (q, out) → Op p q
  | swapByOutput {p q : Pool} {ti tout : AccountId} {out a : Nat} {m : Option Nat}
      {fees : AdminFees} : p.swapByOutput ti out tout m fees false = .ok (q, a) → Op p q
  | addLiquidity {p q : Pool} {s : AccountId} {am used : List Nat} {n : Nat} :
      p.addLiquidity s am false = .ok (q, used, n) → Op p q
  | addStable {p q : Pool} {s : AccountId} {am : List Nat} {m n : Nat} {fees : AdminFees}
      {env : R CurveEnv} : p.addStable s am m fees env false = .ok (q, n) → Op p q
  | removeLiquidity {p q : Pool} {s : AccountId} {n : Nat} {mins paid : List Nat} :
      p.removeLiquidity s n mins false = .ok (q, paid) → Op p q
  | removeByTokens {p q : Pool} {s : AccountId} {am : List Nat} {m n : Nat} {fees : AdminFees}
      {env : R CurveEnv} : p.removeByTokens s am m fees env false = .ok (q, n) → Op p q
  | shareTransfer {p q : Pool} {a b : AccountId} {n : Nat} :
      p.shareTransfer a b n = .ok q → Op p q
  | shareRegister {p q : Pool} {a : AccountId} : p.shareRegister a = .ok q → Op p q
  | shareUnregister {p q : Pool} {a : AccountId} : p.shareUnregister a = .ok q → Op p q
  | ramp {p q : Pool} {f ft now : Nat} {env : R CurveEnv} : p.ramp f ft now env = .ok q → Op p q
  | stopRamp {p q : Pool} {now : Nat} {env : R CurveEnv} : p.stopRamp now env = .ok q → Op p q
  | setFee {p : Pool} {f : Nat} : f < 10000 → Op p (p.setFee f)

/-- A new pool. -/
inductive Pool.Fresh : Pool → Prop where
  | simple {tokens : List AccountId} {fee : Nat} {p : SimplePool} : tokens.Nodup →
      SimplePool.new tokens fee = .ok p → Fresh (.simple p)
  | curve {kind : CurveKind} {tokens : List AccountId} {decs : List Nat} {amp fee : Nat}
      {p : CurvePool} : tokens.length = decs.length → tokens.Nodup →
      CurvePool.new kind tokens decs amp fee = .ok p → Fresh (.curve p)

/-- What an event does to the list of pools. -/
inductive PoolsTo : List Pool → List Pool → Prop where
  | refl (l : List Pool) : PoolsTo l l
  | op {l l' : List Pool} {id : Nat} {p q : Pool} : l[id]? = some p → p.Op q →
      PoolsTo (l.set id q) l' → PoolsTo l l'
  | add {l : List Pool} {p q : Pool} {a : AccountId} : p.Fresh → p.shareRegister a = .ok q →
      PoolsTo l (l ++ [q])

theorem PoolsTo.one {l : List Pool} {id : Nat} {p q : Pool} (h : l[id]? = some p) (ho : p.Op q) :
    PoolsTo l (l.set id q) := .op h ho (.refl _)

theorem PoolsTo.trans {l l1 l2 : List Pool} (h : PoolsTo l l1) (hs : l1.length = l.length)
    (g : PoolsTo l1 l2) : PoolsTo l l2 := by
  induction h with
  | refl => exact g
  | op h1 h2 _ ih => exact .op h1 h2 (ih (by simpa using hs) g)
  | add => simp at hs

namespace Contract

theorem SwapsTo.poolsTo {now : Nat} {ref : Option (AccountId × Nat)} {c c' : Contract}
    {s : SwapStep} (h : c.SwapsTo now ref s c') : PoolsTo c.pools c'.pools := by
  rcases h with ⟨m, h⟩ | ⟨m, h⟩
  · obtain ⟨_, _, p, q, hp, hs, -, rfl⟩ := poolSwap_ok h; exact .one hp (.swap hs)
  · obtain ⟨_, _, p, q, hp, hs, -, rfl⟩ := poolSwapByOutput_ok h; exact .one hp (.swapByOutput hs)

theorem _root_.Verif.Swaps.poolsTo {now : Nat} {ref : Option (AccountId × Nat)} {c c' : Contract}
    {steps : List SwapStep} (h : Swaps now ref c steps c') : PoolsTo c.pools c'.pools := by
  induction h with
  | nil => exact .refl _
  | cons h1 _ ih => exact h1.poolsTo.trans h1.framed.length ih

theorem ZapsTo.poolsTo {now : Nat} {sender : AccountId} {c c' : Contract} {i : AddInfo}
    {s : ZapStep} (h : c.ZapsTo now sender i s c') : PoolsTo c.pools c'.pools := by
  obtain ⟨p, q, hp, -, -, h, -, rfl⟩ := h
  unfold zapAdd at h
  split at h
  · unpack at h
    obtain ⟨q', used', n, h1, _, -, _, -, rfl, -⟩ := h
    exact .one hp (.addLiquidity h1)
  · unpack at h
    obtain ⟨m, -, q', n, h1, rfl, -⟩ := h
    exact .one hp (.addStable h1)

theorem _root_.Verif.Zaps.poolsTo {now : Nat} {sender : AccountId} {c c' : Contract}
    {is : List AddInfo} {steps : List ZapStep} (h : Zaps now sender c is steps c') :
    PoolsTo c.pools c'.pools := by
  induction h with
  | nil => exact .refl _
  | cons h1 _ ih => exact h1.poolsTo.trans h1.framed.1.length ih

theorem internalMftTransfer_poolsTo {c c' : Contract} {tokenId : List Char}
    {sender receiver : AccountId} {amount : Option Nat} {n : Nat}
    (h : c.internalMftTransfer tokenId sender receiver amount = .ok (c', n)) :
    PoolsTo c.pools c'.pools := by
  obtain ⟨-, ⟨id, -, h⟩ | ⟨t, -, h⟩⟩ := internalMftTransfer_inv h
  · obtain ⟨p, q, hp, -, -, -, -, hq, rfl⟩ := transferShares_inv h
    exact .one hp (.shareTransfer hq)
  · obtain ⟨_, _, _, _, -, -, -, -, -, -, -, rfl⟩ := transferToken_inv h
    exact .refl _

theorem exec_poolsTo {c c' : Contract} {x : Ctx} {k : Call} {outs : List Out}
    (h : c.exec x k = .ok (c', outs)) : PoolsTo c.pools c'.pools := by
  cases k <;> simp only [exec] at h
  case addSimplePool =>
    obtain ⟨_, -, hn, hp, h⟩ := addSimplePool_inv h
    obtain ⟨_, _, hr, -, rfl⟩ := addPool_inv h; exact .add (.simple hn hp) hr
  case addCurvePool =>
    obtain ⟨_, -, hl, hn, hp, h⟩ := addCurvePool_inv h
    obtain ⟨_, _, hr, -, rfl⟩ := addPool_inv h; exact .add (.curve hl hn hp) hr
  case executeActions =>
    unpack at h; obtain ⟨_, _, h, rfl, -⟩ := h
    obtain ⟨_, _, c1, -, -, -, -, h2, -, rfl⟩ := executeActions_inv h
    obtain ⟨_, hs, -⟩ := runActions_ok h2
    exact hs.poolsTo
  case executeInVa =>
    unpack at h; obtain ⟨_, _, h, rfl, -⟩ := h
    obtain ⟨_, _, _, _, _, c1, _, -, -, -, -, -, h2, -, -, -, rfl⟩ := executeInVa_inv h
    obtain ⟨_, hs, -⟩ := runActions_ok h2
    exact hs.poolsTo
  case addLiquidity =>
    unpack at h; obtain ⟨_, _, _, h, rfl, -⟩ := h
    obtain ⟨_, _, _, _, _, _, _, -, -, hp, -, hq, -, -, -, -, -, rfl⟩ := addLiquidity_inv h
    exact .one hp (.addLiquidity hq)
  case addStableLiquidity =>
    unpack at h; obtain ⟨_, _, _, h, rfl, -⟩ := h
    obtain ⟨_, _, _, _, _, _, -, -, hp, -, hq, -, -, -, -, -, rfl⟩ := addStableLiquidity_inv h
    exact .one hp (.addStable hq)
  case removeLiquidity =>
    unpack at h; obtain ⟨_, _, h, rfl, -⟩ := h
    obtain ⟨_, _, _, _, _, -, -, hp, -, -, -, hq, -, -, rfl⟩ := removeLiquidity_inv h
    exact .one hp (.removeLiquidity hq)
  case removeByTokens =>
    unpack at h; obtain ⟨_, _, h, rfl, -⟩ := h
    obtain ⟨_, _, _, _, _, -, -, hp, -, -, -, hq, -, -, rfl⟩ := removeByTokens_inv h
    exact .one hp (.removeByTokens hq)
  case registerTokens =>
    unpack at h; obtain ⟨_, h, rfl, -⟩ := h
    obtain ⟨_, -, -, -, -, rfl⟩ := registerTokens_inv h; exact .refl _
  case unregisterTokens =>
    unpack at h; obtain ⟨_, h, rfl, -⟩ := h
    obtain ⟨_, _, -, -, -, -, -, rfl⟩ := unregisterTokens_inv h; exact .refl _
  case withdraw =>
    obtain ⟨_, _, _, _, -, -, -, -, -, -, -, -, -, rfl, -⟩ := withdraw_inv h
    exact .refl _
  case claimLostfound =>
    obtain ⟨-, -, -, -, rfl, -⟩ := claimLostfound_inv h; exact .refl _
  case ftOnTransfer =>
    obtain ⟨-, -, ⟨-, -, h, -⟩ | ⟨_, _, _, _, _, -, h⟩ | ⟨_, _, _, -, -, h⟩⟩ := ftOnTransfer_inv h
    · obtain ⟨_, _, -, -, -, -, rfl⟩ := deposit_inv h; exact .refl _
    · obtain ⟨_, -, -, -, h, -⟩ := instantSwap_inv h
      obtain ⟨_, _, _, hs, -⟩ := directActions_ok h
      exact hs.poolsTo
    · obtain ⟨_, _, _, _, _, _, _, _, -, -, -, -, -, -, h2, hz, -, -, -, -, rfl⟩ := hotZap_inv h
      obtain ⟨_, _, _, hs, -⟩ := directActions_ok h2
      exact hs.poolsTo.trans hs.framed.length hz.poolsTo
  case mftTransfer =>
    unpack at h; obtain ⟨_, h, rfl, -⟩ := h
    obtain ⟨-, -, _, h⟩ := mftTransfer_inv h
    exact internalMftTransfer_poolsTo h
  case mftTransferCall =>
    obtain ⟨-, -, _, h, -⟩ := mftTransferCall_inv h
    exact internalMftTransfer_poolsTo h
  case mftRegister =>
    obtain ⟨_, _, _, _, -, -, hp, hq, -, rfl⟩ := mftRegister_inv h
    exact .one hp (.shareRegister hq)
  case mftUnregister =>
    obtain ⟨_, _, _, -, -, -, hp, hq, -, rfl⟩ := mftUnregister_inv h
    exact .one hp (.shareUnregister hq)
  case storageDeposit =>
    obtain ⟨-, -, rfl | ⟨_, _, h⟩⟩ := storageDeposit_inv h
    · exact .refl _
    · obtain ⟨_, -, -, -, -, rfl⟩ := registerAccount_inv h; exact .refl _
  case storageWithdraw =>
    obtain ⟨_, _, -, -, -, -, -, -, -, rfl⟩ := storageWithdraw_inv h; exact .refl _
  case storageUnregister =>
    obtain ⟨-, -, ⟨-, rfl, -⟩ | ⟨_, -, -, -, rfl, -⟩⟩ := storageUnregister_inv h <;>
      exact .refl _
  case shadowAction =>
    obtain ⟨_, _, _, _, -, -, -, -, -, -, -, ⟨-, rfl, -⟩ | ⟨-, _, _, _, -, -, -, rfl, -⟩⟩ :=
      shadowAction_inv h <;> exact .refl _
  case onBurrowLiquidation =>
    obtain ⟨_, _, _, _, _, _, _, _, _, _, _, -, -, -, hp, -, -, -, -, -, -, -, -, hq, -, -, rfl,
      -⟩ := onBurrowLiquidation_inv h
    exact .one hp (.removeLiquidity hq)
  case donationShare id amount unregister =>
    obtain ⟨_, _, q, q', -, -, hp, -, -, hq, hu, -, hc⟩ := donationShare_inv h
    have : PoolsTo c.pools (c.pools.set id q') := by
      rcases hu with ⟨rfl, -⟩ | ⟨-, hu⟩
      · exact .one hp (.shareTransfer hq)
      · refine .op hp (.shareTransfer hq) ?_
        have := PoolsTo.one (l := c.pools.set id q) (by rw [getElem?_set_some hp, if_pos rfl])
          (.shareUnregister hu)
        rwa [List.set_set] at this
    rcases hc with rfl | ⟨_, _, -, -, -, rfl⟩ <;> exact this
  case donationToken =>
    unpack at h; obtain ⟨_, h, rfl, -⟩ := h
    obtain ⟨_, _, _, _, _, _, -, -, -, -, -, -, -, -, -, -, rfl⟩ := donationToken_inv h
    exact .refl _
  case setting s =>
    unpack at h; obtain ⟨_, h, rfl, -⟩ := h
    obtain ⟨g, h2, rfl⟩ := setting_inv h
    exact .refl _
  case retrieveUnmanaged =>
    unpack at h; obtain ⟨_, h, rfl, -⟩ := h; exact .refl _
  case modifyTotalFee =>
    unpack at h; obtain ⟨_, h, rfl, -⟩ := h
    obtain ⟨_, -, -, hf, hp, rfl⟩ := modifyTotalFee_inv h; exact .one hp (.setFee hf)
  case removeExchangeFee =>
    unpack at h; obtain ⟨_, h, rfl, -⟩ := h
    obtain ⟨_, _, _, _, _, -, -, -, hp, hq, -, -, -, rfl⟩ := removeExchangeFee_inv h
    exact .one hp (.removeLiquidity hq)
  case withdrawOwnerToken =>
    obtain ⟨_, _, -, -, -, -, -, -, rfl, -⟩ := withdrawOwnerToken_inv h; exact .refl _
  case rampAmp =>
    unpack at h; obtain ⟨_, h, rfl, -⟩ := h
    obtain ⟨_, _, -, -, hp, hq, rfl⟩ := rampAmp_inv h; exact .one hp (.ramp hq)
  case stopRampAmp =>
    unpack at h; obtain ⟨_, h, rfl, -⟩ := h
    obtain ⟨_, _, -, -, hp, hq, rfl⟩ := stopRampAmp_inv h; exact .one hp (.stopRamp hq)
  case registerTwap =>
    unpack at h; obtain ⟨_, h, rfl, -⟩ := h
    obtain ⟨-, -, _, rfl⟩ := registerTwap_inv h; exact .refl _
  case unregisterTwap =>
    unpack at h; obtain ⟨_, h, rfl, -⟩ := h
    obtain ⟨-, -, _, rfl⟩ := unregisterTwap_inv h; exact .refl _
  case syncTwap =>
    unpack at h; obtain ⟨_, h, rfl, -⟩ := h
    obtain ⟨-, _, rfl⟩ := syncTwap_inv h; exact .refl _

theorem callback_poolsTo {c c' : Contract} {x : Ctx} {out : Out} {o : Outcome} {outs : List Out}
    (h : c.callback x out o = .ok (c', outs)) : PoolsTo c.pools c'.pools := by
  cases out <;> simp only [callback] at h
  case ft =>
    cases o <;> simp only [] at h
    · cases h; exact .refl _
    · unpack at h; obtain ⟨_, h, rfl, -⟩ := h
      rw [(handleFail_same h).2.2.1]; exact .refl _
  case ftCall =>
    cases o <;> simp only [] at h
    · cases h; exact .refl _
    · unpack at h; obtain ⟨_, h, rfl, -⟩ := h
      rw [(handleFail_same h).2.2.1]; exact .refl _
  case unwrap =>
    cases o <;> simp only [] at h
    · cases h; exact .refl _
    · unpack at h; obtain ⟨_, -, _, h, rfl, -⟩ := h
      rw [(handleFail_same h).2.2.1]; exact .refl _
  case mftCall =>
    unpack at h; obtain ⟨_, _, h, rfl, -⟩ := h
    obtain ⟨-, rfl | ⟨_, _, -, -, -, h⟩⟩ := mftResolve_inv h
    · exact .refl _
    · exact internalMftTransfer_poolsTo h
  case shadow =>
    obtain ⟨-, rfl | ⟨_, -, rfl | ⟨_, _, -, -, -, -, rfl⟩⟩⟩ := callbackOnShadow_inv h <;>
      exact .refl _
  all_goals (cases h; exact .refl _)

theorem apply_poolsTo {c c' : Contract} {e : Event} {outs : List Out}
    (h : c.apply e = .ok (c', outs)) : PoolsTo c.pools c'.pools := by
  cases e <;> simp only [apply] at h
  case call => exact exec_poolsTo h
  case callback => exact callback_poolsTo h
  case rate t r time => cases h; unfold setRate; split <;> exact .refl _
  case price t p time => cases h; unfold setDegenPrice; split <;> exact .refl _

end Contract

/-! ### Consequences -/

theorem Pool.Op.sound {p q : Pool} (h : p.Op q) (hp : p.Sound) : q.Sound := by
  cases h with
  | swap h => exact hp.swap h
  | swapByOutput h => exact hp.swapByOutput h
  | addLiquidity h => exact hp.addLiquidity h
  | addStable h => exact hp.addStable h
  | removeLiquidity h => exact hp.removeLiquidity h
  | removeByTokens h => exact hp.removeByTokens h
  | shareTransfer h => exact hp.shareTransfer h
  | shareRegister h => exact hp.shareRegister h
  | shareUnregister h => exact hp.shareUnregister h
  | ramp h => exact (Pool.ramp_only h).sound hp
  | stopRamp h => exact (Pool.stopRamp_only h).sound hp
  | setFee h => exact hp.setFee h

theorem Pool.Op.shape {p q : Pool} (h : p.Op q) : q.shape = p.shape := by
  cases h with
  | swap h => exact (Pool.swap_shape h).1
  | swapByOutput h => exact (Pool.swapByOutput_shape h).1
  | addLiquidity h => exact (Pool.addLiquidity_shape h).1
  | addStable h => exact (Pool.addStable_shape h).1
  | removeLiquidity h => exact (Pool.removeLiquidity_shape h).1
  | removeByTokens h => exact (Pool.removeByTokens_shape h).1
  | shareTransfer h => exact (Pool.shareTransfer_only h).shape
  | shareRegister h => exact (Pool.shareRegister_only h).1.shape
  | shareUnregister h => exact (Pool.shareUnregister_only h).1.shape
  | ramp h => exact (Pool.ramp_only h).shape
  | stopRamp h => exact (Pool.stopRamp_only h).shape
  | setFee h => exact (Pool.setFee_facts _ _).1

theorem Pool.Fresh.sound {p : Pool} (h : p.Fresh) : p.Sound := by
  cases h with
  | simple hn h => exact (Pool.new_simple_sound hn h).1
  | curve hl hn h => exact (Pool.new_curve_sound hl hn h).1

theorem PoolsTo.sound {l l' : List Pool} (h : PoolsTo l l') (hl : ∀ p ∈ l, p.Sound) :
    ∀ p ∈ l', p.Sound := by
  induction h with
  | refl => exact hl
  | op h1 h2 _ ih =>
    apply ih
    intro r hr
    rcases List.mem_or_eq_of_mem_set hr with hr | rfl
    · exact hl _ hr
    · exact h2.sound (hl _ (List.mem_of_getElem? h1))
  | add hf hr =>
    intro r hm
    rw [List.mem_append, List.mem_singleton] at hm
    rcases hm with hm | rfl
    · exact hl _ hm
    · exact hf.sound.shareRegister hr

theorem PoolsTo.shape {l l' : List Pool} (h : PoolsTo l l') (id : Nat) (p : Pool)
    (hp : l[id]? = some p) : ∃ q, l'[id]? = some q ∧ q.shape = p.shape := by
  induction h generalizing p with
  | refl => exact ⟨p, hp, rfl⟩
  | @op l l' j p1 q1 h1 h2 _ ih =>
    by_cases hj : id = j
    · subst hj
      rw [h1] at hp; cases hp
      obtain ⟨q, hq, hs⟩ := ih q1 (by rw [getElem?_set_some h1, if_pos rfl])
      exact ⟨q, hq, hs.trans h2.shape⟩
    · exact ih p (by rw [getElem?_set_some h1, if_neg hj, hp])
  | add hf hr =>
    refine ⟨p, ?_, rfl⟩
    rw [List.getElem?_append_left, hp]
    rcases Nat.lt_or_ge id _ with h | h
    · exact h
    · rw [List.getElem?_eq_none h] at hp; cases hp

/-- In every reachable state all pools are sound. -/
theorem Contract.Reachable.sound {c : Contract} (h : c.Reachable) : ∀ p ∈ c.pools, p.Sound := by
  refine h.induct (P := fun c => ∀ p ∈ c.pools, p.Sound) ?_ ?_
  · intro self owner farm burrow fee ref c h
    unfold Contract.init at h
    unpack at h
    obtain ⟨-, rfl⟩ := h
    simp
  · intro c e c' outs hc h
    exact (Contract.apply_poolsTo h).sound hc

end Verif

import Verif.Exchange.Frame

/-
What no call but a configuration call changes: the configuration and the contract's own name.
-/

namespace Verif
namespace Contract

theorem internalMftTransfer_same {c c' : Contract} {tokenId : List Char}
    {sender receiver : AccountId} {amount : Option Nat} {n : Nat}
    (h : c.internalMftTransfer tokenId sender receiver amount = .ok (c', n)) :
    c'.cfg = c.cfg ∧ c'.self = c.self ∧ c'.lostfound = c.lostfound ∧
    c'.pools.length = c.pools.length := by
  obtain ⟨-, ⟨id, -, h⟩ | ⟨t, -, h⟩⟩ := internalMftTransfer_inv h
  · obtain ⟨p, q, -, -, -, -, -, -, rfl⟩ := transferShares_inv h
    exact ⟨rfl, rfl, rfl, by simp⟩
  · obtain ⟨_, _, _, _, -, -, -, -, -, -, -, rfl⟩ := transferToken_inv h
    exact ⟨rfl, rfl, rfl, rfl⟩

theorem handleFail_same {c c' : Contract} {x : Ctx} {a token : AccountId} {amount : Nat}
    (h : c.handleFail x a token amount = .ok c') :
    c'.cfg = c.cfg ∧ c'.self = c.self ∧ c'.pools = c.pools ∧ c'.volumes = c.volumes := by
  rcases handleFail_inv h with ⟨_, _, -, -, rfl⟩ | rfl | ⟨_, -, rfl⟩ <;> exact ⟨rfl, rfl, rfl, rfl⟩

/-- Only a configuration call changes the configuration. -/
theorem exec_cfg {c c' : Contract} {x : Ctx} {k : Call} {outs : List Out}
    (h : c.exec x k = .ok (c', outs)) :
    c'.self = c.self ∧
    (c'.cfg = c.cfg ∨ ∃ s, k = .setting s ∧ c.applySetting x s = .ok c'.cfg) := by
  cases k <;> simp only [exec] at h
  case addSimplePool =>
    obtain ⟨_, -, -, -, h⟩ := addSimplePool_inv h
    obtain ⟨_, _, -, -, rfl⟩ := addPool_inv h; exact ⟨rfl, .inl rfl⟩
  case addCurvePool =>
    obtain ⟨_, -, -, -, -, h⟩ := addCurvePool_inv h
    obtain ⟨_, _, -, -, rfl⟩ := addPool_inv h; exact ⟨rfl, .inl rfl⟩
  case executeActions =>
    unpack at h; obtain ⟨_, _, h, rfl, -⟩ := h
    obtain ⟨_, _, c1, -, -, -, -, h2, -, rfl⟩ := executeActions_inv h
    obtain ⟨_, hs, -⟩ := runActions_ok h2
    exact ⟨hs.framed.self, .inl hs.framed.cfg⟩
  case executeInVa =>
    unpack at h; obtain ⟨_, _, h, rfl, -⟩ := h
    obtain ⟨_, _, _, _, _, c1, _, -, -, -, -, -, h2, -, -, -, rfl⟩ := executeInVa_inv h
    obtain ⟨_, hs, -⟩ := runActions_ok h2
    exact ⟨hs.framed.self, .inl hs.framed.cfg⟩
  case addLiquidity =>
    unpack at h; obtain ⟨_, _, _, h, rfl, -⟩ := h
    obtain ⟨_, _, _, _, _, _, _, -, -, -, -, -, -, -, -, -, -, rfl⟩ := addLiquidity_inv h
    exact ⟨rfl, .inl rfl⟩
  case addStableLiquidity =>
    unpack at h; obtain ⟨_, _, _, h, rfl, -⟩ := h
    obtain ⟨_, _, _, _, _, _, -, -, -, -, -, -, -, -, -, -, rfl⟩ := addStableLiquidity_inv h
    exact ⟨rfl, .inl rfl⟩
  case removeLiquidity =>
    unpack at h; obtain ⟨_, _, h, rfl, -⟩ := h
    obtain ⟨_, _, _, _, _, -, -, -, -, -, -, -, -, -, rfl⟩ := removeLiquidity_inv h
    exact ⟨rfl, .inl rfl⟩
  case removeByTokens =>
    unpack at h; obtain ⟨_, _, h, rfl, -⟩ := h
    obtain ⟨_, _, _, _, _, -, -, -, -, -, -, -, -, -, rfl⟩ := removeByTokens_inv h
    exact ⟨rfl, .inl rfl⟩
  case registerTokens =>
    unpack at h; obtain ⟨_, h, rfl, -⟩ := h
    obtain ⟨_, -, -, -, -, rfl⟩ := registerTokens_inv h; exact ⟨rfl, .inl rfl⟩
  case unregisterTokens =>
    unpack at h; obtain ⟨_, h, rfl, -⟩ := h
    obtain ⟨_, _, -, -, -, -, -, rfl⟩ := unregisterTokens_inv h; exact ⟨rfl, .inl rfl⟩
  case withdraw =>
    obtain ⟨_, _, _, _, -, -, -, -, -, -, -, -, -, rfl, -⟩ := withdraw_inv h
    exact ⟨rfl, .inl rfl⟩
  case claimLostfound =>
    obtain ⟨-, -, -, -, rfl, -⟩ := claimLostfound_inv h; exact ⟨rfl, .inl rfl⟩
  case ftOnTransfer =>
    obtain ⟨-, -, ⟨-, -, h, -⟩ | ⟨_, _, _, _, _, -, h⟩ | ⟨_, _, _, -, -, h⟩⟩ := ftOnTransfer_inv h
    · obtain ⟨_, _, -, -, -, -, rfl⟩ := deposit_inv h; exact ⟨rfl, .inl rfl⟩
    · obtain ⟨_, -, -, -, h, -⟩ := instantSwap_inv h
      obtain ⟨_, _, _, hs, -⟩ := directActions_ok h
      exact ⟨hs.framed.self, .inl hs.framed.cfg⟩
    · obtain ⟨_, _, _, _, _, _, _, _, -, -, -, -, -, -, h2, hz, -, -, -, -, rfl⟩ := hotZap_inv h
      obtain ⟨_, _, _, hs, -⟩ := directActions_ok h2
      have := hs.framed.trans hz.framed.1
      exact ⟨this.self, .inl this.cfg⟩
  case mftTransfer =>
    unpack at h; obtain ⟨_, h, rfl, -⟩ := h
    obtain ⟨-, -, _, h⟩ := mftTransfer_inv h
    have := internalMftTransfer_same h; exact ⟨this.2.1, .inl this.1⟩
  case mftTransferCall =>
    obtain ⟨-, -, _, h, -⟩ := mftTransferCall_inv h
    have := internalMftTransfer_same h; exact ⟨this.2.1, .inl this.1⟩
  case mftRegister =>
    obtain ⟨_, _, _, _, -, -, -, -, -, rfl⟩ := mftRegister_inv h; exact ⟨rfl, .inl rfl⟩
  case mftUnregister =>
    obtain ⟨_, _, _, -, -, -, -, -, -, rfl⟩ := mftUnregister_inv h; exact ⟨rfl, .inl rfl⟩
  case storageDeposit =>
    obtain ⟨-, -, rfl | ⟨_, _, h⟩⟩ := storageDeposit_inv h
    · exact ⟨rfl, .inl rfl⟩
    · obtain ⟨_, -, -, -, -, rfl⟩ := registerAccount_inv h; exact ⟨rfl, .inl rfl⟩
  case storageWithdraw =>
    obtain ⟨_, _, -, -, -, -, -, -, -, rfl⟩ := storageWithdraw_inv h; exact ⟨rfl, .inl rfl⟩
  case storageUnregister =>
    obtain ⟨-, -, ⟨-, rfl, -⟩ | ⟨_, -, -, -, rfl, -⟩⟩ := storageUnregister_inv h <;>
      exact ⟨rfl, .inl rfl⟩
  case shadowAction =>
    obtain ⟨_, _, _, _, -, -, -, -, -, -, -, ⟨-, rfl, -⟩ | ⟨-, _, _, _, -, -, -, rfl, -⟩⟩ :=
      shadowAction_inv h <;> exact ⟨rfl, .inl rfl⟩
  case onBurrowLiquidation =>
    obtain ⟨_, _, _, _, _, _, _, _, _, _, _, -, -, -, -, -, -, -, -, -, -, -, -, -, -, -, rfl, -⟩ :=
      onBurrowLiquidation_inv h
    exact ⟨rfl, .inl rfl⟩
  case donationShare =>
    obtain ⟨_, _, _, _, -, -, -, -, -, -, -, -, rfl | ⟨_, _, -, -, -, rfl⟩⟩ := donationShare_inv h <;>
      exact ⟨rfl, .inl rfl⟩
  case donationToken =>
    unpack at h; obtain ⟨_, h, rfl, -⟩ := h
    obtain ⟨_, _, _, _, _, _, -, -, -, -, -, -, -, -, -, -, rfl⟩ := donationToken_inv h
    exact ⟨rfl, .inl rfl⟩
  case setting s =>
    unpack at h; obtain ⟨_, h, rfl, -⟩ := h
    obtain ⟨g, h2, rfl⟩ := setting_inv h
    exact ⟨rfl, .inr ⟨s, rfl, h2⟩⟩
  case retrieveUnmanaged =>
    unpack at h; obtain ⟨_, h, rfl, -⟩ := h; exact ⟨rfl, .inl rfl⟩
  case modifyTotalFee =>
    unpack at h; obtain ⟨_, h, rfl, -⟩ := h
    obtain ⟨_, -, -, -, -, rfl⟩ := modifyTotalFee_inv h; exact ⟨rfl, .inl rfl⟩
  case removeExchangeFee =>
    unpack at h; obtain ⟨_, h, rfl, -⟩ := h
    obtain ⟨_, _, _, _, _, -, -, -, -, -, -, -, -, rfl⟩ := removeExchangeFee_inv h
    exact ⟨rfl, .inl rfl⟩
  case withdrawOwnerToken =>
    obtain ⟨_, _, -, -, -, -, -, -, rfl, -⟩ := withdrawOwnerToken_inv h; exact ⟨rfl, .inl rfl⟩
  case rampAmp =>
    unpack at h; obtain ⟨_, h, rfl, -⟩ := h
    obtain ⟨_, _, -, -, -, -, rfl⟩ := rampAmp_inv h; exact ⟨rfl, .inl rfl⟩
  case stopRampAmp =>
    unpack at h; obtain ⟨_, h, rfl, -⟩ := h
    obtain ⟨_, _, -, -, -, -, rfl⟩ := stopRampAmp_inv h; exact ⟨rfl, .inl rfl⟩
  case registerTwap =>
    unpack at h; obtain ⟨_, h, rfl, -⟩ := h
    obtain ⟨-, -, _, rfl⟩ := registerTwap_inv h; exact ⟨rfl, .inl rfl⟩
  case unregisterTwap =>
    unpack at h; obtain ⟨_, h, rfl, -⟩ := h
    obtain ⟨-, -, _, rfl⟩ := unregisterTwap_inv h; exact ⟨rfl, .inl rfl⟩
  case syncTwap =>
    unpack at h; obtain ⟨_, h, rfl, -⟩ := h
    obtain ⟨-, _, rfl⟩ := syncTwap_inv h; exact ⟨rfl, .inl rfl⟩

/-- A callback changes neither the configuration nor the number of pools. -/
theorem callback_same {c c' : Contract} {x : Ctx} {out : Out} {o : Outcome} {outs : List Out}
    (h : c.callback x out o = .ok (c', outs)) :
    c'.cfg = c.cfg ∧ c'.self = c.self ∧ c'.pools.length = c.pools.length := by
  cases out <;> simp only [callback] at h
  case ft =>
    cases o <;> simp only [] at h
    · cases h; exact ⟨rfl, rfl, rfl⟩
    · unpack at h; obtain ⟨_, h, rfl, -⟩ := h
      have := handleFail_same h; exact ⟨this.1, this.2.1, by rw [this.2.2.1]⟩
  case ftCall =>
    cases o <;> simp only [] at h
    · cases h; exact ⟨rfl, rfl, rfl⟩
    · unpack at h; obtain ⟨_, h, rfl, -⟩ := h
      have := handleFail_same h; exact ⟨this.1, this.2.1, by rw [this.2.2.1]⟩
  case unwrap =>
    cases o <;> simp only [] at h
    · cases h; exact ⟨rfl, rfl, rfl⟩
    · unpack at h; obtain ⟨_, -, _, h, rfl, -⟩ := h
      have := handleFail_same h; exact ⟨this.1, this.2.1, by rw [this.2.2.1]⟩
  case mftCall =>
    unpack at h; obtain ⟨_, _, h, rfl, -⟩ := h
    obtain ⟨-, rfl | ⟨_, _, -, -, -, h⟩⟩ := mftResolve_inv h
    · exact ⟨rfl, rfl, rfl⟩
    · have := internalMftTransfer_same h; exact ⟨this.1, this.2.1, this.2.2.2⟩
  case shadow =>
    obtain ⟨-, rfl | ⟨_, -, rfl | ⟨_, _, -, -, -, -, rfl⟩⟩⟩ := callbackOnShadow_inv h <;>
      exact ⟨rfl, rfl, rfl⟩
  all_goals (cases h; exact ⟨rfl, rfl, rfl⟩)

/-- The contract's own name never changes. -/
theorem apply_self {c c' : Contract} {e : Event} {outs : List Out}
    (h : c.apply e = .ok (c', outs)) : c'.self = c.self := by
  cases e <;> simp only [apply] at h
  case call => exact (exec_cfg h).1
  case callback => exact (callback_same h).2.1
  case rate t r time =>
    cases h; unfold setRate; split <;> rfl
  case price t p time =>
    cases h; unfold setDegenPrice; split <;> rfl

end Contract
end Verif

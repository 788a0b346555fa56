import Verif.Exchange.StorageProps
import Verif.Exchange.Ownership

/-
C25 (pledged shares stay backed) and C26 (a failed cast restores the record).
-/

namespace Verif
namespace Contract
open Demo

/-- A call lowers the shares of `a` only down to what `a` has pledged, except by a liquidation, the
exchange's own shares when a manager withdraws fees, and by a donation. -/
theorem exec_fits {c c' : Contract} {x : Ctx} {k : Call} {outs : List Out}
    (h : c.exec x k = .ok (c', outs)) (a : AccountId) (id : Nat) :
    c.sharesOf id a ≤ c'.sharesOf id a ∨
    max (c.pledgedOf a id).farm (c.pledgedOf a id).burrow ≤ c'.sharesOf id a ∨
    (∃ liq shadowId amount mins, k = .onBurrowLiquidation liq a shadowId amount mins) ∨
    (∃ n mins, k = .removeExchangeFee id n mins ∧ a = c.self) ∨
    (∃ amount u, k = .donationShare id amount u ∧ a = x.pred) := by
  have set : ∀ {j : Nat} {p q : Pool}, c.pools[j]? = some p →
      p.shareBalance a ≤ q.shareBalance a → sharesIn c.pools id a ≤ sharesIn (c.pools.set j q) id a := by
    intro j p q hp hle
    rw [sharesIn_set hp]
    by_cases hid : id = j
    · subst hid; rw [if_pos rfl, sharesIn_some hp]; exact hle
    · rw [if_neg hid]
  have same : ∀ {j : Nat} {p q : Pool}, c.pools[j]? = some p → q.shares = p.shares →
      sharesIn c.pools id a ≤ sharesIn (c.pools.set j q) id a := by
    intro j p q hp he
    exact set hp (by simp [Pool.shareBalance, he])
  have add : ∀ (q : Pool), sharesIn c.pools id a ≤ sharesIn (c.pools ++ [q]) id a := by
    intro q
    rw [sharesIn_append]
    by_cases hid : id = c.pools.length
    · rw [sharesIn_none (by omega)]; exact Nat.zero_le _
    · rw [if_neg hid]
  have own : ∀ {j n : Nat} {p q : Pool} {acc : Account}, c.pools[j]? = some p →
      c.accounts.get? x.pred = some acc → p.shareBalance x.pred ≤ q.shareBalance x.pred + n →
      (∀ b, b ≠ x.pred → p.shareBalance b ≤ q.shareBalance b) →
      n + max (acc.pledged j).farm (acc.pledged j).burrow ≤ p.shareBalance x.pred →
      sharesIn c.pools id a ≤ sharesIn (c.pools.set j q) id a ∨
      max (c.pledgedOf a id).farm (c.pledgedOf a id).burrow ≤ sharesIn (c.pools.set j q) id a := by
    intro j n p q acc hp hacc e1 e2 hfree
    by_cases hax : a = x.pred
    · by_cases hid : id = j
      · subst hax; subst hid
        refine .inr ?_
        rw [sharesIn_set hp, if_pos rfl, pledgedOf_eq, pledgeIn_some hacc]; omega
      · refine .inl ?_
        rw [sharesIn_set hp, if_neg hid]
    · exact .inl (set hp (e2 a hax))
  simp only [sharesOf_eq]
  cases k <;> simp only [exec] at h
  case addSimplePool =>
    obtain ⟨_, -, -, -, h⟩ := addSimplePool_inv h
    obtain ⟨q, _, -, -, rfl⟩ := addPool_inv h; exact .inl (add q)
  case addCurvePool =>
    obtain ⟨_, -, -, -, -, h⟩ := addCurvePool_inv h
    obtain ⟨q, _, -, -, rfl⟩ := addPool_inv h; exact .inl (add q)
  case executeActions =>
    unpack at h; obtain ⟨_, _, h, rfl, -⟩ := h
    obtain ⟨_, _, c1, -, -, -, -, h2, -, rfl⟩ := executeActions_inv h
    obtain ⟨_, hs, -⟩ := runActions_ok h2
    exact .inl (Swaps.shares hs id a)
  case executeInVa =>
    unpack at h; obtain ⟨_, _, h, rfl, -⟩ := h
    obtain ⟨_, _, _, _, _, c1, _, -, -, -, -, -, h2, -, -, -, rfl⟩ := executeInVa_inv h
    obtain ⟨_, hs, -⟩ := runActions_ok h2
    exact .inl (Swaps.shares hs id a)
  case addLiquidity =>
    unpack at h; obtain ⟨_, _, _, h, rfl, -⟩ := h
    obtain ⟨_, _, _, _, _, _, _, -, -, hp, -, hq, -, -, -, -, -, rfl⟩ := addLiquidity_inv h
    exact .inl (set hp (by rw [Pool.addLiquidity_shares hq]; omega))
  case addStableLiquidity =>
    unpack at h; obtain ⟨_, _, _, h, rfl, -⟩ := h
    obtain ⟨_, _, _, _, _, _, -, -, hp, -, hq, -, -, -, -, -, rfl⟩ := addStableLiquidity_inv h
    exact .inl (set hp (by have := (Pool.addStable_shares hq).1 a; omega))
  case removeLiquidity =>
    unpack at h; obtain ⟨_, _, h, rfl, -⟩ := h
    obtain ⟨_, _, _, _, _, -, -, hp, hacc, hfree, -, hq, -, -, rfl⟩ := removeLiquidity_inv h
    obtain ⟨e1, e2, -⟩ := Pool.removeLiquidity_shares hq
    exact (own hp hacc (Nat.le_of_eq e1.symm) (fun b hb => Nat.le_of_eq (e2 b hb).symm) hfree).imp (fun h => h) .inl
  case removeByTokens =>
    unpack at h; obtain ⟨_, _, h, rfl, -⟩ := h
    obtain ⟨_, _, _, _, _, -, -, hp, hacc, hfree, -, hq, -, -, rfl⟩ := removeByTokens_inv h
    obtain ⟨-, -, e1, e2, -⟩ := Pool.removeByTokens_shares hq
    exact (own hp hacc e1 e2 hfree).imp (fun h => h) .inl
  case registerTokens =>
    unpack at h; obtain ⟨_, h, rfl, -⟩ := h
    obtain ⟨_, -, -, -, -, rfl⟩ := registerTokens_inv h; exact .inl (Nat.le_refl _)
  case unregisterTokens =>
    unpack at h; obtain ⟨_, h, rfl, -⟩ := h
    obtain ⟨_, _, -, -, -, -, -, rfl⟩ := unregisterTokens_inv h; exact .inl (Nat.le_refl _)
  case withdraw =>
    obtain ⟨_, _, _, _, -, -, -, -, -, -, -, -, -, rfl, -⟩ := withdraw_inv h
    exact .inl (Nat.le_refl _)
  case claimLostfound =>
    obtain ⟨-, -, -, -, rfl, -⟩ := claimLostfound_inv h; exact .inl (Nat.le_refl _)
  case ftOnTransfer =>
    obtain ⟨-, -, ⟨-, -, h, -⟩ | ⟨_, _, _, _, _, -, h⟩ | ⟨_, _, _, -, -, h⟩⟩ := ftOnTransfer_inv h
    · obtain ⟨_, _, h1, -, h2, -, rfl⟩ := deposit_inv h; exact .inl (Nat.le_refl _)
    · obtain ⟨_, -, -, -, h, -⟩ := instantSwap_inv h
      obtain ⟨_, _, _, hs, -⟩ := directActions_ok h
      exact .inl (Swaps.shares hs id a)
    · obtain ⟨acc, _, _, _, _, _, _, _, -, -, h1, -, -, -, h2, hz, -, -, ⟨_, h3, -, -, h4⟩, -,
        rfl⟩ := hotZap_inv h
      obtain ⟨_, _, _, hs, -⟩ := directActions_ok h2
      exact .inl (Nat.le_trans (Swaps.shares hs id a) (Zaps.shares hz id a))
  case mftTransfer =>
    unpack at h; obtain ⟨_, h, rfl, -⟩ := h
    obtain ⟨-, -, _, h⟩ := mftTransfer_inv h
    rcases internalMftTransfer_shares h id a with h | h
    · exact .inl h
    · exact .inr (.inl h.2.2.2)
  case mftTransferCall =>
    obtain ⟨-, -, _, h, -⟩ := mftTransferCall_inv h
    rcases internalMftTransfer_shares h id a with h | h
    · exact .inl h
    · exact .inr (.inl h.2.2.2)
  case mftRegister =>
    obtain ⟨_, _, _, _, -, -, hp, hq, -, rfl⟩ := mftRegister_inv h
    exact .inl (set hp (by rw [Pool.shareRegister_shares hq]))
  case mftUnregister =>
    obtain ⟨_, _, _, -, -, -, hp, hq, -, rfl⟩ := mftUnregister_inv h
    exact .inl (set hp (by rw [(Pool.shareUnregister_shares hq).2]))
  case storageDeposit =>
    obtain ⟨-, -, rfl | ⟨b, _, h⟩⟩ := storageDeposit_inv h
    · exact .inl (Nat.le_refl _)
    · obtain ⟨acc', h1, -, -, -, rfl⟩ := registerAccount_inv h; exact .inl (Nat.le_refl _)
  case storageWithdraw =>
    obtain ⟨_, _, -, -, -, -, -, -, -, rfl⟩ := storageWithdraw_inv h; exact .inl (Nat.le_refl _)
  case storageUnregister =>
    obtain ⟨-, -, ⟨-, rfl, -⟩ | ⟨_, -, -, -, rfl, -⟩⟩ := storageUnregister_inv h <;>
      exact .inl (Nat.le_refl _)
  case shadowAction =>
    obtain ⟨_, _, _, _, -, -, -, -, -, -, -, ⟨-, rfl, -⟩ | ⟨-, _, _, _, -, -, -, rfl, -⟩⟩ :=
      shadowAction_inv h <;> exact .inl (Nat.le_refl _)
  case onBurrowLiquidation liquidator debtor shadowId amount mins =>
    obtain ⟨j, p, q, _, acc, acc1, _, acc2, acc3, liq, liq', -, hb, hj, hp, -, h1, h2, -, -, -, -, -,
      hq, -, -, rfl, -⟩ := onBurrowLiquidation_inv h
    obtain ⟨e1, e2, -⟩ := Pool.removeLiquidity_shares hq
    simp only [sharesIn_set hp]
    by_cases hid : id = j
    · subst hid
      rw [if_pos rfl, sharesIn_some hp]
      by_cases had : a = debtor
      · subst had; exact .inr (.inr (.inl ⟨_, _, _, _, rfl⟩))
      · rw [e2 a had]; exact .inl (Nat.le_refl _)
    · rw [if_neg hid]; exact .inl (Nat.le_refl _)
  case donationShare j amount unregister =>
    obtain ⟨p, n, q, q', -, -, hp, -, -, hq, hu, -, hc⟩ := donationShare_inv h
    by_cases ha : a = x.pred ∧ id = j
    · obtain ⟨rfl, rfl⟩ := ha
      exact .inr (.inr (.inr (.inr ⟨_, _, rfl, rfl⟩)))
    have hle : sharesIn c.pools id a ≤ sharesIn (c.pools.set j q') id a := by
      by_cases hid : id = j
      · refine set hp ?_
        have hax : a ≠ x.pred := fun e => ha ⟨e, hid⟩
        have e1 := (Pool.shareTransfer_shares hq).2.1 a
        rw [if_neg hax] at e1
        rcases hu with ⟨rfl, -⟩ | ⟨-, hu⟩
        · omega
        · rw [(Pool.shareUnregister_shares hu).2]; omega
      · rw [sharesIn_set hp, if_neg hid]
    rcases hc with rfl | ⟨_, _, -, -, -, rfl⟩ <;> exact .inl hle
  case donationToken =>
    unpack at h; obtain ⟨_, h, rfl, -⟩ := h
    obtain ⟨_, _, _, acc', _, _, -, -, -, -, -, -, -, -, h1, h2, rfl⟩ := donationToken_inv h
    exact .inl (Nat.le_refl _)
  case setting s =>
    unpack at h; obtain ⟨_, h, rfl, -⟩ := h
    obtain ⟨g, h2, rfl⟩ := setting_inv h; exact .inl (Nat.le_refl _)
  case retrieveUnmanaged =>
    unpack at h; obtain ⟨_, h, rfl, -⟩ := h; exact .inl (Nat.le_refl _)
  case modifyTotalFee j fee =>
    unpack at h; obtain ⟨_, h, rfl, -⟩ := h
    obtain ⟨p, -, -, -, hp, rfl⟩ := modifyTotalFee_inv h
    exact .inl (same hp (Pool.setFee_facts p fee).2.2.2.2.1)
  case removeExchangeFee j shares mins =>
    unpack at h; obtain ⟨_, h, rfl, -⟩ := h
    obtain ⟨p, q, _, _, _, -, hm, -, hp, hq, -, -, -, rfl⟩ := removeExchangeFee_inv h
    obtain ⟨e1, e2, -⟩ := Pool.removeLiquidity_shares hq
    simp only [sharesIn_set hp]
    by_cases hid : id = j
    · subst hid
      rw [if_pos rfl, sharesIn_some hp]
      by_cases had : a = c.self
      · subst had
        exact .inr (.inr (.inr (.inl ⟨_, _, rfl, rfl⟩)))
      · rw [e2 a had]; exact .inl (Nat.le_refl _)
    · rw [if_neg hid]; exact .inl (Nat.le_refl _)
  case withdrawOwnerToken token amount skip =>
    obtain ⟨own, own', -, hm, -, -, h1, h2, rfl, -⟩ := withdrawOwnerToken_inv h
    exact .inl (Nat.le_refl _)
  case rampAmp =>
    unpack at h; obtain ⟨_, h, rfl, -⟩ := h
    obtain ⟨_, _, -, -, hp, hq, rfl⟩ := rampAmp_inv h
    exact .inl (same hp (Pool.ramp_only hq).shares)
  case stopRampAmp =>
    unpack at h; obtain ⟨_, h, rfl, -⟩ := h
    obtain ⟨_, _, -, -, hp, hq, rfl⟩ := stopRampAmp_inv h
    exact .inl (same hp (Pool.stopRamp_only hq).shares)
  case registerTwap =>
    unpack at h; obtain ⟨_, h, rfl, -⟩ := h
    obtain ⟨-, -, _, rfl⟩ := registerTwap_inv h; exact .inl (Nat.le_refl _)
  case unregisterTwap =>
    unpack at h; obtain ⟨_, h, rfl, -⟩ := h
    obtain ⟨-, -, _, rfl⟩ := unregisterTwap_inv h; exact .inl (Nat.le_refl _)
  case syncTwap =>
    unpack at h; obtain ⟨_, h, rfl, -⟩ := h
    obtain ⟨-, _, rfl⟩ := syncTwap_inv h; exact .inl (Nat.le_refl _)

/-- An internal transfer changes no pledge. -/
theorem internalMftTransfer_pledges {c c' : Contract} {tokenId : List Char} {s r : AccountId}
    {amount : Option Nat} {n : Nat} (h : c.internalMftTransfer tokenId s r amount = .ok (c', n))
    (a : AccountId) (id : Nat) : c'.pledgedOf a id = c.pledgedOf a id := by
  obtain ⟨-, ⟨_, -, h⟩ | ⟨_, -, h⟩⟩ := internalMftTransfer_inv h
  · obtain ⟨_, _, -, -, -, -, -, -, rfl⟩ := transferShares_inv h; rfl
  · obtain ⟨_, _, _, _, -, h1, h2, h3, h4, -, -, rfl⟩ := transferToken_inv h
    simp only [pledgedOf_eq, pledgeIn_insert]
    by_cases ha : a = r
    · subst ha; rw [if_pos rfl, pledgeIn_some h2, (Account.deposit_ok h4).1.pledged]
    · by_cases hb : a = s
      · subst hb; rw [if_neg ha, if_pos rfl, pledgeIn_some h1, (Account.withdraw_ok h3).1.pledged]
      · simp [ha, hb]

/-- A call changes the pledges of `a` only if `a` casts shares or is liquidated. -/
theorem exec_pledges {c c' : Contract} {x : Ctx} {k : Call} {outs : List Out}
    (h : c.exec x k = .ok (c', outs)) (a : AccountId) (id : Nat) :
    c'.pledgedOf a id = c.pledgedOf a id ∨
    (∃ act amount, k = .shadowAction act id amount ∧ a = x.pred ∧
      (act = .toFarming ∨ act = .toBurrowland)) ∨
    (∃ liq shadowId amount mins, k = .onBurrowLiquidation liq a shadowId amount mins) := by
  have keep : ∀ {m : FMap AccountId Account} {b : AccountId} {acc acc' : Account},
      m.get? b = some acc → acc'.shadow = acc.shadow →
      pledgeIn (m.insert b acc') a id = pledgeIn m a id := by
    intro m b acc acc' hb he
    rw [pledgeIn_insert]
    by_cases hab : a = b
    · subst hab; rw [if_pos rfl, pledgeIn_some hb, Account.pledged, Account.pledged, he]
    · rw [if_neg hab]
  have transfer : ∀ {tokenId : List Char} {s r : AccountId} {am : Option Nat} {n : Nat},
      c.internalMftTransfer tokenId s r am = .ok (c', n) → c'.pledgedOf a id = c.pledgedOf a id := by
    intro tokenId s r am n h
    exact internalMftTransfer_pledges h a id
  simp only [pledgedOf_eq] at transfer ⊢
  cases k <;> simp only [exec] at h
  case addSimplePool =>
    obtain ⟨_, -, -, -, h⟩ := addSimplePool_inv h
    obtain ⟨_, _, -, -, rfl⟩ := addPool_inv h; exact .inl rfl
  case addCurvePool =>
    obtain ⟨_, -, -, -, -, h⟩ := addCurvePool_inv h
    obtain ⟨_, _, -, -, rfl⟩ := addPool_inv h; exact .inl rfl
  case executeActions =>
    unpack at h; obtain ⟨_, _, h, rfl, -⟩ := h
    obtain ⟨_, _, c1, -, -, h1, -, h2, hc, rfl⟩ := executeActions_inv h
    obtain ⟨_, hs, -, hk, -⟩ := runActions_ok h2
    simp only [putAccount, hs.framed.accounts]; exact .inl (keep h1 hk.shadow)
  case executeInVa =>
    unpack at h; obtain ⟨_, _, h, rfl, -⟩ := h
    obtain ⟨_, _, _, _, _, c1, _, -, -, h1, -, hu, h2, -, h3, hc, rfl⟩ := executeInVa_inv h
    obtain ⟨_, hs, -⟩ := runActions_ok h2
    simp only [putAccount, hs.framed.accounts]
    exact .inl (keep h1 ((Account.depositPairs_ok h3).1.shadow.trans (useTokens_ok hu).1.shadow))
  case addLiquidity =>
    unpack at h; obtain ⟨_, _, _, h, rfl, -⟩ := h
    obtain ⟨_, _, _, _, _, _, _, -, -, -, -, -, -, h1, h2, hc, -, rfl⟩ := addLiquidity_inv h
    exact .inl (keep h1 (Account.withdrawAll_ok h2).1.shadow)
  case addStableLiquidity =>
    unpack at h; obtain ⟨_, _, _, h, rfl, -⟩ := h
    obtain ⟨_, _, _, _, _, _, -, -, -, -, -, -, h1, h2, hc, -, rfl⟩ := addStableLiquidity_inv h
    exact .inl (keep h1 (Account.withdrawAll_ok h2).1.shadow)
  case removeLiquidity =>
    unpack at h; obtain ⟨_, _, h, rfl, -⟩ := h
    obtain ⟨_, _, _, _, _, -, -, -, h1, -, -, -, h2, hc, rfl⟩ := removeLiquidity_inv h
    exact .inl (keep h1 (Account.depositAll_ok h2).1.shadow)
  case removeByTokens =>
    unpack at h; obtain ⟨_, _, h, rfl, -⟩ := h
    obtain ⟨_, _, _, _, _, -, -, -, h1, -, -, -, h2, hc, rfl⟩ := removeByTokens_inv h
    exact .inl (keep h1 (Account.depositAll_ok h2).1.shadow)
  case registerTokens =>
    unpack at h; obtain ⟨_, h, rfl, -⟩ := h
    obtain ⟨_, -, -, h1, hc, rfl⟩ := registerTokens_inv h
    exact .inl (keep h1 (Account.register_ok _ _).1.shadow)
  case unregisterTokens =>
    unpack at h; obtain ⟨_, h, rfl, -⟩ := h
    obtain ⟨_, _, -, -, h1, h2, hc, rfl⟩ := unregisterTokens_inv h
    exact .inl (keep h1 (Account.unregisterAll_ok h2).1.shadow)
  case withdraw =>
    obtain ⟨_, _, _, _, -, -, -, h1, -, -, h2, h3, hc, rfl, -⟩ := withdraw_inv h
    exact .inl (keep h1 ((unregisterIf_ok h3).1.shadow.trans (Account.withdraw_ok h2).1.shadow))
  case claimLostfound =>
    obtain ⟨-, -, -, -, rfl, -⟩ := claimLostfound_inv h; exact .inl rfl
  case ftOnTransfer =>
    obtain ⟨-, -, ⟨-, -, h, -⟩ | ⟨_, _, _, _, _, -, h⟩ | ⟨_, _, _, -, -, h⟩⟩ := ftOnTransfer_inv h
    · obtain ⟨_, _, h1, -, h2, hc, rfl⟩ := deposit_inv h
      exact .inl (keep h1 (Account.deposit_ok h2).1.shadow)
    · obtain ⟨_, -, -, -, h, -⟩ := instantSwap_inv h
      obtain ⟨_, _, _, hs, -⟩ := directActions_ok h
      rw [hs.framed.accounts]; exact .inl rfl
    · obtain ⟨_, _, _, _, _, _, _, _, -, -, h1, -, -, -, h2, hz, -, -, ⟨_, -, h3, -, h4⟩, hc, rfl⟩ :=
        hotZap_inv h
      obtain ⟨_, _, _, hs, -⟩ := directActions_ok h2
      have := hs.framed.trans hz.framed.1
      simp only [putAccount, this.accounts]
      exact .inl (keep h1 ((Account.depositPairs_ok h4).1.shadow.trans h3))
  case mftTransfer =>
    unpack at h; obtain ⟨_, h, rfl, -⟩ := h
    obtain ⟨-, -, _, h⟩ := mftTransfer_inv h
    exact .inl (transfer h)
  case mftTransferCall =>
    obtain ⟨-, -, _, h, -⟩ := mftTransferCall_inv h
    exact .inl (transfer h)
  case mftRegister =>
    obtain ⟨_, _, _, _, -, -, -, -, -, rfl⟩ := mftRegister_inv h; exact .inl rfl
  case mftUnregister =>
    obtain ⟨_, _, _, -, -, -, -, -, -, rfl⟩ := mftUnregister_inv h; exact .inl rfl
  case storageDeposit =>
    obtain ⟨-, -, rfl | ⟨b, _, h⟩⟩ := storageDeposit_inv h
    · exact .inl rfl
    · obtain ⟨acc', -, h1, -, hc, rfl⟩ := registerAccount_inv h
      left
      simp only [putAccount, pledgeIn_insert]
      by_cases hab : a = b
      · subst hab
        have := accountOrNew_pledged c a id
        rw [if_pos rfl, ← this, Account.pledged, Account.pledged, h1]
      · rw [if_neg hab]
  case storageWithdraw =>
    obtain ⟨acc, n, -, -, h1, -, -, -, -, rfl⟩ := storageWithdraw_inv h
    exact .inl (keep h1 rfl)
  case storageUnregister =>
    obtain ⟨-, -, ⟨-, rfl, -⟩ | ⟨acc, h1, -, h2, rfl, -⟩⟩ := storageUnregister_inv h
    · exact .inl rfl
    · left
      rw [pledgeIn_erase]
      by_cases hab : a = x.pred
      · rw [if_pos hab, hab, pledgeIn_some h1, Account.pledged, size_eq_zero.1 h2]; rfl
      · rw [if_neg hab]
  case shadowAction act j amount =>
    obtain ⟨acc, _, _, n, -, h1, -, -, -, -, -, ⟨-, rfl, -⟩ | ⟨ht, acc', _, _, h2, hc, -, rfl, -⟩⟩ :=
      shadowAction_inv h
    · exact .inl rfl
    · by_cases hab : a = x.pred ∧ id = j
      · obtain ⟨rfl, rfl⟩ := hab
        exact .inr (.inl ⟨_, _, rfl, rfl, ht⟩)
      · left
        simp only [putAccount, pledgeIn_insert]
        by_cases hax : a = x.pred
        · rw [if_pos hax, hax, pledgeIn_some h1]
          exact ((Account.updateShadow_ok h2).2.2.2 id fun e => hab ⟨hax, e⟩).1
        · rw [if_neg hax]
  case onBurrowLiquidation liquidator debtor shadowId amount mins =>
    obtain ⟨_, _, _, _, _, _, _, _, acc3, liq, liq', -, -, -, -, -, -, -, -, -, -, hc, h1, -, h2, hd,
      rfl, -⟩ := onBurrowLiquidation_inv h
    by_cases had : a = debtor
    · subst had; exact .inr (.inr ⟨_, _, _, _, rfl⟩)
    · left
      show pledgeIn ((c.accounts.insert debtor acc3).insert liquidator liq') a id = _
      rw [keep h1 (Account.depositAll_ok h2).1.shadow, pledgeIn_insert, if_neg had]
  case donationShare =>
    obtain ⟨_, _, _, _, -, -, -, -, -, -, -, -, rfl | ⟨_, _, h1, h2, hc, rfl⟩⟩ := donationShare_inv h
    · exact .inl rfl
    · exact .inl (keep h1 (creditStorage_ok h2).2.1)
  case donationToken =>
    unpack at h; obtain ⟨_, h, rfl, -⟩ := h
    obtain ⟨_, _, _, _, _, _, -, -, h1, -, -, h2, h3, hc, h4, h5, rfl⟩ := donationToken_inv h
    left
    exact (keep h4 (Account.deposit_ok h5).1.shadow).trans
      (keep h1 ((unregisterIf_ok h3).1.shadow.trans (Account.withdraw_ok h2).1.shadow))
  case setting s =>
    unpack at h; obtain ⟨_, h, rfl, -⟩ := h
    obtain ⟨g, -, rfl⟩ := setting_inv h
    exact .inl rfl
  case retrieveUnmanaged =>
    unpack at h; obtain ⟨_, h, rfl, -⟩ := h; exact .inl rfl
  case modifyTotalFee =>
    unpack at h; obtain ⟨_, h, rfl, -⟩ := h
    obtain ⟨_, -, -, -, -, rfl⟩ := modifyTotalFee_inv h; exact .inl rfl
  case removeExchangeFee =>
    unpack at h; obtain ⟨_, h, rfl, -⟩ := h
    obtain ⟨_, _, _, _, _, -, -, -, -, -, h1, h2, hc, rfl⟩ := removeExchangeFee_inv h
    exact .inl (keep h1 (Account.depositAll_ok h2).1.shadow)
  case withdrawOwnerToken =>
    obtain ⟨_, _, -, -, -, -, h1, h2, rfl, -⟩ := withdrawOwnerToken_inv h
    exact .inl (keep h1 (Account.withdraw_ok h2).1.shadow)
  case rampAmp =>
    unpack at h; obtain ⟨_, h, rfl, -⟩ := h
    obtain ⟨_, _, -, -, -, -, rfl⟩ := rampAmp_inv h; exact .inl rfl
  case stopRampAmp =>
    unpack at h; obtain ⟨_, h, rfl, -⟩ := h
    obtain ⟨_, _, -, -, -, -, rfl⟩ := stopRampAmp_inv h; exact .inl rfl
  case registerTwap =>
    unpack at h; obtain ⟨_, h, rfl, -⟩ := h
    obtain ⟨-, -, _, rfl⟩ := registerTwap_inv h; exact .inl rfl
  case unregisterTwap =>
    unpack at h; obtain ⟨_, h, rfl, -⟩ := h
    obtain ⟨-, -, _, rfl⟩ := unregisterTwap_inv h; exact .inl rfl
  case syncTwap =>
    unpack at h; obtain ⟨_, h, rfl, -⟩ := h
    obtain ⟨-, _, rfl⟩ := syncTwap_inv h; exact .inl rfl

/-! ### C25 -/

/-- The pledges of `a` in pool `id`, to the farm and to the lending contract, are each covered by the
shares `a` has there. -/
def Backed (c : Contract) (a : AccountId) (id : Nat) : Prop :=
  (c.pledgedOf a id).farm ≤ c.sharesOf id a ∧ (c.pledgedOf a id).burrow ≤ c.sharesOf id a

/-- A liquidation keeps the pledges of its debtor backed. -/
theorem liquidation_backed {c c' : Contract} {x : Ctx} {liquidator debtor : AccountId}
    {shadowId : List Char} {amount : Nat} {mins : List Nat} {outs : List Out}
    (h : c.onBurrowLiquidation x liquidator debtor shadowId amount mins = .ok (c', outs)) {id : Nat}
    (hb : c.Backed debtor id) : c'.Backed debtor id := by
  obtain ⟨j, p, q, paid, acc, acc1, free, acc2, acc3, liq, liq', -, -, -, hp, -, h1, h2, h3, h4, h5,
    -, h6, hq, h7, -, rfl, -⟩ := onBurrowLiquidation_inv h
  obtain ⟨hb1, hb2⟩ := hb
  rw [pledgedOf_eq, pledgeIn_some h1, sharesOf_eq] at hb1 hb2
  have hpl : pledgeIn ((c.accounts.insert debtor acc3).insert liquidator liq') debtor id =
      acc3.pledged id := by
    have hs := (Account.depositAll_ok h7).1.shadow
    rw [pledgeIn_insert]
    by_cases hdl : debtor = liquidator
    · rw [if_pos hdl, Account.pledged, hs]
      rw [hdl, FMap.get?_insert_self] at h6
      cases h6; rfl
    · rw [if_neg hdl, pledgeIn_insert, if_pos rfl]
  obtain ⟨-, e5, -⟩ := creditStorage_ok h5
  have e3 : acc3.pledged id = acc2.pledged id := by rw [Account.pledged, Account.pledged, e5]
  obtain ⟨-, -, hm, ho⟩ := Account.updateShadow_ok h2
  obtain ⟨-, -, hseed, hr, hro⟩ := releaseSeed_ok h4
  obtain ⟨e1, -, -⟩ := Pool.removeLiquidity_shares hq
  unfold Backed
  simp only [pledgedOf_eq, sharesOf_eq, hpl, e3, sharesIn_set hp]
  by_cases hid : id = j
  · subst hid
    rw [if_pos rfl, hr]
    rw [sharesIn_some hp] at hb1 hb2
    have hf := Account.freeOf_ok h3
    simp only [Account.movedRecord] at hm
    unpack at hm
    obtain ⟨hle, hm⟩ := hm
    rw [← hm] at hf hseed ⊢
    simp only at hf hseed ⊢
    unfold seedToWithdraw at hseed ⊢
    by_cases g1 : free > 0 <;> by_cases g2 : free > amount <;>
      simp only [g1, g2, if_true, if_false] at hseed ⊢ <;> omega
  · rw [if_neg hid, hro id hid, (ho id hid).1]
    exact ⟨hb1, hb2⟩

/-- C25, one call. -/
theorem exec_backed {c c' : Contract} {x : Ctx} {k : Call} {outs : List Out}
    (h : c.exec x k = .ok (c', outs)) {a : AccountId} {id : Nat} (ha : a ≠ c.self)
    (hd : ∀ amount u, k = .donationShare id amount u → x.pred = a →
      amount.getD (c.sharesOf id a) + max (c.pledgedOf a id).farm (c.pledgedOf a id).burrow ≤
        c.sharesOf id a)
    (hb : c.Backed a id) : c'.Backed a id := by
  by_cases hl : ∃ liq shadowId amount mins, k = .onBurrowLiquidation liq a shadowId amount mins
  · obtain ⟨liq, shadowId, amount, mins, rfl⟩ := hl
    simp only [exec] at h
    exact liquidation_backed h hb
  have hs : c.sharesOf id a ≤ c'.sharesOf id a ∨
      max (c.pledgedOf a id).farm (c.pledgedOf a id).burrow ≤ c'.sharesOf id a := by
    rcases exec_fits h a id with h1 | h1 | h1 | ⟨_, _, -, h1⟩ | ⟨amount, u, rfl, h1⟩
    · exact .inl h1
    · exact .inr h1
    · exact absurd h1 hl
    · exact absurd h1 ha
    · right
      have hd := hd amount u rfl h1.symm
      simp only [exec] at h
      obtain ⟨p, n, q, q', -, -, hp, hn, -, hq, hu, -, hc⟩ := donationShare_inv h
      obtain ⟨hle, hsh, -⟩ := Pool.shareTransfer_shares hq
      have e := hsh a
      rw [if_pos h1, if_neg ha] at e
      rw [sharesOf_eq, sharesIn_some hp] at hd
      rw [← h1] at hn
      have e2 : q'.shareBalance a = q.shareBalance a := by
        rcases hu with ⟨rfl, -⟩ | ⟨-, hu⟩
        · rfl
        · rw [(Pool.shareUnregister_shares hu).2]
      have : c'.sharesOf id a = q'.shareBalance a := by
        rcases hc with rfl | ⟨_, _, -, -, -, rfl⟩ <;>
          rw [sharesOf_eq, sharesIn_set hp, if_pos rfl]
      rw [this, e2]; omega
  rcases exec_pledges h a id with h1 | ⟨act, amount, rfl, hx, ht⟩ | h1
  · unfold Backed; rw [h1]; obtain ⟨hb1, hb2⟩ := hb; omega
  · subst hx
    simp only [exec] at h
    obtain ⟨acc, p, m, n, -, h1, hp, hmax, -, -, hle, ⟨hf, -, -⟩ | ⟨-, acc', _, _, h2, -, -, rfl, -⟩⟩ :=
      shadowAction_inv h
    · rcases ht with rfl | rfl <;> rcases hf with hf | hf <;> cases hf
    · have hm := (Account.updateShadow_ok h2).2.2.1
      have hmax := shadowMax_ok hmax
      obtain ⟨hb1, hb2⟩ := hb
      unfold Backed
      simp only [pledgedOf_eq, sharesOf_eq, putAccount, pledgeIn_insert, if_true,
        sharesIn_some hp, pledgeIn_some h1] at hb1 hb2 ⊢
      rcases ht with rfl | rfl
      · simp only [Account.movedRecord] at hm hmax
        unpack at hm
        obtain ⟨-, hm⟩ := hm
        rw [← hm]; simp only; omega
      · simp only [Account.movedRecord] at hm hmax
        unpack at hm
        obtain ⟨-, hm⟩ := hm
        rw [← hm]; simp only; omega
  · exact absurd h1 hl

/-- A callback never raises a pledge. -/
theorem callback_pledges {c c' : Contract} {x : Ctx} {out : Out} {o : Outcome} {outs : List Out}
    (h : c.callback x out o = .ok (c', outs)) (a : AccountId) (id : Nat) :
    c'.pledgedOf a id = c.pledgedOf a id ∨
    ∃ act n fee, out = .shadow act a id n fee ∧
      ((act.undo = .fromFarming ∧ (c'.pledgedOf a id).farm + n = (c.pledgedOf a id).farm ∧
          (c'.pledgedOf a id).burrow = (c.pledgedOf a id).burrow) ∨
       (act.undo = .fromBurrowland ∧ (c'.pledgedOf a id).farm = (c.pledgedOf a id).farm ∧
          (c'.pledgedOf a id).burrow + n = (c.pledgedOf a id).burrow)) := by
  have fail : ∀ {c' : Contract} {t b : AccountId} {n : Nat}, c.handleFail x b t n = .ok c' →
      c'.pledgedOf a id = c.pledgedOf a id := by
    intro c' t b n h
    obtain ⟨acc0, acc1, h1, h2, rfl⟩ | rfl | ⟨acc1, h2, rfl⟩ := handleFail_inv h
    · simp only [pledgedOf_eq, putAccount, pledgeIn_insert]
      by_cases hab : a = b
      · subst hab
        rw [if_pos rfl, pledgeIn_some h1, (Account.depositChecked_some h2).1.pledged]
      · rw [if_neg hab]
    · rfl
    · simp only [pledgedOf_eq, putAccount, pledgeIn_insert]
      by_cases hab : a = c.cfg.owner
      · subst hab
        have := accountOrNew_pledged c c.cfg.owner id
        rw [if_pos rfl, (Account.deposit_ok h2).1.pledged, this]
      · rw [if_neg hab]
  cases out <;> simp only [callback] at h
  case ft =>
    cases o <;> simp only [] at h
    · cases h; exact .inl rfl
    · unpack at h; obtain ⟨_, h, rfl, -⟩ := h; exact .inl (fail h)
  case ftCall =>
    cases o <;> simp only [] at h
    · cases h; exact .inl rfl
    · unpack at h; obtain ⟨_, h, rfl, -⟩ := h; exact .inl (fail h)
  case unwrap =>
    cases o <;> simp only [] at h
    · cases h; exact .inl rfl
    · unpack at h; obtain ⟨_, -, _, h, rfl, -⟩ := h; exact .inl (fail h)
  case mftCall =>
    unpack at h; obtain ⟨_, _, h, rfl, -⟩ := h
    obtain ⟨-, rfl | ⟨_, _, -, -, -, h⟩⟩ := mftResolve_inv h
    · exact .inl rfl
    · exact .inl (internalMftTransfer_pledges h a id)
  case shadow act b j n fee =>
    obtain ⟨-, rfl | ⟨acc0, h1, rfl | ⟨acc1, acc2, h2, h3, -, hu, rfl⟩⟩⟩ := callbackOnShadow_inv h
    · exact .inl rfl
    · left
      simp only [pledgedOf_eq, putAccount, pledgeIn_insert]
      by_cases hab : a = b
      · subst hab; rw [if_pos rfl, pledgeIn_some h1]
      · rw [if_neg hab]
    · have e : ∀ i, acc2.pledged i = acc1.pledged i := by
        intro i
        rcases h3 with rfl | h3
        · rfl
        · rw [Account.pledged, Account.pledged, (creditStorage_ok h3).2.1]
      obtain ⟨-, -, hm, ho⟩ := Account.updateShadow_ok h2
      simp only [pledgedOf_eq, putAccount, pledgeIn_insert]
      by_cases hab : a = b
      · subst hab
        rw [if_pos rfl, pledgeIn_some h1, e]
        by_cases hid : id = j
        · subst hid
          right
          refine ⟨act, n, fee, rfl, ?_⟩
          rcases hu with hu | hu <;> rw [hu] at hm <;> simp only [Account.movedRecord] at hm <;>
            unpack at hm <;> obtain ⟨hle, hm⟩ := hm <;> rw [← hm]
          · exact .inl ⟨hu, by simp only; omega, rfl⟩
          · exact .inr ⟨hu, rfl, by simp only; omega⟩
        · exact .inl (ho id hid).1
      · rw [if_neg hab]; exact .inl rfl
  all_goals (cases h; exact .inl rfl)

/-- C25, one callback. -/
theorem callback_backed {c c' : Contract} {x : Ctx} {out : Out} {o : Outcome} {outs : List Out}
    (h : c.callback x out o = .ok (c', outs)) {a : AccountId} {id : Nat} (hb : c.Backed a id) :
    c'.Backed a id := by
  obtain ⟨hb1, hb2⟩ := hb
  have hs : max (c.pledgedOf a id).farm (c.pledgedOf a id).burrow ≤ c'.sharesOf id a := by
    rcases callback_shares h id a with h1 | ⟨_, _, _, -, -, -, h1⟩ <;> omega
  unfold Backed
  rcases callback_pledges h a id with h1 | ⟨_, _, _, -, ⟨-, h1, h2⟩ | ⟨-, h1, h2⟩⟩
  · rw [h1]; omega
  · omega
  · omega

/-- The event is not a donation by `a` of shares of pool `id` that are pledged. -/
def KeepsPledged (c : Contract) (a : AccountId) (id : Nat) : Event → Prop
  | .call x (.donationShare j amount _) => x.pred = a → j = id →
    amount.getD (c.sharesOf id a) + max (c.pledgedOf a id).farm (c.pledgedOf a id).burrow ≤
      c.sharesOf id a
  | _ => True

/-- C25: one event. -/
theorem C25_step {c : Contract} {e : Event} {a : AccountId} {id : Nat} (ha : a ≠ c.self)
    (hd : c.KeepsPledged a id e) (hb : c.Backed a id) : (c.step e).Backed a id := by
  unfold step
  cases he : c.apply e with
  | error _ => exact hb
  | ok r =>
    obtain ⟨c', outs⟩ := r
    show c'.Backed a id
    cases e <;> simp only [apply] at he
    case call x k =>
      refine exec_backed he ha ?_ hb
      rintro amount u rfl hx
      exact hd hx rfl
    case callback => exact callback_backed he hb
    case rate t q time => cases he; unfold setRate; split <;> exact hb
    case price t p time => cases he; unfold setDegenPrice; split <;> exact hb

/-- `a` never donates pledged shares of pool `id` in the history. -/
def NoPledgedDonation (a : AccountId) (id : Nat) : (c : Contract) → List Event → Prop
  | _, [] => True
  | c, e :: es => c.KeepsPledged a id e ∧ NoPledgedDonation a id (c.step e) es

/-- C25 (partial: the full claim is false, see `C25_donation`): in every history, of
every account other than the exchange, the shares pledged to the farm and those pledged to the
lending contract never exceed the shares the account has, unless it donates pledged shares. -/
theorem C25_backed_partial {c0 : Contract} {self owner farm burrow : AccountId} {fee ref : Nat}
    (hi : init self owner farm burrow fee ref = .ok c0) (es : List Event) {a : AccountId} {id : Nat}
    (ha : a ≠ self) (hn : NoPledgedDonation a id c0 es) :
    ((c0.run es).pledgedOf a id).farm ≤ (c0.run es).sharesOf id a ∧
    ((c0.run es).pledgedOf a id).burrow ≤ (c0.run es).sharesOf id a := by
  have h0 : c0.Backed a id ∧ c0.self = self := by
    unfold init at hi
    unpack at hi
    obtain ⟨-, rfl⟩ := hi
    exact ⟨⟨Nat.zero_le _, Nat.zero_le _⟩, rfl⟩
  obtain ⟨h0, hs⟩ := h0
  rw [← hs] at ha
  clear hi hs
  unfold run
  induction es generalizing c0 with
  | nil => exact h0
  | cons e es ih =>
    refine ih (c0 := c0.step e) ?_ hn.2 (C25_step ha hn.1 h0)
    unfold step
    cases he : c0.apply e with
    | error _ => exact ha
    | ok r =>
      show a ≠ r.1.self
      rw [apply_self (c' := r.1) (outs := r.2) he]; exact ha

/-- C25: pledged shares can be neither removed nor transferred: what one of these calls takes
leaves the pledged part. -/
theorem C25_locked {c c' : Contract} {x : Ctx} {k : Call} {outs : List Out} {id : Nat}
    (h : c.exec x k = .ok (c', outs))
    (hk : (∃ n mins, k = .removeLiquidity id n mins) ∨ (∃ ns m, k = .removeByTokens id ns m) ∨
      (∃ tokenId r n, k = .mftTransfer tokenId r n) ∨ ∃ tokenId r n, k = .mftTransferCall tokenId r n)
    (hlt : c'.sharesOf id x.pred < c.sharesOf id x.pred) :
    c'.pledgedOf x.pred id = c.pledgedOf x.pred id ∧
    max (c.pledgedOf x.pred id).farm (c.pledgedOf x.pred id).burrow ≤ c'.sharesOf id x.pred := by
  constructor
  · rcases exec_pledges h x.pred id with h1 | ⟨_, _, h1, -⟩ | ⟨_, _, _, _, h1⟩
    · exact h1
    · rcases hk with ⟨_, _, hk⟩ | ⟨_, _, hk⟩ | ⟨_, _, _, hk⟩ | ⟨_, _, _, hk⟩ <;> rw [hk] at h1 <;>
        cases h1
    · rcases hk with ⟨_, _, hk⟩ | ⟨_, _, hk⟩ | ⟨_, _, _, hk⟩ | ⟨_, _, _, hk⟩ <;> rw [hk] at h1 <;>
        cases h1
  · rcases exec_fits h x.pred id with h1 | h1 | ⟨_, _, _, _, h1⟩ | ⟨_, _, h1, -⟩ | ⟨_, _, h1, -⟩
    · omega
    · exact h1
    all_goals
      rcases hk with ⟨_, _, hk⟩ | ⟨_, _, hk⟩ | ⟨_, _, _, hk⟩ | ⟨_, _, _, hk⟩ <;> rw [hk] at h1 <;>
        cases h1

/-- Nobody but the account itself and the lending contract changes a pledge, and only by casting,
by a liquidation or by the answer to a cast. -/
theorem C25_pledges_safe {c c' : Contract} {e : Event} {outs : List Out}
    (h : c.apply e = .ok (c', outs)) {a : AccountId} {id : Nat}
    (hne : c'.pledgedOf a id ≠ c.pledgedOf a id) :
    (∃ x act amount, e = .call x (.shadowAction act id amount) ∧ x.pred = a) ∨
    (∃ x liq shadowId amount mins, e = .call x (.onBurrowLiquidation liq a shadowId amount mins) ∧
      x.pred = c.cfg.burrowland) ∨
    (∃ x act n fee o, e = .callback x (.shadow act a id n fee) o) := by
  cases e <;> simp only [apply] at h
  case call x k =>
    rcases exec_pledges h a id with h1 | ⟨act, amount, rfl, hx, -⟩ | ⟨liq, shadowId, amount, mins, rfl⟩
    · exact absurd h1 hne
    · exact .inl ⟨x, act, amount, rfl, hx.symm⟩
    · simp only [exec] at h
      obtain ⟨_, _, _, _, _, _, _, _, _, _, _, -, hb, -⟩ := onBurrowLiquidation_inv h
      exact .inr (.inl ⟨x, liq, shadowId, amount, mins, rfl, hb.symm⟩)
  case callback x out o =>
    rcases callback_pledges h a id with h1 | ⟨act, n, fee, rfl, -⟩
    · exact absurd h1 hne
    · exact .inr (.inr ⟨x, act, n, fee, o, rfl⟩)
  case rate t q time =>
    cases h; refine absurd ?_ hne; unfold setRate; split <;> rfl
  case price t p time =>
    cases h; refine absurd ?_ hne; unfold setDegenPrice; split <;> rfl

/-- The exception is real: `donation_share` does not look at the pledges. Alice casts shares to the
farm and then donates all of them; the record stays. -/
theorem C25_donation :
    ∃ (c : Contract) (a : AccountId) (id : Nat), c.Reachable ∧ a ≠ c.self ∧
      c.sharesOf id a < (c.pledgedOf a id).farm := by
  have key : c0.run (setup ++ [.call (y al) (.shadowAction .toFarming 0 (some 5)),
        .call (y al) (.donationShare 0 none false)]) |>.sharesOf 0 al |> (· <
      ((c0.run (setup ++ [.call (y al) (.shadowAction .toFarming 0 (some 5)),
        .call (y al) (.donationShare 0 none false)])).pledgedOf al 0).farm) := by decide +kernel
  exact ⟨_, al, 0, ⟨ex, own, farm, bur, 1600, 400, c0, _, rfl, rfl⟩, by decide +kernel, key⟩

/-- Alice casts half of the shares to the farm and all to the lending contract; a liquidation of 7
parts in 10 takes the farm's part along as far as needed. -/
example : NoPledgedDonation al 0 c0 (setup ++ [
      .call (y al) (.shadowAction .toFarming 0 (some (5 * 10 ^ 23))),
      .call (y al) (.shadowAction .toBurrowland 0 none)]) ∧
    ((c0.run (setup ++ [
        .call (y al) (.shadowAction .toFarming 0 (some (5 * 10 ^ 23))),
        .call (y al) (.shadowAction .toBurrowland 0 none)])).exec (by' bur)
      (.onBurrowLiquidation bo al "shadow_ref_v1-0".toList (7 * 10 ^ 23) [0, 0])).holds (fun r =>
        r.1.pledgedOf al 0 = ⟨3 * 10 ^ 23, 3 * 10 ^ 23⟩ ∧ r.1.sharesOf 0 al = 3 * 10 ^ 23 ∧
        r.2 = [.liquidated al 0 (2 * 10 ^ 23)]) = true := by
  refine ⟨?_, by decide +kernel⟩
  simp only [setup, List.cons_append, List.nil_append, NoPledgedDonation, KeepsPledged, and_true]

/-! ### C26 -/

/-- The part of a record that an action of this kind concerns. -/
def _root_.Verif.ShadowRecord.part (r : ShadowRecord) : ShadowAction → Nat
  | .toFarming | .fromFarming => r.farm
  | .toBurrowland | .fromBurrowland => r.burrow

/-- The other part. -/
def _root_.Verif.ShadowRecord.other (r : ShadowRecord) : ShadowAction → Nat
  | .toFarming | .fromFarming => r.burrow
  | .toBurrowland | .fromBurrowland => r.farm

/-- Nothing but the pledges of `a` in pool `id` differs, and the storage deposit of `a`. -/
structure OnlyPledge (c c' : Contract) (a : AccountId) (id : Nat) : Prop where
  pledges : ∀ b j, (b, j) ≠ (a, id) → c'.pledgedOf b j = c.pledgedOf b j
  deposits : ∀ b t, c'.depositOf b t = c.depositOf b t
  others : ∀ b, b ≠ a → c'.accounts.get? b = c.accounts.get? b
  pools : c'.pools = c.pools
  lost : c'.lostfound = c.lostfound
  cfg : c'.cfg = c.cfg

theorem OnlyPledge.put {c : Contract} {a : AccountId} {id : Nat} {acc acc' : Account}
    (ha : c.accounts.get? a = some acc) (ht : acc'.tokens = acc.tokens)
    (hp : ∀ j, j ≠ id → acc'.pledged j = acc.pledged j) :
    OnlyPledge c (c.putAccount a acc') a id := by
  refine ⟨?_, ?_, fun b hb => FMap.get?_insert_ne _ _ hb, rfl, rfl, rfl⟩
  · intro b j hne
    simp only [pledgedOf_eq, putAccount, pledgeIn_insert]
    by_cases hb : b = a
    · subst hb
      rw [if_pos rfl, pledgeIn_some ha]
      exact hp j fun e => hne (by rw [e])
    · rw [if_neg hb]
  · intro b t
    simp only [depositOf_eq, putAccount, balIn_insert]
    by_cases hb : b = a
    · subst hb; rw [if_pos rfl, balIn_some ha, Account.bal_congr ht]
    · rw [if_neg hb]

/-- C26: casting adds exactly the cast amount to the record, no more than the account has free of
that kind, and announces it; the announced storage fee is what the record costs. -/
theorem C26_cast {c c' : Contract} {x : Ctx} {act : ShadowAction} {id : Nat} {amount : Option Nat}
    {outs : List Out} (h : c.exec x (.shadowAction act id amount) = .ok (c', outs))
    (ht : act = .toFarming ∨ act = .toBurrowland) :
    ∃ n fee, .shadow act x.pred id n fee ∈ outs ∧ 0 < n ∧ (∀ m, amount = some m → n = m) ∧
      (c'.pledgedOf x.pred id).part act = (c.pledgedOf x.pred id).part act + n ∧
      (c'.pledgedOf x.pred id).other act = (c.pledgedOf x.pred id).other act ∧
      (c'.pledgedOf x.pred id).part act ≤ c.sharesOf id x.pred ∧
      OnlyPledge c c' x.pred id := by
  simp only [exec] at h
  obtain ⟨acc, p, m, n, -, h1, hp, hmax, hn, hpos, hle, ⟨hf, -, -⟩ |
    ⟨-, acc', fee, outs', h2, -, -, rfl, rfl⟩⟩ := shadowAction_inv h
  · rcases ht with rfl | rfl <;> rcases hf with hf | hf <;> cases hf
  · obtain ⟨-, htok, hm, ho⟩ := Account.updateShadow_ok h2
    have hmax := shadowMax_ok hmax
    have e : (c.putAccount x.pred acc').pledgedOf x.pred id = acc'.pledged id := by
      rw [pledgedOf_eq, putAccount, pledgeIn_insert, if_pos rfl]
    refine ⟨n, fee, by simp, hpos, ?_, ?_⟩
    · rintro k rfl; rw [hn]; rfl
    · rw [e, pledgedOf_eq, pledgeIn_some h1, sharesOf_eq, sharesIn_some hp]
      have hput := OnlyPledge.put h1 htok fun j hj => (ho j hj).1
      rcases ht with rfl | rfl <;> simp only [Account.movedRecord] at hm hmax <;> unpack at hm <;>
        obtain ⟨-, hm⟩ := hm <;> rw [← hm] <;>
        exact ⟨rfl, rfl, by simp only [ShadowRecord.part]; omega, hput⟩

/-- C26: if the cast is rejected, the callback takes exactly the cast amount off the record,
whatever the state it runs in, changes nothing else, and returns the storage fee. -/
theorem C26_failed_cast {c c' : Contract} {x : Ctx} {act : ShadowAction} {a : AccountId}
    {id n fee : Nat} {outs : List Out}
    (h : c.callback x (.shadow act a id n fee) .failure = .ok (c', outs))
    (ht : act = .toFarming ∨ act = .toBurrowland) :
    (c'.pledgedOf a id).part act + n = (c.pledgedOf a id).part act ∧
    (c'.pledgedOf a id).other act = (c.pledgedOf a id).other act ∧
    OnlyPledge c c' a id ∧ c'.nearOf a = c.nearOf a ∧
    outs = if fee > 0 then [.near a fee] else [] := by
  simp only [callback, callbackOnShadow] at h
  rcases ht with rfl | rfl <;> simp only [ShadowAction.undo] at h <;> unpack at h <;>
    obtain ⟨acc, h1, acc', h2, _, h3, rfl, rfl⟩ := h <;> rw [account_ok] at h1 <;>
    obtain ⟨-, rfl⟩ := saveAccount_ok.1 h3 <;>
    obtain ⟨hnear, htok, hm, ho⟩ := Account.updateShadow_ok h2 <;>
    simp only [Account.movedRecord] at hm <;> unpack at hm <;> obtain ⟨hle, hm⟩ := hm
  all_goals
    have e : (c.putAccount a acc').pledgedOf a id = acc'.pledged id := by
      rw [pledgedOf_eq, putAccount, pledgeIn_insert, if_pos rfl]
    rw [e, pledgedOf_eq, pledgeIn_some h1, ← hm]
    refine ⟨by simp only [ShadowRecord.part]; omega, rfl,
      OnlyPledge.put h1 htok fun j hj => (ho j hj).1, ?_, rfl⟩
    simp only [nearOf, putAccount, FMap.get?_insert_self, h1, hnear]

/-- C26: the callback of a rejected cast can only fail if the account was closed or less than the
cast amount is left in the record (or the account's storage is not paid, which C23 excludes). -/
theorem C26_failed_cast_succeeds {c : Contract} {x : Ctx} {act : ShadowAction} {a : AccountId}
    {id n fee : Nat} {acc : Account} (ht : act = .toFarming ∨ act = .toBurrowland)
    (ha : c.accounts.get? a = some acc) (hc : acc.Covered) (hn : n ≤ (c.pledgedOf a id).part act) :
    ∃ r, c.callback x (.shadow act a id n fee) .failure = .ok r := by
  rw [pledgedOf_eq, pledgeIn_some ha, Account.pledged_def] at hn
  have hu : ∃ acc', acc.updateShadow id act.undo n = .ok acc' := by
    unfold Account.updateShadow
    rcases ht with rfl | rfl <;> simp only [ShadowAction.undo, Account.movedRecord] <;>
      simp only [ShadowRecord.part] at hn <;>
      rw [subW_ok.2 ⟨hn, rfl⟩, ok_bind, ok_bind] <;> split <;> exact ⟨_, rfl⟩
  obtain ⟨acc', hu⟩ := hu
  obtain ⟨hnear, htok, -⟩ := Account.updateShadow_ok hu
  have hs : c.saveAccount a acc' = .ok (c.putAccount a acc') := by
    refine saveAccount_ok.2 ⟨?_, rfl⟩
    unfold Account.Covered Account.storageUsage at hc
    unfold Account.storageUsage
    rw [htok, hnear]; exact hc
  have hac : c.account a = .ok acc := account_ok.2 ha
  rcases ht with rfl | rfl <;> simp only [callback, callbackOnShadow] <;>
    rw [hac, ok_bind, ShadowAction.undo] at * <;> rw [hu, ok_bind, hs, ok_bind] <;> exact ⟨_, rfl⟩

/-- C26: a cast that is rejected before anything else happens leaves no trace: every record,
deposit, share and storage deposit is as before. -/
theorem C26_roundtrip {c c1 c2 : Contract} {x x' : Ctx} {act : ShadowAction} {id n fee : Nat}
    {amount : Option Nat} {outs outs' : List Out}
    (h : c.exec x (.shadowAction act id amount) = .ok (c1, outs))
    (ht : act = .toFarming ∨ act = .toBurrowland) (ho : .shadow act x.pred id n fee ∈ outs)
    (h' : c1.callback x' (.shadow act x.pred id n fee) .failure = .ok (c2, outs')) :
    (∀ b j, c2.pledgedOf b j = c.pledgedOf b j) ∧ (∀ b t, c2.depositOf b t = c.depositOf b t) ∧
    (∀ b, c2.nearOf b = c.nearOf b) ∧ c2.pools = c.pools ∧ c2.lostfound = c.lostfound := by
  have hc := C26_failed_cast h' ht
  have hx := h
  simp only [exec] at hx
  obtain ⟨acc, p, m, k, -, h1, -, -, -, -, -, ⟨hf, -, -⟩ |
    ⟨-, acc', fee', outs0, h2, -, h3, rfl, rfl⟩⟩ := shadowAction_inv hx
  · rcases ht with rfl | rfl <;> rcases hf with hf | hf <;> cases hf
  obtain ⟨k', fee1, hmem, -, -, hp, hoth, -, hp1⟩ := C26_cast h ht
  obtain ⟨hc1, hc2, hc3, hc4, -⟩ := hc
  have hnear := checkStorage_near h3
  have uniq : ∀ {k1 f1 : Nat}, Out.shadow act x.pred id k1 f1 ∈ outs0 ++ [.shadow act x.pred id k fee'] →
      k1 = k := by
    intro k1 f1 hm
    rw [List.mem_append] at hm
    rcases hm with hm | hm
    · obtain ⟨_, _, e⟩ := hnear _ hm; cases e
    · simp only [List.mem_singleton, Out.shadow.injEq] at hm; exact hm.2.2.2.1
  have e1 := uniq ho
  have e2 := uniq hmem
  subst e1; subst e2
  refine ⟨?_, ?_, ?_, by rw [hc3.pools, hp1.pools], by rw [hc3.lost, hp1.lost]⟩
  · intro b j
    by_cases hb : (b, j) = (x.pred, id)
    · cases hb
      have q1 : (c2.pledgedOf x.pred id).part act = (c.pledgedOf x.pred id).part act := by omega
      have q2 := hc2.trans hoth
      generalize c2.pledgedOf x.pred id = r at q1 q2
      generalize c.pledgedOf x.pred id = r' at q1 q2
      cases r; cases r'
      rcases ht with rfl | rfl <;> simp only [ShadowRecord.part, ShadowRecord.other] at q1 q2 <;>
        rw [q1, q2]
    · rw [hc3.pledges b j hb, hp1.pledges b j hb]
  · intro b t; rw [hc3.deposits, hp1.deposits]
  · intro b
    by_cases hb : b = x.pred
    · subst hb
      rw [hc4]
      simp only [nearOf, putAccount, FMap.get?_insert_self, h1, (Account.updateShadow_ok h2).1]
    · simp only [nearOf]
      rw [hc3.others b hb, hp1.others b hb]

/-- C26: an accepted cast changes nothing any more. -/
theorem C26_accepted_cast {c c' : Contract} {x : Ctx} {act : ShadowAction} {a : AccountId}
    {id n fee : Nat} {v : Option Nat} {outs : List Out}
    (h : c.callback x (.shadow act a id n fee) (.success v) = .ok (c', outs))
    (ht : act = .toFarming ∨ act = .toBurrowland) : c' = c ∧ outs = [] := by
  simp only [callback, callbackOnShadow] at h
  rcases ht with rfl | rfl <;> cases h <;> exact ⟨rfl, rfl⟩

/-- C26: taking shares back changes nothing until the other contract agrees. -/
theorem C26_release {c c' : Contract} {x : Ctx} {act : ShadowAction} {id : Nat}
    {amount : Option Nat} {outs : List Out}
    (h : c.exec x (.shadowAction act id amount) = .ok (c', outs))
    (ht : act = .fromFarming ∨ act = .fromBurrowland) :
    c' = c ∧ ∃ n, outs = [.shadow act x.pred id n 0] ∧ 0 < n ∧
      n ≤ (c.pledgedOf x.pred id).part act ∧ n = amount.getD ((c.pledgedOf x.pred id).part act) := by
  simp only [exec] at h
  obtain ⟨acc, p, m, n, -, h1, hp, hmax, hn, hpos, hle, ⟨-, hc, ho⟩ | ⟨hf, -⟩⟩ := shadowAction_inv h
  · have hmax := shadowMax_ok hmax
    refine ⟨hc, n, ho, hpos, ?_⟩
    rw [pledgedOf_eq, pledgeIn_some h1]
    rcases ht with rfl | rfl <;> simp only at hmax <;> subst hmax <;> exact ⟨hle, hn⟩
  · rcases ht with rfl | rfl <;> rcases hf with hf | hf <;> cases hf

/-- C26: then exactly the announced amount is taken off the record; if the other contract refuses,
no pledge, deposit or share changes. -/
theorem C26_released {c c' : Contract} {x : Ctx} {act : ShadowAction} {a : AccountId}
    {id n fee : Nat} {o : Outcome} {outs : List Out}
    (h : c.callback x (.shadow act a id n fee) o = .ok (c', outs))
    (ht : act = .fromFarming ∨ act = .fromBurrowland) :
    (c'.pledgedOf a id).part act + (match o with | .failure => 0 | .success _ => n) =
      (c.pledgedOf a id).part act ∧
    (c'.pledgedOf a id).other act = (c.pledgedOf a id).other act ∧
    OnlyPledge c c' a id ∧ outs = [] := by
  simp only [callback, callbackOnShadow] at h
  cases o with
  | failure =>
    rcases ht with rfl | rfl <;> simp only [] at h <;> unpack at h <;>
      obtain ⟨acc, h1, _, h3, rfl, rfl⟩ := h <;> rw [account_ok] at h1 <;>
      obtain ⟨-, rfl⟩ := saveAccount_ok.1 h3
    all_goals
      have e : (c.putAccount a acc).pledgedOf a id = acc.pledged id := by
        rw [pledgedOf_eq, putAccount, pledgeIn_insert, if_pos rfl]
      rw [e, pledgedOf_eq, pledgeIn_some h1]
      exact ⟨rfl, rfl, OnlyPledge.put h1 rfl fun _ _ => rfl, rfl⟩
  | success v =>
    rcases ht with rfl | rfl <;> simp only [] at h <;> unpack at h <;>
      obtain ⟨acc, h1, acc1, h2, acc', h4, _, h3, rfl, rfl⟩ := h <;> rw [account_ok] at h1 <;>
      obtain ⟨-, rfl⟩ := saveAccount_ok.1 h3 <;>
      obtain ⟨-, htok, hm, ho⟩ := Account.updateShadow_ok h2 <;>
      obtain ⟨g1, g2, -⟩ := creditStorage_ok h4 <;>
      simp only [Account.movedRecord] at hm <;> unpack at hm <;> obtain ⟨hle, hm⟩ := hm
    all_goals
      have g : ∀ j, acc'.pledged j = acc1.pledged j := by
        intro j; rw [Account.pledged, Account.pledged, g2]
      have e : (c.putAccount a acc').pledgedOf a id = acc'.pledged id := by
        rw [pledgedOf_eq, putAccount, pledgeIn_insert, if_pos rfl]
      rw [e, g, pledgedOf_eq, pledgeIn_some h1, ← hm]
      refine ⟨by simp [ShadowRecord.part]; omega, rfl,
        OnlyPledge.put h1 (g1.trans htok) fun j hj => (g j).trans (ho j hj).1, rfl⟩

/-- A cast to the farm and its rejection, with a second cast in between. -/
example : (c1.exec (Demo.near al) (.shadowAction .toFarming 0 (some 100))).holds (fun r =>
    r.1.pledgedOf al 0 = ⟨100, 0⟩ ∧
    (r.1.exec (y al) (.shadowAction .toFarming 0 (some 7))).holds (fun s =>
      (s.1.callback (by' ex) (.shadow .toFarming al 0 100 0) .failure).holds (fun t =>
        t.1.pledgedOf al 0 = ⟨7, 0⟩))) = true := by decide +kernel

end Contract
end Verif

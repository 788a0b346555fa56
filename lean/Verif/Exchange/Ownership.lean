import Verif.Exchange.PoolSteps
import Verif.Exchange.Demo

/-
Properties about who can move whose funds: C14 (deposits) and C15 (shares).
-/

namespace Verif

open Demo

namespace Contract

/-! ### C14: deposits -/

theorem internalMftTransfer_deposit {c c' : Contract} {tokenId : List Char}
    {sender receiver : AccountId} {amount : Option Nat} {n : Nat}
    (h : c.internalMftTransfer tokenId sender receiver amount = .ok (c', n)) (a t : AccountId) :
    c.depositOf a t ≤ c'.depositOf a t +
      if a = sender ∧ parseTokenId tokenId = .token t then n else 0 := by
  obtain ⟨hne, ⟨id, -, h⟩ | ⟨u, hu, h⟩⟩ := internalMftTransfer_inv h
  · obtain ⟨p, q, -, -, -, -, -, -, rfl⟩ := transferShares_inv h
    exact Nat.le_add_right _ _
  · obtain ⟨s, r, s', r', -, h1, h2, h3, h4, -, -, rfl⟩ := transferToken_inv h
    have e1 := (Account.withdraw_ok h3).2.2.1 t
    have e2 := (Account.deposit_ok h4).2.1 t
    simp only [depositOf_eq, balIn_insert, hu, TokenOrPool.token.injEq]
    by_cases ha : a = receiver
    · subst ha
      rw [if_pos rfl, balIn_some h2]; omega
    · rw [if_neg ha]
      by_cases hs : a = sender
      · subst hs
        rw [if_pos rfl, balIn_some h1]
        simp only [true_and]
        omega
      · rw [if_neg hs]; omega

theorem handleFail_deposit {c c' : Contract} {x : Ctx} {b token : AccountId} {amount : Nat}
    (h : c.handleFail x b token amount = .ok c') (a t : AccountId) :
    c.depositOf a t ≤ c'.depositOf a t := by
  rcases handleFail_inv h with ⟨acc, acc', h1, h2, rfl⟩ | rfl | ⟨acc', h2, rfl⟩
  · have := (Account.depositChecked_some h2).2 t
    simp only [depositOf_eq, putAccount, balIn_insert]
    by_cases ha : a = b
    · subst ha; rw [if_pos rfl, balIn_some h1]; omega
    · rw [if_neg ha]
  · exact Nat.le_refl _
  · have := (Account.deposit_ok h2).2.1 t
    rw [accountOrNew_bal] at this
    simp only [depositOf_eq, putAccount, balIn_insert]
    by_cases ha : a = c.cfg.owner
    · subst ha; rw [if_pos rfl]; omega
    · rw [if_neg ha]

/-- The deposits of all accounts but the caller's do not fall, except in a payout of the owner's
deposit. -/
theorem exec_deposit {c c' : Contract} {x : Ctx} {k : Call} {outs : List Out}
    (h : c.exec x k = .ok (c', outs)) {a : AccountId} (ha : a ≠ x.pred) (t : AccountId) :
    c.depositOf a t ≤ c'.depositOf a t ∨
    ∃ amount skip, k = .withdrawOwnerToken t amount skip ∧ a = c.cfg.owner ∧
      (x.pred = c.cfg.owner ∨ x.pred ∈ c.cfg.guardians) ∧
      c.depositOf a t = c'.depositOf a t + amount := by
  have up : ∀ {m : FMap AccountId Account} {b : AccountId} {acc acc' : Account},
      m.get? b = some acc → acc.bal t ≤ acc'.bal t →
      balIn m a t ≤ balIn (m.insert b acc') a t := by
    intro m b acc acc' hb hle
    rw [balIn_insert]
    by_cases hab : a = b
    · subst hab; rw [if_pos rfl, balIn_some hb]; exact hle
    · rw [if_neg hab]
  have mine : ∀ (m : FMap AccountId Account) (acc : Account),
      balIn (m.insert x.pred acc) a t = balIn m a t := by
    intro m acc; rw [balIn_insert, if_neg ha]
  simp only [depositOf_eq]
  cases k <;> simp only [exec] at h
  case addSimplePool =>
    obtain ⟨_, -, -, -, h⟩ := addSimplePool_inv h
    obtain ⟨_, _, -, -, rfl⟩ := addPool_inv h; exact .inl (Nat.le_refl _)
  case addCurvePool =>
    obtain ⟨_, -, -, -, -, h⟩ := addCurvePool_inv h
    obtain ⟨_, _, -, -, rfl⟩ := addPool_inv h; exact .inl (Nat.le_refl _)
  case executeActions =>
    unpack at h; obtain ⟨_, _, h, rfl, -⟩ := h
    obtain ⟨_, _, c1, -, -, -, -, h2, -, rfl⟩ := executeActions_inv h
    obtain ⟨_, hs, -⟩ := runActions_ok h2
    simp only [putAccount, hs.framed.accounts, mine]; exact .inl (Nat.le_refl _)
  case executeInVa =>
    unpack at h; obtain ⟨_, _, h, rfl, -⟩ := h
    obtain ⟨_, _, _, _, _, c1, _, -, -, -, -, -, h2, -, -, -, rfl⟩ := executeInVa_inv h
    obtain ⟨_, hs, -⟩ := runActions_ok h2
    simp only [putAccount, hs.framed.accounts, mine]; exact .inl (Nat.le_refl _)
  case addLiquidity =>
    unpack at h; obtain ⟨_, _, _, h, rfl, -⟩ := h
    obtain ⟨_, _, _, _, _, _, _, -, -, -, -, -, -, -, -, -, -, rfl⟩ := addLiquidity_inv h
    simp only [mine]; exact .inl (Nat.le_refl _)
  case addStableLiquidity =>
    unpack at h; obtain ⟨_, _, _, h, rfl, -⟩ := h
    obtain ⟨_, _, _, _, _, _, -, -, -, -, -, -, -, -, -, -, rfl⟩ := addStableLiquidity_inv h
    simp only [mine]; exact .inl (Nat.le_refl _)
  case removeLiquidity =>
    unpack at h; obtain ⟨_, _, h, rfl, -⟩ := h
    obtain ⟨_, _, _, _, _, -, -, -, -, -, -, -, -, -, rfl⟩ := removeLiquidity_inv h
    simp only [mine]; exact .inl (Nat.le_refl _)
  case removeByTokens =>
    unpack at h; obtain ⟨_, _, h, rfl, -⟩ := h
    obtain ⟨_, _, _, _, _, -, -, -, -, -, -, -, -, -, rfl⟩ := removeByTokens_inv h
    simp only [mine]; exact .inl (Nat.le_refl _)
  case registerTokens =>
    unpack at h; obtain ⟨_, h, rfl, -⟩ := h
    obtain ⟨_, -, -, -, -, rfl⟩ := registerTokens_inv h
    simp only [putAccount, mine]; exact .inl (Nat.le_refl _)
  case unregisterTokens =>
    unpack at h; obtain ⟨_, h, rfl, -⟩ := h
    obtain ⟨_, _, -, -, -, -, -, rfl⟩ := unregisterTokens_inv h
    simp only [putAccount, mine]; exact .inl (Nat.le_refl _)
  case withdraw =>
    obtain ⟨_, _, _, _, -, -, -, -, -, -, -, -, -, rfl, -⟩ := withdraw_inv h
    simp only [putAccount, mine]; exact .inl (Nat.le_refl _)
  case claimLostfound =>
    obtain ⟨-, -, -, -, rfl, -⟩ := claimLostfound_inv h; exact .inl (Nat.le_refl _)
  case ftOnTransfer =>
    obtain ⟨-, -, ⟨-, -, h, -⟩ | ⟨_, _, _, _, _, -, h⟩ | ⟨_, _, _, -, -, h⟩⟩ := ftOnTransfer_inv h
    · obtain ⟨acc, acc', h1, -, h2, -, rfl⟩ := deposit_inv h
      have e := (Account.deposit_ok h2).2.1 t
      left
      simp only [putAccount]
      exact up h1 (by rw [e]; exact Nat.le_add_right _ _)
    · obtain ⟨_, -, -, -, h, -⟩ := instantSwap_inv h
      obtain ⟨_, _, _, hs, -⟩ := directActions_ok h
      rw [hs.framed.accounts]; exact .inl (Nat.le_refl _)
    · obtain ⟨acc, _, _, _, _, _, _, _, -, -, h1, -, -, -, h2, hz, -, -, ⟨_, h3, -, -, h4⟩, -,
        rfl⟩ := hotZap_inv h
      obtain ⟨_, _, _, hs, -⟩ := directActions_ok h2
      simp only [putAccount, (hs.framed.trans hz.framed.1).accounts]
      left
      refine up h1 ?_
      rw [(Account.depositPairs_ok h4).2.1 t, Account.bal_congr h3]
      exact Nat.le_add_right _ _
  case mftTransfer =>
    unpack at h; obtain ⟨_, h, rfl, -⟩ := h
    obtain ⟨-, -, _, h⟩ := mftTransfer_inv h
    have := internalMftTransfer_deposit h a t
    rw [if_neg (fun h => ha h.1)] at this; exact .inl this
  case mftTransferCall =>
    obtain ⟨-, -, _, h, -⟩ := mftTransferCall_inv h
    have := internalMftTransfer_deposit h a t
    rw [if_neg (fun h => ha h.1)] at this; exact .inl this
  case mftRegister =>
    obtain ⟨_, _, _, _, -, -, -, -, -, rfl⟩ := mftRegister_inv h; exact .inl (Nat.le_refl _)
  case mftUnregister =>
    obtain ⟨_, _, _, -, -, -, -, -, -, rfl⟩ := mftUnregister_inv h; exact .inl (Nat.le_refl _)
  case storageDeposit =>
    obtain ⟨-, -, rfl | ⟨b, _, h⟩⟩ := storageDeposit_inv h
    · exact .inl (Nat.le_refl _)
    · obtain ⟨acc', h1, -, -, -, rfl⟩ := registerAccount_inv h
      left
      simp only [putAccount, balIn_insert]
      by_cases hab : a = b
      · subst hab
        rw [if_pos rfl, Account.bal_congr h1, accountOrNew_bal]
      · rw [if_neg hab]
  case storageWithdraw =>
    obtain ⟨_, _, -, -, -, -, -, -, -, rfl⟩ := storageWithdraw_inv h
    simp only [putAccount, mine]; exact .inl (Nat.le_refl _)
  case storageUnregister =>
    obtain ⟨-, -, ⟨-, rfl, -⟩ | ⟨_, -, -, -, rfl, -⟩⟩ := storageUnregister_inv h
    · exact .inl (Nat.le_refl _)
    · simp only [balIn_erase, if_neg ha]; exact .inl (Nat.le_refl _)
  case shadowAction =>
    obtain ⟨_, _, _, _, -, -, -, -, -, -, -, ⟨-, rfl, -⟩ | ⟨-, _, _, _, -, -, -, rfl, -⟩⟩ :=
      shadowAction_inv h
    · exact .inl (Nat.le_refl _)
    · simp only [putAccount, mine]; exact .inl (Nat.le_refl _)
  case onBurrowLiquidation =>
    obtain ⟨_, _, _, _, acc, acc1, _, acc2, acc3, liq, liq', -, -, -, -, -, h1, h2, -, h3, h4, -, h5,
      -, h6, -, rfl, -⟩ := onBurrowLiquidation_inv h
    left
    refine Nat.le_trans (up h1 (acc' := acc3) ?_) (up h5 ?_)
    · have e : acc3.tokens = acc.tokens := by
        rw [(creditStorage_ok h4).1, (releaseSeed_ok h3).2.1, (Account.updateShadow_ok h2).2.1]
      rw [Account.bal_congr e]
    · have := (Account.depositAll_ok h6).2.1 t; omega
  case donationShare =>
    obtain ⟨_, _, _, _, -, -, -, -, -, -, -, -, rfl | ⟨_, _, -, -, -, rfl⟩⟩ := donationShare_inv h
    · exact .inl (Nat.le_refl _)
    · simp only [mine]; exact .inl (Nat.le_refl _)
  case donationToken =>
    unpack at h; obtain ⟨_, h, rfl, -⟩ := h
    obtain ⟨_, _, _, acc', _, _, -, -, -, -, -, -, -, -, h1, h2, rfl⟩ := donationToken_inv h
    left
    rw [← mine c.accounts acc']
    exact up h1 (by have := (Account.deposit_ok h2).2.1 t; omega)
  case setting s =>
    unpack at h; obtain ⟨_, h, rfl, -⟩ := h
    obtain ⟨g, h2, rfl⟩ := setting_inv h; exact .inl (Nat.le_refl _)
  case retrieveUnmanaged =>
    unpack at h; obtain ⟨_, h, rfl, -⟩ := h; exact .inl (Nat.le_refl _)
  case modifyTotalFee =>
    unpack at h; obtain ⟨_, h, rfl, -⟩ := h
    obtain ⟨_, -, -, -, -, rfl⟩ := modifyTotalFee_inv h; exact .inl (Nat.le_refl _)
  case removeExchangeFee =>
    unpack at h; obtain ⟨_, h, rfl, -⟩ := h
    obtain ⟨_, _, _, _, _, -, -, -, -, -, h1, h2, -, rfl⟩ := removeExchangeFee_inv h
    exact .inl (up h1 (by have := (Account.depositAll_ok h2).2.1 t; omega))
  case withdrawOwnerToken token amount skip =>
    obtain ⟨own, own', -, hm, -, -, h1, h2, rfl, -⟩ := withdrawOwnerToken_inv h
    have := (Account.withdraw_ok h2).2.2.1 t
    simp only [balIn_insert]
    by_cases hab : a = c.cfg.owner
    · subst hab
      rw [if_pos rfl, balIn_some h1]
      by_cases ht : token = t
      · subst ht
        rw [if_pos rfl] at this
        exact .inr ⟨amount, skip, rfl, rfl, hm, this.symm⟩
      · rw [if_neg ht] at this; left; omega
    · rw [if_neg hab]; exact .inl (Nat.le_refl _)
  case rampAmp =>
    unpack at h; obtain ⟨_, h, rfl, -⟩ := h
    obtain ⟨_, _, -, -, -, -, rfl⟩ := rampAmp_inv h; exact .inl (Nat.le_refl _)
  case stopRampAmp =>
    unpack at h; obtain ⟨_, h, rfl, -⟩ := h
    obtain ⟨_, _, -, -, -, -, rfl⟩ := stopRampAmp_inv h; exact .inl (Nat.le_refl _)
  case registerTwap =>
    unpack at h; obtain ⟨_, h, rfl, -⟩ := h
    obtain ⟨-, -, _, rfl⟩ := registerTwap_inv h; exact .inl (Nat.le_refl _)
  case unregisterTwap =>
    unpack at h; obtain ⟨_, h, rfl, -⟩ := h
    obtain ⟨-, -, _, rfl⟩ := unregisterTwap_inv h; exact .inl (Nat.le_refl _)
  case syncTwap =>
    unpack at h; obtain ⟨_, h, rfl, -⟩ := h
    obtain ⟨-, _, rfl⟩ := syncTwap_inv h; exact .inl (Nat.le_refl _)

theorem internalMftTransfer_amount {c c' : Contract} {tokenId : List Char}
    {sender receiver : AccountId} {m n : Nat}
    (h : c.internalMftTransfer tokenId sender receiver (some m) = .ok (c', n)) : n = m := by
  obtain ⟨-, ⟨id, -, h⟩ | ⟨u, hu, h⟩⟩ := internalMftTransfer_inv h
  · obtain ⟨_, _, -, -, -, h, -⟩ := transferShares_inv h; exact h m rfl
  · obtain ⟨_, _, _, _, h, -⟩ := transferToken_inv h; cases h; rfl

theorem callback_deposit {c c' : Contract} {x : Ctx} {out : Out} {o : Outcome} {outs : List Out}
    (h : c.callback x out o = .ok (c', outs)) (a t : AccountId) :
    c.depositOf a t ≤ c'.depositOf a t ∨
    ∃ tokenId sender amount, out = .mftCall tokenId sender a amount ∧
      parseTokenId tokenId = .token t ∧
      c.depositOf a t ≤ c'.depositOf a t + unusedOf amount o := by
  cases out <;> simp only [callback] at h
  case ft =>
    cases o <;> simp only [] at h
    · cases h; exact .inl (Nat.le_refl _)
    · unpack at h; obtain ⟨_, h, rfl, -⟩ := h; exact .inl (handleFail_deposit h a t)
  case ftCall =>
    cases o <;> simp only [] at h
    · cases h; exact .inl (Nat.le_refl _)
    · unpack at h; obtain ⟨_, h, rfl, -⟩ := h; exact .inl (handleFail_deposit h a t)
  case unwrap =>
    cases o <;> simp only [] at h
    · cases h; exact .inl (Nat.le_refl _)
    · unpack at h; obtain ⟨_, -, _, h, rfl, -⟩ := h; exact .inl (handleFail_deposit h a t)
  case mftCall tokenId sender receiver amount =>
    unpack at h; obtain ⟨_, n, h, rfl, -⟩ := h
    obtain ⟨rfl, rfl | ⟨held, m, -, -, -, h⟩⟩ := mftResolve_inv h
    · exact .inl (Nat.le_refl _)
    · have h1 := internalMftTransfer_deposit h a t
      have h2 := internalMftTransfer_amount h
      by_cases hc : a = receiver ∧ parseTokenId tokenId = .token t
      · rw [if_pos hc] at h1
        obtain ⟨rfl, hp⟩ := hc
        exact .inr ⟨tokenId, sender, amount, rfl, hp, by omega⟩
      · rw [if_neg hc] at h1; exact .inl h1
  case shadow act sender id amount fee =>
    have put : ∀ {acc acc' : Account}, c.accounts.get? sender = some acc →
        acc'.tokens = acc.tokens → balIn c.accounts a t ≤ balIn (c.putAccount sender acc').accounts a t := by
      intro acc acc' h1 h2
      simp only [putAccount, balIn_insert]
      by_cases hab : a = sender
      · subst hab; rw [if_pos rfl, balIn_some h1, Account.bal_congr h2]
      · rw [if_neg hab]
    simp only [depositOf_eq]
    obtain ⟨-, rfl | ⟨acc, h1, rfl | ⟨acc1, acc', h2, h3, -, -, rfl⟩⟩⟩ := callbackOnShadow_inv h
    · exact .inl (Nat.le_refl _)
    · exact .inl (put h1 rfl)
    · refine .inl (put h1 ?_)
      rcases h3 with rfl | h3
      · exact (Account.updateShadow_ok h2).2.1
      · rw [(creditStorage_ok h3).1, (Account.updateShadow_ok h2).2.1]
  all_goals (cases h; exact .inl (Nat.le_refl _))

/-- **C14**. If the deposit of `a` in token `t` becomes smaller, then `a` made the call, or a
manager paid out the owner's deposit and `a` is the owner, or a transfer-call of this token to `a`
came back and its unused part is taken back. -/
theorem C14_deposits_safe {c c' : Contract} {e : Event} {outs : List Out}
    (h : c.apply e = .ok (c', outs)) {a t : AccountId} (hlt : c'.depositOf a t < c.depositOf a t) :
    (∃ x k, e = .call x k ∧ x.pred = a) ∨
    (∃ x amount skip, e = .call x (.withdrawOwnerToken t amount skip) ∧ a = c.cfg.owner ∧
      (x.pred = c.cfg.owner ∨ x.pred ∈ c.cfg.guardians) ∧
      c.depositOf a t = c'.depositOf a t + amount) ∨
    (∃ x tokenId sender amount o, e = .callback x (.mftCall tokenId sender a amount) o ∧
      parseTokenId tokenId = .token t ∧
      c.depositOf a t ≤ c'.depositOf a t + unusedOf amount o) := by
  cases e <;> simp only [apply] at h
  case call x k =>
    by_cases ha : a = x.pred
    · exact .inl ⟨x, k, rfl, ha.symm⟩
    · rcases exec_deposit h ha t with h | ⟨amount, skip, rfl, h1, h2, h3⟩
      · omega
      · exact .inr (.inl ⟨x, amount, skip, rfl, h1, h2, h3⟩)
  case callback x out o =>
    rcases callback_deposit h a t with h | ⟨tokenId, sender, amount, rfl, h1, h2⟩
    · omega
    · exact .inr (.inr ⟨x, tokenId, sender, amount, o, rfl, h1, h2⟩)
  case rate t' r time =>
    cases h; unfold setRate at hlt; split at hlt <;> exact absurd hlt (Nat.lt_irrefl _)
  case price t' p time =>
    cases h; unfold setDegenPrice at hlt; split at hlt <;> exact absurd hlt (Nat.lt_irrefl _)

example : (c1.exec (y al) (.withdraw A 100 false none)).holds
      (fun r => r.1.depositOf al A + 100 = c1.depositOf al A) = true ∧
    (c1.callback (by' ex) (.mftCall A bo al 70) (.success (some 50))).holds
      (fun r => r.1.depositOf al A + 50 = c1.depositOf al A) = true := by decide +kernel

/-! ### C15: shares -/

theorem Swaps.shares {now : Nat} {ref : Option (AccountId × Nat)} {c c' : Contract}
    {steps : List SwapStep} (h : Swaps now ref c steps c') (id : Nat) (a : AccountId) :
    sharesIn c.pools id a ≤ sharesIn c'.pools id a := by
  refine h.induct (P := fun d => sharesIn c.pools id a ≤ sharesIn d.pools id a) ?_ (Nat.le_refl _)
  intro c1 s c2 h1 h2
  obtain ⟨_, _, p, q, hp, ht, -, rfl⟩ := h2.ok
  refine Nat.le_trans h1 ?_
  rw [sharesIn_set hp]
  by_cases hid : id = s.pool
  · subst hid; rw [if_pos rfl, sharesIn_some hp]; exact ht.shares a
  · rw [if_neg hid]

theorem Zaps.shares {now : Nat} {sender : AccountId} {c c' : Contract} {is : List AddInfo}
    {steps : List ZapStep} (h : Zaps now sender c is steps c') (id : Nat) (a : AccountId) :
    sharesIn c.pools id a ≤ sharesIn c'.pools id a := by
  refine h.induct (P := fun d => sharesIn c.pools id a ≤ sharesIn d.pools id a) ?_ (Nat.le_refl _)
  intro c1 i s c2 h1 h2
  obtain ⟨p, q, hp, ht, rfl⟩ := h2.ok
  refine Nat.le_trans h1 ?_
  rw [sharesIn_set hp]
  by_cases hid : id = s.pool
  · subst hid; rw [if_pos rfl, sharesIn_some hp]; exact ht.shares a
  · rw [if_neg hid]

/-- A transfer lowers only the sender's shares, and not below what is pledged. -/
theorem internalMftTransfer_shares {c c' : Contract} {tokenId : List Char}
    {sender receiver : AccountId} {amount : Option Nat} {n : Nat}
    (h : c.internalMftTransfer tokenId sender receiver amount = .ok (c', n)) (id : Nat)
    (a : AccountId) :
    c.sharesOf id a ≤ c'.sharesOf id a ∨
    a = sender ∧ parseTokenId tokenId = .pool id ∧ c.sharesOf id a = c'.sharesOf id a + n ∧
      max (c.pledgedOf a id).farm (c.pledgedOf a id).burrow ≤ c'.sharesOf id a := by
  simp only [sharesOf_eq]
  obtain ⟨hne, ⟨j, hj, h⟩ | ⟨u, hu, h⟩⟩ := internalMftTransfer_inv h
  · obtain ⟨p, q, hp, -, hm, -, -, hq, rfl⟩ := transferShares_inv h
    obtain ⟨h1, h2, -⟩ := Pool.shareTransfer_shares hq
    simp only [sharesIn_set hp]
    by_cases hid : id = j
    · subst hid
      rw [if_pos rfl, sharesIn_some hp]
      have e := h2 a
      by_cases has : a = sender
      · subst has
        right
        rw [if_pos rfl, if_neg hne] at e
        exact ⟨rfl, hj, by omega, by omega⟩
      · rw [if_neg has] at e; left; omega
    · rw [if_neg hid]; exact .inl (Nat.le_refl _)
  · obtain ⟨s, r, s', r', -, h1, h2, h3, h4, -, -, rfl⟩ := transferToken_inv h
    exact .inl (Nat.le_refl _)

theorem exec_shares {c c' : Contract} {x : Ctx} {k : Call} {outs : List Out}
    (h : c.exec x k = .ok (c', outs)) {a : AccountId} (ha : a ≠ x.pred) (id : Nat) :
    c.sharesOf id a ≤ c'.sharesOf id a ∨
    (∃ liq shadowId amount mins, k = .onBurrowLiquidation liq a shadowId amount mins ∧
      x.pred = c.cfg.burrowland ∧ shadowIdToPoolId shadowId = .ok id ∧
      c.sharesOf id a = c'.sharesOf id a + amount ∧ amount ≤ (c.pledgedOf a id).burrow) ∨
    (∃ n mins, k = .removeExchangeFee id n mins ∧ a = c.self ∧
      (x.pred = c.cfg.owner ∨ x.pred ∈ c.cfg.guardians) ∧
      c.sharesOf id a = c'.sharesOf id a + n) := by
  have set : ∀ {j : Nat} {p q : Pool}, c.pools[j]? = some p →
      p.shareBalance a ≤ q.shareBalance a → sharesIn c.pools id a ≤ sharesIn (c.pools.set j q) id a := by
    intro j p q hp hle
    rw [sharesIn_set hp]
    by_cases hid : id = j
    · subst hid; rw [if_pos rfl, sharesIn_some hp]; exact hle
    · rw [if_neg hid]
  have same : ∀ {j : Nat} {p q : Pool}, c.pools[j]? = some p → q.shares = p.shares →
      sharesIn c.pools id a ≤ sharesIn (c.pools.set j q) id a := by
    intro j p q hp he
    exact set hp (by simp [Pool.shareBalance, he])
  have add : ∀ (q : Pool), sharesIn c.pools id a ≤ sharesIn (c.pools ++ [q]) id a := by
    intro q
    rw [sharesIn_append]
    by_cases hid : id = c.pools.length
    · rw [sharesIn_none (by omega)]; exact Nat.zero_le _
    · rw [if_neg hid]
  simp only [sharesOf_eq]
  cases k <;> simp only [exec] at h
  case addSimplePool =>
    obtain ⟨_, -, -, -, h⟩ := addSimplePool_inv h
    obtain ⟨q, _, -, -, rfl⟩ := addPool_inv h; exact .inl (add q)
  case addCurvePool =>
    obtain ⟨_, -, -, -, -, h⟩ := addCurvePool_inv h
    obtain ⟨q, _, -, -, rfl⟩ := addPool_inv h; exact .inl (add q)
  case executeActions =>
    unpack at h; obtain ⟨_, _, h, rfl, -⟩ := h
    obtain ⟨_, _, c1, -, -, -, -, h2, -, rfl⟩ := executeActions_inv h
    obtain ⟨_, hs, -⟩ := runActions_ok h2
    exact .inl (Swaps.shares hs id a)
  case executeInVa =>
    unpack at h; obtain ⟨_, _, h, rfl, -⟩ := h
    obtain ⟨_, _, _, _, _, c1, _, -, -, -, -, -, h2, -, -, -, rfl⟩ := executeInVa_inv h
    obtain ⟨_, hs, -⟩ := runActions_ok h2
    exact .inl (Swaps.shares hs id a)
  case addLiquidity =>
    unpack at h; obtain ⟨_, _, _, h, rfl, -⟩ := h
    obtain ⟨_, _, _, _, _, _, _, -, -, hp, -, hq, -, -, -, -, -, rfl⟩ := addLiquidity_inv h
    exact .inl (set hp (by rw [Pool.addLiquidity_shares hq]; omega))
  case addStableLiquidity =>
    unpack at h; obtain ⟨_, _, _, h, rfl, -⟩ := h
    obtain ⟨_, _, _, _, _, _, -, -, hp, -, hq, -, -, -, -, -, rfl⟩ := addStableLiquidity_inv h
    exact .inl (set hp (by have := (Pool.addStable_shares hq).1 a; omega))
  case removeLiquidity =>
    unpack at h; obtain ⟨_, _, h, rfl, -⟩ := h
    obtain ⟨_, _, _, _, _, -, -, hp, -, -, -, hq, -, -, rfl⟩ := removeLiquidity_inv h
    exact .inl (set hp (by have := (Pool.removeLiquidity_shares hq).2.1 a ha; omega))
  case removeByTokens =>
    unpack at h; obtain ⟨_, _, h, rfl, -⟩ := h
    obtain ⟨_, _, _, _, _, -, -, hp, -, -, -, hq, -, -, rfl⟩ := removeByTokens_inv h
    exact .inl (set hp (by have := (Pool.removeByTokens_shares hq).2.2.2.1 a ha; omega))
  case registerTokens =>
    unpack at h; obtain ⟨_, h, rfl, -⟩ := h
    obtain ⟨_, -, -, -, -, rfl⟩ := registerTokens_inv h; exact .inl (Nat.le_refl _)
  case unregisterTokens =>
    unpack at h; obtain ⟨_, h, rfl, -⟩ := h
    obtain ⟨_, _, -, -, -, -, -, rfl⟩ := unregisterTokens_inv h; exact .inl (Nat.le_refl _)
  case withdraw =>
    obtain ⟨_, _, _, _, -, -, -, -, -, -, -, -, -, rfl, -⟩ := withdraw_inv h
    exact .inl (Nat.le_refl _)
  case claimLostfound =>
    obtain ⟨-, -, -, -, rfl, -⟩ := claimLostfound_inv h; exact .inl (Nat.le_refl _)
  case ftOnTransfer =>
    obtain ⟨-, -, ⟨-, -, h, -⟩ | ⟨_, _, _, _, _, -, h⟩ | ⟨_, _, _, -, -, h⟩⟩ := ftOnTransfer_inv h
    · obtain ⟨_, _, h1, -, h2, -, rfl⟩ := deposit_inv h; exact .inl (Nat.le_refl _)
    · obtain ⟨_, -, -, -, h, -⟩ := instantSwap_inv h
      obtain ⟨_, _, _, hs, -⟩ := directActions_ok h
      exact .inl (Swaps.shares hs id a)
    · obtain ⟨acc, _, _, _, _, _, _, _, -, -, h1, -, -, -, h2, hz, -, -, ⟨_, h3, -, -, h4⟩, -,
        rfl⟩ := hotZap_inv h
      obtain ⟨_, _, _, hs, -⟩ := directActions_ok h2
      exact .inl (Nat.le_trans (Swaps.shares hs id a) (Zaps.shares hz id a))
  case mftTransfer =>
    unpack at h; obtain ⟨_, h, rfl, -⟩ := h
    obtain ⟨-, -, _, h⟩ := mftTransfer_inv h
    rcases internalMftTransfer_shares h id a with h | h
    · exact .inl h
    · exact absurd h.1 ha
  case mftTransferCall =>
    obtain ⟨-, -, _, h, -⟩ := mftTransferCall_inv h
    rcases internalMftTransfer_shares h id a with h | h
    · exact .inl h
    · exact absurd h.1 ha
  case mftRegister =>
    obtain ⟨_, _, _, _, -, -, hp, hq, -, rfl⟩ := mftRegister_inv h
    exact .inl (set hp (by rw [Pool.shareRegister_shares hq]))
  case mftUnregister =>
    obtain ⟨_, _, _, -, -, -, hp, hq, -, rfl⟩ := mftUnregister_inv h
    exact .inl (set hp (by rw [(Pool.shareUnregister_shares hq).2]))
  case storageDeposit =>
    obtain ⟨-, -, rfl | ⟨b, _, h⟩⟩ := storageDeposit_inv h
    · exact .inl (Nat.le_refl _)
    · obtain ⟨acc', h1, -, -, -, rfl⟩ := registerAccount_inv h; exact .inl (Nat.le_refl _)
  case storageWithdraw =>
    obtain ⟨_, _, -, -, -, -, -, -, -, rfl⟩ := storageWithdraw_inv h; exact .inl (Nat.le_refl _)
  case storageUnregister =>
    obtain ⟨-, -, ⟨-, rfl, -⟩ | ⟨_, -, -, -, rfl, -⟩⟩ := storageUnregister_inv h <;>
      exact .inl (Nat.le_refl _)
  case shadowAction =>
    obtain ⟨_, _, _, _, -, -, -, -, -, -, -, ⟨-, rfl, -⟩ | ⟨-, _, _, _, -, -, -, rfl, -⟩⟩ :=
      shadowAction_inv h <;> exact .inl (Nat.le_refl _)
  case onBurrowLiquidation liquidator debtor shadowId amount mins =>
    obtain ⟨j, p, q, _, acc, acc1, _, acc2, acc3, liq, liq', -, hb, hj, hp, -, h1, h2, -, -, -, -, -,
      hq, -, -, rfl, -⟩ := onBurrowLiquidation_inv h
    obtain ⟨e1, e2, -⟩ := Pool.removeLiquidity_shares hq
    simp only [sharesIn_set hp]
    by_cases hid : id = j
    · subst hid
      rw [if_pos rfl, sharesIn_some hp]
      by_cases had : a = debtor
      · subst had
        refine .inr (.inl ⟨_, _, _, _, rfl, hb.symm, hj, e1.symm, ?_⟩)
        have := (Account.updateShadow_ok h2).2.2.1
        simp only [Account.movedRecord] at this
        unpack at this
        rw [pledgedOf_eq, pledgeIn_some h1]
        exact this.1
      · rw [e2 a had]; exact .inl (Nat.le_refl _)
    · rw [if_neg hid]; exact .inl (Nat.le_refl _)
  case donationShare j amount unregister =>
    obtain ⟨p, n, q, q', -, -, hp, -, -, hq, hu, -, hc⟩ := donationShare_inv h
    have hle : sharesIn c.pools id a ≤ sharesIn (c.pools.set j q') id a := by
      refine set hp ?_
      have e1 := (Pool.shareTransfer_shares hq).2.1 a
      rw [if_neg ha] at e1
      rcases hu with ⟨rfl, -⟩ | ⟨-, hu⟩
      · omega
      · rw [(Pool.shareUnregister_shares hu).2]; omega
    rcases hc with rfl | ⟨_, _, -, -, -, rfl⟩ <;> exact .inl hle
  case donationToken =>
    unpack at h; obtain ⟨_, h, rfl, -⟩ := h
    obtain ⟨_, _, _, acc', _, _, -, -, -, -, -, -, -, -, h1, h2, rfl⟩ := donationToken_inv h
    exact .inl (Nat.le_refl _)
  case setting s =>
    unpack at h; obtain ⟨_, h, rfl, -⟩ := h
    obtain ⟨g, h2, rfl⟩ := setting_inv h; exact .inl (Nat.le_refl _)
  case retrieveUnmanaged =>
    unpack at h; obtain ⟨_, h, rfl, -⟩ := h; exact .inl (Nat.le_refl _)
  case modifyTotalFee j fee =>
    unpack at h; obtain ⟨_, h, rfl, -⟩ := h
    obtain ⟨p, -, -, -, hp, rfl⟩ := modifyTotalFee_inv h
    exact .inl (same hp (Pool.setFee_facts p fee).2.2.2.2.1)
  case removeExchangeFee j shares mins =>
    unpack at h; obtain ⟨_, h, rfl, -⟩ := h
    obtain ⟨p, q, _, _, _, -, hm, -, hp, hq, -, -, -, rfl⟩ := removeExchangeFee_inv h
    obtain ⟨e1, e2, -⟩ := Pool.removeLiquidity_shares hq
    simp only [sharesIn_set hp]
    by_cases hid : id = j
    · subst hid
      rw [if_pos rfl, sharesIn_some hp]
      by_cases had : a = c.self
      · subst had
        exact .inr (.inr ⟨_, _, rfl, rfl, hm, e1.symm⟩)
      · rw [e2 a had]; exact .inl (Nat.le_refl _)
    · rw [if_neg hid]; exact .inl (Nat.le_refl _)
  case withdrawOwnerToken token amount skip =>
    obtain ⟨own, own', -, hm, -, -, h1, h2, rfl, -⟩ := withdrawOwnerToken_inv h
    exact .inl (Nat.le_refl _)
  case rampAmp =>
    unpack at h; obtain ⟨_, h, rfl, -⟩ := h
    obtain ⟨_, _, -, -, hp, hq, rfl⟩ := rampAmp_inv h
    exact .inl (same hp (Pool.ramp_only hq).shares)
  case stopRampAmp =>
    unpack at h; obtain ⟨_, h, rfl, -⟩ := h
    obtain ⟨_, _, -, -, hp, hq, rfl⟩ := stopRampAmp_inv h
    exact .inl (same hp (Pool.stopRamp_only hq).shares)
  case registerTwap =>
    unpack at h; obtain ⟨_, h, rfl, -⟩ := h
    obtain ⟨-, -, _, rfl⟩ := registerTwap_inv h; exact .inl (Nat.le_refl _)
  case unregisterTwap =>
    unpack at h; obtain ⟨_, h, rfl, -⟩ := h
    obtain ⟨-, -, _, rfl⟩ := unregisterTwap_inv h; exact .inl (Nat.le_refl _)
  case syncTwap =>
    unpack at h; obtain ⟨_, h, rfl, -⟩ := h
    obtain ⟨-, _, rfl⟩ := syncTwap_inv h; exact .inl (Nat.le_refl _)

theorem callback_shares {c c' : Contract} {x : Ctx} {out : Out} {o : Outcome} {outs : List Out}
    (h : c.callback x out o = .ok (c', outs)) (id : Nat) (a : AccountId) :
    c.sharesOf id a ≤ c'.sharesOf id a ∨
    ∃ tokenId sender amount, out = .mftCall tokenId sender a amount ∧
      parseTokenId tokenId = .pool id ∧
      c.sharesOf id a ≤ c'.sharesOf id a + unusedOf amount o ∧
      max (c.pledgedOf a id).farm (c.pledgedOf a id).burrow ≤ c'.sharesOf id a := by
  have fail : ∀ {c' : Contract} {t b : AccountId} {n : Nat}, c.handleFail x b t n = .ok c' →
      c.sharesOf id a ≤ c'.sharesOf id a := by
    intro c' t b n h; rw [sharesOf_eq, sharesOf_eq, (handleFail_same h).2.2.1]
  cases out <;> simp only [callback] at h
  case ft =>
    cases o <;> simp only [] at h
    · cases h; exact .inl (Nat.le_refl _)
    · unpack at h; obtain ⟨_, h, rfl, -⟩ := h; exact .inl (fail h)
  case ftCall =>
    cases o <;> simp only [] at h
    · cases h; exact .inl (Nat.le_refl _)
    · unpack at h; obtain ⟨_, h, rfl, -⟩ := h; exact .inl (fail h)
  case unwrap =>
    cases o <;> simp only [] at h
    · cases h; exact .inl (Nat.le_refl _)
    · unpack at h; obtain ⟨_, -, _, h, rfl, -⟩ := h; exact .inl (fail h)
  case mftCall tokenId sender receiver amount =>
    unpack at h; obtain ⟨_, n, h, rfl, -⟩ := h
    obtain ⟨rfl, rfl | ⟨held, m, -, -, -, h⟩⟩ := mftResolve_inv h
    · exact .inl (Nat.le_refl _)
    · have h2 := internalMftTransfer_amount h
      rcases internalMftTransfer_shares h id a with h1 | ⟨rfl, h3, h4, h5⟩
      · exact .inl h1
      · exact .inr ⟨tokenId, sender, amount, rfl, h3, by omega, h5⟩
  case shadow act sender id amount fee =>
    obtain ⟨-, rfl | ⟨acc, h1, rfl | ⟨acc1, acc', h2, h3, -, -, rfl⟩⟩⟩ := callbackOnShadow_inv h <;>
      exact .inl (Nat.le_refl _)
  all_goals (cases h; exact .inl (Nat.le_refl _))

/-- **C15**. If the shares of `a` in a pool become fewer, then `a` made the call, or the lending
contract liquidated no more than `a` had pledged to it, or a manager withdrew the exchange's own
fee shares and `a` is the exchange, or a transfer-call of these shares to `a` came back and its
unused part is taken back, but no pledged share. -/
theorem C15_shares_safe {c c' : Contract} {e : Event} {outs : List Out}
    (h : c.apply e = .ok (c', outs)) {id : Nat} {a : AccountId}
    (hlt : c'.sharesOf id a < c.sharesOf id a) :
    (∃ x k, e = .call x k ∧ x.pred = a) ∨
    (∃ x liq shadowId amount mins,
      e = .call x (.onBurrowLiquidation liq a shadowId amount mins) ∧
      x.pred = c.cfg.burrowland ∧ shadowIdToPoolId shadowId = .ok id ∧
      c.sharesOf id a = c'.sharesOf id a + amount ∧ amount ≤ (c.pledgedOf a id).burrow) ∨
    (∃ x n mins, e = .call x (.removeExchangeFee id n mins) ∧ a = c.self ∧
      (x.pred = c.cfg.owner ∨ x.pred ∈ c.cfg.guardians) ∧
      c.sharesOf id a = c'.sharesOf id a + n) ∨
    (∃ x tokenId sender amount o, e = .callback x (.mftCall tokenId sender a amount) o ∧
      parseTokenId tokenId = .pool id ∧
      c.sharesOf id a ≤ c'.sharesOf id a + unusedOf amount o ∧
      max (c.pledgedOf a id).farm (c.pledgedOf a id).burrow ≤ c'.sharesOf id a) := by
  cases e <;> simp only [apply] at h
  case call x k =>
    by_cases ha : a = x.pred
    · exact .inl ⟨x, k, rfl, ha.symm⟩
    · rcases exec_shares h ha id with h | ⟨liq, s, n, m, rfl, h1⟩ | ⟨n, m, rfl, h1⟩
      · omega
      · exact .inr (.inl ⟨x, liq, s, n, m, rfl, h1⟩)
      · exact .inr (.inr (.inl ⟨x, n, m, rfl, h1⟩))
  case callback x out o =>
    rcases callback_shares h id a with h | ⟨tokenId, sender, amount, rfl, h1⟩
    · omega
    · exact .inr (.inr (.inr ⟨x, tokenId, sender, amount, o, rfl, h1⟩))
  case rate t' r time =>
    cases h; unfold setRate at hlt; split at hlt <;> exact absurd hlt (Nat.lt_irrefl _)
  case price t' p time =>
    cases h; unfold setDegenPrice at hlt; split at hlt <;> exact absurd hlt (Nat.lt_irrefl _)

example : (c1.exec (y al) (.removeLiquidity 0 (10 ^ 20) [1, 1])).holds
    (fun r => r.1.sharesOf 0 al + 10 ^ 20 = c1.sharesOf 0 al) = true := by decide +kernel

end Contract
end Verif

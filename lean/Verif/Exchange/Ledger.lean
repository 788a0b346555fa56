import Verif.Exchange.FrozenProps

/-
What the exchange owes of one token, and how a receipt changes it. The basis of C12 and C13.
-/

namespace Verif

/-! ### Sums -/

/-- The deposits of all accounts. -/
def depIn (m : FMap AccountId Account) (t : AccountId) : Nat := m.sum fun _ a => a.bal t

/-- The lost-and-found entries of all accounts. -/
def lostIn (m : FMap (AccountId × AccountId) Nat) (t : AccountId) : Nat :=
  m.sum fun k n => if k.2 = t then n else 0

/-- The reserves of all pools, in atoms. -/
def atomsIn (l : List Pool) (t : AccountId) : Nat := (l.map fun p => p.atoms t).sum

theorem depIn_term (m : FMap AccountId Account) (a t : AccountId) :
    m.term (fun _ acc => acc.bal t) a = balIn m a t := by
  unfold FMap.term
  cases h : m.get? a with
  | none => simp only [balIn, h]
  | some acc => simp only [balIn_some h]

theorem depIn_insert (m : FMap AccountId Account) (a t : AccountId) (acc : Account) :
    depIn (m.insert a acc) t + balIn m a t = depIn m t + acc.bal t := by
  rw [← depIn_term]; exact m.sum_insert _ a acc

theorem depIn_erase (m : FMap AccountId Account) (a t : AccountId) :
    depIn (m.erase a) t + balIn m a t = depIn m t := by
  rw [← depIn_term]; exact m.sum_erase _ a

theorem balIn_le_depIn (m : FMap AccountId Account) (a t : AccountId) : balIn m a t ≤ depIn m t := by
  have := depIn_erase m a t; omega

theorem lostIn_term (m : FMap (AccountId × AccountId) Nat) (a u t : AccountId) :
    m.term (fun k n => if k.2 = t then n else 0) (a, u) = if u = t then m.getD (a, u) 0 else 0 := by
  unfold FMap.term FMap.getD
  cases h : m.get? (a, u) with
  | none => simp
  | some n => rfl

theorem lostIn_insert (m : FMap (AccountId × AccountId) Nat) (a u t : AccountId) (n : Nat) :
    lostIn (m.insert (a, u) n) t + (if u = t then m.getD (a, u) 0 else 0) =
      lostIn m t + if u = t then n else 0 := by
  rw [← lostIn_term]; exact m.sum_insert _ (a, u) n

theorem lostIn_erase (m : FMap (AccountId × AccountId) Nat) (a u t : AccountId) :
    lostIn (m.erase (a, u)) t + (if u = t then m.getD (a, u) 0 else 0) = lostIn m t := by
  rw [← lostIn_term]; exact m.sum_erase _ (a, u)

theorem atomsIn_set (t : AccountId) (q : Pool) : ∀ {l : List Pool} {id : Nat} {p : Pool},
    l[id]? = some p → atomsIn (l.set id q) t + p.atoms t = atomsIn l t + q.atoms t
  | [], _, _, h => by simp at h
  | r :: l, 0, p, h => by
    simp only [List.getElem?_cons_zero, Option.some.injEq] at h
    subst h
    simp only [atomsIn, List.set_cons_zero, List.map_cons, List.sum_cons]
    omega
  | r :: l, id + 1, p, h => by
    have := atomsIn_set t q (l := l) (id := id) (p := p) (by simpa using h)
    simp only [atomsIn, List.set_cons_succ, List.map_cons, List.sum_cons] at this ⊢
    omega

theorem atomsIn_append (l : List Pool) (q : Pool) (t : AccountId) :
    atomsIn (l ++ [q]) t = atomsIn l t + q.atoms t := by
  simp [atomsIn]

/-- The accounting value of everything the exchange owes of token `t`: deposits, lost-and-found and
reserves. One unit of the token is `ATOMS` atoms. -/
def Contract.owed (c : Contract) (t : AccountId) : Nat :=
  ATOMS * (depIn c.accounts t + lostIn c.lostfound t) + atomsIn c.pools t

theorem depIn_put {m : FMap AccountId Account} {a : AccountId} {acc acc' : Account}
    (h : m.get? a = some acc) (t : AccountId) :
    depIn (m.insert a acc') t + acc.bal t = depIn m t + acc'.bal t := by
  have := depIn_insert m a t acc'
  rwa [balIn_some h] at this

/-! ### Swaps -/

theorem Contract.SwapsTo.ledger {now : Nat} {ref : Option (AccountId × Nat)} {c c' : Contract}
    {s : SwapStep} (h : c.SwapsTo now ref s c') (hp : ∀ p ∈ c.pools, p.Sound) (t : AccountId) :
    atomsIn c'.pools t + ATOMS * (if s.tokOut = t then s.amtOut else 0) ≤
      atomsIn c.pools t + ATOMS * (if s.tokIn = t then s.amtIn else 0) := by
  obtain ⟨_, _, p, q, hq, hs, -, rfl⟩ := h.ok
  have e1 := atomsIn_set t q hq
  have e2 := hs.atoms (hp p (List.mem_of_getElem? hq)) t
  have e3 : ∀ (b : Prop) [Decidable b] (n : Nat), ATOMS * (if b then n else 0) =
      if b then n * ATOMS else 0 := by
    intro b _ n; split
    · exact Nat.mul_comm _ _
    · rfl
  rw [e3, e3]
  show atomsIn (c.pools.set s.pool q) t + _ ≤ _
  omega

theorem Swaps.ledger {now : Nat} {ref : Option (AccountId × Nat)} {c c' : Contract}
    {steps : List SwapStep} (h : Swaps now ref c steps c') (hp : ∀ p ∈ c.pools, p.Sound)
    (t : AccountId) :
    (∀ p ∈ c'.pools, p.Sound) ∧
    atomsIn c'.pools t + ATOMS * paidOut steps t ≤ atomsIn c.pools t + ATOMS * paidIn steps t := by
  induction h with
  | nil => exact ⟨hp, Nat.le_refl _⟩
  | cons h1 _ ih =>
    have e1 := h1.ledger hp t
    obtain ⟨g, e2⟩ := ih (h1.poolsTo.sound hp)
    refine ⟨g, ?_⟩
    simp only [paidIn, paidOut, List.map_cons, List.sum_cons, Nat.mul_add] at e2 ⊢
    omega

theorem Zaps.ledger {now : Nat} {sender : AccountId} {c c' : Contract} {is : List AddInfo}
    {steps : List ZapStep} (h : Zaps now sender c is steps c') (hp : ∀ p ∈ c.pools, p.Sound)
    (t : AccountId) : atomsIn c'.pools t ≤ atomsIn c.pools t + ATOMS * zapped steps t := by
  induction h with
  | nil => exact Nat.le_add_right _ _
  | cons h1 _ ih =>
    obtain ⟨p, q, hq, hf, rfl⟩ := h1.ok
    have hs := hp p (List.mem_of_getElem? hq)
    have e1 := atomsIn_set t q hq
    have e2 := hf.atoms hs t
    have e3 := ih (by
      intro r hr
      rcases List.mem_or_eq_of_mem_set hr with hr | rfl
      · exact hp r hr
      · exact hf.sound hs)
    rw [← hf.toks, Nat.mul_comm] at e2
    simp only [zapped, Nat.mul_add] at e3 ⊢
    omega

/-! ### Calls -/

namespace Contract

theorem sendTokens_pays (c : Contract) (a token t : AccountId) (n : Nat) (skip : Option Bool) :
    paysOut [c.sendTokens a token n skip] t = if token = t then n else 0 := by
  unfold sendTokens
  split <;> simp [paysOut, Out.pays]

theorem internalMft_ledger {c c' : Contract} {tokenId : List Char} {s r : AccountId}
    {am : Option Nat} {n : Nat} (h : c.internalMftTransfer tokenId s r am = .ok (c', n))
    (t : AccountId) : c'.owed t = c.owed t := by
  obtain ⟨hne, ⟨id, -, h⟩ | ⟨u, -, h⟩⟩ := internalMftTransfer_inv h
  · obtain ⟨p, q, hq, -, -, -, -, hs, rfl⟩ := transferShares_inv h
    have e1 := atomsIn_set t q hq
    have e2 := (Pool.shareTransfer_only hs).atoms t
    simp only [owed]
    omega
  · obtain ⟨a, b, a', b', -, h1, h2, h3, h4, -, -, rfl⟩ := transferToken_inv h
    have h2' : (c.accounts.insert s a').get? r = some b := by
      rw [FMap.get?_insert, if_neg hne.symm]; exact h2
    have e1 := depIn_put (acc' := a') h1 t
    have e2 := depIn_put (acc' := b') h2' t
    have e3 := (Account.withdraw_ok h3).2.2.1 t
    have e4 := (Account.deposit_ok h4).2.1 t
    simp only [owed, ATOMS]
    omega

/-- A call other than the owner's `retrieve_unmanaged_token` does not create value: what the
exchange owes afterwards plus what it sends away is at most what it owed before plus what arrived
with the call. -/
theorem exec_ledger {c c' : Contract} {x : Ctx} {k : Call} {outs : List Out} {t : AccountId}
    (h : c.exec x k = .ok (c', outs)) (hk : ∀ n, k ≠ .retrieveUnmanaged t n)
    (hp : ∀ p ∈ c.pools, p.Sound) (hf : ∀ p ∈ c.pools, p.Fine t) :
    c'.owed t + ATOMS * paysOut outs t ≤ c.owed t + ATOMS * k.arrives x t := by
  have e0 : paysOut [] t = 0 := rfl
  have snd : ∀ {id : Nat} {p : Pool}, c.pools[id]? = some p → p.Sound :=
    fun h => hp _ (List.mem_of_getElem? h)
  cases k <;> simp only [exec] at h <;> simp only [Call.arrives]
  case addSimplePool =>
    obtain ⟨_, -, hn, h1, h⟩ := addSimplePool_inv h
    obtain ⟨q, _, hr, hx, rfl⟩ := addPool_inv h
    have e1 := (checkStorage_near hx).pays t
    have e2 := (Pool.shareRegister_only hr).1.atoms t
    have e3 := (Pool.new_simple_sound hn h1).2.2.2.2 t
    simp only [owed, atomsIn_append, e1]; omega
  case addCurvePool =>
    obtain ⟨_, -, hl, hn, h1, h⟩ := addCurvePool_inv h
    obtain ⟨q, _, hr, hx, rfl⟩ := addPool_inv h
    have e1 := (checkStorage_near hx).pays t
    have e2 := (Pool.shareRegister_only hr).1.atoms t
    have e3 := (Pool.new_curve_sound hl hn h1).2.2.2.2.2.2 t
    simp only [owed, atomsIn_append, e1]; omega
  case executeActions =>
    unpack at h; obtain ⟨_, _, h, rfl, rfl⟩ := h
    obtain ⟨_, acc', c1, -, -, h1, -, h2, -, rfl⟩ := executeActions_inv h
    obtain ⟨steps, hs, hf, -, hb, -⟩ := runActions_ok h2
    have e1 := hb t
    have e2 := (hs.ledger hp t).2
    have e3 := depIn_put (acc' := acc') h1 t
    simp only [owed, putAccount, hs.framed.accounts, hs.framed.lostfound, e0]
    simp only [ATOMS] at e2 ⊢; omega
  case executeInVa =>
    unpack at h; obtain ⟨_, _, h, rfl, rfl⟩ := h
    obtain ⟨_, _, _, _, acc', c1, _, -, -, h1, -, hu, h2, -, h3, -, rfl⟩ := executeInVa_inv h
    obtain ⟨steps, hs, hf, -, hb, -⟩ := runActions_ok h2
    have e1 := hb t
    obtain ⟨-, -, e2, e3, -⟩ := useTokens_ok hu
    have e2 := e2 t
    have e3 := e3 t
    have e4 := (Account.depositPairs_ok h3).2.1 t
    rw [Account.amountIn_positive] at e4
    have e5 : Account.new.bal t = 0 := rfl
    have e6 := (hs.ledger hp t).2
    have e7 := depIn_put (acc' := acc') h1 t
    simp only [owed, putAccount, hs.framed.accounts, hs.framed.lostfound, e0]
    simp only [ATOMS] at e6 ⊢; omega
  case addLiquidity =>
    unpack at h; obtain ⟨_, _, _, h, rfl, rfl⟩ := h
    obtain ⟨_, p, q, _, _, acc', _, -, -, hq, hn, ha, -, h1, h2, -, hx, rfl⟩ := addLiquidity_inv h
    have e1 := (checkStorage_near hx).pays t
    have hsh := (Pool.addLiquidity_shape ha).1
    have e2 := (Account.withdrawAll_ok h2).2.1 t
    rw [Pool.tokens_of_shape hsh] at e2
    have e3 := Pool.addLiquidity_atoms ha t
    have e4 := atomsIn_set t q hq
    have e5 := depIn_put (acc' := acc') h1 t
    simp only [owed, e1]
    simp only [ATOMS] at e3 ⊢; omega
  case addStableLiquidity =>
    unpack at h; obtain ⟨_, _, _, h, rfl, rfl⟩ := h
    obtain ⟨_, p, q, _, acc', _, -, -, hq, hn, ha, -, h1, h2, -, hx, rfl⟩ := addStableLiquidity_inv h
    have e1 := (checkStorage_near hx).pays t
    have hsh := (Pool.addStable_shape ha).1
    have e2 := (Account.withdrawAll_ok h2).2.1 t
    rw [Pool.tokens_of_shape hsh] at e2
    have e3 := Pool.addStable_atoms (snd hq) ha t
    have e4 := atomsIn_set t q hq
    have e5 := depIn_put (acc' := acc') h1 t
    simp only [owed, e1]
    simp only [ATOMS] at e3 ⊢; omega
  case removeLiquidity =>
    unpack at h; obtain ⟨_, _, h, rfl, rfl⟩ := h
    obtain ⟨_, p, q, _, acc', -, -, hq, h1, -, hn, ha, h2, -, rfl⟩ := removeLiquidity_inv h
    have hsh := (Pool.removeLiquidity_shape ha).1
    have e2 := (Account.depositAll_ok h2).2.1 t
    rw [Pool.tokens_of_shape hsh] at e2
    have e3 := Pool.removeLiquidity_atoms (snd hq) ha t
    have e4 := atomsIn_set t q hq
    have e5 := depIn_put (acc' := acc') h1 t
    simp only [owed, e0]
    simp only [ATOMS] at e3 ⊢; omega
  case removeByTokens =>
    unpack at h; obtain ⟨_, _, h, rfl, rfl⟩ := h
    obtain ⟨_, p, q, _, acc', -, -, hq, h1, -, hn, ha, h2, -, rfl⟩ := removeByTokens_inv h
    have hsh := (Pool.removeByTokens_shape ha).1
    have e2 := (Account.depositAll_ok h2).2.1 t
    rw [Pool.tokens_of_shape hsh] at e2
    have e3 := Pool.removeByTokens_atoms (snd hq) (hf p (List.mem_of_getElem? hq)) ha
    have e4 := atomsIn_set t q hq
    have e5 := depIn_put (acc' := acc') h1 t
    simp only [owed, e0]
    simp only [ATOMS] at e3 ⊢; omega
  case registerTokens =>
    unpack at h; obtain ⟨_, h, rfl, rfl⟩ := h
    obtain ⟨acc, -, -, h1, -, rfl⟩ := registerTokens_inv h
    have e1 := (Account.register_ok ‹_› acc).2.1 t
    have e2 := depIn_put (acc' := acc.register ‹_›) h1 t
    simp only [owed, putAccount, e0]
    simp only [ATOMS]; omega
  case unregisterTokens =>
    unpack at h; obtain ⟨_, h, rfl, rfl⟩ := h
    obtain ⟨_, acc', -, -, h1, h2, -, rfl⟩ := unregisterTokens_inv h
    have e1 := (Account.unregisterAll_ok h2).2.1 t
    have e2 := depIn_put (acc' := acc') h1 t
    simp only [owed, putAccount, e0]
    simp only [ATOMS]; omega
  case withdraw token amount unregister skip =>
    obtain ⟨_, _, acc', n, -, -, hn, h1, -, -, h2, h3, -, rfl, rfl⟩ := withdraw_inv h
    have e1 := (Account.withdraw_ok h2).2.2.1 t
    have e2 := (unregisterIf_ok h3).2.1 t
    have e3 := depIn_put (acc' := acc') h1 t
    simp only [owed, putAccount, sendTokens_pays]
    simp only [ATOMS]; omega
  case claimLostfound token =>
    obtain ⟨-, -, hn, -, rfl, rfl⟩ := claimLostfound_inv h
    have e1 := lostIn_erase c.lostfound x.pred token t
    have e2 : paysOut [.ft token x.pred (c.lostOf x.pred token)] t =
        if token = t then c.lostfound.getD (x.pred, token) 0 else 0 := by
      simp [paysOut, Out.pays, lostOf]
    simp only [owed, e2]
    simp only [ATOMS]; omega
  case ftOnTransfer sender amount msg =>
    obtain ⟨-, -, ⟨-, hn, hd, rfl⟩ | ⟨_, _, _, _, _, rfl, -⟩ | ⟨_, _, _, rfl, rfl, hz⟩⟩ :=
      ftOnTransfer_inv h
    · obtain ⟨acc, acc', h1, -, h2, -, rfl⟩ := deposit_inv hd
      have e1 := (Account.deposit_ok h2).2.1 t
      have e2 := depIn_put (acc' := acc') h1 t
      simp only [owed, putAccount, e0]
      simp only [ATOMS]; omega
    · obtain ⟨ha, hl, -, steps, prev, res, hs, -, hb⟩ := C30_instant_swap h
      have e1 := hb t
      have e2 := (hs.ledger hp t).2
      simp only [owed, ha, hl]
      simp only [ATOMS] at e2 ⊢; omega
    · obtain ⟨acc, ts, left, c1, zaps, c2, rest, acc', -, -, h1, hi, -, hn, h2, hza, hr, -,
        ⟨acc0, h3, -, -, h4⟩, -, rfl⟩ := hotZap_inv hz
      obtain ⟨steps, _, _, hs, -, -, hb, -⟩ := directActions_ok h2
      have hfr := hs.framed.trans hza.framed.1
      have e1 := (Account.depositPairs_ok h4).2.1 t
      rw [Account.bal_congr h3] at e1
      have e2 := hb t
      have e3 := hr t
      obtain ⟨hp1, e4⟩ := hs.ledger hp t
      have e5 := hza.ledger hp1 t
      have e6 := depIn_put (acc' := acc') h1 t
      simp only [owed, putAccount, hfr.accounts, hfr.lostfound, e0]
      simp only [ATOMS] at e4 e5 ⊢; omega
  case mftTransfer =>
    unpack at h; obtain ⟨_, h, rfl, rfl⟩ := h
    obtain ⟨-, -, _, h⟩ := mftTransfer_inv h
    rw [internalMft_ledger h t, e0]
  case mftTransferCall =>
    obtain ⟨-, -, _, hi, rfl⟩ := mftTransferCall_inv h
    rw [internalMft_ledger hi t]; exact Nat.le_refl _
  case mftRegister =>
    obtain ⟨_, p, q, _, -, -, hq, hr, hx, rfl⟩ := mftRegister_inv h
    have e1 := (checkStorage_near hx).pays t
    have e2 := (Pool.shareRegister_only hr).1.atoms t
    have e4 := atomsIn_set t q hq
    simp only [owed, e1]; omega
  case mftUnregister =>
    obtain ⟨_, p, q, -, -, -, hq, hr, rfl, rfl⟩ := mftUnregister_inv h
    have e1 := (storageRefund_near x x.pred).pays t
    have e2 := (Pool.shareUnregister_only hr).1.atoms t
    have e4 := atomsIn_set t q hq
    simp only [owed, e1]; omega
  case storageDeposit =>
    obtain ⟨-, hx, rfl | ⟨b, _, h⟩⟩ := storageDeposit_inv h
    · have e1 := hx.pays t
      rw [e1]
    · obtain ⟨acc', h1, -, -, -, rfl⟩ := registerAccount_inv h
      have e1 := hx.pays t
      have e2 := Account.bal_congr h1 t
      rw [accountOrNew_bal] at e2
      have e3 := depIn_insert c.accounts b t acc'
      simp only [owed, putAccount, e1]
      simp only [ATOMS]; omega
  case storageWithdraw =>
    obtain ⟨acc, n, -, -, h1, -, -, -, rfl, rfl⟩ := storageWithdraw_inv h
    have e1 := depIn_put (acc' := { acc with near := acc.near - n }) h1 t
    have e2 : ({ acc with near := acc.near - n } : Account).bal t = acc.bal t := rfl
    have e3 : paysOut [.near x.pred n] t = 0 := rfl
    simp only [owed, putAccount, e3]
    simp only [ATOMS]; omega
  case storageUnregister =>
    obtain ⟨-, -, ⟨-, rfl, rfl⟩ | ⟨acc, h1, h2, -, rfl, rfl⟩⟩ := storageUnregister_inv h
    · rw [e0]
    · have e1 := depIn_erase c.accounts x.pred t
      have e3 : paysOut [.near x.pred acc.near] t = 0 := rfl
      simp only [owed, e3]
      simp only [ATOMS]; omega
  case shadowAction =>
    obtain ⟨_, _, _, _, -, h1, -, -, -, -, -, ⟨-, rfl, rfl⟩ | ⟨-, acc', _, os, h2, -, hx, rfl, rfl⟩⟩ :=
      shadowAction_inv h
    · exact Nat.le_refl _
    · have ho := (checkStorage_near hx).pays t
      have ho : ∀ {o : Out} (_ : o.pays t = 0), paysOut (os ++ [o]) t = 0 := by
        intro o h
        rw [paysOut_append, ho]
        simp [paysOut, h]
      rw [ho rfl]
      have e1 := Account.bal_congr (Account.updateShadow_ok h2).2.1 t
      have e2 := depIn_put (acc' := acc') h1 t
      simp only [owed, putAccount]
      simp only [ATOMS]; omega
  case onBurrowLiquidation =>
    obtain ⟨_, p, q, _, acc, acc1, _, acc2, acc3, liq, liq', -, -, -, hq, hn, h1, h2, -, h3, h4, -, h5,
      ha, h6, -, rfl, rfl⟩ := onBurrowLiquidation_inv h
    have hsh := (Pool.removeLiquidity_shape ha).1
    have e1 := (Account.depositAll_ok h6).2.1 t
    rw [Pool.tokens_of_shape hsh] at e1
    have e2 : acc3.tokens = acc.tokens := by
      rw [(creditStorage_ok h4).1, (releaseSeed_ok h3).2.1, (Account.updateShadow_ok h2).2.1]
    have e2 := Account.bal_congr e2 t
    have ho : ∀ {n : Nat} {o : Out} (_ : o.pays t = 0), paysOut (if n > 0 then [o] else []) t = 0 := by
      intro n o h
      split
      · simp [paysOut, h]
      · rfl
    rw [ho rfl]
    have e3 := Pool.removeLiquidity_atoms (snd hq) ha t
    have e4 := atomsIn_set t q hq
    have e5 := depIn_put (acc' := acc3) h1 t
    have e6 := depIn_put (acc' := liq') h5 t
    simp only [owed]
    simp only [ATOMS] at e3 ⊢; omega
  case donationShare =>
    obtain ⟨p, _, q, q', -, -, hq, -, -, hs, hu, hx, hc⟩ := donationShare_inv h
    have e1 := hx.pays t
    have e2 : q'.atoms t = p.atoms t := by
      rcases hu with ⟨rfl, -⟩ | ⟨-, hu⟩
      · exact (Pool.shareTransfer_only hs).atoms t
      · exact ((Pool.shareUnregister_only hu).1.atoms t).trans ((Pool.shareTransfer_only hs).atoms t)
    have e3 := atomsIn_set t q' hq
    rcases hc with rfl | ⟨_, acc', h1, h2, -, rfl⟩
    · simp only [owed, e1]; omega
    · have e4 := Account.bal_congr (creditStorage_ok h2).1 t
      have e5 := depIn_put (acc' := acc') h1 t
      simp only [owed, e1]
      simp only [ATOMS]; omega
  case donationToken =>
    unpack at h; obtain ⟨_, h, rfl, rfl⟩ := h
    obtain ⟨_, _, _, acc', _, own', -, -, h0, -, -, h1, h2, -, h3, h4, rfl⟩ := donationToken_inv h
    have e1 := (Account.withdraw_ok h1).2.2.1 t
    have e2 := (unregisterIf_ok h2).2.1 t
    have e3 := (Account.deposit_ok h4).2.1 t
    have e4 := depIn_put (acc' := acc') h0 t
    have e5 := depIn_put (acc' := own') h3 t
    simp only [owed, e0]
    simp only [ATOMS]; omega
  case setting s =>
    unpack at h; obtain ⟨_, h, rfl, rfl⟩ := h
    obtain ⟨g, h2, rfl⟩ := setting_inv h
    exact Nat.le_refl _
  case retrieveUnmanaged token n =>
    unpack at h; obtain ⟨_, h, rfl, rfl⟩ := h
    obtain ⟨-, -, -, rfl⟩ := retrieveUnmanaged_inv h
    have : token ≠ t := by rintro rfl; exact hk n rfl
    have e1 : paysOut [.ftPlain token c.cfg.owner n] t = 0 := by simp [paysOut, Out.pays, this]
    rw [e1]
  case modifyTotalFee _ fee =>
    unpack at h; obtain ⟨_, h, rfl, rfl⟩ := h
    obtain ⟨p, -, -, -, hq, rfl⟩ := modifyTotalFee_inv h
    obtain ⟨g1, -, -, g2, -⟩ := Pool.setFee_facts p fee
    have e1 : (p.setFee fee).atoms t = p.atoms t := by
      unfold Pool.atoms; rw [Pool.tokens_of_shape g1, g2]
    have e2 := atomsIn_set t (p.setFee fee) hq
    simp only [owed, e0]; omega
  case removeExchangeFee =>
    unpack at h; obtain ⟨_, h, rfl, rfl⟩ := h
    obtain ⟨p, q, _, _, own', -, -, -, hq, ha, h1, h2, -, rfl⟩ := removeExchangeFee_inv h
    have hsh := (Pool.removeLiquidity_shape ha).1
    have e2 := (Account.depositAll_ok h2).2.1 t
    rw [Pool.tokens_of_shape hsh] at e2
    have e3 := Pool.removeLiquidity_atoms (snd hq) ha t
    have e4 := atomsIn_set t q hq
    have e5 := depIn_put (acc' := own') h1 t
    simp only [owed, e0]
    simp only [ATOMS] at e3 ⊢; omega
  case withdrawOwnerToken =>
    obtain ⟨_, own', -, -, -, -, h1, h2, rfl, rfl⟩ := withdrawOwnerToken_inv h
    have e1 := (Account.withdraw_ok h2).2.2.1 t
    have e3 := depIn_put (acc' := own') h1 t
    simp only [owed, sendTokens_pays]
    simp only [ATOMS]; omega
  case rampAmp =>
    unpack at h; obtain ⟨_, h, rfl, rfl⟩ := h
    obtain ⟨p, q, -, -, hq, hr, rfl⟩ := rampAmp_inv h
    have e1 := (Pool.ramp_only hr).atoms t
    have e2 := atomsIn_set t q hq
    simp only [owed, e0]; omega
  case stopRampAmp =>
    unpack at h; obtain ⟨_, h, rfl, rfl⟩ := h
    obtain ⟨p, q, -, -, hq, hr, rfl⟩ := stopRampAmp_inv h
    have e1 := (Pool.stopRamp_only hr).atoms t
    have e2 := atomsIn_set t q hq
    simp only [owed, e0]; omega
  case registerTwap =>
    unpack at h; obtain ⟨_, h, rfl, rfl⟩ := h
    obtain ⟨-, -, _, rfl⟩ := registerTwap_inv h
    exact Nat.le_refl _
  case unregisterTwap =>
    unpack at h; obtain ⟨_, h, rfl, rfl⟩ := h
    obtain ⟨-, -, _, rfl⟩ := unregisterTwap_inv h
    exact Nat.le_refl _
  case syncTwap =>
    unpack at h; obtain ⟨_, h, rfl, rfl⟩ := h
    obtain ⟨-, _, rfl⟩ := syncTwap_inv h
    exact Nat.le_refl _

/-! ### Callbacks -/

theorem handleFail_ledger {c c' : Contract} {x : Ctx} {a u : AccountId} {n : Nat}
    (h : c.handleFail x a u n = .ok c') (t : AccountId) :
    c'.owed t = c.owed t + ATOMS * (if u = t then n else 0) := by
  rcases handleFail_inv h with ⟨acc, acc', h1, h2, rfl⟩ | rfl | ⟨acc', h2, rfl⟩
  · have e1 := (Account.depositChecked_some h2).2 t
    have e2 := depIn_put (acc' := acc') h1 t
    simp only [owed, putAccount]
    simp only [ATOMS]; omega
  · have e1 := lostIn_insert c.lostfound a u t (c.lostOf a u + n)
    simp only [owed, lostOf] at e1 ⊢
    simp only [ATOMS]
    split at e1 <;> split <;> first | omega | contradiction
  · have e1 := (Account.deposit_ok h2).2.1 t
    rw [accountOrNew_bal] at e1
    have e2 := depIn_insert c.accounts c.cfg.owner t acc'
    simp only [owed, putAccount]
    simp only [ATOMS]; omega

/-- What the callback of a promise books of token `t`. -/
def books (c : Contract) (t : AccountId) : Out → Outcome → Nat
  | .ft u _ n, .failure | .ftCall u _ n, .failure => if u = t then n else 0
  | .unwrap _ _ n, .failure => if c.cfg.wnear = some t then n else 0
  | _, _ => 0

/-- A callback books the amount of a failed transfer and otherwise does not change what the exchange
owes. It sends no tokens. -/
theorem callback_ledger {c c' : Contract} {x : Ctx} {out : Out} {o : Outcome} {outs : List Out}
    (h : c.callback x out o = .ok (c', outs)) (t : AccountId) :
    c'.owed t = c.owed t + ATOMS * c.books t out o ∧ nearOnly outs := by
  have nil : nearOnly [] := fun o h => by cases h
  cases out <;> simp only [callback] at h
  case ft u a n =>
    cases o <;> simp only [] at h
    · cases h; exact ⟨rfl, nil⟩
    · unpack at h; obtain ⟨_, h, rfl, rfl⟩ := h
      exact ⟨handleFail_ledger h t, nil⟩
  case ftCall =>
    cases o <;> simp only [] at h
    · cases h; exact ⟨rfl, nil⟩
    · unpack at h; obtain ⟨_, h, rfl, rfl⟩ := h
      exact ⟨handleFail_ledger h t, nil⟩
  case unwrap _ a n =>
    cases o <;> simp only [] at h
    · cases h
      exact ⟨rfl, fun o h => ⟨a, n, by simpa using h⟩⟩
    · unpack at h; obtain ⟨w, hw, _, h, rfl, rfl⟩ := h
      refine ⟨?_, nil⟩
      rw [handleFail_ledger h t]
      simp only [books, hw, Option.some.injEq]
  case mftCall =>
    unpack at h; obtain ⟨_, _, h, rfl, rfl⟩ := h
    refine ⟨?_, nil⟩
    obtain ⟨-, rfl | ⟨_, _, -, -, -, h⟩⟩ := mftResolve_inv h
    · simp [books]
    · rw [internalMft_ledger h t]; simp [books]
  case shadow =>
    obtain ⟨hn, hc⟩ := callbackOnShadow_inv h
    refine ⟨?_, hn⟩
    simp only [books, Nat.mul_zero, Nat.add_zero]
    rcases hc with rfl | ⟨acc, h1, rfl | ⟨acc1, acc', h2, h3, -, -, rfl⟩⟩
    · rfl
    · have e1 := depIn_put (acc' := acc) h1 t
      simp only [owed, putAccount]
      simp only [ATOMS]; omega
    · have e1 := Account.bal_congr (Account.updateShadow_ok h2).2.1 t
      have e2 : acc'.bal t = acc1.bal t := by
        rcases h3 with rfl | h3
        · rfl
        · exact Account.bal_congr (creditStorage_ok h3).1 t
      have e3 := depIn_put (acc' := acc') h1 t
      simp only [owed, putAccount]
      simp only [ATOMS]; omega
  all_goals (cases h; exact ⟨by simp [books], nil⟩)

end Contract

end Verif

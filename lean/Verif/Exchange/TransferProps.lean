import Verif.Exchange.SwapProps

/-
Properties of outgoing transfers that fail and of transfers between accounts of the exchange:
C13 (what a callback credits), C27 (share transfers), C28 (lost and found), C29 (accepted tokens).
-/

namespace Verif

open Demo

namespace Contract

/-! ### C28: lost and found -/

/-- No call but a claim changes lost-and-found. -/
theorem exec_lostfound {c c' : Contract} {x : Ctx} {k : Call} {outs : List Out}
    (h : c.exec x k = .ok (c', outs)) :
    c'.lostfound = c.lostfound ∨
    ∃ t, k = .claimLostfound t ∧ 0 < c.lostOf x.pred t ∧
      c' = { c with lostfound := c.lostfound.erase (x.pred, t) } ∧
      outs = [.ft t x.pred (c.lostOf x.pred t)] := by
  cases k <;> simp only [exec] at h
  case addSimplePool =>
    obtain ⟨_, -, -, -, h⟩ := addSimplePool_inv h
    obtain ⟨_, _, -, -, rfl⟩ := addPool_inv h; exact .inl rfl
  case addCurvePool =>
    obtain ⟨_, -, -, -, -, h⟩ := addCurvePool_inv h
    obtain ⟨_, _, -, -, rfl⟩ := addPool_inv h; exact .inl rfl
  case executeActions =>
    unpack at h; obtain ⟨_, _, h, rfl, -⟩ := h
    obtain ⟨_, _, c1, -, -, -, -, h2, -, rfl⟩ := executeActions_inv h
    obtain ⟨_, hs, -⟩ := runActions_ok h2
    exact .inl hs.framed.lostfound
  case executeInVa =>
    unpack at h; obtain ⟨_, _, h, rfl, -⟩ := h
    obtain ⟨_, _, _, _, _, c1, _, -, -, -, -, -, h2, -, -, -, rfl⟩ := executeInVa_inv h
    obtain ⟨_, hs, -⟩ := runActions_ok h2
    exact .inl hs.framed.lostfound
  case addLiquidity =>
    unpack at h; obtain ⟨_, _, _, h, rfl, -⟩ := h
    obtain ⟨_, _, _, _, _, _, _, -, -, -, -, -, -, -, -, -, -, rfl⟩ := addLiquidity_inv h
    exact .inl rfl
  case addStableLiquidity =>
    unpack at h; obtain ⟨_, _, _, h, rfl, -⟩ := h
    obtain ⟨_, _, _, _, _, _, -, -, -, -, -, -, -, -, -, -, rfl⟩ := addStableLiquidity_inv h
    exact .inl rfl
  case removeLiquidity =>
    unpack at h; obtain ⟨_, _, h, rfl, -⟩ := h
    obtain ⟨_, _, _, _, _, -, -, -, -, -, -, -, -, -, rfl⟩ := removeLiquidity_inv h
    exact .inl rfl
  case removeByTokens =>
    unpack at h; obtain ⟨_, _, h, rfl, -⟩ := h
    obtain ⟨_, _, _, _, _, -, -, -, -, -, -, -, -, -, rfl⟩ := removeByTokens_inv h
    exact .inl rfl
  case registerTokens =>
    unpack at h; obtain ⟨_, h, rfl, -⟩ := h
    obtain ⟨_, -, -, -, -, rfl⟩ := registerTokens_inv h; exact .inl rfl
  case unregisterTokens =>
    unpack at h; obtain ⟨_, h, rfl, -⟩ := h
    obtain ⟨_, _, -, -, -, -, -, rfl⟩ := unregisterTokens_inv h; exact .inl rfl
  case withdraw =>
    obtain ⟨_, _, _, _, -, -, -, -, -, -, -, -, -, rfl, -⟩ := withdraw_inv h
    exact .inl rfl
  case claimLostfound t =>
    obtain ⟨-, -, -, h1, rfl, h2⟩ := claimLostfound_inv h; exact .inr ⟨t, rfl, h1, rfl, h2⟩
  case ftOnTransfer =>
    obtain ⟨-, -, ⟨-, -, h, -⟩ | ⟨_, _, _, _, _, -, h⟩ | ⟨_, _, _, -, -, h⟩⟩ := ftOnTransfer_inv h
    · obtain ⟨_, _, -, -, -, -, rfl⟩ := deposit_inv h; exact .inl rfl
    · obtain ⟨_, -, -, -, h, -⟩ := instantSwap_inv h
      obtain ⟨_, _, _, hs, -⟩ := directActions_ok h
      exact .inl hs.framed.lostfound
    · obtain ⟨_, _, _, _, _, _, _, _, -, -, -, -, -, -, h2, hz, -, -, -, -, rfl⟩ := hotZap_inv h
      obtain ⟨_, _, _, hs, -⟩ := directActions_ok h2
      have := hs.framed.trans hz.framed.1
      exact .inl this.lostfound
  case mftTransfer =>
    unpack at h; obtain ⟨_, h, rfl, -⟩ := h
    obtain ⟨-, -, _, h⟩ := mftTransfer_inv h
    have := internalMftTransfer_same h; exact .inl this.2.2.1
  case mftTransferCall =>
    obtain ⟨-, -, _, h, -⟩ := mftTransferCall_inv h
    have := internalMftTransfer_same h; exact .inl this.2.2.1
  case mftRegister =>
    obtain ⟨_, _, _, _, -, -, -, -, -, rfl⟩ := mftRegister_inv h; exact .inl rfl
  case mftUnregister =>
    obtain ⟨_, _, _, -, -, -, -, -, -, rfl⟩ := mftUnregister_inv h; exact .inl rfl
  case storageDeposit =>
    obtain ⟨-, -, rfl | ⟨_, _, h⟩⟩ := storageDeposit_inv h
    · exact .inl rfl
    · obtain ⟨_, -, -, -, -, rfl⟩ := registerAccount_inv h; exact .inl rfl
  case storageWithdraw =>
    obtain ⟨_, _, -, -, -, -, -, -, -, rfl⟩ := storageWithdraw_inv h; exact .inl rfl
  case storageUnregister =>
    obtain ⟨-, -, ⟨-, rfl, -⟩ | ⟨_, -, -, -, rfl, -⟩⟩ := storageUnregister_inv h <;>
      exact .inl rfl
  case shadowAction =>
    obtain ⟨_, _, _, _, -, -, -, -, -, -, -, ⟨-, rfl, -⟩ | ⟨-, _, _, _, -, -, -, rfl, -⟩⟩ :=
      shadowAction_inv h <;> exact .inl rfl
  case onBurrowLiquidation =>
    obtain ⟨_, _, _, _, _, _, _, _, _, _, _, -, -, -, -, -, -, -, -, -, -, -, -, -, -, -, rfl, -⟩ :=
      onBurrowLiquidation_inv h
    exact .inl rfl
  case donationShare =>
    obtain ⟨_, _, _, _, -, -, -, -, -, -, -, -, rfl | ⟨_, _, -, -, -, rfl⟩⟩ := donationShare_inv h <;>
      exact .inl rfl
  case donationToken =>
    unpack at h; obtain ⟨_, h, rfl, -⟩ := h
    obtain ⟨_, _, _, _, _, _, -, -, -, -, -, -, -, -, -, -, rfl⟩ := donationToken_inv h
    exact .inl rfl
  case setting s =>
    unpack at h; obtain ⟨_, h, rfl, -⟩ := h
    obtain ⟨g, h2, rfl⟩ := setting_inv h
    exact .inl rfl
  case retrieveUnmanaged =>
    unpack at h; obtain ⟨_, h, rfl, -⟩ := h; exact .inl rfl
  case modifyTotalFee =>
    unpack at h; obtain ⟨_, h, rfl, -⟩ := h
    obtain ⟨_, -, -, -, -, rfl⟩ := modifyTotalFee_inv h; exact .inl rfl
  case removeExchangeFee =>
    unpack at h; obtain ⟨_, h, rfl, -⟩ := h
    obtain ⟨_, _, _, _, _, -, -, -, -, -, -, -, -, rfl⟩ := removeExchangeFee_inv h
    exact .inl rfl
  case withdrawOwnerToken =>
    obtain ⟨_, _, -, -, -, -, -, -, rfl, -⟩ := withdrawOwnerToken_inv h; exact .inl rfl
  case rampAmp =>
    unpack at h; obtain ⟨_, h, rfl, -⟩ := h
    obtain ⟨_, _, -, -, -, -, rfl⟩ := rampAmp_inv h; exact .inl rfl
  case stopRampAmp =>
    unpack at h; obtain ⟨_, h, rfl, -⟩ := h
    obtain ⟨_, _, -, -, -, -, rfl⟩ := stopRampAmp_inv h; exact .inl rfl
  case registerTwap =>
    unpack at h; obtain ⟨_, h, rfl, -⟩ := h
    obtain ⟨-, -, _, rfl⟩ := registerTwap_inv h; exact .inl rfl
  case unregisterTwap =>
    unpack at h; obtain ⟨_, h, rfl, -⟩ := h
    obtain ⟨-, -, _, rfl⟩ := unregisterTwap_inv h; exact .inl rfl
  case syncTwap =>
    unpack at h; obtain ⟨_, h, rfl, -⟩ := h
    obtain ⟨-, _, rfl⟩ := syncTwap_inv h; exact .inl rfl

theorem lostOf_insert (c : Contract) (a t b u : AccountId) (n : Nat) :
    ({ c with lostfound := c.lostfound.insert (a, t) n } : Contract).lostOf b u =
      if b = a ∧ u = t then n else c.lostOf b u := by
  unfold lostOf FMap.getD
  rw [FMap.get?_insert]
  by_cases h : b = a ∧ u = t
  · simp [h]
  · simp [h, Prod.mk.injEq]

theorem lostOf_erase (c : Contract) (a t b u : AccountId) :
    ({ c with lostfound := c.lostfound.erase (a, t) } : Contract).lostOf b u =
      if b = a ∧ u = t then 0 else c.lostOf b u := by
  unfold lostOf FMap.getD
  rw [FMap.get?_erase]
  by_cases h : b = a ∧ u = t
  · simp [h]
  · simp [h, Prod.mk.injEq]

/-- The three ways a failed transfer is booked, as a change of deposits and lost-and-found. -/
inductive Credited (c c' : Contract) (a t : AccountId) (n : Nat) : Prop where
  /-- The deposit of the user. -/
  | user (hd : ∀ b u, c'.depositOf b u = c.depositOf b u + if b = a ∧ u = t then n else 0)
      (hl : ∀ b u, c'.lostOf b u = c.lostOf b u)
  /-- The user's lost-and-found entry. -/
  | lost (hd : ∀ b u, c'.depositOf b u = c.depositOf b u)
      (hl : ∀ b u, c'.lostOf b u = c.lostOf b u + if b = a ∧ u = t then n else 0)
  /-- The deposit of the owner. -/
  | owner (hd : ∀ b u, c'.depositOf b u = c.depositOf b u + if b = c.cfg.owner ∧ u = t then n else 0)
      (hl : ∀ b u, c'.lostOf b u = c.lostOf b u)

theorem handleFail_credited {c c' : Contract} {x : Ctx} {a t : AccountId} {n : Nat}
    (h : c.handleFail x a t n = .ok c') : Credited c c' a t n := by
  rcases handleFail_inv h with ⟨acc, acc', h1, h2, rfl⟩ | rfl | ⟨acc', h2, rfl⟩
  · refine .user (fun b u => ?_) (fun _ _ => rfl)
    simp only [depositOf_eq, putAccount, balIn_insert]
    have := (Account.depositChecked_some h2).2 u
    by_cases hb : b = a
    · subst hb
      rw [if_pos rfl, balIn_some h1, this]
      by_cases hu : t = u <;> simp [hu, eq_comm]
    · simp [hb]
  · refine .lost (fun _ _ => rfl) (fun b u => ?_)
    rw [lostOf_insert]
    by_cases hb : b = a ∧ u = t
    · obtain ⟨rfl, rfl⟩ := hb; simp
    · simp [hb]
  · refine .owner (fun b u => ?_) (fun _ _ => rfl)
    simp only [depositOf_eq, putAccount, balIn_insert]
    have := (Account.deposit_ok h2).2.1 u
    rw [accountOrNew_bal] at this
    by_cases hb : b = c.cfg.owner
    · subst hb
      rw [if_pos rfl, this]
      by_cases hu : t = u <;> simp [hu, eq_comm]
    · simp [hb]

/-- The token transfer a promise stands for, as its callback books it. The callback of an unwrapped
transfer books the token that is configured as wrapped NEAR when it runs. -/
def refundOf (c : Contract) : Out → Option (AccountId × AccountId × Nat)
  | .ft t a n | .ftCall t a n => some (t, a, n)
  | .unwrap _ a n => c.cfg.wnear.map fun w => (w, a, n)
  | _ => none

/-- C13: in whatever state the callback of an outgoing token transfer runs, a failed transfer is
credited in full exactly once, to the user's deposit, to the user's lost-and-found entry or to the
owner's deposit, and nothing else changes. -/
theorem C13_failed_transfer {c c' : Contract} {x : Ctx} {out : Out} {outs : List Out}
    {t a : AccountId} {n : Nat} (ho : c.refundOf out = some (t, a, n))
    (h : c.callback x out .failure = .ok (c', outs)) :
    Credited c c' a t n ∧ outs = [] ∧ c'.pools = c.pools ∧ c'.cfg = c.cfg := by
  cases out <;> simp only [refundOf] at ho
  case ft =>
    cases ho
    simp only [callback] at h; unpack at h; obtain ⟨_, h, rfl, rfl⟩ := h
    have := handleFail_same h
    exact ⟨handleFail_credited h, rfl, this.2.2.1, this.1⟩
  case ftCall =>
    cases ho
    simp only [callback] at h; unpack at h; obtain ⟨_, h, rfl, rfl⟩ := h
    have := handleFail_same h
    exact ⟨handleFail_credited h, rfl, this.2.2.1, this.1⟩
  case unwrap =>
    simp only [callback] at h; unpack at h; obtain ⟨_, hw, _, h, rfl, rfl⟩ := h
    rw [hw] at ho
    cases ho
    have := handleFail_same h
    exact ⟨handleFail_credited h, rfl, this.2.2.1, this.1⟩
  all_goals cases ho

/-- C13: a transfer that succeeded is not credited. -/
theorem C13_successful_transfer {c c' : Contract} {x : Ctx} {out : Out} {outs : List Out}
    {v : Option Nat} (ho : out.receiver.isSome = true)
    (h : c.callback x out (.success v) = .ok (c', outs)) : c' = c := by
  cases out <;> simp only [Out.receiver] at ho <;> try cases ho
  all_goals (simp only [callback] at h; cases h; rfl)

/-- C28: a lost-and-found balance falls only when its account claims it; the claim pays out exactly
the recorded amount to that account and leaves nothing. -/
theorem C28_lost_safe {c c' : Contract} {e : Event} {outs : List Out}
    (h : c.apply e = .ok (c', outs)) (a t : AccountId) :
    c.lostOf a t ≤ c'.lostOf a t ∨
    ∃ x, e = .call x (.claimLostfound t) ∧ x.pred = a ∧ c'.lostOf a t = 0 ∧
      outs = [.ft t a (c.lostOf a t)] := by
  cases e <;> simp only [apply] at h
  case call x k =>
    rcases exec_lostfound h with h | ⟨u, rfl, hp, rfl, ho⟩
    · left; rw [lostOf, lostOf, h]
    · by_cases hu : a = x.pred ∧ t = u
      · obtain ⟨rfl, rfl⟩ := hu
        right
        refine ⟨x, rfl, rfl, ?_, ho⟩
        rw [lostOf_erase]; simp
      · left; rw [lostOf_erase, if_neg hu]
  case callback x out o =>
    left
    cases out <;> simp only [callback] at h
    case ft =>
      cases o <;> simp only [] at h
      · cases h; exact Nat.le_refl _
      · unpack at h; obtain ⟨_, h, rfl, -⟩ := h
        cases handleFail_credited h with
        | user hd hl => rw [hl]
        | lost hd hl => rw [hl]; exact Nat.le_add_right _ _
        | owner hd hl => rw [hl]
    case ftCall =>
      cases o <;> simp only [] at h
      · cases h; exact Nat.le_refl _
      · unpack at h; obtain ⟨_, h, rfl, -⟩ := h
        cases handleFail_credited h with
        | user hd hl => rw [hl]
        | lost hd hl => rw [hl]; exact Nat.le_add_right _ _
        | owner hd hl => rw [hl]
    case unwrap =>
      cases o <;> simp only [] at h
      · cases h; exact Nat.le_refl _
      · unpack at h; obtain ⟨_, -, _, h, rfl, -⟩ := h
        cases handleFail_credited h with
        | user hd hl => rw [hl]
        | lost hd hl => rw [hl]; exact Nat.le_add_right _ _
        | owner hd hl => rw [hl]
    case mftCall =>
      unpack at h; obtain ⟨_, _, h, rfl, -⟩ := h
      obtain ⟨-, rfl | ⟨_, _, -, -, -, h⟩⟩ := mftResolve_inv h
      · exact Nat.le_refl _
      · have := internalMftTransfer_same h
        rw [lostOf, lostOf, this.2.2.1]
    case shadow =>
      obtain ⟨-, rfl | ⟨_, -, rfl | ⟨_, _, -, -, -, -, rfl⟩⟩⟩ := callbackOnShadow_inv h <;>
        exact Nat.le_refl _
    all_goals (cases h; exact Nat.le_refl _)
  case rate u r time =>
    left; cases h; unfold setRate; split <;> exact Nat.le_refl _
  case price u p time =>
    left; cases h; unfold setDegenPrice; split <;> exact Nat.le_refl _

/-- C28: while the contract runs and the token is not frozen, a recorded balance can be claimed, in
full, by its account. -/
theorem C28_claim_succeeds {c : Contract} {x : Ctx} {t : AccountId} (hx : x.deposit = 1)
    (hr : c.cfg.running = true) (hf : t ∉ c.cfg.frozen) (hp : 0 < c.lostOf x.pred t) :
    ∃ c', c.exec x (.claimLostfound t) = .ok (c', [.ft t x.pred (c.lostOf x.pred t)]) ∧
      c'.lostOf x.pred t = 0 ∧
      (∀ a u, (a, u) ≠ (x.pred, t) → c'.lostOf a u = c.lostOf a u) ∧
      (∀ a u, c'.depositOf a u = c.depositOf a u) ∧ c'.pools = c.pools := by
  refine ⟨{ c with lostfound := c.lostfound.erase (x.pred, t) }, ?_, ?_, ?_, fun _ _ => rfl, rfl⟩
  · simp only [lostOf] at hp
    simp [exec, claimLostfound, Ctx.oneYocto, Config.assertRunning, Config.assertNoFrozen, assertE,
      hx, hr, hf, hp, bind, Except.bind, sendTokens, lostOf]
  · rw [lostOf_erase]; simp
  · intro a u hne
    rw [lostOf_erase, if_neg]
    rintro ⟨rfl, rfl⟩; exact hne rfl

/-- C28: what has been claimed cannot be claimed again. -/
theorem C28_claim_once {c c' : Contract} {x x' : Ctx} {t : AccountId} {outs : List Out}
    (h : c.exec x (.claimLostfound t) = .ok (c', outs)) (hx : x'.pred = x.pred) :
    ∃ err, c'.exec x' (.claimLostfound t) = .error err := by
  cases h2 : c'.exec x' (.claimLostfound t) with
  | error err => exact ⟨err, rfl⟩
  | ok r =>
    obtain ⟨c2, outs2⟩ := r
    obtain ⟨-, -, -, hp, -⟩ := claimLostfound_inv h2
    obtain ⟨-, -, -, -, rfl, -⟩ := claimLostfound_inv h
    rw [hx, lostOf_erase] at hp
    simp at hp

/-- Bob's account is closed when his withdrawal fails: the amount waits in lost-and-found, he claims
it once, and a second claim is refused. -/
example :
    (c1.callback (by' ex) (.ft A "ghost".toList 50) .failure).holds (fun r =>
      r.1.lostOf "ghost".toList A = 50 ∧
      (r.1.exec (y "ghost".toList) (.claimLostfound A)).holds (fun s =>
        s.1.lostOf "ghost".toList A = 0 ∧ paysOut s.2 A = 50 ∧
        (s.1.exec (y "ghost".toList) (.claimLostfound A)).holds (fun _ => true) = false)) = true ∧
    (c1.callback (by' ex) (.ft A bo 50) .failure).holds (fun r => r.1.depositOf bo A = 5050) = true ∧
    (c1.callback { by' ex with nearBalance := 10 ^ 26 } (.ft A "ghost".toList 50) .failure).holds
      (fun r => r.1.depositOf own A = 50) = true := by
  decide +kernel

/-! ### C27: transfers of shares and tokens between accounts -/

/-- The view `mft_balance_of`: what `a` holds of a token or of the shares of a pool. -/
def holding (c : Contract) (a : AccountId) : TokenOrPool → Nat
  | .token t => c.depositOf a t
  | .pool id => c.sharesOf id a

/-- Exactly `n` of `w` goes from `s` to `r`; no other holding, no total supply of shares, no pledge
and no lost-and-found entry changes. -/
structure Moves (c c' : Contract) (w : TokenOrPool) (s r : AccountId) (n : Nat) : Prop where
  ne : s ≠ r
  enough : n ≤ c.holding s w
  holdings : ∀ a v, c'.holding a v + (if a = s ∧ v = w then n else 0) =
    c.holding a v + if a = r ∧ v = w then n else 0
  supply : c'.pools.map Pool.supply = c.pools.map Pool.supply
  pledges : ∀ a id, c'.pledgedOf a id = c.pledgedOf a id
  lost : c'.lostfound = c.lostfound

theorem map_set_same {f : Pool → Nat} {l : List Pool} {id : Nat} {p q : Pool}
    (hp : l[id]? = some p) (h : f q = f p) : (l.set id q).map f = l.map f := by
  apply List.ext_getElem?
  intro j
  rw [List.getElem?_map, List.getElem?_map, getElem?_set_some hp]
  by_cases hj : j = id
  · subst hj; simp [hp, h]
  · simp [hj]

theorem internalMftTransfer_moves {c c' : Contract} {tokenId : List Char} {s r : AccountId}
    {amount : Option Nat} {n : Nat}
    (h : c.internalMftTransfer tokenId s r amount = .ok (c', n)) :
    Moves c c' (parseTokenId tokenId) s r n ∧ (∀ m, amount = some m → n = m) := by
  obtain ⟨hne, ⟨id, hid, h⟩ | ⟨t, ht, h⟩⟩ := internalMftTransfer_inv h
  · obtain ⟨p, q, hp, -, -, hm, -, hq, rfl⟩ := transferShares_inv h
    obtain ⟨hn, hall, -⟩ := Pool.shareTransfer_shares hq
    refine ⟨⟨hne, ?_, ?_, ?_, fun _ _ => rfl, rfl⟩, hm⟩
    · rw [hid]; simp only [holding, sharesOf_eq, sharesIn_some hp]; exact hn
    · intro a v
      rw [hid]
      cases v with
      | token u => simp [holding, depositOf]
      | pool j =>
        simp only [holding, sharesOf_eq, sharesIn_set hp, TokenOrPool.pool.injEq]
        by_cases hj : j = id
        · subst hj
          simp only [if_true, and_true, sharesIn_some hp]; exact hall a
        · simp [hj]
    · exact map_set_same hp (Pool.shareTransfer_only hq).supply
  · obtain ⟨s1, r1, s', r', hm, h1, h2, h3, h4, -, -, rfl⟩ := transferToken_inv h
    obtain ⟨g1, hn, e1, -⟩ := Account.withdraw_ok h3
    obtain ⟨g2, e2, -⟩ := Account.deposit_ok h4
    refine ⟨⟨hne, ?_, ?_, rfl, ?_, rfl⟩, ?_⟩
    · rw [ht]; simp only [holding, depositOf_eq, balIn_some h1]; exact hn
    · intro a v
      rw [ht]
      cases v with
      | pool j => simp [holding, sharesOf]
      | token u =>
        simp only [holding, depositOf_eq, balIn_insert, TokenOrPool.token.injEq]
        have k1 := e1 u; have k2 := e2 u
        by_cases ha : a = r
        · subst ha
          rw [if_pos rfl, balIn_some h2, k2]
          simp [Ne.symm hne, eq_comm]
        · by_cases hb : a = s
          · subst hb
            rw [if_neg ha, if_pos rfl, balIn_some h1]
            simp only [true_and, ha, false_and, if_false, Nat.add_zero]
            rw [← k1]; simp [eq_comm]
          · simp [ha, hb]
    · intro a id
      simp only [pledgedOf_eq, pledgeIn_insert]
      by_cases ha : a = r
      · subst ha; rw [if_pos rfl, pledgeIn_some h2, g2.pledged]
      · by_cases hb : a = s
        · subst hb; rw [if_neg ha, if_pos rfl, pledgeIn_some h1, g1.pledged]
        · simp [ha, hb]
    · intro m hm'
      rw [hm] at hm'; injection hm'

/-- C27: `mft_transfer` moves exactly the given amount from the caller to the receiver. -/
theorem C27_transfer {c c' : Contract} {x : Ctx} {tokenId : List Char} {receiver : AccountId}
    {amount : Nat} {outs : List Out}
    (h : c.exec x (.mftTransfer tokenId receiver amount) = .ok (c', outs)) :
    outs = [] ∧ Moves c c' (parseTokenId tokenId) x.pred receiver amount := by
  simp only [exec] at h
  unpack at h; obtain ⟨_, h, rfl, rfl⟩ := h
  obtain ⟨-, -, n, h⟩ := mftTransfer_inv h
  obtain ⟨hm, he⟩ := internalMftTransfer_moves h
  rw [he amount rfl] at hm
  exact ⟨rfl, hm⟩

/-- C27: `mft_transfer_call` moves the given amount (`mft_transfer_all_call`, without an amount, all
shares that are not pledged) and announces exactly what it moved. -/
theorem C27_transfer_call {c c' : Contract} {x : Ctx} {tokenId : List Char} {receiver : AccountId}
    {amount : Option Nat} {outs : List Out}
    (h : c.exec x (.mftTransferCall tokenId receiver amount) = .ok (c', outs)) :
    ∃ n, outs = [.mftCall tokenId x.pred receiver n] ∧
      Moves c c' (parseTokenId tokenId) x.pred receiver n ∧ (∀ m, amount = some m → n = m) ∧
      (amount = none → ∃ id, parseTokenId tokenId = .pool id ∧
        n + max (c.pledgedOf x.pred id).farm (c.pledgedOf x.pred id).burrow =
          c.sharesOf id x.pred) := by
  simp only [exec] at h
  obtain ⟨-, -, n, h, ho⟩ := mftTransferCall_inv h
  obtain ⟨hm, he⟩ := internalMftTransfer_moves h
  refine ⟨n, ho, hm, he, ?_⟩
  intro hnone
  obtain ⟨-, ⟨id, hid, h⟩ | ⟨t, -, h⟩⟩ := internalMftTransfer_inv h
  · obtain ⟨p, q, hp, -, -, -, hall, -⟩ := transferShares_inv h
    refine ⟨id, hid, ?_⟩
    rw [sharesOf_eq, sharesIn_some hp]; exact hall hnone
  · obtain ⟨_, _, _, _, hm, -⟩ := transferToken_inv h
    rw [hnone] at hm; cases hm

/-- C27: the callback of a transfer-call, in whatever state it runs and whatever the receiver
answered, moves back exactly the smaller of the unused amount and what the receiver still holds; to
the sender, or to the contract itself if the sender's account is gone. -/
theorem C27_resolve {c c' : Contract} {x : Ctx} {tokenId : List Char} {s r : AccountId} {n : Nat}
    {o : Outcome} {outs : List Out}
    (h : c.callback x (.mftCall tokenId s r n) o = .ok (c', outs)) :
    outs = [] ∧ unusedOf n o ≤ n ∧
    ((c' = c ∧ min (c.holding r (parseTokenId tokenId)) (unusedOf n o) = 0) ∨
     Moves c c' (parseTokenId tokenId) r (if c.accounts.contains s = true then s else c.self)
       (min (c.holding r (parseTokenId tokenId)) (unusedOf n o))) := by
  simp only [callback] at h
  unpack at h; obtain ⟨_, _, h, rfl, rfl⟩ := h
  have hu : unusedOf n o ≤ n := by
    unfold unusedOf
    split
    · exact Nat.min_le_left _ _
    · exact Nat.le_refl _
    · exact Nat.le_refl _
  refine ⟨rfl, hu, ?_⟩
  have hb : ∀ {held}, c.mftBalance tokenId r = .ok held →
      held = c.holding r (parseTokenId tokenId) := by
    intro held hh
    unfold mftBalance at hh
    split at hh
    · rename_i id hid
      unpack at hh
      obtain ⟨p, hp, rfl⟩ := hh
      rw [pool_ok] at hp
      rw [hid]; simp only [holding, sharesOf_eq, sharesIn_some hp]
    · rename_i t ht
      rw [ht]; simp only [holding, depositOf]
      cases hg : c.accounts.get? r <;> rw [hg] at hh <;> cases hh <;> rfl
  unfold mftResolve at h
  by_cases h0 : unusedOf n o > 0
  · simp only [h0, if_true] at h
    unpack at h
    obtain ⟨held, hh, h⟩ := h
    have he := hb hh
    by_cases h1 : held > 0
    · simp only [h1, if_true] at h
      unpack at h
      obtain ⟨_, _, h, rfl, -⟩ := h
      obtain ⟨hm, hn⟩ := internalMftTransfer_moves h
      rw [hn _ rfl, he] at hm
      exact .inr hm
    · simp only [h1, if_false] at h
      cases h
      left
      refine ⟨rfl, ?_⟩
      rw [← he]; omega
  · simp only [h0, if_false] at h
    cases h
    left
    exact ⟨rfl, by omega⟩

/-- The amount that `mft_resolve_transfer` reports as refunded is the unused amount, even if the
receiver has nothing left and nothing is moved. -/
theorem C27_reported_refund :
    ∃ c : Contract, c.Reachable ∧
      c.mftResolve ":0".toList al bo 5 .failure = .ok (c, 5) ∧ c.sharesOf 0 bo = 0 := by
  refine ⟨c1, ⟨ex, own, farm, bur, 1600, 400, c0, setup, rfl, rfl⟩, ?_, by decide +kernel⟩
  have hb : c1.mftBalance ":0".toList bo = .ok 0 := by
    have key : (c1.mftBalance ":0".toList bo).holds (fun n => n == 0) = true := by decide +kernel
    obtain ⟨n, h1, h2⟩ := R.holds_iff.1 key
    rw [h1, beq_iff_eq.1 h2]
  have e : unusedOf 5 .failure = 5 := rfl
  unfold mftResolve
  rw [e, if_pos (by decide), hb, ok_bind, if_neg (by decide)]

/-- Alice transfers shares to Bob, who must be registered; Bob's contract uses 40 of 100 and has
given 30 away: 60 are unused, 70 are left, 60 come back. -/
example : ((c1.step (.call (Demo.near bo) (.mftRegister ":0".toList bo))).exec (y al)
      (.mftTransferCall ":0".toList bo (some 100))).holds (fun r =>
    r.1.sharesOf 0 bo = 100 ∧ r.2 = [.mftCall ":0".toList al bo 100] ∧
    (r.1.exec (y bo) (.mftTransfer ":0".toList ex 30)).holds (fun s =>
      (s.1.callback (by' ex) (.mftCall ":0".toList al bo 100) (.success (some 60))).holds (fun t =>
        t.1.sharesOf 0 bo = 10 ∧ t.1.sharesOf 0 al + 40 = 10 ^ 24))) = true := by decide +kernel

/-! ### C29: accepted tokens -/

/-- The exchange accepts deposits of token `t` from `a`: it is on the global whitelist, its name
ends with a whitelisted postfix, or the account has registered it. -/
def Accepts (c : Contract) (a t : AccountId) : Prop :=
  t ∈ c.cfg.whitelist ∨ (∃ post ∈ c.cfg.postfixes, ∃ pre, t = pre ++ post) ∨
  ∃ acc, c.accounts.get? a = some acc ∧ acc.registered t = true

theorem accepts_iff_allowed {c : Contract} {a t : AccountId} {acc : Account}
    (ha : c.accounts.get? a = some acc) : c.cfg.tokenAllowed acc t = true ↔ c.Accepts a t := by
  unfold Config.tokenAllowed Config.isWhitelisted Accepts
  simp only [Bool.or_eq_true, decide_eq_true_eq, List.any_eq_true, List.isSuffixOf_iff_suffix, ha,
    Option.some.injEq, exists_eq_left']
  constructor
  · rintro (h | h | ⟨p, hp, pre, h⟩)
    · exact .inr (.inr h)
    · exact .inl h
    · exact .inr (.inl ⟨p, hp, pre, h.symm⟩)
  · rintro (h | ⟨p, hp, pre, h⟩ | h)
    · exact .inr (.inl h)
    · exact .inr (.inr ⟨p, hp, pre, h.symm⟩)
    · exact .inl h

/-- C29: a deposit is credited, in full and to nobody but the sender's account, only if the
token is accepted for it. -/
theorem C29_deposit {c c' : Contract} {x : Ctx} {sender : AccountId} {amount : Nat}
    {outs : List Out} (h : c.exec x (.ftOnTransfer sender amount .deposit) = .ok (c', outs)) :
    c.Accepts sender x.pred ∧ c.accounts.contains sender = true ∧ outs = [] ∧
    ∀ a t, c'.depositOf a t = c.depositOf a t + if a = sender ∧ t = x.pred then amount else 0 := by
  simp only [exec] at h
  obtain ⟨-, -, ⟨-, -, h, ho⟩ | ⟨_, _, _, _, _, hd, -⟩ | ⟨_, _, _, hd, -⟩⟩ := ftOnTransfer_inv h
  · obtain ⟨acc, acc', h1, h2, h3, -, rfl⟩ := deposit_inv h
    refine ⟨(accepts_iff_allowed h1).1 h2, by simp [FMap.contains, h1], ho, ?_⟩
    intro a t
    have := (Account.deposit_ok h3).2.1 t
    simp only [depositOf_eq, putAccount, balIn_insert]
    by_cases ha : a = sender
    · subst ha
      rw [if_pos rfl, balIn_some h1, this]
      simp [eq_comm]
    · simp [ha]
  · cases hd
  · cases hd

/-- C29: otherwise the call fails, nothing changes and the token contract returns the tokens. -/
theorem C29_refused {c : Contract} {x : Ctx} {sender : AccountId} {amount : Nat}
    (h : ¬ c.Accepts sender x.pred) :
    (∃ err, c.exec x (.ftOnTransfer sender amount .deposit) = .error err) ∧
    c.step (.call x (.ftOnTransfer sender amount .deposit)) = c := by
  cases he : c.exec x (.ftOnTransfer sender amount .deposit) with
  | error err => exact ⟨⟨err, rfl⟩, by simp [step, apply, he]⟩
  | ok r => exact absurd (C29_deposit (c' := r.1) (outs := r.2) he).1 h

/-- C29: an accepted, unfrozen token is credited while the contract runs, if the account's storage
is paid and the balance fits. -/
theorem C29_accepted {c : Contract} {x : Ctx} {sender : AccountId} {amount : Nat} {acc : Account}
    (hx : x.deposit = 0) (hr : c.cfg.running = true) (hf : x.pred ∉ c.cfg.frozen)
    (ha : c.accounts.get? sender = some acc) (hk : c.Accepts sender x.pred)
    (hn : amount + acc.bal x.pred < 2 ^ 128)
    (hs : ∀ acc', acc.deposit x.pred amount = .ok acc' → acc'.storageUsage ≤ acc'.near) :
    ∃ c', c.exec x (.ftOnTransfer sender amount .deposit) = .ok (c', []) := by
  have hal := (accepts_iff_allowed ha).2 hk
  have hd : ∃ acc', acc.deposit x.pred amount = .ok acc' := by
    unfold Account.deposit
    by_cases h0 : amount > 0
    · rw [if_pos h0, addW_ok.2 ⟨hn, rfl⟩, ok_bind]; exact ⟨_, rfl⟩
    · rw [if_neg h0]; exact ⟨_, rfl⟩
  obtain ⟨acc', hd⟩ := hd
  refine ⟨c.putAccount sender acc', ?_⟩
  have hsv : c.saveAccount sender acc' = .ok (c.putAccount sender acc') :=
    saveAccount_ok.2 ⟨hs _ hd, rfl⟩
  have hac : c.account sender = .ok acc := account_ok.2 ha
  simp [exec, ftOnTransfer, Ctx.noDeposit, Config.assertRunning, Config.assertNoFrozen, assertE,
    hx, hr, hf, deposit, hac, hal, hd, hsv, bind, Except.bind]

/-- C29 for a hot zap: all that is credited is accepted, except possibly what is left of the token
that arrived. -/
theorem C29_hot_zap {c c' : Contract} {x : Ctx} {sender : AccountId} {amount : Nat}
    {referral : Option AccountId} {actions : List Action} {infos : List AddInfo} {outs : List Out}
    (h : c.exec x (.ftOnTransfer sender amount (.hotZap referral actions infos)) = .ok (c', outs))
    {a t : AccountId} (hlt : c.depositOf a t < c'.depositOf a t) :
    a = sender ∧ (c.Accepts a t ∨ t = x.pred) := by
  simp only [exec] at h
  obtain ⟨-, -, ⟨hd, -⟩ | ⟨_, _, _, _, _, hd, -⟩ | ⟨_, _, _, hd, -, h⟩⟩ := ftOnTransfer_inv h <;>
    cases hd
  obtain ⟨acc, ts, left, c1, zaps, c2, rest, acc', -, -, h1, -, hal, -, hdir, hz, hrest, -,
    ⟨acc0, e1, -, -, h4⟩, -, rfl⟩ := hotZap_inv h
  obtain ⟨steps, _, _, hs, hf, -, hb, -⟩ := directActions_ok hdir
  simp only [depositOf_eq, putAccount, balIn_insert, (hs.framed.trans hz.framed.1).accounts] at hlt
  by_cases ha : a = sender
  · refine ⟨ha, ?_⟩
    subst ha
    rw [if_pos rfl, balIn_some h1, (Account.depositPairs_ok h4).2.1 t, Account.bal_congr e1] at hlt
    by_cases ht : t ∈ Action.tokensOf actions
    · exact .inl ((accepts_iff_allowed h1).1 (hal t (List.mem_append_left _ ht)))
    · right
      have hout : ∀ {as : List Action} {ss : List SwapStep}, List.Forall₂ Action.Bounds as ss →
          t ∉ Action.tokensOf as → paidOut ss t = 0 := by
        intro as ss hall
        induction hall with
        | nil => intro _; rfl
        | @cons b s bs ss hbs _ ih =>
          intro hn
          have hn1 : t ∉ b.tokens := fun hh => hn (List.mem_flatMap.2 ⟨b, by simp, hh⟩)
          have hn2 : t ∉ Action.tokensOf bs := fun hh => hn (by
            obtain ⟨d, hd, hd2⟩ := List.mem_flatMap.1 hh
            exact List.mem_flatMap.2 ⟨d, by simp [hd], hd2⟩)
          have hk := ih hn2
          have hs : s.tokOut ≠ t := by
            rintro rfl
            cases b with
            | swap b => exact hn1 (by simp [Action.tokens, hbs.2.1])
            | byOutput b => exact hn1 (by simp [Action.tokens, hbs.2.1])
          simp only [paidOut, List.map_cons, List.sum_cons, if_neg hs] at hk ⊢
          omega
      have k1 := hb t
      have k2 := hrest t
      rw [hout hf.bounds ht] at k1
      by_contra hne
      rw [if_neg (fun e => hne e.symm)] at k1
      omega
  · rw [if_neg ha] at hlt; omega

/-- A token that is not accepted. -/
def unlisted : AccountId := "unlisted.near".toList

/-- Two pools with the same tokens and different prices. -/
def setup3 : List Event := setup2 ++ [
  .call (Demo.near al) (.addSimplePool [A, B] 30),
  .call (Demo.near al) (.addLiquidity 2 [100000, 100000] none)]

/-- The exception is real: by a hot zap whose swaps pay for themselves (an arbitrage cycle between
two pools), a token that is neither whitelisted nor registered is credited. -/
theorem C29_unlisted_credit :
    ∃ (c c' : Contract) (x : Ctx) (actions : List Action) (infos : List AddInfo) (outs : List Out),
      c.Reachable ∧ ¬ c.Accepts al x.pred ∧
      c.exec x (.ftOnTransfer al 77 (.hotZap none actions infos)) = .ok (c', outs) ∧
      c'.depositOf al x.pred = 77 := by
  have key : ((c0.run setup3).exec (by' unlisted) (.ftOnTransfer al 77 (.hotZap none
      [.byOutput ⟨0, A, some 1000, B, none⟩, .byOutput ⟨2, B, none, A, none⟩]
      [⟨1, [0, 700], none, some 1⟩]))).holds
      (fun r => decide (r.1.depositOf al unlisted = 77)) = true := by decide +kernel
  obtain ⟨r, h1, h2⟩ := R.holds_iff.1 key
  refine ⟨c0.run setup3, r.1, _, _, _, r.2,
    ⟨ex, own, farm, bur, 1600, 400, c0, setup3, rfl, rfl⟩, ?_, h1, of_decide_eq_true h2⟩
  have hl : unlisted ∉ (c0.run setup3).cfg.whitelist := by decide +kernel
  have hp : (c0.run setup3).cfg.postfixes = [] := by decide +kernel
  have hr : ∀ acc, (c0.run setup3).accounts.get? al = some acc →
      acc.registered unlisted = false := by
    have : (((c0.run setup3).accounts.get? al).map fun acc => acc.registered unlisted) =
        some false := by decide +kernel
    intro acc h
    rw [h] at this
    exact Option.some.inj this
  rintro (h | ⟨p, h, -⟩ | ⟨acc, h, h'⟩)
  · exact hl h
  · rw [hp] at h; cases h
  · exact Bool.false_ne_true ((hr acc h).symm.trans h')

/-- Bob may deposit a listed token; an unlisted one only after registering it. -/
example : (c1.exec (by' B) (.ftOnTransfer bo 9 .deposit)).holds (fun r => r.1.depositOf bo B = 9) =
      true ∧
    (c1.exec (by' unlisted) (.ftOnTransfer bo 9 .deposit)).holds (fun _ => true) = false ∧
    ((c1.step (.call (y bo) (.registerTokens [unlisted]))).exec (by' unlisted)
      (.ftOnTransfer bo 9 .deposit)).holds (fun r => r.1.depositOf bo unlisted = 9) = true := by
  decide +kernel

end Contract
end Verif

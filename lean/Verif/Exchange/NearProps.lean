import Verif.Exchange.FrozenProps
import Verif.Exchange.Demo

/-
C56: the NEAR that accounts have paid for storage.
-/

namespace Verif

/-! ### Vocabulary -/

/-- The storage deposits of all accounts. -/
def Contract.nearTotal (c : Contract) : Nat := c.accounts.sum fun _ a => a.near

/-- The NEAR a promise sends. -/
def Out.nears : Out → Nat
  | .near _ n => n
  | _ => 0

/-- The NEAR that promises send. -/
def paysNear (outs : List Out) : Nat := (outs.map Out.nears).sum

namespace Call

/-- What the call takes for the storage it uses: the bytes by which the state grew, at the price of
storage. -/
def charged (x : Ctx) : Call → Nat
  | .addSimplePool .. | .addCurvePool .. | .addLiquidity .. | .addStableLiquidity ..
  | .mftRegister .. | .shadowAction .toFarming .. | .shadowAction .toBurrowland ..
  | .ftOnTransfer _ _ (.hotZap ..) => x.grew * BYTE_COST
  | _ => 0

/-- What the call gives back for storage that it frees. -/
def freed (x : Ctx) : Call → Nat
  | .mftUnregister .. | .donationShare .. | .onBurrowLiquidation .. => x.shrank * BYTE_COST
  | _ => 0

/-- The attached NEAR, if the call is one that NEAR is attached to as a payment for storage. The other
calls keep what is attached, usually one yoctoNEAR. -/
def paid (x : Ctx) : Call → Nat
  | .addSimplePool .. | .addCurvePool .. | .addLiquidity .. | .addStableLiquidity ..
  | .mftRegister .. | .shadowAction .toFarming .. | .shadowAction .toBurrowland ..
  | .storageDeposit .. => x.deposit
  | _ => 0

/-- The calls that take NEAR out of the storage deposit of `a`: its own withdrawals, and a transfer of
tokens by `a` with the message that adds liquidity. -/
def draws (x : Ctx) (a : AccountId) : Call → Prop
  | .storageWithdraw _ | .storageUnregister => a = x.pred
  | .ftOnTransfer s _ (.hotZap ..) => a = s
  | _ => False

end Call

/-- The NEAR that the result of a promise releases or brings: storage freed by taking back pledged
shares, the storage payment of a pledge that failed, wrapped NEAR that was unwrapped. -/
def Out.returns (x : Ctx) : Out → Outcome → Nat
  | .shadow .fromFarming .., .success _ | .shadow .fromBurrowland .., .success _ =>
    x.shrank * BYTE_COST
  | .shadow .toFarming _ _ _ fee, .failure | .shadow .toBurrowland _ _ _ fee, .failure => fee
  | .unwrap _ _ n, .success _ => n
  | _, _ => 0

/-! ### Accounts -/

/-- The storage deposit of an account. -/
def nearIn (m : FMap AccountId Account) (a : AccountId) : Nat :=
  match m.get? a with
  | some acc => acc.near
  | none => 0

def nearSum (m : FMap AccountId Account) : Nat := m.sum fun _ a => a.near

theorem nearIn_some {m : FMap AccountId Account} {a : AccountId} {acc : Account}
    (h : m.get? a = some acc) : nearIn m a = acc.near := by simp only [nearIn, h]

theorem nearSum_insert (m : FMap AccountId Account) (a : AccountId) (acc : Account) :
    nearSum (m.insert a acc) + nearIn m a = nearSum m + acc.near := by
  have e : m.term (fun _ acc => acc.near) a = nearIn m a := by
    unfold FMap.term nearIn; cases m.get? a <;> rfl
  rw [← e]; exact m.sum_insert _ a acc

theorem nearSum_erase (m : FMap AccountId Account) (a : AccountId) :
    nearSum (m.erase a) + nearIn m a = nearSum m := by
  have e : m.term (fun _ acc => acc.near) a = nearIn m a := by
    unfold FMap.term nearIn; cases m.get? a <;> rfl
  rw [← e]; exact m.sum_erase _ a

theorem nearIn_insert (m : FMap AccountId Account) (a b : AccountId) (acc : Account) :
    nearIn (m.insert a acc) b = if b = a then acc.near else nearIn m b := by
  unfold nearIn
  rw [FMap.get?_insert]
  by_cases h : b = a
  · rw [if_pos h, if_pos h]
  · rw [if_neg h, if_neg h]

/-- The storage deposits grow by `n` in all and nobody's falls. -/
def Grows (m m' : FMap AccountId Account) (n : Nat) : Prop :=
  nearSum m' = nearSum m + n ∧ ∀ a, nearIn m a ≤ nearIn m' a

theorem Grows.refl (m : FMap AccountId Account) : Grows m m 0 := ⟨rfl, fun _ => Nat.le_refl _⟩

theorem Grows.trans {m m1 m2 : FMap AccountId Account} {n k : Nat} (h : Grows m m1 n)
    (g : Grows m1 m2 k) : Grows m m2 (n + k) :=
  ⟨by rw [g.1, h.1, Nat.add_assoc], fun a => (h.2 a).trans (g.2 a)⟩

theorem Grows.insert {m : FMap AccountId Account} {a : AccountId} {acc : Account} {n : Nat}
    (h : acc.near = nearIn m a + n) : Grows m (m.insert a acc) n := by
  refine ⟨?_, ?_⟩
  · have := nearSum_insert m a acc; omega
  · intro b
    rw [nearIn_insert]
    split
    · rename_i e; subst e; omega
    · exact Nat.le_refl _

theorem Grows.put {m : FMap AccountId Account} {a : AccountId} {acc acc' : Account} {n : Nat}
    (h0 : m.get? a = some acc) (h : acc'.near = acc.near + n) : Grows m (m.insert a acc') n :=
  .insert (by rw [nearIn_some h0]; exact h)

/-- An account is written back with the same storage deposit. -/
theorem Grows.same {m : FMap AccountId Account} {a : AccountId} {acc acc' : Account}
    (h0 : m.get? a = some acc) (h : Account.Same acc acc') : Grows m (m.insert a acc') 0 :=
  .put h0 h.near

/-! ### Payments -/

/-- All NEAR in the list goes to `a`, and it is `n` in all. -/
def SendsNear (outs : List Out) (a : AccountId) (n : Nat) : Prop :=
  paysNear outs = n ∧ ∀ r k, .near r k ∈ outs → r = a

theorem SendsNear.nil (a : AccountId) : SendsNear [] a 0 := ⟨rfl, fun _ _ h => by cases h⟩

theorem SendsNear.if (a : AccountId) (n : Nat) : SendsNear (if n > 0 then [.near a n] else []) a n := by
  split
  · refine ⟨by simp [paysNear, Out.nears], ?_⟩
    intro r k h; simp at h; exact h.1
  · exact ⟨by simp [paysNear]; omega, fun _ _ h => by cases h⟩

theorem SendsNear.check {x : Ctx} {fee : Nat} {outs : List Out}
    (h : x.checkStorage = .ok (fee, outs)) : x.grew * BYTE_COST ≤ x.deposit ∧
    SendsNear outs x.pred (x.deposit - x.grew * BYTE_COST) := by
  obtain ⟨h1, -, rfl⟩ := Ctx.checkStorage_ok.1 h
  exact ⟨h1, .if _ _⟩

theorem SendsNear.none {outs : List Out} {a : AccountId} (h : ∀ r k, .near r k ∉ outs) :
    SendsNear outs a 0 := by
  refine ⟨?_, fun r k hm => absurd hm (h r k)⟩
  unfold paysNear
  rw [List.sum_eq_zero_iff_forall_eq_nat]
  intro n hn
  obtain ⟨o, ho, rfl⟩ := List.mem_map.1 hn
  cases o <;> first | rfl | exact absurd ho (h _ _)

namespace Contract

theorem sendTokens_ne (c : Contract) (a token r : AccountId) (n k : Nat) (skip : Option Bool) :
    Out.near r k ≠ c.sendTokens a token n skip := by
  unfold sendTokens
  split <;> simp

theorem internalMft_near {c c' : Contract} {tokenId : List Char} {s r : AccountId}
    {am : Option Nat} {n : Nat} (h : c.internalMftTransfer tokenId s r am = .ok (c', n)) :
    Grows c.accounts c'.accounts 0 := by
  obtain ⟨hne, ⟨id, -, h⟩ | ⟨u, -, h⟩⟩ := internalMftTransfer_inv h
  · obtain ⟨p, q, hq, -, -, -, -, hs, rfl⟩ := transferShares_inv h
    exact .refl _
  · obtain ⟨a, b, a', b', -, h1, h2, h3, h4, -, -, rfl⟩ := transferToken_inv h
    have h2' : (c.accounts.insert s a').get? r = some b := by
      rw [FMap.get?_insert, if_neg hne.symm]; exact h2
    exact (Grows.same h1 (Account.withdraw_ok h3).1).trans (.same h2' (Account.deposit_ok h4).1)

theorem accountOrNew_near (c : Contract) (a : AccountId) :
    (c.accountOrNew a).near = nearIn c.accounts a := by
  unfold accountOrNew nearIn
  cases c.accounts.get? a <;> rfl

theorem storageDeposit_near {c c' : Contract} {x : Ctx} {account : Option AccountId} {only : Bool}
    {outs : List Out} (h : c.storageDeposit x account only = .ok (c', outs)) :
    ∃ n k, Grows c.accounts c'.accounts n ∧ SendsNear outs x.pred k ∧ n + k = x.deposit := by
  have reg : ∀ {c' a n}, c.registerAccount a n = .ok c' → Grows c.accounts c'.accounts n := by
    intro c' a n h
    obtain ⟨acc', -, -, h3, -, rfl⟩ := registerAccount_inv h
    exact .insert (by rw [h3, accountOrNew_near])
  unfold storageDeposit Config.assertRunning at h
  unpack at h
  obtain ⟨h1, -, h⟩ := h
  split at h
  · split at h
    · cases h
      exact ⟨0, _, .refl _, .if _ _, Nat.zero_add _⟩
    · unpack at h
      obtain ⟨c1, h2, h3, rfl, rfl⟩ := h
      exact ⟨_, _, reg h2, .if _ _, by omega⟩
  · unpack at h
    obtain ⟨c1, h2, rfl, rfl⟩ := h
    exact ⟨_, 0, reg h2, .nil _, Nat.add_zero _⟩

theorem donationShare_near {c c' : Contract} {x : Ctx} {id : Nat} {amount : Option Nat}
    {unregister : Bool} {outs : List Out}
    (h : c.donationShare x id amount unregister = .ok (c', outs)) :
    ∃ n k, Grows c.accounts c'.accounts n ∧ SendsNear outs x.pred k ∧ n + k = x.shrank * BYTE_COST := by
  unfold donationShare Ctx.oneYocto Config.assertRunning at h
  unpack at h
  obtain ⟨h1, h2, p, h3, h4, q, h5, q', h6, h⟩ := h
  split at h
  · split at h
    · rename_i acc hacc
      unpack at h
      obtain ⟨acc', h7, c1, h8, rfl, rfl⟩ := h
      rw [saveAccount_ok] at h8
      obtain ⟨-, rfl⟩ := h8
      exact ⟨_, 0, .put hacc (creditStorage_ok h7).2.2, .nil _, Nat.add_zero _⟩
    · cases h
      rename_i hs _ _
      have := SendsNear.if x.pred (x.shrank * BYTE_COST)
      rw [if_pos (Nat.mul_pos hs (by decide))] at this
      exact ⟨0, _, .refl _, this, Nat.zero_add _⟩
  · cases h
    rename_i hs
    have : x.shrank = 0 := by omega
    exact ⟨0, 0, .refl _, .nil _, by rw [this]; simp⟩

theorem exec_near {c c' : Contract} {x : Ctx} {k : Call} {outs : List Out}
    (h : c.exec x k = .ok (c', outs)) :
    nearSum c'.accounts + paysNear outs + k.charged x =
      nearSum c.accounts + k.freed x + k.paid x ∧
    (∀ a, nearIn c.accounts a ≤ nearIn c'.accounts a ∨ k.draws x a) ∧
    (∀ r n, .near r n ∈ outs → r = x.pred) := by
  have close : ∀ {n m : Nat}, Grows c.accounts c'.accounts n → SendsNear outs x.pred m →
      n + m + k.charged x = k.freed x + k.paid x →
      nearSum c'.accounts + paysNear outs + k.charged x =
        nearSum c.accounts + k.freed x + k.paid x ∧
      (∀ a, nearIn c.accounts a ≤ nearIn c'.accounts a ∨ k.draws x a) ∧
      (∀ r n, .near r n ∈ outs → r = x.pred) := by
    intro n m h1 h2 h3
    refine ⟨?_, fun a => .inl (h1.2 a), h2.2⟩
    rw [h1.1, h2.1]; omega
  cases k <;> simp only [exec] at h
  case addSimplePool =>
    obtain ⟨_, -, hn, h1, h⟩ := addSimplePool_inv h
    obtain ⟨q, _, hr, hx, rfl⟩ := addPool_inv h
    obtain ⟨h1, h2⟩ := SendsNear.check hx
    exact close (.refl _) h2 (by simp only [Call.charged, Call.freed, Call.paid]; omega)
  case addCurvePool =>
    obtain ⟨_, -, hl, hn, h1, h⟩ := addCurvePool_inv h
    obtain ⟨q, _, hr, hx, rfl⟩ := addPool_inv h
    obtain ⟨h1, h2⟩ := SendsNear.check hx
    exact close (.refl _) h2 (by simp only [Call.charged, Call.freed, Call.paid]; omega)
  case executeActions =>
    unpack at h; obtain ⟨_, _, h, rfl, rfl⟩ := h
    obtain ⟨_, acc', c1, -, -, h1, -, h2, -, rfl⟩ := executeActions_inv h
    obtain ⟨steps, hs, -, hsame, hb, -⟩ := runActions_ok h2
    refine close (n := 0) ?_ (.nil _) rfl
    simp only [putAccount, hs.framed.accounts]
    exact .same h1 hsame
  case executeInVa =>
    unpack at h; obtain ⟨_, _, h, rfl, rfl⟩ := h
    obtain ⟨_, _, _, _, acc', c1, _, -, -, h1, -, hu, h2, -, h3, -, rfl⟩ := executeInVa_inv h
    obtain ⟨steps, hs, -⟩ := runActions_ok h2
    refine close (n := 0) ?_ (.nil _) rfl
    simp only [putAccount, hs.framed.accounts]
    exact .same h1 ((useTokens_ok hu).1.trans (Account.depositPairs_ok h3).1)
  case addLiquidity =>
    unpack at h; obtain ⟨_, _, _, h, rfl, rfl⟩ := h
    obtain ⟨_, p, q, _, _, acc', _, -, -, hq, hn, ha, -, h1, h2, -, hx, rfl⟩ := addLiquidity_inv h
    obtain ⟨h3, h4⟩ := SendsNear.check hx
    exact close (.same h1 (Account.withdrawAll_ok h2).1) h4
      (by simp only [Call.charged, Call.freed, Call.paid]; omega)
  case addStableLiquidity =>
    unpack at h; obtain ⟨_, _, _, h, rfl, rfl⟩ := h
    obtain ⟨_, p, q, _, acc', _, -, -, hq, hn, ha, -, h1, h2, -, hx, rfl⟩ := addStableLiquidity_inv h
    obtain ⟨h3, h4⟩ := SendsNear.check hx
    exact close (.same h1 (Account.withdrawAll_ok h2).1) h4
      (by simp only [Call.charged, Call.freed, Call.paid]; omega)
  case removeLiquidity =>
    unpack at h; obtain ⟨_, _, h, rfl, rfl⟩ := h
    obtain ⟨_, p, q, _, acc', -, -, hq, h1, -, hn, ha, h2, -, rfl⟩ := removeLiquidity_inv h
    exact close (.same h1 (Account.depositAll_ok h2).1) (.nil _) rfl
  case removeByTokens =>
    unpack at h; obtain ⟨_, _, h, rfl, rfl⟩ := h
    obtain ⟨_, p, q, _, acc', -, -, hq, h1, -, hn, ha, h2, -, rfl⟩ := removeByTokens_inv h
    exact close (.same h1 (Account.depositAll_ok h2).1) (.nil _) rfl
  case registerTokens =>
    unpack at h; obtain ⟨_, h, rfl, rfl⟩ := h
    obtain ⟨acc, -, -, h1, -, rfl⟩ := registerTokens_inv h
    exact close (.same h1 (Account.register_ok ‹_› acc).1) (.nil _) rfl
  case unregisterTokens =>
    unpack at h; obtain ⟨_, h, rfl, rfl⟩ := h
    obtain ⟨_, acc', -, -, h1, h2, -, rfl⟩ := unregisterTokens_inv h
    exact close (.same h1 (Account.unregisterAll_ok h2).1) (.nil _) rfl
  case withdraw token amount unregister skip =>
    obtain ⟨_, _, acc', n, -, -, hn, h1, -, -, h2, h3, -, rfl, rfl⟩ := withdraw_inv h
    exact close (.same h1 ((Account.withdraw_ok h2).1.trans (unregisterIf_ok h3).1))
      (.none fun r k hm => sendTokens_ne _ _ _ _ _ _ _ (List.mem_singleton.1 hm)) rfl
  case claimLostfound token =>
    obtain ⟨-, -, hn, -, rfl, rfl⟩ := claimLostfound_inv h
    exact close (.refl _) (.none fun r k hm => by cases List.mem_singleton.1 hm) rfl
  case ftOnTransfer sender amount msg =>
    obtain ⟨-, -, ⟨rfl, hn, hd, rfl⟩ | ⟨_, _, _, _, _, rfl, hi⟩ | ⟨_, _, _, rfl, rfl, hz⟩⟩ :=
      ftOnTransfer_inv h
    · obtain ⟨acc, acc', h1, -, h2, -, rfl⟩ := deposit_inv hd
      exact close (.same h1 (Account.deposit_ok h2).1) (.nil _) rfl
    · obtain ⟨ha, -⟩ := C30_instant_swap h
      obtain ⟨_, -, -, -, -, -, rfl⟩ := instantSwap_inv hi
      refine close (n := 0) (by rw [ha]; exact .refl _) (.none ?_) rfl
      intro r k hm
      obtain ⟨p, -, e⟩ := List.mem_map.1 hm
      unfold payOut at e
      split at e
      · cases e
      · exact sendTokens_ne _ _ _ _ _ _ _ e.symm
    · obtain ⟨acc, ts, left, c1, zaps, c2, rest, acc', -, -, h1, hi, -, hn, h2, hza, hr, hle,
        ⟨acc0, h3, -, h5, h4⟩, -, rfl⟩ := hotZap_inv hz
      obtain ⟨steps, _, _, hs, -, -, hb, -⟩ := directActions_ok h2
      have hfr := hs.framed.trans hza.framed.1
      have e1 := (Account.depositPairs_ok h4).1.near
      have e2 := nearSum_insert c.accounts sender acc'
      rw [nearIn_some h1] at e2
      refine ⟨?_, ?_, fun _ _ hm => by cases hm⟩
      · simp only [putAccount, hfr.accounts, Call.charged, Call.freed, Call.paid]
        rw [show paysNear [] = 0 from rfl]; omega
      · intro a
        by_cases ha : a = sender
        · exact .inr ha
        · refine .inl ?_
          simp only [putAccount, hfr.accounts, nearIn_insert, if_neg ha]
          exact Nat.le_refl _
  case mftTransfer =>
    unpack at h; obtain ⟨_, h, rfl, rfl⟩ := h
    obtain ⟨-, -, _, h⟩ := mftTransfer_inv h
    exact close (internalMft_near h) (.nil _) rfl
  case mftTransferCall =>
    obtain ⟨-, -, _, hi, rfl⟩ := mftTransferCall_inv h
    exact close (internalMft_near hi) (.none fun r k hm => by cases List.mem_singleton.1 hm) rfl
  case mftRegister =>
    obtain ⟨_, p, q, _, -, -, hq, hr, hx, rfl⟩ := mftRegister_inv h
    obtain ⟨h3, h4⟩ := SendsNear.check hx
    exact close (.refl _) h4 (by simp only [Call.charged, Call.freed, Call.paid]; omega)
  case mftUnregister =>
    obtain ⟨_, p, q, -, -, -, hq, hr, rfl, rfl⟩ := mftUnregister_inv h
    have : SendsNear (storageRefund x x.pred) x.pred (x.shrank * BYTE_COST) := by
      have h1 := SendsNear.if x.pred (x.shrank * BYTE_COST)
      have h2 : x.shrank * BYTE_COST > 0 ↔ x.shrank > 0 := by
        unfold BYTE_COST; omega
      unfold storageRefund
      simpa only [h2] using h1
    exact close (.refl _) this (by simp only [Call.charged, Call.freed, Call.paid]; omega)
  case storageDeposit =>
    obtain ⟨n, m, h1, h2, h3⟩ := storageDeposit_near h
    exact close h1 h2 (by simp only [Call.charged, Call.freed, Call.paid]; omega)
  case storageWithdraw =>
    obtain ⟨acc, n, -, -, h1, -, -, h2, rfl, rfl⟩ := storageWithdraw_inv h
    have e2 := nearSum_insert c.accounts x.pred { acc with near := acc.near - n }
    rw [nearIn_some h1] at e2
    refine ⟨?_, ?_, fun r k hm => by cases List.mem_singleton.1 hm; rfl⟩
    · simp only [putAccount, Call.charged, Call.freed, Call.paid]
      rw [show paysNear [.near x.pred n] = n from rfl]
      unfold Account.storageAvailable at h2
      simp only at e2; omega
    · intro a
      by_cases ha : a = x.pred
      · exact .inr ha
      · refine .inl ?_
        simp only [putAccount, nearIn_insert, if_neg ha]
        exact Nat.le_refl _
  case storageUnregister =>
    obtain ⟨-, -, ⟨-, rfl, rfl⟩ | ⟨acc, h1, h2, -, rfl, rfl⟩⟩ := storageUnregister_inv h
    · exact close (.refl _) (.nil _) rfl
    · have e1 := nearSum_erase c.accounts x.pred
      rw [nearIn_some h1] at e1
      refine ⟨?_, ?_, fun r k hm => by cases List.mem_singleton.1 hm; rfl⟩
      · simp only [Call.charged, Call.freed, Call.paid]
        rw [show paysNear [.near x.pred acc.near] = acc.near from rfl]; omega
      · intro a
        by_cases ha : a = x.pred
        · exact .inr ha
        · refine .inl ?_
          simp only [nearIn, FMap.get?_erase, if_neg ha]
          exact Nat.le_refl _
  case shadowAction act _ _ =>
    obtain ⟨_, _, _, _, -, h1, -, -, -, -, -, ⟨ha, rfl, rfl⟩ | ⟨ha, acc', _, os, h2, -, hx, rfl, rfl⟩⟩ :=
      shadowAction_inv h
    · refine close (.refl _) (.none fun r k hm => by cases List.mem_singleton.1 hm) ?_
      rcases ha with rfl | rfl <;> rfl
    · obtain ⟨h3, h4, h5⟩ := SendsNear.check hx
      refine close (n := 0) (m := x.deposit - x.grew * BYTE_COST)
        (.put h1 (Account.updateShadow_ok h2).1) ⟨?_, ?_⟩ ?_
      · rw [← h4]; simp [paysNear, Out.nears]
      · intro r k hm
        rcases List.mem_append.1 hm with hm | hm
        · exact h5 r k hm
        · cases List.mem_singleton.1 hm
      · rcases ha with rfl | rfl <;> simp only [Call.charged, Call.freed, Call.paid] <;> omega
  case onBurrowLiquidation =>
    obtain ⟨_, p, q, _, acc, acc1, _, acc2, acc3, liq, liq', -, -, -, hq, hn, h1, h2, -, h3, h4, -, h5,
      ha, h6, -, rfl, rfl⟩ := onBurrowLiquidation_inv h
    have g1 : acc3.near = acc.near + x.shrank * BYTE_COST := by
      rw [(creditStorage_ok h4).2.2, (releaseSeed_ok h3).1, (Account.updateShadow_ok h2).1]
    refine close ((Grows.put h1 g1).trans (.same h5 (Account.depositAll_ok h6).1))
      (.none ?_) (by simp only [Call.charged, Call.freed, Call.paid])
    intro r k hm
    split at hm
    · cases List.mem_singleton.1 hm
    · cases hm
  case donationShare =>
    obtain ⟨n, m, h1, h2, h3⟩ := donationShare_near h
    exact close h1 h2 (by simp only [Call.charged, Call.freed, Call.paid]; omega)
  case donationToken =>
    unpack at h; obtain ⟨_, h, rfl, rfl⟩ := h
    obtain ⟨_, _, _, acc', _, own', -, -, h0, -, -, h1, h2, -, h3, h4, rfl⟩ := donationToken_inv h
    exact close ((Grows.same h0 ((Account.withdraw_ok h1).1.trans (unregisterIf_ok h2).1)).trans
      (.same h3 (Account.deposit_ok h4).1)) (.nil _) rfl
  case setting s =>
    unpack at h; obtain ⟨_, h, rfl, rfl⟩ := h
    obtain ⟨g, h2, rfl⟩ := setting_inv h
    exact close (.refl _) (.nil _) rfl
  case retrieveUnmanaged token n =>
    unpack at h; obtain ⟨_, h, rfl, rfl⟩ := h
    obtain ⟨-, -, -, rfl⟩ := retrieveUnmanaged_inv h
    exact close (.refl _) (.none fun r k hm => by cases List.mem_singleton.1 hm) rfl
  case modifyTotalFee _ fee =>
    unpack at h; obtain ⟨_, h, rfl, rfl⟩ := h
    obtain ⟨p, -, -, -, hq, rfl⟩ := modifyTotalFee_inv h
    exact close (.refl _) (.nil _) rfl
  case removeExchangeFee =>
    unpack at h; obtain ⟨_, h, rfl, rfl⟩ := h
    obtain ⟨p, q, _, _, own', -, -, -, hq, ha, h1, h2, -, rfl⟩ := removeExchangeFee_inv h
    exact close (.same h1 (Account.depositAll_ok h2).1) (.nil _) rfl
  case withdrawOwnerToken =>
    obtain ⟨_, own', -, -, -, -, h1, h2, rfl, rfl⟩ := withdrawOwnerToken_inv h
    exact close (.same h1 (Account.withdraw_ok h2).1)
      (.none fun r k hm => sendTokens_ne _ _ _ _ _ _ _ (List.mem_singleton.1 hm)) rfl
  case rampAmp =>
    unpack at h; obtain ⟨_, h, rfl, rfl⟩ := h
    obtain ⟨p, q, -, -, hq, hr, rfl⟩ := rampAmp_inv h
    exact close (.refl _) (.nil _) rfl
  case stopRampAmp =>
    unpack at h; obtain ⟨_, h, rfl, rfl⟩ := h
    obtain ⟨p, q, -, -, hq, hr, rfl⟩ := stopRampAmp_inv h
    exact close (.refl _) (.nil _) rfl
  case registerTwap =>
    unpack at h; obtain ⟨_, h, rfl, rfl⟩ := h
    obtain ⟨-, -, _, rfl⟩ := registerTwap_inv h
    exact close (.refl _) (.nil _) rfl
  case unregisterTwap =>
    unpack at h; obtain ⟨_, h, rfl, rfl⟩ := h
    obtain ⟨-, -, _, rfl⟩ := unregisterTwap_inv h
    exact close (.refl _) (.nil _) rfl
  case syncTwap =>
    unpack at h; obtain ⟨_, h, rfl, rfl⟩ := h
    obtain ⟨-, _, rfl⟩ := syncTwap_inv h
    exact close (.refl _) (.nil _) rfl

theorem handleFail_near {c c' : Contract} {x : Ctx} {a u : AccountId} {n : Nat}
    (h : c.handleFail x a u n = .ok c') : Grows c.accounts c'.accounts 0 := by
  rcases handleFail_inv h with ⟨acc, acc', h1, h2, rfl⟩ | rfl | ⟨acc', h2, rfl⟩
  · exact .same h1 (Account.depositChecked_some h2).1
  · exact .refl _
  · exact .insert (by rw [(Account.deposit_ok h2).1.near, accountOrNew_near, Nat.add_zero])

/-- The account to which a callback may send NEAR: who unwraps or pledges. -/
def _root_.Verif.Out.payee : Out → Option AccountId
  | .unwrap _ a _ => some a
  | .shadow _ a _ _ _ => some a
  | _ => none

theorem callback_near {c c' : Contract} {x : Ctx} {out : Out} {o : Outcome} {outs : List Out}
    (h : c.callback x out o = .ok (c', outs)) :
    nearSum c'.accounts + paysNear outs = nearSum c.accounts + out.returns x o ∧
    (∀ a, nearIn c.accounts a ≤ nearIn c'.accounts a) ∧
    (∀ r n, .near r n ∈ outs → out.payee = some r) := by
  have close : ∀ {n m : Nat} {b : AccountId}, Grows c.accounts c'.accounts n → SendsNear outs b m →
      n + m = out.returns x o → (m = 0 ∧ outs = [] ∨ out.payee = some b) →
      nearSum c'.accounts + paysNear outs = nearSum c.accounts + out.returns x o ∧
      (∀ a, nearIn c.accounts a ≤ nearIn c'.accounts a) ∧
      (∀ r n, .near r n ∈ outs → out.payee = some r) := by
    intro n m b h1 h2 h3 h4
    refine ⟨by rw [h1.1, h2.1]; omega, h1.2, ?_⟩
    intro r k hm
    rcases h4 with ⟨-, rfl⟩ | h4
    · cases hm
    · rw [h2.2 r k hm]; exact h4
  cases out <;> simp only [callback] at h
  case ft u a n =>
    cases o <;> simp only [] at h
    · cases h; exact close (.refl _) (.nil a) rfl (.inl ⟨rfl, rfl⟩)
    · unpack at h; obtain ⟨_, h, rfl, rfl⟩ := h
      exact close (handleFail_near h) (.nil a) rfl (.inl ⟨rfl, rfl⟩)
  case ftCall u a n =>
    cases o <;> simp only [] at h
    · cases h; exact close (.refl _) (.nil a) rfl (.inl ⟨rfl, rfl⟩)
    · unpack at h; obtain ⟨_, h, rfl, rfl⟩ := h
      exact close (handleFail_near h) (.nil a) rfl (.inl ⟨rfl, rfl⟩)
  case unwrap _ a n =>
    cases o <;> simp only [] at h
    · cases h
      refine close (.refl _) (b := a) (m := n) ⟨rfl, ?_⟩ (Nat.zero_add _) (.inr rfl)
      intro r k hm; cases List.mem_singleton.1 hm; rfl
    · unpack at h; obtain ⟨w, hw, _, h, rfl, rfl⟩ := h
      exact close (handleFail_near h) (.nil a) rfl (.inl ⟨rfl, rfl⟩)
  case mftCall _ a _ _ =>
    unpack at h; obtain ⟨_, _, h, rfl, rfl⟩ := h
    refine close (n := 0) ?_ (.nil a) (by cases o <;> rfl) (.inl ⟨rfl, rfl⟩)
    obtain ⟨-, rfl | ⟨_, _, -, -, -, h⟩⟩ := mftResolve_inv h
    · exact .refl _
    · exact internalMft_near h
  case shadow act a id n fee =>
    unfold callbackOnShadow at h
    split at h
    · unpack at h
      obtain ⟨acc, h1, h⟩ := h
      rw [account_ok] at h1
      cases act <;> simp only [] at h <;> unpack at h
      · obtain ⟨acc', h2, c1, h3, rfl, rfl⟩ := h
        obtain ⟨-, rfl⟩ := saveAccount_ok.1 h3
        exact close (n := 0) (.put h1 (Account.updateShadow_ok h2).1) (.if a fee) (Nat.zero_add _)
          (.inr rfl)
      · obtain ⟨c1, h3, rfl, rfl⟩ := h
        obtain ⟨-, rfl⟩ := saveAccount_ok.1 h3
        exact close (.same h1 (.rfl' _)) (.nil a) rfl (.inl ⟨rfl, rfl⟩)
      · obtain ⟨acc', h2, c1, h3, rfl, rfl⟩ := h
        obtain ⟨-, rfl⟩ := saveAccount_ok.1 h3
        exact close (n := 0) (.put h1 (Account.updateShadow_ok h2).1) (.if a fee) (Nat.zero_add _)
          (.inr rfl)
      · obtain ⟨c1, h3, rfl, rfl⟩ := h
        obtain ⟨-, rfl⟩ := saveAccount_ok.1 h3
        exact close (.same h1 (.rfl' _)) (.nil a) rfl (.inl ⟨rfl, rfl⟩)
    · cases act <;> simp only [] at h
      · cases h; exact close (.refl _) (.nil a) rfl (.inl ⟨rfl, rfl⟩)
      · unpack at h
        obtain ⟨acc, h1, acc1, h2, acc', h4, c1, h3, rfl, rfl⟩ := h
        rw [account_ok] at h1
        obtain ⟨-, rfl⟩ := saveAccount_ok.1 h3
        exact close (n := x.shrank * BYTE_COST)
          (.put h1 (by rw [(creditStorage_ok h4).2.2, (Account.updateShadow_ok h2).1]))
          (.nil a) (Nat.add_zero _) (.inl ⟨rfl, rfl⟩)
      · cases h; exact close (.refl _) (.nil a) rfl (.inl ⟨rfl, rfl⟩)
      · unpack at h
        obtain ⟨acc, h1, acc1, h2, acc', h4, c1, h3, rfl, rfl⟩ := h
        rw [account_ok] at h1
        obtain ⟨-, rfl⟩ := saveAccount_ok.1 h3
        exact close (n := x.shrank * BYTE_COST)
          (.put h1 (by rw [(creditStorage_ok h4).2.2, (Account.updateShadow_ok h2).1]))
          (.nil a) (Nat.add_zero _) (.inl ⟨rfl, rfl⟩)
  all_goals
    cases h
    exact close (.refl _) (.nil []) (by cases o <;> rfl) (.inl ⟨rfl, rfl⟩)

theorem nearOf_eq (c : Contract) (a : AccountId) : c.nearOf a = nearIn c.accounts a := rfl

/-! ### The property -/

/-- **C56**, calls. To the yoctoNEAR: the storage deposits after a call, what the call pays out and
what it charges for storage come to the storage deposits before it, what it gives back for freed
storage and the payment attached. -/
theorem C56_call_exact {c c' : Contract} {x : Ctx} {k : Call} {outs : List Out}
    (h : c.exec x k = .ok (c', outs)) :
    c'.nearTotal + paysNear outs + k.charged x = c.nearTotal + k.freed x + k.paid x :=
  (exec_near h).1

/-- **C56**, who is paid. A call sends NEAR to its caller only. -/
theorem C56_paid_to_caller {c c' : Contract} {x : Ctx} {k : Call} {outs : List Out}
    (h : c.exec x k = .ok (c', outs)) {r : AccountId} {n : Nat} (ho : .near r n ∈ outs) :
    r = x.pred :=
  (exec_near h).2.2 r n ho

/-- **C56**, protection. The storage deposit of an account falls only by its own withdrawal or
closing of the account, or by its own transfer of tokens with the message that adds liquidity. -/
theorem C56_protected {c c' : Contract} {x : Ctx} {k : Call} {outs : List Out}
    (h : c.exec x k = .ok (c', outs)) {a : AccountId} (hl : c'.nearOf a < c.nearOf a) :
    a = x.pred ∧ ((∃ n, k = .storageWithdraw n) ∨ k = .storageUnregister) ∨
    ∃ n r as is, k = .ftOnTransfer a n (.hotZap r as is) := by
  rcases (exec_near h).2.1 a with h1 | h1
  · rw [nearOf_eq, nearOf_eq] at hl; omega
  · cases k <;> simp only [Call.draws] at h1
    case storageWithdraw n => exact .inl ⟨h1, .inl ⟨n, rfl⟩⟩
    case storageUnregister => exact .inl ⟨h1, .inr rfl⟩
    case ftOnTransfer s n m =>
      cases m <;> simp only at h1
      subst h1
      exact .inr ⟨n, _, _, _, rfl⟩

/-- **C56**, callbacks. The result of a promise lowers nobody's storage deposit; it credits or pays
out exactly what it releases or brings, to the account that made the promise. -/
theorem C56_callback_exact {c c' : Contract} {x : Ctx} {out : Out} {o : Outcome} {outs : List Out}
    (h : c.callback x out o = .ok (c', outs)) :
    c'.nearTotal + paysNear outs = c.nearTotal + out.returns x o ∧
    (∀ a, c.nearOf a ≤ c'.nearOf a) ∧ (∀ r n, .near r n ∈ outs → out.payee = some r) :=
  callback_near h

open Demo

/-- A payment for storage with more than is needed: the rest comes back. -/
example : (c1.exec { Demo.near al with grew := 100 } (.mftRegister ":0".toList bo)).holds
    (fun r => paysNear r.2 = 10 ^ 24 - 10 ^ 21 ∧ r.1.nearTotal = c1.nearTotal ∧
      c1.nearTotal = 3 * 10 ^ 24) = true := by decide +kernel

example : (c1.exec (Demo.near al) (.storageDeposit (some guard) true)).holds
    (fun r => paysNear r.2 + 102 * 10 ^ 19 = 10 ^ 24 ∧ r.1.nearOf guard = 102 * 10 ^ 19) = true := by
  decide +kernel

end Contract

end Verif

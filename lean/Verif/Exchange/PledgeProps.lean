import Verif.Exchange.PledgeWorld
import Verif.Exchange.ShadowProps
import Verif.Exchange.Solvency

/-
C81 (the exchange's pledge records agree with the books of the farm and of the lending contract).
-/

namespace Verif
namespace Contract

/-- The promise concerns no pledge. -/
def _root_.Verif.Out.silent : Out → Prop
  | .shadow .. | .liquidated .. => False
  | _ => True

/-- Only `shadow_action` and liquidations send word of pledges. -/
theorem exec_silent {c c' : Contract} {x : Ctx} {k : Call} {outs : List Out}
    (h : c.exec x k = .ok (c', outs)) (hs : ∀ act id n, k ≠ .shadowAction act id n)
    (hl : ∀ l d s n m, k ≠ .onBurrowLiquidation l d s n m) : ∀ o ∈ outs, o.silent := by
  intro o ho
  have nn : ∀ {os : List Out}, nearOnly os → o ∈ os → o.silent := by
    intro os h hm
    obtain ⟨_, _, rfl⟩ := h _ hm
    trivial
  have send : ∀ {c : Contract} {b v : AccountId} {m : Nat} {s : Option Bool},
      o = c.sendTokens b v m s → o.silent := by
    intro c b v m s e
    unfold sendTokens at e
    split at e <;> subst e <;> trivial
  cases k <;> simp only [exec] at h
  case addSimplePool =>
    obtain ⟨_, -, hn, h1, h⟩ := addSimplePool_inv h
    obtain ⟨q, _, hr, hx, rfl⟩ := addPool_inv h
    exact nn (checkStorage_near hx) ho
  case addCurvePool =>
    obtain ⟨_, -, hl, hn, h1, h⟩ := addCurvePool_inv h
    obtain ⟨q, _, hr, hx, rfl⟩ := addPool_inv h
    exact nn (checkStorage_near hx) ho
  case addLiquidity =>
    unpack at h; obtain ⟨_, _, _, h, rfl, rfl⟩ := h
    obtain ⟨_, p, q, _, _, acc', _, -, -, hq, hn, ha, -, h1, h2, -, hx, rfl⟩ := addLiquidity_inv h
    exact nn (checkStorage_near hx) ho
  case addStableLiquidity =>
    unpack at h; obtain ⟨_, _, _, h, rfl, rfl⟩ := h
    obtain ⟨_, p, q, _, acc', _, -, -, hq, hn, ha, -, h1, h2, -, hx, rfl⟩ := addStableLiquidity_inv h
    exact nn (checkStorage_near hx) ho
  case withdraw token amount unregister skip =>
    obtain ⟨_, _, acc', n, -, -, hn, h1, -, -, h2, h3, -, rfl, rfl⟩ := withdraw_inv h
    exact send (List.mem_singleton.1 ho)
  case claimLostfound token =>
    obtain ⟨-, -, hn, -, rfl, rfl⟩ := claimLostfound_inv h
    cases List.mem_singleton.1 ho; trivial
  case ftOnTransfer sender amount msg =>
    obtain ⟨-, -, ⟨-, hn, hd, rfl⟩ | ⟨_, _, _, _, _, rfl, hi⟩ | ⟨_, _, _, rfl, rfl, hz⟩⟩ :=
      ftOnTransfer_inv h
    · cases ho
    · obtain ⟨_, -, -, -, -, -, rfl⟩ := instantSwap_inv hi
      obtain ⟨p, -, e⟩ := List.mem_map.1 ho
      unfold payOut at e
      split at e
      · subst e; trivial
      · exact send e.symm
    · cases ho
  case mftTransferCall =>
    obtain ⟨-, -, _, hi, rfl⟩ := mftTransferCall_inv h
    cases List.mem_singleton.1 ho; trivial
  case mftRegister =>
    obtain ⟨_, p, q, _, -, -, hq, hr, hx, rfl⟩ := mftRegister_inv h
    exact nn (checkStorage_near hx) ho
  case mftUnregister =>
    obtain ⟨_, p, q, -, -, -, hq, hr, rfl, rfl⟩ := mftUnregister_inv h
    exact nn (storageRefund_near x x.pred) ho
  case storageDeposit =>
    obtain ⟨-, hx, -⟩ := storageDeposit_inv h
    exact nn hx ho
  case storageWithdraw =>
    obtain ⟨acc, n, -, -, h1, -, -, -, rfl, rfl⟩ := storageWithdraw_inv h
    cases List.mem_singleton.1 ho; trivial
  case storageUnregister =>
    obtain ⟨-, -, ⟨-, rfl, rfl⟩ | ⟨acc, h1, h2, -, rfl, rfl⟩⟩ := storageUnregister_inv h
    · cases ho
    · cases List.mem_singleton.1 ho; trivial
  case shadowAction => exact absurd rfl (hs _ _ _)
  case onBurrowLiquidation => exact absurd rfl (hl _ _ _ _ _)
  case donationShare =>
    obtain ⟨p, _, q, q', -, -, hq, -, -, hs, hu, hx, hc⟩ := donationShare_inv h
    exact nn hx ho
  case retrieveUnmanaged token n =>
    unpack at h; obtain ⟨_, h, rfl, rfl⟩ := h
    obtain ⟨-, -, -, rfl⟩ := retrieveUnmanaged_inv h
    cases List.mem_singleton.1 ho; trivial
  case withdrawOwnerToken =>
    obtain ⟨_, own', -, -, -, -, h1, h2, rfl, rfl⟩ := withdrawOwnerToken_inv h
    exact send (List.mem_singleton.1 ho)
  all_goals
    unpack at h
    first
      | (obtain ⟨_, -, -, rfl⟩ := h; cases ho)
      | (obtain ⟨_, _, -, -, rfl⟩ := h; cases ho)

/-- Callbacks send no word of pledges. -/
theorem callback_silent {c c' : Contract} {x : Ctx} {out : Out} {o : Outcome} {outs : List Out}
    (h : c.callback x out o = .ok (c', outs)) : ∀ o ∈ outs, o.silent := by
  intro p hp
  cases out <;> simp only [callback] at h
  case ft =>
    cases o <;> simp only [] at h
    · cases h; cases hp
    · unpack at h; obtain ⟨_, -, -, rfl⟩ := h; cases hp
  case ftCall =>
    cases o <;> simp only [] at h
    · cases h; cases hp
    · unpack at h; obtain ⟨_, -, -, rfl⟩ := h; cases hp
  case unwrap =>
    cases o <;> simp only [] at h
    · cases h; cases List.mem_singleton.1 hp; trivial
    · unpack at h; obtain ⟨_, -, _, -, -, rfl⟩ := h; cases hp
  case mftCall =>
    unpack at h; obtain ⟨_, _, -, -, rfl⟩ := h; cases hp
  case shadow =>
    obtain ⟨hn, -⟩ := callbackOnShadow_inv h
    obtain ⟨_, _, rfl⟩ := hn _ hp
    trivial
  all_goals (cases h; cases hp)

end Contract

/-! ### Receipts under way -/

theorem ahead_nil (s : Side) (a : AccountId) (id : Nat) : ahead [] s a id = 0 := rfl
theorem behind_nil (s : Side) (a : AccountId) (id : Nat) : behind [] s a id = 0 := rfl

theorem ahead_cons (i : Notice) (q : List Notice) (s : Side) (a : AccountId) (id : Nat) :
    ahead (i :: q) s a id = i.ahead s a id + ahead q s a id := by simp [ahead]

theorem behind_cons (i : Notice) (q : List Notice) (s : Side) (a : AccountId) (id : Nat) :
    behind (i :: q) s a id = i.behind s a id + behind q s a id := by simp [behind]

theorem ahead_append (q r : List Notice) (s : Side) (a : AccountId) (id : Nat) :
    ahead (q ++ r) s a id = ahead q s a id + ahead r s a id := by simp [ahead]

theorem behind_append (q r : List Notice) (s : Side) (a : AccountId) (id : Nat) :
    behind (q ++ r) s a id = behind q s a id + behind r s a id := by simp [behind]

theorem silent_ahead {outs : List Out} (h : ∀ o ∈ outs, o.silent) (s : Side) (a : AccountId)
    (id : Nat) : ahead (outs.map .pending) s a id = 0 := by
  induction outs with
  | nil => rfl
  | cons o os ih =>
    rw [List.map_cons, ahead_cons, ih fun p hp => h p (.tail _ hp)]
    have := h o (.head _)
    cases o <;> first | rfl | exact this.elim

theorem silent_behind {outs : List Out} (h : ∀ o ∈ outs, o.silent) (s : Side) (a : AccountId)
    (id : Nat) : behind (outs.map .pending) s a id = 0 := by
  induction outs with
  | nil => rfl
  | cons o os ih =>
    rw [List.map_cons, behind_cons, ih fun p hp => h p (.tail _ hp)]
    have := h o (.head _)
    cases o <;> first | rfl | exact this.elim

theorem nearOnly_silent {outs : List Out} (h : Contract.nearOnly outs) : ∀ o ∈ outs, o.silent := by
  intro o ho
  obtain ⟨_, _, rfl⟩ := h o ho
  trivial

namespace Contract

theorem pledgedOf_put (c : Contract) (a b : AccountId) (acc : Account) (i : Nat) :
    (c.putAccount a acc).pledgedOf b i = if b = a then acc.pledged i else c.pledgedOf b i := by
  simp only [pledgedOf_eq, putAccount, pledgeIn_insert]

/-- What `shadow_action` adds to the record is what it sends word of. -/
theorem shadowAction_record {c c' : Contract} {x : Ctx} {act : ShadowAction} {id : Nat}
    {amount : Option Nat} {outs : List Out}
    (h : c.exec x (.shadowAction act id amount) = .ok (c', outs)) (s : Side) (b : AccountId) (i : Nat) :
    (c'.pledgedOf b i).on s = (c.pledgedOf b i).on s + ahead (outs.map .pending) s b i ∧
    behind (outs.map .pending) s b i = 0 := by
  simp only [exec] at h
  obtain ⟨acc, p, m, n, -, h1, hp, hmax, hn, hpos, hle, ⟨hf, rfl, rfl⟩ |
    ⟨ht, acc', fee, outs', h2, -, hx, rfl, rfl⟩⟩ := shadowAction_inv h
  · rcases hf with rfl | rfl <;> exact ⟨by simp [ahead, Notice.ahead, ShadowAction.casts], rfl⟩
  · have hq := nearOnly_silent (checkStorage_near hx)
    rw [List.map_append, ahead_append, behind_append, silent_ahead hq, silent_behind hq]
    refine ⟨?_, rfl⟩
    obtain ⟨-, -, hm, ho⟩ := Account.updateShadow_ok h2
    rw [pledgedOf_put, List.map_singleton, ahead_cons, ahead_nil]
    by_cases hb : b = x.pred
    · subst hb
      rw [if_pos rfl, pledgedOf_eq, pledgeIn_some h1]
      by_cases hi : i = id
      · subst hi
        rcases ht with rfl | rfl <;> simp only [Account.movedRecord] at hm <;> unpack at hm <;>
          obtain ⟨-, hm⟩ := hm <;> rw [← hm] <;> cases s <;>
          simp [Notice.ahead, ShadowAction.side, ShadowAction.casts, ShadowRecord.on]
      · rw [(ho i hi).1]
        simp [Notice.ahead, Ne.symm hi]
    · rw [if_neg hb]
      simp [Notice.ahead, Ne.symm hb]

/-- What the callback of a pledge or a return takes off the record is what the record was ahead. -/
theorem callback_record {c c' : Contract} {x : Ctx} {act : ShadowAction} {a : AccountId}
    {id n fee : Nat} {ok : Bool} {v : Option Nat} {outs : List Out}
    (h : c.callback x (.shadow act a id n fee) (answer ok v) = .ok (c', outs)) (s : Side)
    (b : AccountId) (i : Nat) :
    (c'.pledgedOf b i).on s + (Notice.answered act a id n fee ok).ahead s b i =
      (c.pledgedOf b i).on s := by
  have only : ∀ {d : Contract}, OnlyPledge c d a id → ¬ (b = a ∧ i = id) →
      (d.pledgedOf b i).on s + (Notice.answered act a id n fee ok).ahead s b i =
        (c.pledgedOf b i).on s := by
    intro d hd hne
    rw [hd.pledges b i fun e => hne (by cases e; exact ⟨rfl, rfl⟩)]
    simp only [Notice.ahead]
    rw [if_neg fun e => hne ⟨e.2.1.symm, e.2.2.1.symm⟩]; rfl
  have parts : ∀ {r r' : ShadowRecord} {k : Nat}, r'.part act + k = r.part act →
      r'.other act = r.other act → (k = if act.casts ≠ ok then n else 0) →
      r'.on s + (Notice.answered act a id n fee ok).ahead s a id = r.on s := by
    intro r r' k h1 h2 hk
    subst hk
    cases act <;> cases s <;>
      simp_all [Notice.ahead, ShadowAction.side, ShadowRecord.part, ShadowRecord.other,
        ShadowRecord.on]
  cases hc : act.casts
  · have ht : act = .fromFarming ∨ act = .fromBurrowland := by
      cases act <;> first | exact .inl rfl | exact .inr rfl | cases hc
    obtain ⟨h1, h2, h3, -⟩ := C26_released h ht
    by_cases hne : b = a ∧ i = id
    · obtain ⟨rfl, rfl⟩ := hne
      refine parts h1 h2 ?_
      rw [hc]; cases ok <;> simp [answer]
    · exact only h3 hne
  · have ht : act = .toFarming ∨ act = .toBurrowland := by
      cases act <;> first | exact .inl rfl | exact .inr rfl | cases hc
    cases ok
    · obtain ⟨h1, h2, h3, -⟩ := C26_failed_cast h ht
      by_cases hne : b = a ∧ i = id
      · obtain ⟨rfl, rfl⟩ := hne
        exact parts h1 h2 (by rw [hc]; simp)
      · exact only h3 hne
    · obtain ⟨rfl, -⟩ := C26_accepted_cast (v := v) h ht
      simp [Notice.ahead, hc]

/-- A liquidation takes the amount off the record of the lending contract, and off the record of the
farm what it sends word of. -/
theorem liquidation_record {c c' : Contract} {x : Ctx} {liquidator debtor : AccountId}
    {sid : List Char} {n id : Nat} {mins : List Nat} {outs : List Out}
    (h : c.exec x (.onBurrowLiquidation liquidator debtor sid n mins) = .ok (c', outs))
    (hid : shadowIdToPoolId sid = .ok id) (s : Side) (b : AccountId) (i : Nat) :
    (c'.pledgedOf b i).on s + behind (outs.map .pending) s b i +
        (if s = .lender ∧ b = debtor ∧ i = id then n else 0) = (c.pledgedOf b i).on s ∧
    ahead (outs.map .pending) s b i = 0 := by
  simp only [exec] at h
  obtain ⟨j, p, q, paid, acc, acc1, free, acc2, acc3, liq, liq', -, -, hj, hp, -, h1, h2, h3, h4, h5,
    -, h6, hq, h7, -, rfl, rfl⟩ := onBurrowLiquidation_inv h
  rw [hid] at hj
  cases hj
  have hout : ahead ((if seedToWithdraw free n > 0 then
        [Out.liquidated debtor id (seedToWithdraw free n)] else []).map .pending) s b i = 0 ∧
      behind ((if seedToWithdraw free n > 0 then
        [Out.liquidated debtor id (seedToWithdraw free n)] else []).map .pending) s b i =
        if s = .farm ∧ b = debtor ∧ i = id then seedToWithdraw free n else 0 := by
    split
    · simp [ahead, behind, Notice.ahead, Notice.behind, eq_comm]
    · rename_i hz
      have : seedToWithdraw free n = 0 := by omega
      simp [ahead, behind, this]
  rw [hout.1, hout.2]
  refine ⟨?_, rfl⟩
  have hpl : pledgeIn ((c.accounts.insert debtor acc3).insert liquidator liq') b i =
      if b = debtor then acc3.pledged i else pledgeIn c.accounts b i := by
    have hs := (Account.depositAll_ok h7).1.shadow
    rw [pledgeIn_insert]
    by_cases hbl : b = liquidator
    · subst hbl
      rw [if_pos rfl, Account.pledged, hs, ← Account.pledged, ← pledgeIn_some h6, pledgeIn_insert]
    · rw [if_neg hbl, pledgeIn_insert]
  obtain ⟨-, e5, -⟩ := creditStorage_ok h5
  have e3 : acc3.pledged i = acc2.pledged i := by rw [Account.pledged, Account.pledged, e5]
  obtain ⟨-, -, hm, ho⟩ := Account.updateShadow_ok h2
  obtain ⟨-, -, hseed, hr, hro⟩ := releaseSeed_ok h4
  simp only [pledgedOf_eq, hpl, e3]
  by_cases hb : b = debtor
  · subst hb
    rw [if_pos rfl, pledgeIn_some h1]
    by_cases hi : i = id
    · subst hi
      rw [hr]
      simp only [Account.movedRecord] at hm
      unpack at hm
      obtain ⟨hle, hm⟩ := hm
      rw [← hm] at hseed ⊢
      simp only at hseed
      cases s <;> simp [ShadowRecord.on] <;> omega
    · rw [hro i hi, (ho i hi).1]
      simp [hi]
  · simp [hb]

end Contract

/-! ### Books and record -/

/-- The record of the exchange agrees with the books, receipts under way counted. -/
def PledgeWorld.Agrees (w : PledgeWorld) : Prop :=
  ∀ s a id, (w.c.pledgedOf a id).on s + behind w.queue s a id +
      (if s = .farm then w.refused a id else 0) =
    w.books s a id + ahead w.queue s a id + w.unbooked s a id

theorem Books.set_apply (b : Books) (s s' : Side) (a a' : AccountId) (id id' n : Nat) :
    b.set s a id n s' a' id' = if s' = s ∧ a' = a ∧ id' = id then n else b s' a' id' := rfl

namespace PledgeWorld

theorem Step.agrees {w w' : PledgeWorld} {e : Option Event} (h : w.Step e w') (hw : w.Agrees) :
    w'.Agrees := by
  intro s a id
  have hw := hw s a id
  cases h with
  | @call x k c' outs h1 h2 h3 h4 =>
    simp only [ahead_append, behind_append]
    by_cases hk : ∃ act j n, k = .shadowAction act j n
    · obtain ⟨act, j, n, rfl⟩ := hk
      obtain ⟨e1, e2⟩ := Contract.shadowAction_record h1 s a id
      omega
    · have hs : ∀ act j n, k ≠ .shadowAction act j n := fun act j n e => hk ⟨act, j, n, e⟩
      have hq := Contract.exec_silent h1 hs h2
      rw [silent_ahead hq, silent_behind hq]
      rcases Contract.exec_pledges h1 a id with e | ⟨_, _, e, -⟩ | ⟨_, _, _, _, e⟩
      · rw [e]; omega
      · exact absurd e (hs _ _ _)
      · exact absurd e (h2 _ _ _ _ _)
  | @liquidate x liq debtor sid j n mins c' outs h1 h2 h3 =>
    obtain ⟨e1, e2⟩ := Contract.liquidation_record h1 h2 s a id
    simp only [ahead_append, behind_append, Books.set_apply]
    by_cases hc : s = .lender ∧ a = debtor ∧ id = j
    · obtain ⟨rfl, rfl, rfl⟩ := hc
      simp only [and_self, if_true] at e1 ⊢
      omega
    · rw [if_neg hc] at e1 ⊢
      omega
  | @accept q r act b j n fee h1 h2 =>
    rw [h1] at hw
    simp only [ahead_append, behind_append, ahead_cons, behind_cons, Books.set_apply] at hw ⊢
    by_cases hc : s = act.side ∧ a = b ∧ id = j
    · obtain ⟨rfl, rfl, rfl⟩ := hc
      simp only [Notice.ahead, Notice.behind, h2, and_self, if_true, ne_eq, not_true, and_false,
        if_false] at hw ⊢
      omega
    · rw [if_neg hc]
      have e1 : (Notice.pending (.shadow act b j n fee)).ahead s a id = 0 := by
        simp only [Notice.ahead]
        rw [if_neg fun e => hc ⟨e.1.symm, e.2.1.symm, e.2.2.1.symm⟩]
      have e2 : (Notice.answered act b j n fee true).ahead s a id = 0 := by
        simp only [Notice.ahead]
        rw [if_neg fun e => hc ⟨e.1.symm, e.2.1.symm, e.2.2.1.symm⟩]
      rw [e1] at hw
      rw [e2]
      exact hw
  | @release q r act b j n fee h1 h2 h3 =>
    rw [h1] at hw
    simp only [ahead_append, behind_append, ahead_cons, behind_cons, Books.set_apply] at hw ⊢
    by_cases hc : s = act.side ∧ a = b ∧ id = j
    · obtain ⟨rfl, rfl, rfl⟩ := hc
      simp only [Notice.ahead, Notice.behind, h2, and_self, if_true, ne_eq,
        Bool.false_eq_true, and_false, not_false_eq_true, if_false] at hw ⊢
      omega
    · rw [if_neg hc]
      have e1 : (Notice.pending (.shadow act b j n fee)).ahead s a id = 0 := by
        simp only [Notice.ahead]
        rw [if_neg fun e => hc ⟨e.1.symm, e.2.1.symm, e.2.2.1.symm⟩]
      have e2 : (Notice.answered act b j n fee true).ahead s a id = 0 := by
        simp only [Notice.ahead]
        rw [if_neg fun e => hc ⟨e.1.symm, e.2.1.symm, e.2.2.1.symm⟩]
      rw [e1] at hw
      rw [e2]
      exact hw
  | @refuse q r act b j n fee h1 =>
    rw [h1] at hw
    simp only [ahead_append, behind_append, ahead_cons, behind_cons] at hw ⊢
    have e : (Notice.answered act b j n fee false).ahead s a id =
        (Notice.pending (.shadow act b j n fee)).ahead s a id := by
      simp only [Notice.ahead]
      cases act.casts <;> simp
    rw [e]
    exact hw
  | @seed q r b j n h1 h2 =>
    rw [h1] at hw
    simp only [ahead_append, behind_append, ahead_cons, behind_cons, Books.set_apply, Notice.ahead,
      Notice.behind] at hw ⊢
    by_cases hc : s = .farm ∧ a = b ∧ id = j
    · obtain ⟨rfl, rfl, rfl⟩ := hc
      simp only [and_self, if_true] at hw ⊢
      omega
    · rw [if_neg hc]
      rw [if_neg fun e => hc ⟨e.1, e.2.1.symm, e.2.2.symm⟩] at hw
      omega
  | @seedRefused q r b j n h1 =>
    rw [h1] at hw
    simp only [ahead_append, behind_append, ahead_cons, behind_cons, Notice.ahead,
      Notice.behind] at hw ⊢
    cases s
    · by_cases hc : a = b ∧ id = j
      · obtain ⟨rfl, rfl⟩ := hc
        simp only [and_self, if_true] at hw ⊢
        omega
      · have hc' : ¬ (b = a ∧ j = id) := fun e => hc ⟨e.1.symm, e.2.symm⟩
        simp only [hc, hc', and_false, if_true, if_false] at hw ⊢
        omega
    · simp only [reduceCtorEq, false_and, if_false] at hw ⊢
      omega
  | @book q r act b j n fee ok x v c' outs h1 h2 =>
    rw [h1] at hw
    have hq := Contract.callback_silent h2
    have e := Contract.callback_record h2 s a id
    simp only [ahead_append, behind_append, ahead_cons, behind_cons, silent_ahead hq,
      silent_behind hq] at hw ⊢
    have e' : (Notice.answered act b j n fee ok).behind s a id = 0 := rfl
    omega
  | @fail q r act b j n fee ok x v er h1 h2 =>
    rw [h1] at hw
    simp only [ahead_append, behind_append, ahead_cons, behind_cons, Books.set_apply] at hw ⊢
    have e' : (Notice.answered act b j n fee ok).behind s a id = 0 := rfl
    by_cases hc : s = act.side ∧ a = b ∧ id = j
    · obtain ⟨rfl, rfl, rfl⟩ := hc
      simp only [and_self, if_true, Notice.ahead, true_and, ne_eq] at hw ⊢
      by_cases hk : act.casts = ok
      · simp only [hk, if_true, not_true, if_false] at hw ⊢; omega
      · simp only [hk, not_false_eq_true, if_true, if_false] at hw ⊢; omega
    · rw [if_neg hc]
      have e2 : (Notice.answered act b j n fee ok).ahead s a id = 0 := by
        simp only [Notice.ahead]
        rw [if_neg fun e => hc ⟨e.1.symm, e.2.1.symm, e.2.2.1.symm⟩]
      omega
  | @other e c' outs h1 h2 h3 =>
    have key : (∀ o ∈ outs, o.silent) ∧ c'.pledgedOf a id = w.c.pledgedOf a id := by
      cases e <;> simp only [Contract.apply] at h1
      case call => exact absurd rfl (h2 _ _)
      case callback x out o =>
        refine ⟨Contract.callback_silent h1, ?_⟩
        rcases Contract.callback_pledges h1 a id with h | ⟨_, _, _, rfl, -⟩
        · exact h
        · exact absurd rfl (h3 _ _ _ _ _ _ _)
      case rate =>
        cases h1
        refine ⟨fun _ h => (nomatch h), ?_⟩
        unfold Contract.setRate; split <;> rfl
      case price =>
        cases h1
        refine ⟨fun _ h => (nomatch h), ?_⟩
        unfold Contract.setDegenPrice; split <;> rfl
    simp only [ahead_append, behind_append, silent_ahead key.1, silent_behind key.1, key.2]
    omega

theorem Reachable.mono {P Q : Contract → Event → Prop} (hPQ : ∀ c e, P c e → Q c e)
    {w : PledgeWorld} (h : w.Reachable P) : w.Reachable Q := by
  induction h with
  | init hi => exact .init hi
  | step _ hs hp ih => exact .step ih hs fun ev he => hPQ _ _ (hp ev he)

/-- What a receipt does to the exchange. -/
theorem Step.event {w w' : PledgeWorld} {e : Option Event} (h : w.Step e w') :
    w'.c = w.c ∨ ∃ ev outs, e = some ev ∧ w.c.apply ev = .ok (w'.c, outs) := by
  cases h with
  | call h1 => exact .inr ⟨_, _, rfl, h1⟩
  | liquidate h1 => exact .inr ⟨_, _, rfl, h1⟩
  | book _ h1 => exact .inr ⟨_, _, rfl, h1⟩
  | other h1 => exact .inr ⟨_, _, rfl, h1⟩
  | _ => exact .inl rfl

/-- C81: the exchange only ever gets into states that a history of its own leads to, so everything
proved about those holds here. -/
theorem C81_histories {P : Contract → Event → Prop} {w : PledgeWorld} (h : w.Reachable P) :
    w.c.Reachable := by
  induction h with
  | init hi => exact ⟨_, _, _, _, _, _, _, [], hi, rfl⟩
  | step _ hs _ ih =>
    rcases hs.event with e | ⟨ev, outs, -, e⟩
    · rw [e]; exact ih
    · exact ih.next e

/-- C81: in every world, whatever the order of the receipts, the record of the exchange and the books
of the farm and of the lending contract differ exactly by the receipts under way, by what the farm
refused to give back for a liquidation and by what the exchange failed to book. -/
theorem C81_books {P : Contract → Event → Prop} {w : PledgeWorld} (h : w.Reachable P) (s : Side)
    (a : AccountId) (id : Nat) :
    (w.c.pledgedOf a id).on s + behind w.queue s a id + (if s = .farm then w.refused a id else 0) =
      w.books s a id + ahead w.queue s a id + w.unbooked s a id := by
  revert s a id
  show w.Agrees
  induction h with
  | init hi =>
    intro s a id
    unfold Contract.init at hi
    unpack at hi
    obtain ⟨-, rfl⟩ := hi
    cases s <;> rfl
  | step _ hs _ ih => exact hs.agrees ih

/-- Every amount under way is positive. -/
def _root_.Verif.Notice.positive : Notice → Prop
  | .pending (.shadow _ _ _ n _) => 0 < n
  | .answered _ _ _ n _ _ => 0 < n
  | _ => True

theorem silent_positive {outs : List Out} (h : ∀ o ∈ outs, o.silent) :
    ∀ i ∈ outs.map Notice.pending, i.positive := by
  intro i hi
  obtain ⟨o, ho, rfl⟩ := List.mem_map.1 hi
  have := h o ho
  cases o <;> trivial

theorem Step.positive {w w' : PledgeWorld} {e : Option Event} (h : w.Step e w')
    (hw : ∀ i ∈ w.queue, i.positive) : ∀ i ∈ w'.queue, i.positive := by
  have add : ∀ {q r : List Notice}, (∀ i ∈ q, i.positive) → (∀ i ∈ r, i.positive) →
      ∀ i ∈ q ++ r, i.positive := by
    intro q r h1 h2 i hi
    rcases List.mem_append.1 hi with hi | hi
    · exact h1 i hi
    · exact h2 i hi
  have drop : ∀ {q r : List Notice} {i : Notice}, w.queue = q ++ i :: r →
      i.positive ∧ ∀ j, j.positive → ∀ k ∈ q ++ j :: r, k.positive := by
    intro q r i hq
    rw [hq] at hw
    refine ⟨hw i (by simp), fun j hj k hk => ?_⟩
    rcases List.mem_append.1 hk with hk | hk
    · exact hw k (by simp [hk])
    · rcases List.mem_cons.1 hk with rfl | hk
      · exact hj
      · exact hw k (by simp [hk])
  have gone : ∀ {q r : List Notice} {i : Notice}, w.queue = q ++ i :: r →
      ∀ k ∈ q ++ r, k.positive := by
    intro q r i hq k hk
    rw [hq] at hw
    rcases List.mem_append.1 hk with hk | hk
    · exact hw k (by simp [hk])
    · exact hw k (by simp [hk])
  cases h with
  | @call x k c' outs h1 h2 =>
    refine add hw ?_
    by_cases hk : ∃ act j n, k = .shadowAction act j n
    · obtain ⟨act, j, n, rfl⟩ := hk
      simp only [Contract.exec] at h1
      obtain ⟨acc, p, m, n, -, -, -, -, -, hpos, -, ⟨-, -, rfl⟩ | ⟨-, _, _, _, -, -, hx, -, rfl⟩⟩ :=
        Contract.shadowAction_inv h1
      · intro i hi
        cases List.mem_singleton.1 hi; exact hpos
      · rw [List.map_append]
        refine add (silent_positive (nearOnly_silent (Contract.checkStorage_near hx))) ?_
        intro i hi
        cases List.mem_singleton.1 hi; exact hpos
    · exact silent_positive (Contract.exec_silent h1 (fun act j n e => hk ⟨act, j, n, e⟩) h2)
  | liquidate h1 =>
    refine add hw ?_
    simp only [Contract.exec] at h1
    obtain ⟨_, _, _, _, _, _, _, _, _, _, _, -, -, -, -, -, -, -, -, -, -, -, -, -, -, -, -, rfl⟩ :=
      Contract.onBurrowLiquidation_inv h1
    intro i hi
    split at hi
    · cases List.mem_singleton.1 hi; trivial
    · cases hi
  | accept h1 => exact (drop h1).2 _ (drop h1).1
  | release h1 => exact (drop h1).2 _ (drop h1).1
  | refuse h1 => exact (drop h1).2 _ (drop h1).1
  | seed h1 => exact gone h1
  | seedRefused h1 => exact gone h1
  | book h1 h2 => exact add (gone h1) (silent_positive (Contract.callback_silent h2))
  | fail h1 => exact gone h1
  | @other e c' outs h1 h2 h3 =>
    refine add hw (silent_positive ?_)
    cases e <;> simp only [Contract.apply] at h1
    case call => exact absurd rfl (h2 _ _)
    case callback => exact Contract.callback_silent h1
    case rate => cases h1; exact fun _ h => (nomatch h)
    case price => cases h1; exact fun _ h => (nomatch h)

theorem allPositive {P : Contract → Event → Prop} {w : PledgeWorld} (h : w.Reachable P) :
    ∀ i ∈ w.queue, i.positive := by
  induction h with
  | init => exact fun _ h => (nomatch h)
  | step _ hs _ ih => exact hs.positive ih

/-- `a` is not the owner, and the storage credited to `a` fits into its balance. -/
def Undisturbed (a : AccountId) (c : Contract) (e : Event) : Prop :=
  a ≠ c.cfg.owner ∧ ∀ x act id n fee o, e = .callback x (.shadow act a id n fee) o →
    c.nearOf a + x.shrank * BYTE_COST < 2 ^ 128

/-- The event is not a liquidation of `a`. -/
def Spares (a : AccountId) (e : Event) : Prop :=
  ∀ x l sid n m, e ≠ .call x (.onBurrowLiquidation l a sid n m)

theorem covered {P : Contract → Event → Prop} {a : AccountId} (hP : ∀ c e, P c e → Undisturbed a c e)
    {w : PledgeWorld} (h : w.Reachable P) :
    ∀ acc, w.c.accounts.get? a = some acc → acc.Covered := by
  induction h with
  | init hi =>
    unfold Contract.init at hi
    unpack at hi
    obtain ⟨-, rfl⟩ := hi
    intro acc h
    simp [FMap.get?_empty] at h
  | @step w w' e hr hs hp ih =>
    rcases hs.event with he | ⟨ev, outs, rfl, he⟩
    · rw [he]; exact ih
    · have hne := (hP _ _ (hp ev rfl)).1
      generalize w'.c = c' at he ⊢
      cases ev <;> simp only [Contract.apply] at he
      case call x k =>
        intro acc hm
        rcases Contract.exec_kept he a acc hm with h1 | h1 | h1
        · exact ih acc h1
        · exact h1
        · exact absurd h1.1 hne
      case callback => exact Contract.callback_covered he hne ih
      case rate t q time => cases he; unfold Contract.setRate; split <;> exact ih
      case price t p time => cases he; unfold Contract.setDegenPrice; split <;> exact ih

/-- A callback that has to take shares off a record that counts them succeeds. -/
theorem callback_succeeds {c : Contract} {x : Ctx} {act : ShadowAction} {a : AccountId}
    {id n fee : Nat} {ok : Bool} {v : Option Nat} (hne : act.casts ≠ ok) (hpos : 0 < n)
    (hn : n ≤ (c.pledgedOf a id).on act.side)
    (hc : ∀ acc, c.accounts.get? a = some acc → acc.Covered)
    (hx : c.nearOf a + x.shrank * BYTE_COST < 2 ^ 128) :
    ∃ r, c.callback x (.shadow act a id n fee) (answer ok v) = .ok r := by
  rcases Option.eq_none_or_eq_some (c.accounts.get? a) with ha | ⟨acc, ha⟩
  · have : c.pledgedOf a id = ⟨0, 0⟩ := by simp only [Contract.pledgedOf, ha]
    rw [this] at hn
    clear hx hc
    exact absurd hpos (by cases act <;> exact Nat.not_lt.2 hn)
  · cases hk : act.casts
    · have ht : act = .fromFarming ∨ act = .fromBurrowland := by
        cases act <;> first | exact .inl rfl | exact .inr rfl | cases hk
      have hok : ok = true := by
        cases ok
        · exact absurd hk hne
        · rfl
      subst hok
      have hcov := hc acc ha
      have hac : c.account a = .ok acc := Contract.account_ok.2 ha
      rw [Contract.pledgedOf_eq, pledgeIn_some ha, Account.pledged_def] at hn
      have hu : ∃ acc', acc.updateShadow id act n = .ok acc' := by
        clear hx
        unfold Account.updateShadow
        rcases ht with rfl | rfl <;> simp only [Account.movedRecord] <;>
          simp only [ShadowAction.side, ShadowRecord.on] at hn <;>
          rw [subW_ok.2 ⟨hn, rfl⟩, ok_bind, ok_bind] <;> split <;> exact ⟨_, rfl⟩
      obtain ⟨acc', hu⟩ := hu
      obtain ⟨hnear, htok, -⟩ := Account.updateShadow_ok hu
      have hx' : acc'.near + x.shrank * BYTE_COST < 2 ^ 128 := by
        rw [hnear]
        have e : c.nearOf a = acc.near := by simp only [Contract.nearOf, ha]
        rw [← e]; exact hx
      have hcr : ∃ acc2, Contract.creditStorage x acc' = .ok acc2 := by
        unfold Contract.creditStorage
        generalize x.shrank * BYTE_COST = m at hx' ⊢
        rw [addW_ok.2 ⟨hx', rfl⟩]
        exact ⟨_, rfl⟩
      clear hx hx'
      obtain ⟨acc2, hcr⟩ := hcr
      obtain ⟨e1, -, e2⟩ := Contract.creditStorage_ok hcr
      have hs : c.saveAccount a acc2 = .ok (c.putAccount a acc2) := by
        refine Contract.saveAccount_ok.2 ⟨?_, rfl⟩
        unfold Account.Covered Account.storageUsage at hcov
        unfold Account.storageUsage
        rw [e1, htok, e2, hnear]
        generalize x.shrank * BYTE_COST = m
        exact Nat.le_trans hcov (Nat.le_add_right _ _)
      refine ⟨(c.putAccount a acc2, []), ?_⟩
      have ha : answer true v = .success v := rfl
      rw [ha]
      rcases ht with rfl | rfl <;> simp only [Contract.callback, Contract.callbackOnShadow] <;>
        rw [hac, ok_bind, hu, ok_bind, hcr, ok_bind, hs, ok_bind]
    · have ht : act = .toFarming ∨ act = .toBurrowland := by
        cases act <;> first | exact .inl rfl | exact .inr rfl | cases hk
      have hok : ok = false := by
        cases ok
        · rfl
        · exact absurd hk hne
      subst hok
      refine Contract.C26_failed_cast_succeeds ht ha (hc acc ha) ?_
      rcases ht with rfl | rfl <;> exact hn

theorem behind_lender (q : List Notice) (a : AccountId) (id : Nat) : behind q .lender a id = 0 := by
  induction q with
  | nil => rfl
  | cons i q ih =>
    rw [behind_cons, ih]
    cases i with
    | pending o => cases o <;> simp [Notice.behind]
    | answered => rfl

/-- Nothing about `a` is lost on this side. -/
def Clean (s : Side) (a : AccountId) (w : PledgeWorld) : Prop :=
  ∀ id, behind w.queue s a id = 0 ∧ (s = .farm → w.refused a id = 0) ∧ w.unbooked s a id = 0

/-- What the record has to give up it counts. -/
theorem Clean.counted {P : Contract → Event → Prop} {w : PledgeWorld} (h : w.Reachable P)
    {act : ShadowAction} {a : AccountId} (hc : w.Clean act.side a) {q r : List Notice}
    {id n fee : Nat} {ok : Bool} (hq : w.queue = q ++ .answered act a id n fee ok :: r)
    (hne : act.casts ≠ ok) : n ≤ (w.c.pledgedOf a id).on act.side := by
  have hb := C81_books h act.side a id
  obtain ⟨h1, h2, h3⟩ := hc id
  have e : (if act.side = .farm then w.refused a id else 0) = 0 := by
    split
    · exact h2 ‹_›
    · rfl
  have ha : n ≤ ahead w.queue act.side a id := by
    rw [hq, ahead_append, ahead_cons]
    simp only [Notice.ahead, hne, ne_eq, not_false_eq_true, and_self, if_true]
    omega
  omega

theorem Step.clean {P : Contract → Event → Prop} {s : Side} {a : AccountId}
    (hP : ∀ c e, P c e → Undisturbed a c e ∧ (s = .farm → Spares a e)) {w w' : PledgeWorld}
    {e : Option Event} (hr : w.Reachable P) (h : w.Step e w') (hp : ∀ ev, e = some ev → P w.c ev)
    (hw : w.Clean s a) : w'.Clean s a := by
  intro id
  have hcl := hw
  obtain ⟨h1, h2, h3⟩ := hw id
  cases h with
  | @call x k c' outs g1 g2 =>
    refine ⟨?_, h2, h3⟩
    simp only [behind_append, h1]
    by_cases hk : ∃ act j n, k = .shadowAction act j n
    · obtain ⟨act, j, n, rfl⟩ := hk
      rw [(Contract.shadowAction_record g1 s a id).2]
    · rw [silent_behind (Contract.exec_silent g1 (fun act j n e => hk ⟨act, j, n, e⟩) g2)]
  | @liquidate x liq debtor sid j n mins c' outs g1 g2 g3 =>
    refine ⟨?_, h2, h3⟩
    cases s
    · have hd : debtor ≠ a := by
        rintro rfl
        exact (hP _ _ (hp _ rfl)).2 rfl _ _ _ _ _ rfl
      have := (Contract.liquidation_record g1 g2 .farm a id).1
      rcases Contract.exec_pledges g1 a id with e | ⟨_, _, e, -⟩ | ⟨_, _, _, _, e⟩
      · simp only [behind_append]
        rw [e] at this
        omega
      · cases e
      · cases e; exact absurd rfl hd
    · exact behind_lender _ _ _
  | accept g1 =>
    rw [g1] at h1
    simp only [behind_append, behind_cons] at h1
    exact ⟨by simp only [behind_append, behind_cons, Notice.behind]; omega, h2, h3⟩
  | release g1 =>
    rw [g1] at h1
    simp only [behind_append, behind_cons] at h1
    exact ⟨by simp only [behind_append, behind_cons, Notice.behind]; omega, h2, h3⟩
  | refuse g1 =>
    rw [g1] at h1
    simp only [behind_append, behind_cons] at h1
    exact ⟨by simp only [behind_append, behind_cons, Notice.behind]; omega, h2, h3⟩
  | seed g1 =>
    rw [g1] at h1
    simp only [behind_append, behind_cons] at h1
    exact ⟨by simp only [behind_append]; omega, h2, h3⟩
  | @seedRefused q r b j n g1 =>
    rw [g1] at h1
    simp only [behind_append, behind_cons, Notice.behind] at h1
    refine ⟨by simp only [behind_append]; omega, ?_, h3⟩
    intro hs
    have e := h2 hs
    show w.refused a id + (if a = b ∧ id = j then n else 0) = 0
    by_cases hc : a = b ∧ id = j
    · rw [if_pos ⟨hs, hc.1.symm, hc.2.symm⟩] at h1
      rw [if_pos hc]; omega
    · rw [if_neg hc]; omega
  | book g1 g2 =>
    rw [g1] at h1
    simp only [behind_append, behind_cons] at h1
    refine ⟨?_, h2, h3⟩
    simp only [behind_append, silent_behind (Contract.callback_silent g2)]
    omega
  | @fail q r act b j n fee ok x v er g1 g2 =>
    have hcount := @Clean.counted P w hr act b
    have hpos := allPositive hr (.answered act b j n fee ok) (by rw [g1]; simp)
    rw [g1] at h1
    simp only [behind_append, behind_cons] at h1
    refine ⟨by simp only [behind_append]; omega, h2, ?_⟩
    simp only [Books.set_apply]
    by_cases hc : s = act.side ∧ a = b ∧ id = j
    · obtain ⟨rfl, rfl, rfl⟩ := hc
      rw [if_pos ⟨rfl, rfl, rfl⟩]
      by_cases hk : act.casts = ok
      · rw [if_pos hk]; exact h3
      · exfalso
        have hu := (hP _ _ (hp _ rfl)).1
        obtain ⟨r, hr'⟩ := callback_succeeds (fee := fee) (v := v) hk hpos
          (hcount hcl g1 hk) (covered (fun c e h => (hP c e h).1) hr) (hu.2 _ _ _ _ _ _ rfl)
        rw [hr'] at g2
        cases g2
    · rw [if_neg hc]; exact h3
  | @other e c' outs g1 g2 g3 =>
    refine ⟨?_, h2, h3⟩
    simp only [behind_append, h1]
    rw [silent_behind]
    cases e <;> simp only [Contract.apply] at g1
    case call => exact absurd rfl (g2 _ _)
    case callback => exact Contract.callback_silent g1
    case rate => cases g1; exact fun _ h => (nomatch h)
    case price => cases g1; exact fun _ h => (nomatch h)

theorem clean {P : Contract → Event → Prop} {s : Side} {a : AccountId}
    (hP : ∀ c e, P c e → Undisturbed a c e ∧ (s = .farm → Spares a e)) {w : PledgeWorld}
    (h : w.Reachable P) : w.Clean s a := by
  induction h with
  | init => exact fun id => ⟨rfl, fun _ => rfl, rfl⟩
  | step hr hs hp ih => exact hs.clean hP hr hp ih

theorem exact {P : Contract → Event → Prop} {s : Side} {a : AccountId}
    (hP : ∀ c e, P c e → Undisturbed a c e ∧ (s = .farm → Spares a e)) {w : PledgeWorld}
    (h : w.Reachable P) (id : Nat) :
    (w.c.pledgedOf a id).on s = w.books s a id + ahead w.queue s a id := by
  have hb := C81_books h s a id
  obtain ⟨h1, h2, h3⟩ := clean hP h id
  have e : (if s = .farm then w.refused a id else 0) = 0 := by
    split
    · exact h2 ‹_›
    · rfl
  omega

/-- C81: of an account that is not the owner, the record of what is pledged to the lending contract is
exactly what that contract has in its books and what is under way. Liquidations and receipts in
any order do not change that, and no share is lost between the two. -/
theorem C81_lender {a : AccountId} {w : PledgeWorld} (h : w.Reachable (Undisturbed a)) (id : Nat) :
    (w.c.pledgedOf a id).burrow = w.books .lender a id + ahead w.queue .lender a id :=
  exact (s := .lender) (fun _ _ hu => ⟨hu, fun e => nomatch e⟩) h id

/-- C81 (partial: with liquidations it is false, see `C81_overtaken` and `C81_refused`): the same of
the farm, as long as the account is not liquidated. -/
theorem C81_farm_partial {a : AccountId} {w : PledgeWorld}
    (h : w.Reachable fun c e => Undisturbed a c e ∧ Spares a e) (id : Nat) :
    (w.c.pledgedOf a id).farm = w.books .farm a id + ahead w.queue .farm a id :=
  exact (s := .farm) (fun _ _ hu => ⟨hu.1, fun _ => hu.2⟩) h id

/-- C81: when nothing is under way, the lending contract has in its books what the exchange records,
and so has the farm if the account was never liquidated. -/
theorem C81_settled {a : AccountId} {w : PledgeWorld} (hq : w.queue = []) (id : Nat) :
    (w.Reachable (Undisturbed a) → (w.c.pledgedOf a id).burrow = w.books .lender a id) ∧
    ((w.Reachable fun c e => Undisturbed a c e ∧ Spares a e) →
      (w.c.pledgedOf a id).farm = w.books .farm a id) := by
  constructor
  · intro h; have := C81_lender h id; rw [hq] at this; exact this
  · intro h; have := C81_farm_partial h id; rw [hq] at this; exact this

/-- C81: the answer of the lending contract is always booked, and that of the farm if the account is
never liquidated: the callback that has to take shares off the record does not fail. -/
theorem C81_booked {a : AccountId} {w : PledgeWorld} {act : ShadowAction}
    (h : w.Reachable fun c e => Undisturbed a c e ∧ (act.side = .farm → Spares a e))
    {id n fee : Nat} {ok : Bool} (hi : .answered act a id n fee ok ∈ w.queue) (hne : act.casts ≠ ok)
    (x : Ctx) (v : Option Nat) (hx : w.c.nearOf a + x.shrank * BYTE_COST < 2 ^ 128) :
    ∃ c' outs, w.c.callback x (.shadow act a id n fee) (answer ok v) = .ok (c', outs) ∧
      (c'.pledgedOf a id).on act.side + n = (w.c.pledgedOf a id).on act.side := by
  obtain ⟨q, r, hq⟩ := List.append_of_mem hi
  have hcl := clean (s := act.side) (fun _ _ h => h) h
  obtain ⟨⟨c', outs⟩, hr⟩ := callback_succeeds (x := x) (fee := fee) (v := v) hne (allPositive h _ hi)
    (hcl.counted h hq hne) (covered (fun c e h => h.1) h) hx
  refine ⟨c', outs, hr, ?_⟩
  have := Contract.callback_record hr act.side a id
  simpa only [Notice.ahead, hne, ne_eq, not_false_eq_true, and_self, if_true] using this

/-- C81: what the lending contract has in its books is covered by shares the account has in the pool,
in every history in which the account does not donate pledged shares; the same of the farm if the
account is never liquidated either. -/
theorem C81_backed {P : Contract → Event → Prop} {s : Side} {a : AccountId} {id : Nat}
    (hP : ∀ c e, P c e → Undisturbed a c e ∧ (s = .farm → Spares a e) ∧ c.KeepsPledged a id e ∧
      a ≠ c.self) {w : PledgeWorld} (h : w.Reachable P) :
    w.books s a id + ahead w.queue s a id ≤ w.c.sharesOf id a := by
  rw [← exact (s := s) (fun c e h => ⟨(hP c e h).1, (hP c e h).2.1⟩) h id]
  have hb : w.c.Backed a id := by
    induction h with
    | init hi =>
      unfold Contract.init at hi
      unpack at hi
      obtain ⟨-, rfl⟩ := hi
      exact ⟨Nat.zero_le _, Nat.zero_le _⟩
    | @step w w' e hr hs hp ih =>
      rcases hs.event with he | ⟨ev, outs, rfl, he⟩
      · rw [he]; exact ih
      · obtain ⟨-, -, hk, hself⟩ := hP _ _ (hp ev rfl)
        have := Contract.C25_step hself hk ih
        rwa [Contract.step, he] at this
  cases s
  · exact hb.1
  · exact hb.2

/-- A world that comes later, without a liquidation of `a`. -/
inductive Later (a : AccountId) : PledgeWorld → PledgeWorld → Prop where
  | refl {w : PledgeWorld} : Later a w w
  | step {w w' w'' : PledgeWorld} {e : Option Event} : Later a w w' → w'.Step e w'' →
      (∀ ev, e = some ev → Spares a ev) → Later a w w''

/-- Without a liquidation, what is lost stays lost. -/
theorem Step.lost {w w' : PledgeWorld} {e : Option Event} {a : AccountId} (h : w.Step e w')
    (hp : ∀ ev, e = some ev → Spares a ev) {id : Nat} (h1 : behind w.queue .farm a id = 0) :
    behind w'.queue .farm a id = 0 ∧ w'.refused a id = w.refused a id ∧
    w.unbooked .farm a id ≤ w'.unbooked .farm a id := by
  cases h with
  | @call x k c' outs g1 g2 =>
    refine ⟨?_, rfl, Nat.le_refl _⟩
    simp only [behind_append, h1]
    by_cases hk : ∃ act j n, k = .shadowAction act j n
    · obtain ⟨act, j, n, rfl⟩ := hk
      rw [(Contract.shadowAction_record g1 .farm a id).2]
    · rw [silent_behind (Contract.exec_silent g1 (fun act j n e => hk ⟨act, j, n, e⟩) g2)]
  | @liquidate x liq debtor sid j n mins c' outs g1 g2 g3 =>
    refine ⟨?_, rfl, Nat.le_refl _⟩
    have hd : debtor ≠ a := by
      rintro rfl
      exact hp _ rfl _ _ _ _ _ rfl
    have := (Contract.liquidation_record g1 g2 .farm a id).1
    rcases Contract.exec_pledges g1 a id with e | ⟨_, _, e, -⟩ | ⟨_, _, _, _, e⟩
    · simp only [behind_append]
      rw [e] at this
      omega
    · cases e
    · cases e; exact absurd rfl hd
  | accept g1 =>
    rw [g1] at h1
    simp only [behind_append, behind_cons] at h1
    exact ⟨by simp only [behind_append, behind_cons, Notice.behind]; omega, rfl, Nat.le_refl _⟩
  | release g1 =>
    rw [g1] at h1
    simp only [behind_append, behind_cons] at h1
    exact ⟨by simp only [behind_append, behind_cons, Notice.behind]; omega, rfl, Nat.le_refl _⟩
  | refuse g1 =>
    rw [g1] at h1
    simp only [behind_append, behind_cons] at h1
    exact ⟨by simp only [behind_append, behind_cons, Notice.behind]; omega, rfl, Nat.le_refl _⟩
  | seed g1 =>
    rw [g1] at h1
    simp only [behind_append, behind_cons] at h1
    exact ⟨by simp only [behind_append]; omega, rfl, Nat.le_refl _⟩
  | @seedRefused q r b j n g1 =>
    rw [g1] at h1
    simp only [behind_append, behind_cons, Notice.behind, true_and] at h1
    refine ⟨by simp only [behind_append]; omega, ?_, Nat.le_refl _⟩
    show w.refused a id + (if a = b ∧ id = j then n else 0) = w.refused a id
    by_cases hc : a = b ∧ id = j
    · rw [if_pos ⟨hc.1.symm, hc.2.symm⟩] at h1
      rw [if_pos hc]; omega
    · rw [if_neg hc]; rfl
  | book g1 g2 =>
    rw [g1] at h1
    simp only [behind_append, behind_cons] at h1
    refine ⟨?_, rfl, Nat.le_refl _⟩
    simp only [behind_append, silent_behind (Contract.callback_silent g2)]
    omega
  | @fail q r act b j n fee ok x v er g1 g2 =>
    rw [g1] at h1
    simp only [behind_append, behind_cons] at h1
    refine ⟨by simp only [behind_append]; omega, rfl, ?_⟩
    simp only [Books.set_apply]
    by_cases hc : Side.farm = act.side ∧ a = b ∧ id = j
    · rw [if_pos hc, hc.1, hc.2.1, hc.2.2]; exact Nat.le_add_right _ _
    · rw [if_neg hc]
  | @other e c' outs g1 g2 g3 =>
    refine ⟨?_, rfl, Nat.le_refl _⟩
    simp only [behind_append, h1]
    rw [silent_behind]
    cases e <;> simp only [Contract.apply] at g1
    case call => exact absurd rfl (g2 _ _)
    case callback => exact Contract.callback_silent g1
    case rate => cases g1; exact fun _ h => (nomatch h)
    case price => cases g1; exact fun _ h => (nomatch h)

/-- C81: if, with nothing under way, the exchange records more than the farm has in its books, the
difference stays on the record whatever anybody does, unless the account is liquidated. -/
theorem C81_stuck {P : Contract → Event → Prop} {w w' : PledgeWorld} (h : w.Reachable P)
    {a : AccountId} {id : Nat} (ha : ahead w.queue .farm a id = 0)
    (hb : behind w.queue .farm a id = 0) (hl : Later a w w') :
    (w.c.pledgedOf a id).farm ≤ (w'.c.pledgedOf a id).farm + w.books .farm a id := by
  have key : behind w'.queue .farm a id = 0 ∧ w'.refused a id = w.refused a id ∧
      w.unbooked .farm a id ≤ w'.unbooked .farm a id ∧
      w'.Reachable fun _ _ => True := by
    induction hl with
    | refl => exact ⟨hb, rfl, Nat.le_refl _, h.mono fun _ _ _ => trivial⟩
    | step _ hs hp ih =>
      obtain ⟨g1, g2, g3, g4⟩ := ih
      obtain ⟨k1, k2, k3⟩ := hs.lost hp g1
      exact ⟨k1, k2.trans g2, Nat.le_trans g3 k3, .step g4 hs fun _ _ => trivial⟩
  obtain ⟨k1, k2, k3, k4⟩ := key
  have e1 := C81_books h .farm a id
  have e2 := C81_books k4 .farm a id
  simp only [if_true, ShadowRecord.on] at e1 e2
  omega

/-! ### Cases -/

open Demo

/-- No event disturbs Alice: the exchange and the owner are others, Alice is not liquidated and
donates no pledged shares. -/
def Calm (c : Contract) (e : Event) : Prop :=
  Undisturbed al c e ∧ Spares al e ∧ c.KeepsPledged al 0 e ∧ al ≠ c.self

/-- The same with liquidations. -/
def Fair (c : Contract) (e : Event) : Prop :=
  Undisturbed al c e ∧ c.KeepsPledged al 0 e ∧ al ≠ c.self

/-- Calls that send no word of pledges. -/
def quiet : Contract → List Event → Bool
  | _, [] => true
  | c, .call x k :: es =>
    match k with
    | .onBurrowLiquidation .. | .shadowAction .. | .donationShare .. => false
    | k =>
      match c.exec x k with
      | .ok (c', _) =>
        decide (c'.cfg.boostFarm = c.cfg.boostFarm) && decide (c'.cfg.burrowland = c.cfg.burrowland) &&
          decide (al ≠ c.cfg.owner) && decide (al ≠ c.self) && quiet c' es
      | .error _ => quiet c es
  | _, _ => false

theorem calm_call {c : Contract} {x : Ctx} {k : Call} (h1 : al ≠ c.cfg.owner) (h2 : al ≠ c.self)
    (h3 : ∀ l d s n m, k ≠ .onBurrowLiquidation l d s n m) (h4 : ∀ j n u, k ≠ .donationShare j n u) :
    Calm c (.call x k) := by
  refine ⟨⟨h1, fun _ _ _ _ _ _ e => nomatch e⟩, ?_, ?_, h2⟩
  · intro _ _ _ _ _ e
    cases e
    exact h3 _ _ _ _ _ rfl
  · cases k <;> first | trivial | exact absurd rfl (h4 _ _ _)

theorem quiet_reachable {es : List Event} {w : PledgeWorld} (hw : w.Reachable Calm)
    (h : quiet w.c es = true) : ∃ q : List Notice, (∀ s a id, ahead q s a id = 0 ∧ behind q s a id = 0) ∧
      PledgeWorld.Reachable Calm { w with c := w.c.run es, queue := w.queue ++ q } := by
  induction es generalizing w with
  | nil => exact ⟨[], fun _ _ _ => ⟨rfl, rfl⟩, by rw [List.append_nil]; exact hw⟩
  | cons e es ih =>
    cases e with
    | call x k =>
      have hk : (∀ l d s n m, k ≠ .onBurrowLiquidation l d s n m) ∧
          (∀ act j n, k ≠ .shadowAction act j n) ∧ (∀ j n u, k ≠ .donationShare j n u) := by
        refine ⟨?_, ?_, ?_⟩
        all_goals
          intros
          rintro rfl
          simp [quiet] at h
      have hq : (match w.c.exec x k with
          | .ok (c', _) =>
            decide (c'.cfg.boostFarm = w.c.cfg.boostFarm) &&
              decide (c'.cfg.burrowland = w.c.cfg.burrowland) && decide (al ≠ w.c.cfg.owner) &&
              decide (al ≠ w.c.self) && quiet c' es
          | .error _ => quiet w.c es) = true := by
        cases k <;> first | exact h | simp [quiet] at h
      have hrun : w.c.run (.call x k :: es) = (w.c.step (.call x k)).run es := rfl
      rw [hrun]
      cases he : w.c.exec x k with
      | error er =>
        rw [he] at hq
        have : w.c.step (.call x k) = w.c := by simp only [Contract.step, Contract.apply, he]
        rw [this]
        exact ih hw hq
      | ok r =>
        obtain ⟨c', outs⟩ := r
        rw [he] at hq
        simp only [Bool.and_eq_true, decide_eq_true_eq] at hq
        obtain ⟨⟨⟨⟨g1, g2⟩, g3⟩, g4⟩, g5⟩ := hq
        have : w.c.step (.call x k) = c' := by simp only [Contract.step, Contract.apply, he]
        rw [this]
        have hs := Contract.exec_silent he hk.2.1 hk.1
        obtain ⟨q, hq, hr⟩ := ih (w := { w with c := c', queue := w.queue ++ outs.map .pending })
          (.step hw (.call he hk.1 g1 g2) (fun ev e => by
            cases e; exact calm_call g3 g4 hk.1 hk.2.2)) g5
        refine ⟨outs.map .pending ++ q, fun s a id => ?_, ?_⟩
        · rw [ahead_append, behind_append, silent_ahead hs, silent_behind hs, (hq s a id).1,
            (hq s a id).2]
          exact ⟨rfl, rfl⟩
        · rw [← List.append_assoc]; exact hr
    | _ => cases h

theorem applied {c : Contract} {e : Event} {outs : List Out}
    (h : (c.apply e).holds (·.2 = outs) = true) : c.apply e = .ok (c.step e, outs) := by
  unfold Contract.step
  cases he : c.apply e with
  | error _ => rw [he] at h; cases h
  | ok r =>
    rw [he] at h
    obtain ⟨c', o⟩ := r
    simp only [R.holds, decide_eq_true_eq] at h
    subst h
    rfl

/-- Alice pledges everything, the pledge is accepted and booked. -/
theorem pledge_reachable {w : PledgeWorld} {act : ShadowAction} {n fee m : Nat} (hw : w.Reachable Calm)
    (hm : w.books act.side al 0 + n = m) (ho : al ≠ w.c.cfg.owner) (hs : al ≠ w.c.self) (hc : act.casts = true)
    (h : (w.c.apply (.call (y al) (.shadowAction act 0 none))).holds
      (·.2 = [.near al 1, .shadow act al 0 n fee]) = true)
    (hx : ∀ c : Contract, c = w.c.step (.call (y al) (.shadowAction act 0 none)) →
      c.nearOf al + (by' ex).shrank * BYTE_COST < 2 ^ 128) :
    PledgeWorld.Reachable Calm { w with
      c := w.c.step (.call (y al) (.shadowAction act 0 none))
      books := w.books.set act.side al 0 m
      queue := w.queue ++ [.pending (.near al 1)] } := by
  subst hm
  have ht : act = .toFarming ∨ act = .toBurrowland := by
    cases act <;> first | exact .inl rfl | exact .inr rfl | cases hc
  have ha := applied h
  have hx := hx _ rfl
  obtain ⟨-, -, -, -, -, -, -, -, hp⟩ := Contract.C26_cast ha ht
  have hself := Contract.apply_self ha
  have hcfg := hp.cfg
  clear hp h
  revert ha hx hself hcfg
  generalize w.c.step (.call (y al) (.shadowAction act 0 none)) = c'
  intro ha hx hself hcfg
  have r1 : PledgeWorld.Reachable Calm { w with
      c := c', queue := w.queue ++ [.pending (.near al 1), .pending (.shadow act al 0 n fee)] } :=
    .step hw (.call (x := y al) (k := .shadowAction act 0 none) ha (fun _ _ _ _ _ e => nomatch e)
      (by rw [hcfg]) (by rw [hcfg])) (fun ev e => by
        cases e
        exact calm_call ho hs (fun _ _ _ _ _ e => nomatch e) (fun _ _ _ e => nomatch e))
  have r2 := Reachable.step r1 (.accept (q := w.queue ++ [.pending (.near al 1)]) (r := [])
    (act := act) (a := al) (id := 0) (n := n) (fee := fee) (by simp) hc) (fun ev e => nomatch e)
  have r3 := Reachable.step r2 (.book (q := w.queue ++ [.pending (.near al 1)]) (r := [])
    (x := by' ex) (v := none) (c' := c') (outs := []) rfl
    (by rcases ht with rfl | rfl <;> rfl)) (fun ev e => by
      cases e
      refine ⟨⟨?_, ?_⟩, fun _ _ _ _ _ e => (nomatch e), trivial, ?_⟩
      · show al ≠ c'.cfg.owner
        rw [hcfg]; exact ho
      · intro _ _ _ _ _ _ e
        cases e
        exact hx
      · show al ≠ c'.self
        rw [hself]; exact hs)
  simpa using r3

/-- Alice pledges all shares to the farm and to the lending contract and takes them back from the
farm, which agrees. -/
def toFarm : Event := .call (y al) (.shadowAction .toFarming 0 none)
def toLender : Event := .call (y al) (.shadowAction .toBurrowland 0 none)
def fromFarm : Event := .call (y al) (.shadowAction .fromFarming 0 none)

/-- The lending contract has 7 parts in 10 of the shares liquidated. -/
def liquidation : Event :=
  .call (by' bur) (.onBurrowLiquidation bo al "shadow_ref_v1-0".toList (7 * 10 ^ 23) [0, 0])

/-- The books when all of Alice's shares are pledged twice. -/
def full : Books :=
  Books.set (Books.set (fun _ _ _ => 0) .farm al 0 (10 ^ 24)) .lender al 0 (10 ^ 24)

theorem full_reachable : ∃ q : List Notice, (∀ s a id, ahead q s a id = 0 ∧ behind q s a id = 0) ∧
    PledgeWorld.Reachable Calm
      ⟨(c1.step toFarm).step toLender, full, q, fun _ _ => 0, fun _ _ _ => 0⟩ := by
  obtain ⟨q, hq, hr⟩ := quiet_reachable (es := setup) (.init (c := c0) (self := ex) (owner := own)
    (farm := farm) (burrow := bur) (fee := 1600) (ref := 400) rfl) (by decide +kernel)
  have h1 : PledgeWorld.Reachable Calm ⟨c1.step toFarm, Books.set (fun _ _ _ => 0) .farm al 0 (10 ^ 24),
      q ++ [.pending (.near al 1)], fun _ _ => 0, fun _ _ _ => 0⟩ :=
    pledge_reachable (w := ⟨c1, fun _ _ _ => 0, q, fun _ _ => 0, fun _ _ _ => 0⟩)
      (act := .toFarming) (n := 10 ^ 24) (fee := 0) hr (Nat.zero_add _)
      (show al ≠ c1.cfg.owner by decide +kernel) (show al ≠ c1.self by decide +kernel) rfl
      (show (c1.apply toFarm).holds (·.2 = [.near al 1, .shadow .toFarming al 0 (10 ^ 24) 0]) = true by
        decide +kernel)
      (fun c e => by
        subst e
        show (c1.step toFarm).nearOf al + _ < _
        decide +kernel)
  have h2 := pledge_reachable (act := .toBurrowland) (n := 10 ^ 24) (m := 10 ^ 24) (fee := 0) h1
    (by simp [Books.set_apply, ShadowAction.side])
    (show al ≠ (c1.step toFarm).cfg.owner by decide +kernel)
    (show al ≠ (c1.step toFarm).self by decide +kernel) rfl
    (show ((c1.step toFarm).apply toLender).holds
      (·.2 = [.near al 1, .shadow .toBurrowland al 0 (10 ^ 24) 0]) = true by decide +kernel)
    (fun c e => by
      subst e
      show ((c1.step toFarm).step toLender).nearOf al + _ < _
      decide +kernel)
  refine ⟨q ++ [.pending (.near al 1)] ++ [.pending (.near al 1)], fun s a id => ?_, ?_⟩
  · simp only [ahead_append, behind_append, (hq s a id).1, (hq s a id).2]
    exact ⟨rfl, rfl⟩
  · exact h2

/-- The books when the farm has given everything back. -/
def taken : Books := full.set .farm al 0 0

/-- The exchange when all of Alice's shares are pledged twice. -/
def pledged : Contract := (c1.step toFarm).step toLender

/-- The farm has given the shares back; the exchange does not know yet. -/
theorem taken_reachable : ∃ q : List Notice, (∀ s a id, ahead q s a id = 0 ∧ behind q s a id = 0) ∧
    PledgeWorld.Reachable Calm ⟨pledged, taken, q ++ [.answered .fromFarming al 0 (10 ^ 24) 0 true],
      fun _ _ => 0, fun _ _ _ => 0⟩ := by
  obtain ⟨q, hq, hr⟩ := full_reachable
  refine ⟨q, hq, ?_⟩
  have ha := applied (c := pledged) (e := fromFarm) (outs := [.shadow .fromFarming al 0 (10 ^ 24) 0])
    (by decide +kernel)
  have hc := (Contract.C26_release (x := y al) ha (.inl rfl)).1
  rw [hc] at ha
  have r1 := Reachable.step hr (.call (x := y al) (k := .shadowAction .fromFarming 0 none) ha
    (fun _ _ _ _ _ e => nomatch e) rfl rfl) (fun ev e => by
      cases e
      exact calm_call (show al ≠ pledged.cfg.owner by decide +kernel)
        (show al ≠ pledged.self by decide +kernel) (fun _ _ _ _ _ e => nomatch e)
        (fun _ _ _ e => nomatch e))
  have hb : full .farm al 0 = 10 ^ 24 := by simp [full, Books.set_apply]
  have r2 := Reachable.step r1 (.release (q := q) (r := []) (act := .fromFarming) (a := al) (id := 0)
    (n := 10 ^ 24) (fee := 0) rfl rfl (Nat.le_of_eq hb.symm)) (fun ev e => nomatch e)
  have e : Books.set full .farm al 0 (full .farm al 0 - 10 ^ 24) = taken := by rw [hb]; rfl
  have r3 : PledgeWorld.Reachable Calm
      ⟨pledged, Books.set full .farm al 0 (full .farm al 0 - 10 ^ 24),
        q ++ [.answered .fromFarming al 0 (10 ^ 24) 0 true], fun _ _ => 0, fun _ _ _ => 0⟩ := r2
  rw [e] at r3
  exact r3

theorem calm_fair {c : Contract} {e : Event} (h : Calm c e) : Fair c e := ⟨h.1, h.2.2⟩

/-- The liquidation of Alice, when all of Alice's shares are pledged twice. -/
theorem liquidation_reachable {q : List Notice} {b : Books}
    (hr : PledgeWorld.Reachable Calm ⟨pledged, b, q, fun _ _ => 0, fun _ _ _ => 0⟩)
    (hb : b .lender al 0 = 10 ^ 24) :
    PledgeWorld.Reachable Fair ⟨pledged.step liquidation, b.set .lender al 0 (3 * 10 ^ 23),
      q ++ [.pending (.liquidated al 0 (7 * 10 ^ 23))], fun _ _ => 0, fun _ _ _ => 0⟩ := by
  have ha := applied (c := pledged) (e := liquidation) (outs := [.liquidated al 0 (7 * 10 ^ 23)])
    (by decide +kernel)
  have r1 := Reachable.step (hr.mono fun _ _ => calm_fair) (.liquidate (x := by' bur) (id := 0) ha
    (by decide +kernel) (by show _ ≤ b .lender al 0; rw [hb]; decide)) (fun ev e => by
      cases e
      exact ⟨⟨show al ≠ pledged.cfg.owner by decide +kernel, fun _ _ _ _ _ _ e => (nomatch e)⟩,
        trivial, show al ≠ pledged.self by decide +kernel⟩)
  have e : b .lender al 0 - 7 * 10 ^ 23 = 3 * 10 ^ 23 := by rw [hb]; decide
  have r2 : PledgeWorld.Reachable Fair ⟨pledged.step liquidation,
      Books.set b .lender al 0 (b .lender al 0 - 7 * 10 ^ 23),
      q ++ [.pending (.liquidated al 0 (7 * 10 ^ 23))], fun _ _ => 0, fun _ _ _ => 0⟩ := r1
  rw [e] at r2
  exact r2

/-- C81 fails of the farm: the farm gives all of Alice's shares back, and before the exchange learns
of it Alice is liquidated. The callback then fails, because the record is already below what it has to
take off. In the end nothing is under way, the farm has nothing in its books, and the exchange still
records 3 parts in 10 as pledged to it, all that Alice has left. Nobody can free them: they stay on the
record in every later world, unless Alice is liquidated again. -/
theorem C81_overtaken : ∃ w : PledgeWorld, w.Reachable Fair ∧
    (∀ s a id, ahead w.queue s a id = 0 ∧ behind w.queue s a id = 0) ∧ w.books .farm al 0 = 0 ∧
    (w.c.pledgedOf al 0).farm = 3 * 10 ^ 23 ∧ w.c.sharesOf 0 al = 3 * 10 ^ 23 ∧
    (w.c.pledgedOf al 0).burrow = w.books .lender al 0 ∧
    ∀ w', Later al w w' → 3 * 10 ^ 23 ≤ (w'.c.pledgedOf al 0).farm := by
  obtain ⟨q, hq, hr⟩ := taken_reachable
  have r1 := liquidation_reachable hr (by simp [taken, full, Books.set_apply])
  have hf : ∃ er, (pledged.step liquidation).callback (by' ex) (.shadow .fromFarming al 0 (10 ^ 24) 0)
      (answer true none) = .error er := by
    have : ((pledged.step liquidation).callback (by' ex) (.shadow .fromFarming al 0 (10 ^ 24) 0)
      (answer true none)).isOk = false := by decide +kernel
    cases h : (pledged.step liquidation).callback (by' ex) (.shadow .fromFarming al 0 (10 ^ 24) 0)
      (answer true none) with
    | error er => exact ⟨er, rfl⟩
    | ok r => rw [h] at this; cases this
  obtain ⟨er, hf⟩ := hf
  have r2 := Reachable.step r1 (.fail (q := q) (r := [.pending (.liquidated al 0 (7 * 10 ^ 23))])
    (by simp) hf) (fun ev e => by
      cases e
      refine ⟨⟨show al ≠ (pledged.step liquidation).cfg.owner by decide +kernel, ?_⟩,
        trivial, show al ≠ (pledged.step liquidation).self by decide +kernel⟩
      intro _ _ _ _ _ _ e
      cases e
      show (pledged.step liquidation).nearOf al + _ < _
      decide +kernel)
  have r3 := Reachable.step r2 (.seedRefused (q := q) (r := []) (a := al) (id := 0)
    (n := 7 * 10 ^ 23) rfl) (fun ev e => nomatch e)
  have hb : Books.set taken .lender al 0 (3 * 10 ^ 23) .farm al 0 = 0 := by
    simp [taken, Books.set_apply]
  have hrec : ((pledged.step liquidation).pledgedOf al 0).farm = 3 * 10 ^ 23 := by decide +kernel
  refine ⟨_, r3, fun s a id => ?_, hb, hrec, ?_, ?_, fun w' hl => ?_⟩
  · simp only [List.append_nil]; exact hq s a id
  · show (pledged.step liquidation).sharesOf 0 al = _
    decide +kernel
  · have e : Books.set taken .lender al 0 (3 * 10 ^ 23) .lender al 0 = 3 * 10 ^ 23 := by
      rw [Books.set_apply, if_pos ⟨rfl, rfl, rfl⟩]
    refine Eq.trans ?_ e.symm
    show ((pledged.step liquidation).pledgedOf al 0).burrow = _
    decide +kernel
  · have := C81_stuck r3 (a := al) (id := 0) (by simp only [List.append_nil]; exact (hq .farm al 0).1)
      (by simp only [List.append_nil]; exact (hq .farm al 0).2) hl
    have hb' : _ ≤ (w'.c.pledgedOf al 0).farm + Books.set taken .lender al 0 (3 * 10 ^ 23) .farm al 0 :=
      this
    rw [hb, Nat.add_zero] at hb'
    exact Nat.le_trans (Nat.le_of_eq hrec.symm) hb'

/-- C81 fails of the farm also the other way: if the farm refuses to give back what was liquidated,
nobody tries again. The farm goes on counting all the shares Alice had, of which 3 parts in 10 are
left. -/
theorem C81_refused : ∃ w : PledgeWorld, w.Reachable Fair ∧
    (∀ s a id, ahead w.queue s a id = 0 ∧ behind w.queue s a id = 0) ∧
    w.books .farm al 0 = 10 ^ 24 ∧ (w.c.pledgedOf al 0).farm = 3 * 10 ^ 23 ∧
    w.c.sharesOf 0 al = 3 * 10 ^ 23 := by
  obtain ⟨q, hq, hr⟩ := full_reachable
  have r1 := liquidation_reachable hr (by simp [full, Books.set_apply])
  have r2 := Reachable.step r1 (.seedRefused (q := q) (r := []) (a := al) (id := 0)
    (n := 7 * 10 ^ 23) rfl) (fun ev e => nomatch e)
  refine ⟨_, r2, fun s a id => ?_, ?_, ?_, ?_⟩
  · simp only [List.append_nil]; exact hq s a id
  · simp [full, Books.set_apply]
  · show ((pledged.step liquidation).pledgedOf al 0).farm = _
    decide +kernel
  · show (pledged.step liquidation).sharesOf 0 al = _
    decide +kernel

/-- The hypotheses of the theorems are met: all shares pledged twice, taken back from the farm, the
callback under way. -/
example : ∃ w : PledgeWorld, (w.Reachable fun c e => Undisturbed al c e ∧ Spares al e) ∧
    (w.c.pledgedOf al 0).farm = w.books .farm al 0 + ahead w.queue .farm al 0 ∧
    ahead w.queue .farm al 0 = 10 ^ 24 ∧ w.books .lender al 0 = 10 ^ 24 ∧
    .answered .fromFarming al 0 (10 ^ 24) 0 true ∈ w.queue ∧ w.books .lender al 0 ≤ w.c.sharesOf 0 al := by
  obtain ⟨q, hq, hr⟩ := taken_reachable
  have h : PledgeWorld.Reachable (fun c e => Undisturbed al c e ∧ Spares al e) _ :=
    hr.mono fun _ _ h => ⟨h.1, h.2.1⟩
  have hb := C81_backed (s := .lender) (a := al) (id := 0) (fun _ _ h => ⟨h.1, fun _ => h.2.1, h.2.2⟩) hr
  refine ⟨_, h, C81_farm_partial h 0, ?_, ?_, ?_, Nat.le_trans (Nat.le_add_right _ _) hb⟩
  · simp only [ahead_append, (hq .farm al 0).1]; decide +kernel
  · simp [taken, full, Books.set_apply]
  · simp

end PledgeWorld
end Verif

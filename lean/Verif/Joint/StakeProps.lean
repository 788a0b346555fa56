import Verif.Joint.StakeWorld
import Verif.Exchange.PledgeProps
import Verif.Exchange.TransferProps
import Verif.Exchange.AccountViewProps
import Verif.Farming.Solvency
import Verif.Farming.StakeProps

/-
C82 (shares staked in the farming contract are backed by shares it holds in the exchange, and nobody
loses shares by staking them).
-/

namespace Verif

/-! ### Promises of the exchange -/

/-- The promise is not a transfer-call of shares or tokens held inside the exchange. -/
def Out.plain : Out → Prop
  | .mftCall .. => False
  | _ => True

theorem nearOnly_plain {outs : List Out} (h : Contract.nearOnly outs) : ∀ o ∈ outs, o.plain := by
  intro o ho
  obtain ⟨_, _, rfl⟩ := h o ho
  trivial

namespace Contract

/-- Only `mft_transfer_call` creates transfer-calls. -/
theorem exec_plain {c c' : Contract} {x : Ctx} {k : Call} {outs : List Out}
    (h : c.exec x k = .ok (c', outs)) (hk : ∀ t r n, k ≠ .mftTransferCall t r n) :
    ∀ o ∈ outs, o.plain := by
  intro o ho
  have nn : ∀ {os : List Out}, nearOnly os → o ∈ os → o.plain := fun h hm => nearOnly_plain h o hm
  have send : ∀ {c : Contract} {b v : AccountId} {m : Nat} {s : Option Bool},
      o = c.sendTokens b v m s → o.plain := by
    intro c b v m s e
    unfold sendTokens at e
    split at e <;> subst e <;> trivial
  cases k <;> simp only [exec] at h
  case addSimplePool =>
    obtain ⟨_, -, hn, h1, h⟩ := addSimplePool_inv h
    obtain ⟨q, _, hr, hx, rfl⟩ := addPool_inv h
    exact nn (checkStorage_near hx) ho
  case addCurvePool =>
    obtain ⟨_, -, hl, hn, h1, h⟩ := addCurvePool_inv h
    obtain ⟨q, _, hr, hx, rfl⟩ := addPool_inv h
    exact nn (checkStorage_near hx) ho
  case addLiquidity =>
    unpack at h; obtain ⟨_, _, _, h, rfl, rfl⟩ := h
    obtain ⟨_, p, q, _, _, acc', _, -, -, hq, hn, ha, -, h1, h2, -, hx, rfl⟩ := addLiquidity_inv h
    exact nn (checkStorage_near hx) ho
  case addStableLiquidity =>
    unpack at h; obtain ⟨_, _, _, h, rfl, rfl⟩ := h
    obtain ⟨_, p, q, _, acc', _, -, -, hq, hn, ha, -, h1, h2, -, hx, rfl⟩ := addStableLiquidity_inv h
    exact nn (checkStorage_near hx) ho
  case withdraw token amount unregister skip =>
    obtain ⟨_, _, acc', n, -, -, hn, h1, -, -, h2, h3, -, rfl, rfl⟩ := withdraw_inv h
    exact send (List.mem_singleton.1 ho)
  case claimLostfound token =>
    obtain ⟨-, -, hn, -, rfl, rfl⟩ := claimLostfound_inv h
    cases List.mem_singleton.1 ho; trivial
  case ftOnTransfer sender amount msg =>
    obtain ⟨-, -, ⟨-, hn, hd, rfl⟩ | ⟨_, _, _, _, _, rfl, hi⟩ | ⟨_, _, _, rfl, rfl, hz⟩⟩ :=
      ftOnTransfer_inv h
    · cases ho
    · obtain ⟨_, -, -, -, -, -, rfl⟩ := instantSwap_inv hi
      obtain ⟨p, -, e⟩ := List.mem_map.1 ho
      unfold payOut at e
      split at e
      · subst e; trivial
      · exact send e.symm
    · cases ho
  case mftTransferCall => exact absurd rfl (hk _ _ _)
  case mftRegister =>
    obtain ⟨_, p, q, _, -, -, hq, hr, hx, rfl⟩ := mftRegister_inv h
    exact nn (checkStorage_near hx) ho
  case mftUnregister =>
    obtain ⟨_, p, q, -, -, -, hq, hr, rfl, rfl⟩ := mftUnregister_inv h
    exact nn (storageRefund_near x x.pred) ho
  case storageDeposit =>
    obtain ⟨-, hx, -⟩ := storageDeposit_inv h
    exact nn hx ho
  case storageWithdraw =>
    obtain ⟨acc, n, -, -, h1, -, -, -, rfl, rfl⟩ := storageWithdraw_inv h
    cases List.mem_singleton.1 ho; trivial
  case storageUnregister =>
    obtain ⟨-, -, ⟨-, rfl, rfl⟩ | ⟨acc, h1, h2, -, rfl, rfl⟩⟩ := storageUnregister_inv h
    · cases ho
    · cases List.mem_singleton.1 ho; trivial
  case shadowAction =>
    obtain ⟨acc, p, m, n, -, h1, hp, hmax, -, -, hle, ⟨-, -, rfl⟩ |
      ⟨-, acc', _, _, h2, -, hx, -, rfl⟩⟩ := shadowAction_inv h
    · cases List.mem_singleton.1 ho; trivial
    · rcases List.mem_append.1 ho with ho | ho
      · exact nn (checkStorage_near hx) ho
      · cases List.mem_singleton.1 ho; trivial
  case onBurrowLiquidation =>
    obtain ⟨_, _, _, _, _, _, free, _, _, _, _, -, -, -, -, -, -, -, -, -, -, -, -, -, -, -, -, rfl⟩ :=
      onBurrowLiquidation_inv h
    split at ho
    · cases List.mem_singleton.1 ho; trivial
    · cases ho
  case donationShare =>
    obtain ⟨p, _, q, q', -, -, hq, -, -, hs, hu, hx, hc⟩ := donationShare_inv h
    exact nn hx ho
  case retrieveUnmanaged token n =>
    unpack at h; obtain ⟨_, h, rfl, rfl⟩ := h
    obtain ⟨-, -, -, rfl⟩ := retrieveUnmanaged_inv h
    cases List.mem_singleton.1 ho; trivial
  case withdrawOwnerToken =>
    obtain ⟨_, own', -, -, -, -, h1, h2, rfl, rfl⟩ := withdrawOwnerToken_inv h
    exact send (List.mem_singleton.1 ho)
  all_goals
    unpack at h
    first
      | (obtain ⟨_, -, -, rfl⟩ := h; cases ho)
      | (obtain ⟨_, _, -, -, rfl⟩ := h; cases ho)

/-- Callbacks create no transfer-calls. -/
theorem callback_plain {c c' : Contract} {x : Ctx} {out : Out} {o : Outcome} {outs : List Out}
    (h : c.callback x out o = .ok (c', outs)) : ∀ o ∈ outs, o.plain := by
  intro p hp
  cases out <;> simp only [callback] at h
  case ft =>
    cases o <;> simp only [] at h
    · cases h; cases hp
    · unpack at h; obtain ⟨_, -, -, rfl⟩ := h; cases hp
  case ftCall =>
    cases o <;> simp only [] at h
    · cases h; cases hp
    · unpack at h; obtain ⟨_, -, -, rfl⟩ := h; cases hp
  case unwrap =>
    cases o <;> simp only [] at h
    · cases h; cases List.mem_singleton.1 hp; trivial
    · unpack at h; obtain ⟨_, -, _, -, -, rfl⟩ := h; cases hp
  case mftCall =>
    unpack at h; obtain ⟨_, _, -, -, rfl⟩ := h; cases hp
  case shadow =>
    obtain ⟨hn, -⟩ := callbackOnShadow_inv h
    exact nearOnly_plain hn p hp
  all_goals (cases h; cases hp)

/-- An account that has pledged nothing stays so unless it calls. -/
theorem exec_unpledged {c c' : Contract} {x : Ctx} {k : Call} {outs : List Out} {a : AccountId}
    (h : c.exec x k = .ok (c', outs)) (ha : x.pred ≠ a) (h0 : ∀ id, c.pledgedOf a id = ⟨0, 0⟩)
    (id : Nat) : c'.pledgedOf a id = ⟨0, 0⟩ := by
  rcases exec_pledges h a id with e | ⟨_, _, -, e, -⟩ | ⟨liq, sid, n, mins, rfl⟩
  · rw [e, h0]
  · exact absurd e.symm ha
  · obtain ⟨j, _, _, _, _, _, _, _, _, _, _, -, -, hj, -⟩ := onBurrowLiquidation_inv (by simpa only [exec] using h)
    have e1 := (liquidation_record h hj .farm a id).1
    have e2 := (liquidation_record h hj .lender a id).1
    rw [h0] at e1 e2
    have f1 : ((c'.pledgedOf a id).farm : Nat) = 0 := by
      have : (ShadowRecord.on ⟨0, 0⟩ .farm) = 0 := rfl
      have : (c'.pledgedOf a id).on .farm = (c'.pledgedOf a id).farm := rfl
      omega
    have f2 : ((c'.pledgedOf a id).burrow : Nat) = 0 := by
      have : (ShadowRecord.on ⟨0, 0⟩ .lender) = 0 := rfl
      have : (c'.pledgedOf a id).on .lender = (c'.pledgedOf a id).burrow := rfl
      omega
    cases hr : c'.pledgedOf a id with
    | mk u v => rw [hr] at f1 f2; cases f1; cases f2; rfl

theorem callback_unpledged {c c' : Contract} {x : Ctx} {out : Out} {o : Outcome} {outs : List Out}
    {a : AccountId} (h : c.callback x out o = .ok (c', outs)) (h0 : ∀ id, c.pledgedOf a id = ⟨0, 0⟩)
    (id : Nat) : c'.pledgedOf a id = ⟨0, 0⟩ := by
  rcases callback_pledges h a id with e | ⟨_, _, _, -, ⟨-, e1, e2⟩ | ⟨-, e1, e2⟩⟩
  · rw [e, h0]
  all_goals
    rw [h0] at e1 e2
    cases hr : c'.pledgedOf a id with
    | mk u v =>
      rw [hr] at e1 e2
      simp only at e1 e2
      rw [show u = 0 by omega, show v = 0 by omega]

theorem setRate_sharesOf (c : Contract) (t : AccountId) (r time : Nat) :
    (c.setRate t r time).pools = c.pools ∧ (c.setRate t r time).accounts = c.accounts ∧
    (c.setRate t r time).self = c.self := by
  unfold setRate; split <;> exact ⟨rfl, rfl, rfl⟩

theorem setDegenPrice_sharesOf (c : Contract) (t : AccountId) (p time : Nat) :
    (c.setDegenPrice t p time).pools = c.pools ∧ (c.setDegenPrice t p time).accounts = c.accounts ∧
    (c.setDegenPrice t p time).self = c.self := by
  unfold setDegenPrice; split <;> exact ⟨rfl, rfl, rfl⟩

end Contract

/-! ### Receipts under way -/

section
variable (ex fa : AccountId) (id : Nat)

theorem underway_append (p q : List Parcel) :
    underway ex fa id (p ++ q) = underway ex fa id p + underway ex fa id q := by simp [underway]

theorem underway_cons (i : Parcel) (q : List Parcel) :
    underway ex fa id (i :: q) = i.shares ex fa id + underway ex fa id q := by simp [underway]

theorem underwayOf_append (a : AccountId) (p q : List Parcel) :
    underwayOf ex fa a id (p ++ q) = underwayOf ex fa a id p + underwayOf ex fa a id q := by
  simp [underwayOf, underway_append]

theorem underwayOf_cons (a : AccountId) (i : Parcel) (q : List Parcel) :
    underwayOf ex fa a id (i :: q) =
      (if i.owner = a then i.shares ex fa id else 0) + underwayOf ex fa a id q := by
  unfold underwayOf
  rw [List.filter_cons]
  by_cases h : i.owner = a
  · simp [h, underway_cons]
  · simp [h]

theorem underwayOf_nil (a : AccountId) : underwayOf ex fa a id [] = 0 := rfl

theorem underway_nil : underway ex fa id [] = 0 := rfl

theorem underway_plain {outs : List Out} (h : ∀ o ∈ outs, o.plain) :
    underway ex fa id (outs.map .promised) = 0 := by
  induction outs with
  | nil => rfl
  | cons o os ih =>
    rw [List.map_cons, underway_cons, ih fun p hp => h p (.tail _ hp)]
    have := h o (.head _)
    cases o <;> first | rfl | exact this.elim

theorem underway_requested (outs : List Farming.Out) :
    underway ex fa id (outs.map .requested) = Farming.paysOut outs (.mft ex id) := by
  simp [underway, Farming.paysOut, Parcel.shares, Function.comp_def]

end

namespace StakeWorld

/-! ### Both contracts -/

/-- What a receipt does to the exchange. -/
theorem Step.exchange {fa : AccountId} {w w' : StakeWorld} {d : Deed} (h : w.Step fa d w') :
    w'.e = w.e ∨ ∃ ev outs, d = .exchange ev ∧ w.e.apply ev = .ok (w'.e, outs) := by
  cases h with
  | call h1 => exact .inr ⟨_, _, rfl, h1⟩
  | rate => exact .inr ⟨_, _, rfl, rfl⟩
  | price => exact .inr ⟨_, _, rfl, rfl⟩
  | resolve _ h1 => exact .inr ⟨_, _, rfl, h1⟩
  | transfer _ _ h1 => exact .inr ⟨_, _, rfl, h1⟩
  | _ => exact .inl rfl

/-- What a receipt does to the farming contract. -/
theorem Step.farming {fa : AccountId} {w w' : StakeWorld} {d : Deed} (h : w.Step fa d w') :
    w'.f = w.f ∨ ∃ ev outs, d = .farm ev ∧ w.f.apply ev = .ok (w'.f, outs) := by
  cases h with
  | callFarm h1 => exact .inr ⟨_, _, rfl, h1⟩
  | deliver _ _ h1 => exact .inr ⟨_, _, rfl, h1⟩
  | settle _ h1 => exact .inr ⟨_, [], rfl, by simp only [Farming.Contract.apply, h1]; rfl⟩
  | _ => exact .inl rfl

theorem Step.self {fa : AccountId} {w w' : StakeWorld} {d : Deed} (h : w.Step fa d w') :
    w'.e.self = w.e.self := by
  rcases h.exchange with e | ⟨_, _, -, e⟩
  · rw [e]
  · exact Contract.apply_self e

/-- C82: both contracts only ever get into states that histories of their own lead to, so everything
proved about those holds here. -/
theorem C82_histories {fa : AccountId} {w : StakeWorld} (h : w.Reachable fa) :
    w.e.Reachable ∧ w.f.Reachable := by
  induction h with
  | init hi => exact ⟨⟨_, _, _, _, _, _, _, [], hi, rfl⟩, ⟨_, [], rfl⟩⟩
  | @step w w' d _ hs ih =>
    refine ⟨?_, ?_⟩
    · rcases hs.exchange with e | ⟨ev, outs, -, e⟩
      · rw [e]; exact ih.1
      · have := ih.1.step ev
        simp only [Contract.step, e] at this
        exact this
    · rcases hs.farming with e | ⟨ev, outs, -, e⟩
      · rw [e]; exact ih.2
      · exact ih.2.apply e

/-- The promise behind a receipt pays back what the seed is named after. -/
def _root_.Verif.Parcel.Typed : Parcel → Prop
  | .requested o | .settled o _ => o.Typed
  | _ => True

/-- The invariant of worlds. -/
structure Inv (fa : AccountId) (w : StakeWorld) : Prop where
  farm : w.f.Reachable
  typed : w.f.Typed
  queue : ∀ i ∈ w.queue, i.Typed
  self : w.e.self ≠ fa
  name : '@' ∉ w.e.self
  unpledged : ∀ id, w.e.pledgedOf fa id = ⟨0, 0⟩
  backed : ∀ id, id < 2 ^ 64 → w.f.stakes (Farming.mftSeedId w.e.self id) +
    underway w.e.self fa id w.queue ≤ w.e.sharesOf id fa

theorem Inv.valid {fa : AccountId} {w : StakeWorld} (h : w.Inv fa) {id : Nat} (hid : id < 2 ^ 64) :
    (Farming.Asset.mft w.e.self id).Valid := ⟨h.name, hid⟩

/-- Shares of an account that has pledged nothing are taken by its own calls only, apart from the
exchange's. -/
theorem kept {c c' : Contract} {x : Ctx} {k : Call} {outs : List Out} {a : AccountId}
    (h : c.exec x k = .ok (c', outs)) (ha : x.pred ≠ a) (hs : c.self ≠ a)
    (h0 : ∀ id, c.pledgedOf a id = ⟨0, 0⟩) (id : Nat) : c.sharesOf id a ≤ c'.sharesOf id a := by
  rcases Contract.exec_shares h (Ne.symm ha) id with e | ⟨_, _, n, _, -, -, -, e, e0⟩ | ⟨_, _, -, e, -⟩
  · exact e
  · rw [h0] at e0
    have : n = 0 := by simpa using e0
    omega
  · exact absurd e.symm hs

/-- What a transfer-call adds to the shares under way. -/
theorem underway_call (ex fa : AccountId) (id : Nat) (t : List Char) (s r : AccountId) (n : Nat) :
    underway ex fa id ([Out.mftCall t s r n].map .promised) =
      if r = fa ∧ parseTokenId t = .pool id then n else 0 := by
  simp [underway, Parcel.shares]

/-- A receipt that calls the exchange covers what it promises. -/
theorem covered_call {fa : AccountId} {c c' : Contract} {x : Ctx} {k : Call} {outs : List Out}
    (h : c.exec x k = .ok (c', outs)) (hx : x.pred ≠ fa) (hs : c.self ≠ fa)
    (h0 : ∀ id, c.pledgedOf fa id = ⟨0, 0⟩) (ex : AccountId) (id : Nat) :
    c.sharesOf id fa + underway ex fa id (outs.map .promised) ≤ c'.sharesOf id fa := by
  by_cases hk : ∃ t r n, k = .mftTransferCall t r n
  · obtain ⟨t, r, m, rfl⟩ := hk
    obtain ⟨n, rfl, hm, -⟩ := Contract.C27_transfer_call h
    have e := hm.holdings fa (.pool id)
    simp only [Contract.holding] at e
    rw [if_neg (fun e => hx e.1.symm)] at e
    rw [underway_call]
    simp only [eq_comm (a := fa) (b := r), eq_comm (a := TokenOrPool.pool id)] at e
    omega
  · rw [underway_plain ex fa id (Contract.exec_plain h fun t r n e => hk ⟨t, r, n, e⟩)]
    exact kept h hx hs h0 id

/-- A transfer by the farming contract takes what the promise was worth. -/
theorem covered_transfer {fa : AccountId} {c c' : Contract} {x : Ctx} {s : Farming.SeedId}
    {token : List Char} {a : AccountId} {n : Nat} {outs : List Out}
    (h : c.exec x (.mftTransfer (':' :: token) a n) = .ok (c', outs)) (hx : x.pred = fa) (id : Nat) :
    outs = [] ∧ c'.sharesOf id fa +
      (Farming.Out.mftSeed s c.self token a n).pays (.mft c.self id) = c.sharesOf id fa := by
  obtain ⟨rfl, hm⟩ := Contract.C27_transfer h
  subst hx
  have e := hm.holdings x.pred (.pool id)
  simp only [Contract.holding] at e
  have ne := hm.ne
  refine ⟨rfl, ?_⟩
  simp only [Farming.Out.pays]
  rw [if_neg (c := x.pred = a ∧ _) (fun e => ne e.1)] at e
  simp only [true_and, eq_comm (a := TokenOrPool.pool id)] at e ⊢
  omega

/-- A callback of the exchange takes from the farming contract at most what the receipt was worth. -/
theorem covered_callback {fa : AccountId} {c c' : Contract} {x : Ctx} {out : Out} {o : Outcome}
    {outs : List Out} (h : c.callback x out o = .ok (c', outs)) (ex : AccountId) (id : Nat) :
    c.sharesOf id fa ≤ c'.sharesOf id fa + (Parcel.answered out o).shares ex fa id := by
  rcases Contract.callback_shares h id fa with e | ⟨t, s, n, rfl, hp, e, -⟩
  · omega
  · simp only [Parcel.shares, hp, and_self, if_true]; exact e

/-- A message of the exchange tells the farming contract what it has received. -/
theorem receives_deliver (ex fa : AccountId) (id : Nat) (t : List Char) (a : AccountId) (n : Nat)
    (msg : List Char) : (Farming.Call.mftOnTransfer t a n msg).receives ex (.mft ex id) =
      (Parcel.promised (.mftCall t a fa n)).shares ex fa id := by
  simp [Farming.Call.receives, Parcel.shares]

/-- Nobody else can tell the farming contract that it has received shares of the exchange. -/
theorem receives_other {ex : AccountId} {p : AccountId} (h : p ≠ ex) (k : Farming.Call) (id : Nat) :
    k.receives p (.mft ex id) = 0 := by
  cases k <;> simp [Farming.Call.receives, h]

theorem init_unpledged {self owner farm burrow : AccountId} {fee ref : Nat} {e : Contract}
    (h : Contract.init self owner farm burrow fee ref = .ok e) (a : AccountId) (id : Nat) :
    e.self = self ∧ e.pledgedOf a id = ⟨0, 0⟩ ∧ e.sharesOf id a = 0 := by
  unfold Contract.init at h
  unpack at h
  obtain ⟨_, rfl⟩ := h
  exact ⟨rfl, rfl, rfl⟩

/-- The invariant is kept by every receipt. -/
theorem Step.inv {fa : AccountId} {w w' : StakeWorld} {d : Deed} (hs : w.Step fa d w')
    (h : w.Inv fa) : w'.Inv fa := by
  have hI := h.farm.inv
  have hf : w'.f.Reachable := by
    rcases hs.farming with e | ⟨ev, outs, -, e⟩
    · rw [e]; exact h.farm
    · exact h.farm.apply e
  cases hs with
  | @call x k e' outs h1 hx =>
    have hself : e'.self = w.e.self := Contract.apply_self (e := .call x k) h1
    refine ⟨hf, h.typed, ?_, by rw [hself]; exact h.self, by rw [hself]; exact h.name,
      Contract.exec_unpledged h1 hx h.unpledged, ?_⟩
    · intro i hi
      rcases List.mem_append.1 hi with hi | hi
      · exact h.queue i hi
      · obtain ⟨_, -, rfl⟩ := List.mem_map.1 hi; trivial
    · intro id hid
      have e1 := h.backed id hid
      have e2 := covered_call h1 hx h.self h.unpledged w.e.self id
      simp only [hself, underway_append]
      omega
  | @rate t r time =>
    obtain ⟨e1, e2, e3⟩ := w.e.setRate_sharesOf t r time
    refine ⟨hf, h.typed, h.queue, by rw [e3]; exact h.self, by rw [e3]; exact h.name, ?_, ?_⟩
    · intro id; simp only [Contract.pledgedOf_eq, e2]; rw [← Contract.pledgedOf_eq]; exact h.unpledged id
    · intro id hid
      simp only [Contract.sharesOf_eq, e1, e3]; rw [← Contract.sharesOf_eq]; exact h.backed id hid
  | @price t r time =>
    obtain ⟨e1, e2, e3⟩ := w.e.setDegenPrice_sharesOf t r time
    refine ⟨hf, h.typed, h.queue, by rw [e3]; exact h.self, by rw [e3]; exact h.name, ?_, ?_⟩
    · intro id; simp only [Contract.pledgedOf_eq, e2]; rw [← Contract.pledgedOf_eq]; exact h.unpledged id
    · intro id hid
      simp only [Contract.sharesOf_eq, e1, e3]; rw [← Contract.sharesOf_eq]; exact h.backed id hid
  | @callFarm x k f' outs h1 hx hx' =>
    have key := fun a ha => Farming.exec_ledger (a := a) hI h.typed hx' ha h1
    obtain ⟨-, hT, hO⟩ := key (.mft w.e.self 0) (h.valid (by decide))
    refine ⟨hf, hT, ?_, h.self, h.name, h.unpledged, ?_⟩
    · intro i hi
      rcases List.mem_append.1 hi with hi | hi
      · exact h.queue i hi
      · obtain ⟨o, ho, rfl⟩ := List.mem_map.1 hi; exact hO o ho
    · intro id hid
      obtain ⟨e2, -, -⟩ := key (.mft w.e.self id) (h.valid hid)
      have e1 := h.backed id hid
      rw [receives_other hx] at e2
      simp only [Farming.Contract.owed] at e2
      simp only [underway_append, underway_requested]
      omega
  | @deliver l1 l2 t a n msg x f' outs hq hx h1 =>
    have key := fun a ha => Farming.exec_ledger (a := a) hI h.typed (hx ▸ h.name) ha h1
    obtain ⟨-, hT, hO⟩ := key (.mft w.e.self 0) (h.valid (by decide))
    refine ⟨hf, hT, ?_, h.self, h.name, h.unpledged, ?_⟩
    · intro i hi
      rcases List.mem_append.1 hi with hi | hi
      · rcases List.mem_append.1 hi with hi | hi
        · exact h.queue i (by rw [hq]; simp [hi])
        · rcases List.mem_cons.1 hi with rfl | hi
          · trivial
          · exact h.queue i (by rw [hq]; simp [hi])
      · obtain ⟨o, ho, rfl⟩ := List.mem_map.1 hi; exact hO o ho
    · intro id hid
      obtain ⟨e2, -, -⟩ := key (.mft w.e.self id) (h.valid hid)
      have e1 := h.backed id hid
      rw [hx, receives_deliver w.e.self fa] at e2
      rw [hq] at e1
      have e3 : (Parcel.answered (.mftCall t a fa n) (.success (some 0))).shares w.e.self fa id = 0 := by
        simp [Parcel.shares, Contract.unusedOf]
      simp only [Farming.Contract.owed] at e2
      simp only [underway_append, underway_cons, underway_requested, e3] at e1 ⊢
      omega
  | @refuse l1 l2 out hq =>
    refine ⟨hf, h.typed, ?_, h.self, h.name, h.unpledged, ?_⟩
    · intro i hi
      rcases List.mem_append.1 hi with hi | hi
      · exact h.queue i (by rw [hq]; simp [hi])
      · rcases List.mem_cons.1 hi with rfl | hi
        · trivial
        · exact h.queue i (by rw [hq]; simp [hi])
    · intro id hid
      have e1 := h.backed id hid
      have e3 : (Parcel.answered out .failure).shares w.e.self fa id =
          (Parcel.promised out).shares w.e.self fa id := by cases out <;> rfl
      rw [hq] at e1
      simp only [underway_append, underway_cons, e3] at e1 ⊢
      exact e1
  | @accept l1 l2 out v hq hn =>
    refine ⟨hf, h.typed, ?_, h.self, h.name, h.unpledged, ?_⟩
    · intro i hi
      rcases List.mem_append.1 hi with hi | hi
      · exact h.queue i (by rw [hq]; simp [hi])
      · rcases List.mem_cons.1 hi with rfl | hi
        · trivial
        · exact h.queue i (by rw [hq]; simp [hi])
    · intro id hid
      have e1 := h.backed id hid
      have e3 : (Parcel.answered out (.success v)).shares w.e.self fa id = 0 := by
        cases out <;> try rfl
        rename_i t s r n
        by_cases hr : r = fa
        · subst hr; exact absurd rfl (hn t s n)
        · simp [Parcel.shares, hr]
      rw [hq] at e1
      simp only [underway_append, underway_cons, e3] at e1 ⊢
      omega
  | @resolve l1 l2 out o x e' outs hq h1 =>
    have hself : e'.self = w.e.self := Contract.apply_self (e := .callback x out o) h1
    refine ⟨hf, h.typed, ?_, by rw [hself]; exact h.self, by rw [hself]; exact h.name,
      Contract.callback_unpledged h1 h.unpledged, ?_⟩
    · intro i hi
      rcases List.mem_append.1 hi with hi | hi
      · rcases List.mem_append.1 hi with hi | hi
        · exact h.queue i (by rw [hq]; simp [hi])
        · exact h.queue i (by rw [hq]; simp [hi])
      · obtain ⟨_, -, rfl⟩ := List.mem_map.1 hi; trivial
    · intro id hid
      have e1 := h.backed id hid
      have e2 := covered_callback (fa := fa) h1 w.e.self id
      rw [hq] at e1
      simp only [hself, underway_append, underway_cons,
        underway_plain _ _ _ (Contract.callback_plain h1)] at e1 ⊢
      omega
  | @leave l1 l2 out o hq =>
    refine ⟨hf, h.typed, ?_, h.self, h.name, h.unpledged, ?_⟩
    · intro i hi
      rcases List.mem_append.1 hi with hi | hi
      · exact h.queue i (by rw [hq]; simp [hi])
      · exact h.queue i (by rw [hq]; simp [hi])
    · intro id hid
      have e1 := h.backed id hid
      rw [hq] at e1
      simp only [underway_append, underway_cons] at e1 ⊢
      omega
  | @transfer l1 l2 s token a n x e' outs hq hx h1 =>
    have hself : e'.self = w.e.self :=
      Contract.apply_self (e := .call x (.mftTransfer (':' :: token) a n)) h1
    have hp : ∀ b id, e'.pledgedOf b id = w.e.pledgedOf b id := (Contract.C27_transfer h1).2.pledges
    obtain ⟨rfl, -⟩ := covered_transfer (s := s) h1 hx 0
    refine ⟨hf, h.typed, ?_, by rw [hself]; exact h.self, by rw [hself]; exact h.name,
      fun id => by rw [hp]; exact h.unpledged id, ?_⟩
    · intro i hi
      simp only [List.map_nil, List.append_nil] at hi
      rcases List.mem_append.1 hi with hi | hi
      · exact h.queue i (by rw [hq]; simp [hi])
      · rcases List.mem_cons.1 hi with rfl | hi
        · exact h.queue (.requested _) (by rw [hq]; simp)
        · exact h.queue i (by rw [hq]; simp [hi])
    · intro id hid
      have e1 := h.backed id hid
      have e2 := (covered_transfer (s := s) h1 hx id).2
      rw [hq] at e1
      simp only [hself, List.map_nil, underway_nil, underway_append, underway_cons,
        Parcel.shares, if_true] at e1 ⊢
      omega
  | @decline l1 l2 out hq =>
    refine ⟨hf, h.typed, ?_, h.self, h.name, h.unpledged, ?_⟩
    · intro i hi
      rcases List.mem_append.1 hi with hi | hi
      · exact h.queue i (by rw [hq]; simp [hi])
      · rcases List.mem_cons.1 hi with rfl | hi
        · exact h.queue (.requested out) (by rw [hq]; simp)
        · exact h.queue i (by rw [hq]; simp [hi])
    · intro id hid
      have e1 := h.backed id hid
      rw [hq] at e1
      simpa only [underway_append, underway_cons, Parcel.shares, Bool.false_eq_true, if_false] using e1
  | @pay l1 l2 out hq hn =>
    refine ⟨hf, h.typed, ?_, h.self, h.name, h.unpledged, ?_⟩
    · intro i hi
      rcases List.mem_append.1 hi with hi | hi
      · exact h.queue i (by rw [hq]; simp [hi])
      · rcases List.mem_cons.1 hi with rfl | hi
        · exact h.queue (.requested out) (by rw [hq]; simp)
        · exact h.queue i (by rw [hq]; simp [hi])
    · intro id hid
      have e1 := h.backed id hid
      rw [hq] at e1
      simp only [underway_append, underway_cons, Parcel.shares, if_true] at e1 ⊢
      omega
  | @settle l1 l2 out ok x f' hq h1 =>
    have ho : out.Typed := h.queue (.settled out ok) (by rw [hq]; simp)
    have key := fun a ha => Farming.callback_ledger (a := a) hI h.typed ha ho h1
    refine ⟨hf, (key (.mft w.e.self 0) (h.valid (by decide))).2, ?_, h.self, h.name, h.unpledged, ?_⟩
    · intro i hi
      rcases List.mem_append.1 hi with hi | hi
      · exact h.queue i (by rw [hq]; simp [hi])
      · exact h.queue i (by rw [hq]; simp [hi])
    · intro id hid
      have e1 := h.backed id hid
      obtain ⟨e2, -⟩ := key (.mft w.e.self id) (h.valid hid)
      rw [hq] at e1
      simp only [Farming.Contract.owed] at e2
      simp only [underway_append, underway_cons, Parcel.shares] at e1 ⊢
      omega
  | @forfeit l1 l2 out ok hq =>
    refine ⟨hf, h.typed, ?_, h.self, h.name, h.unpledged, ?_⟩
    · intro i hi
      rcases List.mem_append.1 hi with hi | hi
      · exact h.queue i (by rw [hq]; simp [hi])
      · exact h.queue i (by rw [hq]; simp [hi])
    · intro id hid
      have e1 := h.backed id hid
      rw [hq] at e1
      simp only [underway_append, underway_cons] at e1 ⊢
      omega

theorem Reachable.inv {fa : AccountId} {w : StakeWorld} (h : w.Reachable fa) : w.Inv fa := by
  induction h with
  | @init self owner farm burrow fowner fee ref e hi hs hn =>
    have h1 := fun a id => init_unpledged hi a id
    have hself := (h1 [] 0).1
    refine ⟨⟨_, [], rfl⟩, ?_, by simp, by rw [hself]; exact hs, by rw [hself]; exact hn,
      fun id => (h1 fa id).2.1, ?_⟩
    · intro s fs hs; cases hs
    · intro id _
      exact Nat.zero_le _
  | step _ hs ih => exact hs.inv ih

/-! ### Backing -/

/-- **C82.** The farming contract holds, in the exchange, at least the shares its farmers have staked
together with those on their way in and out. -/
theorem C82_backed {fa : AccountId} {w : StakeWorld} (h : w.Reachable fa) {id : Nat}
    (hid : id < 2 ^ 64) : w.staked id + underway w.e.self fa id w.queue ≤ w.e.sharesOf id fa := by
  unfold staked
  rw [Farming.Contract.C46_total h.inv.farm]
  exact h.inv.backed id hid

/-- A receipt's worth is covered. -/
theorem covered {fa : AccountId} {w : StakeWorld} (h : w.Reachable fa) {id : Nat} (hid : id < 2 ^ 64)
    {i : Parcel} (hi : i ∈ w.queue) : i.shares w.e.self fa id ≤ w.e.sharesOf id fa := by
  have h1 := C82_backed h hid
  obtain ⟨l1, l2, e⟩ := List.append_of_mem hi
  rw [e, underway_append, underway_cons] at h1
  omega

/-- **C82.** A withdrawal the farming contract has begun never fails for want of shares: the transfer
succeeds exactly if the exchange runs, the amount is positive and the farmer is registered in the
pool. -/
theorem C82_withdraw {fa : AccountId} {w : StakeWorld} (h : w.Reachable fa) {s : Farming.SeedId}
    {token : List Char} {a : AccountId} {n : Nat}
    (hq : .requested (.mftSeed s w.e.self token a n) ∈ w.queue) {x : Ctx} (hx : x.pred = fa)
    (hd : x.deposit = 1) :
    w.e.Succeeds x (.mftTransfer (':' :: token) a n) ↔
      w.e.cfg.running = true ∧ a ≠ fa ∧ 0 < n ∧ w.e.mftHasRegistered (':' :: token) a = true := by
  obtain ⟨p, -, hp, -, rfl⟩ : Farming.Out.Typed (.mftSeed s w.e.self token a n) := h.inv.queue _ hq
  have ht := Farming.parseTokenId_digits hp
  have hc := covered h hp hq
  simp only [Parcel.shares, Farming.Out.pays, true_and, ht, if_true] at hc
  rw [Contract.C72_transfer_shares (C82_histories h).1 ht, hx]
  unfold Contract.freeOfPool
  rw [h.inv.unpledged]
  simp only [Nat.max_self, Nat.sub_zero, hd, true_and, ne_comm (a := fa)]
  constructor
  · rintro ⟨h1, h2, h3, -, h4⟩; exact ⟨h1, h2, h3, h4⟩
  · rintro ⟨h1, h2, h3, h4⟩; exact ⟨h1, h2, h3, hc, h4⟩

/-- **C82.** Shares the farming contract has not accepted are given back in full, whatever has happened
in the meantime: to the sender, or to the exchange if the sender has no account there. -/
theorem C82_refund {fa : AccountId} {w : StakeWorld} (h : w.Reachable fa) {t : List Char}
    {a : AccountId} {n id : Nat} {o : Outcome} (hid : id < 2 ^ 64) (ht : parseTokenId t = .pool id)
    (hq : .answered (.mftCall t a fa n) o ∈ w.queue) (h0 : 0 < Contract.unusedOf n o) {x : Ctx}
    {e' : Contract} {outs : List Out}
    (hr : w.e.callback x (.mftCall t a fa n) o = .ok (e', outs)) :
    Contract.Moves w.e e' (.pool id) fa (if w.e.accounts.contains a = true then a else w.e.self)
      (Contract.unusedOf n o) := by
  have hc := covered h hid hq
  simp only [Parcel.shares, ht, and_self, if_true] at hc
  obtain ⟨-, -, ⟨-, h1⟩ | hm⟩ := Contract.C27_resolve hr
  · rw [ht] at h1
    simp only [Contract.holding] at h1
    omega
  · rw [ht] at hm
    simp only [Contract.holding, Nat.min_eq_right hc] at hm
    exact hm

/-- **C82.** That succeeds exactly if the one who gets them is registered in the pool. -/
theorem C82_refund_succeeds {fa : AccountId} {w : StakeWorld} (h : w.Reachable fa) {t : List Char}
    {a : AccountId} {n id : Nat} {o : Outcome} (hid : id < 2 ^ 64) (ht : parseTokenId t = .pool id)
    (ha : a ≠ fa) (hq : .answered (.mftCall t a fa n) o ∈ w.queue) (h0 : 0 < Contract.unusedOf n o)
    {x : Ctx} : (∃ r, w.e.callback x (.mftCall t a fa n) o = .ok r) ↔
      w.e.mftHasRegistered t (if w.e.accounts.contains a = true then a else w.e.self) = true := by
  have hc := covered h hid hq
  simp only [Parcel.shares, ht, and_self, if_true] at hc
  have hto : fa ≠ (if w.e.accounts.contains a = true then a else w.e.self) := by
    split
    · exact ha.symm
    · exact h.inv.self.symm
  cases hp : w.e.pools[id]? with
  | none =>
    exfalso
    simp only [Contract.sharesOf, hp] at hc
    omega
  | some p =>
    have hb : w.e.mftBalance t fa = .ok (p.shareBalance fa) := by
      simp only [Contract.mftBalance, ht]
      rw [Contract.pool_ok.2 hp]; rfl
    have hh : w.e.sharesOf id fa = p.shareBalance fa := by simp only [Contract.sharesOf, hp]
    rw [hh] at hc
    have hs := (C82_histories h).1.sound p (List.mem_of_getElem? hp)
    have he : w.e.mftHasRegistered t (if w.e.accounts.contains a = true then a else w.e.self) =
        p.shareRegistered (if w.e.accounts.contains a = true then a else w.e.self) := by
      simp only [Contract.mftHasRegistered, ht, hp]
    rw [he]
    simp only [Contract.callback, Contract.mftResolve]
    rw [if_pos h0, hb, ok_bind, if_pos (by omega), Nat.min_eq_right hc]
    generalize (if w.e.accounts.contains a = true then a else w.e.self) = b at hto
    have key := Pool.shareTransfer_iff (b := b) hs hto h0
    simp only [Contract.internalMftTransfer, ht, Contract.transferShares]
    rw [(assertE_ok (u := ())).2 hto, ok_bind, Contract.pool_ok.2 hp, ok_bind,
      Contract.freeShares_run (by rw [h.inv.unpledged]; exact Nat.zero_le _), ok_bind]
    simp only [Option.getD_some, h.inv.unpledged, Nat.max_self, Nat.sub_zero]
    rw [(assertE_ok (u := ())).2 h0, ok_bind, (assertE_ok (u := ())).2 hc, ok_bind]
    constructor
    · rintro ⟨r, hr⟩
      cases hq : p.shareTransfer fa b (Contract.unusedOf n o) with
      | error e => rw [hq] at hr; cases hr
      | ok q => exact (key.1 ⟨q, hq⟩).2
    · intro hr
      obtain ⟨q, hq⟩ := key.2 ⟨hc, hr⟩
      rw [hq]
      exact ⟨_, rfl⟩

/-! ### What a farmer has -/

/-- The promise that follows a withdrawal carries what has been withdrawn. -/
theorem withdrawn {f f' : Farming.Contract} (hf : f.Reachable) (hT : f.Typed) {x : Farming.Ctx}
    {k : Farming.Call} {outs : List Farming.Out} (hx : '@' ∉ x.pred)
    (h : f.exec x k = .ok (f', outs)) {ex : AccountId} (hex : '@' ∉ ex) {id : Nat}
    (hid : id < 2 ^ 64) (fa a : AccountId) :
    (Farming.Event.call x k).unstaked a (Farming.mftSeedId ex id) ≤
      underwayOf ex fa a id (outs.map .requested) := by
  by_cases hk : ∃ n, k = .withdrawSeed (Farming.mftSeedId ex id) n ∧ a = x.pred
  · obtain ⟨n, rfl, rfl⟩ := hk
    have h1 := (Farming.exec_ledger (a := .mft ex id) hf.inv hT hx ⟨hex, hid⟩ h).2.2
    obtain ⟨-, -, rfl | ⟨c, token, hp, rfl⟩⟩ := Farming.Contract.C46_withdraw hf h
    · have : '@' ∉ Farming.mftSeedId ex id := h1 _ (.head _)
      exact absurd (by simp [Farming.mftSeedId]) this
    · rw [Farming.parseSeedId_mft hex] at hp
      cases hp
      simp [Farming.Event.unstaked, underwayOf, underway, Parcel.owner, Parcel.shares,
        Farming.Out.pays, Farming.parseTokenId_digits hid]
  · have : (Farming.Event.call x k).unstaked a (Farming.mftSeedId ex id) = 0 := by
      cases k <;> try rfl
      rename_i s n
      simp only [Farming.Event.unstaked]
      rw [if_neg]
      rintro ⟨rfl, rfl⟩
      exact hk ⟨n, rfl, rfl⟩
    omega

/-- What the farming contract pays out for `a` under the name of a pool is worth its shares. -/
theorem worth {ex fa a who : AccountId} {s : Farming.SeedId} {c : AccountId} {token : List Char}
    {n id : Nat} (hex : '@' ∉ ex) (ho : (Farming.Out.mftSeed s c token who n).Typed) :
    (if who = a then (Parcel.settled (.mftSeed s c token who n) false).shares ex fa id else 0) ≤
      if a = who ∧ Farming.mftSeedId ex id = s then n else 0 := by
  obtain ⟨p, hc, hp, rfl, rfl⟩ := ho
  by_cases hw : who = a
  · subst hw
    simp only [if_true, true_and, Parcel.shares, Bool.false_eq_true, if_false, Farming.Out.pays,
      Farming.parseTokenId_digits hp, TokenOrPool.pool.injEq]
    by_cases hcp : c = ex ∧ p = id
    · obtain ⟨rfl, rfl⟩ := hcp
      simp
    · rw [if_neg hcp]; exact Nat.zero_le _
  · rw [if_neg hw]; exact Nat.zero_le _

/-- **C82.** What an account has of a pool, counting its shares at the exchange, its stake, and what is
on the way between the two, never falls by what others do or by staking and withdrawing; the receipts
that may take something are listed in `Takes`. -/
theorem C82_owner {fa : AccountId} {w w' : StakeWorld} {d : Deed} (h : w.Reachable fa)
    (hs : w.Step fa d w') {a : AccountId} (ha : a ≠ fa) {id : Nat} (hid : id < 2 ^ 64)
    (ht : ¬ w.Takes fa a id d) : w.owns fa a id ≤ w'.owns fa a id := by
  have hI := h.inv
  have hb : ∀ i ∈ w.queue, i.shares w.e.self fa id ≤ w.e.sharesOf id fa := fun i => covered h hid
  unfold owns
  cases hs with
  | @call x k e' outs h1 hx =>
    have hself : e'.self = w.e.self := Contract.apply_self (e := .call x k) h1
    simp only [hself, underwayOf_append]
    by_cases hxa : x.pred = a
    · by_cases hk : ∃ t n, k = .mftTransferCall t fa n
      · obtain ⟨t, m, rfl⟩ := hk
        obtain ⟨n, rfl, hm, -⟩ := Contract.C27_transfer_call h1
        have e := hm.holdings a (.pool id)
        rw [hxa] at e
        simp only [Contract.holding, if_neg (fun e : a = fa ∧ _ => ha e.1), true_and,
          eq_comm (a := TokenOrPool.pool id)] at e
        simp only [List.map_cons, List.map_nil, underwayOf_cons, underwayOf_nil, Parcel.owner, hxa,
          Parcel.shares, true_and, if_true]
        omega
      · exact absurd (.own hxa fun t n e => hk ⟨t, n, e⟩) ht
    · rcases Contract.exec_shares h1 (Ne.symm hxa) id with e | ⟨_, _, n, _, rfl, e1, e2, -, e3⟩ |
        ⟨_, _, rfl, e, -⟩
      · omega
      · exact absurd (.liquidated e1 e2 e3) ht
      · exact absurd (.fee e) ht
  | @rate t r time =>
    obtain ⟨e1, e2, e3⟩ := w.e.setRate_sharesOf t r time
    simp only [Contract.sharesOf_eq, e1, e3]
    exact Nat.le_refl _
  | @price t r time =>
    obtain ⟨e1, e2, e3⟩ := w.e.setDegenPrice_sharesOf t r time
    simp only [Contract.sharesOf_eq, e1, e3]
    exact Nat.le_refl _
  | @callFarm x k f' outs h1 hx hx' =>
    have e1 := Farming.Contract.C46_ledger (e := .call x k) hI.farm h1 a
      (Farming.mftSeedId w.e.self id)
    have e2 := withdrawn hI.farm hI.typed hx' h1 hI.name hid fa a
    simp only [underwayOf_append]
    omega
  | @deliver l1 l2 t b n msg x f' outs hq hx h1 =>
    have e1 := Farming.Contract.C46_ledger (e := .call x (.mftOnTransfer t b n msg)) hI.farm h1 a
      (Farming.mftSeedId w.e.self id)
    have e2 : (Farming.Event.call x (.mftOnTransfer t b n msg)).unstaked a
      (Farming.mftSeedId w.e.self id) = 0 := rfl
    have e3 : (if (Parcel.promised (.mftCall t b fa n)).owner = a then
        (Parcel.promised (.mftCall t b fa n)).shares w.e.self fa id else 0) ≤
        (Farming.Event.call x (.mftOnTransfer t b n msg)).staked a (Farming.mftSeedId w.e.self id) := by
      simp only [Farming.Event.staked, Parcel.shares, hx]
      by_cases hba : b = a
      · subst hba
        by_cases hp : parseTokenId t = .pool id
        · rw [hp]; simp [Parcel.owner]
        · simp [hp]
      · rw [if_neg (show ¬ (Parcel.promised (.mftCall t b fa n)).owner = a from hba)]
        exact Nat.zero_le _
    rw [hq]
    simp only [underwayOf_append, underwayOf_cons]
    omega
  | @refuse l1 l2 out hq =>
    have e3 : (Parcel.answered out .failure).shares w.e.self fa id =
        (Parcel.promised out).shares w.e.self fa id := by cases out <;> rfl
    have e4 : (Parcel.answered out .failure).owner = (Parcel.promised out).owner := by
      cases out <;> rfl
    rw [hq]
    simp only [underwayOf_append, underwayOf_cons, e3, e4]
    exact Nat.le_refl _
  | @accept l1 l2 out v hq hn =>
    have e3 : (Parcel.promised out).shares w.e.self fa id = 0 := by
      cases out <;> try rfl
      rename_i t s r n
      by_cases hr : r = fa
      · subst hr; exact absurd rfl (hn t s n)
      · simp [Parcel.shares, hr]
    rw [hq]
    simp only [underwayOf_append, underwayOf_cons, e3, ite_self]
    omega
  | @resolve l1 l2 out o x e' outs hq h1 =>
    have hself : e'.self = w.e.self := Contract.apply_self (e := .callback x out o) h1
    have hc := hb (.answered out o) (by rw [hq]; simp)
    rw [hq]
    simp only [hself, underwayOf_append, underwayOf_cons]
    suffices hsuf : w.e.sharesOf id a + (if (Parcel.answered out o).owner = a then
        (Parcel.answered out o).shares w.e.self fa id else 0) ≤ e'.sharesOf id a by omega
    by_cases hz : (Parcel.answered out o).shares w.e.self fa id = 0
    · rw [hz, ite_self, Nat.add_zero]
      rcases Contract.callback_shares h1 id a with e | ⟨t, s, n, rfl, hp, -⟩
      · exact e
      · exact absurd (.returned hp) ht
    · cases out <;> try exact absurd rfl hz
      rename_i t s r n
      simp only [Parcel.shares] at hz hc ⊢
      by_cases hp : r = fa ∧ parseTokenId t = .pool id
      · obtain ⟨rfl, hp⟩ := hp
        simp only [hp, and_self, if_true] at hz hc ⊢
        have hm := C82_refund h hid hp (by rw [hq]; simp) (by omega) h1
        have e := hm.holdings a (.pool id)
        simp only [Contract.holding, and_true, if_neg ha] at e
        by_cases hsa : s = a
        · rw [if_pos (show (Parcel.answered (.mftCall t s r n) o).owner = a from hsa)]
          subst hsa
          cases hcs : w.e.accounts.contains s with
          | true => rw [hcs] at e; simp only [if_true] at e ⊢; omega
          | false => exact absurd (.homeless hp hcs (by omega)) ht
        · rw [if_neg (show ¬ (Parcel.answered (.mftCall t s r n) o).owner = a from hsa)]; omega
      · rw [if_neg hp] at hz; exact absurd rfl hz
  | @leave l1 l2 out o hq =>
    have e3 : (if (Parcel.answered out o).owner = a then
        (Parcel.answered out o).shares w.e.self fa id else 0) = 0 := by
      cases out <;> try exact ite_self _
      rename_i t s r n
      by_cases hsa : (Parcel.answered (.mftCall t s r n) o).owner = a
      · rw [if_pos hsa]
        have hsa : s = a := hsa
        subst hsa
        simp only [Parcel.shares]
        by_cases hp : r = fa ∧ parseTokenId t = .pool id
        · rw [if_pos hp]
          obtain ⟨rfl, hp⟩ := hp
          by_cases h0 : Contract.unusedOf n o = 0
          · exact h0
          · exact absurd (.unresolved hp (by omega)) ht
        · rw [if_neg hp]
      · rw [if_neg hsa]
    rw [hq]
    simp only [underwayOf_append, underwayOf_cons, e3]
    omega
  | @transfer l1 l2 s token b n x e' outs hq hx h1 =>
    have hself : e'.self = w.e.self :=
      Contract.apply_self (e := .call x (.mftTransfer (':' :: token) b n)) h1
    obtain ⟨rfl, hm⟩ := Contract.C27_transfer h1
    have e := hm.holdings a (.pool id)
    rw [hx] at e
    simp only [Contract.holding, if_neg (fun e : a = fa ∧ _ => ha e.1),
      eq_comm (a := TokenOrPool.pool id)] at e
    have e3 : (if (Parcel.requested (.mftSeed s w.e.self token b n)).owner = a then
        (Parcel.requested (.mftSeed s w.e.self token b n)).shares w.e.self fa id else 0) = if a = b ∧ parseTokenId (':' :: token) = .pool id then n else 0 := by
      simp only [Parcel.shares, Farming.Out.pays, true_and]
      by_cases hba : b = a
      · subst hba; simp [Parcel.owner]
      · rw [if_neg (show ¬ (Parcel.requested (.mftSeed s w.e.self token b n)).owner = a from hba),
          if_neg fun e => hba e.1.symm]
    rw [hq]
    simp only [hself, underwayOf_append, underwayOf_cons, List.map_nil, underwayOf_nil]
    omega
  | @decline l1 l2 out hq =>
    have e3 : (Parcel.settled out false).shares w.e.self fa id =
        (Parcel.requested out).shares w.e.self fa id := by cases out <;> rfl
    have e4 : (Parcel.settled out false).owner = (Parcel.requested out).owner := by
      cases out <;> rfl
    rw [hq]
    simp only [underwayOf_append, underwayOf_cons, e3, e4]
    exact Nat.le_refl _
  | @pay l1 l2 out hq hn =>
    have e3 : (Parcel.requested out).shares w.e.self fa id = 0 := by
      cases out <;> try rfl
      rename_i s c token b n
      simp only [Parcel.shares, Farming.Out.pays]
      rw [if_neg]
      rintro ⟨rfl, -⟩
      exact hn _ _ _ _ rfl
    rw [hq]
    simp only [underwayOf_append, underwayOf_cons, e3, ite_self]
    omega
  | @settle l1 l2 out ok x f' hq h1 =>
    have ho : out.Typed := hI.queue (.settled out ok) (by rw [hq]; simp)
    have hap : w.f.apply (.callback x out ok) = .ok (f', []) := by
      simp only [Farming.Contract.apply, h1]; rfl
    have e1 := Farming.Contract.C46_ledger hI.farm hap a (Farming.mftSeedId w.e.self id)
    have e2 : (Farming.Event.callback x out ok).unstaked a (Farming.mftSeedId w.e.self id) = 0 := rfl
    have e3 : (if (Parcel.settled out ok).owner = a then
        (Parcel.settled out ok).shares w.e.self fa id else 0) ≤
        (Farming.Event.callback x out ok).staked a (Farming.mftSeedId w.e.self id) := by
      cases ok with
      | true => simp [Parcel.shares]
      | false =>
        cases out with
        | mftSeed s c token b n => exact worth hI.name ho
        | _ => simp [Parcel.shares, Farming.Out.pays]
    rw [hq]
    simp only [underwayOf_append, underwayOf_cons]
    omega
  | @forfeit l1 l2 out ok hq =>
    have e3 : (if (Parcel.settled out ok).owner = a then
        (Parcel.settled out ok).shares w.e.self fa id else 0) = 0 := by
      cases ok with
      | true => simp [Parcel.shares]
      | false =>
        cases out with
        | mftSeed s c token b n =>
          by_cases hba : b = a
          · subst hba
            simp only [Parcel.shares, Farming.Out.pays, Bool.false_eq_true, if_false]
            by_cases hc : c = w.e.self
            · subst hc; exact absurd .unsettled ht
            · simp [hc]
          · simp [Parcel.owner, hba]
        | _ => simp [Parcel.shares, Farming.Out.pays]
    rw [hq]
    simp only [underwayOf_append, underwayOf_cons, e3]
    omega

theorem Keeps.reachable {fa a : AccountId} {id : Nat} {w w' : StakeWorld} (h : w.Reachable fa)
    (hk : Keeps fa a id w w') : w'.Reachable fa := by
  induction hk with
  | refl => exact h
  | step _ hs _ ih => exact ih.step hs

/-- **C82.** However long the history: an account has at least the shares it had, as long as no receipt
that may take some has run. -/
theorem C82_kept {fa a : AccountId} {id : Nat} {w w' : StakeWorld} (h : w.Reachable fa) (ha : a ≠ fa)
    (hid : id < 2 ^ 64) (hk : Keeps fa a id w w') : w.owns fa a id ≤ w'.owns fa a id := by
  induction hk with
  | refl => exact Nat.le_refl _
  | step hk hs ht ih => exact Nat.le_trans ih (C82_owner (hk.reachable h) hs ha hid ht)

/-- **C82.** When nothing is on the way, what has been kept is in the exchange or staked. -/
theorem C82_settled {fa a : AccountId} {id : Nat} {w w' : StakeWorld} (h : w.Reachable fa)
    (ha : a ≠ fa) (hid : id < 2 ^ 64) (hk : Keeps fa a id w w') (hq : w.queue = [])
    (hq' : w'.queue = []) :
    w.e.sharesOf id a + w.f.stakeOf a (Farming.mftSeedId w.e.self id) ≤
      w'.e.sharesOf id a + w'.f.stakeOf a (Farming.mftSeedId w'.e.self id) := by
  have := C82_kept h ha hid hk
  unfold owns at this
  rw [hq, hq'] at this
  exact this

end StakeWorld
end Verif

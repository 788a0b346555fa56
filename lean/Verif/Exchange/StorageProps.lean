import Verif.Exchange.CfgLemmas
import Verif.Exchange.Demo

/-
C23 (storage is paid for) and C24 (unregistering cannot strand funds).
-/

namespace Verif

/-- The account's storage deposit covers the storage it uses. -/
def Account.Covered (a : Account) : Prop := a.storageUsage ≤ a.near

/-- Every account in `m'` is as in `m`, or covered, or one of the exceptions. -/
def Kept (except : AccountId → Prop) (m m' : FMap AccountId Account) : Prop :=
  ∀ a acc, m'.get? a = some acc → m.get? a = some acc ∨ acc.Covered ∨ except a

namespace Kept

theorem refl (ex : AccountId → Prop) (m : FMap AccountId Account) : Kept ex m m :=
  fun _ _ h => .inl h

theorem insert {ex : AccountId → Prop} {m m' : FMap AccountId Account} (h : Kept ex m m')
    {a : AccountId} {acc : Account} (hc : acc.storageUsage ≤ acc.near ∨ ex a) :
    Kept ex m (m'.insert a acc) := by
  intro b acc' hb
  rw [FMap.get?_insert] at hb
  by_cases hab : b = a
  · rw [if_pos hab] at hb; cases hb; subst hab; exact .inr hc
  · rw [if_neg hab] at hb; exact h b acc' hb

theorem erase {ex : AccountId → Prop} {m m' : FMap AccountId Account} (h : Kept ex m m')
    (a : AccountId) : Kept ex m (m'.erase a) := by
  intro b acc' hb
  rw [FMap.get?_erase] at hb
  by_cases hab : b = a
  · rw [if_pos hab] at hb; cases hb
  · rw [if_neg hab] at hb; exact h b acc' hb

theorem one {ex : AccountId → Prop} {m : FMap AccountId Account}
    {a : AccountId} {acc : Account} (hc : acc.storageUsage ≤ acc.near) :
    Kept ex m (m.insert a acc) := (refl ex m).insert (.inl hc)

end Kept

/-- Depositing with the storage check keeps a covered account covered. -/
theorem Account.depositChecked_covered {a b : Account} {t : AccountId} {n : Nat}
    (h : a.depositChecked t n = .ok (some b)) (hc : a.Covered) : b.Covered := by
  unfold depositChecked at h
  split at h
  · rename_i s hs
    unpack at h
    obtain ⟨-, h⟩ := h
    cases h
    unfold Covered storageUsage at hc ⊢
    have := FMap.sum_insert a.tokens (fun _ s => if s.legacy then 84 else 148) t
      ⟨s.amt + n, s.legacy⟩
    rw [FMap.term_some _ hs] at this
    simp only at this ⊢
    have e : ((a.tokens.insert t ⟨s.amt + n, s.legacy⟩).sum fun _ s => if s.legacy then 84 else 148) =
        a.tokens.sum fun _ s => if s.legacy then 84 else 148 := by omega
    rw [e]; exact hc
  · simp only [] at h
    split at h
    · rename_i hb
      cases h; exact hb
    · cases h

namespace Contract
open Demo

/-- The calls that write the owner's account without the storage check. -/
def _root_.Verif.Call.writesOwner : Call → Prop
  | .withdrawOwnerToken .. => True
  | .donationToken .. => True
  | _ => False

/-- An internal transfer saves both accounts with the storage check. -/
theorem internalMftTransfer_kept {c c' : Contract} {tokenId : List Char} {s r : AccountId}
    {amount : Option Nat} {n : Nat} (h : c.internalMftTransfer tokenId s r amount = .ok (c', n))
    (ex : AccountId → Prop) : Kept ex c.accounts c'.accounts := by
  obtain ⟨-, ⟨_, -, h⟩ | ⟨_, -, h⟩⟩ := internalMftTransfer_inv h
  · obtain ⟨_, _, -, -, -, -, -, -, rfl⟩ := transferShares_inv h; exact .refl _ _
  · obtain ⟨_, _, _, _, -, -, -, -, -, h1, h2, rfl⟩ := transferToken_inv h
    exact (Kept.one h1).insert (.inl h2)

/-- Every account that a successful call writes is covered afterwards, except the owner's in
`withdraw_owner_token` and `donation_token`. -/
theorem exec_kept {c c' : Contract} {x : Ctx} {k : Call} {outs : List Out}
    (h : c.exec x k = .ok (c', outs)) :
    Kept (fun a => a = c.cfg.owner ∧ k.writesOwner) c.accounts c'.accounts := by
  cases k <;> simp only [exec] at h
  case addSimplePool =>
    obtain ⟨_, -, -, -, h⟩ := addSimplePool_inv h
    obtain ⟨_, _, -, -, rfl⟩ := addPool_inv h; exact .refl _ _
  case addCurvePool =>
    obtain ⟨_, -, -, -, -, h⟩ := addCurvePool_inv h
    obtain ⟨_, _, -, -, rfl⟩ := addPool_inv h; exact .refl _ _
  case executeActions =>
    unpack at h; obtain ⟨_, _, h, rfl, -⟩ := h
    obtain ⟨_, _, c1, -, -, -, -, h2, hc, rfl⟩ := executeActions_inv h
    obtain ⟨_, hs, -⟩ := runActions_ok h2
    simp only [putAccount, hs.framed.accounts]; exact .one hc
  case executeInVa =>
    unpack at h; obtain ⟨_, _, h, rfl, -⟩ := h
    obtain ⟨_, _, _, _, _, c1, _, -, -, -, -, -, h2, -, -, hc, rfl⟩ := executeInVa_inv h
    obtain ⟨_, hs, -⟩ := runActions_ok h2
    simp only [putAccount, hs.framed.accounts]; exact .one hc
  case addLiquidity =>
    unpack at h; obtain ⟨_, _, _, h, rfl, -⟩ := h
    obtain ⟨_, _, _, _, _, _, _, -, -, -, -, -, -, -, -, hc, -, rfl⟩ := addLiquidity_inv h
    exact .one hc
  case addStableLiquidity =>
    unpack at h; obtain ⟨_, _, _, h, rfl, -⟩ := h
    obtain ⟨_, _, _, _, _, _, -, -, -, -, -, -, -, -, hc, -, rfl⟩ := addStableLiquidity_inv h
    exact .one hc
  case removeLiquidity =>
    unpack at h; obtain ⟨_, _, h, rfl, -⟩ := h
    obtain ⟨_, _, _, _, _, -, -, -, -, -, -, -, -, hc, rfl⟩ := removeLiquidity_inv h
    exact .one hc
  case removeByTokens =>
    unpack at h; obtain ⟨_, _, h, rfl, -⟩ := h
    obtain ⟨_, _, _, _, _, -, -, -, -, -, -, -, -, hc, rfl⟩ := removeByTokens_inv h
    exact .one hc
  case registerTokens =>
    unpack at h; obtain ⟨_, h, rfl, -⟩ := h
    obtain ⟨_, -, -, -, hc, rfl⟩ := registerTokens_inv h; exact .one hc
  case unregisterTokens =>
    unpack at h; obtain ⟨_, h, rfl, -⟩ := h
    obtain ⟨_, _, -, -, -, -, hc, rfl⟩ := unregisterTokens_inv h; exact .one hc
  case withdraw =>
    obtain ⟨_, _, _, _, -, -, -, -, -, -, -, -, hc, rfl, -⟩ := withdraw_inv h
    exact .one hc
  case claimLostfound =>
    obtain ⟨-, -, -, -, rfl, -⟩ := claimLostfound_inv h; exact .refl _ _
  case ftOnTransfer =>
    obtain ⟨-, -, ⟨-, -, h, -⟩ | ⟨_, _, _, _, _, -, h⟩ | ⟨_, _, _, -, -, h⟩⟩ := ftOnTransfer_inv h
    · obtain ⟨_, _, -, -, -, hc, rfl⟩ := deposit_inv h; exact .one hc
    · obtain ⟨_, -, -, -, h, -⟩ := instantSwap_inv h
      obtain ⟨_, _, _, hs, -⟩ := directActions_ok h
      rw [hs.framed.accounts]; exact .refl _ _
    · obtain ⟨_, _, _, _, _, _, _, _, -, -, -, -, -, -, h2, hz, -, -, -, hc, rfl⟩ := hotZap_inv h
      obtain ⟨_, _, _, hs, -⟩ := directActions_ok h2
      have := hs.framed.trans hz.framed.1
      simp only [putAccount, this.accounts]; exact .one hc
  case mftTransfer =>
    unpack at h; obtain ⟨_, h, rfl, -⟩ := h
    obtain ⟨-, -, _, h⟩ := mftTransfer_inv h
    exact internalMftTransfer_kept h _
  case mftTransferCall =>
    obtain ⟨-, -, _, h, -⟩ := mftTransferCall_inv h
    exact internalMftTransfer_kept h _
  case mftRegister =>
    obtain ⟨_, _, _, _, -, -, -, -, -, rfl⟩ := mftRegister_inv h; exact .refl _ _
  case mftUnregister =>
    obtain ⟨_, _, _, -, -, -, -, -, -, rfl⟩ := mftUnregister_inv h; exact .refl _ _
  case storageDeposit =>
    obtain ⟨-, -, rfl | ⟨_, _, h⟩⟩ := storageDeposit_inv h
    · exact .refl _ _
    · obtain ⟨_, -, -, -, hc, rfl⟩ := registerAccount_inv h; exact .one hc
  case storageWithdraw =>
    obtain ⟨acc, n, -, -, -, -, h1, h2, -, rfl⟩ := storageWithdraw_inv h
    refine .one ?_
    have e : ({ acc with near := acc.near - n } : Account).storageUsage = acc.storageUsage := rfl
    rw [e]
    unfold Account.storageAvailable at h1 h2
    show acc.storageUsage ≤ acc.near - n
    omega
  case storageUnregister =>
    obtain ⟨-, -, ⟨-, rfl, -⟩ | ⟨_, -, -, -, rfl, -⟩⟩ := storageUnregister_inv h
    · exact .refl _ _
    · exact (Kept.refl _ _).erase _
  case shadowAction =>
    obtain ⟨_, _, _, _, -, -, -, -, -, -, -, ⟨-, rfl, -⟩ | ⟨-, _, _, _, -, hc, -, rfl, -⟩⟩ :=
      shadowAction_inv h
    · exact .refl _ _
    · exact .one hc
  case onBurrowLiquidation =>
    obtain ⟨_, _, _, _, _, _, _, _, _, _, _, -, -, -, -, -, -, -, -, -, -, hc, -, -, -, hd, rfl, -⟩ :=
      onBurrowLiquidation_inv h
    exact (Kept.one hc).insert (.inl hd)
  case donationShare =>
    obtain ⟨_, _, _, _, -, -, -, -, -, -, -, -, rfl | ⟨_, _, -, -, hc, rfl⟩⟩ := donationShare_inv h
    · exact .refl _ _
    · exact .one hc
  case donationToken =>
    unpack at h; obtain ⟨_, h, rfl, -⟩ := h
    obtain ⟨_, _, _, _, _, _, -, -, -, -, -, -, -, hc, -, -, rfl⟩ := donationToken_inv h
    exact (Kept.one hc).insert (.inr ⟨rfl, trivial⟩)
  case setting s =>
    unpack at h; obtain ⟨_, h, rfl, -⟩ := h
    obtain ⟨g, -, rfl⟩ := setting_inv h
    exact .refl _ _
  case retrieveUnmanaged =>
    unpack at h; obtain ⟨_, h, rfl, -⟩ := h; exact .refl _ _
  case modifyTotalFee =>
    unpack at h; obtain ⟨_, h, rfl, -⟩ := h
    obtain ⟨_, -, -, -, -, rfl⟩ := modifyTotalFee_inv h; exact .refl _ _
  case removeExchangeFee =>
    unpack at h; obtain ⟨_, h, rfl, -⟩ := h
    obtain ⟨_, _, _, _, _, -, -, -, -, -, -, -, hc, rfl⟩ := removeExchangeFee_inv h
    exact .one hc
  case withdrawOwnerToken =>
    obtain ⟨_, _, -, -, -, -, -, -, rfl, -⟩ := withdrawOwnerToken_inv h
    exact (Kept.refl _ _).insert (.inr ⟨rfl, trivial⟩)
  case rampAmp =>
    unpack at h; obtain ⟨_, h, rfl, -⟩ := h
    obtain ⟨_, _, -, -, -, -, rfl⟩ := rampAmp_inv h; exact .refl _ _
  case stopRampAmp =>
    unpack at h; obtain ⟨_, h, rfl, -⟩ := h
    obtain ⟨_, _, -, -, -, -, rfl⟩ := stopRampAmp_inv h; exact .refl _ _
  case registerTwap =>
    unpack at h; obtain ⟨_, h, rfl, -⟩ := h
    obtain ⟨-, -, _, rfl⟩ := registerTwap_inv h; exact .refl _ _
  case unregisterTwap =>
    unpack at h; obtain ⟨_, h, rfl, -⟩ := h
    obtain ⟨-, -, _, rfl⟩ := unregisterTwap_inv h; exact .refl _ _
  case syncTwap =>
    unpack at h; obtain ⟨_, h, rfl, -⟩ := h
    obtain ⟨-, _, rfl⟩ := syncTwap_inv h; exact .refl _ _

/-- A callback keeps every covered account covered, except the owner's, which receives amounts that
can be credited nowhere else. -/
theorem callback_covered {c c' : Contract} {x : Ctx} {out : Out} {o : Outcome} {outs : List Out}
    (h : c.callback x out o = .ok (c', outs)) {a : AccountId} (ha : a ≠ c.cfg.owner)
    (hc : ∀ acc, c.accounts.get? a = some acc → acc.Covered) :
    ∀ acc, c'.accounts.get? a = some acc → acc.Covered := by
  have of_kept : ∀ {m : FMap AccountId Account} {ex : AccountId → Prop}, ¬ ex a →
      Kept ex c.accounts m → ∀ acc, m.get? a = some acc → acc.Covered := by
    intro m ex hex hk acc hm
    rcases hk a acc hm with h | h | h
    · exact hc acc h
    · exact h
    · exact absurd h hex
  have of_fail : ∀ {b t : AccountId} {n : Nat} {d : Contract}, c.handleFail x b t n = .ok d →
      ∀ acc, d.accounts.get? a = some acc → acc.Covered := by
    intro b t n d hd
    obtain ⟨acc0, acc1, h1, h2, rfl⟩ | rfl | ⟨acc1, -, rfl⟩ := handleFail_inv hd
    · intro acc hm
      simp only [putAccount, FMap.get?_insert] at hm
      by_cases hab : a = b
      · subst hab
        rw [if_pos rfl] at hm; cases hm
        exact Account.depositChecked_covered h2 (hc _ h1)
      · rw [if_neg hab] at hm; exact hc acc hm
    · exact hc
    · intro acc hm
      simp only [putAccount, FMap.get?_insert, if_neg ha] at hm
      exact hc acc hm
  cases out <;> simp only [callback] at h
  case ft =>
    cases o <;> simp only [] at h
    · cases h; exact hc
    · unpack at h; obtain ⟨_, h, rfl, -⟩ := h; exact of_fail h
  case ftCall =>
    cases o <;> simp only [] at h
    · cases h; exact hc
    · unpack at h; obtain ⟨_, h, rfl, -⟩ := h; exact of_fail h
  case unwrap =>
    cases o <;> simp only [] at h
    · cases h; exact hc
    · unpack at h; obtain ⟨_, -, _, h, rfl, -⟩ := h; exact of_fail h
  case mftCall =>
    unpack at h; obtain ⟨_, _, h, rfl, -⟩ := h
    obtain ⟨-, rfl | ⟨_, _, -, -, -, h⟩⟩ := mftResolve_inv h
    · exact hc
    · exact of_kept id (internalMftTransfer_kept h fun _ => False)
  case shadow =>
    obtain ⟨-, rfl | ⟨acc0, h1, rfl | ⟨_, _, -, -, h2, -, rfl⟩⟩⟩ := callbackOnShadow_inv h
    · exact hc
    · intro acc hm
      simp only [putAccount, FMap.get?_insert] at hm
      split at hm
      · rename_i hab; subst hab; cases hm; exact hc _ h1
      · exact hc _ hm
    · exact of_kept (ex := fun _ => False) id (.one h2)
  all_goals (cases h; exact hc)

/-- C23: after a successful call, the storage of every account whose record changed is paid,
except, possibly, the owner's when it receives a donation or is paid out. -/
theorem C23_call {c c' : Contract} {x : Ctx} {k : Call} {outs : List Out}
    (h : c.exec x k = .ok (c', outs)) {a : AccountId} {acc : Account}
    (ha : c'.accounts.get? a = some acc) (hne : c.accounts.get? a ≠ some acc) :
    acc.Covered ∨ a = c.cfg.owner ∧
      ((∃ t n s, k = .withdrawOwnerToken t n s) ∨ ∃ t n u, k = .donationToken t n u) := by
  rcases exec_kept h a acc ha with h1 | h1 | ⟨h1, h2⟩
  · exact absurd h1 hne
  · exact .inl h1
  · refine .inr ⟨h1, ?_⟩
    cases k <;> first | exact absurd h2 id | skip
    · exact .inr ⟨_, _, _, rfl⟩
    · exact .inl ⟨_, _, _, rfl⟩

/-- Account `a` is not the owner in any state of the history. -/
def NeverOwner (a : AccountId) : (c : Contract) → List Event → Prop
  | c, [] => a ≠ c.cfg.owner
  | c, e :: es => a ≠ c.cfg.owner ∧ NeverOwner a (c.step e) es

/-- C23: in every history, the storage of every account that was never the owner is paid. -/
theorem C23_history {c0 : Contract} {self owner farm burrow : AccountId} {fee ref : Nat}
    (hi : init self owner farm burrow fee ref = .ok c0) (es : List Event) {a : AccountId}
    (hn : NeverOwner a c0 es) {acc : Account} (ha : (c0.run es).accounts.get? a = some acc) :
    acc.Covered := by
  have h0 : ∀ acc, c0.accounts.get? a = some acc → acc.Covered := by
    unfold init at hi
    unpack at hi
    obtain ⟨-, rfl⟩ := hi
    intro acc h
    simp [FMap.get?_empty] at h
  clear hi
  unfold run at ha
  induction es generalizing c0 with
  | nil => exact h0 acc ha
  | cons e es ih =>
    refine ih (c0 := c0.step e) hn.2 ha ?_
    have hne := hn.1
    unfold step
    cases he : c0.apply e with
    | error _ => exact h0
    | ok r =>
      obtain ⟨c', outs⟩ := r
      show ∀ acc, c'.accounts.get? a = some acc → acc.Covered
      cases e <;> simp only [apply] at he
      case call x k =>
        intro acc hm
        rcases exec_kept he a acc hm with h1 | h1 | h1
        · exact h0 acc h1
        · exact h1
        · exact absurd h1.1 hne
      case callback => exact callback_covered he hne h0
      case rate t q time =>
        cases he; unfold setRate; split <;> exact h0
      case price t p time =>
        cases he; unfold setDegenPrice; split <;> exact h0

/-- The storage deposit that `a` has paid and does not need. -/
def unused (c : Contract) (a : AccountId) : Nat :=
  match c.accounts.get? a with
  | some acc => acc.near - acc.storageUsage
  | none => 0

/-- C23: `storage_withdraw` pays out a part of the unused storage deposit of the caller, or all of
it if no amount is given, takes it off the account's record and changes nothing else. -/
theorem C23_withdraw {c c' : Contract} {x : Ctx} {amount : Nat} {outs : List Out}
    (h : c.exec x (.storageWithdraw amount) = .ok (c', outs)) :
    ∃ n, n = (if amount = 0 then c.unused x.pred else amount) ∧ 0 < n ∧ n ≤ c.unused x.pred ∧
      outs = [.near x.pred n] ∧ c'.nearOf x.pred + n = c.nearOf x.pred ∧
      c'.unused x.pred + n = c.unused x.pred ∧
      (∀ a, a ≠ x.pred → c'.accounts.get? a = c.accounts.get? a) ∧
      (∀ a t, c'.depositOf a t = c.depositOf a t) ∧ (∀ a id, c'.pledgedOf a id = c.pledgedOf a id) ∧
      c'.pools = c.pools ∧ c'.lostfound = c.lostfound := by
  simp only [exec] at h
  obtain ⟨acc, n, -, -, h1, h2, h3, h4, ho, rfl⟩ := storageWithdraw_inv h
  have e : ({ acc with near := acc.near - n } : Account).storageUsage = acc.storageUsage := rfl
  have eu : c.unused x.pred = acc.near - acc.storageUsage := by simp only [unused, h1]
  have en : c.nearOf x.pred = acc.near := by simp only [nearOf, h1]
  have eu' : (c.putAccount x.pred { acc with near := acc.near - n }).unused x.pred =
      acc.near - n - acc.storageUsage := by
    simp only [unused, putAccount, FMap.get?_insert_self, e]
  have en' : (c.putAccount x.pred { acc with near := acc.near - n }).nearOf x.pred =
      acc.near - n := by
    simp only [nearOf, putAccount, FMap.get?_insert_self]
  rw [eu', en', eu, en]
  unfold Account.storageAvailable at h2 h3 h4
  refine ⟨n, h2, ?_, h4, ho, by omega, by omega, ?_, ?_, ?_, rfl, rfl⟩
  · by_cases h0 : amount = 0
    · rw [if_pos h0] at h2; omega
    · rw [if_neg h0] at h2; omega
  · intro a ha; exact FMap.get?_insert_ne _ _ ha
  · intro a t
    simp only [depositOf_eq, putAccount, balIn_insert]
    by_cases ha : a = x.pred
    · rw [if_pos ha, ha, balIn_some h1]; rfl
    · rw [if_neg ha]
  · intro a id
    simp only [pledgedOf_eq, putAccount, pledgeIn_insert]
    by_cases ha : a = x.pred
    · rw [if_pos ha, ha, pledgeIn_some h1]; rfl
    · rw [if_neg ha]

/-- C23: any amount up to the unused storage deposit can be withdrawn. -/
theorem C23_withdraw_succeeds {c : Contract} {x : Ctx} {amount : Nat} (hx : x.deposit = 1)
    (hr : c.cfg.running = true) (h0 : 0 < c.unused x.pred) (hle : amount ≤ c.unused x.pred) :
    ∃ r, c.exec x (.storageWithdraw amount) = .ok r := by
  unfold unused at h0 hle
  split at h0
  · rename_i acc ha
    rw [ha] at hle
    have hac : c.account x.pred = .ok acc := account_ok.2 ha
    have hn : (if amount = 0 then acc.storageAvailable else amount) ≤ acc.storageAvailable := by
      unfold Account.storageAvailable
      by_cases h : amount = 0
      · rw [if_pos h]
      · rw [if_neg h]; exact hle
    have hs : ∀ n, n ≤ acc.storageAvailable →
        c.saveAccount x.pred { acc with near := acc.near - n } =
          .ok (c.putAccount x.pred { acc with near := acc.near - n }) := by
      intro n hn
      refine saveAccount_ok.2 ⟨?_, rfl⟩
      have e : ({ acc with near := acc.near - n } : Account).storageUsage = acc.storageUsage := rfl
      rw [e]
      unfold Account.storageAvailable at hn
      show acc.storageUsage ≤ acc.near - n
      omega
    simp only [exec, storageWithdraw, Ctx.oneYocto, Config.assertRunning]
    rw [(assertE_ok (u := ())).2 hx, ok_bind, (assertE_ok (u := ())).2 hr, ok_bind, hac, ok_bind,
      (assertE_ok (u := ())).2 (show acc.storageAvailable > 0 from h0), ok_bind,
      (assertE_ok (u := ())).2 hn, ok_bind, hs _ hn, ok_bind]
    exact ⟨_, rfl⟩
  · cases h0

/-! ### C24 -/

theorem size_eq_zero {K V : Type} [DecidableEq K] {m : FMap K V} :
    m.size = 0 ↔ ∀ k, m.get? k = none := by
  unfold FMap.size FMap.get?
  constructor
  · intro h k
    rw [List.length_eq_zero_iff] at h
    rw [h]; rfl
  · intro h
    cases he : m.entries with
    | nil => rfl
    | cons p ps =>
      have := h p.1
      rw [he] at this
      simp [FMap.lookup] at this

/-- The account has no record of a token, not even an empty one, and no pledged shares. -/
def _root_.Verif.Account.Bare (acc : Account) : Prop :=
  (∀ t, acc.registered t = false) ∧ ∀ id, acc.shadow.get? id = none

/-- C24: closing an account succeeds only if it holds nothing, refunds all it paid for storage, and
leaves every other account, all shares and all lost-and-found balances as they are. -/
theorem C24_unregister {c c' : Contract} {x : Ctx} {outs : List Out} {acc : Account}
    (h : c.exec x .storageUnregister = .ok (c', outs)) (ha : c.accounts.get? x.pred = some acc) :
    acc.Bare ∧ (∀ t, c.depositOf x.pred t = 0) ∧ (∀ id, c.pledgedOf x.pred id = ⟨0, 0⟩) ∧
    outs = [.near x.pred (c.nearOf x.pred)] ∧ c'.accounts.get? x.pred = none ∧
    (∀ a, a ≠ x.pred → c'.accounts.get? a = c.accounts.get? a) ∧
    (∀ a t, c'.depositOf a t = c.depositOf a t) ∧ (∀ a id, c'.pledgedOf a id = c.pledgedOf a id) ∧
    c'.pools = c.pools ∧ c'.lostfound = c.lostfound := by
  simp only [exec] at h
  obtain ⟨-, -, ⟨h1, -⟩ | ⟨acc', h1, h2, h3, rfl, rfl⟩⟩ := storageUnregister_inv h
  · rw [ha] at h1; cases h1
  rw [ha] at h1; cases h1
  rw [size_eq_zero] at h2 h3
  have hb : ∀ t, c.depositOf x.pred t = 0 := by
    intro t
    rw [depositOf_eq, balIn_some ha, Account.bal_def, h2 t]; rfl
  have hp : ∀ id, c.pledgedOf x.pred id = ⟨0, 0⟩ := by
    intro id
    rw [pledgedOf_eq, pledgeIn_some ha, Account.pledged_def, h3 id]; rfl
  refine ⟨⟨fun t => ?_, h3⟩, hb, hp, ?_, FMap.get?_erase_self _ _,
    fun a h => FMap.get?_erase_ne _ h, ?_, ?_, rfl, rfl⟩
  · simp [Account.registered, FMap.contains, h2 t]
  · simp [nearOf, ha]
  · intro a t
    simp only [depositOf_eq, balIn_erase]
    by_cases h : a = x.pred
    · rw [if_pos h, h, ← depositOf_eq, hb]
    · rw [if_neg h]
  · intro a id
    simp only [pledgedOf_eq, pledgeIn_erase]
    by_cases h : a = x.pred
    · rw [if_pos h, h, ← pledgedOf_eq, hp]
    · rw [if_neg h]

/-- C24: an account that holds nothing can be closed. -/
theorem C24_succeeds {c : Contract} {x : Ctx} {acc : Account} (hx : x.deposit = 1)
    (hr : c.cfg.running = true) (ha : c.accounts.get? x.pred = some acc) (hb : acc.Bare) :
    ∃ r, c.exec x .storageUnregister = .ok r := by
  have h2 : acc.tokens.size = 0 := size_eq_zero.2 fun t => by
    have := hb.1 t
    unfold Account.registered FMap.contains at this
    exact Option.isNone_iff_eq_none.1 (by simpa using this)
  have h3 : acc.shadow.size = 0 := size_eq_zero.2 hb.2
  simp only [exec, storageUnregister, Ctx.oneYocto, Config.assertRunning]
  rw [(assertE_ok (u := ())).2 hx, ok_bind, (assertE_ok (u := ())).2 hr, ok_bind, ha]
  simp only []
  rw [(assertE_ok (u := ())).2 ⟨h2, h3⟩, ok_bind]
  exact ⟨_, rfl⟩

/-- C24: without an account the call does nothing. -/
theorem C24_no_account {c c' : Contract} {x : Ctx} {outs : List Out}
    (h : c.exec x .storageUnregister = .ok (c', outs)) (ha : c.accounts.get? x.pred = none) :
    c' = c ∧ outs = [] := by
  simp only [exec] at h
  obtain ⟨-, -, ⟨-, h1, h2⟩ | ⟨acc', h1, -⟩⟩ := storageUnregister_inv h
  · exact ⟨h1, h2⟩
  · rw [ha] at h1; cases h1

/-- Alice cannot close the account, Bob can after moving the last token and closing its record. -/
example : (c1.exec (y al) .storageUnregister).holds (fun _ => true) = false ∧
    (c1.exec (y bo) .storageUnregister).holds (fun _ => true) = false ∧
    ((c1.step (.call (y bo) (.withdraw A 0 true none))).exec (y bo) .storageUnregister).holds
      (fun r => r.2 = [.near bo (10 ^ 24)] ∧ (r.1.accounts.get? bo).isNone) = true := by
  decide +kernel

/-- Bob has paid one NEAR and uses 250 bytes. -/
example : c1.unused bo = 10 ^ 24 - 250 * 10 ^ 19 ∧
    (c1.exec (y bo) (.storageWithdraw 0)).holds (fun r =>
      r.2 = [.near bo (10 ^ 24 - 250 * 10 ^ 19)] ∧ r.1.unused bo = 0) = true ∧
    (c1.exec (y bo) (.storageWithdraw (10 ^ 24))).holds (fun _ => true) = false := by
  decide +kernel

/-- Alice is never the owner in the example history. -/
example : NeverOwner al c0 setup := by
  simp only [setup, NeverOwner]; decide +kernel

end Contract
end Verif

import Verif.Exchange.AccountRuns
import Verif.Exchange.PoolViewProps

/-
C72: what the views report about an account is what it can use.
-/

namespace Verif
namespace Contract
open Demo

/-- The call does not panic. -/
def Succeeds (c : Contract) (x : Ctx) (k : Call) : Prop := ∃ r, c.exec x k = .ok r

/-! ### Storage deposits -/

/-- **C72**. `storage_withdraw` succeeds exactly if the amount is at most what `storage_balance_of`
reports as available and this is not zero; 0 stands for all. It pays the amount, and both reported numbers
fall by it. -/
theorem C72_storage_withdraw {c : Contract} {x : Ctx} {n : Nat} :
    (c.Succeeds x (.storageWithdraw n) ↔ x.deposit = 1 ∧ c.cfg.running = true ∧
      ∃ b, c.storageBalanceOf x.pred = some b ∧ 0 < b.available ∧ n ≤ b.available) ∧
    ∀ {c' : Contract} {outs : List Out}, c.exec x (.storageWithdraw n) = .ok (c', outs) →
      ∃ b m, c.storageBalanceOf x.pred = some b ∧ m = (if n = 0 then b.available else n) ∧
        outs = [.near x.pred m] ∧
        c'.storageBalanceOf x.pred = some ⟨b.total - m, b.available - m⟩ := by
  refine ⟨⟨?_, ?_⟩, ?_⟩
  · rintro ⟨⟨c', outs⟩, h⟩
    simp only [exec] at h
    obtain ⟨acc, m, h1, h2, h3, h4, h5, h6, -, -⟩ := storageWithdraw_inv h
    refine ⟨h1, h2, ⟨acc.near, acc.storageAvailable⟩, by unfold storageBalanceOf; rw [h3]; rfl, h5, ?_⟩
    simp only
    by_cases hn : n = 0
    · omega
    · rw [if_neg hn] at h4; omega
  · rintro ⟨h1, h2, b, h3, h4, h5⟩
    unfold storageBalanceOf at h3
    rw [Option.map_eq_some_iff] at h3
    obtain ⟨acc, h3, rfl⟩ := h3
    refine C23_withdraw_succeeds h1 h2 ?_ ?_ <;> unfold unused <;> rw [h3]
    · exact h4
    · exact h5
  · intro c' outs h
    simp only [exec] at h
    obtain ⟨acc, m, -, -, h3, h4, -, h6, h7, rfl⟩ := storageWithdraw_inv h
    refine ⟨⟨acc.near, acc.storageAvailable⟩, m, by unfold storageBalanceOf; rw [h3]; rfl, h4, h7, ?_⟩
    unfold storageBalanceOf putAccount
    simp only [FMap.get?_insert_self, Option.map_some, Option.some.injEq, StorageBalance.mk.injEq,
      true_and]
    unfold Account.storageAvailable at h6 ⊢
    change acc.near - m - acc.storageUsage = _
    omega

/-- **C72**. `storage_deposit` opens an account exactly if at least the minimum of
`storage_balance_bounds` is attached; for an account that exists, the payments must cover what it
uses. All of it is credited. -/
theorem C72_storage_deposit {c : Contract} {x : Ctx} {a : AccountId} :
    (c.Succeeds x (.storageDeposit (some a) false) ↔ c.cfg.running = true ∧
      match c.getUserStorageState a with
      | none => c.storageBalanceBounds ≤ x.deposit ∧ x.deposit < 2 ^ 128
      | some (paid, used) => used ≤ paid + x.deposit ∧ paid + x.deposit < 2 ^ 128) ∧
    ∀ {c' : Contract} {outs : List Out}, c.exec x (.storageDeposit (some a) false) = .ok (c', outs) →
      outs = [] ∧ c'.getUserStorageState a =
        match c.getUserStorageState a with
        | none => some (x.deposit, c.storageBalanceBounds)
        | some (paid, used) => some (paid + x.deposit, used) := by
  unfold Succeeds
  simp only [exec, storageDeposit, registerAccount, Config.assertRunning, bind_ok, assertE_ok,
    Option.getD_some, Bool.false_eq_true, if_false, addW_ok, saveAccount_ok, Except.ok.injEq]
  unfold getUserStorageState FMap.contains accountOrNew storageBalanceBounds putAccount
  cases ha : c.accounts.get? a with
  | none =>
    have hu : ∀ n, ({ Account.new with near := n } : Account).storageUsage = Account.minStorageUsage := by
      intro n; rfl
    constructor
    · constructor
      · rintro ⟨⟨c', outs⟩, -, h1, -, h2, c1, ⟨m, ⟨h3, rfl⟩, h4, -⟩, -⟩
        simp only [Option.getD_none, Option.isSome_none] at h2 h3 h4
        refine ⟨h1, ?_, ?_⟩
        · simpa using h2
        · simpa [Account.new] using h3
      · rintro ⟨h1, h2, h3⟩
        refine ⟨_, (), h1, (), ?_, _, ⟨_, ⟨?_, rfl⟩, ?_, rfl⟩, rfl⟩
        · simpa using h2
        · simpa [Account.new] using h3
        · simp only [Option.getD_none]
          rw [hu]
          simpa [Account.new] using h2
    · rintro c' outs ⟨-, -, -, -, c1, ⟨m, ⟨h3, rfl⟩, h4, rfl⟩, h⟩
      cases h
      refine ⟨rfl, ?_⟩
      simp only [FMap.get?_insert_self, Option.map_some, Option.getD_none, Option.map_none, hu]
      simp [Account.new]
  | some acc =>
    have hu : ∀ n, ({ acc with near := n } : Account).storageUsage = acc.storageUsage := fun _ => rfl
    simp only [Option.isSome_some, Option.getD_some, Option.map_some, hu]
    constructor
    · constructor
      · rintro ⟨⟨c', outs⟩, -, h1, -, h2, c1, ⟨m, ⟨h3, rfl⟩, h4, -⟩, -⟩
        exact ⟨h1, h4, h3⟩
      · rintro ⟨h1, h2, h3⟩
        exact ⟨_, (), h1, (), by simp, _, ⟨_, ⟨h3, rfl⟩, h2, rfl⟩, rfl⟩
    · rintro c' outs ⟨-, -, -, -, c1, ⟨m, ⟨h3, rfl⟩, h4, rfl⟩, h⟩
      cases h
      refine ⟨rfl, ?_⟩
      simp only [FMap.get?_insert_self, Option.map_some, hu]

/-- **C72**. With `registration_only` the minimum is kept and the rest goes back, and all of it if the
account exists. -/
theorem C72_registration_only {c : Contract} {x : Ctx} {a : AccountId} :
    (c.Succeeds x (.storageDeposit (some a) true) ↔ c.cfg.running = true ∧
      (c.storageBalanceOf a = none → c.storageBalanceBounds ≤ x.deposit)) ∧
    ∀ {c' : Contract} {outs : List Out}, c.exec x (.storageDeposit (some a) true) = .ok (c', outs) →
      (c.storageBalanceOf a = none → c'.storageBalanceOf a = some ⟨c.storageBalanceBounds, 0⟩ ∧
        ∃ back, back + c.storageBalanceBounds = x.deposit ∧
          outs = if 0 < back then [.near x.pred back] else []) ∧
      (c.storageBalanceOf a ≠ none → c' = c ∧
        outs = if 0 < x.deposit then [.near x.pred x.deposit] else []) := by
  unfold Succeeds
  simp only [exec, storageDeposit, registerAccount, Config.assertRunning, bind_ok, assertE_ok,
    Option.getD_some, if_true]
  unfold storageBalanceOf FMap.contains accountOrNew storageBalanceBounds
  rcases Option.eq_none_or_eq_some (c.accounts.get? a) with ha | ⟨acc, ha⟩
  · simp only [ha]
    have hu : ∀ n, ({ Account.new with near := n } : Account).storageUsage = Account.minStorageUsage := by
      intro n; rfl
    simp only [Option.isSome_none, Bool.false_eq_true, if_false, Option.getD_none, hu, bind_ok, addW_ok,
      saveAccount_ok, subW_ok, Except.ok.injEq, Option.map_none, ne_eq, not_true_eq_false,
      false_implies, and_true, true_implies]
    constructor
    · constructor
      · rintro ⟨⟨c', outs⟩, -, h1, -, h2, -⟩
        exact ⟨h1, by simpa using h2⟩
      · rintro ⟨h1, h2⟩
        have hm : Account.new.near + Account.minStorageUsage < 2 ^ 128 := by decide
        refine ⟨_, (), h1, (), by simpa using h2, _, ⟨_, ⟨hm, rfl⟩, ?_, rfl⟩, _, ⟨h2, rfl⟩, rfl⟩
        · simp [Account.new]
    · rintro c' outs ⟨-, -, -, -, c1, ⟨m, ⟨-, hm⟩, -, hc⟩, back, ⟨h5, hb⟩, h⟩
      rw [Prod.mk.injEq] at h
      obtain ⟨rfl, rfl⟩ := h
      have hm' : m = Account.minStorageUsage := by rw [hm]; simp [Account.new]
      refine ⟨?_, back, by omega, rfl⟩
      rw [hc]
      simp only [putAccount, FMap.get?_insert_self, Option.map_some, Account.storageAvailable, hu, hm',
        Nat.sub_self]
  · simp only [ha]
    simp only [Option.isSome_some, if_true, Except.ok.injEq, Option.map_some]
    constructor
    · constructor
      · rintro ⟨⟨c', outs⟩, -, h1, -⟩
        exact ⟨h1, fun h => by cases h⟩
      · rintro ⟨h1, -⟩
        exact ⟨_, (), h1, (), by simp, rfl⟩
    · rintro c' outs ⟨-, -, -, -, h⟩
      cases h
      exact ⟨(fun h => nomatch h), fun _ => ⟨rfl, rfl⟩⟩

/-! ### Deposits of tokens -/

/-- **C72**. A deposit by `ft_transfer_call` is accepted exactly if the contract runs, the token is not
frozen and accepted from the account, the sum fits, and the storage deposit pays for the record. -/
theorem C72_deposit {c : Contract} {x : Ctx} {a : AccountId} {n : Nat} :
    c.Succeeds x (.ftOnTransfer a n .deposit) ↔ x.deposit = 0 ∧ c.cfg.running = true ∧
      x.pred ∉ c.cfg.frozen ∧ c.Accepts a x.pred ∧ (0 < n → c.depositOf a x.pred + n < 2 ^ 128) ∧
      ∃ acc, c.accounts.get? a = some acc ∧ acc.PaysRecord x.pred n := by
  constructor
  · rintro ⟨⟨c', outs⟩, h⟩
    simp only [exec] at h
    obtain ⟨h0, h1, ⟨-, hf, h, -⟩ | ⟨_, _, _, _, _, hd, -⟩ | ⟨_, _, _, hd, -⟩⟩ := ftOnTransfer_inv h
    · obtain ⟨acc, acc', h2, h3, h4, h5, -⟩ := deposit_inv h
      obtain ⟨h6, h7⟩ := Account.deposit_iff.1 ⟨acc', h4, h5⟩
      refine ⟨h0, h1, hf, (accepts_iff_allowed h2).1 h3, ?_, acc, h2, h7⟩
      unfold depositOf
      rw [h2]
      exact h6
    · cases hd
    · cases hd
  · rintro ⟨h0, h1, h2, h3, h4, acc, h5, h6⟩
    have hd : c.depositOf a x.pred = acc.bal x.pred := by unfold depositOf; rw [h5]
    rw [hd] at h4
    obtain ⟨acc', h7, h8⟩ := Account.deposit_iff.2 ⟨h4, h6⟩
    have hal := (accepts_iff_allowed h5).2 h3
    have hsv := saveAccount_ok.2 (⟨h8, rfl⟩ : acc'.storageUsage ≤ acc'.near ∧
      c.putAccount a acc' = c.putAccount a acc')
    have hac : c.account a = .ok acc := account_ok.2 h5
    refine ⟨(c.putAccount a acc', []), ?_⟩
    simp [exec, ftOnTransfer, Ctx.noDeposit, Config.assertRunning, Config.assertNoFrozen, assertE,
      h0, h1, h2, deposit, hac, hal, h7, hsv, bind, Except.bind]

/-- **C72**. A withdrawal succeeds exactly if the contract runs, the token is not frozen, the amount
is positive and at most what `get_deposit` reports (0 stands for all of it), all of it if the record
is to be closed, and the storage deposit pays for the records that remain. -/
theorem C72_withdraw {c : Contract} {x : Ctx} {t : AccountId} {n : Nat} {close : Bool}
    {skip : Option Bool} :
    c.Succeeds x (.withdraw t n close skip) ↔ x.deposit = 1 ∧ c.cfg.running = true ∧
      t ∉ c.cfg.frozen ∧ 0 < c.depositOf x.pred t ∧ n ≤ c.depositOf x.pred t ∧
      ∃ acc, c.accounts.get? x.pred = some acc ∧
        if close then (n = 0 ∨ n = c.depositOf x.pred t) ∧
          acc.storageUsage ≤ acc.near + acc.recordOf t * BYTE_COST
        else acc.storageUsage + 148 * BYTE_COST ≤ acc.near + acc.recordOf t * BYTE_COST := by
  constructor
  · rintro ⟨⟨c', outs⟩, h⟩
    simp only [exec] at h
    obtain ⟨acc, acc1, acc', m, h1, h2, h3, h4, hm, h5, h6, h7, h8, -⟩ := withdraw_inv h
    have hd : c.depositOf x.pred t = acc.bal t := by unfold depositOf; rw [h4]
    have hb := (Account.withdraw_ok h6).2.1
    rw [hd]
    refine ⟨h1, h2, h3, by omega, ?_, acc, h4, ?_⟩
    · by_cases hn : n = 0
      · omega
      · rw [if_neg hn] at hm; omega
    · unfold unregisterIf at h7
      cases close with
      | true =>
        rw [if_pos rfl] at h7 ⊢
        obtain ⟨h9, h10⟩ := (Account.close_iff h5).1 ⟨acc1, acc', h6, h7, h8⟩
        refine ⟨?_, h10⟩
        by_cases hn : n = 0
        · exact .inl hn
        · rw [if_neg hn] at hm
          exact .inr (by omega)
      | false =>
        simp only [Bool.false_eq_true, if_false] at h7 ⊢
        cases h7
        have := (Account.withdraw_iff.1 ⟨acc1, h6, h8⟩).2
        unfold Account.PaysRecord at this
        rwa [if_pos h5] at this
  · rintro ⟨h1, h2, h3, h4, h5, acc, h6, h7⟩
    have hd : c.depositOf x.pred t = acc.bal t := by unfold depositOf; rw [h6]
    rw [hd] at h4 h5 h7
    have hbal : acc.balance? t = some (acc.bal t) := by
      unfold Account.bal at h4 ⊢
      cases hg : acc.balance? t with
      | none => rw [hg] at h4; simp at h4
      | some v => rfl
    have hn : (if n = 0 then expectE (acc.balance? t) (.e 21) else .ok n : R Nat) =
        .ok (if n = 0 then acc.bal t else n) := by
      by_cases h : n = 0
      · rw [if_pos h, if_pos h, hbal]; rfl
      · rw [if_neg h, if_neg h]
    have h0 : 0 < (if n = 0 then acc.bal t else n) := by
      by_cases h : n = 0
      · rw [if_pos h]; exact h4
      · rw [if_neg h]; omega
    have hle : (if n = 0 then acc.bal t else n) ≤ acc.bal t := by
      by_cases h : n = 0
      · rw [if_pos h]
      · rw [if_neg h]; omega
    have key : ∃ b b', acc.withdraw t (if n = 0 then acc.bal t else n) = .ok b ∧
        unregisterIf close b t = .ok b' ∧ b'.storageUsage ≤ b'.near := by
      cases close with
      | true =>
        rw [if_pos rfl] at h7
        refine (Account.close_iff h0).2 ⟨?_, h7.2⟩
        rcases h7.1 with h | h
        · rw [if_pos h]
        · rw [h]; split <;> rfl
      | false =>
        simp only [Bool.false_eq_true, if_false] at h7
        obtain ⟨b, hb1, hb2⟩ := Account.withdraw_iff.2 ⟨hle, by
          unfold Account.PaysRecord
          rw [if_pos h0]
          exact h7⟩
        exact ⟨b, b, hb1, rfl, hb2⟩
    obtain ⟨b, b', h8, h9, h10⟩ := key
    unfold Succeeds
    simp only [exec, withdraw, Ctx.oneYocto, Config.assertRunning, Config.assertNoFrozen]
    rw [(assertE_ok (u := ())).2 h1, ok_bind, (assertE_ok (u := ())).2 h2, ok_bind,
      (assertE_ok (u := ())).2 (by simpa using h3), ok_bind, account_ok.2 h6, ok_bind, hn, ok_bind,
      (assertE_ok (u := ())).2 h0, ok_bind, h8, ok_bind, h9, ok_bind, saveAccount_ok.2 ⟨h10, rfl⟩, ok_bind]
    exact ⟨_, rfl⟩

/-- Entries that are read one by one. -/
theorem entries_of_forall₂ {f : AccountId → Option Nat} {ks : List AccountId}
    {l : List (AccountId × Nat)} (h : List.Forall₂ (fun t p => (do
      let n ← expectE (f t) .other
      .ok (t, n) : R (AccountId × Nat)) = .ok p) ks l) :
    l.map Prod.fst = ks ∧ ∀ t n, (t, n) ∈ l → f t = some n := by
  induction h with
  | nil => exact ⟨rfl, by simp⟩
  | cons h _ ih =>
    unpack at h
    obtain ⟨n, h1, rfl⟩ := h
    refine ⟨by rw [List.map_cons, ih.1], fun t m hm => ?_⟩
    rcases List.mem_cons.1 hm with h2 | h2
    · cases h2; exact h1
    · exact ih.2 t m h2

/-- **C72**. `get_deposits` lists every token of the account exactly once, with what `get_deposit`
reports; what it does not list, the account does not have. `get_user_whitelisted_tokens` lists the
same tokens. It never fails. -/
theorem C72_deposits {c : Contract} {a : AccountId} :
    ∃ l, c.getDeposits a = .ok l ∧ l.map Prod.fst = c.getUserTokens a ∧ (l.map Prod.fst).Nodup ∧
      (∀ t n, (t, n) ∈ l → n = c.depositOf a t) ∧
      ∀ t, t ∉ l.map Prod.fst → c.depositOf a t = 0 := by
  unfold getDeposits getUserTokens depositOf
  cases ha : c.accounts.get? a with
  | none => exact ⟨[], rfl, rfl, List.nodup_nil, by simp, by simp⟩
  | some acc =>
    simp only
    have key : ∀ t, t ∈ acc.tokens.keys → ∃ s, acc.tokens.get? t = some s := by
      intro t ht
      unfold FMap.keys at ht
      rw [List.mem_map] at ht
      obtain ⟨⟨t', s⟩, h1, rfl⟩ := ht
      exact ⟨s, (FMap.mem_entries_iff _).1 h1⟩
    obtain ⟨l, hl⟩ := mapM_of_forall (f := fun t => do
      let n ← expectE (acc.balance? t) .other
      .ok (t, n)) (is := acc.tokens.keys) (by
        intro t ht
        obtain ⟨s, hs⟩ := key t ht
        unfold Account.balance?
        rw [hs]
        rfl)
    obtain ⟨hfst, hval⟩ := entries_of_forall₂ (mapM_forall₂ hl)
    refine ⟨l, hl, hfst, hfst ▸ acc.tokens.nodup, ?_, ?_⟩
    · intro t n hm
      unfold Account.bal
      rw [hval t n hm]
      rfl
    · intro t ht
      rw [hfst] at ht
      unfold Account.bal Account.balance?
      cases hs : acc.tokens.get? t with
      | none => rfl
      | some s =>
        exact absurd (List.mem_map.2 ⟨(t, s), (FMap.mem_entries_iff _).2 hs, rfl⟩) ht

/-- Entries that are read page by page. -/
theorem entries_of_pages {g : AccountId → R (AccountId × Nat)} {v : AccountId → Nat → Prop}
    (hg : ∀ t p, g t = .ok p → p.1 = t ∧ v t p.2) {keys : List AccountId} (hn : keys.Nodup)
    {sizes : List Nat} {l : List (AccountId × Nat)}
    (h : readPages (page keys.length fun i => do
      let k ← expectE keys[i]? .other
      g k) 0 sizes = .ok l) (hle : keys.length ≤ sizes.sum) :
    (l.map Prod.fst).Nodup ∧ (∀ t, t ∈ l.map Prod.fst ↔ t ∈ keys) ∧ ∀ t n, (t, n) ∈ l → v t n := by
  have hf := key_pages h hle
  have key : ∀ {ks : List AccountId} {l : List (AccountId × Nat)},
      List.Forall₂ (fun k a => g k = .ok a) ks l →
      l.map Prod.fst = ks ∧ ∀ t n, (t, n) ∈ l → v t n := by
    intro ks l hf
    induction hf with
    | nil => exact ⟨rfl, by simp⟩
    | @cons k p _ _ h _ ih =>
      obtain ⟨h1, h2⟩ := hg k p h
      refine ⟨by rw [List.map_cons, ih.1, h1], fun t m hm => ?_⟩
      rcases List.mem_cons.1 hm with h3 | h3
      · subst h3
        simp only at h1 h2
        rw [h1]
        exact h2
      · exact ih.2 t m h3
  obtain ⟨h1, h2⟩ := key hf
  exact ⟨h1 ▸ hn, fun t => by rw [h1], h2⟩

/-- **C72**. The pages of `get_tokens_paged` list the tokens of the account exactly once, each with
what `get_deposit` reports, except those whose record has the form of the first version: these are
left out. -/
theorem C72_tokens_paged {c : Contract} {a : AccountId} {acc : Account} {keys : List AccountId}
    (ha : c.accounts.get? a = some acc) (hn : keys.Nodup)
    (hk : ∀ t, t ∈ keys ↔ ∃ n, acc.tokens.get? t = some ⟨n, false⟩) {sizes : List Nat}
    {l : List (AccountId × Nat)}
    (h : readPages (fun s n => c.getTokensPaged keys a (some s) (some n)) 0 sizes = .ok l)
    (hs : keys.length ≤ sizes.sum) :
    (l.map Prod.fst).Nodup ∧ (∀ t n, (t, n) ∈ l → n = c.depositOf a t) ∧
      ∀ t, t ∈ l.map Prod.fst ↔ ∃ n, acc.tokens.get? t = some ⟨n, false⟩ := by
  unfold getTokensPaged at h
  simp only [ha, Option.getD_some] at h
  obtain ⟨h1, h2, h3⟩ := entries_of_pages (v := fun t n => n = c.depositOf a t) (g := fun t => do
    let s ← expectE (acc.tokens.get? t) .other
    assertE (s.legacy = false) .other
    .ok (t, s.amt)) (by
      intro t p hp
      unpack at hp
      obtain ⟨s, h1, -, rfl⟩ := hp
      refine ⟨rfl, ?_⟩
      unfold depositOf
      rw [ha]
      simp only [Account.bal_def, h1]
      rfl) hn h hs
  exact ⟨h1, h3, fun t => (h2 t).trans (hk t)⟩

/-! ### Lost and found -/

/-- **C72**. `claim_lostfound` succeeds exactly if the contract runs, the token is not frozen and
`get_lostfound_token` is not 0; it sends exactly this amount, after which the view gives 0. -/
theorem C72_claim {c : Contract} {x : Ctx} {t : AccountId} :
    (c.Succeeds x (.claimLostfound t) ↔ x.deposit = 1 ∧ c.cfg.running = true ∧ t ∉ c.cfg.frozen ∧
      0 < c.getLostfoundToken x.pred t) ∧
    ∀ {c' : Contract} {outs : List Out}, c.exec x (.claimLostfound t) = .ok (c', outs) →
      outs = [.ft t x.pred (c.getLostfoundToken x.pred t)] ∧ c'.getLostfoundToken x.pred t = 0 := by
  refine ⟨⟨?_, ?_⟩, ?_⟩
  · rintro ⟨⟨c', outs⟩, h⟩
    simp only [exec] at h
    obtain ⟨h1, h2, h3, h4, -⟩ := claimLostfound_inv h
    exact ⟨h1, h2, h3, h4⟩
  · rintro ⟨h1, h2, h3, h4⟩
    obtain ⟨c', h, -⟩ := C28_claim_succeeds h1 h2 h3 h4
    exact ⟨_, h⟩
  · intro c' outs h
    simp only [exec] at h
    obtain ⟨-, -, -, -, rfl, h5⟩ := claimLostfound_inv h
    refine ⟨h5, ?_⟩
    have := lostOf_erase c x.pred t x.pred t
    rw [if_pos ⟨rfl, rfl⟩] at this
    exact this

/-- **C72**. The pages of `list_lostfound_tokens` list everything that was lost for the account
exactly once, as `get_lostfound_token` reports it. -/
theorem C72_lostfound_paged {c : Contract} {a : AccountId} {keys : List AccountId} (hn : keys.Nodup)
    (hk : ∀ t, t ∈ keys ↔ c.lostfound.contains (a, t) = true) {sizes : List Nat}
    {l : List (AccountId × Nat)}
    (h : readPages (fun s n => c.listLostfoundTokens keys a (some s) (some n)) 0 sizes = .ok l)
    (hs : keys.length ≤ sizes.sum) :
    (l.map Prod.fst).Nodup ∧ (∀ t n, (t, n) ∈ l → n = c.getLostfoundToken a t) ∧
      ∀ t, 0 < c.getLostfoundToken a t → t ∈ l.map Prod.fst := by
  unfold listLostfoundTokens at h
  simp only [Option.getD_some] at h
  obtain ⟨h1, h2, h3⟩ := entries_of_pages (v := fun t n => n = c.getLostfoundToken a t)
    (g := fun t => do
      let n ← expectE (c.lostfound.get? (a, t)) .other
      .ok (t, n)) (by
      intro t p hp
      unpack at hp
      obtain ⟨n, h1, rfl⟩ := hp
      refine ⟨rfl, ?_⟩
      unfold getLostfoundToken FMap.getD
      rw [h1]
      rfl) hn h hs
  refine ⟨h1, h3, fun t ht => (h2 t).2 ((hk t).2 ?_)⟩
  unfold getLostfoundToken FMap.getD at ht
  unfold FMap.contains
  cases hg : c.lostfound.get? (a, t) with
  | none => rw [hg] at ht; simp at ht
  | some v => rfl

theorem readPages_one {α : Type} {f : Nat → Nat → R (List α)} {n : Nat} {l : List α}
    (h : f 0 n = .ok l) : readPages f 0 [n] = .ok l := by
  simp only [readPages, h, ok_bind, List.append_nil]

/-- **C72.** Without arguments both lists are complete. -/
theorem C72_unpaged {c : Contract} {a : AccountId} {keys : List AccountId} (hn : keys.Nodup) :
    (∀ {acc : Account} {l : List (AccountId × Nat)}, c.accounts.get? a = some acc →
      (∀ t, t ∈ keys ↔ ∃ n, acc.tokens.get? t = some ⟨n, false⟩) →
      c.getTokensPaged keys a none none = .ok l →
      (l.map Prod.fst).Nodup ∧ (∀ t n, (t, n) ∈ l → n = c.depositOf a t) ∧
        ∀ t, t ∈ l.map Prod.fst ↔ ∃ n, acc.tokens.get? t = some ⟨n, false⟩) ∧
    (∀ {l : List (AccountId × Nat)}, (∀ t, t ∈ keys ↔ c.lostfound.contains (a, t) = true) →
      c.listLostfoundTokens keys a none none = .ok l →
      (l.map Prod.fst).Nodup ∧ (∀ t n, (t, n) ∈ l → n = c.getLostfoundToken a t) ∧
        ∀ t, 0 < c.getLostfoundToken a t → t ∈ l.map Prod.fst) :=
  ⟨fun ha hk h => C72_tokens_paged (sizes := [keys.length]) ha hn hk (readPages_one h) (by simp),
    fun hk h => C72_lostfound_paged (sizes := [keys.length]) hn hk (readPages_one h) (by simp)⟩

example : (Demo.c1.getTokensPaged [Demo.A, Demo.B, Demo.W] Demo.al none none).holds
    (· = [(Demo.A, 400000), (Demo.B, 3100000), (Demo.W, 700)]) = true := by decide +kernel

/-! ### Tokens and shares inside the exchange -/

/-- **C72**. For the share of a pool `mft_balance_of` is `get_pool_shares`, for a token it is
`get_deposit`; `mft_total_supply` is the sum of the balances of all holders. -/
theorem C72_mft_views {c : Contract} {tid : List Char} :
    (∀ {id : Nat}, parseTokenId tid = .pool id →
      (∀ a, c.mftBalance tid a = c.getPoolShares id a) ∧
      (c.Reachable → ∀ {s : Nat}, c.mftTotalSupply tid = .ok s → ∃ holders : List AccountId,
        holders.Nodup ∧ (∀ a, a ∈ holders ↔ c.mftHasRegistered tid a = true) ∧
        (∀ a, a ∉ holders → c.mftBalance tid a = .ok 0) ∧
        (holders.map fun a => c.sharesOf id a).sum = s)) ∧
    (∀ {t : AccountId}, parseTokenId tid = .token t → ∀ a, c.mftBalance tid a = .ok (c.depositOf a t)) := by
  refine ⟨fun {id} hid => ⟨fun a => ?_, fun hr s hs => ?_⟩, fun {t} ht a => ?_⟩
  · unfold mftBalance getPoolShares
    rw [hid]
  · unfold mftTotalSupply at hs
    rw [hid] at hs
    simp only at hs
    unpack at hs
    obtain ⟨p, hp, rfl⟩ := hs
    have hp' := pool_ok.1 hp
    have hsum := (C09_reachable hr hp').1
    have hm : ∀ a, a ∈ p.shares.keys ↔ ∃ v, p.shares.get? a = some v := by
      intro a
      unfold FMap.keys
      rw [List.mem_map]
      constructor
      · rintro ⟨⟨a', v⟩, h1, rfl⟩
        exact ⟨v, (FMap.mem_entries_iff _).1 h1⟩
      · rintro ⟨v, h1⟩
        exact ⟨(a, v), (FMap.mem_entries_iff _).2 h1, rfl⟩
    refine ⟨p.shares.keys, p.shares.nodup, fun a => ?_, fun a ha => ?_, ?_⟩
    · rw [hm]
      unfold mftHasRegistered
      rw [hid]
      simp only [hp']
      unfold Pool.shareRegistered FMap.contains
      rw [Option.isSome_iff_exists]
    · unfold mftBalance
      rw [hid]
      simp only [hp, ok_bind]
      rw [hm] at ha
      unfold Pool.shareBalance FMap.getD
      cases hg : p.shares.get? a with
      | none => rfl
      | some v => exact absurd ⟨v, hg⟩ ha
    · rw [hsum]
      unfold FMap.keys
      rw [List.map_map]
      congr 1
      apply List.map_congr_left
      rintro ⟨a, v⟩ hmem
      simp only [Function.comp]
      unfold sharesOf
      rw [hp']
      simp only
      unfold Pool.shareBalance FMap.getD
      rw [(FMap.mem_entries_iff _).1 hmem]
      rfl
  · unfold mftBalance depositOf
    rw [ht]
    simp only
    split <;> rename_i h <;> rw [h]

/-- What an account can give away of its shares of a pool: what `get_pool_shares` reports less the larger
of the two amounts that `get_shadow_records` reports. -/
def freeOfPool (c : Contract) (id : Nat) (a : AccountId) : Nat :=
  c.sharesOf id a - max (c.pledgedOf a id).farm (c.pledgedOf a id).burrow

/-- **C72**. `get_shadow_records` reports for each pool what is pledged of its shares, and nothing for
pools of which nothing is pledged. -/
theorem C72_shadow_records {c : Contract} {a : AccountId} :
    ((c.getShadowRecords a).map Prod.fst).Nodup ∧
    (∀ id r, (id, r) ∈ c.getShadowRecords a → c.pledgedOf a id = r) ∧
    ∀ id, id ∉ (c.getShadowRecords a).map Prod.fst → c.pledgedOf a id = ⟨0, 0⟩ := by
  unfold getShadowRecords pledgedOf
  cases ha : c.accounts.get? a with
  | none => exact ⟨List.nodup_nil, by simp, by simp⟩
  | some acc =>
    simp only
    refine ⟨acc.shadow.nodup, fun id r h => ?_, fun id h => ?_⟩
    · rw [Account.pledged_def, (FMap.mem_entries_iff _).1 h]
      rfl
    · rw [Account.pledged_def]
      cases hg : acc.shadow.get? id with
      | none => rfl
      | some r => exact absurd (List.mem_map.2 ⟨(id, r), (FMap.mem_entries_iff _).2 hg, rfl⟩) h

theorem freeShares_run {c : Contract} {a : AccountId} {id total : Nat}
    (h : max (c.pledgedOf a id).farm (c.pledgedOf a id).burrow ≤ total) :
    c.freeShares a id total =
      .ok (total - max (c.pledgedOf a id).farm (c.pledgedOf a id).burrow) := by
  unfold freeShares
  unfold pledgedOf at h ⊢
  cases ha : c.accounts.get? a with
  | none => simp
  | some acc =>
    rw [ha] at h
    simp only [Account.pledged_def] at h ⊢
    unfold Account.freeOf
    cases hr : acc.shadow.get? id with
    | none => simp
    | some r =>
      rw [hr] at h
      simp only [Option.getD_some] at h ⊢
      unfold ShadowRecord.freeShares
      exact subW_ok.2 ⟨h, rfl⟩

/-- **C72**. Shares can be given to another account exactly if they are not pledged and the other
account is registered with the pool (`mft_has_registered`). -/
theorem C72_transfer_shares {c : Contract} (hc : c.Reachable) {x : Ctx} {tid : List Char} {id n : Nat}
    {b : AccountId} (hid : parseTokenId tid = .pool id) :
    c.Succeeds x (.mftTransfer tid b n) ↔ x.deposit = 1 ∧ c.cfg.running = true ∧ x.pred ≠ b ∧
      0 < n ∧ n ≤ c.freeOfPool id x.pred ∧ c.mftHasRegistered tid b = true := by
  unfold freeOfPool
  constructor
  · rintro ⟨⟨c', outs⟩, h⟩
    simp only [exec] at h
    unpack at h
    obtain ⟨_, h, rfl, rfl⟩ := h
    obtain ⟨h1, h2, m, h⟩ := mftTransfer_inv h
    obtain ⟨h3, ⟨id', hid', h⟩ | ⟨t, ht, h⟩⟩ := internalMftTransfer_inv h
    · rw [hid] at hid'
      cases hid'
      obtain ⟨p, q, hp, h4, h5, h6, -, h7, -⟩ := transferShares_inv h
      have := h6 n rfl
      subst this
      have hs := hc.sound p (List.mem_of_getElem? hp)
      obtain ⟨h8, h9⟩ := (Pool.shareTransfer_iff hs h3 h4).1 ⟨q, h7⟩
      refine ⟨h1, h2, h3, h4, ?_, ?_⟩
      · unfold sharesOf
        rw [hp]
        simp only
        omega
      · unfold mftHasRegistered
        rw [hid]
        simp only [hp]
        exact h9
    · rw [hid] at ht; cases ht
  · rintro ⟨h1, h2, h3, h4, h5, h6⟩
    unfold mftHasRegistered at h6
    rw [hid] at h6
    simp only at h6
    unfold sharesOf at h5
    cases hp : c.pools[id]? with
    | none => rw [hp] at h6; cases h6
    | some p =>
      rw [hp] at h5 h6
      simp only at h5 h6
      have hs := hc.sound p (List.mem_of_getElem? hp)
      obtain ⟨q, hq⟩ := (Pool.shareTransfer_iff hs h3 h4).2 ⟨by omega, h6⟩
      unfold Succeeds
      simp only [exec, mftTransfer, internalMftTransfer, Ctx.oneYocto, Config.assertRunning, hid,
        transferShares]
      rw [(assertE_ok (u := ())).2 h1, ok_bind, (assertE_ok (u := ())).2 h2, ok_bind,
        (assertE_ok (u := ())).2 h3, ok_bind, pool_ok.2 hp, ok_bind, freeShares_run (by omega), ok_bind]
      simp only [Option.getD_some]
      rw [(assertE_ok (u := ())).2 h4, ok_bind, (assertE_ok (u := ())).2 h5, ok_bind, hq]
      exact ⟨_, rfl⟩

/-- **C72**. Deposits can be given to another account of the exchange exactly if they suffice, the sum
fits, and both storage deposits pay for the records. -/
theorem C72_transfer_token {c : Contract} {x : Ctx} {tid : List Char} {t b : AccountId} {n : Nat}
    (ht : parseTokenId tid = .token t) :
    c.Succeeds x (.mftTransfer tid b n) ↔ x.deposit = 1 ∧ c.cfg.running = true ∧ x.pred ≠ b ∧
      n ≤ c.depositOf x.pred t ∧ (0 < n → c.depositOf b t + n < 2 ^ 128) ∧
      (∃ acc, c.accounts.get? x.pred = some acc ∧ acc.PaysRecord t n) ∧
      ∃ acc, c.accounts.get? b = some acc ∧ acc.PaysRecord t n := by
  constructor
  · rintro ⟨⟨c', outs⟩, h⟩
    simp only [exec] at h
    unpack at h
    obtain ⟨_, h, rfl, rfl⟩ := h
    obtain ⟨h1, h2, m, h⟩ := mftTransfer_inv h
    obtain ⟨h3, ⟨id, hid, h⟩ | ⟨t', ht', h⟩⟩ := internalMftTransfer_inv h
    · rw [ht] at hid; cases hid
    · rw [ht] at ht'
      cases ht'
      obtain ⟨s, r, s', r', hm, h4, h5, h6, h7, h8, h9, -⟩ := transferToken_inv h
      cases hm
      obtain ⟨h10, h11⟩ := Account.withdraw_iff.1 ⟨s', h6, h8⟩
      obtain ⟨h12, h13⟩ := Account.deposit_iff.1 ⟨r', h7, h9⟩
      unfold depositOf
      rw [h4, h5]
      exact ⟨h1, h2, h3, h10, h12, ⟨s, rfl, h11⟩, r, rfl, h13⟩
  · rintro ⟨h1, h2, h3, h4, h5, ⟨s, h6, h7⟩, r, h8, h9⟩
    unfold depositOf at h4 h5
    rw [h6] at h4
    rw [h8] at h5
    obtain ⟨s', h10, h11⟩ := Account.withdraw_iff.2 ⟨h4, h7⟩
    obtain ⟨r', h12, h13⟩ := Account.deposit_iff.2 ⟨h5, h9⟩
    unfold Succeeds
    simp only [exec, mftTransfer, internalMftTransfer, Ctx.oneYocto, Config.assertRunning, ht,
      transferToken]
    rw [(assertE_ok (u := ())).2 h1, ok_bind, (assertE_ok (u := ())).2 h2, ok_bind,
      (assertE_ok (u := ())).2 h3, ok_bind]
    simp only [expectE, ok_bind]
    rw [account_ok.2 h6, ok_bind, account_ok.2 h8, ok_bind, h10, ok_bind, h12, ok_bind,
      saveAccount_ok.2 ⟨h11, rfl⟩, ok_bind, saveAccount_ok.2 ⟨h13, rfl⟩, ok_bind]
    exact ⟨_, rfl⟩

theorem sharesOf_le {c : Contract} (hc : c.Reachable) (id : Nat) (a : AccountId) :
    c.sharesOf id a < 2 ^ 128 := by
  unfold sharesOf
  cases hp : c.pools[id]? with
  | none => exact Nat.two_pow_pos 128
  | some p =>
    have h1 := (C09_reachable hc hp).2 a
    have h2 := (hc.sound p (List.mem_of_getElem? hp)).supply_lt
    unfold sharesOf at h1
    rw [hp] at h1
    simp only at h1 ⊢
    omega

/-- **C72**. An account is registered with a pool exactly if it was not and the deposit pays for the
storage; an id that names no pool is refused. Afterwards `mft_has_registered` holds. -/
theorem C72_register {c : Contract} {x : Ctx} {tid : List Char} {a : AccountId} :
    (c.Succeeds x (.mftRegister tid a) ↔ c.cfg.running = true ∧
      (∃ id, parseTokenId tid = .pool id ∧ id < c.numberOfPools) ∧
      c.mftHasRegistered tid a = false ∧ x.grew * BYTE_COST ≤ x.deposit) ∧
    ∀ {c' : Contract} {outs : List Out}, c.exec x (.mftRegister tid a) = .ok (c', outs) →
      ∀ b, c'.mftHasRegistered tid b = true ↔ b = a ∨ c.mftHasRegistered tid b = true := by
  have key : ∀ {p q : Pool}, p.shareRegister a = .ok q →
      p.shareRegistered a = false ∧ q.shares = p.shares.insert a 0 := by
    intro p q h
    cases p <;> simp only [Pool.shareRegister, SimplePool.shareRegister, CurvePool.shareRegister,
      map_eq_pure_bind, bind_ok, assertE_ok, Except.ok.injEq] at h <;>
    · obtain ⟨_, ⟨-, h1, rfl⟩, h2⟩ := h
      cases h2
      exact ⟨h1, rfl⟩
  refine ⟨⟨?_, ?_⟩, ?_⟩
  · rintro ⟨⟨c', outs⟩, h⟩
    simp only [exec] at h
    obtain ⟨id, p, q, fee, h1, h2, h3, h4, h5, -⟩ := mftRegister_inv h
    refine ⟨h1, ⟨id, h2, (List.getElem?_eq_some_iff.1 h3).1⟩, ?_, (Ctx.checkStorage_ok.1 h5).1⟩
    unfold mftHasRegistered
    rw [h2]
    simp only [h3]
    exact (key h4).1
  · rintro ⟨h1, ⟨id, h2, h3⟩, h4, h5⟩
    have hp : c.pools[id]? = some c.pools[id] := List.getElem?_eq_getElem h3
    unfold mftHasRegistered at h4
    rw [h2] at h4
    simp only [hp] at h4
    have hq : ∃ q, (c.pools[id]).shareRegister a = .ok q := by
      cases hpe : c.pools[id] with
      | simple p =>
        rw [hpe] at h4
        refine map_ok.2 ⟨{ p with shares := p.shares.insert a 0 }, ?_⟩
        · unfold SimplePool.shareRegister
          rw [(assertE_ok (u := ())).2 (show p.shares.contains a = false from h4)]
          rfl
      | curve p =>
        rw [hpe] at h4
        refine map_ok.2 ⟨{ p with shares := p.shares.insert a 0 }, ?_⟩
        · unfold CurvePool.shareRegister
          rw [(assertE_ok (u := ())).2 (show p.shares.contains a = false from h4)]
          rfl
    obtain ⟨q, hq⟩ := hq
    unfold Succeeds
    simp only [exec, mftRegister, Config.assertRunning, h2]
    rw [(assertE_ok (u := ())).2 h1, ok_bind, pool_ok.2 hp, ok_bind, hq, ok_bind,
      Ctx.checkStorage_ok.2 ⟨h5, rfl, rfl⟩]
    exact ⟨_, rfl⟩
  · intro c' outs h b
    simp only [exec] at h
    obtain ⟨id, p, q, fee, -, h2, h3, h4, -, rfl⟩ := mftRegister_inv h
    unfold mftHasRegistered
    rw [h2]
    simp only [getElem?_set_some h3, if_true, h3]
    unfold Pool.shareRegistered FMap.contains
    rw [(key h4).2, FMap.get?_insert]
    by_cases hb : b = a <;> simp [hb]

/-- **C72**. Shares can be pledged to the farm exactly as long as the pledges to the farm do not
exceed the shares held, and likewise to the lending contract. -/
theorem C72_pledge {c : Contract} (hc : c.Reachable) {x : Ctx} {id n : Nat} {acc : Account}
    (ha : c.accounts.get? x.pred = some acc) :
    (c.Succeeds x (.shadowAction .toFarming id (some n)) ↔ c.cfg.running = true ∧ 0 < n ∧
      (c.pledgedOf x.pred id).farm + n ≤ c.sharesOf id x.pred ∧ acc.Covered ∧
      x.grew * BYTE_COST ≤ x.deposit) ∧
    (c.Succeeds x (.shadowAction .toBurrowland id (some n)) ↔ c.cfg.running = true ∧ 0 < n ∧
      (c.pledgedOf x.pred id).burrow + n ≤ c.sharesOf id x.pred ∧ acc.Covered ∧
      x.grew * BYTE_COST ≤ x.deposit) := by
  have hlt := sharesOf_le hc id x.pred
  have hpl : c.pledgedOf x.pred id = (acc.shadow.get? id).getD ⟨0, 0⟩ := by
    unfold pledgedOf
    rw [ha]
    rfl
  have hcov : ∀ {act n acc'}, acc.updateShadow id act n = .ok acc' → acc'.near = acc.near ∧
      acc'.storageUsage = acc.storageUsage := by
    intro act n acc' h
    unfold Account.updateShadow at h
    unpack at h
    obtain ⟨r, -, h⟩ := h
    split at h <;> cases h <;> exact ⟨rfl, rfl⟩
  have hrun : ∀ {act m} {r : ShadowRecord},
      Account.movedRecord ((acc.shadow.get? id).getD ⟨0, 0⟩) act m = .ok r →
      ∃ acc', acc.updateShadow id act m = .ok acc' := by
    intro act m r h
    unfold Account.updateShadow
    rw [h, ok_bind]
    split <;> exact ⟨_, rfl⟩
  have hpool : 0 < c.sharesOf id x.pred → ∃ p, c.pools[id]? = some p ∧
      p.shareBalance x.pred = c.sharesOf id x.pred := by
    intro h
    unfold sharesOf at h ⊢
    cases hp : c.pools[id]? with
    | none => rw [hp] at h; simp at h
    | some p => exact ⟨p, rfl, rfl⟩
  constructor
  · constructor
    · rintro ⟨⟨c', outs⟩, h⟩
      simp only [exec] at h
      obtain ⟨acc1, p, m, k, h1, h2, h3, h4, h5, h6, h7, ⟨h8, -⟩ | ⟨-, acc', fee, o, h9, h10, h11, -⟩⟩ :=
        shadowAction_inv h
      · simp at h8
      · rw [ha] at h2
        cases h2
        simp only [Option.getD_some] at h5
        subst h5
        have := shadowMax_ok h4
        simp only at this
        obtain ⟨e1, e2⟩ := hcov h9
        refine ⟨h1, h6, ?_, ?_, (Ctx.checkStorage_ok.1 h11).1⟩
        · unfold sharesOf
          rw [h3, hpl]
          rw [Account.pledged_def] at this
          simp only
          omega
        · unfold Account.Covered
          omega
    · rintro ⟨h1, h2, h3, h4, h5⟩
      obtain ⟨p, hp, hb⟩ := hpool (by omega)
      rw [hpl] at h3
      have hm : shadowMax acc .toFarming id (p.shareBalance x.pred) =
          .ok (c.sharesOf id x.pred - ((acc.shadow.get? id).getD ⟨0, 0⟩).farm) := by
        rw [hb]
        unfold shadowMax
        cases hr : acc.shadow.get? id with
        | none => simp
        | some r =>
          rw [hr] at h3
          exact subW_ok.2 ⟨by simp only [Option.getD_some] at h3; omega, rfl⟩
      obtain ⟨acc', h6⟩ := hrun (act := .toFarming) (m := n) (r := _) (by
        unfold Account.movedRecord
        rw [addW_ok.2 ⟨by omega, rfl⟩]
        rfl)
      obtain ⟨e1, e2⟩ := hcov h6
      unfold Account.Covered at h4
      unfold Succeeds
      simp only [exec, shadowAction, Config.assertRunning]
      rw [(assertE_ok (u := ())).2 h1, ok_bind, account_ok.2 ha, ok_bind, pool_ok.2 hp, ok_bind, hm,
        ok_bind]
      simp only [Option.getD_some]
      rw [(assertE_ok (u := ())).2 h2, ok_bind, (assertE_ok (u := ())).2 (by omega), ok_bind, h6,
        ok_bind, saveAccount_ok.2 ⟨by omega, rfl⟩, ok_bind, Ctx.checkStorage_ok.2 ⟨h5, rfl, rfl⟩]
      exact ⟨_, rfl⟩
  · constructor
    · rintro ⟨⟨c', outs⟩, h⟩
      simp only [exec] at h
      obtain ⟨acc1, p, m, k, h1, h2, h3, h4, h5, h6, h7, ⟨h8, -⟩ | ⟨-, acc', fee, o, h9, h10, h11, -⟩⟩ :=
        shadowAction_inv h
      · simp at h8
      · rw [ha] at h2
        cases h2
        simp only [Option.getD_some] at h5
        subst h5
        have := shadowMax_ok h4
        simp only at this
        obtain ⟨e1, e2⟩ := hcov h9
        refine ⟨h1, h6, ?_, ?_, (Ctx.checkStorage_ok.1 h11).1⟩
        · unfold sharesOf
          rw [h3, hpl]
          rw [Account.pledged_def] at this
          simp only
          omega
        · unfold Account.Covered
          omega
    · rintro ⟨h1, h2, h3, h4, h5⟩
      obtain ⟨p, hp, hb⟩ := hpool (by omega)
      rw [hpl] at h3
      have hm : shadowMax acc .toBurrowland id (p.shareBalance x.pred) =
          .ok (c.sharesOf id x.pred - ((acc.shadow.get? id).getD ⟨0, 0⟩).burrow) := by
        rw [hb]
        unfold shadowMax
        cases hr : acc.shadow.get? id with
        | none => simp
        | some r =>
          rw [hr] at h3
          exact subW_ok.2 ⟨by simp only [Option.getD_some] at h3; omega, rfl⟩
      obtain ⟨acc', h6⟩ := hrun (act := .toBurrowland) (m := n) (r := _) (by
        show (addW 128 _ n >>= _) = _
        rw [addW_ok.2 ⟨by omega, rfl⟩]
        rfl)
      obtain ⟨e1, e2⟩ := hcov h6
      unfold Account.Covered at h4
      unfold Succeeds
      simp only [exec, shadowAction, Config.assertRunning]
      rw [(assertE_ok (u := ())).2 h1, ok_bind, account_ok.2 ha, ok_bind, pool_ok.2 hp, ok_bind, hm,
        ok_bind]
      simp only [Option.getD_some]
      rw [(assertE_ok (u := ())).2 h2, ok_bind, (assertE_ok (u := ())).2 (by omega), ok_bind, h6,
        ok_bind, saveAccount_ok.2 ⟨by omega, rfl⟩, ok_bind, Ctx.checkStorage_ok.2 ⟨h5, rfl, rfl⟩]
      exact ⟨_, rfl⟩

/-- **C72**. An account can be closed exactly if `get_user_whitelisted_tokens` and
`get_shadow_records` list nothing for it; what `storage_balance_of` reports as total is paid back. -/
theorem C72_close {c : Contract} {x : Ctx} {b : StorageBalance}
    (hb : c.storageBalanceOf x.pred = some b) :
    (c.Succeeds x .storageUnregister ↔ x.deposit = 1 ∧ c.cfg.running = true ∧
      c.getUserTokens x.pred = [] ∧ c.getShadowRecords x.pred = []) ∧
    ∀ {c' : Contract} {outs : List Out}, c.exec x .storageUnregister = .ok (c', outs) →
      outs = [.near x.pred b.total] ∧ c'.storageBalanceOf x.pred = none := by
  unfold storageBalanceOf at hb
  rw [Option.map_eq_some_iff] at hb
  obtain ⟨acc, ha, rfl⟩ := hb
  have e1 : c.getUserTokens x.pred = [] ↔ acc.tokens.size = 0 := by
    unfold getUserTokens FMap.keys FMap.size
    rw [ha]
    simp
  have e2 : c.getShadowRecords x.pred = [] ↔ acc.shadow.size = 0 := by
    unfold getShadowRecords FMap.size
    rw [ha]
    simp
  rw [e1, e2]
  refine ⟨⟨?_, ?_⟩, ?_⟩
  · rintro ⟨⟨c', outs⟩, h⟩
    simp only [exec] at h
    obtain ⟨h1, h2, ⟨h3, -⟩ | ⟨acc', h3, h4, h5, -⟩⟩ := storageUnregister_inv h
    · rw [ha] at h3; cases h3
    · rw [ha] at h3
      cases h3
      exact ⟨h1, h2, h4, h5⟩
  · rintro ⟨h1, h2, h3, h4⟩
    unfold Succeeds
    simp only [exec, storageUnregister, Ctx.oneYocto, Config.assertRunning]
    rw [(assertE_ok (u := ())).2 h1, ok_bind, (assertE_ok (u := ())).2 h2, ok_bind, ha]
    simp only
    rw [(assertE_ok (u := ())).2 ⟨h3, h4⟩]
    exact ⟨_, rfl⟩
  · intro c' outs h
    simp only [exec] at h
    obtain ⟨-, -, ⟨h3, -⟩ | ⟨acc', h3, -, -, rfl, h6⟩⟩ := storageUnregister_inv h
    · rw [ha] at h3; cases h3
    · rw [ha] at h3
      cases h3
      refine ⟨h6, ?_⟩
      unfold storageBalanceOf
      simp only [FMap.get?_erase_self, Option.map_none]

/-- Alice has 400000 of token A, Bob can receive them and is charged for nothing, as he has a record of A;
he is not registered with pool 0, so he cannot receive its shares. -/
example : c1.storageBalanceOf bo = some ⟨10 ^ 24, 10 ^ 24 - 250 * 10 ^ 19⟩ ∧
    c1.storageBalanceOf A = none ∧ c1.storageBalanceBounds = 102 * 10 ^ 19 ∧
    (c1.getDeposits al).holds (fun l => l = [(A, 400000), (B, 3100000), (W, 700)]) = true ∧
    c1.getUserTokens bo = [A] ∧
    (c1.exec (y al) (.mftTransfer A bo 400000)).isOk = true ∧
    (c1.exec (y al) (.mftTransfer A bo 400001)).isOk = false ∧
    (c1.mftBalance ":0".toList al).holds (fun n => n = 10 ^ 24) = true ∧
    (c1.mftTotalSupply ":0".toList).holds (fun n => n = 10 ^ 24) = true ∧
    c1.mftHasRegistered ":0".toList bo = false ∧
    (c1.exec (y al) (.mftTransfer ":0".toList bo 1)).isOk = false ∧
    (c1.exec (Demo.near bo) (.mftRegister ":0".toList bo)).holds (fun r =>
      (r.1.exec (y al) (.mftTransfer ":0".toList bo (10 ^ 24))).isOk) = true := by decide +kernel

/-- A pledge and a claim. -/
example : (c1.exec (Demo.near al) (.shadowAction .toFarming 0 (some 30))).holds (fun r =>
      r.1.getShadowRecords al = [(0, ⟨30, 0⟩)] ∧ r.1.freeOfPool 0 al = 10 ^ 24 - 30 ∧
      (r.1.exec (Demo.near al) (.shadowAction .toFarming 0 (some (10 ^ 24 - 29)))).isOk = false ∧
      (r.1.exec (Demo.near al) (.shadowAction .toBurrowland 0 (some (10 ^ 24)))).isOk = true) = true ∧
    (c1.exec (y al) (.claimLostfound A)).isOk = false ∧ c1.getLostfoundToken al A = 0 := by
  decide +kernel

end Contract
end Verif

import Verif.Exchange.Execute

/-
C73: what the views predict can be executed.

C18 says that a swap that succeeds does what the views promise. Here the converse: if the view gives an
answer, then the swap succeeds, and does what the view promises. The views neither take price samples,
nor count volumes, nor mint the fee shares for the exchange and the referral, nor look at storage.
-/

namespace Verif
namespace Contract

/-- The views see all that can stop a swap in this pool: if it is a stable-swap pool, then none of its
tokens has more than 18 decimals, and if the pool is sampled for the averages, then it is a pool of two
tokens at a constant product. -/
structure Covered (c : Contract) (id : Nat) : Prop where
  decimals : ∀ p, c.pools[id]? = some (.curve p) → p.kind = .stable → ∀ d ∈ p.decs, d ≤ 18
  sampled : ∀ u, c.twaps.get? id = some u → ∃ p, c.pools[id]? = some (.simple p)

/-- `c` is the state at time `now` after some history since the contract was set up, in which time did
not run backwards. -/
def After (now : Nat) (c : Contract) : Prop :=
  ∃ self owner farm burrow fee ref c0, ∃ h : Verif.History,
    init self owner farm burrow fee ref = .ok c0 ∧ h.Ordered ∧ (∀ e ∈ h, e.1 ≤ now) ∧ c = c0.run h.events

theorem After.reachable {now : Nat} {c : Contract} (h : c.After now) : c.Reachable := by
  obtain ⟨self, owner, farm, burrow, fee, ref, c0, h, hi, -, -, rfl⟩ := h
  exact ⟨self, owner, farm, burrow, fee, ref, c0, h.events, hi, rfl⟩

theorem After.fair {now : Nat} {c : Contract} (h : c.After now) (ref : Option AccountId) :
    (c.fees (c.referralInfo ref)).Fair := by
  intro rid bps hr
  cases ref with
  | none => cases hr
  | some a =>
    change (c.cfg.referrals.get? a).map (fun bps => (a, bps)) = _ at hr
    cases hg : c.cfg.referrals.get? a with
    | none => rw [hg] at hr; cases hr
    | some b =>
      rw [hg] at hr
      cases hr
      exact le_of_lt ((C22_fees h.reachable).2 _ _ hg)

theorem After.current {now : Nat} {c : Contract} (h : c.After now) (hlt : now < 2 ^ 32 * 10 ^ 9) {id : Nat}
    (hp : c.Covered id) (u : CumInfo) (hu : c.twaps.get? id = some u) :
    (∃ p, c.pools[id]? = some (.simple p)) ∧ Current 2 (nanoToSec now) u := by
  obtain ⟨p, hi⟩ := hp.sampled u hu
  refine ⟨⟨p, hi⟩, ?_⟩
  obtain ⟨self, owner, farm, burrow, fee, ref, c0, h, h0, ho, hT, rfl⟩ := h
  have ht : c0.twaps = FMap.empty := by
    unfold init at h0
    unpack at h0
    obtain ⟨-, rfl⟩ := h0
    rfl
  have hr0 : c0.Reachable := ⟨self, owner, farm, burrow, fee, ref, c0, [], h0, rfl⟩
  obtain ⟨q, hq, hc⟩ := records_current hr0 ht ho now hT hu
  rw [hi] at hq
  cases hq
  rw [sec_eq hlt]
  exact hc

theorem After.ready {now : Nat} {c : Contract} (h : c.After now) (hlt : now < 2 ^ 32 * 10 ^ 9)
    (hl : c.pools.length ≤ 2 ^ 32) {ids : List Nat} {k : Nat} (hp : ∀ id ∈ ids, c.Covered id)
    (hv : ∀ id ∈ ids, ∀ i, (c.volume id i).1 + k * 2 ^ 128 ≤ 2 ^ 256 ∧
      (c.volume id i).2 + k * 2 ^ 128 ≤ 2 ^ 256) : c.Ready ids now k := by
  have hs := h.reachable.sound
  refine ⟨hs, fun id hid p hi => ?_, fun id u hu hid => h.current hlt (hp id hid) u hu,
    C40_lengths h.reachable hl, hv, hl⟩
  cases p with
  | simple p => trivial
  | curve p =>
    have hr := (hs _ (List.mem_of_getElem? hi)).1.range
    intro d hd
    cases hk : p.kind with
    | stable => exact (hp id hid).decimals p hi hk d hd
    | rated => exact (hr d hd).2
    | degen => exact (hr d hd).2

/-- **C73**, `predict_swap_actions` for swaps on the caller's deposits: if the view gives an answer
then the call succeeds, and the deposits are what the view says. The caller needs an account with
storage paid for two more records per action. -/
theorem C73_execute_actions {c : Contract} {x : Ctx} {actions : List Action} (hc : c.After x.now)
    (hlt : x.now < 2 ^ 32 * 10 ^ 9) (hl : c.pools.length ≤ 2 ^ 32) (hr : c.cfg.running = true)
    (hp : ∀ a ∈ actions, c.Covered a.pool)
    (hv : ∀ a ∈ actions, ∀ i, (c.volume a.pool i).1 + actions.length * 2 ^ 128 ≤ 2 ^ 256 ∧
      (c.volume a.pool i).2 + actions.length * 2 ^ 128 ≤ 2 ^ 256)
    {acc : Account} (ha : c.accounts.get? x.pred = some acc)
    (hs : acc.storageUsage + 2 * actions.length * RECORD_COST ≤ acc.near)
    (hw : x.deposit = 0 → ∀ t ∈ Action.tokensOf actions, c.cfg.tokenAllowed acc t = true)
    {deposits result : TokenCache} (hd : ∀ t, deposits.getD t 0 = c.depositOf x.pred t)
    (hb : ∀ t, deposits.getD t 0 < 2 ^ 128)
    (h : c.predictSwapActions x.now deposits actions = .ok result) (referral : Option AccountId) :
    ∃ c' outs, c.exec x (.executeActions actions referral) = .ok (c', outs) ∧
      ∀ t, c'.depositOf x.pred t = result.getD t 0 := by
  have hcov : deposits.Covers acc := by
    intro t
    have e : c.depositOf x.pred t = acc.bal t := by simp only [depositOf, ha]
    rw [← e, ← hd t]
    exact ⟨rfl, hb t⟩
  unfold predictSwapActions at h
  unpack at h
  obtain ⟨pc, tc, res, h, rfl⟩ := h
  have hne : actions ≠ [] := by
    rintro rfl
    unfold runActionsCached at h
    unpack at h
  obtain ⟨c1, acc', h1, hcov', hbytes, hnear, -⟩ := runActions_run (r' := c.referralInfo referral) (.inr rfl)
    hcov (hc.ready hlt hl (by
      intro id hid
      obtain ⟨a, ha, rfl⟩ := List.mem_map.1 hid
      exact hp a ha) (by
      intro id hid
      obtain ⟨a, ha, rfl⟩ := List.mem_map.1 hid
      exact hv a ha)) (hc.fair referral) (by rintro _ ⟨⟩) h
  have hsave : c1.saveAccount x.pred acc' = .ok (c1.putAccount x.pred acc') := by
    rw [saveAccount_ok]
    refine ⟨?_, rfl⟩
    rw [hnear]
    exact le_trans (Account.usage_mono hbytes) hs
  refine ⟨c1.putAccount x.pred acc', [], ?_, fun t => ?_⟩
  · have e : c.executeActions x actions referral = .ok (c1.putAccount x.pred acc', res) := by
      unfold executeActions Config.assertRunning assertTokensAllowed
      rw [assertE_true hr, ok_bind, assertE_true hne, ok_bind, account_ok.2 ha, ok_bind, assertE_true hw,
        ok_bind, h1, ok_bind]
      simp only
      rw [hsave, ok_bind]
    simp only [exec, e]
    rfl
  · rw [(hcov' t).1]
    simp only [depositOf, putAccount, FMap.get?_insert, if_true]

/-- **C73**, `predict_swap_actions` for swaps on a token transfer: if the view gives an answer for the
transferred amount then the transfer is accepted in full, and pays out what the view says. -/
theorem C73_instant_swap {c : Contract} {x : Ctx} {actions : List Action} (hc : c.After x.now)
    (hlt : x.now < 2 ^ 32 * 10 ^ 9) (hl : c.pools.length ≤ 2 ^ 32) (hr : c.cfg.running = true)
    (hp : ∀ a ∈ actions, c.Covered a.pool)
    (hv : ∀ a ∈ actions, ∀ i, (c.volume a.pool i).1 + actions.length * 2 ^ 128 ≤ 2 ^ 256 ∧
      (c.volume a.pool i).2 + actions.length * 2 ^ 128 ≤ 2 ^ 256)
    (hx : x.deposit = 0) (ho : Action.StartsOwn actions) {amount : Nat} (hb : amount < 2 ^ 128)
    {result : TokenCache}
    (h : c.predictSwapActions x.now (FMap.empty.insert x.pred amount) actions = .ok result)
    (sender : AccountId) (referral recipient : Option AccountId) (skip : Option Bool) :
    ∃ c' outs, c.exec x (.ftOnTransfer sender amount (.execute referral actions false skip recipient)) =
        .ok (c', outs) ∧
      (∀ t, paysOut outs t = result.getD t 0) ∧
      ∀ o ∈ outs, o.receiver = some (recipient.getD sender) := by
  have h0 : TokenCache.Covers FMap.empty Account.new := fun t => ⟨rfl, Nat.two_pow_pos _⟩
  have hadd : TokenCache.add FMap.empty x.pred amount = .ok (FMap.empty.insert x.pred amount) := by
    unfold TokenCache.add
    have e : FMap.getD (FMap.empty : TokenCache) x.pred 0 = 0 := rfl
    rw [e, addW_ok.2 ⟨by rw [Nat.zero_add]; exact hb, (Nat.zero_add _).symm⟩, ok_bind]
  obtain ⟨virt, hd, hcov, -⟩ := h0.deposit_run hadd
  unfold predictSwapActions at h
  unpack at h
  obtain ⟨pc, tc, res, h, rfl⟩ := h
  have hprev : ∃ prev, (match actions with
        | [] => .error .index
        | .swap _ :: _ => .ok (some amount)
        | .byOutput _ :: _ => .ok none : R ActionResult) = .ok prev ∧
      (∀ n, prev = some n → n < 2 ^ 128) ∧
      c.runActionsCached x.now none FMap.empty (FMap.empty.insert x.pred amount) prev actions =
        .ok (pc, tc, res) := by
    cases actions with
    | nil =>
      unfold runActionsCached at h
      unpack at h
    | cons a l =>
      cases a with
      | byOutput s => exact ⟨none, rfl, by rintro _ ⟨⟩, h⟩
      | swap s =>
        obtain ⟨id, ti, a, tout, m⟩ := s
        cases a with
        | none => cases ho
        | some n => exact ⟨some amount, rfl, (by rintro _ ⟨⟩; exact hb), h⟩
  obtain ⟨prev, hm, hpb, h⟩ := hprev
  have hne : actions ≠ [] := by rintro rfl; cases hm
  obtain ⟨c1, acc', h1, hcov', -, -⟩ := runActions_run (r' := c.referralInfo referral) (.inr rfl)
    hcov (hc.ready hlt hl (by
      intro id hid
      obtain ⟨a, ha, rfl⟩ := List.mem_map.1 hid
      exact hp a ha) (by
      intro id hid
      obtain ⟨a, ha, rfl⟩ := List.mem_map.1 hid
      exact hv a ha)) (hc.fair referral) hpb h
  have hdir : c.directActions x.now referral x.pred amount actions = .ok (c1, acc'.positive) := by
    unfold directActions
    rw [hd, ok_bind]
    refine bind_ok.2 ⟨prev, hm, ?_⟩
    rw [h1, ok_bind]
  have hpay := payOut_pays c1 sender false skip recipient (fun h => nomatch h.2) acc'.positive
  refine ⟨c1, acc'.positive.map (c1.payOut sender false skip recipient), ?_, fun t => ?_, hpay.2⟩
  · simp only [exec, ftOnTransfer, Ctx.noDeposit, Config.assertRunning]
    rw [assertE_true hx, ok_bind, assertE_true hr, ok_bind]
    unfold instantSwap
    rw [assertE_true (show ¬ (recipient.isSome = true ∧ false = true) from fun h => nomatch h.2), ok_bind,
      assertE_true hne, ok_bind]
    simp only [Bool.false_eq_true, if_false, ok_bind]
    rw [hdir, ok_bind]
    simp only
    rw [(assertE_ok (u := ())).2 (fun h => h.elim), ok_bind]
  · rw [hpay.1, Account.amountIn_positive, (hcov' t).1]

/-- A higher demand on the output does not change a swap that meets it. -/
theorem _root_.Verif.Pool.swap_min {p q : Pool} {ti tout : AccountId} {a out m : Nat} {f : AdminFees}
    {env : R CurveEnv} {v : Bool} (h : p.swap ti a tout 0 f env v = .ok (q, out)) (hm : m ≤ out) :
    p.swap ti a tout m f env v = .ok (q, out) := by
  cases p with
  | simple p =>
    simp only [Pool.swap, SimplePool.swap] at h ⊢
    unpack at h
    obtain ⟨h1, _, _, ⟨i, h2, o, h3, r, h4, -, q', h5, rfl, rfl⟩, rfl, rfl⟩ := h
    rw [assertE_true h1, ok_bind, h2, ok_bind, h3, ok_bind, h4, ok_bind, assertE_true hm, ok_bind, h5,
      ok_bind, ok_bind]
  | curve p =>
    simp only [Pool.swap, CurvePool.swap] at h ⊢
    simp only [bind_ok, assertE_ok] at h
    obtain ⟨e, he, r, ⟨_, h1, i, h2, o, h3, _, h4, g, h5, d, h6, out', h7, _, -, _, h8, _, h9, q', h10, h11⟩,
      h12⟩ := h
    cases h11
    cases h12
    rw [he, ok_bind, assertE_true h1, ok_bind, h2, ok_bind, h3, ok_bind, h4, ok_bind, h5, ok_bind, h6,
      ok_bind, h7, ok_bind, assertE_true hm, ok_bind, h8, ok_bind]
    simp only
    rw [assertE_true h9, ok_bind, h10, ok_bind, ok_bind]

/-- **C73**, `get_return`: whoever has the amount for which the view reports a return, and demands at
most this return, gets it. -/
theorem C73_get_return {c : Contract} {x : Ctx} (hc : c.After x.now) (hlt : x.now < 2 ^ 32 * 10 ^ 9)
    (hl : c.pools.length ≤ 2 ^ 32) (hr : c.cfg.running = true) {id a out m : Nat} {ti tout : AccountId}
    (hp : c.Covered id) (hv : ∀ i, (c.volume id i).1 + 2 ^ 128 ≤ 2 ^ 256 ∧
      (c.volume id i).2 + 2 ^ 128 ≤ 2 ^ 256)
    {acc : Account} (ha : c.accounts.get? x.pred = some acc)
    (hs : acc.storageUsage + 2 * RECORD_COST ≤ acc.near)
    (hw : x.deposit = 0 → c.cfg.tokenAllowed acc ti = true ∧ c.cfg.tokenAllowed acc tout = true)
    (hf : ti ∉ c.cfg.frozen ∧ tout ∉ c.cfg.frozen)
    (h : c.getReturn x.now id ti a tout = .ok out) (hle : a ≤ c.depositOf x.pred ti) (ha128 : a < 2 ^ 128)
    (hfit : c.depositOf x.pred tout + out < 2 ^ 128) (hm : m ≤ out) (referral : Option AccountId) :
    ∃ c', c.executeActions x [.swap ⟨id, ti, some a, tout, m⟩] referral = .ok (c', some out) ∧
      ∀ t, c'.depositOf x.pred t + (if ti = t then a else 0) =
        c.depositOf x.pred t + if tout = t then out else 0 := by
  have hdep : ∀ t, c.depositOf x.pred t = acc.bal t := fun t => by simp only [depositOf, ha]
  rw [hdep] at hle hfit
  unfold getReturn at h
  unpack at h
  obtain ⟨p, hpool, q, out', hsw, rfl⟩ := h
  have hsw := Pool.swap_min hsw hm
  have hready : c.Ready [id] x.now (0 + 1) := hc.ready hlt hl
    (by intro i hi; rw [List.mem_singleton.1 hi]; exact hp)
    (by intro i hi; rw [List.mem_singleton.1 hi, Nat.zero_add, Nat.one_mul]; exact hv)
  have hcache : c.poolSwapCached x.now none FMap.empty id ti a tout m =
      .ok (FMap.empty.insert id q, out') := by
    unfold poolSwapCached cachedPool
    rw [hpool, ok_bind]
    simp only [FMap.get?_empty, Option.getD_none, ok_bind]
    rw [hsw, ok_bind]
  obtain ⟨c1, h1, -⟩ := poolSwap_run (r' := c.referralInfo referral) (.start c) hready (.inr rfl)
    (hc.fair referral) List.mem_cons_self ha128 (by omega) hcache
  obtain ⟨acc1, hw1, hb1⟩ := Account.withdraw_run hle
  obtain ⟨hsame, -, hbal1, -⟩ := Account.withdraw_ok hw1
  obtain ⟨acc2, hw2, hb2⟩ := Account.deposit_run (a := acc1) (t := tout) (n := out') (by
    have := hbal1 tout
    omega)
  obtain ⟨hsame2, hbal2, -⟩ := Account.deposit_ok hw2
  have hsave : c1.saveAccount x.pred acc2 = .ok (c1.putAccount x.pred acc2) := by
    rw [saveAccount_ok]
    refine ⟨?_, rfl⟩
    rw [hsame2.near, hsame.near]
    exact le_trans (Account.usage_mono (k := 2) (by omega)) hs
  refine ⟨c1.putAccount x.pred acc2, ?_, fun t => ?_⟩
  · have hrun : c.runActions x.now (c.referralInfo referral) acc none [.swap ⟨id, ti, some a, tout, m⟩] =
        .ok (c1, acc2, some out') := by
      unfold runActions Config.assertNoFrozen
      rw [assertE_true (.inl rfl), ok_bind, assertE_true (by
        intro t ht
        simp only [Action.tokensOf, Action.tokens, List.flatMap_cons, List.flatMap_nil, List.append_nil,
          List.mem_cons, List.not_mem_nil, or_false] at ht
        rcases ht with rfl | rfl
        · exact hf.1
        · exact hf.2), ok_bind]
      simp only [List.filterMap_cons, List.filterMap_nil, Action.asSwap, runSwaps, amountOr, ok_bind]
      rw [hw1, ok_bind, h1, ok_bind]
      simp only
      rw [hw2, ok_bind]
    unfold executeActions Config.assertRunning assertTokensAllowed
    rw [assertE_true hr, ok_bind, assertE_true (by simp), ok_bind, account_ok.2 ha, ok_bind,
      assertE_true (by
        intro h0 t ht
        simp only [Action.tokensOf, Action.tokens, List.flatMap_cons, List.flatMap_nil, List.append_nil,
          List.mem_cons, List.not_mem_nil, or_false] at ht
        rcases ht with rfl | rfl
        · exact (hw h0).1
        · exact (hw h0).2), ok_bind, hrun, ok_bind]
    simp only
    rw [hsave, ok_bind]
  · rw [hdep]
    simp only [depositOf, putAccount, FMap.get?_insert, if_true]
    have := hbal1 t
    have := hbal2 t
    omega

theorem checkMins_run : ∀ {as ms : List Nat}, (∀ z ∈ as.zip ms, z.2 ≤ z.1) → checkMins as ms = .ok ()
  | [], _, _ => rfl
  | _ :: _, [], _ => rfl
  | a :: as, m :: ms, h => by
    unfold checkMins
    rw [assertE_true (h (a, m) List.mem_cons_self), ok_bind,
      checkMins_run fun z hz => h z (List.mem_cons_of_mem _ hz)]

/-- **C73**, `predict_add_simple_liquidity`: if the view gives an answer, then whoever holds the amounts
that it reports can add them to the pool, and gets the shares that it reports. The attached NEAR must
cover the storage that the pool grows by. -/
theorem C73_add_liquidity {c : Contract} {x : Ctx} (hc : c.After x.now) (hlt : x.now < 2 ^ 32 * 10 ^ 9)
    (hr : c.cfg.running = true) {id n : Nat} {amounts used : List Nat} (hp : c.Covered id) {p : Pool}
    (hi : c.pools[id]? = some p) (hf : ∀ t ∈ p.tokens, t ∉ c.cfg.frozen)
    (h : c.predictAdd id amounts = .ok (used, n)) {mins : Option (List Nat)}
    (hm : ∀ z ∈ used.zip (mins.getD []), z.2 ≤ z.1)
    {acc : Account} (ha : c.accounts.get? x.pred = some acc)
    (hs : acc.storageUsage + 2 * RECORD_COST ≤ acc.near)
    (hd : ∀ t ∈ p.tokens, flow p.tokens used t ≤ c.depositOf x.pred t)
    (hx : 0 < x.deposit) (hg : x.grew * BYTE_COST ≤ x.deposit) :
    ∃ c' outs, c.addLiquidity x id amounts mins = .ok (c', outs, n) ∧
      c'.sharesOf id x.pred = c.sharesOf id x.pred + n ∧
      ∀ t, c'.depositOf x.pred t + flow p.tokens used t = c.depositOf x.pred t := by
  unfold predictAdd at h
  unpack at h
  obtain ⟨p0, hp', q, used', n', hq, rfl, rfl⟩ := h
  rw [pool_ok.1 hp'] at hi
  cases hi
  have hdep : ∀ t, c.depositOf x.pred t = acc.bal t := fun t => by simp only [depositOf, ha]
  obtain ⟨tw, hh⟩ := simple_hook hc.reachable.sound (hc.current hlt hp)
  have hadd : ∃ q', p.addLiquidity x.pred amounts false = .ok (q', used', n') := by
    cases p with
    | curve p => cases hq
    | simple p =>
      simp only [Pool.addLiquidity] at hq ⊢
      unpack at hq
      obtain ⟨_, _, _, hq, -, rfl, rfl⟩ := hq
      obtain ⟨q', hq'⟩ := SimplePool.add_run (a := x.pred)
        (hc.reachable.sound _ (List.mem_of_getElem? (pool_ok.1 hp'))).1 hq
      rw [hq']
      exact ⟨_, rfl⟩
  obtain ⟨q', hadd⟩ := hadd
  have htok := Pool.tokens_of_shape (Pool.addLiquidity_shape hadd).1
  have hlen : used'.length = p.tokens.length := by
    cases p with
    | curve p => cases hq
    | simple p =>
      simp only [Pool.addLiquidity] at hq
      unpack at hq
      obtain ⟨_, _, _, hq, -, rfl, -⟩ := hq
      unfold SimplePool.addLiquidity at hq
      split at hq
      · unpack at hq
        obtain ⟨_, _, _, _, -, _, -, -, -, rfl, -⟩ := hq
        rfl
      · cases hq
  obtain ⟨acc', hwd, hb⟩ := Account.withdrawAll_run (acc := acc) hlen fun t ht => by
    rw [← hdep]; exact hd t ht
  have hlen2 : p.tokens.length = 2 := by
    cases p with
    | curve p => cases hq
    | simple p => rfl
  obtain ⟨hsame, hbal, -⟩ := Account.withdrawAll_ok hwd
  have hsave : ({ c with twaps := tw } : Contract).saveAccount x.pred acc' =
      .ok (({ c with twaps := tw } : Contract).putAccount x.pred acc') := by
    rw [saveAccount_ok]
    refine ⟨?_, rfl⟩
    rw [hsame.near]
    exact le_trans (Account.usage_mono (k := 2) (by rw [← hlen2]; exact hb)) hs
  obtain ⟨fee, outs, hst⟩ : ∃ fee outs, x.checkStorage = .ok (fee, outs) :=
    ⟨_, _, Ctx.checkStorage_ok.2 ⟨hg, rfl, rfl⟩⟩
  refine ⟨(({ c with twaps := tw } : Contract).putAccount x.pred acc').setPool id q', outs, ?_, ?_, fun t => ?_⟩
  · unfold addLiquidity Config.assertRunning
    rw [assertE_true hr, ok_bind, assertE_true hx, ok_bind, hh, ok_bind]
    have e1 : ({ c with twaps := tw } : Contract).pool id = .ok p := hp'
    rw [e1, ok_bind]
    unfold Config.assertNoFrozen
    rw [assertE_true hf, ok_bind, hadd, ok_bind]
    simp only
    have e2 : ({ c with twaps := tw } : Contract).account x.pred = .ok acc := account_ok.2 ha
    rw [checkMins_run hm, ok_bind, e2, ok_bind, htok, hwd, ok_bind, hsave, ok_bind, hst, ok_bind]
  · have hset := sharesIn_set (pool_ok.1 hp') q' id x.pred
    simp only [sharesOf_eq, setPool, putAccount]
    rw [hset, if_pos rfl, sharesIn_some (pool_ok.1 hp')]
    have := Pool.addLiquidity_shares hadd x.pred
    rw [if_pos rfl] at this
    exact this
  · simp only [depositOf, setPool, putAccount, FMap.get?_insert, if_true, ha]
    exact hbal t

/-- **C73**, `predict_add_stable_liquidity`: if the view gives an answer, then whoever holds the amounts
can add them to the pool, and demands at most the reported shares gets them. -/
theorem C73_add_stable {c : Contract} {x : Ctx} (hc : c.After x.now) (hlt : x.now < 2 ^ 32 * 10 ^ 9)
    (hr : c.cfg.running = true) {id n m : Nat} {amounts : List Nat} (hp : c.Covered id) {p : Pool}
    (hi : c.pools[id]? = some p) (hf : ∀ t ∈ p.tokens, t ∉ c.cfg.frozen)
    (hlim : c.cfg.limits.get? id = none)
    (h : c.predictAddStable x.now id amounts = .ok n) (hm : m ≤ n)
    {acc : Account} (ha : c.accounts.get? x.pred = some acc)
    (hs : acc.storageUsage + p.tokens.length * RECORD_COST ≤ acc.near)
    (hd : ∀ t ∈ p.tokens, flow p.tokens amounts t ≤ c.depositOf x.pred t)
    (hx : 0 < x.deposit) (hg : x.grew * BYTE_COST ≤ x.deposit) :
    ∃ c' outs, c.addStableLiquidity x id amounts m = .ok (c', outs, n) ∧
      ∀ t, c'.depositOf x.pred t + flow p.tokens amounts t = c.depositOf x.pred t := by
  unfold predictAddStable at h
  unpack at h
  obtain ⟨p0, hp', q, n', hq, rfl⟩ := h
  rw [pool_ok.1 hp'] at hi
  cases hi
  have hdep : ∀ t, c.depositOf x.pred t = acc.bal t := fun t => by simp only [depositOf, ha]
  obtain ⟨tw, hh⟩ := simple_hook hc.reachable.sound (hc.current hlt hp)
  have hadd : ∃ q', p.addStable x.pred amounts m (c.fees none) (c.cfg.env x.now p) false =
      .ok (q', n') := by
    cases p with
    | simple p => cases hq
    | curve p =>
      simp only [Pool.addStable] at hq ⊢
      unpack at hq
      obtain ⟨e, he, _, _, hq, -, rfl⟩ := hq
      obtain ⟨q', hq'⟩ := CurvePool.add_run (a := x.pred) (m := m)
        (hc.reachable.sound _ (List.mem_of_getElem? (pool_ok.1 hp'))).1 rfl hq hm
      rw [he, ok_bind, hq']
      exact ⟨_, rfl⟩
  obtain ⟨q', hadd⟩ := hadd
  have htok := Pool.tokens_of_shape (Pool.addStable_shape hadd).1
  have hlen : amounts.length = p.tokens.length := by
    cases p with
    | simple p => cases hq
    | curve p =>
      simp only [Pool.addStable] at hq
      unpack at hq
      obtain ⟨_, -, _, _, hq, -⟩ := hq
      unfold CurvePool.addLiquidity at hq
      unpack at hq
      exact hq.1
  obtain ⟨acc', hwd, hb⟩ := Account.withdrawAll_run (acc := acc) hlen fun t ht => by
    rw [← hdep]; exact hd t ht
  obtain ⟨hsame, hbal, -⟩ := Account.withdrawAll_ok hwd
  have hsave : ({ c with twaps := tw } : Contract).saveAccount x.pred acc' =
      .ok (({ c with twaps := tw } : Contract).putAccount x.pred acc') := by
    rw [saveAccount_ok]
    refine ⟨?_, rfl⟩
    rw [hsame.near]
    exact le_trans (Account.usage_mono hb) hs
  obtain ⟨fee, outs, hst⟩ : ∃ fee outs, x.checkStorage = .ok (fee, outs) :=
    ⟨_, _, Ctx.checkStorage_ok.2 ⟨hg, rfl, rfl⟩⟩
  refine ⟨(({ c with twaps := tw } : Contract).putAccount x.pred acc').setPool id q', outs, ?_, fun t => ?_⟩
  · unfold addStableLiquidity Config.assertRunning
    rw [assertE_true hr, ok_bind, assertE_true hx, ok_bind, hh, ok_bind]
    have e1 : ({ c with twaps := tw } : Contract).pool id = .ok p := hp'
    rw [e1, ok_bind]
    unfold Config.assertNoFrozen
    rw [assertE_true hf, ok_bind]
    have e3 : p.addStable x.pred amounts m (({ c with twaps := tw } : Contract).fees none)
      (({ c with twaps := tw } : Contract).cfg.env x.now p) false = .ok (q', n') := hadd
    rw [e3, ok_bind]
    simp only
    have e2 : ({ c with twaps := tw } : Contract).account x.pred = .ok acc := account_ok.2 ha
    have e4 : ∀ e, q'.assertTvl (c.cfg.limits.get? id) e = .ok () := by
      intro e
      rw [hlim]
      cases q' <;> rfl
    rw [e4, ok_bind, e2, ok_bind, htok, hwd, ok_bind, hsave, ok_bind, hst, ok_bind]
  · simp only [depositOf, setPool, putAccount, FMap.get?_insert, if_true, ha]
    exact hbal t

open Demo

section Examples

/-- The events of `setup2`, all of them at the same time. -/
def setup2Day : Verif.History := setup2.map fun e => (10 ^ 18, e)

theorem c2_after : c2.After (10 ^ 18) := by
  refine ⟨ex, own, farm, bur, 1600, 400, c0, setup2Day, rfl, ⟨?_, ?_⟩, ?_, ?_⟩
  · unfold setup2Day
    rw [List.pairwise_map]
    exact List.pairwise_of_forall fun _ _ => le_refl _
  · intro e he
    unfold setup2Day at he
    obtain ⟨f, hf, rfl⟩ := List.mem_map.1 he
    refine ⟨?_, by norm_num⟩
    unfold setup2 setup at hf
    simp only [List.cons_append, List.nil_append, List.mem_cons, List.not_mem_nil, or_false] at hf
    rcases hf with rfl | rfl | rfl | rfl | rfl | rfl | rfl | rfl | rfl | rfl | rfl | rfl | rfl | rfl |
      rfl | rfl | rfl <;> rfl
  · intro e he
    unfold setup2Day at he
    obtain ⟨f, -, rfl⟩ := List.mem_map.1 he
    exact le_refl _
  · unfold setup2Day History.events
    rw [List.map_map]
    have : (Prod.snd ∘ fun e : Event => (10 ^ 18, e)) = id := rfl
    rw [this, List.map_id]
    rfl

/-- Both pools of `c2` are such that the views see everything. -/
theorem c2_covered : c2.Covered 0 ∧ c2.Covered 1 := by
  have ht : c2.twaps.get? 0 = none ∧ c2.twaps.get? 1 = none := by decide +kernel
  have hd : ∀ d ∈ (c2.pools.flatMap fun p => match p with
      | .simple _ => []
      | .curve p => p.decs), d ≤ 18 := by decide +kernel
  have hd' : ∀ (id : Nat) p, c2.pools[id]? = some (.curve p) → p.kind = .stable → ∀ d ∈ p.decs, d ≤ 18 :=
    fun id p hp _ d h => hd d (List.mem_flatMap.2 ⟨_, List.mem_of_getElem? hp, h⟩)
  refine ⟨⟨hd' 0, fun u hu => ?_⟩, ⟨hd' 1, fun u hu => ?_⟩⟩
  · rw [ht.1] at hu; cases hu
  · rw [ht.2] at hu; cases hu

/-- Two swaps one after the other, the second with the result of the first: Bob meets all conditions. -/
example : c2.cfg.running = true ∧ c2.pools.length ≤ 2 ^ 32 ∧
    (c2.accounts.get? bo).any (fun acc =>
      decide (acc.storageUsage + 2 * 2 * RECORD_COST ≤ acc.near) &&
      ([A, B].all fun t => c2.cfg.tokenAllowed acc t)) = true ∧
    (c2.predictSwapActions (10 ^ 18) (FMap.empty.insert A 5000)
      [swapA, .swap ⟨1, B, none, A, 1⟩]).holds (fun tc => 4000 < tc.getD A 0) = true ∧
    c2.depositOf bo A = 5000 ∧
    ([0, 1].all fun id => [0, 1].all fun i => decide ((c2.volume id i).1 + 2 * 2 ^ 128 ≤ 2 ^ 256 ∧
      (c2.volume id i).2 + 2 * 2 ^ 128 ≤ 2 ^ 256)) = true := by decide +kernel

example : (c2.exec (by' bo) (.executeActions [swapA, .swap ⟨1, B, none, A, 1⟩] none)).isOk = true := by
  decide +kernel

/-- Alice adds to both pools. -/
example : (c2.predictAdd 0 [1000, 5000]).holds (fun r => r.1 = [1000, 3997] ∧
      (c2.addLiquidity (Demo.near al) 0 [1000, 5000] (some r.1)).holds (fun s => s.2.2 = r.2) = true) = true ∧
    (c2.predictAddStable (10 ^ 18) 1 [1000, 5000]).holds (fun n => 0 < n ∧ c2.cfg.limits.get? 1 = none ∧
      (c2.addStableLiquidity (Demo.near al) 1 [1000, 5000] n).holds (fun s => s.2.2 = n) = true) = true := by
  decide +kernel

/-- A swap on a transfer of 1000 of `A` by Bob. -/
example : (c2.predictSwapActions (10 ^ 18) (FMap.empty.insert A 1000) [.swap ⟨0, A, some 1000, B, 1⟩]).holds
    (fun tc => (c2.exec (by' A) (.ftOnTransfer bo 1000
      (.execute none [.swap ⟨0, A, some 1000, B, 1⟩] false none none))).holds
        (fun r => paysOut r.2 B = tc.getD B 0 ∧ 3000 < tc.getD B 0) = true) = true := by decide +kernel

end Examples

end Contract
end Verif

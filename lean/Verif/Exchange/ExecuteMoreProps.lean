import Verif.Exchange.ExecuteProps
import Verif.Exchange.ExitProps

/-
C73, continued: withdrawals of given amounts, and hot zaps.
-/

namespace Verif

/-- What is minted of a fee in a view can also be minted in the call. -/
theorem CurvePool.feePart_run {p q p' : CurvePool} (hs : p.supply = q.supply)
    (hq : q.supply = sumVals q.shares) {part : Nat} {f g : AdminFees} (hfg : f.Quote g)
    (hg : g.referral = none) (h : p.mintFeePart part f true = .ok p') :
    ∃ q', q.mintFeePart part g false = .ok q' := by
  have hf : f.referral = none := hfg.ref.elim (fun e => e.trans hg) id
  unfold mintFeePart at h ⊢
  by_cases hp : part > 0
  · rw [if_pos hp] at h ⊢
    rw [hf] at h
    rw [hg]
    unpack at h
    obtain ⟨adm, h6, h⟩ := h
    rw [hfg.bps] at h6
    simp only [Nat.lt_irrefl, false_and, if_false] at h
    obtain ⟨p3, h7, -, h8⟩ := h
    obtain ⟨rfl, -⟩ := mintShares_ok h7
    obtain ⟨-, hb2⟩ := mintShares_ok h8
    simp only [Nat.add_zero, Nat.sub_zero, hs] at hb2
    obtain ⟨sh2, h9, -, -⟩ := mintShares_run (q := q) (a := g.exchangeId) (s := adm) hq hb2
    rw [h6, ok_bind]
    simp only [ok_bind, gt_iff_lt, Nat.lt_irrefl, false_and, if_false]
    have h0 : q.mintShares g.exchangeId 0 false = .ok q := rfl
    rw [h0, ok_bind, subW_ok.2 ⟨Nat.zero_le _, rfl⟩, ok_bind, Nat.sub_zero, h9]
    exact ⟨_, rfl⟩
  · rw [if_neg hp]
    exact ⟨_, rfl⟩

theorem CurvePool.removeByTokens_run {p p' : CurvePool} (hs : p.Sound) {v a : AccountId}
    {am : List Nat} {m m' n : Nat} {f : AdminFees} {env : CurveEnv} (hf : f.referral = none)
    (h : p.removeByTokens v am m' f env true = .ok (p', n)) (hm : n ≤ m) (h0 : 0 < n)
    (hn : n ≤ p.shares.getD a 0) : ∃ q, p.removeByTokens a am m f env false = .ok (q, n) := by
  have hg : ∃ s, p.shares.get? a = some s ∧ n ≤ s := by
    unfold FMap.getD at hn
    cases hg : p.shares.get? a with
    | none => rw [hg] at hn; simp at hn; omega
    | some s => rw [hg] at hn; exact ⟨s, rfl, hn⟩
  obtain ⟨s, hg, hle⟩ := hg
  unfold removeByTokens at h ⊢
  simp only [if_true, ok_bind] at h
  unpack at h
  obtain ⟨h1, cs, h2, _, h3, _, h4, burn, part, h5, ns, h6, h7, p1, h8, -, rfl⟩ := h
  have hb : p.burnShares a s burn = .ok { p with shares := p.shares.insert a (s - burn) } := by
    unfold burnShares
    rw [if_neg (by omega), subW_ok.2 ⟨hle, rfl⟩]
    rfl
  have hsum := (burnShares_ok hb hg).2.2.1
  rw [assertE_true h1, ok_bind, h2, ok_bind, h3, ok_bind, h4, ok_bind, h5, ok_bind]
  simp only [Bool.false_eq_true, if_false, hg, expectE, ok_bind]
  rw [assertE_true hle, ok_bind, assertE_true hm, ok_bind, hb, ok_bind]
  simp only
  rw [h6, ok_bind, subW_ok.2 ⟨h7, rfl⟩, ok_bind]
  obtain ⟨q, hq⟩ := feePart_run (p := { p with cAmts := ns, supply := p.supply - burn })
    (q := { p with cAmts := ns, supply := p.supply - burn, shares := p.shares.insert a (s - burn) })
    rfl (by
      have := hs.sum
      simp only at hsum ⊢
      omega) ⟨rfl, .inl rfl⟩ hf h8
  rw [hq]
  exact ⟨_, rfl⟩

/-! ### Hot zaps -/

/-- A view of a deposit does not depend on who holds the shares. -/
theorem SimplePool.add_view {p q : SimplePool} (hA : p.Alike q) (v : AccountId) (am : List Nat) :
    Sim (fun r s => s.1.Alike r.1 ∧ s.2 = r.2) (q.addLiquidity v am true) (p.addLiquidity v am true) := by
  obtain ⟨sh, rfl, hk⟩ := hA
  unfold addLiquidity
  split
  · refine .bind (S := fun r s => s.1.Alike r.1 ∧ s.2 = r.2) ?_ ?_
    · split
      · refine .same fun _ _ => .same fun _ _ => .same fun _ _ => .same fun _ _ => .same fun _ _ =>
          .same fun _ _ => .same fun _ _ => .ok ⟨⟨sh, rfl, hk⟩, rfl⟩
      · refine .same fun _ _ => .same fun _ _ => .same fun _ _ => .same fun _ _ =>
          .ok ⟨⟨sh, rfl, hk⟩, rfl⟩
    · rintro ⟨q1, x⟩ ⟨p1, y⟩ ⟨h1, h2⟩
      simp only at h1 h2
      subst h2
      refine .bind (S := fun r s => s.Alike r) ?_ fun _ _ h2 => .same fun _ _ => .ok ⟨h2, rfl⟩
      intro p2 h2
      obtain ⟨-, hb⟩ := mintShares_ok h2
      obtain ⟨sh1, rfl, hk1⟩ := h1
      rw [mintShares_view hb] at h2
      cases h2
      exact ⟨_, mintShares_view hb, sh1, rfl, hk1⟩
  · exact .error

theorem SimplePool.add_alike {p q p' : SimplePool} (hA : p.Alike q) (hs : q.Sound) {v : AccountId}
    {am used : List Nat} {n : Nat} (h : p.addLiquidity v am true = .ok (p', used, n)) (a : AccountId) :
    ∃ q', q.addLiquidity a am false = .ok (q', used, n) ∧ p'.Alike q' := by
  obtain ⟨⟨_, _⟩, hq, -, e⟩ := add_view hA v am _ h
  simp only at e
  subst e
  obtain ⟨q', hq'⟩ := add_run (a := a) hs hq
  obtain ⟨⟨p1, x⟩, e, h1, -⟩ := addLiquidity_sim hA v a am _ hq'
  rw [h] at e
  cases e
  exact ⟨q', hq', h1⟩

theorem CurvePool.add_alike {p q p' : CurvePool} (hA : p.Alike q) (hs : q.Sound) {v : AccountId}
    {am : List Nat} {m n : Nat} {f g : AdminFees} {env : CurveEnv} (hfg : f.Quote g)
    (hg : g.referral = none) (h : p.addLiquidity v am 0 f env true = .ok (p', n)) (hm : m ≤ n)
    (a : AccountId) : ∃ q', q.addLiquidity a am m g env false = .ok (q', n) ∧ p'.Alike q' := by
  suffices hq : ∃ q', q.addLiquidity a am m g env false = .ok (q', n) by
    obtain ⟨q', hq'⟩ := hq
    obtain ⟨⟨p1, x⟩, e, h1, -⟩ := addLiquidity_sim hA hfg v a am (Nat.zero_le m) env _ hq'
    rw [h] at e
    cases e
    exact ⟨q', hq', h1⟩
  obtain ⟨sh, rfl, -⟩ := hA
  unfold addLiquidity at h ⊢
  unpack at h
  obtain ⟨h1, s, part, h2, -, cs, h3, p1, h4, p2, h5, -, rfl⟩ := h
  obtain ⟨rfl, hb⟩ := mintShares_ok h4
  simp only at hb
  obtain ⟨sh', h4', hsum, -⟩ := mintShares_run (q := { q with cAmts := cs }) (a := a) (s := s) hs.sum hb
  have h2' : q.calcAdd am g env = .ok (s, part) := by
    unfold calcAdd at h2 ⊢
    rw [← hfg.bps]
    exact h2
  have h3' : addAmounts q.kind q.cAmts q.decs am = .ok cs := h3
  rw [assertE_true h1, ok_bind, h2', ok_bind]
  simp only
  rw [assertE_true hm, ok_bind, h3', ok_bind, h4', ok_bind]
  obtain ⟨q', hk⟩ := feePart_run
    (q := { q with cAmts := cs, supply := q.supply + s, shares := sh' }) (by rfl) hsum hfg hg h5
  rw [hk]
  exact ⟨_, rfl⟩

theorem TokenCache.addPairs_run : ∀ {ps : List (AccountId × Nat)} {m : TokenCache},
    (∀ t, m.getD t 0 + amountIn ps t < 2 ^ 128) → ∃ k, m.addPairs ps = .ok k
  | [], m, _ => ⟨m, rfl⟩
  | p :: ps, m, h => by
    have h0 := h p.1
    simp only [amountIn, if_true] at h0
    have e : m.add p.1 p.2 = .ok (m.insert p.1 (m.getD p.1 0 + p.2)) := by
      unfold add
      rw [addW_ok.2 ⟨by omega, rfl⟩, ok_bind]
    have e' := add_ok e
    obtain ⟨k, hk⟩ := addPairs_run (ps := ps) (m := m.insert p.1 (m.getD p.1 0 + p.2)) fun t => by
      have := h t
      have h1 := e' t
      simp only [amountIn] at this
      rw [h1]
      omega
    refine ⟨k, ?_⟩
    unfold addPairs
    rw [e, ok_bind, hk]

theorem Account.depositPairs_run : ∀ {ps : List (AccountId × Nat)} {a : Account},
    (∀ t, a.bal t + amountIn ps t < 2 ^ 128) → ∃ b, a.depositPairs ps = .ok b ∧
      b.recordBytes ≤ a.recordBytes + 148 * (ps.filter fun p => p.2 > 0).length
  | [], a, _ => ⟨a, rfl, by simp⟩
  | p :: ps, a, h => by
    have h0 := h p.1
    simp only [amountIn, if_true] at h0
    obtain ⟨b, hb, hr⟩ := deposit_run (a := a) (t := p.1) (n := p.2) (by omega)
    obtain ⟨-, h2, -⟩ := deposit_ok hb
    obtain ⟨b', hb', hr'⟩ := depositPairs_run (ps := ps) (a := b) fun t => by
      have := h t
      simp only [amountIn] at this
      rw [h2]
      omega
    refine ⟨b', ?_, ?_⟩
    · unfold depositPairs
      rw [hb, ok_bind, hb']
    · by_cases hp : p.2 > 0
      · rw [List.filter_cons_of_pos (by simpa using hp), List.length_cons]
        omega
      · rw [List.filter_cons_of_neg (by simpa using hp)]
        have : b = a := by
          unfold deposit at hb
          rw [if_neg hp] at hb
          cases hb
          rfl
        subst this
        exact hr'

/-- Two caches with the same amounts hold the same tokens, but for entries of zero. -/
theorem TokenCache.positive_le {m k : TokenCache} (h : ∀ t, m.getD t 0 = k.getD t 0) :
    (k.entries.filter fun p => p.2 > 0).length ≤ m.entries.length := by
  have hn : ((k.entries.filter fun p => p.2 > 0).map Prod.fst).Nodup :=
    List.Nodup.sublist (List.Sublist.map _ List.filter_sublist) k.nodup
  have hsub : (k.entries.filter fun p => p.2 > 0).map Prod.fst ⊆ m.entries.map Prod.fst := by
    intro t ht
    obtain ⟨p, hp, rfl⟩ := List.mem_map.1 ht
    obtain ⟨hm, hpos⟩ := List.mem_filter.1 hp
    have hk : k.get? p.1 = some p.2 := (FMap.mem_entries_iff k).1 hm
    have hp : 0 < m.getD p.1 0 := by
      rw [h]
      unfold FMap.getD
      rw [hk]
      simpa using hpos
    unfold FMap.getD at hp
    cases hg : m.get? p.1 with
    | none => rw [hg] at hp; simp at hp
    | some n => exact List.mem_map.2 ⟨(p.1, n), (FMap.mem_entries_iff m).2 hg, rfl⟩
  have := (List.subperm_of_subset hn hsub).length_le
  simpa using this

namespace Contract

theorem _root_.Verif.Account.freeOf_run {acc : Account} {id total : Nat}
    (h : max (acc.pledged id).farm (acc.pledged id).burrow ≤ total) :
    acc.freeOf id total = .ok (total - max (acc.pledged id).farm (acc.pledged id).burrow) := by
  rw [Account.pledged_def] at h ⊢
  unfold Account.freeOf
  cases hg : acc.shadow.get? id with
  | none => simp
  | some r =>
    rw [hg] at h
    simp only [Option.getD_some] at h ⊢
    unfold ShadowRecord.freeShares
    exact subW_ok.2 ⟨h, rfl⟩

/-- **C73**, `predict_remove_liquidity_by_tokens`: if the view gives an answer, then whoever has that
many shares that are not pledged, and allows at least that many to be burnt, can take the amounts out,
and loses the reported number of shares. -/
theorem C73_remove_by_tokens {c : Contract} {x : Ctx} (hc : c.After x.now)
    (hlt : x.now < 2 ^ 32 * 10 ^ 9) (hr : c.cfg.running = true) {id n m : Nat} {amounts : List Nat}
    (hp : c.Covered id) {p : Pool} (hi : c.pools[id]? = some p)
    (hf : ∀ t ∈ p.tokens, t ∉ c.cfg.frozen)
    (h : c.predictRemoveByTokens x.now id amounts = .ok n) (hm : n ≤ m) (h0 : 0 < n)
    (hn : n + max (c.pledgedOf x.pred id).farm (c.pledgedOf x.pred id).burrow ≤ c.sharesOf id x.pred)
    {acc : Account} (ha : c.accounts.get? x.pred = some acc)
    (hs : acc.storageUsage + p.tokens.length * RECORD_COST ≤ acc.near)
    (hfit : ∀ t ∈ p.tokens, c.depositOf x.pred t + flow p.tokens amounts t < 2 ^ 128)
    (hx : x.deposit = 1) :
    ∃ c', c.removeByTokens x id amounts m = .ok (c', n) ∧
      (∀ t, c'.depositOf x.pred t = c.depositOf x.pred t + flow p.tokens amounts t) ∧
      (x.pred ≠ c.self → c'.sharesOf id x.pred + n = c.sharesOf id x.pred) := by
  unfold predictRemoveByTokens at h
  unpack at h
  obtain ⟨p0, hp', q, n', hq, rfl⟩ := h
  rw [pool_ok.1 hp'] at hi
  cases hi
  have hdep : ∀ t, c.depositOf x.pred t = acc.bal t := fun t => by simp only [depositOf, ha]
  have hsh : c.sharesOf id x.pred = p.shareBalance x.pred := by
    unfold sharesOf; rw [pool_ok.1 hp']
  have hpl : c.pledgedOf x.pred id = acc.pledged id := by unfold pledgedOf; rw [ha]
  rw [hsh, hpl] at hn
  obtain ⟨tw, hh⟩ := simple_hook hc.reachable.sound (hc.current hlt hp)
  have hrem : ∃ q', p.removeByTokens x.pred amounts m (c.fees none) (c.cfg.env x.now p) false =
      .ok (q', n') := by
    cases p with
    | simple p => cases hq
    | curve p =>
      simp only [Pool.removeByTokens] at hq ⊢
      unpack at hq
      obtain ⟨e, he, _, _, hq, -, rfl⟩ := hq
      obtain ⟨q', hq'⟩ := CurvePool.removeByTokens_run (a := x.pred) (m := m)
        (hc.reachable.sound _ (List.mem_of_getElem? (pool_ok.1 hp'))).1 rfl hq hm h0 (by
          have : (Pool.curve p).shareBalance x.pred = p.shares.getD x.pred 0 := rfl
          omega)
      rw [he, ok_bind, hq']
      exact ⟨_, rfl⟩
  obtain ⟨q', hrem⟩ := hrem
  obtain ⟨hshape, -⟩ := Pool.removeByTokens_shape hrem
  have htok := Pool.tokens_of_shape hshape
  have hlen : amounts.length = p.tokens.length := by
    cases p with
    | simple p => cases hq
    | curve p =>
      simp only [Pool.removeByTokens] at hq
      unpack at hq
      obtain ⟨_, -, _, _, hq, -⟩ := hq
      unfold CurvePool.removeByTokens at hq
      unpack at hq
      exact hq.1
  obtain ⟨acc', hwd, hb⟩ := Account.depositAll_run (a := acc) hlen fun t ht => by
    rw [← hdep]; exact hfit t ht
  obtain ⟨hsame, hbal, -⟩ := Account.depositAll_ok hwd
  have hsave : (({ c with twaps := tw } : Contract).setPool id q').saveAccount x.pred acc' =
      .ok ((({ c with twaps := tw } : Contract).setPool id q').putAccount x.pred acc') := by
    rw [saveAccount_ok]
    refine ⟨?_, rfl⟩
    rw [hsame.near]
    exact le_trans (Account.usage_mono hb) hs
  refine ⟨(({ c with twaps := tw } : Contract).setPool id q').putAccount x.pred acc', ?_, fun t => ?_,
    fun hself => ?_⟩
  · unfold removeByTokens Ctx.oneYocto Config.assertRunning Config.assertNoFrozen
    have e1 : ({ c with twaps := tw } : Contract).pool id = .ok p := hp'
    have e2 : ({ c with twaps := tw } : Contract).account x.pred = .ok acc := account_ok.2 ha
    have e3 : p.removeByTokens x.pred amounts m (({ c with twaps := tw } : Contract).fees none)
      (({ c with twaps := tw } : Contract).cfg.env x.now p) false = .ok (q', n') := hrem
    rw [assertE_true hx, ok_bind, assertE_true hr, ok_bind, hh, ok_bind, e1, ok_bind, e2, ok_bind,
      Account.freeOf_run (by omega), ok_bind, assertE_true hf, ok_bind, e3, ok_bind]
    simp only
    rw [assertE_true (by omega), ok_bind, htok, hwd, ok_bind, hsave, ok_bind]
  · rw [hdep]
    simp only [depositOf, putAccount, FMap.get?_insert_self]
    exact hbal t
  · rw [hsh]
    obtain ⟨k, -, -, hk⟩ := C57_remove_by_tokens hrem
    have hk := hk x.pred
    rw [if_pos rfl, feeShares_other hself fun _ h => by cases h] at hk
    unfold sharesOf
    rw [show ((({ c with twaps := tw } : Contract).setPool id q').putAccount x.pred acc').pools[id]? =
      some q' from (getElem?_set_some (pool_ok.1 hp') q' id).trans (if_pos rfl)]
    exact hk

/-- The demands of a deposit of a hot zap in the pool `p` are met by what the view reports for it: in
a pool at a constant product the amounts taken are at least those demanded, and in the other pools the
shares. -/
def _root_.Verif.AddInfo.Met (i : AddInfo) (p : Pool) (pred : List Nat × Nat) : Prop :=
  match p with
  | .simple _ => ∃ mins, i.minAmounts = some mins ∧ ∀ z ∈ pred.1.zip mins, z.2 ≤ z.1
  | .curve _ => ∃ m, i.minShares = some m ∧ m ≤ pred.2

theorem _root_.Verif.AddInfo.Met.of_shape {i : AddInfo} {p q : Pool} {r : List Nat × Nat}
    (h : i.Met p r) (hs : q.shape = p.shape) : i.Met q r := by
  cases p <;> cases q <;> first | exact h | cases hs

theorem zapAdd_run {c0 c : Contract} {now : Nat} (hcfg : c.cfg = c0.cfg) {p q : Pool} (hA : p.Alike q)
    (hq : q.Sound) {i : AddInfo} (a : AccountId) {p' : Pool} {used : List Nat} {n : Nat}
    (hmet : i.Met q (used, n)) (h : c0.predictZapAdd now i p = .ok (p', used, n)) :
    ∃ q', c.zapAdd now a i q = .ok (q', used) ∧ p'.Alike q' ∧ q'.Sound ∧
      ∀ (j : AddInfo) r, j.Met q r → j.Met q' r := by
  cases hA with
  | @simple p q hA =>
    simp only [predictZapAdd, Pool.addLiquidity] at h
    unpack at h
    obtain ⟨p1, u, k, h, rfl, rfl, rfl⟩ := h
    obtain ⟨q1, h1, hA1⟩ := SimplePool.add_alike hA hq.1 h a
    obtain ⟨mins, hm, hle⟩ := hmet
    have e : Pool.addLiquidity (.simple q) a i.amounts false = .ok (.simple q1, u, k) := by
      simp only [Pool.addLiquidity]
      rw [h1, ok_bind]
    refine ⟨.simple q1, ?_, .simple hA1, hq.addLiquidity e, fun _ _ h => h⟩
    simp only [zapAdd]
    rw [e, ok_bind, expectE_ok.2 hm, ok_bind, checkMins_run hle, ok_bind]
  | @curve p q hA =>
    simp only [predictZapAdd, Pool.addStable] at h
    unpack at h
    obtain ⟨_, _, ⟨e, he, p1, k, h, rfl, rfl⟩, rfl, rfl, rfl⟩ := h
    obtain ⟨m, hm, hle⟩ := hmet
    obtain ⟨q1, h1, hA1⟩ := CurvePool.add_alike hA hq.1 (fees_quote hcfg (.inl rfl)) rfl h hle a
    rw [(Pool.Alike.curve hA).env, ← hcfg] at he
    have e : Pool.addStable (.curve q) a i.amounts m (c.fees none) (c.cfg.env now (.curve q)) false =
        .ok (.curve q1, k) := by
      simp only [Pool.addStable]
      rw [he, ok_bind, h1, ok_bind]
    refine ⟨.curve q1, ?_, .curve hA1, hq.addStable e, fun _ _ h => h⟩
    simp only [zapAdd]
    rw [expectE_ok.2 hm, ok_bind, e, ok_bind]

theorem zapLoop_run (c0 : Contract) (now : Nat) (a : AccountId) : ∀ {is : List AddInfo} {c : Contract}
    {pc : PoolCache} {tc k tc' : TokenCache} {preds : List (List Nat × Nat)}, c0.Shows pc c →
    (∀ p ∈ c.pools, p.Sound) → (∀ t, tc.getD t 0 = k.getD t 0) →
    c0.predictZapLoop now pc tc is = .ok (preds, tc') →
    List.Forall₂ (fun i r => ∀ p, c.pools[i.pool]? = some p → i.Met p r) is preds →
    ∃ c' k', c.zapLoop now a k is = .ok (c', k') ∧ ∀ t, tc'.getD t 0 = k'.getD t 0
  | [], c, pc, tc, k, tc', preds, _, _, ht, h, _ => by
    cases h
    exact ⟨c, k, rfl, ht⟩
  | i :: is, c, pc, tc, k, tc', preds, hs, hsound, ht, h, hmet => by
    simp only [predictZapLoop] at h
    unpack at h
    obtain ⟨p, hp, p', used, n, h1, _, h2, tc1, h3, preds', tc2, h4, rfl, rfl⟩ := h
    obtain ⟨q, hq, hA⟩ := hs.pools i.pool p hp
    cases hmet with
    | cons hmet hmets =>
    have hqs := hsound _ (List.mem_of_getElem? hq)
    obtain ⟨q', g1, hA', hs', hkind⟩ := zapAdd_run hs.cfg hA hqs a (hmet q hq) h1
    obtain ⟨k1, g3, ht1⟩ := TokenCache.subAll_sim p.tokens used (fun t => (ht t).symm) tc1 h3
    obtain ⟨c', k', g4, ht'⟩ := zapLoop_run c0 now a (c := c.setPool i.pool q') (k := k1)
      (hs.set hq hA' rfl rfl) (by
        intro s hmem
        rcases List.mem_or_eq_of_mem_set hmem with hmem | rfl
        · exact hsound _ hmem
        · exact hs') (fun t => (ht1 t).symm) h4 (hmets.imp fun j r hj s hjs => by
        rw [show (c.setPool i.pool q').pools[j.pool]? = _ from getElem?_set_some hq q' j.pool] at hjs
        split at hjs
        · rename_i e
          cases hjs
          exact hkind j r (hj q (by rw [e]; exact hq))
        · exact hj s hjs)
    refine ⟨c', k', ?_, ht'⟩
    simp only [zapLoop]
    rw [pool_ok.2 hq, ok_bind, g1, ok_bind]
    simp only
    rw [← hA'.assertTvl, ← hA'.env, hs.cfg, h2, ok_bind, ← hA.tokens, g3, ok_bind, g4]

/-- **C73**, `predict_hot_zap`: if the view gives an answer and the demands on the deposits are met by
it, then the transfer of tokens that asks for the zap is accepted, and the sender gets the tokens
that the view reports as left over. The sender needs storage for a record for each of these tokens and
for what the pools come to store. -/
theorem C73_hot_zap {c : Contract} {x : Ctx} {actions : List Action} (hc : c.After x.now)
    (hlt : x.now < 2 ^ 32 * 10 ^ 9) (hl : c.pools.length ≤ 2 ^ 32) (hr : c.cfg.running = true)
    (hp : ∀ a ∈ actions, c.Covered a.pool)
    (hv : ∀ a ∈ actions, ∀ i, (c.volume a.pool i).1 + actions.length * 2 ^ 128 ≤ 2 ^ 256 ∧
      (c.volume a.pool i).2 + actions.length * 2 ^ 128 ≤ 2 ^ 256)
    (hx : x.deposit = 0) {sender : AccountId} {amount : Nat} {referral : Option AccountId}
    {infos : List AddInfo} {preds : List (List Nat × Nat)} {rest : TokenCache}
    (h : c.predictHotZap x.now referral (some sender) x.pred amount actions infos =
      .ok (some (preds, rest)))
    (hmet : List.Forall₂ (fun i r => ∀ p, c.pools[i.pool]? = some p → i.Met p r) infos preds)
    {acc : Account} (ha : c.accounts.get? sender = some acc)
    (hs : acc.storageUsage + x.grew * BYTE_COST + rest.entries.length * RECORD_COST ≤ acc.near)
    (hfit : ∀ t, c.depositOf sender t + rest.getD t 0 < 2 ^ 128) :
    ∃ c', c.exec x (.ftOnTransfer sender amount (.hotZap referral actions infos)) = .ok (c', []) ∧
      ∀ t, c'.depositOf sender t = c.depositOf sender t + rest.getD t 0 := by
  have hdep : ∀ t, c.depositOf sender t = acc.bal t := fun t => by simp only [depositOf, ha]
  unfold predictHotZap at h
  split at h
  · cases h
  rename_i hne
  have hacc : c.account sender = .ok acc := account_ok.2 ha
  simp only [hacc, ok_bind] at h
  obtain ⟨ts, h1, h⟩ := bind_ok.1 h
  obtain ⟨_, h2, h⟩ := bind_ok.1 h
  obtain ⟨_, h3, h⟩ := bind_ok.1 h
  obtain ⟨tc0, h4, h⟩ := bind_ok.1 h
  obtain ⟨prev, h5, h⟩ := bind_ok.1 h
  obtain ⟨⟨pc, tc, res⟩, h6, h⟩ := bind_ok.1 h
  obtain ⟨⟨preds', rest'⟩, h7, h⟩ := bind_ok.1 h
  cases h
  have hb : amount < 2 ^ 128 := TokenCache.add_fits h4
  have h0 : TokenCache.Covers FMap.empty Account.new := fun t => ⟨rfl, Nat.two_pow_pos _⟩
  obtain ⟨virt, hd, hcov, -⟩ := h0.deposit_run h4
  have hpb : ∀ n, prev = some n → n < 2 ^ 128 := by
    rintro n rfl
    split at h5 <;> cases h5
    exact hb
  obtain ⟨c1, acc1, g1, hcov', -, -, hshow, hsound⟩ := runActions_run (r' := c.referralInfo referral)
    (.inl rfl) hcov (hc.ready hlt hl (by
      intro id hid
      obtain ⟨a, ha, rfl⟩ := List.mem_map.1 hid
      exact hp a ha) (by
      intro id hid
      obtain ⟨a, ha, rfl⟩ := List.mem_map.1 hid
      exact hv a ha)) (hc.fair referral) hpb h6
  have hdir : c.directActions x.now referral x.pred amount actions = .ok (c1, acc1.positive) := by
    unfold directActions
    rw [hd, ok_bind]
    refine bind_ok.2 ⟨prev, h5, ?_⟩
    rw [g1, ok_bind]
  obtain ⟨steps, hsw, -⟩ := runActions_ok g1
  obtain ⟨cache, hcache⟩ := TokenCache.addPairs_run (ps := acc1.positive) (m := FMap.empty) fun t => by
    rw [Account.amountIn_positive, ← (hcov' t).1]
    have : FMap.getD (FMap.empty : TokenCache) t 0 = 0 := rfl
    rw [this, Nat.zero_add, (hcov' t).1]
    exact (hcov' t).2
  have hsame : ∀ t, tc.getD t 0 = cache.getD t 0 := fun t => by
    rw [TokenCache.addPairs_ok hcache t, Account.amountIn_positive, (hcov' t).1]
    exact (Nat.zero_add _).symm
  obtain ⟨c2, cache2, g7, hrest⟩ := zapLoop_run c x.now sender hshow hsound hsame h7
    (hmet.imp fun j r hj p hjp => by
      have hlen := hsw.framed.length
      have hq := List.getElem?_eq_getElem (hlen ▸ (List.getElem?_eq_some_iff.1 hjp).1)
      obtain ⟨q, hq', e⟩ := hsw.poolsTo.shape _ _ hq
      rw [hjp] at hq'
      cases hq'
      exact (hj _ hq).of_shape e)
  have hnear : x.grew * BYTE_COST ≤ acc.near :=
    le_trans (le_trans (Nat.le_add_left _ _) (Nat.le_add_right _ _)) hs
  have hleft : acc.storageUsage + rest'.entries.length * RECORD_COST ≤ acc.near - x.grew * BYTE_COST :=
    Nat.le_sub_of_add_le (le_of_eq_of_le (Nat.add_right_comm _ _ _) hs)
  obtain ⟨acc2, hacc2⟩ : ∃ acc2 : Account, acc2 = { acc with near := acc.near - x.grew * BYTE_COST } :=
    ⟨_, rfl⟩
  have hbal2 : ∀ t, acc2.bal t = acc.bal t := fun t => Account.bal_congr (by rw [hacc2]) t
  have htok2 : acc2.tokens = acc.tokens := by rw [hacc2]
  have hrec2 : acc2.recordBytes = acc.recordBytes := by
    unfold Account.recordBytes
    rw [htok2]
  have hnear2 : acc2.near = acc.near - x.grew * BYTE_COST := by rw [hacc2]
  obtain ⟨acc', g8, hbytes⟩ := Account.depositPairs_run (ps := cache2.entries) (a := acc2) fun t => by
    rw [TokenCache.amountIn_entries, ← hrest, hbal2, ← hdep]
    exact hfit t
  obtain ⟨hsm, hbal, -⟩ := Account.depositPairs_ok g8
  have hle := TokenCache.positive_le hrest
  have hsave : c2.saveAccount sender acc' = .ok (c2.putAccount sender acc') := by
    rw [saveAccount_ok]
    refine ⟨?_, rfl⟩
    have hu := Account.usage_mono (a := acc) (b := acc') (k := rest'.entries.length)
      (le_trans hbytes (by rw [hrec2]; exact Nat.add_le_add_left (Nat.mul_le_mul_left _ hle) _))
    rw [hsm.near, hnear2]
    exact le_trans hu hleft
  refine ⟨c2.putAccount sender acc', ?_, fun t => ?_⟩
  · have e : c.hotZap x sender amount referral actions infos = .ok (c2.putAccount sender acc') := by
      unfold hotZap
      rw [assertE_true ⟨fun e => hne (.inl e), fun e => hne (.inr e)⟩, ok_bind, hacc, ok_bind, h1, ok_bind]
      simp only
      rw [h2, ok_bind, h3, ok_bind, hdir, ok_bind]
      simp only
      rw [hcache, ok_bind, g7, ok_bind]
      simp only
      rw [assertE_true hnear, ok_bind, ← hacc2, g8, ok_bind, hsave]
    simp only [exec, ftOnTransfer, Ctx.noDeposit, Config.assertRunning]
    rw [assertE_true hx, ok_bind, assertE_true hr, ok_bind, e, ok_bind]
  · rw [hdep, hrest, ← TokenCache.amountIn_entries cache2, ← hbal2]
    simp only [depositOf, putAccount, FMap.get?_insert_self]
    exact hbal t

open Demo

section Examples

/-- Alice takes 1000 and 5000 out of the stable-swap pool: all conditions are met, and the call
succeeds even if no more shares may be burnt than the view says. -/
example : (c2.predictRemoveByTokens (10 ^ 18) 1 [1000, 5000]).holds (fun n => 0 < n ∧
      n + max (c2.pledgedOf al 1).farm (c2.pledgedOf al 1).burrow ≤ c2.sharesOf 1 al ∧
      (c2.accounts.get? al).any (fun acc =>
        decide (acc.storageUsage + 2 * RECORD_COST ≤ acc.near)) = true ∧
      ([A, B].all fun t => decide (t ∉ c2.cfg.frozen ∧ c2.depositOf al t + 5000 < 2 ^ 128)) = true ∧
      (c2.removeByTokens (y al) 1 [1000, 5000] n).holds (fun s => s.2 = n ∧
        s.1.depositOf al A + s.1.depositOf al B =
          c2.depositOf al A + c2.depositOf al B + 6000) = true) = true := by decide +kernel

/-- Alice zaps 2000 of `A` into both pools, and demands all that the view promises. -/
example : (c2.predictHotZap (10 ^ 18) none (some al) A 2000 [.swap ⟨0, A, some 1000, B, 1⟩]
      [⟨0, [200, 800], none, none⟩, ⟨1, [300, 300], none, none⟩]).holds (fun r => match r with
        | some ([(used, _), (_, n)], rest) => used.length = 2 ∧ 0 < n ∧ 0 < rest.getD A 0 ∧
          (c2.accounts.get? al).any (fun acc =>
            decide (acc.storageUsage + rest.entries.length * RECORD_COST ≤ acc.near)) = true ∧
          ([A, B].all fun t => decide (c2.depositOf al t + rest.getD t 0 < 2 ^ 128)) = true ∧
          (c2.exec (by' A) (.ftOnTransfer al 2000 (.hotZap none [.swap ⟨0, A, some 1000, B, 1⟩]
            [⟨0, [200, 800], some used, none⟩, ⟨1, [300, 300], none, some n⟩]))).holds (fun s =>
              s.1.depositOf al A = c2.depositOf al A + rest.getD A 0 ∧
              s.1.depositOf al B = c2.depositOf al B + rest.getD B 0) = true
        | _ => false) = true := by decide +kernel

end Examples

end Contract

end Verif

import Verif.Exchange.Exit
import Verif.Exchange.TwapLive
import Verif.Exchange.Demo

/-
C70: whoever has deposits or shares can take them out without anybody's help.
-/

namespace Verif
namespace Contract
open Demo

/-- Calls one after the other; the promises they make. -/
def execAll (c : Contract) : List (Ctx × Call) → R (Contract × List Out)
  | [] => .ok (c, [])
  | (x, k) :: l => do
    let (c1, o1) ← c.exec x k
    let (c2, o2) ← c1.execAll l
    .ok (c2, o1 ++ o2)

theorem execAll_cons {c c1 c2 : Contract} {x : Ctx} {k : Call} {l : List (Ctx × Call)}
    {o1 o2 : List Out} (h1 : c.exec x k = .ok (c1, o1)) (h2 : c1.execAll l = .ok (c2, o2)) :
    c.execAll ((x, k) :: l) = .ok (c2, o1 ++ o2) := by
  unfold execAll
  rw [h1]
  simp only [ok_bind]
  rw [h2]
  rfl

/-! ### Deposits -/

/-- C70: while the contract runs and the token is not frozen, whoever has paid for storage can take
out everything of a token: it is sent to them, and their record of it is closed. -/
theorem C70_withdraw {c : Contract} {x : Ctx} {t : AccountId} (skip : Option Bool) {acc : Account}
    (hx : x.deposit = 1) (hr : c.cfg.running = true) (hf : t ∉ c.cfg.frozen)
    (ha : c.accounts.get? x.pred = some acc) (hc : acc.Covered) (h0 : 0 < c.depositOf x.pred t) :
    ∃ c', c.exec x (.withdraw t 0 true skip) =
        .ok (c', [c.sendTokens x.pred t (c.depositOf x.pred t) skip]) ∧
      (∀ u, c'.depositOf x.pred u = if u = t then 0 else c.depositOf x.pred u) ∧
      c'.cfg = c.cfg ∧ c'.pools = c.pools ∧ c'.lostfound = c.lostfound ∧
      ∃ acc', c'.accounts.get? x.pred = some acc' ∧ acc'.Covered := by
  have hb : c.depositOf x.pred t = acc.bal t := by unfold depositOf; rw [ha]
  rw [hb] at h0 ⊢
  obtain ⟨b, b', h1, h2, h3, h4, h5, h6, h7⟩ := Account.takeAll_run h0
  have hcov : b'.storageUsage ≤ b'.near := by
    have := Account.usage_mono (k := 0) (show b'.recordBytes ≤ acc.recordBytes + 148 * 0 by omega)
    unfold Account.Covered at hc
    rw [h4]
    omega
  refine ⟨c.putAccount x.pred b', ?_, ?_, rfl, rfl, rfl, b', ?_, hcov⟩
  · simp only [exec, withdraw, Ctx.oneYocto, Config.assertRunning, Config.assertNoFrozen]
    have hbal : acc.balance? t = some (acc.bal t) := by
      unfold Account.bal at h0 ⊢
      cases hg : acc.balance? t with
      | none => rw [hg] at h0; simp at h0
      | some v => rfl
    rw [(assertE_ok (u := ())).2 hx, ok_bind, (assertE_ok (u := ())).2 hr, ok_bind,
      (assertE_ok (u := ())).2 (by simpa using hf), ok_bind, account_ok.2 ha, ok_bind]
    simp only [if_true, hbal, expectE, ok_bind]
    rw [(assertE_ok (u := ())).2 h0, ok_bind, h1, ok_bind]
    unfold unregisterIf
    rw [if_pos rfl, h2, ok_bind, saveAccount_ok.2 ⟨hcov, rfl⟩, ok_bind]
    rfl
  · intro u
    simp only [depositOf, putAccount, FMap.get?_insert_self, ha]
    exact h6 u
  · exact FMap.get?_insert_self _ _ _

/-- C70: they can also take out any part of it, unless the record has the form of the first version
(`C67_partial_withdrawal_blocked`). -/
theorem C70_withdraw_part {c : Contract} {x : Ctx} {t : AccountId} {n : Nat} (skip : Option Bool)
    {acc : Account} {s : Slot} (hx : x.deposit = 1) (hr : c.cfg.running = true)
    (hf : t ∉ c.cfg.frozen) (ha : c.accounts.get? x.pred = some acc) (hc : acc.Covered)
    (hs : acc.tokens.get? t = some s) (hl : s.legacy = false) (h0 : 0 < n)
    (hn : n ≤ c.depositOf x.pred t) :
    ∃ c', c.exec x (.withdraw t n false skip) = .ok (c', [c.sendTokens x.pred t n skip]) ∧
      c'.depositOf x.pred t + n = c.depositOf x.pred t := by
  have hb : c.depositOf x.pred t = acc.bal t := by unfold depositOf; rw [ha]
  rw [hb] at hn ⊢
  obtain ⟨b, h1, h2⟩ := Account.take_run hs hl h0 hn
  obtain ⟨hsame, -, h3, -⟩ := Account.withdraw_ok h1
  have hcov : b.storageUsage ≤ b.near := by
    have := Account.usage_mono (k := 0) (show b.recordBytes ≤ acc.recordBytes + 148 * 0 by omega)
    unfold Account.Covered at hc
    rw [hsame.near]
    omega
  refine ⟨c.putAccount x.pred b, ?_, ?_⟩
  · simp only [exec, withdraw, Ctx.oneYocto, Config.assertRunning, Config.assertNoFrozen]
    rw [(assertE_ok (u := ())).2 hx, ok_bind, (assertE_ok (u := ())).2 hr, ok_bind,
      (assertE_ok (u := ())).2 (by simpa using hf), ok_bind, account_ok.2 ha, ok_bind]
    rw [if_neg (show ¬ n = 0 by omega)]
    simp only [ok_bind]
    rw [(assertE_ok (u := ())).2 h0, ok_bind, h1, ok_bind]
    rw [show unregisterIf false b t = .ok b from rfl, ok_bind, saveAccount_ok.2 ⟨hcov, rfl⟩, ok_bind]
    rfl
  · have := h3 t
    simp only [depositOf, putAccount, FMap.get?_insert_self]
    simpa using this

/-- C70, over histories: an account that was never the owner can take out any of its tokens. -/
theorem C70_withdraw_always {c0 : Contract} {self owner farm burrow : AccountId} {fee ref : Nat}
    (hi : init self owner farm burrow fee ref = .ok c0) (es : List Event) {x : Ctx} {t : AccountId}
    (hn : NeverOwner x.pred c0 es) (skip : Option Bool) (hx : x.deposit = 1)
    (hr : (c0.run es).cfg.running = true) (hf : t ∉ (c0.run es).cfg.frozen)
    (h0 : 0 < (c0.run es).depositOf x.pred t) :
    ∃ c', (c0.run es).exec x (.withdraw t 0 true skip) =
      .ok (c', [(c0.run es).sendTokens x.pred t ((c0.run es).depositOf x.pred t) skip]) := by
  cases ha : (c0.run es).accounts.get? x.pred with
  | none => unfold depositOf at h0; rw [ha] at h0; simp at h0
  | some acc =>
    obtain ⟨c', h, -⟩ := C70_withdraw skip hx hr hf ha (C23_history hi es hn ha) h0
    exact ⟨c', h⟩

/-- Several tokens one after the other. -/
theorem withdrawals_run {x : Ctx} (hx : x.deposit = 1) (skip : Option Bool) {ts : List AccountId}
    {c : Contract} {acc : Account} (hr : c.cfg.running = true) (hf : ∀ t ∈ ts, t ∉ c.cfg.frozen)
    (hn : ts.Nodup) (h0 : ∀ t ∈ ts, 0 < c.depositOf x.pred t)
    (ha : c.accounts.get? x.pred = some acc) (hc : acc.Covered) :
    ∃ c', c.execAll (ts.map fun t => (x, .withdraw t 0 true skip)) =
      .ok (c', ts.map fun t => c.sendTokens x.pred t (c.depositOf x.pred t) skip) ∧
      ∀ t, c'.depositOf x.pred t = if t ∈ ts then 0 else c.depositOf x.pred t := by
  induction ts generalizing c acc with
  | nil => exact ⟨c, rfl, by simp⟩
  | cons t ts ih =>
    obtain ⟨c1, h1, h2, h3, h4, h5, acc1, h6, h7⟩ := C70_withdraw skip hx hr
      (hf t List.mem_cons_self) ha hc (h0 t List.mem_cons_self)
    have hnt := (List.nodup_cons.1 hn).1
    have hne : ∀ u ∈ ts, u ≠ t := fun u hu e => hnt (e ▸ hu)
    have heq : ∀ u ∈ ts, c1.depositOf x.pred u = c.depositOf x.pred u := fun u hu => by
      rw [h2, if_neg (hne u hu)]
    obtain ⟨c2, h8, h9⟩ := ih (c := c1) (by rw [h3]; exact hr)
      (fun u hu => by rw [h3]; exact hf u (List.mem_cons_of_mem _ hu)) (List.nodup_cons.1 hn).2
      (fun u hu => by rw [heq u hu]; exact h0 u (List.mem_cons_of_mem _ hu)) h6 h7
    refine ⟨c2, ?_, ?_⟩
    · rw [List.map_cons, execAll_cons h1 h8, List.map_cons]
      have : (ts.map fun u => c1.sendTokens x.pred u (c1.depositOf x.pred u) skip) =
          ts.map fun u => c.sendTokens x.pred u (c.depositOf x.pred u) skip := by
        apply List.map_congr_left
        intro u hu
        rw [heq u hu]
        unfold sendTokens
        rw [h3]
      rw [this]
      rfl
    · intro u
      rw [h9]
      by_cases hu : u ∈ ts
      · simp [hu]
      · rw [if_neg hu, h2]
        by_cases hut : u = t
        · simp [hut]
        · simp [hut, hu]

/-! ### Shares -/

/-- C70: shares that are not pledged can be redeemed for what `predict_remove_liquidity` reports, if
the storage deposit covers a record for every token of the pool. -/
theorem C70_remove {c : Contract} {x : Ctx} {id n : Nat} {p : Pool} {paid : List Nat} {acc : Account}
    (hc : c.Reachable) (hx : x.deposit = 1) (hr : c.cfg.running = true)
    (hp : c.pools[id]? = some p) (hf : ∀ t ∈ p.tokens, t ∉ c.cfg.frozen)
    (hook : (c.twapHook x.now id).isOk = true) (hv : c.predictRemove id n = .ok paid) (h0 : 0 < n)
    (hn : n + max (c.pledgedOf x.pred id).farm (c.pledgedOf x.pred id).burrow ≤ c.sharesOf id x.pred)
    (ha : c.accounts.get? x.pred = some acc)
    (hs : acc.storageUsage + p.tokens.length * RECORD_COST ≤ acc.near)
    (hfit : ∀ t ∈ p.tokens, c.depositOf x.pred t + flow p.tokens paid t < 2 ^ 128) :
    ∃ c', c.exec x (.removeLiquidity id n (p.tokens.map fun _ => 0)) = .ok (c', []) ∧
      (∀ t, c'.depositOf x.pred t = c.depositOf x.pred t + flow p.tokens paid t) ∧
      c'.sharesOf id x.pred + n = c.sharesOf id x.pred ∧ c'.cfg = c.cfg ∧
      ∃ acc', c'.accounts.get? x.pred = some acc' ∧ acc'.Covered := by
  unfold predictRemove at hv
  rw [pool_ok.2 hp, ok_bind] at hv
  unpack at hv
  obtain ⟨p', paid', hv, rfl⟩ := hv
  have hsh : c.sharesOf id x.pred = p.shareBalance x.pred := by unfold sharesOf; rw [hp]
  have hpl : c.pledgedOf x.pred id = acc.pledged id := by unfold pledgedOf; rw [ha]
  have hdep : ∀ t, c.depositOf x.pred t = acc.bal t := fun t => by unfold depositOf; rw [ha]
  rw [hsh, hpl] at hn
  obtain ⟨q, hq⟩ := Pool.remove_run (a := x.pred) hv h0 (by omega)
  have hval := Pool.removal_valid (hc.sound p (List.mem_of_getElem? hp)) hq
  have htok : q.tokens = p.tokens :=
    Pool.tokens_of_shape (Pool.removeLiquidity_shape hq).1
  obtain ⟨acc', h1, h2⟩ := Account.depositAll_run (a := acc) (ts := p.tokens) (ns := paid') hval.1
    (fun t ht => by rw [← hdep]; exact hfit t ht)
  obtain ⟨hsame, hbal, -⟩ := Account.depositAll_ok h1
  have hcov : acc'.storageUsage ≤ acc'.near := by
    have := Account.usage_mono (k := p.tokens.length) h2
    rw [hsame.near]
    omega
  obtain ⟨c1, hh⟩ : ∃ c1, c.twapHook x.now id = .ok c1 := by
    cases hk : c.twapHook x.now id with
    | error e => rw [hk] at hook; cases hook
    | ok c1 => exact ⟨c1, rfl⟩
  obtain ⟨tw, rfl⟩ := twapHook_ok hh
  have hsave : (({ c with twaps := tw } : Contract).setPool id q).saveAccount x.pred acc' =
      .ok ((({ c with twaps := tw } : Contract).setPool id q).putAccount x.pred acc') :=
    saveAccount_ok.2 ⟨hcov, rfl⟩
  refine ⟨(({ c with twaps := tw } : Contract).setPool id q).putAccount x.pred acc', ?_, ?_, ?_, rfl,
    acc', FMap.get?_insert_self _ _ _, hcov⟩
  · have : c.removeLiquidity x id n (p.tokens.map fun _ => 0) =
        .ok ((({ c with twaps := tw } : Contract).setPool id q).putAccount x.pred acc', paid') := by
      unfold removeLiquidity Ctx.oneYocto Config.assertRunning Config.assertNoFrozen
      rw [(assertE_ok (u := ())).2 hx, ok_bind, (assertE_ok (u := ())).2 hr, ok_bind, hh, ok_bind,
        pool_ok.2 (show ({ c with twaps := tw } : Contract).pools[id]? = some p from hp), ok_bind,
        account_ok.2 (show ({ c with twaps := tw } : Contract).accounts.get? x.pred = some acc from ha),
        ok_bind]
      rw [Account.pledged_def] at hn
      cases hg : acc.shadow.get? id with
      | none =>
        simp only [ok_bind]
        rw [(assertE_ok (u := ())).2 hf, ok_bind, hq]
        simp only [ok_bind]
        rw [htok, h1, ok_bind, hsave, ok_bind]
      | some r =>
        rw [hg] at hn
        simp only [Option.getD_some] at hn
        simp only [ShadowRecord.freeShares]
        rw [subW_ok.2 ⟨by omega, rfl⟩, ok_bind, (assertE_ok (u := ())).2 (by omega), ok_bind,
          (assertE_ok (u := ())).2 hf, ok_bind, hq]
        simp only [ok_bind]
        rw [htok, h1, ok_bind, hsave, ok_bind]
    simp only [exec]
    rw [this]
    rfl
  · intro t
    rw [hdep]
    simp only [depositOf, putAccount, FMap.get?_insert_self]
    exact hbal t
  · rw [hsh, ← (Pool.removeLiquidity_shares hq).1]
    unfold sharesOf
    rw [show ((({ c with twaps := tw } : Contract).setPool id q).putAccount x.pred acc').pools[id]? =
      some q from (getElem?_set_some hp q id).trans (if_pos rfl)]

/-- C70: `predict_remove_liquidity` never fails for a pool of two tokens: any part of the shares
redeems that part of both reserves, rounded down. -/
theorem C70_simple {c : Contract} {id n : Nat} {p : SimplePool} (hc : c.Reachable)
    (hp : c.pools[id]? = some (.simple p)) (h0 : 0 < n) (hn : n ≤ p.supply) :
    c.predictRemove id n = .ok [p.amt0 * n / p.supply, p.amt1 * n / p.supply] := by
  have hs := (hc.sound _ (List.mem_of_getElem? hp)).1
  have hfit : ∀ r : Nat, r < 2 ^ 128 → SimplePool.payOut r n p.supply 0 = .ok (r * n / p.supply, r - r * n / p.supply) := by
    intro r hr
    have hle : r * n / p.supply ≤ r := by
      refine Nat.div_le_of_le_mul ?_
      rw [Nat.mul_comm p.supply]
      exact Nat.mul_le_mul_left _ hn
    have hlt : r * n < 2 ^ 256 := by
      have : n < 2 ^ 128 := lt_of_le_of_lt hn hs.supply
      calc r * n < 2 ^ 128 * 2 ^ 128 := Nat.mul_lt_mul'' hr this
        _ = 2 ^ 256 := by norm_num
    unfold SimplePool.payOut
    rw [mulW_ok.2 ⟨hlt, rfl⟩, ok_bind, divW_ok.2 ⟨by omega, rfl⟩, ok_bind,
      fit_ok.2 ⟨lt_of_le_of_lt hle hr, rfl⟩, ok_bind, (assertE_ok (u := ())).2 (Nat.zero_le _), ok_bind,
      subW_ok.2 ⟨hle, rfl⟩, ok_bind]
  unfold predictRemove
  rw [pool_ok.2 hp, ok_bind]
  simp only [Pool.removeLiquidity, Pool.tokens, List.map_cons, List.map_nil, SimplePool.removeLiquidity,
    if_true, ok_bind]
  rw [hfit _ hs.amt0]
  simp only [ok_bind]
  rw [hfit _ hs.amt1]
  simp only [ok_bind]
  rw [subW_ok.2 ⟨hn, rfl⟩]
  rfl

/-- An amount in the pool's units, in units of a token with `d` decimals. -/
def inUnits (k : CurveKind) (d q : Nat) : Nat :=
  if d ≤ k.target then q / 10 ^ (k.target - d) else q * 10 ^ (d - k.target)

theorem _root_.Verif.CurvePool.removeLoop_run {k : CurveKind} {n supply : Nat} (hn : n ≤ supply)
    (hs : supply < 2 ^ 128) (h0 : 0 < n) : ∀ {cs ds : List Nat}, ds.length = cs.length →
    (∀ c ∈ cs, c < 2 ^ 128 ∧ k.minReserve ≤ c - c * n / supply) →
    (∀ (i c d : Nat), cs[i]? = some c → ds[i]? = some d →
      d ≤ k.target ∨ k = .stable ∧ c * 10 ^ (d - k.target) < 2 ^ 128) →
    CurvePool.removeLoop k n supply cs ds (cs.map fun _ => 0) =
      .ok (cs.map fun c => c - c * n / supply,
        List.zipWith (fun c d => inUnits k d (c * n / supply)) cs ds)
  | [], ds, _, _, _ => by cases ds <;> rfl
  | c :: cs, [], hl, _, _ => by simp at hl
  | c :: cs, d :: ds, hl, hc, hd => by
    obtain ⟨h1, h2⟩ := hc c List.mem_cons_self
    have hle : c * n / supply ≤ c := by
      refine Nat.div_le_of_le_mul ?_
      rw [Nat.mul_comm supply]
      exact Nat.mul_le_mul_left _ hn
    have hlt : c * n < 2 ^ 256 := by
      have : n < 2 ^ 128 := lt_of_le_of_lt hn hs
      calc c * n < 2 ^ 128 * 2 ^ 128 := Nat.mul_lt_mul'' h1 this
        _ = 2 ^ 256 := by norm_num
    have hto : CurvePool.cToAmount k d (c * n / supply) = .ok (inUnits k d (c * n / supply)) := by
      unfold CurvePool.cToAmount inUnits
      by_cases h : d ≤ k.target
      · rw [if_pos h, if_pos h]
        exact divW_ok.2 ⟨by positivity, rfl⟩
      · rw [if_neg h, if_neg h]
        rcases hd 0 c d rfl rfl with h' | ⟨rfl, h'⟩
        · exact absurd h' h
        · exact mulW_ok.2 ⟨lt_of_le_of_lt (Nat.mul_le_mul_right _ hle) h', rfl⟩
    have ih := removeLoop_run (k := k) hn hs h0 (cs := cs) (ds := ds) (by simpa using hl)
      (fun c h => hc c (List.mem_cons_of_mem _ h)) (fun i c d h h' => hd (i + 1) c d h h')
    rw [List.map_cons]
    unfold CurvePool.removeLoop
    rw [mulW_ok.2 ⟨hlt, rfl⟩, ok_bind, divW_ok.2 ⟨by omega, rfl⟩, ok_bind,
      fit_ok.2 ⟨lt_of_le_of_lt hle h1, rfl⟩, ok_bind, subW_ok.2 ⟨hle, rfl⟩, ok_bind,
      (assertE_ok (u := ())).2 h2, ok_bind, hto, ok_bind, (assertE_ok (u := ())).2 (Nat.zero_le _), ok_bind,
      ih]
    rfl

/-- C70: for the other pools, `predict_remove_liquidity` succeeds if every reserve stays above the
minimum and the amounts fit, which can fail only for tokens with more decimals than the pool uses. -/
theorem C70_curve {c : Contract} {id n : Nat} {p : CurvePool} (hc : c.Reachable)
    (hp : c.pools[id]? = some (.curve p)) (h0 : 0 < n) (hn : n ≤ p.supply)
    (hmin : ∀ r ∈ p.cAmts, p.kind.minReserve ≤ r - r * n / p.supply)
    (hdec : ∀ (i r d : Nat), p.cAmts[i]? = some r → p.decs[i]? = some d →
      d ≤ p.kind.target ∨ p.kind = .stable ∧ r * 10 ^ (d - p.kind.target) < 2 ^ 128) :
    c.predictRemove id n =
      .ok (List.zipWith (fun r d => inUnits p.kind d (r * n / p.supply)) p.cAmts p.decs) := by
  have hs := (hc.sound _ (List.mem_of_getElem? hp)).1
  have hmap : (p.toks.map fun _ => 0) = p.cAmts.map fun _ => 0 := by
    rw [List.map_const', List.map_const', hs.len]
  have e : p.removeByShares VIEW n (p.toks.map fun _ => 0) true =
      .ok ({ p with cAmts := p.cAmts.map fun r => r - r * n / p.supply, supply := p.supply - n },
        List.zipWith (fun r d => inUnits p.kind d (r * n / p.supply)) p.cAmts p.decs) := by
    unfold CurvePool.removeByShares
    rw [(assertE_ok (u := ())).2 (by simp), ok_bind, if_pos rfl, ok_bind, hmap,
      CurvePool.removeLoop_run hn hs.supply h0 (hs.decs.trans hs.len.symm)
        (fun r hr => ⟨hs.fit r hr, hmin r hr⟩) hdec]
    simp only [ok_bind]
    rw [subW_ok.2 ⟨hn, rfl⟩, ok_bind]
  unfold predictRemove Pool.removeLiquidity
  rw [pool_ok.2 hp, ok_bind]
  simp only [Pool.tokens]
  rw [e]
  rfl

/-- `storage_deposit` by the user themselves. -/
theorem storageDeposit_run {c : Contract} {x : Ctx} (hr : c.cfg.running = true)
    (hk : Account.minStorageUsage ≤ x.deposit ∨ ∃ acc, c.accounts.get? x.pred = some acc)
    (hcov : (c.accountOrNew x.pred).storageUsage ≤ (c.accountOrNew x.pred).near + x.deposit)
    (hlt : (c.accountOrNew x.pred).near + x.deposit < 2 ^ 128) :
    c.exec x (.storageDeposit none false) = .ok (c.putAccount x.pred
      { c.accountOrNew x.pred with near := (c.accountOrNew x.pred).near + x.deposit }, []) := by
  simp only [exec, storageDeposit, Config.assertRunning, registerAccount, Option.getD_none]
  rw [(assertE_ok (u := ())).2 hr, ok_bind, (assertE_ok (u := ())).2 (by
    rintro ⟨h1, h2⟩
    rcases hk with h | ⟨acc, h⟩
    · omega
    · simp [FMap.contains, h] at h2), ok_bind]
  rw [if_neg (by simp), addW_ok.2 ⟨hlt, rfl⟩, ok_bind, saveAccount_ok.2 ⟨hcov, rfl⟩]
  rfl

theorem twapHook_put (c : Contract) (a : AccountId) (acc : Account) (now id : Nat) :
    ((c.putAccount a acc).twapHook now id).isOk = (c.twapHook now id).isOk := by
  unfold twapHook
  rw [show (c.putAccount a acc).twaps = c.twaps from rfl,
    show (c.putAccount a acc).pool id = c.pool id from rfl,
    show (c.putAccount a acc).cfg = c.cfg from rfl]
  cases c.twaps.get? id with
  | none => rfl
  | some u =>
    simp only
    cases c.pool id with
    | error e => rfl
    | ok p =>
      simp only [ok_bind]
      cases p.unitShare with
      | error e => rfl
      | ok o =>
        simp only [ok_bind]
        cases o with
        | none => rfl
        | some as =>
          simp only
          cases u.update (nanoToSec now) as c.cfg.recordInterval <;> rfl

/-- C70: whoever holds shares that are not pledged can leave without anybody's help, even without an
account: they pay for storage, redeem the shares and take out all tokens of the pool. They are sent
what the shares redeem and what they had deposited before. -/
theorem C70_leave {c : Contract} {x : Ctx} {id n d : Nat} {p : Pool} {paid : List Nat}
    (hc : c.Reachable) (hr : c.cfg.running = true) (hp : c.pools[id]? = some p)
    (hf : ∀ t ∈ p.tokens, t ∉ c.cfg.frozen) (hook : (c.twapHook x.now id).isOk = true)
    (hv : c.predictRemove id n = .ok paid) (h0 : 0 < n)
    (hn : n + max (c.pledgedOf x.pred id).farm (c.pledgedOf x.pred id).burrow ≤ c.sharesOf id x.pred)
    (hk : Account.minStorageUsage ≤ d ∨ ∃ acc, c.accounts.get? x.pred = some acc)
    (hd : (c.accountOrNew x.pred).storageUsage + p.tokens.length * RECORD_COST ≤
      (c.accountOrNew x.pred).near + d)
    (hlt : (c.accountOrNew x.pred).near + d < 2 ^ 128)
    (hfit : ∀ t ∈ p.tokens, c.depositOf x.pred t + flow p.tokens paid t < 2 ^ 128) (skip : Option Bool) :
    ∃ c', c.execAll (({ x with deposit := d }, .storageDeposit none false) ::
        ({ x with deposit := 1 }, .removeLiquidity id n (p.tokens.map fun _ => 0)) ::
        (p.tokens.filter fun t => 0 < c.depositOf x.pred t + flow p.tokens paid t).map
          fun t => ({ x with deposit := 1 }, .withdraw t 0 true skip)) =
      .ok (c', (p.tokens.filter fun t => 0 < c.depositOf x.pred t + flow p.tokens paid t).map
        fun t => c.sendTokens x.pred t (c.depositOf x.pred t + flow p.tokens paid t) skip) ∧
      ∀ t ∈ p.tokens, c'.depositOf x.pred t = 0 := by
  have e1 := storageDeposit_run (c := c) (x := { x with deposit := d }) hr hk
    (by show (c.accountOrNew x.pred).storageUsage ≤ (c.accountOrNew x.pred).near + d; omega) hlt
  simp only at e1
  generalize hacc : ({ c.accountOrNew x.pred with near := (c.accountOrNew x.pred).near + d } : Account) =
    acc at e1
  have hget : (c.putAccount x.pred acc).accounts.get? x.pred = some acc := FMap.get?_insert_self _ _ _
  have hbal : ∀ t, (c.putAccount x.pred acc).depositOf x.pred t = c.depositOf x.pred t := by
    intro t
    unfold depositOf
    rw [hget, ← hacc]
    unfold accountOrNew
    cases c.accounts.get? x.pred <;> rfl
  have hpl : (c.putAccount x.pred acc).pledgedOf x.pred id = c.pledgedOf x.pred id := by
    unfold pledgedOf
    rw [hget, ← hacc]
    unfold accountOrNew
    cases c.accounts.get? x.pred <;> rfl
  have hreach : (c.putAccount x.pred acc).Reachable := by
    have := hc.step (.call { x with deposit := d } (.storageDeposit none false))
    unfold Contract.step at this
    rw [show c.apply (.call { x with deposit := d } (.storageDeposit none false)) = _ from e1] at this
    exact this
  have hhook := (twapHook_put c x.pred acc x.now id).trans hook
  obtain ⟨c2, e2, hdep, -, hcfg, acc2, ha2, hc2⟩ := C70_remove (c := c.putAccount x.pred acc)
    (x := { x with deposit := 1 }) (n := n) (paid := paid) (acc := acc) hreach rfl hr hp hf hhook hv h0
    (by rw [hpl]; exact hn) hget
    (by rw [← hacc]; exact hd) (fun t ht => by rw [hbal]; exact hfit t ht)
  have hnod := (hc.sound p (List.mem_of_getElem? hp)).nodup
  have hsum : ∀ t, c2.depositOf x.pred t = c.depositOf x.pred t + flow p.tokens paid t := fun t => by
    rw [hdep t, hbal]
  obtain ⟨c3, e3, h3⟩ := withdrawals_run (x := { x with deposit := 1 }) rfl skip
    (ts := p.tokens.filter fun t => 0 < c.depositOf x.pred t + flow p.tokens paid t) (c := c2) (acc := acc2)
    (by rw [hcfg]; exact hr)
    (fun t ht => by rw [hcfg]; exact hf t (List.mem_of_mem_filter ht))
    (hnod.filter _)
    (fun t ht => by
      rw [hsum]
      simpa using (List.mem_filter.1 ht).2) ha2 hc2
  refine ⟨c3, ?_, ?_⟩
  · rw [execAll_cons e1 (execAll_cons e2 e3)]
    simp only [List.nil_append]
    congr 2
    apply List.map_congr_left
    intro t _
    rw [hsum]
    unfold sendTokens
    rw [hcfg]
    rfl
  · intro t ht
    rw [h3]
    split
    · rfl
    · rename_i hne
      rw [hsum]
      rw [List.mem_filter] at hne
      have : ¬ 0 < c.depositOf x.pred t + flow p.tokens paid t := fun h => hne ⟨ht, by simpa using h⟩
      omega

/-! ### Samples for the averages -/

/-- C70: a pool of two tokens is never stopped by the sample that is taken before each of its changes,
in no history in which time does not run backwards. -/
theorem C70_sampling {c0 : Contract} {self owner farm burrow : AccountId} {fee ref : Nat}
    (hi : init self owner farm burrow fee ref = .ok c0) {h : History} (ho : h.Ordered) {now : Nat}
    (hT : ∀ e ∈ h, e.1 ≤ now) (hlt : now < 2 ^ 32 * 10 ^ 9) {id : Nat} {p : SimplePool}
    (hp : (c0.run h.events).pools[id]? = some (.simple p)) :
    ((c0.run h.events).twapHook now id).isOk = true := by
  have hr : c0.Reachable := ⟨self, owner, farm, burrow, fee, ref, c0, [], hi, rfl⟩
  have ht : c0.twaps = FMap.empty := by
    unfold init at hi
    unpack at hi
    obtain ⟨-, rfl⟩ := hi
    rfl
  obtain ⟨c', h1⟩ := hook_run (id := id) hr ht ho hT hlt (by
    unfold unit
    rw [pool_ok.2 hp, ok_bind, Pool.unitShare_eq]
    split
    · rename_i hs
      have hv := C70_simple (n := 10 ^ (Pool.simple p).shareDecimal) (hr.run h.events) hp
        (Nat.pow_pos (by omega)) (le_of_lt hs)
      unfold predictRemove at hv
      rw [pool_ok.2 hp, ok_bind] at hv
      unpack at hv
      obtain ⟨q, v, hv, -⟩ := hv
      rw [show "@view".toList = VIEW from rfl, hv]
      exact ⟨_, rfl⟩
    · exact ⟨_, rfl⟩)
  rw [h1]
  rfl

/-- C70: after any history, whoever holds free shares of a pool of two tokens can leave it with a
storage payment and their part of both reserves, as long as the contract runs and none of the two
tokens is frozen. -/
theorem C70_leave_simple {c0 : Contract} {self owner farm burrow : AccountId} {fee ref : Nat}
    (hi : init self owner farm burrow fee ref = .ok c0) {h : History} (ho : h.Ordered) {x : Ctx}
    (hT : ∀ e ∈ h, e.1 ≤ x.now) (hlt : x.now < 2 ^ 32 * 10 ^ 9) {c : Contract}
    (hc : c = c0.run h.events) {id n d : Nat} {p : SimplePool}
    (hp : c.pools[id]? = some (.simple p)) (hr : c.cfg.running = true)
    (hf : p.tok0 ∉ c.cfg.frozen ∧ p.tok1 ∉ c.cfg.frozen) (h0 : 0 < n)
    (hn : n + max (c.pledgedOf x.pred id).farm (c.pledgedOf x.pred id).burrow ≤ c.sharesOf id x.pred)
    (hk : Account.minStorageUsage ≤ d ∨ ∃ acc, c.accounts.get? x.pred = some acc)
    (hd : (c.accountOrNew x.pred).storageUsage + 2 * RECORD_COST ≤ (c.accountOrNew x.pred).near + d)
    (hcap : (c.accountOrNew x.pred).near + d < 2 ^ 128)
    (hfit : c.depositOf x.pred p.tok0 + p.amt0 < 2 ^ 128 ∧ c.depositOf x.pred p.tok1 + p.amt1 < 2 ^ 128)
    (skip : Option Bool) :
    ∃ c' calls outs, c.execAll calls = .ok (c', outs) ∧ (∀ k ∈ calls, k.1.pred = x.pred) ∧
      c'.depositOf x.pred p.tok0 = 0 ∧ c'.depositOf x.pred p.tok1 = 0 ∧
      (∀ t a, (t, a) ∈ [(p.tok0, p.amt0 * n / p.supply), (p.tok1, p.amt1 * n / p.supply)] →
        0 < c.depositOf x.pred t + a →
        c.sendTokens x.pred t (c.depositOf x.pred t + a) skip ∈ outs) := by
  have hreach : c.Reachable := hc ▸ ⟨self, owner, farm, burrow, fee, ref, c0, h.events, hi, rfl⟩
  have hs := (hreach.sound _ (List.mem_of_getElem? hp)).1
  have hnod := (hreach.sound _ (List.mem_of_getElem? hp)).nodup
  have hle : n ≤ p.supply := by
    refine le_trans (le_trans (Nat.le_add_right _ _) hn) ?_
    unfold sharesOf
    rw [hp, hs.sum]
    exact getD_le_sumVals _ _
  have hq : ∀ r, r * n / p.supply ≤ r := fun r => by
    refine Nat.div_le_of_le_mul ?_
    rw [Nat.mul_comm p.supply]
    exact Nat.mul_le_mul_left _ hle
  have hne : p.tok0 ≠ p.tok1 := by
    simp only [Pool.tokens, List.nodup_cons, List.mem_singleton] at hnod
    exact hnod.1
  have hfl0 : ∀ v0 v1, flow (Pool.simple p).tokens [v0, v1] p.tok0 = v0 := by
    intro v0 v1
    simp [Pool.tokens, flow, hne.symm]
  have hfl1 : ∀ v0 v1, flow (Pool.simple p).tokens [v0, v1] p.tok1 = v1 := by
    intro v0 v1
    simp [Pool.tokens, flow, hne]
  obtain ⟨c', he, hz⟩ := C70_leave hreach hr hp
    (by
      intro t ht
      simp only [Pool.tokens, List.mem_cons, List.not_mem_nil, or_false] at ht
      rcases ht with rfl | rfl
      · exact hf.1
      · exact hf.2)
    (by rw [hc] at hp ⊢; exact C70_sampling hi ho hT hlt hp)
    (C70_simple hreach hp h0 hle) h0 hn hk hd hcap
    (by
      intro t ht
      simp only [Pool.tokens, List.mem_cons, List.not_mem_nil, or_false] at ht
      rcases ht with rfl | rfl
      · rw [hfl0]
        exact lt_of_le_of_lt (Nat.add_le_add_left (hq _) _) hfit.1
      · rw [hfl1]
        exact lt_of_le_of_lt (Nat.add_le_add_left (hq _) _) hfit.2) skip
  refine ⟨c', _, _, he, ?_, hz _ (by simp [Pool.tokens]), hz _ (by simp [Pool.tokens]), ?_⟩
  · intro k hk
    simp only [List.mem_cons, List.mem_map] at hk
    rcases hk with rfl | rfl | ⟨t, -, rfl⟩ <;> rfl
  · intro t a hm hpos
    simp only [List.mem_cons, List.not_mem_nil, or_false, Prod.mk.injEq] at hm
    rw [List.mem_map]
    rcases hm with ⟨rfl, rfl⟩ | ⟨rfl, rfl⟩
    · refine ⟨p.tok0, List.mem_filter.2 ⟨by simp [Pool.tokens], ?_⟩, ?_⟩
      · rw [hfl0]; simpa using hpos
      · rw [hfl0]
    · refine ⟨p.tok1, List.mem_filter.2 ⟨by simp [Pool.tokens], ?_⟩, ?_⟩
      · rw [hfl1]; simpa using hpos
      · rw [hfl1]

/-- A sample that fails stops all swaps and changes of liquidity. -/
theorem stuck {c : Contract} {id : Nat} (h : ∀ now c', c.twapHook now id ≠ .ok c') :
    (∀ x n mins r, c.exec x (.removeLiquidity id n mins) ≠ .ok r) ∧
      (∀ x as m r, c.exec x (.removeByTokens id as m) ≠ .ok r) ∧
      (∀ x as m r, c.exec x (.addStableLiquidity id as m) ≠ .ok r) ∧
      (∀ x ti a tout m ref r, c.exec x (.executeActions [.swap ⟨id, ti, a, tout, m⟩] ref) ≠ .ok r) := by
  refine ⟨?_, ?_, ?_, ?_⟩
  · intro x n mins r he
    simp only [exec] at he
    unpack at he
    obtain ⟨_, _, he, -⟩ := he
    unfold removeLiquidity at he
    unpack at he
    obtain ⟨_, -, _, -, c1, hh, -⟩ := he
    exact h _ _ hh
  · intro x n mins r he
    simp only [exec] at he
    unpack at he
    obtain ⟨_, _, he, -⟩ := he
    unfold removeByTokens at he
    unpack at he
    obtain ⟨_, -, _, -, c1, hh, -⟩ := he
    exact h _ _ hh
  · intro x n mins r he
    simp only [exec] at he
    unpack at he
    obtain ⟨_, _, _, he, -⟩ := he
    unfold addStableLiquidity at he
    unpack at he
    obtain ⟨_, -, -, c1, hh, -⟩ := he
    exact h _ _ hh
  · intro x ti a tout m ref r he
    simp only [exec] at he
    unpack at he
    obtain ⟨_, _, he, -⟩ := he
    obtain ⟨_, _, c1, -, -, -, -, h2, -, -⟩ := executeActions_inv he
    unfold runActions at h2
    unpack at h2
    obtain ⟨-, _, -, h2⟩ := h2
    simp only [List.filterMap_cons, Action.asSwap, List.filterMap_nil] at h2
    unfold runSwaps at h2
    unpack at h2
    obtain ⟨_, -, _, -, _, _, h2, -⟩ := h2
    unfold poolSwap at h2
    unpack at h2
    obtain ⟨_, hh, -⟩ := h2
    exact h _ _ hh

/-- A stable pool with a record, of which hardly more than one share is left. -/
def drained : Contract := c2.run [
  .call (y own) (.registerTwap 1),
  .call (y al) (.removeLiquidity 1 (8 * 10 ^ 23 - 1001 * 10 ^ 15) [0, 0])]

/-- C70. Stable pools can be stopped by the sample: to learn what a share redeems the contract tries to
redeem a whole one, which is refused if it would leave less than the minimum in the pool. From then on
nobody can swap, add or remove liquidity, although removing half of the shares would be fine. The
owner has to take down the record first. -/
theorem C70_sampling_blocks : ∃ (c : Contract) (id n : Nat) (a : AccountId), c.Reachable ∧
    0 < n ∧ n ≤ c.sharesOf id a ∧ (c.predictRemove id n).isOk = true ∧ c.cfg.running = true ∧
    c.cfg.frozen = [] ∧
    (∀ x n mins r, c.exec x (.removeLiquidity id n mins) ≠ .ok r) ∧
    (∀ x as m r, c.exec x (.removeByTokens id as m) ≠ .ok r) ∧
    (∀ x as m r, c.exec x (.addStableLiquidity id as m) ≠ .ok r) ∧
    (∀ x ti a tout m ref r, c.exec x (.executeActions [.swap ⟨id, ti, a, tout, m⟩] ref) ≠ .ok r) ∧
    ((c.step (.call (y own) (.unregisterTwap id))).exec (y a) (.removeLiquidity id n [0, 0])).isOk =
      true := by
  have hu : (drained.twaps.get? 1).isSome = true ∧ (drained.unit 1).isOk = false := by decide +kernel
  have hs : ∀ now c', drained.twapHook now 1 ≠ .ok c' := by
    intro now c' h
    obtain ⟨h1, h2⟩ := hu
    unfold twapHook at h
    cases hg : drained.twaps.get? 1 with
    | none => rw [hg] at h1; cases h1
    | some u =>
      rw [hg] at h
      simp only at h
      unpack at h
      obtain ⟨p, hp, o, ho, -⟩ := h
      unfold unit at h2
      rw [hp, ok_bind, ho] at h2
      cases h2
  obtain ⟨b1, b2, b3, b4⟩ := stuck hs
  refine ⟨drained, 1, 5 * 10 ^ 17, al, c2_reachable.run _, by decide, by decide +kernel,
    by decide +kernel, by decide +kernel, by decide +kernel, b1, b2, b3, b4, by decide +kernel⟩

section Examples

/-- The events of `setup`, all of them at the same time. -/
def setupDay : History := setup.map fun e => (10 ^ 18, e)

theorem setupDay_events : c0.run setupDay.events = c1 := by
  unfold setupDay History.events
  rw [List.map_map]
  have : (Prod.snd ∘ fun e : Event => (10 ^ 18, e)) = id := rfl
  rw [this, List.map_id]
  rfl

theorem setupDay_ordered : setupDay.Ordered := by
  refine ⟨?_, ?_⟩
  · unfold setupDay
    rw [List.pairwise_map]
    exact List.pairwise_of_forall fun _ _ => le_refl _
  · intro e he
    unfold setupDay setup at he
    simp only [List.map_cons, List.map_nil, List.mem_cons, List.not_mem_nil, or_false] at he
    rcases he with rfl | rfl | rfl | rfl | rfl | rfl | rfl | rfl | rfl | rfl | rfl | rfl | rfl | rfl <;>
      exact ⟨rfl, by norm_num⟩

/-- Alice can leave the first pool with half of the shares. -/
example : ∃ p, c1.pools[0]? = some (.simple p) ∧ c1.cfg.running = true ∧ p.tok0 ∉ c1.cfg.frozen ∧
    p.tok1 ∉ c1.cfg.frozen ∧
    5 * 10 ^ 23 + max (c1.pledgedOf al 0).farm (c1.pledgedOf al 0).burrow ≤ c1.sharesOf 0 al ∧
    (c1.accountOrNew al).storageUsage + 2 * RECORD_COST ≤ (c1.accountOrNew al).near + 0 ∧
    c1.depositOf al p.tok0 + p.amt0 < 2 ^ 128 ∧ c1.depositOf al p.tok1 + p.amt1 < 2 ^ 128 := by
  refine ⟨_, rfl, ?_⟩
  decide +kernel

example : (c1.execAll [(y al, .removeLiquidity 0 (5 * 10 ^ 23) [0, 0]), (y al, .withdraw A 0 true none),
    (y al, .withdraw B 0 true none)]).holds (fun r => r.2.length = 2 ∧ r.1.depositOf al A = 0 ∧
      r.1.depositOf al B = 0) = true := by decide +kernel

/-- Bob takes out all of one token. -/
example : (c1.exec (y bo) (.withdraw A 0 true none)).holds (fun r =>
    r.2.length = 1 ∧ r.1.depositOf bo A = 0 ∧ c1.depositOf bo A = 5000) = true := by decide +kernel

/-- A part of a deposit. -/
example : (c1.exec (y bo) (.withdraw A 3000 false none)).holds (fun r => r.1.depositOf bo A = 2000) =
    true := by decide +kernel

/-- Half of a stable pool. -/
example : c2.predictRemove 1 (4 * 10 ^ 23) = .ok [2 * 10 ^ 23, 2 * 10 ^ 23] := by decide +kernel

end Examples

end Contract
end Verif

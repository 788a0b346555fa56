import Verif.Exchange.PoolView
import Verif.Exchange.LimitProps
import Verif.Exchange.VolumeProps
import Verif.Exchange.Solvency

/-
C68: what the views report about pools.
-/

namespace Verif

namespace Contract

/-- **C68**. Whatever the sizes of the pages, `get_pools` read to the end lists every pool exactly once,
in the order of the ids, as `get_pool` reports it. -/
theorem C68_get_pools {c : Contract} {now : Nat} {sizes : List Nat} {l : List PoolInfo}
    (h : readPages (c.getPools now) 0 sizes = .ok l) (hs : c.numberOfPools ≤ sizes.sum) :
    Lists c.numberOfPools (c.getPool now) l := lists_of_pages h hs

/-- **C68**. The same for the details of pools. -/
theorem C68_get_details {c : Contract} {now : Nat} {sizes : List Nat}
    {l : List (PoolInfo × Option CurveInfo)} (h : readPages (c.getPoolDetails now) 0 sizes = .ok l)
    (hs : c.numberOfPools ≤ sizes.sum) : Lists c.numberOfPools (c.getPoolDetail now) l :=
  lists_of_pages h hs

/-- **C68**. The same for volumes. -/
theorem C68_list_volumes {c : Contract} {sizes : List Nat} {l : List (List (Nat × Nat))}
    (h : readPages c.listPoolVolumes 0 sizes = .ok l) (hs : c.numberOfPools ≤ sizes.sum) :
    Lists c.numberOfPools c.getPoolVolumes l :=
  lists_of_pages h hs

/-- **C68**. Volumes can always be listed. -/
theorem C68_volumes_listed {c : Contract} {sizes : List Nat} (hs : sizes.sum < 2 ^ 64) :
    ∃ l, readPages c.listPoolVolumes 0 sizes = .ok l := by
  refine pages_read (fun i hi => ?_) (by omega)
  unfold getPoolVolumes
  rw [pool_ok.2 (List.getElem?_eq_getElem hi)]
  rfl

/-- **C68**. Pools can be listed as long as their reserves can be written in token units and every
token of a degen pool has a price. -/
theorem C68_pools_listed {c : Contract} {now : Nat} {sizes : List Nat} (hs : sizes.sum < 2 ^ 64)
    (hr : ∀ p, .curve p ∈ c.pools → p.getAmounts.isOk = true ∧
      (p.kind = .degen → (c.cfg.degensOf p.toks).isOk = true)) :
    ∃ l, readPages (c.getPools now) 0 sizes = .ok l := by
  refine pages_read (fun i hi => ?_) (by omega)
  unfold getPool
  rw [pool_ok.2 (List.getElem?_eq_getElem hi), ok_bind]
  have hm := List.getElem_mem hi
  cases hp : c.pools[i] with
  | simple p => rfl
  | curve p =>
    rw [hp] at hm
    obtain ⟨h1, h2⟩ := hr p hm
    unfold poolInfo
    simp only
    have he : ∃ e, c.cfg.env now (.curve p) = .ok e := by
      unfold Config.env
      simp only
      split
      · exact ⟨_, rfl⟩
      · exact ⟨_, rfl⟩
      next hk =>
        have := h2 hk
        cases hd : c.cfg.degensOf p.toks with
        | error e => rw [hd] at this; cases this
        | ok ps => exact ⟨_, rfl⟩
    obtain ⟨e, he⟩ := he
    rw [he, ok_bind]
    cases ha : p.getAmounts with
    | error e => rw [ha] at h1; cases h1
    | ok as => rfl

/-- **C68**. The pages of `list_referrals` list every referral exactly once, with its fee. -/
theorem C68_list_referrals {c : Contract} {keys : List AccountId} (hn : keys.Nodup)
    (hk : ∀ a, a ∈ keys ↔ c.cfg.referrals.contains a = true) {sizes : List Nat}
    {l : List (AccountId × Nat)}
    (h : readPages (fun s n => c.listReferrals keys (some s) (some n)) 0 sizes = .ok l)
    (hs : keys.length ≤ sizes.sum) :
    (l.map Prod.fst).Nodup ∧ ∀ a bps, (a, bps) ∈ l ↔ c.cfg.referrals.get? a = some bps :=
  map_pages hn hk h hs

/-- **C68**. The pages of `get_pool_limit_paged` list every limit exactly once. -/
theorem C68_list_limits {c : Contract} {keys : List Nat} (hn : keys.Nodup)
    (hk : ∀ id, id ∈ keys ↔ (c.getPoolLimit id).isSome = true) {sizes : List Nat}
    {l : List (Nat × Nat)}
    (h : readPages (fun s n => c.getPoolLimits keys (some s) (some n)) 0 sizes = .ok l)
    (hs : keys.length ≤ sizes.sum) :
    (l.map Prod.fst).Nodup ∧ ∀ id n, (id, n) ∈ l ↔ c.getPoolLimit id = some n :=
  map_pages hn hk h hs

/-- **C68**. Asked about several pools, the contract gives one answer for each id, in the order of the
question, and it is the answer to the single question. -/
theorem C68_batch {c : Contract} {ids : List Nat} :
    (∀ {a : AccountId} {l : List Nat}, c.getPoolSharesBatch ids a = .ok l →
      List.Forall₂ (fun id n => c.getPoolShares id a = .ok n) ids l) ∧
    (∀ {now : Nat} {l : List PoolInfo}, c.getPoolByIds now ids = .ok l →
      List.Forall₂ (fun id i => c.getPool now id = .ok i) ids l) ∧
    ((∀ id ∈ ids, id < c.numberOfPools) → ∀ a, (c.getPoolSharesBatch ids a).isOk = true) := by
  refine ⟨mapM_forall₂, mapM_forall₂, fun h a => ?_⟩
  obtain ⟨l, hl⟩ := mapM_of_forall (f := fun id => c.getPoolShares id a) (is := ids) (fun id hid => by
    unfold getPoolShares
    rw [pool_ok.2 (List.getElem?_eq_getElem (h id hid))]
    rfl)
  unfold getPoolSharesBatch
  rw [hl]
  rfl

/-- **C68**. Without arguments `list_referrals` and `get_pool_limit_paged` list everything. -/
theorem C68_all {c : Contract} :
    (∀ {keys : List AccountId} {l : List (AccountId × Nat)}, keys.Nodup →
      (∀ a, a ∈ keys ↔ c.cfg.referrals.contains a = true) → c.listReferrals keys none none = .ok l →
      (l.map Prod.fst).Nodup ∧ ∀ a bps, (a, bps) ∈ l ↔ c.cfg.referrals.get? a = some bps) ∧
    (∀ {keys : List Nat} {l : List (Nat × Nat)}, keys.Nodup →
      (∀ id, id ∈ keys ↔ (c.getPoolLimit id).isSome = true) → c.getPoolLimits keys none none = .ok l →
      (l.map Prod.fst).Nodup ∧ ∀ id n, (id, n) ∈ l ↔ c.getPoolLimit id = some n) :=
  ⟨fun hn hk h => map_all hn hk h, fun hn hk h => map_all hn hk h⟩

/-- **C68**. The details of a rated pool report the rates of its tokens, those of a degen pool their
prices, in the order of the tokens: those at which the next swap is made. -/
theorem C68_rates {c : Contract} {now id : Nat} {i : PoolInfo} {y : CurveInfo}
    (h : c.getPoolDetail now id = .ok (i, some y)) :
    (i.kind = some .rated → y.rates = i.tokens.map c.cfg.rateOf) ∧
    (i.kind = some .degen → c.cfg.degensOf i.tokens = .ok y.rates) := by
  unfold getPoolDetail at h
  unpack at h
  obtain ⟨p, hp, j, hj, h⟩ := h
  cases p with
  | simple p => cases h
  | curve p =>
    unpack at h
    obtain ⟨e, he, rfl, hy⟩ := h
    unfold poolInfo at hj
    unpack at hj
    obtain ⟨e', he', as, -, rfl⟩ := hj
    cases hy
    simp only [Option.some.injEq]
    unfold Config.env at he
    simp only at he
    refine ⟨fun hk => ?_, fun hk => ?_⟩
    · rw [hk] at he ⊢
      cases he
      rfl
    · rw [hk] at he ⊢
      unpack at he
      obtain ⟨ps, hps, rfl⟩ := he
      exact hps

/-- **C68**. `get_pool_volumes` reports for every token exactly what all swaps of the history moved
through the pool. -/
theorem C68_volumes {self owner farm burrow : AccountId} {fee ref : Nat} {c0 : Contract}
    (h0 : init self owner farm burrow fee ref = .ok c0) (es : List Event)
    (hl : (c0.run es).numberOfPools ≤ 2 ^ 32) :
    ∃ steps, c0.History es steps ∧ ∀ (id : Nat) (p : Pool) (vs : List (Nat × Nat)) (i : Nat) (t : AccountId),
      (c0.run es).pools[id]? = some p → p.tokens[i]? = some t →
      (c0.run es).getPoolVolumes id = .ok vs → vs.getD i (0, 0) = p.traded steps id t := by
  obtain ⟨steps, h1, h2⟩ := C40_exact h0 es hl
  refine ⟨steps, h1, fun id p vs i t hp ht hv => ?_⟩
  rw [← h2 id p i t hp ht]
  unfold getPoolVolumes at hv
  rw [pool_ok.2 hp, ok_bind] at hv
  rw [← Except.ok.inj hv]
  unfold volume
  rw [hp]

/-- What a view says about a pool comes from the pool. -/
theorem getPool_ok {c : Contract} {now id : Nat} {i : PoolInfo} (h : c.getPool now id = .ok i) :
    ∃ p, c.pools[id]? = some p ∧ i.kind = p.shape.1 ∧ i.tokens = p.tokens ∧ i.fee = p.totalFee ∧
      i.supply = p.supply ∧ p.reported = .ok i.amounts := by
  unfold getPool at h
  unpack at h
  obtain ⟨p, hp, h⟩ := h
  refine ⟨p, pool_ok.1 hp, ?_⟩
  cases p with
  | simple p => cases h; exact ⟨rfl, rfl, rfl, rfl, rfl⟩
  | curve p =>
    unfold poolInfo at h
    unpack at h
    obtain ⟨e, -, as, ha, rfl⟩ := h
    exact ⟨rfl, rfl, rfl, rfl, ha⟩

/-- **C68**. What is reported under an id in any later state is the same pool: same kind, same tokens
in the same order, same decimals. -/
theorem C68_identity {c : Contract} (es : List Event) {now now' id : Nat}
    {i i' : PoolInfo} {x x' : Option CurveInfo} (h : c.getPoolDetail now id = .ok (i, x))
    (h' : (c.run es).getPoolDetail now' id = .ok (i', x')) :
    i'.kind = i.kind ∧ i'.tokens = i.tokens ∧ x'.map CurveInfo.decimals = x.map CurveInfo.decimals ∧
    c.numberOfPools ≤ (c.run es).numberOfPools := by
  have key : ∀ {c : Contract} {now : Nat} {i : PoolInfo} {x : Option CurveInfo},
      c.getPoolDetail now id = .ok (i, x) → ∃ p, c.pools[id]? = some p ∧ i.kind = p.shape.1 ∧
        i.tokens = p.tokens ∧ x.map CurveInfo.decimals = (p.shape.1.map fun _ => p.shape.2.2) := by
    intro c now i x h
    unfold getPoolDetail at h
    unpack at h
    obtain ⟨p, hp, j, hj, h⟩ := h
    have hg : c.getPool now id = .ok j := by unfold getPool; rw [hp]; exact hj
    obtain ⟨p', hp', h1, h2, -⟩ := getPool_ok hg
    rw [pool_ok.1 hp] at hp'
    cases hp'
    refine ⟨p, pool_ok.1 hp, ?_⟩
    cases p with
    | simple p => cases h; exact ⟨h1, h2, rfl⟩
    | curve p =>
      unpack at h
      obtain ⟨e, -, rfl, rfl⟩ := h
      exact ⟨h1, h2, rfl⟩
  obtain ⟨p, hp, h1, h2, h3⟩ := key h
  obtain ⟨q, hq, h1', h2', h3'⟩ := key h'
  obtain ⟨q', hq', hsh⟩ := C52_pool_identity es c hp
  rw [hq] at hq'
  cases hq'
  refine ⟨by rw [h1, h1', hsh], by rw [h2, h2', Pool.tokens_of_shape hsh], by rw [h3, h3', hsh], ?_⟩
  unfold numberOfPools
  apply Nat.le_of_not_lt
  intro hlt
  obtain ⟨r, hr, -⟩ := C52_pool_identity es c (List.getElem?_eq_getElem hlt)
  rw [List.getElem?_eq_none (Nat.le_refl _)] at hr
  cases hr

/-- **C68**. The reported supply of a pool is what `get_pool_total_shares` reports, and it is the sum
of what `get_pool_shares` reports for all registered holders: nobody else has shares. -/
theorem C68_supply {c : Contract} (h : c.Reachable) {now id : Nat} {i : PoolInfo}
    (hi : c.getPool now id = .ok i) :
    c.getPoolTotalShares id = .ok i.supply ∧
    ∃ holders : List AccountId, holders.Nodup ∧
      (∀ a n, c.getPoolShares id a = .ok n → 0 < n → a ∈ holders) ∧
      ∃ ns, holders.mapM (c.getPoolShares id) = .ok ns ∧ i.supply = ns.sum := by
  obtain ⟨p, hp, -, -, -, hs, -⟩ := getPool_ok hi
  have hpool := pool_ok.2 hp
  refine ⟨?_, p.shares.keys, p.shares.nodup, fun a n hn hpos => ?_, ?_⟩
  · unfold getPoolTotalShares
    rw [hpool, hs]
    rfl
  · unfold getPoolShares at hn
    rw [hpool, ok_bind] at hn
    have hn := Except.ok.inj hn
    unfold Pool.shareBalance FMap.getD at hn
    cases hg : p.shares.get? a with
    | none => rw [hg] at hn; simp only [Option.getD_none] at hn; omega
    | some v =>
      exact List.mem_map.2 ⟨(a, v), (p.shares.mem_entries_iff).2 hg, rfl⟩
  · refine ⟨p.shares.entries.map fun e => e.2, ?_, ?_⟩
    · unfold FMap.keys
      have : ∀ es : List (AccountId × Nat), (∀ e ∈ es, e ∈ p.shares.entries) →
          (es.map Prod.fst).mapM (c.getPoolShares id) = .ok (es.map fun e => e.2) := by
        intro es hes
        induction es with
        | nil => rfl
        | cons e es ih =>
          have he : c.getPoolShares id e.1 = .ok e.2 := by
            unfold getPoolShares
            rw [hpool, ok_bind]
            have := (p.shares.mem_entries_iff (k := e.1) (v := e.2)).1 (hes e (List.mem_cons_self ..))
            unfold Pool.shareBalance FMap.getD
            rw [this]
            rfl
          rw [List.map_cons, List.mapM_cons, he, ih fun x hx => hes x (List.mem_cons_of_mem _ hx)]
          rfl
      exact this _ fun e he => he
    · rw [hs]
      exact (C09_reachable h hp).1

/-- The value that `get_degen_pool_tvl` reports. -/
theorem getDegenPoolTvl_ok {c : Contract} {now id v : Nat} (h : c.getDegenPoolTvl now id = .ok v) :
    ∃ q : CurvePool, c.pools[id]? = some (.curve q) ∧ q.kind = .degen ∧ c.cfg.worth q = v ∧
      c.cfg.Fresh now (.curve q) := by
  unfold getDegenPoolTvl at h
  unpack at h
  obtain ⟨p, hp, h⟩ := h
  cases p with
  | simple p => cases h
  | curve q =>
    simp only at h
    split at h
    next hk =>
      unpack at h
      obtain ⟨e, he, _, hr, hv⟩ := h
      exact ⟨q, pool_ok.1 hp, hk, tvl_worth hk he hv, Config.fresh_of_valid he hr⟩
    · cases h

/-- **C68**. After a call that adds liquidity to a degen pool with a limit, the value that the view
reports is within the limit that the view reports. -/
theorem C68_limit {c c' : Contract} {x : Ctx} {k : Call} {outs : List Out} {id l v now : Nat}
    (h : c.exec x k = .ok (c', outs)) (hid : id ∈ k.funds) (hl : c'.getPoolLimit id = some l)
    (hv : c'.getDegenPoolTvl now id = .ok v) : v ≤ l := by
  obtain ⟨q, hq, hk, rfl, -⟩ := getDegenPoolTvl_ok hv
  have hc : c'.cfg = c.cfg := by
    rcases (exec_cfg h).2 with e | ⟨s, rfl, -⟩
    · exact e
    · cases hid
  unfold getPoolLimit at hl
  rw [hc] at hl ⊢
  exact C38_limit h hid hl hq hk

open Demo

/-- **C68**. Pools may fail to be listed: once the owner removes the price of a token, every page with
a degen pool of this token fails, and so do `get_pool` and the details of the pool. -/
theorem C68_page_blocked : ∃ (c c' : Contract) (outs : List Out), c.Reachable ∧
    (readPages (c.getPools (10 ^ 18)) 0 [2, 5]).isOk = true ∧
    c.exec (y own) (.setting (.unregisterDegen A)) = .ok (c', outs) ∧
    c'.numberOfPools = 4 ∧ (c'.getPools (10 ^ 18) 0 3).isOk = true ∧
    (c'.getPools (10 ^ 18) 0 4).isOk = false ∧ (c'.getPool (10 ^ 18) 3).isOk = false := by
  have key : (c4.exec (y own) (.setting (.unregisterDegen A))).holds (fun r =>
      r.1.numberOfPools = 4 ∧ (r.1.getPools (10 ^ 18) 0 3).isOk = true ∧
      (r.1.getPools (10 ^ 18) 0 4).isOk = false ∧ (r.1.getPool (10 ^ 18) 3).isOk = false) = true := by
    decide +kernel
  cases h : c4.exec (y own) (.setting (.unregisterDegen A)) with
  | error e => rw [h] at key; cases key
  | ok r =>
    rw [h] at key
    obtain ⟨c', outs⟩ := r
    exact ⟨c4, c', outs, c4_reachable, by decide +kernel, h, of_decide_eq_true key⟩

/-- The four pools of the example, in pages of different sizes. -/
example : (readPages (c4.getPools (10 ^ 18)) 0 [1, 2, 5]).holds (fun l => l.map PoolInfo.kind =
      [none, some .stable, some .rated, some .degen] ∧
    l.map PoolInfo.tokens = [[A, B], [A, B], [A, B], [A, B]] ∧
    (l.map PoolInfo.amounts)[3]? = some [10 ^ 20, 2 * 10 ^ 20]) = true ∧
  (c4.getDegenPoolTvl (10 ^ 18) 3).holds (fun v => v = 400) = true ∧ c4.getPoolLimit 3 = some 1000 := by
  decide +kernel

/-- Three questions at once. -/
example : (c4.getPoolSharesBatch [3, 0, 3] al).holds (fun l => l[0]? = l[2]? ∧ l[1]? = some (10 ^ 24)) =
    true ∧ (c4.getPoolByIds (10 ^ 18) [3, 1]).holds (fun l =>
      l.map PoolInfo.kind = [some .degen, some .stable]) = true := by decide +kernel

/-- The rates of a rated pool and the prices of a degen pool. -/
example : (c4.getPoolDetail (10 ^ 18) 2).holds (fun r =>
      r.2.map CurveInfo.rates = some [11 * 10 ^ 23, 10 ^ 24]) = true ∧
    (c4.getPoolDetail (10 ^ 18) 3).holds (fun r =>
      r.2.map CurveInfo.rates = some [2 * 10 ^ 24, 10 ^ 24]) = true := by decide +kernel

/-- All limits. -/
example : (c4.getPoolLimits [3] none none).holds (fun l => l = [(3, 1000)]) = true := by
  decide +kernel

/-- One referral and one limit, read page by page. -/
example : (readPages (fun s n => c4.getPoolLimits [3] (some s) (some n)) 0 [1, 1]).holds
    (fun l => l = [(3, 1000)]) = true := by decide +kernel

end Contract

/-- **C12**, with the pools as `get_pools` lists them. -/
theorem C12_listed_partial {t : AccountId} {w : World} (h : w.Reachable t) {now : Nat}
    {sizes : List Nat} {l : List PoolInfo} (hl : readPages (w.c.getPools now) 0 sizes = .ok l)
    (hs : w.c.numberOfPools ≤ sizes.sum) :
    depIn w.c.accounts t + lostIn w.c.lostfound t +
      (l.map fun i => flow i.tokens i.amounts t).sum + inFlight w.queue t ≤ w.held := by
  obtain ⟨h1, h2⟩ := Contract.C68_get_pools hl hs
  have hf : List.Forall₂ (fun (p : Pool) (i : PoolInfo) => p.reported = .ok i.amounts ∧ i.tokens = p.tokens)
      w.c.pools l := by
    rw [List.forall₂_iff_get]
    refine ⟨h1.symm, fun i hi hi' => ?_⟩
    have := (h2 i l[i] hi).2 (List.getElem?_eq_getElem hi')
    obtain ⟨p, hp, -, ht, -, -, hr⟩ := Contract.getPool_ok this
    rw [List.getElem?_eq_getElem hi] at hp
    cases hp
    exact ⟨hr, ht⟩
  have hr : List.Forall₂ (fun (p : Pool) r => p.reported = .ok r) w.c.pools (l.map PoolInfo.amounts) := by
    rw [List.forall₂_map_right_iff]
    exact hf.imp fun _ _ h => h.1
  have e : reservesIn w.c.pools (l.map PoolInfo.amounts) t =
      (l.map fun i => flow i.tokens i.amounts t).sum := by
    unfold reservesIn
    congr 1
    clear hr h2 h1 hl
    generalize w.c.pools = ps at hf
    induction hf with
    | nil => rfl
    | cons h _ ih => rw [List.map_cons, List.zipWith_cons_cons, List.map_cons, ih, h.2]
  rw [← e]
  exact C12_reported_partial h hr

end Verif

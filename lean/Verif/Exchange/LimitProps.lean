import Verif.Exchange.SwapProps

/-
C37 (expired rates and prices) and C38 (the limits of degen pools), as a caller sees them.
-/

namespace Verif

open Demo

/-! ### C37 -/

/-- The rate of a token is not older than 24 hours; a token without a rate counts one to one. -/
def Config.FreshRate (g : Config) (now : Nat) (t : AccountId) : Prop :=
  ∀ r, g.rates.get? t = some r → now ≤ r.updated + 24 * 3600 * 10 ^ 9

/-- The token has a price, and it is not older than its oracle allows. -/
def Config.FreshPrice (g : Config) (now : Nat) (t : AccountId) : Prop :=
  ∃ price updated source, g.degens.get? t = some ⟨some (price, updated), source⟩ ∧
    ((∃ dec o, source = .priceOracle dec ∧ g.priceOracle = some o ∧ now ≤ updated + o.expire) ∨
      ∃ id o, source = .pyth id ∧ g.pythOracle = some o ∧ now ≤ updated + o.expire)

/-- What a pool needs to be fresh at time `now`. -/
def Config.Fresh (g : Config) (now : Nat) : Pool → Prop
  | .simple _ => True
  | .curve p =>
    match p.kind with
    | .stable => True
    | .rated => ∀ t ∈ p.toks, g.FreshRate now t
    | .degen => ∀ t ∈ p.toks, g.FreshPrice now t

theorem Config.Fresh.of_shape {g : Config} {now : Nat} {p q : Pool} (h : q.shape = p.shape)
    (hq : g.Fresh now q) : g.Fresh now p := by
  cases p <;> cases q <;> simp only [Pool.shape, Prod.mk.injEq, reduceCtorEq, false_and] at h
  · trivial
  · obtain ⟨h1, h2, -⟩ := h
    simp only [Option.some.injEq] at h1
    simp only [Fresh, h1, h2] at hq ⊢
    exact hq

/-- A pool that accepted the rates it read had fresh ones. -/
theorem Config.fresh_of_valid {g : Config} {now : Nat} {p : CurvePool} {e : CurveEnv}
    (he : g.env now (.curve p) = .ok e) (h : p.assertRates e = .ok ()) :
    g.Fresh now (.curve p) := by
  unfold env at he
  unfold CurvePool.assertRates at h
  simp only [Fresh]
  simp only at he
  cases hk : p.kind with
  | stable => trivial
  | rated =>
    rw [hk] at he h
    simp only at he h ⊢
    cases he
    rw [assertE_ok] at h
    intro t ht r hr
    have := List.all_eq_true.1 h t ht
    unfold rateValid at this
    rw [hr] at this
    simp only [Bool.and_eq_true] at this
    exact of_decide_eq_true this.1
  | degen =>
    rw [hk] at he h
    simp only at he h ⊢
    unpack at he
    obtain ⟨_, -, rfl⟩ := he
    rw [assertE_ok] at h
    intro t ht
    have := List.all_eq_true.1 h t ht
    unfold degenValid at this
    split at this
    · rename_i price updated source hd
      split at this
      · rename_i ex hex
        simp only [Bool.and_eq_true, decide_eq_true_eq] at this
        refine ⟨price, updated, source, hd, ?_⟩
        cases source with
        | priceOracle dec =>
          obtain ⟨o, ho, rfl⟩ := Option.map_eq_some_iff.1 hex
          exact .inl ⟨dec, o, rfl, ho, this.1⟩
        | pyth id =>
          obtain ⟨o, ho, rfl⟩ := Option.map_eq_some_iff.1 hex
          exact .inr ⟨id, o, rfl, ho, this.1⟩
      · cases this
    · cases this

namespace Contract

theorem SwapsTo.fresh {now : Nat} {ref : Option (AccountId × Nat)} {c c' : Contract} {s : SwapStep}
    {p : Pool} (h : c.SwapsTo now ref s c') (hp : c.pools[s.pool]? = some p) :
    c.cfg.Fresh now p := by
  rcases h with ⟨m, h⟩ | ⟨m, h⟩
  · obtain ⟨_, _, p', q, hp', hs, -⟩ := poolSwap_ok h
    rw [hp] at hp'; cases hp'
    cases p with
    | simple _ => trivial
    | curve p =>
      unfold Pool.swap at hs
      unpack at hs
      obtain ⟨e, he, _, _, hs, -⟩ := hs
      obtain ⟨_, _, _, _, _, _, -, -, -, -, hr, -⟩ := CurvePool.swap_ok hs
      exact Config.fresh_of_valid he hr
  · obtain ⟨_, _, p', q, hp', hs, -⟩ := poolSwapByOutput_ok h
    rw [hp] at hp'; cases hp'
    cases p with
    | simple _ => trivial
    | curve p => cases hs

theorem SwapsTo.shape {now : Nat} {ref : Option (AccountId × Nat)} {c c' : Contract} {s : SwapStep}
    (h : c.SwapsTo now ref s c') (id : Nat) (p : Pool) (hp : c.pools[id]? = some p) :
    ∃ q, c'.pools[id]? = some q ∧ q.shape = p.shape := by
  obtain ⟨_, _, p', q, hp', ht, -, rfl⟩ := h.ok
  simp only [getElem?_set_some hp']
  by_cases hj : id = s.pool
  · subst hj
    rw [hp] at hp'; cases hp'
    exact ⟨q, by simp, ht.shape⟩
  · exact ⟨p, by simp [hj, hp], rfl⟩

theorem _root_.Verif.Swaps.fresh {now : Nat} {ref : Option (AccountId × Nat)} {c c' : Contract}
    {steps : List SwapStep} (h : Swaps now ref c steps c') :
    ∀ s ∈ steps, ∀ p : Pool, c.pools[s.pool]? = some p → c.cfg.Fresh now p := by
  induction h with
  | nil c => intro s hs; cases hs
  | cons h1 _ ih =>
    intro s hs p hp
    rcases List.mem_cons.1 hs with rfl | hs
    · exact h1.fresh hp
    · obtain ⟨q, hq, hsh⟩ := h1.shape _ p hp
      have := ih s hs q hq
      rw [h1.framed.cfg] at this
      exact this.of_shape hsh

/-- **C37**. However swaps are started: a call succeeds only if the rates (rated pool) or prices
(degen pool) of all tokens of every pool it swaps in are fresh. -/
theorem C37_swaps_need_fresh_rates {c c' : Contract} {x : Ctx} {k : Call} {actions : List Action}
    {outs : List Out} (ha : k.actions = some actions) (h : c.exec x k = .ok (c', outs)) :
    (∀ a p, .swap a ∈ actions → c.pools[a.pool]? = some p → c.cfg.Fresh x.now p) ∧
    (∀ a p, .byOutput a ∈ actions → c.pools[a.pool]? = some p → c.cfg.Fresh x.now p) := by
  obtain ⟨ref, steps, c1, hs, hb⟩ := C16_swaps ha h
  constructor
  · intro a p hm hp
    obtain ⟨s, hms, hba⟩ : ∃ s ∈ steps, Action.Bounds (.swap a) s := by
      clear hs ha h
      induction hb with
      | nil => cases hm
      | cons h1 _ ih =>
        rcases List.mem_cons.1 hm with rfl | hm
        · exact ⟨_, List.mem_cons_self .., h1⟩
        · obtain ⟨s, hs, hb⟩ := ih hm
          exact ⟨s, List.mem_cons_of_mem _ hs, hb⟩
    exact hs.fresh s hms p (by rw [hba.2.2.1]; exact hp)
  · intro a p hm hp
    obtain ⟨s, hms, hba⟩ : ∃ s ∈ steps, Action.Bounds (.byOutput a) s := by
      clear hs ha h
      induction hb with
      | nil => cases hm
      | cons h1 _ ih =>
        rcases List.mem_cons.1 hm with rfl | hm
        · exact ⟨_, List.mem_cons_self .., h1⟩
        · obtain ⟨s, hs, hb⟩ := ih hm
          exact ⟨s, List.mem_cons_of_mem _ hs, hb⟩
    exact hs.fresh s hms p (by rw [hba.2.2.1]; exact hp)

/-- **C37**. The same for a removal of liquidity by token amounts. -/
theorem C37_removal_needs_fresh_rates {c c' : Contract} {x : Ctx} {id maxBurn : Nat}
    {amounts : List Nat} {outs : List Out} {p : Pool}
    (h : c.exec x (.removeByTokens id amounts maxBurn) = .ok (c', outs))
    (hp : c.pools[id]? = some p) : c.cfg.Fresh x.now p := by
  simp only [exec] at h
  unpack at h; obtain ⟨_, _, h, rfl, rfl⟩ := h
  obtain ⟨_, p', q, _, _, -, -, hp', -, -, -, ha, -⟩ := removeByTokens_inv h
  rw [hp] at hp'; cases hp'
  cases p with
  | simple _ => trivial
  | curve p =>
    unfold Pool.removeByTokens at ha
    unpack at ha
    obtain ⟨e, he, _, _, ha, -⟩ := ha
    obtain ⟨_, _, _, -, -, hr, -⟩ := CurvePool.removeByTokens_ok ha
    exact Config.fresh_of_valid he hr

/-- Swaps in the rated and the degen pool succeed at the time of the update, and not a week later. -/
example : (c4.exec (by' al) (.executeActions [.swap ⟨2, A, some (10 ^ 19), B, 1⟩,
      .swap ⟨3, A, some (10 ^ 18), B, 1⟩] none)).holds (fun _ => true) = true ∧
    (∀ r, c4.exec { by' al with now := 10 ^ 18 + 7 * 24 * 3600 * 10 ^ 9 }
      (.executeActions [.swap ⟨2, A, some (10 ^ 19), B, 1⟩] none) ≠ .ok r) ∧
    (∀ r, c4.exec { by' al with now := 10 ^ 18 + 7 * 24 * 3600 * 10 ^ 9 }
      (.executeActions [.swap ⟨3, A, some (10 ^ 18), B, 1⟩] none) ≠ .ok r) := by
  refine ⟨by decide +kernel, fun r h => ?_, fun r h => ?_⟩
  · have key : (c4.exec { by' al with now := 10 ^ 18 + 7 * 24 * 3600 * 10 ^ 9 }
      (.executeActions [.swap ⟨2, A, some (10 ^ 19), B, 1⟩] none)).holds (fun _ => true) = false := by
      decide +kernel
    rw [h] at key; cases key
  · have key : (c4.exec { by' al with now := 10 ^ 18 + 7 * 24 * 3600 * 10 ^ 9 }
      (.executeActions [.swap ⟨3, A, some (10 ^ 18), B, 1⟩] none)).holds (fun _ => true) = false := by
      decide +kernel
    rw [h] at key; cases key

/-! ### C38 -/

/-- The price of a token a degen pool uses, with 24 decimals. -/
def _root_.Verif.Config.priceOf (g : Config) (t : AccountId) : Nat :=
  match g.degens.get? t with
  | some ⟨some (price, _), _⟩ => price
  | _ => 0

/-- The value of the reserves of a pool in whole units. -/
def _root_.Verif.Config.worth (g : Config) (p : CurvePool) : Nat :=
  ((p.toks.zip p.cAmts).map fun ta => ta.2 * g.priceOf ta.1 / PRECISION / PRECISION).sum

theorem _root_.Verif.Config.degensOf_ok {g : Config} : ∀ {ts : List AccountId} {ps : List Nat},
    g.degensOf ts = .ok ps → ps = ts.map g.priceOf
  | [], _, h => by cases h; rfl
  | t :: ts, _, h => by
    unfold Config.degensOf at h
    unpack at h
    obtain ⟨p, hp, ps, hps, rfl⟩ := h
    rw [List.map_cons, ← degensOf_ok hps]
    unfold Config.degenOf at hp
    unpack at hp
    obtain ⟨d, hd, pr, _, hpr, rfl⟩ := hp
    obtain ⟨price, source⟩ := d
    simp only at hpr
    subst hpr
    rw [Config.priceOf, hd]

theorem _root_.Verif.rateZip_eq {k : CurveKind} (hk : k ≠ .stable) : ∀ {as rs xs : List Nat},
    rateZip k as rs = .ok xs → xs = (as.zip rs).map fun ar => ar.1 * ar.2 / PRECISION
  | [], _, _, h => by cases h; rfl
  | _ :: _, [], _, h => by cases h; rfl
  | a :: as, r :: rs, _, h => by
    unfold rateZip at h
    unpack at h
    obtain ⟨x, hx, xs, hxs, rfl⟩ := h
    have := CurvePool.mulRate_ok hx
    rw [if_neg hk] at this
    rw [rateZip_eq hk hxs, this]; rfl

theorem tvl_worth {g : Config} {now : Nat} {q : CurvePool} {e : CurveEnv} {v : Nat}
    (hk : q.kind = .degen) (he : g.env now (.curve q) = .ok e) (hv : q.tvl e = .ok v) :
    g.worth q = v := by
  unfold Config.env at he
  simp only [hk] at he
  unpack at he
  obtain ⟨ps, hps, rfl⟩ := he
  unfold CurvePool.tvl at hv
  unpack at hv
  obtain ⟨xs, hxs, hv⟩ := hv
  rw [hk] at hxs
  unfold rateBalances at hxs
  simp only at hxs
  have e1 := rateZip_eq (by decide) hxs
  have e2 := sumU128_ok hv
  rw [e1, Config.degensOf_ok hps, Nat.zero_add, List.map_map, List.zip_map_right, List.map_map] at e2
  rw [e2, Config.worth, ← List.zip_swap, List.map_map]
  rfl

theorem worth_le {g : Config} {now : Nat} {q : CurvePool} {l : Nat} (hk : q.kind = .degen)
    (h : Pool.assertTvl (.curve q) (some l) (g.env now (.curve q)) = .ok ()) : g.worth q ≤ l := by
  unfold Pool.assertTvl at h
  simp only [if_pos hk] at h
  unpack at h
  obtain ⟨e, he, v, hv, h⟩ := h
  rw [tvl_worth hk he hv]
  exact h

/-- The pools to which a call adds liquidity. -/
def _root_.Verif.Call.funds : Call → List Nat
  | .addLiquidity id .. | .addStableLiquidity id .. => [id]
  | .ftOnTransfer _ _ (.hotZap _ _ infos) => infos.map AddInfo.pool
  | _ => []

theorem _root_.Verif.Zaps.untouched {now : Nat} {sender : AccountId} {c c' : Contract}
    {is : List AddInfo} {steps : List ZapStep} (h : Zaps now sender c is steps c') {id : Nat}
    (hid : id ∉ is.map AddInfo.pool) : c'.pools[id]? = c.pools[id]? := by
  induction h with
  | nil c => rfl
  | cons h1 _ ih =>
    rw [List.map_cons, List.mem_cons, not_or] at hid
    obtain ⟨p, q, hp, -, -, -, -, rfl⟩ := h1
    rw [ih hid.2]
    simp only [getElem?_set_some hp, if_neg hid.1]

theorem _root_.Verif.Zaps.limit {now : Nat} {sender : AccountId} {c c' : Contract}
    {is : List AddInfo} {steps : List ZapStep} (h : Zaps now sender c is steps c') {id l : Nat}
    {q : CurvePool} (hid : id ∈ is.map AddInfo.pool) (hl : c.cfg.limits.get? id = some l)
    (hq : c'.pools[id]? = some (.curve q)) (hk : q.kind = .degen) : c.cfg.worth q ≤ l := by
  induction h with
  | nil c => cases hid
  | @cons c c1 c2 i is s steps h1 h2 ih =>
    have hcfg := h1.framed.1.cfg
    by_cases hm : id ∈ is.map AddInfo.pool
    · have := ih hm (by rw [hcfg]; exact hl) hq
      rw [hcfg] at this
      exact this
    · rw [h2.untouched hm] at hq
      rw [List.map_cons, List.mem_cons] at hid
      rcases hid with rfl | hid
      · obtain ⟨p, q', hp, -, -, -, hv, rfl⟩ := h1
        simp only [getElem?_set_some hp, if_true, Option.some.injEq] at hq
        subst hq
        rw [hl] at hv
        exact worth_le hk hv
      · exact absurd hid hm

/-- **C38**. After a call that adds liquidity to a degen pool with a limit, the value of its
reserves at the stored prices is within the limit. -/
theorem C38_limit {c c' : Contract} {x : Ctx} {k : Call} {outs : List Out} {id l : Nat}
    {q : CurvePool} (h : c.exec x k = .ok (c', outs)) (hid : id ∈ k.funds)
    (hl : c.cfg.limits.get? id = some l) (hq : c'.pools[id]? = some (.curve q))
    (hk : q.kind = .degen) : c.cfg.worth q ≤ l := by
  cases k <;> simp only [exec] at h <;> simp only [Call.funds, List.not_mem_nil] at hid
  case addLiquidity =>
    unpack at h; obtain ⟨_, _, _, h, rfl, rfl⟩ := h
    obtain ⟨_, p, q', _, _, _, _, -, -, hp, -, ha, -, -, -, -, -, rfl⟩ := addLiquidity_inv h
    rw [List.mem_singleton] at hid
    subst hid
    obtain ⟨_, _, rfl, rfl, -⟩ := Pool.addLiquidity_simple ha
    simp [getElem?_set_some hp] at hq
  case addStableLiquidity =>
    unpack at h; obtain ⟨_, _, _, h, rfl, rfl⟩ := h
    obtain ⟨_, p, q', _, _, _, -, -, hp, -, ha, hv, -, -, -, -, rfl⟩ := addStableLiquidity_inv h
    rw [List.mem_singleton] at hid
    subst hid
    simp only [getElem?_set_some hp, if_true, Option.some.injEq] at hq
    subst hq
    rw [hl] at hv
    exact worth_le hk hv
  case ftOnTransfer sender amount msg =>
    obtain ⟨-, -, ⟨rfl, -⟩ | ⟨_, _, _, _, _, rfl, h2⟩ | ⟨_, _, _, rfl, -, h2⟩⟩ := ftOnTransfer_inv h
    · cases hid
    · cases hid
    · obtain ⟨_, _, _, c1, _, c2, _, _, -, -, -, -, -, -, h1, hz, -, -, -, -, rfl⟩ := hotZap_inv h2
      obtain ⟨_, _, _, hs, -⟩ := directActions_ok h1
      have := hz.limit hid (by rw [hs.framed.cfg]; exact hl) hq hk
      rw [hs.framed.cfg] at this
      exact this

/-- The pool is worth 400, its limit is 1000: a deposit worth 400 is accepted and one worth 800 is
not. -/
example : (c4.pools.map fun p =>
        match p with
        | .curve q => if q.kind = .degen then c4.cfg.worth q else 0
        | _ => 0) = [0, 0, 0, 400] ∧ c4.cfg.limits.get? 3 = some 1000 ∧
    (c4.exec (Demo.near al) (.addStableLiquidity 3 [10 ^ 20, 2 * 10 ^ 20] 1)).holds (fun _ => true) = true ∧
    (c4.exec (Demo.near al) (.addStableLiquidity 3 [2 * 10 ^ 20, 4 * 10 ^ 20] 1)).holds (fun _ => true) =
      false := by decide +kernel

theorem _root_.Verif.Config.degensOf_priced {g : Config} : ∀ {ts : List AccountId} {ps : List Nat},
    g.degensOf ts = .ok ps → ∀ t ∈ ts, ∃ d, g.degens.get? t = some d ∧ d.price ≠ none
  | [], _, _ => nofun
  | t :: ts, _, h => by
    unfold Config.degensOf at h
    unpack at h
    obtain ⟨p, hp, ps, hps, rfl⟩ := h
    intro u hu
    rcases List.mem_cons.1 hu with rfl | hu
    · unfold Config.degenOf at hp
      unpack at hp
      obtain ⟨d, hd, pr, _, hpr, rfl⟩ := hp
      exact ⟨d, hd, by rw [hpr]; nofun⟩
    · exact degensOf_priced hps u hu

/-- **C38**, who can be limited: a limit is given only to a degen pool, and only while every token
of the pool has a price. -/
theorem C38_limit_needs_prices {c c' : Contract} {x : Ctx} {id l : Nat} {outs : List Out}
    (h : c.exec x (.setting (.addLimit id l)) = .ok (c', outs) ∨
      c.exec x (.setting (.updateLimit id l)) = .ok (c', outs)) :
    ∃ p, c.pools[id]? = some (.curve p) ∧ p.kind = .degen ∧
      (∀ t ∈ p.toks, ∃ d, c.cfg.degens.get? t = some d ∧ d.price ≠ none) ∧
      c'.cfg.limits.get? id = some l := by
  have key : c.assertDegenPool x.now id = .ok () → ∃ p, c.pools[id]? = some (.curve p) ∧
      p.kind = .degen ∧ ∀ t ∈ p.toks, ∃ d, c.cfg.degens.get? t = some d ∧ d.price ≠ none := by
    intro h
    unfold assertDegenPool getPool at h
    unpack at h
    obtain ⟨i, ⟨p, hp, hi⟩, hk⟩ := h
    cases p with
    | simple p =>
      cases hi
      cases hk
    | curve p =>
      unfold poolInfo at hi
      unpack at hi
      obtain ⟨e, he, as, -, rfl⟩ := hi
      simp only [Option.some.injEq] at hk
      refine ⟨p, pool_ok.1 hp, hk, ?_⟩
      unfold Config.env at he
      simp only [hk] at he
      unpack at he
      obtain ⟨ps, hps, -⟩ := he
      exact Config.degensOf_priced hps
  rcases h with h | h <;>
  · simp only [exec, setting, applySetting] at h
    unpack at h
    obtain ⟨_, ⟨_, ⟨_, -, _, -, _, hd, -, rfl⟩, rfl⟩, rfl, -⟩ := h
    obtain ⟨p, hp, hk, ht⟩ := key hd
    exact ⟨p, hp, hk, ht, by simp [FMap.get?_insert]⟩

/-- The owner changes the limit of pool 3; a pool of another kind gets none, and neither does pool 3
once a price is missing. -/
example : (c4.exec (y own) (.setting (.updateLimit 3 500))).holds (fun _ => true) = true ∧
    (c4.exec (y own) (.setting (.addLimit 2 500))).holds (fun _ => true) = false ∧
    (c4.exec (y own) (.setting (.updateDegen A (.priceOracle 18)))).holds (fun r =>
      !(r.1.exec (y own) (.setting (.updateLimit 3 500))).holds (fun _ => true)) = true := by
  decide +kernel

end Contract

end Verif

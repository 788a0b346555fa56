import Verif.Exchange.TwapView
import Verif.Exchange.TwapProps
import Verif.Exchange.PoolSteps

/-
When the contract samples a pool for its averages: every event that changes what a share of the pool
redeems, apart from those named by `Event.Silent`, first feeds the record what it redeemed before.
-/

namespace Verif

/-- Events that add liquidity to the pool or remove it without a sample: hot zaps, withdrawals of the
fees of the exchange, liquidations. -/
def Event.Silent (id : Nat) : Event → Prop
  | .call _ (.ftOnTransfer _ _ (.hotZap _ _ infos)) => ∃ i ∈ infos, i.pool = id
  | .call _ (.removeExchangeFee i _ _) => i = id
  | .call _ (.onBurrowLiquidation _ _ sid _ _) => shadowIdToPoolId sid = .ok id
  | _ => False

/-- The record of the pool is taken down. -/
def Event.Unregisters (id : Nat) : Event → Prop
  | .call _ (.unregisterTwap i) => i = id
  | _ => False

/-! ### What a share redeems -/

theorem Pool.viewRemoval_congr {p q : Pool} (hs : q.shape = p.shape) (hn : q.supply = p.supply)
    (ha : q.amounts = p.amounts) (a : AccountId) (k : Nat) (mins : List Nat) :
    (q.removeLiquidity a k mins true).map Prod.snd = (p.removeLiquidity a k mins true).map Prod.snd := by
  cases p with
  | simple p =>
    cases q with
    | simple q =>
      simp only [Pool.amounts, List.cons.injEq, and_true] at ha
      simp only [Pool.supply] at hn
      have hb : (q.removeLiquidity a k mins true).map Prod.snd =
          (p.removeLiquidity a k mins true).map Prod.snd := by
        unfold SimplePool.removeLiquidity
        split
        · rename_i m0 m1
          simp only [if_true, ok_bind, ha.1, ha.2, hn]
          cases SimplePool.payOut p.amt0 k p.supply m0 with
          | error e => rfl
          | ok r =>
            simp only [ok_bind]
            cases SimplePool.payOut p.amt1 k p.supply m1 with
            | error e => rfl
            | ok r' =>
              simp only [ok_bind]
              cases subW p.supply k <;> rfl
        · rfl
      have hc : ∀ r : SimplePool, ((Pool.simple r).removeLiquidity a k mins true).map Prod.snd =
          (r.removeLiquidity a k mins true).map Prod.snd := by
        intro r
        unfold Pool.removeLiquidity
        cases h : r.removeLiquidity a k mins true <;> simp only [h] <;> rfl
      rw [hc, hc, hb]
    | curve q => cases hs
  | curve p =>
    cases q with
    | simple q => cases hs
    | curve q =>
      obtain ⟨kind, toks, decs, cAmts, fee, shares, supply, a1, a2, a3, a4⟩ := p
      obtain ⟨kind', toks', decs', cAmts', fee', shares', supply', b1, b2, b3, b4⟩ := q
      simp only [Pool.shape, Prod.mk.injEq, Option.some.injEq] at hs
      obtain ⟨rfl, rfl, rfl⟩ := hs
      obtain rfl : cAmts' = cAmts := ha
      obtain rfl : supply' = supply := hn
      simp only [Pool.removeLiquidity, CurvePool.removeByShares, if_true, ok_bind]
      cases (assertE (mins.length = toks'.length) (Err.e 64) : R Unit) with
      | error e => rfl
      | ok r =>
        simp only [ok_bind]
        cases CurvePool.removeLoop kind' k supply' cAmts' decs' mins with
        | error e => rfl
        | ok r' =>
          simp only [ok_bind]
          cases subW supply' k <;> rfl

theorem Pool.unitShare_eq (p : Pool) : p.unitShare =
    if p.supply > 10 ^ p.shareDecimal then
      ((p.removeLiquidity "@view".toList (10 ^ p.shareDecimal) (p.tokens.map fun _ => 0) true).map
        Prod.snd).map some
    else .ok none := by
  unfold Pool.unitShare
  split
  · cases p.removeLiquidity "@view".toList (10 ^ p.shareDecimal) (p.tokens.map fun _ => 0) true <;> rfl
  · rfl

theorem Pool.unitShare_congr {p q : Pool} (hs : q.shape = p.shape) (hn : q.supply = p.supply)
    (ha : q.amounts = p.amounts) : q.unitShare = p.unitShare := by
  rw [Pool.unitShare_eq, Pool.unitShare_eq, hn, Pool.decimal_of_shape hs, Pool.tokens_of_shape hs,
    Pool.viewRemoval_congr hs hn ha]

namespace Contract

/-- What a share of the pool redeems. -/
def unit (c : Contract) (id : Nat) : R (Option (List Nat)) := do
  let p ← c.pool id
  p.unitShare

theorem unit_congr {c c' : Contract} {id : Nat} (h : c'.pools[id]? = c.pools[id]?) :
    c'.unit id = c.unit id := by
  unfold unit pool
  rw [h]

/-- An event either leaves alone what a share of the pool redeems, and the record of the pool, or it
feeds the record what a share redeemed before the event. -/
def Sampled (id now : Nat) (c c' : Contract) : Prop :=
  (c'.unit id = c.unit id ∧ c'.twaps.get? id = c.twaps.get? id) ∨
  ∃ u u' amounts, c.twaps.get? id = some u ∧ c.unit id = .ok (some amounts) ∧
    u.update (nanoToSec now) amounts c.cfg.recordInterval = .ok u' ∧ c'.twaps.get? id = some u'

theorem Sampled.same {id now : Nat} {c c' : Contract} (hp : c'.pools = c.pools)
    (ht : c'.twaps = c.twaps) : Sampled id now c c' :=
  .inl ⟨unit_congr (by rw [hp]), by rw [ht]⟩

/-- A change of a pool that keeps supply and reserves. -/
theorem Sampled.set {id now i : Nat} {c c' : Contract} {p q : Pool} (hp : c.pools[i]? = some p)
    (h : c'.pools = c.pools.set i q) (ht : c'.twaps = c.twaps)
    (hq : i = id → q.shape = p.shape ∧ q.supply = p.supply ∧ q.amounts = p.amounts) :
    Sampled id now c c' := by
  refine .inl ⟨?_, by rw [ht]⟩
  by_cases hi : i = id
  · subst hi
    unfold unit
    rw [pool_ok.2 hp, pool_ok.2 (show c'.pools[i]? = some q by rw [h, getElem?_set_some hp, if_pos rfl])]
    obtain ⟨h1, h2, h3⟩ := hq rfl
    exact Pool.unitShare_congr h1 h2 h3
  · refine unit_congr ?_
    rw [h, getElem?_set_some hp, if_neg (fun e => hi e.symm)]

/-! ### The hook -/

theorem twapHook_sampled {c c' : Contract} {now i : Nat} (h : c.twapHook now i = .ok c') (id : Nat) :
    (i ≠ id → c'.twaps.get? id = c.twaps.get? id) ∧
    (∀ amounts u, i = id → c.unit id = .ok (some amounts) → c.twaps.get? id = some u →
      ∃ u', u.update (nanoToSec now) amounts c.cfg.recordInterval = .ok u' ∧
        c'.twaps.get? id = some u') ∧
    (∀ u, i = id → c.twaps.get? id = some u → c'.twaps.get? id = some u ∨
      ∃ amounts u', u.update (nanoToSec now) amounts c.cfg.recordInterval = .ok u' ∧
        c'.twaps.get? id = some u') := by
  unfold twapHook at h
  split at h
  · rename_i hn
    cases h
    refine ⟨fun _ => rfl, fun _ _ e _ hu => ?_, fun _ _ hu => .inl hu⟩
    subst e
    rw [hn] at hu
    cases hu
  · rename_i u hu
    unpack at h
    obtain ⟨p, hp, un, hun, h⟩ := h
    split at h
    · cases h
      refine ⟨fun _ => rfl, fun _ _ e hs _ => ?_, fun _ _ hu => .inl hu⟩
      subst e
      unfold unit at hs
      rw [hp, ok_bind, hun] at hs
      cases hs
    · rename_i amounts
      unpack at h
      obtain ⟨u', hu', rfl⟩ := h
      refine ⟨fun e => ?_, fun _ v e hs hv => ?_, fun v e hv => ?_⟩
      · simp only [FMap.get?_insert]
        rw [if_neg (fun e' => e e'.symm)]
      · subst e
        unfold unit at hs
        rw [hp, ok_bind, hun] at hs
        cases hs
        rw [hu] at hv
        cases hv
        exact ⟨u', hu', by simp only [FMap.get?_insert, if_true]⟩
      · subst e
        rw [hu] at hv
        cases hv
        exact .inr ⟨amounts, u', hu', by simp only [FMap.get?_insert, if_true]⟩

/-- A change of one pool after its hook. -/
theorem Sampled.hook {id now i : Nat} {c c1 c' : Contract} {q : Pool}
    (hu : ∃ u, c.twaps.get? id = some u) (hs : ∃ as, c.unit id = .ok (some as))
    (h : c.twapHook now i = .ok c1) (hp : c'.pools = c.pools.set i q) (ht : c'.twaps = c1.twaps) :
    Sampled id now c c' := by
  obtain ⟨u, hu⟩ := hu
  obtain ⟨as, hs⟩ := hs
  obtain ⟨h1, h2, -⟩ := twapHook_sampled h id
  by_cases hi : i = id
  · obtain ⟨u', h3, h4⟩ := h2 _ _ hi hs hu
    exact .inr ⟨u, u', as, hu, hs, h3, by rw [ht, h4]⟩
  · refine .inl ⟨unit_congr ?_, by rw [ht, h1 hi]⟩
    rw [hp, List.getElem?_set]
    rw [if_neg hi]

end Contract

theorem CumInfo.update_last {u u' : CumInfo} {now iv : Nat} {as : List Nat}
    (h : u.update now as iv = .ok u') : u'.last = now ∧ u'.recs ≠ [] := by
  obtain ⟨-, hne, ⟨rfl, rfl⟩ | ⟨-, cum, -, h1, -, h2⟩⟩ := CumInfo.update_ok h
  · exact ⟨rfl, hne⟩
  · refine ⟨h1, ?_⟩
    rcases h2 with h2 | h2
    · rw [h2]; exact hne
    · rw [h2]
      split
      · intro e
        have := congrArg List.length e
        simp only [List.length_drop, List.length_append, List.length_cons, List.length_nil] at this
        have := List.length_pos_iff.2 hne
        omega
      · simp

theorem CumInfo.update_again {u u' : CumInfo} {iv : Nat} {as : List Nat}
    (h : u.update u.last as iv = .ok u') : u' = u := by
  obtain ⟨-, -, ⟨-, e⟩ | ⟨h, -⟩⟩ := CumInfo.update_ok h
  · exact e
  · omega

namespace Contract

/-- Swaps one after the other. -/
theorem _root_.Verif.Swaps.sampled {now id : Nat} {ref : Option (AccountId × Nat)} {c0 c c' : Contract}
    {steps : List SwapStep} (h : Swaps now ref c steps c') (hu : ∃ u, c0.twaps.get? id = some u)
    (hs : ∃ as, c0.unit id = .ok (some as)) (hc : c.cfg = c0.cfg) (hi : Sampled id now c0 c) :
    Sampled id now c0 c' := by
  induction h with
  | nil => exact hi
  | @cons c c1 c2 s steps h1 _ ih =>
    have key : ∃ ch q, c.twapHook now s.pool = .ok ch ∧ c1.twaps = ch.twaps ∧ c1.cfg = c.cfg ∧
        c1.pools = c.pools.set s.pool q := by
      rcases h1 with ⟨m, h⟩ | ⟨m, h⟩
      · unfold poolSwap at h
        unpack at h
        obtain ⟨ch, hh, p, hp, q, _, hs, c3, h2, rfl, rfl⟩ := h
        obtain ⟨tw, rfl⟩ := twapHook_ok hh
        obtain ⟨vs, rfl⟩ := recordVolume_ok h2
        exact ⟨_, q, hh, rfl, rfl, rfl⟩
      · unfold poolSwapByOutput at h
        unpack at h
        obtain ⟨ch, hh, p, hp, q, _, hs, c3, h2, rfl, rfl⟩ := h
        obtain ⟨tw, rfl⟩ := twapHook_ok hh
        obtain ⟨vs, rfl⟩ := recordVolume_ok h2
        exact ⟨_, q, hh, rfl, rfl, rfl⟩
    obtain ⟨ch, q, hh, ht, hcfg, hp⟩ := key
    refine ih (hcfg.trans hc) ?_
    rcases hi with ⟨h2, h3⟩ | ⟨u, u', as, h2, h3, h4, h5⟩
    · obtain ⟨u, hu⟩ := hu
      obtain ⟨as, hs⟩ := hs
      rcases Sampled.hook (id := id) ⟨u, h3.trans hu⟩ ⟨as, h2.trans hs⟩ hh hp ht with
        ⟨h4, h5⟩ | ⟨v, v', bs, h4, h5, h6, h7⟩
      · exact .inl ⟨h4.trans h2, h5.trans h3⟩
      · exact .inr ⟨v, v', bs, by rw [← h3, h4], by rw [← h2, h5], by rw [← hc]; exact h6, h7⟩
    · refine .inr ⟨u, u', as, h2, h3, h4, ?_⟩
      obtain ⟨h6, -, h7⟩ := twapHook_sampled hh id
      rw [ht]
      by_cases hi : s.pool = id
      · rcases h7 _ hi h5 with h | ⟨bs, u2, h, h8⟩
        · exact h
        · rw [← (CumInfo.update_last h4).1] at h
          rw [h8, CumInfo.update_again h]
      · rw [h6 hi, h5]

/-- Deposits of liquidity into other pools. -/
theorem _root_.Verif.Zaps.unsampled {now id : Nat} {sender : AccountId} {c c' : Contract}
    {is : List AddInfo} {steps : List ZapStep} (h : Zaps now sender c is steps c')
    (hi : ∀ i ∈ is, i.pool ≠ id) : c'.pools[id]? = c.pools[id]? ∧ c'.twaps = c.twaps := by
  induction h with
  | nil => exact ⟨rfl, rfl⟩
  | cons h1 _ ih =>
    obtain ⟨p, q, hp, -, -, -, -, rfl⟩ := h1
    obtain ⟨h2, h3⟩ := ih fun i h => hi i (List.mem_cons_of_mem _ h)
    refine ⟨h2.trans ?_, h3⟩
    simp only [List.getElem?_set]
    rw [if_neg (hi _ List.mem_cons_self)]

/-- Shares change hands. -/
theorem internalMftTransfer_sampled {c c' : Contract} {tokenId : List Char} {id now : Nat}
    {sender receiver : AccountId} {amount : Option Nat} {n : Nat}
    (h : c.internalMftTransfer tokenId sender receiver amount = .ok (c', n)) :
    Sampled id now c c' := by
  obtain ⟨-, ⟨i, -, h⟩ | ⟨t, -, h⟩⟩ := internalMftTransfer_inv h
  · obtain ⟨p, q, hp, -, -, -, -, hq, rfl⟩ := transferShares_inv h
    have ho := Pool.shareTransfer_only hq
    exact .set hp rfl rfl fun _ => ⟨ho.shape, ho.supply, ho.amounts⟩
  · obtain ⟨_, _, _, _, -, -, -, -, -, -, -, rfl⟩ := transferToken_inv h
    exact .same rfl rfl

theorem handleFail_twaps {c c' : Contract} {x : Ctx} {a token : AccountId} {amount : Nat}
    (h : c.handleFail x a token amount = .ok c') : c'.pools = c.pools ∧ c'.twaps = c.twaps := by
  rcases handleFail_inv h with ⟨_, _, -, -, rfl⟩ | rfl | ⟨_, -, rfl⟩ <;> exact ⟨rfl, rfl⟩

theorem exec_sampled {c c' : Contract} {x : Ctx} {k : Call} {outs : List Out} {id : Nat}
    (h : c.exec x k = .ok (c', outs)) (hsil : ¬ (Event.call x k).Silent id)
    (hreg : ¬ (Event.call x k).Unregisters id) (hu : ∃ u, c.twaps.get? id = some u)
    (hs : ∃ as, c.unit id = .ok (some as)) : Sampled id x.now c c' := by
  have hid : ∃ p, c.pools[id]? = some p := by
    obtain ⟨as, hs⟩ := hs
    unfold unit at hs
    unpack at hs
    obtain ⟨p, hp, -⟩ := hs
    exact ⟨p, pool_ok.1 hp⟩
  have refl : Sampled id x.now c c := .same rfl rfl
  cases k <;> simp only [exec] at h
  case addSimplePool =>
    obtain ⟨_, -, hn, hp, h⟩ := addSimplePool_inv h
    obtain ⟨_, _, hr, -, rfl⟩ := addPool_inv h
    refine .inl ⟨unit_congr ?_, rfl⟩
    obtain ⟨p, hp⟩ := hid
    rw [List.getElem?_append_left (by
      rcases Nat.lt_or_ge id c.pools.length with h | h
      · exact h
      · rw [List.getElem?_eq_none h] at hp; cases hp)]
  case addCurvePool =>
    obtain ⟨_, -, hl, hn, hp, h⟩ := addCurvePool_inv h
    obtain ⟨_, _, hr, -, rfl⟩ := addPool_inv h
    refine .inl ⟨unit_congr ?_, rfl⟩
    obtain ⟨p, hp⟩ := hid
    rw [List.getElem?_append_left (by
      rcases Nat.lt_or_ge id c.pools.length with h | h
      · exact h
      · rw [List.getElem?_eq_none h] at hp; cases hp)]
  case executeActions =>
    unpack at h; obtain ⟨_, _, h, rfl, -⟩ := h
    obtain ⟨_, _, c1, -, -, -, -, h2, -, rfl⟩ := executeActions_inv h
    obtain ⟨_, hw, -⟩ := runActions_ok h2
    exact hw.sampled hu hs rfl refl
  case executeInVa =>
    unpack at h; obtain ⟨_, _, h, rfl, -⟩ := h
    obtain ⟨_, _, _, _, _, c1, _, -, -, -, -, -, h2, -, -, -, rfl⟩ := executeInVa_inv h
    obtain ⟨_, hw, -⟩ := runActions_ok h2
    exact hw.sampled hu hs rfl refl
  case addLiquidity =>
    unpack at h; obtain ⟨_, _, _, h, rfl, -⟩ := h
    unfold addLiquidity at h
    unpack at h
    obtain ⟨_, -, -, c1, hh, p, -, _, -, q, _, _, -, _, -, acc, -, acc', -, c2, h10, fee, outs', -, rfl,
      -, -⟩ := h
    obtain ⟨tw, rfl⟩ := twapHook_ok hh
    obtain ⟨-, rfl⟩ := saveAccount_ok.1 h10
    exact .hook hu hs hh rfl rfl
  case addStableLiquidity =>
    unpack at h; obtain ⟨_, _, _, h, rfl, -⟩ := h
    unfold addStableLiquidity at h
    unpack at h
    obtain ⟨_, -, -, c1, hh, p, -, _, -, q, _, -, _, -, acc, -, acc', -, c2, h10, fee, outs', -, rfl,
      -, -⟩ := h
    obtain ⟨tw, rfl⟩ := twapHook_ok hh
    obtain ⟨-, rfl⟩ := saveAccount_ok.1 h10
    exact .hook hu hs hh rfl rfl
  case removeLiquidity =>
    unpack at h; obtain ⟨_, _, h, rfl, -⟩ := h
    unfold removeLiquidity at h
    unpack at h
    obtain ⟨_, -, _, -, c1, hh, p, -, acc, -, _, -, _, -, q, _, -, acc', -, c2, h10, rfl, -⟩ := h
    obtain ⟨tw, rfl⟩ := twapHook_ok hh
    obtain ⟨-, rfl⟩ := saveAccount_ok.1 h10
    exact .hook hu hs hh rfl rfl
  case removeByTokens =>
    unpack at h; obtain ⟨_, _, h, rfl, -⟩ := h
    unfold removeByTokens at h
    unpack at h
    obtain ⟨_, -, _, -, c1, hh, p, -, acc, -, _, -, _, -, q, _, -, -, acc', -, c2, h10, rfl, -⟩ := h
    obtain ⟨tw, rfl⟩ := twapHook_ok hh
    obtain ⟨-, rfl⟩ := saveAccount_ok.1 h10
    exact .hook hu hs hh rfl rfl
  case registerTokens =>
    unpack at h; obtain ⟨_, h, rfl, -⟩ := h
    obtain ⟨_, -, -, -, -, rfl⟩ := registerTokens_inv h; exact .same rfl rfl
  case unregisterTokens =>
    unpack at h; obtain ⟨_, h, rfl, -⟩ := h
    obtain ⟨_, _, -, -, -, -, -, rfl⟩ := unregisterTokens_inv h; exact .same rfl rfl
  case withdraw =>
    obtain ⟨_, _, _, _, -, -, -, -, -, -, -, -, -, rfl, -⟩ := withdraw_inv h
    exact .same rfl rfl
  case claimLostfound =>
    obtain ⟨-, -, -, -, rfl, -⟩ := claimLostfound_inv h; exact .same rfl rfl
  case ftOnTransfer =>
    obtain ⟨-, -, ⟨-, -, h, -⟩ | ⟨_, _, _, _, _, -, h⟩ | ⟨_, _, _, hm, -, h⟩⟩ := ftOnTransfer_inv h
    · obtain ⟨_, _, -, -, -, -, rfl⟩ := deposit_inv h; exact .same rfl rfl
    · obtain ⟨_, -, -, -, h, -⟩ := instantSwap_inv h
      obtain ⟨_, _, _, hw, -⟩ := directActions_ok h
      exact hw.sampled hu hs rfl refl
    · obtain ⟨_, _, _, _, _, _, _, _, -, -, -, -, -, -, h2, hz, -, -, -, -, rfl⟩ := hotZap_inv h
      obtain ⟨_, _, _, hw, -⟩ := directActions_ok h2
      have hz := hz.unsampled (id := id) fun i hi e => hsil (by subst hm; exact ⟨i, hi, e⟩)
      rcases hw.sampled hu hs rfl refl with ⟨h3, h4⟩ | ⟨u, u', as, h3, h4, h5, h6⟩
      · exact .inl ⟨(unit_congr hz.1).trans h3, (congrArg (FMap.get? · id) hz.2).trans h4⟩
      · exact .inr ⟨u, u', as, h3, h4, h5, (congrArg (FMap.get? · id) hz.2).trans h6⟩
  case mftTransfer =>
    unpack at h; obtain ⟨_, h, rfl, -⟩ := h
    obtain ⟨-, -, _, h⟩ := mftTransfer_inv h
    exact internalMftTransfer_sampled h
  case mftTransferCall =>
    obtain ⟨-, -, _, h, -⟩ := mftTransferCall_inv h
    exact internalMftTransfer_sampled h
  case mftRegister =>
    obtain ⟨_, _, _, _, -, -, hp, hq, -, rfl⟩ := mftRegister_inv h
    have ho := (Pool.shareRegister_only hq).1
    exact .set hp rfl rfl fun _ => ⟨ho.shape, ho.supply, ho.amounts⟩
  case mftUnregister =>
    obtain ⟨_, _, _, -, -, -, hp, hq, -, rfl⟩ := mftUnregister_inv h
    have ho := (Pool.shareUnregister_only hq).1
    exact .set hp rfl rfl fun _ => ⟨ho.shape, ho.supply, ho.amounts⟩
  case storageDeposit =>
    obtain ⟨-, -, rfl | ⟨_, _, h⟩⟩ := storageDeposit_inv h
    · exact refl
    · obtain ⟨_, -, -, -, -, rfl⟩ := registerAccount_inv h; exact .same rfl rfl
  case storageWithdraw =>
    obtain ⟨_, _, -, -, -, -, -, -, -, rfl⟩ := storageWithdraw_inv h; exact .same rfl rfl
  case storageUnregister =>
    obtain ⟨-, -, ⟨-, rfl, -⟩ | ⟨_, -, -, -, rfl, -⟩⟩ := storageUnregister_inv h <;>
      exact .same rfl rfl
  case shadowAction =>
    obtain ⟨_, _, _, _, -, -, -, -, -, -, -, ⟨-, rfl, -⟩ | ⟨-, _, _, _, -, -, -, rfl, -⟩⟩ :=
      shadowAction_inv h <;> exact .same rfl rfl
  case onBurrowLiquidation =>
    obtain ⟨i, _, _, _, _, _, _, _, _, _, _, -, -, hd, hp, -, -, -, -, -, -, -, -, hq, -, -, rfl,
      -⟩ := onBurrowLiquidation_inv h
    exact .set hp rfl rfl fun e => absurd (by subst e; exact hd) hsil
  case donationShare i amount unregister =>
    obtain ⟨_, _, q, q', -, -, hp, -, -, hq, hw, -, hc⟩ := donationShare_inv h
    have ho := Pool.shareTransfer_only hq
    have : q'.shape = q.shape ∧ q'.supply = q.supply ∧ q'.amounts = q.amounts := by
      rcases hw with ⟨rfl, -⟩ | ⟨-, hw⟩
      · exact ⟨rfl, rfl, rfl⟩
      · have ho := (Pool.shareUnregister_only hw).1
        exact ⟨ho.shape, ho.supply, ho.amounts⟩
    rcases hc with rfl | ⟨_, _, -, -, -, rfl⟩ <;>
      exact .set hp rfl rfl fun _ => ⟨this.1.trans ho.shape, this.2.1.trans ho.supply,
        this.2.2.trans ho.amounts⟩
  case donationToken =>
    unpack at h; obtain ⟨_, h, rfl, -⟩ := h
    obtain ⟨_, _, _, _, _, _, -, -, -, -, -, -, -, -, -, -, rfl⟩ := donationToken_inv h
    exact .same rfl rfl
  case setting s =>
    unpack at h; obtain ⟨_, h, rfl, -⟩ := h
    obtain ⟨g, h2, rfl⟩ := setting_inv h
    exact .same rfl rfl
  case retrieveUnmanaged =>
    unpack at h; obtain ⟨_, h, rfl, -⟩ := h; exact refl
  case modifyTotalFee =>
    unpack at h; obtain ⟨_, h, rfl, -⟩ := h
    obtain ⟨_, -, -, hf, hp, rfl⟩ := modifyTotalFee_inv h
    obtain ⟨h1, -, h2, -, -, h3⟩ := Pool.setFee_facts _ _
    exact .set hp rfl rfl fun _ => ⟨h1, h2, h3⟩
  case removeExchangeFee =>
    unpack at h; obtain ⟨_, h, rfl, -⟩ := h
    obtain ⟨_, _, _, _, _, -, -, -, hp, hq, -, -, -, rfl⟩ := removeExchangeFee_inv h
    exact .set hp rfl rfl fun e => absurd e hsil
  case withdrawOwnerToken =>
    obtain ⟨_, _, -, -, -, -, -, -, rfl, -⟩ := withdrawOwnerToken_inv h; exact .same rfl rfl
  case rampAmp =>
    unpack at h; obtain ⟨_, h, rfl, -⟩ := h
    obtain ⟨_, _, -, -, hp, hq, rfl⟩ := rampAmp_inv h
    have ho := Pool.ramp_only hq
    exact .set hp rfl rfl fun _ => ⟨ho.shape, ho.supply, ho.amounts⟩
  case stopRampAmp =>
    unpack at h; obtain ⟨_, h, rfl, -⟩ := h
    obtain ⟨_, _, -, -, hp, hq, rfl⟩ := stopRampAmp_inv h
    have ho := Pool.stopRamp_only hq
    exact .set hp rfl rfl fun _ => ⟨ho.shape, ho.supply, ho.amounts⟩
  case registerTwap i =>
    unpack at h; obtain ⟨_, h, rfl, -⟩ := h
    unfold registerTwap at h
    unpack at h
    obtain ⟨_, -, _, -, hn, p, -, _, -, as, -, rfl⟩ := h
    refine .inl ⟨rfl, ?_⟩
    simp only [FMap.get?_insert]
    rw [if_neg]
    rintro rfl
    obtain ⟨u, hu⟩ := hu
    rw [hn] at hu
    cases hu
  case unregisterTwap i =>
    unpack at h; obtain ⟨_, h, rfl, -⟩ := h
    unfold unregisterTwap at h
    unpack at h
    obtain ⟨_, -, _, -, -, rfl⟩ := h
    refine .inl ⟨rfl, ?_⟩
    simp only [FMap.get?_erase]
    rw [if_neg (fun e => hreg e.symm)]
  case syncTwap i =>
    unpack at h; obtain ⟨_, h, rfl, -⟩ := h
    unfold syncTwap at h
    unpack at h
    obtain ⟨_, -, u, hw, p, hp, un, hun, as, has, u', hu', rfl⟩ := h
    subst has
    by_cases hi : id = i
    · subst hi
      refine .inr ⟨u, u', as, hw, ?_, hu', ?_⟩
      · unfold unit; rw [hp, ok_bind, hun]
      · simp only [FMap.get?_insert, if_true]
    · refine .inl ⟨rfl, ?_⟩
      simp only [FMap.get?_insert]
      rw [if_neg hi]

theorem callback_sampled {c c' : Contract} {x : Ctx} {out : Out} {o : Outcome} {outs : List Out}
    {id now : Nat} (h : c.callback x out o = .ok (c', outs)) : Sampled id now c c' := by
  have refl : Sampled id now c c := .same rfl rfl
  cases out <;> simp only [callback] at h
  case ft =>
    cases o <;> simp only [] at h
    · cases h; exact refl
    · unpack at h; obtain ⟨_, h, rfl, -⟩ := h
      have := handleFail_twaps h; exact .same this.1 this.2
  case ftCall =>
    cases o <;> simp only [] at h
    · cases h; exact refl
    · unpack at h; obtain ⟨_, h, rfl, -⟩ := h
      have := handleFail_twaps h; exact .same this.1 this.2
  case unwrap =>
    cases o <;> simp only [] at h
    · cases h; exact refl
    · unpack at h; obtain ⟨_, -, _, h, rfl, -⟩ := h
      have := handleFail_twaps h; exact .same this.1 this.2
  case mftCall =>
    unpack at h; obtain ⟨_, _, h, rfl, -⟩ := h
    obtain ⟨-, rfl | ⟨_, _, -, -, -, h⟩⟩ := mftResolve_inv h
    · exact refl
    · exact internalMftTransfer_sampled h
  case shadow =>
    obtain ⟨-, rfl | ⟨_, -, rfl | ⟨_, _, -, -, -, -, rfl⟩⟩⟩ := callbackOnShadow_inv h <;>
      exact .same rfl rfl
  all_goals (cases h; exact refl)

end Contract

/-- The event happens at time `now` (in nanoseconds). Replies of the oracles do not tell the time. -/
def Event.At (now : Nat) : Event → Prop
  | .call x _ => x.now = now
  | .callback x _ _ => x.now = now
  | _ => True

namespace Contract

/-- Whatever happens, apart from what is said to be silent, the pool is sampled before it changes. -/
theorem apply_sampled {c c' : Contract} {e : Event} {outs : List Out} {id now : Nat}
    (h : c.apply e = .ok (c', outs)) (hat : e.At now) (hsil : ¬ e.Silent id)
    (hreg : ¬ e.Unregisters id) (hu : ∃ u, c.twaps.get? id = some u)
    (hs : ∃ as, c.unit id = .ok (some as)) : Sampled id now c c' := by
  cases e <;> simp only [apply] at h
  case call x k => obtain rfl : x.now = now := hat; exact exec_sampled h hsil hreg hu hs
  case callback => exact callback_sampled h
  case rate t r time => cases h; unfold setRate; split <;> exact .same rfl rfl
  case price t p time => cases h; unfold setDegenPrice; split <;> exact .same rfl rfl

end Contract
end Verif

import Verif.Exchange.PredictRuns
import Verif.Exchange.SwapProps

/-
C18: what the views predict is what the calls do.

The stored execution does more than the view: it takes price samples, counts volumes, credits
shares, checks minimum amounts and storage. It may therefore fail where the view gives an answer. The
theorems say that whenever the call succeeds, the view on the state before it gives an answer, and
the answer is what the call did. The calls may name any referral, the views take none.
-/

namespace Verif
namespace Contract

/-- **C18**, `get_return`: if a swap of `a` succeeds, its result is what the view reports. -/
theorem C18_get_return {c c' : Contract} {x : Ctx} {id a minOut : Nat} {ti tout : AccountId}
    {referral : Option AccountId} {res : ActionResult}
    (h : c.executeActions x [.swap ⟨id, ti, some a, tout, minOut⟩] referral = .ok (c', res)) :
    ∃ out, c.getReturn x.now id ti a tout = .ok out ∧ res = some out := by
  obtain ⟨acc, acc', c1, -, -, -, -, g, -⟩ := executeActions_inv h
  unfold runActions at g
  unpack at g
  obtain ⟨-, _, -, g⟩ := g
  change c.runSwaps x.now _ acc none [_] = _ at g
  simp only [runSwaps, amountOr, ok_bind] at g
  unpack at g
  obtain ⟨acc1, -, c2, out, hs, acc2, -, -, -, rfl⟩ := g
  obtain ⟨tw, vs, p, q, hp, hs, -, -⟩ := poolSwap_ok hs
  obtain ⟨⟨p', out'⟩, hv, -, e⟩ := Pool.swap_sim (.rfl' p) (fees_quote (c0 := c) rfl (.inr rfl)) ti a
    tout (Nat.zero_le _) _ _ hs
  simp only at e
  subst e
  refine ⟨_, ?_, rfl⟩
  unfold getReturn
  rw [pool_ok.2 hp, ok_bind, hv]
  rfl

/-- **C18**, `get_return_by_output`: if a swap for a given output succeeds, it takes the input that
the view reports. -/
theorem C18_get_return_by_output {c c' : Contract} {x : Ctx} {id out : Nat} {maxIn : Option Nat}
    {ti tout : AccountId} {referral : Option AccountId} {res : ActionResult}
    (h : c.executeActions x [.byOutput ⟨id, ti, some out, tout, maxIn⟩] referral = .ok (c', res)) :
    ∃ a, c.getReturnByOutput id ti out tout = .ok a ∧ res = some a := by
  obtain ⟨acc, acc', c1, -, -, -, -, g, -⟩ := executeActions_inv h
  unfold runActions at g
  unpack at g
  obtain ⟨-, _, -, g⟩ := g
  change c.runOuts x.now _ acc none none [_] = _ at g
  simp only [runOuts, amountOr, ok_bind] at g
  unpack at g
  obtain ⟨acc1, -, c2, a, hs, acc2, -, -, -, rfl⟩ := g
  obtain ⟨tw, vs, p, q, hp, hs, -, -⟩ := poolSwapByOutput_ok hs
  obtain ⟨⟨p', a'⟩, hv, -, e⟩ := Pool.swapByOutput_sim (.rfl' p) (fees_quote (c0 := c) rfl (.inr rfl))
    ti out tout (.inr rfl) _ hs
  simp only at e
  subst e
  refine ⟨_, ?_, rfl⟩
  unfold getReturnByOutput
  rw [pool_ok.2 hp, ok_bind, hv]
  rfl

/-- **C18**, `predict_swap_actions` for swaps on the caller's deposits. Given these deposits the
view reports the deposits after the call. -/
theorem C18_execute_actions {c c' : Contract} {x : Ctx} {actions : List Action}
    {referral : Option AccountId} {outs : List Out}
    (h : c.exec x (.executeActions actions referral) = .ok (c', outs)) {deposits : TokenCache}
    (hd : ∀ t, deposits.getD t 0 = c.depositOf x.pred t) (hb : ∀ t, deposits.getD t 0 < 2 ^ 128) :
    ∃ result, c.predictSwapActions x.now deposits actions = .ok result ∧
      ∀ t, result.getD t 0 = c'.depositOf x.pred t := by
  simp only [exec] at h
  unpack at h; obtain ⟨_, _, h, rfl, rfl⟩ := h
  obtain ⟨acc, acc', c1, -, -, ha, -, g, -, rfl⟩ := executeActions_inv h
  have hc : deposits.Covers acc := by
    intro t
    have e : c.depositOf x.pred t = acc.bal t := by simp only [depositOf, ha]
    rw [← e, ← hd t]
    exact ⟨rfl, hb t⟩
  obtain ⟨⟨pc, tc, res⟩, hv, -, ht, -⟩ := runActions_sim x.now (.inr rfl) actions none hc _ g
  simp only at ht
  refine ⟨tc, ?_, fun t => ?_⟩
  · unfold predictSwapActions
    rw [hv]
    rfl
  · rw [(ht t).1]
    simp only [depositOf, putAccount, FMap.get?_insert, if_true]

/-- **C18**, `predict_swap_actions` for swaps on part of the caller's deposits. Given this part the
view reports what comes back. -/
theorem C18_execute_in_va {c c' : Contract} {x : Ctx} {uses left : List (AccountId × Nat)}
    {actions : List Action} {referral : Option AccountId}
    (h : c.executeInVa x uses actions referral = .ok (c', left)) {deposits : TokenCache}
    (hd : ∀ t, deposits.getD t 0 = amountIn uses t) (hb : ∀ t, deposits.getD t 0 < 2 ^ 128) :
    ∃ result, c.predictSwapActions x.now deposits actions = .ok result ∧
      (∀ t, result.getD t 0 = amountIn left t) ∧
      ∀ t, c'.depositOf x.pred t + amountIn uses t = c.depositOf x.pred t + result.getD t 0 := by
  obtain ⟨acc, acc1, virt, virt', acc', c1, res, -, -, ha, -, hu, g, rfl, h3, -, rfl⟩ := executeInVa_inv h
  obtain ⟨-, -, e1, e2, -⟩ := useTokens_ok hu
  have hc : deposits.Covers virt := by
    intro t
    have e : virt.bal t = amountIn uses t := by rw [e2]; exact Nat.zero_add _
    rw [e, ← hd t]
    exact ⟨rfl, hb t⟩
  obtain ⟨⟨pc, tc, res⟩, hv, -, ht, -⟩ := runActions_sim x.now (.inr rfl) actions none hc _ g
  simp only at ht
  refine ⟨tc, ?_, fun t => ?_, fun t => ?_⟩
  · unfold predictSwapActions
    rw [hv]
    rfl
  · rw [(ht t).1, Account.amountIn_positive]
  · have e3 := (Account.depositPairs_ok h3).2.1 t
    rw [Account.amountIn_positive] at e3
    rw [(ht t).1]
    have e4 := e1 t
    simp only [depositOf, putAccount, FMap.get?_insert, if_true, ha]
    omega

/-- The first action says how much it swaps. -/
def _root_.Verif.Action.StartsOwn : List Action → Prop
  | .swap s :: _ => s.amtIn.isSome = true
  | _ => True

theorem directActions_sim {c c' : Contract} {now n : Nat} {r : Option (AccountId × Nat)}
    {ref : Option AccountId} {t0 : AccountId} {actions : List Action} {left : List (AccountId × Nat)}
    (hr : r = c.referralInfo ref ∨ r = none)
    (h : c.directActions now ref t0 n actions = .ok (c', left)) :
    ∃ tc0 prev pc tc res, TokenCache.add FMap.empty t0 n = .ok tc0 ∧
      (match actions with
        | [] => .error .index
        | .swap _ :: _ => .ok (some n)
        | .byOutput _ :: _ => .ok none : R ActionResult) = .ok prev ∧
      c.runActionsCached now r FMap.empty tc0 prev actions = .ok (pc, tc, res) ∧
      c.Mirrors pc c' ∧ ∀ t, tc.getD t 0 = amountIn left t := by
  unfold directActions at h
  unpack at h
  obtain ⟨acc, h1, prev, hp, c1, acc1, res, h2, rfl, rfl⟩ := h
  have h0 : TokenCache.Covers FMap.empty Account.new := fun t => ⟨rfl, Nat.two_pow_pos _⟩
  obtain ⟨tc0, g1, hc⟩ := h0.deposit t0 n _ h1
  obtain ⟨⟨pc, tc, res'⟩, hv, hm, ht, -⟩ := runActions_sim now hr actions prev hc _ h2
  simp only at hm ht
  exact ⟨tc0, prev, pc, tc, res', g1, hp, hv, hm, fun t => by rw [(ht t).1, Account.amountIn_positive]⟩

/-- **C18**, `predict_swap_actions` for swaps on a token transfer. Given the transferred amount the
view reports what is paid out. -/
theorem C18_instant_swap {c c' : Contract} {x : Ctx} {sender : AccountId} {amount : Nat}
    {referral : Option AccountId} {actions : List Action} {echo : Bool} {skip : Option Bool}
    {recipient : Option AccountId} {outs : List Out}
    (h : c.exec x (.ftOnTransfer sender amount (.execute referral actions echo skip recipient)) =
      .ok (c', outs)) (ha : Action.StartsOwn actions) :
    ∃ result, c.predictSwapActions x.now (FMap.empty.insert x.pred amount) actions = .ok result ∧
      ∀ t, result.getD t 0 = paysOut outs t := by
  simp only [exec] at h
  obtain ⟨-, -, ⟨hd, -⟩ | ⟨_, _, _, _, _, hd, h⟩ | ⟨_, _, _, hd, -⟩⟩ := ftOnTransfer_inv h <;>
    cases hd
  obtain ⟨left, he, -, -, h2, -, rfl⟩ := instantSwap_inv h
  obtain ⟨tc0, prev, pc, tc, res, h1, hp, hv, -, ht⟩ := directActions_sim (.inr rfl) h2
  unfold TokenCache.add at h1
  unpack at h1
  obtain ⟨-, e0⟩ := h1
  simp only [FMap.getD, FMap.get?_empty, Option.getD_none, Nat.zero_add] at e0
  subst e0
  refine ⟨tc, ?_, fun t => ?_⟩
  · have e : c.runActionsCached x.now none FMap.empty (FMap.empty.insert x.pred amount) none actions =
        .ok (pc, tc, res) := by
      rw [← hv]
      cases actions with
      | nil => cases hp
      | cons a l =>
        cases a with
        | byOutput s => cases hp; rfl
        | swap s =>
          cases hp
          obtain ⟨id, ti, a, tout, m⟩ := s
          cases a with
          | none => cases ha
          | some n =>
            rfl
    unfold predictSwapActions
    rw [e]
    rfl
  · rw [ht, (payOut_pays c' sender echo skip recipient he left).1]

/-- **C18**, `predict_add_simple_liquidity`: an addition of liquidity to a constant-product pool takes
the amounts and mints the shares that the view reports. -/
theorem C18_add_liquidity {c c' : Contract} {x : Ctx} {id : Nat} {amounts : List Nat}
    {mins : Option (List Nat)} {outs : List Out} {minted : Nat}
    (h : c.addLiquidity x id amounts mins = .ok (c', outs, minted)) :
    ∃ p used, c.pools[id]? = some p ∧ c.predictAdd id amounts = .ok (used, minted) ∧
      ∀ t, c'.depositOf x.pred t + flow p.tokens used t = c.depositOf x.pred t := by
  obtain ⟨tw, p, q, used, acc, acc', _, -, -, hp, -, ha, -, h1, h2, -, -, rfl⟩ := addLiquidity_inv h
  obtain ⟨⟨p', used', n⟩, e1, -, e2⟩ := Pool.addLiquidity_sim (.rfl' p) VIEW x.pred amounts _ ha
  simp only [Prod.mk.injEq] at e2
  obtain ⟨rfl, rfl⟩ := e2
  refine ⟨p, used', hp, ?_, fun t => ?_⟩
  · unfold predictAdd
    rw [pool_ok.2 hp, ok_bind, e1]
    rfl
  · simp only [depositOf_eq, balIn_insert, if_true, balIn_some h1]
    rw [← Pool.tokens_of_shape (Pool.addLiquidity_shape ha).1]
    exact (Account.withdrawAll_ok h2).2.1 t

/-- **C18**, `predict_add_stable_liquidity`: an addition of liquidity to a stable-swap pool mints the
shares that the view reports. -/
theorem C18_add_stable {c c' : Contract} {x : Ctx} {id minShares : Nat} {amounts : List Nat}
    {outs : List Out} {minted : Nat}
    (h : c.addStableLiquidity x id amounts minShares = .ok (c', outs, minted)) :
    c.predictAddStable x.now id amounts = .ok minted := by
  obtain ⟨tw, p, q, acc, acc', _, -, -, hp, -, ha, -⟩ := addStableLiquidity_inv h
  obtain ⟨⟨p', n⟩, e1, -, e2⟩ := Pool.addStable_sim (.rfl' p) (fees_quote (c0 := c) rfl (.inl rfl)) VIEW
    x.pred amounts (Nat.zero_le _) _ _ ha
  simp only at e2
  subst e2
  unfold predictAddStable
  rw [pool_ok.2 hp, ok_bind, e1]
  rfl

/-- **C18**, `predict_remove_liquidity`: a removal of liquidity pays the amounts that the view
reports. -/
theorem C18_remove_liquidity {c c' : Contract} {x : Ctx} {id shares : Nat} {mins paid : List Nat}
    (h : c.removeLiquidity x id shares mins = .ok (c', paid)) :
    c.predictRemove id shares = .ok paid := by
  obtain ⟨tw, p, q, acc, acc', -, -, hp, -, -, -, hr, -⟩ := removeLiquidity_inv h
  have hm := (Pool.removeLiquidity_mins hr).1
  obtain ⟨⟨p', out⟩, e1, -, e2⟩ := Pool.removeLiquidity_sim (.rfl' p) VIEW x.pred shares
    (ms := p.tokens.map fun _ => 0) (by simp [hm]) (by simp) _ hr
  simp only at e2
  subst e2
  unfold predictRemove
  rw [pool_ok.2 hp, ok_bind, e1]
  rfl

/-- **C18**, `predict_remove_liquidity_by_tokens`: a withdrawal of given amounts burns the shares that
the view reports. -/
theorem C18_remove_by_tokens {c c' : Contract} {x : Ctx} {id maxBurn burnt : Nat} {amounts : List Nat}
    (h : c.removeByTokens x id amounts maxBurn = .ok (c', burnt)) :
    c.predictRemoveByTokens x.now id amounts = .ok burnt := by
  obtain ⟨tw, p, q, acc, acc', -, -, hp, -, -, -, hr, -⟩ := removeByTokens_inv h
  obtain ⟨⟨p', n⟩, e1, -, e2⟩ := Pool.removeByTokens_sim (.rfl' p) (fees_quote (c0 := c) rfl (.inl rfl))
    VIEW x.pred amounts (2 ^ 128 - 1) maxBurn _ _ hr
  simp only at e2
  subst e2
  unfold predictRemoveByTokens
  rw [pool_ok.2 hp, ok_bind, e1]
  rfl

/-- **C18**, `predict_hot_zap`: a hot zap credits the sender with the tokens that the view reports as
left over, and with the shares it reports, provided the sender is neither the exchange itself nor paid
as the referral. -/
theorem C18_hot_zap {c c' : Contract} {x : Ctx} {sender : AccountId} {amount : Nat}
    {referral : Option AccountId} {actions : List Action} {infos : List AddInfo} {outs : List Out}
    (h : c.exec x (.ftOnTransfer sender amount (.hotZap referral actions infos)) = .ok (c', outs)) :
    ∃ preds rest, c.predictHotZap x.now referral (some sender) x.pred amount actions infos =
        .ok (some (preds, rest)) ∧
      preds.length = infos.length ∧
      (∀ t, c'.depositOf sender t = c.depositOf sender t + rest.getD t 0) ∧
      (sender ≠ c.self → referral ≠ some sender → ∀ id,
        c'.sharesOf id sender = c.sharesOf id sender + predictedShares id infos preds) := by
  simp only [exec] at h
  obtain ⟨-, -, ⟨hd, -⟩ | ⟨_, _, _, _, _, hd, -⟩ | ⟨_, _, _, hd, -, h⟩⟩ := ftOnTransfer_inv h <;>
    cases hd
  unfold hotZap at h
  unpack at h
  obtain ⟨h1, h2, acc, h3, ts, h4, h5, _, h6, c1, left, h7, cache, h8, c2, cache', h9, h10, acc', h11,
    h12⟩ := h
  rw [saveAccount_ok] at h12
  obtain ⟨-, rfl⟩ := h12
  obtain ⟨tc0, prev, pc, tc, res, g1, hp, hv, hm, ht⟩ := directActions_sim (.inl rfl) h7
  have hcache : ∀ t, tc.getD t 0 = cache.getD t 0 := by
    intro t
    rw [ht, TokenCache.addPairs_ok h8 t]
    exact (Nat.zero_add _).symm
  obtain ⟨⟨preds, rest⟩, g2, hrest, hl, hsh⟩ := zapLoop_sim c x.now sender infos hm hcache _ h9
  simp only at hrest hl hsh
  obtain ⟨_, _, _, hs, -⟩ := directActions_ok h7
  obtain ⟨zaps, hz, -⟩ := zapLoop_ok h9
  have hfr := hs.framed.trans hz.framed.1
  refine ⟨preds, rest, ?_, hl, fun t => ?_, fun ha hr id => ?_⟩
  · unfold predictHotZap
    rw [if_neg (by rintro (e | e); exacts [h1 e, h2 e]), h4, ok_bind]
    simp only
    rw [h3, ok_bind, assertE_true h5, ok_bind, h6, ok_bind, g1, ok_bind]
    cases actions with
    | nil => cases hp
    | cons a l =>
      cases a <;>
      · cases hp
        simp only [ok_bind]
        rw [hv, ok_bind]
        simp only
        rw [g2]
        rfl
  · have e := (Account.depositPairs_ok h11).2.1 t
    rw [TokenCache.amountIn_entries] at e
    rw [hrest]
    simp only [depositOf, putAccount, FMap.get?_insert, if_true, account_ok.1 h3]
    rw [e]
    have e2 := Account.bal_congr (a := acc)
      (b := { acc with near := acc.near - x.grew * BYTE_COST }) rfl t
    rw [e2]
  · have e1 := hsh id (by rw [hs.framed.self]; exact ha)
    rw [C57_others_untouched hs ha (fun e => absurd e hr)] at e1
    exact e1

open Demo

/-- The view promises what Bob then receives. -/
example : (c1.getReturn (10 ^ 18) 0 A 1000 B).holds (fun out => 3000 < out ∧
    (c1.exec (by' bo) (.executeActions [swapA] none)).holds
      (fun r => r.1.depositOf bo B = out) = true) = true := by decide +kernel

/-- The same for a stable-swap pool, with the fee shared with a referral. -/
example : (c2.getReturn (10 ^ 18) 1 B (10 ^ 20) A).holds (fun out =>
    (c2.exec (by' al) (.executeActions [.swap ⟨1, B, some (10 ^ 20), A, 1⟩] (some bo))).holds
      (fun r => r.1.depositOf al A = c2.depositOf al A + out) = true) = true := by decide +kernel

/-- Two swaps one after the other, the second with the result of the first. -/
example : (c2.predictSwapActions (10 ^ 18) (FMap.empty.insert A 5000)
      [swapA, .swap ⟨1, B, none, A, 1⟩]).holds (fun tc => 4000 < tc.getD A 0 ∧ tc.getD B 0 = 0 ∧
    (c2.exec (by' bo) (.executeActions [swapA, .swap ⟨1, B, none, A, 1⟩] none)).holds
      (fun r => r.1.depositOf bo A = tc.getD A 0) = true) = true := by decide +kernel

/-- Adding and removing liquidity. -/
example : (c1.predictAdd 0 [1000, 5000]).holds (fun r => r.1 = [1000, 3997] ∧
      (c1.addLiquidity (Demo.near al) 0 [1000, 5000] none).holds
        (fun s => s.2.2 = r.2 ∧ 0 < r.2) = true) = true ∧
    (c1.predictRemove 0 (10 ^ 23)).holds (fun r => r = [10000, 40000] ∧
      (c1.removeLiquidity (y al) 0 (10 ^ 23) [1, 1]).holds (fun s => s.2 = r) = true) = true := by
  decide +kernel

/-- Alice's tokens are swapped and added to a pool. -/
example : (c1.predictHotZap (10 ^ 18) none (some al) A 2000 [.swap ⟨0, A, some 1000, B, 1⟩]
      [⟨0, [1000, 5000], some [1, 1], none⟩]).holds (fun r => match r with
        | none => false
        | some (preds, rest) => preds.length = 1 ∧
          (c1.exec (by' A) (.ftOnTransfer al 2000 (.hotZap none [.swap ⟨0, A, some 1000, B, 1⟩]
            [⟨0, [1000, 5000], some [1, 1], none⟩]))).holds (fun s =>
              s.1.depositOf al A = c1.depositOf al A + rest.getD A 0 ∧
              s.1.sharesOf 0 al = c1.sharesOf 0 al + predictedShares 0
                [⟨0, [1000, 5000], some [1, 1], none⟩] preds ∧ 0 < rest.getD A 0) = true) = true := by
  decide +kernel

end Contract
end Verif

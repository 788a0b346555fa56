import Verif.Exchange.Calls

/-
Quotes and predictions: `/repo/ref-exchange/src/views.rs:572-593`, `644-685`, `854-988`, and the
execution on caches they use, `/repo/ref-exchange/src/lib.rs:908-1054`.
-/

namespace Verif

/-- The account used by views, `views.rs:651`. -/
def VIEW : AccountId := "@view".toList

/-- `HashMap<u64, Pool>` of the cached execution. -/
abbrev PoolCache := FMap Nat Pool

namespace Contract

/-- `get_return`, `views.rs:572-581`. -/
def getReturn (c : Contract) (now id : Nat) (ti : AccountId) (a : Nat) (tout : AccountId) :
    R Nat := do
  let p ← c.pool id
  let (_, out) ← p.swap ti a tout 0 (c.fees none) (c.cfg.env now p) true
  .ok out

/-- `get_return_by_output`, `views.rs:584-593`. -/
def getReturnByOutput (c : Contract) (id : Nat) (ti : AccountId) (out : Nat) (tout : AccountId) :
    R Nat := do
  let p ← c.pool id
  let (_, a) ← p.swapByOutput ti out tout none (c.fees none) true
  .ok a

/-- `predict_add_simple_liquidity`, `views.rs:644-656`: amounts needed and shares minted. -/
def predictAdd (c : Contract) (id : Nat) (amounts : List Nat) : R (List Nat × Nat) := do
  let p ← c.pool id
  let (_, used, n) ← p.addLiquidity VIEW amounts true
  .ok (used, n)

/-- `predict_add_stable_liquidity`, `views.rs:658-666`. -/
def predictAddStable (c : Contract) (now id : Nat) (amounts : List Nat) : R Nat := do
  let p ← c.pool id
  let (_, n) ← p.addStable VIEW amounts 0 (c.fees none) (c.cfg.env now p) true
  .ok n

/-- `predict_remove_liquidity`, `views.rs:668-675`. -/
def predictRemove (c : Contract) (id shares : Nat) : R (List Nat) := do
  let p ← c.pool id
  let (_, paid) ← p.removeLiquidity VIEW shares (p.tokens.map fun _ => 0) true
  .ok paid

/-- `predict_remove_liquidity_by_tokens`, `views.rs:677-685`. -/
def predictRemoveByTokens (c : Contract) (now id : Nat) (amounts : List Nat) : R Nat := do
  let p ← c.pool id
  let (_, n) ← p.removeByTokens VIEW amounts (2 ^ 128 - 1) (c.fees none) (c.cfg.env now p) true
  .ok n

/-- `pool_cache.remove(id).unwrap_or(self.pools.get(id).expect(ERR85))`, `lib.rs:1011`: the second
operand is evaluated in any case. -/
def cachedPool (c : Contract) (pc : PoolCache) (id : Nat) : R Pool := do
  let p ← c.pool id
  .ok ((pc.get? id).getD p)

/-- `internal_pool_swap_by_cache`, `lib.rs:1001-1026`. -/
def poolSwapCached (c : Contract) (now : Nat) (ref : Option (AccountId × Nat)) (pc : PoolCache)
    (id : Nat) (ti : AccountId) (a : Nat) (tout : AccountId) (minOut : Nat) :
    R (PoolCache × Nat) := do
  let p ← c.cachedPool pc id
  let (q, out) ← p.swap ti a tout minOut (c.fees ref) (c.cfg.env now p) true
  .ok (pc.insert id q, out)

/-- `internal_pool_swap_by_output_by_cache`, `lib.rs:1028-1053`. -/
def poolSwapByOutputCached (c : Contract) (ref : Option (AccountId × Nat)) (pc : PoolCache)
    (id : Nat) (ti : AccountId) (out : Nat) (tout : AccountId) (maxIn : Option Nat) :
    R (PoolCache × Nat) := do
  let p ← c.cachedPool pc id
  let (q, a) ← p.swapByOutput ti out tout maxIn (c.fees ref) true
  .ok (pc.insert id q, a)

/-- The `Swap` loop on caches, `lib.rs:927-931` with `964-981`. -/
def runSwapsCached (c : Contract) (now : Nat) (ref : Option (AccountId × Nat)) (pc : PoolCache)
    (tc : TokenCache) (prev : ActionResult) :
    List SwapAction → R (PoolCache × TokenCache × ActionResult)
  | [] => .ok (pc, tc, prev)
  | s :: rest => do
    let a ← amountOr s.amtIn prev
    let tc ← TokenCache.sub tc s.tokIn a
    let (pc, out) ← c.poolSwapCached now ref pc s.pool s.tokIn a s.tokOut s.minOut
    let tc ← TokenCache.add tc s.tokOut out
    runSwapsCached c now ref pc tc (some out) rest

/-- `finalize_prev_swap_chain_by_cache`, `lib.rs:949-953`. -/
def finalizeCached (tc : TokenCache) (prevIn : Option AccountId) (res : ActionResult) :
    R TokenCache :=
  match prevIn with
  | none => .ok tc
  | some t => do
    let a ← expectE res (.e 41)
    TokenCache.sub tc t a

/-- Start of one step of the `SwapByOutput` loop on caches, `lib.rs:935-940`. -/
def startOutCached (tc : TokenCache) (prevIn : Option AccountId) (res : ActionResult)
    (s : OutAction) : R TokenCache :=
  match s.amtOut with
  | some n => do
    let tc ← finalizeCached tc prevIn res
    TokenCache.add tc s.tokOut n
  | none => do
    let t ← expectE prevIn .index
    assertE (t = s.tokOut) .other
    .ok tc

/-- The `SwapByOutput` loop on caches, `lib.rs:932-945` with `982-997`. -/
def runOutsCached (c : Contract) (ref : Option (AccountId × Nat)) (pc : PoolCache)
    (tc : TokenCache) (prevIn : Option AccountId) (res : ActionResult) :
    List OutAction → R (PoolCache × TokenCache × ActionResult)
  | [] => do
    let tc ← finalizeCached tc prevIn res
    .ok (pc, tc, res)
  | s :: rest => do
    let tc ← startOutCached tc prevIn res s
    let out ← amountOr s.amtOut res
    let (pc, a) ← c.poolSwapByOutputCached ref pc s.pool s.tokIn out s.tokOut s.maxIn
    runOutsCached c ref pc tc (some s.tokIn) (some a) rest

/-- `internal_execute_actions_by_cache`, `lib.rs:909-947`. -/
def runActionsCached (c : Contract) (now : Nat) (ref : Option (AccountId × Nat)) (pc : PoolCache)
    (tc : TokenCache) (prev : ActionResult) (actions : List Action) :
    R (PoolCache × TokenCache × ActionResult) := do
  assertE (Action.allSwap actions = true ∨ Action.allOut actions = true) (.e 77)
  c.cfg.assertNoFrozen (Action.tokensOf actions)
  match actions with
  | [] => .error .index
  | .swap _ :: _ => c.runSwapsCached now ref pc tc prev (actions.filterMap Action.asSwap)
  | .byOutput _ :: _ => c.runOutsCached ref pc tc none prev (actions.filterMap Action.asOut)

/-- `predict_swap_actions`, `views.rs:854-870`. -/
def predictSwapActions (c : Contract) (now : Nat) (deposits : TokenCache) (actions : List Action) :
    R TokenCache := do
  let (_, tc, _) ← c.runActionsCached now none FMap.empty deposits none actions
  .ok tc

/-- One step of the liquidity part of `predict_hot_zap`, `views.rs:951-970`: the pool, the amounts
it takes and the shares it mints. -/
def predictZapAdd (c : Contract) (now : Nat) (i : AddInfo) (p : Pool) :
    R (Pool × List Nat × Nat) :=
  match p with
  | .simple _ => p.addLiquidity VIEW i.amounts true
  | .curve _ => do
    let (q, n) ← p.addStable VIEW i.amounts 0 (c.fees none) (c.cfg.env now p) true
    .ok (q, i.amounts, n)

/-- The liquidity part of `predict_hot_zap`, `views.rs:939-985`. -/
def predictZapLoop (c : Contract) (now : Nat) (pc : PoolCache) (tc : TokenCache) :
    List AddInfo → R (List (List Nat × Nat) × TokenCache)
  | [] => .ok ([], tc)
  | i :: is => do
    let p ← c.cachedPool pc i.pool
    let (q, used, n) ← c.predictZapAdd now i p
    q.assertTvl (c.cfg.limits.get? i.pool) (c.cfg.env now q)
    let tc ← TokenCache.subAll tc p.tokens used
    let (rest, tc) ← predictZapLoop c now (pc.insert i.pool q) tc is
    .ok ((used, n) :: rest, tc)

/-- `predict_hot_zap`, `views.rs:884-988`. -/
def predictHotZap (c : Contract) (now : Nat) (referral account : Option AccountId)
    (tokenIn : AccountId) (amountIn : Nat) (actions : List Action) (infos : List AddInfo) :
    R (Option (List (List Nat × Nat) × TokenCache)) :=
  if actions = [] ∨ infos = [] then .ok none
  else do
    let ts ← c.infoTokens infos
    let all := Action.tokensOf actions ++ ts
    (match account with
      | some a => do
        let acc ← c.account a
        assertE (∀ t ∈ all, c.cfg.tokenAllowed acc t = true) (.e 12)
      | none => assertE (∀ t ∈ all, c.cfg.isWhitelisted t = true) (.e 12) : R Unit)
    c.cfg.assertNoFrozen all
    let tc ← TokenCache.add FMap.empty tokenIn amountIn
    let prev ← (match actions with
      | [] => .error .index
      | .swap _ :: _ => .ok (some amountIn)
      | .byOutput _ :: _ => .ok none : R ActionResult)
    let (pc, tc, _) ←
      c.runActionsCached now (c.referralInfo referral) FMap.empty tc prev actions
    let (preds, tc) ← c.predictZapLoop now pc tc infos
    .ok (some (preds, tc))

end Contract
end Verif

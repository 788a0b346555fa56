import Verif.Exchange.Predict
import Verif.Exchange.AccountLemmas
import Verif.Exchange.CallLemmas
import Verif.Exchange.FeeProps

/-
View runs of swaps and of hot zaps on caches: they do what the stored runs do.
-/

namespace Verif

/-- The cache holds the balances of the account. -/
def TokenCache.Covers (tc : TokenCache) (acc : Account) : Prop :=
  ∀ t, tc.getD t 0 = acc.bal t ∧ acc.bal t < 2 ^ 128

theorem TokenCache.sub_sim {m k : TokenCache} (h : ∀ t, m.getD t 0 = k.getD t 0) (t : AccountId)
    (n : Nat) : Sim (fun m k => ∀ t, m.getD t 0 = k.getD t 0) (sub m t n) (sub k t n) := by
  intro k' hk
  have hb := sub_ok hk
  have hm : ∃ m', sub m t n = .ok m' := by
    unfold sub
    by_cases hn : n > 0
    · have hle : n ≤ m.getD t 0 := by have := hb t; rw [if_pos rfl] at this; rw [h]; omega
      rw [if_pos hn]
      cases hg : m.get? t with
      | none => simp [FMap.getD, hg] at hle; omega
      | some p =>
        have hp : n ≤ p := by simpa [FMap.getD, hg] using hle
        show ∃ m', (do assertE (n ≤ p) (.e 22); if p - n > 0 then .ok (m.insert t (p - n)) else
          .ok (m.erase t) : R TokenCache) = .ok m'
        rw [assertE_true hp]
        split <;> exact ⟨_, rfl⟩
    · rw [if_neg hn]; exact ⟨_, rfl⟩
  obtain ⟨m', hm⟩ := hm
  refine ⟨m', hm, fun u => ?_⟩
  have h1 := sub_ok hm u
  have h2 := hb u
  have := h u
  omega

theorem TokenCache.subAll_sim : ∀ (ts : List AccountId) (ns : List Nat) {m k : TokenCache},
    (∀ t, m.getD t 0 = k.getD t 0) →
    Sim (fun m k => ∀ t, m.getD t 0 = k.getD t 0) (subAll m ts ns) (subAll k ts ns)
  | [], _, _, _, h => .ok h
  | _ :: _, [], _, _, h => .ok h
  | t :: ts, n :: ns, _, _, h => .bind (sub_sim h t n) fun _ _ h => subAll_sim ts ns h

namespace TokenCache.Covers

theorem withdraw {tc : TokenCache} {acc : Account} (h : tc.Covers acc) (t : AccountId) (n : Nat) :
    Sim TokenCache.Covers (tc.sub t n) (acc.withdraw t n) := by
  intro acc' ha
  have hb := (Account.withdraw_ok ha).2.2.1
  have hm : ∃ m', tc.sub t n = .ok m' := by
    unfold TokenCache.sub
    by_cases hn : n > 0
    · have hle : n ≤ tc.getD t 0 := by have := hb t; rw [if_pos rfl] at this; rw [(h t).1]; omega
      rw [if_pos hn]
      cases hg : tc.get? t with
      | none => simp [FMap.getD, hg] at hle; omega
      | some p =>
        have hp : n ≤ p := by simpa [FMap.getD, hg] using hle
        show ∃ m', (do assertE (n ≤ p) (.e 22); if p - n > 0 then .ok (tc.insert t (p - n)) else
          .ok (tc.erase t) : R TokenCache) = .ok m'
        rw [assertE_true hp]
        split <;> exact ⟨_, rfl⟩
    · rw [if_neg hn]; exact ⟨_, rfl⟩
  obtain ⟨m', hm⟩ := hm
  refine ⟨m', hm, fun u => ?_⟩
  have h1 := TokenCache.sub_ok hm u
  have h2 := hb u
  obtain ⟨h3, h4⟩ := h u
  constructor <;> omega

theorem deposit {tc : TokenCache} {acc : Account} (h : tc.Covers acc) (t : AccountId) (n : Nat) :
    Sim TokenCache.Covers (tc.add t n) (acc.deposit t n) := by
  intro acc' ha
  have hb := (Account.deposit_ok ha).2.1
  have hlt : tc.getD t 0 + n < 2 ^ 128 := by
    rw [(h t).1]
    unfold Account.deposit at ha
    split at ha
    · unpack at ha; have := ha.1; omega
    · have := (h t).2; omega
  have hm : tc.add t n = .ok (tc.insert t (tc.getD t 0 + n)) := by
    unfold TokenCache.add
    rw [addW_ok.2 ⟨hlt, rfl⟩]
    rfl
  refine ⟨_, hm, fun u => ?_⟩
  have h1 := TokenCache.add_ok hm u
  have h2 := hb u
  obtain ⟨h3, h4⟩ := h u
  by_cases e : t = u
  · subst e
    rw [if_pos rfl] at h1 h2
    constructor <;> omega
  · rw [if_neg e] at h1 h2
    constructor <;> omega

end TokenCache.Covers

theorem Pool.Alike.env {p q : Pool} (h : p.Alike q) (g : Config) (now : Nat) :
    g.env now p = g.env now q := by
  cases h with
  | simple h => rfl
  | curve h => obtain ⟨_, rfl, -⟩ := h; rfl

theorem Pool.Alike.assertTvl {p q : Pool} (h : p.Alike q) (l : Option Nat) (e : R CurveEnv) :
    p.assertTvl l e = q.assertTvl l e := by
  cases h with
  | simple h => obtain ⟨_, rfl, -⟩ := h; cases l <;> rfl
  | curve h => obtain ⟨_, rfl, -⟩ := h; cases l <;> rfl

namespace Contract

/-- The view that started on `c0` knows the pools of the running execution, now in state `c`. -/
structure Mirrors (c0 : Contract) (pc : PoolCache) (c : Contract) : Prop where
  self : c.self = c0.self
  cfg : c.cfg = c0.cfg
  pools : ∀ id p, c.pools[id]? = some p → ∃ q, c0.cachedPool pc id = .ok q ∧ q.Alike p

theorem Mirrors.start (c : Contract) : c.Mirrors FMap.empty c := by
  refine ⟨rfl, rfl, fun id p hp => ⟨p, ?_, .rfl' p⟩⟩
  unfold cachedPool
  rw [pool_ok.2 hp]
  rfl

theorem Mirrors.set {c0 c c' : Contract} {pc : PoolCache} (h : c0.Mirrors pc c) {id : Nat} {q p : Pool}
    (hq : q.Alike p) (e1 : c'.self = c.self) (e2 : c'.cfg = c.cfg) (e3 : c'.pools = c.pools.set id p) :
    c0.Mirrors (pc.insert id q) c' := by
  refine ⟨e1.trans h.self, e2.trans h.cfg, fun i p' hp => ?_⟩
  rw [e3] at hp
  by_cases hi : id = i
  · subst hi
    obtain ⟨hlt, rfl⟩ : id < c.pools.length ∧ p' = p := by
      rw [List.getElem?_set] at hp
      simp only [if_true] at hp
      split at hp
      · rename_i hl; exact ⟨hl, by cases hp; rfl⟩
      · cases hp
    obtain ⟨q0, h0, -⟩ := h.pools id _ (List.getElem?_eq_getElem hlt)
    unfold cachedPool at h0 ⊢
    unpack at h0
    obtain ⟨p0, hp0, -⟩ := h0
    rw [hp0]
    refine ⟨q, ?_, hq⟩
    rw [ok_bind, FMap.get?_insert, if_pos rfl]
    rfl
  · rw [List.getElem?_set_ne hi] at hp
    obtain ⟨q', h1, h2⟩ := h.pools i p' hp
    refine ⟨q', ?_, h2⟩
    rw [← h1]
    unfold cachedPool
    rw [FMap.get?_insert, if_neg (Ne.symm hi)]

theorem fees_quote {c0 c : Contract} (h2 : c.cfg = c0.cfg)
    {r r' : Option (AccountId × Nat)} (h : r = r' ∨ r = none) : (c0.fees r).Quote (c.fees r') :=
  ⟨by simp only [fees, h2], h⟩

theorem Mirrors.cached {c0 c : Contract} {pc : PoolCache} (h : c0.Mirrors pc c) (id : Nat) :
    Sim Pool.Alike (c0.cachedPool pc id) (c.pool id) := by
  intro p hp
  exact h.pools id p (pool_ok.1 hp)

theorem poolSwap_sim {c0 c : Contract} {pc : PoolCache} (h : c0.Mirrors pc c)
    {r r' : Option (AccountId × Nat)} (hr : r = r' ∨ r = none) (now id : Nat) (ti : AccountId) (a : Nat)
    (tout : AccountId) (m : Nat) :
    Sim (fun x y => c0.Mirrors x.1 y.1 ∧ x.2 = y.2) (c0.poolSwapCached now r pc id ti a tout m)
      (c.poolSwap now r' id ti a tout m) := by
  rintro ⟨c', out⟩ hc
  obtain ⟨tw, vs, p, q, hp, hs, -, rfl⟩ := poolSwap_ok hc
  obtain ⟨p', hp', hA⟩ := h.pools id p hp
  rw [← hA.env, h.cfg] at hs
  obtain ⟨⟨q', _⟩, hs', hA', e⟩ :=
    Pool.swap_sim hA (fees_quote h.cfg hr) ti a tout (Nat.le_refl m) _ _ hs
  simp only at e hA'
  subst e
  refine ⟨(pc.insert id q', _), ?_, h.set hA' rfl rfl rfl, rfl⟩
  unfold poolSwapCached
  rw [hp', ok_bind, hs']
  rfl

theorem poolSwapByOutput_sim {c0 c : Contract} {pc : PoolCache} (h : c0.Mirrors pc c)
    {r r' : Option (AccountId × Nat)} (hr : r = r' ∨ r = none) (now id : Nat) (ti : AccountId)
    (out : Nat) (tout : AccountId) (m : Option Nat) :
    Sim (fun x y => c0.Mirrors x.1 y.1 ∧ x.2 = y.2) (c0.poolSwapByOutputCached r pc id ti out tout m)
      (c.poolSwapByOutput now r' id ti out tout m) := by
  rintro ⟨c', a⟩ hc
  obtain ⟨tw, vs, p, q, hp, hs, -, rfl⟩ := poolSwapByOutput_ok hc
  obtain ⟨p', hp', hA⟩ := h.pools id p hp
  obtain ⟨⟨q', _⟩, hs', hA', e⟩ :=
    Pool.swapByOutput_sim hA (fees_quote h.cfg hr) ti out tout (.inl rfl) _ hs
  simp only at e hA'
  subst e
  refine ⟨(pc.insert id q', _), ?_, h.set hA' rfl rfl rfl, rfl⟩
  unfold poolSwapByOutputCached
  rw [hp', ok_bind, hs']
  rfl

/-- The caches of the view after some actions against the state and account of the execution. -/
def RunsAs (c0 : Contract) (x : PoolCache × TokenCache × ActionResult)
    (y : Contract × Account × ActionResult) : Prop :=
  c0.Mirrors x.1 y.1 ∧ x.2.1.Covers y.2.1 ∧ x.2.2 = y.2.2

theorem runSwaps_sim (c0 : Contract) (now : Nat) {r r' : Option (AccountId × Nat)}
    (hr : r = r' ∨ r = none) : ∀ (l : List SwapAction) {c : Contract} {pc : PoolCache} {tc : TokenCache}
    {acc : Account} (prev : ActionResult), c0.Mirrors pc c → tc.Covers acc →
    Sim c0.RunsAs (c0.runSwapsCached now r pc tc prev l) (c.runSwaps now r' acc prev l)
  | [], _, _, _, _, prev, h, ht => .ok ⟨h, ht, rfl⟩
  | s :: l, c, pc, tc, acc, prev, h, ht => by
    refine .same fun a _ => .bind (ht.withdraw _ _) fun tc1 acc1 h1 => ?_
    refine .bind (poolSwap_sim h hr now _ _ _ _ _) ?_
    rintro ⟨pc1, out⟩ ⟨c1, out'⟩ ⟨h2, e⟩
    simp only at e h2
    subst e
    exact .bind (h1.deposit _ _) fun tc2 acc2 h3 => runSwaps_sim c0 now hr l _ h2 h3

theorem finalize_sim {tc : TokenCache} {acc : Account} (h : tc.Covers acc) (t : Option AccountId)
    (res : ActionResult) : Sim TokenCache.Covers (finalizeCached tc t res) (finalize acc t res) := by
  cases t with
  | none => exact .ok h
  | some t => exact .same fun a _ => h.withdraw _ _

theorem startOut_sim {tc : TokenCache} {acc : Account} (h : tc.Covers acc) (t : Option AccountId)
    (res : ActionResult) (s : OutAction) :
    Sim TokenCache.Covers (startOutCached tc t res s) (startOut acc t res s) := by
  unfold startOutCached startOut
  cases s.amtOut with
  | some n => exact .bind (finalize_sim h t res) fun _ _ h => h.deposit _ _
  | none => exact .same fun _ _ => .same fun _ _ => .ok h

theorem runOuts_sim (c0 : Contract) (now : Nat) {r r' : Option (AccountId × Nat)}
    (hr : r = r' ∨ r = none) : ∀ (l : List OutAction) {c : Contract} {pc : PoolCache} {tc : TokenCache}
    {acc : Account} (t : Option AccountId) (prev : ActionResult), c0.Mirrors pc c → tc.Covers acc →
    Sim c0.RunsAs (c0.runOutsCached r pc tc t prev l) (c.runOuts now r' acc t prev l)
  | [], _, _, _, _, t, prev, h, ht => .bind (finalize_sim ht t prev) fun _ _ h1 => .ok ⟨h, h1, rfl⟩
  | s :: l, c, pc, tc, acc, t, prev, h, ht => by
    refine .bind (startOut_sim ht t prev s) fun tc1 acc1 h1 => .same fun out _ => ?_
    refine .bind (poolSwapByOutput_sim h hr now _ _ _ _ _) ?_
    rintro ⟨pc1, a⟩ ⟨c1, a'⟩ ⟨h2, e⟩
    simp only at e h2
    subst e
    exact runOuts_sim c0 now hr l _ _ h2 h1

theorem runActions_sim {c0 : Contract} (now : Nat) {r r' : Option (AccountId × Nat)}
    (hr : r = r' ∨ r = none) (l : List Action) {tc : TokenCache} {acc : Account}
    (prev : ActionResult) (ht : tc.Covers acc) :
    Sim c0.RunsAs (c0.runActionsCached now r FMap.empty tc prev l) (c0.runActions now r' acc prev l) := by
  unfold runActionsCached runActions
  refine .same fun _ _ => .same fun _ _ => ?_
  cases l with
  | nil => exact .error
  | cons a l =>
    cases a with
    | swap s => exact runSwaps_sim c0 now hr _ _ (.start c0) ht
    | byOutput s => exact runOuts_sim c0 now hr _ _ _ (.start c0) ht

/-- The shares of pool `id` that a prediction promises. -/
def _root_.Verif.predictedShares (id : Nat) (is : List AddInfo) (preds : List (List Nat × Nat)) : Nat :=
  ((is.zip preds).map fun x => if x.1.pool = id then x.2.2 else 0).sum

theorem zapAdd_sim {c0 c : Contract} (h2 : c.cfg = c0.cfg) {p q : Pool} (h : p.Alike q) (now : Nat)
    (a : AccountId) (i : AddInfo) :
    Sim (fun x y => x.1.Alike y.1 ∧ x.2.1 = y.2 ∧
      (a ≠ c.self → y.1.shareBalance a = q.shareBalance a + x.2.2))
      (c0.predictZapAdd now i p) (c.zapAdd now a i q) := by
  cases h with
  | simple h =>
    intro y hy
    simp only [zapAdd] at hy
    unpack at hy
    obtain ⟨q', used, n, h1, mins, -, _, -, rfl⟩ := hy
    obtain ⟨⟨p', used', n'⟩, e1, hA, e2⟩ := Pool.addLiquidity_sim (.simple h) VIEW a i.amounts _ h1
    simp only [Prod.mk.injEq] at e2
    refine ⟨_, e1, hA, e2.1, fun _ => ?_⟩
    have := Pool.addLiquidity_shares h1 a
    rw [if_pos rfl] at this
    simp only [e2.2, this]
  | curve h =>
    intro y hy
    simp only [zapAdd] at hy
    unpack at hy
    obtain ⟨m, -, q', n, h1, rfl⟩ := hy
    obtain ⟨k, -, -, hs⟩ := C57_add_stable h1
    rw [← (Pool.Alike.curve h).env, h2] at h1
    obtain ⟨⟨p', n'⟩, e1, hA, e2⟩ := Pool.addStable_sim (.curve h) (fees_quote h2 (.inl rfl)) VIEW a
      i.amounts (Nat.zero_le m) _ _ h1
    simp only at e2
    subst e2
    refine ⟨(p', i.amounts, n'), ?_, hA, rfl, fun ha => ?_⟩
    · simp only [predictZapAdd]
      rw [e1]
      rfl
    · have := hs a
      rw [if_pos rfl, feeShares_other ha fun _ h => by cases h] at this
      exact this

theorem zapLoop_sim (c0 : Contract) (now : Nat) (a : AccountId) : ∀ (is : List AddInfo) {c : Contract}
    {pc : PoolCache} {tc k : TokenCache}, c0.Mirrors pc c → (∀ t, tc.getD t 0 = k.getD t 0) →
    Sim (fun x y => (∀ t, x.2.getD t 0 = y.2.getD t 0) ∧ x.1.length = is.length ∧
        ∀ id, a ≠ c.self → y.1.sharesOf id a = c.sharesOf id a + predictedShares id is x.1)
      (c0.predictZapLoop now pc tc is) (c.zapLoop now a k is)
  | [], c, pc, tc, k, h, ht => .ok ⟨ht, rfl, fun _ _ => rfl⟩
  | i :: is, c, pc, tc, k, h, ht => by
    rintro ⟨c', k'⟩ hc
    simp only [zapLoop] at hc
    unpack at hc
    obtain ⟨q, hq, q', used, h1, _, h2, k1, h3, h4⟩ := hc
    obtain ⟨p, hp, hA⟩ := h.cached i.pool _ hq
    obtain ⟨⟨p', used', n⟩, g1, hA', e1, e2⟩ := zapAdd_sim h.cfg hA now a i _ h1
    simp only at hA' e1 e2
    subst e1
    obtain ⟨tc1, g3, ht1⟩ := TokenCache.subAll_sim p.tokens used' ht k1 (by rw [hA.tokens]; exact h3)
    have hm : c0.Mirrors (pc.insert i.pool p') (c.setPool i.pool q') := h.set hA' rfl rfl rfl
    obtain ⟨⟨preds, tc2⟩, g4, ht2, hl, hsh⟩ := zapLoop_sim c0 now a is hm ht1 _ h4
    simp only at ht2 hl hsh
    refine ⟨((used', n) :: preds, tc2), ?_, ht2, by simp [hl], fun id ha => ?_⟩
    · simp only [predictZapLoop]
      rw [hp, ok_bind, g1, ok_bind]
      simp only
      rw [hA'.assertTvl, hA'.env, ← h.cfg, h2, ok_bind, g3, ok_bind, g4]
      rfl
    · simp only
      rw [hsh id ha]
      have hset := sharesIn_set (pool_ok.1 hq) q' id a
      simp only [sharesOf_eq, setPool] at hset ⊢
      rw [hset]
      have hpred : predictedShares id (i :: is) ((used', n) :: preds) =
          (if i.pool = id then n else 0) + predictedShares id is preds := rfl
      rw [hpred]
      by_cases hid : id = i.pool
      · subst hid
        rw [if_pos rfl, if_pos rfl, e2 ha, sharesIn_some (pool_ok.1 hq)]
        omega
      · rw [if_neg hid, if_neg (Ne.symm hid)]
        omega

end Contract
end Verif

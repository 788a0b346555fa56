import Verif.Exchange.MoreView
import Verif.Exchange.IdProps
import Verif.Exchange.TwapHistoryProps
import Verif.Exchange.AccountViewProps
import Verif.Exchange.SettingViewProps

/-
C89: views that answer several questions at once, or about pools of one kind, say what the single
views say.
-/

namespace Verif
namespace Contract
open Demo

/-- `mapM` fails exactly if one of its steps does. -/
theorem mapM_isOk {ι α : Type} {f : ι → R α} {is : List ι} :
    (is.mapM f).isOk = true ↔ ∀ i ∈ is, (f i).isOk = true := by
  constructor
  · intro h i hi
    cases hs : is.mapM f with
    | error e => rw [hs] at h; cases h
    | ok l =>
      have := mapM_forall₂ hs
      clear h hs
      induction this with
      | nil => cases hi
      | cons h1 _ ih =>
        rcases List.mem_cons.1 hi with rfl | hi
        · rw [h1]; rfl
        · exact ih hi
  · intro h
    obtain ⟨l, hl⟩ := mapM_of_forall h
    rw [hl]
    rfl

/-- **C89**. `get_stable_pool`, `get_rated_pool` and `get_degen_pool` answer exactly about the pools of
their kind, and say what the details of the pool and `get_pool` say. -/
theorem C89_kind {c : Contract} {k : CurveKind} {now id : Nat} {i : PoolInfo} {y : CurveInfo} :
    c.getCurvePool k now id = .ok (i, y) ↔
      c.getPoolDetail now id = .ok (i, some y) ∧ c.getPool now id = .ok i ∧ i.kind = some k := by
  unfold getCurvePool getPoolDetail getPool
  rcases Option.eq_none_or_eq_some c.pools[id]? with hp | ⟨p, hp⟩
  · have : c.pool id = .error (.e 85) := by unfold pool; rw [hp]; rfl
    rw [this]
    simp only [error_bind, reduceCtorEq, false_and]
  rw [pool_ok.2 hp]
  simp only [ok_bind]
  cases p with
  | simple p =>
    simp only [poolInfo, ok_bind, Except.ok.injEq, Prod.mk.injEq, reduceCtorEq, and_false, false_and]
  | curve p =>
    simp only [poolInfo]
    cases he : c.cfg.env now (.curve p) with
    | error e =>
      simp only [error_bind, reduceCtorEq, false_and, iff_false]
      split <;> exact fun h => nomatch h
    | ok e =>
      simp only [ok_bind]
      cases ha : p.getAmounts with
      | error e =>
        simp only [error_bind, reduceCtorEq, false_and, iff_false]
        split <;> exact fun h => nomatch h
      | ok as =>
        simp only [ok_bind]
        by_cases hk : p.kind = k
        · subst hk
          simp only [if_true, Except.ok.injEq, Prod.mk.injEq, Option.some.injEq]
          constructor
          · rintro ⟨rfl, h⟩; exact ⟨⟨rfl, h⟩, rfl, rfl⟩
          · rintro ⟨⟨rfl, h⟩, -, -⟩; exact ⟨rfl, h⟩
        · simp only [if_neg hk, Except.ok.injEq, Prod.mk.injEq, Option.some.injEq, reduceCtorEq,
            false_iff]
          rintro ⟨-, rfl, h⟩
          exact hk (Option.some.inj h)

/-- **C89**. `get_pool_fee` answers for every pool, with the fee that `get_pool` reports. -/
theorem C89_fee {c : Contract} {id : Nat} :
    ((c.getPoolFee id).isOk = true ↔ id < c.numberOfPools) ∧
    ∀ {now : Nat} {i : PoolInfo}, c.getPool now id = .ok i → c.getPoolFee id = .ok i.fee := by
  constructor
  · unfold getPoolFee numberOfPools
    rcases Option.eq_none_or_eq_some c.pools[id]? with hp | ⟨p, hp⟩
    · have : c.pool id = .error (.e 85) := by unfold pool; rw [hp]; rfl
      rw [this]
      have := List.getElem?_eq_none_iff.1 hp
      simp only [error_bind]
      exact ⟨fun h => (nomatch h), fun h => absurd h (by omega)⟩
    · rw [pool_ok.2 hp]
      exact ⟨fun _ => (List.getElem?_eq_some_iff.1 hp).1, fun _ => rfl⟩
  · intro now i h
    unfold getPool at h
    unpack at h
    obtain ⟨p, hp, h⟩ := h
    unfold getPoolFee
    rw [hp, ok_bind]
    cases p with
    | simple p => cases h; rfl
    | curve p =>
      unfold poolInfo at h
      unpack at h
      obtain ⟨e, -, as, -, rfl⟩ := h
      rfl

/-- **C89**. Asked about the details or volumes of several pools, the contract gives one answer for each
id, in the order of the question, the same as to the single question; and it answers exactly if it
answers every single one. -/
theorem C89_by_ids {c : Contract} {ids : List Nat} {now : Nat} :
    (∀ {l : List (PoolInfo × Option CurveInfo)}, c.getPoolDetailByIds now ids = .ok l →
      List.Forall₂ (fun id i => c.getPoolDetail now id = .ok i) ids l) ∧
    (∀ {l : List (List (Nat × Nat))}, c.getPoolVolumesByIds ids = .ok l →
      List.Forall₂ (fun id v => c.getPoolVolumes id = .ok v) ids l) ∧
    ((c.getPoolDetailByIds now ids).isOk = true ↔ ∀ id ∈ ids, (c.getPoolDetail now id).isOk = true) ∧
    ((c.getPoolVolumesByIds ids).isOk = true ↔ ∀ id ∈ ids, (c.getPoolVolumes id).isOk = true) :=
  ⟨mapM_forall₂, mapM_forall₂, mapM_isOk, mapM_isOk⟩

/-- **C89**. `batch_predict_swap_actions` gives one prediction for each list of actions, the one of
`predict_swap_actions` for these actions and the deposits at the same place: what one prediction
supposes does not carry over to the next. -/
theorem C89_batch_predict {c : Contract} {now : Nat} {deposits out : List TokenCache}
    {actions : List (List Action)} (h : c.batchPredictSwapActions now deposits actions = .ok out) :
    out.length = actions.length ∧
    ∀ {i : Nat} {o : TokenCache}, out[i]? = some o → ∃ d l, deposits[i]? = some d ∧
      actions[i]? = some l ∧ c.predictSwapActions now d l = .ok o := by
  obtain ⟨h1, h2⟩ := forall₂_range (mapM_forall₂ h)
  refine ⟨h1, fun ho => ?_⟩
  have h := h2 _ _ ho
  unpack at h
  obtain ⟨d, hd, l, hl, h⟩ := h
  exact ⟨d, l, hd, hl, h⟩

/-- **C89**. It answers exactly if every list of actions has deposits and a prediction. -/
theorem C89_batch_predict_iff {c : Contract} {now : Nat} {deposits : List TokenCache}
    {actions : List (List Action)} :
    (c.batchPredictSwapActions now deposits actions).isOk = true ↔
      ∀ {i : Nat} {l : List Action}, actions[i]? = some l → ∃ d, deposits[i]? = some d ∧
        (c.predictSwapActions now d l).isOk = true := by
  unfold batchPredictSwapActions
  rw [mapM_isOk]
  constructor
  · intro h i l hl
    have := h i (by
      rw [List.mem_range'_1]
      have := (List.getElem?_eq_some_iff.1 hl).1
      omega)
    rcases Option.eq_none_or_eq_some deposits[i]? with hd | ⟨d, hd⟩
    · rw [hd] at this; cases this
    · refine ⟨d, hd, ?_⟩
      rw [hd, hl] at this
      exact this
  · intro h i hi
    rw [List.mem_range'_1] at hi
    have hl := List.getElem?_eq_getElem (show i < actions.length by omega)
    obtain ⟨d, hd, h⟩ := h hl
    rw [hd, hl]
    exact h

theorem assetsOf_spec {c : Contract} {now : Nat} : ∀ {ids : List Nat}
    {m m' : FMap (List Char) (Nat × List (AccountId × Nat))},
    c.getUnitLptAssetsOf now ids m = .ok m' → (∀ id ∈ ids, id < 2 ^ 64) →
    ∀ k v, m'.get? k = some v ↔
      (∃ id ∈ ids, k = poolIdToShadowId id ∧ c.getUnitLptAssets now id = .ok (some v)) ∨
      (¬ ∃ id ∈ ids, k = poolIdToShadowId id ∧ ∃ w, c.getUnitLptAssets now id = .ok (some w)) ∧
        m.get? k = some v
  | [], m, m', h, _, k, v => by
    cases h
    simp
  | id :: ids, m, m', h, hid, k, v => by
    unfold getUnitLptAssetsOf at h
    unpack at h
    obtain ⟨r, hr, h⟩ := h
    have hid' := fun j hj => hid j (List.mem_cons_of_mem _ hj)
    have inj : ∀ {j : Nat}, j ∈ ids → poolIdToShadowId id = poolIdToShadowId j → id = j :=
      fun hj e => C41_shadow_id_injective (hid id (by simp)) (hid' _ hj) e
    cases r with
    | none =>
      rw [assetsOf_spec h hid' k v]
      simp [hr]
    | some w =>
      rw [assetsOf_spec h hid' k v, FMap.get?_insert]
      simp only [List.mem_cons, exists_eq_or_imp, hr, Except.ok.injEq, Option.some.injEq]
      by_cases hk : k = poolIdToShadowId id
      · rw [if_pos hk]
        constructor
        · rintro (⟨j, hj⟩ | ⟨-, e⟩)
          · exact .inl (.inr ⟨j, hj⟩)
          · exact .inl (.inl ⟨hk, Option.some.inj e⟩)
        · rintro ((⟨-, rfl⟩ | ⟨j, hj⟩) | ⟨hn, -⟩)
          · by_cases hm : ∃ j ∈ ids, k = poolIdToShadowId j ∧
                ∃ w, c.getUnitLptAssets now j = .ok (some w)
            · obtain ⟨j, hj, e, -⟩ := hm
              have := inj hj (hk.symm.trans e)
              subst this
              exact .inl ⟨id, hj, hk, hr⟩
            · exact .inr ⟨hm, rfl⟩
          · exact .inl ⟨j, hj⟩
          · exact absurd (.inl ⟨hk, w, rfl⟩) hn
      · rw [if_neg hk]
        simp [hk]

/-- **C89**. What `get_unit_lpt_assets` reports for several pools: under the shadow id of each pool asked
for that has a full average, the assets of a share of this very pool; nothing else. -/
theorem C89_assets {c : Contract} {now : Nat} {ids : List Nat}
    {m : FMap (List Char) (Nat × List (AccountId × Nat))} (hid : ∀ id ∈ ids, id < 2 ^ 64)
    (h : c.getUnitLptAssetsOf now ids FMap.empty = .ok m) :
    ∀ k v, m.get? k = some v ↔
      ∃ id ∈ ids, k = poolIdToShadowId id ∧ c.getUnitLptAssets now id = .ok (some v) := by
  intro k v
  rw [assetsOf_spec h hid k v]
  exact ⟨fun h => h.elim id fun h => (nomatch h.2), Or.inl⟩

/-- **C89**. `batch_views` gives the answers of the three single views, each exactly if its arguments are
given. -/
theorem C89_batch_views {c : Contract} {now : Nat} {a : Option AccountId} {ids : Option (List Nat)}
    {r : Option (List (Nat × ShadowRecord))}
    {s : Option (FMap (List Char) (Nat × List (AccountId × Nat)))} {n : Option (List Nat)}
    (h : c.batchViews now a ids = .ok (r, s, n)) :
    (∀ l, r = some l ↔ ∃ b, a = some b ∧ l = c.getShadowRecords b) ∧
    (∀ m, s = some m ↔ ∃ l, ids = some l ∧ c.getUnitLptAssetsOf now l FMap.empty = .ok m) ∧
    (∀ m, n = some m ↔ ∃ b l, a = some b ∧ ids = some l ∧ c.getPoolSharesBatch l b = .ok m) := by
  unfold batchViews at h
  cases a with
  | none =>
    cases ids with
    | none => cases h; simp
    | some l =>
      simp only [] at h
      unpack at h
      obtain ⟨m, ⟨m', hm, rfl⟩, rfl, rfl, rfl⟩ := h
      simp [hm, eq_comm]
  | some b =>
    cases ids with
    | none => cases h; simp [eq_comm]
    | some l =>
      simp only [] at h
      unpack at h
      obtain ⟨m, ⟨m', hm, rfl⟩, n', ⟨n'', hn, rfl⟩, rfl, rfl, rfl⟩ := h
      simp [hm, hn, eq_comm]

/-- **C89**. The metadata of the shares of pools: every pool has them, different pools have different
names and symbols, and one whole share in the decimals reported is what `get_unit_share_token_amounts`
reports the redemption of. -/
theorem C89_metadata {c : Contract} {id : Nat} (hid : id < c.numberOfPools)
    (hr : c.numberOfPools ≤ 2 ^ 64) :
    ∃ m, c.mftMetadata (lpTokenId id) = .ok m ∧
      (∀ {id' : Nat} {m' : ShareMetadata}, id' < c.numberOfPools →
        c.mftMetadata (lpTokenId id') = .ok m' → m'.name = m.name ∨ m'.symbol = m.symbol → id' = id) ∧
      ∀ {x : Ctx} {c' : Contract} {mins paid v : List Nat}, c.getUnitShare id = .ok v →
        c.removeLiquidity x id (10 ^ m.decimals) mins = .ok (c', paid) → paid = v := by
  have hp := List.getElem?_eq_getElem hid
  have hm : ∀ {i : Nat} {p : Pool}, i < c.numberOfPools → c.pools[i]? = some p →
      c.mftMetadata (lpTokenId i) = .ok ⟨"ref-pool-".toList ++ Nat.toDigits 10 i,
        "REF-POOL-".toList ++ Nat.toDigits 10 i, p.shareDecimal⟩ := by
    intro i p hi hp
    unfold mftMetadata
    rw [C41_lp_id (by omega)]
    simp only []
    rw [pool_ok.2 hp, ok_bind]
  refine ⟨_, hm hid hp, fun {id' m'} hid' h' e => ?_, fun hv h => C69_unit hp hv h⟩
  rw [hm hid' (List.getElem?_eq_getElem hid')] at h'
  cases h'
  simp only [List.append_cancel_left_eq, or_self] at e
  refine C41_lp_id_injective (by omega) (by omega) ?_
  unfold lpTokenId
  rw [e]

/-- **C89**. The pages of `list_pool_twap_info_view` list every recorded pool exactly once, as
`get_pool_twap_info_view` reports it. -/
theorem C89_twaps {c : Contract} {keys : List Nat} (hn : keys.Nodup)
    (hk : ∀ id, id ∈ keys ↔ (c.getTwapInfo id).isSome = true) {sizes : List Nat}
    {l : List (Nat × CumInfo)}
    (h : readPages (fun s n => c.listTwapInfos keys (some s) (some n)) 0 sizes = .ok l)
    (hs : keys.length ≤ sizes.sum) :
    (l.map Prod.fst).Nodup ∧ ∀ id u, (id, u) ∈ l ↔ c.getTwapInfo id = some u :=
  map_pages hn hk h hs

/-- **C89**. The NEAR that `get_account_basic_info` reports is the total of `storage_balance_of` and the
deposit of `get_user_storage_state`; it answers exactly for the registered accounts. -/
theorem C89_basic_info {c : Contract} {a : AccountId} :
    c.getAccountBasicInfo a = (c.storageBalanceOf a).map StorageBalance.total ∧
    c.getAccountBasicInfo a = (c.getUserStorageState a).map Prod.fst := by
  unfold getAccountBasicInfo storageBalanceOf getUserStorageState
  rw [Option.map_map, Option.map_map]
  exact ⟨rfl, rfl⟩

/-! ### Client echoes -/

/-- The three lists for client echoes, as the views report them. -/
structure EchoLists where
  tokens : List (List Char)
  senders : List (List Char)
  secure : List (List Char)

def echoLists (c : Contract) : EchoLists := ⟨c.getEchoTokens, c.getEchoSenders, c.getSecureSenders⟩

/-- What the views report after a configuration method, given what they reported before. -/
def EchoReported (m m' : EchoLists) : Setting → Prop
  | .extendEchoTokens l => m' = { m with tokens := m'.tokens } ∧ Added m.tokens m'.tokens l
  | .removeEchoTokens l => m' = { m with tokens := m'.tokens } ∧ Removed m.tokens m'.tokens l
  | .extendEchoSenders l => m' = { m with senders := m'.senders } ∧ Added m.senders m'.senders l
  | .removeEchoSenders l => m' = { m with senders := m'.senders } ∧ Removed m.senders m'.senders l
  | .extendSecureSenders l => m' = { m with secure := m'.secure } ∧ Added m.secure m'.secure l
  | .removeSecureSenders l => m' = { m with secure := m'.secure } ∧ Removed m.secure m'.secure l
  | _ => m' = m

theorem removeEcho_removed {items : List (List Char)} : ∀ {set set' : List (List Char)},
    removeEcho set items = .ok set' → Removed set set' items := by
  induction items with
  | nil => intro set set' h; cases h; exact ⟨by simp, by simp⟩
  | cons x xs ih =>
    intro set set' h
    unfold removeEcho at h
    unpack at h
    obtain ⟨hx, h⟩ := h
    obtain ⟨h1, h2⟩ := ih h
    refine ⟨fun t ht => ?_, fun t => ?_⟩
    · rcases List.mem_cons.1 ht with rfl | ht
      · exact hx
      · exact (List.mem_filter.1 (h1 t ht)).1
    · rw [h2 t, List.mem_filter]
      simp only [decide_eq_true_eq, List.mem_cons, not_or]
      tauto

/-- **C42**. After each configuration method the views on the lists for client echoes report exactly what
was asked for, and the others report what they did before. -/
theorem C42_reported {c c' : Contract} {x : Ctx} {s : Setting} {outs : List Out}
    (h : c.exec x (.setting s) = .ok (c', outs)) : EchoReported c.echoLists c'.echoLists s := by
  simp only [exec] at h
  unpack at h
  obtain ⟨c1, h0, rfl, -⟩ := h
  obtain ⟨g, h, rfl⟩ := setting_inv h0
  clear h0
  unfold applySetting Config.assertOwner Config.assertManager Ctx.oneYocto at h
  unpack at h
  obtain ⟨-, h⟩ := h
  cases s <;> simp only [] at h <;> (try unpack at h) <;> simp only [EchoReported]
  case changeState r =>
    obtain ⟨-, h⟩ := h
    split at h
    · unpack at h
      obtain ⟨-, rfl⟩ := h
      rfl
    · cases h; rfl
  case registerOracle o => obtain ⟨-, -, rfl⟩ := h; cases o <;> rfl
  case updateOracle o => obtain ⟨-, -, rfl⟩ := h; cases o <;> rfl
  case unregisterOracle p => obtain ⟨-, rfl⟩ := h; cases p <;> rfl
  case extendEchoTokens => obtain ⟨-, s, h1, rfl⟩ := h; exact ⟨rfl, extendEcho_ok h1⟩
  case extendEchoSenders => obtain ⟨-, s, h1, rfl⟩ := h; exact ⟨rfl, extendEcho_ok h1⟩
  case extendSecureSenders => obtain ⟨-, s, h1, rfl⟩ := h; exact ⟨rfl, extendEcho_ok h1⟩
  case removeEchoTokens => obtain ⟨-, s, h1, rfl⟩ := h; exact ⟨rfl, removeEcho_removed h1⟩
  case removeEchoSenders => obtain ⟨-, s, h1, rfl⟩ := h; exact ⟨rfl, removeEcho_removed h1⟩
  case removeSecureSenders => obtain ⟨-, s, h1, rfl⟩ := h; exact ⟨rfl, removeEcho_removed h1⟩
  all_goals first
    | (obtain ⟨-, rfl⟩ := h; rfl)
    | (obtain ⟨-, -, rfl⟩ := h; rfl)
    | (obtain ⟨-, _, -, rfl⟩ := h; rfl)
    | (obtain ⟨-, -, -, _, -, rfl⟩ := h; rfl)
    | (obtain ⟨-, _, -, -, -, _, -, rfl⟩ := h; rfl)

/-- The views name the sender and the token as allowed to ask for an echo. -/
def EchoListed (c : Contract) (sender token : AccountId) : Prop :=
  (∃ e ∈ c.getSecureSenders, Admits e sender) ∨
  ((∃ e ∈ c.getEchoTokens, Admits e token) ∧ ∃ e ∈ c.getEchoSenders, Admits e sender)

/-- **C42**, calls. An instant swap asks for an echo only if the lists, as the views report them, admit
its sender and token. Only then is the output sent with a call, and to nobody but the sender. -/
theorem C42_call {c c' : Contract} {x : Ctx} {sender : AccountId} {amount : Nat}
    {referral : Option AccountId} {actions : List Action} {echo : Bool} {skip : Option Bool}
    {recipient : Option AccountId} {outs : List Out}
    (h : c.exec x (.ftOnTransfer sender amount (.execute referral actions echo skip recipient)) =
      .ok (c', outs)) :
    (echo = true → c.EchoListed sender x.pred ∧ recipient = none) ∧
    ∀ t to' n, .ftCall t to' n ∈ outs → echo = true ∧ to' = sender := by
  simp only [exec] at h
  obtain ⟨-, -, ⟨hd, -⟩ | ⟨_, _, _, _, _, hd, h⟩ | ⟨_, _, _, hd, -⟩⟩ := ftOnTransfer_inv h <;>
    cases hd
  obtain ⟨left, h1, -, h2, -, -, rfl⟩ := instantSwap_inv h
  refine ⟨fun he => ⟨(C42_echo _ _ _ _ _).1 (h2 he), ?_⟩, fun t to' n hm => ?_⟩
  · cases recipient with
    | none => rfl
    | some r => exact absurd ⟨rfl, he⟩ h1
  · obtain ⟨p, -, hp⟩ := List.mem_map.1 hm
    unfold payOut at hp
    split at hp
    next he => cases hp; exact ⟨he, rfl⟩
    · unfold sendTokens at hp
      split at hp <;> cases hp

/-- **C42** for histories. As long as neither the owner nor a guardian signs a call, the lists stay as
they are, and so does who may ask for an echo. -/
theorem C42_unchanged (es : List Event) : ∀ (c : Contract),
    (∀ x k, .call x k ∈ es → ¬ c.Manager x.pred) →
    (c.run es).echoLists = c.echoLists ∧
    ∀ a t, (c.run es).EchoListed a t ↔ c.EchoListed a t := by
  intro c hn
  have h := cfg_unmanaged es c hn
  have e1 : (c.run es).cfg.echoTokens = c.cfg.echoTokens := by
    have := congrArg Config.echoTokens h; exact this
  have e2 : (c.run es).cfg.echoSenders = c.cfg.echoSenders := by
    have := congrArg Config.echoSenders h; exact this
  have e3 : (c.run es).cfg.secureSenders = c.cfg.secureSenders := by
    have := congrArg Config.secureSenders h; exact this
  unfold echoLists EchoListed getEchoTokens getEchoSenders getSecureSenders
  rw [e1, e2, e3]
  exact ⟨rfl, fun _ _ => Iff.rfl⟩

/-! ### Examples -/

/-- The views on the demo pools. -/
example : (c4.getCurvePool .stable (10 ^ 18) 1).isOk = true ∧
    (c4.getCurvePool .rated (10 ^ 18) 2).isOk = true ∧ (c4.getCurvePool .degen (10 ^ 18) 3).isOk = true ∧
    (c4.getCurvePool .stable (10 ^ 18) 0).isOk = false ∧
    (c4.getCurvePool .stable (10 ^ 18) 2).isOk = false ∧
    (c4.getPoolFee 0).isOk = true ∧ (c4.getPoolFee 4).isOk = false ∧
    (c4.getPoolDetailByIds (10 ^ 18) [3, 0, 3]).isOk = true ∧
    (c4.getPoolDetailByIds (10 ^ 18) [3, 4]).isOk = false ∧
    (c4.getPoolVolumesByIds [1, 0]).isOk = true ∧
    c4.mftMetadata (lpTokenId 1) = .ok ⟨"ref-pool-1".toList, "REF-POOL-1".toList, 18⟩ ∧
    c4.mftMetadata (lpTokenId 3) = .ok ⟨"ref-pool-3".toList, "REF-POOL-3".toList, 24⟩ ∧
    0 < (c4.getAccountBasicInfo al).getD 0 ∧
    (c4.batchViews (10 ^ 18) (some al) none).holds (fun r => decide (r.2.1.isNone ∧ r.2.2.isNone)) =
      true := by decide +kernel

/-- The average of the pool that is recorded, and Alice's shares, in one answer. -/
example : (w2.batchViews later (some al) (some [1, 1])).holds (fun r => decide (
    r.1 = some [] ∧ (r.2.1.bind (·.get? (poolIdToShadowId 1))) =
      some (18, [(A, 5 * 10 ^ 17), (B, 5 * 10 ^ 17)]) ∧
    r.2.1.map (·.entries.length) = some 1 ∧ r.2.2.map List.length = some 2)) = true := by
  decide +kernel

/-- Two predictions, each from its own deposits. -/
example : (c2.batchPredictSwapActions (10 ^ 18) [FMap.empty.insert A 5000, FMap.empty.insert A 5000]
      [[swapA], [swapA]]).holds (fun l => l.length = 2 ∧
        l.map (·.getD B 0) = [(l.map (·.getD B 0)).headD 0, (l.map (·.getD B 0)).headD 0] ∧
        0 < (l.map (·.getD B 0)).headD 0) = true ∧
    (c2.batchPredictSwapActions (10 ^ 18) [FMap.empty.insert A 5000] [[swapA], [swapA]]).isOk = false := by
  decide +kernel

/-- An echo for Bob is refused until they are on the list of secure senders. -/
example : (c1.exec (by' A) (.ftOnTransfer bo 1000 (.execute none [swapA] true none none))).isOk = false ∧
    ((c1.step (.call (y guard) (.setting (.extendSecureSenders [bo])))).exec (by' A)
      (.ftOnTransfer bo 1000 (.execute none [swapA] true none none))).holds (fun r =>
        r.2.length = 1) = true ∧
    (c1.step (.call (y guard) (.setting (.extendSecureSenders [bo])))).getSecureSenders = [bo] := by
  decide +kernel

end Contract
end Verif

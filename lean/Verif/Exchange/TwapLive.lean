import Verif.Exchange.TwapHistory

/-
The records of averages never stop a pool of two tokens: in every history in which time does not run
backwards, the update that precedes a swap or a change of liquidity succeeds.
-/

namespace Verif
namespace Contract

/-- All records satisfy `P`. -/
def Records (P : Nat → CumInfo → Prop) (m : FMap Nat CumInfo) : Prop :=
  ∀ id u, m.get? id = some u → P id u

/-- Updates at time `now` preserve `P`. -/
def Updates (now : Nat) (P : Nat → CumInfo → Prop) : Prop :=
  ∀ id u u' as iv, P id u → u.update (nanoToSec now) as iv = .ok u' → P id u'

variable {P : Nat → CumInfo → Prop} {now : Nat}

theorem Records.insert {m : FMap Nat CumInfo} (h : Records P m) {i : Nat} {u : CumInfo} (hu : P i u) :
    Records P (m.insert i u) := by
  intro id v hv
  rw [FMap.get?_insert] at hv
  by_cases e : id = i
  · rw [if_pos e] at hv; cases hv; rw [e]; exact hu
  · rw [if_neg e] at hv; exact h id v hv

theorem twapHook_records {c c' : Contract} {i : Nat} (hP : Updates now P) (h0 : Records P c.twaps)
    (h : c.twapHook now i = .ok c') : Records P c'.twaps := by
  unfold twapHook at h
  split at h
  · cases h; exact h0
  · rename_i u hu
    unpack at h
    obtain ⟨p, -, o, -, h⟩ := h
    split at h
    · cases h; exact h0
    · unpack at h
      obtain ⟨u', hu', rfl⟩ := h
      exact h0.insert (hP _ _ _ _ _ (h0 _ _ hu) hu')

theorem _root_.Verif.Swaps.records {ref : Option (AccountId × Nat)} {c c' : Contract}
    {steps : List SwapStep} (hP : Updates now P) (h : Swaps now ref c steps c')
    (h0 : Records P c.twaps) : Records P c'.twaps := by
  induction h with
  | nil => exact h0
  | @cons c c1 c2 s steps h1 _ ih =>
    refine ih ?_
    rcases h1 with ⟨m, h⟩ | ⟨m, h⟩
    · unfold poolSwap at h
      unpack at h
      obtain ⟨ch, hh, p, hp, q, _, hs, c3, h2, rfl, rfl⟩ := h
      obtain ⟨vs, rfl⟩ := recordVolume_ok h2
      have h1 := twapHook_records hP h0 hh
      exact h1
    · unfold poolSwapByOutput at h
      unpack at h
      obtain ⟨ch, hh, p, hp, q, _, hs, c3, h2, rfl, rfl⟩ := h
      obtain ⟨vs, rfl⟩ := recordVolume_ok h2
      have h1 := twapHook_records hP h0 hh
      exact h1

theorem _root_.Verif.Zaps.twaps {sender : AccountId} {c c' : Contract} {is : List AddInfo}
    {steps : List ZapStep} (h : Zaps now sender c is steps c') : c'.twaps = c.twaps := by
  induction h with
  | nil => rfl
  | cons h1 _ ih =>
    obtain ⟨p, q, hp, -, -, -, -, rfl⟩ := h1
    exact ih

theorem internalMftTransfer_twaps {c c' : Contract} {tokenId : List Char}
    {sender receiver : AccountId} {amount : Option Nat} {n : Nat}
    (h : c.internalMftTransfer tokenId sender receiver amount = .ok (c', n)) : c'.twaps = c.twaps := by
  obtain ⟨-, ⟨i, -, h⟩ | ⟨t, -, h⟩⟩ := internalMftTransfer_inv h
  · obtain ⟨p, q, hp, -, -, -, -, hq, rfl⟩ := transferShares_inv h
    rfl
  · obtain ⟨_, _, _, _, -, -, -, -, -, -, -, rfl⟩ := transferToken_inv h
    rfl

/-- A call registers records, updates them or removes them. -/
theorem exec_records {c c' : Contract} {x : Ctx} {k : Call} {outs : List Out} (hP : Updates x.now P)
    (hnew : ∀ id as, c.unit id = .ok (some as) → P id (CumInfo.new (nanoToSec x.now) as))
    (h0 : Records P c.twaps) (h : c.exec x k = .ok (c', outs)) : Records P c'.twaps := by
  cases k <;> simp only [exec] at h
  case addSimplePool =>
    obtain ⟨_, -, hn, hp, h⟩ := addSimplePool_inv h
    obtain ⟨_, _, hr, -, rfl⟩ := addPool_inv h
    exact h0
  case addCurvePool =>
    obtain ⟨_, -, hl, hn, hp, h⟩ := addCurvePool_inv h
    obtain ⟨_, _, hr, -, rfl⟩ := addPool_inv h
    exact h0
  case executeActions =>
    unpack at h; obtain ⟨_, _, h, rfl, -⟩ := h
    obtain ⟨_, _, c1, -, -, -, -, h2, -, rfl⟩ := executeActions_inv h
    obtain ⟨_, hw, -⟩ := runActions_ok h2
    have h1 := hw.records hP h0
    exact h1
  case executeInVa =>
    unpack at h; obtain ⟨_, _, h, rfl, -⟩ := h
    obtain ⟨_, _, _, _, _, c1, _, -, -, -, -, -, h2, -, -, -, rfl⟩ := executeInVa_inv h
    obtain ⟨_, hw, -⟩ := runActions_ok h2
    have h1 := hw.records hP h0
    exact h1
  case addLiquidity =>
    unpack at h; obtain ⟨_, _, _, h, rfl, -⟩ := h
    unfold addLiquidity at h
    unpack at h
    obtain ⟨_, -, -, c1, hh, p, -, _, -, q, _, _, -, _, -, acc, -, acc', -, c2, h10, fee, outs', -, rfl,
      -, -⟩ := h
    obtain ⟨-, rfl⟩ := saveAccount_ok.1 h10
    have h1 := twapHook_records hP h0 hh
    exact h1
  case addStableLiquidity =>
    unpack at h; obtain ⟨_, _, _, h, rfl, -⟩ := h
    unfold addStableLiquidity at h
    unpack at h
    obtain ⟨_, -, -, c1, hh, p, -, _, -, q, _, -, _, -, acc, -, acc', -, c2, h10, fee, outs', -, rfl,
      -, -⟩ := h
    obtain ⟨-, rfl⟩ := saveAccount_ok.1 h10
    have h1 := twapHook_records hP h0 hh
    exact h1
  case removeLiquidity =>
    unpack at h; obtain ⟨_, _, h, rfl, -⟩ := h
    unfold removeLiquidity at h
    unpack at h
    obtain ⟨_, -, _, -, c1, hh, p, -, acc, -, _, -, _, -, q, _, -, acc', -, c2, h10, rfl, -⟩ := h
    obtain ⟨-, rfl⟩ := saveAccount_ok.1 h10
    have h1 := twapHook_records hP h0 hh
    exact h1
  case removeByTokens =>
    unpack at h; obtain ⟨_, _, h, rfl, -⟩ := h
    unfold removeByTokens at h
    unpack at h
    obtain ⟨_, -, _, -, c1, hh, p, -, acc, -, _, -, _, -, q, _, -, -, acc', -, c2, h10, rfl, -⟩ := h
    obtain ⟨-, rfl⟩ := saveAccount_ok.1 h10
    have h1 := twapHook_records hP h0 hh
    exact h1
  case registerTokens =>
    unpack at h; obtain ⟨_, h, rfl, -⟩ := h
    obtain ⟨_, -, -, -, -, rfl⟩ := registerTokens_inv h; exact h0
  case unregisterTokens =>
    unpack at h; obtain ⟨_, h, rfl, -⟩ := h
    obtain ⟨_, _, -, -, -, -, -, rfl⟩ := unregisterTokens_inv h; exact h0
  case withdraw =>
    obtain ⟨_, _, _, _, -, -, -, -, -, -, -, -, -, rfl, -⟩ := withdraw_inv h
    exact h0
  case claimLostfound =>
    obtain ⟨-, -, -, -, rfl, -⟩ := claimLostfound_inv h; exact h0
  case ftOnTransfer =>
    obtain ⟨-, -, ⟨-, -, h, -⟩ | ⟨_, _, _, _, _, -, h⟩ | ⟨_, _, _, hm, -, h⟩⟩ := ftOnTransfer_inv h
    · obtain ⟨_, _, -, -, -, -, rfl⟩ := deposit_inv h; exact h0
    · obtain ⟨_, -, -, -, h, -⟩ := instantSwap_inv h
      obtain ⟨_, _, _, hw, -⟩ := directActions_ok h
      have h1 := hw.records hP h0
      exact h1
    · obtain ⟨_, _, _, _, _, _, _, _, -, -, -, -, -, -, h2, hz, -, -, -, -, rfl⟩ := hotZap_inv h
      obtain ⟨_, _, _, hw, -⟩ := directActions_ok h2
      have h1 := hw.records hP h0
      rw [← hz.twaps] at h1
      exact h1
  case mftTransfer =>
    unpack at h; obtain ⟨_, h, rfl, -⟩ := h
    obtain ⟨-, -, _, h⟩ := mftTransfer_inv h
    rw [internalMftTransfer_twaps h]; exact h0
  case mftTransferCall =>
    obtain ⟨-, -, _, h, -⟩ := mftTransferCall_inv h
    rw [internalMftTransfer_twaps h]; exact h0
  case mftRegister =>
    obtain ⟨_, _, _, _, -, -, hp, hq, -, rfl⟩ := mftRegister_inv h
    exact h0
  case mftUnregister =>
    obtain ⟨_, _, _, -, -, -, hp, hq, -, rfl⟩ := mftUnregister_inv h
    exact h0
  case storageDeposit =>
    obtain ⟨-, -, rfl | ⟨_, _, h⟩⟩ := storageDeposit_inv h
    · exact h0
    · obtain ⟨_, -, -, -, -, rfl⟩ := registerAccount_inv h; exact h0
  case storageWithdraw =>
    obtain ⟨_, _, -, -, -, -, -, -, -, rfl⟩ := storageWithdraw_inv h; exact h0
  case storageUnregister =>
    obtain ⟨-, -, ⟨-, rfl, -⟩ | ⟨_, -, -, -, rfl, -⟩⟩ := storageUnregister_inv h <;>
      exact h0
  case shadowAction =>
    obtain ⟨_, _, _, _, -, -, -, -, -, -, -, ⟨-, rfl, -⟩ | ⟨-, _, _, _, -, -, -, rfl, -⟩⟩ :=
      shadowAction_inv h <;> exact h0
  case onBurrowLiquidation =>
    obtain ⟨i, _, _, _, _, _, _, _, _, _, _, -, -, hd, hp, -, -, -, -, -, -, -, -, hq, -, -, rfl,
      -⟩ := onBurrowLiquidation_inv h
    exact h0
  case donationShare i amount unregister =>
    obtain ⟨_, _, q, q', -, -, hp, -, -, hq, hw, -, hc⟩ := donationShare_inv h
    rcases hc with rfl | ⟨_, _, -, -, -, rfl⟩ <;> exact h0
  case donationToken =>
    unpack at h; obtain ⟨_, h, rfl, -⟩ := h
    obtain ⟨_, _, _, _, _, _, -, -, -, -, -, -, -, -, -, -, rfl⟩ := donationToken_inv h
    exact h0
  case setting s =>
    unpack at h; obtain ⟨_, h, rfl, -⟩ := h
    obtain ⟨g, h2, rfl⟩ := setting_inv h
    exact h0
  case retrieveUnmanaged =>
    unpack at h; obtain ⟨_, h, rfl, -⟩ := h; exact h0
  case modifyTotalFee =>
    unpack at h; obtain ⟨_, h, rfl, -⟩ := h
    obtain ⟨_, -, -, hf, hp, rfl⟩ := modifyTotalFee_inv h
    exact h0
  case removeExchangeFee =>
    unpack at h; obtain ⟨_, h, rfl, -⟩ := h
    obtain ⟨_, _, _, _, _, -, -, -, hp, hq, -, -, -, rfl⟩ := removeExchangeFee_inv h
    exact h0
  case withdrawOwnerToken =>
    obtain ⟨_, _, -, -, -, -, -, -, rfl, -⟩ := withdrawOwnerToken_inv h; exact h0
  case rampAmp =>
    unpack at h; obtain ⟨_, h, rfl, -⟩ := h
    obtain ⟨_, _, -, -, hp, hq, rfl⟩ := rampAmp_inv h
    exact h0
  case stopRampAmp =>
    unpack at h; obtain ⟨_, h, rfl, -⟩ := h
    obtain ⟨_, _, -, -, hp, hq, rfl⟩ := stopRampAmp_inv h
    exact h0
  case registerTwap i =>
    unpack at h; obtain ⟨_, h, rfl, -⟩ := h
    unfold registerTwap at h
    unpack at h
    obtain ⟨_, -, _, -, hn, p, hp, o, ho, as, has, rfl⟩ := h
    refine h0.insert (hnew _ _ ?_)
    subst has
    unfold unit
    rw [hp, ok_bind, ho]
  case unregisterTwap i =>
    unpack at h; obtain ⟨_, h, rfl, -⟩ := h
    unfold unregisterTwap at h
    unpack at h
    obtain ⟨_, -, _, -, -, rfl⟩ := h
    intro id u hu
    simp only [FMap.get?_erase] at hu
    split at hu
    · cases hu
    · exact h0 id u hu
  case syncTwap i =>
    unpack at h; obtain ⟨_, h, rfl, -⟩ := h
    unfold syncTwap at h
    unpack at h
    obtain ⟨_, -, u, hw, p, hp, un, hun, as, has, u', hu', rfl⟩ := h
    exact h0.insert (hP _ _ _ _ _ (h0 _ _ hw) hu')

theorem callback_twaps {c c' : Contract} {x : Ctx} {out : Out} {o : Outcome} {outs : List Out}
    (h : c.callback x out o = .ok (c', outs)) : c'.twaps = c.twaps := by
  cases out <;> simp only [callback] at h
  case ft =>
    cases o <;> simp only [] at h
    · cases h; rfl
    · unpack at h; obtain ⟨_, h, rfl, -⟩ := h
      exact (handleFail_twaps h).2
  case ftCall =>
    cases o <;> simp only [] at h
    · cases h; rfl
    · unpack at h; obtain ⟨_, h, rfl, -⟩ := h
      exact (handleFail_twaps h).2
  case unwrap =>
    cases o <;> simp only [] at h
    · cases h; rfl
    · unpack at h; obtain ⟨_, -, _, h, rfl, -⟩ := h
      exact (handleFail_twaps h).2
  case mftCall =>
    unpack at h; obtain ⟨_, _, h, rfl, -⟩ := h
    obtain ⟨-, rfl | ⟨_, _, -, -, -, h⟩⟩ := mftResolve_inv h
    · rfl
    · exact internalMftTransfer_twaps h
  case shadow =>
    obtain ⟨-, rfl | ⟨_, -, rfl | ⟨_, _, -, -, -, -, rfl⟩⟩⟩ := callbackOnShadow_inv h <;> rfl
  all_goals (cases h; rfl)

/-! ### Records whose update succeeds -/

/-- A record of `n` sums that was not made or updated after second `T`. -/
structure Current (n T : Nat) (u : CumInfo) : Prop where
  ne : u.recs ≠ []
  recent : ∀ z ∈ u.recs.getLast?, z.time ≤ T
  last : u.last ≤ T
  len : u.cum.length = n

end Contract

theorem CumInfo.accumulate_length {e : Nat} : ∀ {cs as r : List Nat}, CumInfo.accumulate e cs as = .ok r →
    r.length = cs.length
  | [], _, r, h => by unfold accumulate at h; cases h; rfl
  | _ :: _, [], r, h => by unfold accumulate at h; cases h
  | c :: cs, a :: as, r, h => by
    unfold accumulate at h
    unpack at h
    obtain ⟨-, r', h1, rfl⟩ := h
    rw [List.length_cons, List.length_cons, CumInfo.accumulate_length h1]

theorem CumInfo.accumulate_run {e : Nat} (he : e < 2 ^ 32) : ∀ {cs as : List Nat},
    as.length = cs.length → (∀ a ∈ as, a < 2 ^ 128) → ∃ r, CumInfo.accumulate e cs as = .ok r
  | [], as, _, _ => ⟨[], by unfold accumulate; rfl⟩
  | _ :: _, [], hl, _ => by simp at hl
  | c :: cs, a :: as, hl, ha => by
    obtain ⟨r, hr⟩ := CumInfo.accumulate_run he (cs := cs) (as := as) (by simpa using hl)
      fun a h => ha a (List.mem_cons_of_mem _ h)
    unfold accumulate
    have : a * e < 2 ^ 256 := by
      calc a * e < 2 ^ 128 * 2 ^ 32 := Nat.mul_lt_mul'' (ha a List.mem_cons_self) he
        _ < 2 ^ 256 := by norm_num
    rw [mulW_ok.2 ⟨this, rfl⟩, ok_bind, hr, ok_bind]
    exact ⟨_, rfl⟩

namespace Contract

theorem Current.update {n T now : Nat} {u u' : CumInfo} {as : List Nat} {iv : Nat} (h : Current n T u)
    (hT : T ≤ now) (hu : u.update now as iv = .ok u') : Current n now u' := by
  obtain ⟨h1, h2⟩ := CumInfo.update_last hu
  refine ⟨h2, ?_, le_of_eq h1, ?_⟩
  · unfold CumInfo.update at hu
    unpack at hu
    obtain ⟨z, hz, he, hu⟩ := hu
    split at hu
    · unpack at hu
      obtain ⟨cum, -, hs, hu⟩ := hu
      split at hu
      · cases hu
        intro y hy
        have : y.time = now := by
          split at hy
          · rename_i hlen
            rw [List.drop_append_of_le_length (by
              simp only [List.length_append, List.length_singleton] at hlen
              have : RECORD_COUNT_LIMIT = 60 := rfl
              omega), List.getLast?_append] at hy
            simp at hy
            rw [← hy]
          · rw [List.getLast?_append] at hy
            simp at hy
            rw [← hy]
        exact le_of_eq this
      · cases hu
        intro y hy
        exact le_trans (h.recent y hy) hT
    · cases hu
      intro y hy
      exact le_trans (h.recent y hy) hT
  · unfold CumInfo.update at hu
    unpack at hu
    obtain ⟨z, hz, he, hu⟩ := hu
    split at hu
    · unpack at hu
      obtain ⟨cum, hc, hs, hu⟩ := hu
      split at hu <;> (cases hu; exact (CumInfo.accumulate_length hc).trans h.len)
    · cases hu; exact h.len

theorem Current.run {n T now : Nat} {u : CumInfo} {as : List Nat} {iv : Nat} (h : Current n T u)
    (hT : T ≤ now) (hn : now < 2 ^ 32) (hl : as.length = n) (ha : ∀ a ∈ as, a < 2 ^ 128) :
    ∃ u', u.update now as iv = .ok u' := by
  have h1 := h.last
  obtain ⟨z, hz⟩ : ∃ z, u.recs.getLast? = some z := by
    cases hg : u.recs.getLast? with
    | none => exact absurd (List.getLast?_eq_none_iff.1 hg) h.ne
    | some z => exact ⟨z, rfl⟩
  have h2 := h.recent z (by rw [hz]; rfl)
  obtain ⟨r, hr⟩ := CumInfo.accumulate_run (e := now - u.last) (by omega) (hl.trans h.len.symm) ha
  unfold CumInfo.update
  rw [hz]
  simp only [expectE, ok_bind]
  rw [subW_ok.2 ⟨by omega, rfl⟩, ok_bind]
  split
  · rw [hr, ok_bind, subW_ok.2 ⟨by omega, rfl⟩, ok_bind]
    split <;> exact ⟨_, rfl⟩
  · exact ⟨_, rfl⟩

/-! ### Histories -/

/-- Time does not run backwards in the history, every event happens at the time given for it, and times
fit 32 bits of seconds. -/
def _root_.Verif.History.Ordered (h : History) : Prop :=
  h.Pairwise (fun e f => e.1 ≤ f.1) ∧ ∀ e ∈ h, e.2.At e.1 ∧ e.1 < 2 ^ 32 * 10 ^ 9

theorem apply_records {c c' : Contract} {e : Event} {outs : List Out} {t : Nat} (hat : e.At t)
    (hP : Updates t P)
    (hnew : ∀ id as, c.unit id = .ok (some as) → P id (CumInfo.new (nanoToSec t) as))
    (h0 : Records P c.twaps) (h : c.apply e = .ok (c', outs)) : Records P c'.twaps := by
  cases e <;> simp only [apply] at h
  case call x k => obtain rfl : x.now = t := hat; exact exec_records hP hnew h0 h
  case callback => rw [callback_twaps h]; exact h0
  case rate => cases h; unfold setRate; split <;> exact h0
  case price => cases h; unfold setDegenPrice; split <;> exact h0

/-- All records are current at the end of the history. -/
theorem records_current {c : Contract} {h : History} (hc : c.Reachable) (h0 : c.twaps = FMap.empty)
    (ho : h.Ordered) (T : Nat) (hT : ∀ e ∈ h, e.1 ≤ T) {id : Nat} {u : CumInfo}
    (hu : (c.run h.events).twaps.get? id = some u) :
    ∃ p, (c.run h.events).pools[id]? = some p ∧ Current p.tokens.length (T / 10 ^ 9) u := by
  induction h using List.reverseRecOn generalizing T id u with
  | nil =>
    change c.twaps.get? id = some u at hu
    rw [h0, FMap.get?_empty] at hu
    cases hu
  | append_singleton h e ih =>
    have hord : History.Ordered h :=
      ⟨(List.pairwise_append.1 ho.1).1, fun x hx => ho.2 x (List.mem_append_left _ hx)⟩
    have hle : ∀ x ∈ h, x.1 ≤ e.1 := fun x hx =>
      (List.pairwise_append.1 ho.1).2.2 x hx e (List.mem_singleton.2 rfl)
    have heT : e.1 ≤ T := hT e (by simp)
    obtain ⟨hat, hlt⟩ := ho.2 e (by simp)
    have hev : History.events (h ++ [e]) = (History.events h) ++ [e.2] := by
      unfold History.events; rw [List.map_append]; rfl
    rw [hev, run_snoc] at hu ⊢
    have hsec : e.1 / 10 ^ 9 ≤ T / 10 ^ 9 := Nat.div_le_div_right heT
    suffices hs : ∃ p, (((c.run (History.events h)).step e.2)).pools[id]? = some p ∧
        Current p.tokens.length (e.1 / 10 ^ 9) u by
      obtain ⟨p, hp, hs⟩ := hs
      exact ⟨p, hp, hs.ne, fun z hz => le_trans (hs.recent z hz) hsec, le_trans hs.last hsec, hs.len⟩
    have hreach := hc.run (History.events h)
    unfold step at hu ⊢
    cases ha : (c.run (History.events h)).apply e.2 with
    | error _ =>
      rw [ha] at hu
      exact ih hord e.1 hle hu
    | ok r =>
      obtain ⟨c', outs⟩ := r
      rw [ha] at hu
      simp only at hu ⊢
      have hnow : nanoToSec e.1 = e.1 / 10 ^ 9 := sec_eq hlt
      have hall := apply_records (P := fun id u => ∃ p, (c.run (History.events h)).pools[id]? = some p ∧
          Current p.tokens.length (e.1 / 10 ^ 9) u) hat
        (by
          rintro id u u' as iv ⟨p, hp, hk⟩ hup
          rw [hnow] at hup
          exact ⟨p, hp, hk.update (le_refl _) hup⟩)
        (by
          intro id as hun
          obtain ⟨p, hp⟩ : ∃ p, (c.run (History.events h)).pools[id]? = some p := by
            unfold unit at hun
            unpack at hun
            obtain ⟨p, hp, -⟩ := hun
            exact ⟨p, pool_ok.1 hp⟩
          refine ⟨p, hp, ?_⟩
          rw [hnow]
          refine ⟨by simp [CumInfo.new], fun z hz => ?_, le_refl _, (unit_valid hreach hp hun).1⟩
          simp only [CumInfo.new, List.getLast?_singleton, Option.mem_def, Option.some.injEq] at hz
          rw [← hz])
        (fun id u hu => ih hord e.1 hle hu) ha
      obtain ⟨p, hp, hk⟩ := hall id u hu
      obtain ⟨q, hq, hs⟩ := apply_pool ha hp
      refine ⟨q, hq, ?_⟩
      rw [Pool.tokens_of_shape hs]
      exact hk

/-- A pool of which a unit of shares can be redeemed is never stopped by its record. -/
theorem hook_run {c : Contract} {h : History} (hc : c.Reachable) (h0 : c.twaps = FMap.empty)
    (ho : h.Ordered) {now : Nat} (hT : ∀ e ∈ h, e.1 ≤ now) (hlt : now < 2 ^ 32 * 10 ^ 9) {id : Nat}
    (hun : ∃ o, (c.run h.events).unit id = .ok o) :
    ∃ c', (c.run h.events).twapHook now id = .ok c' := by
  unfold twapHook
  cases hu : (c.run h.events).twaps.get? id with
  | none => exact ⟨_, rfl⟩
  | some u =>
    obtain ⟨p, hp, hk⟩ := records_current hc h0 ho now hT hu
    obtain ⟨o, hun⟩ := hun
    have hv : ∀ as, o = some as → as.length = p.tokens.length ∧ ∀ a ∈ as, a < 2 ^ 128 :=
      fun as e => unit_valid (hc.run _) hp (e ▸ hun)
    unfold unit at hun
    rw [pool_ok.2 hp, ok_bind] at hun
    simp only
    rw [pool_ok.2 hp, ok_bind, hun, ok_bind]
    cases o with
    | none => exact ⟨_, rfl⟩
    | some as =>
      obtain ⟨u', hu'⟩ := hk.run (iv := (c.run h.events).cfg.recordInterval) (le_refl _)
        (sec_lt hlt) (hv as rfl).1 (hv as rfl).2
      simp only
      rw [sec_eq hlt, hu', ok_bind]
      exact ⟨_, rfl⟩

end Contract
end Verif

import Verif.Simple.Worth
import Verif.Exchange.VolumeProps

/-
What the operations of the pools and the calls do to the worth of the shares of a constant-product
pool (`SimplePool.worth`).
-/

namespace Verif

/-- The number of swaps through pool `id`. -/
def swapsOf (steps : List SwapStep) (id : Nat) : Nat := (steps.filter fun s => s.pool = id).length

theorem swapsOf_append (l l' : List SwapStep) (id : Nat) :
    swapsOf (l ++ l') id = swapsOf l id + swapsOf l' id := by
  simp [swapsOf]

/-- Constant-product pools stay that, and as long as there are `h` shares the operation does not
lower their worth. -/
def Pool.Keeps (h : Nat) (p q : Pool) : Prop :=
  ∀ p', p = .simple p' → h ≤ p'.supply →
    ∃ q', q = .simple q' ∧ (h ≤ q'.supply → p'.worth h ≤ q'.worth h)

/-- As `Pool.Keeps` for pool `id` of the list, with a loss of at most `k` units. -/
def PoolsKeep (id h k : Nat) (l l' : List Pool) : Prop :=
  ∀ p, l[id]? = some (.simple p) → h ≤ p.supply →
    ∃ q, l'[id]? = some (.simple q) ∧ (h ≤ q.supply → p.worth h ≤ q.worth h + k)

/-- As `PoolsKeep`, where the number of shares does not fall. -/
def PoolsGrow (id h k : Nat) (l l' : List Pool) : Prop :=
  ∀ p, l[id]? = some (.simple p) → h ≤ p.supply →
    ∃ q, l'[id]? = some (.simple q) ∧ p.supply ≤ q.supply ∧ p.worth h ≤ q.worth h + k

theorem PoolsGrow.keep {id h k : Nat} {l l' : List Pool} (g : PoolsGrow id h k l l') :
    PoolsKeep id h k l l' := by
  intro p hp hh
  obtain ⟨q, hq, -, hw⟩ := g p hp hh
  exact ⟨q, hq, fun _ => hw⟩

theorem PoolsGrow.refl (id h : Nat) (l : List Pool) : PoolsGrow id h 0 l l :=
  fun p hp _ => ⟨p, hp, le_refl _, by simp⟩

theorem PoolsKeep.refl (id h : Nat) (l : List Pool) : PoolsKeep id h 0 l l :=
  (PoolsGrow.refl id h l).keep

theorem PoolsGrow.trans {id h j k : Nat} {l l1 l2 : List Pool} (g : PoolsGrow id h j l l1)
    (g' : PoolsGrow id h k l1 l2) : PoolsGrow id h (j + k) l l2 := by
  intro p hp hh
  obtain ⟨q, hq, hs, hw⟩ := g p hp hh
  obtain ⟨r, hr, hs', hw'⟩ := g' q hq (hh.trans hs)
  refine ⟨r, hr, hs.trans hs', ?_⟩
  push_cast
  linarith

/-- One operation on one pool. -/
theorem PoolsKeep.one {id h j : Nat} {l : List Pool} {p q : Pool} (hp : l[j]? = some p)
    (hk : p.Keeps h q) : PoolsKeep id h 0 l (l.set j q) := by
  intro p' hp' hh
  by_cases e : id = j
  · subst e
    rw [hp] at hp'
    obtain ⟨q', rfl, hw⟩ := hk p' (Option.some.inj hp') hh
    exact ⟨q', by rw [getElem?_set_some hp, if_pos rfl], fun h => by simpa using hw h⟩
  · exact ⟨p', by rw [List.getElem?_set_ne (Ne.symm e)]; exact hp', by simp⟩

/-- A new pool. -/
theorem PoolsKeep.add {id h : Nat} {l : List Pool} {q : Pool} : PoolsKeep id h 0 l (l ++ [q]) := by
  intro p hp hh
  refine ⟨p, ?_, by simp⟩
  rw [List.getElem?_append_left (List.getElem?_eq_some_iff.1 hp).1]
  exact hp

namespace Pool

theorem Keeps.of_same {h : Nat} {p q : Pool} (hs : q.shape = p.shape) (hsup : q.supply = p.supply)
    (ha : q.amounts = p.amounts) : p.Keeps h q := by
  rintro p' rfl hh
  cases q with
  | curve q => cases hs
  | simple q =>
    refine ⟨q, rfl, fun _ => le_of_eq ?_⟩
    simp only [amounts, List.cons.injEq, and_true] at ha
    simp only [supply] at hsup
    unfold SimplePool.worth
    rw [ha.1, ha.2, hsup]

theorem OnlyShares.keeps {h : Nat} {p q : Pool} (hs : OnlyShares p q) : p.Keeps h q :=
  .of_same hs.shape hs.supply hs.amounts

theorem OnlyAmp.keeps {h : Nat} {p q : Pool} (hs : OnlyAmp p q) : p.Keeps h q :=
  .of_same hs.shape hs.supply hs.amounts

theorem setFee_keeps (h : Nat) (p : Pool) (f : Nat) : p.Keeps h (p.setFee f) :=
  .of_same (setFee_facts p f).1 (setFee_facts p f).2.2.1 (setFee_facts p f).2.2.2.2.2

theorem addLiquidity_keeps {h : Nat} {p q : Pool} {s : AccountId} {am used : List Nat} {n : Nat}
    (h0 : 0 < h) (hr : p.addLiquidity s am false = .ok (q, used, n)) : p.Keeps h q := by
  rintro p' rfl hh
  unfold addLiquidity at hr
  unpack at hr
  obtain ⟨q', _, _, hr, rfl, -⟩ := hr
  exact ⟨q', rfl, fun _ => (SimplePool.addLiquidity_worth (by omega) hr h).2⟩

theorem addStable_keeps {h : Nat} {p q : Pool} {s : AccountId} {am : List Nat} {m n : Nat}
    {fees : AdminFees} {env : R CurveEnv} (hr : p.addStable s am m fees env false = .ok (q, n)) :
    p.Keeps h q := by
  rintro p' rfl hh
  cases hr

theorem removeByTokens_keeps {h : Nat} {p q : Pool} {s : AccountId} {am : List Nat} {m n : Nat}
    {fees : AdminFees} {env : R CurveEnv} (hr : p.removeByTokens s am m fees env false = .ok (q, n)) :
    p.Keeps h q := by
  rintro p' rfl hh
  cases hr

theorem removeLiquidity_keeps {h : Nat} {p q : Pool} {s : AccountId} {n : Nat} {mins paid : List Nat}
    (h0 : 0 < h) (hr : p.removeLiquidity s n mins false = .ok (q, paid)) : p.Keeps h q := by
  rintro p' rfl hh
  unfold removeLiquidity at hr
  unpack at hr
  obtain ⟨q', _, hr, rfl, -⟩ := hr
  exact ⟨q', rfl, fun hq => SimplePool.removeLiquidity_worth (by omega) hr h⟩

end Pool

namespace Contract

theorem SwapsTo.grow {now : Nat} {ref : Option (AccountId × Nat)} {c c' : Contract} {s : SwapStep}
    {h : Nat} (hs : c.SwapsTo now ref s c') (hb : c.cfg.adminFeeBps ≤ 10000) (h0 : 0 < h) (id : Nat) :
    PoolsGrow id h (swapsOf [s] id) c.pools c'.pools := by
  have key : ∀ (p q : Pool), c.pools[s.pool]? = some p → c'.pools = c.pools.set s.pool q →
      (∀ p', p = .simple p' → h ≤ p'.supply →
        ∃ q', q = .simple q' ∧ p'.supply ≤ q'.supply ∧ p'.worth h ≤ q'.worth h + 1) →
      PoolsGrow id h (swapsOf [s] id) c.pools c'.pools := by
    intro p q hp hc' hk p' hp' hh
    rw [hc']
    by_cases e : id = s.pool
    · subst e
      rw [hp] at hp'
      obtain ⟨q', rfl, h1, h2⟩ := hk p' (Option.some.inj hp') hh
      refine ⟨q', by rw [getElem?_set_some hp, if_pos rfl], h1, ?_⟩
      simpa [swapsOf] using h2
    · refine ⟨p', by rw [List.getElem?_set_ne (Ne.symm e)]; exact hp', le_refl _, ?_⟩
      simp [swapsOf, Ne.symm e]
  rcases hs with ⟨m, hs⟩ | ⟨m, hs⟩
  · obtain ⟨tw, vs, p, q, hp, hr, -, hc'⟩ := poolSwap_ok hs
    refine key p q hp (by rw [hc']) ?_
    rintro p' rfl hh
    unfold Pool.swap at hr
    unpack at hr
    obtain ⟨q', _, hr, rfl, -⟩ := hr
    exact ⟨q', rfl, SimplePool.swap_worth (fees := c.fees ref) hb (by omega) hh hr⟩
  · obtain ⟨tw, vs, p, q, hp, hr, -, hc'⟩ := poolSwapByOutput_ok hs
    refine key p q hp (by rw [hc']) ?_
    rintro p' rfl hh
    unfold Pool.swapByOutput at hr
    unpack at hr
    obtain ⟨q', _, hr, rfl, -⟩ := hr
    exact ⟨q', rfl, SimplePool.swapByOutput_worth (fees := c.fees ref) hb (by omega) hh hr⟩

theorem _root_.Verif.Swaps.grow {now : Nat} {ref : Option (AccountId × Nat)} {c c' : Contract}
    {steps : List SwapStep} {h : Nat} (hs : Swaps now ref c steps c')
    (hb : c.cfg.adminFeeBps ≤ 10000) (h0 : 0 < h) (id : Nat) :
    PoolsGrow id h (swapsOf steps id) c.pools c'.pools := by
  induction hs with
  | nil c => exact .refl _ _ _
  | @cons _ s _ steps _ h1 _ ih =>
    have := (h1.grow hb h0 id).trans (ih (by rw [h1.framed.cfg]; exact hb))
    rwa [← swapsOf_append] at this

theorem ZapsTo.grow {now : Nat} {sender : AccountId} {c c' : Contract} {i : AddInfo} {s : ZapStep}
    {h : Nat} (hs : c.ZapsTo now sender i s c') (h0 : 0 < h) (id : Nat) :
    PoolsGrow id h 0 c.pools c'.pools := by
  obtain ⟨p, q, hp, -, -, hz, -, rfl⟩ := hs
  intro p' hp' hh
  by_cases e : id = i.pool
  · subst e
    rw [hp] at hp'
    cases hp'
    unfold zapAdd at hz
    simp only at hz
    unpack at hz
    obtain ⟨q', used', n, h1, _, -, _, -, rfl, -⟩ := hz
    unfold Pool.addLiquidity at h1
    unpack at h1
    obtain ⟨q', _, _, h1, rfl, -⟩ := h1
    have := SimplePool.addLiquidity_worth (by omega) h1 h
    exact ⟨q', by rw [getElem?_set_some hp, if_pos rfl], this.1, by simpa using this.2⟩
  · exact ⟨p', by rw [List.getElem?_set_ne (Ne.symm e)]; exact hp', le_refl _, by simp⟩

theorem _root_.Verif.Zaps.grow {now : Nat} {sender : AccountId} {c c' : Contract}
    {is : List AddInfo} {steps : List ZapStep} {h : Nat} (hz : Zaps now sender c is steps c')
    (h0 : 0 < h) (id : Nat) : PoolsGrow id h 0 c.pools c'.pools := by
  induction hz with
  | nil => exact .refl _ _ _
  | cons h1 _ ih => exact (h1.grow h0 id).trans ih

theorem internalMftTransfer_keep {c c' : Contract} {tokenId : List Char}
    {sender receiver : AccountId} {amount : Option Nat} {n : Nat} (id h : Nat)
    (hr : c.internalMftTransfer tokenId sender receiver amount = .ok (c', n)) :
    PoolsKeep id h 0 c.pools c'.pools := by
  obtain ⟨-, ⟨id, -, h⟩ | ⟨t, -, h⟩⟩ := internalMftTransfer_inv hr
  · obtain ⟨p, q, hp, -, -, -, -, hq, rfl⟩ := transferShares_inv h
    exact .one hp (Pool.shareTransfer_only hq).keeps
  · obtain ⟨_, _, _, _, -, -, -, -, -, -, -, rfl⟩ := transferToken_inv h
    exact .refl _ _ _

theorem exec_keep {c c' : Contract} {x : Ctx} {k : Call} {outs : List Out} {h : Nat}
    (hr : c.exec x k = .ok (c', outs)) (hb : c.cfg.adminFeeBps ≤ 10000) (h0 : 0 < h) (id : Nat) :
    ∃ steps, c.Makes (.call x k) steps ∧ PoolsKeep id h (swapsOf steps id) c.pools c'.pools := by
  cases k <;> simp only [exec] at hr
  case addSimplePool =>
    obtain ⟨_, -, -, -, hr⟩ := addSimplePool_inv hr
    obtain ⟨_, _, -, -, rfl⟩ := addPool_inv hr; exact ⟨[], rfl, .add⟩
  case addCurvePool =>
    obtain ⟨_, -, -, -, -, hr⟩ := addCurvePool_inv hr
    obtain ⟨_, _, -, -, rfl⟩ := addPool_inv hr; exact ⟨[], rfl, .add⟩
  case executeActions =>
    unpack at hr; obtain ⟨_, _, hr, rfl, -⟩ := hr
    obtain ⟨_, _, c1, -, -, -, -, h2, -, rfl⟩ := executeActions_inv hr
    obtain ⟨steps, hs, hf, -⟩ := runActions_ok h2
    exact ⟨steps, ⟨_, _, hs, hf⟩, (hs.grow hb h0 id).keep⟩
  case executeInVa =>
    unpack at hr; obtain ⟨_, _, hr, rfl, -⟩ := hr
    obtain ⟨_, _, _, _, _, c1, _, -, -, -, -, -, h2, -, -, -, rfl⟩ := executeInVa_inv hr
    obtain ⟨steps, hs, hf, -⟩ := runActions_ok h2
    exact ⟨steps, ⟨_, _, hs, hf⟩, (hs.grow hb h0 id).keep⟩
  case addLiquidity =>
    unpack at hr; obtain ⟨_, _, _, hr, rfl, -⟩ := hr
    obtain ⟨_, _, _, _, _, _, _, -, -, hp, -, hq, -, -, -, -, -, rfl⟩ := addLiquidity_inv hr
    exact ⟨[], rfl, .one hp (Pool.addLiquidity_keeps h0 hq)⟩
  case addStableLiquidity =>
    unpack at hr; obtain ⟨_, _, _, hr, rfl, -⟩ := hr
    obtain ⟨_, _, _, _, _, _, -, -, hp, -, hq, -, -, -, -, -, rfl⟩ := addStableLiquidity_inv hr
    exact ⟨[], rfl, .one hp (Pool.addStable_keeps hq)⟩
  case removeLiquidity =>
    unpack at hr; obtain ⟨_, _, hr, rfl, -⟩ := hr
    obtain ⟨_, _, _, _, _, -, -, hp, -, -, -, hq, -, -, rfl⟩ := removeLiquidity_inv hr
    exact ⟨[], rfl, .one hp (Pool.removeLiquidity_keeps h0 hq)⟩
  case removeByTokens =>
    unpack at hr; obtain ⟨_, _, hr, rfl, -⟩ := hr
    obtain ⟨_, _, _, _, _, -, -, hp, -, -, -, hq, -, -, rfl⟩ := removeByTokens_inv hr
    exact ⟨[], rfl, .one hp (Pool.removeByTokens_keeps hq)⟩
  case registerTokens =>
    unpack at hr; obtain ⟨_, hr, rfl, -⟩ := hr
    obtain ⟨_, -, -, -, -, rfl⟩ := registerTokens_inv hr; exact ⟨[], rfl, .refl _ _ _⟩
  case unregisterTokens =>
    unpack at hr; obtain ⟨_, hr, rfl, -⟩ := hr
    obtain ⟨_, _, -, -, -, -, -, rfl⟩ := unregisterTokens_inv hr; exact ⟨[], rfl, .refl _ _ _⟩
  case withdraw =>
    obtain ⟨_, _, _, _, -, -, -, -, -, -, -, -, -, rfl, -⟩ := withdraw_inv hr
    exact ⟨[], rfl, .refl _ _ _⟩
  case claimLostfound =>
    obtain ⟨-, -, -, -, rfl, -⟩ := claimLostfound_inv hr; exact ⟨[], rfl, .refl _ _ _⟩
  case ftOnTransfer sender amount msg =>
    obtain ⟨-, -, ⟨rfl, -, g, -⟩ | ⟨_, actions, _, _, _, rfl, g⟩ | ⟨_, actions, _, rfl, -, g⟩⟩ :=
      ftOnTransfer_inv hr
    · obtain ⟨_, _, -, -, -, -, rfl⟩ := deposit_inv g
      exact ⟨[], rfl, .refl _ _ _⟩
    · obtain ⟨_, -, -, -, g, -⟩ := instantSwap_inv g
      obtain ⟨steps, res, hs, hf⟩ := directActions_opening g
      refine ⟨steps, ⟨res, _, hs, ?_⟩, (hs.grow hb h0 id).keep⟩
      cases actions with
      | nil => exact hf
      | cons a as => cases a <;> exact hf
    · obtain ⟨_, _, _, _, _, _, _, _, -, -, -, -, -, -, h2, hz, -, -, -, -, rfl⟩ := hotZap_inv g
      obtain ⟨steps, res, hs, hf⟩ := directActions_opening h2
      refine ⟨steps, ⟨res, _, hs, ?_⟩, ((hs.grow hb h0 id).trans (hz.grow h0 id)).keep⟩
      cases actions with
      | nil => exact hf
      | cons a as => cases a <;> exact hf
  case mftTransfer =>
    unpack at hr; obtain ⟨_, hr, rfl, -⟩ := hr
    obtain ⟨-, -, _, hr⟩ := mftTransfer_inv hr
    exact ⟨[], rfl, internalMftTransfer_keep id h hr⟩
  case mftTransferCall =>
    obtain ⟨-, -, _, hr, -⟩ := mftTransferCall_inv hr
    exact ⟨[], rfl, internalMftTransfer_keep id h hr⟩
  case mftRegister =>
    obtain ⟨_, _, _, _, -, -, hp, hq, -, rfl⟩ := mftRegister_inv hr
    exact ⟨[], rfl, .one hp (Pool.shareRegister_only hq).1.keeps⟩
  case mftUnregister =>
    obtain ⟨_, _, _, -, -, -, hp, hq, -, rfl⟩ := mftUnregister_inv hr
    exact ⟨[], rfl, .one hp (Pool.shareUnregister_only hq).1.keeps⟩
  case storageDeposit =>
    obtain ⟨-, -, rfl | ⟨_, _, hr⟩⟩ := storageDeposit_inv hr
    · exact ⟨[], rfl, .refl _ _ _⟩
    · obtain ⟨_, -, -, -, -, rfl⟩ := registerAccount_inv hr; exact ⟨[], rfl, .refl _ _ _⟩
  case storageWithdraw =>
    obtain ⟨_, _, -, -, -, -, -, -, -, rfl⟩ := storageWithdraw_inv hr; exact ⟨[], rfl, .refl _ _ _⟩
  case storageUnregister =>
    obtain ⟨-, -, ⟨-, rfl, -⟩ | ⟨_, -, -, -, rfl, -⟩⟩ := storageUnregister_inv hr <;>
      exact ⟨[], rfl, .refl _ _ _⟩
  case shadowAction =>
    obtain ⟨_, _, _, _, -, -, -, -, -, -, -, ⟨-, rfl, -⟩ | ⟨-, _, _, _, -, -, -, rfl, -⟩⟩ :=
      shadowAction_inv hr <;> exact ⟨[], rfl, .refl _ _ _⟩
  case onBurrowLiquidation =>
    obtain ⟨_, _, _, _, _, _, _, _, _, _, _, -, -, -, hp, -, -, -, -, -, -, -, -, hq, -, -, rfl,
      -⟩ := onBurrowLiquidation_inv hr
    exact ⟨[], rfl, .one hp (Pool.removeLiquidity_keeps h0 hq)⟩
  case donationShare j amount unregister =>
    obtain ⟨p, _, q, q', -, -, hp, -, -, hq, hu, -, hc⟩ := donationShare_inv hr
    have hk : p.Keeps h q' := by
      have h1 := Pool.shareTransfer_only hq
      rcases hu with ⟨rfl, -⟩ | ⟨-, hu⟩
      · exact h1.keeps
      · have h2 := (Pool.shareUnregister_only hu).1
        exact .of_same (h2.shape.trans h1.shape) (h2.supply.trans h1.supply)
          (h2.amounts.trans h1.amounts)
    rcases hc with rfl | ⟨_, _, -, -, -, rfl⟩ <;> exact ⟨[], rfl, .one hp hk⟩
  case donationToken =>
    unpack at hr; obtain ⟨_, hr, rfl, -⟩ := hr
    obtain ⟨_, _, _, _, _, _, -, -, -, -, -, -, -, -, -, -, rfl⟩ := donationToken_inv hr
    exact ⟨[], rfl, .refl _ _ _⟩
  case setting s =>
    unpack at hr; obtain ⟨_, hr, rfl, -⟩ := hr
    obtain ⟨g, h2, rfl⟩ := setting_inv hr
    exact ⟨[], rfl, .refl _ _ _⟩
  case retrieveUnmanaged =>
    unpack at hr; obtain ⟨_, hr, rfl, -⟩ := hr; exact ⟨[], rfl, .refl _ _ _⟩
  case modifyTotalFee =>
    unpack at hr; obtain ⟨_, hr, rfl, -⟩ := hr
    obtain ⟨_, -, -, hf, hp, rfl⟩ := modifyTotalFee_inv hr
    exact ⟨[], rfl, .one hp (Pool.setFee_keeps _ _ _)⟩
  case removeExchangeFee =>
    unpack at hr; obtain ⟨_, hr, rfl, -⟩ := hr
    obtain ⟨_, _, _, _, _, -, -, -, hp, hq, -, -, -, rfl⟩ := removeExchangeFee_inv hr
    exact ⟨[], rfl, .one hp (Pool.removeLiquidity_keeps h0 hq)⟩
  case withdrawOwnerToken =>
    obtain ⟨_, _, -, -, -, -, -, -, rfl, -⟩ := withdrawOwnerToken_inv hr; exact ⟨[], rfl, .refl _ _ _⟩
  case rampAmp =>
    unpack at hr; obtain ⟨_, hr, rfl, -⟩ := hr
    obtain ⟨_, _, -, -, hp, hq, rfl⟩ := rampAmp_inv hr
    exact ⟨[], rfl, .one hp (Pool.ramp_only hq).keeps⟩
  case stopRampAmp =>
    unpack at hr; obtain ⟨_, hr, rfl, -⟩ := hr
    obtain ⟨_, _, -, -, hp, hq, rfl⟩ := stopRampAmp_inv hr
    exact ⟨[], rfl, .one hp (Pool.stopRamp_only hq).keeps⟩
  case registerTwap =>
    unpack at hr; obtain ⟨_, hr, rfl, -⟩ := hr
    obtain ⟨-, -, _, rfl⟩ := registerTwap_inv hr; exact ⟨[], rfl, .refl _ _ _⟩
  case unregisterTwap =>
    unpack at hr; obtain ⟨_, hr, rfl, -⟩ := hr
    obtain ⟨-, -, _, rfl⟩ := unregisterTwap_inv hr; exact ⟨[], rfl, .refl _ _ _⟩
  case syncTwap =>
    unpack at hr; obtain ⟨_, hr, rfl, -⟩ := hr
    obtain ⟨-, _, rfl⟩ := syncTwap_inv hr; exact ⟨[], rfl, .refl _ _ _⟩

theorem callback_keep {c c' : Contract} {x : Ctx} {out : Out} {o : Outcome} {outs : List Out}
    (id h : Nat) (hr : c.callback x out o = .ok (c', outs)) : PoolsKeep id h 0 c.pools c'.pools := by
  cases out <;> simp only [callback] at hr
  case ft =>
    cases o <;> simp only [] at hr
    · cases hr; exact .refl _ _ _
    · unpack at hr; obtain ⟨_, hr, rfl, -⟩ := hr
      rw [(handleFail_same hr).2.2.1]; exact .refl _ _ _
  case ftCall =>
    cases o <;> simp only [] at hr
    · cases hr; exact .refl _ _ _
    · unpack at hr; obtain ⟨_, hr, rfl, -⟩ := hr
      rw [(handleFail_same hr).2.2.1]; exact .refl _ _ _
  case unwrap =>
    cases o <;> simp only [] at hr
    · cases hr; exact .refl _ _ _
    · unpack at hr; obtain ⟨_, -, _, hr, rfl, -⟩ := hr
      rw [(handleFail_same hr).2.2.1]; exact .refl _ _ _
  case mftCall =>
    unpack at hr; obtain ⟨_, _, hr, rfl, -⟩ := hr
    obtain ⟨-, rfl | ⟨_, _, -, -, -, hr⟩⟩ := mftResolve_inv hr
    · exact .refl _ _ _
    · exact internalMftTransfer_keep id h hr
  case shadow =>
    obtain ⟨-, rfl | ⟨_, -, rfl | ⟨_, _, -, -, -, -, rfl⟩⟩⟩ := callbackOnShadow_inv hr <;>
      exact .refl _ _ _
  all_goals (cases hr; exact .refl _ _ _)

theorem apply_keep {c c' : Contract} {e : Event} {outs : List Out} {h : Nat}
    (hr : c.apply e = .ok (c', outs)) (hb : c.cfg.adminFeeBps ≤ 10000) (h0 : 0 < h) (id : Nat) :
    ∃ steps, c.Makes e steps ∧ PoolsKeep id h (swapsOf steps id) c.pools c'.pools := by
  cases e <;> simp only [apply] at hr
  case call => exact exec_keep hr hb h0 id
  case callback => exact ⟨[], rfl, callback_keep id h hr⟩
  case rate t r time =>
    cases hr; refine ⟨[], rfl, ?_⟩; unfold setRate; split <;> exact .refl _ _ _
  case price t p time =>
    cases hr; refine ⟨[], rfl, ?_⟩; unfold setDegenPrice; split <;> exact .refl _ _ _

end Contract
end Verif

import Verif.Exchange.Ownership
import Verif.Exchange.StorageProps
import Verif.Exchange.SwapProps

/-
C20: frozen tokens.
-/

namespace Verif

/-! ### Pools -/

theorem Pool.swap_still {p q : Pool} {ti tout : AccountId} {a mo out : Nat} {fees : AdminFees}
    {env : R CurveEnv} {v : Bool} (hp : p.Sound)
    (h : p.swap ti a tout mo fees env v = .ok (q, out)) {t : AccountId} (h1 : ti ≠ t)
    (h2 : tout ≠ t) : q.atoms t = p.atoms t := by
  cases p with
  | simple p =>
    replace h := swap_simple h
    obtain ⟨q', rfl, h⟩ := h
    have hne := hp.2
    obtain ⟨i, o, hto, hi, ho, hio, -, -, hu⟩ := SimplePool.swap_ok h
    obtain ⟨-, -, h3, h4, -⟩ := swap_moves h
    rw [simple_atoms p t hne, simple_atoms q' t (by rw [h3, h4]; exact hne)]
    have : q'.reserve t = p.reserve t := by
      have hi' := SimplePool.tokenIndex_ok hi
      have ho' := SimplePool.tokenIndex_ok ho
      have : t ≠ p.tok0 ∧ t ≠ p.tok1 := by
        cases i <;> cases o <;> simp_all <;> constructor <;> (intro e; simp_all)
      simp [SimplePool.reserve, h3, h4, this.1, this.2]
    rw [this]
  | curve p =>
    replace h := swap_curve h
    obtain ⟨e, q', -, rfl, h⟩ := h
    obtain ⟨i, o, _, _, _, _, _, _, ci', co', m, hti, hto, -, -, -, -, -, -, -, -,
      -, -, -, -, -, hm⟩ := curve_swap_reserves h
    have hsh : (Pool.curve q').shape = (Pool.curve p).shape := by rw [hm.frame]; rfl
    unfold atoms
    rw [tokens_of_shape hsh]
    have hqc : q'.cAmts = (p.cAmts.set i ci').set o co' := by rw [hm.frame]
    have hqd : q'.decs = p.decs := by rw [hm.frame]
    have hqk : q'.kind = p.kind := by rw [hm.frame]
    have key : ∀ j, p.toks[j]? = some t →
        (Pool.curve q').weighted.getD j 0 = (Pool.curve p).weighted.getD j 0 := by
      intro j hj
      have jo : o ≠ j := by rintro rfl; rw [hto] at hj; cases hj; exact h2 rfl
      have ji : i ≠ j := by rintro rfl; rw [hti] at hj; cases hj; exact h1 rfl
      simp only [weighted, hqd, hqk, hqc, List.getD_eq_getElem?_getD, List.getElem?_zipWith]
      rw [List.getElem?_set_ne jo, List.getElem?_set_ne ji]
    have l1 := flow_le t p.toks (Pool.curve q').weighted [] (Pool.curve p).weighted []
      (fun j hj => by rw [key j hj])
    have l2 := flow_le t p.toks (Pool.curve p).weighted [] (Pool.curve q').weighted []
      (fun j hj => by rw [key j hj])
    simp only [flow_nil_right, Nat.add_zero] at l1 l2
    exact Nat.le_antisymm l1 l2

theorem Pool.swapByOutput_still {p q : Pool} {ti tout : AccountId} {out inn : Nat} {mi : Option Nat}
    {fees : AdminFees} {v : Bool} (hp : p.Sound)
    (h : p.swapByOutput ti out tout mi fees v = .ok (q, inn)) {t : AccountId} (h1 : ti ≠ t)
    (h2 : tout ≠ t) : q.atoms t = p.atoms t := by
  replace h := swapByOutput_simple h
  obtain ⟨p, q', rfl, rfl, h⟩ := h
  have hne := hp.2
  obtain ⟨i, o, hto, hi, ho, hio, -, -, hu⟩ := SimplePool.swapByOutput_ok h
  obtain ⟨-, -, h3, h4, -⟩ := swapByOutput_moves h
  rw [simple_atoms p t hne, simple_atoms q' t (by rw [h3, h4]; exact hne)]
  have : q'.reserve t = p.reserve t := by
    have hi' := SimplePool.tokenIndex_ok hi
    have ho' := SimplePool.tokenIndex_ok ho
    have : t ≠ p.tok0 ∧ t ≠ p.tok1 := by
      cases i <;> cases o <;> simp_all <;> constructor <;> (intro e; simp_all)
    simp [SimplePool.reserve, h3, h4, this.1, this.2]
  rw [this]

theorem Pool.atoms_absent {p q : Pool} (h : q.shape = p.shape) {t : AccountId} (ht : t ∉ p.tokens) :
    q.atoms t = p.atoms t := by
  unfold atoms
  rw [tokens_of_shape h, flow_not_mem ht, flow_not_mem ht]

/-- Every pool has the reserve of `t` it had. -/
def Still (t : AccountId) (l l' : List Pool) : Prop :=
  ∀ (id : Nat) (p : Pool), l[id]? = some p → ∃ q, l'[id]? = some q ∧ q.atoms t = p.atoms t

theorem Still.refl (t : AccountId) (l : List Pool) : Still t l l := fun _ p h => ⟨p, h, rfl⟩

theorem Still.set {t : AccountId} {l : List Pool} {id : Nat} {p q : Pool} (hp : l[id]? = some p)
    (h : q.atoms t = p.atoms t) : Still t l (l.set id q) := by
  intro j r hr
  rw [getElem?_set_some hp]
  by_cases hj : j = id
  · subst hj; rw [if_pos rfl]; rw [hp] at hr; cases hr; exact ⟨q, rfl, h⟩
  · rw [if_neg hj]; exact ⟨r, hr, rfl⟩

theorem Still.append (t : AccountId) (l : List Pool) (q : Pool) : Still t l (l ++ [q]) := by
  intro id p h
  exact ⟨p, by rw [List.getElem?_append_left (List.getElem?_eq_some_iff.1 h).1]; exact h, rfl⟩

theorem Still.trans {t : AccountId} {l l1 l2 : List Pool} (h : Still t l l1) (g : Still t l1 l2) :
    Still t l l2 := by
  intro id p hp
  obtain ⟨q, hq, e⟩ := h id p hp
  obtain ⟨r, hr, e'⟩ := g id q hq
  exact ⟨r, hr, e'.trans e⟩

theorem Follows.tokens {actions : List Action} {steps : List SwapStep} {prev res : ActionResult}
    (h : Follows prev actions steps res) :
    ∀ s ∈ steps, s.tokIn ∈ Action.tokensOf actions ∧ s.tokOut ∈ Action.tokensOf actions := by
  have hb := h.bounds
  clear h
  induction hb with
  | nil => intro s hs; cases hs
  | cons h1 _ ih =>
    intro s hs
    rcases List.mem_cons.1 hs with rfl | hs
    · rename_i a _ _ _
      cases a <;> simp_all [Action.Bounds, Action.tokensOf, Action.tokens]
    · simp only [Action.tokensOf, List.flatMap_cons, List.mem_append]
      have := ih s hs
      simp only [Action.tokensOf] at this
      exact ⟨.inr this.1, .inr this.2⟩

theorem Contract.SwapsTo.still {now : Nat} {ref : Option (AccountId × Nat)} {c c' : Contract}
    {s : SwapStep} (h : c.SwapsTo now ref s c') {t : AccountId} (h1 : s.tokIn ≠ t)
    (h2 : s.tokOut ≠ t) (hp : ∀ p ∈ c.pools, p.Sound) : Still t c.pools c'.pools := by
  rcases h with ⟨m, h⟩ | ⟨m, h⟩
  · obtain ⟨_, _, p, q, hq, hs, -, rfl⟩ := poolSwap_ok h
    exact .set hq (Pool.swap_still (hp p (List.mem_of_getElem? hq)) hs h1 h2)
  · obtain ⟨_, _, p, q, hq, hs, -, rfl⟩ := poolSwapByOutput_ok h
    exact .set hq (Pool.swapByOutput_still (hp p (List.mem_of_getElem? hq)) hs h1 h2)

theorem Swaps.still {now : Nat} {ref : Option (AccountId × Nat)} {c c' : Contract}
    {steps : List SwapStep} (h : Swaps now ref c steps c') {t : AccountId}
    (ht : ∀ s ∈ steps, s.tokIn ≠ t ∧ s.tokOut ≠ t) (hp : ∀ p ∈ c.pools, p.Sound) :
    Still t c.pools c'.pools := by
  induction h with
  | nil => exact .refl _ _
  | cons h1 _ ih =>
    have hs := ht _ (List.mem_cons_self ..)
    exact (h1.still hs.1 hs.2 hp).trans
      (ih (fun s hs => ht s (List.mem_cons_of_mem _ hs)) (h1.poolsTo.sound hp))

/-- None of these pools contains `t`. -/
def Without (t : AccountId) (infos : List AddInfo) (l : List Pool) : Prop :=
  ∀ i ∈ infos, ∀ p, l[i.pool]? = some p → t ∉ p.tokens

theorem Without.set {t : AccountId} {infos : List AddInfo} {l : List Pool} {id : Nat} {p q : Pool}
    (h : Without t infos l) (hp : l[id]? = some p) (hq : q.shape = p.shape) :
    Without t infos (l.set id q) := by
  intro i hi r hr
  rw [getElem?_set_some hp] at hr
  by_cases hj : i.pool = id
  · rw [if_pos hj] at hr; cases hr
    rw [Pool.tokens_of_shape hq]
    exact h i hi p (by rw [hj]; exact hp)
  · rw [if_neg hj] at hr; exact h i hi r hr

theorem Without.swaps {t : AccountId} {infos : List AddInfo} {now : Nat}
    {ref : Option (AccountId × Nat)} {c c' : Contract} {steps : List SwapStep}
    (h : Swaps now ref c steps c') (hw : Without t infos c.pools) : Without t infos c'.pools :=
  h.induct (P := fun c => Without t infos c.pools) (fun c s c' hc hs => by
    obtain ⟨_, _, p, q, hp, ht, -, rfl⟩ := hs.ok
    exact hc.set hp ht.shape) hw

theorem Contract.infoTokens_without {c : Contract} {t : AccountId} : ∀ {infos : List AddInfo}
    {ts : List AccountId}, c.infoTokens infos = .ok ts → t ∉ ts → Without t infos c.pools := by
  intro infos
  induction infos with
  | nil => intro ts _ _ i hi; cases hi
  | cons i is ih =>
    intro ts h ht
    unfold infoTokens at h
    unpack at h
    obtain ⟨p, hp, ts', h1, rfl⟩ := h
    rw [pool_ok] at hp
    simp only [List.mem_append, not_or] at ht
    intro j hj q hq
    rcases List.mem_cons.1 hj with rfl | hj
    · rw [hp] at hq; cases hq; exact ht.1
    · exact ih h1 ht.2 j hj q hq

theorem Zaps.still {now : Nat} {sender : AccountId} {c c' : Contract} {is : List AddInfo}
    {steps : List ZapStep} {t : AccountId} (h : Zaps now sender c is steps c')
    (hw : Without t is c.pools) : Still t c.pools c'.pools ∧ zapped steps t = 0 := by
  induction h with
  | nil => exact ⟨.refl _ _, rfl⟩
  | @cons c c1 c2 i is s steps h1 _ ih =>
    have hi : s.pool = i.pool := by obtain ⟨_, _, _, h, -⟩ := h1; exact h
    obtain ⟨p, q, hp, hf, rfl⟩ := h1.ok
    have ht := hw i (List.mem_cons_self ..) p (hi ▸ hp)
    obtain ⟨g1, g2⟩ := ih (Without.set (fun j hj => hw j (List.mem_cons_of_mem _ hj)) hp hf.shape)
    refine ⟨(Still.set hp (Pool.atoms_absent hf.shape ht)).trans g1, ?_⟩
    rw [zapped, g2, hf.toks, flow_not_mem ht]

theorem paid_zero {steps : List SwapStep} {t : AccountId}
    (h : ∀ s ∈ steps, s.tokIn ≠ t ∧ s.tokOut ≠ t) : paidIn steps t = 0 ∧ paidOut steps t = 0 := by
  induction steps with
  | nil => exact ⟨rfl, rfl⟩
  | cons s ss ih =>
    have h1 := h s (List.mem_cons_self ..)
    have h2 := ih fun u hu => h u (List.mem_cons_of_mem _ hu)
    simp only [paidIn, paidOut, List.map_cons, List.sum_cons, if_neg h1.1, if_neg h1.2] at h2 ⊢
    omega

theorem Contract.nearOnly.pays {outs : List Out} (h : nearOnly outs) (t : AccountId) :
    paysOut outs t = 0 := by
  induction outs with
  | nil => rfl
  | cons o os ih =>
    obtain ⟨_, _, rfl⟩ := h o (List.mem_cons_self ..)
    simp only [paysOut, List.map_cons, List.sum_cons] at ih ⊢
    rw [ih fun u hu => h u (List.mem_cons_of_mem _ hu)]; rfl

theorem paysOut_append (l l' : List Out) (t : AccountId) :
    paysOut (l ++ l') t = paysOut l t + paysOut l' t := by
  simp only [paysOut, List.map_append, List.sum_append]

/-! ### Calls -/

/-- The owner's fee collection and payouts, which do not look at the list of frozen tokens. -/
def Call.ownerFunds : Call → Bool
  | .removeExchangeFee .. | .withdrawOwnerToken .. | .retrieveUnmanaged .. => true
  | _ => false

/-- Transfers of deposits between accounts of the exchange. -/
def Call.movesInside : Call → Bool
  | .mftTransfer .. | .mftTransferCall .. | .donationToken .. => true
  | _ => false

/-- What arrived of token `t` with the call. -/
def Call.arrives (x : Ctx) (t : AccountId) : Call → Nat
  | .ftOnTransfer _ n _ => if x.pred = t then n else 0
  | _ => 0

namespace Contract

/-- What a call can do with a frozen token: nothing, except return or keep what just arrived with
it and move deposits between accounts. -/
structure Frozen (c c' : Contract) (x : Ctx) (k : Call) (outs : List Out) (t : AccountId) : Prop where
  pools : Still t c.pools c'.pools
  lost : ∀ a, c'.lostOf a t = c.lostOf a t
  sent : paysOut outs t ≤ k.arrives x t
  deposits : k.movesInside = true ∨ ∀ a, c.depositOf a t ≤ c'.depositOf a t ∧
    c'.depositOf a t + paysOut outs t ≤ c.depositOf a t + k.arrives x t

theorem exec_frozen {c c' : Contract} {x : Ctx} {k : Call} {outs : List Out} {t : AccountId}
    (h : c.exec x k = .ok (c', outs)) (ht : t ∈ c.cfg.frozen) (hp : ∀ p ∈ c.pools, p.Sound)
    (hk : k.ownerFunds = false) : c.Frozen c' x k outs t := by
  have same : ∀ {n : Nat}, paysOut outs t = 0 → (∀ a, c'.depositOf a t = c.depositOf a t) →
      ∀ a, c.depositOf a t ≤ c'.depositOf a t ∧
        c'.depositOf a t + paysOut outs t ≤ c.depositOf a t + n := by
    intro n h1 h2 a; rw [h1, h2]; exact ⟨Nat.le_refl _, Nat.le_add_right _ _⟩
  have put : ∀ {m : FMap AccountId Account} {b : AccountId} {acc acc' : Account},
      m.get? b = some acc → acc'.bal t = acc.bal t →
      ∀ a, balIn (m.insert b acc') a t = balIn m a t := by
    intro m b acc acc' hb he a
    rw [balIn_insert]
    by_cases hab : a = b
    · subst hab; rw [if_pos rfl, balIn_some hb]; exact he
    · rw [if_neg hab]
  have noTok : ∀ {toks : List AccountId}, (∀ u ∈ toks, u ∉ c.cfg.frozen) → t ∉ toks :=
    fun h hm => h t hm ht
  have steps0 : ∀ {actions steps prev res}, Follows prev actions steps res →
      (∀ u ∈ Action.tokensOf actions, u ∉ c.cfg.frozen) →
      ∀ s ∈ steps, s.tokIn ≠ t ∧ s.tokOut ≠ t := by
    intro actions steps prev res hf hn s hs
    have := hf.tokens s hs
    exact ⟨fun e => hn _ this.1 (e ▸ ht), fun e => hn _ this.2 (e ▸ ht)⟩
  have inside : ∀ {c1 : Contract} {tokenId s r am n},
      c.internalMftTransfer tokenId s r am = .ok (c1, n) →
      Still t c.pools c1.pools ∧ ∀ a, c1.lostOf a t = c.lostOf a t := by
    intro c1 tokenId s r am n h
    obtain ⟨-, ⟨id, -, h⟩ | ⟨u, -, h⟩⟩ := internalMftTransfer_inv h
    · obtain ⟨p, q, hq, -, -, -, -, hs, rfl⟩ := transferShares_inv h
      exact ⟨.set hq ((Pool.shareTransfer_only hs).atoms t), fun _ => rfl⟩
    · obtain ⟨_, _, _, _, -, -, -, -, -, -, -, rfl⟩ := transferToken_inv h
      exact ⟨.refl _ _, fun _ => rfl⟩
  have quiet : ∀ {n : Nat}, paysOut outs t = 0 → paysOut outs t ≤ n := fun h => by omega
  cases k <;> simp only [exec] at h <;> try (cases hk; done)
  case addSimplePool =>
    obtain ⟨_, -, -, -, h⟩ := addSimplePool_inv h
    obtain ⟨q, _, -, hf, rfl⟩ := addPool_inv h
    have ho := (checkStorage_near hf).pays t
    exact ⟨.append _ _ _, fun _ => rfl, quiet ho, .inr (same ho fun _ => rfl)⟩
  case addCurvePool =>
    obtain ⟨_, -, -, -, -, h⟩ := addCurvePool_inv h
    obtain ⟨q, _, -, hf, rfl⟩ := addPool_inv h
    have ho := (checkStorage_near hf).pays t
    exact ⟨.append _ _ _, fun _ => rfl, quiet ho, .inr (same ho fun _ => rfl)⟩
  case executeActions =>
    unpack at h; obtain ⟨_, _, h, rfl, rfl⟩ := h
    obtain ⟨_, _, c1, -, -, h1, -, h2, -, rfl⟩ := executeActions_inv h
    obtain ⟨steps, hs, hf, -, hb, -, hn, -⟩ := runActions_ok h2
    have h0 := steps0 hf hn
    have hz := paid_zero h0
    have := hb t
    refine ⟨hs.still h0 hp, fun a => by simp only [lostOf, putAccount, hs.framed.lostfound],
      Nat.zero_le _, .inr (same rfl ?_)⟩
    simp only [depositOf_eq, putAccount, hs.framed.accounts]
    exact put h1 (by omega)
  case executeInVa =>
    unpack at h; obtain ⟨_, _, h, rfl, rfl⟩ := h
    obtain ⟨_, _, _, _, _, c1, _, -, -, h1, -, hu, h2, -, h3, -, rfl⟩ := executeInVa_inv h
    obtain ⟨steps, hs, hf, -, hb, -, hn, -⟩ := runActions_ok h2
    have h0 := steps0 hf hn
    have hz := paid_zero h0
    have e1 := hb t
    obtain ⟨-, -, e2, e3, -⟩ := useTokens_ok hu
    have e2 := e2 t
    have e3 := e3 t
    have e4 := (Account.depositPairs_ok h3).2.1 t
    rw [Account.amountIn_positive] at e4
    have e5 : Account.new.bal t = 0 := rfl
    refine ⟨hs.still h0 hp, fun a => by simp only [lostOf, putAccount, hs.framed.lostfound],
      Nat.zero_le _, .inr (same rfl ?_)⟩
    simp only [depositOf_eq, putAccount, hs.framed.accounts]
    exact put h1 (by omega)
  case addLiquidity =>
    unpack at h; obtain ⟨_, _, _, h, rfl, rfl⟩ := h
    obtain ⟨_, p, q, _, _, _, _, -, -, hq, hn, ha, -, h1, h2, -, hf, rfl⟩ := addLiquidity_inv h
    have ho := (checkStorage_near hf).pays t
    have hsh := (Pool.addLiquidity_shape ha).1
    have e := (Account.withdrawAll_ok h2).2.1 t
    rw [Pool.tokens_of_shape hsh, flow_not_mem (noTok hn)] at e
    exact ⟨.set hq (Pool.atoms_absent hsh (noTok hn)), fun _ => rfl, quiet ho,
      .inr (same ho (put h1 (by omega)))⟩
  case addStableLiquidity =>
    unpack at h; obtain ⟨_, _, _, h, rfl, rfl⟩ := h
    obtain ⟨_, p, q, _, _, _, -, -, hq, hn, ha, -, h1, h2, -, hf, rfl⟩ := addStableLiquidity_inv h
    have ho := (checkStorage_near hf).pays t
    have hsh := (Pool.addStable_shape ha).1
    have e := (Account.withdrawAll_ok h2).2.1 t
    rw [Pool.tokens_of_shape hsh, flow_not_mem (noTok hn)] at e
    exact ⟨.set hq (Pool.atoms_absent hsh (noTok hn)), fun _ => rfl, quiet ho,
      .inr (same ho (put h1 (by omega)))⟩
  case removeLiquidity =>
    unpack at h; obtain ⟨_, _, h, rfl, rfl⟩ := h
    obtain ⟨_, p, q, _, _, -, -, hq, h1, -, hn, ha, h2, -, rfl⟩ := removeLiquidity_inv h
    have hsh := (Pool.removeLiquidity_shape ha).1
    have e := (Account.depositAll_ok h2).2.1 t
    rw [Pool.tokens_of_shape hsh, flow_not_mem (noTok hn)] at e
    exact ⟨.set hq (Pool.atoms_absent hsh (noTok hn)), fun _ => rfl, Nat.zero_le _,
      .inr (same rfl (put h1 (by omega)))⟩
  case removeByTokens =>
    unpack at h; obtain ⟨_, _, h, rfl, rfl⟩ := h
    obtain ⟨_, p, q, _, _, -, -, hq, h1, -, hn, ha, h2, -, rfl⟩ := removeByTokens_inv h
    have hsh := (Pool.removeByTokens_shape ha).1
    have e := (Account.depositAll_ok h2).2.1 t
    rw [Pool.tokens_of_shape hsh, flow_not_mem (noTok hn)] at e
    exact ⟨.set hq (Pool.atoms_absent hsh (noTok hn)), fun _ => rfl, Nat.zero_le _,
      .inr (same rfl (put h1 (by omega)))⟩
  case registerTokens =>
    unpack at h; obtain ⟨_, h, rfl, rfl⟩ := h
    obtain ⟨acc, -, -, h1, -, rfl⟩ := registerTokens_inv h
    exact ⟨.refl _ _, fun _ => rfl, Nat.zero_le _,
      .inr (same rfl (put h1 ((Account.register_ok _ acc).2.1 t)))⟩
  case unregisterTokens =>
    unpack at h; obtain ⟨_, h, rfl, rfl⟩ := h
    obtain ⟨_, _, -, -, h1, h2, -, rfl⟩ := unregisterTokens_inv h
    exact ⟨.refl _ _, fun _ => rfl, Nat.zero_le _,
      .inr (same rfl (put h1 ((Account.unregisterAll_ok h2).2.1 t)))⟩
  case withdraw token amount unregister skip =>
    obtain ⟨_, _, _, n, -, -, hn, h1, -, -, h2, h3, -, rfl, rfl⟩ := withdraw_inv h
    have hne : token ≠ t := fun e => hn (e ▸ ht)
    have e1 := (Account.withdraw_ok h2).2.2.1 t
    rw [if_neg hne] at e1
    have e2 := (unregisterIf_ok h3).2.1 t
    have ho : paysOut [c.sendTokens x.pred token n skip] t = 0 := by
      unfold sendTokens
      split <;> simp [paysOut, Out.pays, hne]
    exact ⟨.refl _ _, fun _ => rfl, quiet ho, .inr (same ho (put h1 (by omega)))⟩
  case claimLostfound token =>
    obtain ⟨-, -, hn, -, rfl, rfl⟩ := claimLostfound_inv h
    have hne : token ≠ t := fun e => hn (e ▸ ht)
    have ho : paysOut [.ft token x.pred (c.lostOf x.pred token)] t = 0 := by
      simp [paysOut, Out.pays, hne]
    refine ⟨.refl _ _, fun a => ?_, quiet ho, .inr (same ho fun _ => rfl)⟩
    simp only [lostOf, FMap.getD, FMap.get?_erase]
    rw [if_neg]
    intro e; injection e with _ e; exact hne e.symm
  case ftOnTransfer sender amount msg =>
    obtain ⟨-, -, ⟨-, hn, hd, rfl⟩ | ⟨_, _, _, _, _, rfl, -⟩ | ⟨_, _, _, rfl, rfl, hz⟩⟩ :=
      ftOnTransfer_inv h
    · obtain ⟨acc, acc', h1, -, h2, -, rfl⟩ := deposit_inv hd
      have e := (Account.deposit_ok h2).2.1 t
      rw [if_neg fun e : x.pred = t => hn (e ▸ ht)] at e
      exact ⟨.refl _ _, fun _ => rfl, Nat.zero_le _, .inr (same rfl (put h1 e))⟩
    · rename_i acts _ _ _
      obtain ⟨ha, hl, -, steps, prev, res, hs, hf, hb⟩ := C30_instant_swap h
      have hn : ∀ u ∈ Action.tokensOf acts, u ∉ c.cfg.frozen := by
        obtain ⟨-, -, ⟨hd, -⟩ | ⟨_, _, _, _, _, hd, h⟩ | ⟨_, _, _, hd, -⟩⟩ := ftOnTransfer_inv h <;>
          cases hd
        obtain ⟨_, -, -, -, h, -⟩ := instantSwap_inv h
        obtain ⟨_, _, _, -, -, -, -, hn⟩ := directActions_ok h
        exact hn
      have h0 := steps0 hf hn
      have hz := paid_zero h0
      have hb := hb t
      refine ⟨hs.still h0 hp, fun a => by simp only [lostOf, hl], ?_, .inr fun a => ?_⟩
      · simp only [Call.arrives]; omega
      · simp only [depositOf_eq, ha, Call.arrives]; omega
    · obtain ⟨acc, ts, left, c1, zaps, c2, rest, acc', -, -, h1, hi, -, hn, h2, hza, hr, -,
        ⟨acc0, h3, -, -, h4⟩, -, rfl⟩ := hotZap_inv hz
      obtain ⟨steps, _, _, hs, hf, -, hb, -⟩ := directActions_ok h2
      have h0 := steps0 hf fun u hu => hn u (List.mem_append_left _ hu)
      have hz0 := paid_zero h0
      have hw : Without t _ c1.pools := Without.swaps hs
        (infoTokens_without hi (noTok fun u hu => hn u (List.mem_append_right _ hu)))
      obtain ⟨g1, g2⟩ := hza.still hw
      have hfr := hs.framed.trans hza.framed.1
      have e1 := (Account.depositPairs_ok h4).2.1 t
      rw [Account.bal_congr h3] at e1
      have e2 := hb t
      have e3 := hr t
      refine ⟨(hs.still h0 hp).trans g1, fun a => by simp only [lostOf, putAccount, hfr.lostfound],
        Nat.zero_le _, .inr fun a => ?_⟩
      simp only [depositOf_eq, putAccount, hfr.accounts, balIn_insert, Call.arrives]
      have e0 : paysOut [] t = 0 := rfl
      by_cases ha : a = sender
      · subst ha; rw [if_pos rfl, balIn_some h1]; omega
      · rw [if_neg ha]; omega
  case mftTransfer =>
    unpack at h; obtain ⟨_, h, rfl, rfl⟩ := h
    obtain ⟨-, -, _, h⟩ := mftTransfer_inv h
    obtain ⟨g1, g2⟩ := inside h
    exact ⟨g1, g2, Nat.zero_le _, .inl rfl⟩
  case mftTransferCall =>
    obtain ⟨-, -, _, hi, rfl⟩ := mftTransferCall_inv h
    obtain ⟨g1, g2⟩ := inside hi
    exact ⟨g1, g2, Nat.zero_le _, .inl rfl⟩
  case mftRegister =>
    obtain ⟨_, _, _, _, -, -, hq, hr, hf, rfl⟩ := mftRegister_inv h
    have ho := (checkStorage_near hf).pays t
    exact ⟨.set hq ((Pool.shareRegister_only hr).1.atoms t), fun _ => rfl, quiet ho,
      .inr (same ho fun _ => rfl)⟩
  case mftUnregister =>
    obtain ⟨_, _, _, -, -, -, hq, hr, rfl, rfl⟩ := mftUnregister_inv h
    have ho := (storageRefund_near x x.pred).pays t
    exact ⟨.set hq ((Pool.shareUnregister_only hr).1.atoms t), fun _ => rfl, quiet ho,
      .inr (same ho fun _ => rfl)⟩
  case storageDeposit =>
    obtain ⟨-, hf, rfl | ⟨b, _, h⟩⟩ := storageDeposit_inv h
    · have ho := hf.pays t
      exact ⟨.refl _ _, fun _ => rfl, quiet ho, .inr (same ho fun _ => rfl)⟩
    · obtain ⟨acc', h1, -, -, -, rfl⟩ := registerAccount_inv h
      have ho := hf.pays t
      refine ⟨.refl _ _, fun _ => rfl, quiet ho, .inr (same ho fun a => ?_)⟩
      simp only [depositOf_eq, putAccount, balIn_insert]
      by_cases hab : a = b
      · subst hab
        rw [if_pos rfl, Account.bal_congr h1, accountOrNew_bal]
      · rw [if_neg hab]
  case storageWithdraw =>
    obtain ⟨_, _, -, -, h1, -, -, -, rfl, rfl⟩ := storageWithdraw_inv h
    exact ⟨.refl _ _, fun _ => rfl, Nat.zero_le _, .inr (same rfl (put h1 rfl))⟩
  case storageUnregister =>
    obtain ⟨-, -, ⟨-, rfl, rfl⟩ | ⟨acc, h1, h2, -, rfl, rfl⟩⟩ := storageUnregister_inv h
    · exact ⟨.refl _ _, fun _ => rfl, Nat.zero_le _, .inr (same rfl fun _ => rfl)⟩
    · refine ⟨.refl _ _, fun _ => rfl, Nat.zero_le _, .inr (same rfl fun a => ?_)⟩
      simp only [depositOf_eq, balIn_erase]
      by_cases hab : a = x.pred
      · subst hab
        rw [if_pos rfl, balIn_some h1, Account.bal_def, size_eq_zero.1 h2]; rfl
      · rw [if_neg hab]
  case shadowAction =>
    obtain ⟨_, _, _, _, -, h1, -, -, -, -, -, ⟨-, rfl, rfl⟩ | ⟨-, _, _, os, h2, -, hf, rfl, rfl⟩⟩ :=
      shadowAction_inv h
    · exact ⟨.refl _ _, fun _ => rfl, Nat.zero_le _, .inr (same rfl fun _ => rfl)⟩
    · have ho := (checkStorage_near hf).pays t
      have ho : ∀ {o : Out} (_ : o.pays t = 0), paysOut (os ++ [o]) t = 0 := by
        intro o h
        rw [paysOut_append, ho]
        simp [paysOut, h]
      exact ⟨.refl _ _, fun _ => rfl, quiet (ho rfl),
        .inr (same (ho rfl) (put h1 (Account.bal_congr (Account.updateShadow_ok h2).2.1 t)))⟩
  case onBurrowLiquidation =>
    obtain ⟨_, p, q, _, acc, acc1, _, acc2, acc3, liq, liq', -, -, -, hq, hn, h1, h2, -, h3, h4, -, h5,
      ha, h6, -, rfl, rfl⟩ := onBurrowLiquidation_inv h
    have hsh := (Pool.removeLiquidity_shape ha).1
    have e := (Account.depositAll_ok h6).2.1 t
    rw [Pool.tokens_of_shape hsh, flow_not_mem (noTok hn)] at e
    have e' : acc3.tokens = acc.tokens := by
      rw [(creditStorage_ok h4).1, (releaseSeed_ok h3).2.1, (Account.updateShadow_ok h2).2.1]
    have ho : ∀ {n : Nat} {o : Out} (_ : o.pays t = 0), paysOut (if n > 0 then [o] else []) t = 0 := by
      intro n o h
      split
      · simp [paysOut, h]
      · rfl
    refine ⟨.set hq (Pool.atoms_absent hsh (noTok hn)), fun _ => rfl, quiet (ho rfl),
      .inr (same (ho rfl) fun a => ?_)⟩
    exact (put h5 (by omega) a).trans (put h1 (Account.bal_congr e' t) a)
  case donationShare =>
    obtain ⟨p, _, q, q', -, -, hq, -, -, hs, hu, hf, hc⟩ := donationShare_inv h
    have ho := hf.pays t
    have ha : q'.atoms t = p.atoms t := by
      rcases hu with ⟨rfl, -⟩ | ⟨-, hu⟩
      · exact (Pool.shareTransfer_only hs).atoms t
      · exact ((Pool.shareUnregister_only hu).1.atoms t).trans ((Pool.shareTransfer_only hs).atoms t)
    rcases hc with rfl | ⟨_, _, h1, h2, -, rfl⟩
    · exact ⟨.set hq ha, fun _ => rfl, quiet ho, .inr (same ho fun _ => rfl)⟩
    · exact ⟨.set hq ha, fun _ => rfl, quiet ho,
        .inr (same ho (put h1 (Account.bal_congr (creditStorage_ok h2).1 t)))⟩
  case donationToken =>
    unpack at h; obtain ⟨_, h, rfl, rfl⟩ := h
    obtain ⟨_, _, _, acc', _, _, -, -, -, -, -, -, -, -, h1, h2, rfl⟩ := donationToken_inv h
    exact ⟨.refl _ _, fun _ => rfl, Nat.zero_le _, .inl rfl⟩
  case setting s =>
    unpack at h; obtain ⟨_, h, rfl, rfl⟩ := h
    obtain ⟨g, h2, rfl⟩ := setting_inv h
    exact ⟨.refl _ _, fun _ => rfl, Nat.zero_le _, .inr (same rfl fun _ => rfl)⟩
  case modifyTotalFee =>
    unpack at h; obtain ⟨_, h, rfl, rfl⟩ := h
    obtain ⟨p, -, -, -, hq, rfl⟩ := modifyTotalFee_inv h
    refine ⟨.set hq ?_, fun _ => rfl, Nat.zero_le _, .inr (same rfl fun _ => rfl)⟩
    obtain ⟨g1, -, -, g2, -⟩ := Pool.setFee_facts p ‹_›
    unfold Pool.atoms; rw [Pool.tokens_of_shape g1, g2]
  case rampAmp =>
    unpack at h; obtain ⟨_, h, rfl, rfl⟩ := h
    obtain ⟨_, _, -, -, hq, hr, rfl⟩ := rampAmp_inv h
    exact ⟨.set hq ((Pool.ramp_only hr).atoms t), fun _ => rfl, Nat.zero_le _,
      .inr (same rfl fun _ => rfl)⟩
  case stopRampAmp =>
    unpack at h; obtain ⟨_, h, rfl, rfl⟩ := h
    obtain ⟨_, _, -, -, hq, hr, rfl⟩ := stopRampAmp_inv h
    exact ⟨.set hq ((Pool.stopRamp_only hr).atoms t), fun _ => rfl, Nat.zero_le _,
      .inr (same rfl fun _ => rfl)⟩
  case registerTwap =>
    unpack at h; obtain ⟨_, h, rfl, rfl⟩ := h
    obtain ⟨-, -, _, rfl⟩ := registerTwap_inv h
    exact ⟨.refl _ _, fun _ => rfl, Nat.zero_le _, .inr (same rfl fun _ => rfl)⟩
  case unregisterTwap =>
    unpack at h; obtain ⟨_, h, rfl, rfl⟩ := h
    obtain ⟨-, -, _, rfl⟩ := unregisterTwap_inv h
    exact ⟨.refl _ _, fun _ => rfl, Nat.zero_le _, .inr (same rfl fun _ => rfl)⟩
  case syncTwap =>
    unpack at h; obtain ⟨_, h, rfl, rfl⟩ := h
    obtain ⟨-, _, rfl⟩ := syncTwap_inv h
    exact ⟨.refl _ _, fun _ => rfl, Nat.zero_le _, .inr (same rfl fun _ => rfl)⟩

/-- **C20**. While a token is frozen, no call but the owner's changes how much of it a pool holds,
takes anything from anyone's lost-and-found entry or sends away more of it than came with the call;
and apart from the transfers between deposits, no deposit of it shrinks, or grows by more than what
came with the call. -/
theorem C20_frozen {c c' : Contract} {x : Ctx} {k : Call} {outs : List Out} {t : AccountId}
    (hc : c.Reachable) (h : c.exec x k = .ok (c', outs)) (ht : t ∈ c.cfg.frozen)
    (hk : k.ownerFunds = false) : c.Frozen c' x k outs t :=
  exec_frozen h ht (fun p hp => (hc.sound p hp)) hk

/-- The tokens of a pool. -/
def poolTokens (c : Contract) (id : Nat) : List AccountId :=
  match c.pools[id]? with
  | some p => p.tokens
  | none => []

/-- The tokens a call swaps, withdraws, receives or asks to pay into or out of a pool. -/
def trades (c : Contract) (x : Ctx) : Call → List AccountId
  | .executeActions as _ | .executeInVa _ as _ => as.flatMap Action.tokens
  | .addLiquidity id .. | .addStableLiquidity id .. | .removeLiquidity id .. | .removeByTokens id .. =>
    c.poolTokens id
  | .withdraw t .. | .claimLostfound t => [t]
  | .ftOnTransfer _ _ .deposit => [x.pred]
  | .ftOnTransfer _ _ (.execute _ as _ _ _) => as.flatMap Action.tokens
  | .ftOnTransfer _ _ (.hotZap _ as infos) =>
    as.flatMap Action.tokens ++ infos.flatMap fun i => c.poolTokens i.pool
  | _ => []

theorem infoTokens_eq {c : Contract} : ∀ {infos : List AddInfo} {ts : List AccountId},
    c.infoTokens infos = .ok ts → ts = infos.flatMap fun i => c.poolTokens i.pool
  | [], _, h => by cases h; rfl
  | i :: is, ts, h => by
    unfold infoTokens at h
    unpack at h
    obtain ⟨p, hp, us, hu, rfl⟩ := h
    rw [List.flatMap_cons, ← infoTokens_eq hu, poolTokens, (pool_ok.1 hp)]

/-- **C20**. A call that would swap, withdraw, deposit or claim a frozen token, or add or remove
liquidity of a pool that has one, is refused. -/
theorem C20_refused {c : Contract} {x : Ctx} {k : Call} {t : AccountId} (ht : t ∈ c.cfg.frozen)
    (hk : t ∈ c.trades x k) : ∃ e, c.exec x k = .error e := by
  cases h : c.exec x k with
  | error e => exact ⟨e, rfl⟩
  | ok r =>
    exfalso
    obtain ⟨c', outs⟩ := r
    cases k <;> simp only [exec] at h <;> simp only [trades, List.not_mem_nil] at hk
    case executeActions =>
      unpack at h; obtain ⟨_, _, h, rfl, rfl⟩ := h
      obtain ⟨_, _, c1, -, -, h1, -, h2, -, rfl⟩ := executeActions_inv h
      obtain ⟨-, -, -, -, -, -, hn, -⟩ := runActions_ok h2
      exact hn t hk ht
    case executeInVa =>
      unpack at h; obtain ⟨_, _, h, rfl, rfl⟩ := h
      obtain ⟨_, _, _, _, _, c1, _, -, -, h1, -, hu, h2, -, h3, -, rfl⟩ := executeInVa_inv h
      obtain ⟨-, -, -, -, -, -, hn, -⟩ := runActions_ok h2
      exact hn t hk ht
    case addLiquidity =>
      unpack at h; obtain ⟨_, _, _, h, rfl, rfl⟩ := h
      obtain ⟨_, p, q, _, _, _, _, -, -, hq, hn, -⟩ := addLiquidity_inv h
      rw [poolTokens, hq] at hk
      exact hn t hk ht
    case addStableLiquidity =>
      unpack at h; obtain ⟨_, _, _, h, rfl, rfl⟩ := h
      obtain ⟨_, p, q, _, _, _, -, -, hq, hn, -⟩ := addStableLiquidity_inv h
      rw [poolTokens, hq] at hk
      exact hn t hk ht
    case removeLiquidity =>
      unpack at h; obtain ⟨_, _, h, rfl, rfl⟩ := h
      obtain ⟨_, p, q, _, _, -, -, hq, h1, -, hn, -⟩ := removeLiquidity_inv h
      rw [poolTokens, hq] at hk
      exact hn t hk ht
    case removeByTokens =>
      unpack at h; obtain ⟨_, _, h, rfl, rfl⟩ := h
      obtain ⟨_, p, q, _, _, -, -, hq, h1, -, hn, -⟩ := removeByTokens_inv h
      rw [poolTokens, hq] at hk
      exact hn t hk ht
    case withdraw =>
      obtain ⟨_, _, _, n, -, -, hn, -⟩ := withdraw_inv h
      rw [List.mem_singleton] at hk
      exact hn (hk ▸ ht)
    case claimLostfound =>
      obtain ⟨-, -, hn, -⟩ := claimLostfound_inv h
      rw [List.mem_singleton] at hk
      exact hn (hk ▸ ht)
    case ftOnTransfer sender amount msg =>
      obtain ⟨-, -, ⟨rfl, hn, -⟩ | ⟨_, _, _, _, _, rfl, hs⟩ | ⟨_, _, _, rfl, -, hz⟩⟩ :=
        ftOnTransfer_inv h
      · rw [List.mem_singleton] at hk
        exact hn (hk ▸ ht)
      · obtain ⟨_, -, -, -, hd, -⟩ := instantSwap_inv hs
        obtain ⟨_, _, _, -, -, -, -, hn⟩ := directActions_ok hd
        exact hn t hk ht
      · obtain ⟨acc, ts, left, c1, zaps, c2, rest, acc', -, -, h1, hi, -, hn, -⟩ := hotZap_inv hz
        rw [infoTokens_eq hi] at hn
        exact hn t hk ht

open Demo in
/-- After token B is frozen Bob can still withdraw token A, and no longer swap A for B. -/
example : B ∈ (c1.step (.call (y own) (.setting (.extendFrozen [B])))).cfg.frozen ∧
    B ∈ (c1.step (.call (y own) (.setting (.extendFrozen [B])))).trades (by' bo)
      (.executeActions [swapA] none) ∧
    ((c1.step (.call (y own) (.setting (.extendFrozen [B])))).exec (y bo)
      (.withdraw A 5000 false none)).holds (fun r => r.2 = [.ft A bo 5000]) = true := by
  decide +kernel

open Demo in
/-- The transfers between deposits ignore the list: Alice gives Bob some of the frozen token. -/
theorem C20_moves_inside : ∃ (c c' : Contract) (t a : AccountId), c.Reachable ∧ t ∈ c.cfg.frozen ∧
    c.exec (y al) (.mftTransfer t a 100) = .ok (c', []) ∧
    c'.depositOf a t = c.depositOf a t + 100 := by
  have key : ((c1.step (.call (y own) (.setting (.extendFrozen [B])))).exec (y al)
      (.mftTransfer B bo 100)).holds (fun r => decide (B ∈
        (c1.step (.call (y own) (.setting (.extendFrozen [B])))).cfg.frozen) && (decide (r.2 = []) &&
        decide (r.1.depositOf bo B =
          (c1.step (.call (y own) (.setting (.extendFrozen [B])))).depositOf bo B + 100))) = true := by
    decide +kernel
  have hr := c1_reachable.step (.call (y own) (.setting (.extendFrozen [B])))
  generalize c1.step (.call (y own) (.setting (.extendFrozen [B]))) = c at key hr
  obtain ⟨⟨c', outs⟩, h1, h2⟩ := R.holds_iff.1 key
  simp only [Bool.and_eq_true, decide_eq_true_eq] at h2
  obtain ⟨h2, h3, h4⟩ := h2
  subst h3
  exact ⟨c, c', B, bo, hr, h2, h1, h4⟩

open Demo in
/-- The owner can withdraw a frozen token. -/
theorem C20_owner_withdraws : ∃ (c c' : Contract) (t : AccountId) (outs : List Out), c.Reachable ∧
    t ∈ c.cfg.frozen ∧ c.exec (y own) (.withdrawOwnerToken t 100 none) = .ok (c', outs) ∧
    paysOut outs t = 100 := by
  have key : ((c1.run [.call (y al) (.mftTransfer B own 100),
      .call (y own) (.setting (.extendFrozen [B]))]).exec (y own)
      (.withdrawOwnerToken B 100 none)).holds (fun r => decide (B ∈
        (c1.run [.call (y al) (.mftTransfer B own 100),
          .call (y own) (.setting (.extendFrozen [B]))]).cfg.frozen) &&
        decide (paysOut r.2 B = 100)) = true := by
    decide +kernel
  have hr := c1_reachable.run [.call (y al) (.mftTransfer B own 100),
      .call (y own) (.setting (.extendFrozen [B]))]
  generalize c1.run _ = c at key hr
  obtain ⟨⟨c', outs⟩, h1, h2⟩ := R.holds_iff.1 key
  simp only [Bool.and_eq_true, decide_eq_true_eq] at h2
  exact ⟨c, c', B, outs, hr, h2.1, h1, h2.2⟩

end Contract

end Verif

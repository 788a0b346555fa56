import Verif.Exchange.Ledger

/-
C55: exact conservation. What the pools' own rounding cannot touch, that is a token no stable-swap
pool lists, is accounted for to the last unit.
-/

namespace Verif

theorem FMap.get?_of_size_zero {K V : Type} [DecidableEq K] {m : FMap K V} (h : m.size = 0) (k : K) :
    m.get? k = none := by
  have : m.entries = [] := List.length_eq_zero_iff.1 h
  rw [FMap.get?, this]; rfl

/-! ### Pools -/

/-- A pool that lists the token is a constant-product pool. -/
def Pool.Plain (t : AccountId) (p : Pool) : Prop := t ∈ p.tokens → ∃ s, p = .simple s

/-- No stable-swap pool lists the token. -/
def Contract.Plain (c : Contract) (t : AccountId) : Prop := ∀ p ∈ c.pools, p.Plain t

theorem Pool.Plain.absent {p : CurvePool} {t : AccountId} (h : (Pool.curve p).Plain t) :
    t ∉ (Pool.curve p).tokens := fun ht => by obtain ⟨_, e⟩ := h ht; cases e

theorem Pool.Plain.of_shape {p q : Pool} {t : AccountId} (h : p.Plain t) (hs : q.shape = p.shape) :
    q.Plain t := by
  intro ht
  rw [Pool.tokens_of_shape hs] at ht
  obtain ⟨s, rfl⟩ := h ht
  cases q with
  | simple q => exact ⟨q, rfl⟩
  | curve q => simp [Pool.shape] at hs

namespace Pool

theorem swap_exact {p q : Pool} {ti tout : AccountId} {a mo out : Nat} {fees : AdminFees}
    {env : R CurveEnv} {v : Bool} (hp : p.Sound) {t : AccountId} (ht : p.Plain t)
    (h : p.swap ti a tout mo fees env v = .ok (q, out)) :
    q.atoms t + (if tout = t then out * ATOMS else 0) =
      p.atoms t + (if ti = t then a * ATOMS else 0) := by
  have hsh := swap_shape h
  cases p with
  | simple p =>
    have hst := fun h1 h2 => swap_still hp h (t := t) h1 h2
    replace h := swap_simple h
    obtain ⟨q', rfl, h⟩ := h
    have hne := hp.2
    obtain ⟨h1, h2, h3, h4, -⟩ := swap_moves h
    by_cases e1 : tout = t
    · subst e1
      rw [simple_atoms p tout hne, simple_atoms q' tout (by rw [h3, h4]; exact hne)]
      rw [if_pos rfl, if_neg hsh.2.2.1, ← h2]; ring
    · by_cases e2 : ti = t
      · subst e2
        rw [simple_atoms p ti hne, simple_atoms q' ti (by rw [h3, h4]; exact hne)]
        rw [if_pos rfl, if_neg e1, h1]; ring
      · rw [if_neg e1, if_neg e2, hst e2 e1]
  | curve p =>
    have hn := ht.absent
    have e1 : ti ≠ t := fun e => hn (e ▸ hsh.2.2.2.1)
    have e2 : tout ≠ t := fun e => hn (e ▸ hsh.2.2.2.2.1)
    rw [if_neg e1, if_neg e2, atoms_absent hsh.1 hn]

theorem swapByOutput_exact {p q : Pool} {ti tout : AccountId} {out inn : Nat} {mi : Option Nat}
    {fees : AdminFees} {v : Bool} (hp : p.Sound) (t : AccountId)
    (h : p.swapByOutput ti out tout mi fees v = .ok (q, inn)) :
    q.atoms t + (if tout = t then out * ATOMS else 0) =
      p.atoms t + (if ti = t then inn * ATOMS else 0) := by
  have hsh := swapByOutput_shape h
  have hst := fun h1 h2 => swapByOutput_still hp h (t := t) h1 h2
  replace h := swapByOutput_simple h
  obtain ⟨p, q', rfl, rfl, h⟩ := h
  have hne := hp.2
  obtain ⟨h1, h2, h3, h4, -⟩ := swapByOutput_moves h
  by_cases e1 : tout = t
  · subst e1
    rw [simple_atoms p tout hne, simple_atoms q' tout (by rw [h3, h4]; exact hne)]
    rw [if_pos rfl, if_neg hsh.2.2.1, ← h2]; ring
  · by_cases e2 : ti = t
    · subst e2
      rw [simple_atoms p ti hne, simple_atoms q' ti (by rw [h3, h4]; exact hne)]
      rw [if_pos rfl, if_neg e1, h1]; ring
    · rw [if_neg e1, if_neg e2, hst e2 e1]

theorem addStable_exact {p q : Pool} {s : AccountId} {am : List Nat} {mn n : Nat}
    {fees : AdminFees} {env : R CurveEnv} {v : Bool} {t : AccountId} (ht : p.Plain t)
    (h : p.addStable s am mn fees env v = .ok (q, n)) :
    q.atoms t = p.atoms t + flow p.tokens am t * ATOMS := by
  have hsh := (addStable_shape h).1
  obtain ⟨p, _, _, rfl, -⟩ := addStable_curve h
  rw [atoms_absent hsh ht.absent, flow_not_mem ht.absent]; omega

theorem removeLiquidity_exact {p q : Pool} {s : AccountId} {n : Nat} {mins paid : List Nat}
    {v : Bool} {t : AccountId} (ht : p.Plain t)
    (h : p.removeLiquidity s n mins v = .ok (q, paid)) :
    q.atoms t + flow p.tokens paid t * ATOMS = p.atoms t := by
  have hsh := (removeLiquidity_shape h).1
  replace h := removeLiquidity_cases h
  rcases h with ⟨p, q, rfl, rfl, h⟩ | ⟨p, q, rfl, rfl, h⟩
  · obtain ⟨_, _, r0, r1, -, rfl, -, -, -, -, -, -, l0, l1, e0, e1, -, h1, h2, -⟩ :=
      Verif.removeLiquidity_ok h
    simp only [atoms, tokens, weighted, flow, h1, h2, e0, e1, Nat.add_zero]
    have g0 : (p.amt0 - r0) * ATOMS + r0 * ATOMS = p.amt0 * ATOMS := by
      rw [← Nat.add_mul]; congr 1; omega
    have g1 : (p.amt1 - r1) * ATOMS + r1 * ATOMS = p.amt1 * ATOMS := by
      rw [← Nat.add_mul]; congr 1; omega
    split <;> split <;> nlinarith
  · rw [atoms_absent hsh ht.absent, flow_not_mem ht.absent]; omega

theorem removeByTokens_exact {p q : Pool} {s : AccountId} {am : List Nat} {mb n : Nat}
    {fees : AdminFees} {env : R CurveEnv} {v : Bool} {t : AccountId} (ht : p.Plain t)
    (h : p.removeByTokens s am mb fees env v = .ok (q, n)) :
    q.atoms t + flow p.tokens am t * ATOMS = p.atoms t := by
  have hsh := (removeByTokens_shape h).1
  obtain ⟨p, _, _, rfl, -⟩ := removeByTokens_curve h
  rw [atoms_absent hsh ht.absent, flow_not_mem ht.absent]; omega

end Pool

/-! ### Swaps and deposits of liquidity -/

theorem Contract.Plain.set {c : Contract} {t : AccountId} (h : c.Plain t) {id : Nat} {p q : Pool}
    (hp : c.pools[id]? = some p) (hs : q.shape = p.shape) :
    ∀ r ∈ c.pools.set id q, r.Plain t := by
  intro r hr
  rcases List.mem_or_eq_of_mem_set hr with hr | rfl
  · exact h r hr
  · exact (h p (List.mem_of_getElem? hp)).of_shape hs

theorem Contract.SwapsTo.exact {now : Nat} {ref : Option (AccountId × Nat)} {c c' : Contract}
    {s : SwapStep} (h : c.SwapsTo now ref s c') (hp : ∀ p ∈ c.pools, p.Sound) {t : AccountId}
    (ht : c.Plain t) :
    c'.Plain t ∧ atomsIn c'.pools t + ATOMS * (if s.tokOut = t then s.amtOut else 0) =
      atomsIn c.pools t + ATOMS * (if s.tokIn = t then s.amtIn else 0) := by
  have e3 : ∀ (b : Prop) [Decidable b] (n : Nat), ATOMS * (if b then n else 0) =
      if b then n * ATOMS else 0 := by
    intro b _ n; split
    · exact Nat.mul_comm _ _
    · rfl
  rw [e3, e3]
  rcases h with ⟨m, h⟩ | ⟨m, h⟩
  · obtain ⟨tw, vs, p, q, hq, hs, -, rfl⟩ := poolSwap_ok h
    have hm := List.mem_of_getElem? hq
    have e1 := atomsIn_set t q hq
    have e2 := Pool.swap_exact (hp p hm) (ht p hm) hs
    refine ⟨ht.set hq (Pool.swap_shape hs).1, ?_⟩
    show atomsIn (c.pools.set s.pool q) t + _ = _
    omega
  · obtain ⟨tw, vs, p, q, hq, hs, -, rfl⟩ := poolSwapByOutput_ok h
    have hm := List.mem_of_getElem? hq
    have e1 := atomsIn_set t q hq
    have e2 := Pool.swapByOutput_exact (hp p hm) t hs
    refine ⟨ht.set hq (Pool.swapByOutput_shape hs).1, ?_⟩
    show atomsIn (c.pools.set s.pool q) t + _ = _
    omega

theorem Swaps.exact {now : Nat} {ref : Option (AccountId × Nat)} {c c' : Contract}
    {steps : List SwapStep} (h : Swaps now ref c steps c') (hp : ∀ p ∈ c.pools, p.Sound)
    {t : AccountId} (ht : c.Plain t) :
    (∀ p ∈ c'.pools, p.Sound) ∧ c'.Plain t ∧
    atomsIn c'.pools t + ATOMS * paidOut steps t = atomsIn c.pools t + ATOMS * paidIn steps t := by
  induction h with
  | nil => exact ⟨hp, ht, rfl⟩
  | cons h1 _ ih =>
    obtain ⟨ht1, e1⟩ := h1.exact hp ht
    obtain ⟨g, gt, e2⟩ := ih (h1.poolsTo.sound hp) ht1
    refine ⟨g, gt, ?_⟩
    simp only [paidIn, paidOut, List.map_cons, List.sum_cons, Nat.mul_add] at e2 ⊢
    omega

theorem Contract.zapAdd_exact {c : Contract} {now : Nat} {sender : AccountId} {i : AddInfo}
    {p q : Pool} {used : List Nat} (h : c.zapAdd now sender i p = .ok (q, used)) {t : AccountId}
    (ht : p.Plain t) : q.atoms t = p.atoms t + flow p.tokens used t * ATOMS := by
  unfold zapAdd at h
  split at h
  · unpack at h
    obtain ⟨q', used', n, h1, _, -, _, -, rfl, rfl⟩ := h
    exact Pool.addLiquidity_atoms h1 t
  · unpack at h
    obtain ⟨m, -, q', n, h1, rfl, rfl⟩ := h
    exact Pool.addStable_exact ht h1

theorem Zaps.exact {now : Nat} {sender : AccountId} {c c' : Contract} {is : List AddInfo}
    {steps : List ZapStep} (h : Zaps now sender c is steps c') (hp : ∀ p ∈ c.pools, p.Sound)
    {t : AccountId} (ht : c.Plain t) :
    atomsIn c'.pools t = atomsIn c.pools t + ATOMS * zapped steps t := by
  induction h with
  | nil => rfl
  | @cons c c1 c2 i is s steps h1 _ ih =>
    obtain ⟨p, q, hq, h2, h3, h4, -, rfl⟩ := h1
    have hf := Contract.zapAdd_funded h4 i.pool
    have hs := hp p (List.mem_of_getElem? hq)
    have e1 := atomsIn_set t q hq
    have e2 := Contract.zapAdd_exact h4 (ht p (List.mem_of_getElem? hq))
    have e3 := ih (by
      intro r hr
      rcases List.mem_or_eq_of_mem_set hr with hr | rfl
      · exact hp r hr
      · exact hf.sound hs) (ht.set hq hf.shape)
    rw [← h3, Nat.mul_comm] at e2
    simp only [zapped, Nat.mul_add] at e3 ⊢
    omega

/-! ### Calls -/

namespace Contract

theorem exec_exact {c c' : Contract} {x : Ctx} {k : Call} {outs : List Out} {t : AccountId}
    (h : c.exec x k = .ok (c', outs)) (hk : ∀ n, k ≠ .retrieveUnmanaged t n)
    (hp : ∀ p ∈ c.pools, p.Sound) (hf : c.Plain t) :
    c'.owed t + ATOMS * paysOut outs t = c.owed t + ATOMS * k.arrives x t := by
  have e0 : paysOut [] t = 0 := rfl
  have pl : ∀ {id : Nat} {p : Pool}, c.pools[id]? = some p → p.Plain t :=
    fun h => hf _ (List.mem_of_getElem? h)
  cases k <;> simp only [exec] at h <;> simp only [Call.arrives]
  case addSimplePool =>
    obtain ⟨_, -, hn, h1, h⟩ := addSimplePool_inv h
    obtain ⟨q, _, hr, hx, rfl⟩ := addPool_inv h
    have e1 := (checkStorage_near hx).pays t
    have e2 := (Pool.shareRegister_only hr).1.atoms t
    have e3 := (Pool.new_simple_sound hn h1).2.2.2.2 t
    simp only [owed, atomsIn_append, e1]; omega
  case addCurvePool =>
    obtain ⟨_, -, hl, hn, h1, h⟩ := addCurvePool_inv h
    obtain ⟨q, _, hr, hx, rfl⟩ := addPool_inv h
    have e1 := (checkStorage_near hx).pays t
    have e2 := (Pool.shareRegister_only hr).1.atoms t
    have e3 := (Pool.new_curve_sound hl hn h1).2.2.2.2.2.2 t
    simp only [owed, atomsIn_append, e1]; omega
  case executeActions =>
    unpack at h; obtain ⟨_, _, h, rfl, rfl⟩ := h
    obtain ⟨_, acc', c1, -, -, h1, -, h2, -, rfl⟩ := executeActions_inv h
    obtain ⟨steps, hs, -, -, hb, -⟩ := runActions_ok h2
    have e1 := hb t
    have e2 := (hs.exact hp hf).2.2
    have e3 := depIn_put (acc' := acc') h1 t
    simp only [owed, putAccount, hs.framed.accounts, hs.framed.lostfound, e0]
    simp only [ATOMS] at e2 ⊢; omega
  case executeInVa =>
    unpack at h; obtain ⟨_, _, h, rfl, rfl⟩ := h
    obtain ⟨_, _, _, _, acc', c1, _, -, -, h1, -, hu, h2, -, h3, -, rfl⟩ := executeInVa_inv h
    obtain ⟨steps, hs, -, -, hb, -⟩ := runActions_ok h2
    have e1 := hb t
    obtain ⟨-, -, e2, e3, -⟩ := useTokens_ok hu
    have e2 := e2 t
    have e3 := e3 t
    have e4 := (Account.depositPairs_ok h3).2.1 t
    rw [Account.amountIn_positive] at e4
    have e5 : Account.new.bal t = 0 := rfl
    have e6 := (hs.exact hp hf).2.2
    have e7 := depIn_put (acc' := acc') h1 t
    simp only [owed, putAccount, hs.framed.accounts, hs.framed.lostfound, e0]
    simp only [ATOMS] at e6 ⊢; omega
  case addLiquidity =>
    unpack at h; obtain ⟨_, _, _, h, rfl, rfl⟩ := h
    obtain ⟨_, p, q, _, _, acc', _, -, -, hq, hn, ha, -, h1, h2, -, hx, rfl⟩ := addLiquidity_inv h
    have e1 := (checkStorage_near hx).pays t
    have hsh := (Pool.addLiquidity_shape ha).1
    have e2 := (Account.withdrawAll_ok h2).2.1 t
    rw [Pool.tokens_of_shape hsh] at e2
    have e3 := Pool.addLiquidity_atoms ha t
    have e4 := atomsIn_set t q hq
    have e5 := depIn_put (acc' := acc') h1 t
    simp only [owed, e1]
    simp only [ATOMS] at e3 ⊢; omega
  case addStableLiquidity =>
    unpack at h; obtain ⟨_, _, _, h, rfl, rfl⟩ := h
    obtain ⟨_, p, q, _, acc', _, -, -, hq, hn, ha, -, h1, h2, -, hx, rfl⟩ := addStableLiquidity_inv h
    have e1 := (checkStorage_near hx).pays t
    have hsh := (Pool.addStable_shape ha).1
    have e2 := (Account.withdrawAll_ok h2).2.1 t
    rw [Pool.tokens_of_shape hsh] at e2
    have e3 := Pool.addStable_exact (pl hq) ha
    have e4 := atomsIn_set t q hq
    have e5 := depIn_put (acc' := acc') h1 t
    simp only [owed, e1]
    simp only [ATOMS] at e3 ⊢; omega
  case removeLiquidity =>
    unpack at h; obtain ⟨_, _, h, rfl, rfl⟩ := h
    obtain ⟨_, p, q, _, acc', -, -, hq, h1, -, hn, ha, h2, -, rfl⟩ := removeLiquidity_inv h
    have hsh := (Pool.removeLiquidity_shape ha).1
    have e2 := (Account.depositAll_ok h2).2.1 t
    rw [Pool.tokens_of_shape hsh] at e2
    have e3 := Pool.removeLiquidity_exact (pl hq) ha
    have e4 := atomsIn_set t q hq
    have e5 := depIn_put (acc' := acc') h1 t
    simp only [owed, e0]
    simp only [ATOMS] at e3 ⊢; omega
  case removeByTokens =>
    unpack at h; obtain ⟨_, _, h, rfl, rfl⟩ := h
    obtain ⟨_, p, q, _, acc', -, -, hq, h1, -, hn, ha, h2, -, rfl⟩ := removeByTokens_inv h
    have hsh := (Pool.removeByTokens_shape ha).1
    have e2 := (Account.depositAll_ok h2).2.1 t
    rw [Pool.tokens_of_shape hsh] at e2
    have e3 := Pool.removeByTokens_exact (pl hq) ha
    have e4 := atomsIn_set t q hq
    have e5 := depIn_put (acc' := acc') h1 t
    simp only [owed, e0]
    simp only [ATOMS] at e3 ⊢; omega
  case registerTokens =>
    unpack at h; obtain ⟨_, h, rfl, rfl⟩ := h
    obtain ⟨acc, -, -, h1, -, rfl⟩ := registerTokens_inv h
    have e1 := (Account.register_ok ‹_› acc).2.1 t
    have e2 := depIn_put (acc' := acc.register ‹_›) h1 t
    simp only [owed, putAccount, e0]
    simp only [ATOMS]; omega
  case unregisterTokens =>
    unpack at h; obtain ⟨_, h, rfl, rfl⟩ := h
    obtain ⟨_, acc', -, -, h1, h2, -, rfl⟩ := unregisterTokens_inv h
    have e1 := (Account.unregisterAll_ok h2).2.1 t
    have e2 := depIn_put (acc' := acc') h1 t
    simp only [owed, putAccount, e0]
    simp only [ATOMS]; omega
  case withdraw token amount unregister skip =>
    obtain ⟨_, _, acc', n, -, -, hn, h1, -, -, h2, h3, -, rfl, rfl⟩ := withdraw_inv h
    have e1 := (Account.withdraw_ok h2).2.2.1 t
    have e2 := (unregisterIf_ok h3).2.1 t
    have e3 := depIn_put (acc' := acc') h1 t
    simp only [owed, putAccount, sendTokens_pays]
    simp only [ATOMS]; omega
  case claimLostfound token =>
    obtain ⟨-, -, hn, -, rfl, rfl⟩ := claimLostfound_inv h
    have e1 := lostIn_erase c.lostfound x.pred token t
    have e2 : paysOut [.ft token x.pred (c.lostOf x.pred token)] t =
        if token = t then c.lostfound.getD (x.pred, token) 0 else 0 := by
      simp [paysOut, Out.pays, lostOf]
    simp only [owed, e2]
    simp only [ATOMS]; omega
  case ftOnTransfer sender amount msg =>
    obtain ⟨-, -, ⟨-, hn, hd, rfl⟩ | ⟨_, _, _, _, _, rfl, -⟩ | ⟨_, _, _, rfl, rfl, hz⟩⟩ :=
      ftOnTransfer_inv h
    · obtain ⟨acc, acc', h1, -, h2, -, rfl⟩ := deposit_inv hd
      have e1 := (Account.deposit_ok h2).2.1 t
      have e2 := depIn_put (acc' := acc') h1 t
      simp only [owed, putAccount, e0]
      simp only [ATOMS]; omega
    · obtain ⟨ha, hl, -, steps, prev, res, hs, -, hb⟩ := C30_instant_swap h
      have e1 := hb t
      have e2 := (hs.exact hp hf).2.2
      simp only [owed, ha, hl]
      simp only [ATOMS] at e2 ⊢; omega
    · obtain ⟨acc, ts, left, c1, zaps, c2, rest, acc', -, -, h1, hi, -, hn, h2, hza, hr, -,
        ⟨acc0, h3, -, -, h4⟩, -, rfl⟩ := hotZap_inv hz
      obtain ⟨steps, _, _, hs, -, -, hb, -⟩ := directActions_ok h2
      have hfr := hs.framed.trans hza.framed.1
      have e1 := (Account.depositPairs_ok h4).2.1 t
      rw [Account.bal_congr h3] at e1
      have e2 := hb t
      have e3 := hr t
      obtain ⟨hp1, hf1, e4⟩ := hs.exact hp hf
      have e5 := hza.exact hp1 hf1
      have e6 := depIn_put (acc' := acc') h1 t
      simp only [owed, putAccount, hfr.accounts, hfr.lostfound, e0]
      simp only [ATOMS] at e4 e5 ⊢; omega
  case mftTransfer =>
    unpack at h; obtain ⟨_, h, rfl, rfl⟩ := h
    obtain ⟨-, -, _, h⟩ := mftTransfer_inv h
    rw [internalMft_ledger h t, e0]
  case mftTransferCall =>
    obtain ⟨-, -, _, hi, rfl⟩ := mftTransferCall_inv h
    rw [internalMft_ledger hi t]; rfl
  case mftRegister =>
    obtain ⟨_, p, q, _, -, -, hq, hr, hx, rfl⟩ := mftRegister_inv h
    have e1 := (checkStorage_near hx).pays t
    have e2 := (Pool.shareRegister_only hr).1.atoms t
    have e4 := atomsIn_set t q hq
    simp only [owed, e1]; omega
  case mftUnregister =>
    obtain ⟨_, p, q, -, -, -, hq, hr, rfl, rfl⟩ := mftUnregister_inv h
    have e1 := (storageRefund_near x x.pred).pays t
    have e2 := (Pool.shareUnregister_only hr).1.atoms t
    have e4 := atomsIn_set t q hq
    simp only [owed, e1]; omega
  case storageDeposit =>
    obtain ⟨-, hx, rfl | ⟨b, _, h⟩⟩ := storageDeposit_inv h
    · have e1 := hx.pays t
      rw [e1]
    · obtain ⟨acc', h1, -, -, -, rfl⟩ := registerAccount_inv h
      have e1 := hx.pays t
      have e2 := Account.bal_congr h1 t
      rw [accountOrNew_bal] at e2
      have e3 := depIn_insert c.accounts b t acc'
      simp only [owed, putAccount, e1]
      simp only [ATOMS]; omega
  case storageWithdraw =>
    obtain ⟨acc, n, -, -, h1, -, -, -, rfl, rfl⟩ := storageWithdraw_inv h
    have e1 := depIn_put (acc' := { acc with near := acc.near - n }) h1 t
    have e2 : ({ acc with near := acc.near - n } : Account).bal t = acc.bal t := rfl
    have e3 : paysOut [.near x.pred n] t = 0 := rfl
    simp only [owed, putAccount, e3]
    simp only [ATOMS]; omega
  case storageUnregister =>
    obtain ⟨-, -, ⟨-, rfl, rfl⟩ | ⟨acc, h1, h2, -, rfl, rfl⟩⟩ := storageUnregister_inv h
    · rw [e0]
    · have e1 := depIn_erase c.accounts x.pred t
      have e2 : acc.bal t = 0 := by
        unfold Account.bal Account.balance?
        rw [FMap.get?_of_size_zero h2]; rfl
      rw [balIn_some h1] at e1
      have e3 : paysOut [.near x.pred acc.near] t = 0 := rfl
      simp only [owed, e3]
      simp only [ATOMS]; omega
  case shadowAction =>
    obtain ⟨_, _, _, _, -, h1, -, -, -, -, -, ⟨-, rfl, rfl⟩ | ⟨-, acc', _, os, h2, -, hx, rfl, rfl⟩⟩ :=
      shadowAction_inv h
    · rfl
    · have ho := (checkStorage_near hx).pays t
      have ho : ∀ {o : Out} (_ : o.pays t = 0), paysOut (os ++ [o]) t = 0 := by
        intro o h
        rw [paysOut_append, ho]
        simp [paysOut, h]
      rw [ho rfl]
      have e1 := Account.bal_congr (Account.updateShadow_ok h2).2.1 t
      have e2 := depIn_put (acc' := acc') h1 t
      simp only [owed, putAccount]
      simp only [ATOMS]; omega
  case onBurrowLiquidation =>
    obtain ⟨_, p, q, _, acc, acc1, _, acc2, acc3, liq, liq', -, -, -, hq, hn, h1, h2, -, h3, h4, -, h5,
      ha, h6, -, rfl, rfl⟩ := onBurrowLiquidation_inv h
    have hsh := (Pool.removeLiquidity_shape ha).1
    have e1 := (Account.depositAll_ok h6).2.1 t
    rw [Pool.tokens_of_shape hsh] at e1
    have e2 : acc3.tokens = acc.tokens := by
      rw [(creditStorage_ok h4).1, (releaseSeed_ok h3).2.1, (Account.updateShadow_ok h2).2.1]
    have e2 := Account.bal_congr e2 t
    have ho : ∀ {n : Nat} {o : Out} (_ : o.pays t = 0), paysOut (if n > 0 then [o] else []) t = 0 := by
      intro n o h
      split
      · simp [paysOut, h]
      · rfl
    rw [ho rfl]
    have e3 := Pool.removeLiquidity_exact (pl hq) ha
    have e4 := atomsIn_set t q hq
    have e5 := depIn_put (acc' := acc3) h1 t
    have e6 := depIn_put (acc' := liq') h5 t
    simp only [owed]
    simp only [ATOMS] at e3 ⊢; omega
  case donationShare =>
    obtain ⟨p, _, q, q', -, -, hq, -, -, hs, hu, hx, hc⟩ := donationShare_inv h
    have e1 := hx.pays t
    have e2 : q'.atoms t = p.atoms t := by
      rcases hu with ⟨rfl, -⟩ | ⟨-, hu⟩
      · exact (Pool.shareTransfer_only hs).atoms t
      · exact ((Pool.shareUnregister_only hu).1.atoms t).trans ((Pool.shareTransfer_only hs).atoms t)
    have e3 := atomsIn_set t q' hq
    rcases hc with rfl | ⟨_, acc', h1, h2, -, rfl⟩
    · simp only [owed, e1]; omega
    · have e4 := Account.bal_congr (creditStorage_ok h2).1 t
      have e5 := depIn_put (acc' := acc') h1 t
      simp only [owed, e1]
      simp only [ATOMS]; omega
  case donationToken =>
    unpack at h; obtain ⟨_, h, rfl, rfl⟩ := h
    obtain ⟨_, _, _, acc', _, own', -, -, h0, -, -, h1, h2, -, h3, h4, rfl⟩ := donationToken_inv h
    have e1 := (Account.withdraw_ok h1).2.2.1 t
    have e2 := (unregisterIf_ok h2).2.1 t
    have e3 := (Account.deposit_ok h4).2.1 t
    have e4 := depIn_put (acc' := acc') h0 t
    have e5 := depIn_put (acc' := own') h3 t
    simp only [owed, e0]
    simp only [ATOMS]; omega
  case setting s =>
    unpack at h; obtain ⟨_, h, rfl, rfl⟩ := h
    obtain ⟨g, h2, rfl⟩ := setting_inv h
    rfl
  case retrieveUnmanaged token n =>
    unpack at h; obtain ⟨_, h, rfl, rfl⟩ := h
    obtain ⟨-, -, -, rfl⟩ := retrieveUnmanaged_inv h
    have : token ≠ t := by rintro rfl; exact hk n rfl
    have e1 : paysOut [.ftPlain token c.cfg.owner n] t = 0 := by simp [paysOut, Out.pays, this]
    rw [e1]
  case modifyTotalFee _ fee =>
    unpack at h; obtain ⟨_, h, rfl, rfl⟩ := h
    obtain ⟨p, -, -, -, hq, rfl⟩ := modifyTotalFee_inv h
    obtain ⟨g1, -, -, g2, -⟩ := Pool.setFee_facts p fee
    have e1 : (p.setFee fee).atoms t = p.atoms t := by
      unfold Pool.atoms; rw [Pool.tokens_of_shape g1, g2]
    have e2 := atomsIn_set t (p.setFee fee) hq
    simp only [owed, e0]; omega
  case removeExchangeFee =>
    unpack at h; obtain ⟨_, h, rfl, rfl⟩ := h
    obtain ⟨p, q, _, _, own', -, -, -, hq, ha, h1, h2, -, rfl⟩ := removeExchangeFee_inv h
    have hsh := (Pool.removeLiquidity_shape ha).1
    have e2 := (Account.depositAll_ok h2).2.1 t
    rw [Pool.tokens_of_shape hsh] at e2
    have e3 := Pool.removeLiquidity_exact (pl hq) ha
    have e4 := atomsIn_set t q hq
    have e5 := depIn_put (acc' := own') h1 t
    simp only [owed, e0]
    simp only [ATOMS] at e3 ⊢; omega
  case withdrawOwnerToken =>
    obtain ⟨_, own', -, -, -, -, h1, h2, rfl, rfl⟩ := withdrawOwnerToken_inv h
    have e1 := (Account.withdraw_ok h2).2.2.1 t
    have e3 := depIn_put (acc' := own') h1 t
    simp only [owed, sendTokens_pays]
    simp only [ATOMS]; omega
  case rampAmp =>
    unpack at h; obtain ⟨_, h, rfl, rfl⟩ := h
    obtain ⟨p, q, -, -, hq, hr, rfl⟩ := rampAmp_inv h
    have e1 := (Pool.ramp_only hr).atoms t
    have e2 := atomsIn_set t q hq
    simp only [owed, e0]; omega
  case stopRampAmp =>
    unpack at h; obtain ⟨_, h, rfl, rfl⟩ := h
    obtain ⟨p, q, -, -, hq, hr, rfl⟩ := stopRampAmp_inv h
    have e1 := (Pool.stopRamp_only hr).atoms t
    have e2 := atomsIn_set t q hq
    simp only [owed, e0]; omega
  case registerTwap =>
    unpack at h; obtain ⟨_, h, rfl, rfl⟩ := h
    obtain ⟨-, -, _, rfl⟩ := registerTwap_inv h
    rfl
  case unregisterTwap =>
    unpack at h; obtain ⟨_, h, rfl, rfl⟩ := h
    obtain ⟨-, -, _, rfl⟩ := unregisterTwap_inv h
    rfl
  case syncTwap =>
    unpack at h; obtain ⟨_, h, rfl, rfl⟩ := h
    obtain ⟨-, _, rfl⟩ := syncTwap_inv h
    rfl


end Contract

end Verif

import Verif.Exchange.Dust
import Verif.Exchange.VolumeProps

/-
C95: the rounding of stable, rated and degen pools, over calls.
-/

namespace Verif

theorem Config.env_shape {g : Config} {p q : Pool} (h : q.shape = p.shape) (now : Nat) :
    g.env now q = g.env now p := by
  cases p <;> cases q <;> simp_all [Pool.shape, Config.env]

theorem Pool.Grained.of_shape {p q : Pool} {t : AccountId} {g : Nat} {env env' : Nat → R CurveEnv}
    (h : p.Grained t g env) (hs : q.shape = p.shape) (he : env' = env) : q.Grained t g env' := by
  subst he
  cases p <;> cases q <;> simp_all [Pool.shape, Pool.Grained]
  exact h

theorem Pool.Grained.fine {p : Pool} {t : AccountId} {g : Nat} {env : Nat → R CurveEnv}
    (h : p.Grained t g env) : p.Fine t := by
  cases p with
  | simple p => trivial
  | curve p =>
    intro hk i d h1 h2
    have := (h i d h1 h2).1
    rw [hk] at this
    exact this

/-- Every pool that lists token `t` and computes with a common precision has units at least as fine
as the token's, and none of the rates and prices of the token it uses is below `1/g`. -/
def Contract.Grained (c : Contract) (t : AccountId) (g : Nat) : Prop :=
  ∀ p ∈ c.pools, p.Grained t g (fun now => c.cfg.env now p)

theorem Contract.Grained.congr {c c' : Contract} {t : AccountId} {g : Nat} (h : c.Grained t g)
    (hc : c'.cfg = c.cfg) {id : Nat} {p q : Pool} (hq : c.pools[id]? = some p)
    (hs : q.shape = p.shape) (hp : c'.pools = c.pools.set id q) : c'.Grained t g := by
  intro r hr
  rw [hp] at hr
  rcases List.mem_or_eq_of_mem_set hr with hr | rfl
  · exact (h r hr).of_shape rfl (by rw [hc])
  · exact (h p (List.mem_of_getElem? hq)).of_shape hs (by funext now; rw [hc, Config.env_shape hs])

/-- How many of the swaps take or give token `t`. -/
def touching (steps : List SwapStep) (t : AccountId) : Nat :=
  steps.countP fun s => decide (s.tokIn = t ∨ s.tokOut = t)

theorem Contract.SwapsTo.dust {now : Nat} {ref : Option (AccountId × Nat)} {c c' : Contract}
    {s : SwapStep} (h : c.SwapsTo now ref s c') (hp : ∀ p ∈ c.pools, p.Sound) {t : AccountId}
    {g : Nat} (ht : c.Grained t g) :
    c'.Grained t g ∧ atomsIn c.pools t + ATOMS * (if s.tokIn = t then s.amtIn else 0) ≤
      atomsIn c'.pools t + ATOMS * (if s.tokOut = t then s.amtOut else 0) +
        (if s.tokIn = t ∨ s.tokOut = t then ATOMS * dustOf g else 0) := by
  have e3 : ∀ (b : Prop) [Decidable b] (n : Nat), ATOMS * (if b then n else 0) =
      if b then n * ATOMS else 0 := by
    intro b _ n; split
    · exact Nat.mul_comm _ _
    · rfl
  rw [e3, e3]
  rcases h with ⟨m, h⟩ | ⟨m, h⟩
  · obtain ⟨tw, vs, p, q, hq, hs, -, rfl⟩ := poolSwap_ok h
    have hm := List.mem_of_getElem? hq
    have e1 := atomsIn_set t q hq
    have e2 := Pool.swap_dust (env := fun now => c.cfg.env now p) (hp p hm) (ht p hm) hs
    refine ⟨ht.congr rfl hq (Pool.swap_shape hs).1 rfl, ?_⟩
    show _ ≤ atomsIn (c.pools.set s.pool q) t + _ + _
    omega
  · obtain ⟨tw, vs, p, q, hq, hs, -, rfl⟩ := poolSwapByOutput_ok h
    have hm := List.mem_of_getElem? hq
    have e1 := atomsIn_set t q hq
    have e2 := Pool.swapByOutput_exact (hp p hm) t hs
    refine ⟨ht.congr rfl hq (Pool.swapByOutput_shape hs).1 rfl, ?_⟩
    show _ ≤ atomsIn (c.pools.set s.pool q) t + _ + _
    omega

theorem Swaps.dust {now : Nat} {ref : Option (AccountId × Nat)} {c c' : Contract}
    {steps : List SwapStep} (h : Swaps now ref c steps c') (hp : ∀ p ∈ c.pools, p.Sound)
    {t : AccountId} {g : Nat} (ht : c.Grained t g) :
    (∀ p ∈ c'.pools, p.Sound) ∧ c'.Grained t g ∧
    atomsIn c.pools t + ATOMS * paidIn steps t ≤
      atomsIn c'.pools t + ATOMS * paidOut steps t + ATOMS * (dustOf g * touching steps t) := by
  induction h with
  | nil => exact ⟨hp, ht, Nat.le_refl _⟩
  | @cons _ _ _ s steps h1 _ ih =>
    obtain ⟨ht1, e1⟩ := h1.dust hp ht
    obtain ⟨k, kt, e2⟩ := ih (h1.poolsTo.sound hp) ht1
    refine ⟨k, kt, ?_⟩
    have e3 : ATOMS * (dustOf g * touching (s :: steps) t) = ATOMS * (dustOf g * touching steps t) +
        (if s.tokIn = t ∨ s.tokOut = t then ATOMS * dustOf g else 0) := by
      unfold touching
      rw [List.countP_cons]
      by_cases hs : s.tokIn = t ∨ s.tokOut = t
      · simp only [hs, decide_true, if_true, Nat.mul_add, Nat.mul_one]
      · simp only [hs, decide_false, if_false]; rfl
    rw [e3]
    simp only [paidIn, paidOut, List.map_cons, List.sum_cons, Nat.mul_add] at e2 ⊢
    omega

theorem Contract.zapAdd_grained {c : Contract} {now : Nat} {sender : AccountId} {i : AddInfo}
    {p q : Pool} {used : List Nat} (h : c.zapAdd now sender i p = .ok (q, used)) (hp : p.Sound)
    {t : AccountId} {g : Nat} {env : Nat → R CurveEnv} (ht : p.Grained t g env) :
    q.atoms t = p.atoms t + flow p.tokens used t * ATOMS := by
  unfold zapAdd at h
  split at h
  · unpack at h
    obtain ⟨q', used', n, h1, _, -, _, -, rfl, rfl⟩ := h
    exact Pool.addLiquidity_atoms h1 t
  · unpack at h
    obtain ⟨m, -, q', n, h1, rfl, rfl⟩ := h
    exact Pool.addStable_dust hp ht h1

theorem Zaps.grained_exact {now : Nat} {sender : AccountId} {c c' : Contract} {is : List AddInfo}
    {steps : List ZapStep} (h : Zaps now sender c is steps c') (hp : ∀ p ∈ c.pools, p.Sound)
    {t : AccountId} {g : Nat} (ht : c.Grained t g) :
    atomsIn c'.pools t = atomsIn c.pools t + ATOMS * zapped steps t := by
  induction h with
  | nil => rfl
  | @cons c c1 c2 i is s steps h1 _ ih =>
    obtain ⟨p, q, hq, h2, h3, h4, -, rfl⟩ := h1
    have hf := Contract.zapAdd_funded h4 i.pool
    have hs := hp p (List.mem_of_getElem? hq)
    have e1 := atomsIn_set t q hq
    have e2 := Contract.zapAdd_grained h4 hs (ht p (List.mem_of_getElem? hq))
    have e3 := ih (by
      intro r hr
      rcases List.mem_or_eq_of_mem_set hr with hr | rfl
      · exact hp r hr
      · exact hf.sound hs) (ht.congr rfl hq hf.shape rfl)
    rw [← h3, Nat.mul_comm] at e2
    simp only [zapped, Nat.mul_add] at e3 ⊢
    omega

/-- Whether the call redeems shares of a pool for its tokens. -/
def Call.redeems : Call → Nat
  | .removeLiquidity .. | .onBurrowLiquidation .. | .removeExchangeFee .. => 1
  | _ => 0

namespace Contract

theorem directActions_full {c c' : Contract} {now amount : Nat} {ref : Option AccountId}
    {tokenIn : AccountId} {actions : List Action} {left : List (AccountId × Nat)}
    (h : c.directActions now ref tokenIn amount actions = .ok (c', left)) :
    ∃ steps res, Swaps now (c.referralInfo ref) c steps c' ∧
      Follows (match actions with | .swap _ :: _ => some amount | _ => none) actions steps res ∧
      ∀ t, amountIn left t + paidIn steps t =
        (if tokenIn = t then amount else 0) + paidOut steps t := by
  unfold directActions at h
  unpack at h
  obtain ⟨acc, h1, prev, hp, c1, acc1, res, h2, rfl, rfl⟩ := h
  obtain ⟨steps, hs, hf, -, hb, -⟩ := runActions_ok h2
  obtain ⟨-, b1, -⟩ := Account.deposit_ok h1
  refine ⟨steps, res, hs, ?_, fun t => ?_⟩
  · split at hp <;> cases hp <;> exact hf
  · have e1 := b1 t
    have e2 := hb t
    have e3 : Account.new.bal t = 0 := rfl
    rw [Account.amountIn_positive]
    omega

theorem exec_dust {c c' : Contract} {x : Ctx} {k : Call} {outs : List Out} {t : AccountId} {g : Nat}
    (h : c.exec x k = .ok (c', outs)) (hk : ∀ n, k ≠ .retrieveUnmanaged t n)
    (hp : ∀ p ∈ c.pools, p.Sound) (hf : c.Grained t g) :
    ∃ steps, c.Makes (.call x k) steps ∧
      c.owed t + ATOMS * k.arrives x t ≤ c'.owed t + ATOMS * paysOut outs t +
        ATOMS * (dustOf g * touching steps t + k.redeems) := by
  have e0 : paysOut [] t = 0 := rfl
  have snd : ∀ {id : Nat} {p : Pool}, c.pools[id]? = some p → p.Sound :=
    fun h => hp _ (List.mem_of_getElem? h)
  have pl : ∀ {id : Nat} {p : Pool}, c.pools[id]? = some p →
      p.Grained t g (fun now => c.cfg.env now p) := fun h => hf _ (List.mem_of_getElem? h)
  have fin : ∀ {a b d r : Nat}, a ≤ b + d → a ≤ b + d + ATOMS * (dustOf g * touching [] t + r) :=
    fun h => Nat.le_trans h (Nat.le_add_right _ _)
  have finr : ∀ {a b d r : Nat}, r = 1 → a ≤ b + d + ATOMS →
      a ≤ b + d + ATOMS * (dustOf g * touching [] t + r) := by
    rintro a b d r rfl h
    exact h
  cases k <;> simp only [exec] at h <;> simp only [Call.arrives]
  case addSimplePool =>
    refine ⟨[], rfl, fin ?_⟩
    obtain ⟨_, -, hn, h1, h⟩ := addSimplePool_inv h
    obtain ⟨q, _, hr, hx, rfl⟩ := addPool_inv h
    have e1 := (checkStorage_near hx).pays t
    have e2 := (Pool.shareRegister_only hr).1.atoms t
    have e3 := (Pool.new_simple_sound hn h1).2.2.2.2 t
    simp only [owed, atomsIn_append, e1]; omega
  case addCurvePool =>
    refine ⟨[], rfl, fin ?_⟩
    obtain ⟨_, -, hl, hn, h1, h⟩ := addCurvePool_inv h
    obtain ⟨q, _, hr, hx, rfl⟩ := addPool_inv h
    have e1 := (checkStorage_near hx).pays t
    have e2 := (Pool.shareRegister_only hr).1.atoms t
    have e3 := (Pool.new_curve_sound hl hn h1).2.2.2.2.2.2 t
    simp only [owed, atomsIn_append, e1]; omega
  case executeActions =>
    unpack at h; obtain ⟨_, _, h, rfl, rfl⟩ := h
    obtain ⟨_, acc', c1, -, -, h1, -, h2, -, rfl⟩ := executeActions_inv h
    obtain ⟨steps, hs, hfo, -, hb, -⟩ := runActions_ok h2
    refine ⟨steps, ⟨_, _, hs, hfo⟩, ?_⟩
    have e1 := hb t
    have e2 := (hs.dust hp hf).2.2
    have e3 := depIn_put (acc' := acc') h1 t
    simp only [owed, putAccount, hs.framed.accounts, hs.framed.lostfound, e0, Call.redeems]
    generalize dustOf g * touching steps t = z at e2 ⊢
    simp only [ATOMS] at e2 ⊢; omega
  case executeInVa =>
    unpack at h; obtain ⟨_, _, h, rfl, rfl⟩ := h
    obtain ⟨_, _, _, _, acc', c1, _, -, -, h1, -, hu, h2, -, h3, -, rfl⟩ := executeInVa_inv h
    obtain ⟨steps, hs, hfo, -, hb, -⟩ := runActions_ok h2
    refine ⟨steps, ⟨_, _, hs, hfo⟩, ?_⟩
    have e1 := hb t
    obtain ⟨-, -, e2, e3, -⟩ := useTokens_ok hu
    have e2 := e2 t
    have e3 := e3 t
    have e4 := (Account.depositPairs_ok h3).2.1 t
    rw [Account.amountIn_positive] at e4
    have e5 : Account.new.bal t = 0 := rfl
    have e6 := (hs.dust hp hf).2.2
    have e7 := depIn_put (acc' := acc') h1 t
    simp only [owed, putAccount, hs.framed.accounts, hs.framed.lostfound, e0, Call.redeems]
    generalize dustOf g * touching steps t = z at e6 ⊢
    simp only [ATOMS] at e6 ⊢; omega
  case addLiquidity =>
    refine ⟨[], rfl, fin ?_⟩
    unpack at h; obtain ⟨_, _, _, h, rfl, rfl⟩ := h
    obtain ⟨_, p, q, _, _, acc', _, -, -, hq, hn, ha, -, h1, h2, -, hx, rfl⟩ := addLiquidity_inv h
    have e1 := (checkStorage_near hx).pays t
    have hsh := (Pool.addLiquidity_shape ha).1
    have e2 := (Account.withdrawAll_ok h2).2.1 t
    rw [Pool.tokens_of_shape hsh] at e2
    have e3 := Pool.addLiquidity_atoms ha t
    have e4 := atomsIn_set t q hq
    have e5 := depIn_put (acc' := acc') h1 t
    simp only [owed, e1]
    simp only [ATOMS] at e3 ⊢; omega
  case addStableLiquidity =>
    refine ⟨[], rfl, fin ?_⟩
    unpack at h; obtain ⟨_, _, _, h, rfl, rfl⟩ := h
    obtain ⟨_, p, q, _, acc', _, -, -, hq, hn, ha, -, h1, h2, -, hx, rfl⟩ := addStableLiquidity_inv h
    have e1 := (checkStorage_near hx).pays t
    have hsh := (Pool.addStable_shape ha).1
    have e2 := (Account.withdrawAll_ok h2).2.1 t
    rw [Pool.tokens_of_shape hsh] at e2
    have e3 := Pool.addStable_dust (snd hq) (pl hq) ha
    have e4 := atomsIn_set t q hq
    have e5 := depIn_put (acc' := acc') h1 t
    simp only [owed, e1]
    simp only [ATOMS] at e3 ⊢; omega
  case removeLiquidity =>
    refine ⟨[], rfl, finr rfl ?_⟩
    unpack at h; obtain ⟨_, _, h, rfl, rfl⟩ := h
    obtain ⟨_, p, q, _, acc', -, -, hq, h1, -, hn, ha, h2, -, rfl⟩ := removeLiquidity_inv h
    have hsh := (Pool.removeLiquidity_shape ha).1
    have e2 := (Account.depositAll_ok h2).2.1 t
    rw [Pool.tokens_of_shape hsh] at e2
    have e3 := Pool.removeLiquidity_dust (snd hq) (pl hq) ha
    have e4 := atomsIn_set t q hq
    have e5 := depIn_put (acc' := acc') h1 t
    simp only [owed, e0]
    simp only [ATOMS] at e3 ⊢; omega
  case removeByTokens =>
    refine ⟨[], rfl, fin ?_⟩
    unpack at h; obtain ⟨_, _, h, rfl, rfl⟩ := h
    obtain ⟨_, p, q, _, acc', -, -, hq, h1, -, hn, ha, h2, -, rfl⟩ := removeByTokens_inv h
    have hsh := (Pool.removeByTokens_shape ha).1
    have e2 := (Account.depositAll_ok h2).2.1 t
    rw [Pool.tokens_of_shape hsh] at e2
    have e3 := Pool.removeByTokens_dust (snd hq) (pl hq) ha
    have e4 := atomsIn_set t q hq
    have e5 := depIn_put (acc' := acc') h1 t
    simp only [owed, e0]
    simp only [ATOMS] at e3 ⊢; omega
  case registerTokens =>
    refine ⟨[], rfl, fin ?_⟩
    unpack at h; obtain ⟨_, h, rfl, rfl⟩ := h
    obtain ⟨acc, -, -, h1, -, rfl⟩ := registerTokens_inv h
    have e1 := (Account.register_ok ‹_› acc).2.1 t
    have e2 := depIn_put (acc' := acc.register ‹_›) h1 t
    simp only [owed, putAccount, e0]
    simp only [ATOMS]; omega
  case unregisterTokens =>
    refine ⟨[], rfl, fin ?_⟩
    unpack at h; obtain ⟨_, h, rfl, rfl⟩ := h
    obtain ⟨_, acc', -, -, h1, h2, -, rfl⟩ := unregisterTokens_inv h
    have e1 := (Account.unregisterAll_ok h2).2.1 t
    have e2 := depIn_put (acc' := acc') h1 t
    simp only [owed, putAccount, e0]
    simp only [ATOMS]; omega
  case withdraw token amount unregister skip =>
    refine ⟨[], rfl, fin ?_⟩
    obtain ⟨_, _, acc', n, -, -, hn, h1, -, -, h2, h3, -, rfl, rfl⟩ := withdraw_inv h
    have e1 := (Account.withdraw_ok h2).2.2.1 t
    have e2 := (unregisterIf_ok h3).2.1 t
    have e3 := depIn_put (acc' := acc') h1 t
    simp only [owed, putAccount, sendTokens_pays]
    simp only [ATOMS]; omega
  case claimLostfound token =>
    refine ⟨[], rfl, fin ?_⟩
    obtain ⟨-, -, hn, -, rfl, rfl⟩ := claimLostfound_inv h
    have e1 := lostIn_erase c.lostfound x.pred token t
    have e2 : paysOut [.ft token x.pred (c.lostOf x.pred token)] t =
        if token = t then c.lostfound.getD (x.pred, token) 0 else 0 := by
      simp [paysOut, Out.pays, lostOf]
    simp only [owed, e2]
    simp only [ATOMS]; omega
  case ftOnTransfer sender amount msg =>
    obtain ⟨-, -, ⟨rfl, hn, hd, rfl⟩ | ⟨_, actions, _, skip, _, rfl, hi⟩ | ⟨_, actions, _, rfl, rfl, hz⟩⟩ :=
      ftOnTransfer_inv h
    · refine ⟨[], rfl, fin ?_⟩
      obtain ⟨acc, acc', h1, -, h2, -, rfl⟩ := deposit_inv hd
      have e1 := (Account.deposit_ok h2).2.1 t
      have e2 := depIn_put (acc' := acc') h1 t
      simp only [owed, putAccount, e0]
      simp only [ATOMS]; omega
    · obtain ⟨left, he, -, -, h2, -, rfl⟩ := instantSwap_inv hi
      obtain ⟨steps, res, hs, hfo, hb⟩ := directActions_full h2
      have e0 := (payOut_pays c' sender _ skip _ he left).1 t
      refine ⟨steps, ⟨res, _, hs, ?_⟩, ?_⟩
      · cases actions with
        | nil => exact hfo
        | cons a as => cases a <;> exact hfo
      · have e1 := hb t
        have e2 := (hs.dust hp hf).2.2
        simp only [owed, hs.framed.accounts, hs.framed.lostfound, Call.redeems]
        generalize dustOf g * touching steps t = z at e2 ⊢
        simp only [ATOMS] at e2 ⊢; omega
    · obtain ⟨acc, ts, left, c1, zaps, c2, rest, acc', -, -, h1, hi, -, hn, h2, hza, hr, -,
        ⟨acc0, h3, -, -, h4⟩, -, rfl⟩ := hotZap_inv hz
      obtain ⟨steps, res, hs, hfo, hb⟩ := directActions_full h2
      refine ⟨steps, ⟨res, _, hs, ?_⟩, ?_⟩
      · cases actions with
        | nil => exact hfo
        | cons a as => cases a <;> exact hfo
      · have hfr := hs.framed.trans hza.framed.1
        have e1 := (Account.depositPairs_ok h4).2.1 t
        rw [Account.bal_congr h3] at e1
        have e2 := hb t
        have e3 := hr t
        obtain ⟨hp1, hf1, e4⟩ := hs.dust hp hf
        have e5 := hza.grained_exact hp1 hf1
        have e6 := depIn_put (acc' := acc') h1 t
        simp only [owed, putAccount, hfr.accounts, hfr.lostfound, e0, Call.redeems]
        generalize dustOf g * touching steps t = z at e4 ⊢
        simp only [ATOMS] at e4 e5 ⊢; omega
  case mftTransfer =>
    refine ⟨[], rfl, fin ?_⟩
    unpack at h; obtain ⟨_, h, rfl, rfl⟩ := h
    obtain ⟨-, -, _, h⟩ := mftTransfer_inv h
    rw [internalMft_ledger h t, e0]
  case mftTransferCall =>
    refine ⟨[], rfl, fin ?_⟩
    obtain ⟨-, -, _, hi, rfl⟩ := mftTransferCall_inv h
    rw [internalMft_ledger hi t]; rfl
  case mftRegister =>
    refine ⟨[], rfl, fin ?_⟩
    obtain ⟨_, p, q, _, -, -, hq, hr, hx, rfl⟩ := mftRegister_inv h
    have e1 := (checkStorage_near hx).pays t
    have e2 := (Pool.shareRegister_only hr).1.atoms t
    have e4 := atomsIn_set t q hq
    simp only [owed, e1]; omega
  case mftUnregister =>
    refine ⟨[], rfl, fin ?_⟩
    obtain ⟨_, p, q, -, -, -, hq, hr, rfl, rfl⟩ := mftUnregister_inv h
    have e1 := (storageRefund_near x x.pred).pays t
    have e2 := (Pool.shareUnregister_only hr).1.atoms t
    have e4 := atomsIn_set t q hq
    simp only [owed, e1]; omega
  case storageDeposit =>
    refine ⟨[], rfl, fin ?_⟩
    obtain ⟨-, hx, rfl | ⟨b, _, h⟩⟩ := storageDeposit_inv h
    · have e1 := hx.pays t
      rw [e1]
    · obtain ⟨acc', h1, -, -, -, rfl⟩ := registerAccount_inv h
      have e1 := hx.pays t
      have e2 := Account.bal_congr h1 t
      rw [accountOrNew_bal] at e2
      have e3 := depIn_insert c.accounts b t acc'
      simp only [owed, putAccount, e1]
      simp only [ATOMS]; omega
  case storageWithdraw =>
    refine ⟨[], rfl, fin ?_⟩
    obtain ⟨acc, n, -, -, h1, -, -, -, rfl, rfl⟩ := storageWithdraw_inv h
    have e1 := depIn_put (acc' := { acc with near := acc.near - n }) h1 t
    have e2 : ({ acc with near := acc.near - n } : Account).bal t = acc.bal t := rfl
    have e3 : paysOut [.near x.pred n] t = 0 := rfl
    simp only [owed, putAccount, e3]
    simp only [ATOMS]; omega
  case storageUnregister =>
    refine ⟨[], rfl, fin ?_⟩
    obtain ⟨-, -, ⟨-, rfl, rfl⟩ | ⟨acc, h1, h2, -, rfl, rfl⟩⟩ := storageUnregister_inv h
    · rw [e0]
    · have e1 := depIn_erase c.accounts x.pred t
      have e2 : acc.bal t = 0 := by
        unfold Account.bal Account.balance?
        rw [FMap.get?_of_size_zero h2]; rfl
      rw [balIn_some h1] at e1
      have e3 : paysOut [.near x.pred acc.near] t = 0 := rfl
      simp only [owed, e3]
      simp only [ATOMS]; omega
  case shadowAction =>
    refine ⟨[], rfl, fin ?_⟩
    obtain ⟨_, _, _, _, -, h1, -, -, -, -, -, ⟨-, rfl, rfl⟩ | ⟨-, acc', _, os, h2, -, hx, rfl, rfl⟩⟩ :=
      shadowAction_inv h
    · rfl
    · have ho := (checkStorage_near hx).pays t
      have ho : ∀ {o : Out} (_ : o.pays t = 0), paysOut (os ++ [o]) t = 0 := by
        intro o h
        rw [paysOut_append, ho]
        simp [paysOut, h]
      rw [ho rfl]
      have e1 := Account.bal_congr (Account.updateShadow_ok h2).2.1 t
      have e2 := depIn_put (acc' := acc') h1 t
      simp only [owed, putAccount]
      simp only [ATOMS]; omega
  case onBurrowLiquidation =>
    refine ⟨[], rfl, finr rfl ?_⟩
    obtain ⟨_, p, q, _, acc, acc1, _, acc2, acc3, liq, liq', -, -, -, hq, hn, h1, h2, -, h3, h4, -, h5,
      ha, h6, -, rfl, rfl⟩ := onBurrowLiquidation_inv h
    have hsh := (Pool.removeLiquidity_shape ha).1
    have e1 := (Account.depositAll_ok h6).2.1 t
    rw [Pool.tokens_of_shape hsh] at e1
    have e2 : acc3.tokens = acc.tokens := by
      rw [(creditStorage_ok h4).1, (releaseSeed_ok h3).2.1, (Account.updateShadow_ok h2).2.1]
    have e2 := Account.bal_congr e2 t
    have ho : ∀ {n : Nat} {o : Out} (_ : o.pays t = 0), paysOut (if n > 0 then [o] else []) t = 0 := by
      intro n o h
      split
      · simp [paysOut, h]
      · rfl
    rw [ho rfl]
    have e3 := Pool.removeLiquidity_dust (snd hq) (pl hq) ha
    have e4 := atomsIn_set t q hq
    have e5 := depIn_put (acc' := acc3) h1 t
    have e6 := depIn_put (acc' := liq') h5 t
    simp only [owed]
    simp only [ATOMS] at e3 ⊢; omega
  case donationShare =>
    refine ⟨[], rfl, fin ?_⟩
    obtain ⟨p, _, q, q', -, -, hq, -, -, hs, hu, hx, hc⟩ := donationShare_inv h
    have e1 := hx.pays t
    have e2 : q'.atoms t = p.atoms t := by
      rcases hu with ⟨rfl, -⟩ | ⟨-, hu⟩
      · exact (Pool.shareTransfer_only hs).atoms t
      · exact ((Pool.shareUnregister_only hu).1.atoms t).trans ((Pool.shareTransfer_only hs).atoms t)
    have e3 := atomsIn_set t q' hq
    rcases hc with rfl | ⟨_, acc', h1, h2, -, rfl⟩
    · simp only [owed, e1]; omega
    · have e4 := Account.bal_congr (creditStorage_ok h2).1 t
      have e5 := depIn_put (acc' := acc') h1 t
      simp only [owed, e1]
      simp only [ATOMS]; omega
  case donationToken =>
    refine ⟨[], rfl, fin ?_⟩
    unpack at h; obtain ⟨_, h, rfl, rfl⟩ := h
    obtain ⟨_, _, _, acc', _, own', -, -, h0, -, -, h1, h2, -, h3, h4, rfl⟩ := donationToken_inv h
    have e1 := (Account.withdraw_ok h1).2.2.1 t
    have e2 := (unregisterIf_ok h2).2.1 t
    have e3 := (Account.deposit_ok h4).2.1 t
    have e4 := depIn_put (acc' := acc') h0 t
    have e5 := depIn_put (acc' := own') h3 t
    simp only [owed, e0]
    simp only [ATOMS]; omega
  case setting s =>
    refine ⟨[], rfl, fin ?_⟩
    unpack at h; obtain ⟨_, h, rfl, rfl⟩ := h
    obtain ⟨g, h2, rfl⟩ := setting_inv h
    rfl
  case retrieveUnmanaged token n =>
    refine ⟨[], rfl, fin ?_⟩
    unpack at h; obtain ⟨_, h, rfl, rfl⟩ := h
    obtain ⟨-, -, -, rfl⟩ := retrieveUnmanaged_inv h
    have : token ≠ t := by rintro rfl; exact hk n rfl
    have e1 : paysOut [.ftPlain token c.cfg.owner n] t = 0 := by simp [paysOut, Out.pays, this]
    rw [e1]
  case modifyTotalFee _ fee =>
    refine ⟨[], rfl, fin ?_⟩
    unpack at h; obtain ⟨_, h, rfl, rfl⟩ := h
    obtain ⟨p, -, -, -, hq, rfl⟩ := modifyTotalFee_inv h
    obtain ⟨g1, -, -, g2, -⟩ := Pool.setFee_facts p fee
    have e1 : (p.setFee fee).atoms t = p.atoms t := by
      unfold Pool.atoms; rw [Pool.tokens_of_shape g1, g2]
    have e2 := atomsIn_set t (p.setFee fee) hq
    simp only [owed, e0]; omega
  case removeExchangeFee =>
    refine ⟨[], rfl, finr rfl ?_⟩
    unpack at h; obtain ⟨_, h, rfl, rfl⟩ := h
    obtain ⟨p, q, _, _, own', -, -, -, hq, ha, h1, h2, -, rfl⟩ := removeExchangeFee_inv h
    have hsh := (Pool.removeLiquidity_shape ha).1
    have e2 := (Account.depositAll_ok h2).2.1 t
    rw [Pool.tokens_of_shape hsh] at e2
    have e3 := Pool.removeLiquidity_dust (snd hq) (pl hq) ha
    have e4 := atomsIn_set t q hq
    have e5 := depIn_put (acc' := own') h1 t
    simp only [owed, e0]
    simp only [ATOMS] at e3 ⊢; omega
  case withdrawOwnerToken =>
    refine ⟨[], rfl, fin ?_⟩
    obtain ⟨_, own', -, -, -, -, h1, h2, rfl, rfl⟩ := withdrawOwnerToken_inv h
    have e1 := (Account.withdraw_ok h2).2.2.1 t
    have e3 := depIn_put (acc' := own') h1 t
    simp only [owed, sendTokens_pays]
    simp only [ATOMS]; omega
  case rampAmp =>
    refine ⟨[], rfl, fin ?_⟩
    unpack at h; obtain ⟨_, h, rfl, rfl⟩ := h
    obtain ⟨p, q, -, -, hq, hr, rfl⟩ := rampAmp_inv h
    have e1 := (Pool.ramp_only hr).atoms t
    have e2 := atomsIn_set t q hq
    simp only [owed, e0]; omega
  case stopRampAmp =>
    refine ⟨[], rfl, fin ?_⟩
    unpack at h; obtain ⟨_, h, rfl, rfl⟩ := h
    obtain ⟨p, q, -, -, hq, hr, rfl⟩ := stopRampAmp_inv h
    have e1 := (Pool.stopRamp_only hr).atoms t
    have e2 := atomsIn_set t q hq
    simp only [owed, e0]; omega
  case registerTwap =>
    refine ⟨[], rfl, fin ?_⟩
    unpack at h; obtain ⟨_, h, rfl, rfl⟩ := h
    obtain ⟨-, -, _, rfl⟩ := registerTwap_inv h
    rfl
  case unregisterTwap =>
    refine ⟨[], rfl, fin ?_⟩
    unpack at h; obtain ⟨_, h, rfl, rfl⟩ := h
    obtain ⟨-, -, _, rfl⟩ := unregisterTwap_inv h
    rfl
  case syncTwap =>
    refine ⟨[], rfl, fin ?_⟩
    unpack at h; obtain ⟨_, h, rfl, rfl⟩ := h
    obtain ⟨-, _, rfl⟩ := syncTwap_inv h
    rfl

end Contract

end Verif

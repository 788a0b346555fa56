import Verif.Exchange.SwapLemmas

/-
Each call turned around: what must have been true for it to succeed, and the state it leaves.
-/

namespace Verif

theorem Ctx.checkStorage_ok {x : Ctx} {fee : Nat} {outs : List Out} :
    x.checkStorage = .ok (fee, outs) ↔ x.grew * BYTE_COST ≤ x.deposit ∧ fee = x.grew * BYTE_COST ∧
      outs = if x.deposit - x.grew * BYTE_COST > 0 then
        [.near x.pred (x.deposit - x.grew * BYTE_COST)] else [] := by
  unfold checkStorage
  simp only [bind_ok, subW_ok, Except.ok.injEq, Prod.mk.injEq]
  constructor
  · rintro ⟨_, ⟨h, rfl⟩, rfl, rfl⟩; exact ⟨h, rfl, rfl⟩
  · rintro ⟨h, rfl, rfl⟩; exact ⟨_, ⟨h, rfl⟩, rfl, rfl⟩

namespace Contract

/-- The accounts and promises of calls that only send NEAR. -/
def nearOnly (outs : List Out) : Prop := ∀ o ∈ outs, ∃ dst n, o = .near dst n

theorem checkStorage_near {x : Ctx} {fee : Nat} {outs : List Out}
    (h : x.checkStorage = .ok (fee, outs)) : nearOnly outs := by
  obtain ⟨-, -, rfl⟩ := Ctx.checkStorage_ok.1 h
  intro o ho
  split at ho
  · simp at ho; exact ⟨_, _, ho⟩
  · simp at ho

theorem addPool_inv {c c' : Contract} {x : Ctx} {p : Pool} {outs : List Out}
    (h : c.addPool x p = .ok (c', outs)) :
    ∃ q fee, p.shareRegister c.self = .ok q ∧ x.checkStorage = .ok (fee, outs) ∧
      c' = { c with pools := c.pools ++ [q],
                    volumes := c.volumes.insert (c.pools.length % 2 ^ 32)
                      (q.tokens.map fun _ => (0, 0)) } := by
  unfold addPool at h
  unpack at h
  obtain ⟨q, hq, fee, outs', ho, rfl, rfl⟩ := h
  exact ⟨q, fee, hq, ho, rfl⟩

theorem addSimplePool_inv {c c' : Contract} {x : Ctx} {tokens : List AccountId} {fee : Nat}
    {outs : List Out} (h : c.addSimplePool x tokens fee = .ok (c', outs)) :
    ∃ p, c.cfg.running = true ∧ tokens.Nodup ∧ SimplePool.new tokens fee = .ok p ∧
      c.addPool x (.simple p) = .ok (c', outs) := by
  unfold addSimplePool Config.assertRunning at h
  unpack at h
  obtain ⟨h1, h2, p, h3, h4⟩ := h
  exact ⟨p, h1, h2, h3, h4⟩

theorem addCurvePool_inv {c c' : Contract} {x : Ctx} {kind : CurveKind} {tokens : List AccountId}
    {decimals : List Nat} {fee amp : Nat} {outs : List Out}
    (h : c.addCurvePool x kind tokens decimals fee amp = .ok (c', outs)) :
    ∃ p, (x.pred = c.cfg.owner ∨ x.pred ∈ c.cfg.guardians) ∧ tokens.length = decimals.length ∧
      tokens.Nodup ∧ CurvePool.new kind tokens decimals amp fee = .ok p ∧
      c.addPool x (.curve p) = .ok (c', outs) := by
  unfold addCurvePool Config.assertManager at h
  unpack at h
  obtain ⟨h1, h2, h3, p, h4, h5⟩ := h
  exact ⟨p, h1, h2, h3, h4, h5⟩

theorem executeActions_inv {c c' : Contract} {x : Ctx} {actions : List Action}
    {referral : Option AccountId} {res : ActionResult}
    (h : c.executeActions x actions referral = .ok (c', res)) :
    ∃ acc acc' c1, c.cfg.running = true ∧ actions ≠ [] ∧ c.accounts.get? x.pred = some acc ∧
      (x.deposit = 0 → ∀ t ∈ Action.tokensOf actions, c.cfg.tokenAllowed acc t = true) ∧
      c.runActions x.now (c.referralInfo referral) acc none actions = .ok (c1, acc', res) ∧
      acc'.storageUsage ≤ acc'.near ∧ c' = c1.putAccount x.pred acc' := by
  unfold executeActions Config.assertRunning assertTokensAllowed at h
  unpack at h
  obtain ⟨h1, h2, acc, h3, h4, c1, acc', res', h5, c2, h6, rfl, rfl⟩ := h
  rw [saveAccount_ok] at h6
  obtain ⟨h6, rfl⟩ := h6
  exact ⟨acc, acc', c1, h1, h2, account_ok.1 h3, h4, h5, h6, rfl⟩

theorem executeInVa_inv {c c' : Contract} {x : Ctx} {uses left : List (AccountId × Nat)}
    {actions : List Action} {referral : Option AccountId}
    (h : c.executeInVa x uses actions referral = .ok (c', left)) :
    ∃ acc acc1 virt virt' acc' c1 res, c.cfg.running = true ∧ actions ≠ [] ∧
      c.accounts.get? x.pred = some acc ∧
      (x.deposit = 0 → ∀ t ∈ Action.tokensOf actions, c.cfg.tokenAllowed acc t = true) ∧
      useTokens acc Account.new uses = .ok (acc1, virt) ∧
      c.runActions x.now (c.referralInfo referral) virt none actions = .ok (c1, virt', res) ∧
      left = virt'.positive ∧ acc1.depositPairs virt'.positive = .ok acc' ∧
      acc'.storageUsage ≤ acc'.near ∧ c' = c1.putAccount x.pred acc' := by
  unfold executeInVa Config.assertRunning assertTokensAllowed at h
  unpack at h
  obtain ⟨h1, h2, acc, h3, h4, acc1, virt, h5, c1, virt', res, h6, acc', h7, c2, h8, rfl, rfl⟩ := h
  rw [saveAccount_ok] at h8
  obtain ⟨h8, rfl⟩ := h8
  exact ⟨acc, acc1, virt, virt', acc', c1, res, h1, h2, account_ok.1 h3, h4, h5, h6, rfl, h7, h8,
    rfl⟩

theorem addLiquidity_inv {c c' : Contract} {x : Ctx} {id minted : Nat} {amounts : List Nat}
    {mins : Option (List Nat)} {outs : List Out}
    (h : c.addLiquidity x id amounts mins = .ok (c', outs, minted)) :
    ∃ tw p q used acc acc' fee, c.cfg.running = true ∧ 0 < x.deposit ∧ c.pools[id]? = some p ∧
      (∀ t ∈ p.tokens, t ∉ c.cfg.frozen) ∧
      p.addLiquidity x.pred amounts false = .ok (q, used, minted) ∧
      checkMins used (mins.getD []) = .ok () ∧ c.accounts.get? x.pred = some acc ∧
      acc.withdrawAll q.tokens used = .ok acc' ∧ acc'.storageUsage ≤ acc'.near ∧
      x.checkStorage = .ok (fee, outs) ∧
      c' = { c with twaps := tw, accounts := c.accounts.insert x.pred acc',
                    pools := c.pools.set id q } := by
  unfold addLiquidity Config.assertRunning Config.assertNoFrozen at h
  unpack at h
  obtain ⟨h1, h2, c1, h3, p, h4, h5, q, used, minted', h6, _, h7, acc, h8, acc', h9, c2, h10, fee,
    outs', h11, rfl, rfl, rfl⟩ := h
  obtain ⟨tw, rfl⟩ := twapHook_ok h3
  rw [saveAccount_ok] at h10
  obtain ⟨h10, rfl⟩ := h10
  exact ⟨tw, p, q, used, acc, acc', fee, h1, h2, pool_ok.1 h4, h5, h6, h7, account_ok.1 h8, h9, h10,
    h11, rfl⟩

theorem addStableLiquidity_inv {c c' : Contract} {x : Ctx} {id minted minShares : Nat}
    {amounts : List Nat} {outs : List Out}
    (h : c.addStableLiquidity x id amounts minShares = .ok (c', outs, minted)) :
    ∃ tw p q acc acc' fee, c.cfg.running = true ∧ 0 < x.deposit ∧ c.pools[id]? = some p ∧
      (∀ t ∈ p.tokens, t ∉ c.cfg.frozen) ∧
      p.addStable x.pred amounts minShares (c.fees none) (c.cfg.env x.now p) false =
        .ok (q, minted) ∧
      q.assertTvl (c.cfg.limits.get? id) (c.cfg.env x.now q) = .ok () ∧
      c.accounts.get? x.pred = some acc ∧
      acc.withdrawAll q.tokens amounts = .ok acc' ∧ acc'.storageUsage ≤ acc'.near ∧
      x.checkStorage = .ok (fee, outs) ∧
      c' = { c with twaps := tw, accounts := c.accounts.insert x.pred acc',
                    pools := c.pools.set id q } := by
  unfold addStableLiquidity Config.assertRunning Config.assertNoFrozen at h
  unpack at h
  obtain ⟨h1, h2, c1, h3, p, h4, h5, q, minted', h6, _, h7, acc, h8, acc', h9, c2, h10, fee,
    outs', h11, rfl, rfl, rfl⟩ := h
  obtain ⟨tw, rfl⟩ := twapHook_ok h3
  rw [saveAccount_ok] at h10
  obtain ⟨h10, rfl⟩ := h10
  exact ⟨tw, p, q, acc, acc', fee, h1, h2, pool_ok.1 h4, h5, h6, h7, account_ok.1 h8, h9, h10,
    h11, rfl⟩

theorem removeLiquidity_inv {c c' : Contract} {x : Ctx} {id shares : Nat} {mins paid : List Nat}
    (h : c.removeLiquidity x id shares mins = .ok (c', paid)) :
    ∃ tw p q acc acc', x.deposit = 1 ∧ c.cfg.running = true ∧ c.pools[id]? = some p ∧
      c.accounts.get? x.pred = some acc ∧
      shares + max (acc.pledged id).farm (acc.pledged id).burrow ≤ p.shareBalance x.pred ∧
      (∀ t ∈ p.tokens, t ∉ c.cfg.frozen) ∧
      p.removeLiquidity x.pred shares mins false = .ok (q, paid) ∧
      acc.depositAll q.tokens paid = .ok acc' ∧ acc'.storageUsage ≤ acc'.near ∧
      c' = { c with twaps := tw, accounts := c.accounts.insert x.pred acc',
                    pools := c.pools.set id q } := by
  unfold removeLiquidity Ctx.oneYocto Config.assertRunning Config.assertNoFrozen at h
  unpack at h
  obtain ⟨h1, h2, c1, h3, p, h4, acc, h5, u, h6, h7, q, paid', h8, acc', h9, c2, h10, rfl, rfl⟩ := h
  obtain ⟨tw, rfl⟩ := twapHook_ok h3
  rw [saveAccount_ok] at h10
  obtain ⟨h10, rfl⟩ := h10
  refine ⟨tw, p, q, acc, acc', h1, h2, pool_ok.1 h4, account_ok.1 h5, ?_, h7, h8, h9, h10, rfl⟩
  rw [Account.pledged_def]
  have hsh := (Pool.removeLiquidity_shares h8).1
  split at h6
  · rename_i r hr
    unfold ShadowRecord.freeShares at h6
    unpack at h6
    obtain ⟨h61, h62⟩ := h6
    rw [hr]
    simp only [Option.getD_some]
    omega
  · rename_i hr
    rw [hr]
    simp only [Option.getD_none]
    omega

theorem removeByTokens_inv {c c' : Contract} {x : Ctx} {id maxBurn burnt : Nat}
    {amounts : List Nat} (h : c.removeByTokens x id amounts maxBurn = .ok (c', burnt)) :
    ∃ tw p q acc acc', x.deposit = 1 ∧ c.cfg.running = true ∧ c.pools[id]? = some p ∧
      c.accounts.get? x.pred = some acc ∧
      burnt + max (acc.pledged id).farm (acc.pledged id).burrow ≤ p.shareBalance x.pred ∧
      (∀ t ∈ p.tokens, t ∉ c.cfg.frozen) ∧
      p.removeByTokens x.pred amounts maxBurn (c.fees none) (c.cfg.env x.now p) false =
        .ok (q, burnt) ∧
      acc.depositAll q.tokens amounts = .ok acc' ∧ acc'.storageUsage ≤ acc'.near ∧
      c' = { c with twaps := tw, accounts := c.accounts.insert x.pred acc',
                    pools := c.pools.set id q } := by
  unfold removeByTokens Ctx.oneYocto Config.assertRunning Config.assertNoFrozen at h
  unpack at h
  obtain ⟨h1, h2, c1, h3, p, h4, acc, h5, free, h6, h7, q, burnt', h8, h9, acc', h10, c2, h11, rfl,
    rfl⟩ := h
  obtain ⟨tw, rfl⟩ := twapHook_ok h3
  rw [saveAccount_ok] at h11
  obtain ⟨h11, rfl⟩ := h11
  have := Account.freeOf_ok h6
  exact ⟨tw, p, q, acc, acc', h1, h2, pool_ok.1 h4, account_ok.1 h5, by omega, h7, h8, h10, h11,
    rfl⟩

theorem registerTokens_inv {c c' : Contract} {x : Ctx} {tokens : List AccountId}
    (h : c.registerTokens x tokens = .ok c') :
    ∃ acc, x.deposit = 1 ∧ c.cfg.running = true ∧ c.accounts.get? x.pred = some acc ∧
      (acc.register tokens).storageUsage ≤ (acc.register tokens).near ∧
      c' = c.putAccount x.pred (acc.register tokens) := by
  unfold registerTokens Ctx.oneYocto Config.assertRunning at h
  unpack at h
  obtain ⟨h1, h2, acc, h3, h4⟩ := h
  rw [saveAccount_ok] at h4
  obtain ⟨h4, rfl⟩ := h4
  exact ⟨acc, h1, h2, account_ok.1 h3, h4, rfl⟩

theorem unregisterTokens_inv {c c' : Contract} {x : Ctx} {tokens : List AccountId}
    (h : c.unregisterTokens x tokens = .ok c') :
    ∃ acc acc', x.deposit = 1 ∧ c.cfg.running = true ∧ c.accounts.get? x.pred = some acc ∧
      acc.unregisterAll tokens = .ok acc' ∧ acc'.storageUsage ≤ acc'.near ∧
      c' = c.putAccount x.pred acc' := by
  unfold unregisterTokens Ctx.oneYocto Config.assertRunning at h
  unpack at h
  obtain ⟨h1, h2, acc, h3, acc', h4, h5⟩ := h
  rw [saveAccount_ok] at h5
  obtain ⟨h5, rfl⟩ := h5
  exact ⟨acc, acc', h1, h2, account_ok.1 h3, h4, h5, rfl⟩

theorem unregisterIf_ok {flag : Bool} {a b : Account} {t : AccountId}
    (h : unregisterIf flag a t = .ok b) :
    Account.Same a b ∧ (∀ u, b.bal u = a.bal u) ∧ (flag = true → a.bal t = 0) := by
  unfold unregisterIf at h
  split at h
  · obtain ⟨h1, h2, h3, -⟩ := Account.unregister_ok h; exact ⟨h2, h3, fun _ => h1⟩
  · cases h; exact ⟨.rfl' _, fun _ => rfl, fun h => by simp_all⟩

theorem withdraw_inv {c c' : Contract} {x : Ctx} {token : AccountId} {amount : Nat}
    {unregister : Bool} {skipUnwrap : Option Bool} {outs : List Out}
    (h : c.withdraw x token amount unregister skipUnwrap = .ok (c', outs)) :
    ∃ acc acc1 acc' n, x.deposit = 1 ∧ c.cfg.running = true ∧ token ∉ c.cfg.frozen ∧
      c.accounts.get? x.pred = some acc ∧ n = (if amount = 0 then acc.bal token else amount) ∧
      0 < n ∧ acc.withdraw token n = .ok acc1 ∧ unregisterIf unregister acc1 token = .ok acc' ∧
      acc'.storageUsage ≤ acc'.near ∧ c' = c.putAccount x.pred acc' ∧
      outs = [c.sendTokens x.pred token n skipUnwrap] := by
  unfold withdraw Ctx.oneYocto Config.assertRunning Config.assertNoFrozen at h
  unpack at h
  obtain ⟨h1, h2, h3, acc, h4, n, h5, h6, acc1, h7, acc', h8, c1, h9, rfl, rfl⟩ := h
  rw [saveAccount_ok] at h9
  obtain ⟨h9, rfl⟩ := h9
  refine ⟨acc, acc1, acc', n, h1, h2, h3 token (by simp), account_ok.1 h4, ?_, h6, h7, h8, h9, rfl,
    rfl⟩
  split at h5
  · rename_i h0
    unpack at h5
    simp [h0, Account.bal, h5]
  · rename_i h0; cases h5; simp [h0]

theorem claimLostfound_inv {c c' : Contract} {x : Ctx} {token : AccountId} {outs : List Out}
    (h : c.claimLostfound x token = .ok (c', outs)) :
    x.deposit = 1 ∧ c.cfg.running = true ∧ token ∉ c.cfg.frozen ∧ 0 < c.lostOf x.pred token ∧
    c' = { c with lostfound := c.lostfound.erase (x.pred, token) } ∧
    outs = [.ft token x.pred (c.lostOf x.pred token)] := by
  unfold claimLostfound Ctx.oneYocto Config.assertRunning Config.assertNoFrozen at h
  unpack at h
  obtain ⟨h1, h2, h3, h4, rfl, rfl⟩ := h
  refine ⟨h1, h2, h3 token (by simp), h4, rfl, ?_⟩
  simp [sendTokens, lostOf]

theorem deposit_inv {c c' : Contract} {sender token : AccountId} {amount : Nat}
    (h : c.deposit sender token amount = .ok c') :
    ∃ acc acc', c.accounts.get? sender = some acc ∧ c.cfg.tokenAllowed acc token = true ∧
      acc.deposit token amount = .ok acc' ∧ acc'.storageUsage ≤ acc'.near ∧
      c' = c.putAccount sender acc' := by
  unfold deposit at h
  unpack at h
  obtain ⟨acc, h1, h2, acc', h3, h4⟩ := h
  rw [saveAccount_ok] at h4
  obtain ⟨h4, rfl⟩ := h4
  exact ⟨acc, acc', account_ok.1 h1, h2, h3, h4, rfl⟩

theorem instantSwap_inv {c c' : Contract} {now amount : Nat} {tokenIn sender : AccountId}
    {referral : Option AccountId} {actions : List Action} {echo : Bool} {skipUnwrap : Option Bool}
    {recipient : Option AccountId} {outs : List Out}
    (h : c.instantSwap now tokenIn sender amount referral actions echo skipUnwrap recipient =
      .ok (c', outs)) :
    ∃ left, ¬ (recipient.isSome = true ∧ echo = true) ∧ actions ≠ [] ∧
      (echo = true → assertClientEchoValid c.cfg.secureSenders c.cfg.echoTokens c.cfg.echoSenders
        tokenIn sender = .ok ()) ∧
      c.directActions now referral tokenIn amount actions = .ok (c', left) ∧
      (echo = true → sender = c'.cfg.burrowland → left.length = 1) ∧
      outs = left.map (c'.payOut sender echo skipUnwrap recipient) := by
  unfold instantSwap at h
  unpack at h
  obtain ⟨h1, h2, h⟩ := h
  by_cases he : echo = true
  · simp only [he, if_true] at h
    unpack at h
    obtain ⟨u, h3, c1, left, h4, h5, rfl, rfl⟩ := h
    refine ⟨left, h1, h2, fun _ => h3, h4, ?_, ?_⟩
    · intro _ h6; exact h5 trivial h6
    · rw [he]
  · have he' : echo = false := by simpa using he
    subst he'
    simp only [Bool.false_eq_true, if_false] at h
    unpack at h
    obtain ⟨_, c1, left, h4, -, rfl, rfl⟩ := h
    exact ⟨left, h1, h2, fun h => absurd h he, h4, fun h => absurd h he, rfl⟩

end Contract

/-! ### Hot zap -/

/-- One deposit of liquidity out of a hot zap: the pool, its tokens and the amounts it took. -/
structure ZapStep where
  pool : Nat
  toks : List AccountId
  used : List Nat

/-- What adding liquidity does to a pool. -/
structure Pool.Funded (p q : Pool) (sender : AccountId) (s : ZapStep) : Prop where
  toks : s.toks = p.tokens
  shape : q.shape = p.shape
  fee : q.totalFee = p.totalFee
  shares : ∀ x, p.shareBalance x ≤ q.shareBalance x
  regs : ∀ x, p.shareRegistered x = true → q.shareRegistered x = true
  sound : p.Sound → q.Sound
  atoms : p.Sound → ∀ t, q.atoms t ≤ p.atoms t + flow p.tokens s.used t * ATOMS

theorem Pool.addLiquidity_regs {p q : Pool} {s : AccountId} {am used : List Nat} {n : Nat}
    (h : p.addLiquidity s am false = .ok (q, used, n)) :
    ∀ x, p.shareRegistered x = true → q.shareRegistered x = true := by
  replace h := Pool.addLiquidity_simple h
  obtain ⟨p', q', rfl, rfl, h⟩ := h
  obtain ⟨_, _, _, _, -, -, -, -, -, -, -, -, -, -, -, -, hsh, -⟩ := Verif.addLiquidity_ok h
  intro x hx
  simp only [Bool.false_eq_true, if_false] at hsh
  simp only [Pool.shareRegistered, Pool.shares, FMap.contains, hsh, FMap.get?_insert] at *
  split
  · rfl
  · exact hx

theorem Pool.Funded.ofAdd {p q : Pool} {s : AccountId} {am used : List Nat} {n id : Nat}
    (h : p.addLiquidity s am false = .ok (q, used, n)) : p.Funded q s ⟨id, p.tokens, used⟩ := by
  obtain ⟨h1, h2, -⟩ := Pool.addLiquidity_shape h
  exact ⟨rfl, h1, h2, fun x => by rw [Pool.addLiquidity_shares h]; omega,
    Pool.addLiquidity_regs h, fun hp => hp.addLiquidity h,
    fun _ t => (Pool.addLiquidity_atoms h t).le⟩

theorem Pool.Funded.ofAddStable {p q : Pool} {s : AccountId} {am : List Nat} {mn n id : Nat}
    {fees : AdminFees} {env : R CurveEnv} (h : p.addStable s am mn fees env false = .ok (q, n)) :
    p.Funded q s ⟨id, p.tokens, am⟩ := by
  obtain ⟨h1, h2, -⟩ := Pool.addStable_shape h
  obtain ⟨h3, h4⟩ := Pool.addStable_shares h
  exact ⟨rfl, h1, h2, fun x => by have := h3 x; omega, h4, fun hp => hp.addStable h,
    fun hp t => Pool.addStable_atoms hp h t⟩

namespace Contract

/-- One deposit of liquidity by `zapLoop`. -/
def ZapsTo (now : Nat) (sender : AccountId) (c : Contract) (i : AddInfo) (s : ZapStep)
    (c' : Contract) : Prop :=
  ∃ p q, c.pools[i.pool]? = some p ∧ s.pool = i.pool ∧ s.toks = p.tokens ∧
    c.zapAdd now sender i p = .ok (q, s.used) ∧
    q.assertTvl (c.cfg.limits.get? i.pool) (c.cfg.env now q) = .ok () ∧
    c' = { c with pools := c.pools.set i.pool q }

end Contract

/-- Deposits of liquidity one after the other. -/
inductive Zaps (now : Nat) (sender : AccountId) :
    Contract → List AddInfo → List ZapStep → Contract → Prop where
  | nil (c : Contract) : Zaps now sender c [] [] c
  | cons {c c1 c2 : Contract} {i : AddInfo} {is : List AddInfo} {s : ZapStep}
      {steps : List ZapStep} :
      c.ZapsTo now sender i s c1 → Zaps now sender c1 is steps c2 →
      Zaps now sender c (i :: is) (s :: steps) c2

/-- What the deposits took of token `t`. -/
def zapped : (steps : List ZapStep) → (t : AccountId) → Nat
  | [], _ => 0
  | s :: ss, t => flow s.toks s.used t + zapped ss t

namespace Contract

theorem zapAdd_funded {c : Contract} {now : Nat} {sender : AccountId} {i : AddInfo} {p q : Pool}
    {used : List Nat} (h : c.zapAdd now sender i p = .ok (q, used)) (id : Nat) :
    p.Funded q sender ⟨id, p.tokens, used⟩ := by
  unfold zapAdd at h
  split at h
  · unpack at h
    obtain ⟨q', used', n, h1, _, -, _, -, rfl, rfl⟩ := h
    exact .ofAdd h1
  · unpack at h
    obtain ⟨m, -, q', n, h1, rfl, rfl⟩ := h
    exact .ofAddStable h1

theorem ZapsTo.ok {now : Nat} {sender : AccountId} {c c' : Contract} {i : AddInfo} {s : ZapStep}
    (h : c.ZapsTo now sender i s c') :
    ∃ p q, c.pools[s.pool]? = some p ∧ p.Funded q sender s ∧
      c' = { c with pools := c.pools.set s.pool q } := by
  obtain ⟨p, q, hp, h1, h2, h3, -, rfl⟩ := h
  obtain ⟨pool, toks, used⟩ := s
  simp only at h1 h2 h3 ⊢
  subst h1 h2
  exact ⟨p, q, hp, zapAdd_funded h3 _, rfl⟩

theorem ZapsTo.framed {now : Nat} {sender : AccountId} {c c' : Contract} {i : AddInfo}
    {s : ZapStep} (h : c.ZapsTo now sender i s c') : c.Framed c' ∧ c'.volumes = c.volumes := by
  obtain ⟨p, q, -, -, rfl⟩ := h.ok
  exact ⟨⟨rfl, rfl, rfl, rfl, by simp⟩, rfl⟩

end Contract

theorem Zaps.framed {now : Nat} {sender : AccountId} {c c' : Contract} {is : List AddInfo}
    {steps : List ZapStep} (h : Zaps now sender c is steps c') :
    c.Framed c' ∧ c'.volumes = c.volumes := by
  induction h with
  | nil c => exact ⟨.rfl' c, rfl⟩
  | cons h1 _ ih => exact ⟨h1.framed.1.trans ih.1, ih.2.trans h1.framed.2⟩

/-- A property of the state that every single deposit preserves is preserved by all of them. -/
theorem Zaps.induct {now : Nat} {sender : AccountId} {P : Contract → Prop}
    (hs : ∀ c i s c', P c → c.ZapsTo now sender i s c' → P c') {c c' : Contract}
    {is : List AddInfo} {steps : List ZapStep} (h : Zaps now sender c is steps c') (h0 : P c) :
    P c' := by
  induction h with
  | nil c => exact h0
  | cons h1 _ ih => exact ih (hs _ _ _ _ h0 h1)

namespace Contract

theorem zapLoop_ok {now : Nat} {sender : AccountId} : ∀ {is : List AddInfo} {c c' : Contract}
    {cache cache' : TokenCache}, c.zapLoop now sender cache is = .ok (c', cache') →
    ∃ steps, Zaps now sender c is steps c' ∧
      ∀ t, cache'.getD t 0 + zapped steps t = cache.getD t 0 := by
  intro is
  induction is with
  | nil =>
    intro c c' cache cache' h
    simp only [zapLoop, Except.ok.injEq, Prod.mk.injEq] at h
    obtain ⟨rfl, rfl⟩ := h
    exact ⟨[], .nil _, by simp [zapped]⟩
  | cons i is ih =>
    intro c c' cache cache' h
    unfold zapLoop at h
    unpack at h
    obtain ⟨p, hp, q, used, h1, _, h2, cache1, h3, h4⟩ := h
    obtain ⟨steps, hs, hb⟩ := ih h4
    have e1 := TokenCache.subAll_ok h3
    refine ⟨⟨i.pool, p.tokens, used⟩ :: steps,
      .cons ⟨p, q, pool_ok.1 hp, rfl, rfl, h1, h2, rfl⟩ hs, ?_⟩
    intro t
    have e1 := e1 t
    have e2 := hb t
    simp only [zapped]
    omega

theorem hotZap_inv {c c' : Contract} {x : Ctx} {sender : AccountId} {amount : Nat}
    {referral : Option AccountId} {actions : List Action} {infos : List AddInfo}
    (h : c.hotZap x sender amount referral actions infos = .ok c') :
    ∃ acc ts left c1 zaps c2 rest acc', actions ≠ [] ∧ infos ≠ [] ∧
      c.accounts.get? sender = some acc ∧ c.infoTokens infos = .ok ts ∧
      (∀ t ∈ Action.tokensOf actions ++ ts, c.cfg.tokenAllowed acc t = true) ∧
      (∀ t ∈ Action.tokensOf actions ++ ts, t ∉ c.cfg.frozen) ∧
      c.directActions x.now referral x.pred amount actions = .ok (c1, left) ∧
      Zaps x.now sender c1 infos zaps c2 ∧
      (∀ t, amountIn rest t + zapped zaps t = amountIn left t) ∧
      x.grew * BYTE_COST ≤ acc.near ∧
      (∃ acc0 : Account, acc0.tokens = acc.tokens ∧ acc0.shadow = acc.shadow ∧
        acc0.near + x.grew * BYTE_COST = acc.near ∧ acc0.depositPairs rest = .ok acc') ∧
      acc'.storageUsage ≤ acc'.near ∧ c' = c2.putAccount sender acc' := by
  unfold hotZap Config.assertNoFrozen at h
  unpack at h
  obtain ⟨h1, h2, acc, h3, ts, h4, h5, h6, c1, left, h7, cache, h8, c2, cache', h9, h10, acc', h11,
    h12⟩ := h
  rw [saveAccount_ok] at h12
  obtain ⟨h12, rfl⟩ := h12
  obtain ⟨zaps, hz, hb⟩ := zapLoop_ok h9
  refine ⟨acc, ts, left, c1, zaps, c2, cache'.entries, acc', h1, h2, account_ok.1 h3, h4, h5, h6,
    h7, hz, ?_, h10, ?_, h12, rfl⟩
  swap
  · exact ⟨{ acc with near := acc.near - x.grew * BYTE_COST }, rfl, rfl, Nat.sub_add_cancel h10, h11⟩
  intro t
  have e1 := hb t
  have e2 := TokenCache.addPairs_ok h8 t
  rw [TokenCache.amountIn_entries]
  have e3 : (FMap.empty : TokenCache).getD t 0 = 0 := rfl
  omega

/-- The three kinds of token receipts. -/
theorem ftOnTransfer_inv {c c' : Contract} {x : Ctx} {sender : AccountId} {amount : Nat} {msg : Msg}
    {outs : List Out} (h : c.ftOnTransfer x sender amount msg = .ok (c', outs)) :
    x.deposit = 0 ∧ c.cfg.running = true ∧
    ((msg = .deposit ∧ x.pred ∉ c.cfg.frozen ∧ c.deposit sender x.pred amount = .ok c' ∧
        outs = []) ∨
     (∃ referral actions echo skipUnwrap recipient,
        msg = .execute referral actions echo skipUnwrap recipient ∧
        c.instantSwap x.now x.pred sender amount referral actions echo skipUnwrap recipient =
          .ok (c', outs)) ∨
     (∃ referral actions infos, msg = .hotZap referral actions infos ∧ outs = [] ∧
        c.hotZap x sender amount referral actions infos = .ok c')) := by
  unfold ftOnTransfer Ctx.noDeposit Config.assertRunning Config.assertNoFrozen at h
  unpack at h
  obtain ⟨h1, h2, h⟩ := h
  refine ⟨h1, h2, ?_⟩
  split at h
  · unpack at h
    obtain ⟨h3, c1, h4, rfl, rfl⟩ := h
    exact .inl ⟨rfl, h3 _ (by simp), h4, rfl⟩
  · cases h
  · exact .inr (.inl ⟨_, _, _, _, _, rfl, h⟩)
  · unpack at h
    obtain ⟨c1, h4, rfl, rfl⟩ := h
    exact .inr (.inr ⟨_, _, _, rfl, rfl, h4⟩)

/-! ### Transfers -/

theorem freeShares_ok {c : Contract} {a : AccountId} {id total free : Nat}
    (h : c.freeShares a id total = .ok free) :
    free + max (c.pledgedOf a id).farm (c.pledgedOf a id).burrow = total := by
  unfold freeShares at h
  unfold pledgedOf
  split at h
  · rename_i acc hacc; rw [hacc]; exact Account.freeOf_ok h
  · rename_i hacc; cases h; rw [hacc]; simp

theorem transferShares_inv {c c' : Contract} {id n : Nat} {sender receiver : AccountId}
    {amount : Option Nat} (h : c.transferShares id sender receiver amount = .ok (c', n)) :
    ∃ p q, c.pools[id]? = some p ∧ 0 < n ∧
      n + max (c.pledgedOf sender id).farm (c.pledgedOf sender id).burrow ≤
        p.shareBalance sender ∧
      (∀ m, amount = some m → n = m) ∧
      (amount = none → n + max (c.pledgedOf sender id).farm (c.pledgedOf sender id).burrow =
        p.shareBalance sender) ∧
      p.shareTransfer sender receiver n = .ok q ∧
      c' = { c with pools := c.pools.set id q } := by
  unfold transferShares at h
  unpack at h
  obtain ⟨p, hp, free, hf, h0, h1, q, hq, rfl, rfl⟩ := h
  have := freeShares_ok hf
  exact ⟨p, q, pool_ok.1 hp, h0, by omega, fun m hm => by simp [hm],
    fun hm => by subst hm; simpa using this, hq, rfl⟩

theorem transferToken_inv {c c' : Contract} {token sender receiver : AccountId}
    {amount : Option Nat} {n : Nat}
    (h : c.transferToken token sender receiver amount = .ok (c', n)) :
    ∃ s r s' r', amount = some n ∧ c.accounts.get? sender = some s ∧
      c.accounts.get? receiver = some r ∧ s.withdraw token n = .ok s' ∧
      r.deposit token n = .ok r' ∧ s'.storageUsage ≤ s'.near ∧ r'.storageUsage ≤ r'.near ∧
      c' = { c with accounts := (c.accounts.insert sender s').insert receiver r' } := by
  unfold transferToken at h
  unpack at h
  obtain ⟨n', h1, s, h2, r, h3, s', h4, r', h5, c1, h6, c2, h7, rfl, rfl⟩ := h
  rw [saveAccount_ok] at h6
  obtain ⟨h6, rfl⟩ := h6
  rw [saveAccount_ok] at h7
  obtain ⟨h7, rfl⟩ := h7
  exact ⟨s, r, s', r', h1, account_ok.1 h2, account_ok.1 h3, h4, h5, h6, h7, rfl⟩

theorem internalMftTransfer_inv {c c' : Contract} {tokenId : List Char}
    {sender receiver : AccountId} {amount : Option Nat} {n : Nat}
    (h : c.internalMftTransfer tokenId sender receiver amount = .ok (c', n)) :
    sender ≠ receiver ∧
    ((∃ id, parseTokenId tokenId = .pool id ∧
        c.transferShares id sender receiver amount = .ok (c', n)) ∨
     (∃ t, parseTokenId tokenId = .token t ∧
        c.transferToken t sender receiver amount = .ok (c', n))) := by
  unfold internalMftTransfer at h
  unpack at h
  obtain ⟨h1, h⟩ := h
  refine ⟨h1, ?_⟩
  split at h
  · rename_i id hid; exact .inl ⟨id, hid, h⟩
  · rename_i t ht; exact .inr ⟨t, ht, h⟩

theorem mftTransfer_inv {c c' : Contract} {x : Ctx} {tokenId : List Char} {receiver : AccountId}
    {amount : Nat} (h : c.mftTransfer x tokenId receiver amount = .ok c') :
    x.deposit = 1 ∧ c.cfg.running = true ∧
    ∃ n, c.internalMftTransfer tokenId x.pred receiver (some amount) = .ok (c', n) := by
  unfold mftTransfer Ctx.oneYocto Config.assertRunning at h
  unpack at h
  obtain ⟨h1, h2, c1, n, h3, rfl⟩ := h
  exact ⟨h1, h2, n, h3⟩

theorem mftTransferCall_inv {c c' : Contract} {x : Ctx} {tokenId : List Char}
    {receiver : AccountId} {amount : Option Nat} {outs : List Out}
    (h : c.mftTransferCall x tokenId receiver amount = .ok (c', outs)) :
    x.deposit = 1 ∧ c.cfg.running = true ∧
    ∃ n, c.internalMftTransfer tokenId x.pred receiver amount = .ok (c', n) ∧
      outs = [.mftCall tokenId x.pred receiver n] := by
  unfold mftTransferCall Ctx.oneYocto Config.assertRunning at h
  unpack at h
  obtain ⟨h1, h2, c1, n, h3, rfl, rfl⟩ := h
  exact ⟨h1, h2, n, h3, rfl⟩

theorem mftRegister_inv {c c' : Contract} {x : Ctx} {tokenId : List Char} {a : AccountId}
    {outs : List Out} (h : c.mftRegister x tokenId a = .ok (c', outs)) :
    ∃ id p q fee, c.cfg.running = true ∧ parseTokenId tokenId = .pool id ∧
      c.pools[id]? = some p ∧ p.shareRegister a = .ok q ∧ x.checkStorage = .ok (fee, outs) ∧
      c' = { c with pools := c.pools.set id q } := by
  unfold mftRegister Config.assertRunning at h
  unpack at h
  obtain ⟨h1, h⟩ := h
  split at h
  · cases h
  · rename_i id hid
    unpack at h
    obtain ⟨p, h2, q, h3, fee, outs', h4, rfl, rfl⟩ := h
    exact ⟨id, p, q, fee, h1, hid, pool_ok.1 h2, h3, h4, rfl⟩

theorem mftUnregister_inv {c c' : Contract} {x : Ctx} {tokenId : List Char} {outs : List Out}
    (h : c.mftUnregister x tokenId = .ok (c', outs)) :
    ∃ id p q, x.deposit = 1 ∧ c.cfg.running = true ∧ parseTokenId tokenId = .pool id ∧
      c.pools[id]? = some p ∧ p.shareUnregister x.pred = .ok q ∧
      outs = storageRefund x x.pred ∧ c' = { c with pools := c.pools.set id q } := by
  unfold mftUnregister Ctx.oneYocto Config.assertRunning at h
  unpack at h
  obtain ⟨h0, h1, h⟩ := h
  split at h
  · cases h
  · rename_i id hid
    unpack at h
    obtain ⟨p, h2, q, h3, rfl, rfl⟩ := h
    exact ⟨id, p, q, h0, h1, hid, pool_ok.1 h2, h3, rfl, rfl⟩

theorem storageRefund_near (x : Ctx) (a : AccountId) : nearOnly (storageRefund x a) := by
  intro o ho
  unfold storageRefund at ho
  split at ho
  · simp at ho; exact ⟨_, _, ho⟩
  · simp at ho

/-! ### Storage -/

theorem registerAccount_inv {c c' : Contract} {a : AccountId} {amount : Nat}
    (h : c.registerAccount a amount = .ok c') :
    ∃ acc', acc'.tokens = (c.accountOrNew a).tokens ∧ acc'.shadow = (c.accountOrNew a).shadow ∧
      acc'.near = (c.accountOrNew a).near + amount ∧ acc'.storageUsage ≤ acc'.near ∧
      c' = c.putAccount a acc' := by
  unfold registerAccount at h
  unpack at h
  obtain ⟨h1, h2⟩ := h
  rw [saveAccount_ok] at h2
  obtain ⟨h2, rfl⟩ := h2
  exact ⟨{ c.accountOrNew a with near := (c.accountOrNew a).near + amount }, rfl, rfl, rfl, h2, rfl⟩

theorem storageDeposit_inv {c c' : Contract} {x : Ctx} {account : Option AccountId} {only : Bool}
    {outs : List Out} (h : c.storageDeposit x account only = .ok (c', outs)) :
    c.cfg.running = true ∧ nearOnly outs ∧
    (c' = c ∨ ∃ a n, c.registerAccount a n = .ok c') := by
  unfold storageDeposit Config.assertRunning at h
  unpack at h
  obtain ⟨h1, -, h⟩ := h
  refine ⟨h1, ?_⟩
  split at h
  · split at h
    · cases h
      refine ⟨?_, .inl rfl⟩
      intro o ho
      split at ho
      · simp at ho; exact ⟨_, _, ho⟩
      · simp at ho
    · unpack at h
      obtain ⟨c1, h2, -, rfl, rfl⟩ := h
      refine ⟨?_, .inr ⟨_, _, h2⟩⟩
      intro o ho
      split at ho
      · simp at ho; exact ⟨_, _, ho⟩
      · simp at ho
  · unpack at h
    obtain ⟨c1, h2, rfl, rfl⟩ := h
    exact ⟨fun o ho => by simp at ho, .inr ⟨_, _, h2⟩⟩

theorem storageWithdraw_inv {c c' : Contract} {x : Ctx} {amount : Nat} {outs : List Out}
    (h : c.storageWithdraw x amount = .ok (c', outs)) :
    ∃ acc n, x.deposit = 1 ∧ c.cfg.running = true ∧ c.accounts.get? x.pred = some acc ∧
      n = (if amount = 0 then acc.storageAvailable else amount) ∧ 0 < acc.storageAvailable ∧
      n ≤ acc.storageAvailable ∧ outs = [.near x.pred n] ∧
      c' = c.putAccount x.pred { acc with near := acc.near - n } := by
  unfold storageWithdraw Ctx.oneYocto Config.assertRunning at h
  unpack at h
  obtain ⟨h1, h2, acc, h3, h4, h5, c1, h6, rfl, rfl⟩ := h
  rw [saveAccount_ok] at h6
  obtain ⟨h6, rfl⟩ := h6
  exact ⟨acc, _, h1, h2, account_ok.1 h3, rfl, h4, h5, rfl, rfl⟩

theorem storageUnregister_inv {c c' : Contract} {x : Ctx} {outs : List Out}
    (h : c.storageUnregister x = .ok (c', outs)) :
    x.deposit = 1 ∧ c.cfg.running = true ∧
    ((c.accounts.get? x.pred = none ∧ c' = c ∧ outs = []) ∨
     ∃ acc, c.accounts.get? x.pred = some acc ∧ acc.tokens.size = 0 ∧ acc.shadow.size = 0 ∧
       c' = { c with accounts := c.accounts.erase x.pred } ∧ outs = [.near x.pred acc.near]) := by
  unfold storageUnregister Ctx.oneYocto Config.assertRunning at h
  unpack at h
  obtain ⟨h1, h2, h⟩ := h
  refine ⟨h1, h2, ?_⟩
  split at h
  · rename_i hn; cases h; exact .inl ⟨hn, rfl, rfl⟩
  · rename_i acc hacc
    unpack at h
    obtain ⟨h3, h4, rfl, rfl⟩ := h
    exact .inr ⟨acc, hacc, h3, h4, rfl, rfl⟩

/-! ### Shadow positions -/

theorem shadowMax_ok {acc : Account} {act : ShadowAction} {id total m : Nat}
    (h : shadowMax acc act id total = .ok m) :
    match act with
    | .toFarming => m + (acc.pledged id).farm = total
    | .toBurrowland => m + (acc.pledged id).burrow = total
    | .fromFarming => m = (acc.pledged id).farm
    | .fromBurrowland => m = (acc.pledged id).burrow := by
  unfold shadowMax at h
  rw [Account.pledged_def]
  split at h
  · rename_i r hr
    rw [hr]
    cases act
    · simp only [ShadowRecord.availableFarming] at h
      unpack at h
      obtain ⟨h1, rfl⟩ := h
      simp only [Option.getD_some]; omega
    · cases h; rfl
    · simp only [ShadowRecord.availableBurrow] at h
      unpack at h
      obtain ⟨h1, rfl⟩ := h
      simp only [Option.getD_some]; omega
    · cases h; rfl
  · rename_i hr
    rw [hr]
    cases act <;> cases h <;> rfl

theorem shadowAction_inv {c c' : Contract} {x : Ctx} {act : ShadowAction} {id : Nat}
    {amount : Option Nat} {outs : List Out}
    (h : c.shadowAction x act id amount = .ok (c', outs)) :
    ∃ acc p m n, c.cfg.running = true ∧ c.accounts.get? x.pred = some acc ∧
      c.pools[id]? = some p ∧ shadowMax acc act id (p.shareBalance x.pred) = .ok m ∧
      n = amount.getD m ∧ 0 < n ∧ n ≤ m ∧
      ((act = .fromFarming ∨ act = .fromBurrowland) ∧ c' = c ∧
          outs = [.shadow act x.pred id n 0] ∨
       (act = .toFarming ∨ act = .toBurrowland) ∧
        ∃ acc' fee outs', acc.updateShadow id act n = .ok acc' ∧
          acc'.storageUsage ≤ acc'.near ∧ x.checkStorage = .ok (fee, outs') ∧
          c' = c.putAccount x.pred acc' ∧ outs = outs' ++ [.shadow act x.pred id n fee]) := by
  unfold shadowAction Config.assertRunning at h
  unpack at h
  obtain ⟨h1, acc, h2, p, h3, m, h4, h5, h6, h⟩ := h
  refine ⟨acc, p, m, _, h1, account_ok.1 h2, pool_ok.1 h3, h4, rfl, h5, h6, ?_⟩
  cases act <;> simp only [] at h
  · unpack at h
    obtain ⟨acc', h7, c1, h8, fee, outs', h9, rfl, rfl⟩ := h
    rw [saveAccount_ok] at h8
    obtain ⟨h8, rfl⟩ := h8
    exact .inr ⟨.inl rfl, acc', fee, outs', h7, h8, h9, rfl, rfl⟩
  · cases h; exact .inl ⟨.inl rfl, rfl, rfl⟩
  · unpack at h
    obtain ⟨acc', h7, c1, h8, fee, outs', h9, rfl, rfl⟩ := h
    rw [saveAccount_ok] at h8
    obtain ⟨h8, rfl⟩ := h8
    exact .inr ⟨.inr rfl, acc', fee, outs', h7, h8, h9, rfl, rfl⟩
  · cases h; exact .inl ⟨.inr rfl, rfl, rfl⟩

theorem creditStorage_ok {x : Ctx} {a b : Account} (h : creditStorage x a = .ok b) :
    b.tokens = a.tokens ∧ b.shadow = a.shadow ∧ b.near = a.near + x.shrank * BYTE_COST := by
  unfold creditStorage at h
  unpack at h
  obtain ⟨-, rfl⟩ := h
  exact ⟨rfl, rfl, rfl⟩

theorem releaseSeed_ok {a b : Account} {id seed : Nat} (h : releaseSeed a id seed = .ok b) :
    b.near = a.near ∧ b.tokens = a.tokens ∧ seed ≤ (a.pledged id).farm ∧
    b.pledged id = ⟨(a.pledged id).farm - seed, (a.pledged id).burrow⟩ ∧
    (∀ j, j ≠ id → b.pledged j = a.pledged j) := by
  unfold releaseSeed at h
  split at h
  · obtain ⟨h1, h2, h3, h4⟩ := Account.updateShadow_ok h
    simp only [Account.movedRecord] at h3
    unpack at h3
    obtain ⟨h5, h6⟩ := h3
    exact ⟨h1, h2, h5, h6.symm, fun j hj => (h4 j hj).1⟩
  · rename_i hs
    have : seed = 0 := by omega
    subst this
    cases h
    exact ⟨rfl, rfl, Nat.zero_le _, rfl, fun _ _ => rfl⟩

theorem onBurrowLiquidation_inv {c c' : Contract} {x : Ctx} {liquidator debtor : AccountId}
    {shadowId : List Char} {amount : Nat} {mins : List Nat} {outs : List Out}
    (h : c.onBurrowLiquidation x liquidator debtor shadowId amount mins = .ok (c', outs)) :
    ∃ id p q paid acc acc1 free acc2 acc3 liq liq', x.deposit = 0 ∧ c.cfg.burrowland = x.pred ∧
      shadowIdToPoolId shadowId = .ok id ∧ c.pools[id]? = some p ∧
      (∀ t ∈ p.tokens, t ∉ c.cfg.frozen) ∧ c.accounts.get? debtor = some acc ∧
      acc.updateShadow id .fromBurrowland amount = .ok acc1 ∧
      acc1.freeOf id (p.shareBalance debtor) = .ok free ∧
      releaseSeed acc1 id (seedToWithdraw free amount) = .ok acc2 ∧
      creditStorage x acc2 = .ok acc3 ∧ acc3.storageUsage ≤ acc3.near ∧
      (c.accounts.insert debtor acc3).get? liquidator = some liq ∧
      p.removeLiquidity debtor amount mins false = .ok (q, paid) ∧
      liq.depositAll q.tokens paid = .ok liq' ∧ liq'.storageUsage ≤ liq'.near ∧
      c' = { c with accounts := (c.accounts.insert debtor acc3).insert liquidator liq',
                    pools := c.pools.set id q } ∧
      outs = (if seedToWithdraw free amount > 0 then
        [.liquidated debtor id (seedToWithdraw free amount)] else []) := by
  unfold onBurrowLiquidation Ctx.noDeposit Config.assertNoFrozen at h
  unpack at h
  obtain ⟨h1, h2, id, h3, p, h4, h5, acc, h6, acc1, h7, free, h8, acc2, h9, acc3, h10, c1, h11, liq,
    h12, q, paid, h13, liq', h14, c2, h15, rfl, rfl⟩ := h
  rw [saveAccount_ok] at h11
  obtain ⟨h11, rfl⟩ := h11
  rw [saveAccount_ok] at h15
  obtain ⟨h15, rfl⟩ := h15
  exact ⟨id, p, q, paid, acc, acc1, free, acc2, acc3, liq, liq', h1, h2, h3, pool_ok.1 h4, h5,
    account_ok.1 h6, h7, h8, h9, h10, h11, account_ok.1 h12, h13, h14, h15, rfl, rfl⟩

/-! ### Donations -/

theorem donationShare_inv {c c' : Contract} {x : Ctx} {id : Nat} {amount : Option Nat}
    {unregister : Bool} {outs : List Out}
    (h : c.donationShare x id amount unregister = .ok (c', outs)) :
    ∃ p n q q', x.deposit = 1 ∧ c.cfg.running = true ∧ c.pools[id]? = some p ∧
      n = amount.getD (p.shareBalance x.pred) ∧ 0 < n ∧ p.shareTransfer x.pred c.self n = .ok q ∧
      (q' = q ∧ unregister = false ∨ unregister = true ∧ q.shareUnregister x.pred = .ok q') ∧
      nearOnly outs ∧
      (c' = { c with pools := c.pools.set id q' } ∨
       ∃ acc acc', c.accounts.get? x.pred = some acc ∧ creditStorage x acc = .ok acc' ∧
         acc'.storageUsage ≤ acc'.near ∧
         c' = { c with pools := c.pools.set id q',
                       accounts := c.accounts.insert x.pred acc' }) := by
  unfold donationShare Ctx.oneYocto Config.assertRunning at h
  unpack at h
  obtain ⟨h1, h2, p, h3, h4, q, h5, q', h6, h⟩ := h
  refine ⟨p, _, q, q', h1, h2, pool_ok.1 h3, rfl, h4, h5, ?_, ?_⟩
  · split at h6
    · rename_i hu; exact .inr ⟨hu, h6⟩
    · rename_i hu; cases h6; exact .inl ⟨rfl, by simpa using hu⟩
  · split at h
    · split at h
      · rename_i acc hacc
        unpack at h
        obtain ⟨acc', h7, c1, h8, rfl, rfl⟩ := h
        rw [saveAccount_ok] at h8
        obtain ⟨h8, rfl⟩ := h8
        exact ⟨fun o ho => by simp at ho, .inr ⟨acc, acc', hacc, h7, h8, rfl⟩⟩
      · cases h
        exact ⟨fun o ho => by simp at ho; exact ⟨_, _, ho⟩, .inl rfl⟩
    · cases h
      exact ⟨fun o ho => by simp at ho, .inl rfl⟩

theorem donationToken_inv {c c' : Contract} {x : Ctx} {token : AccountId} {amount : Option Nat}
    {unregister : Bool} (h : c.donationToken x token amount unregister = .ok c') :
    ∃ acc n acc1 acc' own own', x.deposit = 1 ∧ c.cfg.running = true ∧
      c.accounts.get? x.pred = some acc ∧ n = amount.getD (acc.bal token) ∧ 0 < n ∧
      acc.withdraw token n = .ok acc1 ∧ unregisterIf unregister acc1 token = .ok acc' ∧
      acc'.storageUsage ≤ acc'.near ∧
      (c.accounts.insert x.pred acc').get? c.cfg.owner = some own ∧
      own.deposit token n = .ok own' ∧
      c' = { c with accounts := (c.accounts.insert x.pred acc').insert c.cfg.owner own' } := by
  unfold donationToken Ctx.oneYocto Config.assertRunning at h
  unpack at h
  obtain ⟨h1, h2, acc, h3, all, h4, h5, acc1, h6, acc', h7, c1, h8, own, h9, own', h10, rfl⟩ := h
  rw [saveAccount_ok] at h8
  obtain ⟨h8, rfl⟩ := h8
  have hb : acc.bal token = all := by simp [Account.bal, h4]
  rw [← hb] at h5 h6 h10
  exact ⟨acc, _, acc1, acc', own, own', h1, h2, account_ok.1 h3, rfl, h5, h6, h7, h8,
    account_ok.1 h9, h10, rfl⟩

/-! ### Owner and guardians -/

theorem setting_inv {c c' : Contract} {x : Ctx} {s : Setting} (h : c.setting x s = .ok c') :
    ∃ g, c.applySetting x s = .ok g ∧ c' = { c with cfg := g } := by
  unfold setting at h
  unpack at h
  obtain ⟨g, h1, rfl⟩ := h
  exact ⟨g, h1, rfl⟩

theorem retrieveUnmanaged_inv {c : Contract} {x : Ctx} {token : AccountId} {amount : Nat}
    {outs : List Out} (h : c.retrieveUnmanaged x token amount = .ok outs) :
    x.pred = c.cfg.owner ∧ x.deposit = 1 ∧ 0 < amount ∧
    outs = [.ftPlain token c.cfg.owner amount] := by
  unfold retrieveUnmanaged Config.assertOwner Ctx.oneYocto at h
  unpack at h
  obtain ⟨h1, h2, h3, rfl⟩ := h
  exact ⟨h1, h2, h3, rfl⟩

theorem modifyTotalFee_inv {c c' : Contract} {x : Ctx} {id fee : Nat}
    (h : c.modifyTotalFee x id fee = .ok c') :
    ∃ p, x.deposit = 1 ∧ (x.pred = c.cfg.owner ∨ x.pred ∈ c.cfg.guardians) ∧ fee < FEE_DIVISOR ∧
      c.pools[id]? = some p ∧ c' = { c with pools := c.pools.set id (p.setFee fee) } := by
  unfold modifyTotalFee Config.assertManager Ctx.oneYocto at h
  unpack at h
  obtain ⟨h1, h2, h3, p, h4, rfl⟩ := h
  exact ⟨p, h1, h2, h3, pool_ok.1 h4, rfl⟩

theorem removeExchangeFee_inv {c c' : Contract} {x : Ctx} {id shares : Nat} {mins : List Nat}
    (h : c.removeExchangeFee x id shares mins = .ok c') :
    ∃ p q paid own own', x.deposit = 1 ∧ (x.pred = c.cfg.owner ∨ x.pred ∈ c.cfg.guardians) ∧
      c.cfg.running = true ∧ c.pools[id]? = some p ∧
      p.removeLiquidity c.self shares mins false = .ok (q, paid) ∧
      c.accounts.get? c.cfg.owner = some own ∧ own.depositAll q.tokens paid = .ok own' ∧
      own'.storageUsage ≤ own'.near ∧
      c' = { c with pools := c.pools.set id q,
                    accounts := c.accounts.insert c.cfg.owner own' } := by
  unfold removeExchangeFee Config.assertManager Config.assertRunning Ctx.oneYocto at h
  unpack at h
  obtain ⟨h1, h2, h3, p, h4, q, paid, h5, own, h6, own', h7, h8⟩ := h
  rw [saveAccount_ok] at h8
  obtain ⟨h8, rfl⟩ := h8
  exact ⟨p, q, paid, own, own', h1, h2, h3, pool_ok.1 h4, h5, account_ok.1 h6, h7, h8, rfl⟩

theorem withdrawOwnerToken_inv {c c' : Contract} {x : Ctx} {token : AccountId} {amount : Nat}
    {skipUnwrap : Option Bool} {outs : List Out}
    (h : c.withdrawOwnerToken x token amount skipUnwrap = .ok (c', outs)) :
    ∃ own own', x.deposit = 1 ∧ (x.pred = c.cfg.owner ∨ x.pred ∈ c.cfg.guardians) ∧
      c.cfg.running = true ∧ 0 < amount ∧ c.accounts.get? c.cfg.owner = some own ∧
      own.withdraw token amount = .ok own' ∧
      c' = { c with accounts := c.accounts.insert c.cfg.owner own' } ∧
      outs = [c.sendTokens c.cfg.owner token amount skipUnwrap] := by
  unfold withdrawOwnerToken Config.assertManager Config.assertRunning Ctx.oneYocto at h
  unpack at h
  obtain ⟨h1, h2, h3, h4, own, h5, own', h6, rfl, rfl⟩ := h
  exact ⟨own, own', h1, h2, h3, h4, account_ok.1 h5, h6, rfl, rfl⟩

theorem rampAmp_inv {c c' : Contract} {x : Ctx} {id future futureTime : Nat}
    (h : c.rampAmp x id future futureTime = .ok c') :
    ∃ p q, x.deposit = 1 ∧ (x.pred = c.cfg.owner ∨ x.pred ∈ c.cfg.guardians) ∧
      c.pools[id]? = some p ∧ p.ramp future futureTime x.now (c.cfg.env x.now p) = .ok q ∧
      c' = { c with pools := c.pools.set id q } := by
  unfold rampAmp Config.assertManager Ctx.oneYocto at h
  unpack at h
  obtain ⟨h1, h2, p, h3, q, h4, rfl⟩ := h
  exact ⟨p, q, h1, h2, pool_ok.1 h3, h4, rfl⟩

theorem stopRampAmp_inv {c c' : Contract} {x : Ctx} {id : Nat}
    (h : c.stopRampAmp x id = .ok c') :
    ∃ p q, x.deposit = 1 ∧ (x.pred = c.cfg.owner ∨ x.pred ∈ c.cfg.guardians) ∧
      c.pools[id]? = some p ∧ p.stopRamp x.now (c.cfg.env x.now p) = .ok q ∧
      c' = { c with pools := c.pools.set id q } := by
  unfold stopRampAmp Config.assertManager Ctx.oneYocto at h
  unpack at h
  obtain ⟨h1, h2, p, h3, q, h4, rfl⟩ := h
  exact ⟨p, q, h1, h2, pool_ok.1 h3, h4, rfl⟩

theorem registerTwap_inv {c c' : Contract} {x : Ctx} {id : Nat} (h : c.registerTwap x id = .ok c') :
    x.deposit = 1 ∧ (x.pred = c.cfg.owner ∨ x.pred ∈ c.cfg.guardians) ∧
    ∃ tw, c' = { c with twaps := tw } := by
  unfold registerTwap Config.assertManager Ctx.oneYocto at h
  unpack at h
  obtain ⟨h1, h2, -, p, -, _, -, _, -, rfl⟩ := h
  exact ⟨h1, h2, _, rfl⟩

theorem unregisterTwap_inv {c c' : Contract} {x : Ctx} {id : Nat}
    (h : c.unregisterTwap x id = .ok c') :
    x.deposit = 1 ∧ (x.pred = c.cfg.owner ∨ x.pred ∈ c.cfg.guardians) ∧
    ∃ tw, c' = { c with twaps := tw } := by
  unfold unregisterTwap Config.assertManager Ctx.oneYocto at h
  unpack at h
  obtain ⟨h1, h2, -, rfl⟩ := h
  exact ⟨h1, h2, _, rfl⟩

theorem syncTwap_inv {c c' : Contract} {x : Ctx} {id : Nat} (h : c.syncTwap x id = .ok c') :
    x.deposit = 0 ∧ ∃ tw, c' = { c with twaps := tw } := by
  unfold syncTwap Ctx.noDeposit at h
  unpack at h
  obtain ⟨h1, _, -, p, -, _, -, _, -, _, -, rfl⟩ := h
  exact ⟨h1, _, rfl⟩

/-! ### Callbacks -/

theorem insertLostfound_inv {c c' : Contract} {a token : AccountId} {amount : Nat}
    (h : c.insertLostfound a token amount = .ok c') :
    c' = { c with lostfound := c.lostfound.insert (a, token) (c.lostOf a token + amount) } := by
  unfold insertLostfound at h
  unpack at h
  obtain ⟨-, rfl⟩ := h
  rfl

theorem ownerLostfound_inv {c c' : Contract} {token : AccountId} {amount : Nat}
    (h : c.ownerLostfound token amount = .ok c') :
    ∃ acc', (c.accountOrNew c.cfg.owner).deposit token amount = .ok acc' ∧
      c' = c.putAccount c.cfg.owner acc' := by
  unfold ownerLostfound at h
  unpack at h
  obtain ⟨acc', h1, rfl⟩ := h
  exact ⟨acc', h1, rfl⟩

/-- A failed transfer goes to the account, to lost-and-found or to the owner. -/
theorem handleFail_inv {c c' : Contract} {x : Ctx} {a token : AccountId} {amount : Nat}
    (h : c.handleFail x a token amount = .ok c') :
    (∃ acc acc', c.accounts.get? a = some acc ∧
      acc.depositChecked token amount = .ok (some acc') ∧ c' = c.putAccount a acc') ∨
    c' = { c with lostfound := c.lostfound.insert (a, token) (c.lostOf a token + amount) } ∨
    (∃ acc', (c.accountOrNew c.cfg.owner).deposit token amount = .ok acc' ∧
      c' = c.putAccount c.cfg.owner acc') := by
  have key : ∀ {c'}, c.handleLost x a token amount = .ok c' →
      c' = { c with lostfound := c.lostfound.insert (a, token) (c.lostOf a token + amount) } ∨
      (∃ acc', (c.accountOrNew c.cfg.owner).deposit token amount = .ok acc' ∧
        c' = c.putAccount c.cfg.owner acc') := by
    intro c' h
    unfold handleLost at h
    unpack at h
    obtain ⟨-, -, h⟩ := h
    split at h
    · exact .inl (insertLostfound_inv h)
    · exact .inr (ownerLostfound_inv h)
  unfold handleFail at h
  split at h
  · rename_i acc hacc
    unpack at h
    obtain ⟨r, h1, h⟩ := h
    split at h
    · cases h; exact .inl ⟨acc, _, hacc, h1, rfl⟩
    · exact .inr (key h)
  · exact .inr (key h)

theorem mftResolve_inv {c c' : Contract} {tokenId : List Char} {sender receiver : AccountId}
    {amount n : Nat} {o : Outcome}
    (h : c.mftResolve tokenId sender receiver amount o = .ok (c', n)) :
    n = unusedOf amount o ∧
    (c' = c ∨ ∃ held m, c.mftBalance tokenId receiver = .ok held ∧ 0 < held ∧ 0 < n ∧
      c.internalMftTransfer tokenId receiver
        (if c.accounts.contains sender = true then sender else c.self) (some (min held n)) =
          .ok (c', m)) := by
  unfold mftResolve at h
  simp only [] at h
  split at h
  · rename_i hpos
    unpack at h
    obtain ⟨held, h1, h⟩ := h
    split at h
    · rename_i hheld
      unpack at h
      obtain ⟨c1, m, h2, rfl, rfl⟩ := h
      exact ⟨rfl, .inr ⟨held, m, h1, hheld, hpos, h2⟩⟩
    · cases h; exact ⟨rfl, .inl rfl⟩
  · cases h; exact ⟨rfl, .inl rfl⟩

theorem callbackOnShadow_inv {c c' : Contract} {x : Ctx} {act : ShadowAction} {sender : AccountId}
    {id amount fee : Nat} {o : Outcome} {outs : List Out}
    (h : c.callbackOnShadow x act sender id amount fee o = .ok (c', outs)) :
    nearOnly outs ∧
    (c' = c ∨ ∃ acc, c.accounts.get? sender = some acc ∧
      (c' = c.putAccount sender acc ∨
       ∃ acc1 acc', acc.updateShadow id act.undo amount = .ok acc1 ∧
        (acc' = acc1 ∨ creditStorage x acc1 = .ok acc') ∧ acc'.storageUsage ≤ acc'.near ∧
        (act.undo = .fromFarming ∨ act.undo = .fromBurrowland) ∧
        c' = c.putAccount sender acc')) := by
  unfold callbackOnShadow at h
  split at h
  · unpack at h
    obtain ⟨acc, h1, h⟩ := h
    rw [account_ok] at h1
    cases act <;> simp only [] at h <;> unpack at h
    · obtain ⟨acc', h2, c1, h3, rfl, rfl⟩ := h
      rw [saveAccount_ok] at h3
      obtain ⟨h3, rfl⟩ := h3
      refine ⟨?_, .inr ⟨acc, h1, .inr ⟨acc', acc', h2, .inl rfl, h3, .inl rfl, rfl⟩⟩⟩
      intro o ho
      split at ho
      · simp at ho; exact ⟨_, _, ho⟩
      · simp at ho
    · obtain ⟨c1, h3, rfl, rfl⟩ := h
      rw [saveAccount_ok] at h3
      obtain ⟨h3, rfl⟩ := h3
      exact ⟨fun o ho => by simp at ho, .inr ⟨acc, h1, .inl rfl⟩⟩
    · obtain ⟨acc', h2, c1, h3, rfl, rfl⟩ := h
      rw [saveAccount_ok] at h3
      obtain ⟨h3, rfl⟩ := h3
      refine ⟨?_, .inr ⟨acc, h1, .inr ⟨acc', acc', h2, .inl rfl, h3, .inr rfl, rfl⟩⟩⟩
      intro o ho
      split at ho
      · simp at ho; exact ⟨_, _, ho⟩
      · simp at ho
    · obtain ⟨c1, h3, rfl, rfl⟩ := h
      rw [saveAccount_ok] at h3
      obtain ⟨h3, rfl⟩ := h3
      exact ⟨fun o ho => by simp at ho, .inr ⟨acc, h1, .inl rfl⟩⟩
  · cases act <;> simp only [] at h <;> unpack at h
    · obtain ⟨rfl, rfl⟩ := h; exact ⟨fun o ho => by simp at ho, .inl rfl⟩
    · obtain ⟨acc, h1, acc1, h2, acc', h3, c1, h4, rfl, rfl⟩ := h
      rw [saveAccount_ok] at h4
      obtain ⟨h4, rfl⟩ := h4
      exact ⟨fun o ho => by simp at ho,
        .inr ⟨acc, account_ok.1 h1, .inr ⟨acc1, acc', h2, .inr h3, h4, .inl rfl, rfl⟩⟩⟩
    · obtain ⟨rfl, rfl⟩ := h; exact ⟨fun o ho => by simp at ho, .inl rfl⟩
    · obtain ⟨acc, h1, acc1, h2, acc', h3, c1, h4, rfl, rfl⟩ := h
      rw [saveAccount_ok] at h4
      obtain ⟨h4, rfl⟩ := h4
      exact ⟨fun o ho => by simp at ho,
        .inr ⟨acc, account_ok.1 h1, .inr ⟨acc1, acc', h2, .inr h3, h4, .inr rfl, rfl⟩⟩⟩

end Contract
end Verif

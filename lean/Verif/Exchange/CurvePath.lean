import Verif.Curve.Worth
import Verif.Exchange.Worth

/-
What the events of the exchange do to one stable-swap pool: a path of operations, and how many of
them move its reserves or shares.
-/

namespace Verif

/-- The pools whose liquidity a call asks to change, once for each time. -/
def Call.liquidity : Call → List Nat
  | .addStableLiquidity id _ _ | .removeLiquidity id _ _ | .removeByTokens id _ _
  | .removeExchangeFee id _ _ => [id]
  | .onBurrowLiquidation _ _ shadowId _ _ =>
    match shadowIdToPoolId shadowId with
    | .ok id => [id]
    | .error _ => []
  | .ftOnTransfer _ _ (.hotZap _ _ infos) => infos.map AddInfo.pool
  | _ => []

/-- The pools whose liquidity an event asks to change. -/
def Event.liquidity : Event → List Nat
  | .call _ k => k.liquidity
  | _ => []

namespace CurvePool

/-- An operation that moves reserves of a stable-swap pool, with a protocol fee of at most `b` and
at times and with rates of the tokens that satisfy `R`. -/
inductive Change (b : Nat) (R : CurveEnv → Prop) : CurvePool → CurvePool → Prop where
  | swap {p q : CurvePool} {ti tout : AccountId} {a m out : Nat} {fees : AdminFees}
      {env : CurveEnv} : p.swap ti a tout m fees env false = .ok (q, out) →
      fees.adminFeeBps ≤ b → R env → Change b R p q
  | add {p q : CurvePool} {s : AccountId} {am : List Nat} {m n : Nat} {fees : AdminFees}
      {env : CurveEnv} : p.addLiquidity s am m fees env false = .ok (q, n) →
      fees.adminFeeBps ≤ b → R env → Change b R p q
  | removeByShares {p q : CurvePool} {s : AccountId} {n : Nat} {mins paid : List Nat} :
      p.removeByShares s n mins false = .ok (q, paid) → Change b R p q
  | removeByTokens {p q : CurvePool} {s : AccountId} {am : List Nat} {m n : Nat} {fees : AdminFees}
      {env : CurveEnv} : p.removeByTokens s am m fees env false = .ok (q, n) →
      fees.adminFeeBps ≤ b → R env → Change b R p q

/-- An operation that moves no reserves and does not change the number of shares. -/
structure Same (p q : CurvePool) : Prop where
  op : Pool.Op (.curve p) (.curve q)
  amounts : q.cAmts = p.cAmts
  supply : q.supply = p.supply

/-- A number of operations, `k` of which move reserves, and the states of the pool on the way. -/
inductive Path (b : Nat) (R : CurveEnv → Prop) (p : CurvePool) :
    List CurvePool → Nat → CurvePool → Prop where
  | nil : Path b R p [p] 0 p
  | change {vs : List CurvePool} {k : Nat} {q r : CurvePool} : Path b R p vs k q → Change b R q r →
      Path b R p (r :: vs) (k + 1) r
  | same {vs : List CurvePool} {k : Nat} {q r : CurvePool} : Path b R p vs k q → Same q r →
      Path b R p (r :: vs) k r

theorem Change.mono {b : Nat} {R R' : CurveEnv → Prop} {p q : CurvePool} (h : Change b R p q)
    (hR : ∀ u, R u → R' u) : Change b R' p q := by
  cases h with
  | swap h hb hr => exact .swap h hb (hR _ hr)
  | add h hb hr => exact .add h hb (hR _ hr)
  | removeByShares h => exact .removeByShares h
  | removeByTokens h hb hr => exact .removeByTokens h hb (hR _ hr)

theorem Path.mono {b k : Nat} {R R' : CurveEnv → Prop} {p q : CurvePool} {vs : List CurvePool}
    (h : Path b R p vs k q) (hR : ∀ u, R u → R' u) : Path b R' p vs k q := by
  induction h with
  | nil => exact .nil
  | change _ hc ih => exact .change ih (hc.mono hR)
  | same _ hc ih => exact .same ih hc

theorem Path.trans {b k k' : Nat} {R : CurveEnv → Prop} {p q r : CurvePool} {vs ws : List CurvePool}
    (h : Path b R p vs k q) (g : Path b R q ws k' r) : ∃ us, Path b R p us (k + k') r := by
  induction g with
  | nil => exact ⟨_, h⟩
  | change _ hc ih => obtain ⟨us, ih⟩ := ih; exact ⟨_, .change ih hc⟩
  | same _ hc ih => obtain ⟨us, ih⟩ := ih; exact ⟨_, .same ih hc⟩

theorem Change.op {b : Nat} {R : CurveEnv → Prop} {p q : CurvePool} (h : Change b R p q) :
    Pool.Op (.curve p) (.curve q) := by
  cases h with
  | @swap ti tout a m out fees env h _ _ =>
    exact .swap (env := .ok env) (fees := fees) (ti := ti) (tout := tout) (a := a) (m := m) (out := out)
      (by simp only [Pool.swap, ok_bind]; rw [h]; rfl)
  | @add s am m n fees env h _ _ =>
    exact .addStable (env := .ok env) (fees := fees) (s := s) (am := am) (m := m) (n := n)
      (by simp only [Pool.addStable, ok_bind]; rw [h]; rfl)
  | @removeByShares s n mins paid h =>
    exact .removeLiquidity (s := s) (n := n) (mins := mins) (paid := paid)
      (by simp only [Pool.removeLiquidity]; rw [h]; rfl)
  | @removeByTokens s am m n fees env h _ _ =>
    exact .removeByTokens (env := .ok env) (fees := fees) (s := s) (am := am) (m := m) (n := n)
      (by simp only [Pool.removeByTokens, ok_bind]; rw [h]; rfl)

theorem Path.shape {b k : Nat} {R : CurveEnv → Prop} {p q : CurvePool} {vs : List CurvePool}
    (h : Path b R p vs k q) : (Pool.curve q).shape = (Pool.curve p).shape := by
  induction h with
  | nil => rfl
  | change _ hc ih => rw [hc.op.shape, ih]
  | same _ hc ih => rw [hc.op.shape, ih]

end CurvePool

/-- The time of an event. -/
def Event.now : Event → Nat
  | .call x _ => x.now
  | .callback x _ _ => x.now
  | .rate _ _ time => time
  | .price _ _ time => time

/-- `e` is the time `t` and the rates or prices that a configuration has for the tokens of a pool (none
for a stable pool). -/
def Config.EnvOf (g : Config) (t : Nat) (p : CurvePool) (e : CurveEnv) : Prop :=
  g.env t (.curve p) = .ok e

theorem Config.envOf_congr {g : Config} {t : Nat} {p q : CurvePool}
    (h : (Pool.curve q).shape = (Pool.curve p).shape) : g.EnvOf t q = g.EnvOf t p := by
  simp only [Pool.shape, Prod.mk.injEq] at h
  funext u
  simp only [Config.EnvOf, Config.env]
  rw [show q.kind = p.kind by simpa using h.1, h.2.1]

theorem Config.EnvOf.now_eq {g : Config} {t : Nat} {p : CurvePool} {e : CurveEnv}
    (h : g.EnvOf t p e) : e.now = t := by
  simp only [Config.EnvOf, Config.env] at h
  cases hk : p.kind <;> rw [hk] at h <;> simp only at h
  · cases h; rfl
  · cases h; rfl
  · unpack at h
    obtain ⟨_, -, rfl⟩ := h
    rfl

/-- What an operation does to a stable-swap pool: a change if `k` allows one. -/
def Pool.Moves (b : Nat) (g : Config) (t : Nat) (k : Nat) (p q : Pool) : Prop :=
  ∀ p', p = .curve p' → ∃ q', q = .curve q' ∧ (p'.Same q' ∨ 1 ≤ k ∧ p'.Change b (g.EnvOf t p') q')

/-- Pool `id`, if it is a stable-swap pool, goes a path with at most `k` changes, at the time `t` and with
the rates of the configuration `g`. -/
def PoolsPath (b : Nat) (g : Config) (t : Nat) (id k : Nat) (l l' : List Pool) : Prop :=
  ∀ p, l[id]? = some (.curve p) →
    ∃ q vs j, l'[id]? = some (.curve q) ∧ p.Path b (g.EnvOf t p) vs j q ∧ j ≤ k

theorem PoolsPath.refl (b : Nat) (g : Config) (t : Nat) (id k : Nat) (l : List Pool) :
    PoolsPath b g t id k l l :=
  fun p hp => ⟨p, _, 0, hp, .nil, Nat.zero_le _⟩

theorem PoolsPath.trans {b id j k : Nat} {g : Config} {t : Nat} {l l1 l2 : List Pool}
    (h : PoolsPath b g t id j l l1) (h' : PoolsPath b g t id k l1 l2) :
    PoolsPath b g t id (j + k) l l2 := by
  intro p hp
  obtain ⟨q, vs, m, hq, hw, hm⟩ := h p hp
  obtain ⟨r, ws, m', hr, hw', hm'⟩ := h' q hq
  rw [Config.envOf_congr hw.shape] at hw'
  obtain ⟨us, hu⟩ := hw.trans hw'
  exact ⟨r, us, _, hr, hu, by omega⟩

/-- One operation on one pool. -/
theorem PoolsPath.one {b id j k : Nat} {g : Config} {t : Nat} {l : List Pool} {p q : Pool} (hp : l[j]? = some p)
    (hk : id = j → p.Moves b g t k q) : PoolsPath b g t id k l (l.set j q) := by
  intro p' hp'
  by_cases e : id = j
  · subst e
    rw [hp] at hp'
    obtain ⟨q', rfl, hw⟩ := hk rfl p' (Option.some.inj hp')
    refine ⟨q', ?_⟩
    rcases hw with hw | ⟨h1, hw⟩
    · exact ⟨_, 0, by rw [getElem?_set_some hp, if_pos rfl], .same .nil hw, Nat.zero_le _⟩
    · exact ⟨_, 1, by rw [getElem?_set_some hp, if_pos rfl], .change .nil hw, h1⟩
  · exact ⟨p', _, 0, by rw [List.getElem?_set_ne (Ne.symm e)]; exact hp', .nil, Nat.zero_le _⟩

/-- A new pool. -/
theorem PoolsPath.add {b id k : Nat} {g : Config} {t : Nat} {l : List Pool} {q : Pool} :
    PoolsPath b g t id k l (l ++ [q]) := by
  intro p hp
  refine ⟨p, _, 0, ?_, .nil, Nat.zero_le _⟩
  rw [List.getElem?_append_left (List.getElem?_eq_some_iff.1 hp).1]
  exact hp

namespace Pool

theorem Moves.of_same {b k : Nat} {g : Config} {t : Nat} {p q : Pool} (ho : p.Op q) (hs : q.shape = p.shape)
    (hsup : q.supply = p.supply) (ha : q.amounts = p.amounts) : p.Moves b g t k q := by
  rintro p' rfl
  cases q with
  | simple q => cases hs
  | curve q => exact ⟨q, rfl, .inl ⟨ho, ha, hsup⟩⟩

theorem OnlyShares.moves {b k : Nat} {g : Config} {t : Nat} {p q : Pool} (hs : OnlyShares p q) (ho : p.Op q) :
    p.Moves b g t k q := .of_same ho hs.shape hs.supply hs.amounts

theorem OnlyAmp.moves {b k : Nat} {g : Config} {t : Nat} {p q : Pool} (hs : OnlyAmp p q) (ho : p.Op q) :
    p.Moves b g t k q :=
  .of_same ho hs.shape hs.supply hs.amounts

theorem setFee_moves {b k : Nat} {g : Config} {t : Nat} {p : Pool} {f : Nat} (hf : f < 10000) :
    p.Moves b g t k (p.setFee f) :=
  .of_same (.setFee hf) (setFee_facts p f).1 (setFee_facts p f).2.2.1 (setFee_facts p f).2.2.2.2.2

theorem addLiquidity_moves {b k : Nat} {g : Config} {t : Nat} {p q : Pool} {s : AccountId} {am used : List Nat}
    {n : Nat} (hr : p.addLiquidity s am false = .ok (q, used, n)) : p.Moves b g t k q := by
  rintro p' rfl
  cases hr

theorem swap_moves {b t : Nat} {g : Config} {p q : Pool} {ti tout : AccountId} {a m out : Nat}
    {fees : AdminFees} (hb : fees.adminFeeBps ≤ b)
    (hr : p.swap ti a tout m fees (g.env t p) false = .ok (q, out)) : p.Moves b g t 1 q := by
  rintro p' rfl
  unfold swap at hr
  unpack at hr
  obtain ⟨_, he, q', _, hr, rfl, -⟩ := hr
  exact ⟨q', rfl, .inr ⟨le_refl _, .swap hr hb he⟩⟩

theorem addStable_moves {b t : Nat} {g : Config} {p q : Pool} {s : AccountId} {am : List Nat}
    {m n : Nat} {fees : AdminFees} (hb : fees.adminFeeBps ≤ b)
    (hr : p.addStable s am m fees (g.env t p) false = .ok (q, n)) : p.Moves b g t 1 q := by
  rintro p' rfl
  unfold addStable at hr
  unpack at hr
  obtain ⟨_, he, q', _, hr, rfl, -⟩ := hr
  exact ⟨q', rfl, .inr ⟨le_refl _, .add hr hb he⟩⟩

theorem removeByTokens_moves {b t : Nat} {g : Config} {p q : Pool} {s : AccountId}
    {am : List Nat} {m n : Nat} {fees : AdminFees} (hb : fees.adminFeeBps ≤ b)
    (hr : p.removeByTokens s am m fees (g.env t p) false = .ok (q, n)) : p.Moves b g t 1 q := by
  rintro p' rfl
  unfold removeByTokens at hr
  unpack at hr
  obtain ⟨_, he, q', _, hr, rfl, -⟩ := hr
  exact ⟨q', rfl, .inr ⟨le_refl _, .removeByTokens hr hb he⟩⟩

theorem removeLiquidity_moves {b : Nat} {g : Config} {t : Nat} {p q : Pool} {s : AccountId} {n : Nat} {mins paid : List Nat}
    (hr : p.removeLiquidity s n mins false = .ok (q, paid)) : p.Moves b g t 1 q := by
  rintro p' rfl
  unfold removeLiquidity at hr
  unpack at hr
  obtain ⟨q', _, hr, rfl, -⟩ := hr
  exact ⟨q', rfl, .inr ⟨le_refl _, .removeByShares hr⟩⟩

end Pool

namespace Contract

theorem SwapsTo.path {now : Nat} {ref : Option (AccountId × Nat)} {c c' : Contract} {s : SwapStep}
    {b : Nat} (hs : c.SwapsTo now ref s c') (hb : c.cfg.adminFeeBps ≤ b) (id : Nat) :
    PoolsPath b c.cfg now id (swapsOf [s] id) c.pools c'.pools := by
  have h1 : ∀ {p q : Pool}, p.Moves b c.cfg now 1 q → id = s.pool → p.Moves b c.cfg now (swapsOf [s] id) q := by
    rintro p q hm rfl
    simpa [swapsOf] using hm
  rcases hs with ⟨m, hs⟩ | ⟨m, hs⟩
  · obtain ⟨tw, vs, p, q, hp, hr, -, rfl⟩ := poolSwap_ok hs
    exact .one hp (h1 (Pool.swap_moves (fees := c.fees ref) hb hr))
  · obtain ⟨tw, vs, p, q, hp, hr, -, rfl⟩ := poolSwapByOutput_ok hs
    refine .one hp fun _ => ?_
    rintro p' rfl
    cases hr

theorem _root_.Verif.Swaps.path {now : Nat} {ref : Option (AccountId × Nat)} {c c' : Contract}
    {steps : List SwapStep} {b : Nat} (hs : Swaps now ref c steps c')
    (hb : c.cfg.adminFeeBps ≤ b) (id : Nat) :
    PoolsPath b c.cfg now id (swapsOf steps id) c.pools c'.pools := by
  induction hs with
  | nil c => exact .refl _ _ _ _ _ _
  | @cons _ s _ steps _ h1 _ ih =>
    have ih := ih (by rw [h1.framed.cfg]; exact hb)
    rw [h1.framed.cfg] at ih
    have := (h1.path hb id).trans ih
    rwa [← swapsOf_append] at this

theorem ZapsTo.path {now : Nat} {sender : AccountId} {c c' : Contract} {i : AddInfo} {s : ZapStep}
    {b : Nat} (hs : c.ZapsTo now sender i s c') (hb : c.cfg.adminFeeBps ≤ b) (id : Nat) :
    PoolsPath b c.cfg now id ([i.pool].count id) c.pools c'.pools := by
  obtain ⟨p, q, hp, -, -, hz, -, rfl⟩ := hs
  refine .one hp ?_
  rintro rfl
  rw [List.count_singleton_self]
  unfold zapAdd at hz
  split at hz
  · rintro p' h; cases h
  · unpack at hz
    obtain ⟨m, -, q', n, h1, rfl, -⟩ := hz
    exact Pool.addStable_moves (fees := c.fees none) hb h1

theorem _root_.Verif.Zaps.path {now : Nat} {sender : AccountId} {c c' : Contract}
    {is : List AddInfo} {steps : List ZapStep} {b : Nat} (hz : Zaps now sender c is steps c')
    (hb : c.cfg.adminFeeBps ≤ b) (id : Nat) :
    PoolsPath b c.cfg now id ((is.map AddInfo.pool).count id) c.pools c'.pools := by
  induction hz with
  | nil => exact .refl _ _ _ _ _ _
  | @cons _ _ _ i is _ _ h1 _ ih =>
    have ih := ih (by rw [h1.framed.1.cfg]; exact hb)
    rw [h1.framed.1.cfg] at ih
    have := (h1.path hb id).trans ih
    rwa [← List.count_append] at this

theorem internalMftTransfer_path {c c' : Contract} {tokenId : List Char}
    {sender receiver : AccountId} {amount : Option Nat} {n : Nat} (b t id : Nat)
    (hr : c.internalMftTransfer tokenId sender receiver amount = .ok (c', n)) :
    PoolsPath b c.cfg t id 0 c.pools c'.pools := by
  obtain ⟨-, ⟨id, -, h⟩ | ⟨t, -, h⟩⟩ := internalMftTransfer_inv hr
  · obtain ⟨p, q, hp, -, -, -, -, hq, rfl⟩ := transferShares_inv h
    exact .one hp fun _ => (Pool.shareTransfer_only hq).moves (.shareTransfer hq)
  · obtain ⟨_, _, _, _, -, -, -, -, -, -, -, rfl⟩ := transferToken_inv h
    exact .refl _ _ _ _ _ _

theorem exec_path {c c' : Contract} {x : Ctx} {k : Call} {outs : List Out} {b : Nat}
    (hr : c.exec x k = .ok (c', outs)) (hb : c.cfg.adminFeeBps ≤ b) (id : Nat) :
    ∃ steps, c.Makes (.call x k) steps ∧
      PoolsPath b c.cfg x.now id (swapsOf steps id + k.liquidity.count id) c.pools c'.pools := by
  have one : ∀ {j : Nat} {p q : Pool}, p.Moves b c.cfg x.now 1 q → id = j →
      p.Moves b c.cfg x.now (swapsOf [] id + [j].count id) q := by
    rintro j p q hm rfl
    simpa [swapsOf] using hm
  cases k <;> simp only [exec] at hr
  case addSimplePool =>
    obtain ⟨_, -, -, -, hr⟩ := addSimplePool_inv hr
    obtain ⟨_, _, -, -, rfl⟩ := addPool_inv hr; exact ⟨[], rfl, .add⟩
  case addCurvePool =>
    obtain ⟨_, -, -, -, -, hr⟩ := addCurvePool_inv hr
    obtain ⟨_, _, -, -, rfl⟩ := addPool_inv hr; exact ⟨[], rfl, .add⟩
  case executeActions =>
    unpack at hr; obtain ⟨_, _, hr, rfl, -⟩ := hr
    obtain ⟨_, _, c1, -, -, -, -, h2, -, rfl⟩ := executeActions_inv hr
    obtain ⟨steps, hs, hf, -⟩ := runActions_ok h2
    exact ⟨steps, ⟨_, _, hs, hf⟩, hs.path hb id⟩
  case executeInVa =>
    unpack at hr; obtain ⟨_, _, hr, rfl, -⟩ := hr
    obtain ⟨_, _, _, _, _, c1, _, -, -, -, -, -, h2, -, -, -, rfl⟩ := executeInVa_inv hr
    obtain ⟨steps, hs, hf, -⟩ := runActions_ok h2
    exact ⟨steps, ⟨_, _, hs, hf⟩, hs.path hb id⟩
  case addLiquidity =>
    unpack at hr; obtain ⟨_, _, _, hr, rfl, -⟩ := hr
    obtain ⟨_, _, _, _, _, _, _, -, -, hp, -, hq, -, -, -, -, -, rfl⟩ := addLiquidity_inv hr
    exact ⟨[], rfl, .one hp fun _ => Pool.addLiquidity_moves hq⟩
  case addStableLiquidity =>
    unpack at hr; obtain ⟨_, _, _, hr, rfl, -⟩ := hr
    obtain ⟨_, _, _, _, _, _, -, -, hp, -, hq, -, -, -, -, -, rfl⟩ := addStableLiquidity_inv hr
    exact ⟨[], rfl, .one hp (one (Pool.addStable_moves (fees := c.fees none) hb hq))⟩
  case removeLiquidity =>
    unpack at hr; obtain ⟨_, _, hr, rfl, -⟩ := hr
    obtain ⟨_, _, _, _, _, -, -, hp, -, -, -, hq, -, -, rfl⟩ := removeLiquidity_inv hr
    exact ⟨[], rfl, .one hp (one (Pool.removeLiquidity_moves hq))⟩
  case removeByTokens =>
    unpack at hr; obtain ⟨_, _, hr, rfl, -⟩ := hr
    obtain ⟨_, _, _, _, _, -, -, hp, -, -, -, hq, -, -, rfl⟩ := removeByTokens_inv hr
    exact ⟨[], rfl, .one hp (one (Pool.removeByTokens_moves (fees := c.fees none) hb hq))⟩
  case registerTokens =>
    unpack at hr; obtain ⟨_, hr, rfl, -⟩ := hr
    obtain ⟨_, -, -, -, -, rfl⟩ := registerTokens_inv hr; exact ⟨[], rfl, .refl _ _ _ _ _ _⟩
  case unregisterTokens =>
    unpack at hr; obtain ⟨_, hr, rfl, -⟩ := hr
    obtain ⟨_, _, -, -, -, -, -, rfl⟩ := unregisterTokens_inv hr; exact ⟨[], rfl, .refl _ _ _ _ _ _⟩
  case withdraw =>
    obtain ⟨_, _, _, _, -, -, -, -, -, -, -, -, -, rfl, -⟩ := withdraw_inv hr
    exact ⟨[], rfl, .refl _ _ _ _ _ _⟩
  case claimLostfound =>
    obtain ⟨-, -, -, -, rfl, -⟩ := claimLostfound_inv hr; exact ⟨[], rfl, .refl _ _ _ _ _ _⟩
  case ftOnTransfer sender amount msg =>
    obtain ⟨-, -, ⟨rfl, -, g, -⟩ | ⟨_, actions, _, _, _, rfl, g⟩ | ⟨_, actions, _, rfl, -, g⟩⟩ :=
      ftOnTransfer_inv hr
    · obtain ⟨_, _, -, -, -, -, rfl⟩ := deposit_inv g
      exact ⟨[], rfl, .refl _ _ _ _ _ _⟩
    · obtain ⟨_, -, -, -, g, -⟩ := instantSwap_inv g
      obtain ⟨steps, res, hs, hf⟩ := directActions_opening g
      refine ⟨steps, ⟨res, _, hs, ?_⟩, hs.path hb id⟩
      cases actions with
      | nil => exact hf
      | cons a as => cases a <;> exact hf
    · obtain ⟨_, _, _, _, _, _, _, _, -, -, -, -, -, -, h2, hz, -, -, -, -, rfl⟩ := hotZap_inv g
      obtain ⟨steps, res, hs, hf⟩ := directActions_opening h2
      have hz := hz.path (b := b) (by rw [hs.framed.cfg]; exact hb) id
      rw [hs.framed.cfg] at hz
      refine ⟨steps, ⟨res, _, hs, ?_⟩, (hs.path hb id).trans hz⟩
      cases actions with
      | nil => exact hf
      | cons a as => cases a <;> exact hf
  case mftTransfer =>
    unpack at hr; obtain ⟨_, hr, rfl, -⟩ := hr
    obtain ⟨-, -, _, hr⟩ := mftTransfer_inv hr
    exact ⟨[], rfl, internalMftTransfer_path b _ id hr⟩
  case mftTransferCall =>
    obtain ⟨-, -, _, hr, -⟩ := mftTransferCall_inv hr
    exact ⟨[], rfl, internalMftTransfer_path b _ id hr⟩
  case mftRegister =>
    obtain ⟨_, _, _, _, -, -, hp, hq, -, rfl⟩ := mftRegister_inv hr
    exact ⟨[], rfl, .one hp fun _ => (Pool.shareRegister_only hq).1.moves (.shareRegister hq)⟩
  case mftUnregister =>
    obtain ⟨_, _, _, -, -, -, hp, hq, -, rfl⟩ := mftUnregister_inv hr
    exact ⟨[], rfl, .one hp fun _ => (Pool.shareUnregister_only hq).1.moves (.shareUnregister hq)⟩
  case storageDeposit =>
    obtain ⟨-, -, rfl | ⟨_, _, hr⟩⟩ := storageDeposit_inv hr
    · exact ⟨[], rfl, .refl _ _ _ _ _ _⟩
    · obtain ⟨_, -, -, -, -, rfl⟩ := registerAccount_inv hr; exact ⟨[], rfl, .refl _ _ _ _ _ _⟩
  case storageWithdraw =>
    obtain ⟨_, _, -, -, -, -, -, -, -, rfl⟩ := storageWithdraw_inv hr; exact ⟨[], rfl, .refl _ _ _ _ _ _⟩
  case storageUnregister =>
    obtain ⟨-, -, ⟨-, rfl, -⟩ | ⟨_, -, -, -, rfl, -⟩⟩ := storageUnregister_inv hr <;>
      exact ⟨[], rfl, .refl _ _ _ _ _ _⟩
  case shadowAction =>
    obtain ⟨_, _, _, _, -, -, -, -, -, -, -, ⟨-, rfl, -⟩ | ⟨-, _, _, _, -, -, -, rfl, -⟩⟩ :=
      shadowAction_inv hr <;> exact ⟨[], rfl, .refl _ _ _ _ _ _⟩
  case onBurrowLiquidation =>
    obtain ⟨_, _, _, _, _, _, _, _, _, _, _, -, -, hj, hp, -, -, -, -, -, -, -, -, hq, -, -, rfl,
      -⟩ := onBurrowLiquidation_inv hr
    refine ⟨[], rfl, ?_⟩
    simp only [Call.liquidity, hj]
    exact .one hp (one (Pool.removeLiquidity_moves hq))
  case donationShare j amount unregister =>
    obtain ⟨p, _, q, q', -, -, hp, -, -, hq, hu, -, hc⟩ := donationShare_inv hr
    have h1 : PoolsPath b c.cfg x.now id 0 c.pools (c.pools.set j q) :=
      .one hp fun _ => (Pool.shareTransfer_only hq).moves (.shareTransfer hq)
    have hk : PoolsPath b c.cfg x.now id 0 c.pools (c.pools.set j q') := by
      rcases hu with ⟨rfl, -⟩ | ⟨-, hu⟩
      · exact h1
      · have h2 : PoolsPath b c.cfg x.now id 0 (c.pools.set j q) ((c.pools.set j q).set j q') :=
          .one (by rw [getElem?_set_some hp, if_pos rfl]) fun _ =>
            (Pool.shareUnregister_only hu).1.moves (.shareUnregister hu)
        rw [List.set_set] at h2
        exact h1.trans h2
    rcases hc with rfl | ⟨_, _, -, -, -, rfl⟩ <;> exact ⟨[], rfl, hk⟩
  case donationToken =>
    unpack at hr; obtain ⟨_, hr, rfl, -⟩ := hr
    obtain ⟨_, _, _, _, _, _, -, -, -, -, -, -, -, -, -, -, rfl⟩ := donationToken_inv hr
    exact ⟨[], rfl, .refl _ _ _ _ _ _⟩
  case setting s =>
    unpack at hr; obtain ⟨_, hr, rfl, -⟩ := hr
    obtain ⟨g, h2, rfl⟩ := setting_inv hr
    exact ⟨[], rfl, .refl _ _ _ _ _ _⟩
  case retrieveUnmanaged =>
    unpack at hr; obtain ⟨_, hr, rfl, -⟩ := hr; exact ⟨[], rfl, .refl _ _ _ _ _ _⟩
  case modifyTotalFee =>
    unpack at hr; obtain ⟨_, hr, rfl, -⟩ := hr
    obtain ⟨_, -, -, hf, hp, rfl⟩ := modifyTotalFee_inv hr
    exact ⟨[], rfl, .one hp fun _ => Pool.setFee_moves hf⟩
  case removeExchangeFee =>
    unpack at hr; obtain ⟨_, hr, rfl, -⟩ := hr
    obtain ⟨_, _, _, _, _, -, -, -, hp, hq, -, -, -, rfl⟩ := removeExchangeFee_inv hr
    exact ⟨[], rfl, .one hp (one (Pool.removeLiquidity_moves hq))⟩
  case withdrawOwnerToken =>
    obtain ⟨_, _, -, -, -, -, -, -, rfl, -⟩ := withdrawOwnerToken_inv hr; exact ⟨[], rfl, .refl _ _ _ _ _ _⟩
  case rampAmp =>
    unpack at hr; obtain ⟨_, hr, rfl, -⟩ := hr
    obtain ⟨_, _, -, -, hp, hq, rfl⟩ := rampAmp_inv hr
    exact ⟨[], rfl, .one hp fun _ => (Pool.ramp_only hq).moves (.ramp hq)⟩
  case stopRampAmp =>
    unpack at hr; obtain ⟨_, hr, rfl, -⟩ := hr
    obtain ⟨_, _, -, -, hp, hq, rfl⟩ := stopRampAmp_inv hr
    exact ⟨[], rfl, .one hp fun _ => (Pool.stopRamp_only hq).moves (.stopRamp hq)⟩
  case registerTwap =>
    unpack at hr; obtain ⟨_, hr, rfl, -⟩ := hr
    obtain ⟨-, -, _, rfl⟩ := registerTwap_inv hr; exact ⟨[], rfl, .refl _ _ _ _ _ _⟩
  case unregisterTwap =>
    unpack at hr; obtain ⟨_, hr, rfl, -⟩ := hr
    obtain ⟨-, -, _, rfl⟩ := unregisterTwap_inv hr; exact ⟨[], rfl, .refl _ _ _ _ _ _⟩
  case syncTwap =>
    unpack at hr; obtain ⟨_, hr, rfl, -⟩ := hr
    obtain ⟨-, _, rfl⟩ := syncTwap_inv hr; exact ⟨[], rfl, .refl _ _ _ _ _ _⟩

theorem callback_path {c c' : Contract} {x : Ctx} {out : Out} {o : Outcome} {outs : List Out}
    (b t id : Nat) (hr : c.callback x out o = .ok (c', outs)) :
    PoolsPath b c.cfg t id 0 c.pools c'.pools := by
  cases out <;> simp only [callback] at hr
  case ft =>
    cases o <;> simp only [] at hr
    · cases hr; exact .refl _ _ _ _ _ _
    · unpack at hr; obtain ⟨_, hr, rfl, -⟩ := hr
      rw [(handleFail_same hr).2.2.1]; exact .refl _ _ _ _ _ _
  case ftCall =>
    cases o <;> simp only [] at hr
    · cases hr; exact .refl _ _ _ _ _ _
    · unpack at hr; obtain ⟨_, hr, rfl, -⟩ := hr
      rw [(handleFail_same hr).2.2.1]; exact .refl _ _ _ _ _ _
  case unwrap =>
    cases o <;> simp only [] at hr
    · cases hr; exact .refl _ _ _ _ _ _
    · unpack at hr; obtain ⟨_, -, _, hr, rfl, -⟩ := hr
      rw [(handleFail_same hr).2.2.1]; exact .refl _ _ _ _ _ _
  case mftCall =>
    unpack at hr; obtain ⟨_, _, hr, rfl, -⟩ := hr
    obtain ⟨-, rfl | ⟨_, _, -, -, -, hr⟩⟩ := mftResolve_inv hr
    · exact .refl _ _ _ _ _ _
    · exact internalMftTransfer_path b t id hr
  case shadow =>
    obtain ⟨-, rfl | ⟨_, -, rfl | ⟨_, _, -, -, -, -, rfl⟩⟩⟩ := callbackOnShadow_inv hr <;>
      exact .refl _ _ _ _ _ _
  all_goals (cases hr; exact .refl _ _ _ _ _ _)

theorem apply_path {c c' : Contract} {e : Event} {outs : List Out} {b : Nat}
    (hr : c.apply e = .ok (c', outs)) (hb : c.cfg.adminFeeBps ≤ b) (id : Nat) :
    ∃ steps, c.Makes e steps ∧
      PoolsPath b c.cfg e.now id (swapsOf steps id + e.liquidity.count id) c.pools c'.pools := by
  cases e <;> simp only [apply] at hr
  case call => exact exec_path hr hb id
  case callback => exact ⟨[], rfl, callback_path b _ id hr⟩
  case rate t r time =>
    cases hr; refine ⟨[], rfl, ?_⟩; unfold setRate; split <;> exact .refl _ _ _ _ _ _
  case price t p time =>
    cases hr; refine ⟨[], rfl, ?_⟩; unfold setDegenPrice; split <;> exact .refl _ _ _ _ _ _

end Contract
end Verif

import Verif.Exchange.Scope

/-
Two runs of the same code on states that agree on a scope: they take the same decisions, change both
states alike and touch nothing else. Lemmas for C78.
-/

namespace Verif

/-- Both computations end alike: with the same panic, or with results in relation. -/
def Rel {α β : Type} (φ : α → β → Prop) : R α → R β → Prop
  | .ok a, .ok b => φ a b
  | .error e, .error f => e = f
  | _, _ => False

namespace Rel

variable {α β α' β' : Type}

theorem bind {φ : α → β → Prop} {ψ : α' → β' → Prop} {r : R α} {s : R β} {f : α → R α'}
    {g : β → R β'} (h : Rel φ r s) (hf : ∀ a b, φ a b → Rel ψ (f a) (g b)) :
    Rel ψ (r >>= f) (s >>= g) := by
  cases r with
  | ok a =>
    cases s with
    | ok b => exact hf a b h
    | error e => exact h.elim
  | error e =>
    cases s with
    | ok b => exact h.elim
    | error e => exact h

theorem same {ψ : α' → β' → Prop} {r : R α} {f : α → R α'} {g : α → R β'}
    (hf : ∀ a, Rel ψ (f a) (g a)) : Rel ψ (r >>= f) (r >>= g) := by
  cases r with
  | ok a => exact hf a
  | error e => rfl

theorem ite {φ : α → β → Prop} {p : Prop} [Decidable p] {r r' : R α} {s s' : R β}
    (h : Rel φ r s) (h' : Rel φ r' s') : Rel φ (if p then r else r') (if p then s else s') := by
  split
  · exact h
  · exact h'

theorem mono {φ ψ : α → β → Prop} {r : R α} {s : R β} (h : Rel φ r s)
    (hm : ∀ a b, φ a b → ψ a b) : Rel ψ r s := by
  cases r <;> cases s <;> first | exact hm _ _ h | exact h

end Rel

theorem SameOff.refl (s : Scope) (c : Contract) : SameOff s c c :=
  ⟨rfl, rfl, fun _ _ => rfl, fun _ _ _ => rfl, rfl, fun _ _ => rfl, fun _ _ => rfl, fun _ _ => rfl⟩

/-- The two runs: `c` and `d` agree on the scope, and outside the scope they are as at the start. -/
structure Twin (s : Scope) (c0 d0 c d : Contract) : Prop where
  on : SameOn s c d
  left : SameOff s c0 c
  right : SameOff s d0 d

/-- The same for results with a value. -/
def TwinV {α : Type} (s : Scope) (c0 d0 : Contract) (p q : Contract × α) : Prop :=
  Twin s c0 d0 p.1 q.1 ∧ p.2 = q.2

namespace Contract

variable {s : Scope} {c0 d0 c d : Contract}

theorem _root_.Verif.Twin.start (h : SameOn s c d) : Twin s c d c d := ⟨h, .refl s c, .refl s d⟩

/-! ### Reading -/

theorem _root_.Verif.Twin.getAccount (h : Twin s c0 d0 c d) {a : AccountId} (ha : a ∈ s.accounts) :
    c.account a = d.account a := by
  unfold Contract.account
  rw [h.on.accounts a ha]

theorem _root_.Verif.Twin.getPool (h : Twin s c0 d0 c d) {i : Nat} (hi : i ∈ s.pools) :
    c.pool i = d.pool i := by
  unfold Contract.pool
  rw [h.on.pools i hi]

theorem _root_.Verif.Twin.fees (h : Twin s c0 d0 c d) (r : Option (AccountId × Nat)) :
    c.fees r = d.fees r := by
  unfold Contract.fees
  rw [h.on.cfg, h.on.self]

theorem _root_.Verif.Twin.referralInfo (h : Twin s c0 d0 c d) (r : Option AccountId) :
    c.referralInfo r = d.referralInfo r := by
  unfold Contract.referralInfo
  rw [h.on.cfg]

theorem _root_.Verif.Twin.sendTokens (h : Twin s c0 d0 c d) (to token : AccountId) (n : Nat)
    (u : Option Bool) : c.sendTokens to token n u = d.sendTokens to token n u := by
  unfold Contract.sendTokens
  rw [h.on.cfg]

/-! ### Writing -/

/-- A change that stays within the scope and is the same in both states. -/
theorem _root_.Verif.Twin.mk' {c' d' : Contract} (h : Twin s c0 d0 c d) (hon : SameOn s c' d')
    (hl : SameOff s c c') (hr : SameOff s d d') : Twin s c0 d0 c' d' := by
  have tr : ∀ {x y z : Contract}, SameOff s x y → SameOff s y z → SameOff s x z := fun u v =>
    ⟨u.self.trans v.self, u.cfg.trans v.cfg,
      fun a ha => (u.accounts a ha).trans (v.accounts a ha),
      fun a ha t => (u.lostfound a ha t).trans (v.lostfound a ha t),
      u.count.trans v.count,
      fun i hi => (u.pools i hi).trans (v.pools i hi),
      fun i hi => (u.twaps i hi).trans (v.twaps i hi),
      fun i hi => (u.volumes i hi).trans (v.volumes i hi)⟩
  exact ⟨hon, tr h.left hl, tr h.right hr⟩

theorem _root_.Verif.Twin.setPool (h : Twin s c0 d0 c d) {i : Nat} (hi : i ∈ s.pools) (p : Pool) :
    Twin s c0 d0 (c.setPool i p) (d.setPool i p) := by
  have off : ∀ e : Contract, SameOff s e (e.setPool i p) := fun e =>
    ⟨rfl, rfl, fun _ _ => rfl, fun _ _ _ => rfl, List.length_set.symm,
      fun j hj => by
        have hne : i ≠ j := fun h => hj (h ▸ hi)
        exact (List.getElem?_set_ne hne).symm,
      fun _ _ => rfl, fun _ _ => rfl⟩
  refine h.mk' ⟨h.on.self, h.on.cfg, h.on.accounts, h.on.lostfound, ?_, h.on.twaps, h.on.volumes⟩
    (off c) (off d)
  intro j hj
  show (c.pools.set i p)[j]? = (d.pools.set i p)[j]?
  by_cases hij : i = j
  · subst hij
    rw [List.getElem?_set_self', List.getElem?_set_self', h.on.pools i hi]
  · rw [List.getElem?_set_ne hij, List.getElem?_set_ne hij, h.on.pools j hj]

theorem _root_.Verif.Twin.putAccount (h : Twin s c0 d0 c d) {a : AccountId} (ha : a ∈ s.accounts)
    (acc : Account) : Twin s c0 d0 (c.putAccount a acc) (d.putAccount a acc) := by
  have off : ∀ e : Contract, SameOff s e (e.putAccount a acc) := fun e =>
    ⟨rfl, rfl, fun b hb => by
        have hne : b ≠ a := fun h => hb (h ▸ ha)
        exact (FMap.get?_insert_ne _ _ hne).symm,
      fun _ _ _ => rfl, rfl, fun _ _ => rfl, fun _ _ => rfl, fun _ _ => rfl⟩
  refine h.mk' ⟨h.on.self, h.on.cfg, ?_, h.on.lostfound, h.on.pools, h.on.twaps, h.on.volumes⟩
    (off c) (off d)
  intro b hb
  show (c.accounts.insert a acc).get? b = (d.accounts.insert a acc).get? b
  rw [FMap.get?_insert, FMap.get?_insert, h.on.accounts b hb]

theorem _root_.Verif.Twin.eraseAccount (h : Twin s c0 d0 c d) {a : AccountId}
    (ha : a ∈ s.accounts) : Twin s c0 d0 { c with accounts := c.accounts.erase a }
      { d with accounts := d.accounts.erase a } := by
  have off : ∀ e : Contract, SameOff s e { e with accounts := e.accounts.erase a } := fun e =>
    ⟨rfl, rfl, fun b hb => by
        have hne : b ≠ a := fun h => hb (h ▸ ha)
        exact (FMap.get?_erase_ne _ hne).symm,
      fun _ _ _ => rfl, rfl, fun _ _ => rfl, fun _ _ => rfl, fun _ _ => rfl⟩
  refine h.mk' ⟨h.on.self, h.on.cfg, ?_, h.on.lostfound, h.on.pools, h.on.twaps, h.on.volumes⟩
    (off c) (off d)
  intro b hb
  show (c.accounts.erase a).get? b = (d.accounts.erase a).get? b
  rw [FMap.get?_erase, FMap.get?_erase, h.on.accounts b hb]

theorem _root_.Verif.Twin.putLost (h : Twin s c0 d0 c d) {a : AccountId} (ha : a ∈ s.accounts)
    (t : AccountId) (n : Nat) : Twin s c0 d0 { c with lostfound := c.lostfound.insert (a, t) n }
      { d with lostfound := d.lostfound.insert (a, t) n } := by
  have off : ∀ e : Contract, SameOff s e { e with lostfound := e.lostfound.insert (a, t) n } :=
    fun e => ⟨rfl, rfl, fun _ _ => rfl, fun b hb u => by
        have hne : (b, u) ≠ (a, t) := fun h => hb ((Prod.mk.inj h).1 ▸ ha)
        exact (FMap.get?_insert_ne _ _ hne).symm,
      rfl, fun _ _ => rfl, fun _ _ => rfl, fun _ _ => rfl⟩
  refine h.mk' ⟨h.on.self, h.on.cfg, h.on.accounts, ?_, h.on.pools, h.on.twaps, h.on.volumes⟩
    (off c) (off d)
  intro b hb u
  show (c.lostfound.insert (a, t) n).get? (b, u) = (d.lostfound.insert (a, t) n).get? (b, u)
  rw [FMap.get?_insert, FMap.get?_insert, h.on.lostfound b hb u]

theorem _root_.Verif.Twin.eraseLost (h : Twin s c0 d0 c d) {a : AccountId} (ha : a ∈ s.accounts)
    (t : AccountId) : Twin s c0 d0 { c with lostfound := c.lostfound.erase (a, t) }
      { d with lostfound := d.lostfound.erase (a, t) } := by
  have off : ∀ e : Contract, SameOff s e { e with lostfound := e.lostfound.erase (a, t) } :=
    fun e => ⟨rfl, rfl, fun _ _ => rfl, fun b hb u => by
        have hne : (b, u) ≠ (a, t) := fun h => hb ((Prod.mk.inj h).1 ▸ ha)
        exact (FMap.get?_erase_ne _ hne).symm,
      rfl, fun _ _ => rfl, fun _ _ => rfl, fun _ _ => rfl⟩
  refine h.mk' ⟨h.on.self, h.on.cfg, h.on.accounts, ?_, h.on.pools, h.on.twaps, h.on.volumes⟩
    (off c) (off d)
  intro b hb u
  show (c.lostfound.erase (a, t)).get? (b, u) = (d.lostfound.erase (a, t)).get? (b, u)
  rw [FMap.get?_erase, FMap.get?_erase, h.on.lostfound b hb u]

theorem _root_.Verif.Twin.putTwap (h : Twin s c0 d0 c d) {i : Nat} (hi : i ∈ s.pools) (u : CumInfo) :
    Twin s c0 d0 { c with twaps := c.twaps.insert i u } { d with twaps := d.twaps.insert i u } := by
  have off : ∀ e : Contract, SameOff s e { e with twaps := e.twaps.insert i u } :=
    fun e => ⟨rfl, rfl, fun _ _ => rfl, fun _ _ _ => rfl, rfl, fun _ _ => rfl, fun j hj => by
        have hne : j ≠ i := fun h => hj (h ▸ hi)
        exact (FMap.get?_insert_ne _ _ hne).symm,
      fun _ _ => rfl⟩
  refine h.mk' ⟨h.on.self, h.on.cfg, h.on.accounts, h.on.lostfound, h.on.pools, ?_, h.on.volumes⟩
    (off c) (off d)
  intro j hj
  show (c.twaps.insert i u).get? j = (d.twaps.insert i u).get? j
  rw [FMap.get?_insert, FMap.get?_insert, h.on.twaps j hj]

theorem _root_.Verif.Twin.eraseTwap (h : Twin s c0 d0 c d) {i : Nat} (hi : i ∈ s.pools) :
    Twin s c0 d0 { c with twaps := c.twaps.erase i } { d with twaps := d.twaps.erase i } := by
  have off : ∀ e : Contract, SameOff s e { e with twaps := e.twaps.erase i } :=
    fun e => ⟨rfl, rfl, fun _ _ => rfl, fun _ _ _ => rfl, rfl, fun _ _ => rfl, fun j hj => by
        have hne : j ≠ i := fun h => hj (h ▸ hi)
        exact (FMap.get?_erase_ne _ hne).symm,
      fun _ _ => rfl⟩
  refine h.mk' ⟨h.on.self, h.on.cfg, h.on.accounts, h.on.lostfound, h.on.pools, ?_, h.on.volumes⟩
    (off c) (off d)
  intro j hj
  show (c.twaps.erase i).get? j = (d.twaps.erase i).get? j
  rw [FMap.get?_erase, FMap.get?_erase, h.on.twaps j hj]

theorem _root_.Verif.Twin.putVolume (h : Twin s c0 d0 c d) {i : Nat} (hi : i ∈ s.pools)
    (l : List (Nat × Nat)) : Twin s c0 d0 { c with volumes := c.volumes.insert (i % 2 ^ 32) l }
      { d with volumes := d.volumes.insert (i % 2 ^ 32) l } := by
  have off : ∀ e : Contract, SameOff s e { e with volumes := e.volumes.insert (i % 2 ^ 32) l } :=
    fun e => ⟨rfl, rfl, fun _ _ => rfl, fun _ _ _ => rfl, rfl, fun _ _ => rfl, fun _ _ => rfl,
      fun v hv => (FMap.get?_insert_ne _ _ (fun h => hv i hi h.symm)).symm⟩
  refine h.mk' ⟨h.on.self, h.on.cfg, h.on.accounts, h.on.lostfound, h.on.pools, h.on.twaps, ?_⟩
    (off c) (off d)
  intro j hj
  show (c.volumes.insert (i % 2 ^ 32) l).get? (j % 2 ^ 32) =
    (d.volumes.insert (i % 2 ^ 32) l).get? (j % 2 ^ 32)
  rw [FMap.get?_insert, FMap.get?_insert, h.on.volumes j hj]

theorem saveAccount_twin (h : Twin s c0 d0 c d) {a : AccountId} (ha : a ∈ s.accounts)
    (acc : Account) : Rel (Twin s c0 d0) (c.saveAccount a acc) (d.saveAccount a acc) :=
  Rel.same fun _ => h.putAccount ha acc

/-! ### Swaps -/

theorem twapHook_twin (h : Twin s c0 d0 c d) {i : Nat} (hi : i ∈ s.pools) (now : Nat) :
    Rel (Twin s c0 d0) (c.twapHook now i) (d.twapHook now i) := by
  unfold twapHook
  rw [h.on.twaps i hi, h.getPool hi, show c.cfg.recordInterval = d.cfg.recordInterval by rw [h.on.cfg]]
  cases d.twaps.get? i with
  | none => exact h
  | some u =>
    refine Rel.same fun p => Rel.same fun unit => ?_
    cases unit with
    | none => exact h
    | some amounts => exact Rel.same fun u' => h.putTwap hi u'

theorem recordVolume_twin (h : Twin s c0 d0 c d) {i : Nat} (hi : i ∈ s.pools) (p : Pool)
    (ti tout : AccountId) (a out : Nat) (vols : List (Nat × Nat)) :
    Rel (Twin s c0 d0) (c.recordVolume i p ti tout a out vols)
      (d.recordVolume i p ti tout a out vols) := by
  unfold recordVolume
  exact Rel.same fun _ => Rel.same fun _ => Rel.same fun _ => Rel.same fun _ => Rel.same fun _ =>
    Rel.same fun _ => h.putVolume hi _

theorem volumesOf_twin (h : Twin s c0 d0 c d) {i : Nat} (hi : i ∈ s.pools) (p : Pool) :
    c.volumesOf i p = d.volumesOf i p := by
  unfold volumesOf
  rw [h.on.volumes i hi]

theorem poolSwap_twin (h : Twin s c0 d0 c d) {i : Nat} (hi : i ∈ s.pools) (now : Nat)
    (ref : Option (AccountId × Nat)) (ti : AccountId) (a : Nat) (tout : AccountId) (m : Nat) :
    Rel (TwinV s c0 d0) (c.poolSwap now ref i ti a tout m) (d.poolSwap now ref i ti a tout m) := by
  unfold poolSwap
  refine Rel.bind (twapHook_twin h hi now) fun c d h => ?_
  rw [h.getPool hi, h.fees, h.on.cfg]
  refine Rel.same fun p => Rel.same fun r => ?_
  simp only
  rw [volumesOf_twin h hi]
  exact Rel.bind (recordVolume_twin h hi _ _ _ _ _ _) fun c d h => ⟨h.setPool hi _, rfl⟩

theorem poolSwapByOutput_twin (h : Twin s c0 d0 c d) {i : Nat} (hi : i ∈ s.pools) (now : Nat)
    (ref : Option (AccountId × Nat)) (ti : AccountId) (out : Nat) (tout : AccountId)
    (m : Option Nat) : Rel (TwinV s c0 d0) (c.poolSwapByOutput now ref i ti out tout m)
      (d.poolSwapByOutput now ref i ti out tout m) := by
  unfold poolSwapByOutput
  refine Rel.bind (twapHook_twin h hi now) fun c d h => ?_
  rw [h.getPool hi, h.fees]
  refine Rel.same fun p => Rel.same fun r => ?_
  simp only
  rw [volumesOf_twin h hi]
  exact Rel.bind (recordVolume_twin h hi _ _ _ _ _ _) fun c d h => ⟨h.setPool hi _, rfl⟩

theorem runSwaps_twin (now : Nat) (ref : Option (AccountId × Nat)) (l : List SwapAction) :
    ∀ {c d : Contract} (acc : Account) (prev : ActionResult), Twin s c0 d0 c d →
      (∀ a ∈ l, a.pool ∈ s.pools) →
      Rel (TwinV s c0 d0) (c.runSwaps now ref acc prev l) (d.runSwaps now ref acc prev l) := by
  induction l with
  | nil => exact fun _ _ h _ => ⟨h, rfl⟩
  | cons a l ih =>
    intro c d acc prev h hl
    refine Rel.same fun n => Rel.same fun acc => ?_
    refine Rel.bind (poolSwap_twin h (hl a List.mem_cons_self) _ _ _ _ _ _) ?_
    rintro ⟨c, out⟩ ⟨d, out'⟩ ⟨h, he⟩
    cases (he : out = out')
    exact Rel.same fun acc => ih acc _ h fun b hb => hl b (List.mem_cons_of_mem _ hb)

theorem runOuts_twin (now : Nat) (ref : Option (AccountId × Nat)) (l : List OutAction) :
    ∀ {c d : Contract} (acc : Account) (prev : Option AccountId) (res : ActionResult),
      Twin s c0 d0 c d → (∀ a ∈ l, a.pool ∈ s.pools) →
      Rel (TwinV s c0 d0) (c.runOuts now ref acc prev res l) (d.runOuts now ref acc prev res l) := by
  induction l with
  | nil => exact fun _ _ _ h _ => Rel.same fun acc => ⟨h, rfl⟩
  | cons a l ih =>
    intro c d acc prev res h hl
    refine Rel.same fun acc => Rel.same fun n => ?_
    refine Rel.bind (poolSwapByOutput_twin h (hl a List.mem_cons_self) _ _ _ _ _ _) ?_
    rintro ⟨c, out⟩ ⟨d, out'⟩ ⟨h, he⟩
    cases (he : out = out')
    exact ih acc _ _ h fun b hb => hl b (List.mem_cons_of_mem _ hb)

theorem runActions_twin (h : Twin s c0 d0 c d) (now : Nat) (ref : Option (AccountId × Nat))
    (acc : Account) (prev : ActionResult) (l : List Action) (hl : ∀ a ∈ l, a.pool ∈ s.pools) :
    Rel (TwinV s c0 d0) (c.runActions now ref acc prev l) (d.runActions now ref acc prev l) := by
  have h1 : ∀ a ∈ l.filterMap Action.asSwap, a.pool ∈ s.pools := by
    intro a ha
    obtain ⟨b, hb, he⟩ := List.mem_filterMap.1 ha
    cases b with
    | swap b => cases he; exact hl _ hb
    | byOutput b => cases he
  have h2 : ∀ a ∈ l.filterMap Action.asOut, a.pool ∈ s.pools := by
    intro a ha
    obtain ⟨b, hb, he⟩ := List.mem_filterMap.1 ha
    cases b with
    | swap b => cases he
    | byOutput b => cases he; exact hl _ hb
  unfold runActions
  rw [h.on.cfg]
  refine Rel.same fun _ => Rel.same fun _ => ?_
  cases l with
  | nil => exact rfl
  | cons a l =>
    cases a with
    | swap _ => exact runSwaps_twin _ _ _ _ _ h h1
    | byOutput _ => exact runOuts_twin _ _ _ _ _ _ h h2

theorem directActions_twin (h : Twin s c0 d0 c d) (now : Nat) (ref : Option AccountId)
    (t : AccountId) (n : Nat) (l : List Action) (hl : ∀ a ∈ l, a.pool ∈ s.pools) :
    Rel (TwinV s c0 d0) (c.directActions now ref t n l) (d.directActions now ref t n l) := by
  unfold directActions
  rw [h.referralInfo]
  refine Rel.same fun acc => Rel.same fun prev => ?_
  refine Rel.bind (runActions_twin h _ _ _ _ _ hl) ?_
  rintro ⟨c, r⟩ ⟨d, r'⟩ ⟨h, he⟩
  cases (he : r = r')
  exact ⟨h, rfl⟩

theorem executeActions_twin (h : Twin s c0 d0 c d) (x : Ctx) (l : List Action)
    (ref : Option AccountId) (hx : x.pred ∈ s.accounts) (hl : ∀ a ∈ l, a.pool ∈ s.pools) :
    Rel (TwinV s c0 d0) (c.executeActions x l ref) (d.executeActions x l ref) := by
  unfold executeActions assertTokensAllowed
  rw [h.on.cfg, h.getAccount hx, h.referralInfo]
  refine Rel.same fun _ => Rel.same fun _ => Rel.same fun acc => Rel.same fun _ => ?_
  refine Rel.bind (runActions_twin h _ _ _ _ _ hl) ?_
  rintro ⟨c, r⟩ ⟨d, r'⟩ ⟨h, he⟩
  cases (he : r = r')
  exact Rel.bind (saveAccount_twin h hx _) fun _ _ h => ⟨h, rfl⟩

theorem executeInVa_twin (h : Twin s c0 d0 c d) (x : Ctx) (uses : List (AccountId × Nat))
    (l : List Action) (ref : Option AccountId) (hx : x.pred ∈ s.accounts)
    (hl : ∀ a ∈ l, a.pool ∈ s.pools) :
    Rel (TwinV s c0 d0) (c.executeInVa x uses l ref) (d.executeInVa x uses l ref) := by
  unfold executeInVa assertTokensAllowed
  rw [h.on.cfg, h.getAccount hx, h.referralInfo]
  refine Rel.same fun _ => Rel.same fun _ => Rel.same fun acc => Rel.same fun _ =>
    Rel.same fun r => ?_
  refine Rel.bind (runActions_twin h _ _ _ _ _ hl) ?_
  rintro ⟨c, r⟩ ⟨d, r'⟩ ⟨h, he⟩
  cases (he : r = r')
  exact Rel.same fun acc => Rel.bind (saveAccount_twin h hx _) fun _ _ h => ⟨h, rfl⟩

/-! ### Liquidity -/

theorem addLiquidity_twin (h : Twin s c0 d0 c d) (x : Ctx) {i : Nat} (amounts : List Nat)
    (mins : Option (List Nat)) (hx : x.pred ∈ s.accounts) (hi : i ∈ s.pools) :
    Rel (TwinV s c0 d0) (c.addLiquidity x i amounts mins) (d.addLiquidity x i amounts mins) := by
  unfold addLiquidity
  rw [h.on.cfg]
  refine Rel.same fun _ => Rel.same fun _ => Rel.bind (twapHook_twin h hi _) fun c d h => ?_
  rw [h.getPool hi, h.on.cfg, h.getAccount hx]
  refine Rel.same fun p => Rel.same fun _ => Rel.same fun r => Rel.same fun _ =>
    Rel.same fun acc => Rel.same fun acc => ?_
  exact Rel.bind (saveAccount_twin h hx _) fun c d h => Rel.same fun _ => ⟨h.setPool hi _, rfl⟩

theorem addStableLiquidity_twin (h : Twin s c0 d0 c d) (x : Ctx) {i : Nat} (amounts : List Nat)
    (m : Nat) (hx : x.pred ∈ s.accounts) (hi : i ∈ s.pools) :
    Rel (TwinV s c0 d0) (c.addStableLiquidity x i amounts m)
      (d.addStableLiquidity x i amounts m) := by
  unfold addStableLiquidity
  rw [h.on.cfg]
  refine Rel.same fun _ => Rel.same fun _ => Rel.bind (twapHook_twin h hi _) fun c d h => ?_
  rw [h.getPool hi, h.on.cfg, h.getAccount hx, h.fees]
  refine Rel.same fun p => Rel.same fun _ => Rel.same fun r => Rel.same fun _ =>
    Rel.same fun acc => Rel.same fun acc => ?_
  exact Rel.bind (saveAccount_twin h hx _) fun c d h => Rel.same fun _ => ⟨h.setPool hi _, rfl⟩

theorem removeLiquidity_twin (h : Twin s c0 d0 c d) (x : Ctx) {i : Nat} (n : Nat) (mins : List Nat)
    (hx : x.pred ∈ s.accounts) (hi : i ∈ s.pools) :
    Rel (TwinV s c0 d0) (c.removeLiquidity x i n mins) (d.removeLiquidity x i n mins) := by
  unfold removeLiquidity
  rw [h.on.cfg]
  refine Rel.same fun _ => Rel.same fun _ => Rel.bind (twapHook_twin h hi _) fun c d h => ?_
  rw [h.getPool hi, h.on.cfg, h.getAccount hx]
  refine Rel.same fun p => Rel.same fun acc => Rel.same fun _ => Rel.same fun _ =>
    Rel.same fun r => Rel.same fun acc => ?_
  exact Rel.bind (saveAccount_twin (h.setPool hi _) hx _) fun c d h => ⟨h, rfl⟩

theorem removeByTokens_twin (h : Twin s c0 d0 c d) (x : Ctx) {i : Nat} (amounts : List Nat) (m : Nat)
    (hx : x.pred ∈ s.accounts) (hi : i ∈ s.pools) :
    Rel (TwinV s c0 d0) (c.removeByTokens x i amounts m) (d.removeByTokens x i amounts m) := by
  unfold removeByTokens
  rw [h.on.cfg]
  refine Rel.same fun _ => Rel.same fun _ => Rel.bind (twapHook_twin h hi _) fun c d h => ?_
  rw [h.getPool hi, h.on.cfg, h.getAccount hx, h.fees]
  refine Rel.same fun p => Rel.same fun acc => Rel.same fun _ => Rel.same fun _ =>
    Rel.same fun r => Rel.same fun _ => Rel.same fun acc => ?_
  exact Rel.bind (saveAccount_twin (h.setPool hi _) hx _) fun c d h => ⟨h, rfl⟩

/-! ### Deposits and withdrawals -/

theorem registerTokens_twin (h : Twin s c0 d0 c d) (x : Ctx) (l : List AccountId)
    (hx : x.pred ∈ s.accounts) :
    Rel (Twin s c0 d0) (c.registerTokens x l) (d.registerTokens x l) := by
  unfold registerTokens
  rw [h.on.cfg, h.getAccount hx]
  exact Rel.same fun _ => Rel.same fun _ => Rel.same fun acc => saveAccount_twin h hx _

theorem unregisterTokens_twin (h : Twin s c0 d0 c d) (x : Ctx) (l : List AccountId)
    (hx : x.pred ∈ s.accounts) :
    Rel (Twin s c0 d0) (c.unregisterTokens x l) (d.unregisterTokens x l) := by
  unfold unregisterTokens
  rw [h.on.cfg, h.getAccount hx]
  exact Rel.same fun _ => Rel.same fun _ => Rel.same fun _ => Rel.same fun _ =>
    saveAccount_twin h hx _

theorem withdraw_twin (h : Twin s c0 d0 c d) (x : Ctx) (t : AccountId) (n : Nat) (u : Bool)
    (k : Option Bool) (hx : x.pred ∈ s.accounts) :
    Rel (TwinV s c0 d0) (c.withdraw x t n u k) (d.withdraw x t n u k) := by
  unfold withdraw
  rw [h.on.cfg, h.getAccount hx]
  refine Rel.same fun _ => Rel.same fun _ => Rel.same fun _ => Rel.same fun _ =>
    Rel.same fun _ => Rel.same fun _ => Rel.same fun _ => Rel.same fun _ => ?_
  refine Rel.bind (saveAccount_twin h hx _) fun c d h => ⟨h, ?_⟩
  simp only [h.sendTokens]

theorem claimLostfound_twin (h : Twin s c0 d0 c d) (x : Ctx) (t : AccountId)
    (hx : x.pred ∈ s.accounts) :
    Rel (TwinV s c0 d0) (c.claimLostfound x t) (d.claimLostfound x t) := by
  have hn : c.lostfound.getD (x.pred, t) 0 = d.lostfound.getD (x.pred, t) 0 := by
    unfold FMap.getD
    rw [h.on.lostfound _ hx]
  have h' := h.eraseLost hx t
  unfold claimLostfound
  simp only
  rw [hn, show c.cfg.assertRunning = d.cfg.assertRunning by rw [h.on.cfg],
    show c.cfg.assertNoFrozen [t] = d.cfg.assertNoFrozen [t] by rw [h.on.cfg]]
  exact Rel.same fun _ => Rel.same fun _ => Rel.same fun _ => Rel.same fun _ =>
    ⟨h', by simp only [h'.sendTokens]⟩

theorem deposit_twin (h : Twin s c0 d0 c d) (a t : AccountId) (n : Nat) (ha : a ∈ s.accounts) :
    Rel (Twin s c0 d0) (c.deposit a t n) (d.deposit a t n) := by
  unfold deposit
  rw [h.on.cfg, h.getAccount ha]
  exact Rel.same fun _ => Rel.same fun _ => Rel.same fun _ => saveAccount_twin h ha _

theorem instantSwap_twin (h : Twin s c0 d0 c d) (now : Nat) (t a : AccountId) (n : Nat)
    (ref : Option AccountId) (l : List Action) (echo : Bool) (k : Option Bool)
    (to : Option AccountId) (hl : ∀ a ∈ l, a.pool ∈ s.pools) :
    Rel (TwinV s c0 d0) (c.instantSwap now t a n ref l echo k to)
      (d.instantSwap now t a n ref l echo k to) := by
  unfold instantSwap
  rw [h.on.cfg]
  refine Rel.same fun _ => Rel.same fun _ => ?_
  suffices key : Rel (TwinV s c0 d0) (c.directActions now ref t n l >>= fun r => do
        assertE (echo = true → a = r.1.cfg.burrowland → r.2.length = 1) .other
        .ok (r.1, r.2.map (r.1.payOut a echo k to)))
      (d.directActions now ref t n l >>= fun r => do
        assertE (echo = true → a = r.1.cfg.burrowland → r.2.length = 1) .other
        .ok (r.1, r.2.map (r.1.payOut a echo k to))) from
    Rel.ite (Rel.same fun _ => key) (Rel.same fun _ => key)
  refine Rel.bind (directActions_twin h _ _ _ _ _ hl) ?_
  rintro ⟨c, r⟩ ⟨d, r'⟩ ⟨h, he⟩
  cases (he : r = r')
  simp only
  rw [h.on.cfg]
  refine Rel.same fun _ => ⟨h, ?_⟩
  have hp : c.payOut a echo k to = d.payOut a echo k to := by
    funext p
    unfold payOut
    rw [h.sendTokens]
  simp only [hp]

theorem infoTokens_twin (h : Twin s c0 d0 c d) (l : List AddInfo)
    (hl : ∀ i ∈ l, i.pool ∈ s.pools) : c.infoTokens l = d.infoTokens l := by
  induction l with
  | nil => rfl
  | cons i l ih =>
    unfold infoTokens
    rw [h.getPool (hl i List.mem_cons_self), ih fun j hj => hl j (List.mem_cons_of_mem _ hj)]

theorem zapLoop_twin (now : Nat) (a : AccountId) (l : List AddInfo) :
    ∀ {c d : Contract} (cache : TokenCache), Twin s c0 d0 c d → (∀ i ∈ l, i.pool ∈ s.pools) →
      Rel (TwinV s c0 d0) (c.zapLoop now a cache l) (d.zapLoop now a cache l) := by
  induction l with
  | nil => exact fun _ h _ => ⟨h, rfl⟩
  | cons i l ih =>
    intro c d cache h hl
    have hi := hl i List.mem_cons_self
    have hz : ∀ p, c.zapAdd now a i p = d.zapAdd now a i p := by
      intro p
      unfold zapAdd
      rw [h.fees, h.on.cfg]
    have e : ∀ c : Contract, c.zapLoop now a cache (i :: l) = (do
        let p ← c.pool i.pool
        let (q, used) ← c.zapAdd now a i p
        q.assertTvl (c.cfg.limits.get? i.pool) (c.cfg.env now q)
        let cache ← TokenCache.subAll cache p.tokens used
        zapLoop (c.setPool i.pool q) now a cache l) := fun _ => rfl
    rw [e, e, h.getPool hi, h.on.cfg, funext hz]
    exact Rel.same fun p => Rel.same fun r => Rel.same fun _ => Rel.same fun cache =>
      ih cache (h.setPool hi _) fun j hj => hl j (List.mem_cons_of_mem _ hj)

theorem hotZap_twin (h : Twin s c0 d0 c d) (x : Ctx) (a : AccountId) (n : Nat)
    (ref : Option AccountId) (l : List Action) (is : List AddInfo) (ha : a ∈ s.accounts)
    (hl : ∀ a ∈ l, a.pool ∈ s.pools) (hi : ∀ i ∈ is, i.pool ∈ s.pools) :
    Rel (Twin s c0 d0) (c.hotZap x a n ref l is) (d.hotZap x a n ref l is) := by
  unfold hotZap
  rw [h.on.cfg, h.getAccount ha, infoTokens_twin h is hi]
  refine Rel.same fun _ => Rel.same fun acc => Rel.same fun ts => Rel.same fun _ =>
    Rel.same fun _ => ?_
  refine Rel.bind (directActions_twin h _ _ _ _ _ hl) ?_
  rintro ⟨c, r⟩ ⟨d, r'⟩ ⟨h, he⟩
  cases (he : r = r')
  refine Rel.same fun cache => ?_
  refine Rel.bind (zapLoop_twin _ _ _ _ h hi) ?_
  rintro ⟨c, r⟩ ⟨d, r'⟩ ⟨h, he⟩
  cases (he : r = r')
  exact Rel.same fun _ => Rel.same fun _ => saveAccount_twin h ha _

/-! ### Internal transfers -/

theorem freeShares_twin (h : Twin s c0 d0 c d) {a : AccountId} (ha : a ∈ s.accounts) (i n : Nat) :
    c.freeShares a i n = d.freeShares a i n := by
  unfold freeShares
  rw [h.on.accounts a ha]

theorem internalMftTransfer_twin (h : Twin s c0 d0 c d) (t : List Char) {a b : AccountId}
    (n : Option Nat) (ha : a ∈ s.accounts) (hb : b ∈ s.accounts)
    (ht : ∀ i ∈ poolsOf t, i ∈ s.pools) :
    Rel (TwinV s c0 d0) (c.internalMftTransfer t a b n) (d.internalMftTransfer t a b n) := by
  unfold internalMftTransfer
  refine Rel.same fun _ => ?_
  unfold poolsOf at ht
  cases hp : parseTokenId t with
  | pool i =>
    rw [hp] at ht
    have hi : i ∈ s.pools := ht i List.mem_cons_self
    unfold transferShares
    simp only
    rw [h.getPool hi, funext fun p => funext fun q => freeShares_twin h ha p q]
    exact Rel.same fun p => Rel.same fun _ => Rel.same fun _ => Rel.same fun _ =>
      Rel.same fun q => ⟨h.setPool hi _, rfl⟩
  | token t =>
    unfold transferToken
    simp only
    rw [h.getAccount ha, h.getAccount hb]
    exact Rel.same fun _ => Rel.same fun _ => Rel.same fun _ => Rel.same fun _ =>
      Rel.same fun _ => Rel.bind (saveAccount_twin h ha _) fun c d h =>
        Rel.bind (saveAccount_twin h hb _) fun c d h => ⟨h, rfl⟩

theorem mftBalance_twin (h : Twin s c0 d0 c d) (t : List Char) {a : AccountId}
    (ha : a ∈ s.accounts) (ht : ∀ i ∈ poolsOf t, i ∈ s.pools) :
    c.mftBalance t a = d.mftBalance t a := by
  unfold mftBalance
  unfold poolsOf at ht
  cases hp : parseTokenId t with
  | pool i =>
    rw [hp] at ht
    have hi : i ∈ s.pools := ht i List.mem_cons_self
    simp only
    rw [h.getPool hi]
  | token t =>
    simp only
    rw [h.on.accounts a ha]

theorem mftTransfer_twin (h : Twin s c0 d0 c d) (x : Ctx) (t : List Char) {b : AccountId}
    (n : Nat) (ha : x.pred ∈ s.accounts) (hb : b ∈ s.accounts)
    (ht : ∀ i ∈ poolsOf t, i ∈ s.pools) :
    Rel (Twin s c0 d0) (c.mftTransfer x t b n) (d.mftTransfer x t b n) := by
  unfold mftTransfer
  rw [h.on.cfg]
  refine Rel.same fun _ => Rel.same fun _ => ?_
  exact Rel.bind (internalMftTransfer_twin h t _ ha hb ht) fun _ _ h => h.1

theorem mftTransferCall_twin (h : Twin s c0 d0 c d) (x : Ctx) (t : List Char) {b : AccountId}
    (n : Option Nat) (ha : x.pred ∈ s.accounts) (hb : b ∈ s.accounts)
    (ht : ∀ i ∈ poolsOf t, i ∈ s.pools) :
    Rel (TwinV s c0 d0) (c.mftTransferCall x t b n) (d.mftTransferCall x t b n) := by
  unfold mftTransferCall
  rw [h.on.cfg]
  refine Rel.same fun _ => Rel.same fun _ => ?_
  refine Rel.bind (internalMftTransfer_twin h t _ ha hb ht) ?_
  rintro ⟨c, r⟩ ⟨d, r'⟩ ⟨h, he⟩
  cases (he : r = r')
  exact ⟨h, rfl⟩

theorem mftRegister_twin (h : Twin s c0 d0 c d) (x : Ctx) (t : List Char) (a : AccountId)
    (ht : ∀ i ∈ poolsOf t, i ∈ s.pools) :
    Rel (TwinV s c0 d0) (c.mftRegister x t a) (d.mftRegister x t a) := by
  unfold mftRegister
  rw [h.on.cfg]
  refine Rel.same fun _ => ?_
  unfold poolsOf at ht
  cases hp : parseTokenId t with
  | token _ => exact rfl
  | pool i =>
    rw [hp] at ht
    have hi : i ∈ s.pools := ht i List.mem_cons_self
    simp only
    rw [h.getPool hi]
    exact Rel.same fun _ => Rel.same fun _ => Rel.same fun _ => ⟨h.setPool hi _, rfl⟩

theorem mftUnregister_twin (h : Twin s c0 d0 c d) (x : Ctx) (t : List Char)
    (ht : ∀ i ∈ poolsOf t, i ∈ s.pools) :
    Rel (TwinV s c0 d0) (c.mftUnregister x t) (d.mftUnregister x t) := by
  unfold mftUnregister
  rw [h.on.cfg]
  refine Rel.same fun _ => Rel.same fun _ => ?_
  unfold poolsOf at ht
  cases hp : parseTokenId t with
  | token _ => exact rfl
  | pool i =>
    rw [hp] at ht
    have hi : i ∈ s.pools := ht i List.mem_cons_self
    simp only
    rw [h.getPool hi]
    exact Rel.same fun _ => Rel.same fun _ => ⟨h.setPool hi _, rfl⟩

/-! ### Storage deposits -/

theorem registerAccount_twin (h : Twin s c0 d0 c d) {a : AccountId} (ha : a ∈ s.accounts) (n : Nat) :
    Rel (Twin s c0 d0) (c.registerAccount a n) (d.registerAccount a n) := by
  unfold registerAccount accountOrNew
  rw [h.on.accounts a ha]
  exact Rel.same fun _ => saveAccount_twin h ha _

theorem storageDeposit_twin (h : Twin s c0 d0 c d) (x : Ctx) (a : Option AccountId) (only : Bool)
    (ha : a.getD x.pred ∈ s.accounts) :
    Rel (TwinV s c0 d0) (c.storageDeposit x a only) (d.storageDeposit x a only) := by
  unfold storageDeposit FMap.contains
  simp only
  rw [h.on.cfg, h.on.accounts _ ha]
  generalize Account.minStorageUsage = m
  refine Rel.same fun _ => Rel.same fun _ => Rel.ite (Rel.ite ⟨h, rfl⟩ ?_) ?_
  · exact Rel.bind (registerAccount_twin h ha _) fun c d h => Rel.same fun _ => ⟨h, rfl⟩
  · exact Rel.bind (registerAccount_twin h ha _) fun c d h => ⟨h, rfl⟩

theorem storageWithdraw_twin (h : Twin s c0 d0 c d) (x : Ctx) (n : Nat) (hx : x.pred ∈ s.accounts) :
    Rel (TwinV s c0 d0) (c.storageWithdraw x n) (d.storageWithdraw x n) := by
  unfold storageWithdraw
  rw [h.on.cfg, h.getAccount hx]
  exact Rel.same fun _ => Rel.same fun _ => Rel.same fun _ => Rel.same fun _ => Rel.same fun _ =>
    Rel.bind (saveAccount_twin h hx _) fun c d h => ⟨h, rfl⟩

theorem storageUnregister_twin (h : Twin s c0 d0 c d) (x : Ctx) (hx : x.pred ∈ s.accounts) :
    Rel (TwinV s c0 d0) (c.storageUnregister x) (d.storageUnregister x) := by
  unfold storageUnregister
  rw [h.on.accounts _ hx, show c.cfg.assertRunning = d.cfg.assertRunning by rw [h.on.cfg]]
  refine Rel.same fun _ => Rel.same fun _ => ?_
  cases d.accounts.get? x.pred with
  | none => exact ⟨h, rfl⟩
  | some acc => exact Rel.same fun _ => ⟨h.eraseAccount hx, rfl⟩

/-! ### Shadow positions and donations -/

theorem shadowAction_twin (h : Twin s c0 d0 c d) (x : Ctx) (act : ShadowAction) {i : Nat}
    (n : Option Nat) (hx : x.pred ∈ s.accounts) (hi : i ∈ s.pools) :
    Rel (TwinV s c0 d0) (c.shadowAction x act i n) (d.shadowAction x act i n) := by
  unfold shadowAction
  rw [h.on.cfg, h.getAccount hx, h.getPool hi]
  refine Rel.same fun _ => Rel.same fun _ => Rel.same fun _ => Rel.same fun _ => Rel.same fun _ =>
    Rel.same fun _ => ?_
  cases act with
  | toFarming | toBurrowland =>
    exact Rel.same fun _ => Rel.bind (saveAccount_twin h hx _) fun c d h =>
      Rel.same fun _ => ⟨h, rfl⟩
  | fromFarming | fromBurrowland => exact ⟨h, rfl⟩

theorem onBurrowLiquidation_twin (h : Twin s c0 d0 c d) (x : Ctx) {l b : AccountId} (t : List Char)
    (n : Nat) (mins : List Nat) (hl : l ∈ s.accounts) (hb : b ∈ s.accounts)
    (ht : ∀ i, shadowIdToPoolId t = .ok i → i ∈ s.pools) :
    Rel (TwinV s c0 d0) (c.onBurrowLiquidation x l b t n mins)
      (d.onBurrowLiquidation x l b t n mins) := by
  unfold onBurrowLiquidation
  rw [h.on.cfg, h.getAccount hb]
  refine Rel.same fun _ => Rel.same fun _ => ?_
  cases hp : shadowIdToPoolId t with
  | error e => exact rfl
  | ok i =>
    have hi := ht i hp
    simp only [ok_bind]
    rw [h.getPool hi]
    refine Rel.same fun _ => Rel.same fun _ => Rel.same fun _ => Rel.same fun _ =>
      Rel.same fun _ => Rel.same fun _ => Rel.same fun _ => ?_
    refine Rel.bind (saveAccount_twin h hb _) fun c d h => ?_
    rw [h.getAccount hl]
    refine Rel.same fun _ => Rel.same fun _ => Rel.same fun _ => ?_
    exact Rel.bind (saveAccount_twin (h.setPool hi _) hl _) fun c d h => ⟨h, rfl⟩

theorem donationShare_twin (h : Twin s c0 d0 c d) (x : Ctx) {i : Nat} (n : Option Nat) (u : Bool)
    (hx : x.pred ∈ s.accounts) (hi : i ∈ s.pools) :
    Rel (TwinV s c0 d0) (c.donationShare x i n u) (d.donationShare x i n u) := by
  unfold donationShare
  rw [h.on.cfg, h.getPool hi, h.on.self]
  refine Rel.same fun _ => Rel.same fun _ => Rel.same fun _ => Rel.same fun _ =>
    Rel.same fun _ => Rel.same fun q => ?_
  have h' := h.setPool hi q
  refine Rel.ite ?_ ⟨h', rfl⟩
  rw [h'.on.accounts _ hx]
  cases (d.setPool i q).accounts.get? x.pred with
  | none => exact ⟨h', rfl⟩
  | some acc =>
    exact Rel.same fun _ => Rel.bind (saveAccount_twin h' hx _) fun c d h => ⟨h, rfl⟩

theorem donationToken_twin (h : Twin s c0 d0 c d) (x : Ctx) (t : AccountId) (n : Option Nat)
    (u : Bool) (hx : x.pred ∈ s.accounts) (ho : d.cfg.owner ∈ s.accounts) :
    Rel (Twin s c0 d0) (c.donationToken x t n u) (d.donationToken x t n u) := by
  unfold donationToken
  rw [h.on.cfg, h.getAccount hx]
  refine Rel.same fun _ => Rel.same fun _ => Rel.same fun _ => Rel.same fun _ =>
    Rel.same fun _ => Rel.same fun _ => Rel.same fun _ => ?_
  refine Rel.bind (φ := fun c' d' => Twin s c0 d0 c' d' ∧ d'.cfg = d.cfg)
    (Rel.same fun _ => ⟨h.putAccount hx _, rfl⟩) fun c d' ⟨h, hc⟩ => ?_
  rw [h.on.cfg, hc, h.getAccount ho]
  exact Rel.same fun _ => Rel.same fun _ => h.putAccount ho _

/-! ### Management -/

theorem modifyTotalFee_twin (h : Twin s c0 d0 c d) (x : Ctx) {i : Nat} (f : Nat)
    (hi : i ∈ s.pools) : Rel (Twin s c0 d0) (c.modifyTotalFee x i f) (d.modifyTotalFee x i f) := by
  unfold modifyTotalFee
  rw [h.on.cfg, h.getPool hi]
  exact Rel.same fun _ => Rel.same fun _ => Rel.same fun _ => Rel.same fun _ => h.setPool hi _

theorem removeExchangeFee_twin (h : Twin s c0 d0 c d) (x : Ctx) {i : Nat} (n : Nat)
    (mins : List Nat) (hi : i ∈ s.pools) (ho : d.cfg.owner ∈ s.accounts) :
    Rel (Twin s c0 d0) (c.removeExchangeFee x i n mins) (d.removeExchangeFee x i n mins) := by
  unfold removeExchangeFee
  rw [h.on.cfg, h.getPool hi, h.on.self, h.getAccount ho]
  exact Rel.same fun _ => Rel.same fun _ => Rel.same fun _ => Rel.same fun _ => Rel.same fun _ =>
    Rel.same fun _ => Rel.same fun _ => saveAccount_twin (h.setPool hi _) ho _

theorem withdrawOwnerToken_twin (h : Twin s c0 d0 c d) (x : Ctx) (t : AccountId) (n : Nat)
    (k : Option Bool) (ho : d.cfg.owner ∈ s.accounts) :
    Rel (TwinV s c0 d0) (c.withdrawOwnerToken x t n k) (d.withdrawOwnerToken x t n k) := by
  unfold withdrawOwnerToken
  rw [h.on.cfg, h.getAccount ho]
  exact Rel.same fun _ => Rel.same fun _ => Rel.same fun _ => Rel.same fun _ => Rel.same fun _ =>
    Rel.same fun _ => ⟨h.putAccount ho _, by simp only [h.sendTokens]⟩

theorem rampAmp_twin (h : Twin s c0 d0 c d) (x : Ctx) {i : Nat} (f t : Nat) (hi : i ∈ s.pools) :
    Rel (Twin s c0 d0) (c.rampAmp x i f t) (d.rampAmp x i f t) := by
  unfold rampAmp
  rw [h.on.cfg, h.getPool hi]
  exact Rel.same fun _ => Rel.same fun _ => Rel.same fun _ => Rel.same fun _ => h.setPool hi _

theorem stopRampAmp_twin (h : Twin s c0 d0 c d) (x : Ctx) {i : Nat} (hi : i ∈ s.pools) :
    Rel (Twin s c0 d0) (c.stopRampAmp x i) (d.stopRampAmp x i) := by
  unfold stopRampAmp
  rw [h.on.cfg, h.getPool hi]
  exact Rel.same fun _ => Rel.same fun _ => Rel.same fun _ => Rel.same fun _ => h.setPool hi _

theorem registerTwap_twin (h : Twin s c0 d0 c d) (x : Ctx) {i : Nat} (hi : i ∈ s.pools) :
    Rel (Twin s c0 d0) (c.registerTwap x i) (d.registerTwap x i) := by
  unfold registerTwap
  rw [show c.cfg.assertManager x = d.cfg.assertManager x by rw [h.on.cfg], h.getPool hi,
    h.on.twaps i hi]
  exact Rel.same fun _ => Rel.same fun _ => Rel.same fun _ => Rel.same fun _ => Rel.same fun _ =>
    Rel.same fun _ => h.putTwap hi _

theorem unregisterTwap_twin (h : Twin s c0 d0 c d) (x : Ctx) {i : Nat} (hi : i ∈ s.pools) :
    Rel (Twin s c0 d0) (c.unregisterTwap x i) (d.unregisterTwap x i) := by
  unfold unregisterTwap FMap.contains
  rw [show c.cfg.assertManager x = d.cfg.assertManager x by rw [h.on.cfg], h.on.twaps i hi]
  exact Rel.same fun _ => Rel.same fun _ => Rel.same fun _ => h.eraseTwap hi

theorem syncTwap_twin (h : Twin s c0 d0 c d) (x : Ctx) {i : Nat} (hi : i ∈ s.pools) :
    Rel (Twin s c0 d0) (c.syncTwap x i) (d.syncTwap x i) := by
  unfold syncTwap
  rw [show c.cfg.recordInterval = d.cfg.recordInterval by rw [h.on.cfg], h.getPool hi,
    h.on.twaps i hi]
  exact Rel.same fun _ => Rel.same fun _ => Rel.same fun _ => Rel.same fun _ => Rel.same fun _ =>
    Rel.same fun _ => h.putTwap hi _

/-! ### Callbacks -/

theorem handleLost_twin (h : Twin s c0 d0 c d) (x : Ctx) {a : AccountId} (t : AccountId) (n : Nat)
    (ha : a ∈ s.accounts) (ho : d.cfg.owner ∈ s.accounts) :
    Rel (Twin s c0 d0) (c.handleLost x a t n) (d.handleLost x a t n) := by
  unfold handleLost
  generalize MIN_FREE = m
  refine Rel.same fun _ => Rel.same fun _ => Rel.ite ?_ ?_
  · unfold insertLostfound FMap.getD
    rw [h.on.lostfound a ha]
    exact Rel.same fun _ => h.putLost ha _ _
  · unfold ownerLostfound accountOrNew
    rw [h.on.cfg, h.on.accounts _ ho]
    exact Rel.same fun _ => h.putAccount ho _

theorem handleFail_twin (h : Twin s c0 d0 c d) (x : Ctx) {a : AccountId} (t : AccountId) (n : Nat)
    (ha : a ∈ s.accounts) (ho : d.cfg.owner ∈ s.accounts) :
    Rel (Twin s c0 d0) (c.handleFail x a t n) (d.handleFail x a t n) := by
  unfold handleFail
  rw [h.on.accounts a ha]
  cases d.accounts.get? a with
  | none => exact handleLost_twin h x t n ha ho
  | some acc =>
    refine Rel.same fun r => ?_
    cases r with
    | none => exact handleLost_twin h x t n ha ho
    | some acc => exact h.putAccount ha _

theorem mftResolve_twin (h : Twin s c0 d0 c d) (t : List Char) {a b : AccountId} (n : Nat)
    (o : Outcome) (ha : a ∈ s.accounts) (hb : b ∈ s.accounts) (hs : d.self ∈ s.accounts)
    (ht : ∀ i ∈ poolsOf t, i ∈ s.pools) :
    Rel (TwinV s c0 d0) (c.mftResolve t a b n o) (d.mftResolve t a b n o) := by
  unfold mftResolve FMap.contains
  simp only
  rw [mftBalance_twin h t hb ht, h.on.accounts a ha, h.on.self]
  refine Rel.ite (Rel.same fun held => Rel.ite ?_ ⟨h, rfl⟩) ⟨h, rfl⟩
  have hto : (if (d.accounts.get? a).isSome = true then a else d.self) ∈ s.accounts := by
    split
    · exact ha
    · exact hs
  refine Rel.bind (internalMftTransfer_twin h t _ hb hto ht) ?_
  rintro ⟨c, r⟩ ⟨d, r'⟩ ⟨h, he⟩
  exact ⟨h, rfl⟩

theorem callbackOnShadow_twin (h : Twin s c0 d0 c d) (x : Ctx) (act : ShadowAction) {a : AccountId}
    (i n f : Nat) (o : Outcome) (ha : a ∈ s.accounts) :
    Rel (TwinV s c0 d0) (c.callbackOnShadow x act a i n f o)
      (d.callbackOnShadow x act a i n f o) := by
  unfold callbackOnShadow
  rw [h.getAccount ha]
  cases o with
  | failure =>
    refine Rel.same fun _ => ?_
    cases act with
    | toFarming | toBurrowland =>
      exact Rel.same fun _ => Rel.bind (saveAccount_twin h ha _) fun c d h => ⟨h, rfl⟩
    | fromFarming | fromBurrowland =>
      exact Rel.bind (saveAccount_twin h ha _) fun c d h => ⟨h, rfl⟩
  | success _ =>
    cases act with
    | toFarming | toBurrowland => exact ⟨h, rfl⟩
    | fromFarming | fromBurrowland =>
      exact Rel.same fun _ => Rel.same fun _ => Rel.same fun _ =>
        Rel.bind (saveAccount_twin h ha _) fun c d h => ⟨h, rfl⟩

end Contract
end Verif

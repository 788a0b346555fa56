import Verif.Exchange.Local
import Verif.Exchange.Demo

/-
C78: an event sees and changes only what it names, so events about different accounts and pools do
not influence each other.
-/

namespace Verif

namespace Contract

variable {s : Scope} {c0 d0 c d : Contract}

theorem rel_unit {α : Type} {r r' : R (Contract × α)} (h : Rel (TwinV s c0 d0) r r') :
    Rel (TwinV s c0 d0) (r >>= fun p => .ok (p.1, ([] : List Out)))
      (r' >>= fun p => .ok (p.1, ([] : List Out))) :=
  Rel.bind h fun _ _ h => ⟨h.1, rfl⟩

theorem rel_outs {α : Type} {r r' : R (Contract × List Out × α)} (h : Rel (TwinV s c0 d0) r r') :
    Rel (TwinV s c0 d0) (r >>= fun p => .ok (p.1, p.2.1)) (r' >>= fun p => .ok (p.1, p.2.1)) :=
  Rel.bind h fun _ _ h => ⟨h.1, by rw [h.2]⟩

theorem rel_none {r r' : R Contract} (h : Rel (Twin s c0 d0) r r') :
    Rel (TwinV s c0 d0) (r >>= fun p => .ok (p, ([] : List Out)))
      (r' >>= fun p => .ok (p, ([] : List Out))) :=
  Rel.bind h fun _ _ h => ⟨h, rfl⟩

theorem exec_twin (h : Twin s c0 d0 c d) (x : Ctx) (k : Call) {q : Scope}
    (hk : k.scope d.cfg.owner x = some q) (hq : q.Within s) :
    Rel (TwinV s c0 d0) (c.exec x k) (d.exec x k) := by
  have one : ∀ {a : AccountId} {l : List AccountId} {p : List Nat},
      (⟨a :: l, p⟩ : Scope).Within s → a ∈ s.accounts := fun h => h.1 _ List.mem_cons_self
  have two : ∀ {a b : AccountId} {l : List AccountId} {p : List Nat},
      (⟨a :: b :: l, p⟩ : Scope).Within s → b ∈ s.accounts :=
    fun h => h.1 _ (List.mem_cons_of_mem _ List.mem_cons_self)
  have pl : ∀ {i : Nat} {l : List AccountId} {p : List Nat},
      (⟨l, i :: p⟩ : Scope).Within s → i ∈ s.pools := fun h => h.2 _ List.mem_cons_self
  have acts : ∀ {l : List AccountId} {as : List Action},
      (⟨l, as.map Action.pool⟩ : Scope).Within s → ∀ a ∈ as, a.pool ∈ s.pools :=
    fun h a ha => h.2 _ (List.mem_map_of_mem ha)
  cases k with
  | addSimplePool | addCurvePool | setting => cases hk
  | executeActions l ref =>
    cases hk; exact rel_unit (executeActions_twin h x l ref (one hq) (acts hq))
  | executeInVa u l ref =>
    cases hk; exact rel_unit (executeInVa_twin h x u l ref (one hq) (acts hq))
  | addLiquidity => cases hk; exact rel_outs (addLiquidity_twin h x _ _ (one hq) (pl hq))
  | addStableLiquidity =>
    cases hk; exact rel_outs (addStableLiquidity_twin h x _ _ (one hq) (pl hq))
  | removeLiquidity => cases hk; exact rel_unit (removeLiquidity_twin h x _ _ (one hq) (pl hq))
  | removeByTokens => cases hk; exact rel_unit (removeByTokens_twin h x _ _ (one hq) (pl hq))
  | registerTokens => cases hk; exact rel_none (registerTokens_twin h x _ (one hq))
  | unregisterTokens => cases hk; exact rel_none (unregisterTokens_twin h x _ (one hq))
  | withdraw => cases hk; exact withdraw_twin h x _ _ _ _ (one hq)
  | claimLostfound => cases hk; exact claimLostfound_twin h x _ (one hq)
  | ftOnTransfer a n msg =>
    cases hk
    show Rel _ (c.ftOnTransfer x a n msg) (d.ftOnTransfer x a n msg)
    unfold ftOnTransfer
    rw [h.on.cfg]
    refine Rel.same fun _ => Rel.same fun _ => ?_
    cases msg with
    | deposit =>
      exact Rel.same fun _ => Rel.bind (deposit_twin h _ _ _ (one hq)) fun _ _ h => ⟨h, rfl⟩
    | bad => exact rfl
    | execute => exact instantSwap_twin h _ _ _ _ _ _ _ _ _ (acts hq)
    | hotZap ref l is =>
      refine rel_none (hotZap_twin h x a n ref l is (one hq) ?_ ?_)
      · exact fun b hb => hq.2 _ (List.mem_append_left _ (List.mem_map_of_mem hb))
      · exact fun b hb => hq.2 _ (List.mem_append_right _ (List.mem_map_of_mem hb))
  | mftTransfer => cases hk; exact rel_none (mftTransfer_twin h x _ _ (one hq) (two hq) hq.2)
  | mftTransferCall => cases hk; exact mftTransferCall_twin h x _ _ (one hq) (two hq) hq.2
  | mftRegister => cases hk; exact mftRegister_twin h x _ _ hq.2
  | mftUnregister => cases hk; exact mftUnregister_twin h x _ hq.2
  | storageDeposit => cases hk; exact storageDeposit_twin h x _ _ (one hq)
  | storageWithdraw => cases hk; exact storageWithdraw_twin h x _ (one hq)
  | storageUnregister => cases hk; exact storageUnregister_twin h x (one hq)
  | shadowAction => cases hk; exact shadowAction_twin h x _ _ (one hq) (pl hq)
  | onBurrowLiquidation l b t n mins =>
    cases hk
    refine onBurrowLiquidation_twin h x t n mins (one hq) (two hq) fun i hi => ?_
    rw [hi] at hq
    exact pl hq
  | donationShare => cases hk; exact donationShare_twin h x _ _ (one hq) (pl hq)
  | donationToken => cases hk; exact rel_none (donationToken_twin h x _ _ _ (one hq) (two hq))
  | retrieveUnmanaged t n =>
    cases hk
    show Rel _ (c.retrieveUnmanaged x t n >>= fun outs => .ok (c, outs))
      (d.retrieveUnmanaged x t n >>= fun outs => .ok (d, outs))
    unfold retrieveUnmanaged
    rw [h.on.cfg]
    exact Rel.same fun outs => ⟨h, rfl⟩
  | modifyTotalFee => cases hk; exact rel_none (modifyTotalFee_twin h x _ (pl hq))
  | removeExchangeFee =>
    cases hk; exact rel_none (removeExchangeFee_twin h x _ _ (pl hq) (one hq))
  | withdrawOwnerToken => cases hk; exact withdrawOwnerToken_twin h x _ _ _ (one hq)
  | rampAmp => cases hk; exact rel_none (rampAmp_twin h x _ _ (pl hq))
  | stopRampAmp => cases hk; exact rel_none (stopRampAmp_twin h x (pl hq))
  | registerTwap => cases hk; exact rel_none (registerTwap_twin h x (pl hq))
  | unregisterTwap => cases hk; exact rel_none (unregisterTwap_twin h x (pl hq))
  | syncTwap => cases hk; exact rel_none (syncTwap_twin h x (pl hq))

theorem callback_twin (h : Twin s c0 d0 c d) (x : Ctx) (out : Out) (o : Outcome)
    (hq : (out.scope d.self d.cfg.owner o).Within s) :
    Rel (TwinV s c0 d0) (c.callback x out o) (d.callback x out o) := by
  have fail : ∀ {to : AccountId} (t : AccountId) (n : Nat),
      (⟨[to, d.cfg.owner], []⟩ : Scope).Within s →
      Rel (Twin s c0 d0) (c.handleFail x to t n) (d.handleFail x to t n) := fun t n hq =>
    handleFail_twin h x t n (hq.1 _ List.mem_cons_self)
      (hq.1 _ (List.mem_cons_of_mem _ List.mem_cons_self))
  unfold callback
  cases out with
  | ft t to n =>
    cases o with
    | success => exact ⟨h, rfl⟩
    | failure => exact rel_none (fail t n hq)
  | ftCall t to n =>
    cases o with
    | success => exact ⟨h, rfl⟩
    | failure => exact rel_none (fail t n hq)
  | unwrap t to n =>
    cases o with
    | success => exact ⟨h, rfl⟩
    | failure =>
      simp only
      rw [h.on.cfg]
      exact Rel.same fun t => rel_none (fail t n hq)
  | mftCall t a b n =>
    have m : ∀ a ∈ [_, _, _], a ∈ s.accounts := hq.1
    exact rel_unit (mftResolve_twin h t n o (m _ (by simp)) (m _ (by simp)) (m _ (by simp)) hq.2)
  | shadow act a i n f =>
    refine callbackOnShadow_twin h x act i n f o (hq.1 a ?_)
    cases o <;> exact List.mem_cons_self
  | ftPlain => exact ⟨h, rfl⟩
  | near => exact ⟨h, rfl⟩
  | liquidated => exact ⟨h, rfl⟩

theorem apply_twin (h : Twin s c0 d0 c d) (e : Event) {q : Scope}
    (hk : e.scope d.self d.cfg.owner = some q) (hq : q.Within s) :
    Rel (TwinV s c0 d0) (c.apply e) (d.apply e) := by
  cases e with
  | call x k => exact exec_twin h x k hk hq
  | callback x out o =>
    cases hk
    exact callback_twin h x out o hq
  | rate | price => cases hk

theorem step_twin (h : SameOn s c d) (e : Event) {q : Scope}
    (hk : e.scope c.self c.cfg.owner = some q) (hq : q.Within s) :
    c.seen e = d.seen e ∧ Twin s c d (c.step e) (d.step e) := by
  rw [h.self, h.cfg] at hk
  have h1 := apply_twin (Twin.start h) e hk hq
  unfold seen step
  revert h1
  cases c.apply e with
  | ok p =>
    cases d.apply e with
    | ok p' => exact fun h1 => ⟨by simp only [h1.2], h1.1⟩
    | error e => exact fun h1 => h1.elim
  | error f =>
    cases d.apply e with
    | ok p' => exact fun h1 => h1.elim
    | error f' => exact fun h1 => ⟨by rw [show f = f' from h1], .start h⟩

theorem _root_.Verif.SameOn.refl (s : Scope) (c : Contract) : SameOn s c c :=
  ⟨rfl, rfl, fun _ _ => rfl, fun _ _ _ => rfl, fun _ _ => rfl, fun _ _ => rfl, fun _ _ => rfl⟩

theorem _root_.Verif.SameOn.symm (h : SameOn s c d) : SameOn s d c :=
  ⟨h.self.symm, h.cfg.symm, fun a ha => (h.accounts a ha).symm,
    fun a ha t => (h.lostfound a ha t).symm, fun i hi => (h.pools i hi).symm,
    fun i hi => (h.twaps i hi).symm, fun i hi => (h.volumes i hi).symm⟩

theorem _root_.Verif.SameOn.trans {e : Contract} (h : SameOn s c d) (k : SameOn s d e) :
    SameOn s c e :=
  ⟨h.self.trans k.self, h.cfg.trans k.cfg, fun a ha => (h.accounts a ha).trans (k.accounts a ha),
    fun a ha t => (h.lostfound a ha t).trans (k.lostfound a ha t),
    fun i hi => (h.pools i hi).trans (k.pools i hi),
    fun i hi => (h.twaps i hi).trans (k.twaps i hi),
    fun i hi => (h.volumes i hi).trans (k.volumes i hi)⟩

theorem _root_.Verif.Scope.Within.refl (s : Scope) : s.Within s :=
  ⟨fun _ h => h, fun _ h => h⟩

/-- What lies outside one scope lies inside any disjoint one. -/
theorem _root_.Verif.SameOff.on {q : Scope} (h : SameOff q c d) (hd : q.Disjoint s) :
    SameOn s c d :=
  ⟨h.self, h.cfg, fun a ha => h.accounts a fun hb => hd.1 a hb ha,
    fun a ha => h.lostfound a fun hb => hd.1 a hb ha,
    fun i hi => h.pools i fun hj => hd.2 i hj i hi rfl,
    fun i hi => h.twaps i fun hj => hd.2 i hj i hi rfl,
    fun i hi => h.volumes _ fun j hj => hd.2 j hj i hi⟩

theorem _root_.Verif.Scope.Disjoint.symm {q : Scope} (h : q.Disjoint s) : s.Disjoint q :=
  ⟨fun a ha hb => h.1 a hb ha, fun i hi j hj e => h.2 j hj i hi e.symm⟩

/-! ### The property -/

/-- What an event brings about depends only on the settings and on what is stored for the accounts
and pools it names: in two states that agree there it either panics alike or creates the same
promises, and it leaves states that agree there again. -/
theorem C78_local (e : Event) (he : e.scope c.self c.cfg.owner = some s) (h : SameOn s c d) :
    c.seen e = d.seen e ∧ SameOn s (c.step e) (d.step e) :=
  have h1 := step_twin h e he (.refl s)
  ⟨h1.1, h1.2.on⟩

/-- An event changes nothing that is stored for accounts and pools it does not name. -/
theorem C78_frame (e : Event) (he : e.scope c.self c.cfg.owner = some s) :
    SameOff s c (c.step e) :=
  (step_twin (.refl s c) e he (.refl s)).2.left

/-- Events that name no common account and no common pool commute: each has the same outcome
whether or not the other runs before it, and the final state does not depend on the order. -/
theorem C78_commute (e1 e2 : Event) {s1 s2 : Scope}
    (h1 : e1.scope c.self c.cfg.owner = some s1) (h2 : e2.scope c.self c.cfg.owner = some s2)
    (hd : s1.Disjoint s2) :
    (c.step e2).seen e1 = c.seen e1 ∧ (c.step e1).seen e2 = c.seen e2 ∧
      Same ((c.step e1).step e2) ((c.step e2).step e1) := by
  have f1 := C78_frame e1 h1
  have f2 := C78_frame e2 h2
  have l1 := C78_local e1 h1 (f2.on hd.symm)
  have l2 := C78_local e2 h2 (f1.on hd)
  have g1 : SameOff s1 (c.step e2) ((c.step e2).step e1) :=
    C78_frame e1 (by rw [← f2.self, ← f2.cfg]; exact h1)
  have g2 : SameOff s2 (c.step e1) ((c.step e1).step e2) :=
    C78_frame e2 (by rw [← f1.self, ← f1.cfg]; exact h2)
  refine ⟨l1.1.symm, l2.1.symm, g2.self.symm.trans (f1.self.symm.trans (f2.self.trans g1.self)),
    g2.cfg.symm.trans (f1.cfg.symm.trans (f2.cfg.trans g1.cfg)), ?_, ?_, ?_, ?_, ?_⟩
  · refine List.ext_getElem? fun i => ?_
    by_cases hi : i ∈ s1.pools
    · exact (g2.pools i fun hj => hd.2 i hi i hj rfl).symm.trans (l1.2.pools i hi)
    · by_cases hj : i ∈ s2.pools
      · exact (l2.2.pools i hj).symm.trans (g1.pools i hi)
      · exact (g2.pools i hj).symm.trans ((f1.pools i hi).symm.trans
          ((f2.pools i hj).trans (g1.pools i hi)))
  · intro a
    by_cases hi : a ∈ s1.accounts
    · exact (g2.accounts a (hd.1 a hi)).symm.trans (l1.2.accounts a hi)
    · by_cases hj : a ∈ s2.accounts
      · exact (l2.2.accounts a hj).symm.trans (g1.accounts a hi)
      · exact (g2.accounts a hj).symm.trans ((f1.accounts a hi).symm.trans
          ((f2.accounts a hj).trans (g1.accounts a hi)))
  · rintro ⟨a, t⟩
    by_cases hi : a ∈ s1.accounts
    · exact (g2.lostfound a (hd.1 a hi) t).symm.trans (l1.2.lostfound a hi t)
    · by_cases hj : a ∈ s2.accounts
      · exact (l2.2.lostfound a hj t).symm.trans (g1.lostfound a hi t)
      · exact (g2.lostfound a hj t).symm.trans ((f1.lostfound a hi t).symm.trans
          ((f2.lostfound a hj t).trans (g1.lostfound a hi t)))
  · intro i
    by_cases hi : i ∈ s1.pools
    · exact (g2.twaps i fun hj => hd.2 i hi i hj rfl).symm.trans (l1.2.twaps i hi)
    · by_cases hj : i ∈ s2.pools
      · exact (l2.2.twaps i hj).symm.trans (g1.twaps i hi)
      · exact (g2.twaps i hj).symm.trans ((f1.twaps i hi).symm.trans
          ((f2.twaps i hj).trans (g1.twaps i hi)))
  · intro v
    by_cases hi : ∃ i ∈ s1.pools, i % 2 ^ 32 = v
    · obtain ⟨i, hi, rfl⟩ := hi
      exact (g2.volumes _ fun j hj e => hd.2 i hi j hj e.symm).symm.trans (l1.2.volumes i hi)
    · have hi' : ∀ i ∈ s1.pools, i % 2 ^ 32 ≠ v := fun i h e => hi ⟨i, h, e⟩
      by_cases hj : ∃ i ∈ s2.pools, i % 2 ^ 32 = v
      · obtain ⟨j, hj, rfl⟩ := hj
        exact (l2.2.volumes j hj).symm.trans (g1.volumes _ hi')
      · have hj' : ∀ i ∈ s2.pools, i % 2 ^ 32 ≠ v := fun i h e => hj ⟨i, h, e⟩
        exact (g2.volumes v hj').symm.trans ((f1.volumes v hi').symm.trans
          ((f2.volumes v hj').trans (g1.volumes v hi')))

/-! ### States that hold the same -/

theorem _root_.Verif.Same.on (h : Same c d) (s : Scope) : SameOn s c d :=
  ⟨h.self, h.cfg, fun a _ => h.accounts a, fun a _ t => h.lostfound (a, t),
    fun i _ => by rw [h.pools], fun i _ => h.twaps i, fun i _ => h.volumes _⟩

/-- The same states with the same result. -/
def SameV {α : Type} (p q : Contract × α) : Prop := Same p.1 q.1 ∧ p.2 = q.2

theorem addPool_same (h : Same c d) (x : Ctx) (p : Pool) :
    Rel SameV (c.addPool x p) (d.addPool x p) := by
  unfold addPool
  rw [h.self, h.pools]
  refine Rel.same fun q => Rel.same fun r => ⟨⟨rfl, h.cfg, rfl, h.accounts, h.lostfound, h.twaps,
    fun v => ?_⟩, rfl⟩
  show (c.volumes.insert _ _).get? v = (d.volumes.insert _ _).get? v
  rw [FMap.get?_insert, FMap.get?_insert, h.volumes v]

theorem applySetting_same (h : Same c d) (x : Ctx) (t : Setting) :
    c.applySetting x t = d.applySetting x t := by
  have hp : c.assertDegenPool = d.assertDegenPool := by
    funext n i
    unfold assertDegenPool getPool poolInfo pool
    rw [h.pools, h.cfg]
  unfold applySetting
  rw [h.cfg, hp]

theorem apply_same (h : Same c d) (e : Event) (he : e.scope c.self c.cfg.owner = none) :
    Rel SameV (c.apply e) (d.apply e) := by
  cases e with
  | call x k =>
    cases k with
    | addSimplePool =>
      show Rel _ (c.addSimplePool ..) (d.addSimplePool ..)
      unfold addSimplePool
      rw [h.cfg]
      exact Rel.same fun _ => Rel.same fun _ => Rel.same fun p => addPool_same h x _
    | addCurvePool =>
      show Rel _ (c.addCurvePool ..) (d.addCurvePool ..)
      unfold addCurvePool
      rw [h.cfg]
      exact Rel.same fun _ => Rel.same fun _ => Rel.same fun _ => Rel.same fun p =>
        addPool_same h x _
    | setting t =>
      show Rel _ (c.setting x t >>= fun p => .ok (p, [])) (d.setting x t >>= fun p => .ok (p, []))
      unfold setting
      rw [applySetting_same h]
      cases d.applySetting x t with
      | error f => exact rfl
      | ok g => exact ⟨⟨h.self, rfl, h.pools, h.accounts, h.lostfound, h.twaps, h.volumes⟩, rfl⟩
    | _ => cases he
  | callback => cases he
  | rate t r n =>
    refine (⟨?_, rfl⟩ : Same _ _ ∧ _)
    show Same (c.setRate t r n) (d.setRate t r n)
    unfold setRate
    rw [h.cfg]
    cases d.cfg.rates.get? t with
    | none => exact h
    | some _ => exact ⟨h.self, rfl, h.pools, h.accounts, h.lostfound, h.twaps, h.volumes⟩
  | price t r n =>
    refine (⟨?_, rfl⟩ : Same _ _ ∧ _)
    show Same (c.setDegenPrice t r n) (d.setDegenPrice t r n)
    unfold setDegenPrice
    rw [h.cfg]
    cases d.cfg.degens.get? t with
    | none => exact h
    | some _ => exact ⟨h.self, rfl, h.pools, h.accounts, h.lostfound, h.twaps, h.volumes⟩

/-- States that hold the same cannot be told apart by any event, so a change of order that leads to
such a state (`C78_commute`) never has consequences. -/
theorem C78_same (h : Same c d) (e : Event) :
    c.seen e = d.seen e ∧ Same (c.step e) (d.step e) := by
  cases he : e.scope c.self c.cfg.owner with
  | none =>
    have h1 := apply_same h e he
    unfold seen step
    revert h1
    cases c.apply e with
    | ok p =>
      cases d.apply e with
      | ok p' => exact fun h1 => ⟨by simp only [h1.2], h1.1⟩
      | error _ => exact fun h1 => h1.elim
    | error f =>
      cases d.apply e with
      | ok p' => exact fun h1 => h1.elim
      | error f' => exact fun h1 => ⟨by rw [show f = f' from h1], h⟩
  | some s =>
    obtain ⟨h1, h2, h3, h4⟩ := step_twin (h.on s) e he (.refl s)
    refine ⟨h1, h2.self, h2.cfg, ?_, ?_, ?_, ?_, ?_⟩
    · refine List.ext_getElem? fun i => ?_
      by_cases hi : i ∈ s.pools
      · exact h2.pools i hi
      · rw [← h3.pools i hi, ← h4.pools i hi, h.pools]
    · intro a
      by_cases ha : a ∈ s.accounts
      · exact h2.accounts a ha
      · rw [← h3.accounts a ha, ← h4.accounts a ha, h.accounts]
    · rintro ⟨a, t⟩
      by_cases ha : a ∈ s.accounts
      · exact h2.lostfound a ha t
      · rw [← h3.lostfound a ha t, ← h4.lostfound a ha t, h.lostfound]
    · intro i
      by_cases hi : i ∈ s.pools
      · exact h2.twaps i hi
      · rw [← h3.twaps i hi, ← h4.twaps i hi, h.twaps]
    · intro v
      by_cases hv : ∃ i ∈ s.pools, i % 2 ^ 32 = v
      · obtain ⟨i, hi, rfl⟩ := hv
        exact h2.volumes i hi
      · have hv' : ∀ i ∈ s.pools, i % 2 ^ 32 ≠ v := fun i hi e => hv ⟨i, hi, e⟩
        rw [← h3.volumes v hv', ← h4.volumes v hv', h.volumes]

/-! ### Schedules -/

/-- The creation of a pool changes nothing that exists. -/
theorem C78_create (e : Event) (he : e.creates) (hs : ∀ i ∈ s.pools, i < c.pools.length)
    (hn : c.pools.length < 2 ^ 32) :
    SameOn s c (c.step e) ∧ c.pools.length ≤ (c.step e).pools.length ∧
      (c.step e).pools.length ≤ c.pools.length + 1 := by
  have add : ∀ {x : Ctx} {p : Pool} {r : Contract × List Out}, c.addPool x p = .ok r →
      SameOn s c r.1 ∧ c.pools.length ≤ r.1.pools.length ∧
        r.1.pools.length ≤ c.pools.length + 1 := by
    intro x p r h
    unfold addPool at h
    obtain ⟨q, -, h⟩ := bind_ok.1 h
    obtain ⟨o, -, h⟩ := bind_ok.1 h
    cases h
    refine ⟨⟨rfl, rfl, fun _ _ => rfl, fun _ _ _ => rfl, fun i hi => ?_, fun _ _ => rfl,
      fun i hi => ?_⟩, ?_, ?_⟩
    · exact (List.getElem?_append_left (hs i hi)).symm
    · refine (FMap.get?_insert_ne _ _ ?_).symm
      have := hs i hi
      rw [Nat.mod_eq_of_lt hn, Nat.mod_eq_of_lt (by omega)]
      omega
    · simp
    · simp
  have done : ∀ {m : R (Contract × List Out)}, (∀ r, m = .ok r → SameOn s c r.1 ∧
      c.pools.length ≤ r.1.pools.length ∧ r.1.pools.length ≤ c.pools.length + 1) →
      c.apply e = m → SameOn s c (c.step e) ∧ c.pools.length ≤ (c.step e).pools.length ∧
      (c.step e).pools.length ≤ c.pools.length + 1 := by
    intro m h1 h2
    unfold step
    rw [h2]
    cases m with
    | ok r => exact h1 r rfl
    | error _ => exact ⟨.refl s c, Nat.le_refl _, Nat.le_succ _⟩
  cases e with
  | call x k =>
    cases k with
    | addSimplePool ts f =>
      refine done (m := c.addSimplePool x ts f) (fun r h => ?_) rfl
      unfold addSimplePool at h
      obtain ⟨_, -, h⟩ := bind_ok.1 h
      obtain ⟨_, -, h⟩ := bind_ok.1 h
      obtain ⟨_, -, h⟩ := bind_ok.1 h
      exact add h
    | addCurvePool k ts ds f a =>
      refine done (m := c.addCurvePool x k ts ds f a) (fun r h => ?_) rfl
      unfold addCurvePool at h
      obtain ⟨_, -, h⟩ := bind_ok.1 h
      obtain ⟨_, -, h⟩ := bind_ok.1 h
      obtain ⟨_, -, h⟩ := bind_ok.1 h
      obtain ⟨_, -, h⟩ := bind_ok.1 h
      exact add h
    | _ => exact he.elim
  | _ => exact he.elim

theorem noninterference (mine : Event → Bool) (es : List Event) : ∀ {c d : Contract},
    SameOn s c d →
    (∀ e ∈ es, mine e = true → ∃ q, e.scope c.self c.cfg.owner = some q ∧ q.Within s) →
    (∀ e ∈ es, mine e = false →
      e.creates ∨ ∃ q, e.scope c.self c.cfg.owner = some q ∧ q.Disjoint s) →
    (∀ i ∈ s.pools, i < c.pools.length) → c.pools.length + es.length ≤ 2 ^ 32 →
    c.outcomes mine es = d.outcomes mine (es.filter mine) ∧
      SameOn s (c.run es) (d.run (es.filter mine)) := by
  induction es with
  | nil => exact fun h _ _ _ _ => ⟨rfl, h⟩
  | cons e es ih =>
    intro c d h hm ho hp hn
    have hl : (e :: es).length = es.length + 1 := rfl
    cases he : mine e with
    | true =>
      obtain ⟨q, hq, hw⟩ := hm e List.mem_cons_self he
      obtain ⟨h1, h2, h3, -⟩ := step_twin h e hq hw
      rw [List.filter_cons_of_pos he]
      have h4 := ih (c := c.step e) (d := d.step e) h2
        (fun f hf => by rw [← h3.self, ← h3.cfg]; exact hm f (List.mem_cons_of_mem _ hf))
        (fun f hf => by rw [← h3.self, ← h3.cfg]; exact ho f (List.mem_cons_of_mem _ hf))
        (fun i hi => by rw [← h3.count]; exact hp i hi) (by rw [← h3.count]; omega)
      refine ⟨?_, h4.2⟩
      show (if mine e then [c.seen e] else []) ++ _ = (if mine e then [d.seen e] else []) ++ _
      rw [h1, h4.1]
    | false =>
      have hf : ¬ (mine e = true) := by rw [he]; exact Bool.false_ne_true
      rw [List.filter_cons_of_neg hf]
      have h1 : SameOn s c (c.step e) ∧ c.pools.length ≤ (c.step e).pools.length ∧
          (c.step e).pools.length ≤ c.pools.length + 1 := by
        rcases ho e List.mem_cons_self he with hc | ⟨q, hq, hd⟩
        · exact C78_create e hc hp (by omega)
        · have h1 := C78_frame e hq
          exact ⟨h1.on hd, Nat.le_of_eq h1.count, by rw [← h1.count]; exact Nat.le_succ _⟩
      obtain ⟨h1, h2, h3⟩ := h1
      have h4 := ih (c := c.step e) (d := d) (h1.symm.trans h)
        (fun f hf => by rw [← h1.self, ← h1.cfg]; exact hm f (List.mem_cons_of_mem _ hf))
        (fun f hf => by rw [← h1.self, ← h1.cfg]; exact ho f (List.mem_cons_of_mem _ hf))
        (fun i hi => Nat.lt_of_lt_of_le (hp i hi) h2) (by omega)
      refine ⟨?_, h4.2⟩
      show (if mine e then [c.seen e] else []) ++ _ = _
      rw [if_neg hf]
      exact h4.1

/-- Whatever the others do in between, in any order and number: as long as it is about other
accounts and other pools (or creates new pools), the events of `mine` have the same outcomes as if
nobody else were there, and what is stored for their accounts and pools ends up the same. -/
theorem C78_schedule (mine : Event → Bool) (es : List Event)
    (hmine : ∀ e ∈ es, mine e = true → ∃ q, e.scope c.self c.cfg.owner = some q ∧ q.Within s)
    (hothers : ∀ e ∈ es, mine e = false →
      e.creates ∨ ∃ q, e.scope c.self c.cfg.owner = some q ∧ q.Disjoint s)
    (hexist : ∀ i ∈ s.pools, i < c.pools.length) (hcount : c.pools.length + es.length ≤ 2 ^ 32) :
    c.outcomes mine es = c.outcomes mine (es.filter mine) ∧
      SameOn s (c.run es) (c.run (es.filter mine)) :=
  noninterference mine es (.refl s c) hmine hothers hexist hcount

end Contract

/-! ### Examples -/

namespace Demo

/-- Bob swaps in pool 0. -/
def bobSwaps : Event := .call (by' bo) (.executeActions [swapA] none)
/-- Alice adds to pool 1. -/
def aliceAdds : Event := .call (near al) (.addStableLiquidity 1 [1000, 1000] 1)
/-- Alice adds to pool 0. -/
def aliceAdds0 : Event := .call (near al) (.addLiquidity 0 [1000, 4000] none)
/-- Alice creates a pool. -/
def aliceCreates : Event := .call (near al) (.addSimplePool [A, W] 30)
/-- Bob withdraws what he bought. -/
def bobLeaves : Event := .call (y bo) (.withdraw B 0 false none)

example : (c1.apply bobSwaps).isOk = true ∧ (c1.apply aliceAdds).isOk = true ∧
    (c1.apply aliceCreates).isOk = true ∧ ((c1.step bobSwaps).apply bobLeaves).isOk = true := by
  decide +kernel

example : (c1.step aliceAdds).seen bobSwaps = c1.seen bobSwaps ∧
    Same ((c1.step bobSwaps).step aliceAdds) ((c1.step aliceAdds).step bobSwaps) :=
  have h := Contract.C78_commute (c := c1) (s1 := ⟨[bo], [0]⟩) (s2 := ⟨[al], [1]⟩) bobSwaps
    aliceAdds rfl rfl ⟨by decide, by decide⟩
  ⟨h.1, h.2.2⟩

/-- Bob's events. -/
def bobs : Event → Bool
  | .call x _ => x.pred = bo
  | _ => false

/-- Bob gets the same out of the exchange with and without Alice. -/
example : c1.outcomes bobs [aliceAdds, bobSwaps, aliceCreates, aliceAdds, bobLeaves] =
    c1.outcomes bobs [bobSwaps, bobLeaves] := by
  have hmem : ∀ {P : Event → Prop}, P aliceAdds → P bobSwaps → P aliceCreates → P bobLeaves →
      ∀ e ∈ [aliceAdds, bobSwaps, aliceCreates, aliceAdds, bobLeaves], P e := by
    intro P h1 h2 h3 h4 e he
    simp only [List.mem_cons, List.not_mem_nil, or_false] at he
    rcases he with rfl | rfl | rfl | rfl | rfl <;> assumption
  exact (Contract.C78_schedule (c := c1) (s := ⟨[bo], [0]⟩) bobs _
    (hmem (P := fun e => bobs e = true → ∃ q, e.scope c1.self c1.cfg.owner = some q ∧ q.Within _)
      (fun h => absurd h (by decide)) (fun _ => ⟨⟨[bo], [0]⟩, rfl, by decide, by decide⟩)
      (fun h => absurd h (by decide)) (fun _ => ⟨⟨[bo], []⟩, rfl, by decide, by decide⟩))
    (hmem (P := fun e => bobs e = false → e.creates ∨
        ∃ q, e.scope c1.self c1.cfg.owner = some q ∧ q.Disjoint _)
      (fun _ => .inr ⟨⟨[al], [1]⟩, rfl, by decide, by decide⟩) (fun h => absurd h (by decide))
      (fun _ => .inl trivial) (fun h => absurd h (by decide)))
    (by decide +kernel) (by decide +kernel)).1

/-- Within one pool the order matters. -/
example : ((c1.step bobSwaps).step aliceAdds0).depositOf al B ≠
    ((c1.step aliceAdds0).step bobSwaps).depositOf al B := by decide +kernel

end Demo
end Verif

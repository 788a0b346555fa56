import Verif.Exchange.CfgLemmas
import Verif.Exchange.Demo

/-
Properties about who may do what: C19 (pause) and C21 (access control).
-/

namespace Verif

open Demo

/-! ### C19: pause -/

/-- The operations of users on deposits, pools and shares, and the two methods that pay out the
owner's fees. Left out are the configuration methods and `on_burrow_liquidation`. -/
def Call.pausable : Call → Bool
  | .addSimplePool .. | .executeActions .. | .executeInVa .. | .addLiquidity ..
  | .addStableLiquidity .. | .removeLiquidity .. | .removeByTokens .. | .registerTokens ..
  | .unregisterTokens .. | .withdraw .. | .claimLostfound .. | .ftOnTransfer .. | .mftTransfer ..
  | .mftTransferCall .. | .mftRegister .. | .mftUnregister .. | .storageDeposit ..
  | .storageWithdraw .. | .storageUnregister | .shadowAction .. | .donationShare ..
  | .donationToken .. | .removeExchangeFee .. | .withdrawOwnerToken .. => true
  | .onBurrowLiquidation .. | .addCurvePool .. | .setting .. | .retrieveUnmanaged ..
  | .modifyTotalFee .. | .rampAmp .. | .stopRampAmp .. | .registerTwap .. | .unregisterTwap ..
  | .syncTwap .. => false

namespace Contract

theorem exec_running {c c' : Contract} {x : Ctx} {k : Call} {outs : List Out}
    (hk : k.pausable = true) (h : c.exec x k = .ok (c', outs)) : c.cfg.running = true := by
  cases k <;> simp only [Call.pausable, Bool.false_eq_true] at hk <;> simp only [exec] at h
  case addSimplePool => obtain ⟨_, h, -⟩ := addSimplePool_inv h; exact h
  case executeActions =>
    unpack at h; obtain ⟨_, _, h, -⟩ := h
    obtain ⟨_, _, _, h, -⟩ := executeActions_inv h; exact h
  case executeInVa =>
    unpack at h; obtain ⟨_, _, h, -⟩ := h
    obtain ⟨_, _, _, _, _, _, _, h, -⟩ := executeInVa_inv h; exact h
  case addLiquidity =>
    unpack at h; obtain ⟨_, _, _, h, -⟩ := h
    obtain ⟨_, _, _, _, _, _, _, h, -⟩ := addLiquidity_inv h; exact h
  case addStableLiquidity =>
    unpack at h; obtain ⟨_, _, _, h, -⟩ := h
    obtain ⟨_, _, _, _, _, _, h, -⟩ := addStableLiquidity_inv h; exact h
  case removeLiquidity =>
    unpack at h; obtain ⟨_, _, h, -⟩ := h
    obtain ⟨_, _, _, _, _, -, h, -⟩ := removeLiquidity_inv h; exact h
  case removeByTokens =>
    unpack at h; obtain ⟨_, _, h, -⟩ := h
    obtain ⟨_, _, _, _, _, -, h, -⟩ := removeByTokens_inv h; exact h
  case registerTokens =>
    unpack at h; obtain ⟨_, h, -⟩ := h
    obtain ⟨_, -, h, -⟩ := registerTokens_inv h; exact h
  case unregisterTokens =>
    unpack at h; obtain ⟨_, h, -⟩ := h
    obtain ⟨_, _, -, h, -⟩ := unregisterTokens_inv h; exact h
  case withdraw => obtain ⟨_, _, _, _, -, h, -⟩ := withdraw_inv h; exact h
  case claimLostfound => exact (claimLostfound_inv h).2.1
  case ftOnTransfer => exact (ftOnTransfer_inv h).2.1
  case mftTransfer =>
    unpack at h; obtain ⟨_, h, -⟩ := h; exact (mftTransfer_inv h).2.1
  case mftTransferCall => exact (mftTransferCall_inv h).2.1
  case mftRegister => obtain ⟨_, _, _, _, h, -⟩ := mftRegister_inv h; exact h
  case mftUnregister => obtain ⟨_, _, _, -, h, -⟩ := mftUnregister_inv h; exact h
  case storageDeposit => exact (storageDeposit_inv h).1
  case storageWithdraw => obtain ⟨_, _, -, h, -⟩ := storageWithdraw_inv h; exact h
  case storageUnregister => exact (storageUnregister_inv h).2.1
  case shadowAction => obtain ⟨_, _, _, _, h, -⟩ := shadowAction_inv h; exact h
  case donationShare => obtain ⟨_, _, _, _, -, h, -⟩ := donationShare_inv h; exact h
  case donationToken =>
    unpack at h; obtain ⟨_, h, -⟩ := h
    obtain ⟨_, _, _, _, _, _, -, h, -⟩ := donationToken_inv h; exact h
  case removeExchangeFee =>
    unpack at h; obtain ⟨_, h, -⟩ := h
    obtain ⟨_, _, _, _, _, -, -, h, -⟩ := removeExchangeFee_inv h; exact h
  case withdrawOwnerToken => obtain ⟨_, _, -, -, h, -⟩ := withdrawOwnerToken_inv h; exact h

/-- **C19**. While the contract is paused every user operation fails, and the state stays as it
was. -/
theorem C19_paused_refuses {c : Contract} (hp : c.cfg.running = false) (x : Ctx) {k : Call}
    (hk : k.pausable = true) : (∃ e, c.exec x k = .error e) ∧ c.step (.call x k) = c := by
  have h : ∃ e, c.exec x k = .error e := by
    cases he : c.exec x k with
    | error e => exact ⟨e, rfl⟩
    | ok r => have := exec_running hk he; rw [hp] at this; cases this
  obtain ⟨e, he⟩ := h
  exact ⟨⟨e, he⟩, by simp [step, apply, he]⟩

/-- The pool holds the same reserves and shares. -/
structure _root_.Verif.Pool.SameFunds (p q : Pool) : Prop where
  tokens : q.tokens = p.tokens
  amounts : q.amounts = p.amounts
  supply : q.supply = p.supply
  shares : q.shares = p.shares

/-- **C19**, the effect. Whatever call succeeds while the contract is paused, other than a
liquidation by the lending contract, changes no account, no lost-and-found entry and no reserve
or share of an existing pool. -/
theorem C19_paused_funds {c c' : Contract} {x : Ctx} {k : Call} {outs : List Out}
    (hp : c.cfg.running = false) (h : c.exec x k = .ok (c', outs))
    (hk : ∀ l d s n m, k ≠ .onBurrowLiquidation l d s n m) :
    c'.accounts = c.accounts ∧ c'.lostfound = c.lostfound ∧
    ∀ (id : Nat) (p : Pool), c.pools[id]? = some p →
      ∃ q, c'.pools[id]? = some q ∧ p.SameFunds q := by
  have hq : k.pausable = false := by
    cases hk : k.pausable with
    | false => rfl
    | true => have := exec_running hk h; rw [hp] at this; cases this
  have refl : ∀ p : Pool, p.SameFunds p := fun p => ⟨rfl, rfl, rfl, rfl⟩
  have one : ∀ {id j : Nat} {p q r : Pool}, c.pools[id]? = some p → p.SameFunds q →
      c.pools[j]? = some r → ∃ q', (c.pools.set id q)[j]? = some q' ∧ r.SameFunds q' := by
    intro id j p q r hp hs hj
    rw [getElem?_set_some hp]
    by_cases hji : j = id
    · subst hji
      rw [hp] at hj; cases hj
      exact ⟨q, by simp, hs⟩
    · exact ⟨r, by simp [hji, hj], refl r⟩
  cases k <;> simp only [Call.pausable, Bool.true_eq_false] at hq <;> simp only [exec] at h
  case addCurvePool =>
    obtain ⟨p, -, -, -, -, h⟩ := addCurvePool_inv h
    obtain ⟨q, fee, -, -, rfl⟩ := addPool_inv h
    refine ⟨rfl, rfl, fun id p hp => ⟨p, ?_, refl p⟩⟩
    have : id < c.pools.length := by
      rcases Nat.lt_or_ge id c.pools.length with h | h
      · exact h
      · rw [List.getElem?_eq_none h] at hp; cases hp
    simp only [List.getElem?_append_left this, hp]
  case onBurrowLiquidation l d s n m => exact absurd rfl (hk l d s n m)
  case setting =>
    unpack at h; obtain ⟨c1, h, rfl, -⟩ := h
    obtain ⟨g, -, rfl⟩ := setting_inv h
    exact ⟨rfl, rfl, fun id p hp => ⟨p, hp, refl p⟩⟩
  case retrieveUnmanaged =>
    unpack at h; obtain ⟨c1, h, rfl, -⟩ := h
    exact ⟨rfl, rfl, fun id p hp => ⟨p, hp, refl p⟩⟩
  case modifyTotalFee =>
    unpack at h; obtain ⟨c1, h, rfl, -⟩ := h
    obtain ⟨p, -, -, -, hp, rfl⟩ := modifyTotalFee_inv h
    obtain ⟨h1, h2, h3, h4, h5, h6⟩ := Pool.setFee_facts p ‹Nat›
    exact ⟨rfl, rfl, fun id r hr => one hp ⟨Pool.tokens_of_shape h1, h6, h3, h5⟩ hr⟩
  case rampAmp =>
    unpack at h; obtain ⟨c1, h, rfl, -⟩ := h
    obtain ⟨p, q, -, -, hp, hq, rfl⟩ := rampAmp_inv h
    have := Pool.ramp_only hq
    exact ⟨rfl, rfl, fun id r hr => one hp
      ⟨Pool.tokens_of_shape this.shape, this.amounts, this.supply, this.shares⟩ hr⟩
  case stopRampAmp =>
    unpack at h; obtain ⟨c1, h, rfl, -⟩ := h
    obtain ⟨p, q, -, -, hp, hq, rfl⟩ := stopRampAmp_inv h
    have := Pool.stopRamp_only hq
    exact ⟨rfl, rfl, fun id r hr => one hp
      ⟨Pool.tokens_of_shape this.shape, this.amounts, this.supply, this.shares⟩ hr⟩
  case registerTwap =>
    unpack at h; obtain ⟨c1, h, rfl, -⟩ := h
    obtain ⟨-, -, tw, rfl⟩ := registerTwap_inv h
    exact ⟨rfl, rfl, fun id p hp => ⟨p, hp, refl p⟩⟩
  case unregisterTwap =>
    unpack at h; obtain ⟨c1, h, rfl, -⟩ := h
    obtain ⟨-, -, tw, rfl⟩ := unregisterTwap_inv h
    exact ⟨rfl, rfl, fun id p hp => ⟨p, hp, refl p⟩⟩
  case syncTwap =>
    unpack at h; obtain ⟨c1, h, rfl, -⟩ := h
    obtain ⟨-, tw, rfl⟩ := syncTwap_inv h
    exact ⟨rfl, rfl, fun id p hp => ⟨p, hp, refl p⟩⟩


/-- The contract of the example after a guardian paused it, and a call that was possible before. -/
def cPaused : Contract := c1.step (.call (y guard) (.setting (.changeState false)))

example : cPaused.cfg.running = false ∧
    (c1.exec (y al) (.withdraw A 5 false none)).holds (fun _ => true) = true ∧
    (cPaused.exec (y al) (.withdraw A 5 false none)).holds (fun _ => true) = false ∧
    (cPaused.exec (y guard) (.modifyTotalFee 0 25)).holds (fun r => r.1.pools.length = 2) = true := by
  decide +kernel

/-- The exception is real: a liquidation moves shares and deposits while the contract is paused. -/
theorem C19_liquidation_while_paused :
    ∃ c : Contract, c.Reachable ∧ c.cfg.running = false ∧
      ∃ x k c' outs, c.exec x k = .ok (c', outs) ∧ c'.sharesOf 0 al < c.sharesOf 0 al ∧
        c.depositOf bo A < c'.depositOf bo A := by
  let es : List Event := setup ++ [.call (Demo.near al) (.shadowAction .toBurrowland 0 (some (10 ^ 22))),
    .call (y guard) (.setting (.changeState false))]
  have key : ((c0.run es).exec (by' bur)
      (.onBurrowLiquidation bo al "shadow_ref_v1-0".toList (10 ^ 20) [0, 0])).holds
      (fun r => decide ((c0.run es).cfg.running = false) &&
        decide (r.1.sharesOf 0 al < (c0.run es).sharesOf 0 al) &&
        decide ((c0.run es).depositOf bo A < r.1.depositOf bo A)) = true := by decide +kernel
  obtain ⟨r, h1, h2⟩ := R.holds_iff.1 key
  simp only [Bool.and_eq_true, decide_eq_true_eq] at h2
  exact ⟨c0.run es, ⟨ex, own, farm, bur, 1600, 400, c0, es, rfl, rfl⟩, h2.1.1, _, _, r.1, r.2, h1,
    h2.1.2, h2.2⟩

/-! ### C21: access control -/

end Contract

/-- Who may call a method. -/
inductive Role where
  | anyone
  | lender
  | manager
  | owner
  deriving DecidableEq

/-- The rights of an account: `manager` is the owner or a guardian, `lender` the lending
contract. -/
def Role.has (g : Config) (a : AccountId) : Role → Prop
  | .anyone => True
  | .lender => a = g.burrowland
  | .manager => a = g.owner ∨ a ∈ g.guardians
  | .owner => a = g.owner

/-- Configuration methods reserved to the owner; `running` is the present state of the contract. -/
def Setting.role (running : Bool) : Setting → Role
  | .setOwner _ | .extendGuardians _ | .removeGuardians _ | .wnear _ | .adminFee _
  | .unregisterRate _ | .updateDegen .. | .unregisterDegen _ | .unregisterOracle _
  | .updateOracle .. | .updateLimit .. | .removeLimit _ | .removeEchoTokens _
  | .removeEchoSenders _ | .removeSecureSenders _ => .owner
  | .changeState r => if running = false ∧ r = true then .owner else .manager
  | _ => .manager

/-- The right each method requires. -/
def Call.role (running : Bool) : Call → Role
  | .setting s => s.role running
  | .retrieveUnmanaged .. => .owner
  | .addCurvePool .. | .modifyTotalFee .. | .removeExchangeFee .. | .withdrawOwnerToken ..
  | .rampAmp .. | .stopRampAmp .. | .registerTwap .. | .unregisterTwap .. => .manager
  | .onBurrowLiquidation .. => .lender
  | _ => .anyone

namespace Contract

theorem applySetting_role {c : Contract} {x : Ctx} {s : Setting} {g : Config}
    (h : c.applySetting x s = .ok g) : (s.role c.cfg.running).has c.cfg x.pred := by
  unfold applySetting Config.assertOwner Config.assertManager Ctx.oneYocto at h
  unpack at h
  obtain ⟨-, h⟩ := h
  cases s <;> simp only [Setting.role] <;> simp only [] at h <;> (try unpack at h)
  case changeState r =>
    obtain ⟨h1, h⟩ := h
    split
    · rename_i hr
      split at h
      · unpack at h; exact h.1 hr.2
      · rename_i hn; rw [hr.1, hr.2] at hn; simp at hn
    · exact h1
  all_goals exact h.1

/-- **C21**. Every method succeeds only for the accounts entitled to it. -/
theorem C21_roles {c c' : Contract} {x : Ctx} {k : Call} {outs : List Out}
    (h : c.exec x k = .ok (c', outs)) : (k.role c.cfg.running).has c.cfg x.pred := by
  cases k <;> simp only [Call.role] <;> try trivial
  case addCurvePool => obtain ⟨_, h, -⟩ := addCurvePool_inv h; exact h
  case onBurrowLiquidation =>
    obtain ⟨_, _, _, _, _, _, _, _, _, _, _, -, h, -⟩ := onBurrowLiquidation_inv h; exact h.symm
  case setting s =>
    simp only [exec] at h; unpack at h; obtain ⟨_, h, -⟩ := h
    obtain ⟨g, h, -⟩ := setting_inv h
    exact applySetting_role h
  case retrieveUnmanaged =>
    simp only [exec] at h; unpack at h; obtain ⟨_, h, -⟩ := h; exact (retrieveUnmanaged_inv h).1
  case modifyTotalFee =>
    simp only [exec] at h; unpack at h; obtain ⟨_, h, -⟩ := h
    obtain ⟨_, -, h, -⟩ := modifyTotalFee_inv h; exact h
  case removeExchangeFee =>
    simp only [exec] at h; unpack at h; obtain ⟨_, h, -⟩ := h
    obtain ⟨_, _, _, _, _, -, h, -⟩ := removeExchangeFee_inv h; exact h
  case withdrawOwnerToken => obtain ⟨_, _, -, h, -⟩ := withdrawOwnerToken_inv h; exact h
  case rampAmp =>
    simp only [exec] at h; unpack at h; obtain ⟨_, h, -⟩ := h
    obtain ⟨_, _, -, h, -⟩ := rampAmp_inv h; exact h
  case stopRampAmp =>
    simp only [exec] at h; unpack at h; obtain ⟨_, h, -⟩ := h
    obtain ⟨_, _, -, h, -⟩ := stopRampAmp_inv h; exact h
  case registerTwap =>
    simp only [exec] at h; unpack at h; obtain ⟨_, h, -⟩ := h
    exact (registerTwap_inv h).2.1
  case unregisterTwap =>
    simp only [exec] at h; unpack at h; obtain ⟨_, h, -⟩ := h
    exact (unregisterTwap_inv h).2.1

example : (c1.exec (y guard) (.setting (.changeState false))).holds (fun _ => true) = true ∧
    (cPaused.exec (y guard) (.setting (.changeState true))).holds (fun _ => true) = false ∧
    (cPaused.exec (y own) (.setting (.changeState true))).holds (fun _ => true) = true ∧
    (c1.exec (y guard) (.setting (.adminFee 100))).holds (fun _ => true) = false ∧
    (c1.exec (y al) (.setting (.extendFrozen [A]))).holds (fun _ => true) = false := by
  decide +kernel

end Contract

/-- The part of the configuration that is the owner's alone. -/
structure OwnerPart where
  owner : AccountId
  guardians : List AccountId
  adminFeeBps : Nat
  wnear : Option AccountId

def Config.ownerPart (g : Config) : OwnerPart := ⟨g.owner, g.guardians, g.adminFeeBps, g.wnear⟩

/-- The part of the configuration that oracles cannot change. -/
def Config.noPrices (g : Config) : Config :=
  { g with rates := FMap.empty, degens := FMap.empty }

namespace Contract

/-- **C21**, the effect of one event. Owner, guardians, admin fee and wNEAR contract change only in
a call signed by the owner, and so does the state from paused to running. -/
theorem C21_owner_part {c c' : Contract} {e : Event} {outs : List Out}
    (h : c.apply e = .ok (c', outs))
    (hn : ∀ x k, e = .call x k → x.pred ≠ c.cfg.owner) :
    c'.cfg.ownerPart = c.cfg.ownerPart ∧ (c'.cfg.running = true → c.cfg.running = true) := by
  cases e <;> simp only [apply] at h
  case call x k =>
    have hne := hn x k rfl
    obtain ⟨-, h2 | ⟨s, rfl, h2⟩⟩ := exec_cfg h
    · rw [h2]; exact ⟨rfl, fun h => h⟩
    · replace h := h2
      unfold applySetting Config.assertOwner Config.assertManager Ctx.oneYocto at h
      unpack at h
      obtain ⟨-, h⟩ := h
      cases s <;> simp only [] at h <;> try unpack at h
      case changeState r =>
        obtain ⟨-, h⟩ := h
        split at h
        · unpack at h
          obtain ⟨h1, h⟩ := h
          rw [← h]
          refine ⟨rfl, fun hr => absurd (h1 hr) hne⟩
        · injection h with h; rw [← h]; exact ⟨rfl, fun h => h⟩
      case registerOracle o =>
        obtain ⟨-, -, h⟩ := h
        rw [← h]
        cases o <;> exact ⟨rfl, fun h => h⟩
      case registerRate =>
        obtain ⟨-, -, -, _, -, h⟩ := h
        rw [← h]; exact ⟨rfl, fun h => h⟩
      case rateExtraInfo =>
        obtain ⟨-, _, -, -, -, _, -, h⟩ := h
        rw [← h]; exact ⟨rfl, fun h => h⟩
      all_goals first
        | exact absurd h.1 hne
        | (obtain ⟨-, h⟩ := h; rw [← h]; exact ⟨rfl, fun h => h⟩)
        | (obtain ⟨-, -, h⟩ := h; rw [← h]; exact ⟨rfl, fun h => h⟩)
        | (obtain ⟨-, -, -, -, h⟩ := h; rw [← h]; exact ⟨rfl, fun h => h⟩)
        | (obtain ⟨-, _, -, h⟩ := h; rw [← h]; exact ⟨rfl, fun h => h⟩)
  case callback => rw [(callback_same h).1]; exact ⟨rfl, fun h => h⟩
  case rate t r time =>
    cases h; unfold setRate; split <;> exact ⟨rfl, fun h => h⟩
  case price t p time =>
    cases h; unfold setDegenPrice; split <;> exact ⟨rfl, fun h => h⟩

/-- **C21**, the effect of one event. Nobody but the owner and the guardians changes the
configuration; oracles change rates and prices only. -/
theorem C21_config {c c' : Contract} {e : Event} {outs : List Out}
    (h : c.apply e = .ok (c', outs))
    (hn : ∀ x k, e = .call x k → x.pred ≠ c.cfg.owner ∧ x.pred ∉ c.cfg.guardians) :
    c'.cfg.noPrices = c.cfg.noPrices := by
  cases e <;> simp only [apply] at h
  case call x k =>
    obtain ⟨h1, h2⟩ := hn x k rfl
    obtain ⟨-, h3 | ⟨s, rfl, h3⟩⟩ := exec_cfg h
    · rw [h3]
    · have := C21_roles h
      simp only [Call.role] at this
      unfold Setting.role at this
      split at this <;> try exact absurd this h1
      · split at this
        · exact absurd this h1
        · rcases this with h | h
          · exact absurd h h1
          · exact absurd h h2
      · rcases this with h | h
        · exact absurd h h1
        · exact absurd h h2
  case callback => rw [(callback_same h).1]
  case rate t r time =>
    cases h; unfold setRate; split <;> rfl
  case price t p time =>
    cases h; unfold setDegenPrice; split <;> rfl

/-- **C21** for histories. As long as the owner signs no call, owner, guardians, admin fee and
wNEAR contract stay what they were, and a paused contract stays paused. -/
theorem C21_history (es : List Event) : ∀ (c : Contract),
    (∀ x k, .call x k ∈ es → x.pred ≠ c.cfg.owner) →
    (c.run es).cfg.ownerPart = c.cfg.ownerPart ∧
    ((c.run es).cfg.running = true → c.cfg.running = true) := by
  induction es with
  | nil => intro c _; exact ⟨rfl, fun h => h⟩
  | cons e es ih =>
    intro c hn
    have hs : (c.step e).cfg.ownerPart = c.cfg.ownerPart ∧
        ((c.step e).cfg.running = true → c.cfg.running = true) := by
      unfold step
      cases ha : c.apply e with
      | error _ => exact ⟨rfl, fun h => h⟩
      | ok r => exact C21_owner_part ha fun x k he => hn x k (by simp [he])
    have ho : (c.step e).cfg.owner = c.cfg.owner := congrArg OwnerPart.owner hs.1
    have := ih (c.step e) (fun x k hk => by rw [ho]; exact hn x k (by simp [hk]))
    exact ⟨this.1.trans hs.1, fun h => hs.2 (this.2 h)⟩

/-- A history without a call of the owner in which something happens. -/
example : (∀ x k, .call x k ∈ [Event.call (y guard) (.setting (.extendFrozen [A])),
      .call (y al) (.withdraw B 5 false none)] → x.pred ≠ c1.cfg.owner) ∧
    (c1.run [.call (y guard) (.setting (.extendFrozen [A])),
      .call (y al) (.withdraw B 5 false none)]).cfg.frozen = [A] := by
  constructor
  · intro x k h
    simp only [List.mem_cons, Event.call.injEq, List.not_mem_nil, or_false] at h
    rcases h with ⟨rfl, -⟩ | ⟨rfl, -⟩ <;> decide +kernel
  · decide +kernel

/-- Guardians can take tokens off the frozen list as well. -/
theorem C21_guardian_unfreezes :
    ∃ c : Contract, c.Reachable ∧ ∃ x c', x.pred ≠ c.cfg.owner ∧ A ∈ c.cfg.frozen ∧
      c.exec x (.setting (.removeFrozen [A])) = .ok (c', []) ∧ A ∉ c'.cfg.frozen := by
  let es : List Event := setup ++ [.call (y own) (.setting (.extendFrozen [A]))]
  have key : ((c0.run es).exec (y guard) (.setting (.removeFrozen [A]))).holds
      (fun r => decide (r.2 = []) && decide ((y guard).pred ≠ (c0.run es).cfg.owner) &&
        decide (A ∈ (c0.run es).cfg.frozen) && decide (A ∉ r.1.cfg.frozen)) = true := by
    decide +kernel
  obtain ⟨r, h1, h2⟩ := R.holds_iff.1 key
  simp only [Bool.and_eq_true, decide_eq_true_eq] at h2
  exact ⟨c0.run es, ⟨ex, own, farm, bur, 1600, 400, c0, es, rfl, rfl⟩, y guard, r.1, h2.1.1.2,
    h2.1.2, by rw [h1, ← h2.1.1.1], h2.2⟩

end Contract
end Verif

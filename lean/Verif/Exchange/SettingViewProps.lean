import Verif.Exchange.SettingView
import Verif.Exchange.Access
import Verif.Exchange.FrozenProps
import Verif.Exchange.TransferProps
import Verif.Exchange.LimitProps
import Verif.Exchange.PoolViewProps

/-
C80: what the views report about the settings is what the calls obey, and the emergency controls
work whenever they are needed.
-/

namespace Verif

open Demo

/-! ### Sets -/

theorem mem_setInsertAll {a : List Char} : ∀ {items set : List (List Char)},
    a ∈ setInsertAll set items ↔ a ∈ set ∨ a ∈ items
  | [], set => by simp [setInsertAll]
  | i :: is, set => by
    have hl : setInsertAll set (i :: is) = setInsertAll (if i ∈ set then set else i :: set) is := rfl
    rw [hl, mem_setInsertAll, List.mem_cons]
    by_cases hi : i ∈ set
    · rw [if_pos hi]
      constructor
      · rintro (h | h)
        · exact .inl h
        · exact .inr (.inr h)
      · rintro (h | rfl | h)
        · exact .inl h
        · exact .inl hi
        · exact .inr h
    · rw [if_neg hi, List.mem_cons]
      constructor
      · rintro ((h | h) | h)
        · exact .inr (.inl h)
        · exact .inl h
        · exact .inr (.inr h)
      · rintro (h | h | h)
        · exact .inl (.inr h)
        · exact .inl (.inl h)
        · exact .inr h

/-- A removal works exactly if all elements are there and none is named twice. -/
theorem setRemoveAll_iff {e : Err} : ∀ {items set : List (List Char)},
    (setRemoveAll e set items).isOk = true ↔ (∀ a ∈ items, a ∈ set) ∧ items.Nodup
  | [], set => by simp [setRemoveAll, Except.isOk, Except.toBool]
  | i :: is, set => by
    unfold setRemoveAll
    by_cases hi : i ∈ set
    · rw [assertE_true hi, ok_bind, setRemoveAll_iff, List.nodup_cons]
      simp only [List.mem_filter, decide_eq_true_eq, List.mem_cons, forall_eq_or_imp]
      constructor
      · rintro ⟨h1, h2⟩
        exact ⟨⟨hi, fun a ha => (h1 a ha).1⟩, fun hm => (h1 i hm).2 rfl, h2⟩
      · rintro ⟨⟨-, h1⟩, h2, h3⟩
        exact ⟨fun a ha => ⟨h1 a ha, fun he => h2 (he ▸ ha)⟩, h3⟩
    · constructor
      · intro h
        cases hk : assertE (i ∈ set) e with
        | error _ => rw [hk] at h; cases h
        | ok u => exact absurd (assertE_ok.1 hk) hi
      · rintro ⟨h, -⟩
        exact absurd (h i (List.mem_cons_self ..)) hi

theorem mem_setRemoveAll {e : Err} {a : List Char} : ∀ {items set s : List (List Char)},
    setRemoveAll e set items = .ok s → (a ∈ s ↔ a ∈ set ∧ a ∉ items)
  | [], set, s, h => by cases h; simp
  | i :: is, set, s, h => by
    unfold setRemoveAll at h
    unpack at h
    obtain ⟨-, h⟩ := h
    rw [mem_setRemoveAll h, List.mem_filter, decide_eq_true_eq, List.mem_cons, not_or, and_assoc]

namespace Contract

/-- The accounts the views name as entitled to the emergency controls. -/
def Manager (c : Contract) (a : AccountId) : Prop := a = c.metadata.owner ∨ a ∈ c.getGuardians

/-! ### Emergency controls -/

/-- **C80**, the emergency stop. In every state the owner and each guardian can stop the contract
with one yoctoNEAR. The metadata then say so, nothing else has changed, and every user operation
fails. -/
theorem C80_stop {c : Contract} {x : Ctx} (hm : c.Manager x.pred) (hx : x.deposit = 1) :
    ∃ c', c.exec x (.setting (.changeState false)) = .ok (c', []) ∧
      c'.metadata = { c.metadata with running := false } ∧
      c' = { c with cfg := { c.cfg with running := false } } ∧
      ∀ x' k, k.pausable = true → (∃ e, c'.exec x' k = .error e) ∧ c'.step (.call x' k) = c' := by
  refine ⟨{ c with cfg := { c.cfg with running := false } }, ?_, rfl, rfl,
    fun x' k hk => C19_paused_refuses rfl x' hk⟩
  have hs : c.applySetting x (.changeState false) = .ok { c.cfg with running := false } := by
    unfold applySetting Ctx.oneYocto Config.assertManager
    rw [assertE_true hx, ok_bind]
    simp only []
    rw [assertE_true (show x.pred = c.cfg.owner ∨ x.pred ∈ c.cfg.guardians from hm), ok_bind]
    by_cases hr : c.cfg.running = false
    · rw [if_neg (by rw [hr]; simp), ← hr]
    · rw [if_pos hr, assertE_true (by simp), ok_bind]
  simp only [exec, setting, hs, ok_bind]

/-- **C80**. The owner can always start the contract again. Nothing else changes. -/
theorem C80_start {c : Contract} {x : Ctx} (hm : x.pred = c.metadata.owner) (hx : x.deposit = 1) :
    ∃ c', c.exec x (.setting (.changeState true)) = .ok (c', []) ∧
      c'.metadata = { c.metadata with running := true } ∧
      c' = { c with cfg := { c.cfg with running := true } } := by
  refine ⟨{ c with cfg := { c.cfg with running := true } }, ?_, rfl, rfl⟩
  have hs : c.applySetting x (.changeState true) = .ok { c.cfg with running := true } := by
    unfold applySetting Ctx.oneYocto Config.assertManager
    rw [assertE_true hx, ok_bind]
    simp only []
    rw [assertE_true (show x.pred = c.cfg.owner ∨ x.pred ∈ c.cfg.guardians from .inl hm), ok_bind]
    by_cases hr : c.cfg.running = true
    · rw [if_neg (by rw [hr]; simp), ← hr]
    · rw [if_pos hr, assertE_true (c := True → x.pred = c.cfg.owner) (fun _ => hm), ok_bind]
  simp only [exec, setting, hs, ok_bind]

/-- **C80** for histories. Once the metadata say "paused", they say so, with the same owner, guardians,
admin fee and wNEAR contract, until the owner signs a call, and every user operation fails. -/
theorem C80_stays_stopped {c : Contract} {es : List Event} (hp : c.metadata.running = false)
    (hn : ∀ x k, .call x k ∈ es → x.pred ≠ c.metadata.owner) :
    (c.run es).metadata.running = false ∧ (c.run es).metadata.owner = c.metadata.owner ∧
    (c.run es).getGuardians = c.getGuardians ∧
    (c.run es).metadata.adminFeeBps = c.metadata.adminFeeBps ∧
    (c.run es).metadata.wnear = c.metadata.wnear ∧
    ∀ x k, k.pausable = true → ∃ e, (c.run es).exec x k = .error e := by
  obtain ⟨h1, h2⟩ := C21_history es c hn
  have hr : (c.run es).cfg.running = false := by
    cases hr : (c.run es).cfg.running with
    | false => rfl
    | true => have := h2 hr; rw [show c.cfg.running = false from hp] at this; cases this
  exact ⟨hr, congrArg OwnerPart.owner h1, congrArg OwnerPart.guardians h1,
    congrArg OwnerPart.adminFeeBps h1, congrArg OwnerPart.wnear h1,
    fun x k hk => (C19_paused_refuses hr x hk).1⟩

/-- **C80**, the token freeze. In every state the owner and each guardian can freeze any tokens with
one yoctoNEAR, whether they are frozen or known or not. The list of frozen tokens then has the old
ones and these, nothing else has changed, and every call that trades, deposits or withdraws a token
on the list fails. -/
theorem C80_freeze {c : Contract} {x : Ctx} (hm : c.Manager x.pred) (hx : x.deposit = 1)
    (l : List AccountId) :
    ∃ c', c.exec x (.setting (.extendFrozen l)) = .ok (c', []) ∧
      (∀ t, t ∈ c'.getFrozenTokens ↔ t ∈ c.getFrozenTokens ∨ t ∈ l) ∧
      c' = { c with cfg := { c.cfg with frozen := c'.getFrozenTokens } } ∧
      ∀ t ∈ c'.getFrozenTokens, ∀ x' k, t ∈ c'.trades x' k → ∃ e, c'.exec x' k = .error e := by
  refine ⟨{ c with cfg := { c.cfg with frozen := setInsertAll c.cfg.frozen l } }, ?_,
    fun t => mem_setInsertAll, rfl, fun t ht x' k hk => C20_refused ht hk⟩
  have hs : c.applySetting x (.extendFrozen l) =
      .ok { c.cfg with frozen := setInsertAll c.cfg.frozen l } := by
    unfold applySetting Ctx.oneYocto Config.assertManager
    rw [assertE_true hx, ok_bind]
    simp only []
    rw [assertE_true (show x.pred = c.cfg.owner ∨ x.pred ∈ c.cfg.guardians from hm), ok_bind]
  simp only [exec, setting, hs, ok_bind]

/-- **C80**. Tokens can be taken off the frozen list exactly if all of them are on it and none is named
twice; the list then has the others. -/
theorem C80_unfreeze {c : Contract} {x : Ctx} {l : List AccountId} :
    ((∃ c' outs, c.exec x (.setting (.removeFrozen l)) = .ok (c', outs)) ↔
      c.Manager x.pred ∧ x.deposit = 1 ∧ (∀ t ∈ l, t ∈ c.getFrozenTokens) ∧ l.Nodup) ∧
    ∀ {c' : Contract} {outs : List Out}, c.exec x (.setting (.removeFrozen l)) = .ok (c', outs) →
      (∀ t, t ∈ c'.getFrozenTokens ↔ t ∈ c.getFrozenTokens ∧ t ∉ l) ∧
      c' = { c with cfg := { c.cfg with frozen := c'.getFrozenTokens } } := by
  have inv : ∀ {c' : Contract} {outs : List Out},
      c.exec x (.setting (.removeFrozen l)) = .ok (c', outs) →
      x.deposit = 1 ∧ c.Manager x.pred ∧ ∃ s, setRemoveAll (.e 53) c.cfg.frozen l = .ok s ∧
        c' = { c with cfg := { c.cfg with frozen := s } } := by
    intro c' outs h
    simp only [exec] at h
    unpack at h
    obtain ⟨c1, h, rfl, -⟩ := h
    obtain ⟨g, hg, rfl⟩ := setting_inv h
    unfold applySetting Ctx.oneYocto Config.assertManager at hg
    unpack at hg
    obtain ⟨h1, h2, s, h3, rfl⟩ := hg
    exact ⟨h1, h2, s, h3, rfl⟩
  refine ⟨⟨?_, ?_⟩, ?_⟩
  · rintro ⟨c', outs, h⟩
    obtain ⟨h1, h2, s, h3, -⟩ := inv h
    have := setRemoveAll_iff.1 (show (setRemoveAll (.e 53) c.cfg.frozen l).isOk = true by rw [h3]; rfl)
    exact ⟨h2, h1, this⟩
  · rintro ⟨h1, h2, h3⟩
    have h4 := setRemoveAll_iff (e := .e 53).2 h3
    cases hs : setRemoveAll (.e 53) c.getFrozenTokens l with
    | error e => rw [hs] at h4; cases h4
    | ok s =>
      refine ⟨{ c with cfg := { c.cfg with frozen := s } }, [], ?_⟩
      have hs' : c.applySetting x (.removeFrozen l) = .ok { c.cfg with frozen := s } := by
        unfold applySetting Ctx.oneYocto Config.assertManager
        rw [assertE_true h2, ok_bind]
        simp only []
        rw [assertE_true (show x.pred = c.cfg.owner ∨ x.pred ∈ c.cfg.guardians from h1), ok_bind,
          show setRemoveAll (.e 53) c.cfg.frozen l = .ok s from hs, ok_bind]
      simp only [exec, setting, hs', ok_bind]
  · intro c' outs h
    obtain ⟨-, -, s, h3, rfl⟩ := inv h
    exact ⟨fun t => mem_setRemoveAll h3, rfl⟩

/-- A guardian stops the demo contract and freezes a token; the owner starts it again. -/
example : c1.Manager guard ∧ c1.Manager own ∧ ¬ c1.Manager al ∧
    (c1.step (.call (y guard) (.setting (.changeState false)))).metadata.running = false ∧
    (c1.step (.call (y guard) (.setting (.extendFrozen [A, A])))).getFrozenTokens = [A] ∧
    (c1.run [.call (y guard) (.setting (.changeState false)),
      .call (y guard) (.setting (.changeState true))]).metadata.running = false ∧
    (c1.run [.call (y guard) (.setting (.changeState false)),
      .call (y own) (.setting (.changeState true))]).metadata.running = true := by
  unfold Manager
  decide +kernel

/-! ### What the settings views report after a change -/

/-- The settings the views report as a whole. -/
structure Settings where
  info : Metadata
  frozen : List AccountId
  whitelist : List AccountId

/-- `t` is in the new list exactly if it was in the old one or was added. -/
def Added (old new l : List (List Char)) : Prop := ∀ t, t ∈ new ↔ t ∈ old ∨ t ∈ l

/-- All of `l` were in the old list, and the new one has the others. -/
def Removed (old new l : List (List Char)) : Prop :=
  (∀ t ∈ l, t ∈ old) ∧ ∀ t, t ∈ new ↔ t ∈ old ∧ t ∉ l

/-- What the views report after a configuration method, given what they reported before. -/
def Reported (m m' : Settings) : Setting → Prop
  | .setOwner a => m' = { m with info := { m.info with owner := a } }
  | .boostFarm a => m' = { m with info := { m.info with boostFarm := a } }
  | .burrowland a => m' = { m with info := { m.info with burrowland := a } }
  | .wnear a => m' = { m with info := { m.info with wnear := some a } }
  | .changeState r => m' = { m with info := { m.info with running := r } }
  | .adminFee bps => m' = { m with info := { m.info with adminFeeBps := bps } } ∧ bps ≤ 8000
  | .recordInterval sec => m' = { m with info := { m.info with recordInterval := sec } }
  | .extendGuardians l => m' = { m with info := { m.info with guardians := m'.info.guardians } } ∧
      Added m.info.guardians m'.info.guardians l
  | .removeGuardians l => m' = { m with info := { m.info with guardians := m'.info.guardians } } ∧
      Removed m.info.guardians m'.info.guardians l
  | .extendPostfixes l => m' = { m with info := { m.info with postfixes := m'.info.postfixes } } ∧
      Added m.info.postfixes m'.info.postfixes l
  | .removePostfixes l => m' = { m with info := { m.info with postfixes := m'.info.postfixes } } ∧
      Removed m.info.postfixes m'.info.postfixes l
  | .extendWhitelist l => m' = { m with whitelist := m'.whitelist } ∧ Added m.whitelist m'.whitelist l
  | .removeWhitelist l => m' = { m with whitelist := m'.whitelist } ∧ Removed m.whitelist m'.whitelist l
  | .extendFrozen l => m' = { m with frozen := m'.frozen } ∧ Added m.frozen m'.frozen l
  | .removeFrozen l => m' = { m with frozen := m'.frozen } ∧ Removed m.frozen m'.frozen l
  | _ => m' = m

def settings (c : Contract) : Settings := ⟨c.metadata, c.getFrozenTokens, c.getWhitelistedTokens⟩

theorem removed_of {e : Err} {set l s : List (List Char)} (h : setRemoveAll e set l = .ok s) :
    Removed set s l :=
  ⟨(setRemoveAll_iff.1 (show (setRemoveAll e set l).isOk = true by rw [h]; rfl)).1,
    fun _ => mem_setRemoveAll h⟩

/-- **C80**. After each configuration method the views report exactly what was asked for, and the
others report what they did before. -/
theorem C80_reported {c c' : Contract} {x : Ctx} {s : Setting} {outs : List Out}
    (h : c.exec x (.setting s) = .ok (c', outs)) : Reported c.settings c'.settings s := by
  simp only [exec] at h
  unpack at h
  obtain ⟨c1, h0, rfl, -⟩ := h
  obtain ⟨g, h, rfl⟩ := setting_inv h0
  clear h0
  unfold applySetting Config.assertOwner Config.assertManager Ctx.oneYocto at h
  unpack at h
  obtain ⟨-, h⟩ := h
  cases s <;> simp only [] at h <;> (try unpack at h) <;> simp only [Reported]
  case changeState r =>
    obtain ⟨-, h⟩ := h
    split at h
    · unpack at h
      obtain ⟨-, rfl⟩ := h
      rfl
    · rename_i hr
      cases h
      rw [Decidable.not_not] at hr
      rw [← hr]
      rfl
  case adminFee => obtain ⟨-, h1, rfl⟩ := h; exact ⟨rfl, h1⟩
  case extendGuardians => obtain ⟨-, rfl⟩ := h; exact ⟨rfl, fun _ => mem_setInsertAll⟩
  case extendPostfixes => obtain ⟨-, rfl⟩ := h; exact ⟨rfl, fun _ => mem_setInsertAll⟩
  case extendWhitelist => obtain ⟨-, rfl⟩ := h; exact ⟨rfl, fun _ => mem_setInsertAll⟩
  case extendFrozen => obtain ⟨-, rfl⟩ := h; exact ⟨rfl, fun _ => mem_setInsertAll⟩
  case removeGuardians => obtain ⟨-, s, h1, rfl⟩ := h; exact ⟨rfl, removed_of h1⟩
  case removePostfixes => obtain ⟨-, s, h1, rfl⟩ := h; exact ⟨rfl, removed_of h1⟩
  case removeWhitelist => obtain ⟨-, s, h1, rfl⟩ := h; exact ⟨rfl, removed_of h1⟩
  case removeFrozen => obtain ⟨-, s, h1, rfl⟩ := h; exact ⟨rfl, removed_of h1⟩
  case registerOracle o => obtain ⟨-, -, rfl⟩ := h; cases o <;> rfl
  case updateOracle o => obtain ⟨-, -, rfl⟩ := h; cases o <;> rfl
  case unregisterOracle p => obtain ⟨-, rfl⟩ := h; cases p <;> rfl
  all_goals first
    | (obtain ⟨-, rfl⟩ := h; rfl)
    | (obtain ⟨-, -, rfl⟩ := h; rfl)
    | (obtain ⟨-, _, -, rfl⟩ := h; rfl)
    | (obtain ⟨-, -, -, _, -, rfl⟩ := h; rfl)
    | (obtain ⟨-, _, -, -, -, _, -, rfl⟩ := h; rfl)

/-- Which of the two oracles a configuration is for. -/
def _root_.Verif.OracleConfig.isPyth : OracleConfig → Bool
  | .price _ => false
  | .pyth _ => true

/-- How long a price is accepted under a configuration. -/
def _root_.Verif.OracleConfig.expire : OracleConfig → Nat
  | .price o => o.expire
  | .pyth o => o.expire

/-- Which of the two oracles a degen token takes its price from. -/
def _root_.Verif.DegenSource.isPyth : DegenSource → Bool
  | .priceOracle _ => false
  | .pyth _ => true

/-- What the list of oracle configurations is after a configuration method, given what it was
before. -/
def OraclesReported (l l' : List OracleConfig) : Setting → Prop
  | .registerOracle o => (∀ y ∈ l, y.isPyth ≠ o.isPyth) ∧ ∀ y, y ∈ l' ↔ y = o ∨ y ∈ l
  | .updateOracle o => (∃ y ∈ l, y.isPyth = o.isPyth) ∧
      ∀ y, y ∈ l' ↔ y = o ∨ y ∈ l ∧ y.isPyth ≠ o.isPyth
  | .unregisterOracle p => ∀ y, y ∈ l' ↔ y ∈ l ∧ y.isPyth ≠ p
  | _ => l' = l

/-- **C80**. The list of oracle configurations: it changes only by the methods for it, which add,
replace and remove exactly the configuration they name; and prices expire as the listed configuration
of their oracle says. -/
theorem C80_oracles {c c' : Contract} {x : Ctx} {s : Setting} {outs : List Out}
    (h : c.exec x (.setting s) = .ok (c', outs)) :
    OraclesReported c.listOracleConfigs c'.listOracleConfigs s ∧
    ∀ (d : DegenSource) (n : Nat), c'.cfg.expire d = some n ↔
      ∃ y ∈ c'.listOracleConfigs, y.isPyth = d.isPyth ∧ y.expire = n := by
  constructor
  · simp only [exec] at h
    unpack at h
    obtain ⟨c1, h0, rfl, -⟩ := h
    obtain ⟨g, h, rfl⟩ := setting_inv h0
    clear h0
    unfold OraclesReported
    unfold applySetting Config.assertOwner Config.assertManager Ctx.oneYocto at h
    unpack at h
    obtain ⟨-, h⟩ := h
    cases s <;> simp only [] at h <;> (try unpack at h)
    case registerOracle o =>
      obtain ⟨-, h1, rfl⟩ := h
      cases o <;> cases hp : c.cfg.priceOracle <;> cases hy : c.cfg.pythOracle <;>
        simp_all [listOracleConfigs, Config.setOracle, Config.hasOracle, OracleConfig.isPyth, or_comm]
    case updateOracle o =>
      obtain ⟨-, h1, rfl⟩ := h
      cases o <;> cases hp : c.cfg.priceOracle <;> cases hy : c.cfg.pythOracle <;>
        simp_all [listOracleConfigs, Config.setOracle, Config.hasOracle, OracleConfig.isPyth]
      all_goals (intro y; cases y <;> simp)
    case unregisterOracle p =>
      obtain ⟨-, rfl⟩ := h
      cases p <;> cases hp : c.cfg.priceOracle <;> cases hy : c.cfg.pythOracle <;>
        simp_all [listOracleConfigs, Config.dropOracle, OracleConfig.isPyth]
      all_goals (intro y; cases y <;> simp)
    case changeState r =>
      obtain ⟨-, h⟩ := h
      split at h
      · unpack at h
        obtain ⟨-, rfl⟩ := h
        rfl
      · cases h; rfl
    case adminFee => obtain ⟨-, h1, rfl⟩ := h; rfl
    case removeGuardians => obtain ⟨-, s, h1, rfl⟩ := h; rfl
    case removePostfixes => obtain ⟨-, s, h1, rfl⟩ := h; rfl
    case removeWhitelist => obtain ⟨-, s, h1, rfl⟩ := h; rfl
    case removeFrozen => obtain ⟨-, s, h1, rfl⟩ := h; rfl
    all_goals first
      | (obtain ⟨-, rfl⟩ := h; rfl)
      | (obtain ⟨-, -, rfl⟩ := h; rfl)
      | (obtain ⟨-, _, -, rfl⟩ := h; rfl)
      | (obtain ⟨-, -, -, _, -, rfl⟩ := h; rfl)
      | (obtain ⟨-, _, -, -, -, _, -, rfl⟩ := h; rfl)
  · intro d n
    cases d <;> cases hp : c'.cfg.priceOracle <;> cases hy : c'.cfg.pythOracle <;>
      simp [listOracleConfigs, hp, hy, Config.expire, OracleConfig.isPyth, DegenSource.isPyth,
        OracleConfig.expire]

open Demo in
/-- A price oracle configuration is replaced by the owner, while that of the other oracle stays. -/
example : (c4.exec (y own) (.setting (.updateOracle (.price ⟨60, 5, 5⟩)))).isOk = true ∧
    (c4.listOracleConfigs.map OracleConfig.isPyth) = [false] ∧
    ((c4.run [.call (y own) (.setting (.registerOracle (.pyth ⟨70, 9⟩))),
      .call (y own) (.setting (.updateOracle (.price ⟨60, 5, 5⟩)))]).listOracleConfigs.map
        fun o => (o.isPyth, o.expire)) = [(false, 60), (true, 70)] := by
  decide +kernel

/-- As long as neither the owner nor a guardian signs a call, the configuration changes in nothing but
rates and prices. -/
theorem cfg_unmanaged : ∀ (es : List Event) (c : Contract),
    (∀ x k, .call x k ∈ es → ¬ c.Manager x.pred) → (c.run es).cfg.noPrices = c.cfg.noPrices := by
  intro es
  induction es with
  | nil => intro c _; rfl
  | cons e es ih =>
    intro c hn
    have hs : (c.step e).cfg.noPrices = c.cfg.noPrices := by
      unfold step
      cases ha : c.apply e with
      | error _ => rfl
      | ok r =>
        exact C21_config ha fun x k he => not_or.1 (hn x k (by simp [he]))
    have ho : (c.step e).cfg.owner = c.cfg.owner := by
      have := congrArg Config.owner hs; exact this
    have hg : (c.step e).cfg.guardians = c.cfg.guardians := by
      have := congrArg Config.guardians hs; exact this
    have := ih (c.step e) (fun x k hk => by
      unfold Manager metadata getGuardians
      rw [ho, hg]
      exact hn x k (by simp [hk]))
    exact this.trans hs

/-- **C80** for histories. As long as neither the owner nor a guardian signs a call, the views on the
settings report what they did, apart from the number of pools. -/
theorem C80_unchanged (es : List Event) : ∀ (c : Contract),
    (∀ x k, .call x k ∈ es → ¬ c.Manager x.pred) →
    (c.run es).settings = { c.settings with
      info := { c.metadata with poolCount := (c.run es).metadata.poolCount } } := by
  intro c hn
  have h := cfg_unmanaged es c hn
  have e1 := congrArg Config.owner h
  have e2 := congrArg Config.boostFarm h
  have e3 := congrArg Config.burrowland h
  have e4 := congrArg Config.guardians h
  have e5 := congrArg Config.running h
  have e6 := congrArg Config.adminFeeBps h
  have e7 := congrArg Config.recordInterval h
  have e8 := congrArg Config.wnear h
  have e9 := congrArg Config.postfixes h
  have e10 := congrArg Config.frozen h
  have e11 := congrArg Config.whitelist h
  simp only [Config.noPrices] at e1 e2 e3 e4 e5 e6 e7 e8 e9 e10 e11
  unfold settings metadata getFrozenTokens getWhitelistedTokens
  rw [e1, e2, e3, e4, e5, e6, e7, e8, e9, e10, e11]

/-! ### Accepted tokens -/

/-- The views name the token as accepted from the account: it is listed for everybody, its name ends
with a listed postfix, or the account has registered it. -/
def Listed (c : Contract) (a t : AccountId) : Prop :=
  t ∈ c.getWhitelistedTokens ∨ (∃ post ∈ c.metadata.postfixes, ∃ pre, t = pre ++ post) ∨
  t ∈ c.getUserTokens a

theorem listed_iff {c : Contract} {a t : AccountId} : c.Listed a t ↔ c.Accepts a t := by
  have hk : t ∈ c.getUserTokens a ↔
      ∃ acc, c.accounts.get? a = some acc ∧ acc.registered t = true := by
    unfold getUserTokens Account.registered
    rcases Option.eq_none_or_eq_some (c.accounts.get? a) with ha | ⟨acc, ha⟩
    · simp [ha]
    · simp only [ha, Option.some.injEq, exists_eq_left']
      unfold FMap.keys FMap.contains
      rw [List.mem_map, Option.isSome_iff_exists]
      constructor
      · rintro ⟨⟨t', v⟩, hm, rfl⟩
        exact ⟨v, (FMap.mem_entries_iff _).1 hm⟩
      · rintro ⟨v, hv⟩
        exact ⟨(t, v), (FMap.mem_entries_iff _).2 hv, rfl⟩
  unfold Listed Accepts
  rw [hk]
  rfl

/-- **C80**. A deposit of a token that no view names as accepted fails and changes nothing. -/
theorem C80_unlisted {c : Contract} {x : Ctx} {sender : AccountId} {amount : Nat}
    (h : ¬ c.Listed sender x.pred) :
    (∃ err, c.exec x (.ftOnTransfer sender amount .deposit) = .error err) ∧
    c.step (.call x (.ftOnTransfer sender amount .deposit)) = c :=
  C29_refused fun ha => h (listed_iff.2 ha)

/-- **C80**. A deposit of a token that a view names as accepted and none as frozen is credited while
the metadata say that the contract runs, if the account's storage is paid and the balance fits. -/
theorem C80_listed {c : Contract} {x : Ctx} {sender : AccountId} {amount : Nat} {acc : Account}
    (hx : x.deposit = 0) (hr : c.metadata.running = true) (hf : x.pred ∉ c.getFrozenTokens)
    (ha : c.accounts.get? sender = some acc) (hk : c.Listed sender x.pred)
    (hn : amount + acc.bal x.pred < 2 ^ 128)
    (hs : ∀ acc', acc.deposit x.pred amount = .ok acc' → acc'.storageUsage ≤ acc'.near) :
    ∃ c', c.exec x (.ftOnTransfer sender amount .deposit) = .ok (c', []) ∧
      ∀ a t, c'.depositOf a t = c.depositOf a t + if a = sender ∧ t = x.pred then amount else 0 := by
  obtain ⟨c', h⟩ := C29_accepted hx hr hf ha (listed_iff.1 hk) hn hs
  exact ⟨c', h, (C29_deposit h).2.2.2⟩

/-! ### Rates -/

theorem mem_mapM {α β : Type} {f : α → R β} {as : List α} {bs : List β} (h : as.mapM f = .ok bs) :
    (∀ b, b ∈ bs ↔ ∃ a ∈ as, f a = .ok b) ∧ ∀ a ∈ as, ∃ b, f a = .ok b := by
  have h' := mapM_forall₂ h
  clear h
  induction h' with
  | nil => simp
  | @cons a b as bs h1 _ ih =>
    refine ⟨fun b' => ?_, fun a' ha => ?_⟩
    · rw [List.mem_cons, ih.1]
      constructor
      · rintro (rfl | ⟨a', ha, hf⟩)
        · exact ⟨a, List.mem_cons_self .., h1⟩
        · exact ⟨a', List.mem_cons_of_mem _ ha, hf⟩
      · rintro ⟨a', ha, hf⟩
        rcases List.mem_cons.1 ha with rfl | ha
        · rw [h1] at hf; cases hf; exact .inl rfl
        · exact .inr ⟨a', ha, hf⟩
    · rcases List.mem_cons.1 ha with rfl | ha
      · exact ⟨b, h1⟩
      · exact ih.2 a' ha

theorem mem_rated {c : Contract} {now : Nat} {l : List (AccountId × RatedTokenInfo)}
    (h : c.listRatedTokens now = .ok l) :
    (∀ {t : AccountId} {i : RatedTokenInfo}, (t, i) ∈ l → ∃ r, c.cfg.rates.get? t = some r ∧
      i = ⟨r.rate, r.updated, decide (now ≤ r.updated + Config.RATE_EXPIRE), r.source⟩) ∧
    ∀ {t : AccountId} {r : RateInfo}, c.cfg.rates.get? t = some r →
      r.updated + Config.RATE_EXPIRE < 2 ^ 64 ∧
      (t, ⟨r.rate, r.updated, decide (now ≤ r.updated + Config.RATE_EXPIRE), r.source⟩) ∈ l := by
  constructor
  · intro t i hi
    obtain ⟨⟨t', r⟩, hm, hf⟩ := ((mem_mapM h).1 _).1 hi
    unfold ratedTokenInfo at hf
    unpack at hf
    obtain ⟨-, rfl, rfl⟩ := hf
    exact ⟨r, (FMap.mem_entries_iff _).1 hm, rfl⟩
  · intro t r hr
    have hm := (FMap.mem_entries_iff _).2 hr
    obtain ⟨o, ho⟩ := (mem_mapM h).2 _ hm
    have ho' := ho
    unfold ratedTokenInfo at ho
    unpack at ho
    obtain ⟨h1, rfl⟩ := ho
    exact ⟨h1, ((mem_mapM h).1 _).2 ⟨_, hm, ho'⟩⟩

/-- **C80**. The list of rated tokens is what rated pools use: the details of a pool report the listed
rate of each of its tokens, or one to one if the token is not listed; and a listed rate is marked
valid exactly for 24 hours after its update. -/
theorem C80_rates {c : Contract} {now : Nat} {l : List (AccountId × RatedTokenInfo)}
    (h : c.listRatedTokens now = .ok l) :
    (∀ t i, (t, i) ∈ l → (i.isValid = true ↔ now ≤ i.updated + 24 * 3600 * 10 ^ 9)) ∧
    ∀ {id : Nat} {i : PoolInfo} {y : CurveInfo}, c.getPoolDetail now id = .ok (i, some y) →
      i.kind = some .rated → ∀ (j : Nat) (t : AccountId), i.tokens[j]? = some t →
        (∀ inf, (t, inf) ∈ l → y.rates[j]? = some inf.rate) ∧
        ((∀ inf, (t, inf) ∉ l) → y.rates[j]? = some (10 ^ 24)) := by
  constructor
  · intro t i hi
    obtain ⟨r, -, rfl⟩ := (mem_rated h).1 hi
    simp only [decide_eq_true_eq]
    rfl
  · intro id i y hd hk j t ht
    rw [(C68_rates hd).1 hk, List.getElem?_map, ht]
    unfold Config.rateOf
    constructor
    · intro inf hi
      obtain ⟨r, hr, rfl⟩ := (mem_rated h).1 hi
      simp only [Option.map_some, hr]
    · intro hn
      rcases Option.eq_none_or_eq_some (c.cfg.rates.get? t) with hr | ⟨r, hr⟩
      · simp only [Option.map_some, hr]; rfl
      · exact absurd ((mem_rated h).2 hr).2 (hn _)

/-- The calls that fail when the rates or prices of pool `id` are out of date: swaps in the pool and
the removal of liquidity by token amounts. -/
def _root_.Verif.Call.needsRates (id : Nat) (k : Call) : Prop :=
  (∃ as, k.actions = some as ∧ ((∃ a, .swap a ∈ as ∧ a.pool = id) ∨ ∃ a, .byOutput a ∈ as ∧ a.pool = id)) ∨
  ∃ amounts maxBurn, k = .removeByTokens id amounts maxBurn

theorem needsRates_fresh {c c' : Contract} {x : Ctx} {k : Call} {outs : List Out} {id : Nat} {p : Pool}
    (hk : k.needsRates id) (hp : c.pools[id]? = some p) (h : c.exec x k = .ok (c', outs)) :
    c.cfg.Fresh x.now p := by
  rcases hk with ⟨as, ha, ⟨a, hm, rfl⟩ | ⟨a, hm, rfl⟩⟩ | ⟨amounts, maxBurn, rfl⟩
  · exact (C37_swaps_need_fresh_rates ha h).1 a p hm hp
  · exact (C37_swaps_need_fresh_rates ha h).2 a p hm hp
  · exact C37_removal_needs_fresh_rates h hp

/-- **C80**. A rated pool with a token whose rate is listed as not valid refuses swaps and removals by
token amounts, and a pool all of whose listed tokens are valid does not refuse them for the sake of
the rates. -/
theorem C80_rates_decide {c : Contract} {now : Nat} {l : List (AccountId × RatedTokenInfo)}
    (h : c.listRatedTokens now = .ok l) {id : Nat} {q : CurvePool}
    (hp : c.pools[id]? = some (.curve q)) (hk : q.kind = .rated) :
    ((∃ t ∈ q.toks, ∃ i, (t, i) ∈ l ∧ i.isValid = false) → ∀ (x : Ctx) (k : Call), x.now = now →
      k.needsRates id → ∃ e, c.exec x k = .error e) ∧
    ((∀ t ∈ q.toks, ∀ i, (t, i) ∈ l → i.isValid = true) →
      ∃ e, c.cfg.env now (.curve q) = .ok e ∧ q.assertRates e = .ok ()) := by
  constructor
  · rintro ⟨t, ht, i, hi, hv⟩ x k rfl hn
    cases he : c.exec x k with
    | error e => exact ⟨e, rfl⟩
    | ok r =>
      exfalso
      have hf := needsRates_fresh (c' := r.1) (outs := r.2) hn hp he
      simp only [Config.Fresh, hk] at hf
      obtain ⟨r, hr, rfl⟩ := (mem_rated h).1 hi
      simp only [decide_eq_false_iff_not] at hv
      exact hv (hf t ht r hr)
  · intro hv
    refine ⟨⟨now, q.toks.map c.cfg.rateOf, q.toks.all (c.cfg.rateValid now)⟩, ?_, ?_⟩
    · simp only [Config.env, hk]
    · simp only [CurvePool.assertRates, hk]
      refine assertE_true (List.all_eq_true.2 fun t ht => ?_)
      unfold Config.rateValid
      rcases Option.eq_none_or_eq_some (c.cfg.rates.get? t) with hr | ⟨r, hr⟩
      · simp only [hr]
      · obtain ⟨h1, h2⟩ := (mem_rated h).2 hr
        have := hv t ht _ h2
        simp only [hr, Bool.and_eq_true]
        exact ⟨this, decide_eq_true h1⟩

/-- The rate of the demo contract, when it is set and two days later. -/
example : (c4.listRatedTokens (10 ^ 18)).holds (fun l => l.map (fun e =>
      (e.1, e.2.rate, e.2.isValid)) = [(A, 11 * 10 ^ 23, true)]) = true ∧
    (c4.listRatedTokens (10 ^ 18 + 2 * 24 * 3600 * 10 ^ 9)).holds (fun l => l.map (fun e =>
      (e.1, e.2.rate, e.2.isValid)) = [(A, 11 * 10 ^ 23, false)]) = true ∧
    (∃ q, c4.pools[2]? = some (.curve q) ∧ q.kind = .rated ∧ A ∈ q.toks) := by
  refine ⟨by decide +kernel, by decide +kernel, ?_⟩
  have key : (match (c4.pools[2]? : Option Pool) with
    | some (.curve q) => decide (q.kind = .rated ∧ A ∈ q.toks)
    | _ => false) = true := by decide +kernel
  split at key
  · rename_i q hq
    exact ⟨q, hq, of_decide_eq_true key⟩
  · cases key

/-! ### Prices -/

/-- What the list says about a degen token with the given price and oracle. -/
def degenEntry (now price updated expire : Nat) (source : DegenSource) : DegenTokenInfo :=
  ⟨price, updated, decide (now ≤ updated + expire), source⟩

theorem degenTokenInfo_ok {c : Contract} {now : Nat} {d : DegenInfo} {i : DegenTokenInfo}
    (h : c.degenTokenInfo now d = .ok i) : ∃ p u e, d.price = some (p, u) ∧
      c.cfg.expire d.source = some e ∧ u + e < 2 ^ 64 ∧ i = degenEntry now p u e d.source := by
  unfold degenTokenInfo at h
  unpack at h
  obtain ⟨p, u, h1, e, h2, h3, rfl⟩ := h
  exact ⟨p, u, e, h1, h2, h3, rfl⟩

theorem degenTokenInfo_of {c : Contract} {now p u e : Nat} {d : DegenInfo}
    (h1 : d.price = some (p, u)) (h2 : c.cfg.expire d.source = some e) (h3 : u + e < 2 ^ 64) :
    c.degenTokenInfo now d = .ok (degenEntry now p u e d.source) := by
  unfold degenTokenInfo
  rw [h1, h2]
  simp only [expectE, ok_bind, addW_ok.2 ⟨h3, rfl⟩]
  rfl

/-- **C80**, when the list of degen tokens can be read: exactly if every registered token has a price
and the oracle it takes it from is configured. -/
theorem C80_degen_readable {c : Contract} {now : Nat} :
    (∃ l, c.listDegenTokens now = .ok l) ↔ ∀ t d, c.cfg.degens.get? t = some d →
      ∃ p u e, d.price = some (p, u) ∧ c.cfg.expire d.source = some e ∧ u + e < 2 ^ 64 := by
  constructor
  · rintro ⟨l, h⟩ t d hd
    obtain ⟨o, ho⟩ := (mem_mapM h).2 _ ((FMap.mem_entries_iff _).2 hd)
    unpack at ho
    obtain ⟨i, ho, -⟩ := ho
    obtain ⟨p, u, e, h1, h2, h3, -⟩ := degenTokenInfo_ok ho
    exact ⟨p, u, e, h1, h2, h3⟩
  · intro h
    refine mapM_of_forall fun ⟨t, d⟩ hm => ?_
    obtain ⟨p, u, e, h1, h2, h3⟩ := h t d ((FMap.mem_entries_iff _).1 hm)
    simp only [degenTokenInfo_of h1 h2 h3, ok_bind]
    rfl

/-- **C80**, where the code falls short: as soon as a degen token is registered, and until its first
price arrives, nobody can read the list of degen tokens, and no batch that names the token. -/
theorem C80_degen_blocked {c c' : Contract} {x : Ctx} {t : AccountId} {source : DegenSource}
    {outs : List Out} (h : c.exec x (.setting (.registerDegen t source)) = .ok (c', outs)) (now : Nat) :
    (∀ l, c'.listDegenTokens now ≠ .ok l) ∧ ∀ ts, t ∈ ts → ∀ l, c'.batchGetDegenTokens now ts ≠ .ok l := by
  have hd : c'.cfg.degens.get? t = some ⟨none, source⟩ := by
    simp only [exec] at h
    unpack at h
    obtain ⟨c1, h, rfl, -⟩ := h
    obtain ⟨g, hg, rfl⟩ := setting_inv h
    unfold applySetting Ctx.oneYocto Config.assertManager at hg
    unpack at hg
    obtain ⟨-, -, -, rfl⟩ := hg
    exact FMap.get?_insert_self ..
  refine ⟨fun l hl => ?_, fun ts ht l hl => ?_⟩
  · obtain ⟨p, u, e, h1, -⟩ := C80_degen_readable.1 ⟨l, hl⟩ t _ hd
    cases h1
  · obtain ⟨o, ho⟩ := (mem_mapM hl).2 t ht
    simp only [hd] at ho
    unpack at ho
    obtain ⟨i, ho, -⟩ := ho
    obtain ⟨p, u, e, h1, -⟩ := degenTokenInfo_ok ho
    cases h1

theorem mem_degens {c : Contract} {now : Nat} {l : List (AccountId × DegenTokenInfo)}
    (h : c.listDegenTokens now = .ok l) :
    (∀ {t : AccountId} {i : DegenTokenInfo}, (t, i) ∈ l → ∃ d p u e, c.cfg.degens.get? t = some d ∧
      d.price = some (p, u) ∧ c.cfg.expire d.source = some e ∧ u + e < 2 ^ 64 ∧
      i = degenEntry now p u e d.source) ∧
    ∀ {t : AccountId} {d : DegenInfo}, c.cfg.degens.get? t = some d → ∃ i, (t, i) ∈ l := by
  constructor
  · intro t i hi
    obtain ⟨⟨t', d⟩, hm, hf⟩ := ((mem_mapM h).1 _).1 hi
    unpack at hf
    obtain ⟨j, hf, rfl, rfl⟩ := hf
    obtain ⟨p, u, e, h1, h2, h3, h4⟩ := degenTokenInfo_ok hf
    exact ⟨d, p, u, e, (FMap.mem_entries_iff _).1 hm, h1, h2, h3, h4⟩
  · intro t d hd
    have hm := (FMap.mem_entries_iff _).2 hd
    obtain ⟨o, ho⟩ := (mem_mapM h).2 _ hm
    have ho' := ho
    unpack at ho
    obtain ⟨i, -, rfl⟩ := ho
    exact ⟨i, ((mem_mapM h).1 _).2 ⟨_, hm, ho'⟩⟩

/-- **C80**. The list of degen tokens is what degen pools use: the details of a pool report the listed
price of each of its tokens; a batch reports for each token what the list does. -/
theorem C80_prices {c : Contract} {now : Nat} {l : List (AccountId × DegenTokenInfo)}
    (h : c.listDegenTokens now = .ok l) :
    (∀ {id : Nat} {i : PoolInfo} {y : CurveInfo}, c.getPoolDetail now id = .ok (i, some y) →
      i.kind = some .degen → ∀ (j : Nat) (t : AccountId), i.tokens[j]? = some t →
        ∃ inf, (t, inf) ∈ l ∧ y.rates[j]? = some inf.price) ∧
    ∀ ts, ∃ b, c.batchGetDegenTokens now ts = .ok b ∧ List.Forall₂ (fun t e => e.1 = t ∧
      (∀ i, e.2 = some i ↔ (t, i) ∈ l)) ts b := by
  constructor
  · intro id i y hd hk j t ht
    have hps := (C68_rates hd).2 hk
    have key : ∀ {ts : List AccountId} {ps : List Nat} (j : Nat), c.cfg.degensOf ts = .ok ps →
        ts[j]? = some t → ∃ p, ps[j]? = some p ∧ c.cfg.degenOf t = .ok p := by
      intro ts
      induction ts with
      | nil => intro ps j _ h; simp at h
      | cons s ts ih =>
        intro ps j h hj
        unfold Config.degensOf at h
        unpack at h
        obtain ⟨p, h1, ps', h2, rfl⟩ := h
        cases j with
        | zero =>
          simp only [List.getElem?_cons_zero, Option.some.injEq] at hj
          subst hj
          exact ⟨p, rfl, h1⟩
        | succ j => exact ih j h2 (by simpa using hj)
    obtain ⟨p, h1, h2⟩ := key j hps ht
    unfold Config.degenOf at h2
    unpack at h2
    obtain ⟨d, h2, p', u', h3, rfl⟩ := h2
    obtain ⟨inf, hi⟩ := (mem_degens h).2 h2
    refine ⟨inf, hi, ?_⟩
    obtain ⟨d', p, u, e, h4, h5, -, -, rfl⟩ := (mem_degens h).1 hi
    rw [h2] at h4; cases h4
    rw [h3] at h5; cases h5
    exact h1
  · intro ts
    obtain ⟨b, hb⟩ : ∃ b, c.batchGetDegenTokens now ts = .ok b := by
      refine mapM_of_forall fun t _ => ?_
      rcases Option.eq_none_or_eq_some (c.cfg.degens.get? t) with hd | ⟨d, hd⟩
      · simp only [hd]; rfl
      · obtain ⟨p, u, e, h1, h2, h3⟩ := C80_degen_readable.1 ⟨l, h⟩ t d hd
        simp only [hd, degenTokenInfo_of h1 h2 h3, ok_bind]; rfl
    refine ⟨b, hb, (mapM_forall₂ hb).imp fun t e he => ?_⟩
    rcases Option.eq_none_or_eq_some (c.cfg.degens.get? t) with hd | ⟨d, hd⟩
    · simp only [hd] at he
      cases he
      refine ⟨rfl, fun i => ⟨fun hi => (nomatch hi), fun hi => ?_⟩⟩
      obtain ⟨d, _, _, _, hd', -⟩ := (mem_degens h).1 hi
      rw [hd] at hd'; cases hd'
    · simp only [hd] at he
      unpack at he
      obtain ⟨i, he, rfl⟩ := he
      refine ⟨rfl, fun j => ?_⟩
      rw [Option.some.injEq]
      constructor
      · rintro rfl
        refine ((mem_mapM h).1 _).2 ⟨(t, d), (FMap.mem_entries_iff _).2 hd, ?_⟩
        simp only [he, ok_bind]
      · intro hj
        obtain ⟨⟨t', d'⟩, hm, hf⟩ := ((mem_mapM h).1 _).1 hj
        unpack at hf
        obtain ⟨k, hf, rfl, rfl⟩ := hf
        have := (FMap.mem_entries_iff _).1 hm
        rw [hd] at this; cases this
        rw [he] at hf; cases hf; rfl

/-- **C80**. A degen pool with a token that is not listed, or whose price is listed as not valid,
refuses swaps and removals by token amounts; one all of whose tokens are listed as valid does not
refuse them for the sake of the prices. -/
theorem C80_prices_decide {c : Contract} {now : Nat} {l : List (AccountId × DegenTokenInfo)}
    (h : c.listDegenTokens now = .ok l) {id : Nat} {q : CurvePool}
    (hp : c.pools[id]? = some (.curve q)) (hk : q.kind = .degen) :
    ((∃ t ∈ q.toks, ∀ i, (t, i) ∈ l → i.isValid = false) → ∀ (x : Ctx) (k : Call), x.now = now →
      k.needsRates id → ∃ e, c.exec x k = .error e) ∧
    ((∀ t ∈ q.toks, ∃ i, (t, i) ∈ l ∧ i.isValid = true) →
      ∃ e, c.cfg.env now (.curve q) = .ok e ∧ q.assertRates e = .ok ()) := by
  constructor
  · rintro ⟨t, ht, hv⟩ x k rfl hn
    cases he : c.exec x k with
    | error e => exact ⟨e, rfl⟩
    | ok r =>
      exfalso
      have hf := needsRates_fresh (c' := r.1) (outs := r.2) hn hp he
      simp only [Config.Fresh, hk] at hf
      obtain ⟨price, updated, source, hd, hs⟩ := hf t ht
      obtain ⟨i, hi⟩ := (mem_degens h).2 hd
      have hvi := hv i hi
      obtain ⟨d', p, u, e, h4, h5, h6, -, rfl⟩ := (mem_degens h).1 hi
      rw [hd] at h4; cases h4
      cases h5
      simp only [degenEntry, decide_eq_false_iff_not] at hvi
      rcases hs with ⟨dec, o, rfl, ho, hle⟩ | ⟨pid, o, rfl, ho, hle⟩
      · simp only [Config.expire, ho, Option.map_some, Option.some.injEq] at h6
        rw [← h6] at hvi; exact hvi hle
      · simp only [Config.expire, ho, Option.map_some, Option.some.injEq] at h6
        rw [← h6] at hvi; exact hvi hle
  · intro hv
    have hps : ∀ {ts : List AccountId}, (∀ t ∈ ts, ∃ i, (t, i) ∈ l ∧ i.isValid = true) →
        ∃ ps, c.cfg.degensOf ts = .ok ps := by
      intro ts
      induction ts with
      | nil => intro _; exact ⟨[], rfl⟩
      | cons t ts ih =>
        intro hv
        obtain ⟨ps, hps⟩ := ih fun s hs => hv s (List.mem_cons_of_mem _ hs)
        obtain ⟨i, hi, -⟩ := hv t (List.mem_cons_self ..)
        obtain ⟨d, p, u, e, h4, h5, -⟩ := (mem_degens h).1 hi
        refine ⟨p :: ps, ?_⟩
        simp only [Config.degensOf, Config.degenOf, h4, h5, expectE, ok_bind, hps]
    obtain ⟨ps, hps⟩ := hps hv
    refine ⟨⟨now, ps, q.toks.all (c.cfg.degenValid now)⟩, ?_, ?_⟩
    · simp only [Config.env, hk, hps, ok_bind]
    · simp only [CurvePool.assertRates, hk]
      refine assertE_true (List.all_eq_true.2 fun t ht => ?_)
      obtain ⟨i, hi, hvi⟩ := hv t ht
      obtain ⟨⟨pr, src⟩, p, u, e, h4, h5, h6, h7, rfl⟩ := (mem_degens h).1 hi
      simp only at h5 h6
      subst h5
      unfold Config.degenValid
      simp only [h4, h6, Bool.and_eq_true]
      exact ⟨hvi, decide_eq_true h7⟩

/-- The prices of the demo contract, when they are set and an hour later. A guardian then registers
another token, and the list cannot be read until it has a price. -/
example : (c4.listDegenTokens (10 ^ 18)).holds (fun l => l.map (fun e =>
      (e.1, e.2.price, e.2.isValid)) = [(B, 10 ^ 24, true), (A, 2 * 10 ^ 24, true)] ∨
      l.map (fun e => (e.1, e.2.price, e.2.isValid)) =
        [(A, 2 * 10 ^ 24, true), (B, 10 ^ 24, true)]) = true ∧
    (c4.listDegenTokens (10 ^ 18 + 3600 * 10 ^ 9)).holds (fun l => l.all fun e => !e.2.isValid) = true ∧
    (c4.exec (y guard) (.setting (.registerDegen W (.priceOracle 24)))).isOk = true ∧
    ((c4.run [.call (y guard) (.setting (.registerDegen W (.priceOracle 24))),
      .price W (10 ^ 24) (10 ^ 18)]).listDegenTokens (10 ^ 18)).holds (fun l => l.length = 3) = true := by
  decide +kernel

end Contract
end Verif

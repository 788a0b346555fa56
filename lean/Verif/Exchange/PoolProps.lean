import Verif.Exchange.PoolSteps
import Verif.Exchange.Demo

/-
Properties of the pools in every reachable state: C09 (share supply), C22 (fee bounds) and C52
(pools keep their identity).
-/

namespace Verif

open Demo

namespace Contract

/-! ### C09: share supply -/

/-- **C09** for the whole contract. In every reachable state the total supply of every pool is the
sum of all holders' shares, and so every holder has at most the total supply. -/
theorem C09_reachable {c : Contract} (h : c.Reachable) {id : Nat} {p : Pool}
    (hp : c.pools[id]? = some p) :
    p.supply = (p.shares.entries.map fun e => e.2).sum ∧
    ∀ a, c.sharesOf id a ≤ p.supply := by
  have hs := (h.sound p (List.mem_of_getElem? hp)).sum
  have e : sumVals p.shares = (p.shares.entries.map fun e => e.2).sum := rfl
  refine ⟨hs.trans e, fun a => ?_⟩
  rw [sharesOf_eq, sharesIn_some hp, hs]
  unfold Pool.shareBalance FMap.getD
  cases hg : p.shares.get? a with
  | none => simp
  | some n =>
    have := FMap.term_le_sum p.shares (fun _ v => v) a
    rw [FMap.term_some _ hg] at this
    exact this

example : c1.Reachable ∧ ∃ p, c1.pools[0]? = some p ∧ 0 < p.supply :=
  ⟨⟨ex, own, farm, bur, 1600, 400, c0, setup, rfl, rfl⟩, c1.pools[0], List.getElem?_eq_getElem _,
    by decide +kernel⟩

/-! ### C22: fee bounds -/

/-- The referral fees are bounded, and the admin fee is bounded or still the constructor's. -/
def FeesBounded (g : Config) : Prop := ∀ a bps, g.referrals.get? a = some bps → bps < 10000

theorem applySetting_fees {c : Contract} {x : Ctx} {s : Setting} {g : Config}
    (h : c.applySetting x s = .ok g) :
    (FeesBounded c.cfg → FeesBounded g) ∧ (g.adminFeeBps = c.cfg.adminFeeBps ∨
      g.adminFeeBps ≤ 8000) := by
  unfold applySetting Config.assertOwner Config.assertManager Ctx.oneYocto at h
  unpack at h
  obtain ⟨-, h⟩ := h
  have ins : ∀ {m : FMap AccountId Nat} {a : AccountId} {bps : Nat}, bps < FEE_DIVISOR →
      (∀ a bps, m.get? a = some bps → bps < 10000) →
      ∀ a' bps', (m.insert a bps).get? a' = some bps' → bps' < 10000 := by
    intro m a bps hb hm a' bps' hg
    rw [FMap.get?_insert] at hg
    split at hg
    · cases hg; exact hb
    · exact hm _ _ hg
  cases s <;> simp only [] at h <;> (try unpack at h)
  case changeState r =>
    obtain ⟨-, h⟩ := h
    split at h
    · unpack at h; obtain ⟨-, rfl⟩ := h; exact ⟨fun h => h, .inl rfl⟩
    · injection h with h; subst h; exact ⟨fun h => h, .inl rfl⟩
  case insertReferral =>
    obtain ⟨-, -, h1, -, rfl⟩ := h; exact ⟨fun hb => ins h1 hb, .inl rfl⟩
  case updateReferral =>
    obtain ⟨-, -, h1, -, rfl⟩ := h; exact ⟨fun hb => ins h1 hb, .inl rfl⟩
  case removeReferral =>
    obtain ⟨-, -, rfl⟩ := h
    refine ⟨fun hb a bps hg => ?_, .inl rfl⟩
    simp only [FMap.get?_erase] at hg
    split at hg
    · cases hg
    · exact hb _ _ hg
  case adminFee => obtain ⟨-, h1, rfl⟩ := h; exact ⟨fun h => h, .inr h1⟩
  case registerOracle o =>
    obtain ⟨-, -, rfl⟩ := h; cases o <;> exact ⟨fun h => h, .inl rfl⟩
  case unregisterOracle pyth =>
    obtain ⟨-, rfl⟩ := h; cases pyth <;> exact ⟨fun h => h, .inl rfl⟩
  case updateOracle o =>
    obtain ⟨-, -, rfl⟩ := h; cases o <;> exact ⟨fun h => h, .inl rfl⟩
  case registerRate => obtain ⟨-, -, -, _, -, rfl⟩ := h; exact ⟨fun h => h, .inl rfl⟩
  case rateExtraInfo => obtain ⟨-, _, -, -, -, _, -, rfl⟩ := h; exact ⟨fun h => h, .inl rfl⟩
  all_goals first
    | (obtain ⟨-, rfl⟩ := h; exact ⟨fun h => h, .inl rfl⟩)
    | (obtain ⟨-, -, rfl⟩ := h; exact ⟨fun h => h, .inl rfl⟩)
    | (obtain ⟨-, -, -, rfl⟩ := h; exact ⟨fun h => h, .inl rfl⟩)
    | (obtain ⟨-, -, -, -, rfl⟩ := h; exact ⟨fun h => h, .inl rfl⟩)

theorem apply_fees {c c' : Contract} {e : Event} {outs : List Out}
    (h : c.apply e = .ok (c', outs)) :
    (FeesBounded c.cfg → FeesBounded c'.cfg) ∧ (c'.cfg.adminFeeBps = c.cfg.adminFeeBps ∨
      c'.cfg.adminFeeBps ≤ 8000) := by
  cases e <;> simp only [apply] at h
  case call x k =>
    obtain ⟨-, h2 | ⟨s, -, h2⟩⟩ := exec_cfg h
    · rw [h2]; exact ⟨fun h => h, .inl rfl⟩
    · exact applySetting_fees h2
  case callback => rw [(callback_same h).1]; exact ⟨fun h => h, .inl rfl⟩
  case rate t r time => cases h; unfold setRate; split <;> exact ⟨fun h => h, .inl rfl⟩
  case price t p time => cases h; unfold setDegenPrice; split <;> exact ⟨fun h => h, .inl rfl⟩

/-- **C22**. In every reachable state the total fee of every pool and every referral fee are below
100 %. -/
theorem C22_fees {c : Contract} (h : c.Reachable) :
    (∀ p ∈ c.pools, p.totalFee < 10000) ∧
    (∀ a bps, c.cfg.referrals.get? a = some bps → bps < 10000) := by
  refine ⟨fun p hp => (h.sound p hp).fee, ?_⟩
  refine h.induct (P := fun c => FeesBounded c.cfg) ?_ ?_
  · intro self owner farm burrow fee ref c h
    unfold init at h
    unpack at h
    obtain ⟨-, rfl⟩ := h
    intro a bps hg
    cases hg
  · intro c e c' outs hc h; exact (apply_fees h).1 hc

/-- **C22**, admin fee. Whatever happens after a state, the admin fee is the one of that state or at
most 80 %; so it is at most 80 % for ever once it was. -/
theorem C22_admin_fee (es : List Event) : ∀ (c : Contract),
    (c.run es).cfg.adminFeeBps = c.cfg.adminFeeBps ∨ (c.run es).cfg.adminFeeBps ≤ 8000 := by
  induction es with
  | nil => intro c; exact .inl rfl
  | cons e es ih =>
    intro c
    have hs : (c.step e).cfg.adminFeeBps = c.cfg.adminFeeBps ∨ (c.step e).cfg.adminFeeBps ≤ 8000 := by
      unfold step
      cases ha : c.apply e with
      | error _ => exact .inl rfl
      | ok r => exact (apply_fees ha).2
    rcases ih (c.step e) with h | h
    · change ((c.step e).run es).cfg.adminFeeBps = _ ∨ ((c.step e).run es).cfg.adminFeeBps ≤ _
      rw [h]; exact hs
    · exact .inr h

/-- **C22**, admin fee. A successful admin call sets a fee of at most 80 %, and it stays so. -/
theorem C22_admin_fee_set {c c' : Contract} {x : Ctx} {bps : Nat} {outs : List Out}
    (h : c.exec x (.setting (.adminFee bps)) = .ok (c', outs)) (es : List Event) :
    c'.cfg.adminFeeBps = bps ∧ (c'.run es).cfg.adminFeeBps ≤ 8000 := by
  have h0 : c'.cfg.adminFeeBps = bps ∧ bps ≤ 8000 := by
    simp only [exec] at h
    unpack at h
    obtain ⟨_, h, rfl, -⟩ := h
    obtain ⟨g, h2, rfl⟩ := setting_inv h
    unfold applySetting at h2
    unpack at h2
    obtain ⟨_, -, _, -, h3, rfl⟩ := h2
    exact ⟨rfl, h3⟩
  refine ⟨h0.1, ?_⟩
  rcases C22_admin_fee es c' with h | h
  · omega
  · exact h

example : (c1.exec (y own) (.setting (.adminFee 8000))).holds
      (fun r => r.1.cfg.adminFeeBps = 8000) = true ∧
    (c1.exec (y own) (.setting (.adminFee 8001))).holds (fun _ => true) = false ∧
    (c1.exec (y guard) (.setting (.insertReferral bo 9999))).holds (fun _ => true) = true ∧
    (c1.exec (y guard) (.setting (.insertReferral bo 10000))).holds (fun _ => true) = false ∧
    (c1.exec (y guard) (.modifyTotalFee 0 10000)).holds (fun _ => true) = false := by
  decide +kernel

/-- The constructor does not bound the admin fee: a fee above 100 % is possible, and swaps then
fail. -/
theorem C22_constructor_unbounded :
    ∃ c : Contract, c.Reachable ∧ 10000 < c.cfg.adminFeeBps :=
  ⟨_, ⟨ex, own, farm, bur, 20000, 0, _, [], rfl, rfl⟩, by decide⟩

/-! ### C52: pools keep their identity -/

/-- **C52**. A pool stays where it is, with the same kind, tokens and decimals, in every later
state. -/
theorem C52_pool_identity (es : List Event) : ∀ (c : Contract) {id : Nat} {p : Pool},
    c.pools[id]? = some p → ∃ q, (c.run es).pools[id]? = some q ∧ q.shape = p.shape := by
  induction es with
  | nil => intro c id p hp; exact ⟨p, hp, rfl⟩
  | cons e es ih =>
    intro c id p hp
    have hs : ∃ q, (c.step e).pools[id]? = some q ∧ q.shape = p.shape := by
      unfold step
      cases ha : c.apply e with
      | error _ => exact ⟨p, hp, rfl⟩
      | ok r => exact (apply_poolsTo ha).shape id p hp
    obtain ⟨q, hq, h1⟩ := hs
    obtain ⟨r, hr, h2⟩ := ih (c.step e) hq
    exact ⟨r, hr, h2.trans h1⟩

example : ∃ p, c1.pools[1]? = some p ∧ p.shape = (some .stable, [A, B], [18, 18]) :=
  ⟨c1.pools[1], List.getElem?_eq_getElem _, by decide +kernel⟩

end Contract
end Verif

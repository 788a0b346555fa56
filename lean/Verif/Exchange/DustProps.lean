import Verif.Exchange.DustLedger
import Verif.Exchange.ExactProps

/-
C95: what rounding takes from the books is bounded by a few units for each swap and redemption.
-/

namespace Verif
namespace Contract

/-- **C95**, calls. Compared with what arrives and what is sent away, the books lose at most
`3g + 1` units of the token for each swap the call makes from or to it, and one unit if the call
redeems shares; they never gain. -/
theorem C95_call_dust {c c' : Contract} (hc : c.Reachable) {x : Ctx} {k : Call} {outs : List Out}
    {t : AccountId} {g : Nat} (h : c.exec x k = .ok (c', outs))
    (hk : ∀ n, k ≠ .retrieveUnmanaged t n) (ht : c.Grained t g) :
    c'.owed t + ATOMS * paysOut outs t ≤ c.owed t + ATOMS * k.arrives x t ∧
    ∃ steps, c.Makes (.call x k) steps ∧
      c.owed t + ATOMS * k.arrives x t ≤ c'.owed t + ATOMS * paysOut outs t +
        ATOMS * ((3 * g + 1) * touching steps t + k.redeems) :=
  ⟨exec_ledger h hk hc.sound fun p hp => (ht p hp).fine, exec_dust h hk hc.sound ht⟩

/-- Whether the event redeems shares of a pool. -/
def _root_.Verif.Event.redeems : Event → Nat
  | .call _ k => k.redeems
  | _ => 0

/-- How many calls of a history redeem shares; calls that panic do not. -/
def redeemed : Contract → List Event → Nat
  | _, [] => 0
  | c, e :: es =>
    match c.apply e with
    | .error _ => redeemed c es
    | .ok (c', _) => e.redeems + redeemed c' es

theorem apply_dust {c c' : Contract} (hc : c.Reachable) {e : Event} {outs : List Out}
    {t : AccountId} {g : Nat} (h : c.apply e = .ok (c', outs)) (hk : ¬ e.retrieves t)
    (ht : c.Grained t g) :
    c'.owed t + ATOMS * paysOut outs t ≤ c.owed t + ATOMS * c.brings t e ∧
    ∃ steps, c.Makes e steps ∧
      c.owed t + ATOMS * c.brings t e ≤ c'.owed t + ATOMS * paysOut outs t +
        ATOMS * ((3 * g + 1) * touching steps t + e.redeems) := by
  cases e with
  | call x k =>
    refine C95_call_dust hc h ?_ ht
    rintro n rfl
    exact hk rfl
  | callback x out o =>
    obtain ⟨e1, e2⟩ := callback_ledger h t
    have e3 := e2.pays t
    have e4 : c.brings t (.callback x out o) = c.books t out o := rfl
    rw [e1, e3, e4]
    exact ⟨Nat.le_refl _, [], rfl, Nat.le_add_right _ _⟩
  | rate =>
    cases h
    have e1 : ∀ a b d, (c.setRate a b d).owed t = c.owed t := by
      intro a b d; unfold setRate; split <;> rfl
    rw [e1]
    exact ⟨Nat.le_refl _, [], rfl, Nat.le_add_right _ _⟩
  | price =>
    cases h
    have e1 : ∀ a b d, (c.setDegenPrice a b d).owed t = c.owed t := by
      intro a b d; unfold setDegenPrice; split <;> rfl
    rw [e1]
    exact ⟨Nat.le_refl _, [], rfl, Nat.le_add_right _ _⟩

theorem touching_append (l l' : List SwapStep) (t : AccountId) :
    touching (l ++ l') t = touching l t + touching l' t := List.countP_append

/-- **C95**. Over any history in which pools that list the token have units as fine as the token's
and use no rate of it below `1/g`, and in which the owner does not retrieve it as unmanaged: what the
exchange has on its books for the token, plus all it sent away, is what it had at the start plus all
that arrived, up to at most `3g + 1` units for each swap from or to the token and one unit for each
redemption of shares. If no rated or degen pool lists the token, `g` can be 0. -/
theorem C95_history_dust {t : AccountId} {g : Nat} (es : List Event) : ∀ {c : Contract},
    c.Reachable → (∀ e ∈ es, ¬ e.retrieves t) → (∀ n, (c.run (es.take n)).Grained t g) →
    (c.run es).owed t + ATOMS * (moved t c es).2 ≤ c.owed t + ATOMS * (moved t c es).1 ∧
    ∃ steps, c.History es steps ∧
      c.owed t + ATOMS * (moved t c es).1 ≤ (c.run es).owed t + ATOMS * (moved t c es).2 +
        ATOMS * ((3 * g + 1) * touching steps t + c.redeemed es) := by
  induction es with
  | nil => intro c _ _ _; exact ⟨Nat.le_refl _, [], rfl, Nat.le_refl _⟩
  | cons e es ih =>
    intro c hc hk ht
    have hk' := fun e he => hk e (List.mem_cons_of_mem _ he)
    have hr : c.run (e :: es) = (c.step e).run es := rfl
    have hst := hc.step e
    have ht0 : c.Grained t g := ht 0
    have ht' : ∀ n, ((c.step e).run (es.take n)).Grained t g := fun n => ht (n + 1)
    have hstep : c.step e = match c.apply e with | .ok r => r.1 | .error _ => c := rfl
    obtain ⟨i1, s2, hs2, i2⟩ := ih hst hk' ht'
    rw [hr]
    simp only [moved, redeemed, History]
    cases ha : c.apply e with
    | error _ =>
      simp only [ha] at hstep
      rw [hstep] at i1 i2 hs2 ⊢
      exact ⟨i1, s2, ⟨[], s2, rfl, rfl, hs2⟩, i2⟩
    | ok r =>
      obtain ⟨c', outs⟩ := r
      simp only [ha] at hstep
      rw [hstep] at i1 i2 hs2 ⊢
      obtain ⟨a1, s1, hs1, a2⟩ := apply_dust hc ha (hk e (List.mem_cons_self ..)) ht0
      refine ⟨?_, s1 ++ s2, ⟨s1, s2, rfl, hs1, hs2⟩, ?_⟩
      · simp only [Nat.mul_add] at i1 a1 ⊢
        omega
      · rw [touching_append]
        simp only [Nat.mul_add] at i2 a2 ⊢
        omega

/-! ### An example -/

theorem _root_.Verif.Config.env_rates {g : Config} {p : Pool} {now : Nat} {e : CurveEnv}
    (h : g.env now p = .ok e) : ∃ e', g.env 0 p = .ok e' ∧ e'.rates = e.rates := by
  unfold Config.env at h ⊢
  split at h
  · cases h; exact ⟨_, rfl, rfl⟩
  · rename_i p
    cases hk : p.kind <;> simp only [hk] at h ⊢
    · cases h; exact ⟨_, rfl, rfl⟩
    · cases h; exact ⟨_, rfl, rfl⟩
    · unpack at h
      obtain ⟨ps, h1, rfl⟩ := h
      rw [h1]
      exact ⟨_, rfl, rfl⟩

/-- A decidable form of `Grained`. -/
def _root_.Verif.Pool.grainedB (t : AccountId) (g : Nat) (env : R CurveEnv) : Pool → Bool
  | .simple _ => true
  | .curve p => (List.range p.toks.length).all fun i =>
      p.toks[i]? != some t || (decide (p.decs.getD i 0 ≤ p.kind.target) && (p.kind == .stable ||
        match env with
        | .ok e => (e.rates[i]?).all fun r => decide (PRECISION ≤ g * r)
        | .error _ => true))

theorem grained_of_grainedB {c : Contract} {t : AccountId} {g : Nat}
    (h : (c.pools.all fun p => p.grainedB t g (c.cfg.env 0 p)) = true) : c.Grained t g := by
  intro p hp
  have h := List.all_eq_true.1 h p hp
  cases p with
  | simple p => trivial
  | curve p =>
    intro i d hi hd
    have h := List.all_eq_true.1 h i (List.mem_range.2 (List.getElem?_eq_some_iff.1 hi).1)
    rw [hi] at h
    simp only [bne_self_eq_false, Bool.false_or, Bool.and_eq_true, decide_eq_true_eq, Bool.or_eq_true,
      List.getD_eq_getElem?_getD, hd, Option.getD_some, beq_iff_eq] at h
    refine ⟨h.1, fun hk now e r he hr => ?_⟩
    obtain ⟨e', he', hr'⟩ := Config.env_rates he
    rcases h.2 with h | h
    · exact absurd h hk
    · rw [he'] at h
      simp only [hr', hr, Option.all_some, decide_eq_true_eq] at h
      exact h

open Demo

/-- Alice swaps B for A in the rated pool, takes a part of their deposit out of the stable pool and
withdraws some A. -/
def dustDemo : List Event := [
  .call (by' al) (.executeActions [.swap ⟨2, B, some (10 ^ 19 + 7), A, 1⟩] none),
  .call (y al) (.removeLiquidity 1 (10 ^ 21 + 5) [1, 1]),
  .call (y al) (.withdraw A 1500 false none)]

/-- In this history the books lose something, but no more than the five units that one swap and one
redemption may cost. -/
example : moved A c4 dustDemo = (0, 1500) ∧ c4.redeemed dustDemo = 1 ∧
    (c4.run dustDemo).owed A + ATOMS * 1500 < c4.owed A ∧
    c4.owed A ≤ (c4.run dustDemo).owed A + ATOMS * 1500 + ATOMS * 5 := by decide +kernel

example : ∀ n, (c4.run (dustDemo.take n)).Grained A 1 := by
  have key : ∀ n < 4, ((c4.run (dustDemo.take n)).pools.all fun p =>
      p.grainedB A 1 ((c4.run (dustDemo.take n)).cfg.env 0 p)) = true := by decide +kernel
  intro n
  by_cases hn : n < 4
  · exact grained_of_grainedB (key n hn)
  · rw [List.take_of_length_le (by simp [dustDemo]; omega)]
    exact grained_of_grainedB (key 3 (by omega))

end Contract
end Verif

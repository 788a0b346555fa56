import Verif.Exchange.Worth
import Verif.Exchange.PoolProps
import Verif.Exchange.ExitProps

/-
C83: over every history, what shares of a constant-product pool are worth never falls, except by the
rounding of each swap.
-/

namespace Verif
namespace Contract
open Demo

theorem sharesOf_le_supply {c : Contract} (hc : c.Reachable) {id : Nat} {p : SimplePool} (a : AccountId)
    (hp : c.pools[id]? = some (.simple p)) : c.sharesOf id a ≤ p.supply := by
  have hs := (hc.sound _ (List.mem_of_getElem? hp)).sum
  simp only [Pool.supply, Pool.shares] at hs
  unfold sharesOf
  rw [hp]
  simp only
  rw [hs]
  exact getD_le_sumVals _ _

/-- **C83**. Someone keeps `h` shares of a constant-product pool while anything may happen: trades,
deposits and withdrawals by others, fees, changes of settings, in any order and from any state. Then
the worth of these shares, the geometric mean of the two amounts they stand for, has not fallen by
more than one unit for each swap made in the pool. (The protocol's part of the trading fee must be
at most 100 %; the contract accepts no more than 80 %, see C22.) -/
theorem C83_worth (es : List Event) : ∀ {c : Contract} (_ : c.Reachable)
    (_ : c.cfg.adminFeeBps ≤ 10000) {id h : Nat} {a : AccountId} {p q : SimplePool}
    (_ : c.pools[id]? = some (.simple p)) (_ : (c.run es).pools[id]? = some (.simple q))
    (_ : ∀ n, h ≤ (c.run (es.take n)).sharesOf id a),
    ∃ steps, c.History es steps ∧ p.worth h ≤ q.worth h + swapsOf steps id := by
  induction es with
  | nil =>
    intro c hc hb id h a p q hp hq _
    change c.pools[id]? = some (.simple q) at hq
    rw [hp] at hq
    cases hq
    exact ⟨[], rfl, by simp⟩
  | cons e es ih =>
    intro c hc hb id h a p q hp hq hk
    have hk0 := hk 0
    have hk1 := hk 1
    have hk' : ∀ n, h ≤ ((c.step e).run (es.take n)).sharesOf id a := fun n => hk (n + 1)
    change h ≤ c.sharesOf id a at hk0
    change h ≤ (c.step e).sharesOf id a at hk1
    have hb' : (c.step e).cfg.adminFeeBps ≤ 10000 := by
      rcases C22_admin_fee [e] c with h1 | h1
      · change (c.step e).cfg.adminFeeBps = _ at h1
        omega
      · change (c.step e).cfg.adminFeeBps ≤ _ at h1
        omega
    change ((c.step e).run es).pools[id]? = _ at hq
    have hstep : c.step e = match c.apply e with | .ok r => r.1 | .error _ => c := rfl
    cases ha : c.apply e with
    | error err =>
      rw [ha] at hstep
      simp only at hstep
      obtain ⟨steps, h1, h2⟩ := ih (hc.step e) hb' (by rw [hstep]; exact hp) hq hk'
      exact ⟨steps, ⟨[], steps, rfl, by rw [ha], h1⟩, h2⟩
    | ok r =>
      obtain ⟨c1, outs⟩ := r
      rw [ha] at hstep
      simp only at hstep
      rcases Nat.eq_zero_or_pos h with rfl | h0
      · obtain ⟨s1, m1, -⟩ := apply_keep (h := 1) ha hb (by omega) id
        obtain ⟨p1, hp1, hs1⟩ := (apply_poolsTo ha).shape id _ hp
        cases p1 with
        | curve p1 => cases hs1
        | simple p1 =>
          obtain ⟨s2, m2, -⟩ := ih (hc.step e) hb' (by rw [hstep]; exact hp1) hq hk'
          refine ⟨s1 ++ s2, ⟨s1, s2, rfl, by rw [ha]; exact m1, m2⟩, ?_⟩
          rw [SimplePool.worth_eq, SimplePool.worth_eq]
          simp
      · obtain ⟨s1, m1, hw⟩ := apply_keep ha hb h0 id
        obtain ⟨p1, hp1, hw⟩ := hw p hp (hk0.trans (sharesOf_le_supply hc a hp))
        rw [← hstep] at hp1
        have hw := hw (hk1.trans (sharesOf_le_supply (hc.step e) a hp1))
        obtain ⟨s2, m2, hw2⟩ := ih (hc.step e) hb' hp1 hq hk'
        refine ⟨s1 ++ s2, ⟨s1, s2, rfl, by rw [ha]; exact m1, m2⟩, ?_⟩
        rw [swapsOf_append]
        push_cast
        linarith

/-- **C83**, in amounts that can be taken out. What the view promises for `h` shares at the end is,
in the geometric mean and up to one unit of each token, at least what it promised at the start, less
one unit for each swap in between. -/
theorem C83_redeem {es : List Event} {c : Contract} (hc : c.Reachable)
    (hb : c.cfg.adminFeeBps ≤ 10000) {id h : Nat} {a : AccountId} {p : SimplePool} (h0 : 0 < h)
    (hp : c.pools[id]? = some (.simple p)) (hk : ∀ n, h ≤ (c.run (es.take n)).sharesOf id a) :
    ∃ a0 a1 b0 b1 steps, c.predictRemove id h = .ok [a0, a1] ∧
      (c.run es).predictRemove id h = .ok [b0, b1] ∧ c.History es steps ∧
      √((a0 : ℝ) * a1) ≤ √(((b0 : ℝ) + 1) * (b1 + 1)) + swapsOf steps id := by
  have hkeep : ∀ es' : List Event, ∃ q, (c.run es').pools[id]? = some (.simple q) := by
    intro es'
    obtain ⟨q, hq, hs⟩ := C52_pool_identity es' c hp
    cases q with
    | curve q => cases hs
    | simple q => exact ⟨q, hq⟩
  obtain ⟨q, hq⟩ := hkeep es
  obtain ⟨steps, hh, hw⟩ := C83_worth es hc hb hp hq hk
  have s0 : h ≤ p.supply := (hk 0).trans (sharesOf_le_supply hc a hp)
  have s1 : h ≤ q.supply := by
    have := hk es.length
    rw [List.take_length] at this
    exact this.trans (sharesOf_le_supply (hc.run es) a hq)
  have v0 := C70_simple hc hp h0 s0
  have v1 := C70_simple (hc.run es) hq h0 s1
  refine ⟨_, _, _, _, steps, v0, v1, hh, ?_⟩
  have part : ∀ (r : SimplePool), h ≤ r.supply → ∀ x : Nat,
      ((x * h / r.supply : ℕ) : ℝ) ≤ (h : ℝ) * x / r.supply ∧
      (h : ℝ) * x / r.supply ≤ (x * h / r.supply : ℕ) + 1 := by
    intro r hr x
    have hS : (0 : ℝ) < r.supply := by exact_mod_cast lt_of_lt_of_le h0 hr
    have hS' : 0 < r.supply := lt_of_lt_of_le h0 hr
    rw [le_div_iff₀ hS, div_le_iff₀ hS, mul_comm (h : ℝ)]
    constructor
    · exact_mod_cast Nat.div_mul_le_self (x * h) r.supply
    · have := (Nat.lt_mul_div_succ (x * h) hS').le
      rw [Nat.mul_comm r.supply] at this
      exact_mod_cast this
  have l0 := (part p s0 p.amt0).1
  have l1 := (part p s0 p.amt1).1
  have u0 := (part q s1 q.amt0).2
  have u1 := (part q s1 q.amt1).2
  refine le_trans ?_ (hw.trans (add_le_add_left ?_ _))
  · exact Real.sqrt_le_sqrt (mul_le_mul l0 l1 (Nat.cast_nonneg _) (by positivity))
  · exact Real.sqrt_le_sqrt (mul_le_mul u0 u1 (by positivity) (by positivity))

/-- **C83**, when the price is back. If at the end the two reserves stand in the same ratio as at the
start, `h` shares stand for no less of either token, up to the price-weighted unit for each swap:
all that holders can lose otherwise comes from a change of the price. (`hw` is what `C83_worth`
proves.) -/
theorem C83_same_price {p q : SimplePool} {h k : Nat} (hp : 0 < p.amt0) (hp1 : 0 < p.amt1)
    (hprice : q.amt0 * p.amt1 = p.amt0 * q.amt1) (hw : p.worth h ≤ q.worth h + k) :
    (h : ℝ) * p.amt0 / p.supply ≤ h * q.amt0 / q.supply + k * √((p.amt0 : ℝ) / p.amt1) ∧
    (h : ℝ) * p.amt1 / p.supply ≤ h * q.amt1 / q.supply + k * √((p.amt1 : ℝ) / p.amt0) := by
  have one : ∀ {a b a' b' : Nat}, 0 < a → 0 < b → a' * b = a * b' →
      √((h * a / p.supply) * (h * b / p.supply) : ℝ) ≤
        √((h * a' / q.supply) * (h * b' / q.supply) : ℝ) + k →
      (h : ℝ) * a / p.supply ≤ h * a' / q.supply + k * √((a : ℝ) / b) := by
    intro a b a' b' ha hb hr hw
    have a0 : (0 : ℝ) < a := by exact_mod_cast ha
    have b0 : (0 : ℝ) < b := by exact_mod_cast hb
    have hr : (a' : ℝ) * b = a * b' := by exact_mod_cast hr
    set s := √((a : ℝ) / b) with hs
    have hs2 : s * s = (a : ℝ) / b := Real.mul_self_sqrt (by positivity)
    have hs0 : 0 ≤ s := Real.sqrt_nonneg _
    have conv : ∀ (x y S : Nat), (x : ℝ) * b = a * y →
        √((h * x / S) * (h * y / S) : ℝ) * s = h * x / S := by
      intro x y S hxy
      have e1 : (x : ℝ) = s * s * y := by
        rw [hs2]; field_simp; linarith
      have : ((h : ℝ) * x / S) * (h * y / S) = ((h : ℝ) * y / S * s) ^ 2 := by
        rw [e1]; ring
      rw [this, Real.sqrt_sq (by positivity), e1]
      ring
    rw [← conv a b p.supply (by ring), ← conv a' b' q.supply hr]
    nlinarith
  refine ⟨one hp hp1 hprice hw, one hp1 hp (by rw [Nat.mul_comm, ← hprice, Nat.mul_comm]) ?_⟩
  unfold SimplePool.worth at hw
  rw [mul_comm ((h : ℝ) * p.amt1 / p.supply), mul_comm ((h : ℝ) * q.amt1 / q.supply)]
  exact hw

/-- **C83**, the loss is real: in a pool with very few units, a swap mints shares for the protocol
that are worth more than the growth of the pool, and every share is worth less than before (the
product per share squared falls). -/
theorem C83_rounding : ∃ (p q : SimplePool) (a out : Nat) (fees : AdminFees),
    fees.adminFeeBps = 8000 ∧ p.swap p.tok0 a p.tok1 1 fees false = .ok (q, out) ∧
    q.product * p.supply ^ 2 < p.product * q.supply ^ 2 := by
  let p : SimplePool := { exPool with amt0 := 2, amt1 := 4, supply := 1000, totalFee := 30,
                                      shares := FMap.empty.insert exLP 1000 }
  let fees : AdminFees := ⟨8000, exEx, none⟩
  have h : (p.swap p.tok0 1 p.tok1 1 fees false).holds
      (fun r => decide (r.1.product * p.supply ^ 2 < p.product * r.1.supply ^ 2)) = true := by
    decide +kernel
  cases hr : p.swap p.tok0 1 p.tok1 1 fees false with
  | error e => rw [hr] at h; cases h
  | ok r =>
    rw [hr] at h
    exact ⟨p, r.1, 1, r.2, fees, rfl, by rw [hr], by simpa [R.holds] using h⟩

/-! ### An example -/

/-- Others trade in, and add to, the demo pool while `al` keeps their shares. -/
def worthDemo : List Event := [
  .call (by' A) (.ftOnTransfer bo 700 (.execute none [.swap ⟨0, A, none, B, 1⟩] false none none)),
  .call (by' al) (.executeActions [swapA, swapA] none)]

example : c2.cfg.adminFeeBps ≤ 10000 ∧ 0 < c2.sharesOf 0 al ∧
    (∀ n, c2.sharesOf 0 al ≤ (c2.run (worthDemo.take n)).sharesOf 0 al) ∧
    (c2.run worthDemo).predictRemove 0 (c2.sharesOf 0 al) ≠ c2.predictRemove 0 (c2.sharesOf 0 al) := by
  refine ⟨by decide +kernel, by decide +kernel, fun n => ?_, by decide +kernel⟩
  have h0 : c2.sharesOf 0 al ≤ (c2.run (worthDemo.take 0)).sharesOf 0 al := by decide +kernel
  have h1 : c2.sharesOf 0 al ≤ (c2.run (worthDemo.take 1)).sharesOf 0 al := by decide +kernel
  have h2 : c2.sharesOf 0 al ≤ (c2.run worthDemo).sharesOf 0 al := by decide +kernel
  match n with
  | 0 => exact h0
  | 1 => exact h1
  | n + 2 => rw [List.take_of_length_le (by simp [worthDemo])]; exact h2

end Contract
end Verif

import Mathlib.Analysis.Real.Sqrt
import Verif.Simple.Props

/-
The worth of shares of a constant-product pool: the geometric mean of the two amounts they stand
for. It does not depend on the price, so that it measures what holders gain or lose by anything but
a change of the price.
-/

namespace Verif
namespace SimplePool

/-- The geometric mean of the parts of the two reserves that `h` shares stand for. -/
noncomputable def worth (p : SimplePool) (h : Nat) : ℝ :=
  √(((h : ℝ) * p.amt0 / p.supply) * ((h : ℝ) * p.amt1 / p.supply))

theorem worth_eq (p : SimplePool) (h : Nat) :
    p.worth h = h * √(p.product : ℝ) / p.supply := by
  unfold worth
  have e : ((h : ℝ) * p.amt0 / p.supply) * ((h : ℝ) * p.amt1 / p.supply) =
      (p.product : ℝ) * ((h : ℝ) / p.supply) ^ 2 := by
    unfold product
    push_cast
    ring
  rw [e, Real.sqrt_mul (Nat.cast_nonneg _), Real.sqrt_sq (by positivity)]
  ring

/-- Worth in terms of the product per share squared. -/
theorem worth_mono {p q : SimplePool} (hp : 0 < p.supply) (hq : 0 < q.supply)
    (hk : p.product * q.supply ^ 2 ≤ q.product * p.supply ^ 2) (h : Nat) :
    p.worth h ≤ q.worth h := by
  rw [worth_eq, worth_eq, div_le_div_iff₀ (by exact_mod_cast hp) (by exact_mod_cast hq)]
  have key : √(p.product : ℝ) * q.supply ≤ √(q.product : ℝ) * p.supply := by
    have h1 : √((p.product : ℝ) * (q.supply : ℝ) ^ 2) ≤ √((q.product : ℝ) * (p.supply : ℝ) ^ 2) :=
      Real.sqrt_le_sqrt (by exact_mod_cast hk)
    rwa [Real.sqrt_mul (Nat.cast_nonneg _), Real.sqrt_mul (Nat.cast_nonneg _),
      Real.sqrt_sq (Nat.cast_nonneg _), Real.sqrt_sq (Nat.cast_nonneg _)] at h1
  have := mul_le_mul_of_nonneg_left key (Nat.cast_nonneg (α := ℝ) h)
  nlinarith

/-- When the square root of the product rounded down has not fallen per share, the worth of `h` of
the shares has fallen by less than one unit. -/
theorem worth_sqrt {p q : SimplePool} {h : Nat} (hp : 0 < p.supply) (hq : 0 < q.supply)
    (hh : h ≤ p.supply) (hk : Nat.sqrt p.product * q.supply ≤ Nat.sqrt q.product * p.supply) :
    p.worth h ≤ q.worth h + 1 := by
  have hp' : (0 : ℝ) < p.supply := by exact_mod_cast hp
  have hq' : (0 : ℝ) < q.supply := by exact_mod_cast hq
  have h0 : √(p.product : ℝ) ≤ Nat.sqrt p.product + 1 := by
    rw [Real.sqrt_le_left (by positivity)]
    have := (Nat.lt_succ_sqrt p.product).le
    rw [Nat.succ_eq_add_one] at this
    have : (p.product : ℝ) ≤ ((Nat.sqrt p.product + 1) * (Nat.sqrt p.product + 1) : ℕ) := by
      exact_mod_cast this
    push_cast at this
    nlinarith
  have h1 : (Nat.sqrt q.product : ℝ) ≤ √(q.product : ℝ) := by
    apply Real.le_sqrt_of_sq_le
    have := Nat.sqrt_le q.product
    have : ((Nat.sqrt q.product * Nat.sqrt q.product : ℕ) : ℝ) ≤ q.product := by exact_mod_cast this
    push_cast at this
    nlinarith
  have hk' : (Nat.sqrt p.product : ℝ) / p.supply ≤ (Nat.sqrt q.product : ℝ) / q.supply := by
    rw [div_le_div_iff₀ hp' hq']
    exact_mod_cast hk
  have hh' : (h : ℝ) / p.supply ≤ 1 := by
    rw [div_le_one hp']
    exact_mod_cast hh
  rw [worth_eq, worth_eq]
  calc (h : ℝ) * √(p.product : ℝ) / p.supply
      ≤ h * (Nat.sqrt p.product + 1) / p.supply := by gcongr
    _ = h * ((Nat.sqrt p.product : ℝ) / p.supply) + h / p.supply := by ring
    _ ≤ h * ((Nat.sqrt q.product : ℝ) / q.supply) + 1 := by gcongr
    _ ≤ h * (√(q.product : ℝ) / q.supply) + 1 := by gcongr
    _ = h * √(q.product : ℝ) / q.supply + 1 := by ring

theorem product_per_share {a0 a1 b0 b1 S T : Nat} (h0 : a0 * T ≤ b0 * S) (h1 : a1 * T ≤ b1 * S) :
    a0 * a1 * T ^ 2 ≤ b0 * b1 * S ^ 2 := by
  calc a0 * a1 * T ^ 2 = (a0 * T) * (a1 * T) := by ring
    _ ≤ (b0 * S) * (b1 * S) := Nat.mul_le_mul h0 h1
    _ = b0 * b1 * S ^ 2 := by ring

/-- Deposits do not lower the worth of shares. -/
theorem addLiquidity_worth {p q : SimplePool} {s : AccountId} {am taken : List Nat} {n : Nat}
    (hp : 0 < p.supply) (hr : p.addLiquidity s am false = .ok (q, taken, n)) (h : Nat) :
    p.supply ≤ q.supply ∧ p.worth h ≤ q.worth h := by
  obtain ⟨a0, a1, _, _, rfl, -⟩ := addLiquidity_ok hr
  obtain ⟨b0, b1, -, -, -, -, -, -, -, -, es, -, -, k0, k1, -⟩ := C06_add_liquidity hp hr
  exact ⟨by omega, worth_mono hp (by omega) (product_per_share k0 k1) h⟩

/-- Withdrawals of liquidity do not lower the worth of the shares that remain. -/
theorem removeLiquidity_worth {p q : SimplePool} {s : AccountId} {n : Nat} {mins paid : List Nat}
    (hq : 0 < q.supply) (hr : p.removeLiquidity s n mins false = .ok (q, paid)) (h : Nat) :
    p.worth h ≤ q.worth h := by
  obtain ⟨_, _, _, _, -, -, hS, -⟩ := removeLiquidity_ok hr
  obtain ⟨_, _, _, _, -, -, -, -, ⟨-, -, -, -, -, k0⟩, ⟨-, -, -, -, -, k1⟩, -⟩ :=
    C07_remove_liquidity_simple hr
  exact worth_mono hS hq (product_per_share k0 k1) h

/-- A swap lowers the worth of shares by less than one unit. -/
theorem swap_worth {p q : SimplePool} {ti tout : AccountId} {a mo out h : Nat} {fees : AdminFees}
    (hb : fees.adminFeeBps ≤ 10000) (hp : 0 < p.supply) (hh : h ≤ p.supply)
    (hr : p.swap ti a tout mo fees false = .ok (q, out)) :
    p.supply ≤ q.supply ∧ p.worth h ≤ q.worth h + 1 := by
  obtain ⟨k, hs⟩ := C10_fee_minting hb hr
  exact ⟨hs, worth_sqrt hp (by omega) hh k⟩

theorem swapByOutput_worth {p q : SimplePool} {ti tout : AccountId} {out inn h : Nat}
    {mi : Option Nat} {fees : AdminFees} (hb : fees.adminFeeBps ≤ 10000) (hp : 0 < p.supply)
    (hh : h ≤ p.supply) (hr : p.swapByOutput ti out tout mi fees false = .ok (q, inn)) :
    p.supply ≤ q.supply ∧ p.worth h ≤ q.worth h + 1 := by
  obtain ⟨k, hs⟩ := C10_fee_minting_by_output hb hr
  exact ⟨hs, worth_sqrt hp (by omega) hh k⟩

/-- Without a protocol fee a swap does not lower it at all. -/
theorem worth_no_fee {p q : SimplePool} {h : Nat} (hk : p.product ≤ q.product)
    (hs : q.supply = p.supply) (hp : 0 < p.supply) : p.worth h ≤ q.worth h :=
  worth_mono hp (by omega) (by rw [hs]; exact Nat.mul_le_mul_right _ hk) h

/-- What removing `n` shares pays is their worth up to one unit of each token. -/
theorem removeLiquidity_pays {p q : SimplePool} {s : AccountId} {n : Nat} {mins paid : List Nat}
    (hr : p.removeLiquidity s n mins false = .ok (q, paid)) :
    ∃ r0 r1, paid = [r0, r1] ∧ √((r0 : ℝ) * r1) ≤ p.worth n ∧
      p.worth n ≤ √(((r0 : ℝ) + 1) * (r1 + 1)) := by
  obtain ⟨_, _, _, _, -, -, hS, -⟩ := removeLiquidity_ok hr
  obtain ⟨_, _, r0, r1, -, hpd, -, -, ⟨l0, u0, -⟩, ⟨l1, u1, -⟩, -⟩ := C07_remove_liquidity_simple hr
  have hS' : (0 : ℝ) < p.supply := by exact_mod_cast hS
  have bound : ∀ {a r : Nat}, r * p.supply ≤ a * n → a * n < (r + 1) * p.supply →
      (r : ℝ) ≤ (n : ℝ) * a / p.supply ∧ (n : ℝ) * a / p.supply ≤ r + 1 := by
    intro a r h1 h2
    rw [le_div_iff₀ hS', div_le_iff₀ hS']
    constructor
    · rw [mul_comm (n : ℝ)]; exact_mod_cast h1
    · rw [mul_comm (n : ℝ)]; exact_mod_cast h2.le
  obtain ⟨x0, y0⟩ := bound l0 u0
  obtain ⟨x1, y1⟩ := bound l1 u1
  have z0 : (0 : ℝ) ≤ (n : ℝ) * p.amt0 / p.supply := by positivity
  have z1 : (0 : ℝ) ≤ (n : ℝ) * p.amt1 / p.supply := by positivity
  refine ⟨r0, r1, hpd, Real.sqrt_le_sqrt ?_, Real.sqrt_le_sqrt ?_⟩
  · exact mul_le_mul x0 x1 (Nat.cast_nonneg _) z0
  · exact mul_le_mul y0 y1 z1 (by positivity)

end SimplePool
end Verif

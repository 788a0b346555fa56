import Verif.Curve.RatedWorth

/-
What a deposit into a curve pool is credited with and what a withdrawal of tokens is charged, measured
by the exact invariant.
-/

namespace Verif

/-- The reserves `ys` are left of `bs` after the fee on deposits and withdrawals that are not in
proportion. With the trading fee `fee` (in 1/10000) of a pool of `n` tokens, each reserve `b` pays
`fee * n / (4 * (n - 1))` of its distance from the reserve before, `x`, scaled from the invariant `d0`
before to the invariant `d1` after. -/
def AfterFee (fee n d0 d1 : Nat) (xs bs ys : List Nat) : Prop :=
  xs.length = bs.length ∧ ys.length = bs.length ∧
  ∀ (i x b y : Nat), xs[i]? = some x → bs[i]? = some b → ys[i]? = some y →
    y + ((d1 * x / d0 - b) + (b - d1 * x / d0)) * (fee * n / (4 * (n - 1))) / 10000 = b

theorem feeBalances_spec {w n d0 d1 : Nat} {f : CurveFees} : ∀ {old new ys : List Nat},
    feeBalances w n f d0 d1 old new = .ok ys → old.length = new.length →
    AfterFee f.trade n d0 d1 old new ys := by
  intro old
  induction old with
  | nil =>
    intro new ys h hl
    cases new with
    | nil => cases h; exact ⟨rfl, rfl, by simp⟩
    | cons b bs => simp at hl
  | cons x xs ih =>
    intro new ys h hl
    cases new with
    | nil => simp at hl
    | cons b bs =>
      unfold feeBalances CurveFees.normalizedTradeFee at h
      unpack at h
      obtain ⟨-, -, -, -, -, -, -, fee, h1, h2, zs, h3, rfl⟩ := h
      obtain ⟨i1, i2, i3⟩ := ih h3 (by simpa using hl)
      refine ⟨by simpa using i1, by simpa using i2, ?_⟩
      intro i x' b' y' hx hb hy
      cases i with
      | succ i => exact i3 i x' b' y' (by simpa using hx) (by simpa using hb) (by simpa using hy)
      | zero =>
        simp only [List.getElem?_cons_zero, Option.some.injEq] at hx hb hy
        subst hx hb hy
        obtain ⟨-, h1⟩ := u128Ratio_ok h1
        simp only [FEE_DIVISOR] at h1
        have e : (if d1 * x / d0 > b then d1 * x / d0 - b else b - d1 * x / d0) =
            (d1 * x / d0 - b) + (b - d1 * x / d0) := by split <;> omega
        rw [e] at h1
        omega

namespace CurvePool

/-- The three invariants of a deposit: before, after, and after the fee on the distance from
proportion. -/
theorem addLiquidity_invariants {p q : CurvePool} {s : AccountId} {am : List Nat} {mn n : Nat}
    {fees : AdminFees} {env : CurveEnv} {v : Bool} (hp : p.Sound) (h0 : p.supply ≠ 0)
    (hb : fees.adminFeeBps ≤ 10000) (h : p.addLiquidity s am mn fees env v = .ok (q, n)) :
    ∃ d0 d1 d2 ys, (p.inv env).dWithRates p.cAmts = .ok d0 ∧ (p.inv env).dWithRates q.cAmts = .ok d1 ∧
      (p.inv env).dWithRates ys = .ok d2 ∧
      AfterFee p.totalFee p.cAmts.length d0 d1 p.cAmts q.cAmts ys ∧ 0 < d0 ∧ d0 ≤ d2 ∧
      n = p.supply * (d2 - d0) / d0 ∧ d0 * q.supply ≤ d1 * p.supply ∧ p.supply + n ≤ q.supply ∧
      q.kind = p.kind := by
  obtain ⟨d0', d1', k0, k1, -, hle, hsup⟩ := C51_add_not_dilutive hp h0 hb h
  obtain ⟨fp, cs, p1, hlen, hc, -, hcs, -, -, hm⟩ := CurvePool.addLiquidity_ok h
  unfold calcAdd at hc
  simp only [h0, if_false, bind_ok] at hc
  obtain ⟨dep, hdep, hlp⟩ := hc
  obtain ⟨d0, d1, d2, new, new', g0, gn, g1, gf, g2, glt, gle, gne, gm, gmf⟩ := lpForDeposit_ok hlp
  obtain ⟨a1, -, a3⟩ := amountsToC_ok hdep
  have hl : dep.length = p.cAmts.length := by rw [a1, hlen, hp.len]
  obtain ⟨b1, b2⟩ := depositBalances_eq gn hl
  obtain ⟨c1, -, c3⟩ := addAmounts_ok hcs
  have hnew : new = cs := by
    apply List.ext_getElem?
    intro i
    rcases Nat.lt_or_ge i p.cAmts.length with hi | hi
    · obtain ⟨d, a, x, hd, ha, hx, hn⟩ := c3 i _ (List.getElem?_eq_getElem hi)
      obtain ⟨a', x', ha', hx', hx2⟩ := a3 i d hd
      rw [ha] at ha'; cases ha'
      rw [hx] at hx2; cases hx2
      rw [hn, b2 i _ _ (List.getElem?_eq_getElem hi) hx']
    · rw [List.getElem?_eq_none (by omega), List.getElem?_eq_none (by omega)]
  have hqc : q.cAmts = cs := by rw [hm.frame]
  subst hnew
  rw [← hqc] at g1 gf
  rw [g0] at k0; cases k0
  rw [g1] at k1; cases k1
  refine ⟨d0', d1', d2, new', g0, g1, g2, ?_, by omega, gle, gm, hle, hsup, by rw [hm.frame]⟩
  exact feeBalances_spec gf (by rw [hqc, b1])

/-- The three invariants of a withdrawal of given amounts. -/
theorem removeByTokens_invariants {p q : CurvePool} {s : AccountId} {am : List Nat} {mb n : Nat}
    {fees : AdminFees} {env : CurveEnv} {v : Bool} (hp : p.Sound)
    (h : p.removeByTokens s am mb fees env v = .ok (q, n)) :
    ∃ d0 d1 d2 ys, (p.inv env).dWithRates p.cAmts = .ok d0 ∧ (p.inv env).dWithRates q.cAmts = .ok d1 ∧
      (p.inv env).dWithRates ys = .ok d2 ∧
      AfterFee p.totalFee p.cAmts.length d0 d1 p.cAmts q.cAmts ys ∧ 0 < d0 ∧ d2 ≤ d0 ∧
      n = p.supply * (d0 - d2) / d0 ∧ n ≤ p.supply ∧ q.kind = p.kind := by
  obtain ⟨dep, fp, ns, hlen, hdep, -, hlp, hns, hS, hf, hsup, -⟩ := removeByTokens_ok h
  obtain ⟨d0, d1, d2, new, new', g0, gn, g1, gf, g2, glt, gle, gne, gm, gmf⟩ := lpForWithdraw_ok hlp
  obtain ⟨a1, -, a3⟩ := amountsToC_ok hdep
  have hl : dep.length = p.cAmts.length := by rw [a1, hlen, hp.len]
  obtain ⟨b1, b2⟩ := withdrawBalances_eq gn hl
  obtain ⟨c1, c3⟩ := subReserves_ok hns
  have hnew : new = ns := by
    apply List.ext_getElem?
    intro i
    rcases Nat.lt_or_ge i p.cAmts.length with hi | hi
    · obtain ⟨w, hw, -, hn, -⟩ := c3 i _ (List.getElem?_eq_getElem hi)
      rw [hn, b2 i _ _ (List.getElem?_eq_getElem hi) hw]
    · rw [List.getElem?_eq_none (by omega), List.getElem?_eq_none (by omega)]
  have hqc : q.cAmts = ns := by rw [hf]
  subst hnew
  rw [← hqc] at g1 gf
  refine ⟨d0, d1, d2, new', g0, g1, g2, ?_, by omega, gle, gm, hS, by rw [hf]⟩
  exact feeBalances_spec gf (by rw [hqc, b1])

/-- From the invariants that Newton's method computes to the worth of the shares credited. -/
theorem credited {c e n S T d0 d1 d2 v0 v1 v2 : Nat} (hS : 0 < S) (h0 : 0 < d0) (hT : S + n ≤ T)
    (hn : n = S * (d2 - d0) / d0) (hle : d0 * T ≤ d1 * S) (l2 : v2 ≤ d2) (l0 : d0 ≤ v0 + e)
    (l1 : d1 ≤ v1 + e) (hc : v1 ≤ c * T) : (v2 : ℚ) ≤ v0 + n * v1 / T + (2 * e + c : Nat) := by
  have hn' : S * (d2 - d0) < (n + 1) * d0 := by
    rw [hn]
    have := Nat.lt_mul_div_succ (S * (d2 - d0)) h0
    rw [Nat.mul_comm d0] at this
    exact this
  have hd : (d2 - d0) * T < (n + 1) * d1 := by
    have h1 : S * ((d2 - d0) * T) < (n + 1) * d0 * T := by
      have := Nat.mul_lt_mul_of_pos_right hn' (by omega : 0 < T)
      rwa [Nat.mul_assoc] at this
    have h2 : (n + 1) * d0 * T ≤ S * ((n + 1) * d1) := by
      have := Nat.mul_le_mul_left (n + 1) hle
      calc (n + 1) * d0 * T = (n + 1) * (d0 * T) := by ring
        _ ≤ (n + 1) * (d1 * S) := this
        _ = S * ((n + 1) * d1) := by ring
    exact Nat.lt_of_mul_lt_mul_left (h1.trans_le h2)
  have hfin : v2 * T ≤ v0 * T + n * v1 + (2 * e + c) * T := by
    have h1 : v2 ≤ v0 + e + (d2 - d0) := by omega
    have h2 := Nat.mul_le_mul_right T h1
    have h3 : (n + 1) * d1 ≤ (n + 1) * (v1 + e) := Nat.mul_le_mul_left _ l1
    have h4 : (n + 1) * e ≤ T * e := Nat.mul_le_mul_right _ (by omega)
    have e1 : (n + 1) * (v1 + e) = n * v1 + v1 + (n + 1) * e := by ring
    have e2 : (v0 + e + (d2 - d0)) * T = v0 * T + T * e + (d2 - d0) * T := by ring
    have e3 : (2 * e + c) * T = T * e + T * e + c * T := by ring
    omega
  have t0 : (0 : ℚ) < T := by exact_mod_cast (by omega : 0 < T)
  have hq : (v2 : ℚ) * T ≤ v0 * T + n * v1 + (2 * e + c : Nat) * T := by exact_mod_cast hfin
  rw [← mul_le_mul_iff_left₀ t0]
  calc (v2 : ℚ) * T ≤ v0 * T + n * v1 + (2 * e + c : Nat) * T := hq
    _ = (v0 + n * v1 / T + (2 * e + c : Nat)) * T := by field_simp

/-- From the invariants that Newton's method computes to the worth of the shares charged. -/
theorem charged {e n S d0 d2 v0 v2 : Nat} (hS : 0 < S) (h2 : d2 ≤ d0)
    (hn : n = S * (d0 - d2) / d0) (k0 : v0 ≤ d0) (l0 : d0 ≤ v0 + e) (l2 : v2 ≤ d2) :
    (n : ℚ) * v0 / S + v2 ≤ v0 + e := by
  have h1 : n * v0 ≤ S * (d0 - d2) := by
    rw [hn]
    exact (Nat.mul_le_mul_left _ k0).trans (Nat.div_mul_le_self _ _)
  have s0 : (0 : ℚ) < S := by exact_mod_cast hS
  have h3 : (n : ℚ) * v0 / S ≤ (d0 - d2 : Nat) := by
    rw [div_le_iff₀ s0]
    have : ((n * v0 : Nat) : ℚ) ≤ (S * (d0 - d2) : Nat) := by exact_mod_cast h1
    push_cast [h2] at this ⊢
    linarith
  have h4 : ((d0 - d2 + v2 : Nat) : ℚ) ≤ (v0 + e : Nat) := by exact_mod_cast (by omega)
  push_cast [h2] at h3 h4
  linarith

end CurvePool
end Verif

import Verif.Simple.Props

/-
Constant-product pools of ordinary size never refuse a swap or a deposit.
-/

namespace Verif
namespace SimplePool

theorem mintShares_live {p : SimplePool} {n : Nat} (h : p.supply + n < 2 ^ 128) (a : AccountId) :
    ∃ q, p.mintShares a n true = .ok q := by
  unfold mintShares
  split
  · exact ⟨_, rfl⟩
  · rw [assertE_true h, ok_bind]
    exact ⟨_, rfl⟩

/-- The pool can take `a` units of one token, up to as much as it has, and pay `r` units of the other
as long as the product does not fall. -/
theorem updatePool_live {p : SimplePool} {i o : Bool} {a r : Nat} {fees : AdminFees} (hio : i ≠ o)
    (hX : 0 < p.amt i) (hY : 0 < p.amt o) (hY2 : p.amt o < 2 ^ 128) (ha : a ≤ p.amt i)
    (hXa : p.amt i + a < 2 ^ 128) (hr : r ≤ p.amt o)
    (hk : p.amt i * p.amt o ≤ (p.amt i + a) * (p.amt o - r)) (hb : fees.adminFeeBps ≤ 10000)
    (href : fees.referral = none) (hs : 2 * p.supply < 2 ^ 128) :
    ∃ q, p.updatePool i a o r fees true = .ok q := by
  have hamt : ∀ (x y : Nat), ((p.setAmt i x).setAmt o y).amt i = x ∧
      ((p.setAmt i x).setAmt o y).amt o = y ∧ (p.setAmt i x).amt o = p.amt o ∧
      ((p.setAmt i x).setAmt o y).supply = p.supply := by
    intro x y; cases i <;> cases o <;> simp_all [setAmt, amt]
  obtain ⟨g1, g2, g3, g4⟩ := hamt (p.amt i + a) (p.amt o - r)
  have prod : ∀ {x y : Nat}, x < 2 ^ 128 → y < 2 ^ 128 → x * y + 1 < 2 ^ 256 := by
    intro x y hx hy
    have h1 : x * y ≤ (2 ^ 128 - 1) * (2 ^ 128 - 1) := Nat.mul_le_mul (by omega) (by omega)
    have h2 : (2 ^ 128 - 1) * (2 ^ 128 - 1) + 1 < 2 ^ 256 := by norm_num
    omega
  have k0 := prod (show p.amt i < 2 ^ 128 by omega) hY2
  have k1 := prod hXa (show p.amt o - r < 2 ^ 128 by omega)
  obtain ⟨s0, hs0, l0, u0⟩ := integerSqrt_spec _ k0
  obtain ⟨s1, hs1, l1, u1⟩ := integerSqrt_spec _ k1
  have hs01 : s0 ≤ s1 := by
    by_contra hc
    have : (s1 + 1) * (s1 + 1) ≤ s0 * s0 := Nat.mul_le_mul (by omega) (by omega)
    omega
  have h0 : 0 < s0 := by
    refine Nat.pos_of_ne_zero fun e => ?_
    subst e
    have := Nat.mul_pos hX hY
    omega
  have htwice : s1 ≤ 2 * s0 := by
    by_contra hc
    have h1 : (2 * s0 + 1) * (2 * s0 + 1) ≤ s1 * s1 := Nat.mul_le_mul (by omega) (by omega)
    have h2 : (p.amt i + a) * (p.amt o - r) ≤ 2 * p.amt i * p.amt o :=
      Nat.mul_le_mul (by omega) (by omega)
    nlinarith
  have hsmall : s0 < 2 ^ 128 := by
    by_contra hc
    have : 2 ^ 128 * 2 ^ 128 ≤ s0 * s0 := Nat.mul_le_mul (by omega) (by omega)
    have : (2 : Nat) ^ 128 * 2 ^ 128 = 2 ^ 256 := by norm_num
    omega
  have hnum : (s1 - s0) * p.supply < 2 ^ 256 := by
    have := prod (show s1 - s0 < 2 ^ 128 by omega) (show p.supply < 2 ^ 128 by omega)
    omega
  unfold updatePool
  rw [mulW_ok.2 ⟨by omega, rfl⟩, ok_bind, hs0, ok_bind, addW_ok.2 ⟨hXa, rfl⟩, ok_bind]
  simp only [g3]
  rw [subW_ok.2 ⟨hr, rfl⟩, ok_bind]
  simp only [g1, g2, g4]
  rw [mulW_ok.2 ⟨by omega, rfl⟩, ok_bind, hs1, ok_bind, assertE_true hs01, ok_bind,
    mulW_ok.2 ⟨hnum, rfl⟩, ok_bind]
  split
  · rename_i hpos
    have hden : s0 ≤ s0 * FEE_DIVISOR / fees.adminFeeBps := by
      rw [Nat.le_div_iff_mul_le hpos.1]
      exact Nat.mul_le_mul_left _ hb
    have hq : (s1 - s0) * p.supply / (s0 * FEE_DIVISOR / fees.adminFeeBps) ≤ p.supply := by
      refine Nat.div_le_of_le_mul ?_
      exact Nat.mul_le_mul_right _ (by omega)
    have hd0 : s0 * FEE_DIVISOR < 2 ^ 256 := by
      have := prod hsmall (show FEE_DIVISOR < 2 ^ 128 by unfold FEE_DIVISOR; norm_num)
      omega
    rw [mulW_ok.2 ⟨hd0, rfl⟩, ok_bind, divW_ok.2 ⟨by omega, rfl⟩, ok_bind,
      divW_ok.2 ⟨by omega, rfl⟩, ok_bind, fit_ok.2 ⟨by omega, rfl⟩, ok_bind]
    simp only [referralShare, href, ok_bind]
    rw [subW_ok.2 ⟨Nat.zero_le _, rfl⟩, ok_bind, Nat.sub_zero]
    exact mintShares_live (by rw [g4]; omega) _
  · exact ⟨_, rfl⟩

/-- What the formula of a swap pays leaves the product no lower. -/
theorem return_keeps {X Y a f r : Nat} (hX : 0 < X) (hf : f ≤ 10000)
    (hr : r = a * f * Y / (10000 * X + a * f)) : r ≤ Y ∧ X * Y ≤ (X + a) * (Y - r) := by
  have hd : 0 < 10000 * X + a * f := by omega
  have h1 : r * (10000 * X + a * f) ≤ a * f * Y := by rw [hr]; exact Nat.div_mul_le_self _ _
  have hle : r ≤ Y := by
    refine Nat.le_of_mul_le_mul_right (c := 10000 * X + a * f) ?_ hd
    have : Y * (10000 * X + a * f) = a * f * Y + 10000 * X * Y := by ring
    omega
  obtain ⟨e, rfl⟩ := Nat.exists_eq_add_of_le hle
  refine ⟨hle, ?_⟩
  rw [Nat.add_sub_cancel_left]
  have h2 : 10000 * (r * X) ≤ 10000 * (a * e) := by
    have h3 : a * f * e ≤ a * 10000 * e := Nat.mul_le_mul_right _ (Nat.mul_le_mul_left _ hf)
    nlinarith
  nlinarith

/-- **C91**, constant-product pools: the view of a swap answers, if the pool has both tokens, the
amount is positive and at most what the pool has, and the numbers are of ordinary size. -/
theorem C91_swap {p : SimplePool} {i o : Bool} {ti tout : AccountId} {a : Nat} {fees : AdminFees}
    (hp : p.Sound) (hti : p.tokenIndex ti = .ok i) (hto : p.tokenIndex tout = .ok o) (hne : ti ≠ tout)
    (hs0 : 0 < p.supply) (ha0 : 0 < a) (ha : a ≤ p.amt i) (hX : p.amt i + a < 2 ^ 128)
    (hXY : p.amt i * p.amt o * 10000 < 2 ^ 256) (hb : fees.adminFeeBps ≤ 10000)
    (href : fees.referral = none) (hs : 2 * p.supply < 2 ^ 128) :
    ∃ q out, p.swap ti a tout 0 fees true = .ok (q, out) := by
  have hio : i ≠ o := by
    rintro rfl
    have h1 := tokenIndex_ok hti
    have h2 := tokenIndex_ok hto
    exact hne (h1.trans h2.symm)
  have hpos : ∀ b, 0 < p.amt b ∧ p.amt b < 2 ^ 128 := by
    obtain ⟨h0, h1⟩ := hp.pos hs0
    intro b; cases b
    · exact ⟨h0, hp.amt0⟩
    · exact ⟨h1, hp.amt1⟩
  obtain ⟨x0, x1⟩ := hpos i
  obtain ⟨y0, y1⟩ := hpos o
  have hfee := hp.fee
  have hf : 10000 - p.totalFee ≤ 10000 := by omega
  have hout : ∃ out, p.internalGetReturn i a o = .ok out ∧
      out = a * (10000 - p.totalFee) * p.amt o / (10000 * p.amt i + a * (10000 - p.totalFee)) ∧
      out ≤ p.amt o ∧ p.amt i * p.amt o ≤ (p.amt i + a) * (p.amt o - out) := by
    obtain ⟨h1, h2⟩ := return_keeps (a := a) (Y := p.amt o) x0 hf rfl
    refine ⟨_, ?_, rfl, h1, h2⟩
    have hbig : a * (10000 - p.totalFee) * p.amt o ≤ p.amt i * p.amt o * 10000 := by
      calc a * (10000 - p.totalFee) * p.amt o ≤ p.amt i * 10000 * p.amt o := by gcongr
        _ = _ := by ring
    have hawf : a * (10000 - p.totalFee) ≤ a * (10000 - p.totalFee) * p.amt o :=
      Nat.le_mul_of_pos_right _ y0
    have hden : 10000 * p.amt i + a * (10000 - p.totalFee) < 2 ^ 256 := by
      have : a * (10000 - p.totalFee) ≤ a * 10000 := Nat.mul_le_mul_left _ hf
      omega
    unfold internalGetReturn
    rw [assertE_true ⟨x0, y0, hio, ha0⟩, ok_bind,
      subW_ok.2 ⟨by unfold FEE_DIVISOR; omega, rfl⟩, ok_bind]
    simp only [FEE_DIVISOR]
    rw [mulW_ok.2 ⟨by omega, rfl⟩, ok_bind, mulW_ok.2 ⟨by omega, rfl⟩, ok_bind,
      mulW_ok.2 ⟨by omega, rfl⟩, ok_bind, addW_ok.2 ⟨hden, rfl⟩, ok_bind,
      divW_ok.2 ⟨by omega, rfl⟩, ok_bind, fit_ok.2 ⟨by omega, rfl⟩]
  obtain ⟨out, hr, -, hle, hk⟩ := hout
  obtain ⟨q, hq⟩ := updatePool_live (fees := fees) hio x0 y0 y1 ha hX hle hk hb href hs
  refine ⟨q, out, ?_⟩
  unfold swap
  rw [assertE_true hne, ok_bind, hti, ok_bind, hto, ok_bind, hr, ok_bind,
    assertE_true (Nat.zero_le _), ok_bind, hq, ok_bind]

/-- **C91**, swaps that ask for an exact output: the view answers if the output is less than what the
pool would give for doubling the other token. -/
theorem C91_swap_by_output {p : SimplePool} {i o : Bool} {ti tout : AccountId} {r : Nat}
    {fees : AdminFees} (hp : p.Sound) (hti : p.tokenIndex ti = .ok i) (hto : p.tokenIndex tout = .ok o)
    (hne : ti ≠ tout) (hs0 : 0 < p.supply) (hr0 : 0 < r) (hr : r < p.amt o)
    (hhalf : r * 10000 < (p.amt o - r) * (10000 - p.totalFee)) (hX : 2 * p.amt i < 2 ^ 128)
    (hXY : p.amt i * p.amt o * 10000 < 2 ^ 256) (hb : fees.adminFeeBps ≤ 10000)
    (href : fees.referral = none) (hs : 2 * p.supply < 2 ^ 128) :
    ∃ q inn, p.swapByOutput ti r tout none fees true = .ok (q, inn) := by
  have hio : i ≠ o := by
    rintro rfl
    have h1 := tokenIndex_ok hti
    have h2 := tokenIndex_ok hto
    exact hne (h1.trans h2.symm)
  have hpos : ∀ b, 0 < p.amt b ∧ p.amt b < 2 ^ 128 := by
    obtain ⟨h0, h1⟩ := hp.pos hs0
    intro b; cases b
    · exact ⟨h0, hp.amt0⟩
    · exact ⟨h1, hp.amt1⟩
  obtain ⟨x0, x1⟩ := hpos i
  obtain ⟨y0, y1⟩ := hpos o
  have hfee := hp.fee
  have hf : 10000 - p.totalFee ≤ 10000 := by omega
  have hf0 : 0 < 10000 - p.totalFee := by omega
  have hden0 : 0 < (p.amt o - r) * (10000 - p.totalFee) := by omega
  have hn : p.amt i * r * 10000 ≤ p.amt i * p.amt o * 10000 := by gcongr
  have hn0 : p.amt i * r ≤ p.amt i * p.amt o := by gcongr
  have hden : (p.amt o - r) * (10000 - p.totalFee) ≤ p.amt o * 10000 := by
    gcongr; omega
  have hlt : p.amt i * r * 10000 / ((p.amt o - r) * (10000 - p.totalFee)) < p.amt i := by
    rw [Nat.div_lt_iff_lt_mul hden0, Nat.mul_assoc]
    exact Nat.mul_lt_mul_of_pos_left hhalf x0
  obtain ⟨inn, hinn, hle, hk⟩ : ∃ inn, p.internalGetReturnByOutput i r o = .ok inn ∧
      inn ≤ p.amt i ∧ p.amt i * p.amt o ≤ (p.amt i + inn) * (p.amt o - r) := by
    refine ⟨p.amt i * r * 10000 / ((p.amt o - r) * (10000 - p.totalFee)) + 1, ?_, by omega, ?_⟩
    · unfold internalGetReturnByOutput
      rw [assertE_true ⟨x0, y0, hio, hr0⟩, ok_bind, mulW_ok.2 ⟨by omega, rfl⟩, ok_bind]
      simp only [FEE_DIVISOR]
      rw [mulW_ok.2 ⟨lt_of_le_of_lt hn hXY, rfl⟩, ok_bind, subW_ok.2 ⟨hr.le, rfl⟩, ok_bind,
        subW_ok.2 ⟨by omega, rfl⟩, ok_bind, mulW_ok.2 ⟨by omega, rfl⟩, ok_bind,
        divW_ok.2 ⟨by omega, rfl⟩, ok_bind, addW_ok.2 ⟨by omega, rfl⟩, ok_bind,
        fit_ok.2 ⟨by omega, rfl⟩]
    · have h1 := Nat.lt_mul_div_succ (p.amt i * r * 10000) hden0
      generalize p.amt i * r * 10000 / ((p.amt o - r) * (10000 - p.totalFee)) + 1 = inn at *
      generalize p.amt i = X at *
      obtain ⟨e, he⟩ := Nat.exists_eq_add_of_le hr.le
      rw [he] at h1 ⊢
      rw [Nat.add_sub_cancel_left] at *
      have h2 : e * (10000 - p.totalFee) * inn ≤ e * 10000 * inn := by gcongr
      nlinarith
  obtain ⟨q, hq⟩ := updatePool_live (fees := fees) hio x0 y0 y1 hle (by omega) hr.le hk hb href hs
  refine ⟨q, inn, ?_⟩
  unfold swapByOutput
  rw [assertE_true hne, ok_bind, hti, ok_bind, hto, ok_bind, hinn, ok_bind, assertE_true (by simp), ok_bind,
    hq, ok_bind]

/-- **C91**, deposits: the view of a deposit answers if the pool is empty and both amounts are
positive, or if both amounts are worth a share and at most what the pool has. -/
theorem C91_add {p : SimplePool} {a : AccountId} {a0 a1 : Nat} (hp : p.Sound)
    (h : p.supply = 0 ∧ 0 < a0 ∧ 0 < a1 ∧ a0 < 2 ^ 128 ∧ a1 < 2 ^ 128 ∨
      p.amt0 ≤ (a0 - 1) * p.supply ∧ p.amt1 ≤ (a1 - 1) * p.supply ∧ 0 < p.supply ∧
        a0 ≤ p.amt0 ∧ a1 ≤ p.amt1 ∧ 2 * p.amt0 < 2 ^ 128 ∧ 2 * p.amt1 < 2 ^ 128 ∧
        2 * p.supply < 2 ^ 128) :
    ∃ q used n, p.addLiquidity a [a0, a1] true = .ok (q, used, n) := by
  unfold addLiquidity
  rcases h with ⟨h0, p0, p1, l0, l1⟩ | ⟨r0, r1, hs, le0, le1, b0, b1, bs⟩
  · obtain ⟨z0, z1⟩ := hp.zero h0
    simp only [h0, Nat.lt_irrefl, if_false, gt_iff_lt, z0, z1]
    rw [assertE_true p0, ok_bind, addW_ok.2 ⟨by omega, rfl⟩, ok_bind, assertE_true p1, ok_bind,
      addW_ok.2 ⟨by omega, rfl⟩, ok_bind, ok_bind]
    simp only
    obtain ⟨q, hq⟩ := mintShares_live (p := { p with amt0 := 0 + a0, amt1 := 0 + a1 }) (n := INIT_SHARES_SUPPLY)
      (by simp only [h0]; unfold INIT_SHARES_SUPPLY; norm_num) a
    simp only [h0] at hq
    rw [hq, ok_bind, assertE_true (by unfold INIT_SHARES_SUPPLY; norm_num), ok_bind]
    exact ⟨_, _, _, rfl⟩
  · obtain ⟨x0, x1⟩ := hp.pos hs
    have ratio : ∀ {x b : Nat}, 0 < x → x < 2 ^ 128 → x ≤ (b - 1) * p.supply → b ≤ x →
        ∃ r, fairRatio p.supply x b = .ok r ∧ 0 < r ∧ r ≤ p.supply ∧ r = (b - 1) * p.supply / x := by
      intro x b hx hx2 hr hb
      have hb0 : 0 < b := by
        refine Nat.pos_of_ne_zero fun e => ?_
        subst e
        omega
      refine ⟨(b - 1) * p.supply / x, ?_, Nat.div_pos hr hx, ?_, rfl⟩
      · unfold fairRatio
        have : (b - 1) * p.supply ≤ 2 ^ 128 * 2 ^ 128 := Nat.mul_le_mul (by omega) (by omega)
        have h3 : (b - 1) * p.supply ≤ 2 ^ 128 * p.supply := Nat.mul_le_mul_right _ (by omega)
        have h4 : 2 ^ 128 * p.supply < 2 ^ 256 := by omega
        rw [assertE_true hb0, ok_bind, mulW_ok.2 ⟨by omega, rfl⟩, ok_bind]
        exact divW_ok.2 ⟨by omega, rfl⟩
      · refine Nat.div_le_of_le_mul ?_
        exact Nat.mul_le_mul_right _ (by omega)
    obtain ⟨f0, e0, g0, u0, -⟩ := ratio x0 (by omega) r0 le0
    obtain ⟨f1, e1, g1, u1, -⟩ := ratio x1 (by omega) r1 le1
    have amount : ∀ {x f : Nat}, 0 < x → 2 * x < 2 ^ 128 → f ≤ p.supply → 0 < f →
        ∃ b, fairAmount p.supply x f = .ok b ∧ x + b < 2 ^ 128 := by
      intro x f hx hx2 hf hf0
      have hq : x * f / p.supply ≤ x := by
        refine Nat.div_le_of_le_mul ?_
        rw [Nat.mul_comm p.supply]
        exact Nat.mul_le_mul_left _ hf
      have h3 : x * f ≤ x * p.supply := Nat.mul_le_mul_left _ hf
      have h4 : x * p.supply ≤ x * 2 ^ 128 := Nat.mul_le_mul_left _ (by omega)
      refine ⟨x * f / p.supply + 1, ?_, by omega⟩
      unfold fairAmount
      rw [mulW_ok.2 ⟨by omega, rfl⟩, ok_bind, divW_ok.2 ⟨by omega, rfl⟩, ok_bind,
        fit_ok.2 ⟨by omega, rfl⟩, ok_bind, addW_ok.2 ⟨by omega, rfl⟩, ok_bind,
        assertE_true (Nat.succ_pos _), ok_bind]
    have hfair : ∃ f, min (min (2 ^ 256 - 1) f0) f1 = f ∧ 0 < f ∧ f ≤ p.supply := ⟨_, rfl, by omega, by omega⟩
    obtain ⟨f, ef, hf0, hf1⟩ := hfair
    obtain ⟨c0, k0, m0⟩ := amount x0 b0 hf1 hf0
    obtain ⟨c1, k1, m1⟩ := amount x1 b1 hf1 hf0
    simp only [gt_iff_lt, hs, if_true]
    rw [e0, ok_bind, e1, ok_bind]
    simp only [ef]
    rw [k0, ok_bind, addW_ok.2 ⟨m0, rfl⟩, ok_bind, k1, ok_bind, addW_ok.2 ⟨m1, rfl⟩, ok_bind,
      fit_ok.2 ⟨by omega, rfl⟩, ok_bind, ok_bind]
    simp only
    obtain ⟨q, hq⟩ := mintShares_live (p := { p with amt0 := p.amt0 + c0, amt1 := p.amt1 + c1 }) (n := f)
      (by simp only; omega) a
    rw [hq, ok_bind, assertE_true hf0, ok_bind]
    exact ⟨_, _, _, rfl⟩

end SimplePool
end Verif

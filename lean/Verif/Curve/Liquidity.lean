import Verif.Curve.Props

/-
Properties of deposits and withdrawals in the stable, rated and degen pools: the curve parts of
C07 and C09, and C36, C37, C51.
-/

namespace Verif

open CurvePool

/-! ### C36: decimals -/

/-- **C36**, conversions. Converting an amount into internal units never creates value, loses less
than one internal unit, and is exact unless the token has more decimals than the pool; converting
back never creates value either, so a round trip never increases an amount. -/
theorem C36_round_trip {k : CurveKind} {d a c a' : Nat} (h1 : amountToC k d a = .ok c)
    (h2 : cToAmount k d c = .ok a') :
    a' ≤ a ∧ a < a' + k.tokPerC d ∧ (d ≤ k.target → a' = a) := by
  obtain ⟨rfl, -⟩ := amountToC_ok h1
  obtain ⟨rfl, -⟩ := cToAmount_ok h2
  have hC := k.cPerTok_pos d
  have hT := k.tokPerC_pos d
  rcases Nat.le_total d k.target with hd | hd
  · have : k.tokPerC d = 1 := by simp [CurveKind.tokPerC, Nat.sub_eq_zero_of_le hd]
    rw [this]
    simp only [Nat.div_one, Nat.mul_one]
    rw [Nat.mul_div_cancel _ hC]
    omega
  · have hc1 : k.cPerTok d = 1 := by simp [CurveKind.cPerTok, Nat.sub_eq_zero_of_le hd]
    rw [hc1]
    simp only [Nat.div_one, Nat.mul_one]
    have h3 := Nat.div_add_mod a (k.tokPerC d)
    have h4 := Nat.mod_lt a hT
    have h5 := Nat.div_mul_le_self a (k.tokPerC d)
    refine ⟨h5, by rw [Nat.mul_comm]; omega, ?_⟩
    intro hd'
    have : k.tokPerC d = 1 := by
      simp [CurveKind.tokPerC, Nat.sub_eq_zero_of_le hd']
    rw [this]; simp

theorem C36_round_trip_internal {k : CurveKind} {d a c c' : Nat} (h1 : cToAmount k d c = .ok a)
    (h2 : amountToC k d a = .ok c') : c' ≤ c ∧ c < c' + k.cPerTok d := by
  obtain ⟨rfl, -⟩ := cToAmount_ok h1
  obtain ⟨rfl, -⟩ := amountToC_ok h2
  have hC := k.cPerTok_pos d
  have hT := k.tokPerC_pos d
  rcases Nat.le_total d k.target with hd | hd
  · have : k.tokPerC d = 1 := by simp [CurveKind.tokPerC, Nat.sub_eq_zero_of_le hd]
    rw [this]
    simp only [Nat.div_one, Nat.mul_one]
    have h3 := Nat.div_add_mod c (k.cPerTok d)
    have h4 := Nat.mod_lt c hC
    exact ⟨Nat.div_mul_le_self _ _, by rw [Nat.mul_comm]; omega⟩
  · have hc1 : k.cPerTok d = 1 := by simp [CurveKind.cPerTok, Nat.sub_eq_zero_of_le hd]
    rw [hc1]
    simp only [Nat.div_one, Nat.mul_one]
    rw [Nat.mul_div_cancel _ hT]
    omega

example : amountToC .stable 24 1999999 = .ok 1 ∧ cToAmount .stable 24 1 = .ok 1000000 ∧
    amountToC .rated 6 5 = .ok (5 * 10 ^ 18) ∧ cToAmount .rated 6 (6 * 10 ^ 18 - 1) = .ok 5 := by
  refine ⟨by rfl, by rfl, by rfl, by rfl⟩

theorem covered_of_cToAmount {k : CurveKind} {d a c : Nat} (h : cToAmount k d c = .ok a) :
    CoveredBy k d a c := by
  obtain ⟨rfl, -⟩ := cToAmount_ok h
  exact Nat.div_mul_le_self _ _

theorem credited_of_amountToC {k : CurveKind} {d a c : Nat} (h : amountToC k d a = .ok c) :
    c * k.tokPerC d ≤ a * k.cPerTok d := by
  obtain ⟨rfl, -⟩ := amountToC_ok h
  exact Nat.div_mul_le_self _ _

/-- **C36**, deposits: each reserve grows by at most what the deposited amount is worth. -/
theorem C36_add_credits {p q : CurvePool} {s : AccountId} {am : List Nat} {mn n : Nat}
    {fees : AdminFees} {env : CurveEnv} {v : Bool}
    (h : p.addLiquidity s am mn fees env v = .ok (q, n)) :
    ∀ (i c : Nat), p.cAmts[i]? = some c → ∃ d a c', p.decs[i]? = some d ∧ am[i]? = some a ∧
      q.cAmts[i]? = some c' ∧ c ≤ c' ∧ (c' - c) * p.kind.tokPerC d ≤ a * p.kind.cPerTok d := by
  obtain ⟨fp, cs, p1, -, -, -, hcs, -, -, hm⟩ := CurvePool.addLiquidity_ok h
  obtain ⟨-, -, hall⟩ := addAmounts_ok hcs
  intro i c hc
  obtain ⟨d, a, x, hd, ha, hx, hn⟩ := hall i c hc
  refine ⟨d, a, c + x, hd, ha, by rw [hm.frame]; exact hn, by omega, ?_⟩
  rw [Nat.add_sub_cancel_left]
  exact credited_of_amountToC hx

example : (exStable.addLiquidity exLP [10 ^ 20, 10 ^ 9, 10 ^ 24] (10 ^ 19) exFees exEnv false).holds
    (fun (q, n) => n = 1099859992061677115488 ∧
      q.cAmts = [100100000000000000000000, 101000000000000000000000, 100001000000000000000000]) := by
  decide +kernel

/-- **C36**, removal by shares: what is paid is covered by the fall of the reserve. (For swaps see
`C32_swap_keeps_curve` and `C35_swap_fee_split`.) -/
theorem C36_remove_shares_covered {p q : CurvePool} {s : AccountId} {n : Nat}
    {mins paid : List Nat} {v : Bool} (h : p.removeByShares s n mins v = .ok (q, paid)) :
    ∀ (i c : Nat), p.cAmts[i]? = some c → ∃ d a c', p.decs[i]? = some d ∧ paid[i]? = some a ∧
      q.cAmts[i]? = some c' ∧ c' ≤ c ∧ CoveredBy p.kind d a (c - c') := by
  obtain ⟨-, -, -, hl, -⟩ := removeByShares_ok h
  obtain ⟨-, -, -, hall⟩ := removeLoop_ok hl
  intro i c hc
  obtain ⟨d, m, a, hd, -, ha, hle, hn, -, hca, -⟩ := hall i c hc
  refine ⟨d, a, _, hd, ha, hn, Nat.sub_le _ _, ?_⟩
  rw [Nat.sub_sub_self hle]
  exact covered_of_cToAmount hca

/-- **C36**, removal by tokens, *partial*: what is paid exceeds the fall of the reserve by less than
one internal unit, and is covered if the token has no more decimals than the pool. Missing: coverage
for tokens with more than 18 decimals in a stable pool, which is false, see
`C36_remove_tokens_leak`. -/
theorem C36_remove_tokens_covered_partial {p q : CurvePool} {s : AccountId} {n mb : Nat}
    {am : List Nat} {fees : AdminFees} {env : CurveEnv} {v : Bool}
    (h : p.removeByTokens s am mb fees env v = .ok (q, n)) :
    ∀ (i c d : Nat), p.cAmts[i]? = some c → p.decs[i]? = some d → ∃ a c', am[i]? = some a ∧
      q.cAmts[i]? = some c' ∧ c' ≤ c ∧
      a * p.kind.cPerTok d < (c - c') * p.kind.tokPerC d + p.kind.tokPerC d ∧
      (d ≤ p.kind.target → CoveredBy p.kind d a (c - c')) := by
  obtain ⟨cs, fp, ns, -, hcs, -, -, hns, -, hf, -⟩ := removeByTokens_ok h
  obtain ⟨-, -, h1⟩ := amountsToC_ok hcs
  obtain ⟨-, h2⟩ := subReserves_ok hns
  intro i c d hc hd
  obtain ⟨w, hw, hle, hn, -⟩ := h2 i c hc
  obtain ⟨a, w', ha, hw', hca⟩ := h1 i d hd
  rw [hw] at hw'; cases hw'
  obtain ⟨hx, -⟩ := amountToC_ok hca
  have hlt : a * p.kind.cPerTok d < w * p.kind.tokPerC d + p.kind.tokPerC d := by
    rw [hx]
    have := Nat.div_add_mod (a * p.kind.cPerTok d) (p.kind.tokPerC d)
    have := Nat.mod_lt (a * p.kind.cPerTok d) (p.kind.tokPerC_pos d)
    nlinarith
  refine ⟨a, c - w, ha, by rw [hf]; exact hn, by omega, ?_, ?_⟩
  · rw [show c - (c - w) = w by omega]; exact hlt
  · intro hd'
    rw [show c - (c - w) = w by omega]
    have : p.kind.tokPerC d = 1 := by simp [CurveKind.tokPerC, Nat.sub_eq_zero_of_le hd']
    unfold CoveredBy
    rw [this] at hlt ⊢
    omega

/-- Coverage holds for every token of every rated and degen pool. -/
theorem C36_remove_tokens_covered_rated {p q : CurvePool} {s : AccountId} {n mb : Nat}
    {am : List Nat} {fees : AdminFees} {env : CurveEnv} {v : Bool} (hk : p.kind ≠ .stable)
    (h : p.removeByTokens s am mb fees env v = .ok (q, n)) :
    ∀ (i c d : Nat), p.cAmts[i]? = some c → p.decs[i]? = some d → ∃ a c', am[i]? = some a ∧
      q.cAmts[i]? = some c' ∧ c' ≤ c ∧ CoveredBy p.kind d a (c - c') := by
  intro i c d hc hd
  obtain ⟨a, c', h1, h2, h3, -, h4⟩ := C36_remove_tokens_covered_partial h i c d hc hd
  refine ⟨a, c', h1, h2, h3, h4 ?_⟩
  obtain ⟨cs, fp, ns, -, hcs, -⟩ := removeByTokens_ok h
  obtain ⟨-, -, g1⟩ := amountsToC_ok hcs
  obtain ⟨a', w', -, -, hca⟩ := g1 i d hd
  by_contra hgt
  unfold amountToC at hca
  rw [if_neg hgt] at hca
  split at hca
  · rename_i hkk; exact hk hkk
  · cases hca

example : (exRated.removeByTokens exLP [10 ^ 24, 10 ^ 25] (10 ^ 28) exFees exEnv false).holds
    (fun (q, n) => n = 14545544807086127077396271 ∧
      q.cAmts = [99999000000000000000000000000, 79990000000000000000000000000]) := by
  decide +kernel

/-- **C36** is violated by token-denominated removals of a token with more than 18 decimals from a
stable pool: here the holder asks for 999999 units of a 24-decimals token and is credited with them,
while the pool's reserve of that token does not change at all. -/
theorem C36_remove_tokens_leak :
    ∃ (p q : CurvePool) (n : Nat),
      p.removeByTokens exLP [10 ^ 20, 10 ^ 9, 999999] (10 ^ 23) exFees exEnv false = .ok (q, n) ∧
      p.kind = .stable ∧ p.decs[2]? = some 24 ∧ q.cAmts[2]? = p.cAmts[2]? := by
  have h : (exStable.removeByTokens exLP [10 ^ 20, 10 ^ 9, 999999] (10 ^ 23) exFees exEnv false).holds
      (fun (q, _) => q.cAmts[2]? = exStable.cAmts[2]?) := by decide +kernel
  cases hr : exStable.removeByTokens exLP [10 ^ 20, 10 ^ 9, 999999] (10 ^ 23) exFees exEnv false with
  | error e => rw [hr] at h; cases h
  | ok r =>
    rw [hr] at h
    exact ⟨exStable, r.1, r.2, hr, rfl, rfl, by simpa [R.holds] using h⟩

/-! ### C37: expired rates -/

/-- **C37**. A swap or a token-denominated removal on a rated or degen pool fails if a required rate
has expired. -/
theorem C37_stale_rates_block {p : CurvePool} {env : CurveEnv} (hk : p.kind ≠ .stable)
    (hv : env.valid = false) :
    (∀ ti a tout mo fees v r, p.swap ti a tout mo fees env v ≠ .ok r) ∧
    (∀ s am mb fees v r, p.removeByTokens s am mb fees env v ≠ .ok r) := by
  have hA : ∀ u, p.assertRates env ≠ .ok u := by
    intro u h
    unfold assertRates at h
    cases hkk : p.kind <;> simp_all [assertE]
  constructor
  · intro ti a tout mo fees v r h
    obtain ⟨q, out⟩ := r
    obtain ⟨_, _, _, _, _, _, -, -, -, -, hr, -⟩ := CurvePool.swap_ok h
    exact hA _ hr
  · intro s am mb fees v r h
    obtain ⟨q, n⟩ := r
    obtain ⟨_, _, _, -, -, hr, -⟩ := removeByTokens_ok h
    exact hA _ hr

example : exRated.kind ≠ .stable ∧
    ¬ (exRated.swap exB (10 ^ 27) exA 1 exFees { exEnv with valid := false } false).holds
      (fun _ => true) := by decide +kernel

/-- The first deposit is also refused with an expired rate; later deposits are not. -/
theorem C37_first_deposit_blocked {p : CurvePool} {env : CurveEnv} (hk : p.kind ≠ .stable)
    (hv : env.valid = false) (h0 : p.supply = 0) (s : AccountId) (am : List Nat) (mn : Nat)
    (fees : AdminFees) (v : Bool) (r : CurvePool × Nat) :
    p.addLiquidity s am mn fees env v ≠ .ok r := by
  intro h
  obtain ⟨q, n⟩ := r
  obtain ⟨_, _, _, -, hc, -⟩ := CurvePool.addLiquidity_ok h
  unfold calcAdd at hc
  simp only [h0, if_true] at hc
  unpack at hc
  obtain ⟨_, -, _, hr, -⟩ := hc
  unfold assertRates at hr
  cases hkk : p.kind <;> simp_all [assertE]

/-- Deposits into a rated pool that already has liquidity succeed with expired rates: the rate check
is only made for the first deposit. -/
theorem C37_later_deposit_not_blocked :
    (exRated.addLiquidity exLP [10 ^ 27, 10 ^ 27] 1 exFees { exEnv with valid := false } false).holds
      (fun (_, n) => n > 0) := by decide +kernel

/-! ### Removal by shares -/

/-- **C37**, the way out. A holder can always remove liquidity by shares: this needs no rate and no
time. It fails only for the reasons listed: the pool keeps its minimum reserve, and payments fit
128 bits (automatic unless a stable pool holds a token with more than 18 decimals). -/
theorem C37_remove_by_shares_always_possible (p : CurvePool) (s : AccountId) (n : Nat)
    (hlen : p.cAmts.length = p.toks.length) (hdec : p.decs.length = p.toks.length)
    (hfit : ∀ c ∈ p.cAmts, c < 2 ^ 128) (hsup : p.supply < 2 ^ 128)
    (hbal : n ≤ p.shareBalanceOf s) (hreg : p.shares.contains s = true) (hn : 0 < n)
    (hsum : p.supply = sumVals p.shares)
    (hmin : ∀ c ∈ p.cAmts, p.kind.minReserve ≤ c - c * n / p.supply)
    (hpay : ∀ (i c d : Nat), p.cAmts[i]? = some c → p.decs[i]? = some d →
      ∃ a, cToAmount p.kind d (c * n / p.supply) = .ok a) :
    ∃ q paid, p.removeByShares s n (p.toks.map fun _ => 0) false = .ok (q, paid) := by
  have hnS : n ≤ p.supply := by
    rw [hsum]; exact hbal.trans (getD_le_sumVals _ _)
  obtain ⟨prev, hprev⟩ : ∃ prev, p.shares.get? s = some prev := by
    unfold FMap.contains at hreg
    exact Option.isSome_iff_exists.1 hreg
  have hprev' : n ≤ prev := by
    simpa [shareBalanceOf, FMap.getD, hprev] using hbal
  have hloop : ∀ (cs ds ms : List Nat), cs.length = ms.length → ds.length = ms.length →
      (∀ m ∈ ms, m = 0) → (∀ c ∈ cs, c < 2 ^ 128) →
      (∀ c ∈ cs, p.kind.minReserve ≤ c - c * n / p.supply) →
      (∀ (i c d : Nat), cs[i]? = some c → ds[i]? = some d →
        ∃ a, cToAmount p.kind d (c * n / p.supply) = .ok a) →
      ∃ r, removeLoop p.kind n p.supply cs ds ms = .ok r := by
    intro cs
    induction cs with
    | nil => intro ds ms _ _ _ _ _ _; exact ⟨_, rfl⟩
    | cons c cs ih =>
      intro ds ms h1 h2 h3 h4 h5 h6
      cases ms with
      | nil => simp at h1
      | cons m ms =>
        cases ds with
        | nil => simp at h2
        | cons d ds =>
          obtain ⟨r, hr⟩ := ih ds ms (by simpa using h1) (by simpa using h2)
            (fun m' hm' => h3 m' (by simp [hm'])) (fun c' hc' => h4 c' (by simp [hc']))
            (fun c' hc' => h5 c' (by simp [hc']))
            (fun i c' d' hi hj => h6 (i + 1) c' d' (by simpa using hi) (by simpa using hj))
          obtain ⟨a, ha⟩ := h6 0 c d rfl rfl
          have hc : c < 2 ^ 128 := h4 c (by simp)
          have hm0 : m = 0 := h3 m (by simp)
          have hle : c * n / p.supply ≤ c := by
            apply Nat.div_le_of_le_mul
            rw [Nat.mul_comm p.supply]
            exact Nat.mul_le_mul_left _ hnS
          have hmul : c * n < 2 ^ 256 := by
            have : c * n ≤ (2 ^ 128 - 1) * (2 ^ 128 - 1) :=
              Nat.mul_le_mul (by omega) (by omega)
            omega
          refine ⟨((c - c * n / p.supply) :: r.1, a :: r.2), ?_⟩
          unfold removeLoop
          rw [mulW_ok.2 ⟨hmul, rfl⟩, ok_bind, divW_ok.2 ⟨by omega, rfl⟩, ok_bind,
            fit_ok.2 ⟨by omega, rfl⟩, ok_bind, subW_ok.2 ⟨hle, rfl⟩, ok_bind,
            assertE_true (h5 c (by simp)), ok_bind, ha, ok_bind,
            assertE_true (by omega), ok_bind, hr, ok_bind]
  obtain ⟨r, hr⟩ := hloop p.cAmts p.decs (p.toks.map fun _ => 0) (by simp [hlen]) (by simp [hdec])
    (by simp) hfit hmin hpay
  refine ⟨{ p with shares := p.shares.insert s (prev - n), cAmts := r.1, supply := p.supply - n },
    r.2, ?_⟩
  unfold removeByShares
  simp only [Bool.false_eq_true, if_false]
  rw [assertE_true (by simp), ok_bind, hprev]
  simp only [expectE, ok_bind]
  rw [assertE_true hprev', ok_bind]
  unfold burnShares
  rw [if_neg (by omega), subW_ok.2 ⟨hprev', rfl⟩, ok_bind, ok_bind]
  simp only
  rw [hr, ok_bind, subW_ok.2 ⟨hnS, rfl⟩, ok_bind]

example : (exRated.removeByShares exLP (10 ^ 28) [0, 0] false).holds (fun (_, paid) =>
    paid = [5000000000000000000000000000, 4000000000000000000000000000]) := by decide +kernel

/-- Amounts of tokens whose decimals do not exceed the pool's always convert. -/
theorem cToAmount_total {k : CurveKind} {d c : Nat} (hd : d ≤ k.target) :
    ∃ a, cToAmount k d c = .ok a := by
  unfold cToAmount
  rw [if_pos hd]
  exact ⟨_, divW_ok.2 ⟨by positivity, rfl⟩⟩

/-- **C07** (stable, rated, degen). Removing `n` shares pays each token at most the exact pro-rata
part of its reserve, less than one token unit (or one internal unit, if that is worth more) below
it, and at least the stated minimum; burns exactly `n` shares of the caller; touches no other holder;
and the reserve per share of the remaining holders does not fall. -/
theorem C07_remove_by_shares_curve {p q : CurvePool} {s : AccountId} {n : Nat}
    {mins paid : List Nat} (h : p.removeByShares s n mins false = .ok (q, paid)) :
    (∀ (i c : Nat), p.cAmts[i]? = some c → ∃ d m a c', p.decs[i]? = some d ∧ mins[i]? = some m ∧
      paid[i]? = some a ∧ q.cAmts[i]? = some c' ∧ m ≤ a ∧
      a * p.kind.cPerTok d * p.supply ≤ c * p.kind.tokPerC d * n ∧
      c * p.kind.tokPerC d * n <
        (a * p.kind.cPerTok d + p.kind.tokPerC d * p.kind.cPerTok d) * p.supply ∧
      c * q.supply ≤ c' * p.supply) ∧
    n ≤ p.supply ∧ q.supply = p.supply - n ∧ q.shareBalanceOf s + n = p.shareBalanceOf s ∧
    (∀ x, x ≠ s → q.shareBalanceOf x = p.shareBalanceOf x) := by
  obtain ⟨-, hS, hsup, hl, -, -, hv⟩ := removeByShares_ok h
  obtain ⟨prev, -, -, -, hb, hoth, -⟩ := hv rfl
  obtain ⟨-, -, hS0, hall⟩ := removeLoop_ok hl
  refine ⟨?_, hS, hsup, hb, ?_⟩
  · intro i c hc
    obtain ⟨d, m, a, hd, hm, ha, hle, hn, -, hca, hma⟩ := hall i c hc
    obtain ⟨hae, -⟩ := cToAmount_ok hca
    have hSpos : 0 < p.supply := by
      have := hS0 (by intro h0; rw [h0] at hc; simp at hc)
      omega
    refine ⟨d, m, a, _, hd, hm, ha, hn, hma, ?_, ?_, ?_⟩
    · have h1 : a * p.kind.cPerTok d ≤ c * n / p.supply * p.kind.tokPerC d := by
        rw [hae]; exact Nat.div_mul_le_self _ _
      have h2 := Nat.div_mul_le_self (c * n) p.supply
      calc a * p.kind.cPerTok d * p.supply
          ≤ c * n / p.supply * p.kind.tokPerC d * p.supply := Nat.mul_le_mul_right _ h1
        _ = c * n / p.supply * p.supply * p.kind.tokPerC d := by ring
        _ ≤ c * n * p.kind.tokPerC d := Nat.mul_le_mul_right _ h2
        _ = c * p.kind.tokPerC d * n := by ring
    · have hC := p.kind.cPerTok_pos d
      have hT := p.kind.tokPerC_pos d
      have hone : p.kind.cPerTok d = 1 ∨ p.kind.tokPerC d = 1 := by
        rcases Nat.le_total d p.kind.target with hd' | hd'
        · right; simp [CurveKind.tokPerC, Nat.sub_eq_zero_of_le hd']
        · left; simp [CurveKind.cPerTok, Nat.sub_eq_zero_of_le hd']
      have h1 := Nat.div_add_mod (c * n) p.supply
      have h2 := Nat.mod_lt (c * n) hSpos
      generalize c * n / p.supply = w at *
      have h3 := Nat.div_add_mod (w * p.kind.tokPerC d) (p.kind.cPerTok d)
      have h4 := Nat.mod_lt (w * p.kind.tokPerC d) hC
      rw [← hae] at h3
      generalize p.kind.cPerTok d = C at *
      generalize p.kind.tokPerC d = T at *
      have h5 : c * n < (w + 1) * p.supply := by nlinarith
      have h6 : (w + 1) * T ≤ a * C + T * C := by
        rcases hone with rfl | rfl
        · rw [Nat.mod_one] at h3; nlinarith
        · nlinarith
      calc c * T * n = c * n * T := by ring
        _ < (w + 1) * p.supply * T := Nat.mul_lt_mul_of_pos_right h5 hT
        _ = (w + 1) * T * p.supply := by ring
        _ ≤ _ := Nat.mul_le_mul_right _ h6
    · have h1 := Nat.div_mul_le_self (c * n) p.supply
      rw [hsup]
      generalize c * n / p.supply = w at *
      obtain ⟨e, he⟩ := Nat.exists_eq_add_of_le hle
      obtain ⟨f, hf⟩ := Nat.exists_eq_add_of_le hS
      rw [show c - w = e by omega, show p.supply - n = f by omega]
      rw [hf] at h1 ⊢
      rw [he] at h1 ⊢
      nlinarith
  · intro x hx
    simp [shareBalanceOf, FMap.getD, hoth x hx]

/-! ### The pool invariant over all histories (C09) -/

/-- A curve pool is sound: the supply is the sum of the holdings, the lists have one entry per token,
the decimals and the fee are in range, numbers fit their types. -/
structure CurvePool.Sound (p : CurvePool) : Prop where
  sum : p.supply = sumVals p.shares
  len : p.cAmts.length = p.toks.length
  decs : p.decs.length = p.toks.length
  range : ∀ d ∈ p.decs, 1 ≤ d ∧ d ≤ 24
  fee : p.totalFee < 10000
  fit : ∀ c ∈ p.cAmts, c < 2 ^ 128
  supply : p.supply < 2 ^ 128

theorem CurvePool.Minted.sound {p q : CurvePool} {n : Nat} (hm : Minted p q n false)
    (hsum : p.supply = sumVals p.shares) (hlen : p.cAmts.length = p.toks.length)
    (hdecs : p.decs.length = p.toks.length) (hr : ∀ d ∈ p.decs, 1 ≤ d ∧ d ≤ 24)
    (hfee : p.totalFee < 10000) (hfit : ∀ c ∈ p.cAmts, c < 2 ^ 128) (hs : p.supply < 2 ^ 128) :
    q.Sound := by
  have hf := hm.frame
  refine ⟨?_, by rw [hf]; exact hlen, by rw [hf]; exact hdecs, by rw [hf]; exact hr,
    by rw [hf]; exact hfee, by rw [hf]; exact hfit, hm.lt hs⟩
  rw [hm.supply, hm.sum rfl, hsum]

theorem CurvePool.Sound.add {p q : CurvePool} {s : AccountId} {am : List Nat} {mn n : Nat}
    {fees : AdminFees} {env : CurveEnv} (hp : p.Sound)
    (h : p.addLiquidity s am mn fees env false = .ok (q, n)) : q.Sound := by
  obtain ⟨fp, cs, p1, -, -, -, hcs, -, -, hm⟩ := CurvePool.addLiquidity_ok h
  obtain ⟨h1, h2, -⟩ := addAmounts_ok hcs
  exact hm.sound hp.sum (h1.trans hp.len) hp.decs hp.range hp.fee h2 hp.supply

theorem CurvePool.Sound.removeShares {p q : CurvePool} {s : AccountId} {n : Nat}
    {mins paid : List Nat} (hp : p.Sound) (h : p.removeByShares s n mins false = .ok (q, paid)) :
    q.Sound := by
  obtain ⟨-, hS, hsup, hl, hf, -, hv⟩ := removeByShares_ok h
  obtain ⟨prev, -, -, hsum, -, -, -⟩ := hv rfl
  obtain ⟨h1, -, -, hall⟩ := removeLoop_ok hl
  refine ⟨?_, ?_, by rw [hf]; exact hp.decs, by rw [hf]; exact hp.range, by rw [hf]; exact hp.fee,
    ?_, by rw [hsup]; have := hp.supply; omega⟩
  · have := hp.sum; rw [hsup]; omega
  · rw [h1, hp.len, hf]
  · intro c hc
    obtain ⟨i, hi, rfl⟩ := List.getElem_of_mem hc
    obtain ⟨_, _, _, -, -, -, -, hn, -⟩ := hall i _ (List.getElem?_eq_getElem (by omega))
    rw [List.getElem?_eq_getElem hi] at hn
    rw [Option.some.inj hn]
    exact (Nat.sub_le _ _).trans_lt (hp.fit p.cAmts[i] (List.getElem_mem _))

theorem CurvePool.Sound.removeTokens {p q : CurvePool} {s : AccountId} {n mb : Nat}
    {am : List Nat} {fees : AdminFees} {env : CurveEnv} (hp : p.Sound)
    (h : p.removeByTokens s am mb fees env false = .ok (q, n)) : q.Sound := by
  obtain ⟨_, _, ns, -, -, -, -, hns, hS, hf, hsup, hlt, -, hv⟩ := removeByTokens_ok h
  obtain ⟨-, -, -, hsum, -⟩ := hv rfl
  obtain ⟨h1, hall⟩ := subReserves_ok hns
  refine ⟨?_, ?_, by rw [hf]; exact hp.decs, by rw [hf]; exact hp.range, by rw [hf]; exact hp.fee,
    ?_, hlt hp.supply⟩
  · have := hp.sum; rw [hsup]; omega
  · rw [hf]; exact h1.trans hp.len
  · intro c hc
    rw [hf] at hc
    simp only at hc
    obtain ⟨i, hi, rfl⟩ := List.getElem_of_mem hc
    obtain ⟨_, -, -, hn, -⟩ := hall i _ (List.getElem?_eq_getElem (by omega))
    rw [List.getElem?_eq_getElem hi] at hn
    rw [Option.some.inj hn]
    exact (Nat.sub_le _ _).trans_lt (hp.fit p.cAmts[i] (List.getElem_mem _))

theorem CurvePool.Sound.swap {p q : CurvePool} {ti tout : AccountId} {a mo out : Nat}
    {fees : AdminFees} {env : CurveEnv} (hp : p.Sound)
    (h : p.swap ti a tout mo fees env false = .ok (q, out)) : q.Sound := by
  obtain ⟨i, o, _, _, _, _, ci, co, ci', co', m, -, -, -, -, -, -, -, -, hci, hco, -, -, h1, h2, -,
    hm⟩ := curve_swap_reserves h
  refine hm.sound hp.sum (by simpa using hp.len) hp.decs hp.range hp.fee ?_ hp.supply
  intro c hc
  simp only at hc
  rcases List.mem_or_eq_of_mem_set hc with hc | rfl
  · rcases List.mem_or_eq_of_mem_set hc with hc | rfl
    · exact hp.fit c hc
    · exact h1
  · exact h2 (hp.fit co (List.mem_of_getElem? hco))

theorem CurvePool.Sound.transfer {p q : CurvePool} {a b : AccountId} {n : Nat} (hp : p.Sound)
    (h : p.shareTransfer a b n = .ok q) : q.Sound := by
  unfold shareTransfer at h
  unpack at h
  obtain ⟨bal, hb, hle, bo, hbo, -, rfl⟩ := h
  refine ⟨?_, hp.len, hp.decs, hp.range, hp.fee, hp.fit, hp.supply⟩
  have h1 := sumVals_insert p.shares a (bal - n)
  rw [getD_of_get? hb] at h1
  have h2 := sumVals_insert (p.shares.insert a (bal - n)) b (bo + n)
  rw [getD_of_get? hbo] at h2
  have := hp.sum
  simp only
  omega

theorem CurvePool.Sound.register {p q : CurvePool} {a : AccountId} (hp : p.Sound)
    (h : p.shareRegister a = .ok q) : q.Sound := by
  unfold shareRegister at h
  unpack at h
  obtain ⟨hc, rfl⟩ := h
  refine ⟨?_, hp.len, hp.decs, hp.range, hp.fee, hp.fit, hp.supply⟩
  have hg : p.shares.getD a 0 = 0 := by
    unfold FMap.contains at hc
    simp [FMap.getD, Option.isSome_eq_false_iff, Option.isNone_iff_eq_none] at hc ⊢
    simp [hc]
  have h1 := sumVals_insert p.shares a 0
  have := hp.sum
  simp only
  omega

theorem CurvePool.Sound.unregister {p q : CurvePool} {a : AccountId} (hp : p.Sound)
    (h : p.shareUnregister a = .ok q) : q.Sound := by
  unfold shareUnregister at h
  unpack at h
  obtain ⟨sh, hs, rfl, rfl⟩ := h
  refine ⟨?_, hp.len, hp.decs, hp.range, hp.fee, hp.fit, hp.supply⟩
  have h1 := sumVals_erase p.shares a
  rw [getD_of_get? hs] at h1
  have := hp.sum
  simp only
  omega

theorem CurvePool.Sound.run {p q : CurvePool} {env : CurveEnv} {op : CurveOp} (hp : p.Sound)
    (h : p.run env op = .ok q) : q.Sound := by
  have hmap : ∀ {α : Type} {x : R (CurvePool × α)}, (·.1) <$> x = .ok q → ∃ r, x = .ok (q, r) := by
    intro α x hx
    cases x with
    | error e => cases hx
    | ok v => obtain ⟨a, b⟩ := v; cases hx; exact ⟨b, rfl⟩
  cases op with
  | register a => exact hp.register h
  | unregister a => exact hp.unregister h
  | transfer a b n => exact hp.transfer h
  | add s am mn fees => obtain ⟨r, h⟩ := hmap h; exact hp.add h
  | removeShares s n mins => obtain ⟨r, h⟩ := hmap h; exact hp.removeShares h
  | removeTokens s am mb fees => obtain ⟨r, h⟩ := hmap h; exact hp.removeTokens h
  | swap ti a tout mo fees => obtain ⟨r, h⟩ := hmap h; exact hp.swap h
  | setFee f =>
    simp only [CurvePool.run] at h
    split at h
    · cases h; exact ⟨hp.sum, hp.len, hp.decs, hp.range, by assumption, hp.fit, hp.supply⟩
    · cases h
  | ramp f t =>
    simp only [CurvePool.run, ramp] at h
    unpack at h
    obtain ⟨-, -, -, -, _, -, -, -, -, rfl⟩ := h
    exact ⟨hp.sum, hp.len, hp.decs, hp.range, hp.fee, hp.fit, hp.supply⟩
  | stopRamp =>
    simp only [CurvePool.run, stopRamp] at h
    unpack at h
    obtain ⟨_, -, rfl⟩ := h
    exact ⟨hp.sum, hp.len, hp.decs, hp.range, hp.fee, hp.fit, hp.supply⟩

theorem CurvePool.Sound.new {kind : CurveKind} {tokens : List AccountId} {decs : List Nat}
    {amp fee : Nat} {p : CurvePool} (hlen : tokens.length = decs.length)
    (h : CurvePool.new kind tokens decs amp fee = .ok p) : p.Sound := by
  unfold CurvePool.new at h
  unpack at h
  obtain ⟨hd, -, -, hf, rfl⟩ := h
  exact ⟨rfl, by simp, hlen.symm, fun d hd' => ⟨(hd d hd').2, (hd d hd').1⟩, hf,
    by simp, by simp⟩

/-- **C09** (stable, rated, degen). After any history of a newly created pool the reported supply is
the sum of all share balances. (`add_stable_swap_pool` and its siblings check that there are as many
decimals as tokens, `/repo/ref-exchange/src/lib.rs:196,217,237`.) -/
theorem C09_curve_supply (kind : CurveKind) (tokens : List AccountId) (decs : List Nat)
    (amp fee : Nat) (p : CurvePool) (hlen : tokens.length = decs.length)
    (hnew : CurvePool.new kind tokens decs amp fee = .ok p) (ops : List (CurveEnv × CurveOp)) :
    (p.history ops).supply = sumVals (p.history ops).shares ∧ (p.history ops).Sound := by
  have hall : ∀ (ops : List (CurveEnv × CurveOp)) (p : CurvePool), p.Sound →
      (p.history ops).Sound := by
    intro ops
    induction ops with
    | nil => intro p hp; exact hp
    | cons o ops ih =>
      intro p hp
      show ((match p.run o.1 o.2 with | .ok q => q | .error _ => p).history ops).Sound
      cases hr : p.run o.1 o.2 with
      | error e => exact ih p hp
      | ok q => exact ih q (hp.run hr)
  have hs := hall ops p (CurvePool.Sound.new hlen hnew)
  exact ⟨hs.sum, hs⟩

/-- Register a referral, deposit, trade with fees, remove by shares and by tokens. -/
def exCurveOps : List (CurveEnv × CurveOp) :=
  [(exEnv, .register exRef), (exEnv, .add exLP [10 ^ 23, 10 ^ 11] 1 exFees),
   (exEnv, .swap exA (10 ^ 21) exB 1 exFees), (exEnv, .transfer exLP exRef (10 ^ 22)),
   (exEnv, .removeShares exRef (10 ^ 21) [1, 1]),
   (exEnv, .removeTokens exLP [10 ^ 20, 0] (10 ^ 23) exFees)]

example : (CurvePool.new .stable [exA, exB] [18, 6] 240 25).holds (fun p =>
    (p.history exCurveOps).supply = sumVals (p.history exCurveOps).shares ∧
    (p.history exCurveOps).supply > 0) := by decide +kernel

/-! ### C51: nobody is diluted -/

/-- **C51**, deposits. With the pool's own measure of its value, the invariant `D` of its reserves, a
deposit into a pool with liquidity does not lower the value per share: all shares minted (to the
provider, the exchange and the referral) are worth at most what was added. -/
theorem C51_add_not_dilutive {p q : CurvePool} {s : AccountId} {am : List Nat} {mn n : Nat}
    {fees : AdminFees} {env : CurveEnv} {v : Bool} (hp : p.Sound) (h0 : p.supply ≠ 0)
    (hb : fees.adminFeeBps ≤ 10000) (h : p.addLiquidity s am mn fees env v = .ok (q, n)) :
    ∃ d0 d1, (p.inv env).dWithRates p.cAmts = .ok d0 ∧ (p.inv env).dWithRates q.cAmts = .ok d1 ∧
      d0 < d1 ∧ d0 * q.supply ≤ d1 * p.supply ∧ p.supply + n ≤ q.supply := by
  obtain ⟨fp, cs, p1, hlen, hc, -, hcs, -, -, hm⟩ := CurvePool.addLiquidity_ok h
  unfold calcAdd at hc
  simp only [h0, if_false, bind_ok] at hc
  obtain ⟨dep, hdep, hlp⟩ := hc
  obtain ⟨d0, d1, d2, new, new', g0, gn, g1, gf, g2, glt, gle, gne, gm, gmf⟩ := lpForDeposit_ok hlp
  obtain ⟨a1, -, a3⟩ := amountsToC_ok hdep
  have hl : dep.length = p.cAmts.length := by rw [a1, hlen, hp.len]
  obtain ⟨b1, b2⟩ := depositBalances_eq gn hl
  obtain ⟨c1, -, c3⟩ := addAmounts_ok hcs
  have hnew : new = cs := by
    apply List.ext_getElem?
    intro i
    rcases Nat.lt_or_ge i p.cAmts.length with hi | hi
    · obtain ⟨d, a, x, hd, ha, hx, hn⟩ := c3 i _ (List.getElem?_eq_getElem hi)
      obtain ⟨a', x', ha', hx', hx2⟩ := a3 i d hd
      rw [ha] at ha'; cases ha'
      rw [hx] at hx2; cases hx2
      rw [hn, b2 i _ _ (List.getElem?_eq_getElem hi) hx']
    · rw [List.getElem?_eq_none (by omega), List.getElem?_eq_none (by omega)]
  have hqc : q.cAmts = cs := by rw [hm.frame]
  subst hnew
  refine ⟨d0, d1, g0, by rw [hqc]; exact g1, glt, ?_, ?_⟩
  · rw [hm.supply]
    simp only
    have hfp : fp * fees.adminFeeBps / 10000 ≤ fp := by
      apply Nat.div_le_of_le_mul
      rw [Nat.mul_comm]
      exact Nat.mul_le_mul_right _ hb
    have hle : n + fp * fees.adminFeeBps / 10000 ≤ p.supply * (d1 - d0) / d0 := by omega
    generalize n + fp * fees.adminFeeBps / 10000 = z at *
    have h1 : z * d0 ≤ p.supply * (d1 - d0) :=
      (Nat.mul_le_mul_right _ hle).trans (Nat.div_mul_le_self _ _)
    obtain ⟨e, rfl⟩ := Nat.exists_eq_add_of_le glt.le
    rw [Nat.add_sub_cancel_left] at h1
    nlinarith
  · rw [hm.supply]; simp only; omega

example : exFees.adminFeeBps ≤ 10000 ∧ exStable.supply ≠ 0 ∧
    (exStable.addLiquidity exLP [10 ^ 20, 10 ^ 9, 10 ^ 24] (10 ^ 19) exFees exEnv false).holds
      (fun (q, _) => q.supply = 301100087871955077268055) := by decide +kernel

/-- **C51**, token-denominated removals. The value per share of the remaining shares falls by less
than the value of one share unit (the burnt amount is rounded down). -/
theorem C51_remove_tokens_not_dilutive {p q : CurvePool} {s : AccountId} {am : List Nat}
    {mb n : Nat} {fees : AdminFees} {env : CurveEnv} {v : Bool} (hp : p.Sound)
    (hb : fees.adminFeeBps ≤ 10000) (h : p.removeByTokens s am mb fees env v = .ok (q, n)) :
    ∃ d0 d1, (p.inv env).dWithRates p.cAmts = .ok d0 ∧ (p.inv env).dWithRates q.cAmts = .ok d1 ∧
      d1 < d0 ∧ d0 * q.supply < d1 * p.supply + d0 ∧ q.supply ≤ p.supply := by
  obtain ⟨dep, fp, ns, hlen, hdep, -, hlp, hns, hS, hf, hsup, -⟩ := removeByTokens_ok h
  obtain ⟨d0, d1, d2, new, new', g0, gn, g1, gf, g2, glt, gle, gne, gm, gmf⟩ := lpForWithdraw_ok hlp
  obtain ⟨a1, -, a3⟩ := amountsToC_ok hdep
  have hl : dep.length = p.cAmts.length := by rw [a1, hlen, hp.len]
  obtain ⟨b1, b2⟩ := withdrawBalances_eq gn hl
  obtain ⟨c1, c3⟩ := subReserves_ok hns
  have hnew : new = ns := by
    apply List.ext_getElem?
    intro i
    rcases Nat.lt_or_ge i p.cAmts.length with hi | hi
    · obtain ⟨w, hw, -, hn, -⟩ := c3 i _ (List.getElem?_eq_getElem hi)
      rw [hn, b2 i _ _ (List.getElem?_eq_getElem hi) hw]
    · rw [List.getElem?_eq_none (by omega), List.getElem?_eq_none (by omega)]
  have hqc : q.cAmts = ns := by rw [hf]
  subst hnew
  have hfp : fp * fees.adminFeeBps / 10000 ≤ fp := by
    apply Nat.div_le_of_le_mul
    rw [Nat.mul_comm]
    exact Nat.mul_le_mul_right _ hb
  refine ⟨d0, d1, g0, by rw [hqc]; exact g1, glt, ?_, ?_⟩
  rotate_left
  · generalize p.supply * (d0 - d1) / d0 = w at *; omega
  have h1 := Nat.div_add_mod (p.supply * (d0 - d1)) d0
  have h2 := Nat.mod_lt (p.supply * (d0 - d1)) (Nat.pos_of_ne_zero gne)
  generalize p.supply * (d0 - d1) / d0 = w at *
  have h3 : q.supply + w ≤ p.supply := by omega
  have h4 : p.supply * (d0 - d1) < d0 * w + d0 := by omega
  obtain ⟨e, rfl⟩ := Nat.exists_eq_add_of_le glt.le
  rw [Nat.add_sub_cancel_left] at h4
  have h5 : (d1 + e) * (q.supply + w) ≤ (d1 + e) * p.supply := Nat.mul_le_mul_left _ h3
  nlinarith

end Verif

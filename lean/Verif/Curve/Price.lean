import Verif.Curve.HoldingsProps
import Verif.Curve.RatedValue

/-
C75: the share price that a view reports for a stable, rated or degen pool.
-/

namespace Verif

/-- What a share stands for: tokens in a stable pool, the computed invariant in the others. -/
theorem sharePrice_ok {p : CurvePool} {env : CurveEnv} {P : Nat} (h : p.sharePrice env = .ok P)
    (hs : p.supply ≠ 0) :
    ∃ v, (p.kind = .stable → v = p.cAmts.sum) ∧
      (p.kind ≠ .stable → computeD p.kind.width (p.inv env).amp (p.rated env) = .ok v) ∧
      P = v * 100000000 / p.supply := by
  unfold CurvePool.sharePrice at h
  obtain ⟨v, hv, h⟩ := bind_ok.1 h
  obtain ⟨m, hm, h⟩ := bind_ok.1 h
  rw [if_neg hs] at h
  have hm : m = v * 100000000 := by unpack at hm; exact hm.2
  have hP : P = m / p.supply := by unpack at h; exact h.2
  refine ⟨v, ?_, ?_, ?_⟩
  · intro hk
    rw [hk] at hv
    have := sumU128_ok hv
    omega
  · intro hk
    have hv : (p.inv env).dWithRates p.cAmts = .ok v := by
      cases hkk : p.kind with
      | stable => exact absurd hkk hk
      | rated => rw [hkk] at hv; exact hv
      | degen => rw [hkk] at hv; exact hv
    unfold Inv.dWithRates at hv
    obtain ⟨zs, h1, h2⟩ := bind_ok.1 hv
    rw [← rated_of_rateBalances (p := p) (env := env) h1]
    exact h2
  · rw [hP, hm]

/-- **C75**, stable pools. The reported price is the number of tokens, all kinds counted alike, per
share: in units of 1e-8, rounded down. -/
theorem C75_stable {p : CurvePool} {env : CurveEnv} {P : Nat} (hk : p.kind = .stable)
    (hs : p.supply ≠ 0) (h : p.sharePrice env = .ok P) :
    P * p.supply ≤ p.cAmts.sum * 100000000 ∧ p.cAmts.sum * 100000000 < (P + 1) * p.supply := by
  obtain ⟨v, h1, -, rfl⟩ := sharePrice_ok h hs
  rw [h1 hk]
  refine ⟨Nat.div_mul_le_self _ _, ?_⟩
  have := Nat.lt_mul_div_succ (p.cAmts.sum * 100000000) (Nat.pos_of_ne_zero hs)
  rwa [Nat.mul_comm p.supply] at this

example : exStable.sharePrice exEnv = .ok 100000000 ∧ exLopsided.sharePrice exEnv = .ok 300000000 ∧
    exRated.sharePrice exEnv = .ok 109999047 := by decide +kernel

/-- **C75**, rated and degen pools. The reported price is the invariant of the pool per share, in
units of 1e-8, rounded down: with `E` on or above the exact curve it is not below `E` per share. -/
theorem C75_rated {p : CurvePool} {env : CurveEnv} {P A E : Nat} (hk : p.kind ≠ .stable)
    (hs : p.supply ≠ 0) (hA : (p.inv env).amp = .ok A) (hp : p.rated env ≠ [])
    (h : p.sharePrice env = .ok P) :
    ∃ D, computeD p.kind.width (.ok A) (p.rated env) = .ok D ∧ P * p.supply ≤ D * 100000000 ∧
      D * 100000000 < (P + 1) * p.supply ∧
      (OnOrAboveCurve A E (p.rated env) 0 → E * 100000000 < (P + 1) * p.supply) := by
  obtain ⟨D, -, h1, rfl⟩ := sharePrice_ok h hs
  have h1 := h1 hk
  rw [hA] at h1
  have h3 := Nat.lt_mul_div_succ (D * 100000000) (Nat.pos_of_ne_zero hs)
  rw [Nat.mul_comm p.supply] at h3
  refine ⟨D, h1, Nat.div_mul_le_self _ _, h3, fun hE => ?_⟩
  have := computeD_max h1 hp hE
  exact Nat.lt_of_le_of_lt (Nat.mul_le_mul_right _ this) h3

/-- **C75**, stable pools. The reported price never falls below the exact invariant per share, the
value that trades cannot take away (C64). -/
theorem C75_floor {p : CurvePool} {env : CurveEnv} {P A E : Nat} (hk : p.kind = .stable)
    (hs : p.supply ≠ 0) (hp : p.cAmts ≠ []) (h : p.sharePrice env = .ok P)
    (hE : OnOrAboveCurve A E p.cAmts 0) : E * 100000000 < (P + 1) * p.supply :=
  Nat.lt_of_le_of_lt (Nat.mul_le_mul_right _ (hE.le_holdings hp)) (C75_stable hk hs h).2

/-- Sums of proportional parts. -/
theorem sum_parts (n S : Nat) (hS : S ≠ 0) : ∀ cs : List Nat,
    (cs.map fun c => c * n / S).sum * S ≤ cs.sum * n ∧
    cs.sum * n ≤ ((cs.map fun c => c * n / S).sum + cs.length) * S := by
  intro cs
  induction cs with
  | nil => simp
  | cons c cs ih =>
    simp only [List.map_cons, List.sum_cons, List.length_cons]
    have h1 := Nat.div_mul_le_self (c * n) S
    have h2 := Nat.lt_mul_div_succ (c * n) (Nat.pos_of_ne_zero hS)
    generalize c * n / S = q at *
    generalize (cs.map fun c => c * n / S).sum = t at *
    have e1 : (c + cs.sum) * n = c * n + cs.sum * n := by ring
    have e2 : (q + t) * S = q * S + t * S := by ring
    have e3 : (q + t + (cs.length + 1)) * S = S * (q + 1) + (t + cs.length) * S := by ring
    rw [e1, e2, e3]
    omega

/-- What a removal by shares leaves of every reserve. -/
theorem removeLoop_sum {k : CurveKind} {n S : Nat} {cs ds ms ns as : List Nat}
    (h : CurvePool.removeLoop k n S cs ds ms = .ok (ns, as)) :
    ns.sum + (cs.map fun c => c * n / S).sum = cs.sum := by
  obtain ⟨h1, -, -, h2⟩ := CurvePool.removeLoop_ok h
  clear h
  induction cs generalizing ns ds ms as with
  | nil =>
    have : ns = [] := by simpa using h1
    subst this; simp
  | cons c cs ih =>
    cases ns with
    | nil => simp at h1
    | cons x ns =>
      obtain ⟨-, -, -, -, -, -, h3, h4, -⟩ := h2 0 c rfl
      simp only [List.getElem?_cons_zero, Option.some.injEq] at h4
      have := ih (ns := ns) (ds := ds.tail) (ms := ms.tail) (as := as.tail) (by simpa using h1) (by
        intro i c' hc
        obtain ⟨d, m, a, g1, g2, g3, g4, g5, g6⟩ := h2 (i + 1) c' (by simpa using hc)
        refine ⟨d, m, a, by simpa using g1, by simpa using g2, by simpa using g3, g4, by simpa using g5, g6⟩)
      simp only [List.map_cons, List.sum_cons]
      omega

/-- **C75**, what a share redeems. Redeeming `n` shares of a stable pool takes out as many tokens,
all kinds counted alike, as the reported price says: not more than `n` times the price (plus its last
digit), and less by at most one unit of every token. -/
theorem C75_redeem {p q : CurvePool} {env : CurveEnv} {a : AccountId} {n P : Nat}
    {mins paid : List Nat} {v : Bool} (hk : p.kind = .stable) (hs : p.supply ≠ 0)
    (h : p.sharePrice env = .ok P) (hr : p.removeByShares a n mins v = .ok (q, paid)) :
    ∃ taken, q.cAmts.sum + taken = p.cAmts.sum ∧ taken * 100000000 ≤ n * (P + 1) ∧
      n * P ≤ (taken + p.cAmts.length) * 100000000 := by
  obtain ⟨-, -, -, hl, -⟩ := CurvePool.removeByShares_ok hr
  obtain ⟨h1, h2⟩ := C75_stable hk hs h
  obtain ⟨h3, h4⟩ := sum_parts n p.supply hs p.cAmts
  have hsum := removeLoop_sum hl
  generalize (p.cAmts.map fun c => c * n / p.supply).sum = t at *
  have hpos := Nat.pos_of_ne_zero hs
  refine ⟨t, hsum, ?_, ?_⟩
  · refine Nat.le_of_mul_le_mul_right ?_ hpos
    calc t * 100000000 * p.supply = t * p.supply * 100000000 := by ring
      _ ≤ p.cAmts.sum * n * 100000000 := Nat.mul_le_mul_right _ h3
      _ = n * (p.cAmts.sum * 100000000) := by ring
      _ ≤ n * ((P + 1) * p.supply) := Nat.mul_le_mul_left _ h2.le
      _ = n * (P + 1) * p.supply := by ring
  · refine Nat.le_of_mul_le_mul_right ?_ hpos
    calc n * P * p.supply = n * (P * p.supply) := by ring
      _ ≤ n * (p.cAmts.sum * 100000000) := Nat.mul_le_mul_left _ h1
      _ = p.cAmts.sum * n * 100000000 := by ring
      _ ≤ (t + p.cAmts.length) * p.supply * 100000000 := Nat.mul_le_mul_right _ h4
      _ = (t + p.cAmts.length) * 100000000 * p.supply := by ring

/-- **C75**. Redeeming shares does not lower the price reported to those who stay. -/
theorem C75_removal_keeps {p q : CurvePool} {env env' : CurveEnv} {a : AccountId} {n P P' : Nat}
    {mins paid : List Nat} {v : Bool} (hk : p.kind = .stable) (hs : q.supply ≠ 0)
    (h : p.sharePrice env = .ok P) (hr : p.removeByShares a n mins v = .ok (q, paid))
    (h' : q.sharePrice env' = .ok P') : P ≤ P' := by
  obtain ⟨-, hn, hq, hl, hf, -⟩ := CurvePool.removeByShares_ok hr
  have hp : p.supply ≠ 0 := by omega
  have hk' : q.kind = .stable := by rw [hf]; exact hk
  obtain ⟨h1, -⟩ := C75_stable hk hp h
  obtain ⟨-, h2⟩ := C75_stable hk' hs h'
  obtain ⟨h3, -⟩ := sum_parts n p.supply hp p.cAmts
  have hsum := removeLoop_sum hl
  generalize (p.cAmts.map fun c => c * n / p.supply).sum = t at *
  obtain ⟨s, hs'⟩ : ∃ s, p.supply = s + n := ⟨p.supply - n, by omega⟩
  have hqs : q.supply = s := by omega
  rw [hqs] at h2 hs
  have hmul : p.cAmts.sum * s ≤ q.cAmts.sum * p.supply := by
    have e1 : p.cAmts.sum * p.supply = p.cAmts.sum * s + p.cAmts.sum * n := by rw [hs']; ring
    have e2 : p.cAmts.sum * p.supply = q.cAmts.sum * p.supply + t * p.supply := by rw [← hsum]; ring
    omega
  by_contra hc
  have h5 : (P' + 1) * s ≤ P * s := Nat.mul_le_mul_right _ (by omega)
  have h6 : q.cAmts.sum * 100000000 * p.supply < P * s * p.supply :=
    Nat.mul_lt_mul_of_pos_right (Nat.lt_of_lt_of_le h2 h5) (Nat.pos_of_ne_zero hp)
  have h7 : P * s * p.supply ≤ p.cAmts.sum * s * 100000000 := by
    calc P * s * p.supply = P * p.supply * s := by ring
      _ ≤ p.cAmts.sum * 100000000 * s := Nat.mul_le_mul_right _ h1
      _ = p.cAmts.sum * s * 100000000 := by ring
  have h8 := Nat.mul_le_mul_right 100000000 hmul
  have h9 : q.cAmts.sum * 100000000 * p.supply = q.cAmts.sum * p.supply * 100000000 := by ring
  omega

/-- A tenth of the shares is redeemed: a tenth of the tokens leaves. -/
example : (exLopsided.removeByShares exLP (3 * 10 ^ 22) [1, 1, 1] false).holds (fun (q, _) =>
    decide (q.cAmts.sum + 9 * 10 ^ 22 = exLopsided.cAmts.sum ∧
      q.sharePrice exEnv = .ok 300000000 ∧ q.supply ≠ 0)) = true := by
  decide +kernel

/-- **C75**, trades in a stable pool. A trade does not lower the reported price below the exact
invariant per share before the trade, up to the rounding of the swap and the distance `k` of the
computed from the exact invariant (`C71_invariant`). -/
theorem C75_swap {p q : CurvePool} {ti tout : AccountId} {a mo out A D D' E E' c k P' : Nat}
    {fees : AdminFees} {env env' : CurveEnv} {v : Bool} (hk : p.kind = .stable)
    (h : p.swap ti a tout mo fees env v = .ok (q, out)) (hA : (p.inv env).amp = .ok A)
    (hD : computeD 256 (.ok A) p.cAmts = .ok D) (hc : 1 ≤ c) (hM : ∀ b ∈ q.cAmts, b ≤ c * D)
    (hroom : p.cAmts.length * (p.cAmts.length + 1) * c ^ (p.cAmts.length - 1) ≤ 2 * D)
    (hb : fees.adminFeeBps ≤ 10000) (hE : OnOrAboveCurve A E p.cAmts 0)
    (hD' : computeD 256 (.ok A) q.cAmts = .ok D') (hE' : OnOrAboveCurve A E' q.cAmts 0)
    (hk' : D' ≤ E' + k) (hs : p.supply ≠ 0) (hP : q.sharePrice env' = .ok P') :
    (E - c ^ (p.cAmts.length - 1)) * 100000000 < (P' + 1) * p.supply + k * 100000000 := by
  have h1 := C64_share_value hk h hA hD hc hM hroom hb hE hD'
  have hsup : p.supply ≤ q.supply := by
    obtain ⟨_, _, _, _, _, _, _, _, _, _, _, _, _, _, _, _, _, _, hq⟩ := CurvePool.swap_ok h
    rcases CurvePool.swapFee_ok hq with ⟨rfl, -⟩ | ⟨-, -, m, f, old, -, -, -, hm⟩
    · exact Nat.le_refl _
    · rw [hm.supply]; exact Nat.le_add_right _ _
  obtain ⟨i', o', _, _, _, _, _, -, hi', -, -, -, -, hq', -, hkq⟩ := stable_swap_reserves hk h
  have hne : q.cAmts ≠ [] := by
    have h0 := (List.getElem?_eq_some_iff.1 hi').1
    intro h2
    rw [h2] at hq'
    have := congrArg List.length hq'
    simp at this
    rw [← this] at h0
    simp at h0
  have h2 := C75_floor hkq (by omega) hne hP hE'
  generalize E - c ^ (p.cAmts.length - 1) = F at *
  generalize p.supply = S at *
  generalize q.supply = T at *
  have hS : 0 < S := by omega
  have hT : 0 < T := by omega
  refine Nat.lt_of_mul_lt_mul_right (a := T) ?_
  calc F * 100000000 * T = F * T * 100000000 := by ring
    _ ≤ D' * S * 100000000 := Nat.mul_le_mul_right _ h1
    _ ≤ (E' + k) * S * 100000000 := Nat.mul_le_mul_right _ (Nat.mul_le_mul_right _ hk')
    _ = E' * 100000000 * S + k * 100000000 * S := by ring
    _ < (P' + 1) * T * S + k * 100000000 * S := Nat.add_lt_add_right (Nat.mul_lt_mul_of_pos_right h2 hS) _
    _ ≤ (P' + 1) * T * S + k * 100000000 * T := Nat.add_le_add_left (Nat.mul_le_mul_left _ hsup) _
    _ = ((P' + 1) * S + k * 100000000) * T := by ring

/-- A swap of a third of a reserve in an unbalanced pool. -/
example : (exLopsided.swap exA (3 * 10 ^ 22) exB 1 exFees exEnv false).holds (fun (q, _) =>
    match computeD 256 (.ok 550) exLopsided.cAmts, computeD 256 (.ok 550) q.cAmts with
      | .ok D, .ok D' => decide ((∀ b ∈ q.cAmts, b ≤ 1 * D) ∧ 3 * (3 + 1) * 1 ^ (3 - 1) ≤ 2 * D ∧
          D ≤ D' + 1 ∧ exLopsided.supply ≠ 0)
      | _, _ => false) = true ∧
    exLopsided.getAmp exEnv = 550 := by
  decide +kernel

/-- The reported price of a stable pool is not what trades cannot take away: a trade that brings an
unbalanced pool closer to balance lowers it. -/
theorem C75_trade_lowers :
    (exLopsided.swap exA (10 ^ 23) exB 1 exFees exEnv false).holds (fun (q, _) =>
      decide (exLopsided.sharePrice exEnv = .ok 300000000 ∧
        (q.sharePrice exEnv).holds (fun P' => P' < 300000000) = true)) = true := by
  decide +kernel

/-- **C75**, trades in a rated or degen pool. While the rates stand, a trade does not lower the
reported price below the exact invariant per share before the trade, up to the rounding. -/
theorem C75_rated_swap {p q : CurvePool} {ti tout : AccountId} {a mo out A D E c g P' : Nat}
    {fees : AdminFees} {env : CurveEnv} {v : Bool} (hk : p.kind ≠ .stable)
    (h : p.swap ti a tout mo fees env v = .ok (q, out)) (hA : (p.inv env).amp = .ok A)
    (hD : computeD p.kind.width (.ok A) (p.rated env) = .ok D) (hc : 1 ≤ c)
    (hg : ∀ r ∈ env.rates, r ≤ g * PRECISION)
    (hM : ∀ b ∈ q.rated env, b + 2 * g ≤ c * D ∧ 5 * (D + 2 * g * c) ≤ c * b)
    (hroom : (p.rated env).length * ((p.rated env).length + 1) * c ^ ((p.rated env).length - 1) ≤
      2 * D)
    (hb : fees.adminFeeBps ≤ 8000) (hE : OnOrAboveCurve A E (p.rated env) 0)
    (hs : p.supply ≠ 0) (hP : q.sharePrice env = .ok P') :
    (E - (c ^ ((p.rated env).length - 1) + 2 * g * c)) * 100000000 < (P' + 1) * p.supply := by
  obtain ⟨_, _, r, _, _, _, _, _, _, _, _, _, _, _, _, _, _, _, hq⟩ := CurvePool.swap_ok h
  obtain ⟨hsup, hamp, hkq⟩ : p.supply ≤ q.supply ∧ (q.inv env).amp = (p.inv env).amp ∧
      q.kind = p.kind := by
    rcases CurvePool.swapFee_ok hq with ⟨rfl, -⟩ | ⟨-, -, m, f, old, -, -, -, hm⟩
    · exact ⟨Nat.le_refl _, rfl, rfl⟩
    · refine ⟨by rw [hm.supply]; exact Nat.le_add_right _ _, ?_, by rw [hm.frame]⟩
      rw [hm.frame]; rfl
  obtain ⟨D', -, h2, rfl⟩ := sharePrice_ok hP (by omega)
  have h2 := h2 (by rw [hkq]; exact hk)
  rw [hkq, hamp, hA] at h2
  have h1 := C64_rated_share_value hk h hA hD hc hg hM hroom hb hE h2
  generalize E - (c ^ ((p.rated env).length - 1) + 2 * g * c) = F at *
  have h3 := Nat.lt_mul_div_succ (D' * 100000000) (by omega : 0 < q.supply)
  generalize D' * 100000000 / q.supply = P at *
  generalize p.supply = S at *
  generalize q.supply = T at *
  have hS : 0 < S := by omega
  refine Nat.lt_of_mul_lt_mul_right (a := T) ?_
  calc F * 100000000 * T = F * T * 100000000 := by ring
    _ ≤ D' * S * 100000000 := Nat.mul_le_mul_right _ h1
    _ = D' * 100000000 * S := by ring
    _ < T * (P + 1) * S := Nat.mul_lt_mul_of_pos_right h3 hS
    _ = (P + 1) * S * T := by ring

/-- In the rated demo pool a swap raises the reported price. -/
example : (exRated.swap exB (10 ^ 27) exA 1 exFees exEnv false).holds (fun (q, _) =>
    match exRated.sharePrice exEnv, q.sharePrice exEnv with
      | .ok P, .ok P' => decide (P ≤ P' ∧ P ≠ 0)
      | _, _ => false) = true := by
  decide +kernel

end Verif

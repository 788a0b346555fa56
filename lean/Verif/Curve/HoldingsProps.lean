import Verif.Curve.AccuracyProps

/-
C74: how many tokens trades can take out of a stable pool.
-/

namespace Verif

/-- The exact invariant never exceeds the number of tokens. -/
theorem OnOrAboveCurve.le_holdings {A E : Nat} {xs : List Nat} (h : OnOrAboveCurve A E xs 0)
    (hx : xs ≠ []) : E ≤ xs.sum := by
  rcases Nat.eq_zero_or_pos (xs.length ^ xs.length * xs.prod) with hK | hK
  · unfold OnOrAboveCurve at h
    simp only [hK, Nat.mul_zero, Nat.add_zero, Nat.le_zero] at h
    rw [pow_eq_zero_iff (by omega)] at h
    omega
  rcases Nat.eq_zero_or_pos (A * xs.length ^ xs.length) with hA | hA
  · have hp := prod_le_even xs
    unfold OnOrAboveCurve at h
    simp only [hA, Nat.zero_mul, Nat.add_zero, Nat.zero_add] at h
    have hn : xs.length ≠ 0 := by simpa using hx
    by_contra hc
    have h1 : xs.sum ^ xs.length < E ^ xs.length := Nat.pow_lt_pow_left (by omega) hn
    have h2 : E * (xs.length ^ xs.length * xs.prod) < E * E ^ xs.length :=
      Nat.mul_lt_mul_of_pos_left (Nat.lt_of_le_of_lt hp h1) (by omega)
    rw [Nat.pow_succ, Nat.mul_comm (E ^ xs.length)] at h
    omega
  · exact h.le_sum hA hK

/-- For equal balances the exact invariant is the number of tokens. -/
theorem OnOrAboveCurve.even (A n x : Nat) :
    OnOrAboveCurve A (n * x) (List.replicate n x) 0 := by
  unfold OnOrAboveCurve
  simp only [List.length_replicate, List.prod_replicate, List.sum_replicate, smul_eq_mul]
  rw [← Nat.mul_pow]
  apply le_of_eq
  ring

theorem sum_set_one {i x a : Nat} : ∀ {xs : List Nat}, xs[i]? = some x →
    (xs.set i a).sum + x = xs.sum + a := by
  intro xs
  induction xs generalizing i with
  | nil => intro h; simp at h
  | cons y ys ih =>
    intro h
    cases i with
    | zero => simp at h; subst h; simp; omega
    | succ i =>
      simp only [List.getElem?_cons_succ] at h
      have := ih h
      simp only [List.set_cons_succ, List.sum_cons]
      omega

theorem sum_set_two {i o xi xo a b : Nat} {xs : List Nat} (hio : i ≠ o) (hi : xs[i]? = some xi)
    (ho : xs[o]? = some xo) :
    ((xs.set i a).set o b).sum + xi + xo = xs.sum + a + b := by
  have h1 := sum_set_one (a := a) hi
  have h2 : (xs.set i a)[o]? = some xo := by rw [List.getElem?_set_ne hio]; exact ho
  have h3 := sum_set_one (a := b) h2
  omega

/-- **C74**, any number of trades. Whatever is traded in a stable pool, in any direction and with
any amounts, it goes on holding at least as many tokens (all kinds counted alike) as its exact
invariant `E` says, up to the rounding of each of the `m` swaps. -/
theorem C74_trades {A c m E : Nat} {p q : CurvePool} (hc : 1 ≤ c)
    (h : CurvePool.Trades A c m p q) (hk : p.kind = .stable) (hp : p.cAmts ≠ [])
    (hE : OnOrAboveCurve A E p.cAmts 0) :
    E - m * c ^ (p.cAmts.length - 1) ≤ q.cAmts.sum := by
  obtain ⟨h1, -, h3⟩ := C64_trades hc h hk hE
  refine h1.le_holdings ?_
  intro h0
  rw [h0] at h3
  exact hp (List.length_eq_zero_iff.1 h3.symm)

/-- **C74**, any number of trades in a pool that starts balanced: the pool never holds fewer tokens
than at the start, up to the rounding. -/
theorem C74_trades_balanced {A c m n x : Nat} {p q : CurvePool} (hc : 1 ≤ c)
    (h : CurvePool.Trades A c m p q) (hk : p.kind = .stable) (hn : n ≠ 0)
    (hb : p.cAmts = List.replicate n x) :
    p.cAmts.sum ≤ q.cAmts.sum + m * c ^ (n - 1) := by
  have h1 := C74_trades hc h hk (by rw [hb]; simp [hn]) (by rw [hb]; exact .even A n x)
  have h2 : p.cAmts.sum = n * x := by rw [hb]; simp
  have h3 : p.cAmts.length = n := by rw [hb]; simp
  rw [h3] at h1
  omega

/-- Forth and back in the balanced demo pool, without fee. -/
example : (do
      let p : CurvePool := { exStable with totalFee := 0 }
      let (q, out) ← p.swap exA (10 ^ 21) exB 1 exFees exEnv false
      let (r, _) ← q.swap exB out exA 1 exFees exEnv false
      .ok (q, r) : R (CurvePool × CurvePool)).holds (fun (q, r) =>
        decide (exStable.cAmts = List.replicate 3 (10 ^ 23) ∧
          exStable.cAmts.sum < q.cAmts.sum ∧ exStable.cAmts.sum < r.cAmts.sum)) = true := by
  decide +kernel

/-- A swap in a stable pool moves the amount paid in, in the common unit, into the pool and takes
out what covers the amount paid out. -/
theorem stable_swap_moves {p q : CurvePool} {ti tout : AccountId} {a mo out : Nat}
    {fees : AdminFees} {env : CurveEnv} {v : Bool} (hk : p.kind = .stable)
    (h : p.swap ti a tout mo fees env v = .ok (q, out)) :
    ∃ i o di do_ sw : Nat, p.toks[i]? = some ti ∧ p.toks[o]? = some tout ∧ p.decs[i]? = some di ∧
      p.decs[o]? = some do_ ∧
      q.cAmts.sum + sw = p.cAmts.sum + a * p.kind.cPerTok di / p.kind.tokPerC di ∧
      CoveredBy p.kind do_ out sw := by
  obtain ⟨i, o, r, di, do_, x, hne, hti, hto, hio, -, hdi, hdo, hx, hr, hout, hmo, hmin, hq⟩ :=
    CurvePool.swap_ok h
  obtain ⟨rin, rout, inn, xs, xi, xo, y, fee, adm, sw, hrin, hrout, hinn, hxs, hxi, hxo, hy, hyx,
    hfee, hadm, hsw, hsa, -, d1, d2, d3, d4, -⟩ := CurvePool.swapTo_ok hr
  have hk' : (p.inv env).kind = .stable := hk
  rw [hk'] at hinn hxs d1 d2 d3 d4
  cases hinn; cases hxs
  have d1 : xi + x = r.newSource := Except.ok.inj d1
  have d2 : xo - sw - adm = r.newDest := Except.ok.inj d2
  have d3 : sw = r.swapped := Except.ok.inj d3
  have d4 : adm = r.adminFee := Except.ok.inj d4
  have hol : o < (p.cAmts.set i r.newSource).length := by
    simpa using (List.getElem?_eq_some_iff.1 hxo).1
  have hqc : q.cAmts = (p.cAmts.set i (xi + x)).set o (xo - sw) := by
    rcases CurvePool.swapFee_ok hq with ⟨rfl, hz⟩ | ⟨-, -, m, f, old, -, hold, hlt, hm⟩
    · have h0 : adm = 0 := by
        rcases hz with h0 | h0
        · rw [hadm]; simp only [h0]; simp
        · omega
      simp only
      rw [← d1, ← d2, h0, Nat.sub_zero]
    · simp only [List.getElem?_set_self hol, Option.some.injEq] at hold
      subst hold
      simp only [List.set_set] at hm
      rw [hm.frame]
      simp only
      rw [← d1, ← d2, ← d4]
      congr 1
      omega
  refine ⟨i, o, di, do_, sw, hti, hto, hdi, hdo, ?_, ?_⟩
  · rw [hqc, ← (CurvePool.amountToC_ok hx).1]
    have := sum_set_two (a := xi + x) (b := xo - sw) hio hxi hxo
    omega
  · rw [d3]
    obtain ⟨h1, -⟩ := CurvePool.cToAmount_ok hout
    unfold CoveredBy
    rw [h1]
    exact Nat.div_mul_le_self _ _

/-- **C74**, one swap. What a swap pays out of a stable pool is at most what it takes in, one for
one, plus the number of tokens by which the pool exceeded its exact invariant `E`, plus the rounding.
Amounts are in the common unit of the pool (18 decimals); `di` and `do_` are the decimals of the
two tokens. -/
theorem C74_swap {p q : CurvePool} {ti tout : AccountId} {a mo out A D E c : Nat}
    {fees : AdminFees} {env : CurveEnv} {v : Bool} (hk : p.kind = .stable)
    (h : p.swap ti a tout mo fees env v = .ok (q, out)) (hA : (p.inv env).amp = .ok A)
    (hD : computeD 256 (.ok A) p.cAmts = .ok D) (hc : 1 ≤ c) (hM : ∀ b ∈ q.cAmts, b ≤ c * D)
    (hroom : p.cAmts.length * (p.cAmts.length + 1) * c ^ (p.cAmts.length - 1) ≤ 2 * D)
    (hE : OnOrAboveCurve A E p.cAmts 0) :
    ∃ i o di do_ : Nat, p.toks[i]? = some ti ∧ p.toks[o]? = some tout ∧ p.decs[i]? = some di ∧
      p.decs[o]? = some do_ ∧
      CoveredBy .stable do_ out (a * CurveKind.cPerTok .stable di / CurveKind.tokPerC .stable di +
        (p.cAmts.sum - E) + c ^ (p.cAmts.length - 1)) := by
  have h1 := C64_swap hk h hA hD hc hM hroom hE
  obtain ⟨i', o', _, _, _, _, _, -, hi', -, -, -, -, hq', -⟩ := stable_swap_reserves hk h
  have hne : q.cAmts ≠ [] := by
    have h0 := (List.getElem?_eq_some_iff.1 hi').1
    intro h2
    rw [h2] at hq'
    have := congrArg List.length hq'
    simp at this
    rw [← this] at h0
    simp at h0
  have h2 := h1.le_holdings hne
  obtain ⟨i, o, di, do_, sw, hti, hto, hdi, hdo, hs, hcov⟩ := stable_swap_moves hk h
  refine ⟨i, o, di, do_, hti, hto, hdi, hdo, ?_⟩
  rw [hk] at hcov hs
  unfold CoveredBy at hcov ⊢
  exact hcov.trans (Nat.mul_le_mul_right _ (by omega))

/-- **C74**, balanced pools. From a balanced stable pool a swap never pays more than it takes in, one
for one, up to the rounding. -/
theorem C74_balanced {p q : CurvePool} {ti tout : AccountId} {a mo out A D c n x : Nat}
    {fees : AdminFees} {env : CurveEnv} {v : Bool} (hk : p.kind = .stable)
    (h : p.swap ti a tout mo fees env v = .ok (q, out)) (hA : (p.inv env).amp = .ok A)
    (hD : computeD 256 (.ok A) p.cAmts = .ok D) (hc : 1 ≤ c) (hM : ∀ b ∈ q.cAmts, b ≤ c * D)
    (hroom : n * (n + 1) * c ^ (n - 1) ≤ 2 * D) (hb : p.cAmts = List.replicate n x) :
    ∃ i o di do_ : Nat, p.toks[i]? = some ti ∧ p.toks[o]? = some tout ∧ p.decs[i]? = some di ∧
      p.decs[o]? = some do_ ∧
      CoveredBy .stable do_ out (a * CurveKind.cPerTok .stable di / CurveKind.tokPerC .stable di +
        c ^ (n - 1)) := by
  have hl : p.cAmts.length = n := by rw [hb]; simp
  obtain ⟨i, o, di, do_, h1, h2, h3, h4, h5⟩ := C74_swap hk h hA hD hc hM (by rw [hl]; exact hroom)
    (by rw [hb]; exact .even A n x)
  refine ⟨i, o, di, do_, h1, h2, h3, h4, ?_⟩
  have h6 : p.cAmts.sum - n * x = 0 := by rw [hb]; simp
  rw [hl, h6, Nat.add_zero] at h5
  exact h5

/-- A swap from the balanced demo pool without fee, 18 to 6 decimals: 1000 tokens in, less than 1000
tokens out. The hypotheses hold with `c = 1`. -/
example : (({ exStable with totalFee := 0 } : CurvePool).swap exA (10 ^ 21) exB 1 exFees exEnv
      false).holds (fun (q, out) => match computeD 256 (.ok 550) exStable.cAmts with
      | .ok D => decide (exStable.cAmts = List.replicate 3 (10 ^ 23) ∧ (∀ b ∈ q.cAmts, b ≤ 1 * D) ∧
          3 * (3 + 1) * 1 ^ (3 - 1) ≤ 2 * D ∧ 999 * 10 ^ 6 ≤ out ∧ out < 1000 * 10 ^ 6)
      | .error _ => false) = true ∧
    exStable.getAmp exEnv = 550 := by
  decide +kernel

/-- The bound is about the balance of the pool: out of an unbalanced one a swap does pay more than it
takes in. -/
def exLopsided : CurvePool :=
  { exStable with totalFee := 0, cAmts := [10 ^ 23, 5 * 10 ^ 23, 3 * 10 ^ 23] }

theorem C74_unbalanced_pays_more :
    (exLopsided.swap exA (10 ^ 21) exB 1 exFees exEnv false).holds
      (fun (_, out) => decide (1000 * 10 ^ 6 < out)) = true ∧
    exLopsided.decs = [18, 6, 24] ∧ exLopsided.toks = [exA, exB, exC] := by
  decide +kernel

/-- **C74**, rated and degen pools. With the rates standing, the value of the pool's tokens (each
times its rate) stays at least the exact invariant, up to the rounding of each swap. -/
theorem C74_rated_trades {A c g m E : Nat} {p q : CurvePool} {env : CurveEnv} (hc : 1 ≤ c)
    (hg : ∀ r ∈ env.rates, r ≤ g * PRECISION)
    (h : CurvePool.RatedTrades A c g env.rates m p q) (hk : p.kind ≠ .stable)
    (hp : p.rated env ≠ []) (hE : OnOrAboveCurve A E (p.rated env) 0) :
    E - m * (c ^ ((p.rated env).length - 1) + 2 * g * c) ≤ (q.rated env).sum := by
  obtain ⟨h1, -, h3⟩ := C64_rated_trades hc hg h hk hE
  refine h1.le_holdings ?_
  intro h0
  rw [h0] at h3
  exact hp (List.length_eq_zero_iff.1 h3.symm)

/-- Forth and back in the rated demo pool. -/
example : (do
      let p : CurvePool := { exRated with totalFee := 0 }
      let (q, out) ← p.swap exA (10 ^ 27) exB 1 exFees exEnv false
      let (r, _) ← q.swap exB out exA 1 exFees exEnv false
      let d0 ← computeD 384 (.ok 240) (p.rated exEnv)
      .ok (q, r, d0) : R (CurvePool × CurvePool × Nat)).holds (fun (q, r, d0) =>
        decide (exRated.rated exEnv ≠ [] ∧ d0 ≤ (q.rated exEnv).sum ∧ d0 ≤ (r.rated exEnv).sum)) =
      true := by
  decide +kernel

end Verif

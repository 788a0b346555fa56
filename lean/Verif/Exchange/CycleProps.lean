import Verif.Curve.Slope
import Verif.Exchange.RatedWorthProps
import Verif.Exchange.WorthProps

/-
C86: nobody gains tokens from a pool by trading in circles, whatever the sequence of swaps, deposits
and withdrawals.
-/

namespace Verif
namespace CurvePool

/-- From the worth of `h` shares to the invariant of the whole pool. -/
theorem value_of_part {h t K v w S T : Nat} (h0 : 0 < h) (hS : h ≤ S) (ht : S ≤ t * h) (hST : S ≤ T)
    (hw : (h : ℚ) * v / S ≤ h * w / T + K) : v ≤ w + t * K := by
  have h0' : (0 : ℚ) < h := by exact_mod_cast h0
  have p0 : (0 : ℚ) < S := by exact_mod_cast (by omega : 0 < S)
  have q0 : (0 : ℚ) < T := by exact_mod_cast (by omega : 0 < T)
  have ht' : (S : ℚ) ≤ t * h := by exact_mod_cast ht
  have hST' : (S : ℚ) ≤ T := by exact_mod_cast hST
  have h1 : (h : ℚ) * v ≤ h * (w * S / T) + K * S := by
    have := mul_le_mul_of_nonneg_right hw p0.le
    rw [div_mul_cancel₀ _ p0.ne'] at this
    calc (h : ℚ) * v ≤ (h * w / T + K) * S := this
      _ = h * (w * S / T) + K * S := by ring
  have h2 : (w : ℚ) * S / T ≤ w := by
    rw [div_le_iff₀ q0]
    exact mul_le_mul_of_nonneg_left hST' (by positivity)
  have h3 : (K : ℚ) * S ≤ h * (t * K) := by
    have := mul_le_mul_of_nonneg_left ht' (by positivity : (0 : ℚ) ≤ K)
    linarith
  have h4 : (h : ℚ) * v ≤ h * (w + t * K) := by
    have := mul_le_mul_of_nonneg_left h2 h0'.le
    linarith
  have h5 := le_of_mul_le_mul_left h4 h0'
  exact_mod_cast h5

/-- Reserves `ys` that are nowhere above `xs` except in one place `i`, where they are lower. -/
theorem lowered {i y : Nat} {xs ys : List Nat} (hl : ys.length = xs.length)
    (hy : ys[i]? = some y)
    (ho : ∀ j a b, j ≠ i → xs[j]? = some a → ys[j]? = some b → b ≤ a) :
    List.Forall₂ (· ≤ ·) ys (xs.set i y) := by
  rw [List.forall₂_iff_get]
  refine ⟨by simp [hl], fun j h1 h2 => ?_⟩
  simp only [List.get_eq_getElem]
  by_cases hj : j = i
  · subst hj
    rw [List.getElem?_eq_getElem h1] at hy
    simp at hy
    simp [hy]
  · rw [List.getElem_set_ne (by omega)]
    exact ho j _ _ hj (List.getElem?_eq_getElem (by omega)) (List.getElem?_eq_getElem h1)

/-- How much lower one reserve can be if the others are not higher and the invariant has fallen by at
most `K`. -/
theorem taken_le {A B c K i x y v w n : Nat} {xs ys : List Nat} (hn : xs.length = n) (hn1 : 1 ≤ n)
    (hc : 1 ≤ c) (hx : xs[i]? = some x) (hy : ys[i]? = some y) (hl : ys.length = n)
    (ho : ∀ j a b, j ≠ i → xs[j]? = some a → ys[j]? = some b → b ≤ a)
    (hA : 1 ≤ A * n ^ n) (hw : OnOrAboveCurve A w ys 0) (hv : ¬ OnOrAboveCurve A (v + 1) xs 0)
    (hvw : v ≤ w + K) (hB : B ≤ v) (he : x * n ≤ c * B) : x ≤ y + 2 * c * (K + 1) := by
  by_cases hyx : x ≤ y
  · omega
  have h1 : OnOrAboveCurve A (v - K) ys 0 := hw.mono (by rw [hl]; exact hA) (by omega)
  have h2 := h1.grow (lowered (hl.trans hn.symm) hy ho)
  rcases h2.slope hx (by omega) hv (by omega) with h3 | h3
  · have : 1 * (K + 1) ≤ 2 * c * (K + 1) := Nat.mul_le_mul_right _ (by omega)
    omega
  · rw [hn] at h3
    have h4 : (n + 1) * x ≤ 2 * c * (v + 1) := by
      have h5 : (n + 1) * x ≤ 2 * (x * n) := by nlinarith
      have h6 : c * B ≤ c * (v + 1) := Nat.mul_le_mul_left _ (by omega)
      have h7 : 2 * c * (v + 1) = 2 * (c * (v + 1)) := by ring
      omega
    have h5 : (v + 1) * (x - y) ≤ (v + 1) * (2 * c * (K + 1)) := by
      calc (v + 1) * (x - y) ≤ (n + 1) * x * (v + 1 - (v - K)) := h3
        _ ≤ 2 * c * (v + 1) * (K + 1) := Nat.mul_le_mul h4 (by omega)
        _ = (v + 1) * (2 * c * (K + 1)) := by ring
    have := Nat.le_of_mul_le_mul_left h5 (by omega)
    omega

/-- **C86**, stable pools. Let anybody do anything with a pool while others keep `h` shares, `1/t` of
all, and let there be no fewer shares at the end. If the pool then holds no more than at the start of
any token but one, it holds of this one at most a fixed number of units less for each operation. -/
theorem C86_pool {A B c h i k t x y : Nat} {R : CurveEnv → Prop} {p q : CurvePool}
    {vs : List CurvePool} (hpath : Path 10000 R p vs k q) (hp : (Pool.curve p).Sound) (hA : 1 ≤ A)
    (h0 : 0 < h) (hroom : Room p.cAmts.length B c)
    (ht : ∀ r ∈ vs, Tame A B c r ∧ h ≤ r.supply ∧ ∀ e, R e → AmpIs A e.now r)
    (hpart : p.supply ≤ t * h) (hsup : p.supply ≤ q.supply) (hx : p.cAmts[i]? = some x)
    (hy : q.cAmts[i]? = some y)
    (ho : ∀ j a b, j ≠ i → p.cAmts[j]? = some a → q.cAmts[j]? = some b → b ≤ a) :
    x ≤ y + 2 * c * (t * (k * opLoss p.cAmts.length c) + 1) := by
  have hw := C84_pool hpath hp hA h0 hroom ht
  obtain ⟨tp, hp', -⟩ := ht p hpath.start
  have hl := (hpath.sound hp).2
  have hv : p.value A ≤ q.value A + t * (k * opLoss p.cAmts.length c) := by
    refine value_of_part h0 hp' hpart hsup ?_
    push_cast
    exact hw
  have hn := tp.length
  refine taken_le rfl hn hroom.1 hx hy hl ho ?_ value_spec (value_succ tp.some) hv tp.size_le
    (tp.even x (List.mem_of_getElem? hx))
  have : 0 < A * p.cAmts.length ^ p.cAmts.length := by positivity
  omega

/-- **C86**, rated and degen pools, while the rates are `rs`: the same, in the units of the curve, in
which reserves are multiplied by their rates. -/
theorem C86_rated_pool {A B c g h i k t x y r : Nat} {R : CurveEnv → Prop} {rs : List Nat}
    {p q : CurvePool} {vs : List CurvePool} (hpath : Path 8000 R p vs k q)
    (hR : ∀ e, R e → e.rates = rs) (hp : (Pool.curve p).Sound) (hA : 1 ≤ A) (h0 : 0 < h)
    (hroom : RatedRoom p.cAmts.length B c g)
    (ht : ∀ r ∈ vs, RatedTame A B c g rs r ∧ h ≤ r.supply ∧ ∀ e, R e → AmpIs A e.now r)
    (hpart : p.supply ≤ t * h) (hsup : p.supply ≤ q.supply) (hx : p.cAmts[i]? = some x)
    (hy : q.cAmts[i]? = some y) (hr : rs[i]? = some r)
    (ho : ∀ j a b, j ≠ i → p.cAmts[j]? = some a → q.cAmts[j]? = some b → b ≤ a) :
    x * r < y * r + (2 * c * (t * (k * ratedLoss p.cAmts.length c g) + 1) + 1) * PRECISION := by
  have hw := C85_pool hpath hR hp hA h0 hroom ht
  obtain ⟨tp, hp', -⟩ := ht p hpath.start
  obtain ⟨tq, -, -⟩ := ht q hpath.last
  have hl := (hpath.sound hp).2
  have hv : p.ratedValue A rs ≤ q.ratedValue A rs + t * (k * ratedLoss p.cAmts.length c g) := by
    refine value_of_part h0 hp' hpart hsup ?_
    push_cast
    exact hw
  obtain ⟨hlp, hn⟩ := tp.length
  have hlq := tq.length.1
  rw [hl] at hlq
  have at_ : ∀ {s : CurvePool} {j z u : Nat}, s.kind ≠ .stable → s.cAmts[j]? = some z →
      rs[j]? = some u → (s.atRates rs)[j]? = some (z * u / PRECISION) := by
    intro s j z u hk hz hu
    rw [atRates_zip hk, List.getElem?_zipWith, hz, hu]
  have hB : x * r / PRECISION * p.cAmts.length ≤ c * B :=
    (Nat.le_add_right _ _).trans (tp.even _ (List.mem_of_getElem? (at_ tp.kind hx hr)))
  have key := taken_le (K := t * (k * ratedLoss p.cAmts.length c g)) hlp hn hroom.1
    (at_ tp.kind hx hr) (at_ tq.kind hy hr) hlq ?_ ?_ ratedValue_spec (ratedValue_succ tp.ne) hv
    tp.size_le hB
  · generalize 2 * c * (t * (k * ratedLoss p.cAmts.length c g) + 1) = M at *
    have hP : 0 < PRECISION := by decide
    have h1 : x * r < (x * r / PRECISION + 1) * PRECISION := by
      have := Nat.lt_mul_div_succ (x * r) hP
      rwa [Nat.mul_comm PRECISION] at this
    have h2 := Nat.div_mul_le_self (y * r) PRECISION
    have h3 := Nat.mul_le_mul_right PRECISION key
    have h4 : (x * r / PRECISION + 1) * PRECISION = x * r / PRECISION * PRECISION + PRECISION := by ring
    have h5 : (y * r / PRECISION + M) * PRECISION = y * r / PRECISION * PRECISION + M * PRECISION := by
      ring
    have h6 : (M + 1) * PRECISION = M * PRECISION + PRECISION := by ring
    omega
  · intro j a b hj ha hb
    have hjl : j < rs.length := by
      have := (List.getElem?_eq_some_iff.1 ha).1
      rw [tp.length.1] at this
      rw [tp.len]; exact this
    have hjp : j < p.cAmts.length := by rw [← tp.len]; exact hjl
    have hjq : j < q.cAmts.length := by rw [hl]; exact hjp
    have hu := List.getElem?_eq_getElem hjl
    have ha' := List.getElem?_eq_getElem hjp
    have hb' := List.getElem?_eq_getElem hjq
    rw [at_ tp.kind ha' hu] at ha
    rw [at_ tq.kind hb' hu] at hb
    cases ha; cases hb
    exact Nat.div_le_div_right (Nat.mul_le_mul_right _ (ho j _ _ hj ha' hb'))
  · have : 0 < A * p.cAmts.length ^ p.cAmts.length := by positivity
    omega

/-- How a swap moves the reserves: the one takes in at most the input, the other gives up at least the
payment, the rest stay. -/
theorem swap_moves {p q : CurvePool} {ti tout : AccountId} {a mo out : Nat} {fees : AdminFees}
    {env : CurveEnv} {v : Bool} (h : p.swap ti a tout mo fees env v = .ok (q, out)) :
    ∃ i o di do_ cin sw ci co ci' co' : Nat, p.toks[i]? = some ti ∧ p.toks[o]? = some tout ∧ i ≠ o ∧
      p.decs[i]? = some di ∧ p.decs[o]? = some do_ ∧ cin * p.kind.tokPerC di ≤ a * p.kind.cPerTok di ∧
      CoveredBy p.kind do_ out sw ∧ p.cAmts[i]? = some ci ∧ p.cAmts[o]? = some co ∧
      q.cAmts[i]? = some ci' ∧ q.cAmts[o]? = some co' ∧ ci' ≤ ci + cin ∧ co' + sw ≤ co ∧
      (∀ j, j ≠ i → j ≠ o → q.cAmts[j]? = p.cAmts[j]?) ∧ q.toks = p.toks ∧ q.decs = p.decs ∧
      q.kind = p.kind ∧ p.supply ≤ q.supply := by
  obtain ⟨i, o, r, di, do_, x, hne, hti, hto, hio, -, hdi, hdo, hx, hr, hout, -, -, hq⟩ := swap_ok h
  obtain ⟨ci, co, hci, hco, h1, h2⟩ := swapTo_conserves hr
  have hil : i < p.cAmts.length := (List.getElem?_eq_some_iff.1 hci).1
  have hol : o < p.cAmts.length := (List.getElem?_eq_some_iff.1 hco).1
  have key : ∃ e, e ≤ r.adminFee ∧ q.cAmts = (p.cAmts.set i r.newSource).set o (r.newDest + e) ∧
      q.toks = p.toks ∧ q.decs = p.decs ∧ q.kind = p.kind ∧ p.supply ≤ q.supply := by
    rcases swapFee_ok hq with ⟨rfl, -⟩ | ⟨-, -, m, f, old, -, hold, -, hm⟩
    · exact ⟨0, Nat.zero_le _, rfl, rfl, rfl, rfl, Nat.le_refl _⟩
    · refine ⟨r.adminFee, Nat.le_refl _, ?_, ?_, ?_, ?_, ?_⟩
      · rw [hm.frame]
        simp only [List.set_set]
        simp only at hold
        rw [List.getElem?_set_self (by simpa using hol)] at hold
        cases hold
        rfl
      · rw [hm.frame]
      · rw [hm.frame]
      · rw [hm.frame]
      · rw [hm.supply]; exact Nat.le_add_right _ _
  obtain ⟨e, he, hc, k1, k2, k3, k4⟩ := key
  refine ⟨i, o, di, do_, x, r.swapped, ci, co, r.newSource, r.newDest + e, hti, hto, hio, hdi, hdo,
    credited_of_amountToC hx, covered_of_cToAmount hout, hci, hco, ?_, ?_, h1, by omega, ?_, k1, k2, k3,
    k4⟩
  · rw [hc, List.getElem?_set_ne (by omega), List.getElem?_set_self hil]
  · rw [hc, List.getElem?_set_self (by simpa using hol)]
  · intro j hj hj'
    rw [hc, List.getElem?_set_ne (by omega), List.getElem?_set_ne (by omega)]

/-- Where a swap and the swap back leave the reserves. -/
theorem round_trip_moves {p q r : CurvePool} {ti tout : AccountId} {a m out m' back : Nat}
    {fees fees' : AdminFees} {env env' : CurveEnv} {v v' : Bool} (hp : p.toks.Nodup)
    (h1 : p.swap ti a tout m fees env v = .ok (q, out))
    (h2 : q.swap tout out ti m' fees' env' v' = .ok (r, back)) :
    ∃ i di cin sw x y : Nat, p.toks[i]? = some ti ∧ p.decs[i]? = some di ∧
      cin * p.kind.tokPerC di ≤ a * p.kind.cPerTok di ∧ CoveredBy p.kind di back sw ∧
      p.cAmts[i]? = some x ∧ r.cAmts[i]? = some y ∧ y + sw ≤ x + cin ∧
      (∀ j b b', j ≠ i → p.cAmts[j]? = some b → r.cAmts[j]? = some b' → b' ≤ b) ∧
      p.supply ≤ q.supply ∧ p.supply ≤ r.supply := by
  obtain ⟨i, o, di, do_, cin, sw, ci, co, ci', co', hi, ho, hio, hdi, hdo, hcin, hsw, hci, hco, hci',
    hco', l1, l2, hrest, e1, e2, e3, e4⟩ := swap_moves h1
  obtain ⟨o2, i2, do2, di2, cin2, sw2, cj, ck, cj', ck', hj, hk, -, hdj, hdk, hcin2, hsw2, hcj, hck,
    hcj', hck', l3, l4, hrest2, -, -, -, e8⟩ := swap_moves h2
  rw [e1] at hj hk
  rw [e2] at hdj hdk
  rw [e3] at hcin2 hsw2
  have same : ∀ {n n' : Nat} {t : AccountId}, p.toks[n]? = some t → p.toks[n']? = some t → n' = n := by
    intro n n' t ha hb
    obtain ⟨l, rfl⟩ := List.getElem?_eq_some_iff.1 ha
    obtain ⟨l', hb⟩ := List.getElem?_eq_some_iff.1 hb
    exact (hp.getElem_inj_iff).1 hb
  have hi2 := same hi hk
  have ho2 := same ho hj
  subst i2 o2
  rw [hdi] at hdk; cases hdk
  rw [hdo] at hdj; cases hdj
  rw [hci'] at hck; cases hck
  rw [hco'] at hcj; cases hcj
  have hback : cin2 ≤ sw := by
    unfold CoveredBy at hsw
    exact Nat.le_of_mul_le_mul_right (hcin2.trans hsw) (p.kind.tokPerC_pos do_)
  refine ⟨i, di, cin, sw2, ci, ck', hi, hdi, hcin, hsw2, hci, hck', by omega, ?_, e4, e4.trans e8⟩
  intro j b b' hji hb hb'
  by_cases hjo : j = o
  · subst hjo
    rw [hco] at hb; cases hb
    rw [hcj'] at hb'; cases hb'
    omega
  · rw [hrest2 j hjo hji, hrest j hji hjo, hb] at hb'
    cases hb'
    exact Nat.le_refl _

/-- **C86**, there and back in a stable pool. Whoever swaps an amount and swaps all they got back to
the first token ends with at most what they put in and a fixed number of the pool's common units. -/
theorem C86_round_trip {A B c a m out m' back : Nat} {p q r : CurvePool} {ti tout : AccountId}
    {fees fees' : AdminFees} {env env' : CurveEnv} (hp : (Pool.curve p).Sound)
    (h1 : p.swap ti a tout m fees env false = .ok (q, out))
    (h2 : q.swap tout out ti m' fees' env' false = .ok (r, back)) (hA : 1 ≤ A) (h0 : 0 < p.supply)
    (hf : fees.adminFeeBps ≤ 10000) (hf' : fees'.adminFeeBps ≤ 10000)
    (hroom : Room p.cAmts.length B c) (tp : Tame A B c p) (tq : Tame A B c q) (tr : Tame A B c r)
    (ha : ∀ s ∈ [p, q, r], ∀ t ∈ [env.now, env'.now], AmpIs A t s) :
    ∃ i di : Nat, p.toks[i]? = some ti ∧ p.decs[i]? = some di ∧
      back * CurveKind.cPerTok .stable di ≤ a * CurveKind.cPerTok .stable di +
        2 * c * (2 * opLoss p.cAmts.length c + 1) * CurveKind.tokPerC .stable di := by
  obtain ⟨i, di, cin, sw, x, y, hi, hdi, hcin, hsw, hx, hy, hxy, ho, s1, s2⟩ :=
    round_trip_moves hp.2 h1 h2
  have hpath : Path 10000 (· ∈ [env, env']) p [r, q, p] 2 r :=
    .change (.change .nil (.swap h1 hf (by simp))) (.swap h2 hf' (by simp))
  simp only [List.mem_cons, List.not_mem_nil, or_false, forall_eq_or_imp, forall_eq] at ha
  have key := C86_pool (t := 1) hpath hp hA h0 hroom
    (by simp [tp, tq, tr, s1, s2, ha]) (by omega) s2 hx hy ho
  rw [Nat.one_mul] at key
  refine ⟨i, di, hi, hdi, ?_⟩
  unfold CoveredBy at hsw
  rw [tp.kind] at hsw hcin
  generalize 2 * c * (2 * opLoss p.cAmts.length c + 1) = M at *
  have h3 := Nat.mul_le_mul_right (CurveKind.tokPerC .stable di) (by omega : sw ≤ cin + M)
  rw [Nat.add_mul] at h3
  omega

/-- **C86**, there and back in a rated or degen pool while its rates are `rs`. -/
theorem C86_rated_round_trip {A B c g a m out m' back : Nat} {p q r : CurvePool}
    {ti tout : AccountId} {fees fees' : AdminFees} {env env' : CurveEnv} {rs : List Nat}
    (hp : (Pool.curve p).Sound) (h1 : p.swap ti a tout m fees env false = .ok (q, out))
    (h2 : q.swap tout out ti m' fees' env' false = .ok (r, back)) (hr : env.rates = rs)
    (hr' : env'.rates = rs) (hA : 1 ≤ A) (h0 : 0 < p.supply) (hf : fees.adminFeeBps ≤ 8000)
    (hf' : fees'.adminFeeBps ≤ 8000) (hroom : RatedRoom p.cAmts.length B c g)
    (tp : RatedTame A B c g rs p) (tq : RatedTame A B c g rs q) (tr : RatedTame A B c g rs r)
    (ha : ∀ s ∈ [p, q, r], ∀ t ∈ [env.now, env'.now], AmpIs A t s) :
    ∃ i di u : Nat, p.toks[i]? = some ti ∧ p.decs[i]? = some di ∧ rs[i]? = some u ∧
      back * p.kind.cPerTok di * u ≤ a * p.kind.cPerTok di * u +
        (2 * c * (2 * ratedLoss p.cAmts.length c g + 1) + 1) * PRECISION * p.kind.tokPerC di := by
  obtain ⟨i, di, cin, sw, x, y, hi, hdi, hcin, hsw, hx, hy, hxy, ho, s1, s2⟩ :=
    round_trip_moves hp.2 h1 h2
  have hil : i < rs.length := by
    rw [tp.len]; exact (List.getElem?_eq_some_iff.1 hx).1
  have hpath : Path 8000 (· ∈ [env, env']) p [r, q, p] 2 r :=
    .change (.change .nil (.swap h1 hf (by simp))) (.swap h2 hf' (by simp))
  simp only [List.mem_cons, List.not_mem_nil, or_false, forall_eq_or_imp, forall_eq] at ha
  have key := C86_rated_pool (t := 1) hpath (by simp [hr, hr']) hp hA h0 hroom
    (by simp [tp, tq, tr, s1, s2, ha]) (by omega) s2 hx hy (List.getElem?_eq_getElem hil) ho
  rw [Nat.one_mul] at key
  refine ⟨i, di, rs[i], hi, hdi, List.getElem?_eq_getElem hil, ?_⟩
  unfold CoveredBy at hsw
  generalize (2 * c * (2 * ratedLoss p.cAmts.length c g + 1) + 1) * PRECISION = M at *
  generalize rs[i] = u at *
  generalize p.kind.cPerTok di = P at *
  generalize p.kind.tokPerC di = T at *
  have h3 : sw * u ≤ cin * u + M := by
    have := Nat.mul_le_mul_right u hxy
    rw [Nat.add_mul, Nat.add_mul] at this
    omega
  calc back * P * u ≤ sw * T * u := Nat.mul_le_mul_right _ hsw
    _ = sw * u * T := by ring
    _ ≤ (cin * u + M) * T := Nat.mul_le_mul_right _ h3
    _ = cin * T * u + M * T := by ring
    _ ≤ a * P * u + M * T := Nat.add_le_add_right (Nat.mul_le_mul_right _ hcin) _

end CurvePool

namespace Contract
open Demo

/-- **C86**. From any reachable state let anything happen, in any order. If others keep `h` shares of a
stable-swap pool, at least `1/t` of all, the pool stays of ordinary size and shape and uses the
amplification `A`, and in the end it has no fewer shares than at the start and no more of any token but one,
then it has of this one at most a fixed number of units less than at the start for each swap in the pool
and each request to change its liquidity. So nobody has taken more of it than this for nothing. -/
theorem C86_cycle (es : List Event) {c : Contract} (hc : c.Reachable)
    (hb : c.cfg.adminFeeBps ≤ 10000) {id : Nat} {p : CurvePool}
    (hp : c.pools[id]? = some (.curve p)) :
    ∃ steps q vs, c.History es steps ∧ (c.run es).pools[id]? = some (.curve q) ∧
      (∃ k, p.Path 10000 (c.EnvDuring es p) vs k q) ∧
      ∀ {A B d h t i x y : Nat}, 1 ≤ A → 0 < h → CurvePool.Room p.cAmts.length B d →
        (∀ r ∈ vs, CurvePool.Tame A B d r ∧ h ≤ r.supply ∧ ∀ e ∈ es, r.AmpIs A e.now) →
        p.supply ≤ t * h → p.supply ≤ q.supply → p.cAmts[i]? = some x → q.cAmts[i]? = some y →
        (∀ j a b, j ≠ i → p.cAmts[j]? = some a → q.cAmts[j]? = some b → b ≤ a) →
        x ≤ y + 2 * d * (t * ((swapsOf steps id + (es.flatMap Event.liquidity).count id) *
          CurvePool.opLoss p.cAmts.length d) + 1) := by
  obtain ⟨steps, q, vs, k, h1, h2, h3, h4⟩ := C84_path es (b := 10000) (by decide) hb hp
  refine ⟨steps, q, vs, h1, h2, ⟨k, h3⟩, fun hA h0 hroom ht hpart hsup hx hy ho => ?_⟩
  refine (CurvePool.C86_pool h3 (hc.sound _ (List.mem_of_getElem? hp)) hA h0 hroom
    (fun r hr => ⟨(ht r hr).1, (ht r hr).2.1, fun u hu => hu.amp (ht r hr).2.2⟩) hpart hsup hx hy
    ho).trans (Nat.add_le_add_left (Nat.mul_le_mul_left _ (Nat.succ_le_succ (Nat.mul_le_mul_left _
      (Nat.mul_le_mul_right _ h4)))) _)

/-- **C86**, rated and degen pools, while the rates or prices of their tokens are `rs`. -/
theorem C86_rated_cycle (es : List Event) {c : Contract} (hc : c.Reachable)
    (hb : c.cfg.adminFeeBps ≤ 8000) {id : Nat} {p : CurvePool}
    (hp : c.pools[id]? = some (.curve p)) {rs : List Nat}
    (hrs : ∀ u, c.EnvDuring es p u → u.rates = rs) :
    ∃ steps q vs, c.History es steps ∧ (c.run es).pools[id]? = some (.curve q) ∧
      (∃ k, p.Path 8000 (c.EnvDuring es p) vs k q) ∧
      ∀ {A B d g h t i x y r : Nat}, 1 ≤ A → 0 < h → CurvePool.RatedRoom p.cAmts.length B d g →
        (∀ r ∈ vs, CurvePool.RatedTame A B d g rs r ∧ h ≤ r.supply ∧ ∀ e ∈ es, r.AmpIs A e.now) →
        p.supply ≤ t * h → p.supply ≤ q.supply → p.cAmts[i]? = some x → q.cAmts[i]? = some y → rs[i]? = some r →
        (∀ j a b, j ≠ i → p.cAmts[j]? = some a → q.cAmts[j]? = some b → b ≤ a) →
        x * r < y * r + (2 * d * (t * ((swapsOf steps id + (es.flatMap Event.liquidity).count id) *
          CurvePool.ratedLoss p.cAmts.length d g) + 1) + 1) * PRECISION := by
  obtain ⟨steps, q, vs, k, h1, h2, h3, h4⟩ := C84_path es (le_refl 8000) hb hp
  refine ⟨steps, q, vs, h1, h2, ⟨k, h3⟩,
    fun {A B d g h t i x y r} hA h0 hroom ht hpart hsup hx hy hr ho => ?_⟩
  exact (CurvePool.C86_rated_pool h3 hrs (hc.sound _ (List.mem_of_getElem? hp)) hA h0 hroom
    (fun r hr => ⟨(ht r hr).1, (ht r hr).2.1, fun u hu => hu.amp (ht r hr).2.2⟩) hpart hsup hx
    hy hr ho).trans_le (Nat.add_le_add_left (Nat.mul_le_mul_right _ (Nat.succ_le_succ
      (Nat.mul_le_mul_left _ (Nat.succ_le_succ (Nat.mul_le_mul_left _
        (Nat.mul_le_mul_right _ h4)))))) _)

/-- **C86**, constant-product pools. From any reachable state let anything happen, in any order, while
`a` keeps `h` shares, at least `1/t` of all. If in the end the pool has no fewer shares than at the start
and no more of one token, then it has of the other at most `2t` units, at the price of the start, less
than at the start for each swap in the pool. -/
theorem C86_simple_cycle (es : List Event) {c : Contract} (hc : c.Reachable)
    (hb : c.cfg.adminFeeBps ≤ 10000) {id h t : Nat} {a : AccountId} {p q : SimplePool}
    (hp : c.pools[id]? = some (.simple p)) (hq : (c.run es).pools[id]? = some (.simple q))
    (hk : ∀ n, h ≤ (c.run (es.take n)).sharesOf id a) (h0 : 0 < h) (hpart : p.supply ≤ t * h)
    (hsup : p.supply ≤ q.supply) :
    ∃ steps, c.History es steps ∧
      (0 < p.amt1 → q.amt1 ≤ p.amt1 →
        (p.amt0 : ℝ) ≤ q.amt0 + 2 * t * swapsOf steps id * √((p.amt0 : ℝ) / p.amt1)) ∧
      (0 < p.amt0 → q.amt0 ≤ p.amt0 →
        (p.amt1 : ℝ) ≤ q.amt1 + 2 * t * swapsOf steps id * √((p.amt1 : ℝ) / p.amt0)) := by
  obtain ⟨steps, h1, hw⟩ := C83_worth es hc hb hp hq hk
  have s0 : h ≤ p.supply := (hk 0).trans (sharesOf_le_supply hc a hp)
  generalize hn : swapsOf steps id = k at hw
  rw [SimplePool.worth_eq, SimplePool.worth_eq] at hw
  have h0' : (0 : ℝ) < h := by exact_mod_cast h0
  have p0 : (0 : ℝ) < p.supply := by exact_mod_cast (by omega : 0 < p.supply)
  have q0 : (0 : ℝ) < q.supply := by exact_mod_cast (by omega : 0 < q.supply)
  have hpart' : (p.supply : ℝ) ≤ t * h := by exact_mod_cast hpart
  have hsup' : (p.supply : ℝ) ≤ q.supply := by exact_mod_cast hsup
  have key : √(p.product : ℝ) ≤ √(q.product : ℝ) + t * k := by
    have l1 : (h : ℝ) * √(p.product : ℝ) ≤ h * (√(q.product : ℝ) * p.supply / q.supply) + k * p.supply := by
      have := mul_le_mul_of_nonneg_right hw p0.le
      rw [div_mul_cancel₀ _ p0.ne'] at this
      calc (h : ℝ) * √(p.product : ℝ) ≤ (h * √(q.product : ℝ) / q.supply + k) * p.supply := this
        _ = _ := by ring
    have l2 : √(q.product : ℝ) * p.supply / q.supply ≤ √(q.product : ℝ) := by
      rw [div_le_iff₀ q0]
      exact mul_le_mul_of_nonneg_left hsup' (Real.sqrt_nonneg _)
    have l3 := mul_le_mul_of_nonneg_left hpart' (Nat.cast_nonneg (α := ℝ) k)
    have l4 := mul_le_mul_of_nonneg_left l2 h0'.le
    refine le_of_mul_le_mul_left ?_ h0'
    linarith
  have one : ∀ {x y x' y' : Nat}, √((x * y : ℕ) : ℝ) ≤ √((x' * y' : ℕ) : ℝ) + t * k → 0 < y → y' ≤ y →
      (x : ℝ) ≤ x' + 2 * t * k * √((x : ℝ) / y) := by
    intro x y x' y' hkey hy hyy
    by_cases hx : x ≤ x'
    · have : (x : ℝ) ≤ x' := by exact_mod_cast hx
      have : (0 : ℝ) ≤ 2 * t * k * √((x : ℝ) / y) := by positivity
      linarith
    have hx' : (x' : ℝ) ≤ x := by exact_mod_cast (by omega : x' ≤ x)
    have y0 : (0 : ℝ) < y := by exact_mod_cast hy
    have m1 : √((x' * y' : ℕ) : ℝ) ≤ √((x' : ℝ) * y) := by
      apply Real.sqrt_le_sqrt
      exact_mod_cast Nat.mul_le_mul_left x' hyy
    have m2 : √((x' : ℝ) * y) ≤ √((x : ℝ) * y) :=
      Real.sqrt_le_sqrt (mul_le_mul_of_nonneg_right hx' y0.le)
    have e1 : √((x : ℝ) * y) = √((x : ℝ) / y) * y := by
      have : (x : ℝ) * y = x / y * y ^ 2 := by field_simp
      rw [this, Real.sqrt_mul (by positivity), Real.sqrt_sq y0.le]
    have s1 : √((x : ℝ) * y) * √((x : ℝ) * y) = x * y := Real.mul_self_sqrt (by positivity)
    have s2 : √((x' : ℝ) * y) * √((x' : ℝ) * y) = x' * y := Real.mul_self_sqrt (by positivity)
    push_cast at hkey m1
    have hd : √((x : ℝ) * y) - √((x' : ℝ) * y) ≤ t * k := by linarith
    have hsum : √((x : ℝ) * y) + √((x' : ℝ) * y) ≤ 2 * √((x : ℝ) * y) := by linarith
    have hsq : ((x : ℝ) - x') * y ≤ t * k * (2 * √((x : ℝ) * y)) := by
      calc ((x : ℝ) - x') * y = (√((x : ℝ) * y) - √((x' : ℝ) * y)) *
            (√((x : ℝ) * y) + √((x' : ℝ) * y)) := by ring_nf; nlinarith
        _ ≤ t * k * (2 * √((x : ℝ) * y)) :=
          mul_le_mul hd hsum (by positivity) (by positivity)
    rw [e1] at hsq
    have : ((x : ℝ) - x') ≤ 2 * t * k * √((x : ℝ) / y) := by
      refine le_of_mul_le_mul_right ?_ y0
      linarith
    linarith
  refine ⟨steps, h1, ?_⟩
  rw [hn]
  refine ⟨?_, ?_⟩
  · intro h2 h3
    exact one key h2 h3
  · intro h2 h3
    refine one ?_ h2 h3
    rw [Nat.mul_comm, Nat.mul_comm q.amt1]
    exact key

/-! ### Examples -/

/-- Somebody adds liquidity, trades there and back and takes the liquidity out again. -/
def cycleDemo : List Event := [
  .call (Demo.near al) (.addStableLiquidity 1 [10 ^ 23, 10 ^ 23] 1),
  .call (by' A) (.ftOnTransfer bo (3 * 10 ^ 22)
    (.execute none [.swap ⟨1, A, none, B, 1⟩] false none none)),
  .call (by' B) (.ftOnTransfer bo 29976019937152404637125
    (.execute none [.swap ⟨1, B, none, A, 1⟩] false none none)),
  .call (y al) (.removeByTokens 1 [10 ^ 23, 10 ^ 23] (3 * 10 ^ 23))]

example : c2.cfg.adminFeeBps ≤ 10000 ∧ (cycleDemo.flatMap Event.liquidity).count 1 = 2 ∧
    CurvePool.Room 2 (8 * 10 ^ 23) 2 ∧
    (∀ n < 5, CurvePool.Tame 100 (8 * 10 ^ 23) 2 (demoStable (c2.run (cycleDemo.take n))) ∧
      8 * 10 ^ 23 ≤ (demoStable (c2.run (cycleDemo.take n))).supply ∧
      ∀ e ∈ cycleDemo, (demoStable (c2.run (cycleDemo.take n))).AmpIs 100 e.now) ∧
    (demoStable c2).supply ≤ 2 * (8 * 10 ^ 23) ∧
    (demoStable c2).supply ≤ (demoStable (c2.run cycleDemo)).supply ∧
    (demoStable c2).cAmts = [400000000000000000500000, 400000000000000000500000] ∧
    (demoStable (c2.run cycleDemo)).cAmts = [400029992650963876835985, 400000000000000000500000] := by
  refine ⟨by decide +kernel, by decide +kernel, by unfold CurvePool.Room; decide +kernel,
    by decide +kernel, by decide +kernel, by decide +kernel, by decide +kernel, by decide +kernel⟩

/-- The states after a swap of token A for B and after the swap back, and what comes back. -/
def roundTrip (p : CurvePool) (a : Nat) (rs : List Nat) : R (CurvePool × CurvePool × Nat) := do
  let (q, out) ← p.swap A a B 1 ⟨2000, ex, none⟩ ⟨0, rs, true⟩ false
  let (r, back) ← q.swap B out A 1 ⟨2000, ex, none⟩ ⟨0, rs, true⟩ false
  .ok (q, r, back)

example : (roundTrip (demoStable c2) (3 * 10 ^ 22) []).holds fun (q, r, back) =>
    CurvePool.Tame 100 (7 * 10 ^ 23) 2 (demoStable c2) ∧ CurvePool.Tame 100 (7 * 10 ^ 23) 2 q ∧
    CurvePool.Tame 100 (7 * 10 ^ 23) 2 r ∧ (∀ s ∈ [demoStable c2, q, r], s.AmpIs 100 0) ∧
    2 * 10 ^ 22 < back ∧ back < 3 * 10 ^ 22 := by
  decide +kernel

example : (roundTrip (demoDegen c4) (3 * 10 ^ 18) demoPrices).holds fun (q, r, back) =>
    CurvePool.RatedTame 100 (3 * 10 ^ 26) 12 2 demoPrices (demoDegen c4) ∧
    CurvePool.RatedTame 100 (3 * 10 ^ 26) 12 2 demoPrices q ∧
    CurvePool.RatedTame 100 (3 * 10 ^ 26) 12 2 demoPrices r ∧
    (∀ s ∈ [demoDegen c4, q, r], s.AmpIs 100 0) ∧ 2 * 10 ^ 18 < back ∧ back < 3 * 10 ^ 18 := by
  decide +kernel

/-- Others trade there and back in the demo constant-product pool. -/
def simpleCycleDemo : List Event := [
  .call (by' A) (.ftOnTransfer bo 700 (.execute none [.swap ⟨0, A, none, B, 1⟩] false none none)),
  .call (by' B) (.ftOnTransfer bo 2772 (.execute none [.swap ⟨0, B, none, A, 1⟩] false none none))]

example : (∀ n, 10 ^ 24 ≤ (c2.run (simpleCycleDemo.take n)).sharesOf 0 al) ∧
    (match (c2.pools[0]? : Option Pool), ((c2.run simpleCycleDemo).pools[0]? : Option Pool) with
      | some (.simple p), some (.simple q) => decide (p.supply ≤ 1 * 10 ^ 24 ∧
        p.supply ≤ q.supply ∧ q.amt1 ≤ p.amt1 ∧ p.amt0 = 100000 ∧ q.amt0 = 100005)
      | _, _ => false) = true := by
  refine ⟨fun n => ?_, by decide +kernel⟩
  have h0 : 10 ^ 24 ≤ (c2.run (simpleCycleDemo.take 0)).sharesOf 0 al := by decide +kernel
  have h1 : 10 ^ 24 ≤ (c2.run (simpleCycleDemo.take 1)).sharesOf 0 al := by decide +kernel
  have h2 : 10 ^ 24 ≤ (c2.run simpleCycleDemo).sharesOf 0 al := by decide +kernel
  match n with
  | 0 => exact h0
  | 1 => exact h1
  | n + 2 => rw [List.take_of_length_le (by simp [simpleCycleDemo])]; exact h2

end Contract
end Verif

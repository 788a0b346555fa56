import Verif.Simple.Spec
import Verif.Simple.Lemmas

/-
Properties of the simple (constant-product) pool: C01-C08, C10, C11 and the simple-pool part
of C09. Each theorem is followed by an `example` that its hypotheses hold somewhere.
-/

namespace Verif

/-! ### A concrete pool used by the examples -/

def exA : AccountId := ['a']
def exB : AccountId := ['b']
def exLP : AccountId := ['l', 'p']
def exEx : AccountId := ['e', 'x']
def exRef : AccountId := ['r']
def exFees : AdminFees := { adminFeeBps := 2000, exchangeId := exEx, referral := some (exRef, 500) }

/-- 1000 : 4000 with a 0.3% fee; the referral is a registered LP. -/
def exPool : SimplePool :=
  { tok0 := exA, tok1 := exB, amt0 := 100000, amt1 := 400000, totalFee := 30,
    shares := (FMap.empty.insert exLP 1000000).insert exRef 0, supply := 1000000 }

/-! ### C11: integer square root -/

/-- **C11**. For every input that does not overflow `value + 1`, `integer_sqrt` terminates with
the floor of the square root. -/
theorem C11_integer_sqrt_exact (v : Nat) (hv : v + 1 < 2 ^ 256) :
    integerSqrt v = .ok (Nat.sqrt v) := by
  obtain ⟨r, h, h1, h2⟩ := integerSqrt_spec v hv
  rw [h, Nat.eq_sqrt.2 ⟨h1, h2⟩]

/-- The only excluded input panics. -/
theorem C11_integer_sqrt_max : integerSqrt (2 ^ 256 - 1) = .error .arith := by
  simp [integerSqrt, addW, fit, error_bind]

/-- Products of two balances are always in range. -/
theorem C11_range (x y : Nat) (hx : x < 2 ^ 128) (hy : y < 2 ^ 128) : x * y + 1 < 2 ^ 256 := by
  have : x * y ≤ (2 ^ 128 - 1) * (2 ^ 128 - 1) := Nat.mul_le_mul (by omega) (by omega)
  omega

example : integerSqrt (10 ^ 40 + 1) = .ok (10 ^ 20) := by
  rw [C11_integer_sqrt_exact _ (by norm_num)]; congr 1; decide +kernel

/-! ### Reserve movements of a trade -/

theorem amt_product (p : SimplePool) {i o : Bool} (h : i ≠ o) :
    p.product = p.amt i * p.amt o := by
  cases i <;> cases o <;> simp_all [SimplePool.product, SimplePool.amt, Nat.mul_comm]

theorem index_reserve {p : SimplePool} {t : AccountId} {i : Bool}
    (h : p.tokenIndex t = .ok i) : p.reserve t = p.amt i := by
  unfold SimplePool.tokenIndex at h
  unfold SimplePool.reserve
  split at h
  · rename_i h0; cases h; simp [h0, SimplePool.amt]
  · split at h
    · rename_i h0 h1; cases h; simp [Ne.symm h0, h1, SimplePool.amt]
    · cases h

/-- A successful swap moves exactly the stated amounts: the pool gains `a` of the sold token and
loses `out` of the bought token. -/
theorem swap_moves {p q : SimplePool} {ti tout : AccountId} {a mo out : Nat} {fees : AdminFees}
    {v : Bool} (h : p.swap ti a tout mo fees v = .ok (q, out)) :
    q.reserve ti = p.reserve ti + a ∧ q.reserve tout + out = p.reserve tout ∧
    q.tok0 = p.tok0 ∧ q.tok1 = p.tok1 ∧ q.totalFee = p.totalFee := by
  obtain ⟨i, o, -, hi, ho, hio, -, -, hu⟩ := SimplePool.swap_ok h
  obtain ⟨h1, h2, h3, -, h4, h5, h6, -⟩ := SimplePool.updatePool_ok hio hu
  have hi' : q.tokenIndex ti = .ok i := by
    unfold SimplePool.tokenIndex at *; rw [h4, h5]; exact hi
  have ho' : q.tokenIndex tout = .ok o := by
    unfold SimplePool.tokenIndex at *; rw [h4, h5]; exact ho
  rw [index_reserve hi, index_reserve ho, index_reserve hi', index_reserve ho']
  exact ⟨h1, by omega, h4, h5, h6⟩

theorem swapByOutput_moves {p q : SimplePool} {ti tout : AccountId} {out inn : Nat}
    {mi : Option Nat} {fees : AdminFees} {v : Bool}
    (h : p.swapByOutput ti out tout mi fees v = .ok (q, inn)) :
    q.reserve ti = p.reserve ti + inn ∧ q.reserve tout + out = p.reserve tout ∧
    q.tok0 = p.tok0 ∧ q.tok1 = p.tok1 ∧ q.totalFee = p.totalFee := by
  obtain ⟨i, o, -, hi, ho, hio, -, -, hu⟩ := SimplePool.swapByOutput_ok h
  obtain ⟨h1, h2, h3, -, h4, h5, h6, -⟩ := SimplePool.updatePool_ok hio hu
  have hi' : q.tokenIndex ti = .ok i := by
    unfold SimplePool.tokenIndex at *; rw [h4, h5]; exact hi
  have ho' : q.tokenIndex tout = .ok o := by
    unfold SimplePool.tokenIndex at *; rw [h4, h5]; exact ho
  rw [index_reserve hi, index_reserve ho, index_reserve hi', index_reserve ho']
  exact ⟨h1, by omega, h4, h5, h6⟩

/-! ### C02: the output is the exact optimum -/

/-- **C02**. The output of a swap is the largest amount for which the fee-adjusted product is
kept. -/
theorem C02_swap_output_optimal {p q : SimplePool} {ti tout : AccountId} {a mo out : Nat}
    {fees : AdminFees} {v : Bool} (h : p.swap ti a tout mo fees v = .ok (q, out)) :
    FeeProductKept (p.reserve ti) (p.reserve tout) p.totalFee a out ∧
    ∀ out', FeeProductKept (p.reserve ti) (p.reserve tout) p.totalFee a out' → out' ≤ out := by
  obtain ⟨i, o, -, hi, ho, hio, hr, -, -⟩ := SimplePool.swap_ok h
  obtain ⟨hX, hY, -, ha, hf, hout⟩ := SimplePool.getReturn_ok hr
  rw [index_reserve hi, index_reserve ho]
  have := SimplePool.return_optimal (p.amt i) (p.amt o) (10000 - p.totalFee) a hX
  simp only [← hout] at this
  exact ⟨⟨this.1, this.2.1⟩, fun o' h' => this.2.2 o' h'.1 h'.2⟩

example : (exPool.swap exA 1000 exB 1 exFees false).holds
    (fun (q, out) => out = 3948 ∧ q.supply > exPool.supply) := by decide +kernel

/-! ### C01: the constant product never falls -/

/-- **C01** (price by input). -/
theorem C01_swap_product {p q : SimplePool} {ti tout : AccountId} {a mo out : Nat}
    {fees : AdminFees} {v : Bool} (h : p.swap ti a tout mo fees v = .ok (q, out)) :
    p.product ≤ q.product ∧ 1 ≤ q.reserve tout ∧ out < p.reserve tout := by
  have h0 := h
  obtain ⟨i, o, -, hi, ho, hio, hr, -, hu⟩ := SimplePool.swap_ok h
  obtain ⟨hX, hY, -, ha, hf, hout⟩ := SimplePool.getReturn_ok hr
  obtain ⟨h1, h2, h3, -⟩ := SimplePool.updatePool_ok hio hu
  have hlt : out < p.amt o := by rw [hout]; exact SimplePool.return_lt _ _ _ _ hX hY
  obtain ⟨⟨-, hk⟩, -⟩ := C02_swap_output_optimal h0
  rw [index_reserve hi, index_reserve ho] at hk
  have hmv := swap_moves h0
  rw [index_reserve ho] at hmv ⊢
  refine ⟨?_, by omega, hlt⟩
  rw [amt_product p hio, amt_product q hio, h1, h3]
  exact SimplePool.return_product _ _ _ _ _ (by omega) h2 hk

/-- **C01** (price by output). -/
theorem C01_swap_by_output_product {p q : SimplePool} {ti tout : AccountId} {out inn : Nat}
    {mi : Option Nat} {fees : AdminFees} {v : Bool}
    (h : p.swapByOutput ti out tout mi fees v = .ok (q, inn)) :
    p.product ≤ q.product ∧ 1 ≤ q.reserve tout ∧ out < p.reserve tout := by
  have h0 := h
  obtain ⟨i, o, -, hi, ho, hio, hr, -, hu⟩ := SimplePool.swapByOutput_ok h
  obtain ⟨hX, hlt, -, ha, hf, hinn⟩ := SimplePool.getReturnByOutput_ok hr
  obtain ⟨h1, h2, h3, -⟩ := SimplePool.updatePool_ok hio hu
  have hk := SimplePool.byOutput_sufficient (p.amt i) (p.amt o) (10000 - p.totalFee) out
    (by omega) hlt
  simp only [← hinn] at hk
  have hmv := swapByOutput_moves h0
  rw [index_reserve ho] at hmv ⊢
  refine ⟨?_, by omega, hlt⟩
  rw [amt_product p hio, amt_product q hio, h1, h3]
  exact SimplePool.return_product _ _ _ _ _ (by omega) h2 hk

/-- **C01** for any history of trades: the product never falls, so nobody can take out of one
reserve without leaving more in the other. -/
theorem C01_trades_product (p : SimplePool) (ts : List Trade) :
    p.product ≤ (p.trades ts).product ∧
    (0 < p.product → (p.trades ts).amt0 ≤ p.amt0 → p.amt1 ≤ (p.trades ts).amt1) ∧
    (0 < p.product → (p.trades ts).amt1 ≤ p.amt1 → p.amt0 ≤ (p.trades ts).amt0) := by
  have key : ∀ (ts : List Trade) (p : SimplePool), p.product ≤ (p.trades ts).product := by
    intro ts
    induction ts with
    | nil => intro p; exact le_refl _
    | cons t ts ih =>
      intro p
      have hstep : ∀ q, p.trade t = .ok q → p.product ≤ q.product := by
        intro q hq
        cases t with
        | exactIn ti a tout mo fees =>
          simp only [SimplePool.trade] at hq
          cases hs : p.swap ti a tout mo fees false with
          | error e => rw [hs] at hq; cases hq
          | ok x => rw [hs] at hq; cases hq; exact (C01_swap_product (out := x.2) hs).1
        | exactOut ti a tout mi fees =>
          simp only [SimplePool.trade] at hq
          cases hs : p.swapByOutput ti a tout mi fees false with
          | error e => rw [hs] at hq; cases hq
          | ok x => rw [hs] at hq; cases hq; exact (C01_swap_by_output_product (inn := x.2) hs).1
      show p.product ≤ ((match p.trade t with | .ok q => q | .error _ => p).trades ts).product
      cases ht : p.trade t with
      | error e => exact ih p
      | ok q => exact le_trans (hstep q ht) (ih q)
  have hk := key ts p
  refine ⟨hk, ?_, ?_⟩ <;> intro hpos hle <;> unfold SimplePool.product at hk hpos
  · have h0 : 0 < p.amt0 := Nat.pos_of_mul_pos_right hpos
    by_contra hlt
    have h1 : (p.trades ts).amt0 * (p.trades ts).amt1 ≤ p.amt0 * (p.trades ts).amt1 :=
      Nat.mul_le_mul_right _ hle
    have h2 : p.amt0 * (p.trades ts).amt1 < p.amt0 * p.amt1 :=
      Nat.mul_lt_mul_of_pos_left (by omega) h0
    omega
  · have h0 : 0 < p.amt1 := Nat.pos_of_mul_pos_left hpos
    by_contra hlt
    have h1 : (p.trades ts).amt0 * (p.trades ts).amt1 ≤ (p.trades ts).amt0 * p.amt1 :=
      Nat.mul_le_mul_left _ hle
    have h2 : (p.trades ts).amt0 * p.amt1 < p.amt0 * p.amt1 :=
      Nat.mul_lt_mul_of_pos_right (by omega) h0
    omega

example : (exPool.swapByOutput exA 3948 exB (some 1000) exFees false).holds
    (fun (q, inn) => inn = 1000 ∧ exPool.product < q.product) := by decide +kernel

example : (exPool.trades [.exactIn exA 1000 exB 0 exFees, .exactOut exB 990 exA none exFees,
    .exactIn exA 5 exLP 0 exFees]).product > exPool.product ∧ 0 < exPool.product := by
  decide +kernel

/-! ### C03: swap by output -/

/-- **C03**. The charged input buys at least the requested output, and any input smaller by two
or more would buy less. -/
theorem C03_swap_by_output_tight {p q : SimplePool} {ti tout : AccountId} {out inn : Nat}
    {mi : Option Nat} {fees : AdminFees} {v : Bool}
    (h : p.swapByOutput ti out tout mi fees v = .ok (q, inn)) :
    (∀ q' mo fees' v' out', p.swap ti inn tout mo fees' v' = .ok (q', out') → out ≤ out') ∧
    (∀ a q' mo fees' v' out', a + 1 < inn →
      p.swap ti a tout mo fees' v' = .ok (q', out') → out' < out) := by
  obtain ⟨i, o, -, hi, ho, hio, hr, -, -⟩ := SimplePool.swapByOutput_ok h
  obtain ⟨hX, hlt, -, hpos, hf, hinn⟩ := SimplePool.getReturnByOutput_ok hr
  constructor
  · intro q' mo fees' v' out' hs
    have hk := SimplePool.byOutput_sufficient (p.amt i) (p.amt o) (10000 - p.totalFee) out
      (by omega) hlt
    simp only [← hinn] at hk
    have hopt := (C02_swap_output_optimal hs).2 out
    rw [index_reserve hi, index_reserve ho] at hopt
    exact hopt ⟨by omega, hk⟩
  · intro a q' mo fees' v' out' ha hs
    have hmin := SimplePool.byOutput_minimal (p.amt i) (p.amt o) (10000 - p.totalFee) out a hlt
      (by omega) (by omega)
    obtain ⟨⟨h1, hk⟩, -⟩ := C02_swap_output_optimal hs
    rw [index_reserve hi, index_reserve ho] at hk
    rw [index_reserve ho] at h1
    by_contra hge
    have : (10000 * p.amt i + a * (10000 - p.totalFee)) * (p.amt o - out') ≤
        (10000 * p.amt i + a * (10000 - p.totalFee)) * (p.amt o - out) :=
      Nat.mul_le_mul_left _ (by omega)
    omega

/-- The forward swap in the first part of C03 exists (it succeeds) whenever the pool's numbers
are 128-bit: both halves of C03 are about runs that happen. -/
example : (exPool.swapByOutput exA 777 exB none exFees false).holds
    (fun (_, inn) => inn = 196 ∧ (exPool.swap exA inn exB 0 exFees false).holds
      (fun (_, out') => out' = 780) ∧ (exPool.swap exA (inn - 2) exB 0 exFees false).holds
      (fun (_, out') => out' = 772)) := by decide +kernel

/-! ### C04: no profitable round trip -/

/-- **C04**. Selling `a` and selling the proceeds back returns at most `a`. -/
theorem C04_round_trip {p p1 p2 : SimplePool} {ti tout : AccountId} {a out back mo mo' : Nat}
    {fees fees' : AdminFees} {v v' : Bool}
    (h1 : p.swap ti a tout mo fees v = .ok (p1, out))
    (h2 : p1.swap tout out ti mo' fees' v' = .ok (p2, back)) : back ≤ a := by
  have k1 := (C01_swap_product h1).1
  have k2 := (C01_swap_product h2).1
  obtain ⟨i, o, -, hi, ho, hio, hr1, -, hu1⟩ := SimplePool.swap_ok h1
  obtain ⟨i', o', -, hi', ho', hio', hr2, -, hu2⟩ := SimplePool.swap_ok h2
  obtain ⟨a1, a2, a3, -, t0, t1, -⟩ := SimplePool.updatePool_ok hio hu1
  obtain ⟨b1, b2, b3, -⟩ := SimplePool.updatePool_ok hio' hu2
  have e1 : p1.tokenIndex ti = .ok i := by
    unfold SimplePool.tokenIndex at *; rw [t0, t1]; exact hi
  have e2 : p1.tokenIndex tout = .ok o := by
    unfold SimplePool.tokenIndex at *; rw [t0, t1]; exact ho
  rw [e2] at hi'; rw [e1] at ho'
  cases hi'; cases ho'
  rw [amt_product p hio, amt_product p1 hio] at k1
  rw [amt_product p1 hio, amt_product p2 hio, b1, b3] at k2
  have hY := (SimplePool.getReturn_ok hr1).2.1
  rw [a3] at k2 k1
  rw [a1] at k1 k2 b2
  have hYeq : p.amt o - out + out = p.amt o := by omega
  rw [hYeq] at k2
  by_contra hlt
  have : (p.amt i + a - back) * p.amt o < p.amt i * p.amt o :=
    Nat.mul_lt_mul_of_pos_right (by omega) hY
  omega

example : (exPool.swap exA 1000 exB 0 exFees false).holds
    (fun (p1, out) => (p1.swap exB out exA 0 exFees false).holds
      (fun (_, back) => back = 993)) := by decide +kernel

/-! ### C05: splitting a trade -/

/-- **C05**. Two consecutive swaps never buy more than one swap of the total. -/
theorem C05_split {p p1 p2 q : SimplePool} {ti tout : AccountId} {a b o1 o2 o12 m1 m2 m12 : Nat}
    {f1 f2 f12 : AdminFees} {v1 v2 v12 : Bool}
    (h1 : p.swap ti a tout m1 f1 v1 = .ok (p1, o1))
    (h2 : p1.swap ti b tout m2 f2 v2 = .ok (p2, o2))
    (h : p.swap ti (a + b) tout m12 f12 v12 = .ok (q, o12)) : o1 + o2 ≤ o12 := by
  have opt1 := (C02_swap_output_optimal h1).1
  have opt2 := (C02_swap_output_optimal h2).1
  have opt := (C02_swap_output_optimal h).2 (o1 + o2)
  obtain ⟨m1, m2, -, -, hfee⟩ := swap_moves h1
  have hX : 0 < p.reserve ti := by
    obtain ⟨i, o, -, hi, -, -, hr1, -, -⟩ := SimplePool.swap_ok h1
    rw [index_reserve hi]; exact (SimplePool.getReturn_ok hr1).1
  have hf : p.totalFee ≤ 10000 := by
    obtain ⟨i, o, -, hi, -, -, hr1, -, -⟩ := SimplePool.swap_ok h1
    exact (SimplePool.getReturn_ok hr1).2.2.2.2.1
  apply opt
  rw [m1, hfee] at opt2
  have hY1 : p1.reserve tout = p.reserve tout - o1 := by omega
  rw [hY1] at opt2
  unfold FeeProductKept at *
  obtain ⟨l1, k1⟩ := opt1
  obtain ⟨l2, k2⟩ := opt2
  generalize p.reserve ti = X at *
  generalize p.reserve tout = Y at *
  have hg : 10000 - p.totalFee ≤ 10000 := by omega
  generalize 10000 - p.totalFee = g at *
  refine ⟨by omega, ?_⟩
  have hd : Y - (o1 + o2) = Y - o1 - o2 := by omega
  rw [hd]
  generalize Y - o1 = Y1 at *
  generalize Y1 - o2 = Y2 at *
  -- N = 10000 X;  N Y ≤ (N + a g) Y1;  (N + 10000 a) Y1 ≤ (N + 10000 a + b g) Y2
  have hpos : 0 < 10000 * X + 10000 * a := by omega
  have k2' : (10000 * X + 10000 * a) * Y1 ≤ (10000 * X + 10000 * a + b * g) * Y2 := by
    have := k2; nlinarith
  have hcmp : (10000 * X + a * g) * (10000 * X + 10000 * a + b * g) ≤
      (10000 * X + 10000 * a) * (10000 * X + (a + b) * g) := by
    have hge : a * g ≤ 10000 * a := by nlinarith [Nat.zero_le a]
    nlinarith [Nat.zero_le (a * b * g), Nat.mul_le_mul_right (b * g) hge]
  have : (10000 * X + 10000 * a) * (10000 * X * Y) ≤
      (10000 * X + 10000 * a) * ((10000 * X + (a + b) * g) * Y2) := by
    calc (10000 * X + 10000 * a) * (10000 * X * Y)
        ≤ (10000 * X + 10000 * a) * ((10000 * X + a * g) * Y1) := Nat.mul_le_mul_left _ k1
      _ = (10000 * X + a * g) * ((10000 * X + 10000 * a) * Y1) := by ring
      _ ≤ (10000 * X + a * g) * ((10000 * X + 10000 * a + b * g) * Y2) :=
          Nat.mul_le_mul_left _ k2'
      _ = ((10000 * X + a * g) * (10000 * X + 10000 * a + b * g)) * Y2 := by ring
      _ ≤ ((10000 * X + 10000 * a) * (10000 * X + (a + b) * g)) * Y2 :=
          Nat.mul_le_mul_right _ hcmp
      _ = (10000 * X + 10000 * a) * ((10000 * X + (a + b) * g) * Y2) := by ring
  exact Nat.le_of_mul_le_mul_left this hpos

example : (exPool.swap exA 500 exB 0 exFees false).holds (fun (p1, o1) => o1 = 1984 ∧
    (p1.swap exA 700 exB 0 exFees false).holds (fun (_, o2) => o2 = 2744 ∧
    (exPool.swap exA (500 + 700) exB 0 exFees false).holds (fun (_, o12) => o12 = 4729))) := by
  decide +kernel

/-! ### C06: adding liquidity -/

/-- Facts about the proportional branch of `add_liquidity`, for one token. -/
theorem add_one {S P a fair b : Nat} (hS : 0 < S) (hP : P ≠ 0) (ha : 0 < a)
    (hfair : fair ≤ (a - 1) * S / P) (hb : b = P * fair / S + 1) :
    1 ≤ b ∧ b ≤ a ∧ P * (S + fair) ≤ (P + b) * S := by
  have h1 : fair * P ≤ (a - 1) * S := (Nat.le_div_iff_mul_le (by omega)).1 hfair
  have h2 : P * fair / S ≤ a - 1 := by
    apply Nat.div_le_of_le_mul
    nlinarith
  refine ⟨by rw [hb]; exact Nat.le_add_left 1 _, ?_, ?_⟩
  · rw [hb]; generalize P * fair / S = x at *; omega
  have h3 := Nat.div_add_mod (P * fair) S
  have h4 := Nat.mod_lt (P * fair) hS
  rw [hb]
  nlinarith

theorem fairRatio_ok {S P a r : Nat} (h : SimplePool.fairRatio S P a = .ok r) :
    0 < a ∧ P ≠ 0 ∧ r = (a - 1) * S / P := by
  unfold SimplePool.fairRatio at h; unpack at h; exact ⟨h.1, h.2.2.1, h.2.2.2⟩

theorem fairAmount_ok {S P f b : Nat} (h : SimplePool.fairAmount S P f = .ok b) :
    b = P * f / S + 1 := by
  unfold SimplePool.fairAmount at h; unpack at h; omega

/-- What a successful `add_liquidity` on a pool with shares did. -/
theorem addLiquidity_ok {p q : SimplePool} {s : AccountId} {am taken : List Nat} {n : Nat}
    {v : Bool} (h : p.addLiquidity s am v = .ok (q, taken, n)) :
    ∃ a0 a1 b0 b1, am = [a0, a1] ∧ taken = [b0, b1] ∧ 0 < n ∧
      q.amt0 = p.amt0 + b0 ∧ q.amt1 = p.amt1 + b1 ∧ q.supply = p.supply + n ∧
      q.amt0 < 2 ^ 128 ∧ q.amt1 < 2 ^ 128 ∧ q.supply < 2 ^ 128 ∧
      q.tok0 = p.tok0 ∧ q.tok1 = p.tok1 ∧ q.totalFee = p.totalFee ∧
      q.shares = (if v then p.shares else p.shares.insert s (p.shares.getD s 0 + n)) ∧
      0 < a0 ∧ 0 < a1 ∧
      ((0 < p.supply ∧ p.amt0 ≠ 0 ∧ p.amt1 ≠ 0 ∧
          n = min ((a0 - 1) * p.supply / p.amt0) ((a1 - 1) * p.supply / p.amt1) ∧
          b0 = p.amt0 * n / p.supply + 1 ∧ b1 = p.amt1 * n / p.supply + 1) ∨
       (p.supply = 0 ∧ b0 = a0 ∧ b1 = a1 ∧ n = INIT_SHARES_SUPPLY)) := by
  unfold SimplePool.addLiquidity at h
  split at h
  · rename_i a0 a1
    unpack at h
    obtain ⟨p1, b0, b1, s1, hb, p2, hm, hpos, rfl, rfl, rfl⟩ := h
    obtain ⟨hq, hlt⟩ := SimplePool.mintShares_ok hm
    have hs0 : s1 ≠ 0 := by omega
    refine ⟨a0, a1, b0, b1, rfl, rfl, hpos, ?_⟩
    split at hb
    · rename_i hsup
      unpack at hb
      obtain ⟨r0, hr0, r1, hr1, c0, hc0, hn0, c1, hc1, hn1, hf, rfl, rfl, rfl, hs1⟩ := hb
      rw [hs1] at hc0 hc1 hf
      obtain ⟨ha0, hP0, rfl⟩ := fairRatio_ok hr0
      obtain ⟨ha1, hP1, rfl⟩ := fairRatio_ok hr1
      have hfair : s1 = min ((a0 - 1) * p.supply / p.amt0) ((a1 - 1) * p.supply / p.amt1) := by
        generalize (a0 - 1) * p.supply / p.amt0 = x at *
        generalize (a1 - 1) * p.supply / p.amt1 = y at *
        omega
      have e0 := fairAmount_ok hc0
      have e1 := fairAmount_ok hc1
      subst hq
      refine ⟨rfl, rfl, rfl, hn0, hn1, ?_, rfl, rfl, rfl, ?_, ha0, ha1,
        Or.inl ⟨hsup, hP0, hP1, hfair, e0, e1⟩⟩
      · simpa [hs0] using hlt
      · cases v <;> simp [hs0]
    · rename_i hsup
      unpack at hb
      obtain ⟨ha0, hn0, ha1, hn1, rfl, rfl, rfl, rfl⟩ := hb
      subst hq
      refine ⟨rfl, rfl, rfl, hn0, hn1, ?_, rfl, rfl, rfl, ?_, ha0, ha1,
        Or.inr ⟨by omega, rfl, rfl, rfl⟩⟩
      · simpa [hs0] using hlt
      · cases v <;> simp [hs0]
  · cases h

/-- **C06**. Adding liquidity to a pool with shares takes between one unit and the offered amount
of each token, mints a positive number `n` of shares, which is the largest number the offer pays
for, and does not reduce the reserves per share. -/
theorem C06_add_liquidity {p q : SimplePool} {s : AccountId} {a0 a1 : Nat} {taken : List Nat}
    {n : Nat} (hs : 0 < p.supply) (h : p.addLiquidity s [a0, a1] false = .ok (q, taken, n)) :
    ∃ b0 b1, taken = [b0, b1] ∧ 1 ≤ b0 ∧ b0 ≤ a0 ∧ 1 ≤ b1 ∧ b1 ≤ a1 ∧ 0 < n ∧
      q.amt0 = p.amt0 + b0 ∧ q.amt1 = p.amt1 + b1 ∧
      q.supply = p.supply + n ∧ q.shareBalanceOf s = p.shareBalanceOf s + n ∧
      (∀ x, x ≠ s → q.shareBalanceOf x = p.shareBalanceOf x) ∧
      p.amt0 * q.supply ≤ q.amt0 * p.supply ∧ p.amt1 * q.supply ≤ q.amt1 * p.supply ∧
      (∀ n', p.amt0 * n' ≤ (a0 - 1) * p.supply → p.amt1 * n' ≤ (a1 - 1) * p.supply → n' ≤ n) := by
  obtain ⟨a0', a1', b0, b1, ham, ht, hn, e0, e1, es, -, -, -, -, -, -, esh, ha0, ha1, hcase⟩ :=
    addLiquidity_ok h
  cases ham
  rcases hcase with ⟨-, hP0, hP1, hmin, hb0, hb1⟩ | ⟨h0, -⟩
  · have k0 := add_one hs hP0 ha0 (by omega : n ≤ (a0 - 1) * p.supply / p.amt0) hb0
    have k1 := add_one hs hP1 ha1 (by omega : n ≤ (a1 - 1) * p.supply / p.amt1) hb1
    refine ⟨b0, b1, ht, k0.1, k0.2.1, k1.1, k1.2.1, hn, e0, e1, es, ?_, ?_, ?_, ?_, ?_⟩
    · simp [SimplePool.shareBalanceOf, esh, FMap.getD, FMap.get?_insert_self]
    · intro x hx
      simp [SimplePool.shareBalanceOf, esh, FMap.getD, FMap.get?_insert_ne _ _ hx]
    · rw [es, e0]; exact k0.2.2
    · rw [es, e1]; exact k1.2.2
    · intro n' h0 h1
      have g0 : n' ≤ (a0 - 1) * p.supply / p.amt0 :=
        (Nat.le_div_iff_mul_le (by omega)).2 (by rw [Nat.mul_comm]; exact h0)
      have g1 : n' ≤ (a1 - 1) * p.supply / p.amt1 :=
        (Nat.le_div_iff_mul_le (by omega)).2 (by rw [Nat.mul_comm]; exact h1)
      omega
  · omega

/-- **C06**, first deposit: an empty pool takes exactly what is offered and mints the fixed initial
supply. -/
theorem C06_first_deposit {p q : SimplePool} {s : AccountId} {a0 a1 : Nat} {taken : List Nat}
    {n : Nat} (hs : p.supply = 0) (h : p.addLiquidity s [a0, a1] false = .ok (q, taken, n)) :
    taken = [a0, a1] ∧ 0 < a0 ∧ 0 < a1 ∧ n = 10 ^ 24 ∧ q.supply = 10 ^ 24 ∧
    q.amt0 = p.amt0 + a0 ∧ q.amt1 = p.amt1 + a1 ∧
    q.shareBalanceOf s = p.shareBalanceOf s + 10 ^ 24 := by
  obtain ⟨a0', a1', b0, b1, ham, ht, hn, e0, e1, es, -, -, -, -, -, -, esh, ha0, ha1, hcase⟩ :=
    addLiquidity_ok h
  cases ham
  rcases hcase with ⟨h0, -⟩ | ⟨-, rfl, rfl, hn'⟩
  · omega
  · have : n = 10 ^ 24 := hn'
    refine ⟨ht, ha0, ha1, this, by omega, e0, e1, ?_⟩
    simp [SimplePool.shareBalanceOf, esh, FMap.getD, FMap.get?_insert_self, this]

example : 0 < exPool.supply ∧ (exPool.addLiquidity exLP [500, 1800] false).holds
    (fun (q, taken, n) => taken = [450, 1799] ∧ n = 4497 ∧ q.supply = 1004497) := by decide +kernel

example : ({ exPool with supply := 0, amt0 := 0, amt1 := 0 } : SimplePool).supply = 0 ∧
    (({ exPool with supply := 0, amt0 := 0, amt1 := 0 } : SimplePool).addLiquidity exLP
      [500, 1800] false).holds (fun (_, taken, _) => taken = [500, 1800]) := by decide +kernel

/-! ### C07: removing liquidity (simple pool) -/

theorem payOut_ok {P n S m a r : Nat} (h : SimplePool.payOut P n S m = .ok (a, r)) :
    0 < S ∧ a = P * n / S ∧ m ≤ a ∧ a ≤ P ∧ r = P - a := by
  unfold SimplePool.payOut at h; unpack at h
  obtain ⟨-, h1, -, h2, h3, h4, h5⟩ := h
  subst h4 h5
  exact ⟨by omega, rfl, h2, h3, rfl⟩

theorem removeLiquidity_ok {p q : SimplePool} {s : AccountId} {n : Nat} {mins paid : List Nat}
    {v : Bool} (h : p.removeLiquidity s n mins v = .ok (q, paid)) :
    ∃ m0 m1 r0 r1, mins = [m0, m1] ∧ paid = [r0, r1] ∧ 0 < p.supply ∧ n ≤ p.supply ∧
      r0 = p.amt0 * n / p.supply ∧ r1 = p.amt1 * n / p.supply ∧ m0 ≤ r0 ∧ m1 ≤ r1 ∧
      r0 ≤ p.amt0 ∧ r1 ≤ p.amt1 ∧
      q.amt0 = p.amt0 - r0 ∧ q.amt1 = p.amt1 - r1 ∧ q.supply = p.supply - n ∧
      q.tok0 = p.tok0 ∧ q.tok1 = p.tok1 ∧ q.totalFee = p.totalFee ∧
      (v = true → q.shares = p.shares) ∧
      (v = false → ∃ bal, p.shares.get? s = some bal ∧ n ≤ bal ∧
        q.shares = p.shares.insert s (bal - n)) := by
  unfold SimplePool.removeLiquidity at h
  split at h
  · rename_i m0 m1
    unpack at h
    obtain ⟨p1, hp1, r0, n0, h0, r1, n1, h1, hn, rfl, rfl⟩ := h
    have hp1' : p1.amt0 = p.amt0 ∧ p1.amt1 = p.amt1 ∧ p1.supply = p.supply ∧ p1.tok0 = p.tok0 ∧
        p1.tok1 = p.tok1 ∧ p1.totalFee = p.totalFee ∧ (v = true → p1.shares = p.shares) ∧
        (v = false → ∃ bal, p.shares.get? s = some bal ∧ n ≤ bal ∧
          p1.shares = p.shares.insert s (bal - n)) := by
      split at hp1
      · cases hp1; simp_all
      · unpack at hp1
        obtain ⟨bal, hb, hle, rfl⟩ := hp1
        simp_all
    obtain ⟨e0, e1, es, t0, t1, tf, hv1, hv2⟩ := hp1'
    rw [e0, es] at h0; rw [e1, es] at h1; rw [es] at hn
    obtain ⟨hS, ha0, hm0, hle0, hr0⟩ := payOut_ok h0
    obtain ⟨-, ha1, hm1, hle1, hr1⟩ := payOut_ok h1
    exact ⟨m0, m1, r0, r1, rfl, rfl, hS, hn, ha0, ha1, hm0, hm1, hle0, hle1, hr0, hr1,
      by simp [es], t0, t1, tf, hv1, hv2⟩
  · cases h

/-- Pro-rata payment of one token: `r` is the exact part rounded down, and what stays per
remaining share does not fall. -/
def PaidProRata (reserve supply n r reserve' supply' : Nat) : Prop :=
  r * supply ≤ reserve * n ∧ reserve * n < (r + 1) * supply ∧
  reserve' = reserve - r ∧ supply' = supply - n ∧ r ≤ reserve ∧
  reserve * supply' ≤ reserve' * supply

theorem paidProRata_of {P S n r P' S' : Nat} (hS : 0 < S) (hn : n ≤ S) (hr : r = P * n / S)
    (hle : r ≤ P) (hP' : P' = P - r) (hS' : S' = S - n) : PaidProRata P S n r P' S' := by
  have h1 : r * S ≤ P * n := by rw [hr]; exact Nat.div_mul_le_self _ _
  refine ⟨h1, ?_, hP', hS', hle, ?_⟩
  · rw [hr]
    have := Nat.div_add_mod (P * n) S
    have := Nat.mod_lt (P * n) hS
    nlinarith
  · subst hP' hS'
    obtain ⟨d, rfl⟩ := Nat.exists_eq_add_of_le hn
    obtain ⟨e, rfl⟩ := Nat.exists_eq_add_of_le hle
    simp only [Nat.add_sub_cancel_left] at *
    nlinarith

/-- **C07** (simple pool). Removing `n` shares pays each token pro rata rounded down, at least the
stated minimum, burns exactly `n` shares of the caller and touches no other holder. -/
theorem C07_remove_liquidity_simple {p q : SimplePool} {s : AccountId} {n : Nat}
    {mins paid : List Nat} (h : p.removeLiquidity s n mins false = .ok (q, paid)) :
    ∃ m0 m1 r0 r1, mins = [m0, m1] ∧ paid = [r0, r1] ∧ m0 ≤ r0 ∧ m1 ≤ r1 ∧
      PaidProRata p.amt0 p.supply n r0 q.amt0 q.supply ∧
      PaidProRata p.amt1 p.supply n r1 q.amt1 q.supply ∧
      q.shareBalanceOf s + n = p.shareBalanceOf s ∧
      ∀ x, x ≠ s → q.shareBalanceOf x = p.shareBalanceOf x := by
  obtain ⟨m0, m1, r0, r1, hm, hp, hS, hn, e0, e1, hm0, hm1, l0, l1, a0, a1, es, -, -, -, -, hv⟩ :=
    removeLiquidity_ok h
  obtain ⟨bal, hb, hle, hsh⟩ := hv rfl
  refine ⟨m0, m1, r0, r1, hm, hp, hm0, hm1, paidProRata_of hS hn e0 l0 a0 es,
    paidProRata_of hS hn e1 l1 a1 es, ?_, ?_⟩
  · simp only [SimplePool.shareBalanceOf, FMap.getD, hsh, FMap.get?_insert_self, hb,
      Option.getD_some]
    omega
  · intro x hx
    simp [SimplePool.shareBalanceOf, FMap.getD, hsh, FMap.get?_insert_ne _ _ hx]

example : (exPool.removeLiquidity exLP 333333 [33333, 1] false).holds
    (fun (q, paid) => paid = [33333, 133333] ∧ q.supply = 666667) := by decide +kernel

/-! ### The pool invariant over all histories (C09, simple part) -/

/-- A simple pool is sound: the supply is the sum of the holdings; it is empty of shares exactly
when it is empty of tokens; the fee is below 100%; numbers fit their types. -/
structure SimplePool.Sound (p : SimplePool) : Prop where
  sum : p.supply = sumVals p.shares
  pos : 0 < p.supply → 0 < p.amt0 ∧ 0 < p.amt1
  zero : p.supply = 0 → p.amt0 = 0 ∧ p.amt1 = 0
  fee : p.totalFee < 10000
  amt0 : p.amt0 < 2 ^ 128
  amt1 : p.amt1 < 2 ^ 128
  supply : p.supply < 2 ^ 128

theorem div_lt_of_lt {P n S : Nat} (hP : 0 < P) (hn : n < S) : P * n / S < P := by
  rw [Nat.div_lt_iff_lt_mul (by omega)]
  exact Nat.mul_lt_mul_of_pos_left hn hP

theorem SimplePool.Sound.remove {p q : SimplePool} {s : AccountId} {n : Nat}
    {mins paid : List Nat} (hp : p.Sound)
    (h : p.removeLiquidity s n mins false = .ok (q, paid)) : q.Sound := by
  obtain ⟨m0, m1, r0, r1, -, -, hS, hn, e0, e1, hm0, hm1, l0, l1, a0, a1, es, -, -, ef, -, hv⟩ :=
    removeLiquidity_ok h
  obtain ⟨bal, hb, hle, hsh⟩ := hv rfl
  have hpos := hp.pos hS
  refine ⟨?_, ?_, ?_, by rw [ef]; exact hp.fee, by have := hp.amt0; omega,
    by have := hp.amt1; omega, by have := hp.supply; omega⟩
  · have := sumVals_insert p.shares s (bal - n)
    rw [getD_of_get? hb] at this
    rw [es, hsh, hp.sum]; omega
  · intro h'
    have hlt : n < p.supply := by omega
    have g0 := div_lt_of_lt hpos.1 hlt
    have g1 := div_lt_of_lt hpos.2 hlt
    omega
  · intro h'
    have : n = p.supply := by omega
    subst this
    rw [Nat.mul_div_cancel _ hS] at e0 e1
    omega

theorem SimplePool.Sound.add {p q : SimplePool} {s : AccountId} {am taken : List Nat} {n : Nat}
    (hp : p.Sound) (h : p.addLiquidity s am false = .ok (q, taken, n)) : q.Sound := by
  obtain ⟨a0, a1, b0, b1, -, -, hn, e0, e1, es, l0, l1, ls, -, -, ef, esh, ha0, ha1, hc⟩ :=
    addLiquidity_ok h
  refine ⟨?_, ?_, ?_, by rw [ef]; exact hp.fee, l0, l1, ls⟩
  · have := sumVals_insert p.shares s (p.shares.getD s 0 + n)
    rw [es, esh, hp.sum]
    simp only [Bool.false_eq_true, if_false]
    omega
  · intro _
    rcases hc with ⟨-, h0, h1, -⟩ | ⟨-, rfl, rfl, -⟩ <;> omega
  · intro h'; omega

theorem SimplePool.Sound.update {p q : SimplePool} {i o : Bool} {a r : Nat} {fees : AdminFees}
    (hp : p.Sound) (hio : i ≠ o) (hpos : 0 < p.amt i) (hr : r < p.amt o)
    (hs : q.supply < 2 ^ 128)
    (h : p.updatePool i a o r fees false = .ok q) : q.Sound := by
  obtain ⟨e1, -, e2, hlt, -, -, ef, s0, s1, m, -, -, -, es, hsum, -, -⟩ :=
    SimplePool.updatePool_ok hio h
  have hsup : 0 < p.supply := by
    rcases Nat.eq_zero_or_pos p.supply with h0 | h0
    · have := hp.zero h0; cases i <;> simp_all [SimplePool.amt]
    · exact h0
  have b0 := hp.amt0
  have b1 := hp.amt1
  have hall : 0 < q.amt0 ∧ 0 < q.amt1 ∧ q.amt0 < 2 ^ 128 ∧ q.amt1 < 2 ^ 128 := by
    cases i <;> cases o <;> simp_all [SimplePool.amt] <;> omega
  refine ⟨?_, fun _ => ⟨hall.1, hall.2.1⟩, fun h' => by omega, by rw [ef]; exact hp.fee,
    hall.2.2.1, hall.2.2.2, hs⟩
  rw [es, hsum rfl, hp.sum]

theorem updatePool_supply_lt {p q : SimplePool} {i o : Bool} {a r : Nat} {fees : AdminFees}
    {v : Bool} (hp : p.supply < 2 ^ 128) (h : p.updatePool i a o r fees v = .ok q) :
    q.supply < 2 ^ 128 := by
  have hset : ∀ (p : SimplePool) (x : Bool) (y : Nat), (p.setAmt x y).supply = p.supply := by
    intro p x y; cases x <;> rfl
  have hmint : ∀ (p q : SimplePool) (a : AccountId) (s : Nat), p.supply < 2 ^ 128 →
      p.mintShares a s v = .ok q → q.supply < 2 ^ 128 := by
    intro p q a s hp h
    obtain ⟨rfl, hc⟩ := SimplePool.mintShares_ok h
    rcases hc with rfl | hc
    · simpa using hp
    · exact hc
  unfold SimplePool.updatePool at h
  unpack at h
  obtain ⟨-, s0, hs0, hlt, hr, -, s1, hs1, hle, -, h⟩ := h
  split at h
  · unpack at h
    obtain ⟨-, hb, hd, -, rs, hrs, p2, hp2, hle2, hq⟩ := h
    refine hmint _ _ _ _ ?_ hq
    split at hp2
    · split at hp2
      · exact hmint _ _ _ _ (by rw [hset, hset]; exact hp) hp2
      · cases hp2; rw [hset, hset]; exact hp
    · cases hp2; rw [hset, hset]; exact hp
  · cases h; rw [hset, hset]; exact hp

theorem SimplePool.Sound.swap {p q : SimplePool} {ti tout : AccountId} {a mo out : Nat}
    {fees : AdminFees} (hp : p.Sound) (h : p.swap ti a tout mo fees false = .ok (q, out)) :
    q.Sound := by
  obtain ⟨i, o, -, hi, ho, hio, hr, -, hu⟩ := SimplePool.swap_ok h
  obtain ⟨hX, hY, -, ha, hf, hout⟩ := SimplePool.getReturn_ok hr
  exact hp.update hio hX (by rw [hout]; exact SimplePool.return_lt _ _ _ _ hX hY)
    (updatePool_supply_lt hp.supply hu) hu

theorem SimplePool.Sound.swapByOutput {p q : SimplePool} {ti tout : AccountId} {out inn : Nat}
    {mi : Option Nat} {fees : AdminFees} (hp : p.Sound)
    (h : p.swapByOutput ti out tout mi fees false = .ok (q, inn)) : q.Sound := by
  obtain ⟨i, o, -, hi, ho, hio, hr, -, hu⟩ := SimplePool.swapByOutput_ok h
  obtain ⟨hX, hlt, -⟩ := SimplePool.getReturnByOutput_ok hr
  exact hp.update hio hX hlt (updatePool_supply_lt hp.supply hu) hu

theorem SimplePool.Sound.transfer {p q : SimplePool} {s r : AccountId} {n : Nat} (hp : p.Sound)
    (h : p.shareTransfer s r n = .ok q) : q.Sound := by
  unfold SimplePool.shareTransfer at h
  unpack at h
  obtain ⟨bal, hb, hle, bo, hbo, -, rfl⟩ := h
  refine ⟨?_, hp.pos, hp.zero, hp.fee, hp.amt0, hp.amt1, hp.supply⟩
  have h1 := sumVals_insert p.shares s (bal - n)
  have h2 := sumVals_insert (p.shares.insert s (bal - n)) r (bo + n)
  rw [getD_of_get? hb] at h1
  rw [getD_of_get? hbo] at h2
  have := hp.sum
  simp only
  omega

theorem SimplePool.Sound.register {p q : SimplePool} {a : AccountId} (hp : p.Sound)
    (h : p.shareRegister a = .ok q) : q.Sound := by
  unfold SimplePool.shareRegister at h
  unpack at h
  obtain ⟨hc, rfl⟩ := h
  refine ⟨?_, hp.pos, hp.zero, hp.fee, hp.amt0, hp.amt1, hp.supply⟩
  have h1 := sumVals_insert p.shares a 0
  have : p.shares.getD a 0 = 0 := by
    unfold FMap.contains at hc
    unfold FMap.getD
    cases hg : p.shares.get? a <;> simp_all
  have := hp.sum
  simp only
  omega

theorem SimplePool.Sound.unregister {p q : SimplePool} {a : AccountId} (hp : p.Sound)
    (h : p.shareUnregister a = .ok q) : q.Sound := by
  unfold SimplePool.shareUnregister at h
  unpack at h
  obtain ⟨x, hb, rfl, rfl⟩ := h
  refine ⟨?_, hp.pos, hp.zero, hp.fee, hp.amt0, hp.amt1, hp.supply⟩
  have h1 := sumVals_erase p.shares a
  rw [getD_of_get? hb] at h1
  have := hp.sum
  simp only
  omega

theorem SimplePool.Sound.run {p q : SimplePool} {op : SimpleOp} (hp : p.Sound)
    (h : p.run op = .ok q) : q.Sound := by
  have hmap : ∀ {α : Type} (x : R (SimplePool × α)), (·.1) <$> x = .ok q →
      ∃ y, x = .ok (q, y) := by
    intro α x hx
    cases x with
    | error e => cases hx
    | ok x => cases hx; exact ⟨x.2, rfl⟩
  cases op with
  | register a => exact hp.register h
  | unregister a => exact hp.unregister h
  | transfer s r n => exact hp.transfer h
  | add s am => obtain ⟨y, hy⟩ := hmap _ h; exact hp.add hy
  | remove s n m => obtain ⟨y, hy⟩ := hmap _ h; exact hp.remove hy
  | trade t =>
    cases t with
    | exactIn ti a tout mo fees => obtain ⟨y, hy⟩ := hmap _ h; exact hp.swap hy
    | exactOut ti a tout mi fees => obtain ⟨y, hy⟩ := hmap _ h; exact hp.swapByOutput hy
  | setFee f =>
    simp only [SimplePool.run] at h
    split at h
    · cases h
      exact ⟨hp.sum, hp.pos, hp.zero, by assumption, hp.amt0, hp.amt1, hp.supply⟩
    · cases h

/-- **C09** (simple pools). After any history of a newly created simple pool the reported supply is
the sum of all share balances; moreover the pool has shares exactly when it has both tokens, so it
can always be traded and redeemed. -/
theorem C09_simple_supply (tokens : List AccountId) (fee : Nat) (p : SimplePool)
    (hnew : SimplePool.new tokens fee = .ok p) (ops : List SimpleOp) :
    (p.history ops).supply = sumVals (p.history ops).shares ∧
    ((p.history ops).supply = 0 ↔ (p.history ops).amt0 = 0 ∧ (p.history ops).amt1 = 0) ∧
    (0 < (p.history ops).supply ↔ 0 < (p.history ops).amt0 ∧ 0 < (p.history ops).amt1) ∧
    (p.history ops).totalFee < 10000 := by
  have h0 : p.Sound := by
    unfold SimplePool.new at hnew
    unpack at hnew
    obtain ⟨hf, hnew⟩ := hnew
    split at hnew
    · cases hnew
      exact ⟨rfl, by simp, by simp, hf, by simp, by simp, by simp⟩
    · cases hnew
  have hall : ∀ (ops : List SimpleOp) (p : SimplePool), p.Sound → (p.history ops).Sound := by
    intro ops
    induction ops with
    | nil => intro p hp; exact hp
    | cons op ops ih =>
      intro p hp
      show ((match p.run op with | .ok q => q | .error _ => p).history ops).Sound
      cases hr : p.run op with
      | error e => exact ih p hp
      | ok q => exact ih q (hp.run hr)
  have hs := hall ops p h0
  have h1 := hs.pos
  have h2 := hs.zero
  refine ⟨hs.sum, ⟨h2, fun h => ?_⟩, ⟨h1, fun h => ?_⟩, hs.fee⟩
  · by_contra hne; have := h1 (by omega); omega
  · by_contra hne; have := h2 (by omega); omega

example : (SimplePool.new [exA, exB] 30).holds (fun p =>
    (p.history [.register exRef, .add exLP [100000, 400000],
      .trade (.exactIn exA 1000 exB 1 exFees), .transfer exLP exRef (10 ^ 23),
      .remove exRef (10 ^ 22) [0, 0]]).supply = 990003000000000000000000) := by
  decide +kernel

/-! ### C08: add then remove -/

/-- **C08**. Adding liquidity and removing the minted shares at once returns at most what was taken
of each token. -/
theorem C08_add_remove {p p1 p2 : SimplePool} {s s' : AccountId} {am taken mins paid : List Nat}
    {n : Nat} {v v' : Bool} (hp : p.Sound)
    (h1 : p.addLiquidity s am v = .ok (p1, taken, n))
    (h2 : p1.removeLiquidity s' n mins v' = .ok (p2, paid)) :
    ∃ b0 b1 r0 r1, taken = [b0, b1] ∧ paid = [r0, r1] ∧ r0 ≤ b0 ∧ r1 ≤ b1 := by
  obtain ⟨a0, a1, b0, b1, -, ht, hn, e0, e1, es, -, -, -, -, -, -, -, ha0, ha1, hc⟩ :=
    addLiquidity_ok h1
  obtain ⟨m0, m1, r0, r1, -, hpd, hS, hn', f0, f1, -⟩ := removeLiquidity_ok h2
  refine ⟨b0, b1, r0, r1, ht, hpd, ?_⟩
  rcases hc with ⟨hsup, -, -, -, hb0, hb1⟩ | ⟨h0, -, -, -⟩
  · have key : ∀ P b : Nat, b = P * n / p.supply + 1 →
        (P + b) * n / (p.supply + n) ≤ b := by
      intro P b hb
      rw [Nat.div_le_iff_le_mul_add_pred (by omega)]
      have h3 := Nat.div_add_mod (P * n) p.supply
      have h4 := Nat.mod_lt (P * n) hsup
      have : P * n ≤ b * p.supply := by rw [hb]; nlinarith
      nlinarith
    rw [f0, f1, e0, e1, es]
    exact ⟨key _ _ hb0, key _ _ hb1⟩
  · have hz := hp.zero h0
    rw [h0] at es
    rw [f0, f1, e0, e1, hz.1, hz.2, es]
    simp only [Nat.zero_add]
    rw [Nat.mul_div_cancel _ hn, Nat.mul_div_cancel _ hn]
    omega

theorem exPool_sound : exPool.Sound := by
  constructor <;> decide +kernel

example : exPool.Sound ∧ (exPool.addLiquidity exLP [500, 1800] false).holds
    (fun (p1, taken, n) => taken = [450, 1799] ∧ (p1.removeLiquidity exLP n [0, 0] false).holds
      (fun (_, paid) => paid = [449, 1798])) := ⟨exPool_sound, by decide +kernel⟩

/-! ### C10: protocol fees -/

/-- **C10**. With an admin fee of at most 100%, a swap never lowers the (floored) square root of the
reserve product per share, whatever shares are minted to exchange and referral. -/
theorem C10_fee_minting {p q : SimplePool} {ti tout : AccountId} {a mo out : Nat}
    {fees : AdminFees} {v : Bool} (hb : fees.adminFeeBps ≤ 10000)
    (h : p.swap ti a tout mo fees v = .ok (q, out)) :
    Nat.sqrt p.product * q.supply ≤ Nat.sqrt q.product * p.supply ∧ p.supply ≤ q.supply := by
  obtain ⟨i, o, -, hi, ho, hio, hr, -, hu⟩ := SimplePool.swap_ok h
  obtain ⟨-, -, -, -, -, -, -, s0, s1, m, hs0, hs1, hle, es, -, -, hm⟩ :=
    SimplePool.updatePool_ok hio hu
  rw [← amt_product p hio] at hs0
  rw [← amt_product q hio] at hs1
  have e0 : s0 = Nat.sqrt p.product := Nat.eq_sqrt.2 (integerSqrt_ok hs0)
  have e1 : s1 = Nat.sqrt q.product := Nat.eq_sqrt.2 (integerSqrt_ok hs1)
  rw [← e0, ← e1, es]
  refine ⟨?_, by omega⟩
  rcases hm with rfl | ⟨hb0, hd, hm⟩
  · exact Nat.mul_le_mul_right _ hle
  · have hden : s0 ≤ s0 * 10000 / fees.adminFeeBps := by
      rw [Nat.le_div_iff_mul_le hb0]; exact Nat.mul_le_mul_left _ hb
    have h1 : m * (s0 * 10000 / fees.adminFeeBps) ≤ (s1 - s0) * p.supply := by
      rw [hm]; exact Nat.div_mul_le_self _ _
    have h2 : m * s0 ≤ (s1 - s0) * p.supply := le_trans (Nat.mul_le_mul_left _ hden) h1
    obtain ⟨d, rfl⟩ := Nat.exists_eq_add_of_le hle
    rw [Nat.add_sub_cancel_left] at h2
    nlinarith

/-- Same for a swap by output. -/
theorem C10_fee_minting_by_output {p q : SimplePool} {ti tout : AccountId} {out inn : Nat}
    {mi : Option Nat} {fees : AdminFees} {v : Bool} (hb : fees.adminFeeBps ≤ 10000)
    (h : p.swapByOutput ti out tout mi fees v = .ok (q, inn)) :
    Nat.sqrt p.product * q.supply ≤ Nat.sqrt q.product * p.supply ∧ p.supply ≤ q.supply := by
  obtain ⟨i, o, -, hi, ho, hio, hr, -, hu⟩ := SimplePool.swapByOutput_ok h
  obtain ⟨-, -, -, -, -, -, -, s0, s1, m, hs0, hs1, hle, es, -, -, hm⟩ :=
    SimplePool.updatePool_ok hio hu
  rw [← amt_product p hio] at hs0
  rw [← amt_product q hio] at hs1
  have e0 : s0 = Nat.sqrt p.product := Nat.eq_sqrt.2 (integerSqrt_ok hs0)
  have e1 : s1 = Nat.sqrt q.product := Nat.eq_sqrt.2 (integerSqrt_ok hs1)
  rw [← e0, ← e1, es]
  refine ⟨?_, by omega⟩
  rcases hm with rfl | ⟨hb0, hd, hm⟩
  · exact Nat.mul_le_mul_right _ hle
  · have hden : s0 ≤ s0 * 10000 / fees.adminFeeBps := by
      rw [Nat.le_div_iff_mul_le hb0]; exact Nat.mul_le_mul_left _ hb
    have h1 : m * (s0 * 10000 / fees.adminFeeBps) ≤ (s1 - s0) * p.supply := by
      rw [hm]; exact Nat.div_mul_le_self _ _
    have h2 : m * s0 ≤ (s1 - s0) * p.supply := le_trans (Nat.mul_le_mul_left _ hden) h1
    obtain ⟨d, rfl⟩ := Nat.exists_eq_add_of_le hle
    rw [Nat.add_sub_cancel_left] at h2
    nlinarith

example : exFees.adminFeeBps ≤ 10000 ∧ (exPool.swap exA 1000 exB 1 exFees false).holds
    (fun (q, _) => q.supply = 1000003) := by decide +kernel

end Verif

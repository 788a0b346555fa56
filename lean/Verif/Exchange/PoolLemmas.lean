import Verif.Exchange.Pool
import Verif.Simple.Props
import Verif.Curve.Liquidity

/-
What each operation of a pool, whatever its kind, does to its tokens, shares and reserves.
-/

namespace Verif

/-! ### Amounts of one token in a list of amounts -/

/-- The sum of the amounts that belong to token `t` when `xs` has one amount per token. -/
def flow : (toks : List AccountId) → (xs : List Nat) → (t : AccountId) → Nat
  | u :: us, x :: xs, t => (if u = t then x else 0) + flow us xs t
  | _, _, _ => 0

@[simp] theorem flow_nil_left (xs : List Nat) (t : AccountId) : flow [] xs t = 0 := by
  cases xs <;> rfl

@[simp] theorem flow_nil_right (us : List AccountId) (t : AccountId) : flow us [] t = 0 := by
  cases us <;> rfl

theorem flow_cons (u : AccountId) (us : List AccountId) (xs : List Nat) (t : AccountId) :
    flow (u :: us) xs t = (if u = t then xs.getD 0 0 else 0) + flow us xs.tail t := by
  cases xs <;> simp [flow]

theorem flow_le (t : AccountId) : ∀ (us : List AccountId) (xs ys zs ws : List Nat),
    (∀ i, us[i]? = some t → xs.getD i 0 + ys.getD i 0 ≤ zs.getD i 0 + ws.getD i 0) →
    flow us xs t + flow us ys t ≤ flow us zs t + flow us ws t := by
  intro us
  induction us with
  | nil => intros; simp
  | cons u us ih =>
    intro xs ys zs ws h
    rw [flow_cons, flow_cons, flow_cons, flow_cons]
    have h1 := ih xs.tail ys.tail zs.tail ws.tail (fun i hi => by
      have := h (i + 1) (by simpa using hi)
      simpa [List.getD_eq_getElem?_getD, List.getElem?_tail] using this)
    by_cases hu : u = t
    · have := h 0 (by simp [hu])
      simp only [hu, if_true]
      omega
    · simp only [hu, if_false]; omega

theorem flow_zero (t : AccountId) : ∀ (us : List AccountId) (n : Nat),
    flow us (List.replicate n 0) t = 0 := by
  intro us
  induction us with
  | nil => intro n; simp
  | cons u us ih => intro n; cases n <;> simp [flow, List.replicate_succ, ih]

theorem flow_single (t v : AccountId) (x : Nat) : ∀ (us : List AccountId) (i n : Nat),
    us[i]? = some v → i < n →
    flow us ((List.replicate n 0).set i x) t = if v = t then x else 0 := by
  intro us
  induction us with
  | nil => intro i n h; simp at h
  | cons u us ih =>
    intro i n h hn
    cases n with
    | zero => omega
    | succ n =>
      cases i with
      | zero =>
        simp only [List.getElem?_cons_zero, Option.some.injEq] at h
        simp [List.replicate_succ, flow, flow_zero, h]
      | succ i =>
        simp only [List.getElem?_cons_succ] at h
        simp [List.replicate_succ, flow, ih i n h (by omega)]

theorem flow_mul (t : AccountId) (k : Nat) : ∀ (us : List AccountId) (xs : List Nat),
    flow us (xs.map (· * k)) t = flow us xs t * k := by
  intro us
  induction us with
  | nil => intro xs; simp
  | cons u us ih =>
    intro xs
    cases xs with
    | nil => simp
    | cons x xs =>
      simp only [List.map_cons, flow, ih]
      split <;> ring

theorem flow_not_mem {us : List AccountId} {t : AccountId} (h : t ∉ us) (xs : List Nat) :
    flow us xs t = 0 := by
  induction us generalizing xs with
  | nil => simp
  | cons u us ih =>
    rw [flow_cons, ih (by simp at h; exact h.2)]
    have : u ≠ t := by intro e; simp [e] at h
    simp [this]

theorem getD_set_replicate (n i j x : Nat) :
    ((List.replicate n 0).set i x).getD j 0 = if i = j ∧ j < n then x else 0 := by
  rw [List.getD_eq_getElem?_getD]
  by_cases hij : i = j
  · subst hij
    by_cases hn : i < n
    · rw [List.getElem?_set_self (by simpa using hn)]; simp [hn]
    · rw [List.getElem?_eq_none (by simp; omega)]; simp [hn]
  · rw [List.getElem?_set_ne hij, List.getElem?_replicate]
    simp only [hij, false_and, if_false]
    split <;> rfl

/-! ### Value of the reserves -/

/-- Atoms per token unit: reserves of all pool kinds are compared in units of `10^-24` token
units. -/
def ATOMS : Nat := 10 ^ 24

/-- Atoms per internal unit of a curve pool, for a token with `d` decimals. -/
def CurveKind.weight (k : CurveKind) (d : Nat) : Nat := 10 ^ (24 + d - k.target)

theorem CurveKind.weight_spec (k : CurveKind) (d : Nat) :
    k.weight d * k.cPerTok d = ATOMS * k.tokPerC d := by
  unfold CurveKind.weight CurveKind.cPerTok CurveKind.tokPerC ATOMS
  rw [← Nat.pow_add, ← Nat.pow_add]
  congr 1
  cases k <;> simp only [CurveKind.target] <;> omega

theorem CurveKind.weight_pos (k : CurveKind) (d : Nat) : 0 < k.weight d := Nat.pow_pos (by omega)

theorem covered_atoms {k : CurveKind} {d a c : Nat} (h : CoveredBy k d a c) :
    a * ATOMS ≤ c * k.weight d := by
  have h1 := k.weight_spec d
  have h2 := k.cPerTok_pos d
  unfold CoveredBy at h
  apply Nat.le_of_mul_le_mul_right (c := k.cPerTok d) _ h2
  calc a * ATOMS * k.cPerTok d = ATOMS * (a * k.cPerTok d) := by ring
    _ ≤ ATOMS * (c * k.tokPerC d) := Nat.mul_le_mul_left _ h
    _ = c * (ATOMS * k.tokPerC d) := by ring
    _ = c * (k.weight d * k.cPerTok d) := by rw [h1]
    _ = _ := by ring

theorem credited_atoms {k : CurveKind} {d a c : Nat} (h : c * k.tokPerC d ≤ a * k.cPerTok d) :
    c * k.weight d ≤ a * ATOMS := by
  have h1 := k.weight_spec d
  have h2 := k.cPerTok_pos d
  apply Nat.le_of_mul_le_mul_right (c := k.cPerTok d) _ h2
  calc c * k.weight d * k.cPerTok d = c * (k.weight d * k.cPerTok d) := by ring
    _ = ATOMS * (c * k.tokPerC d) := by rw [h1]; ring
    _ ≤ ATOMS * (a * k.cPerTok d) := Nat.mul_le_mul_left _ h
    _ = _ := by ring

/-- The reserves of a pool in atoms, one per token. -/
def Pool.weighted : Pool → List Nat
  | .simple p => [p.amt0 * ATOMS, p.amt1 * ATOMS]
  | .curve p => List.zipWith (fun c d => c * p.kind.weight d) p.cAmts p.decs

/-- The reserve of token `t` in atoms. -/
def Pool.atoms (p : Pool) (t : AccountId) : Nat := flow p.tokens p.weighted t

/-- What never changes in the life of a pool: kind, tokens and decimals. -/
def Pool.shape : Pool → Option CurveKind × List AccountId × List Nat
  | .simple p => (none, [p.tok0, p.tok1], [])
  | .curve p => (some p.kind, p.toks, p.decs)

theorem Pool.tokens_shape (p : Pool) : p.tokens = p.shape.2.1 := by cases p <;> rfl
theorem Pool.tokens_of_shape {p q : Pool} (h : q.shape = p.shape) : q.tokens = p.tokens := by
  rw [q.tokens_shape, p.tokens_shape, h]
theorem Pool.isDegen_of_shape {p q : Pool} (h : q.shape = p.shape) : q.isDegen = p.isDegen := by
  cases p <;> cases q <;> simp_all [Pool.shape, Pool.isDegen]
theorem Pool.decimal_of_shape {p q : Pool} (h : q.shape = p.shape) :
    q.shareDecimal = p.shareDecimal := by
  cases p <;> cases q <;> simp_all [Pool.shape, Pool.shareDecimal]

/-- A pool in a reachable state. -/
def Pool.Sound : Pool → Prop
  | .simple p => p.Sound ∧ p.tok0 ≠ p.tok1
  | .curve p => p.Sound ∧ p.toks.Nodup

theorem Pool.Sound.nodup {p : Pool} (h : p.Sound) : p.tokens.Nodup := by
  cases p with
  | simple p => simpa [Pool.tokens] using h.2
  | curve p => exact h.2

theorem Pool.Sound.fee {p : Pool} (h : p.Sound) : p.totalFee < 10000 := by
  cases p with
  | simple p => exact h.1.fee
  | curve p => exact h.1.fee

theorem Pool.Sound.sum {p : Pool} (h : p.Sound) : p.supply = sumVals p.shares := by
  cases p with
  | simple p => exact h.1.sum
  | curve p => exact h.1.sum

theorem Pool.Sound.supply_lt {p : Pool} (h : p.Sound) : p.supply < 2 ^ 128 := by
  cases p with
  | simple p => exact h.1.supply
  | curve p => exact h.1.supply

/-- Token `t` has no more decimals than the pool if the pool is of the stable kind. The decimals of
other pools are bounded in any case. -/
def Pool.Fine (p : Pool) (t : AccountId) : Prop :=
  match p with
  | .simple _ => True
  | .curve p => p.kind = .stable → ∀ (i d : Nat), p.toks[i]? = some t → p.decs[i]? = some d → d ≤ 18

theorem Pool.Fine.of_shape {p q : Pool} {t : AccountId} (h : q.shape = p.shape) (hp : p.Fine t) :
    q.Fine t := by
  cases p <;> cases q <;> simp_all [Pool.shape, Pool.Fine]
  exact hp

/-! ### Shares -/

theorem SimplePool.mintShares_mono {p q : SimplePool} {a : AccountId} {s : Nat} {v : Bool}
    (h : p.mintShares a s v = .ok q) :
    (∀ x, p.shares.getD x 0 ≤ q.shares.getD x 0) ∧
    (∀ x, p.shares.contains x = true → q.shares.contains x = true) := by
  obtain ⟨rfl, -⟩ := SimplePool.mintShares_ok h
  simp only
  split
  · exact ⟨fun _ => Nat.le_refl _, fun _ h => h⟩
  · constructor
    · intro x
      by_cases hx : x = a
      · subst hx; simp [FMap.getD, FMap.get?_insert_self]
      · simp [FMap.getD, FMap.get?_insert_ne _ _ hx]
    · intro x hx
      by_cases hxa : x = a
      · subst hxa; simp [FMap.contains, FMap.get?_insert_self]
      · simpa [FMap.contains, FMap.get?_insert_ne _ _ hxa] using hx

theorem SimplePool.updatePool_mono {p q : SimplePool} {i o : Bool} {a r : Nat} {fees : AdminFees}
    {v : Bool} (h : p.updatePool i a o r fees v = .ok q) :
    (∀ x, p.shares.getD x 0 ≤ q.shares.getD x 0) ∧
    (∀ x, p.shares.contains x = true → q.shares.contains x = true) := by
  have hset : ∀ (p : SimplePool) (x : Bool) (y : Nat), (p.setAmt x y).shares = p.shares := by
    intro p x y; cases x <;> rfl
  unfold SimplePool.updatePool at h
  unpack at h
  obtain ⟨-, s0, hs0, hlt, hr, -, s1, hs1, hle, -, h⟩ := h
  split at h
  · unpack at h
    obtain ⟨-, hb, hd, -, rs, hrs, p2, hp2, hle2, hq⟩ := h
    have h2 := SimplePool.mintShares_mono hq
    have h1 : (∀ x, p.shares.getD x 0 ≤ p2.shares.getD x 0) ∧
        (∀ x, p.shares.contains x = true → p2.shares.contains x = true) := by
      split at hp2
      · split at hp2
        · have := SimplePool.mintShares_mono hp2
          rw [hset, hset] at this; exact this
        · cases hp2; rw [hset, hset]; exact ⟨fun _ => Nat.le_refl _, fun _ h => h⟩
      · cases hp2; rw [hset, hset]; exact ⟨fun _ => Nat.le_refl _, fun _ h => h⟩
    exact ⟨fun x => (h1.1 x).trans (h2.1 x), fun x hx => h2.2 x (h1.2 x hx)⟩
  · cases h; rw [hset, hset]; exact ⟨fun _ => Nat.le_refl _, fun _ h => h⟩

namespace Pool

theorem map_simple_ok {x : R SimplePool} {q : Pool} (h : Pool.simple <$> x = .ok q) :
    ∃ q', x = .ok q' ∧ q = .simple q' := by
  cases x with
  | error e => cases h
  | ok a => cases h; exact ⟨a, rfl, rfl⟩

theorem map_curve_ok {x : R CurvePool} {q : Pool} (h : Pool.curve <$> x = .ok q) :
    ∃ q', x = .ok q' ∧ q = .curve q' := by
  cases x with
  | error e => cases h
  | ok a => cases h; exact ⟨a, rfl, rfl⟩

/-! #### Swap -/

theorem swap_simple {p : SimplePool} {q : Pool} {ti tout : AccountId} {a mo out : Nat}
    {fees : AdminFees} {env : R CurveEnv} {v : Bool}
    (h : (Pool.simple p).swap ti a tout mo fees env v = .ok (q, out)) :
    ∃ q', q = .simple q' ∧ p.swap ti a tout mo fees v = .ok (q', out) := by
  unfold Pool.swap at h
  unpack at h
  obtain ⟨q', _, h, rfl, rfl⟩ := h
  exact ⟨q', rfl, h⟩

theorem swap_curve {p : CurvePool} {q : Pool} {ti tout : AccountId} {a mo out : Nat}
    {fees : AdminFees} {env : R CurveEnv} {v : Bool}
    (h : (Pool.curve p).swap ti a tout mo fees env v = .ok (q, out)) :
    ∃ e q', env = .ok e ∧ q = .curve q' ∧ p.swap ti a tout mo fees e v = .ok (q', out) := by
  unfold Pool.swap at h
  unpack at h
  obtain ⟨e, he, q', _, h, rfl, rfl⟩ := h
  exact ⟨e, q', he, rfl, h⟩

theorem swap_shape {p q : Pool} {ti tout : AccountId} {a mo out : Nat}
    {fees : AdminFees} {env : R CurveEnv} {v : Bool}
    (h : p.swap ti a tout mo fees env v = .ok (q, out)) :
    q.shape = p.shape ∧ q.totalFee = p.totalFee ∧ ti ≠ tout ∧ ti ∈ p.tokens ∧ tout ∈ p.tokens ∧
    mo ≤ out := by
  cases p with
  | simple p =>
    replace h := swap_simple h
    obtain ⟨q', rfl, h⟩ := h
    obtain ⟨-, -, h1, h2, h3⟩ := swap_moves h
    obtain ⟨i, o, hne, hi, ho, -, -, hmo, -⟩ := SimplePool.swap_ok h
    refine ⟨by simp [shape, h1, h2], h3, hne, ?_, ?_, hmo⟩
    · rw [SimplePool.tokenIndex_ok hi]; cases i <;> simp [Pool.tokens]
    · rw [SimplePool.tokenIndex_ok ho]; cases o <;> simp [Pool.tokens]
  | curve p =>
    replace h := swap_curve h
    obtain ⟨e, q', -, rfl, h⟩ := h
    obtain ⟨i, o, _, _, _, _, hne, hi, ho, -, -, -, -, -, -, -, hmo, -⟩ :=
      CurvePool.swap_ok h
    obtain ⟨_, _, _, _, _, _, _, _, _, _, _, -, -, -, -, -, -, -, -, -, -, -, -, -, -, -, hm⟩ :=
      curve_swap_reserves h
    exact ⟨by rw [hm.frame]; rfl, by rw [hm.frame]; rfl, hne, List.mem_of_getElem? hi,
      List.mem_of_getElem? ho, hmo⟩

theorem swap_shares {p q : Pool} {ti tout : AccountId} {a mo out : Nat}
    {fees : AdminFees} {env : R CurveEnv} {v : Bool}
    (h : p.swap ti a tout mo fees env v = .ok (q, out)) :
    (∀ x, p.shareBalance x ≤ q.shareBalance x) ∧
    (∀ x, p.shareRegistered x = true → q.shareRegistered x = true) := by
  cases p with
  | simple p =>
    replace h := swap_simple h
    obtain ⟨q', rfl, h⟩ := h
    obtain ⟨i, o, -, -, -, -, -, -, hu⟩ := SimplePool.swap_ok h
    exact SimplePool.updatePool_mono hu
  | curve p =>
    replace h := swap_curve h
    obtain ⟨e, q', -, rfl, h⟩ := h
    obtain ⟨_, _, _, _, _, _, _, _, _, _, _, -, -, -, -, -, -, -, -, -, -, -, -, -, -, -, hm⟩ :=
      curve_swap_reserves h
    exact ⟨hm.mono, hm.mem⟩

theorem Sound.swap {p q : Pool} {ti tout : AccountId} {a mo out : Nat}
    {fees : AdminFees} {env : R CurveEnv} (hp : p.Sound)
    (h : p.swap ti a tout mo fees env false = .ok (q, out)) : q.Sound := by
  have hs := (swap_shape h).1
  cases p with
  | simple p =>
    replace h := swap_simple h
    obtain ⟨q', rfl, h⟩ := h
    refine ⟨hp.1.swap h, ?_⟩
    have := hp.2
    simp only [shape, Prod.mk.injEq, List.cons.injEq] at hs
    rw [hs.2.1.1, hs.2.1.2.1]; exact this
  | curve p =>
    replace h := swap_curve h
    obtain ⟨e, q', -, rfl, h⟩ := h
    refine ⟨hp.1.swap h, ?_⟩
    simp only [shape, Prod.mk.injEq] at hs
    rw [hs.2.1]; exact hp.2

theorem simple_atoms (p : SimplePool) (t : AccountId) (h : p.tok0 ≠ p.tok1) :
    (Pool.simple p).atoms t = p.reserve t * ATOMS := by
  simp only [atoms, tokens, weighted, flow, SimplePool.reserve]
  by_cases h0 : p.tok0 = t
  · have h1 : p.tok1 ≠ t := fun e => h (h0.trans e.symm)
    simp [h0, h1]
  · by_cases h1 : p.tok1 = t
    · simp [h0, h1, Ne.symm h0]
    · simp [h0, h1, Ne.symm h0, Ne.symm h1]

theorem weighted_getD {p : CurvePool} {i c d : Nat} (hc : p.cAmts[i]? = some c)
    (hd : p.decs[i]? = some d) : (Pool.curve p).weighted.getD i 0 = c * p.kind.weight d := by
  simp [weighted, List.getD_eq_getElem?_getD, List.getElem?_zipWith, hc, hd]

theorem swap_atoms {p q : Pool} {ti tout : AccountId} {a mo out : Nat}
    {fees : AdminFees} {env : R CurveEnv} {v : Bool} (hp : p.Sound)
    (h : p.swap ti a tout mo fees env v = .ok (q, out)) (t : AccountId) :
    q.atoms t + (if tout = t then out * ATOMS else 0) ≤
      p.atoms t + (if ti = t then a * ATOMS else 0) := by
  cases p with
  | simple p =>
    replace h := swap_simple h
    obtain ⟨q', rfl, h⟩ := h
    have hne := hp.2
    obtain ⟨i, o, hto, hi, ho, hio, -, -, hu⟩ := SimplePool.swap_ok h
    obtain ⟨h1, h2, h3, h4, -⟩ := swap_moves h
    rw [simple_atoms p t hne, simple_atoms q' t (by rw [h3, h4]; exact hne)]
    by_cases e1 : tout = t
    · subst e1
      simp only [if_true, hto, if_false]
      rw [← h2]; nlinarith
    · by_cases e2 : ti = t
      · subst e2
        simp only [e1, if_true, if_false, h1]
        nlinarith
      · simp only [e1, e2, if_false]
        have : q'.reserve t = p.reserve t := by
          have hi' := SimplePool.tokenIndex_ok hi
          have ho' := SimplePool.tokenIndex_ok ho
          have : t ≠ p.tok0 ∧ t ≠ p.tok1 := by
            cases i <;> cases o <;> simp_all <;> constructor <;> (intro e; simp_all)
          simp [SimplePool.reserve, h3, h4, this.1, this.2]
        simp [this]
  | curve p =>
    replace h := swap_curve h
    obtain ⟨e, q', -, rfl, h⟩ := h
    obtain ⟨i, o, di, dd, x, paid, ci, co, ci', co', m, hti, hto, hio, hdi, hdo, hx, hpd, -, hci, hco,
      l1, l2, -, -, -, hm⟩ := curve_swap_reserves h
    have hlen := hp.1.len
    have hdl := hp.1.decs
    have hil := (List.getElem?_eq_some_iff.1 hti).1
    have hol := (List.getElem?_eq_some_iff.1 hto).1
    have hsh : (Pool.curve q').shape = (Pool.curve p).shape := by rw [hm.frame]; rfl
    unfold atoms
    rw [tokens_of_shape hsh]
    have e1 := flow_single t tout (out * ATOMS) p.toks o p.toks.length hto hol
    have e2 := flow_single t ti (a * ATOMS) p.toks i p.toks.length hti hil
    show flow p.toks _ t + _ ≤ flow p.toks _ t + _
    rw [← e1, ← e2]
    apply flow_le
    intro j hj
    have hjl := (List.getElem?_eq_some_iff.1 hj).1
    obtain ⟨c, hc⟩ : ∃ c, p.cAmts[j]? = some c := ⟨_, List.getElem?_eq_getElem (by omega)⟩
    obtain ⟨d, hd⟩ : ∃ d, p.decs[j]? = some d := ⟨_, List.getElem?_eq_getElem (by omega)⟩
    rw [weighted_getD hc hd, getD_set_replicate, getD_set_replicate]
    have hq : ∀ c', q'.cAmts[j]? = some c' →
        (Pool.curve q').weighted.getD j 0 = c' * p.kind.weight d := by
      intro c' hc'
      rw [hm.frame] at hc' ⊢
      exact weighted_getD hc' hd
    have hqc : q'.cAmts = (p.cAmts.set i ci').set o co' := by rw [hm.frame]
    by_cases jo : o = j
    · subst jo
      have hne : i ≠ o := hio
      rw [hco] at hc; cases hc
      rw [hdo] at hd; cases hd
      have := hq co' (by rw [hqc, List.getElem?_set_self]; simp; omega)
      rw [this]
      simp only [hjl, and_self, if_true, hne, false_and, if_false]
      have := covered_atoms (covered_of_cToAmount hpd)
      have : (co' + paid) * p.kind.weight dd ≤ co * p.kind.weight dd := Nat.mul_le_mul_right _ l2
      nlinarith
    · by_cases ji : i = j
      · subst ji
        rw [hci] at hc; cases hc
        rw [hdi] at hd; cases hd
        have := hq ci' (by
          rw [hqc, List.getElem?_set_ne jo, List.getElem?_set_self]; omega)
        rw [this]
        simp only [hjl, and_self, if_true, jo, false_and, if_false]
        have := credited_atoms (credited_of_amountToC hx)
        have : ci' * p.kind.weight di ≤ (ci + x) * p.kind.weight di := Nat.mul_le_mul_right _ l1
        nlinarith
      · have := hq c (by rw [hqc, List.getElem?_set_ne jo, List.getElem?_set_ne ji]; exact hc)
        rw [this]
        simp [jo, ji]

/-! #### Swap by output -/

theorem swapByOutput_simple {p q : Pool} {ti tout : AccountId} {out inn : Nat} {mi : Option Nat}
    {fees : AdminFees} {v : Bool} (h : p.swapByOutput ti out tout mi fees v = .ok (q, inn)) :
    ∃ p' q', p = .simple p' ∧ q = .simple q' ∧
      p'.swapByOutput ti out tout mi fees v = .ok (q', inn) := by
  cases p with
  | curve p => cases h
  | simple p =>
    unfold Pool.swapByOutput at h
    unpack at h
    obtain ⟨q', _, h, rfl, rfl⟩ := h
    exact ⟨p, q', rfl, rfl, h⟩

theorem swapByOutput_shape {p q : Pool} {ti tout : AccountId} {out inn : Nat} {mi : Option Nat}
    {fees : AdminFees} {v : Bool} (h : p.swapByOutput ti out tout mi fees v = .ok (q, inn)) :
    q.shape = p.shape ∧ q.totalFee = p.totalFee ∧ ti ≠ tout ∧ ti ∈ p.tokens ∧ tout ∈ p.tokens ∧
    ∀ m, mi = some m → inn ≤ m := by
  replace h := swapByOutput_simple h
  obtain ⟨p', q', rfl, rfl, h⟩ := h
  obtain ⟨-, -, h1, h2, h3⟩ := swapByOutput_moves h
  obtain ⟨i, o, hne, hi, ho, -, -, hmo, -⟩ := SimplePool.swapByOutput_ok h
  refine ⟨by simp [shape, h1, h2], h3, hne, ?_, ?_, hmo⟩
  · rw [SimplePool.tokenIndex_ok hi]; cases i <;> simp [Pool.tokens]
  · rw [SimplePool.tokenIndex_ok ho]; cases o <;> simp [Pool.tokens]

theorem swapByOutput_shares {p q : Pool} {ti tout : AccountId} {out inn : Nat} {mi : Option Nat}
    {fees : AdminFees} {v : Bool} (h : p.swapByOutput ti out tout mi fees v = .ok (q, inn)) :
    (∀ x, p.shareBalance x ≤ q.shareBalance x) ∧
    (∀ x, p.shareRegistered x = true → q.shareRegistered x = true) := by
  replace h := swapByOutput_simple h
  obtain ⟨p', q', rfl, rfl, h⟩ := h
  obtain ⟨i, o, -, -, -, -, -, -, hu⟩ := SimplePool.swapByOutput_ok h
  exact SimplePool.updatePool_mono hu

theorem Sound.swapByOutput {p q : Pool} {ti tout : AccountId} {out inn : Nat} {mi : Option Nat}
    {fees : AdminFees} (hp : p.Sound)
    (h : p.swapByOutput ti out tout mi fees false = .ok (q, inn)) : q.Sound := by
  have hs := (swapByOutput_shape h).1
  replace h := swapByOutput_simple h
  obtain ⟨p', q', rfl, rfl, h⟩ := h
  refine ⟨hp.1.swapByOutput h, ?_⟩
  have := hp.2
  simp only [shape, Prod.mk.injEq, List.cons.injEq] at hs
  rw [hs.2.1.1, hs.2.1.2.1]; exact this

theorem swapByOutput_atoms {p q : Pool} {ti tout : AccountId} {out inn : Nat} {mi : Option Nat}
    {fees : AdminFees} {v : Bool} (hp : p.Sound)
    (h : p.swapByOutput ti out tout mi fees v = .ok (q, inn)) (t : AccountId) :
    q.atoms t + (if tout = t then out * ATOMS else 0) ≤
      p.atoms t + (if ti = t then inn * ATOMS else 0) := by
  replace h := swapByOutput_simple h
  obtain ⟨p, q', rfl, rfl, h⟩ := h
  have hne := hp.2
  obtain ⟨i, o, hto, hi, ho, hio, -, -, hu⟩ := SimplePool.swapByOutput_ok h
  obtain ⟨h1, h2, h3, h4, -⟩ := swapByOutput_moves h
  rw [simple_atoms p t hne, simple_atoms q' t (by rw [h3, h4]; exact hne)]
  by_cases e1 : tout = t
  · subst e1
    simp only [if_true, hto, if_false]
    rw [← h2]; nlinarith
  · by_cases e2 : ti = t
    · subst e2
      simp only [e1, if_true, if_false, h1]
      nlinarith
    · simp only [e1, e2, if_false]
      have : q'.reserve t = p.reserve t := by
        have hi' := SimplePool.tokenIndex_ok hi
        have ho' := SimplePool.tokenIndex_ok ho
        have : t ≠ p.tok0 ∧ t ≠ p.tok1 := by
          cases i <;> cases o <;> simp_all <;> constructor <;> (intro e; simp_all)
        simp [SimplePool.reserve, h3, h4, this.1, this.2]
      simp [this]

/-! #### Adding liquidity -/

theorem addLiquidity_simple {p q : Pool} {s : AccountId} {am used : List Nat} {n : Nat} {v : Bool}
    (h : p.addLiquidity s am v = .ok (q, used, n)) :
    ∃ p' q', p = .simple p' ∧ q = .simple q' ∧ p'.addLiquidity s am v = .ok (q', used, n) := by
  cases p with
  | curve p => cases h
  | simple p =>
    unfold Pool.addLiquidity at h
    unpack at h
    obtain ⟨q', _, _, h, rfl, rfl, rfl⟩ := h
    exact ⟨p, q', rfl, rfl, h⟩

theorem addLiquidity_shape {p q : Pool} {s : AccountId} {am used : List Nat} {n : Nat} {v : Bool}
    (h : p.addLiquidity s am v = .ok (q, used, n)) :
    q.shape = p.shape ∧ q.totalFee = p.totalFee ∧ used.length = p.tokens.length := by
  replace h := addLiquidity_simple h
  obtain ⟨p', q', rfl, rfl, h⟩ := h
  obtain ⟨_, _, _, _, -, rfl, -, -, -, -, -, -, -, h1, h2, h3, -⟩ := Verif.addLiquidity_ok h
  exact ⟨by simp [shape, h1, h2], h3, rfl⟩

/-- Only the sender's shares change, by the shares minted. -/
theorem addLiquidity_shares {p q : Pool} {s : AccountId} {am used : List Nat} {n : Nat}
    (h : p.addLiquidity s am false = .ok (q, used, n)) :
    ∀ x, q.shareBalance x = p.shareBalance x + if x = s then n else 0 := by
  replace h := addLiquidity_simple h
  obtain ⟨p', q', rfl, rfl, h⟩ := h
  obtain ⟨_, _, _, _, -, -, -, -, -, -, -, -, -, -, -, -, hsh, -⟩ := Verif.addLiquidity_ok h
  intro x
  simp only [Bool.false_eq_true, if_false] at hsh
  simp only [shareBalance, shares, hsh]
  by_cases hx : x = s
  · subst hx; simp [FMap.getD, FMap.get?_insert_self]
  · simp [hx, FMap.getD, FMap.get?_insert_ne _ _ hx]

theorem Sound.addLiquidity {p q : Pool} {s : AccountId} {am used : List Nat} {n : Nat}
    (hp : p.Sound) (h : p.addLiquidity s am false = .ok (q, used, n)) : q.Sound := by
  have hs := (addLiquidity_shape h).1
  replace h := addLiquidity_simple h
  obtain ⟨p', q', rfl, rfl, h⟩ := h
  refine ⟨hp.1.add h, ?_⟩
  have := hp.2
  simp only [shape, Prod.mk.injEq, List.cons.injEq] at hs
  rw [hs.2.1.1, hs.2.1.2.1]; exact this

theorem addLiquidity_atoms {p q : Pool} {s : AccountId} {am used : List Nat} {n : Nat} {v : Bool}
    (h : p.addLiquidity s am v = .ok (q, used, n)) (t : AccountId) :
    q.atoms t = p.atoms t + flow p.tokens used t * ATOMS := by
  replace h := addLiquidity_simple h
  obtain ⟨p', q', rfl, rfl, h⟩ := h
  obtain ⟨_, _, b0, b1, -, rfl, -, e0, e1, -, -, -, -, h1, h2, -⟩ := Verif.addLiquidity_ok h
  simp only [atoms, tokens, weighted, flow, h1, h2, e0, e1]
  split <;> split <;> ring

theorem addStable_curve {p q : Pool} {s : AccountId} {am : List Nat} {mn n : Nat}
    {fees : AdminFees} {env : R CurveEnv} {v : Bool}
    (h : p.addStable s am mn fees env v = .ok (q, n)) :
    ∃ p' q' e, p = .curve p' ∧ q = .curve q' ∧ env = .ok e ∧
      p'.addLiquidity s am mn fees e v = .ok (q', n) := by
  cases p with
  | simple p => cases h
  | curve p =>
    unfold Pool.addStable at h
    unpack at h
    obtain ⟨e, he, q', _, h, rfl, rfl⟩ := h
    exact ⟨p, q', e, rfl, rfl, he, h⟩

theorem addStable_shape {p q : Pool} {s : AccountId} {am : List Nat} {mn n : Nat}
    {fees : AdminFees} {env : R CurveEnv} {v : Bool}
    (h : p.addStable s am mn fees env v = .ok (q, n)) :
    q.shape = p.shape ∧ q.totalFee = p.totalFee ∧ am.length = p.tokens.length ∧ mn ≤ n := by
  replace h := addStable_curve h
  obtain ⟨p', q', e, rfl, rfl, -, h⟩ := h
  obtain ⟨fp, cs, p1, hl, -, hmn, -, -, -, hm⟩ := CurvePool.addLiquidity_ok h
  exact ⟨by rw [hm.frame]; rfl, by rw [hm.frame]; rfl, hl, hmn⟩

/-- Nobody's shares fall, the sender gains at least the shares minted. -/
theorem addStable_shares {p q : Pool} {s : AccountId} {am : List Nat} {mn n : Nat}
    {fees : AdminFees} {env : R CurveEnv}
    (h : p.addStable s am mn fees env false = .ok (q, n)) :
    (∀ x, p.shareBalance x + (if x = s then n else 0) ≤ q.shareBalance x) ∧
    (∀ x, p.shareRegistered x = true → q.shareRegistered x = true) := by
  replace h := addStable_curve h
  obtain ⟨p', q', e, rfl, rfl, -, h⟩ := h
  obtain ⟨fp, cs, p1, -, -, -, -, h1, h2, hm⟩ := CurvePool.addLiquidity_ok h
  refine ⟨?_, hm.mem⟩
  intro x
  have e1 := CurvePool.mintShares_balance h1 x
  have e2 := (CurvePool.mintFeePart_minted h2).mono x
  simp only [shareBalance, shares, CurvePool.shareBalanceOf] at e1 e2 ⊢
  omega

theorem Sound.addStable {p q : Pool} {s : AccountId} {am : List Nat} {mn n : Nat}
    {fees : AdminFees} {env : R CurveEnv} (hp : p.Sound)
    (h : p.addStable s am mn fees env false = .ok (q, n)) : q.Sound := by
  have hs := (addStable_shape h).1
  replace h := addStable_curve h
  obtain ⟨p', q', e, rfl, rfl, -, h⟩ := h
  refine ⟨hp.1.add h, ?_⟩
  simp only [shape, Prod.mk.injEq] at hs
  rw [hs.2.1]; exact hp.2

theorem addStable_atoms {p q : Pool} {s : AccountId} {am : List Nat} {mn n : Nat}
    {fees : AdminFees} {env : R CurveEnv} {v : Bool} (hp : p.Sound)
    (h : p.addStable s am mn fees env v = .ok (q, n)) (t : AccountId) :
    q.atoms t ≤ p.atoms t + flow p.tokens am t * ATOMS := by
  have hs := (addStable_shape h).1
  have htk := tokens_of_shape hs
  replace h := addStable_curve h
  obtain ⟨p, q, e, rfl, rfl, -, h⟩ := h
  have hall := C36_add_credits h
  have hlen := hp.1.len
  simp only [shape, Prod.mk.injEq, Option.some.injEq] at hs
  have key : flow p.toks (Pool.curve q).weighted t + flow p.toks [] t ≤
      flow p.toks (Pool.curve p).weighted t + flow p.toks (am.map (· * ATOMS)) t := by
    apply flow_le
    intro j hj
    have hjl := (List.getElem?_eq_some_iff.1 hj).1
    obtain ⟨c, hc⟩ : ∃ c, p.cAmts[j]? = some c := ⟨_, List.getElem?_eq_getElem (by omega)⟩
    obtain ⟨d, a, c', hd, ha, hc', hle, hcr⟩ := hall j c hc
    rw [weighted_getD hc hd, weighted_getD hc' (by rw [hs.2.2]; exact hd), hs.1]
    have := credited_atoms hcr
    simp only [List.getElem?_nil, Option.getD_none, List.getD_eq_getElem?_getD, List.getElem?_map, ha, Option.map_some,
      Option.getD_some]
    obtain ⟨k, rfl⟩ := Nat.exists_eq_add_of_le hle
    rw [Nat.add_sub_cancel_left] at this
    nlinarith
  rw [flow_mul, flow_nil_right] at key
  unfold atoms
  rw [htk]
  exact key

/-! #### Removing liquidity -/

theorem removeLiquidity_cases {p q : Pool} {s : AccountId} {n : Nat} {mins paid : List Nat}
    {v : Bool} (h : p.removeLiquidity s n mins v = .ok (q, paid)) :
    (∃ p' q', p = .simple p' ∧ q = .simple q' ∧ p'.removeLiquidity s n mins v = .ok (q', paid)) ∨
    (∃ p' q', p = .curve p' ∧ q = .curve q' ∧ p'.removeByShares s n mins v = .ok (q', paid)) := by
  cases p with
  | simple p =>
    unfold Pool.removeLiquidity at h
    unpack at h
    obtain ⟨q', _, h, rfl, rfl⟩ := h
    exact .inl ⟨p, q', rfl, rfl, h⟩
  | curve p =>
    unfold Pool.removeLiquidity at h
    unpack at h
    obtain ⟨q', _, h, rfl, rfl⟩ := h
    exact .inr ⟨p, q', rfl, rfl, h⟩

theorem removeLiquidity_shape {p q : Pool} {s : AccountId} {n : Nat} {mins paid : List Nat}
    {v : Bool} (h : p.removeLiquidity s n mins v = .ok (q, paid)) :
    q.shape = p.shape ∧ q.totalFee = p.totalFee ∧ mins.length = p.tokens.length := by
  replace h := removeLiquidity_cases h
  rcases h with ⟨p, q, rfl, rfl, h⟩ | ⟨p, q, rfl, rfl, h⟩
  · obtain ⟨_, _, _, _, rfl, -, -, -, -, -, -, -, -, -, -, -, -, h1, h2, h3, -⟩ :=
      Verif.removeLiquidity_ok h
    exact ⟨by simp [shape, h1, h2], h3, rfl⟩
  · obtain ⟨hl, -, -, -, hf, -⟩ := CurvePool.removeByShares_ok h
    exact ⟨by rw [hf]; rfl, by rw [hf]; rfl, hl⟩

/-- The sender loses exactly `n` shares, nobody else any. -/
theorem removeLiquidity_shares {p q : Pool} {s : AccountId} {n : Nat} {mins paid : List Nat}
    (h : p.removeLiquidity s n mins false = .ok (q, paid)) :
    q.shareBalance s + n = p.shareBalance s ∧ (∀ x, x ≠ s → q.shareBalance x = p.shareBalance x) ∧
    q.supply + n = p.supply ∧
    (∀ x, p.shareRegistered x = true → q.shareRegistered x = true) := by
  replace h := removeLiquidity_cases h
  rcases h with ⟨p, q, rfl, rfl, h⟩ | ⟨p, q, rfl, rfl, h⟩
  · obtain ⟨_, _, _, _, -, -, -, hn, -, -, -, -, -, -, -, -, hs, -, -, -, -, hv⟩ :=
      Verif.removeLiquidity_ok h
    obtain ⟨bal, hb, hle, hsh⟩ := hv rfl
    refine ⟨?_, ?_, by simp only [supply, hs]; omega, ?_⟩
    · simp only [shareBalance, shares, hsh, FMap.getD, FMap.get?_insert_self, hb, Option.getD_some]
      omega
    · intro x hx; simp [shareBalance, shares, hsh, FMap.getD, FMap.get?_insert_ne _ _ hx]
    · intro x hx
      by_cases hxs : x = s
      · subst hxs; simp [shareRegistered, shares, hsh, FMap.contains, FMap.get?_insert_self]
      · simpa [shareRegistered, shares, hsh, FMap.contains, FMap.get?_insert_ne _ _ hxs] using hx
  · obtain ⟨-, hn, hs, -, -, -, hv⟩ := CurvePool.removeByShares_ok h
    obtain ⟨prev, hb, hle, -, h1, h2, h3⟩ := hv rfl
    refine ⟨h1, ?_, by simp only [supply, hs]; omega, ?_⟩
    · intro x hx; simp [shareBalance, shares, FMap.getD, h2 x hx]
    · intro x hx; simp only [shareRegistered, shares, h3] at *; exact hx

theorem Sound.removeLiquidity {p q : Pool} {s : AccountId} {n : Nat} {mins paid : List Nat}
    (hp : p.Sound) (h : p.removeLiquidity s n mins false = .ok (q, paid)) : q.Sound := by
  have hs := (removeLiquidity_shape h).1
  replace h := removeLiquidity_cases h
  rcases h with ⟨p, q, rfl, rfl, h⟩ | ⟨p, q, rfl, rfl, h⟩
  · refine ⟨hp.1.remove h, ?_⟩
    have := hp.2
    simp only [shape, Prod.mk.injEq, List.cons.injEq] at hs
    rw [hs.2.1.1, hs.2.1.2.1]; exact this
  · refine ⟨hp.1.removeShares h, ?_⟩
    simp only [shape, Prod.mk.injEq] at hs
    rw [hs.2.1]; exact hp.2

theorem removeLiquidity_atoms {p q : Pool} {s : AccountId} {n : Nat} {mins paid : List Nat}
    {v : Bool} (hp : p.Sound) (h : p.removeLiquidity s n mins v = .ok (q, paid)) (t : AccountId) :
    q.atoms t + flow p.tokens paid t * ATOMS ≤ p.atoms t := by
  have hs := (removeLiquidity_shape h).1
  have htk := tokens_of_shape hs
  replace h := removeLiquidity_cases h
  rcases h with ⟨p, q, rfl, rfl, h⟩ | ⟨p, q, rfl, rfl, h⟩
  · obtain ⟨_, _, r0, r1, -, rfl, -, -, -, -, -, -, l0, l1, e0, e1, -, h1, h2, -⟩ :=
      Verif.removeLiquidity_ok h
    simp only [atoms, tokens, weighted, flow, h1, h2, e0, e1, Nat.add_zero]
    have g0 : (p.amt0 - r0) * ATOMS + r0 * ATOMS = p.amt0 * ATOMS := by
      rw [← Nat.add_mul]; congr 1; omega
    have g1 : (p.amt1 - r1) * ATOMS + r1 * ATOMS = p.amt1 * ATOMS := by
      rw [← Nat.add_mul]; congr 1; omega
    split <;> split <;> nlinarith
  · have hall := C36_remove_shares_covered h
    have hlen := hp.1.len
    simp only [shape, Prod.mk.injEq, Option.some.injEq] at hs
    have key : flow p.toks (Pool.curve q).weighted t + flow p.toks (paid.map (· * ATOMS)) t ≤
        flow p.toks (Pool.curve p).weighted t + flow p.toks [] t := by
      apply flow_le
      intro j hj
      have hjl := (List.getElem?_eq_some_iff.1 hj).1
      obtain ⟨c, hc⟩ : ∃ c, p.cAmts[j]? = some c := ⟨_, List.getElem?_eq_getElem (by omega)⟩
      obtain ⟨d, a, c', hd, ha, hc', hle, hcr⟩ := hall j c hc
      rw [weighted_getD hc hd, weighted_getD hc' (by rw [hs.2.2]; exact hd), hs.1]
      have := covered_atoms hcr
      simp only [List.getElem?_nil, Option.getD_none, List.getD_eq_getElem?_getD, List.getElem?_map, ha, Option.map_some,
        Option.getD_some]
      obtain ⟨k, rfl⟩ := Nat.exists_eq_add_of_le hle
      rw [Nat.add_sub_cancel_left] at this
      nlinarith
    rw [flow_mul, flow_nil_right] at key
    unfold atoms
    rw [htk]
    exact key

theorem removeByTokens_curve {p q : Pool} {s : AccountId} {am : List Nat} {mb n : Nat}
    {fees : AdminFees} {env : R CurveEnv} {v : Bool}
    (h : p.removeByTokens s am mb fees env v = .ok (q, n)) :
    ∃ p' q' e, p = .curve p' ∧ q = .curve q' ∧ env = .ok e ∧
      p'.removeByTokens s am mb fees e v = .ok (q', n) := by
  cases p with
  | simple p => cases h
  | curve p =>
    unfold Pool.removeByTokens at h
    unpack at h
    obtain ⟨e, he, q', _, h, rfl, rfl⟩ := h
    exact ⟨p, q', e, rfl, rfl, he, h⟩

theorem removeByTokens_shape {p q : Pool} {s : AccountId} {am : List Nat} {mb n : Nat}
    {fees : AdminFees} {env : R CurveEnv} {v : Bool}
    (h : p.removeByTokens s am mb fees env v = .ok (q, n)) :
    q.shape = p.shape ∧ q.totalFee = p.totalFee ∧ am.length = p.tokens.length := by
  replace h := removeByTokens_curve h
  obtain ⟨p, q, e, rfl, rfl, -, h⟩ := h
  obtain ⟨_, _, _, hl, -, -, -, -, -, hf, -⟩ := CurvePool.removeByTokens_ok h
  exact ⟨by rw [hf]; rfl, by rw [hf]; rfl, hl⟩

/-- The sender loses at most `n` shares, nobody else any. -/
theorem removeByTokens_shares {p q : Pool} {s : AccountId} {am : List Nat} {mb n : Nat}
    {fees : AdminFees} {env : R CurveEnv}
    (h : p.removeByTokens s am mb fees env false = .ok (q, n)) :
    n ≤ mb ∧ n ≤ p.shareBalance s ∧ p.shareBalance s ≤ q.shareBalance s + n ∧
    (∀ x, x ≠ s → p.shareBalance x ≤ q.shareBalance x) ∧
    (∀ x, p.shareRegistered x = true → q.shareRegistered x = true) := by
  replace h := removeByTokens_curve h
  obtain ⟨p, q, e, rfl, rfl, -, h⟩ := h
  obtain ⟨_, _, _, -, -, -, -, -, -, -, -, -, -, hv⟩ := CurvePool.removeByTokens_ok h
  obtain ⟨h1, h2, -, -, h3, h4, h5⟩ := hv rfl
  exact ⟨h1, h2, h3, h4, h5⟩

theorem Sound.removeByTokens {p q : Pool} {s : AccountId} {am : List Nat} {mb n : Nat}
    {fees : AdminFees} {env : R CurveEnv} (hp : p.Sound)
    (h : p.removeByTokens s am mb fees env false = .ok (q, n)) : q.Sound := by
  have hs := (removeByTokens_shape h).1
  replace h := removeByTokens_curve h
  obtain ⟨p, q, e, rfl, rfl, -, h⟩ := h
  refine ⟨hp.1.removeTokens h, ?_⟩
  simp only [shape, Prod.mk.injEq] at hs
  rw [hs.2.1]; exact hp.2

theorem removeByTokens_atoms {p q : Pool} {s : AccountId} {am : List Nat} {mb n : Nat}
    {fees : AdminFees} {env : R CurveEnv} {v : Bool} (hp : p.Sound) {t : AccountId}
    (ht : p.Fine t) (h : p.removeByTokens s am mb fees env v = .ok (q, n)) :
    q.atoms t + flow p.tokens am t * ATOMS ≤ p.atoms t := by
  have hs := (removeByTokens_shape h).1
  have htk := tokens_of_shape hs
  replace h := removeByTokens_curve h
  obtain ⟨p, q, e, rfl, rfl, -, h⟩ := h
  have hlen := hp.1.len
  have hdl := hp.1.decs
  simp only [shape, Prod.mk.injEq, Option.some.injEq] at hs
  have key : flow p.toks (Pool.curve q).weighted t + flow p.toks (am.map (· * ATOMS)) t ≤
      flow p.toks (Pool.curve p).weighted t + flow p.toks [] t := by
    apply flow_le
    intro j hj
    have hjl := (List.getElem?_eq_some_iff.1 hj).1
    obtain ⟨c, hc⟩ : ∃ c, p.cAmts[j]? = some c := ⟨_, List.getElem?_eq_getElem (by omega)⟩
    obtain ⟨d, hd⟩ : ∃ d, p.decs[j]? = some d := ⟨_, List.getElem?_eq_getElem (by omega)⟩
    have hcov : ∃ a c', am[j]? = some a ∧ q.cAmts[j]? = some c' ∧ c' ≤ c ∧
        CoveredBy p.kind d a (c - c') := by
      by_cases hk : p.kind = .stable
      · obtain ⟨a, c', h1, h2, h3, -, h4⟩ := C36_remove_tokens_covered_partial h j c d hc hd
        exact ⟨a, c', h1, h2, h3, h4 (by
          rw [hk]; exact ht hk j d hj hd)⟩
      · exact C36_remove_tokens_covered_rated hk h j c d hc hd
    obtain ⟨a, c', ha, hc', hle, hcr⟩ := hcov
    rw [weighted_getD hc hd, weighted_getD hc' (by rw [hs.2.2]; exact hd), hs.1]
    have := covered_atoms hcr
    simp only [List.getElem?_nil, Option.getD_none, List.getD_eq_getElem?_getD, List.getElem?_map, ha, Option.map_some,
      Option.getD_some]
    obtain ⟨k, rfl⟩ := Nat.exists_eq_add_of_le hle
    rw [Nat.add_sub_cancel_left] at this
    nlinarith
  rw [flow_mul, flow_nil_right] at key
  unfold atoms
  rw [htk]
  exact key

/-! #### Shares and settings -/

/-- Only shares may differ. -/
structure OnlyShares (p q : Pool) : Prop where
  shape : q.shape = p.shape
  fee : q.totalFee = p.totalFee
  supply : q.supply = p.supply
  weighted : q.weighted = p.weighted
  amounts : q.amounts = p.amounts

theorem OnlyShares.atoms {p q : Pool} (h : OnlyShares p q) (t : AccountId) :
    q.atoms t = p.atoms t := by
  unfold Pool.atoms; rw [tokens_of_shape h.shape, h.weighted]

theorem shareTransfer_only {p q : Pool} {a b : AccountId} {n : Nat}
    (h : p.shareTransfer a b n = .ok q) : OnlyShares p q := by
  cases p with
  | simple p =>
    replace h := map_simple_ok h
    obtain ⟨q', h, rfl⟩ := h
    unfold SimplePool.shareTransfer at h
    unpack at h
    obtain ⟨_, -, -, _, -, -, rfl⟩ := h
    exact ⟨rfl, rfl, rfl, rfl, rfl⟩
  | curve p =>
    replace h := map_curve_ok h
    obtain ⟨q', h, rfl⟩ := h
    unfold CurvePool.shareTransfer at h
    unpack at h
    obtain ⟨_, -, -, _, -, -, rfl⟩ := h
    exact ⟨rfl, rfl, rfl, rfl, rfl⟩

theorem transferred {m : FMap AccountId Nat} {a b : AccountId} {n x y : Nat}
    (ha : m.get? a = some x) (hn : n ≤ x) (hb : (m.insert a (x - n)).get? b = some y) :
    ∀ z, ((m.insert a (x - n)).insert b (y + n)).getD z 0 + (if z = a then n else 0) =
      m.getD z 0 + if z = b then n else 0 := by
  intro z
  simp only [FMap.getD, FMap.get?_insert] at hb ⊢
  by_cases hab : b = a
  · subst hab
    simp only [if_true, Option.some.injEq] at hb
    by_cases hz : z = b
    · subst hz; simp [ha]; omega
    · simp [hz]
  · simp only [hab, if_false] at hb
    by_cases hz : z = b
    · subst hz; simp [hab, hb]
    · by_cases hza : z = a
      · subst hza; simp [hz, ha]; omega
      · simp [hz, hza]

theorem shareTransfer_get {p q : Pool} {a b : AccountId} {n : Nat}
    (h : p.shareTransfer a b n = .ok q) :
    ∃ x y, p.shares.get? a = some x ∧ n ≤ x ∧ (p.shares.insert a (x - n)).get? b = some y ∧
      q.shares = (p.shares.insert a (x - n)).insert b (y + n) := by
  cases p with
  | simple p =>
    replace h := map_simple_ok h
    obtain ⟨q', h, rfl⟩ := h
    unfold SimplePool.shareTransfer at h
    unpack at h
    obtain ⟨x, hx, hn, y, hy, -, rfl⟩ := h
    exact ⟨x, y, hx, hn, hy, rfl⟩
  | curve p =>
    replace h := map_curve_ok h
    obtain ⟨q', h, rfl⟩ := h
    unfold CurvePool.shareTransfer at h
    unpack at h
    obtain ⟨x, hx, hn, y, hy, -, rfl⟩ := h
    exact ⟨x, y, hx, hn, hy, rfl⟩

/-- A transfer moves exactly `n` shares from `a` to `b`. -/
theorem shareTransfer_shares {p q : Pool} {a b : AccountId} {n : Nat}
    (h : p.shareTransfer a b n = .ok q) :
    n ≤ p.shareBalance a ∧
    (∀ z, q.shareBalance z + (if z = a then n else 0) =
      p.shareBalance z + if z = b then n else 0) ∧
    (∀ z, p.shareRegistered z = true → q.shareRegistered z = true) := by
  obtain ⟨x, y, hx, hn, hy, hq⟩ := shareTransfer_get h
  refine ⟨by simpa [shareBalance, FMap.getD, hx] using hn, ?_, ?_⟩
  · intro z
    unfold shareBalance
    rw [hq]
    exact transferred hx hn hy z
  · intro z hz
    unfold shareRegistered FMap.contains at *
    rw [hq]
    simp only [FMap.get?_insert]
    split
    · rfl
    · split
      · rfl
      · exact hz

theorem Sound.shareTransfer {p q : Pool} {a b : AccountId} {n : Nat} (hp : p.Sound)
    (h : p.shareTransfer a b n = .ok q) : q.Sound := by
  have hs := (shareTransfer_only h).shape
  cases p with
  | simple p =>
    replace h := map_simple_ok h
    obtain ⟨q', h, rfl⟩ := h
    refine ⟨hp.1.transfer h, ?_⟩
    have := hp.2
    simp only [Pool.shape, Prod.mk.injEq, List.cons.injEq] at hs
    rw [hs.2.1.1, hs.2.1.2.1]; exact this
  | curve p =>
    replace h := map_curve_ok h
    obtain ⟨q', h, rfl⟩ := h
    refine ⟨hp.1.transfer h, ?_⟩
    simp only [Pool.shape, Prod.mk.injEq] at hs
    rw [hs.2.1]; exact hp.2

theorem shareRegister_only {p q : Pool} {a : AccountId} (h : p.shareRegister a = .ok q) :
    OnlyShares p q ∧ p.shares.contains a = false ∧ q.shares = p.shares.insert a 0 := by
  cases p with
  | simple p =>
    replace h := map_simple_ok h
    obtain ⟨q', h, rfl⟩ := h
    unfold SimplePool.shareRegister at h
    unpack at h
    obtain ⟨hc, rfl⟩ := h
    exact ⟨⟨rfl, rfl, rfl, rfl, rfl⟩, hc, rfl⟩
  | curve p =>
    replace h := map_curve_ok h
    obtain ⟨q', h, rfl⟩ := h
    unfold CurvePool.shareRegister at h
    unpack at h
    obtain ⟨hc, rfl⟩ := h
    exact ⟨⟨rfl, rfl, rfl, rfl, rfl⟩, hc, rfl⟩

theorem shareRegister_shares {p q : Pool} {a : AccountId} (h : p.shareRegister a = .ok q) :
    ∀ z, q.shareBalance z = p.shareBalance z := by
  obtain ⟨-, hc, hq⟩ := shareRegister_only h
  intro z
  unfold shareBalance
  rw [hq]
  simp only [FMap.getD, FMap.get?_insert]
  split
  · rename_i hz; subst hz
    unfold FMap.contains at hc
    cases hg : p.shares.get? z <;> simp_all
  · rfl

theorem Sound.shareRegister {p q : Pool} {a : AccountId} (hp : p.Sound)
    (h : p.shareRegister a = .ok q) : q.Sound := by
  have hs := (shareRegister_only h).1.shape
  cases p with
  | simple p =>
    replace h := map_simple_ok h
    obtain ⟨q', h, rfl⟩ := h
    refine ⟨hp.1.register h, ?_⟩
    have := hp.2
    simp only [Pool.shape, Prod.mk.injEq, List.cons.injEq] at hs
    rw [hs.2.1.1, hs.2.1.2.1]; exact this
  | curve p =>
    replace h := map_curve_ok h
    obtain ⟨q', h, rfl⟩ := h
    refine ⟨hp.1.register h, ?_⟩
    simp only [Pool.shape, Prod.mk.injEq] at hs
    rw [hs.2.1]; exact hp.2

theorem shareUnregister_only {p q : Pool} {a : AccountId} (h : p.shareUnregister a = .ok q) :
    OnlyShares p q ∧ p.shares.get? a = some 0 ∧ q.shares = p.shares.erase a := by
  cases p with
  | simple p =>
    replace h := map_simple_ok h
    obtain ⟨q', h, rfl⟩ := h
    unfold SimplePool.shareUnregister at h
    unpack at h
    obtain ⟨x, hc, rfl, rfl⟩ := h
    exact ⟨⟨rfl, rfl, rfl, rfl, rfl⟩, hc, rfl⟩
  | curve p =>
    replace h := map_curve_ok h
    obtain ⟨q', h, rfl⟩ := h
    unfold CurvePool.shareUnregister at h
    unpack at h
    obtain ⟨x, hc, rfl, rfl⟩ := h
    exact ⟨⟨rfl, rfl, rfl, rfl, rfl⟩, hc, rfl⟩

theorem shareUnregister_shares {p q : Pool} {a : AccountId} (h : p.shareUnregister a = .ok q) :
    p.shareBalance a = 0 ∧ ∀ z, q.shareBalance z = p.shareBalance z := by
  obtain ⟨-, hc, hq⟩ := shareUnregister_only h
  refine ⟨by simp [shareBalance, FMap.getD, hc], ?_⟩
  intro z
  unfold shareBalance
  rw [hq]
  simp only [FMap.getD, FMap.get?_erase]
  split
  · rename_i hz; subst hz; simp [hc]
  · rfl

theorem Sound.shareUnregister {p q : Pool} {a : AccountId} (hp : p.Sound)
    (h : p.shareUnregister a = .ok q) : q.Sound := by
  have hs := (shareUnregister_only h).1.shape
  cases p with
  | simple p =>
    replace h := map_simple_ok h
    obtain ⟨q', h, rfl⟩ := h
    refine ⟨hp.1.unregister h, ?_⟩
    have := hp.2
    simp only [Pool.shape, Prod.mk.injEq, List.cons.injEq] at hs
    rw [hs.2.1.1, hs.2.1.2.1]; exact this
  | curve p =>
    replace h := map_curve_ok h
    obtain ⟨q', h, rfl⟩ := h
    refine ⟨hp.1.unregister h, ?_⟩
    simp only [Pool.shape, Prod.mk.injEq] at hs
    rw [hs.2.1]; exact hp.2

/-- Only the amplification may differ. -/
structure OnlyAmp (p q : Pool) : Prop where
  shape : q.shape = p.shape
  fee : q.totalFee = p.totalFee
  supply : q.supply = p.supply
  weighted : q.weighted = p.weighted
  amounts : q.amounts = p.amounts
  shares : q.shares = p.shares
  sound : p.Sound → q.Sound

theorem OnlyAmp.atoms {p q : Pool} (h : OnlyAmp p q) (t : AccountId) : q.atoms t = p.atoms t := by
  unfold Pool.atoms; rw [tokens_of_shape h.shape, h.weighted]

theorem ramp_only {p q : Pool} {f ft now : Nat} {env : R CurveEnv}
    (h : p.ramp f ft now env = .ok q) : OnlyAmp p q := by
  cases p with
  | simple p => cases h
  | curve p =>
    unfold Pool.ramp at h
    unpack at h
    obtain ⟨e, -, h⟩ := h
    replace h := map_curve_ok h
    obtain ⟨q', h, rfl⟩ := h
    unfold CurvePool.ramp at h
    unpack at h
    obtain ⟨-, -, -, -, _, -, -, -, -, rfl⟩ := h
    exact ⟨rfl, rfl, rfl, rfl, rfl, rfl, fun hp => ⟨⟨hp.1.sum, hp.1.len, hp.1.decs, hp.1.range, hp.1.fee,
      hp.1.fit, hp.1.supply⟩, hp.2⟩⟩

theorem stopRamp_only {p q : Pool} {now : Nat} {env : R CurveEnv}
    (h : p.stopRamp now env = .ok q) : OnlyAmp p q := by
  cases p with
  | simple p => cases h
  | curve p =>
    unfold Pool.stopRamp at h
    unpack at h
    obtain ⟨e, -, h⟩ := h
    replace h := map_curve_ok h
    obtain ⟨q', h, rfl⟩ := h
    unfold CurvePool.stopRamp at h
    unpack at h
    obtain ⟨_, -, rfl⟩ := h
    exact ⟨rfl, rfl, rfl, rfl, rfl, rfl, fun hp => ⟨⟨hp.1.sum, hp.1.len, hp.1.decs, hp.1.range, hp.1.fee,
      hp.1.fit, hp.1.supply⟩, hp.2⟩⟩

theorem setFee_facts (p : Pool) (f : Nat) :
    (p.setFee f).shape = p.shape ∧ (p.setFee f).totalFee = f ∧ (p.setFee f).supply = p.supply ∧
    (p.setFee f).weighted = p.weighted ∧ (p.setFee f).shares = p.shares ∧
    (p.setFee f).amounts = p.amounts := by
  cases p <;> exact ⟨rfl, rfl, rfl, rfl, rfl, rfl⟩

theorem Sound.setFee {p : Pool} (hp : p.Sound) {f : Nat} (hf : f < 10000) : (p.setFee f).Sound := by
  cases p with
  | simple p =>
    exact ⟨⟨hp.1.sum, hp.1.pos, hp.1.zero, hf, hp.1.amt0, hp.1.amt1, hp.1.supply⟩, hp.2⟩
  | curve p =>
    exact ⟨⟨hp.1.sum, hp.1.len, hp.1.decs, hp.1.range, hf, hp.1.fit, hp.1.supply⟩, hp.2⟩

/-! #### New pools -/

theorem new_simple_sound {tokens : List AccountId} {fee : Nat} {p : SimplePool}
    (hn : tokens.Nodup) (h : SimplePool.new tokens fee = .ok p) :
    (Pool.simple p).Sound ∧ (Pool.simple p).tokens = tokens ∧ p.shares = FMap.empty ∧
    p.supply = 0 ∧ ∀ t, (Pool.simple p).atoms t = 0 := by
  unfold SimplePool.new at h
  unpack at h
  obtain ⟨hf, h⟩ := h
  split at h
  · rename_i t0 t1
    cases h
    refine ⟨⟨⟨rfl, by simp, by simp, hf, by simp, by simp, by simp⟩, by simpa using hn⟩, rfl, rfl,
      rfl, ?_⟩
    intro t; simp [atoms, weighted, tokens, flow]
  · cases h

theorem new_curve_sound {kind : CurveKind} {tokens : List AccountId} {decs : List Nat}
    {amp fee : Nat} {p : CurvePool} (hl : tokens.length = decs.length) (hn : tokens.Nodup)
    (h : CurvePool.new kind tokens decs amp fee = .ok p) :
    (Pool.curve p).Sound ∧ (Pool.curve p).tokens = tokens ∧ p.shares = FMap.empty ∧
    p.supply = 0 ∧ p.kind = kind ∧ p.decs = decs ∧ ∀ t, (Pool.curve p).atoms t = 0 := by
  have hs := CurvePool.Sound.new hl h
  unfold CurvePool.new at h
  unpack at h
  obtain ⟨hd, -, -, hf, rfl⟩ := h
  refine ⟨⟨hs, hn⟩, rfl, rfl, rfl, rfl, rfl, ?_⟩
  intro t
  have key : ∀ (us : List AccountId) (us' : List AccountId) (ds : List Nat),
      flow us (List.zipWith (fun c d => c * kind.weight d) (us'.map fun _ => 0) ds) t = 0 := by
    intro us
    induction us with
    | nil => intros; simp
    | cons u us ih =>
      intro us' ds
      cases us' with
      | nil => simp
      | cons v us' =>
        cases ds with
        | nil => simp
        | cons d ds => simp only [List.map_cons, List.zipWith_cons_cons, flow, ih]; simp
  exact key tokens tokens decs

end Pool
end Verif

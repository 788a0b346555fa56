import Verif.Exchange.PredictProps
import Verif.Exchange.PoolSteps

/-
C92: larger deposits and withdrawals get no less, and none gets more by being made in parts.
-/

namespace Verif

/-! ### Arithmetic -/

/-- Paying `n1` of `S` shares, rounded down, and then `N` of the rest is no more than paying all at
once. -/
theorem parts_le {R S n1 N X : Nat} (h1 : n1 ≤ S) (hN : N ≤ S - n1) (hr : R * n1 / S ≤ R)
    (hX : X * (S - n1) ≤ (R - R * n1 / S) * N) (h0 : S - n1 = 0 → X = 0) :
    (R * n1 / S + X) * S ≤ R * (n1 + N) := by
  have hd : R * n1 / S * S ≤ R * n1 := Nat.div_mul_le_self _ _
  generalize R * n1 / S = r at *
  obtain ⟨T, rfl⟩ := Nat.exists_eq_add_of_le h1
  obtain ⟨Q, rfl⟩ := Nat.exists_eq_add_of_le hr
  rw [Nat.add_sub_cancel_left] at *
  rw [Nat.add_sub_cancel_left] at hX
  rcases Nat.eq_zero_or_pos T with rfl | hT
  · rw [h0 rfl]
    have : N = 0 := by omega
    subst this
    simpa using hd
  · refine Nat.le_of_mul_le_mul_left ?_ hT
    obtain ⟨M, rfl⟩ := Nat.exists_eq_add_of_le hN
    -- `hX : X * (N + M) ≤ Q * N` and `hd : r * (n1 + (N + M)) ≤ (r + Q) * n1`
    nlinarith [Nat.mul_le_mul_right (n1 + (N + M)) hX, Nat.mul_le_mul_right M hd]

/-- Rounding a sum down loses no more than rounding its terms. -/
theorem sum_div_le (m u : Nat) : ∀ l : List Nat, (l.map fun x => x * m / u).sum ≤ l.sum * m / u
  | [] => by simp
  | a :: l => by
    have h := sum_div_le m u l
    simp only [List.map_cons, List.sum_cons, Nat.add_mul]
    refine le_trans (Nat.add_le_add_left h _) ?_
    rcases Nat.eq_zero_or_pos u with rfl | hu
    · simp
    · rw [Nat.le_div_iff_mul_le hu, Nat.add_mul]
      exact Nat.add_le_add (Nat.div_mul_le_self _ _) (Nat.div_mul_le_self _ _)

/-! ### What a withdrawal pays -/

namespace Pool

/-- The reserves as the pool keeps them: in units of the token, or of the curve. -/
def kept : Pool → List Nat
  | .simple p => [p.amt0, p.amt1]
  | .curve p => p.cAmts

/-- Units of token `i` for a unit kept, and units kept for a unit of the token; one of them is 1. -/
def perKept : Pool → Nat → Nat × Nat
  | .simple _, _ => (1, 1)
  | .curve p, i => (p.kind.tokPerC (p.decs.getD i 0), p.kind.cPerTok (p.decs.getD i 0))

theorem perKept_pos (p : Pool) (i : Nat) : 0 < (p.perKept i).2 := by
  cases p with
  | simple p => exact Nat.one_pos
  | curve p => exact p.kind.cPerTok_pos _

theorem remove_pays {p q : Pool} {s : AccountId} {n : Nat} {mins paid : List Nat} {v : Bool}
    (h : p.removeLiquidity s n mins v = .ok (q, paid)) :
    n ≤ p.supply ∧ q.supply = p.supply - n ∧ q.perKept = p.perKept ∧
    paid.length = p.kept.length ∧
    ∀ (i R : Nat), p.kept[i]? = some R → p.supply ≠ 0 ∧ R * n / p.supply ≤ R ∧
      q.kept[i]? = some (R - R * n / p.supply) ∧
      paid[i]? = some (R * n / p.supply * (p.perKept i).1 / (p.perKept i).2) := by
  replace h := removeLiquidity_cases h
  rcases h with ⟨p, q, rfl, rfl, h⟩ | ⟨p, q, rfl, rfl, h⟩
  · obtain ⟨_, _, _, _, -, rfl, hS, hn, rfl, rfl, -, -, l0, l1, e0, e1, es, -⟩ :=
      Verif.removeLiquidity_ok h
    refine ⟨hn, es, rfl, rfl, ?_⟩
    intro i R hR
    match i with
    | 0 =>
      cases hR
      exact ⟨by show p.supply ≠ 0; omega, l0, by simp [kept, e0, supply], by simp [perKept, supply]⟩
    | 1 =>
      cases hR
      exact ⟨by show p.supply ≠ 0; omega, l1, by simp [kept, e1, supply], by simp [perKept, supply]⟩
    | i + 2 => simp [kept] at hR
  · obtain ⟨-, hn, hs, hl, hf, -⟩ := CurvePool.removeByShares_ok h
    obtain ⟨h1, h2, h3, h4⟩ := CurvePool.removeLoop_ok hl
    refine ⟨hn, hs, ?_, h2, ?_⟩
    · funext i
      rw [hf]
      rfl
    · intro i R hR
      obtain ⟨d, m, a, hd, -, ha, hle, hq, -, hc, -⟩ := h4 i R hR
      refine ⟨h3 (by intro h0; simp only [kept] at hR; rw [h0] at hR; simp at hR), hle, hq, ?_⟩
      rw [ha, (CurvePool.cToAmount_ok hc).1]
      simp [perKept, supply, List.getD, hd]

end Pool

namespace Contract

/-- Withdrawals from one pool one after the other, each by its own account; the amounts paid. -/
def removeParts (c : Contract) (id : Nat) : List (Ctx × Nat × List Nat) →
    R (Contract × List (List Nat))
  | [] => .ok (c, [])
  | (x, n, mins) :: l => do
    let (c1, paid) ← c.removeLiquidity x id n mins
    let (c2, pays) ← c1.removeParts id l
    .ok (c2, paid :: pays)

/-- The shares of all parts. -/
def partShares (l : List (Ctx × Nat × List Nat)) : Nat := (l.map fun z => z.2.1).sum

/-- What all parts paid of token number `i`. -/
def partsPaid (pays : List (List Nat)) (i : Nat) : Nat := (pays.map fun a => a.getD i 0).sum

theorem predictRemove_ok {c : Contract} {id n : Nat} {paid : List Nat}
    (h : c.predictRemove id n = .ok paid) :
    ∃ p q, c.pools[id]? = some p ∧
      p.removeLiquidity VIEW n (p.tokens.map fun _ => 0) true = .ok (q, paid) := by
  unfold predictRemove at h
  unpack at h
  obtain ⟨p, hp, q, paid', h, rfl⟩ := h
  exact ⟨p, q, pool_ok.1 hp, h⟩

/-- **C92**, withdrawals. Of two withdrawals in the same state, the one of more shares pays no less of
any token. -/
theorem C92_remove_more {c : Contract} {id n n' : Nat} {paid paid' : List Nat}
    (h : c.predictRemove id n = .ok paid) (h' : c.predictRemove id n' = .ok paid') (hn : n ≤ n') :
    paid.length = paid'.length ∧ ∀ (i a a' : Nat), paid[i]? = some a → paid'[i]? = some a' → a ≤ a' := by
  obtain ⟨p, q, hp, h⟩ := predictRemove_ok h
  obtain ⟨p', q', hp', h'⟩ := predictRemove_ok h'
  rw [hp] at hp'; cases hp'
  obtain ⟨-, -, -, hl, k⟩ := Pool.remove_pays h
  obtain ⟨-, -, -, hl', k'⟩ := Pool.remove_pays h'
  refine ⟨hl.trans hl'.symm, ?_⟩
  intro i a a' ha ha'
  obtain ⟨hi, -⟩ := List.getElem?_eq_some_iff.1 ha
  obtain ⟨-, -, -, e⟩ := k i _ (List.getElem?_eq_getElem (hl ▸ hi))
  obtain ⟨-, -, -, e'⟩ := k' i _ (List.getElem?_eq_getElem (hl ▸ hi))
  rw [e] at ha; cases ha
  rw [e'] at ha'; cases ha'
  exact Nat.div_le_div_right (Nat.mul_le_mul_right _ (Nat.div_le_div_right (Nat.mul_le_mul_left _ hn)))

/-- One part, as seen by the pool. -/
theorem removePart_pool {c c' : Contract} {x : Ctx} {id n : Nat} {mins paid : List Nat}
    (h : c.removeLiquidity x id n mins = .ok (c', paid)) :
    ∃ p q, c.pools[id]? = some p ∧ c'.pools[id]? = some q ∧
      p.removeLiquidity x.pred n mins false = .ok (q, paid) := by
  obtain ⟨tw, p, q, acc, acc', -, -, hp, -, -, -, hr, -, -, rfl⟩ := removeLiquidity_inv h
  refine ⟨p, q, hp, ?_, hr⟩
  simp only
  rw [List.getElem?_set_self (List.getElem?_eq_some_iff.1 hp).1]

/-- All parts together take no more than their part of the reserve. -/
theorem removeParts_le {id : Nat} {l : List (Ctx × Nat × List Nat)} {c c' : Contract}
    {pays : List (List Nat)} (h : c.removeParts id l = .ok (c', pays)) {p : Pool}
    (hp : c.pools[id]? = some p) {i R : Nat} (hR : p.kept[i]? = some R) :
    partShares l ≤ p.supply ∧ (partShares l ≠ 0 → p.supply ≠ 0) ∧ ∃ xs : List Nat,
      (pays.map fun a => a.getD i 0) = xs.map (fun x => x * (p.perKept i).1 / (p.perKept i).2) ∧
      xs.sum * p.supply ≤ R * partShares l ∧ (p.supply = 0 → xs.sum = 0) := by
  induction l generalizing c pays p R with
  | nil => cases h; exact ⟨Nat.zero_le _, fun h => absurd rfl h, [], rfl, by simp, fun _ => rfl⟩
  | cons z l ih =>
    obtain ⟨x, n, mins⟩ := z
    unfold removeParts at h
    unpack at h
    obtain ⟨c1, paid, h1, c2, pays', h2, rfl, rfl⟩ := h
    obtain ⟨p', q, hp', hq, hr⟩ := removePart_pool h1
    rw [hp] at hp'; cases hp'
    obtain ⟨hn, hs, hk, -, hall⟩ := Pool.remove_pays hr
    obtain ⟨hS, hle, hqi, hpi⟩ := hall i R hR
    obtain ⟨g1, -, xs, g3, g4, g5⟩ := ih h2 hq hqi
    rw [hs] at g1 g4 g5
    rw [hk] at g3
    have e : partShares ((x, n, mins) :: l) = n + partShares l := by simp [partShares]
    rw [e]
    refine ⟨by omega, fun _ => hS, (R * n / p.supply) :: xs, ?_, ?_, fun h => absurd h hS⟩
    · rw [List.map_cons, List.map_cons, g3]
      simp [List.getD, hpi]
    · rw [List.sum_cons]
      exact parts_le hn g1 hle g4 g5

/-- **C92**, withdrawals in parts. Several withdrawals one after the other, by whomever, together pay
no more of any token than one withdrawal of all their shares would have paid. -/
theorem C92_remove_parts {c c' : Contract} {id : Nat} {l : List (Ctx × Nat × List Nat)}
    {pays : List (List Nat)} {paid : List Nat} (h : c.removeParts id l = .ok (c', pays))
    (h1 : c.predictRemove id (partShares l) = .ok paid) {i a : Nat} (ha : paid[i]? = some a) :
    partsPaid pays i ≤ a := by
  obtain ⟨p, q, hp, h1⟩ := predictRemove_ok h1
  obtain ⟨-, -, -, hl, k⟩ := Pool.remove_pays h1
  obtain ⟨hi, -⟩ := List.getElem?_eq_some_iff.1 ha
  have hR := List.getElem?_eq_getElem (hl ▸ hi)
  obtain ⟨hS, -, -, e⟩ := k i _ hR
  rw [e] at ha; cases ha
  obtain ⟨-, -, xs, g3, g4, -⟩ := removeParts_le h hp hR
  unfold partsPaid
  rw [g3]
  refine le_trans (sum_div_le _ _ _) ?_
  refine Nat.div_le_div_right (Nat.mul_le_mul_right _ ?_)
  rw [Nat.le_div_iff_mul_le (Nat.pos_of_ne_zero hS)]
  exact g4

/-- Every part takes, up to a unit of the token, its part of what the reserve was at the start. -/
theorem removeParts_ge {id : Nat} {l : List (Ctx × Nat × List Nat)} {c c' : Contract}
    {pays : List (List Nat)} (h : c.removeParts id l = .ok (c', pays)) {p : Pool}
    (hp : c.pools[id]? = some p) {i R u : Nat} (hR : p.kept[i]? = some R)
    (hu : p.perKept i = (1, u)) (hu0 : 0 < u) {R0 S0 : Nat} (hge : R0 * p.supply ≤ R * S0)
    (hS0 : 0 < S0) :
    l.length = pays.length ∧
    (l ≠ [] → R0 * partShares l < (partsPaid pays i + l.length) * u * S0) := by
  induction l generalizing c pays p R with
  | nil => cases h; exact ⟨rfl, fun h => absurd rfl h⟩
  | cons z l ih =>
    obtain ⟨x, n, mins⟩ := z
    unfold removeParts at h
    unpack at h
    obtain ⟨c1, paid, h1, c2, pays', h2, rfl, rfl⟩ := h
    obtain ⟨p', q, hp', hq, hr⟩ := removePart_pool h1
    rw [hp] at hp'; cases hp'
    obtain ⟨hn, hs, hk, -, hall⟩ := Pool.remove_pays hr
    obtain ⟨hS, hle, hqi, hpi⟩ := hall i R hR
    have hSp : 0 < p.supply := Nat.pos_of_ne_zero hS
    have hge' : R0 * q.supply ≤ (R - R * n / p.supply) * S0 := by
      rw [hs]
      have hd : R * n / p.supply * p.supply ≤ R * n := Nat.div_mul_le_self _ _
      generalize R * n / p.supply = r at *
      generalize p.supply = S at *
      obtain ⟨T, rfl⟩ := Nat.exists_eq_add_of_le hn
      obtain ⟨Q, rfl⟩ := Nat.exists_eq_add_of_le hle
      rw [Nat.add_sub_cancel_left, Nat.add_sub_cancel_left]
      refine Nat.le_of_mul_le_mul_left ?_ hSp
      nlinarith [Nat.mul_le_mul_right T hge, Nat.mul_le_mul_right S0 hd]
    obtain ⟨g1, g2⟩ := ih h2 hq hqi (by rw [hk]; exact hu) hge'
    refine ⟨by simp [g1], fun _ => ?_⟩
    have e : partShares ((x, n, mins) :: l) = n + partShares l := by simp [partShares]
    have e2 : partsPaid (paid :: pays') i = R * n / p.supply / u + partsPaid pays' i := by
      simp [partsPaid, List.getD, hpi, hu]
    rw [e, e2, List.length_cons]
    have hone : R0 * n < (R * n / p.supply / u + 1) * u * S0 := by
      rw [Nat.div_div_eq_div_mul]
      have hlt : R * n < p.supply * u * (R * n / (p.supply * u) + 1) :=
        Nat.lt_mul_div_succ _ (Nat.mul_pos hSp hu0)
      generalize R * n / (p.supply * u) = r at *
      refine Nat.lt_of_mul_lt_mul_left (a := p.supply) ?_
      have := Nat.mul_le_mul_right n hge
      have := Nat.mul_lt_mul_of_pos_right hlt hS0
      nlinarith
    by_cases hl : l = []
    · subst hl
      cases h2
      simpa [partShares, partsPaid] using hone
    · have := g2 hl
      generalize R * n / p.supply / u = r at *
      nlinarith

/-- **C92**, withdrawals in parts: nor do they lose more than a unit of the token for every part after
the first, unless the token is counted in units finer than those of the curve. -/
theorem C92_remove_parts_loss {c c' : Contract} {id : Nat} {l : List (Ctx × Nat × List Nat)}
    {pays : List (List Nat)} {paid : List Nat} {p : Pool} (h : c.removeParts id l = .ok (c', pays))
    (h1 : c.predictRemove id (partShares l) = .ok paid) (hp : c.pools[id]? = some p) {i a : Nat}
    (hu1 : (p.perKept i).1 = 1) (ha : paid[i]? = some a) :
    a < partsPaid pays i + max l.length 1 := by
  obtain ⟨u, hu⟩ : ∃ u, p.perKept i = (1, u) := ⟨_, Prod.ext hu1 rfl⟩
  have hu0 : 0 < u := by
    have := p.perKept_pos i
    rw [hu] at this
    exact this
  obtain ⟨p', q, hp', h1⟩ := predictRemove_ok h1
  rw [hp] at hp'; cases hp'
  obtain ⟨-, -, -, hl, k⟩ := Pool.remove_pays h1
  obtain ⟨hi, -⟩ := List.getElem?_eq_some_iff.1 ha
  have hR := List.getElem?_eq_getElem (hl ▸ hi)
  obtain ⟨hS, -, -, e⟩ := k i _ hR
  rw [e] at ha; cases ha
  rw [hu]
  by_cases hnil : l = []
  · subst hnil
    cases h
    simp [partShares, partsPaid]
  · have hpos : 0 < l.length := List.length_pos_iff.2 hnil
    have := (removeParts_ge h hp hR hu hu0 (Nat.le_refl _) (Nat.pos_of_ne_zero hS)).2 hnil
    rw [Nat.max_eq_left hpos]
    simp only [Nat.mul_one]
    rw [Nat.div_div_eq_div_mul, Nat.div_lt_iff_lt_mul (Nat.mul_pos (Nat.pos_of_ne_zero hS) hu0)]
    generalize partsPaid pays i + l.length = s at *
    rw [Nat.mul_comm p.supply, ← Nat.mul_assoc]
    exact this

/-! ### Deposits in constant-product pools -/

/-- Deposits in one pool one after the other, each by its own account; the shares credited. -/
def addParts (c : Contract) (id : Nat) : List (Ctx × List Nat × Option (List Nat)) →
    R (Contract × List Nat)
  | [] => .ok (c, [])
  | (x, am, mins) :: l => do
    let (c1, _, n) ← c.addLiquidity x id am mins
    let (c2, ns) ← c1.addParts id l
    .ok (c2, n :: ns)

/-- What all parts offer of token number `i`. -/
def partsOffered (l : List (Ctx × List Nat × Option (List Nat))) (i : Nat) : Nat :=
  (l.map fun z => z.2.1.getD i 0).sum

theorem predictAdd_simple {c : Contract} {id n : Nat} {am used : List Nat}
    (h : c.predictAdd id am = .ok (used, n)) :
    ∃ p q, c.pools[id]? = some (.simple p) ∧ p.addLiquidity VIEW am true = .ok (q, used, n) := by
  unfold predictAdd at h
  unpack at h
  obtain ⟨p, hp, q, used', n', h, rfl, rfl⟩ := h
  cases p with
  | simple p =>
    unfold Pool.addLiquidity at h
    unpack at h
    obtain ⟨q', used', n', h, -, rfl, rfl⟩ := h
    exact ⟨p, q', pool_ok.1 hp, h⟩
  | curve p => cases h

/-- **C92**, deposits in constant-product pools. Of two deposits in the same state, the one that offers
no less of either token is credited no fewer shares. -/
theorem C92_add_more {c : Contract} {id n n' a0 a1 b0 b1 : Nat} {used used' : List Nat}
    (h : c.predictAdd id [a0, a1] = .ok (used, n))
    (h' : c.predictAdd id [b0, b1] = .ok (used', n')) (h0 : a0 ≤ b0) (h1 : a1 ≤ b1) :
    n ≤ n' := by
  obtain ⟨p, q, hp, h⟩ := predictAdd_simple h
  obtain ⟨p', q', hp', h'⟩ := predictAdd_simple h'
  rw [hp] at hp'; cases hp'
  obtain ⟨_, _, _, _, e, -, -, -, -, -, -, -, -, -, -, -, -, -, -, k⟩ := Verif.addLiquidity_ok h
  obtain ⟨_, _, _, _, e', -, -, -, -, -, -, -, -, -, -, -, -, -, -, k'⟩ := Verif.addLiquidity_ok h'
  simp only [List.cons.injEq, and_true] at e e'
  obtain ⟨rfl, rfl⟩ := e
  obtain ⟨rfl, rfl⟩ := e'
  rcases k with ⟨hs, -, -, rfl, -⟩ | ⟨hs, -, -, rfl⟩
  · rcases k' with ⟨-, -, -, rfl, -⟩ | ⟨hs', -⟩
    · have e0 := Nat.div_le_div_right (c := p.amt0)
        (Nat.mul_le_mul_right p.supply (Nat.sub_le_sub_right h0 1))
      have e1 := Nat.div_le_div_right (c := p.amt1)
        (Nat.mul_le_mul_right p.supply (Nat.sub_le_sub_right h1 1))
      omega
    · omega
  · rcases k' with ⟨hs', -⟩ | ⟨-, -, -, rfl⟩
    · omega
    · exact Nat.le_refl _

theorem addPart_pool {c c' : Contract} {x : Ctx} {id n : Nat} {am : List Nat}
    {mins : Option (List Nat)} {outs : List Out} {p : SimplePool}
    (h : c.addLiquidity x id am mins = .ok (c', outs, n)) (hp : c.pools[id]? = some (.simple p)) :
    ∃ q used, c'.pools[id]? = some (.simple q) ∧
      p.addLiquidity x.pred am false = .ok (q, used, n) := by
  obtain ⟨tw, p', q, used, acc, acc', fee, -, -, hp', -, hr, -, -, -, -, -, rfl⟩ := addLiquidity_inv h
  rw [hp] at hp'; cases hp'
  unfold Pool.addLiquidity at hr
  unpack at hr
  obtain ⟨q', used', n', hr, rfl, rfl, rfl⟩ := hr
  refine ⟨q', _, ?_, hr⟩
  simp only
  rw [List.getElem?_set_self (List.getElem?_eq_some_iff.1 hp).1]

/-- Every part is credited at most its part of the supply at the start. -/
theorem addParts_le {id : Nat} {l : List (Ctx × List Nat × Option (List Nat))} {c c' : Contract}
    {ns : List Nat} (h : c.addParts id l = .ok (c', ns)) {p : SimplePool}
    (hp : c.pools[id]? = some (.simple p)) (hS : 0 < p.supply) {P0 P1 S0 : Nat}
    (g0 : P0 * p.supply ≤ p.amt0 * S0) (g1 : P1 * p.supply ≤ p.amt1 * S0) :
    ns.sum * P0 + l.length * S0 ≤ partsOffered l 0 * S0 ∧
    ns.sum * P1 + l.length * S0 ≤ partsOffered l 1 * S0 := by
  induction l generalizing c ns p with
  | nil => cases h; simp
  | cons z l ih =>
    obtain ⟨x, am, mins⟩ := z
    unfold addParts at h
    unpack at h
    obtain ⟨c1, outs, n, h1, c2, ns', h2, rfl, rfl⟩ := h
    obtain ⟨q, used, hq, hr⟩ := addPart_pool h1 hp
    obtain ⟨a0, a1, b0, b1, rfl, -, hn, e0, e1, es, -, -, -, -, -, -, -, ha0, ha1, k⟩ :=
      Verif.addLiquidity_ok hr
    rcases k with ⟨-, hP0, hP1, hmin, rfl, rfl⟩ | ⟨h0, -⟩
    swap
    · omega
    have step : ∀ {P R a b r : Nat}, P * p.supply ≤ R * S0 → 0 < R → 0 < a →
        n ≤ (a - 1) * p.supply / R → b = R * n / p.supply + 1 → r = R + b →
        P * q.supply ≤ r * S0 ∧ n * P + S0 ≤ a * S0 := by
      intro P R a b r hg hR ha hle hb hr
      have hlt : R * n < p.supply * (R * n / p.supply + 1) := Nat.lt_mul_div_succ _ hS
      rw [← hb] at hlt
      rw [Nat.le_div_iff_mul_le hR] at hle
      obtain ⟨a, rfl⟩ := Nat.exists_eq_add_of_le ha
      rw [Nat.add_sub_cancel_left] at hle
      rw [es, hr]
      clear hb ih h1 h2 hr
      generalize p.supply = S at *
      constructor
      · refine Nat.le_of_mul_le_mul_left ?_ hS
        nlinarith [Nat.mul_le_mul_right n hg, Nat.mul_le_mul_right S hg,
          Nat.mul_le_mul_right S0 hlt.le]
      · have : n * P ≤ a * S0 := by
          refine Nat.le_of_mul_le_mul_left ?_ (Nat.mul_pos hS hR)
          nlinarith [Nat.mul_le_mul_right (R * n) hg, Nat.mul_le_mul_right (R * S0) hle]
        nlinarith
    obtain ⟨s0, t0⟩ := step g0 (Nat.pos_of_ne_zero hP0) ha0 (by rw [hmin]; exact Nat.min_le_left _ _)
      rfl e0
    obtain ⟨s1, t1⟩ := step g1 (Nat.pos_of_ne_zero hP1) ha1 (by rw [hmin]; exact Nat.min_le_right _ _)
      rfl e1
    obtain ⟨i0, i1⟩ := ih h2 hq (by omega) s0 s1
    have o0 : partsOffered ((x, [a0, a1], mins) :: l) 0 = a0 + partsOffered l 0 := by
      simp [partsOffered]
    have o1 : partsOffered ((x, [a0, a1], mins) :: l) 1 = a1 + partsOffered l 1 := by
      simp [partsOffered]
    rw [o0, o1, List.sum_cons, List.length_cons]
    constructor <;> nlinarith

/-- **C92**, deposits in parts. Several deposits one after the other, by whomever, in a
constant-product pool that has shares, are together credited no more shares than one deposit of all
that they offer would have been. -/
theorem C92_add_parts {c c' : Contract} {id n : Nat} {l : List (Ctx × List Nat × Option (List Nat))}
    {ns used : List Nat} (h : c.addParts id l = .ok (c', ns)) (hl : l ≠ [])
    (h1 : c.predictAdd id [partsOffered l 0, partsOffered l 1] = .ok (used, n)) {p : Pool}
    (hp : c.pools[id]? = some p) (hS : 0 < p.supply) : ns.sum ≤ n := by
  obtain ⟨p', q, hp', h1⟩ := predictAdd_simple h1
  rw [hp] at hp'; cases hp'
  obtain ⟨_, _, _, _, e, -, -, -, -, -, -, -, -, -, -, -, -, -, -, k⟩ := Verif.addLiquidity_ok h1
  simp only [List.cons.injEq, and_true] at e
  obtain ⟨rfl, rfl⟩ := e
  have hS' : 0 < p'.supply := hS
  obtain ⟨i0, i1⟩ := addParts_le h hp hS' (Nat.le_refl _) (Nat.le_refl _)
  have hpos : 1 ≤ l.length := List.length_pos_iff.2 hl
  rcases k with ⟨-, hP0, hP1, rfl, -⟩ | ⟨h0, -⟩
  swap
  · omega
  have key : ∀ {P a : Nat}, 0 < P → ns.sum * P + l.length * p'.supply ≤ a * p'.supply →
      ns.sum ≤ (a - 1) * p'.supply / P := by
    intro P a hP hle
    rw [Nat.le_div_iff_mul_le hP, Nat.sub_mul, Nat.one_mul]
    have := Nat.mul_le_mul_right p'.supply hpos
    omega
  exact Nat.le_min.2 ⟨key (Nat.pos_of_ne_zero hP0) i0, key (Nat.pos_of_ne_zero hP1) i1⟩

/-! ### Examples -/

section Examples
open Demo

/-- Alice takes out shares of the constant-product pool in three parts and gets two units less of one
token than in one go. -/
def threeParts : List (Ctx × Nat × List Nat) :=
  [(y al, 123456789123456789, [0, 0]), (y al, 10 ^ 23 + 7, [1, 1]), (y al, 99999999999999999999999, [1, 1])]

example : (c2.removeParts 0 threeParts).holds (fun r => r.2.length = 3 ∧
    partsPaid r.2 0 ≤ 20000 ∧ 19998 ≤ partsPaid r.2 0) = true := by decide +kernel

example : (c2.predictRemove 0 (partShares threeParts)).holds (fun a => a = [20000, 80000]) = true := by
  decide +kernel

example : (c2.removeParts 1 [(y al, 10 ^ 23 + 1, [1, 1]), (y al, 10 ^ 22 + 3, [0, 0])]).holds (fun r =>
    partsPaid r.2 0 ≤ 55 * 10 ^ 21 + 2) = true := by decide +kernel

example : ((c2.pools[0]?.map fun p => (p.perKept 1).1) = some 1) ∧
    (c2.pools[1]?.map fun p => (p.perKept 1).1) = some 1 := by decide +kernel

/-- Two deposits in the constant-product pool and the one deposit of the sum. -/
example : (c2.addParts 0 [(Demo.near al, [1000, 4100], none), (Demo.near al, [333, 1333], none)]).holds (fun r =>
    r.2.length = 2 ∧ 0 < r.2.sum) = true := by decide +kernel

example : (c2.predictAdd 0 [1333, 5433]).isOk = true := by decide +kernel

end Examples

end Contract
end Verif

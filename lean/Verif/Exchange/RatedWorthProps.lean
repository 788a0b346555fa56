import Verif.Curve.RatedWorth
import Verif.Exchange.CurveWorthProps

/-
C85: over every history, what shares of a rated or degen pool are worth never falls while the rates
stay, except by a fixed number of units for each operation on the pool.
-/

namespace Verif
namespace CurvePool

theorem op_kind {p q : CurvePool} (h : (Pool.curve p).Op (.curve q)) : q.kind = p.kind := by
  have hs := h.shape
  simp only [Pool.shape, Prod.mk.injEq] at hs
  simpa using hs.1

theorem Same.ratedWorth {A h : Nat} {rs : List Nat} {p q : CurvePool} (hs : Same p q) :
    q.ratedWorth A rs h = p.ratedWorth A rs h := by
  unfold CurvePool.ratedWorth
  rw [ratedValue_congr hs.amounts (op_kind hs.op), hs.supply]

/-- What one operation at the rates `rs` can take from the worth of `h` shares. -/
theorem Change.ratedWorth {A B c g h : Nat} {R : CurveEnv → Prop} {rs : List Nat} {p q : CurvePool}
    (hc : Change 8000 R p q) (hR : ∀ e, R e → e.rates = rs ∧ AmpIs A e.now p) (hp : p.Sound) (hq : q.Sound) (tp : RatedTame A B c g rs p)
    (tq : RatedTame A B c g rs q) (hroom : RatedRoom p.cAmts.length B c g) (hA : 1 ≤ A) (h0 : 0 < h)
    (hp' : h ≤ p.supply) (hq' : h ≤ q.supply) :
    p.ratedWorth A rs h ≤ q.ratedWorth A rs h + ratedLoss p.cAmts.length c g := by
  have hk := op_kind hc.op
  have hlen : q.cAmts.length = p.cAmts.length := by
    have hs := hc.op.shape
    simp only [Pool.shape, Prod.mk.injEq] at hs
    rw [hq.len, hp.len, hs.2.1]
  cases hc with
  | swap h hb he =>
    obtain ⟨rfl, ha⟩ := hR _ he
    exact swap_ratedWorth tp tq hroom hk hlen ha hb h0 hp' hq' h
  | add h hb he =>
    obtain ⟨rfl, ha⟩ := hR _ he
    exact addLiquidity_ratedWorth tp tq hroom hp hk hlen ha (hb.trans (by decide)) h0 hp' hq' h
  | removeByShares h => exact removeByShares_ratedWorth tp tq hroom hA h0 hp' hq' h
  | removeByTokens h hb he =>
    obtain ⟨rfl, ha⟩ := hR _ he
    exact removeByTokens_ratedWorth tp tq hroom hp hk hlen ha (hb.trans (by decide)) h0 hp' hq' h

/-- **C85**, for one pool. Along any sequence of swaps, deposits, withdrawals and other operations at
the rates `rs`, as long as the pool stays of ordinary size and shape, uses the amplification `A` and there
are at least `h` shares, the worth of `h` shares falls by at most `ratedLoss` units for each operation that moves
reserves. -/
theorem C85_pool {A B c g h k : Nat} {R : CurveEnv → Prop} {rs : List Nat} {p q : CurvePool}
    {vs : List CurvePool} (hpath : Path 8000 R p vs k q) (hR : ∀ e, R e → e.rates = rs)
    (hp : (Pool.curve p).Sound) (hA : 1 ≤ A) (h0 : 0 < h) (hroom : RatedRoom p.cAmts.length B c g)
    (ht : ∀ r ∈ vs, RatedTame A B c g rs r ∧ h ≤ r.supply ∧ ∀ e, R e → AmpIs A e.now r) :
    p.ratedWorth A rs h ≤ q.ratedWorth A rs h + k * ratedLoss p.cAmts.length c g := by
  induction hpath with
  | nil => simp
  | @change vs k q r hq hc ih =>
    have ih := ih fun r hr => ht r (List.mem_cons_of_mem _ hr)
    obtain ⟨hs, hl⟩ := hq.sound hp
    obtain ⟨tq, sq, aq⟩ := ht q (List.mem_cons_of_mem _ hq.last)
    obtain ⟨tr, sr, -⟩ := ht r (List.mem_cons_self ..)
    have := hc.ratedWorth (fun e he => ⟨hR e he, aq e he⟩) hs.1 (hc.op.sound hs).1 tq tr (by rw [hl]; exact hroom) hA h0 sq sr
    rw [hl] at this
    push_cast
    linarith
  | same _ hc ih =>
    rw [hc.ratedWorth]
    exact ih fun r hr => ht r (List.mem_cons_of_mem _ hr)

/-- **C85**, the rates. If rates only rise, shares are worth no less than before. -/
theorem C85_rates_rise {A h : Nat} {rs rs' : List Nat} {p : CurvePool} (hk : p.kind ≠ .stable)
    (hr : List.Forall₂ (· ≤ ·) rs rs') : p.ratedWorth A rs h ≤ p.ratedWorth A rs' h := by
  have hle : List.Forall₂ (· ≤ ·) (p.atRates rs) (p.atRates rs') := by
    rw [atRates_zip hk, atRates_zip hk]
    generalize p.cAmts = cs
    induction hr generalizing cs with
    | nil => simp
    | cons h _ ih =>
      cases cs with
      | nil => simp
      | cons x cs => exact .cons (Nat.div_le_div_right (Nat.mul_le_mul_left _ h)) (ih cs)
  have hv : p.ratedValue A rs ≤ p.ratedValue A rs' := by
    by_cases hne : p.atRates rs' = []
    · have h1 := hle.length_eq
      rw [hne] at h1
      have h2 := List.length_eq_zero_iff.1 h1
      have h3 := ratedValue_le (A := A) (rs := rs) (p := p)
      rw [h2] at h3
      simp at h3
      omega
    · exact ratedValue_max hne (ratedValue_spec.grow hle)
  unfold CurvePool.ratedWorth
  have : (p.ratedValue A rs : ℚ) ≤ p.ratedValue A rs' := by exact_mod_cast hv
  gcongr

theorem ratedWorth_le_holdings (A h : Nat) (rs : List Nat) (p : CurvePool) :
    p.ratedWorth A rs h ≤ h * (p.atRates rs).sum / p.supply := by
  unfold CurvePool.ratedWorth
  have : (p.ratedValue A rs : ℚ) ≤ (p.atRates rs).sum := by exact_mod_cast ratedValue_le
  gcongr

theorem ratedWorth_balanced (A h : Nat) {x n : Nat} {rs : List Nat} {p : CurvePool} (hn : 0 < n)
    (hp : p.atRates rs = List.replicate n x) :
    p.ratedWorth A rs h = h * (p.atRates rs).sum / p.supply := by
  have hv : p.ratedValue A rs = (p.atRates rs).sum := by
    refine Nat.le_antisymm ratedValue_le (ratedValue_max (by rw [hp]; simp; omega) ?_)
    rw [hp, List.sum_replicate, smul_eq_mul]
    exact OnOrAboveCurve.even A n x
  unfold CurvePool.ratedWorth
  rw [hv]

/-- **C85**, rising rates. Let the rates and the amplification rise from time to time, from `rs` and `A`
at the start to `rs'` and `A'` at the end. The worth of `h` shares at the end, with the rates and the
amplification of the end, is at least their worth at the start, up to `ratedLoss` units for each
operation that moved reserves. -/
theorem C85_rising_pool {B c g h n : Nat} {p q : CurvePool} {l : List Leg} (hl : Legs 8000 p l q)
    (hp : (Pool.curve p).Sound) (h0 : 0 < h) (hn : p.cAmts.length = n) (hroom : RatedRoom n B c g)
    (ht : ∀ x ∈ l, 1 ≤ x.amp ∧ ∀ r ∈ x.states, RatedTame x.amp B c g x.rates r ∧ h ≤ r.supply ∧
      ∀ t ∈ x.times, AmpIs x.amp t r) :
    ∀ (A A' : Nat) (rs rs' : List Nat), l.head?.map (·.amp) = some A →
      l.getLast?.map (·.amp) = some A' → l.head?.map (·.rates) = some rs →
      l.getLast?.map (·.rates) = some rs' → (l.map (·.amp)).IsChain (· ≤ ·) →
      (l.map (·.rates)).IsChain (List.Forall₂ (· ≤ ·)) →
      p.ratedWorth A rs h ≤ q.ratedWorth A' rs' h +
        ((l.map (·.moves)).sum : Nat) * ratedLoss n c g := by
  induction hl with
  | nil => intro A A' rs rs' h1; simp at h1
  | @cons p q r x l hpath hrest ih =>
    intro A A' rs rs' h1 h2 h3 h4 h5 h6
    simp only [List.head?_cons, Option.map_some, Option.some.injEq] at h1 h3
    subst h1 h3
    obtain ⟨hA, hx⟩ := ht _ (List.mem_cons_self ..)
    have hw := C85_pool hpath (fun e he => he.2) hp hA h0 (by rw [hn]; exact hroom) fun r hr =>
      ⟨(hx r hr).1, (hx r hr).2.1, fun e he => (hx r hr).2.2 _ he.1⟩
    obtain ⟨hs, hlen⟩ := hpath.sound hp
    rw [hn] at hw hlen
    cases hrest with
    | nil =>
      simp only [List.getLast?_singleton, Option.map_some, Option.some.injEq] at h2 h4
      subst h2 h4
      simpa using hw
    | @cons _ q' _ x' l' hpath' hrest' =>
      simp only [List.map_cons, List.isChain_cons_cons] at h5 h6
      rw [List.getLast?_cons_cons] at h2 h4
      have ih := ih hs hlen (fun x hx => ht x (List.mem_cons_of_mem _ hx)) x'.amp A' x'.rates rs'
        (by simp) h2 (by simp) h4 (by simpa using h5.2) (by simpa using h6.2)
      obtain ⟨tq, -, -⟩ := hx q hpath.last
      have hr := ratedWorth_amp h tq.ne h5.1
      have hr' := C85_rates_rise (A := x'.amp) (h := h) tq.kind h6.1
      have : (((x :: x' :: l').map (·.moves)).sum : Nat) = x.moves + ((x' :: l').map (·.moves)).sum := by
        simp
      rw [this]
      push_cast at ih ⊢
      nlinarith

/-- **C85**, in tokens. If the pool was evenly balanced at the start, at the rates `rs`, what `h`
shares stand for has at least the same price at these rates at the end as at the start, up to
`ratedLoss` for each operation that moved reserves. -/
theorem C85_balanced {A B c g h k x n : Nat} {R : CurveEnv → Prop} {rs : List Nat} {p q : CurvePool}
    {vs : List CurvePool} (hpath : Path 8000 R p vs k q) (hR : ∀ e, R e → e.rates = rs)
    (hp : (Pool.curve p).Sound) (hA : 1 ≤ A) (h0 : 0 < h) (hn : 0 < n)
    (hx : p.atRates rs = List.replicate n x) (hroom : RatedRoom p.cAmts.length B c g)
    (ht : ∀ r ∈ vs, RatedTame A B c g rs r ∧ h ≤ r.supply ∧ ∀ e, R e → AmpIs A e.now r) :
    (h : ℚ) * (p.atRates rs).sum / p.supply ≤
      h * (q.atRates rs).sum / q.supply + k * ratedLoss p.cAmts.length c g := by
  have hw := C85_pool hpath hR hp hA h0 hroom ht
  rw [ratedWorth_balanced A h hn hx] at hw
  linarith [ratedWorth_le_holdings A h rs q]

end CurvePool

namespace Contract
open Demo

/-- **C85**. Someone keeps `h` shares of a rated or degen pool while anything may happen, in any order
and from any reachable state. As long as the rates or prices of its tokens are `rs`, the pool stays of
ordinary size and shape and uses the amplification `A`, the worth of these shares, their part of
the pool's invariant, has not fallen by more than `ratedLoss` units for each swap in the pool and each
request to change its liquidity. -/
theorem C85_worth (es : List Event) {c : Contract} (hc : c.Reachable)
    (hb : c.cfg.adminFeeBps ≤ 8000) {id : Nat} {p : CurvePool}
    (hp : c.pools[id]? = some (.curve p)) {rs : List Nat}
    (hrs : ∀ u, c.EnvDuring es p u → u.rates = rs) :
    ∃ steps q vs, c.History es steps ∧ (c.run es).pools[id]? = some (.curve q) ∧
      (∃ k, p.Path 8000 (c.EnvDuring es p) vs k q) ∧
      ∀ {A B d g h : Nat}, 1 ≤ A → 0 < h → CurvePool.RatedRoom p.cAmts.length B d g →
        (∀ r ∈ vs, CurvePool.RatedTame A B d g rs r ∧ h ≤ r.supply ∧ ∀ e ∈ es, r.AmpIs A e.now) →
        p.ratedWorth A rs h ≤ q.ratedWorth A rs h +
          (swapsOf steps id + (es.flatMap Event.liquidity).count id : Nat) *
            CurvePool.ratedLoss p.cAmts.length d g := by
  obtain ⟨steps, q, vs, k, h1, h2, h3, h4⟩ := C84_path es (le_refl 8000) hb hp
  refine ⟨steps, q, vs, h1, h2, ⟨k, h3⟩, fun {A B d g h} hA h0 hroom ht => ?_⟩
  refine (CurvePool.C85_pool h3 hrs (hc.sound _ (List.mem_of_getElem? hp)) hA h0 hroom
    fun r hr => ⟨(ht r hr).1, (ht r hr).2.1, fun u hu => hu.amp (ht r hr).2.2⟩).trans ?_
  have : (k : ℚ) ≤ (swapsOf steps id + (es.flatMap Event.liquidity).count id : Nat) := by
    exact_mod_cast h4
  nlinarith [Nat.cast_nonneg (α := ℚ) (CurvePool.ratedLoss p.cAmts.length d g)]

/-- **C85**, rising rates. Someone keeps `h` shares of a rated or degen pool while anything may happen,
in any order and from any reachable state, and the rates or prices of its tokens and its amplification
rise from time to time, from `rs` and `A` when the first of the events happens to `rs'` and `A'` when the
last one does. As long as the pool stays of ordinary size and shape, the worth of these shares with the
rates and the amplification of the end has not fallen below their worth with those of the start by more
than `ratedLoss` units for each swap in the pool and each request to change its liquidity. -/
theorem C85_rising (l : List Period) {c : Contract} (hc : c.Reachable)
    (hb : c.cfg.adminFeeBps ≤ 8000) {id : Nat} {p : CurvePool}
    (hp : c.pools[id]? = some (.curve p)) (hrates : c.RatesIn p l)
    (hrise : (l.map (·.rates)).IsChain (List.Forall₂ (· ≤ ·)))
    (hrise' : (l.map (·.amp)).IsChain (· ≤ ·)) {A A' : Nat} {rs rs' : List Nat}
    (hA : l.head?.map (·.amp) = some A) (hA' : l.getLast?.map (·.amp) = some A')
    (hrs : l.head?.map (·.rates) = some rs) (hrs' : l.getLast?.map (·.rates) = some rs') :
    ∃ steps q w, c.History (allEvents l) steps ∧
      (c.run (allEvents l)).pools[id]? = some (.curve q) ∧ p.Legs 8000 w q ∧ LegsOf l w ∧
      ∀ {B d g h : Nat}, 0 < h → CurvePool.RatedRoom p.cAmts.length B d g →
        (∀ x ∈ w, 1 ≤ x.amp ∧ ∀ r ∈ x.states, CurvePool.RatedTame x.amp B d g x.rates r ∧
          h ≤ r.supply ∧ ∀ t ∈ x.times, r.AmpIs x.amp t) →
        p.ratedWorth A rs h ≤ q.ratedWorth A' rs' h +
          (swapsOf steps id + ((allEvents l).flatMap Event.liquidity).count id : Nat) *
            CurvePool.ratedLoss p.cAmts.length d g := by
  obtain ⟨steps, q, w, h1, h2, h3, h4, h5⟩ := legs_of (le_refl 8000) l hb hp hrates
  refine ⟨steps, q, w, h1, h2, h3, h4, fun {B d g h} h0 hroom ht => ?_⟩
  refine (CurvePool.C85_rising_pool h3 (hc.sound _ (List.mem_of_getElem? hp)) h0 rfl hroom ht A A' rs
    rs' ?_ ?_ ?_ ?_ (by rw [h4.amps]; exact hrise') (by rw [h4.rates]; exact hrise)).trans ?_
  · rw [← List.head?_map] at hA ⊢; rw [h4.amps]; exact hA
  · rw [← List.getLast?_map] at hA' ⊢; rw [h4.amps]; exact hA'
  · rw [← List.head?_map] at hrs ⊢; rw [h4.rates]; exact hrs
  · rw [← List.getLast?_map] at hrs' ⊢; rw [h4.rates]; exact hrs'
  have : (((w.map (·.moves)).sum : Nat) : ℚ) ≤
      (swapsOf steps id + ((allEvents l).flatMap Event.liquidity).count id : Nat) := by
    exact_mod_cast h5
  nlinarith [Nat.cast_nonneg (α := ℚ) (CurvePool.ratedLoss p.cAmts.length d g)]

/-! ### An example -/

instance (A B c g : Nat) (rs : List Nat) (p : CurvePool) :
    Decidable (CurvePool.RatedTame A B c g rs p) :=
  decidable_of_iff (p.kind ≠ .stable ∧ rs.length = p.cAmts.length ∧ p.cAmts ≠ [] ∧
      OnOrAboveCurve A B (p.atRates rs) 0 ∧
      (∀ x ∈ p.atRates rs, x * p.cAmts.length + 2 * g ≤ c * B) ∧
      (∀ x ∈ p.atRates rs, 6 * B ≤ c * x) ∧ (p.atRates rs).sum ≤ c * p.supply ∧
      ∀ r ∈ rs, r ≤ g * PRECISION)
    ⟨fun ⟨a, b, c, d, e, f, g, h⟩ => ⟨a, b, c, d, e, f, g, h⟩,
      fun ⟨a, b, c, d, e, f, g, h⟩ => ⟨a, b, c, d, e, f, g, h⟩⟩

/-- Others trade in the demo degen pool, add to it and take from it in both ways. -/
def ratedWorthDemo : List Event := [
  .call (by' A) (.ftOnTransfer bo (3 * 10 ^ 18)
    (.execute none [.swap ⟨3, A, none, B, 1⟩] false none none)),
  .call (Demo.near al) (.addStableLiquidity 3 [10 ^ 19, 10 ^ 19] 1),
  .call (y al) (.removeLiquidity 3 (10 ^ 25) [1, 1]),
  .call (y al) (.removeByTokens 3 [10 ^ 18, 5 * 10 ^ 17] (10 ^ 25))]

/-- The degen pool of the demo in a state of the contract. -/
def demoDegen (c : Contract) : CurvePool :=
  match (c.pools[3]? : Option Pool) with
  | some (.curve p) => p
  | _ => exRated

/-- The prices of the tokens of the demo pool. -/
def demoPrices : List Nat := [2 * 10 ^ 24, 10 ^ 24]

example : c4.cfg.adminFeeBps ≤ 8000 ∧ (ratedWorthDemo.flatMap Event.liquidity).count 3 = 3 ∧
    (∀ n < 5, ((c4.run (ratedWorthDemo.take n)).cfg.env 0 (.curve (demoDegen c4))).holds
      (fun e => e.rates = demoPrices) = true) ∧
    CurvePool.RatedRoom 2 (3 * 10 ^ 26) 12 2 ∧ CurvePool.ratedLoss 2 12 2 = 2172 ∧
    (∀ n < 5, CurvePool.RatedTame 100 (3 * 10 ^ 26) 12 2 demoPrices
        (demoDegen (c4.run (ratedWorthDemo.take n))) ∧
      10 ^ 26 ≤ (demoDegen (c4.run (ratedWorthDemo.take n))).supply ∧
      ∀ e ∈ ratedWorthDemo, (demoDegen (c4.run (ratedWorthDemo.take n))).AmpIs 100 e.now) ∧
    (List.range 5).Pairwise (fun n m => (demoDegen (c4.run (ratedWorthDemo.take n))).cAmts ≠
      (demoDegen (c4.run (ratedWorthDemo.take m))).cAmts) := by
  refine ⟨by decide +kernel, by decide +kernel, by decide +kernel,
    by unfold CurvePool.RatedRoom CurvePool.dError; decide +kernel, by decide +kernel,
    by decide +kernel, by decide +kernel⟩

/-- The same while the price of the first token rises by five per cent. -/
def risingDemo : List Period := [
  ⟨ratedWorthDemo.take 2 ++ [.price A (21 * 10 ^ 23) (10 ^ 18)], 100, demoPrices⟩,
  ⟨ratedWorthDemo.drop 2, 100, [21 * 10 ^ 23, 10 ^ 24]⟩]

example : (∀ n < 3, ((c4.run ((allEvents risingDemo).take n)).cfg.env 0
      (.curve (demoDegen c4))).holds (fun e => e.rates = demoPrices) = true) ∧
    (∀ n < 2, ((c4.run ((allEvents risingDemo).take (3 + n))).cfg.env 0
      (.curve (demoDegen c4))).holds (fun e => e.rates = [21 * 10 ^ 23, 10 ^ 24]) = true) ∧
    (risingDemo.map (·.rates)).IsChain (List.Forall₂ (· ≤ ·)) ∧
    CurvePool.RatedRoom 2 (3 * 10 ^ 26) 12 3 ∧
    (∀ n < 4, CurvePool.RatedTame 100 (3 * 10 ^ 26) 12 3 demoPrices
        (demoDegen (c4.run ((allEvents risingDemo).take n)))) ∧
    (∀ n < 3, CurvePool.RatedTame 100 (3 * 10 ^ 26) 12 3 [21 * 10 ^ 23, 10 ^ 24]
        (demoDegen (c4.run ((allEvents risingDemo).take (3 + n))))) ∧
    (∀ n < 6, 10 ^ 26 ≤ (demoDegen (c4.run ((allEvents risingDemo).take n))).supply ∧
      ∀ e ∈ allEvents risingDemo,
        (demoDegen (c4.run ((allEvents risingDemo).take n))).AmpIs 100 e.now) ∧
    (demoDegen (c4.run ((allEvents risingDemo).take 4))).cAmts ≠
      (demoDegen (c4.run (allEvents risingDemo))).cAmts := by
  refine ⟨by decide +kernel, by decide +kernel, ?_,
    by unfold CurvePool.RatedRoom CurvePool.dError; decide +kernel, by decide +kernel,
    by decide +kernel, by decide +kernel, by decide +kernel⟩
  simp [risingDemo, demoPrices]

end Contract
end Verif

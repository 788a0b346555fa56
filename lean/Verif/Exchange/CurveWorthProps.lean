import Verif.Exchange.CurvePath
import Verif.Exchange.PoolProps

/-
C84: over every history, what shares of a stable-swap pool are worth never falls, except by a fixed
number of units for each operation on the pool.
-/

namespace Verif
namespace CurvePool

theorem Same.worth {A h : Nat} {p q : CurvePool} (hs : Same p q) : q.worth A h = p.worth A h := by
  unfold CurvePool.worth
  rw [value_congr hs.amounts, hs.supply]

/-- What one operation can take from the worth of `h` shares. -/
theorem Change.worth {A B c h : Nat} {R : CurveEnv → Prop} {p q : CurvePool} (hc : Change 10000 R p q)
    (hamp : ∀ e, R e → AmpIs A e.now p) (hp : p.Sound) (hq : q.Sound) (tp : Tame A B c p) (tq : Tame A B c q) (hroom : Room p.cAmts.length B c)
    (hA : 1 ≤ A) (h0 : 0 < h) (hp' : h ≤ p.supply) (hq' : h ≤ q.supply) :
    p.worth A h ≤ q.worth A h + opLoss p.cAmts.length c := by
  have hlen : q.cAmts.length = p.cAmts.length := by
    have hs := hc.op.shape
    simp only [Pool.shape, Prod.mk.injEq] at hs
    rw [hq.len, hp.len, hs.2.1]
  cases hc with
  | swap h hb he => exact swap_worth tp tq hroom (hamp _ he) hb h0 hp' hq' h
  | add h hb he => exact addLiquidity_worth tp tq hroom hp (hamp _ he) hb h0 hp' hq' hlen h
  | removeByShares h => exact removeByShares_worth tp hA h0 hp' hq' h
  | removeByTokens h hb he => exact removeByTokens_worth tp tq hroom hp (hamp _ he) hb h0 hp' hq' hlen h

theorem Path.start {b k : Nat} {R : CurveEnv → Prop} {p q : CurvePool} {vs : List CurvePool}
    (h : Path b R p vs k q) : p ∈ vs := by
  induction h with
  | nil => simp
  | change _ _ ih => exact List.mem_cons_of_mem _ ih
  | same _ _ ih => exact List.mem_cons_of_mem _ ih

theorem Path.last {b k : Nat} {R : CurveEnv → Prop} {p q : CurvePool} {vs : List CurvePool}
    (h : Path b R p vs k q) : q ∈ vs := by
  cases h <;> simp

theorem Path.sound {b k : Nat} {R : CurveEnv → Prop} {p q : CurvePool} {vs : List CurvePool}
    (h : Path b R p vs k q) (hp : (Pool.curve p).Sound) :
    (Pool.curve q).Sound ∧ q.cAmts.length = p.cAmts.length := by
  have step : ∀ {r s : CurvePool}, (Pool.curve r).Op (.curve s) →
      (Pool.curve r).Sound ∧ r.cAmts.length = p.cAmts.length →
      (Pool.curve s).Sound ∧ s.cAmts.length = p.cAmts.length := by
    rintro r s ho ⟨hr, hl⟩
    have hs := ho.shape
    simp only [Pool.shape, Prod.mk.injEq] at hs
    refine ⟨ho.sound hr, ?_⟩
    rw [(ho.sound hr).1.len, hs.2.1, ← hr.1.len, hl]
  induction h with
  | nil => exact ⟨hp, rfl⟩
  | change _ hc ih => exact step hc.op ih
  | same _ hc ih => exact step hc.op ih

/-- **C84**, for one pool. Along any sequence of swaps, deposits, withdrawals and other operations,
as long as the pool stays of ordinary size and shape, uses the amplification `A` and there are at least
`h` shares, the worth of `h` shares falls by at most `opLoss` units for each operation that moves reserves. -/
theorem C84_pool {A B c h k : Nat} {R : CurveEnv → Prop} {p q : CurvePool} {vs : List CurvePool}
    (hpath : Path 10000 R p vs k q) (hp : (Pool.curve p).Sound) (hA : 1 ≤ A) (h0 : 0 < h)
    (hroom : Room p.cAmts.length B c)
    (ht : ∀ r ∈ vs, Tame A B c r ∧ h ≤ r.supply ∧ ∀ e, R e → AmpIs A e.now r) :
    p.worth A h ≤ q.worth A h + k * opLoss p.cAmts.length c := by
  induction hpath with
  | nil => simp
  | @change vs k q r hq hc ih =>
    have ih := ih fun r hr => ht r (List.mem_cons_of_mem _ hr)
    obtain ⟨hs, hl⟩ := hq.sound hp
    obtain ⟨tq, sq, aq⟩ := ht q (List.mem_cons_of_mem _ hq.last)
    obtain ⟨tr, sr, -⟩ := ht r (List.mem_cons_self ..)
    have := hc.worth aq hs.1 (hc.op.sound hs).1 tq tr (by rw [hl]; exact hroom) hA h0 sq sr
    rw [hl] at this
    push_cast
    linarith
  | same _ hc ih =>
    rw [hc.worth]
    exact ih fun r hr => ht r (List.mem_cons_of_mem _ hr)

theorem worth_le_holdings (A h : Nat) (p : CurvePool) : p.worth A h ≤ h * p.cAmts.sum / p.supply := by
  unfold CurvePool.worth
  have : (p.value A : ℚ) ≤ p.cAmts.sum := by exact_mod_cast value_le
  gcongr

theorem worth_balanced (A h : Nat) {x n : Nat} {p : CurvePool} (hn : 0 < n)
    (hp : p.cAmts = List.replicate n x) : p.worth A h = h * p.cAmts.sum / p.supply := by
  have hv : p.value A = p.cAmts.sum := by
    refine Nat.le_antisymm value_le (value_max (by rw [hp]; simp; omega) ?_)
    rw [hp, List.sum_replicate, smul_eq_mul]
    exact OnOrAboveCurve.even A n x
  unfold CurvePool.worth
  rw [hv]

/-- **C84**, in tokens. If the pool was evenly balanced at the start, `h` shares stand for at least as
many tokens (counted together, in the pool's common unit) at the end as at the start, up to
`opLoss` for each operation that moved reserves. -/
theorem C84_balanced {A B c h k x n : Nat} {R : CurveEnv → Prop} {p q : CurvePool}
    {vs : List CurvePool} (hpath : Path 10000 R p vs k q) (hp : (Pool.curve p).Sound) (hA : 1 ≤ A) (h0 : 0 < h)
    (hn : 0 < n) (hx : p.cAmts = List.replicate n x) (hroom : Room n B c)
    (ht : ∀ r ∈ vs, Tame A B c r ∧ h ≤ r.supply ∧ ∀ e, R e → AmpIs A e.now r) :
    (h : ℚ) * p.cAmts.sum / p.supply ≤ h * q.cAmts.sum / q.supply + k * opLoss n c := by
  have hl : p.cAmts.length = n := by rw [hx, List.length_replicate]
  have hw := C84_pool hpath hp hA h0 (by rw [hl]; exact hroom) ht
  rw [worth_balanced A h hn hx, hl] at hw
  linarith [worth_le_holdings A h q]

/-- A part of the path of a pool: the times at which something happens, the amplification and the rates
of the pool's tokens, the states of the pool on the way and the number of operations that move
reserves. -/
structure Leg where
  times : List Nat
  amp : Nat
  rates : List Nat
  states : List CurvePool
  moves : Nat

/-- A path of a pool in several parts. -/
inductive Legs (b : Nat) : CurvePool → List Leg → CurvePool → Prop where
  | nil {p : CurvePool} : Legs b p [] p
  | cons {p q r : CurvePool} {x : Leg} {l : List Leg} :
      Path b (fun e => e.now ∈ x.times ∧ e.rates = x.rates) p x.states x.moves q → Legs b q l r →
      Legs b p (x :: l) r

/-- **C84**, rising amplification. Let the amplification rise from time to time, from `A` at the start
to `A'` at the end. The worth of `h` shares at the end, with the amplification of the end, is at least
their worth at the start, up to `opLoss` units for each operation that moved reserves. -/
theorem C84_rising_pool {B c h n : Nat} {p q : CurvePool} {l : List Leg} (hl : Legs 10000 p l q)
    (hp : (Pool.curve p).Sound) (h0 : 0 < h) (hn : p.cAmts.length = n) (hroom : Room n B c)
    (ht : ∀ x ∈ l, 1 ≤ x.amp ∧ ∀ r ∈ x.states, Tame x.amp B c r ∧ h ≤ r.supply ∧
      ∀ t ∈ x.times, AmpIs x.amp t r) :
    ∀ A A' : Nat, l.head?.map (·.amp) = some A → l.getLast?.map (·.amp) = some A' →
      (l.map (·.amp)).IsChain (· ≤ ·) →
      p.worth A h ≤ q.worth A' h + ((l.map (·.moves)).sum : Nat) * opLoss n c := by
  induction hl with
  | nil => intro A A' h1; simp at h1
  | @cons p q r x l hpath hrest ih =>
    intro A A' h1 h2 h3
    simp only [List.head?_cons, Option.map_some, Option.some.injEq] at h1
    subst h1
    obtain ⟨hA, hx⟩ := ht _ (List.mem_cons_self ..)
    have hw := C84_pool hpath hp hA h0 (by rw [hn]; exact hroom) fun r hr =>
      ⟨(hx r hr).1, (hx r hr).2.1, fun e he => (hx r hr).2.2 _ he.1⟩
    obtain ⟨hs, hlen⟩ := hpath.sound hp
    rw [hn] at hw hlen
    cases hrest with
    | nil =>
      simp only [List.getLast?_singleton, Option.map_some, Option.some.injEq] at h2
      subst h2
      simpa using hw
    | @cons _ q' _ x' l' hpath' hrest' =>
      simp only [List.map_cons, List.isChain_cons_cons] at h3
      have ih := ih hs hlen (fun x hx => ht x (List.mem_cons_of_mem _ hx)) x'.amp A' (by simp)
        (by rw [List.getLast?_cons_cons] at h2; exact h2) (by simpa using h3.2)
      have hr := worth_amp h (hx q hpath.last).1.some h3.1
      have : (((x :: x' :: l').map (·.moves)).sum : Nat) = x.moves + ((x' :: l').map (·.moves)).sum := by
        simp
      rw [this]
      push_cast at ih ⊢
      nlinarith

end CurvePool

namespace Contract
open Demo

/-- The time of one of the events, with the rates that the contract had for the tokens of pool `p` when
it happened. -/
def EnvDuring (c : Contract) (es : List Event) (p : CurvePool) (u : CurveEnv) : Prop :=
  ∃ n e, es[n]? = some e ∧ (c.run (es.take n)).cfg.EnvOf e.now p u

theorem EnvDuring.time {c : Contract} {es : List Event} {p : CurvePool} {u : CurveEnv}
    (h : c.EnvDuring es p u) : u.now ∈ es.map Event.now := by
  obtain ⟨n, e, he, hu⟩ := h
  rw [hu.now_eq]
  exact List.mem_map_of_mem (List.mem_of_getElem? he)

theorem EnvDuring.amp {A : Nat} {c : Contract} {es : List Event} {p r : CurvePool} {u : CurveEnv}
    (h : c.EnvDuring es p u) (ha : ∀ e ∈ es, r.AmpIs A e.now) : r.AmpIs A u.now := by
  obtain ⟨e, he, hu⟩ := List.mem_map.1 h.time
  rw [← hu]
  exact ha e he

/-- **C84**, the operations. Whatever happens to the contract, a stable-swap pool only goes from one
state to the next by its own operations, at the time and with the rates of one of the events, and
reserves move at most once for each swap in the pool and each request to change its liquidity. The
protocol's part of the fees is at most `b`. -/
theorem C84_path (es : List Event) {b : Nat} (hb8 : 8000 ≤ b) : ∀ {c : Contract}
    (_ : c.cfg.adminFeeBps ≤ b) {id : Nat} {p : CurvePool} (_ : c.pools[id]? = some (.curve p)),
    ∃ steps q vs k, c.History es steps ∧ (c.run es).pools[id]? = some (.curve q) ∧
      p.Path b (c.EnvDuring es p) vs k q ∧
      k ≤ swapsOf steps id + (es.flatMap Event.liquidity).count id := by
  induction es with
  | nil =>
    intro c hb id p hp
    exact ⟨[], p, _, 0, rfl, hp, .nil, Nat.zero_le _⟩
  | cons e es ih =>
    intro c hb id p hp
    have hb' : (c.step e).cfg.adminFeeBps ≤ b := by
      rcases C22_admin_fee [e] c with h1 | h1
      · change (c.step e).cfg.adminFeeBps = _ at h1
        omega
      · change (c.step e).cfg.adminFeeBps ≤ _ at h1
        omega
    have first : ∀ u, c.cfg.EnvOf e.now p u → c.EnvDuring (e :: es) p u :=
      fun u hu => ⟨0, e, rfl, hu⟩
    have later : ∀ p' : CurvePool, (Pool.curve p').shape = (Pool.curve p).shape →
        ∀ u, (c.step e).EnvDuring es p' u → c.EnvDuring (e :: es) p u := by
      rintro p' hs u ⟨n, e', hn, hu⟩
      rw [Config.envOf_congr hs] at hu
      exact ⟨n + 1, e', by simpa using hn, hu⟩
    have hstep : c.step e = match c.apply e with | .ok r => r.1 | .error _ => c := rfl
    cases ha : c.apply e with
    | error err =>
      rw [ha] at hstep
      simp only at hstep
      obtain ⟨steps, q, vs, k, h1, h2, h3, h4⟩ := ih hb' (by rw [hstep]; exact hp)
      refine ⟨steps, q, vs, k, ⟨[], steps, rfl, by rw [ha], h1⟩, h2, h3.mono (later p rfl), ?_⟩
      rw [List.flatMap_cons, List.count_append]
      omega
    | ok r =>
      obtain ⟨c1, outs⟩ := r
      rw [ha] at hstep
      simp only at hstep
      obtain ⟨s1, m1, hw⟩ := apply_path ha hb id
      obtain ⟨p1, vs1, k1, hp1, w1, hk1⟩ := hw p hp
      obtain ⟨s2, q, vs2, k2, m2, hq, w2, hk2⟩ := ih hb' (by rw [hstep]; exact hp1)
      obtain ⟨us, w⟩ := (w1.mono first).trans (w2.mono (later p1 w1.shape))
      refine ⟨s1 ++ s2, q, us, _, ⟨s1, s2, rfl, by rw [ha]; exact m1, m2⟩, hq, w, ?_⟩
      rw [swapsOf_append, List.flatMap_cons, List.count_append]
      omega

/-- **C84**. Someone keeps `h` shares of a stable-swap pool while anything may happen, in any order
and from any reachable state. As long as the pool stays of ordinary size and shape and uses the
amplification `A`, the worth of these shares, their part of the pool's invariant, has not
fallen by more than `opLoss` units for each swap in the pool and each request to change its
liquidity. -/
theorem C84_worth (es : List Event) {c : Contract} (hc : c.Reachable)
    (hb : c.cfg.adminFeeBps ≤ 10000) {id : Nat} {p : CurvePool}
    (hp : c.pools[id]? = some (.curve p)) :
    ∃ steps q vs, c.History es steps ∧ (c.run es).pools[id]? = some (.curve q) ∧
      (∃ k, p.Path 10000 (c.EnvDuring es p) vs k q) ∧
      ∀ {A B d h : Nat}, 1 ≤ A → 0 < h → CurvePool.Room p.cAmts.length B d →
        (∀ r ∈ vs, CurvePool.Tame A B d r ∧ h ≤ r.supply ∧ ∀ e ∈ es, r.AmpIs A e.now) →
        p.worth A h ≤ q.worth A h +
          (swapsOf steps id + (es.flatMap Event.liquidity).count id : Nat) *
            CurvePool.opLoss p.cAmts.length d := by
  obtain ⟨steps, q, vs, k, h1, h2, h3, h4⟩ := C84_path es (b := 10000) (by decide) hb hp
  refine ⟨steps, q, vs, h1, h2, ⟨k, h3⟩, fun hA h0 hroom ht => ?_⟩
  refine (CurvePool.C84_pool h3 (hc.sound _ (List.mem_of_getElem? hp)) hA h0 hroom
    fun r hr => ⟨(ht r hr).1, (ht r hr).2.1, fun u hu => hu.amp (ht r hr).2.2⟩).trans ?_
  have : (k : ℚ) ≤ (swapsOf steps id + (es.flatMap Event.liquidity).count id : Nat) := by
    exact_mod_cast h4
  nlinarith [Nat.cast_nonneg (α := ℚ) (CurvePool.opLoss p.cAmts.length ‹_›)]

theorem History.append {es es' : List Event} {s s' : List SwapStep} : ∀ {c : Contract},
    c.History es s → (c.run es).History es' s' → c.History (es ++ es') (s ++ s') := by
  induction es generalizing s with
  | nil => rintro c h h'; cases (show s = [] from h); exact h'
  | cons e es ih =>
    rintro c ⟨s1, s2, rfl, h1, h2⟩ h'
    rw [List.append_assoc]
    exact ⟨s1, s2 ++ s', rfl, h1, ih h2 h'⟩

/-- Some events, with the amplification of a pool and the rates of its tokens while they happen. -/
structure Period where
  events : List Event
  amp : Nat
  rates : List Nat

/-- The events of all periods. -/
def allEvents (l : List Period) : List Event := l.flatMap Period.events

/-- The rates of the tokens of pool `p` are those of the period at the start of each event. -/
def RatesIn (c : Contract) (p : CurvePool) : List Period → Prop
  | [] => True
  | x :: l => (∀ u, c.EnvDuring x.events p u → u.rates = x.rates) ∧ (c.run x.events).RatesIn p l

theorem ratesIn_congr {p q : CurvePool} (hs : (Pool.curve q).shape = (Pool.curve p).shape)
    (l : List Period) : ∀ c : Contract, c.RatesIn p l → c.RatesIn q l := by
  induction l with
  | nil => exact fun _ _ => trivial
  | cons x l ih =>
    rintro c ⟨h1, h2⟩
    refine ⟨fun u hu => h1 u ?_, ih _ h2⟩
    obtain ⟨n, e, hn, h⟩ := hu
    rw [Config.envOf_congr hs] at h
    exact ⟨n, e, hn, h⟩

/-- The legs of a path belong to the periods. -/
def LegsOf (l : List Period) (w : List CurvePool.Leg) : Prop :=
  List.Forall₂ (fun x y => y.times = x.events.map Event.now ∧ y.amp = x.amp ∧ y.rates = x.rates) l w

theorem LegsOf.amps {l : List Period} {w : List CurvePool.Leg} (h : LegsOf l w) :
    w.map (·.amp) = l.map (·.amp) := by
  induction h with
  | nil => rfl
  | cons h _ ih => rw [List.map_cons, List.map_cons, h.2.1, ih]

theorem LegsOf.rates {l : List Period} {w : List CurvePool.Leg} (h : LegsOf l w) :
    w.map (·.rates) = l.map (·.rates) := by
  induction h with
  | nil => rfl
  | cons h _ ih => rw [List.map_cons, List.map_cons, h.2.2, ih]

theorem legs_of {b : Nat} (hb8 : 8000 ≤ b) (l : List Period) : ∀ {c : Contract},
    c.cfg.adminFeeBps ≤ b → ∀ {id : Nat} {p : CurvePool}, c.pools[id]? = some (.curve p) →
    c.RatesIn p l → ∃ steps q w, c.History (allEvents l) steps ∧
      (c.run (allEvents l)).pools[id]? = some (.curve q) ∧ p.Legs b w q ∧ LegsOf l w ∧
      (w.map (·.moves)).sum ≤ swapsOf steps id + ((allEvents l).flatMap Event.liquidity).count id := by
  induction l with
  | nil =>
    intro c _ id p hp _
    exact ⟨[], p, [], rfl, hp, .nil, .nil, Nat.zero_le _⟩
  | cons x l ih =>
    intro c hb id p hp hr
    obtain ⟨steps, q, vs, k, h1, h2, h3, h4⟩ := C84_path x.events hb8 hb hp
    have hb' : (c.run x.events).cfg.adminFeeBps ≤ b := by
      rcases C22_admin_fee x.events c with h | h <;> omega
    obtain ⟨steps', q', w, g1, g2, g3, g4, g5⟩ := ih hb' h2 (ratesIn_congr h3.shape l _ hr.2)
    have e : allEvents (x :: l) = x.events ++ allEvents l := List.flatMap_cons ..
    refine ⟨steps ++ steps', q', ⟨x.events.map Event.now, x.amp, x.rates, vs, k⟩ :: w, ?_, ?_,
      .cons (h3.mono fun u hu => ⟨hu.time, hr.1 u hu⟩) g3, .cons ⟨rfl, rfl, rfl⟩ g4, ?_⟩
    · rw [e]; exact h1.append g1
    · rw [e, run, List.foldl_append]; exact g2
    · rw [e, List.flatMap_append, List.count_append, swapsOf_append]
      simp only [List.map_cons, List.sum_cons]
      omega

theorem ratesIn_stable {p : CurvePool} (hk : p.kind = .stable) (l : List Period) :
    ∀ c : Contract, (∀ x ∈ l, x.rates = []) → c.RatesIn p l := by
  induction l with
  | nil => exact fun _ _ => trivial
  | cons x l ih =>
    intro c h
    refine ⟨?_, ih _ fun x hx => h x (List.mem_cons_of_mem _ hx)⟩
    rintro u ⟨n, e, -, hu⟩
    rw [h x (List.mem_cons_self ..)]
    simp only [Config.EnvOf, Config.env, hk, Except.ok.injEq] at hu
    rw [← hu]

/-- **C84**, rising amplification. Someone keeps `h` shares of a stable-swap pool while anything may
happen, in any order and from any reachable state, and the pool's amplification rises from time to time,
from `A` when the first of the events happens to `A'` when the last one does. A period with its own
amplification may be as short as a single event, so that gradual changes are included. As long as the
pool stays of ordinary size and shape, the worth of these shares with the amplification of the end has
not fallen below their worth with that of the start by more than `opLoss` units for each swap in the pool
and each request to change its liquidity. -/
theorem C84_rising (l : List Period) {c : Contract} (hc : c.Reachable)
    (hb : c.cfg.adminFeeBps ≤ 10000) {id : Nat} {p : CurvePool}
    (hp : c.pools[id]? = some (.curve p)) (hk : p.kind = .stable) (hr : ∀ x ∈ l, x.rates = [])
    (hrise : (l.map (·.amp)).IsChain (· ≤ ·)) {A A' : Nat} (hA : l.head?.map (·.amp) = some A)
    (hA' : l.getLast?.map (·.amp) = some A') :
    ∃ steps q w, c.History (allEvents l) steps ∧
      (c.run (allEvents l)).pools[id]? = some (.curve q) ∧ p.Legs 10000 w q ∧ LegsOf l w ∧
      ∀ {B d h : Nat}, 0 < h → CurvePool.Room p.cAmts.length B d →
        (∀ x ∈ w, 1 ≤ x.amp ∧ ∀ r ∈ x.states, CurvePool.Tame x.amp B d r ∧ h ≤ r.supply ∧
          ∀ t ∈ x.times, r.AmpIs x.amp t) →
        p.worth A h ≤ q.worth A' h +
          (swapsOf steps id + ((allEvents l).flatMap Event.liquidity).count id : Nat) *
            CurvePool.opLoss p.cAmts.length d := by
  obtain ⟨steps, q, w, h1, h2, h3, h4, h5⟩ := legs_of (b := 10000) (by decide) l hb hp
    (ratesIn_stable hk l c hr)
  refine ⟨steps, q, w, h1, h2, h3, h4, fun {B d h} h0 hroom ht => ?_⟩
  refine (CurvePool.C84_rising_pool h3 (hc.sound _ (List.mem_of_getElem? hp)) h0 rfl hroom ht A A'
    ?_ ?_ (by rw [h4.amps]; exact hrise)).trans ?_
  · rw [← List.head?_map] at hA ⊢; rw [h4.amps]; exact hA
  · rw [← List.getLast?_map] at hA' ⊢; rw [h4.amps]; exact hA'
  have : (((w.map (·.moves)).sum : Nat) : ℚ) ≤
      (swapsOf steps id + ((allEvents l).flatMap Event.liquidity).count id : Nat) := by
    exact_mod_cast h5
  nlinarith [Nat.cast_nonneg (α := ℚ) (CurvePool.opLoss p.cAmts.length d)]

/-! ### An example -/

instance (A t : Nat) (p : CurvePool) : Decidable (p.AmpIs A t) :=
  match h : computeAmp p.initAmp p.targetAmp t p.initTime p.stopTime with
  | .ok a => decidable_of_iff (a = A) ⟨fun e b hb => by rw [h] at hb; cases hb; exact e,
      fun e => e a h⟩
  | .error _ => isTrue fun b hb => by rw [h] at hb; cases hb

instance (A B c : Nat) (p : CurvePool) : Decidable (CurvePool.Tame A B c p) :=
  decidable_of_iff (p.kind = .stable ∧ p.cAmts ≠ [] ∧ OnOrAboveCurve A B p.cAmts 0 ∧ (∀ x ∈ p.cAmts, x * p.cAmts.length ≤ c * B) ∧
      p.cAmts.sum ≤ c * p.supply)
    ⟨fun ⟨a, b, c, d, e⟩ => ⟨a, b, c, d, e⟩, fun ⟨a, b, c, d, e⟩ => ⟨a, b, c, d, e⟩⟩

/-- Others trade in the demo stable pool, add to it and take from it in both ways. -/
def curveWorthDemo : List Event := [
  .call (by' A) (.ftOnTransfer bo (3 * 10 ^ 22)
    (.execute none [.swap ⟨1, A, none, B, 1⟩] false none none)),
  .call (Demo.near al) (.addStableLiquidity 1 [10 ^ 23, 2 * 10 ^ 23] 1),
  .call (y al) (.removeLiquidity 1 (10 ^ 23) [1, 1]),
  .call (y al) (.removeByTokens 1 [10 ^ 22, 5 * 10 ^ 21] (10 ^ 23))]

/-- The stable pool of the demo in a state of the contract. -/
def demoStable (c : Contract) : CurvePool :=
  match (c.pools[1]? : Option Pool) with
  | some (.curve p) => p
  | _ => exStable

example : c2.cfg.adminFeeBps ≤ 10000 ∧ (curveWorthDemo.flatMap Event.liquidity).count 1 = 3 ∧
    CurvePool.Room 2 (8 * 10 ^ 23) 2 ∧ CurvePool.opLoss 2 2 = 46 ∧
    (∀ n < 5, CurvePool.Tame 100 (8 * 10 ^ 23) 2 (demoStable (c2.run (curveWorthDemo.take n))) ∧
      10 ^ 23 ≤ (demoStable (c2.run (curveWorthDemo.take n))).supply ∧
      ∀ e ∈ curveWorthDemo, (demoStable (c2.run (curveWorthDemo.take n))).AmpIs 100 e.now) ∧
    (List.range 5).Pairwise (fun n m => (demoStable (c2.run (curveWorthDemo.take n))).cAmts ≠
      (demoStable (c2.run (curveWorthDemo.take m))).cAmts) := by
  refine ⟨by decide +kernel, by decide +kernel, by unfold CurvePool.Room; decide +kernel,
    by decide +kernel, by decide +kernel, by decide +kernel⟩

/-- One day. -/
def day : Nat := 86400 * 10 ^ 9

/-- The owner has the amplification rise from 100 to 200 within a day. Others trade before, in the middle
and after. -/
def rampDemo : List Period := [
  ⟨curveWorthDemo.take 1 ++ [.call { y own with now := day } (.rampAmp 1 200 (2 * day))], 100, []⟩,
  ⟨[.call { by' A with now := day + day / 2 } (.ftOnTransfer bo (3 * 10 ^ 22)
    (.execute none [.swap ⟨1, A, none, B, 1⟩] false none none))], 150, []⟩,
  ⟨[.call { by' A with now := 3 * day } (.ftOnTransfer bo (10 ^ 22)
    (.execute none [.swap ⟨1, A, none, B, 1⟩] false none none)),
    .call { Demo.near al with now := 3 * day + 1 } (.addStableLiquidity 1 [10 ^ 23, 2 * 10 ^ 23] 1)],
    200, []⟩]

/-- The stable pool of the demo after `n` of the events. -/
def rampState (n : Nat) : CurvePool := demoStable (c2.run ((allEvents rampDemo).take n))

example : (rampDemo.map (·.amp)).IsChain (· ≤ ·) ∧ CurvePool.Room 2 (8 * 10 ^ 23) 2 ∧
    (∀ n < 3, (rampState n).Tame 100 (8 * 10 ^ 23) 2 ∧ (rampState n).AmpIs 100 0 ∧
      (rampState n).AmpIs 100 day) ∧
    (∀ n < 2, (rampState (2 + n)).Tame 150 (8 * 10 ^ 23) 2 ∧
      (rampState (2 + n)).AmpIs 150 (day + day / 2)) ∧
    (∀ n < 3, (rampState (3 + n)).Tame 200 (8 * 10 ^ 23) 2 ∧ (rampState (3 + n)).AmpIs 200 (3 * day) ∧
      (rampState (3 + n)).AmpIs 200 (3 * day + 1)) ∧
    (∀ n < 6, 10 ^ 23 ≤ (rampState n).supply) ∧
    [0, 1, 3, 4, 5].Pairwise (fun n m => (rampState n).cAmts ≠ (rampState m).cAmts) := by
  refine ⟨by decide +kernel, by unfold CurvePool.Room; decide +kernel, by decide +kernel,
    by decide +kernel, by decide +kernel, by decide +kernel, by decide +kernel⟩

end Contract
end Verif

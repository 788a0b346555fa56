import Verif.Exchange.TwapSteps
import Mathlib.Algebra.BigOperators.Intervals
import Mathlib.Data.Nat.Cast.Basic

/-
Averages over histories of the contract.

Specification: a history is a list of events with their times. `stateAt` is the state of the contract
at the end of a second, `unitAt` what one whole share of the pool redeems of a token then.
-/

namespace Verif

/-! ### Samples -/

theorem CurvePool.cToAmount_fit {k : CurveKind} {d c a : Nat} (h : cToAmount k d c = .ok a)
    (hc : c < 2 ^ 128) : a < 2 ^ 128 := by
  unfold cToAmount at h
  split at h
  · obtain ⟨-, rfl⟩ := divW_ok.1 h
    exact lt_of_le_of_lt (Nat.div_le_self _ _) hc
  · split at h
    · obtain ⟨h1, rfl⟩ := mulW_ok.1 h
      exact h1
    · cases h

theorem Pool.removal_valid {p q : Pool} {s : AccountId} {n : Nat} {mins paid : List Nat} {v : Bool}
    (hp : p.Sound) (h : p.removeLiquidity s n mins v = .ok (q, paid)) :
    paid.length = p.tokens.length ∧ ∀ a ∈ paid, a < 2 ^ 128 := by
  cases p with
  | simple p =>
    unfold Pool.removeLiquidity at h
    unpack at h
    obtain ⟨q', paid', h, -, rfl⟩ := h
    obtain ⟨_, _, r0, r1, -, rfl, -, -, -, -, -, -, h0, h1, -⟩ := removeLiquidity_ok h
    refine ⟨rfl, fun a ha => ?_⟩
    simp only [List.mem_cons, List.not_mem_nil, or_false] at ha
    rcases ha with rfl | rfl
    · exact lt_of_le_of_lt h0 hp.1.amt0
    · exact lt_of_le_of_lt h1 hp.1.amt1
  | curve p =>
    unfold Pool.removeLiquidity at h
    unpack at h
    obtain ⟨q', paid', h, -, rfl⟩ := h
    obtain ⟨-, -, -, h2, -⟩ := CurvePool.removeByShares_ok h
    obtain ⟨-, hl, -, hi⟩ := CurvePool.removeLoop_ok h2
    refine ⟨hl.trans hp.1.len, fun a ha => ?_⟩
    obtain ⟨i, hlt, rfl⟩ := List.getElem_of_mem ha
    have hc : p.cAmts[i]? = some (p.cAmts[i]'(by omega)) := List.getElem?_eq_getElem _
    obtain ⟨d, m, a, -, -, ha', hle, -, -, hca, -⟩ := hi i _ hc
    rw [List.getElem?_eq_getElem hlt] at ha'
    cases ha'
    exact CurvePool.cToAmount_fit hca (lt_of_le_of_lt hle (hp.1.fit _ (List.getElem_mem _)))

namespace Contract

theorem getUnitShare_ok {c : Contract} {id : Nat} {v : List Nat} :
    c.getUnitShare id = .ok v ↔ c.unit id = .ok (some v) := by
  unfold getUnitShare unit
  cases c.pool id with
  | error e => simp [error_bind]
  | ok p =>
    simp only [ok_bind]
    cases p.unitShare with
    | error e => simp [error_bind]
    | ok u => cases u <;> simp [ok_bind, expectE]

theorem unit_valid {c : Contract} {id : Nat} {v : List Nat} {p : Pool} (hc : c.Reachable)
    (hp : c.pools[id]? = some p) (h : c.unit id = .ok (some v)) :
    v.length = p.tokens.length ∧ ∀ a ∈ v, a < 2 ^ 128 := by
  unfold unit at h
  rw [pool_ok.2 hp, ok_bind] at h
  unfold Pool.unitShare at h
  split at h
  · unpack at h
    obtain ⟨q, paid, h, hv⟩ := h
    cases hv
    exact Pool.removal_valid (hc.sound p (List.mem_of_getElem? hp)) h
  · cases h

end Contract

/-! ### Histories -/

/-- A history: events with the time of the block, in nanoseconds. -/
abbrev History := List (Nat × Event)

/-- The events of a history. -/
def History.events (h : History) : List Event := h.map Prod.snd

namespace Contract

/-- The state at the end of second `s`. -/
def stateAt (c : Contract) (h : History) (s : Nat) : Contract :=
  c.run (History.events (h.filter fun e => e.1 / 10 ^ 9 ≤ s))

/-- What one whole share of pool `id` redeems of its token `j` at the end of second `s`. -/
def unitAt (c : Contract) (h : History) (id j s : Nat) : Nat :=
  match (c.stateAt h s).getUnitShare id with
  | .ok v => v.getD j 0
  | .error _ => 0

theorem run_snoc (c : Contract) (es : List Event) (e : Event) :
    c.run (es ++ [e]) = (c.run es).step e := by
  unfold run
  rw [List.foldl_append]
  rfl

theorem stateAt_before {c : Contract} {h : History} {e : Nat × Event} {s : Nat}
    (hs : s < e.1 / 10 ^ 9) : c.stateAt (h ++ [e]) s = c.stateAt h s := by
  unfold stateAt
  rw [List.filter_append]
  have : List.filter (fun e : Nat × Event => decide (e.1 / 10 ^ 9 ≤ s)) [e] = [] := by
    rw [List.filter_cons_of_neg (by simpa using hs)]
    rfl
  rw [this, List.append_nil]

theorem stateAt_after {c : Contract} {h : History} {s : Nat} (hs : ∀ e ∈ h, e.1 / 10 ^ 9 ≤ s) :
    c.stateAt h s = c.run h.events := by
  unfold stateAt
  rw [List.filter_eq_self.2 (by simpa using hs)]

end Contract

/-! ### Integrals -/

/-- Each sample says what held since the sample before it. -/
def Faithful (f : Nat → Nat → Nat) : List Sample → Prop
  | s :: s' :: rest =>
    (∀ j sec, s'.time ≤ sec → sec < s.time → f j sec = s.at j) ∧ Faithful f (s' :: rest)
  | _ => True

theorem Faithful.congr {f g : Nat → Nat → Nat} {t : Nat} (hfg : ∀ j sec, sec < t → g j sec = f j sec) :
    ∀ {h : List Sample}, Faithful f h → (∀ s ∈ h, s.time ≤ t) → Faithful g h
  | [], _, _ => trivial
  | [_], _, _ => trivial
  | s :: _ :: _, hf, ht =>
    ⟨fun j sec h1 h2 => (hfg j sec (lt_of_lt_of_le h2 (ht s List.mem_cons_self))).trans
        (hf.1 j sec h1 h2),
      Faithful.congr hfg hf.2 fun x hx => ht x (List.mem_cons_of_mem _ hx)⟩

theorem integral_zero {j t : Nat} : ∀ {x : Sample} {l : List Sample}, MonoT (x :: l) → x.time ≤ t →
    integral t j (x :: l) = 0
  | _, [], _, _ => rfl
  | x, y :: ys, hm, hx => by
    have h1 := hm.1
    unfold integral
    rw [integral_zero hm.2 (by omega)]
    split
    · have : x.time - y.time = 0 := by omega
      simp [this]
    · rfl

theorem Faithful.integral {f : Nat → Nat → Nat} {since j : Nat} : ∀ {s : Sample} {h : List Sample},
    Faithful f (s :: h) → MonoT (s :: h) → (∃ x ∈ s :: h, x.time = since) →
    integral since j (s :: h) = ∑ sec ∈ Finset.Ico since s.time, f j sec
  | s, [], _, _, hx => by
    obtain ⟨x, hx, rfl⟩ := hx
    simp only [List.mem_singleton] at hx
    subst hx
    simp [Verif.integral]
  | s, s' :: rest, hf, hm, hx => by
    have h1 := hm.1
    by_cases hs : since ≤ s'.time
    · have he : ∃ x ∈ s' :: rest, x.time = since := by
        obtain ⟨x, hx, hxt⟩ := hx
        rcases List.mem_cons.1 hx with rfl | hx
        · exact ⟨s', List.mem_cons_self, by omega⟩
        · exact ⟨x, hx, hxt⟩
      rw [Verif.integral, if_pos hs, Faithful.integral hf.2 hm.2 he,
        ← Finset.sum_Ico_consecutive _ hs h1, Nat.add_comm]
      congr 1
      rw [Finset.sum_congr rfl fun sec h => hf.1 j sec (Finset.mem_Ico.1 h).1 (Finset.mem_Ico.1 h).2,
        Finset.sum_const, Nat.card_Ico, nsmul_eq_mul, Nat.cast_id, Nat.mul_comm]
    · have hst : since = s.time := by
        obtain ⟨x, hx, hxt⟩ := hx
        rcases List.mem_cons.1 hx with rfl | hx
        · exact hxt.symm
        · rcases List.mem_cons.1 hx with rfl | hx
          · omega
          · have := hm.2.le hx; omega
      rw [integral_zero hm (by omega), hst, Finset.Ico_self, Finset.sum_empty]

/-! ### How far back the records go -/

/-- The records are at least `iv` seconds apart. -/
def Spaced (iv : Nat) : List CumRecord → Prop
  | r :: r' :: rest => r.time + iv ≤ r'.time ∧ Spaced iv (r' :: rest)
  | _ => True

theorem Spaced.tail {iv : Nat} {l : List CumRecord} (h : Spaced iv l) : Spaced iv (l.drop 1) := by
  match l with
  | [] => trivial
  | [_] => trivial
  | _ :: _ :: _ => exact h.2

theorem Spaced.snoc {iv : Nat} {r : CumRecord} : ∀ {l : List CumRecord}, Spaced iv l →
    (∀ x ∈ l.getLast?, x.time + iv ≤ r.time) → Spaced iv (l ++ [r])
  | [], _, _ => trivial
  | [x], _, h => ⟨h x rfl, trivial⟩
  | x :: y :: rest, hs, h => ⟨hs.1, Spaced.snoc hs.2 (by simpa using h)⟩

theorem Spaced.span {iv : Nat} : ∀ {l : List CumRecord} {a z : CumRecord}, Spaced iv l →
    l.head? = some a → l.getLast? = some z → a.time + (l.length - 1) * iv ≤ z.time
  | [x], a, z, _, h1, h2 => by
    cases h1; cases h2; simp
  | x :: y :: rest, a, z, hs, h1, h2 => by
    cases h1
    have h3 := Spaced.span hs.2 (a := y) (z := z) rfl (by simpa using h2)
    have h4 := hs.1
    simp only [List.length_cons] at h3 ⊢
    have : (rest.length + 1 + 1 - 1) * iv = (rest.length + 1 - 1) * iv + iv := by
      simp [Nat.add_mul]
    omega

theorem CumInfo.update_spaced {u u' : CumInfo} {now iv iv' : Nat} {as : List Nat}
    (h : u.update now as iv' = .ok u') (hi : iv ≤ iv') (hs : Spaced iv u.recs)
    (hl : ∀ z ∈ u.recs.getLast?, z.time ≤ u.last) :
    Spaced iv u'.recs ∧ ∀ z ∈ u'.recs.getLast?, z.time ≤ u'.last := by
  unfold CumInfo.update at h
  unpack at h
  obtain ⟨lr, hlr, hle, h⟩ := h
  split at h
  · unpack at h
    obtain ⟨cum, -, h2, h⟩ := h
    split at h
    · rename_i h3
      cases h
      have h4 : Spaced iv (u.recs ++ [⟨now, cum⟩]) := hs.snoc fun x hx => by
        rw [hlr] at hx
        cases hx
        show lr.time + iv ≤ now
        omega
      have hne : u.recs ≠ [] := by intro e; rw [e] at hlr; cases hlr
      constructor
      · show Spaced iv (if _ then _ else _)
        split
        · exact h4.tail
        · exact h4
      · intro z hz
        replace hz : z ∈ (if (u.recs ++ [CumRecord.mk now cum]).length > RECORD_COUNT_LIMIT
          then (u.recs ++ [CumRecord.mk now cum]).drop 1
          else u.recs ++ [CumRecord.mk now cum]).getLast? := hz
        have : z = ⟨now, cum⟩ := by
          split at hz
          · obtain ⟨a, l, hal⟩ := List.exists_cons_of_ne_nil hne
            rw [hal] at hz
            simpa using hz.symm
          · simpa using hz.symm
        rw [this]
    · cases h
      refine ⟨hs, fun z hz => ?_⟩
      have := hl z hz
      show z.time ≤ now
      omega
  · cases h
    exact ⟨hs, hl⟩

/-! ### The invariant -/

namespace Contract

/-- A history after time `t0` in which the pool is changed only by what samples it first, the averages
stay registered, a share can be redeemed all the time, and records are at least `iv` seconds apart. -/
structure Watched (c : Contract) (id t0 iv : Nat) (h : History) : Prop where
  order : (t0 :: h.map Prod.fst).Pairwise (· ≤ ·)
  times : ∀ e ∈ h, e.2.At e.1
  quiet : ∀ e ∈ h, ¬ e.2.Silent id ∧ ¬ e.2.Unregisters id
  redeem : ∀ es, es <+: h.events → ∃ v, (c.run es).getUnitShare id = .ok v
  every : ∀ es, es <+: h.events → iv ≤ (c.run es).cfg.recordInterval

theorem Watched.init {c : Contract} {id t0 iv : Nat} {h : History} {e : Nat × Event}
    (w : c.Watched id t0 iv (h ++ [e])) : c.Watched id t0 iv h where
  order := by
    have := w.order
    rw [List.map_append, ← List.cons_append] at this
    exact (List.pairwise_append.1 this).1
  times x hx := w.times x (List.mem_append_left _ hx)
  quiet x hx := w.quiet x (List.mem_append_left _ hx)
  redeem es hes := w.redeem es (by
    unfold History.events at *; rw [List.map_append]; exact hes.trans (List.prefix_append _ _))
  every es hes := w.every es (by
    unfold History.events at *; rw [List.map_append]; exact hes.trans (List.prefix_append _ _))

theorem Watched.le {c : Contract} {id t0 iv : Nat} {h : History} {e : Nat × Event}
    (w : c.Watched id t0 iv (h ++ [e])) : t0 ≤ e.1 ∧ ∀ x ∈ h, x.1 ≤ e.1 := by
  have := w.order
  rw [List.map_append, ← List.cons_append] at this
  have := (List.pairwise_append.1 this).2.2
  refine ⟨this t0 List.mem_cons_self e.1 (by simp), fun x hx => ?_⟩
  exact this x.1 (List.mem_cons_of_mem _ (List.mem_map_of_mem hx)) e.1 (by simp)

theorem unitAt_of_unit {c : Contract} {h : History} {id s : Nat} {v : List Nat} (j : Nat)
    (hv : (c.stateAt h s).unit id = .ok (some v)) : c.unitAt h id j s = v.getD j 0 := by
  unfold unitAt
  rw [getUnitShare_ok.2 hv]

/-- What the record of a pool holds after a history. -/
structure Tracks (c : Contract) (id n t0 T iv : Nat) (h : History) (u : CumInfo) (hs : List Sample) :
    Prop where
  record : (c.run h.events).twaps.get? id = some u
  observed : Observed n u hs
  faithful : Faithful (c.unitAt h id) hs
  after : ∀ s ∈ hs, t0 / 10 ^ 9 ≤ s.time
  last : u.last ≤ T / 10 ^ 9
  now : ∀ sec, u.last ≤ sec → (c.stateAt h sec).unit id = (c.run h.events).unit id
  spaced : Spaced iv u.recs
  recent : ∀ z ∈ u.recs.getLast?, z.time ≤ u.last

theorem sec_eq {t : Nat} (h : t < 2 ^ 32 * 10 ^ 9) : nanoToSec t = t / 10 ^ 9 := by
  unfold nanoToSec
  exact Nat.mod_eq_of_lt ((Nat.div_lt_iff_lt_mul (by norm_num)).2 h)

theorem sec_lt {t : Nat} (h : t < 2 ^ 32 * 10 ^ 9) : t / 10 ^ 9 < 2 ^ 32 :=
  (Nat.div_lt_iff_lt_mul (by norm_num)).2 h

theorem apply_pool {c c' : Contract} {e : Event} {outs : List Out} {id : Nat} {p : Pool}
    (h : c.apply e = .ok (c', outs)) (hp : c.pools[id]? = some p) :
    ∃ q, c'.pools[id]? = some q ∧ q.shape = p.shape :=
  (apply_poolsTo h).shape id p hp

theorem run_pool {c : Contract} {id : Nat} {p : Pool} (hp : c.pools[id]? = some p) (es : List Event) :
    ∃ q, (c.run es).pools[id]? = some q ∧ q.shape = p.shape := by
  induction es using List.reverseRecOn with
  | nil => exact ⟨p, hp, rfl⟩
  | append_singleton es e ih =>
    obtain ⟨q, hq, hs⟩ := ih
    rw [run_snoc]
    unfold step
    cases ha : (c.run es).apply e with
    | error _ => exact ⟨q, hq, hs⟩
    | ok r =>
      obtain ⟨q', hq', hs'⟩ := apply_pool ha hq
      exact ⟨q', hq', hs'.trans hs⟩

/-- A further sample of what a share redeems now. -/
theorem Tracks.sample {c : Contract} {id n t0 T t iv : Nat} {h : History} {u u' : CumInfo}
    {hs : List Sample} {as : List Nat} (k : c.Tracks id n t0 T iv h u hs)
    (hu : (c.run h.events).unit id = .ok (some as))
    (hv : Sample.Valid n ⟨t / 10 ^ 9, as⟩) (hT : t0 ≤ t) {iv' : Nat} (hi : iv ≤ iv')
    (hup : u.update (t / 10 ^ 9) as iv' = .ok u') :
    Observed n u' (⟨t / 10 ^ 9, as⟩ :: hs) ∧ Faithful (c.unitAt h id) (⟨t / 10 ^ 9, as⟩ :: hs) ∧
    (∀ s ∈ (⟨t / 10 ^ 9, as⟩ :: hs : List Sample), t0 / 10 ^ 9 ≤ s.time) ∧
    Spaced iv u'.recs ∧ ∀ z ∈ u'.recs.getLast?, z.time ≤ u'.last := by
  obtain ⟨s, rest, rfl, hst⟩ := (CumInfo.inv_of_observed k.observed).last
  refine ⟨.update ⟨t / 10 ^ 9, as⟩ iv' k.observed hv hup, ⟨fun j sec h1 h2 => ?_, k.faithful⟩, ?_,
    CumInfo.update_spaced hup hi k.spaced k.recent⟩
  · exact unitAt_of_unit j ((k.now sec (hst ▸ h1)).trans hu)
  · intro x hx
    rcases List.mem_cons.1 hx with rfl | hx
    · exact Nat.div_le_div_right hT
    · exact k.after x hx

theorem tracks {c : Contract} {id t0 iv : Nat} {h : History} {p : Pool} {as : List Nat}
    (hr : c.Reachable) (hp : c.pools[id]? = some p) (hu : c.unit id = .ok (some as))
    (hw : c.twaps.get? id = some (CumInfo.new (t0 / 10 ^ 9) as)) (h0 : t0 < 2 ^ 32 * 10 ^ 9)
    (w : c.Watched id t0 iv h) (T : Nat) (hT0 : t0 ≤ T) (hT : ∀ e ∈ h, e.1 ≤ T)
    (hlt : T < 2 ^ 32 * 10 ^ 9) : ∃ u hs, c.Tracks id p.tokens.length t0 T iv h u hs := by
  induction h using List.reverseRecOn generalizing T with
  | nil =>
    have hv := unit_valid hr hp hu
    refine ⟨_, [⟨t0 / 10 ^ 9, as⟩], hw, .new ⟨t0 / 10 ^ 9, as⟩ ⟨sec_lt h0, hv.1, hv.2⟩, trivial, ?_, ?_, fun _ _ => rfl,
      trivial, ?_⟩
    · intro s hs
      simp only [List.mem_singleton] at hs
      subst hs
      exact le_refl _
    · exact Nat.div_le_div_right hT0
    · intro z hz
      simp only [CumInfo.new, List.getLast?_singleton, Option.mem_some_iff] at hz
      subst hz
      exact le_refl _
  | append_singleton h e ih =>
    obtain ⟨u, hs, k⟩ := ih w.init e.1 w.le.1 w.le.2
      (lt_of_le_of_lt (hT e (by simp)) hlt)
    have heT : e.1 ≤ T := hT e (by simp)
    have helt : e.1 < 2 ^ 32 * 10 ^ 9 := lt_of_le_of_lt heT hlt
    have hev : History.events (h ++ [e]) = (History.events h) ++ [e.2] := by
      unfold History.events; rw [List.map_append]; rfl
    have hpre : (History.events h) <+: History.events (h ++ [e]) := by rw [hev]; exact List.prefix_append _ _
    have hrun : c.run (History.events (h ++ [e])) = (c.run (History.events h)).step e.2 := by
      rw [hev, run_snoc]
    have hafter : ∀ sec, e.1 / 10 ^ 9 ≤ sec →
        c.stateAt (h ++ [e]) sec = c.run (History.events (h ++ [e])) := fun sec hsec =>
      stateAt_after fun x hx => by
        rcases List.mem_append.1 hx with hx | hx
        · exact le_trans (Nat.div_le_div_right (w.le.2 x hx)) hsec
        · rw [List.mem_singleton.1 hx]; exact hsec
    have hbefore : ∀ j sec, sec < e.1 / 10 ^ 9 →
        c.unitAt (h ++ [e]) id j sec = c.unitAt h id j sec := fun j sec hsec => by
      unfold unitAt; rw [stateAt_before hsec]
    obtain ⟨v, hv⟩ := w.redeem _ hpre
    rw [getUnitShare_ok] at hv
    have hsam : Sampled id e.1 (c.run (History.events h)) ((c.run (History.events h)).step e.2) := by
      unfold step
      cases ha : (c.run (History.events h)).apply e.2 with
      | error _ => exact .same rfl rfl
      | ok r =>
        exact apply_sampled ha (w.times e (by simp)) (w.quiet e (by simp)).1 (w.quiet e (by simp)).2
          ⟨u, k.record⟩ ⟨v, hv⟩
    have htimes : ∀ s ∈ hs, s.time ≤ e.1 / 10 ^ 9 := by
      have hi := CumInfo.inv_of_observed k.observed
      obtain ⟨s, rest, rfl, hst⟩ := hi.last
      have := k.last
      intro x hx
      rcases List.mem_cons.1 hx with rfl | hx
      · omega
      · have := hi.mono.le hx; omega
    rcases hsam with ⟨h1, h2⟩ | ⟨u1, u', as', h1, h2, h3, h4⟩
    · refine ⟨u, hs, by rw [hrun, h2, k.record], k.observed, k.faithful.congr hbefore htimes, k.after,
        le_trans k.last (Nat.div_le_div_right heT), fun sec hsec => ?_, k.spaced, k.recent⟩
      rcases Nat.lt_or_ge sec (e.1 / 10 ^ 9) with hlt' | hge
      · rw [stateAt_before hlt', k.now sec hsec, hrun, h1]
      · rw [hafter sec hge]
    · rw [k.record] at h1
      cases h1
      rw [sec_eq helt] at h3
      obtain ⟨q, hq, hshape⟩ := run_pool hp (History.events h)
      have hval := unit_valid (hr.run _) hq h2
      rw [Pool.tokens_of_shape hshape] at hval
      obtain ⟨g1, g2, g3, g4, g5⟩ := k.sample h2 ⟨sec_lt helt, hval.1, hval.2⟩ w.le.1
        (w.every _ hpre) h3
      have hlast := (CumInfo.update_last h3).1
      refine ⟨u', _, by rw [hrun, h4], g1, g2.congr hbefore ?_, g3, ?_, fun sec hsec => ?_, g4, g5⟩
      · intro x hx
        rcases List.mem_cons.1 hx with rfl | hx
        · exact le_refl _
        · exact htimes x hx
      · rw [hlast]; exact Nat.div_le_div_right heT
      · rw [hafter sec (hlast ▸ hsec)]

end Contract
end Verif

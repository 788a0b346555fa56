import Verif.Exchange.TwapHistory
import Verif.Exchange.Demo

/-
C69: the averages the contract reports, over its histories.
-/

namespace Verif
namespace Contract

/-- What the averages are over, with the number of them. -/
theorem reported {c c1 : Contract} {x : Ctx} {id iv now : Nat} {outs : List Out} {h : History}
    {v : List Nat} (hr : c.Reachable) (hreg : c.exec x (.registerTwap id) = .ok (c1, outs))
    (w : c1.Watched id x.now iv h) (hnow : x.now ≤ now ∧ ∀ e ∈ h, e.1 ≤ now)
    (hlt : now < 2 ^ 32 * 10 ^ 9)
    (hv : (c1.run h.events).getUnitShareTwap now id = .ok (some v)) :
    (∃ q, (c1.run h.events).pools[id]? = some q ∧ v.length = q.tokens.length) ∧
    ∃ since, x.now / 10 ^ 9 ≤ since ∧ since < now / 10 ^ 9 ∧ since + 59 * iv ≤ now / 10 ^ 9 ∧
      ∀ j < v.length, v.getD j 0 =
        (∑ sec ∈ Finset.Ico since (now / 10 ^ 9), c1.unitAt h id j sec) /
          (now / 10 ^ 9 - since) := by
  have hr1 : c1.Reachable := by
    have := hr.step (.call x (.registerTwap id))
    unfold step at this
    simp only [apply] at this
    rw [hreg] at this
    exact this
  simp only [exec] at hreg
  unpack at hreg
  obtain ⟨c1', hreg, rfl, -⟩ := hreg
  unfold registerTwap at hreg
  unpack at hreg
  obtain ⟨_, -, _, -, -, p, hp, un, hun, as, rfl, hc1⟩ := hreg
  have hp1 : c1'.pools[id]? = some p := by subst hc1; exact pool_ok.1 hp
  have hu1 : c1'.unit id = .ok (some as) := by
    unfold unit; rw [pool_ok.2 hp1, ok_bind, hun]
  have hxlt : x.now < 2 ^ 32 * 10 ^ 9 := lt_of_le_of_lt hnow.1 hlt
  obtain ⟨u, hs, k⟩ := tracks (p := p) (as := as) hr1 hp1 hu1
    (by subst hc1; simp only [FMap.get?_insert, if_true, sec_eq hxlt]) hxlt w now hnow.1 hnow.2 hlt
  unfold getUnitShareTwap at hv
  unpack at hv
  obtain ⟨u1, hw1, q, hq, un', hun', hv⟩ := hv
  rw [k.record] at hw1
  cases hw1
  split at hv
  · cases hv
  · rename_i as'
    unpack at hv
    obtain ⟨u', hup, hv⟩ := hv
    split at hv
    · rename_i hlen
      unpack at hv
      obtain ⟨v', htw, hv⟩ := hv
      cases hv
      rw [sec_eq hlt] at hup
      have hunit : (c1'.run h.events).unit id = .ok (some as') := by
        unfold unit; rw [hq, ok_bind, hun']
      obtain ⟨q', hq', hshape⟩ := run_pool hp1 h.events
      have hval := unit_valid (hr1.run _) hq' hunit
      rw [Pool.tokens_of_shape hshape] at hval
      obtain ⟨g1, g2, g3, g4, g5⟩ := k.sample hunit ⟨sec_lt hlt, hval.1, hval.2⟩ hnow.1
        (w.every _ (List.prefix_refl _)) hup
      have hlast := (CumInfo.update_last hup).1
      have hi := CumInfo.inv_of_observed g1
      obtain ⟨r, rs, hrs⟩ := List.exists_cons_of_ne_nil hi.ne
      have hhead : u'.recs.head? = some r := by rw [hrs]; rfl
      have hrt : r.time < u'.last := by
        have := htw
        unfold CumInfo.twap at this
        unpack at this
        obtain ⟨r', hr', hle, hd, -⟩ := this
        rw [hhead] at hr'
        cases hr'
        omega
      obtain ⟨v1, hv1, hvl, hvj⟩ := C39_average g1 hhead hrt
      rw [htw] at hv1
      cases hv1
      obtain ⟨⟨s, hsm, hst⟩, -⟩ := hi.recs r (List.mem_of_mem_head? hhead)
      refine ⟨⟨q', hq', by rw [hvl, Pool.tokens_of_shape hshape]⟩, r.time, ?_, by omega, ?_, fun j hj => ?_⟩
      · rw [← hst]; exact g3 s hsm
      · obtain ⟨z, hz⟩ : ∃ z, u'.recs.getLast? = some z := by
          rw [hrs]; exact ⟨_, List.getLast?_eq_some_getLast (by simp)⟩
        have h1 := g4.span hhead hz
        have h2 := g5 z hz
        rw [hlen] at h1
        simp only [RECORD_COUNT_LIMIT] at h1
        omega
      · rw [hvj j (by omega), hlast, g2.integral hi.mono ⟨s, hsm, hst⟩]
    · cases hv

/-- C69. The average the contract reports for a pool is, for every token, the exact average over time
of what one whole share redeemed, second by second, since some time after registration: whatever the
calls, callbacks and rates in between, and however they interleave. With 60 records at least `iv`
seconds apart the average covers at least 59 such intervals. -/
theorem C69_reported {c c1 : Contract} {x : Ctx} {id iv now : Nat} {outs : List Out} {h : History}
    {v : List Nat} (hr : c.Reachable) (hreg : c.exec x (.registerTwap id) = .ok (c1, outs))
    (w : c1.Watched id x.now iv h) (hnow : x.now ≤ now ∧ ∀ e ∈ h, e.1 ≤ now)
    (hlt : now < 2 ^ 32 * 10 ^ 9)
    (hv : (c1.run h.events).getUnitShareTwap now id = .ok (some v)) :
    ∃ since, x.now / 10 ^ 9 ≤ since ∧ since < now / 10 ^ 9 ∧ since + 59 * iv ≤ now / 10 ^ 9 ∧
      ∀ j < v.length, v.getD j 0 =
        (∑ sec ∈ Finset.Ico since (now / 10 ^ 9), c1.unitAt h id j sec) /
          (now / 10 ^ 9 - since) :=
  (reported hr hreg w hnow hlt hv).2

/-- C69. The assets of a share, as farms and lenders ask for them: the pool's tokens in their order,
each with its own average. -/
theorem C69_assets {c c1 : Contract} {x : Ctx} {id iv now dec : Nat} {outs : List Out} {h : History}
    {l : List (AccountId × Nat)} (hr : c.Reachable)
    (hreg : c.exec x (.registerTwap id) = .ok (c1, outs))
    (w : c1.Watched id x.now iv h) (hnow : x.now ≤ now ∧ ∀ e ∈ h, e.1 ≤ now)
    (hlt : now < 2 ^ 32 * 10 ^ 9)
    (hl : (c1.run h.events).getUnitLptAssets now id = .ok (some (dec, l))) :
    ∃ p since, (c1.run h.events).pools[id]? = some p ∧ dec = p.shareDecimal ∧
      x.now / 10 ^ 9 ≤ since ∧ since < now / 10 ^ 9 ∧ since + 59 * iv ≤ now / 10 ^ 9 ∧
      l.map (·.1) = p.tokens ∧ ∀ j t a, l[j]? = some (t, a) →
        a = (∑ sec ∈ Finset.Ico since (now / 10 ^ 9), c1.unitAt h id j sec) /
          (now / 10 ^ 9 - since) := by
  unfold getUnitLptAssets at hl
  rw [bind_ok] at hl
  obtain ⟨v, hv, hl⟩ := hl
  split at hl
  · cases hl
  · rename_i amounts
    rw [bind_ok] at hl
    obtain ⟨p, hp, hl⟩ := hl
    have hl : some (p.shareDecimal, p.tokens.zip amounts) = some (dec, l) := Except.ok.inj hl
    cases hl
    obtain ⟨⟨q, hq, hlen⟩, since, h1, h2, h3, h4⟩ := reported hr hreg w hnow hlt hv
    rw [pool_ok.1 hp] at hq
    cases hq
    refine ⟨p, since, pool_ok.1 hp, rfl, h1, h2, h3, ?_, ?_⟩
    · exact List.map_fst_zip hlen.ge
    · intro j t a hj
      rw [List.getElem?_zip_eq_some] at hj
      have hjl := (List.getElem?_eq_some_iff.1 hj.2).1
      rw [← h4 j hjl, List.getD, hj.2]
      rfl

/-- C69. Within one block the reported average cannot be moved: whatever trades, deposits and
withdrawals happen in the second in which it is asked for, the answer is the same before and after
them. -/
theorem C69_same_block {c : Contract} {id now : Nat} {es : List Event}
    (hat : ∀ e ∈ es, ∃ t, e.At t ∧ t / 10 ^ 9 = now / 10 ^ 9)
    (hq : ∀ e ∈ es, ¬ e.Silent id ∧ ¬ e.Unregisters id) (hu : c.getTwapInfo id ≠ none)
    (hs : ∀ es', es' <+: es → ∃ v, (c.run es').getUnitShare id = .ok v)
    (hi : ∀ es', es' <+: es → (c.run es').cfg.recordInterval = c.cfg.recordInterval) :
    (c.run es).getUnitShareTwap now id = c.getUnitShareTwap now id := by
  have key : ∀ es', es' <+: es → (∃ u, (c.run es').twaps.get? id = some u) ∧
      (c.run es').getUnitShareTwap now id = c.getUnitShareTwap now id := by
    intro es' hes
    induction es' using List.reverseRecOn with
    | nil => exact ⟨Option.ne_none_iff_exists'.1 hu, rfl⟩
    | append_singleton es' e ih =>
      have hpre : es' <+: es := (List.prefix_append _ _).trans hes
      have hmem : e ∈ es := hes.subset (by simp)
      obtain ⟨⟨u, hu⟩, ih⟩ := ih hpre
      obtain ⟨v, hv⟩ := hs _ hpre
      obtain ⟨v', hv'⟩ := hs _ hes
      have hi1 := hi _ hpre
      have hi2 := hi _ hes
      rw [run_snoc] at hv' hi2 ⊢
      rw [getUnitShare_ok] at hv hv'
      obtain ⟨t, hat, ht⟩ := hat e hmem
      have hsec : nanoToSec t = nanoToSec now := by unfold nanoToSec; rw [ht]
      rw [← ih]
      have hsam : Sampled id t (c.run es') ((c.run es').step e) := by
        unfold step
        cases ha : (c.run es').apply e with
        | error _ => exact .same rfl rfl
        | ok r => exact apply_sampled ha hat (hq e hmem).1 (hq e hmem).2 ⟨u, hu⟩ ⟨v, hv⟩
      have hview : ∀ {d : Contract} {u : CumInfo} {v : List Nat}, d.twaps.get? id = some u →
          d.unit id = .ok (some v) → d.getUnitShareTwap now id =
            (u.update (nanoToSec now) v d.cfg.recordInterval >>= fun u =>
              if u.recs.length = RECORD_COUNT_LIMIT then do
                let v ← u.twap
                .ok (some v)
              else .ok none) := by
        intro d u v h1 h2
        unfold getUnitShareTwap
        unfold unit at h2
        unpack at h2
        obtain ⟨p, hp, h2⟩ := h2
        rw [expectE_ok.2 h1, ok_bind, hp, ok_bind, h2, ok_bind]
      rcases hsam with ⟨h1, h2⟩ | ⟨u1, u', as, h1, h2, h3, h4⟩
      · refine ⟨⟨u, h2.trans hu⟩, ?_⟩
        rw [hview (h2.trans hu) (h1.trans hv), hview hu hv, hi1, hi2]
      · refine ⟨⟨u', h4⟩, ?_⟩
        rw [hsec] at h3
        have h5 := CumInfo.update_last h3
        have h6 : u'.update (nanoToSec now) v' ((c.run es').step e).cfg.recordInterval = .ok u' := by
          obtain ⟨lr, hlr⟩ : ∃ lr, u'.recs.getLast? = some lr := by
            obtain ⟨r, rs, hrs⟩ := List.exists_cons_of_ne_nil h5.2
            rw [hrs]
            exact ⟨_, List.getLast?_eq_some_getLast (by simp)⟩
          unfold CumInfo.update
          rw [expectE_ok.2 hlr, ok_bind, ← h5.1, subW_ok.2 ⟨le_refl _, rfl⟩, ok_bind, if_neg (by omega)]
        rw [hview h4 hv', h6, hview h1 h2, h3]
  exact (key es (List.prefix_refl _)).2

/-- C69. What is averaged is what a share redeems: `remove_liquidity` of one whole share, whatever
the minimum amounts asked for, pays exactly the amounts the contract reports. -/
theorem C69_unit {c c' : Contract} {x : Ctx} {id : Nat} {p : Pool} {mins paid v : List Nat}
    (hp : c.pools[id]? = some p) (hv : c.getUnitShare id = .ok v)
    (h : c.removeLiquidity x id (10 ^ p.shareDecimal) mins = .ok (c', paid)) : paid = v := by
  obtain ⟨_, p', q, _, _, -, -, hp', -, -, -, hq, -⟩ := removeLiquidity_inv h
  rw [hp] at hp'
  cases hp'
  rw [getUnitShare_ok] at hv
  unfold unit at hv
  rw [pool_ok.2 hp, ok_bind] at hv
  unfold Pool.unitShare at hv
  split at hv
  · unpack at hv
    obtain ⟨q', paid', hv, e⟩ := hv
    cases e
    generalize 10 ^ p.shareDecimal = n at hv hq
    cases p with
    | simple p =>
      simp only [Pool.removeLiquidity] at hq hv
      unpack at hq
      unpack at hv
      obtain ⟨_, _, hq, -, rfl⟩ := hq
      obtain ⟨_, _, hv, -, rfl⟩ := hv
      obtain ⟨_, _, r0, r1, -, rfl, -, -, h0, h1, -⟩ := removeLiquidity_ok hq
      obtain ⟨_, _, s0, s1, -, rfl, -, -, h2, h3, -⟩ := removeLiquidity_ok hv
      rw [h0, h1, h2, h3]
    | curve p =>
      simp only [Pool.removeLiquidity] at hq hv
      unpack at hq
      unpack at hv
      obtain ⟨_, _, hq, -, rfl⟩ := hq
      obtain ⟨_, _, hv, -, rfl⟩ := hv
      obtain ⟨-, -, -, hq, -⟩ := CurvePool.removeByShares_ok hq
      obtain ⟨-, -, -, hv, -⟩ := CurvePool.removeByShares_ok hv
      obtain ⟨-, l1, -, i1⟩ := CurvePool.removeLoop_ok hq
      obtain ⟨-, l2, -, i2⟩ := CurvePool.removeLoop_ok hv
      refine List.ext_getElem? fun i => ?_
      rcases Nat.lt_or_ge i p.cAmts.length with hi | hi
      · obtain ⟨d, _, a, hd, -, ha, -, -, -, hc, -⟩ := i1 i _ (List.getElem?_eq_getElem hi)
        obtain ⟨d', _, a', hd', -, ha', -, -, -, hc', -⟩ := i2 i _ (List.getElem?_eq_getElem hi)
        rw [hd] at hd'
        cases hd'
        rw [hc] at hc'
        cases hc'
        rw [ha, ha']
      · rw [List.getElem?_eq_none (by omega), List.getElem?_eq_none (by omega)]
  · cases hv

/-! ### A concrete history -/

section Examples
open Demo

/-- The time after `k` recording intervals. -/
def tick (k : Nat) : Nat := 10 ^ 18 + k * 720 * 10 ^ 9

/-- The average of the stable pool is registered, and the record is brought up to date at every
interval until there are 60. -/
def w1 : Contract := c2.step (.call (y own) (.registerTwap 1))

/-- `n` updates, one per interval. -/
def syncs (n : Nat) : History :=
  (List.range n).map fun k => (tick (k + 1), .call { by' al with now := tick (k + 1) } (.syncTwap 1))

/-- The state with 60 records. -/
def w2 : Contract := w1.run (syncs 59).events

/-- A day after the last record. -/
def later : Nat := tick 59 + 86400 * 10 ^ 9

/-- Most of a deposit of token A goes into the stable pool at once. -/
def zap : Call := .ftOnTransfer al (4 * 10 ^ 23)
  (.hotZap none [.swap ⟨0, A, some 1000, B, 1⟩] [⟨1, [3 * 10 ^ 23, 0], none, some 1⟩])

/-- The same deposit as an ordinary call. -/
def ordinary : List Event :=
  [.call { by' A with now := later } (.ftOnTransfer al (4 * 10 ^ 23) .deposit),
   .call { Demo.near al with now := later } (.addStableLiquidity 1 [3 * 10 ^ 23, 0] 1)]

theorem w1_reachable : w1.Reachable := c2_reachable.step _

theorem w2_reachable : w2.Reachable := w1_reachable.run _

theorem watched_of {c : Contract} {id t0 iv : Nat} {h : History}
    (order : (t0 :: h.map Prod.fst).Pairwise (· ≤ ·)) (times : ∀ e ∈ h, e.2.At e.1)
    (quiet : ∀ e ∈ h, ¬ e.2.Silent id ∧ ¬ e.2.Unregisters id)
    (each : ∀ k ∈ List.range (h.length + 1), ((c.run (h.events.take k)).getUnitShare id).isOk = true ∧
      iv ≤ (c.run (h.events.take k)).cfg.recordInterval) : c.Watched id t0 iv h := by
  have hk : ∀ es, es <+: h.events → ∃ k ∈ List.range (h.length + 1), es = h.events.take k := by
    intro es hes
    refine ⟨es.length, ?_, List.prefix_iff_eq_take.1 hes⟩
    have := hes.length_le
    unfold History.events at this
    rw [List.length_map] at this
    exact List.mem_range.2 (by omega)
  refine ⟨order, times, quiet, fun es hes => ?_, fun es hes => ?_⟩
  · obtain ⟨k, hk, rfl⟩ := hk es hes
    have := (each k hk).1
    cases hg : (c.run (h.events.take k)).getUnitShare id with
    | error e => rw [hg] at this; cases this
    | ok v => exact ⟨v, rfl⟩
  · obtain ⟨k, hk, rfl⟩ := hk es hes
    exact (each k hk).2

/-- After the 60 records a trade happens, and an hour later the average is asked for. -/
def tradeDay : History := syncs 59 ++
  [(later, .call { by' al with now := later } (.executeActions [.swap ⟨1, A, some (10 ^ 23), B, 1⟩] none))]

example : w1.Watched 1 (10 ^ 18) 720 tradeDay := by
  refine watched_of (by decide +kernel) ?_ ?_ (by decide +kernel)
  · intro e he
    unfold tradeDay syncs at he
    simp only [List.mem_append, List.mem_map, List.mem_singleton] at he
    rcases he with ⟨k, -, rfl⟩ | rfl <;> exact rfl
  · intro e he
    unfold tradeDay syncs at he
    simp only [List.mem_append, List.mem_map, List.mem_singleton] at he
    rcases he with ⟨k, -, rfl⟩ | rfl <;> exact ⟨fun h => h, fun h => h⟩

example : ((w1.run tradeDay.events).getUnitShareTwap (later + 3600 * 10 ^ 9) 1).holds (fun v =>
      v = some [503433851259791625, 496572066381445687]) = true := by
  decide +kernel

example : ((w1.run tradeDay.events).getUnitLptAssets (later + 3600 * 10 ^ 9) 1).holds (fun v =>
      v = some (18, [(A, 503433851259791625), (B, 496572066381445687)])) = true := by
  decide +kernel

/-- The other deposit leaves the average alone, although one share now redeems very different
amounts. -/
example : (∀ e ∈ ordinary, ¬ e.Silent 1 ∧ ¬ e.Unregisters 1) ∧
    (w2.getUnitShareTwap later 1).holds (fun v => v = some [5 * 10 ^ 17, 5 * 10 ^ 17]) = true ∧
    ((w2.run ordinary).getUnitShareTwap later 1).holds (fun v => v = some [5 * 10 ^ 17, 5 * 10 ^ 17]) =
      true ∧
    ((w2.run ordinary).getUnitShare 1).holds (fun v =>
      v = [636518577927451536, 363724901672829449]) = true := by
  refine ⟨?_, by decide +kernel, by decide +kernel, by decide +kernel⟩
  intro e he
  unfold ordinary at he
  simp only [List.mem_cons, List.not_mem_nil, or_false] at he
  rcases he with rfl | rfl <;> exact ⟨fun h => h, fun h => h⟩

/-- A whole share, redeemed. -/
example : (w2.removeLiquidity { y al with now := later } 1 (10 ^ 18) [1, 1]).holds (fun r =>
    r.2 = [5 * 10 ^ 17, 5 * 10 ^ 17]) = true ∧
    (w2.getUnitShare 1).holds (fun v => v = [5 * 10 ^ 17, 5 * 10 ^ 17]) = true := by
  decide +kernel

end Examples

open Demo in
/-- C69. The exception is real: a hot zap adds liquidity without a sample, so that what a share redeems
after it counts for all the time since the last sample. In a block, a deposit of one token moves the
reported average of both tokens, one of them up by 18 percent. -/
theorem C69_hot_zap_moves_average : ∃ (c c' : Contract) (x : Ctx) (k : Call) (outs : List Out)
    (id a b a' b' : Nat), c.Reachable ∧ c.exec x k = .ok (c', outs) ∧ (Event.call x k).Silent id ∧
      c.getUnitShareTwap x.now id = .ok (some [a, b]) ∧
      c'.getUnitShareTwap x.now id = .ok (some [a', b']) ∧ a * 118 < a' * 100 ∧ b' < b := by
  have key : (w2.exec { by' A with now := later } zap).holds (fun r =>
      (r.1.getUnitShareTwap later 1).holds (fun v =>
        v = some [592034996355585305, 408129147195165920])) = true := by decide +kernel
  have h0 : (w2.getUnitShareTwap later 1).holds (fun v => v = some [5 * 10 ^ 17, 5 * 10 ^ 17]) =
      true := by decide +kernel
  cases h : w2.exec { by' A with now := later } zap with
  | error e => rw [h] at key; cases key
  | ok r =>
    rw [h] at key
    obtain ⟨c', outs⟩ := r
    replace key : (c'.getUnitShareTwap later 1).holds (fun v =>
        v = some [592034996355585305, 408129147195165920]) = true := key
    refine ⟨w2, c', { by' A with now := later }, zap, outs, 1, 5 * 10 ^ 17, 5 * 10 ^ 17,
      592034996355585305, 408129147195165920, w2_reachable, h, ⟨_, List.mem_singleton.2 rfl, rfl⟩,
      ?_, ?_, by norm_num, by norm_num⟩
    · show w2.getUnitShareTwap later 1 = _
      cases h1 : w2.getUnitShareTwap later 1 with
      | error e => rw [h1] at h0; cases h0
      | ok v => rw [h1] at h0; rw [of_decide_eq_true h0]
    · show c'.getUnitShareTwap later 1 = _
      cases h1 : c'.getUnitShareTwap later 1 with
      | error e => rw [h1] at key; cases key
      | ok v => rw [h1] at key; rw [of_decide_eq_true key]
end Contract
end Verif

import Verif.Exchange.Twap
import Mathlib.Tactic.Ring
import Mathlib.Tactic.NormNum

/-
C39: the reported time-weighted average is the average of the observed samples.

Specification: a record is started by one observation and fed further observations; `Observed`
lists them, newest first. `integral` is the exact (unbounded) time integral since a given
time, `Window` says that all samples that weigh in since that time lie in a range.
-/

namespace Verif

/-- One observation of the token amounts behind a unit of shares. -/
structure Sample where
  time : Nat
  amounts : List Nat

/-- The sample for token `j`. -/
def Sample.at (s : Sample) (j : Nat) : Nat := s.amounts.getD j 0

/-- A sample the contract can take of a pool with `n` tokens. -/
def Sample.Valid (n : Nat) (s : Sample) : Prop :=
  s.time < 2 ^ 32 ∧ s.amounts.length = n ∧ ∀ a ∈ s.amounts, a < 2 ^ 128

/-- `Observed n u h`: the record `u` was made by the observations `h`, newest first, under
whatever recording intervals were configured meanwhile. -/
inductive Observed (n : Nat) : CumInfo → List Sample → Prop
  | new (s : Sample) (hs : s.Valid n) : Observed n (CumInfo.new s.time s.amounts) [s]
  | update {u u' : CumInfo} {h : List Sample} (s : Sample) (interval : Nat) (hu : Observed n u h)
      (hs : s.Valid n) (hr : u.update s.time s.amounts interval = .ok u') : Observed n u' (s :: h)

/-- Time integral of token `j` since `from`: each sample counts for the time since the
sample before it. -/
def integral (since j : Nat) : List Sample → Nat
  | s :: s' :: rest =>
    (if since ≤ s'.time then s.at j * (s.time - s'.time) else 0) + integral since j (s' :: rest)
  | _ => 0

/-- Every sample of token `j` that weighs in since `since` lies between `lo` and `hi`. -/
def Window (since j lo hi : Nat) : List Sample → Prop
  | s :: s' :: rest =>
    (since ≤ s'.time → s'.time < s.time → lo ≤ s.at j ∧ s.at j ≤ hi) ∧
      Window since j lo hi (s' :: rest)
  | _ => True

/-- The times are non-increasing going back. -/
def MonoT : List Sample → Prop
  | s :: s' :: rest => s'.time ≤ s.time ∧ MonoT (s' :: rest)
  | _ => True

theorem MonoT.le {s s' : Sample} {h : List Sample} (hm : MonoT (s :: h)) (hx : s' ∈ h) :
    s'.time ≤ s.time := by
  induction h generalizing s with
  | nil => cases hx
  | cons x xs ih =>
    rcases List.mem_cons.1 hx with rfl | hx'
    · exact hm.1
    · exact le_trans (ih hm.2 hx') hm.1

theorem integral_le {since j lo hi : Nat} : ∀ {s : Sample} {h : List Sample}, MonoT (s :: h) →
    Window since j lo hi (s :: h) → integral since j (s :: h) ≤ hi * (s.time - since)
  | s, [], _, _ => by simp [integral]
  | s, s' :: rest, hm, hw => by
    have ih := integral_le hm.2 hw.2
    have h1 := hm.1
    unfold integral
    split
    · rename_i hs
      have : s.at j * (s.time - s'.time) ≤ hi * (s.time - s'.time) := by
        rcases Nat.eq_or_lt_of_le h1 with h | h
        · simp [h]
        · exact Nat.mul_le_mul_right _ (hw.1 hs h).2
      calc _ ≤ hi * (s.time - s'.time) + hi * (s'.time - since) := by omega
        _ = hi * (s.time - since) := by rw [← Nat.mul_add]; congr 1; omega
    · have : hi * (s'.time - since) ≤ hi * (s.time - since) := Nat.mul_le_mul_left _ (by omega)
      omega

theorem le_integral {since j lo hi : Nat} : ∀ {s : Sample} {h : List Sample}, MonoT (s :: h) →
    Window since j lo hi (s :: h) → (∃ x ∈ s :: h, x.time = since) →
    lo * (s.time - since) ≤ integral since j (s :: h)
  | s, [], _, _, hx => by
    obtain ⟨x, hx, rfl⟩ := hx
    simp only [List.mem_singleton] at hx
    simp [hx]
  | s, s' :: rest, hm, hw, hx => by
    have h1 := hm.1
    unfold integral
    by_cases hs : since ≤ s'.time
    · rw [if_pos hs]
      by_cases he : ∃ x ∈ s' :: rest, x.time = since
      · have ih := le_integral hm.2 hw.2 he
        have : lo * (s.time - s'.time) ≤ s.at j * (s.time - s'.time) := by
          rcases Nat.eq_or_lt_of_le h1 with h | h
          · simp [h]
          · exact Nat.mul_le_mul_right _ (hw.1 hs h).1
        calc lo * (s.time - since) = lo * (s.time - s'.time) + lo * (s'.time - since) := by
              rw [← Nat.mul_add]; congr 1; omega
          _ ≤ _ := by omega
      · obtain ⟨x, hx, hxt⟩ := hx
        rcases List.mem_cons.1 hx with rfl | hx
        · have : x.time - since = 0 := by omega
          simp [this]
        · exact absurd ⟨x, hx, hxt⟩ he
    · obtain ⟨x, hx, hxt⟩ := hx
      rcases List.mem_cons.1 hx with rfl | hx
      · have : x.time - since = 0 := by omega
        simp [this]
      · rcases List.mem_cons.1 hx with rfl | hx
        · omega
        · have := hm.2.le hx; omega

theorem window_all {since j hi : Nat} : ∀ {h : List Sample}, (∀ s ∈ h, s.at j ≤ hi) →
    Window since j 0 hi h
  | [], _ => trivial
  | [_], _ => trivial
  | s :: s' :: rest, hh =>
    ⟨fun _ _ => ⟨Nat.zero_le _, hh s (by simp)⟩, window_all fun x hx => hh x (by simp [hx])⟩

namespace CumInfo

theorem accumulate_ok {e : Nat} : ∀ {cum amounts r : List Nat}, accumulate e cum amounts = .ok r →
    r.length = cum.length ∧
      ∀ j < cum.length, r.getD j 0 = (cum.getD j 0 + amounts.getD j 0 * e) % 2 ^ 256
  | [], _, r, h => by cases h; simp
  | _ :: _, [], r, h => by cases h
  | c :: cs, a :: as, r, h => by
    unfold accumulate at h
    unpack at h
    obtain ⟨_, rest, hr, rfl⟩ := h
    obtain ⟨h1, h2⟩ := accumulate_ok hr
    refine ⟨by simp [h1], fun j hj => ?_⟩
    cases j with
    | zero => simp
    | succ j => simpa using h2 j (by simpa using hj)

theorem accumulate_total {e : Nat} (he : e < 2 ^ 32) : ∀ {cum amounts : List Nat},
    cum.length ≤ amounts.length → (∀ a ∈ amounts, a < 2 ^ 128) →
    ∃ r, accumulate e cum amounts = .ok r
  | [], _, _, _ => ⟨[], rfl⟩
  | c :: cs, [], hl, _ => by simp at hl
  | c :: cs, a :: as, hl, ha => by
    obtain ⟨r, hr⟩ := accumulate_total he (cum := cs) (amounts := as) (by simpa using hl)
      fun x hx => ha x (by simp [hx])
    have hm : a * e < 2 ^ 256 := by
      have := ha a (by simp)
      calc a * e ≤ 2 ^ 128 * 2 ^ 32 := Nat.mul_le_mul (by omega) (by omega)
        _ < 2 ^ 256 := by norm_num
    exact ⟨_, by rw [accumulate, mulW_ok.2 ⟨hm, rfl⟩, ok_bind, hr]; rfl⟩

/-- What holds of every observed record. -/
structure Inv (n : Nat) (u : CumInfo) (h : List Sample) : Prop where
  last : ∃ (s : Sample) (rest : List Sample), h = s :: rest ∧ s.time = u.last
  mono : MonoT h
  valid : ∀ s ∈ h, s.Valid n
  len : u.cum.length = n
  ne : u.recs ≠ []
  le : u.recs.length ≤ RECORD_COUNT_LIMIT
  recs : ∀ r ∈ u.recs, (∃ s ∈ h, s.time = r.time) ∧ r.cum.length = n ∧
    ∀ j < n, r.cum.getD j 0 < 2 ^ 256 ∧
      u.cum.getD j 0 = (r.cum.getD j 0 + integral r.time j h) % 2 ^ 256

theorem valid_at {n : Nat} {s : Sample} (hs : s.Valid n) (j : Nat) : s.at j < 2 ^ 128 := by
  unfold Sample.at
  rcases Nat.lt_or_ge j s.amounts.length with h | h
  · rw [← List.getElem_eq_getD (h := h)]
    exact hs.2.2 _ (List.getElem_mem h)
  · rw [List.getD_eq_getElem?_getD, List.getElem?_eq_none h]; norm_num

theorem update_ok {u u' : CumInfo} {now iv : Nat} {as : List Nat}
    (h : u.update now as iv = .ok u') : u.last ≤ now ∧ u.recs ≠ [] ∧
      ((now = u.last ∧ u' = u) ∨
      (u.last < now ∧ ∃ cum : List Nat, accumulate (now - u.last) u.cum as = .ok cum ∧ u'.last = now ∧
        u'.cum = cum ∧ (u'.recs = u.recs ∨
          u'.recs = (if (u.recs ++ [CumRecord.mk now cum]).length > RECORD_COUNT_LIMIT
            then (u.recs ++ [CumRecord.mk now cum]).drop 1
            else u.recs ++ [CumRecord.mk now cum])))) := by
  unfold update at h
  unpack at h
  obtain ⟨lr, hlr, hle, h⟩ := h
  have hne : u.recs ≠ [] := by rintro hn; rw [hn] at hlr; cases hlr
  refine ⟨hle, hne, ?_⟩
  split at h
  · right
    refine ⟨by omega, ?_⟩
    unpack at h
    obtain ⟨cum, hc, hs, h⟩ := h
    split at h <;> cases h
    · exact ⟨cum, hc, rfl, rfl, Or.inr rfl⟩
    · exact ⟨cum, hc, rfl, rfl, Or.inl rfl⟩
  · cases h; left; exact ⟨by omega, rfl⟩

theorem integral_self {j : Nat} {s : Sample} {h : List Sample} (hm : MonoT (s :: h)) :
    integral s.time j (s :: h) = 0 := by
  have aux : ∀ {t : Nat} {x : Sample} {l : List Sample}, MonoT (x :: l) → x.time ≤ t →
      integral t j (x :: l) = 0 := by
    intro t x l
    induction l generalizing x with
    | nil => intro _ _; simp [integral]
    | cons y ys ih =>
      intro hm hx
      unfold integral
      have h1 := hm.1
      rw [ih hm.2 (by omega)]
      split
      · have : x.time - y.time = 0 := by omega
        simp [this]
      · rfl
  exact aux hm (le_refl _)

theorem inv_of_observed {n : Nat} {u : CumInfo} {h : List Sample} (ho : Observed n u h) :
    Inv n u h := by
  induction ho with
  | new s hs =>
    refine ⟨⟨s, [], rfl, rfl⟩, trivial, by simpa using hs, hs.2.1, by simp [CumInfo.new],
      by simp [CumInfo.new, RECORD_COUNT_LIMIT], ?_⟩
    intro r hr
    simp only [CumInfo.new, List.mem_singleton] at hr
    subst hr
    refine ⟨⟨s, by simp, rfl⟩, hs.2.1, fun j hj => ?_⟩
    have h1 : s.amounts.getD j 0 < 2 ^ 256 := lt_trans (valid_at hs j) (by norm_num)
    refine ⟨h1, ?_⟩
    show s.amounts.getD j 0 = (s.amounts.getD j 0 + 0) % _
    rw [Nat.add_zero, Nat.mod_eq_of_lt h1]
  | @update u u' h s iv hu hs hr ih =>
    obtain ⟨hle, _, hcase⟩ := update_ok hr
    obtain ⟨s0, rest, rfl, hs0⟩ := ih.last
    have hmono : MonoT (s :: s0 :: rest) := ⟨by omega, ih.mono⟩
    have hvalid : ∀ x ∈ s :: s0 :: rest, x.Valid n := by
      intro x hx
      rcases List.mem_cons.1 hx with rfl | hx
      · exact hs
      · exact ih.valid x hx
    have hint : ∀ r ∈ u.recs, ∀ j, integral r.time j (s :: s0 :: rest) =
        s.at j * (s.time - u.last) + integral r.time j (s0 :: rest) := by
      intro r hr j
      obtain ⟨⟨x, hx, hxt⟩, _⟩ := ih.recs r hr
      have : r.time ≤ s0.time := by
        rcases List.mem_cons.1 hx with rfl | hx
        · omega
        · rw [← hxt]; exact ih.mono.le hx
      rw [integral, if_pos this, hs0]
    rcases hcase with ⟨he, rfl⟩ | ⟨hlt, cum, hacc, hlast, hcum, hrecs⟩
    · refine ⟨⟨s, _, rfl, he⟩, hmono, hvalid, ih.len, ih.ne, ih.le, fun r hr => ?_⟩
      obtain ⟨⟨x, hx, hxt⟩, h2, h3⟩ := ih.recs r hr
      refine ⟨⟨x, List.mem_cons_of_mem _ hx, hxt⟩, h2, fun j hj => ⟨(h3 j hj).1, ?_⟩⟩
      rw [hint r hr j, he]
      simpa using (h3 j hj).2
    · obtain ⟨hl, hacc⟩ := accumulate_ok hacc
      rw [ih.len] at hl hacc
      have hold : ∀ r ∈ u.recs, (∃ x ∈ s :: s0 :: rest, x.time = r.time) ∧ r.cum.length = n ∧
          ∀ j < n, r.cum.getD j 0 < 2 ^ 256 ∧
          cum.getD j 0 = (r.cum.getD j 0 + integral r.time j (s :: s0 :: rest)) % 2 ^ 256 := by
        intro r hr
        obtain ⟨⟨x, hx, hxt⟩, h2, h3⟩ := ih.recs r hr
        refine ⟨⟨x, List.mem_cons_of_mem _ hx, hxt⟩, h2, fun j hj => ⟨(h3 j hj).1, ?_⟩⟩
        rw [hint r hr j, hacc j hj, (h3 j hj).2, Nat.mod_add_mod]
        congr 1
        show _ + s.at j * _ = _
        ring
      have hnew : ∀ r ∈ u.recs ++ [(⟨s.time, cum⟩ : CumRecord)],
          (∃ x ∈ s :: s0 :: rest, x.time = r.time) ∧ r.cum.length = n ∧
          ∀ j < n, r.cum.getD j 0 < 2 ^ 256 ∧
          cum.getD j 0 = (r.cum.getD j 0 + integral r.time j (s :: s0 :: rest)) % 2 ^ 256 := by
        intro r hr
        rcases List.mem_append.1 hr with hr | hr
        · exact hold r hr
        · simp only [List.mem_singleton] at hr
          subst hr
          refine ⟨⟨s, by simp, rfl⟩, hl, fun j hj => ?_⟩
          have hlt : cum.getD j 0 < 2 ^ 256 := by
            rw [hacc j hj]; exact Nat.mod_lt _ (by norm_num)
          refine ⟨hlt, ?_⟩
          rw [show integral s.time j (s :: s0 :: rest) = 0 from integral_self hmono, Nat.add_zero,
            Nat.mod_eq_of_lt hlt]
      refine ⟨⟨s, _, rfl, hlast.symm⟩, hmono, hvalid, by rw [hcum, hl], ?_, ?_, ?_⟩
      · rcases hrecs with h | h
        · rw [h]; exact ih.ne
        · rw [h]
          split
          · obtain ⟨x, xs, hx⟩ := List.exists_cons_of_ne_nil ih.ne
            simp [hx]
          · simp
      · rcases hrecs with h | h
        · rw [h]; exact ih.le
        · rw [h]
          have := ih.le
          split
          · simp; omega
          · omega
      · rw [hcum]
        rcases hrecs with h | h
        · rw [h]; exact hold
        · rw [h]
          split
          · exact fun r hr => hnew r (List.mem_of_mem_drop hr)
          · exact hnew

theorem averages_ok {d : Nat} : ∀ {xs v : List Nat}, averages d xs = .ok v →
    v.length = xs.length ∧ ∀ j < xs.length, v.getD j 0 = xs.getD j 0 / d
  | [], v, h => by cases h; simp
  | x :: xs, v, h => by
    unfold averages at h
    unpack at h
    obtain ⟨_, _, rest, hr, rfl⟩ := h
    obtain ⟨h1, h2⟩ := averages_ok hr
    refine ⟨by simp [h1], fun j hj => ?_⟩
    cases j with
    | zero => simp
    | succ j => simpa using h2 j (by simpa using hj)

theorem averages_total {d : Nat} (hd : d ≠ 0) : ∀ {xs : List Nat}, (∀ x ∈ xs, x / d < 2 ^ 128) →
    ∃ v, averages d xs = .ok v
  | [], _ => ⟨[], rfl⟩
  | x :: xs, h => by
    obtain ⟨v, hv⟩ := averages_total hd (xs := xs) fun y hy => h y (by simp [hy])
    exact ⟨x / d :: v, by
      rw [averages, divW_ok.2 ⟨hd, rfl⟩, ok_bind, fit_ok.2 ⟨h x (by simp), rfl⟩, ok_bind, hv]; rfl⟩

theorem wrapSub_eq {a b : Nat} (ha : a < 2 ^ 256) (hb : b < 2 ^ 256) :
    wrapSub ((a + b) % 2 ^ 256) a = b := by
  unfold wrapSub
  have h2 : (0 : Nat) < 2 ^ 256 := by norm_num
  generalize 2 ^ 256 = M at *
  rcases Nat.lt_or_ge (a + b) M with h | h
  · rw [Nat.mod_eq_of_lt h, show a + b + M - a = b + M by omega, Nat.add_mod_right,
      Nat.mod_eq_of_lt hb]
  · rw [Nat.mod_eq_sub_mod h, Nat.mod_eq_of_lt (show a + b - M < M by omega),
      show a + b - M + M - a = b by omega, Nat.mod_eq_of_lt hb]

end CumInfo

open CumInfo in
/-- The numerators of the average, as exact integrals. -/
theorem twap_numerators {n : Nat} {u : CumInfo} {h : List Sample} {r : CumRecord}
    (ho : Observed n u h) (hr : r ∈ u.recs) :
    (List.zipWith wrapSub u.cum r.cum).length = n ∧ r.time ≤ u.last ∧ u.last - r.time < 2 ^ 32 ∧
    ∀ j < n, (List.zipWith wrapSub u.cum r.cum).getD j 0 = integral r.time j h ∧
      integral r.time j h ≤ (2 ^ 128 - 1) * (u.last - r.time) := by
  have hi := inv_of_observed ho
  obtain ⟨s, rest, rfl, hs⟩ := hi.last
  obtain ⟨⟨x, hx, hxt⟩, hl, hj⟩ := hi.recs r hr
  have hle : r.time ≤ u.last := by
    rw [← hxt, ← hs]
    rcases List.mem_cons.1 hx with rfl | hx
    · exact le_refl _
    · exact hi.mono.le hx
  have hv := (hi.valid s (by simp)).1
  refine ⟨by simp [hi.len, hl], hle, by omega, fun j hjn => ?_⟩
  have hw : Window r.time j 0 (2 ^ 128 - 1) (s :: rest) :=
    window_all fun y hy => by
      have := valid_at (hi.valid y hy) j
      omega
  have hb := integral_le hi.mono hw
  rw [hs] at hb
  have hlt : integral r.time j (s :: rest) < 2 ^ 256 := by
    refine lt_of_le_of_lt hb ?_
    calc (2 ^ 128 - 1) * (u.last - r.time) ≤ (2 ^ 128 - 1) * 2 ^ 32 :=
          Nat.mul_le_mul_left _ (by omega)
      _ < 2 ^ 256 := by norm_num
  refine ⟨?_, hb⟩
  obtain ⟨h1, h2⟩ := hj j hjn
  have e1 : j < u.cum.length := by rw [hi.len]; exact hjn
  have e2 : j < r.cum.length := by rw [hl]; exact hjn
  have : (List.zipWith wrapSub u.cum r.cum).getD j 0 =
      wrapSub (u.cum.getD j 0) (r.cum.getD j 0) := by
    rw [← List.getElem_eq_getD (h := by simp [hi.len, hl, hjn]), ← List.getElem_eq_getD (h := e1),
      ← List.getElem_eq_getD (h := e2), List.getElem_zipWith]
  rw [this, h2, wrapSub_eq h1 hlt]

/-- C39. As soon as time has passed since the oldest record, the reported average exists and
is, for every token, the exact integral since the oldest record divided by the time: the
wrapping accumulators have no effect on it. -/
theorem C39_average {n : Nat} {u : CumInfo} {h : List Sample} {r : CumRecord}
    (ho : Observed n u h) (hr : u.recs.head? = some r) (ht : r.time < u.last) :
    ∃ v, u.twap = .ok v ∧ v.length = n ∧
      ∀ j < n, v.getD j 0 = integral r.time j h / (u.last - r.time) := by
  obtain ⟨hl, hle, _, hj⟩ := twap_numerators ho (List.mem_of_mem_head? hr)
  obtain ⟨v, hv⟩ := CumInfo.averages_total (d := u.last - r.time) (by omega)
    (xs := List.zipWith CumInfo.wrapSub u.cum r.cum) (by
      intro x hx
      obtain ⟨j, hjl, rfl⟩ := List.getElem_of_mem hx
      have hjn : j < n := hl ▸ hjl
      rw [List.getElem_eq_getD 0, (hj j hjn).1, Nat.div_lt_iff_lt_mul (by omega)]
      have := (hj j hjn).2
      calc _ ≤ _ := this
        _ < _ := Nat.mul_lt_mul_of_pos_right (by norm_num) (by omega))
  refine ⟨v, ?_, ?_⟩
  · rw [CumInfo.twap, expectE_ok.2 hr, ok_bind]
    simp only
    rw [subW_ok.2 ⟨hle, rfl⟩, ok_bind, assertE_true (by omega), ok_bind, hv]
  · obtain ⟨h1, h2⟩ := CumInfo.averages_ok hv
    refine ⟨by rw [h1, hl], fun j hjn => ?_⟩
    rw [h2 j (by rw [hl]; exact hjn), (hj j hjn).1]

/-- C39. The reported average lies between the smallest and the largest sample that weighs in
since the oldest record. -/
theorem C39_between {n : Nat} {u : CumInfo} {h : List Sample} {r : CumRecord} {v : List Nat}
    {j lo hi : Nat} (ho : Observed n u h) (hr : u.recs.head? = some r)
    (hv : u.twap = .ok v) (hj : j < n) (hw : Window r.time j lo hi h) :
    lo ≤ v.getD j 0 ∧ v.getD j 0 ≤ hi := by
  have ht : r.time < u.last := by
    unfold CumInfo.twap at hv
    unpack at hv
    obtain ⟨r', hr', hle, hd, _⟩ := hv
    rw [hr] at hr'
    cases hr'
    omega
  obtain ⟨v', hv', _, hj'⟩ := C39_average ho hr ht
  rw [hv] at hv'
  cases hv'
  rw [hj' j hj]
  have hi' := CumInfo.inv_of_observed ho
  obtain ⟨s, rest, rfl, hs⟩ := hi'.last
  obtain ⟨hx, _⟩ := hi'.recs r (List.mem_of_mem_head? hr)
  have h1 := integral_le hi'.mono hw
  have h2 := le_integral hi'.mono hw hx
  rw [hs] at h1 h2
  constructor
  · rw [Nat.le_div_iff_mul_le (by omega)]; exact h2
  · exact Nat.div_le_of_le_mul (by rw [Nat.mul_comm]; exact h1)

/-- C39. At most 60 records are kept, and there is always one. -/
theorem C39_records {n : Nat} {u : CumInfo} {h : List Sample} (ho : Observed n u h) :
    1 ≤ u.recs.length ∧ u.recs.length ≤ 60 := by
  have hi := CumInfo.inv_of_observed ho
  exact ⟨List.length_pos_iff.2 hi.ne, hi.le⟩

/-- C39. Feeding a sample never fails as long as time does not run backwards. -/
theorem C39_update_total {n : Nat} {u : CumInfo} {h : List Sample} (ho : Observed n u h)
    {s : Sample} (hs : s.Valid n) (ht : u.last ≤ s.time) (interval : Nat) :
    ∃ u', u.update s.time s.amounts interval = .ok u' := by
  have hi := CumInfo.inv_of_observed ho
  obtain ⟨s0, rest, rfl, hs0⟩ := hi.last
  have hlr : u.recs.getLast? = some (u.recs.getLast hi.ne) := List.getLast?_eq_some_getLast hi.ne
  obtain ⟨⟨x, hx, hxt⟩, _⟩ := hi.recs _ (List.getLast_mem hi.ne)
  have hle : (u.recs.getLast hi.ne).time ≤ s.time := by
    rw [← hxt]
    rcases List.mem_cons.1 hx with rfl | hx
    · omega
    · have := hi.mono.le hx; omega
  obtain ⟨cum, hc⟩ := CumInfo.accumulate_total (e := s.time - u.last) (by have := hs.1; omega)
    (cum := u.cum) (amounts := s.amounts) (by rw [hi.len, hs.2.1]) hs.2.2
  unfold CumInfo.update
  rw [expectE_ok.2 hlr, ok_bind, subW_ok.2 ⟨ht, rfl⟩, ok_bind]
  by_cases he : s.time - u.last > 0
  · rw [if_pos he, hc, ok_bind, subW_ok.2 ⟨hle, rfl⟩, ok_bind]
    split
    · exact ⟨_, rfl⟩
    · exact ⟨_, rfl⟩
  · rw [if_neg he]; exact ⟨_, rfl⟩

/-- C39. Once the recording interval has passed, the sample is recorded, and the oldest record
is given up only when 60 are kept already. Before that the records stay. -/
theorem C39_recorded {n : Nat} {u u' : CumInfo} {h : List Sample} (ho : Observed n u h)
    {s : Sample} {interval : Nat} {r : CumRecord}
    (hu : u.update s.time s.amounts interval = .ok u') (ht : u.last < s.time)
    (hr : u.recs.getLast? = some r) :
    u'.last = s.time ∧ u'.recs.map (·.time) = if interval ≤ s.time - r.time then
      (u.recs.map (·.time)).drop (if u.recs.length = 60 then 1 else 0) ++ [s.time]
      else u.recs.map (·.time) := by
  have hi := (C39_records ho).2
  have h1 := (C39_records ho).1
  unfold CumInfo.update at hu
  unpack at hu
  obtain ⟨lr, hlr, hle, hu⟩ := hu
  rw [hr] at hlr
  cases hlr
  rw [if_pos (by omega)] at hu
  unpack at hu
  obtain ⟨cum, hc, hs, hu⟩ := hu
  split at hu
  · rename_i hiv
    cases hu
    refine ⟨rfl, ?_⟩
    rw [if_pos hiv]
    have e : (u.recs ++ [CumRecord.mk s.time cum]).length > RECORD_COUNT_LIMIT ↔
        u.recs.length = 60 := by
      simp only [List.length_append, List.length_singleton, RECORD_COUNT_LIMIT]; omega
    simp only [e]
    split
    · obtain ⟨x, xs, hx⟩ := List.exists_cons_of_ne_nil (List.length_pos_iff.1 h1)
      simp [hx]
    · simp
  · rename_i hiv
    cases hu
    exact ⟨rfl, by rw [if_neg hiv]⟩

/-! A record of a two-token pool started at second 1000, with samples 100, 300 and an
intermediate one too early to be recorded. -/

example : ((CumInfo.new 1000 [100, 7]).update 1010 [200, 9] 20).holds (fun u =>
    (u.update 1030 [400, 12] 20).holds fun u =>
      u.twap = .ok [(200 * 10 + 400 * 20) / 30, (9 * 10 + 12 * 20) / 30] &&
        decide (u.recs.length = 2)) = true := by decide +kernel

example : ∃ u u', Observed 2 u [⟨1010, [200, 9]⟩, ⟨1000, [100, 7]⟩] ∧
    Observed 2 u' [⟨1030, [400, 12]⟩, ⟨1010, [200, 9]⟩, ⟨1000, [100, 7]⟩] ∧
    u'.recs.head? = some ⟨1000, [100, 7]⟩ ∧ (1000 : Nat) < u'.last :=
  have v : ∀ {t a b : Nat}, t < 2 ^ 32 → a < 2 ^ 128 → b < 2 ^ 128 → (⟨t, [a, b]⟩ : Sample).Valid 2 :=
    fun ht ha hb => ⟨ht, rfl, by simpa using ⟨ha, hb⟩⟩
  have o1 := Observed.update (u' := ⟨1010, [100 + 200 * 10, 7 + 9 * 10], [⟨1000, [100, 7]⟩]⟩)
    ⟨1010, [200, 9]⟩ 20
    (.new ⟨1000, [100, 7]⟩ (v (by norm_num) (by norm_num) (by norm_num)))
    (v (by norm_num) (by norm_num) (by norm_num)) (by decide +kernel)
  ⟨_, ⟨1030, [10100, 337], [⟨1000, [100, 7]⟩, ⟨1030, [10100, 337]⟩]⟩, o1,
    .update ⟨1030, [400, 12]⟩ 20 o1
      (v (by norm_num) (by norm_num) (by norm_num)) (by decide +kernel), rfl, by norm_num⟩

end Verif

import Verif.Exchange.OracleLemmas
import Verif.Exchange.LimitProps

/-
C66 (rates and prices come from oracles): what a reply may change, that every stored price and rate is
what some oracle reported when it was fresh, and what happens to a swap.
-/

namespace Verif

open Demo

namespace Contract

/-! ### One reply -/

/-- The reply to a request for prices changes stored prices only, and only to what it justifies. -/
theorem reply_repriced {c c' : Contract} {now : Nat} {k : OracleCall} {r : Reply}
    (hk : ∀ t, k ≠ .rate t) (h : c.reply now (some r) k = .ok c') :
    Repriced (fun t v => Justifies c.cfg now t v k r) now c c' := by
  cases k with
  | rate t => exact absurd rfl (hk t)
  | degen t =>
    unfold reply degenCallback at h
    unpack at h
    obtain ⟨d, hd, v, hv, rfl⟩ := h
    exact .one (degenPrice_ok hd hv)
  | batchPrice decs =>
    unfold reply batchPriceCallback at h
    cases r <;> simp only [reduceCtorEq] at h
    unpack at h
    obtain ⟨o, ho, _, hv, h⟩ := h
    exact (storePrices_ok h).mono fun t v ⟨dec, p, h1, h2, h3⟩ =>
      ⟨o, dec, p, ho, PriceData.assertValid_ok hv, h1, h2, h3⟩
  | batchPyth ids =>
    unfold reply batchPythCallback at h
    cases r <;> simp only [reduceCtorEq] at h
    unpack at h
    obtain ⟨o, ho, h⟩ := h
    exact (storePyth_ok h).mono fun t v ⟨id, ts, p, h1, h2, h3, h4, h5⟩ =>
      ⟨o, id, ts, p, ho, h1, h2, h3, h4, h5⟩

/-- The reply to a request for a rate. -/
theorem reply_rerated {c c' : Contract} {now : Nat} {u : AccountId} {r : Reply}
    (h : c.reply now (some r) (.rate u) = .ok c') :
    Rerated (fun t v => JustifiesRate c.cfg now t v (.rate u) r) now c c' := by
  unfold reply rateCallback at h
  cases hi : c.cfg.rates.get? u with
  | none => simp only [hi] at h; cases h; exact ⟨rfl, fun _ => .inl rfl⟩
  | some i =>
    simp only [hi] at h
    unpack at h
    obtain ⟨v, hv, rfl⟩ := h
    unfold setRate
    simp only [hi]
    refine ⟨rfl, fun t => ?_⟩
    simp only [FMap.get?_insert]
    split
    · rename_i e; subst e
      exact .inr ⟨i, v, hi, newRate_ok hi hv, rfl⟩
    · exact .inl rfl

/-- **C66**, one reply. A reply changes nothing but rates and prices. The price of a token is either
what it was, or it is new, carries the block time, and the reply justifies it; the source of the price
stays. The same for rates. -/
theorem C66_reply {c c' : Contract} {now : Nat} {k : OracleCall} {r : Reply}
    (h : c.reply now (some r) k = .ok c') :
    c' = { c with cfg := { c.cfg with degens := c'.cfg.degens, rates := c'.cfg.rates } } ∧
    (∀ t, c'.cfg.degens.get? t = c.cfg.degens.get? t ∨
      ∃ d v, c.cfg.degens.get? t = some d ∧ Justifies c.cfg now t v k r ∧
        c'.cfg.degens.get? t = some { d with price := some (v, now) }) ∧
    (∀ t, c'.cfg.rates.get? t = c.cfg.rates.get? t ∨
      ∃ i v, c.cfg.rates.get? t = some i ∧ JustifiesRate c.cfg now t v k r ∧
        c'.cfg.rates.get? t = some { i with rate := v, updated := now }) := by
  by_cases hk : ∀ t, k ≠ .rate t
  · have h1 := reply_repriced hk h
    refine ⟨?_, h1.price, fun t => .inl ?_⟩
    · have e : c'.cfg.rates = c.cfg.rates := by rw [h1.rest]
      rw [e]; exact h1.rest
    · rw [h1.rest]
  · simp only [not_forall, not_not] at hk
    obtain ⟨u, rfl⟩ := hk
    have h1 := reply_rerated h
    refine ⟨?_, fun t => .inl ?_, h1.2⟩
    · have e : c'.cfg.degens = c.cfg.degens := by rw [h1.1]
      rw [e]; exact h1.1
    · rw [h1.1]

/-- **C66**. If the call to the oracle failed, nothing changes. -/
theorem C66_failed {c c' : Contract} {now : Nat} {k : OracleCall} (h : c.reply now none k = .ok c') :
    c' = c := by
  cases k <;> simp only [reply, rateCallback, degenCallback, batchPriceCallback, batchPythCallback,
    Except.ok.injEq, reduceCtorEq] at h
  all_goals exact h.symm

/-! ### A valid reply is accepted -/

theorem _root_.Verif.AssetPrice.scaled_of {p : AssetPrice} {dec : Nat} (h1 : dec ≤ p.decimals)
    (h2 : p.decimals ≤ dec + 38) (h3 : p.multiplier < 2 ^ 128)
    (h4 : 10 ^ 24 * p.value dec < 2 ^ 128) : ∃ v, p.scaled dec = .ok v := by
  have e : ((p.decimals : ℤ) - dec) = ((p.decimals - dec : ℕ) : ℤ) := by omega
  rw [AssetPrice.value, e, zpow_natCast, ← mul_div_assoc, div_lt_iff₀ (by positivity)] at h4
  have h5 : 10 ^ 24 * p.multiplier < 2 ^ 128 * 10 ^ (p.decimals - dec) := by exact_mod_cast h4
  have e1 : PRECISION * p.multiplier < 2 ^ 256 :=
    Nat.lt_trans (Nat.mul_lt_mul'' (by decide : PRECISION < 2 ^ 120) h3) (by decide)
  have h0 : (10 : Nat) ^ (p.decimals - dec) ≠ 0 := by positivity
  refine ⟨PRECISION * p.multiplier / 10 ^ (p.decimals - dec), ?_⟩
  unfold AssetPrice.scaled u128Ratio
  simp only [bind_ok, subW_ok, pow10_ok, mulW_ok, divW_ok, fit_ok]
  exact ⟨_, ⟨h1, rfl⟩, _, ⟨by omega, rfl⟩, _, ⟨e1, rfl⟩, _, ⟨h0, rfl⟩,
    Nat.div_lt_of_lt_mul (Nat.lt_of_lt_of_eq h5 (Nat.mul_comm _ _)), rfl⟩

theorem _root_.Verif.PythPrice.scaled_of {p : PythPrice} (h0 : 0 < p.price)
    (h1 : p.expo.natAbs ≤ 38) (h2 : p.price < 2 ^ 63) (h3 : 10 ^ 24 * p.value < 2 ^ 128) :
    ∃ v, p.scaled = .ok v ∧ v < 2 ^ 128 := by
  have ep : (p.price : ℚ) = (p.price.toNat : ℚ) := by
    have : (p.price.toNat : ℤ) = p.price := Int.toNat_of_nonneg (le_of_lt h0)
    exact_mod_cast this.symm
  have e0 : p.price.toNat < 2 ^ 63 := by omega
  have e1 : PRECISION * p.price.toNat < 2 ^ 256 :=
    Nat.lt_trans (Nat.mul_lt_mul'' (by decide : PRECISION < 2 ^ 128) e0) (by decide)
  have hf : (10 : Nat) ^ p.expo.natAbs ≠ 0 := by positivity
  unfold PythPrice.scaled
  simp only [bind_ok, mulW_ok, pow10_ok]
  by_cases he : 0 < p.expo
  · have e : p.expo = (p.expo.natAbs : ℤ) := by omega
    rw [PythPrice.value, ep, e, zpow_natCast] at h3
    have h4 : 10 ^ 24 * (p.price.toNat * 10 ^ p.expo.natAbs) < 2 ^ 128 := by exact_mod_cast h3
    rw [← Nat.mul_assoc] at h4
    refine ⟨PRECISION * p.price.toNat * 10 ^ p.expo.natAbs,
      ⟨_, ⟨e1, rfl⟩, _, ⟨h1, rfl⟩, ?_⟩, h4⟩
    rw [if_pos he, mulW_ok]
    exact ⟨Nat.lt_trans h4 (by decide), rfl⟩
  · have e : p.expo = -(p.expo.natAbs : ℤ) := by omega
    rw [PythPrice.value, ep, e, zpow_neg, zpow_natCast, ← mul_assoc, ← div_eq_mul_inv,
      div_lt_iff₀ (by positivity)] at h3
    have h4 : 10 ^ 24 * p.price.toNat < 2 ^ 128 * 10 ^ p.expo.natAbs := by exact_mod_cast h3
    refine ⟨PRECISION * p.price.toNat / 10 ^ p.expo.natAbs, ⟨_, ⟨e1, rfl⟩, _, ⟨h1, rfl⟩, ?_⟩,
      Nat.div_lt_of_lt_mul (Nat.lt_of_lt_of_eq h4 (Nat.mul_comm _ _))⟩
    rw [if_neg he, divW_ok]
    exact ⟨hf, rfl⟩

theorem _root_.Verif.PriceData.Fresh.assertValid {d : PriceData} {now recency staleness : Nat}
    (h : d.Fresh now recency staleness) : d.assertValid now recency staleness = .ok () := by
  obtain ⟨h1, h2, h3⟩ := h
  unfold PriceData.assertValid
  rw [assertE_true h1, ok_bind, assertE_true h2, ok_bind, assertE_true]
  unfold toNano; omega

theorem _root_.Verif.PythPrice.Fresh.inTime {p : PythPrice} {now validFor : Nat}
    (h : p.Fresh now validFor) (hr : p.publishTime + validFor < 2 ^ 32) :
    p.inTime now validFor = .ok true := by
  obtain ⟨-, h2, h3⟩ := h
  obtain ⟨n, hn⟩ := Int.eq_ofNat_of_zero_le (le_of_lt h2)
  have e : p.publishTime.toNat % 2 ^ 32 = n := by
    rw [hn]; exact Nat.mod_eq_of_lt (by rw [hn] at hr; show n < _; omega)
  unfold PythPrice.inTime
  rw [if_pos h2, e]
  simp only [bind_ok, addW_ok, Except.ok.injEq, decide_eq_true_eq]
  refine ⟨_, ⟨by omega, rfl⟩, ?_⟩
  unfold toNano
  rw [hn] at h3
  exact_mod_cast h3

theorem setDegenPrice_get {c : Contract} {t : AccountId} {d : DegenInfo} {v now : Nat}
    (h : c.cfg.degens.get? t = some d) :
    (c.setDegenPrice t v now).cfg.degens.get? t = some { d with price := some (v, now) } := by
  unfold setDegenPrice
  rw [h]
  exact FMap.get?_insert_self ..

/-- **C66**. A fresh quote of the price oracle for a registered token is accepted, if the price has a
representation. -/
theorem C66_price_accepted {c : Contract} {now dec : Nat} {t : AccountId} {i : DegenInfo}
    {o : PriceOracleConfig} {d : PriceData} {p : AssetPrice} (hi : c.cfg.degens.get? t = some i)
    (hs : i.source = .priceOracle dec) (ho : c.cfg.priceOracle = some o)
    (hf : d.Fresh now o.recency o.staleness) (hp : d.prices[0]? = some (t, some p))
    (h1 : dec ≤ p.decimals) (h2 : p.decimals ≤ dec + 38) (h3 : p.multiplier < 2 ^ 128)
    (h4 : 10 ^ 24 * p.value dec < 2 ^ 128) :
    ∃ c' v, c.reply now (some (.prices d)) (.degen t) = .ok c' ∧ RoundsTo (p.value dec) v ∧
      c'.cfg.degens.get? t = some { i with price := some (v, now) } := by
  obtain ⟨v, hv⟩ := AssetPrice.scaled_of h1 h2 h3 h4
  refine ⟨c.setDegenPrice t v now, v, ?_, AssetPrice.scaled_ok hv, setDegenPrice_get hi⟩
  unfold reply degenCallback degenPrice
  simp only [hi, hs, ho, hp, expectE, ok_bind, hf.assertValid, assertE_true, hv]

/-- **C66**. A fresh price of the Pyth oracle for a registered token is accepted, if it has a
representation. -/
theorem C66_pyth_accepted {c : Contract} {now id : Nat} {t : AccountId} {i : DegenInfo}
    {o : PythOracleConfig} {p : PythPrice} (hi : c.cfg.degens.get? t = some i)
    (hs : i.source = .pyth id) (ho : c.cfg.pythOracle = some o) (hf : p.Fresh now o.validFor)
    (ht : p.publishTime + o.validFor < 2 ^ 32) (h1 : p.expo.natAbs ≤ 38) (h2 : p.price < 2 ^ 63)
    (h3 : 10 ^ 24 * p.value < 2 ^ 128) :
    ∃ c' v, c.reply now (some (.pyth p)) (.degen t) = .ok c' ∧ RoundsTo p.value v ∧
      c'.cfg.degens.get? t = some { i with price := some (v, now) } := by
  obtain ⟨v, hv, hlt⟩ := PythPrice.scaled_of hf.1 h1 h2 h3
  refine ⟨c.setDegenPrice t v now, v, ?_, PythPrice.scaled_ok hf.1 hv, setDegenPrice_get hi⟩
  have hfit : fit 128 v = .ok v := fit_ok.2 ⟨hlt, rfl⟩
  unfold reply degenCallback degenPrice PythPrice.assertValid
  simp only [hi, hs, ho, expectE, ok_bind, hf.1, hf.inTime ht, assertE_true, hv, hfit]

/-! ### Batches -/

theorem storePrices_complete {now : Nat} {decs : FMap AccountId Nat} {t : AccountId} {dec : Nat}
    (hdec : decs.get? t = some dec) :
    ∀ {l : List (AccountId × Option AssetPrice)} {c c' : Contract} {p : AssetPrice},
    storePrices now decs c l = .ok c' →
    (∃ d v, c.cfg.degens.get? t = some d ∧ d.price = some (v, now)) ∨ (t, some p) ∈ l →
    ∃ d v, c'.cfg.degens.get? t = some d ∧ d.price = some (v, now)
  | [], c, c', p, h, hm => by
    cases h
    exact hm.resolve_right (by simp)
  | (u, none) :: l, c, c', p, h, hm => by
    unfold storePrices at h
    refine storePrices_complete hdec (p := p) h (hm.imp_right fun hm => ?_)
    rcases List.mem_cons.1 hm with hm | hm
    · cases hm
    · exact hm
  | (u, some q) :: l, c, c', p, h, hm => by
    unfold storePrices at h
    split at h
    · rename_i hn
      refine storePrices_complete hdec (p := p) h (hm.imp_right fun hm => ?_)
      rcases List.mem_cons.1 hm with hm | hm
      · cases hm; rw [hdec] at hn; cases hn
      · exact hm
    · rename_i dec' hdec'
      unpack at h
      obtain ⟨i, hi, v, hv, h⟩ := h
      refine storePrices_complete hdec (p := p) h ?_
      by_cases e : u = t
      · subst e
        exact .inl ⟨_, v, setDegenPrice_get hi, rfl⟩
      · rcases hm with ⟨d, w, hd, hw⟩ | hm
        · left
          refine ⟨d, w, ?_, hw⟩
          unfold setDegenPrice
          rw [hi]
          show (c.cfg.degens.insert u _).get? t = _
          rw [FMap.get?_insert_ne _ _ (Ne.symm e)]
          exact hd
        · rcases List.mem_cons.1 hm with hm | hm
          · cases hm; exact absurd rfl e
          · exact .inr hm

/-- **C66**, batches. If the callback succeeds, every token that was asked for and for which the reply
has a price has got a new price. -/
theorem C66_batch_prices {c c' : Contract} {now dec : Nat} {decs : FMap AccountId Nat} {d : PriceData}
    {t : AccountId} {p : AssetPrice} (h : c.reply now (some (.prices d)) (.batchPrice decs) = .ok c')
    (ht : decs.get? t = some dec) (hp : (t, some p) ∈ d.prices) :
    ∃ i v, c'.cfg.degens.get? t = some i ∧ i.price = some (v, now) := by
  unfold reply batchPriceCallback at h
  unpack at h
  obtain ⟨o, ho, _, hv, h⟩ := h
  exact storePrices_complete ht h (.inr hp)

theorem storeAll_keep {now v : Nat} {t : AccountId} : ∀ {ts : List AccountId} {c c' : Contract},
    storeAll now v c ts = .ok c' →
    (∃ d w, c.cfg.degens.get? t = some d ∧ d.price = some (w, now)) ∨ t ∈ ts →
    ∃ d w, c'.cfg.degens.get? t = some d ∧ d.price = some (w, now)
  | [], c, c', h, hm => by cases h; exact hm.resolve_right (by simp)
  | u :: ts, c, c', h, hm => by
    unfold storeAll at h
    unpack at h
    obtain ⟨i, hi, h⟩ := h
    refine storeAll_keep h ?_
    by_cases e : u = t
    · subst e
      exact .inl ⟨_, v, setDegenPrice_get hi, rfl⟩
    · rcases hm with ⟨d, w, hd, hw⟩ | hm
      · left
        refine ⟨d, w, ?_, hw⟩
        unfold setDegenPrice
        rw [hi]
        show (c.cfg.degens.insert u _).get? t = _
        rw [FMap.get?_insert_ne _ _ (Ne.symm e)]
        exact hd
      · rcases List.mem_cons.1 hm with hm | hm
        · exact absurd hm.symm e
        · exact .inr hm

theorem storePyth_complete {now validFor id : Nat} {m : FMap Nat (Option PythPrice)} {t : AccountId}
    {ts : List AccountId} {p : PythPrice} (ht : t ∈ ts) (hm : m.get? id = some (some p))
    (hv : p.isValid now validFor = .ok true) :
    ∀ {l : List (Nat × List AccountId)} {c c' : Contract},
    storePyth now validFor m c l = .ok c' →
    (∃ d v, c.cfg.degens.get? t = some d ∧ d.price = some (v, now)) ∨ (id, ts) ∈ l →
    ∃ d v, c'.cfg.degens.get? t = some d ∧ d.price = some (v, now)
  | [], c, c', h, hl => by cases h; exact hl.resolve_right (by simp)
  | (j, us) :: l, c, c', h, hl => by
    unfold storePyth at h
    split at h
    · rename_i q hq
      simp only [bind_ok] at h
      obtain ⟨b, hb, h⟩ := h
      cases b with
      | false =>
        simp only [Bool.false_eq_true, if_false] at h
        refine storePyth_complete ht hm hv h (hl.imp_right fun hl => ?_)
        rcases List.mem_cons.1 hl with hl | hl
        · cases hl; rw [hm] at hq; cases hq; rw [hv] at hb; cases hb
        · exact hl
      | true =>
        simp only [if_true] at h
        unpack at h
        obtain ⟨v, -, -, c1, h1, h⟩ := h
        refine storePyth_complete ht hm hv h ?_
        rcases hl with hl | hl
        · exact .inl (storeAll_keep h1 (.inl hl))
        · rcases List.mem_cons.1 hl with hl | hl
          · cases hl; exact .inl (storeAll_keep h1 (.inr ht))
          · exact .inr hl
    · rename_i hn
      refine storePyth_complete ht hm hv h (hl.imp_right fun hl => ?_)
      rcases List.mem_cons.1 hl with hl | hl
      · cases hl; exact absurd hm (hn p)
      · exact hl

/-- **C66**, batches. The same for the Pyth oracle and prices that are fresh. -/
theorem C66_batch_pyth {c c' : Contract} {now id : Nat} {ids : List (Nat × List AccountId)}
    {m : FMap Nat (Option PythPrice)} {o : PythOracleConfig} {t : AccountId} {ts : List AccountId}
    {p : PythPrice} (h : c.reply now (some (.pythMap m)) (.batchPyth ids) = .ok c')
    (hid : (id, ts) ∈ ids) (ht : t ∈ ts) (hm : m.get? id = some (some p))
    (ho : c.cfg.pythOracle = some o) (hf : p.Fresh now o.validFor)
    (hr : p.publishTime + o.validFor < 2 ^ 32) :
    ∃ i v, c'.cfg.degens.get? t = some i ∧ i.price = some (v, now) := by
  unfold reply batchPythCallback at h
  simp only [ho, expectE, ok_bind] at h
  refine storePyth_complete ht hm ?_ h (.inr hid)
  unfold PythPrice.isValid
  rw [if_pos hf.1]
  exact hf.inTime hr

/-- **C66 is weaker for batches than the comment in the code says** ("Invalid tokens do not affect the
synchronization of valid tokens"): one asset that is quoted with fewer decimals than it is registered
with makes the whole callback panic, and no token gets its price. -/
theorem C66_one_bad_price_blocks_all {c c' : Contract} {now dec : Nat} {decs : FMap AccountId Nat}
    {d : PriceData} {t : AccountId} {p : AssetPrice} (ht : decs.get? t = some dec)
    (hp : (t, some p) ∈ d.prices) (hlt : p.decimals < dec) :
    c.reply now (some (.prices d)) (.batchPrice decs) ≠ .ok c' := by
  intro h
  unfold reply batchPriceCallback at h
  unpack at h
  obtain ⟨o, ho, _, hv, h⟩ := h
  clear hv ho
  generalize d.prices = l at hp h
  induction l generalizing c with
  | nil => cases hp
  | cons a l ih =>
    obtain ⟨u, q⟩ := a
    cases q with
    | none =>
      rcases List.mem_cons.1 hp with hp | hp
      · cases hp
      · unfold storePrices at h
        exact ih hp h
    | some q =>
      unfold storePrices at h
      rcases List.mem_cons.1 hp with hp | hp
      · cases hp
        rw [ht] at h
        simp only at h
        unpack at h
        obtain ⟨_, -, v, hv, -⟩ := h
        unfold AssetPrice.scaled at hv
        unpack at hv
        omega
      · split at h
        · exact ih hp h
        · unpack at h
          obtain ⟨_, -, v, -, h⟩ := h
          exact ih hp h

/-! ### Histories -/

/-- A setting never invents a price, and a rate it does not keep is one to one and was never
updated. -/
theorem setting_prices {c : Contract} {x : Ctx} {s : Setting} {g : Config}
    (h : c.applySetting x s = .ok g) :
    (∀ t d, g.degens.get? t = some d → d.price = none ∨ c.cfg.degens.get? t = some d) ∧
    (∀ t i, g.rates.get? t = some i → i.rate = 10 ^ 24 ∧ i.updated = 0 ∨
      ∃ j, c.cfg.rates.get? t = some j ∧ i.rate = j.rate ∧ i.updated = j.updated) := by
  have keep : ∀ g' : Config, g'.degens = c.cfg.degens → g'.rates = c.cfg.rates →
      (∀ t d, g'.degens.get? t = some d → d.price = none ∨ c.cfg.degens.get? t = some d) ∧
      (∀ t i, g'.rates.get? t = some i → i.rate = 10 ^ 24 ∧ i.updated = 0 ∨
        ∃ j, c.cfg.rates.get? t = some j ∧ i.rate = j.rate ∧ i.updated = j.updated) :=
    fun g' h1 h2 => ⟨fun t d hd => .inr (h1 ▸ hd), fun t i hi => .inr ⟨i, h2 ▸ hi, rfl, rfl⟩⟩
  have new : ∀ t s, (∀ u d, (c.cfg.degens.insert t ⟨none, s⟩).get? u = some d →
      d.price = none ∨ c.cfg.degens.get? u = some d) := by
    intro t s u d hd
    rw [FMap.get?_insert] at hd
    split at hd
    · cases hd; exact .inl rfl
    · exact .inr hd
  have same : ∀ t i, c.cfg.rates.get? t = some i → i.rate = 10 ^ 24 ∧ i.updated = 0 ∨
      ∃ j, c.cfg.rates.get? t = some j ∧ i.rate = j.rate ∧ i.updated = j.updated :=
    fun t i hi => .inr ⟨i, hi, rfl, rfl⟩
  unfold applySetting Config.assertOwner Config.assertManager Ctx.oneYocto at h
  unpack at h
  obtain ⟨-, h⟩ := h
  cases s <;> simp only [] at h <;> try unpack at h
  case registerRate =>
    obtain ⟨-, -, -, _, -, rfl⟩ := h
    refine ⟨fun t d hd => .inr hd, fun t i hi => ?_⟩
    rw [FMap.get?_insert] at hi
    split at hi
    · cases hi; exact .inl ⟨rfl, rfl⟩
    · exact .inr ⟨i, hi, rfl, rfl⟩
  case unregisterRate =>
    obtain ⟨-, rfl⟩ := h
    refine ⟨fun t d hd => .inr hd, fun t i hi => ?_⟩
    rw [FMap.get?_erase] at hi
    split at hi
    · cases hi
    · exact .inr ⟨i, hi, rfl, rfl⟩
  case rateExtraInfo =>
    obtain ⟨-, r, hr, -, -, _, -, rfl⟩ := h
    refine ⟨fun t d hd => .inr hd, fun t i hi => ?_⟩
    rw [FMap.get?_insert] at hi
    split at hi
    · rename_i e; subst e; cases hi; exact .inr ⟨r, hr, rfl, rfl⟩
    · exact .inr ⟨i, hi, rfl, rfl⟩
  case registerDegen => obtain ⟨-, -, rfl⟩ := h; exact ⟨new _ _, same⟩
  case updateDegen => obtain ⟨-, -, rfl⟩ := h; exact ⟨new _ _, same⟩
  case unregisterDegen =>
    obtain ⟨-, rfl⟩ := h
    refine ⟨fun t d hd => .inr ?_, same⟩
    rw [FMap.get?_erase] at hd
    split at hd
    · cases hd
    · exact hd
  case registerOracle o => obtain ⟨-, -, rfl⟩ := h; cases o <;> exact keep _ rfl rfl
  case updateOracle o => obtain ⟨-, -, rfl⟩ := h; cases o <;> exact keep _ rfl rfl
  case unregisterOracle b => obtain ⟨-, rfl⟩ := h; cases b <;> exact keep _ rfl rfl
  case changeState r =>
    obtain ⟨-, h⟩ := h
    split at h
    · unpack at h
      obtain ⟨-, rfl⟩ := h
      exact keep _ rfl rfl
    · injection h with h; rw [← h]; exact keep _ rfl rfl
  all_goals first
    | (obtain ⟨-, rfl⟩ := h; exact keep _ rfl rfl)
    | (obtain ⟨-, -, rfl⟩ := h; exact keep _ rfl rfl)
    | (obtain ⟨-, -, -, rfl⟩ := h; exact keep _ rfl rfl)
    | (obtain ⟨-, -, -, -, rfl⟩ := h; exact keep _ rfl rfl)

/-- Nor does any other call or callback. -/
theorem step_prices {c : Contract} {e : Event}
    (he : (∃ x k, e = .call x k) ∨ ∃ x out o, e = .callback x out o) :
    (∀ t d, (c.step e).cfg.degens.get? t = some d →
      d.price = none ∨ c.cfg.degens.get? t = some d) ∧
    (∀ t i, (c.step e).cfg.rates.get? t = some i → i.rate = 10 ^ 24 ∧ i.updated = 0 ∨
      ∃ j, c.cfg.rates.get? t = some j ∧ i.rate = j.rate ∧ i.updated = j.updated) := by
  have keep : ∀ g' : Config, g' = c.cfg →
      (∀ t d, g'.degens.get? t = some d → d.price = none ∨ c.cfg.degens.get? t = some d) ∧
      (∀ t i, g'.rates.get? t = some i → i.rate = 10 ^ 24 ∧ i.updated = 0 ∨
        ∃ j, c.cfg.rates.get? t = some j ∧ i.rate = j.rate ∧ i.updated = j.updated) := by
    rintro _ rfl
    exact ⟨fun t d hd => .inr hd, fun t i hi => .inr ⟨i, hi, rfl, rfl⟩⟩
  unfold step
  rcases he with ⟨x, k, rfl⟩ | ⟨x, out, o, rfl⟩
  · cases ha : c.apply (.call x k) with
    | error => exact keep _ rfl
    | ok r =>
      rcases (exec_cfg (c' := r.1) (outs := r.2) ha).2 with h | ⟨s, -, h⟩
      · exact keep _ h
      · exact setting_prices h
  · cases ha : c.apply (.callback x out o) with
    | error => exact keep _ rfl
    | ok r => exact keep _ (callback_same (c' := r.1) (outs := r.2) ha).1

theorem storePrices_run {now : Nat} {decs : FMap AccountId Nat} :
    ∀ {l : List (AccountId × Option AssetPrice)} {c c' : Contract},
    storePrices now decs c l = .ok c' → ∃ es, c' = c.run es
  | [], c, c', h => by cases h; exact ⟨[], rfl⟩
  | (u, none) :: l, c, c', h => storePrices_run (l := l) h
  | (u, some q) :: l, c, c', h => by
    unfold storePrices at h
    split at h
    · exact storePrices_run h
    · unpack at h
      obtain ⟨_, -, v, -, h⟩ := h
      obtain ⟨es, rfl⟩ := storePrices_run h
      exact ⟨.price u v now :: es, rfl⟩

theorem storeAll_run {now v : Nat} : ∀ {ts : List AccountId} {c c' : Contract},
    storeAll now v c ts = .ok c' → ∃ es, c' = c.run es
  | [], c, c', h => by cases h; exact ⟨[], rfl⟩
  | u :: ts, c, c', h => by
    unfold storeAll at h
    unpack at h
    obtain ⟨_, -, h⟩ := h
    obtain ⟨es, rfl⟩ := storeAll_run h
    exact ⟨.price u v now :: es, rfl⟩

theorem storePyth_run {now validFor : Nat} {m : FMap Nat (Option PythPrice)} :
    ∀ {l : List (Nat × List AccountId)} {c c' : Contract},
    storePyth now validFor m c l = .ok c' → ∃ es, c' = c.run es
  | [], c, c', h => by cases h; exact ⟨[], rfl⟩
  | (j, us) :: l, c, c', h => by
    unfold storePyth at h
    split at h
    · simp only [bind_ok] at h
      obtain ⟨b, -, h⟩ := h
      cases b with
      | false =>
        simp only [Bool.false_eq_true, if_false] at h
        exact storePyth_run h
      | true =>
        simp only [if_true] at h
        unpack at h
        obtain ⟨v, -, -, c1, h1, h⟩ := h
        obtain ⟨es1, rfl⟩ := storeAll_run h1
        obtain ⟨es2, rfl⟩ := storePyth_run h
        exact ⟨es1 ++ es2, by simp [run, List.foldl_append]⟩
    · exact storePyth_run h

/-- A reply is a series of reports in the sense of `Event`. -/
theorem reply_run {c c' : Contract} {now : Nat} {r : Option Reply} {k : OracleCall}
    (h : c.reply now r k = .ok c') : ∃ es, c' = c.run es := by
  cases r with
  | none => exact ⟨[], C66_failed h⟩
  | some r =>
    cases k with
    | rate u =>
      unfold reply rateCallback at h
      cases hi : c.cfg.rates.get? u with
      | none => simp only [hi] at h; cases h; exact ⟨[], rfl⟩
      | some i =>
        simp only [hi] at h
        unpack at h
        obtain ⟨v, -, rfl⟩ := h
        exact ⟨[.rate u v now], rfl⟩
    | degen u =>
      unfold reply degenCallback at h
      unpack at h
      obtain ⟨d, -, v, -, rfl⟩ := h
      exact ⟨[.price u v now], rfl⟩
    | batchPrice decs =>
      unfold reply batchPriceCallback at h
      cases r <;> simp only [reduceCtorEq] at h
      unpack at h
      obtain ⟨o, -, _, -, h⟩ := h
      exact storePrices_run h
    | batchPyth ids =>
      unfold reply batchPythCallback at h
      cases r <;> simp only [reduceCtorEq] at h
      unpack at h
      obtain ⟨o, -, h⟩ := h
      exact storePyth_run h

/-- The tokens of a request are sorted by the source they are registered with. -/
theorem sortTokens_ok {c : Contract} : ∀ {ts : List AccountId} {decs decs' : FMap AccountId Nat}
    {ids ids' : FMap Nat (List AccountId)}, c.sortTokens decs ids ts = .ok (decs', ids') →
    (∀ t dec, decs'.get? t = some dec → decs.get? t = some dec ∨
      t ∈ ts ∧ ∃ d, c.cfg.degens.get? t = some d ∧ d.source = .priceOracle dec) ∧
    (∀ t id, t ∈ ids'.getD id [] → t ∈ ids.getD id [] ∨
      t ∈ ts ∧ ∃ d, c.cfg.degens.get? t = some d ∧ d.source = .pyth id) ∧
    (∀ id us, ids'.get? id = some us → ids.get? id = some us ∨ us ≠ [])
  | [], decs, decs', ids, ids', h => by
    cases h
    exact ⟨fun _ _ h => .inl h, fun _ _ h => .inl h, fun _ _ h => .inl h⟩
  | u :: ts, decs, decs', ids, ids', h => by
    unfold sortTokens at h
    unpack at h
    obtain ⟨d, hd, h⟩ := h
    split at h
    · rename_i dec0 hs
      obtain ⟨h1, h2, h3⟩ := sortTokens_ok h
      refine ⟨fun t dec ht => ?_, fun t id ht => (h2 t id ht).imp_right fun h =>
        ⟨List.mem_cons_of_mem _ h.1, h.2⟩, h3⟩
      rcases h1 t dec ht with hi | hi
      · rw [FMap.get?_insert] at hi
        split at hi
        · rename_i e; subst e; cases hi; exact .inr ⟨List.mem_cons_self, d, hd, hs⟩
        · exact .inl hi
      · exact .inr ⟨List.mem_cons_of_mem _ hi.1, hi.2⟩
    · rename_i id0 hs
      obtain ⟨h1, h2, h3⟩ := sortTokens_ok h
      refine ⟨fun t dec ht => (h1 t dec ht).imp_right fun h =>
        ⟨List.mem_cons_of_mem _ h.1, h.2⟩, fun t id ht => ?_, fun id us hu => ?_⟩
      · rcases h2 t id ht with h | h
        · unfold FMap.getD at h
          rw [FMap.get?_insert] at h
          split at h
          · rename_i e; subst e
            rcases List.mem_append.1 h with h | h
            · exact .inl h
            · cases List.mem_singleton.1 h; exact .inr ⟨List.mem_cons_self, d, hd, hs⟩
          · exact .inl h
        · exact .inr ⟨List.mem_cons_of_mem _ h.1, h.2⟩
      · rcases h3 id us hu with h | h
        · rw [FMap.get?_insert] at h
          split at h
          · cases h; exact .inr (by simp)
          · exact .inl h
        · exact .inr h

theorem sortTokens_registered {c : Contract} : ∀ {ts : List AccountId} {decs decs' : FMap AccountId Nat}
    {ids ids' : FMap Nat (List AccountId)}, c.sortTokens decs ids ts = .ok (decs', ids') →
    ∀ t ∈ ts, ∃ d, c.cfg.degens.get? t = some d
  | [], _, _, _, _, _, _, ht => by cases ht
  | u :: ts, decs, decs', ids, ids', h, t, ht => by
    unfold sortTokens at h
    unpack at h
    obtain ⟨d, hd, h⟩ := h
    rcases List.mem_cons.1 ht with rfl | ht
    · exact ⟨d, hd⟩
    · split at h <;> exact sortTokens_registered h t ht

theorem sortTokens_all {c : Contract} : ∀ {ts : List AccountId} {decs decs' : FMap AccountId Nat}
    {ids ids' : FMap Nat (List AccountId)}, c.sortTokens decs ids ts = .ok (decs', ids') →
    (∀ t, ((decs.get? t).isSome = true ∨ t ∈ ts ∧ ∃ d dec, c.cfg.degens.get? t = some d ∧
      d.source = .priceOracle dec) → (decs'.get? t).isSome = true) ∧
    (∀ t id, (t ∈ ids.getD id [] ∨ t ∈ ts ∧ ∃ d, c.cfg.degens.get? t = some d ∧
      d.source = .pyth id) → t ∈ ids'.getD id [])
  | [], decs, decs', ids, ids', h => by
    cases h
    exact ⟨fun _ h => h.resolve_right (by simp), fun _ _ h => h.resolve_right (by simp)⟩
  | u :: ts, decs, decs', ids, ids', h => by
    unfold sortTokens at h
    unpack at h
    obtain ⟨d, hd, h⟩ := h
    split at h
    · rename_i dec0 hs
      obtain ⟨h1, h2⟩ := sortTokens_all h
      refine ⟨fun t ht => h1 t ?_, fun t id ht => h2 t id ?_⟩
      · rw [FMap.get?_insert]
        rcases ht with ht | ⟨ht, he⟩
        · left; split
          · rfl
          · exact ht
        · rcases List.mem_cons.1 ht with rfl | ht
          · left; rw [if_pos rfl]; rfl
          · exact .inr ⟨ht, he⟩
      · refine ht.imp_right fun ⟨ht, d', hd', hs'⟩ => ⟨?_, d', hd', hs'⟩
        rcases List.mem_cons.1 ht with rfl | ht
        · rw [hd] at hd'; cases hd'; rw [hs] at hs'; cases hs'
        · exact ht
    · rename_i id0 hs
      obtain ⟨h1, h2⟩ := sortTokens_all h
      refine ⟨fun t ht => h1 t ?_, fun t id ht => h2 t id ?_⟩
      · refine ht.imp_right fun ⟨ht, d', dec, hd', hs'⟩ => ⟨?_, d', dec, hd', hs'⟩
        rcases List.mem_cons.1 ht with rfl | ht
        · rw [hd] at hd'; cases hd'; rw [hs] at hs'; cases hs'
        · exact ht
      · have hg : (ids.insert id0 (ids.getD id0 [] ++ [u])).getD id [] =
            if id = id0 then ids.getD id0 [] ++ [u] else ids.getD id [] := by
          unfold FMap.getD
          rw [FMap.get?_insert]
          by_cases e : id = id0
          · rw [if_pos e, if_pos e]; rfl
          · rw [if_neg e, if_neg e]
        rw [hg]
        rcases ht with ht | ⟨ht, d', hd', hs'⟩
        · left; split
          · rename_i e; subst e; exact List.mem_append_left _ ht
          · exact ht
        · rcases List.mem_cons.1 ht with rfl | ht
          · rw [hd] at hd'; cases hd'; rw [hs] at hs'; cases hs'
            left; rw [if_pos rfl]; simp
          · exact .inr ⟨ht, d', hd', hs'⟩

/-- **C66**. A request for several tokens asks the right oracle for each of them. -/
theorem C66_all_asked {c : Contract} {ts : List AccountId} {order : List (Nat × List AccountId)}
    {l : List OracleCall} (h : c.askBatch ts order = .ok l) {t : AccountId} (ht : t ∈ ts) :
    ∃ d, c.cfg.degens.get? t = some d ∧
      match d.source with
      | .priceOracle dec => ∃ decs, .batchPrice decs ∈ l ∧ decs.get? t = some dec
      | .pyth id => ∃ ids us, .batchPyth ids ∈ l ∧ (id, us) ∈ ids ∧ t ∈ us := by
  unfold askBatch at h
  unpack at h
  obtain ⟨decs, ids, h1, -, -, hp, rfl⟩ := h
  have hd : ∃ d, c.cfg.degens.get? t = some d := sortTokens_registered h1 t ht
  obtain ⟨d, hd⟩ := hd
  obtain ⟨h2, h3⟩ := sortTokens_all h1
  obtain ⟨h4, -, -⟩ := sortTokens_ok h1
  refine ⟨d, hd, ?_⟩
  cases hs : d.source with
  | priceOracle dec =>
    obtain ⟨dec', hg⟩ := Option.isSome_iff_exists.1 (h2 t (.inr ⟨ht, d, dec, hd, hs⟩))
    have : dec' = dec := by
      obtain ⟨-, d', hd', hs'⟩ := (h4 t dec' hg).resolve_left (by rw [FMap.get?_empty]; simp)
      rw [hd] at hd'; cases hd'; rw [hs] at hs'; cases hs'; rfl
    subst this
    refine ⟨decs, List.mem_append_left _ ?_, hg⟩
    rw [if_neg]
    · exact List.mem_singleton.2 rfl
    · rw [List.isEmpty_iff]
      intro e
      have := (FMap.mem_entries_iff decs).2 hg
      rw [e] at this
      cases this
  | pyth id =>
    have hg := h3 t id (.inr ⟨ht, d, hd, hs⟩)
    unfold FMap.getD at hg
    cases hi : ids.get? id with
    | none => rw [hi] at hg; cases hg
    | some us =>
      rw [hi] at hg
      have hm := (List.isPerm_iff.1 hp).mem_iff.2 ((FMap.mem_entries_iff ids).2 hi)
      refine ⟨order, us, List.mem_append_right _ ?_, hm, hg⟩
      rw [if_neg]
      · exact List.mem_singleton.2 rfl
      · rw [List.isEmpty_iff]
        intro e
        rw [e] at hm
        cases hm

/-- Every request names the source its tokens are registered with. -/
theorem askBatch_sources {c : Contract} {ts : List AccountId} {order : List (Nat × List AccountId)}
    {l : List OracleCall} (h : c.askBatch ts order = .ok l) {k : OracleCall} (hk : k ∈ l) :
    (∃ decs, k = .batchPrice decs ∧ ∀ t dec, decs.get? t = some dec →
      ∃ d, c.cfg.degens.get? t = some d ∧ d.source = .priceOracle dec) ∨
    (∃ ids, k = .batchPyth ids ∧ ∀ id us t, (id, us) ∈ ids → t ∈ us →
      ∃ d, c.cfg.degens.get? t = some d ∧ d.source = .pyth id) := by
  unfold askBatch at h
  unpack at h
  obtain ⟨decs, ids, h1, -, -, hp, rfl⟩ := h
  obtain ⟨h2, h3, -⟩ := sortTokens_ok h1
  rcases List.mem_append.1 hk with hk | hk
  · split at hk
    · cases hk
    · cases List.mem_singleton.1 hk
      exact .inl ⟨decs, rfl, fun t dec ht => ((h2 t dec ht).resolve_left (by
        rw [FMap.get?_empty]; simp)).2⟩
  · split at hk
    · cases hk
    · cases List.mem_singleton.1 hk
      refine .inr ⟨order, rfl, fun id us t hm ht => ((h3 t id ?_).resolve_left (by
        unfold FMap.getD; rw [FMap.get?_empty]; simp)).2⟩
      have hm' : ids.get? id = some us :=
        (FMap.mem_entries_iff ids).1 ((List.isPerm_iff.1 hp).mem_iff.1 hm)
      unfold FMap.getD
      rw [hm']
      exact ht

end Contract

namespace OracleWorld

/-- **C66**, histories. Every state of the contract in such a history is one of those the other
properties speak of: they hold for prices and rates that oracles report. -/
theorem C66_reachable {w : OracleWorld} (hw : w.Fresh) (es : List OracleEvent) :
    (w.run es).c.Reachable := by
  have step_run : ∀ (w : OracleWorld) e, ∃ l, (w.step e).c = w.c.run l := by
    intro w e
    cases e with
    | call x k => exact ⟨[.call x k], rfl⟩
    | callback x out o => exact ⟨[.callback x out o], rfl⟩
    | askRate t => exact ⟨[], rfl⟩
    | askDegen t => exact ⟨[], by simp only [step]; split <;> rfl⟩
    | askBatch ts order => exact ⟨[], by simp only [step]; split <;> rfl⟩
    | reply i now r =>
      cases hk : w.waiting[i]? with
      | none => exact ⟨[], by simp only [step, hk]; rfl⟩
      | some k =>
        cases hr : w.c.reply now r k with
        | error => exact ⟨[], by simp only [step, hk, hr]; rfl⟩
        | ok c =>
          obtain ⟨l, hl⟩ := Contract.reply_run hr
          exact ⟨l, by simp only [step, hk, hr]; exact hl⟩
  have : ∀ (es : List OracleEvent) (w : OracleWorld), ∃ l, (w.run es).c = w.c.run l := by
    intro es
    induction es with
    | nil => exact fun w => ⟨[], rfl⟩
    | cons e es ih =>
      intro w
      obtain ⟨l1, h1⟩ := step_run w e
      obtain ⟨l2, h2⟩ := ih (w.step e)
      exact ⟨l1 ++ l2, by
        show ((w.step e).run es).c = _
        rw [h2, h1]; simp [Contract.run, List.foldl_append]⟩
  obtain ⟨-, self, owner, farm, burrow, fee, ref, hi⟩ := hw
  obtain ⟨l, hl⟩ := this es w
  exact ⟨self, owner, farm, burrow, fee, ref, w.c, l, hi, hl⟩

theorem run_snoc (w : OracleWorld) (es : List OracleEvent) (e : OracleEvent) :
    w.run (es ++ [e]) = (w.run es).step e := by
  simp [run, List.foldl_append]

/-- The price `v` of `t` stored at time `time` was reported: in the history `es` from `w` a reply
arrived at that time that justifies it. -/
def Reported (w : OracleWorld) (es : List OracleEvent) (t : AccountId) (v time : Nat) : Prop :=
  ∃ pre i r post k, es = pre ++ .reply i time (some r) :: post ∧
    (w.run pre).waiting[i]? = some k ∧ Justifies (w.run pre).c.cfg time t v k r

/-- The same for a rate. -/
def ReportedRate (w : OracleWorld) (es : List OracleEvent) (t : AccountId) (v time : Nat) : Prop :=
  ∃ pre i r post k, es = pre ++ .reply i time (some r) :: post ∧
    (w.run pre).waiting[i]? = some k ∧ JustifiesRate (w.run pre).c.cfg time t v k r

theorem Reported.snoc {w : OracleWorld} {es : List OracleEvent} {t : AccountId} {v time : Nat}
    (h : w.Reported es t v time) (e : OracleEvent) : w.Reported (es ++ [e]) t v time := by
  obtain ⟨pre, i, r, post, k, rfl, h1, h2⟩ := h
  exact ⟨pre, i, r, post ++ [e], k, by simp, h1, h2⟩

theorem ReportedRate.snoc {w : OracleWorld} {es : List OracleEvent} {t : AccountId} {v time : Nat}
    (h : w.ReportedRate es t v time) (e : OracleEvent) : w.ReportedRate (es ++ [e]) t v time := by
  obtain ⟨pre, i, r, post, k, rfl, h1, h2⟩ := h
  exact ⟨pre, i, r, post ++ [e], k, by simp, h1, h2⟩

/-- What one event does to the stored prices and rates. -/
theorem step_stored (w : OracleWorld) (e : OracleEvent) :
    (∀ t d, (w.step e).c.cfg.degens.get? t = some d →
      d.price = none ∨ (∃ d0, w.c.cfg.degens.get? t = some d0 ∧ d.price = d0.price) ∨
      ∃ i now r k v, e = .reply i now (some r) ∧ w.waiting[i]? = some k ∧ d.price = some (v, now) ∧
        Justifies w.c.cfg now t v k r) ∧
    (∀ t i, (w.step e).c.cfg.rates.get? t = some i → i.rate = 10 ^ 24 ∧ i.updated = 0 ∨
      (∃ j, w.c.cfg.rates.get? t = some j ∧ i.rate = j.rate ∧ i.updated = j.updated) ∨
      ∃ n r k, e = .reply n i.updated (some r) ∧ w.waiting[n]? = some k ∧
        JustifiesRate w.c.cfg i.updated t i.rate k r) := by
  have keep : (w.step e).c = w.c → _ := fun h => show
    (∀ t d, (w.step e).c.cfg.degens.get? t = some d →
      d.price = none ∨ (∃ d0, w.c.cfg.degens.get? t = some d0 ∧ d.price = d0.price) ∨
      ∃ i now r k v, e = .reply i now (some r) ∧ w.waiting[i]? = some k ∧ d.price = some (v, now) ∧
        Justifies w.c.cfg now t v k r) ∧
    (∀ t i, (w.step e).c.cfg.rates.get? t = some i → i.rate = 10 ^ 24 ∧ i.updated = 0 ∨
      (∃ j, w.c.cfg.rates.get? t = some j ∧ i.rate = j.rate ∧ i.updated = j.updated) ∨
      ∃ n r k, e = .reply n i.updated (some r) ∧ w.waiting[n]? = some k ∧
        JustifiesRate w.c.cfg i.updated t i.rate k r) by
    rw [h]
    exact ⟨fun t d hd => .inr (.inl ⟨d, hd, rfl⟩), fun t i hi => .inr (.inl ⟨i, hi, rfl, rfl⟩)⟩
  cases e with
  | call x k =>
    have := Contract.step_prices (c := w.c) (.inl ⟨x, k, rfl⟩)
    exact ⟨fun t d hd => (this.1 t d hd).imp_right fun h => .inl ⟨d, h, rfl⟩,
      fun t i hi => (this.2 t i hi).imp_right .inl⟩
  | callback x out o =>
    have := Contract.step_prices (c := w.c) (.inr ⟨x, out, o, rfl⟩)
    exact ⟨fun t d hd => (this.1 t d hd).imp_right fun h => .inl ⟨d, h, rfl⟩,
      fun t i hi => (this.2 t i hi).imp_right .inl⟩
  | askRate t => exact keep rfl
  | askDegen t => exact keep (by simp only [step]; split <;> rfl)
  | askBatch ts order => exact keep (by simp only [step]; split <;> rfl)
  | reply i now r =>
    cases hk : w.waiting[i]? with
    | none => exact keep (by simp only [step, hk])
    | some k =>
      cases hr : w.c.reply now r k with
      | error => exact keep (by simp only [step, hk, hr])
      | ok c =>
        have e : (w.step (.reply i now r)).c = c := by simp only [step, hk, hr]
        cases r with
        | none => exact keep (by rw [e, Contract.C66_failed hr])
        | some r =>
          rw [e]
          obtain ⟨-, h1, h2⟩ := Contract.C66_reply hr
          refine ⟨fun t d hd => .inr ?_, fun t j hj => .inr ?_⟩
          · rcases h1 t with h | ⟨d0, v, hd0, hq, h⟩
            · exact .inl ⟨d, h ▸ hd, rfl⟩
            · rw [h] at hd
              cases hd
              exact .inr ⟨i, now, r, k, v, rfl, hk, rfl, hq⟩
          · rcases h2 t with h | ⟨d0, v, hd0, hq, h⟩
            · exact .inl ⟨j, h ▸ hj, rfl, rfl⟩
            · rw [h] at hj
              cases hj
              exact .inr ⟨i, r, k, rfl, hk, hq⟩

/-- **C66**, histories. Every price the contract holds was reported by an oracle at the time stored
with it: a reply arrived then, to a request that was waiting, it was fresh under the configuration of
that time, and the price is what it says, rounded down. Calls of users, the owner or the guardians
never set a price. -/
theorem C66_prices_reported {w : OracleWorld} (hw : w.Fresh) {es : List OracleEvent} {t : AccountId}
    {d : DegenInfo} {v time : Nat} (hd : (w.run es).c.cfg.degens.get? t = some d)
    (hp : d.price = some (v, time)) : w.Reported es t v time := by
  induction es using List.reverseRecOn generalizing d with
  | nil =>
    obtain ⟨-, self, owner, farm, burrow, fee, ref, hi⟩ := hw
    unfold Contract.init at hi
    unpack at hi
    rw [show w.run [] = w from rfl, ← hi.2] at hd
    cases hd
  | append_singleton es e ih =>
    rw [run_snoc] at hd
    rcases (step_stored _ e).1 t d hd with h | ⟨d0, h0, h⟩ | ⟨i, now, r, k, v', rfl, hk, h, hj⟩
    · rw [h] at hp; cases hp
    · exact (ih h0 (h ▸ hp)).snoc e
    · rw [h] at hp
      cases hp
      exact ⟨es, i, r, [], k, rfl, hk, hj⟩

/-- **C66**, histories. The same for rates; a rate that was never reported is one to one and carries
the time 0. -/
theorem C66_rates_reported {w : OracleWorld} (hw : w.Fresh) {es : List OracleEvent} {t : AccountId}
    {i : RateInfo} (hi : (w.run es).c.cfg.rates.get? t = some i) :
    i.rate = 10 ^ 24 ∧ i.updated = 0 ∨ w.ReportedRate es t i.rate i.updated := by
  induction es using List.reverseRecOn generalizing i with
  | nil =>
    obtain ⟨-, self, owner, farm, burrow, fee, ref, h0⟩ := hw
    unfold Contract.init at h0
    unpack at h0
    rw [show w.run [] = w from rfl, ← h0.2] at hi
    cases hi
  | append_singleton es e ih =>
    rw [run_snoc] at hi
    rcases (step_stored _ e).2 t i hi with h | ⟨j, h0, h1, h2⟩ | ⟨n, r, k, rfl, hk, hj⟩
    · exact .inl h
    · rcases ih h0 with h | h
      · exact .inl ⟨h1.trans h.1, h2.trans h.2⟩
      · exact .inr (h1 ▸ h2 ▸ h.snoc e)
    · exact .inr ⟨es, n, r, [], k, rfl, hk, hj⟩

/-- **C66**, swaps. After any history, a call that swaps in a degen pool succeeds only if each token of
the pool has a price that an oracle reported, and the report is not older than the expiry configured for
its oracle. -/
theorem C66_swaps_use_reported_prices {w : OracleWorld} (hw : w.Fresh) {es : List OracleEvent}
    {c' : Contract} {x : Ctx} {k : Call} {actions : List Action} {outs : List Out} {a : SwapAction}
    {p : CurvePool} {t : AccountId} (ha : k.actions = some actions)
    (h : (w.run es).c.exec x k = .ok (c', outs)) (hm : .swap a ∈ actions)
    (hp : (w.run es).c.pools[a.pool]? = some (.curve p)) (hk : p.kind = .degen) (ht : t ∈ p.toks) :
    ∃ v time, (w.run es).c.cfg.priceOf t = v ∧ w.Reported es t v time ∧
      ((∃ o, (w.run es).c.cfg.priceOracle = some o ∧ x.now ≤ time + o.expire) ∨
        ∃ o, (w.run es).c.cfg.pythOracle = some o ∧ x.now ≤ time + o.expire) := by
  have hf := (Contract.C37_swaps_need_fresh_rates ha h).1 a _ hm hp
  simp only [Config.Fresh, hk] at hf
  obtain ⟨v, time, s, hd, he⟩ := hf t ht
  refine ⟨v, time, ?_, C66_prices_reported hw hd rfl, ?_⟩
  · unfold Config.priceOf; rw [hd]
  · rcases he with ⟨_, o, -, ho, h⟩ | ⟨_, o, -, ho, h⟩
    · exact .inl ⟨o, ho, h⟩
    · exact .inr ⟨o, ho, h⟩

/-- **C66**, swaps. In a rated pool the same holds for each token that has a rate, from the second day of
the Unix epoch on: a rate that was never reported carries the time 0. -/
theorem C66_swaps_use_reported_rates {w : OracleWorld} (hw : w.Fresh) {es : List OracleEvent}
    {c' : Contract} {x : Ctx} {k : Call} {actions : List Action} {outs : List Out} {a : SwapAction}
    {p : CurvePool} {t : AccountId} {i : RateInfo} (ha : k.actions = some actions)
    (h : (w.run es).c.exec x k = .ok (c', outs)) (hm : .swap a ∈ actions)
    (hp : (w.run es).c.pools[a.pool]? = some (.curve p)) (hk : p.kind = .rated) (ht : t ∈ p.toks)
    (hi : (w.run es).c.cfg.rates.get? t = some i) (hnow : 24 * 3600 * 10 ^ 9 < x.now) :
    w.ReportedRate es t i.rate i.updated ∧ x.now ≤ i.updated + 24 * 3600 * 10 ^ 9 := by
  have hf := (Contract.C37_swaps_need_fresh_rates ha h).1 a _ hm hp
  simp only [Config.Fresh, hk] at hf
  have hle := hf t ht i hi
  refine ⟨(C66_rates_reported hw hi).resolve_left fun h => ?_, hle⟩
  rw [h.2] at hle
  omega

/-- The sources a waiting request for several tokens names are those its tokens were registered with
when it was made. -/
def Sourced (w : OracleWorld) (es : List OracleEvent) : OracleCall → Prop
  | .batchPrice decs => ∃ pre post, es = pre ++ post ∧ ∀ t dec, decs.get? t = some dec →
      ∃ d, (w.run pre).c.cfg.degens.get? t = some d ∧ d.source = .priceOracle dec
  | .batchPyth ids => ∃ pre post, es = pre ++ post ∧ ∀ id us t, (id, us) ∈ ids → t ∈ us →
      ∃ d, (w.run pre).c.cfg.degens.get? t = some d ∧ d.source = .pyth id
  | _ => True

theorem Sourced.snoc {w : OracleWorld} {es : List OracleEvent} {k : OracleCall}
    (h : w.Sourced es k) (e : OracleEvent) : w.Sourced (es ++ [e]) k := by
  cases k with
  | batchPrice decs =>
    obtain ⟨pre, post, rfl, h⟩ := h
    exact ⟨pre, post ++ [e], by simp, h⟩
  | batchPyth decs =>
    obtain ⟨pre, post, rfl, h⟩ := h
    exact ⟨pre, post ++ [e], by simp, h⟩
  | _ => trivial

/-- **C66**, histories. The decimals and the feeds that a request for several tokens uses are those
registered when it was made. -/
theorem C66_sources {w : OracleWorld} (hw : w.Fresh) {es : List OracleEvent} {k : OracleCall}
    (hk : k ∈ (w.run es).waiting) : w.Sourced es k := by
  induction es using List.reverseRecOn with
  | nil =>
    rw [show w.run [] = w from rfl, hw.1] at hk
    cases hk
  | append_singleton es e ih =>
    rw [run_snoc] at hk
    cases e with
    | call x k => exact (ih hk).snoc _
    | callback x out o => exact (ih hk).snoc _
    | askRate t =>
      rcases List.mem_append.1 hk with hk | hk
      · exact (ih hk).snoc _
      · unfold Contract.askRate at hk
        split at hk
        · cases List.mem_singleton.1 hk; trivial
        · cases hk
    | askDegen t =>
      simp only [step] at hk
      split at hk
      · rename_i l hl
        rcases List.mem_append.1 hk with hk | hk
        · exact (ih hk).snoc _
        · unfold Contract.askDegen at hl
          unpack at hl
          obtain ⟨d, -, -, rfl⟩ := hl
          cases List.mem_singleton.1 hk
          trivial
      · exact (ih hk).snoc _
    | askBatch ts order =>
      simp only [step] at hk
      split at hk
      · rename_i l hl
        rcases List.mem_append.1 hk with hk | hk
        · exact (ih hk).snoc _
        · rcases Contract.askBatch_sources hl hk with ⟨decs, rfl, h⟩ | ⟨ids, rfl, h⟩
          · exact ⟨es, [_], rfl, h⟩
          · exact ⟨es, [_], rfl, h⟩
      · exact (ih hk).snoc _
    | reply i now r =>
      have : k ∈ (w.run es).waiting := by
        simp only [step] at hk
        split at hk
        · exact hk
        · split at hk <;> exact List.mem_of_mem_eraseIdx hk
      exact (ih this).snoc _

end OracleWorld

namespace Contract

theorem sortTokens_some {c : Contract} : ∀ {ts : List AccountId} (decs : FMap AccountId Nat)
    (ids : FMap Nat (List AccountId)), (∀ t ∈ ts, ∃ d, c.cfg.degens.get? t = some d) →
    ∃ decs' ids', c.sortTokens decs ids ts = .ok (decs', ids')
  | [], decs, ids, _ => ⟨decs, ids, rfl⟩
  | u :: ts, decs, ids, h => by
    obtain ⟨d, hd⟩ := h u List.mem_cons_self
    unfold sortTokens
    simp only [hd, expectE, ok_bind]
    split <;> exact sortTokens_some _ _ fun t ht => h t (List.mem_cons_of_mem _ ht)

/-- **C66**. The requests that a swap in a degen pool makes cannot make it fail: tokens that have a
fresh price can be asked for. -/
theorem C66_request {c : Contract} {now : Nat} {ts : List AccountId}
    (h : ∀ t ∈ ts, c.cfg.FreshPrice now t) : ∃ order l, c.askBatch ts order = .ok l := by
  obtain ⟨decs, ids, hs⟩ := sortTokens_some (c := c) (ts := ts) FMap.empty FMap.empty
    fun t ht => by obtain ⟨v, u, s, hd, -⟩ := h t ht; exact ⟨_, hd⟩
  obtain ⟨h1, h2, h3⟩ := sortTokens_ok hs
  have hprice : decs.entries ≠ [] → c.cfg.priceOracle.isSome = true := by
    intro hne
    obtain ⟨⟨t, dec⟩, hm⟩ := List.exists_mem_of_ne_nil _ hne
    obtain ⟨ht, d, hd, hsrc⟩ := (h1 t dec ((FMap.mem_entries_iff decs).1 hm)).resolve_left (by
      rw [FMap.get?_empty]; simp)
    obtain ⟨v, u, s, hd', he⟩ := h t ht
    rw [hd] at hd'
    cases hd'
    rcases he with ⟨dec, o, -, h2, -⟩ | ⟨id, o, h1, -, -⟩
    · rw [h2]; rfl
    · rw [h1] at hsrc; cases hsrc
  have hpyth : ids.entries ≠ [] → c.cfg.pythOracle.isSome = true := by
    intro hne
    obtain ⟨⟨id, us⟩, hm⟩ := List.exists_mem_of_ne_nil _ hne
    have hg := (FMap.mem_entries_iff ids).1 hm
    obtain ⟨t, htu⟩ := List.exists_mem_of_ne_nil _ ((h3 id us hg).resolve_left (by
      rw [FMap.get?_empty]; simp))
    obtain ⟨ht, d, hd, hsrc⟩ := (h2 t id (by unfold FMap.getD; rw [hg]; exact htu)).resolve_left (by
      unfold FMap.getD; rw [FMap.get?_empty]; simp)
    obtain ⟨v, u, s, hd', he⟩ := h t ht
    rw [hd] at hd'
    cases hd'
    rcases he with ⟨dec, o, h1, -, -⟩ | ⟨id, o, -, h2, -⟩
    · rw [h1] at hsrc; cases hsrc
    · rw [h2]; rfl
  refine ⟨ids.entries, (if decs.entries.isEmpty then [] else [.batchPrice decs]) ++
    (if ids.entries.isEmpty then [] else [.batchPyth ids.entries]), ?_⟩
  unfold askBatch
  rw [hs, ok_bind]
  simp only []
  rw [assertE_true hprice, ok_bind, assertE_true hpyth, ok_bind,
    assertE_true (List.isPerm_iff.2 (List.Perm.refl _)), ok_bind]

end Contract

/-! ### An example history -/

namespace Demo

deriving instance DecidableEq for DegenSource, DegenInfo

/-- The world of the freshly constructed contract. -/
def o0 : OracleWorld := ⟨c0, []⟩

theorem o0_fresh : o0.Fresh := ⟨rfl, ex, own, farm, bur, 1600, 400, rfl⟩

/-- The calls of a history in which oracles report nothing. -/
def calls (es : List Event) : List OracleEvent :=
  es.filterMap fun
    | .call x k => some (.call x k)
    | .callback x out o => some (.callback x out o)
    | _ => none

/-- The prices of token A in `oracleSetup`: a whole token costs 2. -/
def quoteA : PriceData := ⟨10 ^ 18 - 5 * 10 ^ 9, 60, [(A, some ⟨20000, 22⟩)]⟩

/-- The price of token B in `oracleSetup`: 1. -/
def quoteB : PythPrice := ⟨10 ^ 8, -8, 10 ^ 9 - 5⟩

/-- The owner registers a rate, both oracles and one token at each of them; somebody asks for the rate
and the prices; the oracles reply. The owner adds a degen pool, and Alice funds it. -/
def oracleSetup : List OracleEvent := calls setup2 ++ [
  .call (y own) (.setting (.registerRate true A .direct)),
  .askRate A,
  .reply 0 (10 ^ 18) (some (.number (11 * 10 ^ 23))),
  .call (y own) (.setting (.registerOracle (.price ⟨10 ^ 12, 90, 60⟩))),
  .call (y own) (.setting (.registerOracle (.pyth ⟨10 ^ 12, 60⟩))),
  .call (y own) (.setting (.registerDegen A (.priceOracle 18))),
  .call (y own) (.setting (.registerDegen B (.pyth 7))),
  .askBatch [A, B] [(7, [B])],
  .reply 0 (10 ^ 18) (some (.prices quoteA)),
  .reply 0 (10 ^ 18) (some (.pythMap (FMap.empty.insert 7 (some quoteB)))),
  .call (near own) (.addCurvePool .degen [A, B] [18, 18] 5 100),
  .call (y own) (.setting (.addLimit 2 1000)),
  .call (near al) (.addStableLiquidity 2 [10 ^ 20, 2 * 10 ^ 20] 1)]

/-- The state after `oracleSetup`. -/
def o1 : OracleWorld := o0.run oracleSetup

example : o1.waiting = [] ∧ o1.c.cfg.priceOf A = 2 * 10 ^ 24 ∧ o1.c.cfg.priceOf B = 10 ^ 24 ∧
    (o1.c.cfg.rates.get? A).map (fun i => (i.rate, i.updated)) = some (11 * 10 ^ 23, 10 ^ 18) ∧
    0 < o1.c.sharesOf 2 al := by decide +kernel

/-- A swap in the degen pool of the example. -/
def swapDegen : Action := .swap ⟨2, A, some (10 ^ 19), B, 1⟩

example : (o1.c.exec (by' al) (.executeActions [swapDegen] none)).isOk = true ∧
    (o1.c.pools[2]?.bind fun p => match p with
      | .curve p => some (p.kind, p.toks)
      | _ => none) = some (.degen, [A, B]) := by
  decide +kernel

/-- A request for two tokens: one is asked of each oracle. -/
example : (o1.c.askBatch [A, B] [(7, [B])]).holds (fun l => l.map (fun
    | .batchPrice decs => (decs.keys, [])
    | .batchPyth ids => ([], ids)
    | _ => ([], [])) = [([A], []), ([], [(7, [B])])]) = true := by decide +kernel

end Demo

open Demo

/-- The hypotheses of `C66_prices_reported` are met. -/
example : ∃ d v, (o0.run oracleSetup).c.cfg.degens.get? B = some d ∧ d.price = some (v, 10 ^ 18) ∧
    o0.Reported oracleSetup B v (10 ^ 18) := by
  have h : ((o0.run oracleSetup).c.cfg.degens.get? B).bind DegenInfo.price = some (10 ^ 24, 10 ^ 18) := by
    decide +kernel
  obtain ⟨d, hd, hp⟩ := Option.bind_eq_some_iff.1 h
  exact ⟨d, _, hd, hp, OracleWorld.C66_prices_reported o0_fresh hd hp⟩

/-- Those of `C66_swaps_use_reported_prices` too. -/
example : ∃ c' outs p, o1.c.exec (by' al) (.executeActions [swapDegen] none) = .ok (c', outs) ∧
    o1.c.pools[2]? = some (.curve p) ∧ p.kind = .degen ∧ A ∈ p.toks := by
  have h1 : (o1.c.exec (by' al) (.executeActions [swapDegen] none)).isOk = true := by decide +kernel
  have h2 : (match (o1.c.pools[2]? : Option Pool) with
      | some (.curve p) => decide (p.kind = .degen ∧ A ∈ p.toks)
      | _ => false) = true := by decide +kernel
  split at h2
  · rename_i p hp
    cases hx : o1.c.exec (by' al) (.executeActions [swapDegen] none) with
    | error e => rw [hx] at h1; cases h1
    | ok r => exact ⟨r.1, r.2, p, rfl, hp, of_decide_eq_true h2⟩
  · cases h2

/-- A reply with a token that has fewer decimals than registered stores nothing, one without it
does. -/
example :
    (o1.c.reply (10 ^ 18) (some (.prices { quoteA with prices := quoteA.prices ++ [(B, some ⟨1, 17⟩)] }))
      (.batchPrice ((FMap.empty.insert A 18).insert B 18))).isOk = false ∧
    (o1.c.reply (10 ^ 18) (some (.prices quoteA))
      (.batchPrice ((FMap.empty.insert A 18).insert B 18))).isOk = true := by
  decide +kernel

/-- A reply that is too old, from the future, for another token or that does not decode is refused; so is
a Pyth price that is not positive or too old. -/
example :
    (o1.c.reply (10 ^ 18) (some (.prices { quoteA with timestamp := 10 ^ 18 - 61 * 10 ^ 9 }))
      (.degen A)).isOk = false ∧
    (o1.c.reply (10 ^ 18) (some (.prices { quoteA with timestamp := 10 ^ 18 + 1 })) (.degen A)).isOk =
      false ∧
    (o1.c.reply (10 ^ 18) (some (.prices { quoteA with prices := [(B, some ⟨1, 22⟩)] }))
      (.degen A)).isOk = false ∧
    (o1.c.reply (10 ^ 18) (some .other) (.degen A)).isOk = false ∧
    (o1.c.reply (10 ^ 18) (some (.prices quoteA)) (.degen A)).isOk = true ∧
    (o1.c.reply (10 ^ 18) (some (.pyth { quoteB with price := 0 })) (.degen B)).isOk = false ∧
    (o1.c.reply (10 ^ 18) (some (.pyth { quoteB with publishTime := 10 ^ 9 - 61 })) (.degen B)).isOk =
      false ∧
    (o1.c.reply (10 ^ 18) (some (.pyth quoteB)) (.degen B)).isOk = true := by
  decide +kernel

namespace OracleWorld

/-! ### What C66 does not say -/

/-- **A stored price may be 0**, although the price of the Pyth oracle is positive: prices below 10^-24
are rounded to 0. -/
theorem C66_small_price_is_stored_as_zero : ∃ (w : OracleWorld) (es : List OracleEvent) (p : PythPrice)
    (t : AccountId) (s : DegenSource), w.Fresh ∧ 0 < p.value ∧
    (w.run (es ++ [.reply 0 (10 ^ 18) (some (.pyth p))])).c.cfg.degens.get? t =
      some ⟨some (0, 10 ^ 18), s⟩ := by
  refine ⟨o0, oracleSetup ++ [.askDegen B], ⟨1, -25, 10 ^ 9⟩, B, .pyth 7, o0_fresh, ?_, ?_⟩
  · unfold PythPrice.value
    positivity
  · decide +kernel

/-- **A price from the future is accepted**: here the Pyth price is published a day after the block. -/
theorem C66_future_price_is_accepted : ∃ (w : OracleWorld) (es : List OracleEvent) (p : PythPrice)
    (t : AccountId) (v : Nat) (s : DegenSource), w.Fresh ∧
    p.publishTime * 10 ^ 9 = 10 ^ 18 + 24 * 3600 * 10 ^ 9 ∧ RoundsTo p.value v ∧
    (w.run (es ++ [.reply 0 (10 ^ 18) (some (.pyth p))])).c.cfg.degens.get? t =
      some ⟨some (v, 10 ^ 18), s⟩ := by
  refine ⟨o0, oracleSetup ++ [.askDegen B], ⟨3, 0, 10 ^ 9 + 24 * 3600⟩, B, 3 * 10 ^ 24, .pyth 7,
    o0_fresh, by decide, ?_, ?_⟩
  · unfold PythPrice.value RoundsTo
    norm_num
  · decide +kernel

/-- **A reply to an older request undoes a correction.** The owner corrects the decimals of a token
from 18 to 20 while a request for several tokens waits. The reply states a price of 200 under the
decimals registered now; the contract stores 2. -/
theorem C66_stale_decimals : ∃ (w : OracleWorld) (es : List OracleEvent) (d : PriceData)
    (p : AssetPrice) (t : AccountId) (v dec : Nat), w.Fresh ∧ d.prices = [(t, some p)] ∧
    (w.run (es ++ [.reply 0 (10 ^ 18) (some (.prices d))])).c.cfg.degens.get? t =
      some ⟨some (v, 10 ^ 18), .priceOracle dec⟩ ∧
    RoundsTo 2 v ∧ p.value dec = 200 := by
  refine ⟨o0, oracleSetup ++ [.askBatch [A] [],
    .call (y own) (.setting (.updateDegen A (.priceOracle 20)))], quoteA, ⟨20000, 22⟩, A,
    2 * 10 ^ 24, 20, o0_fresh, rfl, by decide +kernel, ?_, ?_⟩
  · unfold RoundsTo
    norm_num
  · unfold AssetPrice.value
    norm_num

end OracleWorld
end Verif

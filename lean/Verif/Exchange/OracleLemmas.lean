import Verif.Exchange.OracleSpec
import Verif.Simple.Lemmas
import Mathlib.Tactic.FieldSimp

/-
Lemmas for C66: conversions, freshness, and what a reply does to the stored rates and prices.
-/

namespace Verif

/-! ### Conversions -/

theorem RoundsTo.div {n d v : Nat} {x : ℚ} (hd : d ≠ 0) (hv : v = n / d)
    (hx : 10 ^ 24 * x = (n : ℚ) / d) : RoundsTo x v := by
  have hd' : (0 : ℚ) < d := by exact_mod_cast Nat.pos_of_ne_zero hd
  have h1 : v * d ≤ n := by rw [hv]; exact Nat.div_mul_le_self n d
  have h2 : n < (v + 1) * d := by
    rw [hv, Nat.mul_comm]; exact Nat.lt_mul_div_succ n (Nat.pos_of_ne_zero hd)
  have h1' : (v : ℚ) * d ≤ n := by exact_mod_cast h1
  have h2' : (n : ℚ) < (v + 1) * d := by exact_mod_cast h2
  refine ⟨?_, ?_⟩
  · rw [hx, le_div_iff₀ hd']; exact h1'
  · rw [hx, div_lt_iff₀ hd']; exact h2'

theorem RoundsTo.exact {n : Nat} {x : ℚ} (hx : 10 ^ 24 * x = n) : RoundsTo x n :=
  .div (n := n) (d := 1) (by decide) (by simp) (by rw [hx]; simp)

theorem precision_cast : ((PRECISION : Nat) : ℚ) = 10 ^ 24 := by norm_num [PRECISION]

theorem pow10_ok {n r : Nat} : pow10 n = .ok r ↔ n ≤ 38 ∧ r = 10 ^ n := by
  unfold pow10
  split
  · rename_i h; simp [h, eq_comm]
  · rename_i h; simp [h]

theorem AssetPrice.scaled_ok {p : AssetPrice} {dec v : Nat} (h : p.scaled dec = .ok v) :
    RoundsTo (p.value dec) v := by
  unfold scaled at h
  simp only [bind_ok, subW_ok, pow10_ok] at h
  obtain ⟨k, ⟨hk, rfl⟩, f, ⟨-, rfl⟩, h⟩ := h
  obtain ⟨h0, h⟩ := u128Ratio_ok h
  refine .div h0 h ?_
  have e : ((p.decimals : ℤ) - dec) = ((p.decimals - dec : ℕ) : ℤ) := by omega
  rw [value, e, zpow_natCast, Nat.cast_mul, precision_cast]
  push_cast
  rw [mul_div_assoc]

theorem PythPrice.scaled_ok {p : PythPrice} {v : Nat} (hp : 0 < p.price) (h : p.scaled = .ok v) :
    RoundsTo p.value v := by
  unfold scaled at h
  simp only [bind_ok, mulW_ok, pow10_ok] at h
  obtain ⟨m, ⟨-, rfl⟩, f, ⟨-, rfl⟩, h⟩ := h
  have ep : (p.price : ℚ) = (p.price.toNat : ℚ) := by
    have : (p.price.toNat : ℤ) = p.price := Int.toNat_of_nonneg (le_of_lt hp)
    exact_mod_cast this.symm
  split at h
  · rename_i he
    rw [mulW_ok] at h
    rw [h.2]
    refine .exact ?_
    have e : p.expo = (p.expo.natAbs : ℤ) := by omega
    rw [value, ep, e, zpow_natCast, Int.natAbs_natCast]
    push_cast
    rw [precision_cast]; ring
  · rename_i he
    rw [divW_ok] at h
    refine .div h.1 h.2 ?_
    have e : p.expo = -(p.expo.natAbs : ℤ) := by omega
    rw [value, ep, e, zpow_neg, zpow_natCast, Int.natAbs_neg, Int.natAbs_natCast]
    push_cast
    rw [precision_cast]
    ring

/-! ### Freshness -/

theorem PriceData.assertValid_ok {d : PriceData} {now recency staleness : Nat}
    (h : d.assertValid now recency staleness = .ok ()) : d.Fresh now recency staleness := by
  unfold assertValid toNano at h
  unpack at h
  exact ⟨h.1, h.2.1, by omega⟩

theorem PythPrice.inTime_ok {p : PythPrice} {now validFor : Nat}
    (h : p.inTime now validFor = .ok true) :
    0 < p.publishTime ∧ (now : ℤ) ≤ (p.publishTime + validFor) * 10 ^ 9 := by
  unfold inTime at h
  split at h
  · rename_i h0
    unpack at h
    refine ⟨h0, ?_⟩
    have h1 := of_decide_eq_true h.2
    unfold toNano at h1
    have h2 := Nat.mod_le p.publishTime.toNat (2 ^ 32)
    have h3 : now ≤ (p.publishTime.toNat + validFor) * 10 ^ 9 :=
      Nat.le_trans h1 (Nat.mul_le_mul_right _ (Nat.add_le_add_right h2 _))
    have h4 : (p.publishTime.toNat : ℤ) = p.publishTime := Int.toNat_of_nonneg (le_of_lt h0)
    have h5 : (now : ℤ) ≤ ((p.publishTime.toNat : ℤ) + validFor) * 10 ^ 9 := by exact_mod_cast h3
    rwa [h4] at h5
  · cases h

theorem PythPrice.assertValid_ok {p : PythPrice} {now validFor : Nat}
    (h : p.assertValid now validFor = .ok ()) : p.Fresh now validFor := by
  unfold assertValid at h
  unpack at h
  obtain ⟨h1, b, h2, rfl⟩ := h
  exact ⟨h1, inTime_ok h2⟩

theorem PythPrice.isValid_ok {p : PythPrice} {now validFor : Nat}
    (h : p.isValid now validFor = .ok true) : p.Fresh now validFor := by
  unfold isValid at h
  split at h
  · rename_i h1
    exact ⟨h1, inTime_ok h⟩
  · cases h

/-! ### Prices -/

/-- From `c` to `c'` only stored prices change; a new price is one that `Q` allows, stored with time
`now`. -/
structure Repriced (Q : AccountId → Nat → Prop) (now : Nat) (c c' : Contract) : Prop where
  rest : c' = { c with cfg := { c.cfg with degens := c'.cfg.degens } }
  price : ∀ t, c'.cfg.degens.get? t = c.cfg.degens.get? t ∨
    ∃ d v, c.cfg.degens.get? t = some d ∧ Q t v ∧
      c'.cfg.degens.get? t = some { d with price := some (v, now) }

namespace Repriced

theorem refl {Q : AccountId → Nat → Prop} {now : Nat} (c : Contract) : Repriced Q now c c :=
  ⟨rfl, fun _ => .inl rfl⟩

theorem trans {Q : AccountId → Nat → Prop} {now : Nat} {a b c : Contract} (h1 : Repriced Q now a b)
    (h2 : Repriced Q now b c) : Repriced Q now a c := by
  refine ⟨?_, fun t => ?_⟩
  · rw [h2.rest, h1.rest]
  · rcases h2.price t with e2 | ⟨d, v, hd, hq, e2⟩
    · rw [e2]; exact h1.price t
    · rcases h1.price t with e1 | ⟨d', v', hd', -, e1⟩
      · exact .inr ⟨d, v, e1 ▸ hd, hq, e2⟩
      · rw [e1] at hd
        cases hd
        exact .inr ⟨d', v, hd', hq, e2⟩

theorem one {Q : AccountId → Nat → Prop} {now : Nat} {c : Contract} {t : AccountId} {v : Nat}
    (h : Q t v) : Repriced Q now c (c.setDegenPrice t v now) := by
  unfold Contract.setDegenPrice
  split
  · rename_i d hd
    refine ⟨rfl, fun u => ?_⟩
    simp only [FMap.get?_insert]
    split
    · rename_i e; subst e
      exact .inr ⟨d, v, hd, h, rfl⟩
    · exact .inl rfl
  · exact .refl _

theorem mono {Q Q' : AccountId → Nat → Prop} {now : Nat} {c c' : Contract}
    (h : Repriced Q now c c') (hq : ∀ t v, Q t v → Q' t v) : Repriced Q' now c c' :=
  ⟨h.rest, fun t => (h.price t).imp_right fun ⟨d, v, h1, h2, h3⟩ => ⟨d, v, h1, hq t v h2, h3⟩⟩

end Repriced

namespace Contract

theorem degenPrice_ok {c : Contract} {now : Nat} {t : AccountId} {d : DegenInfo} {r : Reply} {v : Nat}
    (hd : c.cfg.degens.get? t = some d) (h : c.degenPrice now t d.source r = .ok v) :
    Justifies c.cfg now t v (.degen t) r := by
  unfold degenPrice at h
  split at h
  · split at h
    · cases h
    · rename_i dec hs
      unpack at h
      obtain ⟨o, ho, _, hv, u, a, hp, ha1, p, ha2, h⟩ := h
      subst ha1 ha2
      refine ⟨rfl, o, d, dec, p, ho, PriceData.assertValid_ok hv, hd, hs, hp, AssetPrice.scaled_ok h⟩
  · split at h
    · cases h
    · rename_i id hs
      unpack at h
      obtain ⟨o, ho, _, hv, w, hw, -, rfl⟩ := h
      have hf := PythPrice.assertValid_ok hv
      exact ⟨rfl, o, d, id, ho, hf, hd, hs, PythPrice.scaled_ok hf.1 hw⟩
  · cases h

theorem storePrices_ok {now : Nat} {decs : FMap AccountId Nat} :
    ∀ {l : List (AccountId × Option AssetPrice)} {c c' : Contract},
    storePrices now decs c l = .ok c' →
    Repriced (fun t v => ∃ dec p, decs.get? t = some dec ∧ (t, some p) ∈ l ∧
      RoundsTo (p.value dec) v) now c c'
  | [], c, c', h => by cases h; exact .refl _
  | (u, none) :: l, c, c', h => by
    unfold storePrices at h
    exact (storePrices_ok h).mono fun t v ⟨dec, p, h1, h2, h3⟩ =>
      ⟨dec, p, h1, List.mem_cons_of_mem _ h2, h3⟩
  | (u, some p) :: l, c, c', h => by
    unfold storePrices at h
    split at h
    · exact (storePrices_ok h).mono fun t v ⟨dec, p, h1, h2, h3⟩ =>
        ⟨dec, p, h1, List.mem_cons_of_mem _ h2, h3⟩
    · rename_i dec hdec
      unpack at h
      obtain ⟨_, -, v, hv, h⟩ := h
      refine (Repriced.one ?_).trans ((storePrices_ok h).mono fun t v ⟨dec, p, h1, h2, h3⟩ =>
        ⟨dec, p, h1, List.mem_cons_of_mem _ h2, h3⟩)
      exact ⟨dec, p, hdec, List.mem_cons_self, AssetPrice.scaled_ok hv⟩

theorem storeAll_ok {now v : Nat} : ∀ {ts : List AccountId} {c c' : Contract},
    storeAll now v c ts = .ok c' → Repriced (fun t w => t ∈ ts ∧ w = v) now c c'
  | [], c, c', h => by cases h; exact .refl _
  | u :: ts, c, c', h => by
    unfold storeAll at h
    unpack at h
    obtain ⟨_, -, h⟩ := h
    exact (Repriced.one ⟨List.mem_cons_self, rfl⟩).trans
      ((storeAll_ok h).mono fun t w ⟨h1, h2⟩ => ⟨List.mem_cons_of_mem _ h1, h2⟩)

theorem storePyth_ok {now validFor : Nat} {m : FMap Nat (Option PythPrice)} :
    ∀ {l : List (Nat × List AccountId)} {c c' : Contract},
    storePyth now validFor m c l = .ok c' →
    Repriced (fun t v => ∃ id ts p, p.Fresh now validFor ∧ (id, ts) ∈ l ∧ t ∈ ts ∧
      m.get? id = some (some p) ∧ RoundsTo p.value v) now c c'
  | [], c, c', h => by cases h; exact .refl _
  | (id, ts) :: l, c, c', h => by
    have up : ∀ {a b : Contract}, storePyth now validFor m a l = .ok b →
        Repriced (fun t v => ∃ id' ts' p, PythPrice.Fresh p now validFor ∧ (id', ts') ∈ (id, ts) :: l ∧
          t ∈ ts' ∧ m.get? id' = some (some p) ∧ RoundsTo p.value v) now a b := fun h =>
      (storePyth_ok h).mono fun t v ⟨id', ts', p, h1, h2, h3⟩ =>
        ⟨id', ts', p, h1, List.mem_cons_of_mem _ h2, h3⟩
    unfold storePyth at h
    split at h
    · rename_i p hp
      simp only [bind_ok] at h
      obtain ⟨b, hb, h⟩ := h
      cases b with
      | false => simp only [Bool.false_eq_true, if_false] at h; exact up h
      | true =>
        simp only [if_true] at h
        unpack at h
        obtain ⟨v, hv, -, c1, h1, h⟩ := h
        have hf := PythPrice.isValid_ok hb
        refine ((storeAll_ok h1).mono ?_).trans (up h)
        rintro t w ⟨ht, rfl⟩
        exact ⟨id, ts, p, hf, List.mem_cons_self, ht, hp, PythPrice.scaled_ok hf.1 hv⟩
    · exact up h

/-- From `c` to `c'` at most the rate of `t` changes, to one that `Q` allows. -/
def Rerated (Q : AccountId → Nat → Prop) (now : Nat) (c c' : Contract) : Prop :=
  c' = { c with cfg := { c.cfg with rates := c'.cfg.rates } } ∧
  ∀ t, c'.cfg.rates.get? t = c.cfg.rates.get? t ∨
    ∃ i v, c.cfg.rates.get? t = some i ∧ Q t v ∧
      c'.cfg.rates.get? t = some { i with rate := v, updated := now }

theorem newRate_ok {c : Contract} {now : Nat} {t : AccountId} {i : RateInfo} {r : Reply} {v : Nat}
    (hi : c.cfg.rates.get? t = some i) (h : newRate now t i.source r = .ok v) :
    JustifiesRate c.cfg now t v (.rate t) r := by
  unfold newRate at h
  split at h
  · rename_i hs
    rw [fit_ok] at h
    exact ⟨rfl, h.2, i, hi, hs⟩
  · rename_i base recency staleness d hs
    unpack at h
    obtain ⟨_, hv, b, bo, hb, q, qo, hq, hb1, hq1, bp, hbp, rp, hrp, hdec, h⟩ := h
    subst hb1 hq1 hbp hrp
    obtain ⟨h0, h⟩ := u128Ratio_ok h
    refine ⟨rfl, i, b, recency, staleness, bp, rp, bp.decimals, hi, hs,
      PriceData.assertValid_ok hv, hb, hq, ?_, ?_⟩
    · simpa [AssetPrice.value] using h0
    · refine .div h0 h ?_
      rw [AssetPrice.value, AssetPrice.value, ← hdec]
      simp only [sub_self, zpow_zero, div_one]
      push_cast
      rw [precision_cast, mul_div_assoc]
  · rename_i bid rid validFor b q hs
    unpack at h
    obtain ⟨_, hb, _, hq, bv, hbv, rv, hrv, -, h0, -, h⟩ := h
    have fb := PythPrice.assertValid_ok hb
    have fq := PythPrice.assertValid_ok hq
    refine ⟨rfl, i, bid, rid, validFor, bv, rv, hi, hs, fb, fq, PythPrice.scaled_ok fb.1 hbv,
      PythPrice.scaled_ok fq.1 hrv, h0, ?_⟩
    refine .div h0 h ?_
    push_cast
    rw [precision_cast, mul_div_assoc]
  · cases h

end Contract
end Verif

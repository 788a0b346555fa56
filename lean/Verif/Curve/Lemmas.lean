import Verif.Curve.Spec
import Verif.Simple.Lemmas

/-
Helper lemmas about the curve pools. The properties themselves are in `Curve/Props.lean`.
-/

namespace Verif

theorem CurveKind.cPerTok_pos (k : CurveKind) (d : Nat) : 0 < k.cPerTok d := by
  unfold CurveKind.cPerTok; positivity
theorem CurveKind.tokPerC_pos (k : CurveKind) (d : Nat) : 0 < k.tokPerC d := by
  unfold CurveKind.tokPerC; positivity

namespace CurvePool

theorem amountToC_ok {k : CurveKind} {d a c : Nat} (h : amountToC k d a = .ok c) :
    c = a * k.cPerTok d / k.tokPerC d ∧ (c < 2 ^ 128 ∨ c ≤ a) := by
  unfold amountToC at h
  split at h
  · rename_i hd
    unpack at h
    refine ⟨?_, Or.inl (by omega)⟩
    rw [h.2]
    simp [CurveKind.tokPerC, CurveKind.cPerTok, Nat.sub_eq_zero_of_le hd]
  · rename_i hd
    split at h
    · unpack at h
      refine ⟨?_, Or.inr ?_⟩
      · rw [h.2]
        have : CurveKind.stable.target - d = 0 := by omega
        simp [CurveKind.tokPerC, CurveKind.cPerTok, this]
      · rw [h.2]; exact Nat.div_le_self _ _
    · cases h

theorem cToAmount_ok {k : CurveKind} {d a c : Nat} (h : cToAmount k d c = .ok a) :
    a = c * k.tokPerC d / k.cPerTok d ∧ (a < 2 ^ 128 ∨ a ≤ c) := by
  unfold cToAmount at h
  split at h
  · rename_i hd
    unpack at h
    refine ⟨?_, Or.inr ?_⟩
    · rw [h.2]
      simp [CurveKind.tokPerC, CurveKind.cPerTok, Nat.sub_eq_zero_of_le hd]
    · rw [h.2]; exact Nat.div_le_self _ _
  · rename_i hd
    split at h
    · unpack at h
      refine ⟨?_, Or.inl (by omega)⟩
      · rw [h.2]
        have : CurveKind.stable.target - d = 0 := by omega
        simp [CurveKind.tokPerC, CurveKind.cPerTok, this]
    · cases h

theorem mintShares_ok {p q : CurvePool} {a : AccountId} {s : Nat} {v : Bool}
    (h : p.mintShares a s v = .ok q) :
    q = { p with supply := p.supply + s,
                 shares := if v ∨ s = 0 then p.shares
                           else p.shares.insert a (p.shares.getD a 0 + s) } ∧
    (s = 0 ∨ p.supply + s < 2 ^ 128) := by
  unfold mintShares at h
  split at h
  · subst_vars; cases h; simp
  · rename_i hs
    unpack at h
    obtain ⟨hlt, h⟩ := h
    split at h
    · rename_i hv; cases h; simp [hv, hlt]
    · rename_i hv
      unpack at h
      obtain ⟨sh, hsh, rfl⟩ := h
      simp [(addToCollection_ok hsh).1, hs, hv, hlt]

/-- `q` is `p` with `n` more shares, none of which were taken from anybody. -/
structure Minted (p q : CurvePool) (n : Nat) (v : Bool) : Prop where
  frame : q = { p with shares := q.shares, supply := q.supply }
  supply : q.supply = p.supply + n
  sum : v = false → sumVals q.shares = sumVals p.shares + n
  view : v = true → q.shares = p.shares
  mono : ∀ x, p.shares.getD x 0 ≤ q.shares.getD x 0
  mem : ∀ x, p.shares.contains x = true → q.shares.contains x = true
  lt : p.supply < 2 ^ 128 → q.supply < 2 ^ 128

theorem Minted.refl (p : CurvePool) (v : Bool) : Minted p p 0 v :=
  ⟨rfl, rfl, fun _ => rfl, fun _ => rfl, fun _ => Nat.le_refl _, fun _ h => h, fun h => h⟩

theorem Minted.trans {p q r : CurvePool} {m n : Nat} {v : Bool} (h1 : Minted p q m v)
    (h2 : Minted q r n v) : Minted p r (m + n) v := by
  refine ⟨?_, ?_, ?_, ?_, ?_, ?_, fun h => h2.lt (h1.lt h)⟩
  · have := h2.frame; rw [h1.frame] at this; exact this
  · rw [h2.supply, h1.supply]; omega
  · intro hv; rw [h2.sum hv, h1.sum hv]; omega
  · intro hv; rw [h2.view hv, h1.view hv]
  · intro x; exact (h1.mono x).trans (h2.mono x)
  · intro x hx; exact h2.mem x (h1.mem x hx)

theorem mintShares_minted {p q : CurvePool} {a : AccountId} {s : Nat} {v : Bool}
    (h : p.mintShares a s v = .ok q) : Minted p q s v := by
  obtain ⟨rfl, hc⟩ := mintShares_ok h
  refine ⟨rfl, rfl, ?_, ?_, ?_, ?_, ?_⟩
  · intro hv
    by_cases hs : s = 0
    · simp [hs]
    · have := sumVals_insert p.shares a (p.shares.getD a 0 + s)
      simp only [hs, hv, Bool.false_eq_true, or_self, if_false]
      omega
  · intro hv; simp [hv]
  · intro x
    simp only
    split
    · exact Nat.le_refl _
    · by_cases hx : x = a
      · subst hx; simp [FMap.getD, FMap.get?_insert_self]
      · simp [FMap.getD, FMap.get?_insert_ne _ _ hx]
  · intro x hx
    simp only
    split
    · exact hx
    · by_cases hxa : x = a
      · subst hxa; simp [FMap.contains, FMap.get?_insert_self]
      · simpa [FMap.contains, FMap.get?_insert_ne _ _ hxa] using hx
  · intro hp
    rcases hc with rfl | hc
    · simpa using hp
    · simpa using hc

/-- The exact effect of minting on balances (non-view). -/
theorem mintShares_balance {p q : CurvePool} {a : AccountId} {s : Nat}
    (h : p.mintShares a s false = .ok q) :
    (∀ x, q.shareBalanceOf x = p.shareBalanceOf x + if x = a then s else 0) := by
  obtain ⟨rfl, hc⟩ := mintShares_ok h
  intro x
  by_cases hs : s = 0
  · simp [hs, shareBalanceOf]
  · by_cases hx : x = a
    · subst hx; simp [hs, shareBalanceOf, FMap.getD, FMap.get?_insert_self]
    · simp [hs, hx, shareBalanceOf, FMap.getD, FMap.get?_insert_ne _ _ hx]

/-- The protocol's part of the imbalance fee is minted: `n` shares in total. -/
theorem mintFeePart_minted {p q : CurvePool} {f : Nat} {fees : AdminFees} {v : Bool}
    (h : p.mintFeePart f fees v = .ok q) :
    Minted p q (f * fees.adminFeeBps / 10000) v := by
  unfold mintFeePart at h
  split at h
  · unpack at h
    obtain ⟨adm, hadm, rs, rid, hr, q1, hq1, hle, hq⟩ := h
    obtain ⟨-, hadm⟩ := u128Ratio_ok hadm
    have := (mintShares_minted hq1).trans (mintShares_minted hq)
    generalize (if 0 < rs ∧ p.shares.contains rid = false then 0 else rs) = r at *
    rw [show r + (adm - r) = adm by omega, hadm] at this
    exact this
  · cases h
    have : f = 0 := by omega
    subst this; simpa using Minted.refl p v

theorem burnShares_ok {p q : CurvePool} {a : AccountId} {prev s : Nat}
    (h : p.burnShares a prev s = .ok q) (hp : p.shares.get? a = some prev) :
    s ≤ prev ∧ q = { p with shares := q.shares } ∧
    sumVals q.shares + s = sumVals p.shares ∧
    q.shareBalanceOf a + s = p.shareBalanceOf a ∧
    (∀ x, x ≠ a → q.shares.get? x = p.shares.get? x) ∧
    (∀ x, q.shares.contains x = p.shares.contains x) := by
  unfold burnShares at h
  split at h
  · subst_vars; cases h; simp
  · unpack at h
    obtain ⟨hle, rfl⟩ := h
    refine ⟨hle, rfl, ?_, ?_, ?_, ?_⟩
    · have := sumVals_insert p.shares a (prev - s)
      rw [getD_of_get? hp] at this
      simp only; omega
    · simp only [shareBalanceOf, FMap.getD, FMap.get?_insert_self, hp, Option.getD_some]; omega
    · intro x hx; exact FMap.get?_insert_ne _ _ hx
    · intro x
      by_cases hx : x = a
      · subst hx; simp [FMap.contains, FMap.get?_insert_self, hp]
      · simp [FMap.contains, FMap.get?_insert_ne _ _ hx]

/-! ### The reserve loops -/

theorem addAmounts_ok {k : CurveKind} : ∀ {cs ds as ns : List Nat},
    addAmounts k cs ds as = .ok ns →
    ns.length = cs.length ∧ (∀ n ∈ ns, n < 2 ^ 128) ∧
    ∀ (i : Nat) (c : Nat), cs[i]? = some c → ∃ d a x, ds[i]? = some d ∧ as[i]? = some a ∧
      amountToC k d a = .ok x ∧ ns[i]? = some (c + x) := by
  intro cs
  induction cs with
  | nil => intro ds as ns h; cases h; simp
  | cons c cs ih =>
    intro ds as ns h
    cases ds with
    | nil => cases h
    | cons d ds =>
      cases as with
      | nil => cases h
      | cons a as =>
        unfold addAmounts at h
        unpack at h
        obtain ⟨x, hx, hlt, r, hr, rfl⟩ := h
        obtain ⟨h1, h2, h3⟩ := ih hr
        refine ⟨by simp [h1], ?_, ?_⟩
        · intro n hn
          rcases List.mem_cons.1 hn with rfl | hn
          · exact hlt
          · exact h2 n hn
        · intro i c' hc
          cases i with
          | zero => cases hc; exact ⟨d, a, x, rfl, rfl, hx, rfl⟩
          | succ i => simpa using h3 i c' (by simpa using hc)

theorem removeLoop_ok {k : CurveKind} {n S : Nat} : ∀ {cs ds ms ns as : List Nat},
    removeLoop k n S cs ds ms = .ok (ns, as) →
    ns.length = cs.length ∧ as.length = cs.length ∧ (cs ≠ [] → S ≠ 0) ∧
    ∀ (i : Nat) (c : Nat), cs[i]? = some c → ∃ d m a,
      ds[i]? = some d ∧ ms[i]? = some m ∧ as[i]? = some a ∧ c * n / S ≤ c ∧
      ns[i]? = some (c - c * n / S) ∧ k.minReserve ≤ c - c * n / S ∧
      cToAmount k d (c * n / S) = .ok a ∧ m ≤ a := by
  intro cs
  induction cs with
  | nil => intro ds ms ns as h; cases h; simp
  | cons c cs ih =>
    intro ds ms ns as h
    cases ds with
    | nil => cases h
    | cons d ds =>
      cases ms with
      | nil => cases h
      | cons m ms =>
        unfold removeLoop at h
        unpack at h
        obtain ⟨-, hS, -, hle, hmin, a, ha, hm, ns', as', hr, rfl, rfl⟩ := h
        obtain ⟨h1, h2, -, h3⟩ := ih hr
        refine ⟨by simp [h1], by simp [h2], fun _ => hS, ?_⟩
        intro i c' hc
        cases i with
        | zero => cases hc; exact ⟨d, m, a, rfl, rfl, rfl, hle, rfl, hmin, ha, hm⟩
        | succ i => simpa using h3 i c' (by simpa using hc)

theorem subReserves_ok {k : CurveKind} : ∀ {cs ws ns : List Nat},
    subReserves k cs ws = .ok ns →
    ns.length = cs.length ∧
    ∀ (i : Nat) (c : Nat), cs[i]? = some c → ∃ w, ws[i]? = some w ∧ w ≤ c ∧
      ns[i]? = some (c - w) ∧ k.minReserve ≤ c - w := by
  intro cs
  induction cs with
  | nil => intro ws ns h; cases h; simp
  | cons c cs ih =>
    intro ws ns h
    cases ws with
    | nil => cases h
    | cons w ws =>
      unfold subReserves at h
      unpack at h
      obtain ⟨hle, hmin, r, hr, rfl⟩ := h
      obtain ⟨h1, h2⟩ := ih hr
      refine ⟨by simp [h1], ?_⟩
      intro i c' hc
      cases i with
      | zero => cases hc; exact ⟨w, rfl, hle, rfl, hmin⟩
      | succ i => simpa using h2 i c' (by simpa using hc)

theorem amountsToC_ok {k : CurveKind} : ∀ {ds as cs : List Nat},
    amountsToC k ds as = .ok cs →
    cs.length = as.length ∧ ds.length ≤ as.length ∧
    ∀ (i : Nat) (d : Nat), ds[i]? = some d → ∃ a c, as[i]? = some a ∧ cs[i]? = some c ∧
      amountToC k d a = .ok c := by
  intro ds
  induction ds with
  | nil => intro as cs h; cases h; simp
  | cons d ds ih =>
    intro as cs h
    cases as with
    | nil => cases h
    | cons a as =>
      unfold amountsToC at h
      unpack at h
      obtain ⟨c, hc, r, hr, rfl⟩ := h
      obtain ⟨h1, h2, h3⟩ := ih hr
      refine ⟨by simp [h1], by simp [h2], ?_⟩
      intro i d' hd
      cases i with
      | zero => cases hd; exact ⟨a, c, rfl, rfl, hc⟩
      | succ i => simpa using h3 i d' (by simpa using hd)

/-! ### The operations -/

theorem addLiquidity_ok {p q : CurvePool} {s : AccountId} {am : List Nat} {mn n : Nat}
    {fees : AdminFees} {env : CurveEnv} {v : Bool}
    (h : p.addLiquidity s am mn fees env v = .ok (q, n)) :
    ∃ fp cs p1, am.length = p.toks.length ∧ p.calcAdd am fees env = .ok (n, fp) ∧ mn ≤ n ∧
      addAmounts p.kind p.cAmts p.decs am = .ok cs ∧
      ({ p with cAmts := cs } : CurvePool).mintShares s n v = .ok p1 ∧
      p1.mintFeePart fp fees v = .ok q ∧
      Minted { p with cAmts := cs } q (n + fp * fees.adminFeeBps / 10000) v := by
  unfold addLiquidity at h
  unpack at h
  obtain ⟨hl, n', fp, hc, hm, cs, hcs, p1, hp1, q', hq, rfl, rfl⟩ := h
  exact ⟨fp, cs, p1, hl, hc, hm, hcs, hp1, hq,
    (mintShares_minted hp1).trans (mintFeePart_minted hq)⟩

theorem removeByShares_ok {p q : CurvePool} {s : AccountId} {n : Nat} {mins paid : List Nat}
    {v : Bool} (h : p.removeByShares s n mins v = .ok (q, paid)) :
    mins.length = p.toks.length ∧ n ≤ p.supply ∧ q.supply = p.supply - n ∧
    removeLoop p.kind n p.supply p.cAmts p.decs mins = .ok (q.cAmts, paid) ∧
    q = { p with shares := q.shares, supply := q.supply, cAmts := q.cAmts } ∧
    (v = true → q.shares = p.shares) ∧
    (v = false → ∃ prev, p.shares.get? s = some prev ∧ n ≤ prev ∧
      sumVals q.shares + n = sumVals p.shares ∧
      q.shareBalanceOf s + n = p.shareBalanceOf s ∧
      (∀ x, x ≠ s → q.shares.get? x = p.shares.get? x) ∧
      ∀ x, q.shares.contains x = p.shares.contains x) := by
  unfold removeByShares at h
  unpack at h
  obtain ⟨hl, p1, hp1, cs, out, hloop, hsup, rfl, rfl⟩ := h
  cases v with
  | true =>
    simp only [if_true] at hp1
    cases hp1
    exact ⟨hl, hsup, rfl, hloop, rfl, fun _ => rfl, fun h => by cases h⟩
  | false =>
    simp only [Bool.false_eq_true, if_false] at hp1
    unpack at hp1
    obtain ⟨prev, hprev, hge, hb⟩ := hp1
    obtain ⟨b1, b2, b3, b4, b5, b6⟩ := burnShares_ok hb hprev
    have hk : p1.kind = p.kind := by rw [b2]
    have hca : p1.cAmts = p.cAmts := by rw [b2]
    have hde : p1.decs = p.decs := by rw [b2]
    have hsu : p1.supply = p.supply := by rw [b2]
    rw [hk, hca, hde, hsu] at hloop
    rw [hsu] at hsup
    refine ⟨hl, hsup, by simp [hsu], hloop, by rw [b2], (fun h => by cases h), fun _ => ?_⟩
    exact ⟨prev, hprev, hge, b3, b4, b5, b6⟩

theorem removeByTokens_ok {p q : CurvePool} {s : AccountId} {n mb : Nat} {am : List Nat}
    {fees : AdminFees} {env : CurveEnv} {v : Bool}
    (h : p.removeByTokens s am mb fees env v = .ok (q, n)) :
    ∃ cs fp ns, am.length = p.toks.length ∧ amountsToC p.kind p.decs am = .ok cs ∧
      p.assertRates env = .ok () ∧
      (p.inv env).lpForWithdraw cs p.cAmts p.supply ⟨p.totalFee, fees.adminFeeBps⟩
        = .ok (n, fp) ∧
      subReserves p.kind p.cAmts cs = .ok ns ∧ n ≤ p.supply ∧
      q = { p with shares := q.shares, supply := q.supply, cAmts := ns } ∧
      q.supply = p.supply - n + fp * fees.adminFeeBps / 10000 ∧
      (p.supply < 2 ^ 128 → q.supply < 2 ^ 128) ∧
      (v = true → q.shares = p.shares) ∧
      (v = false → n ≤ mb ∧ n ≤ p.shareBalanceOf s ∧ p.shares.contains s = true ∧
        sumVals q.shares + n = sumVals p.shares + fp * fees.adminFeeBps / 10000 ∧
        p.shareBalanceOf s ≤ q.shareBalanceOf s + n ∧
        (∀ x, x ≠ s → p.shareBalanceOf x ≤ q.shareBalanceOf x) ∧
        ∀ x, p.shares.contains x = true → q.shares.contains x = true) := by
  unfold removeByTokens at h
  unpack at h
  obtain ⟨hl, cs, hcs, _, -, _, hrates, n', fp, hlp, p1, hp1, ns, hns, hsup, q', hq, rfl, rfl⟩ := h
  have hm := mintFeePart_minted hq
  have hf := hm.frame
  cases v with
  | true =>
    simp only [if_true] at hp1
    cases hp1
    refine ⟨cs, fp, ns, hl, hcs, hrates, hlp, hns, hsup, hf, hm.supply, ?_, hm.view,
      fun h => by cases h⟩
    intro h'; exact hm.lt (by simp only; omega)
  | false =>
    simp only [Bool.false_eq_true, if_false] at hp1
    unpack at hp1
    obtain ⟨prev, hprev, hge, hmax, hb⟩ := hp1
    obtain ⟨b1, b2, b3, b4, b5, b6⟩ := burnShares_ok hb hprev
    have hk : p1.kind = p.kind := by rw [b2]
    have hca : p1.cAmts = p.cAmts := by rw [b2]
    have hsu : p1.supply = p.supply := by rw [b2]
    rw [hk, hca] at hns
    rw [hsu] at hsup
    refine ⟨cs, fp, ns, hl, hcs, hrates, hlp, hns, hsup, ?_, ?_, ?_, (fun h => by cases h),
      fun _ => ⟨hmax, ?_, ?_, ?_, ?_, ?_, ?_⟩⟩
    · rw [hf, b2]
    · rw [hm.supply]; simp only [hsu]
    · intro h'; exact hm.lt (by simp only [hsu]; omega)
    · simpa [shareBalanceOf, FMap.getD, hprev] using hge
    · simp [FMap.contains, hprev]
    · have := hm.sum rfl; simp only at this; omega
    · have := hm.mono s; simp only [shareBalanceOf] at this b4 ⊢; omega
    · intro x hx
      have := hm.mono x
      simp only [shareBalanceOf, FMap.getD] at this ⊢
      rw [b5 x hx] at this; exact this
    · intro x hx
      exact hm.mem x (by simp only; rw [b6]; exact hx)

theorem distributeAdminFee_ok {p q : CurvePool} {ex rid : AccountId} {rb tok c : Nat}
    {env : CurveEnv} {v : Bool}
    (h : p.distributeAdminFee ex rid rb tok c env v = .ok q) :
    ∃ m f old, (p.inv env).lpForDeposit ((p.cAmts.map fun _ => 0).set tok c) p.cAmts p.supply
        ⟨0, 0⟩ = .ok (m, f) ∧
      p.cAmts[tok]? = some old ∧ old + c < 2 ^ 128 ∧
      Minted { p with cAmts := p.cAmts.set tok (old + c) } q m v := by
  unfold distributeAdminFee at h
  unpack at h
  obtain ⟨m, f, hlp, old, hold, hlt, rs, hrs, q1, hq1, hle, hq⟩ := h
  refine ⟨m, f, old, hlp, hold, hlt, ?_⟩
  have := (mintShares_minted hq1).trans (mintShares_minted hq)
  rw [show rs + (m - rs) = m by omega] at this
  exact this

theorem swapFee_ok {p q : CurvePool} {o a : Nat} {fees : AdminFees} {env : CurveEnv} {v : Bool}
    (h : p.swapFee o a fees env v = .ok q) :
    (q = p ∧ (fees.adminFeeBps = 0 ∨ a = 0)) ∨
    (0 < a ∧ 0 < fees.adminFeeBps ∧ ∃ m f old,
      (p.inv env).lpForDeposit ((p.cAmts.map fun _ => 0).set o a) p.cAmts p.supply
        ⟨0, 0⟩ = .ok (m, f) ∧
      p.cAmts[o]? = some old ∧ old + a < 2 ^ 128 ∧
      Minted { p with cAmts := p.cAmts.set o (old + a) } q m v) := by
  unfold swapFee at h
  split at h
  · rename_i hc
    right
    refine ⟨hc.2, hc.1, ?_⟩
    split at h
    · split at h <;> exact distributeAdminFee_ok h
    · exact distributeAdminFee_ok h
  · cases h
    left; exact ⟨rfl, by omega⟩

/-! ### The swap calculation -/

theorem mulRate_ok {k : CurveKind} {a r x : Nat} (h : mulRate k a r = .ok x) :
    x = (if k = .stable then a else a * r / PRECISION) := by
  unfold mulRate at h
  split at h
  · cases h; simp
  · unpack at h; simp_all

theorem divRate_ok {k : CurveKind} {a r x : Nat} (h : divRate k a r = .ok x) :
    x = (if k = .stable then a else a * PRECISION / r) ∧ (k ≠ .stable → x < 2 ^ 128) := by
  unfold divRate at h
  split at h
  · cases h; simp
  · unpack at h; simp_all

theorem rateZip_ok {k : CurveKind} : ∀ {as rs xs : List Nat}, rateZip k as rs = .ok xs →
    ∀ (i x : Nat), xs[i]? = some x → ∃ a r, as[i]? = some a ∧ rs[i]? = some r ∧
      mulRate k a r = .ok x := by
  intro as
  induction as with
  | nil => intro rs xs h; cases h; simp
  | cons a as ih =>
    intro rs xs h
    cases rs with
    | nil => cases h; simp
    | cons r rs =>
      unfold rateZip at h
      unpack at h
      obtain ⟨x, hx, r', hr, rfl⟩ := h
      intro i y hy
      cases i with
      | zero => cases hy; exact ⟨a, r, rfl, rfl, hx⟩
      | succ i => simpa using ih hr i y (by simpa using hy)

theorem rateBalances_at {k : CurveKind} {rs as xs : List Nat}
    (h : rateBalances k rs as = .ok xs) {i x : Nat} (hx : xs[i]? = some x) :
    ∃ a, as[i]? = some a ∧ (k = .stable ∧ x = a ∨
      k ≠ .stable ∧ ∃ r, rs[i]? = some r ∧ x = a * r / PRECISION) := by
  unfold rateBalances at h
  split at h
  · cases h; exact ⟨x, hx, Or.inl ⟨rfl, rfl⟩⟩
  · rename_i hk
    obtain ⟨a, r, ha, hr, hm⟩ := rateZip_ok h i x hx
    have hk' : k ≠ .stable := hk
    have := mulRate_ok hm
    rw [if_neg hk'] at this
    exact ⟨a, ha, Or.inr ⟨hk', r, hr, this⟩⟩

/-- What `swap_to` computes, in pool-internal (rated) units: gross output `dy`, fees and the new
reserves. -/
theorem swapTo_ok {v : Inv} {i o a : Nat} {cur : List Nat} {f : CurveFees} {r : SwapResult}
    (h : v.swapTo i a o cur f = .ok r) :
    ∃ rin rout inn xs xi xo y fee adm sw,
      v.rateAt i = .ok rin ∧ v.rateAt o = .ok rout ∧ mulRate v.kind a rin = .ok inn ∧
      rateBalances v.kind v.rates cur = .ok xs ∧ xs[i]? = some xi ∧ xs[o]? = some xo ∧
      computeY v.kind.width v.amp (inn + xi) xs i o = .ok y ∧ y ≤ xo ∧
      fee = (xo - y - 1) * f.trade / 10000 ∧ adm = fee * f.admin / 10000 ∧
      fee + sw = xo - y - 1 ∧ sw + adm ≤ xo ∧ inn + xi < 2 ^ 128 ∧
      divRate v.kind (xi + inn) rin = .ok r.newSource ∧
      divRate v.kind (xo - sw - adm) rout = .ok r.newDest ∧
      divRate v.kind sw rout = .ok r.swapped ∧
      divRate v.kind adm rout = .ok r.adminFee ∧
      divRate v.kind fee rout = .ok r.fee := by
  unfold Inv.swapTo at h
  unpack at h
  obtain ⟨rin, hrin, rout, hrout, inn, hinn, xs, hxs, xi, hxi, hlt, y, hy, -, xo, hxo, hyx, fee,
    hfee, adm, hadm, hsw, hnd, hnd2, -, a1, ha1, a2, ha2, a3, ha3, a4, ha4, a5, ha5, rfl⟩ := h
  obtain ⟨-, hfee⟩ := u128Ratio_ok hfee
  obtain ⟨-, hadm⟩ := u128Ratio_ok hadm
  simp only [FEE_DIVISOR] at hfee hadm
  exact ⟨rin, rout, inn, xs, xi, xo, y, fee, adm, xo - y - 1 - fee, hrin, hrout, hinn, hxs, hxi,
    hxo, hy, hyx, hfee, hadm, by omega, by omega, hlt, ha1, ha2, ha3, ha4, ha5⟩

theorem div_add_div_le (a b n : Nat) : a / n + b / n ≤ (a + b) / n := by
  rcases Nat.eq_zero_or_pos n with rfl | hn
  · simp
  · rw [Nat.le_div_iff_mul_le hn, Nat.add_mul]
    exact Nat.add_le_add (Nat.div_mul_le_self _ _) (Nat.div_mul_le_self _ _)

/-- `floor(a*P/r) + floor(b*P/r) + floor(c*P/r) ≤ old` when `a + b + c ≤ floor(old*r/P)`. -/
theorem unrate_le {a b c old r : Nat} (hr : r ≠ 0) (h : a + b + c ≤ old * r / PRECISION) :
    a * PRECISION / r + b * PRECISION / r + c * PRECISION / r ≤ old := by
  have hP : 0 < PRECISION := by decide
  have hr' : 0 < r := Nat.pos_of_ne_zero hr
  have h1 : (a + b + c) * PRECISION ≤ old * r := by
    calc (a + b + c) * PRECISION ≤ old * r / PRECISION * PRECISION := Nat.mul_le_mul_right _ h
      _ ≤ old * r := Nat.div_mul_le_self _ _
  have ha := Nat.div_mul_le_self (a * PRECISION) r
  have hb := Nat.div_mul_le_self (b * PRECISION) r
  have hc := Nat.div_mul_le_self (c * PRECISION) r
  apply Nat.le_of_mul_le_mul_right _ hr'
  nlinarith

/-- Conservation in a swap calculation: in internal units the source reserve grows by at most the
input, and what leaves the destination reserve (payment and protocol fee) is covered by it. -/
theorem swapTo_conserves {v : Inv} {i o a : Nat} {cur : List Nat} {f : CurveFees} {r : SwapResult}
    (h : v.swapTo i a o cur f = .ok r) :
    ∃ ci co, cur[i]? = some ci ∧ cur[o]? = some co ∧ r.newSource ≤ ci + a ∧
      r.newDest + r.swapped + r.adminFee ≤ co := by
  obtain ⟨rin, rout, inn, xs, xi, xo, y, fee, adm, sw, hrin, hrout, hinn, hxs, hxi, hxo, -, -,
    -, -, -, hsa, -, d1, d2, d3, d4, -⟩ := swapTo_ok h
  obtain ⟨ci, hci, hi⟩ := rateBalances_at hxs hxi
  obtain ⟨co, hco, ho⟩ := rateBalances_at hxs hxo
  refine ⟨ci, co, hci, hco, ?_, ?_⟩
  · have hm := mulRate_ok hinn
    obtain ⟨hd, -⟩ := divRate_ok d1
    rcases hi with ⟨hk, rfl⟩ | ⟨hk, r', hr', hx⟩
    · rw [if_pos hk] at hm hd; omega
    · rw [if_neg hk] at hm hd
      have hrr : rin = r' := by
        unfold Inv.rateAt at hrin
        cases hkk : v.kind <;> simp_all [expectE_ok]
      subst hrr
      by_cases h0 : rin = 0
      · subst h0; rw [hd]; simp
      · have : (xi + inn) + 0 + 0 ≤ (ci + a) * rin / PRECISION := by
          rw [hx, hm, Nat.add_mul]
          have := div_add_div_le (ci * rin) (a * rin) PRECISION
          omega
        have := unrate_le h0 this
        simp at this
        rw [hd]; exact this
  · obtain ⟨e2, -⟩ := divRate_ok d2
    obtain ⟨e3, -⟩ := divRate_ok d3
    obtain ⟨e4, -⟩ := divRate_ok d4
    rcases ho with ⟨hk, rfl⟩ | ⟨hk, r', hr', hx⟩
    · rw [if_pos hk] at e2 e3 e4; omega
    · rw [if_neg hk] at e2 e3 e4
      have hrr : rout = r' := by
        unfold Inv.rateAt at hrout
        cases hkk : v.kind <;> simp_all [expectE_ok]
      subst hrr
      by_cases h0 : rout = 0
      · subst h0; rw [e2, e3, e4]; simp
      · rw [e2, e3, e4]
        apply unrate_le h0
        omega

theorem tokenIndex_ok {p : CurvePool} {t : AccountId} {i : Nat} (h : p.tokenIndex t = .ok i) :
    p.toks[i]? = some t := by
  unfold tokenIndex at h
  unpack at h
  obtain ⟨hi, hp, -⟩ := List.findIdx?_eq_some_iff_getElem.1 h
  rw [List.getElem?_eq_getElem hi]
  simpa using hp

theorem swap_ok {p q : CurvePool} {ti tout : AccountId} {a mo out : Nat} {fees : AdminFees}
    {env : CurveEnv} {v : Bool} (h : p.swap ti a tout mo fees env v = .ok (q, out)) :
    ∃ i o r di do_ x, ti ≠ tout ∧ p.toks[i]? = some ti ∧ p.toks[o]? = some tout ∧ i ≠ o ∧
      p.assertRates env = .ok () ∧ p.decs[i]? = some di ∧ p.decs[o]? = some do_ ∧
      amountToC p.kind di a = .ok x ∧
      (p.inv env).swapTo i x o p.cAmts ⟨p.totalFee, fees.adminFeeBps⟩ = .ok r ∧
      cToAmount p.kind do_ r.swapped = .ok out ∧ mo ≤ out ∧ p.kind.minReserve ≤ r.newDest ∧
      ({ p with cAmts := (p.cAmts.set i r.newSource).set o r.newDest } : CurvePool).swapFee o
        r.adminFee fees env v = .ok q := by
  unfold swap at h
  unpack at h
  obtain ⟨hne, i, hi, o, ho, _, hrates, r, hr, d, hd, out', hout, hmo, -, -, hmin, q', hq,
    rfl, rfl⟩ := h
  unfold getReturn at hr
  unpack at hr
  obtain ⟨di, hdi, x, hx, hr⟩ := hr
  have hti := tokenIndex_ok hi
  have hto := tokenIndex_ok ho
  refine ⟨i, o, r, di, d, x, hne, hti, hto, ?_, hrates, hdi, hd, hx, hr, hout, hmo, hmin, hq⟩
  rintro rfl
  rw [hti] at hto
  exact hne (by simpa using hto)

end CurvePool
end Verif

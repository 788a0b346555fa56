import Verif.Exchange.ExitProps
import Verif.Exchange.VolumeProps
import Verif.Exchange.PredictRuns

/-
The converse of `Predict.lean`: what a view run of a swap computes, the stored run does as well.
-/

namespace Verif

theorem u128Ratio_run {a n d : Nat} (ha : a < 2 ^ 128) (hn : n ≤ d) (hd : d < 2 ^ 128) (h0 : 0 < d) :
    u128Ratio a n d = .ok (a * n / d) := by
  have h1 : a * n < 2 ^ 256 := by
    calc a * n ≤ a * d := Nat.mul_le_mul_left _ hn
      _ < 2 ^ 128 * 2 ^ 128 := Nat.mul_lt_mul'' ha hd
      _ = 2 ^ 256 := by norm_num
  have h2 : a * n / d ≤ a := by
    refine Nat.div_le_of_le_mul ?_
    rw [Nat.mul_comm d]
    exact Nat.mul_le_mul_left _ hn
  unfold u128Ratio
  rw [mulW_ok.2 ⟨h1, rfl⟩, ok_bind, divW_ok.2 ⟨by omega, rfl⟩, ok_bind, fit_ok.2 ⟨by omega, rfl⟩]

/-- A referral gets at most all of the protocol's part. -/
def AdminFees.Fair (g : AdminFees) : Prop := ∀ rid bps, g.referral = some (rid, bps) → bps ≤ 10000

namespace SimplePool

theorem mintShares_run {q : SimplePool} {a : AccountId} {s : Nat} (hq : q.supply = sumVals q.shares)
    (h : s = 0 ∨ q.supply + s < 2 ^ 128) : ∃ sh, q.mintShares a s false =
      .ok { q with supply := q.supply + s, shares := sh } ∧ q.supply + s = sumVals sh ∧
      ∀ b, q.shares.contains b = true → sh.contains b = true := by
  unfold mintShares
  by_cases hs : s = 0
  · subst hs
    exact ⟨q.shares, rfl, hq, fun _ h => h⟩
  · have h := h.resolve_left hs
    have hle := getD_le_sumVals q.shares a
    have hsum := sumVals_insert q.shares a (q.shares.getD a 0 + s)
    refine ⟨q.shares.insert a (q.shares.getD a 0 + s), ?_, by omega,
      fun b hb => FMap.contains_insert _ _ _ _ hb⟩
    rw [if_neg hs, assertE_true h]
    unfold addToCollection
    simp only [ok_bind, Bool.false_eq_true, if_false]
    rw [addW_ok.2 ⟨by omega, rfl⟩]
    rfl

theorem distribute_run {q : SimplePool} {g : AdminFees} {n : Nat} (hq : q.supply = sumVals q.shares)
    (hg : g.Fair) (hn : n < 2 ^ 128) (h : n = 0 ∨ q.supply + n < 2 ^ 128) :
    ∃ sh, q.distribute g n false = .ok { q with supply := q.supply + n, shares := sh } ∧
      ∀ b, q.shares.contains b = true → sh.contains b = true := by
  have hr : ∃ rs, q.referralShare g n = .ok rs ∧ rs ≤ n ∧ (g.referral = none → rs = 0) := by
    unfold referralShare
    cases he : g.referral with
    | none => exact ⟨0, rfl, Nat.zero_le _, fun _ => rfl⟩
    | some r =>
      obtain ⟨rid, bps⟩ := r
      simp only
      split
      · have hb := hg rid bps he
        refine ⟨_, u128Ratio_run hn hb (by decide) (by decide), ?_, by simp⟩
        exact Nat.div_le_of_le_mul (by rw [Nat.mul_comm FEE_DIVISOR]; exact Nat.mul_le_mul_left _ hb)
      · exact ⟨0, rfl, Nat.zero_le _, fun _ => rfl⟩
  obtain ⟨rs, hr, hle, h0⟩ := hr
  have h1 : ∃ sh, (match g.referral with
      | some (rid, _) => if rs > 0 then q.mintShares rid rs false else .ok q
      | none => .ok q : R SimplePool) = .ok { q with supply := q.supply + rs, shares := sh } ∧
      q.supply + rs = sumVals sh ∧ ∀ b, q.shares.contains b = true → sh.contains b = true := by
    split
    · split
      · exact mintShares_run hq (by omega)
      · have : rs = 0 := by omega
        subst this
        exact ⟨q.shares, rfl, hq, fun _ h => h⟩
    · rw [h0 ‹_›]
      exact ⟨q.shares, rfl, hq, fun _ h => h⟩
  obtain ⟨sh, h1, hs, hk⟩ := h1
  obtain ⟨sh', h2, -, hk'⟩ := mintShares_run (q := { q with supply := q.supply + rs, shares := sh })
    (a := g.exchangeId) (s := n - rs) hs (by simp only; omega)
  refine ⟨sh', ?_, fun b hb => hk' b (hk b hb)⟩
  have e0 : q.distribute g n false = (do
      let p ← (match g.referral with
        | some (rid, _) => if rs > 0 then q.mintShares rid rs false else .ok q
        | none => .ok q : R SimplePool)
      let ex ← subW n rs
      p.mintShares g.exchangeId ex false) := by
    unfold distribute
    rw [hr]
    rfl
  rw [e0]
  refine bind_ok.2 ⟨_, h1, ?_⟩
  rw [subW_ok.2 ⟨hle, rfl⟩, ok_bind, h2]
  have e : q.supply + rs + (n - rs) = q.supply + n := by omega
  simp only [e]

theorem distribute_view_bound {p p' : SimplePool} {f : AdminFees} {n : Nat}
    (h : p.distribute f n true = .ok p') :
    (n = 0 ∨ p.supply + n < 2 ^ 128) ∧ p' = { p with supply := p.supply + n } := by
  unfold distribute at h
  unpack at h
  obtain ⟨rs, hrs, p1, h1, hle, h2⟩ := h
  have k1 : (rs = 0 ∨ p.supply + rs < 2 ^ 128) ∧ p1 = { p with supply := p.supply + rs } := by
    unfold referralShare at hrs
    split at h1
    · split at h1
      · obtain ⟨rfl, hb⟩ := mintShares_ok h1
        exact ⟨hb, by simp⟩
      · cases h1
        have : rs = 0 := by omega
        subst this
        exact ⟨.inl rfl, rfl⟩
    · rename_i hr
      rw [hr] at hrs
      cases hrs; cases h1
      exact ⟨.inl rfl, rfl⟩
  obtain ⟨hb1, rfl⟩ := k1
  obtain ⟨rfl, hb⟩ := mintShares_ok h2
  simp only at hb
  refine ⟨by omega, ?_⟩
  have e : p.supply + rs + (n - rs) = p.supply + n := by omega
  simp [e]

/-- The view's copy `p` of a pool and the pool itself, the other way round. -/
def Copied (q p : SimplePool) : Prop := p.Alike q

theorem distribute_co {p q : SimplePool} (h : p.Alike q) (hq : q.supply = sumVals q.shares)
    {f g : AdminFees} (_ : f.Quote g) (hg : g.Fair) {n : Nat} (hn : n < 2 ^ 128) :
    Sim Copied (q.distribute g n false) (p.distribute f n true) := by
  intro p' hp
  obtain ⟨hb, rfl⟩ := distribute_view_bound hp
  obtain ⟨sh, rfl, hk⟩ := h
  obtain ⟨sh', e, hk'⟩ := distribute_run hq hg hn hb
  exact ⟨_, e, sh, rfl, fun b hb => hk' b (hk b hb)⟩

theorem updatePool_run {p q : SimplePool} (h : p.Alike q) (hq : q.supply = sumVals q.shares)
    {f g : AdminFees} (hf : f.Quote g) (hg : g.Fair) (i : Bool) (a : Nat) (o : Bool) (r : Nat) :
    Sim Copied (q.updatePool i a o r g false) (p.updatePool i a o r f true) := by
  obtain ⟨sh, rfl, hk⟩ := h
  unfold updatePool
  rw [hf.bps]
  cases i <;> cases o <;>
  · refine .same fun k0 _ => .same fun prev _ => .same fun ai _ => .same fun ao _ =>
      .same fun k1 _ => .same fun new _ => .same fun _ _ => .same fun num _ => ?_
    split
    · refine .same fun d0 _ => .same fun den _ => .same fun x _ => .same fun n hn => ?_
      refine distribute_co ?_ ?_ hf hg ((fit_ok.1 hn).2 ▸ (fit_ok.1 hn).1)
      · exact ⟨sh, rfl, hk⟩
      · exact hq
    · exact .ok ⟨sh, rfl, hk⟩

theorem swap_run {p q : SimplePool} (h : p.Alike q) (hq : q.supply = sumVals q.shares)
    {f g : AdminFees} (hf : f.Quote g) (hg : g.Fair) (ti : AccountId) (a : Nat) (tout : AccountId)
    (m : Nat) : Sim (fun r s => s.1.Alike r.1 ∧ s.2 = r.2) (q.swap ti a tout m g false)
      (p.swap ti a tout m f true) := by
  have h0 := h
  obtain ⟨sh, rfl, hk⟩ := h
  unfold swap
  refine .same fun _ _ => .same fun i _ => .same fun o _ => ?_
  cases i <;> cases o <;>
  · refine .same fun out _ => .same fun _ _ => ?_
    exact .bind (updatePool_run h0 hq hf hg _ _ _ _) fun _ _ h => .ok ⟨h, rfl⟩

theorem swapByOutput_run {p q : SimplePool} (h : p.Alike q) (hq : q.supply = sumVals q.shares)
    {f g : AdminFees} (hf : f.Quote g) (hg : g.Fair) (ti : AccountId) (out : Nat) (tout : AccountId)
    (m : Option Nat) : Sim (fun r s => s.1.Alike r.1 ∧ s.2 = r.2) (q.swapByOutput ti out tout m g false)
      (p.swapByOutput ti out tout m f true) := by
  have h0 := h
  obtain ⟨sh, rfl, hk⟩ := h
  unfold swapByOutput
  refine .same fun _ _ => .same fun i _ => .same fun o _ => ?_
  cases i <;> cases o <;>
  · refine .same fun inn _ => .same fun _ _ => ?_
    exact .bind (updatePool_run h0 hq hf hg _ _ _ _) fun _ _ h => .ok ⟨h, rfl⟩

end SimplePool

namespace CurvePool

theorem mintShares_run {q : CurvePool} {a : AccountId} {s : Nat} (hq : q.supply = sumVals q.shares)
    (h : s = 0 ∨ q.supply + s < 2 ^ 128) : ∃ sh, q.mintShares a s false =
      .ok { q with supply := q.supply + s, shares := sh } ∧ q.supply + s = sumVals sh ∧
      ∀ b, q.shares.contains b = true → sh.contains b = true := by
  unfold mintShares
  by_cases hs : s = 0
  · subst hs
    exact ⟨q.shares, rfl, hq, fun _ h => h⟩
  · have h := h.resolve_left hs
    have hle := getD_le_sumVals q.shares a
    have hsum := sumVals_insert q.shares a (q.shares.getD a 0 + s)
    refine ⟨q.shares.insert a (q.shares.getD a 0 + s), ?_, by omega,
      fun b hb => FMap.contains_insert _ _ _ _ hb⟩
    rw [if_neg hs, addW_ok.2 ⟨h, rfl⟩]
    unfold addToCollection
    simp only [ok_bind, Bool.false_eq_true, if_false]
    rw [addW_ok.2 ⟨by omega, rfl⟩]
    rfl

theorem mintBoth_run {p q : CurvePool} (h : p.Alike q) (hq : q.supply = sumVals q.shares)
    (a b a' b' : AccountId) {x y n : Nat} (hy : y ≤ n) :
    Sim (fun r s => s.Alike r) (q.mintBoth a' b' y n false) (p.mintBoth a b x n true) := by
  intro p' hp
  unfold mintBoth at hp
  unpack at hp
  obtain ⟨p1, h1, hle, h2⟩ := hp
  obtain ⟨rfl, b1⟩ := mintShares_ok h1
  obtain ⟨rfl, b2⟩ := mintShares_ok h2
  simp only at b2
  obtain ⟨sh, rfl, hk⟩ := h
  simp only at b1 b2
  obtain ⟨sh1, e1, hs1, k1⟩ := mintShares_run (a := a') (s := y) hq (by omega)
  obtain ⟨sh2, e2, -, k2⟩ := mintShares_run (q := { q with supply := q.supply + y, shares := sh1 })
    (a := b') (s := n - y) hs1 (by simp only; omega)
  refine ⟨{ q with supply := q.supply + y + (n - y), shares := sh2 }, ?_, sh, ?_,
    fun c hc => k2 c (k1 c (hk c hc))⟩
  · unfold mintBoth
    rw [e1, ok_bind, subW_ok.2 ⟨hy, rfl⟩, ok_bind, e2]
  · have e : q.supply + x + (n - x) = q.supply + y + (n - y) := by omega
    simp [e]

theorem lpForDeposit_lt {v : Inv} {dep old : List Nat} {S mint fee : Nat} {f : CurveFees}
    (h : v.lpForDeposit dep old S f = .ok (mint, fee)) : mint < 2 ^ 128 := by
  unfold Inv.lpForDeposit sharesFor at h
  unpack at h
  obtain ⟨d0, h0, new, hn, d1, h1, hlt, new', hf, d2, h2, hle, -, hne, hm, -, -, -, -, hfe, rfl, rfl⟩ := h
  omega

theorem distribute_run {p q : CurvePool} (h : p.Alike q) (hq : q.supply = sumVals q.shares)
    (a b a' b' : AccountId) {x y : Nat} (hy : y ≤ 10000) (o n : Nat) (env : CurveEnv) :
    Sim (fun r s => s.Alike r) (q.distributeAdminFee a' b' y o n env false)
      (p.distributeAdminFee a b x o n env true) := by
  obtain ⟨sh, rfl, hk⟩ := h
  unfold distributeAdminFee
  refine .same fun r hr => ?_
  obtain ⟨s, part⟩ := r
  refine .same fun old _ => .same fun m _ => ?_
  have h' : Alike { q with shares := sh, cAmts := q.cAmts.set o m } { q with cAmts := q.cAmts.set o m } :=
    ⟨sh, rfl, hk⟩
  have hs : s < 2 ^ 128 := lpForDeposit_lt hr
  refine .skip fun rs _ => ?_
  have e : ∃ rs', (if y > 0 then u128Ratio s y FEE_DIVISOR else .ok 0 : R Nat) = .ok rs' ∧ rs' ≤ s := by
    split
    · refine ⟨_, u128Ratio_run hs hy (by decide) (by decide), ?_⟩
      exact Nat.div_le_of_le_mul (by rw [Nat.mul_comm FEE_DIVISOR]; exact Nat.mul_le_mul_left _ hy)
    · exact ⟨0, rfl, Nat.zero_le _⟩
  obtain ⟨rs', e, hle⟩ := e
  rw [e, ok_bind]
  exact mintBoth_run h' hq b a b' a' hle

theorem swapFee_run {p q : CurvePool} (h : p.Alike q) (hq : q.supply = sumVals q.shares)
    {f g : AdminFees} (hf : f.Quote g) (hg : g.Fair) (o n : Nat) (env : CurveEnv) :
    Sim (fun r s => s.Alike r) (q.swapFee o n g env false) (p.swapFee o n f env true) := by
  unfold swapFee
  rw [hf.bps]
  split
  · have hx : ∀ {a b x a' b' y}, y ≤ 10000 → Sim (fun r s => s.Alike r)
        (q.distributeAdminFee a' b' y o n env false) (p.distributeAdminFee a b x o n env true) :=
      fun hy => distribute_run h hq _ _ _ _ hy o n env
    cases hgr : g.referral with
    | none =>
      simp only
      rcases f.referral with _ | ⟨rid, rfee⟩
      · exact hx (by omega)
      · simp only
        split <;> exact hx (by omega)
    | some r =>
      obtain ⟨rid, bps⟩ := r
      have hb := hg rid bps hgr
      simp only
      rcases f.referral with _ | ⟨rid', rfee⟩
      · split <;> exact hx (by omega)
      · simp only
        split <;> split <;> exact hx (by omega)
  · exact .ok h

theorem swap_run {p q : CurvePool} (h : p.Alike q) (hq : q.supply = sumVals q.shares)
    (hd : ∀ d ∈ q.decs, d ≤ q.kind.target) {f g : AdminFees} (hf : f.Quote g) (hg : g.Fair)
    (ti : AccountId) (a : Nat) (tout : AccountId) (m : Nat) (env : CurveEnv) :
    Sim (fun r s => s.1.Alike r.1 ∧ s.2 = r.2) (q.swap ti a tout m g env false)
      (p.swap ti a tout m f env true) := by
  obtain ⟨sh, rfl, hk⟩ := h
  unfold swap
  refine .same fun _ _ => .same fun i _ => .same fun o _ => .same fun _ _ => ?_
  have e : ({ q with shares := sh } : CurvePool).getReturn i a o f env = q.getReturn i a o g env := by
    unfold getReturn
    rw [hf.bps]
    rfl
  rw [e]
  refine .same fun r _ => .same fun d hd' => .same fun out _ => .same fun _ _ => ?_
  have hd0 : d ≤ q.kind.target := hd d (List.mem_of_getElem? (expectE_ok.1 hd'))
  have e2 : (if false = true then .ok ()
      else do
        let _ ← cToAmount q.kind d r.fee
        let _ ← cToAmount q.kind d r.adminFee
        .ok () : R Unit) = .ok () := by
    obtain ⟨x, hx⟩ := cToAmount_total (c := r.fee) hd0
    obtain ⟨y, hy⟩ := cToAmount_total (c := r.adminFee) hd0
    rw [if_neg (by simp), hx, ok_bind, hy]
    rfl
  rw [e2]
  refine .same fun _ _ => ?_
  refine .same fun _ _ => ?_
  have h' : Alike
      { q with shares := sh, cAmts := (q.cAmts.set i r.newSource).set o r.newDest }
      { q with cAmts := (q.cAmts.set i r.newSource).set o r.newDest } := ⟨sh, rfl, hk⟩
  exact .bind (swapFee_run h' hq hf hg o r.adminFee env) fun _ _ h => .ok ⟨h, rfl⟩

end CurvePool

namespace Pool

/-- No token of the pool has more decimals than the pool computes with. -/
def Coarse : Pool → Prop
  | .simple _ => True
  | .curve p => ∀ d ∈ p.decs, d ≤ p.kind.target

theorem swap_run {p q : Pool} (h : p.Alike q) (hq : q.Sound) (hd : q.Coarse) {f g : AdminFees}
    (hf : f.Quote g) (hg : g.Fair) (ti : AccountId) (a : Nat) (tout : AccountId) (m : Nat)
    (env : R CurveEnv) : Sim (fun r s => s.1.Alike r.1 ∧ s.2 = r.2)
      (q.swap ti a tout m g env false) (p.swap ti a tout m f env true) := by
  have hs := hq.sum
  cases h with
  | simple h =>
    exact .bind (SimplePool.swap_run h hs hf hg ti a tout m) fun _ _ h => .ok ⟨.simple h.1, h.2⟩
  | curve h =>
    exact .same fun e _ => .bind (CurvePool.swap_run h hs hd hf hg ti a tout m e)
      fun _ _ h => .ok ⟨.curve h.1, h.2⟩

theorem swapByOutput_run {p q : Pool} (h : p.Alike q) (hq : q.Sound) {f g : AdminFees}
    (hf : f.Quote g) (hg : g.Fair) (ti : AccountId) (out : Nat) (tout : AccountId) (m : Option Nat) :
    Sim (fun r s => s.1.Alike r.1 ∧ s.2 = r.2) (q.swapByOutput ti out tout m g false)
      (p.swapByOutput ti out tout m f true) := by
  have hs := hq.sum
  cases h with
  | simple h =>
    exact .bind (SimplePool.swapByOutput_run h hs hf hg ti out tout m)
      fun _ _ h => .ok ⟨.simple h.1, h.2⟩
  | curve h => exact .error

theorem Coarse.of_shape {p q : Pool} (h : q.shape = p.shape) (hp : p.Coarse) : q.Coarse := by
  cases p with
  | simple p =>
    cases q with
    | simple q => trivial
    | curve q => cases h
  | curve p =>
    cases q with
    | simple q => cases h
    | curve q =>
      simp only [shape, Prod.mk.injEq, Option.some.injEq] at h
      obtain ⟨h1, -, h2⟩ := h
      unfold Coarse at *
      simp only at *
      rw [h1, h2]
      exact hp

theorem swapByOutput_fits {p q : Pool} {ti tout : AccountId} {a out : Nat} {m : Option Nat}
    {f : AdminFees} {v : Bool} (h : p.swapByOutput ti out tout m f v = .ok (q, a)) : a < 2 ^ 128 := by
  cases p with
  | simple p =>
    simp only [swapByOutput] at h
    unpack at h
    obtain ⟨_, _, h, -, rfl⟩ := h
    obtain ⟨i, o, -, hi, ho, hio, -, -, hu⟩ := SimplePool.swapByOutput_ok h
    have := (SimplePool.updatePool_ok hio hu).2.2.2.1
    omega
  | curve p => cases h

end Pool

theorem SimplePool.view_remove {p : SimplePool} {n : Nat} (hs : p.Sound) (h0 : 0 < n) (hn : n ≤ p.supply)
    (a : AccountId) : ∃ q, p.removeLiquidity a n [0, 0] true =
      .ok (q, [p.amt0 * n / p.supply, p.amt1 * n / p.supply]) := by
  have hfit : ∀ r : Nat, r < 2 ^ 128 →
      SimplePool.payOut r n p.supply 0 = .ok (r * n / p.supply, r - r * n / p.supply) := by
    intro r hr
    have hle : r * n / p.supply ≤ r := by
      refine Nat.div_le_of_le_mul ?_
      rw [Nat.mul_comm p.supply]
      exact Nat.mul_le_mul_left _ hn
    have hlt : r * n < 2 ^ 256 := by
      have : n < 2 ^ 128 := lt_of_le_of_lt hn hs.supply
      calc r * n < 2 ^ 128 * 2 ^ 128 := Nat.mul_lt_mul'' hr this
        _ = 2 ^ 256 := by norm_num
    unfold SimplePool.payOut
    rw [mulW_ok.2 ⟨hlt, rfl⟩, ok_bind, divW_ok.2 ⟨by omega, rfl⟩, ok_bind,
      fit_ok.2 ⟨lt_of_le_of_lt hle hr, rfl⟩, ok_bind, (assertE_ok (u := ())).2 (Nat.zero_le _), ok_bind,
      subW_ok.2 ⟨hle, rfl⟩, ok_bind]
  simp only [SimplePool.removeLiquidity, if_true, ok_bind]
  rw [hfit _ hs.amt0]
  simp only [ok_bind]
  rw [hfit _ hs.amt1]
  simp only [ok_bind]
  rw [subW_ok.2 ⟨hn, rfl⟩]
  exact ⟨_, rfl⟩

theorem SimplePool.unit_run {p : SimplePool} (hs : p.Sound) : ∃ o, (Pool.simple p).unitShare = .ok o ∧
    ∀ as, o = some as → as.length = 2 ∧ ∀ a ∈ as, a < 2 ^ 128 := by
  rw [Pool.unitShare_eq]
  have hpos : 0 < 10 ^ (Pool.simple p).shareDecimal := Nat.pow_pos (by omega)
  generalize 10 ^ (Pool.simple p).shareDecimal = n at hpos
  split
  · rename_i hgt
    have hle : n ≤ p.supply := le_of_lt hgt
    obtain ⟨q, hq⟩ := SimplePool.view_remove hs hpos hle "@view".toList
    refine ⟨some [p.amt0 * n / p.supply, p.amt1 * n / p.supply], ?_, ?_⟩
    · simp only [Pool.removeLiquidity, Pool.tokens, List.map_cons, List.map_nil]
      rw [hq]
      rfl
    · rintro _ ⟨⟩
      refine ⟨rfl, fun a ha => ?_⟩
      have hb : ∀ r : Nat, r < 2 ^ 128 → r * n / p.supply < 2 ^ 128 := fun r hr =>
        lt_of_le_of_lt (Nat.div_le_of_le_mul (by
          rw [Nat.mul_comm p.supply]
          exact Nat.mul_le_mul_left _ hle)) hr
      simp only [List.mem_cons, List.not_mem_nil, or_false] at ha
      rcases ha with rfl | rfl
      · exact hb _ hs.amt0
      · exact hb _ hs.amt1
  · exact ⟨none, rfl, fun _ h => nomatch h⟩

namespace Contract

/-- Nothing but the pools themselves can stop a swap in one of the pools `ids`, and neither can it stop
the `k` - 1 swaps that follow. -/
structure Ready (ids : List Nat) (now k : Nat) (c : Contract) : Prop where
  sound : ∀ p ∈ c.pools, p.Sound
  coarse : ∀ id ∈ ids, ∀ p, c.pools[id]? = some p → p.Coarse
  hook : ∀ id u, c.twaps.get? id = some u → id ∈ ids →
    (∃ p, c.pools[id]? = some (.simple p)) ∧ Current 2 (nanoToSec now) u
  aligned : c.Aligned
  room : ∀ id ∈ ids, ∀ i, (c.volume id i).1 + k * 2 ^ 128 ≤ 2 ^ 256 ∧
    (c.volume id i).2 + k * 2 ^ 128 ≤ 2 ^ 256
  few : c.pools.length ≤ 2 ^ 32

theorem simple_hook {now id : Nat} {c : Contract} (hs : ∀ p ∈ c.pools, p.Sound)
    (h : ∀ u, c.twaps.get? id = some u → (∃ p, c.pools[id]? = some (.simple p)) ∧
      Current 2 (nanoToSec now) u) : ∃ tw, c.twapHook now id = .ok { c with twaps := tw } := by
  suffices hs : ∃ c', c.twapHook now id = .ok c' by
    obtain ⟨c', hs⟩ := hs
    obtain ⟨tw, rfl⟩ := twapHook_ok hs
    exact ⟨tw, hs⟩
  unfold twapHook
  cases hu : c.twaps.get? id with
  | none => exact ⟨_, rfl⟩
  | some u =>
    obtain ⟨⟨p, hp⟩, hk⟩ := h u hu
    obtain ⟨o, ho, hv⟩ := SimplePool.unit_run (hs _ (List.mem_of_getElem? hp)).1
    simp only
    rw [pool_ok.2 hp, ok_bind, ho, ok_bind]
    cases o with
    | none => exact ⟨_, rfl⟩
    | some as =>
      obtain ⟨u', hu'⟩ := hk.run (iv := c.cfg.recordInterval) (le_refl _)
        (Nat.mod_lt _ (by norm_num)) (hv as rfl).1 (hv as rfl).2
      simp only
      rw [hu', ok_bind]
      exact ⟨_, rfl⟩

theorem Ready.hook_run {ids : List Nat} {now k : Nat} {c : Contract} (h : c.Ready ids now k) {id : Nat}
    (hid : id ∈ ids) : ∃ tw, c.twapHook now id = .ok { c with twaps := tw } :=
  simple_hook h.sound fun u hu => h.hook id u hu hid

theorem findIdx?_of_mem {l : List AccountId} {t : AccountId} (h : t ∈ l) :
    ∃ i, (l.findIdx? fun u => decide (u = t)) = some i ∧ i < l.length := by
  cases hf : l.findIdx? fun u => decide (u = t) with
  | none =>
    have := List.findIdx?_eq_none_iff.1 hf t h
    simp at this
  | some i => exact ⟨i, rfl, (List.findIdx?_eq_some_iff_getElem.1 hf).1⟩

theorem recordVolume_run {c : Contract} {id a out : Nat} {q : Pool} {ti tout : AccountId}
    {vols : List (Nat × Nat)} (hi : ti ∈ q.tokens) (ho : tout ∈ q.tokens)
    (hl : vols.length = q.tokens.length) (ha : ∀ i, (vols.getD i (0, 0)).1 + a < 2 ^ 256)
    (hb : ∀ i, (vols.getD i (0, 0)).2 + out < 2 ^ 256) :
    ∃ c', c.recordVolume id q ti tout a out vols = .ok c' := by
  obtain ⟨i, e1, hi⟩ := findIdx?_of_mem hi
  have ho : ∃ o, (match q with
      | .simple _ => .ok i
      | .curve _ => expectE (q.tokens.findIdx? fun t => decide (t = tout)) (.e 63) : R Nat) = .ok o ∧
      o < q.tokens.length := by
    cases q with
    | simple q => exact ⟨i, rfl, hi⟩
    | curve q =>
      obtain ⟨o, e2, ho⟩ := findIdx?_of_mem ho
      exact ⟨o, expectE_ok.2 e2, ho⟩
  obtain ⟨o, e2, ho⟩ := ho
  rw [← hl] at hi ho
  unfold recordVolume
  rw [expectE_ok.2 e1, ok_bind]
  have hi' := ha i
  have ho' := hb o
  rw [List.getD_eq_getElem?_getD] at hi' ho'
  rw [List.getElem?_eq_getElem hi, Option.getD_some] at hi'
  rw [List.getElem?_eq_getElem ho, Option.getD_some] at ho'
  have e3 : ((vols.set i (vols[i].1 + a, vols[i].2))[o]?) =
      some (if i = o then (vols[i].1 + a, vols[i].2) else vols[o]) := by
    rw [List.getElem?_set]
    by_cases h : i = o
    · subst h; rw [if_pos rfl, if_pos hi, if_pos rfl]
    · rw [if_neg h, if_neg h, List.getElem?_eq_getElem ho]
  have e4 : (if i = o then (vols[i].1 + a, vols[i].2) else vols[o]).2 + out < 2 ^ 256 := by
    by_cases h : i = o
    · subst h; rw [if_pos rfl]; exact ho'
    · rw [if_neg h]; exact ho'
  refine ⟨?w, bind_ok.2 ⟨o, e2, ?h⟩⟩
  case h =>
    rw [expectE_ok.2 (List.getElem?_eq_getElem hi), ok_bind, addW_ok.2 ⟨hi', rfl⟩, ok_bind]
    simp only
    rw [expectE_ok.2 e3, ok_bind, addW_ok.2 ⟨e4, rfl⟩, ok_bind]

/-- A swap leaves the pools ready for the swaps that follow. -/
theorem Ready.step {ids : List Nat} {now k : Nat} {c c' : Contract} (h : c.Ready ids now (k + 1))
    {ref : Option (AccountId × Nat)} {s : SwapStep} (hs : c.SwapsTo now ref s c')
    (ha : s.amtIn ≤ 2 ^ 128) (hb : s.amtOut ≤ 2 ^ 128) : c'.Ready ids now k := by
  have hv := hs.volumes h.sound h.few
  have hpt := hs.poolsTo
  have hlen := hs.framed.length
  have old : ∀ (id : Nat) (p : Pool), c'.pools[id]? = some p →
      ∃ q, c.pools[id]? = some q ∧ p.shape = q.shape := by
    intro id p hi
    have hq := List.getElem?_eq_getElem (hlen ▸ (List.getElem?_eq_some_iff.1 hi).1)
    obtain ⟨q, hq', e⟩ := hpt.shape id _ hq
    rw [hi] at hq'; cases hq'
    exact ⟨_, hq, e⟩
  have hal := hv.lengths h.aligned
  refine ⟨hpt.sound h.sound, fun id hid p hp => ?_, ?_, hal, fun id hid i => ?_,
    by rw [hlen]; exact h.few⟩
  · obtain ⟨q, hq, e⟩ := old id p hp
    exact .of_shape e (h.coarse id hid q hq)
  · have hrec := Swaps.records (P := fun id u => id ∈ ids →
        (∃ p, c.pools[id]? = some (.simple p)) ∧ Current 2 (nanoToSec now) u)
      (fun id u u' as iv hu hup hid => ⟨(hu hid).1, (hu hid).2.update (le_refl _) hup⟩)
      (.cons hs (.nil _)) h.hook
    intro id u hu hid
    obtain ⟨⟨p, hp⟩, hk⟩ := hrec id u hu hid
    obtain ⟨q, hq, e⟩ := hpt.shape id _ hp
    refine ⟨?_, hk⟩
    cases q with
    | simple q => exact ⟨q, hq⟩
    | curve q => cases e
  · cases hp : c'.pools[id]? with
    | none =>
      have := h.room id hid i
      simp only [volume, hp]
      omega
    | some p =>
      cases ht : p.tokens[i]? with
      | none =>
        have := h.room id hid i
        have hz : c'.volume id i = (0, 0) := by
          simp only [volume, hp, List.getD_eq_getElem?_getD]
          rw [List.getElem?_eq_none]
          · rfl
          · rw [hal id p hp]
            exact List.getElem?_eq_none_iff.1 ht
        rw [hz]
        simp only
        omega
      | some t =>
        have hr := h.room id hid i
        have h1 : (p.traded [s] id t).1 ≤ 2 ^ 128 := by
          cases p <;> simp only [Pool.traded, takenBy, List.map_cons, List.map_nil, List.sum_cons,
            List.sum_nil, Nat.add_zero] <;> split <;> omega
        have h2 : (p.traded [s] id t).2 ≤ 2 ^ 128 := by
          cases p <;> simp only [Pool.traded, givenBy, givenFor, List.map_cons, List.map_nil,
            List.sum_cons, List.sum_nil, Nat.add_zero] <;> split <;> omega
        rw [hv.counts id p i t hp ht]
        simp only
        omega

/-- The execution, now in state `c`, has the pools that the view that started on `c0` shows. -/
structure Shows (c0 : Contract) (pc : PoolCache) (c : Contract) : Prop where
  cfg : c.cfg = c0.cfg
  pools : ∀ id q, c0.cachedPool pc id = .ok q → ∃ p, c.pools[id]? = some p ∧ q.Alike p

theorem Shows.start (c : Contract) : c.Shows FMap.empty c := by
  refine ⟨rfl, fun id q hq => ?_⟩
  unfold cachedPool at hq
  unpack at hq
  obtain ⟨p, hp, rfl⟩ := hq
  exact ⟨p, pool_ok.1 hp, .rfl' p⟩

theorem Shows.set {c0 c c' : Contract} {pc : PoolCache} (h : c0.Shows pc c) {id : Nat} {q p p0 : Pool}
    (hp : c.pools[id]? = some p0) (hq : q.Alike p) (e2 : c'.cfg = c.cfg)
    (e3 : c'.pools = c.pools.set id p) : c0.Shows (pc.insert id q) c' := by
  refine ⟨e2.trans h.cfg, fun i q' hq' => ?_⟩
  rw [e3, getElem?_set_some hp]
  unfold cachedPool at hq'
  unpack at hq'
  obtain ⟨p1, hp1, hq'⟩ := hq'
  rw [FMap.get?_insert] at hq'
  by_cases hi : i = id
  · subst hi
    rw [if_pos rfl] at hq' ⊢
    cases hq'
    exact ⟨p, rfl, hq⟩
  · rw [if_neg hi] at hq' ⊢
    subst hq'
    refine h.pools i _ ?_
    unfold cachedPool
    rw [hp1, ok_bind]

theorem poolSwap_run {ids : List Nat} {now k : Nat} {c0 c : Contract} {pc : PoolCache}
    (h : c0.Shows pc c) (hr : c.Ready ids now (k + 1)) {r r' : Option (AccountId × Nat)}
    (hf : r = r' ∨ r = none) (hg : (c.fees r').Fair) {id : Nat} (hid : id ∈ ids) {ti : AccountId}
    {a : Nat} {tout : AccountId} {m out : Nat} {pc' : PoolCache} (ha : a < 2 ^ 128) (hb : out < 2 ^ 128)
    (hv : c0.poolSwapCached now r pc id ti a tout m = .ok (pc', out)) :
    ∃ c', c.poolSwap now r' id ti a tout m = .ok (c', out) ∧ c0.Shows pc' c' ∧ c'.Ready ids now k ∧
      c'.cfg = c.cfg := by
  unfold poolSwapCached at hv
  unpack at hv
  obtain ⟨p, hp, q, out, hs, rfl, rfl⟩ := hv
  obtain ⟨p', hp', hA⟩ := h.pools id p hp
  have hm := List.mem_of_getElem? hp'
  obtain ⟨⟨q', _⟩, hs', hA', e⟩ := Pool.swap_run hA (hr.sound _ hm) (hr.coarse id hid p' hp')
    (fees_quote h.cfg hf) hg ti a tout m _ _ hs
  simp only at e hA'
  subst e
  rw [hA.env, ← h.cfg] at hs'
  obtain ⟨tw, hh⟩ := hr.hook_run hid
  obtain ⟨hsh, -, -, m1, m2, -⟩ := Pool.swap_shape hs'
  rw [← Pool.tokens_of_shape hsh] at m1 m2
  have hvol : ∀ i, c.volume id i = (c.volumesOf id p').getD i (0, 0) := fun i => by
    simp only [volume, hp']
  obtain ⟨c1, h1⟩ := recordVolume_run (c := { c with twaps := tw }) (id := id) (a := a) (out := out) m1 m2
    (by rw [Pool.tokens_of_shape hsh]; exact hr.aligned id p' hp')
    (fun i => by have := hr.room id hid i; rw [hvol] at this; omega)
    (fun i => by have := hr.room id hid i; rw [hvol] at this; omega)
  obtain ⟨vs, rfl⟩ := recordVolume_ok h1
  have key : c.poolSwap now r' id ti a tout m =
      .ok (({ c with twaps := tw, volumes := vs } : Contract).setPool id q', out) := by
    unfold poolSwap
    rw [hh, ok_bind]
    have e1 : ({ c with twaps := tw } : Contract).pool id = .ok p' := pool_ok.2 hp'
    rw [e1, ok_bind]
    have e2 : p'.swap ti a tout m (({ c with twaps := tw } : Contract).fees r')
      (({ c with twaps := tw } : Contract).cfg.env now p') false = .ok (q', out) := hs'
    rw [e2, ok_bind]
    have e3 : ({ c with twaps := tw } : Contract).recordVolume id q' ti tout a out
      (({ c with twaps := tw } : Contract).volumesOf id p') = .ok _ := h1
    simp only
    rw [e3, ok_bind]
  refine ⟨_, key, h.set hp' hA' rfl rfl, ?_, rfl⟩
  exact hr.step (s := ⟨id, ti, a, tout, out⟩) (.inl ⟨m, key⟩) (le_of_lt ha) (le_of_lt hb)

theorem poolSwapByOutput_run {ids : List Nat} {now k : Nat} {c0 c : Contract} {pc : PoolCache}
    (h : c0.Shows pc c) (hr : c.Ready ids now (k + 1)) {r r' : Option (AccountId × Nat)}
    (hf : r = r' ∨ r = none) (hg : (c.fees r').Fair) {id : Nat} (hid : id ∈ ids) {ti : AccountId}
    {a : Nat} {tout : AccountId} {m : Option Nat} {out : Nat} {pc' : PoolCache} (hb : out < 2 ^ 128)
    (hv : c0.poolSwapByOutputCached r pc id ti out tout m = .ok (pc', a)) :
    ∃ c', c.poolSwapByOutput now r' id ti out tout m = .ok (c', a) ∧ c0.Shows pc' c' ∧
      c'.Ready ids now k ∧ c'.cfg = c.cfg ∧ a < 2 ^ 128 := by
  unfold poolSwapByOutputCached at hv
  unpack at hv
  obtain ⟨p, hp, q, a, hs, rfl, rfl⟩ := hv
  obtain ⟨p', hp', hA⟩ := h.pools id p hp
  have hm := List.mem_of_getElem? hp'
  obtain ⟨⟨q', _⟩, hs', hA', e⟩ := Pool.swapByOutput_run hA (hr.sound _ hm)
    (fees_quote h.cfg hf) hg ti out tout m _ hs
  simp only at e hA'
  subst e
  obtain ⟨tw, hh⟩ := hr.hook_run hid
  obtain ⟨hsh, -, -, m1, m2, -⟩ := Pool.swapByOutput_shape hs'
  have ha := Pool.swapByOutput_fits hs'
  rw [← Pool.tokens_of_shape hsh] at m1 m2
  have hvol : ∀ i, c.volume id i = (c.volumesOf id p').getD i (0, 0) := fun i => by
    simp only [volume, hp']
  obtain ⟨c1, h1⟩ := recordVolume_run (c := { c with twaps := tw }) (id := id) (a := a) (out := out) m1 m2
    (by rw [Pool.tokens_of_shape hsh]; exact hr.aligned id p' hp')
    (fun i => by have := hr.room id hid i; rw [hvol] at this; omega)
    (fun i => by have := hr.room id hid i; rw [hvol] at this; omega)
  obtain ⟨vs, rfl⟩ := recordVolume_ok h1
  have key : c.poolSwapByOutput now r' id ti out tout m =
      .ok (({ c with twaps := tw, volumes := vs } : Contract).setPool id q', a) := by
    unfold poolSwapByOutput
    rw [hh, ok_bind]
    have e1 : ({ c with twaps := tw } : Contract).pool id = .ok p' := pool_ok.2 hp'
    rw [e1, ok_bind]
    have e2 : p'.swapByOutput ti out tout m (({ c with twaps := tw } : Contract).fees r') false =
      .ok (q', a) := hs'
    rw [e2, ok_bind]
    have e3 : ({ c with twaps := tw } : Contract).recordVolume id q' ti tout a out
      (({ c with twaps := tw } : Contract).volumesOf id p') = .ok _ := h1
    simp only
    rw [e3, ok_bind]
  refine ⟨_, key, h.set hp' hA' rfl rfl, ?_, rfl, ha⟩
  exact hr.step (s := ⟨id, ti, a, tout, out⟩) (.inr ⟨m, key⟩) (le_of_lt ha) (le_of_lt hb)

end Contract

/-! ### Additions of liquidity -/

theorem SimplePool.add_run {p p' : SimplePool} (hs : p.Sound) {v a : AccountId} {am used : List Nat}
    {n : Nat} (h : p.addLiquidity v am true = .ok (p', used, n)) :
    ∃ q, p.addLiquidity a am false = .ok (q, used, n) := by
  unfold addLiquidity at h ⊢
  split at h
  · unpack at h
    obtain ⟨p1, b0, b1, m, h1, p2, h2, h3, -, rfl, rfl⟩ := h
    have e : p1.supply = p.supply ∧ p1.shares = p.shares := by
      split at h1
      · unpack at h1
        obtain ⟨_, -, _, -, _, -, -, _, -, -, -, rfl, -⟩ := h1
        exact ⟨rfl, rfl⟩
      · unpack at h1
        obtain ⟨-, -, -, -, rfl, -⟩ := h1
        exact ⟨rfl, rfl⟩
    obtain ⟨-, hb⟩ := mintShares_ok h2
    obtain ⟨sh, h2', -, -⟩ := mintShares_run (q := p1) (a := a) (s := m)
      (by rw [e.1, e.2]; exact hs.sum) hb
    simp only
    rw [h1, ok_bind]
    simp only
    rw [h2', ok_bind, assertE_true h3, ok_bind]
    exact ⟨_, rfl⟩
  · cases h

theorem CurvePool.add_run {p p' : CurvePool} (hs : p.Sound) {v a : AccountId} {am : List Nat}
    {m n : Nat} {f : AdminFees} {env : CurveEnv} (hf : f.referral = none)
    (h : p.addLiquidity v am 0 f env true = .ok (p', n)) (hm : m ≤ n) :
    ∃ q, p.addLiquidity a am m f env false = .ok (q, n) := by
  unfold addLiquidity at h ⊢
  unpack at h
  obtain ⟨h1, s, part, h2, -, cs, h3, p1, h4, p2, h5, -, rfl⟩ := h
  obtain ⟨rfl, hb⟩ := mintShares_ok h4
  simp only at hb
  obtain ⟨sh, h4', hsum, -⟩ := mintShares_run (q := { p with cAmts := cs }) (a := a) (s := s) hs.sum hb
  rw [assertE_true h1, ok_bind, h2, ok_bind]
  simp only
  rw [assertE_true hm, ok_bind, h3, ok_bind, h4', ok_bind]
  suffices hk : ∃ q, ({ p with cAmts := cs, supply := p.supply + s, shares := sh } : CurvePool).mintFeePart
      part f false = .ok q by
    obtain ⟨q, hk⟩ := hk
    rw [hk]
    exact ⟨_, rfl⟩
  unfold mintFeePart at h5 ⊢
  by_cases hp : part > 0
  · rw [if_pos hp] at h5 ⊢
    rw [hf] at h5 ⊢
    unpack at h5
    obtain ⟨adm, h6, h5⟩ := h5
    simp only [Nat.lt_irrefl, false_and, if_false] at h5
    obtain ⟨p3, h7, -, h8⟩ := h5
    obtain ⟨rfl, -⟩ := mintShares_ok h7
    obtain ⟨-, hb2⟩ := mintShares_ok h8
    simp only [Nat.add_zero, Nat.sub_zero] at hb2
    obtain ⟨sh2, h9, -, -⟩ := mintShares_run
      (q := { p with cAmts := cs, supply := p.supply + s, shares := sh }) (a := f.exchangeId)
      (s := adm) hsum hb2
    rw [h6, ok_bind]
    simp only [ok_bind, gt_iff_lt, Nat.lt_irrefl, false_and, if_false]
    have h0 : ({ p with cAmts := cs, supply := p.supply + s, shares := sh } : CurvePool).mintShares
        f.exchangeId 0 false = .ok { p with cAmts := cs, supply := p.supply + s, shares := sh } := rfl
    rw [h0, ok_bind, subW_ok.2 ⟨Nat.zero_le _, rfl⟩, ok_bind, Nat.sub_zero, h9]
    exact ⟨_, rfl⟩
  · rw [if_neg hp]
    exact ⟨_, rfl⟩

/-! ### Accounts -/

theorem Account.withdraw_run {acc : Account} {t : AccountId} {n : Nat} (hle : n ≤ acc.bal t) :
    ∃ acc', acc.withdraw t n = .ok acc' ∧ acc'.recordBytes ≤ acc.recordBytes + 148 := by
  unfold Account.withdraw
  by_cases h0 : n > 0
  · rw [if_pos h0]
    cases hs : acc.tokens.get? t with
    | none => rw [Account.bal_def, hs] at hle; simp at hle; omega
    | some s =>
      have : n ≤ s.amt := by rw [Account.bal_def, hs] at hle; exact hle
      rw [expectE_ok.2 rfl, ok_bind, (assertE_ok (u := ())).2 this, ok_bind]
      exact ⟨_, rfl, Account.recordBytes_insert _ _ _⟩
  · rw [if_neg h0]
    exact ⟨_, rfl, by omega⟩

theorem Account.withdrawAll_run : ∀ {ts : List AccountId} {ns : List Nat} {acc : Account},
    ns.length = ts.length → (∀ t ∈ ts, flow ts ns t ≤ acc.bal t) →
    ∃ acc', acc.withdrawAll ts ns = .ok acc' ∧ acc'.recordBytes ≤ acc.recordBytes + 148 * ts.length
  | [], _, acc, _, _ => ⟨acc, rfl, by simp⟩
  | _ :: _, [], _, hl, _ => by simp at hl
  | t :: ts, n :: ns, acc, hl, hf => by
    have ht := hf t List.mem_cons_self
    simp only [flow, if_pos] at ht
    obtain ⟨b, hb, hr⟩ := withdraw_run (acc := acc) (t := t) (n := n) (by omega)
    obtain ⟨-, -, h2, -⟩ := withdraw_ok hb
    obtain ⟨b', hb', hr'⟩ := withdrawAll_run (ts := ts) (ns := ns) (acc := b) (by simpa using hl) (by
      intro u hu
      have := hf u (List.mem_cons_of_mem _ hu)
      simp only [flow] at this
      have := h2 u
      omega)
    refine ⟨b', ?_, ?_⟩
    · unfold withdrawAll
      rw [hb, ok_bind, hb']
    · rw [List.length_cons]; omega

namespace TokenCache.Covers

theorem withdraw_run {tc tc' : TokenCache} {acc : Account} (h : tc.Covers acc) {t : AccountId} {n : Nat}
    (hv : tc.sub t n = .ok tc') : ∃ acc', acc.withdraw t n = .ok acc' ∧ tc'.Covers acc' ∧
      acc'.recordBytes ≤ acc.recordBytes + 148 ∧ acc'.near = acc.near ∧ n < 2 ^ 128 := by
  have hb := TokenCache.sub_ok hv t
  rw [if_pos rfl] at hb
  have hle : n ≤ acc.bal t := by rw [← (h t).1]; omega
  have hn : n < 2 ^ 128 := lt_of_le_of_lt hle (h t).2
  obtain ⟨acc', hw, hr⟩ := Account.withdraw_run hle
  obtain ⟨k, hk, hc⟩ := h.withdraw t n _ hw
  rw [hv] at hk; cases hk
  exact ⟨acc', hw, hc, hr, (Account.withdraw_ok hw).1.near, hn⟩

theorem deposit_run {tc tc' : TokenCache} {acc : Account} (h : tc.Covers acc) {t : AccountId} {n : Nat}
    (hv : tc.add t n = .ok tc') : ∃ acc', acc.deposit t n = .ok acc' ∧ tc'.Covers acc' ∧
      acc'.recordBytes ≤ acc.recordBytes + 148 ∧ acc'.near = acc.near := by
  have hb : tc.getD t 0 + n < 2 ^ 128 := by
    unfold TokenCache.add at hv
    unpack at hv
    exact hv.1
  rw [(h t).1] at hb
  obtain ⟨acc', hw, hr⟩ := Account.deposit_run hb
  obtain ⟨k, hk, hc⟩ := h.deposit t n _ hw
  rw [hv] at hk; cases hk
  exact ⟨acc', hw, hc, hr, (Account.deposit_ok hw).1.near⟩

end TokenCache.Covers

theorem TokenCache.add_fits {tc tc' : TokenCache} {t : AccountId} {n : Nat} (hv : tc.add t n = .ok tc') :
    n < 2 ^ 128 := by
  unfold TokenCache.add at hv
  unpack at hv
  have := hv.1
  omega

/-! ### Lists of swaps -/

namespace Contract

theorem runSwaps_run (c0 : Contract) {ids : List Nat} {now : Nat} {r r' : Option (AccountId × Nat)}
    (hf : r = r' ∨ r = none) (l : List SwapAction) : ∀ {c : Contract} {pc pc' : PoolCache}
    {tc tc' : TokenCache} {acc : Account} {prev res : ActionResult}, c0.Shows pc c → tc.Covers acc →
    c.Ready ids now l.length → (∀ s ∈ l, s.pool ∈ ids) → (c.fees r').Fair →
    c0.runSwapsCached now r pc tc prev l = .ok (pc', tc', res) →
    ∃ c' acc', c.runSwaps now r' acc prev l = .ok (c', acc', res) ∧ tc'.Covers acc' ∧
      acc'.recordBytes ≤ acc.recordBytes + 148 * (2 * l.length) ∧ acc'.near = acc.near ∧
      c0.Shows pc' c' ∧ c'.Ready ids now 0 := by
  induction l with
  | nil =>
    intro c pc pc' tc tc' acc prev res h ht hr _ _ hv
    cases hv
    exact ⟨c, acc, rfl, ht, by simp, rfl, h, hr⟩
  | cons s l ih =>
    intro c pc pc' tc tc' acc prev res h ht hr hid hg hv
    have hv' : (do
      let a ← amountOr s.amtIn prev
      let tc ← TokenCache.sub tc s.tokIn a
      let (pc, out) ← c0.poolSwapCached now r pc s.pool s.tokIn a s.tokOut s.minOut
      let tc ← TokenCache.add tc s.tokOut out
      c0.runSwapsCached now r pc tc (some out) l : R _) = .ok (pc', tc', res) := hv
    unpack at hv'
    obtain ⟨a, h1, tc1, h2, pc1, out, h3, tc2, h4, h5⟩ := hv'
    obtain ⟨acc1, g2, ht1, b1, n1, ha⟩ := ht.withdraw_run h2
    obtain ⟨c1, g3, hs1, hr1, e1⟩ := poolSwap_run h hr hf hg (hid s List.mem_cons_self) ha
      (TokenCache.add_fits h4) h3
    obtain ⟨acc2, g4, ht2, b2, n2⟩ := ht1.deposit_run h4
    obtain ⟨c', acc', g5, ht', b3, n3, hend⟩ := ih hs1 ht2 hr1
      (fun s hs => hid s (List.mem_cons_of_mem _ hs)) hg h5
    refine ⟨c', acc', ?_, ht', ?_, by rw [n3, n2, n1], hend⟩
    · show (do
        let a ← amountOr s.amtIn prev
        let acc ← acc.withdraw s.tokIn a
        let (c, out) ← c.poolSwap now r' s.pool s.tokIn a s.tokOut s.minOut
        let acc ← acc.deposit s.tokOut out
        c.runSwaps now r' acc (some out) l : R _) = _
      rw [h1, ok_bind, g2, ok_bind, g3, ok_bind]
      simp only
      rw [g4, ok_bind, g5]
    · rw [List.length_cons]; omega

theorem finalize_run {tc tc' : TokenCache} {acc : Account} (h : tc.Covers acc) {t : Option AccountId}
    {res : ActionResult} (hv : finalizeCached tc t res = .ok tc') :
    ∃ acc', finalize acc t res = .ok acc' ∧ tc'.Covers acc' ∧
      acc'.recordBytes ≤ acc.recordBytes + 148 * (if t.isSome then 1 else 0) ∧ acc'.near = acc.near := by
  cases t with
  | none => cases hv; exact ⟨acc, rfl, h, by simp, rfl⟩
  | some t =>
    simp only [finalizeCached] at hv
    unpack at hv
    obtain ⟨a, h1, h2⟩ := hv
    obtain ⟨acc', g1, g2, g3, g4, -⟩ := h.withdraw_run h2
    refine ⟨acc', ?_, g2, by simpa using g3, g4⟩
    simp only [finalize]
    rw [expectE_ok.2 h1, ok_bind, g1]

theorem startOut_run {tc tc' : TokenCache} {acc : Account} (h : tc.Covers acc) {t : Option AccountId}
    {res : ActionResult} {s : OutAction} (hb : ∀ n, res = some n → n < 2 ^ 128)
    (hv : startOutCached tc t res s = .ok tc') :
    ∃ acc', startOut acc t res s = .ok acc' ∧ tc'.Covers acc' ∧
      acc'.recordBytes ≤ acc.recordBytes + 148 * ((if t.isSome then 1 else 0) + 1) ∧
      acc'.near = acc.near ∧ ∀ n, amountOr s.amtOut res = .ok n → n < 2 ^ 128 := by
  unfold startOutCached at hv
  unfold startOut
  cases hs : s.amtOut with
  | some n =>
    rw [hs] at hv
    simp only at hv
    unpack at hv
    obtain ⟨tc1, h1, h2⟩ := hv
    obtain ⟨acc1, g1, ht1, b1, n1⟩ := finalize_run h h1
    obtain ⟨acc2, g2, ht2, b2, n2⟩ := ht1.deposit_run h2
    refine ⟨acc2, ?_, ht2, by omega, by rw [n2, n1], fun m hm => ?_⟩
    · simp only
      rw [g1, ok_bind, g2]
    · cases hm
      exact TokenCache.add_fits h2
  | none =>
    rw [hs] at hv
    simp only at hv
    unpack at hv
    obtain ⟨u, h1, h2, rfl⟩ := hv
    refine ⟨acc, ?_, h, by omega, rfl, fun m hm => ?_⟩
    · simp only
      rw [expectE_ok.2 h1, ok_bind, (assertE_ok (u := ())).2 h2, ok_bind]
    · exact hb m (expectE_ok.1 hm)

theorem runOuts_run (c0 : Contract) {ids : List Nat} {now : Nat} {r r' : Option (AccountId × Nat)}
    (hf : r = r' ∨ r = none) (l : List OutAction) : ∀ {c : Contract} {pc pc' : PoolCache}
    {tc tc' : TokenCache} {acc : Account} {t : Option AccountId} {prev res : ActionResult},
    c0.Shows pc c → tc.Covers acc → c.Ready ids now l.length → (∀ s ∈ l, s.pool ∈ ids) →
    (c.fees r').Fair → (∀ n, prev = some n → n < 2 ^ 128) →
    c0.runOutsCached r pc tc t prev l = .ok (pc', tc', res) →
    ∃ c' acc', c.runOuts now r' acc t prev l = .ok (c', acc', res) ∧ tc'.Covers acc' ∧
      acc'.recordBytes ≤ acc.recordBytes + 148 * (2 * l.length + if t.isSome then 1 else 0) ∧
      acc'.near = acc.near ∧ c0.Shows pc' c' ∧ c'.Ready ids now 0 := by
  induction l with
  | nil =>
    intro c pc pc' tc tc' acc t prev res h ht hr _ _ _ hv
    simp only [runOutsCached] at hv
    unpack at hv
    obtain ⟨tc1, h1, rfl, rfl, rfl⟩ := hv
    obtain ⟨acc1, g1, ht1, b1, n1⟩ := finalize_run ht h1
    refine ⟨c, acc1, ?_, ht1, by simpa using b1, n1, h, hr⟩
    simp only [runOuts]
    rw [g1, ok_bind]
  | cons s l ih =>
    intro c pc pc' tc tc' acc t prev res h ht hr hid hg hb hv
    have hv' : (do
      let tc ← startOutCached tc t prev s
      let out ← amountOr s.amtOut prev
      let (pc, a) ← c0.poolSwapByOutputCached r pc s.pool s.tokIn out s.tokOut s.maxIn
      c0.runOutsCached r pc tc (some s.tokIn) (some a) l : R _) = .ok (pc', tc', res) := hv
    unpack at hv'
    obtain ⟨tc1, h1, out, h2, pc1, a, h3, h4⟩ := hv'
    obtain ⟨acc1, g1, ht1, b1, n1, hout⟩ := startOut_run ht hb h1
    obtain ⟨c1, g3, hs1, hr1, e1, ha⟩ := poolSwapByOutput_run h hr hf hg (hid s List.mem_cons_self)
      (hout out h2) h3
    obtain ⟨c', acc', g5, ht', b3, n3, hend⟩ := ih hs1 ht1 hr1
      (fun s hs => hid s (List.mem_cons_of_mem _ hs)) hg (by rintro n ⟨⟩; exact ha) h4
    refine ⟨c', acc', ?_, ht', ?_, by rw [n3, n1], hend⟩
    · show (do
        let acc ← startOut acc t prev s
        let out ← amountOr s.amtOut prev
        let (c, a) ← c.poolSwapByOutput now r' s.pool s.tokIn out s.tokOut s.maxIn
        c.runOuts now r' acc (some s.tokIn) (some a) l : R _) = _
      rw [g1, ok_bind, h2, ok_bind, g3, ok_bind]
      simp only
      rw [g5]
    · simp only [Option.isSome_some, if_true] at b3
      rw [List.length_cons]; omega

theorem Ready.weaken {ids : List Nat} {now k m : Nat} {c : Contract} (h : c.Ready ids now k) (hm : m ≤ k) :
    c.Ready ids now m := by
  refine ⟨h.sound, h.coarse, h.hook, h.aligned, fun id hid i => ?_, h.few⟩
  have h1 := h.room id hid i
  have h2 : m * 2 ^ 128 ≤ k * 2 ^ 128 := Nat.mul_le_mul_right _ hm
  exact ⟨le_trans (Nat.add_le_add_left h2 _) h1.1, le_trans (Nat.add_le_add_left h2 _) h1.2⟩

theorem runActions_run {c : Contract} {now : Nat} {r r' : Option (AccountId × Nat)}
    (hf : r = r' ∨ r = none) {l : List Action} {pc' : PoolCache} {tc tc' : TokenCache} {acc : Account}
    {prev res : ActionResult} (ht : tc.Covers acc) (hr : c.Ready (l.map Action.pool) now l.length)
    (hg : (c.fees r').Fair) (hb : ∀ n, prev = some n → n < 2 ^ 128)
    (hv : c.runActionsCached now r FMap.empty tc prev l = .ok (pc', tc', res)) :
    ∃ c' acc', c.runActions now r' acc prev l = .ok (c', acc', res) ∧ tc'.Covers acc' ∧
      acc'.recordBytes ≤ acc.recordBytes + 148 * (2 * l.length) ∧ acc'.near = acc.near ∧
      c.Shows pc' c' ∧ ∀ p ∈ c'.pools, p.Sound := by
  unfold runActionsCached at hv
  unfold runActions
  unpack at hv
  obtain ⟨h1, _, h2, hv⟩ := hv
  rw [(assertE_ok (u := ())).2 h1, ok_bind, h2, ok_bind]
  cases l with
  | nil => cases hv
  | cons a l =>
    cases a with
    | swap s =>
      simp only at hv ⊢
      have hle := List.length_filterMap_le Action.asSwap (.swap s :: l)
      obtain ⟨c', acc', g1, g2, g3, g4, g5, g6⟩ := runSwaps_run c hf _ (.start c) ht (hr.weaken hle) (by
        intro s' hs'
        obtain ⟨b, hb, e⟩ := List.mem_filterMap.1 hs'
        refine List.mem_map.2 ⟨b, hb, ?_⟩
        cases b with
        | swap b => cases e; rfl
        | byOutput b => cases e) hg hv
      exact ⟨c', acc', g1, g2, by omega, g4, g5, g6.sound⟩
    | byOutput s =>
      simp only at hv ⊢
      have hle := List.length_filterMap_le Action.asOut (.byOutput s :: l)
      obtain ⟨c', acc', g1, g2, g3, g4, g5, g6⟩ := runOuts_run c hf _ (.start c) ht (hr.weaken hle) (by
        intro s' hs'
        obtain ⟨b, hb, e⟩ := List.mem_filterMap.1 hs'
        refine List.mem_map.2 ⟨b, hb, ?_⟩
        cases b with
        | byOutput b => cases e; rfl
        | swap b => cases e) hg hb hv
      simp only [Option.isSome_none, Bool.false_eq_true, if_false] at g3
      exact ⟨c', acc', g1, g2, by omega, g4, g5, g6.sound⟩

end Contract
end Verif

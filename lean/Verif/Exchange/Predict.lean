import Verif.Exchange.PoolLemmas
import Verif.Exchange.SwapLemmas

/-
View runs of the pool operations: they do what the stored runs do, except that they do not credit
the minted shares.
-/

namespace Verif

/-! ### Simulation -/

/-- Whenever `y` succeeds, so does `x`, with a result related by `S`. -/
def Sim {α β : Type} (S : α → β → Prop) (x : R α) (y : R β) : Prop :=
  ∀ b, y = .ok b → ∃ a, x = .ok a ∧ S a b

namespace Sim

theorem ok {α β : Type} {S : α → β → Prop} {a : α} {b : β} (h : S a b) : Sim S (.ok a) (.ok b) := by
  intro b' hb; cases hb; exact ⟨a, rfl, h⟩

theorem bind {α β α' β' : Type} {S : α → β → Prop} {T : α' → β' → Prop} {x : R α} {y : R β}
    {f : α → R α'} {g : β → R β'} (h : Sim S x y) (k : ∀ a b, S a b → Sim T (f a) (g b)) :
    Sim T (x >>= f) (y >>= g) := by
  intro b hb
  obtain ⟨b0, h1, h2⟩ := bind_ok.1 hb
  obtain ⟨a0, e1, hs⟩ := h b0 h1
  obtain ⟨a, e2, ht⟩ := k a0 b0 hs b h2
  exact ⟨a, bind_ok.2 ⟨a0, e1, e2⟩, ht⟩

/-- Both do the same next. -/
theorem same {α α' β' : Type} {T : α' → β' → Prop} {y : R α} {f : α → R α'} {g : α → R β'}
    (k : ∀ a, y = .ok a → Sim T (f a) (g a)) : Sim T (y >>= f) (y >>= g) := by
  intro b hb
  obtain ⟨a0, h1, h2⟩ := bind_ok.1 hb
  obtain ⟨a, e2, ht⟩ := k a0 h1 b h2
  exact ⟨a, bind_ok.2 ⟨a0, h1, e2⟩, ht⟩

/-- Only the second does something next. -/
theorem skip {α α' β' : Type} {T : α' → β' → Prop} {x : R α'} {y : R α} {g : α → R β'}
    (k : ∀ a, y = .ok a → Sim T x (g a)) : Sim T x (y >>= g) := by
  intro b hb
  obtain ⟨a0, h1, h2⟩ := bind_ok.1 hb
  exact k a0 h1 b h2

theorem error {α β : Type} {S : α → β → Prop} {x : R α} {e : Err} : Sim S x (.error e : R β) :=
  fun _ h => by cases h

/-- The first checks less. -/
theorem check {α β : Type} {T : α → β → Prop} {p q : Prop} [Decidable p] [Decidable q] {e e' : Err}
    {f : Unit → R α} {g : Unit → R β} (h : q → p) (k : q → Sim T (f ()) (g ())) :
    Sim T (assertE p e >>= f) (assertE q e' >>= g) := by
  intro b hb
  obtain ⟨_, h1, h2⟩ := bind_ok.1 hb
  have hq := (assertE_ok (u := ())).1 h1
  obtain ⟨a, e2, ht⟩ := k hq b h2
  exact ⟨a, bind_ok.2 ⟨(), (assertE_ok (u := ())).2 (h hq), e2⟩, ht⟩

theorem mono {α β : Type} {S T : α → β → Prop} {x : R α} {y : R β} (h : Sim S x y)
    (k : ∀ a b, S a b → T a b) : Sim T x y := by
  intro b hb
  obtain ⟨a, h1, h2⟩ := h b hb
  exact ⟨a, h1, k a b h2⟩

end Sim

/-- The view's fees: the same, possibly without the referral. -/
structure AdminFees.Quote (f g : AdminFees) : Prop where
  bps : f.adminFeeBps = g.adminFeeBps
  ref : f.referral = g.referral ∨ f.referral = none

theorem FMap.contains_insert {K V : Type} [DecidableEq K] (m : FMap K V) (k : K) (v : V) (a : K)
    (h : m.contains a = true) : (m.insert k v).contains a = true := by
  unfold FMap.contains at *
  rw [FMap.get?_insert]
  by_cases hk : a = k
  · rw [if_pos hk]; rfl
  · rw [if_neg hk]; exact h

/-! ### Constant-product pools -/

namespace SimplePool

/-- `p` is the view's copy of `q`: the same but for the shares, of which it knows fewer holders. -/
def Alike (p q : SimplePool) : Prop :=
  ∃ sh : FMap AccountId Nat, p = { q with shares := sh } ∧
    ∀ a, sh.contains a = true → q.shares.contains a = true

theorem Alike.rfl' (p : SimplePool) : p.Alike p := ⟨p.shares, rfl, fun _ h => h⟩

theorem mintShares_view {p : SimplePool} {a : AccountId} {s : Nat} (h : s = 0 ∨ p.supply + s < 2 ^ 128) :
    p.mintShares a s true = .ok { p with supply := p.supply + s } := by
  unfold mintShares
  by_cases hs : s = 0
  · subst hs; rfl
  · have h := h.resolve_left hs
    rw [if_neg hs, assertE_true h]
    rfl

theorem mintShares_sim {p q : SimplePool} (h : p.Alike q) (a b : AccountId) (s : Nat) :
    Sim Alike (p.mintShares a s true) (q.mintShares b s false) := by
  intro q' hq
  obtain ⟨rfl, hb⟩ := mintShares_ok hq
  obtain ⟨sh, rfl, hk⟩ := h
  refine ⟨_, mintShares_view hb, sh, rfl, fun x hx => ?_⟩
  simp only
  split
  · exact hk x hx
  · exact FMap.contains_insert _ _ _ _ (hk x hx)

/-- The tail of `update_pool_and_distribute_fee`: minting the protocol's part. -/
def distribute (p : SimplePool) (fees : AdminFees) (adminShares : Nat) (isView : Bool) :
    R SimplePool := do
  let rs ← p.referralShare fees adminShares
  let p ← (match fees.referral with
    | some (rid, _) => if rs > 0 then p.mintShares rid rs isView else .ok p
    | none => .ok p : R SimplePool)
  let ex ← subW adminShares rs
  p.mintShares fees.exchangeId ex isView

theorem distribute_stored {q q' : SimplePool} {fees : AdminFees} {n : Nat}
    (h : q.distribute fees n false = .ok q') :
    (n = 0 ∨ q.supply + n < 2 ^ 128) ∧ ∃ sh, q' = { q with supply := q.supply + n, shares := sh } ∧
      ∀ a, q.shares.contains a = true → sh.contains a = true := by
  unfold distribute at h
  unpack at h
  obtain ⟨rs, hrs, q1, h1, hle, h2⟩ := h
  have k1 : (q1 = { q with supply := q.supply + rs, shares := q1.shares } ∧
      ∀ a, q.shares.contains a = true → q1.shares.contains a = true) ∧
      (rs = 0 ∨ q.supply + rs < 2 ^ 128) := by
    unfold referralShare at hrs
    split at h1
    · rename_i rid rfee hr
      split at h1
      · obtain ⟨rfl, hb⟩ := mintShares_ok h1
        refine ⟨⟨rfl, fun a ha => ?_⟩, hb⟩
        simp only
        split
        · exact ha
        · exact FMap.contains_insert _ _ _ _ ha
      · rename_i hz
        cases h1
        have : rs = 0 := by omega
        subst this
        exact ⟨⟨rfl, fun _ h => h⟩, .inl rfl⟩
    · rename_i hr
      rw [hr] at hrs
      cases hrs; cases h1
      exact ⟨⟨rfl, fun _ h => h⟩, .inl rfl⟩
  obtain ⟨k1, hb1⟩ := k1
  obtain ⟨rfl, hb⟩ := mintShares_ok h2
  have hs : q1.supply = q.supply + rs := by rw [k1.1]
  refine ⟨by omega, if false = true ∨ n - rs = 0 then q1.shares
    else q1.shares.insert fees.exchangeId (q1.shares.getD fees.exchangeId 0 + (n - rs)), ?_, ?_⟩
  · have e : q1.supply + (n - rs) = q.supply + n := by omega
    rw [e, k1.1]
  · intro a ha
    split
    · exact k1.2 a ha
    · exact FMap.contains_insert _ _ _ _ (k1.2 a ha)

theorem distribute_view {q : SimplePool} {sh : FMap AccountId Nat} {f : AdminFees} {n rs : Nat}
    (hb : n = 0 ∨ q.supply + n < 2 ^ 128)
    (hr : ({ q with shares := sh } : SimplePool).referralShare f n = .ok rs) (hle : rs ≤ n) :
    ({ q with shares := sh } : SimplePool).distribute f n true =
      .ok { q with supply := q.supply + n, shares := sh } := by
  unfold distribute
  rw [hr, ok_bind]
  have hrs : f.referral = none → rs = 0 := by
    intro h
    unfold referralShare at hr
    rw [h] at hr
    cases hr; rfl
  have e : (match f.referral with
      | some (rid, _) => if rs > 0 then ({ q with shares := sh } : SimplePool).mintShares rid rs true
        else .ok { q with shares := sh }
      | none => .ok { q with shares := sh } : R SimplePool) =
      .ok { q with supply := q.supply + rs, shares := sh } := by
    split
    · split
      · rw [mintShares_view]
        simp only; omega
      · have : rs = 0 := by omega
        subst this; rfl
    · rw [hrs ‹_›]; rfl
  rw [e, ok_bind, (subW_ok).2 ⟨hle, rfl⟩, ok_bind, mintShares_view (by simp only; omega)]
  simp only [Except.ok.injEq, SimplePool.mk.injEq, true_and]
  omega

theorem distribute_sim {p q : SimplePool} (h : p.Alike q) {f g : AdminFees} (hf : f.Quote g) (n : Nat) :
    Sim Alike (p.distribute f n true) (q.distribute g n false) := by
  intro q' hq
  obtain ⟨sh, rfl, hk⟩ := h
  have hq0 := hq
  obtain ⟨hb, sh', rfl, hk'⟩ := distribute_stored hq
  suffices ∃ rs, ({ q with shares := sh } : SimplePool).referralShare f n = .ok rs ∧ rs ≤ n by
    obtain ⟨rs, hr, hle⟩ := this
    exact ⟨_, distribute_view hb hr hle, sh, rfl, fun a ha => hk' a (hk a ha)⟩
  unfold distribute at hq0
  unpack at hq0
  obtain ⟨rs, hrs, -, -, hle, -⟩ := hq0
  unfold referralShare at hrs ⊢
  rcases hf.ref with e | e
  · rw [e]
    split
    · rename_i rid rfee hr
      rw [hr] at hrs
      simp only at hrs ⊢
      by_cases hc : sh.contains rid = true
      · rw [if_pos (hk _ hc)] at hrs
        rw [if_pos hc]
        exact ⟨rs, hrs, hle⟩
      · rw [if_neg hc]; exact ⟨0, rfl, Nat.zero_le _⟩
    · exact ⟨0, rfl, Nat.zero_le _⟩
  · rw [e]; exact ⟨0, rfl, Nat.zero_le _⟩

theorem updatePool_sim {p q : SimplePool} (h : p.Alike q) {f g : AdminFees} (hf : f.Quote g)
    (i : Bool) (a : Nat) (o : Bool) (r : Nat) :
    Sim Alike (p.updatePool i a o r f true) (q.updatePool i a o r g false) := by
  obtain ⟨sh, rfl, hk⟩ := h
  unfold updatePool
  rw [hf.bps]
  cases i <;> cases o <;>
  · refine .same fun k0 _ => .same fun prev _ => .same fun ai _ => .same fun ao _ =>
      .same fun k1 _ => .same fun new _ => .same fun _ _ => .same fun num _ => ?_
    split
    · refine .same fun d0 _ => .same fun den _ => .same fun x _ => .same fun n _ => ?_
      refine distribute_sim ?_ hf n
      exact ⟨sh, rfl, hk⟩
    · exact .ok ⟨sh, rfl, hk⟩

theorem swap_sim {p q : SimplePool} (h : p.Alike q) {f g : AdminFees} (hf : f.Quote g)
    (ti : AccountId) (a : Nat) (tout : AccountId) {m m' : Nat} (hm : m ≤ m') :
    Sim (fun r s => r.1.Alike s.1 ∧ r.2 = s.2) (p.swap ti a tout m f true)
      (q.swap ti a tout m' g false) := by
  have h0 := h
  obtain ⟨sh, rfl, hk⟩ := h
  unfold swap
  refine .same fun _ _ => .same fun i _ => .same fun o _ => ?_
  cases i <;> cases o <;>
  · refine .same fun out _ => .check (fun h => Nat.le_trans hm h) fun _ => ?_
    exact .bind (updatePool_sim h0 hf _ _ _ _) fun _ _ h => .ok ⟨h, rfl⟩

theorem swapByOutput_sim {p q : SimplePool} (h : p.Alike q) {f g : AdminFees} (hf : f.Quote g)
    (ti : AccountId) (out : Nat) (tout : AccountId) {m m' : Option Nat} (hm : m = m' ∨ m = none) :
    Sim (fun r s => r.1.Alike s.1 ∧ r.2 = s.2) (p.swapByOutput ti out tout m f true)
      (q.swapByOutput ti out tout m' g false) := by
  have h0 := h
  obtain ⟨sh, rfl, hk⟩ := h
  unfold swapByOutput
  refine .same fun _ _ => .same fun i _ => .same fun o _ => ?_
  cases i <;> cases o <;>
  · refine .same fun inn _ => .check (fun h => ?_) fun _ => ?_
    · rcases hm with rfl | rfl
      · exact h
      · rfl
    · exact .bind (updatePool_sim h0 hf _ _ _ _) fun _ _ h => .ok ⟨h, rfl⟩

theorem addLiquidity_sim {p q : SimplePool} (h : p.Alike q) (a b : AccountId) (am : List Nat) :
    Sim (fun r s => r.1.Alike s.1 ∧ r.2 = s.2) (p.addLiquidity a am true)
      (q.addLiquidity b am false) := by
  obtain ⟨sh, rfl, hk⟩ := h
  unfold addLiquidity
  split
  · refine .bind (S := fun r s => r.1.Alike s.1 ∧ r.2 = s.2) ?_ ?_
    · split
      · refine .same fun _ _ => .same fun _ _ => .same fun _ _ => .same fun _ _ => .same fun _ _ =>
          .same fun _ _ => .same fun _ _ => .ok ⟨⟨sh, rfl, hk⟩, rfl⟩
      · refine .same fun _ _ => .same fun _ _ => .same fun _ _ => .same fun _ _ =>
          .ok ⟨⟨sh, rfl, hk⟩, rfl⟩
    · rintro ⟨p1, x⟩ ⟨q1, y⟩ ⟨h1, h2⟩
      simp only at h1 h2
      subst h2
      refine .bind (mintShares_sim h1 _ _ _) fun p2 q2 h2 => .same fun _ _ => .ok ⟨h2, rfl⟩
  · exact .error

theorem removeLiquidity_sim {p q : SimplePool} (h : p.Alike q) (a b : AccountId) (n : Nat)
    {ms ms' : List Nat} (hl : ms.length = ms'.length) (hz : ∀ m ∈ ms, m = 0) :
    Sim (fun r s => r.1.Alike s.1 ∧ r.2 = s.2) (p.removeLiquidity a n ms true)
      (q.removeLiquidity b n ms' false) := by
  obtain ⟨sh, rfl, hk⟩ := h
  unfold removeLiquidity
  match ms, ms', hl with
  | [], [], _ => exact .error
  | [_], [_], _ => exact .error
  | [m0, m1], [n0, n1], _ =>
    have e0 := hz m0 (by simp)
    have e1 := hz m1 (by simp)
    subst e0 e1
    have pay : ∀ x s m, Sim (fun r s => r = s) (payOut x n s 0) (payOut x n s m) := by
      intro x s m
      unfold payOut
      exact .same fun _ _ => .same fun _ _ => .same fun _ _ => .check (fun _ => Nat.zero_le _)
        fun _ => .same fun _ _ => .ok rfl
    refine .bind (S := Alike) (x := .ok { q with shares := sh }) ?_ ?_
    · refine .skip fun prev hp => .skip fun _ _ => .ok ⟨sh, rfl, fun a ha => ?_⟩
      exact FMap.contains_insert _ _ _ _ (hk a ha)
    · rintro p1 q1 ⟨sh1, rfl, hk1⟩
      refine .bind (pay _ _ _) ?_
      rintro ⟨r0, x0⟩ _ rfl
      refine .bind (pay _ _ _) ?_
      rintro ⟨r1, x1⟩ _ rfl
      exact .same fun _ _ => .ok ⟨⟨sh1, rfl, hk1⟩, rfl⟩
  | _ :: _ :: _ :: _, _ :: _ :: _ :: _, _ => exact .error

end SimplePool

/-! ### Stable-swap pools -/

namespace CurvePool

/-- `p` is the view's copy of `q`: the same but for the shares, of which it knows fewer holders. -/
def Alike (p q : CurvePool) : Prop :=
  ∃ sh : FMap AccountId Nat, p = { q with shares := sh } ∧
    ∀ a, sh.contains a = true → q.shares.contains a = true

theorem Alike.rfl' (p : CurvePool) : p.Alike p := ⟨p.shares, rfl, fun _ h => h⟩

theorem mintShares_stored {p q : CurvePool} {a : AccountId} {s : Nat}
    (h : p.mintShares a s false = .ok q) : (s = 0 ∨ p.supply + s < 2 ^ 128) ∧
      ∃ sh, q = { p with supply := p.supply + s, shares := sh } ∧
        ∀ b, p.shares.contains b = true → sh.contains b = true := by
  unfold mintShares at h
  by_cases hs : s = 0
  · rw [if_pos hs] at h
    cases h; subst hs
    exact ⟨.inl rfl, _, rfl, fun _ h => h⟩
  · rw [if_neg hs] at h
    unpack at h
    simp only [Bool.false_eq_true, if_false] at h
    unpack at h
    obtain ⟨hb, sh, h1, rfl⟩ := h
    refine ⟨.inr hb, sh, rfl, fun b h => ?_⟩
    rw [(addToCollection_ok h1).1]
    exact FMap.contains_insert _ _ _ _ h

theorem mintShares_view {p : CurvePool} {a : AccountId} {s : Nat} (h : s = 0 ∨ p.supply + s < 2 ^ 128) :
    p.mintShares a s true = .ok { p with supply := p.supply + s } := by
  unfold mintShares
  by_cases hs : s = 0
  · subst hs; rfl
  · rw [if_neg hs, addW_ok.2 ⟨h.resolve_left hs, rfl⟩]
    rfl

theorem mintShares_sim {p q : CurvePool} (h : p.Alike q) (a b : AccountId) (s : Nat) :
    Sim Alike (p.mintShares a s true) (q.mintShares b s false) := by
  intro q' hq
  obtain ⟨hb, sh', rfl, hk'⟩ := mintShares_stored hq
  obtain ⟨sh, rfl, hk⟩ := h
  exact ⟨_, mintShares_view hb, sh, rfl, fun x hx => hk' x (hk x hx)⟩

/-- Minting a part to a referral and the rest to the exchange. -/
def mintBoth (p : CurvePool) (a b : AccountId) (part total : Nat) (isView : Bool) : R CurvePool := do
  let p ← p.mintShares a part isView
  let ex ← subW total part
  p.mintShares b ex isView

theorem mintBoth_sim {p q : CurvePool} (h : p.Alike q) (a b a' b' : AccountId) {x y : Nat} (n : Nat)
    (hx : x = y ∨ x = 0) : Sim Alike (p.mintBoth a b x n true) (q.mintBoth a' b' y n false) := by
  intro q' hq
  unfold mintBoth at hq
  unpack at hq
  obtain ⟨q1, h1, hle, h2⟩ := hq
  obtain ⟨b1, sh1, rfl, k1⟩ := mintShares_stored h1
  obtain ⟨b2, sh2, rfl, k2⟩ := mintShares_stored h2
  simp only at b2
  obtain ⟨sh, rfl, hk⟩ := h
  have hxn : x ≤ n := by omega
  refine ⟨{ q with supply := q.supply + n, shares := sh }, ?_, sh, ?_, fun c hc => k2 c (k1 c (hk c hc))⟩
  · unfold mintBoth
    rw [mintShares_view (by simp only; omega), ok_bind, subW_ok.2 ⟨hxn, rfl⟩, ok_bind,
      mintShares_view (by simp only; omega)]
    have e : q.supply + x + (n - x) = q.supply + n := by omega
    simp only [e]
  · have e : q.supply + y + (n - y) = q.supply + n := by omega
    simp only [e]

theorem mintFeePart_sim {p q : CurvePool} (h : p.Alike q) {f g : AdminFees} (hf : f.Quote g) (n : Nat) :
    Sim Alike (p.mintFeePart n f true) (q.mintFeePart n g false) := by
  unfold mintFeePart
  rw [hf.bps]
  split
  · refine .same fun adm _ => ?_
    refine .bind (S := fun r s => (f.referral = g.referral ∧ r.1 = s.1 ∧
      (r.2 = s.2 ∨ r.1 = 0)) ∨ r.1 = 0) ?_ ?_
    · rcases hf.ref with e | e
      · rw [e]
        split
        · exact .same fun _ _ => .ok (.inl ⟨rfl, rfl, .inl rfl⟩)
        · exact .ok (.inr rfl)
      · rw [e]
        intro s hs
        exact ⟨(0, f.exchangeId), rfl, .inr rfl⟩
    · rintro ⟨r, rid⟩ ⟨s, sid⟩ hrs
      refine mintBoth_sim h _ _ _ _ adm ?_
      simp only at hrs ⊢
      obtain ⟨sh, rfl, hk⟩ := h
      simp only
      rcases hrs with ⟨-, rfl, rfl | rfl⟩ | rfl
      · by_cases hr : r > 0
        · by_cases hc : sh.contains rid = false
          · right; rw [if_pos ⟨hr, hc⟩]
          · have := hk rid (by simpa using hc)
            left
            rw [if_neg fun e => hc e.2, if_neg fun e => by rw [this] at e; cases e.2]
        · right
          split <;> omega
      · right; split <;> rfl
      · right; split <;> rfl
  · exact .ok h

theorem addLiquidity_sim {p q : CurvePool} (h : p.Alike q) {f g : AdminFees} (hf : f.Quote g)
    (a b : AccountId) (am : List Nat) {m m' : Nat} (hm : m ≤ m') (env : CurveEnv) :
    Sim (fun r s => r.1.Alike s.1 ∧ r.2 = s.2) (p.addLiquidity a am m f env true)
      (q.addLiquidity b am m' g env false) := by
  obtain ⟨sh, rfl, hk⟩ := h
  unfold addLiquidity
  refine .same fun _ _ => ?_
  have e : ({ q with shares := sh } : CurvePool).calcAdd am f env = q.calcAdd am g env := by
    unfold calcAdd
    rw [hf.bps]
    rfl
  rw [e]
  refine .same fun r _ => ?_
  obtain ⟨s, part⟩ := r
  refine .check (fun h => Nat.le_trans hm h) fun _ => .same fun cs _ => ?_
  have h' : Alike { q with shares := sh, cAmts := cs } { q with cAmts := cs } := ⟨sh, rfl, hk⟩
  refine .bind (mintShares_sim h' a b s) fun p1 q1 h1 => ?_
  exact .bind (mintFeePart_sim h1 hf _) fun _ _ h => .ok ⟨h, rfl⟩

theorem removeLoop_sim (k : CurveKind) (n s : Nat) : ∀ (cs decs : List Nat) {ms ms' : List Nat},
    ms.length = ms'.length → (∀ m ∈ ms, m = 0) →
    Sim (fun r s => r = s) (removeLoop k n s cs decs ms) (removeLoop k n s cs decs ms')
  | [], _, _, _, _, _ => by simp only [removeLoop]; exact .ok rfl
  | c :: cs, [], ms, ms', _, _ => by cases ms' <;> simp only [removeLoop] <;> exact .error
  | c :: cs, d :: ds, ms, [], _, _ => by simp only [removeLoop]; exact .error
  | c :: cs, d :: ds, [], _ :: _, hl, _ => by cases hl
  | c :: cs, d :: ds, m :: ms, m' :: ms', hl, hz => by
    simp only [removeLoop]
    rw [hz m (List.mem_cons_self ..)]
    refine .same fun _ _ => .same fun _ _ => .same fun _ _ => .same fun _ _ => .same fun _ _ =>
      .same fun _ _ => .check (fun _ => Nat.zero_le _) fun _ => ?_
    refine .bind (removeLoop_sim k n s cs ds (Nat.succ.inj hl)
      fun m hm => hz m (List.mem_cons_of_mem _ hm)) ?_
    rintro ⟨r0, x0⟩ _ rfl
    exact .ok rfl

theorem burnShares_keys {q q' : CurvePool} {a : AccountId} {x n : Nat}
    (h : q.burnShares a x n = .ok q') : ∃ sh, q' = { q with shares := sh } ∧
      ∀ b, q.shares.contains b = true → sh.contains b = true := by
  unfold burnShares at h
  split at h
  · cases h; exact ⟨_, rfl, fun _ h => h⟩
  · unpack at h
    obtain ⟨-, rfl⟩ := h
    exact ⟨_, rfl, fun _ h => FMap.contains_insert _ _ _ _ h⟩

theorem removeByShares_sim {p q : CurvePool} (h : p.Alike q) (a b : AccountId) (n : Nat)
    {ms ms' : List Nat} (hl : ms.length = ms'.length) (hz : ∀ m ∈ ms, m = 0) :
    Sim (fun r s => r.1.Alike s.1 ∧ r.2 = s.2) (p.removeByShares a n ms true)
      (q.removeByShares b n ms' false) := by
  obtain ⟨sh, rfl, hk⟩ := h
  unfold removeByShares
  rw [hl]
  refine .same fun _ _ => ?_
  refine .bind (S := Alike) (x := .ok { q with shares := sh }) ?_ ?_
  · refine .skip fun prev hp => .skip fun _ _ => ?_
    intro q' hq
    obtain ⟨sh', rfl, hk'⟩ := burnShares_keys hq
    exact ⟨_, rfl, sh, rfl, fun a ha => hk' a (hk a ha)⟩
  · rintro p1 q1 ⟨sh1, rfl, hk1⟩
    refine .bind (removeLoop_sim _ _ _ _ _ hl hz) ?_
    rintro ⟨cs, out⟩ _ rfl
    exact .same fun _ _ => .ok ⟨⟨sh1, rfl, hk1⟩, rfl⟩

theorem removeByTokens_sim {p q : CurvePool} (h : p.Alike q) {f g : AdminFees} (hf : f.Quote g)
    (a b : AccountId) (am : List Nat) (m m' : Nat) (env : CurveEnv) :
    Sim (fun r s => r.1.Alike s.1 ∧ r.2 = s.2) (p.removeByTokens a am m f env true)
      (q.removeByTokens b am m' g env false) := by
  obtain ⟨sh, rfl, hk⟩ := h
  unfold removeByTokens
  rw [hf.bps]
  refine .same fun _ _ => .same fun cs _ => .same fun _ _ => .same fun _ _ => .same fun r _ => ?_
  obtain ⟨burn, part⟩ := r
  refine .bind (S := Alike) (x := .ok { q with shares := sh }) ?_ ?_
  · refine .skip fun prev hp => .skip fun _ _ => .skip fun _ _ => ?_
    intro q' hq
    obtain ⟨sh', rfl, hk'⟩ := burnShares_keys hq
    exact ⟨_, rfl, sh, rfl, fun a ha => hk' a (hk a ha)⟩
  · rintro p1 q1 ⟨sh1, rfl, hk1⟩
    refine .same fun ns _ => .same fun s _ => ?_
    have h' : Alike { q1 with shares := sh1, cAmts := ns, supply := s }
        { q1 with cAmts := ns, supply := s } := ⟨sh1, rfl, hk1⟩
    exact .bind (mintFeePart_sim h' hf part) fun _ _ h => .ok ⟨h, rfl⟩

theorem distribute_sim {p q : CurvePool} (h : p.Alike q) (a b a' b' : AccountId) {x y : Nat}
    (hx : x = y ∨ x = 0) (o n : Nat) (env : CurveEnv) :
    Sim Alike (p.distributeAdminFee a b x o n env true) (q.distributeAdminFee a' b' y o n env false) := by
  obtain ⟨sh, rfl, hk⟩ := h
  unfold distributeAdminFee
  refine .same fun r _ => ?_
  obtain ⟨s, part⟩ := r
  refine .same fun old _ => .same fun m _ => ?_
  have h' : Alike { q with shares := sh, cAmts := q.cAmts.set o m } { q with cAmts := q.cAmts.set o m } :=
    ⟨sh, rfl, hk⟩
  refine .bind (S := fun r s => r = s ∨ r = 0) ?_ fun r s hr => ?_
  · rcases hx with rfl | rfl
    · intro s hs; exact ⟨s, hs, .inl rfl⟩
    · intro s hs; exact ⟨0, rfl, .inr rfl⟩
  · exact mintBoth_sim h' b a b' a' _ hr

theorem swapFee_sim {p q : CurvePool} (h : p.Alike q) {f g : AdminFees} (hf : f.Quote g) (o n : Nat)
    (env : CurveEnv) : Sim Alike (p.swapFee o n f env true) (q.swapFee o n g env false) := by
  unfold swapFee
  rw [hf.bps]
  split
  · rcases hf.ref with e | e
    · rw [e]
      split
      · rename_i rid rfee hr
        by_cases hc : p.shares.contains rid = true
        · have hc' : q.shares.contains rid = true := by
            obtain ⟨sh, rfl, hk⟩ := h
            exact hk rid hc
          rw [if_pos hc, if_pos hc']
          exact distribute_sim h _ _ _ _ (.inl rfl) _ _ _
        · rw [if_neg hc]
          split <;> exact distribute_sim h _ _ _ _ (.inr rfl) _ _ _
      · exact distribute_sim h _ _ _ _ (.inl rfl) _ _ _
    · rw [e]
      show Sim Alike (p.distributeAdminFee f.exchangeId f.exchangeId 0 o n env true) _
      rcases g.referral with _ | ⟨rid, rfee⟩
      · exact distribute_sim h _ _ _ _ (.inr rfl) _ _ _
      · simp only
        split <;> exact distribute_sim h _ _ _ _ (.inr rfl) _ _ _
  · exact .ok h

theorem swap_sim {p q : CurvePool} (h : p.Alike q) {f g : AdminFees} (hf : f.Quote g)
    (ti : AccountId) (a : Nat) (tout : AccountId) {m m' : Nat} (hm : m ≤ m') (env : CurveEnv) :
    Sim (fun r s => r.1.Alike s.1 ∧ r.2 = s.2) (p.swap ti a tout m f env true)
      (q.swap ti a tout m' g env false) := by
  obtain ⟨sh, rfl, hk⟩ := h
  unfold swap
  refine .same fun _ _ => .same fun i _ => .same fun o _ => .same fun _ _ => ?_
  have e : ({ q with shares := sh } : CurvePool).getReturn i a o f env = q.getReturn i a o g env := by
    unfold getReturn
    rw [hf.bps]
    rfl
  rw [e]
  refine .same fun r _ => .same fun d _ => .same fun out _ =>
    .check (fun h => Nat.le_trans hm h) fun _ => ?_
  refine .bind (S := fun _ _ => True) (x := .ok ()) ?_ fun _ _ _ => ?_
  · intro _ _; exact ⟨(), rfl, trivial⟩
  · refine .same fun _ _ => ?_
    have h' : Alike
        { q with shares := sh, cAmts := (q.cAmts.set i r.newSource).set o r.newDest }
        { q with cAmts := (q.cAmts.set i r.newSource).set o r.newDest } := ⟨sh, rfl, hk⟩
    exact .bind (swapFee_sim h' hf o r.adminFee env) fun _ _ h => .ok ⟨h, rfl⟩

end CurvePool

/-! ### Pools -/

namespace Pool

/-- `p` is the view's copy of `q`: the same but for the shares, of which it knows fewer holders. -/
inductive Alike : Pool → Pool → Prop where
  | simple {p q : SimplePool} : p.Alike q → Alike (.simple p) (.simple q)
  | curve {p q : CurvePool} : p.Alike q → Alike (.curve p) (.curve q)

theorem Alike.rfl' (p : Pool) : p.Alike p := by
  cases p with
  | simple p => exact .simple (.rfl' p)
  | curve p => exact .curve (.rfl' p)

theorem Alike.tokens {p q : Pool} (h : p.Alike q) : p.tokens = q.tokens := by
  cases h with
  | simple h => obtain ⟨_, rfl, -⟩ := h; rfl
  | curve h => obtain ⟨_, rfl, -⟩ := h; rfl

theorem swap_sim {p q : Pool} (h : p.Alike q) {f g : AdminFees} (hf : f.Quote g)
    (ti : AccountId) (a : Nat) (tout : AccountId) {m m' : Nat} (hm : m ≤ m') (env : R CurveEnv) :
    Sim (fun r s => r.1.Alike s.1 ∧ r.2 = s.2) (p.swap ti a tout m f env true)
      (q.swap ti a tout m' g env false) := by
  cases h with
  | simple h =>
    exact .bind (SimplePool.swap_sim h hf ti a tout hm) fun _ _ h => .ok ⟨.simple h.1, h.2⟩
  | curve h =>
    exact .same fun e _ => .bind (CurvePool.swap_sim h hf ti a tout hm e)
      fun _ _ h => .ok ⟨.curve h.1, h.2⟩

theorem swapByOutput_sim {p q : Pool} (h : p.Alike q) {f g : AdminFees} (hf : f.Quote g)
    (ti : AccountId) (out : Nat) (tout : AccountId) {m m' : Option Nat} (hm : m = m' ∨ m = none) :
    Sim (fun r s => r.1.Alike s.1 ∧ r.2 = s.2) (p.swapByOutput ti out tout m f true)
      (q.swapByOutput ti out tout m' g false) := by
  cases h with
  | simple h =>
    exact .bind (SimplePool.swapByOutput_sim h hf ti out tout hm) fun _ _ h => .ok ⟨.simple h.1, h.2⟩
  | curve h => exact .error

theorem addLiquidity_sim {p q : Pool} (h : p.Alike q) (a b : AccountId) (am : List Nat) :
    Sim (fun r s => r.1.Alike s.1 ∧ r.2 = s.2) (p.addLiquidity a am true)
      (q.addLiquidity b am false) := by
  cases h with
  | simple h =>
    refine .bind (SimplePool.addLiquidity_sim h a b am) ?_
    rintro ⟨p1, x⟩ ⟨q1, y⟩ ⟨h1, h2⟩
    simp only at h1 h2
    subst h2
    exact .ok ⟨.simple h1, rfl⟩
  | curve h => exact .error

theorem addStable_sim {p q : Pool} (h : p.Alike q) {f g : AdminFees} (hf : f.Quote g)
    (a b : AccountId) (am : List Nat) {m m' : Nat} (hm : m ≤ m') (env : R CurveEnv) :
    Sim (fun r s => r.1.Alike s.1 ∧ r.2 = s.2) (p.addStable a am m f env true)
      (q.addStable b am m' g env false) := by
  cases h with
  | simple h => exact .error
  | curve h =>
    exact .same fun e _ => .bind (CurvePool.addLiquidity_sim h hf a b am hm e)
      fun _ _ h => .ok ⟨.curve h.1, h.2⟩

theorem removeLiquidity_sim {p q : Pool} (h : p.Alike q) (a b : AccountId) (n : Nat)
    {ms ms' : List Nat} (hl : ms.length = ms'.length) (hz : ∀ m ∈ ms, m = 0) :
    Sim (fun r s => r.1.Alike s.1 ∧ r.2 = s.2) (p.removeLiquidity a n ms true)
      (q.removeLiquidity b n ms' false) := by
  cases h with
  | simple h =>
    exact .bind (SimplePool.removeLiquidity_sim h a b n hl hz) fun _ _ h => .ok ⟨.simple h.1, h.2⟩
  | curve h =>
    exact .bind (CurvePool.removeByShares_sim h a b n hl hz) fun _ _ h => .ok ⟨.curve h.1, h.2⟩

theorem removeByTokens_sim {p q : Pool} (h : p.Alike q) {f g : AdminFees} (hf : f.Quote g)
    (a b : AccountId) (am : List Nat) (m m' : Nat) (env : R CurveEnv) :
    Sim (fun r s => r.1.Alike s.1 ∧ r.2 = s.2) (p.removeByTokens a am m f env true)
      (q.removeByTokens b am m' g env false) := by
  cases h with
  | simple h => exact .error
  | curve h =>
    exact .same fun e _ => .bind (CurvePool.removeByTokens_sim h hf a b am m m' e)
      fun _ _ h => .ok ⟨.curve h.1, h.2⟩

end Pool
end Verif

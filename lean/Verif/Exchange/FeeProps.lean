import Verif.Exchange.SwapProps

/-
C57: who receives the shares minted as protocol fees.
-/

namespace Verif

/-- The referral's part of `m` shares minted as a fee: its rate, if it is registered in the pool. -/
def referralCut (registered : AccountId → Bool) (fees : AdminFees) (m : Nat) : Nat :=
  match fees.referral with
  | some (rid, bps) => if registered rid then m * bps / 10000 else 0
  | none => 0

/-- What account `a` receives of `m` shares minted as a fee: the referral its part, the exchange the
rest, anybody else nothing. -/
def feeShares (registered : AccountId → Bool) (fees : AdminFees) (m : Nat) (a : AccountId) : Nat :=
  (if a = fees.exchangeId then m - referralCut registered fees m else 0) +
  (match fees.referral with
    | some (rid, _) => if a = rid then referralCut registered fees m else 0
    | none => 0)

theorem feeShares_zero (reg : AccountId → Bool) (fees : AdminFees) (a : AccountId) :
    feeShares reg fees 0 a = 0 := by
  unfold feeShares referralCut
  cases fees.referral with
  | none => simp
  | some r => simp

theorem feeShares_other {reg : AccountId → Bool} {fees : AdminFees} {m : Nat} {a : AccountId}
    (h1 : a ≠ fees.exchangeId) (h2 : ∀ bps, fees.referral = some (a, bps) → reg a = false) :
    feeShares reg fees m a = 0 := by
  unfold feeShares referralCut
  rw [if_neg h1]
  cases hr : fees.referral with
  | none => simp
  | some r =>
    obtain ⟨rid, bps⟩ := r
    by_cases ha : a = rid
    · subst ha; simp [h2 bps hr]
    · simp [ha]

theorem SimplePool.mintShares_balance {p q : SimplePool} {a : AccountId} {s : Nat}
    (h : p.mintShares a s false = .ok q) (x : AccountId) :
    q.shares.getD x 0 = p.shares.getD x 0 + if x = a then s else 0 := by
  obtain ⟨rfl, -⟩ := SimplePool.mintShares_ok h
  by_cases hs : s = 0
  · simp [hs]
  · by_cases hx : x = a
    · subst hx; simp [hs, FMap.getD, FMap.get?_insert_self]
    · simp [hs, hx, FMap.getD, FMap.get?_insert_ne _ _ hx]

theorem SimplePool.mintShares_supply {p q : SimplePool} {a : AccountId} {s : Nat} {v : Bool}
    (h : p.mintShares a s v = .ok q) : q.supply = p.supply + s := by
  obtain ⟨rfl, -⟩ := SimplePool.mintShares_ok h; rfl

theorem SimplePool.updatePool_fee {p q : SimplePool} {i o : Bool} {a r : Nat} {fees : AdminFees}
    (h : p.updatePool i a o r fees false = .ok q) :
    ∃ m, q.supply = p.supply + m ∧ (fees.adminFeeBps = 0 → m = 0) ∧ ∀ x, q.shares.getD x 0 =
      p.shares.getD x 0 + feeShares p.shares.contains fees m x := by
  have hset : ∀ (p : SimplePool) (x : Bool) (y : Nat), (p.setAmt x y).shares = p.shares ∧
      (p.setAmt x y).supply = p.supply := by
    intro p x y; cases x <;> exact ⟨rfl, rfl⟩
  unfold SimplePool.updatePool at h
  unpack at h
  obtain ⟨-, s0, hs0, hlt, hr, -, s1, hs1, hle, -, h⟩ := h
  split at h
  · rename_i hb
    unpack at h
    obtain ⟨-, -, -, -, rs, hrs, p2, hp2, hle2, hq⟩ := h
    generalize (s1 - s0) * _ / _ = m at *
    refine ⟨m, ?_, fun h => absurd h (by omega), ?_⟩
    · rw [mintShares_supply hq]
      split at hp2
      · split at hp2
        · rw [mintShares_supply hp2, (hset _ _ _).2, (hset _ _ _).2]; omega
        · cases hp2
          rw [(hset _ _ _).2, (hset _ _ _).2]; omega
      · rename_i hn
        unfold referralShare at hrs
        simp only [hn] at hrs
        cases hrs; cases hp2
        rw [(hset _ _ _).2, (hset _ _ _).2]; omega
    · intro x
      rw [mintShares_balance hq x]
      unfold referralShare at hrs
      unfold feeShares
      cases hn : fees.referral with
      | none =>
        simp only [hn] at hrs hp2
        cases hrs; cases hp2
        rw [(hset _ _ _).1, (hset _ _ _).1]
        simp only [referralCut, hn]; omega
      | some rr =>
        obtain ⟨rid, bps⟩ := rr
        simp only [hn] at hrs hp2
        rw [(hset _ _ _).1, (hset _ _ _).1] at hrs
        have hcut : referralCut p.shares.contains fees m = rs := by
          unfold referralCut
          simp only [hn]
          split at hrs
          · rename_i hc
            rw [if_pos hc, (u128Ratio_ok hrs).2]; rfl
          · rename_i hc
            rw [if_neg hc]; cases hrs; rfl
        simp only [hcut]
        split at hp2
        · rw [mintShares_balance hp2 x, (hset _ _ _).1, (hset _ _ _).1]; omega
        · cases hp2
          rw [(hset _ _ _).1, (hset _ _ _).1]
          have : rs = 0 := by omega
          subst this; simp
  · cases h
    refine ⟨0, ?_, fun _ => rfl, fun x => ?_⟩
    · rw [(hset _ _ _).2, (hset _ _ _).2]; omega
    · rw [(hset _ _ _).1, (hset _ _ _).1, feeShares_zero]; rfl

theorem CurvePool.mintFeePart_fee {p q : CurvePool} {f : Nat} {fees : AdminFees}
    (h : p.mintFeePart f fees false = .ok q) (x : AccountId) : q.shareBalanceOf x =
      p.shareBalanceOf x + feeShares p.shares.contains fees (f * fees.adminFeeBps / 10000) x := by
  unfold mintFeePart at h
  split at h
  · unpack at h
    obtain ⟨adm, hadm, rs, rid, hr, q1, hq1, hle, hq⟩ := h
    obtain ⟨-, hadm⟩ := u128Ratio_ok hadm
    rw [mintShares_balance hq x, mintShares_balance hq1 x]
    rw [show f * fees.adminFeeBps / 10000 = adm from hadm.symm]
    unfold feeShares
    cases hn : fees.referral with
    | none =>
      simp only [hn] at hr
      cases hr
      simp only [referralCut, hn]
      by_cases hx : x = fees.exchangeId <;> simp [hx]
    | some rr =>
      obtain ⟨rid', bps⟩ := rr
      simp only [hn] at hr
      unpack at hr
      obtain ⟨s, hs, rfl, rfl⟩ := hr
      have hcut : referralCut p.shares.contains fees adm =
          if 0 < s ∧ p.shares.contains rid' = false then 0 else s := by
        unfold referralCut
        simp only [hn]
        obtain ⟨-, e⟩ := u128Ratio_ok hs
        by_cases hc : p.shares.contains rid' = true
        · rw [if_pos hc, if_neg (by simp [hc]), e]; rfl
        · rw [if_neg hc]
          split
          · rfl
          · rename_i h1
            have : ¬ 0 < s := fun h2 => h1 ⟨h2, by simpa using hc⟩
            omega
      simp only [hcut]
      omega
  · cases h
    have : f = 0 := by omega
    subst this
    rw [Nat.zero_mul, Nat.zero_div, feeShares_zero]; rfl

theorem CurvePool.distributeAdminFee_fee {p q : CurvePool} {ex rid : AccountId} {rb tok c : Nat}
    {env : CurveEnv} (h : p.distributeAdminFee ex rid rb tok c env false = .ok q) :
    ∃ m, q.supply = p.supply + m ∧ m * rb / 10000 ≤ m ∧ ∀ x, q.shareBalanceOf x =
      p.shareBalanceOf x + (if x = ex then m - m * rb / 10000 else 0) +
        (if x = rid then m * rb / 10000 else 0) := by
  unfold distributeAdminFee at h
  unpack at h
  obtain ⟨m, f, hlp, old, hold, hlt, rs, hrs, q1, hq1, hle, hq⟩ := h
  have hrs' : rs = m * rb / 10000 := by
    split at hrs
    · exact (u128Ratio_ok hrs).2
    · cases hrs
      have : rb = 0 := by omega
      subst this; simp
  subst hrs'
  refine ⟨m, ?_, hle, fun x => ?_⟩
  · have h1 := (mintShares_minted hq1).supply
    have h2 := (mintShares_minted hq).supply
    simp only at h1 h2
    omega
  · rw [mintShares_balance hq x, mintShares_balance hq1 x]
    unfold shareBalanceOf
    simp only
    omega

theorem CurvePool.swapFee_fee {p q : CurvePool} {o a : Nat} {fees : AdminFees} {env : CurveEnv}
    (h : p.swapFee o a fees env false = .ok q) :
    ∃ m, q.supply = p.supply + m ∧ (fees.adminFeeBps = 0 → m = 0) ∧ ∀ x, q.shareBalanceOf x =
      p.shareBalanceOf x + feeShares p.shares.contains fees m x := by
  unfold swapFee at h
  split at h
  · rename_i hb
    cases hn : fees.referral with
    | none =>
      simp only [hn] at h
      obtain ⟨m, h1, -, h2⟩ := distributeAdminFee_fee h
      refine ⟨m, h1, fun h => absurd h (by omega), fun x => ?_⟩
      rw [h2 x]
      simp [feeShares, referralCut, hn]
    | some rr =>
      obtain ⟨rid, bps⟩ := rr
      simp only [hn] at h
      split at h
      · rename_i hc
        obtain ⟨m, h1, -, h2⟩ := distributeAdminFee_fee h
        refine ⟨m, h1, fun h => absurd h (by omega), fun x => ?_⟩
        rw [h2 x]
        simp only [feeShares, referralCut, hn, hc, if_true]
        omega
      · rename_i hc
        obtain ⟨m, h1, -, h2⟩ := distributeAdminFee_fee h
        refine ⟨m, h1, fun h => absurd h (by omega), fun x => ?_⟩
        rw [h2 x]
        simp [feeShares, referralCut, hn, hc]
  · cases h
    exact ⟨0, rfl, fun _ => rfl, fun x => by rw [feeShares_zero]; rfl⟩

/-! ### The property -/

/-- **C57**, swaps. The only shares a swap creates are the protocol's fee; the exchange and a
referral that is registered in the pool share it at the referral's rate. -/
theorem C57_swap {p q : Pool} {ti tout : AccountId} {a mo out : Nat} {fees : AdminFees}
    {env : R CurveEnv} (h : p.swap ti a tout mo fees env false = .ok (q, out)) :
    ∃ m, q.supply = p.supply + m ∧ (fees.adminFeeBps = 0 → m = 0) ∧ ∀ x, q.shareBalance x =
      p.shareBalance x + feeShares p.shareRegistered fees m x := by
  cases p with
  | simple p =>
    unfold Pool.swap at h
    unpack at h
    obtain ⟨q', out', h, rfl, rfl⟩ := h
    obtain ⟨i, o, -, -, -, -, -, -, hu⟩ := SimplePool.swap_ok h
    exact SimplePool.updatePool_fee hu
  | curve p =>
    unfold Pool.swap at h
    unpack at h
    obtain ⟨e, -, q', out', h, rfl, rfl⟩ := h
    obtain ⟨i, o, r, _, _, _, -, -, -, -, -, -, -, -, -, -, -, -, hf⟩ := CurvePool.swap_ok h
    have := CurvePool.swapFee_fee hf
    exact this

/-- **C57**, swaps with a given output. -/
theorem C57_swap_by_output {p q : Pool} {ti tout : AccountId} {out inn : Nat} {mi : Option Nat}
    {fees : AdminFees} (h : p.swapByOutput ti out tout mi fees false = .ok (q, inn)) :
    ∃ m, q.supply = p.supply + m ∧ (fees.adminFeeBps = 0 → m = 0) ∧ ∀ x, q.shareBalance x =
      p.shareBalance x + feeShares p.shareRegistered fees m x := by
  cases p with
  | simple p =>
    unfold Pool.swapByOutput at h
    unpack at h
    obtain ⟨q', out', h, rfl, rfl⟩ := h
    obtain ⟨i, o, -, -, -, -, -, -, hu⟩ := SimplePool.swapByOutput_ok h
    exact SimplePool.updatePool_fee hu
  | curve p => cases h

/-- **C57**, deposits into stable-swap pools: the provider receives the reported shares, and the
protocol's part of the imbalance fee is shared as in a swap. -/
theorem C57_add_stable {p q : Pool} {s : AccountId} {am : List Nat} {mn n : Nat} {fees : AdminFees}
    {env : R CurveEnv} (h : p.addStable s am mn fees env false = .ok (q, n)) :
    ∃ m, q.supply = p.supply + n + m ∧ (fees.adminFeeBps = 0 → m = 0) ∧ ∀ x, q.shareBalance x =
      p.shareBalance x + (if x = s then n else 0) +
        feeShares (fun a => p.shareRegistered a || decide (a = s ∧ 0 < n)) fees m x := by
  cases p with
  | simple p => cases h
  | curve p =>
    unfold Pool.addStable at h
    unpack at h
    obtain ⟨e, -, q', n', h, rfl, rfl⟩ := h
    obtain ⟨fp, cs, p1, -, -, -, -, hp1, hf, hm⟩ := CurvePool.addLiquidity_ok h
    refine ⟨fp * fees.adminFeeBps / 10000, ?_, fun h => by rw [h]; simp, fun x => ?_⟩
    · have := hm.supply
      simp only at this
      show q'.supply = p.supply + n' + _
      omega
    · have h1 := CurvePool.mintFeePart_fee hf x
      have h2 := CurvePool.mintShares_balance hp1 x
      have h3 : p1.shares.contains = fun a => (Pool.curve p).shareRegistered a ||
          decide (a = s ∧ 0 < n') := by
        funext a
        obtain ⟨rfl, -⟩ := CurvePool.mintShares_ok hp1
        show _ = (p.shares.contains a || _)
        simp only [Bool.false_eq_true, false_or]
        by_cases hn : n' = 0
        · simp [hn]
        · rw [if_neg hn]
          by_cases ha : a = s
          · subst ha; simp [FMap.contains, FMap.get?_insert_self]; omega
          · simp [FMap.contains, FMap.get?_insert_ne _ _ ha, ha]
      rw [h3] at h1
      show q'.shareBalanceOf x = p.shareBalanceOf x + _ + _
      rw [h1, h2]; rfl

/-- **C57**, removal of given amounts from stable-swap pools. -/
theorem C57_remove_by_tokens {p q : Pool} {s : AccountId} {am : List Nat} {mb n : Nat}
    {fees : AdminFees} {env : R CurveEnv}
    (h : p.removeByTokens s am mb fees env false = .ok (q, n)) :
    ∃ m, q.supply + n = p.supply + m ∧ (fees.adminFeeBps = 0 → m = 0) ∧
      ∀ x, q.shareBalance x + (if x = s then n else 0) =
        p.shareBalance x + feeShares p.shareRegistered fees m x := by
  cases p with
  | simple p => cases h
  | curve p =>
    unfold Pool.removeByTokens at h
    unpack at h
    obtain ⟨e, -, q', n', h, rfl, rfl⟩ := h
    unfold CurvePool.removeByTokens at h
    unpack at h
    obtain ⟨-, cs, -, _, -, _, -, n1, fp, -, p1, hp1, ns, -, hsup, q1, hq, rfl, rfl⟩ := h
    simp only [Bool.false_eq_true, if_false] at hp1
    unpack at hp1
    obtain ⟨prev, hprev, hle, -, hb⟩ := hp1
    have hp1 : p1.supply = p.supply ∧ (∀ x, p1.shareBalanceOf x + (if x = s then n1 else 0) =
        p.shareBalanceOf x) ∧ p1.shares.contains = p.shares.contains := by
      unfold CurvePool.burnShares at hb
      split at hb
      · cases hb
        rename_i h0; subst h0
        exact ⟨rfl, fun x => by simp, rfl⟩
      · unpack at hb
        obtain ⟨-, rfl⟩ := hb
        refine ⟨rfl, fun x => ?_, ?_⟩
        · unfold CurvePool.shareBalanceOf
          by_cases hx : x = s
          · subst hx
            simp only [FMap.getD, FMap.get?_insert_self, hprev, if_true, Option.getD_some]
            omega
          · simp [hx, FMap.getD, FMap.get?_insert_ne _ _ hx]
        · funext a
          by_cases ha : a = s
          · subst ha; simp [FMap.contains, FMap.get?_insert_self, hprev]
          · simp [FMap.contains, FMap.get?_insert_ne _ _ ha]
    refine ⟨fp * fees.adminFeeBps / 10000, ?_, fun h => by rw [h]; simp, fun x => ?_⟩
    · have := (CurvePool.mintFeePart_minted hq).supply
      simp only at this
      show q1.supply + n1 = p.supply + _
      omega
    · have h1 := CurvePool.mintFeePart_fee hq x
      have h2 := hp1.2.1 x
      simp only [hp1.2.2] at h1
      have h3 : ({ p1 with cAmts := ns, supply := p1.supply - n1 } : CurvePool).shareBalanceOf x =
        p1.shareBalanceOf x := rfl
      rw [h3] at h1
      show q1.shareBalanceOf x + _ = p.shareBalanceOf x + feeShares p.shares.contains _ _ _
      omega

/-- A referral with 5% of the protocol's 20% of the fee. -/
example : ((Pool.simple exPool).swap exA 300000 exB 1 exFees (.error .other) false).holds
    (fun r => r.1.shareBalance exEx = 214 ∧ r.1.shareBalance exRef = 11 ∧
      r.1.supply = exPool.supply + 225) ∧
    feeShares (Pool.simple exPool).shareRegistered exFees 225 exRef = 11 := by decide +kernel

example : ((Pool.curve exStable).swap exA (10 ^ 22) exB 1 exFees (.ok exEnv) false).holds
    (fun r => r.1.shareBalance exEx = 4749690705880349658 ∧
      r.1.shareBalance exRef = 249983721362123666) := by decide +kernel

example : ((Pool.curve exStable).addStable exLP [10 ^ 22, 0, 0] 1 exFees (.ok exEnv) false).holds
      (fun r => 0 < r.1.shareBalance exRef) ∧
    ((Pool.curve exStable).removeByTokens exLP [10 ^ 22, 0, 0] (10 ^ 30) exFees (.ok exEnv)
      false).holds (fun r => 0 < r.1.shareBalance exRef) := by decide +kernel

namespace Contract

/-- **C57**, calls. A list of swaps, however it was started, leaves the shares of every account in
every pool as they were, except those of the exchange itself and of the referral named in the call,
if that is on the owner's list of referrals. -/
theorem C57_others_untouched {c c' : Contract} {now : Nat} {r : Option AccountId}
    {steps : List SwapStep} (h : Swaps now (c.referralInfo r) c steps c') {a : AccountId}
    (h1 : a ≠ c.self) (h2 : r = some a → c.cfg.referrals.get? a = none) (id : Nat) :
    c'.sharesOf id a = c.sharesOf id a := by
  have hr : ∀ bps, c.referralInfo r ≠ some (a, bps) := by
    intro bps hb
    unfold referralInfo at hb
    split at hb
    · rename_i b
      simp only [Option.map_eq_some_iff, Prod.mk.injEq] at hb
      obtain ⟨_, hg, rfl, -⟩ := hb
      rw [h2 rfl] at hg; cases hg
    · cases hb
  generalize c.referralInfo r = ref at *
  have key : ∀ {c c' : Contract} {s : SwapStep}, c.SwapsTo now ref s c' → a ≠ c.self →
      c'.sharesOf id a = c.sharesOf id a := by
    intro c c' s h h1
    have hz : ∀ (p : Pool) (m : Nat), feeShares p.shareRegistered (c.fees ref) m a = 0 :=
      fun p m => feeShares_other h1 fun bps hb => absurd hb (hr bps)
    rcases h with ⟨m, h⟩ | ⟨m, h⟩
    · obtain ⟨tw, vs, p, q, hp, hs, hv, rfl⟩ := poolSwap_ok h
      obtain ⟨n, -, -, hb⟩ := C57_swap hs
      simp only [sharesOf_eq, sharesIn_set hp]
      split
      · rename_i e; subst e
        rw [sharesIn_some hp, hb, hz]; rfl
      · rfl
    · obtain ⟨tw, vs, p, q, hp, hs, hv, rfl⟩ := poolSwapByOutput_ok h
      obtain ⟨n, -, -, hb⟩ := C57_swap_by_output hs
      simp only [sharesOf_eq, sharesIn_set hp]
      split
      · rename_i e; subst e
        rw [sharesIn_some hp, hb, hz]; rfl
      · rfl
  induction h with
  | nil => rfl
  | cons h g ih =>
    have e := h.framed
    rw [ih (by rw [e.self]; exact h1) (by rw [e.cfg]; exact h2), key h h1]

open Demo

example : (c1.exec (by' bo) (.executeActions [swapA] none)).holds
    (fun r => r.1.sharesOf 0 al = c1.sharesOf 0 al ∧ 0 < c1.sharesOf 0 al) = true := by
  decide +kernel

end Contract

end Verif

import Verif.Simple.Live
import Verif.Exchange.LiveCurve
import Verif.Exchange.Demo

/-
C91: pools of ordinary size answer. Together with C73 (a call does what the view has answered) the
calls are not refused either.
-/

namespace Verif
namespace Contract

theorem tokenIndex_simple {p : SimplePool} (h : p.tok0 ≠ p.tok1) (i : Bool) :
    p.tokenIndex (if i then p.tok1 else p.tok0) = .ok i := by
  unfold SimplePool.tokenIndex
  cases i
  · simp
  · simp [h]

theorem tokenIndex_curve {p : CurvePool} (h : p.toks.Nodup) {i : Nat} {t : AccountId}
    (ht : p.toks[i]? = some t) : p.tokenIndex t = .ok i := by
  obtain ⟨hi, rfl⟩ := List.getElem?_eq_some_iff.1 ht
  unfold CurvePool.tokenIndex
  have : p.toks.findIdx? (fun x => decide (x = p.toks[i])) = some i := by
    rw [List.findIdx?_eq_some_iff_getElem]
    refine ⟨hi, by simp, fun j hj => ?_⟩
    have : p.toks[j]'(by omega) ≠ p.toks[i] := by
      intro e
      have := (List.Nodup.getElem_inj_iff h).1 e
      omega
    simpa using this
  rw [this]
  rfl

section simple
variable {c : Contract} {p : SimplePool} {id : Nat} {i : Bool}

/-- **C91**, `get_return` of a constant-product pool: it answers for every positive amount up to what
the pool has of the token. -/
theorem C91_get_return_simple (hc : c.Reachable) (hp : c.pools[id]? = some (.simple p))
    (hb : c.cfg.adminFeeBps ≤ 10000) {a now : Nat} (hs0 : 0 < p.supply) (hs : 2 * p.supply < 2 ^ 128)
    (ha0 : 0 < a) (ha : a ≤ p.amt i) (hX : p.amt i + a < 2 ^ 128)
    (hXY : p.amt0 * p.amt1 * 10000 < 2 ^ 256) :
    ∃ out, c.getReturn now id (if i then p.tok1 else p.tok0) a (if i then p.tok0 else p.tok1) = .ok out := by
  obtain ⟨hsound, hne⟩ := hc.sound _ (List.mem_of_getElem? hp)
  have hto : p.tokenIndex (if i then p.tok0 else p.tok1) = .ok (!i) := by
    have := tokenIndex_simple hne (!i)
    cases i <;> simpa using this
  obtain ⟨q, out, h⟩ := SimplePool.C91_swap (a := a) (fees := c.fees none) hsound (tokenIndex_simple hne i) hto
    (by cases i <;> simp [hne, hne.symm]) hs0 ha0 ha hX
    (by cases i
        · exact hXY
        · rw [show p.amt true = p.amt1 from rfl, show p.amt (!true) = p.amt0 from rfl, Nat.mul_comm p.amt1]
          exact hXY) hb rfl hs
  refine ⟨out, ?_⟩
  unfold getReturn
  rw [pool_ok.2 hp, ok_bind]
  simp only [Pool.swap]
  rw [h, ok_bind, ok_bind]

/-- **C91**, `get_return_by_output`: it answers for every positive output that is less than what the
pool would pay for as much of the other token as it has. -/
theorem C91_get_return_by_output (hc : c.Reachable) (hp : c.pools[id]? = some (.simple p))
    (hb : c.cfg.adminFeeBps ≤ 10000) {r : Nat} (hs0 : 0 < p.supply) (hs : 2 * p.supply < 2 ^ 128)
    (hr0 : 0 < r) (hr : r * 10000 < (p.amt (!i) - r) * (10000 - p.totalFee))
    (hX : 2 * p.amt i < 2 ^ 128) (hXY : p.amt0 * p.amt1 * 10000 < 2 ^ 256) :
    ∃ a, c.getReturnByOutput id (if i then p.tok1 else p.tok0) r (if i then p.tok0 else p.tok1) = .ok a := by
  obtain ⟨hsound, hne⟩ := hc.sound _ (List.mem_of_getElem? hp)
  have hto : p.tokenIndex (if i then p.tok0 else p.tok1) = .ok (!i) := by
    have := tokenIndex_simple hne (!i)
    cases i <;> simpa using this
  have hlt : r < p.amt (!i) := by
    by_contra hge
    rw [show p.amt (!i) - r = 0 by omega, Nat.zero_mul] at hr
    omega
  obtain ⟨q, inn, h⟩ := SimplePool.C91_swap_by_output (r := r) (fees := c.fees none) hsound
    (tokenIndex_simple hne i) hto (by cases i <;> simp [hne, hne.symm]) hs0 hr0 hlt hr hX
    (by cases i
        · exact hXY
        · rw [show p.amt true = p.amt1 from rfl, show p.amt (!true) = p.amt0 from rfl, Nat.mul_comm p.amt1]
          exact hXY) hb rfl hs
  refine ⟨inn, ?_⟩
  unfold getReturnByOutput
  rw [pool_ok.2 hp, ok_bind]
  simp only [Pool.swapByOutput]
  rw [h, ok_bind, ok_bind]

/-- **C91**, `predict_add_simple_liquidity`: it answers for the first deposit of positive amounts, and
later for amounts that are worth a share and at most what the pool has. -/
theorem C91_predict_add (hc : c.Reachable) (hp : c.pools[id]? = some (.simple p)) {a0 a1 : Nat}
    (h : p.supply = 0 ∧ 0 < a0 ∧ 0 < a1 ∧ a0 < 2 ^ 128 ∧ a1 < 2 ^ 128 ∨
      p.amt0 ≤ (a0 - 1) * p.supply ∧ p.amt1 ≤ (a1 - 1) * p.supply ∧ 0 < p.supply ∧
        a0 ≤ p.amt0 ∧ a1 ≤ p.amt1 ∧ 2 * p.amt0 < 2 ^ 128 ∧ 2 * p.amt1 < 2 ^ 128 ∧
        2 * p.supply < 2 ^ 128) :
    ∃ used n, c.predictAdd id [a0, a1] = .ok (used, n) := by
  obtain ⟨hsound, -⟩ := hc.sound _ (List.mem_of_getElem? hp)
  obtain ⟨q, used, n, h⟩ := SimplePool.C91_add (a := VIEW) hsound h
  refine ⟨used, n, ?_⟩
  unfold predictAdd
  rw [pool_ok.2 hp, ok_bind]
  simp only [Pool.addLiquidity]
  rw [h, ok_bind, ok_bind]

end simple

/-- **C91**, `get_return` of a stable pool; see `CurvePool.C91_swap_stable` for the conditions. -/
theorem C91_get_return_stable {c : Contract} (hc : c.Reachable) {p : CurvePool} {id now : Nat}
    (hpool : c.pools[id]? = some (.curve p)) (hk : p.kind = .stable) (hb : c.cfg.adminFeeBps ≤ 10000)
    {ti tout : AccountId} {a A D k M m t i o di do_ x xi xo : Nat} (hio : i ≠ o)
    (hti : p.toks[i]? = some ti) (hto : p.toks[o]? = some tout)
    (hdi : p.decs[i]? = some di) (hdo : p.decs[o]? = some do_)
    (hxi : p.cAmts[i]? = some xi) (hxo : p.cAmts[o]? = some xo)
    (hA : (p.inv ⟨now, [], true⟩).amp = .ok A) (hx : CurvePool.amountToC .stable di a = .ok x)
    (hpay : xo * CurveKind.tokPerC .stable do_ < 2 ^ 128)
    (hsize : OrdinarySize 256 p.cAmts.length (A * p.cAmts.length ^ p.cAmts.length) k M)
    (hsum : p.cAmts.sum + x ≤ M) (hmin : ∀ y ∈ p.cAmts, m ≤ y) (hm : 10 ^ 15 ≤ m)
    (hkm : 2 * M ≤ k * (m * p.cAmts.length)) (hkM : k * M < 2 ^ 128)
    (hroom : 8 * (p.cAmts.length * (k * p.cAmts.length) ^ p.cAmts.length) ≤ m)
    (hD : computeD 256 (.ok A) p.cAmts = .ok D)
    (ht0 : 0 < t) (ht : t + 2 ≤ xo) (htop : OnOrAboveCurve A D ((p.cAmts.set i (xi + x)).set o t) 0)
    (hlow : ¬ OnOrAboveCurve A D ((p.cAmts.set i (xi + x)).set o m)
      (D * ((p.cAmts.length - 1) * ((xi + x) * (2 * M) ^ (p.cAmts.length - 2)))))
    (hslack : D * ((p.cAmts.length - 1) * ((xi + x) * (2 * M) ^ (p.cAmts.length - 2))) <
      D ^ (p.cAmts.length + 1))
    (hsup : p.supply * (k + 1) < 2 ^ 128)
    (hfee : c.cfg.adminFeeBps = 0 ∨ p.totalFee = 0 ∨ feeFloor p.cAmts.length k ≤
      (xo - t - 3) * p.totalFee / 10000 * c.cfg.adminFeeBps / 10000) :
    ∃ out, c.getReturn now id ti a tout = .ok out := by
  obtain ⟨hsound, hnd⟩ := hc.sound _ (List.mem_of_getElem? hpool)
  have hne : ti ≠ tout := by
    rintro rfl
    have h1 := tokenIndex_curve hnd hti
    rw [tokenIndex_curve hnd hto] at h1
    exact hio (Except.ok.inj h1).symm
  obtain ⟨q, out, h⟩ := CurvePool.C91_swap_stable (fees := c.fees none) hsound hk hne
    (tokenIndex_curve hnd hti) (tokenIndex_curve hnd hto) hdi hdo hxi hxo hA hx hpay hsize hsum hmin hm
    hkm hkM hroom hD ht0 ht htop hlow hslack hb rfl hsup hfee
  refine ⟨out, ?_⟩
  unfold getReturn
  rw [pool_ok.2 hpool, ok_bind]
  simp only [Pool.swap, Config.env, hk, ok_bind]
  rw [h, ok_bind, ok_bind]

open Demo

instance (A D : Nat) (xs : List Nat) (e : Nat) : Decidable (OnOrAboveCurve A D xs e) :=
  inferInstanceAs (Decidable (_ ≤ _))

/-- The pool of the demo: a swap of half of what it has, an output of a tenth, a deposit. -/
example : c2.cfg.adminFeeBps ≤ 10000 ∧ (match (c2.pools[0]? : Option Pool) with
    | some (.simple p) => decide (0 < p.supply ∧ 2 * p.supply < 2 ^ 128 ∧ 50000 ≤ p.amt false ∧
        p.amt false + 50000 < 2 ^ 128 ∧ p.amt0 * p.amt1 * 10000 < 2 ^ 256 ∧
        40000 * 10000 < (p.amt (!false) - 40000) * (10000 - p.totalFee) ∧
        p.amt0 ≤ (1000 - 1) * p.supply ∧ p.amt1 ≤ (4000 - 1) * p.supply ∧ 1000 ≤ p.amt0 ∧ 4000 ≤ p.amt1)
    | _ => false) = true := by decide +kernel

/-- The stable pool of the demo meets the conditions for a swap of 1000 tokens with `k = 3`,
`M = 9·10^23`, `m = 3·10^23` and `t = xo - 999·10^18`. -/
example : c2.cfg.adminFeeBps ≤ 10000 ∧ (match (c2.pools[1]? : Option Pool) with
    | some (.curve p) => decide (p.kind = .stable ∧ p.toks = [A, B] ∧ p.decs = [18, 18]) &&
      (p.inv ⟨10 ^ 18, [], true⟩).amp.holds (fun A' => (computeD 256 (.ok A') p.cAmts).holds (fun D =>
        match p.cAmts with
        | [xi, xo] =>
          let M := 9 * 10 ^ 23
          let m := 3 * 10 ^ 23
          let x := 10 ^ 21
          let t := xo - 999 * 10 ^ 18
          decide (2 ≤ A' * 2 ^ 2 ∧ A' * 2 ^ 2 * 2 ^ 2 < 2 ^ 128 ∧ 2 * M < 2 ^ 128 ∧
            9 * (M * ((3 * 2) ^ 2 + A' * 2 ^ 2)) ^ 2 < 2 ^ 256 ∧ [xi, xo].sum + x ≤ M ∧
            m ≤ xi ∧ m ≤ xo ∧ 2 * M ≤ 3 * (m * 2) ∧ 3 * M < 2 ^ 128 ∧ 8 * (2 * (3 * 2) ^ 2) ≤ m ∧
            0 < t ∧ t + 2 ≤ xo ∧ OnOrAboveCurve A' D (([xi, xo].set 0 (xi + x)).set 1 t) 0 ∧
            ¬ OnOrAboveCurve A' D (([xi, xo].set 0 (xi + x)).set 1 m)
              (D * (1 * ((xi + x) * (2 * M) ^ 0))) ∧
            D * (1 * ((xi + x) * (2 * M) ^ 0)) < D ^ 3 ∧ p.supply * 4 < 2 ^ 128 ∧
            feeFloor 2 3 ≤ (xo - t - 3) * p.totalFee / 10000 * c2.cfg.adminFeeBps / 10000)
        | _ => false))
    | _ => false) = true := by decide +kernel

/-- Al pays 350000 of token A into the stable pool, which has 400000 of each. -/
def unbalance : List Event := [
  .call (by' A) (.ftOnTransfer al (35 * 10 ^ 22) .deposit),
  .call (by' al) (.executeActions [.swap ⟨1, A, some (35 * 10 ^ 22), B, 1⟩] none)]

/-- **C91**, small swaps. The condition on the protocol's part of the fee cannot be left out: in a
reachable state a stable pool refuses a small swap (`ERR67`: the part of the fee that is due to the
protocol does not raise the computed invariant), although it accepts a smaller one and a larger one. -/
theorem C91_small_refused : ∃ (c : Contract) (now id a b b' : Nat) (ti tout : AccountId), c.Reachable ∧
    b < a ∧ a < b' ∧ c.getReturn now id ti a tout = .error (.e 67) ∧
    (∃ out, 0 < out ∧ c.getReturn now id ti b tout = .ok out) ∧
    (∃ out, 0 < out ∧ c.getReturn now id ti b' tout = .ok out) := by
  have key : (match (c0.run (setup2 ++ unbalance)).getReturn (10 ^ 18) 1 B 9149 A with
        | .error (.e n) => decide (n = 67)
        | _ => false) = true ∧
      ((c0.run (setup2 ++ unbalance)).getReturn (10 ^ 18) 1 B 9136 A).holds (fun n => decide (0 < n)) = true ∧
      ((c0.run (setup2 ++ unbalance)).getReturn (10 ^ 18) 1 B 9162 A).holds (fun n => decide (0 < n)) = true := by
    decide +kernel
  obtain ⟨k1, k2, k3⟩ := key
  refine ⟨c0.run (setup2 ++ unbalance), 10 ^ 18, 1, 9149, 9136, 9162, B, A,
    ⟨ex, own, farm, bur, 1600, 400, c0, _, rfl, rfl⟩, by decide, by decide, ?_, ?_, ?_⟩
  · revert k1
    generalize (c0.run (setup2 ++ unbalance)).getReturn (10 ^ 18) 1 B 9149 A = r
    intro k1
    match r, k1 with
    | .error (.e n), k1 => rw [of_decide_eq_true k1]
  · obtain ⟨n, h1, h2⟩ := R.holds_iff.1 k2
    exact ⟨n, of_decide_eq_true h2, h1⟩
  · obtain ⟨n, h1, h2⟩ := R.holds_iff.1 k3
    exact ⟨n, of_decide_eq_true h2, h1⟩

end Contract
end Verif

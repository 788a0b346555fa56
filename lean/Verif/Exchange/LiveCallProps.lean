import Verif.Exchange.LiveProps
import Verif.Exchange.ExecuteProps

/-
C91, calls: with C73, swaps and deposits in constant-product pools of ordinary size succeed.
-/

namespace Verif
namespace Contract

/-- **C91**, `swap`. Whoever has deposited a positive amount of a token, at most what the pool has of
it, can swap it: the view tells what for, and the call with any demand up to this succeeds and pays
it. The contract must be running, the tokens not frozen and allowed to the caller, the account must
have room for two more tokens, and nothing may be close to the largest number. -/
theorem C91_swap_call {c : Contract} {x : Ctx} (hc : c.After x.now) (hlt : x.now < 2 ^ 32 * 10 ^ 9)
    (hl : c.pools.length ≤ 2 ^ 32) (hr : c.cfg.running = true) {id a : Nat} {i : Bool} {p : SimplePool}
    (hi : c.pools[id]? = some (.simple p)) (hp : c.Covered id)
    (hv : ∀ j, (c.volume id j).1 + 2 ^ 128 ≤ 2 ^ 256 ∧ (c.volume id j).2 + 2 ^ 128 ≤ 2 ^ 256)
    (hb : c.cfg.adminFeeBps ≤ 10000) {ti tout : AccountId} (hti : ti = if i then p.tok1 else p.tok0)
    (hto : tout = if i then p.tok0 else p.tok1)
    {acc : Account} (ha : c.accounts.get? x.pred = some acc)
    (hs : acc.storageUsage + 2 * RECORD_COST ≤ acc.near)
    (hw : x.deposit = 0 → c.cfg.tokenAllowed acc ti = true ∧ c.cfg.tokenAllowed acc tout = true)
    (hf : ti ∉ c.cfg.frozen ∧ tout ∉ c.cfg.frozen)
    (hs0 : 0 < p.supply) (hs1 : 2 * p.supply < 2 ^ 128) (ha0 : 0 < a) (hle : a ≤ c.depositOf x.pred ti)
    (ha1 : a ≤ p.amt i) (hX : p.amt i + a < 2 ^ 128) (hXY : p.amt0 * p.amt1 * 10000 < 2 ^ 256)
    (hfit : c.depositOf x.pred tout + p.amt (!i) < 2 ^ 128) (referral : Option AccountId) :
    ∃ out, c.getReturn x.now id ti a tout = .ok out ∧ ∀ m ≤ out,
      ∃ c', c.executeActions x [.swap ⟨id, ti, some a, tout, m⟩] referral = .ok (c', some out) ∧
        ∀ t, c'.depositOf x.pred t + (if ti = t then a else 0) =
          c.depositOf x.pred t + if tout = t then out else 0 := by
  have hreach := hc.reachable
  obtain ⟨out, ho⟩ := C91_get_return_simple (i := i) (now := x.now) hreach hi hb hs0 hs1 ha0 ha1 hX hXY
  rw [← hti, ← hto] at ho
  have hout : out ≤ p.amt (!i) := by
    have hsnd := hreach.sound _ (List.mem_of_getElem? hi)
    have h := ho
    unfold getReturn at h
    unpack at h
    obtain ⟨p', hp', q, out', hsw, rfl⟩ := h
    rw [pool_ok.1 hp'] at hi
    cases hi
    have hsw := Pool.swap_simple hsw
    obtain ⟨q', rfl, hsw2⟩ := hsw
    have h2 := (_root_.Verif.swap_moves hsw2).2.1
    have e : p.reserve tout = p.amt (!i) := by
      rw [hto]
      unfold SimplePool.reserve
      cases i
      · simp [hsnd.2.symm, SimplePool.amt]
      · simp [SimplePool.amt]
    omega
  exact ⟨out, ho, fun m hm => C73_get_return hc hlt hl hr hp hv ha hs hw hf ho hle (by omega)
    (by omega) hm referral⟩

/-- **C91**, `add_liquidity`. Whoever has deposited enough of both tokens can add liquidity: the view
tells how much is taken and how many shares are minted, and the call takes and mints this. The first
deposit needs a positive amount of both tokens; later ones at most what the pool has, and enough for
one share. -/
theorem C91_add_call {c : Contract} {x : Ctx} (hc : c.After x.now) (hlt : x.now < 2 ^ 32 * 10 ^ 9)
    (hr : c.cfg.running = true) {id a0 a1 : Nat} {p : SimplePool} (hi : c.pools[id]? = some (.simple p))
    (hp : c.Covered id) (hf : p.tok0 ∉ c.cfg.frozen ∧ p.tok1 ∉ c.cfg.frozen)
    (h : p.supply = 0 ∧ 0 < a0 ∧ 0 < a1 ∧ a0 < 2 ^ 128 ∧ a1 < 2 ^ 128 ∨
      p.amt0 ≤ (a0 - 1) * p.supply ∧ p.amt1 ≤ (a1 - 1) * p.supply ∧ 0 < p.supply ∧
        a0 ≤ p.amt0 ∧ a1 ≤ p.amt1 ∧ 2 * p.amt0 < 2 ^ 128 ∧ 2 * p.amt1 < 2 ^ 128 ∧
        2 * p.supply < 2 ^ 128)
    {acc : Account} (ha : c.accounts.get? x.pred = some acc)
    (hs : acc.storageUsage + 2 * RECORD_COST ≤ acc.near)
    (hd0 : a0 ≤ c.depositOf x.pred p.tok0) (hd1 : a1 ≤ c.depositOf x.pred p.tok1)
    (hx : 0 < x.deposit) (hg : x.grew * BYTE_COST ≤ x.deposit) :
    ∃ u0 u1 n, c.predictAdd id [a0, a1] = .ok ([u0, u1], n) ∧ u0 ≤ a0 ∧ u1 ≤ a1 ∧
      ∀ mins : Option (List Nat), (∀ z ∈ [u0, u1].zip (mins.getD []), z.2 ≤ z.1) →
        ∃ c' outs, c.addLiquidity x id [a0, a1] mins = .ok (c', outs, n) ∧
          c'.sharesOf id x.pred = c.sharesOf id x.pred + n ∧
          ∀ t, c'.depositOf x.pred t + flow [p.tok0, p.tok1] [u0, u1] t = c.depositOf x.pred t := by
  have hreach := hc.reachable
  have hne := (hreach.sound _ (List.mem_of_getElem? hi)).2
  obtain ⟨used, n, hv⟩ := C91_predict_add hreach hi h
  have hu : ∃ u0 u1, used = [u0, u1] ∧ u0 ≤ a0 ∧ u1 ≤ a1 := by
    have h := hv
    unfold predictAdd at h
    unpack at h
    obtain ⟨p', hp', q, used', n', ha, rfl, rfl⟩ := h
    rw [pool_ok.1 hp'] at hi
    cases hi
    simp only [Pool.addLiquidity] at ha
    unpack at ha
    obtain ⟨q', used', n', ha, -, rfl, rfl⟩ := ha
    obtain ⟨_, _, u0, u1, e, rfl, -, -, -, -, -, -, -, -, -, -, -, p0, p1, hcase⟩ := addLiquidity_ok ha
    cases e
    refine ⟨u0, u1, rfl, ?_⟩
    rcases hcase with ⟨hs0, h0, h1, hn, rfl, rfl⟩ | ⟨-, rfl, rfl, -⟩
    · have one : ∀ {X b n : Nat}, X ≠ 0 → 0 < b → n ≤ (b - 1) * p.supply / X → X * n / p.supply + 1 ≤ b := by
        intro X b n hX hb hn
        have h2 : X * n ≤ (b - 1) * p.supply := by
          rw [Nat.mul_comm]
          exact (Nat.le_div_iff_mul_le (Nat.pos_of_ne_zero hX)).1 hn
        have h3 : X * n / p.supply ≤ b - 1 := Nat.div_le_of_le_mul (by rw [Nat.mul_comm p.supply]; exact h2)
        omega
      exact ⟨one h0 p0 (by omega), one h1 p1 (by omega)⟩
    · exact ⟨le_refl _, le_refl _⟩
  obtain ⟨u0, u1, rfl, l0, l1⟩ := hu
  refine ⟨u0, u1, n, hv, l0, l1, fun mins hm => ?_⟩
  refine C73_add_liquidity hc hlt hr hp hi (by
    intro t ht
    simp only [Pool.tokens, List.mem_cons, List.not_mem_nil, or_false] at ht
    rcases ht with rfl | rfl
    · exact hf.1
    · exact hf.2) hv hm ha hs (by
    intro t ht
    simp only [Pool.tokens, List.mem_cons, List.not_mem_nil, or_false] at ht
    simp only [Pool.tokens, flow]
    rcases ht with rfl | rfl
    · simp [hne.symm]; omega
    · simp [hne]; omega) hx hg

/-! ### Examples -/

section Examples
open Demo

/-- Bob's swap and Alice's deposit in the pool of the demo. -/
example : (c2.pools[0]?).any (fun p => match p with
      | .simple p => decide (0 < p.supply ∧ 2 * p.supply < 2 ^ 128 ∧ 5000 ≤ p.amt0 ∧
          p.amt0 + 5000 < 2 ^ 128 ∧ p.amt0 * p.amt1 * 10000 < 2 ^ 256 ∧
          c2.depositOf bo B + p.amt1 < 2 ^ 128 ∧ p.amt0 ≤ (1000 - 1) * p.supply ∧
          p.amt1 ≤ (5000 - 1) * p.supply ∧ 2 * p.amt1 < 2 ^ 128)
      | .curve _ => false) = true ∧
    c2.depositOf bo A = 5000 ∧ 1000 ≤ c2.depositOf al A ∧ 5000 ≤ c2.depositOf al B ∧
    (c2.getReturn (10 ^ 18) 0 A 5000 B).holds (fun out => 0 < out ∧
      (c2.executeActions (by' bo) [.swap ⟨0, A, some 5000, B, out⟩] none).holds
        (fun r => r.2 = some out) = true) = true := by decide +kernel

end Examples

end Contract
end Verif

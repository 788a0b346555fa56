import Verif.Exchange.Access
import Verif.Exchange.IdProps
import Verif.Exchange.StorageProps

/-
Witnesses: reachable states in which the code does less than one may expect.
-/

namespace Verif.Contract
open Demo

/-- What a guardian does: register, take the place of the lending contract and liquidate. -/
def seizure : List Event := [
  .call (Demo.near guard) (.storageDeposit none false),
  .call (y guard) (.setting (.burrowland guard)),
  .call (by' guard) (.onBurrowLiquidation guard al "shadow_ref_v1-0".toList (10 ^ 22) [0, 0])]

/-- **C15**, **C21**. Shares that are pledged to the lending contract are safe from everybody but
that contract, but any single guardian can take its place: in a reachable state, with no call of
anybody but one guardian, who is neither the owner nor the holder, pledged shares are turned into
tokens in the guardian's own account. -/
theorem C15_guardian_seizes : ∃ (c : Contract) (es : List Event) (g a : AccountId), c.Reachable ∧
    (∀ e ∈ es, ∃ x k, e = .call x k ∧ x.pred = g) ∧ g ≠ c.cfg.owner ∧ g ≠ a ∧ g ∈ c.cfg.guardians ∧
    c.depositOf g A = 0 ∧ c.depositOf g B = 0 ∧ (c.run es).sharesOf 0 a < c.sharesOf 0 a ∧
    0 < (c.run es).depositOf g A ∧ 0 < (c.run es).depositOf g B := by
  let es : List Event := setup ++ [.call (Demo.near al) (.shadowAction .toBurrowland 0 (some (10 ^ 22)))]
  have key : guard ≠ (c0.run es).cfg.owner ∧ guard ≠ al ∧ guard ∈ (c0.run es).cfg.guardians ∧
      (c0.run es).depositOf guard A = 0 ∧ (c0.run es).depositOf guard B = 0 ∧
      ((c0.run es).run seizure).sharesOf 0 al < (c0.run es).sharesOf 0 al ∧
      0 < ((c0.run es).run seizure).depositOf guard A ∧
      0 < ((c0.run es).run seizure).depositOf guard B := by decide +kernel
  refine ⟨c0.run es, seizure, guard, al, ⟨ex, own, farm, bur, 1600, 400, c0, es, rfl, rfl⟩, ?_, key⟩
  intro e he
  simp only [seizure, List.mem_cons, List.not_mem_nil, or_false] at he
  rcases he with rfl | rfl | rfl <;> exact ⟨_, _, rfl, rfl⟩

/-- **C13**. A withdrawal that unwraps NEAR is over for the contract once the wrapped token has paid:
the transfer of NEAR to the user has no callback, so if it fails, the deposit is gone and nothing is
recorded for the user. -/
theorem C13_near_lost : ∃ (c c1 c2 c3 : Contract) (x x1 x2 : Ctx) (a t : AccountId) (n : Nat),
    c.Reachable ∧ x.pred = a ∧ 0 < n ∧ c.cfg.wnear = some t ∧
    c.exec x (.withdraw t n false (some false)) = .ok (c1, [.unwrap t a n]) ∧
    c1.callback x1 (.unwrap t a n) (.success none) = .ok (c2, [.near a n]) ∧
    c2.callback x2 (.near a n) .failure = .ok (c3, []) ∧
    c3.depositOf a t + n = c.depositOf a t ∧
    c3.lostfound.get? (a, t) = none := by
  have key : (Demo.c1.exec (y al) (.withdraw W 500 false (some false))).holds
      (fun r => decide (r.2 = [.unwrap W al 500]) && decide (Demo.c1.cfg.wnear = some W) &&
        decide (r.1.depositOf al W + 500 = Demo.c1.depositOf al W) &&
        decide (r.1.lostfound.get? (al, W) = none)) = true := by decide +kernel
  obtain ⟨r, h1, h2⟩ := R.holds_iff.1 key
  simp only [Bool.and_eq_true, decide_eq_true_eq] at h2
  exact ⟨Demo.c1, r.1, r.1, r.1, y al, by' ex, by' ex, al, W, 500, c1_reachable, rfl, by decide,
    h2.1.1.2, by rw [h1]; exact congrArg (fun o => (Except.ok (r.1, o) : R _)) h2.1.1.1, rfl, rfl, h2.1.2, h2.2⟩

/-- **C13**. What the receiver of a client echo sends back is not credited to anybody: the callback
after a successful `ft_transfer_call` changes nothing, however much was used. -/
theorem C13_echo_return (c : Contract) (x : Ctx) (t to' : AccountId) (n : Nat) (used : Option Nat) :
    c.callback x (.ftCall t to' n) (.success used) = .ok (c, []) := rfl

/-- **C23**. The owner's account is the exception: a donation of a token that is new to it leaves its
storage unpaid, after which deposits for the owner fail until storage is paid. -/
theorem C23_owner_unpaid : ∃ (c c' : Contract) (x : Ctx) (t : AccountId) (n : Nat) (acc : Account),
    c.Reachable ∧ c.exec x (.donationToken t (some n) false) = .ok (c', []) ∧
    c'.accounts.get? c'.cfg.owner = some acc ∧ ¬ acc.Covered ∧
    (c'.exec (by' B) (.ftOnTransfer own 5 .deposit)).isOk = false := by
  let es : List Event := setup ++ [.call (y own) (.storageWithdraw 0)]
  have key : ((c0.run es).exec (y al) (.donationToken A (some 10) false)).holds
      (fun r => decide (r.2 = []) &&
        (match r.1.accounts.get? r.1.cfg.owner with
        | some acc => decide (¬ acc.storageUsage ≤ acc.near)
        | none => false) &&
        decide ((r.1.exec (by' B) (.ftOnTransfer own 5 .deposit)).isOk = false)) = true := by
    decide +kernel
  obtain ⟨r, h1, h2⟩ := R.holds_iff.1 key
  simp only [Bool.and_eq_true, decide_eq_true_eq] at h2
  obtain ⟨⟨h2, h3⟩, h4⟩ := h2
  cases hacc : r.1.accounts.get? r.1.cfg.owner with
  | none => rw [hacc] at h3; cases h3
  | some acc =>
    rw [hacc] at h3
    exact ⟨c0.run es, r.1, y al, A, 10, acc, ⟨ex, own, farm, bur, 1600, 400, c0, es, rfl, rfl⟩,
      by rw [h1, ← h2], hacc, by simpa [Account.Covered] using h3, h4⟩

/-- **C41**. A pool has one id of its own, but the calls accept other ways to write its number. -/
theorem C41_other_names : ∃ s n, parseTokenId s = .pool n ∧ s ≠ lpTokenId n :=
  ⟨":+007".toList, 7, by decide +kernel, by decide +kernel⟩

end Verif.Contract

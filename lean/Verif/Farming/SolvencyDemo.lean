import Verif.Farming.Solvency
import Verif.Farming.Demo

/-
A concrete history for C50.
-/

namespace Verif.Farming

open Demo

/-- The receipts used in the example; a number is a position in the queue. -/
inductive Move where
  | call (x : Ctx) (k : Call)
  | send (pred : AccountId) (k : Call)
  | deliver (i : Nat) (x : Ctx)
  | giveBack (i : Nat)
  | succeed (i : Nat)
  | fail (i : Nat)
  | resolve (i : Nat) (x : Ctx)

namespace World

/-- The queue without position `i`. -/
def rest (w : World) (i : Nat) : List Item := w.queue.take i ++ w.queue.drop (i + 1)

/-- Carry out one receipt. -/
def play (a : Asset) (w : World) : Move → Option World
  | .call x k =>
    match w.c.exec x k with
    | .ok (c', outs) =>
      if '@' ∉ x.pred ∧ k.receives x.pred a = 0 then
        some ⟨c', w.held, w.queue ++ outs.map .pending⟩
      else none
    | .error _ => none
  | .send pred k =>
    if '@' ∉ pred then some ⟨w.c, w.held + k.receives pred a, w.queue ++ [.arriving pred k]⟩
    else none
  | .deliver i x =>
    match w.queue[i]? with
    | some (.arriving pred k) =>
      if pred = x.pred ∧ '@' ∉ x.pred then
        match w.c.exec x k with
        | .ok (c', outs) => some ⟨c', w.held, w.rest i ++ outs.map .pending⟩
        | .error _ => some ⟨w.c, w.held,
            w.queue.take i ++ .refund (k.receives x.pred a) :: w.queue.drop (i + 1)⟩
      else none
    | _ => none
  | .giveBack i =>
    match w.queue[i]? with
    | some (.refund n) => some ⟨w.c, w.held - min n w.held, w.rest i⟩
    | _ => none
  | .succeed i =>
    match w.queue[i]? with
    | some (.pending o) =>
      if o.pays a ≤ w.held then
        some ⟨w.c, w.held - o.pays a,
          w.queue.take i ++ .settled o true :: w.queue.drop (i + 1)⟩
      else none
    | _ => none
  | .fail i =>
    match w.queue[i]? with
    | some (.pending o) =>
      some ⟨w.c, w.held, w.queue.take i ++ .settled o false :: w.queue.drop (i + 1)⟩
    | _ => none
  | .resolve i x =>
    match w.queue[i]? with
    | some (.settled o ok) =>
      match w.c.callback x o ok with
      | .ok c' => some ⟨c', w.held, w.rest i⟩
      | .error _ => some ⟨w.c, w.held, w.rest i⟩
    | _ => none

theorem split_at {q : List Item} {i : Nat} {a : Item} (h : q[i]? = some a) :
    q = q.take i ++ a :: q.drop (i + 1) := by
  obtain ⟨hi, h⟩ := List.getElem?_eq_some_iff.1 h
  rw [← h, List.getElem_cons_drop, List.take_append_drop]

theorem step_of_play {a : Asset} {w w' : World} {m : Move} (h : w.play a m = some w') :
    w.Step a w' := by
  cases m <;> simp only [play] at h
  case call x k =>
    split at h
    · rename_i he
      split at h
      · rename_i hc; cases h; exact .call he hc.1 hc.2
      · cases h
    · cases h
  case send pred k =>
    split at h
    · cases h; exact .send pred k ‹_›
    · cases h
  case deliver i x =>
    split at h
    · rename_i hq
      split at h
      · rename_i hx
        obtain ⟨rfl, hx⟩ := hx
        split at h
        · rename_i he; cases h; exact .delivered (split_at hq) hx he
        · rename_i he; cases h; exact .refused (split_at hq) he
      · cases h
    · cases h
  case giveBack i =>
    split at h
    · rename_i hq; cases h; exact .refunded (split_at hq)
    · cases h
  case succeed i =>
    split at h
    · rename_i hq
      split at h
      · cases h; exact .succeeded (split_at hq) ‹_›
      · cases h
    · cases h
  case fail i =>
    split at h
    · rename_i hq; cases h; exact .failed (split_at hq)
    · cases h
  case resolve i x =>
    split at h
    · rename_i hq
      split at h
      · rename_i he; cases h; exact .resolved (split_at hq) he
      · rename_i he; cases h; exact .dropped (split_at hq) he
    · cases h

/-- Carry out several receipts. -/
def plays (a : Asset) : World → List Move → Option World
  | w, [] => some w
  | w, m :: ms => (w.play a m).bind fun w => w.plays a ms

theorem Reachable.plays {a : Asset} {w w' : World} {ms : List Move} (hr : w.Reachable a)
    (h : w.plays a ms = some w') : w'.Reachable a := by
  induction ms generalizing w with
  | nil => cases h; exact hr
  | cons m ms ih =>
    simp only [World.plays, Option.bind_eq_some_iff] at h
    obtain ⟨w1, h1, h2⟩ := h
    exact ih (hr.step (step_of_play h1)) h2

end World

/-- `R` is the reward of the farm of `S`, and it is staked itself. `al` has claimed 150 and takes them
out, the transfer fails; `bo` takes out 4 of the 9 `R` they stake, that transfer is under way; 77
more are arriving for the farm, and 5 that the farming contract has refused. -/
def flights : List Move := [
  .call (near 1000 own) (.createSimpleFarm terms (some 1)),
  .call (near 1000 own) (.createSimpleFarm ⟨R', S, 0, 100, 10⟩ (some 1)),
  .succeed 0, .resolve 0 (at' 1000 own),
  .succeed 0, .resolve 0 (at' 1000 own),
  .call (near 1000 al) (.storageDeposit none false),
  .call (near 1000 bo) (.storageDeposit none false),
  .send R' (.ftOnTransfer own 1000 F),
  .send R' (.ftOnTransfer bo 9 []),
  .deliver 1 (at' 1000 R'),
  .deliver 0 (at' 1000 R'),
  .call (at' 1001 S) (.ftOnTransfer al 30 []),
  .call (at' 1001 S) (.ftOnTransfer bo 10 []),
  .call (at' 1020 al) (.claimRewardByFarm F),
  .call (y 1021 al) (.withdrawReward R' none),
  .call (y 1021 bo) (.withdrawSeed R' 4),
  .send R' (.ftOnTransfer own 77 F),
  .send R' (.ftOnTransfer cy 5 []),
  .deliver 3 (at' 1022 R'),
  .fail 0]

/-- The world after the construction of the farming contract. -/
def w0 : World := ⟨.init own, 0, []⟩

/-- The world after `flights`. -/
def w1 : Option World := w0.plays (.ft R') flights

/-- The farm has 800 left to release and 50 to be claimed, 5 are staked, 154 are on their way out,
77 on their way in, and 5 on their way back: 1091, what has been sent. -/
theorem flights_take_place : (w1.map fun w => (w.c.owed (.ft R'), inFlight w.queue (.ft R'), w.held,
    w.queue.length)) = some (855, 236, 1091, 4) := by decide +kernel

example : ∃ w, w1 = some w ∧ w.Reachable (.ft R') ∧ w.c.owed (.ft R') = 855 ∧
    inFlight w.queue (.ft R') = 236 ∧ w.held = 1091 := by
  have h := flights_take_place
  cases hw : w1 with
  | none => rw [hw] at h; cases h
  | some w =>
    rw [hw] at h
    simp only [Option.map_some, Option.some.injEq, Prod.mk.injEq] at h
    exact ⟨w, rfl, World.Reachable.plays (.init own) hw, h.1, h.2.1, h.2.2.1⟩

/-- `al`'s transfer is booked again, the others take place and the 77 reach the farm: nothing is on
its way, 1082 are owed and held. -/
example : (w1.bind fun w => w.plays (.ft R') [.resolve 0 (at' 1023 own), .succeed 0,
    .resolve 0 (at' 1023 own), .giveBack 1, .deliver 0 (at' 1024 R')]).map (fun w =>
      (w.c.owed (.ft R'), inFlight w.queue (.ft R'), w.held, w.c.rewardOf al R')) =
    some (1082, 0, 1082, 150) := by decide +kernel

/-- The shares of a pool: 500 staked, 200 on their way back, then refused and staked again. -/
def shares : List Move := [
  .call (near 1000 own) (.createSimpleFarm ⟨XS, R', 0, 100, 10⟩ (some 1)),
  .succeed 0, .resolve 0 (at' 1000 own),
  .call (near 1000 bo) (.storageDeposit none false),
  .send X (.mftOnTransfer ":3".toList bo 500 []),
  .deliver 0 (at' 1001 X),
  .call (y 1002 bo) (.withdrawSeed XS 200)]

example : (w0.plays (.mft X 3) shares).map (fun w =>
    (w.c.owed (.mft X 3), inFlight w.queue (.mft X 3), w.held)) = some (300, 200, 500) := by
  decide +kernel
example : (w0.plays (.mft X 3) (shares ++ [.fail 0, .resolve 0 (at' 1003 own)])).map (fun w =>
    (w.c.owed (.mft X 3), inFlight w.queue (.mft X 3), w.held)) = some (500, 0, 500) := by
  decide +kernel

/-- The assets of the examples are valid. -/
example : (Asset.ft R').Valid ∧ (Asset.mft X 3).Valid := by
  constructor
  · show '@' ∉ R'; decide
  · show '@' ∉ X ∧ 3 < 2 ^ 64; decide

end Verif.Farming

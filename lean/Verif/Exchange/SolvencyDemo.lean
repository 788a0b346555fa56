import Verif.Exchange.Solvency

/-
Concrete histories for C12 and C13, and what goes wrong without their restrictions.
-/

namespace Verif

open Demo

/-- The receipts used in the example; a number is a position in the queue. -/
inductive Move where
  | call (x : Ctx) (k : Call)
  | send (sender : AccountId) (n : Nat) (msg : Msg)
  | deliver (i : Nat) (x : Ctx)
  | giveBack (i : Nat)
  | succeed (i : Nat)
  | fail (i : Nat)
  | resolve (i : Nat) (x : Ctx)

/-- A decidable form of `Pool.Fine`. -/
def Pool.fineB (t : AccountId) : Pool → Bool
  | .simple _ => true
  | .curve p => (List.range p.toks.length).all fun i =>
      decide (p.toks[i]? = some t) == false || (p.decs[i]?).getD 0 ≤ 18

theorem Pool.fine_of_fineB {p : Pool} {t : AccountId} (h : p.fineB t = true) : p.Fine t := by
  cases p with
  | simple => trivial
  | curve p =>
    intro _ i d h1 h2
    have hi : i < p.toks.length := (List.getElem?_eq_some_iff.1 h1).1
    have := List.all_eq_true.1 h i (List.mem_range.2 hi)
    simpa [h1, h2] using this

/-- Whether the call is `retrieve_unmanaged_token` for the token. -/
def Call.retrieves (t : AccountId) : Call → Bool
  | .retrieveUnmanaged u _ => u == t
  | _ => false

namespace World

/-- The queue without position `i`. -/
def rest (w : World) (i : Nat) : List Item := w.queue.take i ++ w.queue.drop (i + 1)

/-- Carry out one receipt. -/
def play (t : AccountId) (w : World) : Move → Option World
  | .call x k =>
    match w.c.exec x k with
    | .ok (c', outs) =>
      if x.pred ≠ t ∧ k.retrieves t = false ∧ (∀ p ∈ c'.pools, p.fineB t = true) ∧
          c'.cfg.wnear = w.c.cfg.wnear ∨ x.pred ≠ t ∧ k.retrieves t = false ∧
          (∀ p ∈ c'.pools, p.fineB t = true) ∧ w.queue.all (fun i => i.unwraps.isNone) = true then
        some ⟨c', w.held, w.queue ++ outs.map .pending⟩
      else none
    | .error _ => none
  | .send s n m =>
    if w.held + n < 2 ^ 128 then some ⟨w.c, w.held + n, w.queue ++ [.arriving s n m]⟩ else none
  | .deliver i x =>
    if x.pred = t then
      match w.queue[i]? with
      | some (.arriving s n m) =>
        match w.c.exec x (.ftOnTransfer s n m) with
        | .ok (c', outs) => some ⟨c', w.held, w.rest i ++ outs.map .pending⟩
        | .error _ => some ⟨w.c, w.held, w.queue.take i ++ .refund n :: w.queue.drop (i + 1)⟩
      | _ => none
    else none
  | .giveBack i =>
    match w.queue[i]? with
    | some (.refund n) => some ⟨w.c, w.held - min n w.held, w.rest i⟩
    | _ => none
  | .succeed i =>
    match w.queue[i]? with
    | some (.pending o) =>
      if o.pays t ≤ w.held then
        some ⟨w.c, w.held - o.pays t,
          w.queue.take i ++ .settled o (.success none) :: w.queue.drop (i + 1)⟩
      else none
    | _ => none
  | .fail i =>
    match w.queue[i]? with
    | some (.pending o) =>
      some ⟨w.c, w.held, w.queue.take i ++ .settled o .failure :: w.queue.drop (i + 1)⟩
    | _ => none
  | .resolve i x =>
    match w.queue[i]? with
    | some (.settled o r) =>
      match w.c.callback x o r with
      | .ok (c', outs) => some ⟨c', w.held, w.rest i ++ outs.map .pending⟩
      | .error _ => none
    | _ => none

theorem split_at {q : List Item} {i : Nat} {a : Item} (h : q[i]? = some a) :
    q = q.take i ++ a :: q.drop (i + 1) := by
  obtain ⟨hi, h⟩ := List.getElem?_eq_some_iff.1 h
  rw [← h, List.getElem_cons_drop, List.take_append_drop]

theorem step_of_play {t : AccountId} {w w' : World} {m : Move} (h : w.play t m = some w') :
    w.Step t w' := by
  cases m <;> simp only [play] at h
  case call x k =>
    split at h
    · rename_i c' outs he
      split at h
      · rename_i hc
        cases h
        have hk : ∀ n, k ≠ .retrieveUnmanaged t n := by
          rintro n rfl
          rcases hc with ⟨-, hc, -⟩ | ⟨-, hc, -⟩ <;> simp [Call.retrieves] at hc
        rcases hc with ⟨h1, -, h3, h4⟩ | ⟨h1, -, h3, h4⟩
        · exact .call he h1 hk (fun p hp => Pool.fine_of_fineB (h3 p hp)) fun _ => h4
        · refine .call he h1 hk (fun p hp => Pool.fine_of_fineB (h3 p hp)) ?_
          rintro ⟨i, hi, hu⟩
          have := List.all_eq_true.1 h4 i hi
          cases hi' : i.unwraps <;> simp_all
      · cases h
    · cases h
  case send s n m =>
    split at h
    · cases h; exact .send s n m ‹_›
    · cases h
  case deliver i x =>
    split at h
    · rename_i hx
      split at h
      · rename_i s n m hq
        split at h
        · rename_i he; cases h; exact .delivered (split_at hq) hx he
        · rename_i he; cases h; exact .refused (split_at hq) hx he
      · cases h
    · cases h
  case giveBack i =>
    split at h
    · rename_i hq; cases h; exact .refunded (split_at hq)
    · cases h
  case succeed i =>
    split at h
    · rename_i hq
      split at h
      · cases h; exact .succeeded none (split_at hq) ‹_›
      · cases h
    · cases h
  case fail i =>
    split at h
    · rename_i hq; cases h; exact .failed (split_at hq)
    · cases h
  case resolve i x =>
    split at h
    · rename_i hq
      split at h
      · rename_i he; cases h; exact .resolved (split_at hq) he
      · cases h
    · cases h

/-- Carry out several receipts. -/
def plays (t : AccountId) : World → List Move → Option World
  | w, [] => some w
  | w, m :: ms => (w.play t m).bind fun w => w.plays t ms

theorem Reachable.plays {t : AccountId} {w w' : World} {ms : List Move} (hr : w.Reachable t)
    (h : w.plays t ms = some w') : w'.Reachable t := by
  induction ms generalizing w with
  | nil => cases h; exact hr
  | cons m ms ih =>
    simp only [World.plays, Option.bind_eq_some_iff] at h
    obtain ⟨w1, h1, h2⟩ := h
    exact ih (hr.step (step_of_play h1)) h2

end World

/-- Tokens arrive, pools are funded, Bob swaps and withdraws A twice. Of the two transfers the first
fails and has not been booked yet, the second is still under way; one more deposit is arriving. -/
def flights : List Move := [
  .call (y own) (.setting (.extendWhitelist [A, B, W])),
  .call (Demo.near al) (.storageDeposit none false),
  .call (Demo.near bo) (.storageDeposit none false),
  .call (Demo.near own) (.storageDeposit none false),
  .send al 1000000 .deposit,
  .send bo 5000 .deposit,
  .deliver 1 (by' A),
  .deliver 0 (by' A),
  .call (by' B) (.ftOnTransfer al 4000000 .deposit),
  .call (Demo.near al) (.addSimplePool [A, B] 30),
  .call (Demo.near own) (.addCurvePool .stable [A, B] [18, 18] 5 100),
  .call (Demo.near al) (.addLiquidity 0 [100000, 400000] none),
  .call (Demo.near al) (.addStableLiquidity 1 [500000, 500000] 1),
  .call (by' bo) (.executeActions [swapA] none),
  .call (y bo) (.withdraw A 1500 false none),
  .call (y bo) (.withdraw A 500 false none),
  .fail 4,
  .send al 77 .deposit]

/-- The world after the construction of the exchange. -/
def w0 : World := ⟨c0, 0, []⟩

theorem w0_reachable : w0.Reachable A :=
  .init (self := ex) (owner := own) (farm := farm) (burrow := bur) (fee := 1600) (ref := 400) rfl

/-- The example of C12 and C13 takes place: 1 005 077 tokens are held; 402 000 are deposits, 601 000
are reserves, and 2077 are on their way. -/
theorem flights_reachable : ∃ w : World, w.Reachable A ∧ w.held = 1005077 ∧
    depIn w.c.accounts A = 402000 ∧ inFlight w.queue A = 2077 ∧
    Item.settled (.ft A bo 1500) .failure ∈ w.queue ∧ atomsIn w.c.pools A = 601000 * ATOMS := by
  have key : (w0.plays A flights).any (fun (w : World) => decide (w.held = 1005077) &&
      decide (depIn w.c.accounts A = 402000) && decide (inFlight w.queue A = 2077) &&
      decide (atomsIn w.c.pools A = 601000 * ATOMS) &&
      match (w.queue[4]? : Option Item) with
      | some (.settled (.ft t a n) .failure) => decide (t = A ∧ a = bo ∧ n = 1500)
      | _ => false) = true := by decide +kernel
  cases hw : w0.plays A flights with
  | none => rw [hw] at key; cases key
  | some w =>
    rw [hw] at key
    simp only [Option.any_some, Bool.and_eq_true, decide_eq_true_eq] at key
    obtain ⟨⟨⟨⟨h1, h2⟩, h3⟩, h4⟩, h5⟩ := key
    refine ⟨w, w0_reachable.plays hw, h1, h2, h3, ?_, h4⟩
    split at h5
    · rename_i hq
      simp only [decide_eq_true_eq] at h5
      obtain ⟨rfl, rfl, rfl⟩ := h5
      exact List.mem_of_getElem? hq
    · cases h5

/-- C12 applies to that world. -/
example : ∃ w : World, w.Reachable A ∧ 0 < inFlight w.queue A ∧
    depIn w.c.accounts A + inFlight w.queue A < w.held := by
  obtain ⟨w, hr, h1, h2, h3, -⟩ := flights_reachable
  exact ⟨w, hr, by omega, by omega⟩

/-- C13 applies to that world: Bob gets the 1500 back. -/
example : ∃ (w : World) (c' : Contract), w.Reachable A ∧
    w.c.callback (by' ex) (.ft A bo 1500) .failure = .ok (c', []) ∧
    Contract.Credited w.c c' bo A 1500 := by
  obtain ⟨w, hr, -, -, -, h4, -⟩ := flights_reachable
  obtain ⟨c', h1, h2, -⟩ := C13_never_lost_partial hr h4 rfl (by decide) rfl (x := by' ex) (by decide)
  exact ⟨w, c', h1 |> fun h => ⟨hr, h, h2⟩⟩

/-- Why `retrieve` is restricted: the contract lets the owner retrieve any amount of any token,
whoever it belongs to. -/
theorem C12_retrieve_unchecked {c : Contract} {x : Ctx} (hx : x.pred = c.cfg.owner)
    (hd : x.deposit = 1) (t : AccountId) {n : Nat} (hn : 0 < n) :
    c.exec x (.retrieveUnmanaged t n) = .ok (c, [.ftPlain t c.cfg.owner n]) := by
  simp [Contract.exec, Contract.retrieveUnmanaged, Config.assertOwner, Ctx.oneYocto, assertE, hx, hd,
    hn, bind, Except.bind]

/-- Why the wrapped NEAR token must not be replaced: Alice withdraws 300 W, the owner makes B the
wrapped NEAR token, the unwrapping fails, and the callback credits Alice with 300 B. -/
theorem C13_wnear_replaced : ∃ c c' c'' c3 : Contract, c.Reachable ∧
    c.exec (y al) (.withdraw W 300 false (some false)) = .ok (c', [.unwrap W al 300]) ∧
    c'.exec (y own) (.setting (.wnear B)) = .ok (c'', []) ∧
    c''.callback (by' ex) (.unwrap W al 300) .failure = .ok (c3, []) ∧
    c3.depositOf al B = c.depositOf al B + 300 ∧ c3.depositOf al W + 300 = c.depositOf al W := by
  have key : (c1.exec (y al) (.withdraw W 300 false (some false))).holds (fun r =>
      decide (r.2 = [.unwrap W al 300]) && (r.1.exec (y own) (.setting (.wnear B))).holds (fun r2 =>
        decide (r2.2 = []) &&
        (r2.1.callback (by' ex) (.unwrap W al 300) .failure).holds (fun r3 => decide (r3.2 = []) &&
          (decide (r3.1.depositOf al B = c1.depositOf al B + 300) &&
            decide (r3.1.depositOf al W + 300 = c1.depositOf al W))))) = true := by decide +kernel
  obtain ⟨⟨c', o1⟩, h1, key⟩ := R.holds_iff.1 key
  rw [Bool.and_eq_true] at key
  obtain ⟨⟨c'', o2⟩, h2, key2⟩ := R.holds_iff.1 key.2
  rw [Bool.and_eq_true] at key2
  obtain ⟨⟨c3, o3⟩, h3, key3⟩ := R.holds_iff.1 key2.2
  simp only [Bool.and_eq_true, decide_eq_true_eq] at key key2 key3
  obtain ⟨e1, -⟩ := key
  obtain ⟨e2, -⟩ := key2
  obtain ⟨e3, e4, e5⟩ := key3
  subst e1 e2 e3
  exact ⟨c1, c', c'', c3, c1_reachable, h1, h2, h3, e4, e5⟩

end Verif

import Verif.Exchange.World
import Verif.Exchange.TransferProps

/-
C12: solvency. C13: failed outgoing transfers.
-/

namespace Verif

theorem inFlight_append (l l' : List Item) (t : AccountId) :
    inFlight (l ++ l') t = inFlight l t + inFlight l' t := by
  simp only [inFlight, List.map_append, List.sum_append]

theorem inFlight_cons (i : Item) (l : List Item) (t : AccountId) :
    inFlight (i :: l) t = i.inFlight t + inFlight l t := by
  simp only [inFlight, List.map_cons, List.sum_cons]

theorem inFlight_pending (outs : List Out) (t : AccountId) :
    inFlight (outs.map .pending) t = paysOut outs t := by
  simp only [inFlight, paysOut, List.map_map]; rfl

theorem flow_amountsOf {k : CurveKind} {t : AccountId} : ∀ {us : List AccountId} {ds cs as : List Nat},
    CurvePool.amountsOf k ds cs = .ok as → ds.length = cs.length →
    flow us as t * ATOMS ≤ flow us (List.zipWith (fun c d => c * k.weight d) cs ds) t
  | [], _, _, _, _, _ => by simp
  | _ :: _, [], [], as, h, _ => by cases h; simp
  | _ :: _, [], _ :: _, _, _, hl => by simp at hl
  | _ :: _, _ :: _, [], _, _, hl => by simp at hl
  | u :: us, d :: ds, c :: cs, as, h, hl => by
    unfold CurvePool.amountsOf at h
    unpack at h
    obtain ⟨a, ha, r, hr, rfl⟩ := h
    have ih := flow_amountsOf (us := us) (t := t) hr (by simpa using hl)
    simp only [List.zipWith_cons_cons, flow, Nat.add_mul]
    suffices hs : a * ATOMS ≤ c * k.weight d by split <;> omega
    unfold CurvePool.cToAmount at ha
    split at ha
    · rename_i hd
      rw [divW_ok] at ha
      obtain ⟨-, rfl⟩ := ha
      have e : ATOMS = 10 ^ (k.target - d) * k.weight d := by
        rw [CurveKind.weight, ← Nat.pow_add, ATOMS]
        congr 1
        have : k.target ≤ 24 := by cases k <;> simp [CurveKind.target]
        omega
      rw [e, ← Nat.mul_assoc]
      exact Nat.mul_le_mul_right _ (Nat.div_mul_le_self _ _)
    · rename_i hd
      cases k <;> simp only [] at ha
      · rw [mulW_ok] at ha
        obtain ⟨-, rfl⟩ := ha
        rw [Nat.mul_assoc, ATOMS, CurveKind.weight, ← Nat.pow_add]
        simp only [CurveKind.target] at hd ⊢
        rw [show d - 18 + 24 = 24 + d - 18 by omega]
      all_goals cases ha

/-- A pool does not report more than it accounts for. -/
theorem Pool.reported_le {p : Pool} {r : List Nat} (h : p.reported = .ok r) (hp : p.Sound)
    (t : AccountId) : flow p.tokens r t * ATOMS ≤ p.atoms t := by
  cases p with
  | simple p =>
    cases h
    simp only [atoms, tokens, weighted, flow]
    split <;> split <;> simp [Nat.add_mul]
  | curve p => exact flow_amountsOf h (hp.1.decs.trans hp.1.len.symm)

namespace Contract

/-- Wrapped NEAR is unwrapped only when it is the configured wrapped token. -/
theorem exec_unwraps {c c' : Contract} {x : Ctx} {k : Call} {outs : List Out}
    (h : c.exec x k = .ok (c', outs)) {u a : AccountId} {n : Nat} (ho : .unwrap u a n ∈ outs) :
    c'.cfg.wnear = some u := by
  have nn : ∀ {os : List Out} {P : Prop}, nearOnly os → .unwrap u a n ∈ os → P := by
    intro os P h hm
    obtain ⟨_, _, e⟩ := h _ hm
    cases e
  have send : ∀ {c : Contract} {b v : AccountId} {m : Nat} {s : Option Bool},
      .unwrap u a n = c.sendTokens b v m s → c.cfg.wnear = some u := by
    intro c b v m s e
    unfold sendTokens at e
    split at e
    · cases e; exact (‹_ ∧ _›).1
    · cases e
  cases k <;> simp only [exec] at h
  case addSimplePool =>
    obtain ⟨_, -, hn, h1, h⟩ := addSimplePool_inv h
    obtain ⟨q, _, hr, hx, rfl⟩ := addPool_inv h
    exact nn (checkStorage_near hx) ho
  case addCurvePool =>
    obtain ⟨_, -, hl, hn, h1, h⟩ := addCurvePool_inv h
    obtain ⟨q, _, hr, hx, rfl⟩ := addPool_inv h
    exact nn (checkStorage_near hx) ho
  case addLiquidity =>
    unpack at h; obtain ⟨_, _, _, h, rfl, rfl⟩ := h
    obtain ⟨_, p, q, _, _, acc', _, -, -, hq, hn, ha, -, h1, h2, -, hx, rfl⟩ := addLiquidity_inv h
    exact nn (checkStorage_near hx) ho
  case addStableLiquidity =>
    unpack at h; obtain ⟨_, _, _, h, rfl, rfl⟩ := h
    obtain ⟨_, p, q, _, acc', _, -, -, hq, hn, ha, -, h1, h2, -, hx, rfl⟩ := addStableLiquidity_inv h
    exact nn (checkStorage_near hx) ho
  case withdraw token amount unregister skip =>
    obtain ⟨_, _, acc', n, -, -, hn, h1, -, -, h2, h3, -, rfl, rfl⟩ := withdraw_inv h
    exact send (List.mem_singleton.1 ho)
  case claimLostfound token =>
    obtain ⟨-, -, hn, -, rfl, rfl⟩ := claimLostfound_inv h
    cases List.mem_singleton.1 ho
  case ftOnTransfer sender amount msg =>
    obtain ⟨-, -, ⟨-, hn, hd, rfl⟩ | ⟨_, _, _, _, _, rfl, hi⟩ | ⟨_, _, _, rfl, rfl, hz⟩⟩ :=
      ftOnTransfer_inv h
    · cases ho
    · obtain ⟨_, -, -, -, -, -, rfl⟩ := instantSwap_inv hi
      obtain ⟨p, -, e⟩ := List.mem_map.1 ho
      unfold payOut at e
      split at e
      · cases e
      · exact send e.symm
    · cases ho
  case mftTransferCall =>
    obtain ⟨-, -, _, hi, rfl⟩ := mftTransferCall_inv h
    cases List.mem_singleton.1 ho
  case mftRegister =>
    obtain ⟨_, p, q, _, -, -, hq, hr, hx, rfl⟩ := mftRegister_inv h
    exact nn (checkStorage_near hx) ho
  case mftUnregister =>
    obtain ⟨_, p, q, -, -, -, hq, hr, rfl, rfl⟩ := mftUnregister_inv h
    exact nn (storageRefund_near x x.pred) ho
  case storageDeposit =>
    obtain ⟨-, hx, -⟩ := storageDeposit_inv h
    exact nn hx ho
  case storageWithdraw =>
    obtain ⟨acc, n, -, -, h1, -, -, -, rfl, rfl⟩ := storageWithdraw_inv h
    cases List.mem_singleton.1 ho
  case storageUnregister =>
    obtain ⟨-, -, ⟨-, rfl, rfl⟩ | ⟨acc, h1, h2, -, rfl, rfl⟩⟩ := storageUnregister_inv h
    · cases ho
    · cases List.mem_singleton.1 ho
  case shadowAction =>
    obtain ⟨_, _, _, _, -, h1, -, -, -, -, -, ⟨-, rfl, rfl⟩ | ⟨-, acc', _, os, h2, -, hx, rfl, rfl⟩⟩ :=
      shadowAction_inv h
    · cases List.mem_singleton.1 ho
    · rcases List.mem_append.1 ho with ho | ho
      · exact nn (checkStorage_near hx) ho
      · cases List.mem_singleton.1 ho
  case onBurrowLiquidation =>
    obtain ⟨_, p, q, _, acc, acc1, _, acc2, acc3, liq, liq', -, -, -, hq, hn, h1, h2, -, h3, h4, -, h5,
      ha, h6, -, rfl, rfl⟩ := onBurrowLiquidation_inv h
    split at ho
    · cases List.mem_singleton.1 ho
    · cases ho
  case donationShare =>
    obtain ⟨p, _, q, q', -, -, hq, -, -, hs, hu, hx, hc⟩ := donationShare_inv h
    exact nn hx ho
  case retrieveUnmanaged token n =>
    unpack at h; obtain ⟨_, h, rfl, rfl⟩ := h
    obtain ⟨-, -, -, rfl⟩ := retrieveUnmanaged_inv h
    cases List.mem_singleton.1 ho
  case withdrawOwnerToken =>
    obtain ⟨_, own', -, -, -, -, h1, h2, rfl, rfl⟩ := withdrawOwnerToken_inv h
    exact send (List.mem_singleton.1 ho)
  all_goals
    unpack at h
    first
      | (obtain ⟨_, -, -, rfl⟩ := h; cases ho)
      | (obtain ⟨_, _, -, -, rfl⟩ := h; cases ho)

theorem ftOnTransfer_length {c c' : Contract} {x : Ctx} {sender : AccountId} {n : Nat} {msg : Msg}
    {outs : List Out} (h : c.exec x (.ftOnTransfer sender n msg) = .ok (c', outs)) :
    c'.pools.length = c.pools.length := by
  simp only [exec] at h
  obtain ⟨-, -, ⟨-, hn, hd, rfl⟩ | ⟨_, _, _, _, _, rfl, hi⟩ | ⟨_, _, _, rfl, rfl, hz⟩⟩ :=
    ftOnTransfer_inv h
  · obtain ⟨acc, acc', h1, -, h2, -, rfl⟩ := deposit_inv hd
    rfl
  · obtain ⟨_, -, -, -, hd, -, rfl⟩ := instantSwap_inv hi
    obtain ⟨steps, _, _, hs, -⟩ := directActions_ok hd
    exact hs.framed.length
  · obtain ⟨acc, ts, left, c1, zaps, c2, rest, acc', -, -, h1, hi, -, hn, h2, hza, hr, -,
      ⟨acc0, h3, -, -, h4⟩, -, rfl⟩ := hotZap_inv hz
    obtain ⟨steps, _, _, hs, -, -, hb, -⟩ := directActions_ok h2
    exact (hs.framed.trans hza.framed.1).length

end Contract

theorem PoolsTo.fine {l l' : List Pool} {t : AccountId} (h : PoolsTo l l')
    (hl : l'.length = l.length) (hf : ∀ p ∈ l, p.Fine t) : ∀ p ∈ l', p.Fine t := by
  intro q hq
  obtain ⟨i, hi, rfl⟩ := List.getElem_of_mem hq
  obtain ⟨q', hq', hs⟩ := h.shape i (l[i]'(hl ▸ hi)) (List.getElem?_eq_getElem _)
  rw [List.getElem?_eq_getElem hi] at hq'
  cases hq'
  exact .of_shape hs (hf _ (List.getElem_mem _))

/-! ### The invariant -/

structure World.Inv (t : AccountId) (w : World) : Prop where
  reach : w.c.Reachable
  solvent : w.c.owed t + ATOMS * inFlight w.queue t ≤ ATOMS * w.held
  range : w.held < 2 ^ 128
  fine : ∀ p ∈ w.c.pools, p.Fine t
  wnear : ∀ i ∈ w.queue, ∀ u, i.unwraps = some u → w.c.cfg.wnear = some u

theorem Contract.Reachable.next {c c' : Contract} {e : Event} {outs : List Out} (h : c.Reachable)
    (he : c.apply e = .ok (c', outs)) : c'.Reachable := by
  have := h.step e
  rwa [Contract.step, he] at this

theorem Item.unwraps_pending {outs : List Out} {i : Item} (h : i ∈ outs.map Item.pending)
    {u : AccountId} (hu : i.unwraps = some u) : ∃ a n, .unwrap u a n ∈ outs := by
  obtain ⟨o, ho, rfl⟩ := List.mem_map.1 h
  cases o <;> simp only [Item.unwraps] at hu <;> cases hu
  exact ⟨_, _, ho⟩

theorem Item.unwraps_near {outs : List Out} (hn : Contract.nearOnly outs) {i : Item}
    (h : i ∈ outs.map Item.pending) : i.unwraps = none := by
  obtain ⟨o, ho, rfl⟩ := List.mem_map.1 h
  obtain ⟨_, _, rfl⟩ := hn o ho
  rfl

/-- What a callback books is what the receipt accounted for. -/
theorem World.Inv.books {t : AccountId} {w : World} (h : w.Inv t) {o : Out} {r : Outcome}
    (ho : .settled o r ∈ w.queue) : w.c.books t o r = (Item.settled o r).inFlight t := by
  cases o <;> cases r <;> try rfl
  case unwrap u a n =>
    have := h.wnear _ ho u rfl
    simp [Contract.books, Item.inFlight, this, Out.tracked, Out.pays]

theorem World.Inv.step {t : AccountId} {w w' : World} (h : w.Inv t) (hs : w.Step t w') :
    w'.Inv t := by
  obtain ⟨hr, hsol, hrange, hfine, hw⟩ := id h
  have sound := hr.sound
  have gone : ∀ {l1 l2 : List Item} {i j : Item}, w.queue = l1 ++ i :: l2 → j ∈ l1 ++ l2 →
      j ∈ w.queue := by
    intro l1 l2 i j e hj
    rw [e]
    rcases List.mem_append.1 hj with hj | hj
    · exact List.mem_append_left _ hj
    · exact List.mem_append_right _ (List.mem_cons_of_mem _ hj)
  have swapped : ∀ {l1 l2 : List Item} {i i' j : Item}, w.queue = l1 ++ i :: l2 →
      (∀ u, i'.unwraps = some u → i.unwraps = some u) → j ∈ l1 ++ i' :: l2 →
      ∀ u, j.unwraps = some u → w.c.cfg.wnear = some u := by
    intro l1 l2 i i' j e hi hj u hu
    rcases List.mem_append.1 hj with hj | hj
    · exact hw j (by rw [e]; exact List.mem_append_left _ hj) u hu
    · rcases List.mem_cons.1 hj with rfl | hj
      · exact hw i (by rw [e]; simp) u (hi u hu)
      · exact hw j (by rw [e]; simp [hj]) u hu
  cases hs with
  | call he hx hk hf hwn =>
    refine ⟨hr.next (e := .call _ _) he, ?_, hrange, hf, ?_⟩
    · have e1 := Contract.exec_ledger he hk sound hfine
      have e2 : ∀ (x : Ctx) (k : Call), x.pred ≠ t → k.arrives x t = 0 := by
        intro x k hx
        cases k <;> simp [Call.arrives, hx]
      rw [e2 _ _ hx] at e1
      simp only [inFlight_append, inFlight_pending, ATOMS] at e1 hsol ⊢
      omega
    · intro i hi u hu
      rcases List.mem_append.1 hi with hi | hi
      · show Config.wnear _ = _
        rw [hwn ⟨i, hi, by rw [hu]; rfl⟩]; exact hw i hi u hu
      · obtain ⟨_, _, ho⟩ := Item.unwraps_pending hi hu
        exact Contract.exec_unwraps he ho
  | retrieve he hle =>
    obtain ⟨-, -, -, rfl⟩ := Contract.retrieveUnmanaged_inv he
    refine ⟨hr, ?_, hrange, hfine, ?_⟩
    · have e : ∀ a n, paysOut [.ftPlain t a n] t = n := by intro a n; simp [paysOut, Out.pays]
      simp only [inFlight_append, inFlight_pending, e]
      exact hle
    · intro i hi u hu
      rcases List.mem_append.1 hi with hi | hi
      · exact hw i hi u hu
      · cases List.mem_singleton.1 hi; cases hu
  | send sender n msg hn =>
    refine ⟨hr, ?_, hn, hfine, ?_⟩
    · simp only [inFlight_append, inFlight_cons, Item.inFlight]
      have : inFlight [] t = 0 := rfl
      simp only [this, ATOMS] at hsol ⊢
      omega
    · intro i hi u hu
      rcases List.mem_append.1 hi with hi | hi
      · exact hw i hi u hu
      · cases List.mem_singleton.1 hi; cases hu
  | gift n hn =>
    refine ⟨hr, ?_, hn, hfine, hw⟩
    simp only [ATOMS] at hsol ⊢
    omega
  | @delivered _ _ x s n m c1 _ hq hx he =>
    refine ⟨hr.next (e := .call x (.ftOnTransfer s n m)) he, ?_, hrange,
      (Contract.exec_poolsTo he).fine (Contract.ftOnTransfer_length he) hfine, ?_⟩
    · have e1 := Contract.exec_ledger (t := t) he (fun n e => by cases e) sound hfine
      rw [hq] at hsol
      simp only [inFlight_append, inFlight_cons, inFlight_pending, Item.inFlight, Call.arrives, hx,
        if_true, ATOMS] at e1 hsol ⊢
      omega
    · have hcfg : c1.cfg = w.c.cfg := by
        rcases (Contract.exec_cfg he).2 with h | ⟨s, hk, -⟩
        · exact h
        · cases hk
      intro i hi u hu
      rcases List.mem_append.1 hi with hi | hi
      · show Config.wnear _ = _
        rw [hcfg]; exact hw i (gone hq hi) u hu
      · obtain ⟨_, _, ho⟩ := Item.unwraps_pending hi hu
        exact Contract.exec_unwraps he ho
  | refused hq hx he =>
    refine ⟨hr, ?_, hrange, hfine, fun j hj => swapped hq (fun u hu => by cases hu) hj⟩
    rw [hq] at hsol
    simp only [inFlight_append, inFlight_cons, Item.inFlight] at hsol ⊢
    exact hsol
  | refunded hq =>
    refine ⟨hr, ?_, by show _ - _ < _; omega, hfine, fun j hj => hw j (gone hq hj)⟩
    rw [hq] at hsol
    simp only [inFlight_append, inFlight_cons, Item.inFlight, ATOMS] at hsol ⊢
    omega
  | succeeded v hq hle =>
    refine ⟨hr, ?_, by show _ - _ < _; omega, hfine, fun j hj => swapped hq (fun u hu => ?_) hj⟩
    · rw [hq] at hsol
      simp only [inFlight_append, inFlight_cons, Item.inFlight, ATOMS] at hsol ⊢
      omega
    · simp only [Item.unwraps] at hu; cases hu
  | @failed _ _ o hq =>
    refine ⟨hr, ?_, hrange, hfine, fun j hj => swapped hq (fun u hu => ?_) hj⟩
    · rw [hq] at hsol
      simp only [inFlight_append, inFlight_cons, Item.inFlight, ATOMS] at hsol ⊢
      split <;> omega
    · cases o <;> exact hu
  | @resolved _ _ x o r _ _ hq he =>
    have hb := h.books (o := o) (r := r) (by rw [hq]; simp)
    obtain ⟨e1, hn⟩ := Contract.callback_ledger he t
    obtain ⟨hcfg, -, hlen⟩ := Contract.callback_same he
    refine ⟨hr.next (e := .callback x o r) he, ?_, hrange,
      (Contract.callback_poolsTo he).fine hlen hfine, ?_⟩
    · rw [hq] at hsol
      rw [hb] at e1
      simp only [inFlight_append, inFlight_cons, inFlight_pending, hn.pays t, ATOMS] at e1 hsol ⊢
      omega
    · intro i hi u hu
      rcases List.mem_append.1 hi with hi | hi
      · show Config.wnear _ = _
        rw [hcfg]; exact hw i (gone hq hi) u hu
      · rw [Item.unwraps_near hn hi] at hu; cases hu
  | dropped hq he =>
    refine ⟨hr, ?_, hrange, hfine, fun j hj => hw j (gone hq hj)⟩
    rw [hq] at hsol
    simp only [inFlight_append, inFlight_cons, ATOMS] at hsol ⊢
    omega
  | rate u r time =>
    refine ⟨hr.next (e := .rate u r time) rfl, ?_, hrange, ?_, ?_⟩
    all_goals simp only [Contract.setRate]; split <;> assumption
  | price u p time =>
    refine ⟨hr.next (e := .price u p time) rfl, ?_, hrange, ?_, ?_⟩
    all_goals simp only [Contract.setDegenPrice]; split <;> assumption

theorem World.Reachable.inv {t : AccountId} {w : World} (h : w.Reachable t) : w.Inv t := by
  induction h with
  | @init self owner farm burrow fee ref c h0 =>
    have hr : c.Reachable := ⟨self, owner, farm, burrow, fee, ref, c, [], h0, rfl⟩
    unfold Contract.init at h0
    unpack at h0
    obtain ⟨-, rfl⟩ := h0
    refine ⟨hr, ?_, by simp, by simp, by simp⟩
    have e1 : depIn FMap.empty t = 0 := rfl
    have e2 : lostIn FMap.empty t = 0 := rfl
    have e3 : atomsIn [] t = 0 := rfl
    simp [Contract.owed, inFlight, e1, e2, e3]
  | step _ hs ih => exact ih.step hs

/-! ### C12 -/

/-- The sum of what the pools report of token `t`. -/
def reservesIn (pools : List Pool) (reported : List (List Nat)) (t : AccountId) : Nat :=
  (List.zipWith (fun p r => flow p.tokens r t) pools reported).sum

theorem reservesIn_le {t : AccountId} {l : List Pool} {rs : List (List Nat)}
    (h : List.Forall₂ (fun p r => p.reported = .ok r) l rs) (hs : ∀ p ∈ l, p.Sound) :
    reservesIn l rs t * ATOMS ≤ atomsIn l t := by
  induction h with
  | nil => simp [reservesIn]
  | cons h1 _ ih =>
    have e1 := Pool.reported_le h1 (hs _ (List.mem_cons_self ..)) t
    have e2 := ih fun p hp => hs p (List.mem_cons_of_mem _ hp)
    simp only [reservesIn, atomsIn, List.zipWith_cons_cons, List.map_cons, List.sum_cons,
      Nat.add_mul] at e1 e2 ⊢
    omega

/-- **C12**. Whatever receipts have run in whatever order, the exchange holds at least the sum of all
deposits, all lost-and-found entries, what its pools account for, and what is on its way. Missing: the
three restrictions of `World.Step`, without which the claim is false (`C36_remove_tokens_leak`,
`C12_retrieve_unchecked`, `C13_wnear_replaced`). -/
theorem C12_solvent_partial {t : AccountId} {w : World} (h : w.Reachable t) :
    ATOMS * (depIn w.c.accounts t + lostIn w.c.lostfound t + inFlight w.queue t) +
      atomsIn w.c.pools t ≤ ATOMS * w.held := by
  have := h.inv.solvent
  simp only [Contract.owed, ATOMS] at this ⊢
  omega

/-- **C12**, with the reserves that the pools report. -/
theorem C12_reported_partial {t : AccountId} {w : World} (h : w.Reachable t) {rs : List (List Nat)}
    (hr : List.Forall₂ (fun p r => p.reported = .ok r) w.c.pools rs) :
    depIn w.c.accounts t + lostIn w.c.lostfound t + reservesIn w.c.pools rs t +
      inFlight w.queue t ≤ w.held := by
  have e1 := C12_solvent_partial h
  have e2 := reservesIn_le (t := t) hr h.inv.reach.sound
  simp only [ATOMS] at e1 e2
  omega

/-- Consequence of C12: a transfer of the token by the exchange is covered when it runs. -/
theorem C12_transfer_covered_partial {t : AccountId} {w : World} (h : w.Reachable t) {o : Out}
    (ho : .pending o ∈ w.queue) : o.pays t ≤ w.held := by
  have e1 := C12_solvent_partial h
  obtain ⟨l1, l2, e⟩ := List.append_of_mem ho
  simp only [e, inFlight_append, inFlight_cons, Item.inFlight, ATOMS] at e1
  omega

/-! ### C13 -/

theorem Contract.handleFail_total {c : Contract} {x : Ctx} {a u : AccountId} {n held : Nat}
    (h : c.owed u + ATOMS * n ≤ ATOMS * held) (hh : held < 2 ^ 128) (hx : x.usage < 2 ^ 64) :
    ∃ c', c.handleFail x a u n = .ok c' := by
  have hd : ∀ b, balIn c.accounts b u + n < 2 ^ 128 := by
    intro b
    have := balIn_le_depIn c.accounts b u
    simp only [owed, ATOMS] at h
    omega
  have hlo : c.lostfound.getD (a, u) 0 + n < 2 ^ 128 := by
    have := lostIn_erase c.lostfound a u u
    rw [if_pos rfl] at this
    simp only [owed, ATOMS] at h
    omega
  have lost : ∃ c', c.handleLost x a u n = .ok c' := by
    have h1 : mulW 128 BYTE_COST x.usage = .ok (BYTE_COST * x.usage) := by
      refine mulW_ok.2 ⟨?_, rfl⟩
      generalize x.usage = k at hx ⊢
      simp only [BYTE_COST]
      omega
    have h2 : addW 128 (BYTE_COST * x.usage) MIN_FREE = .ok (BYTE_COST * x.usage + MIN_FREE) := by
      refine addW_ok.2 ⟨?_, rfl⟩
      generalize x.usage = k at hx ⊢
      simp only [BYTE_COST, MIN_FREE]
      omega
    have h3 : addW 128 (c.lostfound.getD (a, u) 0) n = .ok (c.lostfound.getD (a, u) 0 + n) :=
      addW_ok.2 ⟨hlo, rfl⟩
    have h4 : addW 128 n ((c.accountOrNew c.cfg.owner).bal u) =
        .ok (n + (c.accountOrNew c.cfg.owner).bal u) := by
      refine addW_ok.2 ⟨?_, rfl⟩
      rw [accountOrNew_bal]
      have := hd c.cfg.owner
      omega
    unfold handleLost
    rw [h1, ok_bind, h2, ok_bind]
    split
    · unfold insertLostfound
      rw [h3, ok_bind]
      exact ⟨_, rfl⟩
    · unfold ownerLostfound Account.deposit
      split
      · rw [h4, ok_bind, ok_bind]
        exact ⟨_, rfl⟩
      · rw [ok_bind]
        exact ⟨_, rfl⟩
  unfold handleFail
  split
  · rename_i acc ha
    unfold Account.depositChecked
    split
    · rename_i s hs
      have e : acc.bal u = s.amt := by rw [Account.bal_def, hs]; rfl
      have := hd a
      rw [balIn_some ha, e] at this
      have h5 : addW 128 s.amt n = .ok (s.amt + n) := addW_ok.2 ⟨this, rfl⟩
      rw [h5, ok_bind, ok_bind]
      exact ⟨_, rfl⟩
    · simp only []
      split
      · rw [ok_bind]
        exact ⟨_, rfl⟩
      · exact lost
  · exact lost

/-- **C13**. Whatever happened since the transfer was ordered: once it has failed, its callback does
not panic, and it credits the full amount to the user's deposit, the user's lost-and-found entry or
the owner's deposit and changes nothing else. Missing: the restrictions of `World.Step`; without
the one on the wrapped NEAR token the claim is false (`C13_wnear_replaced`). -/
theorem C13_never_lost_partial {t : AccountId} {w : World} (h : w.Reachable t) {o : Out} {a : AccountId}
    (ho : .settled o .failure ∈ w.queue) (ht : o.tracked = true) (hp : 0 < o.pays t)
    (ha : o.receiver = some a) {x : Ctx} (hx : x.usage < 2 ^ 64) :
    ∃ c', w.c.callback x o .failure = .ok (c', []) ∧ Contract.Credited w.c c' a t (o.pays t) ∧
      c'.pools = w.c.pools ∧ c'.cfg = w.c.cfg := by
  have hi := h.inv
  have hb := hi.books ho
  have hw := hi.wnear _ ho
  have hle : w.c.owed t + ATOMS * o.pays t ≤ ATOMS * w.held := by
    have := hi.solvent
    obtain ⟨l1, l2, e⟩ := List.append_of_mem ho
    simp only [e, inFlight_append, inFlight_cons, Item.inFlight, ht, if_true, ATOMS] at this ⊢
    omega
  have key : w.c.refundOf o = some (t, a, o.pays t) := by
    cases o <;> simp only [Out.tracked, Out.pays, Out.receiver] at ht hp ha <;> cases ha
    case unwrap u n =>
      rw [Contract.refundOf, hw u rfl]
      split at hp
      · rename_i e; subst e; simp [Out.pays]
      · cases hp
    case ftPlain => cases ht
    all_goals
      split at hp
      · rename_i e; subst e; simp [Contract.refundOf, Out.pays]
      · cases hp
  have tot := Contract.handleFail_total (a := a) (x := x) hle hi.range hx
  obtain ⟨c', hc⟩ := tot
  have hcb : w.c.callback x o .failure = .ok (c', []) := by
    cases o <;> simp only [Contract.refundOf] at key
    case unwrap u b n =>
      rw [hw u rfl] at key
      simp only [Option.map_some, Option.some.injEq, Prod.mk.injEq] at key
      obtain ⟨rfl, rfl, e⟩ := key
      simp only [Contract.callback, hw u rfl, expectE, bind, Except.bind]
      rw [← e] at hc
      rw [hc]
    case ft | ftCall =>
      simp only [Option.some.injEq, Prod.mk.injEq] at key
      obtain ⟨rfl, rfl, e⟩ := key
      rw [← e] at hc
      simp only [Contract.callback, bind, Except.bind, hc]
    all_goals cases key
  obtain ⟨h1, -, h2, h3⟩ := Contract.C13_failed_transfer key hcb
  exact ⟨c', hcb, h1, h2, h3⟩

end Verif

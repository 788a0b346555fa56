import Verif.Exchange.ExactLedger
import Verif.Exchange.Demo
import Verif.Exchange.PoolProps

/-
C55: exact conservation of tokens.
-/

namespace Verif

/-- The reserve of token `t` in a constant-product pool; stable-swap pools do not count. -/
def Pool.stock (t : AccountId) : Pool → Nat
  | .simple p => p.reserve t
  | .curve _ => 0

namespace Contract

/-- Everything the contract accounts for of token `t`: the deposits and lost-and-found entries of all
accounts and the reserves of the constant-product pools. -/
def total (c : Contract) (t : AccountId) : Nat :=
  (c.accounts.sum fun _ a => a.bal t) + (c.lostfound.sum fun k n => if k.2 = t then n else 0) +
    (c.pools.map (Pool.stock t)).sum

theorem Plain.owed {c : Contract} {t : AccountId} (h : c.Plain t) (hs : ∀ p ∈ c.pools, p.Sound) :
    c.owed t = ATOMS * c.total t := by
  have : ∀ l : List Pool, (∀ p ∈ l, p.Plain t) → (∀ p ∈ l, p.Sound) →
      atomsIn l t = ATOMS * (l.map (Pool.stock t)).sum := by
    intro l
    induction l with
    | nil => intro _ _; rfl
    | cons p l ih =>
      intro h1 h2
      have e := ih (fun q hq => h1 q (List.mem_cons_of_mem _ hq))
        (fun q hq => h2 q (List.mem_cons_of_mem _ hq))
      have ep : p.atoms t = ATOMS * p.stock t := by
        cases p with
        | simple p =>
          rw [Pool.simple_atoms p t (h2 _ (List.mem_cons_self ..)).2, Nat.mul_comm]; rfl
        | curve p =>
          have := (h1 _ (List.mem_cons_self ..)).absent
          unfold Pool.atoms
          rw [flow_not_mem this]; rfl
      simp only [atomsIn, List.map_cons, List.sum_cons, Nat.mul_add] at e ⊢
      rw [ep, e]
  rw [Contract.owed, this c.pools h hs, total, depIn, lostIn, ← Nat.mul_add]

/-- No event unlists a token from a pool, so what is plain now was plain before. -/
theorem Plain.before {c c' : Contract} {t : AccountId} (h : c'.Plain t)
    (hp : PoolsTo c.pools c'.pools) : c.Plain t := by
  intro p hm
  obtain ⟨id, hid⟩ := List.getElem?_of_mem hm
  obtain ⟨q, hq, hs⟩ := hp.shape id p hid
  exact (h q (List.mem_of_getElem? hq)).of_shape hs.symm

/-! ### One receipt -/

/-- **C55**, calls. If no stable-swap pool lists the token, what the contract accounts for of it
changes by exactly what arrives with the call minus what the call sends away. -/
theorem C55_call_exact {c c' : Contract} (hc : c.Reachable) {x : Ctx} {k : Call} {outs : List Out}
    {t : AccountId} (h : c.exec x k = .ok (c', outs)) (hk : ∀ n, k ≠ .retrieveUnmanaged t n)
    (ht : c'.Plain t) : c'.total t + paysOut outs t = c.total t + k.arrives x t := by
  have hp := exec_poolsTo h
  have ht0 := ht.before hp
  have e := exec_exact h hk hc.sound ht0
  rw [ht.owed (hp.sound hc.sound), ht0.owed hc.sound] at e
  simp only [ATOMS] at e
  omega

/-- **C55**, callbacks. The result of a promise changes what the contract accounts for by exactly
the amount of the transfer, if that failed, and not at all otherwise. -/
theorem C55_callback_exact {c c' : Contract} (hc : c.Reachable) {x : Ctx} {out : Out} {o : Outcome}
    {outs : List Out} (h : c.callback x out o = .ok (c', outs)) {t : AccountId} (ht : c'.Plain t) :
    c'.total t = c.total t + c.books t out o ∧ paysOut outs t = 0 := by
  have hp := callback_poolsTo h
  obtain ⟨e, hn⟩ := callback_ledger h t
  rw [ht.owed (hp.sound hc.sound), (ht.before hp).owed hc.sound] at e
  refine ⟨?_, hn.pays t⟩
  simp only [ATOMS] at e
  omega

/-! ### Histories -/

/-- What an event brings of token `t`: the amount of a transfer to the contract, or the amount of a
failed transfer that comes back. -/
def brings (c : Contract) (t : AccountId) : Event → Nat
  | .call x k => k.arrives x t
  | .callback _ out o => c.books t out o
  | _ => 0

/-- What the events of a history bring of token `t` and what they send away. An event that panics
does neither. -/
def moved (t : AccountId) : Contract → List Event → Nat × Nat
  | _, [] => (0, 0)
  | c, e :: es =>
    match c.apply e with
    | .error _ => moved t c es
    | .ok (c', outs) =>
      (c.brings t e + (moved t c' es).1, paysOut outs t + (moved t c' es).2)

/-- The event is the owner's `retrieve_unmanaged_token` for token `t`. -/
def _root_.Verif.Event.retrieves (t : AccountId) : Event → Prop
  | .call _ (.retrieveUnmanaged u _) => u = t
  | _ => False

theorem apply_exact {c c' : Contract} (hc : c.Reachable) {e : Event} {outs : List Out} {t : AccountId}
    (h : c.apply e = .ok (c', outs)) (hk : ¬ e.retrieves t) (ht : c'.Plain t) :
    c'.total t + paysOut outs t = c.total t + c.brings t e := by
  cases e with
  | call x k =>
    refine C55_call_exact hc h ?_ ht
    rintro n rfl
    exact hk rfl
  | callback x out o =>
    obtain ⟨e1, e2⟩ := C55_callback_exact hc h ht
    rw [e1, e2]; rfl
  | rate => cases h; rw [show paysOut [] t = 0 from rfl]; unfold setRate; split <;> rfl
  | price => cases h; rw [show paysOut [] t = 0 from rfl]; unfold setDegenPrice; split <;> rfl

/-- **C55**. Over any history in which no stable-swap pool lists the token and the owner does not
retrieve it as unmanaged, what the contract accounts for, plus all it sent away, is exactly what it
accounted for at the start plus all that arrived. Not a unit is lost, none is counted twice. -/
theorem C55_history_exact {t : AccountId} (es : List Event) : ∀ {c : Contract}, c.Reachable →
    (∀ e ∈ es, ¬ e.retrieves t) → (c.run es).Plain t →
    (c.run es).total t + (moved t c es).2 = c.total t + (moved t c es).1 := by
  induction es with
  | nil => intro c _ _ _; rfl
  | cons e es ih =>
    intro c hc hk ht
    have hk' := fun e he => hk e (List.mem_cons_of_mem _ he)
    have hr : c.run (e :: es) = (c.step e).run es := rfl
    have hst := hc.step e
    have hstep : c.step e = match c.apply e with | .ok r => r.1 | .error _ => c := rfl
    rw [hr] at ht ⊢
    simp only [moved]
    cases ha : c.apply e with
    | error _ =>
      simp only [ha] at hstep
      rw [hstep] at ht ⊢
      exact ih hc hk' ht
    | ok r =>
      simp only [ha] at hstep
      rw [hstep] at ht hst ⊢
      obtain ⟨c', outs⟩ := r
      have ht' : c'.Plain t := by
        intro p hp
        obtain ⟨id, hid⟩ := List.getElem?_of_mem hp
        obtain ⟨q, hq, hs⟩ := C52_pool_identity es c' hid
        exact (ht q (List.mem_of_getElem? hq)).of_shape hs.symm
      have e1 := ih hst hk' ht
      have e2 := apply_exact hc ha (hk e (List.mem_cons_self ..)) ht'
      simp only at e1 ⊢
      omega

/-! ### An example -/

open Demo

/-- Alice and Bob trade in a constant-product pool; Bob withdraws. -/
def plainDemo : List Event := [
  .call (y own) (.setting (.extendWhitelist [A, B])),
  .call (Demo.near al) (.storageDeposit none false),
  .call (Demo.near bo) (.storageDeposit none false),
  .call (Demo.near own) (.storageDeposit none false),
  .call (by' A) (.ftOnTransfer al 1000000 .deposit),
  .call (by' B) (.ftOnTransfer al 4000000 .deposit),
  .call (by' A) (.ftOnTransfer bo 5000 .deposit),
  .call (Demo.near al) (.addSimplePool [A, B] 30),
  .call (Demo.near al) (.addLiquidity 0 [100000, 400000] none),
  .call (by' bo) (.executeActions [swapA] none),
  .call (y bo) (.withdraw B 1 false none),
  .call (y bo) (.withdraw A 1500 false none),
  .callback (by' ex) (.ft A bo 1500) .failure]

example : Contract.init ex own farm bur 1600 400 = .ok c0 ∧ c0.total A = 0 ∧
    moved A c0 plainDemo = (1006500, 1500) ∧ (c0.run plainDemo).total A = 1005000 ∧
    (c0.run plainDemo).depositOf bo A = 4000 ∧ (c0.run plainDemo).pools.length = 1 :=
  ⟨rfl, by decide +kernel⟩

example : (c0.run plainDemo).Plain A := by
  have key : (c0.run plainDemo).pools.all (fun p => match p with
    | .simple _ => true | .curve _ => false) = true := by decide +kernel
  intro p hp _
  have := List.all_eq_true.1 key p hp
  cases p with
  | simple p => exact ⟨p, rfl⟩
  | curve p => cases this

end Contract

end Verif

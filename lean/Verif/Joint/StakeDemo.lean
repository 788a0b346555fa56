import Verif.Joint.StakeProps
import Verif.Exchange.Demo
import Verif.Farming.Demo

/-
A small concrete history of the exchange and the farming contract together: the hypotheses of C82 are
met, and what C82 does not promise.
-/

namespace Verif.StakeWorld
open Verif.Demo

/-- The farming contract. -/
def fm : AccountId := "fm".toList
/-- A holder of shares without an account at the exchange. -/
def cy : AccountId := "cy".toList
def L : List Char := [':', '0']
def S0 : Farming.SeedId := Farming.mftSeedId ex 0

/-- The farming contract and Cy are registered in pool 0; Alice gives Cy 5000 shares. -/
def moreSetup : List Event := [
  .call (Demo.near al) (.mftRegister L fm),
  .call (Demo.near al) (.mftRegister L cy),
  .call (Demo.y al) (.mftTransfer L cy 5000)]

def prepared : Contract := c1.run moreSetup

def newFarm : Farming.Event :=
  .call (Farming.Demo.near 1000 own) (.createSimpleFarm ⟨S0, Farming.Demo.R', 0, 100, 10⟩ (some 1))
def newFarmer : Farming.Event := .call (Farming.Demo.near 1000 al) (.storageDeposit none false)

/-- A farm for the shares of pool 0, in which Alice is registered. -/
def farmed : Farming.Contract := ((Farming.Contract.init own).step newFarm).step newFarmer

example : prepared.sharesOf 0 cy = 5000 ∧ prepared.accounts.contains cy = false ∧
    prepared.mftHasRegistered L ex = true := by decide +kernel
example : farmed.seedTotal S0 = 0 ∧ farmed.seeds.contains S0 = true := by decide +kernel

/-- Calls by others that are not transfer-calls. -/
def plainCalls (es : List Event) : Bool :=
  es.all fun
    | .call _ (.mftTransferCall ..) => false
    | .call x _ => x.pred ≠ fm
    | _ => false

theorem calls_reachable {es : List Event} {w : StakeWorld} (hw : w.Reachable fm)
    (h : plainCalls es = true) : ∃ q : List Parcel, (∀ i ∈ q, ∃ o : Out, i = .promised o ∧ o.plain) ∧
      Reachable fm ⟨w.e.run es, w.f, w.queue ++ q⟩ := by
  induction es generalizing w with
  | nil => exact ⟨[], by simp, by rw [List.append_nil]; exact hw⟩
  | cons e es ih =>
    unfold plainCalls at h
    rw [List.all_cons, Bool.and_eq_true] at h
    obtain ⟨h1, h2⟩ := h
    cases e with
    | call x k =>
      have hk : x.pred ≠ fm ∧ ∀ t r n, k ≠ .mftTransferCall t r n := by
        cases k
        case mftTransferCall => cases h1
        all_goals exact ⟨by simpa using h1, fun _ _ _ e => nomatch e⟩
      have hrun : w.e.run (.call x k :: es) = (w.e.step (.call x k)).run es := rfl
      rw [hrun]
      cases he : w.e.exec x k with
      | error er =>
        have : w.e.step (.call x k) = w.e := by simp only [Contract.step, Contract.apply, he]
        rw [this]
        exact ih hw h2
      | ok r =>
        obtain ⟨e', outs⟩ := r
        have : w.e.step (.call x k) = e' := by simp only [Contract.step, Contract.apply, he]
        rw [this]
        obtain ⟨q, hq, hr⟩ := ih (hw.step (.call he hk.1)) h2
        refine ⟨outs.map .promised ++ q, ?_, by rw [← List.append_assoc]; exact hr⟩
        intro i hi
        rcases List.mem_append.1 hi with hi | hi
        · obtain ⟨o, ho, rfl⟩ := List.mem_map.1 hi
          exact ⟨o, rfl, Contract.exec_plain he hk.2 o ho⟩
        · exact hq i hi
    | _ => cases h1

theorem callAt {e : Contract} {f : Farming.Contract} {q : List Parcel} {x : Ctx} {k : Call}
    {outs : List Out} (h : Reachable fm ⟨e, f, q⟩) (hk : (e.exec x k).holds (·.2 = outs) = true)
    (hx : x.pred ≠ fm) : Reachable fm ⟨e.step (.call x k), f, q ++ outs.map .promised⟩ := by
  have := PledgeWorld.applied (e := .call x k) hk
  exact h.step (.call this hx)

theorem resolveAt {e : Contract} {f : Farming.Contract} {q : List Parcel} {x : Ctx} {out : Out}
    {o : Outcome} {outs : List Out} (h : Reachable fm ⟨e, f, q ++ [.answered out o]⟩)
    (hk : (e.callback x out o).holds (·.2 = outs) = true) :
    Reachable fm ⟨e.step (.callback x out o), f, q ++ outs.map .promised⟩ := by
  have := PledgeWorld.applied (e := .callback x out o) hk
  have := h.step (.resolve (l1 := q) (l2 := []) rfl this)
  rw [List.append_nil] at this
  exact this

theorem ran {f : Farming.Contract} {x : Farming.Ctx} {k : Farming.Call} {outs : List Farming.Out}
    (h : (f.exec x k).holds (·.2 = outs) = true) :
    f.exec x k = .ok (f.step (.call x k), outs) := by
  cases he : f.exec x k with
  | error _ => rw [he] at h; cases h
  | ok r =>
    rw [he] at h
    obtain ⟨f', o⟩ := r
    simp only [R.holds, decide_eq_true_eq] at h
    simp only [Farming.Contract.step, Farming.Contract.apply, he, h]

theorem farmAt {e : Contract} {f : Farming.Contract} {q : List Parcel} {x : Farming.Ctx}
    {k : Farming.Call} {outs : List Farming.Out} (h : Reachable fm ⟨e, f, q⟩)
    (hk : (f.exec x k).holds (·.2 = outs) = true) (hx : x.pred ≠ e.self) (hx' : '@' ∉ x.pred) :
    Reachable fm ⟨e, f.step (.call x k), q ++ outs.map .requested⟩ :=
  h.step (.callFarm (ran hk) hx hx')

theorem refuseAt {e : Contract} {f : Farming.Contract} {q : List Parcel} {out : Out}
    (h : Reachable fm ⟨e, f, q ++ [.promised out]⟩) :
    Reachable fm ⟨e, f, q ++ [.answered out .failure]⟩ := h.step (.refuse (l1 := q) (l2 := []) rfl)

theorem deliverAt {e : Contract} {f : Farming.Contract} {q : List Parcel} {x : Farming.Ctx}
    {t msg : List Char} {a : AccountId} {n : Nat}
    (h : Reachable fm ⟨e, f, q ++ [.promised (.mftCall t a fm n)]⟩)
    (hk : (f.exec x (.mftOnTransfer t a n msg)).holds (·.2 = []) = true) (hx : x.pred = e.self) :
    Reachable fm ⟨e, f.step (.call x (.mftOnTransfer t a n msg)),
      q ++ [.answered (.mftCall t a fm n) (.success (some 0))]⟩ := by
  have := h.step (.deliver (l1 := q) (l2 := []) rfl hx (ran hk))
  simp only [List.map_nil, List.append_nil] at this
  exact this

/-- The starting point: shares in the exchange, a farm, nothing of interest under way. -/
theorem prepared_reachable : ∃ q : List Parcel,
    (∀ i ∈ q, (∃ o : Out, i = .promised o ∧ o.plain) ∨ i = .requested (.near own (10 ^ 24))) ∧
    Reachable fm ⟨prepared, farmed, q⟩ := by
  obtain ⟨q, hq, hr⟩ := calls_reachable (es := setup ++ moreSetup)
    (.init (e := c0) (self := ex) (owner := own) (farm := farm) (burrow := bur) (fowner := own)
      (fee := 1600) (ref := 400) rfl (by decide) (by decide)) (by decide +kernel)
  have e : c0.run (setup ++ moreSetup) = prepared := by
    simp only [prepared, c1, Contract.run, List.foldl_append]
  rw [e] at hr
  have h1 : Reachable fm ⟨prepared, (Farming.Contract.init own).step newFarm, _⟩ :=
    farmAt (outs := [.near own (10 ^ 24)]) hr (by decide +kernel)
      (show own ≠ prepared.self by decide +kernel) (show '@' ∉ own by decide)
  have h2 : Reachable fm ⟨prepared, farmed, _⟩ :=
    farmAt (outs := []) h1 (by decide +kernel)
      (show al ≠ prepared.self by decide +kernel) (show '@' ∉ al by decide)
  refine ⟨_, ?_, h2⟩
  intro i hi
  simp only [List.nil_append, List.map_nil, List.append_nil, List.map_cons, List.mem_append,
    List.mem_singleton] at hi
  rcases hi with hi | rfl
  · exact .inl (hq i hi)
  · exact .inr rfl

/-! ### Staking and withdrawing -/

/-- Alice sends 700 shares to the farming contract. -/
def sent : Contract := prepared.step (.call (Demo.y al) (.mftTransferCall L fm (some 700)))
/-- The farming contract accepts them. -/
def taken : Farming.Contract :=
  farmed.step (.call (Farming.Demo.at' 1001 ex) (.mftOnTransfer L al 700 []))
/-- Alice withdraws 300 of them. -/
def withdrawing : Farming.Contract :=
  taken.step (.call (Farming.Demo.y 1002 al) (.withdrawSeed S0 300))

/-- 400 shares are staked, 300 are on their way back, and the farming contract holds 700. -/
theorem withdrawing_reachable : ∃ q : List Parcel, Reachable fm ⟨sent, withdrawing, q⟩ ∧
    .requested (.mftSeed S0 ex ['0'] al 300) ∈ q := by
  obtain ⟨q, -, hr⟩ := prepared_reachable
  have h1 : Reachable fm ⟨sent, farmed, q ++ [.promised (.mftCall L al fm 700)]⟩ :=
    callAt (outs := [.mftCall L al fm 700]) hr (by decide +kernel) (show al ≠ fm by decide)
  have h2 : Reachable fm ⟨sent, taken, _⟩ :=
    deliverAt h1 (by decide +kernel) (show ex = sent.self by decide +kernel)
  have h3 : Reachable fm ⟨sent, withdrawing, _⟩ :=
    farmAt (outs := [.mftSeed S0 ex ['0'] al 300]) h2 (by decide +kernel)
      (show al ≠ sent.self by decide +kernel) (show '@' ∉ al by decide)
  exact ⟨_, h3, by simp⟩

example : withdrawing.seedTotal S0 = 400 ∧ withdrawing.stakeOf al S0 = 400 := by decide +kernel
example : sent.sharesOf 0 fm = 700 ∧ sent.mftHasRegistered L al = true ∧ sent.self = ex ∧
    sent.cfg.running = true := by decide +kernel

/-- The hypotheses of `C82_backed`, `C82_withdraw` and `C82_owner` are met. -/
example : ∃ w : StakeWorld, w.Reachable fm ∧ w.staked 0 = 400 ∧ w.e.sharesOf 0 fm = 700 ∧
    w.e.Succeeds (Demo.y fm) (.mftTransfer L al 300) := by
  obtain ⟨q, hr, hq⟩ := withdrawing_reachable
  have hs : sent.self = ex := by decide +kernel
  have k1 : StakeWorld.staked ⟨sent, withdrawing, q⟩ 0 = 400 := by
    unfold staked
    dsimp only
    rw [hs]
    decide +kernel
  have k2 : sent.sharesOf 0 fm = 700 := by decide +kernel
  have hq' : .requested (.mftSeed S0 sent.self ['0'] al 300) ∈ q := by rw [hs]; exact hq
  have h1 : sent.cfg.running = true := by decide +kernel
  have h2 : sent.mftHasRegistered (':' :: ['0']) al = true := by decide +kernel
  have h3 : al ≠ fm := by decide
  have hx : (Demo.y fm).pred = fm := rfl
  have hd : (Demo.y fm).deposit = 1 := rfl
  generalize sent = e at *
  have key := C82_withdraw (w := ⟨e, withdrawing, q⟩) (x := Demo.y fm) hr hq' hx hd
  have h4 := key.2 ⟨h1, h3, by omega, h2⟩
  exact ⟨⟨e, withdrawing, q⟩, hr, k1, k2, h4⟩

theorem stake_keeps {e e' : Contract} {f f' : Farming.Contract} {q : List Parcel} {x : Ctx}
    {x' : Farming.Ctx} {t : List Char} {m : Option Nat} {n id : Nat}
    (h1 : e.exec x (.mftTransferCall t fm m) = .ok (e', [.mftCall t x.pred fm n])) (hx : x.pred ≠ fm)
    (h2 : f.exec x' (.mftOnTransfer t x.pred n []) = .ok (f', [])) (hx' : x'.pred = e'.self) :
    ∃ q', Keeps fm x.pred id ⟨e, f, q⟩ ⟨e', f', q'⟩ :=
  ⟨_, .step (.step .refl (.call h1 hx) fun h => by cases h with | own _ hk => exact hk _ _ rfl)
    (.deliver (l1 := q) (l2 := []) rfl hx' h2) fun h => nomatch h⟩

/-- The hypotheses of `C82_kept` are met: Alice stakes. -/
example : ∃ q q' : List Parcel, Reachable fm ⟨prepared, farmed, q⟩ ∧
    Keeps fm al 0 ⟨prepared, farmed, q⟩ ⟨sent, taken, q'⟩ := by
  obtain ⟨q, -, hr⟩ := prepared_reachable
  have h1 := PledgeWorld.applied (c := prepared)
    (e := .call (Demo.y al) (.mftTransferCall L fm (some 700))) (outs := [.mftCall L al fm 700])
    (by decide +kernel)
  have h2 := ran (f := farmed) (x := Farming.Demo.at' 1001 ex) (k := .mftOnTransfer L al 700 [])
    (outs := []) (by decide +kernel)
  have hx : (Farming.Demo.at' 1001 ex).pred = sent.self := by decide +kernel
  obtain ⟨q', hk⟩ := stake_keeps (q := q) (id := 0) h1 (show al ≠ fm by decide) h2 hx
  exact ⟨q, q', hr, hk⟩

/-! ### Without an account at the exchange -/

/-- Cy sends 5000 shares to the farming contract. -/
def sentBy : Contract := prepared.step (.call (Demo.y cy) (.mftTransferCall L fm (some 5000)))
/-- What the farming contract has refused is given back. -/
def givenBack : Contract :=
  sentBy.step (.callback (Demo.by' ex) (.mftCall L cy fm 5000) .failure)

/-- **C82** needs the account at the exchange. Cy holds 5000 shares, which needs a registration in the
pool and no account. The farming contract refuses them, as Cy is not registered there. They do not
come back to Cy: the exchange keeps them, and its owner may withdraw them. -/
theorem C82_homeless : ∃ w w' : StakeWorld, w.Reachable fm ∧
    w.e.sharesOf 0 cy = 5000 ∧ (∀ i ∈ w.queue, i.owner ≠ cy) ∧
    (∀ x f', x.pred = w.e.self → w.f.exec x (.mftOnTransfer L cy 5000 []) ≠ .ok f') ∧
    w'.Reachable fm ∧ w'.e.sharesOf 0 cy = 0 ∧ w'.f.stakeOf cy S0 = 0 ∧
    (∀ i ∈ w'.queue, i.owner ≠ cy) ∧ w'.e.sharesOf 0 ex = w.e.sharesOf 0 ex + 5000 := by
  obtain ⟨q, hq, hr⟩ := prepared_reachable
  have h1 : Reachable fm ⟨sentBy, farmed, q ++ [.promised (.mftCall L cy fm 5000)]⟩ :=
    callAt (outs := [.mftCall L cy fm 5000]) hr (by decide +kernel) (show cy ≠ fm by decide)
  have h2 : Reachable fm ⟨sentBy, farmed, q ++ [.answered (.mftCall L cy fm 5000) .failure]⟩ :=
    refuseAt h1
  have h3 : Reachable fm ⟨givenBack, farmed, q ++ ([] : List Out).map .promised⟩ :=
    resolveAt h2 (by decide +kernel)
  have ho : ∀ i ∈ q, i.owner ≠ cy := by
    intro i hi
    rcases hq i hi with ⟨o, rfl, ho⟩ | rfl
    · cases o <;> first | exact ho.elim | exact (by decide : ([] : List Char) ≠ cy)
    · exact (by decide : ([] : List Char) ≠ cy)
  have k1 : prepared.sharesOf 0 cy = 5000 := by decide +kernel
  have k2 : givenBack.sharesOf 0 cy = 0 := by decide +kernel
  have k3 : farmed.stakeOf cy S0 = 0 := by decide +kernel
  have k4 : givenBack.sharesOf 0 ex = prepared.sharesOf 0 ex + 5000 := by decide +kernel
  refine ⟨⟨prepared, farmed, q⟩, ⟨givenBack, farmed, _⟩, hr, k1, ho, ?_, h3, k2, k3,
    by simpa using ho, k4⟩
  rintro x ⟨f', outs⟩ - h
  simp only [Farming.Contract.exec] at h
  rw [bind_ok] at h
  obtain ⟨f1, h, -⟩ := h
  obtain ⟨-, p, fs, -, -, -, h, -⟩ := Farming.Contract.mftOnTransfer_inv h
  unfold Farming.Contract.seedDeposit Farming.Contract.claimBySeed Farming.Contract.farmer at h
  rw [bind_ok] at h
  obtain ⟨_, h, -⟩ := h
  rw [bind_ok] at h
  obtain ⟨u, h, -⟩ := h
  rw [show farmed.farmers.get? cy = none by decide +kernel] at h
  cases h

end Verif.StakeWorld

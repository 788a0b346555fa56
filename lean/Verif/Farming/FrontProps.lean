import Verif.Farming.ShareProps
import Verif.Farming.Effects

/-
C79: what others do just before a farmer claims takes nothing from the farmer.
-/

namespace Verif.Farming

namespace SimpleFarm

/-- Distributing again at the same time leads to the same rate, whatever the total stake is by then
and however much has been claimed. -/
theorem distribute_again {f g : SimpleFarm} {now T T' n k : Nat} (h : f.distribute now T = .ok g)
    (hT : T ≠ 0) (hT' : T' ≠ 0) :
    ∃ o, tryDistribute { g with
        dist := { g.dist with unclaimed := g.dist.unclaimed - n }, amountOfClaimed := k } now T' = .ok o ∧
      (match o with | some d => d.rps | none => g.dist.rps) = g.dist.rps := by
  unfold distribute at h
  rw [bind_ok] at h
  obtain ⟨o, ho, h⟩ := h
  cases o with
  | none =>
    cases h
    refine ⟨none, ?_, rfl⟩
    unfold tryDistribute at ho ⊢
    simp only
    split
    · rename_i hr
      rw [if_pos hr] at ho
      split
      · rfl
      · rename_i hn
        rw [if_neg hn] at ho
        unpack at ho
        obtain ⟨_, _, _, _, _, _, _, _, _, _, _, h⟩ := ho
        cases h
    · rfl
  | some d =>
    simp only [bind_ok] at h
    obtain ⟨f1, h1, h⟩ := h
    by_cases hz : f1.dist.undistributed = 0
    · rw [if_pos hz] at h
      cases h
      exact ⟨none, rfl, rfl⟩
    · rw [if_neg hz] at h
      cases h
      unfold tryDistribute at ho
      split at ho
      · rename_i hrun
        split at ho
        · cases ho
        · rename_i hnow
          simp only [bind_ok, subW_ok, divW_ok, mulW_ok, addW_ok] at ho
          obtain ⟨_, ⟨hs, rfl⟩, _, ⟨hi, rfl⟩, _, ⟨hrr, rfl⟩, _, ⟨hdue, rfl⟩, ⟨rr', added⟩, hb, ho⟩ := ho
          simp only at ho
          obtain ⟨_, ⟨hun, rfl⟩, _, ⟨hle, rfl⟩, rps, hrps, ho⟩ := ho
          cases ho
          have hbound : rps < 2 ^ 256 := by
            unfold nextRps at hrps
            rw [if_neg hT] at hrps
            simp only [bind_ok, mulW_ok, divW_ok, addW_ok] at hrps
            obtain ⟨_, _, _, _, hlt, rfl⟩ := hrps
            exact hlt
          -- the farm has reached the current round
          have key : g.status = .running ∧ g.terms = f.terms ∧
              g.dist.rr = (toSec now - f.terms.startAt) / f.terms.sessionInterval ∧
              g.dist.unclaimed < 2 ^ 128 ∧ g.dist.rps < 2 ^ 256 := by
            unfold adopt at h1
            unfold Dist.advance at hb
            split at h1
            · rename_i he
              simp only at he
              cases h1
              split at hb
              · rename_i hlt
                exfalso
                have hround : (toSec now - f.terms.startAt) / f.terms.sessionInterval < 2 ^ 32 :=
                  Nat.lt_of_le_of_lt (Nat.div_le_self _ _) (by have := toSec_lt now; omega)
                obtain ⟨h2, h3, h4, h5⟩ := Dist.lastRound_ok hb hlt (by omega)
                rw [← he] at h4
                simp only [Nat.sub_self, Nat.zero_mul] at h4
                omega
              · cases hb
                refine ⟨hrun, rfl, he, by omega, ?_⟩
                have := nextRps_ok hrps
                rcases this with ⟨h0, _⟩ | ⟨_, h2⟩
                · exact absurd h0 hT
                · exact Nat.lt_of_le_of_lt (by rw [h2]; exact Nat.le_add_right _ _) hbound
            · cases h1
              simp only at hz
              split at hb
              · exfalso
                rename_i hlt
                have hround : (toSec now - f.terms.startAt) / f.terms.sessionInterval < 2 ^ 32 :=
                  Nat.lt_of_le_of_lt (Nat.div_le_self _ _) (by have := toSec_lt now; omega)
                obtain ⟨h2, h3, h4, h5⟩ := Dist.lastRound_ok hb hlt (by omega)
                omega
              · cases hb
                exact ⟨hrun, rfl, rfl, hun, hbound⟩
          obtain ⟨k1, k2, k3, k4, k5⟩ := key
          refine ⟨some ⟨g.dist.undistributed, g.dist.unclaimed - n, g.dist.rps,
            (toSec now - f.terms.startAt) / f.terms.sessionInterval⟩, ?_, rfl⟩
          unfold tryDistribute
          simp only [k1, if_true, k2, if_neg hnow]
          simp only [bind_ok, subW_ok, divW_ok, mulW_ok, addW_ok]
          refine ⟨_, ⟨hs, rfl⟩, _, ⟨hi, rfl⟩, 0, ⟨by omega, by omega⟩, 0, ⟨by simp, by simp⟩,
            ((toSec now - f.terms.startAt) / f.terms.sessionInterval, 0), ?_, ?_⟩
          · unfold Dist.advance
            rw [if_neg (by omega)]
          · refine ⟨g.dist.unclaimed - n, ⟨by omega, rfl⟩, _, ⟨Nat.zero_le _, rfl⟩, g.dist.rps, ?_, rfl⟩
            unfold nextRps
            rw [if_neg hT']
            simp only [bind_ok, mulW_ok, divW_ok, addW_ok]
            exact ⟨0, ⟨by simp, by simp⟩, 0, ⟨hT', by simp⟩, k5, rfl⟩
      · cases ho

/-- Depositing reward in a running farm leaves the rate alone: a farm that would run out of reward
accepts none. -/
theorem addReward_view {f g : SimpleFarm} {now n : Nat} (h : f.addReward now n = .ok (some g))
    (hc : f.status ≠ .created) : g.terms = f.terms ∧ g.status = .running ∧
      ∀ last st T, g.viewUnclaimed now last st T = f.viewUnclaimed now last st T := by
  unfold addReward at h
  split at h
  · rename_i hs; exact absurd hs hc
  · rename_i hs
    rw [bind_ok] at h
    obtain ⟨dis, hd, h⟩ := h
    split at h
    · cases h
    · rename_i hany
      unpack at h
      obtain ⟨hlt, hund, h⟩ := h
      cases h
      refine ⟨rfl, hs, fun last st T => ?_⟩
      unfold viewUnclaimed
      split
      · rfl
      · rename_i hT
        split
        · rfl
        · unfold tryDistribute at hd ⊢
          simp only [if_pos hs] at hd ⊢
          split at hd
          · rename_i hn
            rw [if_pos hn, if_pos hn]
          · rename_i hn
            rw [if_neg hn, if_neg hn]
            simp only [bind_ok] at hd
            obtain ⟨el, e1, rr, e2, rounds, e3, due, e4, ⟨rr', added⟩, e5, hd⟩ := hd
            simp only [bind_ok, subW_ok, addW_ok] at hd
            obtain ⟨_, ⟨hun, rfl⟩, _, ⟨hle, rfl⟩, rps, _, hd⟩ := hd
            cases hd
            simp only [Option.any_some, decide_eq_true_eq] at hany
            have hge : ¬ f.dist.undistributed < due := by
              intro hlt
              unfold Dist.advance at e5
              rw [if_pos hlt] at e5
              unfold Dist.lastRound at e5
              unpack at e5
              obtain ⟨_, _, _, e5⟩ := e5
              split at e5
              · unpack at e5
                omega
              · cases e5
                omega
            have e5' : Dist.advance { f.dist with undistributed := f.dist.undistributed + n }
                f.terms.rewardPerSession rr due = .ok (rr', added) := by
              unfold Dist.advance at e5 ⊢
              rw [if_neg hge] at e5
              rw [if_neg (by simp only; omega)]
              exact e5
            have a1 : addW 128 f.dist.unclaimed added = .ok (f.dist.unclaimed + added) :=
              addW_ok.2 ⟨hun, rfl⟩
            have a2 : subW f.dist.undistributed added = .ok (f.dist.undistributed - added) :=
              subW_ok.2 ⟨hle, rfl⟩
            have a3 : subW (f.dist.undistributed + n) added = .ok (f.dist.undistributed + n - added) :=
              subW_ok.2 ⟨by omega, rfl⟩
            simp only [e1, e2, e3, e4, e5, e5', a1, a2, a3, ok_bind]
            cases nextRps f.dist.rps added T <;> rfl
  · cases h

end SimpleFarm

/-- What an event that does not clear the farm `f` does to it and to the total stake `T` in its seed:
nothing, or reward is released at the total `T` and some of it claimed, or reward is deposited. -/
def Stirred (c c' : Contract) (now : Nat) (id : FarmId) (f : SimpleFarm) : Prop :=
  c'.seeds.get? f.terms.seedId ≠ none ∧
  ((c'.farms.get? id = some f ∧ c'.seedTotal f.terms.seedId = c.seedTotal f.terms.seedId) ∨
    (∃ g n k, f.distribute now (c.seedTotal f.terms.seedId) = .ok g ∧
      c'.farms.get? id = some { g with
        dist := { g.dist with unclaimed := g.dist.unclaimed - n }, amountOfClaimed := k }) ∨
    ∃ g n, f.addReward now n = .ok (some g) ∧ c'.farms.get? id = some g ∧
      c'.seedTotal f.terms.seedId = c.seedTotal f.terms.seedId)

namespace Contract
open Demo

variable {c c' : Contract}

theorem Stirred.refl (hI : Inv c) {now : Nat} {id : FarmId} {f : SimpleFarm}
    (hf : c.farms.get? id = some f) : Stirred c c now id f := by
  obtain ⟨fs, hs, _⟩ := (hI.farms id f hf).seed
  exact ⟨by rw [hs]; nofun, .inl ⟨hf, rfl⟩⟩

/-- The claims of a farmer, and a change of the total stake if the farm is among the farms claimed
from. -/
theorem _root_.Verif.Farming.Claims.stirred {x : Ctx} {who : AccountId} {ids : List FarmId} {c1 : Contract}
    (h : Claims x who c ids c1) (hI : Inv c) (hn : ids.Nodup) {id : FarmId} {f : SimpleFarm}
    (hf : c.farms.get? id = some f) (h1 : c'.farms = c1.farms)
    (h2 : c'.seeds.get? f.terms.seedId ≠ none)
    (h3 : id ∉ ids → c'.seedTotal f.terms.seedId = c.seedTotal f.terms.seedId) :
    Stirred c c' x.now id f := by
  refine ⟨h2, ?_⟩
  rw [h1]
  by_cases hid : id ∈ ids
  · right; left
    clear h1 h2 h3
    induction h with
    | nil => cases hid
    | @cons c c2 i ids u u1 f' f1 fs m1 hu hf' hs hc hrest ih =>
      simp only [List.nodup_cons] at hn
      have hI' := hI.claimStep hu hf' hs hc
      by_cases he : id = i
      · subst he
        rw [hf] at hf'
        cases hf'
        obtain ⟨g, added, n, hcl⟩ := claimFromFarm_ok hc
        obtain ⟨h4, _⟩ := hrest.other hI' hn.1
        refine ⟨g, n, g.amountOfClaimed + n, ?_, h4.trans ?_⟩
        · have := hcl.run
          unfold seedTotal
          rw [hs]
          exact this
        · show (c.farms.insert id f1).get? id = _
          rw [FMap.get?_insert_self, hcl.farm]
      · simp only [List.mem_cons, he, false_or] at hid
        exact ih hI' hn.2 ((FMap.get?_insert_ne _ _ he).trans hf) hid
  · exact .inl ⟨(h.other hI hid).1.trans hf, h3 hid⟩

theorem seedDeposit_stirred {x : Ctx} {who : AccountId} {s : SeedId} {n : Nat} {mft : Bool} (hI : Inv c)
    (h : c.seedDeposit x who s n mft = .ok c') {id : FarmId} {f : SimpleFarm}
    (hf : c.farms.get? id = some f) : Stirred c c' x.now id f := by
  obtain ⟨fs, c1, u, u', hs, hc, hu, hu', hlt, rfl⟩ := seedDeposit_ok hI h
  obtain ⟨fs', hs', hin, _⟩ := (hI.farms id f hf).seed
  refine hc.stirred hI (hI.order_nodup hs x) hf rfl ?_ ?_
  · show (c1.seeds.insert s _).get? _ ≠ none
    rw [hc.same.seeds, FMap.get?_insert]
    split
    · nofun
    · rw [hs']; nofun
  · intro hid
    have hne : f.terms.seedId ≠ s := by
      rintro rfl
      rw [hs] at hs'
      cases hs'
      exact hid ((x.order.perm fs.farms).mem_iff.2 hin)
    show (match (c1.seeds.insert s _).get? _ with | some fs => fs.amount | none => 0) = _
    rw [hc.same.seeds, FMap.get?_insert_ne _ _ hne]
    rfl

theorem event_stirred {e : Event} {outs : List Out} (hI : Inv c) (h : c.apply e = .ok (c', outs))
    {id : FarmId} {f : SimpleFarm} (hf : c.farms.get? id = some f) (ht : ∀ x, e ≠ .call x (.forceCleanFarm id)) :
    Stirred c c' e.ctx.now id f := by
  obtain ⟨fs0, hs0, hin0, i0, hi0, hgen0⟩ := (hI.farms id f hf).seed
  have refl := Stirred.refl hI (now := e.ctx.now) hf
  have hseed : c.seeds.get? f.terms.seedId ≠ none := by rw [hs0]; nofun
  cases e with
  | callback x o ok =>
    obtain rfl | ⟨_, ⟨t, who, n, u, u1, _, hu, h1, rfl⟩ | ⟨s, who, n, _, h1⟩ |
      ⟨s, _, _, who, n, _, h1⟩⟩ := callback_inv (exec_quiet h).1
    · exact refl
    · exact refl
    · exact seedDeposit_stirred hI h1 hf
    · exact seedDeposit_stirred hI h1 hf
  | call x k =>
    simp only [apply] at h
    cases k with
    | createSimpleFarm t m =>
      obtain ⟨_, h1, _, hr, _⟩ := createSimpleFarm_inv h
      obtain ⟨fs, hfs, _, rfl⟩ := addFarm_ok h1
      have hne : id ≠ genFarmId t.seedId fs.nextIndex := by
        intro he
        obtain ⟨g1, g2⟩ := genFarmId_inj (hgen0.symm.trans he)
        rcases hfs with hs | ⟨hs, _⟩
        · rw [← g1, hs0] at hs
          cases hs
          omega
        · rw [← g1, hs0] at hs
          cases hs
      refine ⟨?_, .inl ⟨(FMap.get?_insert_ne _ _ hne).trans hf, ?_⟩⟩
      · show (c.seeds.insert t.seedId _).get? _ ≠ none
        rw [FMap.get?_insert]
        split
        · nofun
        · exact hseed
      · unfold seedTotal
        by_cases he : f.terms.seedId = t.seedId
        · rcases hfs with hs | ⟨hs, _⟩
          · simp only [he, FMap.get?_insert_self, hs]
          · rw [← he, hs0] at hs; cases hs
        · simp only [FMap.get?_insert_ne _ _ he]
    | forceCleanFarm i =>
      have hne : id ≠ i := by
        rintro rfl
        exact ht x rfl
      obtain ⟨_, h1⟩ := forceCleanFarm_inv (exec_quiet h).1
      obtain rfl | ⟨f', fs, g, hf', hs, hb, hg, rfl⟩ := removeFarm_ok hI h1
      · exact refl
      · refine ⟨?_, .inl ⟨(FMap.get?_erase_ne _ hne).trans hf, ?_⟩⟩
        · show (c.seeds.insert f'.terms.seedId _).get? _ ≠ none
          rw [FMap.get?_insert]
          split
          · nofun
          · exact hseed
        · unfold seedTotal
          by_cases he : f.terms.seedId = f'.terms.seedId
          · simp only [he, FMap.get?_insert_self, hs]
          · simp only [FMap.get?_insert_ne _ _ he]
    | setOwner a =>
      obtain ⟨_, rfl⟩ := setOwner_inv (exec_quiet h).1
      exact refl
    | modifyMinDeposit s n =>
      obtain ⟨_, fs, hs, rfl⟩ := modifyMinDeposit_inv (exec_quiet h).1
      refine ⟨?_, .inl ⟨hf, ?_⟩⟩
      · show (c.seeds.insert s _).get? _ ≠ none
        rw [FMap.get?_insert]
        split
        · nofun
        · exact hseed
      · unfold seedTotal
        by_cases he : f.terms.seedId = s
        · simp only [he, FMap.get?_insert_self, hs]
        · simp only [FMap.get?_insert_ne _ _ he]
    | setRunning b =>
      obtain ⟨_, _, rfl⟩ := setRunning_inv (exec_quiet h).1
      exact refl
    | removeUserRps i =>
      obtain ⟨_, u, s, fs, hu, hp, hs, ⟨_, rfl⟩ | ⟨hnot, m, u1, hm, rfl⟩⟩ :=
        removeUserRps_inv (exec_quiet h).1
      · exact refl
      · exact refl
    | claimRewardByFarm i =>
      obtain ⟨_, h1, _⟩ := claimRewardByFarm_inv (exec_quiet h).1
      obtain ⟨_, _, rfl | ⟨_, h2⟩⟩ := claimByFarm_ok hI h1
      · exact refl
      · exact h2.stirred hI (by simp) hf rfl (by rw [h2.same.seeds]; exact hseed)
          (fun _ => by unfold seedTotal; rw [h2.same.seeds])
    | claimRewardBySeed s =>
      obtain ⟨_, h1, _⟩ := claimRewardBySeed_inv (exec_quiet h).1
      obtain ⟨_, _, ⟨_, rfl⟩ | ⟨fs, hs, h2⟩⟩ := claimBySeed_ok hI h1
      · exact refl
      · exact h2.stirred hI (hI.order_nodup hs x) hf rfl (by rw [h2.same.seeds]; exact hseed)
          (fun _ => by unfold seedTotal; rw [h2.same.seeds])
    | withdrawReward t n =>
      obtain ⟨_, _, u, u1, k, hu, h1, rfl, _⟩ := withdrawReward_inv h
      exact refl
    | withdrawSeed s n =>
      obtain ⟨_, _, mft, h1, _⟩ := withdrawSeed_inv h
      obtain ⟨fs, c1, u, u1, u', remain, m, hs, hc, hu, hu1, hle, rfl, hm, rfl⟩ :=
        seedWithdraw_ok hI h1
      refine hc.stirred hI (hI.order_nodup hs x) hf rfl ?_ ?_
      · show (c1.seeds.insert s _).get? _ ≠ none
        rw [hc.same.seeds, FMap.get?_insert]
        split
        · nofun
        · exact hseed
      · intro hid
        have hne : f.terms.seedId ≠ s := by
          rintro rfl
          rw [hs] at hs0
          cases hs0
          exact hid ((x.order.perm _).mem_iff.2 hin0)
        show (match (c1.seeds.insert s _).get? _ with | some fs => fs.amount | none => 0) = _
        rw [hc.same.seeds, FMap.get?_insert_ne _ _ hne]
        rfl
    | ftOnTransfer a n msg =>
      obtain ⟨_, ⟨_, _, _, _, h1, _⟩ | ⟨hne, f', f1, hf', ht', h1, rfl⟩⟩ :=
        ftOnTransfer_inv (exec_quiet h).1
      · exact seedDeposit_stirred hI h1 hf
      · by_cases he : id = msg
        · subst he
          rw [hf] at hf'
          cases hf'
          exact ⟨hseed, .inr (.inr ⟨f1, n, h1, FMap.get?_insert_self _ _ _, rfl⟩)⟩
        · exact ⟨hseed, .inl ⟨(FMap.get?_insert_ne _ _ he).trans hf, rfl⟩⟩
    | mftOnTransfer t a n msg =>
      obtain ⟨_, p, fs, _, _, _, h1, _⟩ := mftOnTransfer_inv (exec_quiet h).1
      exact seedDeposit_stirred hI h1 hf
    | storageDeposit a b =>
      obtain ⟨_, n, h1, _⟩ := storageDeposit_inv h
      unfold register at h1
      split at h1
      · unpack at h1
        obtain ⟨_, rfl⟩ := h1
        exact refl
      · unpack at h1
        obtain ⟨_, rfl⟩ := h1
        exact refl
    | storageWithdraw n =>
      obtain ⟨_, u, k, hu, _, _, rfl, _⟩ := storageWithdraw_inv h
      exact refl
    | storageUnregister =>
      obtain ⟨_, ⟨_, rfl, _⟩ | ⟨u, hu, _, h1, _, rfl, _⟩⟩ := storageUnregister_inv h
      · exact refl
      · exact refl

/-- What a farmer can claim, in terms of the parts of the state it depends on. -/
private theorem view_eq (hI : Inv c) {now : Nat} {a : AccountId} {id : FarmId} {f : SimpleFarm}
    {s : SeedId} (hp : parseFarmId id = .ok s) (hf : c.farms.get? id = some f) :
    s = f.terms.seedId ∧ c.getUnclaimedReward now a id = (match c.farmers.get? a with
      | some u => f.viewUnclaimed now (c.rps.getD (a, id) 0) (u.stake f.terms.seedId)
          (c.seedTotal f.terms.seedId)
      | none => .ok 0) := by
  obtain ⟨fs, hs, _, i, _, hgen⟩ := (hI.farms id f hf).seed
  have he : s = f.terms.seedId := by
    rw [hgen] at hp
    exact parseFarmId_gen hp
  subst he
  refine ⟨rfl, ?_⟩
  unfold getUnclaimedReward seedTotal
  rw [hp, ok_bind, hs, hf]
  cases c.farmers.get? a with
  | none => rfl
  | some u => simp only [(hI.farms id f hf).id_eq]

private theorem stake_le (hI : Inv c) {a : AccountId} {u : Farmer} {s : SeedId}
    (hu : c.farmers.get? a = some u) (hs : c.seeds.get? s ≠ none) : u.stake s ≤ c.seedTotal s := by
  unfold seedTotal
  cases h : c.seeds.get? s with
  | none => exact absurd h hs
  | some fs =>
    have h2 := c.farmers.term_le_sum (fun _ u => u.stake s) a
    rw [FMap.term_some _ hu] at h2
    have h3 := (hI.seeds _ fs h).total
    unfold stakes at h3
    simp only
    omega

/-- An event that neither concerns the farmer nor clears the farm. -/
theorem step_view (hr : c.Reachable) {e : Event} {a : AccountId} {id : FarmId} {f : SimpleFarm}
    (hf : c.farms.get? id = some f) (hc : f.status ≠ .created) (ha : e.farmer ≠ some a)
    (ht : ∀ x, e ≠ .call x (.forceCleanFarm id)) :
    (∃ f', (c.step e).farms.get? id = some f' ∧ f'.terms = f.terms ∧ f'.status ≠ .created) ∧
    (c.step e).getUnclaimedReward e.ctx.now a id = c.getUnclaimedReward e.ctx.now a id := by
  have hI := hr.inv
  have hI' := (hr.step e).inv
  have hsame := C54_own_account hr e ha
  have hst : Stirred c (c.step e) e.ctx.now id f := by
    unfold step
    cases h : c.apply e with
    | error _ => exact Stirred.refl hI hf
    | ok r => exact event_stirred (outs := r.2) hI h hf ht
  obtain ⟨hs', hst⟩ := hst
  have hrps : (c.step e).rps.getD (a, id) 0 = c.rps.getD (a, id) 0 := by
    unfold FMap.getD; rw [hsame.2.2.2 id]
  refine ⟨?_, ?_⟩
  · rcases hst with ⟨h1, _⟩ | ⟨g, n, k, h1, h2⟩ | ⟨g, n, h1, h2, _⟩
    · exact ⟨f, h1, rfl, hc⟩
    · obtain ⟨_, hd⟩ := SimpleFarm.distribute_ok h1
      refine ⟨_, h2, hd.terms, ?_⟩
      show g.status ≠ .created
      rcases hd.status with h | ⟨_, h, _⟩
      · rw [h]; exact hc
      · rw [h]; nofun
    · obtain ⟨h3, h4, _⟩ := SimpleFarm.addReward_view h1 hc
      exact ⟨g, h2, h3, by rw [h4]; nofun⟩
  cases hp : parseFarmId id with
  | error er => unfold getUnclaimedReward; rw [hp]; rfl
  | ok s =>
    obtain ⟨_, hv⟩ := view_eq hI (now := e.ctx.now) (a := a) hp hf
    rcases hst with ⟨h1, h2⟩ | ⟨g, n, k, h1, h2⟩ | ⟨g, n, h1, h2, h3⟩
    · rw [hv, (view_eq hI' hp h1).2, hsame.1, hrps, h2]
    · obtain ⟨_, hd⟩ := SimpleFarm.distribute_ok h1
      rw [hv, (view_eq hI' hp h2).2, hsame.1, hrps]
      cases hu : c.farmers.get? a with
      | none => rfl
      | some u =>
        simp only [hd.terms]
        by_cases h0 : u.stake f.terms.seedId = 0
        · unfold SimpleFarm.viewUnclaimed
          simp only [h0, if_true, ite_self]
        · have hseed : c.seeds.get? f.terms.seedId ≠ none := by
            obtain ⟨fs, hs, _⟩ := (hI.farms id f hf).seed
            rw [hs]; nofun
          have t1 := stake_le hI hu hseed
          have t2 := stake_le hI' (hsame.1.trans hu) hs'
          have n1 : c.seedTotal f.terms.seedId ≠ 0 := by omega
          have n2 : (c.step e).seedTotal f.terms.seedId ≠ 0 := by omega
          obtain ⟨o, ho, he⟩ := SimpleFarm.distribute_view h1 n1
          obtain ⟨o', ho', he'⟩ := SimpleFarm.distribute_again (n := n) (k := k) h1 n1 n2
          simp only [hd.terms] at ho'
          unfold SimpleFarm.viewUnclaimed
          rw [if_neg n1, if_neg n2, if_neg h0, if_neg h0, ho, ho', ok_bind, ok_bind]
          cases o <;> cases o' <;> simp only at he he' ⊢ <;> rw [he] <;> try rw [he']
    · obtain ⟨h4, _, h5⟩ := SimpleFarm.addReward_view h1 hc
      rw [hv, (view_eq hI' hp h2).2, hsame.1, hrps, h4, h3]
      cases c.farmers.get? a with
      | none => rfl
      | some u => exact h5 _ _ _

/-- **C79.** What farmer `a` can claim from a farm at some moment does not change through what others do
at that moment, unless the owner clears the farm: they may stake any amount, withdraw, claim, deposit
reward, create farms and clear others. -/
theorem C79_not_diluted (hr : c.Reachable) {now : Nat} {a : AccountId} {id : FarmId} {f : SimpleFarm}
    (hf : c.farms.get? id = some f) (hc : f.status ≠ .created) {es : List Event}
    (hes : ∀ e ∈ es, e.ctx.now = now ∧ e.farmer ≠ some a ∧ ∀ x, e ≠ .call x (.forceCleanFarm id)) :
    (c.run es).getUnclaimedReward now a id = c.getUnclaimedReward now a id := by
  induction es generalizing c f with
  | nil => rfl
  | cons e es ih =>
    obtain ⟨h1, h2, h3⟩ := hes e (by simp)
    obtain ⟨⟨f', hf', _, hc'⟩, h4⟩ := step_view hr hf hc h2 h3
    rw [h1] at h4
    exact (ih (hr.step e) hf' hc' (fun e he => hes e (by simp [he]))).trans h4

/-- What happens before the claim of `al`: a farmer with a thousand times the stake of all others
enters, `bo` claims, `own` deposits more reward. -/
private def before : List Event := [
  .call (near 1035 cy) (.storageDeposit none false),
  .call (at' 1035 S) (.ftOnTransfer cy 40000 []),
  .call (at' 1035 bo) (.claimRewardBySeed S),
  .call (at' 1035 R') (.ftOnTransfer own 5000 F)]

example : (∀ e ∈ before, e.ctx.now = (at' 1035 al).now ∧ e.farmer ≠ some al) ∧
    (c1.farms.get? F).map (·.status) = some .running ∧
    c1.seedTotal S = 40 ∧ (c1.run before).seedTotal S = 40040 ∧
    (c1.run before).rewardOf bo R' = 75 ∧
    (c1.getUnclaimedReward (at' 1035 al).now al F).holds (· = 225) = true ∧
    ((c1.run before).getUnclaimedReward (at' 1035 al).now al F).holds (· = 225) = true := by
  decide +kernel

/-- The rewards and the farm stay what they are meanwhile. -/
private theorem run_keeps (hr : c.Reachable) {a : AccountId} {id : FarmId} {f : SimpleFarm}
    (hf : c.farms.get? id = some f) (hc : f.status ≠ .created) {es : List Event}
    (hes : ∀ e ∈ es, e.farmer ≠ some a ∧ ∀ x, e ≠ .call x (.forceCleanFarm id)) :
    (∃ f', (c.run es).farms.get? id = some f' ∧ f'.terms = f.terms) ∧
    ∀ t, (c.run es).rewardOf a t = c.rewardOf a t := by
  induction es generalizing c f with
  | nil => exact ⟨⟨f, hf, rfl⟩, fun _ => rfl⟩
  | cons e es ih =>
    obtain ⟨h2, h3⟩ := hes e (by simp)
    obtain ⟨⟨f', hf', h5, hc'⟩, h4⟩ := step_view hr hf hc h2 h3
    obtain ⟨⟨f2, g1, g2⟩, g3⟩ := ih (hr.step e) hf' hc' (fun e he => hes e (by simp [he]))
    exact ⟨⟨f2, g1, g2.trans h5⟩, fun t => (g3 t).trans ((C54_own_account hr e h2).2.2.1 t)⟩

/-- **C79.** If `a` then claims, still at that moment, they are credited with exactly what the view
reported before the others acted. -/
theorem C79_claim (hr : c.Reachable) {x : Ctx} {id : FarmId} {f : SimpleFarm}
    (hf : c.farms.get? id = some f) (hc : f.status ≠ .created) {es : List Event}
    (hes : ∀ e ∈ es, e.ctx.now = x.now ∧ e.farmer ≠ some x.pred ∧ ∀ y, e ≠ .call y (.forceCleanFarm id))
    {outs : List Out} (h : (c.run es).exec x (.claimRewardByFarm id) = .ok (c', outs)) :
    ∃ n, c.getUnclaimedReward x.now x.pred id = .ok n ∧
      ∀ t, c'.rewardOf x.pred t =
        c.rewardOf x.pred t + if t = f.terms.rewardToken then n else 0 := by
  obtain ⟨n, h1, h2, _⟩ := C53_view_is_paid (hr.run es) h
  rw [C79_not_diluted hr hf hc hes] at h1
  obtain ⟨⟨f', g1, g2⟩, g3⟩ := run_keeps hr hf hc (fun e he => (hes e he).2)
  refine ⟨n, h1, fun t => ?_⟩
  rw [h2 f' g1 t, g3 t, g2]

example : ((c1.run before).exec (at' 1035 al) (.claimRewardByFarm F)).holds
    (fun r => r.1.rewardOf al R' = c1.rewardOf al R' + 225) = true := by
  decide +kernel

/-- **C79.** Two farmers who claim at the same moment are credited with the same amounts whichever of
them comes first. -/
theorem C79_order (hr : c.Reachable) {x y : Ctx} {id : FarmId} {f : SimpleFarm}
    (hf : c.farms.get? id = some f) (hc : f.status ≠ .created) (hnow : x.now = y.now)
    (hne : x.pred ≠ y.pred) {c1 c2 d1 d2 : Contract} {o1 o2 o3 o4 : List Out}
    (h1 : c.exec x (.claimRewardByFarm id) = .ok (c1, o1))
    (h2 : c1.exec y (.claimRewardByFarm id) = .ok (c2, o2))
    (h3 : c.exec y (.claimRewardByFarm id) = .ok (d1, o3))
    (h4 : d1.exec x (.claimRewardByFarm id) = .ok (d2, o4)) (t : AccountId) :
    c2.rewardOf x.pred t = d2.rewardOf x.pred t ∧ c2.rewardOf y.pred t = d2.rewardOf y.pred t := by
  have hx : c.run [.call x (.claimRewardByFarm id)] = c1 := by
    show c.step _ = c1
    simp only [step, apply, h1]
  have hy : c.run [.call y (.claimRewardByFarm id)] = d1 := by
    show c.step _ = d1
    simp only [step, apply, h3]
  have hrx : c1.Reachable := hx ▸ hr.run _
  have hry : d1.Reachable := hy ▸ hr.run _
  have k1 := C54_own_account hrx (.call y (.claimRewardByFarm id)) (a := x.pred)
    (fun h => hne (Option.some.inj h).symm)
  have k2 := C54_own_account hry (.call x (.claimRewardByFarm id)) (a := y.pred)
    (fun h => hne (Option.some.inj h))
  have e1 : c1.step (.call y (.claimRewardByFarm id)) = c2 := by simp only [step, apply, h2]
  have e2 : d1.step (.call x (.claimRewardByFarm id)) = d2 := by simp only [step, apply, h4]
  rw [e1] at k1
  rw [e2] at k2
  obtain ⟨n1, a1, a2⟩ := C79_claim hr hf hc (es := []) (by simp) h1
  obtain ⟨n2, a3, a4⟩ := C79_claim (x := x) hr hf hc (es := [.call y (.claimRewardByFarm id)])
    (by
      intro e he
      obtain rfl := List.mem_singleton.1 he
      exact ⟨hnow.symm, fun h => hne (Option.some.inj h).symm, by nofun⟩) (hy ▸ h4)
  obtain ⟨m1, b1, b2⟩ := C79_claim hr hf hc (es := []) (by simp) h3
  obtain ⟨m2, b3, b4⟩ := C79_claim (x := y) hr hf hc (es := [.call x (.claimRewardByFarm id)])
    (by
      intro e he
      obtain rfl := List.mem_singleton.1 he
      exact ⟨hnow, fun h => hne (Option.some.inj h), by nofun⟩) (hx ▸ h2)
  rw [a1] at a3
  rw [b1] at b3
  cases a3
  cases b3
  exact ⟨by rw [k1.2.2.1 t, a2 t, a4 t], by rw [k2.2.2.1 t, b2 t, b4 t]⟩

example : ((do
    let r ← c1.exec (at' 1035 al) (.claimRewardByFarm F)
    let r ← r.1.exec (at' 1035 bo) (.claimRewardByFarm F)
    .ok (r.1.rewardOf al R', r.1.rewardOf bo R') : R _).holds (· = (225, 75))) = true ∧
    ((do
    let r ← c1.exec (at' 1035 bo) (.claimRewardByFarm F)
    let r ← r.1.exec (at' 1035 al) (.claimRewardByFarm F)
    .ok (r.1.rewardOf al R', r.1.rewardOf bo R') : R _).holds (· = (225, 75))) = true := by
  decide +kernel

/-- The exception is real: when all reward has been released, clearing the farm takes what a farmer has
earned and not claimed. -/
theorem C79_clearing_takes : c3.Reachable ∧
    (c3.getUnclaimedReward (at' 1200 al).now al F).holds (· = 600) = true ∧
    (c3.exec (at' 1200 own) (.forceCleanFarm F)).holds (fun r =>
      (r.1.getUnclaimedReward (at' 1200 al).now al F).holds (· = 0) ∧
      (r.1.exec (at' 1200 al) (.claimRewardByFarm F)).holds
        (fun s => s.1.rewardOf al R' = c3.rewardOf al R')) = true :=
  ⟨c3_reachable, by decide +kernel⟩

end Contract
end Verif.Farming

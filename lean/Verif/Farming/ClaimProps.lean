import Verif.Farming.FarmerView
import Verif.Farming.ShareProps
import Verif.Farming.Effects

/-
C53 for the calls that claim the rewards of all farms of a seed.
-/

namespace Verif.Farming

/-- The account and the seed whose rewards a call claims: claiming, withdrawing from the seed, and
staking, which are the tokens arriving without a message. -/
def Call.claims (x : Ctx) : Call → Option (AccountId × SeedId)
  | .claimRewardBySeed s => some (x.pred, s)
  | .withdrawSeed s _ => some (x.pred, s)
  | .ftOnTransfer a _ [] => some (a, x.pred)
  | .mftOnTransfer token a _ _ =>
    match parseTokenId token with
    | .pool p => some (a, mftSeedId x.pred p)
    | _ => none
  | _ => none

namespace Contract
open Demo

variable {c c' : Contract} {x : Ctx}

/-- The reward token of a farm. -/
def farmToken (c : Contract) (id : FarmId) : Option AccountId :=
  (c.farms.get? id).map (·.terms.rewardToken)

theorem _root_.Verif.Farming.Claims.paid {who : AccountId} {ids : List FarmId} (h : Claims x who c ids c') :
    ∀ (_ : Inv c) (_ : ids.Nodup) (pay : FarmId → Nat),
    (∀ id ∈ ids, c.getUnclaimedReward x.now who id = .ok (pay id)) → ∀ t,
    c'.rewardOf who t = c.rewardOf who t +
      (ids.map fun id => if c.farmToken id = some t then pay id else 0).sum := by
  induction h with
  | nil c => intros; rfl
  | @cons c c' id ids u u1 f f1 fs m1 hu hf hs hc hrest ih =>
    intro hI hn pay hp t
    obtain ⟨hni, hn⟩ := List.nodup_cons.1 hn
    have hv := hp id (List.mem_cons_self ..)
    have hl := hI.farms id f hf
    obtain ⟨g, added, n, hcl⟩ := claimFromFarm_ok hc
    have hparse : parseFarmId id = .ok f.terms.seedId := by
      obtain ⟨_, _, _, i, _, hgen⟩ := hl.seed
      unfold getUnclaimedReward at hv
      rw [bind_ok] at hv
      obtain ⟨s, h1, -⟩ := hv
      have h2 := h1
      rw [hgen] at h2
      rw [h1, parseFarmId_gen h2]
    have hrun : c.claimByFarm x who id = .ok { c with
        farms := c.farms.insert id f1, rps := m1, farmers := c.farmers.insert who u1 } := by
      unfold claimByFarm Contract.farmer
      rw [expectE_ok.2 hu, ok_bind, hparse, ok_bind]
      simp only [hs, hf]
      rw [hc, ok_bind]
    obtain ⟨n', hn', hpaid, -⟩ := claimByFarm_view hI hrun
    rw [hv] at hn'
    obtain rfl := Except.ok.inj hn'
    have hother : ∀ id' ∈ ids, getUnclaimedReward { c with
        farms := c.farms.insert id f1, rps := m1, farmers := c.farmers.insert who u1 } x.now who id' =
        .ok (pay id') := by
      intro id' hid'
      rw [← hp id' (List.mem_cons_of_mem _ hid')]
      have hne : id' ≠ id := fun e => hni (e ▸ hid')
      unfold getUnclaimedReward
      cases hpar : parseFarmId id' with
      | error => rfl
      | ok s =>
        simp only [ok_bind, FMap.get?_insert_self, FMap.get?_insert_ne _ _ hne, hu]
        cases c.seeds.get? s with
        | none => rfl
        | some fs' =>
          cases hf' : c.farms.get? id' with
          | none => rfl
          | some f' =>
            simp only
            have hid := (hI.farms id' f' hf').id_eq
            have hm : m1.getD (who, f'.id) 0 = c.rps.getD (who, f'.id) 0 := by
              rw [hcl.rps, FMap.getD_insert, if_neg]
              rw [hid, hl.id_eq]
              intro e
              exact hne (Prod.mk.inj e).2
            rw [hm, stake_congr hcl.seeds]
    rw [ih (hI.claimStep hu hf hs hc) hn pay hother t, hpaid f hf t, List.map_cons, List.sum_cons]
    have htok : ∀ id' ∈ ids, farmToken { c with
        farms := c.farms.insert id f1, rps := m1, farmers := c.farmers.insert who u1 } id' =
        c.farmToken id' := by
      intro id' hid'
      have hne : id' ≠ id := fun e => hni (e ▸ hid')
      unfold farmToken
      simp only [FMap.get?_insert_ne _ _ hne]
    have hsum : (ids.map fun id' => if farmToken { c with
        farms := c.farms.insert id f1, rps := m1, farmers := c.farmers.insert who u1 } id' = some t
          then pay id' else 0) = ids.map fun id' => if c.farmToken id' = some t then pay id' else 0 :=
      List.map_congr_left fun id' h => by rw [htok id' h]
    rw [hsum]
    have : c.farmToken id = some f.terms.rewardToken := by unfold farmToken; rw [hf]; rfl
    rw [this]
    by_cases ht : t = f.terms.rewardToken
    · rw [if_pos ht, if_pos (by rw [ht]), Nat.add_assoc]
    · rw [if_neg ht, if_neg (by simpa using Ne.symm ht), Nat.add_assoc]

/-- The claims before a change of the account that keeps the rewards. -/
theorem _root_.Verif.Farming.Claims.paid_seed {who : AccountId} {s : SeedId} {fs : FarmSeed} {c1 : Contract} (hI : Inv c)
    (hs : c.seeds.get? s = some fs) (h : Claims x who c (x.order.f fs.farms) c1) {pay : FarmId → Nat}
    (hp : ∀ id ∈ fs.farms, c.getUnclaimedReward x.now who id = .ok (pay id)) (t : AccountId) :
    c1.rewardOf who t = c.rewardOf who t +
      (fs.farms.map fun id => if c.farmToken id = some t then pay id else 0).sum := by
  rw [h.paid hI (hI.order_nodup hs x) pay
    (fun id hid => hp id ((x.order.perm fs.farms).mem_iff.1 hid)) t]
  congr 1
  exact ((x.order.perm fs.farms).map _).sum_nat

theorem rewardOf_insert {who : AccountId} {u u' : Farmer} (hu : c.farmers.get? who = some u)
    (hr : u'.rewards = u.rewards) {seeds : FMap SeedId FarmSeed} {m : RpsMap} (t : AccountId) :
    rewardOf { c with farmers := c.farmers.insert who u', seeds := seeds, rps := m } who t =
      c.rewardOf who t := by
  unfold rewardOf
  simp only [FMap.get?_insert_self, hu, hr]

theorem seedDeposit_paid {who : AccountId} {s : SeedId} {n : Nat} {mft : Bool} (hI : Inv c)
    (h : c.seedDeposit x who s n mft = .ok c') {fs : FarmSeed} (hs : c.seeds.get? s = some fs)
    {pay : FarmId → Nat}
    (hp : ∀ id ∈ fs.farms, c.getUnclaimedReward x.now who id = .ok (pay id)) (t : AccountId) :
    c'.rewardOf who t = c.rewardOf who t +
      (fs.farms.map fun id => if c.farmToken id = some t then pay id else 0).sum := by
  obtain ⟨fs', c1, u, u', hs', hc, hu, hu', _, rfl⟩ := seedDeposit_ok hI h
  rw [hs] at hs'
  cases hs'
  rw [← hc.paid_seed hI hs hp t]
  exact rewardOf_insert (c := c1) (m := c1.rps) hu (Farmer.addSeed_ok hu').1 t

/-- **C53.** Claiming from a seed, staking and withdrawing credit the farmer with what
`get_unclaimed_reward` reported for each farm of the seed just before, each in the reward token of its
farm. -/
theorem C53_seed (hc : c.Reachable) {k : Call} {outs : List Out} {a : AccountId} {s : SeedId}
    {fs : FarmSeed} (h : c.exec x k = .ok (c', outs)) (hk : k.claims x = some (a, s))
    (hs : c.getSeedInfo s = some fs) {pay : FarmId → Nat}
    (hp : ∀ id ∈ fs.farms, c.getUnclaimedReward x.now a id = .ok (pay id)) (t : AccountId) :
    c'.rewardOf a t = c.rewardOf a t +
      (fs.farms.map fun id => if c.farmToken id = some t then pay id else 0).sum := by
  have hI := hc.inv
  have hs : c.seeds.get? s = some fs := hs
  cases k with
  | claimRewardBySeed s' =>
    cases hk
    obtain ⟨_, h1, _⟩ := claimRewardBySeed_inv (exec_quiet h).1
    obtain ⟨_, _, ⟨h2, rfl⟩ | ⟨fs', h2, h3⟩⟩ := claimBySeed_ok hI h1
    · rw [hs] at h2; cases h2
    · rw [hs] at h2
      cases h2
      exact h3.paid_seed hI hs hp t
  | withdrawSeed s' n =>
    cases hk
    obtain ⟨_, _, mft, h1, _⟩ := withdrawSeed_inv h
    obtain ⟨fs', c1, u, u1, u', remain, m, hs', hcl, hu, hu1, hle, rfl, hm, rfl⟩ :=
      seedWithdraw_ok hI h1
    rw [hs] at hs'
    cases hs'
    rw [← hcl.paid_seed hI hs hp t]
    exact rewardOf_insert (c := c1) (m := m) hu
      ((removeAllRps_ok hm).2.1.trans (Farmer.subSeed_ok hu1).1) t
  | ftOnTransfer sender n msg =>
    cases msg with
    | cons => cases hk
    | nil =>
      cases hk
      obtain ⟨_, ⟨_, _, _, _, h1, _⟩ | ⟨h1, _⟩⟩ := ftOnTransfer_inv (exec_quiet h).1
      · exact seedDeposit_paid hI h1 hs hp t
      · exact absurd rfl h1
  | mftOnTransfer token sender n msg =>
    obtain ⟨_, p, _, h0, _, _, h1, _⟩ := mftOnTransfer_inv (exec_quiet h).1
    simp only [Call.claims, h0] at hk
    cases hk
    exact seedDeposit_paid hI h1 hs hp t
  | _ => cases hk

/-- `al` sees 225 in the only farm of the seed; claiming, staking and withdrawing credit it. -/
example : (c1.getSeedInfo S).map FarmSeed.farms = some [F] ∧
    (c1.getUnclaimedReward (at' 1035 al).now al F).holds (· = 225) = true ∧
    (c1.exec (at' 1035 al) (.claimRewardBySeed S)).holds (fun r => r.1.rewardOf al R' = 225) = true ∧
    (c1.exec (at' 1035 S) (.ftOnTransfer al 7 [])).holds (fun r => r.1.rewardOf al R' = 225) = true ∧
    (c1.exec (y 1035 al) (.withdrawSeed S 30)).holds (fun r => r.1.rewardOf al R' = 225) = true := by
  decide +kernel

end Contract
end Verif.Farming

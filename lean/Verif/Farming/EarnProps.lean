import Verif.Farming.ShareProps
import Mathlib.Algebra.Order.Field.Rat
import Mathlib.Algebra.Order.Field.Basic
import Mathlib.Data.Nat.Cast.Order.Field
import Mathlib.Tactic.FieldSimp
import Mathlib.Tactic.Linarith
import Mathlib.Tactic.Positivity
import Mathlib.Tactic.Ring

/-
What a farmer earns over a whole history in which stakes come and go (C93).
-/

namespace Verif.Farming

/-- What a farm has paid to farmers: `claimed_reward` less `beneficiary_reward` of `get_farm`. -/
def SimpleFarm.paidOut (f : SimpleFarm) : Nat := f.amountOfClaimed - f.amountOfBeneficiary

namespace Contract

variable {c c' : Contract}

/-- What the farm `id` has released so far. -/
def releasedBy (c : Contract) (id : FarmId) : Nat := ((c.farms.get? id).map (·.released)).getD 0

/-- What the farm `id` has paid to farmers so far. -/
def paidBy (c : Contract) (id : FarmId) : Nat := ((c.farms.get? id).map (·.paidOut)).getD 0

/-- The exact share of account `a` in what farm `id` of seed `s` releases during a history: every
event's release is divided in proportion to the stakes just before the event. -/
def earned (a : AccountId) (s : SeedId) (id : FarmId) : Contract → List Event → ℚ
  | _, [] => 0
  | c, e :: es => (c.stakeOf a s : ℚ) * ((c.step e).releasedBy id - c.releasedBy id) / c.seedTotal s +
      earned a s id (c.step e) es

/-- What farm `id` pays in the events of a history that are about account `a`. -/
def paidTo (a : AccountId) (id : FarmId) : Contract → List Event → Nat
  | _, [] => 0
  | c, e :: es => (if e.farmer = some a then (c.step e).paidBy id - c.paidBy id else 0) +
      paidTo a id (c.step e) es

/-- The stakes of `a` before each event of a history, added up. -/
def stakedOver (a : AccountId) (s : SeedId) : Contract → List Event → Nat
  | _, [] => 0
  | c, e :: es => c.stakeOf a s + stakedOver a s (c.step e) es

/-- How a claim by `who` from a list of farms treats one of them. -/
theorem Claims.own {x : Ctx} {who : AccountId} {ids : List FarmId} (h : Claims x who c ids c')
    (hI : Inv c) (hn : ids.Nodup) {id : FarmId} (hid : id ∈ ids) :
    ∃ f fs g added n, c.farms.get? id = some f ∧ c.seeds.get? f.terms.seedId = some fs ∧
      f.Distributed x.now fs.amount g added ∧ c.rps.getD (who, id) 0 ≤ g.dist.rps ∧
      n = c.stakeOf who f.terms.seedId * (g.dist.rps - c.rps.getD (who, id) 0) / DENOM ∧
      n ≤ g.dist.unclaimed ∧
      c'.farms.get? id = some { g with
        dist := { g.dist with unclaimed := g.dist.unclaimed - n }
        amountOfClaimed := g.amountOfClaimed + n } ∧
      c'.rps.getD (who, id) 0 = g.dist.rps := by
  induction h with
  | nil => cases hid
  | @cons c c' i ids u u1 f f1 fs m1 hu hf hs hc hrest ih =>
    simp only [List.nodup_cons] at hn
    have hI' := hI.claimStep hu hf hs hc
    obtain ⟨g, added, n, hcl⟩ := claimFromFarm_ok hc
    have hfid := (hI.farms i f hf).id_eq
    by_cases he : id = i
    · subst he
      obtain ⟨h1, h2⟩ := hrest.other hI' hn.1
      have h3 := hcl.last
      have h4 := hcl.amount
      rw [hfid] at h3 h4
      refine ⟨f, fs, g, added, n, hf, hs, hcl.dist, h3, ?_, hcl.covered, h1.trans ?_, (h2 who).trans ?_⟩
      · rw [stakeOf_some hu]; exact h4
      · show (c.farms.insert id f1).get? id = _
        rw [FMap.get?_insert_self, hcl.farm]
      · show m1.getD _ 0 = _
        rw [hcl.rps, FMap.getD_insert, hfid, if_pos rfl]
    · simp only [List.mem_cons, he, false_or] at hid
      obtain ⟨f', fs', g', ad', n', a1, a2, a3, a4, a5, a6, a7, a8⟩ := ih hI' hn.2 hid
      have hr : m1.getD (who, id) 0 = c.rps.getD (who, id) 0 := by
        rw [hcl.rps, FMap.getD_insert, hfid, if_neg (by intro h; exact he (Prod.mk.inj h).2)]
      have hst := stakeOf_same_seeds (c := c)
        (c' := { c with farms := c.farms.insert i f1, rps := m1, farmers := c.farmers.insert who u1 })
        hu hcl.seeds rfl who f'.terms.seedId
      rw [hst] at a5
      simp only at a1 a2 a4 a5
      rw [hr] at a4 a5
      exact ⟨f', fs', g', ad', n', (FMap.get?_insert_ne _ _ he).symm.trans a1, a2, a3, a4, a5, a6, a7, a8⟩

/-- What an event does to the account of `a` with a farm that is live before and after. -/
inductive Moves (c c' : Contract) (a : AccountId) (own : Prop) (id : FarmId) (f f' : SimpleFarm) : Prop where
  /-- Nothing. -/
  | rest : c'.stakeOf a f.terms.seedId = c.stakeOf a f.terms.seedId →
      c'.rps.getD (a, id) 0 = c.rps.getD (a, id) 0 → f'.dist.rps = f.dist.rps →
      f'.released = f.released → f'.paidOut = f.paidOut → Moves c c' a own id f f'
  /-- Another farmer makes the farm release reward. -/
  | other {g : SimpleFarm} {now added : Nat} : ¬ own →
      c'.stakeOf a f.terms.seedId = c.stakeOf a f.terms.seedId →
      c'.rps.getD (a, id) 0 = c.rps.getD (a, id) 0 →
      f.Distributed now (c.seedTotal f.terms.seedId) g added → f'.dist.rps = g.dist.rps →
      f'.released = g.released → Moves c c' a own id f f'
  /-- The farmer claims. -/
  | own {g : SimpleFarm} {now added n : Nat} : own →
      f.Distributed now (c.seedTotal f.terms.seedId) g added → c.rps.getD (a, id) 0 ≤ g.dist.rps →
      n = c.stakeOf a f.terms.seedId * (g.dist.rps - c.rps.getD (a, id) 0) / DENOM →
      f'.dist.rps = g.dist.rps → f'.released = g.released →
      f'.amountOfClaimed = g.amountOfClaimed + n → f'.amountOfBeneficiary = g.amountOfBeneficiary →
      c'.stakeOf a f.terms.seedId = 0 ∨ c'.rps.getD (a, id) 0 = g.dist.rps →
      Moves c c' a own id f f'

/-- Claims by `a`, possibly followed by a change of stake. -/
theorem Claims.moves {c1 : Contract} {x : Ctx} {a : AccountId} {ids : List FarmId}
    (h : Claims x a c ids c1) (hI : Inv c) (hn : ids.Nodup) {own : Prop} (ho : own) {id : FarmId}
    {f f' : SimpleFarm} (hf : c.farms.get? id = some f) (hf' : c'.farms.get? id = some f')
    (hc : c'.farms = c1.farms)
    (hin : id ∈ ids → c'.stakeOf a f.terms.seedId = 0 ∨
      c'.rps.getD (a, id) 0 = c1.rps.getD (a, id) 0)
    (hout : id ∉ ids → c'.stakeOf a f.terms.seedId = c.stakeOf a f.terms.seedId ∧
      c'.rps.getD (a, id) 0 = c1.rps.getD (a, id) 0) :
    Moves c c' a own id f f' := by
  rw [hc] at hf'
  by_cases hid : id ∈ ids
  · obtain ⟨f0, fs, g, added, n, a1, a2, a3, a4, a5, a6, a7, a8⟩ := Claims.own h hI hn hid
    rw [hf] at a1; cases a1
    rw [hf'] at a7; cases a7
    have hT : c.seedTotal f.terms.seedId = fs.amount := by unfold seedTotal; rw [a2]
    refine .own ho (by rw [hT]; exact a3) a4 a5 rfl ?_ rfl rfl ((hin hid).imp_right (·.trans a8))
    unfold SimpleFarm.released; simp only; omega
  · obtain ⟨h1, h2⟩ := h.other hI hid
    rw [hf, hf'] at h1; cases h1
    exact .rest (hout hid).1 ((hout hid).2.trans (h2 a)) rfl rfl rfl

/-- A live farm that is not listed with a seed is not of that seed. -/
theorem _root_.Verif.Farming.Inv.other_seed (hI : Inv c) {x : Ctx} {s : SeedId} {fs : FarmSeed}
    (hs : c.seeds.get? s = some fs) {id : FarmId} {f : SimpleFarm} (hf : c.farms.get? id = some f)
    (hid : id ∉ x.order.f fs.farms) : f.terms.seedId ≠ s := by
  intro he
  obtain ⟨fs', g1, g2, _⟩ := (hI.farms id f hf).seed
  rw [he, hs] at g1; cases g1
  exact hid ((x.order.perm fs.farms).mem_iff.2 g2)

theorem seedDeposit_moves {x : Ctx} {a : AccountId} {s : SeedId} {n : Nat} {mft : Bool}
    (hI : Inv c) (h : c.seedDeposit x a s n mft = .ok c') {own : Prop} (ho : own) {id : FarmId}
    {f f' : SimpleFarm} (hf : c.farms.get? id = some f) (hf' : c'.farms.get? id = some f') :
    Moves c c' a own id f f' := by
  have hst := seedDeposit_stake hI h a f.terms.seedId
  obtain ⟨fs, c1, u, u', hs, hc, hu, hu', hlt, rfl⟩ := seedDeposit_ok hI h
  refine Claims.moves hc hI (hI.order_nodup hs x) ho hf hf' rfl (fun _ => .inr rfl) (fun hid => ⟨?_, rfl⟩)
  rw [hst, if_neg (fun h => hI.other_seed hs hf hid h.2)]
  rfl

theorem seedWithdraw_moves {x : Ctx} {a : AccountId} {s : SeedId} {n : Nat} {mft : Bool}
    (hI : Inv c) (h : c.seedWithdraw x a s n = .ok (c', mft)) {own : Prop} (ho : own) {id : FarmId}
    {f f' : SimpleFarm} (hf : c.farms.get? id = some f) (hf' : c'.farms.get? id = some f') :
    Moves c c' a own id f f' := by
  have hst := seedWithdraw_stake hI h a f.terms.seedId
  obtain ⟨fs, c1, u, u1, u', remain, m, hs, hc, hu, hu1, hle, rfl, hm, rfl⟩ := seedWithdraw_ok hI h
  obtain ⟨_, _, _, h1, h2, h3, _⟩ := Farmer.subSeed_ok hu1
  obtain ⟨h5, _, _, h6⟩ := removeAllRps_ok hm
  refine Claims.moves hc hI (hI.order_nodup hs x) ho hf hf' rfl (fun hid => ?_) (fun hid => ⟨?_, ?_⟩)
  · by_cases h0 : remain = 0
    · left
      obtain ⟨f0, hf0, hseed⟩ := (hI.seeds s fs hs).farms id ((x.order.perm fs.farms).mem_iff.1 hid)
      rw [hf] at hf0; cases hf0
      rw [stakeOf_some (u := u') (FMap.get?_insert_self c1.farmers _ _), hseed, stake_congr h5, h2, h0]
    · right
      simp only
      unfold FMap.getD
      rw [h6, if_neg h0, if_neg (by simp)]
  · rw [if_neg (fun h => hI.other_seed hs hf hid h.2)] at hst
    exact hst
  · simp only
    unfold FMap.getD
    rw [h6, if_neg]
    rintro ⟨_, h⟩
    split at h
    · exact hid h
    · cases h

/-- An event about account `a`. -/
theorem own_moves {e : Event} {outs : List Out} (hI : Inv c) (h : c.apply e = .ok (c', outs))
    {a : AccountId} (ha : e.farmer = some a) {id : FarmId} {f f' : SimpleFarm}
    (hf : c.farms.get? id = some f) (hf' : c'.farms.get? id = some f') :
    Moves c c' a True id f f' := by
  have refl : c'.farms.get? id = c.farms.get? id →
      c'.stakeOf a f.terms.seedId = c.stakeOf a f.terms.seedId →
      c'.rps.getD (a, id) 0 = c.rps.getD (a, id) 0 → Moves c c' a True id f f' := by
    intro h1 h2 h3
    rw [hf, hf'] at h1
    cases h1
    exact .rest h2 h3 rfl rfl rfl
  cases e with
  | callback x o ok =>
    obtain rfl | ⟨_, ⟨t, who, n, u, u1, rfl, hu, h1, rfl⟩ | ⟨s, who, n, rfl, h1⟩ |
      ⟨s, _, _, who, n, rfl, h1⟩⟩ := callback_inv (exec_quiet h).1
    · exact refl rfl rfl rfl
    · exact refl rfl (stakeOf_same_seeds hu (Farmer.addReward_ok h1).1 rfl a _) rfl
    · cases ha; exact seedDeposit_moves hI h1 trivial hf hf'
    · cases ha; exact seedDeposit_moves hI h1 trivial hf hf'
  | call x k =>
    simp only [apply] at h
    cases k with
    | createSimpleFarm t m => cases ha
    | forceCleanFarm i => cases ha
    | setOwner b => cases ha
    | modifyMinDeposit s n => cases ha
    | setRunning b => cases ha
    | removeUserRps i =>
      obtain ⟨_, u, s, fs, hu, hp, hs, ⟨_, rfl⟩ | ⟨hnot, m, u1, hm, rfl⟩⟩ :=
        removeUserRps_inv (exec_quiet h).1
      · exact refl rfl rfl rfl
      · obtain ⟨h1, _, _, rfl⟩ := removeRps_ok hm
        refine refl rfl (stakeOf_same_seeds hu h1 rfl a _) ?_
        simp only
        rw [FMap.getD_erase, if_neg]
        intro he
        have he := (Prod.mk.inj he).2
        subst he
        obtain ⟨fs', h2, h3, j, _, h4⟩ := (hI.farms id f hf).seed
        rw [h4] at hp
        have := parseFarmId_gen hp
        subst this
        rw [hs] at h2
        cases h2
        exact hnot h3
    | claimRewardByFarm i =>
      cases ha
      obtain ⟨_, h1, _⟩ := claimRewardByFarm_inv (exec_quiet h).1
      obtain ⟨_, _, rfl | ⟨_, h2⟩⟩ := claimByFarm_ok hI h1
      · exact refl rfl rfl rfl
      · exact Claims.moves h2 hI (by simp) trivial hf hf' rfl (fun _ => .inr rfl)
          (fun _ => ⟨stakeOf_claims h2 _ _, rfl⟩)
    | claimRewardBySeed s =>
      cases ha
      obtain ⟨_, h1, _⟩ := claimRewardBySeed_inv (exec_quiet h).1
      obtain ⟨_, _, ⟨_, rfl⟩ | ⟨fs, hs, h2⟩⟩ := claimBySeed_ok hI h1
      · exact refl rfl rfl rfl
      · exact Claims.moves h2 hI (hI.order_nodup hs x) trivial hf hf' rfl (fun _ => .inr rfl)
          (fun _ => ⟨stakeOf_claims h2 _ _, rfl⟩)
    | withdrawReward t n =>
      obtain ⟨_, _, u, u1, k, hu, h1, rfl, _⟩ := withdrawReward_inv h
      exact refl rfl (stakeOf_same_seeds hu (Farmer.subReward_ok h1).1 rfl a _) rfl
    | withdrawSeed s n =>
      cases ha
      obtain ⟨_, _, mft, h1, _⟩ := withdrawSeed_inv h
      exact seedWithdraw_moves hI h1 trivial hf hf'
    | ftOnTransfer b n msg =>
      obtain ⟨_, ⟨hm, _, _, _, h1, _⟩ | ⟨hm, _⟩⟩ := ftOnTransfer_inv (exec_quiet h).1
      · simp only [Event.farmer, hm, if_true, Option.some.injEq] at ha
        subst ha
        exact seedDeposit_moves hI h1 trivial hf hf'
      · simp only [Event.farmer, hm, if_false] at ha
        cases ha
    | mftOnTransfer t b n msg =>
      cases ha
      obtain ⟨_, p, fs, _, _, _, h1, _⟩ := mftOnTransfer_inv (exec_quiet h).1
      exact seedDeposit_moves hI h1 trivial hf hf'
    | storageDeposit b only =>
      obtain ⟨_, n, h1, _⟩ := storageDeposit_inv h
      unfold register at h1
      split at h1
      · unpack at h1
        obtain ⟨_, rfl⟩ := h1
        rename_i u hu _
        exact refl rfl (stakeOf_same_seeds (u := u) (u' := { u with near := u.near + n }) hu rfl rfl a _) rfl
      · rename_i hu
        unpack at h1
        obtain ⟨_, rfl⟩ := h1
        refine refl rfl ?_ rfl
        cases ha
        unfold stakeOf
        simp only
        rw [FMap.get?_insert_self, hu]
        rfl
    | storageWithdraw n =>
      obtain ⟨_, u, k, hu, _, _, rfl, _⟩ := storageWithdraw_inv h
      exact refl rfl (stakeOf_same_seeds (u' := { u with near := u.near - k }) hu rfl rfl a _) rfl
    | storageUnregister =>
      cases ha
      obtain ⟨_, ⟨_, rfl, _⟩ | ⟨u, hu, _, hz, _, rfl, _⟩⟩ := storageUnregister_inv h
      · exact refl rfl rfl rfl
      · refine refl rfl ?_ rfl
        rw [stakeOf_some hu]
        unfold stakeOf Farmer.stake
        simp only
        rw [FMap.get?_erase_self, size_zero hz]
        rfl

theorem event_moves (hr : c.Reachable) (e : Event) (a : AccountId) {id : FarmId} {f f' : SimpleFarm}
    (hf : c.farms.get? id = some f) (hf' : (c.step e).farms.get? id = some f') :
    Moves c (c.step e) a (e.farmer = some a) id f f' := by
  have hI := hr.inv
  have hsame := C54_own_account hr e (a := a)
  revert hf' hsame
  unfold step
  cases h : c.apply e with
  | error _ =>
    intro hf' _
    simp only at hf' ⊢
    rw [hf] at hf'; cases hf'
    exact .rest rfl rfl rfl rfl rfl
  | ok r =>
    intro hf' hsame
    simp only at hf' hsame ⊢
    by_cases ha : e.farmer = some a
    · rcases own_moves (outs := r.2) hI h ha hf hf' with ⟨a1, a2, a3, a4, a5⟩ |
        ⟨a1, a2, a3, a4, a5, a6⟩ | ⟨a1, a2, a3, a4, a5, a6, a7, a8, a9⟩
      · exact .rest a1 a2 a3 a4 a5
      · exact absurd trivial a1
      · exact .own ha a2 a3 a4 a5 a6 a7 a8 a9
    · obtain ⟨_, s1, _, s2⟩ := hsame ha
      have s3 : r.1.rps.getD (a, id) 0 = c.rps.getD (a, id) 0 := by unfold FMap.getD; rw [s2]
      rcases farm_effect (outs := r.2) hI h id with ⟨a1, a2⟩ | ⟨a1, a2, a3, a4, a5, a6⟩ |
        ⟨a1, a2, a3, a4, a5, a6, a7⟩ | ⟨a1, a2, a3, a4, a5, a6⟩ | ⟨a1, a2, a3, a4, a5⟩
      · rw [hf, hf'] at a1; cases a1
        exact .rest (s1 _) s3 rfl rfl rfl
      · rw [hf] at a1; cases a1
        rw [hf'] at a5; cases a5
        rename_i g fs added n
        have hT : c.seedTotal f.terms.seedId = fs.amount := by unfold seedTotal; rw [a2]
        refine .other (g := g) ha (s1 _) s3 (by rw [hT]; exact a3) rfl ?_
        unfold SimpleFarm.released; simp only; omega
      · rw [hf] at a4; cases a4
        rw [hf'] at a6; cases a6
        refine .rest (s1 _) s3 a5.rps ?_ ?_
        · unfold SimpleFarm.released; rw [a5.unclaimed, a5.claimed]
        · unfold SimpleFarm.paidOut; rw [a5.claimed, a5.beneficiary]
      · rw [hf'] at a5; cases a5
      · rw [hf] at a1; cases a1

/-! ### The arithmetic of a release -/

/-- What a farmer could claim at the current rate, not rounded. -/
def pend (c : Contract) (a : AccountId) (s : SeedId) (id : FarmId) (f : SimpleFarm) : ℚ :=
  (c.stakeOf a s : ℚ) * ((f.dist.rps : ℚ) - c.rps.getD (a, id) 0) / DENOM

theorem DENOM_posQ : (0 : ℚ) < (DENOM : ℚ) := by exact_mod_cast DENOM_pos

/-- A rounded quotient, multiplied by a stake. -/
private theorem share_bounds (st added T : Nat) (hT : T ≠ 0) :
    (st : ℚ) * ((added * DENOM / T : Nat) : ℚ) / DENOM ≤ st * added / T ∧
    (st : ℚ) * added / T ≤ st * ((added * DENOM / T : Nat) : ℚ) / DENOM + st / DENOM := by
  have hD := DENOM_posQ
  have hTq : (0 : ℚ) < (T : ℚ) := by exact_mod_cast Nat.pos_of_ne_zero hT
  have h1 : ((added * DENOM / T : Nat) : ℚ) ≤ (added : ℚ) * DENOM / T := by
    have := @Nat.cast_div_le ℚ _ _ _ (added * DENOM) T
    push_cast at this ⊢
    exact this
  have h2 : (added : ℚ) * DENOM / T ≤ ((added * DENOM / T : Nat) : ℚ) + 1 := by
    have h3 := Nat.lt_div_mul_add (a := added * DENOM) (Nat.pos_of_ne_zero hT)
    rw [div_le_iff₀ hTq]
    have : ((added * DENOM : Nat) : ℚ) ≤ ((added * DENOM / T * T + T : Nat) : ℚ) := by
      exact_mod_cast Nat.le_of_lt h3
    push_cast at this ⊢
    linarith
  generalize ((added * DENOM / T : Nat) : ℚ) = q at *
  have hst : (0 : ℚ) ≤ (st : ℚ) := by positivity
  have e : (st : ℚ) * added / T = st * ((added : ℚ) * DENOM / T) / DENOM := by field_simp
  rw [e, ← add_div]
  constructor
  · exact div_le_div_of_nonneg_right (mul_le_mul_of_nonneg_left h1 hst) hD.le
  · refine div_le_div_of_nonneg_right ?_ hD.le
    have := mul_le_mul_of_nonneg_left h2 hst
    linarith

/-- A claim pays what was pending, rounded down. -/
private theorem floor_bounds (st r : Nat) :
    ((st * r / DENOM : Nat) : ℚ) ≤ st * r / DENOM ∧
    (st : ℚ) * r / DENOM ≤ ((st * r / DENOM : Nat) : ℚ) + 1 := by
  have hD := DENOM_posQ
  constructor
  · have := @Nat.cast_div_le ℚ _ _ _ (st * r) DENOM
    push_cast at this ⊢
    exact this
  · have h3 := Nat.lt_div_mul_add (a := st * r) DENOM_pos
    rw [div_le_iff₀ hD]
    have : ((st * r : Nat) : ℚ) ≤ ((st * r / DENOM * DENOM + DENOM : Nat) : ℚ) := by
      exact_mod_cast Nat.le_of_lt h3
    push_cast at this ⊢
    linarith

theorem paidOut_same {f g : SimpleFarm} {now T added : Nat} (h : f.Distributed now T g added) :
    g.paidOut = f.paidOut := by
  unfold SimpleFarm.paidOut
  by_cases h0 : T = 0
  · rcases h.empty h0 with ⟨_, _, h1, h2⟩ | ⟨_, _, h1, h2⟩ <;> omega
  · rw [h.claimed h0, h.beneficiary h0]

theorem stake_zero (hr : c.Reachable) {s : SeedId} (a : AccountId) (h : c.seedTotal s = 0) :
    c.stakeOf a s = 0 := by
  rw [C46_total hr] at h
  unfold stakes at h
  cases hu : c.farmers.get? a with
  | none => unfold stakeOf; rw [hu]
  | some u =>
    have h2 := c.farmers.term_le_sum (fun _ u => u.stake s) a
    rw [FMap.term_some _ hu] at h2
    rw [stakeOf_some hu]
    omega

theorem released_add {f g : SimpleFarm} {now T added : Nat} (h : f.Distributed now T g added)
    (h0 : T ≠ 0) : g.released = f.released + added := by
  unfold SimpleFarm.released
  rw [h.unclaimed h0, h.claimed h0]
  omega

/-- The account of one event. -/
theorem event_account (hr : c.Reachable) (e : Event) (a : AccountId) {id : FarmId}
    {f f' : SimpleFarm} (hf : c.farms.get? id = some f) (hf' : (c.step e).farms.get? id = some f') :
    let s := f.terms.seedId
    let paid : Nat := if e.farmer = some a then (c.step e).paidBy id - c.paidBy id else 0
    let share : ℚ := (c.stakeOf a s : ℚ) * ((c.step e).releasedBy id - c.releasedBy id) / c.seedTotal s
    (paid : ℚ) + pend (c.step e) a s id f' ≤ share + pend c a s id f ∧
    share + pend c a s id f ≤ paid + pend (c.step e) a s id f' +
      (if e.farmer = some a then 1 else 0) + (c.stakeOf a s : ℚ) / DENOM := by
  intro s paid share
  have hD := DENOM_posQ
  have hst0 : (0 : ℚ) ≤ (c.stakeOf a s : ℚ) / DENOM := by positivity
  have hone : (0 : ℚ) ≤ (if e.farmer = some a then 1 else 0) := by split <;> norm_num
  have hb := (hr.inv.farms id f hf).balanced.beneficiary
  have hrel : ∀ {x : Contract} {g : SimpleFarm}, x.farms.get? id = some g → x.releasedBy id = g.released :=
    fun h => by unfold releasedBy; rw [h]; rfl
  have hpd : ∀ {x : Contract} {g : SimpleFarm}, x.farms.get? id = some g → x.paidBy id = g.paidOut :=
    fun h => by unfold paidBy; rw [h]; rfl
  rcases event_moves hr e a hf hf' with ⟨a1, a2, a3, a4, a5⟩ |
    ⟨a1, a2, a3, a4, a5, a6⟩ | ⟨a1, a2, a3, a4, a5, a6, a7, a8, a9⟩
  · have h1 : paid = 0 := by
      simp only [paid]; rw [hpd hf, hpd hf', a5]; simp
    have h2 : share = 0 := by
      simp only [share]; rw [hrel hf, hrel hf', a4]; simp
    have h3 : pend (c.step e) a s id f' = pend c a s id f := by
      unfold pend; rw [a1, a2, a3]
    rw [h1, h2, h3]
    push_cast
    constructor <;> linarith
  · rename_i g now added
    have h1 : paid = 0 := if_neg a1
    by_cases hT : c.seedTotal s = 0
    · have hz := stake_zero hr a hT
      have h2 : share = 0 := by simp only [share]; rw [hz]; simp
      have h3 : pend (c.step e) a s id f' = 0 := by unfold pend; rw [a2, hz]; simp
      have h4 : pend c a s id f = 0 := by unfold pend; rw [hz]; simp
      rw [h1, h2, h3, h4]
      push_cast
      constructor <;> linarith
    · obtain ⟨b1, b2⟩ := share_bounds (c.stakeOf a s) added (c.seedTotal s) hT
      have h2 : share = (c.stakeOf a s : ℚ) * added / c.seedTotal s := by
        simp only [share]; rw [hrel hf, hrel hf', a6, released_add a4 hT]; push_cast; ring
      have h3 : pend (c.step e) a s id f' = pend c a s id f +
          (c.stakeOf a s : ℚ) * ((added * DENOM / c.seedTotal s : Nat) : ℚ) / DENOM := by
        unfold pend
        rw [a2, a3, a5, a4.rps hT, Nat.cast_add]
        ring
      rw [h1, h2, h3]
      rw [Nat.cast_zero]
      constructor <;> linarith
  · rename_i g now added n
    have h1 : paid = n := by
      simp only [paid]; rw [if_pos a1, hpd hf, hpd hf', ← paidOut_same a2]
      have hb' : g.amountOfBeneficiary ≤ g.amountOfClaimed := by
        by_cases h0 : c.seedTotal f.terms.seedId = 0
        · rcases a2.empty h0 with ⟨_, _, h1, h2⟩ | ⟨_, _, h1, h2⟩ <;> omega
        · rw [a2.claimed h0, a2.beneficiary h0]; exact hb
      unfold SimpleFarm.paidOut
      omega
    have h3 : pend (c.step e) a s id f' = 0 := by
      unfold pend
      rcases a9 with a9 | a9
      · rw [a9]; simp
      · rw [a9, a5]; simp
    by_cases hT : c.seedTotal s = 0
    · have hz := stake_zero hr a hT
      have h2 : share = 0 := by simp only [share]; rw [hz]; simp
      have h4 : pend c a s id f = 0 := by unfold pend; rw [hz]; simp
      have h5 : n = 0 := by rw [a4, hz]; simp
      rw [h1, h2, h3, h4, h5]
      push_cast
      constructor <;> linarith
    · obtain ⟨b1, b2⟩ := share_bounds (c.stakeOf a s) added (c.seedTotal s) hT
      obtain ⟨d1, d2⟩ := floor_bounds (c.stakeOf a s) (g.dist.rps - c.rps.getD (a, id) 0)
      rw [← a4] at d1 d2
      have h2 : share = (c.stakeOf a s : ℚ) * added / c.seedTotal s := by
        simp only [share]; rw [hrel hf, hrel hf', a6, released_add a2 hT]; push_cast; ring
      have h4 : (c.stakeOf a s : ℚ) * ((g.dist.rps - c.rps.getD (a, id) 0 : Nat) : ℚ) / DENOM =
          pend c a s id f +
          (c.stakeOf a s : ℚ) * ((added * DENOM / c.seedTotal s : Nat) : ℚ) / DENOM := by
        unfold pend
        rw [Nat.cast_sub a3, a2.rps hT, Nat.cast_add]
        ring
      rw [h4] at d1 d2
      rw [h1, h2, h3, if_pos a1]
      constructor <;> linarith

/-- A live farm stays live, with the same seed, or is cleared. -/
theorem step_live (hr : c.Reachable) (e : Event) {id : FarmId} {f : SimpleFarm}
    (hf : c.farms.get? id = some f) :
    (∃ g, (c.step e).farms.get? id = some g ∧ g.terms.seedId = f.terms.seedId) ∨
      ∃ g, (c.step e).outdated.get? id = some g := by
  unfold step
  cases h : c.apply e with
  | error _ => exact .inl ⟨f, hf, rfl⟩
  | ok r =>
    simp only
    rcases farm_effect (outs := r.2) hr.inv h id with ⟨a1, a2⟩ | ⟨a1, a2, a3, a4, a5, a6⟩ |
      ⟨a1, a2, a3, a4, a5, a6, a7⟩ | ⟨a1, a2, a3, a4, a5, a6⟩ | ⟨a1, a2, a3, a4, a5⟩
    · exact .inl ⟨f, a1.trans hf, rfl⟩
    · rw [hf] at a1; cases a1
      exact .inl ⟨_, a5, by simp only [a3.terms]⟩
    · rw [hf] at a4; cases a4
      exact .inl ⟨_, a6, a5.seed⟩
    · exact .inr ⟨_, a6⟩
    · rw [hf] at a1; cases a1

theorem run_outdated (es : List Event) (hr : c.Reachable) {id : FarmId} {f : SimpleFarm}
    (hf : c.outdated.get? id = some f) : (c.run es).farms.get? id = none := by
  induction es generalizing c f with
  | nil => exact (hr.inv.outdated id f hf).2.2.2.2
  | cons e es ih =>
    have : ∃ g, (c.step e).outdated.get? id = some g := by
      unfold step
      cases h : c.apply e with
      | error _ => exact ⟨f, hf⟩
      | ok r =>
        simp only
        rcases farm_effect (outs := r.2) hr.inv h id with ⟨a1, a2⟩ | ⟨a1, a2, a3, a4, a5, a6⟩ |
          ⟨a1, a2, a3, a4, a5, a6, a7⟩ | ⟨a1, a2, a3, a4, a5, a6⟩ | ⟨a1, a2, a3, a4, a5⟩
        · exact ⟨f, a2.trans hf⟩
        · exact ⟨f, a6.trans hf⟩
        · exact ⟨f, a7.trans hf⟩
        · exact ⟨_, a6⟩
        · rw [hf] at a2; cases a2
    obtain ⟨g, hg⟩ := this
    exact ih (hr.step e) hg

theorem run_seed (es : List Event) (hr : c.Reachable) {id : FarmId} {f f' : SimpleFarm}
    (hf : c.farms.get? id = some f) (hf' : (c.run es).farms.get? id = some f') :
    f'.terms.seedId = f.terms.seedId := by
  induction es generalizing c f with
  | nil =>
    have : (c.run []).farms.get? id = c.farms.get? id := rfl
    rw [this, hf] at hf'
    cases hf'
    rfl
  | cons e es ih =>
    rcases step_live hr e hf with ⟨g, hg, hs⟩ | ⟨g, hg⟩
    · exact (ih (hr.step e) hg hf').trans hs
    · have hrun : c.run (e :: es) = (c.step e).run es := rfl
      rw [hrun, run_outdated es (hr.step e) hg] at hf'
      cases hf'

private theorem run_account (es : List Event) (hr : c.Reachable) (a : AccountId) {id : FarmId}
    {f f' : SimpleFarm} (hf : c.farms.get? id = some f) (hf' : (c.run es).farms.get? id = some f') :
    let s := f.terms.seedId
    (paidTo a id c es : ℚ) + pend (c.run es) a s id f' ≤ earned a s id c es + pend c a s id f ∧
    earned a s id c es + pend c a s id f ≤ paidTo a id c es + pend (c.run es) a s id f' +
      (es.countP fun e => e.farmer = some a : Nat) + (stakedOver a s c es : ℚ) / DENOM := by
  induction es generalizing c f with
  | nil =>
    have : (c.run []).farms.get? id = c.farms.get? id := rfl
    rw [this, hf] at hf'
    cases hf'
    simp only [paidTo, earned, stakedOver, List.countP_nil]
    have : pend (c.run []) a f'.terms.seedId id f' = pend c a f'.terms.seedId id f' := rfl
    rw [this]
    constructor <;> simp
  | cons e es ih =>
    intro s
    have hr' := hr.step e
    rcases step_live hr e hf with ⟨g, hg, hs⟩ | ⟨g, hg⟩
    · obtain ⟨h1, h2⟩ := ih hr' hg hf'
      obtain ⟨h3, h4⟩ := event_account hr e a hf hg
      rw [hs] at h1 h2
      have hrun : c.run (e :: es) = (c.step e).run es := rfl
      rw [hrun]
      simp only [paidTo, earned, stakedOver, List.countP_cons, decide_eq_true_eq]
      have hone : (((if e.farmer = some a then 1 else 0 : Nat)) : ℚ) =
          if e.farmer = some a then 1 else 0 := by split <;> simp
      rw [Nat.cast_add, Nat.cast_add, Nat.cast_add, hone, add_div]
      constructor <;> linarith
    · have := run_outdated es hr' hg
      have hrun : c.run (e :: es) = (c.step e).run es := rfl
      rw [hrun, this] at hf'
      cases hf'

theorem pend_nonneg (hr : c.Reachable) (a : AccountId) {id : FarmId} {f : SimpleFarm}
    (hf : c.farms.get? id = some f) : 0 ≤ pend c a f.terms.seedId id f := by
  unfold pend
  have hD := DENOM_posQ
  cases hu : c.farmers.get? a with
  | none =>
    have : c.stakeOf a f.terms.seedId = 0 := by unfold stakeOf; rw [hu]
    rw [this]; simp
  | some u =>
    rw [stakeOf_some hu]
    by_cases hz : u.stake f.terms.seedId = 0
    · rw [hz]; simp
    · have := (hr.inv.farms id f hf).behind a u hu (by omega)
      have : ((c.rps.getD (a, id) 0 : Nat) : ℚ) ≤ (f.dist.rps : ℚ) := by exact_mod_cast this
      have h2 : (0 : ℚ) ≤ (u.stake f.terms.seedId : ℚ) := by positivity
      exact div_nonneg (mul_nonneg h2 (by linarith)) hD.le

/-- **C93.** A farmer `a` of the farm `id` has claimed everything released so far, or has no stake yet
(state `c`). Then any history `es` follows: anyone, `a` included, stakes, withdraws, claims, funds
farms. As long as the farm is not cleared, what it pays to `a` is never more than the exact share of
`a`: of every release, the part that `a`'s stake was of the total at the time. -/
theorem C93_never_more (hr : c.Reachable) {a : AccountId} {id : FarmId} {f f' : SimpleFarm}
    (hf : c.farms.get? id = some f)
    (hstart : c.CaughtUp a id ∨ c.stakeOf a f.terms.seedId = 0) (es : List Event)
    (hf' : (c.run es).farms.get? id = some f') :
    (paidTo a id c es : ℚ) ≤ earned a f.terms.seedId id c es := by
  obtain ⟨h, _⟩ := run_account es hr a hf hf'
  have h0 : pend c a f.terms.seedId id f = 0 := by
    unfold pend
    rcases hstart with ⟨g, hg, h1⟩ | h1
    · rw [hf] at hg; cases hg
      rw [h1]; simp
    · rw [h1]; simp
  have h1 : 0 ≤ pend (c.run es) a f.terms.seedId id f' := by
    rw [← run_seed es hr hf hf']
    exact pend_nonneg (hr.run es) a hf'
  linarith

/-- **C93.** If at the end `a` has claimed what was released, or has withdrawn the stake, then `a` has
been paid the exact share, but for less than one unit at each of `a`'s own calls and `10^-24` of `a`'s
stake at every event. -/
theorem C93_hardly_less (hr : c.Reachable) {a : AccountId} {id : FarmId} {f f' : SimpleFarm}
    (hf : c.farms.get? id = some f)
    (hstart : c.CaughtUp a id ∨ c.stakeOf a f.terms.seedId = 0) (es : List Event)
    (hf' : (c.run es).farms.get? id = some f')
    (hend : (c.run es).CaughtUp a id ∨ (c.run es).stakeOf a f.terms.seedId = 0) :
    earned a f.terms.seedId id c es ≤ (paidTo a id c es : ℚ) +
      (es.countP fun e => e.farmer = some a : Nat) + (stakedOver a f.terms.seedId c es : ℚ) / DENOM := by
  obtain ⟨_, h⟩ := run_account es hr a hf hf'
  have h0 : pend c a f.terms.seedId id f = 0 := by
    unfold pend
    rcases hstart with ⟨g, hg, h1⟩ | h1
    · rw [hf] at hg; cases hg
      rw [h1]; simp
    · rw [h1]; simp
  have h1 : pend (c.run es) a f.terms.seedId id f' = 0 := by
    unfold pend
    rcases hend with ⟨g, hg, h1⟩ | h1
    · rw [hf'] at hg; cases hg
      rw [h1]; simp
    · rw [h1]; simp
  rw [h0, h1] at h
  linarith

/-- What a farm pays in a claim is credited to the caller, as a reward that can be withdrawn. -/
theorem C93_credited (hr : c.Reachable) {x : Ctx} {id : FarmId} {f : SimpleFarm} {outs : List Out}
    (hf : c.farms.get? id = some f) (h : c.exec x (.claimRewardByFarm id) = .ok (c', outs)) :
    c'.rewardOf x.pred f.terms.rewardToken =
      c.rewardOf x.pred f.terms.rewardToken + (c'.paidBy id - c.paidBy id) := by
  obtain ⟨_, hcl, _⟩ := claimRewardByFarm_inv (exec_quiet h).1
  rcases claimByFarm_paid hr.inv hcl with ⟨hno, rfl⟩ |
    ⟨f1, g, fs, u, u', added, k, hf1, hs, hu, hu', hg, hd, hrw, hcov, hp, hfin, _, hrew⟩
  · rw [hno] at hf; cases hf
  rw [hf] at hf1; cases hf1
  rw [rewardOf_some hu, rewardOf_some hu', hrew, if_pos rfl]
  have h1 : c.paidBy id = g.paidOut := by
    unfold paidBy; rw [hf, paidOut_same hd]; rfl
  have hb := (hr.inv.farms id f hf).balanced.beneficiary
  have hb' : g.amountOfBeneficiary ≤ g.amountOfClaimed := by
    by_cases h0 : fs.amount = 0
    · rcases hd.empty h0 with ⟨_, _, h1, h2⟩ | ⟨_, _, h1, h2⟩ <;> omega
    · rw [hd.claimed h0, hd.beneficiary h0]; exact hb
  have h2 : c'.paidBy id = g.paidOut + k := by
    unfold paidBy; rw [hfin]
    show g.amountOfClaimed + k - g.amountOfBeneficiary = g.amountOfClaimed - g.amountOfBeneficiary + k
    omega
  rw [h1, h2]
  omega

open Demo in
/-- `al` has 30 of 40 staked and has caught up in `c2`. In the session after, `bo` stakes 20 more; `al`
claims, withdraws 10 and claims at the end. -/
example :
    let es : List Event := [.call (at' 1030 S) (.ftOnTransfer bo 20 []),
      .call (at' 1042 al) (.claimRewardByFarm F), .call (y 1045 al) (.withdrawSeed S 10),
      .call (at' 1055 al) (.claimRewardByFarm F)]
    (c2.farms.get? F).map (·.dist.rps) = some (c2.rps.getD (al, F) 0) ∧
    ((c2.run es).farms.get? F).map (·.dist.rps) = some ((c2.run es).rps.getD (al, F) 0) ∧
    c2.stakeOf al S = 30 ∧ (c2.run es).stakeOf al S = 20 ∧ (c2.run es).seedTotal S = 50 ∧
    earned al S F c2 es = 165 ∧ paidTo al F c2 es = 164 ∧
    (c2.run es).rewardOf al R' = c2.rewardOf al R' + 164 := by
  decide +kernel

end Contract
end Verif.Farming

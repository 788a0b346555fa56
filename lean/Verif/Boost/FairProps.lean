import Verif.Boost.Moves
import Verif.Boost.Demo
import Mathlib.Algebra.Order.Field.Rat
import Mathlib.Algebra.Order.Field.Basic
import Mathlib.Data.Nat.Cast.Order.Field
import Mathlib.Tactic.FieldSimp
import Mathlib.Tactic.Linarith
import Mathlib.Tactic.Positivity
import Mathlib.Tactic.Ring

/-
C104: what a farmer of the boost farming contract earns over a whole history in which stakes, locks and
boosts come and go.
-/

namespace Verif.Boost

namespace Contract

/-- A live farm: an entry of `list_seed_farms`. -/
def farmOf (c : Contract) (s : SeedId) (id : FarmId) : Option SeedFarm :=
  (c.seeds.get? s).bind fun sd => sd.farms.get? id

/-- The power of a seed: `total_seed_power` of `get_seed`. -/
def powerOf (c : Contract) (s : SeedId) : Nat := ((c.seeds.get? s).map (·.power)).getD 0

/-- What a farm has released so far: `distributed_reward` of `get_farm`. -/
def releasedBy (c : Contract) (s : SeedId) (id : FarmId) : Nat :=
  ((c.farmOf s id).map (·.distributed)).getD 0

/-- What a farm has paid so far: `claimed_reward` of `get_farm`. -/
def paidBy (c : Contract) (s : SeedId) (id : FarmId) : Nat :=
  ((c.farmOf s id).map (·.claimed)).getD 0

/-- The exact share of account `a` in what farm `id` of seed `s` releases during a history: the release
of every call is divided in proportion to the powers just before the call. -/
def earned (fl : Floats) (a : AccountId) (s : SeedId) (id : FarmId) : Contract → List Event → ℚ
  | _, [] => 0
  | c, e :: es => ((c.stakeOf a s).pow fl : ℚ) * ((c.step fl e).releasedBy s id - c.releasedBy s id) /
      c.powerOf s + earned fl a s id (c.step fl e) es

/-- What farm `id` of seed `s` pays in the calls and transfers of account `a` during a history. -/
def paidTo (fl : Floats) (a : AccountId) (s : SeedId) (id : FarmId) : Contract → List Event → Nat
  | _, [] => 0
  | c, e :: es => (if e.k.actor e.x = some a then (c.step fl e).paidBy s id - c.paidBy s id else 0) +
      paidTo fl a s id (c.step fl e) es

/-- The powers of `a` before each call of a history, added up. -/
def powerOver (fl : Floats) (a : AccountId) (s : SeedId) : Contract → List Event → Nat
  | _, [] => 0
  | c, e :: es => (c.stakeOf a s).pow fl + powerOver fl a s (c.step fl e) es

/-- The account has been paid everything the farm has released for it. -/
def CaughtUp (c : Contract) (a : AccountId) (s : SeedId) (id : FarmId) : Prop :=
  ∃ f, c.farmOf s id = some f ∧ (c.stakeOf a s).userRps.getD id 0 = f.rps

/-- What `a` has earned and not been paid, exactly. -/
def pend (fl : Floats) (c : Contract) (a : AccountId) (s : SeedId) (id : FarmId) (f : SeedFarm) : ℚ :=
  ((c.stakeOf a s).pow fl : ℚ) * ((f.rps : ℚ) - ((c.stakeOf a s).userRps.getD id 0 : Nat)) / D27

theorem D27_pos : (0 : ℚ) < (D27 : ℚ) := by
  have : 0 < D27 := by decide
  exact_mod_cast this

variable {fl : Floats} {c c' : Contract}

theorem pow_le_powers (c : Contract) (a : AccountId) (s : SeedId) :
    (c.stakeOf a s).pow fl ≤ c.powers fl s := by
  unfold stakeOf powers
  cases hu : c.farmers.get? a with
  | none =>
    have : FarmerSeed.zero.pow fl = 0 := FarmerSeed.pow_zero rfl
    simp only [this]
    exact Nat.zero_le _
  | some u =>
    have h2 := c.farmers.term_le_sum (fun _ u => (u.stakeIn s).pow fl) a
    rw [FMap.term_some _ hu] at h2
    exact h2

theorem share_bounds (st r P : Nat) (hP : P ≠ 0) :
    (st : ℚ) * ((r * D27 / P : Nat) : ℚ) / D27 ≤ (st : ℚ) * r / P ∧
    (st : ℚ) * r / P ≤ (st : ℚ) * ((r * D27 / P : Nat) : ℚ) / D27 + (st : ℚ) / D27 := by
  have hD := D27_pos
  have hP' : (0 : ℚ) < (P : ℚ) := by exact_mod_cast Nat.pos_of_ne_zero hP
  have h1 : (r * D27 / P) * P ≤ r * D27 := Nat.div_mul_le_self _ _
  have h2 : r * D27 < (r * D27 / P + 1) * P := by
    rw [Nat.mul_comm _ P]; exact Nat.lt_mul_div_succ _ (Nat.pos_of_ne_zero hP)
  generalize r * D27 / P = q at h1 h2
  have h1' : (q : ℚ) * P ≤ r * D27 := by exact_mod_cast h1
  have h2' : (r : ℚ) * D27 ≤ (q + 1) * P := by exact_mod_cast h2.le
  have hs : (0 : ℚ) ≤ (st : ℚ) := by positivity
  constructor
  · rw [div_le_div_iff₀ hD hP']
    nlinarith
  · rw [← add_div, div_le_div_iff₀ hP' hD]
    nlinarith

theorem floor_bounds (d st : Nat) :
    ((d * st / D27 : Nat) : ℚ) ≤ (st : ℚ) * d / D27 ∧
    (st : ℚ) * d / D27 ≤ ((d * st / D27 : Nat) : ℚ) + 1 := by
  have hD := D27_pos
  have hD' : 0 < D27 := by decide
  have h1 : (d * st / D27) * D27 ≤ d * st := Nat.div_mul_le_self _ _
  have h2 : d * st < (d * st / D27 + 1) * D27 := by
    rw [Nat.mul_comm _ D27]; exact Nat.lt_mul_div_succ _ hD'
  generalize d * st / D27 = q at h1 h2
  have h1' : (q : ℚ) * D27 ≤ d * st := by exact_mod_cast h1
  have h2' : (d : ℚ) * st ≤ (q + 1) * D27 := by exact_mod_cast h2.le
  constructor
  · rw [le_div_iff₀ hD]; linarith
  · rw [div_le_iff₀ hD]; linarith

theorem farmOf_some {s : SeedId} {id : FarmId} {f : SeedFarm} (h : c.farmOf s id = some f) :
    ∃ sd, c.seeds.get? s = some sd ∧ sd.farms.get? id = some f := by
  unfold farmOf at h
  cases hs : c.seeds.get? s with
  | none => rw [hs] at h; cases h
  | some sd => rw [hs] at h; exact ⟨sd, rfl, h⟩

theorem farmOf_of {s : SeedId} {sd : Seed} {id : FarmId} (hs : c.seeds.get? s = some sd) :
    c.farmOf s id = sd.farms.get? id := by unfold farmOf; rw [hs]; rfl

theorem step_moves (h : Inv fl c) (e : Event) : Moves fl (e.k.actor e.x) c (c.step fl e) := by
  unfold step
  cases he : c.exec fl e.x e.k with
  | error _ => exact .of_eq rfl rfl
  | ok r => exact exec_moves (o := r.2) h he

/-- A farm that is live after a history was live before, unless it has been created in between. -/
theorem run_live : ∀ (es : List Event) {c : Contract}, Inv fl c → ∀ {s : SeedId} {sd : Seed} {i : Nat}
    {f' : SeedFarm}, c.seeds.get? s = some sd → i < sd.nextIndex →
    (c.run fl es).farmOf s (genFarmId s i) = some f' → ∃ f, c.farmOf s (genFarmId s i) = some f := by
  intro es
  induction es with
  | nil => intro c _ s sd i f' _ _ h; exact ⟨f', h⟩
  | cons e es ih =>
    intro c hI s sd i f' hs hi h
    obtain ⟨sd1, hs1, hm⟩ := step_moves hI e s sd hs
    obtain ⟨g, hg⟩ := ih (hI.step e) hs1 (Nat.lt_of_lt_of_le hi hm.next) h
    rw [farmOf_of hs1] at hg
    rcases hm.farms _ g hg with ⟨j, hj, he⟩ | ⟨f, hf, _⟩
    · have := (genFarmId_inj he).2
      omega
    · exact ⟨f, by rw [farmOf_of hs]; exact hf⟩

theorem step_farm (hI : Inv fl c) (e : Event) {s : SeedId} {sd : Seed} {id : FarmId}
    {f f' : SeedFarm} (hs : c.seeds.get? s = some sd) (hfs : sd.farms.get? id = some f)
    (hf' : (c.step fl e).farmOf s id = some f') :
    FarmMoves fl (e.k.actor e.x) sd.power (c.stakeOf · s) ((c.step fl e).stakeOf · s) id f f' := by
  obtain ⟨sd', hs', hm⟩ := step_moves hI e s sd hs
  rw [farmOf_of hs'] at hf'
  rcases hm.farms id f' hf' with ⟨j, hj, he⟩ | ⟨g, hg, mv⟩
  · obtain ⟨i, hi, hid⟩ := hI.farmIds s sd id f hs hfs
    have := (genFarmId_inj (hid.symm.trans he)).2
    omega
  · rw [hfs] at hg; cases hg; exact mv

/-- The account of one call. -/
theorem event_account (hI : Inv fl c) (e : Event) (a : AccountId) {s : SeedId} {id : FarmId}
    {f f' : SeedFarm} (hf : c.farmOf s id = some f) (hf' : (c.step fl e).farmOf s id = some f') :
    let paid : Nat := if e.k.actor e.x = some a then (c.step fl e).paidBy s id - c.paidBy s id else 0
    let share : ℚ := ((c.stakeOf a s).pow fl : ℚ) *
      ((c.step fl e).releasedBy s id - c.releasedBy s id) / c.powerOf s
    (paid : ℚ) + pend fl (c.step fl e) a s id f' ≤ share + pend fl c a s id f ∧
    share + pend fl c a s id f ≤ paid + pend fl (c.step fl e) a s id f' +
      (if e.k.actor e.x = some a then 1 else 0) + ((c.stakeOf a s).pow fl : ℚ) / D27 := by
  intro paid share
  have hD := D27_pos
  have hst0 : (0 : ℚ) ≤ ((c.stakeOf a s).pow fl : ℚ) / D27 := by positivity
  have hone : (0 : ℚ) ≤ (if e.k.actor e.x = some a then 1 else 0) := by split <;> norm_num
  obtain ⟨sd, hs, hfs⟩ := farmOf_some hf
  have mv := step_farm hI e hs hfs hf'
  obtain ⟨r, hdist, hrps, _⟩ := mv.released
  have hP : c.powerOf s = sd.power := by unfold powerOf; rw [hs]; rfl
  have hle : (c.stakeOf a s).pow fl ≤ sd.power := by
    rw [hI.power s sd hs]; exact pow_le_powers c a s
  have hrel : c.releasedBy s id = f.distributed := by unfold releasedBy; rw [hf]; rfl
  have hrel' : (c.step fl e).releasedBy s id = f'.distributed := by
    unfold releasedBy; rw [hf']; rfl
  have hpd : c.paidBy s id = f.claimed := by unfold paidBy; rw [hf]; rfl
  have hpd' : (c.step fl e).paidBy s id = f'.claimed := by
    unfold paidBy; rw [hf']; rfl
  have hshare : share = ((c.stakeOf a s).pow fl : ℚ) * r / sd.power := by
    simp only [share]
    rw [hrel, hrel', hP, hdist, Nat.cast_add]
    ring
  have hpaid : paid = if e.k.actor e.x = some a then f'.claimed - f.claimed else 0 := by
    simp only [paid]; rw [hpd, hpd']
  -- the rate's increase, as a share
  have hinc : ∃ q : Nat, f'.rps = f.rps + q ∧
      ((c.stakeOf a s).pow fl : ℚ) * q / D27 ≤ share ∧
      share ≤ ((c.stakeOf a s).pow fl : ℚ) * q / D27 + ((c.stakeOf a s).pow fl : ℚ) / D27 := by
    by_cases h0 : sd.power = 0
    · have hz : (c.stakeOf a s).pow fl = 0 := by omega
      refine ⟨0, by rw [hrps, if_neg (by omega)], ?_, ?_⟩ <;> rw [hshare, hz] <;> simp
    · obtain ⟨b1, b2⟩ := share_bounds ((c.stakeOf a s).pow fl) r sd.power h0
      exact ⟨r * D27 / sd.power, by rw [hrps, if_pos (by omega)], by rw [hshare]; exact b1,
        by rw [hshare]; exact b2⟩
  obtain ⟨q, hq, b1, b2⟩ := hinc
  rcases mv.each a with ⟨h1, h2⟩ | ⟨h1, h2, h3, h4⟩
  · have h1 : (c.step fl e).stakeOf a s = c.stakeOf a s := h1
    have hp0 : paid = 0 := by
      rw [hpaid]
      split
      · rename_i hact
        rw [h2 hact]
        omega
      · rfl
    have hpe : pend fl (c.step fl e) a s id f' = pend fl c a s id f +
        ((c.stakeOf a s).pow fl : ℚ) * q / D27 := by
      unfold pend
      rw [h1, hq, Nat.cast_add]
      ring
    rw [hp0, hpe]
    rw [Nat.cast_zero]
    constructor <;> linarith
  · have h3 : (c.stakeOf a s).userRps.getD id 0 ≤ f'.rps := h3
    have h4 : ((c.step fl e).stakeOf a s).userRps.getD id 0 = f'.rps := h4
    have hp0 : paid = (f'.rps - (c.stakeOf a s).userRps.getD id 0) * (c.stakeOf a s).pow fl / D27 := by
      rw [hpaid, if_pos h1, h2]
      exact Nat.add_sub_cancel_left _ _
    have hpe : pend fl (c.step fl e) a s id f' = 0 := by
      unfold pend; rw [h4]; simp
    obtain ⟨d1, d2⟩ := floor_bounds (f'.rps - (c.stakeOf a s).userRps.getD id 0) ((c.stakeOf a s).pow fl)
    rw [← hp0] at d1 d2
    have h5 : ((c.stakeOf a s).pow fl : ℚ) * ((f'.rps - (c.stakeOf a s).userRps.getD id 0 : Nat) : ℚ) / D27 =
        pend fl c a s id f + ((c.stakeOf a s).pow fl : ℚ) * q / D27 := by
      unfold pend
      rw [Nat.cast_sub h3, hq, Nat.cast_add]
      ring
    rw [h5] at d1 d2
    rw [hpe, if_pos h1]
    constructor <;> linarith

theorem run_account : ∀ (es : List Event) {c : Contract}, Inv fl c → ∀ (a : AccountId)
    {s : SeedId} {id : FarmId} {f f' : SeedFarm}, c.farmOf s id = some f →
    (c.run fl es).farmOf s id = some f' →
    (paidTo fl a s id c es : ℚ) + pend fl (c.run fl es) a s id f' ≤
      earned fl a s id c es + pend fl c a s id f ∧
    earned fl a s id c es + pend fl c a s id f ≤ paidTo fl a s id c es +
      pend fl (c.run fl es) a s id f' + (es.countP fun e => e.k.actor e.x = some a : Nat) +
      (powerOver fl a s c es : ℚ) / D27 := by
  intro es
  induction es with
  | nil =>
    intro c _ a s id f f' hf hf'
    have hrun : c.run fl [] = c := rfl
    rw [hrun] at hf' ⊢
    rw [hf] at hf'
    cases hf'
    simp only [paidTo, earned, powerOver, List.countP_nil]
    constructor <;> simp
  | cons e es ih =>
    intro c hI a s id f f' hf hf'
    have hrun : c.run fl (e :: es) = (c.step fl e).run fl es := rfl
    rw [hrun] at hf' ⊢
    obtain ⟨sd, hs, hfs⟩ := farmOf_some hf
    obtain ⟨i, hi, rfl⟩ := hI.farmIds s sd id f hs hfs
    obtain ⟨sd1, hs1, hm⟩ := step_moves hI e s sd hs
    obtain ⟨g, hg⟩ := run_live es (hI.step e) hs1 (Nat.lt_of_lt_of_le hi hm.next) hf'
    obtain ⟨h1, h2⟩ := ih (hI.step e) a hg hf'
    obtain ⟨h3, h4⟩ := event_account hI e a hf hg
    simp only [paidTo, earned, powerOver, List.countP_cons, decide_eq_true_eq]
    have hone : (((if e.k.actor e.x = some a then 1 else 0 : Nat)) : ℚ) =
        if e.k.actor e.x = some a then 1 else 0 := by split <;> simp
    rw [Nat.cast_add, Nat.cast_add, Nat.cast_add, hone, add_div]
    constructor <;> linarith

theorem pend_nonneg (hI : Inv fl c) (a : AccountId) {s : SeedId} {id : FarmId} {f : SeedFarm}
    (hf : c.farmOf s id = some f) : 0 ≤ pend fl c a s id f := by
  obtain ⟨sd, hs, hfs⟩ := farmOf_some hf
  unfold pend
  have hD := D27_pos
  have h1 : (c.stakeOf a s).userRps.getD id 0 ≤ f.rps := by
    unfold stakeOf
    cases hu : c.farmers.get? a with
    | none => exact Nat.zero_le _
    | some u => exact hI.rate hu hs hfs
  have h1 : (((c.stakeOf a s).userRps.getD id 0 : Nat) : ℚ) ≤ (f.rps : ℚ) := by exact_mod_cast h1
  have h2 : (0 : ℚ) ≤ ((c.stakeOf a s).pow fl : ℚ) := by positivity
  exact div_nonneg (mul_nonneg h2 (by linarith)) hD.le

theorem pend_zero {a : AccountId} {s : SeedId} {id : FarmId} {f : SeedFarm}
    (hf : c.farmOf s id = some f) (h : c.CaughtUp a s id ∨ (c.stakeOf a s).pow fl = 0) :
    pend fl c a s id f = 0 := by
  unfold pend
  rcases h with ⟨g, hg, h1⟩ | h1
  · rw [hf] at hg; cases hg
    rw [h1]; simp
  · rw [h1]; simp

/-- **C104.** A farmer `a` has been paid everything a farm has released so far, or has no power yet
(state `c`). Then any history `es` follows: anyone, `a` included, stakes, locks, unlocks, claims,
changes boosts or settings. As long as the farm is not removed, what it pays to `a` is never more than
the exact share of `a`: of every release, the part that `a`'s power was of the seed's at the time. -/
theorem C104_never_more (hr : c.Reachable fl) {a : AccountId} {s : SeedId} {id : FarmId}
    {f f' : SeedFarm} (hf : c.farmOf s id = some f)
    (hstart : c.CaughtUp a s id ∨ (c.stakeOf a s).pow fl = 0) (es : List Event)
    (hf' : (c.run fl es).farmOf s id = some f') :
    (paidTo fl a s id c es : ℚ) ≤ earned fl a s id c es := by
  obtain ⟨h, _⟩ := run_account es hr.inv a hf hf'
  have h0 := pend_zero hf hstart
  have h1 := pend_nonneg (hr.inv.run (es := es)) a hf'
  rw [h0] at h
  linarith

/-- **C104.** If `a` has been paid up at the end as well, the farm has paid the exact share less at most
one unit for each of `a`'s calls and stakes and less rounding of the rate, a power `p` losing at most
`p / 10^27` units in a call. -/
theorem C104_hardly_less (hr : c.Reachable fl) {a : AccountId} {s : SeedId} {id : FarmId}
    {f f' : SeedFarm} (hf : c.farmOf s id = some f)
    (hstart : c.CaughtUp a s id ∨ (c.stakeOf a s).pow fl = 0) (es : List Event)
    (hf' : (c.run fl es).farmOf s id = some f')
    (hend : (c.run fl es).CaughtUp a s id ∨ ((c.run fl es).stakeOf a s).pow fl = 0) :
    earned fl a s id c es ≤ (paidTo fl a s id c es : ℚ) +
      (es.countP fun e => e.k.actor e.x = some a : Nat) + (powerOver fl a s c es : ℚ) / D27 := by
  obtain ⟨_, h⟩ := run_account es hr.inv a hf hf'
  rw [pend_zero hf hstart, pend_zero hf' hend] at h
  linarith

/-- **C104.** A claim leaves the caller paid up in every farm of the seed. -/
theorem C104_claim_pays_up (hr : c.Reachable fl) {x : Ctx} {s : SeedId} {o : List Out}
    (he : c.exec fl x (.claimReward s) = .ok (c', o)) {id : FarmId} {f' : SeedFarm}
    (hf' : c'.farmOf s id = some f') : c'.CaughtUp x.pred s id := by
  refine ⟨f', hf', ?_⟩
  have hI' := (exec_effect hr.inv he).inv
  simp only [exec] at he
  unpack at he
  obtain ⟨c1, he, rfl, _⟩ := he
  obtain ⟨u, sd, u', sd', hu, hsd, _, hid, cl, rfl, hi⟩ := claimReward_ok hr.inv he
  have hs' : ((c.setFarmer x.pred u').setSeed s sd').seeds.get? s = some sd' := FMap.get?_insert_self _ _ _
  rw [farmOf_of hs'] at hf'
  obtain ⟨w, hw, _, _, hsync, _⟩ := cl.stake
  have hst : ((c.setFarmer x.pred u').setSeed s sd').stakeOf x.pred s = w := by
    unfold stakeOf
    show (match (c.farmers.insert x.pred u').get? x.pred with
      | some u => u.stakeIn s | none => FarmerSeed.zero) = _
    rw [FMap.get?_insert_self]
    rw [hid] at hw
    exact Farmer.stakeIn_some hw
  rw [hst]
  cases hg : sd.farms.get? id with
  | none => rw [cl.gone id hg] at hf'; cases hf'
  | some g =>
    have h1 := (cl.farm id g hg).2
    rw [hf'] at h1
    cases h1
    unfold FMap.getD
    rw [hsync id g hg]
    by_cases ht : g.total > 0
    · rw [if_pos ht]; rfl
    · rw [if_neg ht]
      exact (hr.inv.loaded_zero hsd id g hg (by omega)).symm

/-- A call with an actor touches no other farmer. -/
theorem exec_farmers (h : Inv fl c) {x : Ctx} {k : Call} {o : List Out}
    (he : c.exec fl x k = .ok (c', o)) {a : AccountId} (ha : k.actor x = some a) :
    ∃ u u', c.farmers.get? a = some u ∧ c'.farmers = c.farmers.insert a u' := by
  have rs : ∀ {b s v w c1}, Restake fl c b s v w c1 →
      ∃ u u', c.farmers.get? b = some u ∧ c1.farmers = c.farmers.insert b u' := by
    intro b s v w c1 rs
    obtain ⟨u, u', hu, hf, _⟩ := rs.farmer
    exact ⟨u, u', hu, hf⟩
  cases k with
  | ftOnTransfer b n m =>
    simp only [exec] at he
    unpack at he
    obtain ⟨_, c1, he, rfl, _⟩ := he
    unfold ftOnTransfer assertRunning at he
    unpack at he
    obtain ⟨_, he⟩ := he
    cases m with
    | free =>
      cases ha
      obtain ⟨v, h1, _⟩ := stakeFree_ok h he
      exact rs h1
    | lock d =>
      cases ha
      obtain ⟨v, w, h1, _⟩ := stakeLock_ok h he
      exact rs h1
    | reward id => cases ha
    | bad => cases he
  | mftOnTransfer tid b n m =>
    simp only [exec] at he
    unpack at he
    obtain ⟨_, c1, he, rfl, _⟩ := he
    unfold mftOnTransfer assertRunning at he
    unpack at he
    obtain ⟨_, he⟩ := he
    split at he
    · cases m with
      | free =>
        cases ha
        obtain ⟨v, h1, _⟩ := stakeFree_ok h he
        exact rs h1
      | lock d =>
        cases ha
        obtain ⟨v, w, h1, _⟩ := stakeLock_ok h he
        exact rs h1
      | reward id => cases he
      | bad => cases he
    · cases he
  | lockFreeSeed s d n =>
    simp only [exec] at he
    unpack at he
    obtain ⟨c1, he, rfl, _⟩ := he
    cases ha
    obtain ⟨v, w, n, _, _, h1, _⟩ := lockFree_ok h he
    exact rs h1
  | forceUnlock s n =>
    simp only [exec] at he
    unpack at he
    obtain ⟨c1, he, rfl, _⟩ := he
    cases ha
    obtain ⟨v, w, sd, sl, h1, _⟩ := forceUnlock_ok h he
    exact rs h1
  | claimReward s =>
    simp only [exec] at he
    unpack at he
    obtain ⟨c1, he, rfl, _⟩ := he
    cases ha
    obtain ⟨u, sd, u', sd', hu, _, _, _, _, rfl, _⟩ := claimReward_ok h he
    exact ⟨u, u', hu, rfl⟩
  | createSeed s d m l => cases ha
  | createFarm s t b d => cases ha
  | cancelFarm id => cases ha
  | removeFarm id => cases ha
  | setting k => cases ha
  | setOwner b => cases ha
  | setRunning b => cases ha
  | extendOperators l => cases ha
  | removeOperators l => cases ha
  | storageDeposit b => cases ha
  | storageUnregister => cases ha

/-- **C104.** What the farms pay in a call is credited to its actor: in every token, the actor's reward
grows by what all farms together have paid. -/
theorem C104_credited (hr : c.Reachable fl) {x : Ctx} {k : Call} {o : List Out}
    (he : c.exec fl x k = .ok (c', o)) {a : AccountId} (ha : k.actor x = some a) (t : AccountId) :
    c'.rewardOf a t + c.claimedOf t = c.rewardOf a t + c'.claimedOf t := by
  have eff := exec_effect hr.inv he
  rw [← hr.inv.rewards t, ← eff.inv.rewards t]
  obtain ⟨u, u', hu, hf⟩ := exec_farmers hr.inv he ha
  have h1 := c.farmers.sum_insert (fun _ u => u.rewards.getD t 0) a u'
  rw [FMap.term_some _ hu] at h1
  unfold rewardOf credited
  rw [hf, FMap.get?_insert_self, hu]
  simp only
  omega

open Demo in
/-- `al` has claimed in `c2`. Then `al` stakes in the booster, `bo` unlocks half before the time, and
`al` claims at the end: of the exact share of 204.34 units the farm has paid 204. -/
example :
    let es : List Event := [⟨at' 1004 L, .ftOnTransfer al 4 .free⟩, ⟨y 1005 bo, .forceUnlock S 500⟩,
      ⟨at' 1006 al, .claimReward S⟩]
    (c2.farmOf S F).map (·.rps) = some ((c2.stakeOf al S).userRps.getD F 0) ∧
    ((c2.run Demo.fl es).farmOf S F).map (·.rps) =
      some (((c2.run Demo.fl es).stakeOf al S).userRps.getD F 0) ∧
    (c2.stakeOf al S).pow Demo.fl = 3000 ∧ c2.powerOf S = 5000 ∧
    ((c2.run Demo.fl es).stakeOf al S).pow Demo.fl = 4500 ∧ (c2.run Demo.fl es).powerOf S = 5991 ∧
    earned Demo.fl al S F c2 es = 5304960 / 25961 ∧ paidTo Demo.fl al S F c2 es = 204 ∧
    (c2.run Demo.fl es).rewardOf al T = c2.rewardOf al T + 204 := by
  decide +kernel

end Contract
end Verif.Boost

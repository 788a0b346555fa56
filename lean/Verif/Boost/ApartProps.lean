import Verif.Boost.SponsorProps
import Verif.Alike

/-
C109: farmers of the boost farming contract who use different seeds do not influence each other.
-/

namespace Verif.Boost

/-- The call of a user that concerns only accounts with `P` and seeds with `Q` equal to `b`: it stakes,
locks, unlocks or claims for such an account in such a seed, adds reward to a farm of such a seed, or
registers or unregisters such an account. Messages that are always refused concern nobody. -/
def Event.within (P : AccountId → Bool) (Q : SeedId → Bool) (b : Bool) (e : Event) : Bool :=
  match e.k with
  | .ftOnTransfer a _ .free => P a == b && Q e.x.pred == b
  | .ftOnTransfer a _ (.lock _) => P a == b && Q e.x.pred == b
  | .ftOnTransfer _ _ (.reward id) =>
    match parseFarmId id with
    | .ok s => Q s == b
    | .error _ => true
  | .ftOnTransfer _ _ .bad => true
  | .mftOnTransfer (':' :: sub) a _ _ => P a == b && Q (e.x.pred ++ '@' :: sub) == b
  | .mftOnTransfer _ _ _ _ => true
  | .lockFreeSeed s _ _ => P e.x.pred == b && Q s == b
  | .forceUnlock s _ => P e.x.pred == b && Q s == b
  | .claimReward s => P e.x.pred == b && Q s == b
  | .storageDeposit o => P (o.getD e.x.pred) == b
  | .storageUnregister => P e.x.pred == b
  | _ => false

namespace Contract

open Demo

variable {fl : Floats} {c d c' : Contract} {P : AccountId → Bool} {Q : SeedId → Bool}

/-- The farmers with `P` and the seeds with `Q` are the same in two states, and so are the settings. -/
structure Agree (P : AccountId → Bool) (Q : SeedId → Bool) (c d : Contract) : Prop where
  running : c.running = d.running
  cfg : c.cfg = d.cfg
  farmers : ∀ a, P a = true → c.farmers.get? a = d.farmers.get? a
  seeds : ∀ s, Q s = true → c.seeds.get? s = d.seeds.get? s
  slashed : ∀ s, Q s = true → c.slashed.get? s = d.slashed.get? s

/-- Farmers with `P` have stakes only in seeds with `Q`, and the others only in the others. -/
def Apart (P : AccountId → Bool) (Q : SeedId → Bool) (c : Contract) : Prop :=
  ∀ a u s, c.farmers.get? a = some u → u.seeds.contains s = true → P a = Q s

theorem Agree.refl (c : Contract) : Agree P Q c c := ⟨rfl, rfl, fun _ _ => rfl, fun _ _ => rfl, fun _ _ => rfl⟩

theorem Agree.trans {e : Contract} (h : Agree P Q c d) (g : Agree P Q d e) : Agree P Q c e :=
  ⟨h.running.trans g.running, h.cfg.trans g.cfg, fun a ha => (h.farmers a ha).trans (g.farmers a ha),
    fun s hs => (h.seeds s hs).trans (g.seeds s hs), fun s hs => (h.slashed s hs).trans (g.slashed s hs)⟩

theorem Agree.setSeed (h : Agree P Q c d) (s : SeedId) (sd : Seed) :
    Agree P Q (c.setSeed s sd) (d.setSeed s sd) :=
  ⟨h.running, h.cfg, h.farmers, fun r hr => by
    show (c.seeds.insert s sd).get? r = (d.seeds.insert s sd).get? r
    rw [FMap.get?_insert, FMap.get?_insert, h.seeds r hr], h.slashed⟩

theorem Agree.setFarmer (h : Agree P Q c d) (a : AccountId) (u : Farmer) :
    Agree P Q (c.setFarmer a u) (d.setFarmer a u) :=
  ⟨h.running, h.cfg, fun b hb => by
    show (c.farmers.insert a u).get? b = (d.farmers.insert a u).get? b
    rw [FMap.get?_insert, FMap.get?_insert, h.farmers b hb], h.seeds, h.slashed⟩

theorem Agree.farmer (h : Agree P Q c d) {a : AccountId} (ha : P a = true) : c.farmer a = d.farmer a := by
  unfold Contract.farmer
  rw [h.farmers a ha]

theorem Agree.seed (h : Agree P Q c d) {s : SeedId} (hs : Q s = true) (now : Nat) :
    c.seed now s = d.seed now s := by
  unfold Contract.seed
  rw [h.seeds s hs]

/-! ### What a call of a farmer leaves alone -/

/-- Seeds carry their own id. -/
def Ids (c : Contract) : Prop := ∀ s sd, c.seeds.get? s = some sd → sd.id = s

theorem Ids.seed (h : Ids c) {now : Nat} {s : SeedId} {sd : Seed} (hs : c.seed now s = .ok sd) :
    sd.id = s := by
  obtain ⟨old, ho, up⟩ := seed_ok hs
  rw [up.quiet.id]
  exact h s old ho

theorem Ids.setSeed (h : Ids c) {s : SeedId} {sd : Seed} (hs : sd.id = s) : Ids (c.setSeed s sd) := by
  intro r sr hr
  replace hr : (c.seeds.insert s sd).get? r = some sr := hr
  rw [FMap.get?_insert] at hr
  split at hr
  · cases hr
    subst_vars
    rfl
  · exact h r sr hr

theorem claims_keys {u u' : Farmer} {sd sd' : Seed} (cl : Claims fl u sd u' sd') {r : SeedId}
    (h : u'.seeds.contains r = true) : r = sd.id ∨ u.seeds.contains r = true := by
  by_cases hr : r = sd.id
  · exact .inl hr
  · right
    unfold FMap.contains at h ⊢
    rw [← cl.others r hr]
    exact h

theorem loop_frame {now : Nat} : ∀ (l : List (SeedId × Nat)) {c c' : Contract} {u u' : Farmer}, Ids c →
    impactedLoop fl now l c u = .ok (c', u') →
    c' = { c with seeds := c'.seeds } ∧ Ids c' ∧
    (∀ r, u'.seeds.contains r = true → u.seeds.contains r = true) ∧
    ∀ r, u.seeds.contains r = false → c'.seeds.get? r = c.seeds.get? r
  | [], c, c', u, u', hi, h => by
    cases h
    exact ⟨rfl, hi, fun _ h => h, fun _ _ => rfl⟩
  | (s, n) :: l, c, c', u, u', hi, h => by
    unfold impactedLoop at h
    split at h
    · rename_i hk
      unpack at h
      obtain ⟨sd, hsd, u1, sd1, hc, h⟩ := h
      have cl := doClaim_ok hc
      have hid := hi.seed hsd
      obtain ⟨h1, h2, h3, h4⟩ := loop_frame l (hi.setSeed (cl.quiet.id.trans hid)) h
      have hkeys : ∀ r, u1.seeds.contains r = true → u.seeds.contains r = true := by
        intro r hr
        rcases claims_keys cl hr with rfl | hr
        · rw [hid]; exact hk
        · exact hr
      refine ⟨h1, h2, fun r hr => hkeys r (h3 r hr), fun r hr => ?_⟩
      have hn : u1.seeds.contains r = false := by
        cases hb : u1.seeds.contains r with
        | false => rfl
        | true => rw [hkeys r hb] at hr; cases hr
      rw [h4 r hn]
      refine FMap.get?_insert_ne _ _ ?_
      rintro rfl
      rw [hk] at hr
      cases hr
    · exact loop_frame l hi h

/-- A call for farmer `a` and seed `s` changes only the farmer, the seed, and seeds in which the farmer
has a stake. -/
structure Acts (c : Contract) (a : AccountId) (s : SeedId) (c' : Contract) : Prop where
  eq : c' = { c with seeds := c'.seeds, farmers := c'.farmers, slashed := c'.slashed }
  farmer : ∃ u u', c.farmers.get? a = some u ∧ c'.farmers = c.farmers.insert a u' ∧
    (∀ r, u'.seeds.contains r = true → r = s ∨ u.seeds.contains r = true) ∧
    ∀ r, r ≠ s → u.seeds.contains r = false → c'.seeds.get? r = c.seeds.get? r
  slashed : ∀ r, r ≠ s → c'.slashed.get? r = c.slashed.get? r

theorem acts {now : Nat} {a : AccountId} {s : SeedId} {c2 : Contract} {u u1 u2 : Farmer}
    {sd sd1 sd2 : Seed} {w : FarmerSeed} {sl : FMap SeedId Nat} (hi : Ids c)
    (hu : c.farmer a = .ok u) (hsd : c.seed now s = .ok sd) (hc : doClaim fl c.cfg u sd = .ok (u1, sd1))
    (him : updateImpacted fl { c with slashed := sl } now { u1 with seeds := u1.seeds.insert s w } s =
      .ok (c2, u2)) (hsl : ∀ r, r ≠ s → sl.get? r = c.slashed.get? r) :
    Acts c a s ((c2.setFarmer a u2).setSeed s sd2) := by
  have cl := doClaim_ok hc
  have hid := hi.seed hsd
  have hk : ∀ r, ({ u1 with seeds := u1.seeds.insert s w } : Farmer).seeds.contains r = true →
      r = s ∨ u.seeds.contains r = true := by
    intro r hr
    by_cases hrs : r = s
    · exact .inl hrs
    · replace hr : (u1.seeds.insert s w).contains r = true := hr
      unfold FMap.contains at hr
      rw [FMap.get?_insert_ne _ _ hrs] at hr
      rcases claims_keys cl hr with h1 | h1
      · exact .inl (h1.trans hid)
      · exact .inr h1
  have key : c2 = { ({ c with slashed := sl } : Contract) with seeds := c2.seeds } ∧
      (∀ r, u2.seeds.contains r = true → r = s ∨ u.seeds.contains r = true) ∧
      ∀ r, r ≠ s → u.seeds.contains r = false → c2.seeds.get? r = c.seeds.get? r := by
    unfold updateImpacted at him
    split at him
    · obtain ⟨h1, _, h3, h4⟩ := loop_frame _ (c := { c with slashed := sl }) hi him
      refine ⟨h1, fun r hr => hk r (h3 r hr), fun r hr hn => h4 r ?_⟩
      cases hb : ({ u1 with seeds := u1.seeds.insert s w } : Farmer).seeds.contains r with
      | false => rfl
      | true =>
        rcases hk r hb with h1 | h1
        · exact absurd h1 hr
        · rw [h1] at hn; cases hn
    · cases him
      exact ⟨rfl, hk, fun _ _ _ => rfl⟩
  obtain ⟨h1, h2, h3⟩ := key
  have hf : c2.farmers = c.farmers := by rw [h1]
  have hs : c2.slashed = sl := by rw [h1]
  refine ⟨?_, ⟨u, u2, expectE_ok.1 hu, ?_, h2, fun r hr hn => ?_⟩, fun r hr => ?_⟩
  · rw [h1]; rfl
  · show c2.farmers.insert a u2 = _
    rw [hf]
  · show (c2.seeds.insert s sd2).get? r = _
    rw [FMap.get?_insert_ne _ _ hr]
    exact h3 r hr hn
  · show c2.slashed.get? r = _
    rw [hs]
    exact hsl r hr

theorem stakeFree_acts {now : Nat} {a : AccountId} {s : SeedId} {n : Nat} (hi : Ids c)
    (h : c.stakeFree fl now a s n = .ok c') : Acts c a s c' := by
  unfold stakeFree at h
  unpack at h
  obtain ⟨u, hu, sd, hsd, _, u1, sd1, hc, v, _, w, _, _, _, _, c2, u2, him, rfl⟩ := h
  exact acts hi hu hsd hc him fun _ _ => rfl

theorem stakeLock_acts {now : Nat} {a : AccountId} {s : SeedId} {n t : Nat} (hi : Ids c)
    (h : c.stakeLock fl now a s n t = .ok c') : Acts c a s c' := by
  unfold stakeLock at h
  unpack at h
  obtain ⟨u, hu, sd, hsd, _, _, _, _, u1, sd1, hc, v, _, w, _, _, _, _, c2, u2, him, rfl⟩ := h
  exact acts hi hu hsd hc him fun _ _ => rfl

theorem lockFree_acts {x : Ctx} {s : SeedId} {t : Nat} {n : Option Nat} (hi : Ids c)
    (h : c.lockFree fl x s t n = .ok c') : Acts c x.pred s c' := by
  unfold lockFree oneYocto assertRunning at h
  unpack at h
  obtain ⟨_, _, u, hu, sd, hsd, _, _, _, u1, sd1, hc, v, _, w, _, _, _, c2, u2, him, rfl⟩ := h
  exact acts hi hu hsd hc him fun _ _ => rfl

theorem forceUnlock_acts {x : Ctx} {s : SeedId} {n : Nat} (hi : Ids c)
    (h : c.forceUnlock fl x s n = .ok c') : Acts c x.pred s c' := by
  unfold forceUnlock oneYocto assertRunning at h
  unpack at h
  obtain ⟨_, _, u, hu, sd, hsd, u1, sd1, hc, v, _, w, _, _, _, _, _, _, c2, u2, him, rfl⟩ := h
  exact acts hi hu hsd hc him fun r hr => FMap.get?_insert_ne _ _ hr

theorem claimReward_acts {x : Ctx} {s : SeedId} (hi : Ids c)
    (h : c.claimReward fl x s = .ok c') : Acts c x.pred s c' := by
  unfold claimReward assertRunning at h
  unpack at h
  obtain ⟨_, _, u, hu, sd, hsd, u1, sd1, hc, rfl⟩ := h
  have cl := doClaim_ok hc
  have hid := hi.seed hsd
  refine ⟨rfl, ⟨u, u1, expectE_ok.1 hu, rfl, fun r hr => ?_, fun r hr _ => FMap.get?_insert_ne _ _ hr⟩,
    fun _ _ => rfl⟩
  rcases claims_keys cl hr with h1 | h1
  · exact .inl (h1.trans hid)
  · exact .inr h1

theorem Acts.apart {a : AccountId} {s : SeedId} (h : Acts c a s c') (hp : P a = Q s) (ha : Apart P Q c) :
    Apart P Q c' := by
  obtain ⟨u, u', hu, hf, hk, _⟩ := h.farmer
  intro b v r hb hv
  rw [hf, FMap.get?_insert] at hb
  split at hb
  · cases hb
    subst_vars
    rcases hk r hv with rfl | h1
    · exact hp
    · exact ha _ u r hu h1
  · exact ha b v r hb hv

theorem Acts.agree {a : AccountId} {s : SeedId} (h : Acts c a s c') (hp : P a = false) (hq : Q s = false)
    (ha : Apart P Q c) : Agree P Q c' c := by
  obtain ⟨u, u', hu, hf, _, hk⟩ := h.farmer
  have e := h.eq
  refine ⟨by rw [e], by rw [e], fun b hb => ?_, fun r hr => ?_, fun r hr => h.slashed r ?_⟩
  · rw [hf, FMap.get?_insert_ne]
    rintro rfl
    rw [hp] at hb
    cases hb
  · have hrs : r ≠ s := by
      rintro rfl
      rw [hq] at hr
      cases hr
    refine hk r hrs ?_
    cases hb : u.seeds.contains r with
    | false => rfl
    | true =>
      have := ha a u r hu hb
      rw [hp, hr] at this
      cases this
  · rintro rfl
    rw [hq] at hr
    cases hr

/-! ### What a call depends on -/

theorem loop_same {now : Nat} : ∀ (l : List (SeedId × Nat)) {c d : Contract} {u : Farmer}, Ids c →
    Agree P Q c d → (∀ r, u.seeds.contains r = true → Q r = true) →
    Alike (fun p q => Agree P Q p.1 q.1 ∧ p.2 = q.2) (impactedLoop fl now l c u)
      (impactedLoop fl now l d u)
  | [], c, d, u, _, h, _ => ⟨h, rfl⟩
  | (s, n) :: l, c, d, u, hi, h, hu => by
    unfold impactedLoop
    split
    · rename_i hk
      rw [← h.seed (hu s hk), ← h.cfg]
      refine Alike.bind fun sd hsd => Alike.bind ?_
      rintro ⟨u1, sd1⟩ hc
      have cl := doClaim_ok hc
      have hid := hi.seed hsd
      refine loop_same l (hi.setSeed (cl.quiet.id.trans hid)) (h.setSeed s sd1) fun r hr => ?_
      rcases claims_keys cl hr with rfl | hr
      · rw [hid]; exact hu s hk
      · exact hu r hr
    · exact loop_same l hi h hu

theorem impacted_same {now : Nat} {s : SeedId} {u : Farmer} (hi : Ids c) (h : Agree P Q c d)
    (hu : ∀ r, u.seeds.contains r = true → Q r = true) :
    Alike (fun p q => Agree P Q p.1 q.1 ∧ p.2 = q.2) (updateImpacted fl c now u s)
      (updateImpacted fl d now u s) := by
  unfold updateImpacted
  rw [← h.cfg]
  split
  · exact loop_same _ hi h hu
  · exact ⟨h, rfl⟩

/-- The stakes of a farmer after the claim and the change of the stake. -/
theorem keys_in {a : AccountId} {s : SeedId} {now : Nat} {u u1 : Farmer} {sd sd1 : Seed} {w : FarmerSeed}
    (hi : Ids c) (ha : Apart P Q c) (hp : P a = true) (hq : Q s = true) (hu : c.farmer a = .ok u)
    (hsd : c.seed now s = .ok sd) (hc : doClaim fl c.cfg u sd = .ok (u1, sd1)) :
    ∀ r, ({ u1 with seeds := u1.seeds.insert s w } : Farmer).seeds.contains r = true → Q r = true := by
  intro r hr
  by_cases hrs : r = s
  · rw [hrs]; exact hq
  · replace hr : (u1.seeds.insert s w).contains r = true := hr
    unfold FMap.contains at hr
    rw [FMap.get?_insert_ne _ _ hrs] at hr
    rcases claims_keys (doClaim_ok hc) hr with h1 | h1
    · exact absurd (h1.trans (hi.seed hsd)) hrs
    · exact (ha a u r (expectE_ok.1 hu) h1).symm.trans hp

theorem stakeFree_same {now : Nat} {a : AccountId} {s : SeedId} {n : Nat} (hi : Ids c)
    (h : Agree P Q c d) (ha : Apart P Q c) (hp : P a = true) (hq : Q s = true) :
    Alike (Agree P Q) (c.stakeFree fl now a s n) (d.stakeFree fl now a s n) := by
  unfold stakeFree
  rw [← h.farmer hp, ← h.seed hq, ← h.cfg]
  refine Alike.bind fun u hu => Alike.bind fun sd hsd => Alike.bind fun _ _ => Alike.bind ?_
  rintro ⟨u1, sd1⟩ hc
  refine Alike.bind fun v _ => Alike.bind ?_
  rintro ⟨w, p⟩ _
  refine Alike.bind fun _ _ => Alike.bind fun _ _ =>
    Alike.bind2 (impacted_same hi h (keys_in hi ha hp hq hu hsd hc)) ?_
  rintro ⟨c1, u2⟩ ⟨d1, _⟩ ⟨h1, rfl⟩
  exact (h1.setFarmer _ _).setSeed _ _

theorem stakeLock_same {now : Nat} {a : AccountId} {s : SeedId} {n t : Nat} (hi : Ids c)
    (h : Agree P Q c d) (ha : Apart P Q c) (hp : P a = true) (hq : Q s = true) :
    Alike (Agree P Q) (c.stakeLock fl now a s n t) (d.stakeLock fl now a s n t) := by
  unfold stakeLock
  rw [← h.farmer hp, ← h.seed hq, ← h.cfg]
  refine Alike.bind fun u hu => Alike.bind fun sd hsd => Alike.bind fun _ _ => Alike.bind fun _ _ =>
    Alike.bind fun _ _ => Alike.bind fun _ _ => Alike.bind ?_
  rintro ⟨u1, sd1⟩ hc
  refine Alike.bind fun v _ => Alike.bind ?_
  rintro ⟨w, p⟩ _
  refine Alike.bind fun _ _ => Alike.bind fun _ _ =>
    Alike.bind2 (impacted_same hi h (keys_in hi ha hp hq hu hsd hc)) ?_
  rintro ⟨c1, u2⟩ ⟨d1, _⟩ ⟨h1, rfl⟩
  exact (h1.setFarmer _ _).setSeed _ _

theorem lockFree_same {x : Ctx} {s : SeedId} {t : Nat} {n : Option Nat} (hi : Ids c)
    (h : Agree P Q c d) (ha : Apart P Q c) (hp : P x.pred = true) (hq : Q s = true) :
    Alike (Agree P Q) (c.lockFree fl x s t n) (d.lockFree fl x s t n) := by
  unfold lockFree assertRunning
  rw [← h.farmer hp, ← h.seed hq, ← h.cfg, ← h.running]
  refine Alike.bind fun _ _ => Alike.bind fun _ _ => Alike.bind fun u hu => Alike.bind fun sd hsd =>
    Alike.bind fun _ _ => Alike.bind fun _ _ => Alike.bind fun _ _ => Alike.bind ?_
  rintro ⟨u1, sd1⟩ hc
  refine Alike.bind fun v _ => Alike.bind ?_
  rintro ⟨w, p⟩ _
  refine Alike.bind fun _ _ =>
    Alike.bind2 (impacted_same hi h (keys_in hi ha hp hq hu hsd hc)) ?_
  rintro ⟨c1, u2⟩ ⟨d1, _⟩ ⟨h1, rfl⟩
  exact (h1.setFarmer _ _).setSeed _ _

theorem forceUnlock_same {x : Ctx} {s : SeedId} {n : Nat} (hi : Ids c)
    (h : Agree P Q c d) (ha : Apart P Q c) (hp : P x.pred = true) (hq : Q s = true) :
    Alike (Agree P Q) (c.forceUnlock fl x s n) (d.forceUnlock fl x s n) := by
  have hsl : d.slashed.getD s 0 = c.slashed.getD s 0 := by
    unfold FMap.getD
    rw [h.slashed s hq]
  unfold forceUnlock assertRunning
  rw [← h.farmer hp, ← h.seed hq, ← h.cfg, ← h.running, hsl]
  refine Alike.bind fun _ _ => Alike.bind fun _ _ => Alike.bind fun u hu => Alike.bind fun sd hsd =>
    Alike.bind ?_
  rintro ⟨u1, sd1⟩ hc
  refine Alike.bind fun v _ => Alike.bind ?_
  rintro ⟨w, p, slash⟩ _
  refine Alike.bind fun _ _ => Alike.bind fun _ _ => Alike.bind fun t _ => ?_
  have h2 : Agree P Q { c with slashed := c.slashed.insert s t }
      { d with running := c.running, cfg := c.cfg, slashed := d.slashed.insert s t } :=
    ⟨rfl, rfl, h.farmers, h.seeds, fun r hr => by
      show (c.slashed.insert s t).get? r = (d.slashed.insert s t).get? r
      rw [FMap.get?_insert, FMap.get?_insert, h.slashed r hr]⟩
  refine Alike.bind2 (impacted_same (c := { c with slashed := c.slashed.insert s t }) hi h2
    (keys_in hi ha hp hq hu hsd hc)) ?_
  rintro ⟨c1, u2⟩ ⟨d1, _⟩ ⟨h1, rfl⟩
  exact (h1.setFarmer _ _).setSeed _ _

theorem claimReward_same {x : Ctx} {s : SeedId} (h : Agree P Q c d) (hp : P x.pred = true)
    (hq : Q s = true) : Alike (Agree P Q) (c.claimReward fl x s) (d.claimReward fl x s) := by
  unfold claimReward assertRunning
  rw [← h.farmer hp, ← h.seed hq, ← h.cfg, ← h.running]
  refine Alike.bind fun _ _ => Alike.bind fun _ _ => Alike.bind fun u hu => Alike.bind fun sd hsd =>
    Alike.bind ?_
  rintro ⟨u1, sd1⟩ _
  exact (h.setSeed _ _).setFarmer _ _

theorem depositReward_same {now : Nat} {id : FarmId} {t : AccountId} {n : Nat} (h : Agree P Q c d)
    (hq : ∀ s, parseFarmId id = .ok s → Q s = true) :
    Alike (Agree P Q) (c.depositReward now id t n) (d.depositReward now id t n) := by
  unfold depositReward
  refine Alike.bind fun s hs => ?_
  rw [← h.seed (hq s hs)]
  exact Alike.bind fun sd _ => Alike.bind fun f _ => Alike.bind fun f' _ => h.setSeed _ _

/-! ### Calls and histories -/

/-- The three kinds of changes by users. -/
theorem exec_kinds {b : Bool} {e : Event} {o : List Out} (hi : Ids c) (hw : e.within P Q b = true)
    (he : c.exec fl e.x e.k = .ok (c', o)) :
    (∃ a s, P a = b ∧ Q s = b ∧ Acts c a s c') ∨ (∃ s sd, Q s = b ∧ c' = c.setSeed s sd) ∨
    ∃ a, P a = b ∧ c' = { c with farmers := c'.farmers, farmerCount := c'.farmerCount } ∧
      (∀ x, x ≠ a → c'.farmers.get? x = c.farmers.get? x) ∧
      (∀ u, c'.farmers.get? a = some u → c.farmers.get? a = some u ∨ u.seeds = FMap.empty) ∧
      c'.farmerCount ≤ c.farmerCount + 1 := by
  obtain ⟨x, k⟩ := e
  unfold Event.within at hw
  have two : ∀ {p q : Bool}, (p == b && q == b) = true → p = b ∧ q = b := by
    intro p q h
    rw [Bool.and_eq_true, beq_iff_eq, beq_iff_eq] at h
    exact h
  cases k with
  | ftOnTransfer a n m =>
    simp only [exec] at he
    unpack at he
    obtain ⟨_, c1, he, rfl, _⟩ := he
    unfold ftOnTransfer assertRunning at he
    unpack at he
    obtain ⟨_, he⟩ := he
    cases m with
    | free => exact .inl ⟨a, x.pred, (two hw).1, (two hw).2, stakeFree_acts hi he⟩
    | lock t => exact .inl ⟨a, x.pred, (two hw).1, (two hw).2, stakeLock_acts hi he⟩
    | reward id =>
      right; left
      simp only [depositReward] at he
      unpack at he
      obtain ⟨s, hs, sd, _, f, _, f', _, rfl⟩ := he
      simp only [hs, beq_iff_eq] at hw
      exact ⟨s, _, hw, rfl⟩
    | bad => cases he
  | mftOnTransfer t a n m =>
    simp only [exec] at he
    unpack at he
    obtain ⟨_, c1, he, rfl, _⟩ := he
    unfold mftOnTransfer assertRunning at he
    unpack at he
    obtain ⟨_, he⟩ := he
    split at he
    · rename_i sub
      cases m with
      | free => exact .inl ⟨a, _, (two hw).1, (two hw).2, stakeFree_acts hi he⟩
      | lock t => exact .inl ⟨a, _, (two hw).1, (two hw).2, stakeLock_acts hi he⟩
      | reward id => cases he
      | bad => cases he
    · cases he
  | lockFreeSeed s t n =>
    simp only [exec] at he
    unpack at he
    obtain ⟨c1, he, rfl, _⟩ := he
    exact .inl ⟨x.pred, s, (two hw).1, (two hw).2, lockFree_acts hi he⟩
  | forceUnlock s n =>
    simp only [exec] at he
    unpack at he
    obtain ⟨c1, he, rfl, _⟩ := he
    exact .inl ⟨x.pred, s, (two hw).1, (two hw).2, forceUnlock_acts hi he⟩
  | claimReward s =>
    simp only [exec] at he
    unpack at he
    obtain ⟨c1, he, rfl, _⟩ := he
    exact .inl ⟨x.pred, s, (two hw).1, (two hw).2, claimReward_acts hi he⟩
  | storageDeposit a =>
    right; right
    simp only [beq_iff_eq] at hw
    refine ⟨a.getD x.pred, hw, ?_⟩
    replace he : c.storageDeposit x a = .ok (c', o) := he
    unfold storageDeposit assertRunning at he
    unpack at he
    obtain ⟨_, he⟩ := he
    split at he
    · unpack at he
      obtain ⟨rfl, _⟩ := he
      exact ⟨rfl, fun _ _ => rfl, fun _ h => .inl h, Nat.le_succ _⟩
    · unpack at he
      obtain ⟨_, _, rfl, _⟩ := he
      refine ⟨rfl, fun z hz => FMap.get?_insert_ne _ _ hz, fun u hu => .inr ?_, Nat.le_refl _⟩
      replace hu : (c.farmers.insert (a.getD x.pred) ⟨x.pred, FMap.empty, FMap.empty⟩).get?
        (a.getD x.pred) = some u := hu
      rw [FMap.get?_insert_self] at hu
      cases hu
      rfl
  | storageUnregister =>
    right; right
    simp only [beq_iff_eq] at hw
    refine ⟨x.pred, hw, ?_⟩
    replace he : c.storageUnregister x = .ok (c', o) := he
    unfold storageUnregister oneYocto assertRunning at he
    unpack at he
    obtain ⟨_, _, he⟩ := he
    cases hu : c.farmers.get? x.pred with
    | none =>
      rw [hu] at he
      unpack at he
      obtain ⟨rfl, _⟩ := he
      exact ⟨rfl, fun _ _ => rfl, fun _ h => .inl (hu.symm.trans h), Nat.le_succ _⟩
    | some u =>
      rw [hu] at he
      simp only at he
      unpack at he
      obtain ⟨_, _, _, rfl, rfl⟩ := he
      refine ⟨rfl, fun z hz => FMap.get?_erase_ne _ hz, fun u hu => ?_, ?_⟩
      · replace hu : (c.farmers.erase x.pred).get? x.pred = some u := hu
        rw [FMap.get?_erase_self] at hu
        cases hu
      · show c.farmerCount - 1 ≤ _
        omega
  | _ => cases hw

theorem step_apart {b : Bool} {e : Event} (hi : Ids c) (hw : e.within P Q b = true) (ha : Apart P Q c) :
    Apart P Q (c.step fl e) ∧ (c.step fl e).farmerCount ≤ c.farmerCount + 1 := by
  unfold step
  split
  · rename_i c' o he
    rcases exec_kinds hi hw he with ⟨a, s, hp, hq, h⟩ | ⟨s, sd, hq, rfl⟩ | ⟨a, hp, h1, h2, h3, h4⟩
    · exact ⟨h.apart (hp.trans hq.symm) ha, by rw [h.eq]; exact Nat.le_succ _⟩
    · exact ⟨ha, Nat.le_succ _⟩
    · refine ⟨fun z u s hz hu => ?_, h4⟩
      by_cases hza : z = a
      · subst hza
        rcases h3 u hz with h | h
        · exact ha z u s h hu
        · rw [h] at hu
          cases hu
      · rw [h2 z hza] at hz
        exact ha z u s hz hu
  · exact ⟨ha, Nat.le_succ _⟩

/-- **C109.** A call that concerns only accounts and seeds of the other side changes nothing on this
side: no stake, no power, no reward, no farm. -/
theorem C109_unaffected (hr : c.Reachable fl) (ha : Apart P Q c) {e : Event}
    (hw : e.within P Q false = true) : Agree P Q (c.step fl e) c := by
  unfold step
  split
  · rename_i c' o he
    rcases exec_kinds hr.inv.ids hw he with ⟨a, s, hp, hq, h⟩ | ⟨s, sd, hq, rfl⟩ | ⟨a, hp, h1, h2, h3, h4⟩
    · exact h.agree hp hq ha
    · refine ⟨rfl, rfl, fun _ _ => rfl, fun r hr => FMap.get?_insert_ne _ _ ?_, fun _ _ => rfl⟩
      rintro rfl
      rw [hq] at hr
      cases hr
    · refine ⟨by rw [h1], by rw [h1], fun z hz => h2 z ?_, fun _ _ => by rw [h1], fun _ _ => by rw [h1]⟩
      rintro rfl
      rw [hp] at hz
      cases hz
  · exact .refl c

theorem count_pos (hr : c.Reachable fl) {a : AccountId} {u : Farmer} (hu : c.farmers.get? a = some u) :
    1 ≤ c.farmerCount := by
  rw [run_registered hr]
  unfold registered
  have h := c.farmers.term_le_sum (fun _ _ => 1) a
  rw [FMap.term_some _ hu] at h
  exact h

/-- **C109.** A call on this side fails or succeeds alike in two states that agree on this side, whatever
has happened on the other; it sends the same NEAR and leaves states that agree again. -/
theorem C109_outcome (hc : c.Reachable fl) (hd : d.Reachable fl) (h : Agree P Q c d) (ha : Apart P Q c)
    {e : Event} (hw : e.within P Q true = true) (hn : c.farmerCount + 1 < 2 ^ 64)
    (hm : d.farmerCount + 1 < 2 ^ 64) :
    Alike (fun p q => Agree P Q p.1 q.1 ∧ p.2 = q.2) (c.exec fl e.x e.k) (d.exec fl e.x e.k) := by
  have hi : Ids c := hc.inv.ids
  obtain ⟨x, k⟩ := e
  unfold Event.within at hw
  have two : ∀ {p q : Bool}, (p == true && q == true) = true → p = true ∧ q = true := by
    intro p q h
    rw [Bool.and_eq_true, beq_iff_eq, beq_iff_eq] at h
    exact h
  have fin : ∀ {x y : R Contract}, Alike (Agree P Q) x y →
      Alike (fun p q : Contract × List Out => Agree P Q p.1 q.1 ∧ p.2 = q.2)
        (x >>= fun c => .ok (c, [])) (y >>= fun c => .ok (c, [])) :=
    fun h => Alike.bind2 h fun _ _ h => ⟨h, rfl⟩
  cases k with
  | ftOnTransfer a n m =>
    refine Alike.bind fun _ _ => fin ?_
    unfold ftOnTransfer assertRunning
    rw [← h.running]
    refine Alike.bind fun _ _ => ?_
    cases m with
    | free => exact stakeFree_same hi h ha (two hw).1 (two hw).2
    | lock t => exact stakeLock_same hi h ha (two hw).1 (two hw).2
    | reward id =>
      refine depositReward_same h fun s hs => ?_
      simp only [hs, beq_iff_eq] at hw
      exact hw
    | bad => exact rfl
  | mftOnTransfer t a n m =>
    refine Alike.bind fun _ _ => fin ?_
    unfold mftOnTransfer assertRunning
    rw [← h.running]
    refine Alike.bind fun _ _ => ?_
    split
    · cases m with
      | free => exact stakeFree_same hi h ha (two hw).1 (two hw).2
      | lock t => exact stakeLock_same hi h ha (two hw).1 (two hw).2
      | reward id => exact rfl
      | bad => exact rfl
    · exact rfl
  | lockFreeSeed s t n => exact fin (lockFree_same hi h ha (two hw).1 (two hw).2)
  | forceUnlock s n => exact fin (forceUnlock_same hi h ha (two hw).1 (two hw).2)
  | claimReward s => exact fin (claimReward_same h (two hw).1 (two hw).2)
  | storageDeposit a =>
    simp only [beq_iff_eq] at hw
    show Alike _ (c.storageDeposit x a) (d.storageDeposit x a)
    unfold storageDeposit assertRunning
    rw [← h.running]
    refine Alike.bind fun _ _ => ?_
    have hk : d.farmers.contains (a.getD x.pred) = c.farmers.contains (a.getD x.pred) := by
      unfold FMap.contains
      rw [h.farmers _ hw]
    simp only [hk]
    split
    · exact ⟨h, rfl⟩
    · refine Alike.bind fun _ _ => ?_
      have e1 : addW 64 c.farmerCount 1 = .ok (c.farmerCount + 1) := addW_ok.2 ⟨hn, rfl⟩
      have e2 : addW 64 d.farmerCount 1 = .ok (d.farmerCount + 1) := addW_ok.2 ⟨hm, rfl⟩
      rw [e1, e2]
      have h1 := h.setFarmer (a.getD x.pred) ⟨x.pred, FMap.empty, FMap.empty⟩
      exact ⟨⟨h.running, h.cfg, h1.farmers, h.seeds, h.slashed⟩, rfl⟩
  | storageUnregister =>
    simp only [beq_iff_eq] at hw
    show Alike _ (c.storageUnregister x) (d.storageUnregister x)
    unfold storageUnregister assertRunning
    rw [← h.running]
    refine Alike.bind fun _ _ => Alike.bind fun _ _ => ?_
    have hf := h.farmers _ hw
    cases hu : c.farmers.get? x.pred with
    | none =>
      rw [hu] at hf
      rw [← hf]
      exact ⟨h, rfl⟩
    | some u =>
      have hg := hf.symm.trans hu
      rw [hg]
      refine Alike.bind fun _ _ => Alike.bind fun _ _ => ?_
      have e1 : subW c.farmerCount 1 = .ok (c.farmerCount - 1) := subW_ok.2 ⟨count_pos hc hu, rfl⟩
      have e2 : subW d.farmerCount 1 = .ok (d.farmerCount - 1) := subW_ok.2 ⟨count_pos hd hg, rfl⟩
      rw [e1, e2]
      refine ⟨⟨rfl, h.cfg, fun z hz => ?_, h.seeds, h.slashed⟩, rfl⟩
      show (c.farmers.erase x.pred).get? z = (d.farmers.erase x.pred).get? z
      rw [FMap.get?_erase, FMap.get?_erase, h.farmers z hz]
  | _ => cases hw

theorem run_agree : ∀ (es : List Event) {c d : Contract}, c.Reachable fl → d.Reachable fl →
    Agree P Q c d → Apart P Q c → Apart P Q d →
    (∀ e ∈ es, e.within P Q true = true ∨ e.within P Q false = true) →
    c.farmerCount + es.length < 2 ^ 64 → d.farmerCount + es.length < 2 ^ 64 →
    Agree P Q (c.run fl es) (d.run fl (es.filter (Event.within P Q true))) ∧
      Apart P Q (c.run fl es)
  | [], _, _, _, _, h, ha, _, _, _, _ => ⟨h, ha⟩
  | e :: es, c, d, hc, hd, h, ha, hb, hw, hn, hm => by
    rw [List.length_cons] at hn hm
    have hw' : ∀ e ∈ es, e.within P Q true = true ∨ e.within P Q false = true :=
      fun e he => hw e (List.mem_cons_of_mem _ he)
    cases ht : e.within P Q true with
    | true =>
      rw [List.filter_cons_of_pos ht]
      obtain ⟨ha1, hn1⟩ := step_apart (fl := fl) hc.inv.ids ht ha
      obtain ⟨hb1, hm1⟩ := step_apart (fl := fl) hd.inv.ids ht hb
      refine run_agree es (hc.step e) (hd.step e) ?_ ha1 hb1 hw' (by omega) (by omega)
      have hx := C109_outcome hc hd h ha ht (by omega) (by omega)
      unfold step
      cases h1 : c.exec fl e.x e.k with
      | error e1 =>
        cases h2 : d.exec fl e.x e.k with
        | error e2 => exact h
        | ok q => rw [h1, h2] at hx; exact hx.elim
      | ok p =>
        cases h2 : d.exec fl e.x e.k with
        | error e2 => rw [h1, h2] at hx; exact hx.elim
        | ok q => rw [h1, h2] at hx; exact hx.1
    | false =>
      have hf : e.within P Q false = true := by
        rcases hw e List.mem_cons_self with h1 | h1
        · rw [ht] at h1; cases h1
        · exact h1
      rw [List.filter_cons_of_neg (by rw [ht]; exact Bool.false_ne_true)]
      obtain ⟨ha1, hn1⟩ := step_apart (fl := fl) hc.inv.ids hf ha
      exact run_agree es (hc.step e) hd ((C109_unaffected hc ha hf).trans h) ha1 hb hw'
        (by omega) (by omega)

/-- **C109.** Take any state in which farmers of two sides have stakes only in the seeds of their side,
and any history of calls each of which concerns one side. The farmers and seeds of the first side end
up as if none of the calls of the other side had been made. -/
theorem C109_history (hc : c.Reachable fl) (ha : Apart P Q c) {es : List Event}
    (hw : ∀ e ∈ es, e.within P Q true = true ∨ e.within P Q false = true)
    (hn : c.farmerCount + es.length < 2 ^ 64) :
    Agree P Q (c.run fl es) (c.run fl (es.filter (Event.within P Q true))) ∧ Apart P Q (c.run fl es) :=
  run_agree es hc hc (.refl c) ha ha hw hn hn

/-- **C109.** In states that agree on a side, all views of its farmers, seeds and farms answer the
same. -/
theorem C109_views (h : Agree P Q c d) {a : AccountId} {s : SeedId} (hp : P a = true) (hq : Q s = true)
    (now : Nat) :
    c.unclaimed fl now a s = d.unclaimed fl now a s ∧ c.farmerSeed a s = d.farmerSeed a s ∧
    (∀ t, c.rewardOf a t = d.rewardOf a t) ∧ c.getSeed s = d.getSeed s ∧
    c.listSeedFarms now s = d.listSeedFarms now s ∧
    (∀ id, parseFarmId id = .ok s → c.getFarm now id = d.getFarm now id) ∧
    c.farmerSponsor a = d.farmerSponsor a := by
  refine ⟨?_, ?_, fun t => ?_, h.seeds s hq, ?_, fun id hid => ?_, ?_⟩
  · unfold unclaimed
    rw [h.farmer hp, h.seed hq, h.cfg]
  · unfold farmerSeed
    rw [h.farmers a hp]
  · unfold rewardOf
    rw [h.farmers a hp]
  · unfold listSeedFarms
    rw [h.seed hq]
  · unfold getFarm
    rw [hid, ok_bind, ok_bind, h.seed hq]
  · unfold farmerSponsor
    rw [h.farmers a hp]

/-- `al` and `bo` and the seed `S` on one side, all others on the other. -/
def sideP (a : AccountId) : Bool := a == al || a == bo
@[inherit_doc sideP]
def sideQ (s : SeedId) : Bool := s == S

/-- `cy` registers and stakes in `L`, while `al` claims and `bo` unlocks some of the stake in `S`. -/
def mixed : List Event := [
  ⟨near 1002 cy, .storageDeposit none⟩,
  ⟨at' 1003 al, .claimReward S⟩,
  ⟨at' 1003 L, .ftOnTransfer cy 50 .free⟩,
  ⟨y 1004 bo, .forceUnlock S 500⟩,
  ⟨at' 1005 cy, .claimReward L⟩]

/-- The hypotheses hold for the demo, and calls of both sides succeed. -/
example : (∀ p ∈ c1.farmers.entries, ∀ q ∈ p.2.seeds.entries, sideP p.1 = sideQ q.1) ∧
    (∀ e ∈ mixed, e.within sideP sideQ true = true ∨ e.within sideP sideQ false = true) ∧
    (mixed.filter (Event.within sideP sideQ true)).length = 2 ∧
    c1.farmerCount + mixed.length < 2 ^ 64 ∧
    ((c1.run Demo.fl mixed).stakeOf cy L).free = 50 ∧ (c1.stakeOf cy L).free = 0 ∧
    (c1.run Demo.fl mixed).rewardOf al T = 120 ∧ c1.rewardOf al T = 0 ∧
    (c1.run Demo.fl (mixed.filter (Event.within sideP sideQ true))).rewardOf al T = 120 := by
  decide +kernel

/-- A farmer with stakes on both sides links them: staking in the booster `L` changes the power in
`S`. -/
example : (Event.mk (at' 1004 L) (.ftOnTransfer al 4 .free)).within sideP sideQ true = false ∧
    (Event.mk (at' 1004 L) (.ftOnTransfer al 4 .free)).within sideP sideQ false = false ∧
    (c2.seeds.get? S).map (·.power) ≠ (c3.seeds.get? S).map (·.power) := by decide +kernel

end Contract

end Verif.Boost

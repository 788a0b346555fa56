import Verif.Farming.BookProps
import Verif.Farming.FarmerViewProps
import Verif.Alike

/-
C110: farmers of the farming contract who use different seeds do not influence each other.
-/

namespace Verif.Farming

variable {κ V : Type} [DecidableEq κ]

/-- Two maps have the same entries at the keys with `p`. -/
def Same (p : κ → Bool) (m n : FMap κ V) : Prop := ∀ z, p z = true → m.get? z = n.get? z

namespace Same

variable {p : κ → Bool} {m n : FMap κ V}

theorem refl (m : FMap κ V) : Same p m m := fun _ _ => rfl

theorem trans {l : FMap κ V} (h : Same p m n) (g : Same p n l) : Same p m l :=
  fun z hz => (h z hz).trans (g z hz)

theorem out {k : κ} {v : V} (hk : p k = false) : Same p (m.insert k v) m := by
  intro z hz
  refine FMap.get?_insert_ne _ _ ?_
  rintro rfl
  rw [hk] at hz
  cases hz

theorem outErase {k : κ} (hk : p k = false) : Same p (m.erase k) m := by
  intro z hz
  refine FMap.get?_erase_ne _ ?_
  rintro rfl
  rw [hk] at hz
  cases hz

theorem insert (h : Same p m n) (k : κ) (v : V) : Same p (m.insert k v) (n.insert k v) := by
  intro z hz
  rw [FMap.get?_insert, FMap.get?_insert, h z hz]

theorem erase (h : Same p m n) (k : κ) : Same p (m.erase k) (n.erase k) := by
  intro z hz
  rw [FMap.get?_erase, FMap.get?_erase, h z hz]

theorem getD (h : Same p m n) {k : κ} (hk : p k = true) (v : V) : m.getD k v = n.getD k v := by
  unfold FMap.getD
  rw [h k hk]

theorem contains (h : Same p m n) {k : κ} (hk : p k = true) : m.contains k = n.contains k := by
  unfold FMap.contains
  rw [h k hk]

end Same

/-- The seed of a farm: its id up to the last `#`, see `gen_farm_id`. -/
def seedOf : FarmId → SeedId
  | [] => []
  | ch :: id => if '#' ∈ id then ch :: seedOf id else []

theorem seedOf_split {s d : List Char} (hd : '#' ∉ d) : seedOf (s ++ '#' :: d) = s := by
  induction s with
  | nil => simp [seedOf, hd]
  | cons ch s ih => simp [seedOf, ih]

theorem seedOf_gen (s : SeedId) (i : Nat) : seedOf (genFarmId s i) = s := seedOf_split (hash_not_digit i)

theorem splitOn_one {sep : Char} {s a : List Char} (h : splitOn sep s = [a]) : sep ∉ s := by
  intro hm
  obtain ⟨u, v, rfl⟩ := List.append_of_mem hm
  obtain ⟨p, ps, _, h2⟩ := splitOn_append (sep := sep) u v
  obtain ⟨q, qs, h3, _⟩ := splitOn_append (sep := sep) v []
  rw [h2, h3] at h
  have := congrArg List.length h
  simp at this

theorem splitOn_pair {sep : Char} {s a b : List Char} (h : splitOn sep s = [a, b]) :
    s = a ++ sep :: b ∧ sep ∉ b := by
  induction s generalizing a with
  | nil => simp [splitOn] at h
  | cons c s ih =>
    unfold splitOn at h
    split at h
    · rename_i hc
      simp only [List.cons.injEq] at h
      obtain ⟨rfl, h⟩ := h
      rw [splitOn_single h, hc]
      exact ⟨rfl, splitOn_one h⟩
    · split at h
      · cases h
      · rename_i p ps hs
        simp only [List.cons.injEq] at h
        obtain ⟨rfl, rfl⟩ := h
        obtain ⟨h1, h2⟩ := ih hs
        rw [h1]
        exact ⟨rfl, h2⟩

theorem seedOf_parse {id : FarmId} {s : SeedId} (h : parseFarmId id = .ok s) : seedOf id = s := by
  unfold parseFarmId at h
  split at h
  · rename_i a b hs
    unpack at h
    obtain ⟨_, _, _, rfl⟩ := h
    obtain ⟨rfl, h1⟩ := splitOn_pair hs
    exact seedOf_split h1
  · cases h

/-- The event concerns only accounts with `P` and seeds with `Q` equal to `b`. A claim or a deposit for
a farm concerns the seed of the farm. Owner's calls are not among them. Transfers of a token that are
always refused concern nobody. -/
def Event.within (P : AccountId → Bool) (Q : SeedId → Bool) (b : Bool) : Event → Bool
  | .call x (.removeUserRps id) => P x.pred == b && Q (seedOf id) == b
  | .call x (.claimRewardByFarm id) => P x.pred == b && Q (seedOf id) == b
  | .call x (.claimRewardBySeed s) => P x.pred == b && Q s == b
  | .call x (.withdrawReward _ _) => P x.pred == b
  | .call x (.withdrawSeed s _) => P x.pred == b && Q s == b
  | .call x (.ftOnTransfer sender _ msg) =>
    if msg = [] then P sender == b && Q x.pred == b else Q (seedOf msg) == b
  | .call x (.mftOnTransfer t sender _ _) =>
    match parseTokenId t with
    | .pool p => P sender == b && Q (mftSeedId x.pred p) == b
    | .token _ => true
  | .call x (.storageDeposit account _) => P (account.getD x.pred) == b
  | .call x (.storageWithdraw _) => P x.pred == b
  | .call x .storageUnregister => P x.pred == b
  | .call _ _ => false
  | .callback _ (.near _ _) _ => true
  | .callback _ (.reward _ who _) _ => P who == b
  | .callback _ (.ftSeed s who _) _ => P who == b && Q s == b
  | .callback _ (.mftSeed s _ _ who _) _ => P who == b && Q s == b

/-- What an event adds to the rewards deposited in token `t`. -/
def Event.rewarded (t : AccountId) : Event → Nat
  | .call x (.ftOnTransfer _ n msg) => if msg = [] then 0 else if t = x.pred then n else 0
  | _ => 0

variable {P : AccountId → Bool} {Q : SeedId → Bool}

/-! ### Parts of calls -/

section Parts

variable {G : FarmId → Bool} {x : Ctx} {who : AccountId}

theorem setRps_like {m n : RpsMap} {u : Farmer} {id : FarmId} {v : Nat} (hp : P who = true)
    (h : Same (fun k => P k.1) m n) :
    Alike (fun p q => Same (fun k => P k.1) p.1 q.1 ∧ p.2 = q.2) (setRps m u who id v)
      (setRps n u who id v) := by
  unfold setRps
  rw [h.contains (k := (who, id)) hp]
  split
  · exact ⟨h.insert _ _, rfl⟩
  · exact Alike.bind fun _ _ => ⟨h.insert _ _, rfl⟩

theorem setRps_out {m m' : RpsMap} {u u' : Farmer} {id : FarmId} {v : Nat} (hp : P who = false)
    (h : setRps m u who id v = .ok (m', u')) : Same (fun k => P k.1) m' m := by
  rw [(setRps_ok h).1]
  exact .out hp

theorem removeRps_like {m n : RpsMap} {u : Farmer} {id : FarmId} (hp : P who = true)
    (h : Same (fun k => P k.1) m n) :
    Alike (fun p q => Same (fun k => P k.1) p.1 q.1 ∧ p.2 = q.2) (removeRps m u who id)
      (removeRps n u who id) := by
  unfold removeRps
  rw [h.contains (k := (who, id)) hp]
  split
  · exact Alike.bind fun _ _ => ⟨h.erase _, rfl⟩
  · exact ⟨h, rfl⟩

theorem removeAllRps_like (hp : P who = true) : ∀ (ids : List FarmId) {m n : RpsMap} {u : Farmer},
    Same (fun k => P k.1) m n →
    Alike (fun p q => Same (fun k => P k.1) p.1 q.1 ∧ p.2 = q.2) (removeAllRps who ids m u)
      (removeAllRps who ids n u)
  | [], _, _, _, h => ⟨h, rfl⟩
  | id :: ids, m, n, u, h => by
    unfold removeAllRps
    refine Alike.bind2 (removeRps_like hp h) ?_
    rintro ⟨m1, u1⟩ ⟨n1, _⟩ ⟨h1, rfl⟩
    exact removeAllRps_like hp ids h1

theorem removeAllRps_out {ids : List FarmId} {m m' : RpsMap} {u u' : Farmer} (hp : P who = false)
    (h : removeAllRps who ids m u = .ok (m', u')) : Same (fun k => P k.1) m' m := by
  obtain ⟨_, _, _, h4⟩ := removeAllRps_ok h
  rintro ⟨a, id⟩ ha
  rw [h4, if_neg]
  rintro ⟨rfl, _⟩
  rw [show P a = true from ha] at hp
  cases hp

theorem claimFromFarm_like {f : SimpleFarm} {total : Nat} {m n : RpsMap} {u : Farmer} (hp : P who = true)
    (h : Same (fun k => P k.1) m n) :
    Alike (fun p q => p.1 = q.1 ∧ Same (fun k => P k.1) p.2.1 q.2.1 ∧ p.2.2 = q.2.2)
      (claimFromFarm x who f total m u) (claimFromFarm x who f total n u) := by
  unfold claimFromFarm
  rw [h.getD (k := (who, f.id)) hp]
  refine Alike.bind ?_
  rintro ⟨f1, v, k⟩ _
  refine Alike.bind2 (setRps_like hp h) ?_
  rintro ⟨m1, u1⟩ ⟨n1, _⟩ ⟨h1, rfl⟩
  simp only
  split
  · exact Alike.bind fun _ _ => ⟨rfl, h1, rfl⟩
  · exact ⟨rfl, h1, rfl⟩

theorem claimFromFarm_out {f f1 : SimpleFarm} {total : Nat} {m m1 : RpsMap} {u u1 : Farmer}
    (hp : P who = false) (h : claimFromFarm x who f total m u = .ok (f1, m1, u1)) :
    Same (fun k => P k.1) m1 m := by
  unfold claimFromFarm at h
  simp only [bind_ok, Prod.exists] at h
  obtain ⟨f2, v, n, _, m2, u2, hs, h⟩ := h
  have := setRps_out hp hs
  split at h
  · unpack at h
    obtain ⟨u3, _, rfl, rfl, rfl⟩ := h
    exact this
  · cases h
    exact this

theorem claimFarms_like {total : Nat} (hp : P who = true) : ∀ (ids : List FarmId)
    {fs gs : FMap FarmId SimpleFarm} {m n : RpsMap} {u : Farmer}, (∀ id ∈ ids, G id = true) →
    Same G fs gs → Same (fun k => P k.1) m n →
    Alike (fun p q => Same G p.1 q.1 ∧ Same (fun k => P k.1) p.2.1 q.2.1 ∧ p.2.2 = q.2.2)
      (claimFarms x who total ids fs m u) (claimFarms x who total ids gs n u)
  | [], _, _, _, _, _, _, hf, hm => ⟨hf, hm, rfl⟩
  | id :: ids, fs, gs, m, n, u, hg, hf, hm => by
    unfold claimFarms
    rw [hf id (hg id List.mem_cons_self)]
    refine Alike.bind fun f _ => Alike.bind2 (claimFromFarm_like hp hm) ?_
    rintro ⟨f1, m1, u1⟩ ⟨_, n1, _⟩ ⟨rfl, h1, rfl⟩
    exact claimFarms_like hp ids (fun id h => hg id (List.mem_cons_of_mem _ h)) (hf.insert _ _) h1

theorem claimFarms_out {total : Nat} (hp : P who = false) : ∀ (ids : List FarmId)
    {fs fs' : FMap FarmId SimpleFarm} {m m' : RpsMap} {u u' : Farmer}, (∀ id ∈ ids, G id = false) →
    claimFarms x who total ids fs m u = .ok (fs', m', u') →
    Same G fs' fs ∧ Same (fun k => P k.1) m' m
  | [], _, _, _, _, _, _, _, h => by
    cases h
    exact ⟨.refl _, .refl _⟩
  | id :: ids, fs, fs', m, m', u, u', hg, h => by
    unfold claimFarms at h
    simp only [bind_ok, Prod.exists] at h
    obtain ⟨f, _, f1, m1, u1, hc, h⟩ := h
    obtain ⟨h1, h2⟩ := claimFarms_out hp ids (fun id h => hg id (List.mem_cons_of_mem _ h)) h
    exact ⟨h1.trans (.out (hg id List.mem_cons_self)), h2.trans (claimFromFarm_out hp hc)⟩

end Parts

namespace Contract

open Demo

variable {c d c' : Contract} {x : Ctx}

/-- The farmers with `P`, the seeds with `Q` and their farms are the same in two states. -/
structure Agree (P : AccountId → Bool) (Q : SeedId → Bool) (c d : Contract) :
    Prop where
  running : c.running = d.running
  farmers : Same P c.farmers d.farmers
  seeds : Same Q c.seeds d.seeds
  farms : Same (fun id => Q (seedOf id)) c.farms d.farms
  rps : Same (fun k => P k.1) c.rps d.rps

theorem Agree.refl (c : Contract) : Agree P Q c c := ⟨rfl, .refl _, .refl _, .refl _, .refl _⟩

theorem Agree.trans {e : Contract} (h : Agree P Q c d) (g : Agree P Q d e) : Agree P Q c e :=
  ⟨h.running.trans g.running, h.farmers.trans g.farmers, h.seeds.trans g.seeds, h.farms.trans g.farms,
    h.rps.trans g.rps⟩

theorem Agree.farmer (h : Agree P Q c d) {a : AccountId} (ha : P a = true) : c.farmer a = d.farmer a := by
  unfold Contract.farmer
  rw [h.farmers a ha]

theorem Agree.seed (h : Agree P Q c d) {s : SeedId} (hs : Q s = true) : c.seed s = d.seed s := by
  unfold Contract.seed
  rw [h.seeds s hs]

theorem Agree.storage (h : Agree P Q c d) {a : AccountId} (ha : P a = true) :
    c.farmerStorage a = d.farmerStorage a := by
  unfold farmerStorage
  rw [h.farmers a ha]

/-- The farms of a seed are on its side. -/
theorem farms_side (hI : Inv c) {s : SeedId} {fs : FarmSeed}
    (hs : c.seeds.get? s = some fs) : ∀ id ∈ x.order.f fs.farms, Q (seedOf id) = Q s := by
  intro id hid
  obtain ⟨f, hf, hfs⟩ := (hI.seeds s fs hs).farms id ((x.order.perm fs.farms).mem_iff.1 hid)
  obtain ⟨_, _, _, i, _, rfl⟩ := (hI.farms id f hf).seed
  rw [seedOf_gen, hfs]

theorem claimBySeed_like {who : AccountId} {s : SeedId} (hI : Inv c)
    (h : Agree P Q c d) (hp : P who = true) (hq : Q s = true) :
    Alike (Agree P Q) (c.claimBySeed x who s) (d.claimBySeed x who s) := by
  unfold claimBySeed
  rw [← h.farmer hp]
  refine Alike.bind fun u _ => ?_
  rw [← h.seeds s hq]
  cases hs : c.seeds.get? s with
  | none => exact h
  | some fs =>
    refine Alike.bind2 (claimFarms_like (G := fun id => Q (seedOf id)) hp _ (fun id hid => ?_) h.farms h.rps) ?_
    · exact (farms_side hI hs id hid).trans hq
    · rintro ⟨f1, m1, u1⟩ ⟨g1, n1, _⟩ ⟨h1, h2, rfl⟩
      exact ⟨h.running, h.farmers.insert _ _, h.seeds, h1, h2⟩

theorem claimBySeed_out {who : AccountId} {s : SeedId} (hI : Inv c)
    (hp : P who = false) (hq : Q s = false) (h : c.claimBySeed x who s = .ok c') : Agree P Q c' c := by
  unfold claimBySeed at h
  simp only [bind_ok] at h
  obtain ⟨u, _, h⟩ := h
  split at h
  · cases h
    exact .refl c
  · rename_i fs hs
    simp only [bind_ok, Prod.exists, Except.ok.injEq] at h
    obtain ⟨f1, m1, u1, hc, rfl⟩ := h
    obtain ⟨h1, h2⟩ := claimFarms_out (G := fun id => Q (seedOf id)) hp _
      (fun id hid => (farms_side hI hs id hid).trans hq) hc
    exact ⟨rfl, .out hp, .refl _, h1, h2⟩

theorem claimByFarm_like {who : AccountId} {id : FarmId} (h : Agree P Q c d) (hp : P who = true)
    (hq : Q (seedOf id) = true) :
    Alike (Agree P Q) (c.claimByFarm x who id) (d.claimByFarm x who id) := by
  unfold claimByFarm
  rw [← h.farmer hp]
  refine Alike.bind fun u _ => Alike.bind fun s hs => ?_
  rw [← h.seeds s (seedOf_parse hs ▸ hq), ← h.farms id hq]
  split
  · refine Alike.bind2 (claimFromFarm_like hp h.rps) ?_
    rintro ⟨f1, m1, u1⟩ ⟨_, n1, _⟩ ⟨rfl, h2, rfl⟩
    exact ⟨h.running, h.farmers.insert _ _, h.seeds, h.farms.insert _ _, h2⟩
  · exact h

theorem claimByFarm_out {who : AccountId} {id : FarmId} (hp : P who = false) (hq : Q (seedOf id) = false)
    (h : c.claimByFarm x who id = .ok c') : Agree P Q c' c := by
  unfold claimByFarm at h
  simp only [bind_ok] at h
  obtain ⟨u, _, s, _, h⟩ := h
  split at h
  · simp only [bind_ok, Prod.exists, Except.ok.injEq] at h
    obtain ⟨f1, m1, u1, hc, rfl⟩ := h
    exact ⟨rfl, .out hp, .refl _, .out hq, claimFromFarm_out hp hc⟩
  · cases h
    exact .refl c

theorem addStake_like {who : AccountId} {s : SeedId} {n : Nat} {mft : Bool} (h : Agree P Q c d)
    (hp : P who = true) (hq : Q s = true) :
    Alike (Agree P Q) (c.addStake who s n mft) (d.addStake who s n mft) := by
  unfold addStake
  rw [← h.seed hq, ← h.farmer hp]
  exact Alike.bind fun fs _ => Alike.bind fun _ _ => Alike.bind fun u _ => Alike.bind fun u1 _ =>
    ⟨h.running, h.farmers.insert _ _, h.seeds.insert _ _, h.farms, h.rps⟩

theorem addStake_out {who : AccountId} {s : SeedId} {n : Nat} {mft : Bool} (hp : P who = false)
    (hq : Q s = false) (h : c.addStake who s n mft = .ok c') : Agree P Q c' c := by
  unfold addStake at h
  simp only [bind_ok, Except.ok.injEq] at h
  obtain ⟨fs, _, _, _, u, _, u1, _, rfl⟩ := h
  exact ⟨rfl, .out hp, .out hq, .refl _, .refl _⟩

theorem seedDeposit_like {who : AccountId} {s : SeedId} {n : Nat} {mft : Bool}
    (hI : Inv c) (h : Agree P Q c d) (hp : P who = true)
    (hq : Q s = true) : Alike (Agree P Q) (c.seedDeposit x who s n mft) (d.seedDeposit x who s n mft) :=
  Alike.bind2 (claimBySeed_like hI h hp hq) fun _ _ h => addStake_like h hp hq

theorem seedDeposit_out {who : AccountId} {s : SeedId} {n : Nat} {mft : Bool}
    (hI : Inv c) (hp : P who = false) (hq : Q s = false)
    (h : c.seedDeposit x who s n mft = .ok c') : Agree P Q c' c := by
  unfold seedDeposit at h
  simp only [bind_ok] at h
  obtain ⟨c1, h1, h⟩ := h
  exact (addStake_out hp hq h).trans (claimBySeed_out hI hp hq h1)

theorem seedWithdraw_like {who : AccountId} {s : SeedId} {n : Nat}
    (hI : Inv c) (h : Agree P Q c d) (hp : P who = true)
    (hq : Q s = true) : Alike (fun p q => Agree P Q p.1 q.1 ∧ p.2 = q.2) (c.seedWithdraw x who s n)
      (d.seedWithdraw x who s n) := by
  unfold seedWithdraw
  refine Alike.bind2 (claimBySeed_like hI h hp hq) fun c1 d1 h => ?_
  rw [← h.seed hq, ← h.farmer hp]
  refine Alike.bind fun fs _ => Alike.bind fun u _ => Alike.bind ?_
  rintro ⟨u1, remain⟩ _
  refine Alike.bind fun _ _ => Alike.bind2 (removeAllRps_like hp _ h.rps) ?_
  rintro ⟨m1, u2⟩ ⟨n1, _⟩ ⟨h1, rfl⟩
  exact ⟨⟨h.running, h.farmers.insert _ _, h.seeds.insert _ _, h.farms, h1⟩, rfl⟩

theorem seedWithdraw_out {who : AccountId} {s : SeedId} {n : Nat} {mft : Bool}
    (hI : Inv c) (hp : P who = false) (hq : Q s = false)
    (h : c.seedWithdraw x who s n = .ok (c', mft)) : Agree P Q c' c := by
  unfold seedWithdraw at h
  simp only [bind_ok, Prod.exists, Except.ok.injEq, Prod.mk.injEq] at h
  obtain ⟨c1, h1, fs, _, u, _, u1, remain, _, _, _, m, u2, hm, rfl, _⟩ := h
  exact Agree.trans (d := c1) ⟨rfl, .out hp, .out hq, .refl _, removeAllRps_out hp hm⟩
    (claimBySeed_out hI hp hq h1)

theorem assertStorage_like {a : AccountId} (h : Agree P Q c d) (hp : P a = true) :
    c.assertStorage a = d.assertStorage a := by
  unfold assertStorage
  rw [h.storage hp]

theorem two {p q b : Bool} (h : (p == b && q == b) = true) : p = b ∧ q = b := by
  rw [Bool.and_eq_true, beq_iff_eq, beq_iff_eq] at h
  exact h

/-- Accounts and rewards grow by what an event brings. -/
theorem apply_grows {b : Bool} {e : Event} {o : List Out} (hI : Inv c) (hw : e.within P Q b = true)
    (h : c.apply e = .ok (c', o)) : c'.farmerCount ≤ c.farmerCount + 1 ∧
      ∀ t, c'.rewardInfo.getD t 0 ≤ c.rewardInfo.getD t 0 + e.rewarded t := by
  cases kind_of_apply hI h with
  | create => cases hw
  | clean => cases hw
  | owner => cases hw
  | minimum => cases hw
  | running => cases hw
  | farmer _ hcl =>
    refine ⟨?_, fun t => ?_⟩
    · show _ ≤ _
      rw [hcl.same.count]
      exact Nat.le_succ _
    · show FMap.getD _ _ _ ≤ _
      rw [hcl.same.info]
      exact Nat.le_add_right _ _
  | nothing => exact ⟨Nat.le_succ _, fun _ => Nat.le_add_right _ _⟩
  | @fund x a n id f f1 _ hid =>
    refine ⟨Nat.le_succ _, fun t => ?_⟩
    simp only [Event.rewarded, if_neg hid, FMap.getD_insert]
    split
    · rename_i ht
      subst ht
      exact Nat.le_refl _
    · exact Nat.le_refl _
  | deposit _ h1 =>
    have h2 := (register_frame h1).2.2.2.2.2
    refine ⟨?_, fun t => by rw [h2]; exact Nat.le_add_right _ _⟩
    unfold register at h1
    split at h1
    · unpack at h1
      obtain ⟨_, rfl⟩ := h1
      exact Nat.le_succ _
    · unpack at h1
      obtain ⟨_, rfl⟩ := h1
      exact Nat.le_refl _
  | withdraw => exact ⟨Nat.le_succ _, fun _ => Nat.le_add_right _ _⟩
  | leave =>
    refine ⟨?_, fun _ => Nat.le_add_right _ _⟩
    show c.farmerCount - 1 ≤ _
    omega

theorem register_out {a : AccountId} {n : Nat} (hp : P a = false) (h : c.register a n = .ok c') :
    Agree P Q c' c := by
  unfold register at h
  split at h
  · unpack at h
    obtain ⟨_, rfl⟩ := h
    exact ⟨rfl, .out hp, .refl _, .refl _, .refl _⟩
  · unpack at h
    obtain ⟨_, rfl⟩ := h
    exact ⟨rfl, .out hp, .refl _, .refl _, .refl _⟩

/-- **C110.** An event that concerns only accounts and seeds of the other side changes nothing on this
side: no stake, no reward, no farm. -/
theorem C110_unaffected (hr : c.Reachable) {e : Event} (hw : e.within P Q false = true) :
    Agree P Q (c.step e) c := by
  have hI := hr.inv
  unfold step
  split
  swap
  · exact .refl c
  rename_i r h
  obtain ⟨c', o⟩ := r
  show Agree P Q c' c
  cases e with
  | callback x o ok =>
    simp only [apply] at h
    unpack at h
    obtain ⟨c1, h, rfl, _⟩ := h
    unfold callback at h
    split at h
    · cases h
      exact .refl c
    cases o with
    | near => cases h; exact .refl c
    | reward t who n =>
      simp only [bind_ok, Except.ok.injEq] at h
      obtain ⟨u, _, u1, _, rfl⟩ := h
      simp only [Event.within, beq_iff_eq] at hw
      exact ⟨rfl, .out hw, .refl _, .refl _, .refl _⟩
    | ftSeed s who n => exact seedDeposit_out hI (two hw).1 (two hw).2 h
    | mftSeed s _ _ who n => exact seedDeposit_out hI (two hw).1 (two hw).2 h
  | call x k =>
    replace h : c.exec x k = .ok (c', o) := h
    cases k with
    | createSimpleFarm => cases hw
    | forceCleanFarm => cases hw
    | setOwner => cases hw
    | modifyMinDeposit => cases hw
    | setRunning => cases hw
    | removeUserRps id =>
      simp only [exec, removeUserRps, bind_ok, Except.ok.injEq, Prod.mk.injEq] at h
      obtain ⟨c1, ⟨_, _, _, _, u, _, s, _, fs, _, h⟩, rfl, _⟩ := h
      split at h
      · cases h
        exact .refl c
      · simp only [bind_ok, Prod.exists, Except.ok.injEq] at h
        obtain ⟨m, u1, hm, rfl⟩ := h
        refine ⟨rfl, .out (two hw).1, .refl _, .refl _, ?_⟩
        unfold removeRps at hm
        split at hm
        · unpack at hm
          obtain ⟨_, rfl, _⟩ := hm
          exact .outErase (two hw).1
        · cases hm
          exact .refl _
    | claimRewardByFarm id =>
      simp only [exec, claimRewardByFarm, bind_ok, Except.ok.injEq, Prod.mk.injEq] at h
      obtain ⟨c1, ⟨_, _, _, _, c2, h, _, _, rfl⟩, rfl, _⟩ := h
      exact claimByFarm_out (two hw).1 (two hw).2 h
    | claimRewardBySeed s =>
      simp only [exec, claimRewardBySeed, bind_ok, Except.ok.injEq, Prod.mk.injEq] at h
      obtain ⟨c1, ⟨_, _, _, _, c2, h, _, _, rfl⟩, rfl, _⟩ := h
      exact claimBySeed_out hI (two hw).1 (two hw).2 h
    | withdrawReward t n =>
      simp only [exec, withdrawReward, bind_ok, Prod.exists, Except.ok.injEq, Prod.mk.injEq] at h
      obtain ⟨_, _, _, _, u, _, u1, k, _, rfl, _⟩ := h
      simp only [Event.within, beq_iff_eq] at hw
      exact ⟨rfl, .out hw, .refl _, .refl _, .refl _⟩
    | withdrawSeed s n =>
      simp only [exec, withdrawSeed, bind_ok, Prod.exists] at h
      obtain ⟨_, _, _, _, c1, mft, h1, h⟩ := h
      have h2 := seedWithdraw_out (P := P) (Q := Q) hI (two hw).1 (two hw).2 h1
      split at h
      · simp only [bind_ok, Prod.exists, Except.ok.injEq, Prod.mk.injEq] at h
        obtain ⟨_, _, _, rfl, _⟩ := h
        exact h2
      · cases h
        exact h2
    | ftOnTransfer a n m =>
      simp only [exec, bind_ok, Except.ok.injEq, Prod.mk.injEq] at h
      obtain ⟨c1, h, rfl, _⟩ := h
      simp only [Event.within] at hw
      unfold ftOnTransfer at h
      split at h
      · rename_i hm
        rw [if_pos hm] at hw
        simp only [ftStake, bind_ok, Except.ok.injEq] at h
        obtain ⟨_, _, _, _, fs, _, _, _, c2, h, _, _, rfl⟩ := h
        exact seedDeposit_out hI (two hw).1 (two hw).2 h
      · rename_i hm
        rw [if_neg hm, beq_iff_eq] at hw
        simp only [ftReward, bind_ok] at h
        obtain ⟨_, _, _, _, f, _, _, _, f1, _, h⟩ := h
        split at h
        · cases h
        · simp only [bind_ok, Except.ok.injEq] at h
          obtain ⟨_, _, rfl⟩ := h
          exact ⟨rfl, .refl _, .refl _, .out hw, .refl _⟩
    | mftOnTransfer t a n m =>
      simp only [exec, bind_ok, Except.ok.injEq, Prod.mk.injEq] at h
      obtain ⟨c1, h, rfl, _⟩ := h
      simp only [Event.within] at hw
      simp only [mftOnTransfer, bind_ok] at h
      obtain ⟨_, _, _, _, h⟩ := h
      split at h
      · cases h
      · rename_i p hp
        rw [hp] at hw
        simp only [bind_ok, Except.ok.injEq] at h
        obtain ⟨_, _, fs, _, _, _, c2, h, _, _, rfl⟩ := h
        exact seedDeposit_out hI (two hw).1 (two hw).2 h
    | storageDeposit a only =>
      simp only [Event.within, beq_iff_eq] at hw
      simp only [exec, storageDeposit, bind_ok] at h
      obtain ⟨_, _, h⟩ := h
      split at h
      · simp only [bind_ok] at h
        obtain ⟨_, _, h⟩ := h
        split at h
        · simp only [bind_ok, Except.ok.injEq, Prod.mk.injEq] at h
          obtain ⟨c1, h, rfl, _⟩ := h
          exact register_out hw h
        · simp only [bind_ok, Except.ok.injEq, Prod.mk.injEq] at h
          obtain ⟨c1, h, rfl, _⟩ := h
          exact register_out hw h
      · split at h
        · cases h
        · simp only [bind_ok, Except.ok.injEq, Prod.mk.injEq] at h
          obtain ⟨_, _, _, _, c1, h, rfl, _⟩ := h
          exact register_out hw h
    | storageWithdraw n =>
      simp only [Event.within, beq_iff_eq] at hw
      simp only [exec, storageWithdraw, bind_ok, Except.ok.injEq, Prod.mk.injEq] at h
      obtain ⟨_, _, _, _, _, _, _, _, _, _, _, _, _, _, _, _, rfl, _⟩ := h
      exact ⟨rfl, .out hw, .refl _, .refl _, .refl _⟩
    | storageUnregister =>
      simp only [Event.within, beq_iff_eq] at hw
      simp only [exec, storageUnregister, bind_ok] at h
      obtain ⟨_, _, _, _, h⟩ := h
      split at h
      · cases h
        exact .refl c
      · simp only [bind_ok, Except.ok.injEq, Prod.mk.injEq] at h
        obtain ⟨_, _, _, _, _, _, rfl, _⟩ := h
        exact ⟨rfl, .outErase hw, .refl _, .refl _, .refl _⟩

theorem count_pos (hr : c.Reachable) {a : AccountId} {u : Farmer} (hu : c.farmers.get? a = some u) :
    1 ≤ c.farmerCount := by
  rw [C62_farmer_count hr, FMap.size_eq_sum]
  have h := c.farmers.term_le_sum (fun _ _ => 1) a
  rw [FMap.term_some _ hu] at h
  exact h

theorem register_like {a : AccountId} {n : Nat} (h : Agree P Q c d) (hp : P a = true)
    (hn : c.farmerCount + 1 < 2 ^ 64) (hm : d.farmerCount + 1 < 2 ^ 64) :
    Alike (Agree P Q) (c.register a n) (d.register a n) := by
  unfold register
  rw [← h.farmers a hp]
  split
  · exact Alike.bind fun _ _ => ⟨h.running, h.farmers.insert _ _, h.seeds, h.farms, h.rps⟩
  · rw [addW_ok.2 ⟨hn, rfl⟩, addW_ok.2 ⟨hm, rfl⟩]
    exact ⟨h.running, h.farmers.insert _ _, h.seeds, h.farms, h.rps⟩

/-- Two states that agree are checked alike. -/
theorem stored_like {a : AccountId} {f g : R Contract} (hp : P a = true) (h : Alike (Agree P Q) f g) :
    Alike (Agree P Q) (f >>= fun c => c.assertStorage a >>= fun _ => .ok c)
      (g >>= fun c => c.assertStorage a >>= fun _ => .ok c) := by
  refine Alike.bind2 h fun c d h => ?_
  rw [assertStorage_like h hp]
  exact Alike.bind fun _ _ => h

/-- **C110.** An event on this side fails or succeeds alike in two states that agree on this side,
whatever has happened on the other; it makes the same transfers and leaves states that agree again. -/
theorem C110_outcome (hc : c.Reachable) (hd : d.Reachable) (h : Agree P Q c d) {e : Event}
    (hw : e.within P Q true = true) (hn : c.farmerCount + 1 < 2 ^ 64) (hm : d.farmerCount + 1 < 2 ^ 64)
    (hi : ∀ t, c.rewardInfo.getD t 0 + e.rewarded t < 2 ^ 128)
    (hj : ∀ t, d.rewardInfo.getD t 0 + e.rewarded t < 2 ^ 128) :
    Alike (fun p q => Agree P Q p.1 q.1 ∧ p.2 = q.2) (c.apply e) (d.apply e) := by
  have hI := hc.inv
  have fin : ∀ {f g : R Contract}, Alike (Agree P Q) f g →
      Alike (fun p q : Contract × List Out => Agree P Q p.1 q.1 ∧ p.2 = q.2)
        (f >>= fun c => .ok (c, [])) (g >>= fun c => .ok (c, [])) :=
    fun h => Alike.bind2 h fun _ _ h => ⟨h, rfl⟩
  have hrun : d.assertRunning = c.assertRunning := by
    unfold assertRunning
    rw [h.running]
  cases e with
  | callback x o ok =>
    refine fin ?_
    unfold callback
    split
    · exact h
    cases o with
    | near => exact h
    | reward t who n =>
      simp only [Event.within, beq_iff_eq] at hw
      simp only [← h.farmer hw]
      exact Alike.bind fun u _ => Alike.bind fun _ _ =>
        ⟨h.running, h.farmers.insert _ _, h.seeds, h.farms, h.rps⟩
    | ftSeed s who n => exact seedDeposit_like hI h (two hw).1 (two hw).2
    | mftSeed s _ _ who n => exact seedDeposit_like hI h (two hw).1 (two hw).2
  | call x k =>
    show Alike _ (c.exec x k) (d.exec x k)
    cases k with
    | createSimpleFarm => cases hw
    | forceCleanFarm => cases hw
    | setOwner => cases hw
    | modifyMinDeposit => cases hw
    | setRunning => cases hw
    | removeUserRps id =>
      refine fin ?_
      unfold removeUserRps
      rw [hrun, ← h.farmer (two hw).1]
      refine Alike.bind fun _ _ => Alike.bind fun _ _ => Alike.bind fun u _ => Alike.bind fun s hs => ?_
      rw [← h.seed (seedOf_parse hs ▸ (two hw).2)]
      refine Alike.bind fun fs _ => ?_
      split
      · exact h
      · refine Alike.bind2 (removeRps_like (two hw).1 h.rps) ?_
        rintro ⟨m1, u1⟩ ⟨n1, _⟩ ⟨h1, rfl⟩
        exact ⟨h.running, h.farmers.insert _ _, h.seeds, h.farms, h1⟩
    | claimRewardByFarm id =>
      refine fin ?_
      unfold claimRewardByFarm
      rw [hrun]
      exact Alike.bind fun _ _ => Alike.bind fun _ _ =>
        stored_like (two hw).1 (claimByFarm_like h (two hw).1 (two hw).2)
    | claimRewardBySeed s =>
      refine fin ?_
      unfold claimRewardBySeed
      rw [hrun]
      exact Alike.bind fun _ _ => Alike.bind fun _ _ =>
        stored_like (two hw).1 (claimBySeed_like hI h (two hw).1 (two hw).2)
    | withdrawReward t n =>
      simp only [Event.within, beq_iff_eq] at hw
      show Alike _ (c.withdrawReward x t n) (d.withdrawReward x t n)
      unfold withdrawReward
      rw [hrun, ← h.farmer hw]
      refine Alike.bind fun _ _ => Alike.bind fun _ _ => Alike.bind fun u _ => Alike.bind ?_
      rintro ⟨u1, k⟩ _
      exact ⟨⟨h.running, h.farmers.insert _ _, h.seeds, h.farms, h.rps⟩, rfl⟩
    | withdrawSeed s n =>
      show Alike _ (c.withdrawSeed x s n) (d.withdrawSeed x s n)
      unfold withdrawSeed
      rw [hrun]
      refine Alike.bind fun _ _ => Alike.bind fun _ _ =>
        Alike.bind2 (seedWithdraw_like hI h (two hw).1 (two hw).2) ?_
      rintro ⟨c1, mft⟩ ⟨d1, _⟩ ⟨h1, rfl⟩
      simp only
      split
      · refine Alike.bind ?_
        rintro ⟨_, _⟩ _
        exact ⟨h1, rfl⟩
      · exact ⟨h1, rfl⟩
    | ftOnTransfer a n m =>
      refine fin ?_
      simp only [Event.within] at hw
      unfold ftOnTransfer
      split
      · rename_i hm
        rw [if_pos hm] at hw
        unfold ftStake
        rw [hrun, ← h.seed (two hw).2]
        exact Alike.bind fun _ _ => Alike.bind fun _ _ => Alike.bind fun fs _ => Alike.bind fun _ _ =>
          stored_like (two hw).1 (seedDeposit_like hI h (two hw).1 (two hw).2)
      · rename_i hm'
        rw [if_neg hm', beq_iff_eq] at hw
        unfold ftReward
        rw [hrun, ← h.farms m hw]
        refine Alike.bind fun _ _ => Alike.bind fun _ _ => Alike.bind fun f _ => Alike.bind fun _ _ =>
          Alike.bind fun f1 _ => ?_
        cases f1 with
        | none => exact rfl
        | some f1 =>
          have e1 := hi x.pred
          have e2 := hj x.pred
          simp only [Event.rewarded, if_neg hm', if_true] at e1 e2
          simp only
          rw [addW_ok.2 ⟨e1, rfl⟩, addW_ok.2 ⟨e2, rfl⟩]
          exact ⟨h.running, h.farmers, h.seeds, h.farms.insert _ _, h.rps⟩
    | mftOnTransfer t a n m =>
      refine fin ?_
      simp only [Event.within] at hw
      unfold mftOnTransfer
      rw [hrun]
      refine Alike.bind fun _ _ => Alike.bind fun _ _ => ?_
      split
      · exact rfl
      · rename_i p hp
        rw [hp] at hw
        simp only
        rw [← h.seed (two hw).2]
        exact Alike.bind fun _ _ => Alike.bind fun fs _ => Alike.bind fun _ _ =>
          stored_like (two hw).1 (seedDeposit_like hI h (two hw).1 (two hw).2)
    | storageDeposit a only =>
      simp only [Event.within, beq_iff_eq] at hw
      show Alike _ (c.storageDeposit x a only) (d.storageDeposit x a only)
      unfold storageDeposit
      rw [hrun]
      refine Alike.bind fun _ _ => ?_
      simp only
      rw [← h.storage hw]
      split
      · refine Alike.bind fun _ _ => ?_
        split
        · exact Alike.bind2 (register_like h hw hn hm) fun _ _ h => ⟨h, rfl⟩
        · exact Alike.bind2 (register_like h hw hn hm) fun _ _ h => ⟨h, rfl⟩
      · split
        · exact rfl
        · exact Alike.bind fun _ _ => Alike.bind fun _ _ =>
            Alike.bind2 (register_like h hw hn hm) fun _ _ h => ⟨h, rfl⟩
    | storageWithdraw n =>
      simp only [Event.within, beq_iff_eq] at hw
      show Alike _ (c.storageWithdraw x n) (d.storageWithdraw x n)
      unfold storageWithdraw
      rw [hrun]
      refine Alike.bind fun _ _ => Alike.bind fun _ _ => ?_
      simp only
      rw [← h.storage hw, ← h.farmer hw]
      exact Alike.bind fun _ _ => Alike.bind fun _ _ => Alike.bind fun _ _ => Alike.bind fun _ _ =>
        Alike.bind fun _ _ => Alike.bind fun _ _ =>
        ⟨⟨h.running, h.farmers.insert _ _, h.seeds, h.farms, h.rps⟩, rfl⟩
    | storageUnregister =>
      simp only [Event.within, beq_iff_eq] at hw
      show Alike _ (c.storageUnregister x) (d.storageUnregister x)
      unfold storageUnregister
      rw [hrun]
      refine Alike.bind fun _ _ => Alike.bind fun _ _ => ?_
      have hf := h.farmers _ hw
      cases hu : c.farmers.get? x.pred with
      | none =>
        rw [hu] at hf
        rw [← hf]
        exact ⟨h, rfl⟩
      | some u =>
        have hg := hf.symm.trans hu
        rw [hg]
        refine Alike.bind fun _ _ => Alike.bind fun _ _ => ?_
        rw [subW_ok.2 ⟨count_pos hc hu, rfl⟩, subW_ok.2 ⟨count_pos hd hg, rfl⟩]
        exact ⟨⟨h.running, h.farmers.erase _, h.seeds, h.farms, h.rps⟩, rfl⟩

theorem run_agree : ∀ (es : List Event) {c d : Contract}, c.Reachable → d.Reachable → Agree P Q c d →
    (∀ e ∈ es, e.within P Q true = true ∨ e.within P Q false = true) →
    c.farmerCount + es.length < 2 ^ 64 → d.farmerCount + es.length < 2 ^ 64 →
    (∀ t, c.rewardInfo.getD t 0 + (es.map (Event.rewarded t)).sum < 2 ^ 128) →
    (∀ t, d.rewardInfo.getD t 0 + (es.map (Event.rewarded t)).sum < 2 ^ 128) →
    Agree P Q (c.run es) (d.run (es.filter (Event.within P Q true)))
  | [], _, _, _, _, h, _, _, _, _, _ => h
  | e :: es, c, d, hc, hd, h, hw, hn, hm, hi, hj => by
    rw [List.length_cons] at hn hm
    simp only [List.map_cons, List.sum_cons] at hi hj
    have hw' : ∀ e ∈ es, e.within P Q true = true ∨ e.within P Q false = true :=
      fun e he => hw e (List.mem_cons_of_mem _ he)
    have grow : ∀ {b : Bool} {c : Contract}, c.Reachable → e.within P Q b = true →
        (c.step e).farmerCount ≤ c.farmerCount + 1 ∧
        ∀ t, (c.step e).rewardInfo.getD t 0 ≤ c.rewardInfo.getD t 0 + e.rewarded t := by
      intro b c hc hb
      unfold step
      split
      · rename_i r hr
        exact apply_grows (o := r.2) hc.inv hb hr
      · exact ⟨Nat.le_succ _, fun _ => Nat.le_add_right _ _⟩
    have bound : ∀ {k : Nat} {t : AccountId} {c : Contract},
        c.rewardInfo.getD t 0 + (e.rewarded t + (es.map (Event.rewarded t)).sum) < 2 ^ 128 →
        k ≤ c.rewardInfo.getD t 0 + e.rewarded t → k + (es.map (Event.rewarded t)).sum < 2 ^ 128 :=
      fun h g => by omega
    cases ht : e.within P Q true with
    | true =>
      rw [List.filter_cons_of_pos ht]
      obtain ⟨hn1, hi1⟩ := grow hc ht
      obtain ⟨hm1, hj1⟩ := grow hd ht
      refine run_agree es (hc.step e) (hd.step e) ?_ hw' (by omega) (by omega)
        (fun t => bound (hi t) (hi1 t)) (fun t => bound (hj t) (hj1 t))
      have hx := C110_outcome hc hd h ht (by omega) (by omega) (fun t => by have := hi t; omega)
        (fun t => by have := hj t; omega)
      unfold step
      cases h1 : c.apply e with
      | error e1 =>
        cases h2 : d.apply e with
        | error e2 => exact h
        | ok q => rw [h1, h2] at hx; exact hx.elim
      | ok p =>
        cases h2 : d.apply e with
        | error e2 => rw [h1, h2] at hx; exact hx.elim
        | ok q => rw [h1, h2] at hx; exact hx.1
    | false =>
      have hf : e.within P Q false = true := by
        rcases hw e List.mem_cons_self with h1 | h1
        · rw [ht] at h1; cases h1
        · exact h1
      rw [List.filter_cons_of_neg (by rw [ht]; exact Bool.false_ne_true)]
      obtain ⟨hn1, hi1⟩ := grow hc hf
      exact run_agree es (hc.step e) hd ((C110_unaffected hc hf).trans h) hw' (by omega) (by omega)
        (fun t => bound (hi t) (hi1 t)) (fun t => by have := hj t; omega)

/-- **C110.** Split the accounts and the seeds into two sides, in any way, and take any history of events
each of which concerns one side. The farmers, seeds and farms of the first side end up as if none of the
events of the other side had happened. -/
theorem C110_history (hc : c.Reachable) {es : List Event}
    (hw : ∀ e ∈ es, e.within P Q true = true ∨ e.within P Q false = true)
    (hn : c.farmerCount + es.length < 2 ^ 64)
    (hi : ∀ t, c.rewardInfo.getD t 0 + (es.map (Event.rewarded t)).sum < 2 ^ 128) :
    Agree P Q (c.run es) (c.run (es.filter (Event.within P Q true))) :=
  run_agree es hc hc (.refl c) hw hn hn hi hi

/-- **C110.** In states that agree on a side, all views of its farmers, seeds and farms answer the
same. -/
theorem C110_views (h : Agree P Q c d) {a : AccountId} {s : SeedId} (hp : P a = true) (hq : Q s = true)
    (now : Nat) :
    c.stakeOf a s = d.stakeOf a s ∧ (∀ t, c.rewardOf a t = d.rewardOf a t) ∧
    c.getSeedInfo s = d.getSeedInfo s ∧ c.storageBalanceOf a = d.storageBalanceOf a ∧
    ∀ id, seedOf id = s → c.getFarm now id = d.getFarm now id ∧
      c.getUnclaimedReward now a id = d.getUnclaimedReward now a id ∧
      c.getUserRps a id = d.getUserRps a id := by
  have side : ∀ id, seedOf id = s → Q (seedOf id) = true := fun id hid => by rw [hid, hq]
  refine ⟨?_, fun t => ?_, h.seeds s hq, ?_, fun id hid => ⟨?_, ?_, ?_⟩⟩
  · unfold stakeOf
    rw [h.farmers a hp]
  · unfold rewardOf
    rw [h.farmers a hp]
  · unfold storageBalanceOf
    rw [h.storage hp]
  · unfold getFarm
    rw [h.farms id (side id hid)]
  · unfold getUnclaimedReward
    rw [h.farmers a hp, h.farms id (side id hid)]
    cases hs : parseFarmId id with
    | error => rfl
    | ok s' =>
      have e : s' = s := (seedOf_parse hs).symm.trans hid
      subst e
      simp only [ok_bind, h.seeds s' hq, h.rps.getD (k := (a, _)) hp]
  · unfold getUserRps
    rw [h.farmer hp, h.rps.getD (k := (a, id)) hp]

/-- `al` and the seed `S` on one side, all others on the other. -/
def sideP (a : AccountId) : Bool := a == al
@[inherit_doc sideP]
def sideQ (s : SeedId) : Bool := s == S

/-- `cy` registers, `bo` stakes more shares of a pool and claims, while `al` claims and withdraws. -/
def mixed : List Event := [
  .call (near 1015 cy) (.storageDeposit none false),
  .call (at' 1020 al) (.claimRewardByFarm F),
  .call (at' 1021 X) (.mftOnTransfer ":3".toList bo 100 []),
  .call (at' 1022 bo) (.claimRewardBySeed XS),
  .call (y 1023 al) (.withdrawReward R' (some 50))]

theorem mixed_rewarded (t : AccountId) : (mixed.map (Event.rewarded t)).sum = 0 := rfl

/-- The hypotheses hold for the demo, and events of both sides succeed. -/
example : (∀ e ∈ mixed, e.within sideP sideQ true = true ∨ e.within sideP sideQ false = true) ∧
    (mixed.filter (Event.within sideP sideQ true)).length = 2 ∧
    c1.farmerCount + mixed.length < 2 ^ 64 ∧ (∀ p ∈ c1.rewardInfo.entries, p.2 < 2 ^ 128) ∧
    (c1.run mixed).stakeOf bo XS = 600 ∧ c1.stakeOf bo XS = 500 ∧
    (c1.run mixed).rewardOf al R' = 100 ∧ c1.rewardOf al R' = 0 ∧
    (c1.run (mixed.filter (Event.within sideP sideQ true))).rewardOf al R' = 100 := by
  decide +kernel

/-- Farmers of the same seed do influence each other: what `al` can claim depends on `bo`'s stake. -/
example : (Event.call (at' 1011 S) (.ftOnTransfer bo 10 [])).within sideP sideQ true = false ∧
    (Event.call (at' 1011 S) (.ftOnTransfer bo 10 [])).within sideP sideQ false = false ∧
    c1.getUnclaimedReward (1020 * 10 ^ 9) al F = .ok 150 ∧
    (c1.step (.call (at' 1011 S) (.ftOnTransfer bo 10 []))).getUnclaimedReward (1020 * 10 ^ 9) al F =
      .ok 135 := by decide +kernel

end Contract

end Verif.Farming

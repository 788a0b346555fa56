import Verif.Boost.Calls

/-
What the internal functions of the boost farming contract do when they succeed.
-/

namespace Verif

namespace FMap

variable {K V : Type} [DecidableEq K]

theorem put_comm (l : List (K × V)) {k x : K} (v w : V) (h : x ≠ k) (hk : k ∈ l.map Prod.fst)
    (hx : x ∈ l.map Prod.fst) : put (put l k v) x w = put (put l x w) k v := by
  induction l with
  | nil => cases hk
  | cons p l ih =>
    obtain ⟨k', v'⟩ := p
    simp only [List.map_cons, List.mem_cons] at hk hx
    simp only [put]
    by_cases h1 : k' = k
    · subst h1
      have h2 : ¬ k' = x := fun h' => h h'.symm
      simp [put, h2]
    · by_cases h2 : k' = x
      · subst h2
        simp [put, h1]
      · have hk' := hk.resolve_left (Ne.symm h1)
        have hx' := hx.resolve_left (Ne.symm h2)
        simp [put, h1, h2, ih hk' hx']

theorem mem_keys_of_get? {m : FMap K V} {k : K} {v : V} (h : m.get? k = some v) :
    k ∈ m.entries.map Prod.fst :=
  List.mem_map.2 ⟨(k, v), (m.mem_entries_iff).2 h, rfl⟩

theorem insert_comm (m : FMap K V) {k x : K} {a b : V} (v w : V) (h : x ≠ k)
    (hk : m.get? k = some a) (hx : m.get? x = some b) :
    (m.insert k v).insert x w = (m.insert x w).insert k v := by
  simp only [insert, put_comm m.entries v w h (mem_keys_of_get? hk) (mem_keys_of_get? hx)]

end FMap

namespace Boost

/-! ### Powers -/

/-- The power of a stake: what is free, what locked tokens count for, and the extras of the
boosters. -/
def FarmerSeed.pow (fl : Floats) (v : FarmerSeed) : Nat :=
  v.free + v.xLocked + v.ratios.sum fun _ r => fl.extra (v.free + v.xLocked) r

theorem FarmerSeed.power_ok {fl : Floats} {v : FarmerSeed} {p : Nat} (h : v.power fl = .ok p) :
    p = v.pow fl := by
  unfold power basic at h
  unpack at h
  exact h.2.2

theorem FarmerSeed.pow_zero {fl : Floats} {v : FarmerSeed} (h : v.free + v.xLocked = 0) :
    v.pow fl = 0 := by
  unfold pow
  rw [h, v.ratios.sum_congr _ (fun _ _ => 0) (fun k w _ => fl.zero w)]
  have := v.ratios.sum_mul (fun _ _ => 0) 0
  simp only [Nat.mul_zero] at this
  omega

theorem u128Ratio_ok {a n d r : Nat} (h : u128Ratio a n d = .ok r) :
    0 < d ∧ r = a * n / d ∧ r < 2 ^ 128 := by
  unfold u128Ratio at h
  unpack at h
  obtain ⟨h1, h2, rfl⟩ := h
  exact ⟨by omega, rfl, h2⟩

/-- The two stakes are the same but for boosts and the rates of the last claim. -/
def FarmerSeed.SameStake (v w : FarmerSeed) : Prop :=
  w.free = v.free ∧ w.locked = v.locked ∧ w.xLocked = v.xLocked ∧ w.unlockAt = v.unlockAt ∧
  w.duration = v.duration

theorem FarmerSeed.addFree_ok {fl : Floats} {v w : FarmerSeed} {n d : Nat}
    (h : v.addFree fl n = .ok (w, d)) :
    w = { v with free := v.free + n } ∧ v.pow fl + d = w.pow fl := by
  unfold addFree at h
  unpack at h
  obtain ⟨prev, hp, _, p, hq, hle, rfl, rfl⟩ := h
  have h1 := power_ok hp
  have h2 := power_ok hq
  exact ⟨rfl, by omega⟩

theorem FarmerSeed.xAmount_ok {cfg : Config} {n d x : Nat} (h : xAmount cfg n d = .ok x) :
    x = n + n * ((cfg.maxMultiplier - 10000) * toNano d) / (toNano cfg.maxDuration * 10000) ∧
    10000 ≤ cfg.maxMultiplier := by
  unfold xAmount at h
  unpack at h
  obtain ⟨hm, e, he, _, rfl⟩ := h
  exact ⟨by rw [(u128Ratio_ok he).2.1], hm⟩

/-- What locking `n` more does to a stake. -/
structure FarmerSeed.Locks (cfg : Config) (now n duration : Nat) (v w : FarmerSeed) : Prop where
  free : w.free = v.free
  locked : w.locked = v.locked + n
  unlockAt : w.unlockAt = now + toNano duration
  duration : w.duration = duration
  ratios : w.ratios = v.ratios
  rps : w.userRps = v.userRps
  later : now < v.unlockAt → v.unlockAt ≤ w.unlockAt
  x : w.locked ≤ w.xLocked
  kept : now < v.unlockAt → v.xLocked + n ≤ w.xLocked

theorem FarmerSeed.lock_ok {cfg : Config} {now n d : Nat} {v w : FarmerSeed}
    (h : v.lock cfg now n d = .ok w) : Locks cfg now n d v w := by
  unfold lock at h
  unpack at h
  obtain ⟨_, h⟩ := h
  split at h
  · unpack at h
    obtain ⟨hle, r, hr, e, he, _, _, rfl⟩ := h
    have h1 := (xAmount_ok hr).1
    have h2 := (xAmount_ok he).1
    refine ⟨rfl, rfl, rfl, rfl, rfl, rfl, fun _ => hle, ?_, fun _ => ?_⟩
    · show v.locked + n ≤ max v.xLocked r + e
      generalize v.locked * _ / _ = q1 at h1
      generalize n * _ / _ = q2 at h2
      omega
    · show v.xLocked + n ≤ max v.xLocked r + e
      generalize n * _ / _ = q2 at h2
      omega
  · rename_i hc
    unpack at h
    obtain ⟨_, x, hx, _, rfl⟩ := h
    have h1 := (xAmount_ok hx).1
    refine ⟨rfl, rfl, rfl, rfl, rfl, rfl, fun h => absurd ⟨by omega, h⟩ hc, ?_,
      fun h => absurd ⟨by omega, h⟩ hc⟩
    show v.locked + n ≤ x
    generalize (v.locked + n) * _ / _ = q1 at h1
    omega

theorem FarmerSeed.addLock_ok {fl : Floats} {cfg : Config} {now n d e : Nat} {v w : FarmerSeed}
    (h : v.addLock fl cfg now n d = .ok (w, e)) :
    Locks cfg now n d v w ∧ v.pow fl + e = w.pow fl := by
  unfold addLock at h
  unpack at h
  obtain ⟨prev, hp, w', hw, p, hq, hle, rfl, rfl⟩ := h
  have h1 := power_ok hp
  have h2 := power_ok hq
  exact ⟨lock_ok hw, by omega⟩

theorem FarmerSeed.freeToLock_ok {fl : Floats} {cfg : Config} {now n d e : Nat} {v w : FarmerSeed}
    (h : v.freeToLock fl cfg now n d = .ok (w, e)) :
    n ≤ v.free ∧ d ≤ cfg.maxDuration ∧ Locks cfg now n d { v with free := v.free - n } w ∧
    v.pow fl + e = w.pow fl := by
  unfold freeToLock at h
  unpack at h
  obtain ⟨hn, prev, hp, hd, w', hw, p, hq, hle, rfl, rfl⟩ := h
  have h1 := power_ok hp
  have h2 := power_ok hq
  exact ⟨hn, hd, lock_ok hw, by omega⟩

/-- What a forced unlock of `n` does to a stake. -/
structure FarmerSeed.Unlocks (now n rate slashed : Nat) (v w : FarmerSeed) : Prop where
  running : now < v.unlockAt
  pos : 0 < n
  le : n ≤ v.locked
  slash : slashed = n * rate / 10000 * (v.unlockAt - now) / toNano v.duration
  slash_le : slashed ≤ n
  free : w.free + slashed = v.free + n
  locked : w.locked + n = v.locked
  all : n = v.locked → w.xLocked = 0 ∧ w.unlockAt = 0 ∧ w.duration = 0
  part : n < v.locked → w.unlockAt = v.unlockAt ∧ w.duration = v.duration ∧
    w.xLocked = v.xLocked * (v.locked - n) / v.locked
  ratios : w.ratios = v.ratios
  rps : w.userRps = v.userRps

theorem FarmerSeed.unlockSlashed_ok {fl : Floats} {now n rate d slashed : Nat} {v w : FarmerSeed}
    (h : v.unlockSlashed fl now n rate = .ok (w, d, slashed)) :
    Unlocks now n rate slashed v w ∧ w.pow fl + d = v.pow fl := by
  unfold unlockSlashed at h
  unpack at h
  obtain ⟨prev, hp, hrun, hle, hpos, full, hfull, sl, hsl, h⟩ := h
  have h1 := power_ok hp
  have h3 := (u128Ratio_ok hfull).2.1
  have h4 := (u128Ratio_ok hsl).2.1
  subst h3
  split at h
  · rename_i hc
    unpack at h
    obtain ⟨x, hx, hlt, hsub, _, hsub2, p, hq, hd, rfl, rfl, rfl⟩ := h
    have h2 := power_ok hq
    refine ⟨⟨hrun, by omega, hle, h4, hsub, ?_, ?_, fun h => absurd h (by omega),
      fun _ => ⟨rfl, rfl, (u128Ratio_ok hx).2.1⟩, rfl, rfl⟩, by omega⟩
    · show v.free + (n - sl) + sl = _; omega
    · show v.locked - n + n = _; omega
  · rename_i hc
    unpack at h
    obtain ⟨hsub, _, hsub2, p, hq, hd, rfl, rfl, rfl⟩ := h
    have h2 := power_ok hq
    refine ⟨⟨hrun, by omega, hle, h4, hsub, ?_, ?_, fun _ => ⟨rfl, rfl, rfl⟩,
      fun h => absurd h hc, rfl, rfl⟩, by omega⟩
    · show v.free + (n - sl) + sl = _; omega
    · show v.locked - n + n = _; omega

/-! ### Farms -/

/-- What an update does to a farm: it releases `r`, which goes to those with power or, if there are
none, to the beneficiary. -/
structure SeedFarm.Updates (now power : Nat) (f g : SeedFarm) : Prop where
  token : g.token = f.token
  startAt : g.startAt = f.startAt
  daily : g.daily = f.daily
  total : g.total = f.total
  claimed : g.claimed = f.claimed
  released : ∃ r, g.distributed = f.distributed + r ∧
    r ≤ f.total - f.distributed ∧ (f.total = 0 → r = 0) ∧
    g.rps = f.rps + (if power > 0 then r * D27 / power else 0) ∧
    g.beneficiary = f.beneficiary + (if power > 0 then 0 else r)

theorem SeedFarm.update_ok {now power : Nat} {f g : SeedFarm} (h : f.update now power = .ok g) :
    f.Updates now power g := by
  have same : f.Updates now power f := by
    refine ⟨rfl, rfl, rfl, rfl, rfl, 0, rfl, by omega, fun _ => rfl, ?_, ?_⟩ <;> split <;> simp
  unfold update at h
  split at h
  · cases h; exact same
  · split at h
    · cases h
      exact ⟨rfl, rfl, rfl, rfl, rfl, same.released⟩
    · unpack at h
      obtain ⟨r, hr, _, h⟩ := h
      have hle : r ≤ f.total - f.distributed := by
        unfold release at hr
        unpack at hr
        obtain ⟨_, q, _, hq⟩ := hr
        omega
      split at h
      · rename_i hp
        unpack at h
        obtain ⟨_, rfl⟩ := h
        exact ⟨rfl, rfl, rfl, rfl, rfl, r, rfl, hle, fun h0 => by omega, by rw [if_pos hp],
          by rw [if_pos hp]; rfl⟩
      · rename_i hp
        unpack at h
        obtain ⟨_, rfl⟩ := h
        exact ⟨rfl, rfl, rfl, rfl, rfl, r, rfl, hle, fun h0 => by omega,
          by rw [if_neg hp]; rfl, by rw [if_neg hp]⟩
    · cases h; exact same

theorem updateFarms_ok {now power : Nat} : ∀ {l : List (FarmId × SeedFarm)}
    {m m' : FMap FarmId SeedFarm}, (l.map Prod.fst).Nodup →
    (∀ p ∈ l, m.get? p.1 = some p.2) → updateFarms now power l m = .ok m' →
    (∀ id, id ∉ l.map Prod.fst → m'.get? id = m.get? id) ∧
    (∀ p ∈ l, ∃ g, p.2.update now power = .ok g ∧ m'.get? p.1 = some g) ∧
    (∀ F : FarmId → SeedFarm → Nat, (∀ id f g, f.Updates now power g → F id g = F id f) →
      m'.sum F = m.sum F) := by
  intro l
  induction l with
  | nil =>
    intro m m' _ _ h
    cases h
    exact ⟨fun _ _ => rfl, ⟨fun p hp => (List.not_mem_nil hp).elim, fun _ _ => rfl⟩⟩
  | cons p l ih =>
    intro m m' hn hm h
    obtain ⟨id, f⟩ := p
    unfold updateFarms at h
    unpack at h
    obtain ⟨g, hg, h⟩ := h
    simp only [List.map_cons, List.nodup_cons] at hn
    have hf : m.get? id = some f := hm (id, f) (by simp)
    obtain ⟨h1, h2, h3⟩ := ih hn.2 (fun q hq => by
      have hne : q.1 ≠ id := by
        rintro rfl
        exact hn.1 (List.mem_map.2 ⟨q, hq, rfl⟩)
      rw [FMap.get?_insert_ne _ _ hne]
      exact hm q (by simp [hq])) h
    refine ⟨?_, ?_, ?_⟩
    · intro i hi
      simp only [List.map_cons, List.mem_cons, not_or] at hi
      rw [h1 i hi.2, FMap.get?_insert_ne _ _ hi.1]
    · intro q hq
      rcases List.mem_cons.1 hq with rfl | hq
      · exact ⟨g, hg, by rw [h1 id hn.1, FMap.get?_insert_self]⟩
      · exact h2 q hq
    · intro F hF
      rw [h3 F hF, m.sum_insert_same F id f g hf (hF id f g (SeedFarm.update_ok hg))]

/-- What an update does to a seed. -/
structure Seed.Updates (now : Nat) (sd sd' : Seed) : Prop where
  eq : ∃ farms, sd' = { sd with farms }
  gone : ∀ id, sd.farms.get? id = none → sd'.farms.get? id = none
  kept : ∀ id f, sd.farms.get? id = some f → ∃ g, sd'.farms.get? id = some g ∧
    f.Updates now sd.power g
  inv : ∀ id g, sd'.farms.get? id = some g → ∃ f, sd.farms.get? id = some f ∧
    f.update now sd.power = .ok g
  sum : ∀ F : FarmId → SeedFarm → Nat, (∀ id f g, f.Updates now sd.power g → F id g = F id f) →
    sd'.farms.sum F = sd.farms.sum F

theorem Seed.update_ok {now : Nat} {sd sd' : Seed} (h : sd.update now = .ok sd') :
    sd.Updates now sd' := by
  unfold update at h
  unpack at h
  obtain ⟨farms, h, rfl⟩ := h
  obtain ⟨h1, h2, h3⟩ := updateFarms_ok sd.farms.nodup
    (fun p hp => (sd.farms.mem_entries_iff).1 hp) h
  have hno : ∀ id, sd.farms.get? id = Option.none → farms.get? id = Option.none := by
    intro id hid
    rw [h1 id, hid]
    intro hmem
    obtain ⟨p, hp, rfl⟩ := List.mem_map.1 hmem
    rw [(sd.farms.mem_entries_iff).1 hp] at hid
    cases hid
  refine ⟨⟨farms, rfl⟩, hno, ?_, ?_, h3⟩
  · intro id f hf
    obtain ⟨g, hg, hg'⟩ := h2 (id, f) ((sd.farms.mem_entries_iff).2 hf)
    exact ⟨g, hg', SeedFarm.update_ok hg⟩
  · intro id g hg
    cases hf : sd.farms.get? id with
    | none => rw [show farms.get? id = Option.none from hno id hf] at hg; cases hg
    | some f =>
      obtain ⟨g', hg', hg''⟩ := h2 (id, f) ((sd.farms.mem_entries_iff).2 hf)
      rw [show farms.get? id = Option.some g from hg] at hg''
      cases hg''
      exact ⟨f, rfl, hg'⟩

theorem Contract.seed_ok {c : Contract} {now : Nat} {s : SeedId} {sd : Seed}
    (h : c.seed now s = .ok sd) : ∃ old, c.seeds.get? s = some old ∧ old.Updates now sd := by
  unfold seed at h
  unpack at h
  obtain ⟨old, ho, h⟩ := h
  exact ⟨old, ho, Seed.update_ok h⟩

end Boost

end Verif

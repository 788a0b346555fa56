import Verif.Boost.FrontProps

/-
C107: a farmer of the boost farming contract can always claim, as long as the numbers stay within
their ranges; and what happens to a seed when a daily reward is too large.
-/

namespace Verif.Boost

namespace Contract

open Demo

variable {fl : Floats} {c c' : Contract}

/-! ### Rates are bounded by what has been released -/

/-- The rate of every farm is at most what the farm has released, with 27 digits. -/
def Rates (c : Contract) : Prop := ∀ s sd id f, c.seeds.get? s = some sd →
  sd.farms.get? id = some f → f.rps ≤ D27 * f.distributed

theorem updates_rate {now power : Nat} {f g : SeedFarm} (hu : f.Updates now power g)
    (h : f.rps ≤ D27 * f.distributed) : g.rps ≤ D27 * g.distributed := by
  obtain ⟨r, hd, _, _, hrps, _⟩ := hu.released
  rw [hd, hrps, Nat.mul_add]
  have : (if power > 0 then r * D27 / power else 0) ≤ D27 * r := by
    split
    · rw [Nat.mul_comm D27]
      exact Nat.div_le_self _ _
    · exact Nat.zero_le _
  omega

theorem Rates.step (hI : Inv fl c) (h : c.Rates) (e : Event) : (c.step fl e).Rates := by
  unfold Contract.step
  split
  · rename_i c' o he
    have hk := exec_kept hI he
    intro s sd' id f' hs hf
    cases h0 : c.seeds.get? s with
    | none =>
      rw [hk.fresh s h0 sd' hs] at hf
      cases hf
    | some sd =>
      obtain ⟨sd1, h1, hk1⟩ := hk.seed s sd h0
      rw [hs] at h1
      cases h1
      rcases hk1 with rfl | ⟨up, hup, hfs⟩
      · exact h s _ id f' h0 hf
      · rcases hfs id f' hf with ⟨_, _, _, _, hz⟩ | ⟨g, hg, hgk⟩
        · rw [hz]; exact Nat.zero_le _
        · obtain ⟨f, hf0, hfu⟩ := hup.inv id g hg
          have := updates_rate (SeedFarm.update_ok hfu) (h s sd id f h0 hf0)
          rw [hgk.rps, hgk.distributed]
          exact this
  · exact h

theorem Rates.run : ∀ (es : List Event) {c : Contract}, Inv fl c → c.Rates → (c.run fl es).Rates
  | [], _, _, h => h
  | e :: es, _, hI, h => Rates.run es (hI.step e) (h.step hI e)

theorem Reachable.rates (h : c.Reachable fl) : c.Rates := by
  obtain ⟨owner, es, rfl⟩ := h
  refine Rates.run es (Inv.init fl owner) ?_
  intro s sd id f hs
  cases hs

/-! ### Updating a seed succeeds -/

theorem u128Ratio_goes {a n d : Nat} (hd : d ≠ 0) (h : a * n / d < 2 ^ 128) :
    u128Ratio a n d = .ok (a * n / d) := by
  unfold u128Ratio
  rw [divW_ok.2 ⟨hd, rfl⟩]
  exact fit_ok.2 ⟨h, rfl⟩

theorem release_goes {now : Nat} {f : SeedFarm} (hle : f.distributed ≤ f.total)
    (hd : f.daily * (now - f.distributedAt) / (24 * 60 * 60 * 10 ^ 9) < 2 ^ 128) :
    ∃ r, f.release now = .ok r ∧ f.distributed + r ≤ f.total := by
  unfold SeedFarm.release
  rw [subW_ok.2 ⟨hle, rfl⟩, u128Ratio_goes (by decide) hd]
  exact ⟨_, rfl, by omega⟩

theorem D27_mul_lt {w : Nat} (hw : 384 ≤ w) : D27 * 2 ^ 128 * 2 ^ 128 < 2 ^ w := by
  have h : D27 < 2 ^ 128 := by decide
  calc D27 * 2 ^ 128 * 2 ^ 128 < 2 ^ 128 * 2 ^ 128 * 2 ^ 128 :=
        Nat.mul_lt_mul_of_pos_right (Nat.mul_lt_mul_of_pos_right h (Nat.pow_pos (by decide)))
          (Nat.pow_pos (by decide))
    _ = 2 ^ (128 + 128 + 128) := by rw [Nat.pow_add 2 (128 + 128), Nat.pow_add 2 128 128]
    _ ≤ 2 ^ w := Nat.pow_le_pow_right (by decide) hw

theorem rate_goes {w rps d r power : Nat} (hw : 384 ≤ w) (hr : rps ≤ D27 * d) (h : d + r < 2 ^ 128) :
    addW w rps (r * D27 / power) = .ok (rps + r * D27 / power) := by
  have h3 : r * D27 / power ≤ D27 * r := by
    rw [Nat.mul_comm D27]
    exact Nat.div_le_self _ _
  have h4 : D27 * (d + r) ≤ D27 * 2 ^ 128 := Nat.mul_le_mul_left _ (by omega)
  have h5 : D27 * 2 ^ 128 < 2 ^ w :=
    Nat.lt_of_le_of_lt (Nat.le_mul_of_pos_right _ (Nat.pow_pos (by decide))) (D27_mul_lt hw)
  rw [Nat.mul_add] at h4
  refine addW_ok.2 ⟨?_, rfl⟩
  generalize D27 * 2 ^ 128 = A at h4 h5
  omega

theorem bind_ok {α β : Type} {x : R α} {a : α} {f : α → R β} (h : x = .ok a) : (x >>= f) = f a := by
  rw [h]
  rfl

theorem update_goes {now power : Nat} {f : SeedFarm} (hle : f.distributed ≤ f.total)
    (ht : f.total < 2 ^ 128) (hb : f.beneficiary ≤ f.distributed) (hr : f.rps ≤ D27 * f.distributed)
    (hd : f.daily * (now - f.distributedAt) / (24 * 60 * 60 * 10 ^ 9) < 2 ^ 128) :
    ∃ g, f.update now power = .ok g := by
  obtain ⟨r, h1, h2⟩ := release_goes hle hd
  clear hd
  have h3 : addW 128 f.distributed r = .ok (f.distributed + r) := addW_ok.2 ⟨by omega, rfl⟩
  have h4 : addW 384 f.rps (r * D27 / power) = .ok (f.rps + r * D27 / power) :=
    rate_goes (Nat.le_refl 384) hr (by omega)
  have h5 : addW 128 f.beneficiary r = .ok (f.beneficiary + r) := addW_ok.2 ⟨by omega, rfl⟩
  unfold SeedFarm.update
  split
  · exact ⟨f, rfl⟩
  · split
    · exact ⟨_, rfl⟩
    · rw [bind_ok h1, bind_ok h3]
      split
      · rw [bind_ok h4]
        exact ⟨_, rfl⟩
      · rw [bind_ok h5]
        exact ⟨_, rfl⟩
    · exact ⟨_, rfl⟩

theorem updateFarms_goes {now power : Nat} : ∀ (l : List (FarmId × SeedFarm))
    (m : FMap FarmId SeedFarm), (∀ p ∈ l, ∃ g, p.2.update now power = .ok g) →
    ∃ m', updateFarms now power l m = .ok m'
  | [], m, _ => ⟨m, rfl⟩
  | (id, f) :: l, m, h => by
    obtain ⟨g, hg⟩ := h (id, f) (by simp)
    obtain ⟨m', hm⟩ := updateFarms_goes l (m.insert id g) fun p hp => h p (by simp [hp])
    refine ⟨m', ?_⟩
    unfold updateFarms
    simp only at hg
    rw [hg]
    exact hm

/-! ### Claiming succeeds -/

theorem pow_goes {v : FarmerSeed} (h : v.pow fl < 2 ^ 128) : v.power fl = .ok (v.pow fl) := by
  unfold FarmerSeed.pow at h
  unfold FarmerSeed.power FarmerSeed.basic FarmerSeed.pow
  rw [addW_ok.2 ⟨show v.free + v.xLocked < 2 ^ 128 by omega, rfl⟩]
  exact addW_ok.2 ⟨h, rfl⟩

theorem ratiosLoop_goes {s : SeedId} {u : Farmer} (hb : ∀ k, ∃ n, u.basicOf k = .ok n) :
    ∀ (l : List (SeedId × Booster)) (m : FMap SeedId Ratio), (∀ p ∈ l, p.2.decimals ≤ 38) →
    ∃ r, ratiosLoop s u l m = .ok r
  | [], m, _ => ⟨m, rfl⟩
  | (k, b) :: l, m, h => by
    have ih := fun m => ratiosLoop_goes (s := s) hb l m fun p hp => h p (by simp [hp])
    unfold ratiosLoop
    split
    · split
      · obtain ⟨n, hn⟩ := hb k
        rw [hn]
        simp only [bind, Except.bind]
        split
        · have hd : b.decimals ≤ 38 := h (k, b) (by simp)
          have h1 : 10 ^ b.decimals ≤ 10 ^ 38 := Nat.pow_le_pow_right (by decide) hd
          have h2 : 10 ^ 38 < 2 ^ 128 := by decide
          rw [fit_ok.2 ⟨Nat.lt_of_le_of_lt h1 h2, rfl⟩]
          exact ih _
        · exact ih _
      · exact ih _
    · exact ih _

theorem ratiosLoop_seeds {s : SeedId} {u u' : Farmer} (h : u'.seeds = u.seeds) :
    ∀ (l : List (SeedId × Booster)) (m : FMap SeedId Ratio),
    ratiosLoop s u' l m = ratiosLoop s u l m
  | [], _ => rfl
  | (k, b) :: l, m => by
    have hb : u'.basicOf k = u.basicOf k := by unfold Farmer.basicOf; rw [h]
    unfold ratiosLoop
    simp only [hb, ratiosLoop_seeds h l]

theorem claimLoop_goes {v : FarmerSeed} {power : Nat} : ∀ (l : List (FarmId × SeedFarm)) (k : Claim),
    (∀ p ∈ l, v.userRps.getD p.1 0 ≤ p.2.rps ∧ p.2.rps * power < 2 ^ 384) →
    (∀ t, k.rewards.getD t 0 +
      (l.map fun p => if p.2.token = t then v.earned power p.1 p.2 else 0).sum < 2 ^ 128) →
    ∃ k', claimLoop v power l k = .ok k' ∧ ∀ t, k'.rewards.getD t 0 = k.rewards.getD t 0 +
      (l.map fun p => if p.2.token = t then v.earned power p.1 p.2 else 0).sum
  | [], k, _, _ => ⟨k, rfl, fun _ => by simp⟩
  | (id, f) :: l, k, h, hs => by
    obtain ⟨h1, h2⟩ := h (id, f) (by simp)
    simp only at h1 h2
    have h3 : (f.rps - v.userRps.getD id 0) * power < 2 ^ 384 :=
      Nat.lt_of_le_of_lt (Nat.mul_le_mul_right _ (Nat.sub_le _ _)) h2
    have h4 := hs f.token
    simp only [List.map_cons, List.sum_cons, if_true] at h4
    have h5 : (f.rps - v.userRps.getD id 0) * power / D27 = v.earned power id f := rfl
    have key : ∀ k1 : Claim, (∀ t, k1.rewards.getD t 0 = k.rewards.getD t 0 +
        if f.token = t then v.earned power id f else 0) →
        ∃ k', claimLoop v power l k1 = .ok k' ∧ ∀ t, k'.rewards.getD t 0 = k.rewards.getD t 0 +
          (((id, f) :: l).map fun p => if p.2.token = t then v.earned power p.1 p.2 else 0).sum := by
      intro k1 hk1
      obtain ⟨k', hk', hr⟩ := claimLoop_goes l k1 (fun p hp => h p (by simp [hp])) (by
        intro t
        have := hs t
        simp only [List.map_cons, List.sum_cons] at this
        rw [hk1 t]
        omega)
      refine ⟨k', hk', fun t => ?_⟩
      rw [hr t, hk1 t]
      simp only [List.map_cons, List.sum_cons]
      omega
    unfold claimLoop
    simp only [subW_ok.2 ⟨h1, rfl⟩, mulW_ok.2 ⟨h3, rfl⟩, bind, Except.bind]
    rw [h5, fit_ok.2 ⟨show v.earned power id f < 2 ^ 128 by omega, rfl⟩]
    simp only
    split
    · rw [addW_ok.2 ⟨show v.earned power id f + k.rewards.getD f.token 0 < 2 ^ 128 by omega, rfl⟩]
      simp only
      have hk : ∀ t, (k.rewards.insert f.token (v.earned power id f + k.rewards.getD f.token 0)).getD
          t 0 = k.rewards.getD t 0 + if f.token = t then v.earned power id f else 0 := by
        intro t
        rw [FMap.getD_insert]
        by_cases ht : t = f.token
        · subst ht; simp; omega
        · rw [if_neg ht, if_neg (Ne.symm ht)]; rfl
      split
      · exact key _ hk
      · exact key _ hk
    · rename_i hz
      have hz : v.earned power id f = 0 := by omega
      split
      · exact key _ fun t => by rw [hz]; split <;> rfl
      · exact key _ fun t => by rw [hz]; split <;> rfl

theorem addRewards_goes : ∀ (l : List (AccountId × Nat)) (m : FMap AccountId Nat),
    (l.map Prod.fst).Nodup → (∀ p ∈ l, p.2 + m.getD p.1 0 < 2 ^ 128) →
    ∃ m', addRewards l m = .ok m'
  | [], m, _, _ => ⟨m, rfl⟩
  | (t, n) :: l, m, hn, h => by
    simp only [List.map_cons, List.nodup_cons] at hn
    have h1 : n + m.getD t 0 < 2 ^ 128 := h (t, n) (by simp)
    obtain ⟨m', hm⟩ := addRewards_goes l (m.insert t (n + m.getD t 0)) hn.2 (by
      intro p hp
      rw [FMap.getD_insert, if_neg]
      · exact h p (by simp [hp])
      · rintro rfl
        exact hn.1 (List.mem_map.2 ⟨p, hp, rfl⟩))
    refine ⟨m', ?_⟩
    unfold addRewards
    rw [addW_ok.2 ⟨h1, rfl⟩]
    exact hm

theorem updateClaimed_goes : ∀ (l : List (FarmId × Nat)) (m : FMap FarmId SeedFarm),
    (l.map Prod.fst).Nodup →
    (∀ p ∈ l, ∃ f, m.get? p.1 = some f ∧ f.claimed + p.2 < 2 ^ 128) →
    ∃ m', updateClaimed l m = .ok m'
  | [], m, _, _ => ⟨m, rfl⟩
  | (id, n) :: l, m, hn, h => by
    simp only [List.map_cons, List.nodup_cons] at hn
    obtain ⟨f, hf, hc⟩ := h (id, n) (by simp)
    simp only at hf hc
    obtain ⟨m', hm⟩ := updateClaimed_goes l (m.insert id { f with claimed := f.claimed + n }) hn.2 (by
      intro p hp
      rw [FMap.get?_insert_ne]
      · exact h p (by simp [hp])
      · rintro rfl
        exact hn.1 (List.mem_map.2 ⟨p, hp, rfl⟩))
    refine ⟨m', ?_⟩
    unfold updateClaimed
    rw [hf]
    simp only [expectE, bind, Except.bind, addW_ok.2 ⟨hc, rfl⟩]
    exact hm

/-- The numbers that a claim of `a` for the seed `s` at `now` computes with are within their ranges. -/
structure Sane (fl : Floats) (c : Contract) (now : Nat) (a : AccountId) (s : SeedId) : Prop where
  /-- What a farm would release by now fits 128 bits. -/
  daily : ∀ id f, c.farmOf s id = some f →
    f.daily * (now - f.distributedAt) / (24 * 60 * 60 * 10 ^ 9) < 2 ^ 128
  /-- All rewards deposited in a token fit 128 bits together. -/
  supply : ∀ t, c.totalOf t < 2 ^ 128
  /-- The power of a seed fits 128 bits. -/
  powers : ∀ r, c.powerOf r < 2 ^ 128
  /-- A booster has at most 38 decimals. -/
  decimals : ∀ k b, c.cfg.boosters.get? k = some b → b.decimals ≤ 38
  /-- The power that the stake has with the boosts of now fits beside the power of the seed. -/
  boosted : ∀ u r, c.farmers.get? a = some u → genRatios c.cfg s u = .ok r →
    c.powerOf s + ({ u.stakeIn s with ratios := r }).pow fl < 2 ^ 128

theorem seed_goes (hr : c.Reachable fl) {now : Nat} {a : AccountId} {s : SeedId} {sd : Seed}
    (h : c.Sane fl now a s) (hs : c.seeds.get? s = some sd) : ∃ up, c.seed now s = .ok up := by
  have hI := hr.inv
  obtain ⟨m, hm⟩ := updateFarms_goes (now := now) (power := sd.power) sd.farms.entries sd.farms (by
    rintro ⟨id, f⟩ hp
    have hf := (sd.farms.mem_entries_iff).1 hp
    have b := hI.books s sd id f hs hf
    have h0 : 0 < D27 := by decide
    have ht : f.total ≤ c.totalOf f.token := by
      unfold totalOf
      have h1 := c.seeds.term_le_sum (fun _ sd => sd.farms.sum fun _ => SeedFarm.totalIn f.token) s
      rw [FMap.term_some _ hs] at h1
      have h2 := sd.farms.term_le_sum (fun _ => SeedFarm.totalIn f.token) id
      rw [FMap.term_some _ hf] at h2
      unfold SeedFarm.totalIn at h1 h2 ⊢
      simp only [if_true] at h2
      omega
    have hsup := h.supply f.token
    show ∃ g, f.update now sd.power = .ok g
    refine update_goes b.le (by omega) ?_ (hr.rates s sd id f hs hf)
      (h.daily id f (by rw [farmOf_of hs]; exact hf))
    refine Nat.le_of_mul_le_mul_left (c := D27) ?_ h0
    have := b.owed
    rw [Nat.mul_add] at this
    omega)
  refine ⟨{ sd with farms := m }, ?_⟩
  unfold seed Seed.update
  rw [hs]
  simp only [expectE, bind, Except.bind, hm]

theorem doClaim_goes (hr : c.Reachable fl) {now : Nat} {a : AccountId} {s : SeedId} {sd : Seed}
    {u : Farmer} (h : c.Sane fl now a s) (hu : c.farmers.get? a = some u)
    (hsd : c.seed now s = .ok sd) :
    (∃ v k, calcClaim fl c.cfg u sd = .ok (v, k)) ∧ ∃ r, doClaim fl c.cfg u sd = .ok r := by
  have hI := hr.inv
  have hL := hI.load hsd
  obtain ⟨old, hs, up⟩ := seed_ok hsd
  have hq := up.quiet
  have hs' : (c.setSeed s sd).seeds.get? s = some sd := FMap.get?_insert_self _ _ _
  have hid : sd.id = s := hL.ids s sd hs'
  have hpw : sd.power = c.powers fl s := hL.power s sd hs'
  have hpo : c.powerOf s = sd.power := by
    unfold powerOf
    rw [hs]
    obtain ⟨fs, he⟩ := up.eq
    rw [he]
    rfl
  have hpl : ∀ r, (u.stakeIn r).pow fl ≤ c.powers fl r := by
    intro r
    have h2 := c.farmers.term_le_sum (fun _ u => (u.stakeIn r).pow fl) a
    rw [FMap.term_some _ hu] at h2
    exact h2
  have hps : (u.stakeIn s).pow fl ≤ sd.power := by rw [hpw]; exact hpl s
  have hp128 : sd.power < 2 ^ 128 := by rw [← hpo]; exact h.powers s
  -- the boosts
  have hbasic : ∀ k, ∃ n, u.basicOf k = .ok n := by
    intro k
    unfold Farmer.basicOf
    cases hv : u.seeds.get? k with
    | none => exact ⟨0, rfl⟩
    | some v =>
      cases hk : c.seeds.get? k with
      | none => rw [hI.orphan a u k hu hk] at hv; cases hv
      | some sk =>
        have h1 := hpl k
        rw [Farmer.stakeIn_some hv, ← hI.power k sk hk] at h1
        have h2 := h.powers k
        unfold powerOf at h2
        rw [hk] at h2
        simp only [Option.map_some, Option.getD_some] at h2
        unfold FarmerSeed.pow at h1
        exact ⟨_, addW_ok.2 ⟨by omega, rfl⟩⟩
  obtain ⟨ratios, hrat⟩ := ratiosLoop_goes (s := s) hbasic c.cfg.boosters.entries FMap.empty (by
    rintro ⟨k, b⟩ hp
    exact h.decimals k b ((c.cfg.boosters.mem_entries_iff).1 hp))
  have hgen : genRatios c.cfg s u = .ok ratios := hrat
  -- the stake the claim is computed for
  have hv : ∃ v : FarmerSeed, (u.stakeIn s).SameStake v ∧ v.userRps = (u.stakeIn s).userRps ∧
      v.pow fl = (u.stakeIn s).pow fl ∧ (match u.seeds.get? s with
        | some v => .ok v
        | none => do
          let r ← genRatios c.cfg s u
          .ok ⟨0, 0, 0, 0, 0, r, FMap.empty⟩ : R FarmerSeed) = .ok v := by
    cases hv : u.seeds.get? s with
    | some v =>
      rw [Farmer.stakeIn_some hv]
      exact ⟨v, ⟨rfl, rfl, rfl, rfl, rfl⟩, rfl, rfl, rfl⟩
    | none =>
      rw [Farmer.stakeIn_none hv, hgen]
      refine ⟨⟨0, 0, 0, 0, 0, ratios, FMap.empty⟩, ⟨rfl, rfl, rfl, rfl, rfl⟩, rfl, ?_, rfl⟩
      rw [FarmerSeed.pow_zero rfl, FarmerSeed.pow_zero rfl]
  obtain ⟨v, hsame, hrps, hpow, hv⟩ := hv
  -- what is owed fits
  have hearn : ∀ id f, v.earned ((u.stakeIn s).pow fl) id f = earnedOf fl u s id f := by
    intro id f
    unfold earnedOf FarmerSeed.earned
    rw [hrps]
  have htot : ∀ t, (c.setSeed s sd).totalOf t = c.totalOf t := by
    intro t
    have e1 := sum_setSeed (sd' := sd) hs (fun _ => SeedFarm.totalIn t)
    have e2 := hq.totals t
    unfold totalOf setSeed
    simp only
    omega
  have hone : ∀ t id f, sd.farms.get? id = some f →
      (if f.token = t then earnedOf fl u s id f else 0) ≤
      if f.token = t then f.beneficiary +
        (c.setSeed s sd).farmers.sum (fun _ u => earnedOf fl u s id f) else 0 := by
    intro t id f _
    split
    · have h2 := c.farmers.term_le_sum (fun _ u => earnedOf fl u s id f) a
      rw [FMap.term_some _ hu] at h2
      show _ ≤ f.beneficiary + c.farmers.sum _
      omega
    · exact Nat.le_refl _
  have hsum : ∀ t, u.rewards.getD t 0 +
      (sd.farms.entries.map fun p => if p.2.token = t then v.earned ((u.stakeIn s).pow fl) p.1 p.2
        else 0).sum < 2 ^ 128 := by
    intro t
    have h1 := Inv.owes_le hL t
    rw [htot t] at h1
    have h2 := h.supply t
    have h3 := c.farmers.term_le_sum (fun _ u => u.rewards.getD t 0) a
    rw [FMap.term_some _ hu] at h3
    have h4 := (c.setSeed s sd).seeds.term_le_sum (fun s' sd => sd.farms.sum fun id f =>
      if f.token = t then f.beneficiary +
        (c.setSeed s sd).farmers.sum (fun _ u => earnedOf fl u s' id f) else 0) s
    rw [FMap.term_some _ hs'] at h4
    have h5 : sd.farms.sum (fun id f => if f.token = t then earnedOf fl u s id f else 0) ≤ _ :=
      FMap.sum_le _ _ _ (hone t)
    have h6 : (sd.farms.entries.map fun p => if p.2.token = t then
        v.earned ((u.stakeIn s).pow fl) p.1 p.2 else 0).sum =
        sd.farms.sum (fun id f => if f.token = t then earnedOf fl u s id f else 0) := by
      simp only [hearn]
      rfl
    rw [h6]
    have h8 := Nat.le_trans h4 (Nat.le_add_right _
      ((c.setSeed s sd).outdated.sum fun _ f => if f.token = t then f.beneficiary else 0))
    change _ ≤ (c.setSeed s sd).owes fl t at h8
    unfold credited at h1
    have h7 : (c.setSeed s sd).farmers.sum (fun _ u => u.rewards.getD t 0) =
      c.farmers.sum (fun _ u => u.rewards.getD t 0) := rfl
    omega
  have hrates : ∀ p ∈ sd.farms.entries, v.userRps.getD p.1 0 ≤ p.2.rps ∧
      p.2.rps * (u.stakeIn s).pow fl < 2 ^ 384 := by
    rintro ⟨id, f⟩ hp
    have hf := (sd.farms.mem_entries_iff).1 hp
    refine ⟨by rw [hrps]; exact hL.rate (a := a) hu hs' hf, ?_⟩
    obtain ⟨f0, hf0, hfu⟩ := up.inv id f hf
    have hr1 := updates_rate (SeedFarm.update_ok hfu) (hr.rates s old id f0 hs hf0)
    have b := hL.books s sd id f hs' hf
    have ht : f.total ≤ (c.setSeed s sd).totalOf f.token := by
      unfold totalOf
      have h1 := (c.setSeed s sd).seeds.term_le_sum
        (fun _ sd => sd.farms.sum fun _ => SeedFarm.totalIn f.token) s
      rw [FMap.term_some _ hs'] at h1
      have h2 := sd.farms.term_le_sum (fun _ => SeedFarm.totalIn f.token) id
      rw [FMap.term_some _ hf] at h2
      unfold SeedFarm.totalIn at h1 h2 ⊢
      simp only [if_true] at h2
      omega
    rw [htot] at ht
    have hsup := h.supply f.token
    have hd : f.distributed ≤ 2 ^ 128 := by have := b.le; omega
    calc f.rps * (u.stakeIn s).pow fl ≤ D27 * 2 ^ 128 * 2 ^ 128 :=
          Nat.mul_le_mul (Nat.le_trans hr1 (Nat.mul_le_mul_left _ hd)) (by omega)
      _ < 2 ^ 384 := D27_mul_lt (Nat.le_refl 384)
  obtain ⟨k, hk, hkr⟩ := claimLoop_goes (v := v) sd.farms.entries ⟨FMap.empty, FMap.empty, FMap.empty⟩
    hrates (by
      intro t
      have := hsum t
      show 0 + _ < _
      omega)
  have hkr : ∀ t, k.rewards.getD t 0 = (sd.farms.entries.map fun p => if p.2.token = t then
      v.earned ((u.stakeIn s).pow fl) p.1 p.2 else 0).sum := by
    intro t
    rw [hkr t]
    show 0 + _ = _
    rw [Nat.zero_add]
  have hcalc : calcClaim fl c.cfg u sd = .ok ({ v with userRps := k.rps }, k) := by
    have hvp := pow_goes (fl := fl) (v := v) (by rw [hpow]; omega)
    rw [hpow] at hvp
    unfold calcClaim
    rw [hid]
    cases h0 : u.seeds.get? s with
    | some w =>
      rw [h0] at hv
      cases hv
      simp only [hvp, hk, bind, Except.bind]
    | none =>
      rw [h0, hgen] at hv
      cases hv
      simp only [hgen, hvp, hk, bind, Except.bind]
  refine ⟨⟨_, _, hcalc⟩, ?_⟩
  -- crediting and the new power
  obtain ⟨rw', hrw⟩ := addRewards_goes k.rewards.entries u.rewards k.rewards.nodup (by
    rintro ⟨t, n⟩ hp
    have hn : k.rewards.getD t 0 = n := by
      unfold FMap.getD
      rw [(k.rewards.mem_entries_iff).1 hp]
      rfl
    have h1 := hsum t
    rw [← hkr t, hn] at h1
    show n + u.rewards.getD t 0 < _
    omega)
  have hprev : FarmerSeed.power fl { v with userRps := k.rps } = .ok ((u.stakeIn s).pow fl) := by
    rw [← hpow]
    exact pow_goes (fl := fl) (v := { v with userRps := k.rps })
      (by show v.pow fl < _; rw [hpow]; omega)
  have hgen' : genRatios c.cfg s { u with rewards := rw' } = .ok ratios := by
    rw [← hgen]
    exact ratiosLoop_seeds (u := u) (u' := { u with rewards := rw' }) rfl _ _
  have hbo := h.boosted u ratios hu hgen
  rw [hpo] at hbo
  have hnew : ({ v with userRps := k.rps, ratios := ratios } : FarmerSeed).pow fl =
      ({ u.stakeIn s with ratios := ratios }).pow fl := by
    unfold FarmerSeed.pow
    simp only [hsame.1, hsame.2.2.1]
  have hp : FarmerSeed.power fl { v with userRps := k.rps, ratios := ratios } =
      .ok (({ u.stakeIn s with ratios := ratios }).pow fl) := by
    rw [← hnew]
    exact pow_goes (by rw [hnew]; omega)
  -- the books of the farms
  obtain ⟨q1, q2, _⟩ := claimLoop_ok sd.farms.nodup (fun _ _ => FMap.get?_empty _) hk
  obtain ⟨farms, hfarms⟩ := updateClaimed_goes k.claimed.entries sd.farms k.claimed.nodup (by
    rintro ⟨id, n⟩ hp
    have hn := (k.claimed.mem_entries_iff).1 hp
    cases hf : sd.farms.get? id with
    | none =>
      have := (q1 id (by
        intro hm
        obtain ⟨q, hq, rfl⟩ := List.mem_map.1 hm
        rw [(sd.farms.mem_entries_iff).1 hq] at hf
        cases hf)).1
      rw [hn] at this
      cases this
    | some f =>
      refine ⟨f, rfl, ?_⟩
      have e1 := (q2 (id, f) ((sd.farms.mem_entries_iff).2 hf)).2.1
      have e2 : k.claimed.getD id 0 = n := by unfold FMap.getD; rw [hn]; rfl
      simp only [e2] at e1
      have b := hL.books s sd id f hs' hf
      have hle : D27 * (f.claimed + n) ≤ D27 * f.distributed := by
        refine Nat.le_trans ?_ b.owed
        have h1 := c.farmers.term_le_sum
          (fun _ u => (u.stakeIn s).pow fl * (f.rps - (u.stakeIn s).userRps.getD id 0)) a
        rw [FMap.term_some _ hu] at h1
        have h2 : D27 * n ≤ (u.stakeIn s).pow fl * (f.rps - (u.stakeIn s).userRps.getD id 0) := by
          rw [e1]
          unfold FarmerSeed.earned
          rw [hrps, Nat.mul_comm ((u.stakeIn s).pow fl)]
          exact Nat.mul_div_le _ _
        unfold pending
        rw [Nat.mul_add, Nat.mul_add]
        have h3 : (c.setSeed s sd).farmers = c.farmers := rfl
        rw [h3]
        omega
      have hle := Nat.le_of_mul_le_mul_left hle (by decide)
      have ht : f.total ≤ (c.setSeed s sd).totalOf f.token := by
        unfold totalOf
        have h1 := (c.setSeed s sd).seeds.term_le_sum
          (fun _ sd => sd.farms.sum fun _ => SeedFarm.totalIn f.token) s
        rw [FMap.term_some _ hs'] at h1
        have h2 := sd.farms.term_le_sum (fun _ => SeedFarm.totalIn f.token) id
        rw [FMap.term_some _ hf] at h2
        unfold SeedFarm.totalIn at h1 h2 ⊢
        simp only [if_true] at h2
        omega
      rw [htot] at ht
      have := h.supply f.token
      have := b.le
      show f.claimed + n < _
      omega)
  unfold doClaim
  rw [hcalc, hid]
  simp only [bind, Except.bind, hrw, hprev, hgen', hp, hfarms,
    addW_ok.2 ⟨hbo, rfl⟩, subW_ok.2 ⟨show (u.stakeIn s).pow fl ≤
      sd.power + ({ u.stakeIn s with ratios := ratios }).pow fl by omega, rfl⟩]
  exact ⟨_, rfl⟩

/-- **C107.** While the contract is running, a registered farmer can claim from any seed at any time,
whatever happened before, as long as the numbers stay within their ranges. -/
theorem C107_claim (hr : c.Reachable fl) {x : Ctx} {s : SeedId} (hrun : c.running = true)
    (hx : x.deposit = 0) (hu : (c.farmers.get? x.pred).isSome) (hs : (c.seeds.get? s).isSome)
    (h : c.Sane fl x.now x.pred s) : (c.exec fl x (.claimReward s)).isOk = true := by
  obtain ⟨u, hu⟩ := Option.isSome_iff_exists.1 hu
  obtain ⟨sd0, hs⟩ := Option.isSome_iff_exists.1 hs
  obtain ⟨sd, hsd⟩ := seed_goes hr h hs
  obtain ⟨_, ⟨u', sd'⟩, hd⟩ := doClaim_goes hr h hu hsd
  have : c.claimReward fl x s = .ok ((c.setSeed s sd').setFarmer x.pred u') := by
    unfold claimReward assertRunning farmer
    simp only [assertE, hx, hrun, hu, expectE, hsd, hd, bind, Except.bind, if_true]
  simp only [exec, this, bind, Except.bind]
  rfl

/-- **C107.** Under the same conditions the view of the unclaimed rewards answers. -/
theorem C107_view (hr : c.Reachable fl) {now : Nat} {a : AccountId} {s : SeedId}
    (hu : (c.farmers.get? a).isSome) (hs : (c.seeds.get? s).isSome)
    (h : c.Sane fl now a s) : (c.unclaimed fl now a s).isOk = true := by
  obtain ⟨u, hu⟩ := Option.isSome_iff_exists.1 hu
  obtain ⟨sd0, hs⟩ := Option.isSome_iff_exists.1 hs
  obtain ⟨sd, hsd⟩ := seed_goes hr h hs
  obtain ⟨⟨v, k, hd⟩, _⟩ := doClaim_goes hr h hu hsd
  unfold unclaimed farmer
  simp only [hu, expectE, hsd, hd, bind, Except.bind]
  rfl

/-! ### A concrete case -/

/-- The numbers of `c1` are within their ranges. -/
theorem c1_sane : c1.Sane Demo.fl (1003 * 10 ^ 9) al S := by
  have hd : ∀ p ∈ c1.seeds.entries, p.2.power < 2 ^ 128 ∧ ∀ q ∈ p.2.farms.entries,
      q.2.daily * (1003 * 10 ^ 9 - q.2.distributedAt) / (24 * 60 * 60 * 10 ^ 9) < 2 ^ 128 := by
    decide +kernel
  have ht : c1.seeds.sum (fun _ sd => sd.farms.sum fun _ f => f.total) +
      c1.outdated.sum (fun _ f => f.total) < 2 ^ 128 := by decide +kernel
  have hb : ∀ p ∈ c1.cfg.boosters.entries, p.2.decimals ≤ 38 := by decide +kernel
  have hp : ∀ p ∈ c1.farmers.entries, (match genRatios c1.cfg S p.2 with
      | .ok r => decide (c1.powerOf S + ({ p.2.stakeIn S with ratios := r }).pow Demo.fl < 2 ^ 128)
      | .error _ => true) = true := by decide +kernel
  refine ⟨?_, ?_, ?_, ?_, ?_⟩
  · intro id f hf
    obtain ⟨sd, hs, hf⟩ := farmOf_some hf
    exact (hd (S, sd) ((c1.seeds.mem_entries_iff).2 hs)).2 (id, f) ((sd.farms.mem_entries_iff).2 hf)
  · intro t
    have hle : ∀ f : SeedFarm, f.totalIn t ≤ f.total := by
      intro f
      unfold SeedFarm.totalIn
      split <;> omega
    have h1 := c1.seeds.sum_le (fun _ sd => sd.farms.sum fun _ => SeedFarm.totalIn t)
      (fun _ sd => sd.farms.sum fun _ f => f.total)
      fun _ sd _ => sd.farms.sum_le _ _ fun _ f _ => hle f
    have h2 := c1.outdated.sum_le (fun _ => SeedFarm.totalIn t) (fun _ f => f.total)
      fun _ f _ => hle f
    unfold totalOf
    omega
  · intro r
    unfold powerOf
    cases hs : c1.seeds.get? r with
    | none => exact Nat.pow_pos (by decide)
    | some sd => exact (hd (r, sd) ((c1.seeds.mem_entries_iff).2 hs)).1
  · intro k b hk
    exact hb (k, b) ((c1.cfg.boosters.mem_entries_iff).2 hk)
  · intro u r hu hg
    have h := hp (al, u) ((c1.farmers.mem_entries_iff).2 hu)
    simp only [hg, decide_eq_true_eq] at h
    exact h

example : (c1.exec Demo.fl (at' 1003 al) (.claimReward S)).isOk = true :=
  C107_claim c1_reachable (by decide +kernel) rfl (by decide +kernel) (by decide +kernel) c1_sane

/-! ### A daily reward that is too large -/

theorem update_stops {now0 now power : Nat} {f g : SeedFarm} (hst : f.status now0 = .running)
    (hlt : f.distributedAt < now0)
    (hbig : 2 ^ 128 ≤ f.daily * (now0 - f.distributedAt) / (24 * 60 * 60 * 10 ^ 9))
    (hle : now0 ≤ now) : f.update now power ≠ .ok g := by
  intro h
  have hst' : f.status now = .running := by
    unfold SeedFarm.status at hst ⊢
    split at hst
    · cases hst
    · rename_i h1
      split at hst
      · cases hst
      · rename_i h2
        split at hst
        · cases hst
        · rename_i h3
          rw [if_neg (by omega), if_neg (by omega), if_neg h3]
  unfold SeedFarm.update at h
  rw [if_neg (by omega), hst'] at h
  simp only at h
  unpack at h
  obtain ⟨r, hr, _⟩ := h
  unfold SeedFarm.release at hr
  unpack at hr
  obtain ⟨_, q, hq, _⟩ := hr
  obtain ⟨_, he, hl⟩ := u128Ratio_ok hq
  have hm : f.daily * (now0 - f.distributedAt) / (24 * 60 * 60 * 10 ^ 9) ≤
      f.daily * (now - f.distributedAt) / (24 * 60 * 60 * 10 ^ 9) :=
    Nat.div_le_div_right (Nat.mul_le_mul_left _ (by omega))
  rw [← he] at hm
  omega

theorem seed_stops {now0 now : Nat} {sd : Seed} {id : FarmId} {f : SeedFarm}
    (hf : sd.farms.get? id = some f) (hst : f.status now0 = .running) (hlt : f.distributedAt < now0)
    (hbig : 2 ^ 128 ≤ f.daily * (now0 - f.distributedAt) / (24 * 60 * 60 * 10 ^ 9))
    (hle : now0 ≤ now) (up : Seed) : ¬ sd.Updates now up := by
  intro hu
  obtain ⟨g, hg, _⟩ := hu.kept id f hf
  obtain ⟨f', hf', hfu⟩ := hu.inv id g hg
  rw [hf] at hf'
  cases hf'
  exact update_stops hst hlt hbig hle hfu

theorem run_stops {now0 : Nat} {s : SeedId} {sd : Seed} {id : FarmId} {f : SeedFarm}
    (hf : sd.farms.get? id = some f) (hst : f.status now0 = .running) (hlt : f.distributedAt < now0)
    (hbig : 2 ^ 128 ≤ f.daily * (now0 - f.distributedAt) / (24 * 60 * 60 * 10 ^ 9)) :
    ∀ (es : List Event) {c : Contract}, Inv fl c → c.seeds.get? s = some sd →
    (∀ e ∈ es, now0 ≤ e.x.now) → (c.run fl es).seeds.get? s = some sd
  | [], _, _, hs, _ => hs
  | e :: es, c, hI, hs, hes => by
    refine run_stops hf hst hlt hbig es (hI.step e) ?_ fun e' he' => hes e' (by simp [he'])
    unfold Contract.step
    split
    · rename_i c' o he
      obtain ⟨sd', hs', hk⟩ := (exec_kept hI he).seed s sd hs
      rcases hk with rfl | ⟨up, hup, _⟩
      · exact hs'
      · exact absurd hup (seed_stops hf hst hlt hbig (hes e (by simp)) up)
    · exact hs

/-- **C107.** Finding: once a running farm of a seed is due more than 128 bits hold, because its daily
reward is too large, nothing can touch the seed any more: whatever is called by whom, the owner
included, the seed with its stakes, its farms and their terms stays as it is, every claim from it
fails and the unclaimed rewards cannot be viewed. -/
theorem C107_too_large (hr : c.Reachable fl) {now0 : Nat} {s : SeedId} {sd : Seed} {id : FarmId}
    {f : SeedFarm} (hs : c.seeds.get? s = some sd) (hf : sd.farms.get? id = some f)
    (hst : f.status now0 = .running) (hlt : f.distributedAt < now0)
    (hbig : 2 ^ 128 ≤ f.daily * (now0 - f.distributedAt) / (24 * 60 * 60 * 10 ^ 9))
    (es : List Event) (hes : ∀ e ∈ es, now0 ≤ e.x.now) :
    (c.run fl es).seeds.get? s = some sd ∧ ∀ x : Ctx, now0 ≤ x.now →
      ((c.run fl es).exec fl x (.claimReward s)).isOk = false ∧
      ∀ a, ((c.run fl es).unclaimed fl x.now a s).isOk = false := by
  have hs' := run_stops hf hst hlt hbig es hr.inv hs hes
  refine ⟨hs', fun x hx => ?_⟩
  have no : ∀ sd', (c.run fl es).seed x.now s ≠ .ok sd' := by
    intro sd' h
    obtain ⟨old, hold, hu⟩ := seed_ok h
    rw [hs'] at hold
    cases hold
    exact seed_stops hf hst hlt hbig hx sd' hu
  constructor
  · cases h : (c.run fl es).exec fl x (.claimReward s) with
    | error => rfl
    | ok p =>
      obtain ⟨c', o⟩ := p
      simp only [exec] at h
      unpack at h
      obtain ⟨c1, h, _⟩ := h
      obtain ⟨u, sd', _, _, _, hsd, _⟩ := claimReward_ok hr.inv.run h
      exact absurd hsd (no sd')
  · intro a
    cases h : (c.run fl es).unclaimed fl x.now a s with
    | error => rfl
    | ok p =>
      unfold unclaimed at h
      unpack at h
      obtain ⟨u, _, sd', hsd, _⟩ := h
      exact absurd hsd (no sd')

/-- The owner sets the largest daily reward, and nobody touches the seed for two days. -/
example : (c1.step Demo.fl ⟨y 1003 own, .setting (.dailyReward F (2 ^ 128 - 1))⟩).Reachable Demo.fl :=
  c1_reachable.step _

example : ((c1.step Demo.fl ⟨y 1003 own, .setting (.dailyReward F (2 ^ 128 - 1))⟩).farmOf S F).any
    (fun f => f.status ((1003 + 172800) * 10 ^ 9) = .running ∧
      f.distributedAt < (1003 + 172800) * 10 ^ 9 ∧
      2 ^ 128 ≤ f.daily * ((1003 + 172800) * 10 ^ 9 - f.distributedAt) / (24 * 60 * 60 * 10 ^ 9)) =
    true := by decide +kernel

end Contract

end Verif.Boost

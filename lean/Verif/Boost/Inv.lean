import Verif.Boost.ClaimLemmas

/-
The invariant of the boost farming contract.
-/

namespace Verif.Boost

theorem genFarmId_inj {s t : SeedId} {i j : Nat} (h : genFarmId s i = genFarmId t j) :
    s = t ∧ i = j := Farming.genFarmId_inj h

/-- What a stake amounts to, free and locked. -/
def FarmerSeed.stake (v : FarmerSeed) : Nat := v.free + v.locked

/-- The stakes of all farmers in a seed. -/
def Contract.stakes (c : Contract) (s : SeedId) : Nat :=
  c.farmers.sum fun _ u => (u.stakeIn s).stake

/-- The powers of all farmers in a seed. -/
def Contract.powers (fl : Floats) (c : Contract) (s : SeedId) : Nat :=
  c.farmers.sum fun _ u => (u.stakeIn s).pow fl

/-- What all farmers together have earned from a farm since their last claims, times `10^27`. -/
def Contract.pending (fl : Floats) (c : Contract) (s : SeedId) (id : FarmId) (f : SeedFarm) : Nat :=
  c.farmers.sum fun _ u =>
    (u.stakeIn s).pow fl * (f.rps - (u.stakeIn s).userRps.getD id 0)

/-- What all farmers together have been credited in a token. -/
def Contract.credited (c : Contract) (t : AccountId) : Nat :=
  c.farmers.sum fun _ u => u.rewards.getD t 0

/-- What has been claimed in a token from all farms, live and removed. -/
def Contract.claimedOf (c : Contract) (t : AccountId) : Nat :=
  c.seeds.sum (fun _ sd => sd.farms.sum fun _ => SeedFarm.claimedIn t) +
  c.outdated.sum fun _ => SeedFarm.claimedIn t

/-- What has been deposited in a token in all farms, live and removed. -/
def Contract.totalOf (c : Contract) (t : AccountId) : Nat :=
  c.seeds.sum (fun _ sd => sd.farms.sum fun _ => SeedFarm.totalIn t) +
  c.outdated.sum fun _ => SeedFarm.totalIn t

/-- The books of a farm. -/
structure Books (fl : Floats) (c : Contract) (s : SeedId) (id : FarmId) (f : SeedFarm) : Prop where
  le : f.distributed ≤ f.total
  zero : f.total = 0 → f.rps = 0
  owed : D27 * (f.claimed + f.beneficiary) + c.pending fl s id f ≤ D27 * f.distributed

/-- What holds in every reachable state. -/
structure Inv (fl : Floats) (c : Contract) : Prop where
  ids : ∀ s sd, c.seeds.get? s = some sd → sd.id = s
  amount : ∀ s sd, c.seeds.get? s = some sd → sd.amount = c.stakes s
  power : ∀ s sd, c.seeds.get? s = some sd → sd.power = c.powers fl s
  orphan : ∀ a u s, c.farmers.get? a = some u → c.seeds.get? s = none → u.seeds.get? s = none
  farmIds : ∀ s sd id f, c.seeds.get? s = some sd → sd.farms.get? id = some f →
    ∃ i < sd.nextIndex, id = genFarmId s i
  outIds : ∀ id f, c.outdated.get? id = some f → ∃ s sd i, c.seeds.get? s = some sd ∧
    i < sd.nextIndex ∧ id = genFarmId s i ∧ sd.farms.get? id = none
  rps : ∀ a u s v id r, c.farmers.get? a = some u → u.seeds.get? s = some v →
    v.userRps.get? id = some r → ∃ sd i, c.seeds.get? s = some sd ∧ i < sd.nextIndex ∧
      id = genFarmId s i ∧ ∀ f, sd.farms.get? id = some f → r ≤ f.rps
  books : ∀ s sd id f, c.seeds.get? s = some sd → sd.farms.get? id = some f → Books fl c s id f
  outBooks : ∀ id f, c.outdated.get? id = some f → f.claimed + f.beneficiary ≤ f.total
  boost : ∀ k b, c.cfg.boosters.get? k = some b → b.affected.get? k = none
  rewards : ∀ t, c.credited t = c.claimedOf t
  x : ∀ a u s v, c.farmers.get? a = some u → u.seeds.get? s = some v → v.locked ≤ v.xLocked

/-- The rate a farmer has claimed up to is not above the farm's. -/
theorem Inv.rate {fl : Floats} {c : Contract} (h : Inv fl c) {a : AccountId} {u : Farmer} {s : SeedId}
    {sd : Seed} {id : FarmId} {f : SeedFarm} (hu : c.farmers.get? a = some u)
    (hs : c.seeds.get? s = some sd) (hf : sd.farms.get? id = some f) :
    (u.stakeIn s).userRps.getD id 0 ≤ f.rps := by
  unfold FMap.getD
  cases hv : u.seeds.get? s with
  | none => rw [Farmer.stakeIn_none hv]; exact Nat.zero_le _
  | some v =>
    rw [Farmer.stakeIn_some hv]
    cases hr : v.userRps.get? id with
    | none => exact Nat.zero_le _
    | some r =>
      obtain ⟨sd', i, hs', _, _, hle⟩ := h.rps a u s v id r hu hv hr
      rw [hs] at hs'
      cases hs'
      exact hle f hf

theorem sum_setSeed {c : Contract} {s : SeedId} {sd sd' : Seed} (hs : c.seeds.get? s = some sd)
    (F : FarmId → SeedFarm → Nat) :
    (c.seeds.insert s sd').sum (fun _ sd => sd.farms.sum F) + sd.farms.sum F =
    c.seeds.sum (fun _ sd => sd.farms.sum F) + sd'.farms.sum F := by
  have := c.seeds.sum_insert (fun _ sd => sd.farms.sum F) s sd'
  rw [FMap.term_some _ hs] at this
  exact this

/-- Updating a seed keeps the invariant. -/
theorem Inv.load {fl : Floats} {c : Contract} (h : Inv fl c) {now : Nat} {s : SeedId} {sd : Seed}
    (hsd : c.seed now s = .ok sd) : Inv fl (c.setSeed s sd) := by
  obtain ⟨old, hs, up⟩ := Contract.seed_ok hsd
  obtain ⟨farms, rfl⟩ := up.eq
  have get : ∀ {r sr}, (c.setSeed s { old with farms }).seeds.get? r = some sr →
      ∃ sr0, c.seeds.get? r = some sr0 ∧ sr.id = sr0.id ∧ sr.amount = sr0.amount ∧
        sr.power = sr0.power ∧ sr.nextIndex = sr0.nextIndex ∧
        (sr = sr0 ∨ (r = s ∧ sr0 = old ∧ sr = { old with farms })) := by
    intro r sr hr
    change (c.seeds.insert s _).get? r = some sr at hr
    rw [FMap.get?_insert] at hr
    split at hr
    · cases hr
      subst_vars
      exact ⟨old, hs, rfl, rfl, rfl, rfl, .inr ⟨rfl, rfl, rfl⟩⟩
    · exact ⟨sr, hr, rfl, rfl, rfl, rfl, .inl rfl⟩
  have put : ∀ {r sr0}, c.seeds.get? r = some sr0 →
      ∃ sr, (c.setSeed s { old with farms }).seeds.get? r = some sr ∧
        sr.nextIndex = sr0.nextIndex ∧
        (sr = sr0 ∨ (r = s ∧ sr0 = old ∧ sr = { old with farms })) := by
    intro r sr0 hr
    by_cases hrs : r = s
    · subst hrs
      rw [hs] at hr
      cases hr
      exact ⟨_, FMap.get?_insert_self _ _ _, rfl, .inr ⟨rfl, rfl, rfl⟩⟩
    · exact ⟨sr0, by show (c.seeds.insert s _).get? r = _; rw [FMap.get?_insert_ne _ _ hrs, hr], rfl,
        .inl rfl⟩
  have back : ∀ {id g}, farms.get? id = some g → ∃ f, old.farms.get? id = some f ∧
      f.Updates now old.power g := by
    intro id g hg
    obtain ⟨f, hf, hu⟩ := up.inv id g hg
    exact ⟨f, hf, SeedFarm.update_ok hu⟩
  refine ⟨?_, ?_, ?_, ?_, ?_, ?_, ?_, ?_, h.outBooks, h.boost, ?_, h.x⟩
  · intro r sr hr
    obtain ⟨sr0, h0, e, _⟩ := get hr
    rw [e]; exact h.ids r sr0 h0
  · intro r sr hr
    obtain ⟨sr0, h0, _, e, _⟩ := get hr
    rw [e]; exact h.amount r sr0 h0
  · intro r sr hr
    obtain ⟨sr0, h0, _, _, e, _⟩ := get hr
    rw [e]; exact h.power r sr0 h0
  · intro a u r hu hr
    refine h.orphan a u r hu ?_
    cases h0 : c.seeds.get? r with
    | none => rfl
    | some sr0 =>
      obtain ⟨sr, hsr, _⟩ := put h0
      rw [hr] at hsr
      cases hsr
  · intro r sr id f hr hf
    obtain ⟨sr0, h0, _, _, _, e, rfl | ⟨rfl, rfl, rfl⟩⟩ := get hr
    · exact h.farmIds r _ id f h0 hf
    · obtain ⟨f0, hf0, _⟩ := back hf
      exact h.farmIds _ sr0 id f0 h0 hf0
  · intro id f hf
    obtain ⟨r, sr0, i, h0, hi, hid, hno⟩ := h.outIds id f hf
    obtain ⟨sr, hr, e, rfl | ⟨rfl, rfl, rfl⟩⟩ := put h0
    · exact ⟨r, _, i, hr, hi, hid, hno⟩
    · exact ⟨_, _, i, hr, hi, hid, up.gone id hno⟩
  · intro a u r v id q hu hv hq
    obtain ⟨sr0, i, h0, hi, hid, hle⟩ := h.rps a u r v id q hu hv hq
    obtain ⟨sr, hr, e, rfl | ⟨rfl, rfl, rfl⟩⟩ := put h0
    · exact ⟨_, i, hr, hi, hid, hle⟩
    · refine ⟨_, i, hr, hi, hid, ?_⟩
      intro g hg
      obtain ⟨f, hf, hup⟩ := back hg
      obtain ⟨n, _, _, _, hrps, _⟩ := hup.released
      have := hle f hf
      omega
  · intro r sr id g hr hg
    obtain ⟨sr0, h0, _, _, _, e, rfl | ⟨rfl, rfl, rfl⟩⟩ := get hr
    · exact ⟨(h.books r _ id g h0 hg).le, (h.books r _ id g h0 hg).zero, (h.books r _ id g h0 hg).owed⟩
    · obtain ⟨f, hf, hup⟩ := back hg
      have b := h.books _ _ id f h0 hf
      obtain ⟨n, hd, hn, hz, hrps, hben⟩ := hup.released
      refine ⟨by rw [hd, hup.total]; have := b.le; omega, ?_, ?_⟩
      · intro ht
        rw [hup.total] at ht
        have h1 := hz ht
        have h2 := b.zero ht
        rw [hrps, h2, h1]
        split <;> simp
      · have hp : c.pending fl r id g = c.pending fl r id f +
            sr0.power * (g.rps - f.rps) := by
          rw [h.power r sr0 h0]
          unfold Contract.pending Contract.powers
          rw [← FMap.sum_mul, ← FMap.sum_add]
          refine FMap.sum_congr _ _ _ ?_
          intro a u hu
          have hle := h.rate hu h0 hf
          rw [← Nat.mul_add]
          congr 1
          have : f.rps ≤ g.rps := by omega
          omega
        show _ + c.pending fl r id g ≤ _
        rw [hp, hup.claimed, hd, hben]
        have hb := b.owed
        split at hrps
        · rename_i hpos
          rw [if_pos hpos]
          have e1 : g.rps - f.rps = n * D27 / sr0.power := by
            rw [hrps, Nat.add_sub_cancel_left]
          rw [e1]
          have e2 : sr0.power * (n * D27 / sr0.power) ≤ n * D27 := Nat.mul_div_le _ _
          have e3 : D27 * (f.distributed + n) = D27 * f.distributed + n * D27 := by ring
          rw [e3, Nat.add_zero]
          generalize D27 * (f.claimed + f.beneficiary) = A at *
          generalize D27 * f.distributed = B at *
          generalize sr0.power * (n * D27 / sr0.power) = C at *
          generalize n * D27 = E at *
          omega
        · rename_i hpos
          rw [if_neg hpos]
          have e1 : sr0.power = 0 := by omega
          rw [e1, Nat.zero_mul]
          have e3 : D27 * (f.distributed + n) = D27 * f.distributed + D27 * n := by ring
          have e4 : D27 * (f.claimed + (f.beneficiary + n)) =
            D27 * (f.claimed + f.beneficiary) + D27 * n := by ring
          rw [e3, e4]
          generalize D27 * (f.claimed + f.beneficiary) = A at *
          generalize D27 * f.distributed = B at *
          generalize D27 * n = E at *
          omega
  · intro t
    show c.credited t = _
    rw [h.rewards t]
    have e1 := sum_setSeed (sd' := { old with farms }) hs (fun _ => SeedFarm.claimedIn t)
    have e2 := up.sum (fun _ => SeedFarm.claimedIn t) (by
      intro id f g hup
      unfold SeedFarm.claimedIn
      rw [hup.token, hup.claimed])
    show c.seeds.sum _ + _ = (c.seeds.insert s _).sum _ + c.outdated.sum _
    simp only at e1 e2
    omega

/-- A change of the stake of one farmer in one seed, with a claim. -/
structure Change (fl : Floats) (s : SeedId) (u : Farmer) (sd : Seed) (u' : Farmer) (sd' : Seed) :
    Prop where
  others : ∀ r, r ≠ s → u'.seeds.get? r = u.seeds.get? r
  id : sd'.id = sd.id
  next : sd'.nextIndex = sd.nextIndex
  gone : ∀ id, sd.farms.get? id = none → sd'.farms.get? id = none
  rewards : ∀ t, u'.rewards.getD t 0 + sd.farms.sum (fun _ => SeedFarm.claimedIn t) =
    u.rewards.getD t 0 + sd'.farms.sum (fun _ => SeedFarm.claimedIn t)
  farm : ∀ id f, sd.farms.get? id = some f → ∃ n,
    sd'.farms.get? id = some { f with claimed := f.claimed + n } ∧
    D27 * n ≤ (u.stakeIn s).pow fl * (f.rps - (u.stakeIn s).userRps.getD id 0)
  stake : ∃ w, u'.seeds.get? s = some w ∧ w.locked ≤ w.xLocked ∧
    sd'.amount + (u.stakeIn s).stake = sd.amount + w.stake ∧
    sd'.power + (u.stakeIn s).pow fl = sd.power + w.pow fl ∧
    (∀ id f, sd.farms.get? id = some f →
      w.userRps.get? id = if f.total > 0 then some f.rps else none) ∧
    (∀ id r, w.userRps.get? id = some r → ∃ f, sd.farms.get? id = some f ∧ r = f.rps)

/-- A change of a stake with a claim keeps the invariant. -/
theorem Inv.change {fl : Floats} {c : Contract} (h : Inv fl c) {a : AccountId} {s : SeedId}
    {u u' : Farmer} {sd sd' : Seed} (hu : c.farmers.get? a = some u) (hs : c.seeds.get? s = some sd)
    (ch : Change fl s u sd u' sd') : Inv fl ((c.setFarmer a u').setSeed s sd') := by
  obtain ⟨w, hw, hx, hamt, hpow, hsync, hkeys⟩ := ch.stake
  have hw' : u'.stakeIn s = w := Farmer.stakeIn_some hw
  have other : ∀ {r}, r ≠ s → u'.stakeIn r = u.stakeIn r := by
    intro r hr
    unfold Farmer.stakeIn
    rw [ch.others r hr]
  have sget : ∀ {r sr}, ((c.setFarmer a u').setSeed s sd').seeds.get? r = some sr →
      (r = s ∧ sr = sd') ∨ (r ≠ s ∧ c.seeds.get? r = some sr) := by
    intro r sr hr
    change (c.seeds.insert s sd').get? r = some sr at hr
    rw [FMap.get?_insert] at hr
    split at hr
    · cases hr; exact .inl ⟨by assumption, rfl⟩
    · exact .inr ⟨by assumption, hr⟩
  have sput : ∀ {r sr0}, c.seeds.get? r = some sr0 →
      ∃ sr, ((c.setFarmer a u').setSeed s sd').seeds.get? r = some sr ∧
        sr.nextIndex = sr0.nextIndex ∧ (∀ id, sr0.farms.get? id = none → sr.farms.get? id = none) ∧
        (∀ id f, sr.farms.get? id = some f → ∃ f0, sr0.farms.get? id = some f0 ∧ f.rps = f0.rps) := by
    intro r sr0 hr
    by_cases hrs : r = s
    · subst hrs
      rw [hs] at hr
      cases hr
      refine ⟨_, FMap.get?_insert_self _ _ _, ch.next, ch.gone, ?_⟩
      intro id f hf
      cases h0 : sd.farms.get? id with
      | none => rw [ch.gone id h0] at hf; cases hf
      | some f0 =>
        obtain ⟨n, hn, _⟩ := ch.farm id f0 h0
        rw [hn] at hf
        cases hf
        exact ⟨f0, rfl, rfl⟩
    · exact ⟨sr0, by show (c.seeds.insert s _).get? r = _; rw [FMap.get?_insert_ne _ _ hrs, hr], rfl,
        fun _ h => h, fun _ f hf => ⟨f, hf, rfl⟩⟩
  have fget : ∀ {b ub}, ((c.setFarmer a u').setSeed s sd').farmers.get? b = some ub →
      (b = a ∧ ub = u') ∨ (b ≠ a ∧ c.farmers.get? b = some ub) := by
    intro b ub hb
    change (c.farmers.insert a u').get? b = some ub at hb
    rw [FMap.get?_insert] at hb
    split at hb
    · cases hb; exact .inl ⟨by assumption, rfl⟩
    · exact .inr ⟨by assumption, hb⟩
  have fsum : ∀ F : AccountId → Farmer → Nat,
      ((c.setFarmer a u').setSeed s sd').farmers.sum F + F a u = c.farmers.sum F + F a u' := by
    intro F
    have := c.farmers.sum_insert F a u'
    rw [FMap.term_some _ hu] at this
    exact this
  have snone : ∀ {r}, ((c.setFarmer a u').setSeed s sd').seeds.get? r = none →
      r ≠ s ∧ c.seeds.get? r = none := by
    intro r hr
    change (c.seeds.insert s sd').get? r = none at hr
    rw [FMap.get?_insert] at hr
    split at hr
    · cases hr
    · exact ⟨by assumption, hr⟩
  have bksame : ∀ {id f}, ∀ {r}, r ≠ s →
      ((c.setFarmer a u').setSeed s sd').pending fl r id f = c.pending fl r id f := by
    intro id f r hr
    have := fsum (fun _ u => (u.stakeIn r).pow fl * (f.rps - (u.stakeIn r).userRps.getD id 0))
    rw [other hr] at this
    unfold Contract.pending
    omega
  refine ⟨?_, ?_, ?_, ?_, ?_, ?_, ?_, ?_, h.outBooks, h.boost, ?_, ?_⟩
  · intro r sr hr
    rcases sget hr with ⟨rfl, rfl⟩ | ⟨_, hr⟩
    · rw [ch.id]; exact h.ids _ _ hs
    · exact h.ids _ _ hr
  · intro r sr hr
    have e := fsum (fun _ u => (u.stakeIn r).stake)
    unfold Contract.stakes
    rcases sget hr with ⟨rfl, rfl⟩ | ⟨hne, hr⟩
    · have h0 := h.amount _ _ hs
      unfold Contract.stakes at h0
      rw [hw'] at e
      omega
    · have h0 := h.amount _ _ hr
      unfold Contract.stakes at h0
      rw [other hne] at e
      omega
  · intro r sr hr
    have e := fsum (fun _ u => (u.stakeIn r).pow fl)
    unfold Contract.powers
    rcases sget hr with ⟨rfl, rfl⟩ | ⟨hne, hr⟩
    · have h0 := h.power _ _ hs
      unfold Contract.powers at h0
      rw [hw'] at e
      omega
    · have h0 := h.power _ _ hr
      unfold Contract.powers at h0
      rw [other hne] at e
      omega
  · intro b ub r hb hr
    obtain ⟨hne, hno⟩ := snone hr
    rcases fget hb with ⟨rfl, rfl⟩ | ⟨_, hb⟩
    · rw [ch.others r hne]
      exact h.orphan _ _ _ hu hno
    · exact h.orphan _ _ _ hb hno
  · intro r sr id f hr hf
    rcases sget hr with ⟨rfl, rfl⟩ | ⟨_, hr⟩
    · cases h0 : sd.farms.get? id with
      | none => rw [ch.gone id h0] at hf; cases hf
      | some f0 => rw [ch.next]; exact h.farmIds _ _ id f0 hs h0
    · exact h.farmIds _ _ id f hr hf
  · intro id f hf
    obtain ⟨r, sr0, i, h0, hi, hid, hno⟩ := h.outIds id f hf
    obtain ⟨sr, hr, e, hg, _⟩ := sput h0
    exact ⟨r, sr, i, hr, by omega, hid, hg id hno⟩
  · intro b ub r v id q hb hv hq
    have key : ∃ sr0 i, c.seeds.get? r = some sr0 ∧ i < sr0.nextIndex ∧ id = genFarmId r i ∧
        ∀ f, sr0.farms.get? id = some f → q ≤ f.rps := by
      rcases fget hb with ⟨rfl, rfl⟩ | ⟨_, hb⟩
      · by_cases hrs : r = s
        · subst hrs
          rw [hw] at hv
          cases hv
          obtain ⟨f, hf, rfl⟩ := hkeys id q hq
          obtain ⟨i, hi, hid⟩ := h.farmIds _ _ id f hs hf
          refine ⟨sd, i, hs, hi, hid, ?_⟩
          intro g hg
          rw [hf] at hg
          cases hg
          exact Nat.le_refl _
        · rw [ch.others r hrs] at hv
          exact h.rps _ _ _ _ _ _ hu hv hq
      · exact h.rps _ _ _ _ _ _ hb hv hq
    obtain ⟨sr0, i, h0, hi, hid, hle⟩ := key
    obtain ⟨sr, hr, e, _, hf⟩ := sput h0
    refine ⟨sr, i, hr, by omega, hid, ?_⟩
    intro f hf'
    obtain ⟨f0, hf0, e0⟩ := hf id f hf'
    rw [e0]
    exact hle f0 hf0
  · intro r sr id f hr hf
    rcases sget hr with ⟨rfl, rfl⟩ | ⟨hne, hr⟩
    · cases h0 : sd.farms.get? id with
      | none => rw [ch.gone id h0] at hf; cases hf
      | some f0 =>
        obtain ⟨n, hn, hle⟩ := ch.farm id f0 h0
        rw [hn] at hf
        cases hf
        have b := h.books _ _ id f0 hs h0
        refine ⟨b.le, b.zero, ?_⟩
        have e := fsum (fun _ u => (u.stakeIn r).pow fl * (f0.rps - (u.stakeIn r).userRps.getD id 0))
        have ho := b.owed
        unfold Contract.pending at ho ⊢
        rw [hw'] at e
        have hz : f0.rps - w.userRps.getD id 0 = 0 := by
          unfold FMap.getD
          rw [hsync id f0 h0]
          split
          · simp
          · have := b.zero (by omega)
            simp [this]
        rw [hz, Nat.mul_zero] at e
        simp only
        have e3 : D27 * (f0.claimed + n + f0.beneficiary) =
          D27 * (f0.claimed + f0.beneficiary) + D27 * n := by ring
        rw [e3]
        generalize D27 * (f0.claimed + f0.beneficiary) = A at *
        generalize D27 * f0.distributed = B at *
        generalize D27 * n = E at *
        generalize (u.stakeIn r).pow fl * (f0.rps - (u.stakeIn r).userRps.getD id 0) = P at *
        omega
    · have b := h.books _ _ id f hr hf
      exact ⟨b.le, b.zero, by rw [bksame hne]; exact b.owed⟩
  · intro t
    have e1 := fsum (fun _ u => u.rewards.getD t 0)
    have e2 := sum_setSeed (sd' := sd') hs (fun _ => SeedFarm.claimedIn t)
    have e3 := ch.rewards t
    have e4 := h.rewards t
    unfold Contract.credited Contract.claimedOf at *
    show _ = (c.seeds.insert s sd').sum _ + c.outdated.sum _
    omega
  · intro b ub r v hb hv
    rcases fget hb with ⟨rfl, rfl⟩ | ⟨_, hb⟩
    · by_cases hrs : r = s
      · subst hrs
        rw [hw] at hv
        cases hv
        exact hx
      · rw [ch.others r hrs] at hv
        exact h.x _ _ _ _ hu hv
    · exact h.x _ _ _ _ hb hv

theorem Inv.stakeIn_x {fl : Floats} {c : Contract} (h : Inv fl c) {a : AccountId} {u : Farmer}
    (hu : c.farmers.get? a = some u) (s : SeedId) : (u.stakeIn s).locked ≤ (u.stakeIn s).xLocked := by
  cases hv : u.seeds.get? s with
  | none => rw [Farmer.stakeIn_none hv]; exact Nat.le_refl _
  | some v => rw [Farmer.stakeIn_some hv]; exact h.x _ _ _ _ hu hv

/-- A claim is a change in which the stake stays the same. -/
theorem Claims.change {fl : Floats} {u u' : Farmer} {sd sd' : Seed} {s : SeedId}
    (h : Claims fl u sd u' sd') (hid : sd.id = s)
    (hx : (u.stakeIn s).locked ≤ (u.stakeIn s).xLocked) : Change fl s u sd u' sd' := by
  subst hid
  obtain ⟨w, hw, hsame, hpow, hsync, hkeys⟩ := h.stake
  obtain ⟨p, fs, he⟩ := h.eq
  refine ⟨h.others, by rw [he], by rw [he], h.gone, h.rewards, ?_, w, hw, ?_, ?_, hpow, hsync, hkeys⟩
  · intro id f hf
    refine ⟨_, (h.farm id f hf).2, ?_⟩
    unfold FarmerSeed.earned
    rw [Nat.mul_comm ((u.stakeIn sd.id).pow fl)]
    exact Nat.mul_div_le _ _
  · rw [hsame.2.1, hsame.2.2.1]; exact hx
  · unfold FarmerSeed.stake
    rw [hsame.1, hsame.2.1, he]

end Verif.Boost

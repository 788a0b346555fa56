import Verif.Boost.ListView
import Verif.Boost.LiveProps
import Verif.Boost.StakeProps
import Verif.Boost.AccessProps
import Verif.Boost.SettingProps
import Verif.Farming.ListProps
import Verif.Exchange.IdProps

/-
C108: what the views of the boost farming contract list and count.
-/

namespace Verif.Boost

namespace Contract

open Demo

variable {fl : Floats} {c c' : Contract}

/-! ### Every live farm can be named -/

/-- The ids of live farms end with a 32-bit number. -/
def Named (c : Contract) : Prop := ∀ s sd id f, c.seeds.get? s = some sd →
  sd.farms.get? id = some f → ∃ i < 2 ^ 32, id = genFarmId s i

theorem Named.step (hI : Inv fl c) (h : c.Named) (e : Event) : (c.step fl e).Named := by
  unfold Contract.step
  split
  · rename_i c' o he
    have hk := exec_kept hI he
    intro s sd' id f' hs hf
    cases h0 : c.seeds.get? s with
    | none =>
      rw [hk.fresh s h0 sd' hs] at hf
      cases hf
    | some sd =>
      obtain ⟨sd1, h1, hk1⟩ := hk.seed s sd h0
      rw [hs] at h1
      cases h1
      rcases hk1 with rfl | ⟨up, hup, hfs⟩
      · exact h s _ id f' h0 hf
      · rcases hfs id f' hf with ⟨i, _, hi, e, _⟩ | ⟨g, hg, _⟩
        · exact ⟨i, hi, e⟩
        · obtain ⟨f, hf0, _⟩ := hup.inv id g hg
          exact h s sd id f h0 hf0
  · exact h

theorem Named.run : ∀ (es : List Event) {c : Contract}, Inv fl c → c.Named → (c.run fl es).Named
  | [], _, _, h => h
  | e :: es, _, hI, h => Named.run es (hI.step e) (h.step hI e)

theorem Reachable.named (h : c.Reachable fl) : c.Named := by
  obtain ⟨owner, es, rfl⟩ := h
  refine Named.run es (Inv.init fl owner) ?_
  intro s sd id f hs
  cases hs

/-- Parsing the id of a farm yields its seed. -/
theorem parse_gen {s : SeedId} {i : Nat} (hi : i < 2 ^ 32) : parseFarmId (genFarmId s i) = .ok s := by
  have hd : ∀ ch ∈ Nat.toDigits 10 i, ch ≠ '#' := by
    intro ch hch he
    have := Nat.isDigit_of_mem_toDigits (by decide) (by decide) hch
    rw [he] at this
    exact absurd this (by decide)
  unfold parseFarmId genFarmId
  rw [splitLast_gen s hd]
  change (do
    let n ← expectE (parseU64 (Nat.toDigits 10 i)) .index
    assertE (n < 2 ^ 32) .index
    .ok s : R SeedId) = _
  rw [parseU64_toDigits (by omega)]
  change (do
    assertE (i < 2 ^ 32) .index
    .ok s : R SeedId) = _
  have h : assertE (i < 2 ^ 32) .index = .ok () := assertE_ok.2 hi
  rw [h]
  rfl

/-- `get_farm` finds a farm exactly if it is one of its seed's. -/
theorem getFarm_iff {now : Nat} {id : FarmId} {g : SeedFarm} :
    c.getFarm now id = .ok (some g) ↔
      ∃ s sd, parseFarmId id = .ok s ∧ c.seed now s = .ok sd ∧ sd.farms.get? id = some g := by
  unfold getFarm
  simp only [Verif.bind_ok, Except.ok.injEq, exists_and_left]

theorem listed_named (hr : c.Reachable fl) {now : Nat} {s : SeedId} {sd : Seed} {id : FarmId}
    {g : SeedFarm} (hs : c.seed now s = .ok sd) (hg : sd.farms.get? id = some g) :
    parseFarmId id = .ok s := by
  obtain ⟨old, hold, up⟩ := seed_ok hs
  obtain ⟨f, hf, _⟩ := up.inv id g hg
  obtain ⟨i, hi, rfl⟩ := hr.named s old id f hold hf
  exact parse_gen hi

/-! ### Lists -/

/-- **C108.** `list_seed_farms` lists every farm of the seed exactly once, as `get_farm` reports it at
the same moment, and every farm that `get_farm` finds is in the list of one seed. -/
theorem C108_seed_farms (hr : c.Reachable fl) {now : Nat} {s : SeedId} {l : List (FarmId × SeedFarm)}
    (h : c.listSeedFarms now s = .ok l) :
    (l.map Prod.fst).Nodup ∧
    (∀ id g, (id, g) ∈ l ↔ parseFarmId id = .ok s ∧ c.getFarm now id = .ok (some g)) ∧
    ∀ id g, c.getFarm now id = .ok (some g) →
      ∃ r lr, parseFarmId id = .ok r ∧ c.listSeedFarms now r = .ok lr ∧ (id, g) ∈ lr := by
  unfold listSeedFarms at h
  simp only [Verif.bind_ok] at h
  obtain ⟨sd, hs, h⟩ := h
  cases h
  refine ⟨sd.farms.nodup, fun id g => ?_, fun id g hg => ?_⟩
  · rw [FMap.mem_entries_iff, getFarm_iff]
    constructor
    · intro hg
      exact ⟨listed_named hr hs hg, s, sd, listed_named hr hs hg, hs, hg⟩
    · rintro ⟨h1, r, sr, h2, h3, h4⟩
      rw [h1] at h2
      cases h2
      rw [hs] at h3
      cases h3
      exact h4
  · obtain ⟨r, sr, h2, h3, h4⟩ := getFarm_iff.1 hg
    refine ⟨r, sr.farms.entries, h2, ?_, (FMap.mem_entries_iff _).2 h4⟩
    unfold listSeedFarms
    rw [h3]
    rfl

example : ((c1.listSeedFarms (1004 * 10 ^ 9) S).toOption.map fun l => l.map fun p => (p.1, p.2.distributed)) =
    some [(F, 400)] ∧
    ((c1.getFarm (1004 * 10 ^ 9) F).toOption.map fun o => o.map (·.distributed)) = some (some 400) := by
  decide +kernel

/-- **C108.** `list_seeds_info`, read to the end in pages of any sizes, lists every seed exactly once,
as `get_seed` reports it, and with the sum of what `get_farmer_seed` reports for all farmers. -/
theorem C108_seeds (hr : c.Reachable fl) {keys : List SeedId} (hn : keys.Nodup)
    (hk : ∀ s, s ∈ keys ↔ c.seeds.contains s = true) {sizes : List Nat} {l : List Seed}
    (h : readPages (fun s n => c.listSeeds keys (some s) (some n)) 0 sizes = .ok l)
    (hs : keys.length ≤ sizes.sum) :
    (l.map (·.id)).Nodup ∧ (∀ sd, sd ∈ l ↔ c.getSeed sd.id = some sd) ∧
    ∀ sd ∈ l, sd.amount = (c.farmers.keys.map fun a =>
      match c.farmerSeed a sd.id with
      | some v => v.free + v.locked
      | none => 0).sum := by
  have hl := key_pages (g := fun k => expectE (c.seeds.get? k) .other) h hs
  obtain ⟨h1, h2⟩ := Farming.Contract.read_all (R := fun _ (a b : Seed) => b = a) (id := Seed.id) hn hk
    (hl.imp fun k b hb => ⟨b, expectE_ok.1 hb, rfl⟩)
    (fun k a b ha hb => by rw [hb]; exact hr.inv.ids k a ha) (fun _ _ _ _ h1 h2 => by rw [h1, h2])
  have h3 : ∀ sd, sd ∈ l ↔ c.getSeed sd.id = some sd := by
    intro sd
    rw [h2 sd]
    constructor
    · rintro ⟨a, ha, rfl⟩
      exact ha
    · intro ha
      exact ⟨sd, ha, rfl⟩
  refine ⟨h1, h3, fun sd hsd => ?_⟩
  rw [hr.inv.amount sd.id sd ((h3 sd).1 hsd)]
  unfold stakes FMap.sum FMap.keys
  rw [List.map_map]
  congr 1
  apply List.map_congr_left
  rintro ⟨a, u⟩ he
  have hg := (c.farmers.mem_entries_iff).1 he
  simp only [Function.comp, farmerSeed, hg, Option.bind_some]
  cases hv : u.seeds.get? sd.id with
  | none => rw [Farmer.stakeIn_none hv]; rfl
  | some v => rw [Farmer.stakeIn_some hv]; rfl

/-- Two pages of one entry each and an empty one. -/
example : ((readPages (fun s n => c4.listSeeds [S, L] (some s) (some n)) 0 [1, 1, 5]).toOption.map fun l =>
    l.map fun sd => (sd.id, sd.amount)) = some [(S, 3991), (L, 4)] ∧ c4.seeds.keys.Perm [S, L] := by
  decide +kernel

/-- **C108.** The same for the removed farms, which `get_farm` no longer finds. -/
theorem C108_outdated (hr : c.Reachable fl) {keys : List FarmId} (hn : keys.Nodup)
    (hk : ∀ id, id ∈ keys ↔ c.outdated.contains id = true) {sizes : List Nat}
    {l : List (FarmId × SeedFarm)}
    (h : readPages (fun s n => c.listOutdated keys (some s) (some n)) 0 sizes = .ok l)
    (hs : keys.length ≤ sizes.sum) :
    (l.map Prod.fst).Nodup ∧ (∀ id f, (id, f) ∈ l ↔ c.getOutdated id = some f) ∧
    ∀ id f now g, (id, f) ∈ l → c.getFarm now id ≠ .ok (some g) := by
  obtain ⟨h1, h2⟩ := map_pages hn hk h hs
  refine ⟨h1, h2, fun id f now g hf hg => ?_⟩
  obtain ⟨s, sd, i, h3, h4, h5, h6⟩ := hr.inv.outIds id f ((h2 id f).1 hf)
  obtain ⟨r, sr, h7, h8, h9⟩ := getFarm_iff.1 hg
  rw [h5] at h7
  have := parseFarmId_gen h7
  subst this
  obtain ⟨old, hold, up⟩ := seed_ok h8
  rw [h3] at hold
  cases hold
  rw [up.gone id h6] at h9
  cases h9

example : ((readPages (fun s n => c5.listOutdated [F] (some s) (some n)) 0 [1]).toOption.map fun l =>
    l.map fun p => (p.1, p.2.total, p.2.claimed, p.2.beneficiary)) = some [(F, 1000, 774, 226)] ∧
    ((c5.getFarm (1101 * 10 ^ 9) F).toOption.map (·.isNone)) = some true := by decide +kernel

/-- **C108.** `list_slashed` lists every seed with slashed stakes exactly once; what it lists and what
`get_seed` reports together are all that has ever been staked. -/
theorem C108_slashed (owner : AccountId) (es : List Event) {keys : List SeedId} (hn : keys.Nodup)
    (hk : ∀ s, s ∈ keys ↔ ((init owner).run fl es).slashed.contains s = true) {sizes : List Nat}
    {l : List (SeedId × Nat)}
    (h : readPages (fun s n => ((init owner).run fl es).listSlashed keys (some s) (some n)) 0 sizes = .ok l)
    (hs : keys.length ≤ sizes.sum) :
    (l.map Prod.fst).Nodup ∧
    ∀ s sd, ((init owner).run fl es).getSeed s = some sd →
      sd.amount + Farming.Contract.listed l s = (init owner).stakedBy fl s es := by
  obtain ⟨h1, h2⟩ := map_pages hn hk h hs
  refine ⟨h1, fun s sd hsd => ?_⟩
  rw [← C96_all_accounted owner es s, (Inv.init fl owner).run.amount s sd hsd]
  congr 1
  have := Farming.Contract.listed_entries ⟨l, h1⟩ s
  change Farming.Contract.listed l s = _ at this
  rw [this]
  unfold slashedOf FMap.getD
  congr 1
  cases hg : ((init owner).run fl es).slashed.get? s with
  | some n => exact (FMap.mem_entries_iff _).1 ((h2 s n).2 hg)
  | none =>
    cases hg' : FMap.get? (⟨l, h1⟩ : FMap SeedId Nat) s with
    | none => rfl
    | some n =>
      have := (h2 s n).1 ((FMap.mem_entries_iff (m := (⟨l, h1⟩ : FMap SeedId Nat))).2 hg')
      rw [hg] at this
      cases this

example : (readPages (fun s n => c4.listSlashed [S] (some s) (some n)) 0 [1]).toOption = some [(S, 9)] := by
  decide +kernel

/-- **C108.** `list_farmer_seeds`, read to the end, lists every stake of a farmer exactly once, as
`get_farmer_seed` reports it. -/
theorem C108_farmer_seeds {a : AccountId} {u : Farmer} {keys : List SeedId}
    (ha : c.farmers.get? a = some u) (hn : keys.Nodup)
    (hk : ∀ s, s ∈ keys ↔ u.seeds.contains s = true) {sizes : List Nat} {l : List (SeedId × FarmerSeed)}
    (h : readPages (fun s n => c.listFarmerSeeds keys a (some s) (some n)) 0 sizes = .ok l)
    (hs : keys.length ≤ sizes.sum) :
    (l.map Prod.fst).Nodup ∧ ∀ s v, (s, v) ∈ l ↔ c.farmerSeed a s = some v := by
  unfold listFarmerSeeds at h
  simp only [ha] at h
  unfold farmerSeed
  rw [ha]
  exact map_pages hn hk h hs

example : ((readPages (fun s n => c4.listFarmerSeeds [S, L] al (some s) (some n)) 0 [2]).toOption.map fun l =>
    l.map fun p => (p.1, p.2.free)) = some [(S, 3000), (L, 4)] := by decide +kernel

/-- **C108.** `list_farmer_rewards` lists every token at most once, and every token with what
`get_farmer_reward` reports; a token that is not listed has none. -/
theorem C108_farmer_rewards (a : AccountId) :
    ((c.listFarmerRewards a).map Prod.fst).Nodup ∧
    ∀ t, Farming.Contract.listed (c.listFarmerRewards a) t = c.rewardOf a t := by
  unfold listFarmerRewards rewardOf
  cases c.farmers.get? a with
  | none => exact ⟨List.nodup_nil, fun _ => rfl⟩
  | some u => exact ⟨u.rewards.nodup, Farming.Contract.listed_entries u.rewards⟩

example : c4.listFarmerRewards al = [(T, 180)] ∧ c4.rewardOf al T = 180 := by decide +kernel

/-- **C108.** The pages can be read, whatever their sizes, as long as the indices fit. -/
theorem C108_readable {keys : List SeedId} (hk : ∀ s ∈ keys, c.seeds.contains s = true)
    {sizes : List Nat} (hs : sizes.sum < 2 ^ 64) :
    ∃ l, readPages (fun s n => c.listSeeds keys (some s) (some n)) 0 sizes = .ok l := by
  refine pages_read (f := fun i => do
    let k ← expectE keys[i]? .other
    expectE (c.seeds.get? k) .other) (fun i hi => ?_) (by omega)
  rw [List.getElem?_eq_getElem hi]
  have := hk _ (List.getElem_mem hi)
  unfold FMap.contains at this
  obtain ⟨sd, hsd⟩ := Option.isSome_iff_exists.1 this
  change (expectE (c.seeds.get? keys[i]) .other).isOk = true
  rw [hsd]
  rfl

/-! ### Counts -/

theorem run_registered {c : Contract} (h : c.Reachable fl) : c.farmerCount = c.registered := by
  obtain ⟨owner, es, rfl⟩ := h
  exact (C100_covered owner es).2

/-- **C108.** `get_metadata` counts the farmers, the seeds and the removed farms that are there, and
the live farms that `list_seed_farms` lists for all seeds. -/
theorem C108_metadata (hr : c.Reachable fl) {now : Nat} {farms : SeedId → List (FarmId × SeedFarm)}
    (hf : ∀ s, c.seeds.contains s = true → c.listSeedFarms now s = .ok (farms s)) :
    c.metadata.farmerCount = c.farmers.keys.length ∧
    c.metadata.seedCount = c.seeds.keys.length ∧
    c.metadata.outdatedCount = c.outdated.keys.length ∧
    c.metadata.farmCount = (c.seeds.keys.map fun s => (farms s).length).sum := by
  refine ⟨?_, ?_, ?_, ?_⟩
  · show c.farmerCount = _
    rw [run_registered hr]
    unfold registered
    rw [← FMap.size_eq_sum]
    unfold FMap.size FMap.keys
    rw [List.length_map]
  · show c.seeds.size = _
    unfold FMap.size FMap.keys
    rw [List.length_map]
  · show c.outdated.size = _
    unfold FMap.size FMap.keys
    rw [List.length_map]
  · show c.farmCount = _
    rw [(C103_limits hr).2.2.2]
    unfold FMap.sum FMap.keys
    rw [List.map_map]
    congr 1
    apply List.map_congr_left
    rintro ⟨s, sd⟩ he
    have hg := (c.seeds.mem_entries_iff).1 he
    have h1 := hf s (by unfold FMap.contains; rw [hg]; rfl)
    unfold listSeedFarms at h1
    simp only [Verif.bind_ok] at h1
    obtain ⟨sd', h2, h3⟩ := h1
    obtain ⟨old, hold, up⟩ := seed_ok h2
    rw [hg] at hold
    cases hold
    show sd.farms.size = (farms s).length
    rw [← Except.ok.inj h3]
    change _ = sd'.farms.size
    rw [FMap.size_eq_sum, FMap.size_eq_sum, up.sum _ fun _ _ _ _ => rfl]

example : (c5.metadata.farmerCount, c5.metadata.farmCount, c5.metadata.outdatedCount,
    c5.metadata.seedCount) = (2, 0, 1, 2) ∧ c4.metadata.farmCount = 1 := by decide +kernel

/-! ### What the views say about the calls of the owner -/

theorem farm_counted (hr : c.Reachable fl) {now : Nat} {s : SeedId} {sd : Seed} {id : FarmId}
    {g : SeedFarm} (hs : c.seed now s = .ok sd) (hg : sd.farms.get? id = some g) : 1 ≤ c.farmCount := by
  obtain ⟨old, hold, up⟩ := seed_ok hs
  obtain ⟨f, hf, _⟩ := up.inv id g hg
  rw [(C103_limits hr).2.2.2]
  have h1 := c.seeds.term_le_sum (fun _ sd => sd.farms.size) s
  rw [FMap.term_some _ hold, FMap.size_eq_sum] at h1
  have h2 := old.farms.term_le_sum (fun _ _ => 1) id
  rw [FMap.term_some _ hf] at h2
  omega

/-- **C108.** While the contract runs, its owner can remove exactly the farms that `get_farm` shows as
ended. -/
theorem C108_removable (hr : c.Reachable fl) {x : Ctx} (ho : x.pred = c.owner) (hd : x.deposit = 1)
    (hrun : c.running = true) (id : FarmId) :
    (c.exec fl x (.removeFarm id)).isOk = true ↔
      ∃ g, c.getFarm x.now id = .ok (some g) ∧ g.status x.now = .ended := by
  constructor
  · intro h
    cases he : c.exec fl x (.removeFarm id) with
    | error e => rw [he] at h; cases h
    | ok p =>
      obtain ⟨c', o⟩ := p
      simp only [exec] at he
      unpack at he
      obtain ⟨c1, he, rfl, _⟩ := he
      unfold removeFarm oneYocto assertOwner assertRunning SeedFarm.finalize at he
      unpack at he
      obtain ⟨_, _, _, s, hs, sd, hsd, f, hf, hst, _⟩ := he
      exact ⟨f, getFarm_iff.2 ⟨s, sd, hs, hsd, hf⟩, hst⟩
  · rintro ⟨g, hg, hst⟩
    obtain ⟨s, sd, h1, h2, h3⟩ := getFarm_iff.1 hg
    have hb := (hr.inv.load h2).books s sd id g (FMap.get?_insert_self _ _ _) h3
    have hle : g.claimed ≤ g.distributed := by
      have h0 : 0 < D27 := by decide
      have := hb.owed
      have h4 : D27 * g.claimed ≤ D27 * g.distributed := by
        have h5 : D27 * g.claimed ≤ D27 * (g.claimed + g.beneficiary) := Nat.mul_le_mul_left _ (by omega)
        omega
      exact Nat.le_of_mul_le_mul_left h4 h0
    have hc := farm_counted hr h2 h3
    have h6 : g.finalize x.now = .ok { g with beneficiary := g.distributed - g.claimed } := by
      unfold SeedFarm.finalize
      have h : assertE (g.status x.now = .ended) (.e 405) = .ok () := assertE_ok.2 hst
      rw [h, ok_bind, subW_ok.2 ⟨hle, rfl⟩]
      rfl
    have h7 : oneYocto x = .ok () := assertE_ok.2 hd
    have h8 : c.assertOwner x = .ok () := assertE_ok.2 ho
    have h9 : c.assertRunning = .ok () := assertE_ok.2 hrun
    simp only [exec, removeFarm, h7, h8, h9, ok_bind, h1, h2, h3, expectE, h6, subW_ok.2 ⟨hc, rfl⟩]
    rfl

/-- The farm has ended after ten seconds. -/
example : (c4.exec Demo.fl (y 1009 own) (.removeFarm F)).isOk = false ∧
    (c4.exec Demo.fl (y 1010 own) (.removeFarm F)).isOk = true ∧
    ((c4.getFarm (1009 * 10 ^ 9) F).toOption.map fun o => o.map (·.status (1009 * 10 ^ 9))) =
      some (some .running) ∧
    ((c4.getFarm (1010 * 10 ^ 9) F).toOption.map fun o => o.map (·.status (1010 * 10 ^ 9))) =
      some (some .ended) := by decide +kernel

/-- **C108.** While the contract runs, its owner and its operators can cancel exactly the farms that
`get_farm` shows without reward. -/
theorem C108_cancellable (hr : c.Reachable fl) {x : Ctx} (ho : x.pred = c.owner ∨ x.pred ∈ c.operators)
    (hd : x.deposit = 1) (hrun : c.running = true) (id : FarmId) :
    (c.exec fl x (.cancelFarm id)).isOk = true ↔
      ∃ g, c.getFarm x.now id = .ok (some g) ∧ g.total = 0 := by
  constructor
  · intro h
    cases he : c.exec fl x (.cancelFarm id) with
    | error e => rw [he] at h; cases h
    | ok p =>
      obtain ⟨c', o⟩ := p
      simp only [exec] at he
      unpack at he
      obtain ⟨c1, he, rfl, _⟩ := he
      unfold cancelFarm oneYocto assertManager assertRunning at he
      unpack at he
      obtain ⟨_, _, _, s, hs, sd, hsd, f, hf, ht, _⟩ := he
      exact ⟨f, getFarm_iff.2 ⟨s, sd, hs, hsd, hf⟩, ht⟩
  · rintro ⟨g, hg, ht⟩
    obtain ⟨s, sd, h1, h2, h3⟩ := getFarm_iff.1 hg
    have hc := farm_counted hr h2 h3
    have h7 : oneYocto x = .ok () := assertE_ok.2 hd
    have h8 : c.assertManager x = .ok () := assertE_ok.2 ho
    have h9 : c.assertRunning = .ok () := assertE_ok.2 hrun
    have h4 : assertE (g.total = 0) (.e 403) = .ok () := assertE_ok.2 ht
    simp only [exec, cancelFarm, h7, h8, h9, ok_bind, h1, h2, h3, expectE, h4, subW_ok.2 ⟨hc, rfl⟩]
    rfl

example : (c4.exec Demo.fl (y 1009 own) (.cancelFarm F)).isOk = false ∧
    ((c4.step Demo.fl ⟨y 1009 own, .createFarm L T 0 5⟩).exec Demo.fl (y 1009 own)
      (.cancelFarm "L#0".toList)).isOk = true := by decide +kernel

end Contract

end Verif.Boost

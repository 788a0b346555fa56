import Verif.Farming.ListView
import Verif.Farming.ViewProps
import Verif.Farming.StakeProps
import Verif.Farming.BookProps

/-
C65 for the views that list farms, seeds and rewards.
-/

namespace Verif.Farming
namespace Contract

variable {α β κ : Type}

/-- What was read for each key. -/
theorem read_all [DecidableEq κ] {m : FMap κ α} {keys : List κ} {l : List β} {id : β → κ}
    {R : κ → α → β → Prop} (hn : keys.Nodup) (hk : ∀ k, k ∈ keys ↔ m.contains k = true)
    (hl : List.Forall₂ (fun k b => ∃ a, m.get? k = some a ∧ R k a b) keys l)
    (hid : ∀ k a b, m.get? k = some a → R k a b → id b = k)
    (hR : ∀ k a b b', R k a b → R k a b' → b = b') :
    (l.map id).Nodup ∧ ∀ b, b ∈ l ↔ ∃ a, m.get? (id b) = some a ∧ R (id b) a b := by
  have hm : l.map id = keys := by
    clear hn hk
    induction hl with
    | nil => rfl
    | cons h _ ih =>
      obtain ⟨a, h1, h2⟩ := h
      rw [List.map_cons, ih, hid _ _ _ h1 h2]
  refine ⟨hm ▸ hn, fun b => ⟨fun hb => ?_, ?_⟩⟩
  · clear hn hk hm
    induction hl with
    | nil => cases hb
    | cons h _ ih =>
      rcases List.mem_cons.1 hb with rfl | hb
      · obtain ⟨a, h1, h2⟩ := h
        rw [hid _ _ _ h1 h2]
        exact ⟨a, h1, h2⟩
      · exact ih hb
  · rintro ⟨a, h1, h2⟩
    have : id b ∈ keys := (hk _).2 (by unfold FMap.contains; rw [h1]; rfl)
    clear hn hk hm
    induction hl with
    | nil => cases this
    | cons h _ ih =>
      rcases List.mem_cons.1 this with e | this
      · obtain ⟨a', h3, h4⟩ := h
        rw [← e] at h3 h4
        rw [h1] at h3
        cases h3
        rw [hR _ _ _ _ h2 h4]
        exact List.mem_cons_self ..
      · exact List.mem_cons_of_mem _ (ih this)

/-- **C65.** `list_farms`, read to the end in pages of any sizes, lists every live farm exactly once,
as `get_farm` reports it. -/
theorem C65_list_farms {c : Contract} (hr : c.Reachable) {now : Nat} {keys : List FarmId}
    (hn : keys.Nodup) (hk : ∀ id, id ∈ keys ↔ c.farms.contains id = true) {sizes : List Nat}
    {l : List FarmInfo} (h : readPages (c.listFarms now keys) 0 sizes = .ok l)
    (hs : keys.length ≤ sizes.sum) :
    (l.map (·.farmId)).Nodup ∧ ∀ i, i ∈ l ↔ c.getFarm now i.farmId = .ok (some i) := by
  have hl := key_pages (g := fun k => do
    let f ← expectE (c.farms.get? k) .other
    f.info now) h hs
  obtain ⟨h1, h2⟩ := read_all (R := fun _ (f : SimpleFarm) i => f.info now = .ok i)
    (id := FarmInfo.farmId) hn hk (hl.imp fun k i hi => by
      simp only [bind_ok, expectE_ok] at hi
      exact hi)
    (fun k f i hf hi => by rw [(f.info_same hi).1, (hr.inv.farms k f hf).id_eq])
    (fun _ f i j hi hj => by rw [hi] at hj; cases hj; rfl)
  exact ⟨h1, fun i => (h2 i).trans getFarm_some.symm⟩

/-- **C65.** The same for the archived farms. -/
theorem C65_list_outdated {c : Contract} (hr : c.Reachable) {now : Nat} {keys : List FarmId}
    (hn : keys.Nodup) (hk : ∀ id, id ∈ keys ↔ c.outdated.contains id = true) {sizes : List Nat}
    {l : List FarmInfo} (h : readPages (c.listOutdatedFarms now keys) 0 sizes = .ok l)
    (hs : keys.length ≤ sizes.sum) :
    (l.map (·.farmId)).Nodup ∧ ∀ i, i ∈ l ↔ c.getOutdatedFarm now i.farmId = .ok (some i) := by
  have hl := key_pages (g := fun k => do
    let f ← expectE (c.outdated.get? k) .other
    f.info now) h hs
  obtain ⟨h1, h2⟩ := read_all (R := fun _ (f : SimpleFarm) i => f.info now = .ok i)
    (id := FarmInfo.farmId) hn hk (hl.imp fun k i hi => by
      simp only [bind_ok, expectE_ok] at hi
      exact hi)
    (fun k f i hf hi => (C65_archived hr (getOutdatedFarm_some.2 ⟨f, hf, hi⟩)).1)
    (fun _ f i j hi hj => by rw [hi] at hj; cases hj; rfl)
  exact ⟨h1, fun i => (h2 i).trans getOutdatedFarm_some.symm⟩

/-- The amount a list gives for a key. -/
def listed [DecidableEq κ] (l : List (κ × Nat)) (k : κ) : Nat :=
  (l.map fun e => if e.1 = k then e.2 else 0).sum

theorem listed_entries [DecidableEq κ] (m : FMap κ Nat) (k : κ) : listed m.entries k = m.getD k 0 := by
  have h := m.nodup
  have key : ∀ es : List (κ × Nat), (es.map Prod.fst).Nodup →
      listed es k = (FMap.lookup es k).getD 0 := by
    intro es hes
    induction es with
    | nil => rfl
    | cons e es ih =>
      rw [List.map_cons, List.nodup_cons] at hes
      have ih := ih hes.2
      unfold listed at ih ⊢
      obtain ⟨k', v⟩ := e
      rw [List.map_cons, List.sum_cons, ih]
      have hl : FMap.lookup ((k', v) :: es) k = if k' = k then some v else FMap.lookup es k := rfl
      rw [hl]
      by_cases e : k' = k
      · subst e
        rw [FMap.lookup_none_of_not_mem _ hes.1]
        simp
      · simp [e]
  exact key _ h

/-- **C65.** `list_seeds`, read to the end, lists every seed exactly once, with the sum of what
`list_user_seeds` lists for all farmers. -/
theorem C65_list_seeds {c : Contract} (hr : c.Reachable) {keys : List SeedId}
    (hn : keys.Nodup) (hk : ∀ s, s ∈ keys ↔ c.seeds.contains s = true) {sizes : List Nat}
    {l : List (SeedId × Nat)} (h : readPages (c.listSeeds keys) 0 sizes = .ok l)
    (hs : keys.length ≤ sizes.sum) :
    (l.map Prod.fst).Nodup ∧ ∀ s n, (s, n) ∈ l ↔ c.seeds.contains s = true ∧
      n = (c.farmers.keys.map fun a => listed (c.listUserSeeds a) s).sum := by
  have hl := key_pages (g := fun k => do
    let s ← c.seed k
    .ok (k, s.amount)) h hs
  obtain ⟨h1, h2⟩ := read_all (R := fun k (fs : FarmSeed) b => b = (k, fs.amount))
    (id := Prod.fst) hn hk (hl.imp fun k b hb => by
      unfold seed at hb
      simp only [bind_ok, expectE_ok] at hb
      obtain ⟨fs, h1, h2⟩ := hb
      cases h2
      exact ⟨fs, h1, rfl⟩)
    (fun k fs b _ hb => by rw [hb])
    (fun _ fs i j hi hj => by rw [hi, hj])
  have hsum : ∀ s, (c.farmers.keys.map fun a => listed (c.listUserSeeds a) s).sum = c.seedTotal s := by
    intro s
    rw [C46_total hr s]
    unfold stakes FMap.sum FMap.keys
    rw [List.map_map]
    congr 1
    apply List.map_congr_left
    rintro ⟨a, u⟩ he
    have hg := (c.farmers.mem_entries_iff).1 he
    simp only [Function.comp, listUserSeeds, hg]
    exact listed_entries u.seeds s
  refine ⟨h1, fun s n => ?_⟩
  rw [hsum, h2]
  unfold seedTotal FMap.contains
  constructor
  · rintro ⟨fs, h3, h4⟩
    simp only at h3
    cases h4
    rw [h3]
    exact ⟨rfl, rfl⟩
  · rintro ⟨h3, rfl⟩
    obtain ⟨fs, h3⟩ := Option.isSome_iff_exists.1 h3
    refine ⟨fs, h3, ?_⟩
    rw [h3]

/-- **C65.** `list_rewards_info`, read to the end, lists every reward token exactly once, with all
that was ever sent to farms that pay it. -/
theorem C65_list_rewards {c : Contract} (hr : c.Reachable) {keys : List AccountId}
    (hn : keys.Nodup) (hk : ∀ t, t ∈ keys ↔ c.rewardInfo.contains t = true) {sizes : List Nat}
    {l : List (AccountId × Nat)} (h : readPages (c.listRewardsInfo keys) 0 sizes = .ok l)
    (hs : keys.length ≤ sizes.sum) :
    (l.map Prod.fst).Nodup ∧ ∀ t n, (t, n) ∈ l ↔ c.rewardInfo.contains t = true ∧ n = c.funded t := by
  have hl := key_pages (g := fun k => .ok (k, c.rewardInfo.getD k 0)) h hs
  have hm : l = keys.map fun t => (t, c.funded t) := by
    clear h hs hn hk
    induction hl with
    | nil => rfl
    | cons h _ ih =>
      have h := Except.ok.inj h
      rw [C62_reward_info hr] at h
      rw [List.map_cons, ← ih, h]
  subst hm
  refine ⟨by rw [List.map_map]; exact (List.map_id keys).symm ▸ hn, fun t n => ?_⟩
  rw [List.mem_map, ← hk]
  constructor
  · rintro ⟨t', ht, e⟩
    cases e
    exact ⟨ht, rfl⟩
  · rintro ⟨ht, rfl⟩
    exact ⟨t, ht, rfl⟩

/-- **C65.** What `list_user_seeds` and `list_rewards` list is what the farmer has staked and can
withdraw. -/
theorem C65_list_farmer {c : Contract} (a : AccountId) :
    (∀ s, listed (c.listUserSeeds a) s = c.stakeOf a s) ∧
    (∀ t, listed (c.listRewards a) t = c.rewardOf a t) ∧
    ((c.listUserSeeds a).map Prod.fst).Nodup ∧ ((c.listRewards a).map Prod.fst).Nodup := by
  unfold listUserSeeds listRewards stakeOf rewardOf
  cases c.farmers.get? a with
  | none => exact ⟨fun _ => rfl, fun _ => rfl, List.nodup_nil, List.nodup_nil⟩
  | some u =>
    exact ⟨fun s => listed_entries u.seeds s, fun t => listed_entries u.rewards t, u.seeds.nodup,
      u.rewards.nodup⟩

open Demo in
/-- One farm, one seed that two farmers staked, one reward token, read in two pages. -/
example : (readPages (c1.listFarms (1020 * 10 ^ 9) [F]) 0 [1, 3]).holds
    (fun l => l.map (fun i => (i.farmId, i.totalReward)) = [(F, 1000)]) = true ∧
  (readPages (c1.listSeeds c1.seeds.keys) 0 [1, 3]).holds
    (fun l => listed l S = listed (c1.listUserSeeds al) S + listed (c1.listUserSeeds bo) S ∧
      0 < listed (c1.listUserSeeds bo) S) = true ∧
  (readPages (c1.listRewardsInfo [R']) 0 [1, 3]).holds (fun l => l = [(R', 1000)]) = true := by
  decide +kernel

open Demo in
/-- An archived farm. -/
example : (readPages ((c3.step (.call (at' 1300 own) (.forceCleanFarm F))).listOutdatedFarms
    (1400 * 10 ^ 9) [F]) 0 [1]).holds
    (fun l => l.map (fun i => (i.farmId, i.status)) = [(F, .cleared)]) = true := by decide +kernel

end Contract
end Verif.Farming

import Verif.Boost.Restake

/-
The calls that change a seed or its farms without changing stakes.
-/

namespace Verif.Boost

/-- A change of a seed that leaves its stakes alone: its farms are those it had, perhaps with more
reward, or new, and farms may move to the removed ones. -/
structure Edit (s : SeedId) (sd : Seed) (out : FMap FarmId SeedFarm) (sd' : Seed)
    (out' : FMap FarmId SeedFarm) : Prop where
  id : sd'.id = sd.id
  amount : sd'.amount = sd.amount
  power : sd'.power = sd.power
  next : sd.nextIndex ≤ sd'.nextIndex
  farm : ∀ id f', sd'.farms.get? id = some f' →
    (∃ f, sd.farms.get? id = some f ∧ f'.rps = f.rps ∧ f'.claimed = f.claimed ∧
      f'.beneficiary = f.beneficiary ∧ f'.distributed = f.distributed ∧ f.total ≤ f'.total) ∨
    (∃ i, sd.nextIndex ≤ i ∧ i < sd'.nextIndex ∧ id = genFarmId s i ∧ f'.rps = 0 ∧ f'.claimed = 0 ∧
      f'.beneficiary = 0 ∧ f'.distributed = 0)
  moved : ∀ id f, out'.get? id = some f → out.get? id = some f ∨
    ((∃ i < sd'.nextIndex, id = genFarmId s i) ∧ sd'.farms.get? id = none ∧
      f.claimed + f.beneficiary ≤ f.total)
  rewards : ∀ t, sd.farms.sum (fun _ => SeedFarm.claimedIn t) + out.sum (fun _ => SeedFarm.claimedIn t) =
    sd'.farms.sum (fun _ => SeedFarm.claimedIn t) + out'.sum (fun _ => SeedFarm.claimedIn t)

theorem Inv.edit {fl : Floats} {c : Contract} (h : Inv fl c) {s : SeedId} {sd sd' : Seed}
    {out' : FMap FarmId SeedFarm} (hs : c.seeds.get? s = some sd) (ed : Edit s sd c.outdated sd' out') :
    Inv fl { c.setSeed s sd' with outdated := out' } := by
  have sget : ∀ {r sr}, (c.seeds.insert s sd').get? r = some sr →
      (r = s ∧ sr = sd') ∨ (r ≠ s ∧ c.seeds.get? r = some sr) := by
    intro r sr hr
    rw [FMap.get?_insert] at hr
    split at hr
    · cases hr; exact .inl ⟨by assumption, rfl⟩
    · exact .inr ⟨by assumption, hr⟩
  refine ⟨?_, ?_, ?_, ?_, ?_, ?_, ?_, ?_, ?_, h.boost, ?_, h.x⟩
  · intro r sr hr
    rcases sget hr with ⟨rfl, rfl⟩ | ⟨_, hr⟩
    · rw [ed.id]; exact h.ids _ _ hs
    · exact h.ids _ _ hr
  · intro r sr hr
    rcases sget hr with ⟨rfl, rfl⟩ | ⟨_, hr⟩
    · rw [ed.amount]; exact h.amount _ _ hs
    · exact h.amount _ _ hr
  · intro r sr hr
    rcases sget hr with ⟨rfl, rfl⟩ | ⟨_, hr⟩
    · rw [ed.power]; exact h.power _ _ hs
    · exact h.power _ _ hr
  · intro a u r hu hr
    change (c.seeds.insert s sd').get? r = none at hr
    rw [FMap.get?_insert] at hr
    split at hr
    · cases hr
    · exact h.orphan a u r hu hr
  · intro r sr id f hr hf
    rcases sget hr with ⟨rfl, rfl⟩ | ⟨_, hr⟩
    · rcases ed.farm id f hf with ⟨f0, hf0, _⟩ | ⟨i, _, hi, hid, _⟩
      · obtain ⟨i, hi, hid⟩ := h.farmIds _ _ id f0 hs hf0
        exact ⟨i, by have := ed.next; omega, hid⟩
      · exact ⟨i, hi, hid⟩
    · exact h.farmIds _ _ id f hr hf
  · intro id f hf
    rcases ed.moved id f hf with hf | ⟨⟨i, hi, hid⟩, hno, _⟩
    · obtain ⟨r, sr, i, hr, hi, hid, hno⟩ := h.outIds id f hf
      by_cases hrs : r = s
      · subst hrs
        rw [hs] at hr
        cases hr
        refine ⟨r, sd', i, FMap.get?_insert_self _ _ _, by have := ed.next; omega, hid, ?_⟩
        cases hf' : sd'.farms.get? id with
        | none => rfl
        | some f' =>
          rcases ed.farm id f' hf' with ⟨f0, hf0, _⟩ | ⟨j, hj, _, hjd, _⟩
          · rw [hno] at hf0; cases hf0
          · have := (genFarmId_inj (hid.symm.trans hjd)).2
            omega
      · exact ⟨r, sr, i, by show (c.seeds.insert s sd').get? r = _
                            rw [FMap.get?_insert_ne _ _ hrs, hr], hi, hid, hno⟩
    · exact ⟨s, sd', i, FMap.get?_insert_self _ _ _, hi, hid, hno⟩
  · intro a u r v id q hu hv hq
    obtain ⟨sr, i, hr, hi, hid, hle⟩ := h.rps a u r v id q hu hv hq
    by_cases hrs : r = s
    · subst hrs
      rw [hs] at hr
      cases hr
      refine ⟨sd', i, FMap.get?_insert_self _ _ _, by have := ed.next; omega, hid, ?_⟩
      intro f hf
      rcases ed.farm id f hf with ⟨f0, hf0, e, _⟩ | ⟨j, hj, _, hjd, _⟩
      · rw [e]; exact hle f0 hf0
      · have := (genFarmId_inj (hid.symm.trans hjd)).2
        omega
    · exact ⟨sr, i, by show (c.seeds.insert s sd').get? r = _
                       rw [FMap.get?_insert_ne _ _ hrs, hr], hi, hid, hle⟩
  · intro r sr id f hr hf
    rcases sget hr with ⟨rfl, rfl⟩ | ⟨_, hr⟩
    · rcases ed.farm id f hf with ⟨f0, hf0, e1, e2, e3, e4, e5⟩ | ⟨i, _, _, _, e1, e2, e3, e4⟩
      · have b := h.books _ _ id f0 hs hf0
        have b1 := b.le
        refine ⟨by omega, fun h0 => by rw [e1]; exact b.zero (by omega), ?_⟩
        show _ + c.pending fl r id f ≤ _
        have b3 := b.owed
        unfold Contract.pending at b3 ⊢
        rw [e1, e2, e3, e4]
        exact b3
      · refine ⟨by omega, fun _ => e1, ?_⟩
        show _ + c.pending fl r id f ≤ _
        have : c.pending fl r id f = 0 := by
          unfold Contract.pending
          rw [e1, c.farmers.sum_congr _ (fun _ _ => 0) (fun _ _ _ => by rw [Nat.zero_sub, Nat.mul_zero])]
          have := c.farmers.sum_mul (fun _ _ => 0) 0
          simp only [Nat.mul_zero] at this
          omega
        rw [this, e2, e3, e4]
        simp
    · have b := h.books _ _ id f hr hf
      exact ⟨b.le, b.zero, b.owed⟩
  · intro id f hf
    rcases ed.moved id f hf with hf | ⟨_, _, h3⟩
    · exact h.outBooks id f hf
    · exact h3
  · intro t
    have e1 := sum_setSeed (sd' := sd') hs (fun _ => SeedFarm.claimedIn t)
    have e2 := ed.rewards t
    have e3 := h.rewards t
    unfold Contract.credited Contract.claimedOf at *
    show c.farmers.sum _ = (c.seeds.insert s sd').sum _ + out'.sum _
    omega

/-- A change of one farm of a seed, or of the settings of the seed. -/
theorem Edit.same {s : SeedId} {sd sd' : Seed} {out : FMap FarmId SeedFarm} (h1 : sd'.id = sd.id)
    (h2 : sd'.amount = sd.amount) (h3 : sd'.power = sd.power) (h4 : sd'.nextIndex = sd.nextIndex)
    (h5 : sd'.farms = sd.farms) : Edit s sd out sd' out := by
  refine ⟨h1, h2, h3, by omega, ?_, fun _ _ h => .inl h, fun _ => by rw [h5]⟩
  intro id f hf
  rw [h5] at hf
  exact .inl ⟨f, hf, rfl, rfl, rfl, rfl, Nat.le_refl _⟩

theorem Edit.farm' {s : SeedId} {sd : Seed} {out : FMap FarmId SeedFarm} {id : FarmId}
    {f g : SeedFarm} (hf : sd.farms.get? id = some f) (e0 : g.token = f.token) (e1 : g.rps = f.rps)
    (e2 : g.claimed = f.claimed) (e3 : g.beneficiary = f.beneficiary)
    (e4 : g.distributed = f.distributed) (e5 : f.total ≤ g.total) :
    Edit s sd out { sd with farms := sd.farms.insert id g } out := by
  refine ⟨rfl, rfl, rfl, Nat.le_refl _, ?_, fun _ _ h => .inl h, ?_⟩
  · intro i f' hi
    change (sd.farms.insert id g).get? i = some f' at hi
    rw [FMap.get?_insert] at hi
    split at hi
    · cases hi
      subst_vars
      exact .inl ⟨f, hf, e1, e2, e3, e4, e5⟩
    · exact .inl ⟨f', hi, rfl, rfl, rfl, rfl, Nat.le_refl _⟩
  · intro t
    show _ = (sd.farms.insert id g).sum _ + _
    rw [sd.farms.sum_insert_same _ id f g hf]
    unfold SeedFarm.claimedIn
    rw [e0, e2]

end Verif.Boost

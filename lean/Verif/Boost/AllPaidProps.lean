import Verif.Boost.FairProps
import Mathlib.Algebra.BigOperators.Group.Finset.Basic
import Mathlib.Algebra.BigOperators.Field
import Mathlib.Algebra.BigOperators.Ring.Finset
import Mathlib.Algebra.Order.BigOperators.Group.Finset

/-
C105: what farms of the boost farming contract release does not get stuck.
-/

namespace Verif.Boost

/-- What a farm has released and neither paid nor put aside for the beneficiary: `distributed_reward`
less `claimed_reward` and `amount_of_beneficiary` of `get_farm`. -/
def SeedFarm.open (f : SeedFarm) : Nat := f.distributed - f.claimed - f.beneficiary

namespace Contract

variable {fl : Floats} {c c' : Contract}

/-- The registered accounts. -/
def accounts (c : Contract) : Finset AccountId := c.farmers.keys.toFinset

theorem mem_accounts {a : AccountId} {u : Farmer} (h : c.farmers.get? a = some u) : a ∈ c.accounts := by
  unfold accounts
  rw [List.mem_toFinset]
  unfold FMap.keys
  exact List.mem_map.2 ⟨(a, u), (c.farmers.mem_entries_iff).2 h, rfl⟩

theorem stakeOf_outside {a : AccountId} (h : a ∉ c.accounts) (s : SeedId) :
    c.stakeOf a s = FarmerSeed.zero := by
  unfold stakeOf
  cases hu : c.farmers.get? a with
  | none => rfl
  | some u => exact absurd (mem_accounts hu) h

theorem pow_outside {a : AccountId} (h : a ∉ c.accounts) (s : SeedId) :
    (c.stakeOf a s).pow fl = 0 := by
  rw [stakeOf_outside h]; exact FarmerSeed.pow_zero rfl

open Finset in
/-- The powers of all accounts add up. -/
theorem powers_sum (s : SeedId) {S : Finset AccountId} (hS : c.accounts ⊆ S) :
    c.powers fl s = ∑ a ∈ S, (c.stakeOf a s).pow fl := by
  have h1 : c.powers fl s = ∑ a ∈ c.accounts, (c.stakeOf a s).pow fl := by
    unfold powers FMap.sum accounts FMap.keys
    rw [List.sum_toFinset _ c.farmers.nodup]
    rw [List.map_map]
    congr 1
    refine List.map_congr_left fun p hp => ?_
    have := (c.farmers.mem_entries_iff (k := p.1) (v := p.2)).1 hp
    simp only [Function.comp]
    unfold stakeOf
    rw [this]
  rw [h1]
  exact Finset.sum_subset hS fun a _ ha => pow_outside ha s

theorem open_cast (hI : Inv fl c) {s : SeedId} {id : FarmId} {f : SeedFarm}
    (hf : c.farmOf s id = some f) :
    (f.open : ℚ) = (f.distributed : ℚ) - f.claimed - f.beneficiary ∧
    f.claimed + f.beneficiary ≤ f.distributed := by
  obtain ⟨sd, hs, hfs⟩ := farmOf_some hf
  have b := (hI.books s sd id f hs hfs).owed
  have h0 : 0 < D27 := by decide
  have h1 : f.claimed + f.beneficiary ≤ f.distributed :=
    Nat.le_of_mul_le_mul_left (Nat.le_trans (Nat.le_add_right _ _) b) h0
  refine ⟨?_, h1⟩
  unfold SeedFarm.open
  rw [Nat.cast_sub (by omega), Nat.cast_sub (by omega)]

open Finset in
/-- The account of one call, for all farmers together. -/
theorem event_total (hI : Inv fl c) (e : Event) {s : SeedId} {id : FarmId} {f f' : SeedFarm}
    (hf : c.farmOf s id = some f) (hf' : (c.step fl e).farmOf s id = some f')
    {S : Finset AccountId} (hS : c.accounts ⊆ S) :
    (f'.open : ℚ) - ∑ a ∈ S, pend fl (c.step fl e) a s id f' ≤
      f.open - ∑ a ∈ S, pend fl c a s id f +
        (if (e.k.actor e.x).isSome then 1 else 0 : Nat) + (c.powerOf s : ℚ) / D27 := by
  obtain ⟨sd, hs, hfs⟩ := farmOf_some hf
  have mv := step_farm hI e hs hfs hf'
  obtain ⟨r, hd, _, hb⟩ := mv.released
  obtain ⟨o1, _⟩ := open_cast hI hf
  obtain ⟨o2, _⟩ := open_cast (hI.step e) hf'
  have hP : c.powerOf s = sd.power := by unfold powerOf; rw [hs]; rfl
  have hrel : c.releasedBy s id = f.distributed := by unfold releasedBy; rw [hf]; rfl
  have hrel' : (c.step fl e).releasedBy s id = f'.distributed := by unfold releasedBy; rw [hf']; rfl
  have hpd : c.paidBy s id = f.claimed := by unfold paidBy; rw [hf]; rfl
  have hpd' : (c.step fl e).paidBy s id = f'.claimed := by unfold paidBy; rw [hf']; rfl
  have hst : ∑ a ∈ S, ((c.stakeOf a s).pow fl : ℚ) = c.powerOf s := by
    rw [hP, hI.power s sd hs, powers_sum s hS]
    push_cast
    rfl
  have hmono : f.claimed ≤ f'.claimed := by
    cases hact : e.k.actor e.x with
    | none => rw [mv.quiet hact]
    | some b =>
      rcases mv.each b with ⟨_, h2⟩ | ⟨_, h2, _⟩
      · rw [h2 hact]
      · omega
  have hall := Finset.sum_le_sum fun a (_ : a ∈ S) => (event_account hI e a hf hf').2
  simp only [Finset.sum_add_distrib] at hall
  rw [← Finset.sum_div, ← Finset.sum_div, ← Finset.sum_mul, hst, hrel, hrel', hpd, hpd'] at hall
  have hp : ∑ a ∈ S, ((if e.k.actor e.x = some a then f'.claimed - f.claimed else 0 : Nat) : ℚ) ≤
      (f'.claimed : ℚ) - f.claimed := by
    rw [← Nat.cast_sub hmono]
    cases he : e.k.actor e.x with
    | none => simp
    | some b =>
      simp only [Option.some.injEq, Nat.cast_ite, Nat.cast_zero]
      rw [Finset.sum_ite_eq]
      split
      · exact le_refl _
      · positivity
  have ho : ∑ a ∈ S, (if e.k.actor e.x = some a then 1 else 0 : ℚ) ≤
      ((if (e.k.actor e.x).isSome then 1 else 0 : Nat) : ℚ) := by
    cases he : e.k.actor e.x with
    | none => simp
    | some b =>
      simp only [Option.some.injEq, Option.isSome_some, if_true, Nat.cast_one]
      rw [Finset.sum_ite_eq]
      split
      · exact le_refl _
      · norm_num
  -- what is released for the farmers is the share of all of them
  have hrl : (f'.distributed : ℚ) - f.distributed - (f'.beneficiary - f.beneficiary) ≤
      (c.powerOf s : ℚ) * ((f'.distributed : ℚ) - f.distributed) / c.powerOf s := by
    rw [hd, hb, hP]
    by_cases h0 : sd.power = 0
    · rw [if_neg (by omega), h0]
      push_cast
      simp
    · have hq : (sd.power : ℚ) ≠ 0 := by exact_mod_cast h0
      rw [if_pos (by omega), mul_div_cancel_left₀ _ hq]
      push_cast
      simp
  rw [o1, o2]
  linarith

/-- The powers of a seed before each call of a history, added up. -/
def totalOver (fl : Floats) (s : SeedId) : Contract → List Event → Nat
  | _, [] => 0
  | c, e :: es => c.powerOf s + totalOver fl s (c.step fl e) es

theorem run_total : ∀ (es : List Event) {c : Contract}, Inv fl c → ∀ {s : SeedId} {id : FarmId}
    {f f' : SeedFarm}, c.farmOf s id = some f → (c.run fl es).farmOf s id = some f' →
    (f'.open : ℚ) - ∑ a ∈ (c.run fl es).accounts, pend fl (c.run fl es) a s id f' ≤
      f.open - ∑ a ∈ c.accounts, pend fl c a s id f +
        (es.countP fun e => (e.k.actor e.x).isSome : Nat) + (totalOver fl s c es : ℚ) / D27 := by
  intro es
  induction es with
  | nil =>
    intro c _ s id f f' hf hf'
    have hrun : c.run fl [] = c := rfl
    rw [hrun] at hf' ⊢
    rw [hf] at hf'
    cases hf'
    simp only [totalOver, List.countP_nil]
    simp
  | cons e es ih =>
    intro c hI s id f f' hf hf'
    have hrun : c.run fl (e :: es) = (c.step fl e).run fl es := rfl
    rw [hrun] at hf' ⊢
    have wide : ∀ (d : Contract) (g : SeedFarm) (S : Finset AccountId), d.accounts ⊆ S →
        ∑ a ∈ d.accounts, pend fl d a s id g = ∑ a ∈ S, pend fl d a s id g := by
      intro d g S hS
      refine Finset.sum_subset hS fun a _ ha => ?_
      unfold pend
      rw [pow_outside ha]
      simp
    obtain ⟨sd, hs, hfs⟩ := farmOf_some hf
    obtain ⟨i, hi, rfl⟩ := hI.farmIds s sd id f hs hfs
    obtain ⟨sd1, hs1, hm⟩ := step_moves hI e s sd hs
    obtain ⟨g, hg⟩ := run_live es (hI.step e) hs1 (Nat.lt_of_lt_of_le hi hm.next) hf'
    have h1 := ih (hI.step e) hg hf'
    have h2 := event_total hI e hf hg (S := c.accounts ∪ (c.step fl e).accounts)
      Finset.subset_union_left
    rw [← wide c f _ Finset.subset_union_left, ← wide (c.step fl e) g _ Finset.subset_union_right] at h2
    simp only [totalOver, List.countP_cons]
    rw [Nat.cast_add, Nat.cast_add, add_div]
    linarith

/-- **C105.** From any state `c`, after any history `es`: when every account has been paid what a farm
has released for it, or has no power, then what the farm has released and neither paid nor left to the
beneficiary has grown by at most one unit for every call that stakes, locks, unlocks or claims and
`10^-27` of the seed's power for every call. -/
theorem C105_nothing_stuck (hr : c.Reachable fl) {s : SeedId} {id : FarmId} {f f' : SeedFarm}
    (hf : c.farmOf s id = some f) (es : List Event) (hf' : (c.run fl es).farmOf s id = some f')
    (hend : ∀ a, (c.run fl es).CaughtUp a s id ∨ ((c.run fl es).stakeOf a s).pow fl = 0) :
    (f'.open : ℚ) ≤ f.open + (es.countP fun e => (e.k.actor e.x).isSome : Nat) +
      (totalOver fl s c es : ℚ) / D27 := by
  have h := run_total es hr.inv hf hf'
  have h1 : ∑ a ∈ (c.run fl es).accounts, pend fl (c.run fl es) a s id f' = 0 :=
    Finset.sum_eq_zero fun a _ => pend_zero hf' (hend a)
  have h2 : 0 ≤ ∑ a ∈ c.accounts, pend fl c a s id f :=
    Finset.sum_nonneg fun a _ => pend_nonneg hr.inv a hf
  rw [h1] at h
  linarith

/-- **C105.** What a farm has received is what it has paid, what belongs to the beneficiary, what is
open and what it has not released yet. -/
theorem C105_where_it_went (hr : c.Reachable fl) {s : SeedId} {id : FarmId} {f : SeedFarm}
    (hf : c.farmOf s id = some f) :
    f.total = f.claimed + f.beneficiary + f.open + (f.total - f.distributed) ∧
    f.distributed ≤ f.total := by
  obtain ⟨sd, hs, hfs⟩ := farmOf_some hf
  have h1 := (hr.inv.books s sd id f hs hfs).le
  have h2 := (open_cast hr.inv hf).2
  unfold SeedFarm.open
  omega

open Demo in
/-- In `c1` nothing has been paid. `al` claims, stakes in the booster, `bo` unlocks, both claim: of 700
released two units stay open. -/
example :
    let es : List Event := [⟨at' 1003 al, .claimReward S⟩, ⟨at' 1004 L, .ftOnTransfer al 4 .free⟩,
      ⟨y 1005 bo, .forceUnlock S 500⟩, ⟨at' 1007 al, .claimReward S⟩, ⟨at' 1007 bo, .claimReward S⟩]
    (c1.farmOf S F).map (fun f => (f.distributed, f.claimed, f.beneficiary, f.open)) =
      some (100, 0, 100, 0) ∧
    ((c1.run Demo.fl es).farmOf S F).map (fun f => (f.distributed, f.claimed, f.beneficiary, f.open)) =
      some (700, 598, 100, 2) ∧
    (∀ a ∈ [al, bo], ((c1.run Demo.fl es).farmOf S F).map (·.rps) =
      some (((c1.run Demo.fl es).stakeOf a S).userRps.getD F 0)) := by
  decide +kernel

end Contract
end Verif.Boost

import Verif.Exchange.SwapProps
import Verif.Exchange.PoolProps

/-
C40: swap volumes.
-/

namespace Verif

/-! ### Vocabulary -/

/-- What the swaps took of token `t` into pool `id`. -/
def takenBy (steps : List SwapStep) (id : Nat) (t : AccountId) : Nat :=
  (steps.map fun s => if s.pool = id ∧ s.tokIn = t then s.amtIn else 0).sum

/-- What the swaps gave of token `t` out of pool `id`. -/
def givenBy (steps : List SwapStep) (id : Nat) (t : AccountId) : Nat :=
  (steps.map fun s => if s.pool = id ∧ s.tokOut = t then s.amtOut else 0).sum

/-- What came out of pool `id` in exchange for token `t`. -/
def givenFor (steps : List SwapStep) (id : Nat) (t : AccountId) : Nat :=
  (steps.map fun s => if s.pool = id ∧ s.tokIn = t then s.amtOut else 0).sum

/-- The volumes a pool reports at token `t`: what was swapped in of it, and, in a constant-product
pool, what came out for it, in a stable-swap pool, what came out of it. -/
def Pool.traded (p : Pool) (steps : List SwapStep) (id : Nat) (t : AccountId) : Nat × Nat :=
  match p with
  | .simple _ => (takenBy steps id t, givenFor steps id t)
  | .curve _ => (takenBy steps id t, givenBy steps id t)

/-- The view `get_pool_volumes` (`views.rs:452-466`) at the `i`-th token of the pool. -/
def Contract.volume (c : Contract) (id i : Nat) : Nat × Nat :=
  match c.pools[id]? with
  | some p => (c.volumesOf id p).getD i (0, 0)
  | none => (0, 0)

/-- The amount the first action of a list can leave open: in an instant swap, what arrived. -/
def Call.opening : Call → ActionResult
  | .ftOnTransfer _ n (.execute _ (.swap _ :: _) _ _ _) => some n
  | .ftOnTransfer _ n (.hotZap _ (.swap _ :: _) _) => some n
  | _ => none

/-- The referral named in a call. -/
def Call.referral : Call → Option AccountId
  | .executeActions _ r | .executeInVa _ _ r => r
  | .ftOnTransfer _ _ (.execute r _ _ _ _) | .ftOnTransfer _ _ (.hotZap r _ _) => r
  | _ => none

namespace Contract

/-- `steps` are the swaps that this successful event makes: those its list of actions asks for, one
after the other, starting from the pools as they were. -/
def Makes (c : Contract) : Event → List SwapStep → Prop
  | .call x k, steps =>
    match k.actions with
    | some actions => ∃ res c1, Swaps x.now (c.referralInfo k.referral) c steps c1 ∧
        Follows k.opening actions steps res
    | none => steps = []
  | _, steps => steps = []

/-- `steps` are the swaps made by a history; receipts that panic make none. -/
def History : Contract → List Event → List SwapStep → Prop
  | _, [], steps => steps = []
  | c, e :: es, steps => ∃ s1 s2, steps = s1 ++ s2 ∧
      (match c.apply e with
        | .ok _ => c.Makes e s1
        | .error _ => s1 = []) ∧ History (c.step e) es s2

end Contract

/-! ### Sums -/

theorem Pool.traded_nil (p : Pool) (id : Nat) (t : AccountId) : p.traded [] id t = (0, 0) := by
  cases p <;> rfl

theorem Pool.traded_append (p : Pool) (l l' : List SwapStep) (id : Nat) (t : AccountId) :
    p.traded (l ++ l') id t =
      ((p.traded l id t).1 + (p.traded l' id t).1, (p.traded l id t).2 + (p.traded l' id t).2) := by
  cases p <;> simp [traded, takenBy, givenBy, givenFor]

theorem Pool.traded_shape {p q : Pool} (h : q.shape = p.shape) (l : List SwapStep) (id : Nat)
    (t : AccountId) : q.traded l id t = p.traded l id t := by
  cases p <;> cases q <;> first | rfl | cases h

theorem Pool.traded_other (p : Pool) {l : List SwapStep} {id : Nat} (t : AccountId)
    (h : ∀ s ∈ l, s.pool ≠ id) : p.traded l id t = (0, 0) := by
  have z : ∀ f : SwapStep → Nat, (∀ s ∈ l, f s = 0) → (l.map f).sum = 0 := by
    intro f hf
    rw [List.sum_eq_zero_iff_forall_eq_nat]
    intro x hx
    obtain ⟨s, hs, rfl⟩ := List.mem_map.1 hx
    exact hf s hs
  cases p <;> simp only [traded, takenBy, givenBy, givenFor] <;>
    rw [z _ fun s hs => if_neg fun e => h s hs e.1, z _ fun s hs => if_neg fun e => h s hs e.1]

namespace Contract

/-- Every pool has one pair of volumes for each of its tokens. -/
def Aligned (c : Contract) : Prop :=
  ∀ (id : Nat) (p : Pool), c.pools[id]? = some p → (c.volumesOf id p).length = p.tokens.length

/-- The reported volumes grow by the swaps. -/
structure Volumes (c : Contract) (steps : List SwapStep) (c' : Contract) : Prop where
  pools : ∀ s ∈ steps, s.pool < c'.pools.length
  shape : ∀ (id : Nat) (p : Pool), c.pools[id]? = some p →
    ∃ q, c'.pools[id]? = some q ∧ q.shape = p.shape
  counts : ∀ (id : Nat) (p : Pool) (i : Nat) (t : AccountId), c'.pools[id]? = some p →
    p.tokens[i]? = some t → c'.volume id i =
      ((c.volume id i).1 + (p.traded steps id t).1, (c.volume id i).2 + (p.traded steps id t).2)
  lengths : c.Aligned → c'.Aligned

theorem Volumes.length {c c' : Contract} {steps : List SwapStep} (h : c.Volumes steps c') :
    c.pools.length ≤ c'.pools.length := by
  by_contra hc
  obtain ⟨q, hq, -⟩ := h.shape c'.pools.length _ (List.getElem?_eq_getElem (Nat.lt_of_not_le hc))
  exact absurd (List.getElem?_eq_some_iff.1 hq).1 (Nat.lt_irrefl _)

theorem Volumes.trans {c c1 c2 : Contract} {l l' : List SwapStep} (h : c.Volumes l c1)
    (g : c1.Volumes l' c2) : c.Volumes (l ++ l') c2 := by
  refine ⟨fun s hs => ?_, fun id p hp => ?_, fun id p i t hp ht => ?_, fun ha => g.lengths (h.lengths ha)⟩
  · rcases List.mem_append.1 hs with hs | hs
    · exact Nat.lt_of_lt_of_le (h.pools s hs) g.length
    · exact g.pools s hs
  · obtain ⟨q, hq, e⟩ := h.shape id p hp
    obtain ⟨r, hr, e'⟩ := g.shape id q hq
    exact ⟨r, hr, e'.trans e⟩
  · rw [g.counts id p i t hp ht, p.traded_append]
    cases hq : c1.pools[id]? with
    | some q =>
      obtain ⟨r, hr, e⟩ := g.shape id q hq
      rw [hp] at hr; cases hr
      rw [h.counts id q i t hq (by rw [← Pool.tokens_of_shape e]; exact ht), Pool.traded_shape e l,
        Pool.traded_shape e l']
      simp only [Nat.add_assoc]
    | none =>
      have hn : c.pools[id]? = none := by
        cases hc : c.pools[id]? with
        | none => rfl
        | some r => obtain ⟨_, hq', -⟩ := h.shape id r hc; rw [hq] at hq'; cases hq'
      have h1 : c1.volume id i = (0, 0) := by simp only [volume, hq]
      have h0 : c.volume id i = (0, 0) := by simp only [volume, hn]
      rw [h1, h0, p.traded_other t (l := l) fun s hs e => ?_]
      · simp
      · have := h.pools s hs
        rw [List.getElem?_eq_none_iff] at hq
        omega

/-- Events that record no volume and create no pool. -/
theorem Volumes.still {c c' : Contract} (hp : PoolsTo c.pools c'.pools)
    (hl : c'.pools.length = c.pools.length) (hv : c'.volumes = c.volumes) : c.Volumes [] c' := by
  have old : ∀ (id : Nat) (p : Pool), c'.pools[id]? = some p →
      ∃ q, c.pools[id]? = some q ∧ p.tokens = q.tokens := by
    intro id p hi
    have hlt := (List.getElem?_eq_some_iff.1 hi).1
    have hq := List.getElem?_eq_getElem (hl ▸ hlt)
    obtain ⟨q, hq', e⟩ := hp.shape id _ hq
    rw [hi] at hq'; cases hq'
    exact ⟨_, hq, Pool.tokens_of_shape e⟩
  refine ⟨fun s hs => (by cases hs), hp.shape, fun id p i t hi ht => ?_, fun ha id p hi => ?_⟩
  · obtain ⟨q, hq, e⟩ := old id p hi
    simp only [volume, hi, hq, volumesOf, hv, e, Pool.traded_nil, Nat.add_zero]
  · obtain ⟨q, hq, e⟩ := old id p hi
    have := ha id q hq
    simp only [volumesOf, hv, e] at this ⊢
    exact this

theorem recordVolume_exact {c c' : Contract} {id a out : Nat} {p : Pool} {ti tout : AccountId}
    {vols : List (Nat × Nat)} (h : c.recordVolume id p ti tout a out vols = .ok c') :
    ∃ i o new, p.tokens[i]? = some ti ∧
      (match p with
        | .simple _ => o = i
        | .curve _ => p.tokens[o]? = some tout) ∧
      c'.volumes = c.volumes.insert (id % 2 ^ 32) new ∧
      (∀ j, new.getD j (0, 0) = ((vols.getD j (0, 0)).1 + (if j = i then a else 0),
        (vols.getD j (0, 0)).2 + (if j = o then out else 0))) ∧ new.length = vols.length := by
  unfold recordVolume at h
  unpack at h
  obtain ⟨i, hi, o, ho, v1, v2, hv, -, w1, w2, hw, -, rfl⟩ := h
  have hi' : p.tokens[i]? = some ti := by
    obtain ⟨hlt, he, -⟩ := List.findIdx?_eq_some_iff_getElem.1 hi
    rw [List.getElem?_eq_getElem hlt, of_decide_eq_true he]
  have hlt := (List.getElem?_eq_some_iff.1 hv).1
  refine ⟨i, o, _, hi', ?_, rfl, fun j => ?_, by simp⟩
  · cases p with
    | simple p => simp only [Except.ok.injEq] at ho; exact ho.symm
    | curve p =>
      simp only [expectE_ok] at ho
      obtain ⟨hlt, he, -⟩ := List.findIdx?_eq_some_iff_getElem.1 ho
      rw [List.getElem?_eq_getElem hlt, of_decide_eq_true he]
  · have hlo : o < vols.length := by
      have := (List.getElem?_eq_some_iff.1 hw).1
      simpa using this
    simp only [List.getD_eq_getElem?_getD, List.getElem?_set, List.length_set] at hw ⊢
    by_cases h1 : o = j
    · subst h1
      rw [if_pos rfl, if_pos hlo, if_pos rfl]
      by_cases h2 : i = o
      · subst h2
        rw [if_pos rfl, if_pos hlt] at hw
        cases hw
        rw [if_pos rfl, hv]; rfl
      · rw [if_neg h2] at hw
        rw [if_neg (Ne.symm h2), hw]; rfl
    · rw [if_neg h1, if_neg (Ne.symm h1)]
      by_cases h2 : i = j
      · subst h2
        rw [if_pos rfl, if_pos hlt, if_pos rfl, hv]; rfl
      · rw [if_neg h2, if_neg (Ne.symm h2)]; rfl

theorem SwapsTo.volumes {now : Nat} {ref : Option (AccountId × Nat)} {c c' : Contract}
    {s : SwapStep} (h : c.SwapsTo now ref s c') (hs : ∀ p ∈ c.pools, p.Sound)
    (hl : c.pools.length ≤ 2 ^ 32) : c.Volumes [s] c' := by
  have hpt := h.poolsTo
  obtain ⟨tw, vs, p, q, hp, ht, hv, rfl⟩ := h.ok
  have hlt := (List.getElem?_eq_some_iff.1 hp).1
  refine ⟨fun u hu => ?_, hpt.shape, fun id r i t hr hi => ?_, fun hal id r hr => ?_⟩
  · rw [List.mem_singleton.1 hu]; simpa using hlt
  · obtain ⟨a, b, new, ha, hb, hn, hc, -⟩ := recordVolume_exact hv
    simp only at hn
    have hnd : q.tokens.Nodup := by
      rw [Pool.tokens_of_shape ht.shape]; exact (hs p (List.mem_of_getElem? hp)).nodup
    have uniq : ∀ {j k : Nat} {u v : AccountId}, q.tokens[j]? = some u → q.tokens[k]? = some v →
        (k = j ↔ u = v) := by
      intro j k u v h1 h2
      obtain ⟨l1, rfl⟩ := List.getElem?_eq_some_iff.1 h1
      obtain ⟨l2, rfl⟩ := List.getElem?_eq_some_iff.1 h2
      rw [hnd.getElem_inj_iff]
      exact eq_comm
    simp only at hr
    rw [getElem?_set_some hp] at hr
    have hid : id < c.pools.length := by
      by_cases hid : id = s.pool
      · rw [hid]; exact hlt
      · rw [if_neg hid] at hr; exact (List.getElem?_eq_some_iff.1 hr).1
    have m1 : id % 2 ^ 32 = id := Nat.mod_eq_of_lt (by omega)
    have m2 : s.pool % 2 ^ 32 = s.pool := Nat.mod_eq_of_lt (by omega)
    by_cases hid : id = s.pool
    · subst hid
      rw [if_pos rfl] at hr; cases hr
      have e1 : ({ c with twaps := tw, volumes := vs, pools := c.pools.set s.pool q } : Contract).volume
          s.pool i = new.getD i (0, 0) := by
        simp only [volume, getElem?_set_some hp, if_true, volumesOf, hn, FMap.get?_insert,
          Option.getD_some]
      have e2 : c.volume s.pool i = (c.volumesOf s.pool p).getD i (0, 0) := by
        simp only [volume, hp]
      rw [e1, e2, hc i]
      have hi1 := uniq ha hi
      cases q with
      | simple q =>
        simp only at hb
        subst hb
        simp only [Pool.traded, takenBy, givenFor, List.map_cons, List.map_nil, List.sum_cons,
          List.sum_nil, true_and, Nat.add_zero, hi1]
      | curve q =>
        have hi2 := uniq hb hi
        simp only [Pool.traded, takenBy, givenBy, List.map_cons, List.map_nil, List.sum_cons,
          List.sum_nil, true_and, Nat.add_zero, hi1, hi2]
    · rw [if_neg hid] at hr
      rw [r.traded_other t fun u hu => by rw [List.mem_singleton.1 hu]; exact Ne.symm hid]
      simp only [volume, getElem?_set_some hp, if_neg hid, hr, volumesOf, hn, FMap.get?_insert, m1,
        m2, Nat.add_zero]
  · obtain ⟨a, b, new, ha, hb, hn, hc, hlen⟩ := recordVolume_exact hv
    simp only at hn hr
    rw [getElem?_set_some hp] at hr
    have hid : id < c.pools.length := by
      by_cases hid : id = s.pool
      · rw [hid]; exact hlt
      · rw [if_neg hid] at hr; exact (List.getElem?_eq_some_iff.1 hr).1
    have m1 : id % 2 ^ 32 = id := Nat.mod_eq_of_lt (by omega)
    have m2 : s.pool % 2 ^ 32 = s.pool := Nat.mod_eq_of_lt (by omega)
    simp only [volumesOf, hn, FMap.get?_insert, m1, m2]
    by_cases hid : id = s.pool
    · subst hid
      rw [if_pos rfl] at hr ⊢; cases hr
      rw [Option.getD_some, hlen, Pool.tokens_of_shape ht.shape]
      exact hal s.pool p hp
    · rw [if_neg hid] at hr ⊢
      have := hal id r hr
      simp only [volumesOf, m1] at this
      exact this

theorem _root_.Verif.Swaps.volumes {now : Nat} {ref : Option (AccountId × Nat)} {c c' : Contract}
    {steps : List SwapStep} (h : Swaps now ref c steps c') (hs : ∀ p ∈ c.pools, p.Sound)
    (hl : c.pools.length ≤ 2 ^ 32) : c.Volumes steps c' := by
  induction h with
  | nil c => exact .still (.refl _) rfl rfl
  | cons h1 _ ih =>
    exact (h1.volumes hs hl).trans (ih (h1.poolsTo.sound hs) (by rw [h1.framed.length]; exact hl))

theorem addPool_volumes {c c' : Contract} {x : Ctx} {p : Pool} {outs : List Out}
    (h : c.addPool x p = .ok (c', outs)) (hl : c'.pools.length ≤ 2 ^ 32) : c.Volumes [] c' := by
  obtain ⟨q, _, -, -, rfl⟩ := addPool_inv h
  simp only [List.length_append, List.length_singleton] at hl
  refine ⟨fun s hs => (by cases hs), fun id r hr => ⟨r, ?_, rfl⟩, fun id r i t hr ht => ?_,
    fun hal id r hr => ?_⟩
  · simp only
    rw [List.getElem?_append_left (List.getElem?_eq_some_iff.1 hr).1, hr]
  · simp only at hr
    rw [r.traded_nil]
    have hlt := (List.getElem?_eq_some_iff.1 hr).1
    simp only [List.length_append, List.length_singleton] at hlt
    have m1 : id % 2 ^ 32 = id := Nat.mod_eq_of_lt (by omega)
    have m2 : c.pools.length % 2 ^ 32 = c.pools.length := Nat.mod_eq_of_lt (by omega)
    by_cases hid : id = c.pools.length
    · subst hid
      have : c.pools[c.pools.length]? = none := by simp
      simp only [volume, hr, this, volumesOf, FMap.get?_insert, if_true, Option.getD_some,
        List.getD_eq_getElem?_getD, List.getElem?_map]
      cases q.tokens[i]? <;> rfl
    · have hr' : c.pools[id]? = some r := by
        rw [← hr, List.getElem?_append_left (by omega)]
      simp only [volume, hr, hr', volumesOf, FMap.get?_insert, m1, m2, if_neg hid, Nat.add_zero]
  · simp only at hr
    have hlt := (List.getElem?_eq_some_iff.1 hr).1
    simp only [List.length_append, List.length_singleton] at hlt
    have m1 : id % 2 ^ 32 = id := Nat.mod_eq_of_lt (by omega)
    have m2 : c.pools.length % 2 ^ 32 = c.pools.length := Nat.mod_eq_of_lt (by omega)
    simp only [volumesOf, FMap.get?_insert, m1, m2]
    by_cases hid : id = c.pools.length
    · subst hid
      rw [if_pos rfl, Option.getD_some, List.length_map]
      rw [List.getElem?_append_right (Nat.le_refl _)] at hr
      simp only [Nat.sub_self, List.getElem?_cons_zero, Option.some.injEq] at hr
      rw [hr]
    · have hr' : c.pools[id]? = some r := by
        rw [← hr, List.getElem?_append_left (by omega)]
      have := hal id r hr'
      simp only [volumesOf, m1] at this
      rw [if_neg hid]
      exact this

theorem directActions_opening {c c' : Contract} {now amount : Nat} {ref : Option AccountId}
    {tokenIn : AccountId} {actions : List Action} {left : List (AccountId × Nat)}
    (h : c.directActions now ref tokenIn amount actions = .ok (c', left)) :
    ∃ steps res, Swaps now (c.referralInfo ref) c steps c' ∧
      Follows (match actions with | .swap _ :: _ => some amount | _ => none) actions steps res := by
  unfold directActions at h
  unpack at h
  obtain ⟨acc, h1, prev, hp, c1, acc1, res, h2, rfl, rfl⟩ := h
  obtain ⟨steps, hs, hf, -⟩ := runActions_ok h2
  refine ⟨steps, res, hs, ?_⟩
  split at hp <;> cases hp <;> exact hf

theorem internalMftTransfer_volumes {c c' : Contract} {tokenId : List Char}
    {sender receiver : AccountId} {amount : Option Nat} {n : Nat}
    (h : c.internalMftTransfer tokenId sender receiver amount = .ok (c', n)) :
    c'.pools.length = c.pools.length ∧ c'.volumes = c.volumes := by
  obtain ⟨-, ⟨id, -, h⟩ | ⟨t, -, h⟩⟩ := internalMftTransfer_inv h
  · obtain ⟨p, q, hp, -, -, -, -, hq, rfl⟩ := transferShares_inv h
    exact ⟨List.length_set .., rfl⟩
  · obtain ⟨_, _, _, _, -, -, -, -, -, -, -, rfl⟩ := transferToken_inv h
    exact ⟨rfl, rfl⟩

/-- Saving an account changes no volume. -/
theorem Volumes.put {c c' : Contract} {steps : List SwapStep} (h : c.Volumes steps c') {a : AccountId}
    {acc : Account} : c.Volumes steps (c'.putAccount a acc) := ⟨h.pools, h.shape, h.counts, h.lengths⟩

theorem exec_volumes {c c' : Contract} {x : Ctx} {k : Call} {outs : List Out}
    (h : c.exec x k = .ok (c', outs)) (hp : ∀ p ∈ c.pools, p.Sound)
    (hl : c'.pools.length ≤ 2 ^ 32) : ∃ steps, c.Makes (.call x k) steps ∧ c.Volumes steps c' := by
  have hpt := exec_poolsTo h
  have quiet : c'.pools.length = c.pools.length → c'.volumes = c.volumes → c.Volumes [] c' :=
    fun h1 h2 => .still hpt h1 h2
  cases k <;> simp only [exec] at h
  case addSimplePool =>
    obtain ⟨_, -, -, -, h⟩ := addSimplePool_inv h
    exact ⟨[], rfl, addPool_volumes h hl⟩
  case addCurvePool =>
    obtain ⟨_, -, -, -, -, h⟩ := addCurvePool_inv h
    exact ⟨[], rfl, addPool_volumes h hl⟩
  case executeActions =>
    unpack at h; obtain ⟨_, _, h, rfl, -⟩ := h
    obtain ⟨_, _, c1, -, -, -, -, h2, -, rfl⟩ := executeActions_inv h
    obtain ⟨steps, hs, hf, -⟩ := runActions_ok h2
    have hv := hs.volumes hp (by rw [← hs.framed.length]; exact hl)
    exact ⟨steps, ⟨_, _, hs, hf⟩, hv.put⟩
  case executeInVa =>
    unpack at h; obtain ⟨_, _, h, rfl, -⟩ := h
    obtain ⟨_, _, _, _, _, c1, _, -, -, -, -, -, h2, -, -, -, rfl⟩ := executeInVa_inv h
    obtain ⟨steps, hs, hf, -⟩ := runActions_ok h2
    have hv := hs.volumes hp (by rw [← hs.framed.length]; exact hl)
    exact ⟨steps, ⟨_, _, hs, hf⟩, hv.put⟩
  case addLiquidity =>
    unpack at h; obtain ⟨_, _, _, h, rfl, -⟩ := h
    obtain ⟨_, _, _, _, _, _, _, -, -, hp, -, hq, -, -, -, -, -, rfl⟩ := addLiquidity_inv h
    exact ⟨[], rfl, quiet (List.length_set ..) rfl⟩
  case addStableLiquidity =>
    unpack at h; obtain ⟨_, _, _, h, rfl, -⟩ := h
    obtain ⟨_, _, _, _, _, _, -, -, hp, -, hq, -, -, -, -, -, rfl⟩ := addStableLiquidity_inv h
    exact ⟨[], rfl, quiet (List.length_set ..) rfl⟩
  case removeLiquidity =>
    unpack at h; obtain ⟨_, _, h, rfl, -⟩ := h
    obtain ⟨_, _, _, _, _, -, -, hp, -, -, -, hq, -, -, rfl⟩ := removeLiquidity_inv h
    exact ⟨[], rfl, quiet (List.length_set ..) rfl⟩
  case removeByTokens =>
    unpack at h; obtain ⟨_, _, h, rfl, -⟩ := h
    obtain ⟨_, _, _, _, _, -, -, hp, -, -, -, hq, -, -, rfl⟩ := removeByTokens_inv h
    exact ⟨[], rfl, quiet (List.length_set ..) rfl⟩
  case registerTokens =>
    unpack at h; obtain ⟨_, h, rfl, -⟩ := h
    obtain ⟨_, -, -, -, -, rfl⟩ := registerTokens_inv h; exact ⟨[], rfl, quiet rfl rfl⟩
  case unregisterTokens =>
    unpack at h; obtain ⟨_, h, rfl, -⟩ := h
    obtain ⟨_, _, -, -, -, -, -, rfl⟩ := unregisterTokens_inv h; exact ⟨[], rfl, quiet rfl rfl⟩
  case withdraw =>
    obtain ⟨_, _, _, _, -, -, -, -, -, -, -, -, -, rfl, -⟩ := withdraw_inv h
    exact ⟨[], rfl, quiet rfl rfl⟩
  case claimLostfound =>
    obtain ⟨-, -, -, -, rfl, -⟩ := claimLostfound_inv h; exact ⟨[], rfl, quiet rfl rfl⟩
  case ftOnTransfer sender amount msg =>
    obtain ⟨-, -, ⟨rfl, -, g, -⟩ | ⟨_, actions, _, _, _, rfl, g⟩ | ⟨_, actions, _, rfl, -, g⟩⟩ :=
      ftOnTransfer_inv h
    · obtain ⟨_, _, -, -, -, -, rfl⟩ := deposit_inv g
      exact ⟨[], rfl, .still hpt rfl rfl⟩
    · obtain ⟨_, -, -, -, g, -⟩ := instantSwap_inv g
      obtain ⟨steps, res, hs, hf⟩ := directActions_opening g
      refine ⟨steps, ⟨res, _, hs, ?_⟩, hs.volumes hp (by rw [← hs.framed.length]; exact hl)⟩
      cases actions with
      | nil => exact hf
      | cons a as => cases a <;> exact hf
    · obtain ⟨_, _, _, _, _, _, _, _, -, -, -, -, -, -, h2, hz, -, -, -, -, rfl⟩ := hotZap_inv g
      obtain ⟨steps, res, hs, hf⟩ := directActions_opening h2
      have e1 := hz.framed
      have hv := hs.volumes hp (by
        rw [← hs.framed.length, ← e1.1.length]; exact hl)
      refine ⟨steps, ⟨res, _, hs, ?_⟩, ?_⟩
      · cases actions with
        | nil => exact hf
        | cons a as => cases a <;> exact hf
      · have := hv.trans (Volumes.still hz.poolsTo e1.1.length e1.2)
        rw [List.append_nil] at this
        exact this.put
  case mftTransfer =>
    unpack at h; obtain ⟨_, h, rfl, -⟩ := h
    obtain ⟨-, -, _, h⟩ := mftTransfer_inv h
    exact ⟨[], rfl, quiet (internalMftTransfer_volumes h).1 (internalMftTransfer_volumes h).2⟩
  case mftTransferCall =>
    obtain ⟨-, -, _, h, -⟩ := mftTransferCall_inv h
    exact ⟨[], rfl, quiet (internalMftTransfer_volumes h).1 (internalMftTransfer_volumes h).2⟩
  case mftRegister =>
    obtain ⟨_, _, _, _, -, -, hp, hq, -, rfl⟩ := mftRegister_inv h
    exact ⟨[], rfl, quiet (List.length_set ..) rfl⟩
  case mftUnregister =>
    obtain ⟨_, _, _, -, -, -, hp, hq, -, rfl⟩ := mftUnregister_inv h
    exact ⟨[], rfl, quiet (List.length_set ..) rfl⟩
  case storageDeposit =>
    obtain ⟨-, -, rfl | ⟨_, _, h⟩⟩ := storageDeposit_inv h
    · exact ⟨[], rfl, quiet rfl rfl⟩
    · obtain ⟨_, -, -, -, -, rfl⟩ := registerAccount_inv h; exact ⟨[], rfl, quiet rfl rfl⟩
  case storageWithdraw =>
    obtain ⟨_, _, -, -, -, -, -, -, -, rfl⟩ := storageWithdraw_inv h; exact ⟨[], rfl, quiet rfl rfl⟩
  case storageUnregister =>
    obtain ⟨-, -, ⟨-, rfl, -⟩ | ⟨_, -, -, -, rfl, -⟩⟩ := storageUnregister_inv h <;>
      exact ⟨[], rfl, quiet rfl rfl⟩
  case shadowAction =>
    obtain ⟨_, _, _, _, -, -, -, -, -, -, -, ⟨-, rfl, -⟩ | ⟨-, _, _, _, -, -, -, rfl, -⟩⟩ :=
      shadowAction_inv h <;> exact ⟨[], rfl, quiet rfl rfl⟩
  case onBurrowLiquidation =>
    obtain ⟨_, _, _, _, _, _, _, _, _, _, _, -, -, -, hp, -, -, -, -, -, -, -, -, hq, -, -, rfl,
      -⟩ := onBurrowLiquidation_inv h
    exact ⟨[], rfl, quiet (List.length_set ..) rfl⟩
  case donationShare id amount unregister =>
    obtain ⟨_, _, q, q', -, -, hp, -, -, hq, hu, -, hc⟩ := donationShare_inv h
    rcases hc with rfl | ⟨_, _, -, -, -, rfl⟩ <;> exact ⟨[], rfl, quiet (List.length_set ..) rfl⟩
  case donationToken =>
    unpack at h; obtain ⟨_, h, rfl, -⟩ := h
    obtain ⟨_, _, _, _, _, _, -, -, -, -, -, -, -, -, -, -, rfl⟩ := donationToken_inv h
    exact ⟨[], rfl, quiet rfl rfl⟩
  case setting s =>
    unpack at h; obtain ⟨_, h, rfl, -⟩ := h
    obtain ⟨g, h2, rfl⟩ := setting_inv h
    exact ⟨[], rfl, quiet rfl rfl⟩
  case retrieveUnmanaged =>
    unpack at h; obtain ⟨_, h, rfl, -⟩ := h; exact ⟨[], rfl, quiet rfl rfl⟩
  case modifyTotalFee =>
    unpack at h; obtain ⟨_, h, rfl, -⟩ := h
    obtain ⟨_, -, -, hf, hp, rfl⟩ := modifyTotalFee_inv h; exact ⟨[], rfl, quiet (List.length_set ..) rfl⟩
  case removeExchangeFee =>
    unpack at h; obtain ⟨_, h, rfl, -⟩ := h
    obtain ⟨_, _, _, _, _, -, -, -, hp, hq, -, -, -, rfl⟩ := removeExchangeFee_inv h
    exact ⟨[], rfl, quiet (List.length_set ..) rfl⟩
  case withdrawOwnerToken =>
    obtain ⟨_, _, -, -, -, -, -, -, rfl, -⟩ := withdrawOwnerToken_inv h; exact ⟨[], rfl, quiet rfl rfl⟩
  case rampAmp =>
    unpack at h; obtain ⟨_, h, rfl, -⟩ := h
    obtain ⟨_, _, -, -, hp, hq, rfl⟩ := rampAmp_inv h; exact ⟨[], rfl, quiet (List.length_set ..) rfl⟩
  case stopRampAmp =>
    unpack at h; obtain ⟨_, h, rfl, -⟩ := h
    obtain ⟨_, _, -, -, hp, hq, rfl⟩ := stopRampAmp_inv h; exact ⟨[], rfl, quiet (List.length_set ..) rfl⟩
  case registerTwap =>
    unpack at h; obtain ⟨_, h, rfl, -⟩ := h
    obtain ⟨-, -, _, rfl⟩ := registerTwap_inv h; exact ⟨[], rfl, quiet rfl rfl⟩
  case unregisterTwap =>
    unpack at h; obtain ⟨_, h, rfl, -⟩ := h
    obtain ⟨-, -, _, rfl⟩ := unregisterTwap_inv h; exact ⟨[], rfl, quiet rfl rfl⟩
  case syncTwap =>
    unpack at h; obtain ⟨_, h, rfl, -⟩ := h
    obtain ⟨-, _, rfl⟩ := syncTwap_inv h; exact ⟨[], rfl, quiet rfl rfl⟩

theorem callback_volumes {c c' : Contract} {x : Ctx} {out : Out} {o : Outcome} {outs : List Out}
    (h : c.callback x out o = .ok (c', outs)) : c.Volumes [] c' := by
  have hpt := callback_poolsTo h
  have quiet : c'.pools.length = c.pools.length → c'.volumes = c.volumes → c.Volumes [] c' :=
    fun h1 h2 => .still hpt h1 h2
  cases out <;> simp only [callback] at h
  case ft =>
    cases o <;> simp only [] at h
    · cases h; exact quiet rfl rfl
    · unpack at h; obtain ⟨_, h, rfl, -⟩ := h
      exact quiet (by rw [(handleFail_same h).2.2.1]) (handleFail_same h).2.2.2
  case ftCall =>
    cases o <;> simp only [] at h
    · cases h; exact quiet rfl rfl
    · unpack at h; obtain ⟨_, h, rfl, -⟩ := h
      exact quiet (by rw [(handleFail_same h).2.2.1]) (handleFail_same h).2.2.2
  case unwrap =>
    cases o <;> simp only [] at h
    · cases h; exact quiet rfl rfl
    · unpack at h; obtain ⟨_, -, _, h, rfl, -⟩ := h
      exact quiet (by rw [(handleFail_same h).2.2.1]) (handleFail_same h).2.2.2
  case mftCall =>
    unpack at h; obtain ⟨_, _, h, rfl, -⟩ := h
    obtain ⟨-, rfl | ⟨_, _, -, -, -, h⟩⟩ := mftResolve_inv h
    · exact quiet rfl rfl
    · exact quiet (internalMftTransfer_volumes h).1 (internalMftTransfer_volumes h).2
  case shadow =>
    obtain ⟨-, rfl | ⟨_, -, rfl | ⟨_, _, -, -, -, -, rfl⟩⟩⟩ := callbackOnShadow_inv h <;>
      exact quiet rfl rfl
  all_goals (cases h; exact quiet rfl rfl)


theorem apply_volumes {c c' : Contract} {e : Event} {outs : List Out}
    (h : c.apply e = .ok (c', outs)) (hp : ∀ p ∈ c.pools, p.Sound)
    (hl : c'.pools.length ≤ 2 ^ 32) : ∃ steps, c.Makes e steps ∧ c.Volumes steps c' := by
  cases e <;> simp only [apply] at h
  case call => exact exec_volumes h hp hl
  case callback => exact ⟨[], rfl, callback_volumes h⟩
  case rate t r time =>
    cases h; refine ⟨[], rfl, ?_⟩; unfold setRate; split <;> exact .still (.refl _) rfl rfl
  case price t p time =>
    cases h; refine ⟨[], rfl, ?_⟩; unfold setDegenPrice; split <;> exact .still (.refl _) rfl rfl

/-! ### Theorems -/

/-- **C40**, one event. Every successful event adds to the volumes of every pool exactly the amounts
of the swaps it makes there, and nothing else changes a volume: a new pool reports zeros. -/
theorem C40_event {c c' : Contract} (hc : c.Reachable) {e : Event} {outs : List Out}
    (h : c.apply e = .ok (c', outs)) (hl : c'.pools.length ≤ 2 ^ 32) :
    ∃ steps, c.Makes e steps ∧ ∀ (id : Nat) (p : Pool) (i : Nat) (t : AccountId),
      c'.pools[id]? = some p → p.tokens[i]? = some t → c'.volume id i =
        ((c.volume id i).1 + (p.traded steps id t).1, (c.volume id i).2 + (p.traded steps id t).2) := by
  obtain ⟨steps, h1, h2⟩ := apply_volumes h (fun p hp => hc.sound p hp) hl
  exact ⟨steps, h1, h2.counts⟩

theorem run_volumes (es : List Event) : ∀ {c : Contract}, (∀ p ∈ c.pools, p.Sound) →
    (c.run es).pools.length ≤ 2 ^ 32 → ∃ steps, c.History es steps ∧ c.Volumes steps (c.run es) := by
  induction es with
  | nil => intro c _ _; exact ⟨[], rfl, .still (.refl _) rfl rfl⟩
  | cons e es ih =>
    intro c hs hl
    have hr : c.run (e :: es) = (c.step e).run es := rfl
    have hstep : c.step e = match c.apply e with | .ok r => r.1 | .error _ => c := rfl
    rw [hr] at hl ⊢
    cases ha : c.apply e with
    | error err =>
      rw [ha] at hstep
      rw [hstep] at hl ⊢
      obtain ⟨steps, h1, h2⟩ := ih hs hl
      refine ⟨steps, ⟨[], steps, rfl, ?_, ?_⟩, h2⟩
      · rw [ha]
      · rw [hstep]; exact h1
    | ok r =>
      rw [ha] at hstep
      rw [hstep] at hl ⊢
      obtain ⟨c1, outs⟩ := r
      obtain ⟨s2, h1, h2⟩ := ih ((apply_poolsTo ha).sound hs) hl
      obtain ⟨s1, h3, h4⟩ := apply_volumes ha hs (Nat.le_trans h2.length hl)
      refine ⟨s1 ++ s2, ⟨s1, s2, rfl, ?_, ?_⟩, h4.trans h2⟩
      · rw [ha]; exact h3
      · rw [hstep]; exact h1

/-- **C40**. Over every history, from the construction of the contract on, the volumes reported for
a pool are exactly the sums of the amounts of all the swaps made in it. The pool numbers are cut to
32 bits when volumes are stored, hence the bound on the number of pools. -/
theorem C40_exact {self owner farm burrow : AccountId} {fee ref : Nat} {c0 : Contract}
    (h0 : init self owner farm burrow fee ref = .ok c0) (es : List Event)
    (hl : (c0.run es).pools.length ≤ 2 ^ 32) :
    ∃ steps, c0.History es steps ∧ ∀ (id : Nat) (p : Pool) (i : Nat) (t : AccountId),
      (c0.run es).pools[id]? = some p → p.tokens[i]? = some t →
      (c0.run es).volume id i = p.traded steps id t := by
  have hn : c0.pools = [] := by
    unfold init at h0
    unpack at h0
    obtain ⟨-, -, rfl⟩ := h0
    rfl
  obtain ⟨steps, h1, h2⟩ := run_volumes es (c := c0) (by rw [hn]; intro p hp; cases hp) hl
  refine ⟨steps, h1, fun id p i t hp ht => ?_⟩
  rw [h2.counts id p i t hp ht]
  have : c0.volume id i = (0, 0) := by simp only [volume, hn, List.getElem?_nil]
  rw [this]
  simp

/-- **C40**, the view. It lists one pair of volumes for each token of the pool. -/
theorem C40_lengths {c : Contract} (hc : c.Reachable) (hl : c.pools.length ≤ 2 ^ 32) : c.Aligned := by
  obtain ⟨self, owner, farm, burrow, fee, ref, c0, es, h0, rfl⟩ := hc
  have hn : c0.pools = [] := by
    unfold init at h0
    unpack at h0
    obtain ⟨-, -, rfl⟩ := h0
    rfl
  obtain ⟨steps, -, h2⟩ := run_volumes es (c := c0) (by rw [hn]; intro p hp; cases hp) hl
  exact h2.lengths fun id p hp => by rw [hn, List.getElem?_nil] at hp; cases hp

/-- **C40**, the limit. With 2³² pools the next one takes over the volumes of pool 0. -/
theorem C40_wraps {c c' : Contract} {x : Ctx} {tokens : List AccountId} {fee : Nat} {outs : List Out}
    (hl : c.pools.length = 2 ^ 32) (h : c.exec x (.addSimplePool tokens fee) = .ok (c', outs))
    (i : Nat) : c'.volume 0 i = (0, 0) := by
  simp only [exec] at h
  obtain ⟨_, -, -, -, h⟩ := addSimplePool_inv h
  obtain ⟨q, _, -, -, rfl⟩ := addPool_inv h
  unfold volume
  simp only
  split
  · simp only [volumesOf, FMap.get?_insert, hl, Nat.mod_self, Nat.zero_mod, if_true,
      Option.getD_some, List.getD_eq_getElem?_getD, List.getElem?_map]
    cases q.tokens[i]? <;> rfl
  · rfl

/-! ### An example -/

open Demo

/-- Alice trades in both pools, Bob sends tokens for an instant swap. -/
def tradesDemo : List Event := setup2 ++ [
  .call (by' al) (.executeActions [swapA, swapA] none),
  .call (by' al) (.executeActions [.swap ⟨1, B, some (10 ^ 20), A, 1⟩] none),
  .call (by' A) (.ftOnTransfer bo 700 (.execute none [.swap ⟨0, A, none, B, 1⟩] false none none)),
  .call (by' al) (.executeActions [.byOutput ⟨0, B, some 500, A, none⟩] none)]

example : Contract.init ex own farm bur 1600 400 = .ok c0 ∧
    (c0.run tradesDemo).pools.length = 2 ∧ (c0.run tradesDemo).volume 0 0 = (2700, 10484) ∧
    (c0.run tradesDemo).volume 0 1 = (1912, 500) ∧
    ((c0.run tradesDemo).volume 1 1).1 = 10 ^ 20 ∧
    99 * 10 ^ 18 < ((c0.run tradesDemo).volume 1 0).2 :=
  ⟨rfl, by decide +kernel⟩

end Contract
end Verif

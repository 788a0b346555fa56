import Verif.Exchange.Ids
import Verif.Exchange.Echo
import Mathlib.Tactic.NormNum
import Mathlib.Tactic.Ring

/-
C41: identifiers and byte encodings round-trip. C42: what the client echo whitelists admit.
-/

namespace Verif

/-! ### C41 -/

theorem digit_ne {n : Nat} {c : Char} {d : Char} (h : c ∈ Nat.toDigits 10 n)
    (hd : d.isDigit = false) : c ≠ d := by
  rintro rfl
  rw [Nat.isDigit_of_mem_toDigits (by norm_num) (by norm_num) h] at hd
  cases hd

theorem parseU64_toDigits {n : Nat} (hn : n < 2 ^ 64) : parseU64 (Nat.toDigits 10 n) = some n := by
  unfold parseU64
  have h1 : ∀ c ∈ Nat.toDigits 10 n, c.isDigit = true := fun c hc =>
    Nat.isDigit_of_mem_toDigits (by norm_num) (by norm_num) hc
  have h2 : Nat.toDigits 10 n ≠ [] := Nat.toDigits_ne_nil
  obtain ⟨c, cs, hcs⟩ := List.exists_cons_of_ne_nil h2
  have h3 : c ≠ '+' := digit_ne (n := n) (by rw [hcs]; simp) (by decide)
  have h4 : stripPlus (Nat.toDigits 10 n) = Nat.toDigits 10 n := by
    rw [hcs]
    unfold stripPlus
    split
    · rename_i heq
      exact absurd (List.cons.inj heq).1 h3
    · rfl
  simp only [h4]
  rw [if_pos ⟨h2, by simpa using h1⟩, Nat.ofDigitChars_toDigits (by norm_num) (by norm_num),
    if_pos hn]

/-- The id of the shares of a pool in the multi-token interface, `:<pool id>`. -/
def lpTokenId (id : Nat) : List Char := ':' :: Nat.toDigits 10 id

/-- C41. Parsing the id built for a pool yields that pool. -/
theorem C41_lp_id {n : Nat} (hn : n < 2 ^ 64) : parseTokenId (lpTokenId n) = .pool n := by
  simp [parseTokenId, tryIdentifyPoolId, lpTokenId, parseU64_toDigits hn]

/-- C41. Different pools have different ids. -/
theorem C41_lp_id_injective {m n : Nat} (hm : m < 2 ^ 64) (hn : n < 2 ^ 64)
    (h : lpTokenId m = lpTokenId n) : m = n := by
  have h1 := C41_lp_id hm
  rw [h, C41_lp_id hn] at h1
  cases h1
  rfl

/-- C41. Only ids that start with `:` denote a pool: an account id, which cannot contain `:`,
always denotes the token of that name. Whatever pool id results is a 64-bit number. -/
theorem C41_token_id (t : AccountId) (ht : ':' ∉ t) : parseTokenId t = .token t := by
  unfold parseTokenId tryIdentifyPoolId
  split
  · rename_i h
    split at h
    · simp at ht
    · cases h
  · rfl

theorem C41_pool_id_range {s : List Char} {n : Nat} (h : parseTokenId s = .pool n) :
    n < 2 ^ 64 ∧ ∃ rest, s = ':' :: rest := by
  unfold parseTokenId tryIdentifyPoolId at h
  split at h
  · rename_i m hm
    cases h
    split at hm
    · refine ⟨?_, _, rfl⟩
      unfold parseU64 at hm
      simp only [Option.ite_none_right_eq_some, Option.some.injEq] at hm
      obtain ⟨_, hlt, rfl⟩ := hm
      exact hlt
    · cases hm
  · cases h

theorem splitDash_no {s : List Char} (h : '-' ∉ s) : splitDash s = [s] := by
  induction s with
  | nil => rfl
  | cons c cs ih =>
    simp only [List.mem_cons, not_or] at h
    rw [splitDash, if_neg (Ne.symm h.1), ih h.2]

theorem splitDash_append {s t : List Char} (h : '-' ∉ s) :
    splitDash (s ++ '-' :: t) = s :: splitDash t := by
  induction s with
  | nil => simp [splitDash]
  | cons c cs ih =>
    simp only [List.mem_cons, not_or] at h
    rw [List.cons_append, splitDash, if_neg (Ne.symm h.1), ih h.2]

/-- C41. Parsing the shadow id built for a pool yields that pool. -/
theorem C41_shadow_id {n : Nat} (hn : n < 2 ^ 64) :
    shadowIdToPoolId (poolIdToShadowId n) = .ok n := by
  have h : splitDash (poolIdToShadowId n) = ["shadow_ref_v1".toList, Nat.toDigits 10 n] := by
    have e : poolIdToShadowId n = "shadow_ref_v1".toList ++ '-' :: Nat.toDigits 10 n := by
      unfold poolIdToShadowId
      rw [show "shadow_ref_v1-".toList = "shadow_ref_v1".toList ++ ['-'] by decide +kernel,
        List.append_assoc]
      rfl
    rw [e, splitDash_append (by decide +kernel),
      splitDash_no (fun hc => digit_ne (n := n) hc (by decide) rfl)]
  unfold shadowIdToPoolId
  rw [h]
  show expectE (parseU64 (Nat.toDigits 10 n)) .other = _
  rw [parseU64_toDigits hn]
  rfl

theorem C41_shadow_id_injective {m n : Nat} (hm : m < 2 ^ 64) (hn : n < 2 ^ 64)
    (h : poolIdToShadowId m = poolIdToShadowId n) : m = n := by
  have h1 := C41_shadow_id hm
  rw [h, C41_shadow_id hn] at h1
  cases h1
  rfl

theorem toBeBytes_length (w n : Nat) : (toBeBytes w n).length = w := by
  induction w generalizing n with
  | zero => rfl
  | succ w ih => simp [toBeBytes, ih]

theorem fromBeBytes_toBeBytes {w n : Nat} (h : n < 256 ^ w) : fromBeBytes (toBeBytes w n) = n := by
  induction w generalizing n with
  | zero => simp [toBeBytes, fromBeBytes] at *; omega
  | succ w ih =>
    have h1 := ih (n := n / 256) (by
      rw [Nat.div_lt_iff_lt_mul (by norm_num), ← Nat.pow_succ]; exact h)
    unfold fromBeBytes at *
    rw [toBeBytes, List.foldl_append, h1]
    simp
    omega

/-- C41. The paired price encoding decodes to its two parts, whatever the word size `w` of the
machine, whenever the length of the first part plus `w` fits a word; otherwise encoding
panics. -/
theorem C41_price_pair (w : Nat) (a b : List Nat) :
    (a.length + w < 2 ^ (8 * w) →
      ∃ bs, pairRatedPrice w a b = .ok bs ∧ unpairRatedPrice w bs = .ok (a, b)) ∧
    (2 ^ (8 * w) ≤ a.length + w → pairRatedPrice w a b = .error .arith) := by
  constructor
  · intro h
    refine ⟨_, by rw [pairRatedPrice, addW_ok.2 ⟨h, rfl⟩, ok_bind], ?_⟩
    have hp : a.length + w < 256 ^ w := by
      rw [show (256 : Nat) = 2 ^ 8 by norm_num, ← Nat.pow_mul]; exact h
    have hl : (toBeBytes w (a.length + w)).length = w := toBeBytes_length _ _
    unfold unpairRatedPrice
    rw [assertE_true (by simp [hl]), ok_bind]
    simp only
    have ht : (toBeBytes w (a.length + w) ++ a ++ b).take w = toBeBytes w (a.length + w) := by
      rw [List.append_assoc, List.take_append_of_le_length (by omega), List.take_of_length_le (by omega)]
    have htn : (toBeBytes w (a.length + w) ++ a ++ b).take (a.length + w) =
        toBeBytes w (a.length + w) ++ a := by
      rw [List.take_append_of_le_length (by simp [hl]; omega),
        List.take_of_length_le (by simp [hl]; omega)]
    have hdn : (toBeBytes w (a.length + w) ++ a ++ b).drop (a.length + w) = b := by
      have : (toBeBytes w (a.length + w) ++ a).length = a.length + w := by simp [hl]; omega
      exact List.drop_left' this
    rw [ht, fromBeBytes_toBeBytes hp, assertE_true (by simp [hl]; omega), ok_bind, htn, hdn]
    rw [List.drop_left' hl]
  · intro h
    unfold pairRatedPrice addW fit
    rw [if_neg (by omega), error_bind]

example : parseTokenId (lpTokenId 1234) = .pool 1234 := by decide +kernel
example : lpTokenId 1234 = ":1234".toList := by decide +kernel
example : parseTokenId "usdt.near".toList = .token "usdt.near".toList := by decide +kernel
/-- Ids other than the canonical one denote the same pool. -/
example : parseTokenId ":+007".toList = .pool 7 := by decide +kernel
example : parseTokenId ":18446744073709551616".toList = .token ":18446744073709551616".toList := by
  decide +kernel
example : poolIdToShadowId 79 = "shadow_ref_v1-79".toList := by decide +kernel
example : (pairRatedPrice 4 [7, 8] [9]).holds (· == [0, 0, 0, 6, 7, 8, 9]) = true := by
  decide +kernel

/-! ### C42 -/

/-- Specification: the names a whitelist entry admits. An entry starting with `*` admits the
names that end with what follows the `*`; and every entry admits itself. -/
def Admits (entry : List Char) (name : AccountId) : Prop :=
  name = entry ∨ ∃ suffix pre, entry = '*' :: suffix ∧ name = pre ++ suffix

/-- C42. A whitelist admits exactly the names one of its entries admits. -/
theorem C42_whitelist (wl : List (List Char)) (name : AccountId) :
    matchesWildcard wl name = true ↔ ∃ entry ∈ wl, Admits entry name := by
  unfold matchesWildcard
  simp only [Bool.or_eq_true, List.contains_iff_mem, List.any_eq_true]
  constructor
  · rintro (h | ⟨p, hp, h⟩)
    · exact ⟨name, h, Or.inl rfl⟩
    · split at h
      · rename_i suffix
        obtain ⟨pre, hpre⟩ := List.isSuffixOf_iff_suffix.1 h
        exact ⟨_, hp, Or.inr ⟨suffix, pre, rfl, hpre.symm⟩⟩
      · cases h
  · rintro ⟨p, hp, rfl | ⟨suffix, pre, rfl, rfl⟩⟩
    · exact Or.inl hp
    · exact Or.inr ⟨_, hp, by simp⟩

/-- C42. An entry without wildcard admits exactly itself. -/
theorem C42_plain {entry : List Char} (h : entry.head? ≠ some '*') (name : AccountId) :
    matchesWildcard [entry] name = true ↔ name = entry := by
  rw [C42_whitelist]
  constructor
  · rintro ⟨e, he, ha⟩
    simp only [List.mem_singleton] at he
    subst he
    rcases ha with h' | ⟨s, pre, rfl, _⟩
    · exact h'
    · simp at h
  · rintro rfl; exact ⟨name, by simp, Or.inl rfl⟩

/-- C42. An entry `*.suffix` admits exactly the account names that end in `.suffix` (an account
name cannot contain `*`). -/
theorem C42_wildcard (suffix : List Char) (name : AccountId) (hn : '*' ∉ name) :
    matchesWildcard ['*' :: '.' :: suffix] name = true ↔ ∃ pre, name = pre ++ '.' :: suffix := by
  rw [C42_whitelist]
  constructor
  · rintro ⟨e, he, ha⟩
    simp only [List.mem_singleton] at he
    subst he
    rcases ha with rfl | ⟨s, pre, hs, rfl⟩
    · simp at hn
    · cases hs; exact ⟨pre, rfl⟩
  · rintro ⟨pre, rfl⟩; exact ⟨_, by simp, Or.inr ⟨_, pre, rfl, rfl⟩⟩

/-- C42. An echo is accepted exactly for a sender on the secure list, or for a sender on the
sender list and a token on the token list. -/
theorem C42_echo (secure tokens senders : List (List Char)) (token sender : AccountId) :
    assertClientEchoValid secure tokens senders token sender = .ok () ↔
      (∃ e ∈ secure, Admits e sender) ∨
      ((∃ e ∈ tokens, Admits e token) ∧ ∃ e ∈ senders, Admits e sender) := by
  simp only [← C42_whitelist]
  unfold assertClientEchoValid
  split
  · rename_i h; simp [h]
  · rename_i h
    simp only [h, bind_ok, assertE_ok, Bool.false_eq_true, false_or]
    exact ⟨fun ⟨_, a, b⟩ => ⟨a, b⟩, fun ⟨a, b⟩ => ⟨(), a, b⟩⟩

theorem extendEcho_ok {checked : Bool} {items set set' : List (List Char)}
    (h : extendEcho checked set items = .ok set') :
    ∀ e, e ∈ set' ↔ e ∈ set ∨ e ∈ items := by
  induction items generalizing set with
  | nil => cases h; simp
  | cons x xs ih =>
    unfold extendEcho at h
    unpack at h
    obtain ⟨_, _, h⟩ := h
    intro e
    rw [ih h e]
    simp only [List.mem_cons]
    tauto

theorem extendEcho_form {items set set' : List (List Char)}
    (h : extendEcho true set items = .ok set') : ∀ e ∈ items, wildcardFormOk e = true := by
  induction items generalizing set with
  | nil => intro e he; cases he
  | cons x xs ih =>
    unfold extendEcho at h
    unpack at h
    obtain ⟨hf, _, h⟩ := h
    intro e he
    rcases List.mem_cons.1 he with rfl | he
    · exact hf trivial
    · exact ih h e he

/-- C42. An entry the token list or the secure list accepts either has no wildcard or has the
form `*.suffix`. -/
theorem C42_checked_lists {items set set' : List (List Char)}
    (h : extendEcho true set items = .ok set') (e : List Char) (he : e ∈ items) :
    e ∈ set' ∧ (e.head? ≠ some '*' ∨ ∃ suffix, e = '*' :: '.' :: suffix) := by
  refine ⟨(extendEcho_ok h e).2 (Or.inr he), ?_⟩
  have := extendEcho_form h e he
  unfold wildcardFormOk at this
  split at this
  · exact Or.inr ⟨_, rfl⟩
  · cases this
  · rename_i h1 h2
    left
    intro hh
    cases e with
    | nil => simp at hh
    | cons c cs => simp at hh; subst hh; exact h2 _ rfl

/-- The sender list has no such check: a bare `*` is accepted there and then admits every
sender. -/
theorem C42_sender_list_open : ∃ set', extendEcho false [] ["*".toList] = .ok set' ∧
    ∀ name, matchesWildcard set' name = true :=
  ⟨["*".toList], by decide +kernel, fun name =>
    (C42_whitelist _ _).2 ⟨"*".toList, by simp, Or.inr ⟨[], name, by decide, by simp⟩⟩⟩

example : matchesWildcard ["*.alice.near".toList, "bob.near".toList] "dex.alice.near".toList = true ∧
    matchesWildcard ["*.alice.near".toList, "bob.near".toList] "malice.near".toList = false ∧
    matchesWildcard ["*.alice.near".toList, "bob.near".toList] "bob.near".toList = true := by
  decide +kernel

end Verif

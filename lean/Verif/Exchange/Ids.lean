import Verif.Num
import Verif.Simple.Model

/-
Identifiers and byte encodings: `/repo/ref-exchange/src/multi_fungible_token.rs:30-57`,
`shadow_actions.rs:33-39`, `utils.rs:176-189`. Strings are lists of characters, byte vectors
are lists of numbers below 256.
-/

namespace Verif

/-- Drop a leading `+`. -/
def stripPlus : List Char → List Char
  | '+' :: rest => rest
  | s => s

/-- `str::parse::<u64>` of the Rust standard library: an optional `+`, then at least one
decimal digit and nothing else, and the value must fit 64 bits. -/
def parseU64 (s : List Char) : Option Nat :=
  let ds := stripPlus s
  if ds ≠ [] ∧ ds.all Char.isDigit then
    let n := Nat.ofDigitChars 10 ds 0
    if n < 2 ^ 64 then some n else none
  else none

/-- `enum TokenOrPool`, `multi_fungible_token.rs:30-33`. -/
inductive TokenOrPool where
  | token (t : AccountId)
  | pool (id : Nat)
  deriving DecidableEq

/-- `try_identify_pool_id`, `multi_fungible_token.rs:39-49`. -/
def tryIdentifyPoolId : List Char → Option Nat
  | ':' :: rest => parseU64 rest
  | _ => none

/-- `parse_token_id`, `multi_fungible_token.rs:51-57`. -/
def parseTokenId (s : List Char) : TokenOrPool :=
  match tryIdentifyPoolId s with
  | some id => .pool id
  | none => .token s

/-- `pool_id_to_shadow_id`, `shadow_actions.rs:33-35`. -/
def poolIdToShadowId (id : Nat) : List Char := "shadow_ref_v1-".toList ++ Nat.toDigits 10 id

/-- `s.split("-")`: the pieces between the dashes, used by `shadow_actions.rs:38`. -/
def splitDash : List Char → List (List Char)
  | [] => [[]]
  | c :: rest =>
    if c = '-' then [] :: splitDash rest
    else match splitDash rest with
      | [] => [[c]]
      | p :: ps => (c :: p) :: ps

/-- `shadow_id_to_pool_id`, `shadow_actions.rs:37-39`. -/
def shadowIdToPoolId (s : List Char) : R Nat :=
  match (splitDash s)[1]? with
  | none => .error .index
  | some p => expectE (parseU64 p) .other

/-- `usize::to_be_bytes`, most significant byte first, `w` bytes (4 on wasm32). -/
def toBeBytes : (w n : Nat) → List Nat
  | 0, _ => []
  | w + 1, n => toBeBytes w (n / 256) ++ [n % 256]

/-- `usize::from_be_bytes`. -/
def fromBeBytes (bs : List Nat) : Nat := bs.foldl (fun acc b => acc * 256 + b) 0

/-- `pair_rated_price_to_vec_u8`, `utils.rs:176-183`; `w` is the size of `usize` in bytes. -/
def pairRatedPrice (w : Nat) (price1 price2 : List Nat) : R (List Nat) := do
  let n ← addW (8 * w) price1.length w
  .ok (toBeBytes w n ++ price1 ++ price2)

/-- `unpair_rated_price_from_vec_u8`, `utils.rs:185-189`. A slice out of range panics. -/
def unpairRatedPrice (w : Nat) (bs : List Nat) : R (List Nat × List Nat) := do
  assertE (w ≤ bs.length) .index
  let n := fromBeBytes (bs.take w)
  assertE (w ≤ n ∧ n ≤ bs.length) .index
  .ok ((bs.take n).drop w, bs.drop n)

end Verif

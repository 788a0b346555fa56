import Verif.Num
import Verif.Simple.Model

/-
Time-weighted averages of the token amounts behind one unit of shares:
`/repo/ref-exchange/src/unit_lpt_cumulative_infos.rs`.
-/

namespace Verif

/-- `RECORD_COUNT_LIMIT`, `unit_lpt_cumulative_infos.rs:7`. -/
def RECORD_COUNT_LIMIT : Nat := 60

/-- `CumulativeRecord`, `unit_lpt_cumulative_infos.rs:18-21`. -/
structure CumRecord where
  time : Nat
  cum : List Nat
  deriving DecidableEq

/-- `UnitShareCumulativeInfo`, `unit_lpt_cumulative_infos.rs:27-31`. -/
structure CumInfo where
  last : Nat
  cum : List Nat
  recs : List CumRecord
  deriving DecidableEq

/-- `nano_to_sec`, `utils.rs:168-170`; the cast to `u32` truncates. -/
def nanoToSec (nano : Nat) : Nat := nano / 10 ^ 9 % 2 ^ 32

namespace CumInfo

/-- `new`, `unit_lpt_cumulative_infos.rs:84-96`. -/
def new (now : Nat) (amounts : List Nat) : CumInfo :=
  { last := now, cum := amounts, recs := [⟨now, amounts⟩] }

/-- The accumulation loop, `unit_lpt_cumulative_infos.rs:104-107`: `overflowing_add` wraps
around at 256 bits, `amounts[index]` panics if there are too few amounts. -/
def accumulate (elapsed : Nat) : (cum amounts : List Nat) → R (List Nat)
  | [], _ => .ok []
  | _ :: _, [] => .error .index
  | c :: cs, a :: as => do
    let m ← mulW 256 a elapsed
    let rest ← accumulate elapsed cs as
    .ok ((c + m) % 2 ^ 256 :: rest)

/-- `update`, `unit_lpt_cumulative_infos.rs:98-122`. -/
def update (u : CumInfo) (now : Nat) (amounts : List Nat) (interval : Nat) : R CumInfo := do
  let lastRecord ← expectE u.recs.getLast? .index
  let elapsed ← subW now u.last
  if elapsed > 0 then
    let cum ← accumulate elapsed u.cum amounts
    let since ← subW now lastRecord.time
    if since ≥ interval then
      let recs := u.recs ++ [⟨now, cum⟩]
      .ok { last := now, cum,
            recs := if recs.length > RECORD_COUNT_LIMIT then recs.drop 1 else recs }
    else .ok { last := now, cum, recs := u.recs }
  else .ok u

/-- `overflowing_sub` on 256 bits. -/
def wrapSub (x y : Nat) : Nat := (x + 2 ^ 256 - y) % 2 ^ 256

/-- The division loop, `unit_lpt_cumulative_infos.rs:132`. -/
def averages (denominator : Nat) : List Nat → R (List Nat)
  | [] => .ok []
  | x :: xs => do
    let q ← divW x denominator
    let q ← fit 128 q
    let rest ← averages denominator xs
    .ok (q :: rest)

/-- `twap_token_amounts`, `unit_lpt_cumulative_infos.rs:124-133`. -/
def twap (u : CumInfo) : R (List Nat) := do
  let first ← expectE u.recs.head? .index
  let numerators := List.zipWith wrapSub u.cum first.cum
  let denominator ← subW u.last first.time
  assertE (denominator > 0) .other
  averages denominator numerators

end CumInfo
end Verif

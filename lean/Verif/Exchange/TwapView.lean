import Verif.Exchange.Calls
import Verif.Exchange.Twap
import Verif.Exchange.Ids

/-
The views on averages, `/repo/ref-exchange/src/unit_lpt_cumulative_infos.rs:189-231` and
`shadow_actions.rs:44-61`.
-/

namespace Verif.Contract

/-- `get_unit_share_token_amounts`, `unit_lpt_cumulative_infos.rs:229-231`. -/
def getUnitShare (c : Contract) (id : Nat) : R (List Nat) := do
  let p ← c.pool id
  let unit ← p.unitShare
  expectE unit .other

/-- `get_pool_twap_info_view`, `unit_lpt_cumulative_infos.rs:189-195`. -/
def getTwapInfo (c : Contract) (id : Nat) : Option CumInfo := c.twaps.get? id

/-- `get_unit_share_twap_token_amounts`, `unit_lpt_cumulative_infos.rs:213-227`: the update is not
stored. -/
def getUnitShareTwap (c : Contract) (now id : Nat) : R (Option (List Nat)) := do
  let u ← expectE (c.twaps.get? id) .other
  let p ← c.pool id
  let unit ← p.unitShare
  match unit with
  | none => .ok none
  | some amounts => do
    let u ← u.update (nanoToSec now) amounts c.cfg.recordInterval
    if u.recs.length = RECORD_COUNT_LIMIT then do
      let v ← u.twap
      .ok (some v)
    else .ok none

/-- `get_unit_lpt_assets`, `shadow_actions.rs:44-61`, for one pool: `UnitShareTokens` without the
timestamp. -/
def getUnitLptAssets (c : Contract) (now id : Nat) : R (Option (Nat × List (AccountId × Nat))) := do
  let v ← c.getUnitShareTwap now id
  match v with
  | none => .ok none
  | some amounts => do
    let p ← c.pool id
    .ok (some (p.shareDecimal, p.tokens.zip amounts))

end Verif.Contract

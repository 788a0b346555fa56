import Verif.Curve.Model

/-
Model of the pool dispatcher: `/repo/ref-exchange/src/pool.rs`.

The `Rated` and `Degen` pools read token rates and prices from storage. The model passes them in as
`env : R CurveEnv`, an error when the reads panic. Operations that do not read them ignore `env`.
When both the reads and something else panic, the model may report the other panic; a
panic rolls the call back either way.
-/

namespace Verif

/-- `Pool`, `pool.rs:13-19`. The kinds other than `SimplePool` are one model, see `Curve/Model`. -/
inductive Pool where
  | simple (p : SimplePool)
  | curve (p : CurvePool)

namespace Pool

/-- `tokens`, `pool.rs:33-40`. -/
def tokens : Pool → List AccountId
  | simple p => [p.tok0, p.tok1]
  | curve p => p.toks

/-- `share_total_balance`, `pool.rs:232-239`. -/
def supply : Pool → Nat
  | simple p => p.supply
  | curve p => p.supply

/-- The shares of each registered holder. -/
def shares : Pool → FMap AccountId Nat
  | simple p => p.shares
  | curve p => p.shares

/-- The reserves as stored: token amounts in a simple pool, `c_amounts` in the others. -/
def amounts : Pool → List Nat
  | simple p => [p.amt0, p.amt1]
  | curve p => p.cAmts

/-- `share_balances`, `pool.rs:241-248`. -/
def shareBalance (p : Pool) (a : AccountId) : Nat := p.shares.getD a 0

/-- `share_has_registered`, `pool.rs:260-267`. -/
def shareRegistered (p : Pool) (a : AccountId) : Bool := p.shares.contains a

/-- `get_fee`, `pool.rs:139-146`. -/
def totalFee : Pool → Nat
  | simple p => p.totalFee
  | curve p => p.totalFee

/-- `get_share_decimal`, `pool.rs:129-136`. -/
def shareDecimal : Pool → Nat
  | simple _ => 24
  | curve p => p.kind.target

/-- `modify_total_fee`, `pool.rs:42-49`. -/
def setFee (f : Nat) : Pool → Pool
  | simple p => simple { p with totalFee := f }
  | curve p => curve { p with totalFee := f }

/-- `add_liquidity`, `pool.rs:53-65`: only for simple pools. -/
def addLiquidity (p : Pool) (sender : AccountId) (amounts : List Nat) (isView : Bool) :
    R (Pool × List Nat × Nat) :=
  match p with
  | simple p => do
    let (q, used, n) ← p.addLiquidity sender amounts isView
    .ok (simple q, used, n)
  | curve _ => .error .other

/-- `add_stable_liquidity`, `pool.rs:67-81`: not for simple pools. -/
def addStable (p : Pool) (sender : AccountId) (amounts : List Nat) (minShares : Nat)
    (fees : AdminFees) (env : R CurveEnv) (isView : Bool) : R (Pool × Nat) :=
  match p with
  | simple _ => .error .other
  | curve p => do
    let e ← env
    let (q, n) ← p.addLiquidity sender amounts minShares fees e isView
    .ok (curve q, n)

/-- `remove_liquidity`, `pool.rs:84-103`. -/
def removeLiquidity (p : Pool) (sender : AccountId) (n : Nat) (mins : List Nat) (isView : Bool) :
    R (Pool × List Nat) :=
  match p with
  | simple p => do
    let (q, paid) ← p.removeLiquidity sender n mins isView
    .ok (simple q, paid)
  | curve p => do
    let (q, paid) ← p.removeByShares sender n mins isView
    .ok (curve q, paid)

/-- `remove_liquidity_by_tokens`, `pool.rs:106-126`: not for simple pools. -/
def removeByTokens (p : Pool) (sender : AccountId) (amounts : List Nat) (maxBurn : Nat)
    (fees : AdminFees) (env : R CurveEnv) (isView : Bool) : R (Pool × Nat) :=
  match p with
  | simple _ => .error .other
  | curve p => do
    let e ← env
    let (q, n) ← p.removeByTokens sender amounts maxBurn fees e isView
    .ok (curve q, n)

/-- `swap`, `pool.rs:181-204`. -/
def swap (p : Pool) (ti : AccountId) (a : Nat) (tout : AccountId) (minOut : Nat) (fees : AdminFees)
    (env : R CurveEnv) (isView : Bool) : R (Pool × Nat) :=
  match p with
  | simple p => do
    let (q, out) ← p.swap ti a tout minOut fees isView
    .ok (simple q, out)
  | curve p => do
    let e ← env
    let (q, out) ← p.swap ti a tout minOut fees e isView
    .ok (curve q, out)

/-- `swap_by_output`, `pool.rs:207-230`: only for simple pools. -/
def swapByOutput (p : Pool) (ti : AccountId) (out : Nat) (tout : AccountId) (maxIn : Option Nat)
    (fees : AdminFees) (isView : Bool) : R (Pool × Nat) :=
  match p with
  | simple p => do
    let (q, n) ← p.swapByOutput ti out tout maxIn fees isView
    .ok (simple q, n)
  | curve _ => .error .other

/-- `share_transfer`, `pool.rs:250-257`. -/
def shareTransfer (p : Pool) (a b : AccountId) (n : Nat) : R Pool :=
  match p with
  | simple p => simple <$> p.shareTransfer a b n
  | curve p => curve <$> p.shareTransfer a b n

/-- `share_register`, `pool.rs:269-276`. -/
def shareRegister (p : Pool) (a : AccountId) : R Pool :=
  match p with
  | simple p => simple <$> p.shareRegister a
  | curve p => curve <$> p.shareRegister a

/-- `share_unregister`, `pool.rs:278-285`. -/
def shareUnregister (p : Pool) (a : AccountId) : R Pool :=
  match p with
  | simple p => simple <$> p.shareUnregister a
  | curve p => curve <$> p.shareUnregister a

/-- Ramp of a curve pool, `owner.rs:324-334`; simple pools are refused (E88). The degen pool also
reads the prices of its tokens. -/
def ramp (p : Pool) (future futureTime now : Nat) (env : R CurveEnv) : R Pool :=
  match p with
  | simple _ => .error (.e 88)
  | curve p => do
    let _ ← env
    curve <$> p.ramp future futureTime now

/-- Stop of a ramp, `owner.rs:341-348`. -/
def stopRamp (p : Pool) (now : Nat) (env : R CurveEnv) : R Pool :=
  match p with
  | simple _ => .error (.e 88)
  | curve p => do
    let _ ← env
    curve <$> p.stopRamp now

/-- The pool is of the degen kind. -/
def isDegen : Pool → Bool
  | curve p => p.kind = .degen
  | simple _ => false

/-- `assert_tvl_not_exceed_limit`, `pool.rs:377-386`: `limit` is the limit stored for the pool. -/
def assertTvl (p : Pool) (limit : Option Nat) (env : R CurveEnv) : R Unit :=
  match p, limit with
  | curve p, some l =>
    if p.kind = .degen then do
      let e ← env
      let v ← p.tvl e
      assertE (v ≤ l) .other
    else .ok ()
  | _, _ => .ok ()

/-- `internal_unit_share_token_amounts`, `unit_lpt_cumulative_infos.rs:137-145`: what one whole
share redeems, if more than one whole share exists. -/
def unitShare (p : Pool) : R (Option (List Nat)) :=
  if p.supply > 10 ^ p.shareDecimal then do
    let (_, paid) ← p.removeLiquidity "@view".toList (10 ^ p.shareDecimal)
      (p.tokens.map fun _ => 0) true
    .ok (some paid)
  else .ok none

end Pool
end Verif

import Verif.Exchange.Calls

/-
The report about one pool, `/repo/ref-exchange/src/views.rs:83-144`, `403-405`.
-/

namespace Verif

/-- `PoolInfo`, `views.rs:83-97`: `kind` is `none` for a simple pool. -/
structure PoolInfo where
  kind : Option CurveKind
  tokens : List AccountId
  amounts : List Nat
  fee : Nat
  supply : Nat
  amp : Nat
  deriving DecidableEq

namespace Contract

/-- `From<Pool> for PoolInfo`, `views.rs:107-144`. The degen pool's `get_amp` reads the prices of its
tokens (`degen_swap/mod.rs:155-161`). -/
def poolInfo (c : Contract) (now : Nat) : Pool → R PoolInfo
  | .simple p => .ok ⟨none, [p.tok0, p.tok1], [p.amt0, p.amt1], p.totalFee, p.supply, 0⟩
  | .curve p => do
    let e ← c.cfg.env now (.curve p)
    let as ← p.getAmounts
    .ok ⟨some p.kind, p.toks, as, p.totalFee, p.supply, p.getAmp e⟩

/-- `get_pool`, `views.rs:403-405`. -/
def getPool (c : Contract) (now id : Nat) : R PoolInfo := do
  let p ← c.pool id
  c.poolInfo now p

end Contract
end Verif

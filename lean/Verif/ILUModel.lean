/-
Model of `LU::ilu0`, `/repo/src/lib/LU.inl:218-261`.

The elimination writes through non-const row iterators (`*it = d`, `*it2 -= ...`), i.e. directly into
`mValues[mColumnPtrIndex]` (SparseMatrix.inl:73-84); explicit zeros may therefore be stored in the working
copy `M`.  `absv : T → V` is `std::abs`, `eps` is `numeric_limits::epsilon()`.
-/
import Verif.SparseModel
import Mathlib.Algebra.Field.Defs
import Mathlib.Order.Defs.LinearOrder

namespace NS
namespace LU
open Sparse
variable {T V : Type}

/-- `for(; it2 != M.row_end(i); ++it2) *it2 -= d * M.at(it.column(), it2.column());`, LU.inl:240-241,
with fuel; `k` is `it.column()`. -/
def iluInner [Field T] [DecidableEq T] (d : T) (k : Nat) : Nat → Sparse T → SIt → R (Sparse T)
  | 0, s, it => if s.itEq it s.itEnd then .ok s else .error .diverge
  | n + 1, s, it =>
      if s.itEq it s.itEnd then .ok s
      else do
        let m ← s.at' k it.i2
        let v ← getIdx s.values it.cpi
        let vs ← setIdx s.values it.cpi (v - d * m)
        let s' := { s with values := vs }
        let it' ← s'.rowNext it
        iluInner d k n s' it'

/-- The loop over the entries `a_ik`, `k < i`, of row `i`, LU.inl:229-242, with fuel. -/
def iluRow [Field T] [DecidableEq T] [LinearOrder V] (absv : T → V) (eps : V) (i : Nat) :
    Nat → Sparse T → SIt → R (Sparse T)
  | 0, s, it => if !s.itEq it s.itEnd && decide (it.i2 < i) then .error .diverge else .ok s
  | n + 1, s, it =>
      if !s.itEq it s.itEnd && decide (it.i2 < i) then do
        let mid ← s.at' it.i2 it.i2
        throwIf (absv mid ≤ eps) .singular
        let v ← getIdx s.values it.cpi
        let d := v / mid
        let vs ← setIdx s.values it.cpi d
        let s' := { s with values := vs }
        let it2 ← s'.rowNext it
        let s'' ← iluInner d it.i2 n s' it2
        let it' ← s''.rowNext it
        iluRow absv eps i n s'' it'
      else .ok s

/-- "Calculate", LU.inl:227-243. -/
def iluElim [Field T] [DecidableEq T] [LinearOrder V] (absv : T → V) (eps : V) (M : Sparse T) : R (Sparse T) :=
  forRange 1 M.rows M fun i M => do
    let it ← M.rowBegin i
    iluRow absv eps i (M.values.length + 1) M it

/-- "Seperate M into L and U", LU.inl:246-260. -/
def iluSplit [Field T] [DecidableEq T] (M L U : Sparse T) : R (Sparse T × Sparse T) := do
  let l ← M.entriesNC
  forList l (L, U) fun e LU =>
    if e.2.1 = e.1 then do
      let L ← LU.1.set e.1 e.2.1 1
      let U ← LU.2.set e.1 e.2.1 e.2.2
      return (L, U)
    else if e.2.1 < e.1 then do
      let L ← LU.1.set e.1 e.2.1 e.2.2
      return (L, LU.2)
    else do
      let U ← LU.2.set e.1 e.2.1 e.2.2
      return (LU.1, U)

/-- `ilu0(A, L, U)`, LU.inl:218-261; returns the new `(L, U)`. -/
def ilu0 [Field T] [DecidableEq T] [LinearOrder V] (absv : T → V) (eps : V) (A L U : Sparse T) :
    R (Sparse T × Sparse T) := do
  throwIf (A.rows ≠ A.columns) .notSquare
  let M ← iluElim absv eps A
  iluSplit M L U
end LU
end NS

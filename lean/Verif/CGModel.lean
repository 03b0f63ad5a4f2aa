/-
Model of `/repo/src/lib/CG.inl` (`CG::serial`).  Real scalars, exact arithmetic (`T` a linearly ordered field);
the divisions are `fdiv`, which reports a zero divisor as the outcome `nonfinite`.  Without `NS_ALLOW_CHECKS`.
-/
import Verif.Mat
import Mathlib.Algebra.Field.Defs
import Mathlib.Order.Defs.LinearOrder

namespace NS
namespace CG
open MatOps
variable {M T V : Type} [MatOps M T] [Field T] [LinearOrder T]

/-- Working state of `cg`: `x`, `r`, `p`, `rs`. (CG.inl:24-28) -/
structure CgSt (T : Type) where
  x : List T
  r : List T
  p : List T
  rs : T

/-- The loop of `cg`, `CG.inl:33-49`, with `n` iterations left (`n = maxIter - k`).  Returns `x` and the final `k`. -/
def cgLoop (a : M) (eps2 : T) : Nat → Nat → CgSt T → R (List T × Nat)
  | 0, k, s => .ok (s.x, k)
  | n + 1, k, s => do
      let t ← mulVec a s.p
      let tp ← Vec.dot t s.p
      let ak ← fdiv s.rs tp
      let ap ← Vec.mulScalar s.p ak
      let x ← Vec.addAssign s.x ap
      let at' ← Vec.mulScalar t ak
      let l ← Vec.subAssign s.r at'
      let ls ← Vec.magSqr l
      if ls < eps2 ∨ n = 0 then return (x, k)
      else
        let bk ← fdiv ls s.rs
        let br ← Vec.mulScalar s.r bk
        let p ← Vec.addAssign l br
        cgLoop a eps2 n (k + 1) ⟨x, l, p, ls⟩

/-- `cg(a, b, x0, maxIter, eps, it_stat)`, `CG.inl:8-54`; returns the vector and `*it_stat`. -/
def cg (a : M) (b x0 : List T) (maxIter : Nat) (eps : T) : R (List T × Nat) := do
  throwIf (rows a ≠ cols a) .notSquare
  let ax ← mulVec a x0
  let r ← Vec.subAssign b ax
  let rs ← Vec.magSqr r
  let res ← cgLoop a (eps * eps) maxIter 0 ⟨x0, r, r, rs⟩
  return (res.1, res.2 + 1)

/-- The loop of `pcg`, `CG.inl:83-98`; the state field `rs` is `l1`. -/
def pcgLoop (a c : M) (eps2 : T) : Nat → Nat → CgSt T → R (List T × Nat)
  | 0, k, s => .ok (s.x, k)
  | n + 1, k, s => do
      let t ← mulVec a s.p
      let tp ← Vec.dot t s.p
      let ak ← fdiv s.rs tp
      let ap ← Vec.mulScalar s.p ak
      let x ← Vec.addAssign s.x ap
      let at' ← Vec.mulScalar t ak
      let r ← Vec.subAssign s.r at'
      let m ← Vec.magSqr r
      if m < eps2 ∨ n = 0 then return (x, k)
      else
        let z ← mulVec c r
        let l2 ← Vec.dot r z
        let be ← fdiv l2 s.rs
        let bp ← Vec.mulScalar s.p be
        let p ← Vec.addAssign z bp
        pcgLoop a c eps2 n (k + 1) ⟨x, r, p, l2⟩

/-- `pcg(a, b, c, x0, maxIter, eps, it_stat)`, `CG.inl:56-104`; returns the vector and `*it_stat`. -/
def pcg (a : M) (b : List T) (c : M) (x0 : List T) (maxIter : Nat) (eps : T) : R (List T × Nat) := do
  throwIf (rows a ≠ cols a) .notSquare
  throwIf (rows c ≠ cols c) .notSquare
  throwIf (rows a ≠ rows c) .matrixSizeMismatch
  let ax ← mulVec a x0
  let r ← Vec.subAssign b ax
  let z ← mulVec c r
  let l1 ← Vec.dot r z
  let res ← pcgLoop a c (eps * eps) maxIter 0 ⟨x0, r, z, l1⟩
  return (res.1, res.2 + 1)
end CG

namespace CG
open MatOps
variable {M T V : Type} [MatOps M T]
/-- `jacobi(A, C)`, `CG.inl:106-127`; `absv` is `std::abs`, `eps` is `numeric_limits::epsilon()`.  Only the
diagonal of `C` is written. -/
def jacobi [Field T] [LinearOrder V] (absv : T → V) (eps : V) (A C : M) : R M := do
  throwIf (rows A ≠ cols A) .notSquare
  throwIf (rows C ≠ cols C) .notSquare
  throwIf (rows A ≠ rows C) .matrixSizeMismatch
  forRange 0 (rows A) C fun i C => do
    let mid ← get A i i
    throwIf (absv mid ≤ eps) .singular
    put C i i (1 / mid)
end CG
end NS

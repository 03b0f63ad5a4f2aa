/-
Model of `/repo/src/lib/Iterative.inl` for element types without an order, such as `std::complex<double>` (the unit tests
run both methods with it, `tests/iterative.cpp:55`).  `K` is the element type (exact arithmetic), `cabs : K → T` is
`std::abs`.  A zero on the diagonal, where the C++ code divides by zero, is the outcome `nonfinite` (for real element types
the values that appear then are modelled in `IterativeModel.lean`).
-/
import Verif.Mat

namespace NS
namespace CxIterative
open MatOps
variable {M K T : Type} [MatOps M K] [Zero K] [One K] [Add K] [Sub K] [Mul K] [Div K] [DecidableEq K] [Mul T] [LE T] [DecidableLE T]

/-- The inner loop of `jacobi` over row `i`, `Iterative.inl:32-40`; returns `(mid, t)`. -/
def jacobiRow (x : List K) (i : Nat) (row : List (Nat × Nat × K)) : R (K × K) :=
  forList row (0, 0) fun e s =>
    if e.2.1 ≠ i then do
      let xv ← vecAt x e.2.1
      return (s.1, s.2 + e.2.2 * xv)
    else return (e.2.2, s.2)

/-- One sweep of `jacobi`, `Iterative.inl:30-43`. -/
def jacobiSweep (a : M) (b x xm : List K) : R (List K) :=
  forRange 0 (rows a) xm fun i xm => do
    let row ← rowEntries a i
    let s ← jacobiRow x i row
    let bi ← vecAt b i
    let y ← fdiv (bi - s.2) s.1
    vecSet xm i y

/-- The inner loop of `sor` over row `i`, `Iterative.inl:91-101`; returns `(mid, t)`. -/
def sorRow (x xm : List K) (i : Nat) (row : List (Nat × Nat × K)) : R (K × K) :=
  forList row (0, 0) fun e s =>
    if e.2.1 < i then do
      let xv ← vecAt xm e.2.1
      return (s.1, s.2 + e.2.2 * xv)
    else if e.2.1 > i then do
      let xv ← vecAt x e.2.1
      return (s.1, s.2 + e.2.2 * xv)
    else return (e.2.2, s.2)

/-- One sweep of `sor`, `Iterative.inl:89-105`; `rweight = 1 - weight` (line 81). -/
def sorSweep (weight : K) (a : M) (b x xm : List K) : R (List K) :=
  forRange 0 (rows a) xm fun i xm => do
    let row ← rowEntries a i
    let s ← sorRow x xm i row
    let bi ← vecAt b i
    let t ← fdiv (bi - s.2) s.1
    let xi ← vecAt xm i
    vecSet xm i ((1 - weight) * xi + weight * t)

/-- The outer loop, `Iterative.inl:28-66`, `87-128`, after `it` iterations with `n = maxIter - it` left; returns the vector
and `*it_stat`.  `(xm - x).magSqr()` is `dot` without conjugation, `Vector.inl:64-86`. -/
def iterLoop (cabs : K → T) (sweep : List K → List K → R (List K)) (eps2 : T) : Nat → Nat → List K → List K →
    R (List K × Nat)
  | 0, it, x, _ => .ok (x, it)
  | n + 1, it, x, xm => do
      let xm ← sweep x xm
      let d ← Vec.subAssign xm x
      let c ← Vec.magSqr d
      if cabs c ≤ eps2 then return (xm, it + 1)
      else iterLoop cabs sweep eps2 n (it + 1) xm xm

/-- `jacobi(a, b, x0, maxIter, eps, it_stat)`, `Iterative.inl:11-67`. -/
def jacobi (cabs : K → T) (a : M) (b x0 : List K) (maxIter : Nat) (eps : T) : R (List K × Nat) := do
  throwIf (rows a ≠ cols a) .notSquare
  throwIf (rows a ≠ b.length ∨ rows a ≠ x0.length) .matrixVectorMismatch
  let xm ← Vec.fill x0 0
  iterLoop cabs (jacobiSweep a b) (eps * eps) maxIter 0 x0 xm

/-- `sor(a, b, x0, weight, maxIter, eps, it_stat)`, `Iterative.inl:69-129`; `weight` is a `double`, here embedded in `K`. -/
def sor (cabs : K → T) (a : M) (b x0 : List K) (weight : K) (maxIter : Nat) (eps : T) : R (List K × Nat) := do
  throwIf (rows a ≠ cols a) .notSquare
  throwIf (rows a ≠ b.length ∨ rows a ≠ x0.length) .matrixVectorMismatch
  let xm ← Vec.fill x0 0
  iterLoop cabs (sorSweep weight a b) (eps * eps) maxIter 0 x0 xm
end CxIterative
end NS

/-
Model of `/repo/src/lib/Iterative.inl` (`Iterative::serial`): `jacobi` and `sor`, for real scalars.
Vectors hold floating-point values `Fl T` (exact finite arithmetic plus infinities and NaN); matrix entries are finite.
-/
import Verif.Mat
import Verif.FlModel

namespace NS
namespace Iterative
open MatOps
variable {M T : Type} [MatOps M T] [Field T] [LinearOrder T]

/-- The inner loop of `jacobi` over row `i`, `Iterative.inl:32-40`; returns `(mid, t)`. -/
def jacobiRow (x : List (Fl T)) (i : Nat) (row : List (Nat × Nat × T)) : R (Fl T × Fl T) :=
  forList row (0, 0) fun e s =>
    if e.2.1 ≠ i then do
      let xv ← vecAt x e.2.1
      return (s.1, s.2 + .fin e.2.2 * xv)
    else return (.fin e.2.2, s.2)

/-- One sweep of `jacobi`, `Iterative.inl:30-43`. -/
def jacobiSweep (a : M) (b x xm : List (Fl T)) : R (List (Fl T)) :=
  forRange 0 (rows a) xm fun i xm => do
    let row ← rowEntries a i
    let s ← jacobiRow x i row
    let bi ← vecAt b i
    vecSet xm i ((bi - s.2) / s.1)

/-- The inner loop of `sor` over row `i`, `Iterative.inl:91-101`; returns `(mid, t)`. -/
def sorRow (x xm : List (Fl T)) (i : Nat) (row : List (Nat × Nat × T)) : R (Fl T × Fl T) :=
  forList row (0, 0) fun e s =>
    if e.2.1 < i then do
      let xv ← vecAt xm e.2.1
      return (s.1, s.2 + .fin e.2.2 * xv)
    else if e.2.1 > i then do
      let xv ← vecAt x e.2.1
      return (s.1, s.2 + .fin e.2.2 * xv)
    else return (.fin e.2.2, s.2)

/-- One sweep of `sor`, `Iterative.inl:89-105`; `rweight = 1 - weight` (line 81). -/
def sorSweep (weight : T) (a : M) (b x xm : List (Fl T)) : R (List (Fl T)) :=
  forRange 0 (rows a) xm fun i xm => do
    let row ← rowEntries a i
    let s ← sorRow x xm i row
    let bi ← vecAt b i
    let t := (bi - s.2) / s.1
    let xi ← vecAt xm i
    vecSet xm i (.fin (1 - weight) * xi + .fin weight * t)

/-- The outer loop shared in shape by `jacobi` (`Iterative.inl:28-66`) and `sor` (`Iterative.inl:87-128`), after `it`
iterations with `n = maxIter - it` left; returns the vector and `*it_stat`. -/
def iterLoop (sweep : List (Fl T) → List (Fl T) → R (List (Fl T))) (eps2 : T) : Nat → Nat → List (Fl T) → List (Fl T) →
    R (List (Fl T) × Nat)
  | 0, it, x, _ => .ok (x, it)
  | n + 1, it, x, xm => do
      let xm ← sweep x xm
      let d ← Vec.subAssign xm x
      let c ← Vec.magSqr d
      let conv := c.abs
      throwIf (conv.isNan = true) .matrixHasZeroInDiag
      if conv.isFinite = false ∨ conv.leFin eps2 = true then return (xm, it + 1)
      else iterLoop sweep eps2 n (it + 1) xm xm

/-- `jacobi(a, b, x0, maxIter, eps, it_stat)`, `Iterative.inl:11-67`. -/
def jacobi (a : M) (b x0 : List (Fl T)) (maxIter : Nat) (eps : T) : R (List (Fl T) × Nat) := do
  throwIf (rows a ≠ cols a) .notSquare
  throwIf (rows a ≠ b.length ∨ rows a ≠ x0.length) .matrixVectorMismatch
  let xm ← Vec.fill x0 0
  iterLoop (jacobiSweep a b) (eps * eps) maxIter 0 x0 xm

/-- `sor(a, b, x0, weight, maxIter, eps, it_stat)`, `Iterative.inl:69-129`. -/
def sor (a : M) (b x0 : List (Fl T)) (weight : T) (maxIter : Nat) (eps : T) : R (List (Fl T) × Nat) := do
  throwIf (rows a ≠ cols a) .notSquare
  throwIf (rows a ≠ b.length ∨ rows a ≠ x0.length) .matrixVectorMismatch
  let xm ← Vec.fill x0 0
  iterLoop (sorSweep weight a b) (eps * eps) maxIter 0 x0 xm
end Iterative
end NS

/-
Model of `max_norm2`, `min_norm2` and `cond`, `/repo/src/lib/matrix/MatrixOperations.inl:150-196`, for real scalars in exact
arithmetic: `sqrt` is `std::sqrt`, `big` is `std::numeric_limits<T>::max()`; its square is taken to be the exact square (in the
program it is infinite).
-/
import Verif.Mat
import Mathlib.Algebra.Order.Field.Basic
import Mathlib.Algebra.Order.Ring.Abs

namespace NS
namespace Operations
open MatOps
variable {M T : Type} [MatOps M T] [Field T] [LinearOrder T]

/-- the inner loop of `max_norm2`, `MatrixOperations.inl:158-163` -/
def rowMax (row : List (Nat × Nat × T)) : R T :=
  forList row 0 fun e s => if |e.2.2| > s then return |e.2.2| else return s

/-- `max_norm2(m)`, `MatrixOperations.inl:150-169` -/
def maxNorm2 (sqrt : T → T) (m : M) : R T := do
  let v ← forRange 0 (rows m) 0 fun i v => do
    let row ← rowEntries m i
    let s ← rowMax row
    return v + s * s
  return sqrt v

/-- the inner loop of `min_norm2`, `MatrixOperations.inl:179-184` -/
def rowMin (big : T) (row : List (Nat × Nat × T)) : R T :=
  forList row big fun e s => if |e.2.2| < s then return |e.2.2| else return s

/-- `min_norm2(m)`, `MatrixOperations.inl:171-190` -/
def minNorm2 (sqrt : T → T) (big : T) (m : M) : R T := do
  let v ← forRange 0 (rows m) 0 fun i v => do
    let row ← rowEntries m i
    let s ← rowMin big row
    return v + s * s
  return sqrt v

/-- `cond(m)`, `MatrixOperations.inl:192-196` -/
def cond (sqrt : T → T) (big : T) (m : M) : R T := do
  let a ← maxNorm2 sqrt m
  let b ← minNorm2 sqrt big m
  fdiv a b
end Operations
end NS

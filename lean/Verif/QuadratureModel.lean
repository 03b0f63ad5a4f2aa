/-
Model of `quadrature/GaussLegendreQuadratureFactory.inl` and `quadrature/Quadrature.inl`.

Simplifications: the decimal literals are the exact decimal numbers they denote (not the nearest `float`/`double`);
`FixedVector<T,K>` is a list of length `K`; the integrand is a total function of the point.
-/
import Verif.Outcome
import Mathlib.Algebra.Field.Basic
import Mathlib.Data.Nat.Factorial.Basic

namespace NS
namespace Quadrature
variable {T : Type} [Field T]

/-- a decimal literal `n / 10^15` (GaussLegendreQuadratureFactory.inl:25-86) -/
def lit (n : Int) : T := (n : T) / 10 ^ 15

/-- `static_assert`s, `GaussLegendreQuadratureFactory.inl:20-23` -/
def supported (K order : Nat) : Prop := (K = 1 ∨ K = 2) ∧ 1 ≤ order ∧ order ≤ 3

/-- the `push_back` sequence of the constructor: points with their weights before normalisation,
`GaussLegendreQuadratureFactory.inl:25-86` -/
def table (K order : Nat) : List (List T × T) :=
  match K, order with
  | 1, 1 => [([lit 500000000000000], 1)]
  | 1, 2 => [([lit 211324865405187], lit 500000000000000), ([lit 788675134594813], lit 500000000000000)]
  | 1, 3 => [([lit 500000000000000], lit 444444444444444), ([lit 112701665379258], lit 277777777777777),
      ([lit 887298334620742], lit 277777777777777)]
  | 2, 1 => [([lit 333333333333333, lit 333333333333333], 1)]
  | 2, 2 => [([0, lit 500000000000000], lit 333333333333333), ([lit 500000000000000, 0], lit 333333333333333),
      ([lit 500000000000000, lit 500000000000000], lit 333333333333333)]
  | 2, 3 => [([lit 333333333333333, lit 333333333333333], lit (-562500000000000)),
      ([lit 200000000000000, lit 200000000000000], lit 520833333333333),
      ([lit 200000000000000, lit 600000000000000], lit 520833333333333),
      ([lit 600000000000000, lit 200000000000000], lit 520833333333333)]
  | _, _ => []

/-- `Simplex<T,K>::unitVolume()`, `Simplex.inl:63-67` -/
def unitVolume (K : Nat) : T := 1 / (K.factorial : T)

/-- `getQuadraturePoints()`, `GaussLegendreQuadratureFactory.inl:94-98` -/
def points (K order : Nat) : List (List T) := (table K order).map (·.1)

/-- `getQuadratureWeights()`: `mWeights[i] *= norm` for every `i`, `GaussLegendreQuadratureFactory.inl:88-91, 100-104` -/
def weights (K order : Nat) : R (List T) :=
  let ws := (table K order).map (·.2)
  forRange 0 ws.length ws fun i ws => do
    let w ← getIdx ws i
    setIdx ws i (w * unitVolume K)

/-- `eval_index(func, start)`, `Quadrature.inl:26-40`; `RT` is any type with `+` and multiplication by a `T` -/
def evalIndex {α : Type} [Add α] [SMul T α] (K order : Nat) (f : Nat → List T → α) (start : α) : R α := do
  let ps : List (List T) := points K order
  let ws : List T ← weights K order
  assert (ps.length = ws.length)
  forRange 0 ps.length start fun i v => do
    let w ← getIdx ws i
    let p ← getIdx ps i
    return v + w • f i p

/-- `eval(func, start)`, `Quadrature.inl:10-24` -/
def eval {α : Type} [Add α] [SMul T α] (K order : Nat) (f : List T → α) (start : α) : R α := do
  let ps : List (List T) := points K order
  let ws : List T ← weights K order
  assert (ps.length = ws.length)
  forRange 0 ps.length start fun i v => do
    let w ← getIdx ws i
    let p ← getIdx ps i
    return v + w • f p

end Quadrature
end NS

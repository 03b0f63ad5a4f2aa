/-
Model of `/repo/src/lib/LU.inl` (without `ilu0`, see `ILUModel.lean`) and
`/repo/src/lib/matrix/MatrixOperations.inl`.

Scalars are any type `T` with the arithmetic operations used: a field for the exact theorems, a floating-point type for the
rounding-error theorems; `absv : T → V` stands for `std::abs`,
`eps : V` for `std::numeric_limits<...>::epsilon()`, `sqrt` for `std::sqrt` and `sqrtAllowed` for
`sqrt_allowed`.
-/
import Verif.Mat
import Mathlib.Algebra.Order.AbsoluteValue.Basic

namespace NS
namespace LU
open MatOps
variable {M T V : Type} [MatOps M T]

/-- The working state of `doolittle`: `U`, `L`, `rowTable`, `*pivotCount`. (local variables, LU.inl:50-66) -/
structure St (M : Type) where
  U : M
  L : M
  rt : List Nat
  pc : Nat

/-- Pivot search, `LU.inl:77-87` = `LU.inl:160-170`: the last row `j >= k` with maximal `|U(j,k)|`. -/
def findPivot [LinearOrder V] (absv : T → V) (U : M) (k n : Nat) : R (Nat × V) := do
  let u ← get U k k
  forRange (k + 1) n (k, absv u) fun j im => do
    let x ← get U j k
    if absv x ≥ im.2 then return (j, absv x) else return im

/-- Exchange rows `k` and `i` in columns `a..b-1`, `LU.inl:95-100`, `102-107` (= `178-190`). -/
def swapSeg (X : M) (k i a b : Nat) : R M :=
  forRange a b X fun j X => do
    let tmp ← get X k j
    let x ← get X i j
    let X ← put X k j x
    put X i j tmp

/-- `std::swap(rowTable[i], rowTable[k])`, `LU.inl:109` (= `192`). -/
def swapIdx (l : List Nat) (i k : Nat) : R (List Nat) := do
  let a ← getIdx l i
  let b ← getIdx l k
  let l ← setIdx l i b
  setIdx l k a

/-- "Reorder if necessary", `LU.inl:90-110` (= `173-193`). -/
def reorder (s : St M) (k i n : Nat) : R (St M) :=
  if i ≠ k then do
    let U ← swapSeg s.U k i k n
    let L ← swapSeg s.L k i 0 k
    let rt ← swapIdx s.rt i k
    return { U := U, L := L, rt := rt, pc := s.pc + 1 }
  else return s

/-- "Actual calculating", `LU.inl:117-124` (= `200-207`). -/
def eliminate [One T] [Sub T] [Mul T] [Div T] (U L : M) (k n : Nat) : R (M × M) := do
  let mid ← get U k k
  let invMid := 1 / mid
  forRange (k + 1) n (U, L) fun j UL => do
    let x ← get UL.1 j k
    let L ← put UL.2 j k (x * invMid)
    let U ← forRange k n UL.1 fun t U => do
      let a ← get U j t
      let l ← get L j k
      let b ← get U k t
      put U j t (a - l * b)
    return (U, L)

/-- Body of the loop over `k`, `LU.inl:74-125` (= `157-208`). -/
def step [One T] [Sub T] [Mul T] [Div T] [LinearOrder V] (absv : T → V) (eps : V) (n k : Nat) (s : St M) : R (St M) := do
  let im ← findPivot absv s.U k n
  let s ← reorder s k im.1 n
  let p ← get s.U k k
  throwIf (absv p ≤ eps) .singular
  let UL ← eliminate s.U s.L k n
  return { s with U := UL.1, L := UL.2 }

/-- `for (i..) { L.set(i,i,1); rowTable[i] = i; }`, `LU.inl:66-71` (= `149-154`); `new Index[n]` is
modelled as `n` zeros, all of which are overwritten. -/
def setup [One T] (L : M) (n : Nat) : R (M × List Nat) :=
  forRange 0 n (L, List.replicate n 0) fun i Lr => do
    let L ← put Lr.1 i i 1
    let rt ← setIdx Lr.2 i i
    return (L, rt)

/-- `LU.inl:128-129` (= `212-213`) -/
def buildP [One T] (P : M) (rt : List Nat) (n : Nat) : R M :=
  forRange 0 n P fun i P => do
    let r ← getIdx rt i
    put P i r 1

/-- `LU.inl:59-131`: everything after the checks, for given initial `L` and `P`.
`n-1` is a `size_t` subtraction. Results: `L`, `U`, `P`, `*pivotCount`. -/
def doolittleFrom [One T] [Sub T] [Mul T] [Div T] [LinearOrder V] (absv : T → V) (eps : V) (A L P : M) : R (M × M × M × Nat) := do
  let n := rows A
  let Lr ← setup L n
  let s ← forRange 0 (wsub n 1) ({ U := A, L := Lr.1, rt := Lr.2, pc := 0 } : St M) (step absv eps n)
  let P ← buildP P s.rt n
  return (s.L, s.U, P, s.pc)

/-- `doolittle(const BaseMatrix&, ...)` (dense and fixed matrices), `LU.inl:49-132`. `L` and `P` are
in/out parameters whose previous content stays visible; `U` is overwritten. -/
def doolittleBase [One T] [Sub T] [Mul T] [Div T] [LinearOrder V] (absv : T → V) (eps : V) (A L P : M) : R (M × M × M × Nat) := do
  throwIf (rows A ≠ cols A) .notSquare
  throwIf (rows A ≠ rows L ∨ cols A ≠ cols L ∨ rows A ≠ rows P ∨ cols A ≠ cols P) .invalidOutputMatrix
  doolittleFrom absv eps A L P

/-- `doolittle(const SparseMatrix&, ...)`, `LU.inl:134-216`: `L` and `P` are replaced by new matrices.
(Simplification: the new `P`, created after the loop at line 211, is created before it here; the
constructor has no effect and fails only for `n = 0`, where the new `L` at line 145 fails already.) -/
def doolittleSparse [One T] [Sub T] [Mul T] [Div T] [LinearOrder V] (absv : T → V) (eps : V) (A : M) : R (M × M × M × Nat) := do
  throwIf (rows A ≠ cols A) .notSquare
  let n := rows A
  let L ← make n n
  let P ← make n n
  doolittleFrom absv eps A L P

/-- What `cholesky` does in exact arithmetic after a pivot `s = 0` (`LU.inl:33-44`): the first pass of the loop `:38` (`i = j`) divides
`0/0`, so that `L.at(j,j)` and then the whole column `j` is NaN.  In the last column that is the result.  Otherwise the sum of
`:26-31` for the next column is NaN, and `sqrt_allowed(NaN)` (`Types.h:54-64`) decides: it is `NaN >= 0`, which is false, for real types
(`nanAllowed = false`) and true for complex ones. -/
def zeroPivot (nanAllowed last : Bool) : R M :=
  if last || nanAllowed then .error .nonfinite else .error (.exc .notPositiveDefinite)

/-- `cholesky`, `LU.inl:8-46` (without `NS_ALLOW_CHECKS`).  `sqrtAllowed` and `nanAllowed` are `sqrt_allowed` on numbers and on NaN. -/
def cholesky [Zero T] [Add T] [Sub T] [Mul T] [Div T] [DecidableEq T] (sqrtAllowed : T → Bool) (nanAllowed : Bool) (sqrt : T → T)
    (m L : M) : R M := do
  throwIf (rows m ≠ cols m) .notSquare
  throwIf (rows m ≠ rows L ∨ cols m ≠ cols L) .invalidOutputMatrix
  forRange 0 (rows L) L fun j L => do
    let s ← forRange 0 j (0 : T) fun k s => do
      let v ← get L j k
      return s + v * v
    let mjj ← get m j j
    let s := mjj - s
    throwIf (sqrtAllowed s = false) .notPositiveDefinite
    let L ← put L j j (sqrt s)
    if sqrt s = 0 then zeroPivot nanAllowed (decide (j + 1 = rows L)) else
    forRange j (rows L) L fun i L => do
      let s ← forRange 0 i (0 : T) fun k s => do
        let a ← get L i k
        let b ← get L j k
        return s + a * b
      let mij ← get m i j
      let d ← get L j j
      put L i j ((mij - s) / d)

/-- Forward part of `solve_lu`, loop body `LU.inl:280-289`. -/
def fwdStep [Sub T] [Mul T] [Div T] [LinearOrder V] (absv : T → V) (eps : V) (L : M) (i : Nat) (y : List T) : R (List T) := do
  let l ← rowEntries L i
  let y ← forList (l.takeWhile (fun e => decide (e.2.1 < i))) y fun e y => do
    let yi ← vecAt y i
    let yc ← vecAt y e.2.1
    vecSet y i (yi - e.2.2 * yc)
  let mid ← get L i i
  throwIf (absv mid ≤ eps) .singular
  let yi ← vecAt y i
  vecSet y i (yi / mid)

/-- Backward part of `solve_lu`, loop body `LU.inl:295-306`. -/
def bwdStep [Sub T] [Mul T] [Div T] [LinearOrder V] (absv : T → V) (eps : V) (U : M) (i : Nat) (x : List T) : R (List T) := do
  let l ← rowEntries U i
  let x ← forList l x fun e x =>
    if e.2.1 < i + 1 then return x
    else do
      let xi ← vecAt x i
      let xc ← vecAt x e.2.1
      vecSet x i (xi - e.2.2 * xc)
  let mid ← get U i i
  throwIf (absv mid ≤ eps) .singular
  let xi ← vecAt x i
  vecSet x i (xi / mid)

/-- `for (Index i = top; ; --i) { body; if (i == 0) break; }` (LU.inl:293-310, 365-384) -/
def downFrom {σ} (f : Nat → σ → R σ) : Nat → σ → R σ
  | 0, s => f 0 s
  | i + 1, s => (f (i + 1) s) >>= fun s' => downFrom f i s'

/-- `solve_lu`, `LU.inl:263-313`. For an (impossible) empty `U` the backward loop would start at
`2^64-1` and abort; modelled as an abort. -/
def solveLu [Sub T] [Mul T] [Div T] [LinearOrder V] (absv : T → V) (eps : V) (L U : M) (b : List T) : R (List T) := do
  throwIf (rows L ≠ cols L) .notSquare
  throwIf (rows U ≠ cols U) .notSquare
  throwIf (rows L ≠ rows U) .matrixSizeMismatch
  throwIf (rows L ≠ b.length) .matrixVectorMismatch
  let y ← forRange 0 (rows L) b (fwdStep absv eps L)
  assert (0 < rows U)
  downFrom (bwdStep absv eps U) (rows U - 1) y

/-- `ainv_lu`, the loop over `k`, part "L": `LU.inl:346-360`. -/
def ainvL [One T] [Sub T] [Mul T] (L : M) (N k : Nat) (invL : M) : R M := do
  let invL ← put invL k k 1
  forRange (k + 1) N invL fun i invL => do
    let m ← get invL i k
    let l ← rowEntries L i
    let m ← forList ((l.dropWhile (fun e => decide (e.2.1 < k))).takeWhile (fun e => decide (e.2.1 < i))) m
      fun e m => do
        let x ← get invL e.2.1 k
        return m - e.2.2 * x
    put invL i k m

/-- `ainv_lu`, the loop over `k`, part "U": `LU.inl:363-384`. -/
def ainvU [One T] [Sub T] [Mul T] [Div T] [LinearOrder V] (absv : T → V) (eps : V) (U : M) (N k : Nat) (invU : M) : R M := do
  let d ← get U k k
  let invU ← put invU k k (1 / d)
  downFrom (fun i invU => do
    let m ← get invU i k
    let l ← rowEntries U i
    let m ← forList ((l.dropWhile (fun e => decide (e.2.1 < i + 1))).takeWhile (fun e => decide (e.2.1 < k + 1))) m
      fun e m => do
        let x ← get invU e.2.1 k
        return m - e.2.2 * x
    let mid ← get U i i
    throwIf (absv mid ≤ eps) .singular
    put invU i k (m / mid)) (N - 1 - k) invU

/-- `ainv_lu`, `LU.inl:315-386`. -/
def ainvLu [One T] [Sub T] [Mul T] [Div T] [LinearOrder V] (absv : T → V) (eps : V) (L U invL invU : M) : R (M × M) := do
  throwIf (rows L ≠ cols L) .notSquare
  throwIf (rows U ≠ cols U) .notSquare
  throwIf (rows invL ≠ cols invL) .notSquare
  throwIf (rows invU ≠ cols invU) .notSquare
  throwIf (rows L ≠ rows U) .matrixSizeMismatch
  throwIf (rows L ≠ rows invL) .matrixSizeMismatch
  throwIf (rows L ≠ rows invU) .matrixSizeMismatch
  let N := cols L
  forRange 0 N (invL, invU) fun k p => do
    let a ← ainvL L N k p.1
    let b ← ainvU absv eps U N k p.2
    return (a, b)
end LU

namespace Operations
open MatOps LU
variable {M T V : Type} [MatOps M T]

/-- `catch(const MathException&) { return 0; }`, `MatrixOperations.inl:24-27`. -/
def catchMath {α} (x : R α) (d : α) : R α :=
  match x with
  | .error (.exc e) => if e.isMath then .ok d else x
  | _ => x

/-- `determinant`, `MatrixOperations.inl:9-49`, for a matrix class whose `doolittle` overload is
`doo A L P`. (`Math::sign_pow(pivotCount)` is `pivotCount % 2 == 0 ? 1 : -1`, `Utils.h:27-30`.)
The unused initial `U` is not modelled. -/
def determinant [Zero T] [One T] [Mul T] [Neg T] (doo : M → M → M → R (M × M × M × Nat)) (m : M) : R T :=
  catchMath (do
    let L ← make (rows m) (cols m)
    let P ← make (rows m) (cols m)
    let r ← doo m L P
    let U := r.2.1
    forRange 0 (rows U) (if r.2.2.2 % 2 = 0 then (1 : T) else -1) fun i det => do
      let u ← get U i i
      return det * u) 0

/-- `inverse(L,U,P)`, `MatrixOperations.inl:112-148`. -/
def inverseLUP [Zero T] [One T] [Sub T] [Mul T] [Div T] [LinearOrder V] (absv : T → V) (eps : V) (L U P : M) : R M := do
  throwIf (rows L ≠ cols L) .notSquare
  throwIf (rows U ≠ cols U) .notSquare
  throwIf (rows P ≠ cols P) .notSquare
  throwIf (rows L ≠ rows U) .matrixSizeMismatch
  throwIf (rows P ≠ rows U) .matrixSizeMismatch
  let b := List.replicate (rows L) (0 : T)
  let r ← forRange 0 (cols L) (L, b) fun i Ib => do
    let b ← vecSet Ib.2 i 1
    let pb ← mulVec P b
    let x ← solveLu absv eps L U pb
    let Inv ← forRange 0 (rows L) Ib.1 fun j Inv => do
      let xj ← vecAt x j
      put Inv j i xj
    let b ← vecSet b i 0
    return (Inv, b)
  return r.1

/-- `inverse(m)`, `MatrixOperations.inl:51-61`: `L`, `U` and `P` start as copies of `m`. -/
def inverse [Zero T] [One T] [Sub T] [Mul T] [Div T] [LinearOrder V] (absv : T → V) (eps : V) (doo : M → M → M → R (M × M × M × Nat)) (m : M) : R M := do
  let r ← doo m m m
  inverseLUP absv eps r.1 r.2.1 r.2.2.1

/-- `inverse(L,U)`, `MatrixOperations.inl:63-110`, body of the loop over `i` (lines 78-106). -/
def inverseLUStep [One T] [Sub T] [Mul T] [Div T] [LinearOrder V] (absv : T → V) (eps : V) (L U : M) (i : Nat) (Inv : M) : R M := do
  let Inv ← put Inv i i 1
  let Inv ← forRange (i + 1) (rows L) Inv fun j Inv => do
    let l ← rowEntries L j
    forList (l.takeWhile (fun e => decide (e.2.1 < j))) Inv fun e Inv => do
      let a ← get Inv j i
      let b ← get Inv e.2.1 i
      put Inv j i (a - e.2.2 * b)
  downFrom (fun j Inv => do
    let l ← rowEntries U j
    let Inv ← forList l Inv fun e Inv =>
      if e.2.1 < j + 1 then return Inv
      else do
        let a ← get Inv j i
        let b ← get Inv e.2.1 i
        put Inv j i (a - e.2.2 * b)
    let mid ← get U j j
    throwIf (absv mid ≤ eps) .singular
    let a ← get Inv j j
    put Inv j j (a / mid)) (rows U - 1) Inv

/-- `inverse(L,U)`, `MatrixOperations.inl:63-110`. -/
def inverseLU [One T] [Sub T] [Mul T] [Div T] [LinearOrder V] (absv : T → V) (eps : V) (L U : M) : R M := do
  throwIf (rows L ≠ cols L) .notSquare
  throwIf (rows U ≠ cols U) .notSquare
  throwIf (rows L ≠ rows U) .matrixSizeMismatch
  let Inv ← make (rows L) (cols L)
  forRange 0 (cols L) Inv (inverseLUStep absv eps L U)
end Operations
end NS

/-
The unit tests of the project (`/repo/tests/*.cpp`), run in the model.  These are tests of the model, not proofs: they show that the
model gives the values the authors of the code expect, with exact arithmetic in place of `float` and `double`.  Where a test of the
project fails in the model the example states what the model gives, and the comment says why.
-/
import Verif.LUModel
import Verif.ILUModel
import Verif.CGModel
import Verif.IterativeModel
import Verif.ConstructModel
import Verif.OrderModel
import Verif.VecMoreModel
import Mathlib.Algebra.Order.Ring.Rat
import Mathlib.Algebra.Field.Rat

namespace NS.Conformance
open NS MatOps

/-- `std::abs` -/
def absq (x : ℚ) : ℚ := if x < 0 then -x else x
/-- a square root that is right for the squares that occur in the tests -/
def sqrtq (x : ℚ) : ℚ := if x = 4 then 2 else if x = 9 then 3 else x
/-- `numeric_limits<double>::epsilon()` -/
def eps : ℚ := 1 / 2 ^ 52

/-- initializer list constructors -/
def D (l : List (List ℚ)) : R (Dense ℚ) := Dense.ofLists l
def S (l : List (List ℚ)) : R (Sparse ℚ) := Sparse.ofLists l

section lu
/-! `tests/lu.cpp` -/

def cholM : List (List ℚ) := [[4, 12, -16], [12, 37, -43], [-16, -43, 98]]
def cholR : List (List ℚ) := [[2, 0, 0], [6, 1, 0], [-8, 5, 3]]

/-- "cholesky", `lu.cpp:12-29` -/
example : (do LU.cholesky (fun x => decide (0 ≤ x)) true sqrtq (← D cholM) (← Dense.mk' 3 3)) = D cholR := by decide +kernel
example : (do LU.cholesky (fun x => decide (0 ≤ x)) true sqrtq (← S cholM) (← Sparse.mk' 3 3)) = S cholR := by decide +kernel

def luA : List (List ℚ) := [[1, 1, 1], [2, 3, 5], [4, 6, 8]]
def luL : List (List ℚ) := [[1, 0, 0], [1 / 4, 1, 0], [1 / 2, 0, 1]]
def luU : List (List ℚ) := [[4, 6, 8], [0, -1 / 2, -1], [0, 0, 1]]
def luP : List (List ℚ) := [[0, 0, 1], [1, 0, 0], [0, 1, 0]]

/-- "doolittle", `lu.cpp:30-54` -/
example : (do LU.doolittleBase absq eps (← D luA) (← Dense.mk' 3 3) (← Dense.mk' 3 3)) =
    (do return (← D luL, ← D luU, ← D luP, 2)) := by decide +kernel
example : (do LU.doolittleSparse absq eps (← S luA)) = (do return (← S luL, ← S luU, ← S luP, 2)) := by decide +kernel
example : (do Dense.mul (← D luL) (← D luU)) = (do Dense.mul (← D luP) (← D luA)) := by decide +kernel
example : (do Sparse.mul (← S luL) (← S luU)) = (do Sparse.mul (← S luP) (← S luA)) := by decide +kernel

def slA : List (List ℚ) := [[1, 2, 0], [0, 1, 0], [0, 4, 2]]
/-- "solve_lu", `lu.cpp:55-75` -/
example : (do
    let r ← LU.doolittleBase absq eps (← D slA) (← Dense.mk' 3 3) (← Dense.mk' 3 3)
    LU.solveLu absq eps r.1 r.2.1 (← Dense.mulVec r.2.2.1 [1, 2, 4])) = .ok [-3, 2, -2] := by decide +kernel
example : (do
    let r ← LU.doolittleSparse absq eps (← S slA)
    LU.solveLu absq eps r.1 r.2.1 (← Sparse.mulVec r.2.2.1 [1, 2, 4])) = .ok [-3, 2, -2] := by decide +kernel

def ilA : List (List ℚ) := [[1, -1, -1, -1], [-1, 2, 0, 0], [-1, 0, 3, 1], [-1, 0, 1, 4]]
def ilL : List (List ℚ) := [[1, 0, 0, 0], [-1, 1, 0, 0], [-1, 0, 1, 0], [-1, 0, 0, 1]]
def ilU : List (List ℚ) := [[1, -1, -1, -1], [0, 1, 0, 0], [0, 0, 2, 0], [0, 0, 0, 3]]
/-- "ilu0", `lu.cpp:80-115` -/
example : (do LU.ilu0 absq eps (← S ilA) (← Sparse.mk' 4 4) (← Sparse.mk' 4 4)) = (do return (← S ilL, ← S ilU)) := by decide +kernel
/-- "ainv_lu", `lu.cpp:116-150` (the factor passes because its first two pivots are 1, see C33) -/
example : (do LU.ainvLu absq eps (← S ilL) (← S ilU) (← Sparse.mk' 4 4) (← Sparse.mk' 4 4)) =
    (do return (← S [[1, 0, 0, 0], [1, 1, 0, 0], [1, 0, 1, 0], [1, 0, 0, 1]],
      ← S [[1, 1, 1 / 2, 1 / 3], [0, 1, 0, 0], [0, 0, 1 / 2, 0], [0, 0, 0, 1 / 3]])) := by decide +kernel
end lu

section cg
/-! `tests/cg.cpp` -/

def cgM : List (List ℚ) := [[4, 1], [1, 3]]
/-- "cg", `cg.cpp:17-35` -/
example : (do CG.cg (← D cgM) [1, 2] [2, 1] 1024 (1 / 10 ^ 8)) = .ok ([1 / 11, 7 / 11], 2) := by decide +kernel
/-- "pcg Identity", `cg.cpp:36-55` -/
example : (do CG.pcg (← D cgM) [1, 2] (← D [[1, 0], [0, 1]]) [2, 1] 1024 (1 / 10 ^ 8)) = .ok ([1 / 11, 7 / 11], 2) := by decide +kernel
/-- "pcg", `cg.cpp:56-78`: the preconditioner is not the inverse (`Operations::inverse(L,U)` is wrong, C34) and not symmetric, so two
iterations are not enough; the test itself compares after many more, in floating point. -/
example : (do
    let lu ← LU.ilu0 absq eps (← S cgM) (← Sparse.mk' 2 2) (← Sparse.mk' 2 2)
    let c ← Operations.inverseLU absq eps lu.1 lu.2
    CG.pcg (← S cgM) [1, 2] c [2, 1] 2 (1 / 10 ^ 8)) ≠ .ok ([1 / 11, 7 / 11], 2) := by decide +kernel
end cg

section iterative
/-! `tests/iterative.cpp`.  The tests compare with the exact solution after rounding; with exact arithmetic the returned vector is near it. -/

def itM : List (List ℚ) := [[4, 1, 2], [1, 3, 2], [1, 1, 2]]
/-- all components within `d` of `r` -/
def near (d : ℚ) (r : List ℚ) (v : List (Fl ℚ)) : Bool :=
  v.length == r.length && (v.zip r).all fun p => match p.1 with
    | .fin x => decide (absq (x - p.2) ≤ d)
    | _ => false
def nearR (d : ℚ) (r : List ℚ) (v : R (List (Fl ℚ) × Nat)) : Bool :=
  match v with
  | .ok x => near d r x.1
  | _ => false

/-- "jacobi", `iterative.cpp:15-26` -/
example : nearR (1 / 10 ^ 2) [1, 2, 3] (do Iterative.jacobi (← D itM) [.fin 12, .fin 13, .fin 9] [.fin 0, .fin 0, .fin 0] 1024 (1 / 10 ^ 3)) = true := by
  decide +kernel
/-- "gauss-seidel", `iterative.cpp:27-38` -/
example : nearR (1 / 10 ^ 2) [1, 2, 3] (do Iterative.sor (← D itM) [.fin 12, .fin 13, .fin 9] [.fin 0, .fin 0, .fin 0] 1 1024 (1 / 10 ^ 3)) = true := by
  decide +kernel
/-- "sor", `iterative.cpp:39-50` -/
example : nearR (1 / 10 ^ 2) [1, 2, 3] (do Iterative.sor (← D itM) [.fin 12, .fin 13, .fin 9] [.fin 0, .fin 0, .fin 0] (11 / 10) 1024 (1 / 10 ^ 3)) = true := by
  decide +kernel
end iterative

section matrix
/-! `tests/matrix.cpp` -/

/-- "default", `matrix.cpp:16-22` -/
example : (do return ((← Dense.mk' (T := ℚ) 4 4).isEmpty, ← (← Dense.mk' (T := ℚ) 4 4).linearAt 7)) = .ok (true, 0) := by decide +kernel
example : (do return ((← Sparse.mk' (T := ℚ) 4 4).isEmpty, ← (← Sparse.mk' (T := ℚ) 4 4).linearAt 7)) = .ok (true, 0) := by decide +kernel

/-- "set/at", `matrix.cpp:23-47` -/
def setAt {M : Type} [MatOps M ℚ] (isEmpty : M → Bool) : R (List ℚ × Bool) := do
  let t : M ← make 4 4
  let t ← put t 2 2 1
  let t ← put t 1 2 2
  let a ← get t 2 2
  let b ← get t 1 2
  let t ← put t 2 2 0
  let t ← put t 2 3 0
  let c ← get t 2 3
  let t ← put t 3 3 3
  let d ← get t 3 3
  let t ← put t 3 3 4
  let e ← get t 3 3
  return ([a, b, c, d, e], isEmpty t)
example : setAt (M := Dense ℚ) Dense.isEmpty = .ok ([1, 2, 0, 3, 4], false) := by decide +kernel
example : setAt (M := Sparse ℚ) Sparse.isEmpty = .ok ([1, 2, 0, 3, 4], false) := by decide +kernel

def v1 : List (List ℚ) := [[1, 0, 3], [4, 0, 6], [7, 0, 9]]
def v2 : List (List ℚ) := [[1, 2, 0], [4, 5, 0], [7, 8, 0]]
/-- "+", `matrix.cpp:48-56` -/
example : (do Dense.add (← D v1) (← D v2)) = D [[2, 2, 3], [8, 5, 6], [14, 8, 9]] := by decide +kernel
example : (do Sparse.add (← S v1) (← S v2)) = S [[2, 2, 3], [8, 5, 6], [14, 8, 9]] := by decide +kernel
/-- "-", `matrix.cpp:57-65` -/
example : (do Dense.sub (← D v1) (← D v2)) = D [[0, -2, 3], [0, -5, 6], [0, -8, 9]] := by decide +kernel
example : (do Sparse.sub (← S v1) (← S v2)) = S [[0, -2, 3], [0, -5, 6], [0, -8, 9]] := by decide +kernel
/-- "*", `matrix.cpp:66-82` -/
example : (do Dense.hadamard (← D v1) (← D v2)) = D [[1, 0, 0], [16, 0, 0], [49, 0, 0]] := by decide +kernel
example : (do Sparse.hadamard (← S v1) (← S v2)) = S [[1, 0, 0], [16, 0, 0], [49, 0, 0]] := by decide +kernel
example : (do Dense.scale (← D v1) 2) = D [[2, 0, 6], [8, 0, 12], [14, 0, 18]] := by decide +kernel
example : (do Sparse.scale (← S v1) 2) = S [[2, 0, 6], [8, 0, 12], [14, 0, 18]] := by decide +kernel
/-- "==", `matrix.cpp:83-93` -/
example : (do Dense.eq (← D v1) (← D v1)) = .ok true ∧ (do Dense.eq (← D v1) (← D v2)) = .ok false := by decide +kernel
example : (do Sparse.eq (← S v1) (← S v1)) = .ok true ∧ (do Sparse.eq (← S v1) (← S v2)) = .ok false := by decide +kernel
/-- "Initializer List", `matrix.cpp:94-100` -/
example : (do let t ← D [[1, 2, 3], [4, 5, 0], [7, 8, 9]]; return [← t.at' 1 1, ← t.at' 2 1, ← t.at' 1 2]) = .ok [5, 8, 0] := by decide +kernel
example : (do let t ← S [[1, 2, 3], [4, 5, 0], [7, 8, 9]]; return [← t.at' 1 1, ← t.at' 2 1, ← t.at' 1 2]) = .ok [5, 8, 0] := by decide +kernel
/-- the values of a walk -/
def vals (l : List (Nat × Nat × ℚ)) : R (List ℚ) := .ok (l.map fun e => e.2.2)
def m9 : List (List ℚ) := [[1, 2, 3], [4, 5, 6], [7, 8, 9]]
/-- "foreach", "row iterator", "column iterator", `matrix.cpp:101-133` -/
example : (do vals (← (← D m9).entries)) = .ok [1, 2, 3, 4, 5, 6, 7, 8, 9] := by decide +kernel
example : (do vals (← (← S m9).entriesNC)) = .ok [1, 2, 3, 4, 5, 6, 7, 8, 9] := by decide +kernel
example : (do vals (← (← D m9).rowEntries 1)) = .ok [4, 5, 6] := by decide +kernel
example : (do vals (← (← S m9).rowEntries 1)) = .ok [4, 5, 6] := by decide +kernel
example : (do vals (← (← D m9).colEntries 1)) = .ok [2, 5, 8] := by decide +kernel
example : (do vals (← (← S m9).colEntries 1)) = .ok [2, 5, 8] := by decide +kernel
/-- "Transpose", `matrix.cpp:134-140` -/
example : (do (← D [[1, 2], [4, 5], [7, 8]]).transpose) = D [[1, 4, 7], [2, 5, 8]] := by decide +kernel
example : (do (← S [[1, 2], [4, 5], [7, 8]]).transpose) = S [[1, 4, 7], [2, 5, 8]] := by decide +kernel
/-- "Mul", `matrix.cpp:141-148` -/
example : (do Dense.mul (← D [[3, 2, 1], [1, 0, 2]]) (← D [[1, 2], [0, 1], [4, 0]])) = D [[7, 8], [9, 2]] := by decide +kernel
example : (do Sparse.mul (← S [[3, 2, 1], [1, 0, 2]]) (← S [[1, 2], [0, 1], [4, 0]])) = S [[7, 8], [9, 2]] := by decide +kernel
/-- "Mul Vector", `matrix.cpp:149-162` -/
example : (do return (← Dense.mulVec (← D [[1, 2], [0, 5], [7, 0]]) [1, 2], ← Dense.mulLeft (← D [[1, 2], [0, 5], [7, 0]]) [1, 2, 3])) =
    .ok ([5, 10, 7], [22, 12]) := by decide +kernel
example : (do return (← Sparse.mulVec (← S [[1, 2], [0, 5], [7, 0]]) [1, 2], ← Sparse.mulLeft (← S [[1, 2], [0, 5], [7, 0]]) [1, 2, 3])) =
    .ok ([5, 10, 7], [22, 12]) := by decide +kernel

/-- "eye", `matrix.cpp:163-171` -/
example : (do return (← (← Construct.eye (M := Dense ℚ) 4 4).trace, ← (← Construct.eye (M := Dense ℚ) 4 4).at' 2 2)) = .ok (4, 1) := by decide +kernel
example : (do return (← (← Construct.eye (M := Sparse ℚ) 4 4).trace, ← (← Construct.eye (M := Sparse ℚ) 4 4).at' 2 2)) = .ok (4, 1) := by decide +kernel
/-- "diag", `matrix.cpp:172-180` -/
example : Construct.diagOf [1, 2, 3] = D [[1, 0, 0], [0, 2, 0], [0, 0, 3]] := by decide +kernel
example : Construct.diagOf [1, 2, 3] = S [[1, 0, 0], [0, 2, 0], [0, 0, 3]] := by decide +kernel
example : (do Construct.diagVec (← D [[1, 0, 0], [0, 2, 0], [0, 0, 3]])) = .ok [1, 2, 3] := by decide +kernel
example : (do Construct.diagVec (← S [[1, 0, 0], [0, 2, 0], [0, 0, 3]])) = .ok [1, 2, 3] := by decide +kernel
/-- "triu/tril", `matrix.cpp:181-216` -/
example : (do Construct.triu (← D m9) 0) = D [[1, 2, 3], [0, 5, 6], [0, 0, 9]] := by decide +kernel
example : (do Construct.tril (← D m9) 0) = D [[1, 0, 0], [4, 5, 0], [7, 8, 9]] := by decide +kernel
example : (do Construct.triu (← S m9) 0) = S [[1, 2, 3], [0, 5, 6], [0, 0, 9]] := by decide +kernel
example : (do Construct.tril (← S m9) 0) = S [[1, 0, 0], [4, 5, 0], [7, 8, 9]] := by decide +kernel
example : (do Construct.triu (← D m9) (-1)) = D [[1, 2, 3], [4, 5, 6], [0, 8, 9]] := by decide +kernel
example : (do Construct.tril (← D m9) (-1)) = D [[0, 0, 0], [4, 0, 0], [7, 8, 0]] := by decide +kernel
example : (do Construct.triu (← S m9) (-1)) = S [[1, 2, 3], [4, 5, 6], [0, 8, 9]] := by decide +kernel
example : (do Construct.tril (← S m9) (-1)) = S [[0, 0, 0], [4, 0, 0], [7, 8, 0]] := by decide +kernel
example : (do Construct.triu (← D m9) 1) = D [[0, 2, 3], [0, 0, 6], [0, 0, 0]] := by decide +kernel
example : (do Construct.tril (← D m9) 1) = D [[1, 2, 0], [4, 5, 6], [7, 8, 9]] := by decide +kernel
example : (do Construct.triu (← S m9) 1) = S [[0, 2, 3], [0, 0, 6], [0, 0, 0]] := by decide +kernel
example : (do Construct.tril (← S m9) 1) = S [[1, 2, 0], [4, 5, 6], [7, 8, 9]] := by decide +kernel
/-- "hilbert", `matrix.cpp:217-232` -/
example : Construct.hilbert 3 = D [[1, 1 / 2, 1 / 3], [1 / 2, 1 / 3, 1 / 4], [1 / 3, 1 / 4, 1 / 5]] := by decide +kernel
example : Construct.hilbert 3 = S [[1, 1 / 2, 1 / 3], [1 / 2, 1 / 3, 1 / 4], [1 / 3, 1 / 4, 1 / 5]] := by decide +kernel
example : Construct.invHilbert 64 3 = D [[9, -36, 30], [-36, 192, -180], [30, -180, 180]] := by decide +kernel
example : Construct.invHilbert 64 3 = S [[9, -36, 30], [-36, 192, -180], [30, -180, 180]] := by decide +kernel
example : (do Dense.mul (T := ℚ) (← Construct.hilbert 3) (← Construct.invHilbert 64 3)) = Construct.eye 3 3 := by decide +kernel
example : (do Sparse.mul (T := ℚ) (← Construct.hilbert 3) (← Construct.invHilbert 64 3)) = Construct.eye 3 3 := by decide +kernel

/-- both classes give the same answer -/
def both (f : Dense ℚ → R Bool) (g : Sparse ℚ → R Bool) (l : List (List ℚ)) (b : Bool) : Prop :=
  (do f (← D l)) = .ok b ∧ (do g (← S l)) = .ok b
instance (f : Dense ℚ → R Bool) (g : Sparse ℚ → R Bool) (l : List (List ℚ)) (b : Bool) : Decidable (both f g l b) := by
  unfold both; infer_instance
/-- "orthogonal", "unitary", "projection", "symmetric", "hermitian", "skew-symmetric", "skew-hermitian", `matrix.cpp:233-294` -/
example : both Check.isOrthogonal Check.isOrthogonal [[0, 1], [1, 0]] true := by decide +kernel
example : both Check.isOrthogonal Check.isOrthogonal [[1, 1], [1, 0]] false := by decide +kernel
example : both (Check.isUnitary id) (Check.isUnitary id) [[0, 1], [1, 0]] true := by decide +kernel
example : both (Check.isUnitary id) (Check.isUnitary id) [[1, 1], [1, 0]] false := by decide +kernel
example : both Check.isProjection Check.isProjection [[1, 0], [0, 0]] true := by decide +kernel
example : both Check.isProjection Check.isProjection [[1, 1], [1, 0]] false := by decide +kernel
example : both Check.isSymmetric Check.isSymmetric [[0, 0, 1], [0, 1, 0], [1, 0, 0]] true := by decide +kernel
example : both Check.isSymmetric Check.isSymmetric [[1, 1], [0, 1]] false := by decide +kernel
example : both (Check.isHermitian id) (Check.isHermitian id) [[0, 0, 1], [0, 1, 0], [1, 0, 0]] true := by decide +kernel
example : both (Check.isHermitian id) (Check.isHermitian id) [[1, 1], [0, 1]] false := by decide +kernel
example : both Check.isSkewSymmetric Check.isSkewSymmetric [[0, 0, 1], [0, 0, 0], [-1, 0, 0]] true := by decide +kernel
example : both Check.isSkewSymmetric Check.isSkewSymmetric [[1, 1], [0, 1]] false := by decide +kernel
example : both (Check.isSkewHermitian id) (Check.isSkewHermitian id) [[0, 0, 1], [0, 0, 0], [-1, 0, 0]] true := by decide +kernel
example : both (Check.isSkewHermitian id) (Check.isSkewHermitian id) [[1, 1], [0, 1]] false := by decide +kernel

/-- "inverse", `matrix.cpp:295-300`, sparse -/
example : (do Operations.inverse absq eps (fun m _ _ => LU.doolittleSparse absq eps m) (← S luA)) =
    S [[3, 1, -1], [-2, -2, 3 / 2], [0, 1, -1 / 2]] := by decide +kernel
/-- "determinant", `matrix.cpp:301-305` -/
example : (do Operations.determinant (LU.doolittleBase absq eps) (← D luA)) = .ok (-2) := by decide +kernel
example : (do Operations.determinant (fun m _ _ => LU.doolittleSparse absq eps m) (← S luA)) = .ok (-2) := by decide +kernel

def cmA : List (List ℚ) := [[1, 0, 0, 0, 1, 0, 0, 0], [0, 1, 1, 0, 0, 1, 0, 1], [0, 1, 1, 0, 1, 0, 0, 0], [0, 0, 0, 1, 0, 0, 1, 0],
  [1, 0, 1, 0, 1, 0, 0, 0], [0, 1, 0, 0, 0, 1, 0, 1], [0, 0, 0, 1, 0, 0, 1, 0], [0, 1, 0, 0, 0, 1, 0, 1]]
def cmB : List (List ℚ) := [[1, 1, 0, 0, 0, 0, 0, 0], [1, 1, 0, 0, 0, 0, 0, 0], [0, 0, 1, 1, 1, 0, 0, 0], [0, 0, 1, 1, 1, 0, 0, 0],
  [0, 0, 1, 1, 1, 1, 0, 0], [0, 0, 0, 0, 1, 1, 1, 0], [0, 0, 0, 0, 0, 1, 1, 1], [0, 0, 0, 0, 0, 0, 1, 1]]
/-- "CutHill-McKee", `matrix.cpp:310-349` -/
example : (do Order.rCuthillMckee (← S cmA)) = .ok [6, 3, 7, 5, 1, 2, 4, 0] := by decide +kernel
example : (do Order.permutateMat (← S cmA) [6, 3, 7, 5, 1, 2, 4, 0]) = S cmB := by decide +kernel
example : Order.inversePermutation [6, 3, 7, 5, 1, 2, 4, 0] = .ok [7, 4, 5, 1, 6, 3, 0, 2] := by decide +kernel
example : (do Order.permutateMat (← S cmB) [7, 4, 5, 1, 6, 3, 0, 2]) = S cmA := by decide +kernel
end matrix
end NS.Conformance

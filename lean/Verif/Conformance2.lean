/-
The unit tests of the project (`/repo/tests/utils.cpp`, `normal.cpp`, `simplex.cpp`, `vector.cpp`, `quadrature.cpp`, `polysf.cpp`,
`mesh.cpp`), run in the model.  These are tests of the model, not proofs; see `Conformance.lean`.
-/
import Verif.ConstructModel
import Verif.VecMoreModel
import Verif.SimplexModel
import Verif.ShapeModel
import Verif.QuadratureModel
import Verif.HyperCubeModel
import Mathlib.Algebra.Order.Ring.Rat
import Mathlib.Algebra.Field.Rat

namespace NS.Conformance2
open NS

/-- `numeric_limits<double>::epsilon()` -/
def eps : ℚ := 1 / 2 ^ 52
/-- a square root that is right for the squares that occur below -/
def sqrtq (x : ℚ) : ℚ := if x = 4 then 2 else if x = 9 then 3 else x

section utils
/-- "sign_pow", `utils.cpp:7-14` -/
example : [0, 1, 2, -1, -2].map MathU.signPow = [1, -1, 1, -1, 1] := by decide +kernel
/-- "binom", `utils.cpp:15-22` -/
example : [(0, 0), (2, 1), (4, 2), (7, 7)].map (fun p => MathU.binom 32 p.1 p.2) = [.ok 1, .ok 2, .ok 6, .ok 1] := by decide +kernel
example : MathU.binomReal (5 / 2 : ℚ) 2 = .ok (15 / 8) := by decide +kernel
end utils

section normal
/-- "2D", "3D", "4D", `normal.cpp:9-33` -/
example : Normal.normal eps sqrtq 2 [[1, 0]] = .ok [0, -1] := by decide +kernel
example : Normal.normal eps sqrtq 3 [[1, 0, 0], [0, 1, 0]] = .ok [0, 0, 1] := by decide +kernel
example : Normal.normal eps sqrtq 4 [[1, 0, 0, 0], [0, 1, 0, 0], [0, 0, 1, 0]] = .ok [0, 0, 0, -1] := by decide +kernel
end normal

section simplex
def tri (l : List (List ℚ)) : R (Simplex ℚ) := do (← Simplex.ofLists l).prepare eps
def t1 : R (Simplex ℚ) := tri [[7, 1], [1, 0], [0, 0]]
def std : R (Simplex ℚ) := tri [[0, 0], [1, 0], [0, 1]]
def stdNeg : R (Simplex ℚ) := tri [[0, 0], [-1, 0], [0, -1]]
/-- "volume", `simplex.cpp:11-22` -/
example : (do return (← (← t1).determinant, ← (← t1).volume)) = .ok (-1, 1 / 2) := by decide +kernel
example : (do let m ← tri [[12, 6], [-1, 10], [0, 6]]; return (← m.determinant, ← m.volume)) = .ok (48, 24) := by decide +kernel
/-- "global", "local", `simplex.cpp:23-36` -/
example : (do (← t1).toGlobal [1 / 4, 1 / 2]) = .ok [2, 1 / 4] := by decide +kernel
example : (do (← t1).toLocal [2, 1 / 4]) = .ok [1 / 4, 1 / 2] := by decide +kernel
/-- "radius", `simplex.cpp:37-47`: the centre is as expected; the test then expects the distance 1 from (1/2,1/2) to (0,0), which is
wrong (the square of the distance is 1/2), so this test of the project fails -/
example : (do (← std).center) = .ok [1 / 2, 1 / 2] := by decide +kernel
example : (do Vec.magSqr (← Vec.subAssign [0, 0] (← (← std).center))) = .ok (1 / 2) := by decide +kernel
/-- "diameter", `simplex.cpp:48-54`: the square root of 2 (here `sqrtq` leaves 2 as it is) -/
example : (do (← std).diameter sqrtq) = .ok 2 := by decide +kernel
/-- "faceCenter", `simplex.cpp:55-67` -/
example : (do return [← (← std).faceCenter 1, ← (← std).faceCenter 2, ← (← std).faceCenter 0]) =
    .ok [[0, 1 / 2], [1 / 2, 0], [1 / 2, 1 / 2]] := by decide +kernel
/-- "faceNormal", `simplex.cpp:68-95` (the third, diagonal, face: with a "square root" that sends 2 to 2 the direction is (1,1)/2) -/
example : (do return [← (← std).faceNormal eps sqrtq 1, ← (← std).faceNormal eps sqrtq 2, ← (← std).faceNormal eps sqrtq 0]) =
    .ok [[-1, 0], [0, -1], [1 / 2, 1 / 2]] := by decide +kernel
example : (do return [← (← stdNeg).faceNormal eps sqrtq 1, ← (← stdNeg).faceNormal eps sqrtq 2, ← (← stdNeg).faceNormal eps sqrtq 0]) =
    .ok [[1, 0], [0, 1], [-1 / 2, -1 / 2]] := by decide +kernel
end simplex

section vector
def e8 (x : ℚ) : List ℚ := List.replicate 8 x
/-- "default", "fill", `vector.cpp:9-22` -/
example : (Vec.mk' 8 : R (List ℚ)) = .ok (e8 0) := by decide +kernel
example : (do Vec.fill (← (Vec.mk' 8 : R (List ℚ))) 8) = .ok (e8 8) := by decide +kernel
/-- "+", "-", "*", "/", `vector.cpp:23-98` -/
example : Vec.addAssign (e8 8) (e8 8) = .ok (e8 16) ∧ Vec.addScalar (e8 8) 2 = .ok (e8 10) := by decide +kernel
example : Vec.subAssign (e8 8) (e8 8) = .ok (e8 0) ∧ Vec.subScalar (e8 8) 2 = .ok (e8 6) ∧ Vec.rsubScalar 2 (e8 8) = .ok (e8 (-6)) := by decide +kernel
example : Vec.mulAssign (e8 8) (e8 8) = .ok (e8 64) ∧ Vec.mulScalar (e8 8) 2 = .ok (e8 16) := by decide +kernel
example : Vec.divAssign (e8 8) (e8 2) = .ok (e8 4) ∧ Vec.divScalar (e8 8) 2 = .ok (e8 4) ∧ Vec.rdivScalar 4 (e8 8) = .ok (e8 (1 / 2)) := by decide +kernel
/-- "==", `vector.cpp:99-112` -/
example : Vec.eq (e8 8) (e8 8) = .ok true ∧ Vec.eq (e8 8) (e8 6) = .ok false := by decide +kernel
/-- "dot", "sum", "magSqr", "swap", `vector.cpp:113-156` -/
example : Vec.dot (e8 8) (e8 2) = .ok (16 * 8) ∧ Vec.sum (e8 8) = .ok 64 ∧ Vec.magSqr (e8 8) = .ok (64 * 8) := by decide +kernel
example : Vec.swap (e8 8) (e8 4) = (e8 4, e8 8) := by decide +kernel
def v6 : List ℚ := [1, 2, 3, 4, 5, 6]
/-- "Initializer List", "Sum", "Max", "Min", "Avg", `vector.cpp:161-185`; `0` and `7` stand for the least positive and the largest number -/
example : (do vecAt (← Vec.ofList v6) 2) = .ok 3 ∧ Vec.sum v6 = .ok 21 ∧ Vec.maxE 0 v6 = 6 ∧ Vec.minE 7 v6 = 1 ∧ Vec.avg v6 = .ok (7 / 2) := by
  decide +kernel
/-- "foreach", `vector.cpp:207-217` -/
example : Vec.walk v6 7 0 = .ok v6 := by decide +kernel
/-- "NaN", "Inf", "Zero", `vector.cpp:218-232` -/
example : Vec.hasNaN [.fin (1 : ℚ), .nan, .fin 3] = .ok true ∧ Vec.hasInf [.fin (1 : ℚ), .pinf, .fin 3] = .ok true ∧
    Vec.hasZero [(1 : ℚ), 0, 3] = .ok true := by decide +kernel
end vector

section quadrature
/-- within `10^-14` of `r` -/
def near (r : ℚ) (v : R ℚ) : Bool := match v with
  | .ok x => decide (|x - r| ≤ 1 / 10 ^ 14)
  | _ => false
/-- `k`-th power of the first coordinate; `quadrature.cpp:11-50` -/
def pw (k : Nat) (x : List ℚ) : ℚ := (x.headD 0) ^ k
example : near 1 (Quadrature.eval 1 1 (pw 0) 0) = true ∧ near (1 / 2) (Quadrature.eval 1 1 (pw 1) 0) = true := by decide +kernel
example : near 1 (Quadrature.eval 1 2 (pw 0) 0) = true ∧ near (1 / 2) (Quadrature.eval 1 2 (pw 1) 0) = true ∧
    near (1 / 3) (Quadrature.eval 1 2 (pw 2) 0) = true := by decide +kernel
example : near 1 (Quadrature.eval 1 3 (pw 0) 0) = true ∧ near (1 / 2) (Quadrature.eval 1 3 (pw 1) 0) = true ∧
    near (1 / 3) (Quadrature.eval 1 3 (pw 2) 0) = true ∧ near (1 / 4) (Quadrature.eval 1 3 (pw 3) 0) = true := by decide +kernel
/-- the sum of the `k`-th powers; `quadrature.cpp:52-96` -/
def spw (k : Nat) (x : List ℚ) : ℚ := (x.map (· ^ k)).sum
def one (_ : List ℚ) : ℚ := 1
example : near (1 / 2) (Quadrature.eval 2 1 one 0) = true ∧ near (1 / 3) (Quadrature.eval 2 1 (spw 1) 0) = true := by decide +kernel
example : near (1 / 2) (Quadrature.eval 2 2 one 0) = true ∧ near (1 / 3) (Quadrature.eval 2 2 (spw 1) 0) = true ∧
    near (1 / 6) (Quadrature.eval 2 2 (spw 2) 0) = true := by decide +kernel
example : near (1 / 2) (Quadrature.eval 2 3 one 0) = true ∧ near (1 / 3) (Quadrature.eval 2 3 (spw 1) 0) = true ∧
    near (1 / 6) (Quadrature.eval 2 3 (spw 2) 0) = true ∧ near (1 / 10) (Quadrature.eval 2 3 (spw 3) 0) = true := by decide +kernel
end quadrature

section mesh
/-- a mesh with the given vertices and elements, prepared for shape functions of order `o` as in `polysf.cpp:17-40` -/
def build (vs : List (List ℚ)) (es : List (List Nat)) (o : Nat) : R (World ℚ) := do
  let w ← forList vs (World.empty : World ℚ) fun v w => do
    let r := w.newVertex v
    r.1.addVertex (some r.2)
  let w ← forList es w fun e w => do
    let r := w.newElement (e.map fun i => w.vertices[i]?)
    r.1.addElement (some r.2)
  let w ← w.setupNeighbors
  let w ← w.setupBoundaries
  let w ← w.prepare eps
  let w ← Shape.prepareMesh o w
  w.validate eps
  return w
/-- the positions of the degrees of freedom of element `e` -/
def dofs (w : World ℚ) (e : Nat) : List (Option (List ℚ)) :=
  match w.E[e]? with
  | some x => x.dofs.map fun p => (w.V[p]?).map (·.pos)
  | none => []
/-- "Order1", "Order2", `polysf.cpp:11-117`: positions of the degrees of freedom -/
example : (do let w ← build [[0, 0], [1, 1], [0, 1]] [[0, 1, 2]] 1; return (w.vertices.length, w.elements.length, dofs w 0)) =
    .ok (3, 1, [some [0, 0], some [1, 1], some [0, 1]]) := by decide +kernel
example : (do let w ← build [[0, 0], [1, 1], [0, 1]] [[0, 1, 2]] 2; return (w.vertices.length, w.elements.length, dofs w 0)) =
    .ok (6, 1, [some [0, 0], some [1, 1], some [0, 1], some [1 / 2, 1 / 2], some [1 / 2, 1], some [0, 1 / 2]]) := by decide +kernel
/-- and the values of the shape functions there, `polysf.cpp:98-111` -/
def atNode (o i : Nat) (x : List ℚ) : R ℚ := do
  let t ← tri [[0, 0], [1, 1], [0, 1]]
  Shape.value 2 o i (← t.toLocal x)
def x2 : List (List ℚ) := [[0, 0], [1, 1], [0, 1], [1 / 2, 1 / 2], [1 / 2, 1], [0, 1 / 2]]
example : (List.range 3).map (fun i => atNode 1 i (x2.getD i [])) = List.replicate 3 (.ok 1) ∧
    (List.range 3).map (fun i => atNode 1 i (x2.getD ((i + 1) % 3) [])) = List.replicate 3 (.ok 0) := by decide +kernel
example : (List.range 6).map (fun i => atNode 2 i (x2.getD i [])) = List.replicate 6 (.ok 1) ∧
    (List.range 6).map (fun i => atNode 2 i (x2.getD ((i + 1) % 6) [])) = List.replicate 6 (.ok 0) := by decide +kernel
/-- "GridOrder2", `polysf.cpp:118-188` -/
example : (do
    let w ← build [[0, 0], [1, 0], [1, 1], [0, 1]] [[0, 1, 3], [1, 2, 3]] 2
    return (w.vertices.length, [dofs w 0, dofs w 1])) =
    .ok (9, [[some [0, 0], some [1, 0], some [0, 1], some [1 / 2, 0], some [1 / 2, 1 / 2], some [0, 1 / 2]],
      [some [1, 0], some [1, 1], some [0, 1], some [1, 1 / 2], some [1 / 2, 1], some [1 / 2, 1 / 2]]]) := by decide +kernel

/-- the number of vertices marked as strong boundary -/
def marked (w : World ℚ) : Nat := (w.V.filter fun v => v.flags &&& 1 != 0).length
/-- `for(auto& v : mesh.vertices()) v->Flags = 0`, `mesh.cpp:48-49` -/
def clearFlags (w : World ℚ) : World ℚ := { w with V := w.V.map fun v => { v with flags := 0 } }
/-- "generator", `mesh.cpp:12-32`, with `S = 3` -/
example : (do
    let w ← HyperCube.generate 3 3 ((1 : ℚ), 1) (0, 0)
    let w ← w.prepare eps
    w.validate eps
    return (w.vertices.length, w.elements.length)) = .ok (16, 18) := by decide +kernel
/-- "boundary", `mesh.cpp:33-80`, with `S = 3` -/
example : (do
    let w ← HyperCube.generate 3 3 ((1 : ℚ), 1) (0, 0)
    let w2 ← (clearFlags w).setupBoundaries
    return (marked w, marked w2)) = .ok (12, 12) := by decide +kernel
end mesh
end NS.Conformance2

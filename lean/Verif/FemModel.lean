/-
Model of the finite element example `/repo/examples/poisson/fem.cpp`, function `handleMesh<Order>`: assembling of the matrix and
the right-hand side, and the boundary constraints.  The solvers it calls are in `CGModel.lean` and `IterativeModel.lean`,
`prepareMesh` is in `ShapeModel.lean`; the error report and the output files are in `FemPostModel.lean`.

The source and boundary functions (`fem.cpp:67-73`) are parameters, and so is `EPS` (`fem.cpp:61`).
-/
import Verif.Mat
import Verif.ShapeModel
import Verif.QuadratureModel
import Verif.CGModel
import Verif.IterativeModel

namespace NS
namespace Fem
variable {T : Type} [Field T] [LinearOrder T]

/-- `quadrature.eval(func)`, `Quadrature.inl:10-24`, for a lambda that can fail -/
def evalR (K order : Nat) (f : List T → R T) : R T := do
  let ps : List (List T) := Quadrature.points K order
  let ws : List T ← Quadrature.weights K order
  assert (ps.length = ws.length)
  forRange 0 ps.length 0 fun i v => do
    let w ← getIdx ws i
    let p ← getIdx ps i
    let x ← f p
    return v + w * x

/-- the integrand of the matrix, `fem.cpp:127-131` -/
def stiffAt (order : Nat) (inv : Dense T) (i j : Nat) (p : List T) : R T := do
  let gi ← Shape.gradient 2 order i p
  let a ← inv.mulVec gi
  let gj ← Shape.gradient 2 order j p
  let b ← inv.mulVec gj
  Vec.dot a b

/-- the integrand of the right-hand side, `fem.cpp:138-144` -/
def loadAt (order : Nat) (s : Simplex T) (src : List T → T) (i : Nat) (p : List T) : R T := do
  let v ← Shape.value 2 order i p
  let x ← s.toGlobal p
  return v * src x

/-- `elemMat` and `elemVec` of one element, `fem.cpp:111-151` -/
def local' (eps : T) (order : Nat) (src : List T → T) (s : Simplex T) : R (Dense T × List T) := do
  let d ← s.determinant
  let det := |d|
  let m ← Dense.mk' (Shape.dof 2 order) (Shape.dof 2 order)
  let b ← Vec.mk' (Shape.dof 2 order)
  let inv ← s.inverseMatrix
  forRange 0 (Shape.dof 2 order) (m, b) fun i st => do
    let m ← forRange 0 (Shape.dof 2 order) st.1 fun j m => do
      let q ← evalR 2 (order + 1) (stiffAt order inv i j)
      let val := det * q
      if eps < |val| then m.set i j val else return m
    let q ← evalR 2 (order + 1) (loadAt order s src i)
    let f := det * q
    if eps < |f| then do
      let b ← vecSet st.2 i f
      return (m, b)
    else return (m, st.2)

variable {M : Type} [MatOps M T]

/-- `element->DOFVertices[i]->GlobalIndex`, `fem.cpp:159, 163` -/
def globalIndex (w : World T) (e : MElem T) (i : Nat) : R Nat := do
  let p ← getIdx e.dofs i
  let v ← getIdx w.V p
  return v.gi

/-- adding one element to the system, `fem.cpp:157-168` -/
def scatter (order : Nat) (w : World T) (e : MElem T) (k : Dense T × List T) (st : M × List T) : R (M × List T) :=
  forRange 0 (Shape.dof 2 order) st fun i st => do
    let gi ← globalIndex w e i
    let a ← forRange 0 (Shape.dof 2 order) st.1 fun j a => do
      let gj ← globalIndex w e j
      let x ← MatOps.get a gi gj
      let y ← k.1.at' i j
      MatOps.put a gi gj (x + y)
    let x ← vecAt st.2 gi
    let y ← vecAt k.2 i
    let b ← vecSet st.2 gi (x + y)
    return (a, b)

/-- the assembling loop, `fem.cpp:93-94, 109-169` -/
def assemble (eps : T) (order : Nat) (src : List T → T) (w : World T) : R (M × List T) := do
  let a ← MatOps.make w.vertices.length w.vertices.length
  let b ← Vec.mk' w.vertices.length
  forList w.elements (a, b) fun ep st => do
    let e ← getIdx w.E ep
    let k ← local' eps order src e.simplex
    scatter order w e k st

/-- `avgMid` (`AVG_MID_STRONG_BOUNDARY` is defined), `fem.cpp:44, 172-176` -/
def avgMid (w : World T) (a : M) : R T := do
  let s ← forList w.vertices 0 fun p s => do
    let v ← getIdx w.V p
    let x ← MatOps.get a v.gi v.gi
    return s + |x|
  fdiv s w.vertices.length

/-- the constraint of one boundary vertex with global index `k` and value `g`, `fem.cpp:189-198` -/
def constrainOne (avg : T) (n k : Nat) (g : T) (st : M × List T) : R (M × List T) := do
  let st ← forRange 0 n st fun i st => do
    let b ← vecAt st.2 i
    let x ← MatOps.get st.1 i k
    let b ← vecSet st.2 i (b - x * g)
    let a ← MatOps.put st.1 k i 0
    let a ← MatOps.put a i k 0
    return (a, b)
  let a ← MatOps.put st.1 k k avg
  let b ← vecSet st.2 k (avg * g)
  return (a, b)

/-- the loop over the boundary vertices, `fem.cpp:182-199` -/
def constrain (avg : T) (g : List T → T) (w : World T) (st : M × List T) : R (M × List T) :=
  forList w.vertices st fun p st => do
    let v ← getIdx w.V p
    if v.flags &&& 1 = 0 then return st
    else constrainOne avg w.vertices.length v.gi (g v.pos) st

/-- matrix and right-hand side before solving, `fem.cpp:93-199` -/
def system (eps : T) (order : Nat) (src g : List T → T) (w : World T) : R (M × List T) := do
  let st ← assemble eps order src w
  let avg ← avgMid w st.1
  constrain avg g w st

/-- solver 2 (the default) with the Jacobi preconditioner, `fem.cpp:212-246`; `ShiftFactor` is 0, the output of `cond(A)` is not
modelled, `jeps` is the threshold of `jacobi`, `maxIter` is 1024 and `tol` is 1e-4 -/
def solve (eps jeps : T) (order : Nat) (src g : List T → T) (maxIter : Nat) (tol : T) (w : World T) : R (List T × Nat) := do
  let st : M × List T ← system eps order src g w
  let c : M ← MatOps.make (MatOps.rows st.1) (MatOps.cols st.1)
  let c ← CG.jacobi (fun x => |x|) jeps st.1 c
  let x ← Vec.mk' w.vertices.length
  CG.pcg st.1 st.2 c x maxIter tol

/-- solver 0, `fem.cpp:212-237`; `weight` is `RELAX_PAR` = 1.2, `maxIter` is 1024 and `tol` is 1e-4; the values of the vectors are
embedded in the type with infinities and NaN on which `sor` works -/
def solveSor (eps : T) (order : Nat) (src g : List T → T) (weight : T) (maxIter : Nat) (tol : T) (w : World T) :
    R (List (Fl T) × Nat) := do
  let st : M × List T ← system eps order src g w
  let x : List T ← Vec.mk' w.vertices.length
  Iterative.sor st.1 (st.2.map Fl.fin) (x.map Fl.fin) weight maxIter tol

end Fem
end NS

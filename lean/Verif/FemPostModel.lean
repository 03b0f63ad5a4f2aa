/-
Model of the second half of `handleMesh<Order>` in `/repo/examples/poisson/fem.cpp:255-341`: the exact error, the a posteriori error
and the rows of the files `poisson_fem_data.dat` and `poisson_fem_mesh.dat` (one row per line; the format of numbers is not modelled).

`sqrt` is `std::sqrt`; `lo` is the value `max()` starts with (`CountableSet.inl`).
-/
import Verif.FemModel

namespace NS
namespace Fem
variable {T : Type} [Field T] [LinearOrder T]

/-- `ExactError`, `fem.cpp:257-270`; `sol` is the analytical solution -/
def exactError (sol : List T → T) (x : List T) (w : World T) : R (List T) := do
  let e ← Vec.mk' w.vertices.length
  forList w.vertices e fun p e => do
    let v ← getIdx w.V p
    let uh ← vecAt x v.gi
    vecSet e v.gi |sol v.pos - uh|

/-- `l[i]->` for an array of vertex pointers, `fem.cpp:299-303` -/
def vertexOf (w : World T) (l : List (Option Nat)) (i : Nat) : R (MVertex T) := do
  let p ← getIdx l i
  let a ← deref p
  getIdx w.V a

/-- one component of the directional finite difference `u1`, `fem.cpp:299-302` -/
def diffQuot (sqrt : T → T) (x : List T) (p v : MVertex T) : R T := do
  let a ← vecAt x p.gi
  let b ← vecAt x v.gi
  let d ← Vec.subAssign p.pos v.pos
  let m ← Vec.mag sqrt d
  fdiv (a - b) m

/-- `faceError`, `fem.cpp:294-307` -/
def faceError (sqrt : T → T) (x : List T) (w : World T) (e : MElem T) : R T :=
  forRange 0 3 0 fun i s => do
    let np ← getIdx e.nbrs i
    let n ← deref np
    let f ← getIdx w.F n
    let v ← vertexOf w e.verts i
    let p ← vertexOf w f.verts 0
    let q ← vertexOf w f.verts 1
    let u0 ← diffQuot sqrt x p v
    let u1 ← diffQuot sqrt x q v
    let d ← Vec.subAssign p.pos q.pos
    let m ← Vec.mag sqrt d
    let g ← Vec.magSqr [u0, u1]
    return s + m * g

/-- `nodeValues`, `fem.cpp:283-285` -/
def nodeValues (order : Nat) (x : List T) (w : World T) (e : MElem T) : R (List T) := do
  let z ← Vec.mk' (Shape.dof 2 order)
  forRange 0 (Shape.dof 2 order) z fun i nv => do
    let g ← globalIndex w e i
    let y ← vecAt x g
    vecSet nv i y

/-- `quadrature.eval_index(func)`, `Quadrature.inl:26-40`, for a lambda that can fail -/
def evalIndexR (K order : Nat) (f : Nat → List T → R T) : R T := do
  let ps : List (List T) := Quadrature.points K order
  let ws : List T ← Quadrature.weights K order
  assert (ps.length = ws.length)
  forRange 0 ps.length 0 fun i v => do
    let w ← getIdx ws i
    let p ← getIdx ps i
    let x ← f i p
    return v + w * x

/-- `cellError`, `fem.cpp:276-277, 280-292`: the index of the quadrature point is the index of the shape function -/
def cellError (order : Nat) (src : List T → T) (x : List T) (w : World T) (e : MElem T) : R T := do
  let inv ← e.simplex.inverseMatrix
  let d ← e.simplex.determinant
  if order = 2 then do
    let nv ← nodeValues order x w e
    let q ← evalIndexR 2 (order + 1) fun i p => do
      let g ← Shape.gradient2At 2 order i p nv
      let m ← inv.mulVec g
      let y ← e.simplex.toGlobal p
      let t ← Vec.sum m
      return t + src y
    return |d| * q
  else return 0

/-- `nk` of one element, `fem.cpp:276-308` -/
def postOne (sqrt : T → T) (order : Nat) (src : List T → T) (x : List T) (w : World T) (e : MElem T) : R T := do
  let h ← e.simplex.diameter sqrt
  let c ← cellError order src x w e
  let f ← faceError sqrt x w e
  return h * h * c + 1 / 2 * f

/-- `PostError`, `fem.cpp:272-312`; `factor` is `PostErrorFactor` -/
def postError (sqrt : T → T) (factor : T) (order : Nat) (src : List T → T) (x : List T) (w : World T) : R (List T) := do
  let r ← Vec.mk' w.elements.length
  let st ← forList w.elements (r, 0) fun a st => do
    let e ← getIdx w.E a
    let nk ← postOne sqrt order src x w e
    let r ← vecSet st.1 st.2 (factor * nk)
    return (r, st.2 + 1)
  return st.1

/-- the reported exact error, `fem.cpp:314-315` -/
def reportExact (lo : T) (sol : List T → T) (x : List T) (w : World T) : R T := do
  let e ← exactError sol x w
  return Vec.maxE lo e

/-- the rows of `poisson_fem_data.dat`, `fem.cpp:321-330` -/
def dataRows (x : List T) (w : World T) : R (List (T × T × T)) :=
  forList w.vertices [] fun p l => do
    let v ← getIdx w.V p
    let a ← vecAt v.pos 0
    let b ← vecAt v.pos 1
    let u ← vecAt x v.gi
    return l ++ [(a, b, u)]

/-- the rows of `poisson_fem_mesh.dat`, `fem.cpp:332-341` -/
def meshRows (w : World T) : R (List (Nat × Nat × Nat)) :=
  forList w.elements [] fun a l => do
    let e ← getIdx w.E a
    let v0 ← vertexOf w e.verts 0
    let v1 ← vertexOf w e.verts 1
    let v2 ← vertexOf w e.verts 2
    return l ++ [(v0.gi + 1, v1.gi + 1, v2.gi + 1)]
end Fem
end NS

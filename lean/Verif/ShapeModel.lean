/-
Model of `/repo/src/lib/sf/PolyShapeFunction.{h,inl}`: the Lagrange shape functions `PolyShapePolicy<T,K,Order>`.

The arithmetic expressions of the source are sums of products
`nodeValues[a]*...*factor*PSF_Coeff[localComponent][i]*v[b]*v[c]*...`; each is written here as a list of `Term`s in source
order and evaluated by `evalSum`.  The tables are `float` literals, all of them exactly representable.
-/
import Verif.MeshModel

namespace NS
namespace Shape
variable {T : Type} [Field T]

/-- `DOF = (K+1)*Order`, `PolyShapeFunction.h:17` -/
def dof (K order : Nat) : Nat := (K + 1) * order

/-- the combinations accepted by the `static_assert`s, `PolyShapeFunction.inl:173-179, 273-279, 353-359` -/
def supported (K order : Nat) : Prop :=
  (K = 1 ∧ order = 1) ∨ (K = 1 ∧ order = 2) ∨ (K = 2 ∧ order = 1) ∨ (K = 2 ∧ order = 2) ∨ (K = 2 ∧ order = 3) ∨
  (K = 3 ∧ order = 1) ∨ (K = 3 ∧ order = 2)

/-- `PSF_Coeff_1D_1`, `PolyShapeFunction.inl:13` -/
def coeff11 : List (List T) := [[1, -1], [0, 1]]
/-- `PSF_Coeff_1D_2`, `PolyShapeFunction.inl:16` -/
def coeff12 : List (List T) := [[1, -3, 2], [0, 4, -4], [0, -1, 2]]
/-- `PSF_Coeff_2D_1`, `PolyShapeFunction.inl:25` -/
def coeff21 : List (List T) := [[1, -1, -1], [0, 1, 0], [0, 0, 1]]
/-- `PSF_Coeff_2D_2`, `PolyShapeFunction.inl:33-39` -/
def coeff22 : List (List T) := [
  [1, -3, -3,  4,  2,  2],
  [0, -1,  0,  0,  2,  0],
  [0,  0, -1,  0,  0,  2],
  [0,  4,  0, -4, -4,  0],
  [0,  0,  0,  4,  0,  0],
  [0,  0,  4, -4,  0, -4]]
/-- `PSF_Coeff_2D_3`, `PolyShapeFunction.inl:49-59` -/
def coeff23 : List (List T) := [
  [1, -11/2, -11/2,    18,     9,     9, -27/2, -27/2,  -9/2,  -9/2],
  [0,     1,     0,     0,  -9/2,     0,     0,     0,   9/2,     0],
  [0,     0,     1,     0,     0,  -9/2,     0,     0,     0,   9/2],
  [0,     9,     0, -45/2, -45/2,     0,    27,  27/2,  27/2,     0],
  [0,  -9/2,     0,   9/2,    18,     0, -27/2,     0, -27/2,     0],
  [0,     0,     0,  -9/2,     0,     0,  27/2,     0,     0,     0],
  [0,     0,     0,  -9/2,     0,     0,     0,  27/2,     0,     0],
  [0,     0,  -9/2,   9/2,     0,    18,     0, -27/2,     0, -27/2],
  [0,     0,     9, -45/2,     0, -45/2,  27/2,    27,     0,  27/2],
  [0,     0,     0,    27,     0,     0,   -27,   -27,     0,     0]]
/-- `PSF_Coeff_3D_1`, `PolyShapeFunction.inl:64-68` -/
def coeff31 : List (List T) := [[1, -1, -1, -1], [0, 1, 0, 0], [0, 0, 1, 0], [0, 0, 0, 1]]
/-- `PSF_Coeff_3D_2`, `PolyShapeFunction.inl:71-81` -/
def coeff32 : List (List T) := [
  [1, -3, -3, -3,  4,  4,  4,  2,  2,  2],
  [0, -1,  0,  0,  0,  0,  0,  2,  0,  0],
  [0,  0, -1,  0,  0,  0,  0,  0,  2,  0],
  [0,  0,  0, -1,  0,  0,  0,  0,  0,  2],
  [0,  4,  0,  0, -4, -4,  0, -4,  0,  0],
  [0,  0,  0,  0,  4,  0,  0,  0,  0,  0],
  [0,  0,  4,  0, -4,  0, -4,  0, -4,  0],
  [0,  0,  0,  0,  0,  4,  0,  0,  0,  0],
  [0,  0,  0,  4,  0, -4, -4,  0,  0, -4],
  [0,  0,  0,  0,  0,  0,  4,  0,  0,  0]]

/-- the table used for `K`, `order`, in all three functions (PolyShapeFunction.inl:13-81) -/
def coeff (K order : Nat) : List (List T) :=
  match K, order with
  | 1, 1 => coeff11
  | 1, 2 => coeff12
  | 2, 1 => coeff21
  | 2, 2 => coeff22
  | 2, 3 => coeff23
  | 3, 1 => coeff31
  | 3, 2 => coeff32
  | _, _ => []

/-- the bound in `NS_ASSERT(localComponent < ..)`, the same in all three functions, `PolyShapeFunction.inl:101, 107, 117,
124, 134, 151, 159` and `199, .., 255`, `301, .., 346` -/
def compCount (K order : Nat) : Nat :=
  match K, order with
  | 1, 1 => 2
  | 1, 2 => 3
  | 2, 1 => 3
  | 2, 2 => 6
  | 2, 3 => 10
  | 3, 1 => 4
  | 3, 2 => 10
  | _, _ => 0

/-- a summand `nodeValues[n]*..*fac*PSF_Coeff[localComponent][c]*v[x]*..` (PolyShapeFunction.inl:102-169, 200-268) -/
structure Term where
  nodes : List Nat
  fac : Nat
  c : Nat
  vars : List Nat

/-- product of vector entries; `operator[]` asserts the index, `CountableSet.inl:38-41` -/
def prodAt (v : List T) : List Nat → R T
  | [] => .ok 1
  | i :: l => do
    let a ← vecAt v i
    let b ← prodAt v l
    return a * b

/-- one summand (PolyShapeFunction.inl:102-169) -/
def evalTerm (row v nv : List T) (t : Term) : R T := do
  let n ← prodAt nv t.nodes
  let k ← getIdx row t.c
  let x ← prodAt v t.vars
  return n * t.fac * k * x

/-- a sum of summands (PolyShapeFunction.inl:102-169) -/
def evalSum (row v nv : List T) (l : List Term) : R T :=
  forList l 0 fun t s => do
    let x ← evalTerm row v nv t
    return s + x

/-- the expression of `value`, `PolyShapeFunction.inl:97-171` -/
def valueTerms (K order : Nat) : List Term :=
  match K, order with
  | 1, 1 => [⟨[0], 1, 0, []⟩, ⟨[1], 1, 1, [0]⟩]
  | 1, 2 => [⟨[0], 1, 0, []⟩, ⟨[1], 1, 1, [0]⟩, ⟨[2], 1, 2, [0, 0]⟩]
  | 2, 1 => [⟨[0], 1, 0, []⟩, ⟨[1], 1, 1, [0]⟩, ⟨[2], 1, 2, [1]⟩]
  | 2, 2 => [⟨[0], 1, 0, []⟩, ⟨[1], 1, 1, [0]⟩, ⟨[2], 1, 2, [1]⟩, ⟨[3], 1, 3, [0, 1]⟩, ⟨[4], 1, 4, [0, 0]⟩, ⟨[5], 1, 5, [1, 1]⟩]
  | 2, 3 => [⟨[0], 1, 0, []⟩, ⟨[1], 1, 1, [0]⟩, ⟨[2], 1, 2, [1]⟩, ⟨[3], 1, 3, [0, 1]⟩, ⟨[4], 1, 4, [0, 0]⟩, ⟨[5], 1, 5, [1, 1]⟩,
      ⟨[6], 1, 6, [0, 0, 1]⟩, ⟨[7], 1, 7, [0, 1, 1]⟩, ⟨[8], 1, 8, [0, 0, 0]⟩, ⟨[9], 1, 9, [1, 1, 1]⟩]
  | 3, 1 => [⟨[0], 1, 0, []⟩, ⟨[1], 1, 1, [0]⟩, ⟨[2], 1, 2, [1]⟩, ⟨[3], 1, 3, [2]⟩]
  | 3, 2 => [⟨[0], 1, 0, []⟩, ⟨[1], 1, 1, [0]⟩, ⟨[2], 1, 2, [1]⟩, ⟨[3], 1, 3, [2]⟩, ⟨[4], 1, 4, [0, 1]⟩, ⟨[5], 1, 5, [0, 2]⟩,
      ⟨[6], 1, 6, [1, 2]⟩, ⟨[7], 1, 7, [0, 0]⟩, ⟨[8], 1, 8, [1, 1]⟩, ⟨[9], 1, 9, [2, 2]⟩]
  | _, _ => []

/-- the expressions of the components of `gradient`, `PolyShapeFunction.inl:195-271` -/
def gradTerms (K order : Nat) : List (List Term) :=
  match K, order with
  | 1, 1 => [[⟨[1], 1, 1, []⟩]]
  | 1, 2 => [[⟨[1], 1, 1, []⟩, ⟨[2], 2, 2, [0]⟩]]
  | 2, 1 => [[⟨[1, 0], 1, 1, []⟩], [⟨[2, 0], 1, 2, []⟩]]
  | 2, 2 => [[⟨[1], 1, 1, []⟩, ⟨[3], 1, 3, [1]⟩, ⟨[4], 2, 4, [0]⟩], [⟨[2], 1, 2, []⟩, ⟨[3], 1, 3, [0]⟩, ⟨[5], 2, 5, [1]⟩]]
  | 2, 3 => [[⟨[1], 1, 1, []⟩, ⟨[3], 1, 3, [1]⟩, ⟨[4], 2, 4, [0]⟩, ⟨[6], 2, 6, [0, 1]⟩, ⟨[7], 1, 7, [1, 1]⟩, ⟨[8], 3, 8, [0, 0]⟩],
      [⟨[2], 1, 2, []⟩, ⟨[3], 1, 3, [0]⟩, ⟨[5], 2, 5, [1]⟩, ⟨[6], 1, 6, [0, 0]⟩, ⟨[7], 2, 7, [0, 1]⟩, ⟨[9], 3, 9, [1, 1]⟩]]
  | 3, 1 => [[⟨[1], 1, 1, []⟩], [⟨[2], 1, 2, []⟩], [⟨[3], 1, 3, []⟩]]
  | 3, 2 => [[⟨[1], 1, 1, []⟩, ⟨[4], 1, 4, [1]⟩, ⟨[5], 1, 5, [2]⟩, ⟨[7], 2, 7, [0]⟩],
      [⟨[2], 1, 2, []⟩, ⟨[4], 1, 4, [0]⟩, ⟨[6], 1, 6, [2]⟩, ⟨[8], 2, 8, [1]⟩],
      [⟨[3], 1, 3, []⟩, ⟨[5], 1, 5, [0]⟩, ⟨[6], 1, 6, [1]⟩, ⟨[9], 2, 9, [2]⟩]]
  | _, _ => []

/-- the expressions of the components of `gradient2`, `PolyShapeFunction.inl:297-351` -/
def grad2Terms (K order : Nat) : List (List Term) :=
  match K, order with
  | 1, 1 => [[]]
  | 1, 2 => [[⟨[2], 2, 2, []⟩]]
  | 2, 1 => [[], []]
  | 2, 2 => [[⟨[4], 2, 4, []⟩], [⟨[5], 2, 5, []⟩]]
  | 2, 3 => [[⟨[4], 2, 4, []⟩, ⟨[6], 2, 6, [1]⟩, ⟨[8], 6, 8, [0]⟩], [⟨[5], 2, 5, []⟩, ⟨[7], 2, 7, [1]⟩, ⟨[9], 6, 9, [1]⟩]]
  | 3, 1 => [[], [], []]
  | 3, 2 => [[⟨[7], 2, 7, []⟩], [⟨[8], 2, 8, []⟩], [⟨[9], 2, 9, []⟩]]
  | _, _ => []

/-- `value(localComponent, v, nodeValues)`, `PolyShapeFunction.inl:94-180` -/
def valueAt (K order lc : Nat) (v nv : List T) : R T := do
  assert (lc < compCount K order)
  let row ← getIdx (coeff K order) lc
  evalSum row v nv (valueTerms K order)

/-- a loop `g[0] = ...; g[1] = ...` over the components (PolyShapeFunction.inl:200-268) -/
def components (row v nv : List T) : List (List Term) → R (List T)
  | [] => .ok []
  | c :: l => do
    let a ← evalSum row v nv c
    let r ← components row v nv l
    return a :: r

/-- `gradient(localComponent, local, nodeValues)`, `PolyShapeFunction.inl:191-282` -/
def gradientAt (K order lc : Nat) (v nv : List T) : R (List T) := do
  assert (lc < compCount K order)
  let row ← getIdx (coeff K order) lc
  components row v nv (gradTerms K order)

/-- `gradient2(localComponent, local, nodeValues)`, `PolyShapeFunction.inl:293-362` -/
def gradient2At (K order lc : Nat) (v nv : List T) : R (List T) := do
  assert (lc < compCount K order)
  let row ← getIdx (coeff K order) lc
  components row v nv (grad2Terms K order)

/-- `FixedVector<T,DOF> nodeValues` filled with ones, `PolyShapeFunction.inl:88-90, 185-187, 287-289` -/
def ones (K order : Nat) : List T := List.replicate (dof K order) 1

/-- `value(localComponent, v)`, `PolyShapeFunction.inl:85-92` -/
def value (K order lc : Nat) (v : List T) : R T := valueAt K order lc v (ones K order)
/-- `gradient(localComponent, local)`, `PolyShapeFunction.inl:182-189` -/
def gradient (K order lc : Nat) (v : List T) : R (List T) := gradientAt K order lc v (ones K order)
/-- `gradient2(localComponent, local)`, `PolyShapeFunction.inl:284-291` -/
def gradient2 (K order lc : Nat) (v : List T) : R (List T) := gradient2At K order lc v (ones K order)

/-! ### `prepareMesh` (K = 2) -/

section mesh
variable [LinearOrder T]

/-- `e->DOFVertices.push_back(v)` for all vertices of one element and, for each face whose edge has no DOF vertices yet,
`edge->DOFVertices.push_back(v)` for the edge's vertices, `PolyShapeFunction.inl:372-385` -/
def firstPass (w : World T) : R (World T) :=
  forList w.elements w fun ep w => do
    let e ← getIdx w.E ep
    let ds ← forList e.verts e.dofs fun vp l => do
      let p ← deref vp
      return l ++ [p]
    let w : World T := { w with E := w.E.set ep { e with dofs := ds } }
    forRange 0 3 w fun i w => do
      let e ← getIdx w.E ep
      let n ← getIdx e.nbrs i
      let fp ← deref n
      let f ← getIdx w.F fp
      if f.dofs ≠ [] then return w
      else do
        let fd ← forList f.verts f.dofs fun vp l => do
          let p ← deref vp
          return l ++ [p]
        return { w with F := w.F.set fp { f with dofs := fd } }

/-- the lambda `handleEdge(i, element)`, `PolyShapeFunction.inl:406-429` -/
def handleEdge (i ep : Nat) (w : World T) : R (World T) := do
  let e ← getIdx w.E ep
  let n ← getIdx e.nbrs i
  let fp ← deref n
  let f ← getIdx w.F fp
  if f.dofs.length = 3 then do
    let b ← getIdx f.dofs (f.dofs.length - 1)
    let v ← getIdx w.V b
    return { w with V := w.V.set b { v with elems := v.elems ++ [ep] }, E := w.E.set ep { e with dofs := e.dofs ++ [b] } }
  else do
    let p0 ← getIdx f.verts 0
    let a ← deref p0
    let va ← getIdx w.V a
    let p1 ← getIdx f.verts 1
    let b ← deref p1
    let vb ← getIdx w.V b
    let s ← Vec.addAssign va.pos vb.pos
    let x2 ← Vec.divScalar s 2
    let r := w.newVertex x2
    let w ← r.1.orFlags r.2 2
    let w ← (if f.e0 = none ∨ f.e1 = none then w.orFlags r.2 1 else return w)
    let w ← w.addVertex (some r.2)
    let v ← getIdx w.V r.2
    return { w with
      V := w.V.set r.2 { v with elems := v.elems ++ [ep] }
      E := w.E.set ep { e with dofs := e.dofs ++ [r.2] }
      F := w.F.set fp { f with dofs := f.dofs ++ [r.2] } }

/-- `PolyShapePolicy<T,2,Order>::prepareMesh(m)`, `PolyShapeFunction.inl:364-440`; orders other than 1 and 2 are rejected
by a `static_assert` -/
def prepareMesh (order : Nat) (w : World T) : R (World T) := do
  let w ← firstPass w
  if order = 2 then
    forList w.elements w fun ep w => do
      let w ← handleEdge 2 ep w
      let w ← handleEdge 0 ep w
      handleEdge 1 ep w
  else return w

end mesh
end Shape
end NS

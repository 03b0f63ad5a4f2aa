/-
Model of `/repo/src/lib/mesh/Mesh.{h,inl}`, class `Mesh<T,2>` (a `MeshElement<T,K>` contains a `Simplex<T,K>`, which only
compiles for `K == 2`, `Simplex.inl:12`).

Vertices, elements and edges are heap objects; a pointer is a position in the heap (`Option Nat`, `none` is `nullptr`).
`World` is the heap together with the three pointer lists of one `Mesh` object.  Objects are never freed in this part of
the model; handles and deallocation are in `MeshHandleModel.lean`.  When a function throws, the model does not keep
the partially updated mesh; `MeshThrowModel.lean` does for `setupNeighbors()`.
-/
import Verif.SimplexModel

namespace NS

/-- `class MeshVertex`, `Mesh.h:39-50`.  `flags` is the `uint32` bit set: bit 0 is `MVF_StrongBoundary`, bit 1 is
`MVF_Implicit` (`Mesh.h:33-37`). -/
structure MVertex (T : Type) where
  flags : Nat
  gi : Nat
  pos : List T
  elems : List Nat

/-- `class MeshElement`, `Mesh.h:18-31` -/
structure MElem (T : Type) where
  simplex : Simplex T
  verts : List (Option Nat)
  nbrs : List (Option Nat)
  dofs : List Nat

/-- `class MeshEdge`, `Mesh.h:52-62` -/
structure MEdge where
  verts : List (Option Nat)
  e0 : Option Nat
  e1 : Option Nat
  dofs : List Nat

/-- the heap and `Mesh::PrivateData`, `Mesh.h:107-113` -/
structure World (T : Type) where
  V : List (MVertex T)
  E : List (MElem T)
  F : List MEdge
  vertices : List Nat
  elements : List Nat
  edges : List Nat

/-- dereference of a pointer: `nullptr` is undefined behaviour (pointers of Mesh.h:18-62) -/
def deref (p : Option Nat) : R Nat :=
  match p with
  | some a => .ok a
  | none => .error .ub

namespace World
variable {T : Type} [Field T] [LinearOrder T]

/-- `Mesh()`, `Mesh.inl:41-46`, with an empty heap -/
def empty : World T := ⟨[], [], [], [], [], []⟩

/-- `new MeshVertex(vertex)`, `Mesh.inl:24-27` -/
def newVertex (w : World T) (pos : List T) : World T × Nat :=
  ({ w with V := w.V ++ [⟨0, 0, pos, []⟩] }, w.V.length)

/-- `new MeshElement()`, `Mesh.inl:8-17`, followed by the assignment of its `Vertices` by the caller -/
def newElement (w : World T) (vs : List (Option Nat)) : World T × Nat :=
  ({ w with E := w.E ++ [⟨Simplex.default, vs, [none, none, none], []⟩] }, w.E.length)

/-- `vertex->Flags |= f` (Mesh.inl:400, HyperCube.inl:49, 59, 84, 91) -/
def orFlags (w : World T) (p : Nat) (f : Nat) : R (World T) := do
  let v ← getIdx w.V p
  return { w with V := w.V.set p { v with flags := v.flags ||| f } }

/-- `addVertex(vertex)`, `Mesh.inl:136-142` -/
def addVertex (w : World T) (p : Option Nat) : R (World T) := do
  assert (p ≠ none)
  let a ← deref p
  let v ← getIdx w.V a
  return { w with V := w.V.set a { v with gi := w.vertices.length }, vertices := w.vertices ++ [a] }

/-- `addElement(element)`, `Mesh.inl:169-181` -/
def addElement (w : World T) (p : Option Nat) : R (World T) := do
  assert (p ≠ none)
  let a ← deref p
  forRange 0 3 { w with elements := w.elements ++ [a] } fun i w => do
    let e ← getIdx w.E a
    let vp ← getIdx e.verts i
    let q ← deref vp
    let v ← getIdx w.V q
    let s ← e.simplex.setVertex i v.pos
    return { w with E := w.E.set a { e with simplex := s }, V := w.V.set q { v with elems := v.elems ++ [a] } }

/-- the array `shared` of `setupNeighbors()`, `Mesh.inl:224-236`: number of entries written, and the array -/
def sharedArr (vs : List (Option Nat)) (i : Nat) : R (Nat × List (Option Nat)) :=
  forRange 0 3 (0, [none, none]) fun j st =>
    if i = j then return st
    else do
      let v ← getIdx vs j
      let a ← setIdx st.2 st.1 v
      return (st.1 + 1, a)

/-- `matches`, `Mesh.inl:260-271`: how many vertices of the other element occur in `shared` (the inner loop stops at the
first hit, so every vertex counts at most once) -/
def matchCount (shared ovs : List (Option Nat)) : Nat :=
  ovs.foldl (fun m ov => if shared.contains ov then m + 1 else m) 0

/-- search for the element on the other side, `Mesh.inl:250-281`; the result is `edge->Elements[1]` -/
def findOther (w : World T) (S : Nat) (shared : List (Option Nat)) : R (Option Nat) :=
  forRange 0 2 none fun j e1 => do
    let vj ← getIdx shared j
    let q ← deref vj
    let v ← getIdx w.V q
    forList v.elems e1 fun oe e1 =>
      if oe = S then return e1
      else do
        let o ← getIdx w.E oe
        if matchCount shared o.verts = 2 then do
          throwIf (e1 ≠ none ∧ e1 ≠ some oe) .tooManySharedFaces
          return some oe
        else return e1

/-- first vertex of the other element that is not in the edge, `Mesh.inl:287-303` -/
def symIndex (shared ovs : List (Option Nat)) : R (Option Nat) :=
  forRange 0 3 none fun j r =>
    match r with
    | some k => return some k        -- `break` has been executed
    | none => do
      let ov ← getIdx ovs j
      if shared.contains ov then return none else return some j

/-- one face of one element in `setupNeighbors()`, `Mesh.inl:219-305` -/
def setupFace (S i : Nat) (w : World T) : R (World T) := do
  let s ← getIdx w.E S
  let n ← getIdx s.nbrs i
  if n ≠ none then return w
  else do
    let sh ← sharedArr s.verts i
    throwIf (sh.1 ≠ 2) .malformedElementNeighborConnection
    let ep := w.F.length
    let nb ← setIdx s.nbrs i (some ep)
    let w := { w with F := w.F ++ [⟨sh.2, some S, none, []⟩], E := w.E.set S { s with nbrs := nb }, edges := w.edges ++ [ep] }
    let o ← findOther w S sh.2
    match o with
    | none => return w
    | some oe => do
      let w := { w with F := w.F.set ep ⟨sh.2, some S, some oe, []⟩ }
      let other ← getIdx w.E oe
      let j ← symIndex sh.2 other.verts
      match j with
      | none => return w
      | some j => do
        let nb ← setIdx other.nbrs j (some ep)
        return { w with E := w.E.set oe { other with nbrs := nb } }

/-- `setupNeighbors()`, `Mesh.inl:213-308` -/
def setupNeighbors (w : World T) : R (World T) :=
  forList w.elements w fun S w => forRange 0 3 w fun i w => setupFace S i w

/-- `prepare()`, `Mesh.inl:310-315` -/
def prepare (eps : T) (w : World T) : R (World T) :=
  forList w.elements w fun S w => do
    let e ← getIdx w.E S
    let s ← e.simplex.prepare eps
    return { w with E := w.E.set S { e with simplex := s } }

/-- the vertex part of `validate()`, `Mesh.inl:320-360` -/
def validateVertices (w : World T) : R Unit := do
  let _ ← forList w.vertices 0 fun p (id : Nat) => do
    let v ← getIdx w.V p
    throwIf (v.gi ≠ id) .invalidVertexIndex
    throwIf (v.elems = []) .isolatedVertex
    let _ ← forList v.elems () fun sp _ => do
      let s ← getIdx w.E sp
      let found : Bool := if s.dofs = [] then s.verts.contains (some p) else s.dofs.contains p
      throwIf (found = false) .malformedVertexElementConnection
    return id + 1
  return ()

/-- the element part of `validate()`, `Mesh.inl:362-387` -/
def validateElements (eps : T) (w : World T) : R Unit :=
  forList w.elements () fun sp _ => do
    let s ← getIdx w.E sp
    let _ ← forRange 0 3 () fun i _ => do
      let vp ← getIdx s.verts i
      throwIf (vp = none) .incompleteElement
      let p ← deref vp
      let v ← getIdx w.V p
      let c ← getIdx s.simplex.verts i
      let d ← Vec.subAssign c v.pos
      let q ← Vec.magSqr d
      throwIf (eps < |q|) .incompleteElement
    let vol ← s.simplex.volume
    throwIf (|vol| ≤ eps) .zeroVolumeSimplex
    forRange 0 3 () fun i _ => do
      let n ← getIdx s.nbrs i
      throwIf (n = none) .malformedElementNeighborConnection

/-- `validate()`, `Mesh.inl:317-388` -/
def validate (eps : T) (w : World T) : R Unit := do
  validateVertices w
  validateElements eps w

/-- `setupBoundaries()`, `Mesh.inl:390-404` -/
def setupBoundaries (w : World T) : R (World T) :=
  forList w.edges w fun ep w => do
    let e ← getIdx w.F ep
    if e.e0 = none ∨ e.e1 = none then
      forRange 0 2 w fun i w => do
        let vp ← getIdx e.verts i
        assert (vp ≠ none)
        let p ← deref vp
        orFlags w p 1
    else return w

end World
end NS

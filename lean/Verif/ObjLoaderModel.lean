/-
Model of `/repo/src/objloader/loader/MeshObjLoader.inl`.

Here a file is the list of its shapes, and a file tinyobj rejects is `none`; the parser `tinyobj::LoadObj` is modelled in `TinyObjModel.lean`.
-/
import Verif.MeshModel

namespace NS.ObjLoader
open NS NS.World
variable {T : Type} [Field T] [LinearOrder T]

/-- `tinyobj::shape_t`, the members used: `mesh.positions` (after the conversion `(T)`) and `mesh.indices` (tiny_obj_loader.h:88-102) -/
structure Shape (T : Type) where
  positions : List T
  indices : List Nat

/-- the vertex loop, `MeshObjLoader.inl:52-58` (`vertexCount`, line 46) -/
def addVertices (yI xI : Nat) (s : Shape T) (w : World T) : R (World T) :=
  forRange 0 (s.positions.length / 3) w fun i w => do
    let x ← getIdx s.positions (3 * i + xI)
    let y ← getIdx s.positions (3 * i + yI)
    let w' := w.newVertex [x, y]
    w'.1.addVertex (some w'.2)

/-- the corner loop of one element, `MeshObjLoader.inl:63-70`, with `mesh.vertex(idx)` of `Mesh.inl:144-148` -/
def corners (s : Shape T) (w : World T) (i : Nat) : R (List (Option Nat)) :=
  forRange 0 3 [none, none, none] fun j vs => do
    let idx ← getIdx s.indices (3 * i + j)
    throwIf (s.positions.length / 3 ≤ idx) .loadObjError
    let p ← getIdx w.vertices idx
    setIdx vs j (some p)

/-- the element loop, `MeshObjLoader.inl:60-73` (`elementCount`, line 47).  The element is created before its corners are read; when the
loop throws, that element and its mesh are lost, which the model does not record. -/
def addElements (s : Shape T) (w : World T) : R (World T) :=
  forRange 0 (s.indices.length / 3) w fun i w => do
    let vs ← corners s w i
    let w' := w.newElement vs
    w'.1.addElement (some w'.2)

/-- `load(shapes)`, `MeshObjLoader.inl:36-80`; the loop ends after its first pass (`break`, line 75).  `reserveVertices` and
`reserveElements` only change capacities. -/
def load (yI xI : Nat) (shapes : List (Shape T)) : R (World T) := do
  let w ← match shapes with
    | [] => pure World.empty
    | s :: _ => do
      let w ← addVertices yI xI s World.empty
      addElements s w
  w.setupNeighbors

/-- `loadFile(file)` and `loadString(str)`, `MeshObjLoader.inl:8-34`, with the result of `tinyobj::LoadObj` -/
def loadParsed (yI xI : Nat) (parsed : Option (List (Shape T))) : R (World T) :=
  match parsed with
  | none => throwE .loadObjError
  | some shapes => load yI xI shapes
end NS.ObjLoader

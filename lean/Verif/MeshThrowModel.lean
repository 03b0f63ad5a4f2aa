/-
Model of `Mesh<T,2>::setupNeighbors()` (`/repo/src/lib/mesh/Mesh.inl:213-308`) for a caller that catches its exceptions: the functions of `MeshModel.lean`
once more, but with the mesh that is left behind when an exception is thrown.

The state of a loop is the mesh together with the exception that has been thrown (`none`: no exception so far); once an exception has been thrown nothing
further is executed.  The edge object is not freed and stays in `Edges` and in `S->Neighbors[i]` (`Mesh.inl:240-248`).
-/
import Verif.MeshModel

namespace NS
namespace World
variable {T : Type} [Field T] [LinearOrder T]

/-- search for the element on the other side, `Mesh.inl:250-281`, with the value that `edge->Elements[1]` has when the exception of line 275 is thrown -/
def findOtherK (w : World T) (S : Nat) (shared : List (Option Nat)) : R (Option Nat × Option Exc) :=
  forRange 0 2 (none, none) fun j r =>
    if r.2 ≠ none then return r
    else do
      let vj ← getIdx shared j
      let q ← deref vj
      let v ← getIdx w.V q
      forList v.elems r fun oe r =>
        if r.2 ≠ none then return r
        else if oe = S then return r
        else do
          let o ← getIdx w.E oe
          (if matchCount shared o.verts = 2 then
            (if r.1 ≠ none ∧ r.1 ≠ some oe then return (r.1, some .tooManySharedFaces)
            else return (some oe, none))
          else return r)

/-- one face of one element in `setupNeighbors()`, `Mesh.inl:219-305` -/
def setupFaceK (S i : Nat) (st : World T × Option Exc) : R (World T × Option Exc) :=
  if st.2 ≠ none then return st
  else do
    let w := st.1
    let s ← getIdx w.E S
    let n ← getIdx s.nbrs i
    if n ≠ none then return (w, none)
    else do
      let sh ← sharedArr s.verts i
      if sh.1 ≠ 2 then return (w, some .malformedElementNeighborConnection)
      else do
        let ep := w.F.length
        let nb ← setIdx s.nbrs i (some ep)
        let w := { w with F := w.F ++ [⟨sh.2, some S, none, []⟩], E := w.E.set S { s with nbrs := nb }, edges := w.edges ++ [ep] }
        let o ← findOtherK w S sh.2
        match o with
        | (e1, some k) => return ({ w with F := w.F.set ep ⟨sh.2, some S, e1, []⟩ }, some k)
        | (none, none) => return (w, none)
        | (some oe, none) => do
          let w := { w with F := w.F.set ep ⟨sh.2, some S, some oe, []⟩ }
          let other ← getIdx w.E oe
          let j ← symIndex sh.2 other.verts
          match j with
          | none => return (w, none)
          | some j => do
            let nb ← setIdx other.nbrs j (some ep)
            return ({ w with E := w.E.set oe { other with nbrs := nb } }, none)

/-- `setupNeighbors()`, `Mesh.inl:213-308`: the mesh after the call, and the exception if one is thrown -/
def setupNeighborsK (w : World T) : R (World T × Option Exc) :=
  forList w.elements (w, none) fun S st => forRange 0 3 st fun i st => setupFaceK S i st

end World
end NS

/-
Model of `HyperCube<T,2>::generate`, `/repo/src/lib/mesh/HyperCube.inl:18-95`.  The heap arrays of row pointers is a list
of pointers, `none` for an uninitialised entry.
-/
import Verif.MeshModel

namespace NS
namespace HyperCube
variable {T : Type} [Field T] [LinearOrder T]

/-- state of the generator: the mesh, `lastRowVertices`, `lastVertex` (HyperCube.inl:26-43) -/
structure St (T : Type) where
  w : World T
  last : List (Option Nat)
  lv : Nat

/-- `for(Index j = 0; j <= elements[1]; ++j) {...}`, `HyperCube.inl:45-52` -/
def firstRow (n1 : Nat) (off ex : List T) (s : St T) : R (St T) :=
  forRange 0 (n1 + 1) s fun j s => do
    let p ← Vec.mulScalar ex (j : T)
    let p ← Vec.addAssign off p
    let r := s.w.newVertex p
    let w ← r.1.orFlags r.2 1
    let w ← w.addVertex (some r.2)
    let last ← setIdx s.last j (some r.2)
    return ⟨w, last, s.lv⟩

/-- the inner loop body, `HyperCube.inl:64-83` -/
def cellStep (off ex py : List T) (j : Nat) (s : St T) : R (St T) := do
  let p ← Vec.mulScalar ex (j : T)
  let p ← Vec.addAssign off p
  let p ← Vec.addAssign p py
  let r := s.w.newVertex p
  let v := r.2
  let w ← r.1.addVertex (some v)
  let a ← getIdx s.last (j - 1)
  let s1 := w.newElement [a, some s.lv, some v]
  let w ← s1.1.addElement (some s1.2)
  let b ← getIdx s.last j
  let s2 := w.newElement [a, some v, b]
  let w ← s2.1.addElement (some s2.2)
  let last ← setIdx s.last (j - 1) (some s.lv)
  return ⟨w, last, v⟩

/-- one row, `HyperCube.inl:55-88` -/
def rowStep (n1 : Nat) (off ex ey : List T) (i : Nat) (s : St T) : R (St T) := do
  let py ← Vec.mulScalar ey (i : T)
  let p ← Vec.addAssign off py
  let r := s.w.newVertex p
  let w ← r.1.orFlags r.2 1
  let w ← w.addVertex (some r.2)
  let s ← forRange 1 (n1 + 1) ⟨w, s.last, r.2⟩ fun j s => cellStep off ex py j s
  let w ← s.w.orFlags s.lv 1
  let last ← setIdx s.last n1 (some s.lv)
  return ⟨w, last, s.lv⟩

/-- the mesh before `setupNeighbors()`, `HyperCube.inl:25-88` -/
def grid (n0 n1 : Nat) (size off : T × T) : R (World T) := do
  throwIf (n0 < 1 ∨ n1 < 1) .invalidElementCount
  assert ((n0 + 1) * (n1 + 1) > 0)
  assert (n0 * n1 * 2 > 0)
  let ex : List T := [size.1 / (n0 : T), 0]
  let ey : List T := [0, size.2 / (n1 : T)]
  let o : List T := [off.1, off.2]
  let s ← firstRow n1 o ex ⟨World.empty, List.replicate (n1 + 1) none, 0⟩
  let s ← forRange 1 (n0 + 1) s fun i s => rowStep n1 o ex ey i s
  forRange 0 (n1 + 1) s.w fun j w => do
    let vp ← getIdx s.last j
    let p ← deref vp
    w.orFlags p 1

/-- `generate(elements, size, offset)`, `HyperCube.inl:18-95` -/
def generate (n0 n1 : Nat) (size off : T × T) : R (World T) := do
  let w ← grid n0 n1 size off
  w.setupNeighbors

end HyperCube
end NS

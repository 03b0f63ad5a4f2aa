/-
Model of the reference counted handle `Mesh<T,K>` and its `PrivateData`, `/repo/src/lib/mesh/Mesh.inl:40-127` and
`Mesh.h:107-113`.

A `PrivateData` block is a cell with its reference count, an `alive` flag (cleared by `delete mData`) and the numbers of
vertex, element and edge objects that it owns and that are still allocated (the contents of the objects are modelled in
`MeshModel.lean`).  A handle slot is `none` when the C++ object does not exist (yet, or any more), `some none` for a
handle whose `mData` is `nullptr` (moved from) and `some (some c)` for a handle pointing to cell `c`.  Any use of a
`nullptr` or deleted block, and any operation on a handle that does not exist, is undefined behaviour.
-/
import Verif.Outcome

namespace NS

/-- allocated objects owned by one mesh (Mesh.h:107-113) -/
structure Owned where
  vertices : Nat
  elements : Nat
  edges : Nat
  deriving DecidableEq, Repr

/-- one `PrivateData`, `Mesh.h:107-113` -/
structure Cell where
  refs : Nat
  alive : Bool
  data : Owned
  deriving DecidableEq, Repr

/-- all `PrivateData` blocks ever allocated and all handles ever constructed (Mesh.inl:41-46 allocates them) -/
structure Handles where
  cells : List Cell
  hs : List (Option (Option Nat))
  deriving DecidableEq, Repr

namespace Handles

/-- `mData` of an existing handle (Mesh.inl:49-61) -/
def ptr (s : Handles) (h : Nat) : R (Option Nat) :=
  match s.hs[h]? with
  | some (some p) => .ok p
  | _ => .error .ub

/-- `*mData` (Mesh.h:107-113) -/
def block (s : Handles) (p : Option Nat) : R (Nat × Cell) :=
  match p with
  | none => .error .ub
  | some c =>
    match s.cells[c]? with
    | none => .error .ub
    | some k => if k.alive then .ok (c, k) else .error .ub

/-- `clear()`, `Mesh.inl:117-127`: vertices and elements are deleted, edges are not -/
def clear (d : Owned) : Owned := { d with vertices := 0, elements := 0 }

/-- the block `if(mData) {...}` shared by the destructor and both assignments, `Mesh.inl:65-75, 80-89, 100-109` -/
def release (s : Handles) (p : Option Nat) : R Handles :=
  if p = none then return s
  else do
    let (c, k) ← s.block p
    assert (0 < k.refs)
    if k.refs - 1 = 0 then
      return { s with cells := s.cells.set c ⟨0, false, clear k.data⟩ }
    else
      return { s with cells := s.cells.set c { k with refs := k.refs - 1 } }

/-- `mData->Refs++` (Mesh.inl:52, 92) -/
def addRef (s : Handles) (p : Option Nat) : R Handles := do
  let (c, k) ← s.block p
  return { s with cells := s.cells.set c { k with refs := k.refs + 1 } }

/-- operations of a program on handles (Mesh.inl:41-127) -/
inductive Op
  /-- `Mesh m;` -/
  | create
  /-- `Mesh m(h);` -/
  | copy (h : Nat)
  /-- `Mesh m(std::move(h));` -/
  | move (h : Nat)
  /-- `h.~Mesh()` -/
  | destroy (h : Nat)
  /-- `h = g;` -/
  | assign (h g : Nat)
  /-- `h = std::move(g);` -/
  | moveAssign (h g : Nat)
  /-- any sequence of member calls on `h` that leaves it owning `d` (the data is reached through `mData`) -/
  | write (h : Nat) (d : Owned)

/-- one operation -/
def step (s : Handles) : Op → R Handles
  | .create =>           -- `Mesh.inl:41-46`
    return ⟨s.cells ++ [⟨1, true, ⟨0, 0, 0⟩⟩], s.hs ++ [some (some s.cells.length)]⟩
  | .copy h => do        -- `Mesh.inl:48-53`
    let p ← s.ptr h
    let s ← s.addRef p
    return { s with hs := s.hs ++ [some p] }
  | .move h => do        -- `Mesh.inl:55-60`
    let p ← s.ptr h
    return { s with hs := s.hs.set h (some none) ++ [some p] }
  | .destroy h => do     -- `Mesh.inl:62-75`
    let p ← s.ptr h
    let s ← s.release p
    return { s with hs := s.hs.set h none }
  | .assign h g => do    -- `Mesh.inl:77-95`
    let p ← s.ptr h
    let s ← s.release p
    let q ← s.ptr g
    let s := { s with hs := s.hs.set h (some q) }
    s.addRef q
  | .moveAssign h g => do  -- `Mesh.inl:97-115`
    let p ← s.ptr h
    let s ← s.release p
    let q ← s.ptr g
    return { s with hs := (s.hs.set h (some q)).set g (some none) }
  | .write h d => do     -- member functions dereference `mData`
    let p ← s.ptr h
    let (c, k) ← s.block p
    return { s with cells := s.cells.set c { k with data := d } }

/-- a history of operations, starting without handles (sequences of the calls Mesh.inl:41-127) -/
def run (ops : List Op) : R Handles := forList ops ⟨[], []⟩ fun o s => s.step o

end Handles
end NS

/-
Model of `/repo/src/lib/matrix/MatrixOrder.inl`.

`std::multimap<Dimension, Index>` is a list of `(key, value)` pairs in iteration order (keys ascending, equal keys in
insertion order, as the standard guarantees since C++11); `std::queue` is a list.
-/
import Verif.SparseModel
import Verif.Vec

namespace NS
namespace Order
variable {T : Type} [CommRing T] [DecidableEq T]

/-- `std::multimap::insert` (used at MatrixOrder.inl:33, 53) -/
def mmInsert (k v : Nat) : List (Nat × Nat) → List (Nat × Nat)
  | [] => [(k, v)]
  | e :: l => if k < e.1 then (k, v) :: e :: l else e :: mmInsert k v l

/-- `find_pair(map, pair)`, `MatrixOrder.inl:7-16`: is there an entry with this key and value (the entry erased by the
caller is the first such). -/
def findPair (m : List (Nat × Nat)) (p : Nat × Nat) : Bool := m.contains p

/-- The adjacency loops `MatrixOrder.inl:44-54` and `72-82`: the off-diagonal columns of row `p` that have entries
themselves, ordered by their row's entry count. -/
def adjacent (m : Sparse T) (p : Nat) : R (List (Nat × Nat)) := do
  let es ← m.rowEntries p
  forList es [] fun e adj =>
    if e.2.1 ≠ e.1 then do
      let mc ← m.rowFilledCount e.2.1
      if mc > 0 then return mmInsert mc e.2.1 adj else return adj
    else return adj

/-- Working state of `cuthill_mckee`: the result vector, `currentIndex` and `Rows`. (MatrixOrder.inl:24-28) -/
structure CM where
  res : List Nat
  cur : Nat
  rows : List (Nat × Nat)

/-- The inner loop `MatrixOrder.inl:60-86`; `fuel` bounds the number of pops (running out would be the outcome
`diverge`; `Verif/Order.lean` shows that it does not happen). -/
def drain (m : Sparse T) : Nat → List Nat → CM → R CM
  | 0, [], s => .ok s
  | 0, _ :: _, _ => .error .diverge
  | _ + 1, [], s => .ok s
  | fuel + 1, c :: Q, s => do
      let mc ← m.rowFilledCount c
      if findPair s.rows (mc, c) = true then do
        let res ← setIdx s.res s.cur c
        let adj ← adjacent m c
        drain m fuel (Q ++ adj.map Prod.snd) ⟨res, s.cur + 1, s.rows.erase (mc, c)⟩
      else drain m fuel Q s

/-- The outer loop `MatrixOrder.inl:36-87`; `fuel` bounds the number of components. -/
def comps (m : Sparse T) : Nat → CM → R CM
  | 0, s => if s.rows = [] then .ok s else .error .diverge
  | fuel + 1, s =>
      match s.rows with
      | [] => .ok s
      | e :: rest => do
          let res ← setIdx s.res s.cur e.2
          let adj ← adjacent m e.2
          let s' ← drain m (rest.length * (m.columns + 1) + adj.length) (adj.map Prod.snd) ⟨res, s.cur + 1, rest⟩
          comps m fuel s'

/-- `cuthill_mckee(m)`, `MatrixOrder.inl:18-90` -/
def cuthillMckee (m : Sparse T) : R (List Nat) := do
  throwIf (m.rows ≠ m.columns) .notSquare
  let res ← Vec.mk' (T := Nat) m.rows
  let rows ← forRange 0 m.rows [] fun i rows => do
    let mc ← m.rowFilledCount i
    if mc > 0 then return mmInsert mc i rows else return rows
  let s ← comps m m.rows ⟨res, 0, rows⟩
  return s.res

/-- `r_cuthill_mckee(m)`, `MatrixOrder.inl:92-106` -/
def rCuthillMckee (m : Sparse T) : R (List Nat) := do
  let v ← cuthillMckee m
  forRange 0 (v.length / 2) v fun i v => do
    let tmp ← vecAt v i
    let o ← vecAt v (v.length - i - 1)
    let v ← vecSet v i o
    vecSet v (v.length - i - 1) tmp

/-- `permutation_matrix<T>(permutation)`, `MatrixOrder.inl:108-115` -/
def permutationMatrix (p : List Nat) : R (Sparse T) := do
  let nm ← Sparse.mk' p.length p.length
  forRange 0 p.length nm fun i nm => do
    let pi ← getIdx p i
    nm.set i pi 1

/-- `inverse_permutation(permutation)`, `MatrixOrder.inl:117-124` -/
def inversePermutation (p : List Nat) : R (List Nat) := do
  let np ← Vec.mk' (T := Nat) p.length
  forRange 0 p.length np fun i np => do
    let pi ← getIdx p i
    vecSet np pi i

/-- `permutate(matrix, permutation)`, `MatrixOrder.inl:126-137` -/
def permutateMat (m : Sparse T) (p : List Nat) : R (Sparse T) := do
  throwIf (m.rows ≠ m.columns) .notSquare
  throwIf (m.rows ≠ p.length) .matrixMulMismatch
  let P ← permutationMatrix (T := T) p
  let Pt ← P.transpose
  let x ← m.mul Pt
  P.mul x

/-- `permutate(vector, permutation)`, `MatrixOrder.inl:139-150` -/
def permutateVec (v : List T) (p : List Nat) : R (List T) := do
  throwIf (v.length ≠ p.length) .vectorSizeMismatch
  let nm ← Vec.mk' (T := T) v.length
  forRange 0 v.length nm fun i nm => do
    let pi ← getIdx p i
    let x ← getIdx v i
    vecSet nm pi x
end Order
end NS

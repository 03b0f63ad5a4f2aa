/-
Model of `DenseMatrix<T>` (`/repo/src/lib/matrix/DenseMatrix.{h,inl}`) and its base
`BaseMatrix<T,DC>` (`/repo/src/lib/matrix/BaseMatrix.{h,inl}`).

`FixedMatrix<T,K1,K2>` (`FixedMatrix.inl:39-189`) has the same loops on an array of `K1*K2` values
with `rows() = K1`, `columns() = K2` (BaseMatrix.h:29-37); it is covered by reading a `Dense` with
those dimensions.  Simplifications: exact arithmetic; an iterator is a pair of indices and the matrix
it belongs to is passed explicitly; `mEmpty` (always 0, only reachable by writing through an end
iterator) is not stored; `has_nan`/`has_inf` are not modelled.
-/
import Verif.Vec
import Mathlib.Algebra.Ring.Defs

namespace NS

/-- `DataContainer2D<std::vector<T>,0,0>`, BaseMatrix.h:19-27 -/
structure Dense (T : Type) where
  data : List T        -- Container (row-major)
  rows : Nat           -- RowCount
  columns : Nat        -- ColumnCount
  deriving DecidableEq, Repr

/-- `MatrixIterator<T,DC>` data members `mIndex1, mIndex2`, BaseMatrix.h:153-155 -/
structure DIt where
  i1 : Nat
  i2 : Nat
  deriving DecidableEq, Repr

namespace Dense
variable {T : Type}

/-- `size()`, BaseMatrix.inl:344-348 -/
def size (d : Dense T) : Nat := d.rows * d.columns

/-- `DenseMatrix()`, DenseMatrix.inl:7-11 -/
def default : Dense T := ⟨[], 0, 0⟩

/-- `DenseMatrix(d1,d2)`, DenseMatrix.inl:13-23 -/
def mk' [Zero T] (d1 d2 : Nat) : R (Dense T) := do
  assert (d1 > 0)
  assert (d2 > 0)
  return ⟨List.replicate (d1 * d2) 0, d1, d2⟩

/-- `linear_at(i)`, BaseMatrix.inl:163-168 -/
def linearAt (d : Dense T) (i : Nat) : R T := do
  assert (i < d.size)
  getIdx d.data i

/-- `linear_set(i,v)`, BaseMatrix.inl:170-175 -/
def linearSet (d : Dense T) (i : Nat) (v : T) : R (Dense T) := do
  assert (i < d.size)
  let l ← setIdx d.data i v
  return { d with data := l }

/-- `at(i1,i2)`, BaseMatrix.inl:147-153 -/
def at' (d : Dense T) (i j : Nat) : R T := do
  assert (i < d.rows)
  assert (j < d.columns)
  d.linearAt (i * d.columns + j)

/-- `set(i1,i2,v)`, BaseMatrix.inl:155-161 -/
def set (d : Dense T) (i j : Nat) (v : T) : R (Dense T) := do
  assert (i < d.rows)
  assert (j < d.columns)
  d.linearSet (i * d.columns + j) v

/-- `has(i1,i2)`, BaseMatrix.inl:177-181 -/
def has [Zero T] [DecidableEq T] (d : Dense T) (i j : Nat) : R Bool := do
  let v ← d.at' i j
  return decide (v ≠ 0)

/-- `has(i1,i2,val)`, BaseMatrix.inl:183-188; returns (result, val) -/
def hasVal [Zero T] [DecidableEq T] (d : Dense T) (i j : Nat) : R (Bool × T) := do
  let v ← d.at' i j
  return (decide (v ≠ 0), v)

/-! ### Iterators -/

/-- `isValid()`, BaseMatrix.h:92-95 -/
def itValid (d : Dense T) (it : DIt) : Bool := it.i1 < d.rows && it.i2 < d.columns

/-- iterator `operator ==` for iterators of the same matrix, BaseMatrix.h:103-107 -/
def itEq (d : Dense T) (a b : DIt) : Bool :=
  (!d.itValid a && !d.itValid b) || (a.i1 == b.i1 && a.i2 == b.i2)

/-- `begin()`, BaseMatrix.inl:191-195, 203-207 -/
def itBegin (_d : Dense T) : DIt := ⟨0, 0⟩

/-- `end()`, `row_end()`, `column_end()`, BaseMatrix.inl:197-201, 209-213, 235-239, 248-252, 274-278, 287-291 -/
def itEnd (d : Dense T) : DIt := ⟨d.rows, d.columns⟩

/-- `MatrixIterator::operator++`, BaseMatrix.inl:14-33 -/
def itNext (d : Dense T) (it : DIt) : DIt :=
  if d.itValid it then
    if it.i2 + 1 ≥ d.columns then
      if it.i1 + 1 ≥ d.rows then ⟨d.rows, d.columns⟩ else ⟨it.i1 + 1, 0⟩
    else ⟨it.i1, it.i2 + 1⟩
  else it

/-- `MatrixRowIterator::operator++`, BaseMatrix.inl:77-91 -/
def rowNext (d : Dense T) (it : DIt) : DIt :=
  if d.itValid it then
    if it.i2 + 1 ≥ d.columns then ⟨d.rows, d.columns⟩ else ⟨it.i1, it.i2 + 1⟩
  else it

/-- `MatrixColumnIterator::operator++`, BaseMatrix.inl:108-123 -/
def colNext (d : Dense T) (it : DIt) : DIt :=
  if d.itValid it then
    if it.i1 + 1 ≥ d.rows then ⟨d.rows, d.columns⟩ else ⟨it.i1 + 1, it.i2⟩
  else it

/-- `operator*() const`, BaseMatrix.inl:43-54 -/
def deref [Zero T] (d : Dense T) (it : DIt) : R T :=
  if d.itValid it then d.at' it.i1 it.i2 else .ok 0

/-- `row_begin(i)`, BaseMatrix.inl:228-233, 241-246 -/
def rowBegin (d : Dense T) (i : Nat) : R DIt := do
  assert (i < d.rows)
  return ⟨i, 0⟩

/-- `column_begin(i)`, BaseMatrix.inl:267-272, 280-285 -/
def colBegin (d : Dense T) (i : Nat) : R DIt := do
  assert (i < d.columns)
  return ⟨0, i⟩

/-- Walk `for (it = it0; it != end(); ++it)`, collecting `(it.row(), it.column(), *it)`, with fuel. (BaseMatrix.h:88-156, loops such as LU.inl:282-289) -/
def walk [Zero T] (d : Dense T) (next : DIt → DIt) : Nat → DIt → R (List (Nat × Nat × T))
  | 0, it => if d.itEq it d.itEnd then .ok [] else .error .diverge
  | n + 1, it =>
      if d.itEq it d.itEnd then .ok []
      else do
        let v ← d.deref it
        let rest ← walk d next n (next it)
        return (it.i1, it.i2, v) :: rest

/-- `for (auto it = begin(); it != end(); ++it)` (BaseMatrix.inl:191-213) -/
def entries [Zero T] (d : Dense T) : R (List (Nat × Nat × T)) :=
  walk d (itNext d) (d.size + 1) d.itBegin

/-- `for (auto it = row_begin(i); it != row_end(i); ++it)` (BaseMatrix.inl:228-252) -/
def rowEntries [Zero T] (d : Dense T) (i : Nat) : R (List (Nat × Nat × T)) := do
  let it ← d.rowBegin i
  walk d (rowNext d) (d.columns + 1) it

/-- `for (auto it = column_begin(j); it != column_end(j); ++it)` (BaseMatrix.inl:267-291) -/
def colEntries [Zero T] (d : Dense T) (j : Nat) : R (List (Nat × Nat × T)) := do
  let it ← d.colBegin j
  walk d (colNext d) (d.rows + 1) it

/-- `set(it, val)`, BaseMatrix.inl:306-317; returns the same iterator -/
def setIt (d : Dense T) (it : DIt) (v : T) : R (Dense T × DIt) :=
  if it.i1 < d.rows ∧ it.i2 < d.columns then do
    let d' ← d.set it.i1 it.i2 v
    return (d', it)
  else .ok (d, it)

/-- `erase(it)`, BaseMatrix.inl:319-330; returns the same iterator -/
def erase [Zero T] (d : Dense T) (it : DIt) : R (Dense T × DIt) := d.setIt it 0

/-! ### Observers -/

/-- `empty()`, BaseMatrix.inl:350-360 -/
def isEmpty [Zero T] [DecidableEq T] (d : Dense T) : Bool := d.data.all (fun l => decide (l = 0))

/-- `has_zero()`, BaseMatrix.inl:428-438 -/
def hasZero [Zero T] [DecidableEq T] (d : Dense T) : Bool := d.data.any (fun l => decide (l = 0))

/-- `sum()`, BaseMatrix.inl:362-370 -/
def sum [Zero T] [Add T] (d : Dense T) : T := d.data.foldl (· + ·) 0

/-- `trace()`, BaseMatrix.inl:440-448 -/
def trace [Zero T] [Add T] (d : Dense T) : R T :=
  forRange 0 (min d.rows d.columns) 0 fun i v => do
    let a ← d.at' i i
    return v + a

/-- `max()`, BaseMatrix.inl:372-383; `init` is `numeric_limits<T>::min()` -/
def maxE [LT T] [DecidableLT T] (init : T) (d : Dense T) : T :=
  d.data.foldl (fun m l => if m < l then l else m) init

/-- `min()`, BaseMatrix.inl:385-396; `init` is `numeric_limits<T>::max()` -/
def minE [LT T] [DecidableLT T] (init : T) (d : Dense T) : T :=
  d.data.foldl (fun m l => if l < m then l else m) init

/-- `operator ==`, BaseMatrix.inl:450-463 -/
def eq [DecidableEq T] (a b : Dense T) : R Bool := do
  throwIf (a.rows ≠ b.rows ∨ a.columns ≠ b.columns) .matrixSizeMismatch
  forRange 0 a.size true fun i ok =>
    if ok then do
      let x ← a.linearAt i
      let y ← b.linearAt i
      return decide (x = y)
    else return false      -- `return false` has already been executed

/-! ### Operators -/

/-- The loop shared by `operator +=`, `-=`, `*=` with a matrix, DenseMatrix.inl:58-95 -/
def zipAssign (op : T → T → T) (a m : Dense T) : R (Dense T) := do
  throwIf (a.size ≠ m.size) .matrixSizeMismatch
  forRange 0 a.size a fun i a => do
    let x ← getIdx a.data i
    let y ← m.linearAt i
    let l ← setIdx a.data i (op x y)
    return { a with data := l }

/-- `operator +=`, DenseMatrix.inl:58-69 -/
def addAssign [Add T] (a m : Dense T) : R (Dense T) := zipAssign (· + ·) a m
/-- `operator -=`, DenseMatrix.inl:71-82 -/
def subAssign [Sub T] (a m : Dense T) : R (Dense T) := zipAssign (· - ·) a m
/-- `operator *=` (entrywise), DenseMatrix.inl:84-95 -/
def hadamardAssign [Mul T] (a m : Dense T) : R (Dense T) := zipAssign (· * ·) a m

/-- `operator *=(f)`, DenseMatrix.inl:97-104 -/
def scaleAssign [Mul T] (a : Dense T) (f : T) : R (Dense T) :=
  forRange 0 a.size a fun i a => do
    let x ← getIdx a.data i
    let l ← setIdx a.data i (x * f)
    return { a with data := l }

/-- `swap(v)`, DenseMatrix.inl:106-112 -/
def swap (a b : Dense T) : Dense T × Dense T := (⟨b.data, b.rows, b.columns⟩, ⟨a.data, a.rows, a.columns⟩)

/-- `resize(d1,d2)`, DenseMatrix.inl:49-55: only the assertions, the size does not change. -/
def resize (a : Dense T) (d1 d2 : Nat) : R (Dense T) := do
  assert (d1 > 0)
  assert (d2 > 0)
  return a

section ring
variable [Zero T]

/-- `transpose()`, DenseMatrix.inl:114-126 -/
def transpose (d : Dense T) : R (Dense T) := do
  let tmp ← mk' d.columns d.rows
  forRange 0 d.columns tmp fun i tmp =>
    forRange 0 d.rows tmp fun j tmp => do
      let v ← d.at' j i
      tmp.set i j v

/-- `conjugate()`, DenseMatrix.inl:128-142; `conj` is `complex_conj` (Types.h:66-76) -/
def conjugate (conj : T → T) (d : Dense T) : R (Dense T) := do
  let tmp ← mk' d.rows d.columns
  forRange 0 d.rows tmp fun i tmp =>
    forRange 0 d.columns tmp fun j tmp => do
      let v ← d.at' i j
      tmp.set i j (conj v)

/-- `adjugate()`, DenseMatrix.inl:144-157 -/
def adjugate (conj : T → T) (d : Dense T) : R (Dense T) := do
  let tmp ← mk' d.columns d.rows
  forRange 0 d.columns tmp fun i tmp =>
    forRange 0 d.rows tmp fun j tmp => do
      let v ← d.at' j i
      tmp.set i j (conj v)

variable [Add T] [Mul T]

/-- `mul(const DenseMatrix&)`, DenseMatrix.inl:159-179 -/
def mul (a m : Dense T) : R (Dense T) := do
  throwIf (a.columns ≠ m.rows) .matrixMulMismatch
  let tmp ← mk' a.rows m.columns
  forRange 0 a.rows tmp fun i tmp =>
    forRange 0 m.columns tmp fun k tmp => do
      let v ← forRange 0 a.columns (0 : T) fun j v => do
        let x ← a.at' i j
        let y ← m.at' j k
        return v + x * y
      tmp.set i k v

/-- `mul(const Vector&)`, DenseMatrix.inl:181-199 -/
def mulVec (a : Dense T) (v : List T) : R (List T) := do
  throwIf (a.columns ≠ v.length) .matrixMulMismatch
  forRange 0 a.rows (List.replicate a.rows 0) fun i r => do
    let t ← forRange 0 a.columns (0 : T) fun j t => do
      let x ← a.at' i j
      let y ← vecAt v j
      return t + x * y
    vecSet r i t

/-- `mul_left(const Vector&)`, DenseMatrix.inl:201-219 -/
def mulLeft (a : Dense T) (v : List T) : R (List T) := do
  throwIf (a.rows ≠ v.length) .matrixMulMismatch
  forRange 0 a.columns (List.replicate a.columns 0) fun j r => do
    let t ← forRange 0 a.rows (0 : T) fun i t => do
      let x ← a.at' i j
      let y ← vecAt v i
      return t + x * y
    vecSet r j t
end ring

/-- `operator +`, `operator -`, entrywise and scalar `operator *`, DenseMatrix.inl:221-260: copy, then
the compound assignment. -/
def add [Add T] (a b : Dense T) : R (Dense T) := addAssign a b
def sub [Sub T] (a b : Dense T) : R (Dense T) := subAssign a b
def hadamard [Mul T] (a b : Dense T) : R (Dense T) := hadamardAssign a b
def scale [Mul T] (a : Dense T) (f : T) : R (Dense T) := scaleAssign a f
/-- unary `operator -`, DenseMatrix.inl:235-240 -/
def neg [Mul T] [One T] [Neg T] (a : Dense T) : R (Dense T) := scaleAssign a (-1)

/-- The initializer-list constructor, DenseMatrix.inl:25-42.
`std::max_element` on an empty list dereferences `end()`: undefined behaviour. -/
def ofLists [Zero T] (l : List (List T)) : R (Dense T) :=
  if l = [] then .error .ub
  else do
    let s ← mk' l.length ((l.map List.length).foldr max 0)
    forList l.zipIdx s fun (v, i) s =>
      forList v.zipIdx s fun (w, j) s => do
        let d ← setIdx s.data (i * s.columns + j) w
        return { s with data := d }

end Dense
end NS

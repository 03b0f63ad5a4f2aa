/-
Model of `SparseMatrix<T>` (`/repo/src/lib/matrix/SparseMatrix.{h,inl}`).

The matrix is compressed row storage: `mValues`, `mColumnPtr`, `mRowPtr`, `mColumnCount`, `mEmpty`.
Simplifications: scalar arithmetic is exact; capacity (`reserve`) is not modelled; an iterator is a
triple of indices and the matrix it belongs to is passed explicitly (so the check
`this == it.mMatrix` is implicit).
-/
import Verif.Outcome
import Mathlib.Algebra.Ring.Defs

namespace NS

/-- `SparseMatrix<T>` data members, SparseMatrix.h:217-223 -/
structure Sparse (T : Type) where
  values : List T       -- mValues
  colPtr : List Nat     -- mColumnPtr
  rowPtr : List Nat     -- mRowPtr
  cols : Nat            -- mColumnCount
  empty : T             -- mEmpty
  deriving DecidableEq, Repr

/-- `SparseMatrixIterator<T>` data members `mIndex1, mIndex2, mColumnPtrIndex`, SparseMatrix.h:119-122 -/
structure SIt where
  i1 : Nat
  i2 : Nat
  cpi : Nat
  deriving DecidableEq, Repr

namespace Sparse
variable {T : Type}

/-- `rows()`, SparseMatrix.inl:709-713 -/
def rows (s : Sparse T) : Nat := s.rowPtr.length

/-- `columns()`, SparseMatrix.inl:703-707 -/
def columns (s : Sparse T) : Nat := s.cols

/-- `size()`, SparseMatrix.inl:715-719 -/
def size (s : Sparse T) : Nat := s.rows * s.columns

/-- `filled_count()`, SparseMatrix.inl:721-725 -/
def filledCount (s : Sparse T) : Nat := s.values.length

/-- `empty()`, SparseMatrix.inl:745-749 -/
def isEmpty (s : Sparse T) : Bool := s.values.isEmpty

/-- `has_zero()`, SparseMatrix.inl:823-827 -/
def hasZero (s : Sparse T) : Bool := s.values.length != s.size

/-- `SparseMatrix()`, SparseMatrix.inl:184-190 -/
def default [Zero T] : Sparse T := ⟨[], [], [], 0, 0⟩

/-- `SparseMatrix(d1,d2)`, SparseMatrix.inl:192-205 (capacity hint ignored) -/
def mk' [Zero T] (d1 d2 : Nat) : R (Sparse T) := do
  assert (d1 > 0)
  assert (d2 > 0)
  return ⟨[], [], List.replicate d1 0, d2, 0⟩

/-- `row_entry_count(i, rowPtr)`, SparseMatrix.inl:327-340; returns (count, rowPtr). -/
def rowEntryCount (s : Sparse T) (i : Nat) : R (Nat × Nat) :=
  if i < s.rows then do
    let rp ← getIdx s.rowPtr i
    if i ≠ wsub s.rows 1 then do
      let nx ← getIdx s.rowPtr (i + 1)
      return (wsub nx rp, rp)
    else
      return (wsub s.colPtr.length rp, rp)
  else
    return (0, 0)

/-- The scan loop of `internal_at`, SparseMatrix.inl:264-277: `n` more entries, starting at `k`.
Returns the final `columnPtrIndex` and `found`. -/
def scan (cp : List Nat) (j : Nat) : Nat → Nat → R (Nat × Bool)
  | 0, k => .ok (k, false)
  | n + 1, k => do
      let ci ← getIdx cp k
      if ci = j then return (k, true)
      else if ci > j then return (k, false)
      else scan cp j n (k + 1)

/-- The `needNear` loop of `internal_at`, SparseMatrix.inl:256-260. `n` bounds the number of rows
that can still be skipped (`tmp_i1 < rows() - 1`). Returns (tmp_i1, s, rowPtr). -/
def skipRows (s : Sparse T) : Nat → Nat → R (Nat × Nat × Nat)
  | 0, i => do
      let (c, rp) ← s.rowEntryCount i
      return (i, c, rp)
  | n + 1, i => do
      let (c, rp) ← s.rowEntryCount i
      if c = 0 ∧ i < wsub s.rows 1 then skipRows s n (i + 1)
      else return (i, c, rp)

/-- Row selection of `internal_at`, SparseMatrix.inl:254-260: the row itself, or (with `needNear`)
the next non-empty row. -/
def findRow (s : Sparse T) (i : Nat) (needNear : Bool) : R (Nat × Nat × Nat) :=
  if needNear then s.skipRows (s.rows - i) i
  else do
    let (c, rp) ← s.rowEntryCount i
    return (i, c, rp)

/-- `internal_at(i1, i2, columnPtrIndex, found, needNear)`, SparseMatrix.inl:244-287.
Returns (columnPtrIndex, found); the returned reference is `mValues[columnPtrIndex]` when found
and `mEmpty` otherwise (with the assertion `mEmpty == 0`, line 285). -/
def internalAt [Zero T] [DecidableEq T] (s : Sparse T) (i j : Nat) (needNear : Bool) :
    R (Nat × Bool) := do
  if s.isEmpty then
    assert (s.empty = 0)
    return (0, false)
  else
    let (ti, c, rp) ← s.findRow i needNear
    if ti = i then
      let (k, found) ← scan s.colPtr j c rp
      if found then return (k, true)
      else
        assert (s.empty = 0)
        return (k, false)
    else
      assert (s.empty = 0)
      return (rp, false)

/-- The value referred to by the result of `internal_at`. (SparseMatrix.inl:268, 286) -/
def internalVal (s : Sparse T) (k : Nat) (found : Bool) : R T :=
  if found then getIdx s.values k else .ok s.empty

/-- `for (Index k = i1 + 1; k < rows(); ++k) mRowPtr[k] = f(mRowPtr[k])`,
SparseMatrix.inl:301-302, 322-323, 606-609 -/
def shiftRows (s : Sparse T) (i : Nat) (f : Nat → Nat) : Sparse T :=
  { s with rowPtr := s.rowPtr.mapIdx fun k p => if k ≥ i + 1 then f p else p }

/-- `std::vector::erase(begin()+k)`: undefined for `k ≥ size()`. (used at SparseMatrix.inl:298-299, 603-604) -/
def eraseAt {α} (l : List α) (k : Nat) : R (List α) :=
  if k < l.length then .ok (l.eraseIdx k) else .error .ub

/-- `std::vector::insert(begin()+k, a)`: undefined for `k > size()`. (used at SparseMatrix.inl:319-320) -/
def insertAt {α} (l : List α) (k : Nat) (a : α) : R (List α) :=
  if k ≤ l.length then .ok (l.insertIdx k a) else .error .ub

/-- `remove_at`, SparseMatrix.inl:289-304 -/
def removeAt [Zero T] [DecidableEq T] (s : Sparse T) (i j : Nat) : R (Sparse T) := do
  let (k, found) ← s.internalAt i j false
  if found then
    let v ← eraseAt s.values k
    let c ← eraseAt s.colPtr k
    return { s with values := v, colPtr := c }.shiftRows i (fun p => wsub p 1)
  else return s

/-- `set_at`, SparseMatrix.inl:306-325 -/
def setAt [Zero T] [DecidableEq T] (s : Sparse T) (i j : Nat) (v : T) : R (Sparse T) := do
  let (k, found) ← s.internalAt i j true
  if found then
    let vs ← setIdx s.values k v
    return { s with values := vs }
  else
    let vs ← insertAt s.values k v
    let c ← insertAt s.colPtr k j
    return { s with values := vs, colPtr := c }.shiftRows i (fun p => p + 1)

/-- `at(i1,i2)`, SparseMatrix.inl:342-351 -/
def at' [Zero T] [DecidableEq T] (s : Sparse T) (i j : Nat) : R T := do
  assert (i < s.rows)
  assert (j < s.columns)
  let (k, found) ← s.internalAt i j false
  s.internalVal k found

/-- `set(i1,i2,t)`, SparseMatrix.inl:353-363 -/
def set [Zero T] [DecidableEq T] (s : Sparse T) (i j : Nat) (t : T) : R (Sparse T) := do
  assert (i < s.rows)
  assert (j < s.columns)
  if t = 0 then s.removeAt i j else s.setAt i j t

/-- `linear_at(i)`, SparseMatrix.inl:365-370 -/
def linearAt [Zero T] [DecidableEq T] (s : Sparse T) (i : Nat) : R T := do
  assert (i < s.size)
  s.at' (i / s.columns) (i % s.columns)

/-- `linear_set(i,v)`, SparseMatrix.inl:372-377 -/
def linearSet [Zero T] [DecidableEq T] (s : Sparse T) (i : Nat) (v : T) : R (Sparse T) := do
  assert (i < s.size)
  s.set (i / s.columns) (i % s.columns) v

/-- `has(i1,i2)`, SparseMatrix.inl:379-390 -/
def has [Zero T] [DecidableEq T] (s : Sparse T) (i j : Nat) : R Bool := do
  assert (i < s.rows)
  assert (j < s.columns)
  let (_, found) ← s.internalAt i j false
  return found

/-- `has(i1,i2,val)`, SparseMatrix.inl:392-403; returns (found, val) -/
def hasVal [Zero T] [DecidableEq T] (s : Sparse T) (i j : Nat) : R (Bool × T) := do
  assert (i < s.rows)
  assert (j < s.columns)
  let (k, found) ← s.internalAt i j false
  let v ← s.internalVal k found
  return (found, v)

/-! ### Iterators -/

/-- `isValid()`, SparseMatrix.h:58-61 -/
def itValid (s : Sparse T) (it : SIt) : Bool := it.i1 < s.rows && it.i2 < s.columns

/-- `operator ==` of iterators of the same matrix, SparseMatrix.h:69-73 -/
def itEq (s : Sparse T) (a b : SIt) : Bool :=
  (!s.itValid a && !s.itValid b) || (a.i1 == b.i1 && a.i2 == b.i2)

/-- iterator constructor, SparseMatrix.inl:8-18 -/
def mkIt [Zero T] [DecidableEq T] (s : Sparse T) (i j : Nat) : R SIt := do
  if s.itValid ⟨i, j, 0⟩ then
    let (k, found) ← s.internalAt i j false
    assert (found = true)
    return ⟨i, j, k⟩
  else return ⟨i, j, 0⟩

/-- `end()`/`row_end()`/`column_end()`, SparseMatrix.inl:425-429, 478-482, 531-535 -/
def itEnd (s : Sparse T) : SIt := ⟨s.rows, s.columns, 0⟩

/-- The row search loop of `begin()`, SparseMatrix.inl:414-415 (and 438-439):
`while (row_entry_count(row, rowPtr) == 0 && row != rows()) ++row`, `n` more rows.
Returns (row, rowPtr) on exit. -/
def firstRow (s : Sparse T) : Nat → Nat → R (Nat × Nat)
  | 0, i => do
      let (_, rp) ← s.rowEntryCount i
      return (i, rp)
  | n + 1, i => do
      let (c, rp) ← s.rowEntryCount i
      if c = 0 ∧ i ≠ s.rows then firstRow s n (i + 1) else return (i, rp)

/-- non-const `begin()`, SparseMatrix.inl:430-448 -/
def itBegin [Zero T] [DecidableEq T] (s : Sparse T) : R SIt := do
  if s.isEmpty then return s.itEnd
  else
    let (row, rp) ← s.firstRow s.rows 0
    if row = s.rows then return s.itEnd
    else
      let c ← getIdx s.colPtr rp
      s.mkIt row c

/-- const `begin()`, SparseMatrix.inl:405-422 (uses `mColumnPtr.front()`) -/
def itCBegin [Zero T] [DecidableEq T] (s : Sparse T) : R SIt := do
  if s.isEmpty then return s.itEnd
  else
    let (row, _) ← s.firstRow s.rows 0
    if row = s.rows then return s.itEnd
    else
      let c ← getIdx s.colPtr 0
      s.mkIt row c

/-- The row update loop of `operator++`, SparseMatrix.inl:36-46:
`for (s1 = ..; s1 < rows(); ++s1) if (mRowPtr[s1] == idx) mIndex1 = s1; else if (> idx) break;` -/
def advRow (rp : List Nat) (idx : Nat) : Nat → Nat → Nat → R Nat
  | 0, _, cur => .ok cur
  | n + 1, s1, cur => do
      let p ← getIdx rp s1
      if p = idx then advRow rp idx n (s1 + 1) s1
      else if p > idx then return cur
      else advRow rp idx n (s1 + 1) cur

/-- `SparseMatrixIterator::operator++`, SparseMatrix.inl:20-50 -/
def itNext (s : Sparse T) (it : SIt) : R SIt :=
  if s.itValid it then
    let idx := it.cpi + 1
    if s.colPtr.length ≤ idx then .ok ⟨s.rows, s.columns, idx⟩
    else do
      let c ← getIdx s.colPtr idx
      let r ← advRow s.rowPtr idx (s.rows - it.i1) it.i1 it.i1
      return ⟨r, c, idx⟩
  else .ok it

/-- `operator*() const`, SparseMatrix.inl:60-71 -/
def deref [Zero T] (s : Sparse T) (it : SIt) : R T :=
  if s.itValid it then getIdx s.values it.cpi else .ok 0

/-- `SparseMatrixRowIterator::operator++`, SparseMatrix.inl:94-119 -/
def rowNext (s : Sparse T) (it : SIt) : R SIt :=
  if s.itValid it then
    let idx := it.cpi + 1
    if s.colPtr.length ≤ idx then .ok ⟨s.rows, s.columns, idx⟩
    else do
      let c ← getIdx s.colPtr idx
      if it.i1 ≠ wsub s.rows 1 then
        let p ← getIdx s.rowPtr (it.i1 + 1)
        if p ≤ idx then return ⟨s.rows, s.columns, idx⟩
        else return ⟨it.i1, c, idx⟩
      else return ⟨it.i1, c, idx⟩
  else .ok it

/-- `row_begin(i)`, SparseMatrix.inl:468-476, 484-492 -/
def rowBegin [Zero T] [DecidableEq T] (s : Sparse T) (i : Nat) : R SIt := do
  if s.isEmpty then return s.itEnd
  else
    let (c, rp) ← s.rowEntryCount i
    if c = 0 then return s.itEnd
    else
      let j ← getIdx s.colPtr rp
      s.mkIt i j

/-- The inner scan of the column iterator, SparseMatrix.inl:155-168 -/
def colScan (cp : List Nat) (j : Nat) : Nat → Nat → R (Nat × Bool) := scan cp j

/-- The do-while loop of `SparseMatrixColumnIterator::operator++`, SparseMatrix.inl:141-169.
`i` is the row before the increment; `n` bounds the remaining rows; `cpi` is carried because the
iterator keeps its last position when the end is reached. -/
def colLoop (s : Sparse T) (j : Nat) : Nat → Nat → Nat → R SIt
  | 0, _, cpi => .ok ⟨s.rows, s.columns, cpi⟩
  | n + 1, i, cpi =>
      if i + 1 ≥ s.rows then .ok ⟨s.rows, s.columns, cpi⟩
      else do
        let (c, rp) ← s.rowEntryCount (i + 1)
        let (k, found) ← colScan s.colPtr j c rp
        if found then return ⟨i + 1, j, k⟩
        else colLoop s j n (i + 1) k

/-- `SparseMatrixColumnIterator::operator++`, SparseMatrix.inl:136-174 -/
def colNext (s : Sparse T) (it : SIt) : R SIt :=
  if s.itValid it then colLoop s it.i2 (s.rows - it.i1) it.i1 it.cpi else .ok it

/-- The search loop of `column_begin`, SparseMatrix.inl:520-522 (and 547-549):
`while (!has(row, i) && row != rows()) ++row;` -- note that `has` is evaluated first, so at
`row == rows()` the assertion inside `has` fires. -/
def colFirst [Zero T] [DecidableEq T] (s : Sparse T) (j : Nat) : Nat → Nat → R Nat
  | 0, i => do
      let b ← s.has i j
      if !b && i != s.rows then .error .diverge else return i
  | n + 1, i => do
      let b ← s.has i j
      if !b && i != s.rows then colFirst s j n (i + 1) else return i

/-- `column_begin(i)`, SparseMatrix.inl:513-529, 537-553 -/
def colBegin [Zero T] [DecidableEq T] (s : Sparse T) (j : Nat) : R SIt := do
  if s.isEmpty then return s.itEnd
  else
    let row ← s.colFirst j s.rows 0
    if row = s.rows then return s.itEnd
    else s.mkIt row j

/-- Walk `for (it = it0; it != end(); ++it)`, collecting `(it.row(), it.column(), *it)`.
`next` is the increment. Fuel `n`; running out of fuel means the loop did not finish. (loops over a matrix such as SparseMatrix.inl:647, 841, 977-992) -/
def walk [Zero T] (s : Sparse T) (next : SIt → R SIt) : Nat → SIt → R (List (Nat × Nat × T))
  | 0, it => if s.itEq it s.itEnd then .ok [] else .error .diverge
  | n + 1, it =>
      if s.itEq it s.itEnd then .ok []
      else do
        let v ← s.deref it
        let it' ← next it
        let rest ← walk s next n it'
        return (it.i1, it.i2, v) :: rest

/-- `for (auto it = begin(); it != end(); ++it)` on a const matrix (SparseMatrix.inl:406-423 with :21-50) -/
def entries [Zero T] [DecidableEq T] (s : Sparse T) : R (List (Nat × Nat × T)) := do
  let it ← s.itCBegin
  walk s (itNext s) (s.values.length + 1) it

/-- `for (auto it = begin(); it != end(); ++it)` on a non-const matrix (loop not changing the pattern) (SparseMatrix.inl:431-448 with :21-50) -/
def entriesNC [Zero T] [DecidableEq T] (s : Sparse T) : R (List (Nat × Nat × T)) := do
  let it ← s.itBegin
  walk s (itNext s) (s.values.length + 1) it

/-- `for (auto it = row_begin(i); it != row_end(i); ++it)` (SparseMatrix.inl:468-476 with :95-119) -/
def rowEntries [Zero T] [DecidableEq T] (s : Sparse T) (i : Nat) : R (List (Nat × Nat × T)) := do
  let it ← s.rowBegin i
  walk s (rowNext s) (s.values.length + 1) it

/-- `for (auto it = column_begin(j); it != column_end(j); ++it)` (SparseMatrix.inl:513-529 with :137-174) -/
def colEntries [Zero T] [DecidableEq T] (s : Sparse T) (j : Nat) : R (List (Nat × Nat × T)) := do
  let it ← s.colBegin j
  walk s (colNext s) (s.values.length + 1) it

/-- `row_filled_count(r)`, SparseMatrix.inl:727-734 -/
def rowFilledCount [Zero T] [DecidableEq T] (s : Sparse T) (i : Nat) : R Nat := do
  let l ← s.rowEntries i
  forList l 0 (fun _ n => .ok (n + 1))

/-- `column_filled_count(c)`, SparseMatrix.inl:736-743 -/
def colFilledCount [Zero T] [DecidableEq T] (s : Sparse T) (j : Nat) : R Nat := do
  let l ← s.colEntries j
  forList l 0 (fun _ n => .ok (n + 1))

/-! ### set / erase through iterators -/

/-- The row search of `erase`, SparseMatrix.inl:621-632: first row (from `s1`) whose row pointer
equals `idx`, stopping at the first larger one; `cur` if there is none. -/
def eraseRow (rp : List Nat) (idx : Nat) : Nat → Nat → Nat → R Nat
  | 0, _, cur => .ok cur
  | n + 1, s1, cur => do
      let p ← getIdx rp s1
      if p = idx then return s1
      else if p > idx then return cur
      else eraseRow rp idx n (s1 + 1) cur

/-- `erase(it)`, SparseMatrix.inl:596-641 -/
def erase (s : Sparse T) (it : SIt) : R (Sparse T × SIt) :=
  if s.itValid it then do
    let v ← eraseAt s.values it.cpi
    let c ← eraseAt s.colPtr it.cpi
    let s' := { s with values := v, colPtr := c }.shiftRows it.i1 (fun p => wsub p 1)
    if it.cpi = c.length then
      return (s', ⟨s'.rows, s'.columns, it.cpi⟩)
    else
      let j ← getIdx c it.cpi
      let r ← eraseRow s'.rowPtr it.cpi (s'.rows - it.i1) it.i1 it.i1
      return (s', ⟨r, j, it.cpi⟩)
  else .ok (s, it)

/-- `set(it, val)`, SparseMatrix.inl:574-594 -/
def setIt [Zero T] [DecidableEq T] (s : Sparse T) (it : SIt) (val : T) : R (Sparse T × SIt) :=
  if s.itValid it then
    if val = 0 then s.erase it
    else do
      let v ← setIdx s.values it.cpi val
      return ({ s with values := v }, it)
  else .ok (s, it)

/-! ### Operators -/
section ops
variable [Zero T] [One T] [Add T] [Sub T] [Mul T] [Neg T] [DecidableEq T]

/-- `operator +=`, SparseMatrix.inl:644-651 (`v2` a different object) -/
def addAssign (s v2 : Sparse T) : R (Sparse T) := do
  let l ← v2.entries
  forList l s fun e s => do
    let a ← s.at' e.1 e.2.1
    s.set e.1 e.2.1 (a + e.2.2)

/-- `operator -=`, SparseMatrix.inl:653-660 (`v2` a different object) -/
def subAssign (s v2 : Sparse T) : R (Sparse T) := do
  let l ← v2.entries
  forList l s fun e s => do
    let a ← s.at' e.1 e.2.1
    s.set e.1 e.2.1 (a - e.2.2)

/-- First loop of Hadamard `operator *=`, SparseMatrix.inl:664-671: scale through the reference
returned by `internal_at`, which is `mEmpty` if there is no entry. -/
def hadamardScale (s v2 : Sparse T) : R (Sparse T) := do
  let l ← v2.entries
  forList l s fun e s => do
    let (k, found) ← s.internalAt e.1 e.2.1 false
    if found then
      let v ← getIdx s.values k
      let vs ← setIdx s.values k (v * e.2.2)
      return { s with values := vs }
    else return { s with empty := s.empty * e.2.2 }

/-- Second loop of Hadamard `operator *=`, SparseMatrix.inl:673-679 with fuel. -/
def hadamardErase (v2 : Sparse T) : Nat → Sparse T → SIt → R (Sparse T)
  | 0, s, it => if s.itEq it s.itEnd then .ok s else .error .diverge
  | n + 1, s, it =>
      if s.itEq it s.itEnd then .ok s
      else do
        let b ← v2.has it.i1 it.i2
        if b then
          let it' ← s.itNext it
          hadamardErase v2 n s it'
        else
          let (s', it') ← s.erase it
          hadamardErase v2 n s' it'

/-- Hadamard `operator *=`, SparseMatrix.inl:661-682 -/
def hadamardAssign (s v2 : Sparse T) : R (Sparse T) := do
  let s ← s.hadamardScale v2
  let it ← s.itBegin
  hadamardErase v2 (s.values.length + 1) s it

/-- The loop `for (it = begin(); it != end(); ++it) *it *= f`, SparseMatrix.inl:694-697 with fuel -/
def scaleLoop (f : T) : Nat → Sparse T → SIt → R (Sparse T)
  | 0, s, it => if s.itEq it s.itEnd then .ok s else .error .diverge
  | n + 1, s, it =>
      if s.itEq it s.itEnd then .ok s
      else do
        let v ← getIdx s.values it.cpi
        let vs ← setIdx s.values it.cpi (v * f)
        let s' := { s with values := vs }
        let it' ← s'.itNext it
        scaleLoop f n s' it'

/-- `operator *=(f)`, SparseMatrix.inl:684-700 -/
def scaleAssign (s : Sparse T) (f : T) : R (Sparse T) :=
  if f = 0 then .ok { s with values := [], colPtr := [], rowPtr := s.rowPtr.map fun _ => 0 }
  else do
    let it ← s.itBegin
    scaleLoop f (s.values.length + 1) s it

/-- `sum()`, SparseMatrix.inl:751-759 -/
def sum (s : Sparse T) : T := s.values.foldl (· + ·) 0

/-- `swap(v)`, SparseMatrix.inl:829-835: `mColumnCount` (and `mEmpty`) are not exchanged. -/
def swap (a b : Sparse T) : Sparse T × Sparse T :=
  ({ a with values := b.values, colPtr := b.colPtr, rowPtr := b.rowPtr },
   { b with values := a.values, colPtr := a.colPtr, rowPtr := a.rowPtr })

/-- `transpose()`, SparseMatrix.inl:837-846 -/
def transpose (s : Sparse T) : R (Sparse T) := do
  let tmp ← mk' s.columns s.rows
  let l ← s.entries
  forList l tmp fun e t => t.set e.2.1 e.1 e.2.2

/-- `conjugate()`, SparseMatrix.inl:848-857; `conj` is `complex_conj` (Types.h:66-76) -/
def conjugate (conj : T → T) (s : Sparse T) : R (Sparse T) := do
  let tmp ← mk' s.rows s.columns
  let l ← s.entries
  forList l tmp fun e t => t.set e.1 e.2.1 (conj e.2.2)

/-- `adjugate()`, SparseMatrix.inl:859-868 -/
def adjugate (conj : T → T) (s : Sparse T) : R (Sparse T) := do
  let tmp ← mk' s.columns s.rows
  let l ← s.entries
  forList l tmp fun e t => t.set e.2.1 e.1 (conj e.2.2)

/-- `trace()`, SparseMatrix.inl:870-878; `t_min` Utils.h:11-15 -/
def trace (s : Sparse T) : R T :=
  forRange 0 (min s.rows s.columns) 0 fun i v => do
    let a ← s.at' i i
    return v + a

/-- `mul(const SparseMatrix&)`, SparseMatrix.inl:880-900 -/
def mul (s m : Sparse T) : R (Sparse T) := do
  throwIf (s.columns ≠ m.rows) .matrixMulMismatch
  let tmp ← mk' s.rows m.columns
  forRange 0 s.rows tmp fun i tmp =>
    forRange 0 m.columns tmp fun k tmp => do
      let l ← s.rowEntries i
      let v ← forList l (0 : T) fun e v => do
        let b ← m.at' e.2.1 k
        return v + e.2.2 * b
      tmp.set i k v

/-- `mul(const Vector&)`, SparseMatrix.inl:902-916. A vector is the list of its elements;
`r.set(i, ..)`/`v.at(j)` abort out of range (CountableSet.inl). -/
def mulVec (s : Sparse T) (v : List T) : R (List T) := do
  throwIf (s.columns ≠ v.length) .matrixMulMismatch
  let l ← s.entries
  forList l (List.replicate s.rows 0) fun e r => do
    assert (e.1 < r.length)
    assert (e.2.1 < v.length)
    let a ← getIdx r e.1
    let b ← getIdx v e.2.1
    return r.set e.1 (a + e.2.2 * b)

/-- `mul_left(const Vector&)`, SparseMatrix.inl:918-932 -/
def mulLeft (s : Sparse T) (v : List T) : R (List T) := do
  throwIf (s.rows ≠ v.length) .matrixMulMismatch
  let l ← s.entries
  forList l (List.replicate s.columns 0) fun e r => do
    assert (e.2.1 < r.length)
    assert (e.1 < v.length)
    let a ← getIdx r e.2.1
    let b ← getIdx v e.1
    return r.set e.2.1 (a + e.2.2 * b)

/-- `operator +`, `operator -`, SparseMatrix.inl:934-946: copy then `+=` / `-=` -/
def add (a b : Sparse T) : R (Sparse T) := addAssign a b
def sub (a b : Sparse T) : R (Sparse T) := subAssign a b
/-- unary `operator -`, SparseMatrix.inl:948-953 -/
def neg (a : Sparse T) : R (Sparse T) := scaleAssign a (-1)
/-- Hadamard `operator *`, SparseMatrix.inl:955-960 -/
def hadamard (a b : Sparse T) : R (Sparse T) := hadamardAssign a b
/-- scalar `operator *`, SparseMatrix.inl:962-973 -/
def scale (a : Sparse T) (f : T) : R (Sparse T) := scaleAssign a f

/-- Loop of `operator ==`, SparseMatrix.inl:981-990 with fuel -/
def eqLoop (a b : Sparse T) : Nat → SIt → SIt → R Bool
  | 0, _, _ => .error .diverge
  | n + 1, x, y =>
      if !a.itEq x a.itEnd && !b.itEq y b.itEnd then do
        let vx ← a.deref x
        let vy ← b.deref y
        if x.i1 ≠ y.i1 ∨ x.i2 ≠ y.i2 ∨ vx ≠ vy then return false
        else
          let x' ← a.itNext x
          let y' ← b.itNext y
          eqLoop a b n x' y'
      else if !a.itEq x a.itEnd || !b.itEq y b.itEnd then return false
      else return true

/-- `operator ==`, SparseMatrix.inl:975-996 -/
def eq (a b : Sparse T) : R Bool :=
  if a.rows ≠ b.rows ∨ a.columns ≠ b.columns ∨ a.filledCount ≠ b.filledCount then .ok false
  else do
    let x ← a.itCBegin
    let y ← b.itCBegin
    eqLoop a b (a.values.length + 1) x y

/-- The body of the initializer-list constructor, SparseMatrix.inl:207-226.
`std::max_element` on an empty list dereferences `end()`: undefined behaviour. -/
def ofLists (l : List (List T)) : R (Sparse T) :=
  if l = [] then .error .ub
  else do
    let s ← mk' l.length ((l.map List.length).foldr max 0)
    forList l.zipIdx s fun (v, i) s =>
      forList v.zipIdx s fun (w, j) s =>
        if w ≠ 0 then s.set i j w else .ok s

end ops

section ordered
variable [Zero T] [LT T] [DecidableLT T]
/-- `max()`, SparseMatrix.inl:761-775; `init` is `numeric_limits<T>::min()` -/
def maxE (init : T) (s : Sparse T) : T :=
  let m := s.values.foldl (fun m l => if m < l then l else m) init
  if s.values.length ≠ s.size ∧ m < 0 then 0 else m

/-- `min()`, SparseMatrix.inl:777-791; `init` is `numeric_limits<T>::max()` -/
def minE (init : T) (s : Sparse T) : T :=
  let m := s.values.foldl (fun m l => if l < m then l else m) init
  if s.values.length ≠ s.size ∧ 0 < m then 0 else m
end ordered

end Sparse
end NS

/-
Operators whose operand is the object itself or a reference to one of its entries.

The operators take `const T&` and `const Vector&` / `const SparseMatrix&` / `const BaseMatrix&`; in the other model files the
operand is a different object, so that it is a value.  Here it is read again in every pass of the loop from the object that is
being changed.
-/
import Verif.SparseModel
import Verif.DenseModel
import Verif.LUModel
import Verif.CGModel

namespace NS

namespace Vec
variable {T : Type}

/-- `v += v`, `v -= v`, `v *= v`, `v /= v`: Vector.inl:147-157, 168-178, 189-199, 210-220 with `&v == this` -/
def zipSelf (op : T → T → T) (v : List T) : R (List T) := do
  throwIf (v.length ≠ v.length) .vectorSizeMismatch
  forRange 0 v.length v fun i v => do
    let x ← getIdx v i
    let y ← vecAt v i
    setIdx v i (op x y)

/-- `v += v[k]`, `v -= v[k]`, `v *= v[k]`: Vector.inl:159-166, 180-187, 201-208 with `f` a reference to the entry `k` (as returned
by the non-const `operator[]`, CountableSet.inl:50-55, which checks the index) -/
def mapRef (op : T → T → T) (v : List T) (k : Nat) : R (List T) := do
  assert (k < v.length)
  forRange 0 v.length v fun i v => do
    let x ← getIdx v i
    let f ← getIdx v k
    setIdx v i (op x f)

/-- `v /= v[k]`: Vector.inl:222-230 with `f` a reference to the entry `k`; the reciprocal is computed once -/
def divRef [One T] [Div T] [Mul T] (v : List T) (k : Nat) : R (List T) := do
  assert (k < v.length)
  let f ← getIdx v k
  let invF := 1 / f
  mapAssign (· * invF) v

end Vec

namespace Dense
variable {T : Type}

/-- `m += m`, `m -= m`, `m *= m`: DenseMatrix.inl:58-95, FixedMatrix.inl:40-74 with `&m == this` -/
def zipSelf (op : T → T → T) (d : Dense T) : R (Dense T) := do
  throwIf (d.size ≠ d.size) .matrixSizeMismatch
  forRange 0 d.size d fun i d => do
    let x ← getIdx d.data i
    let y ← d.linearAt i
    let l ← setIdx d.data i (op x y)
    return { d with data := l }

/-- `m *= *it`: DenseMatrix.inl:97-104, FixedMatrix.inl:76-83 with `f` the reference a non-const iterator at `(i,j)` returns -/
def scaleRef [Mul T] (d : Dense T) (i j : Nat) : R (Dense T) := do
  assert (i < d.rows)
  assert (j < d.columns)
  forRange 0 d.size d fun t d => do
    let x ← getIdx d.data t
    let f ← getIdx d.data (i * d.columns + j)
    let l ← setIdx d.data t (x * f)
    return { d with data := l }

end Dense

namespace Sparse
variable {T : Type} [Zero T] [DecidableEq T]

/-- the loop of `m += m` and `m -= m`, SparseMatrix.inl:647-648, 656-657 with `&v2 == this`: the iterator runs over the matrix that is
being changed; `n` bounds the number of passes -/
def selfLoop (op : T → T → T) : Nat → Sparse T → SIt → R (Sparse T)
  | 0, s, it => if s.itEq it s.itEnd then .ok s else .error .diverge
  | n + 1, s, it =>
      if s.itEq it s.itEnd then .ok s
      else do
        let a ← s.at' it.i1 it.i2
        let y ← s.deref it
        let s' ← s.set it.i1 it.i2 (op a y)
        let it' ← s'.itNext it
        selfLoop op n s' it'

/-- `m += m` (`op` is `+`) and `m -= m` (`op` is `-`), SparseMatrix.inl:644-660 with `&v2 == this` -/
def selfAssign (op : T → T → T) (s : Sparse T) : R (Sparse T) := do
  let it ← s.itCBegin
  selfLoop op (s.size + 1) s it

/-- the first loop of `m *= m` (entrywise product), SparseMatrix.inl:664-671 with `&v2 == this` -/
def hadSelfLoop [Mul T] : Nat → Sparse T → SIt → R (Sparse T)
  | 0, s, it => if s.itEq it s.itEnd then .ok s else .error .diverge
  | n + 1, s, it =>
      if s.itEq it s.itEnd then .ok s
      else do
        let (k, found) ← s.internalAt it.i1 it.i2 false
        let y ← s.deref it
        let s' ← (if found then do
            let v ← getIdx s.values k
            let vs ← setIdx s.values k (v * y)
            return { s with values := vs }
          else return { s with empty := s.empty * y } : R (Sparse T))
        let it' ← s'.itNext it
        hadSelfLoop n s' it'

/-- the second loop of `m *= m`, SparseMatrix.inl:673-679 with `&v2 == this` -/
def hadSelfErase : Nat → Sparse T → SIt → R (Sparse T)
  | 0, s, it => if s.itEq it s.itEnd then .ok s else .error .diverge
  | n + 1, s, it =>
      if s.itEq it s.itEnd then .ok s
      else do
        let b ← s.has it.i1 it.i2
        if b then
          let it' ← s.itNext it
          hadSelfErase n s it'
        else
          let (s', it') ← s.erase it
          hadSelfErase n s' it'

/-- `m *= m` (entrywise product), SparseMatrix.inl:661-682 with `&v2 == this` -/
def hadamardSelf [Mul T] (s : Sparse T) : R (Sparse T) := do
  let it ← s.itCBegin
  let s ← hadSelfLoop (s.values.length + 1) s it
  let it ← s.itBegin
  hadSelfErase (s.values.length + 1) s it

/-- the loop of `m *= *p`, SparseMatrix.inl:694-697, where `f` is a reference to the stored value number `k` -/
def scaleRefLoop [Mul T] (k : Nat) : Nat → Sparse T → SIt → R (Sparse T)
  | 0, s, it => if s.itEq it s.itEnd then .ok s else .error .diverge
  | n + 1, s, it =>
      if s.itEq it s.itEnd then .ok s
      else do
        let v ← getIdx s.values it.cpi
        let f ← getIdx s.values k
        let vs ← setIdx s.values it.cpi (v * f)
        let s' := { s with values := vs }
        let it' ← s'.itNext it
        scaleRefLoop k n s' it'

/-- `m *= *p` for a valid non-const iterator `p` of `m` (its `operator*` returns a reference, SparseMatrix.inl:73-85),
SparseMatrix.inl:684-700 -/
def scaleRef [Mul T] (s : Sparse T) (p : SIt) : R (Sparse T) := do
  let f ← getIdx s.values p.cpi
  if f = 0 then return { s with values := [], colPtr := [], rowPtr := s.rowPtr.map fun _ => 0 }
  else
    let it ← s.itBegin
    scaleRefLoop p.cpi (s.values.length + 1) s it

end Sparse

namespace LU
open MatOps
variable {M T : Type} [MatOps M T]

/-- `cholesky(m, m)`, LU.inl:8-46 with `&L == &m`; the divisor `L(j,j)` can become zero here (the pass `i = j` changes it), so that the
division is checked -/
def choleskySelf [Zero T] [Add T] [Sub T] [Mul T] [Div T] [DecidableEq T] (sqrtAllowed : T → Bool) (nanAllowed : Bool) (sqrt : T → T)
    (m : M) : R M := do
  throwIf (rows m ≠ cols m) .notSquare
  throwIf (rows m ≠ rows m ∨ cols m ≠ cols m) .invalidOutputMatrix
  forRange 0 (rows m) m fun j L => do
    let s ← forRange 0 j (0 : T) fun k s => do
      let v ← get L j k
      return s + v * v
    let mjj ← get L j j
    let s := mjj - s
    throwIf (sqrtAllowed s = false) .notPositiveDefinite
    let L ← put L j j (sqrt s)
    if sqrt s = 0 then zeroPivot nanAllowed (decide (j + 1 = rows L)) else
    forRange j (rows L) L fun i L => do
      let s ← forRange 0 i (0 : T) fun k s => do
        let a ← get L i k
        let b ← get L j k
        return s + a * b
      let mij ← get L i j
      let d ← get L j j
      let q ← fdiv (mij - s) d
      put L i j q

end LU

namespace CG
open MatOps
variable {M T V : Type} [MatOps M T]

/-- `jacobi(A, A)`, CG.inl:106-127 with `&C == &A` -/
def jacobiSelf [Field T] [LinearOrder V] (absv : T → V) (eps : V) (A : M) : R M := do
  throwIf (rows A ≠ cols A) .notSquare
  throwIf (rows A ≠ cols A) .notSquare
  throwIf (rows A ≠ rows A) .matrixSizeMismatch
  forRange 0 (rows A) A fun i C => do
    let mid ← get C i i
    throwIf (absv mid ≤ eps) .singular
    put C i i (1 / mid)

end CG
end NS

/-
The remaining observers of `CountableSet<T,DC>`, `Vector<T,DC>` (`/repo/src/lib/CountableSet.{h,inl}`,
`/repo/src/lib/Vector.inl`) and of the matrices: `hasNaN`, `hasInf`, `avg`, `min`, iteration, and the functions `left`,
`right`, `mid` that the source marks "NOT WORKING".

Element types: `Fl T` (a floating-point type with infinities and NaN, `FlModel.lean`); `Cx F` is `std::complex<F>`, used for
the two classification functions only.
-/
import Verif.Vec
import Verif.SparseModel
import Verif.DenseModel
import Verif.FlModel
import Mathlib.Data.Nat.Cast.Defs

namespace NS

/-- `std::isinf`, used by `Types.h:102-112` -/
def Fl.isInf {T : Type} : Fl T → Bool
  | .pinf => true
  | .ninf => true
  | _ => false

/-- `std::complex<F>`: real and imaginary part (Types.h:95-112) -/
structure Cx (F : Type) where
  re : F
  im : F

/-- `complex_isnan`, Types.h:90-100, for a complex type -/
def Cx.isNan {T : Type} (z : Cx (Fl T)) : Bool := z.re.isNan || z.im.isNan
/-- `complex_isinf`, Types.h:102-112, for a complex type -/
def Cx.isInf {T : Type} (z : Cx (Fl T)) : Bool := z.re.isInf || z.im.isInf

namespace Vec
variable {E : Type}

/-- The loop of `hasNaN()`, `hasInf()`, CountableSet.inl:119-141: `test` is `complex_isnan`, `complex_isinf` -/
def hasTest (test : E → Bool) (v : List E) : R Bool :=
  forRange 0 v.length false fun i b =>
    if b then return true     -- `return true` has already been executed
    else do
      let x ← getIdx v i
      return test x

/-- `hasNaN()` for a real element type, CountableSet.inl:119-129 -/
def hasNaN {T : Type} (v : List (Fl T)) : R Bool := hasTest Fl.isNan v
/-- `hasInf()` for a real element type, CountableSet.inl:131-141 -/
def hasInf {T : Type} (v : List (Fl T)) : R Bool := hasTest Fl.isInf v
/-- `hasNaN()` for a complex element type, CountableSet.inl:119-129 -/
def hasNaNC {T : Type} (v : List (Cx (Fl T))) : R Bool := hasTest Cx.isNan v
/-- `hasInf()` for a complex element type, CountableSet.inl:131-141 -/
def hasInfC {T : Type} (v : List (Cx (Fl T))) : R Bool := hasTest Cx.isInf v

/-- `avg()`, CountableSet.inl:106-110: `sum() / (T)size()`; a division by zero is the outcome `nonfinite` -/
def avg {T : Type} [Zero T] [Add T] [Div T] [NatCast T] [DecidableEq T] (v : List T) : R T := do
  let s ← sum v
  fdiv s (v.length : T)

/-- `min()`, CountableSet.inl:90-104; `init` is `numeric_limits<_t>::max()`, `complex_abs` of a real number returns it
unchanged (Types.h:78-88) -/
def minE {T : Type} [LT T] [DecidableLT T] (init : T) (v : List T) : T :=
  v.foldl (fun m l => if l < m then l else m) init

/-- `max()` of a vector of complex numbers, CountableSet.inl:74-88; `cabs` is `complex_abs`, that is `std::abs` (Types.h:84-88), `init` is
`numeric_limits<_t>::min()` of the real type.  The result, here the real number, is converted to a complex number. -/
def maxC {T : Type} [LT T] [DecidableLT T] (cabs : E → T) (init : T) (v : List E) : T :=
  v.foldl (fun m l => if m < cabs l then cabs l else m) init

/-- `min()` of a vector of complex numbers, CountableSet.inl:90-104 -/
def minC {T : Type} [LT T] [DecidableLT T] (cabs : E → T) (init : T) (v : List E) : T :=
  v.foldl (fun m l => if cabs l < m then cabs l else m) init

/-! ### Iterators -/

/-- `isValid()`, CountableSet.h:30-33; the iterator is its position `mPos` -/
def itValid (v : List E) (p : Nat) : Bool := decide (p < v.length)
/-- `operator ==`, CountableSet.h:35-38 -/
def itEq (v : List E) (p q : Nat) : Bool := (!itValid v p && !itValid v q) || decide (p = q)
/-- `operator *`, CountableSet.h:45-49 -/
def itDeref (v : List E) (p : Nat) : R E := do
  assert (p < v.length)
  vecAt v p
/-- `for(auto it = begin(); it != end(); ++it)` collecting `*it`, CountableSet.h:20-66, 88-96; the first argument bounds the
number of steps -/
def walk (v : List E) : Nat → Nat → R (List E)
  | 0, _ => .error .diverge
  | fuel + 1, p =>
    if itEq v p v.length then return []
    else do
      let x ← itDeref v p
      let r ← walk v fuel (p + 1)
      return x :: r

/-! ### `left`, `right`, `mid`

`K` is the size of a default-constructed vector of the type: 0 for `DynamicVector`, `K` for `FixedVector<T,K>`. -/

/-- The loop of `left`, `right`, `mid`: `tmp.set(i - start, at(i))` for `start ≤ i < stop`, Vector.inl:101-102, 115-116,
128-129; `tmp` is default-constructed -/
def copyRange [Zero E] (K : Nat) (v : List E) (start stop : Nat) : R (List E) :=
  forRange start stop (List.replicate K 0) fun i tmp => do
    let x ← vecAt v i
    vecSet tmp (i - start) x

/-- `left(i)`, Vector.inl:96-105 -/
def left [Zero E] (K : Nat) (v : List E) (i : Nat) : R (List E) := do
  assert (i < v.length)
  copyRange K v 0 (i + 1)
/-- `right(i)`, Vector.inl:108-119 -/
def right [Zero E] (K : Nat) (v : List E) (i : Nat) : R (List E) := do
  assert (i < v.length)
  copyRange K v i v.length
/-- `mid(start, end)`, Vector.inl:122-132 -/
def mid [Zero E] (K : Nat) (v : List E) (start stop : Nat) : R (List E) := do
  assert (start < stop)
  copyRange K v start (min stop v.length)
end Vec

namespace Dense
/-- `has_nan()`, BaseMatrix.inl:404-414 (range `for` over the stored values) -/
def hasNan {T : Type} (d : Dense (Fl T)) : Bool := d.data.any Fl.isNan
/-- `has_inf()`, BaseMatrix.inl:416-426 -/
def hasInf {T : Type} (d : Dense (Fl T)) : Bool := d.data.any Fl.isInf
/-- `avg()`, BaseMatrix.inl:398-402 -/
def avg {T : Type} [Zero T] [Add T] [Div T] [NatCast T] [DecidableEq T] (d : Dense T) : R T := fdiv d.sum (d.size : T)
end Dense

namespace Sparse
/-- `has_nan()`, SparseMatrix.inl:799-809 (range `for` over the stored values) -/
def hasNan {T : Type} (s : Sparse (Fl T)) : Bool := s.values.any Fl.isNan
/-- `has_inf()`, SparseMatrix.inl:811-821 -/
def hasInf {T : Type} (s : Sparse (Fl T)) : Bool := s.values.any Fl.isInf
/-- `avg()`, SparseMatrix.inl:793-797 -/
def avg {T : Type} [CommRing T] [Div T] [DecidableEq T] (s : Sparse T) : R T := fdiv s.sum (s.size : T)
end Sparse
end NS

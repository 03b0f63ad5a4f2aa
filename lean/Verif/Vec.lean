/-
Model of `CountableSet<T,DC>` and `Vector<T,DC>` (`/repo/src/lib/CountableSet.inl`,
`/repo/src/lib/Vector.inl`).  A vector is the list of its entries (`mData`, a `std::vector` for
`DynamicVector`, a `std::array` for `FixedVector`).  Exact arithmetic.  `mag`, `normalized` are in
`SimplexModel.lean`; `hasNaN`/`hasInf`, `avg`, `min`, iterators, `left`, `right`, `mid` are in `VecMoreModel.lean`.
-/
import Verif.Outcome
import Mathlib.Algebra.Ring.Defs

namespace NS

section
variable {T : Type}

/-- `linear_at(i)`, `operator[] const`, CountableSet.inl:30-41; `Vector::at`, Vector.inl:51-55 -/
def vecAt (v : List T) (i : Nat) : R T := do
  assert (i < v.length)
  getIdx v i

/-- `linear_set(i,v)`, `operator[]`, CountableSet.inl:43-55; `Vector::set`, Vector.inl:57-61 -/
def vecSet (v : List T) (i : Nat) (x : T) : R (List T) := do
  assert (i < v.length)
  setIdx v i x

end

namespace Vec
variable {T : Type}

/-- `fill(f)`, CountableSet.inl:155-160 -/
def fill (v : List T) (f : T) : R (List T) :=
  forRange 0 v.length v fun i v => setIdx v i f

/-- `resize(size)`, CountableSet.inl:168-174: `std::vector::resize` keeps the common prefix and
value-initialises (zero) the rest. -/
def resize [Zero T] (v : List T) (n : Nat) : List T :=
  v.take n ++ List.replicate (n - v.length) 0

/-- `Vector(size)`, CountableSet.inl:15-22, Vector.inl:13-18: resize, then `fill(0)` -/
def mk' [Zero T] (n : Nat) : R (List T) := fill (resize [] n) 0

/-- Loop of the initializer-list constructors, Vector.inl:26-31, 39-44 -/
def initLoop (l : List T) (v : List T) : R (List T) :=
  forList l.zipIdx v fun (x, i) v => vecSet v i x

/-- `DynamicVector({..})`, Vector.inl:20-31 -/
def ofList [Zero T] (l : List T) : R (List T) := do
  let v ← mk' l.length
  initLoop l v

/-- `FixedVector<T,K>({..})`, Vector.inl:33-44: `K` zeros, then the entries of the list -/
def ofListFixed [Zero T] (K : Nat) (l : List T) : R (List T) := do
  let v ← fill (List.replicate K (0 : T)) 0
  initLoop l v

/-- `sum()`, CountableSet.inl:64-72 -/
def sum [Zero T] [Add T] (v : List T) : R T :=
  forRange 0 v.length 0 fun i s => do
    let x ← getIdx v i
    return s + x

/-- `hasZero()`, CountableSet.inl:143-153 -/
def hasZero [Zero T] [DecidableEq T] (v : List T) : R Bool :=
  forRange 0 v.length false fun i b =>
    if b then return true     -- `return true` has already been executed
    else do
      let x ← getIdx v i
      return decide (x = 0)

/-- `swap(v)`, CountableSet.inl:162-166 -/
def swap (v w : List T) : List T × List T := (w, v)

/-- `do_reciprocal()`, CountableSet.inl:112-117 -/
def reciprocal [One T] [Div T] (v : List T) : R (List T) :=
  forRange 0 v.length v fun i v => do
    let x ← getIdx v i
    setIdx v i (1 / x)

/-- `dot(v)`, Vector.inl:64-74 -/
def dot [Zero T] [Add T] [Mul T] (v w : List T) : R T := do
  throwIf (v.length ≠ w.length) .vectorSizeMismatch
  forRange 0 v.length 0 fun i s => do
    let x ← vecAt v i
    let y ← vecAt w i
    return s + x * y

/-- `magSqr()`, Vector.inl:82-86 -/
def magSqr [Zero T] [Add T] [Mul T] (v : List T) : R T := dot v v

/-- `has(start, end, v)`, Vector.inl:134-144 -/
def has [DecidableEq T] (w : List T) (s e : Nat) (v : T) : R Bool :=
  forRange s (min e w.length) false fun i b =>
    if b then return true     -- `return true` has already been executed
    else do
      let x ← vecAt w i
      return decide (x = v)

/-- The loop shared by `operator +=`, `-=`, `*=`, `/=` with a vector, Vector.inl:147-157, 168-178,
189-199, 210-220 -/
def zipAssign (op : T → T → T) (v w : List T) : R (List T) := do
  throwIf (v.length ≠ w.length) .vectorSizeMismatch
  forRange 0 v.length v fun i v => do
    let x ← getIdx v i
    let y ← vecAt w i
    setIdx v i (op x y)

/-- `operator +=(v)`, Vector.inl:147-157 -/
def addAssign [Add T] (v w : List T) : R (List T) := zipAssign (· + ·) v w
/-- `operator -=(v)`, Vector.inl:168-178 -/
def subAssign [Sub T] (v w : List T) : R (List T) := zipAssign (· - ·) v w
/-- `operator *=(v)`, Vector.inl:189-199 -/
def mulAssign [Mul T] (v w : List T) : R (List T) := zipAssign (· * ·) v w
/-- `operator /=(v)`, Vector.inl:210-220 -/
def divAssign [Div T] (v w : List T) : R (List T) := zipAssign (· / ·) v w

/-- The loop shared by the compound assignments with a scalar, Vector.inl:159-166, 180-187, 201-208 -/
def mapAssign (g : T → T) (v : List T) : R (List T) :=
  forRange 0 v.length v fun i v => do
    let x ← getIdx v i
    setIdx v i (g x)

/-- `operator +=(f)`, Vector.inl:159-166 -/
def addScalar [Add T] (v : List T) (f : T) : R (List T) := mapAssign (· + f) v
/-- `operator -=(f)`, Vector.inl:180-187 -/
def subScalar [Sub T] (v : List T) (f : T) : R (List T) := mapAssign (· - f) v
/-- `operator *=(f)`, Vector.inl:201-208 -/
def mulScalar [Mul T] (v : List T) (f : T) : R (List T) := mapAssign (· * f) v
/-- `operator /=(f)`, Vector.inl:222-230: multiplies by `(T)1 / f` -/
def divScalar [One T] [Div T] [Mul T] (v : List T) (f : T) : R (List T) :=
  let invF := 1 / f
  mapAssign (· * invF) v

/-- unary `operator -`, Vector.inl:275-280 -/
def neg [Mul T] [One T] [Neg T] (v : List T) : R (List T) := mulScalar v (-1)

/-- `operator /(f, v)`, Vector.inl:316-322 -/
def rdivScalar [One T] [Div T] [Mul T] (f : T) (v : List T) : R (List T) := do
  let w ← reciprocal v
  mulScalar w f

/-- `operator -(f, v)`, Vector.inl:268-273 -/
def rsubScalar [Add T] [Mul T] [One T] [Neg T] (f : T) (v : List T) : R (List T) := do
  let w ← neg v
  addScalar w f

/-- `operator ==`, Vector.inl:325-338 -/
def eq [DecidableEq T] (v w : List T) : R Bool := do
  throwIf (v.length ≠ w.length) .vectorSizeMismatch
  forRange 0 v.length true fun i b =>
    if b then do
      let x ← vecAt v i
      let y ← vecAt w i
      return decide (x = y)
    else return false     -- `return false` has already been executed

/-- `max()`, CountableSet.inl:74-88; `init` is `numeric_limits<_t>::min()`, `complex_abs` of a real
number returns it unchanged (Types.h:78-88) -/
def maxE [LT T] [DecidableLT T] (init : T) (v : List T) : T :=
  v.foldl (fun m l => if m < l then l else m) init

end Vec
end NS

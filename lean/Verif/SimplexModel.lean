/-
Model of `/repo/src/lib/Normal.h` and of `/repo/src/lib/Simplex.{h,inl}` (the class is restricted to `K == 2` by a
`static_assert`, `Simplex.inl:12`).

Scalars are an ordered field (exact arithmetic); `eps` is the singularity threshold used inside
`Operations::determinant`, `sqrt` is `std::sqrt`; a division by zero is the outcome `nonfinite`.
-/
import Verif.LUModel
import Verif.DenseModel
import Verif.Vec
import Mathlib.Algebra.Order.Ring.Abs
import Mathlib.Algebra.Order.Field.Basic

namespace NS

namespace Vec
/-- `mag()`, `Vector.inl:76-80` -/
def mag {T : Type} [Zero T] [Add T] [Mul T] (sqrt : T → T) (v : List T) : R T := do
  let s ← magSqr v
  return sqrt s

/-- `normalized()`, `Vector.inl:88-92`: `(*this) / mag()` -/
def normalized {T : Type} [Field T] [DecidableEq T] (sqrt : T → T) (v : List T) : R (List T) := do
  let m ← mag sqrt v
  let _ ← fdiv 1 m
  divScalar v m
end Vec

namespace Normal
variable {T : Type} [Field T] [LinearOrder T]

/-- the submatrix loop `Normal.h:24-37`: column `i` of the `(K-1) x K` array `vectors` is left out -/
def subMatrix (K : Nat) (vectors : List (List T)) (i : Nat) : R (Dense T) := do
  let m ← Dense.mk' (K - 1) (K - 1)
  forRange 0 (K - 1) m fun j m => do
    let r ← forRange 0 K (0, m) fun k (s : Nat × Dense T) =>
      if k = i then return s
      else do
        let vj ← getIdx vectors j
        let x ← vecAt vj k
        let m ← s.2.set j s.1 x
        return (s.1 + 1, m)
    return r.2

/-- `Math::normal(vectors)` without the final normalisation, `Normal.h:16-44` -/
def normalRaw (eps : T) (K : Nat) (vectors : List (List T)) : R (List T) := do
  let res ← Vec.fill (List.replicate K (0 : T)) 0
  forRange 0 K res fun i res => do
    let s ← subMatrix K vectors i
    let d ← Operations.determinant (LU.doolittleBase (fun x : T => |x|) eps) s
    vecSet res i (if i % 2 ≠ 0 then -d else d)

/-- `Math::normal(vectors)`, `Normal.h:16-46` -/
def normal (eps : T) (sqrt : T → T) (K : Nat) (vectors : List (List T)) : R (List T) := do
  let r ← normalRaw eps K vectors
  Vec.normalized sqrt r
end Normal

/-- `Simplex<T,2>`, data members `Simplex.h:47-52`.  `FixedVector`/`FixedMatrix` members are lists of two values and
2 x 2 matrices. -/
structure Simplex (T : Type) where
  verts : List (List T)
  prepared : Bool
  mat : Dense T
  inv : Dense T
  det : T

namespace Simplex
variable {T : Type} [Field T] [LinearOrder T]

/-- `Simplex()`, `Simplex.inl:7-13`; members are zero-initialised -/
def default : Simplex T :=
  ⟨[[0, 0], [0, 0], [0, 0]], false, ⟨[0, 0, 0, 0], 2, 2⟩, ⟨[0, 0, 0, 0], 2, 2⟩, 0⟩

/-- `Simplex({..})`, `Simplex.inl:15-27` -/
def ofLists (l : List (List T)) : R (Simplex T) := do
  assert (l.length = 3)
  let r ← forList l (0, (default : Simplex T).verts) fun v (s : Nat × List (List T)) => do
    let x ← Vec.ofListFixed 2 v
    let vs ← setIdx s.2 s.1 x
    return (s.1 + 1, vs)
  return { (default : Simplex T) with verts := r.2 }

/-- `operator[](i) = v`, `Simplex.inl:57-61` -/
def setVertex (s : Simplex T) (i : Nat) (v : List T) : R (Simplex T) := do
  let vs ← setIdx s.verts i v
  return { s with verts := vs }

/-- `prepare()`, `Simplex.inl:29-49` -/
def prepare (eps : T) (s : Simplex T) : R (Simplex T) := do
  let m ← forRange 1 3 s.mat fun i m => do
    let vi ← getIdx s.verts i
    let v0 ← getIdx s.verts 0
    let dist ← Vec.subAssign vi v0
    forRange 0 2 m fun j m => do
      let x ← vecAt dist j
      m.set j (i - 1) x
  let det ← Operations.determinant (LU.doolittleBase (fun x : T => |x|) eps) m
  let a11 ← m.at' 1 1
  let inv ← s.inv.set 0 0 a11
  let a01 ← m.at' 0 1
  let inv ← inv.set 0 1 (-a01)
  let a00 ← m.at' 0 0
  let inv ← inv.set 1 1 a00
  let a10 ← m.at' 1 0
  let inv ← inv.set 1 0 (-a10)
  let f ← fdiv 1 det
  let inv ← inv.scaleAssign f
  return { s with mat := m, det := det, inv := inv, prepared := true }

/-- `volume()`, `Simplex.inl:69-74` -/
def volume (s : Simplex T) : R T := do
  assert (s.prepared = true)
  return |1 / 2 * s.det|

/-- `center()`, `Simplex.inl:76-87` (note: `v / 2 * det`) -/
def center (s : Simplex T) : R (List T) := do
  let v0 ← getIdx s.verts 0
  let v1 ← getIdx s.verts 1
  let v2 ← getIdx s.verts 2
  let a ← Vec.subAssign v1 v0
  let b ← Vec.subAssign v2 v0
  let am ← Vec.magSqr a
  let bm ← Vec.magSqr b
  let a0 ← vecAt a 0
  let a1 ← vecAt a 1
  let b0 ← vecAt b 0
  let b1 ← vecAt b 1
  let v ← Vec.divScalar [b1 * am - a1 * bm, a0 * bm - b0 * am] 2
  Vec.mulScalar v s.det

/-- `outerRadius()`, `Simplex.inl:89-93` -/
def outerRadius (sqrt : T → T) (s : Simplex T) : R T := do
  let c ← s.center
  let v0 ← getIdx s.verts 0
  let d ← Vec.subAssign c v0
  Vec.mag sqrt d

/-- `diameter()`, `Simplex.inl:95-111` -/
def diameter (sqrt : T → T) (s : Simplex T) : R T := do
  let r ← forRange 0 3 0 fun i r => forRange 0 3 r fun j r =>
    if i = j then return r
    else do
      let vi ← getIdx s.verts i
      let vj ← getIdx s.verts j
      let d ← Vec.subAssign vi vj
      let q ← Vec.magSqr d
      return max r q
  return sqrt r

/-- `faceCenter(i)`, `Simplex.inl:113-124` -/
def faceCenter (s : Simplex T) (i : Nat) : R (List T) := do
  let v ← forRange 0 3 [0, 0] fun j v =>
    if j ≠ i then do
      let vj ← getIdx s.verts j
      Vec.addAssign v vj
    else return v
  Vec.divScalar v 2

/-- `faceNormal(i)`, `Simplex.inl:126-150`, for real scalars (`complex_abs` of a real number is the number itself,
`Types.h:78-82`).  `face` is `std::array<.., K>`: writing a third entry is undefined behaviour. -/
def faceNormal (eps : T) (sqrt : T → T) (s : Simplex T) (i : Nat) : R (List T) := do
  let face ← forRange 0 3 (0, ([[0, 0], [0, 0]] : List (List T))) fun j (st : Nat × List (List T)) =>
    if j = i then return st
    else do
      let vj ← getIdx s.verts j
      let f ← setIdx st.2 st.1 vj
      return (st.1 + 1, f)
  let arr ← forRange 0 1 ([[0, 0]] : List (List T)) fun j arr => do
    let f1 ← getIdx face.2 (j + 1)
    let f0 ← getIdx face.2 0
    let d ← Vec.subAssign f1 f0
    setIdx arr j d
  let res ← Normal.normal eps sqrt 2 arr
  let fc ← s.faceCenter i
  let vi ← getIdx s.verts i
  let d ← Vec.subAssign fc vi
  let t ← Vec.dot d res
  if t < 0 then Vec.neg res else return res

/-- `gradient(component)`, `Simplex.inl:152-181` -/
def gradient (s : Simplex T) (c : Nat) : R (List T) := do
  assert (s.prepared = true)
  assert (c < 3)
  let v0 ← getIdx s.verts 0
  let v1 ← getIdx s.verts 1
  let v2 ← getIdx s.verts 2
  let d : List T ← match c with
    | 0 => do
      let a ← vecAt v1 1
      let b ← vecAt v2 1
      let e ← vecAt v2 0
      let f ← vecAt v1 0
      pure [a - b, e - f]
    | 1 => do
      let a ← vecAt v2 1
      let b ← vecAt v0 1
      let e ← vecAt v0 0
      let f ← vecAt v2 0
      pure [a - b, e - f]
    | _ => do
      let a ← vecAt v0 1
      let b ← vecAt v1 1
      let e ← vecAt v1 0
      let f ← vecAt v0 0
      pure [a - b, e - f]
  let q ← fdiv 1 s.det
  Vec.mulScalar d q

/-- `toLocal(global)`, `Simplex.inl:183-188` -/
def toLocal (s : Simplex T) (g : List T) : R (List T) := do
  assert (s.prepared = true)
  let v0 ← getIdx s.verts 0
  let d ← Vec.subAssign g v0
  s.inv.mulVec d

/-- `toGlobal(local)`, `Simplex.inl:190-195` -/
def toGlobal (s : Simplex T) (l : List T) : R (List T) := do
  assert (s.prepared = true)
  let p ← s.mat.mulVec l
  let v0 ← getIdx s.verts 0
  Vec.addAssign p v0

/-- `matrix()`, `inverseMatrix()`, `determinant()`, `Simplex.inl:197-216` -/
def matrix (s : Simplex T) : R (Dense T) := do
  assert (s.prepared = true)
  return s.mat
def inverseMatrix (s : Simplex T) : R (Dense T) := do
  assert (s.prepared = true)
  return s.inv
def determinant (s : Simplex T) : R T := do
  assert (s.prepared = true)
  return s.det
end Simplex
end NS

/-
Model of `/repo/src/lib/Utils.h` (namespace `Math`), `/repo/src/lib/matrix/MatrixConstructor.inl` and
`/repo/src/lib/matrix/MatrixCheck.inl`.

Integers are unsigned machine words of `W` bits (`W = 64` for `Index`/`Dimension`): every operation is reduced modulo
`2^W`.
-/
import Verif.Mat
import Verif.Vec

namespace NS
namespace MathU

/-- `Math::sign_pow(k)`, `Utils.h:26-31`; `%` is the C++ remainder (sign of the dividend). -/
def signPow (k : Int) : Int := if k.tmod 2 = 0 then 1 else -1

/-- `Math::factorial<T>(k)`, `Utils.h:33-38`, for an unsigned `T` of `W` bits. -/
def factorial (W : Nat) : Nat → Nat
  | 0 => 1 % 2 ^ W
  | k + 1 => ((k + 1) * factorial W k) % 2 ^ W

/-- unsigned subtraction modulo `2^W` (the type T of Utils.h:40-59) -/
def subW (W a b : Nat) : Nat := (a + 2 ^ W - b % 2 ^ W) % 2 ^ W

/-- the product loop of `Math::binom`, `Utils.h:51-56` -/
def binomLoop (W n k : Nat) : R Nat :=
  forRange 2 (k + 1) ((subW W n k + 1) % 2 ^ W) fun i v =>
    .ok ((v * ((subW W n k + i) % 2 ^ W)) % 2 ^ W / i)

/-- `Math::binom(n, k)` for unsigned integral `T`, `Utils.h:40-59`.  `fuel` bounds the recursion depth; the recursion
`binom(n, n-k)` is entered at most once for `k <= n`, and never ends otherwise for `n < k` (see
`Verif/Props/Construct.lean`). -/
def binomF (W : Nat) : Nat → Nat → Nat → R Nat
  | 0, _, _ => .error .diverge
  | fuel + 1, n, k =>
      if k = 0 then .ok 1
      else if (2 * k) % 2 ^ W > n then binomF W fuel n (subW W n k)
      else binomLoop W n k

/-- `Math::binom(n, k)` with enough fuel for every terminating call. (Utils.h:40-59) -/
def binom (W n k : Nat) : R Nat := binomF W 3 n k

/-- `Math::binom(n, k)` for non-integral `T`, `Utils.h:61-73` (`double inv = 1.0/(i+1)` in exact arithmetic). -/
def binomReal {T : Type} [Field T] (n : T) (k : Nat) : R T :=
  forRange 0 k 1 fun i v => .ok (v * ((n - (i : T)) * (1 / ((i : T) + 1))))

end MathU

namespace Construct
open MatOps

section
variable {M T : Type} [MatOps M T]

/-- `Construct::eye(d1, d2)` and `Construct::eye<T,K1,K2>()`, `MatrixConstructor.inl:9-28` -/
def eye [One T] (d1 d2 : Nat) : R M := do
  let m ← make d1 d2
  forRange 0 (min d1 d2) m fun i m => put m i i 1

/-- `Construct::diag(v)`, `MatrixConstructor.inl:29-39` -/
def diagOf (v : List T) : R M := do
  let m ← make v.length v.length
  forRange 0 v.length m fun i m => do
    let x ← vecAt v i
    put m i i x

/-- `Construct::diag(m)`, `MatrixConstructor.inl:41-52` -/
def diagVec [Zero T] (m : M) : R (List T) := do
  let v ← Vec.mk' (T := T) (min (rows m) (cols m))
  forRange 0 (min (rows m) (cols m)) v fun i v => do
    let x ← get m i i
    vecSet v i x

/-- `i + k` for a `size_t` `i` and a non-negative `int32` `k` (also `j - k` for negative `k`: `-k` is added modulo
`2^64`) (MatrixConstructor.inl:54-96) -/
def wadd (i k : Nat) : Nat := (i + k) % 2 ^ 64

/-- `Construct::tril(m, k)`, `MatrixConstructor.inl:54-74`.  The condition `j <= i + k && j < columns` of the loop is
the bound `min (i + k + 1) columns`; in `j - k` with `k < 0` the `int32` is converted to `size_t`, which gives
`j + |k|` modulo `2^64`. -/
def tril (m : M) (k : Int) : R M := do
  let r ← make (rows m) (cols m)
  if 0 ≤ k then
    forRange 0 (rows m) r fun i r =>
      forRange 0 (min (wadd i k.natAbs + 1) (cols m)) r fun j r => do
        let x ← get m i j
        put r i j x
  else
    forRange 0 (cols m) r fun j r =>
      forRange (wadd j k.natAbs) (rows m) r fun i r => do
        let x ← get m i j
        put r i j x

/-- `Construct::triu(m, k)`, `MatrixConstructor.inl:76-96` -/
def triu (m : M) (k : Int) : R M := do
  let r ← make (rows m) (cols m)
  if 0 ≤ k then
    forRange 0 (rows m) r fun i r =>
      forRange (wadd i k.natAbs) (cols m) r fun j r => do
        let x ← get m i j
        put r i j x
  else
    forRange 0 (cols m) r fun j r =>
      forRange 0 (min (wadd j k.natAbs + 1) (rows m)) r fun i r => do
        let x ← get m i j
        put r i j x

/-- `Construct::hilbert(d)`, `MatrixConstructor.inl:98-112` (exact division) -/
def hilbert [Field T] (d : Nat) : R M := do
  let m ← make d d
  forRange 0 d m fun i m => forRange 0 d m fun j m => put m i j (1 / ((i : T) + (j : T) + 1))

/-- `Construct::inv_hilbert(d)`, `MatrixConstructor.inl:114-130`; the integer part is computed in `size_t`, modulo
`2^W` with `W = 64`. -/
def invHilbertEntry (W d i j : Nat) : R (Int × Nat) := do
  let v ← MathU.binom W (i + j) i
  let b1 ← MathU.binom W (d + i) (MathU.subW W (MathU.subW W d j) 1)
  let b2 ← MathU.binom W (d + j) (MathU.subW W (MathU.subW W d i) 1)
  return (MathU.signPow ((i + j : Nat) : Int), (i + j + 1) * b1 * b2 * v * v % 2 ^ W)

def invHilbert [Field T] (W d : Nat) : R M := do
  let m ← make d d
  forRange 0 d m fun i m => forRange 0 d m fun j m => do
    let e ← invHilbertEntry W d i j
    put m i j ((e.1 : T) * (e.2 : T))
end
end Construct

namespace Check
open MatOps
variable {M T : Type} [MatOps M T]

/-- `matrixIsOrthogonal`, `MatrixCheck.inl:9-23` -/
def isOrthogonal [One T] (m : M) : R Bool :=
  if rows m ≠ cols m then .ok false
  else do
    let t ← transpose m
    let x ← mul m t
    let e ← Construct.eye (rows m) (cols m)
    eq x e

/-- `matrixIsUnitary`, `MatrixCheck.inl:25-39`; `cj` is the conjugation of the value type. -/
def isUnitary [One T] (cj : T → T) (m : M) : R Bool :=
  if rows m ≠ cols m then .ok false
  else do
    let t ← adjugate cj m
    let x ← mul m t
    let e ← Construct.eye (rows m) (cols m)
    eq x e

/-- `matrixIsProjection`, `MatrixCheck.inl:41-48` -/
def isProjection (m : M) : R Bool :=
  if rows m ≠ cols m then .ok false
  else do
    let x ← mul m m
    eq x m

/-- `matrixIsSymmetric`, `MatrixCheck.inl:50-57` -/
def isSymmetric (m : M) : R Bool :=
  if rows m ≠ cols m then .ok false
  else do
    let t ← transpose m
    eq t m

/-- `matrixIsHermitian`, `MatrixCheck.inl:59-66` -/
def isHermitian (cj : T → T) (m : M) : R Bool :=
  if rows m ≠ cols m then .ok false
  else do
    let t ← adjugate cj m
    eq t m

/-- `matrixIsSkewSymmetric`, `MatrixCheck.inl:68-75` -/
def isSkewSymmetric (m : M) : R Bool :=
  if rows m ≠ cols m then .ok false
  else do
    let t ← transpose m
    let t ← neg t
    eq t m

/-- `matrixIsSkewHermitian`, `MatrixCheck.inl:77-84` -/
def isSkewHermitian (cj : T → T) (m : M) : R Bool :=
  if rows m ≠ cols m then .ok false
  else do
    let t ← adjugate cj m
    let t ← neg t
    eq t m
end Check
end NS

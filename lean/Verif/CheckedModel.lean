/-
Model of the functions that change when `NS_ALLOW_CHECKS` is defined: `cholesky` (`/repo/src/lib/LU.inl:17-20`), `cg` and `pcg`
(`/repo/src/lib/CG.inl:15-18, 69-72`).  The macro is defined by the tests of the project.
-/
import Verif.LUModel
import Verif.CGModel
import Verif.ConstructModel

namespace NS
namespace Checked
open MatOps
variable {M T : Type} [MatOps M T]

/-- `if (!Check::matrixIsHermitian(m)) throw NotHermitianException();`, `LU.inl:18-19`, `CG.inl:16-17`, `CG.inl:70-71`; `cj` is the
conjugation of the value type. -/
def check (cj : T → T) (m : M) : R Unit := do
  let h ← Check.isHermitian cj m
  throwIf (h = false) .notHermitian

/-- `cholesky` with `NS_ALLOW_CHECKS`, `LU.inl:8-46`.  Simplification: after the check the unchecked function is called, which repeats the
two tests of the sizes; both have passed. -/
def cholesky [Zero T] [Add T] [Sub T] [Mul T] [Div T] [DecidableEq T] (cj : T → T) (sqrtAllowed : T → Bool) (nanAllowed : Bool)
    (sqrt : T → T) (m L : M) : R M := do
  throwIf (rows m ≠ cols m) .notSquare
  throwIf (rows m ≠ rows L ∨ cols m ≠ cols L) .invalidOutputMatrix
  check cj m
  LU.cholesky sqrtAllowed nanAllowed sqrt m L

variable [Field T] [LinearOrder T]
/-- `cg` with `NS_ALLOW_CHECKS`, `CG.inl:8-54`, for real numbers; as above the test of the size is repeated. -/
def cg (a : M) (b x0 : List T) (maxIter : Nat) (eps : T) : R (List T × Nat) := do
  throwIf (rows a ≠ cols a) .notSquare
  check id a
  CG.cg a b x0 maxIter eps

/-- `pcg` with `NS_ALLOW_CHECKS`, `CG.inl:56-104`, for real numbers; as above the tests of the sizes are repeated.  The preconditioner is
not checked. -/
def pcg (a : M) (b : List T) (c : M) (x0 : List T) (maxIter : Nat) (eps : T) : R (List T × Nat) := do
  throwIf (rows a ≠ cols a) .notSquare
  throwIf (rows c ≠ cols c) .notSquare
  throwIf (rows a ≠ rows c) .matrixSizeMismatch
  check id a
  CG.pcg a b c x0 maxIter eps
end Checked
end NS

/-
Model of `/repo/src/lib/OutputStream.h`: the stream operators of vectors and matrices.

The result is the text that is written.  `showT` is `operator<<(std::ostream&, T)`.
-/
import Verif.VtkModel
import Verif.Mat

namespace NS.Print
open NS NS.Vtk
variable {T : Type}

/-- `operator<<` for `Vector`, `OutputStream.h:11-19`; the range-`for` reads `linear_at(0)`, …, `linear_at(size()-1)` -/
def vecText (showT : T → Text) (v : List T) : R Text := do
  let out ← forRange 0 v.length (str "[ ") fun i out => do
    let x ← vecAt v i
    return out ++ (showT x ++ sp)
  return out ++ str "]"

/-- `operator<<` for `BaseMatrix`, `OutputStream.h:21-35` -/
def matText {M : Type} [MatOps M T] (showT : T → Text) (m : M) : R Text := do
  let out ← forRange 0 (MatOps.rows m) (str "[ ") fun i out => do
    let out ← forRange 0 (MatOps.cols m) out fun j out => do
      let x ← MatOps.get m i j
      return out ++ (showT x ++ sp)
    return if i ≠ wsub (MatOps.rows m) 1 then out ++ str "| " else out
  return out ++ str "]"

/-- `operator<<` for `SparseMatrix`, `OutputStream.h:37-46` -/
def sparseText [Zero T] [DecidableEq T] (showT : T → Text) (s : Sparse T) : R Text := do
  let l ← s.entries
  return l.foldl (fun out e => out ++ (str "(" ++ showNat e.1 ++ str ", " ++ showNat e.2.1 ++ str "; " ++ showT e.2.2 ++ str ") ")) (str "[ ") ++ str "]"

end NS.Print

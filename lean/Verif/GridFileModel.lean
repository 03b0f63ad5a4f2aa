/-
Model of the data files of `/repo/examples/poisson/fdm.cpp` and `/repo/examples/heat/main.cpp`, and of the reader `/repo/examples/readTimeDataFile.m`.

The result of a writer is the text written to the file; opening, writing and closing are assumed to succeed.  `showT` is `operator<<(std::ostream&, double)` with the
default format (6 significant digits).  Console output, timing and the sparse pattern (`#ifdef`ed out, `fdm.cpp:111-132`, `heat/main.cpp:120-141`) are not modelled.
-/
import Verif.FdmModel
import Verif.VtkModel

namespace NS
open NS.Vtk
variable {T : Type} [Field T] {M : Type} [MatOps M T]

namespace Fdm
/-- `poisson_fdm.dat`, `fdm.cpp:148-158` -/
def dataText {V : Type} (showT : V → Text) (p : Poisson T) (x : List V) : R Text :=
  forRange 0 p.yc [] fun y out => do
    let out ← forRange 0 p.xc out fun xx out => do
      let v ← vecAt x (p.lin xx y)
      return out ++ (showT v ++ sp)
    return out ++ nl

/-- `main`, `fdm.cpp:24-161` -/
def run [LinearOrder T] (showT : Fl T → Text) (p : Poisson T) (weight : T) (maxIter : Nat) (eps : T) : R Text := do
  let r ← solve (M := M) p weight maxIter eps
  dataText showT p r.1
end Fdm

namespace Heat
/-- `heat_data.dat`, `heat/main.cpp:157-177`; `ends` are the texts of `time_end`, `grid_width` and `grid_height` (lines 29-31), `0` is an `int` -/
def dataText {V : Type} (showT : V → Text) (ends : Text × Text × Text) (p : Problem T) (x : List V) : R Text := do
  let out := showNat p.tc ++ sp ++ showNat 0 ++ sp ++ ends.1 ++ nl
  let out := out ++ (showNat p.xc ++ sp ++ showNat 0 ++ sp ++ ends.2.1 ++ nl)
  let out := out ++ (showNat p.yc ++ sp ++ showNat 0 ++ sp ++ ends.2.2 ++ nl)
  let out := out ++ nl
  forRange 0 p.tc out fun t out => do
    let out ← forRange 0 p.yc out fun y out => do
      let out ← forRange 0 p.xc out fun xx out => do
        let v ← vecAt x (p.lin t xx y)
        return out ++ (showT v ++ sp)
      return out ++ nl
    return out ++ nl

/-- `main`, `heat/main.cpp:24-180` -/
def run [LinearOrder T] (showT : Fl T → Text) (ends : Text × Text × Text) (p : Problem T) (weight : T) (maxIter : Nat) (eps : T) : R Text := do
  let r ← solve (M := M) p weight maxIter eps
  dataText showT ends p r.1
end Heat

namespace TimeData
/-- the numbers of a line, `sscanf` in `readTimeDataFile.m:10, 21`, as words -/
def lineWords : Text → Text → List Text
  | [], w => if w = [] then [] else [w]
  | c :: l, w => if c = ' ' then (if w = [] then lineWords l [] else w :: lineWords l []) else lineWords l (w ++ [c])

/-- the lines of the file, as `fgetl` delivers them (`readTimeDataFile.m:9, 18, 20`) -/
def fileLines : Text → Text → List Text
  | [], w => if w = [] then [] else [w]
  | c :: l, w => if c = '\n' then w :: fileLines l [] else fileLines l (w ++ [c])

/-- the first number of a header line as an integer (`%i`), `readTimeDataFile.m:10-11`; digits only -/
def number (w : Text) : Nat := w.foldl (fun n c => n * 10 + (c.toNat - 48)) 0

/-- a header line, `readTimeDataFile.m:9-13`; with fewer than three numbers the access `N(3)` is an error -/
def header : List Text → Option ((Nat × Text × Text) × List Text)
  | [] => none
  | l :: r => match lineWords l [] with
    | a :: b :: c :: _ => some ((number a, b, c), r)
    | _ => none

/-- `M(j,:,i) = row'`, `readTimeDataFile.m:22`: the row must have `width` numbers; a single number is repeated; anything else is an error -/
def assign (width : Nat) (row : List Text) : Option (List Text) :=
  if row.length = width then some row
  else match row with
    | [v] => some (List.replicate width v)
    | _ => none

/-- the loop over `j`, `readTimeDataFile.m:19-23` -/
def readRows (width : Nat) : Nat → List Text → Option (List (List Text) × List Text)
  | 0, ls => some ([], ls)
  | _ + 1, [] => none
  | n + 1, l :: ls => do
    let row ← assign width (lineWords l [])
    let (rows, rest) ← readRows width n ls
    return (row :: rows, rest)

/-- the loop over `i`, `readTimeDataFile.m:17-24`; the line read in line 18 is dropped, at the end of the file `fgetl` returns -1 there, which is dropped too -/
def readSteps (rows width : Nat) : Nat → List Text → Option (List (List (List Text)))
  | 0, _ => some []
  | n + 1, ls => do
    let (m, rest) ← readRows width rows (ls.drop 1)
    let ms ← readSteps rows width n rest
    return m :: ms

/-- `readTimeDataFile`, `readTimeDataFile.m:1-27`: the pages `M(:,:,i)` as lists of rows and the scales -/
def read (t : Text) : Option (List (List (List Text)) × List (Text × Text)) := do
  let (h1, ls) ← header (fileLines t [])
  let (h2, ls) ← header ls
  let (h3, ls) ← header ls
  let m ← readSteps h2.1 h3.1 h1.1 ls
  return (m, [h1.2, h2.2, h3.2])
end TimeData
end NS

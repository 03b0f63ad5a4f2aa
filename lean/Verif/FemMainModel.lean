/-
Model of the whole program `examples/poisson/fem.cpp`: command line, mesh, solver and output files.

Simplifications: exact arithmetic; text on the console and the measurement of time are not modelled; a file that cannot be opened is empty
(for the Triangle loader this is what the program does, `MeshTriangleLoader.inl:8-16`), the Wavefront loader is a parameter; `cond(A)` is only
printed, so a zero divisor in it has no effect; a solver result with infinities or NaN is the outcome `nonfinite`.
-/
import Verif.FemPostModel
import Verif.VtkModel
import Verif.LoaderModel
import Verif.NormModel
import Verif.HyperCubeModel

namespace NS
namespace FemMain
open World

/-! ### Command line -/

/-- the two exceptions of `std::stol` (used at fem.cpp:407-409, 448) -/
inductive StoErr
  | invalidArgument | outOfRange
  deriving DecidableEq, Repr

/-- `std::stol(s)` (used at fem.cpp:407-409, 448): white space, a sign, decimal digits; what follows is ignored; `long` has 64 bits -/
def stol (s : List Char) : Except StoErr Int :=
  match Loader.scanInt s with
  | (neg, ds, _, _) =>
    if ds = [] then .error .invalidArgument
    else
      let v : Int := if neg then -(Loader.digitsVal ds : Int) else Loader.digitsVal ds
      if v < -2 ^ 63 ∨ 2 ^ 63 ≤ v then .error .outOfRange else .ok v

/-- conversion of `long` to `int` or `int32` (fem.cpp:407-409, 448): modulo 2^32 -/
def toInt32 (v : Int) : Int := Int.bmod v (2 ^ 32)

/-- where the mesh comes from, fem.cpp:440-484 -/
inductive Source
  | grid (n : Nat)
  | obj (path : List Char)
  | triangle (node ele : List Char)
  deriving DecidableEq, Repr

/-- `M == 0`, fem.cpp:259, 314, 377 -/
def Source.isGrid : Source → Bool
  | .grid _ => true
  | _ => false

/-- what `main` does after reading its arguments: it returns a code, an exception leaves it, or the calculation starts -/
inductive Start
  | exit (code : Int)
  | uncaught
  | run (solver order : Int) (s : Source)
  deriving DecidableEq, Repr

/-- the additional arguments, fem.cpp:440-484 -/
def source (argv : List (List Char)) (solver order m : Int) : Start :=
  if m = 0 then
    if argv.length ≠ 5 then .exit (-3)
    else match stol (argv.getD 4 []) with
      | .error _ => .uncaught
      | .ok v =>
        if toInt32 v < 1 then .exit (-3)
        else .run solver order (.grid (toInt32 v).toNat)
  else if m = 1 then
    if argv.length ≠ 5 then .exit (-3) else .run solver order (.obj (argv.getD 4 []))
  else
    if argv.length ≠ 6 then .exit (-3) else .run solver order (.triangle (argv.getD 4 []) (argv.getD 5 []))

/-- reading of the arguments, fem.cpp:394-484; `argv` contains the name of the program -/
def parse (argv : List (List Char)) : Start :=
  if argv.length < 4 then .exit (-1)
  else match stol (argv.getD 1 []), stol (argv.getD 2 []), stol (argv.getD 3 []) with
    | .ok a, .ok b, .ok c =>
      let solver := toInt32 a
      let order := toInt32 b
      let m := toInt32 c
      if solver < 0 ∨ 2 < solver then .exit (-4)
      else if order < 1 ∨ 2 < order then .exit (-4)
      else if m < 0 ∨ 2 < m then .exit (-4)
      else source argv solver order m
    | _, _, _ => .exit (-2)

/-! ### The calculation -/

variable {T : Type} [Field T] [LinearOrder T]

/-- constants and functions of the program and of the library (fem.cpp:52-73, 261-262) -/
structure Env (T : Type) where
  sqrt : T → T              -- `std::sqrt`
  big : T                   -- `std::numeric_limits<Number>::max()`
  lo : T                    -- the start value of `max()`, `std::numeric_limits<Number>::min()`
  veps : T                  -- threshold of `validate()`
  eps : T                   -- `EPS`
  jeps : T                  -- threshold of `jacobi()`
  weight : T                -- `RELAX_PAR`
  maxIter : Nat             -- 1024
  tol : T                   -- 1e-4
  factor : T                -- `PostErrorFactor`
  size : T × T              -- `DomainDistance`
  start : T × T             -- `DomainStart`
  src : List T → T          -- `source_function`
  bnd : List T → T          -- `boundary_function`
  sol : List T → T          -- `solution`
  showT : T → Vtk.Text      -- `operator<<` of numbers
  pT : List Char → T × Option Nat   -- `operator>>` of numbers
  content : List Char → List Char   -- contents of a file
  loadObj : List Char → R (World T) -- `MeshObjLoader<Number,2>::loadFile`

/-- the files the program writes, fem.cpp:318-388 -/
structure Files (T : Type) where
  data : List (T × T × T)           -- poisson_fem_data.dat
  mesh : List (Nat × Nat × Nat)     -- poisson_fem_mesh.dat
  a : List (Nat × Nat × T)          -- poisson_fem_A.dat
  b : List T                        -- poisson_fem_B.dat
  exact : List T                    -- poisson_fem_ExactError.dat
  post : List T                     -- poisson_fem_PostError.dat
  vtu : Vtk.Text                    -- poisson_fem.vtu

/-- the finite values of a solver result (fem.cpp:237): infinities and NaN are the outcome `nonfinite` -/
def finite : List (Fl T) → R (List T)
  | [] => .ok []
  | .fin t :: l => do
      let r ← finite l
      return t :: r
  | _ :: _ => .error .nonfinite

/-- the printed value `cond(A)`, fem.cpp:229: a division by zero is printed as infinity or NaN -/
def printed (x : R T) : R Unit :=
  match x with
  | .error .nonfinite => .ok ()
  | .error e => .error e
  | .ok _ => .ok ()

/-- the solvers, fem.cpp:212-246; `ShiftFactor` is 0 -/
def solver (env : Env T) (k : Int) (a : Sparse T) (b : List T) (n : Nat) : R (List T) := do
  let c : Sparse T ← MatOps.make (MatOps.rows a) (MatOps.cols a)
  let c ← (if k = 2 then CG.jacobi (fun x => |x|) env.jeps a c else .ok c : R (Sparse T))
  printed (Operations.cond env.sqrt env.big a)
  let x : List T ← Vec.mk' n
  if k = 0 then do
    let r ← Iterative.sor a (b.map Fl.fin) (x.map Fl.fin) env.weight env.maxIter env.tol
    finite r.1
  else if k = 1 then do
    let r ← CG.cg a b x env.maxIter env.tol
    return r.1
  else do
    let r ← CG.pcg a b c x env.maxIter env.tol
    return r.1

/-- errors and files, fem.cpp:255-388; `grid` is `M == 0`; a `std::map` is ordered by the names; the options are 0x1b, for quadratic elements
also 0x80 -/
def output (env : Env T) (order : Nat) (grid : Bool) (a : Sparse T) (b x : List T) (w : World T) : R (Files T) := do
  let ee ← (if grid then Fem.exactError env.sol x w else Vec.mk' w.vertices.length : R (List T))
  let pe ← Fem.postError env.sqrt env.factor order env.src x w
  let data ← Fem.dataRows x w
  let mesh ← Fem.meshRows w
  let l ← a.entriesNC
  let vtu ← Vtk.write env.showT w (if grid then [("ExactError".toList, ee), ("Results".toList, x)] else [("Results".toList, x)])
    [("PostError".toList, pe)] (if order = 2 then 0x9b else 0x1b)
  return ⟨data, mesh, l.map fun e => (e.1 + 1, e.2.1 + 1, e.2.2), b, ee, pe, vtu⟩

/-- `handleMesh<Order>(mesh, M, Solver)`, fem.cpp:75-389 -/
def handle (env : Env T) (order : Nat) (k : Int) (grid : Bool) (w : World T) : R (Files T) := do
  let w ← Shape.prepareMesh order w
  let st : Sparse T × List T ← Fem.system env.eps order env.src env.bnd w
  let x ← solver env k st.1 st.2 w.vertices.length
  output env order grid st.1 st.2 x w

/-- the mesh, fem.cpp:440-484 -/
def load (env : Env T) : Source → R (World T)
  | .grid n => HyperCube.generate n n env.size env.start
  | .obj p => do
      let w ← env.loadObj p
      w.setupBoundaries
  | .triangle p q => do
      let w ← Loader.loadString env.pT (env.content p) (env.content q)
      w.setupBoundaries

/-- how the program ends: a code without a calculation, an exception that nothing catches (`std::terminate`), the files and code 0, or another
fault (failed assertion, undefined behaviour, no end, infinities or NaN) -/
inductive End (T : Type)
  | exit (code : Int)
  | uncaught
  | finished (f : Files T)
  | fault (e : Err)

/-- the end of the part of `main` that has no handler, fem.cpp:440-492, 503-510 -/
def ends {α : Type} (x : R α) (k : α → End T) : End T :=
  match x with
  | .ok a => k a
  | .error (.exc _) => .uncaught
  | .error e => .fault e

/-- `main(argc, argv)`, fem.cpp:394-511 -/
def main (env : Env T) (argv : List (List Char)) : End T :=
  match parse argv with
  | .exit c => .exit c
  | .uncaught => .uncaught
  | .run k order s =>
    ends (load env s) fun w =>
    ends (w.prepare 0) fun w =>
    match validate env.veps w with
    | .error (.exc _) => .exit (-1)
    | .error e => .fault e
    | .ok _ => ends (handle env order.toNat k s.isGrid w) .finished

end FemMain
end NS

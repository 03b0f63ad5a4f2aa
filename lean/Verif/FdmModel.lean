/-
Model of the finite difference examples `/repo/examples/poisson/fdm.cpp` and `/repo/examples/heat/main.cpp` with
`BOUNDARY_MODE` 0 (Dirichlet): assembling of the system and the call of the solver.  The data files are modelled in `GridFileModel.lean`.

The grid sizes (`XC`, `YC`, `TC`), the mesh widths and the functions are parameters; in the programs they are compile-time
constants (`XC` is the truncated value of `grid_width / H + 1`).
-/
import Verif.Mat
import Verif.IterativeModel
import Verif.CxIterativeModel

namespace NS
namespace Fdm
open MatOps
variable {T : Type} [Zero T] [One T] [Add T] [Mul T] [Div T] [Neg T] [NatCast T] [OfNat T 2] {M : Type} [MatOps M T]

/-- the constants and functions of `fdm.cpp:29-43` -/
structure Poisson (T : Type) where
  /-- `XC` and `YC`, lines 41-42 -/
  xc : Nat
  yc : Nat
  /-- `H` and `K`, lines 32-33 -/
  h : T
  k : T
  /-- source and boundary function, lines 36, 38 -/
  f : T → T → T
  b : T → T → T

/-- `LIN(x,y)`, `fdm.cpp:23` -/
def Poisson.lin (p : Poisson T) (x y : Nat) : Nat := y * p.xc + x

/-- `R2 = K2 / H2`, `fdm.cpp:48-50` -/
def Poisson.r2 (p : Poisson T) : T := p.k * p.k / (p.h * p.h)

/-- `C`, `fdm.cpp:51` -/
def Poisson.c (p : Poisson T) : T := -2 * (1 + p.r2)

/-- lower and upper boundary, body of the loop `fdm.cpp:60-74` (`YC > 0` here, so `YC - 1` does not wrap) -/
def rimX (p : Poisson T) (x : Nat) (st : M × List T) : R (M × List T) := do
  let a ← put st.1 (p.lin x 0) (p.lin x 0) 1
  let a ← put a (p.lin x (p.yc - 1)) (p.lin x (p.yc - 1)) 1
  let b ← vecSet st.2 (p.lin x 0) (p.b (x * p.h) 0)
  let b ← vecSet b (p.lin x (p.yc - 1)) (p.b (x * p.h) ((p.yc - 1 : Nat) * p.k))
  return (a, b)

/-- left and right boundary, body of the loop `fdm.cpp:76-90` -/
def rimY (p : Poisson T) (y : Nat) (st : M × List T) : R (M × List T) := do
  let a ← put st.1 (p.lin 0 y) (p.lin 0 y) 1
  let a ← put a (p.lin (p.xc - 1) y) (p.lin (p.xc - 1) y) 1
  let b ← vecSet st.2 (p.lin 0 y) (p.b 0 (y * p.k))
  let b ← vecSet b (p.lin (p.xc - 1) y) (p.b ((p.xc - 1 : Nat) * p.h) (y * p.k))
  return (a, b)

/-- interior point, `fdm.cpp:101-106` -/
def inner (p : Poisson T) (x y : Nat) (st : M × List T) : R (M × List T) := do
  let a ← put st.1 (p.lin x y) (p.lin (x - 1) y) p.r2
  let a ← put a (p.lin x y) (p.lin x y) p.c
  let a ← put a (p.lin x y) (p.lin (x + 1) y) p.r2
  let a ← put a (p.lin x y) (p.lin x (y - 1)) 1
  let a ← put a (p.lin x y) (p.lin x (y + 1)) 1
  let b ← vecSet st.2 (p.lin x y) (p.k * p.k * p.f (x * p.h) (y * p.k))
  return (a, b)

/-- the assembled system, `fdm.cpp:43, 55-108` -/
def system (p : Poisson T) : R (M × List T) := do
  let a ← make (p.xc * p.yc) (p.xc * p.yc)
  let b := Vec.resize [] (p.xc * p.yc)
  let st ← forRange 0 p.xc (a, b) (rimX p)
  let st ← forRange 0 p.yc st (rimY p)
  forRange 1 (p.yc - 1) st fun y st => forRange 1 (p.xc - 1) st fun x st => inner p x y st

/-- the call of the solver, `fdm.cpp:137-142`; `weight` is `RELAX_PAR` = 1.2, `maxIter` 1024, `eps` 1e-4 -/
def solve {T : Type} [Field T] [LinearOrder T] {M : Type} [MatOps M T] (p : Poisson T) (weight : T) (maxIter : Nat) (eps : T) : R (List (Fl T) × Nat) := do
  let st : M × List T ← system p
  let x : List T := Vec.resize [] (p.xc * p.yc)
  Iterative.sor st.1 (st.2.map Fl.fin) (x.map Fl.fin) weight maxIter eps

/-- the same call (`fdm.cpp:137-142`) for a type of floating-point numbers, with the model `CxIterative.sor` of the solver (in `Iterative.sor` infinities and NaN are separate values,
here a division by zero is the outcome `nonfinite`); `cabs` is `std::abs` -/
def solveFl [Sub T] [DecidableEq T] [LE T] [DecidableLE T] (cabs : T → T) (p : Poisson T) (weight : T) (maxIter : Nat) (eps : T) : R (List T × Nat) := do
  let st : M × List T ← system p
  CxIterative.sor cabs st.1 st.2 (Vec.resize [] (p.xc * p.yc)) weight maxIter eps
end Fdm

namespace Heat
open MatOps
variable {T : Type} [Zero T] [One T] [Add T] [Mul T] [Div T] [Neg T] [NatCast T] [OfNat T 2] {M : Type} [MatOps M T]

/-- the constants and functions of `heat/main.cpp:33-54` -/
structure Problem (T : Type) where
  /-- `TC`, `XC` and `YC`, lines 43-45 -/
  tc : Nat
  xc : Nat
  yc : Nat
  /-- `HT`, `HX` and `HY`, lines 33-35 -/
  ht : T
  hx : T
  hy : T
  /-- conductivity, source, boundary and initial function, lines 37-40 -/
  k : T → T → T → T
  f : T → T → T → T
  b : T → T → T → T
  t0 : T → T → T

/-- `LIN(t,x,y)`, `heat/main.cpp:23` -/
def Problem.lin (p : Problem T) (t x y : Nat) : Nat := t * p.yc * p.xc + y * p.xc + x

/-- `D`, `heat/main.cpp:46` -/
def Problem.d (p : Problem T) : Nat := p.tc * p.xc * p.yc

/-- one grid point, body of the loops `heat/main.cpp:79-112` (in the `else` branch no index subtraction wraps) -/
def point (p : Problem T) (t y x : Nat) (st : M × List T) : R (M × List T) := do
  let ft : T := t * p.ht
  let fx : T := x * p.hx
  let fy : T := y * p.hy
  let ihx2 := 1 / (p.hx * p.hx)
  let ihy2 := 1 / (p.hy * p.hy)
  let iht := 1 / p.ht
  let c := 2 * (ihx2 + ihy2)
  let mid := p.lin t x y
  if t = 0 ∨ y = 0 ∨ x = 0 ∨ y = p.yc - 1 ∨ x = p.xc - 1 then do
    let a ← put st.1 mid mid 1
    let b ← if t ≠ 0 then vecSet st.2 mid (p.b ft fx fy) else vecSet st.2 mid (p.t0 fx fy)
    return (a, b)
  else do
    let kf := p.k ft fx fy
    let a ← put st.1 mid (p.lin (t - 1) x y) (-iht)
    let a ← put a mid (p.lin t x (y - 1)) (-ihy2 * kf)
    let a ← put a mid (p.lin t (x - 1) y) (-ihx2 * kf)
    let a ← put a mid mid (c * kf + iht)
    let a ← put a mid (p.lin t (x + 1) y) (-ihx2 * kf)
    let a ← put a mid (p.lin t x (y + 1)) (-ihy2 * kf)
    let b ← vecSet st.2 mid (p.f ft fx fy)
    return (a, b)

/-- the assembled system, `heat/main.cpp:66-117`; the capacity hint `expected` (line 62) has no effect on the matrix -/
def system (p : Problem T) : R (M × List T) := do
  let a ← make p.d p.d
  let b := Vec.resize [] p.d
  forRange 0 p.tc (a, b) fun t st => forRange 0 p.yc st fun y st => forRange 0 p.xc st fun x st => point p t y x st

/-- the call of the solver, `heat/main.cpp:146-151`; `weight` is `RELAX_PAR` = 1.2, `maxIter` 1024, `eps` 1e-4 -/
def solve {T : Type} [Field T] [LinearOrder T] {M : Type} [MatOps M T] (p : Problem T) (weight : T) (maxIter : Nat) (eps : T) : R (List (Fl T) × Nat) := do
  let st : M × List T ← system p
  let x : List T := Vec.resize [] p.d
  Iterative.sor st.1 (st.2.map Fl.fin) (x.map Fl.fin) weight maxIter eps

/-- the same call (`heat/main.cpp:146-151`) for a type of floating-point numbers (as `Fdm.solveFl`) -/
def solveFl [Sub T] [DecidableEq T] [LE T] [DecidableLE T] (cabs : T → T) (p : Problem T) (weight : T) (maxIter : Nat) (eps : T) : R (List T × Nat) := do
  let st : M × List T ← system p
  CxIterative.sor cabs st.1 st.2 (Vec.resize [] p.d) weight maxIter eps
end Heat
end NS

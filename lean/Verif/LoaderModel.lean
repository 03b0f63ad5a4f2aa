/-
Model of `loader/MeshTriangleLoader.inl`: reading Triangle's .node and .ele files.

Simplifications: a file is its list of characters (reading the file is not modelled); `isspace` is the one of the "C"
locale, for ASCII characters; a string iterator is a position (an `Int`, since the code can move it before the beginning),
and only using such an iterator, not computing it, is undefined behaviour; `reserveVertices` has no effect;
`operator>>` for `T` (float, double) is a parameter `pT` that returns the value and the number of characters consumed, or
`none` if the stream is not good afterwards.
-/
import Verif.MeshModel

namespace NS
namespace Loader
open World

/-- `isspace` in the "C" locale (used at MeshTriangleLoader.inl:164-180) -/
def isSpace (c : Char) : Bool :=
  c = ' ' || c = '\t' || c = '\n' || c = '\x0b' || c = '\x0c' || c = '\r'

/-- how far `skipWS` moves an iterator at the beginning of the given characters, `MeshTriangleLoader.inl:164-180` -/
def skipLen : List Char → Nat
  | [] => 0
  | c :: cs => if c = '#' then cs.length + 1 else if isSpace c = false then 0 else skipLen cs + 1

/-- `skipWS(it, line.end())`, `MeshTriangleLoader.inl:164-180`; dereferencing an iterator before the beginning is undefined
behaviour -/
def skipWS (line : List Char) (pos : Int) : R Int :=
  if pos < 0 then .error .ub else .ok (pos + skipLen (line.drop pos.toNat))

/-- `extractFirstNumber<T2>(start, end)`, `MeshTriangleLoader.inl:182-193`: `tellg()` is -1 unless the stream is good, so
that the iterator is moved back by one when the number is the last thing in the line -/
def extract {α : Type} (parse : List Char → α × Option Nat) (line : List Char) (pos : Int) : R (α × Int) :=
  if pos < 0 then .error .ub
  else
    let r := parse (line.drop pos.toNat)
    .ok (r.1, match r.2 with
      | some n => pos + n
      | none => pos - 1)

def isDigit (c : Char) : Bool := '0'.toNat ≤ c.toNat && c.toNat ≤ '9'.toNat

/-- decimal value of a digit string (`operator>>` at MeshTriangleLoader.inl:182-193) -/
def digitsVal (ds : List Char) : Nat := ds.foldl (fun n c => n * 10 + (c.toNat - '0'.toNat)) 0

/-- an optional sign: is it a minus, and its length (`operator>>` at MeshTriangleLoader.inl:182-193) -/
def sign (s : List Char) : Bool × Nat :=
  match s with
  | '-' :: _ => (true, 1)
  | '+' :: _ => (false, 1)
  | _ => (false, 0)

/-- an optional sign and decimal digits after white space: negative?, digits, number of characters read, and whether the end
was reached (`operator>>` at MeshTriangleLoader.inl:182-193) -/
def scanInt (s : List Char) : Bool × List Char × Nat × Bool :=
  let ws := s.takeWhile isSpace
  let s1 := s.drop ws.length
  let sg := sign s1
  let s2 := s1.drop sg.2
  let ds := s2.takeWhile isDigit
  (sg.1, ds, ws.length + sg.2 + ds.length, decide (s2.length = ds.length))

/-- `stream >> ret` for `size_t`: no digits give 0 and a failed stream, too many the maximum and a failed stream; a negative
number is taken modulo 2^64; at the end of the input the stream has `eofbit` (`operator>>` at MeshTriangleLoader.inl:182-193) -/
def parseU (s : List Char) : Nat × Option Nat :=
  match scanInt s with
  | (neg, ds, n, atEnd) =>
    if ds = [] then (0, none)
    else if 2 ^ 64 ≤ digitsVal ds then (2 ^ 64 - 1, none)
    else (if neg then (2 ^ 64 - digitsVal ds) % 2 ^ 64 else digitsVal ds, if atEnd then none else some n)

/-- `stream >> ret` for `int` (32 bits) (`operator>>` at MeshTriangleLoader.inl:182-193) -/
def parseI (s : List Char) : Int × Option Nat :=
  match scanInt s with
  | (neg, ds, n, atEnd) =>
    if ds = [] then (0, none)
    else
      let v : Int := if neg then -(digitsVal ds : Int) else digitsVal ds
      if v < -2 ^ 31 then (-2 ^ 31, none)
      else if 2 ^ 31 ≤ v then (2 ^ 31 - 1, none)
      else (v, if atEnd then none else some n)

/-- repeated `std::getline` (MeshTriangleLoader.inl:37-39, 99-101) -/
def linesAux : List Char → List Char → List (List Char)
  | [], cur => if cur = [] then [] else [cur.reverse]
  | c :: cs, cur => if c = '\n' then cur.reverse :: linesAux cs [] else linesAux cs (c :: cur)

/-- the lines of a text, `MeshTriangleLoader.inl:37-39, 99-101` -/
def lines (s : List Char) : List (List Char) := linesAux s []

/-- local variables of `setupNode` and `setupElement`, `MeshTriangleLoader.inl:33-35, 95-97`, and the mesh -/
structure St (T : Type) where
  header : Bool
  shift : Nat
  next : Nat
  w : World T

variable {T : Type} [Field T] [LinearOrder T]

/-- the first line of a file, `MeshTriangleLoader.inl:47-61` and `109-123`; `d` is the required second number -/
def headerLine (e : Exc) (d : Int) (line : List Char) (pos : Int) : R Unit := do
  let n ← extract parseU line pos
  throwIf (n.1 = 0) e
  let p ← skipWS line n.2
  if p = line.length then throwE e
  else do
    let r ← extract parseI line p
    throwIf (r.1 ≠ d) e

/-- `index`, `indexShift`, `nextIndex` and the first check, `MeshTriangleLoader.inl:64-70` and `126-132` -/
def indexField (line : List Char) (pos : Int) (st : St T) : R (St T × Int) := do
  let i ← extract parseU line pos
  let shift := if i.1 = 0 then 0 else st.shift
  throwIf (wsub i.1 shift ≠ st.next) .loadTriangleNodeError
  return ({ st with shift := shift, next := wsub i.1 shift + 1 }, i.2)

/-- `skipWS(it, line.end()); if(it == line.end()) throw LoadTriangleNodeErrorException();` and the extraction of a number,
`MeshTriangleLoader.inl:72-82`, `134-150` -/
def field {α : Type} (parse : List Char → α × Option Nat) (line : List Char) (pos : Int) : R (α × Int) := do
  let p ← skipWS line pos
  throwIf (p = line.length) .loadTriangleNodeError
  extract parse line p

/-- the loop body of `setupNode`, `MeshTriangleLoader.inl:41-88` -/
def nodeLine (pT : List Char → T × Option Nat) (line : List Char) (st : St T) : R (St T) := do
  let p ← skipWS line 0
  if p = line.length then return st
  else if st.header = false then do
    headerLine .loadTriangleNodeError 2 line p
    return { st with header := true }
  else do
    let s ← indexField line p st
    let e1 ← field pT line s.2
    let e2 ← field pT line e1.2
    let r := s.1.w.newVertex [e1.1, e2.1]
    let w ← r.1.addVertex (some r.2)
    return { s.1 with w := w }

/-- `setupNode(mesh, nodeStr)`, `MeshTriangleLoader.inl:30-90` -/
def setupNode (pT : List Char → T × Option Nat) (text : List Char) (w : World T) : R (World T) := do
  let st ← forList (lines text) ⟨false, 1, 0, w⟩ (nodeLine pT)
  return st.w

/-- the loop body of `setupElement`, `MeshTriangleLoader.inl:103-160`; `mesh.vertex(i)` is an unchecked access -/
def elementLine (line : List Char) (st : St T) : R (St T) := do
  let p ← skipWS line 0
  if p = line.length then return st
  else if st.header = false then do
    headerLine .loadTriangleElementError 3 line p
    return { st with header := true }
  else do
    let s ← indexField line p st
    let i1 ← field parseU line s.2
    let i2 ← field parseU line i1.2
    let i3 ← field parseU line i2.2
    let v1 ← getIdx s.1.w.vertices (wsub i1.1 s.1.shift)
    let v2 ← getIdx s.1.w.vertices (wsub i2.1 s.1.shift)
    let v3 ← getIdx s.1.w.vertices (wsub i3.1 s.1.shift)
    let r := s.1.w.newElement [some v1, some v2, some v3]
    let w ← r.1.addElement (some r.2)
    return { s.1 with w := w }

/-- `setupElement(mesh, eleStr)`, `MeshTriangleLoader.inl:92-162` -/
def setupElement (text : List Char) (w : World T) : R (World T) := do
  let st ← forList (lines text) ⟨false, 1, 0, w⟩ elementLine
  return st.w

/-- `loadString(nodeStr, eleStr)`, `MeshTriangleLoader.inl:18-28` -/
def loadString (pT : List Char → T × Option Nat) (node ele : List Char) : R (World T) := do
  let w ← setupNode pT node World.empty
  let w ← setupElement ele w
  w.setupNeighbors

end Loader
end NS

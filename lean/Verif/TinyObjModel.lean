/-
Model of the OBJ parser `/repo/src/objloader/external/tiny_obj_loader.h` as `MeshObjLoader` uses it: `LoadObj` on a stream with
`flags = 1` (polygons are split into triangles, normals are not calculated), and `MeshObjLoader::loadString`.

A pointer into a line is the list of the characters from there to the end of the buffer, which ends with the terminating `NUL`
(`linebuf.c_str()`); moving or reading beyond the buffer is undefined behaviour.  `int` overflow is undefined behaviour.

Simplifications: exact arithmetic, the conversion from `double` to `float` is the parameter `cast`; reading a material file is
the parameter `readMtl` (`MaterialFileReader::operator()`, tiny_obj_loader.h:939-960, always returns true; modelled in
`Verif/MtlModel.lean`); names of shapes, tags,
`num_vertices` and `material_ids`, which the mesh loader does not use, are not stored; messages (`err`) are not modelled; fewer
than 2^32 vertices.
-/
import Verif.ObjLoaderModel
import Mathlib.Algebra.Order.Field.Basic

namespace NS.TinyObj
open NS
variable {T : Type} [Field T]

/-- `const char *`: the characters from the pointer to the end of the buffer -/
abbrev Ptr := List Char

/-- the end of a C string -/
abbrev nul : Char := Char.ofNat 0

/-- `token += n` -/
def adv (p : Ptr) (n : Nat) : R Ptr := if n ≤ p.length then .ok (p.drop n) else .error .ub

/-- the range of `int` -/
def inInt (v : Int) : R Int := if -2147483648 ≤ v ∧ v ≤ 2147483647 then .ok v else .error .ub

/-- `strspn(token, set)` (used in tiny_obj_loader.h:321, 329, 467, 1020, ...) -/
def strspn (set : List Char) : Ptr → R Nat
  | [] => .error .ub
  | c :: p => if c ∈ set then do let n ← strspn set p; return n + 1 else return 0

/-- `strcspn(token, set)` (used in tiny_obj_loader.h:322, 331, 472, 521, ...) -/
def strcspn (set : List Char) : Ptr → R Nat
  | [] => .error .ub
  | c :: p => if c = nul ∨ c ∈ set then return 0 else do let n ← strcspn set p; return n + 1

/-- the sets of characters of the calls: `" \t"`, `" \t\r"` and `"/ \t\r"` -/
def blanks : List Char := [' ', '\t']
/-- `" \t\r"` (tiny_obj_loader.h:322, 472, 1078) -/
def blanksCr : List Char := [' ', '\t', '\r']
/-- `"/ \t\r"` (tiny_obj_loader.h:521) -/
def blanksSlash : List Char := ['/', ' ', '\t', '\r']

/-- `IS_DIGIT`, tiny_obj_loader.h:307 -/
def isDigit (c : Char) : Bool := '0'.toNat ≤ c.toNat && c.toNat ≤ '9'.toNat
/-- `*curr - 0x30`, tiny_obj_loader.h:401, 418, 447 -/
def digit (c : Char) : Nat := c.toNat - '0'.toNat
/-- `IS_SPACE`, tiny_obj_loader.h:306 -/
def isBlank (c : Char) : Bool := c == ' ' || c == '\t'
/-- `IS_NEW_LINE`, tiny_obj_loader.h:308 -/
def isNewLine (c : Char) : Bool := c == '\r' || c == '\n' || c == nul
/-- `isspace` of the C locale, used by `atoi` and `sscanf` -/
def isCSpace (c : Char) : Bool := c == ' ' || c == '\t' || c == '\n' || c == Char.ofNat 11 || c == Char.ofNat 12 || c == '\r'

/-- leading white space of `atoi` and `sscanf("%s")` -/
def skipSpace : Ptr → R Ptr
  | [] => .error .ub
  | c :: p => if isCSpace c then skipSpace p else .ok (c :: p)

/-- the digits of `atoi` -/
def atoiDigits (acc : Nat) : Ptr → R Nat
  | [] => .error .ub
  | c :: p => if isDigit c then atoiDigits (acc * 10 + digit c) p else .ok acc

/-- `atoi(token)` (tiny_obj_loader.h:330, 496, 520): undefined behaviour if the value is no `int` -/
def atoi (p : Ptr) : R Int := do
  let p ← skipSpace p
  let c ← getIdx p 0
  if c = '-' then do
    let n ← atoiDigits 0 (p.drop 1)
    inInt (-(n : Int))
  else if c = '+' then do
    let n ← atoiDigits 0 (p.drop 1)
    inInt n
  else do
    let n ← atoiDigits 0 p
    inInt n

/-- `fixIndex(idx, n)`, tiny_obj_loader.h:311-317 -/
def fixIndex (idx n : Int) : R Int :=
  if 0 < idx then .ok (idx - 1) else if idx = 0 then .ok 0 else inInt (n + idx)

/-- `parseString(token)`, tiny_obj_loader.h:319-326; the string and the new pointer -/
def parseString (p : Ptr) : R (List Char × Ptr) := do
  let n ← strspn blanks p
  let p ← adv p n
  let e ← strcspn blanksCr p
  let p' ← adv p e
  return (p.take e, p')

/-! ### `tryParseDouble` -/

/-- the loop of the integer part, tiny_obj_loader.h:399-404; `k` is `s_end - curr`.  Result: mantissa, `s_end - curr`, `curr`, `read` -/
def intLoop : Nat → Ptr → T → Nat → R (T × Nat × Ptr × Nat)
  | 0, p, m, r => .ok (m, 0, p, r)
  | k + 1, p, m, r => do
      let c ← getIdx p 0
      if isDigit c then intLoop k (p.drop 1) (m * 10 + (digit c : T)) (r + 1) else return (m, k + 1, p, r)

/-- the loop of the decimal part, tiny_obj_loader.h:416-421; `pow(10.0, -read)` is exact -/
def fracLoop : Nat → Ptr → T → Nat → R (T × Nat × Ptr)
  | 0, p, m, _ => .ok (m, 0, p)
  | k + 1, p, m, r => do
      let c ← getIdx p 0
      if isDigit c then fracLoop k (p.drop 1) (m + (digit c : T) * ((10 : T) ^ r)⁻¹) (r + 1) else return (m, k + 1, p)

/-- the loop of the exponent, tiny_obj_loader.h:445-450; result: exponent and `read` -/
def expLoop : Nat → Ptr → Int → Nat → R (Int × Nat)
  | 0, _, e, r => .ok (e, r)
  | k + 1, p, e, r => do
      let c ← getIdx p 0
      if isDigit c then do
        let e ← inInt (e * 10)
        let e ← inInt (e + digit c)
        expLoop k (p.drop 1) e (r + 1)
      else return (e, r)

/-- `assemble:`, tiny_obj_loader.h:457-459; `ldexp(x, e)` is `x * 2^e` -/
def assemble (neg : Bool) (m : T) (e : Int) : T :=
  (if neg then -1 else 1) * (m * (5 : T) ^ e * (2 : T) ^ e)

/-- the exponent, tiny_obj_loader.h:431-455; `none` is `fail` -/
def expPart (neg : Bool) (m : T) (k : Nat) (p : Ptr) : R (Option T) := do
  let c ← getIdx p 0
  if c = 'e' ∨ c = 'E' then do
    let p := p.drop 1
    let k := k - 1
    let c ← getIdx p 0
    if k ≠ 0 ∧ (c = '+' ∨ c = '-') then do
      let (e, r) ← expLoop (k - 1) (p.drop 1) 0 0
      if r = 0 then return none else return some (assemble neg m (if c = '-' then -e else e))
    else if isDigit c then do
      let (e, r) ← expLoop k p 0 0
      if r = 0 then return none else return some (assemble neg m e)
    else return none
  else return some (assemble neg m 0)

/-- from the integer part on, tiny_obj_loader.h:398-456 -/
def numberPart (neg : Bool) (k : Nat) (p : Ptr) : R (Option T) := do
  let (m, k, p, r) ← intLoop k p (0 : T) 0
  if r = 0 then return none
  else if k = 0 then return some (assemble neg m 0)
  else do
    let c ← getIdx p 0
    if c = '.' then do
      let (m, k, p) ← fracLoop (k - 1) (p.drop 1) m 1
      if k = 0 then return some (assemble neg m 0) else expPart neg m k p
    else if c = 'e' ∨ c = 'E' then expPart neg m k p
    else return some (assemble neg m 0)

/-- `tryParseDouble(s, s + n, result)`, tiny_obj_loader.h:362-463; `none` is the return value `false` -/
def tryParseDouble (p : Ptr) (n : Nat) : R (Option T) :=
  if n = 0 then .ok none
  else do
    let c ← getIdx p 0
    if c = '+' ∨ c = '-' then numberPart (decide (c = '-')) (n - 1) (p.drop 1)
    else if isDigit c then numberPart false n p
    else return none

/-- `parseFloat(token)`, tiny_obj_loader.h:465-479 -/
def parseFloat (cast : T → T) (p : Ptr) : R (T × Ptr) := do
  let n ← strspn blanks p
  let p ← adv p n
  let e ← strcspn blanksCr p
  let v ← tryParseDouble p e
  let p' ← adv p e
  return (cast (v.getD 0), p')

/-! ### Lines -/

/-- `vertex_index`, tiny_obj_loader.h:239-245 -/
structure VIdx where
  v : Int
  vt : Int
  vn : Int
  deriving DecidableEq, Repr

/-- `parseTriple(token, vsize, vnsize, vtsize)`, tiny_obj_loader.h:516-548 -/
def parseTriple (p : Ptr) (vs vns vts : Nat) : R (VIdx × Ptr) := do
  let a ← atoi p
  let v ← fixIndex a vs
  let n ← strcspn blanksSlash p
  let p ← adv p n
  let c ← getIdx p 0
  if c ≠ '/' then return (⟨v, -1, -1⟩, p)
  else do
    let p ← adv p 1
    let c ← getIdx p 0
    if c = '/' then do
      let p ← adv p 1
      let a ← atoi p
      let vn ← fixIndex a vns
      let n ← strcspn blanksSlash p
      let p ← adv p n
      return (⟨v, -1, vn⟩, p)
    else do
      let a ← atoi p
      let vt ← fixIndex a vts
      let n ← strcspn blanksSlash p
      let p ← adv p n
      let c ← getIdx p 0
      if c ≠ '/' then return (⟨v, vt, -1⟩, p)
      else do
        let p ← adv p 1
        let a ← atoi p
        let vn ← fixIndex a vns
        let n ← strcspn blanksSlash p
        let p ← adv p n
        return (⟨v, vt, vn⟩, p)

/-- the loop over the corners of a face, tiny_obj_loader.h:1072-1079 -/
def faceLoop (vs vns vts : Nat) : Nat → Ptr → List VIdx → R (List VIdx)
  | 0, _, _ => .error .diverge
  | n + 1, p, face => do
      let c ← getIdx p 0
      if isNewLine c then return face
      else do
        let (vi, p) ← parseTriple p vs vns vts
        let k ← strspn blanksCr p
        let p ← adv p k
        faceLoop vs vns vts n p (face ++ [vi])

/-- the output of one face group, the members of `shape.mesh` that are used and those needed to compute them -/
structure ShapeS (T : Type) where
  positions : List T
  normals : List T
  texcoords : List T
  indices : List Nat
  deriving DecidableEq, Repr

/-- `shape_t()` -/
def ShapeS.empty : ShapeS T := ⟨[], [], [], []⟩

/-- `vertexCache.find(i)`; two keys are equivalent for `operator<` (tiny_obj_loader.h:255-264) iff they are equal -/
def findCache (i : VIdx) : List (VIdx × Nat) → Option Nat
  | [] => none
  | (k, n) :: l => if k = i then some n else findCache i l

/-- `static_cast<unsigned int>(x)` of an `int` -/
def toUnsigned (x : Int) : Nat := (x % 4294967296).toNat

/-- `updateVertex`, tiny_obj_loader.h:550-587 -/
def updateVertex (v vn vt : List T) (st : List (VIdx × Nat) × ShapeS T) (i : VIdx) : R ((List (VIdx × Nat) × ShapeS T) × Nat) :=
  match findCache i st.1 with
  | some n => .ok (st, n)
  | none => do
    let a ← inInt (3 * i.v)
    let a ← inInt (a + 2)
    assert (toUnsigned a < v.length)
    if i.v < 0 then .error .ub
    else do
      let x ← getIdx v (3 * i.v.toNat + 0)
      let y ← getIdx v (3 * i.v.toNat + 1)
      let z ← getIdx v (3 * i.v.toNat + 2)
      let pos := st.2.positions ++ [x, y, z]
      let nor ← (if 0 ≤ i.vn then do
          let a ← inInt (i.vn * 3)
          let a ← inInt (a + 2)
          if a.toNat < vn.length then do
            let x ← getIdx vn (3 * i.vn.toNat + 0)
            let y ← getIdx vn (3 * i.vn.toNat + 1)
            let z ← getIdx vn (3 * i.vn.toNat + 2)
            return st.2.normals ++ [x, y, z]
          else return st.2.normals
        else return st.2.normals)
      let tex ← (if 0 ≤ i.vt then do
          let a ← inInt (i.vt * 2)
          let a ← inInt (a + 1)
          if a.toNat < vt.length then do
            let x ← getIdx vt (2 * i.vt.toNat + 0)
            let y ← getIdx vt (2 * i.vt.toNat + 1)
            return st.2.texcoords ++ [x, y]
          else return st.2.texcoords
        else return st.2.texcoords)
      let idx := pos.length / 3 - 1
      return (((i, idx) :: st.1, { st.2 with positions := pos, normals := nor, texcoords := tex }), idx)

/-- the triangles of one face, tiny_obj_loader.h:631-662 -/
def exportFace (v vn vt : List T) (face : List VIdx) (st : List (VIdx × Nat) × ShapeS T) : R (List (VIdx × Nat) × ShapeS T) := do
  let i0 ← getIdx face 0
  let i2 ← getIdx face 1
  let r ← forRange 2 face.length (st, i2) fun k s => do
    let i1 := s.2
    let i2 ← getIdx face k
    let (st, v0) ← updateVertex v vn vt s.1 i0
    let (st, v1) ← updateVertex v vn vt st i1
    let (st, v2) ← updateVertex v vn vt st i2
    return ((st.1, { st.2 with indices := st.2.indices ++ [v0, v1, v2] }), i2)
  return r.1

/-- `exportFaceGroupToShape`, tiny_obj_loader.h:612-711; the cache is passed by value and the caller's is always empty -/
def exportGroup (v vn vt : List T) (shape : ShapeS T) (group : List (List VIdx)) : R (ShapeS T) := do
  let r ← forList group (([], shape) : List (VIdx × Nat) × ShapeS T) fun face st => exportFace v vn vt face st
  return r.2

/-- `sscanf(token, "%s", namebuf)` into a buffer of 4096 characters which is read afterwards (tiny_obj_loader.h:1092, 1121, 1189): nothing
to read leaves the buffer uninitialised, too long a word overflows it -/
def scanName (p : Ptr) : R (List Char) := do
  let p ← skipSpace p
  let s := p.takeWhile fun c => !isCSpace c && c != nul
  if s = [] ∨ 4096 ≤ s.length then .error .ub else return s

/-- `material_map` and the size of `materials` -/
structure MatMap where
  find : List Char → Option Int
  count : Nat

/-- the local variables of `LoadObj`, tiny_obj_loader.h:994-1007 -/
structure St (T : Type) where
  v : List T
  vn : List T
  vt : List T
  group : List (List VIdx)
  matMap : MatMap
  material : Int
  shape : ShapeS T
  shapes : List (ShapeS T)

/-- the local variables at the start, tiny_obj_loader.h:994-1007 -/
def St.init : St T := ⟨[], [], [], [], ⟨fun _ => none, 0⟩, -1, .empty, []⟩

/-- flush the face group: `exportFaceGroupToShape` returns false and does nothing for an empty group (tiny_obj_loader.h:621-623);
`push` tells whether the shape is added to the list (tiny_obj_loader.h:1137-1146, 1169-1179, 1257-1262) -/
def flush (push : Bool) (s : St T) : R (St T) :=
  if s.group = [] then .ok s
  else do
    let sh ← exportGroup s.v s.vn s.vt s.shape s.group
    return { s with shape := sh, shapes := if push then s.shapes ++ [sh] else s.shapes }

/-- the loop over the names of a group, tiny_obj_loader.h:1154-1158 -/
def nameLoop : Nat → Ptr → List (List Char) → R (List (List Char))
  | 0, _, _ => .error .diverge
  | n + 1, p, names => do
      let c ← getIdx p 0
      if isNewLine c then return names
      else do
        let (str, p) ← parseString p
        let k ← strspn blanksCr p
        let p ← adv p k
        nameLoop n p (names ++ [str])

/-- `parseTagTriple`, tiny_obj_loader.h:493-514 -/
def parseTagTriple (p : Ptr) : R ((Int × Int × Int) × Ptr) := do
  let a ← atoi p
  let n ← strcspn blanksSlash p
  let p ← adv p n
  let ch ← getIdx p 0
  if ch ≠ '/' then return ((a, 0, 0), p)
  else do
    let p ← adv p 1
    let b ← atoi p
    let n ← strcspn blanksSlash p
    let p ← adv p n
    let ch ← getIdx p 0
    if ch ≠ '/' then return ((a, b, 0), p)
    else do
      let p ← adv p 1
      let c ← atoi p
      let n ← strcspn blanksSlash p
      let p ← adv p (n + 1)
      return ((a, b, c), p)

/-- the three loops over the values of a tag, tiny_obj_loader.h:1216-1244; `take` consumes one value -/
def tagLoop (take : Ptr → R Ptr) : Nat → Ptr → R Ptr
  | 0, p => .ok p
  | n + 1, p => do
      let p ← take p
      tagLoop take n p

/-- a tag, tiny_obj_loader.h:1201-1247.  A negative count makes `resize` throw `std::length_error`, which nothing catches: `abort` -/
def parseTag (cast : T → T) (p : Ptr) : R Unit := do
  let p ← adv p 2
  let name ← scanName p
  let p ← adv p (name.length + 1)
  let ((ni, nf, ns), p) ← parseTagTriple p
  assert (0 ≤ ni)
  let p ← tagLoop (fun p => do
    let _ ← atoi p
    let n ← strcspn blanksSlash p
    adv p (n + 1)) ni.toNat p
  assert (0 ≤ nf)
  let p ← tagLoop (fun p => do
    let (_, p) ← parseFloat cast p
    let n ← strcspn blanksSlash p
    adv p (n + 1)) nf.toNat p
  assert (0 ≤ ns)
  let _ ← tagLoop (fun p => do
    let s ← scanName p
    adv p (s.length + 1)) ns.toNat p
  return ()

/-- `strncmp(token, word, 6) == 0 && IS_SPACE(token[6])`, tiny_obj_loader.h:1088, 1117 -/
def isCommand (word : List Char) (p : Ptr) : R Bool :=
  if p.take word.length = word then do
    let c ← getIdx p word.length
    return isBlank c
  else return false

/-- `token[0] == a && IS_SPACE(token[1])`, tiny_obj_loader.h:1030, 1063, 1133, 1166, 1201 -/
def isLetter (a : Char) (p : Ptr) : R Bool := do
  let c ← getIdx p 0
  if c = a then do
    let d ← getIdx p 1
    return isBlank d
  else return false

/-- `token[0] == 'v' && token[1] == b && IS_SPACE(token[2])`, tiny_obj_loader.h:1041, 1052 -/
def isVLetter (b : Char) (p : Ptr) : R Bool := do
  let c ← getIdx p 0
  if c = 'v' then do
    let d ← getIdx p 1
    if d = b then do
      let e ← getIdx p 2
      return isBlank e
    else return false
  else return false

/-- one line after the leading blanks, tiny_obj_loader.h:1023-1250 -/
def command (cast : T → T) (readMtl : List Char → MatMap → R MatMap) (p : Ptr) (s : St T) : R (St T) := do
  let c ← getIdx p 0
  if c = nul then return s
  else if c = '#' then return s
  else if ← isLetter 'v' p then do
    let p ← adv p 2
    let (x, p) ← parseFloat cast p
    let (y, p) ← parseFloat cast p
    let (z, _) ← parseFloat cast p
    return { s with v := s.v ++ [x, y, z] }
  else if ← isVLetter 'n' p then do
    let p ← adv p 3
    let (x, p) ← parseFloat cast p
    let (y, p) ← parseFloat cast p
    let (z, _) ← parseFloat cast p
    return { s with vn := s.vn ++ [x, y, z] }
  else if ← isVLetter 't' p then do
    let p ← adv p 3
    let (x, p) ← parseFloat cast p
    let (y, _) ← parseFloat cast p
    return { s with vt := s.vt ++ [x, y] }
  else if ← isLetter 'f' p then do
    let p ← adv p 2
    let k ← strspn blanks p
    let p ← adv p k
    let face ← faceLoop (s.v.length / 3) (s.vn.length / 3) (s.vt.length / 2) (p.length + 1) p []
    return { s with group := s.group ++ [face] }
  else if ← isCommand ['u', 's', 'e', 'm', 't', 'l'] p then do
    let p ← adv p 7
    let name ← scanName p
    let id := (s.matMap.find name).getD (-1)
    if id ≠ s.material then do
      let s ← flush false s
      return { s with group := [], material := id }
    else return s
  else if ← isCommand ['m', 't', 'l', 'l', 'i', 'b'] p then do
    let p ← adv p 7
    let name ← scanName p
    let m ← readMtl name s.matMap
    return { s with matMap := m }
  else if ← isLetter 'g' p then do
    let s ← flush true s
    let names ← nameLoop (p.length + 1) p []
    assert (0 < names.length)
    return { s with shape := .empty, group := [] }
  else if ← isLetter 'o' p then do
    let s ← flush true s
    let p ← adv p 2
    let _ ← scanName p
    return { s with shape := .empty, group := [] }
  else if ← isLetter 't' p then do
    parseTag cast p
    return s
  else return s

/-- removing a line end, tiny_obj_loader.h:1013-1021 -/
def trimLine (l : List Char) : List Char :=
  let l := if l.getLast? = some '\n' then l.dropLast else l
  if l.getLast? = some '\r' then l.dropLast else l

/-- the loop body for one line, tiny_obj_loader.h:1010-1250 -/
def processLine (cast : T → T) (readMtl : List Char → MatMap → R MatMap) (line : List Char) (s : St T) : R (St T) :=
  let l := trimLine line
  if l = [] then .ok s
  else do
    let p := l ++ [nul]
    let n ← strspn blanks p
    let p ← adv p n
    command cast readMtl p s

/-- `safeGetline`, tiny_obj_loader.h:273-303: the line and the rest of the stream -/
def safeGetline : List Char → List Char × List Char
  | [] => ([], [])
  | c :: r =>
    if c = '\n' then ([], r)
    else if c = '\r' then ([], if r.head? = some '\n' then r.tail else r)
    else
      let x := safeGetline r
      (c :: x.1, x.2)

/-- the loop over the lines, tiny_obj_loader.h:1009-1250; `n` bounds the number of lines -/
def lineLoop (cast : T → T) (readMtl : List Char → MatMap → R MatMap) : Nat → List Char → St T → R (St T)
  | 0, text, s => if text = [] then .ok s else .error .diverge
  | n + 1, text, s =>
      if text = [] then .ok s
      else do
        let x := safeGetline text
        let s ← processLine cast readMtl x.1 s
        lineLoop cast readMtl n x.2 s

/-- `LoadObj` on a stream, tiny_obj_loader.h:987-1269: the shapes; it always returns true -/
def loadObj (cast : T → T) (readMtl : List Char → MatMap → R MatMap) (text : List Char) : R (List (ShapeS T)) := do
  let s ← lineLoop cast readMtl text.length text St.init
  let s ← flush true s
  return s.shapes

variable [LinearOrder T]
/-- `MeshObjLoader::loadString(str)`, MeshObjLoader.inl:21-34 -/
def loadString (yI xI : Nat) (cast : T → T) (readMtl : List Char → MatMap → R MatMap) (text : List Char) : R (World T) := do
  let shapes ← loadObj cast readMtl text
  ObjLoader.loadParsed yI xI (some (shapes.map fun s => ⟨s.positions, s.indices⟩))
end NS.TinyObj

/-
Model of the contents of the materials which `LoadMtl` of `/repo/src/objloader/external/tiny_obj_loader.h`, lines 589-610 and 714-937, reads.
`Verif/MtlModel.lean` models the names only.

Simplifications: exact arithmetic; the conversion from `double` to `float` is the parameter `cast`; `std::map` is a function from keys
to values; fewer than 2^31 materials.
-/
import Verif.MtlModel

namespace NS.TinyObj
open NS

/-- `material_t`, tiny_obj_loader.h:54-78 -/
structure Material (T : Type) where
  name : List Char
  ambient : T × T × T
  diffuse : T × T × T
  specular : T × T × T
  transmittance : T × T × T
  emission : T × T × T
  shininess : T
  ior : T
  dissolve : T
  illum : Int
  ambientTex : List Char
  diffuseTex : List Char
  specularTex : List Char
  highlightTex : List Char
  bumpTex : List Char
  displacementTex : List Char
  alphaTex : List Char
  unknown : List Char → Option (List Char)

variable {T : Type} [Field T]

/-- `InitMaterial(material)`, tiny_obj_loader.h:589-610 -/
def Material.init : Material T :=
  ⟨[], (0, 0, 0), (0, 0, 0), (0, 0, 0), (0, 0, 0), (0, 0, 0), 1, 1, 1, 0, [], [], [], [], [], [], [], fun _ => none⟩

/-- `parseFloat3(r, g, b, token)`, tiny_obj_loader.h:486-491 -/
def parse3 (cast : T → T) (p : Ptr) : R (T × T × T) := do
  let (x, p) ← parseFloat cast p
  let (y, p) ← parseFloat cast p
  let (z, _) ← parseFloat cast p
  return (x, y, z)

/-- `std::string(token)`: the characters up to the terminating `NUL` (tiny_obj_loader.h:868-913, 925) -/
def cstr (p : Ptr) : R (List Char) := if nul ∈ p then .ok (p.takeWhile fun c => c != nul) else .error .ub

/-- the members with one keyword each -/
inductive MtlKey where
  | ambient | diffuse | specular | transmittance | ior | emission | shininess | illum | dissolve | transparency
  | mapKa | mapKd | mapKs | mapNs | mapBump | mapD | bump | disp
  deriving DecidableEq, Repr

/-- the keyword, tiny_obj_loader.h:776-915 -/
def MtlKey.word : MtlKey → List Char
  | .ambient => ['K', 'a']
  | .diffuse => ['K', 'd']
  | .specular => ['K', 's']
  | .transmittance => ['K', 't']
  | .ior => ['N', 'i']
  | .emission => ['K', 'e']
  | .shininess => ['N', 's']
  | .illum => ['i', 'l', 'l', 'u', 'm']
  | .dissolve => ['d']
  | .transparency => ['T', 'r']
  | .mapKa => ['m', 'a', 'p', '_', 'K', 'a']
  | .mapKd => ['m', 'a', 'p', '_', 'K', 'd']
  | .mapKs => ['m', 'a', 'p', '_', 'K', 's']
  | .mapNs => ['m', 'a', 'p', '_', 'N', 's']
  | .mapBump => ['m', 'a', 'p', '_', 'b', 'u', 'm', 'p']
  | .mapD => ['m', 'a', 'p', '_', 'd']
  | .bump => ['b', 'u', 'm', 'p']
  | .disp => ['d', 'i', 's', 'p']

/-- the tests in the order of the code, tiny_obj_loader.h:776-915 -/
def mtlKeys : List MtlKey := [.ambient, .diffuse, .specular, .transmittance, .ior, .emission, .shininess, .illum, .dissolve, .transparency,
  .mapKa, .mapKd, .mapKs, .mapNs, .mapBump, .mapD, .bump, .disp]

/-- the first keyword of the list that the line begins with, tiny_obj_loader.h:776-915 -/
def findMtlKey (p : Ptr) : List MtlKey → R (Option MtlKey)
  | [] => .ok none
  | k :: ks => do
      let b ← isCommand k.word p
      if b then return some k else findMtlKey p ks

/-- the statements under the test for the keyword; `p` begins at the keyword, tiny_obj_loader.h:776-915 -/
def setKey (cast : T → T) (k : MtlKey) (p : Ptr) (m : Material T) : R (Material T) :=
  match k with
  | .ambient => do let p ← adv p 2; let c ← parse3 cast p; return { m with ambient := c }
  | .diffuse => do let p ← adv p 2; let c ← parse3 cast p; return { m with diffuse := c }
  | .specular => do let p ← adv p 2; let c ← parse3 cast p; return { m with specular := c }
  | .transmittance => do let p ← adv p 2; let c ← parse3 cast p; return { m with transmittance := c }
  | .ior => do let p ← adv p 2; let x ← parseFloat cast p; return { m with ior := x.1 }
  | .emission => do let p ← adv p 2; let c ← parse3 cast p; return { m with emission := c }
  | .shininess => do let p ← adv p 2; let x ← parseFloat cast p; return { m with shininess := x.1 }
  | .illum => do let p ← adv p 6; let x ← parseInt p; return { m with illum := x.1 }
  | .dissolve => do let p ← adv p 1; let x ← parseFloat cast p; return { m with dissolve := x.1 }
  | .transparency => do let p ← adv p 2; let x ← parseFloat cast p; return { m with dissolve := cast (1 - x.1) }
  | .mapKa => do let p ← adv p 7; let s ← cstr p; return { m with ambientTex := s }
  | .mapKd => do let p ← adv p 7; let s ← cstr p; return { m with diffuseTex := s }
  | .mapKs => do let p ← adv p 7; let s ← cstr p; return { m with specularTex := s }
  | .mapNs => do let p ← adv p 7; let s ← cstr p; return { m with highlightTex := s }
  | .mapBump => do let p ← adv p 9; let s ← cstr p; return { m with bumpTex := s }
  | .mapD => do let p ← adv p 6; let s ← cstr p; return { m with alphaTex := s }
  | .bump => do let p ← adv p 5; let s ← cstr p; return { m with bumpTex := s }
  | .disp => do let p ← adv p 5; let s ← cstr p; return { m with displacementTex := s }

/-- `strchr(token, c)` as the distance from `token`, `none` for the null pointer (tiny_obj_loader.h:918-921) -/
def strchr (c : Char) : Ptr → R (Option Nat)
  | [] => .error .ub
  | x :: p => if x = c then .ok (some 0) else if x = nul then .ok none else do
      let r ← strchr c p
      return r.map (· + 1)

/-- an unknown parameter, tiny_obj_loader.h:917-930; `std::map::insert` keeps the value of a key that is already present -/
def setUnknown (p : Ptr) (m : Material T) : R (Material T) := do
  let a ← strchr ' ' p
  let a ← (match a with
    | some n => .ok (some n)
    | none => strchr '\t' p : R (Option Nat))
  match a with
  | none => return m
  | some len => do
    let key := p.take len
    let q ← adv p (len + 1)
    let value ← cstr q
    return { m with unknown := fun k => if k = key then (match m.unknown key with | some v => some v | none => some value) else m.unknown k }

/-- the variables of `LoadMtl`, tiny_obj_loader.h:714-719 -/
structure MtlValSt (T : Type) where
  material : Material T
  map : List Char → Option Int
  materials : List (Material T)

/-- `material_map.insert(pair(material.name, materials.size())); materials.push_back(material)`, tiny_obj_loader.h:754-756, 933-935 -/
def MtlValSt.push (s : MtlValSt T) : MtlValSt T :=
  { s with
    map := fun n => if n = s.material.name then (match s.map n with | some i => some i | none => some (s.materials.length : Int)) else s.map n
    materials := s.materials ++ [s.material] }

/-- one line after the leading blanks, tiny_obj_loader.h:745-931 -/
def mtlValCommand (cast : T → T) (p : Ptr) (s : MtlValSt T) : R (MtlValSt T) := do
  let c ← getIdx p 0
  if c = nul then return s
  else if c = '#' then return s
  else if ← isCommand ['n', 'e', 'w', 'm', 't', 'l'] p then do
    let s := if s.material.name = [] then s else s.push
    let p ← adv p 7
    let name ← scanName p
    return { s with material := { Material.init with name := name } }
  else do
    let k ← findMtlKey p mtlKeys
    match k with
    | some k => do
      let m ← setKey cast k p s.material
      return { s with material := m }
    | none => do
      let m ← setUnknown p s.material
      return { s with material := m }

/-- the loop body for one line, tiny_obj_loader.h:722-931 -/
def mtlValLine (cast : T → T) (line : List Char) (s : MtlValSt T) : R (MtlValSt T) :=
  let l := trimLine line
  if l = [] then .ok s
  else do
    let p := l ++ [nul]
    let n ← strspn blanks p
    let p ← adv p n
    mtlValCommand cast p s

/-- the loop over the lines, tiny_obj_loader.h:721-931; `n` bounds the number of lines -/
def mtlValLoop (cast : T → T) : Nat → List Char → MtlValSt T → R (MtlValSt T)
  | 0, text, s => if text = [] then .ok s else .error .diverge
  | n + 1, text, s =>
      if text = [] then .ok s
      else do
        let x := safeGetline text
        let s ← mtlValLine cast x.1 s
        mtlValLoop cast n x.2 s

/-- `LoadMtl(material_map, materials, inStream)`, tiny_obj_loader.h:714-937: the map and the list of materials -/
def loadMtlValues (cast : T → T) (text : List Char) (map : List Char → Option Int) (materials : List (Material T)) :
    R ((List Char → Option Int) × List (Material T)) := do
  let s ← mtlValLoop cast text.length text ⟨.init, map, materials⟩
  return (s.push.map, s.push.materials)
end NS.TinyObj

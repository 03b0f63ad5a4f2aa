/-
Model of the reading of material files, `LoadMtl` and `MaterialFileReader::operator()` of
`/repo/src/objloader/external/tiny_obj_loader.h`, lines 714-960.

Simplifications: colours, numbers and names of textures, which the mesh loader ignores (MeshObjLoader.inl:12, 25 "We ignore materials"),
are read but not stored here (`MtlValueModel` stores them); exact arithmetic as in `TinyObjModel`; messages are not modelled; fewer than 2^31 materials.
-/
import Verif.TinyObjModel

namespace NS.TinyObj
open NS
variable {T : Type} [Field T]

/-- `parseInt(token)`, tiny_obj_loader.h:328-333 -/
def parseInt (p : Ptr) : R (Int × Ptr) := do
  let n ← strspn blanks p
  let p ← adv p n
  let i ← atoi p
  let e ← strcspn blanksCr p
  let p' ← adv p e
  return (i, p')

/-- `parseFloat3`, tiny_obj_loader.h:486-491; the values are not used -/
def parseFloat3 (cast : T → T) (p : Ptr) : R Unit := do
  let (_, p) ← parseFloat cast p
  let (_, p) ← parseFloat cast p
  let (_, _) ← parseFloat cast p
  return ()

/-- the local variables of `LoadMtl`: the name of the current material, and `material_map` with the size of `materials`
(tiny_obj_loader.h:714-719) -/
structure MtlSt where
  name : List Char
  map : MatMap

/-- `material_map.insert(pair(name, materials.size())); materials.push_back(material)`, tiny_obj_loader.h:754-756, 933-935;
`std::map::insert` keeps the value of a key that is already present -/
def addMaterial (name : List Char) (m : MatMap) : MatMap :=
  ⟨fun n => if n = name then (match m.find n with | some i => some i | none => some (m.count : Int)) else m.find n, m.count + 1⟩

/-- a line with a colour: `token[0] == 'K' && token[1] == b && IS_SPACE(token[2])`, tiny_obj_loader.h:776-815, 825-834 -/
def colourKeys : List (List Char) := [['K', 'a'], ['K', 'd'], ['K', 's'], ['K', 't'], ['K', 'e']]

/-- a line with one number, tiny_obj_loader.h:818-823, 837-842, 852-863 -/
def numberKeys : List (List Char) := [['N', 'i'], ['N', 's'], ['d'], ['T', 'r']]

/-- the first keyword of the list that the line begins with -/
def findKey (p : Ptr) : List (List Char) → R (Option (List Char))
  | [] => .ok none
  | w :: ws => do
      let b ← isCommand w p
      if b then return some w else findKey p ws

/-- one line after the leading blanks, tiny_obj_loader.h:745-931.  The tests for the different keywords exclude each other, so their
order does not matter; lines with textures and unknown lines have no effect on the members that are modelled -/
def mtlCommand (cast : T → T) (p : Ptr) (s : MtlSt) : R MtlSt := do
  let c ← getIdx p 0
  if c = nul then return s
  else if c = '#' then return s
  else if ← isCommand ['n', 'e', 'w', 'm', 't', 'l'] p then do
    let m := if s.name = [] then s.map else addMaterial s.name s.map
    let p ← adv p 7
    let name ← scanName p
    return ⟨name, m⟩
  else do
    let k ← findKey p colourKeys
    match k with
    | some w => do
      let p ← adv p w.length
      parseFloat3 cast p
      return s
    | none => do
      let k ← findKey p numberKeys
      match k with
      | some w => do
        let p ← adv p w.length
        let _ ← parseFloat cast p
        return s
      | none =>
        if ← isCommand ['i', 'l', 'l', 'u', 'm'] p then do
          let p ← adv p 6
          let _ ← parseInt p
          return s
        else return s

/-- the loop body for one line, tiny_obj_loader.h:722-931 -/
def mtlLine (cast : T → T) (line : List Char) (s : MtlSt) : R MtlSt :=
  let l := trimLine line
  if l = [] then .ok s
  else do
    let p := l ++ [nul]
    let n ← strspn blanks p
    let p ← adv p n
    mtlCommand cast p s

/-- the loop over the lines, tiny_obj_loader.h:721-931; `n` bounds the number of lines -/
def mtlLoop (cast : T → T) : Nat → List Char → MtlSt → R MtlSt
  | 0, text, s => if text = [] then .ok s else .error .diverge
  | n + 1, text, s =>
      if text = [] then .ok s
      else do
        let x := safeGetline text
        let s ← mtlLine cast x.1 s
        mtlLoop cast n x.2 s

/-- `LoadMtl(material_map, materials, inStream)`, tiny_obj_loader.h:714-937; the last material is always added, even without a name -/
def loadMtl (cast : T → T) (text : List Char) (m : MatMap) : R MatMap := do
  let s ← mtlLoop cast text.length text ⟨[], m⟩
  return addMaterial s.name s.map

/-- `MaterialFileReader("")(matId, ...)`, tiny_obj_loader.h:939-960: `content` gives the contents of the files; a file that does not exist
reads as an empty one, and the result is always `true` -/
def readFiles (cast : T → T) (content : List Char → Option (List Char)) (name : List Char) (m : MatMap) : R MatMap :=
  loadMtl cast ((content name).getD []) m
end NS.TinyObj

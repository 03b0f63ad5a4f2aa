/-
Property theorems C92: what a Wavefront OBJ text means.
-/
import Verif.Props.ObjNumber
import Verif.Props.ObjLoader
import Mathlib.Data.List.Basic

set_option linter.unusedSectionVars false
set_option linter.unusedSimpArgs false
set_option linter.unusedVariables false

namespace NS.Props.Obj
open NS NS.TinyObj

/-! ### Specification: the text -/

/-- a whole number as it is written -/
structure IntLit where
  sign : List Char
  digits : List Char

/-- well-formed -/
structure IntLit.Valid (i : IntLit) : Prop where
  sign : IsSign i.sign
  digits : i.digits ≠ [] ∧ ∀ c ∈ i.digits, IsDigit c

/-- its characters -/
def IntLit.text (i : IntLit) : List Char := i.sign ++ i.digits

/-- its value -/
def IntLit.value (i : IntLit) : Int := if i.sign = ['-'] then -(natVal i.digits : Int) else natVal i.digits

/-- a reference to a vertex: `v`, `v/vt`, `v//vn` or `v/vt/vn` -/
structure Ref where
  v : IntLit
  vt : Option IntLit
  vn : Option IntLit

/-- well-formed -/
structure Ref.Valid (r : Ref) : Prop where
  v : r.v.Valid
  vt : ∀ i, r.vt = some i → i.Valid
  vn : ∀ i, r.vn = some i → i.Valid

/-- its characters -/
def Ref.text (r : Ref) : List Char :=
  r.v.text ++ (match r.vt, r.vn with
    | none, none => []
    | some t, none => '/' :: t.text
    | none, some n => '/' :: '/' :: n.text
    | some t, some n => '/' :: (t.text ++ '/' :: n.text))

/-- the references of a face, separated by blanks, possibly with blanks at the end -/
inductive RefsIs : List Char → List Ref → Prop where
  | one (r : Ref) (b : List Char) : r.Valid → IsBlanks b → RefsIs (r.text ++ b) [r]
  | cons (r : Ref) (b s : List Char) (rs : List Ref) : r.Valid → IsBlanks b → b ≠ [] → RefsIs s rs → RefsIs (r.text ++ (b ++ s)) (r :: rs)

/-- what one line says -/
inductive Item (T : Type) where
  | skip
  | vertex (x y z : T)
  | normal
  | texcoord
  | face (refs : List Ref)
  | group
  | library (change : MatMap → MatMap)
  | material (name : List Char)

/-- what may follow the last number of a line: nothing, or a blank and anything -/
def IsRest (r : List Char) : Prop := ∀ c, r.head? = some c → c ∈ blanks

/-- values, each after one blank or tabulator -/
def tail : List (Char × List Char) → List Char
  | [] => []
  | (s, v) :: l => s :: (v ++ tail l)

/-- the values of a tag: whole numbers, numbers and words, as they are written -/
structure TagIs (ints floats words : List (Char × List Char)) : Prop where
  seps : ∀ v ∈ ints ++ floats ++ words, v.1 ∈ blanks
  ints : ∀ v ∈ ints, ∃ i : IntLit, i.Valid ∧ (-2147483648 ≤ i.value ∧ i.value ≤ 2147483647) ∧ v.2 = i.text
  floats : ∀ v ∈ floats, ∃ n : Num, n.Valid ∧ n.Small ∧ v.2 = n.text
  words : ∀ v ∈ words, v.2 ≠ [] ∧ v.2.length < 4096 ∧ ∀ c ∈ v.2, isCSpace c = false ∧ c ≠ nul

variable {T : Type} [Field T]

/-- the meaning of a line; `cast` converts numbers to the type of the result, `readMtl` says what a material file adds to the known materials -/
inductive LineIs (cast : T → T) (readMtl : List Char → MatMap → R MatMap) : List Char → Item T → Prop where
  | blank (b : List Char) : IsBlanks b → LineIs cast readMtl b .skip
  | other (b : List Char) (c : Char) (r : List Char) : IsBlanks b → c ∉ blanks → c ∉ ['v', 'f', 'u', 'm', 'g', 'o', 't'] →
      LineIs cast readMtl (b ++ c :: r) .skip
  | vertex (b : List Char) (s : Char) (b1 b2 b3 : List Char) (x y z : Num) (r : List Char) : IsBlanks b → s ∈ blanks →
      IsBlanks b1 → IsBlanks b2 → b2 ≠ [] → IsBlanks b3 → b3 ≠ [] → x.Valid → x.Small → y.Valid → y.Small → z.Valid → z.Small → IsRest r →
      LineIs cast readMtl (b ++ 'v' :: s :: (b1 ++ (x.text ++ (b2 ++ (y.text ++ (b3 ++ (z.text ++ r))))))) (.vertex (cast x.value) (cast y.value) (cast z.value))
  | normal (b : List Char) (s : Char) (b1 b2 b3 : List Char) (x y z : Num) (r : List Char) : IsBlanks b → s ∈ blanks →
      IsBlanks b1 → IsBlanks b2 → b2 ≠ [] → IsBlanks b3 → b3 ≠ [] → x.Valid → x.Small → y.Valid → y.Small → z.Valid → z.Small → IsRest r →
      LineIs cast readMtl (b ++ 'v' :: 'n' :: s :: (b1 ++ (x.text ++ (b2 ++ (y.text ++ (b3 ++ (z.text ++ r))))))) .normal
  | texcoord (b : List Char) (s : Char) (b1 b2 : List Char) (x y : Num) (r : List Char) : IsBlanks b → s ∈ blanks →
      IsBlanks b1 → IsBlanks b2 → b2 ≠ [] → x.Valid → x.Small → y.Valid → y.Small → IsRest r →
      LineIs cast readMtl (b ++ 'v' :: 't' :: s :: (b1 ++ (x.text ++ (b2 ++ (y.text ++ r))))) .texcoord
  | face (b : List Char) (s : Char) (b1 r : List Char) (refs : List Ref) : IsBlanks b → s ∈ blanks → IsBlanks b1 → RefsIs r refs →
      LineIs cast readMtl (b ++ 'f' :: s :: (b1 ++ r)) (.face refs)
  | object (b : List Char) (s : Char) (b1 name r : List Char) : IsBlanks b → s ∈ blanks → IsBlanks b1 → name ≠ [] → name.length < 4096 →
      (∀ c ∈ name, isCSpace c = false ∧ c ≠ nul) → IsRest r → LineIs cast readMtl (b ++ 'o' :: s :: (b1 ++ (name ++ r))) .group
  | group (b : List Char) (s : Char) (r : List Char) : IsBlanks b → s ∈ blanks → LineIs cast readMtl (b ++ 'g' :: s :: r) .group
  | material (b : List Char) (s : Char) (b1 name r : List Char) : IsBlanks b → s ∈ blanks → IsBlanks b1 → name ≠ [] → name.length < 4096 →
      (∀ c ∈ name, isCSpace c = false ∧ c ≠ nul) → IsRest r → LineIs cast readMtl (b ++ ['u', 's', 'e', 'm', 't', 'l'] ++ s :: (b1 ++ (name ++ r))) (.material name)
  | library (b : List Char) (s : Char) (b1 name r : List Char) (change : MatMap → MatMap) : IsBlanks b → s ∈ blanks → IsBlanks b1 → name ≠ [] → name.length < 4096 →
      (∀ c ∈ name, isCSpace c = false ∧ c ≠ nul) → IsRest r → (∀ m, readMtl name m = .ok (change m)) →
      LineIs cast readMtl (b ++ ['m', 't', 'l', 'l', 'i', 'b'] ++ s :: (b1 ++ (name ++ r))) (.library change)
  | tag (b : List Char) (s s1 : Char) (name : List Char) (ni nf ns : IntLit) (ints floats words : List (Char × List Char)) : IsBlanks b → s ∈ blanks → s1 ∈ blanks →
      name ≠ [] → name.length < 4096 → (∀ c ∈ name, isCSpace c = false ∧ c ≠ nul) → ni.Valid → nf.Valid → ns.Valid →
      ni.value = ints.length → nf.value = floats.length → ns.value = words.length → ni.value ≤ 2147483647 → nf.value ≤ 2147483647 → ns.value ≤ 2147483647 →
      TagIs ints floats words →
      LineIs cast readMtl (b ++ 't' :: s :: (name ++ s1 :: (ni.text ++ '/' :: (nf.text ++ '/' :: (ns.text ++ tail (ints ++ floats ++ words)))))) .skip

/-- the lines of a text; a line ends with a line feed, a carriage return, or both -/
inductive Lines : List Char → List (List Char) → Prop where
  | nil : Lines [] []
  | last (l : List Char) : l ≠ [] → (∀ c ∈ l, c ≠ '\n' ∧ c ≠ '\r') → Lines l [l]
  | lf (l r : List Char) (ls : List (List Char)) : (∀ c ∈ l, c ≠ '\n' ∧ c ≠ '\r') → Lines r ls → Lines (l ++ '\n' :: r) (l :: ls)
  | crlf (l r : List Char) (ls : List (List Char)) : (∀ c ∈ l, c ≠ '\n' ∧ c ≠ '\r') → Lines r ls → Lines (l ++ '\r' :: '\n' :: r) (l :: ls)
  | cr (l r : List Char) (ls : List (List Char)) : (∀ c ∈ l, c ≠ '\n' ∧ c ≠ '\r') → r.head? ≠ some '\n' → Lines r ls → Lines (l ++ '\r' :: r) (l :: ls)

/-! ### Specification: the meaning -/

/-- a corner of a face: numbers (from zero) of a vertex and, if given, of a texture coordinate and a normal; and the number of the part of the
group the face belongs to (every change of the material begins a new part) -/
structure Corner where
  v : Nat
  vt : Option Nat
  vn : Option Nat
  part : Nat
  deriving DecidableEq

/-- the thing a reference denotes, if `n` of them are defined: counted from one from the front, or from minus one from the back -/
def resolve (n : Nat) (i : Int) : Nat := if 0 < i then (i - 1).toNat else ((n : Int) + i).toNat

/-- a reference denotes one of the `n` things already defined -/
def Defined (n : Nat) (i : Int) : Prop := i ≠ 0 ∧ -(n : Int) ≤ i ∧ i ≤ n

/-- what has been read: vertices, how many normals and texture coordinates, the finished groups of faces, the faces of the finished parts of the current
group, those of its current part and the number of this part, the known materials and the current one (-1 if it is unknown) -/
structure Doc (T : Type) where
  verts : List (T × T × T)
  nn : Nat
  nt : Nat
  done : List (List (List Corner))
  old : List (List Corner)
  cur : List (List Corner)
  part : Nat
  mats : MatMap
  mat : Int

/-- the corner a reference denotes -/
def Ref.corner (d : Doc T) (r : Ref) : Corner :=
  ⟨resolve d.verts.length r.v.value, r.vt.map fun i => resolve d.nt i.value, r.vn.map fun i => resolve d.nn i.value, d.part⟩

/-- the reference denotes something -/
structure Ref.Ok (d : Doc T) (r : Ref) : Prop where
  v : Defined d.verts.length r.v.value
  vt : ∀ i, r.vt = some i → Defined d.nt i.value
  vn : ∀ i, r.vn = some i → Defined d.nn i.value

/-- the groups, the current one included unless its current part is empty -/
def Doc.groups (d : Doc T) : List (List (List Corner)) := if d.cur = [] then d.done else d.done ++ [d.old ++ d.cur]

/-- the number of a material, -1 if it is unknown -/
def Doc.number (d : Doc T) (name : List Char) : Int := (d.mats.find name).getD (-1)

/-- reading one more line -/
def Doc.step (d : Doc T) : Item T → Doc T
  | .skip => d
  | .vertex x y z => { d with verts := d.verts ++ [(x, y, z)] }
  | .normal => { d with nn := d.nn + 1 }
  | .texcoord => { d with nt := d.nt + 1 }
  | .face refs => { d with cur := d.cur ++ [refs.map (Ref.corner d)] }
  | .group => { d with done := d.groups, old := [], cur := [], part := 0 }
  | .library change => { d with mats := change d.mats }
  | .material name => if d.number name = d.mat then d else { d with old := d.old ++ d.cur, cur := [], part := d.part + 1, mat := d.number name }

/-- nothing has been read -/
def Doc.init : Doc T := ⟨[], 0, 0, [], [], [], 0, ⟨fun _ => none, 0⟩, -1⟩

/-- reading all lines -/
def Doc.read (d : Doc T) : List (Item T) → Doc T
  | [] => d
  | i :: l => (d.step i).read l

/-- a line fits: a face has at least three corners, which refer to things defined before -/
def Item.Ok (d : Doc T) : Item T → Prop
  | .face refs => 3 ≤ refs.length ∧ ∀ r ∈ refs, r.Ok d
  | _ => True

/-- all lines fit -/
def Doc.Ok (d : Doc T) : List (Item T) → Prop
  | [] => True
  | i :: l => i.Ok d ∧ (d.step i).Ok l

/-- numbers of vertices, normals and texture coordinates fit into an `int` -/
def Doc.Small (d : Doc T) : Prop := 3 * d.verts.length ≤ 2147483647 ∧ 3 * d.nn ≤ 2147483647 ∧ 2 * d.nt ≤ 2147483647

/-- the corners of the triangles into which a polygon is split: a fan around its first corner -/
def fan : List Corner → List Corner
  | a :: b :: c :: l => a :: b :: c :: fan (a :: c :: l)
  | _ => []
  termination_by l => l.length

/-- the corners of all triangles of a group -/
def corners (faces : List (List Corner)) : List Corner := faces.flatMap fan

/-- the different members of a list, in the order of their first occurrence -/
def firsts {α : Type} [DecidableEq α] : List α → List α
  | [] => []
  | a :: l => a :: (firsts l).filter fun b => b ≠ a

/-- the coordinates of a vertex -/
def coords (verts : List (T × T × T)) (c : Corner) : List T :=
  match verts[c.v]? with
  | some p => [p.1, p.2.1, p.2.2]
  | none => []

/-- the arrays of a group: one vertex for every corner (vertex, texture coordinate, normal and part) that occurs, and for every corner of every
triangle the number of its vertex -/
def arrays (verts : List (T × T × T)) (faces : List (List Corner)) : List T × List Nat :=
  ((firsts (corners faces)).flatMap (coords verts), (corners faces).map fun c => (firsts (corners faces)).idxOf c)

/-! ### Numbers of a face -/

theorem atoiDigits_ok (ds : List Char) (hd : ∀ c ∈ ds, IsDigit c) {t : Char} (ht : ¬ IsDigit t) (r : List Char) (m : Nat) :
    atoiDigits m (ds ++ t :: r) = .ok (m * 10 ^ ds.length + natVal ds) := by
  induction ds generalizing m with
  | nil =>
    have : isDigit t = false := by
      rw [← Bool.not_eq_true, isDigit_iff]; exact ht
    simp [atoiDigits, this, natVal]
  | cons c ds ih =>
    have hc : isDigit c = true := (isDigit_iff c).2 (hd c (by simp))
    simp only [List.cons_append, atoiDigits, hc, if_true, ih fun c h => hd c (by simp [h])]
    simp only [natVal, digit_eq, List.length_cons]
    congr 1
    ring

/-- C92: white space is space, tab, newline, vertical tab, form feed and carriage return, and nothing else -/
theorem C92_space (c : Char) : isCSpace c = true ↔ c.toNat ∈ [32, 9, 10, 11, 12, 13] := by
  have h : ∀ d : Char, c = d ↔ c.toNat = d.toNat := fun d => Char.toNat_inj.symm
  unfold isCSpace
  simp only [Bool.or_eq_true, beq_iff_eq, h, List.mem_cons, List.not_mem_nil, or_false]
  have e1 : (Char.ofNat 11).toNat = 11 := by decide
  have e2 : (Char.ofNat 12).toNat = 12 := by decide
  rw [e1, e2, show ' '.toNat = 32 from rfl, show '\t'.toNat = 9 from rfl, show '\n'.toNat = 10 from rfl, show '\r'.toNat = 13 from rfl]
  tauto

theorem not_space_of_digit {c : Char} (h : IsDigit c) : isCSpace c = false := by
  unfold IsDigit at h
  fin_cases h <;> decide

theorem atoi_ok {i : IntLit} (hi : i.Valid) (hs : -2147483648 ≤ i.value ∧ i.value ≤ 2147483647) {t : Char} (ht : ¬ IsDigit t) (r : List Char) :
    atoi (i.text ++ t :: r) = .ok i.value := by
  obtain ⟨s, d⟩ := i
  obtain ⟨hsg, hd⟩ := hi
  obtain ⟨c, d', hcd⟩ : ∃ c d', d = c :: d' := by
    cases d with
    | nil => exact absurd rfl hd.1
    | cons c d => exact ⟨c, d, rfl⟩
  have hc : IsDigit c := hd.2 c (by simp [hcd])
  have hcs : c ≠ '+' ∧ c ≠ '-' := by
    constructor <;> rintro rfl <;> revert hc <;> unfold IsDigit <;> decide
  have hdig := fun m => atoiDigits_ok d hd.2 ht r m
  unfold atoi IntLit.text
  unfold IntLit.value at hs ⊢
  simp only at hs ⊢ hsg
  rcases hsg with rfl | rfl | rfl
  · simp only [List.nil_append]
    have h1 : skipSpace (d ++ t :: r) = .ok (d ++ t :: r) := by
      rw [hcd]; simp [skipSpace, not_space_of_digit hc]
    have h2 : getIdx (d ++ t :: r) 0 = .ok c := by rw [hcd]; rfl
    rw [h1]
    simp only [ok_bind]
    rw [h2]
    simp only [ok_bind]
    rw [if_neg hcs.2, if_neg hcs.1, hdig]
    simp only [ok_bind, zero_mul, zero_add]
    simp only [show ([] : List Char) ≠ ['-'] by simp, if_false] at hs ⊢
    exact inInt_ok hs.1 hs.2
  · simp only [List.cons_append, List.nil_append]
    have h1 : skipSpace ('+' :: (d ++ t :: r)) = .ok ('+' :: (d ++ t :: r)) := rfl
    rw [h1]
    simp only [ok_bind]
    rw [getIdx_zero]
    simp only [ok_bind]
    rw [if_neg (by decide), if_pos trivial, List.drop_one, List.tail_cons, hdig]
    simp only [ok_bind, zero_mul, zero_add]
    simp only [show ['+'] ≠ ['-'] by decide, if_false] at hs ⊢
    exact inInt_ok hs.1 hs.2
  · simp only [List.cons_append, List.nil_append]
    have h1 : skipSpace ('-' :: (d ++ t :: r)) = .ok ('-' :: (d ++ t :: r)) := rfl
    rw [h1]
    simp only [ok_bind]
    rw [getIdx_zero]
    simp only [ok_bind]
    rw [if_pos trivial, List.drop_one, List.tail_cons, hdig]
    simp only [ok_bind, zero_mul, zero_add]
    simp only [if_true] at hs ⊢
    exact inInt_ok hs.1 hs.2

theorem IntLit.word {i : IntLit} (hi : i.Valid) : ∀ c ∈ i.text, c ≠ nul ∧ c ∉ blanksSlash := by
  intro c hc
  have hslash : blanksSlash = '/' :: blanksCr := rfl
  unfold IntLit.text at hc
  rw [List.mem_append] at hc
  rcases hc with h | h
  · rcases hi.sign with h' | h' | h'
    · rw [h'] at h; simp at h
    · rw [h'] at h; simp at h; subst h; decide
    · rw [h'] at h; simp at h; subst h; decide
  · have hd := hi.digits.2 c h
    refine ⟨(digit_word hd).1, ?_⟩
    rw [hslash, List.mem_cons, not_or]
    refine ⟨?_, (digit_word hd).2⟩
    rintro rfl
    revert hd; unfold IsDigit; decide

/-- the number of a thing as the parser stores it -/
def toI : Option Nat → Int
  | none => -1
  | some n => n

/-- a corner as the parser stores it -/
def Corner.toV (c : Corner) : VIdx := ⟨c.v, toI c.vt, toI c.vn⟩

theorem fixIndex_ok {n : Nat} {i : Int} (h : Defined n i) (hn : n ≤ 2147483647) : fixIndex i n = .ok (resolve n i : Int) := by
  obtain ⟨h0, h1, h2⟩ := h
  unfold fixIndex resolve
  by_cases hi : 0 < i
  · rw [if_pos hi, if_pos hi]
    congr 1; omega
  · rw [if_neg hi, if_neg hi, if_neg h0, inInt_ok (by omega) (by omega)]
    congr 1; omega

theorem resolve_lt {n : Nat} {i : Int} (h : Defined n i) : resolve n i < n := by
  obtain ⟨h0, h1, h2⟩ := h
  unfold resolve
  split_ifs <;> omega

theorem Defined.bound {n : Nat} {i : Int} (h : Defined n i) (hn : n ≤ 2147483647) : -2147483648 ≤ i ∧ i ≤ 2147483647 := by
  obtain ⟨h0, h1, h2⟩ := h
  omega

theorem parseTriple_ok {d : Doc T} (hsm : d.Small) {r : Ref} (hv : r.Valid) (hok : r.Ok d) {t : Char} (ht : t = nul ∨ t ∈ blanks) (rest : List Char) :
    parseTriple (r.text ++ t :: rest) d.verts.length d.nn d.nt = .ok ((r.corner d).toV, t :: rest) := by
  obtain ⟨hs1, hs2, hs3⟩ := hsm
  obtain ⟨v, vt, vn⟩ := r
  have hvv : v.Valid := hv.v
  have hvo : Defined d.verts.length v.value := hok.v
  have htd : ¬ IsDigit t := by
    unfold blanks at ht
    simp only [List.mem_cons, List.not_mem_nil, or_false] at ht
    rcases ht with rfl | rfl | rfl <;> unfold IsDigit <;> decide
  have hsd : ¬ IsDigit '/' := by unfold IsDigit; decide
  have hte : t = nul ∨ t ∈ blanksSlash := by
    unfold blanks at ht
    unfold blanksSlash
    simp only [List.mem_cons, List.not_mem_nil, or_false] at ht ⊢
    tauto
  have hts : t ≠ '/' := by
    unfold blanks at ht
    simp only [List.mem_cons, List.not_mem_nil, or_false] at ht
    rcases ht with rfl | rfl | rfl <;> decide
  have hse : '/' = nul ∨ '/' ∈ blanksSlash := by decide
  have hns : ∀ (i : IntLit), i.Valid → ∀ (q : List Char), ∃ c q', i.text ++ q = c :: q' ∧ c ≠ '/' := by
    intro i hi q
    obtain ⟨c, q', h⟩ : ∃ c q', i.text = c :: q' := by
      rcases h : i.text with _ | ⟨c, q'⟩
      · unfold IntLit.text at h
        simp only [List.append_eq_nil_iff] at h
        exact absurd h.2 hi.digits.1
      · exact ⟨c, q', rfl⟩
    refine ⟨c, q' ++ q, by rw [h]; rfl, ?_⟩
    have := (IntLit.word hi c (by rw [h]; simp)).2
    rintro rfl
    exact this (by decide)
  unfold parseTriple Ref.text Ref.corner Corner.toV
  rcases vt with _ | vt <;> rcases vn with _ | vn
  · simp only [List.append_nil]
    rw [atoi_ok hvv (hvo.bound (by omega)) htd]
    simp only [ok_bind]
    rw [fixIndex_ok hvo (by omega)]
    simp only [ok_bind]
    rw [strcspn_ok v.text (IntLit.word hvv) hte]
    simp only [ok_bind]
    rw [adv_append]
    simp only [ok_bind]
    rw [getIdx_zero]
    simp only [ok_bind]
    rw [if_pos hts]
    rfl
  · have hnv : vn.Valid := hv.vn vn rfl
    have hno : Defined d.nn vn.value := hok.vn vn rfl
    simp only [List.append_assoc, List.cons_append]
    rw [atoi_ok hvv (hvo.bound (by omega)) hsd]
    simp only [ok_bind]
    rw [fixIndex_ok hvo (by omega)]
    simp only [ok_bind]
    rw [strcspn_ok v.text (IntLit.word hvv) hse]
    simp only [ok_bind]
    rw [adv_append]
    simp only [ok_bind]
    rw [getIdx_zero]
    simp only [ok_bind]
    rw [if_neg (by simp), show ∀ q : List Char, adv ('/' :: q) 1 = .ok q from fun q => adv_append ['/'] q]
    simp only [ok_bind]
    rw [getIdx_zero]
    simp only [ok_bind, if_true]
    rw [show ∀ q : List Char, adv ('/' :: q) 1 = .ok q from fun q => adv_append ['/'] q]
    simp only [ok_bind]
    rw [atoi_ok hnv (hno.bound (by omega)) htd]
    simp only [ok_bind]
    rw [fixIndex_ok hno (by omega)]
    simp only [ok_bind]
    rw [strcspn_ok vn.text (IntLit.word hnv) hte]
    simp only [ok_bind]
    rw [adv_append]
    rfl
  · have hnv : vt.Valid := hv.vt vt rfl
    have hno : Defined d.nt vt.value := hok.vt vt rfl
    simp only [List.append_assoc, List.cons_append]
    rw [atoi_ok hvv (hvo.bound (by omega)) hsd]
    simp only [ok_bind]
    rw [fixIndex_ok hvo (by omega)]
    simp only [ok_bind]
    rw [strcspn_ok v.text (IntLit.word hvv) hse]
    simp only [ok_bind]
    rw [adv_append]
    simp only [ok_bind]
    rw [getIdx_zero]
    simp only [ok_bind]
    rw [if_neg (by simp), show ∀ q : List Char, adv ('/' :: q) 1 = .ok q from fun q => adv_append ['/'] q]
    simp only [ok_bind]
    obtain ⟨c, q', hq, hcs⟩ := hns vt hnv (t :: rest)
    have h0 : getIdx (vt.text ++ t :: rest) 0 = .ok c := by rw [hq]; rfl
    rw [h0]
    simp only [ok_bind, if_neg hcs]
    rw [atoi_ok hnv (hno.bound (by omega)) htd]
    simp only [ok_bind]
    rw [fixIndex_ok hno (by omega)]
    simp only [ok_bind]
    rw [strcspn_ok vt.text (IntLit.word hnv) hte]
    simp only [ok_bind]
    rw [adv_append]
    simp only [ok_bind]
    rw [getIdx_zero]
    simp only [ok_bind]
    rw [if_pos hts]
    rfl
  · have hnv : vt.Valid := hv.vt vt rfl
    have hno : Defined d.nt vt.value := hok.vt vt rfl
    have hnv' : vn.Valid := hv.vn vn rfl
    have hno' : Defined d.nn vn.value := hok.vn vn rfl
    simp only [List.append_assoc, List.cons_append]
    rw [atoi_ok hvv (hvo.bound (by omega)) hsd]
    simp only [ok_bind]
    rw [fixIndex_ok hvo (by omega)]
    simp only [ok_bind]
    rw [strcspn_ok v.text (IntLit.word hvv) hse]
    simp only [ok_bind]
    rw [adv_append]
    simp only [ok_bind]
    rw [getIdx_zero]
    simp only [ok_bind]
    rw [if_neg (by simp), show ∀ q : List Char, adv ('/' :: q) 1 = .ok q from fun q => adv_append ['/'] q]
    simp only [ok_bind]
    obtain ⟨c, q', hq, hcs⟩ := hns vt hnv ('/' :: (vn.text ++ t :: rest))
    have h0 : getIdx (vt.text ++ '/' :: (vn.text ++ t :: rest)) 0 = .ok c := by rw [hq]; rfl
    rw [h0]
    simp only [ok_bind, if_neg hcs]
    rw [atoi_ok hnv (hno.bound (by omega)) hsd]
    simp only [ok_bind]
    rw [fixIndex_ok hno (by omega)]
    simp only [ok_bind]
    rw [strcspn_ok vt.text (IntLit.word hnv) hse]
    simp only [ok_bind]
    rw [adv_append]
    simp only [ok_bind]
    rw [getIdx_zero]
    simp only [ok_bind]
    rw [if_neg (by simp), show ∀ q : List Char, adv ('/' :: q) 1 = .ok q from fun q => adv_append ['/'] q]
    simp only [ok_bind]
    rw [atoi_ok hnv' (hno'.bound (by omega)) htd]
    simp only [ok_bind]
    rw [fixIndex_ok hno' (by omega)]
    simp only [ok_bind]
    rw [strcspn_ok vn.text (IntLit.word hnv') hte]
    simp only [ok_bind]
    rw [adv_append]
    rfl

theorem Ref.head {r : Ref} (hv : r.Valid) (q : List Char) : ∃ c q', r.text ++ q = c :: q' ∧ isNewLine c = false ∧ c ∉ blanksCr := by
  obtain ⟨c, q', h⟩ : ∃ c q', r.v.text = c :: q' := by
    rcases h : r.v.text with _ | ⟨c, q'⟩
    · unfold IntLit.text at h
      simp only [List.append_eq_nil_iff] at h
      exact absurd h.2 hv.v.digits.1
    · exact ⟨c, q', rfl⟩
  obtain ⟨h1, h2⟩ := IntLit.word hv.v c (by rw [h]; simp)
  unfold Ref.text
  rw [h]
  refine ⟨c, _, rfl, ?_, ?_⟩
  · have hn : c ≠ '\n' := by
      have : c ∈ r.v.text := by rw [h]; simp
      unfold IntLit.text at this
      rw [List.mem_append] at this
      rcases this with hx | hx
      · rcases hv.v.sign with h' | h' | h'
        · rw [h'] at hx; simp at hx
        · rw [h'] at hx; simp at hx; subst hx; decide
        · rw [h'] at hx; simp at hx; subst hx; decide
      · have hd := hv.v.digits.2 c hx
        rintro rfl
        revert hd; unfold IsDigit; decide
    have hr : c ≠ '\r' := by rintro rfl; exact h2 (by decide)
    unfold isNewLine
    simp [hn, hr, h1]
  · intro hx
    exact h2 (List.mem_cons_of_mem _ hx)

theorem blanks_sub {b : List Char} (hb : IsBlanks b) : ∀ c ∈ b, c ∈ blanksCr := by
  intro c hc
  have := hb c hc
  unfold blanks at this
  unfold blanksCr
  simp only [List.mem_cons, List.not_mem_nil, or_false] at this ⊢
  tauto

theorem faceLoop_ok {d : Doc T} (hsm : d.Small) {s : List Char} {refs : List Ref} (hr : RefsIs s refs) (hok : ∀ r ∈ refs, r.Ok d) :
    ∀ (fuel : Nat) (acc : List VIdx), refs.length < fuel →
    faceLoop d.verts.length d.nn d.nt fuel (s ++ [nul]) acc = .ok (acc ++ refs.map fun r => (r.corner d).toV) := by
  induction hr with
  | one r b hv hb =>
    intro fuel acc hf
    obtain ⟨fuel, rfl⟩ : ∃ k, fuel = k + 2 := ⟨fuel - 2, by simp at hf; omega⟩
    obtain ⟨c, q, hq, hc, -⟩ := Ref.head hv (b ++ [nul])
    have h0 : getIdx (r.text ++ b ++ [nul]) 0 = .ok c := by rw [List.append_assoc, hq]; rfl
    rw [faceLoop, h0]
    simp only [ok_bind, hc]
    obtain ⟨t, q2, hq2, ht⟩ : ∃ t q2, b ++ [nul] = t :: q2 ∧ (t = nul ∨ t ∈ blanks) := by
      cases b with
      | nil => exact ⟨nul, [], rfl, Or.inl rfl⟩
      | cons t b => exact ⟨t, b ++ [nul], rfl, Or.inr (hb t (by simp))⟩
    rw [List.append_assoc, hq2, parseTriple_ok hsm hv (hok r (by simp)) ht]
    simp only [ok_bind, ← hq2]
    rw [strspn_ok b (blanks_sub hb) (c := nul) (by decide)]
    simp only [ok_bind, Bool.false_eq_true, if_false]
    rw [adv_append]
    simp only [ok_bind]
    rw [faceLoop, getIdx_zero]
    simp only [ok_bind]
    rw [if_pos (by decide)]
    simp
  | cons r b s rs hv hb hne hrs ih =>
    intro fuel acc hf
    obtain ⟨fuel, rfl⟩ : ∃ k, fuel = k + 1 := ⟨fuel - 1, by simp at hf; omega⟩
    obtain ⟨c, q, hq, hc, -⟩ := Ref.head hv (b ++ s ++ [nul])
    have h0 : getIdx (r.text ++ (b ++ s) ++ [nul]) 0 = .ok c := by rw [List.append_assoc, hq]; rfl
    rw [faceLoop, h0]
    simp only [ok_bind, hc]
    obtain ⟨t, q2, hq2, ht⟩ : ∃ t q2, b ++ s ++ [nul] = t :: q2 ∧ (t = nul ∨ t ∈ blanks) := by
      cases b with
      | nil => exact absurd rfl hne
      | cons t b => exact ⟨t, b ++ s ++ [nul], rfl, Or.inr (hb t (by simp))⟩
    rw [List.append_assoc, hq2, parseTriple_ok hsm hv (hok r (by simp)) ht]
    simp only [ok_bind, ← hq2]
    obtain ⟨c', q', hq', hc'⟩ : ∃ c' q', s ++ [nul] = c' :: q' ∧ c' ∉ blanksCr := by
      cases hrs with
      | one r' b' hv' hb' =>
        obtain ⟨c, q, hq, -, hc⟩ := Ref.head hv' (b' ++ [nul])
        exact ⟨c, q, by rw [List.append_assoc]; exact hq, hc⟩
      | cons r' b' s' rs' hv' hb' hne' hrs' =>
        obtain ⟨c, q, hq, -, hc⟩ := Ref.head hv' (b' ++ s' ++ [nul])
        exact ⟨c, q, by rw [List.append_assoc]; exact hq, hc⟩
    rw [List.append_assoc, hq', strspn_ok b (blanks_sub hb) hc', ← hq']
    simp only [ok_bind, Bool.false_eq_true, if_false]
    rw [adv_append]
    simp only [ok_bind]
    rw [ih (fun r h => hok r (by simp [h])) fuel _ (by simp at hf; omega)]
    simp

/-! ### The arrays -/

section Firsts
variable {α : Type} [DecidableEq α]

theorem firsts_snoc (l : List α) (a : α) : firsts (l ++ [a]) = if a ∈ l then firsts l else firsts l ++ [a] := by
  induction l with
  | nil => simp [firsts]
  | cons b l ih =>
    simp only [List.cons_append, firsts, ih, List.mem_cons]
    by_cases hab : a = b
    · subst hab
      by_cases hal : a ∈ l <;> simp [hal, List.filter_append]
    · by_cases hal : a ∈ l <;> simp [hal, hab, List.filter_append]

theorem mem_firsts {l : List α} {a : α} : a ∈ firsts l ↔ a ∈ l := by
  induction l with
  | nil => simp [firsts]
  | cons b l ih =>
    simp only [firsts, List.mem_cons, List.mem_filter, ih, decide_eq_true_eq, ne_eq]
    tauto

theorem nodup_firsts (l : List α) : (firsts l).Nodup := by
  induction l with
  | nil => simp [firsts]
  | cons b l ih =>
    simp only [firsts, List.nodup_cons, List.mem_filter, decide_eq_true_eq, ne_eq, not_true_eq_false, and_false, not_false_eq_true, true_and]
    exact ih.filter _

theorem firsts_prefix (l m : List α) : ∃ k, firsts (l ++ m) = firsts l ++ k := by
  induction m using List.reverseRecOn with
  | nil => exact ⟨[], by simp⟩
  | append_singleton m a ih =>
    obtain ⟨k, hk⟩ := ih
    rw [← List.append_assoc, firsts_snoc]
    by_cases h : a ∈ l ++ m
    · exact ⟨k, by rw [if_pos h, hk]⟩
    · exact ⟨k ++ [a], by rw [if_neg h, hk, List.append_assoc]⟩

theorem idxOf_stable {l m : List α} {a : α} (h : a ∈ l) : (firsts (l ++ m)).idxOf a = (firsts l).idxOf a := by
  obtain ⟨k, hk⟩ := firsts_prefix l m
  rw [hk, List.idxOf_append_of_mem (mem_firsts.2 h)]

theorem map_stable (l m : List α) : (l.map fun c => (firsts (l ++ m)).idxOf c) = l.map fun c => (firsts l).idxOf c :=
  List.map_congr_left fun _ h => idxOf_stable h
end Firsts

theorem toV_inj {a b : Corner} (h : a.toV = b.toV) (hp : a.part = b.part) : a = b := by
  obtain ⟨a1, a2, a3, a4⟩ := a
  obtain ⟨b1, b2, b3, b4⟩ := b
  obtain rfl : a4 = b4 := hp
  unfold Corner.toV at h
  simp only [VIdx.mk.injEq] at h
  obtain ⟨h1, h2, h3⟩ := h
  have hi : ∀ x y : Option Nat, toI x = toI y → x = y := by
    intro x y h
    rcases x with _ | x <;> rcases y with _ | y <;> simp [toI] at h ⊢ <;> omega
  rw [Int.ofNat_inj] at h1
  rw [h1, hi _ _ h2, hi _ _ h3]

/-- all coordinates in one list -/
def flat (verts : List (T × T × T)) : List T := verts.flatMap fun p => [p.1, p.2.1, p.2.2]

theorem flat_length (verts : List (T × T × T)) : (flat verts).length = 3 * verts.length := by
  induction verts with
  | nil => rfl
  | cons p l ih =>
    have : flat (p :: l) = [p.1, p.2.1, p.2.2] ++ flat l := rfl
    rw [this, List.length_append, ih]; simp; omega

theorem flat_get : ∀ (verts : List (T × T × T)) (i : Nat) (p : T × T × T), verts[i]? = some p →
    (flat verts)[3 * i + 0]? = some p.1 ∧ (flat verts)[3 * i + 1]? = some p.2.1 ∧ (flat verts)[3 * i + 2]? = some p.2.2
  | [], i, p, h => by simp at h
  | q :: l, 0, p, h => by
    simp at h; subst h
    exact ⟨rfl, rfl, rfl⟩
  | q :: l, i + 1, p, h => by
    simp only [List.getElem?_cons_succ] at h
    have := flat_get l i p h
    have e : flat (q :: l) = q.1 :: q.2.1 :: q.2.2 :: flat l := rfl
    rw [e]
    refine ⟨?_, ?_, ?_⟩
    · rw [show 3 * (i + 1) + 0 = 3 * i + 0 + 1 + 1 + 1 by ring]; exact this.1
    · rw [show 3 * (i + 1) + 1 = 3 * i + 1 + 1 + 1 + 1 by ring]; exact this.2.1
    · rw [show 3 * (i + 1) + 2 = 3 * i + 2 + 1 + 1 + 1 by ring]; exact this.2.2

/-- the corner refers to something defined -/
structure Corner.In (nv nt nn part : Nat) (c : Corner) : Prop where
  v : c.v < nv
  vt : ∀ i, c.vt = some i → i < nt
  vn : ∀ i, c.vn = some i → i < nn
  here : c.part = part

theorem coords_length {verts : List (T × T × T)} {c : Corner} (h : c.v < verts.length) : (coords verts c).length = 3 := by
  unfold coords
  rw [List.getElem?_eq_getElem h]
  rfl

/-- the state of the export after the corners `cs`, in the given part -/
structure Exported (verts : List (T × T × T)) (part : Nat) (cs : List Corner) (st : List (VIdx × Nat) × ShapeS T) : Prop where
  cache : ∀ c : Corner, c.part = part → findCache c.toV st.1 = if c ∈ cs then some ((firsts cs).idxOf c) else none
  pos : st.2.positions = (firsts cs).flatMap (coords verts)
  range : ∀ c ∈ cs, c.v < verts.length

theorem flatMap_coords_length {verts : List (T × T × T)} (l : List Corner) (h : ∀ c ∈ l, c.v < verts.length) :
    (l.flatMap (coords verts)).length = 3 * l.length := by
  induction l with
  | nil => rfl
  | cons c l ih =>
    rw [List.flatMap_cons, List.length_append, ih fun c hc => h c (by simp [hc]), coords_length (h c (by simp))]
    simp; omega

theorem toUnsigned_ok {a : Int} (h0 : 0 ≤ a) (h1 : a ≤ 2147483647) : toUnsigned a = a.toNat := by
  unfold toUnsigned
  rw [Int.emod_eq_of_lt h0 (by omega)]

theorem normals_ok (l0 : List T) {vn : List T} {nn : Nat} (hs2 : 3 * nn ≤ 2147483647) (hvn : vn.length = 3 * nn) {o : Option Nat} (ho : ∀ i, o = some i → i < nn) :
    ∃ l : List T, (if 0 ≤ toI o then do
          let a ← inInt (toI o * 3)
          let a ← inInt (a + 2)
          if a.toNat < vn.length then do
            let x ← getIdx vn (3 * (toI o).toNat + 0)
            let y ← getIdx vn (3 * (toI o).toNat + 1)
            let z ← getIdx vn (3 * (toI o).toNat + 2)
            return l0 ++ [x, y, z]
          else return l0
        else return l0 : R (List T)) = .ok l := by
  rcases o with _ | k
  · exact ⟨l0, by rw [if_neg (by decide)]; rfl⟩
  · have hk := ho k rfl
    have e : toI (some k) = (k : Int) := rfl
    have i1 : inInt ((k : Int) * 3) = .ok ((k : Int) * 3) := inInt_ok (by omega) (by omega)
    have i2 : inInt ((k : Int) * 3 + 2) = .ok ((k : Int) * 3 + 2) := inInt_ok (by omega) (by omega)
    rw [e, if_pos (Int.natCast_nonneg k), i1, ok_bind, i2, ok_bind, Int.toNat_natCast]
    have h3 : ((k : Int) * 3 + 2).toNat < vn.length := by omega
    rw [if_pos h3, getIdx_eq (by omega)]
    simp only [ok_bind]
    rw [getIdx_eq (by omega)]
    simp only [ok_bind]
    rw [getIdx_eq (by omega)]
    exact ⟨_, rfl⟩

theorem texcoords_ok (l0 : List T) {vt : List T} {nt : Nat} (hs3 : 2 * nt ≤ 2147483647) (hvt : vt.length = 2 * nt) {o : Option Nat} (ho : ∀ i, o = some i → i < nt) :
    ∃ l : List T, (if 0 ≤ toI o then do
          let a ← inInt (toI o * 2)
          let a ← inInt (a + 1)
          if a.toNat < vt.length then do
            let x ← getIdx vt (2 * (toI o).toNat + 0)
            let y ← getIdx vt (2 * (toI o).toNat + 1)
            return l0 ++ [x, y]
          else return l0
        else return l0 : R (List T)) = .ok l := by
  rcases o with _ | k
  · exact ⟨l0, by rw [if_neg (by decide)]; rfl⟩
  · have hk := ho k rfl
    have e : toI (some k) = (k : Int) := rfl
    have i1 : inInt ((k : Int) * 2) = .ok ((k : Int) * 2) := inInt_ok (by omega) (by omega)
    have i2 : inInt ((k : Int) * 2 + 1) = .ok ((k : Int) * 2 + 1) := inInt_ok (by omega) (by omega)
    rw [e, if_pos (Int.natCast_nonneg k), i1, ok_bind, i2, ok_bind, Int.toNat_natCast]
    have h3 : ((k : Int) * 2 + 1).toNat < vt.length := by omega
    rw [if_pos h3, getIdx_eq (by omega)]
    simp only [ok_bind]
    rw [getIdx_eq (by omega)]
    exact ⟨_, rfl⟩

theorem updateVertex_ok {d : Doc T} (hsm : d.Small) {vn vt : List T} (hvn : vn.length = 3 * d.nn) (hvt : vt.length = 2 * d.nt)
    {cs : List Corner} {st : List (VIdx × Nat) × ShapeS T} (hst : Exported d.verts d.part cs st) {c : Corner} (hc : c.In d.verts.length d.nt d.nn d.part) :
    ∃ st', updateVertex (flat d.verts) vn vt st c.toV = .ok (st', (firsts (cs ++ [c])).idxOf c) ∧ Exported d.verts d.part (cs ++ [c]) st' ∧
      st'.2.indices = st.2.indices := by
  obtain ⟨hs1, hs2, hs3⟩ := hsm
  obtain ⟨h1, h2, h3⟩ := hst
  have hr : ∀ c' ∈ cs ++ [c], c'.v < d.verts.length := by
    intro c' h
    rw [List.mem_append, List.mem_singleton] at h
    rcases h with h | rfl
    · exact h3 c' h
    · exact hc.v
  unfold updateVertex
  by_cases hm : c ∈ cs
  · rw [h1 c hc.here, if_pos hm]
    have hf : firsts (cs ++ [c]) = firsts cs := by rw [firsts_snoc, if_pos hm]
    refine ⟨st, by rw [hf], ⟨fun c' hc' => ?_, by rw [hf]; exact h2, hr⟩, rfl⟩
    rw [h1 c' hc', hf]
    by_cases h : c' ∈ cs
    · simp [h]
    · have : c' ≠ c := by rintro rfl; exact h hm
      simp [h, this]
  · rw [h1 c hc.here, if_neg hm]
    have hf : firsts (cs ++ [c]) = firsts cs ++ [c] := by rw [firsts_snoc, if_neg hm]
    have hcv := hc.v
    have hV : c.toV.v = (c.v : Int) := rfl
    have hVt : c.toV.v.toNat = c.v := rfl
    obtain ⟨p, hp⟩ : ∃ p, d.verts[c.v]? = some p := ⟨_, List.getElem?_eq_getElem hcv⟩
    obtain ⟨g0, g1, g2⟩ := flat_get d.verts c.v p hp
    have hco : coords d.verts c = [p.1, p.2.1, p.2.2] := by unfold coords; rw [hp]
    have i1 : inInt (3 * (c.v : Int)) = .ok (3 * (c.v : Int)) := inInt_ok (by omega) (by omega)
    have i2 : inInt (3 * (c.v : Int) + 2) = .ok (3 * (c.v : Int) + 2) := inInt_ok (by omega) (by omega)
    rw [hV]
    show ∃ st', (inInt (3 * (c.v : Int)) >>= _) = _ ∧ _
    rw [i1, ok_bind, i2, ok_bind]
    have hass : toUnsigned (3 * (c.v : Int) + 2) < (flat d.verts).length := by
      rw [toUnsigned_ok (by omega) (by omega), flat_length]
      omega
    rw [assert_true hass]
    simp only [ok_bind]
    rw [if_neg (by omega), Int.toNat_natCast, getIdx_of_some g0]
    simp only [ok_bind]
    rw [getIdx_of_some g1]
    simp only [ok_bind]
    rw [getIdx_of_some g2]
    simp only [ok_bind]
    have hnor := normals_ok st.2.normals hs2 hvn hc.vn
    have htex := texcoords_ok st.2.texcoords hs3 hvt hc.vt
    obtain ⟨nor, hnor⟩ := hnor
    obtain ⟨tex, htex⟩ := htex
    rw [show c.toV.vn = toI c.vn from rfl, show c.toV.vt = toI c.vt from rfl, hnor]
    simp only [ok_bind]
    rw [htex]
    simp only [ok_bind]
    have hlen : (st.2.positions ++ [p.1, p.2.1, p.2.2]).length / 3 - 1 = (firsts cs).length := by
      rw [h2, List.length_append, flatMap_coords_length _ fun c hc => h3 c (mem_firsts.1 hc)]
      simp
    have hidx : (firsts (cs ++ [c])).idxOf c = (firsts cs).length := by
      rw [hf, List.idxOf_append_of_notMem fun h => hm (mem_firsts.1 h)]
      simp
    rw [hlen, hidx]
    refine ⟨_, rfl, ⟨fun c' hc' => ?_, ?_, hr⟩, rfl⟩
    · simp only [findCache]
      by_cases hcc : c' = c
      · subst hcc
        rw [if_pos rfl, if_pos (by simp), hidx]
      · rw [if_neg fun h => hcc (toV_inj h (hc.here.trans hc'.symm)).symm, h1 c' hc']
        by_cases h : c' ∈ cs
        · rw [if_pos h, if_pos (by simp [h]), idxOf_stable h]
        · rw [if_neg h, if_neg (by simp [h, hcc])]
    · simp only
      rw [h2, hf, List.flatMap_append, List.flatMap_singleton, hco]

theorem exportLoop_ok {d : Doc T} (hsm : d.Small) {vn vt : List T} (hvn : vn.length = 3 * d.nn) (hvt : vt.length = 2 * d.nt) (a : Corner)
    (ha : a.In d.verts.length d.nt d.nn d.part) (face : List VIdx) :
    ∀ (rest : List Corner) (k : Nat) (b : Corner) (cs : List Corner) (st : List (VIdx × Nat) × ShapeS T), Exported d.verts d.part cs st →
      st.2.indices = (cs.map fun c => (firsts cs).idxOf c) → b.In d.verts.length d.nt d.nn d.part → (∀ c ∈ rest, c.In d.verts.length d.nt d.nn d.part) →
      face.drop k = rest.map Corner.toV → k ≤ face.length →
      ∃ s, (forRange k face.length (st, b.toV) fun k s => do
          let i1 := s.2
          let i2 ← getIdx face k
          let (st, v0) ← updateVertex (flat d.verts) vn vt s.1 a.toV
          let (st, v1) ← updateVertex (flat d.verts) vn vt st i1
          let (st, v2) ← updateVertex (flat d.verts) vn vt st i2
          return ((st.1, { st.2 with indices := st.2.indices ++ [v0, v1, v2] }), i2)) = .ok s ∧
        Exported d.verts d.part (cs ++ fan (a :: b :: rest)) s.1 ∧
        s.1.2.indices = ((cs ++ fan (a :: b :: rest)).map fun c => (firsts (cs ++ fan (a :: b :: rest))).idxOf c) := by
  intro rest
  induction rest with
  | nil =>
    intro k b cs st h1 h2 hb hr hd hk
    have : face.length ≤ k := by
      simp only [List.map_nil, List.drop_eq_nil_iff] at hd; exact hd
    refine ⟨(st, b.toV), forRange_empty this _, ?_, ?_⟩
    · simpa [fan] using h1
    · simpa [fan] using h2
  | cons c rest ih =>
    intro k b cs st h1 h2 hb hr hd hk
    have hlt : k < face.length := by
      rcases Nat.lt_or_ge k face.length with h | h
      · exact h
      · rw [List.drop_eq_nil_iff.2 h] at hd; simp at hd
    have hget : face[k]? = some c.toV := by
      have := congrArg List.head? hd
      simpa [List.head?_drop] using this
    have hdrop : face.drop (k + 1) = rest.map Corner.toV := by
      have := congrArg List.tail hd
      simpa [List.tail_drop] using this
    rw [forRange_step hlt]
    simp only
    rw [getIdx_of_some hget]
    simp only [ok_bind]
    obtain ⟨s1, e1, i1, j1⟩ := updateVertex_ok hsm hvn hvt h1 ha
    rw [e1]
    simp only [ok_bind]
    obtain ⟨s2, e2, i2, j2⟩ := updateVertex_ok hsm hvn hvt i1 hb
    rw [e2]
    simp only [ok_bind]
    obtain ⟨s3, e3, i3, j3⟩ := updateVertex_ok hsm hvn hvt i2 (hr c (by simp))
    rw [e3]
    simp only [ok_bind, pure_eq_ok]
    have e : cs ++ [a] ++ [b] ++ [c] = cs ++ [a, b, c] := by simp
    have ha' : (firsts (cs ++ [a])).idxOf a = (firsts (cs ++ [a, b, c])).idxOf a := by
      rw [← e, List.append_assoc (cs ++ [a]), idxOf_stable (l := cs ++ [a]) (by simp)]
    have hb' : (firsts (cs ++ [a] ++ [b])).idxOf b = (firsts (cs ++ [a, b, c])).idxOf b := by
      rw [← e, idxOf_stable (l := cs ++ [a] ++ [b]) (by simp)]
    obtain ⟨s, hs, k1, k2⟩ := ih (k + 1) c (cs ++ [a, b, c]) (s3.1, { s3.2 with indices := s3.2.indices ++
        [(firsts (cs ++ [a])).idxOf a, (firsts (cs ++ [a] ++ [b])).idxOf b, (firsts (cs ++ [a] ++ [b] ++ [c])).idxOf c] })
      (by rw [← e]; exact ⟨i3.cache, i3.pos, i3.range⟩)
      (by
        simp only
        rw [j3, j2, j1, h2, List.map_append, map_stable, ha', hb', e]
        rfl)
      (hr c (by simp)) (fun c h => hr c (by simp [h])) hdrop hlt
    refine ⟨s, hs, ?_, ?_⟩
    · have : cs ++ fan (a :: b :: c :: rest) = cs ++ [a, b, c] ++ fan (a :: c :: rest) := by
        rw [fan]; simp
      rw [this]; exact k1
    · have : cs ++ fan (a :: b :: c :: rest) = cs ++ [a, b, c] ++ fan (a :: c :: rest) := by
        rw [fan]; simp
      rw [this]; exact k2

theorem exportFace_ok {d : Doc T} (hsm : d.Small) {vn vt : List T} (hvn : vn.length = 3 * d.nn) (hvt : vt.length = 2 * d.nt)
    {face : List Corner} (h2 : 2 ≤ face.length) (hr : ∀ c ∈ face, c.In d.verts.length d.nt d.nn d.part) {cs : List Corner} {st : List (VIdx × Nat) × ShapeS T}
    (h1 : Exported d.verts d.part cs st) (hi : st.2.indices = (cs.map fun c => (firsts cs).idxOf c)) :
    ∃ st', exportFace (flat d.verts) vn vt (face.map Corner.toV) st = .ok st' ∧ Exported d.verts d.part (cs ++ fan face) st' ∧
        st'.2.indices = ((cs ++ fan face).map fun c => (firsts (cs ++ fan face)).idxOf c) := by
  obtain ⟨a, b, rest, rfl⟩ : ∃ a b rest, face = a :: b :: rest := by
    rcases face with _ | ⟨a, _ | ⟨b, rest⟩⟩
    · simp at h2
    · simp at h2
    · exact ⟨a, b, rest, rfl⟩
  unfold exportFace
  rw [show getIdx ((a :: b :: rest).map Corner.toV) 0 = .ok a.toV from rfl]
  simp only [ok_bind]
  rw [show getIdx ((a :: b :: rest).map Corner.toV) 1 = .ok b.toV from rfl]
  simp only [ok_bind]
  obtain ⟨s, hs, k1, k2⟩ := exportLoop_ok hsm hvn hvt a (hr a (by simp)) ((a :: b :: rest).map Corner.toV) rest 2 b cs st h1 hi (hr b (by simp))
    (fun c h => hr c (by simp [h])) (by simp) (by simp)
  rw [hs]
  exact ⟨s.1, rfl, k1, k2⟩

theorem mem_fan {f : List Corner} {c : Corner} (h : c ∈ fan f) : c ∈ f := by
  induction f using fan.induct with
  | case1 a b c' l ih =>
    rw [fan] at h
    simp only [List.mem_cons] at h ih ⊢
    rcases h with h | h | h | h
    · exact Or.inl h
    · exact Or.inr (Or.inl h)
    · exact Or.inr (Or.inr (Or.inl h))
    · have := ih h; tauto
  | case2 f hf =>
    rw [fan] at h
    · simp at h
    · exact hf

theorem exportGroup_ok {d : Doc T} (hsm : d.Small) {vn vt : List T} (hvn : vn.length = 3 * d.nn) (hvt : vt.length = 2 * d.nt)
    {faces : List (List Corner)} (h2 : ∀ f ∈ faces, 2 ≤ f.length ∧ ∀ c ∈ f, c.In d.verts.length d.nt d.nn d.part)
    {old : List (List Corner)} (ho : ∀ f ∈ old, ∀ c ∈ f, c.v < d.verts.length ∧ c.part < d.part) {sh0 : ShapeS T} (h0 : (sh0.positions, sh0.indices) = arrays d.verts old) :
    ∃ sh, exportGroup (flat d.verts) vn vt sh0 (faces.map (List.map Corner.toV)) = .ok sh ∧ (sh.positions, sh.indices) = arrays d.verts (old ++ faces) := by
  have key : ∀ (faces : List (List Corner)) (cs : List Corner) (st : List (VIdx × Nat) × ShapeS T),
      (∀ f ∈ faces, 2 ≤ f.length ∧ ∀ c ∈ f, c.In d.verts.length d.nt d.nn d.part) → Exported d.verts d.part cs st →
      st.2.indices = (cs.map fun c => (firsts cs).idxOf c) →
      ∃ st', (forList (faces.map (List.map Corner.toV)) st fun face st => exportFace (flat d.verts) vn vt face st) = .ok st' ∧
        Exported d.verts d.part (cs ++ corners faces) st' ∧
        st'.2.indices = ((cs ++ corners faces).map fun c => (firsts (cs ++ corners faces)).idxOf c) := by
    intro faces
    induction faces with
    | nil =>
      intro cs st hf h1 hi
      exact ⟨st, rfl, by simpa [corners] using h1, by simpa [corners] using hi⟩
    | cons f faces ih =>
      intro cs st hf h1 hi
      obtain ⟨s1, e1, i1, j1⟩ := exportFace_ok hsm hvn hvt (hf f (by simp)).1 (hf f (by simp)).2 h1 hi
      obtain ⟨s2, e2, i2, j2⟩ := ih (cs ++ fan f) s1 (fun f h => hf f (by simp [h])) i1 j1
      refine ⟨s2, ?_, ?_, ?_⟩
      · simp only [List.map_cons, forList]
        rw [e1]
        exact e2
      · rw [show cs ++ corners (f :: faces) = cs ++ fan f ++ corners faces by simp [corners]]; exact i2
      · rw [show cs ++ corners (f :: faces) = cs ++ fan f ++ corners faces by simp [corners]]; exact j2
  have ho' : ∀ c ∈ corners old, c.v < d.verts.length ∧ c.part < d.part := by
    intro c hc
    unfold corners at hc
    rw [List.mem_flatMap] at hc
    obtain ⟨f, hf, hc⟩ := hc
    exact ho f hf c (mem_fan hc)
  obtain ⟨st', e, i, j⟩ := key faces (corners old) ([], sh0) h2
    ⟨fun c hp => by
      rw [if_neg fun hc => by have := (ho' c hc).2; omega]
      rfl, congrArg Prod.fst h0, fun c hc => (ho' c hc).1⟩ (congrArg Prod.snd h0)
  unfold exportGroup
  rw [e]
  refine ⟨st'.2, rfl, ?_⟩
  have hc : corners (old ++ faces) = corners old ++ corners faces := by unfold corners; rw [List.flatMap_append]
  unfold arrays
  rw [i.pos, j, hc]

/-! ### Lines -/

/-- the local variables of the parser after reading `d` -/
structure Reads (d : Doc T) (s : St T) : Prop where
  v : s.v = flat d.verts
  vn : s.vn.length = 3 * d.nn
  vt : s.vt.length = 2 * d.nt
  group : s.group = d.cur.map (List.map Corner.toV)
  mat : s.matMap = d.mats
  material : s.material = d.mat
  shape : (s.shape.positions, s.shape.indices) = arrays d.verts d.old
  shapes : (s.shapes.map fun sh => (sh.positions, sh.indices)) = d.done.map (arrays d.verts)
  cur_ok : ∀ f ∈ d.cur, 2 ≤ f.length ∧ ∀ c ∈ f, c.In d.verts.length d.nt d.nn d.part
  old_ok : ∀ f ∈ d.old, ∀ c ∈ f, c.v < d.verts.length ∧ c.part < d.part
  done_ok : ∀ g ∈ d.done, ∀ f ∈ g, ∀ c ∈ f, c.v < d.verts.length

theorem Corner.In.mono {a b c a' b' c' p : Nat} {x : Corner} (h : x.In a b c p) (h1 : a ≤ a') (h2 : b ≤ b') (h3 : c ≤ c') : x.In a' b' c' p :=
  ⟨lt_of_lt_of_le h.v h1, fun i hi => lt_of_lt_of_le (h.vt i hi) h2, fun i hi => lt_of_lt_of_le (h.vn i hi) h3, h.here⟩

theorem arrays_append {verts : List (T × T × T)} (p : T × T × T) {g : List (List Corner)} (h : ∀ f ∈ g, ∀ c ∈ f, c.v < verts.length) :
    arrays (verts ++ [p]) g = arrays verts g := by
  unfold arrays
  congr 1
  refine List.flatMap_congr fun c hc => ?_
  have hc : c ∈ corners g := mem_firsts.1 hc
  unfold corners at hc
  rw [List.mem_flatMap] at hc
  obtain ⟨f, hf, hc⟩ := hc
  have := h f hf c (mem_fan hc)
  unfold coords
  rw [List.getElem?_append_left this]

theorem flush_ok {d : Doc T} (hsm : d.Small) {s : St T} (h : Reads d s) (push : Bool) :
    ∃ s', flush push s = .ok s' ∧ s'.v = s.v ∧ s'.vn = s.vn ∧ s'.vt = s.vt ∧ s'.matMap = s.matMap ∧ s'.material = s.material ∧
      (s'.shape.positions, s'.shape.indices) = arrays d.verts (d.old ++ d.cur) ∧
      (push = true → (s'.shapes.map fun sh => (sh.positions, sh.indices)) = d.groups.map (arrays d.verts)) ∧ (push = false → s'.shapes = s.shapes) := by
  unfold flush Doc.groups
  by_cases hc : d.cur = []
  · rw [if_pos (by rw [h.group, hc]; rfl), if_pos hc]
    exact ⟨s, rfl, rfl, rfl, rfl, rfl, rfl, by rw [hc, List.append_nil]; exact h.shape, fun _ => h.shapes, fun _ => rfl⟩
  · rw [if_neg (by rw [h.group]; simpa using hc), if_neg hc]
    obtain ⟨sh, e, ha⟩ := exportGroup_ok hsm h.vn h.vt h.cur_ok h.old_ok h.shape
    rw [h.v, h.group, e, ok_bind]
    refine ⟨_, rfl, rfl, rfl, rfl, rfl, rfl, ha, fun hp => ?_, fun hp => ?_⟩
    · simp only [hp, if_true, List.map_append, h.shapes, List.map_cons, List.map_nil, ha]
    · simp only [hp]
      rfl

/-- the faces of the groups refer to vertices of the text -/
theorem Reads.groups_in {d : Doc T} {s : St T} (h : Reads d s) : ∀ g ∈ d.groups, ∀ f ∈ g, ∀ c ∈ f, c.v < d.verts.length := by
  intro g hg f hf c hc
  unfold Doc.groups at hg
  split_ifs at hg with hcur
  · exact h.done_ok g hg f hf c hc
  · rw [List.mem_append, List.mem_singleton] at hg
    rcases hg with hg | rfl
    · exact h.done_ok g hg f hf c hc
    · rw [List.mem_append] at hf
      rcases hf with hf | hf
      · exact (h.old_ok f hf c hc).1
      · exact ((h.cur_ok f hf).2 c hc).v

theorem isLetter_no {a c : Char} (p : List Char) (h : c ≠ a) : isLetter a (c :: p) = .ok false := by
  unfold isLetter
  rw [getIdx_zero, ok_bind, if_neg h]
  rfl

theorem isLetter_next {a b : Char} (p : List Char) (h : isBlank b = false) : isLetter a (a :: b :: p) = .ok false := by
  unfold isLetter
  rw [getIdx_zero, ok_bind, if_pos rfl, show getIdx (a :: b :: p) 1 = .ok b from rfl, ok_bind, h]
  rfl

theorem blank_iff {c : Char} : isBlank c = true ↔ c ∈ blanks := by
  unfold isBlank blanks
  simp

theorem isLetter_yes {a b : Char} (p : List Char) (h : b ∈ blanks) : isLetter a (a :: b :: p) = .ok true := by
  unfold isLetter
  rw [getIdx_zero, ok_bind, if_pos rfl, show getIdx (a :: b :: p) 1 = .ok b from rfl, ok_bind, blank_iff.2 h]
  rfl

theorem isVLetter_no {b c : Char} (p : List Char) (h : c ≠ 'v') : isVLetter b (c :: p) = .ok false := by
  unfold isVLetter
  rw [getIdx_zero, ok_bind, if_neg h]
  rfl

theorem isVLetter_no2 {b c : Char} (p : List Char) (h : c ≠ b) : isVLetter b ('v' :: c :: p) = .ok false := by
  unfold isVLetter
  rw [getIdx_zero, ok_bind, if_pos rfl, show getIdx ('v' :: c :: p) 1 = .ok c from rfl, ok_bind, if_neg h]
  rfl

theorem isVLetter_yes {b s : Char} (p : List Char) (h : s ∈ blanks) : isVLetter b ('v' :: b :: s :: p) = .ok true := by
  unfold isVLetter
  rw [getIdx_zero, ok_bind, if_pos rfl, show getIdx ('v' :: b :: s :: p) 1 = .ok b from rfl, ok_bind, if_pos rfl,
    show getIdx ('v' :: b :: s :: p) 2 = .ok s from rfl, ok_bind, blank_iff.2 h]
  rfl

theorem isCommand_no {w c : Char} {word : List Char} (p : List Char) (h : c ≠ w) : isCommand (w :: word) (c :: p) = .ok false := by
  unfold isCommand
  rw [if_neg]
  · rfl
  · simp [h]

theorem isCommand_yes {word : List Char} {s : Char} (p : List Char) (h : s ∈ blanks) : isCommand word (word ++ s :: p) = .ok true := by
  unfold isCommand
  rw [if_pos (by simp), getIdx_of_some (a := s) (by simp), ok_bind, blank_iff.2 h]
  rfl

theorem rest_end {r : List Char} (h : IsRest r) : ∃ t q, r ++ [nul] = t :: q ∧ IsEnd t := by
  cases r with
  | nil => exact ⟨nul, [], rfl, Or.inl rfl⟩
  | cons c r =>
    refine ⟨c, r ++ [nul], rfl, Or.inr ?_⟩
    have := h c rfl
    unfold blanks at this
    unfold blanksCr
    simp only [List.mem_cons, List.not_mem_nil, or_false] at this ⊢
    tauto

theorem blanks_end {b q : List Char} (hb : IsBlanks b) (hne : b ≠ []) : ∃ t q', b ++ q = t :: q' ∧ IsEnd t := by
  cases b with
  | nil => exact absurd rfl hne
  | cons c b => exact ⟨c, b ++ q, rfl, Or.inr (blanks_sub hb c (by simp))⟩

theorem field_then [CharZero T] (cast : T → T) {b q : List Char} (hb : IsBlanks b) {n : Num} (hn : n.Valid) (hs : n.Small)
    (hq : ∃ t q', q = t :: q' ∧ IsEnd t) : parseFloat cast (b ++ (n.text ++ q)) = .ok (cast n.value, q) := by
  obtain ⟨t, q', rfl, ht⟩ := hq
  exact C91_field cast hb hn hs ht q'

theorem scanName_ok {b name r : List Char} (hb : IsBlanks b) (hne : name ≠ []) (hl : name.length < 4096)
    (hn : ∀ c ∈ name, isCSpace c = false ∧ c ≠ nul) (hr : IsRest r) : scanName (b ++ (name ++ (r ++ [nul]))) = .ok name := by
  obtain ⟨c, n, rfl⟩ : ∃ c n, name = c :: n := by
    cases name with
    | nil => exact absurd rfl hne
    | cons c n => exact ⟨c, n, rfl⟩
  have h1 : skipSpace (b ++ ((c :: n) ++ (r ++ [nul]))) = .ok ((c :: n) ++ (r ++ [nul])) := by
    induction b with
    | nil => simp only [List.nil_append, List.cons_append, skipSpace, (hn c (by simp)).1]; rfl
    | cons x b ih =>
      have hx := hb x (by simp)
      have : isCSpace x = true := by
        unfold blanks at hx
        simp only [List.mem_cons, List.not_mem_nil, or_false] at hx
        rcases hx with rfl | rfl <;> decide
      simp only [List.cons_append, skipSpace, this, if_true]
      exact ih fun c h => hb c (by simp [h])
  have h2 : ((c :: n) ++ (r ++ [nul])).takeWhile (fun c => !isCSpace c && c != nul) = c :: n := by
    rw [List.takeWhile_append_of_pos]
    · have : (r ++ [nul]).takeWhile (fun c => !isCSpace c && c != nul) = [] := by
        cases r with
        | nil => rfl
        | cons x r =>
          have hx := hr x rfl
          unfold blanks at hx
          simp only [List.mem_cons, List.not_mem_nil, or_false] at hx
          rcases hx with rfl | rfl <;> rfl
      rw [this, List.append_nil]
    · intro x hx
      have := hn x hx
      simp [this.1, this.2]
  unfold scanName
  rw [h1]
  simp only [ok_bind]
  rw [h2, if_neg]
  · rfl
  · rintro (h | h)
    · simp at h
    · omega

theorem strspn_nul {set : List Char} (hs : nul ∉ set) : ∀ p : List Char, nul ∈ p → ∃ n, strspn set p = .ok n ∧ n < p.length ∧ nul ∈ p.drop n ∧
    ∀ c, (p.drop n).head? = some c → c ∉ set
  | [], h => by simp at h
  | c :: p, h => by
    by_cases hc : c ∈ set
    · have : nul ∈ p := by
        rw [List.mem_cons] at h
        rcases h with rfl | h
        · exact absurd hc hs
        · exact h
      obtain ⟨n, h1, h2, h3, h4⟩ := strspn_nul hs p this
      exact ⟨n + 1, by simp only [strspn, if_pos hc, h1, ok_bind]; rfl, by simp; omega, h3, h4⟩
    · refine ⟨0, by simp only [strspn, if_neg hc]; rfl, by simp, h, fun x hx => ?_⟩
      simp at hx; subst hx; exact hc

theorem strcspn_nul {set : List Char} : ∀ p : List Char, nul ∈ p → ∃ n, strcspn set p = .ok n ∧ n < p.length ∧ nul ∈ p.drop n ∧
    (n = 0 → ∃ c, p.head? = some c ∧ (c = nul ∨ c ∈ set))
  | [], h => by simp at h
  | c :: p, h => by
    by_cases hc : c = nul ∨ c ∈ set
    · exact ⟨0, by simp only [strcspn, if_pos hc]; rfl, by simp, h, fun _ => ⟨c, rfl, hc⟩⟩
    · have : nul ∈ p := by
        rw [List.mem_cons] at h
        rcases h with rfl | h
        · exact absurd (Or.inl rfl) hc
        · exact h
      obtain ⟨n, h1, h2, h3, -⟩ := strcspn_nul (set := set) p this
      exact ⟨n + 1, by simp only [strcspn, if_neg hc, h1, ok_bind]; rfl, by simp; omega, h3, by simp⟩

theorem adv_ok {p : List Char} {n : Nat} (h : n ≤ p.length) : adv p n = .ok (p.drop n) := if_pos h

/-- the names of a group: every line is accepted -/
theorem nameLoop_ok : ∀ (fuel : Nat) (p : List Char) (acc : List (List Char)), nul ∈ p → p.length < fuel →
    (∀ c, p.head? = some c → c ∉ blanksCr ∨ isNewLine c = true) → ∃ l, nameLoop fuel p acc = .ok (acc ++ l) ∧ ((∃ c, p.head? = some c ∧ isNewLine c = false) → l ≠ [])
  | 0, p, acc, h, hf, hb => by omega
  | fuel + 1, p, acc, h, hf, hb => by
    obtain ⟨c, q, rfl⟩ : ∃ c q, p = c :: q := by
      cases p with
      | nil => simp at h
      | cons c q => exact ⟨c, q, rfl⟩
    rw [nameLoop, getIdx_zero, ok_bind]
    by_cases hc : isNewLine c = true
    · rw [if_pos hc]
      refine ⟨[], by simp, ?_⟩
      rintro ⟨c', h1, h2⟩
      simp at h1; subst h1
      rw [hc] at h2; simp at h2
    · rw [if_neg hc]
      have hcb : c ∉ blanksCr := by
        rcases hb c rfl with h | h
        · exact h
        · exact absurd h hc
      have hcb' : c ∉ blanks := fun hx => hcb (blanks_sub (b := [c]) (by intro x hx'; simp at hx'; subst hx'; exact hx) c (by simp))
      unfold parseString
      rw [show strspn blanks (c :: q) = .ok 0 from strspn_ok [] (by simp) hcb' q]
      simp only [ok_bind]
      rw [show adv (c :: q) 0 = .ok (c :: q) from rfl]
      simp only [ok_bind]
      obtain ⟨n, h1, h2, h3, h4⟩ := strcspn_nul (set := blanksCr) (c :: q) h
      have hn : n ≠ 0 := by
        intro hn
        obtain ⟨c', e, hx⟩ := h4 hn
        simp at e; subst e
        rcases hx with rfl | hx
        · exact hc (by decide)
        · exact hcb hx
      rw [h1]
      simp only [ok_bind]
      rw [adv_ok (le_of_lt h2)]
      simp only [ok_bind, pure_eq_ok]
      obtain ⟨m, g1, g2, g3, g4⟩ := strspn_nul (set := blanksCr) (by decide) _ h3
      rw [g1]
      simp only [ok_bind]
      rw [adv_ok (le_of_lt g2)]
      simp only [ok_bind]
      obtain ⟨l, e, -⟩ := nameLoop_ok fuel (((c :: q).drop n).drop m) (acc ++ [(c :: q).take n]) g3
        (by simp only [List.length_drop, List.length_cons] at hf ⊢; omega) (fun c hc => Or.inl (g4 c hc))
      refine ⟨[(c :: q).take n] ++ l, by rw [e, List.append_assoc], by simp⟩

/-- what is left at the beginning of a value: after the last value everything is read, including the `NUL` -/
def left : List (Char × List Char) → List Char
  | [] => []
  | (_, v) :: l => v ++ (tail l ++ [nul])

theorem blanks_facts {c : Char} (h : c ∈ blanks) : ¬ IsDigit c ∧ c ∈ blanksSlash ∧ c ≠ '/' ∧ c ≠ nul := by
  unfold blanks at h
  simp only [List.mem_cons, List.not_mem_nil, or_false] at h
  rcases h with rfl | rfl <;> (unfold IsDigit; decide)

theorem tail_head {l : List (Char × List Char)} (h : ∀ v ∈ l, v.1 ∈ blanks) : ∃ t q, tail l ++ [nul] = t :: q ∧ (t = nul ∨ t ∈ blanks) ∧ q = left l := by
  cases l with
  | nil => exact ⟨nul, [], rfl, Or.inl rfl, rfl⟩
  | cons v l =>
    obtain ⟨s, v⟩ := v
    exact ⟨s, v ++ tail l ++ [nul], by simp [tail], Or.inr (h (s, v) (by simp)), by simp [left]⟩

theorem sep_facts {t : Char} (h : t = nul ∨ t ∈ blanks) : ¬ IsDigit t ∧ (t = nul ∨ t ∈ blanksSlash) ∧ IsEnd t := by
  rcases h with rfl | h
  · exact ⟨by unfold IsDigit; decide, Or.inl rfl, Or.inl rfl⟩
  · refine ⟨(blanks_facts h).1, Or.inr (blanks_facts h).2.1, Or.inr ?_⟩
    exact blanks_sub (b := [t]) (by intro x hx; simp at hx; subst hx; exact h) t (by simp)

theorem adv_succ (w : List Char) (c : Char) (r : List Char) : adv (w ++ c :: r) (w.length + 1) = .ok r := by
  have := adv_append (w ++ [c]) r
  simpa using this

theorem adv_one (c : Char) (r : List Char) : adv (c :: r) 1 = .ok r := adv_append [c] r
theorem adv_two (c d : Char) (r : List Char) : adv (c :: d :: r) 2 = .ok r := adv_append [c, d] r

theorem tagLoop_ok {take : List Char → R (List Char)} : ∀ (l1 l2 : List (Char × List Char)),
    (∀ v ∈ l1, ∀ r, (∀ x ∈ r, x ∈ l1 ++ l2) → take (left (v :: r)) = .ok (left r)) → tagLoop take l1.length (left (l1 ++ l2)) = .ok (left l2)
  | [], l2, _ => rfl
  | v :: l1, l2, h => by
    rw [List.length_cons, tagLoop, List.cons_append, h v (by simp) _ (by intro x hx; simp at hx ⊢; tauto), ok_bind]
    exact tagLoop_ok l1 l2 fun u hu r hr => h u (by simp [hu]) r fun x hx => by have := hr x hx; simp at this ⊢; tauto

theorem parseTagTriple_ok {ni nf ns : IntLit} (hi : ni.Valid) (hf : nf.Valid) (hs : ns.Valid) (ni0 : 0 ≤ ni.value) (nf0 : 0 ≤ nf.value) (ns0 : 0 ≤ ns.value)
    (ni1 : ni.value ≤ 2147483647) (nf1 : nf.value ≤ 2147483647) (ns1 : ns.value ≤ 2147483647) {l : List (Char × List Char)} (hl : ∀ v ∈ l, v.1 ∈ blanks) :
    parseTagTriple (ni.text ++ '/' :: (nf.text ++ '/' :: (ns.text ++ (tail l ++ [nul])))) = .ok ((ni.value, nf.value, ns.value), left l) := by
  obtain ⟨t, q, e, ht, rfl⟩ := tail_head hl
  obtain ⟨t1, t2, -⟩ := sep_facts ht
  have hd : ¬ IsDigit '/' := by unfold IsDigit; decide
  rw [e]
  unfold parseTagTriple
  rw [atoi_ok hi ⟨by omega, ni1⟩ hd, ok_bind, strcspn_ok ni.text (IntLit.word hi) (.inr (by decide)), ok_bind, adv_append, ok_bind, getIdx_zero, ok_bind, if_neg (by decide),
    adv_one, ok_bind, atoi_ok hf ⟨by omega, nf1⟩ hd, ok_bind, strcspn_ok nf.text (IntLit.word hf) (.inr (by decide)), ok_bind, adv_append, ok_bind, getIdx_zero, ok_bind,
    if_neg (by decide), adv_one, ok_bind, atoi_ok hs ⟨by omega, ns1⟩ t1, ok_bind, strcspn_ok ns.text (IntLit.word hs) t2, ok_bind, adv_succ, ok_bind]
  rfl

/-- a well-formed tag is read to its end -/
theorem parseTag_ok [CharZero T] (cast : T → T) {s s1 : Char} (hs1 : s1 ∈ blanks) {name : List Char} (hn : name ≠ []) (hlen : name.length < 4096)
    (hname : ∀ c ∈ name, isCSpace c = false ∧ c ≠ nul) {ni nf ns : IntLit} {ints floats words : List (Char × List Char)} (vi : ni.Valid) (vf : nf.Valid) (vs : ns.Valid)
    (ei : ni.value = ints.length) (ef : nf.value = floats.length) (es : ns.value = words.length) (bi : ni.value ≤ 2147483647) (bf : nf.value ≤ 2147483647)
    (bs : ns.value ≤ 2147483647) (h : TagIs ints floats words) :
    parseTag cast ('t' :: s :: (name ++ s1 :: (ni.text ++ '/' :: (nf.text ++ '/' :: (ns.text ++ (tail (ints ++ floats ++ words) ++ [nul])))))) = .ok () := by
  have hscan : scanName (name ++ s1 :: (ni.text ++ '/' :: (nf.text ++ '/' :: (ns.text ++ (tail (ints ++ floats ++ words) ++ [nul]))))) = .ok name := by
    have := scanName_ok (b := []) (r := s1 :: (ni.text ++ '/' :: (nf.text ++ '/' :: (ns.text ++ tail (ints ++ floats ++ words))))) (by intro c hc; simp at hc) hn hlen hname
      (by intro c hc; simp at hc; subst hc; exact hs1)
    simpa using this
  unfold parseTag
  rw [adv_two, ok_bind, hscan, ok_bind, adv_succ, ok_bind,
    parseTagTriple_ok vi vf vs (by omega) (by omega) (by omega) bi bf bs h.seps]
  simp only [ok_bind]
  rw [assert_true (by omega), ok_bind, ei, Int.toNat_natCast, List.append_assoc, tagLoop_ok ints (floats ++ words), ok_bind, assert_true (by omega), ok_bind, ef, Int.toNat_natCast,
    tagLoop_ok floats words, ok_bind, assert_true (by omega), ok_bind, es, Int.toNat_natCast]
  · have := tagLoop_ok (take := fun p => do
      let s ← scanName p
      adv p (s.length + 1)) words [] (fun v hv r hr => by
        obtain ⟨w1, w2, w3⟩ := h.words v hv
        have hr' : ∀ x ∈ r, x.1 ∈ blanks := fun x hx => h.seps x (by have := hr x hx; simp at this ⊢; tauto)
        obtain ⟨t, q, e, ht, rfl⟩ := tail_head hr'
        have hsc : scanName (v.2 ++ (tail r ++ [nul])) = .ok v.2 := by
          have := scanName_ok (b := []) (r := tail r) (by intro c hc; simp at hc) w1 w2 w3 (by
            intro c hc
            cases r with
            | nil => simp [tail] at hc
            | cons x r => simp [tail] at hc; subst hc; exact hr' x (by simp))
          simpa using this
        show (do let s ← scanName (v.2 ++ (tail r ++ [nul])); adv (v.2 ++ (tail r ++ [nul])) (s.length + 1)) = _
        rw [hsc, ok_bind, e, adv_succ])
    rw [List.append_nil] at this
    rw [this]
    rfl
  · intro v hv r hr
    obtain ⟨n, n1, n2, n3⟩ := h.floats v hv
    have hr' : ∀ x ∈ r, x.1 ∈ blanks := fun x hx => h.seps x (by have := hr x hx; simp at this ⊢; tauto)
    obtain ⟨t, q, e, ht, rfl⟩ := tail_head hr'
    obtain ⟨-, t2, t3⟩ := sep_facts ht
    show (do let (_, p) ← parseFloat cast (v.2 ++ (tail r ++ [nul])); let n ← strcspn blanksSlash p; adv p (n + 1)) = _
    rw [n3, e]
    have hpf := field_then cast (b := []) (q := t :: left r) (by intro c hc; simp at hc) n1 n2 ⟨t, _, rfl, t3⟩
    rw [List.nil_append] at hpf
    rw [hpf]
    simp only [ok_bind]
    have hz := strcspn_ok (set := blanksSlash) [] (by simp) t2 (left r)
    rw [List.nil_append] at hz
    rw [hz, ok_bind]
    exact adv_succ [] t _
  · intro v hv r hr
    obtain ⟨n, n1, n2, n3⟩ := h.ints v hv
    have hr' : ∀ x ∈ r, x.1 ∈ blanks := fun x hx => h.seps x (by have := hr x hx; simp at this ⊢; tauto)
    obtain ⟨t, q, e, ht, rfl⟩ := tail_head hr'
    obtain ⟨t1, t2, t3⟩ := sep_facts ht
    show (do let _ ← atoi (v.2 ++ (tail r ++ [nul])); let n ← strcspn blanksSlash (v.2 ++ (tail r ++ [nul])); adv (v.2 ++ (tail r ++ [nul])) (n + 1)) = _
    rw [n3, e, atoi_ok n1 n2 t1, ok_bind, strcspn_ok n.text (IntLit.word n1) t2, ok_bind, adv_succ]

/-- what a line does: the reading goes on with the item the line denotes -/
theorem command_ok [CharZero T] (cast : T → T) (readMtl : List Char → MatMap → R MatMap) {l : List Char} {i : Item T} (hl : LineIs cast readMtl l i) {d : Doc T}
    (hsm : d.Small) {s : St T} (h : Reads d s) (hi : i.Ok d) (hne : l ≠ []) :
    ∃ s', (do
        let n ← strspn blanks (l ++ [nul])
        let p ← adv (l ++ [nul]) n
        command cast readMtl p s) = .ok s' ∧ Reads (d.step i) s' := by
  have start : ∀ (b : List Char) (c : Char) (q : List Char), IsBlanks b → c ∉ blanks → (do
        let n ← strspn blanks ((b ++ c :: q))
        let p ← adv ((b ++ c :: q)) n
        command cast readMtl p s) = command cast readMtl (c :: q) s := by
    intro b c q hb hc
    rw [strspn_ok b hb hc, ok_bind, adv_append, ok_bind]
  have adv2 : ∀ (a b : Char) (q : List Char), adv (a :: b :: q) 2 = .ok q := fun a b q => adv_append [a, b] q
  have adv3 : ∀ (a b c : Char) (q : List Char), adv (a :: b :: c :: q) 3 = .ok q := fun a b c q => adv_append [a, b, c] q
  cases hl with
  | blank _ hb =>
    refine ⟨s, ?_, h⟩
    rw [start l nul [] hb (by decide)]
    rfl
  | other b c r hb hc hcs =>
    refine ⟨s, ?_, h⟩
    rw [show b ++ c :: r ++ [nul] = b ++ c :: (r ++ [nul]) by simp, start b c _ hb hc]
    simp only [List.mem_cons, List.not_mem_nil, or_false, not_or] at hcs
    obtain ⟨h1, h2, h3, h4, h5, h6, h7⟩ := hcs
    unfold command
    rw [getIdx_zero, ok_bind]
    by_cases hc0 : c = nul
    · rw [if_pos hc0]; rfl
    by_cases hc1 : c = '#'
    · rw [if_neg hc0, if_pos hc1]; rfl
    · rw [if_neg hc0, if_neg hc1, isLetter_no _ h1, ok_bind, if_neg (by decide), isVLetter_no _ h1, ok_bind, if_neg (by decide), isVLetter_no _ h1, ok_bind, if_neg (by decide),
        isLetter_no _ h2, ok_bind, if_neg (by decide), isCommand_no _ h3, ok_bind, if_neg (by decide), isCommand_no _ h4, ok_bind, if_neg (by decide),
        isLetter_no _ h5, ok_bind, if_neg (by decide), isLetter_no _ h6, ok_bind, if_neg (by decide), isLetter_no _ h7, ok_bind, if_neg (by decide)]
      rfl
  | vertex b c b1 b2 b3 x y z r hb hc hb1 hb2 hne2 hb3 hne3 hx hx' hy hy' hz hz' hr =>
    rw [show b ++ 'v' :: c :: (b1 ++ (x.text ++ (b2 ++ (y.text ++ (b3 ++ (z.text ++ r)))))) ++ [nul] =
      b ++ 'v' :: c :: (b1 ++ (x.text ++ (b2 ++ (y.text ++ (b3 ++ (z.text ++ (r ++ [nul]))))))) by simp, start b 'v' _ hb (by decide)]
    unfold command
    rw [getIdx_zero, ok_bind, if_neg (by decide), if_neg (by decide), isLetter_yes _ hc, ok_bind, if_pos rfl, adv2, ok_bind,
      field_then cast hb1 hx hx' (blanks_end hb2 hne2)]
    simp only [ok_bind]
    rw [field_then cast hb2 hy hy' (blanks_end hb3 hne3)]
    simp only [ok_bind]
    rw [field_then cast hb3 hz hz' (rest_end hr)]
    refine ⟨_, rfl, ⟨?_, h.vn, h.vt, h.group, h.mat, h.material, ?_, ?_, ?_, ?_, ?_⟩⟩
    · simp [h.v, flat, Doc.step]
    · show _ = arrays (d.verts ++ [_]) d.old
      rw [arrays_append _ fun f hf c hc => (h.old_ok f hf c hc).1]
      exact h.shape
    · show _ = d.done.map (arrays (d.verts ++ [_]))
      rw [h.shapes]
      exact List.map_congr_left fun g hg => (arrays_append _ (h.done_ok g hg)).symm
    · intro f hf
      obtain ⟨g1, g2⟩ := h.cur_ok f hf
      exact ⟨g1, fun c hc => (g2 c hc).mono (by simp [Doc.step]) le_rfl le_rfl⟩
    · intro f hf c hc
      have := h.old_ok f hf c hc
      simp [Doc.step]; omega
    · intro g hg f hf c hc
      have := h.done_ok g hg f hf c hc
      simp [Doc.step]; omega
  | normal b c b1 b2 b3 x y z r hb hc hb1 hb2 hne2 hb3 hne3 hx hx' hy hy' hz hz' hr =>
    rw [show b ++ 'v' :: 'n' :: c :: (b1 ++ (x.text ++ (b2 ++ (y.text ++ (b3 ++ (z.text ++ r)))))) ++ [nul] =
      b ++ 'v' :: 'n' :: c :: (b1 ++ (x.text ++ (b2 ++ (y.text ++ (b3 ++ (z.text ++ (r ++ [nul]))))))) by simp, start b 'v' _ hb (by decide)]
    unfold command
    rw [getIdx_zero, ok_bind, if_neg (by decide), if_neg (by decide), isLetter_next _ (by decide), ok_bind, if_neg (by decide),
      isVLetter_yes _ hc, ok_bind, if_pos rfl, adv3, ok_bind,
      field_then cast hb1 hx hx' (blanks_end hb2 hne2)]
    simp only [ok_bind]
    rw [field_then cast hb2 hy hy' (blanks_end hb3 hne3)]
    simp only [ok_bind]
    rw [field_then cast hb3 hz hz' (rest_end hr)]
    refine ⟨_, rfl, ⟨h.v, ?_, h.vt, h.group, h.mat, h.material, h.shape, h.shapes, ?_, h.old_ok, h.done_ok⟩⟩
    · simp [h.vn, Doc.step]; omega
    · intro f hf
      obtain ⟨g1, g2⟩ := h.cur_ok f hf
      exact ⟨g1, fun c hc => (g2 c hc).mono le_rfl le_rfl (by simp [Doc.step])⟩
  | texcoord b c b1 b2 x y r hb hc hb1 hb2 hne2 hx hx' hy hy' hr =>
    rw [show b ++ 'v' :: 't' :: c :: (b1 ++ (x.text ++ (b2 ++ (y.text ++ r)))) ++ [nul] =
      b ++ 'v' :: 't' :: c :: (b1 ++ (x.text ++ (b2 ++ (y.text ++ (r ++ [nul]))))) by simp, start b 'v' _ hb (by decide)]
    unfold command
    rw [getIdx_zero, ok_bind, if_neg (by decide), if_neg (by decide), isLetter_next _ (by decide), ok_bind, if_neg (by decide),
      isVLetter_no2 _ (by decide), ok_bind, if_neg (by decide),
      isVLetter_yes _ hc, ok_bind, if_pos rfl, adv3, ok_bind,
      field_then cast hb1 hx hx' (blanks_end hb2 hne2)]
    simp only [ok_bind]
    rw [field_then cast hb2 hy hy' (rest_end hr)]
    refine ⟨_, rfl, ⟨h.v, h.vn, ?_, h.group, h.mat, h.material, h.shape, h.shapes, ?_, h.old_ok, h.done_ok⟩⟩
    · simp [h.vt, Doc.step]; omega
    · intro f hf
      obtain ⟨g1, g2⟩ := h.cur_ok f hf
      exact ⟨g1, fun c hc => (g2 c hc).mono le_rfl (by simp [Doc.step]) le_rfl⟩
  | face b c b1 r refs hb hc hb1 hr =>
    rw [show b ++ 'f' :: c :: (b1 ++ r) ++ [nul] = b ++ 'f' :: c :: (b1 ++ (r ++ [nul])) by simp, start b 'f' _ hb (by decide)]
    unfold command
    have hhead : ∃ c' q, r ++ [nul] = c' :: q ∧ c' ∉ blanks := by
      have : ∃ c' q, r ++ [nul] = c' :: q ∧ c' ∉ blanksCr := by
        cases hr with
        | one r' b' hv' hb' =>
          obtain ⟨c, q, hq, -, hc⟩ := Ref.head hv' (b' ++ [nul])
          exact ⟨c, q, by rw [List.append_assoc]; exact hq, hc⟩
        | cons r' b' s' rs' hv' hb' hne' hrs' =>
          obtain ⟨c, q, hq, -, hc⟩ := Ref.head hv' (b' ++ s' ++ [nul])
          exact ⟨c, q, by rw [List.append_assoc]; exact hq, hc⟩
      obtain ⟨c', q, h1, h2⟩ := this
      exact ⟨c', q, h1, fun hx => h2 (blanks_sub (b := [c']) (by intro x hx'; simp at hx'; subst hx'; exact hx) c' (by simp))⟩
    obtain ⟨c', q, hq, hc'⟩ := hhead
    have hlen : refs.length < (r ++ [nul]).length + 1 := by
      have : ∀ {s : List Char} {refs : List Ref}, RefsIs s refs → refs.length ≤ s.length := by
        intro s refs hr
        induction hr with
        | one r b hv hb =>
          obtain ⟨c, q, hq, -⟩ := Ref.head hv b
          rw [hq]; simp
        | cons r b s rs hv hb hne hrs ih =>
          have : 0 < b.length := List.length_pos_iff.2 hne
          simp; omega
      have := this hr
      simp; omega
    rw [getIdx_zero, ok_bind, if_neg (by decide), if_neg (by decide), isLetter_no _ (by decide), ok_bind, if_neg (by decide),
      isVLetter_no _ (by decide), ok_bind, if_neg (by decide), isVLetter_no _ (by decide), ok_bind, if_neg (by decide),
      isLetter_yes _ hc, ok_bind, if_pos rfl, adv2, ok_bind, hq, strspn_ok b1 hb1 hc', ok_bind, adv_append, ok_bind, ← hq]
    have e1 : s.v.length / 3 = d.verts.length := by rw [h.v, flat_length]; omega
    have e2 : s.vn.length / 3 = d.nn := by rw [h.vn]; omega
    have e3 : s.vt.length / 2 = d.nt := by rw [h.vt]; omega
    rw [e1, e2, e3, faceLoop_ok hsm hr hi.2 _ _ hlen, ok_bind]
    refine ⟨_, rfl, ⟨h.v, h.vn, h.vt, ?_, h.mat, h.material, h.shape, h.shapes, ?_, h.old_ok, h.done_ok⟩⟩
    · simp [h.group, Doc.step]
    · intro f hf
      simp only [Doc.step, List.mem_append, List.mem_singleton] at hf
      rcases hf with hf | rfl
      · exact h.cur_ok f hf
      · refine ⟨by have := hi.1; simp; omega, fun c hc => ?_⟩
        rw [List.mem_map] at hc
        obtain ⟨rf, hrf, rfl⟩ := hc
        have hok := hi.2 rf hrf
        refine ⟨resolve_lt hok.v, fun k hk => ?_, fun k hk => ?_, rfl⟩
        · simp only [Ref.corner, Option.map_eq_some_iff] at hk
          obtain ⟨j, h1, rfl⟩ := hk
          exact resolve_lt (hok.vt j h1)
        · simp only [Ref.corner, Option.map_eq_some_iff] at hk
          obtain ⟨j, h1, rfl⟩ := hk
          exact resolve_lt (hok.vn j h1)
  | object b c b1 name r hb hc hb1 hn hlen hname hr =>
    rw [show b ++ 'o' :: c :: (b1 ++ (name ++ r)) ++ [nul] = b ++ 'o' :: c :: (b1 ++ (name ++ (r ++ [nul]))) by simp, start b 'o' _ hb (by decide)]
    unfold command
    obtain ⟨s', e, h1, h2, h3, h4, h5, -, h6, -⟩ := flush_ok hsm h true
    rw [getIdx_zero, ok_bind, if_neg (by decide), if_neg (by decide), isLetter_no _ (by decide), ok_bind, if_neg (by decide),
      isVLetter_no _ (by decide), ok_bind, if_neg (by decide), isVLetter_no _ (by decide), ok_bind, if_neg (by decide),
      isLetter_no _ (by decide), ok_bind, if_neg (by decide), isCommand_no _ (by decide), ok_bind, if_neg (by decide),
      isCommand_no _ (by decide), ok_bind, if_neg (by decide), isLetter_no _ (by decide), ok_bind, if_neg (by decide),
      isLetter_yes _ hc, ok_bind, if_pos rfl, e, ok_bind, adv2, ok_bind, scanName_ok hb1 hn hlen hname hr, ok_bind]
    refine ⟨_, rfl, ⟨h1.trans h.v, by simp only [h2, h.vn]; rfl, by simp only [h3, h.vt]; rfl, rfl, h4.trans h.mat, h5.trans h.material, rfl, h6 rfl, ?_, ?_,
      h.groups_in⟩⟩
    · intro f hf; simp [Doc.step] at hf
    · intro f hf; simp [Doc.step] at hf
  | group b c r hb hc =>
    rw [show b ++ 'g' :: c :: r ++ [nul] = b ++ 'g' :: c :: (r ++ [nul]) by simp, start b 'g' _ hb (by decide)]
    unfold command
    obtain ⟨s', e, h1, h2, h3, h4, h5, -, h6, -⟩ := flush_ok hsm h true
    obtain ⟨names, e', hnames⟩ := nameLoop_ok (('g' :: c :: (r ++ [nul])).length + 1) ('g' :: c :: (r ++ [nul])) [] (by simp) (by omega)
      (by intro x hx; simp at hx; subst hx; left; decide)
    have hnn := hnames ⟨'g', rfl, by decide⟩
    rw [getIdx_zero, ok_bind, if_neg (by decide), if_neg (by decide), isLetter_no _ (by decide), ok_bind, if_neg (by decide),
      isVLetter_no _ (by decide), ok_bind, if_neg (by decide), isVLetter_no _ (by decide), ok_bind, if_neg (by decide),
      isLetter_no _ (by decide), ok_bind, if_neg (by decide), isCommand_no _ (by decide), ok_bind, if_neg (by decide),
      isCommand_no _ (by decide), ok_bind, if_neg (by decide),
      isLetter_yes _ hc, ok_bind, if_pos rfl, e, ok_bind, e', ok_bind, List.nil_append, assert_true (List.length_pos_iff.2 hnn), ok_bind]
    refine ⟨_, rfl, ⟨h1.trans h.v, by simp only [h2, h.vn]; rfl, by simp only [h3, h.vt]; rfl, rfl, h4.trans h.mat, h5.trans h.material, rfl, h6 rfl, ?_, ?_,
      h.groups_in⟩⟩
    · intro f hf; simp [Doc.step] at hf
    · intro f hf; simp [Doc.step] at hf
  | material b c b1 name r hb hc hb1 hn hlen hname hr =>
    rw [show b ++ ['u', 's', 'e', 'm', 't', 'l'] ++ c :: (b1 ++ (name ++ r)) ++ [nul] =
      b ++ 'u' :: (['s', 'e', 'm', 't', 'l'] ++ c :: (b1 ++ (name ++ (r ++ [nul])))) by simp, start b 'u' _ hb (by decide)]
    unfold command
    rw [getIdx_zero, ok_bind, if_neg (by decide), if_neg (by decide), isLetter_no _ (by decide), ok_bind, if_neg (by decide),
      isVLetter_no _ (by decide), ok_bind, if_neg (by decide), isVLetter_no _ (by decide), ok_bind, if_neg (by decide),
      isLetter_no _ (by decide), ok_bind, if_neg (by decide),
      show 'u' :: (['s', 'e', 'm', 't', 'l'] ++ c :: (b1 ++ (name ++ (r ++ [nul])))) = ['u', 's', 'e', 'm', 't', 'l'] ++ c :: (b1 ++ (name ++ (r ++ [nul]))) from rfl,
      isCommand_yes _ hc, ok_bind, if_pos rfl,
      show adv (['u', 's', 'e', 'm', 't', 'l'] ++ c :: (b1 ++ (name ++ (r ++ [nul])))) 7 = .ok (b1 ++ (name ++ (r ++ [nul]))) from
        adv_append ['u', 's', 'e', 'm', 't', 'l', c] _, ok_bind, scanName_ok hb1 hn hlen hname hr, ok_bind]
    simp only
    rw [h.mat, h.material]
    by_cases hid : d.number name = d.mat
    · rw [if_neg (show ¬ (d.mats.find name).getD (-1) ≠ d.mat from not_not.2 hid)]
      refine ⟨s, rfl, ?_⟩
      have : d.step (.material name) = d := if_pos hid
      rw [this]
      exact h
    · rw [if_pos (show (d.mats.find name).getD (-1) ≠ d.mat from hid)]
      obtain ⟨s', e, h1, h2, h3, h4, h5, h6, -, h7⟩ := flush_ok hsm h false
      rw [e, ok_bind]
      have hst : d.step (.material name) = { d with old := d.old ++ d.cur, cur := [], part := d.part + 1, mat := d.number name } := if_neg hid
      rw [hst]
      refine ⟨_, rfl, ⟨h1.trans h.v, by simp only [h2, h.vn], by simp only [h3, h.vt], rfl, h4.trans h.mat, rfl, h6, by simp only [h7 rfl]; exact h.shapes, ?_, ?_,
        h.done_ok⟩⟩
      · intro f hf; simp at hf
      · intro f hf c hc
        simp only [List.mem_append] at hf ⊢
        rcases hf with hf | hf
        · have := h.old_ok f hf c hc
          exact ⟨this.1, by omega⟩
        · have := (h.cur_ok f hf).2 c hc
          exact ⟨this.v, by have := this.here; omega⟩
  | library b c b1 name r change hb hc hb1 hn hlen hname hr hch =>
    rw [show b ++ ['m', 't', 'l', 'l', 'i', 'b'] ++ c :: (b1 ++ (name ++ r)) ++ [nul] =
      b ++ 'm' :: (['t', 'l', 'l', 'i', 'b'] ++ c :: (b1 ++ (name ++ (r ++ [nul])))) by simp, start b 'm' _ hb (by decide)]
    unfold command
    rw [getIdx_zero, ok_bind, if_neg (by decide), if_neg (by decide), isLetter_no _ (by decide), ok_bind, if_neg (by decide),
      isVLetter_no _ (by decide), ok_bind, if_neg (by decide), isVLetter_no _ (by decide), ok_bind, if_neg (by decide),
      isLetter_no _ (by decide), ok_bind, if_neg (by decide), isCommand_no _ (by decide), ok_bind, if_neg (by decide),
      show 'm' :: (['t', 'l', 'l', 'i', 'b'] ++ c :: (b1 ++ (name ++ (r ++ [nul])))) = ['m', 't', 'l', 'l', 'i', 'b'] ++ c :: (b1 ++ (name ++ (r ++ [nul]))) from rfl,
      isCommand_yes _ hc, ok_bind, if_pos rfl,
      show adv (['m', 't', 'l', 'l', 'i', 'b'] ++ c :: (b1 ++ (name ++ (r ++ [nul])))) 7 = .ok (b1 ++ (name ++ (r ++ [nul]))) from
        adv_append ['m', 't', 'l', 'l', 'i', 'b', c] _, ok_bind, scanName_ok hb1 hn hlen hname hr, ok_bind, hch, ok_bind]
    exact ⟨_, rfl, ⟨h.v, h.vn, h.vt, h.group, by simp only [h.mat]; rfl, h.material, h.shape, h.shapes, h.cur_ok, h.old_ok, h.done_ok⟩⟩
  | tag b c c1 name ni nf ns ints floats words hb hc hc1 hn hlen hname vi vf vs ei ef es bi bf bs ht =>
    refine ⟨s, ?_, h⟩
    rw [show b ++ 't' :: c :: (name ++ c1 :: (ni.text ++ '/' :: (nf.text ++ '/' :: (ns.text ++ tail (ints ++ floats ++ words))))) ++ [nul] =
      b ++ 't' :: (c :: (name ++ c1 :: (ni.text ++ '/' :: (nf.text ++ '/' :: (ns.text ++ (tail (ints ++ floats ++ words) ++ [nul])))))) by simp, start b 't' _ hb (by decide)]
    unfold command
    rw [getIdx_zero, ok_bind, if_neg (by decide), if_neg (by decide), isLetter_no _ (by decide), ok_bind, if_neg (by decide),
      isVLetter_no _ (by decide), ok_bind, if_neg (by decide), isVLetter_no _ (by decide), ok_bind, if_neg (by decide),
      isLetter_no _ (by decide), ok_bind, if_neg (by decide), isCommand_no _ (by decide), ok_bind, if_neg (by decide),
      isCommand_no _ (by decide), ok_bind, if_neg (by decide), isLetter_no _ (by decide), ok_bind, if_neg (by decide),
      isLetter_no _ (by decide), ok_bind, if_neg (by decide), isLetter_yes _ hc, ok_bind, if_pos rfl, parseTag_ok cast hc1 hn hlen hname vi vf vs ei ef es bi bf bs ht, ok_bind]
    rfl

theorem trimLine_eq {l : List Char} (h : ∀ c ∈ l, c ≠ '\n' ∧ c ≠ '\r') : trimLine l = l := by
  have h1 : l.getLast? ≠ some '\n' := fun hx => (h _ (List.mem_of_getLast? hx)).1 rfl
  have h2 : l.getLast? ≠ some '\r' := fun hx => (h _ (List.mem_of_getLast? hx)).2 rfl
  unfold trimLine
  simp only [if_neg h1, if_neg h2]

theorem processLine_ok [CharZero T] (cast : T → T) (readMtl : List Char → MatMap → R MatMap) {l : List Char} {i : Item T} (hl : LineIs cast readMtl l i)
    (hnl : ∀ c ∈ l, c ≠ '\n' ∧ c ≠ '\r') {d : Doc T} (hsm : d.Small) {s : St T} (h : Reads d s) (hi : i.Ok d) :
    ∃ s', processLine cast readMtl l s = .ok s' ∧ Reads (d.step i) s' := by
  unfold processLine
  rw [trimLine_eq hnl]
  by_cases hne : l = []
  · subst hne
    have : i = .skip := by
      generalize hg : ([] : List Char) = l at hl
      cases hl <;> first | rfl | (simp at hg)
    subst this
    exact ⟨s, rfl, h⟩
  · simp only [if_neg hne]
    exact command_ok cast readMtl hl hsm h hi hne

theorem safeGetline_lf {l : List Char} (h : ∀ c ∈ l, c ≠ '\n' ∧ c ≠ '\r') (r : List Char) : safeGetline (l ++ '\n' :: r) = (l, r) := by
  induction l with
  | nil => rfl
  | cons c l ih =>
    have := h c (by simp)
    rw [List.cons_append, safeGetline, if_neg this.1, if_neg this.2, ih fun c hc => h c (by simp [hc])]

theorem safeGetline_cr {l : List Char} (h : ∀ c ∈ l, c ≠ '\n' ∧ c ≠ '\r') (r : List Char) :
    safeGetline (l ++ '\r' :: r) = (l, if r.head? = some '\n' then r.tail else r) := by
  induction l with
  | nil => rfl
  | cons c l ih =>
    have := h c (by simp)
    rw [List.cons_append, safeGetline, if_neg this.1, if_neg this.2, ih fun c hc => h c (by simp [hc])]

theorem safeGetline_last {l : List Char} (h : ∀ c ∈ l, c ≠ '\n' ∧ c ≠ '\r') : safeGetline l = (l, []) := by
  induction l with
  | nil => rfl
  | cons c l ih =>
    have := h c (by simp)
    rw [safeGetline, if_neg this.1, if_neg this.2, ih fun c hc => h c (by simp [hc])]

theorem Doc.step_le (d : Doc T) (i : Item T) : d.verts.length ≤ (d.step i).verts.length ∧ d.nn ≤ (d.step i).nn ∧ d.nt ≤ (d.step i).nt := by
  cases i with
  | material name => unfold Doc.step; simp only; split_ifs <;> exact ⟨le_rfl, le_rfl, le_rfl⟩
  | _ => simp [Doc.step]

theorem Doc.read_le (l : List (Item T)) : ∀ d : Doc T, d.verts.length ≤ (d.read l).verts.length ∧ d.nn ≤ (d.read l).nn ∧ d.nt ≤ (d.read l).nt := by
  induction l with
  | nil => intro d; exact ⟨le_rfl, le_rfl, le_rfl⟩
  | cons i l ih =>
    intro d
    obtain ⟨h1, h2, h3⟩ := ih (d.step i)
    obtain ⟨g1, g2, g3⟩ := d.step_le i
    exact ⟨g1.trans h1, g2.trans h2, g3.trans h3⟩

theorem lineLoop_ok [CharZero T] (cast : T → T) (readMtl : List Char → MatMap → R MatMap) {text : List Char} {ls : List (List Char)} (ht : Lines text ls) :
    ∀ {items : List (Item T)}, List.Forall₂ (LineIs cast readMtl) ls items → ∀ (n : Nat), text.length ≤ n → ∀ {d : Doc T} {s : St T}, (d.read items).Small → Reads d s → d.Ok items →
      ∃ s', lineLoop cast readMtl n text s = .ok s' ∧ Reads (d.read items) s' := by
  have hstep : ∀ {text l r : List Char} {i : Item T} {items : List (Item T)} {n : Nat} {d : Doc T} {s : St T}, text ≠ [] → safeGetline text = (l, r) → LineIs cast readMtl l i →
      (∀ c ∈ l, c ≠ '\n' ∧ c ≠ '\r') → (d.read (i :: items)).Small → Reads d s → d.Ok (i :: items) →
      (∀ {s : St T}, ((d.step i).read items).Small → Reads (d.step i) s → (d.step i).Ok items →
        ∃ s', lineLoop cast readMtl n r s = .ok s' ∧ Reads ((d.step i).read items) s') →
      ∃ s', lineLoop cast readMtl (n + 1) text s = .ok s' ∧ Reads (d.read (i :: items)) s' := by
    intro text l r i items n d s hne hg hl hnl hsm h hok ih
    have hsm' : d.Small := by
      obtain ⟨h1, h2, h3⟩ := Doc.read_le (i :: items) d
      obtain ⟨k1, k2, k3⟩ := hsm
      exact ⟨by omega, by omega, by omega⟩
    obtain ⟨s1, e1, r1⟩ := processLine_ok cast readMtl hl hnl hsm' h hok.1
    obtain ⟨s2, e2, r2⟩ := ih hsm r1 hok.2
    refine ⟨s2, ?_, r2⟩
    rw [lineLoop, if_neg hne, hg]
    simp only
    rw [e1, ok_bind, e2]
  induction ht with
  | nil =>
    intro items hf n hn d s hsm h hok
    cases hf
    refine ⟨s, ?_, h⟩
    cases n <;> rfl
  | last l hne hnl =>
    intro items hf n hn d s hsm h hok
    cases hf with
    | cons h1 h2 =>
      cases h2
      obtain ⟨n, rfl⟩ : ∃ k, n = k + 1 := ⟨n - 1, by have := List.length_pos_iff.2 hne; omega⟩
      refine hstep hne (safeGetline_last hnl) h1 hnl hsm h hok fun {s} hsm h hok => ⟨s, ?_, h⟩
      cases n <;> rfl
  | lf l r ls hnl hr ih =>
    intro items hf n hn d s hsm h hok
    cases hf with
    | cons h1 h2 =>
      obtain ⟨n, rfl⟩ : ∃ k, n = k + 1 := ⟨n - 1, by simp at hn; omega⟩
      exact hstep (by simp) (safeGetline_lf hnl r) h1 hnl hsm h hok fun hsm h hok => ih h2 n (by simp at hn; omega) hsm h hok
  | crlf l r ls hnl hr ih =>
    intro items hf n hn d s hsm h hok
    cases hf with
    | cons h1 h2 =>
      obtain ⟨n, rfl⟩ : ∃ k, n = k + 1 := ⟨n - 1, by simp at hn; omega⟩
      exact hstep (by simp) (safeGetline_cr hnl ('\n' :: r)) h1 hnl hsm h hok fun hsm h hok => ih h2 n (by simp at hn; omega) hsm h hok
  | cr l r ls hnl hnr hr ih =>
    intro items hf n hn d s hsm h hok
    cases hf with
    | cons h1 h2 =>
      obtain ⟨n, rfl⟩ : ∃ k, n = k + 1 := ⟨n - 1, by simp at hn; omega⟩
      exact hstep (by simp) (by rw [safeGetline_cr hnl r, if_neg hnr]) h1 hnl hsm h hok fun hsm h hok => ih h2 n (by simp at hn; omega) hsm h hok

/-! ### The property -/

/-- **C92**: every text of well-formed lines whose faces refer to things defined before is read, and the result is one shape for every
non-empty group of faces, with exactly the arrays the text denotes. -/
theorem C92_parse [CharZero T] (cast : T → T) (readMtl : List Char → MatMap → R MatMap) {text : List Char} {ls : List (List Char)} {items : List (Item T)}
    (ht : Lines text ls) (hl : List.Forall₂ (LineIs cast readMtl) ls items) (hok : Doc.init.Ok items) (hsm : (Doc.init.read items).Small) :
    ∃ shapes : List (ShapeS T), loadObj cast readMtl text = .ok shapes ∧
      (shapes.map fun sh => (sh.positions, sh.indices)) = (Doc.init.read items).groups.map (arrays (Doc.init.read items).verts) := by
  have h0 : Reads (Doc.init : Doc T) St.init :=
    ⟨rfl, rfl, rfl, rfl, rfl, rfl, rfl, rfl, by intro f hf; simp [Doc.init] at hf, by intro f hf; simp [Doc.init] at hf, by intro f hf; simp [Doc.init] at hf⟩
  obtain ⟨s, e, h⟩ := lineLoop_ok cast readMtl ht hl text.length le_rfl hsm h0 hok
  obtain ⟨s', e', -, -, -, -, -, -, hs, -⟩ := flush_ok hsm h true
  unfold loadObj
  rw [e, ok_bind, e', ok_bind]
  exact ⟨s'.shapes, rfl, hs rfl⟩

/-- the triangles into which a polygon is split -/
def fanT : List Corner → List (Corner × Corner × Corner)
  | a :: b :: c :: l => (a, b, c) :: fanT (a :: c :: l)
  | _ => []
  termination_by l => l.length

/-- the triangles of a group -/
def tris (faces : List (List Corner)) : List (Corner × Corner × Corner) := faces.flatMap fanT

theorem fan_eq (f : List Corner) : fan f = (fanT f).flatMap fun t => [t.1, t.2.1, t.2.2] := by
  induction f using fan.induct with
  | case1 a b c l ih => rw [fan, fanT, List.flatMap_cons, ih]; rfl
  | case2 f hf =>
    rw [fan, fanT]
    · rfl
    · exact hf
    · exact hf

theorem corners_eq (faces : List (List Corner)) : corners faces = (tris faces).flatMap fun t => [t.1, t.2.1, t.2.2] := by
  unfold corners tris
  rw [List.flatMap_assoc]
  exact List.flatMap_congr fun f _ => fan_eq f

theorem triangles_map (f : Corner → Nat) (L : List (Corner × Corner × Corner)) :
    ObjLoader.triangles ((L.flatMap fun t => [t.1, t.2.1, t.2.2]).map f) = L.map fun t => (f t.1, f t.2.1, f t.2.2) := by
  induction L with
  | nil => rfl
  | cons t L ih =>
    rw [List.flatMap_cons, List.map_append, List.map_cons (l := L), ← ih]
    rfl

/-- one of the three coordinates -/
def sel (i : Nat) (p : T × T × T) : T := [p.1, p.2.1, p.2.2].getD i 0

section
variable [LinearOrder T]

theorem points_coords (yI xI : Nat) {verts : List (T × T × T)} (ks : List Corner) (h : ∀ c ∈ ks, c.v < verts.length) :
    (ObjLoader.points yI xI (ks.flatMap (coords verts))).length = ks.length ∧ ∀ (k : Nat) (c : Corner) (p : T × T × T), ks[k]? = some c → verts[c.v]? = some p →
      (ObjLoader.points yI xI (ks.flatMap (coords verts)))[k]? = some (sel xI p, sel yI p) := by
  induction ks with
  | nil => exact ⟨rfl, by simp⟩
  | cons c ks ih =>
    obtain ⟨q, hq⟩ : ∃ q, verts[c.v]? = some q := ⟨_, List.getElem?_eq_getElem (h c (by simp))⟩
    have hco : coords verts c = [q.1, q.2.1, q.2.2] := by unfold coords; rw [hq]
    obtain ⟨h1, h2⟩ := ih fun c hc => h c (by simp [hc])
    have e : ObjLoader.points yI xI ((c :: ks).flatMap (coords verts)) = (sel xI q, sel yI q) :: ObjLoader.points yI xI (ks.flatMap (coords verts)) := by
      rw [List.flatMap_cons, hco]; rfl
    rw [e]
    refine ⟨by simp [h1], fun k c' p hk hp => ?_⟩
    cases k with
    | zero =>
      simp only [List.getElem?_cons_zero, Option.some.injEq] at hk ⊢
      subst hk
      rw [hq] at hp
      cases hp
      rfl
    | succ k =>
      simp only [List.getElem?_cons_succ] at hk ⊢
      exact h2 k c' p hk hp
end

/-- all corners refer to vertices of the text -/
def Doc.In (d : Doc T) : Prop :=
  (∀ g ∈ d.done, ∀ f ∈ g, ∀ c ∈ f, c.v < d.verts.length) ∧ ∀ f ∈ d.old ++ d.cur, ∀ c ∈ f, c.v < d.verts.length

theorem Doc.In.groups {d : Doc T} (h : d.In) : ∀ g ∈ d.groups, ∀ f ∈ g, ∀ c ∈ f, c.v < d.verts.length := by
  intro g hg f hf c hc
  unfold Doc.groups at hg
  split_ifs at hg with hcur
  · exact h.1 g hg f hf c hc
  · rw [List.mem_append, List.mem_singleton] at hg
    rcases hg with hg | rfl
    · exact h.1 g hg f hf c hc
    · exact h.2 f hf c hc

theorem Doc.In.step {d : Doc T} (h : d.In) {i : Item T} (hi : i.Ok d) : (d.step i).In := by
  cases i with
  | group => exact ⟨h.groups, by intro f hf; simp [Doc.step] at hf⟩
  | vertex x y z =>
    refine ⟨fun g hg f hf c hc => ?_, fun f hf c hc => ?_⟩
    · have := h.1 g hg f hf c hc
      simp [Doc.step]; omega
    · have := h.2 f hf c hc
      simp [Doc.step]; omega
  | skip => exact h
  | normal => exact h
  | texcoord => exact h
  | library ch => exact h
  | material name =>
    unfold Doc.step
    simp only
    split_ifs
    · exact h
    · exact ⟨h.1, by simpa using h.2⟩
  | face refs =>
    refine ⟨h.1, fun f hf c hc => ?_⟩
    simp only [Doc.step, ← List.append_assoc] at hf
    rw [List.mem_append, List.mem_singleton] at hf
    rcases hf with hf | rfl
    · exact h.2 f hf c hc
    · rw [List.mem_map] at hc
      obtain ⟨r, hr, rfl⟩ := hc
      exact resolve_lt (hi.2 r hr).v

theorem Doc.In.read (items : List (Item T)) : ∀ {d : Doc T}, d.In → d.Ok items → (d.read items).In := by
  induction items with
  | nil => intro d h _; exact h
  | cons i items ih => intro d h hok; exact ih (h.step hok.1) hok.2

theorem groups_in {items : List (Item T)} (hok : Doc.init.Ok items) :
    ∀ g ∈ (Doc.init.read items).groups, ∀ f ∈ g, ∀ c ∈ f, c.v < (Doc.init.read items).verts.length :=
  (Doc.In.read items (d := Doc.init) ⟨by intro f hf; simp [Doc.init] at hf, by intro f hf; simp [Doc.init] at hf⟩ hok).groups

open NS.Props.ObjLoader in
/-- **C92** (the mesh): loading such a text whose first non-empty group is `g` gives one vertex per different corner of `g`, in the order of
first use and with the two chosen coordinates of the vertex of the file, one triangle per triangle of the polygons of `g`, in order, and the face
adjacency of C51 between them; or `TooManySharedFaces`. -/
theorem C92_mesh [CharZero T] [LinearOrder T] {yI xI : Nat} (hx : xI < 3) (hy : yI < 3) (cast : T → T) (readMtl : List Char → MatMap → R MatMap) {text : List Char}
    {ls : List (List Char)} {items : List (Item T)} (ht : Lines text ls) (hl : List.Forall₂ (LineIs cast readMtl) ls items) (hok : Doc.init.Ok items)
    (hsm : (Doc.init.read items).Small) {g : List (List Corner)} {more : List (List (List Corner))} (hg : (Doc.init.read items).groups = g :: more)
    (hd : ∀ t ∈ tris g, t.1 ≠ t.2.1 ∧ t.1 ≠ t.2.2 ∧ t.2.1 ≠ t.2.2) :
    ∃ w : World T, w.vertices = List.range (firsts (corners g)).length ∧ w.elements = List.range (tris g).length ∧
      (∀ (k : Nat) (c : Corner) (p : T × T × T), (firsts (corners g))[k]? = some c → (Doc.init.read items).verts[c.v]? = some p →
        ∃ v : MVertex T, w.V[k]? = some v ∧ v.pos = [sel xI p, sel yI p] ∧ v.flags = 0 ∧ v.gi = k) ∧
      (∀ (k : Nat) (a b c : Corner), (tris g)[k]? = some (a, b, c) →
        w.vertsOf k = [some ((firsts (corners g)).idxOf a), some ((firsts (corners g)).idxOf b), some ((firsts (corners g)).idxOf c)]) ∧
      (¬ Mesh.Overshared w → ∃ w', loadString yI xI cast readMtl text = .ok w' ∧ Mesh.FaceAdjacency w w') ∧
      (Mesh.Overshared w → loadString yI xI cast readMtl text = .error (.exc .tooManySharedFaces)) := by
  obtain ⟨shapes, e, hs⟩ := C92_parse cast readMtl ht hl hok hsm
  rw [hg, List.map_cons] at hs
  obtain ⟨s, rest, rfl, hs1, -⟩ := List.map_eq_cons_iff.1 hs
  obtain ⟨hp, hi⟩ : s.positions = (arrays (Doc.init.read items).verts g).1 ∧ s.indices = (arrays (Doc.init.read items).verts g).2 :=
    ⟨congrArg Prod.fst hs1, congrArg Prod.snd hs1⟩
  have hin : ∀ c ∈ firsts (corners g), c.v < (Doc.init.read items).verts.length := by
    intro c hc
    have hc : c ∈ corners g := mem_firsts.1 hc
    unfold corners at hc
    rw [List.mem_flatMap] at hc
    obtain ⟨f, hf, hc⟩ := hc
    exact groups_in hok g (by rw [hg]; simp) f hf c (mem_fan hc)
  obtain ⟨q1, q2⟩ := points_coords yI xI (firsts (corners g)) hin
  have hpts : points yI xI s.positions = points yI xI ((firsts (corners g)).flatMap (coords (Doc.init.read items).verts)) := by rw [hp]; rfl
  have htri : triangles s.indices = (tris g).map fun t => ((firsts (corners g)).idxOf t.1, (firsts (corners g)).idxOf t.2.1, (firsts (corners g)).idxOf t.2.2) := by
    rw [hi]
    show triangles ((corners g).map fun c => (firsts (corners g)).idxOf c) = _
    generalize hF : firsts (corners g) = F
    rw [corners_eq]
    exact triangles_map (fun c => F.idxOf c) (tris g)
  have hmem : ∀ t ∈ tris g, t.1 ∈ firsts (corners g) ∧ t.2.1 ∈ firsts (corners g) ∧ t.2.2 ∈ firsts (corners g) := by
    intro t ht
    rw [mem_firsts, mem_firsts, mem_firsts, corners_eq]
    refine ⟨List.mem_flatMap.2 ⟨t, ht, by simp⟩, List.mem_flatMap.2 ⟨t, ht, by simp⟩, List.mem_flatMap.2 ⟨t, ht, by simp⟩⟩
  have hinj : ∀ {a b : Corner}, a ∈ firsts (corners g) → a ≠ b → (firsts (corners g)).idxOf a ≠ (firsts (corners g)).idxOf b := by
    intro a b ha hab h
    exact hab ((List.idxOf_inj ha).1 h)
  obtain ⟨w, w1, w2, w3, w4, w5, w6⟩ := C81_mesh hx hy ⟨s.positions, s.indices⟩ (rest.map fun s => ⟨s.positions, s.indices⟩)
    (by
      intro t ht
      simp only at ht
      rw [htri, List.mem_map] at ht
      obtain ⟨t', ht', rfl⟩ := ht
      obtain ⟨m1, m2, m3⟩ := hmem t' ht'
      simp only [hpts, q1]
      exact ⟨List.idxOf_lt_length_iff.2 m1, List.idxOf_lt_length_iff.2 m2, List.idxOf_lt_length_iff.2 m3⟩)
    (by
      intro t ht
      simp only at ht
      rw [htri, List.mem_map] at ht
      obtain ⟨t', ht', rfl⟩ := ht
      obtain ⟨m1, m2, m3⟩ := hmem t' ht'
      obtain ⟨d1, d2, d3⟩ := hd t' ht'
      exact ⟨hinj m1 d1, hinj m1 d2, hinj m2 d3⟩)
  simp only [hpts, htri, q1, List.length_map] at w1 w2 w3 w4
  have hload : loadString yI xI cast readMtl text = NS.ObjLoader.load yI xI (⟨s.positions, s.indices⟩ :: rest.map fun s => ⟨s.positions, s.indices⟩) := by
    unfold loadString
    rw [e, ok_bind]
    rfl
  rw [hload]
  refine ⟨w, w1, w2, fun k c p hk hp => w3 k _ _ (q2 k c p hk hp), fun k a b c hk => w4 k _ _ _ ?_, w5, w6⟩
  rw [List.getElem?_map, hk]
  rfl

/-- **C92** (no faces): a text without faces gives the empty mesh. -/
theorem C92_empty [CharZero T] [LinearOrder T] (yI xI : Nat) (cast : T → T) (readMtl : List Char → MatMap → R MatMap) {text : List Char}
    {ls : List (List Char)} {items : List (Item T)} (ht : Lines text ls) (hl : List.Forall₂ (LineIs cast readMtl) ls items) (hok : Doc.init.Ok items)
    (hsm : (Doc.init.read items).Small) (hg : (Doc.init.read items).groups = []) : loadString yI xI cast readMtl text = .ok World.empty := by
  obtain ⟨shapes, e, hs⟩ := C92_parse cast readMtl ht hl hok hsm
  rw [hg, List.map_nil, List.map_eq_nil_iff] at hs
  unfold loadString
  rw [e, ok_bind, hs]
  rfl

/-! ### Examples -/

/-- no material file -/
def noMtl : List Char → MatMap → R MatMap := fun _ m => .ok m

/-- a square as one polygon with a relative reference, and a second group which is ignored; all three kinds of line ends -/
def exText : String := "# a square\nv 0 0 0\r\nv 1. 0 0\rv 1 1e0 0\n\n  v 0 +1 0 7\ns off\nvt 0 0\nf 1/1 2/1 3/-1 -1/1 \nt crease 2/1/1 0 -1 3.5 sharp\no second\nf 1 2 3\n"

/-- it is loaded as a mesh of four vertices and two triangles -/
theorem C92_example : ((loadString (T := ℚ) 1 0 id noMtl exText.toList).toOption.map fun w => (w.V.map fun v => v.pos, w.elements.map w.vertsOf)) =
    some ([[0, 0], [1, 0], [1, 1], [0, 1]], [[some 0, some 1, some 2], [some 0, some 2, some 3]]) := by decide +kernel

def zeroN : Num := ⟨[], ['0'], none, none⟩
def oneN : Num := ⟨[], ['1'], none, none⟩
def lit (c : Char) : IntLit := ⟨[], [c]⟩

theorem zeroN_ok : zeroN.Valid ∧ zeroN.Small :=
  ⟨⟨Or.inl rfl, ⟨by decide, by unfold IsDigit; decide⟩, by intro f hf; simp [zeroN] at hf, by intro e s d h; simp [zeroN] at h⟩,
    by intro e s d h; simp [zeroN] at h⟩

theorem oneN_ok : oneN.Valid ∧ oneN.Small :=
  ⟨⟨Or.inl rfl, ⟨by decide, by unfold IsDigit; decide⟩, by intro f hf; simp [oneN] at hf, by intro e s d h; simp [oneN] at h⟩,
    by intro e s d h; simp [oneN] at h⟩

theorem blanks_one : IsBlanks [' '] := by unfold IsBlanks; decide

/-- lines of the examples -/
theorem vLine (readMtl : List Char → MatMap → R MatMap) (x y z : Num) (hx : x.Valid ∧ x.Small) (hy : y.Valid ∧ y.Small) (hz : z.Valid ∧ z.Small) :
    LineIs (T := ℚ) id readMtl ('v' :: ' ' :: (x.text ++ ' ' :: (y.text ++ ' ' :: z.text))) (.vertex x.value y.value z.value) := by
  have := LineIs.vertex (T := ℚ) (cast := id) (readMtl := readMtl) [] ' ' [] [' '] [' '] x y z [] (by simp [IsBlanks]) (by decide) (by simp [IsBlanks]) blanks_one (by simp)
    blanks_one (by simp) hx.1 hx.2 hy.1 hy.2 hz.1 hz.2 (by simp [IsRest])
  simpa using this

/-- the face of the examples -/
def triRefs : List Ref := [⟨lit '1', none, none⟩, ⟨lit '2', none, none⟩, ⟨lit '3', none, none⟩]

theorem fLine (readMtl : List Char → MatMap → R MatMap) : LineIs (T := ℚ) id readMtl ['f', ' ', '1', ' ', '2', ' ', '3'] (.face triRefs) := by
  have hlit : ∀ c, IsDigit c → (⟨lit c, none, none⟩ : Ref).Valid := by
    intro c hc
    exact ⟨⟨Or.inl rfl, ⟨by simp [lit], by simpa [lit] using hc⟩⟩, by simp, by simp⟩
  refine LineIs.face [] ' ' [] ['1', ' ', '2', ' ', '3'] _ (by simp [IsBlanks]) (by decide) (by simp [IsBlanks]) ?_
  refine RefsIs.cons ⟨lit '1', none, none⟩ [' '] ['2', ' ', '3'] _ (hlit _ (by unfold IsDigit; decide)) blanks_one (by simp) ?_
  refine RefsIs.cons ⟨lit '2', none, none⟩ [' '] ['3'] _ (hlit _ (by unfold IsDigit; decide)) blanks_one (by simp) ?_
  exact RefsIs.one ⟨lit '3', none, none⟩ [] (hlit _ (by unfold IsDigit; decide)) (by simp [IsBlanks])

theorem face_ok {d : Doc ℚ} (h : d.verts.length = 3) : (Item.face triRefs).Ok d := by
  refine ⟨by simp [triRefs], ?_⟩
  intro r hr
  simp only [triRefs, List.mem_cons, List.not_mem_nil, or_false] at hr
  have hd : ∀ i : Int, 0 < i → i ≤ 3 → Defined d.verts.length i := fun i h1 h2 => by rw [h]; exact ⟨by omega, by omega, by omega⟩
  rcases hr with rfl | rfl | rfl
  · exact ⟨hd _ (by decide) (by decide), by simp, by simp⟩
  · exact ⟨hd _ (by decide) (by decide), by simp, by simp⟩
  · exact ⟨hd _ (by decide) (by decide), by simp, by simp⟩

/-- the items of a triangle -/
def triItems : List (Item ℚ) := [.vertex zeroN.value zeroN.value zeroN.value, .vertex oneN.value zeroN.value zeroN.value,
  .vertex zeroN.value oneN.value zeroN.value, .face triRefs]

/-- the hypotheses of C92 hold for the text of a triangle -/
theorem triText_ok : ∃ ls, Lines "v 0 0 0\nv 1 0 0\nv 0 1 0\nf 1 2 3\n".toList ls ∧ List.Forall₂ (LineIs (T := ℚ) id noMtl) ls triItems ∧ Doc.init.Ok triItems ∧
    (Doc.init.read triItems).Small ∧ (Doc.init.read triItems).groups = [[[⟨0, none, none, 0⟩, ⟨1, none, none, 0⟩, ⟨2, none, none, 0⟩]]] := by
  refine ⟨[['v', ' ', '0', ' ', '0', ' ', '0'], ['v', ' ', '1', ' ', '0', ' ', '0'], ['v', ' ', '0', ' ', '1', ' ', '0'], ['f', ' ', '1', ' ', '2', ' ', '3']],
    .lf ['v', ' ', '0', ' ', '0', ' ', '0'] _ _ (by decide) (.lf ['v', ' ', '1', ' ', '0', ' ', '0'] _ _ (by decide)
      (.lf ['v', ' ', '0', ' ', '1', ' ', '0'] _ _ (by decide) (.lf ['f', ' ', '1', ' ', '2', ' ', '3'] _ _ (by decide) .nil))), ?_, ?_, ?_, rfl⟩
  · exact .cons (vLine _ _ _ _ zeroN_ok zeroN_ok zeroN_ok) (.cons (vLine _ _ _ _ oneN_ok zeroN_ok zeroN_ok) (.cons (vLine _ _ _ _ zeroN_ok oneN_ok zeroN_ok)
      (.cons (fLine _) .nil)))
  · exact ⟨trivial, trivial, trivial, face_ok rfl, trivial⟩
  · refine ⟨?_, ?_, ?_⟩ <;> decide

/-- a material file that defines the material `m` -/
def oneMtl : List Char → MatMap → R MatMap := fun _ _ => .ok ⟨fun n => if n = ['m'] then some 0 else none, 1⟩

/-- the hypotheses of C92 hold for a text with a material file and a change of the material; its group has two parts -/
example : ∃ (ls : List (List Char)) (items : List (Item ℚ)), Lines "mtllib a\nv 0 0 0\nv 1 0 0\nv 0 1 0\nf 1 2 3\nusemtl m\nf 1 2 3\n".toList ls ∧
    List.Forall₂ (LineIs (T := ℚ) id oneMtl) ls items ∧ Doc.init.Ok items ∧ (Doc.init.read items).Small ∧
    (Doc.init.read items).groups = [[[⟨0, none, none, 0⟩, ⟨1, none, none, 0⟩, ⟨2, none, none, 0⟩], [⟨0, none, none, 1⟩, ⟨1, none, none, 1⟩, ⟨2, none, none, 1⟩]]] := by
  refine ⟨[['m', 't', 'l', 'l', 'i', 'b', ' ', 'a'], ['v', ' ', '0', ' ', '0', ' ', '0'], ['v', ' ', '1', ' ', '0', ' ', '0'], ['v', ' ', '0', ' ', '1', ' ', '0'],
      ['f', ' ', '1', ' ', '2', ' ', '3'], ['u', 's', 'e', 'm', 't', 'l', ' ', 'm'], ['f', ' ', '1', ' ', '2', ' ', '3']],
    [.library (fun _ => ⟨fun n => if n = ['m'] then some 0 else none, 1⟩), .vertex zeroN.value zeroN.value zeroN.value, .vertex oneN.value zeroN.value zeroN.value, .vertex zeroN.value oneN.value zeroN.value, .face triRefs,
      .material ['m'], .face triRefs],
    .lf ['m', 't', 'l', 'l', 'i', 'b', ' ', 'a'] _ _ (by decide) (.lf ['v', ' ', '0', ' ', '0', ' ', '0'] _ _ (by decide) (.lf ['v', ' ', '1', ' ', '0', ' ', '0'] _ _ (by decide)
      (.lf ['v', ' ', '0', ' ', '1', ' ', '0'] _ _ (by decide) (.lf ['f', ' ', '1', ' ', '2', ' ', '3'] _ _ (by decide)
      (.lf ['u', 's', 'e', 'm', 't', 'l', ' ', 'm'] _ _ (by decide) (.lf ['f', ' ', '1', ' ', '2', ' ', '3'] _ _ (by decide) .nil)))))), ?_, ?_, ?_, rfl⟩
  · exact .cons (LineIs.library [] ' ' [] ['a'] [] _ (by simp [IsBlanks]) (by decide) (by simp [IsBlanks]) (by simp) (by simp) (by decide) (by simp [IsRest]) fun _ => rfl)
      (.cons (vLine _ _ _ _ zeroN_ok zeroN_ok zeroN_ok) (.cons (vLine _ _ _ _ oneN_ok zeroN_ok zeroN_ok) (.cons (vLine _ _ _ _ zeroN_ok oneN_ok zeroN_ok)
      (.cons (fLine _) (.cons (LineIs.material [] ' ' [] ['m'] [] (by simp [IsBlanks]) (by decide) (by simp [IsBlanks]) (by simp) (by simp) (by decide) (by simp [IsRest]))
      (.cons (fLine _) .nil))))))
  · exact ⟨trivial, trivial, trivial, trivial, face_ok rfl, trivial, face_ok rfl, trivial⟩
  · refine ⟨?_, ?_, ?_⟩ <;> decide

/-! ### What a user might not expect -/

/-- **C92** (negation): triangles which share an edge of the file are not always neighbours in the mesh.  With different normals their
common vertices are duplicated: six vertices, six edges, instead of four and five without normals. -/
theorem C92_split_by_normals :
    ((loadString (T := ℚ) 1 0 id noMtl "v 0 0 0\nv 1 0 0\nv 0 1 0\nv 1 1 0\nf 1 2 3\nf 2 4 3\n".toList).toOption.map
      fun w => (w.vertices.length, w.edges.length)) = some (4, 5) ∧
    ((loadString (T := ℚ) 1 0 id noMtl "v 0 0 0\nv 1 0 0\nv 0 1 0\nv 1 1 0\nvn 0 0 1\nvn 0 0 2\nf 1//1 2//1 3//1\nf 2//2 4//2 3//2\n".toList).toOption.map
      fun w => (w.vertices.length, w.edges.length)) = some (6, 6) := by decide +kernel

/-- **C92** (negation): a change of the material between two faces of a group separates them as well: no common vertices, no common edge. -/
theorem C92_split_by_material :
    ((loadString (T := ℚ) 1 0 id oneMtl
      "mtllib a\nv 0 0 0\nv 1 0 0\nv 0 1 0\nv 1 1 0\nf 1 2 3\nusemtl m\nf 2 4 3\n".toList).toOption.map
      fun w => (w.vertices.length, w.edges.length)) = some (6, 6) := by decide +kernel

/-- **C92** (negation): the faces before a change of the material are lost if no face follows it: the file with the same faces and a final
`usemtl` gives an empty mesh.  (`readMtl` defines the material `m`.) -/
theorem C92_material_loses_faces :
    ((loadString (T := ℚ) 1 0 id oneMtl "mtllib a\nv 0 0 0\nv 1 0 0\nv 0 1 0\nf 1 2 3\n".toList).toOption.map
      fun w => (w.vertices.length, w.elements.length)) = some (3, 1) ∧
    ((loadString (T := ℚ) 1 0 id oneMtl "mtllib a\nv 0 0 0\nv 1 0 0\nv 0 1 0\nf 1 2 3\nusemtl m\n".toList).toOption.map
      fun w => (w.vertices.length, w.elements.length)) = some (0, 0) := by decide +kernel
end NS.Props.Obj

/-
Property theorems C120: the contents of the materials of a material file.
-/
import Verif.MtlValueModel
import Verif.Props.Mtl

set_option linter.unusedSectionVars false
set_option linter.unusedSimpArgs false
set_option linter.unusedVariables false

namespace NS.Props.Obj
open NS NS.TinyObj

/-! ### Specification -/

/-- what a line of a material file says -/
inductive MtlItem (T : Type) where
  | skip
  | define (name : List Char)
  | ambient (c : T × T × T)
  | diffuse (c : T × T × T)
  | specular (c : T × T × T)
  | transmittance (c : T × T × T)
  | emission (c : T × T × T)
  | ior (x : T)
  | shininess (x : T)
  | dissolve (x : T)
  | illum (i : Int)
  | ambientTex (s : List Char)
  | diffuseTex (s : List Char)
  | specularTex (s : List Char)
  | highlightTex (s : List Char)
  | bumpTex (s : List Char)
  | displacementTex (s : List Char)
  | alphaTex (s : List Char)
  | other (key value : List Char)

/-- the effect on the current material: the last setting of a member counts, but the first one of an unknown parameter -/
def MtlItem.apply {T : Type} (m : Material T) : MtlItem T → Material T
  | .skip => m
  | .define _ => m
  | .ambient c => { m with ambient := c }
  | .diffuse c => { m with diffuse := c }
  | .specular c => { m with specular := c }
  | .transmittance c => { m with transmittance := c }
  | .emission c => { m with emission := c }
  | .ior x => { m with ior := x }
  | .shininess x => { m with shininess := x }
  | .dissolve x => { m with dissolve := x }
  | .illum i => { m with illum := i }
  | .ambientTex s => { m with ambientTex := s }
  | .diffuseTex s => { m with diffuseTex := s }
  | .specularTex s => { m with specularTex := s }
  | .highlightTex s => { m with highlightTex := s }
  | .bumpTex s => { m with bumpTex := s }
  | .displacementTex s => { m with displacementTex := s }
  | .alphaTex s => { m with alphaTex := s }
  | .other key value => if m.unknown key = none then { m with unknown := Function.update m.unknown key (some value) } else m

/-- the line begins a material -/
def MtlItem.isDefine {T : Type} : MtlItem T → Bool
  | .define _ => true
  | _ => false

/-- keywords of colours -/
def colourWords (T : Type) : List (List Char × (T × T × T → MtlItem T)) :=
  [(['K', 'a'], .ambient), (['K', 'd'], .diffuse), (['K', 's'], .specular), (['K', 't'], .transmittance), (['K', 'e'], .emission)]

/-- keywords of numbers; `Tr` gives the transparency, which is one minus the opacity -/
def numberWords {T : Type} [Field T] (cast : T → T) : List (List Char × (T → MtlItem T)) :=
  [(['N', 'i'], .ior), (['N', 's'], .shininess), (['d'], .dissolve), (['T', 'r'], fun x => .dissolve (cast (1 - x)))]

/-- keywords of textures -/
def textureWords (T : Type) : List (List Char × (List Char → MtlItem T)) :=
  [(['m', 'a', 'p', '_', 'K', 'a'], .ambientTex), (['m', 'a', 'p', '_', 'K', 'd'], .diffuseTex), (['m', 'a', 'p', '_', 'K', 's'], .specularTex),
   (['m', 'a', 'p', '_', 'N', 's'], .highlightTex), (['m', 'a', 'p', '_', 'b', 'u', 'm', 'p'], .bumpTex), (['b', 'u', 'm', 'p'], .bumpTex),
   (['m', 'a', 'p', '_', 'd'], .alphaTex), (['d', 'i', 's', 'p'], .displacementTex)]

/-- all keywords -/
def allWords : List (List Char) := [['n', 'e', 'w', 'm', 't', 'l'], ['i', 'l', 'l', 'u', 'm'], ['K', 'a'], ['K', 'd'], ['K', 's'], ['K', 't'], ['K', 'e'], ['N', 'i'], ['N', 's'], ['d'], ['T', 'r'],
  ['m', 'a', 'p', '_', 'K', 'a'], ['m', 'a', 'p', '_', 'K', 'd'], ['m', 'a', 'p', '_', 'K', 's'], ['m', 'a', 'p', '_', 'N', 's'], ['m', 'a', 'p', '_', 'b', 'u', 'm', 'p'], ['b', 'u', 'm', 'p'],
  ['m', 'a', 'p', '_', 'd'], ['d', 'i', 's', 'p']]

/-- the first word of the line (a word ends with a blank or tabulator) is no keyword and begins no comment -/
structure Unknown (l : List Char) : Prop where
  head : ∀ c, l.head? = some c → c ∉ blanks ∧ c ≠ '#'
  word : ∀ w ∈ allWords, ∀ s ∈ blanks, ∀ q, l ≠ w ++ s :: q

/-- the meaning of a line of a material file; `cast` converts numbers to the type of the members.  The name of a texture is the rest of the
line.  An unknown line is split at its first blank or, if it has none, at its first tabulator. -/
inductive MtlSays {T : Type} [Field T] (cast : T → T) : List Char → MtlItem T → Prop where
  | blank (b : List Char) : IsBlanks b → MtlSays cast b .skip
  | comment (b r : List Char) : IsBlanks b → MtlSays cast (b ++ '#' :: r) .skip
  | define (b : List Char) (s : Char) (a n r : List Char) : IsBlanks b → s ∈ blanks → (∀ c ∈ a, isCSpace c = true) → n ≠ [] → n.length < 4096 →
      (∀ c ∈ n, isCSpace c = false) → (∀ c, r.head? = some c → isCSpace c = true) →
      MtlSays cast (b ++ (['n', 'e', 'w', 'm', 't', 'l'] ++ s :: (a ++ (n ++ r)))) (.define n)
  | colour (b w : List Char) (f : T × T × T → MtlItem T) (b1 b2 b3 : List Char) (x y z : Num) (r : List Char) : IsBlanks b → (w, f) ∈ colourWords T →
      IsBlanks b1 → b1 ≠ [] → IsBlanks b2 → b2 ≠ [] → IsBlanks b3 → b3 ≠ [] → x.Valid → x.Small → y.Valid → y.Small → z.Valid → z.Small → IsRest r →
      MtlSays cast (b ++ (w ++ (b1 ++ (x.text ++ (b2 ++ (y.text ++ (b3 ++ (z.text ++ r)))))))) (f (cast x.value, cast y.value, cast z.value))
  | number (b w : List Char) (f : T → MtlItem T) (b1 : List Char) (x : Num) (r : List Char) : IsBlanks b → (w, f) ∈ numberWords cast →
      IsBlanks b1 → b1 ≠ [] → x.Valid → x.Small → IsRest r → MtlSays cast (b ++ (w ++ (b1 ++ (x.text ++ r)))) (f (cast x.value))
  | illum (b : List Char) (s : Char) (b1 : List Char) (i : IntLit) (r : List Char) : IsBlanks b → s ∈ blanks → IsBlanks b1 → i.Valid →
      (-2147483648 ≤ i.value ∧ i.value ≤ 2147483647) → IsRest r → MtlSays cast (b ++ (['i', 'l', 'l', 'u', 'm'] ++ s :: (b1 ++ (i.text ++ r)))) (.illum i.value)
  | texture (b w : List Char) (f : List Char → MtlItem T) (s : Char) (r : List Char) : IsBlanks b → (w, f) ∈ textureWords T → s ∈ blanks →
      MtlSays cast (b ++ (w ++ s :: r)) (f r)
  | otherSpace (b key value : List Char) : IsBlanks b → key ≠ [] → Unknown (key ++ ' ' :: value) → ' ' ∉ key →
      MtlSays cast (b ++ (key ++ ' ' :: value)) (.other key value)
  | otherTab (b key value : List Char) : IsBlanks b → key ≠ [] → Unknown (key ++ '\t' :: value) → ' ' ∉ key → '\t' ∉ key → ' ' ∉ value →
      MtlSays cast (b ++ (key ++ '\t' :: value)) (.other key value)
  | word (b w : List Char) : IsBlanks b → w ≠ [] → Unknown w → (∀ c ∈ w, c ∉ blanks) → MtlSays cast (b ++ w) .skip

/-- the lines up to the next definition -/
def settings {T : Type} (items : List (MtlItem T)) : List (MtlItem T) := items.takeWhile fun i => !i.isDefine

/-- the materials the lines define: each with its name and the settings up to the next definition -/
def materialsFrom {T : Type} [Field T] : List (MtlItem T) → List (Material T)
  | [] => []
  | .define n :: l => (settings l).foldl MtlItem.apply { (Material.init : Material T) with name := n } :: materialsFrom l
  | _ :: l => materialsFrom l

/-- the materials of a file: settings before the first definition are lost; a file without definitions has one material without a name -/
def materialsOf {T : Type} [Field T] (items : List (MtlItem T)) : List (Material T) :=
  if items.any MtlItem.isDefine then materialsFrom items else [items.foldl MtlItem.apply Material.init]

/-- the numbers of names: those already known, and then the members of the list, counted from `n`; the first of several counts -/
def numbered (map : List Char → Option Int) (n : Nat) (names : List (List Char)) : List Char → Option Int := fun a =>
  match map a with
  | some i => some i
  | none => if a ∈ names then some ((n + names.idxOf a : Nat) : Int) else none

/-! ### The state -/

variable {T : Type} [Field T]

/-- the effect of one line on the variables -/
def mtlStep (s : MtlValSt T) : MtlItem T → MtlValSt T
  | .define n => { (if s.material.name = [] then s else s.push) with material := { (Material.init : Material T) with name := n } }
  | i => { s with material := i.apply s.material }

theorem apply_name (m : Material T) (i : MtlItem T) : (i.apply m).name = m.name := by
  cases i <;> simp only [MtlItem.apply]
  split_ifs <;> rfl

theorem foldl_name (l : List (MtlItem T)) (m : Material T) : (l.foldl MtlItem.apply m).name = m.name := by
  induction l generalizing m with
  | nil => rfl
  | cons i l ih => rw [List.foldl_cons, ih, apply_name]

theorem numbered_nil (map : List Char → Option Int) (n : Nat) : numbered map n [] = map := by
  funext a
  unfold numbered
  cases map a <;> simp

theorem numbered_cons (map : List Char → Option Int) (n : Nat) (a : List Char) (l : List (List Char)) :
    numbered (numbered map n [a]) (n + 1) l = numbered map n (a :: l) := by
  funext b
  unfold numbered
  cases map b with
  | some i => rfl
  | none =>
    by_cases hb : b = a
    · subst hb; simp
    · have hab : a ≠ b := Ne.symm hb
      simp only [List.mem_singleton, hb, if_false, List.mem_cons, false_or]
      by_cases hl : b ∈ l
      · simp only [hl, if_true]
        rw [show List.idxOf b (a :: l) = List.idxOf b l + 1 from List.idxOf_cons_ne _ hab]
        simp only [List.not_mem_nil, if_false, Option.some.injEq]
        push_cast; ring
      · simp [hl]

theorem push_map (s : MtlValSt T) : s.push.map = numbered s.map s.materials.length [s.material.name] := by
  funext b
  unfold MtlValSt.push numbered
  simp only [List.mem_singleton]
  by_cases hb : b = s.material.name
  · subst hb
    simp only [if_true, List.idxOf_cons_self, Nat.add_zero]
    cases s.map s.material.name <;> rfl
  · simp only [if_neg hb]
    cases s.map b <;> rfl

/-- every definition gives a name -/
def Named (items : List (MtlItem T)) : Prop := ∀ n, MtlItem.define n ∈ items → n ≠ []

/-- what the lines do from a given state on: a material that has a name is finished at the next definition, one without a name is lost there -/
theorem steps_end (items : List (MtlItem T)) : ∀ (s : MtlValSt T), Named items →
    let ms := if s.material.name = [] ∧ items.any MtlItem.isDefine = true then materialsFrom items
      else (settings items).foldl MtlItem.apply s.material :: materialsFrom items
    (items.foldl mtlStep s).push.materials = s.materials ++ ms ∧ (items.foldl mtlStep s).push.map = numbered s.map s.materials.length (ms.map Material.name) := by
  induction items with
  | nil =>
    intro s _
    simp only [List.any_nil, Bool.false_eq_true, and_false, if_false, settings, List.takeWhile_nil, List.foldl_nil, materialsFrom, List.map_cons, List.map_nil]
    exact ⟨rfl, push_map s⟩
  | cons i items ih =>
    intro s hn
    have hn' : Named items := fun n h => hn n (by simp [h])
    rw [List.foldl_cons]
    have hother : ∀ (h1 : mtlStep s i = { s with material := i.apply s.material }) (h2 : i.isDefine = false) (h3 : materialsFrom (i :: items) = materialsFrom items),
        let ms := if s.material.name = [] ∧ (i :: items).any MtlItem.isDefine = true then materialsFrom (i :: items)
          else (settings (i :: items)).foldl MtlItem.apply s.material :: materialsFrom (i :: items)
        (items.foldl mtlStep (mtlStep s i)).push.materials = s.materials ++ ms ∧
          (items.foldl mtlStep (mtlStep s i)).push.map = numbered s.map s.materials.length (ms.map Material.name) := by
      intro h1 h2 h3
      have := ih (mtlStep s i) hn'
      rw [h1] at this ⊢
      simp only [apply_name] at this
      have e : settings (i :: items) = i :: settings items := by
        unfold settings
        rw [List.takeWhile_cons_of_pos (by simp [h2])]
      rw [h3, e, List.foldl_cons, List.any_cons, h2, Bool.false_or]
      exact this
    cases i with
    | define n =>
      have hne : n ≠ [] := hn n (by simp)
      have hne2 : ∀ b : Bool, ¬ (n = [] ∧ b = true) := fun b h => hne h.1
      have e1 : settings (MtlItem.define n :: items) = [] := by
        unfold settings
        rw [List.takeWhile_cons_of_neg (by simp [MtlItem.isDefine])]
      have e2 : (MtlItem.define n :: items : List (MtlItem T)).any MtlItem.isDefine = true := rfl
      have e3 : materialsFrom (MtlItem.define n :: items) = (settings items).foldl MtlItem.apply { (Material.init : Material T) with name := n } :: materialsFrom items := rfl
      obtain ⟨m, hm, hmn⟩ : ∃ m, m = { (Material.init : Material T) with name := n } ∧ m.name = n := ⟨_, rfl, rfl⟩
      have e4 : mtlStep s (.define n) = { (if s.material.name = [] then s else s.push) with material := m } := by rw [hm]; rfl
      rw [e1, e2, e3, ← hm, e4]
      by_cases h0 : s.material.name = []
      · have key := ih { s with material := m } hn'
        simp only [hmn, if_neg (hne2 _)] at key
        simp only [h0, and_self, if_true]
        exact key
      · have key := ih { s.push with material := m } hn'
        simp only [hmn, if_neg (hne2 _)] at key
        simp only [h0, false_and, if_false, List.foldl_nil]
        refine ⟨?_, ?_⟩
        · rw [key.1]
          show (s.materials ++ [s.material]) ++ _ = _
          simp
        · rw [key.2]
          show numbered s.push.map (s.materials ++ [s.material]).length _ = _
          rw [push_map, List.length_append, List.length_singleton, numbered_cons]
          rfl
    | _ => exact hother rfl rfl rfl

/-! ### Keywords -/

theorem blank_ne {c : Char} (h : c ∈ blanks) : c ≠ nul := by rintro rfl; revert h; decide

/-- a word ends where the first blank is -/
theorem word_unique : ∀ {w w' : List Char} {s s' : Char} {q q' : List Char}, (∀ c ∈ w, c ∉ blanks) → (∀ c ∈ w', c ∉ blanks) → s ∈ blanks → s' ∈ blanks →
    w ++ s :: q = w' ++ s' :: q' → w = w'
  | [], [], _, _, _, _, _, _, _, _, _ => rfl
  | [], c :: w', s, s', q, q', _, h', hs, _, e => by
    simp only [List.nil_append, List.cons_append, List.cons.injEq] at e
    exact absurd (e.1 ▸ hs) (h' c (by simp))
  | c :: w, [], s, s', q, q', h, _, _, hs', e => by
    simp only [List.nil_append, List.cons_append, List.cons.injEq] at e
    exact absurd (e.1.symm ▸ hs') (h c (by simp))
  | c :: w, c' :: w', s, s', q, q', h, h', hs, hs', e => by
    simp only [List.cons_append, List.cons.injEq] at e
    rw [e.1, word_unique (fun c hc => h c (by simp [hc])) (fun c hc => h' c (by simp [hc])) hs hs' e.2]

theorem key_plain (k : MtlKey) : (∀ c ∈ k.word, c ∉ blanks) ∧ nul ∉ k.word := by cases k <;> decide

theorem key_inj {k k' : MtlKey} (h : k.word = k'.word) : k = k' := by
  cases k <;> cases k' <;> first | rfl | (exact absurd h (by decide))

theorem key_mem (k : MtlKey) : k ∈ mtlKeys := by cases k <;> decide

theorem findMtlKey_yes {k : MtlKey} {s : Char} {q : List Char} (hs : s ∈ blanks) (hn : nul ∈ k.word ++ s :: q) : ∀ ks : List MtlKey, k ∈ ks →
    findMtlKey (k.word ++ s :: q) ks = .ok (some k)
  | [], h => by simp at h
  | k' :: ks, h => by
    unfold findMtlKey
    by_cases hk : k' = k
    · subst hk
      rw [isCommand_yes q hs, ok_bind, if_pos rfl]
      rfl
    · rcases isCommand_cons k'.word (k.word ++ s :: q) hn (key_plain k').2 with e | ⟨s', q', hp, hs', -⟩
      · rw [e, ok_bind, if_neg (by decide)]
        exact findMtlKey_yes hs hn ks (by
          rw [List.mem_cons] at h
          rcases h with h | h
          · exact absurd h.symm hk
          · exact h)
      · exact absurd (key_inj (word_unique (key_plain k).1 (key_plain k').1 hs hs' hp)).symm hk

theorem findMtlKey_no {p : List Char} (hn : nul ∈ p) (h : ∀ k : MtlKey, ∀ s ∈ blanks, ∀ q, p ≠ k.word ++ s :: q) : ∀ ks : List MtlKey, findMtlKey p ks = .ok none
  | [] => rfl
  | k :: ks => by
    unfold findMtlKey
    rcases isCommand_cons k.word p hn (key_plain k).2 with e | ⟨s', q', hp, hs', -⟩
    · rw [e, ok_bind, if_neg (by decide)]
      exact findMtlKey_no hn h ks
    · exact absurd hp (h k s' hs' q')

/-! ### Lines -/

theorem cstr_eq {q : List Char} (h : nul ∉ q) : cstr (q ++ [nul]) = .ok q := by
  unfold cstr
  rw [if_pos (by simp), List.takeWhile_append_of_pos]
  · simp
  · intro c hc
    have : c ≠ nul := by rintro rfl; exact h hc
    simpa using this

theorem strchr_some {c : Char} : ∀ {w : List Char} (q : List Char), c ∉ w → nul ∉ w → strchr c (w ++ c :: q) = .ok (some w.length)
  | [], q, _, _ => by simp [strchr]
  | x :: w, q, h, hn => by
    rw [List.mem_cons, not_or] at h hn
    rw [List.cons_append, strchr, if_neg (Ne.symm h.1), if_neg (Ne.symm hn.1), strchr_some q h.2 hn.2]
    rfl

theorem strchr_none {c : Char} (hc : c ≠ nul) : ∀ {w : List Char}, c ∉ w → nul ∉ w → strchr c (w ++ [nul]) = .ok none
  | [], _, _ => by simp [strchr, Ne.symm hc]
  | x :: w, h, hn => by
    rw [List.mem_cons, not_or] at h hn
    rw [List.cons_append, strchr, if_neg (Ne.symm h.1), if_neg (Ne.symm hn.1), strchr_none hc h.2 hn.2]
    rfl

theorem unknown_insert (m : Material T) (key value : List Char) :
    { m with unknown := fun k => if k = key then (match m.unknown key with | some v => some v | none => some value) else m.unknown k } =
      (MtlItem.other key value).apply m := by
  show _ = if m.unknown key = none then { m with unknown := Function.update m.unknown key (some value) } else m
  cases h : m.unknown key with
  | some v =>
    rw [if_neg (by simp)]
    have : (fun k => if k = key then some v else m.unknown k) = m.unknown := by
      funext k
      by_cases hk : k = key
      · subst hk; simp [h]
      · simp [hk]
    simp only [this]
  | none =>
    rw [if_pos rfl]
    have : (fun k => if k = key then some value else m.unknown k) = Function.update m.unknown key (some value) := by
      funext k
      simp [Function.update_apply]
    simp only [this]

/-- the line after its leading blanks -/
theorem line_start (cast : T → T) {b l : List Char} (hb : IsBlanks b) (hl : b ++ l ≠ []) (hhead : ∀ c, l.head? = some c → c ∉ blanks) (hnl : ∀ c ∈ b ++ l, c ≠ '\n' ∧ c ≠ '\r') (s : MtlValSt T) :
    mtlValLine cast (b ++ l) s = mtlValCommand cast (l ++ [nul]) s := by
  unfold mtlValLine
  rw [trimLine_eq hnl]
  simp only [if_neg hl]
  obtain ⟨c, q, hq, hc⟩ : ∃ c q, l ++ [nul] = c :: q ∧ c ∉ blanks := by
    cases l with
    | nil => exact ⟨nul, [], rfl, by decide⟩
    | cons c l => exact ⟨c, l ++ [nul], rfl, hhead c rfl⟩
  rw [List.append_assoc, hq, strspn_ok b hb hc, ok_bind, adv_append, ok_bind]

theorem value_key (cast : T → T) {k : MtlKey} {s : Char} {q : List Char} (hs : s ∈ blanks) (hq : nul ∈ q) (st : MtlValSt T) :
    mtlValCommand cast (k.word ++ s :: q) st = (do let m ← setKey cast k (k.word ++ s :: q) st.material; return { st with material := m }) := by
  obtain ⟨c, w, hw, h1, h2⟩ : ∃ c w, k.word = c :: w ∧ c ≠ nul ∧ c ≠ '#' := by
    cases k <;> exact ⟨_, _, rfl, by decide, by decide⟩
  have hn : nul ∈ k.word ++ s :: q := by simp [hq]
  have hcmd : isCommand ['n', 'e', 'w', 'm', 't', 'l'] (k.word ++ s :: q) = .ok false := by
    rcases isCommand_cons ['n', 'e', 'w', 'm', 't', 'l'] _ hn (by decide) with e | ⟨s', q', hp, hs', -⟩
    · exact e
    · have := word_unique (key_plain k).1 (by decide) hs hs' hp
      refine absurd this ?_
      cases k <;> decide
  unfold mtlValCommand
  rw [hcmd, findMtlKey_yes hs hn mtlKeys (key_mem k), show getIdx (k.word ++ s :: q) 0 = .ok c by rw [hw]; rfl, ok_bind, if_neg h1, if_neg h2, ok_bind,
    if_neg (by decide), ok_bind]

theorem value_unknown (cast : T → T) {l : List Char} (hne : l ≠ []) (hu : Unknown l) (hn : nul ∉ l) (st : MtlValSt T) :
    mtlValCommand cast (l ++ [nul]) st = (do let m ← setUnknown (l ++ [nul]) st.material; return { st with material := m }) := by
  obtain ⟨c, l', rfl⟩ : ∃ c l', l = c :: l' := by
    cases l with
    | nil => exact absurd rfl hne
    | cons c l => exact ⟨c, l, rfl⟩
  have h1 : c ≠ nul := by rintro rfl; exact hn (by simp)
  have h2 := (hu.head c rfl).2
  have hno : ∀ w ∈ allWords, ∀ s ∈ blanks, ∀ q, (c :: l') ++ [nul] ≠ w ++ s :: q := by
    intro w hw s hs q e
    obtain ⟨q', hq'⟩ : ∃ q', q = q' ++ [nul] := by
      rcases List.eq_nil_or_concat q with rfl | ⟨q', x, rfl⟩
      · have h3 : (w ++ [s]).getLast? = some nul := by rw [← e]; exact List.getLast?_concat
        simp at h3
        exact absurd h3 (blank_ne hs)
      · have h3 : (w ++ s :: (q' ++ [x])).getLast? = some nul := by rw [← List.concat_eq_append, ← e]; exact List.getLast?_concat
        rw [show w ++ s :: (q' ++ [x]) = (w ++ s :: q') ++ [x] by simp, List.getLast?_append] at h3
        simp at h3
        exact ⟨q', by rw [h3]; simp⟩
    refine hu.word w hw s hs q' (List.append_cancel_right (bs := [nul]) ?_)
    rw [e, hq']
    simp
  have hcmd : isCommand ['n', 'e', 'w', 'm', 't', 'l'] ((c :: l') ++ [nul]) = .ok false := by
    rcases isCommand_cons ['n', 'e', 'w', 'm', 't', 'l'] _ (by simp : nul ∈ (c :: l') ++ [nul]) (by decide) with e | ⟨s', q', hp, hs', -⟩
    · exact e
    · exact absurd hp (hno _ (by simp [allWords]) s' hs' q')
  have hfind := findMtlKey_no (p := (c :: l') ++ [nul]) (by simp) (fun k s hs q => hno k.word (by cases k <;> simp [allWords, MtlKey.word]) s hs q) mtlKeys
  unfold mtlValCommand
  rw [hcmd, hfind, show getIdx ((c :: l') ++ [nul]) 0 = .ok c from rfl, ok_bind, if_neg h1, if_neg h2, ok_bind, if_neg (by decide), ok_bind]

theorem parse3_ok [CharZero T] (cast : T → T) {b1 b2 b3 : List Char} {x y z : Num} {r : List Char} (h1 : IsBlanks b1) (h2 : IsBlanks b2) (h2' : b2 ≠ []) (h3 : IsBlanks b3) (h3' : b3 ≠ [])
    (hx : x.Valid) (hx' : x.Small) (hy : y.Valid) (hy' : y.Small) (hz : z.Valid) (hz' : z.Small) (hr : IsRest r) :
    parse3 cast (b1 ++ (x.text ++ (b2 ++ (y.text ++ (b3 ++ (z.text ++ r))))) ++ [nul]) = .ok (cast x.value, cast y.value, cast z.value) := by
  unfold parse3
  rw [show b1 ++ (x.text ++ (b2 ++ (y.text ++ (b3 ++ (z.text ++ r))))) ++ [nul] = b1 ++ (x.text ++ (b2 ++ (y.text ++ (b3 ++ (z.text ++ (r ++ [nul])))))) by simp,
    field_then cast h1 hx hx' (blanks_end h2 h2'), ok_bind]
  dsimp only
  rw [field_then cast h2 hy hy' (blanks_end h3 h3'), ok_bind]
  dsimp only
  rw [field_then cast h3 hz hz' (rest_end hr), ok_bind]
  rfl

theorem parseInt_ok {b1 : List Char} {i : IntLit} {r : List Char} (hb : IsBlanks b1) (hi : i.Valid) (hs : -2147483648 ≤ i.value ∧ i.value ≤ 2147483647) (hr : IsRest r) :
    ∃ q, parseInt (b1 ++ (i.text ++ r) ++ [nul]) = .ok (i.value, q) := by
  obtain ⟨t, q, e, ht⟩ := rest_end hr
  have htd : ¬ IsDigit t := by
    intro hd
    have := digit_word hd
    rcases ht with h | h
    · exact this.1 h
    · exact this.2 h
  obtain ⟨c, w, hw, hc⟩ : ∃ c w, i.text = c :: w ∧ c ∉ blanks := by
    have h0 : i.text ≠ [] := by
      unfold IntLit.text
      simp [hi.digits.1]
    obtain ⟨c, w, hw⟩ := List.exists_cons_of_ne_nil h0
    refine ⟨c, w, hw, fun h => ?_⟩
    have := (IntLit.word hi c (by rw [hw]; simp)).2
    unfold blanksSlash at this
    unfold blanks at h
    simp only [List.mem_cons, List.not_mem_nil, or_false] at h this
    tauto
  unfold parseInt
  have e1 : strspn blanks (b1 ++ (i.text ++ t :: q)) = .ok b1.length := by
    rw [hw, List.cons_append]
    exact strspn_ok b1 hb hc _
  have hn : nul ∈ i.text ++ t :: q := by
    rw [← e]; simp
  obtain ⟨n, g1, g2, -, -⟩ := strcspn_nul (set := blanksCr) _ hn
  rw [show b1 ++ (i.text ++ r) ++ [nul] = b1 ++ (i.text ++ t :: q) by rw [← e]; simp, e1, ok_bind, adv_append, ok_bind, atoi_ok hi hs htd q, ok_bind, g1, ok_bind, adv_ok (le_of_lt g2)]
  exact ⟨_, rfl⟩

theorem mtlValLine_ok [CharZero T] (cast : T → T) {l : List Char} {i : MtlItem T} (hl : MtlSays cast l i) (hnl : ∀ c ∈ l, c ≠ '\n' ∧ c ≠ '\r') (hn : nul ∉ l) (s : MtlValSt T) :
    mtlValLine cast l s = .ok (mtlStep s i) := by
  have hkey : ∀ (k : MtlKey) (b : List Char) (s0 : Char) (q : List Char) (i : MtlItem T), IsBlanks b → s0 ∈ blanks → (∀ c ∈ b ++ (k.word ++ s0 :: q), c ≠ '\n' ∧ c ≠ '\r') →
      setKey cast k (k.word ++ s0 :: (q ++ [nul])) s.material = .ok (i.apply s.material) → i.isDefine = false → mtlValLine cast (b ++ (k.word ++ s0 :: q)) s = .ok (mtlStep s i) := by
    intro k b s0 q i hb hs0 hnl hset hd
    rw [line_start cast hb (by simp) _ hnl, show k.word ++ s0 :: q ++ [nul] = k.word ++ s0 :: (q ++ [nul]) by simp, value_key cast hs0 (by simp), hset, ok_bind]
    · cases i <;> first | rfl | (cases hd)
    · intro c hc
      have := (key_plain k).1 c
      cases k <;> simp_all [MtlKey.word] <;> (subst hc; decide)
  have hunk : ∀ (b l : List Char) (i : MtlItem T), IsBlanks b → l ≠ [] → Unknown l → nul ∉ l → (∀ c ∈ b ++ l, c ≠ '\n' ∧ c ≠ '\r') →
      setUnknown (l ++ [nul]) s.material = .ok (i.apply s.material) → i.isDefine = false → mtlValLine cast (b ++ l) s = .ok (mtlStep s i) := by
    intro b l i hb hne hu hn hnl hset hd
    rw [line_start cast hb (by simp [hne]) (fun c hc => (hu.head c hc).1) hnl, value_unknown cast hne hu hn, hset, ok_bind]
    cases i <;> first | rfl | (cases hd)
  have hblank : ∀ {b : List Char}, IsBlanks b → b ≠ [] → ∀ q, ∃ s0 b', b ++ q = s0 :: (b' ++ q) ∧ s0 ∈ blanks ∧ IsBlanks b' := by
    intro b hb hne q
    cases b with
    | nil => exact absurd rfl hne
    | cons c b => exact ⟨c, b, rfl, hb c (by simp), fun c hc => hb c (by simp [hc])⟩
  cases hl with
  | blank b hb =>
    by_cases h0 : l = []
    · subst h0; rfl
    · have := line_start cast (b := l) (l := []) hb (by simpa using h0) (by simp) (by simpa using hnl) s
      rw [List.append_nil] at this
      rw [this]
      rfl
  | comment b r hb =>
    rw [line_start cast hb (by simp) (by simp; decide) hnl]
    rfl
  | define b s0 a n r hb hs0 ha hne hlen hn1 hr =>
    rw [line_start cast hb (by simp) (by simp; decide) hnl]
    unfold mtlValCommand
    have e2 : ['n', 'e', 'w', 'm', 't', 'l'] ++ s0 :: (a ++ (n ++ r)) ++ [nul] = ['n', 'e', 'w', 'm', 't', 'l'] ++ s0 :: (a ++ (n ++ r) ++ [nul]) := by simp
    rw [e2, show getIdx (['n', 'e', 'w', 'm', 't', 'l'] ++ s0 :: (a ++ (n ++ r) ++ [nul])) 0 = .ok 'n' from rfl, ok_bind, if_neg (by decide), if_neg (by decide),
      isCommand_yes _ hs0, ok_bind, if_pos rfl,
      show adv (['n', 'e', 'w', 'm', 't', 'l'] ++ s0 :: (a ++ (n ++ r) ++ [nul])) 7 = .ok (a ++ (n ++ r) ++ [nul]) from adv_append ['n', 'e', 'w', 'm', 't', 'l', s0] _,
      ok_bind, scanName_eq ha hne hlen hn1 hr (fun hx => hn (by simp [hx])), ok_bind]
    rfl
  | colour b w f b1 b2 b3 x y z r hb hw h1 h1' h2 h2' h3 h3' hx hx' hy hy' hz hz' hr =>
    obtain ⟨s0, b1', e, hs0, hb1'⟩ := hblank h1 h1' (x.text ++ (b2 ++ (y.text ++ (b3 ++ (z.text ++ r)))))
    have hp := parse3_ok cast (b1 := s0 :: b1') (fun c hc => by
      rw [List.mem_cons] at hc
      rcases hc with rfl | hc
      · exact hs0
      · exact hb1' c hc) h2 h2' h3 h3' hx hx' hy hy' hz hz' hr
    rw [e] at hnl ⊢
    simp only [colourWords, List.mem_cons, Prod.mk.injEq, List.not_mem_nil, or_false] at hw
    have hset : ∀ k : MtlKey, k.word.length = 2 → (do let p ← adv (k.word ++ s0 :: ((b1' ++ (x.text ++ (b2 ++ (y.text ++ (b3 ++ (z.text ++ r)))))) ++ [nul])) 2; parse3 cast p) =
        .ok (cast x.value, cast y.value, cast z.value) := by
      intro k hk
      rw [← hk, adv_append, ok_bind]
      exact hp
    have hset' : ∀ (k : MtlKey) (g : T × T × T → Material T), k.word.length = 2 →
        (do let p ← adv (k.word ++ s0 :: ((b1' ++ (x.text ++ (b2 ++ (y.text ++ (b3 ++ (z.text ++ r)))))) ++ [nul])) 2; let c ← parse3 cast p; return g c) =
        .ok (g (cast x.value, cast y.value, cast z.value)) := by
      intro k g hk
      have := hset k hk
      rw [← hk, adv_append, ok_bind] at this ⊢
      rw [this]
      rfl
    rcases hw with ⟨rfl, rfl⟩ | ⟨rfl, rfl⟩ | ⟨rfl, rfl⟩ | ⟨rfl, rfl⟩ | ⟨rfl, rfl⟩
    · exact hkey .ambient b s0 _ _ hb hs0 hnl (hset' .ambient (fun c => { s.material with ambient := c }) rfl) rfl
    · exact hkey .diffuse b s0 _ _ hb hs0 hnl (hset' .diffuse (fun c => { s.material with diffuse := c }) rfl) rfl
    · exact hkey .specular b s0 _ _ hb hs0 hnl (hset' .specular (fun c => { s.material with specular := c }) rfl) rfl
    · exact hkey .transmittance b s0 _ _ hb hs0 hnl (hset' .transmittance (fun c => { s.material with transmittance := c }) rfl) rfl
    · exact hkey .emission b s0 _ _ hb hs0 hnl (hset' .emission (fun c => { s.material with emission := c }) rfl) rfl
  | number b w f b1 x r hb hw h1 h1' hx hx' hr =>
    obtain ⟨s0, b1', e, hs0, hb1'⟩ := hblank h1 h1' (x.text ++ r)
    have hp := field_then cast (b := s0 :: b1') (fun c hc => by
      rw [List.mem_cons] at hc
      rcases hc with rfl | hc
      · exact hs0
      · exact hb1' c hc) hx hx' (rest_end hr)
    rw [e] at hnl ⊢
    simp only [numberWords, List.mem_cons, Prod.mk.injEq, List.not_mem_nil, or_false] at hw
    have hset : ∀ (k : MtlKey) (n : Nat) (g : T → Material T), k.word.length = n →
        (do let p ← adv (k.word ++ s0 :: ((b1' ++ (x.text ++ r)) ++ [nul])) n; let x ← parseFloat cast p; return g x.1) = .ok (g (cast x.value)) := by
      intro k n g hk
      rw [← hk, adv_append, ok_bind, show s0 :: ((b1' ++ (x.text ++ r)) ++ [nul]) = s0 :: b1' ++ (x.text ++ (r ++ [nul])) by simp, hp]
      rfl
    rcases hw with ⟨rfl, rfl⟩ | ⟨rfl, rfl⟩ | ⟨rfl, rfl⟩ | ⟨rfl, rfl⟩
    · exact hkey .ior b s0 _ _ hb hs0 hnl (hset .ior 2 (fun c => { s.material with ior := c }) rfl) rfl
    · exact hkey .shininess b s0 _ _ hb hs0 hnl (hset .shininess 2 (fun c => { s.material with shininess := c }) rfl) rfl
    · exact hkey .dissolve b s0 _ _ hb hs0 hnl (hset .dissolve 1 (fun c => { s.material with dissolve := c }) rfl) rfl
    · exact hkey .transparency b s0 _ _ hb hs0 hnl (hset .transparency 2 (fun c => { s.material with dissolve := cast (1 - c) }) rfl) rfl
  | illum b s0 b1 i r hb hs0 hb1 hi hi' hr =>
    obtain ⟨q, hp⟩ := parseInt_ok hb1 hi hi' hr
    refine hkey .illum b s0 _ _ hb hs0 hnl ?_ rfl
    have e : adv (MtlKey.illum.word ++ s0 :: ((b1 ++ (i.text ++ r)) ++ [nul])) 6 = .ok ((b1 ++ (i.text ++ r)) ++ [nul]) := adv_succ MtlKey.illum.word s0 _
    unfold setKey
    simp only
    rw [e, ok_bind, hp]
    rfl
  | texture b w f s0 r hb hw hs0 =>
    have hr : nul ∉ r := fun h => hn (by simp [h])
    simp only [textureWords, List.mem_cons, Prod.mk.injEq, List.not_mem_nil, or_false] at hw
    have hset : ∀ (k : MtlKey) (n : Nat) (g : List Char → Material T), k.word.length + 1 = n →
        (do let p ← adv (k.word ++ s0 :: (r ++ [nul])) n; let s ← cstr p; return g s) = .ok (g r) := by
      intro k n g hk
      rw [← hk, adv_succ, ok_bind, cstr_eq hr]
      rfl
    rcases hw with ⟨rfl, rfl⟩ | ⟨rfl, rfl⟩ | ⟨rfl, rfl⟩ | ⟨rfl, rfl⟩ | ⟨rfl, rfl⟩ | ⟨rfl, rfl⟩ | ⟨rfl, rfl⟩ | ⟨rfl, rfl⟩
    · exact hkey .mapKa b s0 _ _ hb hs0 hnl (hset .mapKa 7 (fun c => { s.material with ambientTex := c }) rfl) rfl
    · exact hkey .mapKd b s0 _ _ hb hs0 hnl (hset .mapKd 7 (fun c => { s.material with diffuseTex := c }) rfl) rfl
    · exact hkey .mapKs b s0 _ _ hb hs0 hnl (hset .mapKs 7 (fun c => { s.material with specularTex := c }) rfl) rfl
    · exact hkey .mapNs b s0 _ _ hb hs0 hnl (hset .mapNs 7 (fun c => { s.material with highlightTex := c }) rfl) rfl
    · exact hkey .mapBump b s0 _ _ hb hs0 hnl (hset .mapBump 9 (fun c => { s.material with bumpTex := c }) rfl) rfl
    · exact hkey .bump b s0 _ _ hb hs0 hnl (hset .bump 5 (fun c => { s.material with bumpTex := c }) rfl) rfl
    · exact hkey .mapD b s0 _ _ hb hs0 hnl (hset .mapD 6 (fun c => { s.material with alphaTex := c }) rfl) rfl
    · exact hkey .disp b s0 _ _ hb hs0 hnl (hset .disp 5 (fun c => { s.material with displacementTex := c }) rfl) rfl
  | otherSpace b key value hb hne hu hk =>
    have hkn : nul ∉ key := fun h => hn (by simp [h])
    have hvn : nul ∉ value := fun h => hn (by simp [h])
    refine hunk b _ _ hb (by simp) hu (fun h => hn (by simp only [List.mem_append] at h ⊢; exact Or.inr h)) hnl ?_ rfl
    unfold setUnknown
    rw [show key ++ ' ' :: value ++ [nul] = key ++ ' ' :: (value ++ [nul]) by simp, strchr_some _ hk hkn, ok_bind]
    simp only
    rw [ok_bind]
    simp only
    rw [adv_succ, ok_bind, cstr_eq hvn, ok_bind, List.take_left]
    exact congrArg Except.ok (unknown_insert s.material key value)
  | otherTab b key value hb hne hu hk ht hv =>
    have hkn : nul ∉ key := fun h => hn (by simp [h])
    have hvn : nul ∉ value := fun h => hn (by simp [h])
    refine hunk b _ _ hb (by simp) hu (fun h => hn (by simp only [List.mem_append] at h ⊢; exact Or.inr h)) hnl ?_ rfl
    unfold setUnknown
    rw [strchr_none (by decide) (fun h => by
      rw [List.mem_append, List.mem_cons] at h
      rcases h with h | h | h
      · exact hk h
      · revert h; decide
      · exact hv h) (fun h => hn (by simp only [List.mem_append] at h ⊢; exact Or.inr h)), ok_bind]
    simp only
    rw [show key ++ '\t' :: value ++ [nul] = key ++ '\t' :: (value ++ [nul]) by simp, strchr_some _ ht hkn, ok_bind]
    simp only
    rw [adv_succ, ok_bind, cstr_eq hvn, ok_bind, List.take_left]
    exact congrArg Except.ok (unknown_insert s.material key value)
  | word b w hb hne hu hw =>
    have hwn : nul ∉ w := fun h => hn (by simp [h])
    refine hunk b w .skip hb hne hu hwn hnl ?_ rfl
    unfold setUnknown
    rw [strchr_none (by decide) (fun h => hw _ h (by decide)) hwn, ok_bind]
    simp only
    rw [strchr_none (by decide) (fun h => hw _ h (by decide)) hwn, ok_bind]
    rfl

theorem mtlValLoop_ok [CharZero T] (cast : T → T) {text : List Char} {ls : List (List Char)} (ht : Lines text ls) :
    ∀ {items : List (MtlItem T)}, List.Forall₂ (MtlSays cast) ls items → (∀ l ∈ ls, nul ∉ l) → ∀ (n : Nat), text.length ≤ n → ∀ s : MtlValSt T,
      mtlValLoop cast n text s = .ok (items.foldl mtlStep s) := by
  have hstep : ∀ {text l r : List Char} {i : MtlItem T} {items : List (MtlItem T)} {n : Nat} {s : MtlValSt T}, text ≠ [] →
      safeGetline text = (l, r) → MtlSays cast l i → (∀ c ∈ l, c ≠ '\n' ∧ c ≠ '\r') → nul ∉ l →
      (∀ s : MtlValSt T, mtlValLoop cast n r s = .ok (items.foldl mtlStep s)) → mtlValLoop cast (n + 1) text s = .ok ((i :: items).foldl mtlStep s) := by
    intro text l r i items n s hne hg hl hnl hn ih
    rw [mtlValLoop, if_neg hne, hg]
    simp only
    rw [mtlValLine_ok cast hl hnl hn, ok_bind, ih, List.foldl_cons]
  induction ht with
  | nil =>
    intro items hf _ n hn s
    cases hf
    cases n <;> rfl
  | last l hne hnl =>
    intro items hf hnu n hn s
    cases hf with
    | cons h1 h2 =>
      cases h2
      obtain ⟨n, rfl⟩ : ∃ k, n = k + 1 := ⟨n - 1, by have := List.length_pos_iff.2 hne; omega⟩
      exact hstep hne (safeGetline_last hnl) h1 hnl (hnu _ (by simp)) fun s => by cases n <;> rfl
  | lf l r ls hnl hr ih =>
    intro items hf hnu n hn s
    cases hf with
    | cons h1 h2 =>
      obtain ⟨n, rfl⟩ : ∃ k, n = k + 1 := ⟨n - 1, by simp at hn; omega⟩
      exact hstep (by simp) (safeGetline_lf hnl r) h1 hnl (hnu _ (by simp)) fun s => ih h2 (fun l hl => hnu l (by simp [hl])) n (by simp at hn; omega) s
  | crlf l r ls hnl hr ih =>
    intro items hf hnu n hn s
    cases hf with
    | cons h1 h2 =>
      obtain ⟨n, rfl⟩ : ∃ k, n = k + 1 := ⟨n - 1, by simp at hn; omega⟩
      exact hstep (by simp) (safeGetline_cr hnl ('\n' :: r)) h1 hnl (hnu _ (by simp)) fun s => ih h2 (fun l hl => hnu l (by simp [hl])) n (by simp at hn; omega) s
  | cr l r ls hnl hnr hr ih =>
    intro items hf hnu n hn s
    cases hf with
    | cons h1 h2 =>
      obtain ⟨n, rfl⟩ : ∃ k, n = k + 1 := ⟨n - 1, by simp at hn; omega⟩
      exact hstep (by simp) (by rw [safeGetline_cr hnl r, if_neg hnr]) h1 hnl (hnu _ (by simp)) fun s => ih h2 (fun l hl => hnu l (by simp [hl])) n (by simp at hn; omega) s

/-! ### The property -/

theorem says_named {cast : T → T} {l : List Char} {i : MtlItem T} (h : MtlSays cast l i) : ∀ n, i = .define n → n ≠ [] := by
  intro n hi
  cases h with
  | define b s a n' r _ _ _ hne _ _ _ => cases hi; exact hne
  | colour b w f b1 b2 b3 x y z r hb hw =>
    simp only [colourWords, List.mem_cons, Prod.mk.injEq, List.not_mem_nil, or_false] at hw
    rcases hw with ⟨rfl, rfl⟩ | ⟨rfl, rfl⟩ | ⟨rfl, rfl⟩ | ⟨rfl, rfl⟩ | ⟨rfl, rfl⟩ <;> cases hi
  | number b w f b1 x r hb hw =>
    simp only [numberWords, List.mem_cons, Prod.mk.injEq, List.not_mem_nil, or_false] at hw
    rcases hw with ⟨rfl, rfl⟩ | ⟨rfl, rfl⟩ | ⟨rfl, rfl⟩ | ⟨rfl, rfl⟩ <;> cases hi
  | texture b w f s0 r hb hw =>
    simp only [textureWords, List.mem_cons, Prod.mk.injEq, List.not_mem_nil, or_false] at hw
    rcases hw with ⟨rfl, rfl⟩ | ⟨rfl, rfl⟩ | ⟨rfl, rfl⟩ | ⟨rfl, rfl⟩ | ⟨rfl, rfl⟩ | ⟨rfl, rfl⟩ | ⟨rfl, rfl⟩ | ⟨rfl, rfl⟩ <;> cases hi
  | _ => cases hi

/-- **C120**: reading a material file appends the materials its lines describe, and numbers their names. -/
theorem C120_contents [CharZero T] (cast : T → T) {text : List Char} {ls : List (List Char)} {items : List (MtlItem T)} (ht : Lines text ls)
    (hl : List.Forall₂ (MtlSays cast) ls items) (hn : ∀ l ∈ ls, nul ∉ l) (map : List Char → Option Int) (mats : List (Material T)) :
    loadMtlValues cast text map mats = .ok (numbered map mats.length ((materialsOf items).map Material.name), mats ++ materialsOf items) := by
  have hnamed : Named items := by
    intro n hi
    obtain ⟨k, hk, e⟩ := List.mem_iff_getElem.1 hi
    have hk' : k < ls.length := by rw [hl.length_eq]; exact hk
    exact says_named (hl.get hk' hk) n e
  have key := steps_end items ⟨.init, map, mats⟩ hnamed
  have e : (if (Material.init : Material T).name = [] ∧ items.any MtlItem.isDefine = true then materialsFrom items
      else (settings items).foldl MtlItem.apply Material.init :: materialsFrom items) = materialsOf items := by
    unfold materialsOf
    cases hd : items.any MtlItem.isDefine with
    | true => rw [if_pos ⟨rfl, rfl⟩, if_pos rfl]
    | false =>
      rw [if_neg (by simp), if_neg (by simp)]
      have hno : ∀ i ∈ items, i.isDefine = false := by
        intro i hi
        rw [List.any_eq_false] at hd
        simpa using hd i hi
      have e1 : settings items = items := by
        unfold settings
        have e3 : ∀ l : List (MtlItem T), (∀ i ∈ l, i.isDefine = false) → l.takeWhile (fun i => !i.isDefine) = l := by
          intro l
          induction l with
          | nil => intro _; rfl
          | cons i l ih =>
            intro h
            rw [List.takeWhile_cons_of_pos (by simp [h i (by simp)]), ih fun j hj => h j (by simp [hj])]
        exact e3 items hno
      have e2 : ∀ l : List (MtlItem T), (∀ i ∈ l, i.isDefine = false) → materialsFrom l = [] := by
        intro l
        induction l with
        | nil => intro _; rfl
        | cons i l ih =>
          intro h
          have h1 := h i (by simp)
          have h2 := ih fun j hj => h j (by simp [hj])
          cases i <;> first | exact h2 | (exact absurd h1 (by simp [MtlItem.isDefine]))
      rw [e1, e2 items hno]
  simp only at key
  rw [e] at key
  unfold loadMtlValues
  rw [mtlValLoop_ok cast ht hl hn text.length le_rfl, ok_bind, key.1, key.2]
  rfl

/-! ### Every text -/

/-- what `MtlModel` keeps of the variables -/
def toMtl (v : MtlValSt T) : MtlSt := ⟨v.material.name, ⟨v.map, v.materials.length⟩⟩

theorem findKey_word {w : List Char} {s : Char} {q : List Char} (hw : ∀ c ∈ w, c ∉ blanks) (hs : s ∈ blanks) (hn : nul ∈ w ++ s :: q) : ∀ ws : List (List Char),
    (∀ x ∈ ws, (∀ c ∈ x, c ∉ blanks) ∧ nul ∉ x) → findKey (w ++ s :: q) ws = .ok (if w ∈ ws then some w else none)
  | [], _ => rfl
  | x :: ws, h => by
    unfold findKey
    by_cases hx : x = w
    · subst hx
      rw [isCommand_yes q hs, ok_bind, if_pos rfl, if_pos (by simp)]
      rfl
    · rcases isCommand_cons x (w ++ s :: q) hn (h x (by simp)).2 with e | ⟨s', q', hp, hs', -⟩
      · rw [e, ok_bind, if_neg (by decide), findKey_word hw hs hn ws fun y hy => h y (by simp [hy])]
        have : (w ∈ x :: ws) ↔ w ∈ ws := by simp [Ne.symm hx]
        simp only [this]
      · exact absurd (word_unique hw (h x (by simp)).1 hs hs' hp).symm hx

theorem findKey_none {p : List Char} (hn : nul ∈ p) : ∀ ws : List (List Char), (∀ x ∈ ws, nul ∉ x ∧ ∀ s ∈ blanks, ∀ q, p ≠ x ++ s :: q) → findKey p ws = .ok none
  | [], _ => rfl
  | x :: ws, h => by
    unfold findKey
    rcases isCommand_cons x p hn (h x (by simp)).1 with e | ⟨s', q', hp, hs', -⟩
    · rw [e, ok_bind, if_neg (by decide), findKey_none hn ws fun y hy => h y (by simp [hy])]
    · exact absurd hp ((h x (by simp)).2 s' hs' q')

theorem parse3_map (cast : T → T) (p : Ptr) : (parse3 cast p).map (fun _ => ()) = parseFloat3 cast p := by
  unfold parse3 parseFloat3
  rcases parseFloat cast p with e | x
  · rfl
  simp only [ok_bind]
  rcases parseFloat cast x.2 with e | y
  · rfl
  simp only [ok_bind]
  rcases parseFloat cast y.2 with e | z <;> rfl

theorem strchr_nul {c : Char} (hc : c ≠ nul) : ∀ {p : List Char}, nul ∈ p → strchr c p = .ok none ∨ ∃ n, strchr c p = .ok (some n) ∧ n + 1 ≤ p.length ∧ nul ∈ p.drop (n + 1)
  | [], h => by simp at h
  | x :: p, h => by
    unfold strchr
    by_cases hx : x = c
    · subst hx
      refine Or.inr ⟨0, by rw [if_pos rfl], by simp, ?_⟩
      rw [List.mem_cons] at h
      rcases h with h | h
      · exact absurd h.symm hc
      · simpa using h
    · rw [if_neg hx]
      by_cases hx0 : x = nul
      · rw [if_pos hx0]; exact Or.inl rfl
      · rw [if_neg hx0]
        have hp : nul ∈ p := by
          rw [List.mem_cons] at h
          rcases h with h | h
          · exact absurd h.symm hx0
          · exact h
        rcases strchr_nul hc hp with e | ⟨n, e, h1, h2⟩
        · rw [e]; exact Or.inl rfl
        · rw [e]
          exact Or.inr ⟨n + 1, rfl, by simp; omega, by simpa using h2⟩

theorem cstr_nul {p : List Char} (h : nul ∈ p) : ∃ s, cstr p = .ok s := ⟨_, if_pos h⟩

theorem setUnknown_nul {p : List Char} (h : nul ∈ p) (m : Material T) : ∃ m', setUnknown p m = .ok m' ∧ m'.name = m.name := by
  have hlen : ∀ n, n + 1 ≤ p.length ∧ nul ∈ p.drop (n + 1) → ∃ q v, adv p (n + 1) = .ok q ∧ cstr q = .ok v := fun n hn => by
    obtain ⟨v, hv⟩ := cstr_nul hn.2
    exact ⟨_, v, adv_ok hn.1, hv⟩
  unfold setUnknown
  rcases strchr_nul (c := ' ') (by decide) h with e | ⟨n, e, hn⟩
  · rw [e, ok_bind]
    simp only
    rcases strchr_nul (c := '\t') (by decide) h with e | ⟨n, e, hn⟩
    · rw [e, ok_bind]
      exact ⟨m, rfl, rfl⟩
    · rw [e, ok_bind]
      simp only
      obtain ⟨q, v, e1, e2⟩ := hlen n hn
      rw [e1, ok_bind, e2, ok_bind]
      exact ⟨_, rfl, rfl⟩
  · rw [e, ok_bind]
    simp only
    rw [ok_bind]
    simp only
    obtain ⟨q, v, e1, e2⟩ := hlen n hn
    rw [e1, ok_bind, e2, ok_bind]
    exact ⟨_, rfl, rfl⟩

theorem toMtl_set (v : MtlValSt T) (m : Material T) (h : m.name = v.material.name) : toMtl { v with material := m } = toMtl v := by
  unfold toMtl
  rw [h]

theorem colour_case (cast : T → T) (v : MtlValSt T) (g : T × T × T → Material T) (hg : ∀ c, (g c).name = v.material.name) (w q : List Char) :
    (do let p ← adv (w ++ q) w.length; parseFloat3 cast p; return toMtl v : R MtlSt) =
      (do let m ← (do let p ← adv (w ++ q) w.length; let c ← parse3 cast p; return g c : R (Material T)); return { v with material := m } : R (MtlValSt T)).map toMtl := by
  rw [adv_append, ok_bind, ok_bind, ← parse3_map]
  rcases parse3 cast q with e | c
  · rfl
  · exact congrArg Except.ok (toMtl_set v (g c) (hg c)).symm

theorem number_case (cast : T → T) (v : MtlValSt T) (g : T → Material T) (hg : ∀ c, (g c).name = v.material.name) (w q : List Char) :
    (do let p ← adv (w ++ q) w.length; let _ ← parseFloat cast p; return toMtl v : R MtlSt) =
      (do let m ← (do let p ← adv (w ++ q) w.length; let x ← parseFloat cast p; return g x.1 : R (Material T)); return { v with material := m } : R (MtlValSt T)).map toMtl := by
  rw [adv_append, ok_bind, ok_bind]
  rcases parseFloat cast q with e | c
  · rfl
  · exact congrArg Except.ok (toMtl_set v (g c.1) (hg c.1)).symm

theorem illum_case (v : MtlValSt T) (g : Int → Material T) (hg : ∀ c, (g c).name = v.material.name) (n : Nat) (p : List Char) :
    (do let p ← adv p n; let _ ← parseInt p; return toMtl v : R MtlSt) =
      (do let m ← (do let p ← adv p n; let x ← parseInt p; return g x.1 : R (Material T)); return { v with material := m } : R (MtlValSt T)).map toMtl := by
  rcases adv p n with e | q
  · rfl
  simp only [ok_bind]
  rcases parseInt q with e | c
  · rfl
  · exact congrArg Except.ok (toMtl_set v (g c.1) (hg c.1)).symm

theorem texture_case (v : MtlValSt T) (g : List Char → Material T) (hg : ∀ c, (g c).name = v.material.name) (w q : List Char) (s : Char) (hq : nul ∈ q) :
    (.ok (toMtl v) : R MtlSt) =
      (do let m ← (do let p ← adv (w ++ s :: q) (w.length + 1); let x ← cstr p; return g x : R (Material T)); return { v with material := m } : R (MtlValSt T)).map toMtl := by
  obtain ⟨x, e⟩ := cstr_nul hq
  rw [adv_succ, ok_bind, e, ok_bind]
  exact congrArg Except.ok (toMtl_set v (g x) (hg x)).symm

theorem words_plain : (∀ x ∈ colourKeys, (∀ c ∈ x, c ∉ blanks) ∧ nul ∉ x) ∧ ∀ x ∈ numberKeys, (∀ c ∈ x, c ∉ blanks) ∧ nul ∉ x := by decide

theorem toMtl_command (cast : T → T) {p : List Char} (hn : nul ∈ p) (v : MtlValSt T) : mtlCommand cast p (toMtl v) = (mtlValCommand cast p v).map toMtl := by
  obtain ⟨c, p', rfl⟩ : ∃ c p', p = c :: p' := by
    cases p with
    | nil => simp at hn
    | cons c p => exact ⟨c, p, rfl⟩
  by_cases h1 : c = nul
  · subst h1; rfl
  by_cases h2 : c = '#'
  · subst h2; rfl
  by_cases hnew : isCommand ['n', 'e', 'w', 'm', 't', 'l'] (c :: p') = .ok true
  · unfold mtlCommand mtlValCommand
    rw [getIdx_zero, ok_bind, if_neg h1, if_neg h2, hnew, ok_bind, if_pos rfl, ok_bind, if_neg h1, if_neg h2, ok_bind, if_pos rfl]
    rcases adv (c :: p') 7 with e | p1
    · rfl
    simp only [ok_bind]
    rcases scanName p1 with e | n
    · rfl
    simp only [ok_bind]
    by_cases hv : v.material.name = []
    · have hv' : (toMtl v).name = [] := hv
      simp only [if_pos hv, if_pos hv']
      rfl
    · have hv' : (toMtl v).name ≠ [] := hv
      simp only [if_neg hv, if_neg hv']
      show Except.ok _ = Except.ok _
      congr 1
      unfold toMtl addMaterial MtlValSt.push
      simp only [List.length_append, List.length_singleton]
      rfl
  have hnew' : isCommand ['n', 'e', 'w', 'm', 't', 'l'] (c :: p') = .ok false := by
    rcases isCommand_cons ['n', 'e', 'w', 'm', 't', 'l'] (c :: p') hn (by decide) with e | ⟨s', q', hp, hs', e⟩
    · exact e
    · exact absurd e hnew
  by_cases hk : ∃ (k : MtlKey) (s : Char) (q : List Char), s ∈ blanks ∧ c :: p' = k.word ++ s :: q
  · obtain ⟨k, s, q, hs, hp⟩ := hk
    have hq : nul ∈ q := by
      rw [hp, List.mem_append, List.mem_cons] at hn
      rcases hn with h | h | h
      · exact absurd h (key_plain k).2
      · exact absurd h.symm (blank_ne hs)
      · exact h
    have hget : getIdx (c :: p') 0 = .ok c := rfl
    rw [hp] at hn hnew' hget ⊢
    have hill : isCommand ['i', 'l', 'l', 'u', 'm'] (k.word ++ s :: q) = .ok (decide (k = .illum)) := by
      rcases isCommand_cons ['i', 'l', 'l', 'u', 'm'] _ hn (by decide) with e | ⟨s', q', hp', hs', e⟩
      · rw [e]
        by_cases hki : k = .illum
        · subst hki
          have := isCommand_yes (word := ['i', 'l', 'l', 'u', 'm']) q hs
          rw [show MtlKey.illum.word = ['i', 'l', 'l', 'u', 'm'] from rfl, this] at e
          cases e
        · rw [decide_eq_false hki]
      · have := key_inj (k := k) (k' := .illum) (word_unique (key_plain k).1 (by decide) hs hs' hp')
        rw [e, decide_eq_true this]
    rw [value_key cast hs hq]
    unfold mtlCommand
    rw [hget, ok_bind, if_neg h1, if_neg h2, hnew', ok_bind, if_neg (by decide), findKey_word (key_plain k).1 hs hn _ words_plain.1, findKey_word (key_plain k).1 hs hn _ words_plain.2,
      hill, ok_bind]
    cases k
    · exact colour_case cast v (fun c => { v.material with ambient := c }) (fun _ => rfl) ['K', 'a'] (s :: q)
    · exact colour_case cast v (fun c => { v.material with diffuse := c }) (fun _ => rfl) ['K', 'd'] (s :: q)
    · exact colour_case cast v (fun c => { v.material with specular := c }) (fun _ => rfl) ['K', 's'] (s :: q)
    · exact colour_case cast v (fun c => { v.material with transmittance := c }) (fun _ => rfl) ['K', 't'] (s :: q)
    · exact number_case cast v (fun c => { v.material with ior := c }) (fun _ => rfl) ['N', 'i'] (s :: q)
    · exact colour_case cast v (fun c => { v.material with emission := c }) (fun _ => rfl) ['K', 'e'] (s :: q)
    · exact number_case cast v (fun c => { v.material with shininess := c }) (fun _ => rfl) ['N', 's'] (s :: q)
    · exact illum_case v (fun c => { v.material with illum := c }) (fun _ => rfl) 6 (['i', 'l', 'l', 'u', 'm'] ++ s :: q)
    · exact number_case cast v (fun c => { v.material with dissolve := c }) (fun _ => rfl) ['d'] (s :: q)
    · exact number_case cast v (fun c => { v.material with dissolve := cast (1 - c) }) (fun _ => rfl) ['T', 'r'] (s :: q)
    · exact texture_case v (fun c => { v.material with ambientTex := c }) (fun _ => rfl) ['m', 'a', 'p', '_', 'K', 'a'] q s hq
    · exact texture_case v (fun c => { v.material with diffuseTex := c }) (fun _ => rfl) ['m', 'a', 'p', '_', 'K', 'd'] q s hq
    · exact texture_case v (fun c => { v.material with specularTex := c }) (fun _ => rfl) ['m', 'a', 'p', '_', 'K', 's'] q s hq
    · exact texture_case v (fun c => { v.material with highlightTex := c }) (fun _ => rfl) ['m', 'a', 'p', '_', 'N', 's'] q s hq
    · exact texture_case v (fun c => { v.material with bumpTex := c }) (fun _ => rfl) ['m', 'a', 'p', '_', 'b', 'u', 'm', 'p'] q s hq
    · exact texture_case v (fun c => { v.material with alphaTex := c }) (fun _ => rfl) ['m', 'a', 'p', '_', 'd'] q s hq
    · exact texture_case v (fun c => { v.material with bumpTex := c }) (fun _ => rfl) ['b', 'u', 'm', 'p'] q s hq
    · exact texture_case v (fun c => { v.material with displacementTex := c }) (fun _ => rfl) ['d', 'i', 's', 'p'] q s hq
  · have hno : ∀ k : MtlKey, ∀ s ∈ blanks, ∀ q, c :: p' ≠ k.word ++ s :: q := fun k s hs q e => hk ⟨k, s, q, hs, e⟩
    have hcol := findKey_none hn colourKeys fun x hx => by
      simp only [colourKeys, List.mem_cons, List.not_mem_nil, or_false] at hx
      rcases hx with rfl | rfl | rfl | rfl | rfl
      · exact ⟨by decide, hno .ambient⟩
      · exact ⟨by decide, hno .diffuse⟩
      · exact ⟨by decide, hno .specular⟩
      · exact ⟨by decide, hno .transmittance⟩
      · exact ⟨by decide, hno .emission⟩
    have hnum := findKey_none hn numberKeys fun x hx => by
      simp only [numberKeys, List.mem_cons, List.not_mem_nil, or_false] at hx
      rcases hx with rfl | rfl | rfl | rfl
      · exact ⟨by decide, hno .ior⟩
      · exact ⟨by decide, hno .shininess⟩
      · exact ⟨by decide, hno .dissolve⟩
      · exact ⟨by decide, hno .transparency⟩
    have hill : isCommand ['i', 'l', 'l', 'u', 'm'] (c :: p') = .ok false := by
      rcases isCommand_cons ['i', 'l', 'l', 'u', 'm'] (c :: p') hn (by decide) with e | ⟨s', q', hp', hs', -⟩
      · exact e
      · exact absurd hp' (hno .illum s' hs' q')
    obtain ⟨m, e, hm⟩ := setUnknown_nul hn v.material
    unfold mtlCommand mtlValCommand
    simp only [hnew', hcol, hnum, hill, findMtlKey_no hn hno, getIdx_zero, ok_bind, if_neg h1, if_neg h2, Bool.false_eq_true, if_false, e]
    exact congrArg Except.ok (toMtl_set v m hm).symm

theorem toMtl_line (cast : T → T) (l : List Char) (v : MtlValSt T) : mtlLine cast l (toMtl v) = (mtlValLine cast l v).map toMtl := by
  unfold mtlLine mtlValLine
  by_cases h : trimLine l = []
  · simp only [h, if_true]
    rfl
  simp only [if_neg h]
  obtain ⟨n, e1, h2, h3, -⟩ := strspn_nul (set := blanks) (by decide) (trimLine l ++ [nul]) (by simp)
  rw [e1, ok_bind, ok_bind, adv_ok (le_of_lt h2), ok_bind, ok_bind]
  exact toMtl_command cast h3 v

theorem toMtl_loop (cast : T → T) : ∀ (n : Nat) (text : List Char) (v : MtlValSt T), mtlLoop cast n text (toMtl v) = (mtlValLoop cast n text v).map toMtl
  | 0, text, v => by
    unfold mtlLoop mtlValLoop
    by_cases h : text = []
    · rw [if_pos h, if_pos h]; rfl
    · rw [if_neg h, if_neg h]; rfl
  | n + 1, text, v => by
    unfold mtlLoop mtlValLoop
    by_cases h : text = []
    · rw [if_pos h, if_pos h]; rfl
    · rw [if_neg h, if_neg h]
      simp only [toMtl_line]
      rcases mtlValLine cast (safeGetline text).1 v with e | v'
      · rfl
      · exact toMtl_loop cast n _ v'

/-- **C120**: for every text whatsoever, names and numbers of the materials are those of C106; in particular the contents are read whenever the names are. -/
theorem C120_refines (cast : T → T) (text : List Char) (map : List Char → Option Int) (mats : List (Material T)) :
    loadMtl cast text ⟨map, mats.length⟩ = (loadMtlValues cast text map mats).map fun r => ⟨r.1, r.2.length⟩ := by
  have := toMtl_loop cast text.length text ⟨.init, map, mats⟩
  unfold loadMtl loadMtlValues
  rw [show (⟨[], ⟨map, mats.length⟩⟩ : MtlSt) = toMtl (⟨.init, map, mats⟩ : MtlValSt T) from rfl, this]
  rcases mtlValLoop cast text.length text (⟨.init, map, mats⟩ : MtlValSt T) with e | v
  · rfl
  · show Except.ok _ = Except.ok _
    congr 1
    unfold toMtl addMaterial MtlValSt.push
    simp only [List.length_append, List.length_singleton, MatMap.mk.injEq, and_true]
    rfl

/-- **C120** (safety): a material file whose lines are safe — apart from that anything — is read. -/
theorem C120_safe (cast : T → T) {text : List Char} {ls : List (List Char)} (ht : Lines text ls) (hs : ∀ l ∈ ls, SafeMtlLine l) (map : List Char → Option Int)
    (mats : List (Material T)) : ∃ r, loadMtlValues cast text map mats = .ok r := by
  obtain ⟨m, e⟩ := C106_safe cast ht hs ⟨map, mats.length⟩
  rw [C120_refines] at e
  rcases h : loadMtlValues cast text map mats with e' | r
  · rw [h] at e; cases e
  · exact ⟨r, rfl⟩

/-- a whole number without sign -/
def num (s : List Char) : Num := ⟨[], s, none, none⟩

theorem num_ok {s : List Char} (h : s ≠ [] ∧ ∀ c ∈ s, IsDigit c) : (num s).Valid := ⟨Or.inl rfl, h, by simp [num], by simp [num]⟩

/-- The hypotheses are met: two materials, the first with colours and a texture, the second with a transparency and an unknown parameter that is given twice. -/
example : ∃ (ls : List (List Char)) (items : List (MtlItem ℚ)), Lines "newmtl a\nKd 1 0 2\nmap_Kd x y.png\n\nnewmtl b\nTr 1\nq\t5\nq\t6\nillum 2".toList ls ∧
    List.Forall₂ (MtlSays (T := ℚ) id) ls items ∧ (∀ l ∈ ls, nul ∉ l) ∧ (materialsOf items).map (fun m => (m.name, m.diffuse, m.diffuseTex, m.dissolve, m.illum, m.unknown ['q'])) =
      [(['a'], ((1 : ℚ), 0, 2), ['x', ' ', 'y', '.', 'p', 'n', 'g'], 1, 0, none), (['b'], (0, 0, 0), [], 0, 2, some ['5'])] := by
  have hq : ∀ v : List Char, ' ' ∉ v → Unknown (['q'] ++ '\t' :: v) := by
    intro v hv
    refine ⟨fun c hc => ?_, fun w hw s hs q e => ?_⟩
    · cases hc; decide
    · have hp : ∀ w ∈ allWords, ∀ c ∈ w, c ∉ blanks := by decide
      have := word_unique (w := ['q']) (by decide) (hp w hw) (by decide) hs e
      subst this
      revert hw; decide
  have hb : IsBlanks [' '] := by simp [IsBlanks, blanks]
  refine ⟨[['n', 'e', 'w', 'm', 't', 'l', ' ', 'a'], ['K', 'd', ' ', '1', ' ', '0', ' ', '2'], ['m', 'a', 'p', '_', 'K', 'd', ' ', 'x', ' ', 'y', '.', 'p', 'n', 'g'], [],
      ['n', 'e', 'w', 'm', 't', 'l', ' ', 'b'], ['T', 'r', ' ', '1'], ['q', '\t', '5'], ['q', '\t', '6'], ['i', 'l', 'l', 'u', 'm', ' ', '2']],
    [.define ['a'], .diffuse ((num ['1']).value, (num ['0']).value, (num ['2']).value), .diffuseTex ['x', ' ', 'y', '.', 'p', 'n', 'g'], .skip,
      .define ['b'], .dissolve (1 - (num ['1']).value), .other ['q'] ['5'], .other ['q'] ['6'], .illum (IntLit.mk [] ['2']).value], ?_, ?_, by decide, ?_⟩
  · exact .lf ['n', 'e', 'w', 'm', 't', 'l', ' ', 'a'] _ _ (by decide) (.lf ['K', 'd', ' ', '1', ' ', '0', ' ', '2'] _ _ (by decide)
      (.lf ['m', 'a', 'p', '_', 'K', 'd', ' ', 'x', ' ', 'y', '.', 'p', 'n', 'g'] _ _ (by decide) (.lf [] _ _ (by decide) (.lf ['n', 'e', 'w', 'm', 't', 'l', ' ', 'b'] _ _ (by decide)
      (.lf ['T', 'r', ' ', '1'] _ _ (by decide) (.lf ['q', '\t', '5'] _ _ (by decide) (.lf ['q', '\t', '6'] _ _ (by decide)
      (.last ['i', 'l', 'l', 'u', 'm', ' ', '2'] (by decide) (by decide)))))))))
  · refine .cons (.define [] ' ' [] ['a'] [] (by simp [IsBlanks]) (by decide) (by simp) (by decide) (by decide) (by decide) (by simp)) (.cons
      (.colour [] ['K', 'd'] .diffuse [' '] [' '] [' '] (num ['1']) (num ['0']) (num ['2']) [] (by simp [IsBlanks]) (by simp [colourWords]) hb (by simp) hb (by simp) hb (by simp)
        (num_ok (by unfold IsDigit; decide)) (by simp [Num.Small, num]) (num_ok (by unfold IsDigit; decide)) (by simp [Num.Small, num]) (num_ok (by unfold IsDigit; decide)) (by simp [Num.Small, num])
        (by simp [IsRest])) (.cons
      (.texture [] ['m', 'a', 'p', '_', 'K', 'd'] .diffuseTex ' ' ['x', ' ', 'y', '.', 'p', 'n', 'g'] (by simp [IsBlanks]) (by simp [textureWords]) (by decide)) (.cons
      (.blank [] (by simp [IsBlanks])) (.cons
      (.define [] ' ' [] ['b'] [] (by simp [IsBlanks]) (by decide) (by simp) (by decide) (by decide) (by decide) (by simp)) (.cons
      (.number [] ['T', 'r'] (fun x => .dissolve (id (1 - x))) [' '] (num ['1']) [] (by simp [IsBlanks]) (by simp [numberWords]) hb (by simp) (num_ok (by unfold IsDigit; decide))
        (by simp [Num.Small, num]) (by simp [IsRest])) (.cons
      (.otherTab [] ['q'] ['5'] (by simp [IsBlanks]) (by simp) (hq _ (by decide)) (by decide) (by decide) (by decide)) (.cons
      (.otherTab [] ['q'] ['6'] (by simp [IsBlanks]) (by simp) (hq _ (by decide)) (by decide) (by decide) (by decide)) (.cons
      (.illum [] ' ' [] (IntLit.mk [] ['2']) [] (by simp [IsBlanks]) (by decide) (by simp [IsBlanks]) ⟨Or.inl rfl, by unfold IsDigit; decide⟩ (by decide) (by simp [IsRest])) .nil))))))))
  · have h0 : (num ['0']).value = (0 : ℚ) := by simp [num, Num.value, fracVal, expVal, natVal]
    have h1 : (num ['1']).value = (1 : ℚ) := by simp [num, Num.value, fracVal, expVal, natVal]
    have h2 : (num ['2']).value = (2 : ℚ) := by simp [num, Num.value, fracVal, expVal, natVal]
    rw [h0, h1, h2, sub_self]
    rfl
end NS.Props.Obj

/-
Property theorems C106: material files of an OBJ file.
-/
import Verif.MtlModel
import Verif.Props.ObjSafe2

set_option linter.unusedSectionVars false
set_option linter.unusedSimpArgs false
set_option linter.unusedVariables false

namespace NS.Props.Obj
open NS NS.TinyObj
variable {T : Type} [Field T]

/-! ### Specification -/

/-- the line begins the definition of a material: `newmtl` and a blank, after any number of blanks -/
def IsNewmtl (l : List Char) : Prop := ∃ b s q, IsBlanks b ∧ s ∈ blanks ∧ l = b ++ (['n', 'e', 'w', 'm', 't', 'l'] ++ s :: q)

/-- the meaning of a line of a material file: the name of the material whose definition begins there, or nothing.  Other lines may contain
anything but numbers of more than eight digits -/
inductive MtlIs : List Char → Option (List Char) → Prop where
  | define (b : List Char) (s : Char) (a n r : List Char) : IsBlanks b → s ∈ blanks → (∀ c ∈ a, isCSpace c = true) → n ≠ [] → n.length < 4096 →
      (∀ c ∈ n, isCSpace c = false) → (∀ c, r.head? = some c → isCSpace c = true) →
      MtlIs (b ++ (['n', 'e', 'w', 'm', 't', 'l'] ++ s :: (a ++ (n ++ r)))) (some n)
  | other (l : List Char) : ¬ IsNewmtl l → ShortRuns l → MtlIs l none

/-- the materials `m` and then those of the list, numbered in order; a name that is already known keeps its number -/
def withNames (ns : List (List Char)) (m : MatMap) : MatMap :=
  ⟨fun n => match m.find n with
    | some i => some i
    | none => if n ∈ ns then some ((m.count + ns.idxOf n : Nat) : Int) else none, m.count + ns.length⟩

/-- the names of the materials of a file: those it defines; a file that defines nothing defines one material without a name -/
def namesOf (os : List (Option (List Char))) : List (List Char) := if os.filterMap id = [] then [[]] else os.filterMap id

/-! ### Names -/

theorem addMaterial_eq (a : List Char) (ns : List (List Char)) (m : MatMap) : addMaterial a (withNames ns m) = withNames (ns ++ [a]) m := by
  unfold addMaterial withNames
  simp only [MatMap.mk.injEq, List.length_append, List.length_singleton, Nat.add_assoc, and_true]
  funext n
  cases h : m.find n with
  | some i => simp
  | none =>
    simp only
    by_cases hn : n ∈ ns
    · simp [hn, List.idxOf_append_of_mem hn]
    · by_cases ha : n = a
      · subst ha
        simp [hn, List.idxOf_append_of_notMem hn]
      · simp [hn, ha]

theorem withNames_nil (m : MatMap) : withNames [] m = m := by
  unfold withNames
  obtain ⟨f, c⟩ := m
  simp only [List.not_mem_nil, if_false, List.length_nil, Nat.add_zero, MatMap.mk.injEq, and_true]
  funext n
  cases f n <;> rfl

/-! ### Lines -/

theorem scanName_eq {a n r : List Char} (ha : ∀ c ∈ a, isCSpace c = true) (hne : n ≠ []) (hlen : n.length < 4096) (hn1 : ∀ c ∈ n, isCSpace c = false)
    (hb : ∀ c, r.head? = some c → isCSpace c = true) (hn : nul ∉ n) : scanName (a ++ (n ++ r) ++ [nul]) = .ok n := by
  obtain ⟨c, n, rfl⟩ : ∃ c n', n = c :: n' := by
    cases n with
    | nil => exact absurd rfl hne
    | cons c n => exact ⟨c, n, rfl⟩
  have h1 : skipSpace (a ++ ((c :: n) ++ r) ++ [nul]) = .ok ((c :: n) ++ (r ++ [nul])) := by
    induction a with
    | nil => simp only [List.nil_append, List.cons_append, skipSpace, hn1 c (by simp), List.append_assoc]; rfl
    | cons x a ih =>
      simp only [List.cons_append, skipSpace, ha x (by simp), if_true]
      exact ih fun c h => ha c (by simp [h])
  have h2 : ((c :: n) ++ (r ++ [nul])).takeWhile (fun c => !isCSpace c && c != nul) = c :: n := by
    rw [List.takeWhile_append_of_pos]
    · have : (r ++ [nul]).takeWhile (fun c => !isCSpace c && c != nul) = [] := by
        cases r with
        | nil => rfl
        | cons x r => simp [hb x rfl]
      rw [this, List.append_nil]
    · intro x hx
      have : x ≠ nul := by rintro rfl; exact hn hx
      simp [hn1 x hx, this]
  unfold scanName
  rw [h1, ok_bind]
  simp only
  rw [h2, if_neg]
  · rfl
  · rintro (h | h)
    · simp at h
    · omega

theorem parseInt_nul {p : List Char} (hn : nul ∈ p) (hs : ShortRuns p) : ∃ x, parseInt p = .ok x := by
  unfold parseInt
  obtain ⟨n, h1, h2, h3, -⟩ := strspn_nul (set := blanks) (by decide) p hn
  rw [h1, ok_bind, adv_ok (le_of_lt h2), ok_bind]
  obtain ⟨z, hz, -, -⟩ := atoi_nul h3 (hs.suffix (drop_suffix p n))
  rw [hz, ok_bind]
  obtain ⟨e, g1, g2, g3, -⟩ := strcspn_nul (set := blanksCr) (p.drop n) h3
  rw [g1, ok_bind, adv_ok (le_of_lt g2)]
  exact ⟨_, rfl⟩

theorem parseFloat3_nul (cast : T → T) {p : List Char} (hn : nul ∈ p) (hs : ShortRuns p) : parseFloat3 cast p = .ok () := by
  unfold parseFloat3
  obtain ⟨x, q1, e1, f1, g1⟩ := parseFloat_nul cast hn hs
  obtain ⟨y, q2, e2, f2, g2⟩ := parseFloat_nul cast g1 (hs.suffix f1)
  obtain ⟨z, q3, e3, -, -⟩ := parseFloat_nul cast g2 ((hs.suffix f1).suffix f2)
  rw [e1, ok_bind]; dsimp only
  rw [e2, ok_bind]; dsimp only
  rw [e3, ok_bind]
  rfl

theorem findKey_nul {p : List Char} (hn : nul ∈ p) : ∀ ws : List (List Char), (∀ w ∈ ws, nul ∉ w) →
    findKey p ws = .ok none ∨ ∃ w s q, w ∈ ws ∧ p = w ++ s :: q ∧ s ∈ blanks ∧ findKey p ws = .ok (some w)
  | [], _ => Or.inl rfl
  | w :: ws, h => by
    unfold findKey
    rcases isCommand_cons w p hn (h w (by simp)) with e | ⟨s, q, hp, hs, e⟩
    · rw [e, ok_bind, if_neg (by decide)]
      rcases findKey_nul hn ws fun w hw => h w (by simp [hw]) with e | ⟨w', s, q, h1, h2, h3, e⟩
      · exact Or.inl e
      · exact Or.inr ⟨w', s, q, by simp [h1], h2, h3, e⟩
    · exact Or.inr ⟨w, s, q, by simp, hp, hs, by rw [e, ok_bind, if_pos rfl]; rfl⟩

/-- what follows a keyword -/
theorem after_key {w q p : List Char} {s : Char} (hn : nul ∈ p) (hrs : ShortRuns p) (hp : p = w ++ s :: q) (hw : nul ∉ w) (hs : s ∈ blanks) :
    nul ∈ q ∧ ShortRuns q ∧ nul ∈ s :: q ∧ ShortRuns (s :: q) := by
  have h1 : s ≠ nul := by rintro rfl; revert hs; decide
  have h2 : nul ∈ s :: q := by
    rw [hp, List.mem_append] at hn
    rcases hn with h | h
    · exact absurd h hw
    · exact h
  have h3 : ShortRuns (s :: q) := hrs.suffix ⟨w, hp.symm⟩
  refine ⟨?_, h3.suffix (List.suffix_cons _ _), h2, h3⟩
  rw [List.mem_cons] at h2
  rcases h2 with h | h
  · exact absurd h.symm h1
  · exact h

theorem keys_nul : (∀ w ∈ colourKeys, nul ∉ w) ∧ ∀ w ∈ numberKeys, nul ∉ w := by decide

/-- a line which begins no material has no effect -/
theorem mtlCommand_other (cast : T → T) {p : List Char} (hn : nul ∈ p) (hrs : ShortRuns p)
    (hno : ∀ s q, s ∈ blanks → p ≠ ['n', 'e', 'w', 'm', 't', 'l'] ++ s :: q) (st : MtlSt) : mtlCommand cast p st = .ok st := by
  obtain ⟨c, q, rfl⟩ : ∃ c q, p = c :: q := by
    cases p with
    | nil => simp at hn
    | cons c q => exact ⟨c, q, rfl⟩
  unfold mtlCommand
  rw [getIdx_zero, ok_bind]
  by_cases h1 : c = nul
  · rw [if_pos h1]; rfl
  rw [if_neg h1]
  by_cases h2 : c = '#'
  · rw [if_pos h2]; rfl
  rw [if_neg h2]
  rcases isCommand_cons ['n', 'e', 'w', 'm', 't', 'l'] (c :: q) hn (by decide) with e | ⟨s, q', hp, hs, e⟩
  swap
  · exact absurd hp (hno s q' hs)
  rw [e, ok_bind, if_neg (by decide)]
  rcases findKey_nul hn colourKeys keys_nul.1 with e | ⟨w, s, q', hw, hp, hs, e⟩
  swap
  · obtain ⟨-, -, k3, k4⟩ := after_key hn hrs hp (keys_nul.1 w hw) hs
    rw [e, ok_bind]
    simp only
    rw [hp, adv_append, ok_bind, parseFloat3_nul cast k3 k4]
    rfl
  rw [e, ok_bind]
  simp only
  rcases findKey_nul hn numberKeys keys_nul.2 with e | ⟨w, s, q', hw, hp, hs, e⟩
  swap
  · obtain ⟨-, -, k3, k4⟩ := after_key hn hrs hp (keys_nul.2 w hw) hs
    rw [e, ok_bind]
    simp only
    obtain ⟨x, y, e', -, -⟩ := parseFloat_nul cast k3 k4
    rw [hp, adv_append, ok_bind, e']
    rfl
  rw [e, ok_bind]
  simp only
  rcases isCommand_cons ['i', 'l', 'l', 'u', 'm'] (c :: q) hn (by decide) with e | ⟨s, q', hp, hs, e⟩
  swap
  · obtain ⟨k1, k2, -, -⟩ := after_key hn hrs hp (by decide) hs
    obtain ⟨x, e'⟩ := parseInt_nul k1 k2
    rw [e, ok_bind, if_pos rfl, hp, show adv (['i', 'l', 'l', 'u', 'm'] ++ s :: q') 6 = .ok q' from adv_append ['i', 'l', 'l', 'u', 'm', s] _, ok_bind, e']
    rfl
  rw [e, ok_bind, if_neg (by decide)]
  rfl

/-- the state after the names `ns` -/
def After (ns : List (List Char)) (m : MatMap) (s : MtlSt) : Prop :=
  (ns = [] ∧ s = ⟨[], m⟩) ∨ ∃ ns' a, ns = ns' ++ [a] ∧ a ≠ [] ∧ s = ⟨a, withNames ns' m⟩

theorem mtlLine_ok (cast : T → T) {l : List Char} {o : Option (List Char)} (hl : MtlIs l o) (hnl : ∀ c ∈ l, c ≠ '\n' ∧ c ≠ '\r') (hn : nul ∉ l)
    {ns : List (List Char)} {m : MatMap} {s : MtlSt} (h : After ns m s) : ∃ s', mtlLine cast l s = .ok s' ∧ After (ns ++ o.toList) m s' := by
  unfold mtlLine
  rw [trimLine_eq hnl]
  cases hl with
  | define b s0 a n r hb hs0 ha hne hlen hn1 hr =>
    have h0 : b ++ (['n', 'e', 'w', 'm', 't', 'l'] ++ s0 :: (a ++ (n ++ r))) ≠ [] := by simp
    simp only [if_neg h0]
    have e1 : strspn blanks (b ++ (['n', 'e', 'w', 'm', 't', 'l'] ++ s0 :: (a ++ (n ++ r))) ++ [nul]) = .ok b.length := by
      rw [List.append_assoc]
      exact strspn_ok b hb (by decide) _
    rw [e1, ok_bind, List.append_assoc, adv_append, ok_bind]
    unfold mtlCommand
    have e2 : ['n', 'e', 'w', 'm', 't', 'l'] ++ s0 :: (a ++ (n ++ r)) ++ [nul] = ['n', 'e', 'w', 'm', 't', 'l'] ++ s0 :: (a ++ (n ++ r) ++ [nul]) := by simp
    rw [e2, show getIdx (['n', 'e', 'w', 'm', 't', 'l'] ++ s0 :: (a ++ (n ++ r) ++ [nul])) 0 = .ok 'n' from rfl, ok_bind, if_neg (by decide), if_neg (by decide),
      isCommand_yes _ hs0, ok_bind, if_pos rfl,
      show adv (['n', 'e', 'w', 'm', 't', 'l'] ++ s0 :: (a ++ (n ++ r) ++ [nul])) 7 = .ok (a ++ (n ++ r) ++ [nul]) from adv_append ['n', 'e', 'w', 'm', 't', 'l', s0] _,
      ok_bind, scanName_eq ha hne hlen hn1 hr (fun hx => hn (by simp [hx])), ok_bind]
    refine ⟨_, rfl, Or.inr ?_⟩
    rcases h with ⟨rfl, rfl⟩ | ⟨ns', a', rfl, ha', rfl⟩
    · exact ⟨[], n, rfl, hne, by simp [withNames_nil]⟩
    · exact ⟨ns' ++ [a'], n, rfl, hne, by simp [ha', addMaterial_eq]⟩
  | other _ hno hrs =>
    refine ⟨s, ?_, by simpa using h⟩
    by_cases h0 : l = []
    · rw [if_pos h0]
    · simp only [if_neg h0]
      obtain ⟨k, g1, g2, g3, g4⟩ := strspn_nul (set := blanks) (by decide) (l ++ [nul]) (by simp)
      obtain ⟨r, hr, hr'⟩ := split_nul (l := l) (u := (l ++ [nul]).take k) (q := (l ++ [nul]).drop k) hn (List.take_append_drop k _).symm g3
      rw [g1, ok_bind, adv_ok (le_of_lt g2), ok_bind]
      refine mtlCommand_other cast g3 ((hrs.nul).suffix (drop_suffix _ _)) (fun s0 q hs0 hp => ?_) s
      rw [hr] at hp
      obtain ⟨q', hq'⟩ : ∃ q', q = q' ++ [nul] := by
        have h1 : (['n', 'e', 'w', 'm', 't', 'l'] ++ s0 :: q).getLast? = some nul := by rw [← hp]; simp
        rcases List.eq_nil_or_concat q with rfl | ⟨q', x, rfl⟩
        · simp at h1; subst h1; exact absurd hs0 (by decide)
        · simp only [List.concat_eq_append] at h1 ⊢
          have h2 : ['n', 'e', 'w', 'm', 't', 'l'] ++ s0 :: (q' ++ [x]) = (['n', 'e', 'w', 'm', 't', 'l'] ++ s0 :: q') ++ [x] := by simp
          rw [h2, List.getLast?_append] at h1
          simp at h1
          exact ⟨q', by rw [h1]⟩
      subst hq'
      have h2 : r = ['n', 'e', 'w', 'm', 't', 'l'] ++ s0 :: q' := by
        refine List.append_cancel_right (bs := [nul]) ?_
        rw [hp]; simp
      exact hno ⟨_, s0, q', strspn_take _ k g1, hs0, by rw [← h2]; exact hr'⟩

theorem mtlLoop_ok (cast : T → T) {text : List Char} {ls : List (List Char)} (ht : Lines text ls) :
    ∀ {os : List (Option (List Char))}, List.Forall₂ MtlIs ls os → (∀ l ∈ ls, nul ∉ l) → ∀ (n : Nat), text.length ≤ n → ∀ {ns : List (List Char)} {m : MatMap} {s : MtlSt}, After ns m s →
      ∃ s', mtlLoop cast n text s = .ok s' ∧ After (ns ++ os.filterMap id) m s' := by
  have hstep : ∀ {text l r : List Char} {o : Option (List Char)} {os : List (Option (List Char))} {n : Nat} {ns : List (List Char)} {m : MatMap} {s : MtlSt}, text ≠ [] →
      safeGetline text = (l, r) → MtlIs l o → (∀ c ∈ l, c ≠ '\n' ∧ c ≠ '\r') → nul ∉ l → After ns m s →
      (∀ {ns : List (List Char)} {s : MtlSt}, After ns m s → ∃ s', mtlLoop cast n r s = .ok s' ∧ After (ns ++ os.filterMap id) m s') →
      ∃ s', mtlLoop cast (n + 1) text s = .ok s' ∧ After (ns ++ (o :: os).filterMap id) m s' := by
    intro text l r o os n ns m s hne hg hl hnl hn h ih
    obtain ⟨s1, e1, r1⟩ := mtlLine_ok cast hl hnl hn h
    obtain ⟨s2, e2, r2⟩ := ih r1
    refine ⟨s2, ?_, ?_⟩
    · rw [mtlLoop, if_neg hne, hg]
      simp only
      rw [e1, ok_bind, e2]
    · cases o <;> simpa using r2
  induction ht with
  | nil =>
    intro os hf _ n hn ns m s h
    cases hf
    refine ⟨s, ?_, by simpa using h⟩
    cases n <;> rfl
  | last l hne hnl =>
    intro os hf hnu n hn ns m s h
    cases hf with
    | cons h1 h2 =>
      cases h2
      obtain ⟨n, rfl⟩ : ∃ k, n = k + 1 := ⟨n - 1, by have := List.length_pos_iff.2 hne; omega⟩
      refine hstep hne (safeGetline_last hnl) h1 hnl (hnu _ (by simp)) h fun {ns s} h => ⟨s, ?_, by simpa using h⟩
      cases n <;> rfl
  | lf l r ls hnl hr ih =>
    intro os hf hnu n hn ns m s h
    cases hf with
    | cons h1 h2 =>
      obtain ⟨n, rfl⟩ : ∃ k, n = k + 1 := ⟨n - 1, by simp at hn; omega⟩
      exact hstep (by simp) (safeGetline_lf hnl r) h1 hnl (hnu _ (by simp)) h fun h => ih h2 (fun l hl => hnu l (by simp [hl])) n (by simp at hn; omega) h
  | crlf l r ls hnl hr ih =>
    intro os hf hnu n hn ns m s h
    cases hf with
    | cons h1 h2 =>
      obtain ⟨n, rfl⟩ : ∃ k, n = k + 1 := ⟨n - 1, by simp at hn; omega⟩
      exact hstep (by simp) (safeGetline_cr hnl ('\n' :: r)) h1 hnl (hnu _ (by simp)) h fun h => ih h2 (fun l hl => hnu l (by simp [hl])) n (by simp at hn; omega) h
  | cr l r ls hnl hnr hr ih =>
    intro os hf hnu n hn ns m s h
    cases hf with
    | cons h1 h2 =>
      obtain ⟨n, rfl⟩ : ∃ k, n = k + 1 := ⟨n - 1, by simp at hn; omega⟩
      exact hstep (by simp) (by rw [safeGetline_cr hnl r, if_neg hnr]) h1 hnl (hnu _ (by simp)) h
        fun h => ih h2 (fun l hl => hnu l (by simp [hl])) n (by simp at hn; omega) h

/-! ### The property -/

/-- **C106**: reading a material file adds exactly the materials it defines, numbered in order after those already known; a name already
known keeps its number, and a file that defines nothing adds one material without a name. -/
theorem C106_names (cast : T → T) {text : List Char} {ls : List (List Char)} {os : List (Option (List Char))} (ht : Lines text ls) (hl : List.Forall₂ MtlIs ls os)
    (hn : ∀ l ∈ ls, nul ∉ l) (m : MatMap) : loadMtl cast text m = .ok (withNames (namesOf os) m) := by
  obtain ⟨s, e, h⟩ := mtlLoop_ok cast ht hl hn text.length le_rfl (m := m) (s := ⟨[], m⟩) (ns := []) (Or.inl ⟨rfl, rfl⟩)
  unfold loadMtl namesOf
  rw [e, ok_bind]
  rw [List.nil_append] at h
  rcases h with ⟨h1, rfl⟩ | ⟨ns', a, h1, ha, rfl⟩
  · rw [h1, if_pos rfl]
    have := addMaterial_eq [] [] m
    rw [withNames_nil] at this
    exact congrArg Except.ok this
  · rw [h1, if_neg (by simp)]
    exact congrArg Except.ok (addMaterial_eq a ns' m)

/-- **C106**: a material file that does not exist defines one material without a name, and nothing else. -/
theorem C106_missing (cast : T → T) {content : List Char → Option (List Char)} {name : List Char} (h : content name = none) (m : MatMap) :
    readFiles cast content name m = .ok (withNames [[]] m) := by
  unfold readFiles
  rw [h]
  exact C106_names cast .nil .nil (by simp) m

/-- **C106**: the line `mtllib name` of an OBJ file, for a file with these contents. -/
theorem C106_library (cast : T → T) {content : List Char → Option (List Char)} {b : List Char} {s : Char} {b1 name r : List Char} (hb : IsBlanks b) (hs : s ∈ blanks)
    (hb1 : IsBlanks b1) (hne : name ≠ []) (hlen : name.length < 4096) (hname : ∀ c ∈ name, isCSpace c = false ∧ c ≠ nul) (hr : IsRest r)
    {text : List Char} {ls : List (List Char)} {os : List (Option (List Char))} (hc : content name = some text) (ht : Lines text ls) (hl : List.Forall₂ MtlIs ls os)
    (hn : ∀ l ∈ ls, nul ∉ l) :
    LineIs cast (readFiles cast content) (b ++ ['m', 't', 'l', 'l', 'i', 'b'] ++ s :: (b1 ++ (name ++ r))) (.library (withNames (namesOf os))) := by
  refine .library b s b1 name r _ hb hs hb1 hne hlen hname hr fun m => ?_
  unfold readFiles
  rw [hc]
  exact C106_names cast ht hl hn m

/-! ### Without the material files -/

/-- the line says something about the geometry -/
def Item.geometric : Item T → Bool
  | .library _ => false
  | .material _ => false
  | _ => true

/-- equal except for the materials, and the material is unknown -/
structure Plain (d d' : Doc T) : Prop where
  verts : d.verts = d'.verts
  nn : d.nn = d'.nn
  nt : d.nt = d'.nt
  done : d.done = d'.done
  old : d.old = d'.old
  cur : d.cur = d'.cur
  part : d.part = d'.part
  mat : d.mat = -1
  unknown : ∀ n, n ≠ [] → d.mats.find n = none

/-- the lines of a text without material files -/
def Missing (i : Item T) : Prop := (∀ change, i = .library change → change = withNames [[]]) ∧ ∀ n, i = .material n → n ≠ []

theorem Plain.corner {d d' : Doc T} (h : Plain d d') (r : Ref) : r.corner d = r.corner d' := by
  unfold Ref.corner; rw [h.verts, h.nn, h.nt, h.part]

theorem Plain.ok {d d' : Doc T} (h : Plain d d') {i : Item T} (hi : i.Ok d) : i.Ok d' := by
  cases i with
  | face refs => exact ⟨hi.1, fun r hr => ⟨h.verts ▸ (hi.2 r hr).v, h.nt ▸ (hi.2 r hr).vt, h.nn ▸ (hi.2 r hr).vn⟩⟩
  | _ => trivial

theorem Plain.step {d d' : Doc T} (h : Plain d d') {i : Item T} (hi : i.geometric = true) : Plain (d.step i) (d'.step i) := by
  cases i with
  | skip => exact h
  | vertex x y z => exact ⟨by simp [Doc.step, h.verts], h.nn, h.nt, h.done, h.old, h.cur, h.part, h.mat, h.unknown⟩
  | normal => exact ⟨h.verts, by simp [Doc.step, h.nn], h.nt, h.done, h.old, h.cur, h.part, h.mat, h.unknown⟩
  | texcoord => exact ⟨h.verts, h.nn, by simp [Doc.step, h.nt], h.done, h.old, h.cur, h.part, h.mat, h.unknown⟩
  | face refs =>
    refine ⟨h.verts, h.nn, h.nt, h.done, h.old, ?_, h.part, h.mat, h.unknown⟩
    have : Ref.corner d = Ref.corner d' := funext h.corner
    simp [Doc.step, h.cur, this]
  | group => exact ⟨h.verts, h.nn, h.nt, by simp [Doc.step, Doc.groups, h.cur, h.done, h.old], rfl, rfl, rfl, h.mat, h.unknown⟩
  | library change => cases hi
  | material n => cases hi

theorem Plain.skip {d d' : Doc T} (h : Plain d d') {i : Item T} (hi : i.geometric = false) (hm : Missing i) : Plain (d.step i) d' := by
  cases i with
  | library change =>
    have := hm.1 change rfl
    subst this
    refine ⟨h.verts, h.nn, h.nt, h.done, h.old, h.cur, h.part, h.mat, fun n hn => ?_⟩
    show (withNames [[]] d.mats).find n = none
    unfold withNames
    simp only [h.unknown n hn]
    rw [if_neg (by simpa using hn)]
  | material n =>
    have h1 : d.number n = d.mat := by
      unfold Doc.number
      rw [h.unknown n (hm.2 n rfl), h.mat]; rfl
    show Plain (if d.number n = d.mat then d else _) d'
    rw [if_pos h1]
    exact h
  | _ => cases hi

theorem Plain.read {items : List (Item T)} : ∀ {d d' : Doc T}, Plain d d' → (∀ i ∈ items, Missing i) → d.Ok items →
    Plain (d.read items) (d'.read (items.filter Item.geometric)) ∧ d'.Ok (items.filter Item.geometric) := by
  induction items with
  | nil => intro d d' h _ _; exact ⟨h, trivial⟩
  | cons i items ih =>
    intro d d' h hm hok
    cases hi : i.geometric with
    | true =>
      rw [List.filter_cons_of_pos hi]
      obtain ⟨h1, h2⟩ := ih (h.step hi) (fun j hj => hm j (by simp [hj])) hok.2
      exact ⟨h1, h.ok hok.1, h2⟩
    | false =>
      rw [List.filter_cons_of_neg (by simp [hi])]
      exact ih (h.skip hi (hm i (by simp))) (fun j hj => hm j (by simp [hj])) hok.2

theorem missing_of (cast : T → T) {content : List Char → Option (List Char)} (hc : ∀ n, content n = none) {l : List Char} {i : Item T}
    (h : LineIs cast (readFiles cast content) l i) : Missing i := by
  refine ⟨?_, ?_⟩
  · rintro change rfl
    cases h with
    | library b s b1 name r _ _ _ _ _ _ _ _ hch =>
      funext m
      have := hch m
      rw [C106_missing cast (hc name)] at this
      exact (Except.ok.inj this).symm
  · rintro n rfl
    cases h with
    | material b s b1 _ r _ _ _ h _ _ _ => exact h

/-- **C106**: without its material files, an OBJ file reads as if it had no `mtllib` and `usemtl` lines: the same arrays as for a text with
the other lines only. -/
theorem C106_without_files [CharZero T] (cast : T → T) {content : List Char → Option (List Char)} (hc : ∀ n, content n = none)
    {text text' : List Char} {ls ls' : List (List Char)} {items : List (Item T)} (ht : Lines text ls) (hl : List.Forall₂ (LineIs cast (readFiles cast content)) ls items)
    (hok : Doc.init.Ok items) (hsm : (Doc.init.read items).Small)
    (ht' : Lines text' ls') (readMtl : List Char → MatMap → R MatMap) (hl' : List.Forall₂ (LineIs cast readMtl) ls' (items.filter Item.geometric)) :
    ∃ shapes shapes' : List (ShapeS T), loadObj cast (readFiles cast content) text = .ok shapes ∧ loadObj cast readMtl text' = .ok shapes' ∧
      (shapes.map fun sh => (sh.positions, sh.indices)) = shapes'.map fun sh => (sh.positions, sh.indices) := by
  have hm : ∀ i ∈ items, Missing i := by
    intro i hi
    obtain ⟨k, hk, rfl⟩ := List.mem_iff_getElem.1 hi
    have hk' : k < ls.length := by rw [hl.length_eq]; exact hk
    exact missing_of cast hc (hl.get hk' hk)
  have h0 : Plain (Doc.init : Doc T) Doc.init := ⟨rfl, rfl, rfl, rfl, rfl, rfl, rfl, rfl, fun _ _ => rfl⟩
  obtain ⟨h1, h2⟩ := h0.read hm hok
  obtain ⟨sh, e, g⟩ := C92_parse cast _ ht hl hok hsm
  obtain ⟨sh', e', g'⟩ := C92_parse cast readMtl ht' hl' h2 ⟨h1.verts ▸ hsm.1, h1.nn ▸ hsm.2.1, h1.nt ▸ hsm.2.2⟩
  refine ⟨sh, sh', e, e', ?_⟩
  rw [g, g', h1.verts]
  unfold Doc.groups
  rw [h1.cur, h1.done, h1.old]

/-! ### Every text -/

theorem bad_findKey (p : Ptr) : ∀ ws, Sat (findKey p ws) (fun _ => True) Bad
  | [] => trivial
  | w :: ws => by
    unfold findKey
    exact Sat.bind (bad_isCommand w p) fun b _ => sat_ite (fun _ => trivial) fun _ => bad_findKey p ws

theorem bad_mtlCommand (cast : T → T) (p : Ptr) (s : MtlSt) : Sat (mtlCommand cast p s) (fun _ => True) Bad := by
  unfold mtlCommand
  refine Sat.bind (bad_getIdx p 0) fun c _ => sat_ite (fun _ => trivial) fun _ => sat_ite (fun _ => trivial) fun _ => ?_
  refine Sat.bind (bad_isCommand _ p) fun b _ => sat_ite (fun _ => ?_) fun _ => ?_
  · exact Sat.bind (bad_adv _ _) fun p _ => Sat.bind (bad_scanName p) fun n _ => trivial
  refine Sat.bind (bad_findKey p _) fun k _ => ?_
  cases k with
  | some w =>
    refine Sat.bind (bad_adv _ _) fun p _ => Sat.bind (P := fun _ => True) ?_ fun _ _ => trivial
    unfold parseFloat3
    exact Sat.bind (bad_parseFloat _ _) fun _ _ => Sat.bind (bad_parseFloat _ _) fun _ _ => Sat.bind (bad_parseFloat _ _) fun _ _ => trivial
  | none =>
    refine Sat.bind (bad_findKey p _) fun k _ => ?_
    cases k with
    | some w => exact Sat.bind (bad_adv _ _) fun p _ => Sat.bind (bad_parseFloat _ _) fun _ _ => trivial
    | none =>
      refine Sat.bind (bad_isCommand _ p) fun b _ => sat_ite (fun _ => ?_) fun _ => trivial
      refine Sat.bind (bad_adv _ _) fun p _ => Sat.bind (P := fun _ => True) ?_ fun _ _ => trivial
      unfold parseInt
      exact Sat.bind (bad_strspn _ _) fun _ _ => Sat.bind (bad_adv _ _) fun p _ => Sat.bind (bad_atoi _) fun _ _ => Sat.bind (bad_strcspn _ _) fun _ _ =>
        Sat.bind (bad_adv _ _) fun _ _ => trivial

theorem bad_mtlLoop (cast : T → T) : ∀ (n : Nat) (text : List Char) (s : MtlSt), text.length ≤ n → Sat (mtlLoop cast n text s) (fun _ => True) Bad
  | 0, text, s, h => by
    unfold mtlLoop
    rw [if_pos (List.length_eq_zero_iff.1 (by omega))]
    trivial
  | n + 1, text, s, h => by
    unfold mtlLoop
    refine sat_ite (fun _ => trivial) fun hne => ?_
    refine Sat.bind (P := fun _ => True) ?_ fun s _ => bad_mtlLoop cast n _ s (by have := safeGetline_length text hne; omega)
    unfold mtlLine
    refine sat_ite (fun _ => trivial) fun _ => ?_
    exact Sat.bind (bad_strspn _ _) fun k _ => Sat.bind (bad_adv _ _) fun p _ => bad_mtlCommand _ _ _

/-- **C106**: for every text whatsoever, reading it as a material file ends, without an exception. -/
theorem C106_ends (cast : T → T) (text : List Char) (m : MatMap) :
    (∃ m', loadMtl cast text m = .ok m') ∨ loadMtl cast text m = .error .abort ∨ loadMtl cast text m = .error .ub := by
  have h : Sat (loadMtl cast text m) (fun _ => True) Bad := by
    unfold loadMtl
    exact Sat.bind (bad_mtlLoop cast _ _ _ le_rfl) fun s _ => trivial
  rcases hx : loadMtl cast text m with e | m'
  · rw [hx] at h
    rcases h with rfl | rfl
    · exact Or.inr (Or.inr rfl)
    · exact Or.inr (Or.inl rfl)
  · exact Or.inl ⟨m', rfl⟩

/-- **C106**, C93: reading any OBJ file with any material files ends, without an exception. -/
theorem C106_obj_ends (cast : T → T) (content : List Char → Option (List Char)) (text : List Char) :
    (∃ shapes : List (ShapeS T), loadObj cast (readFiles cast content) text = .ok shapes) ∨ (loadObj (T := T) cast (readFiles cast content) text = .error .abort) ∨
      loadObj (T := T) cast (readFiles cast content) text = .error .ub :=
  C93_ends cast _ (fun name m => C106_ends cast _ m) text

/-- a line of a material file that is safe to read: no `NUL`, numbers of at most eight digits, a name after `newmtl` -/
structure SafeMtlLine (l : List Char) : Prop where
  nonul : nul ∉ l
  runs : ShortRuns l
  newmtl : ∀ b s q, IsBlanks b → s ∈ blanks → l = b ++ (['n', 'e', 'w', 'm', 't', 'l'] ++ s :: q) → HasName q

/-- every safe line has a meaning -/
theorem SafeMtlLine.meaning {l : List Char} (h : SafeMtlLine l) : ∃ o, MtlIs l o := by
  by_cases hx : IsNewmtl l
  · obtain ⟨b, s, q, hb, hs, e⟩ := hx
    obtain ⟨a, n, r, rfl, h1, h2, h3, h4, h5⟩ := h.newmtl b s q hb hs e
    rw [e]
    exact ⟨_, .define b s a n r hb hs h1 h2 h3 h4 h5⟩
  · exact ⟨_, .other l hx h.runs⟩

/-- **C106** (safety): a material file whose lines are safe — apart from that anything — is read. -/
theorem C106_safe (cast : T → T) {text : List Char} {ls : List (List Char)} (ht : Lines text ls) (hs : ∀ l ∈ ls, SafeMtlLine l) (m : MatMap) :
    ∃ m', loadMtl cast text m = .ok m' := by
  have : ∃ os, List.Forall₂ MtlIs ls os := by
    clear ht
    induction ls with
    | nil => exact ⟨[], .nil⟩
    | cons l ls ih =>
      obtain ⟨o, ho⟩ := (hs l (by simp)).meaning
      obtain ⟨os, hos⟩ := ih fun l hl => hs l (by simp [hl])
      exact ⟨o :: os, .cons ho hos⟩
  obtain ⟨os, hos⟩ := this
  exact ⟨_, C106_names cast ht hos (fun l hl => (hs l hl).nonul) m⟩

/-- **C106**, C93 (safety): an OBJ file with safe lines, all of whose material files have safe lines or do not exist, is read without undefined
behaviour. -/
theorem C106_obj_safe (cast : T → T) (content : List Char → Option (List Char)) (hc : ∀ name t, content name = some t → ∀ ls, Lines t ls → ∀ l ∈ ls, SafeMtlLine l)
    {text : List Char} {ls : List (List Char)} (ht : Lines text ls) (hs : ∀ l ∈ ls, SafeLine l) (hlen : text.length ≤ 100000000) :
    (∃ shapes : List (ShapeS T), loadObj cast (readFiles cast content) text = .ok shapes) ∨ loadObj (T := T) cast (readFiles cast content) text = .error .abort := by
  refine C93_safe_partial cast _ (fun name m => ?_) ht hs hlen
  cases h : content name with
  | none => exact ⟨_, C106_missing cast h m⟩
  | some t =>
    obtain ⟨ls', hls'⟩ := C93_lines t
    unfold readFiles
    rw [h]
    exact C106_safe cast hls' (hc name t h ls' hls') m

/-! ### Examples -/

/-- a material file: two materials, one of them defined twice -/
def mtlText : String := "# materials\nnewmtl red\r\nKd 1 0 0\nillum 2\n\nnewmtl blue \nmap_Kd sky.png\n\tnewmtl red\nd .5\nTr\n"

/-- its three definitions get the numbers 0, 1, 2; `red` keeps its first number -/
theorem C106_example : ((loadMtl (T := ℚ) id mtlText.toList ⟨fun _ => none, 0⟩).toOption.map
    fun m => (m.count, m.find "red".toList, m.find "blue".toList, m.find "Kd".toList, m.find [])) = some (3, some 0, some 1, none, none) := by decide +kernel

/-- the hypotheses of C106_names hold for a file with two materials and a line of colours -/
example : ∃ ls os, Lines "newmtl a\nKd 1 0 0\n newmtl b x".toList ls ∧ List.Forall₂ MtlIs ls os ∧ (∀ l ∈ ls, nul ∉ l) ∧ namesOf os = [['a'], ['b']] := by
  refine ⟨[['n', 'e', 'w', 'm', 't', 'l', ' ', 'a'], ['K', 'd', ' ', '1', ' ', '0', ' ', '0'], [' ', 'n', 'e', 'w', 'm', 't', 'l', ' ', 'b', ' ', 'x']],
    [some ['a'], none, some ['b']], .lf ['n', 'e', 'w', 'm', 't', 'l', ' ', 'a'] _ _ (by decide) (.lf ['K', 'd', ' ', '1', ' ', '0', ' ', '0'] _ _ (by decide)
      (.last [' ', 'n', 'e', 'w', 'm', 't', 'l', ' ', 'b', ' ', 'x'] (by decide) (by decide))), ?_, by decide, by decide⟩
  refine .cons (.define [] ' ' [] ['a'] [] (by simp [IsBlanks]) (by decide) (by simp) (by decide) (by decide) (by decide) (by simp)) (.cons (.other _ ?_ ?_)
    (.cons (.define [' '] ' ' [] ['b'] [' ', 'x'] (by simp [IsBlanks, blanks]) (by decide) (by simp) (by decide) (by decide) (by decide) (by simp; decide)) .nil))
  · rintro ⟨b, s, q, hb, hs, e⟩
    cases b with
    | nil => simp at e
    | cons x b =>
      simp only [List.cons_append, List.cons.injEq] at e
      have := hb x (by simp)
      rw [← e.1] at this
      exact absurd this (by decide)
  · intro u d w h hd
    have : d.length ≤ (['K', 'd', ' ', '1', ' ', '0', ' ', '0'] : List Char).length := by rw [h]; simp; omega
    simpa using this

/-- the hypotheses of C106_without_files hold: a text with `mtllib` and `usemtl` lines, and the text without them -/
example : ∃ (ls ls' : List (List Char)) (items : List (Item ℚ)), Lines "mtllib a\nv 0 0 0\nv 1 0 0\nv 0 1 0\nusemtl m\nf 1 2 3\n".toList ls ∧
    List.Forall₂ (LineIs (T := ℚ) id (readFiles (T := ℚ) id fun _ => none)) ls items ∧ Doc.init.Ok items ∧ (Doc.init.read items).Small ∧
    Lines "v 0 0 0\nv 1 0 0\nv 0 1 0\nf 1 2 3\n".toList ls' ∧ List.Forall₂ (LineIs (T := ℚ) id noMtl) ls' (items.filter Item.geometric) := by
  obtain ⟨ls', h1, h2, -, -⟩ := triText_ok
  refine ⟨[['m', 't', 'l', 'l', 'i', 'b', ' ', 'a'], ['v', ' ', '0', ' ', '0', ' ', '0'], ['v', ' ', '1', ' ', '0', ' ', '0'], ['v', ' ', '0', ' ', '1', ' ', '0'],
      ['u', 's', 'e', 'm', 't', 'l', ' ', 'm'], ['f', ' ', '1', ' ', '2', ' ', '3']], ls',
    [.library (withNames [[]]), .vertex zeroN.value zeroN.value zeroN.value, .vertex oneN.value zeroN.value zeroN.value, .vertex zeroN.value oneN.value zeroN.value,
      .material ['m'], .face triRefs],
    .lf ['m', 't', 'l', 'l', 'i', 'b', ' ', 'a'] _ _ (by decide) (.lf ['v', ' ', '0', ' ', '0', ' ', '0'] _ _ (by decide) (.lf ['v', ' ', '1', ' ', '0', ' ', '0'] _ _ (by decide)
      (.lf ['v', ' ', '0', ' ', '1', ' ', '0'] _ _ (by decide)
      (.lf ['u', 's', 'e', 'm', 't', 'l', ' ', 'm'] _ _ (by decide) (.lf ['f', ' ', '1', ' ', '2', ' ', '3'] _ _ (by decide) .nil))))), ?_, ?_, ?_, h1, h2⟩
  · exact .cons (LineIs.library [] ' ' [] ['a'] [] _ (by simp [IsBlanks]) (by decide) (by simp [IsBlanks]) (by simp) (by simp) (by decide) (by simp [IsRest])
        fun m => C106_missing (T := ℚ) id rfl m)
      (.cons (vLine _ _ _ _ zeroN_ok zeroN_ok zeroN_ok) (.cons (vLine _ _ _ _ oneN_ok zeroN_ok zeroN_ok) (.cons (vLine _ _ _ _ zeroN_ok oneN_ok zeroN_ok)
      (.cons (LineIs.material [] ' ' [] ['m'] [] (by simp [IsBlanks]) (by decide) (by simp [IsBlanks]) (by simp) (by simp) (by decide) (by simp [IsRest]))
      (.cons (fLine _) .nil)))))
  · exact ⟨trivial, trivial, trivial, trivial, trivial, face_ok rfl, trivial⟩
  · refine ⟨?_, ?_, ?_⟩ <;> decide

/-- **C106** (negation): the mesh depends on whether the material file exists: with it the two triangles have no common vertices -/
theorem C106_depends :
    ((loadString (T := ℚ) 1 0 id (readFiles (T := ℚ) id fun n => if n = ['a'] then some "newmtl m\n".toList else none)
      "mtllib a\nv 0 0 0\nv 1 0 0\nv 0 1 0\nv 1 1 0\nf 1 2 3\nusemtl m\nf 2 4 3\n".toList).toOption.map
      fun w => (w.vertices.length, w.edges.length)) = some (6, 6) ∧
    ((loadString (T := ℚ) 1 0 id (readFiles (T := ℚ) id fun _ => none)
      "mtllib a\nv 0 0 0\nv 1 0 0\nv 0 1 0\nv 1 1 0\nf 1 2 3\nusemtl m\nf 2 4 3\n".toList).toOption.map
      fun w => (w.vertices.length, w.edges.length)) = some (4, 5) := by decide +kernel

/-- **C106** (negation): undefined behaviour: `newmtl` without a name, and a number for `illum` that is no `int` -/
theorem C106_unsafe :
    loadMtl (T := ℚ) id "newmtl \n".toList ⟨fun _ => none, 0⟩ = .error .ub ∧ loadMtl (T := ℚ) id "illum 9999999999\n".toList ⟨fun _ => none, 0⟩ = .error .ub := by
  have h : ∀ x : R MatMap, (match x with | .error e => some e | .ok _ => none) = some .ub → x = .error .ub := by
    intro x hx; cases x <;> simp_all
  exact ⟨h _ (by decide +kernel), h _ (by decide +kernel)⟩
end NS.Props.Obj

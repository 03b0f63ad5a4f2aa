/-
Property theorems C93: reading any text as an OBJ file ends, and when it is safe.
-/
import Verif.Props.ObjText

set_option linter.unusedSectionVars false
set_option linter.unusedSimpArgs false
set_option linter.unusedVariables false

namespace NS.Props.Obj
open NS NS.TinyObj
variable {T : Type} [Field T]

/-! ### Every text: the reading ends -/

/-- undefined behaviour or a failed assertion -/
def Bad (e : Err) : Prop := e = .ub ∨ e = .abort

theorem sat_true {α : Type} {x : R α} {Q : α → Prop} {E : Err → Prop} (h : Sat x Q E) : Sat x (fun _ => True) E := h.mono (fun _ _ => trivial) fun _ h => h

theorem bad_ub {α : Type} {Q : α → Prop} : Sat (.error .ub : R α) Q Bad := Or.inl rfl

theorem sat_ite {α : Type} {p : Prop} [Decidable p] {a b : R α} {Q : α → Prop} {E : Err → Prop} (h1 : p → Sat a Q E) (h2 : ¬ p → Sat b Q E) :
    Sat (if p then a else b) Q E := by
  by_cases h : p
  · rw [if_pos h]; exact h1 h
  · rw [if_neg h]; exact h2 h

theorem bad_getIdx {α : Type} (l : List α) (i : Nat) : Sat (getIdx l i) (fun a => l[i]? = some a) Bad := by
  unfold getIdx
  split
  · assumption
  · exact bad_ub

theorem bad_inInt (v : Int) : Sat (inInt v) (fun _ => True) Bad := by
  unfold inInt; split_ifs <;> [trivial; exact bad_ub]

theorem bad_adv (p : Ptr) (n : Nat) : Sat (adv p n) (fun q => q = p.drop n ∧ n ≤ p.length) Bad := by
  unfold adv; split_ifs with h <;> [exact ⟨rfl, h⟩; exact bad_ub]

theorem bad_strspn (set : List Char) : ∀ p : Ptr, Sat (strspn set p) (fun n => n ≤ p.length ∧ ∀ c, p.head? = some c → c ∈ set → 0 < n) Bad
  | [] => bad_ub
  | c :: p => by
    unfold strspn
    split_ifs with h
    · exact Sat.bind (bad_strspn set p) fun n hn => ⟨by simp; exact hn.1, fun _ _ _ => by omega⟩
    · exact ⟨by simp, fun c' h1 h2 => by simp at h1; subst h1; exact absurd h2 h⟩

theorem bad_strcspn (set : List Char) : ∀ p : Ptr, Sat (strcspn set p) (fun n => n ≤ p.length ∧ ∀ c, p.head? = some c → c ≠ nul → c ∉ set → 0 < n) Bad
  | [] => bad_ub
  | c :: p => by
    unfold strcspn
    split_ifs with h
    · exact ⟨by simp, fun c' h1 h2 h3 => by simp at h1; subst h1; tauto⟩
    · exact Sat.bind (bad_strcspn set p) fun n hn => ⟨by simp; exact hn.1, fun _ _ _ _ => by omega⟩

theorem bad_skipSpace : ∀ p : Ptr, Sat (skipSpace p) (fun _ => True) Bad
  | [] => bad_ub
  | c :: p => by
    unfold skipSpace
    split_ifs
    · exact bad_skipSpace p
    · trivial

theorem bad_atoiDigits : ∀ (p : Ptr) (m : Nat), Sat (atoiDigits m p) (fun _ => True) Bad
  | [], m => bad_ub
  | c :: p, m => by
    unfold atoiDigits
    split_ifs
    · exact bad_atoiDigits p _
    · trivial

theorem bad_atoi (p : Ptr) : Sat (atoi p) (fun _ => True) Bad := by
  unfold atoi
  refine Sat.bind (bad_skipSpace p) fun p _ => Sat.bind (bad_getIdx p 0) fun c _ => ?_
  split_ifs <;> exact Sat.bind (bad_atoiDigits _ _) fun n _ => bad_inInt _

theorem bad_fixIndex (a n : Int) : Sat (fixIndex a n) (fun _ => True) Bad := by
  unfold fixIndex; split_ifs <;> [trivial; trivial; exact bad_inInt _]

theorem bad_parseString (p : Ptr) : Sat (parseString p) (fun r => r.2.length ≤ p.length ∧ ∀ c, p.head? = some c → isNewLine c = false → r.2.length < p.length) Bad := by
  unfold parseString
  refine Sat.bind (bad_strspn _ p) fun n hn => Sat.bind (bad_adv p n) fun q hq => Sat.bind (bad_strcspn _ q) fun e he => Sat.bind (bad_adv q e) fun q' hq' => ?_
  obtain ⟨rfl, h1⟩ := hq
  obtain ⟨rfl, h2⟩ := hq'
  refine ⟨by simp only [List.length_drop]; omega, fun c hc hnl => ?_⟩
  simp only [List.length_drop]
  by_cases hb : c ∈ blanks
  · have := hn.2 c hc hb; omega
  · rcases Nat.eq_zero_or_pos n with rfl | hpos
    · have hc' : ((p.drop 0).head? = some c) := by simpa using hc
      have := he.2 c hc' (by rintro rfl; simp [isNewLine] at hnl) (by
        intro hx
        unfold blanksCr at hx
        unfold blanks at hb
        simp only [List.mem_cons, List.not_mem_nil, or_false, not_or] at hx hb
        rcases hx with h | h | h
        · exact hb.1 h
        · exact hb.2 h
        · subst h; simp [isNewLine] at hnl)
      have : 0 < p.length := by cases p <;> simp at hc ⊢
      omega
    · omega

theorem bad_intLoop : ∀ (k : Nat) (p : Ptr) (m : T) (r : Nat), Sat (intLoop k p m r) (fun _ => True) Bad
  | 0, p, m, r => trivial
  | k + 1, p, m, r => by
    unfold intLoop
    refine Sat.bind (bad_getIdx p 0) fun c _ => ?_
    split_ifs
    · exact bad_intLoop k _ _ _
    · trivial

theorem bad_fracLoop : ∀ (k : Nat) (p : Ptr) (m : T) (r : Nat), Sat (fracLoop k p m r) (fun _ => True) Bad
  | 0, p, m, r => trivial
  | k + 1, p, m, r => by
    unfold fracLoop
    refine Sat.bind (bad_getIdx p 0) fun c _ => ?_
    split_ifs
    · exact bad_fracLoop k _ _ _
    · trivial

theorem bad_expLoop : ∀ (k : Nat) (p : Ptr) (m : Int) (r : Nat), Sat (expLoop k p m r) (fun _ => True) Bad
  | 0, p, m, r => trivial
  | k + 1, p, m, r => by
    unfold expLoop
    refine Sat.bind (bad_getIdx p 0) fun c _ => ?_
    split_ifs
    · exact Sat.bind (bad_inInt _) fun e _ => Sat.bind (bad_inInt _) fun e _ => bad_expLoop k _ _ _
    · trivial

theorem bad_expPart (neg : Bool) (m : T) (k : Nat) (p : Ptr) : Sat (expPart neg m k p) (fun _ => True) Bad := by
  unfold expPart
  refine Sat.bind (bad_getIdx p 0) fun c _ => sat_ite (fun _ => ?_) fun _ => trivial
  refine Sat.bind (bad_getIdx _ 0) fun c _ => sat_ite (fun _ => ?_) fun _ => sat_ite (fun _ => ?_) fun _ => trivial
  · exact Sat.bind (bad_expLoop _ _ _ _) fun r _ => sat_ite (fun _ => trivial) fun _ => trivial
  · exact Sat.bind (bad_expLoop _ _ _ _) fun r _ => sat_ite (fun _ => trivial) fun _ => trivial

theorem bad_numberPart (neg : Bool) (k : Nat) (p : Ptr) : Sat (numberPart (T := T) neg k p) (fun _ => True) Bad := by
  unfold numberPart
  refine Sat.bind (bad_intLoop k p _ _) fun r _ => sat_ite (fun _ => trivial) fun _ => sat_ite (fun _ => trivial) fun _ => ?_
  refine Sat.bind (bad_getIdx _ 0) fun c _ => sat_ite (fun _ => ?_) fun _ => sat_ite (fun _ => bad_expPart _ _ _ _) fun _ => trivial
  exact Sat.bind (bad_fracLoop _ _ _ _) fun r _ => sat_ite (fun _ => trivial) fun _ => bad_expPart _ _ _ _

theorem bad_tryParseDouble (p : Ptr) (n : Nat) : Sat (tryParseDouble (T := T) p n) (fun _ => True) Bad := by
  unfold tryParseDouble
  split_ifs
  · trivial
  · refine Sat.bind (bad_getIdx p 0) fun c _ => ?_
    split_ifs
    · exact bad_numberPart _ _ _
    · exact bad_numberPart _ _ _
    · trivial

theorem bad_parseFloat (cast : T → T) (p : Ptr) : Sat (parseFloat cast p) (fun _ => True) Bad := by
  unfold parseFloat
  exact Sat.bind (bad_strspn _ p) fun n _ => Sat.bind (bad_adv _ _) fun q _ => Sat.bind (bad_strcspn _ q) fun e _ =>
    Sat.bind (bad_tryParseDouble _ _) fun v _ => Sat.bind (bad_adv _ _) fun q' _ => trivial

theorem bad_parseTriple (p : Ptr) (vs vns vts : Nat) : Sat (parseTriple p vs vns vts)
    (fun r => r.2.length ≤ p.length ∧ (r.2 = p ∨ r.2.length < p.length) ∧ ∀ c, p.head? = some c → c ≠ nul → c ∉ blanksCr → r.2.length < p.length) Bad := by
  unfold parseTriple
  refine Sat.bind (bad_atoi p) fun a _ => Sat.bind (bad_fixIndex _ _) fun v _ => Sat.bind (bad_strcspn _ p) fun n hn => Sat.bind (bad_adv p n) fun q hq => ?_
  obtain ⟨rfl, hle⟩ := hq
  refine Sat.bind (bad_getIdx _ 0) fun c hc => ?_
  have hlt : (p.drop n).length ≤ p.length := by simp
  have hcons : 0 < (p.drop n).length := by
    rcases h : p.drop n with _ | ⟨x, l⟩
    · rw [h] at hc; simp at hc
    · simp
  have step : ∀ {q : Ptr} {m : Nat}, q.length < (p.drop n).length → (q.drop m).length ≤ p.length ∧ (q.drop m = p ∨ (q.drop m).length < p.length) ∧
      ∀ c, p.head? = some c → c ≠ nul → c ∉ blanksCr → (q.drop m).length < p.length := by
    intro q m h
    have : (q.drop m).length < p.length := by simp only [List.length_drop] at h ⊢; omega
    exact ⟨le_of_lt this, Or.inr this, fun _ _ _ _ => this⟩
  split_ifs with h1
  · refine ⟨hlt, ?_, ?_⟩
    · rcases Nat.eq_zero_or_pos n with rfl | h
      · exact Or.inl rfl
      · right; simp only [List.length_drop] at hcons ⊢; omega
    · intro x hx h2 h3
      rcases Nat.eq_zero_or_pos n with rfl | h
      · have hx' : x = c := by
          rw [List.drop_zero] at hc
          rw [List.head?_eq_getElem?] at hx
          rw [hx] at hc; exact Option.some.inj hc
        subst hx'
        have := hn.2 x hx h2 (by
          intro hm
          have : blanksSlash = '/' :: blanksCr := rfl
          rw [this, List.mem_cons] at hm
          rcases hm with hm | hm
          · exact h1 hm
          · exact h3 hm)
        omega
      · simp only [List.length_drop] at hcons ⊢; omega
  · refine Sat.bind (bad_adv _ 1) fun q hq => ?_
    obtain ⟨rfl, hl1⟩ := hq
    have hq1 : ((p.drop n).drop 1).length < (p.drop n).length := by
      rw [List.length_drop]; omega
    refine Sat.bind (bad_getIdx _ 0) fun c2 hc2 => ?_
    split_ifs with h2
    · refine Sat.bind (bad_adv _ 1) fun q hq => ?_
      obtain ⟨rfl, -⟩ := hq
      refine Sat.bind (bad_atoi _) fun a _ => Sat.bind (bad_fixIndex _ _) fun v _ => Sat.bind (bad_strcspn _ _) fun m _ => Sat.bind (bad_adv _ m) fun q hq => ?_
      obtain ⟨rfl, -⟩ := hq
      exact step (by simp only [List.length_drop] at hq1 ⊢; omega)
    · refine Sat.bind (bad_atoi _) fun a _ => Sat.bind (bad_fixIndex _ _) fun v _ => Sat.bind (bad_strcspn _ _) fun m _ => Sat.bind (bad_adv _ m) fun q hq => ?_
      obtain ⟨rfl, -⟩ := hq
      refine Sat.bind (bad_getIdx _ 0) fun c3 hc3 => ?_
      split_ifs with h3
      · exact step hq1
      · refine Sat.bind (bad_adv _ 1) fun q hq => ?_
        obtain ⟨rfl, -⟩ := hq
        refine Sat.bind (bad_atoi _) fun a _ => Sat.bind (bad_fixIndex _ _) fun v _ => Sat.bind (bad_strcspn _ _) fun m _ => Sat.bind (bad_adv _ m) fun q hq => ?_
        obtain ⟨rfl, -⟩ := hq
        exact step (by simp only [List.length_drop] at hq1 ⊢; omega)

theorem bad_faceLoop (vs vns vts : Nat) : ∀ (fuel : Nat) (p : Ptr) (acc : List VIdx), p.length < fuel → Sat (faceLoop vs vns vts fuel p acc) (fun _ => True) Bad
  | 0, p, acc, h => by omega
  | fuel + 1, p, acc, h => by
    unfold faceLoop
    refine Sat.bind (bad_getIdx p 0) fun c hc => ?_
    split_ifs with hnl
    · trivial
    · refine Sat.bind (bad_parseTriple p vs vns vts) fun r hr => ?_
      dsimp only
      refine Sat.bind (bad_strspn _ _) fun k hk => Sat.bind (bad_adv _ k) fun q hq => ?_
      obtain ⟨rfl, hk2⟩ := hq
      refine bad_faceLoop vs vns vts fuel _ _ ?_
      have hhead : p.head? = some c := by rw [List.head?_eq_getElem?]; exact hc
      have hnul : c ≠ nul := by rintro rfl; simp [isNewLine] at hnl
      simp only [List.length_drop]
      obtain ⟨g1, g2, g3⟩ := hr
      by_cases hb : c ∈ blanksCr
      · rcases g2 with g2 | g2
        · have := hk.2 c (by rw [g2]; exact hhead) hb
          have : 0 < p.length := by cases p <;> simp at hhead ⊢
          rw [g2]; omega
        · omega
      · have := g3 c hhead hnul hb
        omega

theorem bad_nameLoop : ∀ (fuel : Nat) (p : Ptr) (acc : List (List Char)), p.length < fuel → Sat (nameLoop fuel p acc) (fun _ => True) Bad
  | 0, p, acc, h => by omega
  | fuel + 1, p, acc, h => by
    unfold nameLoop
    refine Sat.bind (bad_getIdx p 0) fun c hc => ?_
    split_ifs with hnl
    · trivial
    · refine Sat.bind (bad_parseString p) fun r hr => ?_
      dsimp only
      refine Sat.bind (bad_strspn _ _) fun k hk => Sat.bind (bad_adv _ k) fun q hq => ?_
      obtain ⟨rfl, hk2⟩ := hq
      refine bad_nameLoop fuel _ _ ?_
      have := hr.2 c (by rw [List.head?_eq_getElem?]; exact hc) (by simpa using hnl)
      simp only [List.length_drop]
      omega

theorem bad_scanName (p : Ptr) : Sat (scanName p) (fun _ => True) Bad := by
  unfold scanName
  refine Sat.bind (bad_skipSpace p) fun q _ => ?_
  dsimp only
  split_ifs
  · exact bad_ub
  · trivial

theorem bad_assert (p : Prop) [Decidable p] : Sat (assert p) (fun _ => p) Bad := by
  unfold NS.assert
  split_ifs with h
  · exact h
  · exact Or.inr rfl

theorem bad_updateVertex (v vn vt : List T) (st : List (VIdx × Nat) × ShapeS T) (i : VIdx) : Sat (updateVertex v vn vt st i) (fun _ => True) Bad := by
  unfold updateVertex
  split
  · trivial
  · refine Sat.bind (bad_inInt _) fun a _ => Sat.bind (bad_inInt _) fun a _ => Sat.bind (bad_assert _) fun _ _ => sat_ite (fun _ => bad_ub) fun _ => ?_
    refine Sat.bind (bad_getIdx _ _) fun x _ => Sat.bind (bad_getIdx _ _) fun y _ => Sat.bind (bad_getIdx _ _) fun z _ => ?_
    refine Sat.bind (P := fun _ => True) ?_ fun nor _ => Sat.bind (P := fun _ => True) ?_ fun tex _ => trivial
    · refine sat_ite (fun _ => ?_) fun _ => trivial
      refine Sat.bind (bad_inInt _) fun a _ => Sat.bind (bad_inInt _) fun a _ => sat_ite (fun _ => ?_) fun _ => trivial
      exact Sat.bind (bad_getIdx _ _) fun x _ => Sat.bind (bad_getIdx _ _) fun y _ => Sat.bind (bad_getIdx _ _) fun z _ => trivial
    · refine sat_ite (fun _ => ?_) fun _ => trivial
      refine Sat.bind (bad_inInt _) fun a _ => Sat.bind (bad_inInt _) fun a _ => sat_ite (fun _ => ?_) fun _ => trivial
      exact Sat.bind (bad_getIdx _ _) fun x _ => Sat.bind (bad_getIdx _ _) fun y _ => trivial

theorem bad_exportFace (v vn vt : List T) (face : List VIdx) (st : List (VIdx × Nat) × ShapeS T) : Sat (exportFace v vn vt face st) (fun _ => True) Bad := by
  unfold exportFace
  refine Sat.bind (bad_getIdx _ _) fun i0 _ => Sat.bind (bad_getIdx _ _) fun i2 _ => Sat.bind (P := fun _ => True) ?_ fun r _ => trivial
  rcases Nat.le_total 2 face.length with h | h
  · refine sat_forRange (fun _ _ => True) h trivial (fun k s _ _ _ => ?_)
    exact Sat.bind (bad_getIdx _ _) fun i2 _ => Sat.bind (bad_updateVertex _ _ _ _ _) fun a _ => Sat.bind (bad_updateVertex _ _ _ _ _) fun a _ =>
      Sat.bind (bad_updateVertex _ _ _ _ _) fun a _ => trivial
  · rw [forRange_empty h]; trivial

theorem bad_flush (push : Bool) (s : St T) : Sat (flush push s) (fun _ => True) Bad := by
  unfold flush
  refine sat_ite (fun _ => trivial) fun _ => Sat.bind (P := fun _ => True) ?_ fun sh _ => trivial
  unfold exportGroup
  refine Sat.bind (P := fun _ => True) ?_ fun r _ => trivial
  exact sat_forList (fun _ _ => True) _ trivial (fun pre a suf s _ _ => bad_exportFace _ _ _ _ _)

theorem bad_tagLoop {take : Ptr → R Ptr} (h : ∀ p, Sat (take p) (fun _ => True) Bad) : ∀ (n : Nat) (p : Ptr), Sat (tagLoop take n p) (fun _ => True) Bad
  | 0, p => trivial
  | n + 1, p => by
    unfold tagLoop
    exact Sat.bind (h p) fun q _ => bad_tagLoop h n q

theorem bad_parseTagTriple (p : Ptr) : Sat (parseTagTriple p) (fun _ => True) Bad := by
  unfold parseTagTriple
  refine Sat.bind (bad_atoi p) fun a _ => Sat.bind (bad_strcspn _ _) fun n _ => Sat.bind (bad_adv _ _) fun q _ => Sat.bind (bad_getIdx _ _) fun c _ =>
    sat_ite (fun _ => trivial) fun _ => ?_
  refine Sat.bind (bad_adv _ _) fun q _ => Sat.bind (bad_atoi _) fun a _ => Sat.bind (bad_strcspn _ _) fun n _ => Sat.bind (bad_adv _ _) fun q _ =>
    Sat.bind (bad_getIdx _ _) fun c _ => sat_ite (fun _ => trivial) fun _ => ?_
  exact Sat.bind (bad_adv _ _) fun q _ => Sat.bind (bad_atoi _) fun a _ => Sat.bind (bad_strcspn _ _) fun n _ => Sat.bind (bad_adv _ _) fun q _ => trivial

theorem bad_parseTag (cast : T → T) (p : Ptr) : Sat (parseTag cast p) (fun _ => True) Bad := by
  unfold parseTag
  refine Sat.bind (bad_adv _ _) fun p _ => Sat.bind (bad_scanName p) fun n _ => Sat.bind (bad_adv _ _) fun p _ => Sat.bind (bad_parseTagTriple p) fun r _ => ?_
  refine Sat.bind (bad_assert _) fun _ _ => Sat.bind (bad_tagLoop ?_ _ _) fun p _ => Sat.bind (bad_assert _) fun _ _ => Sat.bind (bad_tagLoop ?_ _ _) fun p _ =>
    Sat.bind (bad_assert _) fun _ _ => Sat.bind (bad_tagLoop ?_ _ _) fun p _ => trivial
  · exact fun p => Sat.bind (bad_atoi _) fun a _ => Sat.bind (bad_strcspn _ _) fun n _ => sat_true (bad_adv _ _)
  · exact fun p => Sat.bind (bad_parseFloat cast _) fun a _ => Sat.bind (bad_strcspn _ _) fun n _ => sat_true (bad_adv _ _)
  · exact fun p => Sat.bind (bad_scanName _) fun a _ => sat_true (bad_adv _ _)

theorem bad_isLetter (a : Char) (p : Ptr) : Sat (isLetter a p) (fun _ => True) Bad := by
  unfold isLetter
  exact Sat.bind (bad_getIdx _ _) fun c _ => sat_ite (fun _ => Sat.bind (bad_getIdx _ _) fun d _ => trivial) fun _ => trivial

theorem bad_isVLetter (a : Char) (p : Ptr) : Sat (isVLetter a p) (fun _ => True) Bad := by
  unfold isVLetter
  exact Sat.bind (bad_getIdx _ _) fun c _ => sat_ite (fun _ => Sat.bind (bad_getIdx _ _) fun d _ => sat_ite (fun _ => Sat.bind (bad_getIdx _ _) fun e _ => trivial) fun _ => trivial)
    fun _ => trivial

theorem bad_isCommand (w : List Char) (p : Ptr) : Sat (isCommand w p) (fun _ => True) Bad := by
  unfold isCommand
  exact sat_ite (fun _ => Sat.bind (bad_getIdx _ _) fun d _ => trivial) fun _ => trivial

theorem bad_command (cast : T → T) (readMtl : List Char → MatMap → R MatMap) (hm : ∀ name m, Sat (readMtl name m) (fun _ => True) Bad) (p : Ptr) (s : St T) : Sat (command cast readMtl p s) (fun _ => True) Bad := by
  unfold command
  refine Sat.bind (bad_getIdx _ _) fun c _ => sat_ite (fun _ => trivial) fun _ => sat_ite (fun _ => trivial) fun _ => ?_
  refine Sat.bind (bad_isLetter _ _) fun b _ => sat_ite (fun _ => ?_) fun _ => ?_
  · exact Sat.bind (bad_adv _ _) fun p _ => Sat.bind (bad_parseFloat cast p) fun x _ => Sat.bind (bad_parseFloat cast _) fun y _ =>
      Sat.bind (bad_parseFloat cast _) fun z _ => trivial
  refine Sat.bind (bad_isVLetter _ _) fun b _ => sat_ite (fun _ => ?_) fun _ => ?_
  · exact Sat.bind (bad_adv _ _) fun p _ => Sat.bind (bad_parseFloat cast p) fun x _ => Sat.bind (bad_parseFloat cast _) fun y _ =>
      Sat.bind (bad_parseFloat cast _) fun z _ => trivial
  refine Sat.bind (bad_isVLetter _ _) fun b _ => sat_ite (fun _ => ?_) fun _ => ?_
  · exact Sat.bind (bad_adv _ _) fun p _ => Sat.bind (bad_parseFloat cast p) fun x _ => Sat.bind (bad_parseFloat cast _) fun y _ => trivial
  refine Sat.bind (bad_isLetter _ _) fun b _ => sat_ite (fun _ => ?_) fun _ => ?_
  · exact Sat.bind (bad_adv _ _) fun p _ => Sat.bind (bad_strspn _ _) fun k _ => Sat.bind (bad_adv _ _) fun p _ =>
      Sat.bind (bad_faceLoop _ _ _ _ _ _ (by omega)) fun f _ => trivial
  refine Sat.bind (bad_isCommand _ _) fun b _ => sat_ite (fun _ => ?_) fun _ => ?_
  · refine Sat.bind (bad_adv _ _) fun p _ => Sat.bind (bad_scanName _) fun n _ => ?_
    exact sat_ite (fun _ => Sat.bind (bad_flush _ _) fun s _ => trivial) fun _ => trivial
  refine Sat.bind (bad_isCommand _ _) fun b _ => sat_ite (fun _ => ?_) fun _ => ?_
  · exact Sat.bind (bad_adv _ _) fun p _ => Sat.bind (bad_scanName _) fun n _ => Sat.bind (hm _ _) fun m _ => trivial
  refine Sat.bind (bad_isLetter _ _) fun b _ => sat_ite (fun _ => ?_) fun _ => ?_
  · exact Sat.bind (bad_flush _ _) fun s _ => Sat.bind (bad_nameLoop _ _ _ (by omega)) fun n _ => Sat.bind (bad_assert _) fun _ _ => trivial
  refine Sat.bind (bad_isLetter _ _) fun b _ => sat_ite (fun _ => ?_) fun _ => ?_
  · exact Sat.bind (bad_flush _ _) fun s _ => Sat.bind (bad_adv _ _) fun p _ => Sat.bind (bad_scanName _) fun n _ => trivial
  refine Sat.bind (bad_isLetter _ _) fun b _ => sat_ite (fun _ => ?_) fun _ => trivial
  exact Sat.bind (bad_parseTag cast _) fun s _ => trivial

theorem safeGetline_length : ∀ t : List Char, t ≠ [] → (safeGetline t).2.length < t.length
  | [], h => absurd rfl h
  | c :: r, _ => by
    unfold safeGetline
    split_ifs
    · simp
    · simp
    · simp
    · rcases r with _ | ⟨c', r⟩
      · simp [safeGetline]
      · have := safeGetline_length (c' :: r) (by simp)
        simp only [List.length_cons] at this ⊢
        omega

theorem bad_lineLoop (cast : T → T) (readMtl : List Char → MatMap → R MatMap) (hm : ∀ name m, Sat (readMtl name m) (fun _ => True) Bad) : ∀ (n : Nat) (text : List Char) (s : St T), text.length ≤ n →
    Sat (lineLoop cast readMtl n text s) (fun _ => True) Bad
  | 0, text, s, h => by
    unfold lineLoop
    rw [if_pos (List.length_eq_zero_iff.1 (by omega))]
    trivial
  | n + 1, text, s, h => by
    unfold lineLoop
    refine sat_ite (fun _ => trivial) fun hne => ?_
    refine Sat.bind (P := fun _ => True) ?_ fun s _ => bad_lineLoop cast readMtl hm n _ s (by have := safeGetline_length text hne; omega)
    unfold processLine
    refine sat_ite (fun _ => trivial) fun _ => ?_
    exact Sat.bind (bad_strspn _ _) fun k _ => Sat.bind (bad_adv _ _) fun p _ => bad_command _ _ hm _ _

/-- **C93**: for every text whatsoever, reading it as an OBJ file ends; it gives a list of shapes, or stops with a failed assertion or
undefined behaviour, and never throws an exception, provided this holds for the material files (C106). -/
theorem C93_ends (cast : T → T) (readMtl : List Char → MatMap → R MatMap) 
    (hm : ∀ name m, (∃ m', readMtl name m = .ok m') ∨ readMtl name m = .error .abort ∨ readMtl name m = .error .ub) (text : List Char) :
    (∃ shapes : List (ShapeS T), loadObj cast readMtl text = .ok shapes) ∨ (loadObj (T := T) cast readMtl text = .error .abort) ∨
      loadObj (T := T) cast readMtl text = .error .ub := by
  have hm' : ∀ name m, Sat (readMtl name m) (fun _ => True) Bad := by
    intro name m
    rcases hm name m with ⟨m', e⟩ | e | e <;> rw [e]
    · trivial
    · exact Or.inr rfl
    · exact Or.inl rfl
  have h : Sat (loadObj (T := T) cast readMtl text) (fun _ => True) Bad := by
    unfold loadObj
    exact Sat.bind (bad_lineLoop cast readMtl hm' _ _ _ le_rfl) fun s _ => Sat.bind (bad_flush _ _) fun s _ => trivial
  rcases hx : loadObj (T := T) cast readMtl text with e | shapes
  · rw [hx] at h
    rcases h with rfl | rfl
    · exact Or.inr (Or.inr rfl)
    · exact Or.inr (Or.inl rfl)
  · exact Or.inl ⟨shapes, rfl⟩

/-- **C93** (negation): small texts with undefined behaviour or a failed assertion: a face with one corner, an object without a name, a tag
without values, a number that is no `int`; a face that refers to a vertex which does not exist stops the program -/
theorem C93_unsafe :
    loadObj (T := ℚ) id noMtl "v 0 0 0\nf 1\n".toList = .error .ub ∧ loadObj (T := ℚ) id noMtl "o \n".toList = .error .ub ∧
    loadObj (T := ℚ) id noMtl "t a\n".toList = .error .ub ∧ loadObj (T := ℚ) id noMtl "f 9999999999 1 1\n".toList = .error .ub ∧
    loadObj (T := ℚ) id noMtl "v 0 0 0\nf 1 1 2\n".toList = .error .abort := by
  have h : ∀ x : R (List (ShapeS ℚ)), (match x with | .error e => some e | .ok _ => none) = some .ub → x = .error .ub := by
    intro x hx; cases x <;> simp_all
  have h' : ∀ x : R (List (ShapeS ℚ)), (match x with | .error e => some e | .ok _ => none) = some .abort → x = .error .abort := by
    intro x hx; cases x <;> simp_all
  exact ⟨h _ (by decide +kernel), h _ (by decide +kernel), h _ (by decide +kernel), h _ (by decide +kernel), h' _ (by decide +kernel)⟩
end NS.Props.Obj

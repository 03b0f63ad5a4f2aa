/-
Property theorems C93, continued: texts which are read safely.
-/
import Verif.Props.ObjSafe

set_option linter.unusedSectionVars false
set_option linter.unusedSimpArgs false
set_option linter.unusedVariables false

namespace NS.Props.Obj
open NS NS.TinyObj
variable {T : Type} [Field T]

/-! ### Specification -/

/-- no more than eight digits in a row -/
def ShortRuns (p : List Char) : Prop := ∀ u d w, p = u ++ (d ++ w) → (∀ c ∈ d, IsDigit c) → d.length ≤ 8

/-- white space, then a word of less than 4096 characters, then nothing or white space and anything -/
def HasName (q : List Char) : Prop := ∃ a n b, q = a ++ (n ++ b) ∧ (∀ c ∈ a, isCSpace c = true) ∧ n ≠ [] ∧ n.length < 4096 ∧
  (∀ c ∈ n, isCSpace c = false) ∧ ∀ c, b.head? = some c → isCSpace c = true

/-- a blank between two characters which are no blanks -/
def TwoWords (q : List Char) : Prop := ∃ a b s, q = a ++ b :: s ∧ b ∈ blanks ∧ (∃ x ∈ a, x ∉ blanks) ∧ ∃ y ∈ s, y ∉ blanks

/-- a line which is safe to read, whatever else it contains: no `NUL`, numbers of at most eight digits, no tag, names where they are needed,
at least two words after `f` -/
structure SafeLine (l : List Char) : Prop where
  nonul : nul ∉ l
  runs : ShortRuns l
  tag : ∀ b s q, IsBlanks b → s ∈ blanks → l ≠ b ++ 't' :: s :: q
  object : ∀ b s q, IsBlanks b → s ∈ blanks → l = b ++ 'o' :: s :: q → HasName q
  usemtl : ∀ b s q, IsBlanks b → s ∈ blanks → l = b ++ (['u', 's', 'e', 'm', 't', 'l'] ++ s :: q) → HasName q
  mtllib : ∀ b s q, IsBlanks b → s ∈ blanks → l = b ++ (['m', 't', 'l', 'l', 'i', 'b'] ++ s :: q) → HasName q
  face : ∀ b s q, IsBlanks b → s ∈ blanks → l = b ++ 'f' :: s :: q → TwoWords q

/-! ### Pointers into a line -/

/-- only a failed assertion -/
def Ab (e : Err) : Prop := e = .abort

theorem ShortRuns.suffix {p q : List Char} (h : ShortRuns p) (hq : q <:+ p) : ShortRuns q := by
  obtain ⟨a, rfl⟩ := hq
  intro u d w he hd
  exact h (a ++ u) d w (by rw [he, List.append_assoc]) hd

theorem ShortRuns.nul {l : List Char} (h : ShortRuns l) : ShortRuns (l ++ [nul]) := by
  intro u d w he hd
  rcases List.eq_nil_or_concat w with rfl | ⟨w', x, rfl⟩
  · rcases List.eq_nil_or_concat d with rfl | ⟨d', x, rfl⟩
    · simp
    · have : x = TinyObj.nul := by
        have := congrArg List.getLast? he
        simpa using this.symm
      subst this
      have := hd TinyObj.nul (by simp)
      exact absurd this (by unfold IsDigit; decide)
  · have : l = u ++ (d ++ w') := by
      have := congrArg List.dropLast he
      simpa [List.dropLast_concat, ← List.append_assoc] using this
    exact h u d w' this hd

theorem drop_suffix (p : List Char) (n : Nat) : p.drop n <:+ p := List.drop_suffix n p

theorem natVal_lt (d : List Char) (h : ∀ c ∈ d, IsDigit c) : natVal d < 10 ^ d.length := by
  induction d with
  | nil => simp [natVal]
  | cons c d ih =>
    have hc : c.toNat - 48 ≤ 9 := by
      have := h c (by simp)
      unfold IsDigit at this
      fin_cases this <;> decide
    have := ih fun c hc => h c (by simp [hc])
    simp only [natVal, List.length_cons, pow_succ]
    have h2 : (c.toNat - 48) * 10 ^ d.length ≤ 9 * 10 ^ d.length := Nat.mul_le_mul_right _ hc
    omega

theorem pow8 {n : Nat} (h : n ≤ 8) : 10 ^ n ≤ 100000000 := by
  calc 10 ^ n ≤ 10 ^ 8 := Nat.pow_le_pow_right (by norm_num) h
    _ = 100000000 := by norm_num

theorem skipSpace_nul : ∀ p : List Char, nul ∈ p → ∃ q, skipSpace p = .ok q ∧ q <:+ p ∧ nul ∈ q
  | [], h => by simp at h
  | c :: p, h => by
    by_cases hc : isCSpace c = true
    · have : nul ∈ p := by
        rw [List.mem_cons] at h
        rcases h with rfl | h
        · exact absurd hc (by decide)
        · exact h
      obtain ⟨q, h1, h2, h3⟩ := skipSpace_nul p this
      exact ⟨q, by rw [skipSpace, if_pos hc]; exact h1, h2.trans (List.suffix_cons c p), h3⟩
    · exact ⟨c :: p, by rw [skipSpace, if_neg hc], List.suffix_refl _, h⟩

theorem atoiDigits_nul : ∀ (p : List Char) (m : Nat), nul ∈ p → ∃ d w, p = d ++ w ∧ (∀ c ∈ d, IsDigit c) ∧ atoiDigits m p = .ok (m * 10 ^ d.length + natVal d)
  | [], m, h => by simp at h
  | c :: p, m, h => by
    by_cases hc : isDigit c = true
    · have : nul ∈ p := by
        rw [List.mem_cons] at h
        rcases h with rfl | h
        · exact absurd hc (by decide)
        · exact h
      obtain ⟨d, w, h1, h2, h3⟩ := atoiDigits_nul p (m * 10 + digit c) this
      refine ⟨c :: d, w, by rw [h1]; rfl, ?_, ?_⟩
      · intro x hx
        rw [List.mem_cons] at hx
        rcases hx with rfl | hx
        · exact (isDigit_iff x).1 hc
        · exact h2 x hx
      · rw [atoiDigits, if_pos hc, h3]
        congr 1
        simp only [natVal, digit_eq, List.length_cons]
        ring
    · exact ⟨[], c :: p, rfl, by simp, by rw [atoiDigits, if_neg hc]; simp [natVal]⟩

theorem atoi_nul {p : List Char} (hn : nul ∈ p) (hs : ShortRuns p) : ∃ z : Int, atoi p = .ok z ∧ -100000000 < z ∧ z < 100000000 := by
  obtain ⟨q, h1, h2, h3⟩ := skipSpace_nul p hn
  have hq := hs.suffix h2
  have key : ∀ q' : List Char, nul ∈ q' → q' <:+ q → ∃ n, atoiDigits 0 q' = .ok n ∧ n < 100000000 := by
    intro q' hn' hsuf
    obtain ⟨d, w, e, hd, h⟩ := atoiDigits_nul q' 0 hn'
    refine ⟨_, h, ?_⟩
    have := hq.suffix hsuf [] d w (by rw [e]; rfl) hd
    have h8 := pow8 this
    have := natVal_lt d hd
    omega
  obtain ⟨c, q', rfl⟩ : ∃ c q', q = c :: q' := by
    cases q with
    | nil => simp at h3
    | cons c q' => exact ⟨c, q', rfl⟩
  unfold atoi
  rw [h1, ok_bind, getIdx_zero, ok_bind]
  have tail : ∀ x : Char, c = x → x ≠ nul → nul ∈ q' := by
    intro x hx hxn
    rw [List.mem_cons] at h3
    rcases h3 with h | h
    · exact absurd (hx.symm.trans h.symm) hxn
    · exact h
  by_cases hc : c = '-'
  · rw [if_pos hc]
    obtain ⟨n, e, hlt⟩ := key q' (tail _ hc (by decide)) (List.suffix_cons c q')
    rw [List.drop_one, List.tail_cons, e, ok_bind]
    exact ⟨_, inInt_ok (by omega) (by omega), by omega, by omega⟩
  · rw [if_neg hc]
    by_cases hc2 : c = '+'
    · rw [if_pos hc2]
      obtain ⟨n, e, hlt⟩ := key q' (tail _ hc2 (by decide)) (List.suffix_cons c q')
      rw [List.drop_one, List.tail_cons, e, ok_bind]
      exact ⟨_, inInt_ok (by omega) (by omega), by omega, by omega⟩
    · rw [if_neg hc2]
      obtain ⟨n, e, hlt⟩ := key (c :: q') h3 (List.suffix_refl _)
      rw [e, ok_bind]
      exact ⟨_, inInt_ok (by omega) (by omega), by omega, by omega⟩

/-- a number of a corner is so small that the parser does not overflow -/
def IdxOk (z : Int) : Prop := -100000000 ≤ z ∧ z ≤ 200000000

theorem fixIndex_nul {z : Int} {n : Nat} (h1 : -100000000 < z) (h2 : z < 100000000) (hn : n ≤ 100000000) : ∃ v, fixIndex z n = .ok v ∧ IdxOk v := by
  unfold fixIndex
  by_cases h : 0 < z
  · rw [if_pos h]; exact ⟨_, rfl, by unfold IdxOk; omega⟩
  · rw [if_neg h]
    by_cases h0 : z = 0
    · rw [if_pos h0]; exact ⟨_, rfl, by unfold IdxOk; omega⟩
    · rw [if_neg h0]; exact ⟨_, inInt_ok (by omega) (by omega), by unfold IdxOk; omega⟩

theorem strcspn_take {set : List Char} : ∀ (p : List Char) (n : Nat), strcspn set p = .ok n → ∀ c ∈ p.take n, c ≠ nul ∧ c ∉ set
  | [], n, h => by simp [strcspn] at h
  | x :: p, n, h => by
    unfold strcspn at h
    split_ifs at h with hx
    · cases h; simp
    · rcases hp : strcspn set p with e | m
      · rw [hp] at h; simp at h
      · rw [hp, ok_bind] at h
        cases h
        intro c hc
        rw [List.take_succ_cons, List.mem_cons] at hc
        rcases hc with rfl | hc
        · exact not_or.1 hx
        · exact strcspn_take p m hp c hc

/-- all three numbers of a corner are small -/
def VOk (i : VIdx) : Prop := IdxOk i.v ∧ IdxOk i.vt ∧ IdxOk i.vn

theorem slash_blanks {u : List Char} (h : ∀ c ∈ u, c ≠ nul ∧ c ∉ blanksSlash) : ∀ c ∈ u, c ∉ blanks := by
  intro c hc hb
  refine (h c hc).2 ?_
  unfold blanks at hb
  unfold blanksSlash
  simp only [List.mem_cons, List.not_mem_nil, or_false] at hb ⊢
  tauto

/-- one number with what is skipped after it -/
theorem number_nul {p : List Char} (hn : nul ∈ p) (hs : ShortRuns p) {n : Nat} (hle : n ≤ 100000000) :
    ∃ a v k, atoi p = .ok a ∧ fixIndex a n = .ok v ∧ IdxOk v ∧ strcspn blanksSlash p = .ok k ∧ adv p k = .ok (p.drop k) ∧ nul ∈ p.drop k ∧
      (∀ c ∈ p.take k, c ∉ blanks) ∧ ∃ c, getIdx (p.drop k) 0 = .ok c := by
  obtain ⟨a, h1, h2, h3⟩ := atoi_nul hn hs
  obtain ⟨v, h4, h5⟩ := fixIndex_nul h2 h3 hle
  obtain ⟨k, h6, h7, h8, -⟩ := strcspn_nul (set := blanksSlash) p hn
  refine ⟨a, v, k, h1, h4, h5, h6, adv_ok (le_of_lt h7), h8, slash_blanks (strcspn_take p k h6), ?_⟩
  cases hd : p.drop k with
  | nil => rw [hd] at h8; simp at h8
  | cons c q => exact ⟨c, rfl⟩

theorem parseTriple_nul {p : List Char} (hn : nul ∈ p) (hs : ShortRuns p) {vs vns vts : Nat} (h1 : vs ≤ 100000000) (h2 : vns ≤ 100000000) (h3 : vts ≤ 100000000) :
    ∃ i u q, parseTriple p vs vns vts = .ok (i, q) ∧ VOk i ∧ p = u ++ q ∧ (∀ c ∈ u, c ∉ blanks) ∧ nul ∈ q := by
  have hm1 : IdxOk (-1) := by unfold IdxOk; omega
  have slash : ∀ {q : List Char}, nul ∈ q → getIdx q 0 = .ok '/' → ∃ q', q = '/' :: q' ∧ nul ∈ q' := by
    intro q hq h
    cases q with
    | nil => simp at hq
    | cons c q =>
      rw [getIdx_zero] at h
      cases h
      rw [List.mem_cons] at hq
      rcases hq with h | h
      · exact absurd h (by decide)
      · exact ⟨q, rfl, h⟩
  have adv1 : ∀ q : List Char, adv ('/' :: q) 1 = .ok q := fun q => adv_append ['/'] q
  have hsl : '/' ∉ blanks := by decide
  obtain ⟨a, v, k, e1, e2, e3, e4, e5, e6, e7, c, e8⟩ := number_nul hn hs h1
  have hp : p = p.take k ++ p.drop k := (List.take_append_drop k p).symm
  unfold parseTriple
  rw [e1, ok_bind, e2, ok_bind, e4, ok_bind, e5, ok_bind, e8, ok_bind]
  by_cases hc : c = '/'
  · subst hc
    rw [if_neg (by simp)]
    obtain ⟨q, hq, hnq⟩ := slash e6 e8
    rw [hq, adv1, ok_bind]
    have hsq : ShortRuns q := hs.suffix ((List.suffix_cons _ _).trans (hq ▸ drop_suffix p k))
    obtain ⟨c2, q2, rfl⟩ : ∃ c q', q = c :: q' := by
      cases q with
      | nil => simp at hnq
      | cons c q' => exact ⟨c, q', rfl⟩
    rw [getIdx_zero, ok_bind]
    by_cases hc2 : c2 = '/'
    · subst hc2
      rw [if_pos rfl, adv1, ok_bind]
      have hnq2 : nul ∈ q2 := by
        rw [List.mem_cons] at hnq
        rcases hnq with h | h
        · exact absurd h (by decide)
        · exact h
      obtain ⟨a', v', k', f1, f2, f3, f4, f5, f6, f7, -⟩ := number_nul hnq2 (hsq.suffix (List.suffix_cons _ _)) h2
      rw [f1, ok_bind, f2, ok_bind, f4, ok_bind, f5, ok_bind]
      refine ⟨_, p.take k ++ '/' :: '/' :: q2.take k', q2.drop k', rfl, ⟨e3, hm1, f3⟩, ?_, ?_, f6⟩
      · conv_lhs => rw [hp, hq]
        simp
      · intro x hx
        simp only [List.mem_append, List.mem_cons] at hx
        rcases hx with h | rfl | rfl | h
        · exact e7 x h
        · exact hsl
        · exact hsl
        · exact f7 x h
    · rw [if_neg hc2]
      obtain ⟨a', v', k', f1, f2, f3, f4, f5, f6, f7, c3, f8⟩ := number_nul hnq hsq h3
      rw [f1, ok_bind, f2, ok_bind, f4, ok_bind, f5, ok_bind, f8, ok_bind]
      by_cases hc3 : c3 = '/'
      · subst hc3
        rw [if_neg (by simp)]
        obtain ⟨q3, hq3, hnq3⟩ := slash f6 f8
        have hsq3 : ShortRuns q3 := hsq.suffix ((List.suffix_cons _ _).trans (hq3 ▸ drop_suffix _ k'))
        rw [hq3, adv1, ok_bind]
        obtain ⟨a'', v'', k'', g1, g2, g3, g4, g5, g6, g7, -⟩ := number_nul hnq3 hsq3 h2
        rw [g1, ok_bind, g2, ok_bind, g4, ok_bind, g5, ok_bind]
        refine ⟨_, p.take k ++ '/' :: ((c2 :: q2).take k' ++ '/' :: q3.take k''), q3.drop k'', rfl, ⟨e3, f3, g3⟩, ?_, ?_, g6⟩
        · conv_lhs => rw [hp, hq, ← List.take_append_drop k' (c2 :: q2), hq3]
          simp
        · intro x hx
          simp only [List.mem_append, List.mem_cons] at hx
          rcases hx with h | rfl | h | rfl | h
          · exact e7 x h
          · exact hsl
          · exact f7 x h
          · exact hsl
          · exact g7 x h
      · rw [if_pos hc3]
        refine ⟨_, p.take k ++ '/' :: (c2 :: q2).take k', (c2 :: q2).drop k', rfl, ⟨e3, f3, hm1⟩, ?_, ?_, f6⟩
        · conv_lhs => rw [hp, hq, ← List.take_append_drop k' (c2 :: q2)]
          simp
        · intro x hx
          simp only [List.mem_append, List.mem_cons] at hx
          rcases hx with h | rfl | h
          · exact e7 x h
          · exact hsl
          · exact f7 x h
  · rw [if_pos hc]
    exact ⟨_, p.take k, p.drop k, rfl, ⟨e3, hm1, hm1⟩, hp, e7, e6⟩

/-! ### Faces -/

/-- a line has no line ends and no `NUL` -/
def Clean (l : List Char) : Prop := ∀ c ∈ l, c ≠ nul ∧ c ≠ '\n' ∧ c ≠ '\r'

/-- a blank, and later something else -/
def Later (q : List Char) : Prop := ∃ a b s, q = a ++ b :: s ∧ b ∈ blanks ∧ ∃ y ∈ s, y ∉ blanks

theorem later_trim : ∀ (z q : List Char), (∀ c ∈ z, c ∈ blanks) → TwoWords (z ++ q) → (∀ c, q.head? = some c → c ∉ blanks) → Later q
  | [], q, hz, h, hq => by
    obtain ⟨a, b, s, h1, h2, h3, h4⟩ := h
    exact ⟨a, b, s, h1, h2, h4⟩
  | c :: z, q, hz, h, hq => by
    obtain ⟨a, b, s, h1, h2, ⟨x, hx, hxb⟩, h4⟩ := h
    cases a with
    | nil => simp at hx
    | cons c' a =>
      simp only [List.cons_append, List.cons.injEq] at h1
      obtain ⟨rfl, h1⟩ := h1
      refine later_trim z q (fun x hx => hz x (by simp [hx])) ⟨a, b, s, h1, h2, ⟨x, ?_, hxb⟩, h4⟩ hq
      rw [List.mem_cons] at hx
      rcases hx with rfl | hx
      · exact absurd (hz x (by simp)) hxb
      · exact hx

theorem not_later : ∀ (u z : List Char), (∀ c ∈ u, c ∉ blanks) → (∀ c ∈ z, c ∈ blanks) → ¬ Later (u ++ z)
  | [], z, hu, hz, ⟨a, b, s, h1, h2, y, hy, hyb⟩ => by
    refine hyb (hz y ?_)
    rw [List.nil_append] at h1
    rw [h1]; simp [hy]
  | c :: u, z, hu, hz, ⟨a, b, s, h1, h2, h3⟩ => by
    cases a with
    | nil =>
      simp only [List.cons_append, List.nil_append, List.cons.injEq] at h1
      exact hu c (by simp) (h1.1 ▸ h2)
    | cons c' a =>
      simp only [List.cons_append, List.cons.injEq] at h1
      exact not_later u z (fun c h => hu c (by simp [h])) hz ⟨a, b, s, h1.2, h2, h3⟩

theorem split_nul {u q l : List Char} (hl : nul ∉ l) (h : l ++ [nul] = u ++ q) (hq : nul ∈ q) : ∃ q', q = q' ++ [nul] ∧ l = u ++ q' := by
  rcases List.eq_nil_or_concat q with rfl | ⟨q', x, rfl⟩
  · simp at hq
  · rw [List.concat_eq_append, ← List.append_assoc] at h
    obtain ⟨h1, h2⟩ := List.append_inj' h rfl
    refine ⟨q', ?_, h1⟩
    rw [List.concat_eq_append, h2]

theorem strspn_take {set : List Char} : ∀ (p : List Char) (n : Nat), strspn set p = .ok n → ∀ c ∈ p.take n, c ∈ set
  | [], n, h => by simp [strspn] at h
  | x :: p, n, h => by
    unfold strspn at h
    split_ifs at h with hx
    · rcases hp : strspn set p with e | m
      · rw [hp] at h; simp at h
      · rw [hp, ok_bind] at h
        cases h
        intro c hc
        rw [List.take_succ_cons, List.mem_cons] at hc
        rcases hc with rfl | hc
        · exact hx
        · exact strspn_take p m hp c hc
    · cases h; simp

theorem faceLoop_nul {vs vns vts : Nat} (h1 : vs ≤ 100000000) (h2 : vns ≤ 100000000) (h3 : vts ≤ 100000000) :
    ∀ (fuel : Nat) (l : List Char) (acc : List VIdx), l.length + 1 < fuel → Clean l → ShortRuns l → ∃ f, faceLoop vs vns vts fuel (l ++ [nul]) acc = .ok (acc ++ f) ∧
      (∀ i ∈ f, VOk i) ∧ (l ≠ [] → 1 ≤ f.length) ∧ (Later l → 2 ≤ f.length)
  | 0, l, acc, hf, hc, hs => by omega
  | fuel + 1, l, acc, hf, hc, hs => by
    rw [faceLoop]
    rcases l with _ | ⟨c, l⟩
    · rw [List.nil_append, getIdx_zero, ok_bind, if_pos (by decide)]
      exact ⟨[], by simp, by simp, by simp, by rintro ⟨a, b, s, h, -⟩; simp at h⟩
    · have hcc := hc c (by simp)
      rw [List.cons_append, getIdx_zero, ok_bind, if_neg (by unfold isNewLine; simp [hcc.1, hcc.2.1, hcc.2.2]), ← List.cons_append]
      have hnl : nul ∉ c :: l := fun h => (hc nul h).1 rfl
      obtain ⟨i, u, q, e1, e2, e3, e4, e5⟩ := parseTriple_nul (p := c :: l ++ [nul]) (by simp) hs.nul h1 h2 h3
      have hprog := (bad_parseTriple (c :: l ++ [nul]) vs vns vts).of_ok e1
      rw [e1, ok_bind]
      dsimp only
      obtain ⟨q1, rfl, hq1⟩ := split_nul hnl e3 e5
      obtain ⟨k, g1, g2, g3, -⟩ := strspn_nul (set := blanksCr) (by decide) _ e5
      have hk := (bad_strspn blanksCr (q1 ++ [nul])).of_ok g1
      rw [g1, ok_bind, adv_ok (le_of_lt g2), ok_bind]
      obtain ⟨q2, hq2, hq2'⟩ := split_nul (l := q1) (u := (q1 ++ [nul]).take k) (q := (q1 ++ [nul]).drop k)
        (fun h => hnl (by rw [hq1]; simp [h])) (List.take_append_drop k _).symm g3
      have hz : ∀ x ∈ (q1 ++ [nul]).take k, x ∈ blanks := by
        intro x hx
        have hx1 := strspn_take _ k g1 x hx
        have hxm : x ∈ c :: l := by rw [hq1, hq2']; simp [hx]
        unfold blanksCr at hx1
        unfold blanks
        simp only [List.mem_cons, List.not_mem_nil, or_false] at hx1 ⊢
        rcases hx1 with h | h | h
        · exact Or.inl h
        · exact Or.inr h
        · exact absurd h (hc x hxm).2.2
      have hlen : q2.length < (c :: l).length := by
        have hle : (q1 ++ [nul]).drop k = q2 ++ [nul] := hq2
        have hl2 : q2.length + 1 = q1.length + 1 - k := by
          have := congrArg List.length hle; simpa using this.symm
        have hl1 : (c :: l).length = u.length + q1.length := by rw [hq1]; simp
        by_cases hb : c ∈ blanksCr
        · rcases hprog.2.1 with h | h
          · simp only at h
            have := hk.2 c (by rw [h]; rfl) hb
            have : (c :: l).length = q1.length := by
              have := congrArg List.length h; simpa using this.symm
            omega
          · simp only [List.length_append, List.length_singleton] at h
            omega
        · have := hprog.2.2 c rfl hcc.1 hb
          simp only [List.length_append, List.length_singleton] at this
          omega
      have hc2 : Clean q2 := fun x hx => hc x (by rw [hq1, hq2']; simp [hx])
      have hs2 : ShortRuns q2 := hs.suffix ⟨u ++ (q1 ++ [nul]).take k, by rw [List.append_assoc, ← hq2', ← hq1]⟩
      obtain ⟨f, f1, f2, f3, f4⟩ := faceLoop_nul h1 h2 h3 fuel q2 (acc ++ [i]) (by omega) hc2 hs2
      rw [hq2, f1]
      refine ⟨i :: f, by simp, ?_, by simp, fun hlat => ?_⟩
      · intro x hx
        rw [List.mem_cons] at hx
        rcases hx with rfl | hx
        · exact e2
        · exact f2 x hx
      · have : q2 ≠ [] := by
          rintro rfl
          refine not_later u ((q1 ++ [nul]).take k) e4 hz ?_
          rw [List.append_nil] at hq2'
          rw [← hq2', ← hq1]; exact hlat
        have := f3 this
        simp; omega

/-! ### Numbers -/

theorem intLoop_nul : ∀ (k : Nat) (p : List Char) (m : T) (r : Nat), k < p.length → ∃ m' k' q r', intLoop k p m r = .ok (m', k', q, r') ∧ q <:+ p ∧ k' < q.length
  | 0, p, m, r, h => ⟨_, _, _, _, rfl, List.suffix_refl _, h⟩
  | k + 1, p, m, r, h => by
    obtain ⟨c, q, rfl⟩ : ∃ c q, p = c :: q := by
      cases p with
      | nil => simp at h
      | cons c q => exact ⟨c, q, rfl⟩
    unfold intLoop
    rw [getIdx_zero, ok_bind]
    by_cases hc : isDigit c = true
    · rw [if_pos hc, List.drop_one, List.tail_cons]
      obtain ⟨m', k', q', r', h1, h2, h3⟩ := intLoop_nul k q (m * 10 + (digit c : T)) (r + 1) (by simp at h; omega)
      exact ⟨m', k', q', r', h1, h2.trans (List.suffix_cons c q), h3⟩
    · rw [if_neg hc]
      exact ⟨_, _, _, _, rfl, List.suffix_refl _, h⟩

theorem fracLoop_nul : ∀ (k : Nat) (p : List Char) (m : T) (r : Nat), k < p.length → ∃ m' k' q, fracLoop k p m r = .ok (m', k', q) ∧ q <:+ p ∧ k' < q.length
  | 0, p, m, r, h => ⟨_, _, _, rfl, List.suffix_refl _, h⟩
  | k + 1, p, m, r, h => by
    obtain ⟨c, q, rfl⟩ : ∃ c q, p = c :: q := by
      cases p with
      | nil => simp at h
      | cons c q => exact ⟨c, q, rfl⟩
    unfold fracLoop
    rw [getIdx_zero, ok_bind]
    by_cases hc : isDigit c = true
    · rw [if_pos hc, List.drop_one, List.tail_cons]
      obtain ⟨m', k', q', h1, h2, h3⟩ := fracLoop_nul k q (m + (digit c : T) * ((10 : T) ^ r)⁻¹) (r + 1) (by simp at h; omega)
      exact ⟨m', k', q', h1, h2.trans (List.suffix_cons c q), h3⟩
    · rw [if_neg hc]
      exact ⟨_, _, _, rfl, List.suffix_refl _, h⟩

theorem expLoop_nul : ∀ (k : Nat) (p : List Char) (e : Int) (r : Nat), k < p.length → (∀ d w, p = d ++ w → (∀ c ∈ d, IsDigit c) → r + d.length ≤ 8) → 0 ≤ e → e < 10 ^ r →
    ∃ x, expLoop k p e r = .ok x
  | 0, p, e, r, h, hd, h0, h1 => ⟨_, rfl⟩
  | k + 1, p, e, r, h, hd, h0, h1 => by
    obtain ⟨c, q, rfl⟩ : ∃ c q, p = c :: q := by
      cases p with
      | nil => simp at h
      | cons c q => exact ⟨c, q, rfl⟩
    unfold expLoop
    rw [getIdx_zero, ok_bind]
    by_cases hc : isDigit c = true
    · have hcd := (isDigit_iff c).1 hc
      have hr : r + 1 ≤ 8 := hd [c] q rfl (by simpa using hcd)
      have hdc : digit c ≤ 9 := by
        unfold IsDigit at hcd
        fin_cases hcd <;> decide
      have h7 : (10 : Int) ^ (r + 1) ≤ 100000000 := by
        have := pow8 hr
        exact_mod_cast this
      rw [pow_succ] at h7
      rw [if_pos hc, inInt_ok (by omega) (by omega), ok_bind, inInt_ok (by omega) (by omega), ok_bind, List.drop_one, List.tail_cons]
      refine expLoop_nul k q _ (r + 1) (by simp at h; omega) (fun d w hp hdd => ?_) (by omega) (by rw [pow_succ]; omega)
      have := hd (c :: d) w (by rw [hp]; rfl) (by
        intro x hx
        rw [List.mem_cons] at hx
        rcases hx with rfl | hx
        · exact hcd
        · exact hdd x hx)
      simp at this; omega
    · rw [if_neg hc]
      exact ⟨_, rfl⟩

theorem expPart_nul (neg : Bool) (m : T) {k : Nat} {p : List Char} (hk : 0 < k) (h : k < p.length) (hs : ShortRuns p) : ∃ x, expPart neg m k p = .ok x := by
  obtain ⟨c, q, rfl⟩ : ∃ c q, p = c :: q := by
    cases p with
    | nil => simp at h
    | cons c q => exact ⟨c, q, rfl⟩
  obtain ⟨c2, q2, rfl⟩ : ∃ c' q', q = c' :: q' := by
    cases q with
    | nil => simp at h; omega
    | cons c q => exact ⟨c, q, rfl⟩
  simp only [List.length_cons] at h
  have hs1 : ShortRuns (c2 :: q2) := hs.suffix (List.suffix_cons _ _)
  unfold expPart
  rw [getIdx_zero, ok_bind]
  by_cases hc : c = 'e' ∨ c = 'E'
  · rw [if_pos hc]
    simp only [List.drop_one, List.tail_cons]
    rw [getIdx_zero, ok_bind]
    by_cases hc2 : k - 1 ≠ 0 ∧ (c2 = '+' ∨ c2 = '-')
    · rw [if_pos hc2]
      obtain ⟨x, hx⟩ := expLoop_nul (k - 1 - 1) q2 0 0 (by have := hc2.1; omega)
        (fun d w hp hd => by have := hs1 [c2] d w (by rw [hp]; rfl) hd; omega) le_rfl (by norm_num)
      rw [hx, ok_bind]
      split_ifs <;> exact ⟨_, rfl⟩
    · rw [if_neg hc2]
      by_cases hc3 : isDigit c2 = true
      · rw [if_pos hc3]
        obtain ⟨x, hx⟩ := expLoop_nul (k - 1) (c2 :: q2) 0 0 (by simp; omega)
          (fun d w hp hd => by have := hs1 [] d w (by rw [hp]; rfl) hd; omega) le_rfl (by norm_num)
        rw [hx, ok_bind]
        split_ifs <;> exact ⟨_, rfl⟩
      · rw [if_neg hc3]; exact ⟨_, rfl⟩
  · rw [if_neg hc]; exact ⟨_, rfl⟩

theorem numberPart_nul (neg : Bool) {k : Nat} {p : List Char} (h : k < p.length) (hs : ShortRuns p) : ∃ x : Option T, numberPart neg k p = .ok x := by
  unfold numberPart
  obtain ⟨m, k1, q, r, e1, e2, e3⟩ := intLoop_nul (T := T) k p 0 0 h
  rw [e1, ok_bind]
  dsimp only
  by_cases h1 : r = 0
  · rw [if_pos h1]; exact ⟨_, rfl⟩
  rw [if_neg h1]
  by_cases h2 : k1 = 0
  · rw [if_pos h2]; exact ⟨_, rfl⟩
  rw [if_neg h2]
  have hsq := hs.suffix e2
  obtain ⟨c, q', rfl⟩ : ∃ c q', q = c :: q' := by
    cases q with
    | nil => simp at e3
    | cons c q => exact ⟨c, q, rfl⟩
  rw [getIdx_zero, ok_bind]
  by_cases hc : c = '.'
  · rw [if_pos hc, List.drop_one, List.tail_cons]
    obtain ⟨m2, k2, q2, f1, f2, f3⟩ := fracLoop_nul (k1 - 1) q' m 1 (by simp at e3; omega)
    rw [f1, ok_bind]
    dsimp only
    by_cases h3 : k2 = 0
    · rw [if_pos h3]; exact ⟨_, rfl⟩
    · rw [if_neg h3]
      exact expPart_nul neg m2 (by omega) f3 (hsq.suffix (f2.trans (List.suffix_cons _ _)))
  · rw [if_neg hc]
    by_cases hc2 : c = 'e' ∨ c = 'E'
    · rw [if_pos hc2]
      exact expPart_nul neg m (by omega) e3 hsq
    · rw [if_neg hc2]; exact ⟨_, rfl⟩

theorem parseFloat_nul (cast : T → T) {p : List Char} (hn : nul ∈ p) (hs : ShortRuns p) : ∃ x q, parseFloat cast p = .ok (x, q) ∧ q <:+ p ∧ nul ∈ q := by
  unfold parseFloat
  obtain ⟨n, h1, h2, h3, -⟩ := strspn_nul (set := blanks) (by decide) p hn
  rw [h1, ok_bind, adv_ok (le_of_lt h2), ok_bind]
  obtain ⟨e, g1, g2, g3, -⟩ := strcspn_nul (set := blanksCr) (p.drop n) h3
  rw [g1, ok_bind]
  have hs1 := hs.suffix (drop_suffix p n)
  have : ∃ x : Option T, tryParseDouble (p.drop n) e = .ok x := by
    unfold tryParseDouble
    by_cases h0 : e = 0
    · rw [if_pos h0]; exact ⟨_, rfl⟩
    rw [if_neg h0]
    obtain ⟨c, q, hq⟩ : ∃ c q, p.drop n = c :: q := by
      cases h : p.drop n with
      | nil => rw [h] at g2; simp at g2
      | cons c q => exact ⟨c, q, rfl⟩
    rw [hq] at g2 hs1 ⊢
    rw [getIdx_zero, ok_bind]
    by_cases hc : c = '+' ∨ c = '-'
    · rw [if_pos hc]
      exact numberPart_nul _ (by simp at g2 ⊢; omega) (hs1.suffix (List.suffix_cons _ _))
    · rw [if_neg hc]
      by_cases hd : isDigit c = true
      · rw [if_pos hd]
        exact numberPart_nul _ g2 hs1
      · rw [if_neg hd]; exact ⟨_, rfl⟩
  obtain ⟨x, hx⟩ := this
  rw [hx, ok_bind, adv_ok (le_of_lt g2), ok_bind]
  exact ⟨_, _, rfl, (drop_suffix _ e).trans (drop_suffix p n), g3⟩

theorem scanName_nul {q : List Char} (h : HasName q) (hn : nul ∉ q) : ∃ n, scanName (q ++ [nul]) = .ok n := by
  obtain ⟨a, n, b, rfl, ha, hne, hlen, hn1, hb⟩ := h
  obtain ⟨c, n, rfl⟩ : ∃ c n', n = c :: n' := by
    cases n with
    | nil => exact absurd rfl hne
    | cons c n => exact ⟨c, n, rfl⟩
  have h1 : skipSpace (a ++ ((c :: n) ++ b) ++ [nul]) = .ok ((c :: n) ++ (b ++ [nul])) := by
    clear hn
    induction a with
    | nil => simp only [List.nil_append, List.cons_append, List.append_assoc, skipSpace, hn1 c (by simp)]; rfl
    | cons x a ih =>
      simp only [List.cons_append, skipSpace, ha x (by simp), if_true]
      exact ih fun c h => ha c (by simp [h])
  have h2 : ((c :: n) ++ (b ++ [nul])).takeWhile (fun c => !isCSpace c && c != nul) = c :: n := by
    rw [List.takeWhile_append_of_pos]
    · have : (b ++ [nul]).takeWhile (fun c => !isCSpace c && c != nul) = [] := by
        cases b with
        | nil => rfl
        | cons x b =>
          have hx := hb x rfl
          simp [hx]
      rw [this, List.append_nil]
    · intro x hx
      have h3 := hn1 x hx
      have : x ≠ nul := by
        rintro rfl
        exact hn (by simp only [List.mem_append]; exact Or.inr (Or.inl hx))
      simp [h3, this]
  unfold scanName
  rw [h1, ok_bind]
  simp only
  rw [h2, if_neg]
  · exact ⟨_, rfl⟩
  · rintro (h | h)
    · simp at h
    · omega

/-! ### The export -/

theorem ab_getIdx {α : Type} {l : List α} {i : Nat} (h : i < l.length) : Sat (getIdx l i) (fun a => l[i]? = some a) Ab := by
  rw [getIdx_eq h]
  exact List.getElem?_eq_getElem h

theorem ab_inInt {v : Int} (h1 : -2147483648 ≤ v) (h2 : v ≤ 2147483647) : Sat (inInt v) (fun a => a = v) Ab := by
  rw [inInt_ok h1 h2]; rfl

theorem ab_assert (p : Prop) [Decidable p] : Sat (assert p) (fun _ => p) Ab := by
  unfold NS.assert
  split_ifs with h
  · exact h
  · exact rfl

/-- the lists of numbers are not too long -/
def Lists (v vn vt : List T) : Prop := v.length ≤ 300000000 ∧ vn.length ≤ 300000000 ∧ vt.length ≤ 200000000

theorem toUnsigned_neg {a : Int} (h0 : a < 0) (h1 : -1000000000 ≤ a) : toUnsigned a = (a + 4294967296).toNat := by
  unfold toUnsigned
  have h : a % 4294967296 = (a + 4294967296) % 4294967296 := by rw [Int.add_emod_right]
  rw [h, Int.emod_eq_of_lt (by omega) (by omega)]

theorem ab_updateVertex {v vn vt : List T} (hl : Lists v vn vt) (st : List (VIdx × Nat) × ShapeS T) {i : VIdx} (hi : VOk i) :
    Sat (updateVertex v vn vt st i) (fun _ => True) Ab := by
  obtain ⟨⟨a1, a2⟩, ⟨b1, b2⟩, ⟨c1, c2⟩⟩ := hi
  obtain ⟨l1, l2, l3⟩ := hl
  unfold updateVertex
  split
  · trivial
  · refine Sat.bind (ab_inInt (by omega) (by omega)) fun a ha => ?_
    subst ha
    refine Sat.bind (ab_inInt (by omega) (by omega)) fun a ha => ?_
    subst ha
    refine Sat.bind (ab_assert _) fun _ hass => sat_ite (fun hneg => ?_) fun hneg => ?_
    · exfalso
      rw [toUnsigned_neg (by omega) (by omega)] at hass
      omega
    · rw [toUnsigned_ok (by omega) (by omega)] at hass
      refine Sat.bind (ab_getIdx (by omega)) fun x _ => Sat.bind (ab_getIdx (by omega)) fun y _ => Sat.bind (ab_getIdx (by omega)) fun z _ => ?_
      refine Sat.bind (P := fun _ => True) ?_ fun nor _ => Sat.bind (P := fun _ => True) ?_ fun tex _ => trivial
      · refine sat_ite (fun _ => ?_) fun _ => trivial
        refine Sat.bind (ab_inInt (by omega) (by omega)) fun a ha => ?_
        subst ha
        refine Sat.bind (ab_inInt (by omega) (by omega)) fun a ha => ?_
        subst ha
        refine sat_ite (fun hlt => ?_) fun _ => trivial
        exact Sat.bind (ab_getIdx (by omega)) fun x _ => Sat.bind (ab_getIdx (by omega)) fun y _ => Sat.bind (ab_getIdx (by omega)) fun z _ => trivial
      · refine sat_ite (fun _ => ?_) fun _ => trivial
        refine Sat.bind (ab_inInt (by omega) (by omega)) fun a ha => ?_
        subst ha
        refine Sat.bind (ab_inInt (by omega) (by omega)) fun a ha => ?_
        subst ha
        refine sat_ite (fun hlt => ?_) fun _ => trivial
        exact Sat.bind (ab_getIdx (by omega)) fun x _ => Sat.bind (ab_getIdx (by omega)) fun y _ => trivial

/-- a face is exported safely -/
def FaceOk (f : List VIdx) : Prop := 2 ≤ f.length ∧ ∀ i ∈ f, VOk i

theorem ab_exportFace {v vn vt : List T} (hl : Lists v vn vt) {face : List VIdx} (hf : FaceOk face) (st : List (VIdx × Nat) × ShapeS T) :
    Sat (exportFace v vn vt face st) (fun _ => True) Ab := by
  unfold exportFace
  have h2 := hf.1
  have hmem : ∀ {j : Nat} {a : VIdx}, face[j]? = some a → VOk a := fun h => hf.2 _ (List.mem_of_getElem? h)
  refine Sat.bind (ab_getIdx (by omega)) fun i0 h0 => Sat.bind (ab_getIdx (by omega)) fun i1 h1 => Sat.bind (P := fun _ => True) ?_ fun r _ => trivial
  refine (sat_forRange (fun _ (s : (List (VIdx × Nat) × ShapeS T) × VIdx) => VOk s.2) h2 (hmem h1) fun k s hk1 hk2 hs => ?_).mono (fun _ _ => trivial) fun _ h => h
  exact Sat.bind (ab_getIdx hk2) fun i2 hi2 => Sat.bind (ab_updateVertex hl _ (hmem h0)) fun a _ => Sat.bind (ab_updateVertex hl _ hs) fun a _ =>
    Sat.bind (ab_updateVertex hl _ (hmem hi2)) fun a _ => hmem hi2

/-- the local variables of the parser after at most `N` lines -/
structure SafeSt (N : Nat) (s : St T) : Prop where
  v : s.v.length ≤ 3 * N
  vn : s.vn.length ≤ 3 * N
  vt : s.vt.length ≤ 2 * N
  group : ∀ f ∈ s.group, FaceOk f

theorem SafeSt.mono {N M : Nat} {s : St T} (h : SafeSt N s) (hN : N ≤ M) : SafeSt M s :=
  ⟨by have := h.v; omega, by have := h.vn; omega, by have := h.vt; omega, h.group⟩

theorem ab_flush {N : Nat} (hN : N ≤ 100000000) (push : Bool) {s : St T} (h : SafeSt N s) : Sat (flush push s) (SafeSt N) Ab := by
  unfold flush
  refine sat_ite (fun _ => h) fun _ => Sat.bind (P := fun _ => True) ?_ fun sh _ => ⟨h.v, h.vn, h.vt, h.group⟩
  unfold exportGroup
  refine Sat.bind (P := fun _ => True) ?_ fun r _ => trivial
  refine sat_forList (fun _ _ => True) _ trivial fun pre a suf st hpre _ => ab_exportFace ⟨?_, ?_, ?_⟩ (h.group a (by rw [hpre]; simp)) _
  · have := h.v; omega
  · have := h.vn; omega
  · have := h.vt; omega

/-! ### Lines -/

theorem isLetter_cons (a c : Char) (q : List Char) (h : nul ∈ c :: q) (ha : a ≠ nul) :
    isLetter a (c :: q) = .ok false ∨ ∃ s q', c = a ∧ q = s :: q' ∧ s ∈ blanks ∧ isLetter a (c :: q) = .ok true := by
  by_cases hc : c = a
  · subst hc
    have : nul ∈ q := by
      rw [List.mem_cons] at h
      rcases h with h | h
      · exact absurd h.symm ha
      · exact h
    obtain ⟨s, q', rfl⟩ : ∃ s q', q = s :: q' := by
      cases q with
      | nil => simp at this
      | cons s q' => exact ⟨s, q', rfl⟩
    by_cases hs : s ∈ blanks
    · exact Or.inr ⟨s, q', rfl, rfl, hs, isLetter_yes _ hs⟩
    · exact Or.inl (isLetter_next _ (by rw [← Bool.not_eq_true, blank_iff]; exact hs))
  · exact Or.inl (isLetter_no _ hc)

theorem isVLetter_cons (b c : Char) (q : List Char) (h : nul ∈ c :: q) (hb : b ≠ nul) :
    isVLetter b (c :: q) = .ok false ∨ ∃ s q', c = 'v' ∧ q = b :: s :: q' ∧ s ∈ blanks ∧ isVLetter b (c :: q) = .ok true := by
  by_cases hc : c = 'v'
  · subst hc
    have : nul ∈ q := by
      rw [List.mem_cons] at h
      rcases h with h | h
      · exact absurd h (by decide)
      · exact h
    obtain ⟨d, q', rfl⟩ : ∃ s q', q = s :: q' := by
      cases q with
      | nil => simp at this
      | cons s q' => exact ⟨s, q', rfl⟩
    by_cases hd : d = b
    · subst hd
      have : nul ∈ q' := by
        rw [List.mem_cons] at this
        rcases this with h | h
        · exact absurd h.symm hb
        · exact h
      obtain ⟨s, q', rfl⟩ : ∃ s q'', q' = s :: q'' := by
        cases q' with
        | nil => simp at this
        | cons s q' => exact ⟨s, q', rfl⟩
      by_cases hs : s ∈ blanks
      · exact Or.inr ⟨s, q', rfl, rfl, hs, isVLetter_yes _ hs⟩
      · left
        unfold isVLetter
        rw [getIdx_zero, ok_bind, if_pos rfl, show getIdx ('v' :: d :: s :: q') 1 = .ok d from rfl, ok_bind, if_pos rfl,
          show getIdx ('v' :: d :: s :: q') 2 = .ok s from rfl, ok_bind, show isBlank s = false by rw [← Bool.not_eq_true, blank_iff]; exact hs]
        rfl
    · exact Or.inl (isVLetter_no2 _ hd)
  · exact Or.inl (isVLetter_no _ hc)

theorem isCommand_cons (w p : List Char) (h : nul ∈ p) (hw : nul ∉ w) :
    isCommand w p = .ok false ∨ ∃ s q', p = w ++ s :: q' ∧ s ∈ blanks ∧ isCommand w p = .ok true := by
  by_cases hp : p.take w.length = w
  · obtain ⟨q, rfl⟩ : ∃ q, p = w ++ q := ⟨p.drop w.length, by conv_lhs => rw [← List.take_append_drop w.length p, hp]⟩
    have : nul ∈ q := by
      rw [List.mem_append] at h
      rcases h with h | h
      · exact absurd h hw
      · exact h
    obtain ⟨s, q', rfl⟩ : ∃ s q', q = s :: q' := by
      cases q with
      | nil => simp at this
      | cons s q' => exact ⟨s, q', rfl⟩
    by_cases hs : s ∈ blanks
    · exact Or.inr ⟨s, q', rfl, hs, isCommand_yes _ hs⟩
    · left
      unfold isCommand
      rw [if_pos hp, getIdx_of_some (a := s) (by simp), ok_bind, show isBlank s = false by rw [← Bool.not_eq_true, blank_iff]; exact hs]
      rfl
  · left
    unfold isCommand
    rw [if_neg hp]; rfl

theorem strspn_head {set : List Char} {p : List Char} {n : Nat} (hs : nul ∉ set) (hn : nul ∈ p) (h : strspn set p = .ok n) :
    ∀ c, (p.drop n).head? = some c → c ∉ set := by
  obtain ⟨m, h1, h2, h3, h4⟩ := strspn_nul hs p hn
  rw [h] at h1
  cases h1
  exact h4

theorem ab_command {N : Nat} (hN : N < 100000000) (cast : T → T) (readMtl : List Char → MatMap → R MatMap) (hm : ∀ name m, ∃ m', readMtl name m = .ok m') {l b r : List Char} (hl : SafeLine l) (hc : Clean l)
    (hb : IsBlanks b) (hr : l = b ++ r) {s : St T} (h : SafeSt N s) : Sat (command cast readMtl (r ++ [nul]) s) (SafeSt (N + 1)) Ab := by
  have hrn : nul ∉ r := fun hx => hl.nonul (by rw [hr]; simp [hx])
  have hrs : ShortRuns (r ++ [nul]) := (hl.runs.suffix ⟨b, hr.symm⟩).nul
  have h' : SafeSt (N + 1) s := h.mono (by omega)
  obtain ⟨c, q, hcq⟩ : ∃ c q, r ++ [nul] = c :: q := by
    cases r with
    | nil => exact ⟨nul, [], rfl⟩
    | cons c r => exact ⟨c, r ++ [nul], rfl⟩
  have hnp : nul ∈ c :: q := by rw [← hcq]; simp
  have cons_r : ∀ {x : Char} {q' : List Char}, c :: q = x :: q' → x ≠ nul → ∃ r', r = x :: r' ∧ q' = r' ++ [nul] := by
    intro x q' hx hxn
    rw [← hcq] at hx
    cases r with
    | nil => simp at hx; exact absurd hx.1.symm hxn
    | cons y r =>
      simp only [List.cons_append, List.cons.injEq] at hx
      exact ⟨r, by rw [hx.1], hx.2.symm⟩
  rw [hcq] at hrs ⊢
  unfold command
  rw [getIdx_zero, ok_bind]
  refine sat_ite (fun _ => h') fun hc0 => sat_ite (fun _ => h') fun hc1 => ?_
  have adv2 : ∀ (a b : Char) (q : List Char), adv (a :: b :: q) 2 = .ok q := fun a b q => adv_append [a, b] q
  have adv3 : ∀ (a b c : Char) (q : List Char), adv (a :: b :: c :: q) 3 = .ok q := fun a b c q => adv_append [a, b, c] q
  have nul2 : ∀ {a b : Char} {q : List Char}, nul ∈ a :: b :: q → a ≠ nul → b ≠ nul → nul ∈ q := by
    intro a b q h1 h2 h3
    simp only [List.mem_cons] at h1
    rcases h1 with h | h | h
    · exact absurd h.symm h2
    · exact absurd h.symm h3
    · exact h
  have bl : ∀ {s : Char}, s ∈ blanks → s ≠ nul := by
    rintro s hs rfl; revert hs; decide
  -- v
  rcases isLetter_cons 'v' c q hnp (by decide) with e | ⟨s0, q0, rfl, rfl, hs, e⟩
  swap
  · rw [e, ok_bind, if_pos rfl, adv2, ok_bind]
    have hn0 := nul2 hnp (by decide) (bl hs)
    have hs0 : ShortRuns q0 := hrs.suffix ((List.suffix_cons _ _).trans (List.suffix_cons _ _))
    obtain ⟨x, q1, e1, f1, g1⟩ := parseFloat_nul cast hn0 hs0
    obtain ⟨y, q2, e2, f2, g2⟩ := parseFloat_nul cast g1 (hs0.suffix f1)
    obtain ⟨z, q3, e3, -, -⟩ := parseFloat_nul cast g2 ((hs0.suffix f1).suffix f2)
    rw [e1, ok_bind]; dsimp only
    rw [e2, ok_bind]; dsimp only
    rw [e3, ok_bind]
    have := h.v
    exact ⟨by simp; omega, h'.vn, h'.vt, h.group⟩
  rw [e, ok_bind, if_neg (by decide)]
  -- vn
  rcases isVLetter_cons 'n' c q hnp (by decide) with e | ⟨s0, q0, rfl, rfl, hs, e⟩
  swap
  · rw [e, ok_bind, if_pos rfl, adv3, ok_bind]
    have hn0 : nul ∈ q0 := nul2 (a := 'n') (b := s0) (by
      rw [List.mem_cons] at hnp
      rcases hnp with h | h
      · exact absurd h (by decide)
      · exact h) (by decide) (bl hs)
    have hs0 : ShortRuns q0 := hrs.suffix ((List.suffix_cons _ _).trans ((List.suffix_cons _ _).trans (List.suffix_cons _ _)))
    obtain ⟨x, q1, e1, f1, g1⟩ := parseFloat_nul cast hn0 hs0
    obtain ⟨y, q2, e2, f2, g2⟩ := parseFloat_nul cast g1 (hs0.suffix f1)
    obtain ⟨z, q3, e3, -, -⟩ := parseFloat_nul cast g2 ((hs0.suffix f1).suffix f2)
    rw [e1, ok_bind]; dsimp only
    rw [e2, ok_bind]; dsimp only
    rw [e3, ok_bind]
    have := h.vn
    exact ⟨h'.v, by simp; omega, h'.vt, h.group⟩
  rw [e, ok_bind, if_neg (by decide)]
  -- vt
  rcases isVLetter_cons 't' c q hnp (by decide) with e | ⟨s0, q0, rfl, rfl, hs, e⟩
  swap
  · rw [e, ok_bind, if_pos rfl, adv3, ok_bind]
    have hn0 : nul ∈ q0 := nul2 (a := 't') (b := s0) (by
      rw [List.mem_cons] at hnp
      rcases hnp with h | h
      · exact absurd h (by decide)
      · exact h) (by decide) (bl hs)
    have hs0 : ShortRuns q0 := hrs.suffix ((List.suffix_cons _ _).trans ((List.suffix_cons _ _).trans (List.suffix_cons _ _)))
    obtain ⟨x, q1, e1, f1, g1⟩ := parseFloat_nul cast hn0 hs0
    obtain ⟨y, q2, e2, -, -⟩ := parseFloat_nul cast g1 (hs0.suffix f1)
    rw [e1, ok_bind]; dsimp only
    rw [e2, ok_bind]
    have := h.vt
    exact ⟨h'.v, h'.vn, by simp; omega, h.group⟩
  rw [e, ok_bind, if_neg (by decide)]
  -- f
  rcases isLetter_cons 'f' c q hnp (by decide) with e | ⟨s0, q0, rfl, rfl, hs, e⟩
  swap
  · rw [e, ok_bind, if_pos rfl, adv2, ok_bind]
    obtain ⟨r1, rfl, hq1⟩ := cons_r rfl (by decide)
    obtain ⟨r2, rfl, rfl⟩ : ∃ r2, r1 = s0 :: r2 ∧ q0 = r2 ++ [nul] := by
      cases r1 with
      | nil => simp at hq1; exact absurd hq1.1 (bl hs)
      | cons y r =>
        simp only [List.cons_append, List.cons.injEq] at hq1
        exact ⟨r, by rw [hq1.1], hq1.2⟩
    have hc2 : Clean r2 := fun x hx => hc x (by rw [hr]; simp [hx])
    have hs2 : ShortRuns r2 := hl.runs.suffix ⟨b ++ ['f', s0], by rw [hr]; simp⟩
    have htw := hl.face b s0 r2 hb hs hr
    obtain ⟨k, g1, g2, g3, g4⟩ := strspn_nul (set := blanks) (by decide) (r2 ++ [nul]) (by simp)
    rw [g1, ok_bind, adv_ok (le_of_lt g2), ok_bind]
    obtain ⟨r3, hr3, hr3'⟩ := split_nul (l := r2) (u := (r2 ++ [nul]).take k) (q := (r2 ++ [nul]).drop k)
      (fun hx => (hc2 nul hx).1 rfl) (List.take_append_drop k _).symm g3
    have hlat : Later r3 := by
      refine later_trim ((r2 ++ [nul]).take k) r3 (strspn_take _ k g1) (by rw [← hr3']; exact htw) fun x hx => g4 x ?_
      rw [hr3]
      cases r3 with
      | nil => simp at hx
      | cons y r3 => simpa using hx
    have hc3 : Clean r3 := fun x hx => hc2 x (by rw [hr3']; simp [hx])
    have hs3 : ShortRuns r3 := hs2.suffix ⟨_, hr3'.symm⟩
    have l1 := h.v
    have l2 := h.vn
    have l3 := h.vt
    obtain ⟨f, f1, f2, -, f4⟩ := faceLoop_nul (vs := s.v.length / 3) (vns := s.vn.length / 3) (vts := s.vt.length / 2) (by omega) (by omega) (by omega)
      ((r3 ++ [nul]).length + 1) r3 [] (by simp) hc3 hs3
    rw [hr3, f1, ok_bind]
    refine ⟨h'.v, h'.vn, h'.vt, fun g hg => ?_⟩
    simp only [List.nil_append, List.mem_append, List.mem_singleton] at hg
    rcases hg with hg | rfl
    · exact h.group g hg
    · exact ⟨f4 hlat, f2⟩
  rw [e, ok_bind, if_neg (by decide)]
  -- usemtl, mtllib
  have name_of : ∀ (w : List Char) (s0 : Char) (q0 : List Char), nul ∉ w → s0 ∈ blanks → c :: q = w ++ s0 :: q0 →
      ∃ r2, q0 = r2 ++ [nul] ∧ l = b ++ (w ++ s0 :: r2) := by
    intro w s0 q0 hw hs hp
    rw [← hcq] at hp
    obtain ⟨r2, h1, h2⟩ := split_nul (u := w ++ [s0]) (q := q0) hrn (by rw [hp]; simp) (by
      have : nul ∈ w ++ s0 :: q0 := by rw [← hp]; simp
      simp only [List.mem_append, List.mem_cons] at this
      rcases this with h | h | h
      · exact absurd h hw
      · exact absurd h.symm (bl hs)
      · exact h)
    exact ⟨r2, h1, by rw [hr, h2]; simp⟩
  rcases isCommand_cons ['u', 's', 'e', 'm', 't', 'l'] (c :: q) hnp (by decide) with e | ⟨s0, q0, hp, hs, e⟩
  swap
  · obtain ⟨r2, rfl, hl2⟩ := name_of _ s0 q0 (by decide) hs hp
    obtain ⟨n, hn⟩ := scanName_nul (hl.usemtl b s0 r2 hb hs hl2) (fun hx => hl.nonul (by rw [hl2]; simp [hx]))
    rw [e, ok_bind, if_pos rfl, hp, show adv (['u', 's', 'e', 'm', 't', 'l'] ++ s0 :: (r2 ++ [nul])) 7 = .ok (r2 ++ [nul]) from
        adv_append ['u', 's', 'e', 'm', 't', 'l', s0] _, ok_bind, hn, ok_bind]
    refine sat_ite (fun _ => ?_) fun _ => h'
    exact Sat.bind (ab_flush (by omega) false h') fun s hs => ⟨hs.v, hs.vn, hs.vt, by simp⟩
  rw [e, ok_bind, if_neg (by decide)]
  rcases isCommand_cons ['m', 't', 'l', 'l', 'i', 'b'] (c :: q) hnp (by decide) with e | ⟨s0, q0, hp, hs, e⟩
  swap
  · obtain ⟨r2, rfl, hl2⟩ := name_of _ s0 q0 (by decide) hs hp
    obtain ⟨n, hn⟩ := scanName_nul (hl.mtllib b s0 r2 hb hs hl2) (fun hx => hl.nonul (by rw [hl2]; simp [hx]))
    rw [e, ok_bind, if_pos rfl, hp, show adv (['m', 't', 'l', 'l', 'i', 'b'] ++ s0 :: (r2 ++ [nul])) 7 = .ok (r2 ++ [nul]) from
        adv_append ['m', 't', 'l', 'l', 'i', 'b', s0] _, ok_bind, hn, ok_bind]
    obtain ⟨m, em⟩ := hm n s.matMap
    rw [em, ok_bind]
    exact ⟨h'.v, h'.vn, h'.vt, h.group⟩
  rw [e, ok_bind, if_neg (by decide)]
  -- g
  rcases isLetter_cons 'g' c q hnp (by decide) with e | ⟨s0, q0, rfl, rfl, hs, e⟩
  swap
  · rw [e, ok_bind, if_pos rfl]
    refine Sat.bind (ab_flush (by omega) true h') fun s hs' => ?_
    obtain ⟨names, e', hnames⟩ := nameLoop_ok (('g' :: s0 :: q0).length + 1) ('g' :: s0 :: q0) [] hnp (by omega)
      (by intro x hx; simp at hx; subst hx; left; decide)
    rw [e', ok_bind]
    exact Sat.bind (ab_assert _) fun _ _ => ⟨hs'.v, hs'.vn, hs'.vt, by simp⟩
  rw [e, ok_bind, if_neg (by decide)]
  -- o
  rcases isLetter_cons 'o' c q hnp (by decide) with e | ⟨s0, q0, rfl, rfl, hs, e⟩
  swap
  · obtain ⟨r2, rfl, hl2⟩ := name_of ['o'] s0 q0 (by decide) hs rfl
    obtain ⟨n, hn⟩ := scanName_nul (hl.object b s0 r2 hb hs hl2) (fun hx => hl.nonul (by rw [hl2]; simp [hx]))
    rw [e, ok_bind, if_pos rfl]
    refine Sat.bind (ab_flush (by omega) true h') fun s hs' => ?_
    rw [adv2, ok_bind, hn, ok_bind]
    exact ⟨hs'.v, hs'.vn, hs'.vt, by simp⟩
  rw [e, ok_bind, if_neg (by decide)]
  -- t
  rcases isLetter_cons 't' c q hnp (by decide) with e | ⟨s0, q0, rfl, rfl, hs, e⟩
  swap
  · obtain ⟨r2, rfl, hl2⟩ := name_of ['t'] s0 q0 (by decide) hs rfl
    exact absurd hl2 (hl.tag b s0 r2 hb hs)
  rw [e, ok_bind, if_neg (by decide)]
  exact h'

theorem ab_processLine {N : Nat} (hN : N < 100000000) (cast : T → T) (readMtl : List Char → MatMap → R MatMap) (hm : ∀ name m, ∃ m', readMtl name m = .ok m') {l : List Char} (hl : SafeLine l)
    (hnl : ∀ c ∈ l, c ≠ '\n' ∧ c ≠ '\r') {s : St T} (h : SafeSt N s) : Sat (processLine cast readMtl l s) (SafeSt (N + 1)) Ab := by
  have hc : Clean l := fun c hc => ⟨fun hx => hl.nonul (hx ▸ hc), hnl c hc⟩
  unfold processLine
  rw [trimLine_eq hnl]
  refine sat_ite (fun _ => h.mono (by omega)) fun hne => ?_
  obtain ⟨k, g1, g2, g3, g4⟩ := strspn_nul (set := blanks) (by decide) (l ++ [nul]) (by simp)
  obtain ⟨r, hr, hr'⟩ := split_nul (l := l) (u := (l ++ [nul]).take k) (q := (l ++ [nul]).drop k) hl.nonul (List.take_append_drop k _).symm g3
  simp only
  rw [g1, ok_bind, adv_ok (le_of_lt g2), ok_bind, hr]
  exact ab_command hN cast readMtl hm hl hc (strspn_take _ k g1) hr' h

theorem ab_lineLoop (cast : T → T) (readMtl : List Char → MatMap → R MatMap) (hm : ∀ name m, ∃ m', readMtl name m = .ok m') {text : List Char} {ls : List (List Char)} (ht : Lines text ls) :
    (∀ l ∈ ls, SafeLine l) → ∀ (n N : Nat), text.length ≤ n → N + text.length ≤ 100000000 → ∀ {s : St T}, SafeSt N s →
      Sat (lineLoop cast readMtl n text s) (SafeSt 100000000) Ab := by
  have hstep : ∀ {text l r : List Char} {n N : Nat} {s : St T}, text ≠ [] → safeGetline text = (l, r) → SafeLine l → (∀ c ∈ l, c ≠ '\n' ∧ c ≠ '\r') →
      N < 100000000 → SafeSt N s → (∀ {s : St T}, SafeSt (N + 1) s → Sat (lineLoop cast readMtl n r s) (SafeSt 100000000) Ab) →
      Sat (lineLoop cast readMtl (n + 1) text s) (SafeSt 100000000) Ab := by
    intro text l r n N s hne hg hl hnl hN h ih
    rw [lineLoop, if_neg hne, hg]
    exact Sat.bind (ab_processLine hN cast readMtl hm hl hnl h) fun s hs => ih hs
  induction ht with
  | nil =>
    intro _ n N _ hN s h
    cases n <;> exact h.mono (by omega)
  | last l hne hnl =>
    intro hs n N hn hN s h
    have := List.length_pos_iff.2 hne
    obtain ⟨n, rfl⟩ : ∃ k, n = k + 1 := ⟨n - 1, by omega⟩
    refine hstep hne (safeGetline_last hnl) (hs l (by simp)) hnl (by omega) h fun {s} h => ?_
    cases n <;> exact h.mono (by omega)
  | lf l r ls hnl hr ih =>
    intro hs n N hn hN s h
    simp only [List.length_append, List.length_cons] at hn hN
    obtain ⟨n, rfl⟩ : ∃ k, n = k + 1 := ⟨n - 1, by omega⟩
    exact hstep (by simp) (safeGetline_lf hnl r) (hs l (by simp)) hnl (by omega) h fun h => ih (fun l hl => hs l (by simp [hl])) n (N + 1) (by omega) (by omega) h
  | crlf l r ls hnl hr ih =>
    intro hs n N hn hN s h
    simp only [List.length_append, List.length_cons] at hn hN
    obtain ⟨n, rfl⟩ : ∃ k, n = k + 1 := ⟨n - 1, by omega⟩
    exact hstep (by simp) (safeGetline_cr hnl ('\n' :: r)) (hs l (by simp)) hnl (by omega) h fun h => ih (fun l hl => hs l (by simp [hl])) n (N + 1) (by omega) (by omega) h
  | cr l r ls hnl hnr hr ih =>
    intro hs n N hn hN s h
    simp only [List.length_append, List.length_cons] at hn hN
    obtain ⟨n, rfl⟩ : ∃ k, n = k + 1 := ⟨n - 1, by omega⟩
    exact hstep (by simp) (by rw [safeGetline_cr hnl r, if_neg hnr]) (hs l (by simp)) hnl (by omega) h
      fun h => ih (fun l hl => hs l (by simp [hl])) n (N + 1) (by omega) (by omega) h

/-- every text is a sequence of lines -/
theorem lines_exist : ∀ (n : Nat) (text : List Char), text.length ≤ n → ∃ ls, Lines text ls
  | 0, text, h => by
    have h0 : text = [] := List.length_eq_zero_iff.1 (by omega)
    exact ⟨[], by rw [h0]; exact .nil⟩
  | n + 1, text, h => by
    have key : ∀ t : List Char, (∀ c ∈ t, c ≠ '\n' ∧ c ≠ '\r') ∨ ∃ l x r, t = l ++ x :: r ∧ (∀ c ∈ l, c ≠ '\n' ∧ c ≠ '\r') ∧ (x = '\n' ∨ x = '\r') := by
      intro t
      induction t with
      | nil => left; simp
      | cons c t ih =>
        by_cases hc : c = '\n' ∨ c = '\r'
        · exact Or.inr ⟨[], c, t, rfl, by simp, hc⟩
        · rw [not_or] at hc
          rcases ih with ih | ⟨l, x, r, rfl, h1, h2⟩
          · left
            intro d hd
            rw [List.mem_cons] at hd
            rcases hd with rfl | hd
            · exact hc
            · exact ih d hd
          · refine Or.inr ⟨c :: l, x, r, rfl, ?_, h2⟩
            intro d hd
            rw [List.mem_cons] at hd
            rcases hd with rfl | hd
            · exact hc
            · exact h1 d hd
    rcases key text with hk | ⟨l, x, r, rfl, h1, h2⟩
    · by_cases hne : text = []
      · exact ⟨[], by rw [hne]; exact .nil⟩
      · exact ⟨[text], .last text hne hk⟩
    · simp only [List.length_append, List.length_cons] at h
      rcases h2 with rfl | rfl
      · obtain ⟨ls, hls⟩ := lines_exist n r (by omega)
        exact ⟨l :: ls, .lf l r ls h1 hls⟩
      · by_cases hr : r.head? = some '\n'
        · obtain ⟨r', rfl⟩ : ∃ r', r = '\n' :: r' := by
            cases r with
            | nil => simp at hr
            | cons y r' => simp at hr; exact ⟨r', by rw [hr]⟩
          simp only [List.length_cons] at h
          obtain ⟨ls, hls⟩ := lines_exist n r' (by omega)
          exact ⟨l :: ls, .crlf l r' ls h1 hls⟩
        · obtain ⟨ls, hls⟩ := lines_exist n r (by omega)
          exact ⟨l :: ls, .cr l r ls h1 hr hls⟩

/-- **C93** (lines): every text is a sequence of lines. -/
theorem C93_lines (text : List Char) : ∃ ls, Lines text ls := lines_exist text.length text le_rfl

/-- **C93** (safety): a text of at most 10^8 characters whose lines are safe in the sense of `SafeLine` — apart from that anything — is read
without undefined behaviour: the result is a list of shapes, or an assertion about a vertex number fails. -/
theorem C93_safe_partial (cast : T → T) (readMtl : List Char → MatMap → R MatMap) (hm : ∀ name m, ∃ m', readMtl name m = .ok m') {text : List Char} {ls : List (List Char)} (ht : Lines text ls)
    (hs : ∀ l ∈ ls, SafeLine l) (hlen : text.length ≤ 100000000) :
    (∃ shapes : List (ShapeS T), loadObj cast readMtl text = .ok shapes) ∨ loadObj (T := T) cast readMtl text = .error .abort := by
  have h : Sat (loadObj (T := T) cast readMtl text) (fun _ => True) Ab := by
    unfold loadObj
    refine Sat.bind (ab_lineLoop cast readMtl hm ht hs text.length 0 le_rfl (by omega) ⟨by simp [St.init], by simp [St.init], by simp [St.init], by simp [St.init]⟩)
      fun s hs => Sat.bind (ab_flush le_rfl true hs) fun s _ => trivial
  rcases hx : loadObj (T := T) cast readMtl text with e | shapes
  · rw [hx] at h
    exact Or.inr (by rw [show e = .abort from h])
  · exact Or.inl ⟨shapes, rfl⟩

/-- the hypotheses hold for a malformed text: no numbers where numbers are expected, references to nothing -/
example : ∃ ls, Lines "v x ..1e+\nf a/b/c/ //7".toList ls ∧ ∀ l ∈ ls, SafeLine l := by
  have nocmd : ∀ {l b r : List Char} {x y : Char} {l' : List Char}, l = x :: l' → x ∉ blanks → IsBlanks b → l = b ++ y :: r → x = y ∧ l' = r := by
    intro l b r x y l' h1 h2 h3 h4
    cases b with
    | nil =>
      rw [h1] at h4
      simpa using h4
    | cons z b =>
      rw [h1] at h4
      simp only [List.cons_append, List.cons.injEq] at h4
      exact absurd (h3 z (by simp)) (h4.1 ▸ h2)
  have runs : ∀ l : List Char, (∀ u d w, l = u ++ (d ++ w) → (∀ c ∈ d, IsDigit c) → d.length ≤ (l.filter isDigit).length) := by
    intro l u d w h hd
    rw [h, List.filter_append, List.filter_append, List.length_append, List.length_append,
      List.filter_eq_self.2 fun c hc => (isDigit_iff c).2 (hd c hc)]
    omega
  refine ⟨[['v', ' ', 'x', ' ', '.', '.', '1', 'e', '+'], ['f', ' ', 'a', '/', 'b', '/', 'c', '/', ' ', '/', '/', '7']],
    .lf ['v', ' ', 'x', ' ', '.', '.', '1', 'e', '+'] _ _ (by decide) (.last ['f', ' ', 'a', '/', 'b', '/', 'c', '/', ' ', '/', '/', '7'] (by decide) (by decide)), ?_⟩
  intro l hl
  simp only [List.mem_cons, List.not_mem_nil, or_false] at hl
  rcases hl with rfl | rfl
  · refine ⟨by decide, fun u d w h hd => (runs _ u d w h hd).trans (by decide), ?_, ?_, ?_, ?_, ?_⟩
    · intro b s q hb hs h; exact absurd (nocmd rfl (by decide) hb h).1 (by decide)
    · intro b s q hb hs h; exact absurd (nocmd rfl (by decide) hb h).1 (by decide)
    · intro b s q hb hs h; exact absurd (nocmd rfl (by decide) hb h).1 (by decide)
    · intro b s q hb hs h; exact absurd (nocmd rfl (by decide) hb h).1 (by decide)
    · intro b s q hb hs h; exact absurd (nocmd rfl (by decide) hb h).1 (by decide)
  · refine ⟨by decide, fun u d w h hd => (runs _ u d w h hd).trans (by decide), ?_, ?_, ?_, ?_, ?_⟩
    · intro b s q hb hs h; exact absurd (nocmd rfl (by decide) hb h).1 (by decide)
    · intro b s q hb hs h; exact absurd (nocmd rfl (by decide) hb h).1 (by decide)
    · intro b s q hb hs h; exact absurd (nocmd rfl (by decide) hb h).1 (by decide)
    · intro b s q hb hs h; exact absurd (nocmd rfl (by decide) hb h).1 (by decide)
    · intro b s q hb hs h
      have := (nocmd rfl (by decide) hb h).2
      simp only [List.cons.injEq] at this
      rw [← this.2]
      exact ⟨['a', '/', 'b', '/', 'c', '/'], ' ', ['/', '/', '7'], rfl, by decide, ⟨'a', by simp, by decide⟩, '/', by simp, by decide⟩
end NS.Props.Obj

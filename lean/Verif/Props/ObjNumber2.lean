/-
Property theorems C91: what becomes of every word of an OBJ file that is read as a number.
-/
import Verif.Props.ObjNumber
set_option linter.unusedSectionVars false
set_option linter.unusedSimpArgs false

namespace NS.Props.Obj
open NS NS.TinyObj

variable {T : Type} [Field T]

theorem inInt_big {v : Int} (h : 2147483647 < v) : inInt v = .error .ub := if_neg (by omega)

/-- an exponent that is no `int` -/
theorem expLoop_big (ds : List Char) (hd : ∀ c ∈ ds, IsDigit c) (w tail : List Char) (m r : Nat) (hm : m ≤ 2147483647) (hb : 2147483647 < m * 10 ^ ds.length + natVal ds) :
    expLoop (ds.length + w.length) (ds ++ (w ++ tail)) m r = .error .ub := by
  induction ds generalizing m r with
  | nil => simp [natVal] at hb; omega
  | cons c ds ih =>
    have hc : isDigit c = true := (isDigit_iff c).2 (hd c (by simp))
    have e : (c :: ds).length + w.length = (ds.length + w.length) + 1 := by simp; omega
    have hv : m * 10 ^ (c :: ds).length + natVal (c :: ds) = (m * 10 + digit c) * 10 ^ ds.length + natVal ds := by
      simp only [natVal, digit_eq, List.length_cons]; ring
    rw [hv] at hb
    rw [e]
    simp only [List.cons_append, expLoop, getIdx_zero]
    rw [show (Except.ok c : R Char) = pure c from rfl, pure_bind, hc, if_pos rfl]
    by_cases h1 : m * 10 ≤ 2147483647
    · rw [inInt_ok (by omega) (by omega), show (Except.ok ((m : Int) * 10) : R Int) = pure ((m : Int) * 10) from rfl, pure_bind]
      by_cases h2 : m * 10 + digit c ≤ 2147483647
      · rw [inInt_ok (by omega) (by omega), show (Except.ok ((m : Int) * 10 + (digit c : Int)) : R Int) = pure ((m : Int) * 10 + (digit c : Int)) from rfl, pure_bind,
          List.drop_one, List.tail_cons]
        have := ih (fun c h => hd c (by simp [h])) (m * 10 + digit c) (r + 1) h2 hb
        rw [show ((m : Int) * 10 + (digit c : Int)) = ((m * 10 + digit c : Nat) : Int) by push_cast; ring, this]
      · rw [inInt_big (by omega)]
        rfl
    · rw [inInt_big (by omega)]
      rfl

theorem digit_not_sign {c : Char} (h : IsDigit c) : c ≠ '+' ∧ c ≠ '-' := by
  constructor <;> rintro rfl <;> revert h <;> unfold IsDigit <;> decide

theorem exp_big (neg : Bool) (m : T) {e : Char} {s d w : List Char} (tail : List Char) (he : e = 'e' ∨ e = 'E') (hs : IsSign s)
    (hd : d ≠ [] ∧ ∀ c ∈ d, IsDigit c) (hb : 2147483647 < natVal d) :
    expPart neg m (e :: (s ++ (d ++ w))).length (e :: (s ++ (d ++ (w ++ tail)))) = .error .ub := by
  obtain ⟨c, d, rfl⟩ : ∃ c d', d = c :: d' := by cases d with | nil => exact absurd rfl hd.1 | cons c d => exact ⟨c, d, rfl⟩
  have hc : isDigit c = true := (isDigit_iff c).2 (hd.2 c (by simp))
  have hloop := expLoop_big (c :: d) hd.2 w tail 0 0 (by omega) (by simpa using hb)
  have hcs := digit_not_sign (hd.2 c (by simp))
  unfold expPart
  rw [getIdx_zero]
  simp only [ok_bind, if_pos he, List.drop_one, List.tail_cons, List.length_cons, Nat.add_sub_cancel]
  rcases hs with rfl | rfl | rfl
  · simp only [List.nil_append, List.cons_append]
    rw [getIdx_zero]
    simp only [ok_bind]
    rw [if_neg (by rintro ⟨-, h | h⟩; exact hcs.1 h; exact hcs.2 h), if_pos hc]
    rw [show (c :: (d ++ w)).length = (c :: d).length + w.length by simp; omega, show c :: (d ++ (w ++ tail)) = (c :: d) ++ (w ++ tail) by simp]
    erw [hloop]
    rfl
  · simp only [List.cons_append, List.nil_append]
    rw [getIdx_zero]
    simp only [ok_bind]
    rw [if_pos (by simp), List.tail_cons, show ('+' :: (c :: (d ++ w))).length - 1 = (c :: d).length + w.length by simp; omega,
      show c :: (d ++ (w ++ tail)) = (c :: d) ++ (w ++ tail) by simp]
    erw [hloop]
    rfl
  · simp only [List.cons_append, List.nil_append]
    rw [getIdx_zero]
    simp only [ok_bind]
    rw [if_pos (by simp), List.tail_cons, show ('-' :: (c :: (d ++ w))).length - 1 = (c :: d).length + w.length by simp; omega,
      show c :: (d ++ (w ++ tail)) = (c :: d) ++ (w ++ tail) by simp]
    erw [hloop]
    rfl

theorem expLoop_none {w tail : List Char} (hw : NoDigit w) : expLoop w.length (w ++ tail) 0 0 = .ok (0, 0) := by
  cases w with
  | nil => rfl
  | cons c w =>
    have : isDigit c = false := by
      rw [← Bool.not_eq_true, isDigit_iff]; exact hw c rfl
    simp only [List.length_cons, List.cons_append, expLoop, getIdx_zero, ok_bind, this]
    rfl

/-- an exponent without digits -/
theorem exp_none (neg : Bool) (m : T) {e : Char} {s w : List Char} {t : Char} (r : List Char) (he : e = 'e' ∨ e = 'E') (hs : IsSign s)
    (hw : NoDigit w) (hsw : s = [] → ∀ c, w.head? = some c → c ≠ '+' ∧ c ≠ '-') (ht : IsEnd t) :
    expPart neg m (e :: (s ++ w)).length (e :: (s ++ (w ++ t :: r))) = .ok none := by
  have hloop := expLoop_none (tail := t :: r) hw
  have htd : isDigit t = false := by
    rw [← Bool.not_eq_true, isDigit_iff]
    intro h
    have := digit_word h
    rcases ht with rfl | h
    · exact this.1 rfl
    · exact this.2 h
  unfold expPart
  rw [getIdx_zero]
  simp only [ok_bind, if_pos he, List.drop_one, List.tail_cons, List.length_cons, Nat.add_sub_cancel]
  rcases hs with rfl | rfl | rfl
  · simp only [List.nil_append]
    cases w with
    | nil =>
      simp only [List.nil_append, List.length_nil]
      rw [getIdx_zero]
      simp only [ok_bind, htd]
      rfl
    | cons c w =>
      have h1 : isDigit c = false := by
        rw [← Bool.not_eq_true, isDigit_iff]; exact hw c rfl
      obtain ⟨h2, h3⟩ := hsw rfl c rfl
      simp only [List.cons_append]
      rw [getIdx_zero]
      simp only [ok_bind, h1]
      rw [if_neg (by rintro ⟨-, h | h⟩; exact h2 h; exact h3 h)]
      rfl
  · simp only [List.cons_append, List.nil_append]
    rw [getIdx_zero]
    simp only [ok_bind]
    rw [if_pos (by simp), List.tail_cons, List.length_cons, Nat.add_sub_cancel]
    erw [hloop]
    rfl
  · simp only [List.cons_append, List.nil_append]
    rw [getIdx_zero]
    simp only [ok_bind]
    rw [if_pos (by simp), List.tail_cons, List.length_cons, Nat.add_sub_cancel]
    erw [hloop]
    rfl

theorem number_exp [CharZero T] (neg : Bool) {int : List Char} {frac : Option (List Char)} (hint : int ≠ [] ∧ ∀ c ∈ int, IsDigit c)
    (hfrac : ∀ f, frac = some f → ∀ c ∈ f, IsDigit c) {e : Char} (he : e = 'e' ∨ e = 'E') (w tail : List Char) :
    numberPart neg (int ++ (fracText frac ++ e :: w)).length (int ++ (fracText frac ++ e :: (w ++ tail))) =
      expPart neg ((natVal int : T) + fracVal frac) (e :: w).length (e :: (w ++ tail)) := by
  have hr : (0 : Nat) + int.length ≠ 0 := by
    have := List.length_pos_iff.2 hint.1
    omega
  have hnd : NoDigit (e :: w) := by
    intro c hc
    simp only [List.head?_cons, Option.some.injEq] at hc
    subst hc
    rcases he with rfl | rfl <;> unfold IsDigit <;> decide
  have hdot : e ≠ '.' := by rcases he with rfl | rfl <;> decide
  unfold numberPart
  rcases frac with _ | f
  · simp only [fracText, List.nil_append, fracVal, add_zero]
    rw [List.length_append, show int ++ e :: (w ++ tail) = int ++ ((e :: w) ++ tail) by simp, intLoop_ok int hint.2 _ tail hnd]
    simp only [ok_bind]
    rw [if_neg hr, if_neg (by simp)]
    simp only [List.cons_append]
    rw [getIdx_zero]
    simp only [ok_bind, zero_mul, zero_add]
    rw [if_neg hdot, if_pos he]
  · have hf := hfrac f rfl
    have ddig : ¬ IsDigit '.' := by unfold IsDigit; decide
    simp only [fracText, List.cons_append, fracVal]
    rw [List.length_append, show int ++ '.' :: (f ++ e :: (w ++ tail)) = int ++ (('.' :: (f ++ e :: w)) ++ tail) by simp,
      intLoop_ok int hint.2 _ tail (by intro c hc; simp at hc; subst hc; exact ddig)]
    simp only [ok_bind]
    rw [if_neg hr, if_neg (by simp)]
    simp only [List.cons_append, zero_mul, zero_add]
    rw [getIdx_zero]
    simp only [ok_bind, if_true]
    rw [List.drop_one, List.tail_cons, show ('.' :: (f ++ e :: w)).length - 1 = f.length + (e :: w).length by simp,
      show (f ++ e :: w) ++ tail = f ++ ((e :: w) ++ tail) by simp, fracLoop_ok f hf _ tail hnd _ 0]
    simp only [ok_bind, zero_add]
    rw [if_neg (by simp)]
    rfl

theorem try_number {s : List Char} (hs : IsSign s) {c : Char} (hc : IsDigit c) (p q : List Char) :
    tryParseDouble (T := T) (s ++ c :: p) (s ++ c :: q).length = numberPart (decide (s = ['-'])) (c :: q).length (c :: p) := by
  obtain ⟨h1, h2⟩ := digit_not_sign hc
  unfold tryParseDouble
  rcases hs with rfl | rfl | rfl
  · simp only [List.nil_append]
    rw [if_neg (by simp), getIdx_zero]
    simp only [ok_bind]
    rw [if_neg (by rintro (h | h); exact h1 h; exact h2 h), if_pos ((isDigit_iff c).2 hc)]
    rfl
  · simp only [List.cons_append, List.nil_append]
    rw [if_neg (by simp), getIdx_zero]
    simp only [ok_bind]
    rw [if_pos (Or.inl trivial), List.drop_one, List.tail_cons, List.length_cons, Nat.add_sub_cancel]
    rfl
  · simp only [List.cons_append, List.nil_append]
    rw [if_neg (by simp), getIdx_zero]
    simp only [ok_bind]
    rw [if_pos (Or.inr trivial), List.drop_one, List.tail_cons, List.length_cons, Nat.add_sub_cancel]

theorem parseFloat_error (cast : T → T) {b w : List Char} {t : Char} {r : List Char} (hb : IsBlanks b) (hw : IsWord w) (hne : w ≠ []) (ht : IsEnd t)
    {x : Err} (h : tryParseDouble (T := T) (w ++ t :: r) w.length = .error x) : parseFloat cast (b ++ (w ++ t :: r)) = .error x := by
  obtain ⟨c, w', rfl⟩ : ∃ c w', w = c :: w' := by
    cases w with
    | nil => exact absurd rfl hne
    | cons c w => exact ⟨c, w, rfl⟩
  have hc : c ∉ blanks := by
    intro hx
    refine (hw c (by simp)).2 ?_
    unfold blanks at hx
    unfold blanksCr
    simp only [List.mem_cons, List.not_mem_nil, or_false] at hx ⊢
    tauto
  unfold parseFloat
  rw [List.cons_append, strspn_ok b hb hc]
  simp only [ok_bind]
  rw [adv_append]
  simp only [ok_bind]
  rw [← List.cons_append, strcspn_ok (c :: w') hw ht]
  simp only [ok_bind]
  rw [h]
  rfl

/-- what a word is read as: a number with anything behind it that does not continue it; a number with an exponent that is no `int` (`none`); a number with an
exponent that has no digits, and a word that does not begin with a digit behind an optional sign (zero) -/
inductive WordReads : List Char → Option T → Prop
  | number (n : Num) (rest : List Char) : n.Valid → n.Small → Stops n rest → WordReads (n.text ++ rest) (some n.value)
  | overflow (n : Num) (rest : List Char) : n.Valid → ¬ n.Small → Stops n rest → WordReads (n.text ++ rest) none
  | broken (n : Num) (e : Char) (s rest : List Char) : n.Valid → n.exp = none → e = 'e' ∨ e = 'E' → IsSign s → NoDigit rest →
      (s = [] → ∀ c, rest.head? = some c → c ≠ '+' ∧ c ≠ '-') → WordReads (n.text ++ e :: (s ++ rest)) (some 0)
  | other (s v : List Char) : IsSign s → NoDigit v → (s = [] → ∀ c, v.head? = some c → c ≠ '+' ∧ c ≠ '-') → WordReads (s ++ v) (some 0)

theorem split_digits (w : List Char) : ∃ d v, w = d ++ v ∧ (∀ c ∈ d, IsDigit c) ∧ NoDigit v := by
  induction w with
  | nil => exact ⟨[], [], rfl, by simp, fun c hc => by simp at hc⟩
  | cons c w ih =>
    by_cases hc : IsDigit c
    · obtain ⟨d, v, rfl, h1, h2⟩ := ih
      refine ⟨c :: d, v, rfl, fun x hx => ?_, h2⟩
      rcases List.mem_cons.1 hx with rfl | hx
      · exact hc
      · exact h1 x hx
    · refine ⟨[], c :: w, rfl, by simp, fun x hx => ?_⟩
      simp only [List.head?_cons, Option.some.injEq] at hx
      exact hx ▸ hc

theorem split_sign (w : List Char) : ∃ s v, w = s ++ v ∧ IsSign s ∧ (s = [] → ∀ c, v.head? = some c → c ≠ '+' ∧ c ≠ '-') := by
  rcases w with _ | ⟨c, w⟩
  · exact ⟨[], [], rfl, .inl rfl, fun _ c hc => by simp at hc⟩
  · by_cases h1 : c = '+'
    · exact ⟨['+'], w, by rw [h1]; rfl, .inr (.inl rfl), fun h => by simp at h⟩
    · by_cases h2 : c = '-'
      · exact ⟨['-'], w, by rw [h2]; rfl, .inr (.inr rfl), fun h => by simp at h⟩
      · refine ⟨[], c :: w, rfl, .inl rfl, fun _ x hx => ?_⟩
        simp only [List.head?_cons, Option.some.injEq] at hx
        exact hx ▸ ⟨h1, h2⟩

/-- C91: every word has one of the four forms -/
theorem C91_every (w : List Char) : ∃ v : Option T, WordReads w v := by
  obtain ⟨s, v, rfl, hs, hs'⟩ := split_sign w
  obtain ⟨d, v, rfl, hd, hv⟩ := split_digits v
  by_cases hd0 : d = []
  · subst hd0
    exact ⟨_, .other s _ hs hv hs'⟩
  have key : ∀ (f : Option (List Char)) (v : List Char), (∀ x, f = some x → ∀ c ∈ x, IsDigit c) → NoDigit v → (f = none → ∀ c, v.head? = some c → c ≠ '.') →
      ∃ o : Option T, WordReads (s ++ (d ++ (fracText f ++ v))) o := by
    intro f v hf hv hdot
    have hval : (⟨s, d, f, none⟩ : Num).Valid := ⟨hs, ⟨hd0, hd⟩, hf, fun e s' d' h => by simp at h⟩
    by_cases he : ∃ e x, v = e :: x ∧ (e = 'e' ∨ e = 'E')
    · obtain ⟨e, x, rfl, he⟩ := he
      obtain ⟨s', y, rfl, h1, h2⟩ := split_sign x
      obtain ⟨d', z, rfl, h3, h4⟩ := split_digits y
      by_cases hd' : d' = []
      · subst hd'
        refine ⟨some 0, ?_⟩
        have := WordReads.broken (T := T) ⟨s, d, f, none⟩ e s' z hval rfl he h1 h4 h2
        simpa only [Num.text, expText, List.append_nil, List.append_assoc, List.nil_append] using this
      · have hval' : (⟨s, d, f, some (e, s', d')⟩ : Num).Valid := ⟨hs, ⟨hd0, hd⟩, hf, fun a b c h => by cases h; exact ⟨he, h1, hd', h3⟩⟩
        have hst : Stops ⟨s, d, f, some (e, s', d')⟩ z := fun c hc => ⟨h4 c hc, fun h => by simp at h, fun h => by simp at h⟩
        by_cases hsm : (⟨s, d, f, some (e, s', d')⟩ : Num).Small
        · refine ⟨some (Num.value ⟨s, d, f, some (e, s', d')⟩), ?_⟩
          have := WordReads.number (T := T) _ z hval' hsm hst
          simpa only [Num.text, expText, List.append_assoc, List.cons_append] using this
        · refine ⟨none, ?_⟩
          have := WordReads.overflow (T := T) _ z hval' hsm hst
          simpa only [Num.text, expText, List.append_assoc, List.cons_append] using this
    · refine ⟨some (Num.value ⟨s, d, f, none⟩), ?_⟩
      · have := WordReads.number (T := T) ⟨s, d, f, none⟩ v hval (fun e s' d' h => by simp at h) fun c hc => ⟨hv c hc, fun _ => ?_, fun _ h => hdot h c hc⟩
        · simpa only [Num.text, expText, List.append_assoc, List.nil_append] using this
        · rcases v with _ | ⟨a, v⟩
          · simp at hc
          · simp only [List.head?_cons, Option.some.injEq] at hc
            subst hc
            refine ⟨fun h => he ⟨_, _, rfl, .inl h⟩, fun h => he ⟨_, _, rfl, .inr h⟩⟩
  by_cases hp : ∃ x, v = '.' :: x
  · obtain ⟨x, rfl⟩ := hp
    obtain ⟨f, y, rfl, h1, h2⟩ := split_digits x
    have := key (some f) y (fun x hx => by cases hx; exact h1) h2 (fun h => by simp at h)
    simpa only [fracText, List.cons_append] using this
  · have := key none v (fun x hx => by simp at hx) hv (fun _ c hc hdot => ?_)
    · simpa only [fracText, List.nil_append] using this
    · rcases v with _ | ⟨a, v⟩
      · simp at hc
      · simp only [List.head?_cons, Option.some.injEq] at hc
        exact hp ⟨v, by rw [hc, hdot]⟩

theorem numText_eq {n : Num} (h : n.exp = none) (x : List Char) : n.text ++ x = n.sign ++ (n.int ++ (fracText n.frac ++ x)) := by
  unfold Num.text
  rw [h]
  simp only [expText, List.append_nil, List.append_assoc]

/-- a number with an exponent behind it, up to the exponent -/
theorem try_exp [CharZero T] {n : Num} (hs : IsSign n.sign) (hint : n.int ≠ [] ∧ ∀ c ∈ n.int, IsDigit c) (hf : ∀ f, n.frac = some f → ∀ c ∈ f, IsDigit c)
    {e : Char} (he : e = 'e' ∨ e = 'E') (w tail : List Char) :
    tryParseDouble (T := T) (n.sign ++ (n.int ++ (fracText n.frac ++ e :: (w ++ tail)))) (n.sign ++ (n.int ++ (fracText n.frac ++ e :: w))).length =
      expPart (decide (n.sign = ['-'])) ((natVal n.int : T) + fracVal n.frac) (e :: w).length (e :: (w ++ tail)) := by
  rw [← number_exp _ hint hf he]
  obtain ⟨c, i, hci⟩ : ∃ c i, n.int = c :: i := by
    rcases h : n.int with _ | ⟨c, i⟩
    · exact absurd h hint.1
    · exact ⟨c, i, rfl⟩
  rw [hci]
  simp only [List.cons_append]
  exact try_number hs (hint.2 c (by rw [hci]; simp)) _ _

theorem isWord_append {a b : List Char} (h : IsWord (a ++ b)) : IsWord b := fun c hc => h c (List.mem_append_right _ hc)

/-- C91: what the field of a line with any word gives, and that reading goes on behind the word; an exponent that is no `int` is undefined behaviour -/
theorem C91_reads [CharZero T] (cast : T → T) {b : List Char} (hb : IsBlanks b) {w : List Char} (hw : IsWord w) (hne : w ≠ []) {v : Option T} (hr : WordReads w v)
    {t : Char} (ht : IsEnd t) (r : List Char) :
    parseFloat cast (b ++ (w ++ t :: r)) = match v with | some x => .ok (cast x, t :: r) | none => .error .ub := by
  cases hr with
  | number n rest hn hsm hst =>
    have := parseFloat_word cast hb hw hne ht (r := r) (by rw [List.append_assoc]; exact C91_number (T := T) hn hsm (t :: r) hst)
    exact this
  | overflow n rest hn hsm hst =>
    obtain ⟨e, s, d, h1, h2⟩ : ∃ e s d, n.exp = some (e, s, d) ∧ 2147483647 < natVal d := by
      unfold Num.Small at hsm
      push Not at hsm
      exact hsm
    obtain ⟨h3, h4, h5⟩ := hn.exp e s d h1
    refine parseFloat_error cast hb hw hne ht ?_
    have e1 : n.text ++ rest = n.sign ++ (n.int ++ (fracText n.frac ++ e :: (s ++ (d ++ rest)))) := by
      unfold Num.text
      rw [h1]
      simp only [expText, List.append_assoc, List.cons_append]
    rw [e1]
    have e2 : n.sign ++ (n.int ++ (fracText n.frac ++ e :: (s ++ (d ++ rest)))) ++ t :: r =
        n.sign ++ (n.int ++ (fracText n.frac ++ e :: ((s ++ (d ++ rest)) ++ t :: r))) := by
      simp only [List.append_assoc, List.cons_append]
    rw [e2, try_exp hn.sign hn.int hn.frac h3]
    have := exp_big (decide (n.sign = ['-'])) ((natVal n.int : T) + fracVal n.frac) (w := rest) (t :: r) h3 h4 h5 h2
    simpa only [List.append_assoc] using this
  | broken n e s rest hn hexp he hs hd hsd =>
    refine parseFloat_word cast hb hw hne ht (o := none) ?_
    have e2 : (n.text ++ e :: (s ++ rest)) ++ t :: r = n.sign ++ (n.int ++ (fracText n.frac ++ e :: ((s ++ rest) ++ t :: r))) := by
      rw [numText_eq hexp]
      simp only [List.append_assoc, List.cons_append]
    rw [e2, numText_eq hexp, try_exp hn.sign hn.int hn.frac he]
    have := exp_none (decide (n.sign = ['-'])) ((natVal n.int : T) + fracVal n.frac) r he hs hd hsd ht
    simpa only [List.append_assoc] using this
  | other s v hs hv hsv =>
    exact C91_garbage cast hb hs (isWord_append hw) hne hv hsv ht r

/-- C91: so what a word is read as is determined by the word -/
theorem C91_unique [CharZero T] {w : List Char} (hw : IsWord w) (hne : w ≠ []) {u v : Option T} (hu : WordReads w u) (hv : WordReads w v) : u = v := by
  have h1 := C91_reads id (b := []) (fun c hc => by simp at hc) hw hne hu (t := nul) (.inl rfl) []
  have h2 := C91_reads id (b := []) (fun c hc => by simp at hc) hw hne hv (t := nul) (.inl rfl) []
  replace h2 := h1.symm.trans h2
  rcases u with _ | u <;> rcases v with _ | v
  · rfl
  · cases h2
  · cases h2
  · exact congrArg some (congrArg Prod.fst (Except.ok.inj h2))

/-- all four forms occur -/
example : WordReads "1.5abc".toList (some (3 / 2 : ℚ)) ∧ WordReads "1e3000000000".toList (none : Option ℚ) ∧ WordReads "1e+x".toList (some (0 : ℚ)) ∧ WordReads "-.5".toList (some (0 : ℚ)) := by
  refine ⟨?_, ?_, ?_, ?_⟩
  · have := WordReads.number (T := ℚ) ⟨[], ['1'], some ['5'], none⟩ "abc".toList ⟨.inl rfl, ⟨by decide, by unfold IsDigit; decide⟩, ?_, fun e s d h => by simp at h⟩
      (fun e s d h => by simp at h) ?_
    · rwa [show ((⟨[], ['1'], some ['5'], none⟩ : Num).value : ℚ) = 3 / 2 by decide +kernel] at this
    · intro f hf; cases hf; unfold IsDigit; decide
    · intro c hc; cases hc; unfold IsDigit; decide
  · refine WordReads.overflow (T := ℚ) ⟨[], ['1'], none, some ('e', [], "3000000000".toList)⟩ [] ⟨.inl rfl, ⟨by decide, by unfold IsDigit; decide⟩, fun f hf => (nomatch hf), ?_⟩ ?_
      fun c hc => (nomatch hc)
    · intro e s d hd; cases hd; exact ⟨.inl rfl, .inl rfl, by decide, by unfold IsDigit; decide⟩
    · intro h
      exact absurd (h 'e' [] "3000000000".toList rfl) (by decide +kernel)
  · refine WordReads.broken (T := ℚ) ⟨[], ['1'], none, none⟩ 'e' ['+'] ['x'] ⟨.inl rfl, ⟨by decide, by unfold IsDigit; decide⟩, fun f hf => by simp at hf, fun e s d h => by simp at h⟩ rfl
      (.inl rfl) (.inr (.inl rfl)) (fun c hc => ?_) fun h => by simp at h
    cases hc; unfold IsDigit; decide
  · refine WordReads.other (T := ℚ) ['-'] ['.', '5'] (.inr (.inr rfl)) (fun c hc => ?_) fun h => by simp at h
    cases hc; unfold IsDigit; decide

end NS.Props.Obj

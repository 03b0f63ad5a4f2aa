/-
Property theorems C91: numbers in OBJ files.
-/
import Verif.TinyObjModel
import Mathlib.Tactic.Ring
import Mathlib.Tactic.FieldSimp
import Mathlib.Tactic.IntervalCases
import Mathlib.Tactic.FinCases
import Mathlib.Algebra.CharZero.Defs

set_option linter.unusedSectionVars false
set_option linter.unusedSimpArgs false

namespace NS.Props.Obj
open NS NS.TinyObj

/-! ### Specification: decimal numbers -/

/-- a decimal digit -/
def IsDigit (c : Char) : Prop := c ∈ ['0', '1', '2', '3', '4', '5', '6', '7', '8', '9']

/-- the number a string of digits denotes -/
def natVal : List Char → Nat
  | [] => 0
  | c :: s => (c.toNat - 48) * 10 ^ s.length + natVal s

/-- a number as it is written: sign, digits, an optional point with digits, an optional exponent with sign and digits -/
structure Num where
  sign : List Char
  int : List Char
  frac : Option (List Char)
  exp : Option (Char × List Char × List Char)

/-- a sign: nothing, `+` or `-` -/
def IsSign (s : List Char) : Prop := s = [] ∨ s = ['+'] ∨ s = ['-']

/-- well-formed: at least one digit before the point and in the exponent; digits after the point may be missing -/
structure Num.Valid (n : Num) : Prop where
  sign : IsSign n.sign
  int : n.int ≠ [] ∧ ∀ c ∈ n.int, IsDigit c
  frac : ∀ f, n.frac = some f → ∀ c ∈ f, IsDigit c
  exp : ∀ e s d, n.exp = some (e, s, d) → (e = 'e' ∨ e = 'E') ∧ IsSign s ∧ d ≠ [] ∧ ∀ c ∈ d, IsDigit c

/-- the characters after the point -/
def fracText : Option (List Char) → List Char
  | none => []
  | some f => '.' :: f

/-- the characters of the exponent -/
def expText : Option (Char × List Char × List Char) → List Char
  | none => []
  | some (e, s, d) => e :: (s ++ d)

/-- the characters of a number -/
def Num.text (n : Num) : List Char := n.sign ++ (n.int ++ (fracText n.frac ++ expText n.exp))

/-- the exponent -/
def expVal : Option (Char × List Char × List Char) → Int
  | none => 0
  | some (_, s, d) => if s = ['-'] then -(natVal d : Int) else natVal d

variable {T : Type} [Field T]

/-- the digits after the point -/
def fracVal : Option (List Char) → T
  | none => 0
  | some f => (natVal f : T) / 10 ^ f.length

/-- the value of a number -/
def Num.value (n : Num) : T :=
  (if n.sign = ['-'] then -1 else 1) * ((natVal n.int : T) + fracVal n.frac) * 10 ^ expVal n.exp

/-! ### Loops -/

theorem isDigit_iff (c : Char) : isDigit c = true ↔ IsDigit c := by
  unfold isDigit IsDigit
  simp only [Bool.and_eq_true, decide_eq_true_eq]
  have e0 : '0'.toNat = 48 := rfl
  have e9 : '9'.toNat = 57 := rfl
  rw [e0, e9]
  constructor
  · rintro ⟨h1, h2⟩
    have hc : c = Char.ofNat c.toNat := (Char.ofNat_toNat c).symm
    rw [hc]
    generalize c.toNat = n at h1 h2
    interval_cases n <;> decide
  · intro h
    fin_cases h <;> decide

theorem natVal_append (s t : List Char) : natVal (s ++ t) = natVal s * 10 ^ t.length + natVal t := by
  induction s with
  | nil => simp [natVal]
  | cons c s ih => simp only [List.cons_append, natVal, ih, List.length_append, pow_add]; ring

theorem digit_eq (c : Char) : digit c = c.toNat - 48 := rfl

/-- the word after the digits does not go on with a digit -/
def NoDigit (w : List Char) : Prop := ∀ c, w.head? = some c → ¬ IsDigit c

theorem getIdx_zero (c : Char) (p : List Char) : getIdx (c :: p) 0 = .ok c := rfl

theorem intLoop_ok (ds : List Char) (hd : ∀ c ∈ ds, IsDigit c) (w tail : List Char) (hw : NoDigit w) (m : T) (r : Nat) :
    intLoop (ds.length + w.length) (ds ++ (w ++ tail)) m r = .ok (m * 10 ^ ds.length + (natVal ds : T), w.length, w ++ tail, r + ds.length) := by
  induction ds generalizing m r with
  | nil =>
    cases w with
    | nil => simp [intLoop, natVal]
    | cons c w =>
      have : isDigit c = false := by
        rw [← Bool.not_eq_true, isDigit_iff]; exact hw c rfl
      simp only [List.length_nil, zero_add, List.length_cons, List.nil_append, List.cons_append, intLoop, getIdx_zero, natVal]
      rw [show (Except.ok c : R Char) = pure c from rfl, pure_bind, this]
      simp
  | cons c ds ih =>
    have hc : isDigit c = true := (isDigit_iff c).2 (hd c (by simp))
    have e : (c :: ds).length + w.length = (ds.length + w.length) + 1 := by simp; omega
    rw [e]
    simp only [List.cons_append, intLoop, getIdx_zero]
    rw [show (Except.ok c : R Char) = pure c from rfl, pure_bind, hc, if_pos rfl, List.drop_one, List.tail_cons, ih (fun c h => hd c (by simp [h]))]
    simp only [natVal, digit_eq, List.length_cons]
    congr 2
    · push_cast; ring
    · congr 2; omega

theorem fracLoop_ok [CharZero T] (ds : List Char) (hd : ∀ c ∈ ds, IsDigit c) (w tail : List Char) (hw : NoDigit w) (m : T) (r : Nat) :
    fracLoop (ds.length + w.length) (ds ++ (w ++ tail)) m (r + 1) = .ok (m + (natVal ds : T) / 10 ^ (r + ds.length), w.length, w ++ tail) := by
  have h10 : (10 : T) ≠ 0 := by norm_num
  induction ds generalizing m r with
  | nil =>
    cases w with
    | nil => simp [fracLoop, natVal]
    | cons c w =>
      have : isDigit c = false := by
        rw [← Bool.not_eq_true, isDigit_iff]; exact hw c rfl
      simp only [List.length_nil, zero_add, List.length_cons, List.nil_append, List.cons_append, fracLoop, getIdx_zero, natVal]
      rw [show (Except.ok c : R Char) = pure c from rfl, pure_bind, this]
      simp
  | cons c ds ih =>
    have hc : isDigit c = true := (isDigit_iff c).2 (hd c (by simp))
    have e : (c :: ds).length + w.length = (ds.length + w.length) + 1 := by simp; omega
    rw [e]
    simp only [List.cons_append, fracLoop, getIdx_zero]
    rw [show (Except.ok c : R Char) = pure c from rfl, pure_bind, hc, if_pos rfl, List.drop_one, List.tail_cons, ih (fun c h => hd c (by simp [h]))]
    simp only [natVal, digit_eq, List.length_cons]
    congr 2
    have e2 : r + (ds.length + 1) = (r + 1) + ds.length := by omega
    rw [e2]
    push_cast
    rw [add_div, ← add_assoc, pow_add 10 (r + 1) ds.length, mul_div_mul_right _ _ (pow_ne_zero _ h10)]
    rw [div_eq_mul_inv ((c.toNat - 48 : Nat) : T)]

theorem inInt_ok {v : Int} (h1 : -2147483648 ≤ v) (h2 : v ≤ 2147483647) : inInt v = .ok v := if_pos ⟨h1, h2⟩

theorem expLoop_ok (ds : List Char) (hd : ∀ c ∈ ds, IsDigit c) (w tail : List Char) (hw : NoDigit w) (m r : Nat)
    (hm : m * 10 ^ ds.length + natVal ds ≤ 2147483647) :
    expLoop (ds.length + w.length) (ds ++ (w ++ tail)) m r = .ok (((m * 10 ^ ds.length + natVal ds : Nat) : Int), r + ds.length) := by
  induction ds generalizing m r with
  | nil =>
    cases w with
    | nil => simp [expLoop, natVal]
    | cons c w =>
      have : isDigit c = false := by
        rw [← Bool.not_eq_true, isDigit_iff]; exact hw c rfl
      simp only [List.length_nil, zero_add, List.length_cons, List.nil_append, List.cons_append, expLoop, getIdx_zero, natVal]
      rw [show (Except.ok c : R Char) = pure c from rfl, pure_bind, this]
      simp
  | cons c ds ih =>
    have hc : isDigit c = true := (isDigit_iff c).2 (hd c (by simp))
    have e : (c :: ds).length + w.length = (ds.length + w.length) + 1 := by simp; omega
    rw [e]
    have hv : m * 10 ^ (c :: ds).length + natVal (c :: ds) = (m * 10 + digit c) * 10 ^ ds.length + natVal ds := by
      simp only [natVal, digit_eq, List.length_cons]; ring
    rw [hv] at hm ⊢
    have hp : 1 ≤ 10 ^ ds.length := Nat.one_le_pow _ _ (by norm_num)
    have hle : m * 10 + digit c ≤ (m * 10 + digit c) * 10 ^ ds.length := Nat.le_mul_of_pos_right _ hp
    simp only [List.cons_append, expLoop, getIdx_zero]
    rw [show (Except.ok c : R Char) = pure c from rfl, pure_bind, hc, if_pos rfl, inInt_ok (by omega) (by omega),
      show (Except.ok ((m : Int) * 10) : R Int) = pure ((m : Int) * 10) from rfl, pure_bind, inInt_ok (by omega) (by omega)]
    rw [show (Except.ok ((m : Int) * 10 + (digit c : Int)) : R Int) = pure ((m : Int) * 10 + (digit c : Int)) from rfl, pure_bind,
      List.drop_one, List.tail_cons]
    have := ih (fun c h => hd c (by simp [h])) (m * 10 + digit c) (r + 1) hm
    rw [show ((m : Int) * 10 + (digit c : Int)) = ((m * 10 + digit c : Nat) : Int) by push_cast; ring, this]
    congr 2
    simp; omega

theorem assemble_eq [CharZero T] (neg : Bool) (m : T) (e : Int) : assemble neg m e = (if neg then -1 else 1) * m * 10 ^ e := by
  unfold assemble
  rw [mul_assoc m, ← mul_zpow, show (5 : T) * 2 = 10 by norm_num]
  ring

/-- what follows a number does not continue it -/
def Stops (n : Num) (w : List Char) : Prop :=
  ∀ c, w.head? = some c → ¬ IsDigit c ∧ (n.exp = none → c ≠ 'e' ∧ c ≠ 'E') ∧ (n.exp = none → n.frac = none → c ≠ '.')

/-- the exponent fits into an `int` -/
def Num.Small (n : Num) : Prop := ∀ e s d, n.exp = some (e, s, d) → natVal d ≤ 2147483647

theorem exp_part [CharZero T] (neg : Bool) (m : T) {e : Char} {s d w : List Char} (tail : List Char) (he : e = 'e' ∨ e = 'E') (hs : IsSign s)
    (hd : d ≠ [] ∧ ∀ c ∈ d, IsDigit c) (hsm : natVal d ≤ 2147483647) (hw : NoDigit w) :
    expPart neg m (e :: (s ++ (d ++ w))).length (e :: (s ++ (d ++ (w ++ tail)))) = .ok (some (assemble neg m (if s = ['-'] then -(natVal d : Int) else natVal d))) := by
  obtain ⟨c, d, rfl⟩ : ∃ c d', d = c :: d' := by cases d with | nil => exact absurd rfl hd.1 | cons c d => exact ⟨c, d, rfl⟩
  have hc : isDigit c = true := (isDigit_iff c).2 (hd.2 c (by simp))
  have hloop := expLoop_ok (c :: d) hd.2 w tail hw 0 0 (by simpa using hsm)
  simp only [zero_mul, zero_add] at hloop
  have hr : (c :: d).length ≠ 0 := by simp
  unfold expPart
  rw [getIdx_zero]
  simp only [ok_bind, if_pos he, List.drop_one, List.tail_cons, List.length_cons, Nat.add_sub_cancel]
  have hcs : c ≠ '+' ∧ c ≠ '-' := by
    have := hd.2 c (by simp)
    constructor <;> rintro rfl <;> revert this <;> unfold IsDigit <;> decide
  rcases hs with rfl | rfl | rfl
  · simp only [List.nil_append, List.cons_append]
    rw [getIdx_zero]
    simp only [ok_bind]
    rw [if_neg (by rintro ⟨-, h | h⟩; exact hcs.1 h; exact hcs.2 h), if_pos hc]
    rw [show (c :: (d ++ w)).length = (c :: d).length + w.length by simp; omega, show c :: (d ++ (w ++ tail)) = (c :: d) ++ (w ++ tail) by simp]
    erw [hloop]
    simp
  · simp only [List.cons_append, List.nil_append]
    rw [getIdx_zero]
    simp only [ok_bind]
    rw [if_pos (by simp), List.tail_cons, show ('+' :: (c :: (d ++ w))).length - 1 = (c :: d).length + w.length by simp; omega,
      show c :: (d ++ (w ++ tail)) = (c :: d) ++ (w ++ tail) by simp]
    erw [hloop]
    simp
  · simp only [List.cons_append, List.nil_append]
    rw [getIdx_zero]
    simp only [ok_bind]
    rw [if_pos (by simp), List.tail_cons, show ('-' :: (c :: (d ++ w))).length - 1 = (c :: d).length + w.length by simp; omega,
      show c :: (d ++ (w ++ tail)) = (c :: d) ++ (w ++ tail) by simp]
    erw [hloop]
    simp

theorem number_part [CharZero T] (neg : Bool) {n : Num} (hn : n.Valid) (hsm : n.Small) {w : List Char} (tail : List Char) (hw : Stops n w) :
    numberPart neg (n.int ++ (fracText n.frac ++ (expText n.exp ++ w))).length (n.int ++ (fracText n.frac ++ (expText n.exp ++ (w ++ tail)))) =
      .ok (some ((if neg then -1 else 1) * ((natVal n.int : T) + fracVal n.frac) * 10 ^ expVal n.exp)) := by
  obtain ⟨sg, int, frac, exp⟩ := n
  have hint : int ≠ [] ∧ ∀ c ∈ int, IsDigit c := hn.int
  have hr : (0 : Nat) + int.length ≠ 0 := by
    have := List.length_pos_iff.2 hint.1
    omega
  have hwd : NoDigit w := fun c hc => (hw c hc).1
  have edig : ¬ IsDigit 'e' := by unfold IsDigit; decide
  have Edig : ¬ IsDigit 'E' := by unfold IsDigit; decide
  have ddig : ¬ IsDigit '.' := by unfold IsDigit; decide
  have hnd : NoDigit (expText exp ++ w) := by
    intro c hc
    rcases exp with _ | ⟨e, s, d⟩
    · exact hwd c hc
    · obtain ⟨he, -⟩ := hn.exp e s d rfl
      simp only [expText, List.cons_append, List.head?_cons, Option.some.injEq] at hc
      subst hc
      rcases he with rfl | rfl
      · exact edig
      · exact Edig
  have hexp : ∀ (m : T) (k : Nat) (p : List Char), k = (expText exp ++ w).length → k ≠ 0 → p = expText exp ++ (w ++ tail) →
      (∀ c, (expText exp ++ w).head? = some c → exp = none → c ≠ 'e' ∧ c ≠ 'E') →
      expPart neg m k p = .ok (some ((if neg then -1 else 1) * m * 10 ^ expVal exp)) := by
    intro m k p hk h0 hp hne
    subst hp hk
    rcases exp with _ | ⟨e, s, d⟩
    · obtain ⟨c, w, rfl⟩ : ∃ c w', w = c :: w' := by cases w with | nil => simp [expText] at h0 | cons c w => exact ⟨c, w, rfl⟩
      have := hne c rfl rfl
      unfold expPart
      simp only [expText, List.nil_append, List.cons_append]
      rw [getIdx_zero]
      simp only [ok_bind]
      rw [if_neg (by rintro (h | h); exact this.1 h; exact this.2 h), assemble_eq]
      rfl
    · obtain ⟨he, hs, hd⟩ := hn.exp e s d rfl
      have := exp_part neg m (w := w) tail he hs hd (hsm e s d rfl) hwd
      simp only [expText, List.cons_append, List.append_assoc]
      rw [this, assemble_eq]
      rfl
  unfold numberPart
  rcases frac with _ | f
  · simp only [fracText, List.nil_append, fracVal, add_zero]
    rw [List.length_append, show int ++ (expText exp ++ (w ++ tail)) = int ++ ((expText exp ++ w) ++ tail) by simp, intLoop_ok int hint.2 _ tail hnd]
    simp only [ok_bind]
    rw [if_neg hr]
    by_cases hk : (expText exp ++ w).length = 0
    · rw [if_pos hk]
      have : exp = none := by
        rcases exp with _ | ⟨e, s, d⟩
        · rfl
        · simp [expText] at hk
      subst this
      rw [assemble_eq]
      simp [expVal]
    · rw [if_neg hk]
      obtain ⟨c, l, hcl⟩ : ∃ c l, expText exp ++ w = c :: l := by
        rcases h : expText exp ++ w with _ | ⟨c, l⟩
        · rw [h] at hk; simp at hk
        · exact ⟨c, l, rfl⟩
      have hc0 : getIdx ((expText exp ++ w) ++ tail) 0 = .ok c := by rw [hcl]; rfl
      rw [hc0]
      simp only [ok_bind, zero_mul, zero_add]
      have hdot : c ≠ '.' := by
        rcases exp with _ | ⟨e, s, d⟩
        · exact (hw c (by simp only [expText, List.nil_append] at hcl; rw [hcl]; rfl)).2.2 rfl rfl
        · obtain ⟨he, -⟩ := hn.exp e s d rfl
          simp only [expText, List.cons_append, List.cons.injEq] at hcl
          rw [← hcl.1]
          rcases he with rfl | rfl <;> decide
      rw [if_neg hdot]
      by_cases hce : c = 'e' ∨ c = 'E'
      · rw [if_pos hce]
        refine hexp _ _ _ rfl hk (by simp) fun c' hc' hx => ?_
        subst hx
        exact (hw c' hc').2.1 rfl
      · rw [if_neg hce]
        have : exp = none := by
          rcases exp with _ | ⟨e, s, d⟩
          · rfl
          · obtain ⟨he, -⟩ := hn.exp e s d rfl
            simp only [expText, List.cons_append, List.cons.injEq] at hcl
            rw [hcl.1] at he
            exact absurd he hce
        subst this
        rw [assemble_eq]
        simp [expVal]
  · have hf := hn.frac f rfl
    simp only [fracText, List.cons_append, fracVal]
    rw [List.length_append, show int ++ '.' :: (f ++ (expText exp ++ (w ++ tail))) = int ++ (('.' :: (f ++ (expText exp ++ w))) ++ tail) by simp,
      intLoop_ok int hint.2 _ tail (by intro c hc; simp at hc; subst hc; exact ddig)]
    simp only [ok_bind]
    rw [if_neg hr, if_neg (by simp)]
    simp only [List.cons_append, zero_mul, zero_add]
    rw [getIdx_zero]
    simp only [ok_bind, if_true]
    rw [List.drop_one, List.tail_cons, show ('.' :: (f ++ (expText exp ++ w))).length - 1 = f.length + (expText exp ++ w).length by simp,
      show (f ++ (expText exp ++ w)) ++ tail = f ++ ((expText exp ++ w) ++ tail) by simp, fracLoop_ok f hf _ tail hnd _ 0]
    simp only [ok_bind, zero_add]
    by_cases hk : (expText exp ++ w).length = 0
    · rw [if_pos hk]
      have : exp = none := by
        rcases exp with _ | ⟨e, s, d⟩
        · rfl
        · simp [expText] at hk
      subst this
      rw [assemble_eq]
      rfl
    · rw [if_neg hk]
      refine hexp _ _ _ rfl hk (by simp) fun c' hc' hx => ?_
      subst hx
      exact (hw c' hc').2.1 rfl

/-- **C91**: for every well-formed number, followed in the word by anything that does not continue it and in the line by anything, the
parser returns exactly its decimal value. -/
theorem C91_number [CharZero T] {n : Num} (hn : n.Valid) (hsm : n.Small) {w : List Char} (tail : List Char) (hw : Stops n w) :
    tryParseDouble (n.text ++ (w ++ tail)) (n.text ++ w).length = .ok (some (n.value : T)) := by
  have key := fun neg => number_part (T := T) neg hn hsm tail hw
  obtain ⟨c, i, hci⟩ : ∃ c i, n.int = c :: i := by
    rcases h : n.int with _ | ⟨c, i⟩
    · exact absurd h hn.int.1
    · exact ⟨c, i, rfl⟩
  have hcd : IsDigit c := hn.int.2 c (by rw [hci]; simp)
  have hcs : c ≠ '+' ∧ c ≠ '-' := by
    constructor <;> rintro rfl <;> revert hcd <;> unfold IsDigit <;> decide
  unfold tryParseDouble Num.text Num.value
  simp only [List.append_assoc]
  rcases hn.sign with h | h | h
  · rw [h]
    simp only [List.nil_append]
    rw [if_neg (by rw [hci]; simp)]
    have h0 : getIdx (n.int ++ (fracText n.frac ++ (expText n.exp ++ (w ++ tail)))) 0 = .ok c := by rw [hci]; rfl
    rw [h0]
    simp only [ok_bind]
    rw [if_neg (by rintro (h | h); exact hcs.1 h; exact hcs.2 h), if_pos ((isDigit_iff c).2 hcd), key false]
    simp
  · rw [h]
    simp only [List.cons_append, List.nil_append]
    rw [if_neg (by simp), getIdx_zero]
    simp only [ok_bind]
    rw [if_pos (Or.inl trivial), List.drop_one, List.tail_cons, List.length_cons, Nat.add_sub_cancel, show decide ('+' = '-') = false by decide, key false]
    simp
  · rw [h]
    simp only [List.cons_append, List.nil_append]
    rw [if_neg (by simp), getIdx_zero]
    simp only [ok_bind]
    rw [if_pos (Or.inr trivial), List.drop_one, List.tail_cons, List.length_cons, Nat.add_sub_cancel, show decide True = true from rfl, key true]
    simp

/-! ### Words of a line -/

theorem strspn_ok {set : List Char} (bl : List Char) (hb : ∀ c ∈ bl, c ∈ set) {c : Char} (hc : c ∉ set) (r : List Char) :
    strspn set (bl ++ c :: r) = .ok bl.length := by
  induction bl with
  | nil => simp only [List.nil_append, strspn, if_neg hc]; rfl
  | cons b bl ih =>
    simp only [List.cons_append, strspn, if_pos (hb b (by simp)), ih fun c h => hb c (by simp [h]), ok_bind]
    rfl

theorem strcspn_ok {set : List Char} (w : List Char) (hw : ∀ c ∈ w, c ≠ nul ∧ c ∉ set) {c : Char} (hc : c = nul ∨ c ∈ set) (r : List Char) :
    strcspn set (w ++ c :: r) = .ok w.length := by
  induction w with
  | nil => simp only [List.nil_append, strcspn, if_pos hc]; rfl
  | cons b w ih =>
    have hb := hw b (by simp)
    simp only [List.cons_append, strcspn, if_neg (not_or.2 ⟨hb.1, hb.2⟩), ih fun c h => hw c (by simp [h]), ok_bind]
    rfl

theorem adv_append (w r : List Char) : adv (w ++ r) w.length = .ok r := by
  unfold adv
  rw [if_pos (by simp), List.drop_left]

/-- a word ends with a blank, a tabulator, a carriage return or the end of the line -/
def IsEnd (c : Char) : Prop := c = nul ∨ c ∈ blanksCr

/-- a word: no blank, no tabulator, no carriage return, no `NUL` -/
def IsWord (w : List Char) : Prop := ∀ c ∈ w, c ≠ nul ∧ c ∉ blanksCr

/-- blanks and tabulators -/
def IsBlanks (b : List Char) : Prop := ∀ c ∈ b, c ∈ blanks

theorem parseFloat_word (cast : T → T) {b w : List Char} {t : Char} {r : List Char} (hb : IsBlanks b) (hw : IsWord w) (hne : w ≠ []) (ht : IsEnd t)
    {o : Option T} (h : tryParseDouble (w ++ t :: r) w.length = .ok o) :
    parseFloat cast (b ++ (w ++ t :: r)) = .ok (cast (o.getD 0), t :: r) := by
  obtain ⟨c, w', rfl⟩ : ∃ c w', w = c :: w' := by
    cases w with
    | nil => exact absurd rfl hne
    | cons c w => exact ⟨c, w, rfl⟩
  have hc : c ∉ blanks := by
    intro hx
    refine (hw c (by simp)).2 ?_
    unfold blanks at hx
    unfold blanksCr
    simp only [List.mem_cons, List.not_mem_nil, or_false] at hx ⊢
    tauto
  unfold parseFloat
  rw [List.cons_append, strspn_ok b hb hc]
  simp only [ok_bind]
  rw [adv_append]
  simp only [ok_bind]
  rw [← List.cons_append, strcspn_ok (c :: w') hw ht]
  simp only [ok_bind]
  rw [h]
  simp only [ok_bind]
  rw [adv_append]
  rfl

theorem digit_word {c : Char} (h : IsDigit c) : c ≠ nul ∧ c ∉ blanksCr := by
  unfold IsDigit at h
  constructor
  · rintro rfl; revert h; decide
  · intro hx
    unfold blanksCr at hx
    simp only [List.mem_cons, List.not_mem_nil, or_false] at hx
    rcases hx with rfl | rfl | rfl <;> revert h <;> decide

theorem Num.isWord {n : Num} (hn : n.Valid) : IsWord n.text := by
  intro c hc
  unfold Num.text at hc
  simp only [List.mem_append] at hc
  have hsg : ∀ s : List Char, IsSign s → c ∈ s → c ≠ nul ∧ c ∉ blanksCr := by
    intro s hs h
    rcases hs with rfl | rfl | rfl
    · simp at h
    · simp at h; subst h; decide
    · simp at h; subst h; decide
  rcases hc with h | h | h | h
  · exact hsg _ hn.sign h
  · exact digit_word (hn.int.2 c h)
  · rcases hf : n.frac with _ | f
    · rw [hf] at h; simp [fracText] at h
    · rw [hf] at h
      simp only [fracText, List.mem_cons] at h
      rcases h with rfl | h
      · decide
      · exact digit_word (hn.frac f hf c h)
  · rcases he : n.exp with _ | ⟨e, s, d⟩
    · rw [he] at h; simp [expText] at h
    · rw [he] at h
      obtain ⟨h1, h2, h3⟩ := hn.exp e s d he
      simp only [expText, List.mem_cons, List.mem_append] at h
      rcases h with rfl | h | h
      · rcases h1 with rfl | rfl <;> decide
      · exact hsg _ h2 h
      · exact digit_word (h3.2 c h)

theorem Num.text_ne {n : Num} (hn : n.Valid) : n.text ≠ [] := by
  intro h
  unfold Num.text at h
  simp only [List.append_eq_nil_iff] at h
  exact hn.int.1 h.2.1

theorem getIdx_app (c : Char) (p q : List Char) : getIdx ((c :: p) ++ q) 0 = .ok c := rfl

theorem intLoop_none (k : Nat) (c : Char) (p : List Char) (hc : ¬ IsDigit c) (m : T) : intLoop (k + 1) (c :: p) m 0 = .ok (m, k + 1, c :: p, 0) := by
  have : isDigit c = false := by
    rw [← Bool.not_eq_true, isDigit_iff]; exact hc
  simp only [intLoop, getIdx_zero, ok_bind, this]
  rfl

/-- **C91**: a field of a line with a well-formed number: leading blanks are skipped, the value is the decimal value (converted to the type
of the result), and reading goes on right after the number. -/
theorem C91_field [CharZero T] (cast : T → T) {b : List Char} (hb : IsBlanks b) {n : Num} (hn : n.Valid) (hsm : n.Small) {t : Char} (ht : IsEnd t)
    (r : List Char) : parseFloat cast (b ++ (n.text ++ t :: r)) = .ok (cast n.value, t :: r) := by
  have h := C91_number (T := T) hn hsm (w := []) (t :: r) (by intro c hc; simp at hc)
  simp only [List.nil_append, List.append_nil] at h
  exact parseFloat_word cast hb (Num.isWord hn) (Num.text_ne hn) ht h

/-- **C91** (what happens otherwise): a word which does not begin with digits, possibly after a sign, is silently read as zero — among
them `.5`. -/
theorem C91_garbage (cast : T → T) {b : List Char} (hb : IsBlanks b) {s w : List Char} (hs : IsSign s) (hw : IsWord w) (hne : s ++ w ≠ [])
    (hnd : ∀ c, w.head? = some c → ¬ IsDigit c) (hsw : s = [] → ∀ c, w.head? = some c → c ≠ '+' ∧ c ≠ '-') {t : Char} (ht : IsEnd t) (r : List Char) :
    parseFloat cast (b ++ ((s ++ w) ++ t :: r)) = .ok (cast 0, t :: r) := by
  have hword : IsWord (s ++ w) := by
    intro c hc
    rw [List.mem_append] at hc
    rcases hc with h | h
    · rcases hs with rfl | rfl | rfl
      · simp at h
      · simp at h; subst h; decide
      · simp at h; subst h; decide
    · exact hw c h
  have hnum : ∀ neg : Bool, numberPart (T := T) neg w.length (w ++ t :: r) = .ok none := by
    intro neg
    unfold numberPart
    rcases w with _ | ⟨c, w⟩
    · simp [intLoop]
    · rw [List.length_cons, List.cons_append, intLoop_none _ _ _ (hnd c rfl)]
      rfl
  have key : tryParseDouble (T := T) ((s ++ w) ++ t :: r) (s ++ w).length = .ok none := by
    unfold tryParseDouble
    rw [if_neg (by simpa using hne)]
    rcases hs with rfl | rfl | rfl
    · obtain ⟨c, w', rfl⟩ : ∃ c w', w = c :: w' := by
        cases w with
        | nil => exact absurd rfl hne
        | cons c w => exact ⟨c, w, rfl⟩
      have hc : isDigit c = false := by
        rw [← Bool.not_eq_true, isDigit_iff]; exact hnd c rfl
      have := hsw rfl c rfl
      simp only [List.nil_append, List.cons_append]
      rw [getIdx_zero]
      simp only [ok_bind]
      rw [if_neg (by rintro (h | h); exact this.1 h; exact this.2 h), hc]
      rfl
    · simp only [List.cons_append, List.nil_append]
      rw [getIdx_zero]
      simp only [ok_bind]
      rw [if_pos (Or.inl trivial), List.drop_one, List.tail_cons, List.length_cons, Nat.add_sub_cancel, hnum]
    · simp only [List.cons_append, List.nil_append]
      rw [getIdx_zero]
      simp only [ok_bind]
      rw [if_pos (Or.inr trivial), List.drop_one, List.tail_cons, List.length_cons, Nat.add_sub_cancel, hnum]
  exact parseFloat_word cast hb hword hne ht key

/-- **C91** (no number at all): at the end of the line a missing number is zero. -/
theorem C91_missing (cast : T → T) {b : List Char} (hb : IsBlanks b) {t : Char} (ht : t = nul ∨ t = '\r') (r : List Char) :
    parseFloat cast (b ++ t :: r) = .ok (cast 0, t :: r) := by
  have h1 : t ∉ blanks := by rcases ht with rfl | rfl <;> decide
  have h2 : t = nul ∨ t ∈ blanksCr := by
    rcases ht with rfl | rfl
    · exact Or.inl rfl
    · exact Or.inr (by decide)
  unfold parseFloat
  rw [strspn_ok b hb h1]
  simp only [ok_bind]
  rw [adv_append]
  simp only [ok_bind]
  rw [show t :: r = [] ++ t :: r from rfl, strcspn_ok [] (by simp) h2]
  simp only [ok_bind]
  rfl

/-! ### Examples -/

/-- `-12.5e+1`: the hypotheses hold and the value is -125 -/
example : (⟨['-'], ['1', '2'], some ['5'], some ('e', ['+'], ['1'])⟩ : Num).Valid ∧ (⟨['-'], ['1', '2'], some ['5'], some ('e', ['+'], ['1'])⟩ : Num).Small ∧
    (⟨['-'], ['1', '2'], some ['5'], some ('e', ['+'], ['1'])⟩ : Num).text = "-12.5e+1".toList ∧
    ((⟨['-'], ['1', '2'], some ['5'], some ('e', ['+'], ['1'])⟩ : Num).value : ℚ) = -125 := by
  refine ⟨⟨Or.inr (Or.inr rfl), ⟨by decide, by unfold IsDigit; decide⟩, ?_, ?_⟩, ?_, by decide +kernel, by decide +kernel⟩
  · intro f hf; cases hf; unfold IsDigit; decide
  · intro e s d hd; cases hd; exact ⟨Or.inl rfl, Or.inr (Or.inl rfl), by decide, by unfold IsDigit; decide⟩
  · intro e s d hd; cases hd; decide

/-- `.5` is read as zero, `5.` as five, a number is cut off at the first character which does not belong to it, an exponent without digits
makes the number zero, and an exponent which is no `int` is undefined behaviour -/
theorem C91_cases : parseFloat (T := ℚ) id " .5\x00".toList = .ok (0, [nul]) ∧ parseFloat (T := ℚ) id "5.\x00".toList = .ok (5, [nul]) ∧
    parseFloat (T := ℚ) id "1.5abc\x00".toList = .ok (3 / 2, [nul]) ∧ parseFloat (T := ℚ) id "1e\x00".toList = .ok (0, [nul]) ∧
    parseFloat (T := ℚ) id "1e3000000000\x00".toList = .error .ub := by decide +kernel
end NS.Props.Obj

/-
C58: which texts the integer extraction of the Triangle loader accepts as numbers, and their values.

Specification: a numeral is a list of digits `d < 10`; its text is the list of the characters with the codes `48 + d`
(`'0'` .. `'9'`) and its value is `Nat.ofDigits 10` of the reversed list.  It may be preceded by one sign.
-/
import Verif.Props.Loader
import Mathlib.Data.Nat.Digits.Defs
import Mathlib.Data.Int.ModEq
import Mathlib.Tactic.IntervalCases
import Mathlib.Tactic.Ring

set_option linter.unusedSectionVars false
set_option linter.unusedSimpArgs false

namespace NS.Props.Loader
open NS NS.Loader

/-- the text of a numeral -/
def numeral (ds : List Nat) : List Char := ds.map fun d => Char.ofNat (48 + d)
/-- the value of a numeral -/
def value (ds : List Nat) : Nat := Nat.ofDigits 10 ds.reverse

/-- a sign -/
inductive Sign
  | none | plus | minus
/-- its text -/
def Sign.text : Sign → List Char
  | .none => []
  | .plus => ['+']
  | .minus => ['-']
/-- is it a minus? -/
def Sign.isMinus : Sign → Bool
  | .minus => true
  | _ => false
/-- the signed value, as an integer -/
def signed (s : Sign) (ds : List Nat) : Int := match s with
  | .minus => -(value ds : Int)
  | _ => value ds

theorem digit_char {d : Nat} (h : d < 10) : isDigit (Char.ofNat (48 + d)) = true ∧ (Char.ofNat (48 + d)).toNat - '0'.toNat = d := by
  interval_cases d <;> decide

/-- C58: the digits are the characters `'0'` .. `'9'` and no others -/
theorem C58_digit (c : Char) : isDigit c = true ↔ ∃ d, d < 10 ∧ c = Char.ofNat (48 + d) := by
  constructor
  · intro h
    simp only [isDigit, Bool.and_eq_true, decide_eq_true_eq] at h
    have h1 : 48 ≤ c.toNat := h.1
    have h2 : c.toNat ≤ 57 := h.2
    refine ⟨c.toNat - 48, by omega, ?_⟩
    rw [show 48 + (c.toNat - 48) = c.toNat by omega, Char.ofNat_toNat]
  · rintro ⟨d, hd, rfl⟩
    exact (digit_char hd).1

theorem numeral_digits {ds : List Nat} (h : ∀ d ∈ ds, d < 10) : ∀ c ∈ numeral ds, isDigit c = true := by
  intro c hc
  obtain ⟨d, hd, rfl⟩ := List.mem_map.1 hc
  exact (digit_char (h d hd)).1

theorem digitsVal_numeral {ds : List Nat} (h : ∀ d ∈ ds, d < 10) : digitsVal (numeral ds) = value ds := by
  unfold digitsVal value
  have key : ∀ (l : List Nat), (∀ d ∈ l, d < 10) → (l.reverse.map fun d => Char.ofNat (48 + d)).foldl (fun n c => n * 10 + (c.toNat - '0'.toNat)) 0 = Nat.ofDigits 10 l := by
    intro l
    induction l with
    | nil => intro _; rfl
    | cons d l ih =>
      intro hl
      rw [List.reverse_cons, List.map_append, List.foldl_append, ih fun d hd => hl d (by simp [hd])]
      simp only [List.map_cons, List.map_nil, List.foldl_cons, List.foldl_nil, Nat.ofDigits_cons]
      rw [(digit_char (hl d (by simp))).2]
      ring
  have := key ds.reverse (fun d hd => h d (by simpa using hd))
  rw [List.reverse_reverse] at this
  exact this

theorem numeral_ne_nil {ds : List Nat} (h : ds ≠ []) : numeral ds ≠ [] := by
  intro hh; exact h (List.map_eq_nil_iff.1 hh)

/-- scanning a sign and a numeral after white space -/
theorem scanInt_numeral {ws : List Char} (hw : ∀ c ∈ ws, isSpace c = true) (s : Sign) {ds : List Nat} (h0 : ds ≠ []) (h : ∀ d ∈ ds, d < 10) {r : List Char}
    (hr : ∀ c ∈ r.head?, isDigit c = false) :
    scanInt (ws ++ (s.text ++ (numeral ds ++ r))) = (s.isMinus, numeral ds, ws.length + (s.text.length + ds.length), decide (r = [])) := by
  have hne := numeral_ne_nil h0
  have hd := numeral_digits h
  obtain ⟨c, cs, hcs⟩ := List.exists_cons_of_ne_nil hne
  have hc : isDigit c = true := hd c (by rw [hcs]; simp)
  have hx : ∀ x ∈ (s.text ++ (numeral ds ++ r)).head?, isSpace x = false := by
    intro x hx
    cases s with
    | none =>
      rw [hcs] at hx
      simp only [Sign.text, List.nil_append, List.cons_append, List.head?_cons, Option.mem_def, Option.some.injEq] at hx
      rw [← hx]; exact (digit_facts hc).1
    | plus =>
      simp only [Sign.text, List.cons_append, List.head?_cons, Option.mem_def, Option.some.injEq] at hx
      rw [← hx]; decide
    | minus =>
      simp only [Sign.text, List.cons_append, List.head?_cons, Option.mem_def, Option.some.injEq] at hx
      rw [← hx]; decide
  have hsg : sign (s.text ++ (numeral ds ++ r)) = (s.isMinus, s.text.length) := by
    cases s with
    | none => rw [hcs]; exact sign_digit hc
    | plus => rfl
    | minus => rfl
  unfold scanInt
  simp only [takeWhile_all hw _ hx, List.drop_left, hsg, takeWhile_all hd r hr]
  have : (numeral ds).length = ds.length := by simp [numeral]
  simp only [List.length_append, this]
  refine Prod.ext rfl (Prod.ext rfl (Prod.ext (by simp; omega) ?_))
  simp only [Nat.add_eq_left, List.length_eq_zero_iff]

theorem token_numeral (s : Sign) {ds : List Nat} (h0 : ds ≠ []) (h : ∀ d ∈ ds, d < 10) : Token (s.text ++ numeral ds) := by
  refine ⟨fun hh => numeral_ne_nil h0 (List.append_eq_nil_iff.1 hh).2, fun c hc => ?_⟩
  rw [List.mem_append] at hc
  rcases hc with hc | hc
  · cases s with
    | none => simp [Sign.text] at hc
    | plus => simp only [Sign.text, List.mem_singleton] at hc; rw [hc]; decide
    | minus => simp only [Sign.text, List.mem_singleton] at hc; rw [hc]; decide
  · have := digit_facts (numeral_digits h c hc)
    exact ⟨this.1, this.2.1⟩

/-- C58: every numeral below 2^64, with or without a sign, is read as an index with its value modulo 2^64 -/
theorem C58_index_number (s : Sign) {ds : List Nat} (h0 : ds ≠ []) (h : ∀ d ∈ ds, d < 10) (hv : value ds < 2 ^ 64) :
    ∃ v : Nat, Means parseU (s.text ++ numeral ds) v ∧ v < 2 ^ 64 ∧ (v : Int) ≡ signed s ds [ZMOD 2 ^ 64] := by
  have key : ∀ r : List Char, (∀ c ∈ r.head?, isDigit c = false) → parseU (s.text ++ (numeral ds ++ r)) =
      ((if s.isMinus then (2 ^ 64 - value ds) % 2 ^ 64 else value ds), if r = [] then none else some (s.text ++ numeral ds).length) := by
    intro r hr
    have := scanInt_numeral (ws := []) (by simp) s h0 h hr
    rw [List.nil_append] at this
    unfold parseU
    rw [this]
    simp only
    rw [if_neg (numeral_ne_nil h0), digitsVal_numeral h, if_neg (by omega)]
    have hl : (numeral ds).length = ds.length := by simp [numeral]
    refine Prod.ext rfl ?_
    by_cases hn : r = []
    · simp [hn]
    · simp [hn, hl]
  refine ⟨if s.isMinus then (2 ^ 64 - value ds) % 2 ^ 64 else value ds, ⟨token_numeral s h0 h, ?_, fun c r hc => ?_⟩, ?_, ?_⟩
  · have := key [] (by simp)
    rw [List.append_nil] at this
    rw [this, if_pos rfl]
  · have := key (c :: r) (by simpa using end_facts hc)
    rw [← List.append_assoc] at this
    rw [this, if_neg (List.cons_ne_nil c r)]
  · cases s with
    | minus => exact Nat.mod_lt _ (by norm_num)
    | none => exact hv
    | plus => exact hv
  · cases s with
    | minus =>
      show (((2 ^ 64 - value ds) % 2 ^ 64 : Nat) : Int) ≡ -(value ds : Int) [ZMOD 2 ^ 64]
      unfold Int.ModEq
      omega
    | none => rfl
    | plus => rfl

/-- C58: every numeral that fits an `int`, with or without a sign, is read as an `int` with its value -/
theorem C58_int_number (s : Sign) {ds : List Nat} (h0 : ds ≠ []) (h : ∀ d ∈ ds, d < 10) (h1 : -2 ^ 31 ≤ signed s ds) (h2 : signed s ds < 2 ^ 31) :
    Means parseI (s.text ++ numeral ds) (signed s ds) := by
  have key : ∀ r : List Char, (∀ c ∈ r.head?, isDigit c = false) → parseI (s.text ++ (numeral ds ++ r)) =
      (signed s ds, if r = [] then none else some (s.text ++ numeral ds).length) := by
    intro r hr
    have := scanInt_numeral (ws := []) (by simp) s h0 h hr
    rw [List.nil_append] at this
    unfold parseI
    rw [this]
    simp only
    rw [if_neg (numeral_ne_nil h0), digitsVal_numeral h]
    have hs : (if s.isMinus = true then -(value ds : Int) else (value ds : Int)) = signed s ds := by
      cases s <;> rfl
    rw [hs, if_neg (by omega), if_neg (by omega)]
    have hl : (numeral ds).length = ds.length := by simp [numeral]
    refine Prod.ext rfl ?_
    by_cases hn : r = []
    · simp [hn]
    · simp [hn, hl]
  refine ⟨token_numeral s h0 h, ?_, fun c r hc => ?_⟩
  · have := key [] (by simp)
    rw [List.append_nil] at this
    rw [this, if_pos rfl]
  · have := key (c :: r) (by simpa using end_facts hc)
    rw [← List.append_assoc] at this
    rw [this, if_neg (List.cons_ne_nil c r)]

/-- C58: a larger numeral gives the largest (or smallest) value of the type, and the extraction fails -/
theorem C58_too_large {ws : List Char} (hw : ∀ c ∈ ws, isSpace c = true) (s : Sign) {ds : List Nat} (h0 : ds ≠ []) (h : ∀ d ∈ ds, d < 10) {r : List Char}
    (hr : ∀ c ∈ r.head?, isDigit c = false) :
    (2 ^ 64 ≤ value ds → parseU (ws ++ (s.text ++ (numeral ds ++ r))) = (2 ^ 64 - 1, none)) ∧
    (2 ^ 31 ≤ signed s ds → parseI (ws ++ (s.text ++ (numeral ds ++ r))) = (2 ^ 31 - 1, none)) ∧
    (signed s ds < -2 ^ 31 → parseI (ws ++ (s.text ++ (numeral ds ++ r))) = (-2 ^ 31, none)) := by
  have hs : (if s.isMinus = true then -(value ds : Int) else (value ds : Int)) = signed s ds := by
    cases s <;> rfl
  have hsc := scanInt_numeral hw s h0 h hr
  refine ⟨fun hv => ?_, fun hv => ?_, fun hv => ?_⟩
  · unfold parseU
    rw [hsc]
    simp only
    rw [if_neg (numeral_ne_nil h0), digitsVal_numeral h, if_pos hv]
  · unfold parseI
    rw [hsc]
    simp only
    rw [if_neg (numeral_ne_nil h0), digitsVal_numeral h, hs, if_neg (by omega), if_pos hv]
  · unfold parseI
    rw [hsc]
    simp only
    rw [if_neg (numeral_ne_nil h0), digitsVal_numeral h, hs, if_pos hv]

/-- C58: where neither a digit nor a sign before a digit follows the white space, the extraction fails with the value 0 -/
theorem C58_no_number {ws r : List Char} (hw : ∀ c ∈ ws, isSpace c = true) (hr : ∀ c ∈ r.head?, isSpace c = false)
    (hn : ∀ (s : Sign) (d : Nat) (r' : List Char), d < 10 → r ≠ s.text ++ Char.ofNat (48 + d) :: r') :
    parseU (ws ++ r) = (0, none) ∧ parseI (ws ++ r) = (0, none) := by
  have hds : (scanInt (ws ++ r)).2.1 = [] := by
    unfold scanInt
    simp only [takeWhile_all hw _ hr, List.drop_left]
    have key : ∀ (s : Sign) (q : List Char), r = s.text ++ q → q.takeWhile isDigit = [] := by
      intro s q hq
      cases q with
      | nil => rfl
      | cons c q =>
        rw [List.takeWhile_cons]
        split
        · next hc =>
          obtain ⟨d, hd, rfl⟩ := (C58_digit c).1 hc
          exact absurd hq (hn s d q hd)
        · rfl
    unfold sign
    split
    · exact key .minus _ rfl
    · exact key .plus _ rfl
    · exact key .none _ rfl
  rcases hx : scanInt (ws ++ r) with ⟨a, b, c, d⟩
  have hb : b = [] := by rw [hx] at hds; exact hds
  unfold parseU parseI
  rw [hx, hb]
  simp

example : Means parseU "+0015".toList 15 ∧ Means parseI "-42".toList (-42) ∧ parseU " x1".toList = (0, none) ∧
    parseI "99999999999 ".toList = (2 ^ 31 - 1, none) := by
  refine ⟨?_, ?_, by decide, by decide⟩
  · have := C58_index_number .plus (ds := [0, 0, 1, 5]) (by simp) (by decide) (by decide)
    obtain ⟨v, h1, h2, h3⟩ := this
    have : v = 15 := by
      have e : signed .plus [0, 0, 1, 5] = 15 := by decide
      rw [e] at h3
      unfold Int.ModEq at h3
      omega
    rw [this] at h1
    exact h1
  · exact C58_int_number .minus (ds := [4, 2]) (by simp) (by decide) (by decide) (by decide)
end NS.Props.Loader

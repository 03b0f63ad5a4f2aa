/-
Property theorems C101: the command line of the program `examples/poisson/fem.cpp`.

Specification of a number on the command line: white space, at most one sign, a numeral (a list of digits `d < 10`, `Props/LoaderNumber.lean`),
and any text that does not begin with a digit.
-/
import Verif.FemMainModel
import Verif.Props.LoaderNumber

set_option linter.unusedSectionVars false
set_option linter.unusedSimpArgs false

namespace NS.Props.FemMain
open NS NS.FemMain NS.Props.Loader

/-- the text begins, after white space, with the decimal number `v` -/
def Typed (t : List Char) (v : Int) : Prop :=
  ∃ (ws : List Char) (s : Sign) (ds : List Nat) (r : List Char), t = ws ++ (s.text ++ (numeral ds ++ r)) ∧ (∀ c ∈ ws, Loader.isSpace c = true) ∧
    ds ≠ [] ∧ (∀ d ∈ ds, d < 10) ∧ (∀ d r', d < 10 → r ≠ Char.ofNat (48 + d) :: r') ∧ v = signed s ds

/-- it is a number that fits into a `long` -/
def IsLong (t : List Char) (v : Int) : Prop := Typed t v ∧ -2 ^ 63 ≤ v ∧ v < 2 ^ 63

/-- the `int` that the program takes for the text: the number modulo 2^32 -/
def Arg (t : List Char) (v : Int) : Prop := ∃ u, IsLong t u ∧ -2 ^ 31 ≤ v ∧ v < 2 ^ 31 ∧ v ≡ u [ZMOD 2 ^ 32]

theorem exists_numeral {l : List Char} (h : ∀ c ∈ l, Loader.isDigit c = true) : ∃ ds : List Nat, l = numeral ds ∧ ∀ d ∈ ds, d < 10 := by
  induction l with
  | nil => exact ⟨[], rfl, by simp⟩
  | cons c l ih =>
    obtain ⟨ds, h1, h2⟩ := ih fun c hc => h c (by simp [hc])
    obtain ⟨d, d1, d2⟩ := (C58_digit c).1 (h c (by simp))
    exact ⟨d :: ds, by rw [h1, d2]; rfl, by intro x hx; rcases List.mem_cons.1 hx with rfl | hx; exacts [d1, h2 x hx]⟩

theorem mem_takeWhile_imp {p : Char → Bool} {l : List Char} {c : Char} (h : c ∈ l.takeWhile p) : p c = true :=
  List.all_eq_true.1 List.all_takeWhile c h

theorem sign_cases (t : List Char) : ∃ s : Sign, (Loader.sign t).1 = s.isMinus ∧ t = s.text ++ t.drop (Loader.sign t).2 := by
  unfold Loader.sign
  split
  · exact ⟨.minus, rfl, rfl⟩
  · exact ⟨.plus, rfl, rfl⟩
  · exact ⟨.none, rfl, rfl⟩

/-- every text: its number and the outcome, or no number -/
theorem stol_cases (t : List Char) :
    (∃ v, Typed t v ∧ (∀ u, Typed t u → u = v) ∧ stol t = if v < -2 ^ 63 ∨ 2 ^ 63 ≤ v then .error .outOfRange else .ok v) ∨
    ((∀ v, ¬ Typed t v) ∧ stol t = .error .invalidArgument) := by
  have key : ∀ v, Typed t v → stol t = if v < -2 ^ 63 ∨ 2 ^ 63 ≤ v then .error .outOfRange else .ok v := by
    rintro v ⟨ws, s, ds, r, rfl, hw, h0, hd, hr, rfl⟩
    have hr' : ∀ c ∈ r.head?, Loader.isDigit c = false := by
      intro c hc
      by_contra hcon
      obtain ⟨d, d1, d2⟩ := (C58_digit c).1 (by simpa using hcon)
      cases r with
      | nil => simp at hc
      | cons x r =>
        simp only [List.head?_cons, Option.mem_def, Option.some.injEq] at hc
        exact hr d r d1 (by rw [hc, d2])
    unfold stol
    rw [scanInt_numeral hw s h0 hd hr']
    simp only
    rw [if_neg (numeral_ne_nil h0), digitsVal_numeral hd]
    cases s <;> rfl
  have hsplit : ∃ (ws : List Char) (s : Sign) (ds : List Nat) (r : List Char), t = ws ++ (s.text ++ (numeral ds ++ r)) ∧ (∀ c ∈ ws, Loader.isSpace c = true) ∧
      (∀ d ∈ ds, d < 10) ∧ (∀ d r', d < 10 → r ≠ Char.ofNat (48 + d) :: r') ∧ (Loader.scanInt t).2.1 = numeral ds := by
    set ws := t.takeWhile Loader.isSpace with hws
    set t1 := t.drop ws.length with ht1
    obtain ⟨s, -, s2⟩ := sign_cases t1
    set t2 := t1.drop (Loader.sign t1).2 with ht2
    obtain ⟨ds, d1, d2⟩ := exists_numeral (l := t2.takeWhile Loader.isDigit) (fun c hc => mem_takeWhile_imp hc)
    refine ⟨ws, s, ds, t2.dropWhile Loader.isDigit, ?_, fun c hc => mem_takeWhile_imp hc, d2, ?_, d1⟩
    · have h2 : numeral ds ++ t2.dropWhile Loader.isDigit = t2 := by rw [← d1]; exact List.takeWhile_append_dropWhile
      rw [h2, ← s2, ht1]
      have : ws = t.take ws.length := by
        rw [hws]; exact (List.prefix_iff_eq_take.1 (List.takeWhile_prefix _))
      conv_lhs => rw [← List.take_append_drop ws.length t, ← this]
    · intro d r' hd hcon
      have := List.head?_dropWhile_not Loader.isDigit t2
      rw [hcon] at this
      simp only [List.head?_cons] at this
      rw [(digit_char hd).1] at this
      cases this
  obtain ⟨ws, s, ds, r, h1, h2, h3, h4, h5⟩ := hsplit
  by_cases h0 : ds = []
  · right
    have hst : stol t = .error .invalidArgument := by
      unfold stol
      rcases hx : Loader.scanInt t with ⟨a, b, c, d⟩
      rw [hx] at h5
      simp only at h5 ⊢
      rw [h5, h0]; rfl
    refine ⟨fun v hv => ?_, hst⟩
    have := key v hv
    rw [hst] at this
    split at this <;> cases this
  · left
    have hT : Typed t (signed s ds) := ⟨ws, s, ds, r, h1, h2, h0, h3, h4, rfl⟩
    refine ⟨_, hT, fun u ⟨ws', s', ds', r', g1, g2, g3, g4, g5, g6⟩ => ?_, key _ hT⟩
    have hdig : ∀ {r : List Char}, (∀ d r', d < 10 → r ≠ Char.ofNat (48 + d) :: r') → ∀ c ∈ r.head?, Loader.isDigit c = false := by
      intro r hr c hc
      by_contra hcon
      obtain ⟨d, d1, d2⟩ := (C58_digit c).1 (by simpa using hcon)
      cases r with
      | nil => simp at hc
      | cons x r =>
        simp only [List.head?_cons, Option.mem_def, Option.some.injEq] at hc
        exact hr d r d1 (by rw [hc, d2])
    have e1 := scanInt_numeral h2 s h0 h3 (hdig h4)
    have e2 := scanInt_numeral g2 s' g3 g4 (hdig g5)
    rw [← h1] at e1
    rw [← g1, e1] at e2
    have m : s.isMinus = s'.isMinus := congrArg Prod.fst e2
    have n : numeral ds = numeral ds' := congrArg (fun x => x.2.1) e2
    have hv : value ds = value ds' := by rw [← digitsVal_numeral h3, ← digitsVal_numeral g4, n]
    rw [g6]
    unfold signed
    rw [hv]
    cases s <;> cases s' <;> simp_all [Sign.isMinus]

/-- C101: a number of the command line -/
theorem C101_number (t : List Char) :
    (∀ v, stol t = .ok v ↔ IsLong t v) ∧ (stol t = .error .invalidArgument ↔ ¬ ∃ v, Typed t v) ∧
    (stol t = .error .outOfRange ↔ ∃ v, Typed t v ∧ (v < -2 ^ 63 ∨ 2 ^ 63 ≤ v)) ∧ ∀ u v, Typed t u → Typed t v → u = v := by
  rcases stol_cases t with ⟨v, h1, h2, h3⟩ | ⟨h1, h2⟩
  · rw [h3]
    refine ⟨fun u => ?_, ?_, ?_, fun a b ha hb => (h2 a ha).trans (h2 b hb).symm⟩
    · split
      · next h =>
        constructor
        · intro h; cases h
        · rintro ⟨a, b, c⟩; rw [h2 u a] at b c; omega
      · next h =>
        constructor
        · intro hh; cases hh; exact ⟨h1, by omega, by omega⟩
        · rintro ⟨a, -⟩; rw [h2 u a]
    · split
      · exact ⟨fun h => (by cases h), fun h => absurd ⟨v, h1⟩ h⟩
      · exact ⟨fun h => (by cases h), fun h => absurd ⟨v, h1⟩ h⟩
    · split
      · next h => exact ⟨fun _ => ⟨v, h1, h⟩, fun _ => rfl⟩
      · next h => exact ⟨fun h => (by cases h), fun ⟨u, a, b⟩ => by rw [h2 u a] at b; exact absurd b h⟩
  · rw [h2]
    exact ⟨fun v => ⟨fun h => (by cases h), fun h => absurd h.1 (h1 v)⟩, ⟨fun _ ⟨v, h⟩ => h1 v h, fun _ => rfl⟩,
      ⟨fun h => (by cases h), fun ⟨v, h, _⟩ => absurd h (h1 v)⟩, fun u v h => absurd h (h1 u)⟩

theorem toInt32_spec (u : Int) : -2 ^ 31 ≤ toInt32 u ∧ toInt32 u < 2 ^ 31 ∧ toInt32 u ≡ u [ZMOD 2 ^ 32] := by
  unfold toInt32 Int.ModEq
  have h1 := Int.le_bmod (x := u) (m := 2 ^ 32) (by norm_num)
  have h2 := Int.bmod_lt (x := u) (m := 2 ^ 32) (by norm_num)
  have h3 : (Int.bmod u (2 ^ 32)) % ((2 ^ 32 : Nat) : Int) = u % ((2 ^ 32 : Nat) : Int) := Int.bmod_emod
  norm_num at h1 h2 h3 ⊢
  exact ⟨h1, h2, h3⟩

/-- `Arg` holds exactly for the converted value -/
theorem arg_iff {t : List Char} {v : Int} : Arg t v ↔ ∃ u, stol t = .ok u ∧ v = toInt32 u := by
  constructor
  · rintro ⟨u, h1, h2, h3, h4⟩
    refine ⟨u, ((C101_number t).1 u).2 h1, ?_⟩
    obtain ⟨k1, k2, k3⟩ := toInt32_spec u
    have := h4.trans k3.symm
    unfold Int.ModEq at this
    omega
  · rintro ⟨u, h1, rfl⟩
    exact ⟨u, ((C101_number t).1 u).1 h1, toInt32_spec u⟩

theorem arg_ok {t : List Char} {u : Int} (h : stol t = .ok u) (v : Int) : Arg t v ↔ v = toInt32 u := by
  rw [arg_iff, h]
  exact ⟨fun ⟨_, a, b⟩ => by cases a; exact b, fun h => ⟨u, rfl, h⟩⟩

theorem arg_error {t : List Char} {e : StoErr} (h : stol t = .error e) (v : Int) : ¬ Arg t v := by
  rw [arg_iff, h]
  rintro ⟨u, hu, -⟩
  cases hu

/-- the first three arguments: solver, order and kind of mesh -/
def Args3 (argv : List (List Char)) (k o m : Int) : Prop :=
  4 ≤ argv.length ∧ Arg (argv.getD 1 []) k ∧ Arg (argv.getD 2 []) o ∧ Arg (argv.getD 3 []) m

/-- they are in range -/
def InRange (k o m : Int) : Prop := (0 ≤ k ∧ k ≤ 2) ∧ (1 ≤ o ∧ o ≤ 2) ∧ 0 ≤ m ∧ m ≤ 2

/-- C101: what the program does with its arguments (`argv` contains the name of the program), for every list of texts. -/
theorem C101_arguments (argv : List (List Char)) :
    (parse argv = .exit (-1) ↔ argv.length < 4) ∧
    (parse argv = .exit (-2) ↔ 4 ≤ argv.length ∧ ∃ i, 1 ≤ i ∧ i ≤ 3 ∧ ∀ v, ¬ Arg (argv.getD i []) v) ∧
    (parse argv = .exit (-4) ↔ ∃ k o m, Args3 argv k o m ∧ ¬ InRange k o m) ∧
    (parse argv = .exit (-3) ↔ ∃ k o m, Args3 argv k o m ∧ InRange k o m ∧
      ((m = 2 ∧ argv.length ≠ 6) ∨ (m ≠ 2 ∧ argv.length ≠ 5) ∨ (m = 0 ∧ argv.length = 5 ∧ ∃ n, Arg (argv.getD 4 []) n ∧ n < 1))) ∧
    (parse argv = .uncaught ↔ ∃ k o, Args3 argv k o 0 ∧ InRange k o 0 ∧ argv.length = 5 ∧ ∀ n, ¬ Arg (argv.getD 4 []) n) ∧
    (∀ k o N, parse argv = .run k o (.grid N) ↔ Args3 argv k o 0 ∧ InRange k o 0 ∧ argv.length = 5 ∧ 1 ≤ N ∧ Arg (argv.getD 4 []) N) ∧
    (∀ k o p, parse argv = .run k o (.obj p) ↔ Args3 argv k o 1 ∧ InRange k o 1 ∧ argv.length = 5 ∧ p = argv.getD 4 []) ∧
    (∀ k o p q, parse argv = .run k o (.triangle p q) ↔
      Args3 argv k o 2 ∧ InRange k o 2 ∧ argv.length = 6 ∧ p = argv.getD 4 [] ∧ q = argv.getD 5 []) := by
  unfold parse
  by_cases hl : argv.length < 4
  · have hn : ∀ k o m, ¬ Args3 argv k o m := fun k o m h => by have := h.1; omega
    rw [if_pos hl]
    simp only [hn, false_and, exists_false, iff_false, reduceCtorEq, Start.exit.injEq, not_false_eq_true, and_true, implies_true]
    refine ⟨by simp [hl], ⟨fun h => absurd h (by decide), fun h => by omega⟩, by decide, by decide⟩
  · rw [if_neg hl]
    rcases h1 : stol (argv.getD 1 []) with e1 | a
    · have hn : ∀ k o m, ¬ Args3 argv k o m := fun k o m h => arg_error h1 k h.2.1
      simp only [hn, false_and, exists_false, iff_false, reduceCtorEq, Start.exit.injEq, not_false_eq_true, and_true, implies_true]
      refine ⟨by simp [hl], ⟨fun _ => ⟨by omega, 1, le_rfl, by omega, arg_error h1⟩, fun _ => by trivial⟩, by decide, by decide⟩
    rcases h2 : stol (argv.getD 2 []) with e2 | b
    · have hn : ∀ k o m, ¬ Args3 argv k o m := fun k o m h => arg_error h2 o h.2.2.1
      simp only [hn, false_and, exists_false, iff_false, reduceCtorEq, Start.exit.injEq, not_false_eq_true, and_true, implies_true]
      refine ⟨by simp [hl], ⟨fun _ => ⟨by omega, 2, by omega, by omega, arg_error h2⟩, fun _ => by trivial⟩, by decide, by decide⟩
    rcases h3 : stol (argv.getD 3 []) with e3 | c
    · have hn : ∀ k o m, ¬ Args3 argv k o m := fun k o m h => arg_error h3 m h.2.2.2
      simp only [hn, false_and, exists_false, iff_false, reduceCtorEq, Start.exit.injEq, not_false_eq_true, and_true, implies_true]
      refine ⟨by simp [hl], ⟨fun _ => ⟨by omega, 3, by omega, by omega, arg_error h3⟩, fun _ => by trivial⟩, by decide, by decide⟩
    have hA : ∀ k o m, Args3 argv k o m ↔ k = toInt32 a ∧ o = toInt32 b ∧ m = toInt32 c := by
      intro k o m
      unfold Args3
      rw [arg_ok h1, arg_ok h2, arg_ok h3]
      exact ⟨fun h => h.2, fun h => ⟨by omega, h⟩⟩
    have hno : ¬ ∃ i, 1 ≤ i ∧ i ≤ 3 ∧ ∀ v, ¬ Arg (argv.getD i []) v := by
      rintro ⟨i, i1, i2, h⟩
      obtain rfl | rfl | rfl : i = 1 ∨ i = 2 ∨ i = 3 := by omega
      · exact h _ ((arg_ok h1 _).2 rfl)
      · exact h _ ((arg_ok h2 _).2 rfl)
      · exact h _ ((arg_ok h3 _).2 rfl)
    have hE : ∀ P : Int → Int → Int → Prop, (∃ k o m, Args3 argv k o m ∧ P k o m) ↔ P (toInt32 a) (toInt32 b) (toInt32 c) := by
      intro P
      simp only [hA]
      exact ⟨fun ⟨_, _, _, ⟨rfl, rfl, rfl⟩, h⟩ => h, fun h => ⟨_, _, _, ⟨rfl, rfl, rfl⟩, h⟩⟩
    rw [hE, hE]
    simp only [hno, and_false, iff_false, hl, hA]
    generalize toInt32 a = k at *
    generalize toInt32 b = o at *
    generalize toInt32 c = m at *
    simp only [InRange, source]
    by_cases hk : k < 0 ∨ 2 < k
    · rw [if_pos hk]
      refine ⟨?_, ?_, ?_, ?_, ?_, ?_, ?_, ?_⟩ <;> grind
    rw [if_neg hk]
    by_cases ho : o < 1 ∨ 2 < o
    · rw [if_pos ho]
      refine ⟨?_, ?_, ?_, ?_, ?_, ?_, ?_, ?_⟩ <;> grind
    rw [if_neg ho]
    by_cases hm : m < 0 ∨ 2 < m
    · rw [if_pos hm]
      refine ⟨?_, ?_, ?_, ?_, ?_, ?_, ?_, ?_⟩ <;> grind
    rw [if_neg hm]
    obtain rfl | rfl | rfl : m = 0 ∨ m = 1 ∨ m = 2 := by omega
    · rw [if_pos rfl]
      by_cases h5 : argv.length = 5
      · rw [if_neg (by omega)]
        rcases h4 : stol (argv.getD 4 []) with e4 | d
        · have := arg_error h4
          simp only [this]
          refine ⟨?_, ?_, ?_, ?_, ?_, ?_, ?_, ?_⟩ <;> grind
        · have := arg_ok h4
          simp only [this]
          generalize toInt32 d = n at *
          by_cases hn : n < 1
          · rw [if_pos hn]
            refine ⟨?_, ?_, ?_, ?_, ?_, ?_, ?_, ?_⟩ <;> grind
          · rw [if_neg hn]
            refine ⟨?_, ?_, ?_, ?_, ?_, ?_, ?_, ?_⟩ <;> grind
      · rw [if_pos h5]
        refine ⟨?_, ?_, ?_, ?_, ?_, ?_, ?_, ?_⟩ <;> grind
    · rw [if_neg (by omega), if_pos rfl]
      by_cases h5 : argv.length = 5
      · rw [if_neg (by omega)]
        refine ⟨?_, ?_, ?_, ?_, ?_, ?_, ?_, ?_⟩ <;> grind
      · rw [if_pos h5]
        refine ⟨?_, ?_, ?_, ?_, ?_, ?_, ?_, ?_⟩ <;> grind
    · rw [if_neg (by omega), if_neg (by omega)]
      by_cases h5 : argv.length = 6
      · rw [if_neg (by omega)]
        refine ⟨?_, ?_, ?_, ?_, ?_, ?_, ?_, ?_⟩ <;> grind
      · rw [if_pos h5]
        refine ⟨?_, ?_, ?_, ?_, ?_, ?_, ?_, ?_⟩ <;> grind

/-- C101 fails for the arguments: numbers are reduced modulo 2^32 (the solver 4294967298 is solver 2), what follows the digits is ignored, and a
number of cells that is no number ends the program with an exception that nothing catches; the same text as solver is reported with code -2 -/
theorem C101_arguments_negation :
    parse (["fem", "4294967298", "1", "0", "4"].map String.toList) = .run 2 1 (.grid 4) ∧
    parse (["fem", "2x", "1.9", "0", "4 cells"].map String.toList) = .run 2 1 (.grid 4) ∧
    parse (["fem", "2", "1", "0", "four"].map String.toList) = .uncaught ∧
    parse (["fem", "two", "1", "0", "4"].map String.toList) = .exit (-2) ∧
    parse (["fem", "3", "1", "0", "4"].map String.toList) = .exit (-4) := by
  decide +kernel

/-- the hypotheses of the cases of `C101_arguments` are met -/
example : Args3 (["fem", "2", "1", "0", "16"].map String.toList) 2 1 0 ∧ InRange 2 1 0 ∧ Arg "16".toList 16 ∧ Arg " -1".toList (-1) := by
  refine ⟨⟨by decide, ?_, ?_, ?_⟩, by unfold InRange; omega, ?_, ?_⟩ <;> rw [arg_iff]
  exacts [⟨2, by decide +kernel, by decide⟩, ⟨1, by decide +kernel, by decide⟩, ⟨0, by decide +kernel, by decide⟩,
    ⟨16, by decide +kernel, by decide⟩, ⟨-1, by decide +kernel, by decide⟩]
end NS.Props.FemMain

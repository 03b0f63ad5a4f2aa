/-
Property theorems C110: numbers in OBJ files, in floating-point arithmetic.
-/
import Verif.ObjRoundModel
import Verif.Props.ObjNumber
import Verif.Rounding
import Mathlib.Tactic.LinearCombination

set_option linter.unusedSectionVars false
set_option linter.unusedSimpArgs false

namespace NS.Props.Obj
open NS NS.TinyObj NS.Rounding

/-! ### The model with rounding is the model of C91 if nothing is rounded -/

section exact
variable {T : Type} [Field T]

/-- no rounding -/
def exactOps (T : Type) [Field T] : NumOps T :=
  ⟨fun k => (k : T), fun r => ((10 : T) ^ r)⁻¹, fun e => (5 : T) ^ e, fun a e => a * (2 : T) ^ e⟩

theorem intLoopR_exact (k : Nat) (p : Ptr) (m : T) (r : Nat) : intLoopR (exactOps T) k p m r = intLoop k p m r := by
  induction k generalizing p m r with
  | zero => rfl
  | succ k ih =>
    unfold intLoopR intLoop
    simp only [ih]
    simp [exactOps]

theorem fracLoopR_exact (k : Nat) (p : Ptr) (m : T) (r : Nat) : fracLoopR (exactOps T) k p m r = fracLoop k p m r := by
  induction k generalizing p m r with
  | zero => rfl
  | succ k ih =>
    unfold fracLoopR fracLoop
    simp only [ih]
    simp [exactOps]

theorem assembleR_exact (neg : Bool) (m : T) (e : Int) : assembleR (exactOps T) neg m e = assemble neg m e := by
  unfold assembleR assemble exactOps
  cases neg <;> simp

/-- **C110**: without rounding this is the parser of C91 -/
theorem C110_exact (p : Ptr) (n : Nat) : tryParseDoubleR (exactOps T) p n = tryParseDouble p n := by
  unfold tryParseDoubleR tryParseDouble numberPartR numberPart expPartR expPart
  simp only [intLoopR_exact, fracLoopR_exact, assembleR_exact]
end exact

/-! ### What is computed -/

section run
variable {F : Type} [Zero F] [Add F] [Mul F] (o : NumOps F)

/-- the mantissa after the integer part -/
def intFold (m : F) : List Char → F
  | [] => m
  | c :: s => intFold (m * o.conv 10 + o.conv (digit c)) s

/-- the mantissa after the decimal part -/
def fracFold (m : F) (r : Nat) : List Char → F
  | [] => m
  | c :: s => fracFold (m + o.conv (digit c) * o.pow10 r) (r + 1) s

/-- the mantissa after an optional decimal part -/
def optFold (m : F) : Option (List Char) → F
  | none => m
  | some f => fracFold o m 1 f

theorem intLoopR_ok (ds : List Char) (hd : ∀ c ∈ ds, IsDigit c) (w tail : List Char) (hw : NoDigit w) (m : F) (r : Nat) :
    intLoopR o (ds.length + w.length) (ds ++ (w ++ tail)) m r = .ok (intFold o m ds, w.length, w ++ tail, r + ds.length) := by
  induction ds generalizing m r with
  | nil =>
    cases w with
    | nil => simp [intLoopR, intFold]
    | cons c w =>
      have : isDigit c = false := by
        rw [← Bool.not_eq_true, isDigit_iff]; exact hw c rfl
      simp only [List.length_nil, zero_add, List.length_cons, List.nil_append, List.cons_append, intLoopR, getIdx_zero, intFold]
      rw [show (Except.ok c : R Char) = pure c from rfl, pure_bind, this]
      simp
  | cons c ds ih =>
    have hc : isDigit c = true := (isDigit_iff c).2 (hd c (by simp))
    have e : (c :: ds).length + w.length = (ds.length + w.length) + 1 := by simp; omega
    rw [e]
    simp only [List.cons_append, intLoopR, getIdx_zero]
    rw [show (Except.ok c : R Char) = pure c from rfl, pure_bind, hc, if_pos rfl, List.drop_one, List.tail_cons, ih (fun c h => hd c (by simp [h]))]
    simp only [intFold, List.length_cons]
    rw [show r + 1 + ds.length = r + (ds.length + 1) by omega]

theorem fracLoopR_ok (ds : List Char) (hd : ∀ c ∈ ds, IsDigit c) (w tail : List Char) (hw : NoDigit w) (m : F) (r : Nat) :
    fracLoopR o (ds.length + w.length) (ds ++ (w ++ tail)) m r = .ok (fracFold o m r ds, w.length, w ++ tail) := by
  induction ds generalizing m r with
  | nil =>
    cases w with
    | nil => simp [fracLoopR, fracFold]
    | cons c w =>
      have : isDigit c = false := by
        rw [← Bool.not_eq_true, isDigit_iff]; exact hw c rfl
      simp only [List.length_nil, zero_add, List.length_cons, List.nil_append, List.cons_append, fracLoopR, getIdx_zero, fracFold]
      rw [show (Except.ok c : R Char) = pure c from rfl, pure_bind, this]
      simp
  | cons c ds ih =>
    have hc : isDigit c = true := (isDigit_iff c).2 (hd c (by simp))
    have e : (c :: ds).length + w.length = (ds.length + w.length) + 1 := by simp; omega
    rw [e]
    simp only [List.cons_append, fracLoopR, getIdx_zero]
    rw [show (Except.ok c : R Char) = pure c from rfl, pure_bind, hc, if_pos rfl, List.drop_one, List.tail_cons, ih (fun c h => hd c (by simp [h]))]
    simp only [fracFold]

theorem exp_partR (neg : Bool) (m : F) {e : Char} {s d w : List Char} (tail : List Char) (he : e = 'e' ∨ e = 'E') (hs : IsSign s)
    (hd : d ≠ [] ∧ ∀ c ∈ d, IsDigit c) (hsm : natVal d ≤ 2147483647) (hw : NoDigit w) :
    expPartR o neg m (e :: (s ++ (d ++ w))).length (e :: (s ++ (d ++ (w ++ tail)))) = .ok (some (assembleR o neg m (if s = ['-'] then -(natVal d : Int) else natVal d))) := by
  obtain ⟨c, d, rfl⟩ : ∃ c d', d = c :: d' := by cases d with | nil => exact absurd rfl hd.1 | cons c d => exact ⟨c, d, rfl⟩
  have hc : isDigit c = true := (isDigit_iff c).2 (hd.2 c (by simp))
  have hloop := expLoop_ok (c :: d) hd.2 w tail hw 0 0 (by simpa using hsm)
  simp only [zero_mul, zero_add] at hloop
  have hr : (c :: d).length ≠ 0 := by simp
  unfold expPartR
  rw [getIdx_zero]
  simp only [ok_bind, if_pos he, List.drop_one, List.tail_cons, List.length_cons, Nat.add_sub_cancel]
  have hcs : c ≠ '+' ∧ c ≠ '-' := by
    have := hd.2 c (by simp)
    constructor <;> rintro rfl <;> revert this <;> unfold IsDigit <;> decide
  rcases hs with rfl | rfl | rfl
  · simp only [List.nil_append, List.cons_append]
    rw [getIdx_zero]
    simp only [ok_bind]
    rw [if_neg (by rintro ⟨-, h | h⟩; exact hcs.1 h; exact hcs.2 h), if_pos hc]
    rw [show (c :: (d ++ w)).length = (c :: d).length + w.length by simp; omega, show c :: (d ++ (w ++ tail)) = (c :: d) ++ (w ++ tail) by simp]
    erw [hloop]
    simp
  · simp only [List.cons_append, List.nil_append]
    rw [getIdx_zero]
    simp only [ok_bind]
    rw [if_pos (by simp), List.tail_cons, show ('+' :: (c :: (d ++ w))).length - 1 = (c :: d).length + w.length by simp; omega,
      show c :: (d ++ (w ++ tail)) = (c :: d) ++ (w ++ tail) by simp]
    erw [hloop]
    simp
  · simp only [List.cons_append, List.nil_append]
    rw [getIdx_zero]
    simp only [ok_bind]
    rw [if_pos (by simp), List.tail_cons, show ('-' :: (c :: (d ++ w))).length - 1 = (c :: d).length + w.length by simp; omega,
      show c :: (d ++ (w ++ tail)) = (c :: d) ++ (w ++ tail) by simp]
    erw [hloop]
    simp

theorem number_partR (neg : Bool) {n : Num} (hn : n.Valid) (hsm : n.Small) {w : List Char} (tail : List Char) (hw : Stops n w) :
    numberPartR o neg (n.int ++ (fracText n.frac ++ (expText n.exp ++ w))).length (n.int ++ (fracText n.frac ++ (expText n.exp ++ (w ++ tail)))) =
      .ok (some (assembleR o neg (optFold o (intFold o 0 n.int) n.frac) (expVal n.exp))) := by
  obtain ⟨sg, int, frac, exp⟩ := n
  have hint : int ≠ [] ∧ ∀ c ∈ int, IsDigit c := hn.int
  have hr : (0 : Nat) + int.length ≠ 0 := by
    have := List.length_pos_iff.2 hint.1
    omega
  have hwd : NoDigit w := fun c hc => (hw c hc).1
  have edig : ¬ IsDigit 'e' := by unfold IsDigit; decide
  have Edig : ¬ IsDigit 'E' := by unfold IsDigit; decide
  have ddig : ¬ IsDigit '.' := by unfold IsDigit; decide
  have hnd : NoDigit (expText exp ++ w) := by
    intro c hc
    rcases exp with _ | ⟨e, s, d⟩
    · exact hwd c hc
    · obtain ⟨he, -⟩ := hn.exp e s d rfl
      simp only [expText, List.cons_append, List.head?_cons, Option.some.injEq] at hc
      subst hc
      rcases he with rfl | rfl
      · exact edig
      · exact Edig
  have hexp : ∀ (m : F) (k : Nat) (p : List Char), k = (expText exp ++ w).length → k ≠ 0 → p = expText exp ++ (w ++ tail) →
      (∀ c, (expText exp ++ w).head? = some c → exp = none → c ≠ 'e' ∧ c ≠ 'E') →
      expPartR o neg m k p = .ok (some (assembleR o neg m (expVal exp))) := by
    intro m k p hk h0 hp hne
    subst hp hk
    rcases exp with _ | ⟨e, s, d⟩
    · obtain ⟨c, w, rfl⟩ : ∃ c w', w = c :: w' := by cases w with | nil => simp [expText] at h0 | cons c w => exact ⟨c, w, rfl⟩
      have := hne c rfl rfl
      unfold expPartR
      simp only [expText, List.nil_append, List.cons_append]
      rw [getIdx_zero]
      simp only [ok_bind]
      rw [if_neg (by rintro (h | h); exact this.1 h; exact this.2 h)]
      rfl
    · obtain ⟨he, hs, hd⟩ := hn.exp e s d rfl
      have := exp_partR o neg m (w := w) tail he hs hd (hsm e s d rfl) hwd
      simp only [expText, List.cons_append, List.append_assoc]
      rw [this]
      rfl
  unfold numberPartR
  rcases frac with _ | f
  · simp only [fracText, List.nil_append, optFold]
    rw [List.length_append, show int ++ (expText exp ++ (w ++ tail)) = int ++ ((expText exp ++ w) ++ tail) by simp, intLoopR_ok o int hint.2 _ tail hnd]
    simp only [ok_bind]
    rw [if_neg hr]
    by_cases hk : (expText exp ++ w).length = 0
    · rw [if_pos hk]
      have : exp = none := by
        rcases exp with _ | ⟨e, s, d⟩
        · rfl
        · simp [expText] at hk
      subst this
      rfl
    · rw [if_neg hk]
      obtain ⟨c, l, hcl⟩ : ∃ c l, expText exp ++ w = c :: l := by
        rcases h : expText exp ++ w with _ | ⟨c, l⟩
        · rw [h] at hk; simp at hk
        · exact ⟨c, l, rfl⟩
      have hc0 : getIdx ((expText exp ++ w) ++ tail) 0 = .ok c := by rw [hcl]; rfl
      rw [hc0]
      simp only [ok_bind]
      have hdot : c ≠ '.' := by
        rcases exp with _ | ⟨e, s, d⟩
        · exact (hw c (by simp only [expText, List.nil_append] at hcl; rw [hcl]; rfl)).2.2 rfl rfl
        · obtain ⟨he, -⟩ := hn.exp e s d rfl
          simp only [expText, List.cons_append, List.cons.injEq] at hcl
          rw [← hcl.1]
          rcases he with rfl | rfl <;> decide
      rw [if_neg hdot]
      by_cases hce : c = 'e' ∨ c = 'E'
      · rw [if_pos hce]
        refine hexp _ _ _ rfl hk (by simp) fun c' hc' hx => ?_
        subst hx
        exact (hw c' hc').2.1 rfl
      · rw [if_neg hce]
        have : exp = none := by
          rcases exp with _ | ⟨e, s, d⟩
          · rfl
          · obtain ⟨he, -⟩ := hn.exp e s d rfl
            simp only [expText, List.cons_append, List.cons.injEq] at hcl
            rw [hcl.1] at he
            exact absurd he hce
        subst this
        rfl
  · have hf := hn.frac f rfl
    simp only [fracText, List.cons_append, optFold]
    rw [List.length_append, show int ++ '.' :: (f ++ (expText exp ++ (w ++ tail))) = int ++ (('.' :: (f ++ (expText exp ++ w))) ++ tail) by simp,
      intLoopR_ok o int hint.2 _ tail (by intro c hc; simp at hc; subst hc; exact ddig)]
    simp only [ok_bind]
    rw [if_neg hr, if_neg (by simp)]
    simp only [List.cons_append]
    rw [getIdx_zero]
    simp only [ok_bind, if_true]
    rw [List.drop_one, List.tail_cons, show ('.' :: (f ++ (expText exp ++ w))).length - 1 = f.length + (expText exp ++ w).length by simp,
      show (f ++ (expText exp ++ w)) ++ tail = f ++ ((expText exp ++ w) ++ tail) by simp, fracLoopR_ok o f hf _ tail hnd _ 1]
    simp only [ok_bind]
    by_cases hk : (expText exp ++ w).length = 0
    · rw [if_pos hk]
      have : exp = none := by
        rcases exp with _ | ⟨e, s, d⟩
        · rfl
        · simp [expText] at hk
      subst this
      rfl
    · rw [if_neg hk]
      refine hexp _ _ _ rfl hk (by simp) fun c' hc' hx => ?_
      subst hx
      exact (hw c' hc').2.1 rfl

theorem parse_run {n : Num} (hn : n.Valid) (hsm : n.Small) {w : List Char} (tail : List Char) (hw : Stops n w) :
    tryParseDoubleR o (n.text ++ (w ++ tail)) (n.text ++ w).length =
      .ok (some (assembleR o (decide (n.sign = ['-'])) (optFold o (intFold o 0 n.int) n.frac) (expVal n.exp))) := by
  have key := fun neg => number_partR o neg hn hsm tail hw
  obtain ⟨c, i, hci⟩ : ∃ c i, n.int = c :: i := by
    rcases h : n.int with _ | ⟨c, i⟩
    · exact absurd h hn.int.1
    · exact ⟨c, i, rfl⟩
  have hcd : IsDigit c := hn.int.2 c (by rw [hci]; simp)
  have hcs : c ≠ '+' ∧ c ≠ '-' := by
    constructor <;> rintro rfl <;> revert hcd <;> unfold IsDigit <;> decide
  unfold tryParseDoubleR Num.text
  simp only [List.append_assoc]
  rcases hn.sign with h | h | h
  · rw [h]
    simp only [List.nil_append]
    rw [if_neg (by rw [hci]; simp)]
    have h0 : getIdx (n.int ++ (fracText n.frac ++ (expText n.exp ++ (w ++ tail)))) 0 = .ok c := by rw [hci]; rfl
    rw [h0]
    simp only [ok_bind]
    rw [if_neg (by rintro (h | h); exact hcs.1 h; exact hcs.2 h), if_pos ((isDigit_iff c).2 hcd), key false]
    simp
  · rw [h]
    simp only [List.cons_append, List.nil_append]
    rw [if_neg (by simp), getIdx_zero]
    simp only [ok_bind]
    rw [if_pos (Or.inl trivial), List.drop_one, List.tail_cons, List.length_cons, Nat.add_sub_cancel, show decide ('+' = '-') = false by decide, key false]
    simp
  · rw [h]
    simp only [List.cons_append, List.nil_append]
    rw [if_neg (by simp), getIdx_zero]
    simp only [ok_bind]
    rw [if_pos (Or.inr trivial), List.drop_one, List.tail_cons, List.length_cons, Nat.add_sub_cancel, show decide True = true from rfl, key true]
end run

/-! ### Accuracy -/

section accuracy
variable {F K : Type} [Zero F] [One F] [Add F] [Sub F] [Mul F] [Div F] [Field K] [LinearOrder K] [IsStrictOrderedRing K] {fl : F → K} {u : K}

/-- What is assumed of the conversion of small integers (exact), of `pow` (accurate up to `c` roundings, and exact for the exponent 0) and of `ldexp` (exact) -/
structure Accurate (fl : F → K) (u : K) (c : Nat) (o : NumOps F) : Prop where
  conv : ∀ k : Int, -1 ≤ k → k ≤ 10 → fl (o.conv k) = k
  pow10 : ∀ r : Nat, ∃ t, Th u c t ∧ fl (o.pow10 r) = ((10 : K) ^ r)⁻¹ * t
  pow5 : ∀ e : Int, ∃ t, Th u c t ∧ fl (o.pow5 e) = (5 : K) ^ e * t
  pow5_zero : fl (o.pow5 0) = 1
  ldexp : ∀ a (e : Int), fl (o.ldexp a e) = fl a * (2 : K) ^ e

/-- a sum of non-negative numbers with the same relative error -/
theorem Th.mix (h0 : 0 ≤ u) (hu : u < 1) {n : Nat} {x y s t : K} (hx : 0 ≤ x) (hy : 0 ≤ y) (hs : Th u n s) (ht : Th u n t) :
    ∃ r, Th u n r ∧ x * s + y * t = (x + y) * r := by
  rcases eq_or_lt_of_le (add_nonneg hx hy) with h | h
  · have hx0 : x = 0 := by linarith
    have hy0 : y = 0 := by linarith
    exact ⟨1, Th.one h0 hu, by rw [hx0, hy0]; ring⟩
  · refine ⟨(x * s + y * t) / (x + y), ⟨?_, ?_⟩, by field_simp⟩
    · rw [le_div_iff₀ h]
      have a := mul_le_mul_of_nonneg_left hs.1 hx
      have b := mul_le_mul_of_nonneg_left ht.1 hy
      linarith
    · rw [div_le_iff₀ h]
      have a := mul_le_mul_of_nonneg_left hs.2 hx
      have b := mul_le_mul_of_nonneg_left ht.2 hy
      linarith

variable (h : Std fl u) {c : Nat} {o : NumOps F} (ho : Accurate fl u c o)
include h ho

theorem digit_le {d : Char} (hd : IsDigit d) : digit d ≤ 9 := by
  unfold IsDigit at hd
  fin_cases hd <;> decide

theorem conv_digit {d : Char} (hd : IsDigit d) : fl (o.conv (digit d)) = (digit d : K) := by
  have := digit_le h ho hd
  rw [ho.conv _ (by omega) (by omega)]
  push_cast
  rfl

theorem intFold_acc (ds : List Char) (hd : ∀ c ∈ ds, IsDigit c) {m : F} {x t : K} {k : Nat} (hx : 0 ≤ x) (ht : Th u k t) (hm : fl m = x * t) :
    ∃ t', Th u (k + 2 * ds.length) t' ∧ fl (intFold o m ds) = (x * 10 ^ ds.length + natVal ds) * t' := by
  induction ds generalizing m x t k with
  | nil => exact ⟨t, ht, by simp [intFold, natVal, hm]⟩
  | cons d ds ih =>
    have h10 := ho.conv 10 (by norm_num) (by norm_num)
    have hdg := conv_digit h ho (hd d (by simp))
    obtain ⟨t1, a1, a2⟩ := h.mul_th m (o.conv 10)
    obtain ⟨t2, b1, b2⟩ := h.add_th (m * o.conv 10) (o.conv (digit d))
    have hk : Th u (k + 1) (t * t1) := ht.mul h.u_lt a1
    obtain ⟨r, r1, r2⟩ := Th.mix h.u_nonneg h.u_lt (x := x * 10) (y := (digit d : K)) (by positivity) (by positivity) hk (h.th_one (n := k + 1))
    have e : fl (m * o.conv 10 + o.conv (digit d)) = (x * 10 + digit d) * (r * t2) := by
      rw [b2, a2, h10, hdg, hm, ← mul_assoc, ← r2]
      push_cast
      ring
    obtain ⟨t', c1, c2⟩ := ih (fun c hc => hd c (by simp [hc])) (x := x * 10 + digit d) (by positivity) (r1.mul h.u_lt b1) e
    refine ⟨t', ?_, ?_⟩
    · rw [List.length_cons, show k + 2 * (ds.length + 1) = k + 1 + 1 + 2 * ds.length by ring]; exact c1
    · show fl (intFold o _ ds) = _
      rw [c2]
      simp only [natVal, digit_eq, List.length_cons]
      push_cast
      ring

theorem fracFold_acc (ds : List Char) (hd : ∀ c ∈ ds, IsDigit c) {m : F} {x t : K} {k : Nat} (hk : c + 1 ≤ k) (r : Nat) (hx : 0 ≤ x) (ht : Th u k t) (hm : fl m = x * t) :
    ∃ t', Th u (k + ds.length) t' ∧ fl (fracFold o m (r + 1) ds) = (x + natVal ds / 10 ^ (r + ds.length)) * t' := by
  induction ds generalizing m x t k r with
  | nil => exact ⟨t, ht, by simp [fracFold, natVal, hm]⟩
  | cons d ds ih =>
    have hdg := conv_digit h ho (hd d (by simp))
    obtain ⟨s, s1, s2⟩ := ho.pow10 (r + 1)
    obtain ⟨t1, a1, a2⟩ := h.mul_th (o.conv (digit d)) (o.pow10 (r + 1))
    obtain ⟨t2, b1, b2⟩ := h.add_th m (o.conv (digit d) * o.pow10 (r + 1))
    have hs : Th u k (s * t1) := h.th_mono (s1.mul h.u_lt a1) hk
    obtain ⟨q, q1, q2⟩ := Th.mix h.u_nonneg h.u_lt (x := x) (y := (digit d : K) * ((10 : K) ^ (r + 1))⁻¹) hx (by positivity) ht hs
    have e : fl (m + o.conv (digit d) * o.pow10 (r + 1)) = (x + digit d * ((10 : K) ^ (r + 1))⁻¹) * (q * t2) := by
      rw [b2, a2, hdg, s2, hm]
      linear_combination t2 * q2
    obtain ⟨t', c1, c2⟩ := ih (fun c hc => hd c (by simp [hc])) (by omega) (r + 1) (x := x + digit d * ((10 : K) ^ (r + 1))⁻¹) (by positivity) (q1.mul h.u_lt b1) e
    refine ⟨t', ?_, ?_⟩
    · rw [List.length_cons, show k + (ds.length + 1) = k + 1 + ds.length by ring]; exact c1
    · show fl (fracFold o _ (r + 1 + 1) ds) = _
      rw [c2]
      simp only [natVal, digit_eq, List.length_cons]
      have e2 : r + (ds.length + 1) = (r + 1) + ds.length := by omega
      rw [e2, pow_add 10 (r + 1) ds.length]
      have h10 : (10 : K) ≠ 0 := by norm_num
      push_cast
      rw [add_div, ← _root_.add_assoc, mul_div_mul_right _ _ (pow_ne_zero _ h10), div_eq_mul_inv ((d.toNat - 48 : Nat) : K)]

/-- the number of digits after the point -/
def fracLen : Option (List Char) → Nat
  | none => 0
  | some f => f.length

theorem optFold_acc {n : Num} (hn : n.Valid) :
    ∃ t, Th u (2 * n.int.length + c + 1 + fracLen n.frac) t ∧ fl (optFold o (intFold o 0 n.int) n.frac) = (natVal n.int + fracVal n.frac) * t := by
  obtain ⟨t, a1, a2⟩ := intFold_acc h ho n.int hn.int.2 (m := 0) (x := 0) (t := 1) (k := 0) le_rfl h.th_one (by rw [h.zero]; ring)
  rw [MulZeroClass.zero_mul, _root_.zero_add] at a2
  rw [_root_.zero_add] at a1
  have a3 : Th u (2 * n.int.length + c + 1) t := h.th_mono a1 (by omega)
  rcases hf : n.frac with _ | f
  · exact ⟨t, h.th_mono a1 (by omega), by simp only [optFold, fracVal, _root_.add_zero]; exact a2⟩
  · obtain ⟨t', b1, b2⟩ := fracFold_acc h ho f (hn.frac f hf) (by omega) 0 (by positivity) a3 a2
    rw [Nat.zero_add f.length] at b2
    exact ⟨t', b1, b2⟩

/-- the number of roundings that affect a number: twice the digits before the point, the digits after it, two calls of `pow`, and three -/
def steps (c : Nat) (n : Num) : Nat := 2 * n.int.length + fracLen n.frac + 2 * c + 3

/-- **C110**: a well-formed number is read, whatever follows it, as its decimal value up to a relative error of `steps` roundings. -/
theorem C110_number {n : Num} (hn : n.Valid) (hsm : n.Small) {w : List Char} (tail : List Char) (hw : Stops n w) :
    ∃ y, tryParseDoubleR o (n.text ++ (w ++ tail)) (n.text ++ w).length = .ok (some y) ∧ |fl y - n.value| ≤ gam u (steps c n) * |(n.value : K)| := by
  refine ⟨_, parse_run o hn hsm tail hw, ?_⟩
  obtain ⟨t, a1, a2⟩ := optFold_acc h ho hn
  obtain ⟨s, b1, b2⟩ := ho.pow5 (expVal n.exp)
  obtain ⟨t1, c1, c2⟩ := h.mul_th (optFold o (intFold o 0 n.int) n.frac) (o.pow5 (expVal n.exp))
  obtain ⟨t2, d1, d2⟩ := h.mul_th (o.conv (if decide (n.sign = ['-']) then -1 else 1))
    (o.ldexp (optFold o (intFold o 0 n.int) n.frac * o.pow5 (expVal n.exp)) (expVal n.exp))
  have hsg : fl (o.conv (if decide (n.sign = ['-']) then -1 else 1)) = if n.sign = ['-'] then (-1 : K) else 1 := by
    by_cases hs : n.sign = ['-']
    · simp only [hs, decide_true, if_true]
      rw [ho.conv _ le_rfl (by norm_num)]; simp
    · simp only [hs, decide_false, if_false]
      rw [if_neg (by simp), ho.conv _ (by norm_num) (by norm_num)]; simp
  have hth : Th u (steps c n) (t * s * t1 * t2) := by
    have := ((a1.mul h.u_lt b1).mul h.u_lt c1).mul h.u_lt d1
    refine h.th_mono this ?_
    unfold steps
    omega
  have e : fl (assembleR o (decide (n.sign = ['-'])) (optFold o (intFold o 0 n.int) n.frac) (expVal n.exp)) = n.value * (t * s * t1 * t2) := by
    unfold assembleR Num.value
    rw [d2, hsg, ho.ldexp, c2, a2, b2]
    have : (10 : K) ^ expVal n.exp = 5 ^ expVal n.exp * 2 ^ expVal n.exp := by rw [← mul_zpow]; norm_num
    rw [this]
    ring
  rw [e, show n.value * (t * s * t1 * t2) - n.value = (t * s * t1 * t2 - 1) * n.value by ring, abs_mul]
  exact mul_le_mul_of_nonneg_right (hth.abs_sub h.u_lt) (abs_nonneg _)

/-- **C110**: an integer (digits without point and exponent) up to the largest number below which all integers are numbers of the type is read exactly. -/
theorem C110_integer {B : Nat} (hB : ∀ k : Nat, k ≤ B → ∃ a, fl a = k) (hneg : ∀ a, ∃ b, fl b = - fl a) {n : Num} (hn : n.Valid) (hf : n.frac = none) (he : n.exp = none)
    (hle : natVal n.int ≤ B) {w : List Char} (tail : List Char) (hw : Stops n w) :
    ∃ y, tryParseDoubleR o (n.text ++ (w ++ tail)) (n.text ++ w).length = .ok (some y) ∧ fl y = n.value := by
  have hsm : n.Small := fun e s d hx => by rw [he] at hx; cases hx
  refine ⟨_, parse_run o hn hsm tail hw, ?_⟩
  have key : ∀ (ds : List Char) (hd : ∀ c ∈ ds, IsDigit c) (m : F) (x : Nat), fl m = x → x * 10 ^ ds.length + natVal ds ≤ B →
      fl (intFold o m ds) = ((x * 10 ^ ds.length + natVal ds : Nat) : K) := by
    intro ds
    induction ds with
    | nil => intro _ m x hm _; simpa [intFold, natVal] using hm
    | cons d ds ih =>
      intro hd m x hm hb
      have hv : x * 10 ^ (d :: ds).length + natVal (d :: ds) = (x * 10 + digit d) * 10 ^ ds.length + natVal ds := by
        simp only [natVal, digit_eq, List.length_cons]; ring
      rw [hv] at hb ⊢
      have hp : 1 ≤ 10 ^ ds.length := Nat.one_le_pow _ _ (by norm_num)
      have hle : x * 10 + digit d ≤ (x * 10 + digit d) * 10 ^ ds.length := Nat.le_mul_of_pos_right _ hp
      refine ih (fun c hc => hd c (by simp [hc])) _ _ ?_ hb
      obtain ⟨a, ha⟩ := hB (x * 10) (by omega)
      obtain ⟨b, hb'⟩ := hB (x * 10 + digit d) (by omega)
      have e1 : m * o.conv 10 = a := h.mul_exact _ _ _ (by rw [hm, ho.conv 10 (by norm_num) (by norm_num), ha]; push_cast; ring)
      have e2 : a + o.conv (digit d) = b := h.add_exact _ _ _ (by rw [ha, hb', conv_digit h ho (hd d (by simp))]; push_cast; ring)
      rw [e1, e2, hb']
  have k0 := key n.int hn.int.2 0 0 (by rw [h.zero]; simp) (by simpa using hle)
  rw [Nat.zero_mul, Nat.zero_add] at k0
  unfold assembleR Num.value
  rw [hf, he]
  simp only [optFold, expVal, fracVal, _root_.add_zero, zpow_zero, _root_.mul_one]
  have e5 : intFold o 0 n.int * o.pow5 0 = intFold o 0 n.int := h.mul_exact _ _ _ (by rw [ho.pow5_zero, _root_.mul_one])
  have el : o.ldexp (intFold o 0 n.int) 0 = intFold o 0 n.int := h.inj (by rw [ho.ldexp, zpow_zero, _root_.mul_one])
  rw [e5, el]
  by_cases hs : n.sign = ['-']
  · simp only [hs, decide_true, if_true]
    obtain ⟨b, hb⟩ := hneg (intFold o 0 n.int)
    rw [h.mul_exact (o.conv (-1)) _ b (by rw [hb, ho.conv _ le_rfl (by norm_num)]; push_cast; ring), hb, k0]
    ring
  · simp only [hs, decide_false, if_false]
    rw [if_neg (by simp), h.mul_exact (o.conv 1) _ (intFold o 0 n.int) (by rw [ho.conv _ (by norm_num) (by norm_num)]; push_cast; ring), k0]
    ring

/-- **C110**: a coordinate in a line: blanks are skipped, the number is read as a `double` and converted to `float` (with relative error `v`), and reading goes on
right after the number. -/
theorem C110_field {G : Type} {fl' : G → K} {v : K} (hv : 0 ≤ v) {cast : F → G} (hcast : ∀ a, |fl' (cast a) - fl a| ≤ v * |fl a|) {b : List Char} (hb : IsBlanks b)
    {n : Num} (hn : n.Valid) (hsm : n.Small) {t : Char} (ht : IsEnd t) (r : List Char) :
    ∃ y, parseFloatR o cast (b ++ (n.text ++ t :: r)) = .ok (y, t :: r) ∧ |fl' y - n.value| ≤ (v + (1 + v) * gam u (steps c n)) * |(n.value : K)| := by
  obtain ⟨y, h1, h2⟩ := C110_number h ho hn hsm (w := []) (t :: r) (by intro c hc; simp at hc)
  simp only [List.nil_append, List.append_nil] at h1
  refine ⟨cast y, ?_, ?_⟩
  · obtain ⟨c', w', hw⟩ : ∃ c w', n.text = c :: w' := by
      cases hx : n.text with
      | nil => exact absurd hx (Num.text_ne hn)
      | cons c w => exact ⟨c, w, rfl⟩
    have hword := Num.isWord hn
    have hc : c' ∉ blanks := by
      intro hx
      refine (hword c' (by rw [hw]; simp)).2 ?_
      unfold blanks at hx
      unfold blanksCr
      simp only [List.mem_cons, List.not_mem_nil, or_false] at hx ⊢
      tauto
    have s1 : strspn blanks (b ++ (n.text ++ t :: r)) = .ok b.length := by rw [hw, List.cons_append]; exact strspn_ok b hb hc _
    unfold parseFloatR
    rw [s1]
    simp only [ok_bind]
    rw [adv_append]
    simp only [ok_bind]
    rw [strcspn_ok n.text hword ht]
    simp only [ok_bind]
    rw [h1]
    simp only [ok_bind]
    rw [adv_append]
    rfl
  · have k1 := hcast y
    have k2 := abs_sub_abs_le_abs_sub (fl y) n.value
    have k3 := abs_sub_le (fl' (cast y)) (fl y) n.value
    have g0 := gam_nonneg (n := steps c n) h.u_nonneg h.u_lt
    have k4 : v * |fl y| ≤ v * ((1 + gam u (steps c n)) * |(n.value : K)|) := mul_le_mul_of_nonneg_left (by linarith) hv
    nlinarith [abs_nonneg (n.value : K)]
end accuracy

/-! ### The hypotheses can be met -/

/-- binary numbers with `p + 1` significant bits (`double`: 53); `pow` is the correctly rounded power -/
def binOps (p : Nat) : NumOps (Bin p) :=
  ⟨fun k => Bin.rnd k, fun r => Bin.rnd ((10 : ℚ) ^ r)⁻¹, fun e => Bin.rnd ((5 : ℚ) ^ e), fun a e => Bin.rnd (a.toRat * (2 : ℚ) ^ e)⟩

theorem binOps_accurate {p : Nat} (hp : 4 ≤ p) : Accurate Bin.toRat ((1 / 2) ^ (p + 1)) 1 (binOps p) := by
  have hu0 : (0 : ℚ) ≤ (1 / 2) ^ (p + 1) := by positivity
  have hu1 : ((1 : ℚ) / 2) ^ (p + 1) < 1 := pow_lt_one₀ (by norm_num) (by norm_num) (by omega)
  have hr : ∀ x : ℚ, ∃ t, Th (((1 : ℚ) / 2) ^ (p + 1)) 1 t ∧ (Bin.rnd (p := p) x).toRat = x * t := fun x => th_of_err hu0 hu1 (rn_err (p + 1) x)
  refine ⟨fun k h1 h2 => ?_, fun r => hr _, fun e => hr _, ?_, fun a e => ?_⟩
  · refine rn_exact ⟨k, 0, ?_, by simp⟩
    have : (16 : ℤ) ≤ 2 ^ (p + 1) := by
      calc (16 : ℤ) = 2 ^ 4 := by norm_num
        _ ≤ 2 ^ (p + 1) := pow_le_pow_right₀ (by norm_num) (by omega)
    rw [abs_lt]; constructor <;> omega
  · show rn (p + 1) _ = 1
    rw [zpow_zero]
    exact rn_exact ⟨1, 0, by rw [abs_one]; exact one_lt_pow₀ (by norm_num) (by omega), by simp⟩
  · refine rn_exact ?_
    obtain ⟨m, k, hm, hx⟩ := a.bin
    exact ⟨m, k + e, hm, by rw [hx, zpow_add₀ (by norm_num)]; ring⟩

/-- C110 for `double`: a number with at most 15 digits before and 15 after the point is read with relative error at most `10^-14` -/
example {n : Num} (hn : n.Valid) (hsm : n.Small) (h1 : n.int.length ≤ 15) (h2 : fracLen n.frac ≤ 15) {w : List Char} (tail : List Char) (hw : Stops n w) :
    ∃ y, tryParseDoubleR (binOps 52) (n.text ++ (w ++ tail)) (n.text ++ w).length = .ok (some y) ∧ |y.toRat - n.value| ≤ 1 / 10 ^ 14 * |(n.value : ℚ)| := by
  obtain ⟨y, e1, e2⟩ := C110_number (Bin.std 52) (binOps_accurate (by norm_num)) hn hsm tail hw
  refine ⟨y, e1, e2.trans (mul_le_mul_of_nonneg_right ?_ (abs_nonneg _))⟩
  refine (gam_mono (by positivity) (by norm_num) (show steps 1 n ≤ 50 by unfold steps; omega)).trans ((gam_le (by positivity) (by norm_num)).trans (by norm_num))

/-- with five bits `0.1` is read as `13/128`, the nearest number, and `31` exactly -/
example : tryParseDoubleR (binOps 4) "0.1 ".toList 3 = .ok (some (Bin.rnd (1 / 10))) ∧ (Bin.rnd (p := 4) (1 / 10)).toRat = 13 / 128 ∧
    tryParseDoubleR (binOps 4) "31 ".toList 2 = .ok (some (Bin.rnd 31)) ∧ (Bin.rnd (p := 4) 31).toRat = 31 := by decide +kernel

end NS.Props.Obj

/-
Property theorems C57: the quadrature rules integrate polynomials of their nominal degree.
-/
import Verif.QuadratureModel
import Verif.Props.Shape
import Mathlib.MeasureTheory.Integral.IntervalIntegral.FundThmCalculus
import Mathlib.Analysis.SpecialFunctions.Integrals.Basic

set_option linter.unusedSectionVars false
set_option linter.unusedSimpArgs false

namespace NS.Props.Quadrature
open NS NS.Quadrature NS.Props.Shape

/-- the integral of `f` over the reference simplex: the segment [0,1] or the triangle (0,0), (1,0), (0,1) -/
noncomputable def simplexIntegral : (K : Nat) → (List ℝ → ℝ) → ℝ
  | 1, f => ∫ x in (0 : ℝ)..1, f [x]
  | 2, f => ∫ x in (0 : ℝ)..1, ∫ y in (0 : ℝ)..(1 - x), f [x, y]
  | _, _ => 0

/-- degree up to which the rule is meant to be exact: `2n-1` for `n` Gauss points, 1, 2 and 3 on the triangle -/
def nominal (K order : Nat) : Nat := if K = 1 then 2 * order - 1 else order

/-- sum of the absolute values of the coefficients -/
noncomputable def norm1 {K : Nat} (p : MvPolynomial (Fin K) ℝ) : ℝ := ∑ m ∈ p.support, |p.coeff m|

/-- a polynomial as an integrand -/
noncomputable def fn {K : Nat} (p : MvPolynomial (Fin K) ℝ) (v : List ℝ) : ℝ := MvPolynomial.eval (pt K v) p

section general
variable {T : Type} [Field T] {α : Type} [AddCommGroup α] [Module T α]

/-- the rule as a weighted sum -/
def rule (K order : Nat) (f : Nat → List T → α) : α :=
  ((table K order).zipIdx.map fun x => (x.1.2 * unitVolume K) • f x.2 x.1.1).sum

theorem evalIndex_eq {K order : Nat} (h : supported K order) (f : Nat → List T → α) (start : α) :
    evalIndex K order f start = .ok (start + rule K order f) := by
  obtain ⟨rfl | rfl, h1, h2⟩ := h <;> interval_cases order <;> refine congrArg Except.ok ?_ <;>
    simp [rule, table, List.zipIdx, add_assoc]

theorem eval_eq {K order : Nat} (h : supported K order) (f : List T → α) (start : α) :
    eval K order f start = .ok (start + rule K order fun _ => f) := by
  obtain ⟨rfl | rfl, h1, h2⟩ := h <;> interval_cases order <;> refine congrArg Except.ok ?_ <;>
    simp [rule, table, List.zipIdx, add_assoc]
end general

/-- integral of a monomial over the reference simplex -/
noncomputable def monoInt : (K : Nat) → (Fin K →₀ ℕ) → ℝ
  | 1, m => 1 / ((m 0 : ℝ) + 1)
  | 2, m => ∫ x in (0 : ℝ)..1, x ^ (m 0) * ((1 - x) ^ (m 1 + 1) / ((m 1 : ℝ) + 1))
  | _, _ => 0

theorem fn_eq {K : Nat} (p : MvPolynomial (Fin K) ℝ) (v : List ℝ) :
    fn p v = ∑ m ∈ p.support, p.coeff m * ∏ i, pt K v i ^ m i := MvPolynomial.eval_eq' _ _

theorem integral_fn {K : Nat} (hK : K = 1 ∨ K = 2) (p : MvPolynomial (Fin K) ℝ) :
    simplexIntegral K (fn p) = ∑ m ∈ p.support, p.coeff m * monoInt K m := by
  rcases hK with rfl | rfl
  · simp only [simplexIntegral, fn_eq, monoInt]
    rw [intervalIntegral.integral_finsetSum]
    · refine Finset.sum_congr rfl fun m _ => ?_
      rw [intervalIntegral.integral_const_mul]
      simp [pt, integral_pow]
    · intro m _
      refine Continuous.intervalIntegrable ?_ _ _
      simp only [pt, Fin.prod_univ_succ, Fin.prod_univ_zero]
      simp
      fun_prop
  · simp only [simplexIntegral, fn_eq, monoInt]
    have inner : ∀ x : ℝ, (∫ y in (0 : ℝ)..(1 - x), ∑ m ∈ p.support, p.coeff m * ∏ i, pt 2 [x, y] i ^ m i) =
        ∑ m ∈ p.support, p.coeff m * (x ^ (m 0) * ((1 - x) ^ (m 1 + 1) / ((m 1 : ℝ) + 1))) := by
      intro x
      rw [intervalIntegral.integral_finsetSum]
      · refine Finset.sum_congr rfl fun m _ => ?_
        rw [intervalIntegral.integral_const_mul]
        simp only [pt, Fin.prod_univ_two]
        simp [integral_pow]
      · intro m _
        refine Continuous.intervalIntegrable ?_ _ _
        simp only [pt, Fin.prod_univ_two]
        simp
        fun_prop
    simp only [inner]
    rw [intervalIntegral.integral_finsetSum]
    · refine Finset.sum_congr rfl fun m _ => ?_
      rw [intervalIntegral.integral_const_mul]
    · intro m _
      refine Continuous.intervalIntegrable ?_ _ _
      fun_prop

theorem poly4 (c0 c1 c2 c3 c4 : ℝ) : (∫ x in (0 : ℝ)..1, c0 + c1 * x + c2 * x ^ 2 + c3 * x ^ 3 + c4 * x ^ 4) =
    c0 + c1 / 2 + c2 / 3 + c3 / 4 + c4 / 5 := by
  have : ∀ x ∈ Set.uIcc (0 : ℝ) 1, HasDerivAt (fun x => c0 * x + c1 / 2 * x ^ 2 + c2 / 3 * x ^ 3 + c3 / 4 * x ^ 4 + c4 / 5 * x ^ 5)
      (c0 + c1 * x + c2 * x ^ 2 + c3 * x ^ 3 + c4 * x ^ 4) x := by
    intro x _
    have e1 := (hasDerivAt_id x).const_mul c0
    have e2 := (hasDerivAt_pow 2 x).const_mul (c1 / 2)
    have e3 := (hasDerivAt_pow 3 x).const_mul (c2 / 3)
    have e4 := (hasDerivAt_pow 4 x).const_mul (c3 / 4)
    have e5 := (hasDerivAt_pow 5 x).const_mul (c4 / 5)
    refine ((((e1.add e2).add e3).add e4).add e5).congr_deriv ?_
    push_cast
    ring
  rw [intervalIntegral.integral_eq_sub_of_hasDerivAt this]
  · norm_num
  · refine Continuous.intervalIntegrable ?_ _ _
    fun_prop

theorem of_poly (f : ℝ → ℝ) (c0 c1 c2 c3 c4 : ℝ) (h : ∀ x, f x = c0 + c1 * x + c2 * x ^ 2 + c3 * x ^ 3 + c4 * x ^ 4) :
    (∫ x in (0 : ℝ)..1, f x) = c0 + c1 / 2 + c2 / 3 + c3 / 4 + c4 / 5 := by
  rw [← poly4]; simp only [h]

theorem tri (a b : Nat) (h : a + b ≤ 3) : (∫ x in (0 : ℝ)..1, x ^ a * ((1 - x) ^ (b + 1) / ((b : ℝ) + 1))) =
    (a.factorial * b.factorial / (a + b + 2).factorial : ℝ) := by
  have hb : b ≤ 3 := by omega
  have ha : a ≤ 3 := by omega
  interval_cases a <;> interval_cases b <;> try omega
  · rw [of_poly _ (1) (-1) (0) (0) (0) (fun x => by push_cast; ring)]
    norm_num [Nat.factorial]
  · rw [of_poly _ (1/2) (-1) (1/2) (0) (0) (fun x => by push_cast; ring)]
    norm_num [Nat.factorial]
  · rw [of_poly _ (1/3) (-1) (1) (-1/3) (0) (fun x => by push_cast; ring)]
    norm_num [Nat.factorial]
  · rw [of_poly _ (1/4) (-1) (3/2) (-1) (1/4) (fun x => by push_cast; ring)]
    norm_num [Nat.factorial]
  · rw [of_poly _ (0) (1) (-1) (0) (0) (fun x => by push_cast; ring)]
    norm_num [Nat.factorial]
  · rw [of_poly _ (0) (1/2) (-1) (1/2) (0) (fun x => by push_cast; ring)]
    norm_num [Nat.factorial]
  · rw [of_poly _ (0) (1/3) (-1) (1) (-1/3) (fun x => by push_cast; ring)]
    norm_num [Nat.factorial]
  · rw [of_poly _ (0) (0) (1) (-1) (0) (fun x => by push_cast; ring)]
    norm_num [Nat.factorial]
  · rw [of_poly _ (0) (0) (1/2) (-1) (1/2) (fun x => by push_cast; ring)]
    norm_num [Nat.factorial]
  · rw [of_poly _ (0) (0) (0) (1) (-1) (fun x => by push_cast; ring)]
    norm_num [Nat.factorial]

/-- the rule on a monomial -/
theorem mono_error {K order : Nat} (h : supported K order) (m : Fin K →₀ ℕ) (hm : (m.sum fun _ e => e) ≤ nominal K order) :
    |rule K order (fun _ v => ∏ i, pt K v i ^ m i) - monoInt K m| ≤ 1 / 10 ^ 13 := by
  rw [Finsupp.sum_fintype _ _ (fun _ => rfl)] at hm
  obtain ⟨rfl | rfl, h1, h2⟩ := h
  · simp only [Fin.sum_univ_succ, Fin.sum_univ_zero, Finset.univ_eq_empty, Finset.sum_empty] at hm
    simp only [Fin.prod_univ_succ, pt, monoInt, rule]
    generalize m 0 = a at *
    interval_cases order <;> simp [nominal] at hm <;> interval_cases a <;>
      simp [table, List.zipIdx, unitVolume, lit] <;> norm_num [abs_le]
  · rw [Fin.sum_univ_two] at hm
    simp only [Fin.prod_univ_two, pt, monoInt, rule]
    generalize m 0 = a at *
    generalize m 1 = b at *
    have hn : nominal 2 order = order := rfl
    rw [hn] at hm
    rw [tri a b (by omega)]
    interval_cases order
    all_goals
      have ha : a ≤ 3 := by omega
      have hb : b ≤ 3 := by omega
      interval_cases a <;> interval_cases b <;> first
        | omega
        | (simp [table, List.zipIdx, unitVolume, lit, Nat.factorial] <;> norm_num [abs_le])

theorem rule_fn {K order : Nat} (h : supported K order) (p : MvPolynomial (Fin K) ℝ) :
    rule K order (fun _ => fn p) = ∑ m ∈ p.support, p.coeff m * rule K order (fun _ v => ∏ i, pt K v i ^ m i) := by
  show rule K order (fun _ v => fn p v) = _
  simp only [fn_eq]
  obtain ⟨rfl | rfl, h1, h2⟩ := h <;> interval_cases order <;>
    simp only [rule, table, List.zipIdx, List.map_cons, List.map_nil, List.sum_cons, List.sum_nil, smul_eq_mul, mul_add, Finset.sum_add_distrib, Finset.mul_sum, add_zero] <;>
    first
      | exact Finset.sum_congr rfl fun m _ => by ring
      | (refine congrArg₂ _ ?_ (congrArg₂ _ ?_ ?_) <;> exact Finset.sum_congr rfl fun m _ => by ring)
      | (refine congrArg₂ _ ?_ ?_ <;> exact Finset.sum_congr rfl fun m _ => by ring)
      | (refine congrArg₂ _ ?_ (congrArg₂ _ ?_ (congrArg₂ _ ?_ ?_)) <;> exact Finset.sum_congr rfl fun m _ => by ring)

/-- C57: for every supported dimension and order and every polynomial up to the nominal degree of the rule, `eval` returns
`start` plus the integral over the reference simplex, up to the rounding of the tabulated constants. -/
theorem C57_polynomial {K order : Nat} (h : supported K order) (p : MvPolynomial (Fin K) ℝ) (hp : p.totalDegree ≤ nominal K order)
    (start : ℝ) : ∃ y, eval K order (fn p) start = .ok y ∧ |y - (start + simplexIntegral K (fn p))| ≤ 1 / 10 ^ 13 * norm1 p := by
  refine ⟨_, eval_eq h _ _, ?_⟩
  rw [rule_fn h, integral_fn h.1, show ∀ a b c : ℝ, a + b - (a + c) = b - c from fun a b c => by ring, ← Finset.sum_sub_distrib, norm1, Finset.mul_sum]
  refine (Finset.abs_sum_le_sum_abs _ _).trans (Finset.sum_le_sum fun m hm => ?_)
  rw [← mul_sub, abs_mul, mul_comm]
  refine mul_le_mul_of_nonneg_right (mono_error h m ?_) (abs_nonneg _)
  exact (MvPolynomial.le_totalDegree hm).trans hp

/-- C57, the rule for any integrand (scalars, vectors, matrices): the weighted sum of the values at the points, added to
`start`; `eval_index` also passes the number of the point. -/
theorem C57_weighted_sum {T : Type} [Field T] {α : Type} [AddCommGroup α] [Module T α] {K order : Nat} (h : supported K order) :
    ∃ (ps : List (List T)) (ws : List T), points K order = ps ∧ weights K order = .ok ws ∧ ps.length = ws.length ∧ ps ≠ [] ∧
      (∀ p ∈ ps, p.length = K) ∧
      (∀ (f : List T → α) start, eval K order f start = .ok (start + ((ps.zip ws).map fun x => x.2 • f x.1).sum)) ∧
      ∀ (f : Nat → List T → α) start, evalIndex K order f start = .ok (start + ((ps.zip ws).zipIdx.map fun x => x.1.2 • f x.2 x.1.1).sum) := by
  have hw : weights K order = .ok ((table K order).map fun x => x.2 * unitVolume K : List T) := by
    obtain ⟨rfl | rfl, h1, h2⟩ := h <;> interval_cases order <;> rfl
  refine ⟨_, _, rfl, hw, by simp [points], ?_, ?_, fun f start => ?_, fun f start => ?_⟩
  · obtain ⟨rfl | rfl, h1, h2⟩ := h <;> interval_cases order <;> simp [points, table]
  · obtain ⟨rfl | rfl, h1, h2⟩ := h <;> interval_cases order <;> simp [points, table]
  · rw [eval_eq h]
    obtain ⟨rfl | rfl, h1, h2⟩ := h <;> interval_cases order <;> rfl
  · rw [evalIndex_eq h]
    obtain ⟨rfl | rfl, h1, h2⟩ := h <;> interval_cases order <;> rfl

/-- C57: every point lies inside the reference simplex -/
theorem C57_inside {K order : Nat} (h : supported K order) : ∀ v ∈ (points K order : List (List ℝ)), (∀ x ∈ v, 0 ≤ x) ∧ v.sum ≤ 1 := by
  obtain ⟨rfl | rfl, h1, h2⟩ := h <;> interval_cases order <;> simp [points, table, lit] <;> norm_num

theorem norm1_monomial {K : Nat} (m : Fin K →₀ ℕ) : norm1 (MvPolynomial.monomial m (1 : ℝ)) = 1 := by
  classical
  unfold norm1
  rw [MvPolynomial.support_monomial, if_neg one_ne_zero]
  simp

theorem fn_monomial {K : Nat} (m : Fin K →₀ ℕ) (v : List ℝ) : fn (MvPolynomial.monomial m (1 : ℝ)) v = ∏ i, pt K v i ^ m i := by
  unfold fn
  rw [MvPolynomial.eval_monomial, one_mul, Finsupp.prod_fintype _ _ (fun _ => pow_zero _)]

/-- C57: the nominal degree is sharp; some polynomial of one degree more is integrated with an error that is not due to
rounding -/
theorem C57_sharp {K order : Nat} (h : supported K order) : ∃ p : MvPolynomial (Fin K) ℝ, p.totalDegree = nominal K order + 1 ∧ norm1 p = 1 ∧
    ∃ y, eval K order (fn p) 0 = .ok y ∧ 1 / 10 ^ 4 < |y - simplexIntegral K (fn p)| := by
  classical
  obtain ⟨rfl | rfl, h1, h2⟩ := h
  · refine ⟨MvPolynomial.monomial (Finsupp.single 0 (nominal 1 order + 1)) 1, ?_, norm1_monomial _, _, eval_eq ⟨.inl rfl, h1, h2⟩ _ _, ?_⟩
    · rw [MvPolynomial.totalDegree_monomial _ one_ne_zero, Finsupp.sum_single_index rfl]
    · rw [integral_fn (.inl rfl), MvPolynomial.support_monomial, if_neg one_ne_zero]
      simp only [funext (fn_monomial _)]
      simp only [Finset.sum_singleton, MvPolynomial.coeff_monomial, if_true, one_mul, zero_add]
      interval_cases order <;>
        simp [rule, table, List.zipIdx, unitVolume, lit, pt, monoInt, nominal] <;> norm_num [abs_lt, lt_abs]
  · refine ⟨MvPolynomial.monomial (Finsupp.single 0 (nominal 2 order + 1)) 1, ?_, norm1_monomial _, _, eval_eq ⟨.inr rfl, h1, h2⟩ _ _, ?_⟩
    · rw [MvPolynomial.totalDegree_monomial _ one_ne_zero, Finsupp.sum_single_index rfl]
    · rw [integral_fn (.inr rfl), MvPolynomial.support_monomial, if_neg one_ne_zero]
      simp only [funext (fn_monomial _)]
      simp only [Finset.sum_singleton, MvPolynomial.coeff_monomial, if_true, one_mul, zero_add, monoInt]
      have hi : (∫ x in (0 : ℝ)..1, x ^ ((Finsupp.single (0 : Fin 2) (nominal 2 order + 1)) 0) *
          ((1 - x) ^ ((Finsupp.single (0 : Fin 2) (nominal 2 order + 1)) 1 + 1) / (((Finsupp.single (0 : Fin 2) (nominal 2 order + 1)) 1 : ℕ) + 1 : ℝ))) =
          1 / (((nominal 2 order + 1 : ℕ) : ℝ) + 1) - 1 / (((nominal 2 order + 2 : ℕ) : ℝ) + 1) := by
        have : ∀ x : ℝ, x ^ ((Finsupp.single (0 : Fin 2) (nominal 2 order + 1)) 0) *
          ((1 - x) ^ ((Finsupp.single (0 : Fin 2) (nominal 2 order + 1)) 1 + 1) / (((Finsupp.single (0 : Fin 2) (nominal 2 order + 1)) 1 : ℕ) + 1 : ℝ)) =
            x ^ (nominal 2 order + 1) - x ^ (nominal 2 order + 2) := by
          intro x
          rw [Finsupp.single_eq_same, Finsupp.single_eq_of_ne (by decide)]
          push_cast
          ring
        simp only [this]
        rw [intervalIntegral.integral_sub (Continuous.intervalIntegrable (by fun_prop) _ _) (Continuous.intervalIntegrable (by fun_prop) _ _), integral_pow, integral_pow]
        simp
      rw [hi]
      interval_cases order <;>
        simp [rule, table, List.zipIdx, unitVolume, lit, pt, nominal] <;> norm_num [abs_lt, lt_abs]

/-- C57: the rules are not exact: three times the tabulated 0.333333333333333 is not 1 -/
theorem C57_not_exact : ∃ y, eval 2 2 (fn (1 : MvPolynomial (Fin 2) ℝ)) 0 = .ok y ∧ y ≠ simplexIntegral 2 (fn (1 : MvPolynomial (Fin 2) ℝ)) := by
  have h1 : simplexIntegral 2 (fn (1 : MvPolynomial (Fin 2) ℝ)) = 1 / 2 := by
    have := tri 0 0 (by omega)
    simp [simplexIntegral, fn]
    norm_num at this
    simpa using this
  refine ⟨_, eval_eq ⟨.inr rfl, by omega, by omega⟩ _ _, ?_⟩
  rw [h1]
  simp [rule, table, List.zipIdx, unitVolume, lit, fn]
  norm_num

/-- non-vacuity: the integral of `x y` over the triangle is 1/24, and the rules of order 2 and 3 apply to it -/
example : supported 2 2 ∧ supported 2 3 ∧ (MvPolynomial.X 0 * MvPolynomial.X 1 : MvPolynomial (Fin 2) ℝ).totalDegree ≤ nominal 2 2 ∧
    simplexIntegral 2 (fn (MvPolynomial.X 0 * MvPolynomial.X 1 : MvPolynomial (Fin 2) ℝ)) = 1 / 24 := by
  refine ⟨⟨.inr rfl, by omega, by omega⟩, ⟨.inr rfl, by omega, by omega⟩, ?_, ?_⟩
  · refine (MvPolynomial.totalDegree_mul _ _).trans ?_
    simp [nominal]
  · have := tri 1 1 (by omega)
    have h2 : ∀ x y : ℝ, fn (MvPolynomial.X 0 * MvPolynomial.X 1 : MvPolynomial (Fin 2) ℝ) [x, y] = x * y := by
      intro x y
      simp [fn, pt]
    have h3 : ∀ x : ℝ, (∫ y in (0 : ℝ)..(1 - x), x * y) = x * ((1 - x) ^ 2 / 2) := by
      intro x
      rw [intervalIntegral.integral_const_mul, integral_id]; ring
    simp only [simplexIntegral, h2, h3]
    norm_num at this ⊢
    exact this

end NS.Props.Quadrature

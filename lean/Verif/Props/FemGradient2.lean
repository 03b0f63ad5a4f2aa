/-
Property theorems C66, order 2: the element matrix of the finite element example and the exact one.
-/
import Verif.Props.FemGradient

set_option linter.unusedSectionVars false
set_option linter.unusedSimpArgs false

namespace NS.Props.Fem
open NS NS.World NS.Fem Matrix NS.Props.Shape
open NS.Props.Simplex (area2 prepOf)
open NS.Props.Quadrature (simplexIntegral)

/-! ### Specification -/

/-- `G p` is the gradient of the `i`-th shape function at the point of the triangle `P` with local coordinates `p`: for
each of the two edges from `P 0`, its product with the edge is the rate at which the function changes along that edge -/
def IsGradField (order : Nat) (P : Fin 3 → Fin 2 → ℝ) (i : Nat) (G : List ℝ → Fin 2 → ℝ) : Prop :=
  ∀ x y : ℝ, HasDerivAt (fun t => basisAt order i [x + t, y]) (G [x, y] ⬝ᵥ (P 1 - P 0)) 0 ∧
    HasDerivAt (fun t => basisAt order i [x, y + t]) (G [x, y] ⬝ᵥ (P 2 - P 0)) 0

/-- the exact entry: the integral over the triangle of the product of the gradients of the shape functions `i` and `j` -/
noncomputable def exactEnergy2 (P : Fin 3 → Fin 2 → ℝ) (Gi Gj : List ℝ → Fin 2 → ℝ) : ℝ :=
  |area2 P| * simplexIntegral 2 fun p => Gi p ⬝ᵥ Gj p

/-- the rounding of the tabulated quadrature points and weights: 10⁻¹⁰ relative to the size of the matrix entries, which is
the sum of the squares of two edges divided by the area -/
noncomputable def slack (P : Fin 3 → Fin 2 → ℝ) : ℝ :=
  1 / 10 ^ 10 * (((P 1 - P 0) ⬝ᵥ (P 1 - P 0) + (P 2 - P 0) ⬝ᵥ (P 2 - P 0)) / |area2 P|)

/-! ### The gradients of the shape functions of order 2 are affine -/

theorem grad_affine {i : Nat} (hi : i < 6) (k : Fin 2) : ∃ a b c : ℝ, (∀ x y, gradAt 2 i [x, y] k = a + b * x + c * y) ∧ |a| + |b| + |c| ≤ 16 := by
  have p0 : ∀ x y : ℝ, pt 2 [x, y] 0 = x := fun _ _ => rfl
  have p1 : ∀ x y : ℝ, pt 2 [x, y] 1 = y := fun _ _ => rfl
  have mk : ∀ a b c : ℝ, (∀ x y, gradAt 2 i [x, y] k = a + b * x + c * y) → |a| + |b| + |c| ≤ 16 →
      ∃ a b c : ℝ, (∀ x y, gradAt 2 i [x, y] k = a + b * x + c * y) ∧ |a| + |b| + |c| ≤ 16 := fun a b c h h' => ⟨a, b, c, h, h'⟩
  interval_cases i <;> fin_cases k
  · refine mk (-3) 4 4 (fun x y => ?_) (by norm_num)
    simp [gradAt, basis, hat, MvPolynomial.pderiv_X, Pi.single_apply, p0, p1]; ring
  · refine mk (-3) 4 4 (fun x y => ?_) (by norm_num)
    simp [gradAt, basis, hat, MvPolynomial.pderiv_X, Pi.single_apply, p0, p1]; ring
  · refine mk (-1) 4 0 (fun x y => ?_) (by norm_num)
    simp [gradAt, basis, hat, MvPolynomial.pderiv_X, Pi.single_apply, p0, p1]; ring
  · refine mk 0 0 0 (fun x y => ?_) (by norm_num)
    simp [gradAt, basis, hat, MvPolynomial.pderiv_X, Pi.single_apply, p0, p1]
  · refine mk 0 0 0 (fun x y => ?_) (by norm_num)
    simp [gradAt, basis, hat, MvPolynomial.pderiv_X, Pi.single_apply, p0, p1]
  · refine mk (-1) 0 4 (fun x y => ?_) (by norm_num)
    simp [gradAt, basis, hat, MvPolynomial.pderiv_X, Pi.single_apply, p0, p1]; ring
  · refine mk 4 (-8) (-4) (fun x y => ?_) (by norm_num)
    simp [gradAt, basis, hat, MvPolynomial.pderiv_X, Pi.single_apply, p0, p1]; ring
  · refine mk 0 (-4) 0 (fun x y => ?_) (by norm_num)
    simp [gradAt, basis, hat, MvPolynomial.pderiv_X, Pi.single_apply, p0, p1]
  · refine mk 0 0 4 (fun x y => ?_) (by norm_num)
    simp [gradAt, basis, hat, MvPolynomial.pderiv_X, Pi.single_apply, p0, p1]
  · refine mk 0 4 0 (fun x y => ?_) (by norm_num)
    simp [gradAt, basis, hat, MvPolynomial.pderiv_X, Pi.single_apply, p0, p1]
  · refine mk 0 0 (-4) (fun x y => ?_) (by norm_num)
    simp [gradAt, basis, hat, MvPolynomial.pderiv_X, Pi.single_apply, p0, p1]
  · refine mk 4 (-4) (-8) (fun x y => ?_) (by norm_num)
    simp [gradAt, basis, hat, MvPolynomial.pderiv_X, Pi.single_apply, p0, p1]; ring

/-! ### Integral and rule on a quadratic polynomial -/

theorem integral_quadratic {f : List ℝ → ℝ} {q0 q1 q2 q3 q4 q5 : ℝ}
    (hf : ∀ x y, f [x, y] = q0 + q1 * x + q2 * y + q3 * x ^ 2 + q4 * (x * y) + q5 * y ^ 2) :
    simplexIntegral 2 f = q0 / 2 + q1 / 6 + q2 / 6 + q3 / 12 + q4 / 24 + q5 / 12 := by
  have inner : ∀ x : ℝ, (∫ y in (0 : ℝ)..(1 - x), f [x, y]) =
      (q0 + q1 * x + q3 * x ^ 2) * (1 - x) + (q2 + q4 * x) * ((1 - x) ^ 2 / 2) + q5 * ((1 - x) ^ 3 / 3) := by
    intro x
    have hd : ∀ y ∈ Set.uIcc (0 : ℝ) (1 - x), HasDerivAt (fun y => (q0 + q1 * x + q3 * x ^ 2) * y + (q2 + q4 * x) / 2 * y ^ 2 + q5 / 3 * y ^ 3) (f [x, y]) y := by
      intro y _
      have e1 := (hasDerivAt_id y).const_mul (q0 + q1 * x + q3 * x ^ 2)
      have e2 := (hasDerivAt_pow 2 y).const_mul ((q2 + q4 * x) / 2)
      have e3 := (hasDerivAt_pow 3 y).const_mul (q5 / 3)
      refine ((e1.add e2).add e3).congr_deriv ?_
      rw [hf]; push_cast; ring
    rw [intervalIntegral.integral_eq_sub_of_hasDerivAt hd]
    · ring
    · simp only [hf]
      refine Continuous.intervalIntegrable ?_ _ _
      fun_prop
  show (∫ x in (0 : ℝ)..1, ∫ y in (0 : ℝ)..(1 - x), f [x, y]) = _
  simp only [inner]
  rw [NS.Props.Quadrature.of_poly _ (q0 + q2 / 2 + q5 / 3) (-q0 + q1 - q2 + q4 / 2 - q5) (-q1 + q3 + q2 / 2 - q4 + q5) (-q3 + q4 / 2 - q5 / 3) 0 (fun x => by ring)]
  ring

theorem quad_error {f : List ℝ → ℝ} {q0 q1 q2 q3 q4 q5 : ℝ}
    (hf : ∀ x y, f [x, y] = q0 + q1 * x + q2 * y + q3 * x ^ 2 + q4 * (x * y) + q5 * y ^ 2) :
    |quad 3 f - simplexIntegral 2 f| ≤ 1 / 10 ^ 13 * (|q0| + |q1| + |q2| + |q3| + |q4| + |q5|) := by
  rw [integral_quadratic hf]
  have : ∃ d0 d1 d2 d3 d4 d5 : ℝ, quad 3 f - (q0 / 2 + q1 / 6 + q2 / 6 + q3 / 12 + q4 / 24 + q5 / 12) =
      q0 * d0 + q1 * d1 + q2 * d2 + q3 * d3 + q4 * d4 + q5 * d5 ∧ |d0| ≤ 1 / 10 ^ 13 ∧ |d1| ≤ 1 / 10 ^ 13 ∧ |d2| ≤ 1 / 10 ^ 13 ∧
      |d3| ≤ 1 / 10 ^ 13 ∧ |d4| ≤ 1 / 10 ^ 13 ∧ |d5| ≤ 1 / 10 ^ 13 := by
    refine ⟨quad 3 (fun _ => 1) - 1 / 2, quad 3 (fun p => pt 2 p 0) - 1 / 6, quad 3 (fun p => pt 2 p 1) - 1 / 6,
      quad 3 (fun p => pt 2 p 0 ^ 2) - 1 / 12, quad 3 (fun p => pt 2 p 0 * pt 2 p 1) - 1 / 24, quad 3 (fun p => pt 2 p 1 ^ 2) - 1 / 12, ?_, ?_, ?_, ?_, ?_, ?_, ?_⟩
    · simp only [quad, Quadrature.table, List.map_cons, List.map_nil, List.sum_cons, List.sum_nil, hf, pt, Fin.val_zero, Fin.val_one, List.getD_cons_zero, List.getD_cons_succ]
      ring
    all_goals
      simp [quad, Quadrature.table, Quadrature.lit, pt]
      norm_num [abs_le]
  obtain ⟨d0, d1, d2, d3, d4, d5, he, h0, h1, h2, h3, h4, h5⟩ := this
  rw [he]
  have m : ∀ {q d : ℝ}, |d| ≤ 1 / 10 ^ 13 → |q * d| ≤ 1 / 10 ^ 13 * |q| := by
    intro q d h
    rw [abs_mul, mul_comm]
    exact mul_le_mul_of_nonneg_right h (abs_nonneg _)
  have a1 := abs_add_le (q0 * d0 + q1 * d1 + q2 * d2 + q3 * d3 + q4 * d4) (q5 * d5)
  have a2 := abs_add_le (q0 * d0 + q1 * d1 + q2 * d2 + q3 * d3) (q4 * d4)
  have a3 := abs_add_le (q0 * d0 + q1 * d1 + q2 * d2) (q3 * d3)
  have a4 := abs_add_le (q0 * d0 + q1 * d1) (q2 * d2)
  have a5 := abs_add_le (q0 * d0) (q1 * d1)
  have := m (q := q0) h0; have := m (q := q1) h1; have := m (q := q2) h2
  have := m (q := q3) h3; have := m (q := q4) h4; have := m (q := q5) h5
  linarith

/-! ### The gradient field is determined -/

theorem eval_deriv0 (p : MvPolynomial (Fin 2) ℝ) (x y : ℝ) :
    HasDerivAt (fun t => MvPolynomial.eval (pt 2 [x + t, y]) p) (MvPolynomial.eval (pt 2 [x, y]) (MvPolynomial.pderiv 0 p)) 0 := by
  induction p using MvPolynomial.induction_on with
  | C a => simpa using hasDerivAt_const (0 : ℝ) a
  | add p q hp hq =>
    simp only [map_add]
    exact hp.add hq
  | mul_X p k hp =>
    have hk : HasDerivAt (fun t => pt 2 [x + t, y] k) (if k = 0 then 1 else 0) 0 := by
      fin_cases k
      · have e : (fun t : ℝ => pt 2 [x + t, y] 0) = fun t => x + t := rfl
        show HasDerivAt (fun t : ℝ => pt 2 [x + t, y] 0) (if (0 : Fin 2) = 0 then (1 : ℝ) else 0) 0
        rw [e, if_pos rfl]
        simpa using (hasDerivAt_id (0 : ℝ)).const_add x
      · exact hasDerivAt_const (0 : ℝ) y
    have := hp.mul hk
    simp only [add_zero] at this
    refine this.congr_deriv ?_ |>.congr_of_eventuallyEq ?_
    · rw [Derivation.leibniz]
      simp only [smul_eq_mul, map_add, map_mul, MvPolynomial.eval_X, MvPolynomial.pderiv_X]
      by_cases h : k = 0
      · subst h; simp; ring
      · rw [Pi.single_eq_of_ne h]; simp [h]; ring
    · refine Filter.Eventually.of_forall fun t => ?_
      simp

theorem eval_deriv1 (p : MvPolynomial (Fin 2) ℝ) (x y : ℝ) :
    HasDerivAt (fun t => MvPolynomial.eval (pt 2 [x, y + t]) p) (MvPolynomial.eval (pt 2 [x, y]) (MvPolynomial.pderiv 1 p)) 0 := by
  induction p using MvPolynomial.induction_on with
  | C a => simpa using hasDerivAt_const (0 : ℝ) a
  | add p q hp hq =>
    simp only [map_add]
    exact hp.add hq
  | mul_X p k hp =>
    have hk : HasDerivAt (fun t => pt 2 [x, y + t] k) (if k = 1 then 1 else 0) 0 := by
      fin_cases k
      · exact hasDerivAt_const (0 : ℝ) x
      · have e : (fun t : ℝ => pt 2 [x, y + t] 1) = fun t => y + t := rfl
        show HasDerivAt (fun t : ℝ => pt 2 [x, y + t] 1) (if (1 : Fin 2) = 1 then (1 : ℝ) else 0) 0
        rw [e, if_pos rfl]
        simpa using (hasDerivAt_id (0 : ℝ)).const_add y
    have := hp.mul hk
    simp only [add_zero] at this
    refine this.congr_deriv ?_ |>.congr_of_eventuallyEq ?_
    · rw [Derivation.leibniz]
      simp only [smul_eq_mul, map_add, map_mul, MvPolynomial.eval_X, MvPolynomial.pderiv_X]
      by_cases h : k = 1
      · subst h; simp; ring
      · rw [Pi.single_eq_of_ne h]; simp [h]; ring
    · refine Filter.Eventually.of_forall fun t => ?_
      simp

theorem field_edges {order i : Nat} {P : Fin 3 → Fin 2 → ℝ} {G : List ℝ → Fin 2 → ℝ} (h : IsGradField order P i G) (x y : ℝ) :
    G [x, y] ⬝ᵥ (P 1 - P 0) = gradAt order i [x, y] 0 ∧ G [x, y] ⬝ᵥ (P 2 - P 0) = gradAt order i [x, y] 1 :=
  ⟨(h x y).1.unique (eval_deriv0 _ x y), (h x y).2.unique (eval_deriv1 _ x y)⟩

theorem field_eq {order i : Nat} {P : Fin 3 → Fin 2 → ℝ} {G : List ℝ → Fin 2 → ℝ} (hd : area2 P ≠ 0) (h : IsGradField order P i G) (x y : ℝ) :
    G [x, y] 0 = ((P 2 1 - P 0 1) * gradAt order i [x, y] 0 - (P 1 1 - P 0 1) * gradAt order i [x, y] 1) / area2 P ∧
    G [x, y] 1 = (-(P 2 0 - P 0 0) * gradAt order i [x, y] 0 + (P 1 0 - P 0 0) * gradAt order i [x, y] 1) / area2 P := by
  obtain ⟨e1, e2⟩ := field_edges h x y
  rw [dotProduct, Fin.sum_univ_two] at e1 e2
  simp only [Pi.sub_apply] at e1 e2
  rw [← e1, ← e2, eq_div_iff hd, eq_div_iff hd, area2_eq]
  constructor <;> ring

/-- every triangle with non-zero area has such gradient fields -/
theorem field_exists (order i : Nat) {P : Fin 3 → Fin 2 → ℝ} (hd : area2 P ≠ 0) : ∃ G, IsGradField order P i G := by
  refine ⟨fun p => ![((P 2 1 - P 0 1) * gradAt order i p 0 - (P 1 1 - P 0 1) * gradAt order i p 1) / area2 P,
    (-(P 2 0 - P 0 0) * gradAt order i p 0 + (P 1 0 - P 0 0) * gradAt order i p 1) / area2 P], fun x y => ?_⟩
  constructor
  · refine (eval_deriv0 _ x y).congr_deriv ?_
    rw [dotProduct, Fin.sum_univ_two]
    show gradAt order i [x, y] 0 = _
    simp only [Matrix.cons_val_zero, Matrix.cons_val_one, Pi.sub_apply]
    generalize gradAt order i [x, y] 0 = u
    generalize gradAt order i [x, y] 1 = v
    rw [div_mul_eq_mul_div, div_mul_eq_mul_div, ← add_div, eq_div_iff hd, area2_eq]
    ring
  · refine (eval_deriv1 _ x y).congr_deriv ?_
    rw [dotProduct, Fin.sum_univ_two]
    show gradAt order i [x, y] 1 = _
    simp only [Matrix.cons_val_zero, Matrix.cons_val_one, Pi.sub_apply]
    generalize gradAt order i [x, y] 0 = u
    generalize gradAt order i [x, y] 1 = v
    rw [div_mul_eq_mul_div, div_mul_eq_mul_div, ← add_div, eq_div_iff hd, area2_eq]
    ring

/-! ### Products of two gradients -/

/-- integral of the product of component `k` of the local gradient of `i` and component `l` of that of `j` -/
noncomputable def prodInt (i j : Nat) (k l : Fin 2) : ℝ := simplexIntegral 2 fun p => gradAt 2 i p k * gradAt 2 j p l

theorem prod_error {i j : Nat} (hi : i < 6) (hj : j < 6) (k l : Fin 2) :
    |quad 3 (fun p => gradAt 2 i p k * gradAt 2 j p l) - prodInt i j k l| ≤ 256 / 10 ^ 13 := by
  obtain ⟨a, b, c, h1, b1⟩ := grad_affine hi k
  obtain ⟨a', b', c', h2, b2⟩ := grad_affine hj l
  refine (quad_error (q0 := a * a') (q1 := a * b' + b * a') (q2 := a * c' + c * a') (q3 := b * b') (q4 := b * c' + c * b') (q5 := c * c')
    (fun x y => by rw [h1, h2]; ring)).trans ?_
  have s1 := abs_add_le (a * b') (b * a')
  have s2 := abs_add_le (a * c') (c * a')
  have s3 := abs_add_le (b * c') (c * b')
  have hp : (|a| + |b| + |c|) * (|a'| + |b'| + |c'|) ≤ 16 * 16 := by
    refine mul_le_mul b1 b2 (by positivity) (by norm_num)
  simp only [abs_mul] at s1 s2 s3 ⊢
  nlinarith

theorem comb_int {i j : Nat} (hi : i < 6) (hj : j < 6) {f : List ℝ → ℝ} {m00 m01 m10 m11 : ℝ}
    (hf : ∀ x y, f [x, y] = m00 * (gradAt 2 i [x, y] 0 * gradAt 2 j [x, y] 0) + m01 * (gradAt 2 i [x, y] 0 * gradAt 2 j [x, y] 1) +
      m10 * (gradAt 2 i [x, y] 1 * gradAt 2 j [x, y] 0) + m11 * (gradAt 2 i [x, y] 1 * gradAt 2 j [x, y] 1)) :
    simplexIntegral 2 f = m00 * prodInt i j 0 0 + m01 * prodInt i j 0 1 + m10 * prodInt i j 1 0 + m11 * prodInt i j 1 1 := by
  obtain ⟨a, b, c, h1, -⟩ := grad_affine hi 0
  obtain ⟨d, e, g, h2, -⟩ := grad_affine hi 1
  obtain ⟨a', b', c', h3, -⟩ := grad_affine hj 0
  obtain ⟨d', e', g', h4, -⟩ := grad_affine hj 1
  have I : ∀ {a b c a' b' c' : ℝ} {k l : Fin 2}, (∀ x y, gradAt 2 i [x, y] k = a + b * x + c * y) → (∀ x y, gradAt 2 j [x, y] l = a' + b' * x + c' * y) →
      prodInt i j k l = (a * a') / 2 + (a * b' + b * a') / 6 + (a * c' + c * a') / 6 + (b * b') / 12 + (b * c' + c * b') / 24 + (c * c') / 12 := by
    intro a b c a' b' c' k l hk hl
    exact integral_quadratic fun x y => by rw [hk, hl]; ring
  rw [I h1 h3, I h1 h4, I h2 h3, I h2 h4]
  simp only [h1, h2, h3, h4] at hf
  rw [integral_quadratic (f := f) (q0 := m00 * (a * a') + m01 * (a * d') + m10 * (d * a') + m11 * (d * d'))
    (q1 := m00 * (a * b' + b * a') + m01 * (a * e' + b * d') + m10 * (d * b' + e * a') + m11 * (d * e' + e * d'))
    (q2 := m00 * (a * c' + c * a') + m01 * (a * g' + c * d') + m10 * (d * c' + g * a') + m11 * (d * g' + g * d'))
    (q3 := m00 * (b * b') + m01 * (b * e') + m10 * (e * b') + m11 * (e * e'))
    (q4 := m00 * (b * c' + c * b') + m01 * (b * g' + c * e') + m10 * (e * c' + g * b') + m11 * (e * g' + g * e'))
    (q5 := m00 * (c * c') + m01 * (c * g') + m10 * (g * c') + m11 * (g * g')) (fun x y => by rw [hf]; ring)]
  ring

theorem comb_quad {i j : Nat} {f : List ℝ → ℝ} {m00 m01 m10 m11 : ℝ}
    (hf : ∀ x y, f [x, y] = m00 * (gradAt 2 i [x, y] 0 * gradAt 2 j [x, y] 0) + m01 * (gradAt 2 i [x, y] 0 * gradAt 2 j [x, y] 1) +
      m10 * (gradAt 2 i [x, y] 1 * gradAt 2 j [x, y] 0) + m11 * (gradAt 2 i [x, y] 1 * gradAt 2 j [x, y] 1)) :
    quad 3 f = m00 * quad 3 (fun p => gradAt 2 i p 0 * gradAt 2 j p 0) + m01 * quad 3 (fun p => gradAt 2 i p 0 * gradAt 2 j p 1) +
      m10 * quad 3 (fun p => gradAt 2 i p 1 * gradAt 2 j p 0) + m11 * quad 3 (fun p => gradAt 2 i p 1 * gradAt 2 j p 1) := by
  simp only [quad, Quadrature.table, List.map_cons, List.map_nil, List.sum_cons, List.sum_nil, hf]
  ring

/-- the error of an entry: the effect of the missing transpose, up to the rounding of the constants -/
theorem energy_error {i j : Nat} (hi : i < 6) (hj : j < 6) {P : Fin 3 → Fin 2 → ℝ} (hd : area2 P ≠ 0) {Gi Gj : List ℝ → Fin 2 → ℝ}
    (h1 : IsGradField 2 P i Gi) (h2 : IsGradField 2 P j Gj) :
    |energy 2 P i j - exactEnergy2 P Gi Gj -
      (((P 1 1 - P 0 1) ^ 2 - (P 2 0 - P 0 0) ^ 2) * (prodInt i j 0 0 - prodInt i j 1 1) +
        ((P 1 1 - P 0 1) - (P 2 0 - P 0 0)) * ((P 2 1 - P 0 1) - (P 1 0 - P 0 0)) * (prodInt i j 0 1 + prodInt i j 1 0)) / (|area2 P|)| ≤ slack P := by
  have hA : (0 : ℝ) < |area2 P| := abs_pos.2 hd
  have hsq : |area2 P| ^ 2 = area2 P ^ 2 := sq_abs _
  unfold energy exactEnergy2 slack
  rw [dotProduct, dotProduct, Fin.sum_univ_two, Fin.sum_univ_two]
  simp only [Pi.sub_apply]
  have e00 := prod_error hi hj 0 0
  have e01 := prod_error hi hj 0 1
  have e10 := prod_error hi hj 1 0
  have e11 := prod_error hi hj 1 1
  have hfield := fun x y => field_eq hd h1 x y
  have hfield' := fun x y => field_eq hd h2 x y
  generalize hX : P 1 0 - P 0 0 = a at *
  generalize hY : P 2 0 - P 0 0 = b at *
  generalize hZ : P 1 1 - P 0 1 = c at *
  generalize hW : P 2 1 - P 0 1 = d at *
  rw [comb_quad (i := i) (j := j) (m00 := (d ^ 2 + c ^ 2) / area2 P ^ 2) (m01 := -(b * d + a * c) / area2 P ^ 2)
      (m10 := -(b * d + a * c) / area2 P ^ 2) (m11 := (b ^ 2 + a ^ 2) / area2 P ^ 2) (fun x y => by
        rw [inv_apply, inv_apply, dotProduct, Fin.sum_univ_two, hX, hY, hZ, hW]; simp; ring),
    comb_int hi hj (m00 := (d ^ 2 + b ^ 2) / area2 P ^ 2) (m01 := -(c * d + a * b) / area2 P ^ 2)
      (m10 := -(c * d + a * b) / area2 P ^ 2) (m11 := (c ^ 2 + a ^ 2) / area2 P ^ 2) (fun x y => by
        rw [dotProduct, Fin.sum_univ_two, (hfield x y).1, (hfield x y).2, (hfield' x y).1, (hfield' x y).2]; ring)]
  rw [← hsq]
  generalize |area2 P| = A at *
  generalize quad 3 (fun p : List ℝ => gradAt 2 i p 0 * gradAt 2 j p 0) = s00 at *
  generalize quad 3 (fun p : List ℝ => gradAt 2 i p 0 * gradAt 2 j p 1) = s01 at *
  generalize quad 3 (fun p : List ℝ => gradAt 2 i p 1 * gradAt 2 j p 0) = s10 at *
  generalize quad 3 (fun p : List ℝ => gradAt 2 i p 1 * gradAt 2 j p 1) = s11 at *
  generalize prodInt i j 0 0 = r00 at *
  generalize prodInt i j 0 1 = r01 at *
  generalize prodInt i j 1 0 = r10 at *
  generalize prodInt i j 1 1 = r11 at *
  have key : A * ((d ^ 2 + c ^ 2) / A ^ 2 * s00 + -(b * d + a * c) / A ^ 2 * s01 + -(b * d + a * c) / A ^ 2 * s10 + (b ^ 2 + a ^ 2) / A ^ 2 * s11) -
      A * ((d ^ 2 + b ^ 2) / A ^ 2 * r00 + -(c * d + a * b) / A ^ 2 * r01 + -(c * d + a * b) / A ^ 2 * r10 + (c ^ 2 + a ^ 2) / A ^ 2 * r11) -
      ((c ^ 2 - b ^ 2) * (r00 - r11) + (c - b) * (d - a) * (r01 + r10)) / A =
      ((d ^ 2 + c ^ 2) * (s00 - r00) + (-(b * d + a * c)) * (s01 - r01) + (-(b * d + a * c)) * (s10 - r10) + (b ^ 2 + a ^ 2) * (s11 - r11)) / A := by
    field_simp
    ring
  rw [key, abs_div, abs_of_pos hA, ← mul_div_assoc]
  refine div_le_div_of_nonneg_right ?_ hA.le
  have m : ∀ {x e : ℝ}, |e| ≤ 256 / 10 ^ 13 → |x * e| ≤ 256 / 10 ^ 13 * |x| := by
    intro x e h
    rw [abs_mul, mul_comm]
    exact mul_le_mul_of_nonneg_right h (abs_nonneg _)
  have t1 := abs_add_le ((d ^ 2 + c ^ 2) * (s00 - r00) + (-(b * d + a * c)) * (s01 - r01) + (-(b * d + a * c)) * (s10 - r10)) ((b ^ 2 + a ^ 2) * (s11 - r11))
  have t2 := abs_add_le ((d ^ 2 + c ^ 2) * (s00 - r00) + (-(b * d + a * c)) * (s01 - r01)) ((-(b * d + a * c)) * (s10 - r10))
  have t3 := abs_add_le ((d ^ 2 + c ^ 2) * (s00 - r00)) ((-(b * d + a * c)) * (s01 - r01))
  have m00 := m (x := d ^ 2 + c ^ 2) e00
  have m01 := m (x := -(b * d + a * c)) e01
  have m10 := m (x := -(b * d + a * c)) e10
  have m11 := m (x := b ^ 2 + a ^ 2) e11
  rw [abs_of_nonneg (show (0 : ℝ) ≤ d ^ 2 + c ^ 2 by positivity)] at m00
  rw [abs_of_nonneg (show (0 : ℝ) ≤ b ^ 2 + a ^ 2 by positivity)] at m11
  have hx : |-(b * d + a * c)| ≤ (a ^ 2 + b ^ 2 + c ^ 2 + d ^ 2) / 2 := by
    rw [abs_neg, abs_le]
    constructor
    · linarith [sq_nonneg (b + d), sq_nonneg (a + c), show (b + d) ^ 2 = b ^ 2 + d ^ 2 + 2 * (b * d) by ring, show (a + c) ^ 2 = a ^ 2 + c ^ 2 + 2 * (a * c) by ring]
    · linarith [sq_nonneg (b - d), sq_nonneg (a - c), show (b - d) ^ 2 = b ^ 2 + d ^ 2 - 2 * (b * d) by ring, show (a - c) ^ 2 = a ^ 2 + c ^ 2 - 2 * (a * c) by ring]
  have hs : 0 ≤ a ^ 2 + b ^ 2 + c ^ 2 + d ^ 2 := by positivity
  have ht : (a * a + c * c + (b * b + d * d)) = a ^ 2 + b ^ 2 + c ^ 2 + d ^ 2 := by ring
  rw [ht]
  clear key hfield hfield' ht
  linarith

/-! ### Theorems -/

/-- C66, order 2: for triangles whose edge matrix is symmetric or a rotation with scaling, every entry of the element matrix is
the integral of the product of the gradients, up to the rounding of the tabulated quadrature constants. -/
theorem C66_order2_partial {i j : Nat} (hi : i < 6) (hj : j < 6) {P : Fin 3 → Fin 2 → ℝ} (hd : area2 P ≠ 0)
    (hP : (P 2 0 - P 0 0 = P 1 1 - P 0 1) ∨ (P 2 0 - P 0 0 = -(P 1 1 - P 0 1) ∧ P 1 0 - P 0 0 = P 2 1 - P 0 1))
    {Gi Gj : List ℝ → Fin 2 → ℝ} (h1 : IsGradField 2 P i Gi) (h2 : IsGradField 2 P j Gj) :
    |energy 2 P i j - exactEnergy2 P Gi Gj| ≤ slack P := by
  have h := energy_error hi hj hd h1 h2
  have hz : (((P 1 1 - P 0 1) ^ 2 - (P 2 0 - P 0 0) ^ 2) * (prodInt i j 0 0 - prodInt i j 1 1) +
        ((P 1 1 - P 0 1) - (P 2 0 - P 0 0)) * ((P 2 1 - P 0 1) - (P 1 0 - P 0 0)) * (prodInt i j 0 1 + prodInt i j 1 0)) = 0 := by
    rcases hP with e | ⟨e, e'⟩
    · rw [e]; ring
    · rw [e, e']; ring
  rwa [hz, zero_div, sub_zero] at h

theorem prodInt_11 : prodInt 1 1 0 0 = 1 / 2 ∧ prodInt 1 1 1 1 = 0 ∧ prodInt 1 1 0 1 = 0 ∧ prodInt 1 1 1 0 = 0 ∧
    prodInt 1 2 0 0 = 0 ∧ prodInt 1 2 1 1 = 0 ∧ prodInt 1 2 0 1 = -1 / 6 ∧ prodInt 1 2 1 0 = 0 := by
  have p0 : ∀ x y : ℝ, pt 2 [x, y] 0 = x := fun _ _ => rfl
  have p1 : ∀ x y : ℝ, pt 2 [x, y] 1 = y := fun _ _ => rfl
  have g10 : ∀ x y : ℝ, gradAt 2 1 [x, y] 0 = 4 * x - 1 := by
    intro x y; simp [gradAt, basis, hat, MvPolynomial.pderiv_X, Pi.single_apply, p0, p1]; ring
  have g11 : ∀ x y : ℝ, gradAt 2 1 [x, y] 1 = 0 := by
    intro x y; simp [gradAt, basis, hat, MvPolynomial.pderiv_X, Pi.single_apply, p0, p1]
  have g20 : ∀ x y : ℝ, gradAt 2 2 [x, y] 0 = 0 := by
    intro x y; simp [gradAt, basis, hat, MvPolynomial.pderiv_X, Pi.single_apply, p0, p1]
  have g21 : ∀ x y : ℝ, gradAt 2 2 [x, y] 1 = 4 * y - 1 := by
    intro x y; simp [gradAt, basis, hat, MvPolynomial.pderiv_X, Pi.single_apply, p0, p1]; ring
  refine ⟨?_, ?_, ?_, ?_, ?_, ?_, ?_, ?_⟩
  · exact (integral_quadratic (q0 := 1) (q1 := -8) (q2 := 0) (q3 := 16) (q4 := 0) (q5 := 0) fun x y => by rw [g10]; ring).trans (by norm_num)
  · exact (integral_quadratic (q0 := 0) (q1 := 0) (q2 := 0) (q3 := 0) (q4 := 0) (q5 := 0) fun x y => by rw [g11]; ring).trans (by norm_num)
  · exact (integral_quadratic (q0 := 0) (q1 := 0) (q2 := 0) (q3 := 0) (q4 := 0) (q5 := 0) fun x y => by rw [g11]; ring).trans (by norm_num)
  · exact (integral_quadratic (q0 := 0) (q1 := 0) (q2 := 0) (q3 := 0) (q4 := 0) (q5 := 0) fun x y => by rw [g11]; ring).trans (by norm_num)
  · exact (integral_quadratic (q0 := 0) (q1 := 0) (q2 := 0) (q3 := 0) (q4 := 0) (q5 := 0) fun x y => by rw [g20]; ring).trans (by norm_num)
  · exact (integral_quadratic (q0 := 0) (q1 := 0) (q2 := 0) (q3 := 0) (q4 := 0) (q5 := 0) fun x y => by rw [g11]; ring).trans (by norm_num)
  · exact (integral_quadratic (q0 := 1) (q1 := -4) (q2 := -4) (q3 := 0) (q4 := 16) (q5 := 0) fun x y => by rw [g10, g21]; ring).trans (by norm_num)
  · exact (integral_quadratic (q0 := 0) (q1 := 0) (q2 := 0) (q3 := 0) (q4 := 0) (q5 := 0) fun x y => by rw [g11]; ring).trans (by norm_num)

/-- C66, order 2, the other direction: if the entries (1,1) and (1,2) of the element matrix are within `ε` of the exact ones,
then the edge matrix is within a multiple of `ε` (and the rounding) of a symmetric one or of a rotation with scaling. -/
theorem C66_order2_only {P : Fin 3 → Fin 2 → ℝ} (hd : area2 P ≠ 0) {G1 G2 : List ℝ → Fin 2 → ℝ} (h1 : IsGradField 2 P 1 G1)
    (h2 : IsGradField 2 P 2 G2) {ε : ℝ} (e11 : |energy 2 P 1 1 - exactEnergy2 P G1 G1| ≤ ε) (e12 : |energy 2 P 1 2 - exactEnergy2 P G1 G2| ≤ ε) :
    |(P 2 0 - P 0 0) ^ 2 - (P 1 1 - P 0 1) ^ 2| ≤ 2 * |area2 P| * (ε + slack P) ∧
      |((P 2 0 - P 0 0) - (P 1 1 - P 0 1)) * ((P 1 0 - P 0 0) - (P 2 1 - P 0 1))| ≤ 6 * |area2 P| * (ε + slack P) := by
  have hA : (0 : ℝ) < |area2 P| := abs_pos.2 hd
  obtain ⟨i1, i2, i3, i4, i5, i6, i7, i8⟩ := prodInt_11
  have q1 := energy_error (i := 1) (j := 1) (by norm_num) (by norm_num) hd h1 h1
  have q2 := energy_error (i := 1) (j := 2) (by norm_num) (by norm_num) hd h1 h2
  rw [i1, i2, i3, i4] at q1
  rw [i5, i6, i7, i8] at q2
  have tri : ∀ {z x s : ℝ}, |z - x| ≤ s → |z| ≤ ε → |x| ≤ ε + s := by
    intro z x s h h'
    rw [abs_le] at *
    constructor <;> linarith [h.1, h.2, h'.1, h'.2]
  have r1 := tri q1 e11
  have r2 := tri q2 e12
  rw [abs_div, abs_of_pos hA, div_le_iff₀ hA] at r1 r2
  constructor
  · have : |(P 2 0 - P 0 0) ^ 2 - (P 1 1 - P 0 1) ^ 2| = 2 * |((P 1 1 - P 0 1) ^ 2 - (P 2 0 - P 0 0) ^ 2) * (1 / 2 - 0) + ((P 1 1 - P 0 1) - (P 2 0 - P 0 0)) * ((P 2 1 - P 0 1) - (P 1 0 - P 0 0)) * (0 + 0)| := by
      rw [← abs_neg, show (2 : ℝ) = |2| by norm_num, ← abs_mul]
      congr 1; norm_num; ring
    rw [this]; linarith
  · have : |((P 2 0 - P 0 0) - (P 1 1 - P 0 1)) * ((P 1 0 - P 0 0) - (P 2 1 - P 0 1))| = 6 * |((P 1 1 - P 0 1) ^ 2 - (P 2 0 - P 0 0) ^ 2) * (0 - 0) + ((P 1 1 - P 0 1) - (P 2 0 - P 0 0)) * ((P 2 1 - P 0 1) - (P 1 0 - P 0 0)) * (-1 / 6 + 0)| := by
      rw [← abs_neg, show (6 : ℝ) = |6| by norm_num, ← abs_mul]
      congr 1; norm_num; ring
    rw [this]; linarith

/-- the second triangle of the unit square -/
def badTriangle2 : Fin 3 → Fin 2 → ℝ := ![![0, 0], ![1, 1], ![0, 1]]

theorem area_bad2 : area2 badTriangle2 = 1 := by
  rw [area2_eq]; simp [badTriangle2]

/-- C66 fails for order 2 as well: on a triangle of the unit square cut along its diagonal an entry is wrong by about 1/2. -/
theorem C66_order2_negation : ∃ G, IsGradField 2 badTriangle2 1 G ∧ 49 / 100 ≤ |energy 2 badTriangle2 1 1 - exactEnergy2 badTriangle2 G G| := by
  have hd : area2 badTriangle2 ≠ 0 := by rw [area_bad2]; norm_num
  obtain ⟨G, hG⟩ := field_exists 2 1 hd
  refine ⟨G, hG, ?_⟩
  obtain ⟨i1, i2, i3, i4, -⟩ := prodInt_11
  have q1 := energy_error (i := 1) (j := 1) (by norm_num) (by norm_num) hd hG hG
  rw [i1, i2, i3, i4] at q1
  unfold slack at q1
  rw [area_bad2] at q1
  simp [badTriangle2] at q1
  norm_num at q1
  rw [abs_le] at q1
  rw [le_abs]
  left
  change _ ≤ energy 2 badTriangle2 1 1 - _ 
  have : badTriangle2 = ![![0, 0], ![1, 1], ![0, 1]] := rfl
  rw [this]
  linarith [q1.1]

/-- non-vacuity: the first triangle of a square cell satisfies the hypotheses of `C66_order2_partial`, with entries of size 1 and
a slack of 2·10⁻¹⁰ -/
example : ∃ (P : Fin 3 → Fin 2 → ℝ) (G : List ℝ → Fin 2 → ℝ), area2 P ≠ 0 ∧ P 2 0 - P 0 0 = P 1 1 - P 0 1 ∧ IsGradField 2 P 1 G ∧
    exactEnergy2 P G G = 1 / 2 ∧ slack P = 2 / 10 ^ 10 := by
  have hA : area2 (![![0, 0], ![1, 0], ![0, 1]] : Fin 3 → Fin 2 → ℝ) = 1 := by rw [area2_eq]; simp
  obtain ⟨G, hG⟩ := field_exists 2 1 (P := ![![0, 0], ![1, 0], ![0, 1]]) (by rw [hA]; norm_num)
  refine ⟨_, G, by rw [hA]; norm_num, by simp, hG, ?_, ?_⟩
  · unfold exactEnergy2
    rw [hA, abs_one, one_mul]
    obtain ⟨i1, i2, i3, i4, -⟩ := prodInt_11
    rw [comb_int (i := 1) (j := 1) (by norm_num) (by norm_num) (m00 := 1) (m01 := 0) (m10 := 0) (m11 := 1) (fun x y => ?_), i1, i2, i3, i4]
    · norm_num
    · have := field_eq (by rw [hA]; norm_num) hG x y
      rw [dotProduct, Fin.sum_univ_two, this.1, this.2, hA]
      simp
  · unfold slack
    rw [hA]
    simp [dotProduct, Fin.sum_univ_two]
    norm_num

end NS.Props.Fem

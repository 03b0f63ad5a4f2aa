/-
Property theorems C66: the element matrix of the finite element example and the exact one.
-/
import Verif.Props.FemAssemble

set_option linter.unusedSectionVars false
set_option linter.unusedSimpArgs false

namespace NS.Props.Fem
open NS NS.World NS.Fem NS.MatOps NS.LawfulMat Matrix NS.Props.Mesh NS.Props.Shape
open NS.Props.LU (IsMat IsVec isVec_iff isMat_of)
open NS.Props.Simplex (area2 prepOf)
variable {T : Type} [Field T] [LinearOrder T] [IsStrictOrderedRing T] {M : Type} [MatOps M T] [LawfulMat M T] {n : Nat}

/-! ### Specification -/

/-- `g i` is the gradient, on the triangle `P`, of the affine function that is 1 at `P i` and 0 at the other corners: its
difference along every edge from `P 0` is the difference of the function values -/
def IsGrad (P : Fin 3 → Fin 2 → T) (g : Fin 3 → Fin 2 → T) : Prop :=
  ∀ i j : Fin 3, g i ⬝ᵥ (P j - P 0) = (if i = j then 1 else 0) - (if i = 0 then 1 else 0)

/-- the integral of the product of two gradients: area of the triangle times their scalar product -/
def exactEnergy (P : Fin 3 → Fin 2 → T) (g : Fin 3 → Fin 2 → T) (i j : Fin 3) : T := |area2 P| / 2 * (g i ⬝ᵥ g j)

/-! ### The entries of the code -/

theorem gradAt_one_const (i : Fin 3) (x y : T) : gradAt 1 i [x, y] = ![![-1, -1], ![1, 0], ![0, 1]] i := by
  funext k
  fin_cases i <;> fin_cases k <;> simp [gradAt, basis, hat, MvPolynomial.pderiv_X, Pi.single_apply]

/-- the factor by which the sum of the weights of the rule of order 2 misses the area of the reference triangle -/
def kappa : T := 999999999999999 / 10 ^ 15

theorem area2_eq (P : Fin 3 → Fin 2 → T) : area2 P = (P 1 0 - P 0 0) * (P 2 1 - P 0 1) - (P 2 0 - P 0 0) * (P 1 1 - P 0 1) := by
  unfold area2
  rw [Matrix.det_fin_two]
  rfl

theorem inv_apply {P : Fin 3 → Fin 2 → T} (v : Fin 2 → T) :
    (jac P)⁻¹ *ᵥ v = ![((P 2 1 - P 0 1) * v 0 - (P 2 0 - P 0 0) * v 1) / area2 P, (-(P 1 1 - P 0 1) * v 0 + (P 1 0 - P 0 0) * v 1) / area2 P] := by
  have hdet : (jac P).det = area2 P := rfl
  have hadj : (jac P).adjugate = !![P 2 1 - P 0 1, -(P 2 0 - P 0 0); -(P 1 1 - P 0 1), P 1 0 - P 0 0] := by
    rw [Matrix.adjugate_fin_two]; rfl
  rw [Matrix.inv_def, hdet, hadj, Ring.inverse_eq_inv']
  funext k
  fin_cases k <;> simp [Matrix.mulVec, dotProduct, Fin.sum_univ_two] <;> ring

theorem energy_one (P : Fin 3 → Fin 2 → T) (i j : Fin 3) :
    energy 1 P i j = kappa * (|area2 P| / 2 *
      (((jac P)⁻¹ *ᵥ ![![-1, -1], ![1, 0], ![0, 1]] i) ⬝ᵥ ((jac P)⁻¹ *ᵥ ![![-1, -1], ![1, 0], ![0, 1]] j))) := by
  unfold energy
  rw [quad_two_const (k := ((jac P)⁻¹ *ᵥ ![![-1, -1], ![1, 0], ![0, 1]] i) ⬝ᵥ ((jac P)⁻¹ *ᵥ ![![-1, -1], ![1, 0], ![0, 1]] j))]
  · unfold kappa; ring
  · intro x y
    rw [gradAt_one_const, gradAt_one_const]

/-- the gradients of a triangle with non-zero area -/
theorem grad_unique {P g : Fin 3 → Fin 2 → T} (hd : area2 P ≠ 0) (h : IsGrad P g) :
    g 1 0 = (P 2 1 - P 0 1) / area2 P ∧ g 1 1 = -(P 2 0 - P 0 0) / area2 P ∧
    g 2 0 = -(P 1 1 - P 0 1) / area2 P ∧ g 2 1 = (P 1 0 - P 0 0) / area2 P ∧
    g 0 0 = -(g 1 0 + g 2 0) ∧ g 0 1 = -(g 1 1 + g 2 1) := by
  have key : ∀ {u v p q : T}, u * (P 1 0 - P 0 0) + v * (P 1 1 - P 0 1) = p → u * (P 2 0 - P 0 0) + v * (P 2 1 - P 0 1) = q →
      u = (p * (P 2 1 - P 0 1) - q * (P 1 1 - P 0 1)) / area2 P ∧ v = (q * (P 1 0 - P 0 0) - p * (P 2 0 - P 0 0)) / area2 P := by
    intro u v p q h1 h2
    constructor
    · rw [eq_div_iff hd]; rw [area2_eq]; subst h1 h2; ring
    · rw [eq_div_iff hd]; rw [area2_eq]; subst h1 h2; ring
  have eqn : ∀ i j : Fin 3, g i 0 * (P j 0 - P 0 0) + g i 1 * (P j 1 - P 0 1) = (if i = j then 1 else 0) - (if i = 0 then 1 else 0) := by
    intro i j
    have := h i j
    rw [dotProduct, Fin.sum_univ_two] at this
    exact this
  obtain ⟨a1, a2⟩ := key (eqn 0 1) (eqn 0 2)
  obtain ⟨b1, b2⟩ := key (eqn 1 1) (eqn 1 2)
  obtain ⟨c1, c2⟩ := key (eqn 2 1) (eqn 2 2)
  simp at a1 a2 b1 b2 c1 c2
  rw [a1, a2, b1, b2, c1, c2]
  refine ⟨rfl, by ring, by ring, rfl, by ring, by ring⟩

/-- every triangle with non-zero area has such gradients -/
theorem grad_exists {P : Fin 3 → Fin 2 → T} (hd : area2 P ≠ 0) : ∃ g, IsGrad P g := by
  refine ⟨![![-((P 2 1 - P 0 1) - (P 1 1 - P 0 1)) / area2 P, -(-(P 2 0 - P 0 0) + (P 1 0 - P 0 0)) / area2 P],
    ![(P 2 1 - P 0 1) / area2 P, -(P 2 0 - P 0 0) / area2 P], ![-(P 1 1 - P 0 1) / area2 P, (P 1 0 - P 0 0) / area2 P]], ?_⟩
  have aux : ∀ {x y p q c : T}, x * p + y * q = c * area2 P → x / area2 P * p + y / area2 P * q = c := by
    intro x y p q c h
    rw [div_mul_eq_mul_div, div_mul_eq_mul_div, ← add_div, div_eq_iff hd, h]
  intro i j
  rw [dotProduct, Fin.sum_univ_two]
  fin_cases i <;> fin_cases j <;> refine aux ?_ <;> simp <;> (try rw [area2_eq]) <;> ring

/-- C66: for order 1 the element matrix of the example is the exact one (up to the rounding of the weights) exactly for those
triangles whose edge matrix is symmetric or a rotation with scaling; for all other triangles it is wrong, because gradients
are multiplied by the inverse of the edge matrix instead of its transpose. -/
theorem C66_exact_iff {P g : Fin 3 → Fin 2 → T} (hd : area2 P ≠ 0) (hg : IsGrad P g) :
    (∀ i j : Fin 3, energy 1 P i j = kappa * exactEnergy P g i j) ↔
      (P 2 0 - P 0 0 = P 1 1 - P 0 1) ∨ (P 2 0 - P 0 0 = -(P 1 1 - P 0 1) ∧ P 1 0 - P 0 0 = P 2 1 - P 0 1) := by
  obtain ⟨g1, g2, g3, g4, g5, g6⟩ := grad_unique hd hg
  have hk : (kappa : T) ≠ 0 := by unfold kappa; norm_num
  have hp : |area2 P| / 2 ≠ 0 := div_ne_zero (abs_ne_zero.2 hd) two_ne_zero
  have hcan : ∀ i j : Fin 3, energy 1 P i j = kappa * exactEnergy P g i j ↔
      ((jac P)⁻¹ *ᵥ ![![-1, -1], ![1, 0], ![0, 1]] i) ⬝ᵥ ((jac P)⁻¹ *ᵥ ![![-1, -1], ![1, 0], ![0, 1]] j) = g i ⬝ᵥ g j := by
    intro i j
    rw [energy_one, exactEnergy]
    constructor
    · intro h
      exact mul_left_cancel₀ hp (mul_left_cancel₀ hk h)
    · intro h; rw [h]
  simp only [hcan]
  generalize hA : P 1 0 - P 0 0 = a at *
  generalize hB : P 2 0 - P 0 0 = b at *
  generalize hC : P 1 1 - P 0 1 = c at *
  generalize hE : P 2 1 - P 0 1 = d at *
  have hsq : area2 P ^ 2 ≠ 0 := pow_ne_zero 2 hd
  constructor
  · intro h
    have h11 := h 1 1
    have h12 := h 1 2
    rw [inv_apply, dotProduct, dotProduct, Fin.sum_univ_two, Fin.sum_univ_two, g1, g2, hA, hB, hC, hE] at h11
    rw [inv_apply, inv_apply, dotProduct, dotProduct, Fin.sum_univ_two, Fin.sum_univ_two, g1, g2, g3, g4, hA, hB, hC, hE] at h12
    simp at h11 h12
    field_simp at h11 h12
    have e1 : (b - c) * (b + c) = 0 := by linear_combination -h11
    have e2 : (b - c) * (a - d) = 0 := by linear_combination h12
    rcases mul_eq_zero.1 e1 with e | e
    · left; exact sub_eq_zero.1 e
    · rcases mul_eq_zero.1 e2 with e' | e'
      · left; exact sub_eq_zero.1 e'
      · right; exact ⟨eq_neg_of_add_eq_zero_left e, sub_eq_zero.1 e'⟩
  · intro h i j
    rw [inv_apply, inv_apply, dotProduct, dotProduct, Fin.sum_univ_two, Fin.sum_univ_two, hA, hB, hC, hE]
    rcases h with rfl | ⟨rfl, rfl⟩ <;> fin_cases i <;> fin_cases j <;> simp [g1, g2, g3, g4, g5, g6] <;> ring

/-- the second triangle of the unit square -/
def badTriangle : Fin 3 → Fin 2 → ℚ := ![![0, 0], ![1, 1], ![0, 1]]

/-- C66 fails: a triangle of the unit square cut along its diagonal has a wrong element matrix. -/
theorem C66_negation : ∃ g, IsGrad badTriangle g ∧ area2 badTriangle ≠ 0 ∧
    energy 1 badTriangle 1 1 = 2 * kappa * exactEnergy badTriangle g 1 1 ∧ exactEnergy badTriangle g 1 1 ≠ 0 := by
  have hd : area2 badTriangle ≠ 0 := by decide +kernel
  obtain ⟨g, hg⟩ := grad_exists hd
  refine ⟨g, hg, hd, ?_, ?_⟩
  · obtain ⟨g1, g2, -⟩ := grad_unique hd hg
    have h := energy_one badTriangle 1 1
    rw [show ((1 : Fin 3) : Nat) = 1 from rfl] at h
    rw [h, exactEnergy, inv_apply, dotProduct, dotProduct, Fin.sum_univ_two, Fin.sum_univ_two, g1, g2]
    have : area2 badTriangle = 1 := by decide +kernel
    rw [this]
    simp [badTriangle, kappa]
    try norm_num
  · obtain ⟨g1, g2, -⟩ := grad_unique hd hg
    rw [exactEnergy, dotProduct, Fin.sum_univ_two, g1, g2]
    have : area2 badTriangle = 1 := by decide +kernel
    rw [this]
    simp [badTriangle]

/-- C66: of the triangles the grid generator produces, with cells of width `hx` and height `hy`, exactly those of square cells
(up to orientation of the axes) have the exact element matrix. -/
theorem C66_rectangle {x y hx hy : T} (h1 : hx ≠ 0) (h2 : hy ≠ 0) {g g' : Fin 3 → Fin 2 → T}
    (hg : IsGrad ![![x, y], ![x, y + hy], ![x + hx, y + hy]] g) (hg' : IsGrad ![![x, y], ![x + hx, y + hy], ![x + hx, y]] g') :
    ((∀ i j : Fin 3, energy 1 ![![x, y], ![x, y + hy], ![x + hx, y + hy]] i j = kappa * exactEnergy ![![x, y], ![x, y + hy], ![x + hx, y + hy]] g i j) ↔ hx = hy) ∧
    ((∀ i j : Fin 3, energy 1 ![![x, y], ![x + hx, y + hy], ![x + hx, y]] i j = kappa * exactEnergy ![![x, y], ![x + hx, y + hy], ![x + hx, y]] g' i j) ↔ hx = hy) := by
  have hm : hx * hy ≠ 0 := mul_ne_zero h1 h2
  constructor
  · rw [C66_exact_iff (by rw [area2_eq]; simp [h1, h2]) hg]
    simp [h2, eq_comm]
  · rw [C66_exact_iff (by rw [area2_eq]; simp [h1, h2]) hg']
    simp [h1, eq_comm]

end NS.Props.Fem

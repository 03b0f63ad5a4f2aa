/-
Property theorems C119: the entries of the element matrices of quadratic elements, and which of them are dropped.
-/
import Verif.Props.FemTame
import Verif.Props.FemGradient

set_option linter.unusedSectionVars false
set_option linter.unusedSimpArgs false

namespace NS.Props.Fem
open NS NS.World NS.Fem NS.MatOps NS.LawfulMat Matrix NS.Props.Mesh NS.Props.Shape
open NS.Props.LU (IsMat IsVec isVec_iff isMat_of)
open NS.Props.Simplex (area2 prepOf)
variable {T : Type} [Field T] [LinearOrder T] [IsStrictOrderedRing T] {n : Nat}

/-- the gradients of the quadratic shape functions on the reference triangle -/
def grads (x y : T) : Nat → T × T
  | 0 => (4 * x + 4 * y - 3, 4 * x + 4 * y - 3)
  | 1 => (4 * x - 1, 0)
  | 2 => (0, 4 * y - 1)
  | 3 => (4 - 8 * x - 4 * y, -4 * x)
  | 4 => (4 * y, 4 * x)
  | _ => (-4 * y, 4 - 4 * x - 8 * y)

theorem gradAt_two {i : Nat} (hi : i < 6) (x y : T) : gradAt 2 i [x, y] = ![(grads x y i).1, (grads x y i).2] := by
  have p0 : pt 2 [x, y] 0 = x := rfl
  have p1 : pt 2 [x, y] 1 = y := rfl
  interval_cases i <;> (funext k; fin_cases k <;> simp [gradAt, basis, hat, MvPolynomial.pderiv_X, Pi.single_apply, p0, p1, grads] <;> ring)

/-- the rule of order 3 as a sum of four terms -/
theorem quad_three (f : List T → T) : quad 3 f =
    -562500000000000 / 10 ^ 15 / 2 * f [333333333333333 / 10 ^ 15, 333333333333333 / 10 ^ 15] +
    520833333333333 / 10 ^ 15 / 2 * (f [1 / 5, 1 / 5] + f [1 / 5, 3 / 5] + f [3 / 5, 1 / 5]) := by
  have h2 : (200000000000000 : T) / 10 ^ 15 = 1 / 5 := by norm_num
  have h6 : (600000000000000 : T) / 10 ^ 15 = 3 / 5 := by norm_num
  simp only [quad, Quadrature.table, Quadrature.lit, List.map_cons, List.map_nil, List.sum_cons, List.sum_nil, Int.cast_ofNat, Int.cast_neg, h2, h6]
  ring

/-- an entry for quadratic elements: the metric of the triangle and four numbers -/
theorem energy_two {P : Fin 3 → Fin 2 → T} (hd : area2 P ≠ 0) {i j : Nat} (hi : i < 6) (hj : j < 6) :
    energy 2 P i j * |area2 P| =
      ((P 2 1 - P 0 1) ^ 2 + (P 1 1 - P 0 1) ^ 2) * quad 3 (fun p => (grads (pt 2 p 0) (pt 2 p 1) i).1 * (grads (pt 2 p 0) (pt 2 p 1) j).1) -
      ((P 2 1 - P 0 1) * (P 2 0 - P 0 0) + (P 1 1 - P 0 1) * (P 1 0 - P 0 0)) *
        (quad 3 (fun p => (grads (pt 2 p 0) (pt 2 p 1) i).1 * (grads (pt 2 p 0) (pt 2 p 1) j).2) +
         quad 3 (fun p => (grads (pt 2 p 0) (pt 2 p 1) i).2 * (grads (pt 2 p 0) (pt 2 p 1) j).1)) +
      ((P 2 0 - P 0 0) ^ 2 + (P 1 0 - P 0 0) ^ 2) * quad 3 (fun p => (grads (pt 2 p 0) (pt 2 p 1) i).2 * (grads (pt 2 p 0) (pt 2 p 1) j).2) := by
  have q : ∀ x y : T, ((jac P)⁻¹ *ᵥ gradAt 2 i [x, y]) ⬝ᵥ ((jac P)⁻¹ *ᵥ gradAt 2 j [x, y]) =
      (((P 2 1 - P 0 1) ^ 2 + (P 1 1 - P 0 1) ^ 2) * ((grads x y i).1 * (grads x y j).1) -
      ((P 2 1 - P 0 1) * (P 2 0 - P 0 0) + (P 1 1 - P 0 1) * (P 1 0 - P 0 0)) * ((grads x y i).1 * (grads x y j).2 + (grads x y i).2 * (grads x y j).1) +
      ((P 2 0 - P 0 0) ^ 2 + (P 1 0 - P 0 0) ^ 2) * ((grads x y i).2 * (grads x y j).2)) / area2 P ^ 2 := by
    intro x y
    rw [gradAt_two hi, gradAt_two hj, inv_apply, inv_apply, dotProduct, Fin.sum_univ_two]
    simp only [Matrix.cons_val_zero, Matrix.cons_val_one]
    field_simp
    ring
  have hp : ∀ x y : T, pt 2 [x, y] 0 = x ∧ pt 2 [x, y] 1 = y := fun _ _ => ⟨rfl, rfl⟩
  have ha : |area2 P| * |area2 P| = area2 P ^ 2 := by rw [abs_mul_abs_self]; ring
  rw [energy, quad_three, quad_three, quad_three, quad_three, quad_three]
  simp only [q, (hp _ _).1, (hp _ _).2]
  rw [mul_comm (|area2 P| * _), ← mul_assoc, ha]
  field_simp
  ring

/-- C119: with quadratic elements the entry of the first corner and the middle of the opposite side, which should be zero, never is; on every triangle that is
not extremely thin the threshold of the program drops it -/
theorem C119_dropped {P : Fin 3 → Fin 2 → T} (hd : area2 P ≠ 0) :
    energy 2 P 0 4 ≠ 0 ∧ |energy 2 P 0 4| * |area2 P| ≤ 2 / 10 ^ 15 * sides P ∧ (sides P ≤ 10 ^ 6 * |area2 P| → |energy 2 P 0 4| ≤ 1 / 10 ^ 8) := by
  have h := energy_two hd (i := 0) (j := 4) (by omega) (by omega)
  have hp : ∀ x y : T, pt 2 [x, y] 0 = x ∧ pt 2 [x, y] 1 = y := fun _ _ => ⟨rfl, rfl⟩
  simp only [quad_three, (hp _ _).1, (hp _ _).2, grads] at h
  have hs : sides P = (P 1 0 - P 0 0) ^ 2 + (P 1 1 - P 0 1) ^ 2 + ((P 2 0 - P 0 0) ^ 2 + (P 2 1 - P 0 1) ^ 2) := by
    simp only [sides, dotProduct, Fin.sum_univ_two, Pi.sub_apply]; ring
  have hA : area2 P = (P 1 0 - P 0 0) * (P 2 1 - P 0 1) - (P 2 0 - P 0 0) * (P 1 1 - P 0 1) := area2_eq P
  have hpos : 0 < |area2 P| := abs_pos.2 hd
  generalize P 1 0 - P 0 0 = a at *
  generalize P 2 0 - P 0 0 = b at *
  generalize P 1 1 - P 0 1 = c at *
  generalize P 2 1 - P 0 1 = d at *
  have h1 : energy 2 P 0 4 * |area2 P| = 954999999999999 / 10 ^ 30 * ((d - b) ^ 2 + (a - c) ^ 2) := by
    rw [h]; ring
  have h2 : 0 < (d - b) ^ 2 + (a - c) ^ 2 := by
    by_contra hn
    have e1 : d - b = 0 := pow_eq_zero_iff two_ne_zero |>.1 (le_antisymm (by nlinarith [sq_nonneg (a - c)]) (sq_nonneg _))
    have e2 : a - c = 0 := pow_eq_zero_iff two_ne_zero |>.1 (le_antisymm (by nlinarith [sq_nonneg (d - b)]) (sq_nonneg _))
    refine hd ?_
    rw [hA, sub_eq_zero.1 e1, sub_eq_zero.1 e2]
    ring
  have h3 : (d - b) ^ 2 + (a - c) ^ 2 ≤ 2 * sides P := by
    rw [hs]
    nlinarith [sq_nonneg (d + b), sq_nonneg (a + c)]
  have h4 : |energy 2 P 0 4| * |area2 P| ≤ 2 / 10 ^ 15 * sides P := by
    rw [← abs_abs (area2 P), ← abs_mul, h1, abs_of_nonneg (by positivity)]
    linarith
  refine ⟨fun h0 => ?_, h4, fun h5 => ?_⟩
  · rw [h0, zero_mul] at h1
    linarith
  · refine le_of_mul_le_mul_right ?_ hpos
    linarith

/-- C119: on a mesh with one triangle that is not extremely thin the program with quadratic elements drops an entry that is not zero -/
theorem C119_unmet {w : World T} {a : Nat} (ha : a ∈ w.elements) (hd : area2 (coords w a) ≠ 0) (hs : sides (coords w a) ≤ 10 ^ 6 * |area2 (coords w a)|) :
    ¬ NoneDropped (1 / 10 ^ 8) 2 w := fun h => by
  obtain ⟨h1, -, h3⟩ := C119_dropped hd
  exact absurd (h a ha 0 (by omega) 4 (by omega) h1) (not_lt.2 (h3 hs))

end NS.Props.Fem

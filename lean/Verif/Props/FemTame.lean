/-
Property theorems C119: the finite element example when small entries of the element matrices are dropped.

With quadratic elements the tabulated quadrature points make entries that should vanish tiny but not zero (`C119_unmet`), so that the threshold drops
them on every ordinary triangle.  The theorems of this file do not suppose that nothing is dropped: what is dropped only has to be small.
-/
import Verif.Props.FemAssemble
import Mathlib.Combinatorics.SimpleGraph.Connectivity.Connected
import Mathlib.Algebra.Order.BigOperators.Ring.Finset

set_option linter.unusedSectionVars false
set_option linter.unusedSimpArgs false

namespace NS.Props.Fem
open NS NS.World NS.Fem NS.MatOps NS.LawfulMat Matrix NS.Props.Mesh NS.Props.Shape
open NS.Props.LU (IsMat IsVec isVec_iff isMat_of)
open NS.Props.Simplex (area2 prepOf)
variable {M T : Type} [Field T] [LinearOrder T] [IsStrictOrderedRing T] [MatOps M T] [LawfulMat M T] {n : Nat}

/-! ### Specification -/

/-- the sum of the squares of the two sides from the first corner -/
def sides (P : Fin 3 → Fin 2 → T) : T := (P 1 - P 0) ⬝ᵥ (P 1 - P 0) + (P 2 - P 0) ⬝ᵥ (P 2 - P 0)

/-- every entry of an element matrix that the threshold `eps` drops is at most `δ` -/
def Drops (eps δ : T) (order : Nat) (w : World T) : Prop :=
  ∀ a ∈ w.elements, ∀ i < 3 * order, ∀ j < 3 * order, |energy order (coords w a) i j| ≤ eps → |energy order (coords w a) i j| ≤ δ

/-- no triangle is thin: twice its area is at least `c` times the sum of the squares of two sides -/
def Fat (c : T) (w : World T) : Prop := ∀ a ∈ w.elements, c * sides (coords w a) ≤ |area2 (coords w a)|

/-- from the degree of freedom `r` at most `k` steps inside of elements lead to the strong boundary -/
def Within (order : Nat) (w : World T) : Nat → Nat → Prop
  | 0, r => OnBoundary w r
  | k + 1, r => Within order w k r ∨ ∃ s, Linked order w r s ∧ Within order w k s

/-- what is dropped is small compared with the shape of the triangles, their number and the distance to the boundary -/
def Solid (eps : T) (order : Nat) (w w'' : World T) : Prop :=
  ∃ (δ c : T) (l : Nat), 0 ≤ δ ∧ Drops eps δ order w ∧ Fat c w ∧ (∀ r < w''.vertices.length, Within order w'' l r) ∧
    2160 * w.elements.length * (l + 1) ^ 2 * δ < c

/-! ### Coercivity on a triangle -/

theorem sides_bound (P : Fin 3 → Fin 2 → T) (y : Fin 2 → T) : (jac P *ᵥ y) ⬝ᵥ (jac P *ᵥ y) ≤ sides P * (y ⬝ᵥ y) := by
  have e : ∀ i, (jac P *ᵥ y) i = (P 1 i - P 0 i) * y 0 + (P 2 i - P 0 i) * y 1 := by
    intro i
    rw [Matrix.mulVec, dotProduct, Fin.sum_univ_two]
    rfl
  simp only [sides, dotProduct, Fin.sum_univ_two, e, Pi.sub_apply]
  generalize P 1 0 - P 0 0 = a
  generalize P 2 0 - P 0 0 = b
  generalize P 1 1 - P 0 1 = c
  generalize P 2 1 - P 0 1 = d
  nlinarith [sq_nonneg (a * y 1 - b * y 0), sq_nonneg (c * y 1 - d * y 0)]

theorem sides_inv {P : Fin 3 → Fin 2 → T} (hd : area2 P ≠ 0) (v : Fin 2 → T) :
    v ⬝ᵥ v ≤ sides P * (((jac P)⁻¹ *ᵥ v) ⬝ᵥ ((jac P)⁻¹ *ᵥ v)) := by
  have h := sides_bound P ((jac P)⁻¹ *ᵥ v)
  rwa [Matrix.mulVec_mulVec, Matrix.mul_nonsing_inv _ (jac_unit hd), Matrix.one_mulVec] at h

theorem cauchy6 (a b c d e f u v w x y z : T) :
    (a * u + b * v + c * w + d * x + e * y + f * z) ^ 2 ≤ (a ^ 2 + b ^ 2 + c ^ 2 + d ^ 2 + e ^ 2 + f ^ 2) * (u ^ 2 + v ^ 2 + w ^ 2 + x ^ 2 + y ^ 2 + z ^ 2) := by
  have := Finset.sum_mul_sq_le_sq_mul_sq Finset.univ ![a, b, c, d, e, f] ![u, v, w, x, y, z]
  simpa [Fin.sum_univ_succ, add_assoc] using this

/-- a quadratic function is determined by its gradient at the three points of the rule, up to a constant -/
theorem nodal_bound (u : Nat → T) :
    (u 1 - u 0) ^ 2 + (u 2 - u 0) ^ 2 + (u 3 - u 0) ^ 2 + (u 4 - u 0) ^ 2 + (u 5 - u 0) ^ 2 ≤
      3 * (gradOf 2 u [1 / 5, 1 / 5] ⬝ᵥ gradOf 2 u [1 / 5, 1 / 5] + gradOf 2 u [1 / 5, 3 / 5] ⬝ᵥ gradOf 2 u [1 / 5, 3 / 5] +
        gradOf 2 u [3 / 5, 1 / 5] ⬝ᵥ gradOf 2 u [3 / 5, 1 / 5]) := by
  simp only [gradOf_two, dotProduct, Fin.sum_univ_two, Matrix.cons_val_zero, Matrix.cons_val_one]
  generalize h1 : (-3 * u 0 - u 1 + 4 * u 3) + (4 * u 0 - 4 * u 3 + 4 * u 4 - 4 * u 5) * (1 / 5) + 2 * (2 * u 0 + 2 * u 1 - 4 * u 3) * (1 / 5) = g1
  generalize h2 : (-3 * u 0 - u 2 + 4 * u 5) + (4 * u 0 - 4 * u 3 + 4 * u 4 - 4 * u 5) * (1 / 5) + 2 * (2 * u 0 + 2 * u 2 - 4 * u 5) * (1 / 5) = g2
  generalize h3 : (-3 * u 0 - u 1 + 4 * u 3) + (4 * u 0 - 4 * u 3 + 4 * u 4 - 4 * u 5) * (3 / 5) + 2 * (2 * u 0 + 2 * u 1 - 4 * u 3) * (1 / 5) = g3
  generalize h4 : (-3 * u 0 - u 2 + 4 * u 5) + (4 * u 0 - 4 * u 3 + 4 * u 4 - 4 * u 5) * (1 / 5) + 2 * (2 * u 0 + 2 * u 2 - 4 * u 5) * (3 / 5) = g4
  generalize h5 : (-3 * u 0 - u 1 + 4 * u 3) + (4 * u 0 - 4 * u 3 + 4 * u 4 - 4 * u 5) * (1 / 5) + 2 * (2 * u 0 + 2 * u 1 - 4 * u 3) * (3 / 5) = g5
  generalize h6 : (-3 * u 0 - u 2 + 4 * u 5) + (4 * u 0 - 4 * u 3 + 4 * u 4 - 4 * u 5) * (3 / 5) + 2 * (2 * u 0 + 2 * u 2 - 4 * u 5) * (1 / 5) = g6
  have d1 : u 1 - u 0 = 7 / 16 * g1 + 5 / 16 * g2 + -3 / 16 * g3 + 0 * g4 + 3 / 4 * g5 + -5 / 16 * g6 := by
    rw [← h1, ← h2, ← h3, ← h4, ← h5, ← h6]; ring
  have d2 : u 2 - u 0 = 5 / 16 * g1 + 7 / 16 * g2 + -5 / 16 * g3 + 3 / 4 * g4 + 0 * g5 + -3 / 16 * g6 := by
    rw [← h1, ← h2, ← h3, ← h4, ← h5, ← h6]; ring
  have d3 : u 3 - u 0 = 29 / 64 * g1 + 15 / 64 * g2 + -1 / 64 * g3 + 0 * g4 + 1 / 16 * g5 + -15 / 64 * g6 := by
    rw [← h1, ← h2, ← h3, ← h4, ← h5, ← h6]; ring
  have d4 : u 4 - u 0 = 3 / 8 * g1 + 3 / 8 * g2 + 1 / 16 * g3 + 1 / 16 * g4 + 1 / 16 * g5 + 1 / 16 * g6 := by
    rw [← h1, ← h2, ← h3, ← h4, ← h5, ← h6]; ring
  have d5 : u 5 - u 0 = 15 / 64 * g1 + 29 / 64 * g2 + -15 / 64 * g3 + 1 / 16 * g4 + 0 * g5 + -1 / 64 * g6 := by
    rw [← h1, ← h2, ← h3, ← h4, ← h5, ← h6]; ring
  rw [d1, d2, d3, d4, d5]
  have s : 0 ≤ g1 ^ 2 + g2 ^ 2 + g3 ^ 2 + g4 ^ 2 + g5 ^ 2 + g6 ^ 2 := by positivity
  have c1 := cauchy6 (7 / 16) (5 / 16) (-3 / 16) 0 (3 / 4) (-5 / 16) g1 g2 g3 g4 g5 g6
  have c2 := cauchy6 (5 / 16) (7 / 16) (-5 / 16) (3 / 4) 0 (-3 / 16) g1 g2 g3 g4 g5 g6
  have c3 := cauchy6 (29 / 64) (15 / 64) (-1 / 64) 0 (1 / 16) (-15 / 64) g1 g2 g3 g4 g5 g6
  have c4 := cauchy6 (3 / 8) (3 / 8) (1 / 16) (1 / 16) (1 / 16) (1 / 16) g1 g2 g3 g4 g5 g6
  have c5 := cauchy6 (15 / 64) (29 / 64) (-15 / 64) (1 / 16) 0 (-1 / 64) g1 g2 g3 g4 g5 g6
  norm_num at c1 c2 c3 c4 c5 ⊢
  linarith

/-- the sum of the squares of the differences of the values at the nodes from the value at the first node -/
def spread (N : Nat) (u : Nat → T) : T := ∑ i ∈ Finset.range N, (u i - u 0) ^ 2

theorem spread_nonneg (N : Nat) (u : Nat → T) : 0 ≤ spread N u := Finset.sum_nonneg fun _ _ => sq_nonneg _

theorem energy_coercive {order : Nat} (ho : order = 1 ∨ order = 2) {P : Fin 3 → Fin 2 → T} (hd : area2 P ≠ 0) {c : T} (hc : 0 ≤ c) (hF : c * sides P ≤ |area2 P|)
    (u : Nat → T) : c / 30 * spread (Shape.dof 2 order) u ≤
      ∑ i ∈ Finset.range (Shape.dof 2 order), ∑ j ∈ Finset.range (Shape.dof 2 order), energy order P i j * u i * u j := by
  rw [energy_sum]
  rcases ho with rfl | rfl
  · have hq : quad (1 + 1) (fun p => ((jac P)⁻¹ *ᵥ gradOf 1 u p) ⬝ᵥ ((jac P)⁻¹ *ᵥ gradOf 1 u p)) =
        999999999999999 / 2 / 10 ^ 15 * (((jac P)⁻¹ *ᵥ ![u 1 - u 0, u 2 - u 0]) ⬝ᵥ ((jac P)⁻¹ *ᵥ ![u 1 - u 0, u 2 - u 0])) :=
      quad_two_const fun x y => by rw [gradOf_one]
    rw [hq]
    have hi := sides_inv hd ![u 1 - u 0, u 2 - u 0]
    have hs : spread (Shape.dof 2 1) u = ![u 1 - u 0, u 2 - u 0] ⬝ᵥ ![u 1 - u 0, u 2 - u 0] := by
      simp [spread, Shape.dof, Finset.sum_range_succ, dotProduct, Fin.sum_univ_two]; ring
    rw [hs]
    have hn := dot_self_nonneg ((jac P)⁻¹ *ᵥ ![u 1 - u 0, u 2 - u 0])
    have hn0 := dot_self_nonneg ![u 1 - u 0, u 2 - u 0]
    generalize ((jac P)⁻¹ *ᵥ ![u 1 - u 0, u 2 - u 0]) ⬝ᵥ ((jac P)⁻¹ *ᵥ ![u 1 - u 0, u 2 - u 0]) = y at *
    generalize ![u 1 - u 0, u 2 - u 0] ⬝ᵥ ![u 1 - u 0, u 2 - u 0] = z at *
    have h1 : c * z ≤ |area2 P| * y := calc
      c * z ≤ c * (sides P * y) := mul_le_mul_of_nonneg_left hi hc
      _ = (c * sides P) * y := by ring
      _ ≤ _ := mul_le_mul_of_nonneg_right hF hn
    have h2 : 0 ≤ c * z := mul_nonneg hc hn0
    have h3 : (1 / 30 : T) ≤ 999999999999999 / 2 / 10 ^ 15 := by norm_num
    calc c / 30 * z = 1 / 30 * (c * z) := by ring
      _ ≤ 999999999999999 / 2 / 10 ^ 15 * (c * z) := mul_le_mul_of_nonneg_right h3 h2
      _ ≤ 999999999999999 / 2 / 10 ^ 15 * (|area2 P| * y) := mul_le_mul_of_nonneg_left h1 (by norm_num)
      _ = _ := by ring
  · have hsplit : (fun p => ((jac P)⁻¹ *ᵥ gradOf 2 u p) ⬝ᵥ ((jac P)⁻¹ *ᵥ gradOf 2 u p)) =
        fun p => ((jac P)⁻¹ *ᵥ gradOf 2 u p) 0 * ((jac P)⁻¹ *ᵥ gradOf 2 u p) 0 + ((jac P)⁻¹ *ᵥ gradOf 2 u p) 1 * ((jac P)⁻¹ *ᵥ gradOf 2 u p) 1 := by
      funext p
      rw [dotProduct, Fin.sum_univ_two]
    rw [hsplit, quad_add]
    have aff : ∀ k : Fin 2, ∃ a b c : T, ∀ x y, ((jac P)⁻¹ *ᵥ gradOf 2 u [x, y]) k = a + b * x + c * y := by
      intro k
      generalize hI : (jac P)⁻¹ = I
      refine ⟨I k 0 * (-3 * u 0 - u 1 + 4 * u 3) + I k 1 * (-3 * u 0 - u 2 + 4 * u 5),
        I k 0 * (2 * (2 * u 0 + 2 * u 1 - 4 * u 3)) + I k 1 * (4 * u 0 - 4 * u 3 + 4 * u 4 - 4 * u 5),
        I k 0 * (4 * u 0 - 4 * u 3 + 4 * u 4 - 4 * u 5) + I k 1 * (2 * (2 * u 0 + 2 * u 2 - 4 * u 5)), fun x y => ?_⟩
      rw [gradOf_two, Matrix.mulVec, dotProduct, Fin.sum_univ_two]
      simp only [Matrix.cons_val_zero, Matrix.cons_val_one]
      ring
    have q0 := quad_three_sq (f := fun p => ((jac P)⁻¹ *ᵥ gradOf 2 u p) 0) (aff 0)
    have q1 := quad_three_sq (f := fun p => ((jac P)⁻¹ *ᵥ gradOf 2 u p) 1) (aff 1)
    have hb := nodal_bound u
    have hs : spread (Shape.dof 2 2) u = (u 1 - u 0) ^ 2 + (u 2 - u 0) ^ 2 + (u 3 - u 0) ^ 2 + (u 4 - u 0) ^ 2 + (u 5 - u 0) ^ 2 := by
      simp [spread, Shape.dof, Finset.sum_range_succ]
    rw [hs]
    have s1 := sides_inv hd (gradOf 2 u [1 / 5, 1 / 5])
    have s2 := sides_inv hd (gradOf 2 u [1 / 5, 3 / 5])
    have s3 := sides_inv hd (gradOf 2 u [3 / 5, 1 / 5])
    have n1 := dot_self_nonneg ((jac P)⁻¹ *ᵥ gradOf 2 u [1 / 5, 1 / 5])
    have n2 := dot_self_nonneg ((jac P)⁻¹ *ᵥ gradOf 2 u [1 / 5, 3 / 5])
    have n3 := dot_self_nonneg ((jac P)⁻¹ *ᵥ gradOf 2 u [3 / 5, 1 / 5])
    have e : ∀ v : Fin 2 → T, v ⬝ᵥ v = v 0 * v 0 + v 1 * v 1 := fun v => by rw [dotProduct, Fin.sum_univ_two]
    have hq : 1 / 10 * (((jac P)⁻¹ *ᵥ gradOf 2 u [1 / 5, 1 / 5]) ⬝ᵥ ((jac P)⁻¹ *ᵥ gradOf 2 u [1 / 5, 1 / 5]) +
        ((jac P)⁻¹ *ᵥ gradOf 2 u [1 / 5, 3 / 5]) ⬝ᵥ ((jac P)⁻¹ *ᵥ gradOf 2 u [1 / 5, 3 / 5]) +
        ((jac P)⁻¹ *ᵥ gradOf 2 u [3 / 5, 1 / 5]) ⬝ᵥ ((jac P)⁻¹ *ᵥ gradOf 2 u [3 / 5, 1 / 5])) ≤
        quad (2 + 1) (fun p => ((jac P)⁻¹ *ᵥ gradOf 2 u p) 0 * ((jac P)⁻¹ *ᵥ gradOf 2 u p) 0) +
        quad (2 + 1) (fun p => ((jac P)⁻¹ *ᵥ gradOf 2 u p) 1 * ((jac P)⁻¹ *ᵥ gradOf 2 u p) 1) := by
      simp only [e]
      have := add_le_add q0 q1
      refine le_trans (le_of_eq ?_) this
      ring
    generalize quad (2 + 1) (fun p => ((jac P)⁻¹ *ᵥ gradOf 2 u p) 0 * ((jac P)⁻¹ *ᵥ gradOf 2 u p) 0) = Q0 at *
    generalize quad (2 + 1) (fun p => ((jac P)⁻¹ *ᵥ gradOf 2 u p) 1 * ((jac P)⁻¹ *ᵥ gradOf 2 u p) 1) = Q1 at *
    clear q0 q1 hsplit aff hs e
    generalize ((jac P)⁻¹ *ᵥ gradOf 2 u [1 / 5, 1 / 5]) ⬝ᵥ ((jac P)⁻¹ *ᵥ gradOf 2 u [1 / 5, 1 / 5]) = y1 at *
    generalize ((jac P)⁻¹ *ᵥ gradOf 2 u [1 / 5, 3 / 5]) ⬝ᵥ ((jac P)⁻¹ *ᵥ gradOf 2 u [1 / 5, 3 / 5]) = y2 at *
    generalize ((jac P)⁻¹ *ᵥ gradOf 2 u [3 / 5, 1 / 5]) ⬝ᵥ ((jac P)⁻¹ *ᵥ gradOf 2 u [3 / 5, 1 / 5]) = y3 at *
    generalize gradOf 2 u [1 / 5, 1 / 5] ⬝ᵥ gradOf 2 u [1 / 5, 1 / 5] = z1 at *
    generalize gradOf 2 u [1 / 5, 3 / 5] ⬝ᵥ gradOf 2 u [1 / 5, 3 / 5] = z2 at *
    generalize gradOf 2 u [3 / 5, 1 / 5] ⬝ᵥ gradOf 2 u [3 / 5, 1 / 5] = z3 at *
    generalize (u 1 - u 0) ^ 2 + (u 2 - u 0) ^ 2 + (u 3 - u 0) ^ 2 + (u 4 - u 0) ^ 2 + (u 5 - u 0) ^ 2 = S at *
    calc c / 30 * S ≤ c / 30 * (3 * (z1 + z2 + z3)) := mul_le_mul_of_nonneg_left hb (by positivity)
      _ = c / 10 * (z1 + z2 + z3) := by ring
      _ ≤ c / 10 * (sides P * y1 + sides P * y2 + sides P * y3) := mul_le_mul_of_nonneg_left (by linarith) (by positivity)
      _ = (c * sides P) * (1 / 10 * (y1 + y2 + y3)) := by ring
      _ ≤ |area2 P| * (1 / 10 * (y1 + y2 + y3)) := mul_le_mul_of_nonneg_right hF (by positivity)
      _ ≤ _ := mul_le_mul_of_nonneg_left hq (abs_nonneg _)

/-! ### What is dropped -/

theorem form_le {N : Nat} {D : Nat → Nat → T} {δ m : T} (hδ : 0 ≤ δ) (hD : ∀ i < N, ∀ j < N, |D i j| ≤ δ) {u : Nat → T} (hu : ∀ i < N, u i ^ 2 ≤ m) :
    |∑ i ∈ Finset.range N, ∑ j ∈ Finset.range N, D i j * u i * u j| ≤ N ^ 2 * δ * m := by
  have h1 : ∀ i < N, ∀ j < N, |D i j * u i * u j| ≤ δ * m := by
    intro i hi j hj
    rw [mul_assoc, abs_mul]
    refine mul_le_mul (hD i hi j hj) ?_ (abs_nonneg _) hδ
    rw [abs_mul]
    have a := hu i hi
    have b := hu j hj
    rw [← sq_abs] at a b
    nlinarith [sq_nonneg (|u i| - |u j|)]
  calc |∑ i ∈ Finset.range N, ∑ j ∈ Finset.range N, D i j * u i * u j| ≤ ∑ i ∈ Finset.range N, ∑ j ∈ Finset.range N, |D i j * u i * u j| :=
        (Finset.abs_sum_le_sum_abs _ _).trans (Finset.sum_le_sum fun i _ => Finset.abs_sum_le_sum_abs _ _)
    _ ≤ ∑ i ∈ Finset.range N, ∑ j ∈ Finset.range N, δ * m :=
        Finset.sum_le_sum fun i hi => Finset.sum_le_sum fun j hj => h1 i (Finset.mem_range.1 hi) j (Finset.mem_range.1 hj)
    _ = _ := by simp; ring

theorem keep_error {eps δ x : T} (hδ : 0 ≤ δ) (h : |x| ≤ eps → |x| ≤ δ) : |x - keep eps x| ≤ δ := by
  unfold keep
  split
  · simpa using hδ
  · next hn =>
    rw [sub_zero]
    exact h (not_lt.1 hn)

/-- the energy of an element after dropping -/
theorem kept_coercive {order : Nat} (ho : order = 1 ∨ order = 2) {P : Fin 3 → Fin 2 → T} (hd : area2 P ≠ 0) {eps δ c m : T} (hc : 0 ≤ c) (hF : c * sides P ≤ |area2 P|)
    (hδ : 0 ≤ δ) (hD : ∀ i < 3 * order, ∀ j < 3 * order, |energy order P i j| ≤ eps → |energy order P i j| ≤ δ) {u : Nat → T} (hu : ∀ i < 3 * order, u i ^ 2 ≤ m)
    (hm : 0 ≤ m) :
    c / 30 * spread (Shape.dof 2 order) u - 36 * δ * m ≤
      ∑ i ∈ Finset.range (Shape.dof 2 order), ∑ j ∈ Finset.range (Shape.dof 2 order), keep eps (energy order P i j) * u i * u j := by
  have h1 := energy_coercive ho hd hc hF u
  have hN : Shape.dof 2 order = 3 * order := by rcases ho with rfl | rfl <;> rfl
  have h2 := form_le (N := Shape.dof 2 order) (D := fun i j => energy order P i j - keep eps (energy order P i j)) hδ
    (fun i hi j hj => keep_error hδ (hD i (by omega) j (by omega))) (u := u) (m := m) (fun i hi => hu i (by omega))
  have h3 : (∑ i ∈ Finset.range (Shape.dof 2 order), ∑ j ∈ Finset.range (Shape.dof 2 order), (energy order P i j - keep eps (energy order P i j)) * u i * u j) =
      (∑ i ∈ Finset.range (Shape.dof 2 order), ∑ j ∈ Finset.range (Shape.dof 2 order), energy order P i j * u i * u j) -
      ∑ i ∈ Finset.range (Shape.dof 2 order), ∑ j ∈ Finset.range (Shape.dof 2 order), keep eps (energy order P i j) * u i * u j := by
    simp only [← Finset.sum_sub_distrib]
    exact Finset.sum_congr rfl fun i _ => Finset.sum_congr rfl fun j _ => by ring
  rw [h3] at h2
  have h4 : ((Shape.dof 2 order : Nat) : T) ^ 2 * δ * m ≤ 36 * δ * m := by
    have : ((Shape.dof 2 order : Nat) : T) ^ 2 ≤ 36 := by rcases ho with rfl | rfl <;> norm_num [Shape.dof]
    exact mul_le_mul_of_nonneg_right (mul_le_mul_of_nonneg_right this hδ) hm
  have := (abs_le.1 h2).2
  linarith

/-! ### The whole mesh -/

theorem list_sum_le {α : Type} (l : List α) {f g : α → T} (h : ∀ a ∈ l, f a ≤ g a) : (l.map f).sum ≤ (l.map g).sum := List.sum_le_sum h

theorem list_sum_affine {α : Type} (l : List α) (f : α → T) (p q : T) : (l.map fun a => p * f a - q).sum = p * (l.map f).sum - l.length * q := by
  induction l with
  | nil => simp
  | cons a l ih => simp only [List.map_cons, List.sum_cons, ih, List.length_cons]; push_cast; ring

/-- sum over the elements of the spread of a vector -/
def spreads (order : Nat) (w w'' : World T) (x : Fin n → T) : T := (w.elements.map fun a => spread (Shape.dof 2 order) (valueOf w'' x a)).sum

theorem spread_le_spreads {order : Nat} {w w'' : World T} {x : Fin n → T} {a : Nat} (ha : a ∈ w.elements) :
    spread (Shape.dof 2 order) (valueOf w'' x a) ≤ spreads order w w'' x := by
  unfold spreads
  refine List.single_le_sum (fun y hy => ?_) _ (List.mem_map_of_mem (f := fun a => spread (Shape.dof 2 order) (valueOf w'' x a)) ha)
  obtain ⟨b, -, rfl⟩ := List.mem_map.1 hy
  exact spread_nonneg _ _

theorem spreads_nonneg {order : Nat} {w w'' : World T} (x : Fin n → T) : 0 ≤ spreads order w w'' x := by
  refine List.sum_nonneg fun y hy => ?_
  obtain ⟨b, -, rfl⟩ := List.mem_map.1 hy
  exact spread_nonneg _ _

/-- a step inside of an element -/
theorem step_le {order : Nat} {w w'' : World T} (ho : order = 1 ∨ order = 2) (he : w''.elements = w.elements) (hr : Ready order w'' (coords w))
    (hn : w''.vertices.length = n) (x : Fin n → T) {r s : Nat} (h : Linked order w'' r s) :
    ∃ (hr : r < n) (hs : s < n), (x ⟨r, hr⟩ - x ⟨s, hs⟩) ^ 2 ≤ 2 * spreads order w w'' x := by
  have hdof : Shape.dof 2 order = 3 * order := by rcases ho with rfl | rfl <;> rfl
  obtain ⟨a, ha, i, hi, j, hj, d1, d2⟩ := h
  obtain ⟨k, k1, k2⟩ := hr.dof a ha i (by omega)
  obtain ⟨l, l1, l2⟩ := hr.dof a ha j (by omega)
  rw [d1] at k2
  rw [d2] at l2
  obtain rfl := Option.some.inj k2
  obtain rfl := Option.some.inj l2
  refine ⟨by omega, by omega, ?_⟩
  rw [← valueOf_eq (x := x) (k := ⟨r, by omega⟩) d1, ← valueOf_eq (x := x) (k := ⟨s, by omega⟩) d2]
  have h1 := spread_le_spreads (order := order) (w'' := w'') (x := x) (he ▸ ha)
  have hle : ∀ i < Shape.dof 2 order, (valueOf w'' x a i - valueOf w'' x a 0) ^ 2 ≤ spread (Shape.dof 2 order) (valueOf w'' x a) := fun i hi =>
    Finset.single_le_sum (f := fun i => (valueOf w'' x a i - valueOf w'' x a 0) ^ 2) (fun _ _ => sq_nonneg _) (Finset.mem_range.2 hi)
  by_cases hij : i = j
  · subst hij
    rw [sub_self]
    have := spreads_nonneg (order := order) (w := w) (w'' := w'') x
    linarith [show (0 : T) ^ 2 = 0 by norm_num]
  have h2 : (valueOf w'' x a i - valueOf w'' x a 0) ^ 2 + (valueOf w'' x a j - valueOf w'' x a 0) ^ 2 ≤ spread (Shape.dof 2 order) (valueOf w'' x a) := by
    unfold spread
    rw [← Finset.sum_pair (f := fun i => (valueOf w'' x a i - valueOf w'' x a 0) ^ 2) hij]
    refine Finset.sum_le_sum_of_subset_of_nonneg (fun k hk => ?_) fun _ _ _ => sq_nonneg _
    rw [Finset.mem_insert, Finset.mem_singleton] at hk
    rw [Finset.mem_range]
    omega
  nlinarith [sq_nonneg ((valueOf w'' x a i - valueOf w'' x a 0) + (valueOf w'' x a j - valueOf w'' x a 0))]

theorem walk_le {order : Nat} {w w'' : World T} (ho : order = 1 ∨ order = 2) (he : w''.elements = w.elements) (hr : Ready order w'' (coords w))
    (hn : w''.vertices.length = n) {x : Fin n → T} (hb : ∀ i : Fin n, OnBoundary w'' i → x i = 0) :
    ∀ (k r : Nat) (hrn : r < n), Within order w'' k r → x ⟨r, hrn⟩ ^ 2 ≤ (k : T) ^ 2 * (2 * spreads order w w'' x) := by
  intro k
  have hS := spreads_nonneg (order := order) (w := w) (w'' := w'') x
  induction k with
  | zero =>
    intro r hrn h
    rw [hb ⟨r, hrn⟩ h]
    simp
  | succ k ih =>
    intro r hrn h
    rcases h with h | ⟨s, h1, h2⟩
    · refine (ih r hrn h).trans ?_
      push_cast
      have hk : (0 : T) ≤ k := Nat.cast_nonneg k
      refine mul_le_mul_of_nonneg_right ?_ (by linarith)
      nlinarith
    · obtain ⟨_, hs, hstep⟩ := step_le ho he hr hn x h1
      have hx := ih s hs h2
      push_cast
      generalize spreads order w w'' x = S at *
      generalize x ⟨r, hrn⟩ = a at *
      generalize x ⟨s, hs⟩ = b at *
      rcases Nat.eq_zero_or_pos k with rfl | hk
      · have hb0 : b = 0 := by
          have : b ^ 2 ≤ 0 := by simpa using hx
          exact pow_eq_zero_iff (two_ne_zero) |>.1 (le_antisymm this (sq_nonneg _))
        subst hb0
        simpa using hstep
      · have hk : (0 : T) < k := by exact_mod_cast hk
        have h3 : (k : T) * a ^ 2 ≤ k * ((k + 1) ^ 2 * (2 * S)) := by
          have e : (k : T) * a ^ 2 ≤ (k + 1) * b ^ 2 + k * (k + 1) * (a - b) ^ 2 := by
            nlinarith [sq_nonneg (b - k * (a - b))]
          have e1 : ((k : T) + 1) * b ^ 2 ≤ (k + 1) * (k ^ 2 * (2 * S)) := mul_le_mul_of_nonneg_left hx (by linarith)
          have e2 : (k : T) * (k + 1) * (a - b) ^ 2 ≤ k * (k + 1) * (2 * S) := mul_le_mul_of_nonneg_left hstep (by positivity)
          have e3 : ((k : T) + 1) * (k ^ 2 * (2 * S)) + k * (k + 1) * (2 * S) = k * ((k + 1) ^ 2 * (2 * S)) := by ring
          linarith
        exact le_of_mul_le_mul_left h3 hk

/-- the quadratic form of the assembled matrix -/
theorem kept_form {order : Nat} {w w'' : World T} (ho : order = 1 ∨ order = 2) (he : w''.elements = w.elements) (hr : Ready order w'' (coords w))
    {eps δ c m : T} (hδ : 0 ≤ δ) (hD : Drops eps δ order w) (hc : 0 ≤ c) (hF : Fat c w) (hm : 0 ≤ m) {x : Fin n → T} (hx : ∀ r, x r ^ 2 ≤ m) :
    c / 30 * spreads order w w'' x - w.elements.length * (36 * δ * m) ≤
      x ⬝ᵥ gather w'' (Shape.dof 2 order) (fun a i j => keep eps (energy order (coords w a) i j)) w.elements *ᵥ x := by
  rw [gather_form, spreads, ← list_sum_affine]
  refine list_sum_le _ fun a ha => ?_
  refine kept_coercive ho (hr.area a (by rw [he]; exact ha)) hc (hF a ha) hδ (hD a ha) (fun i _ => ?_) hm
  unfold valueOf
  split
  · split
    · exact hx _
    · simpa using hm
  · simpa using hm

theorem within_mono {order : Nat} {w : World T} {k l r : Nat} (h : Within order w k r) (hkl : k ≤ l) : Within order w l r := by
  induction hkl with
  | refl => exact h
  | step _ ih => exact .inl ih

/-- a path to the boundary of any length makes a bound for all degrees of freedom -/
theorem Anchored.within {order : Nat} {w : World T} (h : Anchored order w) : ∃ l, ∀ r < w.vertices.length, Within order w l r := by
  have h1 : ∀ r < w.vertices.length, ∃ l, Within order w l r := by
    intro r hr
    obtain ⟨s, hs, hb⟩ := h r hr
    clear hr
    induction hs using Relation.ReflTransGen.head_induction_on with
    | refl => exact ⟨0, hb⟩
    | head h1 _ ih =>
      obtain ⟨l, hl⟩ := ih
      exact ⟨l + 1, .inr ⟨_, h1, hl⟩⟩
  have h2 : ∀ k ≤ w.vertices.length, ∃ l, ∀ r < k, Within order w l r := by
    intro k
    induction k with
    | zero => exact fun _ => ⟨0, fun r hr => absurd hr (by omega)⟩
    | succ k ih =>
      intro hk
      obtain ⟨l, hl⟩ := ih (by omega)
      obtain ⟨m, hm⟩ := h1 k (by omega)
      refine ⟨max l m, fun r hr => ?_⟩
      rcases Nat.lt_succ_iff_lt_or_eq.1 hr with h | rfl
      · exact within_mono (hl r h) (le_max_left _ _)
      · exact within_mono hm (le_max_right _ _)
  exact h2 _ le_rfl

/-- the shortest path visits no degree of freedom twice -/
theorem Anchored.short {order : Nat} {w : World T} (h : Anchored order w) (hlt : ∀ r s, Linked order w r s → r < w.vertices.length ∧ s < w.vertices.length) :
    ∀ r < w.vertices.length, Within order w w.vertices.length r := by
  intro r hr
  obtain ⟨s, hs, hb⟩ := h r hr
  let G : SimpleGraph (Fin w.vertices.length) := SimpleGraph.fromRel fun i j => Linked order w i j
  have hsymm : ∀ {i j : Nat}, Linked order w i j → Linked order w j i := fun ⟨a, ha, i, hi, j, hj, d1, d2⟩ => ⟨a, ha, j, hj, i, hi, d2, d1⟩
  have hreach : ∀ s, Relation.ReflTransGen (Linked order w) r s → ∃ hs : s < w.vertices.length, G.Reachable ⟨r, hr⟩ ⟨s, hs⟩ := by
    intro s hs
    induction hs with
    | refl => exact ⟨hr, .refl _⟩
    | @tail b c _ h2 ih =>
      obtain ⟨hb, i1⟩ := ih
      obtain ⟨-, hc⟩ := hlt b c h2
      refine ⟨hc, i1.trans ?_⟩
      by_cases hbc : b = c
      · subst hbc; exact .refl _
      · exact SimpleGraph.Adj.reachable ((SimpleGraph.fromRel_adj _ _ _).2 ⟨fun h => hbc (congrArg Fin.val h), .inl h2⟩)
  obtain ⟨hsl, ⟨p⟩⟩ := hreach s hs
  have hwalk : ∀ {i j : Fin w.vertices.length} (q : G.Walk i j), OnBoundary w j → Within order w q.length i := by
    intro i j q
    induction q with
    | nil => exact fun h => h
    | cons hadj q ih =>
      intro hj
      obtain ⟨-, h1⟩ := (SimpleGraph.fromRel_adj _ _ _).1 hadj
      exact .inr ⟨_, h1.elim id hsymm, ih hj⟩
  classical
  have hl := (p.toPath).2.length_lt
  rw [Fintype.card_fin] at hl
  exact within_mono (hwalk (i := ⟨r, hr⟩) (j := ⟨s, hsl⟩) p.toPath.1 hb) hl.le

theorem sides_pos {P : Fin 3 → Fin 2 → T} (hd : area2 P ≠ 0) : 0 < sides P := by
  have h := sides_inv hd ![1, 0]
  have h1 : (![1, 0] : Fin 2 → T) ⬝ᵥ ![1, 0] = 1 := by simp [dotProduct, Fin.sum_univ_two]
  rw [h1] at h
  have := dot_self_nonneg ((jac P)⁻¹ *ᵥ ![1, 0])
  by_contra hn
  have := mul_nonpos_of_nonpos_of_nonneg (not_lt.1 hn) this
  linarith

/-- finitely many triangles are not arbitrarily thin -/
theorem fat_exists (w : World T) (h : ∀ a ∈ w.elements, area2 (coords w a) ≠ 0) : ∃ c, 0 < c ∧ Fat c w := by
  unfold Fat
  generalize w.elements = l at h
  induction l with
  | nil => exact ⟨1, one_pos, fun a ha => by simp at ha⟩
  | cons b l ih =>
    obtain ⟨c, c0, hc⟩ := ih fun a ha => h a (List.mem_cons_of_mem _ ha)
    have hb := h b List.mem_cons_self
    have hs := sides_pos hb
    refine ⟨min c (|area2 (coords w b)| / sides (coords w b)), lt_min c0 (div_pos (abs_pos.2 hb) hs), fun a ha => ?_⟩
    rcases List.mem_cons.1 ha with rfl | ha
    · calc _ ≤ |area2 (coords w a)| / sides (coords w a) * sides (coords w a) := mul_le_mul_of_nonneg_right (min_le_right _ _) hs.le
        _ = _ := div_mul_cancel₀ _ hs.ne'
    · exact (mul_le_mul_of_nonneg_right (min_le_left _ _) (sides_pos (h a (List.mem_cons_of_mem _ ha))).le).trans (hc a ha)

/-- if nothing is dropped the condition is met -/
theorem solid_of_noneDropped {eps : T} {order : Nat} {w w'' : World T} (hw : ∀ a ∈ w.elements, area2 (coords w a) ≠ 0) (hk : NoneDropped eps order w)
    (ha : Anchored order w'') : Solid eps order w w'' := by
  obtain ⟨c, c0, hc⟩ := fat_exists w hw
  obtain ⟨l, hl⟩ := ha.within
  refine ⟨0, c, l, le_rfl, fun a ha i hi j hj h => ?_, hc, hl, by simpa using c0⟩
  by_contra hn
  exact absurd (hk a ha i hi j hj fun h0 => hn (by rw [h0, abs_zero])) (not_lt.2 h)

open Classical in
/-- C119: on every mesh on which what the threshold drops is small enough, the matrix of the example is symmetric positive definite, its system has exactly one
solution, and this is the function with the given boundary values that satisfies the discrete equations, with the dropped entries left out, at all other
degrees of freedom. -/
theorem C119_system {w w' w'' : World T} {order : Nat} (h : Built w) (hd : Distinct w) (hc : Closed w) (hp : Pipeline w w')
    (ho : order = 1 ∨ order = 2) (e : Shape.prepareMesh order w' = .ok w'') (hel : w.elements ≠ [])
    (hn : w''.vertices.length = n) {eps : T} (hS : Solid eps order w w'') (src g : List T → T) :
    ∃ (a : M) (b : List T) (A : Matrix (Fin n) (Fin n) T) (B : Fin n → T), system eps order src g w'' = .ok (a, b) ∧ IsMat a n A ∧ IsVec b n B ∧
      NS.CG.SPD A ∧ (∃! x, A *ᵥ x = B) ∧
      ∀ x : Fin n → T, A *ᵥ x = B ↔ ∀ (r : Fin n) v, vertexAt w'' r = some v →
        (v.flags &&& 1 ≠ 0 → x r = g v.pos) ∧
        (v.flags &&& 1 = 0 → (w.elements.map fun a => ∑ i ∈ Finset.range (3 * order), if dofIndex w'' a i = some (r : Nat) then
            ∑ j ∈ Finset.range (3 * order), keep eps (energy order (coords w a) i j) * valueOf w'' x a j else 0).sum =
          (w.elements.map fun a => ∑ i ∈ Finset.range (3 * order), if dofIndex w'' a i = some (r : Nat) then keep eps (load order src (coords w a) i) else 0).sum) := by
  obtain ⟨δ, c, l, hδ, hD, hF, hl, hcond⟩ := hS
  have hv : w.vertices ≠ [] := by
    obtain ⟨a, ha⟩ := List.exists_mem_of_ne_nil _ hel
    have hI := built_inv h
    obtain ⟨x, hx⟩ : ∃ x, w.E[a]? = some x := ⟨_, List.getElem?_eq_getElem (hI.elt a ha)⟩
    intro h0
    obtain ⟨q, -, q1, -⟩ := hI.corner a ha x hx 0 (by omega)
    have := hc a ha q (by rw [vertsOf_some hx]; exact List.mem_of_getElem? q1)
    rw [h0] at this
    simp at this
  have hr := ready_of h hd hc hp ho e hv
  have hDi := dofs_in h hd hc hp.setup ho e
  have hN := C60_numbered h hd hp.setup ho e
  have hdof : Shape.dof 2 order = 3 * order := by rcases ho with rfl | rfl <;> rfl
  have hn0 : 0 < n := by rw [← hn]; exact hr.pos
  obtain ⟨a, b, e1, e2, e3⟩ := assemble_ok (M := M) (eps := eps) ho src hr hn
  obtain ⟨m, hm⟩ : ∃ m : T, m = (w.elements.length : T) := ⟨_, rfl⟩
  have hm1 : 1 ≤ m := by
    rw [hm]
    exact_mod_cast List.length_pos_iff.2 hel
  rw [← hm] at hcond
  have hl0 : (0 : T) ≤ l := Nat.cast_nonneg l
  have hc0 : 0 < c := lt_of_le_of_lt (by positivity) hcond
  rw [sysMat_eq, hDi.elements] at e2
  obtain ⟨G, hG⟩ : ∃ G : Matrix (Fin n) (Fin n) T, G = gather w'' (Shape.dof 2 order) (fun a i j => keep eps (energy order (coords w a) i j)) w.elements := ⟨_, rfl⟩
  rw [← hG] at e2
  have hform : ∀ {x : Fin n → T} {μ : T}, 0 ≤ μ → (∀ r, x r ^ 2 ≤ μ) → c / 30 * spreads order w w'' x - m * (36 * δ * μ) ≤ x ⬝ᵥ G *ᵥ x := by
    intro x μ h0 hx
    rw [hG, hm]
    exact kept_form ho hDi.elements hr hδ hD hc0.le hF h0 hx
  -- the diagonal
  have hsum : 0 < ∑ i : Fin n, |G i i| := by
    obtain ⟨a, ha⟩ := List.exists_mem_of_ne_nil _ hel
    have ha' : a ∈ w''.elements := by rw [hDi.elements]; exact ha
    have h1 : 1 < Shape.dof 2 order := by rcases ho with rfl | rfl <;> decide
    obtain ⟨r, r1, r2⟩ := hr.dof a ha' 0 (by omega)
    obtain ⟨s, s1, s2⟩ := hr.dof a ha' 1 h1
    obtain ⟨x, x1, x2, x3⟩ := hDi.dof a ha
    obtain ⟨p, p1, p2⟩ := x2 0 (by omega)
    obtain ⟨q, q1, q2⟩ := x2 1 h1
    have hrs : r ≠ s := by
      rintro rfl
      have := numbered_inj hN x1 p1 q1 p2 q2 r2 s2
      rw [p1, q1, this] at x3
      exact x3 rfl
    refine lt_of_lt_of_le ?_ (Finset.single_le_sum (fun i _ => abs_nonneg _) (Finset.mem_univ (⟨r, by omega⟩ : Fin n)))
    obtain ⟨_, hs, hstep⟩ := step_le ho hDi.elements hr hn (Pi.single ⟨r, by omega⟩ 1) ⟨a, ha', 0, by omega, 1, by omega, r2, s2⟩
    rw [Pi.single_eq_same, Pi.single_eq_of_ne (by intro hh; exact hrs (Fin.ext_iff.1 hh).symm)] at hstep
    have hf := hform (x := Pi.single ⟨r, by omega⟩ 1) (μ := 1) zero_le_one (fun k => by
      rw [Pi.single_apply]
      split <;> norm_num)
    rw [Matrix.mulVec_single_one, single_one_dotProduct] at hf
    refine lt_of_lt_of_le ?_ (le_abs_self _)
    refine lt_of_lt_of_le ?_ hf
    have h4 : m * δ ≤ m * (l + 1) ^ 2 * δ := by
      have : (1 : T) ≤ (l + 1) ^ 2 := by nlinarith
      nlinarith [mul_nonneg (by linarith : (0 : T) ≤ m) hδ]
    have h5 : c / 30 * (1 / 2) ≤ c / 30 * spreads order w w'' (Pi.single (⟨r, by omega⟩ : Fin n) 1) :=
      mul_le_mul_of_nonneg_left (by linarith) (by linarith)
    linarith
  have havg := C60_avgMid hN hn hn0 e2
  have hpos : 0 < (∑ i, |G i i|) / n := div_pos hsum (by exact_mod_cast hn0)
  obtain ⟨a', b', f1, f2, f3⟩ := C60_constrain hN hn e2 e3 ((∑ i, |G i i|) / n) g
  obtain ⟨a2, b2, A2, B2, g1, g2, g3, g4, -⟩ := C60_solutions hN hn e2 e3 hpos.ne' g
  rw [f1] at g1
  obtain ⟨rfl, rfl⟩ := Prod.mk.inj (Except.ok.inj g1)
  have hA : A2 = reducedMat w'' ((∑ i, |G i i|) / n) G := by
    ext i j
    rw [← g2.val_eq, ← f2.val_eq]
  have hspd : NS.CG.SPD A2 := by
    rw [hA]
    refine C60_spd w'' hpos ?_ fun x hx hb => ?_
    · rw [hG]
      exact gather_symm _ _ (fun a i j => by rw [energy_comm]) w.elements
    · have hx2 : ∀ r : Fin n, x r ^ 2 ≤ (l : T) ^ 2 * (2 * spreads order w w'' x) := fun r =>
        walk_le ho hDi.elements hr hn hb l r r.2 (hl r (by rw [hn]; exact r.2))
      have hS0 := spreads_nonneg (order := order) (w := w) (w'' := w'') x
      have hf := hform (by positivity) hx2
      have hSp : 0 < spreads order w w'' x := by
        refine lt_of_le_of_ne hS0 fun h0 => hx ?_
        funext r
        have := hx2 r
        rw [← h0] at this
        simp only [mul_zero] at this
        exact pow_eq_zero_iff (two_ne_zero) |>.1 (le_antisymm this (sq_nonneg _))
      refine lt_of_lt_of_le ?_ hf
      have h5 : 2160 * m * (l : T) ^ 2 * δ < c := by
        refine lt_of_le_of_lt ?_ hcond
        have : (l : T) ^ 2 ≤ (l + 1) ^ 2 := by nlinarith
        exact mul_le_mul_of_nonneg_right (mul_le_mul_of_nonneg_left this (by positivity)) hδ
      have h6 := mul_lt_mul_of_pos_right h5 hSp
      generalize spreads order w w'' x = S at *
      have : c / 30 * S - m * (36 * δ * ((l : T) ^ 2 * (2 * S))) = (c * S - 2160 * m * (l : T) ^ 2 * δ * S) / 30 := by ring
      rw [this]
      exact div_pos (by linarith) (by norm_num)
  refine ⟨a', b', A2, B2, ?_, g2, g3, hspd, ?_, fun x => ?_⟩
  · unfold system
    rw [e1, ok_bind, havg, ok_bind, f1]
  · have hinj : Function.Injective A2.mulVec := by
      intro x y hxy
      by_contra hne
      have := hspd.2 (x - y) (sub_ne_zero.2 hne)
      rw [Matrix.mulVec_sub, hxy, sub_self, dotProduct_zero] at this
      exact lt_irrefl _ this
    have hu := Matrix.mulVec_injective_iff_isUnit.1 hinj
    obtain ⟨x, hx⟩ := Matrix.mulVec_surjective_iff_isUnit.2 hu B2
    exact ⟨x, hx, fun y hy => hinj (hy.trans hx.symm)⟩
  · rw [g4 x]
    refine forall_congr' fun r => forall_congr' fun v => forall_congr' fun hv => and_congr Iff.rfl (imp_congr Iff.rfl ?_)
    rw [hG, gather_mulVec, sysVec, hDi.elements, hdof]

/-- if nothing is dropped, a mesh as in C67 meets the condition -/
theorem solid_of {w w' w'' : World T} {order : Nat} (h : Built w) (hd : Distinct w) (hc : Closed w) (hp : Pipeline w w')
    (ho : order = 1 ∨ order = 2) (e : Shape.prepareMesh order w' = .ok w'') (hel : w.elements ≠ []) {eps : T} (hk : NoneDropped eps order w)
    (ha : Anchored order w'') : Solid eps order w w'' := by
  have hv : w.vertices ≠ [] := by
    obtain ⟨a, ha⟩ := List.exists_mem_of_ne_nil _ hel
    have hI := built_inv h
    obtain ⟨x, hx⟩ : ∃ x, w.E[a]? = some x := ⟨_, List.getElem?_eq_getElem (hI.elt a ha)⟩
    intro h0
    obtain ⟨q, -, q1, -⟩ := hI.corner a ha x hx 0 (by omega)
    have := hc a ha q (by rw [vertsOf_some hx]; exact List.mem_of_getElem? q1)
    rw [h0] at this
    simp at this
  have hr := ready_of h hd hc hp ho e hv
  have hD := dofs_in h hd hc hp.setup ho e
  exact solid_of_noneDropped (fun a ha => hr.area a (by rw [hD.elements]; exact ha)) hk ha

/-- the same for a mesh on which the dropped entries are small compared with the number of degrees of freedom -/
theorem solid_of_small {w w' w'' : World T} {order : Nat} (h : Built w) (hd : Distinct w) (hc : Closed w) (hp : Pipeline w w')
    (ho : order = 1 ∨ order = 2) (e : Shape.prepareMesh order w' = .ok w'') (hv : w.vertices ≠ []) {eps δ c : T} (hδ : 0 ≤ δ) (hD : Drops eps δ order w)
    (hF : Fat c w) (ha : Anchored order w'') (hn : 2160 * w.elements.length * ((w''.vertices.length : T) + 1) ^ 2 * δ < c) : Solid eps order w w'' := by
  have hr := ready_of h hd hc hp ho e hv
  have hdof : Shape.dof 2 order = 3 * order := by rcases ho with rfl | rfl <;> rfl
  refine ⟨δ, c, w''.vertices.length, hδ, hD, hF, ha.short fun r s hl => ?_, hn⟩
  obtain ⟨a, ha, i, hi, j, hj, d1, d2⟩ := hl
  obtain ⟨k, k1, k2⟩ := hr.dof a ha i (by omega)
  obtain ⟨l, l1, l2⟩ := hr.dof a ha j (by omega)
  rw [d1] at k2
  rw [d2] at l2
  rw [Option.some.inj k2, Option.some.inj l2]
  exact ⟨k1, l1⟩

end NS.Props.Fem

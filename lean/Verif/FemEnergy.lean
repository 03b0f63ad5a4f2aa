/-
Lemmas for the finite element example: the energy of one element and of the assembled matrix.
-/
import Verif.FemSystem
import Mathlib.Tactic.Linarith
import Mathlib.Tactic.LinearCombination

set_option linter.unusedSectionVars false
set_option linter.unusedSimpArgs false

namespace NS.Props.Fem
open NS NS.World NS.Fem NS.MatOps NS.LawfulMat Matrix
open NS.Props.LU (IsMat IsVec isVec_iff isMat_of)
open NS.Props.Simplex (area2 prepOf)
open NS.Props.Shape (pt)
variable {T : Type} [Field T] [LinearOrder T] [IsStrictOrderedRing T] {n : Nat}

theorem quad_smul_sum {order N : Nat} (c : Nat → T) (f : Nat → List T → T) :
    (∑ i ∈ Finset.range N, c i * quad order (f i)) = quad order fun p => ∑ i ∈ Finset.range N, c i * f i p := by
  unfold quad
  generalize (Quadrature.table 2 order : List (List T × T)) = l
  induction l with
  | nil => simp
  | cons x l ih =>
    simp only [List.map_cons, List.sum_cons, mul_add, Finset.sum_add_distrib, ih]
    congr 1
    rw [Finset.mul_sum]
    exact Finset.sum_congr rfl fun i _ => by ring

/-- gradient on the reference triangle of the function with nodal values `u` -/
noncomputable def gradOf (order : Nat) (u : Nat → T) (p : List T) : Fin 2 → T :=
  ∑ i ∈ Finset.range (Shape.dof 2 order), u i • gradAt order i p

theorem energy_sum (order : Nat) (P : Fin 3 → Fin 2 → T) (u : Nat → T) :
    (∑ i ∈ Finset.range (Shape.dof 2 order), ∑ j ∈ Finset.range (Shape.dof 2 order), energy order P i j * u i * u j) =
      |area2 P| * quad (order + 1) fun p => ((jac P)⁻¹ *ᵥ gradOf order u p) ⬝ᵥ ((jac P)⁻¹ *ᵥ gradOf order u p) := by
  have h1 : ∀ i, (∑ j ∈ Finset.range (Shape.dof 2 order), energy order P i j * u i * u j) =
      u i * (|area2 P| * quad (order + 1) fun p => ((jac P)⁻¹ *ᵥ gradAt order i p) ⬝ᵥ ((jac P)⁻¹ *ᵥ gradOf order u p)) := by
    intro i
    unfold energy gradOf
    have h3 : ∀ p, ((jac P)⁻¹ *ᵥ gradAt order i p) ⬝ᵥ ((jac P)⁻¹ *ᵥ ∑ j ∈ Finset.range (Shape.dof 2 order), u j • gradAt order j p) =
        ∑ j ∈ Finset.range (Shape.dof 2 order), u j * (((jac P)⁻¹ *ᵥ gradAt order i p) ⬝ᵥ ((jac P)⁻¹ *ᵥ gradAt order j p)) := by
      intro p
      rw [Matrix.mulVec_sum, dotProduct_sum]
      refine Finset.sum_congr rfl fun j _ => ?_
      rw [Matrix.mulVec_smul, dotProduct_smul, smul_eq_mul]
    simp only [h3]
    rw [← quad_smul_sum, Finset.mul_sum, Finset.mul_sum]
    exact Finset.sum_congr rfl fun j _ => by ring
  rw [Finset.sum_congr rfl fun i _ => h1 i]
  have h3 : ∀ p, ((jac P)⁻¹ *ᵥ gradOf order u p) ⬝ᵥ ((jac P)⁻¹ *ᵥ gradOf order u p) =
      ∑ i ∈ Finset.range (Shape.dof 2 order), u i * (((jac P)⁻¹ *ᵥ gradAt order i p) ⬝ᵥ ((jac P)⁻¹ *ᵥ gradOf order u p)) := by
    intro p
    conv_lhs => arg 1; unfold gradOf
    rw [Matrix.mulVec_sum, sum_dotProduct]
    refine Finset.sum_congr rfl fun j _ => ?_
    rw [Matrix.mulVec_smul, smul_dotProduct, smul_eq_mul]
  simp only [h3]
  rw [← quad_smul_sum, Finset.mul_sum]
  exact Finset.sum_congr rfl fun j _ => by ring

theorem gradOf_one (u : Nat → T) (x y : T) : gradOf 1 u [x, y] = ![u 1 - u 0, u 2 - u 0] := by
  unfold gradOf
  have hd : Shape.dof 2 1 = 3 := rfl
  have p0 : pt 2 [x, y] 0 = x := rfl
  have p1 : pt 2 [x, y] 1 = y := rfl
  rw [hd]
  funext k
  fin_cases k <;> simp [Finset.sum_range_succ, gradAt, basis, hat, MvPolynomial.pderiv_X, Pi.single_apply] <;> ring

theorem gradOf_two (u : Nat → T) (x y : T) : gradOf 2 u [x, y] =
    ![(-3 * u 0 - u 1 + 4 * u 3) + (4 * u 0 - 4 * u 3 + 4 * u 4 - 4 * u 5) * y + 2 * (2 * u 0 + 2 * u 1 - 4 * u 3) * x,
      (-3 * u 0 - u 2 + 4 * u 5) + (4 * u 0 - 4 * u 3 + 4 * u 4 - 4 * u 5) * x + 2 * (2 * u 0 + 2 * u 2 - 4 * u 5) * y] := by
  unfold gradOf
  have hd : Shape.dof 2 2 = 6 := rfl
  have p0 : pt 2 [x, y] 0 = x := rfl
  have p1 : pt 2 [x, y] 1 = y := rfl
  rw [hd]
  funext k
  fin_cases k <;> simp [Finset.sum_range_succ, gradAt, basis, hat, MvPolynomial.pderiv_X, Pi.single_apply, p0, p1] <;> ring

theorem dot_self_nonneg (v : Fin 2 → T) : 0 ≤ v ⬝ᵥ v := by
  rw [dotProduct, Fin.sum_univ_two]
  exact add_nonneg (mul_self_nonneg _) (mul_self_nonneg _)

theorem dot_self_zero {v : Fin 2 → T} (h : v ⬝ᵥ v = 0) : v = 0 := by
  rw [dotProduct, Fin.sum_univ_two] at h
  have h0 := mul_self_nonneg (v 0)
  have h1 := mul_self_nonneg (v 1)
  funext i
  fin_cases i
  · show v 0 = 0
    exact mul_self_eq_zero.1 (by linarith)
  · show v 1 = 0
    exact mul_self_eq_zero.1 (by linarith)

theorem jac_unit {P : Fin 3 → Fin 2 → T} (hd : area2 P ≠ 0) : IsUnit (jac P).det := by
  have : (jac P).det = area2 P := rfl
  rw [this]
  exact isUnit_iff_ne_zero.2 hd

theorem inv_mulVec_zero {P : Fin 3 → Fin 2 → T} (hd : area2 P ≠ 0) {v : Fin 2 → T} (h : (jac P)⁻¹ *ᵥ v = 0) : v = 0 := by
  have := congrArg (fun u => jac P *ᵥ u) h
  simp only [Matrix.mulVec_mulVec, Matrix.mul_nonsing_inv _ (jac_unit hd), Matrix.one_mulVec, Matrix.mulVec_zero] at this
  exact this

/-- the rule of order 3 is positive on squares of affine functions although one of its weights is negative -/
theorem quad_three_sq {f : List T → T} (hf : ∃ a b c : T, ∀ x y, f [x, y] = a + b * x + c * y) :
    (1 / 10 : T) * (f [1 / 5, 1 / 5] * f [1 / 5, 1 / 5] + f [1 / 5, 3 / 5] * f [1 / 5, 3 / 5] + f [3 / 5, 1 / 5] * f [3 / 5, 1 / 5]) ≤
      quad 3 fun p => f p * f p := by
  obtain ⟨a, b, c, h⟩ := hf
  have h2 : (200000000000000 : T) / 10 ^ 15 = 1 / 5 := by norm_num
  have h6 : (600000000000000 : T) / 10 ^ 15 = 3 / 5 := by norm_num
  have hw : (520833333333333 : T) / 10 ^ 15 / 2 ≥ 26 / 100 := by norm_num
  have hc : f [333333333333333 / 10 ^ 15, 333333333333333 / 10 ^ 15] =
      333333333333335 / 10 ^ 15 * f [1 / 5, 1 / 5] + 3333333333333325 / 10 ^ 16 * f [1 / 5, 3 / 5] + 3333333333333325 / 10 ^ 16 * f [3 / 5, 1 / 5] := by
    rw [h, h, h, h]
    ring
  simp only [quad, Quadrature.table, Quadrature.lit, List.map_cons, List.map_nil, List.sum_cons, List.sum_nil, Int.cast_ofNat, Int.cast_neg, h2, h6, hc]
  generalize f [1 / 5, 1 / 5] = u
  generalize f [1 / 5, 3 / 5] = v
  generalize f [3 / 5, 1 / 5] = w
  nlinarith [sq_nonneg (u - v), sq_nonneg (u - w), sq_nonneg (v - w), sq_nonneg u, sq_nonneg v, sq_nonneg w]

theorem quad_two_const {f : List T → T} {k : T} (hf : ∀ x y, f [x, y] = k) : quad 2 f = 999999999999999 / 2 / 10 ^ 15 * k := by
  simp only [quad, Quadrature.table, Quadrature.lit, List.map_cons, List.map_nil, List.sum_cons, List.sum_nil, Int.cast_ofNat, hf]
  ring

theorem quad_add (order : Nat) (f g : List T → T) : quad order (fun p => f p + g p) = quad order f + quad order g := by
  unfold quad
  generalize (Quadrature.table 2 order : List (List T × T)) = l
  induction l with
  | nil => simp
  | cons x l ih =>
    simp only [List.map_cons, List.sum_cons, ih]
    ring

/-- the energy of an element is non-negative, and zero only for constant functions -/
theorem energy_pos {order : Nat} (ho : order = 1 ∨ order = 2) {P : Fin 3 → Fin 2 → T} (hd : area2 P ≠ 0) (u : Nat → T) :
    0 ≤ (∑ i ∈ Finset.range (Shape.dof 2 order), ∑ j ∈ Finset.range (Shape.dof 2 order), energy order P i j * u i * u j) ∧
    ((∑ i ∈ Finset.range (Shape.dof 2 order), ∑ j ∈ Finset.range (Shape.dof 2 order), energy order P i j * u i * u j) = 0 →
      ∀ i < Shape.dof 2 order, u i = u 0) := by
  rw [energy_sum]
  have hpos : 0 < |area2 P| := abs_pos.2 hd
  rcases ho with rfl | rfl
  · have hq : quad (1 + 1) (fun p => ((jac P)⁻¹ *ᵥ gradOf 1 u p) ⬝ᵥ ((jac P)⁻¹ *ᵥ gradOf 1 u p)) =
        999999999999999 / 2 / 10 ^ 15 * (((jac P)⁻¹ *ᵥ ![u 1 - u 0, u 2 - u 0]) ⬝ᵥ ((jac P)⁻¹ *ᵥ ![u 1 - u 0, u 2 - u 0])) :=
      quad_two_const fun x y => by rw [gradOf_one]
    rw [hq]
    have hc : (0 : T) < 999999999999999 / 2 / 10 ^ 15 := by norm_num
    refine ⟨mul_nonneg hpos.le (mul_nonneg hc.le (dot_self_nonneg _)), fun h => ?_⟩
    have h := (mul_eq_zero.1 h).resolve_left hpos.ne'
    have h := (mul_eq_zero.1 h).resolve_left hc.ne'
    have h := inv_mulVec_zero hd (dot_self_zero h)
    have h1 : u 1 - u 0 = 0 := congrFun h 0
    have h2 : u 2 - u 0 = 0 := congrFun h 1
    intro i hi
    simp only [Shape.dof] at hi
    interval_cases i
    · rfl
    · linarith
    · linarith
  · have hsplit : (fun p => ((jac P)⁻¹ *ᵥ gradOf 2 u p) ⬝ᵥ ((jac P)⁻¹ *ᵥ gradOf 2 u p)) =
        fun p => ((jac P)⁻¹ *ᵥ gradOf 2 u p) 0 * ((jac P)⁻¹ *ᵥ gradOf 2 u p) 0 + ((jac P)⁻¹ *ᵥ gradOf 2 u p) 1 * ((jac P)⁻¹ *ᵥ gradOf 2 u p) 1 := by
      funext p
      rw [dotProduct, Fin.sum_univ_two]
    rw [hsplit, quad_add]
    have aff : ∀ k : Fin 2, ∃ a b c : T, ∀ x y, ((jac P)⁻¹ *ᵥ gradOf 2 u [x, y]) k = a + b * x + c * y := by
      intro k
      generalize hI : (jac P)⁻¹ = I
      refine ⟨I k 0 * (-3 * u 0 - u 1 + 4 * u 3) + I k 1 * (-3 * u 0 - u 2 + 4 * u 5),
        I k 0 * (2 * (2 * u 0 + 2 * u 1 - 4 * u 3)) + I k 1 * (4 * u 0 - 4 * u 3 + 4 * u 4 - 4 * u 5),
        I k 0 * (4 * u 0 - 4 * u 3 + 4 * u 4 - 4 * u 5) + I k 1 * (2 * (2 * u 0 + 2 * u 2 - 4 * u 5)), fun x y => ?_⟩
      rw [gradOf_two, Matrix.mulVec, dotProduct, Fin.sum_univ_two]
      simp only [Matrix.cons_val_zero, Matrix.cons_val_one]
      ring
    have q0 := quad_three_sq (f := fun p => ((jac P)⁻¹ *ᵥ gradOf 2 u p) 0) (aff 0)
    have q1 := quad_three_sq (f := fun p => ((jac P)⁻¹ *ᵥ gradOf 2 u p) 1) (aff 1)
    have hq0 := fun x y : T => mul_self_nonneg (((jac P)⁻¹ *ᵥ gradOf 2 u [x, y]) 0)
    have hq1 := fun x y : T => mul_self_nonneg (((jac P)⁻¹ *ᵥ gradOf 2 u [x, y]) 1)
    refine ⟨mul_nonneg hpos.le ?_, fun h => ?_⟩
    · have := hq0 (1 / 5) (1 / 5)
      have := hq0 (1 / 5) (3 / 5)
      have := hq0 (3 / 5) (1 / 5)
      have := hq1 (1 / 5) (1 / 5)
      have := hq1 (1 / 5) (3 / 5)
      have := hq1 (3 / 5) (1 / 5)
      refine add_nonneg (le_trans ?_ q0) (le_trans ?_ q1) <;> linarith
    · have h := (mul_eq_zero.1 h).resolve_left hpos.ne'
      have a1 := hq0 (1 / 5) (1 / 5)
      have a2 := hq0 (1 / 5) (3 / 5)
      have a3 := hq0 (3 / 5) (1 / 5)
      have a4 := hq1 (1 / 5) (1 / 5)
      have a5 := hq1 (1 / 5) (3 / 5)
      have a6 := hq1 (3 / 5) (1 / 5)
      have z : ∀ x y : T, ((jac P)⁻¹ *ᵥ gradOf 2 u [x, y]) 0 * ((jac P)⁻¹ *ᵥ gradOf 2 u [x, y]) 0 = 0 →
          ((jac P)⁻¹ *ᵥ gradOf 2 u [x, y]) 1 * ((jac P)⁻¹ *ᵥ gradOf 2 u [x, y]) 1 = 0 → gradOf 2 u [x, y] = 0 := by
        intro x y e0 e1
        refine inv_mulVec_zero hd ?_
        funext k
        fin_cases k
        · exact mul_self_eq_zero.1 e0
        · exact mul_self_eq_zero.1 e1
      have z1 := z (1 / 5) (1 / 5) (by linarith) (by linarith)
      have z2 := z (1 / 5) (3 / 5) (by linarith) (by linarith)
      have z3 := z (3 / 5) (1 / 5) (by linarith) (by linarith)
      rw [gradOf_two] at z1 z2 z3
      have e1 := congrFun z1 0
      have e2 := congrFun z1 1
      have e3 := congrFun z2 0
      have e4 := congrFun z2 1
      have e5 := congrFun z3 0
      have e6 := congrFun z3 1
      simp only [Matrix.cons_val_zero, Matrix.cons_val_one, Pi.zero_apply] at e1 e2 e3 e4 e5 e6
      intro i hi
      simp only [Shape.dof] at hi
      interval_cases i
      · rfl
      · linarith
      · linarith
      · linarith
      · linarith
      · linarith

/-- the entries of the element matrix in each row sum to zero -/
theorem energy_row {order : Nat} (ho : order = 1 ∨ order = 2) (P : Fin 3 → Fin 2 → T) (i : Nat) :
    (∑ j ∈ Finset.range (Shape.dof 2 order), energy order P i j) = 0 := by
  unfold energy
  rw [← Finset.mul_sum]
  have h := quad_smul_sum (order := order + 1) (N := Shape.dof 2 order) (fun _ => (1 : T))
    (fun j p => ((jac P)⁻¹ *ᵥ gradAt order i p) ⬝ᵥ ((jac P)⁻¹ *ᵥ gradAt order j p))
  simp only [one_mul] at h
  rw [h]
  have hz : ∀ x ∈ (Quadrature.table 2 (order + 1) : List (List T × T)),
      (∑ j ∈ Finset.range (Shape.dof 2 order), ((jac P)⁻¹ *ᵥ gradAt order i x.1) ⬝ᵥ ((jac P)⁻¹ *ᵥ gradAt order j x.1)) = 0 := by
    intro x hx
    rw [← dotProduct_sum, ← Matrix.mulVec_sum]
    have hg : gradOf order (fun _ => (1 : T)) x.1 = 0 := by
      have hl : x.1.length = 2 := by
        rcases ho with rfl | rfl <;> simp [Quadrature.table] at hx <;> aesop
      obtain ⟨a, b, hab⟩ := Props.Simplex.two_of_length hl
      rw [hab]
      rcases ho with rfl | rfl
      · rw [gradOf_one]; funext k; fin_cases k <;> simp
      · rw [gradOf_two]; funext k; fin_cases k <;> simp <;> ring
    unfold gradOf at hg
    simp only [one_smul] at hg
    rw [hg, Matrix.mulVec_zero, dotProduct_zero]
  unfold quad
  rw [List.sum_eq_zero, mul_zero]
  intro y hy
  obtain ⟨x, hx, rfl⟩ := List.mem_map.1 hy
  simp only
  rw [hz x hx, mul_zero]

theorem energy_comm (order : Nat) (P : Fin 3 → Fin 2 → T) (i j : Nat) : energy order P i j = energy order P j i := by
  unfold energy
  simp only [dotProduct_comm]

/-! ### The assembled matrix -/

/-- value of `x` at degree of freedom `i` of element `a` -/
def valueOf (w : World T) (x : Fin n → T) (a i : Nat) : T :=
  match dofIndex w a i with
  | some k => if h : k < n then x ⟨k, h⟩ else 0
  | none => 0

theorem sum_dof {w : World T} (x : Fin n → T) (a i : Nat) (c : T) :
    (∑ r : Fin n, if dofIndex w a i = some (r : Nat) then c * x r else 0) = c * valueOf w x a i := by
  unfold valueOf
  rcases dofIndex w a i with _ | k
  · simp
  · simp only [Option.some.injEq]
    split
    · next h =>
      rw [Finset.sum_eq_single (⟨k, h⟩ : Fin n)]
      · simp
      · intro b _ hb
        rw [if_neg]
        intro hh
        exact hb (Fin.ext hh.symm)
      · intro hh; exact absurd (Finset.mem_univ _) hh
    · next h =>
      rw [Finset.sum_eq_zero, mul_zero]
      intro r _
      rw [if_neg]
      intro hh
      exact h (by rw [hh]; exact r.2)

/-- a matrix assembled from element matrices `K a` -/
def gather (w : World T) (N : Nat) (K : Nat → Nat → Nat → T) (l : List Nat) : Matrix (Fin n) (Fin n) T :=
  Matrix.of fun r c => (l.map fun a => ∑ i ∈ Finset.range N, ∑ j ∈ Finset.range N,
    if dofIndex w a i = some (r : Nat) ∧ dofIndex w a j = some (c : Nat) then K a i j else 0).sum

theorem gather_cons (w : World T) (N : Nat) (K : Nat → Nat → Nat → T) (a : Nat) (l : List Nat) :
    (gather w N K (a :: l) : Matrix (Fin n) (Fin n) T) = gather w N K [a] + gather w N K l := by
  ext r c
  simp [gather]

theorem gather_mulVec_one (w : World T) (N : Nat) (K : Nat → Nat → Nat → T) (a : Nat) (x : Fin n → T) (r : Fin n) :
    (gather w N K [a] *ᵥ x) r = ∑ i ∈ Finset.range N, if dofIndex w a i = some (r : Nat) then ∑ j ∈ Finset.range N, K a i j * valueOf w x a j else 0 := by
  unfold Matrix.mulVec dotProduct gather
  simp only [Matrix.of_apply, List.map_cons, List.map_nil, List.sum_cons, List.sum_nil, add_zero, Finset.sum_mul]
  rw [Finset.sum_comm]
  refine Finset.sum_congr rfl fun i _ => ?_
  rw [Finset.sum_comm]
  split
  · next h =>
    refine Finset.sum_congr rfl fun j _ => ?_
    rw [← sum_dof x a j (K a i j)]
    refine Finset.sum_congr rfl fun c _ => ?_
    simp only [h, true_and, ite_mul, zero_mul]
  · next h =>
    refine Finset.sum_eq_zero fun j _ => Finset.sum_eq_zero fun c _ => ?_
    rw [if_neg (fun hh => h hh.1), zero_mul]

theorem gather_form_one (w : World T) (N : Nat) (K : Nat → Nat → Nat → T) (a : Nat) (x : Fin n → T) :
    x ⬝ᵥ gather w N K [a] *ᵥ x = ∑ i ∈ Finset.range N, ∑ j ∈ Finset.range N, K a i j * valueOf w x a i * valueOf w x a j := by
  rw [dotProduct]
  simp only [gather_mulVec_one, Finset.mul_sum]
  rw [Finset.sum_comm]
  refine Finset.sum_congr rfl fun i _ => ?_
  have : ∀ r : Fin n, x r * (if dofIndex w a i = some (r : Nat) then ∑ j ∈ Finset.range N, K a i j * valueOf w x a j else 0) =
      if dofIndex w a i = some (r : Nat) then (∑ j ∈ Finset.range N, K a i j * valueOf w x a j) * x r else 0 := by
    intro r
    split <;> ring
  rw [Finset.sum_congr rfl fun r _ => this r, sum_dof, Finset.sum_mul]
  exact Finset.sum_congr rfl fun j _ => by ring

theorem gather_form (w : World T) (N : Nat) (K : Nat → Nat → Nat → T) (l : List Nat) (x : Fin n → T) :
    x ⬝ᵥ gather w N K l *ᵥ x = (l.map fun a => ∑ i ∈ Finset.range N, ∑ j ∈ Finset.range N, K a i j * valueOf w x a i * valueOf w x a j).sum := by
  induction l with
  | nil =>
    have : (gather w N K [] : Matrix (Fin n) (Fin n) T) = 0 := by ext r c; simp [gather]
    rw [this]; simp
  | cons a l ih => rw [gather_cons, Matrix.add_mulVec, dotProduct_add, ih, gather_form_one, List.map_cons, List.sum_cons]

theorem gather_mulVec (w : World T) (N : Nat) (K : Nat → Nat → Nat → T) (l : List Nat) (x : Fin n → T) (r : Fin n) :
    (gather w N K l *ᵥ x) r = (l.map fun a => ∑ i ∈ Finset.range N,
      if dofIndex w a i = some (r : Nat) then ∑ j ∈ Finset.range N, K a i j * valueOf w x a j else 0).sum := by
  induction l with
  | nil =>
    have : (gather w N K [] : Matrix (Fin n) (Fin n) T) = 0 := by ext r c; simp [gather]
    rw [this]; simp
  | cons a l ih => rw [gather_cons, Matrix.add_mulVec, Pi.add_apply, ih, gather_mulVec_one, List.map_cons, List.sum_cons]

theorem gather_symm (w : World T) (N : Nat) {K : Nat → Nat → Nat → T} (hK : ∀ a i j, K a i j = K a j i) (l : List Nat) :
    (gather w N K l : Matrix (Fin n) (Fin n) T).IsSymm := by
  ext r c
  simp only [gather, Matrix.transpose_apply, Matrix.of_apply]
  congr 1
  refine List.map_congr_left fun a _ => ?_
  rw [Finset.sum_comm]
  refine Finset.sum_congr rfl fun i _ => Finset.sum_congr rfl fun j _ => ?_
  rw [hK a j i]
  exact if_congr and_comm rfl rfl

theorem gather_congr (w : World T) (N : Nat) {K K' : Nat → Nat → Nat → T} {l : List Nat} (h : ∀ a ∈ l, ∀ i < N, ∀ j < N, K a i j = K' a i j) :
    (gather w N K l : Matrix (Fin n) (Fin n) T) = gather w N K' l := by
  ext r c
  simp only [gather, Matrix.of_apply]
  congr 1
  refine List.map_congr_left fun a ha => ?_
  refine Finset.sum_congr rfl fun i hi => Finset.sum_congr rfl fun j hj => ?_
  rw [h a ha i (Finset.mem_range.1 hi) j (Finset.mem_range.1 hj)]

theorem sysMat_eq (eps : T) (order : Nat) (w : World T) (P : Nat → Fin 3 → Fin 2 → T) :
    (sysMat eps order w P : Matrix (Fin n) (Fin n) T) = gather w (Shape.dof 2 order) (fun a i j => keep eps (energy order (P a) i j)) w.elements := rfl

end NS.Props.Fem

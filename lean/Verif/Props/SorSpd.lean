/-
Property theorem C69: `Iterative::serial::sor` on symmetric positive definite systems (Ostrowski–Reich).
-/
import Verif.Props.Iterative
import Verif.CGTheory
import Mathlib.LinearAlgebra.Matrix.NonsingularInverse
import Mathlib.LinearAlgebra.Matrix.ToLinearEquiv
import Mathlib.Tactic.LinearCombination

set_option linter.unusedSectionVars false
set_option linter.unusedSimpArgs false

namespace NS.Props.Iter
open NS NS.MatOps NS.LawfulMat NS.Props.LU NS.Iterative Matrix
variable {M T : Type} [Field T] [LinearOrder T] [IsStrictOrderedRing T] [MatOps M T] [LawfulMat M T] {n : Nat}
  {a : M} {A : Matrix (Fin n) (Fin n) T} {b x0 : Fin n → T}

theorem fl_of_isVec {b : List T} {B : Fin n → T} (h : IsVec b n B) : b.map Fl.fin = fl B := by
  unfold fl
  apply List.ext_getElem (by simp [h.1])
  intro i h1 h2
  simp only [List.getElem_map, List.getElem_ofFn]
  have := h.2 ⟨i, by rw [← h.1]; simpa using h1⟩
  rw [vecAt_ok (show i < b.length by simpa using h1)] at this
  rw [Except.ok.inj this]

theorem sweep_unique {w : T} {base x y y' : Fin n → T} (h : IsSorSweep A b w base x y) (h' : IsSorSweep A b w base x y') :
    y = y' := by
  have : ∀ k : Nat, ∀ i : Fin n, (i : Nat) = k → y i = y' i := by
    intro k
    induction k using Nat.strong_induction_on with
    | _ k ih =>
      intro i hi
      rw [h i, h' i]
      congr 4
      refine Finset.sum_congr rfl fun j _ => ?_
      split
      · next hj => rw [ih j (by have : (j : Nat) < i := hj; omega) j rfl]
      · rfl
  funext i; exact this i i rfl

theorem spd_diag (hA : NS.CG.SPD A) (i : Fin n) : 0 < A i i := by
  have := hA.2 (Pi.single i 1) (fun h0 => by have := congrFun h0 i; simp at this)
  rwa [Matrix.mulVec_single_one, single_one_dotProduct] at this

/-- twice the quadratic energy whose minimiser solves the system -/
def phi (A : Matrix (Fin n) (Fin n) T) (b x : Fin n → T) : T := x ⬝ᵥ A *ᵥ x - 2 * (b ⬝ᵥ x)

/-- strictly lower and strictly upper triangle applied to a vector -/
def lowSum (A : Matrix (Fin n) (Fin n) T) (d : Fin n → T) (i : Fin n) : T := ∑ j, if j < i then A i j * d j else 0
def upSum (A : Matrix (Fin n) (Fin n) T) (d : Fin n → T) (i : Fin n) : T := ∑ j, if i < j then A i j * d j else 0

theorem mulVec_low_up (A : Matrix (Fin n) (Fin n) T) (d : Fin n → T) (i : Fin n) :
    (A *ᵥ d) i = A i i * d i + lowSum A d i + upSum A d i := by
  rw [mulVec_split, add_assoc]
  congr 1
  unfold offSum lowSum upSum
  rw [← Finset.sum_add_distrib]
  refine Finset.sum_congr rfl fun j _ => ?_
  rcases lt_trichotomy j i with h | rfl | h
  · simp [h, h.ne, h.not_gt]
  · simp
  · simp [h, h.ne', h.not_gt]

theorem sweep_split (A : Matrix (Fin n) (Fin n) T) (x y : Fin n → T) (i : Fin n) :
    (∑ j, (if j < i then A i j * y j else if i < j then A i j * x j else 0)) = lowSum A (y - x) i + ((A *ᵥ x) i - A i i * x i) := by
  rw [mulVec_low_up]
  unfold lowSum upSum
  rw [show ∀ p q r : T, p + (q + r + (∑ j, if i < j then A i j * x j else 0) - q) = p + r + ∑ j, (if i < j then A i j * x j else 0) from
    fun p q r => by ring, ← Finset.sum_add_distrib, ← Finset.sum_add_distrib]
  refine Finset.sum_congr rfl fun j _ => ?_
  rcases lt_trichotomy j i with h | rfl | h
  · simp [h, h.ne, h.not_gt]; ring
  · simp
  · simp [h, h.ne', h.not_gt]

/-- the residual before a sweep, in terms of the step -/
theorem residual_before (hd : ∀ i, A i i ≠ 0) {w : T} (hw : w ≠ 0) {x y : Fin n → T} (h : IsSorSweep A b w x x y) (i : Fin n) :
    b i - (A *ᵥ x) i = A i i * (y i - x i) / w + lowSum A (y - x) i := by
  have hi := h i
  rw [sweep_split] at hi
  have hdi := hd i
  rw [hi]
  field_simp
  ring

/-- the residual after a sweep, in terms of the step -/
theorem residual_after (hd : ∀ i, A i i ≠ 0) {w : T} (hw : w ≠ 0) {x y : Fin n → T} (h : IsSorSweep A b w x x y) (i : Fin n) :
    b i - (A *ᵥ y) i = (1 / w - 1) * A i i * (y i - x i) - upSum A (y - x) i := by
  have e := residual_before hd hw h i
  have e2 : (A *ᵥ y) i = (A *ᵥ x) i + (A *ᵥ (y - x)) i := by rw [Matrix.mulVec_sub, Pi.sub_apply]; ring
  rw [e2, mulVec_low_up A (y - x), Pi.sub_apply]
  have : b i - ((A *ᵥ x) i + (A i i * (y i - x i) + lowSum A (y - x) i + upSum A (y - x) i)) =
      (b i - (A *ᵥ x) i) - (A i i * (y i - x i) + lowSum A (y - x) i + upSum A (y - x) i) := by ring
  rw [this, e]
  field_simp
  ring

theorem low_up_swap (hA : A.transpose = A) (d : Fin n → T) : (∑ i, d i * upSum A d i) = ∑ i, d i * lowSum A d i := by
  unfold upSum lowSum
  simp only [Finset.mul_sum]
  rw [Finset.sum_comm]
  refine Finset.sum_congr rfl fun i _ => Finset.sum_congr rfl fun j _ => ?_
  have : A j i = A i j := congrFun (congrFun hA i) j
  split
  · rw [this]; ring
  · simp

/-- C69: a sweep lowers the energy by exactly `(2/w - 1) Σ A_ii δ_i²`, `δ` being the step. -/
theorem phi_sweep (hA : NS.CG.SPD A) {w : T} (hw : w ≠ 0) {x y : Fin n → T} (h : IsSorSweep A b w x x y) :
    phi A b y = phi A b x - (2 / w - 1) * ∑ i, A i i * (y i - x i) ^ 2 := by
  have hd : ∀ i, A i i ≠ 0 := fun i => (spd_diag hA i).ne'
  set d := y - x with hdd
  have hy : y = x + d := by rw [hdd]; abel
  have e1 : phi A b y = phi A b x - 2 * (d ⬝ᵥ (b - A *ᵥ x)) + d ⬝ᵥ A *ᵥ d := by
    have := hA.symm x d
    have h2 := dotProduct_comm b d
    unfold phi
    rw [hy, Matrix.mulVec_add, dotProduct_add, add_dotProduct, add_dotProduct, dotProduct_add b, dotProduct_sub d]
    linear_combination this - 2 * h2
  have e2 : d ⬝ᵥ (b - A *ᵥ x) = (∑ i, A i i * d i ^ 2) / w + ∑ i, d i * lowSum A d i := by
    unfold dotProduct
    rw [div_eq_mul_inv, Finset.sum_mul, ← Finset.sum_add_distrib]
    refine Finset.sum_congr rfl fun i _ => ?_
    rw [Pi.sub_apply, residual_before hd hw h i, ← hdd]
    simp only [hdd, Pi.sub_apply]
    ring
  have e3 : d ⬝ᵥ A *ᵥ d = (∑ i, A i i * d i ^ 2) + 2 * ∑ i, d i * lowSum A d i := by
    have : d ⬝ᵥ A *ᵥ d = (∑ i, A i i * d i ^ 2) + (∑ i, d i * lowSum A d i) + ∑ i, d i * upSum A d i := by
      unfold dotProduct
      rw [← Finset.sum_add_distrib, ← Finset.sum_add_distrib]
      refine Finset.sum_congr rfl fun i _ => ?_
      rw [mulVec_low_up]; ring
    rw [this, low_up_swap hA.1]; ring
  have e4 : (∑ i, A i i * (y i - x i) ^ 2) = ∑ i, A i i * d i ^ 2 := rfl
  rw [e1, e2, e3, e4]
  field_simp
  ring

theorem spd_solvable (hA : NS.CG.SPD A) (b : Fin n → T) : ∃! z, A *ᵥ z = b := by
  have hinj : ∀ v, A *ᵥ v = 0 → v = 0 := by
    intro v hv
    by_contra h
    have := hA.2 v h
    rw [hv, dotProduct_zero] at this
    exact lt_irrefl _ this
  have hdet : A.det ≠ 0 := by
    intro h0
    obtain ⟨v, hv, e⟩ := Matrix.exists_mulVec_eq_zero_iff.2 h0
    exact hv (hinj v e)
  refine ⟨A⁻¹ *ᵥ b, ?_, fun z hz => ?_⟩
  · show A *ᵥ (A⁻¹ *ᵥ b) = b
    rw [Matrix.mulVec_mulVec, Matrix.mul_nonsing_inv _ (isUnit_iff_ne_zero.2 hdet), Matrix.one_mulVec]
  · simp only at hz
    rw [← hz, Matrix.mulVec_mulVec, Matrix.nonsing_inv_mul _ (isUnit_iff_ne_zero.2 hdet), Matrix.one_mulVec]

theorem phi_lower (hA : NS.CG.SPD A) {z : Fin n → T} (hz : A *ᵥ z = b) (x : Fin n → T) : phi A b z ≤ phi A b x := by
  have e : phi A b x = phi A b z + (x - z) ⬝ᵥ A *ᵥ (x - z) := by
    unfold phi
    rw [← hz, Matrix.mulVec_sub, dotProduct_sub, sub_dotProduct, sub_dotProduct, hA.symm z x, dotProduct_comm (A *ᵥ z) x,
      dotProduct_comm (A *ᵥ z) z]
    ring
  have : 0 ≤ (x - z) ⬝ᵥ A *ᵥ (x - z) := by
    by_cases h : x - z = 0
    · rw [h]; simp
    · exact (hA.2 _ h).le
  linarith

theorem diag_lower (hA : NS.CG.SPD A) : ∃ c : T, 0 < c ∧ ∀ i, c ≤ A i i := by
  cases n with
  | zero => exact ⟨1, one_pos, fun i => i.elim0⟩
  | succ n =>
    obtain ⟨i0, hi0⟩ := Finite.exists_min (fun i => A i i)
    exact ⟨A i0 i0, spd_diag hA i0, hi0⟩

/-- after a sweep with a small step the residual is small -/
theorem residual_bound (hd : ∀ i, A i i ≠ 0) {w : T} (hw : w ≠ 0) {x y : Fin n → T} (h : IsSorSweep A b w x x y) {eps : T} (he : 0 ≤ eps)
    (hs : distSqr y x ≤ eps ^ 2) (i : Fin n) :
    |b i - (A *ᵥ y) i| ≤ (|1 / w - 1| * |A i i| + ∑ j, if i < j then |A i j| else 0) * eps := by
  have hbnd : ∀ j, |y j - x j| ≤ eps := by
    intro j
    refine abs_le_of_sq_le_sq ?_ he
    exact le_trans (Finset.single_le_sum (f := fun i => (y i - x i) ^ 2) (fun i _ => sq_nonneg _) (Finset.mem_univ j)) hs
  rw [residual_after hd hw h]
  have t1 : |(1 / w - 1) * A i i * (y i - x i)| ≤ |1 / w - 1| * |A i i| * eps := by
    rw [abs_mul, abs_mul]
    exact mul_le_mul_of_nonneg_left (hbnd i) (by positivity)
  have t2 : |upSum A (y - x) i| ≤ (∑ j, if i < j then |A i j| else 0) * eps := by
    unfold upSum
    rw [Finset.sum_mul]
    refine (Finset.abs_sum_le_sum_abs _ _).trans (Finset.sum_le_sum fun j _ => ?_)
    split
    · rw [abs_mul]; exact mul_le_mul_of_nonneg_left (hbnd j) (abs_nonneg _)
    · simp
  calc _ ≤ |(1 / w - 1) * A i i * (y i - x i)| + |upSum A (y - x) i| := abs_sub _ _
    _ ≤ _ := add_le_add t1 t2
    _ = _ := by ring

/-- C69: for a symmetric positive definite matrix, weight `0 < w < 2` and a non-zero tolerance, `sor` stops by convergence
once the iteration limit is large enough, for every right-hand side and start vector; and (unless it made a single
iteration from a non-zero start with `w ≠ 1`) every component of the residual of the result is bounded by the tolerance
times the diagonal and upper row sum. -/
theorem C69_sor_spd [Archimedean T] (ha : IsMat a n A) (hA : NS.CG.SPD A) {w : T} (hw0 : 0 < w) (hw2 : w < 2) {eps : T}
    (he : 0 < eps) :
    ∃ N, ∀ maxIter, N < maxIter → ∃ x it, sor a (fl b) (fl x0) w maxIter eps = .ok (fl x, it) ∧ it ≤ N ∧
      (2 ≤ it ∨ w = 1 ∨ x0 = 0 → ∀ i, |b i - (A *ᵥ x) i| ≤ (|1 / w - 1| * A i i + ∑ j, if i < j then |A i j| else 0) * eps) := by
  have hd : ∀ i, A i i ≠ 0 := fun i => (spd_diag hA i).ne'
  obtain ⟨z, hz, -⟩ := spd_solvable hA b
  obtain ⟨c, hc0, hc⟩ := diag_lower hA
  obtain ⟨y1, hy1⟩ := sorStep_exists A b w 0 x0
  have hw' : 0 < 2 / w - 1 := by
    rw [sub_pos, lt_div_iff₀ hw0]; linarith
  have hg : 0 < (2 / w - 1) * (c * eps ^ 2) := by positivity
  obtain ⟨K, hK⟩ := exists_nat_gt ((phi A b y1 - phi A b z) / ((2 / w - 1) * (c * eps ^ 2)))
  rw [div_lt_iff₀ hg] at hK
  refine ⟨K + 1, fun maxIter hmax => ?_⟩
  obtain ⟨y, k, h0, h1, h2, h3, h4, h5, h6, h7⟩ := C38_sor (b := b) (x0 := x0) ha hd w maxIter eps
  have hy : y 1 = y1 := sweep_unique h1 hy1
  have hkN : k ≤ K + 1 := by
    by_contra hlt
    have key : ∀ m, m ≤ K → phi A b (y (m + 1)) ≤ phi A b y1 - m * ((2 / w - 1) * (c * eps ^ 2)) := by
      intro m
      induction m with
      | zero => intro _; rw [zero_add, hy]; simp
      | succ m ih =>
        intro hm
        have e := phi_sweep hA hw0.ne' (h2 (m + 1) (by omega))
        have hs := h7 (m + 2) (by omega) (by omega)
        rw [show m + 2 - 1 = m + 1 by omega] at hs
        have hsum : c * eps ^ 2 ≤ ∑ i, A i i * (y (m + 2) i - y (m + 1) i) ^ 2 := by
          calc c * eps ^ 2 ≤ c * distSqr (y (m + 2)) (y (m + 1)) := mul_le_mul_of_nonneg_left hs.le hc0.le
            _ = ∑ i, c * (y (m + 2) i - y (m + 1) i) ^ 2 := by unfold distSqr; rw [Finset.mul_sum]
            _ ≤ _ := Finset.sum_le_sum fun i _ => mul_le_mul_of_nonneg_right (hc i) (sq_nonneg _)
        have := mul_le_mul_of_nonneg_left hsum hw'.le
        have := ih (by omega)
        push_cast
        rw [show m + 1 + 1 = m + 2 by omega] at e ⊢
        rw [e]
        linarith
    have h8 := key K le_rfl
    have h9 := phi_lower hA hz (y (K + 1))
    linarith
  refine ⟨y k, k, h3, hkN, fun hstart i => ?_⟩
  have hk := h5 (by omega)
  have hstep := h6 (by omega)
  have hsweep : IsSorSweep A b w (y (k - 1)) (y (k - 1)) (y k) := by
    rcases Nat.lt_or_ge 1 k with hk1 | hk1
    · have := h2 (k - 1) (by omega)
      rwa [show k - 1 + 1 = k by omega] at this
    · obtain rfl : k = 1 := by omega
      show IsSorSweep A b w (y 0) (y 0) (y 1)
      rw [h0]
      rcases hstart with h | h | h
      · omega
      · intro i; have := h1 i; simp only [h, sub_self, zero_mul] at this ⊢; exact this
      · have := h1; rw [h] at this ⊢; exact this
  have := residual_bound hd hw0.ne' hsweep he.le hstep i
  rwa [abs_of_pos (spd_diag hA i)] at this

/-- a concrete symmetric positive definite system (not strictly diagonally dominant), solved with weight 6/5 -/
def exS : Matrix (Fin 3) (Fin 3) ℚ := !![1, -1, 0; -1, 2, -1; 0, -1, 2]
example : NS.CG.SPD exS ∧ ¬ StrictDom exS ∧ IsMat (⟨[1, -1, 0, -1, 2, -1, 0, -1, 2], 3, 3⟩ : Dense ℚ) 3 exS := by
  refine ⟨⟨by decide +kernel, fun v hv => ?_⟩, by unfold StrictDom; decide +kernel,
    show Dense.WF _ from ⟨rfl, by decide, by decide⟩, rfl, rfl, by decide +kernel⟩
  have e : v ⬝ᵥ exS *ᵥ v = (v 0 - v 1) ^ 2 + (v 1 - v 2) ^ 2 + v 2 ^ 2 := by
    simp [dotProduct, Matrix.mulVec, exS, Fin.sum_univ_three]; ring
  rw [e]
  by_contra h
  have h2 : v 2 = 0 := by nlinarith [sq_nonneg (v 0 - v 1), sq_nonneg (v 1 - v 2), sq_nonneg (v 2)]
  have h1 : v 1 - v 2 = 0 := by nlinarith [sq_nonneg (v 0 - v 1), sq_nonneg (v 1 - v 2), sq_nonneg (v 2)]
  have h0 : v 0 - v 1 = 0 := by nlinarith [sq_nonneg (v 0 - v 1), sq_nonneg (v 1 - v 2), sq_nonneg (v 2)]
  apply hv
  funext i
  fin_cases i <;> simp <;> linarith

/-- outside `0 < w < 2` the method diverges on a symmetric positive definite matrix: `[1] x = [1]`, weight 3, from 0: the
iterates after the first are `(-2)^k`-multiples; ten iterations do not converge. -/
theorem C69_weight_needed : sor (⟨[1], 1, 1⟩ : Dense ℚ) [.fin 1] [.fin 0] 3 10 (1 / 10) = .ok ([.fin (-1023)], 10) := by
  decide +kernel
end NS.Props.Iter

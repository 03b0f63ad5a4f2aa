/-
The preconditioned conjugate gradient recursion on mathematical vectors: residual identity, conjugacy and finite
termination for symmetric positive definite matrices over a linearly ordered field.
-/
import Mathlib.Data.Matrix.Mul
import Mathlib.LinearAlgebra.Matrix.DotProduct
import Mathlib.LinearAlgebra.Dimension.Constructions
import Mathlib.LinearAlgebra.Dimension.Finite
import Mathlib.LinearAlgebra.FiniteDimensional.Basic
import Mathlib.Algebra.Order.Field.Basic
import Mathlib.Tactic.FieldSimp
import Mathlib.Tactic.Ring
import Mathlib.Tactic.Linarith

set_option linter.unusedSectionVars false
set_option linter.unusedSimpArgs false

namespace NS
namespace CG
open Matrix
variable {n : Nat} {T : Type} [Field T] [LinearOrder T] [IsStrictOrderedRing T]

/-- symmetric positive definite -/
def SPD (A : Matrix (Fin n) (Fin n) T) : Prop := A.transpose = A ∧ ∀ v, v ≠ 0 → 0 < v ⬝ᵥ A *ᵥ v

theorem SPD.symm {A : Matrix (Fin n) (Fin n) T} (h : SPD A) (u v : Fin n → T) : u ⬝ᵥ A *ᵥ v = v ⬝ᵥ A *ᵥ u := by
  rw [dotProduct_mulVec, ← vecMul_transpose, h.1, dotProduct_comm]
theorem SPD.ne {A : Matrix (Fin n) (Fin n) T} (h : SPD A) {v : Fin n → T} (hv : v ≠ 0) : v ⬝ᵥ A *ᵥ v ≠ 0 :=
  ne_of_gt (h.2 v hv)

/-- the vectors of one iteration -/
structure PS (n : Nat) (T : Type) where
  x : Fin n → T
  r : Fin n → T
  p : Fin n → T

variable (A C : Matrix (Fin n) (Fin n) T)

/-- one step of the preconditioned conjugate gradient method -/
def pstep (s : PS n T) : PS n T :=
  let al := (s.r ⬝ᵥ C *ᵥ s.r) / (A *ᵥ s.p ⬝ᵥ s.p)
  let r := s.r - al • (A *ᵥ s.p)
  ⟨s.x + al • s.p, r, C *ᵥ r + ((r ⬝ᵥ C *ᵥ r) / (s.r ⬝ᵥ C *ᵥ s.r)) • s.p⟩

/-- the sequence of iterates from `x0` -/
def pseq (b x0 : Fin n → T) : Nat → PS n T
  | 0 => ⟨x0, b - A *ᵥ x0, C *ᵥ (b - A *ᵥ x0)⟩
  | k + 1 => pstep A C (pseq b x0 k)

variable {A C} {b x0 : Fin n → T}

theorem pseq_residual (k : Nat) : (pseq A C b x0 k).r = b - A *ᵥ (pseq A C b x0 k).x := by
  induction k with
  | zero => rfl
  | succ k ih =>
    show (pseq A C b x0 k).r - _ • (A *ᵥ (pseq A C b x0 k).p) = b - A *ᵥ ((pseq A C b x0 k).x + _ • (pseq A C b x0 k).p)
    rw [mulVec_add, mulVec_smul, ih, sub_sub]

/-- conjugacy relations up to index `k` -/
structure Cj (A C : Matrix (Fin n) (Fin n) T) (b x0 : Fin n → T) (k : Nat) : Prop where
  rz : ∀ i j, i < j → j ≤ k → (pseq A C b x0 j).r ⬝ᵥ C *ᵥ (pseq A C b x0 i).r = 0
  pap : ∀ i j, i < j → j ≤ k → (pseq A C b x0 j).p ⬝ᵥ A *ᵥ (pseq A C b x0 i).p = 0
  pr : ∀ i j, i < j → j ≤ k → (pseq A C b x0 j).r ⬝ᵥ (pseq A C b x0 i).p = 0
  prr : ∀ i, i ≤ k → (pseq A C b x0 i).r ⬝ᵥ (pseq A C b x0 i).p = (pseq A C b x0 i).r ⬝ᵥ C *ᵥ (pseq A C b x0 i).r

theorem cj (hA : SPD A) (hC : SPD C) (k : Nat) (hr : ∀ j, j < k → (pseq A C b x0 j).r ≠ 0) : Cj A C b x0 k := by
  induction k with
  | zero =>
    refine ⟨fun i j h1 h2 => by omega, fun i j h1 h2 => by omega, fun i j h1 h2 => by omega, ?_⟩
    intro i hi
    obtain rfl : i = 0 := by omega
    rfl
  | succ k ih =>
    have I := ih fun j hj => hr j (by omega)
    set s := pseq A C b x0 with hs
    -- non-degeneracy
    have hrz : ∀ i, i ≤ k → (s i).r ⬝ᵥ C *ᵥ (s i).r ≠ 0 := fun i hi => hC.ne (hr i (by omega))
    have hp : ∀ i, i ≤ k → (s i).p ≠ 0 := by
      intro i hi h0
      have := I.prr i hi
      rw [h0, dotProduct_zero] at this
      exact hrz i hi this.symm
    have hpap : ∀ i, i ≤ k → (s i).p ⬝ᵥ A *ᵥ (s i).p ≠ 0 := fun i hi => hA.ne (hp i hi)
    -- definition of the step
    have er : ∀ i, (s (i + 1)).r = (s i).r -
        (((s i).r ⬝ᵥ C *ᵥ (s i).r) / ((s i).p ⬝ᵥ A *ᵥ (s i).p)) • (A *ᵥ (s i).p) := by
      intro i
      rw [dotProduct_comm (s i).p]; rfl
    have ep : ∀ i, (s (i + 1)).p = C *ᵥ (s (i + 1)).r +
        (((s (i + 1)).r ⬝ᵥ C *ᵥ (s (i + 1)).r) / ((s i).r ⬝ᵥ C *ᵥ (s i).r)) • (s i).p := fun i => rfl
    have e0 : (s 0).p = C *ᵥ (s 0).r := rfl
    -- r_{k+1} . p_i
    have hpr : ∀ i, i ≤ k → (s (k + 1)).r ⬝ᵥ (s i).p = 0 := by
      intro i hi
      rw [er k, sub_dotProduct, smul_dotProduct, smul_eq_mul, dotProduct_comm (A *ᵥ (s k).p)]
      rcases Nat.lt_or_eq_of_le hi with h | rfl
      · rw [I.pr i k h (le_refl _), hA.symm (s i).p (s k).p, I.pap i k h (le_refl _)]; ring
      · rw [I.prr i (le_refl _), div_mul_cancel₀ _ (hpap i (le_refl _)), sub_self]
    -- r_{k+1} . z_i
    have hrz' : ∀ i, i ≤ k → (s (k + 1)).r ⬝ᵥ C *ᵥ (s i).r = 0 := by
      intro i hi
      cases i with
      | zero => rw [← e0]; exact hpr 0 hi
      | succ i =>
        have : C *ᵥ (s (i + 1)).r = (s (i + 1)).p -
            (((s (i + 1)).r ⬝ᵥ C *ᵥ (s (i + 1)).r) / ((s i).r ⬝ᵥ C *ᵥ (s i).r)) • (s i).p := by
          rw [ep i]; exact (add_sub_cancel_right _ _).symm
        rw [this, dotProduct_sub, dotProduct_smul, hpr _ hi, hpr i (by omega), smul_zero, sub_zero]
    -- p_{k+1} . A p_i
    have hpap' : ∀ i, i ≤ k → (s (k + 1)).p ⬝ᵥ A *ᵥ (s i).p = 0 := by
      intro i hi
      have hal : ((s i).r ⬝ᵥ C *ᵥ (s i).r) / ((s i).p ⬝ᵥ A *ᵥ (s i).p) ≠ 0 := div_ne_zero (hrz i hi) (hpap i hi)
      have hAp : A *ᵥ (s i).p = (((s i).r ⬝ᵥ C *ᵥ (s i).r) / ((s i).p ⬝ᵥ A *ᵥ (s i).p))⁻¹ •
          ((s i).r - (s (i + 1)).r) := by
        rw [er i, sub_sub_cancel, smul_smul, inv_mul_cancel₀ hal, one_smul]
      have hz : (C *ᵥ (s (k + 1)).r) ⬝ᵥ A *ᵥ (s i).p =
          (((s i).r ⬝ᵥ C *ᵥ (s i).r) / ((s i).p ⬝ᵥ A *ᵥ (s i).p))⁻¹ *
            ((s (k + 1)).r ⬝ᵥ C *ᵥ (s i).r - (s (k + 1)).r ⬝ᵥ C *ᵥ (s (i + 1)).r) := by
        conv_lhs => rw [hAp]
        rw [dotProduct_smul, dotProduct_sub, smul_eq_mul, dotProduct_comm _ (s i).r, dotProduct_comm _ (s (i + 1)).r,
          hC.symm (s i).r (s (k + 1)).r, hC.symm (s (i + 1)).r (s (k + 1)).r]
      rw [ep k, add_dotProduct, smul_dotProduct, hz, smul_eq_mul, hrz' i hi]
      rcases Nat.lt_or_eq_of_le hi with h | rfl
      · rw [hrz' (i + 1) (by omega), I.pap i k h (le_refl _)]; ring
      · have h1 := hrz i (le_refl _)
        have h2 := hpap i (le_refl _)
        field_simp
        ring
    have hprr : (s (k + 1)).r ⬝ᵥ (s (k + 1)).p = (s (k + 1)).r ⬝ᵥ C *ᵥ (s (k + 1)).r := by
      conv_lhs => rw [ep k]
      rw [dotProduct_add, dotProduct_smul, hpr k (le_refl _), smul_zero, add_zero]
    refine ⟨?_, ?_, ?_, ?_⟩
    · intro i j h1 h2
      rcases Nat.lt_or_eq_of_le h2 with h | rfl
      · exact I.rz i j h1 (by omega)
      · exact hrz' i (by omega)
    · intro i j h1 h2
      rcases Nat.lt_or_eq_of_le h2 with h | rfl
      · exact I.pap i j h1 (by omega)
      · exact hpap' i (by omega)
    · intro i j h1 h2
      rcases Nat.lt_or_eq_of_le h2 with h | rfl
      · exact I.pr i j h1 (by omega)
      · exact hpr i (by omega)
    · intro i hi
      rcases Nat.lt_or_eq_of_le hi with h | rfl
      · exact I.prr i (by omega)
      · exact hprr

/-- finite termination: some residual among the first `n+1` is zero -/
theorem pseq_terminates (hA : SPD A) (hC : SPD C) : ∃ m, m ≤ n ∧ (pseq A C b x0 m).r = 0 ∧
    ∀ j, j < m → (pseq A C b x0 j).r ≠ 0 := by
  classical
  have hex : ∃ m, (pseq A C b x0 m).r = 0 ∧ m ≤ n := by
    by_contra hno
    have hne : ∀ j, j ≤ n → (pseq A C b x0 j).r ≠ 0 := fun j hj h => hno ⟨j, h, hj⟩
    have I := cj (b := b) (x0 := x0) hA hC n fun j hj => hne j (by omega)
    have hli : LinearIndependent T (fun i : Fin (n + 1) => (pseq A C b x0 i).r) := by
      rw [Fintype.linearIndependent_iff]
      intro g hg i
      have h1 := congrArg (fun v => v ⬝ᵥ C *ᵥ (pseq A C b x0 i).r) hg
      simp only [zero_dotProduct] at h1
      rw [sum_dotProduct, Finset.sum_eq_single i] at h1
      · rw [smul_dotProduct, smul_eq_mul] at h1
        exact (mul_eq_zero.1 h1).resolve_right (hC.ne (hne i (by omega)))
      · intro j _ hji
        rw [smul_dotProduct]
        rcases Nat.lt_or_gt_of_ne (fun h => hji (Fin.ext h)) with h | h
        · rw [hC.symm, I.rz j i h (by omega), smul_zero]
        · rw [I.rz i j h (by omega), smul_zero]
      · simp
    have := hli.fintype_card_le_finrank
    simp at this
  refine ⟨Nat.find hex, (Nat.find_spec hex).2, (Nat.find_spec hex).1, fun j hj h => ?_⟩
  exact Nat.find_min hex hj ⟨h, by have := (Nat.find_spec hex).2; omega⟩

/-- a positive lower bound of the residuals before termination -/
theorem residual_gap (m : Nat) (h : ∀ j, j < m → (pseq A C b x0 j).r ≠ 0) :
    ∃ δ : T, 0 < δ ∧ ∀ j, j < m → δ ≤ (pseq A C b x0 j).r ⬝ᵥ (pseq A C b x0 j).r := by
  induction m with
  | zero => exact ⟨1, one_pos, fun j hj => by omega⟩
  | succ m ih =>
    obtain ⟨δ, h1, h2⟩ := ih fun j hj => h j (by omega)
    have hpos : 0 < (pseq A C b x0 m).r ⬝ᵥ (pseq A C b x0 m).r := by
      refine lt_of_le_of_ne (Finset.sum_nonneg fun i _ => mul_self_nonneg _) (fun h0 => ?_)
      exact h m (by omega) (dotProduct_self_eq_zero.1 h0.symm)
    refine ⟨min δ _, lt_min h1 hpos, fun j hj => ?_⟩
    rcases Nat.lt_or_eq_of_le (Nat.le_of_lt_succ hj) with h' | rfl
    · exact (min_le_left _ _).trans (h2 j h')
    · exact min_le_right _ _
end CG
end NS

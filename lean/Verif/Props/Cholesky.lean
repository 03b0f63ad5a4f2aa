/-
Property C31, continued: for real numbers `cholesky` decides positive definiteness.
-/
import Verif.Props.LU
import Verif.CGTheory
import Mathlib.LinearAlgebra.Matrix.Block
import Mathlib.LinearAlgebra.Matrix.NonsingularInverse
import Mathlib.LinearAlgebra.Matrix.ToLinearEquiv
import Mathlib.Analysis.Real.Sqrt

set_option linter.unusedSectionVars false
set_option linter.unusedSimpArgs false

namespace NS.Props.LU
open NS NS.MatOps NS.LawfulMat NS.LU Matrix

variable {T : Type} [Field T] [LinearOrder T] [IsStrictOrderedRing T] {n : Nat}

/-- A vector that is 1 at `j`, 0 behind `j`, and orthogonal to the columns of a partial factor. -/
theorem exists_kernel {X : Matrix (Fin n) (Fin n) T} {j : Fin n} (hz : ∀ a t, a < t ∨ j ≤ t → X a t = 0)
    (hd : ∀ t, t < j → X t t ≠ 0) : ∃ v : Fin n → T, v j = 1 ∧ (∀ a, j < a → v a = 0) ∧ Xᵀ *ᵥ v = 0 := by
  let Y : Matrix (Fin n) (Fin n) T := Matrix.of fun a t => if t < j then X a t else if a = t then 1 else 0
  have hY : Y.det ≠ 0 := by
    rw [Matrix.det_of_lowerTriangular Y (fun a t hat => by
      show (if t < j then X a t else if a = t then 1 else 0) = 0
      have hat : a < t := hat
      split
      · exact hz a t (Or.inl hat)
      · rw [if_neg hat.ne])]
    refine Finset.prod_ne_zero_iff.2 fun t _ => ?_
    show (if t < j then X t t else if t = t then 1 else 0) ≠ 0
    split
    · exact hd t ‹_›
    · simp
  have hu : IsUnit Yᵀ.det := by rw [Matrix.det_transpose]; exact isUnit_iff_ne_zero.2 hY
  let v : Fin n → T := Yᵀ⁻¹ *ᵥ Pi.single j 1
  have hv : Yᵀ *ᵥ v = Pi.single j 1 := by
    show Yᵀ *ᵥ (Yᵀ⁻¹ *ᵥ _) = _
    rw [Matrix.mulVec_mulVec, Matrix.mul_nonsing_inv _ hu, Matrix.one_mulVec]
  have hk : ∀ k, j ≤ k → v k = (Pi.single j 1 : Fin n → T) k := by
    intro k hk
    rw [← hv]
    show v k = ∑ a, Y a k * v a
    have : ∀ a, Y a k * v a = if a = k then v a else 0 := by
      intro a
      show (if k < j then X a k else if a = k then 1 else 0) * v a = _
      rw [if_neg (by omega)]
      split <;> simp
    simp [this]
  refine ⟨v, ?_, fun a ha => ?_, ?_⟩
  · rw [hk j le_rfl]; simp
  · rw [hk a ha.le]; simp [ha.ne']
  · funext k
    by_cases hkj : k < j
    · have := congrFun hv k
      simp only [Pi.single_apply, if_neg hkj.ne] at this
      rw [Pi.zero_apply, ← this]
      show ∑ a, X a k * v a = ∑ a, Y a k * v a
      refine Finset.sum_congr rfl fun a _ => ?_
      show _ = (if k < j then X a k else if a = k then 1 else 0) * v a
      rw [if_pos hkj]
    · show ∑ a, X a k * v a = 0
      exact Finset.sum_eq_zero fun a _ => by rw [hz a k (Or.inr (not_lt.1 hkj)), zero_mul]

/-- The pivot of column `j` is a value of the quadratic form of the matrix. -/
theorem pivot_value {A X : Matrix (Fin n) (Fin n) T} {j : Fin n} (hA : Aᵀ = A) (hz : ∀ a t, a < t ∨ j ≤ t → X a t = 0)
    (hd : ∀ t, t < j → X t t ≠ 0) (he : ∀ t, t < j → ∀ a, t ≤ a → (X * Xᵀ) a t = A a t) :
    ∃ v : Fin n → T, v ≠ 0 ∧ v ⬝ᵥ A *ᵥ v = A j j - ∑ k, X j k * X j k := by
  obtain ⟨v, v1, v2, v3⟩ := exists_kernel hz hd
  refine ⟨v, fun h => by rw [h] at v1; simp at v1, ?_⟩
  have hsymX : (X * Xᵀ)ᵀ = X * Xᵀ := by rw [Matrix.transpose_mul, Matrix.transpose_transpose]
  have he' : ∀ a b, (a < j ∨ b < j) → (A - X * Xᵀ) a b = 0 := by
    intro a b hab
    rw [Matrix.sub_apply, sub_eq_zero]
    have sw : ∀ a b, A a b = A b a := fun a b => by conv_lhs => rw [← hA, Matrix.transpose_apply]
    have sx : ∀ a b, (X * Xᵀ) a b = (X * Xᵀ) b a := fun a b => by conv_lhs => rw [← hsymX, Matrix.transpose_apply]
    rcases le_total a b with h | h
    · rw [sw, sx, he a (by omega) b h]
    · rw [he b (by omega) a h]
  have e1 : A = X * Xᵀ + (A - X * Xᵀ) := by abel
  have e2 : v ⬝ᵥ (X * Xᵀ) *ᵥ v = 0 := by
    rw [← Matrix.mulVec_mulVec, v3, Matrix.mulVec_zero, dotProduct_zero]
  have e3 : v ⬝ᵥ (A - X * Xᵀ) *ᵥ v = (A - X * Xᵀ) j j := by
    show ∑ a, v a * ∑ b, (A - X * Xᵀ) a b * v b = _
    rw [Finset.sum_eq_single j, v1, one_mul, Finset.sum_eq_single j, v1, mul_one]
    · intro b _ hb
      rcases lt_or_gt_of_ne hb with h | h
      · rw [he' j b (Or.inr h), zero_mul]
      · rw [v2 b h, mul_zero]
    · intro h; exact absurd (Finset.mem_univ _) h
    · intro a _ ha
      rcases lt_or_gt_of_ne ha with h | h
      · rw [Finset.sum_eq_zero fun b _ => by rw [he' a b (Or.inl h), zero_mul], mul_zero]
      · rw [v2 a h, zero_mul]
    · intro h; exact absurd (Finset.mem_univ _) h
  conv_lhs => rw [e1, Matrix.add_mulVec, dotProduct_add, e2, e3, zero_add]
  rw [Matrix.sub_apply, Matrix.mul_apply]
  rfl

variable {M : Type} [MatOps M T] [LawfulMat M T]

theorem cholS_value {A₀ X : M} {A : Matrix (Fin n) (Fin n) T} (hA : IsMat A₀ n A) (hsym : Aᵀ = A) {j : Nat} (hj : j < n)
    (h : CholPart n A₀ j X) : ∃ v : Fin n → T, v ≠ 0 ∧ v ⬝ᵥ A *ᵥ v = cholS A₀ X j := by
  obtain ⟨v, v1, v2⟩ := pivot_value (X := toMat n X) (j := ⟨j, hj⟩) hsym
    (fun a t hat => h.zero a t (by rcases hat with h | h; exact Or.inl h; exact Or.inr h)) (fun t ht => h.diag t ht) (fun t ht a hta => by
      rw [Matrix.mul_apply]
      have := h.eqs t ht a hta a.2
      rw [Finset.sum_range, hA.val_eq] at this
      exact this)
  refine ⟨v, v1, ?_⟩
  rw [v2]
  unfold cholS
  rw [← hA.val_eq]
  show _ - ∑ k : Fin n, val X j k * val X j k = _
  rw [← Finset.sum_range (f := fun k => val X j k * val X j k), sum_trunc (j := j) _ hj.le (fun k h1 _ => by rw [h.zero j k (Or.inr h1), zero_mul])]

/-- the square of a vector is a sum of squares -/
theorem gram_nonneg (L : Matrix (Fin n) (Fin n) T) (v : Fin n → T) : v ⬝ᵥ (L * Lᵀ) *ᵥ v = ∑ k, (Lᵀ *ᵥ v) k * (Lᵀ *ᵥ v) k := by
  rw [← Matrix.mulVec_mulVec, dotProduct_mulVec, ← Matrix.mulVec_transpose]
  rfl

/-- C31, real numbers: `cholesky` returns normally exactly for positive definite matrices; the result is a lower triangular `L` with
positive diagonal and `L*L^T = A`. -/
theorem C31_positive_definite (sqrt : T → T) (hsqrt : ∀ s, 0 ≤ s → 0 ≤ sqrt s ∧ sqrt s * sqrt s = s) {A₀ L₀ : M}
    {A : Matrix (Fin n) (Fin n) T} (hA : IsMat A₀ n A) (hL : IsMat L₀ n (0 : Matrix (Fin n) (Fin n) T)) (hsym : Aᵀ = A) :
    ((∀ v, v ≠ 0 → 0 < v ⬝ᵥ A *ᵥ v) → ∃ L₁ L, cholesky (fun s => decide (0 ≤ s)) false sqrt A₀ L₀ = .ok L₁ ∧ IsMat L₁ n L ∧ Lower L ∧
      (∀ i, 0 < L i i) ∧ L * Lᵀ = A) ∧
    ((∃ v, v ≠ 0 ∧ v ⬝ᵥ A *ᵥ v < 0) → cholesky (fun s => decide (0 ≤ s)) false sqrt A₀ L₀ = .error (.exc .notPositiveDefinite)) ∧
    ((∃ v, v ≠ 0 ∧ v ⬝ᵥ A *ᵥ v = 0) → cholesky (fun s => decide (0 ≤ s)) false sqrt A₀ L₀ = .error (.exc .notPositiveDefinite) ∨
      cholesky (fun s => decide (0 ≤ s)) false sqrt A₀ L₀ = .error .nonfinite) := by
  have key := cholesky_ok (fun s : T => decide (0 ≤ s)) false sqrt (fun s hs => (hsqrt s (of_decide_eq_true hs)).2) hA.sq hL.sq hL.zero
  cases hr : cholesky (fun s : T => decide (0 ≤ s)) false sqrt A₀ L₀ with
  | ok L₁ =>
    rw [hr] at key
    obtain ⟨h1, h2⟩ := key
    have hmul := cholPart_mul hA hsym h1
    have hdiag : ∀ i : Fin n, toMat n L₁ i i ≠ 0 := fun i => h1.diag i i.2
    have hlow : Lower (toMat n L₁) := fun i j hij => h1.zero i j (Or.inl hij)
    have hdet : (toMat n L₁)ᵀ.det ≠ 0 := by
      rw [Matrix.det_transpose, Matrix.det_of_lowerTriangular _ (fun a t hat => hlow a t hat)]
      exact Finset.prod_ne_zero_iff.2 fun i _ => hdiag i
    have hpos : ∀ v, v ≠ 0 → 0 < v ⬝ᵥ A *ᵥ v := by
      intro v hv
      rw [← hmul, gram_nonneg]
      have hne : (toMat n L₁)ᵀ *ᵥ v ≠ 0 := fun h0 => hv (Matrix.eq_zero_of_mulVec_eq_zero hdet h0)
      obtain ⟨k, hk⟩ := Function.ne_iff.1 hne
      exact Finset.sum_pos' (fun i _ => mul_self_nonneg _) ⟨k, Finset.mem_univ _, mul_self_pos.2 hk⟩
    refine ⟨fun _ => ⟨L₁, _, rfl, isMat_of h1.sq, hlow, fun i => ?_, hmul⟩, fun ⟨v, hv, h⟩ => ?_, fun ⟨v, hv, h⟩ => ?_⟩
    · obtain ⟨s, s1, s2⟩ := h2 i i.2
      refine lt_of_le_of_ne ?_ (hdiag i).symm
      show 0 ≤ val L₁ i i
      rw [s2]; exact (hsqrt s (of_decide_eq_true s1)).1
    · exact absurd h (hpos v hv).not_gt
    · exact absurd h (hpos v hv).ne'
  | error e =>
    rw [hr] at key
    obtain ⟨j, X, hj, hX, he⟩ := key
    obtain ⟨v, v1, v2⟩ := cholS_value hA hsym hj hX
    refine ⟨fun hp => ?_, fun ⟨w, hw, h⟩ => ?_, fun _ => ?_⟩
    · have := hp v v1
      rw [v2] at this
      rcases he with ⟨-, h | h⟩ | ⟨-, h⟩
      · exact absurd this.le (of_decide_eq_false h)
      · exact absurd h.1 this.ne'
      · exact absurd h.1 this.ne'
    · rcases he with ⟨rfl, -⟩ | ⟨rfl, h0, hl | hl⟩
      · rfl
      · -- the last pivot is zero: the matrix is semidefinite
        exfalso
        subst hl
        have hfull : toMat (j + 1) X * (toMat (j + 1) X)ᵀ = A := by
          have sw : ∀ a b, A a b = A b a := fun a b => by conv_lhs => rw [← hsym, Matrix.transpose_apply]
          have hk : ∀ a t : Fin (j + 1), t ≤ a → (toMat (j + 1) X * (toMat (j + 1) X)ᵀ) a t = A a t := by
            intro a t hta
            rw [Matrix.mul_apply]
            by_cases ht : (t : Nat) < j
            · have := hX.eqs t ht a hta a.2
              rw [Finset.sum_range, hA.val_eq] at this
              exact this
            · have ht' : (t : Nat) = j := by omega
              have ha' : (a : Nat) = j := by have : (t : Nat) ≤ a := hta
                                             omega
              have e1 : cholS A₀ X j = 0 := h0
              unfold cholS at e1
              rw [sub_eq_zero] at e1
              have e2 := hA.val_eq a t
              rw [ha', ht'] at e2
              rw [← e2, e1]
              show ∑ k : Fin (j + 1), val X a k * val X t k = _
              rw [ha', ht', ← Finset.sum_range (f := fun k => val X j k * val X j k),
                sum_trunc (j := j) _ (Nat.le_succ j) (fun k h1 _ => by rw [hX.zero j k (Or.inr h1), zero_mul])]
          ext a t
          rcases le_total t a with h | h
          · exact hk a t h
          · rw [sw, ← hk t a h, Matrix.mul_apply, Matrix.mul_apply]
            exact Finset.sum_congr rfl fun k _ => mul_comm _ _
        rw [← hfull, gram_nonneg] at h
        exact absurd h (Finset.sum_nonneg fun k _ => mul_self_nonneg _).not_gt
      · cases hl
    · rcases he with ⟨rfl, -⟩ | ⟨rfl, -⟩
      · exact Or.inl rfl
      · exact Or.inr rfl

/-- the hypothesis on `sqrt` for real numbers -/
example : ∀ s : ℝ, 0 ≤ s → 0 ≤ Real.sqrt s ∧ Real.sqrt s * Real.sqrt s = s := fun _ h => ⟨Real.sqrt_nonneg _, Real.mul_self_sqrt h⟩

/-- a positive definite, an indefinite and two semidefinite matrices -/
example :
    cholesky (fun s : ℚ => decide (0 ≤ s)) false (fun s => if s = 4 then 2 else if s = 9 then 3 else 0)
      (⟨[4, 2, 2, 10], 2, 2⟩ : Dense ℚ) ⟨[0, 0, 0, 0], 2, 2⟩ = .ok ⟨[2, 0, 1, 3], 2, 2⟩ ∧
    cholesky (fun s : ℚ => decide (0 ≤ s)) false (fun s => if s = 1 then 1 else 0)
      (⟨[1, 2, 2, 1], 2, 2⟩ : Dense ℚ) ⟨[0, 0, 0, 0], 2, 2⟩ = .error (.exc .notPositiveDefinite) ∧
    cholesky (fun s : ℚ => decide (0 ≤ s)) false (fun s => if s = 1 then 1 else 0)
      (⟨[1, 1, 1, 1], 2, 2⟩ : Dense ℚ) ⟨[0, 0, 0, 0], 2, 2⟩ = .error .nonfinite ∧
    cholesky (fun s : ℚ => decide (0 ≤ s)) false (fun s => if s = 1 then 1 else 0)
      (⟨[0, 0, 0, 1], 2, 2⟩ : Dense ℚ) ⟨[0, 0, 0, 0], 2, 2⟩ = .error (.exc .notPositiveDefinite) := by decide +kernel

end NS.Props.LU

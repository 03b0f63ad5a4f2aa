/-
Properties C99 and C100: builds with `NS_ALLOW_CHECKS`, and `cholesky` for complex numbers.
-/
import Verif.CheckedModel
import Verif.Props.Cholesky
import Verif.Props.Construct
import Verif.Props.CG
import Verif.Props.CxIterative
import Verif.Props.Dense
import Mathlib.Data.Complex.Basic
import Mathlib.LinearAlgebra.Matrix.Notation

set_option linter.unusedSectionVars false
set_option linter.unusedSimpArgs false

namespace NS.Props.Checked
open NS NS.MatOps NS.LawfulMat NS.Props.LU Matrix

section Field
variable {M T : Type} [Field T] [DecidableEq T] [MatOps M T] [LawfulMat M T] {n : Nat} {m : M} {A : Matrix (Fin n) (Fin n) T}

theorem check_eq (cj : T → T) (hcj : cj 0 = 0) (h : IsMat m n A) [Decidable ((A.map cj)ᵀ = A)] :
    Checked.check cj m = if (A.map cj)ᵀ = A then .ok () else .error (.exc .notHermitian) := by
  obtain ⟨b, e1, e2⟩ := (Construct.C43_checks cj hcj h).2.2.1
  unfold Checked.check
  rw [e1, ok_bind]
  by_cases hA : (A.map cj)ᵀ = A
  · rw [if_pos hA, throwIf_false _ (by rw [e2.2 hA]; simp)]
  · rw [if_neg hA, throwIf_true _ (by
      cases b with
      | false => rfl
      | true => exact absurd (e2.1 rfl) hA)]

/-- C99: a build with checks rejects exactly the matrices that are not Hermitian, and treats the others as the build without checks
does; here `cholesky`, for every scalar type and conjugation. -/
theorem C99_cholesky (cj : T → T) (hcj : cj 0 = 0) (sqrtAllowed : T → Bool) (nanAllowed : Bool) (sqrt : T → T) {L₀ : M}
    {L : Matrix (Fin n) (Fin n) T} (hA : IsMat m n A) (hL : IsMat L₀ n L) :
    ((A.map cj)ᵀ = A → Checked.cholesky cj sqrtAllowed nanAllowed sqrt m L₀ = LU.cholesky sqrtAllowed nanAllowed sqrt m L₀) ∧
    ((A.map cj)ᵀ ≠ A → Checked.cholesky cj sqrtAllowed nanAllowed sqrt m L₀ = .error (.exc .notHermitian)) := by
  classical
  unfold Checked.cholesky
  rw [throwIf_false _ (by rw [hA.2.1, hA.2.2.1]; simp), ok_bind, throwIf_false _ (by rw [hA.2.1, hA.2.2.1, hL.2.1, hL.2.2.1]; simp), ok_bind,
    check_eq cj hcj hA]
  exact ⟨fun h => by rw [if_pos h, ok_bind], fun h => by rw [if_neg h]; rfl⟩

/-- C99: the tests of the sizes come first. -/
theorem C99_cholesky_sizes (cj : T → T) (sqrtAllowed : T → Bool) (nanAllowed : Bool) (sqrt : T → T) (m L : M) :
    (rows m ≠ cols m → Checked.cholesky cj sqrtAllowed nanAllowed sqrt m L = .error (.exc .notSquare)) ∧
    (rows m = cols m → (rows m ≠ rows L ∨ cols m ≠ cols L) →
      Checked.cholesky cj sqrtAllowed nanAllowed sqrt m L = .error (.exc .invalidOutputMatrix)) := by
  unfold Checked.cholesky
  exact ⟨fun h => by rw [throwIf_true _ h]; rfl, fun h1 h2 => by rw [throwIf_false _ (by simpa using h1), ok_bind, throwIf_true _ h2]; rfl⟩
end Field

section Real
variable {M T : Type} [Field T] [LinearOrder T] [IsStrictOrderedRing T] [MatOps M T] [LawfulMat M T] {n : Nat} {m : M}
  {A : Matrix (Fin n) (Fin n) T}

/-- C99 for real numbers: with checks `cholesky(A, L)` (`L` zero on entry) returns normally exactly for the symmetric positive definite
matrices, with `L` lower triangular, positive on the diagonal and `L*L^T = A`. -/
theorem C99_cholesky_real (sqrt : T → T) (hsqrt : ∀ s, 0 ≤ s → 0 ≤ sqrt s ∧ sqrt s * sqrt s = s) {L₀ : M}
    (hA : IsMat m n A) (hL : IsMat L₀ n (0 : Matrix (Fin n) (Fin n) T)) :
    ((∃ L₁, Checked.cholesky id (fun s => decide (0 ≤ s)) false sqrt m L₀ = .ok L₁) ↔ Aᵀ = A ∧ ∀ v, v ≠ 0 → 0 < v ⬝ᵥ A *ᵥ v) ∧
    ∀ L₁, Checked.cholesky id (fun s => decide (0 ≤ s)) false sqrt m L₀ = .ok L₁ →
      ∃ L, IsMat L₁ n L ∧ Lower L ∧ (∀ i, 0 < L i i) ∧ L * Lᵀ = A := by
  have hmap : A.map id = A := by ext; rfl
  have hc := C99_cholesky id rfl (fun s : T => decide (0 ≤ s)) false sqrt hA hL
  rw [hmap] at hc
  by_cases hs : Aᵀ = A
  · rw [hc.1 hs]
    obtain ⟨k1, k2, k3⟩ := C31_positive_definite sqrt hsqrt hA hL hs
    by_cases hp : ∀ v : Fin n → T, v ≠ 0 → 0 < v ⬝ᵥ A *ᵥ v
    · obtain ⟨L₁, L, e1, e2, e3, e4, e5⟩ := k1 hp
      refine ⟨⟨fun _ => ⟨hs, hp⟩, fun _ => ⟨L₁, e1⟩⟩, fun L₂ h2 => ?_⟩
      rw [e1] at h2
      cases h2
      exact ⟨L, e2, e3, e4, e5⟩
    · push Not at hp
      obtain ⟨v, hv, hv'⟩ := hp
      have hbad : ∀ L₁, LU.cholesky (fun s : T => decide (0 ≤ s)) false sqrt m L₀ ≠ .ok L₁ := by
        intro L₁ h
        rcases lt_or_eq_of_le hv' with h1 | h1
        · rw [k2 ⟨v, hv, h1⟩] at h; cases h
        · rcases k3 ⟨v, hv, h1⟩ with h3 | h3 <;> · rw [h3] at h; cases h
      exact ⟨⟨fun ⟨L₁, h⟩ => absurd h (hbad L₁), fun ⟨_, h⟩ => absurd (h v hv) (not_lt.2 hv')⟩, fun L₁ h => absurd h (hbad L₁)⟩
  · rw [hc.2 hs]
    exact ⟨⟨fun ⟨_, h⟩ => (by cases h), fun h => absurd h.1 hs⟩, fun _ h => (by cases h)⟩

/-- Without checks the factor of a matrix that is not symmetric is wrong without notice: `[[1,5],[1,5]]` gives `L = [[1,0],[1,2]]` and
`L*L^T = [[1,1],[1,5]]`. -/
theorem C99_unchecked_negation :
    LU.cholesky (fun s : ℚ => decide (0 ≤ s)) false (fun s => if s = 4 then 2 else s) (⟨[1, 5, 1, 5], 2, 2⟩ : Dense ℚ) ⟨[0, 0, 0, 0], 2, 2⟩
      = .ok ⟨[1, 0, 1, 2], 2, 2⟩ ∧
    Dense.mul (⟨[1, 0, 1, 2], 2, 2⟩ : Dense ℚ) ⟨[1, 1, 0, 2], 2, 2⟩ = .ok ⟨[1, 1, 1, 5], 2, 2⟩ ∧
    Checked.cholesky id (fun s : ℚ => decide (0 ≤ s)) false (fun s => if s = 4 then 2 else s) (⟨[1, 5, 1, 5], 2, 2⟩ : Dense ℚ)
      ⟨[0, 0, 0, 0], 2, 2⟩ = .error (.exc .notHermitian) := by
  decide +kernel

/-- C99 for `cg` and `pcg`, with `Aᵀ = A` as the condition; the preconditioner `c` is not checked. -/
theorem C99_cg (ha : IsMat m n A) (b x0 : List T) (maxIter : Nat) (eps : T) :
    (Aᵀ = A → Checked.cg m b x0 maxIter eps = CG.cg m b x0 maxIter eps) ∧
    (Aᵀ ≠ A → Checked.cg m b x0 maxIter eps = .error (.exc .notHermitian)) := by
  classical
  have hmap : A.map id = A := by ext; rfl
  unfold Checked.cg
  rw [throwIf_false _ (by rw [ha.2.1, ha.2.2.1]; simp), ok_bind, check_eq id rfl ha, hmap]
  exact ⟨fun h => by rw [if_pos h, ok_bind], fun h => by rw [if_neg h]; rfl⟩

theorem C99_pcg {c : M} {C : Matrix (Fin n) (Fin n) T} (ha : IsMat m n A) (hc : IsMat c n C) (b x0 : List T) (maxIter : Nat) (eps : T) :
    (Aᵀ = A → Checked.pcg m b c x0 maxIter eps = CG.pcg m b c x0 maxIter eps) ∧
    (Aᵀ ≠ A → Checked.pcg m b c x0 maxIter eps = .error (.exc .notHermitian)) := by
  classical
  have hmap : A.map id = A := by ext; rfl
  unfold Checked.pcg
  rw [throwIf_false _ (by rw [ha.2.1, ha.2.2.1]; simp), ok_bind, throwIf_false _ (by rw [hc.2.1, hc.2.2.1]; simp), ok_bind,
    throwIf_false _ (by rw [ha.2.1, hc.2.1]; simp), ok_bind, check_eq id rfl ha, hmap]
  exact ⟨fun h => by rw [if_pos h, ok_bind], fun h => by rw [if_neg h]; rfl⟩

/-- C99: the tests of the sizes come first, whatever the matrices are. -/
theorem C99_cg_sizes (m c : M) (b x0 : List T) (maxIter : Nat) (eps : T) :
    (rows m ≠ cols m → Checked.cg m b x0 maxIter eps = .error (.exc .notSquare)) ∧
    (rows m ≠ cols m ∨ rows c ≠ cols c → Checked.pcg m b c x0 maxIter eps = .error (.exc .notSquare)) ∧
    (rows m = cols m → rows c = cols c → rows m ≠ rows c → Checked.pcg m b c x0 maxIter eps = .error (.exc .matrixSizeMismatch)) := by
  unfold Checked.cg Checked.pcg
  refine ⟨fun h => by rw [throwIf_true _ h]; rfl, fun h => ?_, fun h1 h2 h3 => ?_⟩
  · by_cases h1 : rows m ≠ cols m
    · rw [throwIf_true _ h1]; rfl
    · rw [throwIf_false _ h1, ok_bind, throwIf_true _ (h.resolve_left h1)]; rfl
  · rw [throwIf_false _ (by simpa using h1), ok_bind, throwIf_false _ (by simpa using h2), ok_bind, throwIf_true _ h3]; rfl

/-- matrices of both kinds -/
example : IsMat (⟨[4, 2, 2, 10], 2, 2⟩ : Dense ℚ) 2 !![4, 2; 2, 10] ∧ (!![4, 2; 2, 10] : Matrix (Fin 2) (Fin 2) ℚ)ᵀ = !![4, 2; 2, 10] ∧
    IsMat (⟨[1, 5, 1, 5], 2, 2⟩ : Dense ℚ) 2 !![1, 5; 1, 5] ∧ (!![1, 5; 1, 5] : Matrix (Fin 2) (Fin 2) ℚ)ᵀ ≠ !![1, 5; 1, 5] := by
  refine ⟨⟨⟨rfl, by decide, by decide⟩, rfl, rfl, by decide⟩, by decide, ⟨⟨rfl, by decide, by decide⟩, rfl, rfl, by decide⟩, by decide⟩

example : Checked.cholesky id (fun s : ℚ => decide (0 ≤ s)) false (fun s => if s = 4 then 2 else if s = 9 then 3 else 0)
    (⟨[4, 2, 2, 10], 2, 2⟩ : Dense ℚ) ⟨[0, 0, 0, 0], 2, 2⟩ = .ok ⟨[2, 0, 1, 3], 2, 2⟩ := by decide +kernel
end Real

/-! ### C100: complex numbers -/
section Complex
open Classical in
/-- C100, what holds: for a Hermitian complex matrix `A` a factor `L` returned by `cholesky` (with or without checks) is lower triangular with
non-zero diagonal and `L*L^T` agrees with `A` on and below the diagonal; it is a Cholesky factor, `L*L^H = A`, exactly when all entries of `L`
are real, and then all entries of `A` are real. -/
theorem C100_partial {M : Type} [MatOps M ℂ] [LawfulMat M ℂ] {n : Nat} (sqrt : ℂ → ℂ) (hsqrt : ∀ s, sqrt s * sqrt s = s) {m L₀ L₁ : M}
    {A : Matrix (Fin n) (Fin n) ℂ} (hA : IsMat m n A) (hL : IsMat L₀ n (0 : Matrix (Fin n) (Fin n) ℂ)) (hH : Aᴴ = A)
    (h : Checked.cholesky (starRingEnd ℂ) (fun _ => true) true sqrt m L₀ = .ok L₁) :
    ∃ L, IsMat L₁ n L ∧ Lower L ∧ (∀ i, L i i ≠ 0) ∧ (∀ i j, j ≤ i → (L * Lᵀ) i j = A i j) ∧
      (L * Lᴴ = A ↔ ∀ i j, (L i j).im = 0) ∧ (L * Lᴴ = A → ∀ i j, (A i j).im = 0) := by
  have hc := (C99_cholesky (starRingEnd ℂ) (map_zero _) (fun _ => true) true sqrt hA hL).1 hH
  rw [hc] at h
  have := LU.cholesky_ok (fun _ => true) true sqrt (fun s _ => hsqrt s) hA.sq hL.sq hL.zero
  rw [h] at this
  obtain ⟨hp, -⟩ := this
  have key : ∀ a t : Fin n, t ≤ a → (toMat n L₁ * (toMat n L₁)ᵀ) a t = A a t := by
    intro a t hta
    rw [Matrix.mul_apply]
    have := hp.eqs t t.2 a hta a.2
    rw [Finset.sum_range, hA.val_eq] at this
    exact this
  have him : toMat n L₁ * (toMat n L₁)ᴴ = A → ∀ i j, (toMat n L₁ i j).im = 0 := by
    intro hLL i
    have h1 := key i i le_rfl
    rw [← hLL, Matrix.mul_apply, Matrix.mul_apply, ← sub_eq_zero, ← Finset.sum_sub_distrib] at h1
    have h2 := congrArg Complex.re h1
    rw [Complex.re_sum] at h2
    have h3 : ∀ j ∈ Finset.univ, (0 : ℝ) ≤ -(toMat n L₁ i j * (toMat n L₁)ᵀ j i - toMat n L₁ i j * (toMat n L₁)ᴴ j i).re := by
      intro j _
      simp only [Matrix.transpose_apply, Matrix.conjTranspose_apply, Complex.sub_re, Complex.mul_re, Complex.star_def, Complex.conj_re,
        Complex.conj_im]
      nlinarith [mul_self_nonneg (toMat n L₁ i j).im]
    have h4 := (Finset.sum_eq_zero_iff_of_nonneg h3).1 (by rw [Finset.sum_neg_distrib, h2]; simp)
    intro j
    have h5 := h4 j (Finset.mem_univ j)
    simp only [Matrix.transpose_apply, Matrix.conjTranspose_apply, Complex.sub_re, Complex.mul_re, Complex.star_def, Complex.conj_re,
        Complex.conj_im] at h5
    have : (toMat n L₁ i j).im * (toMat n L₁ i j).im = 0 := by linarith
    exact mul_self_eq_zero.1 this
  have hreal : (∀ i j, (toMat n L₁ i j).im = 0) → (toMat n L₁)ᴴ = (toMat n L₁)ᵀ := by
    intro hr
    ext i j
    rw [Matrix.conjTranspose_apply, Matrix.transpose_apply]
    exact Complex.conj_eq_iff_im.2 (hr j i)
  have hAre : (∀ i j, (toMat n L₁ i j).im = 0) → ∀ i j, ((toMat n L₁ * (toMat n L₁)ᵀ) i j).im = 0 := by
    intro hr i j
    rw [Matrix.mul_apply, Complex.im_sum]
    refine Finset.sum_eq_zero fun k _ => ?_
    rw [Complex.mul_im, Matrix.transpose_apply, hr i k, hr j k]
    simp
  refine ⟨toMat n L₁, isMat_of hp.sq, fun i j hij => hp.zero i j (Or.inl hij), fun i => hp.diag i i.2, key, ⟨him, fun hr => ?_⟩, ?_⟩
  · rw [hreal hr]
    ext i j
    rcases le_total j i with hij | hij
    · exact key i j hij
    · have h1 : A i j = starRingEnd ℂ (A j i) := by conv_lhs => rw [← hH]
                                                    rfl
      rw [h1, ← key j i hij, Complex.conj_eq_iff_im.2 (hAre hr j i), Matrix.mul_apply, Matrix.mul_apply]
      exact Finset.sum_congr rfl fun k _ => mul_comm _ _
  · intro hLL i j
    rw [← hLL, hreal (him hLL)]
    exact hAre (him hLL) i j

/-- Every square matrix is the content of a `DenseMatrix`. -/
theorem exists_isMat {T : Type} [Field T] [DecidableEq T] {n : Nat} (hn : 0 < n) (A : Matrix (Fin n) (Fin n) T) :
    ∃ d : Dense T, IsMat d n A := by
  obtain ⟨d, h1, h2, h3, h4⟩ := NS.Props.Dense.exists_reach n n hn hn (fun i j => if h : i < n ∧ j < n then A ⟨i, h.1⟩ ⟨j, h.2⟩ else 0)
  refine ⟨d, h1.wf, h2, h3, fun i j => ?_⟩
  have := h4 i j i.2 j.2
  beta_reduce at this
  rw [dif_pos ⟨i.2, j.2⟩] at this
  exact this

/-- The columns of a partial factor are those of a given factor `R`, up to a sign. -/
theorem cholPart_unique {M T : Type} [Field T] [DecidableEq T] [MatOps M T] [LawfulMat M T] {n : Nat} {m X : M}
    {A R : Matrix (Fin n) (Fin n) T} (hA : IsMat m n A) (hR : Lower R) (hd : ∀ i, R i i ≠ 0) (hRR : R * Rᵀ = A) {j : Nat}
    (h : LU.CholPart n m j X) (t : Fin n) : (t : Nat) < j → ∃ e : T, e * e = 1 ∧ ∀ a : Fin n, t ≤ a → val X a t = e * R a t := by
  induction t using WellFoundedLT.induction with
  | _ t ih =>
    intro ht
    have key : ∀ a : Fin n, t ≤ a → val X a t * val X t t = R a t * R t t := by
      intro a hta
      have h1 := h.eqs t ht a hta a.2
      rw [Finset.sum_range, hA.val_eq, ← hRR, Matrix.mul_apply, ← sub_eq_zero, ← Finset.sum_sub_distrib,
        Finset.sum_eq_single t] at h1
      · exact sub_eq_zero.1 h1
      · intro k _ hk
        rcases lt_or_gt_of_ne hk with hk | hk
        · obtain ⟨e, e1, e2⟩ := ih k hk (lt_trans hk ht)
          rw [e2 a (hk.le.trans hta), e2 t hk.le, Matrix.transpose_apply]
          linear_combination (R a k * R t k) * e1
        · rw [h.zero t k (Or.inl hk), Matrix.transpose_apply, hR t k hk]; ring
      · intro hn; exact absurd (Finset.mem_univ t) hn
    have hx : val X t t ≠ 0 := h.diag t ht
    refine ⟨R t t / val X t t, ?_, fun a ha => ?_⟩
    · have := key t le_rfl
      field_simp
      linear_combination -this
    · have := key a ha
      field_simp
      linear_combination this

open Classical in
/-- C100 for real matrices stored as complex numbers: if all entries of `A` are real and `A` is symmetric positive definite, `cholesky`
returns normally (with and without checks) and `L*L^H = A`.  With C100_partial: for Hermitian positive definite `A` the result is right
exactly when `A` is real. -/
theorem C100_real_partial {M : Type} [MatOps M ℂ] [LawfulMat M ℂ] {n : Nat} (sqrt : ℂ → ℂ) (hsqrt : ∀ s, sqrt s * sqrt s = s) {m L₀ : M}
    {A : Matrix (Fin n) (Fin n) ℂ} {B : Matrix (Fin n) (Fin n) ℝ} (hA : IsMat m n A) (hL : IsMat L₀ n (0 : Matrix (Fin n) (Fin n) ℂ))
    (hB : A = B.map (fun x => (x : ℂ))) (hsym : Bᵀ = B) (hpos : ∀ v, v ≠ 0 → 0 < v ⬝ᵥ B *ᵥ v) :
    ∃ L₁ L, Checked.cholesky (starRingEnd ℂ) (fun _ => true) true sqrt m L₀ = .ok L₁ ∧
      LU.cholesky (fun _ => true) true sqrt m L₀ = .ok L₁ ∧ IsMat L₁ n L ∧ Lower L ∧ L * Lᴴ = A := by
  have hn : 0 < n := Construct.isMat_pos hA
  have hH : Aᴴ = A := by
    rw [hB]; ext i j
    rw [Matrix.conjTranspose_apply, Matrix.map_apply, Matrix.map_apply, Complex.star_def, Complex.conj_ofReal]
    rw [show B j i = B i j from congrFun (congrFun hsym i) j]
  obtain ⟨d, hd⟩ := exists_isMat hn B
  obtain ⟨z, hz⟩ := exists_isMat hn (0 : Matrix (Fin n) (Fin n) ℝ)
  obtain ⟨_, R, -, -, hR, hRd, hRR⟩ := (C31_positive_definite Real.sqrt (fun s hs => ⟨Real.sqrt_nonneg s, Real.mul_self_sqrt hs⟩)
    hd hz hsym).1 hpos
  let S : Matrix (Fin n) (Fin n) ℂ := R.map (fun x => (x : ℂ))
  have hS : Lower S := fun i j hij => by show ((R i j : ℝ) : ℂ) = 0; rw [hR i j hij]; rfl
  have hSd : ∀ i, S i i ≠ 0 := fun i => by show ((R i i : ℝ) : ℂ) ≠ 0; exact_mod_cast (hRd i).ne'
  have hSS : S * Sᵀ = A := by
    rw [hB, ← hRR]
    ext i j
    rw [Matrix.mul_apply, Matrix.map_apply, Matrix.mul_apply, Complex.ofReal_sum]
    exact Finset.sum_congr rfl fun k _ => by rw [Complex.ofReal_mul]; rfl
  have hc := (C99_cholesky (starRingEnd ℂ) (map_zero _) (fun _ => true) true sqrt hA hL).1 hH
  have key := LU.cholesky_ok (fun _ => true) true sqrt (fun s _ => hsqrt s) hA.sq hL.sq hL.zero
  cases hr : LU.cholesky (fun _ => true) true sqrt m L₀ with
  | error e =>
    rw [hr] at key
    obtain ⟨j, X, hj, hX, hcase⟩ := key
    have h0 : LU.cholS m X j = 0 := by
      rcases hcase with ⟨-, h1 | h1⟩ | ⟨-, h1, -⟩
      · cases h1
      · exact h1.1
      · exact h1
    have h1 : LU.cholS m X j = S ⟨j, hj⟩ ⟨j, hj⟩ * S ⟨j, hj⟩ ⟨j, hj⟩ := by
      have e1 : val m j j = ∑ k ∈ Finset.range n, (if h : k < n then S ⟨j, hj⟩ ⟨k, h⟩ * S ⟨j, hj⟩ ⟨k, h⟩ else 0) := by
        rw [show val m j j = A ⟨j, hj⟩ ⟨j, hj⟩ from hA.val_eq ⟨j, hj⟩ ⟨j, hj⟩, ← hSS, Matrix.mul_apply, Finset.sum_range]
        exact Finset.sum_congr rfl fun k _ => by rw [dif_pos k.2]; rfl
      have e2 : ∑ k ∈ Finset.range n, (if h : k < n then S ⟨j, hj⟩ ⟨k, h⟩ * S ⟨j, hj⟩ ⟨k, h⟩ else 0) =
          ∑ k ∈ Finset.range (j + 1), (if h : k < n then S ⟨j, hj⟩ ⟨k, h⟩ * S ⟨j, hj⟩ ⟨k, h⟩ else 0) := by
        refine (Finset.sum_subset (Finset.range_mono hj) fun k hk hk' => ?_).symm
        rw [Finset.mem_range] at hk hk'
        rw [dif_pos hk, hS ⟨j, hj⟩ ⟨k, hk⟩ (show j < k by omega), mul_zero]
      have e3 : ∀ k ∈ Finset.range j, val X j k * val X j k = (if h : k < n then S ⟨j, hj⟩ ⟨k, h⟩ * S ⟨j, hj⟩ ⟨k, h⟩ else 0) := by
        intro k hk
        rw [Finset.mem_range] at hk
        have hkn : k < n := by omega
        obtain ⟨e, e4, e5⟩ := cholPart_unique hA hS hSd hSS hX ⟨k, hkn⟩ hk
        rw [dif_pos hkn, show val X j k = _ from e5 ⟨j, hj⟩ (show k ≤ j by omega)]
        linear_combination (S ⟨j, hj⟩ ⟨k, hkn⟩ * S ⟨j, hj⟩ ⟨k, hkn⟩) * e4
      unfold LU.cholS
      rw [e1, e2, Finset.sum_range_succ, Finset.sum_congr rfl e3, dif_pos hj]
      ring
    rw [h0] at h1
    exact absurd h1.symm (mul_ne_zero (hSd _) (hSd _))
  | ok L₁ =>
    rw [hr] at hc
    obtain ⟨L, h1, h2, h3, h4, h5, -⟩ := C100_partial sqrt hsqrt hA hL hH hc
    refine ⟨L₁, L, hc, rfl, h1, h2, h5.2 fun i j => ?_⟩
    rw [hr] at key
    rcases lt_or_ge i j with hij | hij
    · rw [h2 i j hij]; rfl
    · obtain ⟨e, e1, e2⟩ := cholPart_unique hA hS hSd hSS key.1 j j.2
      have e3 := e2 i hij
      rw [h1.val_eq] at e3
      have e4 : e = 1 ∨ e = -1 := mul_self_eq_one_iff.1 e1
      rw [e3]
      rcases e4 with rfl | rfl
      · rw [one_mul]; exact Complex.ofReal_im _
      · rw [neg_one_mul, Complex.neg_im, show (S i j).im = 0 from Complex.ofReal_im _, neg_zero]

/-- the hypotheses of C100_real_partial for a matrix that is not diagonal -/
example : (!![4, 2; 2, 10] : Matrix (Fin 2) (Fin 2) ℝ)ᵀ = !![4, 2; 2, 10] ∧
    ∀ v : Fin 2 → ℝ, v ≠ 0 → 0 < v ⬝ᵥ (!![4, 2; 2, 10] : Matrix (Fin 2) (Fin 2) ℝ) *ᵥ v := by
  refine ⟨by ext i j; fin_cases i <;> fin_cases j <;> rfl, fun v hv => ?_⟩
  have e : v ⬝ᵥ (!![4, 2; 2, 10] : Matrix (Fin 2) (Fin 2) ℝ) *ᵥ v = (2 * v 0 + v 1) ^ 2 + 9 * v 1 ^ 2 := by
    simp [dotProduct, Matrix.mulVec, Fin.sum_univ_two]; ring
  rw [e]
  by_contra hn
  push Not at hn
  have h1 : v 1 = 0 := by nlinarith [sq_nonneg (2 * v 0 + v 1), sq_nonneg (v 1)]
  rw [h1] at hn
  have h0 : v 0 = 0 := by nlinarith [sq_nonneg (v 0)]
  exact hv (by ext i; fin_cases i <;> assumption)

open NS.Props.CxIterative in
/-- **C100 fails**: `A = [[1,-i],[i,3]]` is Hermitian and positive definite, so the check passes and `cholesky` returns `L = [[1,0],[i,2]]`,
but `L*L^H = [[1,-i],[i,5]]`: the squares in the diagonal are not absolute squares (`LU.inl:29-30, 42`).  For `[[1,-i],[i,2]]` the pivot is 3
where it should be 1. -/
theorem C100_negation :
    Checked.cholesky (M := Dense GQ) star (fun _ => true) true (fun s => if s = 4 then 2 else s)
      ⟨[1, ⟨0, -1⟩, ⟨0, 1⟩, 3], 2, 2⟩ ⟨[0, 0, 0, 0], 2, 2⟩ = .ok ⟨[1, 0, ⟨0, 1⟩, 2], 2, 2⟩ ∧
    Dense.mul (⟨[1, 0, ⟨0, 1⟩, 2], 2, 2⟩ : Dense GQ) ⟨[1, ⟨0, -1⟩, 0, 2], 2, 2⟩ = .ok ⟨[1, ⟨0, -1⟩, ⟨0, 1⟩, 5], 2, 2⟩ ∧
    (∀ x y : ℂ, (x, y) ≠ 0 → 0 < (star x * (x - Complex.I * y) + star y * (Complex.I * x + 3 * y)).re) := by
  refine ⟨by decide +kernel, by decide +kernel, ?_⟩
  intro x y hxy
  have e : (star x * (x - Complex.I * y) + star y * (Complex.I * x + 3 * y)).re =
      (x.re + y.im) ^ 2 + (x.im - y.re) ^ 2 + 2 * (y.re ^ 2 + y.im ^ 2) := by
    simp only [Complex.add_re, Complex.mul_re, Complex.sub_re, Complex.sub_im, Complex.add_im, Complex.mul_im, Complex.I_re, Complex.I_im,
      Complex.star_def, Complex.conj_re, Complex.conj_im, Complex.re_ofNat, Complex.im_ofNat]
    ring
  rw [e]
  by_contra hn
  push Not at hn
  have h1 : y.re = 0 := by nlinarith [sq_nonneg (x.re + y.im), sq_nonneg (x.im - y.re), sq_nonneg y.re, sq_nonneg y.im]
  have h2 : y.im = 0 := by nlinarith [sq_nonneg (x.re + y.im), sq_nonneg (x.im - y.re), sq_nonneg y.re, sq_nonneg y.im]
  rw [h1, h2] at hn
  have h3 : x.re = 0 := by nlinarith [sq_nonneg x.re, sq_nonneg x.im]
  have h4 : x.im = 0 := by nlinarith [sq_nonneg x.re, sq_nonneg x.im]
  exact hxy (Prod.ext (Complex.ext h3 h4) (Complex.ext h1 h2))

/-- a real Hermitian matrix gives a real factor, a complex one not -/
example : (!![(1 : ℂ), -Complex.I; Complex.I, 3] : Matrix (Fin 2) (Fin 2) ℂ)ᴴ = !![1, -Complex.I; Complex.I, 3] := by
  ext i j; fin_cases i <;> fin_cases j <;> simp [Matrix.conjTranspose_apply]
end Complex
end NS.Props.Checked

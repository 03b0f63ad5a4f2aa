/-
Property theorems C78 and C79: solving a linear system, inverting a matrix and the determinant in floating-point arithmetic
(`Std fl u`, see `Verif/Rounding.lean` and `Verif/Props/Rounding.lean`).
-/
import Verif.RoundInv
import Verif.Props.Rounding
import Mathlib.LinearAlgebra.Matrix.Block
import Mathlib.LinearAlgebra.Matrix.Determinant.Basic

set_option linter.unusedSectionVars false
set_option linter.unusedSimpArgs false

namespace NS.Props.Rounding
open NS NS.MatOps NS.LU NS.Rounding NS.Operations Matrix

variable {F K : Type} [Zero F] [One F] [Add F] [Sub F] [Mul F] [Div F] [Field K] [LinearOrder K] [IsStrictOrderedRing K]
variable {fl : F → K} {u : K}

/-! ## Specification -/

/-- The bound of the backward error: `Pᵀ |L| |triu U|`, i.e. the rows of `|L| |triu U|` moved back to the rows of `A`. -/
def luSize {n : Nat} (L U P : Matrix (Fin n) (Fin n) K) : Matrix (Fin n) (Fin n) K := Pᵀ * (mabs L * mabs (triu U))

/-! ## Algebra -/
section
variable {n : Nat}

theorem mabs_mul_le (A B : Matrix (Fin n) (Fin n) K) (i j : Fin n) : |(A * B) i j| ≤ (mabs A * mabs B) i j := by
  rw [Matrix.mul_apply, Matrix.mul_apply]
  refine (Finset.abs_sum_le_sum_abs _ _).trans_eq (Finset.sum_congr rfl fun k _ => ?_)
  rw [abs_mul]; rfl

theorem mul_mono_abs {A B A' B' : Matrix (Fin n) (Fin n) K} {g h : K} (hg : 0 ≤ g)
    (hA : ∀ i j, |A i j| ≤ g * |A' i j|) (hB : ∀ i j, |B i j| ≤ h * |B' i j|) (i j : Fin n) :
    |(A * B) i j| ≤ g * h * (mabs A' * mabs B') i j := by
  refine (mabs_mul_le A B i j).trans ?_
  rw [Matrix.mul_apply, Matrix.mul_apply, Finset.mul_sum]
  refine Finset.sum_le_sum fun k _ => ?_
  refine (mul_le_mul (hA i k) (hB k j) (abs_nonneg _) (mul_nonneg hg (abs_nonneg _))).trans_eq ?_
  show g * |A' i k| * (h * |B' k j|) = g * h * (|A' i k| * |B' k j|)
  ring

theorem perm_parts {P : Matrix (Fin n) (Fin n) K} {σ : Equiv.Perm (Fin n)} (hP : ∀ i j, P i j = if j = σ i then 1 else 0) :
    (∀ (G : Matrix (Fin n) (Fin n) K) i j, (P * G) i j = G (σ i) j) ∧
    (∀ (G : Matrix (Fin n) (Fin n) K) i j, (Pᵀ * G) i j = G (σ.symm i) j) := by
  constructor
  · intro G i j
    rw [Matrix.mul_apply]
    simp only [hP, ite_mul, one_mul, zero_mul, Finset.sum_ite_eq', Finset.mem_univ, if_true]
  · intro G i j
    rw [Matrix.mul_apply, Finset.sum_eq_single (σ.symm i)]
    · rw [Matrix.transpose_apply, hP, if_pos (by simp), one_mul]
    · intro k _ hk
      rw [Matrix.transpose_apply, hP, if_neg (fun e => hk (by rw [e]; simp)), zero_mul]
    · simp

/-- composition of the factorisation error and the two triangular solves -/
theorem compose_solve {A L U P E ΔL ΔU : Matrix (Fin n) (Fin n) K} {σ : Equiv.Perm (Fin n)} {g : K} (hg : 0 ≤ g)
    (hP : ∀ i j, P i j = if j = σ i then 1 else 0) (hL : ∀ i j, i < j → L i j = 0)
    (hE : P * A + E = L * triu U) (bE : ∀ i j, |E i j| ≤ g * (mabs L * mabs (triu U)) i j)
    (bL : ∀ i j, |ΔL i j| ≤ g * |tril L i j|) (bU : ∀ i j, |ΔU i j| ≤ g * |triu U i j|)
    {x b : Fin n → K} (hx : (tril L + ΔL) *ᵥ ((triu U + ΔU) *ᵥ x) = fun i => b (σ i)) :
    ∃ ΔA : Matrix (Fin n) (Fin n) K, (A + ΔA) *ᵥ x = b ∧ ∀ i j, |ΔA i j| ≤ (3 * g + g ^ 2) * luSize L U P i j := by
  have htl : tril L = L := by
    funext i j
    unfold tril
    split
    · rfl
    · rename_i h; exact (hL i j (not_le.1 h)).symm
  rw [htl] at hx bL
  obtain ⟨p1, p2⟩ := perm_parts hP
  let G := E + ΔL * triu U + L * ΔU + ΔL * ΔU
  have hPG : P * (A + Pᵀ * G) = (L + ΔL) * (triu U + ΔU) := by
    have : P * (Pᵀ * G) = G := by
      ext i j; rw [p1, p2]; simp
    rw [mul_add, this]
    have : P * A = L * triu U - E := by rw [← hE]; abel
    rw [this]
    simp only [G]
    rw [add_mul, mul_add, mul_add]
    abel
  refine ⟨Pᵀ * G, ?_, fun i j => ?_⟩
  · rw [Matrix.mulVec_mulVec, ← hPG, ← Matrix.mulVec_mulVec] at hx
    funext i
    have h1 := congrFun hx (σ.symm i)
    have h2 : ∀ v : Fin n → K, (P *ᵥ v) (σ.symm i) = v i := by
      intro v
      simp only [Matrix.mulVec, dotProduct, hP, ite_mul, one_mul, zero_mul, Finset.sum_ite_eq', Finset.mem_univ, if_true]
      simp
    rw [h2] at h1
    simpa using h1
  · rw [p2]
    unfold luSize
    rw [p2]
    set i' := σ.symm i
    have e1 : |(ΔL * triu U) i' j| ≤ g * (mabs L * mabs (triu U)) i' j := by
      have := mul_mono_abs (A' := L) (B' := triu U) (B := triu U) (h := 1) hg bL (fun i j => by rw [one_mul]) i' j
      rwa [mul_one] at this
    have e2 : |(L * ΔU) i' j| ≤ g * (mabs L * mabs (triu U)) i' j := by
      have := mul_mono_abs (A := L) (A' := L) (B' := triu U) (g := 1) zero_le_one (fun i j => by rw [one_mul]) bU i' j
      rwa [one_mul] at this
    have e3 : |(ΔL * ΔU) i' j| ≤ g * g * (mabs L * mabs (triu U)) i' j := mul_mono_abs hg bL bU i' j
    have e0 := bE i' j
    have hG : G i' j = E i' j + (ΔL * triu U) i' j + (L * ΔU) i' j + (ΔL * ΔU) i' j := rfl
    rw [hG]
    have t1 := abs_add_le (E i' j + (ΔL * triu U) i' j + (L * ΔU) i' j) ((ΔL * ΔU) i' j)
    have t2 := abs_add_le (E i' j + (ΔL * triu U) i' j) ((L * ΔU) i' j)
    have t3 := abs_add_le (E i' j) ((ΔL * triu U) i' j)
    calc _ ≤ g * (mabs L * mabs (triu U)) i' j + g * (mabs L * mabs (triu U)) i' j + g * (mabs L * mabs (triu U)) i' j
          + g * g * (mabs L * mabs (triu U)) i' j := by linarith
      _ = _ := by ring
end

/-! ## C78: solving a system and inverting a matrix -/
section
variable {M : Type} [MatOps M F] [LawfulStore M F] {n : Nat}

theorem factor_and_solve (h : Std fl u) (hpe : PermExact M F) {eps : K} (heps : 0 ≤ eps) {A : Matrix (Fin n) (Fin n) K}
    {r : M × M × M × Nat} (hr : DoolittledFl fl u n A r) {b₀ : List F} {b : Fin n → K} (hb : VecFl fl b₀ n b) :
    ∃ (L U P : Matrix (Fin n) (Fin n) K) (pb : List F), MatFl fl r.1 L ∧ MatFl fl r.2.1 U ∧ MatFl fl r.2.2.1 P ∧
      mulVec r.2.2.1 b₀ = .ok pb ∧
      ((∃ (x₀ : List F) (x : Fin n → K) (ΔA : Matrix (Fin n) (Fin n) K),
        solveLu (fun a => |fl a|) eps r.1 r.2.1 pb = .ok x₀ ∧ VecFl fl x₀ n x ∧ (A + ΔA) *ᵥ x = b ∧
        ∀ i j, |ΔA i j| ≤ (3 * gam u n + gam u n ^ 2) * luSize L U P i j) ∨
      (solveLu (fun a => |fl a|) eps r.1 r.2.1 pb = .error (.exc .singular) ∧ ∃ i, |L i i| ≤ eps ∨ |U i i| ≤ eps)) := by
  obtain ⟨L, U, P, σ, hL, hU, hP, l1, l2, -, p1, -, E, e1, e2⟩ := hr
  have hPv : ∀ i j : Fin n, LawfulStore.val r.2.2.1 i j = if j = σ i then 1 else 0 := by
    intro i j
    apply h.inj
    rw [hP.val, p1]
    split
    · exact h.one.symm
    · exact h.zero.symm
  obtain ⟨pb, q1, q2, q3⟩ := hpe b₀ hP.sq hPv hb.1
  have hpb : VecFl fl pb n (fun i => b (σ i)) := by
    refine ⟨q2, fun i => ⟨_, vecAt_get (by rw [q2]; exact i.2), ?_⟩⟩
    rw [q3, hb.getD]
  refine ⟨L, U, P, pb, hL, hU, hP, q1, ?_⟩
  rcases C76_solve h heps hL hU hpb with ⟨-, x₀, x, ΔL, ΔU, s1, s2, s3, s4, s5⟩ | ⟨s1, s2⟩
  · obtain ⟨ΔA, a1, a2⟩ := compose_solve (gam_nonneg h.u_nonneg h.u_lt) p1 l2 e1 e2 s4 s5 s3
    exact Or.inl ⟨x₀, x, ΔA, s1, s2, a1, a2⟩
  · exact Or.inr ⟨s2, s1⟩

variable [Neg F] [DecidableEq F]

/-- C78, sparse: `doolittle`, `P*b` and `solve_lu` in sequence return the exact solution of a system whose matrix differs from `A` by
at most `(3 gam + gam^2) Pᵀ |L| |triu U|`, entry by entry, or `SingularException` because a computed pivot is not larger than the
threshold. -/
theorem C78_solve_sparse (h : Std fl u) {eps : K} (heps : 0 ≤ eps) {A₀ : Sparse F} {A : Matrix (Fin n) (Fin n) K}
    (hA : MatFl fl A₀ A) {r : Sparse F × Sparse F × Sparse F × Nat}
    (hr : doolittleSparse (fun a => |fl a|) eps A₀ = .ok r) {b₀ : List F} {b : Fin n → K} (hb : VecFl fl b₀ n b) :
    ∃ (L U P : Matrix (Fin n) (Fin n) K) (pb : List F), MatFl fl r.1 L ∧ MatFl fl r.2.1 U ∧ MatFl fl r.2.2.1 P ∧
      r.2.2.1.mulVec b₀ = .ok pb ∧
      ((∃ (x₀ : List F) (x : Fin n → K) (ΔA : Matrix (Fin n) (Fin n) K),
        solveLu (fun a => |fl a|) eps r.1 r.2.1 pb = .ok x₀ ∧ VecFl fl x₀ n x ∧ (A + ΔA) *ᵥ x = b ∧
        ∀ i j, |ΔA i j| ≤ (3 * gam u n + gam u n ^ 2) * luSize L U P i j) ∨
      (solveLu (fun a => |fl a|) eps r.1 r.2.1 pb = .error (.exc .singular) ∧ ∃ i, |L i i| ≤ eps ∨ |U i i| ≤ eps)) := by
  rcases C77_doolittle_sparse h heps hA with ⟨r', h1, h2⟩ | h1
  · rw [hr] at h1; cases h1
    exact factor_and_solve h (sparse_permExact h) heps h2 hb
  · rw [hr] at h1; cases h1

/-- C78, dense (zero `L`, `P` on entry). -/
theorem C78_solve_dense (h : Std fl u) {eps : K} (heps : 0 ≤ eps) {A₀ L₀ P₀ : Dense F} {A : Matrix (Fin n) (Fin n) K}
    (hA : MatFl fl A₀ A) (hL : MatFl fl L₀ (0 : Matrix (Fin n) (Fin n) K)) (hP : MatFl fl P₀ (0 : Matrix (Fin n) (Fin n) K))
    {r : Dense F × Dense F × Dense F × Nat} (hr : doolittleBase (fun a => |fl a|) eps A₀ L₀ P₀ = .ok r)
    {b₀ : List F} {b : Fin n → K} (hb : VecFl fl b₀ n b) :
    ∃ (L U P : Matrix (Fin n) (Fin n) K) (pb : List F), MatFl fl r.1 L ∧ MatFl fl r.2.1 U ∧ MatFl fl r.2.2.1 P ∧
      r.2.2.1.mulVec b₀ = .ok pb ∧
      ((∃ (x₀ : List F) (x : Fin n → K) (ΔA : Matrix (Fin n) (Fin n) K),
        solveLu (fun a => |fl a|) eps r.1 r.2.1 pb = .ok x₀ ∧ VecFl fl x₀ n x ∧ (A + ΔA) *ᵥ x = b ∧
        ∀ i j, |ΔA i j| ≤ (3 * gam u n + gam u n ^ 2) * luSize L U P i j) ∨
      (solveLu (fun a => |fl a|) eps r.1 r.2.1 pb = .error (.exc .singular) ∧ ∃ i, |L i i| ≤ eps ∨ |U i i| ≤ eps)) := by
  rcases C77_doolittle_dense h heps hA hL hP with ⟨r', h1, h2⟩ | h1
  · rw [hr] at h1; cases h1
    exact factor_and_solve h (dense_permExact h) heps h2 hb
  · rw [hr] at h1; cases h1

/-- C78: `inverse` of a sparse matrix: column `j` of the result is column `j` of the exact inverse of a matrix close to `A` (the
perturbation may differ from column to column), or the call throws `SingularException`. -/
theorem C78_inverse_sparse (h : Std fl u) {eps : K} (heps : 0 ≤ eps) {A₀ : Sparse F} {A : Matrix (Fin n) (Fin n) K}
    (hA : MatFl fl A₀ A) :
    (∃ (X₀ : Sparse F) (X L U P : Matrix (Fin n) (Fin n) K) (r : Sparse F × Sparse F × Sparse F × Nat),
      inverse (fun a => |fl a|) eps (fun A _ _ => doolittleSparse (fun a => |fl a|) eps A) A₀ = .ok X₀ ∧ MatFl fl X₀ X ∧
      doolittleSparse (fun a => |fl a|) eps A₀ = .ok r ∧ MatFl fl r.1 L ∧ MatFl fl r.2.1 U ∧ MatFl fl r.2.2.1 P ∧
      ∀ j, ∃ ΔA : Matrix (Fin n) (Fin n) K, (∀ i, ((A + ΔA) * X) i j = if i = j then 1 else 0) ∧
        ∀ i k, |ΔA i k| ≤ (3 * gam u n + gam u n ^ 2) * luSize L U P i k) ∨
    inverse (fun a => |fl a|) eps (fun A _ _ => doolittleSparse (fun a => |fl a|) eps A) A₀ = .error (.exc .singular) := by
  rcases C77_doolittle_sparse h heps hA with ⟨r, h1, h2⟩ | h1
  · have hi : inverse (fun a => |fl a|) eps (fun A _ _ => doolittleSparse (fun a => |fl a|) eps A) A₀
        = inverseLUP (fun a => |fl a|) eps r.1 r.2.1 r.2.2.1 := by
      unfold inverse
      simp only [h1, ok_bind]
    rw [hi, h1]
    obtain ⟨L, U, P, σ, hL, hU, hP, l1, l2, -, p1, -, E, e1, e2⟩ := h2
    have hPv : ∀ i j : Fin n, LawfulStore.val r.2.2.1 i j = if j = σ i then 1 else 0 := by
      intro i j
      apply h.inj
      rw [hP.val, p1]
      split
      · exact h.one.symm
      · exact h.zero.symm
    have hinv := inverseLUP_store (sparse_permExact h) (fun a => |fl a|) eps hL.sq hU.sq hP.sq hPv (fun b hb => by
      rcases C76_solve h heps hL hU (vecFl_of (fl := fl) hb) with ⟨-, x₀, x, ΔL, ΔU, s1, s2, s3, s4, s5⟩ | ⟨s1, s2⟩
      · rw [s1]; exact s2.1
      · rw [s2]; rfl)
    cases hr : inverseLUP (fun a => |fl a|) eps r.1 r.2.1 r.2.2.1 with
    | error e => rw [hr] at hinv; exact Or.inr (by rw [show e = _ from hinv])
    | ok X₀ =>
      rw [hr] at hinv
      obtain ⟨x1, x2⟩ := hinv
      refine Or.inl ⟨X₀, Matrix.of fun i j => fl (LawfulStore.val X₀ i j), L, U, P, r, rfl, matFl_of x1.valid x1.hr x1.hc, rfl, hL, hU, hP, fun j => ?_⟩
      obtain ⟨pb, x, q1, q2, q3, q4⟩ := x2 j
      have hpb : VecFl fl pb n (fun i => if σ i = j then (1 : K) else 0) := by
        refine ⟨q1, fun i => ⟨_, vecAt_get (by rw [q1]; exact i.2), ?_⟩⟩
        rw [q2]
        show fl _ = if σ i = j then (1 : K) else 0
        split
        · exact h.one
        · exact h.zero
      rcases C76_solve h heps hL hU hpb with ⟨-, x₀, x', ΔL, ΔU, s1, s2, s3, s4, s5⟩ | ⟨s1, s2⟩
      · rw [q3] at s1; cases s1
        obtain ⟨ΔA, a1, a2⟩ := compose_solve (b := fun i => if i = j then (1 : K) else 0)
          (gam_nonneg h.u_nonneg h.u_lt) p1 l2 e1 e2 s4 s5 s3
        refine ⟨ΔA, fun i => ?_, a2⟩
        rw [← congrFun a1 i, Matrix.mul_apply, Matrix.mulVec, dotProduct]
        refine Finset.sum_congr rfl fun k _ => ?_
        have : fl (LawfulStore.val X₀ k j) = x' k := by rw [q4, s2.getD]
        rw [Matrix.of_apply, this]
      · rw [q3] at s2; cases s2
  · refine Or.inr ?_
    unfold inverse
    simp only [h1, error_bind]

/-- three significant bits: the inverse of `[3 0; 0 2]` comes out as `[5/16 0; 0 1/2]` -/
example : (do
    let m ← Sparse.mk' 2 2
    let m ← m.set 0 0 (Bin.rnd 3 : Bin 2)
    let m ← m.set 1 1 (Bin.rnd 2)
    let X ← inverse (fun a => |Bin.toRat a|) (0 : ℚ) (fun A _ _ => doolittleSparse (fun a => |Bin.toRat a|) 0 A) m
    let a ← X.at' 0 0
    let b ← X.at' 0 1
    let c ← X.at' 1 1
    return [a, b, c]) = .ok [Bin.rnd (5 / 16), 0, Bin.rnd (1 / 2)] := by decide +kernel
end

/-! ## C79: the determinant -/
section
variable {M : Type} [MatOps M F] [LawfulStore M F] [Neg F] {n : Nat}

theorem det_of_fact {A L U P E : Matrix (Fin n) (Fin n) K} {σ : Equiv.Perm (Fin n)} {pc : Nat} {g : K}
    (l1 : ∀ i, L i i = 1) (l2 : ∀ i j, i < j → L i j = 0)
    (hP : ∀ i j, P i j = if j = σ i then 1 else 0) (hs : (Equiv.Perm.sign σ : ℤ) = (-1) ^ pc)
    (hE : P * A + E = L * triu U) (bE : ∀ i j, |E i j| ≤ g * (mabs L * mabs (triu U)) i j) :
    ∃ ΔA : Matrix (Fin n) (Fin n) K, (A + ΔA).det = (-1) ^ pc * ∏ i, U i i ∧ ∀ i j, |ΔA i j| ≤ g * luSize L U P i j := by
  obtain ⟨p1, p2⟩ := perm_parts hP
  refine ⟨Pᵀ * E, ?_, fun i j => ?_⟩
  · have hm : (A + Pᵀ * E).submatrix σ id = L * triu U := by
      rw [← hE]
      ext i j
      rw [Matrix.submatrix_apply, Matrix.add_apply, p2, Matrix.add_apply, p1]
      simp
    have hd := congrArg Matrix.det hm
    have hU : (triu U).det = ∏ i, U i i := by
      have hu : (triu U).BlockTriangular id := fun i j hij => if_neg (not_le.2 hij)
      rw [Matrix.det_of_isUpperTriangular hu]
      exact Finset.prod_congr rfl fun i _ => if_pos le_rfl
    have hL : L.det = 1 := by
      rw [Matrix.det_of_isLowerTriangular L (fun i j hij => l2 i j hij)]
      exact Finset.prod_eq_one fun i _ => l1 i
    rw [Matrix.det_permute, Matrix.det_mul, hL, one_mul, hU] at hd
    have hs' : ((Equiv.Perm.sign σ : ℤ) : K) = (-1) ^ pc := by rw [hs]; push_cast; rfl
    rw [hs'] at hd
    rw [← hd, ← mul_assoc, ← pow_add, Even.neg_one_pow ⟨pc, rfl⟩, one_mul]
  · rw [p2, luSize, p2]
    exact bE _ _

/-- What `determinant` guarantees in floating point: the factorisation failed and the result is zero, or the result is the determinant
of a matrix close to `A` up to a relative error `gam u n`. -/
def DetFl (fl : F → K) (u : K) (n : Nat) (A : Matrix (Fin n) (Fin n) K) (f : R (M × M × M × Nat)) (d : F) : Prop :=
  (f = .error (.exc .singular) ∧ d = 0) ∨
  ∃ (r : M × M × M × Nat) (L U P ΔA : Matrix (Fin n) (Fin n) K) (t : K), f = .ok r ∧
    MatFl fl r.1 L ∧ MatFl fl r.2.1 U ∧ MatFl fl r.2.2.1 P ∧ fl d = (A + ΔA).det * t ∧ |t - 1| ≤ gam u n ∧
    ∀ i j, |ΔA i j| ≤ gam u n * luSize L U P i j

theorem det_round (h : Std fl u) (hneg : fl (-1) = -1) {doo : M → M → M → R (M × M × M × Nat)}
    {A₀ : M} {A : Matrix (Fin n) (Fin n) K} (hA : MatFl fl A₀ A)
    (hd : ∀ L₀ P₀ : M, MatFl fl L₀ (0 : Matrix (Fin n) (Fin n) K) → MatFl fl P₀ (0 : Matrix (Fin n) (Fin n) K) →
      (∃ r, doo A₀ L₀ P₀ = .ok r ∧ DoolittledFl fl u n A r) ∨ doo A₀ L₀ P₀ = .error (.exc .singular)) :
    ∃ (Z : M) (d : F), MatFl fl Z (0 : Matrix (Fin n) (Fin n) K) ∧ make n n = .ok Z ∧
      determinant doo A₀ = .ok d ∧ DetFl fl u n A (doo A₀ Z Z) d := by
  have hn := hA.sq.pos
  obtain ⟨Z, z1, z2, z3, z4, z5⟩ := LawfulStore.make_ok (M := M) hn hn
  have hZ : MatFl fl Z (0 : Matrix (Fin n) (Fin n) K) :=
    ⟨z2, z3, z4, fun i j => ⟨0, by rw [LawfulStore.get_ok z2 (by rw [z3]; exact i.2) (by rw [z4]; exact j.2), z5], h.zero⟩⟩
  have hdet : determinant doo A₀ = catchMath (do
      let r ← doo A₀ Z Z
      forRange 0 (rows r.2.1) (if r.2.2.2 % 2 = 0 then (1 : F) else -1) fun i det => do
        let u ← get r.2.1 i i
        return det * u) 0 := by
    unfold determinant
    simp only [hA.2.1, hA.2.2.1, z1, ok_bind]
  rcases hd Z Z hZ hZ with ⟨r, h1, L, U, P, σ, hL, hU, hP, l1, l2, -, p1, hs, E, e1, e2⟩ | h1
  · obtain ⟨x, x1, t, x2, x3⟩ := prodLoop_round h hU.sq (if r.2.2.2 % 2 = 0 then (1 : F) else -1)
    obtain ⟨ΔA, a1, a2⟩ := det_of_fact l1 l2 p1 hs e1 e2
    refine ⟨Z, x, hZ, z1, ?_, Or.inr ⟨r, L, U, P, ΔA, t, h1, hL, hU, hP, ?_, x2.abs_sub h.u_lt, a2⟩⟩
    · rw [hdet, h1]
      simp only [ok_bind, hU.2.1]
      rw [x1]; rfl
    · rw [x3, a1, Finset.prod_range]
      congr 2
      · split
        · rename_i he; rw [Even.neg_one_pow (Nat.even_iff.2 he), h.one]
        · rename_i he; rw [Odd.neg_one_pow (Nat.odd_iff.2 (by omega)), hneg]
      · exact Finset.prod_congr rfl fun i _ => hU.val i i
  · refine ⟨Z, 0, hZ, z1, ?_, Or.inl ⟨h1, rfl⟩⟩
    rw [hdet, h1]
    simp only [error_bind, catchMath, Exc.isMath, if_true]

/-- C79: `determinant` of a dense matrix never throws and returns the determinant of a matrix close to `A` up to a relative error
`gam u n`, or zero if a pivot is not larger than the threshold. -/
theorem C79_determinant_dense (h : Std fl u) (hneg : fl (-1) = -1) {eps : K} (heps : 0 ≤ eps) {A₀ : M}
    {A : Matrix (Fin n) (Fin n) K} (hA : MatFl fl A₀ A) :
    ∃ (Z : M) (d : F), MatFl fl Z (0 : Matrix (Fin n) (Fin n) K) ∧ make n n = .ok Z ∧
      determinant (doolittleBase (fun a => |fl a|) eps) A₀ = .ok d ∧
      DetFl fl u n A (doolittleBase (fun a => |fl a|) eps A₀ Z Z) d :=
  det_round h hneg hA fun _ _ hL hP => C77_doolittle_dense h heps hA hL hP

/-- C79, sparse overload. -/
theorem C79_determinant_sparse (h : Std fl u) (hneg : fl (-1) = -1) {eps : K} (heps : 0 ≤ eps) {A₀ : M}
    {A : Matrix (Fin n) (Fin n) K} (hA : MatFl fl A₀ A) :
    ∃ d : F, determinant (fun A _ _ => doolittleSparse (fun a => |fl a|) eps A) A₀ = .ok d ∧
      DetFl fl u n A (doolittleSparse (fun a => |fl a|) eps A₀) d := by
  obtain ⟨Z, d, -, -, h1, h2⟩ := det_round (doo := fun A _ _ => doolittleSparse (fun a => |fl a|) eps A) h hneg hA
    fun _ _ _ _ => C77_doolittle_sparse h heps hA
  exact ⟨d, h1, h2⟩

/-- three significant bits: `det [3 1; 1 1]` gives `9/4 -> 5/2` instead of 2 -/
example : determinant (doolittleBase (fun a => |Bin.toRat a|) (0 : ℚ)) (⟨[Bin.rnd 3, 1, 1, 1], 2, 2⟩ : Dense (Bin 2))
    = .ok (Bin.rnd (5 / 2)) := by decide +kernel
example : Bin.toRat (-1 : Bin 2) = -1 := rfl
end
end NS.Props.Rounding

/-
Property theorems C27-C31, C33, C34: LU decompositions, triangular solves, determinant and inverse.

Everything is stated for an arbitrary matrix class `M` with the laws of `LawfulMat` (`Verif/Mat.lean`), which
hold for `SparseMatrix` and for `DenseMatrix`/`FixedMatrix`.  `IsMat m n A` says that `m` is a well-formed
`n x n` matrix object whose `at(i,j)` returns the entries of the mathematical matrix `A`;
`sparse_valid`/`dense_valid` show that every object reachable through the public API is well-formed.
`absv` is `std::abs` (any absolute value on the field `T`, so real and complex scalars are covered) and
`eps` is `numeric_limits::epsilon()`.
-/
import Verif.LUMore
import Verif.LUInv
import Verif.Props.Sparse
import Verif.Props.Dense
import Mathlib.Algebra.Order.Field.Rat
import Mathlib.Data.Rat.Defs
import Mathlib.Analysis.Real.Sqrt

set_option linter.unusedSectionVars false
set_option linter.unusedSimpArgs false

namespace NS.Props.LU
open NS NS.MatOps NS.LawfulMat NS.LU NS.Operations
variable {M T V : Type} [Field T] [DecidableEq T] [MatOps M T] [LawfulMat M T]

/-- `m` is a well-formed `n x n` matrix object and `at(i,j)` returns `A i j`. -/
def IsMat (m : M) (n : Nat) (A : Matrix (Fin n) (Fin n) T) : Prop :=
  Valid m ∧ rows m = n ∧ cols m = n ∧ ∀ i j : Fin n, get m i j = .ok (A i j)

theorem sparse_valid {s : Sparse T} (h : Sparse.Reach s) : Valid s := Sparse.Reach.inv h
theorem dense_valid {d : Dense T} (h : Props.Dense.Reach d) : Valid d := Props.Dense.Reach.wf h

theorem IsMat.sq {m : M} {n} {A : Matrix (Fin n) (Fin n) T} (h : IsMat m n A) : Sq n m := ⟨h.1, h.2.1, h.2.2.1⟩
theorem IsMat.val_eq {m : M} {n} {A : Matrix (Fin n) (Fin n) T} (h : IsMat m n A) (i j : Fin n) : val m i j = A i j := by
  have := h.2.2.2 i j
  rw [h.sq.get i.2 j.2] at this
  exact Except.ok.inj this
theorem IsMat.toMat_eq {m : M} {n} {A : Matrix (Fin n) (Fin n) T} (h : IsMat m n A) : toMat n m = A := by
  ext i j; exact h.val_eq i j
theorem isMat_of {m : M} {n} (h : Sq n m) : IsMat m n (toMat n m) :=
  ⟨h.valid, h.hr, h.hc, fun i j => h.get i.2 j.2⟩
theorem IsMat.zero {m : M} {n} (h : IsMat m n (0 : Matrix (Fin n) (Fin n) T)) (i j : Nat) : val m i j = 0 := by
  by_cases hij : i < n ∧ j < n
  · exact h.val_eq ⟨i, hij.1⟩ ⟨j, hij.2⟩
  · exact h.sq.zero hij

/-- every object matrix of the right shape is described by some mathematical matrix -/
theorem exists_isMat {m : M} (h : Valid m) {n : Nat} (hr : rows m = n) (hc : cols m = n) :
    ∃ A, IsMat m n A := ⟨toMat n m, isMat_of ⟨h, hr, hc⟩⟩

/-- `P` is the matrix of the permutation `σ`: row `i` has a one in column `σ i` and zeros elsewhere. -/
def IsPerm {n : Nat} (σ : Equiv.Perm (Fin n)) (P : Matrix (Fin n) (Fin n) T) : Prop :=
  ∀ i j, P i j = if j = σ i then 1 else 0
def UnitLower {n : Nat} (L : Matrix (Fin n) (Fin n) T) : Prop := (∀ i, L i i = 1) ∧ ∀ i j, i < j → L i j = 0
def Upper {n : Nat} (U : Matrix (Fin n) (Fin n) T) : Prop := ∀ i j, j < i → U i j = 0
def Lower {n : Nat} (L : Matrix (Fin n) (Fin n) T) : Prop := ∀ i j, i < j → L i j = 0

variable [Field V] [LinearOrder V] [IsStrictOrderedRing V]

/-- The result of a successful `doolittle`. -/
def Doolittled (absv : AbsoluteValue T V) (n : Nat) (A : Matrix (Fin n) (Fin n) T) (r : M × M × M × Nat) : Prop :=
  ∃ (L U P : Matrix (Fin n) (Fin n) T) (σ : Equiv.Perm (Fin n)),
    IsMat r.1 n L ∧ IsMat r.2.1 n U ∧ IsMat r.2.2.1 n P ∧
    P * A = L * U ∧ UnitLower L ∧ Upper U ∧ IsPerm σ P ∧ (Equiv.Perm.sign σ : ℤ) = (-1) ^ r.2.2.2 ∧
    ∀ i j, absv (L i j) ≤ 1

theorem doolittled_of_fact {absv : AbsoluteValue T V} {n : Nat} {A₀ : M} {A : Matrix (Fin n) (Fin n) T}
    (hA : IsMat A₀ n A) {r : M × M × M × Nat} {σ} (h : Fact absv n A₀ r.1 r.2.1 r.2.2.1 r.2.2.2 σ) :
    Doolittled absv n A r := by
  obtain ⟨-, -, e3, -⟩ := fact_parts h
  refine ⟨_, _, _, σ, isMat_of h.sqL, isMat_of h.sqU, isMat_of h.sqP, ?_, ⟨fun i => ?_, fun i j hij => ?_⟩,
    fun i j hij => h.upper i j hij, h.pval, h.sgn, fun i j => h.bound i j⟩
  · rw [← hA.toMat_eq, e3]
  · show val r.1 i i = 1
    rw [h.lower _ _ (le_refl _) i.2, if_pos rfl]
  · show val r.1 i j = 0
    have : (i : Nat) < j := hij
    rw [h.lower _ _ (le_of_lt this) j.2, if_neg (by omega)]

/-- C27/C28, dense overload: on square `A` with zero `L`,`P` of the same shape the call either returns a
pivoted factorisation `P*A = L*U` (unit lower `L` with multipliers of absolute value at most one, upper `U`,
permutation `P`, pivot count of the right parity) or throws `SingularException`; with zero threshold the
latter happens only when `det A = 0`. -/
theorem C27_doolittle_dense (absv : AbsoluteValue T V) {eps : V} (heps : 0 ≤ eps) {n : Nat} {A₀ L₀ P₀ : M}
    {A : Matrix (Fin n) (Fin n) T} (hA : IsMat A₀ n A) (hL : IsMat L₀ n (0 : Matrix (Fin n) (Fin n) T))
    (hP : IsMat P₀ n (0 : Matrix (Fin n) (Fin n) T)) :
    (∃ r, doolittleBase absv eps A₀ L₀ P₀ = .ok r ∧ Doolittled absv n A r) ∨
    (doolittleBase absv eps A₀ L₀ P₀ = .error (.exc .singular) ∧ (eps = 0 → A.det = 0)) := by
  have := (doolittleBase_spec (M := M) absv heps).1 n A₀ L₀ P₀ hA.sq hL.sq hP.sq hL.zero hP.zero
  cases hr : doolittleBase absv eps A₀ L₀ P₀ with
  | ok r => rw [hr] at this; obtain ⟨σ, hf⟩ := this; exact Or.inl ⟨r, rfl, doolittled_of_fact hA hf⟩
  | error e =>
    rw [hr] at this; obtain ⟨rfl, h0⟩ := this
    exact Or.inr ⟨rfl, fun he => by rw [← hA.toMat_eq]; exact h0 he⟩

/-- C27/C28, sparse overload (no requirement on the previous content of `L` and `P`). -/
theorem C27_doolittle_sparse (absv : AbsoluteValue T V) {eps : V} (heps : 0 ≤ eps) {n : Nat} {A₀ : M}
    {A : Matrix (Fin n) (Fin n) T} (hA : IsMat A₀ n A) :
    (∃ r, doolittleSparse absv eps A₀ = .ok r ∧ Doolittled absv n A r) ∨
    (doolittleSparse absv eps A₀ = .error (.exc .singular) ∧ (eps = 0 → A.det = 0)) := by
  have := doolittleSparse_spec' (M := M) absv heps hA.sq
  cases hr : doolittleSparse absv eps A₀ with
  | ok r => rw [hr] at this; obtain ⟨σ, hf⟩ := this; exact Or.inl ⟨r, rfl, doolittled_of_fact hA hf⟩
  | error e =>
    rw [hr] at this; obtain ⟨rfl, h0⟩ := this
    exact Or.inr ⟨rfl, fun he => by rw [← hA.toMat_eq]; exact h0 he⟩

/-- C27 fails without the proviso: a dense `L` that is not zero on entry keeps its old upper triangle. -/
theorem C27_dirty_output_negation :
    ∃ (A₀ L₀ P₀ : Dense ℚ) (r : Dense ℚ × Dense ℚ × Dense ℚ × Nat),
      doolittleBase (AbsoluteValue.abs : AbsoluteValue ℚ ℚ) 0 A₀ L₀ P₀ = .ok r ∧ r.1.at' 0 1 = .ok 7 :=
  ⟨⟨[1, 0, 0, 1], 2, 2⟩, ⟨[0, 7, 0, 0], 2, 2⟩, ⟨[0, 0, 0, 0], 2, 2⟩,
    (⟨[1, 7, 0, 1], 2, 2⟩, ⟨[1, 0, 0, 1], 2, 2⟩, ⟨[1, 0, 0, 1], 2, 2⟩, 0), by decide +kernel, by decide +kernel⟩

/-- C28: `NotSquareException` is thrown exactly for non-square input (dense overload; `L` and `P` may have
any shape). -/
theorem C28_notSquare_dense (absv : AbsoluteValue T V) {eps : V} (heps : 0 ≤ eps) {A₀ L₀ P₀ : M}
    (hA : Valid A₀) (hL : Valid L₀) (hP : Valid P₀) (zL : ∀ i j, val L₀ i j = 0) (zP : ∀ i j, val P₀ i j = 0) :
    doolittleBase absv eps A₀ L₀ P₀ = .error (.exc .notSquare) ↔ rows A₀ ≠ cols A₀ := by
  constructor
  · intro h hsq
    by_cases hs : rows A₀ ≠ rows L₀ ∨ cols A₀ ≠ cols L₀ ∨ rows A₀ ≠ rows P₀ ∨ cols A₀ ≠ cols P₀
    · unfold doolittleBase at h
      rw [throwIf_false _ (by simpa using hsq), throwIf_true _ hs] at h
      cases h
    · have := (doolittleBase_spec (M := M) absv heps).1 (rows A₀) A₀ L₀ P₀ ⟨hA, rfl, hsq.symm⟩
        ⟨hL, by omega, by omega⟩ ⟨hP, by omega, by omega⟩ zL zP
      rw [h] at this
      cases this.1
  · exact (doolittleBase_spec (M := M) absv heps).2 A₀ L₀ P₀

/-- C28, sparse overload. -/
theorem C28_notSquare_sparse (absv : AbsoluteValue T V) {eps : V} (heps : 0 ≤ eps) {A₀ : M} (hA : Valid A₀) :
    doolittleSparse absv eps A₀ = .error (.exc .notSquare) ↔ rows A₀ ≠ cols A₀ := by
  constructor
  · intro h hsq
    have := doolittleSparse_spec' (M := M) absv heps (n := rows A₀) ⟨hA, rfl, hsq.symm⟩
    rw [h] at this
    cases this.1
  · intro h; unfold doolittleSparse; rw [throwIf_true _ h]; rfl

/-- wrongly shaped outputs are reported (dense overload) -/
theorem C28_invalidOutput (absv : AbsoluteValue T V) (eps : V) {A₀ L₀ P₀ : M} (hsq : rows A₀ = cols A₀)
    (h : rows L₀ ≠ rows A₀ ∨ cols L₀ ≠ cols A₀ ∨ rows P₀ ≠ rows A₀ ∨ cols P₀ ≠ cols A₀) :
    doolittleBase absv eps A₀ L₀ P₀ = .error (.exc .invalidOutputMatrix) := by
  unfold doolittleBase
  rw [throwIf_false _ (by simpa using hsq), throwIf_true _ (by omega)]; rfl

/-- a 3 x 3 example with row exchanges -/
example : (doolittleBase (AbsoluteValue.abs : AbsoluteValue ℚ ℚ) 0 (⟨[0, 1, 2, 2, 3, 1, 4, 1, 1], 3, 3⟩ : Dense ℚ)
    ⟨[0, 0, 0, 0, 0, 0, 0, 0, 0], 3, 3⟩ ⟨[0, 0, 0, 0, 0, 0, 0, 0, 0], 3, 3⟩) =
    .ok (⟨[1, 0, 0, 1/2, 1, 0, 0, 2/5, 1], 3, 3⟩, ⟨[4, 1, 1, 0, 5/2, 1/2, 0, 0, 9/5], 3, 3⟩,
      ⟨[0, 0, 1, 0, 1, 0, 1, 0, 0], 3, 3⟩, 1) := by decide +kernel

example : IsMat (⟨[0, 1, 2, 3], 2, 2⟩ : Dense ℚ) 2 !![0, 1; 2, 3] := by
  refine ⟨⟨rfl, by decide, by decide⟩, rfl, rfl, ?_⟩
  decide +kernel

/-! ### C29: determinant -/

/-- C29, dense: with zero threshold `determinant` returns `det A` for square `A`. -/
theorem C29_determinant_dense (absv : AbsoluteValue T V) {n : Nat} {A₀ : M}
    {A : Matrix (Fin n) (Fin n) T} (hA : IsMat A₀ n A) :
    determinant (doolittleBase absv (0 : V)) A₀ = .ok A.det := by
  rcases determinant_ok absv 0 _ (doolittleBase_spec (M := M) absv (le_refl _)) hA.sq with h | h
  · rw [h, hA.toMat_eq]
  · exact absurd rfl h.1

/-- C29, sparse. -/
theorem C29_determinant_sparse (absv : AbsoluteValue T V) {n : Nat} {A₀ : M}
    {A : Matrix (Fin n) (Fin n) T} (hA : IsMat A₀ n A) :
    determinant (fun A _ _ => doolittleSparse absv (0 : V) A) A₀ = .ok A.det := by
  rcases determinant_ok absv 0 _ (doolittleSparse_spec (M := M) absv (le_refl _)) hA.sq with h | h
  · rw [h, hA.toMat_eq]
  · exact absurd rfl h.1

/-- C29: for any threshold the result is `det A` or `0`; the call never throws. -/
theorem C29_determinant_any_threshold (absv : AbsoluteValue T V) {eps : V} (heps : 0 ≤ eps) {n : Nat} {A₀ : M}
    {A : Matrix (Fin n) (Fin n) T} (hA : IsMat A₀ n A) :
    (determinant (doolittleBase absv eps) A₀ = .ok A.det ∨ determinant (doolittleBase absv eps) A₀ = .ok 0) ∧
    (determinant (fun A _ _ => doolittleSparse absv eps A) A₀ = .ok A.det ∨
      determinant (fun A _ _ => doolittleSparse absv eps A) A₀ = .ok 0) := by
  have h1 := determinant_ok absv eps _ (doolittleBase_spec (M := M) absv heps) hA.sq
  have h2 := determinant_ok absv eps _ (doolittleSparse_spec (M := M) absv heps) hA.sq
  rw [hA.toMat_eq] at h1 h2
  exact ⟨h1.imp id (·.2), h2.imp id (·.2)⟩

/-- C29: non-square input gives 0, without an exception. -/
theorem C29_determinant_nonsquare (absv : AbsoluteValue T V) {eps : V} (heps : 0 ≤ eps) {A₀ : M} (hA : Valid A₀)
    (h : rows A₀ ≠ cols A₀) :
    determinant (doolittleBase absv eps) A₀ = .ok 0 ∧
    determinant (fun A _ _ => doolittleSparse absv eps A) A₀ = .ok 0 :=
  ⟨determinant_nonsquare absv eps _ (doolittleBase_spec (M := M) absv heps) hA h,
   determinant_nonsquare absv eps _ (doolittleSparse_spec (M := M) absv heps) hA h⟩

example : determinant (doolittleBase (AbsoluteValue.abs : AbsoluteValue ℚ ℚ) (0 : ℚ))
    (⟨[0, 1, 2, 2, 3, 1, 4, 1, 1], 3, 3⟩ : Dense ℚ) = .ok (-18) := by decide +kernel
/-- a singular matrix -/
example : determinant (doolittleBase (AbsoluteValue.abs : AbsoluteValue ℚ ℚ) (0 : ℚ))
    (⟨[1, 2, 2, 4], 2, 2⟩ : Dense ℚ) = .ok 0 := by decide +kernel

/-! ### C30: triangular solves -/

/-- lower triangle of a matrix, including the diagonal -/
def tril {n : Nat} (A : Matrix (Fin n) (Fin n) T) : Matrix (Fin n) (Fin n) T := fun i j => if j ≤ i then A i j else 0
/-- upper triangle of a matrix, including the diagonal -/
def triu {n : Nat} (A : Matrix (Fin n) (Fin n) T) : Matrix (Fin n) (Fin n) T := fun i j => if i ≤ j then A i j else 0

/-- `x` is the vector object with the entries of `v` -/
def IsVec (x : List T) (n : Nat) (v : Fin n → T) : Prop := x.length = n ∧ ∀ i : Fin n, vecAt x i = .ok (v i)

omit [DecidableEq T] in
theorem IsVec.toVec_eq {x : List T} {n} {v : Fin n → T} (h : IsVec x n v) : toVec n x = v := by
  funext i
  have := h.2 i
  rw [vecAt_get (by rw [h.1]; exact i.2)] at this
  exact Except.ok.inj this
omit [DecidableEq T] in
theorem isVec_of {x : List T} {n} (h : x.length = n) : IsVec x n (toVec n x) :=
  ⟨h, fun i => vecAt_get (by rw [h]; exact i.2)⟩

theorem lowerPart_eq {m : M} {n} {A : Matrix (Fin n) (Fin n) T} (h : IsMat m n A) : lowerPart n m = tril A := by
  ext i j; simp only [lowerPart, tril, h.val_eq]
theorem upperPart_eq {m : M} {n} {A : Matrix (Fin n) (Fin n) T} (h : IsMat m n A) : upperPart n m = triu A := by
  ext i j; simp only [upperPart, triu, h.val_eq]

/-- C30: `solve_lu` throws `SingularException` exactly when some diagonal entry of `L` or `U` is at most the
threshold in absolute value, and otherwise returns `x` with `tril(L)*triu(U)*x = b`. -/
theorem C30_solve (absv : AbsoluteValue T V) {eps : V} (heps : 0 ≤ eps) {n : Nat} {L₀ U₀ : M} {b₀ : List T}
    {L U : Matrix (Fin n) (Fin n) T} {b : Fin n → T} (hL : IsMat L₀ n L) (hU : IsMat U₀ n U) (hb : IsVec b₀ n b) :
    ((∀ i, eps < absv (L i i) ∧ eps < absv (U i i)) ∧
      ∃ x₀ x, solveLu absv eps L₀ U₀ b₀ = .ok x₀ ∧ IsVec x₀ n x ∧ (tril L * triu U).mulVec x = b) ∨
    ((∃ i, absv (L i i) ≤ eps ∨ absv (U i i) ≤ eps) ∧ solveLu absv eps L₀ U₀ b₀ = .error (.exc .singular)) := by
  have := solveLu_mat absv eps hL.sq hU.sq hb.1
  cases hr : solveLu absv eps L₀ U₀ b₀ with
  | error e =>
    rw [hr] at this
    obtain ⟨rfl, a, ha, h⟩ := this
    refine Or.inr ⟨⟨⟨a, ha⟩, ?_⟩, rfl⟩
    rw [← hL.val_eq, ← hU.val_eq]; exact h
  | ok x₀ =>
    rw [hr] at this
    obtain ⟨x1, x2, x3⟩ := this
    have hd : ∀ i : Fin n, eps < absv (L i i) ∧ eps < absv (U i i) := fun i => by
      have := x2 i i.2
      rw [hL.val_eq, hU.val_eq] at this
      exact ⟨not_le.1 this.1, not_le.1 this.2⟩
    refine Or.inl ⟨hd, x₀, _, rfl, isVec_of x1, ?_⟩
    rw [← lowerPart_eq hL, ← upperPart_eq hU, ← hb.toVec_eq]
    apply x3
    intro a ha
    have e1 := hL.val_eq ⟨a, ha⟩ ⟨a, ha⟩
    have e2 := hU.val_eq ⟨a, ha⟩ ⟨a, ha⟩
    have := hd ⟨a, ha⟩
    simp only at e1 e2
    rw [e1, e2]
    constructor
    · intro h0; rw [h0, map_zero] at this; exact absurd this.1 (not_lt.2 heps)
    · intro h0; rw [h0, map_zero] at this; exact absurd this.2 (not_lt.2 heps)

/-- C30: the shape checks, in their order. -/
theorem C30_shape_errors (absv : AbsoluteValue T V) (eps : V) (L₀ U₀ : M) (b₀ : List T) :
    (rows L₀ ≠ cols L₀ → solveLu absv eps L₀ U₀ b₀ = .error (.exc .notSquare)) ∧
    (rows L₀ = cols L₀ → rows U₀ ≠ cols U₀ → solveLu absv eps L₀ U₀ b₀ = .error (.exc .notSquare)) ∧
    (rows L₀ = cols L₀ → rows U₀ = cols U₀ → rows L₀ ≠ rows U₀ →
      solveLu absv eps L₀ U₀ b₀ = .error (.exc .matrixSizeMismatch)) ∧
    (rows L₀ = cols L₀ → rows U₀ = cols U₀ → rows L₀ = rows U₀ → rows L₀ ≠ b₀.length →
      solveLu absv eps L₀ U₀ b₀ = .error (.exc .matrixVectorMismatch)) := by
  unfold solveLu
  refine ⟨fun h => ?_, fun h1 h2 => ?_, fun h1 h2 h3 => ?_, fun h1 h2 h3 h4 => ?_⟩
  · rw [throwIf_true _ h]; rfl
  · rw [throwIf_false _ (by simpa using h1), throwIf_true _ h2]; rfl
  · rw [throwIf_false _ (by simpa using h1), throwIf_false _ (by simpa using h2), throwIf_true _ h3]; rfl
  · rw [throwIf_false _ (by simpa using h1), throwIf_false _ (by simpa using h2), throwIf_false _ (by simpa using h3),
      throwIf_true _ h4]; rfl

theorem tril_unitLower {n : Nat} {L : Matrix (Fin n) (Fin n) T} (h : UnitLower L) : tril L = L := by
  ext i j; unfold tril; split
  · rfl
  · rename_i hh; exact (h.2 _ _ (not_le.1 hh)).symm
theorem triu_upper {n : Nat} {U : Matrix (Fin n) (Fin n) T} (h : Upper U) : triu U = U := by
  ext i j; unfold triu; split
  · rfl
  · rename_i hh; exact (h _ _ (not_le.1 hh)).symm

theorem isPerm_mulVec {n : Nat} {σ : Equiv.Perm (Fin n)} {P : Matrix (Fin n) (Fin n) T} (h : IsPerm σ P) (v : Fin n → T) :
    P.mulVec v = v ∘ σ := by
  funext i
  unfold Matrix.mulVec dotProduct
  rw [Finset.sum_eq_single (σ i)]
  · show P i (σ i) * v (σ i) = _
    rw [h, if_pos rfl, one_mul]; rfl
  · intro j _ hj
    show P i j * v j = 0
    rw [h, if_neg hj, zero_mul]
  · simp

/-- C30: factor with `doolittle`, permute the right-hand side with `P`, solve: the result solves `A*x = b`. -/
theorem C30_factor_and_solve (absv : AbsoluteValue T V) {eps : V} (heps : 0 ≤ eps) {n : Nat}
    {A : Matrix (Fin n) (Fin n) T} {r : M × M × M × Nat} (hr : Doolittled absv n A r)
    {b₀ pb x₀ : List T} {b : Fin n → T} (hb : IsVec b₀ n b) (hp : mulVec r.2.2.1 b₀ = .ok pb)
    (hx : solveLu absv eps r.1 r.2.1 pb = .ok x₀) : ∃ x, IsVec x₀ n x ∧ A.mulVec x = b := by
  obtain ⟨L, U, P, σ, hL, hU, hP, hLU, l1, u1, p1, -, -⟩ := hr
  obtain ⟨pb', m1, m2, m3⟩ := mulVec_ok b₀ hP.1 (by rw [hP.2.2.1, hb.1])
  rw [hp] at m1; cases m1
  rw [hP.2.1] at m2 m3
  rw [hP.2.2.1] at m3
  have hpb : IsVec pb n (P.mulVec b) := by
    refine ⟨m2, fun i => ?_⟩
    rw [vecAt_get (by rw [m2]; exact i.2), m3 i i.2, Finset.sum_range]
    congr 1
    unfold Matrix.mulVec dotProduct
    refine Finset.sum_congr rfl (fun j _ => ?_)
    rw [hP.val_eq, ← hb.toVec_eq]; rfl
  rcases C30_solve absv heps hL hU hpb with ⟨-, x₁, x, e1, e2, e3⟩ | ⟨-, h⟩
  · rw [hx] at e1; cases e1
    refine ⟨x, e2, ?_⟩
    rw [tril_unitLower l1, triu_upper u1, ← hLU, ← Matrix.mulVec_mulVec, isPerm_mulVec p1, isPerm_mulVec p1] at e3
    funext i
    have := congrFun e3 (σ.symm i)
    simpa using this
  · rw [hx] at h; cases h

/-- with zero threshold the solve never fails for non-singular `A` -/
theorem C30_no_spurious_failure (absv : AbsoluteValue T V) {n : Nat}
    {A : Matrix (Fin n) (Fin n) T} {r : M × M × M × Nat} (hr : Doolittled absv n A r) (hdet : A.det ≠ 0)
    {b₀ : List T} {b : Fin n → T} (hb : IsVec b₀ n b) : ∃ x₀, solveLu absv (0 : V) r.1 r.2.1 b₀ = .ok x₀ := by
  obtain ⟨L, U, P, σ, hL, hU, hP, hLU, l1, u1, p1, -, -⟩ := hr
  rcases C30_solve absv (le_refl _) hL hU hb with ⟨-, x₁, x, e1, -, -⟩ | ⟨⟨i, hi⟩, -⟩
  · exact ⟨x₁, e1⟩
  · exfalso
    have hdU : U.det = ∏ i, U i i := Matrix.det_of_isUpperTriangular (fun i j hij => u1 i j hij)
    have hdL : L.det = ∏ i, L i i := Matrix.det_of_isLowerTriangular L (fun i j hij => l1.2 i j hij)
    have hd := congrArg Matrix.det hLU
    rw [Matrix.det_mul, Matrix.det_mul] at hd
    have hP1 : P.det ≠ 0 := by
      have : P = (1 : Matrix (Fin n) (Fin n) T).submatrix σ id := by
        ext i j
        show P i j = (1 : Matrix (Fin n) (Fin n) T) (σ i) j
        rw [p1, Matrix.one_apply]
        by_cases hij : j = σ i
        · rw [if_pos hij, if_pos hij.symm]
        · rw [if_neg hij, if_neg (fun hh => hij hh.symm)]
      rw [this, Matrix.det_permute, Matrix.det_one, mul_one]
      rcases Int.units_eq_one_or (Equiv.Perm.sign σ) with hs | hs <;> rw [hs] <;> simp
    rcases hi with hi | hi
    · have h0 := absv.eq_zero.1 (le_antisymm hi (absv.nonneg _))
      rw [l1.1 i] at h0; exact one_ne_zero h0
    · have h0 := absv.eq_zero.1 (le_antisymm hi (absv.nonneg _))
      rw [hdU, Finset.prod_eq_zero (f := fun i => U i i) (Finset.mem_univ i) h0, mul_zero] at hd
      exact (mul_ne_zero hP1 hdet) hd

example : solveLu (AbsoluteValue.abs : AbsoluteValue ℚ ℚ) (0 : ℚ) (⟨[1, 0, 2, 1], 2, 2⟩ : Dense ℚ)
    ⟨[2, 1, 0, 4], 2, 2⟩ [3, 10] = .ok [1, 1] := by decide +kernel

/-! ### C31: Cholesky -/

/-- The matrix factored by a complete set of columns. -/
theorem cholPart_mul {n : Nat} {A₀ L₁ : M} {A : Matrix (Fin n) (Fin n) T} (hA : IsMat A₀ n A) (hsym : A.transpose = A)
    (h : CholPart n A₀ n L₁) : toMat n L₁ * (toMat n L₁).transpose = A := by
  have key : ∀ a t : Fin n, t ≤ a → (toMat n L₁ * (toMat n L₁).transpose) a t = A a t := by
    intro a t hta
    rw [Matrix.mul_apply]
    have := h.eqs t t.2 a hta a.2
    rw [Finset.sum_range, hA.val_eq] at this
    exact this
  ext a t
  rcases le_total t a with h | h
  · exact key a t h
  · have hs : A a t = A t a := by conv_lhs => rw [← hsym]
                                  rfl
    rw [hs, ← key t a h, Matrix.mul_apply, Matrix.mul_apply]
    exact Finset.sum_congr rfl (fun k _ => mul_comm _ _)

/-- C31: for symmetric `A` and zero `L`, `cholesky` throws `NotPositiveDefiniteException`, or a division `0/0` occurs, or it leaves a
lower triangular `L` without zeros on the diagonal and with `L*L^T = A`. -/
theorem C31_cholesky (sqrtAllowed : T → Bool) (nanAllowed : Bool) (sqrt : T → T)
    (hsqrt : ∀ s, sqrtAllowed s = true → sqrt s * sqrt s = s) {n : Nat} {A₀ L₀ : M}
    {A : Matrix (Fin n) (Fin n) T} (hA : IsMat A₀ n A) (hL : IsMat L₀ n (0 : Matrix (Fin n) (Fin n) T))
    (hsym : A.transpose = A) :
    cholesky sqrtAllowed nanAllowed sqrt A₀ L₀ = .error (.exc .notPositiveDefinite) ∨
    cholesky sqrtAllowed nanAllowed sqrt A₀ L₀ = .error .nonfinite ∨
    ∃ L₁ L, cholesky sqrtAllowed nanAllowed sqrt A₀ L₀ = .ok L₁ ∧ IsMat L₁ n L ∧ Lower L ∧ (∀ i, L i i ≠ 0) ∧
      L * L.transpose = A := by
  have := cholesky_ok sqrtAllowed nanAllowed sqrt hsqrt hA.sq hL.sq hL.zero
  cases hr : cholesky sqrtAllowed nanAllowed sqrt A₀ L₀ with
  | error e =>
    rw [hr] at this
    obtain ⟨-, -, -, -, ⟨rfl, -⟩ | ⟨rfl, -⟩⟩ := this
    · exact Or.inl rfl
    · exact Or.inr (Or.inl rfl)
  | ok L₁ =>
    rw [hr] at this
    obtain ⟨h1, -⟩ := this
    exact Or.inr (Or.inr ⟨L₁, toMat n L₁, rfl, isMat_of h1.sq, fun i j hij => h1.zero i j (Or.inl hij), fun i => h1.diag i i.2,
      cholPart_mul hA hsym h1⟩)

/-- the hypotheses on `sqrt` hold for real numbers with `sqrt_allowed(s) = (s >= 0)` -/
example : ∀ s : ℝ, (fun s : ℝ => decide (0 ≤ s)) s = true → Real.sqrt s * Real.sqrt s = s :=
  fun _ h => Real.mul_self_sqrt (of_decide_eq_true h)

example : cholesky (fun s : ℚ => decide (0 ≤ s)) false (fun s => if s = 4 then 2 else if s = 9 then 3 else 0)
    (⟨[4, 2, 2, 10], 2, 2⟩ : Dense ℚ) ⟨[0, 0, 0, 0], 2, 2⟩ = .ok ⟨[2, 0, 1, 3], 2, 2⟩ := by decide +kernel

/-! ### C33: ainv_lu -/

/-- C33, lower factor: for unit lower triangular `L` and zero `invL` on entry, a normal return gives lower
triangular `invL` with `L * invL = 1`; the only exception is `SingularException`. -/
theorem C33_ainv_lower_partial (absv : AbsoluteValue T V) (eps : V) {n : Nat} {L₀ U₀ X₀ Y₀ : M}
    {L U Y : Matrix (Fin n) (Fin n) T} (hL : IsMat L₀ n L) (hU : IsMat U₀ n U)
    (hX : IsMat X₀ n (0 : Matrix (Fin n) (Fin n) T)) (hY : IsMat Y₀ n Y) (hul : UnitLower L) :
    ainvLu absv eps L₀ U₀ X₀ Y₀ = .error (.exc .singular) ∨
    ∃ r X, ainvLu absv eps L₀ U₀ X₀ Y₀ = .ok r ∧ IsMat r.1 n X ∧ Lower X ∧ L * X = 1 ∧ X * L = 1 := by
  have := ainvLu_L absv eps hL.sq hU.sq hX.sq hY.sq (by
    intro i j hij hj
    rw [hL.val_eq ⟨i, by omega⟩ ⟨j, hj⟩]
    split
    · rename_i h; subst h; exact hul.1 _
    · rename_i h; exact hul.2 _ _ (show i < j by omega)) hX.zero
  cases hr : ainvLu absv eps L₀ U₀ X₀ Y₀ with
  | error e => rw [hr] at this; cases this; exact Or.inl rfl
  | ok r =>
    rw [hr] at this
    obtain ⟨h1, h2, h3, h4⟩ := this
    rw [hL.toMat_eq] at h4
    exact Or.inr ⟨r, _, rfl, isMat_of h1, fun i j hij => h3 i j hij, h4, mul_eq_one_comm.1 h4⟩

/-- C33, upper factor: for upper triangular `U` with ones on the diagonal (and `L`, `invL`, `invU` as above) the left half
of the columns of `invU`, those with `2 k ≤ n`, are the columns of the inverse of `U`.  The others are not, `C33_ainv_upper_negation`. -/
theorem C33_ainv_upper_partial (absv : AbsoluteValue T V) {eps : V} (heps : eps < 1) {n : Nat} {L₀ U₀ X₀ Y₀ : M}
    {L U : Matrix (Fin n) (Fin n) T} (hL : IsMat L₀ n L) (hU : IsMat U₀ n U)
    (hX : IsMat X₀ n (0 : Matrix (Fin n) (Fin n) T)) (hY : IsMat Y₀ n (0 : Matrix (Fin n) (Fin n) T)) (hul : UnitLower L)
    (u1 : Upper U) (u2 : ∀ i, U i i = 1) :
    ∃ (r : M × M) (Y : Matrix (Fin n) (Fin n) T), ainvLu absv eps L₀ U₀ X₀ Y₀ = .ok r ∧ IsMat r.2 n Y ∧
      ∀ i k : Fin n, 2 * (k : Nat) ≤ n → (U * Y) i k = if i = k then 1 else 0 := by
  obtain ⟨r, h1, h2, h3⟩ := ainvLu_U absv (eps := eps) (by rw [map_one]; exact not_le.2 heps) hL.sq hU.sq hX.sq hY.sq
    (fun i j hij hj => by
      have := hL.val_eq ⟨i, by omega⟩ ⟨j, hj⟩
      rw [this]
      by_cases h : i = j
      · subst h; rw [if_pos rfl, hul.1]
      · rw [if_neg h, hul.2 _ _ (Fin.mk_lt_mk.2 (lt_of_le_of_ne hij h))])
    (fun i j hij hi => by
      have := hU.val_eq ⟨i, hi⟩ ⟨j, by omega⟩
      rw [this]
      by_cases h : i = j
      · subst h; rw [if_pos rfl, u2]
      · rw [if_neg h, u1 _ _ (Fin.mk_lt_mk.2 (lt_of_le_of_ne hij (Ne.symm h)))]) hX.zero hY.zero
  refine ⟨r, _, h1, isMat_of h2, fun i k hk => ?_⟩
  have := h3 i k i.2 k.2 hk
  rw [Finset.sum_range] at this
  simp only [Fin.ext_iff, Matrix.mul_apply]
  rw [← this]
  exact Finset.sum_congr rfl fun c _ => by rw [hU.val_eq i c]; rfl

example : ∃ r, ainvLu (AbsoluteValue.abs : AbsoluteValue ℚ ℚ) (0 : ℚ) (⟨[1, 0, 3, 1], 2, 2⟩ : Dense ℚ)
      ⟨[1, 5, 0, 1], 2, 2⟩ ⟨[0, 0, 0, 0], 2, 2⟩ ⟨[0, 0, 0, 0], 2, 2⟩ = .ok r ∧ r.2.at' 0 1 = .ok (-5) :=
  ⟨(⟨[1, 0, -3, 1], 2, 2⟩, ⟨[1, -5, 0, 1], 2, 2⟩), by decide +kernel, by decide +kernel⟩

/-- C33 fails for the upper factor: already for `N = 1`, `U = [2]` the returned `invU` is `[1/4]`. -/
theorem C33_ainv_upper_negation :
    ainvLu (AbsoluteValue.abs : AbsoluteValue ℚ ℚ) (0 : ℚ) (⟨[1], 1, 1⟩ : Dense ℚ) ⟨[2], 1, 1⟩ ⟨[0], 1, 1⟩ ⟨[0], 1, 1⟩
      = .ok (⟨[1], 1, 1⟩, ⟨[1 / 4], 1, 1⟩) ∧
    ∃ r, ainvLu (AbsoluteValue.abs : AbsoluteValue ℚ ℚ) (0 : ℚ) (⟨[1, 0, 0, 0, 1, 0, 0, 0, 1], 3, 3⟩ : Dense ℚ)
      ⟨[1, 0, 0, 0, 1, 1, 0, 0, 1], 3, 3⟩ ⟨[0, 0, 0, 0, 0, 0, 0, 0, 0], 3, 3⟩ ⟨[0, 0, 0, 0, 0, 0, 0, 0, 0], 3, 3⟩
      = .ok r ∧ r.2.at' 1 2 = .ok 0 := by
  refine ⟨by decide +kernel, (⟨[1, 0, 0, 0, 1, 0, 0, 0, 1], 3, 3⟩, ⟨[1, 0, 0, 0, 1, 0, 0, 0, 1], 3, 3⟩), ?_, ?_⟩ <;>
    decide +kernel

example : ∃ r, ainvLu (AbsoluteValue.abs : AbsoluteValue ℚ ℚ) (0 : ℚ) (⟨[1, 0, 3, 1], 2, 2⟩ : Dense ℚ)
      ⟨[1, 0, 0, 1], 2, 2⟩ ⟨[0, 0, 0, 0], 2, 2⟩ ⟨[0, 0, 0, 0], 2, 2⟩ = .ok r ∧ r.1.at' 1 0 = .ok (-3) :=
  ⟨(⟨[1, 0, -3, 1], 2, 2⟩, ⟨[1, 0, 0, 1], 2, 2⟩), by decide +kernel, by decide +kernel⟩

/-! ### C34: inverse -/

/-- C34, sparse matrices: `inverse(A)` either throws `SingularException` (with zero threshold only if `det A = 0`)
or returns the two-sided inverse. -/
theorem C34_inverse_sparse (absv : AbsoluteValue T V) {eps : V} (heps : 0 ≤ eps) {n : Nat} {A₀ : M}
    {A : Matrix (Fin n) (Fin n) T} (hA : IsMat A₀ n A) :
    (∃ B₀ B, inverse absv eps (fun A _ _ => doolittleSparse absv eps A) A₀ = .ok B₀ ∧ IsMat B₀ n B ∧
      A * B = 1 ∧ B * A = 1) ∨
    (inverse absv eps (fun A _ _ => doolittleSparse absv eps A) A₀ = .error (.exc .singular) ∧
      (eps = 0 → A.det = 0)) := by
  have := inverse_sparse_ok (M := M) absv heps hA.sq
  cases hr : inverse absv eps (fun A _ _ => doolittleSparse absv eps A) A₀ with
  | ok X =>
    rw [hr] at this
    obtain ⟨h1, h2⟩ := this
    rw [hA.toMat_eq] at h2
    exact Or.inl ⟨X, _, rfl, isMat_of h1, h2, mul_eq_one_comm.1 h2⟩
  | error e =>
    rw [hr] at this
    obtain ⟨rfl, h0⟩ := this
    rw [hA.toMat_eq] at h0
    exact Or.inr ⟨rfl, h0⟩

/-- C34: `inverse(L,U,P)` of a `doolittle` factorisation is the inverse (dense and sparse). -/
theorem C34_inverse_LUP (absv : AbsoluteValue T V) {eps : V} (heps : 0 ≤ eps) {n : Nat}
    {A : Matrix (Fin n) (Fin n) T} {r : M × M × M × Nat} (hr : Doolittled absv n A r) {B₀ : M}
    (h : inverseLUP absv eps r.1 r.2.1 r.2.2.1 = .ok B₀) : ∃ B, IsMat B₀ n B ∧ A * B = 1 ∧ B * A = 1 := by
  obtain ⟨L, U, P, σ, hL, hU, hP, hLU, l1, u1, p1, -, -⟩ := hr
  have := inverseLUP_ok absv eps hL.sq hU.sq hP.sq
  rw [h] at this
  obtain ⟨h1, h2, h3⟩ := this
  have h3 := h3 (fun a ha => by
    obtain ⟨e1, e2⟩ := h2 a ha
    exact ⟨fun h0 => by rw [h0, map_zero] at e1; exact e1 heps, fun h0 => by rw [h0, map_zero] at e2; exact e2 heps⟩)
  rw [lowerPart_eq hL, upperPart_eq hU, tril_unitLower l1, triu_upper u1, ← hLU, hP.toMat_eq] at h3
  have hPs : P = (1 : Matrix (Fin n) (Fin n) T).submatrix σ id := by
    ext i j
    show P i j = (1 : Matrix (Fin n) (Fin n) T) (σ i) j
    rw [p1, Matrix.one_apply]
    by_cases hij : j = σ i
    · rw [if_pos hij, if_pos hij.symm]
    · rw [if_neg hij, if_neg (fun hh => hij hh.symm)]
  have h4 : A * toMat n B₀ = 1 := by
    apply perm_mul_inj (σ := σ)
    rw [← hPs, ← mul_assoc, h3, mul_one]
  exact ⟨_, isMat_of h1, h4, mul_eq_one_comm.1 h4⟩

/-- C34 fails for dense matrices: `inverse(m)` passes copies of `m` as `L` and `P`, whose entries survive.  For the
matrix `[[2,1],[1,2]]` (inverse `[[2/3,-1/3],[-1/3,2/3]]`) the call returns `[[1/3,1/3],[1/3,1/3]]`. -/
theorem C34_inverse_dense_negation :
    inverse (AbsoluteValue.abs : AbsoluteValue ℚ ℚ) (0 : ℚ)
      (doolittleBase (AbsoluteValue.abs : AbsoluteValue ℚ ℚ) (0 : ℚ)) (⟨[2, 1, 1, 2], 2, 2⟩ : Dense ℚ)
      = .ok ⟨[1 / 3, 1 / 3, 1 / 3, 1 / 3], 2, 2⟩ := by decide +kernel

/-- C34, `inverse(L,U)` on factors that both have ones on the diagonal: the result is the inverse of `L U`.  (For other
diagonals of `U` it is not, `C34_inverse_LU_negation`.) -/
theorem C34_inverse_LU_partial (absv : AbsoluteValue T V) {eps : V} (heps : eps < 1) {n : Nat} {L₀ U₀ : M}
    {L U : Matrix (Fin n) (Fin n) T} (hL : IsMat L₀ n L) (hU : IsMat U₀ n U) (l1 : UnitLower L) (u1 : Upper U) (u2 : ∀ i, U i i = 1) :
    ∃ (B₀ : M) (B : Matrix (Fin n) (Fin n) T), inverseLU absv eps L₀ U₀ = .ok B₀ ∧ IsMat B₀ n B ∧ L * U * B = 1 ∧ B * (L * U) = 1 := by
  obtain ⟨B₀, h1, h2, h3⟩ := inverseLU_ok absv (eps := eps) (by rw [map_one]; exact not_le.2 heps) hL.sq hU.sq
    (fun i j hij hj => by
      have := hL.val_eq ⟨i, by omega⟩ ⟨j, hj⟩
      rw [this]
      by_cases h : i = j
      · subst h; rw [if_pos rfl, l1.1]
      · rw [if_neg h, l1.2 _ _ (Fin.mk_lt_mk.2 (lt_of_le_of_ne hij h))])
    (fun i j hij hi => by
      have := hU.val_eq ⟨i, hi⟩ ⟨j, by omega⟩
      rw [this]
      by_cases h : i = j
      · subst h; rw [if_pos rfl, u2]
      · rw [if_neg h, u1 _ _ (Fin.mk_lt_mk.2 (lt_of_le_of_ne hij (Ne.symm h)))])
  rw [hL.toMat_eq, hU.toMat_eq] at h3
  exact ⟨B₀, _, h1, isMat_of h2, h3, mul_eq_one_comm.1 h3⟩

example : inverseLU (AbsoluteValue.abs : AbsoluteValue ℚ ℚ) (0 : ℚ) (⟨[1, 0, 0, 2, 1, 0, 3, 4, 1], 3, 3⟩ : Dense ℚ)
      ⟨[1, 5, 6, 0, 1, 7, 0, 0, 1], 3, 3⟩ = .ok ⟨[156, -121, 29, -37, 29, -7, 5, -4, 1], 3, 3⟩ := by decide +kernel

/-- C34 fails for `inverse(L,U)`: line 102 divides entry `(j,j)` instead of `(j,i)`.  For `L = 1`,
`U = [[2,1],[0,1]]` (inverse `[[1/2,-1/2],[0,1]]`) the call returns `[[1/4,-1],[0,1]]`. -/
theorem C34_inverse_LU_negation :
    inverseLU (AbsoluteValue.abs : AbsoluteValue ℚ ℚ) (0 : ℚ) (⟨[1, 0, 0, 1], 2, 2⟩ : Dense ℚ)
      ⟨[2, 1, 0, 1], 2, 2⟩ = .ok ⟨[1 / 4, -1, 0, 1], 2, 2⟩ := by decide +kernel

example : ∃ B, inverse (AbsoluteValue.abs : AbsoluteValue ℚ ℚ) (0 : ℚ)
      (fun A _ _ => doolittleSparse (AbsoluteValue.abs : AbsoluteValue ℚ ℚ) (0 : ℚ) A)
      (⟨[2, 1, 1, 2], [0, 1, 0, 1], [0, 2], 2, 0⟩ : Sparse ℚ) = .ok B ∧ B.at' 0 1 = .ok (-1 / 3) := by
  cases h : inverse (AbsoluteValue.abs : AbsoluteValue ℚ ℚ) (0 : ℚ)
      (fun A _ _ => doolittleSparse (AbsoluteValue.abs : AbsoluteValue ℚ ℚ) (0 : ℚ) A)
      (⟨[2, 1, 1, 2], [0, 1, 0, 1], [0, 2], 2, 0⟩ : Sparse ℚ) with
  | ok B =>
    refine ⟨B, rfl, ?_⟩
    have : (inverse (AbsoluteValue.abs : AbsoluteValue ℚ ℚ) (0 : ℚ)
      (fun A _ _ => doolittleSparse (AbsoluteValue.abs : AbsoluteValue ℚ ℚ) (0 : ℚ) A)
      (⟨[2, 1, 1, 2], [0, 1, 0, 1], [0, 2], 2, 0⟩ : Sparse ℚ) >>= fun B => B.at' 0 1) = .ok (-1 / 3) := by
      decide +kernel
    rw [h] at this
    exact this
  | error e =>
    have : (inverse (AbsoluteValue.abs : AbsoluteValue ℚ ℚ) (0 : ℚ)
      (fun A _ _ => doolittleSparse (AbsoluteValue.abs : AbsoluteValue ℚ ℚ) (0 : ℚ) A)
      (⟨[2, 1, 1, 2], [0, 1, 0, 1], [0, 2], 2, 0⟩ : Sparse ℚ) >>= fun B => B.at' 0 1) = .ok (-1 / 3) := by
      decide +kernel
    rw [h] at this
    cases this

end NS.Props.LU

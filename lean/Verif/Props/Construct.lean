/-
Property theorems C41-C44: matrix constructors, matrix predicates, binomials and factorials.

`IsRect m r c A` says that `m` is a well-formed `r x c` matrix object whose `at(i,j)` returns `A i j` (for `r = c` it is
`IsMat` of `Verif/Props/LU.lean`); the theorems hold for `SparseMatrix` and `DenseMatrix`/`FixedMatrix`.
-/
import Verif.Hilbert
import Verif.VecIs
import Mathlib.Data.Matrix.Diagonal

set_option linter.unusedSectionVars false
set_option linter.unusedSimpArgs false

namespace NS.Props.Construct
open NS NS.MatOps NS.LawfulMat NS.Construct NS.Props.LU
variable {M T : Type} [Field T] [DecidableEq T] [MatOps M T] [LawfulMat M T]

/-- `m` is a well-formed `r x c` matrix object and `at(i,j)` returns `A i j`. -/
def IsRect (m : M) (r c : Nat) (A : Matrix (Fin r) (Fin c) T) : Prop :=
  Valid m ∧ rows m = r ∧ cols m = c ∧ ∀ (i : Fin r) (j : Fin c), get m i j = .ok (A i j)

theorem isRect_isMat {m : M} {n : Nat} {A : Matrix (Fin n) (Fin n) T} : IsRect m n n A ↔ IsMat m n A := Iff.rfl

theorem IsRect.val_eq {m : M} {r c : Nat} {A : Matrix (Fin r) (Fin c) T} (h : IsRect m r c A) (i : Fin r) (j : Fin c) :
    val m i j = A i j := by
  have := h.2.2.2 i j
  rw [get_ok h.1 (by rw [h.2.1]; exact i.2) (by rw [h.2.2.1]; exact j.2)] at this
  exact Except.ok.inj this

theorem isRect_of {m : M} {r c : Nat} {A : Matrix (Fin r) (Fin c) T} (h1 : Valid m) (h2 : rows m = r) (h3 : cols m = c)
    (h4 : ∀ (i : Fin r) (j : Fin c), val m i j = A i j) : IsRect m r c A :=
  ⟨h1, h2, h3, fun i j => by rw [get_ok h1 (by rw [h2]; exact i.2) (by rw [h3]; exact j.2), h4]⟩

/-! ### C41 -/

/-- C41: `eye(d1,d2)` has ones on the diagonal and zeros elsewhere. -/
theorem C41_eye {d1 d2 : Nat} (h1 : 0 < d1) (h2 : 0 < d2) :
    ∃ m : M, eye d1 d2 = .ok m ∧ IsRect m d1 d2 (Matrix.of fun i j => if (i : Nat) = j then 1 else 0) := by
  obtain ⟨m, e1, e2, e3, e4, e5⟩ := eye_ok (M := M) h1 h2
  exact ⟨m, e1, isRect_of e2 e3 e4 fun i j => e5 i j i.2 j.2⟩

/-- C41: `eye(n,n)` is the identity matrix. -/
theorem C41_eye_square {n : Nat} (hn : 0 < n) : ∃ m : M, eye n n = .ok m ∧ IsMat m n 1 := by
  obtain ⟨m, e1, e2⟩ := C41_eye (M := M) hn hn
  refine ⟨m, e1, ?_⟩
  rw [isRect_isMat] at e2
  have : (1 : Matrix (Fin n) (Fin n) T) = Matrix.of fun (i j : Fin n) => if (i : Nat) = j then 1 else 0 := by
    ext i j
    rw [Matrix.one_apply, Matrix.of_apply]
    simp only [Fin.ext_iff]
  rw [this]; exact e2

/-- C41: a zero dimension is rejected by an assertion. -/
theorem C41_zero_dimension {d1 d2 : Nat} (h : ¬ (0 < d1 ∧ 0 < d2)) : (eye d1 d2 : R M) = .error .abort := by
  unfold eye
  rw [make_abort h]; rfl

/-- C41: `diag(v)` is the diagonal matrix with diagonal `v`. -/
theorem C41_diag_of_vector {v : List T} {n : Nat} {x : Fin n → T} (hn : 0 < n) (hv : IsVec v n x) :
    ∃ m : M, diagOf v = .ok m ∧ IsMat m n (Matrix.diagonal x) := by
  have hl := hv.1
  obtain ⟨m, e1, e2, e3, e4, e5⟩ := diagOf_ok (M := M) v (by omega)
  rw [hl] at e3 e4
  refine ⟨m, e1, isRect_of e2 e3 e4 fun i j => ?_⟩
  rw [e5 i j (by rw [hl]; exact i.2) (by rw [hl]; exact j.2), Matrix.diagonal_apply, hv.getD]
  simp only [Fin.ext_iff]

/-- C41: `diag(m)` is the vector of the diagonal entries, also for rectangular matrices. -/
theorem C41_diag_of_matrix {m : M} {r c : Nat} {A : Matrix (Fin r) (Fin c) T} (h : IsRect m r c A) :
    ∃ v, diagVec m = .ok v ∧ IsVec v (min r c) (fun i => A ⟨i, by omega⟩ ⟨i, by omega⟩) := by
  refine ⟨_, diagVec_ok h.1, ?_⟩
  rw [isVec_iff]
  refine ⟨by simp [h.2.1, h.2.2.1], fun i => ?_⟩
  rw [← h.val_eq]
  have : (i : Nat) < min (rows m) (cols m) := by rw [h.2.1, h.2.2.1]; exact i.2
  rw [List.getD_eq_getElem?_getD, List.getElem?_map, List.getElem?_range this]
  rfl

/-- C41: `diag(diag(v)) = v`. -/
theorem C41_diag_diag {v : List T} (hv : 0 < v.length) :
    ∃ m : M, diagOf v = .ok m ∧ diagVec m = .ok v := by
  obtain ⟨m, e1, e2, e3, e4, e5⟩ := diagOf_ok (M := M) v hv
  refine ⟨m, e1, ?_⟩
  rw [diagVec_ok e2, e3, e4, Nat.min_self]
  congr 1
  apply List.ext_getElem
  · simp
  · intro i h1 h2
    simp only [List.getElem_map, List.getElem_range]
    rw [e5 i i h2 h2, if_pos rfl, List.getD_eq_getElem?_getD, List.getElem?_eq_getElem h2]
    rfl

/-- C41: `tril(m,k)` keeps exactly the entries with `j <= i + k`, for every `int32` `k` (the sizes are those of any
object that fits in memory). -/
theorem C41_tril {m : M} {r c : Nat} {A : Matrix (Fin r) (Fin c) T} (h : IsRect m r c A) (hr : r < 2 ^ 63)
    (hc : c < 2 ^ 63) {k : Int} (hk : -2 ^ 31 ≤ k ∧ k < 2 ^ 31) :
    ∃ t, tril m k = .ok t ∧ IsRect t r c (Matrix.of fun i j => if (j : Int) ≤ (i : Int) + k then A i j else 0) := by
  obtain ⟨t, e1, e2, e3, e4, e5⟩ := tril_ok h.1 (k := k) (by omega) (by rw [h.2.1]; exact hr) (by rw [h.2.2.1]; exact hc)
  rw [h.2.1] at e3 e5
  rw [h.2.2.1] at e4 e5
  exact ⟨t, e1, isRect_of e2 e3 e4 fun i j => by rw [e5 i j i.2 j.2, h.val_eq]; rfl⟩

/-- C41: `triu(m,k)` keeps exactly the entries with `j >= i + k`, for every `int32` `k`. -/
theorem C41_triu {m : M} {r c : Nat} {A : Matrix (Fin r) (Fin c) T} (h : IsRect m r c A) (hr : r < 2 ^ 63)
    (hc : c < 2 ^ 63) {k : Int} (hk : -2 ^ 31 ≤ k ∧ k < 2 ^ 31) :
    ∃ t, triu m k = .ok t ∧ IsRect t r c (Matrix.of fun i j => if (i : Int) + k ≤ (j : Int) then A i j else 0) := by
  obtain ⟨t, e1, e2, e3, e4, e5⟩ := triu_ok h.1 (k := k) (by omega) (by rw [h.2.1]; exact hr) (by rw [h.2.2.1]; exact hc)
  rw [h.2.1] at e3 e5
  rw [h.2.2.1] at e4 e5
  exact ⟨t, e1, isRect_of e2 e3 e4 fun i j => by rw [e5 i j i.2 j.2, h.val_eq]; rfl⟩

/-- C41: every matrix is the sum of its lower part with offset `k` and its upper part with offset `k+1`. -/
theorem C41_tril_triu_split {m : M} {r c : Nat} {A : Matrix (Fin r) (Fin c) T} (h : IsRect m r c A) (hr : r < 2 ^ 63)
    (hc : c < 2 ^ 63) {k : Int} (hk : -2 ^ 31 ≤ k ∧ k < 2 ^ 31 - 1) :
    ∃ t u L U, tril m k = .ok t ∧ triu m (k + 1) = .ok u ∧ IsRect t r c L ∧ IsRect u r c U ∧ L + U = A := by
  obtain ⟨t, a1, a2⟩ := C41_tril h hr hc (k := k) (by omega)
  obtain ⟨u, b1, b2⟩ := C41_triu h hr hc (k := k + 1) (by omega)
  refine ⟨t, u, _, _, a1, b1, a2, b2, ?_⟩
  ext i j
  show (if (j : Int) ≤ (i : Int) + k then A i j else 0) + (if (i : Int) + (k + 1) ≤ (j : Int) then A i j else 0) = A i j
  by_cases hij : (j : Int) ≤ (i : Int) + k
  · rw [if_pos hij, if_neg (by omega), add_zero]
  · rw [if_neg hij, if_pos (by omega), zero_add]

def sample : R (Dense ℚ) := Dense.ofLists [[1, 2, 3], [4, 5, 6]]
example : (sample >>= fun m => tril m (-1)) = Dense.ofLists [[0, 0, 0], [4, 0, 0]] ∧
    (sample >>= fun m => triu m (-1)) = Dense.ofLists [[1, 2, 3], [4, 5, 6]] ∧
    (sample >>= fun m => tril m 1) = Dense.ofLists [[1, 2, 0], [4, 5, 6]] ∧
    (sample >>= fun m => triu m 2) = Dense.ofLists [[0, 0, 3], [0, 0, 0]] := by decide +kernel

/-! ### C42 -/

/-- C42: the Hilbert matrix has the entries `1/(i+j+1)`. -/
theorem C42_hilbert {n : Nat} (hn : 0 < n) :
    ∃ m : M, hilbert n = .ok m ∧ IsMat m n (Matrix.of fun i j => 1 / ((i : T) + (j : T) + 1)) := by
  obtain ⟨m, e1, e2, e3, e4, e5⟩ := hilbert_ok (M := M) hn
  exact ⟨m, e1, isRect_of e2 e3 e4 fun i j => e5 i j i.2 j.2⟩

/-- C42 (part): `inv_hilbert(n)` is the inverse of `hilbert(n)` whenever the integers computed on the way fit into a
machine word (`IHFits W n`; for 64 bits this is `n <= 14`, see `C42_word64`).
Missing: `n >= 15`, for which the 64-bit product overflows and the result is wrong (`C42_overflow_negation`). -/
theorem C42_inv_hilbert_partial [CharZero T] {W n : Nat} (hn : 0 < n) (hW : IHFits W n) :
    ∃ (m m' : M) (H B : Matrix (Fin n) (Fin n) T), hilbert n = .ok m ∧ invHilbert W n = .ok m' ∧
      IsMat m n H ∧ IsMat m' n B ∧ H * B = 1 ∧ B * H = 1 := by
  obtain ⟨m, a1, a2⟩ := C42_hilbert (M := M) hn
  obtain ⟨m', e1, e2, e3, e4, e5⟩ := invHilbert_ok (M := M) hn hW
  have hB : IsMat m' n (Matrix.of fun i j => (-1 : T) ^ ((i : Nat) + j) * (ihEntry n i j : T)) :=
    isRect_of e2 e3 e4 fun i j => e5 i j i.2 j.2
  have hprod : (Matrix.of fun i j => 1 / ((i : T) + (j : T) + 1) : Matrix (Fin n) (Fin n) T) *
      (Matrix.of fun i j => (-1 : T) ^ ((i : Nat) + j) * (ihEntry n i j : T) : Matrix (Fin n) (Fin n) T) = 1 := by
    ext i j
    rw [Matrix.mul_apply, Matrix.one_apply]
    have := hilbert_identity (F := T) i.2 j.2
    rw [Finset.sum_range] at this
    simp only [Matrix.of_apply]
    rw [this]
    simp only [Fin.ext_iff]
  exact ⟨m, m', _, _, a1, e1, a2, hB, hprod, mul_eq_one_comm.1 hprod⟩

/-- in exact (unbounded) integer arithmetic the claim holds for every size -/
theorem C42_inv_hilbert_exact [CharZero T] (n : Nat) (hn : 0 < n) : ∃ W₀, ∀ W, W₀ ≤ W →
    ∃ (m m' : M) (H B : Matrix (Fin n) (Fin n) T), hilbert n = .ok m ∧ invHilbert W n = .ok m' ∧
      IsMat m n H ∧ IsMat m' n B ∧ H * B = 1 ∧ B * H = 1 := by
  let b := 4 * n + ∑ i ∈ Finset.range n, ∑ j ∈ Finset.range n, (ihEntry n i j + (n + i) * (n + i).choose (n - j - 1))
  refine ⟨b, fun W hW => C42_inv_hilbert_partial hn ?_⟩
  have hb : b < 2 ^ W := lt_of_le_of_lt hW Nat.lt_two_pow_self
  refine ⟨by omega, fun i hi j hj => ?_⟩
  have h1 : ihEntry n i j + (n + i) * (n + i).choose (n - j - 1) ≤ ∑ i ∈ Finset.range n, ∑ j ∈ Finset.range n,
      (ihEntry n i j + (n + i) * (n + i).choose (n - j - 1)) := by
    refine le_trans ?_ (Finset.single_le_sum (f := fun i => ∑ j ∈ Finset.range n,
      (ihEntry n i j + (n + i) * (n + i).choose (n - j - 1))) (fun _ _ => Nat.zero_le _) (Finset.mem_range.2 hi))
    exact Finset.single_le_sum (f := fun j => ihEntry n i j + (n + i) * (n + i).choose (n - j - 1))
      (fun _ _ => Nat.zero_le _) (Finset.mem_range.2 hj)
  constructor <;> omega

instance (W n : Nat) : Decidable (IHFits W n) := by unfold IHFits; infer_instance

/-- the sizes for which 64-bit integers are enough -/
theorem C42_word64 {n : Nat} (hn : n ≤ 14) : IHFits 64 n := by
  have : ∀ n < 15, IHFits 64 n := by decide +kernel
  exact this n (by omega)

/-- for `n = 15` the 64-bit result is not the inverse: the entry (0,0) of `hilbert * inv_hilbert` is not 1 -/
theorem C42_overflow_negation : (do
    let h : Dense ℚ ← hilbert 15
    let b ← invHilbert 64 15
    let p ← h.mul b
    let e ← eye 15 15
    p.eq e) = .ok false := by decide +kernel

/-! ### C43 -/

section
variable {n : Nat} {m : M} {A : Matrix (Fin n) (Fin n) T}

theorem eq_iff {x y : M} {X Y : Matrix (Fin n) (Fin n) T} (hx : IsMat x n X) (hy : IsMat y n Y) :
    ∃ b, MatOps.eq x y = .ok b ∧ (b = true ↔ X = Y) := by
  obtain ⟨b, e1, e2⟩ := eq_ok hx.1 hy.1 (by rw [hx.2.1, hy.2.1]) (by rw [hx.2.2.1, hy.2.2.1])
  refine ⟨b, e1, e2.trans ?_⟩
  rw [hx.2.1, hx.2.2.1]
  constructor
  · intro h; ext i j
    rw [← hx.val_eq, ← hy.val_eq]; exact h i j i.2 j.2
  · rintro rfl i j hi hj
    have := (hx.val_eq ⟨i, hi⟩ ⟨j, hj⟩).trans (hy.val_eq ⟨i, hi⟩ ⟨j, hj⟩).symm
    exact this

theorem isMat_transpose (h : IsMat m n A) : ∃ t, transpose m = .ok t ∧ IsMat t n A.transpose := by
  obtain ⟨t, e1, e2, e3, e4, e5⟩ := transpose_ok h.1
  rw [h.2.1] at e4 e5
  rw [h.2.2.1] at e3 e5
  exact ⟨t, e1, isRect_of e2 e3 e4 fun i j => by rw [e5 i j i.2 j.2, h.val_eq]; rfl⟩

theorem isMat_adjugate (cj : T → T) (hcj : cj 0 = 0) (h : IsMat m n A) :
    ∃ t, adjugate cj m = .ok t ∧ IsMat t n (A.map cj).transpose := by
  obtain ⟨t, e1, e2, e3, e4, e5⟩ := adjugate_ok cj hcj h.1
  rw [h.2.1] at e4 e5
  rw [h.2.2.1] at e3 e5
  exact ⟨t, e1, isRect_of e2 e3 e4 fun i j => by rw [e5 i j i.2 j.2, h.val_eq]; rfl⟩

theorem isMat_neg (h : IsMat m n A) : ∃ t, MatOps.neg m = .ok t ∧ IsMat t n (-A) := by
  obtain ⟨t, e1, e2, e3, e4, e5⟩ := neg_ok h.1
  rw [h.2.1] at e3 e5
  rw [h.2.2.1] at e4 e5
  exact ⟨t, e1, isRect_of e2 e3 e4 fun i j => by rw [e5 i j i.2 j.2, h.val_eq]; rfl⟩

theorem isMat_mul {x y : M} {X Y : Matrix (Fin n) (Fin n) T} (hx : IsMat x n X) (hy : IsMat y n Y) :
    ∃ t, MatOps.mul x y = .ok t ∧ IsMat t n (X * Y) := by
  obtain ⟨t, e1, e2, e3, e4, e5⟩ := mul_ok hx.1 hy.1 (by rw [hx.2.2.1, hy.2.1])
  rw [hx.2.1] at e3 e5
  rw [hy.2.2.1] at e4 e5
  rw [hx.2.2.1] at e5
  refine ⟨t, e1, isRect_of e2 e3 e4 fun i j => ?_⟩
  rw [e5 i j i.2 j.2, Matrix.mul_apply, Finset.sum_range]
  exact Finset.sum_congr rfl fun k _ => by rw [hx.val_eq, hy.val_eq]

theorem isMat_pos (h : IsMat m n A) : 0 < n := by rw [← h.2.1]; exact rows_pos h.1

/-- C43: on a square matrix `A` the predicates return `true` exactly when the defining equation holds; `cj` is the
conjugation of the scalars (the identity for real types), so `(A.map cj)ᵀ` is the adjoint. -/
theorem C43_checks (cj : T → T) (hcj : cj 0 = 0) (h : IsMat m n A) :
    (∃ b, Check.isSymmetric m = .ok b ∧ (b = true ↔ A.transpose = A)) ∧
    (∃ b, Check.isSkewSymmetric m = .ok b ∧ (b = true ↔ A.transpose = -A)) ∧
    (∃ b, Check.isHermitian cj m = .ok b ∧ (b = true ↔ (A.map cj).transpose = A)) ∧
    (∃ b, Check.isSkewHermitian cj m = .ok b ∧ (b = true ↔ (A.map cj).transpose = -A)) ∧
    (∃ b, Check.isProjection m = .ok b ∧ (b = true ↔ A * A = A)) ∧
    (∃ b, Check.isOrthogonal m = .ok b ∧ (b = true ↔ A * A.transpose = 1)) ∧
    (∃ b, Check.isUnitary cj m = .ok b ∧ (b = true ↔ A * (A.map cj).transpose = 1)) := by
  have hsq : ¬ (rows m ≠ cols m) := by rw [h.2.1, h.2.2.1]; simp
  obtain ⟨t, t1, t2⟩ := isMat_transpose h
  obtain ⟨ad, a1, a2⟩ := isMat_adjugate cj hcj h
  obtain ⟨nt, nt1, nt2⟩ := isMat_neg t2
  obtain ⟨na, na1, na2⟩ := isMat_neg a2
  obtain ⟨mm, mm1, mm2⟩ := isMat_mul h h
  obtain ⟨mt, mt1, mt2⟩ := isMat_mul h t2
  obtain ⟨ma, ma1, ma2⟩ := isMat_mul h a2
  obtain ⟨e, e1, e2⟩ := C41_eye_square (M := M) (isMat_pos h)
  have e1' : eye (rows m) (cols m) = .ok e := by rw [h.2.1, h.2.2.1]; exact e1
  refine ⟨?_, ?_, ?_, ?_, ?_, ?_, ?_⟩
  · unfold Check.isSymmetric
    rw [if_neg hsq, t1, ok_bind]
    exact eq_iff t2 h
  · unfold Check.isSkewSymmetric
    rw [if_neg hsq, t1, ok_bind, nt1, ok_bind]
    obtain ⟨b, b1, b2⟩ := eq_iff nt2 h
    exact ⟨b, b1, b2.trans neg_eq_iff_eq_neg⟩
  · unfold Check.isHermitian
    rw [if_neg hsq, a1, ok_bind]
    exact eq_iff a2 h
  · unfold Check.isSkewHermitian
    rw [if_neg hsq, a1, ok_bind, na1, ok_bind]
    obtain ⟨b, b1, b2⟩ := eq_iff na2 h
    exact ⟨b, b1, b2.trans neg_eq_iff_eq_neg⟩
  · unfold Check.isProjection
    rw [if_neg hsq, mm1, ok_bind]
    exact eq_iff mm2 h
  · unfold Check.isOrthogonal
    rw [if_neg hsq, t1, ok_bind, mt1, ok_bind, e1', ok_bind]
    exact eq_iff mt2 e2
  · unfold Check.isUnitary
    rw [if_neg hsq, a1, ok_bind, ma1, ok_bind, e1', ok_bind]
    exact eq_iff ma2 e2
end

/-- C43: all predicates are false for matrices that are not square. -/
theorem C43_nonsquare (cj : T → T) (m : M) (h : rows m ≠ cols m) :
    Check.isSymmetric m = .ok false ∧ Check.isSkewSymmetric m = .ok false ∧ Check.isHermitian cj m = .ok false ∧
    Check.isSkewHermitian cj m = .ok false ∧ Check.isProjection m = .ok false ∧ Check.isOrthogonal m = .ok false ∧
    Check.isUnitary cj m = .ok false := by
  refine ⟨?_, ?_, ?_, ?_, ?_, ?_, ?_⟩
  · unfold Check.isSymmetric; rw [if_pos h]
  · unfold Check.isSkewSymmetric; rw [if_pos h]
  · unfold Check.isHermitian; rw [if_pos h]
  · unfold Check.isSkewHermitian; rw [if_pos h]
  · unfold Check.isProjection; rw [if_pos h]
  · unfold Check.isOrthogonal; rw [if_pos h]
  · unfold Check.isUnitary; rw [if_pos h]

example : ((Dense.ofLists [[0, 1], [1, 0]] : R (Dense ℚ)) >>= Check.isOrthogonal) = .ok true ∧
    ((Dense.ofLists [[0, 1], [-1, 0]] : R (Dense ℚ)) >>= Check.isSymmetric) = .ok false ∧
    ((Dense.ofLists [[0, 1], [-1, 0]] : R (Dense ℚ)) >>= Check.isSkewSymmetric) = .ok true ∧
    ((Dense.ofLists [[1, 1], [0, 0]] : R (Dense ℚ)) >>= Check.isProjection) = .ok true := by decide +kernel

/-! ### C44 -/
open MathU

/-- C44: `sign_pow(k) = (-1)^k` for every integer, negative ones included. -/
theorem C44_sign_pow (k : Int) : signPow k = (-1) ^ k.natAbs := signPow_eq k

/-- C44: `factorial(k)` is `k!` modulo the word size, hence `k!` when that fits. -/
theorem C44_factorial (W k : Nat) : factorial W k = k.factorial % 2 ^ W ∧
    (k.factorial < 2 ^ W → factorial W k = k.factorial) :=
  ⟨factorial_eq W k, fun h => by rw [factorial_eq, Nat.mod_eq_of_lt h]⟩

/-- C44: for `k <= n` the integral `binom(n,k)` is the binomial coefficient when the intermediate products fit into the
word; the largest of them is `min(k,n-k) * C(n,k)`. -/
theorem C44_binom {W n k : Nat} (hkn : k ≤ n) (hn : 2 * n < 2 ^ W) (hfit : min k (n - k) * n.choose k < 2 ^ W) :
    binom W n k = .ok (n.choose k) := binom_ok hkn hn hfit

/-- the proviso cannot be weakened to "the result fits": `C(66,33) < 2^64`, but the computed value is wrong -/
theorem C44_binom_overflow : Nat.choose 66 33 < 2 ^ 64 ∧ binom 64 66 33 ≠ .ok (Nat.choose 66 33) := by
  constructor <;> decide +kernel

/-- for `n < k` (with `2k` below the word size) the recursion never ends -/
theorem C44_binom_out_of_range {W n k : Nat} (hk : n < k) (h2 : 2 * k < 2 ^ W) (fuel : Nat) :
    binomF W fuel n k = .error .diverge := binom_diverge hk h2 fuel

/-- C44: the floating-point version computes the generalised binomial coefficient, in particular the usual one for
natural `n` (and 0 for `k > n`). -/
theorem C44_binom_real (n : T) (k : Nat) :
    binomReal n k = .ok (∏ i ∈ Finset.range k, ((n - (i : T)) / ((i : T) + 1))) := binomReal_ok n k
theorem C44_binom_real_nat [CharZero T] (n k : Nat) : binomReal (n : T) k = .ok ((n.choose k : Nat) : T) :=
  binomReal_nat n k

example : binom 64 10 3 = .ok 120 ∧ binom 64 10 7 = .ok 120 ∧ factorial 64 20 = 2432902008176640000 := by
  decide +kernel
end NS.Props.Construct

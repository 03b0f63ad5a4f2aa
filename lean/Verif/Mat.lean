/-
The part of the matrix API that the template algorithms (`template<class M>`) of the library use,
as a class with instances for `SparseMatrix` and `DenseMatrix`, and the laws proved for both.
-/
import Verif.SparseOps2
import Verif.DenseOps
import Verif.Vec
import Verif.VecLemmas
import Mathlib.Tactic.Ring

set_option linter.unusedSectionVars false
set_option linter.unusedSimpArgs false

namespace NS

/-- Operations of a matrix class `M` with value type `T` used by template algorithms:
`rows()`, `columns()`, `at(i,j)`, `set(i,j,v)`, the constructor `M(d1,d2)`, a full traversal of
`row_begin(i) .. row_end(i)` (as the list of visited `(row,column,value)`), `mul(M)`, `mul(V)`,
`transpose()`, `conjugate()`, `adjugate()`, unary minus and `==`. -/
class MatOps (M : Type) (T : outParam Type) where
  rows : M → Nat
  cols : M → Nat
  get : M → Nat → Nat → R T
  put : M → Nat → Nat → T → R M
  make : Nat → Nat → R M
  rowEntries : M → Nat → R (List (Nat × Nat × T))
  mul : M → M → R M
  mulVec : M → List T → R (List T)
  transpose : M → R M
  conjugate : (T → T) → M → R M
  adjugate : (T → T) → M → R M
  neg : M → R M
  eq : M → M → R Bool

/-- `SparseMatrix<T>`, `/repo/src/lib/matrix/SparseMatrix.inl` -/
instance {T : Type} [Zero T] [One T] [Add T] [Mul T] [Neg T] [DecidableEq T] : MatOps (Sparse T) T where
  rows := Sparse.rows
  cols := Sparse.columns
  get := Sparse.at'
  put := Sparse.set
  make := Sparse.mk'
  rowEntries := Sparse.rowEntries
  mul := Sparse.mul
  mulVec := Sparse.mulVec
  transpose := Sparse.transpose
  conjugate := Sparse.conjugate
  adjugate := Sparse.adjugate
  neg := Sparse.neg
  eq := Sparse.eq

/-- `DenseMatrix<T>` and `FixedMatrix<T,K1,K2>`, `/repo/src/lib/matrix/BaseMatrix.inl` -/
instance {T : Type} [Zero T] [One T] [Add T] [Mul T] [Neg T] [DecidableEq T] : MatOps (Dense T) T where
  rows := Dense.rows
  cols := Dense.columns
  get := Dense.at'
  put := Dense.set
  make := Dense.mk'
  rowEntries := Dense.rowEntries
  mul := Dense.mul
  mulVec := Dense.mulVec
  transpose := Dense.transpose
  conjugate := Dense.conjugate
  adjugate := Dense.adjugate
  neg := Dense.neg
  eq := Dense.eq

/-- Laws of the storage operations (no arithmetic) for values that satisfy the class's representation invariant. -/
class LawfulStore (M : Type) (T : outParam Type) [Zero T] [MatOps M T] where
  Valid : M → Prop
  val : M → Nat → Nat → T
  rows_pos : ∀ {m : M}, Valid m → 0 < MatOps.rows m
  cols_pos : ∀ {m : M}, Valid m → 0 < MatOps.cols m
  get_ok : ∀ {m : M} {i j : Nat}, Valid m → i < MatOps.rows m → j < MatOps.cols m →
    MatOps.get m i j = .ok (val m i j)
  get_abort : ∀ {m : M} {i j : Nat}, ¬ (i < MatOps.rows m ∧ j < MatOps.cols m) → MatOps.get m i j = .error .abort
  val_zero : ∀ {m : M} {i j : Nat}, Valid m → ¬ (i < MatOps.rows m ∧ j < MatOps.cols m) → val m i j = 0
  put_ok : ∀ {m : M} {i j : Nat} (v : T), Valid m → i < MatOps.rows m → j < MatOps.cols m →
    ∃ m' : M, MatOps.put m i j v = .ok m' ∧ Valid m' ∧ MatOps.rows m' = MatOps.rows m ∧
      MatOps.cols m' = MatOps.cols m ∧ ∀ a b, val m' a b = if a = i ∧ b = j then v else val m a b
  make_ok : ∀ {r c : Nat}, 0 < r → 0 < c → ∃ m : M, MatOps.make r c = .ok m ∧ Valid m ∧ MatOps.rows m = r ∧
    MatOps.cols m = c ∧ ∀ i j, val m i j = 0
  make_abort : ∀ {r c : Nat}, ¬ (0 < r ∧ 0 < c) → (MatOps.make r c : R M) = .error .abort
  rowEntries_ok : ∀ {m : M} {i : Nat}, Valid m → i < MatOps.rows m → ∃ l, MatOps.rowEntries m i = .ok l ∧
    l.Pairwise (fun a b => a.2.1 < b.2.1) ∧
    (∀ e ∈ l, e.1 = i ∧ e.2.1 < MatOps.cols m ∧ e.2.2 = val m i e.2.1) ∧
    (∀ j, j < MatOps.cols m → val m i j ≠ 0 → (i, j, val m i j) ∈ l)

/-- Laws of the matrix operations for values that satisfy the class's representation invariant. -/
class LawfulMat (M : Type) (T : outParam Type) [CommRing T] [NoZeroDivisors T] [DecidableEq T] [MatOps M T] extends
    LawfulStore M T where
  mul_ok : ∀ {a b : M}, Valid a → Valid b → MatOps.cols a = MatOps.rows b →
    ∃ u : M, MatOps.mul a b = .ok u ∧ Valid u ∧ MatOps.rows u = MatOps.rows a ∧ MatOps.cols u = MatOps.cols b ∧
      ∀ i j, i < MatOps.rows a → j < MatOps.cols b →
        val u i j = ∑ k ∈ Finset.range (MatOps.cols a), val a i k * val b k j
  mulVec_ok : ∀ {a : M} (v : List T), Valid a → MatOps.cols a = v.length →
    ∃ r, MatOps.mulVec a v = .ok r ∧ r.length = MatOps.rows a ∧
      ∀ i, i < MatOps.rows a → r.getD i 0 = ∑ j ∈ Finset.range (MatOps.cols a), val a i j * v.getD j 0
  transpose_ok : ∀ {a : M}, Valid a → ∃ u : M, MatOps.transpose a = .ok u ∧ Valid u ∧
    MatOps.rows u = MatOps.cols a ∧ MatOps.cols u = MatOps.rows a ∧
    ∀ i j, i < MatOps.cols a → j < MatOps.rows a → val u i j = val a j i
  conjugate_ok : ∀ {a : M} (cj : T → T), cj 0 = 0 → Valid a → ∃ u : M, MatOps.conjugate cj a = .ok u ∧ Valid u ∧
    MatOps.rows u = MatOps.rows a ∧ MatOps.cols u = MatOps.cols a ∧
    ∀ i j, i < MatOps.rows a → j < MatOps.cols a → val u i j = cj (val a i j)
  adjugate_ok : ∀ {a : M} (cj : T → T), cj 0 = 0 → Valid a → ∃ u : M, MatOps.adjugate cj a = .ok u ∧ Valid u ∧
    MatOps.rows u = MatOps.cols a ∧ MatOps.cols u = MatOps.rows a ∧
    ∀ i j, i < MatOps.cols a → j < MatOps.rows a → val u i j = cj (val a j i)
  neg_ok : ∀ {a : M}, Valid a → ∃ u : M, MatOps.neg a = .ok u ∧ Valid u ∧
    MatOps.rows u = MatOps.rows a ∧ MatOps.cols u = MatOps.cols a ∧
    ∀ i j, i < MatOps.rows a → j < MatOps.cols a → val u i j = - val a i j
  eq_ok : ∀ {a b : M}, Valid a → Valid b → MatOps.rows a = MatOps.rows b → MatOps.cols a = MatOps.cols b →
    ∃ r, MatOps.eq a b = .ok r ∧
      (r = true ↔ ∀ i j, i < MatOps.rows a → j < MatOps.cols a → val a i j = val b i j)

namespace LawfulMat
export LawfulStore (Valid val rows_pos cols_pos get_ok get_abort val_zero put_ok make_ok make_abort rowEntries_ok)
end LawfulMat

section
variable {T : Type} [Zero T] [One T] [Add T] [Mul T] [Neg T] [DecidableEq T]

instance : LawfulStore (Sparse T) T where
  Valid := Sparse.Inv
  val := Sparse.val
  rows_pos h := h.rows_pos
  cols_pos h := h.cols_pos
  get_ok h hi hj := h.at_ok hi hj
  get_abort {m i j} h := by
    show m.at' i j = _
    have h : ¬ (i < m.rows ∧ j < m.columns) := h
    unfold Sparse.at'
    by_cases hi : i < m.rows
    · rw [assert_true hi, assert_false (fun hj => h ⟨hi, hj⟩)]; rfl
    · rw [assert_false hi]; rfl
  val_zero h hij := h.val_zero hij
  put_ok v h hi hj := h.set_ok v hi hj
  make_ok h1 h2 := Sparse.mk_inv h1 h2
  make_abort {r c} h := by
    show Sparse.mk' r c = _
    unfold Sparse.mk'
    by_cases h1 : 0 < r
    · rw [assert_true (show r > 0 from h1), assert_false (show ¬ c > 0 from fun h2 => h ⟨h1, h2⟩)]; rfl
    · rw [assert_false (show ¬ r > 0 from h1)]; rfl
  rowEntries_ok {m i} h hi := by
    obtain ⟨l, h1, h2, h3, h4⟩ := h.rowEntries_ok hi
    refine ⟨l, h1, h2, ?_, ?_⟩
    · intro e he
      obtain ⟨a, b, c⟩ := (h3 e).1 he
      exact ⟨a, (h4 e he).2, by rw [b, a]⟩
    · intro j _ hne
      exact (h3 _).2 ⟨rfl, rfl, hne⟩

instance : LawfulStore (Dense T) T where
  Valid := Dense.WF
  val := Dense.val
  rows_pos h := h.2.1
  cols_pos h := h.2.2
  get_ok h hi hj := h.at_ok hi hj
  get_abort h := Dense.at_abort _ h
  val_zero h hij := h.val_zero hij
  put_ok v h hi hj := h.set_ok v hi hj
  make_ok h1 h2 := Dense.mk_ok h1 h2
  make_abort h := Dense.mk_abort h
  rowEntries_ok {m i} h hi := by
    refine ⟨_, Dense.WF.rowEntries_ok h hi, ?_, ?_, ?_⟩
    · unfold Dense.rowFrom
      rw [List.pairwise_map]
      simpa using List.pairwise_lt_range'
    · rintro ⟨a, b, x⟩ he
      have := (Dense.mem_rowFrom m i 0 a b x).1 he
      obtain ⟨rfl, _, h2, rfl⟩ := this
      exact ⟨rfl, h2, rfl⟩
    · intro j hj _
      exact (Dense.mem_rowFrom m i 0 _ _ _).2 ⟨rfl, Nat.zero_le _, hj, rfl⟩

end

section
variable {T : Type} [CommRing T] [NoZeroDivisors T] [DecidableEq T]

instance : LawfulMat (Sparse T) T where
  toLawfulStore := inferInstance
  mul_ok ha hb hd := ha.mul_ok hb hd
  mulVec_ok v ha hd := ha.mulVec_ok v hd
  transpose_ok ha := by
    obtain ⟨u, h1, h2, h3, h4, h5⟩ := Sparse.Inv.transpose_ok ha
    exact ⟨u, h1, h2, h3, h4, fun i j _ _ => h5 i j⟩
  conjugate_ok cj hcj ha := by
    obtain ⟨u, h1, h2, h3, h4, h5⟩ := Sparse.Inv.conjugate_ok ha cj hcj
    exact ⟨u, h1, h2, h3, h4, fun i j _ _ => h5 i j⟩
  adjugate_ok cj hcj ha := by
    obtain ⟨u, h1, h2, h3, h4, h5⟩ := Sparse.Inv.adjugate_ok ha cj hcj
    exact ⟨u, h1, h2, h3, h4, fun i j _ _ => h5 i j⟩
  neg_ok {a} ha := by
    obtain ⟨u, h1, h2, h3, h4, h5⟩ := Sparse.Inv.scale_ok ha (-1)
    exact ⟨u, h1, h2, h3, h4, fun i j _ _ => (h5 i j).trans (by rw [mul_neg_one]; rfl)⟩
  eq_ok {a b} ha hb hr hc := by
    refine ⟨_, Sparse.Inv.eq_ok ha hb, ?_⟩
    rw [decide_eq_true_iff]
    constructor
    · rintro rfl; intros; rfl
    · intro h; exact Sparse.Inv.ext ha hb hr hc h


instance : LawfulMat (Dense T) T where
  toLawfulStore := inferInstance
  mul_ok ha hb hd := ha.mul_ok hb hd
  mulVec_ok v ha hd := ha.mulVec_ok v hd
  transpose_ok ha := ha.transpose_ok
  conjugate_ok cj _ ha := ha.conjugate_ok cj
  adjugate_ok cj _ ha := ha.adjugate_ok cj
  neg_ok ha := by
    obtain ⟨u, h1, h2, h3, h4, h5⟩ := Dense.WF.scale_ok ha (-1)
    exact ⟨u, h1, h2, h3, h4, fun i j _ _ => (h5 i j).trans (by rw [mul_neg_one]; rfl)⟩
  eq_ok ha hb hr hc := ha.eq_ok hb hr hc
end
end NS

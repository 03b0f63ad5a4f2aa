/-
Vector expressions of the C++ code in terms of mathematical vectors: products, sums and dot products of
vector objects that hold given mathematical vectors.
-/
import Verif.Props.LU
import Mathlib.LinearAlgebra.Matrix.DotProduct

set_option linter.unusedSectionVars false
set_option linter.unusedSimpArgs false

namespace NS.Props.LU
open NS NS.MatOps NS.LawfulMat Matrix
variable {M T : Type} [Field T] [DecidableEq T] [MatOps M T] [LawfulMat M T] {n : Nat}

theorem IsVec.getD {x : List T} {v : Fin n → T} (h : IsVec x n v) (i : Fin n) : x.getD i 0 = v i := by
  rw [← h.toVec_eq]; rfl

theorem isVec_iff {x : List T} {v : Fin n → T} : IsVec x n v ↔ x.length = n ∧ ∀ i : Fin n, x.getD i 0 = v i := by
  constructor
  · intro h; exact ⟨h.1, h.getD⟩
  · intro h
    refine ⟨h.1, fun i => ?_⟩
    rw [vecAt_get (by rw [h.1]; exact i.2), h.2 i]

theorem isVec_ofFn (v : Fin n → T) : IsVec (List.ofFn v) n v := by
  rw [isVec_iff]
  refine ⟨by simp, fun i => ?_⟩
  simp [List.getD_eq_getElem?_getD]

theorem IsVec.unique {x y : List T} {v : Fin n → T} (h : IsVec x n v) (h' : IsVec y n v) : x = y := by
  apply List.ext_getElem (by rw [h.1, h'.1])
  intro i h1 h2
  have e1 := h.2 ⟨i, by rw [← h.1]; exact h1⟩
  have e2 := h'.2 ⟨i, by rw [← h.1]; exact h1⟩
  rw [vecAt_ok h1] at e1
  rw [vecAt_ok h2] at e2
  rw [Except.ok.inj e1, Except.ok.inj e2]

theorem IsVec.mulVec {a : M} {A : Matrix (Fin n) (Fin n) T} (ha : IsMat a n A) {x : List T} {v : Fin n → T}
    (h : IsVec x n v) : ∃ r, MatOps.mulVec a x = .ok r ∧ IsVec r n (A *ᵥ v) := by
  obtain ⟨r, m1, m2, m3⟩ := mulVec_ok x ha.1 (by rw [ha.2.2.1, h.1])
  rw [ha.2.1] at m2 m3
  rw [ha.2.2.1] at m3
  refine ⟨r, m1, m2, fun i => ?_⟩
  rw [vecAt_get (by rw [m2]; exact i.2), m3 i i.2, Finset.sum_range]
  congr 1
  unfold Matrix.mulVec dotProduct
  refine Finset.sum_congr rfl (fun j _ => ?_)
  rw [ha.val_eq, h.getD]

theorem IsVec.dot {x y : List T} {v w : Fin n → T} (h : IsVec x n v) (h' : IsVec y n w) :
    Vec.dot x y = .ok (v ⬝ᵥ w) := by
  rw [Vec.dot_ok x y (by rw [h.1, h'.1]), h.1, Finset.sum_range]
  congr 1
  refine Finset.sum_congr rfl (fun j _ => ?_)
  rw [h.getD, h'.getD]

theorem IsVec.zipWith {x y : List T} {v w : Fin n → T} (op : T → T → T) (h : IsVec x n v) (h' : IsVec y n w) :
    IsVec (List.zipWith op x y) n (fun i => op (v i) (w i)) := by
  have hx := h.1
  have hy := h'.1
  rw [isVec_iff]
  refine ⟨by simp [h.1, h'.1], fun i => ?_⟩
  have hix : (i : Nat) < x.length := by rw [hx]; exact i.2
  have hiy : (i : Nat) < y.length := by rw [hy]; exact i.2
  rw [← h.getD i, ← h'.getD i]
  simp [List.getD_eq_getElem?_getD, hix, hiy]

theorem IsVec.map {x : List T} {v : Fin n → T} (g : T → T) (h : IsVec x n v) :
    IsVec (x.map g) n (fun i => g (v i)) := by
  have hx := h.1
  rw [isVec_iff]
  refine ⟨by simp [h.1], fun i => ?_⟩
  have hix : (i : Nat) < x.length := by rw [hx]; exact i.2
  rw [← h.getD i]
  simp [List.getD_eq_getElem?_getD, hix]

theorem IsVec.add {x y : List T} {v w : Fin n → T} (h : IsVec x n v) (h' : IsVec y n w) :
    ∃ r, Vec.addAssign x y = .ok r ∧ IsVec r n (v + w) :=
  ⟨_, Vec.zipAssign_ok _ x y (by rw [h.1, h'.1]), h.zipWith _ h'⟩

theorem IsVec.sub {x y : List T} {v w : Fin n → T} (h : IsVec x n v) (h' : IsVec y n w) :
    ∃ r, Vec.subAssign x y = .ok r ∧ IsVec r n (v - w) :=
  ⟨_, Vec.zipAssign_ok _ x y (by rw [h.1, h'.1]), h.zipWith _ h'⟩

theorem IsVec.smul {x : List T} {v : Fin n → T} (h : IsVec x n v) (c : T) :
    ∃ r, Vec.mulScalar x c = .ok r ∧ IsVec r n (c • v) := by
  refine ⟨_, Vec.mapAssign_ok _ x, ?_⟩
  have := h.map (· * c)
  have e : (fun i => v i * c) = c • v := by
    funext i; simp [mul_comm]
  rw [← e]; exact this
end NS.Props.LU

/-
Property theorems C75 (second part): rounding errors of the matrix-matrix products and of the product with a row vector.
The specification (`MatFl`, `VecFl`, `gam`, `mabs`) is that of `Verif/Props/Rounding.lean`.
-/
import Verif.RoundMul
import Verif.Props.Rounding

set_option linter.unusedSectionVars false
set_option linter.unusedSimpArgs false

namespace NS.Props.Rounding
open NS NS.MatOps NS.Rounding Matrix

variable {F K : Type} [Zero F] [One F] [Add F] [Sub F] [Mul F] [Div F] [Field K] [LinearOrder K] [IsStrictOrderedRing K]
variable {fl : F → K} {u : K} [Neg F] [DecidableEq F]

theorem sum_pert {n : Nat} {a b t : Fin n → K} {g : K} (ht : ∀ j, |t j - 1| ≤ g) :
    |∑ j, a j * b j * t j - ∑ j, a j * b j| ≤ g * ∑ j, |a j| * |b j| := by
  rw [← Finset.sum_sub_distrib, Finset.mul_sum]
  refine (Finset.abs_sum_le_sum_abs _ _).trans (Finset.sum_le_sum fun j _ => ?_)
  have e : a j * b j * t j - a j * b j = (t j - 1) * (a j * b j) := by ring
  rw [e, abs_mul, abs_mul (a j)]
  exact mul_le_mul_of_nonneg_right (ht j) (by positivity)

theorem rowCount_card (h : Std fl u) {r c : Nat} {f : Nat → Nat → F} {A : Matrix (Fin r) (Fin c) K}
    (hf : ∀ i j, fl (f i.val j.val) = A i j) (i : Fin r) : rowCount f i c = (Finset.univ.filter (fun j => A i j ≠ 0)).card := by
  unfold rowCount
  rw [← Finset.card_map Fin.valEmbedding]
  congr 1
  ext j
  simp only [Finset.mem_filter, Finset.mem_range, Finset.mem_map, Finset.mem_univ, true_and, Fin.valEmbedding_apply]
  constructor
  · rintro ⟨hj, hne⟩
    exact ⟨⟨j, hj⟩, by rw [← hf, Ne, h.eq_zero]; exact hne, rfl⟩
  · rintro ⟨j, hne, rfl⟩
    exact ⟨j.2, by rw [← hf, Ne, h.eq_zero] at hne; exact hne⟩

theorem colCount_card (h : Std fl u) {r c : Nat} {f : Nat → Nat → F} {A : Matrix (Fin r) (Fin c) K}
    (hf : ∀ i j, fl (f i.val j.val) = A i j) (j : Fin c) : colCount f j r = (Finset.univ.filter (fun i => A i j ≠ 0)).card :=
  rowCount_card h (f := fun j i => f i j) (A := Aᵀ) (fun j i => hf i j) j

/-! ## C75: matrix-matrix products -/

/-- C75: `DenseMatrix`/`FixedMatrix` `mul`: every entry of the product is correct up to `gam u k` times the product of the absolute
values, where `k` is the number of columns of the left factor. -/
theorem C75_mul_dense (h : Std fl u) {r k c : Nat} {a b : Dense F} {A : Matrix (Fin r) (Fin k) K} {B : Matrix (Fin k) (Fin c) K}
    (ha : MatFl fl a A) (hb : MatFl fl b B) :
    ∃ (p : Dense F) (P : Matrix (Fin r) (Fin c) K), a.mul b = .ok p ∧ MatFl fl p P ∧
      ∀ i j, |P i j - (A * B) i j| ≤ gam u k * (mabs A * mabs B) i j := by
  have hr : a.rows = r := ha.2.1
  have hk : a.columns = k := ha.2.2.1
  have hk' : b.rows = k := hb.2.1
  have hc : b.columns = c := hb.2.2.1
  obtain ⟨p, p1, p2, p3, p4, p5⟩ := dense_mul_round h (a := a) (m := b) ha.1 hb.1 (by rw [hk, hk'])
  refine ⟨p, _, p1, matFl_of (fl := fl) p2 (p3.trans hr) (p4.trans hc), fun i j => ?_⟩
  obtain ⟨t, t1, t2⟩ := p5 i j (by rw [hr]; exact i.2) (by rw [hc]; exact j.2)
  rw [hk] at t1 t2
  show |fl (p.val i j) - _| ≤ _
  rw [t2, Finset.sum_range, Matrix.mul_apply, Matrix.mul_apply]
  have e : ∀ l : Fin k, fl (a.val i l) * fl (b.val l j) * t l = A i l * B l j * t l := fun l => by
    have h1 : fl (a.val i l) = A i l := ha.val i l
    have h2 : fl (b.val l j) = B l j := hb.val l j
    rw [h1, h2]
  rw [Finset.sum_congr rfl fun l _ => e l]
  exact sum_pert (a := fun l => A i l) (b := fun l => B l j) (t := fun l => t l) fun l => (t1 l).abs_sub h.u_lt

/-- C75: `SparseMatrix::mul`: the constant counts only the non-zero entries of the row of the left factor. -/
theorem C75_mul_sparse (h : Std fl u) {r k c : Nat} {a b : Sparse F} {A : Matrix (Fin r) (Fin k) K} {B : Matrix (Fin k) (Fin c) K}
    (ha : MatFl fl a A) (hb : MatFl fl b B) :
    ∃ (p : Sparse F) (P : Matrix (Fin r) (Fin c) K), a.mul b = .ok p ∧ MatFl fl p P ∧
      ∀ i j, |P i j - (A * B) i j| ≤ gam u (Finset.univ.filter (fun l => A i l ≠ 0)).card * (mabs A * mabs B) i j := by
  have hr : a.rows = r := ha.2.1
  have hk : a.columns = k := ha.2.2.1
  have hk' : b.rows = k := hb.2.1
  have hc : b.columns = c := hb.2.2.1
  obtain ⟨p, p1, p2, p3, p4, p5⟩ := sparse_mul_round h (s := a) (m := b) ha.1 hb.1 (by rw [hk, hk'])
  refine ⟨p, _, p1, matFl_of (fl := fl) p2 (p3.trans hr) (p4.trans hc), fun i j => ?_⟩
  obtain ⟨t, t1, t2⟩ := p5 i j (by rw [hr]; exact i.2) (by rw [hc]; exact j.2)
  rw [hk] at t1 t2
  show |fl (p.val i j) - _| ≤ _
  rw [← rowCount_card h (f := a.val) (A := A) (fun i j => ha.val i j) i]
  rw [t2, Finset.sum_range, Matrix.mul_apply, Matrix.mul_apply]
  have e : ∀ l : Fin k, fl (a.val i l) * fl (b.val l j) * t l = A i l * B l j * t l := fun l => by
    have h1 : fl (a.val i l) = A i l := ha.val i l
    have h2 : fl (b.val l j) = B l j := hb.val l j
    rw [h1, h2]
  rw [Finset.sum_congr rfl fun l _ => e l]
  exact sum_pert (a := fun l => A i l) (b := fun l => B l j) (t := fun l => t l) fun l => (t1 l).abs_sub h.u_lt

/-! ## C75: row vector times matrix -/

/-- C75: `DenseMatrix::mul_left(Vector)` returns `x (A + ΔA)` with an entrywise small `ΔA`. -/
theorem C75_mulLeft_dense (h : Std fl u) {r c : Nat} {m : Dense F} {A : Matrix (Fin r) (Fin c) K} (hm : MatFl fl m A)
    {v : List F} {x : Fin r → K} (hv : VecFl fl v r x) :
    ∃ (w : List F) (y : Fin c → K) (ΔA : Matrix (Fin r) (Fin c) K), m.mulLeft v = .ok w ∧ VecFl fl w c y ∧ y = x ᵥ* (A + ΔA) ∧
      ∀ i j, |ΔA i j| ≤ gam u r * |A i j| := by
  have hr : m.rows = r := hm.2.1
  have hc : m.columns = c := hm.2.2.1
  obtain ⟨w, w1, w2, w3⟩ := dense_mulLeft_round h (a := m) hm.1 v (by rw [hr, hv.1])
  rw [hc] at w2 w3
  rw [hr] at w3
  choose t t1 t2 using fun j : Fin c => w3 j j.2
  refine ⟨w, _, Matrix.of fun i j => A i j * t j i - A i j, w1, vecFl_of w2, ?_, fun i j => abs_mul_sub ((t1 j i).abs_sub h.u_lt)⟩
  funext j
  show fl (w.getD j 0) = _
  rw [t2, Finset.sum_range, Matrix.vecMul, dotProduct]
  refine Finset.sum_congr rfl fun i _ => ?_
  have hmv : fl (m.val i j) = A i j := hm.val i j
  rw [hmv, hv.getD, Matrix.add_apply, Matrix.of_apply]; ring

/-- C75: `SparseMatrix::mul_left(Vector)`: the constant counts only the non-zero entries of the column. -/
theorem C75_mulLeft_sparse (h : Std fl u) {r c : Nat} {m : Sparse F} {A : Matrix (Fin r) (Fin c) K} (hm : MatFl fl m A)
    {v : List F} {x : Fin r → K} (hv : VecFl fl v r x) :
    ∃ (w : List F) (y : Fin c → K) (ΔA : Matrix (Fin r) (Fin c) K), m.mulLeft v = .ok w ∧ VecFl fl w c y ∧ y = x ᵥ* (A + ΔA) ∧
      ∀ i j, |ΔA i j| ≤ gam u (Finset.univ.filter (fun i => A i j ≠ 0)).card * |A i j| := by
  have hr : m.rows = r := hm.2.1
  have hc : m.columns = c := hm.2.2.1
  obtain ⟨w, w1, w2, w3⟩ := sparse_mulLeft_round h (s := m) hm.1 v (by rw [hr, hv.1])
  rw [hc] at w2 w3
  rw [hr] at w3
  choose t t1 t2 using fun j : Fin c => w3 j j.2
  refine ⟨w, _, Matrix.of fun i j => A i j * t j i - A i j, w1, vecFl_of w2, ?_, fun i j => ?_⟩
  · funext j
    show fl (w.getD j 0) = _
    rw [t2, Finset.sum_range, Matrix.vecMul, dotProduct]
    refine Finset.sum_congr rfl fun i _ => ?_
    have hmv : fl (m.val i j) = A i j := hm.val i j
    rw [hmv, hv.getD, Matrix.add_apply, Matrix.of_apply]; ring
  · rw [← colCount_card h (f := m.val) (A := A) (fun i j => hm.val i j) j]
    exact abs_mul_sub ((t1 j i).abs_sub h.u_lt)

/-! ## Witnesses: with three-bit significands `3 * 3 = 9` becomes `10`, and `10 + 1 = 11` becomes `12` -/
section
private def wA : Dense (Bin 2) := ⟨[Bin.rnd 3, Bin.rnd 1, Bin.rnd 1, Bin.rnd 3], 2, 2⟩
private def wP : Dense (Bin 2) := ⟨[Bin.rnd 12, Bin.rnd 6, Bin.rnd 6, Bin.rnd 12], 2, 2⟩
/-- the diagonal entry `10` is returned as `12` -/
example : wA.mul wA = .ok wP := by decide +kernel
example : MatFl Bin.toRat wA (!![3, 1; 1, 3] : Matrix (Fin 2) (Fin 2) ℚ) := by
  refine ⟨⟨rfl, by decide, by decide⟩, rfl, rfl, ?_⟩
  intro i j
  fin_cases i <;> fin_cases j <;> exact ⟨_, rfl, by decide +kernel⟩
example : MatFl Bin.toRat wP (!![12, 6; 6, 12] : Matrix (Fin 2) (Fin 2) ℚ) := by
  refine ⟨⟨rfl, by decide, by decide⟩, rfl, rfl, ?_⟩
  intro i j
  fin_cases i <;> fin_cases j <;> exact ⟨_, rfl, by decide +kernel⟩
example : (!![3, 1; 1, 3] * !![3, 1; 1, 3] : Matrix (Fin 2) (Fin 2) ℚ) = !![10, 6; 6, 10] := by decide +kernel
example : wA.mulLeft [Bin.rnd 3, Bin.rnd 2] = .ok [Bin.rnd 12, Bin.rnd 10] := by decide +kernel
private def wS : Sparse (Bin 2) := ⟨[Bin.rnd 3, Bin.rnd 1, Bin.rnd 3], [0, 1, 1], [0, 2], 2, 0⟩
example : (do let s ← (Sparse.mk' 2 2 : R (Sparse (Bin 2))); let s ← s.set 0 0 (Bin.rnd 3); let s ← s.set 0 1 (Bin.rnd 1)
              s.set 1 1 (Bin.rnd 3)) = .ok wS := by decide +kernel
example : wS.mul wS = .ok ⟨[Bin.rnd 10, Bin.rnd 6, Bin.rnd 10], [0, 1, 1], [0, 2], 2, 0⟩ := by decide +kernel
example : wS.mulLeft [Bin.rnd 3, Bin.rnd 3] = .ok [Bin.rnd 10, Bin.rnd 14] := by decide +kernel
end

end NS.Props.Rounding

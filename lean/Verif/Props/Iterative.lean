/-
Property theorems C37, C38, C61, C62: `Iterative::serial::jacobi` and `sor`, real scalars.

`fl v` is the vector object holding the finite values `v`; results are pairs `(vector, *it_stat)`.
-/
import Verif.Iterative
import Mathlib.Algebra.Order.Archimedean.Basic
import Mathlib.Data.Fintype.Lattice
import Mathlib.Data.Rat.Floor

set_option linter.unusedSectionVars false
set_option linter.unusedSimpArgs false

namespace NS.Props.Iter
open NS NS.MatOps NS.LawfulMat NS.Props.LU NS.Iterative Matrix
variable {M T : Type} [Field T] [LinearOrder T] [IsStrictOrderedRing T] [MatOps M T] [LawfulMat M T] {n : Nat}
  {a : M} {A : Matrix (Fin n) (Fin n) T} {b x0 : Fin n → T}

/-- squared Euclidean distance -/
def distSqr (x y : Fin n → T) : T := ∑ i, (x i - y i) ^ 2

theorem distSqr_eq (x y : Fin n → T) : (x - y) ⬝ᵥ (x - y) = distSqr x y := by
  unfold distSqr dotProduct
  refine Finset.sum_congr rfl fun i _ => ?_
  rw [Pi.sub_apply, pow_two]

theorem distSqr_le_zero {x y : Fin n → T} (h : distSqr x y ≤ 0) : x = y := by
  have := (Finset.sum_eq_zero_iff_of_nonneg (fun i (_ : i ∈ Finset.univ) => sq_nonneg (x i - y i))).1
    (le_antisymm h (Finset.sum_nonneg fun i _ => sq_nonneg _))
  funext i
  have := this i (Finset.mem_univ _)
  exact sub_eq_zero.1 (pow_eq_zero_iff (two_ne_zero)|>.1 this)

/-- one Jacobi sweep: `x + D⁻¹ (b - A x)` -/
def jacobiMap (A : Matrix (Fin n) (Fin n) T) (b x : Fin n → T) : Fin n → T :=
  fun i => x i + (b i - (A *ᵥ x) i) / A i i

theorem mulVec_split (A : Matrix (Fin n) (Fin n) T) (x : Fin n → T) (i : Fin n) :
    (A *ᵥ x) i = A i i * x i + offSum A x i := by
  unfold offSum Matrix.mulVec dotProduct
  rw [← Finset.add_sum_erase _ _ (Finset.mem_univ i), ← Finset.add_sum_erase Finset.univ (fun j => if j = i then 0 else A i j * x j) (Finset.mem_univ i)]
  simp only [if_true, zero_add]
  congr 1
  refine Finset.sum_congr rfl fun j hj => ?_
  rw [if_neg (Finset.ne_of_mem_erase hj)]

theorem jacobiMap_eq (hd : ∀ i, A i i ≠ 0) (x : Fin n → T) (i : Fin n) :
    jacobiMap A b x i = (b i - offSum A x i) / A i i := by
  unfold jacobiMap
  rw [mulVec_split]
  have := hd i
  field_simp
  ring

theorem jacobiSweep_fin (ha : IsMat a n A) (hd : ∀ i, A i i ≠ 0) (x : Fin n → T) (xm : List (Fl T)) (hl : xm.length = n) :
    jacobiSweep a (fl b) (fl x) xm = .ok (fl (jacobiMap A b x)) := by
  rw [jacobiSweep_ok ha b x xm hl]
  congr 1
  unfold fl
  congr 1
  funext i
  rw [jacobiMap_eq hd, Fl.fin_div, if_neg (hd i)]

/-- Outcome of an iteration along `y 0, y 1, …` : the first index at which the step is at most `eps`, or the limit. -/
def StopsAt (y : Nat → Fin n → T) (eps : T) (maxIter k : Nat) : Prop :=
  k ≤ maxIter ∧ (0 < maxIter → 0 < k) ∧ (k < maxIter → distSqr (y k) (y (k - 1)) ≤ eps ^ 2) ∧
    ∀ j, 0 < j → j < k → eps ^ 2 < distSqr (y j) (y (j - 1))

theorem loop_stops {sweep : List (Fl T) → List (Fl T) → R (List (Fl T))} (y : Nat → Fin n → T) {eps : T}
    (hs : ∀ k, 0 < k → sweep (fl (y k)) (fl (y k)) = .ok (fl (y (k + 1)))) (maxIter : Nat) :
    ∀ (m it : Nat) (xm : List (Fl T)), it + m = maxIter → sweep (fl (y it)) xm = .ok (fl (y (it + 1))) →
      (∀ j, 0 < j → j ≤ it → eps ^ 2 < distSqr (y j) (y (j - 1))) →
      ∃ k, iterLoop sweep (eps * eps) m it (fl (y it)) xm = .ok (fl (y k), k) ∧ it ≤ k ∧ StopsAt y eps maxIter k
  | 0, it, xm, hm, _, hj => ⟨it, rfl, le_refl _, by omega, fun h => by omega, fun h => by omega, fun j h1 h2 => hj j h1 (by omega)⟩
  | m + 1, it, xm, hm, h1, hj => by
      rw [iterLoop_fin h1, distSqr_eq, ← pow_two]
      by_cases hc : distSqr (y (it + 1)) (y it) ≤ eps ^ 2
      · rw [if_pos hc]
        exact ⟨it + 1, rfl, by omega, by omega, fun _ => by omega, fun _ => hc, fun j h1 h2 => hj j h1 (by omega)⟩
      · rw [if_neg hc, pow_two]
        obtain ⟨k, e1, e2, e3⟩ := loop_stops y (eps := eps) hs maxIter m (it + 1) (fl (y (it + 1))) (by omega) (hs _ (by omega)) (by
          intro j h1 h2
          rcases Nat.lt_or_eq_of_le h2 with h | rfl
          · exact hj j h1 (by omega)
          · exact not_le.1 hc)
        exact ⟨k, e1, by omega, e3⟩

theorem jacobi_start (ha : IsMat a n A) (maxIter : Nat) (eps : T) : ∃ xm : List (Fl T), xm.length = n ∧
    jacobi a (fl b) (fl x0) maxIter eps = iterLoop (jacobiSweep a (fl b)) (eps * eps) maxIter 0 (fl x0) xm := by
  unfold jacobi
  rw [throwIf_false _ (by rw [ha.2.1, ha.2.2.1]; simp), throwIf_false _ (by rw [ha.2.1, fl_length, fl_length]; simp)]
  rw [Vec.fill_ok]
  exact ⟨_, by simp [fl_length], rfl⟩

/-- C37: for a non-zero diagonal and any start vector, `jacobi` returns the `k`-th iterate of
`x ↦ x + D⁻¹(b - A x)` and reports `k ≤ maxIter`, where `k` is the first index whose step is at most `eps`
(squared Euclidean norm), or `maxIter`. -/
theorem C37_jacobi (ha : IsMat a n A) (hd : ∀ i, A i i ≠ 0) (maxIter : Nat) (eps : T) :
    ∃ k, jacobi a (fl b) (fl x0) maxIter eps = .ok (fl ((jacobiMap A b)^[k] x0), k) ∧
      StopsAt (fun k => (jacobiMap A b)^[k] x0) eps maxIter k := by
  obtain ⟨xm, hl, e⟩ := jacobi_start (b := b) (x0 := x0) ha maxIter eps
  rw [e]
  obtain ⟨k, e1, -, e2⟩ := loop_stops (sweep := jacobiSweep a (fl b)) (fun k => (jacobiMap A b)^[k] x0) (eps := eps)
    (fun k _ => by
      rw [jacobiSweep_fin ha hd _ _ (fl_length _), ← Function.iterate_succ_apply' (jacobiMap A b)]) maxIter maxIter 0 xm (by omega)
    (jacobiSweep_fin ha hd _ _ hl) (by omega)
  exact ⟨k, e1, e2⟩

/-- C37: a vector is a fixed point of the sweep exactly when it solves the system. -/
theorem C37_fixed_point_iff_solution (hd : ∀ i, A i i ≠ 0) (x : Fin n → T) : jacobiMap A b x = x ↔ A *ᵥ x = b := by
  constructor
  · intro h
    funext i
    have := congrFun h i
    unfold jacobiMap at this
    have h2 : (b i - (A *ᵥ x) i) / A i i = 0 := by linarith
    rcases div_eq_zero_iff.1 h2 with h3 | h3
    · linarith
    · exact absurd h3 (hd i)
  · intro h
    funext i
    unfold jacobiMap
    rw [h]; simp

/-- C37: convergence with step zero (`eps = 0`, before the iteration limit) returns an exact solution. -/
theorem C37_exact_convergence (ha : IsMat a n A) (hd : ∀ i, A i i ≠ 0) {maxIter it : Nat} {x : List (Fl T)}
    (h : jacobi a (fl b) (fl x0) maxIter (0 : T) = .ok (x, it)) (hit : it < maxIter) :
    ∃ y : Fin n → T, x = fl y ∧ A *ᵥ y = b := by
  obtain ⟨k, e1, e2, e3, e4, -⟩ := C37_jacobi (b := b) (x0 := x0) ha hd maxIter 0
  rw [h] at e1; cases e1
  refine ⟨_, rfl, ?_⟩
  have hk := e3 (by omega)
  have := distSqr_le_zero (by simpa using e4 hit)
  obtain ⟨m, rfl⟩ : ∃ m, it = m + 1 := ⟨it - 1, by omega⟩
  simp only [Nat.add_sub_cancel] at this
  rw [← C37_fixed_point_iff_solution hd]
  rw [Function.iterate_succ_apply'] at this ⊢
  rw [this, this]

/-- C37, zero diagonal (partial): with at least one iteration and a zero on the diagonal, the call throws
`MatrixHasZeroInDiagException` exactly when some row with zero diagonal entry is satisfied by the other components
of `x0`; otherwise it returns, after one iteration, a vector that is not finite. -/
theorem C37_zero_diagonal_partial (ha : IsMat a n A) {i0 : Fin n} (h0 : A i0 i0 = 0) {maxIter : Nat} (hmax : 0 < maxIter)
    (eps : T) :
    (jacobi a (fl b) (fl x0) maxIter eps = .error (.exc .matrixHasZeroInDiag) ↔ ∃ i, A i i = 0 ∧ (A *ᵥ x0) i = b i) ∧
    (jacobi a (fl b) (fl x0) maxIter eps ≠ .error (.exc .matrixHasZeroInDiag) →
      ∃ g : Fin n → Fl T, jacobi a (fl b) (fl x0) maxIter eps = .ok (List.ofFn g, 1) ∧
        ∀ i, (g i).isFinite = false ↔ A i i = 0) := by
  obtain ⟨xm, hl, e⟩ := jacobi_start (b := b) (x0 := x0) ha maxIter eps
  obtain ⟨k, rfl⟩ : ∃ k, maxIter = k + 1 := ⟨maxIter - 1, by omega⟩
  set g : Fin n → Fl T := fun i => Fl.fin (b i - offSum A x0 i) / Fl.fin (A i i) with hg
  have hfin : ∀ i, (g i).isFinite = false ↔ A i i = 0 := by
    intro i
    simp only [hg, Fl.fin_div]
    by_cases h : A i i = 0
    · rw [if_pos h]
      unfold Fl.infSgn
      simp only [h, iff_true]
      split
      · rfl
      · split <;> rfl
    · rw [if_neg h]; simp [h, Fl.isFinite]
  have hnan : (∃ i, g i = .nan) ↔ ∃ i, A i i = 0 ∧ (A *ᵥ x0) i = b i := by
    refine exists_congr fun i => ?_
    simp only [hg, Fl.fin_div]
    by_cases h : A i i = 0
    · rw [if_pos h, mulVec_split, h]
      unfold Fl.infSgn
      by_cases h2 : b i - offSum A x0 i = 0
      · have : 0 * x0 i + offSum A x0 i = b i := by linarith
        simp only [h2, if_true, true_and, true_iff]
        exact this
      · have : ¬ (0 * x0 i + offSum A x0 i = b i) := fun h3 => h2 (by linarith)
        rw [if_neg h2]
        simp only [true_and, this, iff_false]
        split <;> simp
    · rw [if_neg h]; simp [h]
  have key := iterLoop_nonfin (sweep := jacobiSweep a (fl b)) (e2 := eps * eps) (k := k) (it := 0)
    (jacobiSweep_ok ha b x0 xm hl) ⟨i0, (hfin i0).2 h0⟩
  rw [e, key]
  by_cases hn : ∃ i, g i = .nan
  · rw [if_pos hn]
    exact ⟨iff_of_true rfl (hnan.1 hn), fun h => absurd rfl h⟩
  · rw [if_neg hn]
    refine ⟨iff_of_false (by simp) (fun h => hn (hnan.2 h)), fun _ => ⟨g, rfl, hfin⟩⟩

/-- C37: the zero diagonal entry is not always reported: the 2x2 system `[0 1; 1 1] x = (1, 0)` from `x = 0` returns
`(inf, 0)` without an exception. -/
theorem C37_zero_diagonal_negation :
    jacobi (⟨[0, 1, 1, 1], 2, 2⟩ : Dense ℚ) [.fin 1, .fin 0] [.fin 0, .fin 0] 10 (1 / 10) = .ok ([.pinf, .fin 0], 1) := by
  decide +kernel

/-- C37, C38: shape errors. -/
theorem C37_shape (a : M) (b x0 : List (Fl T)) (w : T) (maxIter : Nat) (eps : T) :
    (rows a ≠ cols a → jacobi a b x0 maxIter eps = .error (.exc .notSquare) ∧
      sor a b x0 w maxIter eps = .error (.exc .notSquare)) ∧
    (rows a = cols a → rows a ≠ b.length ∨ rows a ≠ x0.length →
      jacobi a b x0 maxIter eps = .error (.exc .matrixVectorMismatch) ∧
      sor a b x0 w maxIter eps = .error (.exc .matrixVectorMismatch)) := by
  unfold jacobi sor
  constructor
  · intro h
    rw [throwIf_true _ h]; exact ⟨rfl, rfl⟩
  · intro h1 h2
    rw [throwIf_false _ (by simpa using h1), throwIf_true _ h2]; exact ⟨rfl, rfl⟩

/-! ### C38: sor -/

/-- `y` is the SOR sweep from `x` with relaxation `w`, where the relaxed old value is `base`
(the textbook method has `base = x`): with the rows treated in order,
`y i = (1-w) base i + w (b i - Σ_{j<i} A i j y j - Σ_{j>i} A i j x j) / A i i`. -/
def IsSorSweep (A : Matrix (Fin n) (Fin n) T) (b : Fin n → T) (w : T) (base x y : Fin n → T) : Prop :=
  ∀ i, y i = (1 - w) * base i + w * ((b i - ∑ j, (if j < i then A i j * y j else if i < j then A i j * x j else 0)) / A i i)

/-- C38: for a non-zero diagonal `sor` walks along the SOR iterates, except that the first sweep relaxes against 0
instead of the start vector; the stopping rule is that of `jacobi`. -/
theorem C38_sor (ha : IsMat a n A) (hd : ∀ i, A i i ≠ 0) (w : T) (maxIter : Nat) (eps : T) :
    ∃ (y : Nat → Fin n → T) (k : Nat), y 0 = x0 ∧ IsSorSweep A b w 0 x0 (y 1) ∧
      (∀ j, 0 < j → IsSorSweep A b w (y j) (y j) (y (j + 1))) ∧
      sor a (fl b) (fl x0) w maxIter eps = .ok (fl (y k), k) ∧ StopsAt y eps maxIter k := by
  obtain ⟨y1, hy1⟩ := sorStep_exists A b w 0 x0
  choose next hnext using fun x => sorStep_exists A b w x x
  let y : Nat → Fin n → T := fun k => match k with
    | 0 => x0
    | k + 1 => next^[k] y1
  have hy : ∀ j, 0 < j → SorStep A b w (y j) (y j) (y (j + 1)) := by
    intro j hj
    obtain ⟨m, rfl⟩ : ∃ m, j = m + 1 := ⟨j - 1, by omega⟩
    show SorStep A b w (next^[m] y1) (next^[m] y1) (next^[m + 1] y1)
    rw [Function.iterate_succ_apply']
    exact hnext _
  have hfill : Vec.fill (fl x0) (0 : Fl T) = .ok (fl (0 : Fin n → T)) := by
    rw [Vec.fill_ok, fl_length]
    congr 1
    unfold fl
    apply List.ext_getElem (by simp)
    intro i _ _
    simp [Fl.zero_def]
  obtain ⟨k, e1, -, e2⟩ := loop_stops (sweep := sorSweep w a (fl b)) y (eps := eps)
    (fun k hk => sorSweep_ok ha hd b w _ _ _ (hy k hk)) maxIter maxIter 0 (fl 0) (by omega)
    (sorSweep_ok ha hd b w _ _ _ (show SorStep A b w 0 x0 (y 1) from hy1)) (by omega)
  refine ⟨y, k, rfl, hy1, hy, ?_, e2⟩
  unfold sor
  rw [throwIf_false _ (by rw [ha.2.1, ha.2.2.1]; simp), throwIf_false _ (by rw [ha.2.1, fl_length, fl_length]; simp), hfill]
  exact e1

/-- a vector reproduced by a sweep solves the system -/
theorem solution_of_sweep (hd : ∀ i, A i i ≠ 0) {w : T} (hw : w ≠ 0) {base y : Fin n → T}
    (h : IsSorSweep A b w base y y) (hb : w = 1 ∨ base = y) : A *ᵥ y = b := by
  funext i
  have hi := h i
  have e : (∑ j, if j < i then A i j * y j else if i < j then A i j * y j else 0) = offSum A y i := by
    unfold offSum
    refine Finset.sum_congr rfl fun j _ => ?_
    rcases lt_trichotomy j i with h | rfl | h
    · simp [h, h.ne]
    · simp
    · simp [h, h.ne', h.not_gt]
  rw [e] at hi
  rw [mulVec_split]
  have hdi := hd i
  have h2 : w * y i = w * ((b i - offSum A y i) / A i i) := by
    rcases hb with rfl | rfl
    · linarith
    · linarith
  have h3 := mul_left_cancel₀ hw h2
  rw [eq_div_iff hdi] at h3
  linarith

/-- C38 (partial): convergence with step zero (`eps = 0`, before the iteration limit) returns an exact solution if at
least two iterations were made, or `weight = 1`, or the start vector is 0. -/
theorem C38_exact_convergence_partial (ha : IsMat a n A) (hd : ∀ i, A i i ≠ 0) {w : T} (hw : w ≠ 0) {maxIter it : Nat}
    {x : List (Fl T)} (h : sor a (fl b) (fl x0) w maxIter (0 : T) = .ok (x, it)) (hit : it < maxIter)
    (hstart : 2 ≤ it ∨ w = 1 ∨ x0 = 0) : ∃ y : Fin n → T, x = fl y ∧ A *ᵥ y = b := by
  obtain ⟨y, k, h0, h1, h2, h3, h4, h5, h6, h7⟩ := C38_sor (b := b) (x0 := x0) ha hd w maxIter 0
  rw [h] at h3; cases h3
  refine ⟨y it, rfl, ?_⟩
  have hk := h5 (by omega)
  have heq := distSqr_le_zero (by simpa using h6 hit)
  obtain ⟨m, rfl⟩ : ∃ m, it = m + 1 := ⟨it - 1, by omega⟩
  simp only [Nat.add_sub_cancel] at heq
  cases m with
  | zero =>
    have heq' : y 1 = x0 := by rw [← h0]; exact heq
    rw [← heq'] at h1 hstart
    refine solution_of_sweep hd hw h1 ?_
    rcases hstart with h | h | h
    · omega
    · exact Or.inl h
    · exact Or.inr h.symm
  | succ m =>
    have := h2 (m + 1) (by omega)
    rw [← heq] at this
    exact solution_of_sweep hd hw this (Or.inr rfl)

/-- C38 fails in general: `[1] x = [1]` with weight 3/2 from `x = 3/2` returns `3/2` after one iteration, even with
tolerance zero. -/
theorem C38_negation : sor (⟨[1], 1, 1⟩ : Dense ℚ) [.fin 1] [.fin (3 / 2)] (3 / 2) 10 0 = .ok ([.fin (3 / 2)], 1) := by
  decide +kernel

/-- C38: with a zero on the diagonal `sor` never returns a finite vector (given one iteration). -/
theorem C38_zero_diagonal (ha : IsMat a n A) {i0 : Fin n} (h0 : A i0 i0 = 0) {maxIter : Nat} (hmax : 0 < maxIter)
    (w eps : T) :
    sor a (fl b) (fl x0) w maxIter eps = .error (.exc .matrixHasZeroInDiag) ∨
    ∃ g : Fin n → Fl T, sor a (fl b) (fl x0) w maxIter eps = .ok (List.ofFn g, 1) ∧ ∃ i, (g i).isFinite = false := by
  obtain ⟨k, rfl⟩ : ∃ k, maxIter = k + 1 := ⟨maxIter - 1, by omega⟩
  -- the first zero on the diagonal
  obtain ⟨i1, h1, hmin⟩ : ∃ i1 : Fin n, A i1 i1 = 0 ∧ ∀ j, j < i1 → A j j ≠ 0 := by
    have hex : ∃ m, ∃ h : m < n, A ⟨m, h⟩ ⟨m, h⟩ = 0 := ⟨i0, i0.2, h0⟩
    obtain ⟨hm, hz⟩ := Nat.find_spec hex
    exact ⟨⟨Nat.find hex, hm⟩, hz, fun j hj hz' => Nat.find_min hex hj ⟨j.2, hz'⟩⟩
  have hfill : Vec.fill (fl x0) (0 : Fl T) = .ok (fl (0 : Fin n → T)) := by
    rw [Vec.fill_ok, fl_length]
    congr 1
    unfold fl
    apply List.ext_getElem (by simp)
    intro i _ _
    simp [Fl.zero_def]
  obtain ⟨g, e1, e2⟩ := sorSweep_zero ha h1 hmin b w x0 0
  have key := iterLoop_nonfin (sweep := sorSweep w a (fl b)) (e2 := eps * eps) (k := k) (it := 0) e1 ⟨i1, e2⟩
  have : sor a (fl b) (fl x0) w (k + 1) eps = iterLoop (sorSweep w a (fl b)) (eps * eps) (k + 1) 0 (fl x0) (fl (0 : Fin n → T)) := by
    unfold sor
    rw [throwIf_false _ (by rw [ha.2.1, ha.2.2.1]; simp), throwIf_false _ (by rw [ha.2.1, fl_length, fl_length]; simp), hfill]
    rfl
  rw [this, key]
  by_cases hn : ∃ i, g i = .nan
  · left; rw [if_pos hn]
  · right; rw [if_neg hn]; exact ⟨g, rfl, i1, e2⟩

/-! ### C61, C62: convergence for strictly diagonally dominant matrices -/

/-- strict diagonal dominance -/
def StrictDom (A : Matrix (Fin n) (Fin n) T) : Prop := ∀ i, (∑ j, if j = i then 0 else |A i j|) < |A i i|

theorem StrictDom.diag (h : StrictDom A) (i : Fin n) : A i i ≠ 0 := by
  intro h0
  have := h i
  rw [h0, abs_zero] at this
  exact absurd this (not_lt.2 (Finset.sum_nonneg fun j _ => by split <;> simp))

/-- `q` bounds all row ratios -/
def RowRatio (A : Matrix (Fin n) (Fin n) T) (q : T) : Prop := ∀ i, (∑ j, if j = i then 0 else |A i j|) ≤ q * |A i i|

theorem StrictDom.ratio (h : StrictDom A) : ∃ q, 0 ≤ q ∧ q < 1 ∧ RowRatio A q := by
  have hpos : ∀ i, 0 < |A i i| := fun i => abs_pos.2 (h.diag i)
  have hnn : ∀ i, 0 ≤ (∑ j, if j = i then 0 else |A i j|) := fun i => Finset.sum_nonneg fun j _ => by split <;> simp
  cases n with
  | zero => exact ⟨0, le_refl _, one_pos, fun i => i.elim0⟩
  | succ n =>
    obtain ⟨i0, hi0⟩ := Finite.exists_max (fun i => (∑ j, if j = i then 0 else |A i j|) / |A i i|)
    refine ⟨_, div_nonneg (hnn i0) (hpos i0).le, (div_lt_one (hpos i0)).2 (h i0), fun i => ?_⟩
    exact (div_le_iff₀ (hpos i)).1 (hi0 i)

/-- `F` contracts in the maximum norm with factor `q` -/
def Contr (F : (Fin n → T) → (Fin n → T)) (q : T) : Prop :=
  ∀ x y m, (∀ i, |x i - y i| ≤ m) → ∀ i, |F x i - F y i| ≤ q * m

theorem offSum_diff {q : T} (hq : RowRatio A q) (u : Fin n → T) {m : T} (hm : ∀ i, |u i| ≤ m) (i : Fin n) :
    |offSum A u i| ≤ q * |A i i| * m := by
  have hm0 : 0 ≤ m := (abs_nonneg _).trans (hm i)
  unfold offSum
  calc |∑ j, if j = i then 0 else A i j * u j| ≤ ∑ j, |if j = i then 0 else A i j * u j| := Finset.abs_sum_le_sum_abs _ _
    _ ≤ ∑ j, (if j = i then 0 else |A i j|) * m := by
        refine Finset.sum_le_sum fun j _ => ?_
        split
        · simp
        · rw [abs_mul]; exact mul_le_mul_of_nonneg_left (hm j) (abs_nonneg _)
    _ = (∑ j, if j = i then 0 else |A i j|) * m := by rw [Finset.sum_mul]
    _ ≤ _ := mul_le_mul_of_nonneg_right (hq i) hm0

theorem offSum_sub (A : Matrix (Fin n) (Fin n) T) (x y : Fin n → T) (i : Fin n) :
    offSum A x i - offSum A y i = offSum A (x - y) i := by
  unfold offSum
  rw [← Finset.sum_sub_distrib]
  refine Finset.sum_congr rfl fun j _ => ?_
  split
  · ring
  · rw [Pi.sub_apply]; ring

theorem jacobi_contr (hd : ∀ i, A i i ≠ 0) {q : T} (hq : RowRatio A q) : Contr (jacobiMap A b) q := by
  intro x y m hm i
  have hpos := abs_pos.2 (hd i)
  rw [jacobiMap_eq hd, jacobiMap_eq hd, ← sub_div, abs_div, div_le_iff₀ hpos]
  have : b i - offSum A x i - (b i - offSum A y i) = - offSum A (x - y) i := by rw [← offSum_sub]; ring
  rw [this, abs_neg]
  calc _ ≤ q * |A i i| * m := offSum_diff hq _ (fun j => hm j) i
    _ = _ := by ring

/-- geometric decay of the steps and eventual stopping -/
theorem contr_stops [Archimedean T] {F : (Fin n → T) → (Fin n → T)} {q : T} (hq0 : 0 ≤ q) (hq1 : q < 1) (hF : Contr F q)
    {y : Nat → Fin n → T} {s : Nat} (hy : ∀ k, s ≤ k → y (k + 1) = F (y k)) {eps : T} (he : eps ≠ 0) :
    ∃ N, s < N ∧ distSqr (y N) (y (N - 1)) ≤ eps ^ 2 := by
  obtain ⟨B, hB0, hB⟩ : ∃ B, 0 ≤ B ∧ ∀ i, |y (s + 1) i - y s i| ≤ B := by
    refine ⟨∑ i, |y (s + 1) i - y s i|, Finset.sum_nonneg fun i _ => abs_nonneg _, fun i => ?_⟩
    exact Finset.single_le_sum (f := fun i => |y (s + 1) i - y s i|) (fun i _ => abs_nonneg _) (Finset.mem_univ i)
  have hstep : ∀ k i, |y (s + k + 1) i - y (s + k) i| ≤ q ^ k * B := by
    intro k
    induction k with
    | zero => intro i; simpa using hB i
    | succ k ih =>
      intro i
      have h1 : y (s + (k + 1) + 1) = F (y (s + k + 1)) := hy _ (by omega)
      have h2 : y (s + (k + 1)) = F (y (s + k)) := hy (s + k) (by omega)
      rw [h1, h2, pow_succ]
      calc _ ≤ q * (q ^ k * B) := hF _ _ _ ih i
        _ = _ := by ring
  have he2 : 0 < eps ^ 2 := by positivity
  obtain ⟨k, hk⟩ := exists_pow_lt_of_lt_one (show 0 < eps ^ 2 / (n * B ^ 2 + 1) by positivity) hq1
  refine ⟨s + k + 1, by omega, ?_⟩
  have hqk : q ^ k ≤ 1 := pow_le_one₀ hq0 hq1.le
  have hqk0 : 0 ≤ q ^ k := pow_nonneg hq0 k
  have h1 : distSqr (y (s + k + 1)) (y (s + k)) ≤ n * (q ^ k * B) ^ 2 := by
    unfold distSqr
    calc _ ≤ ∑ _i : Fin n, (q ^ k * B) ^ 2 := by
          refine Finset.sum_le_sum fun i _ => ?_
          exact sq_le_sq' (by have := abs_le.1 (hstep k i); linarith [this.1]) (abs_le.1 (hstep k i)).2
      _ = _ := by simp
  have h2 : (n : T) * (q ^ k * B) ^ 2 ≤ q ^ k * (n * B ^ 2 + 1) := by
    have : (q ^ k) ^ 2 ≤ q ^ k := by nlinarith
    have h3 : 0 ≤ (n : T) * B ^ 2 := by positivity
    calc _ = (q ^ k) ^ 2 * (n * B ^ 2) := by ring
      _ ≤ q ^ k * (n * B ^ 2) := mul_le_mul_of_nonneg_right this h3
      _ ≤ _ := by nlinarith
  have h3 : q ^ k * (n * B ^ 2 + 1) ≤ eps ^ 2 := by
    rw [lt_div_iff₀ (by positivity)] at hk
    exact hk.le
  exact h1.trans (h2.trans h3)

/-- error bound at a stopping point -/
theorem contr_error {F : (Fin n → T) → (Fin n → T)} {q : T} (hq0 : 0 ≤ q) (hq1 : q < 1) (hF : Contr F q) {x z : Fin n → T}
    (hz : F z = z) {eps : T} (he : 0 ≤ eps) (h : distSqr (F x) x ≤ eps ^ 2) (i : Fin n) :
    (1 - q) * |F x i - z i| ≤ q * eps := by
  have hs : ∀ i, |F x i - x i| ≤ eps := by
    intro i
    refine abs_le_of_sq_le_sq ?_ he
    refine le_trans ?_ h
    exact Finset.single_le_sum (f := fun i => (F x i - x i) ^ 2) (fun i _ => sq_nonneg _) (Finset.mem_univ i)
  have : Nonempty (Fin n) := ⟨i⟩
  obtain ⟨i0, hi0⟩ := Finite.exists_max (fun i => |x i - z i|)
  have hc := hF x z _ hi0
  rw [hz] at hc
  have h1 : |x i0 - z i0| ≤ |F x i0 - z i0| + |F x i0 - x i0| := by
    have := abs_sub_le (x i0) (F x i0) (z i0)
    rw [abs_sub_comm (x i0) (F x i0)] at this
    linarith
  have h2 : (1 - q) * |x i0 - z i0| ≤ eps := by
    have := hc i0
    have := hs i0
    linarith
  calc (1 - q) * |F x i - z i| ≤ (1 - q) * (q * |x i0 - z i0|) := mul_le_mul_of_nonneg_left (hc i) (by linarith)
    _ = q * ((1 - q) * |x i0 - z i0|) := by ring
    _ ≤ q * eps := mul_le_mul_of_nonneg_left h2 hq0

/-- C61: for a strictly diagonally dominant matrix (row ratio at most `q < 1`) and positive tolerance, `jacobi` stops by
convergence once the iteration limit is large enough, for every right-hand side and start vector, and every component
of the result is within `q/(1-q)*eps` of the solution. -/
theorem C61_jacobi_converges [Archimedean T] (ha : IsMat a n A) (hA : StrictDom A) {q : T} (hq0 : 0 ≤ q) (hq1 : q < 1)
    (hq : RowRatio A q) {eps : T} (he : 0 < eps) :
    ∃ N, ∀ maxIter, N < maxIter → ∃ x it, jacobi a (fl b) (fl x0) maxIter eps = .ok (fl x, it) ∧ it ≤ N ∧
      ∀ z, A *ᵥ z = b → ∀ i, (1 - q) * |x i - z i| ≤ q * eps := by
  have hF := jacobi_contr (b := b) hA.diag hq
  obtain ⟨N, hN0, hN⟩ := contr_stops hq0 hq1 hF (y := fun k => (jacobiMap A b)^[k] x0) (s := 0)
    (fun k _ => Function.iterate_succ_apply' _ _ _) (ne_of_gt he)
  refine ⟨N, fun maxIter hmax => ?_⟩
  obtain ⟨k, e1, e2, e3, e4, e5⟩ := C37_jacobi (b := b) (x0 := x0) ha hA.diag maxIter eps
  have hkN : k ≤ N := by
    by_contra h
    exact absurd hN (not_le.2 (e5 N hN0 (by omega)))
  refine ⟨_, k, e1, hkN, fun z hz i => ?_⟩
  have hk := e3 (by omega)
  obtain ⟨m, rfl⟩ : ∃ m, k = m + 1 := ⟨k - 1, by omega⟩
  have h4 := e4 (by omega)
  simp only [Nat.add_sub_cancel] at h4
  rw [Function.iterate_succ_apply'] at h4 ⊢
  exact contr_error hq0 hq1 hF ((C37_fixed_point_iff_solution hA.diag z).2 hz) he.le h4 i

theorem mixSum_diff {q : T} (hq : RowRatio A q) (u v : Fin n → T) {m : T} (i : Fin n) (hm : ∀ j, j < i → |v j| ≤ m)
    (hm' : ∀ j, i < j → |u j| ≤ m) (hm0 : 0 ≤ m) : |mixSum A u v i| ≤ q * |A i i| * m := by
  unfold mixSum
  calc _ ≤ ∑ j, |if j < i then A i j * v j else if i < j then A i j * u j else 0| := Finset.abs_sum_le_sum_abs _ _
    _ ≤ ∑ j, (if j = i then 0 else |A i j|) * m := by
        refine Finset.sum_le_sum fun j _ => ?_
        rcases lt_trichotomy j i with h | rfl | h
        · rw [if_pos h, if_neg h.ne, abs_mul]; exact mul_le_mul_of_nonneg_left (hm j h) (abs_nonneg _)
        · simp
        · rw [if_neg h.not_gt, if_pos h, if_neg h.ne', abs_mul]; exact mul_le_mul_of_nonneg_left (hm' j h) (abs_nonneg _)
    _ = (∑ j, if j = i then 0 else |A i j|) * m := by rw [Finset.sum_mul]
    _ ≤ _ := mul_le_mul_of_nonneg_right (hq i) hm0

theorem mixSum_sub (A : Matrix (Fin n) (Fin n) T) (x y x' y' : Fin n → T) (i : Fin n) :
    mixSum A x y i - mixSum A x' y' i = mixSum A (x - x') (y - y') i := by
  unfold mixSum
  rw [← Finset.sum_sub_distrib]
  refine Finset.sum_congr rfl fun j _ => ?_
  split
  · rw [Pi.sub_apply]; ring
  · split
    · rw [Pi.sub_apply]; ring
    · ring

/-- C62: for a strictly diagonally dominant matrix, weight `0 < w ≤ 1` and positive tolerance, `sor` stops by convergence
once the iteration limit is large enough; if it made at least two iterations, every component of the result is within
`p/(1-p)*eps` of the solution, where `p = 1 - w + w q`. -/
theorem C62_sor_converges [Archimedean T] (ha : IsMat a n A) (hA : StrictDom A) {q : T} (hq0 : 0 ≤ q) (hq1 : q < 1)
    (hq : RowRatio A q) {w : T} (hw0 : 0 < w) (hw1 : w ≤ 1) {eps : T} (he : 0 < eps) :
    ∃ N, ∀ maxIter, N < maxIter → ∃ x it, sor a (fl b) (fl x0) w maxIter eps = .ok (fl x, it) ∧ it ≤ N ∧
      (2 ≤ it → ∀ z, A *ᵥ z = b → ∀ i, (1 - (1 - w + w * q)) * |x i - z i| ≤ (1 - w + w * q) * eps) := by
  have hd := hA.diag
  have uniq : ∀ {base x y y' : Fin n → T}, SorStep A b w base x y → SorStep A b w base x y' → y = y' := by
    intro base x y y' h h'
    have : ∀ k : Nat, ∀ i : Fin n, (i : Nat) = k → y i = y' i := by
      intro k
      induction k using Nat.strong_induction_on with
      | _ k ih =>
        intro i hi
        rw [h i, h' i]
        have : mixSum A x y i = mixSum A x y' i := by
          unfold mixSum
          refine Finset.sum_congr rfl fun j _ => ?_
          split
          · next hj => rw [ih j (by have : (j : Nat) < i := hj; omega) j rfl]
          · rfl
        rw [this]
    funext i; exact this i i rfl
  choose next hnext using fun x => sorStep_exists A b w x x
  have hp0 : 0 ≤ 1 - w + w * q := by nlinarith
  have hp1 : 1 - w + w * q < 1 := by nlinarith
  have hpq : q ≤ 1 - w + w * q := by nlinarith
  have hF : Contr next (1 - w + w * q) := by
    intro x y m hm
    have key : ∀ k : Nat, ∀ i : Fin n, (i : Nat) = k → |next x i - next y i| ≤ (1 - w + w * q) * m := by
      intro k
      induction k using Nat.strong_induction_on with
      | _ k ih =>
        intro i hi
        have hm0 : 0 ≤ m := (abs_nonneg _).trans (hm i)
        have hpos := abs_pos.2 (hd i)
        have e : next x i - next y i = (1 - w) * (x i - y i) + w * (-(mixSum A (x - y) (next x - next y) i) / A i i) := by
          rw [hnext x i, hnext y i, ← mixSum_sub]
          field_simp
          ring
        have hmix := mixSum_diff hq (x - y) (next x - next y) (m := m) i (fun j hj => by
            have := ih j (by have : (j : Nat) < i := hj; omega) j rfl
            refine this.trans ?_
            nlinarith) (fun j _ => hm j) hm0
        have h1 : |-(mixSum A (x - y) (next x - next y) i) / A i i| ≤ q * m := by
          rw [abs_div, abs_neg, div_le_iff₀ hpos]
          calc _ ≤ _ := hmix
            _ = _ := by ring
        rw [e]
        calc _ ≤ |(1 - w) * (x i - y i)| + |w * (-(mixSum A (x - y) (next x - next y) i) / A i i)| := abs_add_le _ _
          _ = (1 - w) * |x i - y i| + w * |-(mixSum A (x - y) (next x - next y) i) / A i i| := by
              rw [abs_mul, abs_mul, abs_of_nonneg (show 0 ≤ 1 - w by linarith), abs_of_pos hw0]
          _ ≤ (1 - w) * m + w * (q * m) :=
              add_le_add (mul_le_mul_of_nonneg_left (hm i) (by linarith)) (mul_le_mul_of_nonneg_left h1 hw0.le)
          _ = _ := by ring
    exact fun i => key i i rfl
  obtain ⟨y1, hy1⟩ := sorStep_exists A b w 0 x0
  obtain ⟨N, hN0, hN⟩ := contr_stops hp0 hp1 hF
    (y := fun k => match k with | 0 => x0 | k + 1 => next^[k] y1) (s := 1)
    (fun k hk => by
      obtain ⟨m, rfl⟩ : ∃ m, k = m + 1 := ⟨k - 1, by omega⟩
      exact Function.iterate_succ_apply' _ _ _) (ne_of_gt he)
  refine ⟨N, fun maxIter hmax => ?_⟩
  obtain ⟨y, k, h0, h1, h2, h3, h4, h5, h6, h7⟩ := C38_sor (b := b) (x0 := x0) ha hd w maxIter eps
  have hyeq : ∀ k, y (k + 1) = next^[k] y1 := by
    intro k
    induction k with
    | zero => exact uniq h1 hy1
    | succ k ih =>
      rw [Function.iterate_succ_apply', ← ih]
      exact uniq (h2 (k + 1) (by omega)) (hnext _)
  have hkN : k ≤ N := by
    by_contra h
    have := h7 N (by omega) (by omega)
    obtain ⟨m, rfl⟩ : ∃ m, N = m + 2 := ⟨N - 2, by omega⟩
    simp only [Nat.add_sub_cancel, show m + 2 - 1 = m + 1 by omega] at this hN
    rw [hyeq, hyeq] at this
    exact absurd hN (not_le.2 this)
  refine ⟨y k, k, h3, hkN, fun hk2 z hz i => ?_⟩
  obtain ⟨m, rfl⟩ : ∃ m, k = m + 2 := ⟨k - 2, by omega⟩
  have h8 := h6 (by omega)
  simp only [show m + 2 - 1 = m + 1 by omega] at h8
  have e : y (m + 2) = next (y (m + 1)) := by
    rw [hyeq, hyeq, Function.iterate_succ_apply']
  rw [e] at h8 ⊢
  refine contr_error hp0 hp1 hF ?_ he.le h8 i
  refine uniq (hnext z) ?_
  intro i
  have hz' : b i = A i i * z i + offSum A z i := by rw [← mulVec_split, hz]
  have e2 : mixSum A z z i = offSum A z i := by
    unfold mixSum offSum
    refine Finset.sum_congr rfl fun j _ => ?_
    rcases lt_trichotomy j i with h | rfl | h
    · simp [h, h.ne]
    · simp
    · simp [h, h.ne', h.not_gt]
  rw [e2, hz', add_sub_cancel_right, mul_div_cancel_left₀ _ (hd i)]
  ring

/-- a concrete system that meets the hypotheses -/
def exA : Matrix (Fin 2) (Fin 2) ℚ := !![4, 1; -1, 2]
example : StrictDom exA ∧ RowRatio exA (1 / 2) ∧ (∀ i, exA i i ≠ 0) ∧
    IsMat (⟨[4, 1, -1, 2], 2, 2⟩ : Dense ℚ) 2 exA :=
  ⟨by unfold StrictDom; decide +kernel, by unfold RowRatio; decide +kernel, by decide +kernel,
    show Dense.WF _ from ⟨rfl, by decide, by decide⟩, rfl, rfl, by decide +kernel⟩
example : jacobi (⟨[4, 1, -1, 2], 2, 2⟩ : Dense ℚ) [.fin 5, .fin 1] [.fin 0, .fin 0] 100 (1 / 4) =
    .ok ([.fin (31 / 32), .fin (17 / 16)], 3) := by decide +kernel
example : sor (⟨[4, 1, -1, 2], 2, 2⟩ : Dense ℚ) [.fin 5, .fin 1] [.fin 0, .fin 0] 1 100 (1 / 4) =
    .ok ([.fin (257 / 256), .fin (513 / 512)], 3) := by decide +kernel
/-- step zero is reached by a triangular system -/
example : jacobi (⟨[2, 0, 1, 1], 2, 2⟩ : Dense ℚ) [.fin 2, .fin 3] [.fin 0, .fin 0] 10 0 = .ok ([.fin 1, .fin 2], 3) := by
  decide +kernel
end NS.Props.Iter

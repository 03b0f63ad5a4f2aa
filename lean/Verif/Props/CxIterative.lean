/-
Property theorems C87: `Iterative::serial::jacobi` and `sor` with complex element types.

`K` is any field (exact arithmetic) and `cabs` is `std::abs`; the matrices are sparse or dense.
-/
import Verif.CxIterativeModel
import Verif.Iterative
import Mathlib.Algebra.QuadraticAlgebra.Basic
import Mathlib.Analysis.Complex.Basic
import Mathlib.Tactic.Linarith

set_option linter.unusedSectionVars false
set_option linter.unusedSimpArgs false

namespace NS.Props.CxIterative
open NS NS.MatOps NS.LawfulMat NS.Props.LU NS.CxIterative Matrix

section
variable {M K T : Type} [Field K] [DecidableEq K] [MatOps M K] [LawfulMat M K] {n : Nat}
  {a : M} {A : Matrix (Fin n) (Fin n) K} {b x0 : Fin n → K}

theorem forList_mid (l : List (Nat × Nat × K)) (i : Nat) (g : Nat → K)
    (body : Nat × Nat × K → K × K → R (K × K))
    (h1 : ∀ e ∈ l, e.2.1 ≠ i → ∀ s, body e s = .ok (s.1, s.2 + e.2.2 * g e.2.1))
    (h2 : ∀ e ∈ l, e.2.1 = i → ∀ s, body e s = .ok (e.2.2, s.2))
    (s : K × K) (hs : l.Pairwise (fun a b => a.2.1 < b.2.1)) :
    forList l s body = .ok
      (((l.find? (fun e => e.2.1 == i)).elim s.1 (fun e => e.2.2)),
        s.2 + ((l.filter (fun e => e.2.1 != i)).map (fun e => e.2.2 * g e.2.1)).sum) := by
  induction l generalizing s with
  | nil => simp [forList]
  | cons e l ih =>
    obtain ⟨p1, p2⟩ := List.pairwise_cons.1 hs
    by_cases he : e.2.1 = i
    · rw [forList, h2 e (by simp) he, ok_bind,
        ih (fun e' h => h1 e' (List.mem_cons_of_mem _ h)) (fun e' h => h2 e' (List.mem_cons_of_mem _ h)) _ p2]
      have hno : l.find? (fun e => e.2.1 == i) = none := by
        rw [List.find?_eq_none]
        intro e' h'
        have := p1 e' h'
        simp; omega
      rw [hno]
      simp [he]
    · rw [forList, h1 e (by simp) he, ok_bind,
        ih (fun e' h => h1 e' (List.mem_cons_of_mem _ h)) (fun e' h => h2 e' (List.mem_cons_of_mem _ h)) _ p2]
      simp only [List.find?_cons, beq_iff_eq, he, if_false, List.filter_cons, bne_iff_ne, ne_eq, not_false_eq_true, if_true,
        List.map_cons, List.sum_cons, add_assoc, beq_eq_false_iff_ne.2 he]

/-- `Σ_{j ≠ i} A i j x j` -/
def offSum (A : Matrix (Fin n) (Fin n) K) (x : Fin n → K) (i : Fin n) : K := ∑ j, if j = i then 0 else A i j * x j

theorem row_ok (ha : IsMat a n A) (i : Fin n) (g : Fin n → K)
    (body : Nat × Nat × K → K × K → R (K × K))
    (h1 : ∀ e : Nat × Nat × K, (h : e.2.1 < n) → e.2.1 ≠ i → ∀ s, body e s = .ok (s.1, s.2 + e.2.2 * g ⟨e.2.1, h⟩))
    (h2 : ∀ e : Nat × Nat × K, e.2.1 = i → ∀ s, body e s = .ok (e.2.2, s.2)) :
    ∃ row, rowEntries a i = .ok row ∧ forList row (0, 0) body = .ok (A i i, offSum A g i) := by
  obtain ⟨l, q1, q2, q3, q4⟩ := rowEntries_ok (m := a) (i := i) ha.1 (by rw [ha.2.1]; exact i.2)
  obtain ⟨l', r1, r2, r3, r4⟩ := ha.sq.row_sum i.2
  rw [q1] at r1; cases r1
  refine ⟨l, q1, ?_⟩
  rw [forList_mid l i (fun j => if h : j < n then g ⟨j, h⟩ else 0) body
    (fun e he hne s => by rw [h1 e (r3 e he) hne s, dif_pos (r3 e he)]) (fun e _ he s => h2 e he s) _ q2]
  have e1 : (l.find? (fun e => e.2.1 == (i : Nat))).elim (0 : K) (fun e => e.2.2) = A i i := by
    cases hf : l.find? (fun e => e.2.1 == (i : Nat)) with
    | none =>
      rw [List.find?_eq_none] at hf
      have : val a i i = 0 := by
        by_contra h
        exact hf _ (q4 i (by rw [ha.2.2.1]; exact i.2) h) (by simp)
      rw [ha.val_eq] at this
      rw [this]; rfl
    | some e =>
      have h3 := List.mem_of_find?_eq_some hf
      have h4 := List.find?_some hf
      simp only [beq_iff_eq] at h4
      have := (q3 e h3).2.2
      rw [h4, ha.val_eq] at this
      exact this
  have e2 : ((l.filter (fun e => e.2.1 != (i : Nat))).map
      (fun e => e.2.2 * (fun j => if h : j < n then g ⟨j, h⟩ else 0) e.2.1)).sum = offSum A g i := by
    have := r4 (fun j => j != (i : Nat)) (fun j => if h : j < n then g ⟨j, h⟩ else 0)
    rw [this, Finset.sum_range]
    unfold offSum
    refine Finset.sum_congr rfl fun j _ => ?_
    by_cases hj : j = i
    · subst hj; simp
    · have : (j : Nat) ≠ i := fun h => hj (Fin.ext h)
      simp [hj, this, ha.val_eq]
  rw [e1, e2]
  simp

theorem vecAt_of (v : Fin n → K) {i : Nat} (h : i < n) : vecAt (List.ofFn v) i = .ok (v ⟨i, h⟩) :=
  NS.Iterative.vecAt_ofFn _ ⟨i, h⟩

/-- One Jacobi step: component `i` of the result is the solution of equation `i` for `x i`, the other unknowns kept. -/
def jacobiMap (A : Matrix (Fin n) (Fin n) K) (b x : Fin n → K) : Fin n → K :=
  fun i => (b i - ∑ j, if j = i then 0 else A i j * x j) / A i i

theorem jacobiSweep_ok (ha : IsMat a n A) (hd : ∀ i, A i i ≠ 0) (b x : Fin n → K) (xm : List K) (hlen : xm.length = n) :
    jacobiSweep a (List.ofFn b) (List.ofFn x) xm = .ok (List.ofFn (jacobiMap A b x)) := by
  unfold jacobiSweep
  rw [ha.2.1]
  refine NS.Iterative.forRange_fill xm hlen _ _ ?_
  intro i w hw _ _
  obtain ⟨row, e1, e2⟩ := row_ok ha i x
    (fun e s => if e.2.1 ≠ i then do
        let xv ← vecAt (List.ofFn x) e.2.1
        return (s.1, s.2 + e.2.2 * xv)
      else return (e.2.2, s.2)) (by
      intro e h hne s
      simp only [hne, ne_eq, not_false_eq_true, if_true, vecAt_of x h, ok_bind, pure_eq_ok]) (by
      intro e he s
      simp only [he, ne_eq, not_true_eq_false, if_false, pure_eq_ok])
  have e2' : CxIterative.jacobiRow (List.ofFn x) i row = .ok (A i i, offSum A x i) := e2
  simp only [e1, ok_bind, e2', vecAt_of b i.2, fdiv, if_neg (hd i)]
  rfl

/-- A sum of squares, **without** conjugation. -/
def stepSqr (x y : Fin n → K) : K := ∑ i, (x i - y i) * (x i - y i)

theorem conv_ok (y x : Fin n → K) :
    (do let d ← Vec.subAssign (List.ofFn y) (List.ofFn x); Vec.magSqr d) = .ok (stepSqr y x) := by
  unfold Vec.subAssign
  rw [Vec.zipAssign_ok _ _ _ (by simp), ok_bind]
  unfold Vec.magSqr
  rw [Vec.dot_ok _ _ rfl]
  congr 1
  rw [List.length_zipWith, List.length_ofFn, List.length_ofFn, min_self, Finset.sum_range]
  refine Finset.sum_congr rfl fun i _ => ?_
  rw [List.getD_eq_getElem _ _ (by simp)]
  simp

variable [Semiring T] [LinearOrder T]

/-- Outcome of an iteration along `y 0, y 1, …`: the first index at which `|Σ (y k - y (k-1))²|` is at most `eps²`, or the
limit. -/
def StopsAt (cabs : K → T) (y : Nat → Fin n → K) (eps : T) (maxIter k : Nat) : Prop :=
  k ≤ maxIter ∧ (0 < maxIter → 0 < k) ∧ (k < maxIter → cabs (stepSqr (y k) (y (k - 1))) ≤ eps * eps) ∧
    ∀ j, 0 < j → j < k → eps * eps < cabs (stepSqr (y j) (y (j - 1)))

theorem loop_stops {cabs : K → T} {sweep : List K → List K → R (List K)} (y : Nat → Fin n → K) {eps : T}
    (hs : ∀ k, 0 < k → sweep (List.ofFn (y k)) (List.ofFn (y k)) = .ok (List.ofFn (y (k + 1)))) (maxIter : Nat) :
    ∀ (m it : Nat) (xm : List K), it + m = maxIter → sweep (List.ofFn (y it)) xm = .ok (List.ofFn (y (it + 1))) →
      (∀ j, 0 < j → j ≤ it → eps * eps < cabs (stepSqr (y j) (y (j - 1)))) →
      ∃ k, iterLoop cabs sweep (eps * eps) m it (List.ofFn (y it)) xm = .ok (List.ofFn (y k), k) ∧ it ≤ k ∧
        StopsAt cabs y eps maxIter k
  | 0, it, xm, hm, _, hj => ⟨it, rfl, le_refl _, by omega, fun h => by omega, fun h => by omega, fun j h1 h2 => hj j h1 (by omega)⟩
  | m + 1, it, xm, hm, h1, hj => by
      have hl : iterLoop cabs sweep (eps * eps) (m + 1) it (List.ofFn (y it)) xm =
          if cabs (stepSqr (y (it + 1)) (y it)) ≤ eps * eps then .ok (List.ofFn (y (it + 1)), it + 1)
          else iterLoop cabs sweep (eps * eps) m (it + 1) (List.ofFn (y (it + 1))) (List.ofFn (y (it + 1))) := by
        have hc := conv_ok (y (it + 1)) (y it)
        obtain ⟨d, d1, d2⟩ : ∃ d, Vec.subAssign (List.ofFn (y (it + 1))) (List.ofFn (y it)) = .ok d ∧
            Vec.magSqr d = .ok (stepSqr (y (it + 1)) (y it)) := by
          unfold Vec.subAssign at hc ⊢
          rw [Vec.zipAssign_ok _ _ _ (by simp)] at hc ⊢
          exact ⟨_, rfl, hc⟩
        rw [iterLoop, h1, ok_bind, d1, ok_bind, d2, ok_bind]
        rfl
      rw [hl]
      by_cases hc : cabs (stepSqr (y (it + 1)) (y it)) ≤ eps * eps
      · rw [if_pos hc]
        exact ⟨it + 1, rfl, by omega, by omega, fun _ => by omega, fun _ => hc, fun j h1 h2 => hj j h1 (by omega)⟩
      · rw [if_neg hc]
        obtain ⟨k, e1, e2, e3⟩ := loop_stops y (eps := eps) hs maxIter m (it + 1) (List.ofFn (y (it + 1))) (by omega) (hs _ (by omega)) (by
          intro j h1 h2
          rcases Nat.lt_or_eq_of_le h2 with h | rfl
          · exact hj j h1 (by omega)
          · exact not_le.1 hc)
        exact ⟨k, e1, by omega, e3⟩

/-- **C87**: for a non-zero diagonal, `jacobi` returns the `k`-th Jacobi iterate and reports `k`, the first index at which the
absolute value of the (unconjugated) sum of the squares of the step is at most `eps²`, or the limit. -/
theorem C87_jacobi (cabs : K → T) (ha : IsMat a n A) (hd : ∀ i, A i i ≠ 0) (maxIter : Nat) (eps : T) :
    ∃ k, jacobi cabs a (List.ofFn b) (List.ofFn x0) maxIter eps = .ok (List.ofFn ((jacobiMap A b)^[k] x0), k) ∧
      StopsAt cabs (fun k => (jacobiMap A b)^[k] x0) eps maxIter k := by
  unfold jacobi
  rw [throwIf_false _ (by rw [ha.2.1, ha.2.2.1]; simp), throwIf_false _ (by rw [ha.2.1]; simp)]
  rw [Vec.fill_ok]
  simp only [ok_bind]
  obtain ⟨k, e1, -, e2⟩ := loop_stops (cabs := cabs) (sweep := jacobiSweep a (List.ofFn b)) (fun k => (jacobiMap A b)^[k] x0) (eps := eps)
    (fun k _ => by
      rw [jacobiSweep_ok ha hd _ _ _ (by simp), ← Function.iterate_succ_apply' (jacobiMap A b)]) maxIter maxIter 0
    (List.replicate (List.ofFn x0).length 0) (by omega) (jacobiSweep_ok ha hd _ _ _ (by simp)) (by omega)
  exact ⟨k, e1, e2⟩

/-! ### sor -/

/-- `y` is the result of one SOR sweep with weight `w`: row by row,
`y i = (1-w) base i + w (b i - Σ_{j<i} A i j y j - Σ_{j>i} A i j x j) / A i i`. -/
def IsSorSweep (A : Matrix (Fin n) (Fin n) K) (b : Fin n → K) (w : K) (base x y : Fin n → K) : Prop :=
  ∀ i, y i = (1 - w) * base i + w * ((b i - ∑ j, (if j < i then A i j * y j else if i < j then A i j * x j else 0)) / A i i)

theorem sorSweep_exists (A : Matrix (Fin n) (Fin n) K) (b : Fin n → K) (w : K) (base x : Fin n → K) :
    ∃ y, IsSorSweep A b w base x y := by
  suffices h : ∀ k : Nat, ∃ y : Fin n → K, ∀ i : Fin n, (i : Nat) < k →
      y i = (1 - w) * base i + w * ((b i - ∑ j, (if j < i then A i j * y j else if i < j then A i j * x j else 0)) / A i i) by
    obtain ⟨y, hy⟩ := h n
    exact ⟨y, fun i => hy i i.2⟩
  intro k
  induction k with
  | zero => exact ⟨0, fun i hi => absurd hi (Nat.not_lt_zero _)⟩
  | succ k ih =>
    obtain ⟨y, hy⟩ := ih
    by_cases hk : k < n
    · refine ⟨Function.update y ⟨k, hk⟩ ((1 - w) * base ⟨k, hk⟩ + w * ((b ⟨k, hk⟩ -
        ∑ j, (if j < ⟨k, hk⟩ then A ⟨k, hk⟩ j * y j else if ⟨k, hk⟩ < j then A ⟨k, hk⟩ j * x j else 0)) / A ⟨k, hk⟩ ⟨k, hk⟩)), ?_⟩
      intro i hi
      have hmix : ∀ v, (∑ j, (if j < i then A i j * Function.update y ⟨k, hk⟩ v j else if i < j then A i j * x j else 0))
          = ∑ j, (if j < i then A i j * y j else if i < j then A i j * x j else 0) := by
        intro v
        refine Finset.sum_congr rfl fun j _ => ?_
        by_cases hj : j < i
        · rw [if_pos hj, if_pos hj, Function.update_of_ne]
          intro h
          have : (j : Nat) < i := hj
          rw [h] at this
          have : k < (i : Nat) := this
          omega
        · rw [if_neg hj, if_neg hj]
      rw [hmix]
      rcases Nat.lt_succ_iff_lt_or_eq.1 hi with h | h
      · rw [Function.update_of_ne (fun h' => by rw [h'] at h; exact absurd h (lt_irrefl _))]
        exact hy i h
      · obtain rfl : i = ⟨k, hk⟩ := Fin.ext h
        rw [Function.update_self]
    · exact ⟨y, fun i hi => hy i (by omega)⟩

theorem sorRow_ok (ha : IsMat a n A) (x y : Fin n → K) (i : Fin n) (xm : List K)
    (hxm : ∀ j : Fin n, j < i → vecAt xm j = .ok (y j)) :
    ∃ row, rowEntries a i = .ok row ∧ sorRow (List.ofFn x) xm i row =
      .ok (A i i, ∑ j, (if j < i then A i j * y j else if i < j then A i j * x j else 0)) := by
  have e : (∑ j, (if j < i then A i j * y j else if i < j then A i j * x j else 0))
      = offSum A (fun j => if j < i then y j else x j) i := by
    unfold offSum
    refine Finset.sum_congr rfl fun j _ => ?_
    rcases lt_trichotomy j i with h | rfl | h
    · simp [h, h.ne]
    · simp
    · simp [h, h.ne', h.not_gt]
  rw [e]
  refine row_ok ha i (fun j => if j < i then y j else x j) _ ?_ ?_
  · intro e h hne s
    rcases Nat.lt_or_gt_of_ne hne with hlt | hgt
    · rw [if_pos hlt, hxm ⟨e.2.1, h⟩ hlt]
      simp [Fin.lt_def, hlt]
    · rw [if_neg (by omega), if_pos hgt, vecAt_of x h]
      simp [Fin.lt_def, show ¬ e.2.1 < (i : Nat) by omega]
  · intro e he s
    simp [he]

theorem sorSweep_ok (ha : IsMat a n A) (hd : ∀ i, A i i ≠ 0) (b : Fin n → K) (w : K) (x base y : Fin n → K)
    (hy : IsSorSweep A b w base x y) :
    sorSweep w a (List.ofFn b) (List.ofFn x) (List.ofFn base) = .ok (List.ofFn y) := by
  unfold sorSweep
  rw [ha.2.1]
  refine NS.Iterative.forRange_fill (List.ofFn base) (List.length_ofFn) _ _ ?_
  intro i v hv h1 h2
  obtain ⟨row, e1, e2⟩ := sorRow_ok ha x y i v (fun j hj => by rw [h1 j hj])
  simp only [e1, ok_bind, e2, vecAt_of b i.2, h2 i (le_refl _), vecAt_of base i.2, fdiv, if_neg (hd i)]
  rw [hy i]

/-- **C87**: for a non-zero diagonal `sor` walks along the SOR iterates, except that the first sweep relaxes against 0 instead
of the start vector; the stopping rule is that of `jacobi`. -/
theorem C87_sor (cabs : K → T) (ha : IsMat a n A) (hd : ∀ i, A i i ≠ 0) (w : K) (maxIter : Nat) (eps : T) :
    ∃ (y : Nat → Fin n → K) (k : Nat), y 0 = x0 ∧ IsSorSweep A b w 0 x0 (y 1) ∧
      (∀ j, 0 < j → IsSorSweep A b w (y j) (y j) (y (j + 1))) ∧
      sor cabs a (List.ofFn b) (List.ofFn x0) w maxIter eps = .ok (List.ofFn (y k), k) ∧ StopsAt cabs y eps maxIter k := by
  obtain ⟨y1, hy1⟩ := sorSweep_exists A b w 0 x0
  choose next hnext using fun x => sorSweep_exists A b w x x
  let y : Nat → Fin n → K := fun k => match k with
    | 0 => x0
    | k + 1 => next^[k] y1
  have hstep : ∀ j, 0 < j → IsSorSweep A b w (y j) (y j) (y (j + 1)) := by
    intro j hj
    obtain ⟨m, rfl⟩ : ∃ m, j = m + 1 := ⟨j - 1, by omega⟩
    show IsSorSweep A b w (next^[m] y1) (next^[m] y1) (next^[m + 1] y1)
    rw [Function.iterate_succ_apply']
    exact hnext _
  unfold sor
  rw [throwIf_false _ (by rw [ha.2.1, ha.2.2.1]; simp), throwIf_false _ (by rw [ha.2.1]; simp)]
  rw [Vec.fill_ok]
  simp only [ok_bind]
  have hz : List.replicate (List.ofFn x0).length (0 : K) = List.ofFn (fun _ : Fin n => (0 : K)) := by
    rw [List.length_ofFn, List.ofFn_const]
  rw [hz]
  obtain ⟨k, e1, -, e2⟩ := loop_stops (cabs := cabs) (sweep := sorSweep w a (List.ofFn b)) y (eps := eps)
    (fun k hk => sorSweep_ok ha hd _ _ _ _ _ (hstep k hk)) maxIter maxIter 0
    (List.ofFn (fun _ : Fin n => (0 : K))) (by omega) (sorSweep_ok ha hd _ _ _ _ _ hy1) (by omega)
  exact ⟨y, k, rfl, hy1, hstep, e1, e2⟩

/-- **C87**: a vector is a fixed point of the Jacobi step exactly when it solves the system. -/
theorem C87_fixed_point (hd : ∀ i, A i i ≠ 0) (x : Fin n → K) : jacobiMap A b x = x ↔ A *ᵥ x = b := by
  have hsplit : ∀ i, (A *ᵥ x) i = A i i * x i + offSum A x i := by
    intro i
    unfold offSum
    rw [Matrix.mulVec, dotProduct, ← Finset.add_sum_erase _ _ (Finset.mem_univ i)]
    congr 1
    rw [← Finset.add_sum_erase Finset.univ _ (Finset.mem_univ i)]
    simp only [if_true, zero_add]
    refine Finset.sum_congr rfl fun j hj => ?_
    rw [if_neg (Finset.ne_of_mem_erase hj)]
  constructor
  · intro h
    funext i
    have := congrFun h i
    unfold jacobiMap at this
    rw [div_eq_iff (hd i)] at this
    rw [hsplit]
    unfold offSum
    linear_combination -this
  · intro h
    funext i
    have := congrFun h i
    rw [hsplit] at this
    unfold offSum at this
    unfold jacobiMap
    rw [div_eq_iff (hd i)]
    linear_combination -this
end

/-! ### Complex numbers -/
section complex
variable {M : Type} [MatOps M ℂ] [LawfulMat M ℂ] {n : Nat} {a : M} {A : Matrix (Fin n) (Fin n) ℂ} {b x0 : Fin n → ℂ}

/-- **C87** (error bound): if in every row the absolute values off the diagonal sum to at most `q` times the diagonal entry, the
`k`-th iterate returned by `jacobi` differs from the solution `z` in every component by at most `q^k * m`, where `m`
bounds the difference at the start. -/
theorem C87_error (ha : IsMat a n A) (hd : ∀ i, A i i ≠ 0) {q : ℝ}
    (hq : ∀ i, (∑ j, if j = i then 0 else ‖A i j‖) ≤ q * ‖A i i‖) {z : Fin n → ℂ} (hz : A *ᵥ z = b) {m : ℝ}
    (hm : ∀ i, ‖x0 i - z i‖ ≤ m) (maxIter : Nat) (eps : ℝ) :
    ∃ y k, jacobi (fun c : ℂ => ‖c‖) a (List.ofFn b) (List.ofFn x0) maxIter eps = .ok (List.ofFn y, k) ∧
      (0 < maxIter → 0 < k) ∧ ∀ i, ‖y i - z i‖ ≤ q ^ k * m := by
  obtain ⟨k, e1, e2, e3, -⟩ := C87_jacobi (b := b) (x0 := x0) (fun c : ℂ => ‖c‖) ha hd maxIter eps
  refine ⟨_, k, e1, e3, ?_⟩
  have hfix := (C87_fixed_point hd z).2 hz
  have step : ∀ (x : Fin n → ℂ) (m : ℝ), (∀ i, ‖x i - z i‖ ≤ m) → ∀ i, ‖jacobiMap A b x i - z i‖ ≤ q * m := by
    intro x m hx i
    have hpos := norm_pos_iff.2 (hd i)
    have hm0 : 0 ≤ m := (norm_nonneg _).trans (hx i)
    have : z i = jacobiMap A b z i := by rw [hfix]
    rw [this]
    unfold jacobiMap
    rw [← sub_div, norm_div, div_le_iff₀ hpos]
    have e : b i - (∑ j, if j = i then 0 else A i j * x j) - (b i - ∑ j, if j = i then 0 else A i j * z j)
        = - ∑ j, if j = i then 0 else A i j * (x j - z j) := by
      rw [sub_sub_sub_cancel_left, ← Finset.sum_sub_distrib, ← Finset.sum_neg_distrib]
      refine Finset.sum_congr rfl fun j _ => ?_
      split
      · simp
      · ring
    rw [e, norm_neg]
    calc ‖∑ j, if j = i then 0 else A i j * (x j - z j)‖ ≤ ∑ j, ‖if j = i then 0 else A i j * (x j - z j)‖ := norm_sum_le _ _
      _ ≤ ∑ j, (if j = i then 0 else ‖A i j‖) * m := by
        refine Finset.sum_le_sum fun j _ => ?_
        split
        · simp
        · rw [norm_mul]; exact mul_le_mul_of_nonneg_left (hx j) (norm_nonneg _)
      _ = (∑ j, if j = i then 0 else ‖A i j‖) * m := by rw [Finset.sum_mul]
      _ ≤ q * ‖A i i‖ * m := mul_le_mul_of_nonneg_right (hq i) hm0
      _ = q * m * ‖A i i‖ := by ring
  have : ∀ k i, ‖(jacobiMap A b)^[k] x0 i - z i‖ ≤ q ^ k * m := by
    intro k
    induction k with
    | zero => simpa using hm
    | succ k ih =>
      intro i
      rw [Function.iterate_succ_apply', pow_succ, mul_comm (q ^ k) q, mul_assoc]
      exact step _ _ ih i
  exact this k
/-- one sweep of SOR brings every component closer by the factor `1 - w + w q` -/
theorem sor_step (hd : ∀ i, A i i ≠ 0) {q w : ℝ} (hq1 : q ≤ 1) (hw0 : 0 ≤ w) (hw1 : w ≤ 1)
    (hq : ∀ i, (∑ j, if j = i then 0 else ‖A i j‖) ≤ q * ‖A i i‖) {z : Fin n → ℂ} (hz : A *ᵥ z = b) {m : ℝ} (hm0 : 0 ≤ m)
    {base x y : Fin n → ℂ} (hb : w = 1 ∨ ∀ i, ‖base i - z i‖ ≤ m) (hx : ∀ i, ‖x i - z i‖ ≤ m)
    (hy : IsSorSweep A b (w : ℂ) base x y) : ∀ i, ‖y i - z i‖ ≤ (1 - w + w * q) * m := by
  have hfix : ∀ i, z i = (b i - ∑ j, if j = i then 0 else A i j * z j) / A i i :=
    fun i => (congrFun ((C87_fixed_point hd z).2 hz) i).symm
  suffices h : ∀ k : Nat, ∀ i : Fin n, (i : Nat) < k → ‖y i - z i‖ ≤ (1 - w + w * q) * m from fun i => h n i i.2
  intro k
  induction k with
  | zero => intro i hi; omega
  | succ k ih =>
    intro i hi
    have hle : (1 - w + w * q) * m ≤ m := by nlinarith [mul_nonneg hw0 hm0, mul_nonneg hw0 (sub_nonneg.2 hq1)]
    have hy' : ∀ j, j < i → ‖y j - z j‖ ≤ m := fun j hj => (ih j (by have : (j : Nat) < i := hj; omega)).trans hle
    have hpos := norm_pos_iff.2 (hd i)
    have hS : ‖(b i - ∑ j, (if j < i then A i j * y j else if i < j then A i j * x j else 0)) / A i i - z i‖ ≤ q * m := by
      rw [hfix i, ← sub_div, norm_div, div_le_iff₀ hpos]
      have e : b i - (∑ j, (if j < i then A i j * y j else if i < j then A i j * x j else 0)) -
          (b i - ∑ j, if j = i then 0 else A i j * z j)
          = - ∑ j, if j = i then 0 else A i j * ((if j < i then y j else x j) - z j) := by
        rw [sub_sub_sub_cancel_left, ← Finset.sum_sub_distrib, ← Finset.sum_neg_distrib]
        refine Finset.sum_congr rfl fun j _ => ?_
        rcases lt_trichotomy j i with h | rfl | h
        · simp [h, h.ne]; ring
        · simp
        · simp [h, h.ne', h.not_gt]; ring
      rw [e, norm_neg]
      calc ‖∑ j, if j = i then 0 else A i j * ((if j < i then y j else x j) - z j)‖
          ≤ ∑ j, ‖if j = i then 0 else A i j * ((if j < i then y j else x j) - z j)‖ := norm_sum_le _ _
        _ ≤ ∑ j, (if j = i then 0 else ‖A i j‖) * m := by
          refine Finset.sum_le_sum fun j _ => ?_
          split
          · simp
          · rw [norm_mul]
            refine mul_le_mul_of_nonneg_left ?_ (norm_nonneg _)
            split
            · exact hy' j ‹_›
            · exact hx j
        _ = (∑ j, if j = i then 0 else ‖A i j‖) * m := by rw [Finset.sum_mul]
        _ ≤ q * ‖A i i‖ * m := mul_le_mul_of_nonneg_right (hq i) hm0
        _ = q * m * ‖A i i‖ := by ring
    have e : y i - z i = ((1 - w : ℝ) : ℂ) * (base i - z i) + (w : ℂ) *
        ((b i - ∑ j, (if j < i then A i j * y j else if i < j then A i j * x j else 0)) / A i i - z i) := by
      rw [hy i]; push_cast; ring
    have hB : (1 - w) * ‖base i - z i‖ ≤ (1 - w) * m := by
      rcases hb with rfl | hb
      · simp
      · exact mul_le_mul_of_nonneg_left (hb i) (by linarith)
    rw [e]
    calc _ ≤ ‖((1 - w : ℝ) : ℂ) * (base i - z i)‖ + ‖(w : ℂ) * _‖ := norm_add_le _ _
      _ ≤ (1 - w) * m + w * (q * m) := by
        rw [norm_mul, norm_mul, Complex.norm_of_nonneg (by linarith), Complex.norm_of_nonneg hw0]
        exact add_le_add hB (mul_le_mul_of_nonneg_left hS hw0)
      _ = (1 - w + w * q) * m := by ring

/-- **C87** (error bound of `sor`): under the same dominance condition with `q ≤ 1` and a weight `0 ≤ w ≤ 1`, the iterate number
`k` returned by `sor` differs from the solution `z` in every component by at most `(1 - w + w q)^k * m`, where `m` bounds the
difference at the start.  As the first sweep relaxes against 0, the start vector has to be 0 unless `w = 1`. -/
theorem C87_sor_error_partial (ha : IsMat a n A) (hd : ∀ i, A i i ≠ 0) {q w : ℝ} (hq0 : 0 ≤ q) (hq1 : q ≤ 1) (hw0 : 0 ≤ w) (hw1 : w ≤ 1)
    (hq : ∀ i, (∑ j, if j = i then 0 else ‖A i j‖) ≤ q * ‖A i i‖) {z : Fin n → ℂ} (hz : A *ᵥ z = b) {m : ℝ} (hm0 : 0 ≤ m)
    (hm : ∀ i, ‖x0 i - z i‖ ≤ m) (hstart : w = 1 ∨ x0 = 0) (maxIter : Nat) (eps : ℝ) :
    ∃ y k, sor (fun c : ℂ => ‖c‖) a (List.ofFn b) (List.ofFn x0) (w : ℂ) maxIter eps = .ok (List.ofFn y, k) ∧
      (0 < maxIter → 0 < k) ∧ ∀ i, ‖y i - z i‖ ≤ (1 - w + w * q) ^ k * m := by
  obtain ⟨y, k, h0, h1, h2, h3, h4, h5, -⟩ := C87_sor (b := b) (x0 := x0) (fun c : ℂ => ‖c‖) ha hd (w : ℂ) maxIter eps
  refine ⟨y k, k, h3, h5, ?_⟩
  have hp : 0 ≤ 1 - w + w * q := by nlinarith [mul_nonneg hw0 hq0]
  have : ∀ k i, ‖y k i - z i‖ ≤ (1 - w + w * q) ^ k * m := by
    intro k
    induction k with
    | zero => simpa [h0] using hm
    | succ k ih =>
      intro i
      have hmk : 0 ≤ (1 - w + w * q) ^ k * m := mul_nonneg (pow_nonneg hp k) hm0
      rw [pow_succ, mul_comm ((1 - w + w * q) ^ k) (1 - w + w * q), mul_assoc]
      rcases Nat.eq_zero_or_pos k with rfl | hk
      · refine sor_step hd hq1 hw0 hw1 hq hz hmk (hstart.imp_right ?_) (by simpa using hm) h1 i
        rintro rfl
        simpa using hm
      · exact sor_step hd hq1 hw0 hw1 hq hz hmk (Or.inr ih) ih (h2 k hk) i
  exact this k

end complex

/-! ### The stopping test is wrong for complex numbers -/

instance : Fact (∀ r : ℚ, r ^ 2 ≠ -1 + 0 * r) := ⟨fun r h => by nlinarith [sq_nonneg r]⟩

/-- Gaussian rationals, the complex numbers with rational parts -/
abbrev GQ := QuadraticAlgebra ℚ (-1) 0

/-- **C87 fails**: the system `2x + y = 2`, `x + 2y = 2i` has a strictly dominant matrix, but `jacobi` started at 0 takes the
first step, to `(1, i)`, for convergence, because `1² + i² = 0`: it returns `(1, i)` after one iteration for every tolerance
and every iteration limit, and `(1, i)` does not solve the system.  `sor` with weight 1 does the same for the right-hand
side `(2, 1 + 2i)`. -/
theorem C87_negation {T : Type} [Field T] [LinearOrder T] [IsStrictOrderedRing T] (cabs : GQ → T) (h0 : cabs 0 = 0)
    (eps : T) (maxIter : Nat) (hm : 0 < maxIter) :
    jacobi cabs (⟨[⟨2, 0⟩, ⟨1, 0⟩, ⟨1, 0⟩, ⟨2, 0⟩], 2, 2⟩ : Dense GQ) [⟨2, 0⟩, ⟨0, 2⟩] [0, 0] maxIter eps
      = .ok ([⟨1, 0⟩, ⟨0, 1⟩], 1) ∧
    Dense.mulVec (⟨[⟨2, 0⟩, ⟨1, 0⟩, ⟨1, 0⟩, ⟨2, 0⟩], 2, 2⟩ : Dense GQ) [⟨1, 0⟩, ⟨0, 1⟩] = .ok [⟨2, 1⟩, ⟨1, 2⟩] ∧
    sor cabs (⟨[⟨2, 0⟩, ⟨1, 0⟩, ⟨1, 0⟩, ⟨2, 0⟩], 2, 2⟩ : Dense GQ) [⟨2, 0⟩, ⟨1, 2⟩] [0, 0] 1 maxIter eps
      = .ok ([⟨1, 0⟩, ⟨0, 1⟩], 1) := by
  obtain ⟨m, rfl⟩ : ∃ m, maxIter = m + 1 := ⟨maxIter - 1, by omega⟩
  have hs : Vec.subAssign ([⟨1, 0⟩, ⟨0, 1⟩] : List GQ) [0, 0] = .ok [⟨1, 0⟩, ⟨0, 1⟩] := by decide +kernel
  have hq : Vec.magSqr ([⟨1, 0⟩, ⟨0, 1⟩] : List GQ) = .ok 0 := by decide +kernel
  have key : ∀ (sweep : List GQ → List GQ → R (List GQ)), sweep [0, 0] [0, 0] = .ok [⟨1, 0⟩, ⟨0, 1⟩] →
      iterLoop cabs sweep (eps * eps) (m + 1) 0 [0, 0] [0, 0] = .ok ([⟨1, 0⟩, ⟨0, 1⟩], 1) := by
    intro sweep h
    rw [iterLoop, h, ok_bind, hs, ok_bind, hq, ok_bind, h0, if_pos (mul_self_nonneg eps)]
    rfl
  refine ⟨?_, by decide +kernel, ?_⟩
  · exact key (jacobiSweep (⟨[⟨2, 0⟩, ⟨1, 0⟩, ⟨1, 0⟩, ⟨2, 0⟩], 2, 2⟩ : Dense GQ) [⟨2, 0⟩, ⟨0, 2⟩]) (by decide +kernel)
  · exact key (sorSweep 1 (⟨[⟨2, 0⟩, ⟨1, 0⟩, ⟨1, 0⟩, ⟨2, 0⟩], 2, 2⟩ : Dense GQ) [⟨2, 0⟩, ⟨1, 2⟩]) (by decide +kernel)

/-- the hypotheses of C87_jacobi and C87_error for a complex matrix: `2i` on the diagonal, `1` beside it -/
example : ∃ d : Dense ℂ, IsMat d 2 !![2 * Complex.I, 1; 1, 2 * Complex.I] ∧
    (∀ i, (!![2 * Complex.I, 1; 1, 2 * Complex.I] : Matrix (Fin 2) (Fin 2) ℂ) i i ≠ 0) ∧
    ∀ i : Fin 2, (∑ j, if j = i then 0 else ‖(!![2 * Complex.I, 1; 1, 2 * Complex.I] : Matrix (Fin 2) (Fin 2) ℂ) i j‖)
      ≤ (1 / 2) * ‖(!![2 * Complex.I, 1; 1, 2 * Complex.I] : Matrix (Fin 2) (Fin 2) ℂ) i i‖ := by
  refine ⟨⟨[2 * Complex.I, 1, 1, 2 * Complex.I], 2, 2⟩, ⟨?_, rfl, rfl, ?_⟩, ?_, ?_⟩
  · exact ⟨rfl, by decide, by decide⟩
  · intro i j; fin_cases i <;> fin_cases j <;> rfl
  · intro i; fin_cases i <;> simp
  · intro i; fin_cases i <;> simp [Fin.sum_univ_two]

end NS.Props.CxIterative

/-
Property theorems C54, C55: the tables of the two combinations that cannot be evaluated (C55_abort_negation), (2,3) and (3,2).  The overloads that take node
values are called with as many values as there are components, that is, the program in which only the number of DOFs is corrected.
-/
import Verif.Props.Shape

set_option linter.unusedSectionVars false
set_option linter.unusedSimpArgs false

namespace NS.Props.Shape
open NS NS.Shape
variable {T : Type} [Field T]

/-- the nodes as drawn in `PolyShapeFunction.inl:40-48` for cubic triangles; for quadratic tetrahedra there is no drawing, the edge midpoints are
those of the edges 01, 12, 02, 13, 03, 23 -/
def fullNode (K order l : Nat) : List T :=
  match K, order, l with
  | 2, 3, 3 => [1 / 3, 0]
  | 2, 3, 4 => [2 / 3, 0]
  | 2, 3, 5 => [2 / 3, 1 / 3]
  | 2, 3, 6 => [1 / 3, 2 / 3]
  | 2, 3, 7 => [0, 2 / 3]
  | 2, 3, 8 => [0, 1 / 3]
  | 2, 3, 9 => [1 / 3, 1 / 3]
  | 3, 2, 4 => [1 / 2, 0, 0]
  | 3, 2, 5 => [1 / 2, 1 / 2, 0]
  | 3, 2, 6 => [0, 1 / 2, 0]
  | 3, 2, 7 => [1 / 2, 0, 1 / 2]
  | 3, 2, 8 => [0, 0, 1 / 2]
  | 3, 2, 9 => [0, 1 / 2, 1 / 2]
  | K, order, l => node K order l

/-- node values 1 for every component -/
def allOnes (K order : Nat) : List T := List.replicate (compCount K order) 1

set_option maxHeartbeats 4000000 in
/-- C54: the tables of all supported combinations describe Lagrange functions: with a node value for every component, component `l` is 1 at its node and 0 at
the others.  So C55 fails for (2,3) and (3,2) only because of the number of DOFs. -/
theorem C54_tables [CharZero T] {K order l m : Nat} (h : supported K order) (hl : l < compCount K order) (hm : m < compCount K order) :
    valueAt K order l (fullNode K order m : List T) (allOnes K order) = .ok (if l = m then 1 else 0) := by
  unfold supported at h
  rcases h with ⟨rfl, rfl⟩ | ⟨rfl, rfl⟩ | ⟨rfl, rfl⟩ | ⟨rfl, rfl⟩ | ⟨rfl, rfl⟩ | ⟨rfl, rfl⟩ | ⟨rfl, rfl⟩ <;>
    (simp only [compCount] at hl hm; interval_cases l <;> interval_cases m <;>
      (refine congrArg Except.ok ?_
       norm_num))

theorem deriv_cubic {f : ℝ → ℝ} {x g : ℝ} (c0 c1 c2 c3 : ℝ) (h1 : ∀ t, f t = c0 + c1 * t + c2 * t ^ 2 + c3 * t ^ 3)
    (h2 : g = c1 + 2 * c2 * x + 3 * c3 * x ^ 2) : HasDerivAt f g x := by
  have : f = fun t => c0 + c1 * t + c2 * t ^ 2 + c3 * t ^ 3 := funext h1
  rw [this, h2]
  have e1 := ((hasDerivAt_id x).const_mul c1).const_add c0
  have e2 := ((hasDerivAt_pow 2 x).const_mul c2)
  have e3 := ((hasDerivAt_pow 3 x).const_mul c3)
  refine ((e1.add e2).add e3).congr_deriv ?_
  push_cast
  ring

section tables
variable (nv : List ℝ)
/-- the row of the table for component `l` -/
theorem row_ten {K order l : Nat} (h : (K = 2 ∧ order = 3) ∨ (K = 3 ∧ order = 2)) (hl : l < 10) :
    ∃ c0 c1 c2 c3 c4 c5 c6 c7 c8 c9 : ℝ, getIdx (coeff K order) l = .ok [c0, c1, c2, c3, c4, c5, c6, c7, c8, c9] := by
  obtain ⟨row, r1, r2⟩ := row_ok (T := ℝ) (K := K) (order := order) (lc := l) (by unfold supported; tauto)
    (by rcases h with ⟨rfl, rfl⟩ | ⟨rfl, rfl⟩ <;> exact hl)
  have : row.length = 10 := by rcases h with ⟨rfl, rfl⟩ | ⟨rfl, rfl⟩ <;> exact r2
  obtain ⟨c0, c1, c2, c3, c4, c5, c6, c7, c8, c9, rfl⟩ := ten this
  exact ⟨_, _, _, _, _, _, _, _, _, _, r1⟩
end tables

/-- C54: what `value`, `gradient` and `gradient2` of cubic triangles compute, with ten node values -/
theorem cubic_forms {l : Nat} (hl : l < 10) (n0 n1 n2 n3 n4 n5 n6 n7 n8 n9 : ℝ) :
    ∃ c0 c1 c2 c3 c4 c5 c6 c7 c8 c9 : ℝ, getIdx (coeff 2 3) l = .ok [c0, c1, c2, c3, c4, c5, c6, c7, c8, c9] ∧ ∀ x y : ℝ,
      valueAt 2 3 l [x, y] [n0, n1, n2, n3, n4, n5, n6, n7, n8, n9] =
        .ok (n0 * c0 + n1 * c1 * x + n2 * c2 * y + n3 * c3 * (x * y) + n4 * c4 * (x * x) + n5 * c5 * (y * y) +
          n6 * c6 * (x * x * y) + n7 * c7 * (x * y * y) + n8 * c8 * (x * x * x) + n9 * c9 * (y * y * y)) ∧
      gradientAt 2 3 l [x, y] [n0, n1, n2, n3, n4, n5, n6, n7, n8, n9] =
        .ok [n1 * c1 + n3 * c3 * y + 2 * n4 * c4 * x + 2 * n6 * c6 * (x * y) + n7 * c7 * (y * y) + 3 * n8 * c8 * (x * x),
             n2 * c2 + n3 * c3 * x + 2 * n5 * c5 * y + n6 * c6 * (x * x) + 2 * n7 * c7 * (x * y) + 3 * n9 * c9 * (y * y)] ∧
      gradient2At 2 3 l [x, y] [n0, n1, n2, n3, n4, n5, n6, n7, n8, n9] =
        .ok [2 * n4 * c4 + 2 * n6 * c6 * y + 6 * n8 * c8 * x, 2 * n5 * c5 + 2 * n7 * c7 * y + 6 * n9 * c9 * y] := by
  obtain ⟨c0, c1, c2, c3, c4, c5, c6, c7, c8, c9, hr⟩ := row_ten (.inl ⟨rfl, rfl⟩) hl
  refine ⟨c0, c1, c2, c3, c4, c5, c6, c7, c8, c9, hr, fun x y => ⟨?_, ?_, ?_⟩⟩
  · unfold valueAt
    rw [assert_true (show l < compCount 2 3 from hl), ok_bind, hr, ok_bind]
    refine congrArg Except.ok ?_
    push_cast
    ring
  · unfold gradientAt
    rw [assert_true (show l < compCount 2 3 from hl), ok_bind, hr, ok_bind]
    refine congrArg Except.ok ?_
    simp only [List.cons.injEq, and_true]
    constructor <;> (push_cast; ring)
  · unfold gradient2At
    rw [assert_true (show l < compCount 2 3 from hl), ok_bind, hr, ok_bind]
    refine congrArg Except.ok ?_
    simp only [List.cons.injEq, and_true]
    constructor <;> (push_cast; ring)

/-- C54 (partial): with ten node values `gradient` of cubic triangles is the gradient of `value`, the first component of `gradient2` is the second derivative,
and the second one is the second derivative exactly where `nodeValues[7]` times the coefficient of `x y²` times `x - y` vanishes: the source multiplies that
coefficient by `local[1]` instead of `local[0]` (PolyShapeFunction.inl:331). -/
theorem C54_cubic_partial {l : Nat} (hl : l < 10) {nv : List ℝ} (hn : nv.length = 10) (x y : ℝ) :
    (∃ v, valueAt 2 3 l [x, y] nv = .ok v) ∧
    HasDerivAt (fun t => val (valueAt 2 3 l [t, y] nv)) (comp (gradientAt 2 3 l [x, y] nv) 0) x ∧
    HasDerivAt (fun t => val (valueAt 2 3 l [x, t] nv)) (comp (gradientAt 2 3 l [x, y] nv) 1) y ∧
    HasDerivAt (fun t => comp (gradientAt 2 3 l [t, y] nv) 0) (comp (gradient2At 2 3 l [x, y] nv) 0) x ∧
    ∃ row, getIdx (coeff 2 3) l = .ok row ∧
      HasDerivAt (fun t => comp (gradientAt 2 3 l [x, t] nv) 1) (comp (gradient2At 2 3 l [x, y] nv) 1 + 2 * nv.getD 7 0 * row.getD 7 0 * (x - y)) y := by
  obtain ⟨n0, n1, n2, n3, n4, n5, n6, n7, n8, n9, rfl⟩ := ten hn
  obtain ⟨c0, c1, c2, c3, c4, c5, c6, c7, c8, c9, hr, hf⟩ := cubic_forms hl n0 n1 n2 n3 n4 n5 n6 n7 n8 n9
  refine ⟨⟨_, (hf x y).1⟩, ?_, ?_, ?_, _, hr, ?_⟩
  · refine deriv_cubic (n0 * c0 + n2 * c2 * y + n5 * c5 * (y * y) + n9 * c9 * (y * y * y)) (n1 * c1 + n3 * c3 * y + n7 * c7 * (y * y)) (n4 * c4 + n6 * c6 * y) (n8 * c8)
      (fun t => ?_) ?_
    · rw [(hf t y).1, val_ok]; ring
    · rw [(hf x y).2.1, comp_ok0]; ring
  · refine deriv_cubic (n0 * c0 + n1 * c1 * x + n4 * c4 * (x * x) + n8 * c8 * (x * x * x)) (n2 * c2 + n3 * c3 * x + n6 * c6 * (x * x)) (n5 * c5 + n7 * c7 * x) (n9 * c9)
      (fun t => ?_) ?_
    · rw [(hf x t).1, val_ok]; ring
    · rw [(hf x y).2.1, comp_ok1]; ring
  · refine deriv_cubic (n1 * c1 + n3 * c3 * y + n7 * c7 * (y * y)) (2 * n4 * c4 + 2 * n6 * c6 * y) (3 * n8 * c8) 0 (fun t => ?_) ?_
    · rw [(hf t y).2.1, comp_ok0]; ring
    · rw [(hf x y).2.2, comp_ok0]; ring
  · refine deriv_cubic (n2 * c2 + n3 * c3 * x + n6 * c6 * (x * x)) (2 * n5 * c5 + 2 * n7 * c7 * x) (3 * n9 * c9) 0 (fun t => ?_) ?_
    · rw [(hf x t).2.1, comp_ok1]; ring
    · rw [(hf x y).2.2, comp_ok1]
      simp only [List.getD_cons_zero, List.getD_cons_succ]
      ring

/-- C54: with ten node values the second derivative of the cubic component of node x8 in `y` is wrong: at `(0, 1)` the source has the value 90 instead of 36 -/
theorem C54_cubic_negation : (∃ g, gradient2At 2 3 8 [(0 : ℝ), 1] (allOnes 2 3) = .ok g ∧ g.getD 1 0 = 90) ∧
    HasDerivAt (fun t => comp (gradientAt 2 3 8 [(0 : ℝ), t] (allOnes 2 3)) 1) 36 1 := by
  have h : (gradient2At 2 3 8 [(0 : ℝ), 1] (allOnes 2 3)) = .ok [27, 90] := by
    refine congrArg Except.ok ?_
    simp only [List.cons.injEq, and_true]
    constructor <;> norm_num
  refine ⟨⟨_, h, rfl⟩, ?_⟩
  obtain ⟨-, -, -, -, row, hr, hd⟩ := C54_cubic_partial (l := 8) (by norm_num) (nv := allOnes 2 3) (by simp [allOnes, compCount]) 0 1
  have e : row = [0, 0, 9, -45/2, 0, -45/2, 27/2, 27, 0, 27/2] := Except.ok.inj (hr.symm.trans rfl)
  rw [e, h, comp_ok1] at hd
  refine hd.congr_deriv ?_
  simp [allOnes, compCount, List.replicate]
  norm_num

/-- C54: with ten node values `gradient` and `gradient2` of quadratic tetrahedra are the derivatives of `value` -/
theorem C54_tetrahedra {l : Nat} (hl : l < 10) {nv : List ℝ} (hn : nv.length = 10) {v : List ℝ} (hv : v.length = 3) {i : Nat} (hi : i < 3) :
    (∃ y, valueAt 3 2 l v nv = .ok y) ∧ (∃ g, gradientAt 3 2 l v nv = .ok g ∧ g.length = 3) ∧ (∃ g, gradient2At 3 2 l v nv = .ok g ∧ g.length = 3) ∧
    HasDerivAt (fun t => val (valueAt 3 2 l (v.set i t) nv)) (comp (gradientAt 3 2 l v nv) i) (v.getD i 0) ∧
    HasDerivAt (fun t => comp (gradientAt 3 2 l (v.set i t) nv) i) (comp (gradient2At 3 2 l v nv) i) (v.getD i 0) := by
  obtain ⟨n0, n1, n2, n3, n4, n5, n6, n7, n8, n9, rfl⟩ := ten hn
  obtain ⟨x, y, z, rfl⟩ := three hv
  obtain ⟨c0, c1, c2, c3, c4, c5, c6, c7, c8, c9, hr⟩ := row_ten (.inr ⟨rfl, rfl⟩) hl
  have hV : ∀ x y z, valueAt 3 2 l [x, y, z] [n0, n1, n2, n3, n4, n5, n6, n7, n8, n9] =
      .ok (n0 * c0 + n1 * c1 * x + n2 * c2 * y + n3 * c3 * z + n4 * c4 * (x * y) + n5 * c5 * (x * z) + n6 * c6 * (y * z) +
        n7 * c7 * (x * x) + n8 * c8 * (y * y) + n9 * c9 * (z * z)) := by
    intro x y z
    unfold valueAt
    rw [assert_true (show l < compCount 3 2 from hl), ok_bind, hr, ok_bind]
    refine congrArg Except.ok ?_
    push_cast
    ring
  have hG : ∀ x y z, gradientAt 3 2 l [x, y, z] [n0, n1, n2, n3, n4, n5, n6, n7, n8, n9] =
      .ok [n1 * c1 + n4 * c4 * y + n5 * c5 * z + 2 * n7 * c7 * x, n2 * c2 + n4 * c4 * x + n6 * c6 * z + 2 * n8 * c8 * y,
        n3 * c3 + n5 * c5 * x + n6 * c6 * y + 2 * n9 * c9 * z] := by
    intro x y z
    unfold gradientAt
    rw [assert_true (show l < compCount 3 2 from hl), ok_bind, hr, ok_bind]
    refine congrArg Except.ok ?_
    simp only [List.cons.injEq, and_true]
    refine ⟨?_, ?_, ?_⟩ <;> (push_cast; ring)
  have hH : gradient2At 3 2 l [x, y, z] [n0, n1, n2, n3, n4, n5, n6, n7, n8, n9] = .ok [2 * n7 * c7, 2 * n8 * c8, 2 * n9 * c9] := by
    unfold gradient2At
    rw [assert_true (show l < compCount 3 2 from hl), ok_bind, hr, ok_bind]
    refine congrArg Except.ok ?_
    simp only [List.cons.injEq, and_true]
    refine ⟨?_, ?_, ?_⟩ <;> (push_cast; ring)
  refine ⟨⟨_, hV x y z⟩, ⟨_, hG x y z, rfl⟩, ⟨_, hH, rfl⟩, ?_⟩
  obtain rfl | rfl | rfl : i = 0 ∨ i = 1 ∨ i = 2 := by omega
  all_goals
    rw [hG, hH]
    simp only [List.set_cons_zero, List.set_cons_succ, List.getD_cons_zero, List.getD_cons_succ, hV, hG, val_ok, comp_ok0, comp_ok1, comp_ok2]
    constructor <;> apply deriv_quad <;> intros <;> ring

/-- non-vacuity: a point, node values and a component -/
example : (8 : Nat) < 10 ∧ (allOnes 2 3 : List ℝ).length = 10 ∧ supported 2 3 := ⟨by norm_num, by simp [allOnes, compCount], by unfold supported; tauto⟩
example : valueAt 2 3 9 ([1 / 3, 1 / 3] : List ℚ) (allOnes 2 3) = .ok 1 ∧ valueAt 2 3 9 ([1 / 3, 0] : List ℚ) (allOnes 2 3) = .ok 0 := by decide +kernel
end NS.Props.Shape

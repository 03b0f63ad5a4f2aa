/-
Property theorems C54 and C55: the Lagrange shape functions.
-/
import Verif.ShapeModel
import Mathlib.Algebra.CharZero.Defs
import Mathlib.Algebra.MvPolynomial.Eval
import Mathlib.Algebra.MvPolynomial.Degrees
import Mathlib.Analysis.Calculus.Deriv.Mul
import Mathlib.Analysis.Calculus.Deriv.Pow
import Mathlib.Analysis.Calculus.Deriv.Add
import Mathlib.Data.Nat.Choose.Basic
import Mathlib.Tactic.FieldSimp
import Mathlib.Tactic.Ring
import Mathlib.Tactic.NormNum
import Mathlib.Tactic.FinCases
import Mathlib.Tactic.IntervalCases

set_option linter.unusedSectionVars false
set_option linter.unusedSimpArgs false

namespace NS.Props.Shape
open NS NS.Shape
variable {T : Type} [Field T]

/-- the point of the reference simplex that component `l` belongs to: the corners, for order 2 the middle of the segment
(component 1 of the line), and the edge midpoints x3, x4, x5 of the triangle, as drawn in `PolyShapeFunction.inl:11-48` -/
def node (K order l : Nat) : List T :=
  match K, order, l with
  | 1, 1, 0 => [0]
  | 1, 1, 1 => [1]
  | 1, 2, 0 => [0]
  | 1, 2, 1 => [1 / 2]
  | 1, 2, 2 => [1]
  | 2, _, 0 => [0, 0]
  | 2, _, 1 => [1, 0]
  | 2, _, 2 => [0, 1]
  | 2, 2, 3 => [1 / 2, 0]
  | 2, 2, 4 => [1 / 2, 1 / 2]
  | 2, 2, 5 => [0, 1 / 2]
  | 3, _, 0 => [0, 0, 0]
  | 3, _, 1 => [1, 0, 0]
  | 3, _, 2 => [0, 1, 0]
  | 3, _, 3 => [0, 0, 1]
  | _, _, _ => []

/-- the supported combinations that can be evaluated at all -/
def Working (K order : Nat) : Prop :=
  (K = 1 ∧ order = 1) ∨ (K = 1 ∧ order = 2) ∨ (K = 2 ∧ order = 1) ∨ (K = 2 ∧ order = 2) ∨ (K = 3 ∧ order = 1)

/-- C55 (partial): the number of components is the dimension of the polynomial space for every supported combination; the
number of DOFs is that dimension except for (1,2), where it is too large, and (2,3) and (3,2), where it is too small. -/
theorem C55_dof_partial {K order : Nat} (h : supported K order) :
    compCount K order = (K + order).choose K ∧
    (dof K order = (K + order).choose K ↔ ¬ (K = 1 ∧ order = 2) ∧ ¬ (K = 2 ∧ order = 3) ∧ ¬ (K = 3 ∧ order = 2)) ∧
    (¬ Working K order ↔ (K = 2 ∧ order = 3) ∨ (K = 3 ∧ order = 2)) ∧ (¬ Working K order ↔ dof K order < (K + order).choose K) := by
  unfold supported at h
  rcases h with ⟨rfl, rfl⟩ | ⟨rfl, rfl⟩ | ⟨rfl, rfl⟩ | ⟨rfl, rfl⟩ | ⟨rfl, rfl⟩ | ⟨rfl, rfl⟩ | ⟨rfl, rfl⟩ <;>
    simp [Working, dof, Nat.choose, compCount]

theorem two {v : List T} (h : v.length = 2) : ∃ a b, v = [a, b] := by
  match v, h with | [a, b], _ => exact ⟨a, b, rfl⟩
theorem one {v : List T} (h : v.length = 1) : ∃ a, v = [a] := by
  match v, h with | [a], _ => exact ⟨a, rfl⟩
theorem three {v : List T} (h : v.length = 3) : ∃ a b c, v = [a, b, c] := by
  match v, h with | [a, b, c], _ => exact ⟨a, b, c, rfl⟩
theorem four {v : List T} (h : v.length = 4) : ∃ a b c d, v = [a, b, c, d] := by
  match v, h with | [a, b, c, d], _ => exact ⟨a, b, c, d, rfl⟩
theorem six {v : List T} (h : v.length = 6) : ∃ a b c d e f, v = [a, b, c, d, e, f] := by
  match v, h with | [a, b, c, d, e, f], _ => exact ⟨a, b, c, d, e, f, rfl⟩

/-- every table row has as many entries as there are components -/
theorem row_ok {K order lc : Nat} (h : supported K order) (hl : lc < compCount K order) :
    ∃ row : List T, getIdx (coeff K order) lc = .ok row ∧ row.length = compCount K order := by
  unfold supported at h
  rcases h with ⟨rfl, rfl⟩ | ⟨rfl, rfl⟩ | ⟨rfl, rfl⟩ | ⟨rfl, rfl⟩ | ⟨rfl, rfl⟩ | ⟨rfl, rfl⟩ | ⟨rfl, rfl⟩ <;>
    (simp only [compCount] at hl; interval_cases lc <;> exact ⟨_, rfl, rfl⟩)

theorem Working.supported {K order : Nat} (h : Working K order) : supported K order := by
  unfold Working at h; unfold NS.Shape.supported; tauto
/-- C55: with `DOF` node values `value`, `gradient` and `gradient2` never abort, for all components, points and values -/
theorem C55_total_partial {K order lc : Nat} (h : Working K order) (hl : lc < compCount K order) {v nv : List T} (hv : v.length = K)
    (hn : nv.length = dof K order) :
    (∃ y, valueAt K order lc v nv = .ok y) ∧ (∃ g, gradientAt K order lc v nv = .ok g ∧ g.length = K) ∧
      ∃ g, gradient2At K order lc v nv = .ok g ∧ g.length = K := by
  obtain ⟨row, r1, r2⟩ := row_ok (T := T) h.supported hl
  unfold valueAt gradientAt gradient2At
  rw [assert_true hl, ok_bind, ok_bind, ok_bind, r1, ok_bind, ok_bind, ok_bind]
  unfold Working at h
  rcases h with ⟨rfl, rfl⟩ | ⟨rfl, rfl⟩ | ⟨rfl, rfl⟩ | ⟨rfl, rfl⟩ | ⟨rfl, rfl⟩
  · obtain ⟨x, rfl⟩ := one hv; obtain ⟨a, b, rfl⟩ := two hn; obtain ⟨c, d, rfl⟩ := two r2
    exact ⟨⟨_, rfl⟩, ⟨_, rfl, rfl⟩, ⟨_, rfl, rfl⟩⟩
  · obtain ⟨x, rfl⟩ := one hv; obtain ⟨a, b, c, n, rfl⟩ := four hn; obtain ⟨d, e, f, rfl⟩ := three r2
    exact ⟨⟨_, rfl⟩, ⟨_, rfl, rfl⟩, ⟨_, rfl, rfl⟩⟩
  · obtain ⟨x, y, rfl⟩ := two hv; obtain ⟨a, b, c, rfl⟩ := three hn; obtain ⟨d, e, f, rfl⟩ := three r2
    exact ⟨⟨_, rfl⟩, ⟨_, rfl, rfl⟩, ⟨_, rfl, rfl⟩⟩
  · obtain ⟨x, y, rfl⟩ := two hv; obtain ⟨n0, n1, n2, n3, n4, n5, rfl⟩ := six hn
    obtain ⟨c0, c1, c2, c3, c4, c5, rfl⟩ := six r2
    exact ⟨⟨_, rfl⟩, ⟨_, rfl, rfl⟩, ⟨_, rfl, rfl⟩⟩
  · obtain ⟨x, y, z, rfl⟩ := three hv; obtain ⟨n0, n1, n2, n3, rfl⟩ := four hn
    obtain ⟨c0, c1, c2, c3, rfl⟩ := four r2
    exact ⟨⟨_, rfl⟩, ⟨_, rfl, rfl⟩, ⟨_, rfl, rfl⟩⟩

theorem nine {v : List T} (h : v.length = 9) : ∃ a b c d e f g i j, v = [a, b, c, d, e, f, g, i, j] := by
  match v, h with | [a, b, c, d, e, f, g, i, j], _ => exact ⟨a, b, c, d, e, f, g, i, j, rfl⟩
theorem eight {v : List T} (h : v.length = 8) : ∃ a b c d e f g i, v = [a, b, c, d, e, f, g, i] := by
  match v, h with | [a, b, c, d, e, f, g, i], _ => exact ⟨a, b, c, d, e, f, g, i, rfl⟩
theorem ten {v : List T} (h : v.length = 10) : ∃ a b c d e f g i j k, v = [a, b, c, d, e, f, g, i, j, k] := by
  match v, h with | [a, b, c, d, e, f, g, i, j, k], _ => exact ⟨a, b, c, d, e, f, g, i, j, k, rfl⟩

/-- C55: for the two other supported combinations the claim is false, everywhere: every evaluation aborts. -/
theorem C55_abort_negation {K order lc : Nat} (h : supported K order) (hw : ¬ Working K order) {v nv : List T} (hv : v.length = K)
    (hn : nv.length = dof K order) :
    valueAt K order lc v nv = .error .abort ∧ gradientAt K order lc v nv = .error .abort ∧
      gradient2At K order lc v nv = .error .abort := by
  by_cases hl : lc < compCount K order
  · obtain ⟨row, r1, r2⟩ := row_ok (T := T) h hl
    unfold valueAt gradientAt gradient2At
    rw [assert_true hl, ok_bind, ok_bind, ok_bind, r1, ok_bind, ok_bind, ok_bind]
    rcases ((C55_dof_partial h).2.2.1).1 hw with ⟨rfl, rfl⟩ | ⟨rfl, rfl⟩
    · obtain ⟨x, y, rfl⟩ := two hv
      obtain ⟨a, b, c, d, e, f, g, i, j, rfl⟩ := nine hn
      obtain ⟨c0, c1, c2, c3, c4, c5, c6, c7, c8, c9, rfl⟩ := ten r2
      exact ⟨rfl, rfl, rfl⟩
    · obtain ⟨x, y, z, rfl⟩ := three hv
      obtain ⟨a, b, c, d, e, f, g, i, rfl⟩ := eight hn
      obtain ⟨c0, c1, c2, c3, c4, c5, c6, c7, c8, c9, rfl⟩ := ten r2
      exact ⟨rfl, rfl, rfl⟩
  · unfold valueAt gradientAt gradient2At
    rw [assert_false hl]
    exact ⟨rfl, rfl, rfl⟩

/-- a component beyond the last is rejected -/
theorem C55_component_range {K order lc : Nat} (hl : compCount K order ≤ lc) (v nv : List T) :
    valueAt K order lc v nv = .error .abort ∧ gradientAt K order lc v nv = .error .abort ∧
      gradient2At K order lc v nv = .error .abort := by
  unfold valueAt gradientAt gradient2At
  rw [assert_false (by omega)]
  exact ⟨rfl, rfl, rfl⟩

/-! ### C54 -/

/-- C54: Kronecker property at the nodes -/
theorem C54_kronecker [CharZero T] {K order l m : Nat} (h : Working K order) (hl : l < compCount K order) (hm : m < compCount K order) :
    value K order l (node K order m : List T) = .ok (if l = m then 1 else 0) := by
  unfold Working at h
  rcases h with ⟨rfl, rfl⟩ | ⟨rfl, rfl⟩ | ⟨rfl, rfl⟩ | ⟨rfl, rfl⟩ | ⟨rfl, rfl⟩ <;>
    (simp only [compCount] at hl hm; interval_cases l <;> interval_cases m <;>
      (refine congrArg Except.ok ?_
       norm_num))

/-- the point `v` as an assignment of the polynomial variables -/
def pt (K : Nat) (v : List T) : Fin K → T := fun i => v.getD i 0

/-- C54: a polynomial of at most the order of the shape functions is the sum of its nodal values times the
shape functions, at every point.  (The constant polynomial 1 gives the partition of unity.) -/
theorem C54_reproduce [CharZero T] {K order : Nat} (h : Working K order) (p : MvPolynomial (Fin K) T) (hp : p.totalDegree ≤ order)
    {v : List T} (hv : v.length = K) :
    ∃ ys : List T, ys.length = compCount K order ∧ (∀ l y, ys[l]? = some y → value K order l v = .ok y) ∧
      ∑ l ∈ Finset.range (compCount K order), MvPolynomial.eval (pt K (node K order l)) p * ys.getD l 0 = MvPolynomial.eval (pt K v) p := by
  have mono : ∃ ys : List T, ys.length = compCount K order ∧ (∀ l y, ys[l]? = some y → value K order l v = .ok y) ∧
      ∀ d : Fin K →₀ ℕ, (d.sum fun _ e => e) ≤ order →
        ∑ l ∈ Finset.range (compCount K order), (∏ i, pt K (node K order l) i ^ d i) * ys.getD l 0 = ∏ i, pt K v i ^ d i := by
    unfold Working at h
    rcases h with ⟨rfl, rfl⟩ | ⟨rfl, rfl⟩ | ⟨rfl, rfl⟩ | ⟨rfl, rfl⟩ | ⟨rfl, rfl⟩
    · obtain ⟨x, rfl⟩ := one hv
      refine ⟨[1 - x, x], rfl, ?_, ?_⟩
      · intro l y hy
        match l, hy with
        | 0, hy => cases hy; refine congrArg Except.ok ?_; norm_num; ring
        | 1, hy => cases hy; refine congrArg Except.ok ?_; norm_num
      · intro d hd
        rw [Finsupp.sum_fintype _ _ (fun _ => rfl)] at hd
        simp only [Fin.sum_univ_succ, Fin.sum_univ_zero, Finset.univ_eq_empty, Finset.sum_empty] at hd
        simp only [Fin.prod_univ_succ, compCount, Finset.sum_range_succ, node, pt]
        generalize d 0 = a at *
        have : a ≤ 1 := by simpa using hd
        interval_cases a <;> simp
    · obtain ⟨x, rfl⟩ := one hv
      refine ⟨[1 - 3 * x + 2 * x * x, 4 * x - 4 * x * x, -x + 2 * x * x], rfl, ?_, ?_⟩
      · intro l y hy
        match l, hy with
        | 0, hy => cases hy; refine congrArg Except.ok ?_; norm_num [ones, dof]; try ring
        | 1, hy => cases hy; refine congrArg Except.ok ?_; norm_num [ones, dof]; try ring
        | 2, hy => cases hy; refine congrArg Except.ok ?_; norm_num [ones, dof]; try ring
      · intro d hd
        rw [Finsupp.sum_fintype _ _ (fun _ => rfl)] at hd
        simp only [Fin.sum_univ_succ, Fin.sum_univ_zero, Finset.univ_eq_empty, Finset.sum_empty, Fin.succ_zero_eq_one, Fin.succ_one_eq_two] at hd
        simp only [Fin.prod_univ_succ, compCount, Finset.sum_range_succ, node, pt, Fin.succ_zero_eq_one, Fin.succ_one_eq_two]
        generalize d 0 = a at *
        have ha : a ≤ 2 := by simp at hd; omega
        interval_cases a <;> first | (exfalso; simp at hd; done) | (simp; done) | (simp; ring)
    · obtain ⟨x, y', rfl⟩ := two hv
      refine ⟨[1 - x - y', x, y'], rfl, ?_, ?_⟩
      · intro l y hy
        match l, hy with
        | 0, hy => cases hy; refine congrArg Except.ok ?_; norm_num [ones, dof]; try ring
        | 1, hy => cases hy; refine congrArg Except.ok ?_; norm_num [ones, dof]; try ring
        | 2, hy => cases hy; refine congrArg Except.ok ?_; norm_num [ones, dof]; try ring
      · intro d hd
        rw [Finsupp.sum_fintype _ _ (fun _ => rfl)] at hd
        simp only [Fin.sum_univ_succ, Fin.sum_univ_zero, Finset.univ_eq_empty, Finset.sum_empty, Fin.succ_zero_eq_one, Fin.succ_one_eq_two] at hd
        simp only [Fin.prod_univ_succ, compCount, Finset.sum_range_succ, node, pt, Fin.succ_zero_eq_one, Fin.succ_one_eq_two]
        generalize d 0 = a at *
        generalize d 1 = b at *
        have ha : a ≤ 1 := by simp at hd; omega
        have hb : b ≤ 1 := by simp at hd; omega
        interval_cases a <;> interval_cases b <;> first | (exfalso; simp at hd; done) | (simp; done) | (simp; ring)
    · obtain ⟨x, y', rfl⟩ := two hv
      refine ⟨[1 - 3 * x - 3 * y' + 4 * x * y' + 2 * x * x + 2 * y' * y', -x + 2 * x * x, -y' + 2 * y' * y', 4 * x - 4 * x * y' - 4 * x * x, 4 * x * y', 4 * y' - 4 * x * y' - 4 * y' * y'], rfl, ?_, ?_⟩
      · intro l y hy
        match l, hy with
        | 0, hy => cases hy; refine congrArg Except.ok ?_; norm_num [ones, dof]; try ring
        | 1, hy => cases hy; refine congrArg Except.ok ?_; norm_num [ones, dof]; try ring
        | 2, hy => cases hy; refine congrArg Except.ok ?_; norm_num [ones, dof]; try ring
        | 3, hy => cases hy; refine congrArg Except.ok ?_; norm_num [ones, dof]; try ring
        | 4, hy => cases hy; refine congrArg Except.ok ?_; norm_num [ones, dof]; try ring
        | 5, hy => cases hy; refine congrArg Except.ok ?_; norm_num [ones, dof]; try ring
      · intro d hd
        rw [Finsupp.sum_fintype _ _ (fun _ => rfl)] at hd
        simp only [Fin.sum_univ_succ, Fin.sum_univ_zero, Finset.univ_eq_empty, Finset.sum_empty, Fin.succ_zero_eq_one, Fin.succ_one_eq_two] at hd
        simp only [Fin.prod_univ_succ, compCount, Finset.sum_range_succ, node, pt, Fin.succ_zero_eq_one, Fin.succ_one_eq_two]
        generalize d 0 = a at *
        generalize d 1 = b at *
        have ha : a ≤ 2 := by simp at hd; omega
        have hb : b ≤ 2 := by simp at hd; omega
        interval_cases a <;> interval_cases b <;> first | (exfalso; simp at hd; done) | (simp; done) | (simp; ring)
    · obtain ⟨x, y', z, rfl⟩ := three hv
      refine ⟨[1 - x - y' - z, x, y', z], rfl, ?_, ?_⟩
      · intro l y hy
        match l, hy with
        | 0, hy => cases hy; refine congrArg Except.ok ?_; norm_num [ones, dof]; try ring
        | 1, hy => cases hy; refine congrArg Except.ok ?_; norm_num [ones, dof]; try ring
        | 2, hy => cases hy; refine congrArg Except.ok ?_; norm_num [ones, dof]; try ring
        | 3, hy => cases hy; refine congrArg Except.ok ?_; norm_num [ones, dof]; try ring
      · intro d hd
        rw [Finsupp.sum_fintype _ _ (fun _ => rfl)] at hd
        simp only [Fin.sum_univ_succ, Fin.sum_univ_zero, Finset.univ_eq_empty, Finset.sum_empty, Fin.succ_zero_eq_one, Fin.succ_one_eq_two] at hd
        simp only [Fin.prod_univ_succ, compCount, Finset.sum_range_succ, node, pt, Fin.succ_zero_eq_one, Fin.succ_one_eq_two]
        generalize d 0 = a at *
        generalize d 1 = b at *
        generalize d 2 = e at *
        have ha : a ≤ 1 := by simp at hd; omega
        have hb : b ≤ 1 := by simp at hd; omega
        have he : e ≤ 1 := by simp at hd; omega
        interval_cases a <;> interval_cases b <;> interval_cases e <;> first | (exfalso; simp at hd; done) | (simp; done) | (simp; ring)
  obtain ⟨ys, h1, h2, h3⟩ := mono
  refine ⟨ys, h1, h2, ?_⟩
  simp only [MvPolynomial.eval_eq', Finset.sum_mul]
  rw [Finset.sum_comm]
  refine Finset.sum_congr rfl fun d hd => ?_
  rw [← h3 d ((MvPolynomial.le_totalDegree hd).trans hp), Finset.mul_sum]
  exact Finset.sum_congr rfl fun l _ => by ring

/-- C54: the shape functions sum to one everywhere -/
theorem C54_partition [CharZero T] {K order : Nat} (h : Working K order) {v : List T} (hv : v.length = K) :
    ∃ ys : List T, ys.length = compCount K order ∧ (∀ l y, ys[l]? = some y → value K order l v = .ok y) ∧ ys.sum = 1 := by
  obtain ⟨ys, h1, h2, h3⟩ := C54_reproduce h 1 (by simp) hv
  refine ⟨ys, h1, h2, ?_⟩
  simp only [map_one, one_mul] at h3
  rw [← h3, ← h1]
  clear h1 h2 h3
  induction ys with
  | nil => simp
  | cons y ys ih => rw [List.length_cons, Finset.sum_range_succ', List.sum_cons, ih]; simp [add_comm]

/-! derivatives -/

theorem deriv_quad {f : ℝ → ℝ} {x g : ℝ} (h1 : ∀ t, f t = f 0 + (f 1 - f (-1)) / 2 * t + ((f 1 + f (-1)) / 2 - f 0) * t ^ 2)
    (h2 : g = (f 1 - f (-1)) / 2 + 2 * ((f 1 + f (-1)) / 2 - f 0) * x) : HasDerivAt f g x := by
  have : f = fun t => f 0 + (f 1 - f (-1)) / 2 * t + ((f 1 + f (-1)) / 2 - f 0) * t ^ 2 := funext h1
  rw [this, h2]
  have e1 := ((hasDerivAt_id x).const_mul ((f 1 - f (-1)) / 2)).const_add (f 0)
  have e2 := ((hasDerivAt_pow 2 x).const_mul ((f 1 + f (-1)) / 2 - f 0))
  refine (e1.add e2).congr_deriv ?_
  push_cast
  ring

/-- the value of a call that does not fail -/
def val (r : R ℝ) : ℝ := r.toOption.getD 0
/-- component `i` of the result of a call that does not fail -/
def comp (r : R (List ℝ)) (i : Nat) : ℝ := (r.toOption.getD []).getD i 0

section eval
variable (a b c d e f : ℝ) (l : List ℝ)
theorem at0 : vecAt (a :: l) 0 = .ok a := rfl
theorem at1 : vecAt (a :: b :: l) 1 = .ok b := rfl
theorem at2 : vecAt (a :: b :: c :: l) 2 = .ok c := rfl
theorem at3 : vecAt (a :: b :: c :: d :: l) 3 = .ok d := rfl
theorem at4 : vecAt (a :: b :: c :: d :: e :: l) 4 = .ok e := rfl
theorem at5 : vecAt (a :: b :: c :: d :: e :: f :: l) 5 = .ok f := rfl
theorem gt0 : getIdx (a :: l) 0 = .ok a := rfl
theorem gt1 : getIdx (a :: b :: l) 1 = .ok b := rfl
theorem gt2 : getIdx (a :: b :: c :: l) 2 = .ok c := rfl
theorem gt3 : getIdx (a :: b :: c :: d :: l) 3 = .ok d := rfl
theorem gt4 : getIdx (a :: b :: c :: d :: e :: l) 4 = .ok e := rfl
theorem gt5 : getIdx (a :: b :: c :: d :: e :: f :: l) 5 = .ok f := rfl
theorem val_ok : val (.ok a) = a := rfl
theorem comp_ok0 : comp (.ok (a :: l)) 0 = a := rfl
theorem comp_ok1 : comp (.ok (a :: b :: l)) 1 = b := rfl
theorem comp_ok2 : comp (.ok (a :: b :: c :: l)) 2 = c := rfl
end eval

/-- C54: `gradient` and `gradient2` with node values are the first and (unmixed) second partial derivatives of `value`
with the same node values, at every point.  For linear triangles (2,1) this needs `nodeValues[0] = 1`, see
`C54_gradient_negation`. -/
theorem C54_gradient_partial {K order lc : Nat} (h : Working K order) (hl : lc < compCount K order) {v nv : List ℝ} (hv : v.length = K)
    (hn : nv.length = dof K order) (hn0 : K = 2 → order = 1 → nv[0]? = some 1) {i : Nat} (hi : i < K) :
    HasDerivAt (fun t => val (valueAt K order lc (v.set i t) nv)) (comp (gradientAt K order lc v nv) i) (v.getD i 0) ∧
    HasDerivAt (fun t => comp (gradientAt K order lc (v.set i t) nv) i) (comp (gradient2At K order lc v nv) i) (v.getD i 0) := by
  obtain ⟨row, r1, r2⟩ := row_ok (T := ℝ) h.supported hl
  unfold valueAt gradientAt gradient2At
  simp only [assert_true hl, ok_bind, r1]
  unfold Working at h
  rcases h with ⟨rfl, rfl⟩ | ⟨rfl, rfl⟩ | ⟨rfl, rfl⟩ | ⟨rfl, rfl⟩ | ⟨rfl, rfl⟩
  · obtain ⟨x, rfl⟩ := one hv; obtain ⟨a, b, rfl⟩ := two hn; obtain ⟨c, d, rfl⟩ := two r2
    obtain rfl : i = 0 := by omega
    constructor <;> apply deriv_quad <;>
      simp only [evalSum, components, valueTerms, gradTerms, grad2Terms, evalTerm, prodAt, forList, ok_bind, pure_eq_ok, at0, at1, at2, at3, at4, at5,
        gt0, gt1, gt2, gt3, gt4, gt5, val_ok, comp_ok0, comp_ok1, comp_ok2, List.set_cons_zero, List.set_cons_succ, List.getD_cons_zero, List.getD_cons_succ,
        Nat.cast_one, Nat.cast_ofNat] <;>
      intros <;> ring
  · obtain ⟨x, rfl⟩ := one hv; obtain ⟨a, b, c, n, rfl⟩ := four hn; obtain ⟨d, e, f, rfl⟩ := three r2
    obtain rfl : i = 0 := by omega
    constructor <;> apply deriv_quad <;>
      simp only [evalSum, components, valueTerms, gradTerms, grad2Terms, evalTerm, prodAt, forList, ok_bind, pure_eq_ok, at0, at1, at2, at3, at4, at5,
        gt0, gt1, gt2, gt3, gt4, gt5, val_ok, comp_ok0, comp_ok1, comp_ok2, List.set_cons_zero, List.set_cons_succ, List.getD_cons_zero, List.getD_cons_succ,
        Nat.cast_one, Nat.cast_ofNat] <;>
      intros <;> ring
  · obtain ⟨x, y, rfl⟩ := two hv; obtain ⟨a, b, c, rfl⟩ := three hn; obtain ⟨d, e, f, rfl⟩ := three r2
    obtain rfl : a = 1 := by simpa using hn0 rfl rfl
    obtain rfl | rfl : i = 0 ∨ i = 1 := by omega
    all_goals
      constructor <;> apply deriv_quad <;>
      simp only [evalSum, components, valueTerms, gradTerms, grad2Terms, evalTerm, prodAt, forList, ok_bind, pure_eq_ok, at0, at1, at2, at3, at4, at5,
        gt0, gt1, gt2, gt3, gt4, gt5, val_ok, comp_ok0, comp_ok1, comp_ok2, List.set_cons_zero, List.set_cons_succ, List.getD_cons_zero, List.getD_cons_succ,
        Nat.cast_one, Nat.cast_ofNat] <;>
      intros <;> ring
  · obtain ⟨x, y, rfl⟩ := two hv; obtain ⟨n0, n1, n2, n3, n4, n5, rfl⟩ := six hn
    obtain ⟨c0, c1, c2, c3, c4, c5, rfl⟩ := six r2
    obtain rfl | rfl : i = 0 ∨ i = 1 := by omega
    all_goals
      constructor <;> apply deriv_quad <;>
      simp only [evalSum, components, valueTerms, gradTerms, grad2Terms, evalTerm, prodAt, forList, ok_bind, pure_eq_ok, at0, at1, at2, at3, at4, at5,
        gt0, gt1, gt2, gt3, gt4, gt5, val_ok, comp_ok0, comp_ok1, comp_ok2, List.set_cons_zero, List.set_cons_succ, List.getD_cons_zero, List.getD_cons_succ,
        Nat.cast_one, Nat.cast_ofNat] <;>
      intros <;> ring
  · obtain ⟨x, y, z, rfl⟩ := three hv; obtain ⟨n0, n1, n2, n3, rfl⟩ := four hn
    obtain ⟨c0, c1, c2, c3, rfl⟩ := four r2
    obtain rfl | rfl | rfl : i = 0 ∨ i = 1 ∨ i = 2 := by omega
    all_goals
      constructor <;> apply deriv_quad <;>
      simp only [evalSum, components, valueTerms, gradTerms, grad2Terms, evalTerm, prodAt, forList, ok_bind, pure_eq_ok, at0, at1, at2, at3, at4, at5,
        gt0, gt1, gt2, gt3, gt4, gt5, val_ok, comp_ok0, comp_ok1, comp_ok2, List.set_cons_zero, List.set_cons_succ, List.getD_cons_zero, List.getD_cons_succ,
        Nat.cast_one, Nat.cast_ofNat] <;>
      intros <;> ring

/-- C54: `gradient` and `gradient2` (without node values) are the first and (unmixed) second partial derivatives of `value` -/
theorem C54_gradient {K order lc : Nat} (h : Working K order) (hl : lc < compCount K order) {v : List ℝ} (hv : v.length = K)
    {i : Nat} (hi : i < K) :
    (∃ y, value K order lc v = .ok y) ∧ (∃ g, gradient K order lc v = .ok g ∧ g.length = K) ∧ (∃ g, gradient2 K order lc v = .ok g ∧ g.length = K) ∧
    HasDerivAt (fun t => val (value K order lc (v.set i t))) (comp (gradient K order lc v) i) (v.getD i 0) ∧
    HasDerivAt (fun t => comp (gradient K order lc (v.set i t)) i) (comp (gradient2 K order lc v) i) (v.getD i 0) := by
  have hn : (ones K order : List ℝ).length = dof K order := by simp [ones]
  obtain ⟨h1, h2, h3⟩ := C55_total_partial h hl hv hn
  exact ⟨h1, h2, h3, C54_gradient_partial h hl hv hn (by rintro rfl rfl; rfl) hi⟩

/-- C54: with node values the gradient of linear triangles is not the derivative of the value: at `nodeValues = (2,1,1)`
component 1 has the values `x`, but the gradient `(2, 0)`. -/
theorem C54_gradient_negation (x y : ℝ) :
    valueAt 2 1 1 [x, y] [2, 1, 1] = .ok x ∧ gradientAt 2 1 1 [x, y] [2, 1, 1] = .ok [2, 0] := by
  constructor
  · refine congrArg Except.ok ?_
    norm_num
  · refine congrArg Except.ok ?_
    simp only [List.cons.injEq, and_true]
    constructor <;> norm_num

/-- the quadratic line elements number the middle node 1, not 2 as documented ("x0 --x2-- x1", `PolyShapeFunction.inl:15`,
and `prepareMesh`, `:389-402`): component 1 vanishes at the second end point, and component 2 at the middle -/
theorem C54_line_order_negation [CharZero T] : value 1 2 1 [(1 : T)] = .ok 0 ∧ value 1 2 2 [(1 / 2 : T)] = .ok 0 := by
  constructor
  · refine congrArg Except.ok ?_; norm_num
  · refine congrArg Except.ok ?_; norm_num

/-- non-vacuity -/
example : Working 2 2 ∧ (3 : Nat) < compCount 2 2 ∧ ([1, 2] : List ℝ).length = 2 :=
  ⟨by unfold Working; tauto, by decide, rfl⟩
example : value 2 2 3 ([1 / 2, 1 / 4] : List ℚ) = .ok (1 / 2) ∧ gradient 2 2 3 ([1 / 2, 1 / 4] : List ℚ) = .ok [-1, -2] := by
  decide +kernel

end NS.Props.Shape

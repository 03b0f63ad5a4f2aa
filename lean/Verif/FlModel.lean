/-
Floating-point values with exact finite arithmetic: finite numbers, the two infinities and NaN.  Used where the
C++ code relies on `std::isnan`/`std::isfinite`.  Simplifications: finite arithmetic is exact (no rounding, no
overflow) and zero is unsigned, so a non-zero number divided by zero has the sign of the dividend.
-/
import Mathlib.Algebra.Order.Field.Basic
import Mathlib.Algebra.BigOperators.Group.Finset.Basic
import Mathlib.Algebra.Order.BigOperators.Group.Finset

set_option linter.unusedSectionVars false
set_option linter.unusedSimpArgs false

namespace NS

/-- `double`/`float` values (IEEE 754 special values as used by `Iterative.inl:44-49, 105-110`). -/
inductive Fl (T : Type)
  | fin (x : T)
  | pinf
  | ninf
  | nan
  deriving DecidableEq

namespace Fl
variable {T : Type} [Field T] [LinearOrder T]

/-- IEEE addition -/
def add : Fl T → Fl T → Fl T
  | fin a, fin b => fin (a + b)
  | fin _, y => y
  | x, fin _ => x
  | pinf, pinf => pinf
  | ninf, ninf => ninf
  | _, _ => nan
/-- IEEE negation -/
def neg : Fl T → Fl T
  | fin a => fin (-a)
  | pinf => ninf
  | ninf => pinf
  | nan => nan
/-- an infinity with the sign of `s` (`nan` for zero, as in `0 * inf`) -/
def infSgn (s : T) : Fl T := if s = 0 then nan else if 0 < s then pinf else ninf
/-- IEEE multiplication -/
def mul : Fl T → Fl T → Fl T
  | fin a, fin b => fin (a * b)
  | fin a, pinf => infSgn a
  | fin a, ninf => infSgn (-a)
  | pinf, fin a => infSgn a
  | ninf, fin a => infSgn (-a)
  | pinf, pinf => pinf
  | ninf, ninf => pinf
  | pinf, ninf => ninf
  | ninf, pinf => ninf
  | _, _ => nan
/-- IEEE division -/
def div : Fl T → Fl T → Fl T
  | fin a, fin b => if b = 0 then infSgn a else fin (a / b)
  | fin _, pinf => fin 0
  | fin _, ninf => fin 0
  | pinf, fin b => if 0 ≤ b then pinf else ninf
  | ninf, fin b => if 0 ≤ b then ninf else pinf
  | _, _ => nan
/-- `std::abs` -/
def abs : Fl T → Fl T
  | fin a => fin (max a (-a))
  | pinf => pinf
  | ninf => pinf
  | nan => nan
/-- `std::isnan` -/
def isNan : Fl T → Bool
  | nan => true
  | _ => false
/-- `std::isfinite` -/
def isFinite : Fl T → Bool
  | fin _ => true
  | _ => false
/-- `x <= y` for a finite `y` -/
def leFin : Fl T → T → Bool
  | fin a, b => decide (a ≤ b)
  | ninf, _ => true
  | _, _ => false

instance : Zero (Fl T) := ⟨fin 0⟩
instance : Add (Fl T) := ⟨add⟩
instance : Neg (Fl T) := ⟨neg⟩
instance : Sub (Fl T) := ⟨fun a b => add a (neg b)⟩
instance : Mul (Fl T) := ⟨mul⟩
instance : Div (Fl T) := ⟨div⟩

theorem add_def (a b : Fl T) : a + b = add a b := rfl
theorem zero_def : (0 : Fl T) = fin 0 := rfl
@[simp] theorem fin_add (a b : T) : (fin a : Fl T) + fin b = fin (a + b) := rfl
@[simp] theorem fin_sub (a b : T) : (fin a : Fl T) - fin b = fin (a - b) := by
  show fin (a + -b) = _
  rw [sub_eq_add_neg]
@[simp] theorem fin_mul (a b : T) : (fin a : Fl T) * fin b = fin (a * b) := rfl
theorem fin_div (a b : T) : (fin a : Fl T) / fin b = if b = 0 then infSgn a else fin (a / b) := rfl

instance : AddCommMonoid (Fl T) where
  add_assoc a b c := by
    show add (add a b) c = add a (add b c)
    cases a <;> cases b <;> cases c <;> simp only [add, add_assoc]
  zero_add a := by
    show add (fin 0) a = a
    cases a <;> simp only [add, zero_add]
  add_zero a := by
    show add a (fin 0) = a
    cases a <;> simp only [add, add_zero]
  add_comm a b := by
    show add a b = add b a
    cases a <;> cases b <;> simp only [add, add_comm]
  nsmul := nsmulRec

theorem sum_fin {ι : Type} (s : Finset ι) (f : ι → T) : (∑ i ∈ s, (fin (f i) : Fl T)) = fin (∑ i ∈ s, f i) := by
  classical
  induction s using Finset.induction_on with
  | empty => rfl
  | insert a s ha ih => rw [Finset.sum_insert ha, Finset.sum_insert ha, ih]; rfl

theorem listSum_fin (l : List T) : (l.map (fin : T → Fl T)).sum = fin l.sum := by
  induction l with
  | nil => rfl
  | cons a l ih => rw [List.map_cons, List.sum_cons, List.sum_cons, ih]; rfl

/-- sums of terms none of which is `-inf` -/
theorem sum_spec {ι : Type} (s : Finset ι) (f : ι → Fl T) (h : ∀ i ∈ s, f i ≠ ninf) :
    (∑ i ∈ s, f i) ≠ ninf ∧ ((∑ i ∈ s, f i) = nan ↔ ∃ i ∈ s, f i = nan) ∧
      ((∑ i ∈ s, f i).isFinite = true ↔ ∀ i ∈ s, (f i).isFinite = true) := by
  classical
  induction s using Finset.induction_on with
  | empty => simp [zero_def, isFinite]
  | insert a s ha ih =>
    obtain ⟨h1, h2, h3⟩ := ih fun i hi => h i (Finset.mem_insert_of_mem hi)
    have h0 := h a (Finset.mem_insert_self _ _)
    rw [Finset.sum_insert ha, Finset.exists_mem_insert, Finset.forall_mem_insert, ← h2, ← h3]
    generalize (∑ i ∈ s, f i) = u at *
    generalize f a = v at *
    cases u <;> cases v <;> simp_all [add_def, add, isFinite]

theorem sq_ne_ninf [IsStrictOrderedRing T] (a : Fl T) : a * a ≠ ninf := by
  cases a <;> simp only [HMul.hMul, Mul.mul, mul] <;> simp
theorem sq_nan (a : Fl T) : a * a = nan ↔ a = nan := by
  cases a <;> simp only [HMul.hMul, Mul.mul, mul] <;> simp
theorem sq_isFinite (a : Fl T) : (a * a).isFinite = a.isFinite := by
  cases a <;> simp only [HMul.hMul, Mul.mul, mul] <;> simp [isFinite]
theorem sub_fin_nan (a : Fl T) (x : T) : a - fin x = nan ↔ a = nan := by
  cases a <;> simp [HSub.hSub, Sub.sub, neg, add]
theorem sub_fin_isFinite (a : Fl T) (x : T) : (a - fin x).isFinite = a.isFinite := by
  cases a <;> simp [HSub.hSub, Sub.sub, neg, add, isFinite]
theorem abs_isNan (a : Fl T) : a.abs.isNan = true ↔ a = nan := by
  cases a <;> simp [abs, isNan]
theorem abs_isFinite (a : Fl T) : a.abs.isFinite = a.isFinite := by
  cases a <;> simp [abs, isFinite]
end Fl
end NS

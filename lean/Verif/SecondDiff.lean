/-
Error of the central second difference quotient, for functions that are four times continuously differentiable on an interval.  No
part of the program is modelled here; the lemmas are used for the error estimates of the finite difference examples.
-/
import Mathlib.Analysis.Calculus.IteratedDeriv.Defs
import Mathlib.Analysis.Calculus.Deriv.MeanValue
import Mathlib.Analysis.Calculus.ContDiff.Basic
import Mathlib.Analysis.Calculus.Deriv.Pow

set_option linter.unusedSectionVars false
namespace NS
open Set

/-- a function with value 0 at 0 and derivative not negative is not negative -/
theorem nonneg_of_deriv {f f' : ℝ → ℝ} {h : ℝ} (h0 : f 0 = 0) (hd : ∀ s ∈ Icc 0 h, HasDerivWithinAt f (f' s) (Icc 0 h) s)
    (hn : ∀ s ∈ Icc 0 h, 0 ≤ f' s) {s : ℝ} (hs : s ∈ Icc 0 h) : 0 ≤ f s := by
  have hm : MonotoneOn f (Icc 0 h) := by
    refine monotoneOn_of_deriv_nonneg (convex_Icc 0 h) (fun s hs => (hd s hs).continuousWithinAt) (fun s hs => ?_) (fun s hs => ?_)
    · rw [interior_Icc] at hs ⊢
      exact ((hd s (Ioo_subset_Icc_self hs)).mono Ioo_subset_Icc_self).differentiableWithinAt
    · rw [interior_Icc] at hs
      have := (hd s (Ioo_subset_Icc_self hs)).hasDerivAt (Icc_mem_nhds hs.1 hs.2)
      rw [this.deriv]
      exact hn s (Ioo_subset_Icc_self hs)
  have := hm (left_mem_Icc.2 (hs.1.trans hs.2)) hs hs.1
  rwa [h0] at this

/-- a function whose first derivative chain up to the fourth is given -/
structure Chain4 (a b : ℝ) (g : ℕ → ℝ → ℝ) : Prop where
  d : ∀ i < 4, ∀ x ∈ Icc a b, HasDerivWithinAt (g i) (g (i + 1) x) (Icc a b) x

theorem chain4_of_contDiffOn {a b : ℝ} (hab : a < b) {w : ℝ → ℝ} (hw : ContDiffOn ℝ 4 w (Icc a b)) :
    Chain4 a b (fun i => iteratedDerivWithin i w (Icc a b)) := by
  refine ⟨fun i hi x hx => ?_⟩
  have hu := uniqueDiffOn_Icc hab
  have h1 : DifferentiableOn ℝ (iteratedDerivWithin i w (Icc a b)) (Icc a b) :=
    hw.differentiableOn_iteratedDerivWithin (by exact_mod_cast hi) hu
  have h2 := (h1 x hx).hasDerivWithinAt
  rw [iteratedDerivWithin_succ]
  exact h2

/-- one-sided estimate: `g(x+s) + g(x-s) - 2 g(x) - s^2 g''(x) <= M s^4 / 12` -/
theorem second_diff_le {a b M : ℝ} {g : ℕ → ℝ → ℝ} (hg : Chain4 a b g) (hM : ∀ x ∈ Icc a b, g 4 x ≤ M) {x h : ℝ} (hh : 0 ≤ h)
    (hl : a ≤ x - h) (hr : x + h ≤ b) : g 0 (x + h) + g 0 (x - h) - 2 * g 0 x - h ^ 2 * g 2 x ≤ M * h ^ 4 / 12 := by
  have hx : x ∈ Icc a b := ⟨by linarith, by linarith⟩
  have hp : ∀ i < 4, ∀ s ∈ Icc 0 h, HasDerivWithinAt (fun s => g i (x + s)) (g (i + 1) (x + s)) (Icc 0 h) s := by
    intro i hi s hs
    have h1 : x + s ∈ Icc a b := ⟨by linarith [hs.1], by linarith [hs.2]⟩
    have h2 : HasDerivWithinAt (fun s => x + s) 1 (Icc 0 h) s := by
      simpa using (hasDerivWithinAt_id s (Icc 0 h)).const_add x
    have := (hg.d i hi (x + s) h1).comp s h2 (fun t ht => ⟨by linarith [ht.1], by linarith [ht.2]⟩)
    exact this.congr_deriv (mul_one _)
  have hm : ∀ i < 4, ∀ s ∈ Icc 0 h, HasDerivWithinAt (fun s => g i (x - s)) (-g (i + 1) (x - s)) (Icc 0 h) s := by
    intro i hi s hs
    have h1 : x - s ∈ Icc a b := ⟨by linarith [hs.2], by linarith [hs.1]⟩
    have h2 : HasDerivWithinAt (fun s => x - s) (-1) (Icc 0 h) s := by
      simpa using (hasDerivWithinAt_id s (Icc 0 h)).const_sub x
    have := (hg.d i hi (x - s) h1).comp s h2 (fun t ht => ⟨by linarith [ht.2], by linarith [ht.1]⟩)
    exact this.congr_deriv (mul_neg_one _)
  have hpow : ∀ (n : ℕ) (c s : ℝ), HasDerivWithinAt (fun s => c * s ^ n) (c * (n * s ^ (n - 1))) (Icc 0 h) s := fun n c s => by
    have := (hasDerivAt_pow n s).hasDerivWithinAt (s := Icc 0 h)
    simpa using this.const_mul c
  have m0 : (0 : ℝ) ∈ Icc 0 h := ⟨le_refl _, hh⟩
  have s4 : ∀ s ∈ Icc 0 h, 0 ≤ 2 * M - (g 4 (x + s) + g 4 (x - s)) := by
    intro s hs
    have h1 := hM (x + s) ⟨by linarith [hs.1], by linarith [hs.2]⟩
    have h2 := hM (x - s) ⟨by linarith [hs.2], by linarith [hs.1]⟩
    linarith
  have s3 : ∀ s ∈ Icc 0 h, 0 ≤ 2 * M * s ^ 1 - (g 3 (x + s) - g 3 (x - s)) := by
    intro s hs
    refine nonneg_of_deriv (f := fun s => 2 * M * s ^ 1 - (g 3 (x + s) - g 3 (x - s))) (by simp) (fun s hs => ?_) s4 hs
    have := (hpow 1 (2 * M) s).sub ((hp 3 (by norm_num) s hs).sub (hm 3 (by norm_num) s hs))
    exact this.congr_deriv (by simp)
  have s2 : ∀ s ∈ Icc 0 h, 0 ≤ M * s ^ 2 - (g 2 (x + s) + g 2 (x - s) - 2 * g 2 x) := by
    intro s hs
    refine nonneg_of_deriv (f := fun s => M * s ^ 2 - (g 2 (x + s) + g 2 (x - s) - 2 * g 2 x)) (by simp; ring) (fun s hs => ?_) s3 hs
    have := (hpow 2 M s).sub (((hp 2 (by norm_num) s hs).add (hm 2 (by norm_num) s hs)).sub_const (2 * g 2 x))
    exact this.congr_deriv (by simp; ring)
  have s1 : ∀ s ∈ Icc 0 h, 0 ≤ M / 3 * s ^ 3 - (g 1 (x + s) - g 1 (x - s) - 2 * g 2 x * s ^ 1) := by
    intro s hs
    refine nonneg_of_deriv (f := fun s => M / 3 * s ^ 3 - (g 1 (x + s) - g 1 (x - s) - 2 * g 2 x * s ^ 1)) (by simp) (fun s hs => ?_) s2 hs
    have := (hpow 3 (M / 3) s).sub (((hp 1 (by norm_num) s hs).sub (hm 1 (by norm_num) s hs)).sub (hpow 1 (2 * g 2 x) s))
    exact this.congr_deriv (by simp; ring)
  have s0 : ∀ s ∈ Icc 0 h, 0 ≤ M / 12 * s ^ 4 - (g 0 (x + s) + g 0 (x - s) - 2 * g 0 x - g 2 x * s ^ 2) := by
    intro s hs
    refine nonneg_of_deriv (f := fun s => M / 12 * s ^ 4 - (g 0 (x + s) + g 0 (x - s) - 2 * g 0 x - g 2 x * s ^ 2)) (by simp; ring) (fun s hs => ?_) s1 hs
    have := (hpow 4 (M / 12) s).sub ((((hp 0 (by norm_num) s hs).add (hm 0 (by norm_num) s hs)).sub_const (2 * g 0 x)).sub (hpow 2 (g 2 x) s))
    exact this.congr_deriv (by simp; ring)
  have := s0 h ⟨hh, le_refl _⟩
  nlinarith [this]

/-- `|(g(x+h) + g(x-h) - 2 g(x)) / h^2 - g''(x)| <= M h^2 / 12` -/
theorem second_diff_abs {a b M : ℝ} (hab : a < b) {w : ℝ → ℝ} (hw : ContDiffOn ℝ 4 w (Icc a b))
    (hM : ∀ x ∈ Icc a b, |iteratedDerivWithin 4 w (Icc a b) x| ≤ M) {x h : ℝ} (hh : 0 < h) (hl : a ≤ x - h) (hr : x + h ≤ b) :
    |(w (x - h) + w (x + h) - 2 * w x) / h ^ 2 - iteratedDerivWithin 2 w (Icc a b) x| ≤ M * h ^ 2 / 12 := by
  have hg := chain4_of_contDiffOn hab hw
  have h1 := second_diff_le hg (fun x hx => (abs_le.1 (hM x hx)).2) hh.le hl hr
  have hn : Chain4 a b (fun i x => -iteratedDerivWithin i w (Icc a b) x) := ⟨fun i hi x hx => (hg.d i hi x hx).fun_neg⟩
  have h2 := second_diff_le hn (M := M) (fun x hx => by have := (abs_le.1 (hM x hx)).1; linarith) hh.le hl hr
  simp only [iteratedDerivWithin_zero] at h1 h2
  have hp : 0 < h ^ 2 := by positivity
  have e : (w (x - h) + w (x + h) - 2 * w x) / h ^ 2 - iteratedDerivWithin 2 w (Icc a b) x =
      (w (x - h) + w (x + h) - 2 * w x - h ^ 2 * iteratedDerivWithin 2 w (Icc a b) x) / h ^ 2 := by field_simp
  have e2 : M * h ^ 2 / 12 = (M * h ^ 4 / 12) / h ^ 2 := by field_simp
  rw [e, e2, abs_div, abs_of_pos hp]
  refine div_le_div_of_nonneg_right (abs_le.2 ⟨?_, ?_⟩) hp.le <;> linarith

/-- error of the backward difference quotient: `|(w(x) - w(x-h)) / h - w'(x)| <= M h / 2` -/
theorem backward_diff_abs {a b M : ℝ} (hab : a < b) {w : ℝ → ℝ} (hw : ContDiffOn ℝ 2 w (Icc a b))
    (hM : ∀ x ∈ Icc a b, |iteratedDerivWithin 2 w (Icc a b) x| ≤ M) {x h : ℝ} (hh : 0 < h) (hl : a ≤ x - h) (hr : x ≤ b) :
    |(w x - w (x - h)) / h - iteratedDerivWithin 1 w (Icc a b) x| ≤ M * h / 2 := by
  have hu := uniqueDiffOn_Icc hab
  have hd : ∀ i < 2, ∀ x ∈ Icc a b, HasDerivWithinAt (iteratedDerivWithin i w (Icc a b)) (iteratedDerivWithin (i + 1) w (Icc a b) x) (Icc a b) x := by
    intro i hi x hx
    have h1 : DifferentiableOn ℝ (iteratedDerivWithin i w (Icc a b)) (Icc a b) :=
      hw.differentiableOn_iteratedDerivWithin (by exact_mod_cast hi) hu
    rw [iteratedDerivWithin_succ]
    exact (h1 x hx).hasDerivWithinAt
  set g : ℕ → ℝ → ℝ := fun i => iteratedDerivWithin i w (Icc a b) with hgdef
  have hx : x ∈ Icc a b := ⟨by linarith, hr⟩
  have hm : ∀ i < 2, ∀ s ∈ Icc 0 h, HasDerivWithinAt (fun s => g i (x - s)) (-g (i + 1) (x - s)) (Icc 0 h) s := by
    intro i hi s hs
    have h1 : x - s ∈ Icc a b := ⟨by linarith [hs.2], by linarith [hs.1]⟩
    have h2 : HasDerivWithinAt (fun s => x - s) (-1) (Icc 0 h) s := by
      simpa using (hasDerivWithinAt_id s (Icc 0 h)).const_sub x
    have := (hd i hi (x - s) h1).comp s h2 (fun t ht => ⟨by linarith [ht.2], by linarith [ht.1]⟩)
    exact this.congr_deriv (mul_neg_one _)
  have hpow : ∀ (n : ℕ) (c s : ℝ), HasDerivWithinAt (fun s => c * s ^ n) (c * (n * s ^ (n - 1))) (Icc 0 h) s := fun n c s => by
    have := (hasDerivAt_pow n s).hasDerivWithinAt (s := Icc 0 h)
    simpa using this.const_mul c
  have key : ∀ σ : ℝ, (σ = 1 ∨ σ = -1) → 0 ≤ M / 2 * h ^ 2 - σ * (g 0 x - g 0 (x - h) - g 1 x * h ^ 1) := by
    intro σ hσ
    have hb : ∀ s ∈ Icc 0 h, σ * g 2 (x - s) ≤ M ∧ -(σ * g 2 (x - s)) ≤ M := by
      intro s hs
      have := abs_le.1 (hM (x - s) ⟨by linarith [hs.2], by linarith [hs.1]⟩)
      rcases hσ with rfl | rfl <;> constructor <;> simp only [hgdef] <;> linarith
    have s1 : ∀ s ∈ Icc 0 h, 0 ≤ M * s ^ 1 - σ * (g 1 (x - s) - g 1 x) := by
      intro s hs
      refine nonneg_of_deriv (f := fun s => M * s ^ 1 - σ * (g 1 (x - s) - g 1 x)) (f' := fun s => M + σ * g 2 (x - s)) (by simp) (fun s hs => ?_) (fun s hs => by linarith [(hb s hs).2]) hs
      have := (hpow 1 M s).sub (((hm 1 (by norm_num) s hs).sub_const (g 1 x)).const_mul σ)
      exact this.congr_deriv (by simp)
    refine nonneg_of_deriv (f := fun s => M / 2 * s ^ 2 - σ * (g 0 x - g 0 (x - s) - g 1 x * s ^ 1)) (by simp) (fun s hs => ?_) s1 ⟨hh.le, le_refl _⟩
    have := (hpow 2 (M / 2) s).sub ((((hm 0 (by norm_num) s hs).const_sub (g 0 x)).sub (hpow 1 (g 1 x) s)).const_mul σ)
    exact this.congr_deriv (by simp; ring)
  have k1 := key 1 (.inl rfl)
  have k2 := key (-1) (.inr rfl)
  simp only [hgdef, iteratedDerivWithin_zero, pow_one] at k1 k2
  have e : (w x - w (x - h)) / h - iteratedDerivWithin 1 w (Icc a b) x =
      (w x - w (x - h) - iteratedDerivWithin 1 w (Icc a b) x * h) / h := by field_simp
  have e2 : M * h / 2 = (M / 2 * h ^ 2) / h := by field_simp
  rw [e, e2, abs_div, abs_of_pos hh]
  refine div_le_div_of_nonneg_right (abs_le.2 ⟨?_, ?_⟩) hh.le <;> linarith
end NS

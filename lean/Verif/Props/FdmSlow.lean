/-
Property theorem C104: how fast the SOR iteration of `examples/poisson/fdm.cpp` converges, and what the program writes.
-/
import Verif.Props.FdmError
import Mathlib.Analysis.SpecialFunctions.Trigonometric.Bounds
import Mathlib.Analysis.Real.Pi.Bounds

set_option linter.unusedSectionVars false
set_option linter.unusedSimpArgs false

namespace NS.Props.Fdm
open NS NS.Fdm NS.Grid MatOps Matrix Real NS.Iterative NS.Props.Iter
open NS.Props.LU (IsMat IsVec isVec_iff)
open NS.Props.Iter (IsSorSweep StopsAt C38_sor)
variable {p : Poisson ℝ}

/-! ### One sweep on the grid -/

theorem sweep_hybrid {n : Nat} {A : Matrix (Fin n) (Fin n) ℝ} (x y : Fin n → ℝ) (i : Fin n) :
    (∑ j, (if j < i then A i j * y j else if i < j then A i j * x j else 0)) =
      (A *ᵥ fun j => if j < i then y j else if i < j then x j else 0) i := by
  unfold Matrix.mulVec dotProduct
  refine Finset.sum_congr rfl fun j _ => ?_
  rcases lt_trichotomy j i with h | h | h
  · simp [h]
  · simp [h]
  · simp [h, h.le, not_lt.2 h.le]

/-- the equation of an inner grid point in a sweep on the homogeneous system -/
theorem sweep_inner {w : ℝ} {e e' : Fin (p.xc * p.yc) → ℝ} (hr : p.c ≠ 0) (hs : IsSorSweep (mat p) 0 w e e e') {x y : Nat} (hx : x < p.xc) (hy : y < p.yc)
    (h : ¬ OnRim p x y) : p.c * val2 p e' x y + w * (p.r2 * val2 p e' (x - 1) y + val2 p e' x (y - 1)) =
      (1 - w) * p.c * val2 p e x y - w * (p.r2 * val2 p e (x + 1) y + val2 p e x (y + 1)) := by
  have hi := hs ⟨p.lin x y, lin_lt hx hy⟩
  rw [sweep_hybrid] at hi
  have hm := mulVec_row (p := p) (fun j => if j < ⟨p.lin x y, lin_lt hx hy⟩ then e' j else if ⟨p.lin x y, lin_lt hx hy⟩ < j then e j else 0) hx hy
  rw [if_neg h] at hm
  change (mat p *ᵥ _) _ = _ at hm
  rw [hm] at hi
  have hrim : ¬ rimIx p ⟨p.lin x y, lin_lt hx hy⟩ := by
    unfold rimIx
    simp only
    rw [lin_mod hx, lin_div hx]
    exact h
  rw [mat_inner hrim, if_pos rfl] at hi
  obtain ⟨i1, i2, i3, i4⟩ := inner_pos hx hy h
  have hv : ∀ (u : Fin (p.xc * p.yc) → ℝ) (a b : Nat) (ha : a < p.xc) (hb : b < p.yc), val2 p u a b = u ⟨p.lin a b, lin_lt ha hb⟩ := by
    intro u a b ha hb
    unfold val2 ev
    exact dif_pos (lin_lt (p := p) ha hb)
  have l1 : p.lin (x - 1) y < p.lin x y := by unfold Poisson.lin; omega
  have l2 : p.lin x y < p.lin (x + 1) y := by unfold Poisson.lin; omega
  have l3 : p.lin x (y - 1) < p.lin x y := by
    unfold Poisson.lin
    have : (y - 1) * p.xc < y * p.xc := Nat.mul_lt_mul_of_pos_right (by omega) (by omega)
    omega
  have l4 : p.lin x y < p.lin x (y + 1) := by
    unfold Poisson.lin
    have : y * p.xc < (y + 1) * p.xc := Nat.mul_lt_mul_of_pos_right (by omega) (by omega)
    omega
  rw [hv _ (x - 1) y (by omega) hy, hv _ (x + 1) y (by omega) hy, hv _ x (y - 1) hx (by omega), hv _ x (y + 1) hx (by omega), hv _ x y hx hy] at hi
  rw [hv _ (x - 1) y (by omega) hy, hv _ (x + 1) y (by omega) hy, hv _ x (y - 1) hx (by omega), hv _ x (y + 1) hx (by omega), hv _ x y hx hy, hv _ x y hx hy]
  simp only [Fin.mk_lt_mk, l1, l2, l3, l4, Nat.lt_asymm l2, Nat.lt_asymm l4, lt_irrefl, if_true, if_false, Pi.zero_apply] at hi
  rw [hi]
  field_simp
  ring

theorem sweep_rim {w : ℝ} {e e' : Fin (p.xc * p.yc) → ℝ} (hs : IsSorSweep (mat p) 0 w e e e') {x y : Nat} (hx : x < p.xc) (hy : y < p.yc)
    (h : OnRim p x y) : val2 p e' x y = (1 - w) * val2 p e x y := by
  have hi := hs ⟨p.lin x y, lin_lt hx hy⟩
  have hrim : rimIx p ⟨p.lin x y, lin_lt hx hy⟩ := by
    unfold rimIx
    simp only
    rw [lin_mod hx, lin_div hx]
    exact h
  have hz : (∑ j, (if j < ⟨p.lin x y, lin_lt hx hy⟩ then mat p ⟨p.lin x y, lin_lt hx hy⟩ j * e' j else
      if ⟨p.lin x y, lin_lt hx hy⟩ < j then mat p ⟨p.lin x y, lin_lt hx hy⟩ j * e j else 0)) = 0 := by
    refine Finset.sum_eq_zero fun j _ => ?_
    rw [mat_rim hrim]
    rcases lt_trichotomy j ⟨p.lin x y, lin_lt hx hy⟩ with h | h | h
    · rw [if_pos h, if_neg h.ne]; simp
    · rw [if_neg (by rw [h]; exact lt_irrefl _), if_neg (by rw [h]; exact lt_irrefl _)]
    · rw [if_neg (not_lt.2 h.le), if_pos h, if_neg h.ne']; simp
  rw [hz, mat_rim hrim, if_pos rfl] at hi
  have hl : y * p.xc + x < p.xc * p.yc := lin_lt hx hy
  unfold val2 ev
  rw [dif_pos hl, dif_pos hl]
  unfold Poisson.lin at hi
  rw [hi]
  simp

/-! ### A functional that every sweep multiplies by the same number -/

section functional
variable {X Y : Nat}

theorem shift_down {f g : ℕ → ℝ} (h0 : f 0 = 0) (hX : f X = 0) : (∑ x ∈ Finset.range X, f x * g (x - 1)) = ∑ x ∈ Finset.range X, f (x + 1) * g x := by
  have h1 := Finset.sum_range_succ (fun x => f x * g (x - 1)) X
  have h2 := Finset.sum_range_succ' (fun x => f x * g (x - 1)) X
  simp only [hX, h0, zero_mul, add_zero, Nat.add_sub_cancel] at h1 h2
  rw [← h1, h2]

/-- weights of the functional -/
noncomputable def mode (X Y : Nat) (ρ : ℝ) (x y : Nat) : ℝ := ρ⁻¹ ^ (x + y) * (sin (π * x / X) * sin (π * y / Y))

theorem mode_zero {ρ : ℝ} (hX : X ≠ 0) (hY : Y ≠ 0) (x y : Nat) (h : x = 0 ∨ x = X ∨ y = 0 ∨ y = Y) : mode X Y ρ x y = 0 := by
  have hX' : (X : ℝ) ≠ 0 := by exact_mod_cast hX
  have hY' : (Y : ℝ) ≠ 0 := by exact_mod_cast hY
  unfold mode
  rcases h with rfl | rfl | rfl | rfl
  · simp
  · rw [mul_div_assoc, div_self hX', mul_one, sin_pi]; simp
  · simp
  · rw [mul_div_assoc π (y : ℝ) (y : ℝ), div_self hY', mul_one, sin_pi]; simp

/-- the weight of the value at `(x, y)` -/
noncomputable def weight (X Y : Nat) (w r ρ : ℝ) (x y : Nat) : ℝ :=
  2 * (1 + r) * mode X Y ρ x y - w * (r * mode X Y ρ (x + 1) y + mode X Y ρ x (y + 1))

theorem sin_three {N : Nat} (x : Nat) (hx : 1 ≤ x) : sin (π * (x - 1 : Nat) / N) + sin (π * (x + 1 : Nat) / N) = 2 * cos (π / N) * sin (π * x / N) := by
  have e1 : π * (x - 1 : Nat) / N = π * x / N - π / N := by rw [Nat.cast_sub hx]; push_cast; ring
  have e2 : π * (x + 1 : Nat) / N = π * x / N + π / N := by push_cast; ring
  rw [e1, e2, sin_sub, sin_add]; ring

theorem mode_left {ρ : ℝ} (hρ : ρ ≠ 0) (x y : Nat) (hx : 1 ≤ x) : mode X Y ρ (x - 1) y = ρ⁻¹ ^ (x + y) * (ρ * sin (π * (x - 1 : Nat) / X) * sin (π * y / Y)) := by
  unfold mode
  have : ρ⁻¹ ^ (x + y) = ρ⁻¹ ^ (x - 1 + y) * ρ⁻¹ := by rw [← pow_succ]; congr 1; omega
  rw [this]; field_simp

theorem mode_below {ρ : ℝ} (hρ : ρ ≠ 0) (x y : Nat) (hy : 1 ≤ y) : mode X Y ρ x (y - 1) = ρ⁻¹ ^ (x + y) * (ρ * sin (π * x / X) * sin (π * (y - 1 : Nat) / Y)) := by
  unfold mode
  have : ρ⁻¹ ^ (x + y) = ρ⁻¹ ^ (x + (y - 1)) * ρ⁻¹ := by rw [← pow_succ]; congr 1; omega
  rw [this]; field_simp

theorem mode_right {ρ : ℝ} (x y : Nat) : mode X Y ρ (x + 1) y = ρ⁻¹ ^ (x + y) * (ρ⁻¹ * sin (π * (x + 1 : Nat) / X) * sin (π * y / Y)) := by
  unfold mode
  rw [show x + 1 + y = x + y + 1 by omega, pow_succ]; ring

theorem mode_above {ρ : ℝ} (x y : Nat) : mode X Y ρ x (y + 1) = ρ⁻¹ ^ (x + y) * (ρ⁻¹ * sin (π * x / X) * sin (π * (y + 1 : Nat) / Y)) := by
  unfold mode
  rw [show x + (y + 1) = x + y + 1 by omega, pow_succ]; ring

theorem weight_eigen {w r ρ : ℝ} (hρ : ρ ≠ 0) (hq : (ρ ^ 2 + w - 1) * (1 + r) = w * ρ * (r * cos (π / X) + cos (π / Y))) {x y : Nat} (hx : 1 ≤ x) (hy : 1 ≤ y) :
    (1 - w) * (2 * (1 + r)) * mode X Y ρ x y + w * (r * mode X Y ρ (x - 1) y + mode X Y ρ x (y - 1)) = ρ ^ 2 * weight X Y w r ρ x y := by
  have h1 := sin_three (N := X) x hx
  have h2 := sin_three (N := Y) y hy
  unfold weight
  rw [mode_left hρ x y hx, mode_below hρ x y hy, mode_right, mode_above]
  unfold mode
  have e1 : sin (π * (x + 1 : Nat) / X) = 2 * cos (π / X) * sin (π * x / X) - sin (π * (x - 1 : Nat) / X) := by rw [← h1]; ring
  have e2 : sin (π * (y + 1 : Nat) / Y) = 2 * cos (π / Y) * sin (π * y / Y) - sin (π * (y - 1 : Nat) / Y) := by rw [← h2]; ring
  rw [e1, e2]
  have e3 : ρ ^ 2 * ρ⁻¹ = ρ := by field_simp
  linear_combination (-2 * ρ⁻¹ ^ (x + y) * sin (π * x / X) * sin (π * y / Y)) * hq +
    (w * ρ⁻¹ ^ (x + y) * (r * (2 * cos (π / X) * sin (π * x / X) - sin (π * (x - 1 : Nat) / X)) * sin (π * y / Y) +
      sin (π * x / X) * (2 * cos (π / Y) * sin (π * y / Y) - sin (π * (y - 1 : Nat) / Y)))) * e3

/-- the weighted sum of grid values -/
noncomputable def total (X Y : Nat) (w r ρ : ℝ) (E : Nat → Nat → ℝ) : ℝ :=
  ∑ y ∈ Finset.range Y, ∑ x ∈ Finset.range X, weight X Y w r ρ x y * E x y

theorem total_step {w r ρ : ℝ} (hX : X ≠ 0) (hY : Y ≠ 0) (hρ : ρ ≠ 0) (hq : (ρ ^ 2 + w - 1) * (1 + r) = w * ρ * (r * cos (π / X) + cos (π / Y)))
    {E E' : Nat → Nat → ℝ} (h0 : ∀ x y, x ≤ X → y ≤ Y → x = 0 ∨ x = X ∨ y = 0 ∨ y = Y → E x y = 0)
    (hE : ∀ x y, 1 ≤ x → x < X → 1 ≤ y → y < Y → 2 * (1 + r) * E' x y - w * (r * E' (x - 1) y + E' x (y - 1)) =
      (1 - w) * (2 * (1 + r)) * E x y + w * (r * E (x + 1) y + E x (y + 1))) : total X Y w r ρ E' = ρ ^ 2 * total X Y w r ρ E := by
  -- multiply the equations by the mode and add them
  have key : ∑ y ∈ Finset.range Y, ∑ x ∈ Finset.range X, mode X Y ρ x y * (2 * (1 + r) * E' x y - w * (r * E' (x - 1) y + E' x (y - 1))) =
      ∑ y ∈ Finset.range Y, ∑ x ∈ Finset.range X, mode X Y ρ x y * ((1 - w) * (2 * (1 + r)) * E x y + w * (r * E (x + 1) y + E x (y + 1))) := by
    refine Finset.sum_congr rfl fun y hy => Finset.sum_congr rfl fun x hx => ?_
    rw [Finset.mem_range] at hx hy
    by_cases hx0 : x = 0
    · rw [mode_zero hX hY x y (.inl hx0)]; simp
    by_cases hy0 : y = 0
    · rw [mode_zero hX hY x y (.inr (.inr (.inl hy0)))]; simp
    rw [hE x y (by omega) hx (by omega) hy]
  have s1 : ∀ F : Nat → Nat → ℝ, ∑ y ∈ Finset.range Y, ∑ x ∈ Finset.range X, mode X Y ρ x y * F (x - 1) y =
      ∑ y ∈ Finset.range Y, ∑ x ∈ Finset.range X, mode X Y ρ (x + 1) y * F x y := fun F =>
    Finset.sum_congr rfl fun y _ => shift_down (f := fun x => mode X Y ρ x y) (g := fun x => F x y) (mode_zero hX hY _ _ (.inl rfl)) (mode_zero hX hY _ _ (.inr (.inl rfl)))
  have s2 : ∀ F : Nat → Nat → ℝ, ∑ y ∈ Finset.range Y, ∑ x ∈ Finset.range X, mode X Y ρ x y * F x (y - 1) =
      ∑ y ∈ Finset.range Y, ∑ x ∈ Finset.range X, mode X Y ρ x (y + 1) * F x y := fun F => by
    rw [Finset.sum_comm, Finset.sum_comm (s := Finset.range Y)]
    exact Finset.sum_congr rfl fun x _ => shift_down (f := fun y => mode X Y ρ x y) (g := fun y => F x y) (mode_zero hX hY _ _ (.inr (.inr (.inl rfl))))
      (mode_zero hX hY _ _ (.inr (.inr (.inr rfl))))
  have s3 : ∑ y ∈ Finset.range Y, ∑ x ∈ Finset.range X, mode X Y ρ x y * E (x + 1) y =
      ∑ y ∈ Finset.range Y, ∑ x ∈ Finset.range X, mode X Y ρ (x - 1) y * E x y := by
    refine Finset.sum_congr rfl fun y hy => ?_
    have hy' := (Finset.mem_range.1 hy).le
    have := shift_down (X := X) (f := fun x => E x y) (g := fun x => mode X Y ρ x y) (h0 _ _ (Nat.zero_le _) hy' (.inl rfl)) (h0 _ _ le_rfl hy' (.inr (.inl rfl)))
    simp only [mul_comm (E _ _)] at this
    exact this.symm
  have s4 : ∑ y ∈ Finset.range Y, ∑ x ∈ Finset.range X, mode X Y ρ x y * E x (y + 1) =
      ∑ y ∈ Finset.range Y, ∑ x ∈ Finset.range X, mode X Y ρ x (y - 1) * E x y := by
    rw [Finset.sum_comm, Finset.sum_comm (s := Finset.range Y)]
    refine Finset.sum_congr rfl fun x hx => ?_
    have hx' := (Finset.mem_range.1 hx).le
    have := shift_down (X := Y) (f := fun y => E x y) (g := fun y => mode X Y ρ x y) (h0 _ _ hx' (Nat.zero_le _) (.inr (.inr (.inl rfl))))
      (h0 _ _ hx' le_rfl (.inr (.inr (.inr rfl))))
    simp only [mul_comm (E _ _)] at this
    exact this.symm
  have hl : total X Y w r ρ E' = ∑ y ∈ Finset.range Y, ∑ x ∈ Finset.range X, mode X Y ρ x y * (2 * (1 + r) * E' x y - w * (r * E' (x - 1) y + E' x (y - 1))) := by
    have e : ∀ x y, mode X Y ρ x y * (2 * (1 + r) * E' x y - w * (r * E' (x - 1) y + E' x (y - 1))) = 2 * (1 + r) * (mode X Y ρ x y * E' x y) -
        (w * r * (mode X Y ρ x y * E' (x - 1) y) + w * (mode X Y ρ x y * E' x (y - 1))) := fun x y => by ring
    simp only [e, Finset.sum_sub_distrib, Finset.sum_add_distrib, ← Finset.mul_sum]
    rw [s1, s2]
    unfold total weight
    simp only [Finset.mul_sum, ← Finset.sum_sub_distrib, ← Finset.sum_add_distrib]
    refine Finset.sum_congr rfl fun y _ => Finset.sum_congr rfl fun x _ => ?_
    ring
  have hr : ρ ^ 2 * total X Y w r ρ E = ∑ y ∈ Finset.range Y, ∑ x ∈ Finset.range X, mode X Y ρ x y * ((1 - w) * (2 * (1 + r)) * E x y + w * (r * E (x + 1) y + E x (y + 1))) := by
    have e : ∀ x y, mode X Y ρ x y * ((1 - w) * (2 * (1 + r)) * E x y + w * (r * E (x + 1) y + E x (y + 1))) = (1 - w) * (2 * (1 + r)) * (mode X Y ρ x y * E x y) +
        (w * r * (mode X Y ρ x y * E (x + 1) y) + w * (mode X Y ρ x y * E x (y + 1))) := fun x y => by ring
    simp only [e, Finset.sum_add_distrib, ← Finset.mul_sum]
    rw [s3, s4]
    unfold total
    simp only [Finset.mul_sum, ← Finset.sum_add_distrib]
    refine Finset.sum_congr rfl fun y hy => Finset.sum_congr rfl fun x hx => ?_
    have hx' := (Finset.mem_range.1 hx).le
    have hy' := (Finset.mem_range.1 hy).le
    by_cases hx0 : x = 0
    · rw [h0 x y hx' hy' (.inl hx0)]; ring
    by_cases hy0 : y = 0
    · rw [h0 x y hx' hy' (.inr (.inr (.inl hy0)))]; ring
    have := weight_eigen (X := X) (Y := Y) hρ hq (x := x) (y := y) (by omega) (by omega)
    rw [← mul_assoc, ← this]; ring
  rw [hl, hr, key]
end functional

/-- iterates started at zero: every sweep multiplies the weighted sum of the errors by `ρ ^ 2` -/
theorem decay_core {X Y : Nat} (hX : 1 ≤ X) (hY : 1 ≤ Y) (hx : p.xc = X + 1) (hy : p.yc = Y + 1) (hh : p.h ≠ 0) (hk : p.k ≠ 0) {w ρ : ℝ} (hρ : ρ ≠ 0)
    (hq : (ρ ^ 2 + w - 1) * (1 + p.r2) = w * ρ * (p.r2 * cos (π / X) + cos (π / Y))) {z : Fin (p.xc * p.yc) → ℝ}
    (hzr : ∀ x y, x < p.xc → y < p.yc → OnRim p x y → val2 p z x y = 0) {y : Nat → Fin (p.xc * p.yc) → ℝ} (k0 : y 0 = 0)
    (hsw : ∀ j, IsSorSweep (mat p) 0 w (y j - z) (y j - z) (y (j + 1) - z)) (k : Nat) :
    total X Y w p.r2 ρ (fun x' y' => val2 p z x' y' - val2 p (y k) x' y') = (ρ ^ 2) ^ k * total X Y w p.r2 ρ (val2 p z) ∧
      ∀ x' y', x' < p.xc → y' < p.yc → OnRim p x' y' → val2 p (y k) x' y' = 0 := by
  have hr2p := r2_pos hh hk
  have hc : p.c ≠ 0 := by unfold Poisson.c; nlinarith
  have hsub : ∀ (u : Fin (p.xc * p.yc) → ℝ) x y, val2 p (u - z) x y = val2 p u x y - val2 p z x y := fun u x y => val2_sub u z x y
  have hv0 : ∀ x y, val2 p (0 : Fin (p.xc * p.yc) → ℝ) x y = 0 := by
    intro x y; unfold val2 ev; split_ifs <;> simp
  have hrim : ∀ j x' y', x' < p.xc → y' < p.yc → OnRim p x' y' → val2 p (y j - z) x' y' = 0 := by
    intro j
    induction j with
    | zero =>
      intro x' y' hx' hy' h
      rw [k0, hsub, hv0, hzr x' y' hx' hy' h]; simp
    | succ j ih =>
      intro x' y' hx' hy' h
      rw [sweep_rim (hsw j) hx' hy' h, ih x' y' hx' hy' h, mul_zero]
  have hstep : ∀ j, total X Y w p.r2 ρ (val2 p (y (j + 1) - z)) = ρ ^ 2 * total X Y w p.r2 ρ (val2 p (y j - z)) := by
    intro j
    refine total_step (X := X) (Y := Y) (w := w) (r := p.r2) (by omega) (by omega) hρ hq (fun x' y' hx' hy' h => ?_) (fun x' y' h1 h2 h3 h4 => ?_)
    · refine hrim j x' y' (by omega) (by omega) ?_
      unfold OnRim
      omega
    · have := sweep_inner hc (hsw j) (x := x') (y := y') (by omega) (by omega) (by unfold OnRim; omega)
      unfold Poisson.c at this
      linear_combination -this
  have hall : ∀ j, total X Y w p.r2 ρ (val2 p (y j - z)) = (ρ ^ 2) ^ j * total X Y w p.r2 ρ (val2 p (y 0 - z)) := by
    intro j
    induction j with
    | zero => simp
    | succ j ih => rw [hstep, ih, pow_succ]; ring
  have hneg : ∀ F : Nat → Nat → ℝ, total X Y w p.r2 ρ (fun x y => - F x y) = - total X Y w p.r2 ρ F := by
    intro F; unfold total; simp only [mul_neg, Finset.sum_neg_distrib]
  refine ⟨?_, fun x' y' hx' hy' h => ?_⟩
  · have e1 : (fun x' y' => val2 p z x' y' - val2 p (y k) x' y') = fun x' y' => - val2 p (y k - z) x' y' := by
      funext x' y'; rw [hsub]; ring
    have e2 : val2 p z = fun x' y' => - val2 p (y 0 - z) x' y' := by
      funext x' y'; rw [hsub, k0, hv0]; ring
    rw [e1, hneg, hall, e2, hneg]
    ring
  · have := hrim k x' y' hx' hy' h
    rw [hsub, hzr x' y' hx' hy' h] at this
    linarith

/-- C104: on a grid with zero boundary values, every sweep of the solver reduces the weighted sum of the errors by exactly the factor `ρ ^ 2`, where `ρ` is a root of
`(ρ ^ 2 + w - 1) (1 + r) = w ρ (r cos (π / X) + cos (π / Y))`; the program can not do better than its number of sweeps. -/
theorem C104_decay {M : Type} [MatOps M ℝ] [LawfulMat M ℝ] {X Y : Nat} (hX : 1 ≤ X) (hY : 1 ≤ Y) (hx : p.xc = X + 1) (hy : p.yc = Y + 1)
    (hh : p.h ≠ 0) (hk : p.k ≠ 0) (hb : ∀ x y, p.b x y = 0) {w ρ : ℝ} (hρ : ρ ≠ 0)
    (hq : (ρ ^ 2 + w - 1) * (1 + p.k ^ 2 / p.h ^ 2) = w * ρ * (p.k ^ 2 / p.h ^ 2 * cos (π / X) + cos (π / Y))) {z : Fin (p.xc * p.yc) → ℝ}
    (hz : Solves p z) (maxIter : Nat) (eps : ℝ) :
    ∃ u it, it ≤ maxIter ∧ solve (M := M) p w maxIter eps = .ok (fl u, it) ∧
      total X Y w (p.k ^ 2 / p.h ^ 2) ρ (fun x y => val2 p z x y - val2 p u x y) = (ρ ^ 2) ^ it * total X Y w (p.k ^ 2 / p.h ^ 2) ρ (val2 p z) ∧
      ∀ x y, x < p.xc → y < p.yc → OnRim p x y → val2 p u x y = 0 := by
  have h0x : 0 < p.xc := by omega
  have h0y : 0 < p.yc := by omega
  have hr2 : p.k ^ 2 / p.h ^ 2 = p.r2 := by unfold Poisson.r2; rw [sq, sq]
  rw [hr2] at hq ⊢
  have hr2p := r2_pos hh hk
  have hc : p.c ≠ 0 := by unfold Poisson.c; nlinarith
  obtain ⟨⟨a, b'⟩, e, h1, h2⟩ := system_upto (M := M) (p := p) h0x h0y
  have hd : ∀ i, mat p i i ≠ 0 := by
    intro i
    by_cases hi : rimIx p i
    · rw [mat_rim hi, if_pos rfl]; exact one_ne_zero
    · rw [mat_inner hi, if_pos rfl]; exact hc
  obtain ⟨y, k, k0, k1, k2, k3, k4, -⟩ := C38_sor (b := fun i : Fin (p.xc * p.yc) => rhs p i) (x0 := 0) h1 hd w maxIter eps
  refine ⟨y k, k, k4, ?_, ?_⟩
  · unfold solve
    have e3 : (Vec.resize [] (p.xc * p.yc) : List ℝ).map Fl.fin = fl (0 : Fin (p.xc * p.yc) → ℝ) := by
      unfold fl Vec.resize
      apply List.ext_getElem (by simp)
      intro i _ _
      simp
    rw [e, ok_bind, fl_of_isVec h2]
    show sor a _ ((Vec.resize [] (p.xc * p.yc) : List ℝ).map Fl.fin) w maxIter eps = _
    rw [e3]
    exact k3
  have hmz := (solves_iff hh hk z).2 hz
  have hsw : ∀ j, IsSorSweep (mat p) 0 w (y j - z) (y j - z) (y (j + 1) - z) := by
    intro j
    refine sweep_error hd hmz ?_
    rcases Nat.eq_zero_or_pos j with rfl | hj
    · rw [k0]; exact k1
    · exact k2 j hj
  exact decay_core hX hY hx hy hh hk hρ hq (fun x' y' hx' hy' h => by rw [(hz x' y' hx' hy').1 h, hb]) k0 hsw k

/-! ### The numbers for weight 1.2 -/

section numbers
variable {N : Nat}

/-- the larger eigenvalue of one mode of the sweep -/
theorem exists_root (hN : 200 ≤ N) : ∃ ρ : ℝ, 1 - 7.44 / N ^ 2 ≤ ρ ∧ ρ ≤ 1 ∧ (ρ ^ 2 + 6 / 5 - 1) * (1 + 1) = 6 / 5 * ρ * (1 * cos (π / N) + cos (π / N)) := by
  have hNr : (200 : ℝ) ≤ N := by exact_mod_cast hN
  have hN0 : (0 : ℝ) < N := by linarith
  have hμ := one_sub_sq_div_two_le_cos (x := π / N)
  have hμ1 := cos_le_one (π / N)
  have hu : 1 / (N : ℝ) ^ 2 ≤ 1 / 40000 := by
    apply one_div_le_one_div_of_le (by norm_num); nlinarith
  have hu0 : 0 < 1 / (N : ℝ) ^ 2 := by positivity
  have hpi : π ^ 2 ≤ 9.8697 := by nlinarith [pi_lt_d6, pi_gt_three]
  have e1 : (π / N) ^ 2 = π ^ 2 * (1 / (N : ℝ) ^ 2) := by rw [div_pow]; ring
  have e2 : 7.44 / (N : ℝ) ^ 2 = 7.44 * (1 / (N : ℝ) ^ 2) := by ring
  rw [e1] at hμ
  rw [e2]
  generalize 1 / (N : ℝ) ^ 2 = v at *
  set μ := cos (π / N) with hμd
  have hc : ContinuousOn (fun ρ : ℝ => ρ ^ 2 - 6 / 5 * ρ * μ + 1 / 5) (Set.Icc (1 - 7.44 * v) 1) := by fun_prop
  have hi := intermediate_value_Icc (by linarith : 1 - 7.44 * v ≤ 1) hc
  have hmem : (0 : ℝ) ∈ Set.Icc ((1 - 7.44 * v) ^ 2 - 6 / 5 * (1 - 7.44 * v) * μ + 1 / 5) ((1 : ℝ) ^ 2 - 6 / 5 * 1 * μ + 1 / 5) := by
    constructor
    · have h1 : π ^ 2 * v ≤ 9.8697 * v := by nlinarith
      nlinarith
    · linarith
  obtain ⟨ρ, ⟨h1, h2⟩, h3⟩ := hi hmem
  refine ⟨ρ, h1, h2, ?_⟩
  simp only at h3
  linarith

theorem sin_sq_sum (hN : 2 ≤ N) : ∑ x ∈ Finset.range N, sin (π * x / N) ^ 2 = N / 2 := by
  have hN0 : (N : ℝ) ≠ 0 := by positivity
  have hN2 : (2 : ℝ) ≤ N := by exact_mod_cast hN
  have hs : 0 < sin (π / N) := sin_pos_of_pos_of_lt_pi (by positivity) (by rw [div_lt_iff₀ (by linarith)]; nlinarith [pi_pos])
  have tel : ∀ n : Nat, ∑ x ∈ Finset.range n, sin (π * x / N) ^ 2 * (4 * sin (π / N)) = 2 * n * sin (π / N) - (sin (2 * π * n / N - π / N) - sin (-(π / N))) := by
    intro n
    induction n with
    | zero => simp
    | succ n ih =>
      rw [Finset.sum_range_succ, ih]
      have e1 : 2 * π * ((n + 1 : Nat) : ℝ) / N - π / N = 2 * (π * n / N) + π / N := by push_cast; ring
      have e2 : 2 * π * (n : ℝ) / N - π / N = 2 * (π * n / N) - π / N := by ring
      rw [e1, e2, sin_sub, sin_add, cos_two_mul, sin_sq]
      push_cast
      ring
  have := tel N
  have e : 2 * π * (N : ℝ) / N - π / N = -(π / N) + 2 * π := by field_simp; ring
  rw [e, sin_add_two_pi, sub_self, ← Finset.sum_mul] at this
  have h4 : 4 * sin (π / N) ≠ 0 := by positivity
  field_simp
  apply mul_right_cancel₀ hs.ne'
  linarith

theorem sin_grid (hN : 0 < N) {x : Nat} (hx : x ≤ N) : 0 ≤ sin (π * x / N) ∧ sin (π * x / N) ≤ 1 := by
  have hN0 : (0 : ℝ) < N := by exact_mod_cast hN
  refine ⟨sin_nonneg_of_nonneg_of_le_pi (by positivity) ?_, sin_le_one _⟩
  rw [div_le_iff₀ hN0]
  have : (x : ℝ) ≤ N := by exact_mod_cast hx
  nlinarith [pi_pos]

theorem sin_next (x : Nat) : |sin (π * (x + 1 : Nat) / N) - sin (π * x / N)| ≤ π / N := by
  have e : π * (x + 1 : Nat) / N = π * x / N + π / N := by push_cast; ring
  have h := Real.abs_sin_sub_sin_le (π * (x + 1 : Nat) / N) (π * x / N)
  rw [e] at h ⊢
  rwa [add_sub_cancel_left, abs_of_nonneg (a := π / N) (by positivity)] at h

theorem weight_near (hN : 0 < N) {ρ : ℝ} (hρ : 0 < ρ) {x y : Nat} (hx : x ≤ N) (hy : y ≤ N) :
    |weight N N (6 / 5) 1 ρ x y - ρ⁻¹ ^ (x + y) * ((4 - 12 / 5 * ρ⁻¹) * (sin (π * x / N) * sin (π * y / N)))| ≤
      ρ⁻¹ ^ (x + y) * (6 / 5 * ρ⁻¹ * (π / N) * (sin (π * x / N) + sin (π * y / N))) := by
  obtain ⟨a0, -⟩ := sin_grid hN hx
  obtain ⟨b0, -⟩ := sin_grid hN hy
  have h1 := sin_next (N := N) x
  have h2 := sin_next (N := N) y
  unfold weight
  rw [mode_right, mode_above]
  unfold mode
  have hG : 0 < ρ⁻¹ ^ (x + y) := by positivity
  have hi : 0 < ρ⁻¹ := by positivity
  generalize ρ⁻¹ ^ (x + y) = G at *
  generalize ρ⁻¹ = q at *
  generalize sin (π * (x + 1 : Nat) / N) = s1 at *
  generalize sin (π * (y + 1 : Nat) / N) = t1 at *
  generalize sin (π * x / N) = s at *
  generalize sin (π * y / N) = t at *
  have e : 2 * (1 + 1) * (G * (s * t)) - 6 / 5 * (1 * (G * (q * s1 * t)) + G * (q * s * t1)) - G * ((4 - 12 / 5 * q) * (s * t)) =
      -(G * (6 / 5 * q * ((s1 - s) * t + (t1 - t) * s))) := by ring
  rw [e, abs_neg, abs_mul, abs_of_pos hG, abs_mul, abs_of_pos (by positivity : 0 < 6 / 5 * q)]
  refine mul_le_mul_of_nonneg_left ?_ hG.le
  rw [mul_assoc (6 / 5 * q)]
  refine mul_le_mul_of_nonneg_left ?_ (by positivity)
  calc |(s1 - s) * t + (t1 - t) * s| ≤ |s1 - s| * t + |t1 - t| * s := by
        refine (abs_add_le _ _).trans ?_
        rw [abs_mul, abs_mul, abs_of_nonneg a0, abs_of_nonneg b0]
    _ ≤ π / N * t + π / N * s := by gcongr
    _ = π / N * (s + t) := by ring


/-- double sum over the grid -/
noncomputable def gsum (N : Nat) (F : Nat → Nat → ℝ) : ℝ := ∑ y ∈ Finset.range N, ∑ x ∈ Finset.range N, F x y

theorem gsum_le {F H : Nat → Nat → ℝ} (h : ∀ x y, x < N → y < N → F x y ≤ H x y) : gsum N F ≤ gsum N H :=
  Finset.sum_le_sum fun y hy => Finset.sum_le_sum fun x hx => h x y (Finset.mem_range.1 hx) (Finset.mem_range.1 hy)

theorem gsum_add (F H : Nat → Nat → ℝ) : gsum N (fun x y => F x y + H x y) = gsum N F + gsum N H := by
  unfold gsum; simp only [Finset.sum_add_distrib]

theorem gsum_mul (c : ℝ) (F : Nat → Nat → ℝ) : gsum N (fun x y => c * F x y) = c * gsum N F := by
  unfold gsum; simp only [Finset.mul_sum]

theorem gsum_prod (f g : Nat → ℝ) : gsum N (fun x y => f x * g y) = (∑ x ∈ Finset.range N, f x) * ∑ y ∈ Finset.range N, g y := by
  unfold gsum
  rw [Finset.sum_mul_sum, Finset.sum_comm]

/-- the functional can not become small enough -/
theorem no_small {s : Nat → ℝ} {φ G z u : Nat → Nat → ℝ} {a d g c β lam : ℝ} (hs : ∀ x, x < N → 0 ≤ s x ∧ s x ≤ 1) (hq : ∑ x ∈ Finset.range N, s x ^ 2 = N / 2)
    (hG : ∀ x y, x < N → y < N → 1 ≤ G x y ∧ G x y ≤ g) (ha : 0 ≤ a) (hd : 0 ≤ d)
    (hφ : ∀ x y, x < N → y < N → |φ x y - G x y * (a * (s x * s y))| ≤ G x y * (d * (s x + s y)))
    (hc : 0 ≤ c) (hz : ∀ x y, x < N → y < N → |z x y - c * (s x * s y)| ≤ β) (hu : ∀ x y, x < N → y < N → |u x y - c * (s x * s y)| ≤ c * (s x * s y) / 2 + β)
    (hl1 : 1 / 2 ≤ lam) (hl2 : lam ≤ 1) (he : gsum N (fun x y => φ x y * (z x y - u x y)) = lam * gsum N (fun x y => φ x y * z x y)) :
    c * ((lam - 1 / 2) * (a * (N ^ 2 / 4)) - (lam + 1 / 2) * (d * (g * N ^ 2))) ≤ 3 * (β * ((a + 2 * d) * (g * N ^ 2))) := by
  rcases Nat.eq_zero_or_pos N with rfl | hN
  · simp
  have hβ : 0 ≤ β := (abs_nonneg _).trans (hz 0 0 hN hN)
  set A := gsum N (fun x y => G x y * (s x ^ 2 * s y ^ 2)) with hA
  set B := gsum N (fun x y => G x y * ((s x + s y) * (s x * s y))) with hB
  have hA1 : (N : ℝ) ^ 2 / 4 ≤ A := by
    have : gsum N (fun x y => s x ^ 2 * s y ^ 2) ≤ A := gsum_le fun x y hx hy => by
      have := (hG x y hx hy).1
      nlinarith [mul_nonneg (sq_nonneg (s x)) (sq_nonneg (s y))]
    rw [gsum_prod, hq] at this
    linarith
  have hg : 1 ≤ g := (hG 0 0 hN hN).1.trans (hG 0 0 hN hN).2
  have hB1 : B ≤ g * N ^ 2 := by
    have h1 : B ≤ gsum N (fun x y => g * (s x ^ 2 * 1 + 1 * s y ^ 2)) := gsum_le fun x y hx hy => by
      obtain ⟨x0, x1⟩ := hs x hx
      obtain ⟨y0, y1⟩ := hs y hy
      have h2 : (s x + s y) * (s x * s y) ≤ s x ^ 2 * 1 + 1 * s y ^ 2 := by
        have := mul_le_mul_of_nonneg_left y1 (sq_nonneg (s x))
        have := mul_le_mul_of_nonneg_left x1 (sq_nonneg (s y))
        nlinarith
      have h3 : 0 ≤ (s x + s y) * (s x * s y) := by positivity
      exact mul_le_mul (hG x y hx hy).2 h2 h3 (by linarith)
    rw [gsum_mul, gsum_add, gsum_prod (fun x => s x ^ 2) (fun _ => 1), gsum_prod (fun _ => 1) (fun x => s x ^ 2), hq] at h1
    simp only [Finset.sum_const, Finset.card_range, nsmul_eq_mul, mul_one] at h1
    refine h1.trans (le_of_eq ?_)
    ring
  have hB0 : 0 ≤ B := by
    have : gsum N (fun _ _ => 0) ≤ B := gsum_le fun x y hx hy => by
      obtain ⟨x0, x1⟩ := hs x hx
      obtain ⟨y0, y1⟩ := hs y hy
      have := (hG x y hx hy).1
      positivity
    simpa [gsum] using this
  have hP : a * A - d * B ≤ gsum N (fun x y => φ x y * (s x * s y)) := by
    have : gsum N (fun x y => a * (G x y * (s x ^ 2 * s y ^ 2)) + (-d) * (G x y * ((s x + s y) * (s x * s y)))) ≤ gsum N (fun x y => φ x y * (s x * s y)) :=
      gsum_le fun x y hx hy => by
        have h1 := (abs_le.1 (hφ x y hx hy)).1
        have h2 := mul_le_mul_of_nonneg_right h1 (mul_nonneg (hs x hx).1 (hs y hy).1)
        nlinarith
    rw [gsum_add, gsum_mul, gsum_mul] at this
    linarith
  have hφa : ∀ x y, x < N → y < N → |φ x y| ≤ G x y * (a * (s x * s y)) + G x y * (d * (s x + s y)) := by
    intro x y hx hy
    have h1 := abs_le.1 (hφ x y hx hy)
    have := (hG x y hx hy).1
    have h0 : 0 ≤ G x y * (a * (s x * s y)) := by
      have := hs x hx; have := hs y hy
      exact mul_nonneg (by linarith) (mul_nonneg ha (mul_nonneg (by tauto) (by tauto)))
    rw [abs_le]
    constructor <;> linarith [h1.1, h1.2]
  have hQ : gsum N (fun x y => |φ x y| * (s x * s y)) ≤ a * A + d * B := by
    have : gsum N (fun x y => |φ x y| * (s x * s y)) ≤ gsum N (fun x y => a * (G x y * (s x ^ 2 * s y ^ 2)) + d * (G x y * ((s x + s y) * (s x * s y)))) :=
      gsum_le fun x y hx hy => by
        have h2 := mul_le_mul_of_nonneg_right (hφa x y hx hy) (mul_nonneg (hs x hx).1 (hs y hy).1)
        nlinarith
    rw [gsum_add, gsum_mul, gsum_mul] at this
    linarith
  have hR : gsum N (fun x y => |φ x y|) ≤ (a + 2 * d) * (g * N ^ 2) := by
    have : gsum N (fun x y => |φ x y|) ≤ gsum N (fun x y => ((a + 2 * d) * g) * (1 * 1)) :=
      gsum_le fun x y hx hy => by
        obtain ⟨x0, x1⟩ := hs x hx
        obtain ⟨y0, y1⟩ := hs y hy
        have hg2 := (hG x y hx hy).2
        have hg1 := (hG x y hx hy).1
        refine (hφa x y hx hy).trans ?_
        have h1 : a * (s x * s y) + d * (s x + s y) ≤ a + 2 * d := by
          have : s x * s y ≤ 1 := mul_le_one₀ x1 y0 y1
          nlinarith
        have h3 : 0 ≤ a + 2 * d := by linarith
        calc _ = G x y * (a * (s x * s y) + d * (s x + s y)) := by ring
          _ ≤ G x y * (a + 2 * d) := mul_le_mul_of_nonneg_left h1 (by linarith)
          _ ≤ g * (a + 2 * d) := mul_le_mul_of_nonneg_right hg2 h3
          _ = _ := by ring
    rw [gsum_mul, gsum_prod] at this
    simp only [Finset.sum_const, Finset.card_range, nsmul_eq_mul, mul_one] at this
    refine this.trans (le_of_eq ?_)
    ring
  have hL : gsum N (fun x y => φ x y * (z x y - u x y)) ≤ 2 * β * gsum N (fun x y => |φ x y|) + c / 2 * gsum N (fun x y => |φ x y| * (s x * s y)) := by
    rw [← gsum_mul, ← gsum_mul, ← gsum_add]
    refine gsum_le fun x y hx hy => ?_
    have h1 : |z x y - u x y| ≤ 2 * β + c * (s x * s y) / 2 := by
      have := hz x y hx hy
      have h' := hu x y hx hy
      rw [abs_le] at *
      constructor <;> linarith [this.1, this.2, h'.1, h'.2]
    calc φ x y * (z x y - u x y) ≤ |φ x y * (z x y - u x y)| := le_abs_self _
      _ = |φ x y| * |z x y - u x y| := abs_mul _ _
      _ ≤ |φ x y| * (2 * β + c * (s x * s y) / 2) := mul_le_mul_of_nonneg_left h1 (abs_nonneg _)
      _ = _ := by ring
  have hZ : c * gsum N (fun x y => φ x y * (s x * s y)) - β * gsum N (fun x y => |φ x y|) ≤ gsum N (fun x y => φ x y * z x y) := by
    rw [sub_eq_add_neg, ← neg_mul, ← gsum_mul, ← gsum_mul, ← gsum_add]
    refine gsum_le fun x y hx hy => ?_
    have h1 : -(|φ x y| * β) ≤ φ x y * (z x y - c * (s x * s y)) := by
      have : |φ x y * (z x y - c * (s x * s y))| ≤ |φ x y| * β := by
        rw [abs_mul]; exact mul_le_mul_of_nonneg_left (hz x y hx hy) (abs_nonneg _)
      exact (abs_le.1 this).1
    nlinarith
  rw [he] at hL
  set R := gsum N (fun x y => |φ x y|) with hRd
  have hR0 : 0 ≤ R := by
    have : gsum N (fun _ _ => 0) ≤ R := gsum_le fun x y _ _ => abs_nonneg _
    simpa [gsum] using this
  have s1 := mul_le_mul_of_nonneg_left hZ (by linarith : 0 ≤ lam)
  have s2 := mul_le_mul_of_nonneg_left hP (mul_nonneg (by linarith : 0 ≤ lam) hc)
  have s3 := mul_le_mul_of_nonneg_left hQ (by linarith : 0 ≤ c / 2)
  have s4 := mul_le_mul_of_nonneg_left hR (mul_nonneg (by linarith : 0 ≤ 2 + lam) hβ)
  have s5 : (2 + lam) * β * ((a + 2 * d) * (g * N ^ 2)) ≤ 3 * (β * ((a + 2 * d) * (g * N ^ 2))) := by
    have : 0 ≤ β * ((a + 2 * d) * (g * N ^ 2)) := by positivity
    nlinarith
  have s6 := mul_le_mul_of_nonneg_left hA1 (mul_nonneg (mul_nonneg hc (by linarith : 0 ≤ lam - 1 / 2)) ha)
  have s7 := mul_le_mul_of_nonneg_left hB1 (mul_nonneg (mul_nonneg hc (by linarith : 0 ≤ lam + 1 / 2)) hd)
  linarith

end numbers

/-- the discrete problem of `fdm.cpp` on the unit square with `N + 1` points in both directions; `q` is the constant `pi` of the program (line 26: 3.141592),
`f` and `b` are the functions of lines 36 and 38 -/
noncomputable def shipped (N : Nat) (q : ℝ) : Poisson ℝ :=
  ⟨N + 1, N + 1, 1 / N, 1 / N, fun x y => -sin (q * x) * sin (q * y), fun _ _ => 0⟩

/-- the solution of the Poisson problem with that right-hand side on the unit square and zero boundary values -/
noncomputable def exact (x y : ℝ) : ℝ := sin (π * x) * sin (π * y) / (2 * π ^ 2)

theorem lap_exact {h : ℝ} (hh : 0 < h) (x y : ℝ) : lap h h exact x y = -((2 - 2 * cos (π * h)) / (π * h) ^ 2 * (sin (π * x) * sin (π * y))) := by
  unfold lap exact
  have e1 : π * (x - h) = π * x - π * h := by ring
  have e2 : π * (x + h) = π * x + π * h := by ring
  have e3 : π * (y - h) = π * y - π * h := by ring
  have e4 : π * (y + h) = π * y + π * h := by ring
  rw [e1, e2, e3, e4, sin_sub, sin_add, sin_sub, sin_add]
  have := pi_pos
  field_simp
  ring

theorem sin_sin_near {q x y : ℝ} (hx : x ∈ Set.Icc (0 : ℝ) 1) (hy : y ∈ Set.Icc (0 : ℝ) 1) :
    |sin (q * x) * sin (q * y) - sin (π * x) * sin (π * y)| ≤ 2 * |q - π| := by
  have h1 : |sin (q * x) - sin (π * x)| ≤ |q - π| := by
    refine (Real.abs_sin_sub_sin_le _ _).trans ?_
    rw [← sub_mul, abs_mul, abs_of_nonneg hx.1]
    nlinarith [abs_nonneg (q - π), hx.2]
  have h2 : |sin (q * y) - sin (π * y)| ≤ |q - π| := by
    refine (Real.abs_sin_sub_sin_le _ _).trans ?_
    rw [← sub_mul, abs_mul, abs_of_nonneg hy.1]
    nlinarith [abs_nonneg (q - π), hy.2]
  have e : sin (q * x) * sin (q * y) - sin (π * x) * sin (π * y) = (sin (q * x) - sin (π * x)) * sin (q * y) + sin (π * x) * (sin (q * y) - sin (π * y)) := by ring
  rw [e]
  refine (abs_add_le _ _).trans ?_
  rw [abs_mul, abs_mul]
  have b1 := abs_sin_le_one (q * y)
  have b2 := abs_sin_le_one (π * x)
  nlinarith [abs_nonneg (sin (q * x) - sin (π * x)), abs_nonneg (sin (q * y) - sin (π * y)), abs_nonneg (sin (q * y)), abs_nonneg (sin (π * x))]

/-- a problem on the unit square with `N + 1` points in both directions and zero boundary values -/
noncomputable def square (N : Nat) (f : ℝ → ℝ → ℝ) : Poisson ℝ := ⟨N + 1, N + 1, 1 / N, 1 / N, f, fun _ _ => 0⟩

theorem near_exact {N : Nat} (hN : 200 ≤ N) {q η : ℝ} (hq : |q - π| ≤ 1 / 100000) (hη : 0 ≤ η) {f : ℝ → ℝ → ℝ}
    (hf : ∀ a b : Nat, 0 < a → a < N → 0 < b → b < N → |f (a * (1 / N)) (b * (1 / N)) - -sin (q * (a * (1 / N))) * sin (q * (b * (1 / N)))| ≤ η) {z : Fin ((square N f).xc * (square N f).yc) → ℝ} (hz : Solves (square N f) z)
    {x y : Nat} (hx : x ≤ N) (hy : y ≤ N) : |val2 (square N f) z x y - exact (x / N) (y / N)| ≤ 1 / 100000 + η / 8 := by
  have hNr : (200 : ℝ) ≤ N := by exact_mod_cast hN
  have hN0 : (0 : ℝ) < N := by linarith
  have hh : 0 < (square N f).h := by show 0 < 1 / (N : ℝ); positivity
  have hk : 0 < (square N f).k := hh
  have hlx : lx (square N f) = 1 := by
    show ((N + 1 - 1 : Nat) : ℝ) * (1 / N) = 1
    rw [Nat.add_sub_cancel]; field_simp
  have hly : ly (square N f) = 1 := hlx
  have key := error_le (p := square N f) hh hk hz (w := exact) (g := fun s _ => (s ^ 2 - s) / 2) (τ := 8 / 100000 + η) (by linarith)
    (fun a b ha hb hr => by
      have ma : (a * (square N f).h : ℝ) ∈ Set.Icc (0 : ℝ) 1 := by have := mem_x hh ha; rwa [hlx] at this
      have mb : (b * (square N f).k : ℝ) ∈ Set.Icc (0 : ℝ) 1 := by have := mem_y hk hb; rwa [hly] at this
      have h0 : |f (a * (square N f).h) (b * (square N f).k) - -sin (q * (a * (square N f).h)) * sin (q * (b * (square N f).k))| ≤ η := by
        have hxc : (square N f).xc = N + 1 := rfl
        have hyc : (square N f).yc = N + 1 := rfl
        unfold OnRim at hr
        exact hf a b (by omega) (by omega) (by omega) (by omega)
      show |lap (square N f).h (square N f).h _ _ _ - f _ _| ≤ _
      rw [lap_exact hh]
      have h1 := sin_sin_near (q := q) ma mb
      have hτ0 : 0 < π * (square N f).h := mul_pos pi_pos hh
      have hτ : π * (square N f).h ≤ 1 / 60 := by
        show π * (1 / N) ≤ _
        rw [mul_one_div, div_le_iff₀ hN0]
        nlinarith [pi_lt_d2]
      have h2 := Real.cos_bound (x := π * (square N f).h) (by rw [abs_of_pos hτ0]; linarith)
      rw [abs_of_pos hτ0] at h2
      generalize π * (square N f).h = t at *
      have h3 : |(2 - 2 * cos t) / t ^ 2 - 1| ≤ 3 / 100000 := by
        have e : (2 - 2 * cos t) / t ^ 2 - 1 = -2 * (cos t - (1 - t ^ 2 / 2)) / t ^ 2 := by field_simp; ring
        rw [e, abs_div, abs_mul, abs_of_pos (by positivity : 0 < t ^ 2), div_le_iff₀ (by positivity), abs_of_neg (by norm_num : (-2 : ℝ) < 0)]
        have h4 : t ^ 2 ≤ 1 / 3600 := by nlinarith
        have : t ^ 4 = t ^ 2 * t ^ 2 := by ring
        nlinarith [sq_nonneg t]
      have h5 : |sin (π * (a * (square N f).h)) * sin (π * (b * (square N f).k))| ≤ 1 := by
        rw [abs_mul]; exact mul_le_one₀ (abs_sin_le_one _) (abs_nonneg _) (abs_sin_le_one _)
      generalize (2 - 2 * cos t) / t ^ 2 = v at *
      generalize f (a * (square N f).h) (b * (square N f).k) = f0 at *
      generalize sin (π * (a * (square N f).h)) * sin (π * (b * (square N f).k)) = S at *
      have e : -(v * S) - f0 = -((v - 1) * S) + ((sin (q * (a * (square N f).h)) * sin (q * (b * (square N f).k)) - S) +
          -(f0 - -sin (q * (a * (square N f).h)) * sin (q * (b * (square N f).k)))) := by ring
      rw [e]
      refine (abs_add_le _ _).trans ((add_le_add le_rfl (abs_add_le _ _)).trans ?_)
      rw [abs_neg, abs_neg, abs_mul]
      have : |v - 1| * |S| ≤ 3 / 100000 * 1 := mul_le_mul h3 h5 (abs_nonneg _) (by norm_num)
      linarith)
    (fun a b ha hb hr => by
      show exact _ _ = 0
      have hxc : (square N f).xc = N + 1 := rfl
      have hyc : (square N f).yc = N + 1 := rfl
      have hend : π * ((N : ℝ) * (1 / N)) = π := by field_simp
      unfold exact
      rcases hr with h | h | h | h
      · rw [h]; simp
      · rw [h]; simp
      · rw [hxc, Nat.add_sub_cancel] at h
        rw [h]
        show sin (π * ((N : ℝ) * (1 / N))) * _ / _ = 0
        rw [hend, sin_pi]; simp
      · rw [hyc, Nat.add_sub_cancel] at h
        rw [h]
        show _ * sin (π * ((N : ℝ) * (1 / N))) / _ = 0
        rw [hend, sin_pi]; simp)
    (fun a b => by unfold lap; field_simp; ring)
    (fun a ha b _ => by rw [hlx] at ha; nlinarith [ha.1, ha.2])
    (x := x) (y := y) (Nat.lt_succ_of_le hx) (Nat.lt_succ_of_le hy)
  have e : ∀ n : Nat, (n : ℝ) * (1 / N) = n / N := fun n => mul_one_div _ _
  have e' : (square N f).h = 1 / N := rfl
  have e'' : (square N f).k = 1 / N := rfl
  rw [e', e'', e, e] at key
  refine key.trans ?_
  have : (0 : ℝ) ≤ ((x : ℝ) / N - 1 / 2) ^ 2 := sq_nonneg _
  nlinarith

theorem shipped_near {N : Nat} (hN : 200 ≤ N) {q : ℝ} (hq : |q - π| ≤ 1 / 100000) {z : Fin ((shipped N q).xc * (shipped N q).yc) → ℝ} (hz : Solves (shipped N q) z)
    {x y : Nat} (hx : x ≤ N) (hy : y ≤ N) : |val2 (shipped N q) z x y - exact (x / N) (y / N)| ≤ 1 / 100000 := by
  have := near_exact hN hq le_rfl (f := fun x y => -sin (q * x) * sin (q * y)) (fun a b _ _ _ _ => by simp) (z := z) hz hx hy
  rwa [zero_div, add_zero] at this

/-- the numbers: values whose error is the start error reduced by few sweeps can not be within half of the solution everywhere, not even up to `β` -/
theorem slow_core' {N it : Nat} (hN : 200 ≤ N) {l β : ℝ} (hl : 1 / 2 ≤ l) (hβ0 : 0 ≤ β) (hm : 14.88 * (it : ℝ) ≤ (1 - l) * (N : ℝ) ^ 2)
    (hβ : 3 * (β * 1.8) < 0.05 * ((l - 1 / 2) * (1.599 / 4) - 3 / 2 * (0.019 * 1.081))) {ρ : ℝ} (r1 : 1 - 7.44 / N ^ 2 ≤ ρ) (r2 : ρ ≤ 1) {z u : Nat → Nat → ℝ}
    (hz : ∀ x y, x < N → y < N → |z x y - exact (x / N) (y / N)| ≤ β)
    (hcon : ∀ x y, x < N → y < N → |u x y - exact (x / N) (y / N)| ≤ exact (x / N) (y / N) / 2 + β)
    (h3 : total N N (6 / 5) 1 ρ (fun x y => z x y - u x y) = (ρ ^ 2) ^ it * total N N (6 / 5) 1 ρ z) : False := by
  have hNr : (200 : ℝ) ≤ N := by exact_mod_cast hN
  have hN0 : (0 : ℝ) < N := by linarith
  have hv1 : 7.44 / (N : ℝ) ^ 2 ≤ 7.44 / 40000 := by gcongr; nlinarith
  have hρ : 0 < ρ := by
    have : (7.44 : ℝ) / 40000 < 1 := by norm_num
    linarith
  set s : Nat → ℝ := fun x => sin (π * x / N) with hsd
  have hex : ∀ x y : Nat, exact (x / N) (y / N) = 1 / (2 * π ^ 2) * (s x * s y) := by
    intro x y
    unfold exact
    rw [hsd]
    simp only
    rw [mul_div_assoc, mul_div_assoc]
    ring
  have hρi : ρ⁻¹ ≤ 1.0002 := by
    rw [inv_le_comm₀ hρ (by norm_num)]
    have h5 : (1.0002 : ℝ)⁻¹ ≤ 1 - 7.44 / 40000 := by norm_num
    linarith
  have hρi1 : 1 ≤ ρ⁻¹ := (one_le_inv₀ hρ).2 r2
  -- the powers of the root
  have hN2 : (0 : ℝ) < (N : ℝ) ^ 2 := by positivity
  have bern : ∀ n : Nat, 1 - n * (7.44 / (N : ℝ) ^ 2) ≤ ρ ^ n := by
    intro n
    have h5 := one_add_mul_le_pow (a := -(7.44 / (N : ℝ) ^ 2)) (by linarith) n
    have h6 : (1 + -(7.44 / (N : ℝ) ^ 2)) ^ n ≤ ρ ^ n := pow_le_pow_left₀ (by norm_num at *; linarith) (by linarith) n
    linarith
  have hlam : l ≤ (ρ ^ 2) ^ it := by
    rw [← pow_mul]
    refine le_trans ?_ (bern _)
    have : ((2 * it : Nat) : ℝ) * (7.44 / (N : ℝ) ^ 2) = 14.88 * it / (N : ℝ) ^ 2 := by push_cast; ring
    rw [this]
    have : 14.88 * (it : ℝ) / (N : ℝ) ^ 2 ≤ 1 - l := by
      rw [div_le_iff₀ hN2]; exact hm
    linarith
  have hlam1 : (ρ ^ 2) ^ it ≤ 1 := by rw [← pow_mul]; exact pow_le_one₀ hρ.le r2
  have hG : ∀ x y, x < N → y < N → 1 ≤ ρ⁻¹ ^ (x + y) ∧ ρ⁻¹ ^ (x + y) ≤ 1.081 := by
    intro x y hx hy
    refine ⟨one_le_pow₀ hρi1, ?_⟩
    rw [inv_pow, inv_le_comm₀ (by positivity) (by norm_num)]
    refine le_trans ?_ (bern _)
    have h7 : ((x + y : Nat) : ℝ) ≤ 2 * N := by exact_mod_cast (by omega : x + y ≤ 2 * N)
    have h8 : ((x + y : Nat) : ℝ) * (7.44 / (N : ℝ) ^ 2) ≤ 2 * N * (7.44 / (N : ℝ) ^ 2) := mul_le_mul_of_nonneg_right h7 (by positivity)
    have h9 : 2 * N * (7.44 / (N : ℝ) ^ 2) = 14.88 / N := by field_simp; norm_num
    have h10 : 14.88 / (N : ℝ) ≤ 14.88 / 200 := by gcongr
    rw [h9] at h8
    norm_num at *
    linarith
  have hsN : ∀ x, x < N → 0 ≤ s x ∧ s x ≤ 1 := fun x hx => sin_grid (by omega) hx.le
  have hc0 : (0 : ℝ) ≤ 1 / (2 * π ^ 2) := by positivity
  have fin := no_small (N := N) (s := s) (φ := weight N N (6 / 5) 1 ρ) (G := fun x y => ρ⁻¹ ^ (x + y)) (z := z) (u := u)
    (a := 4 - 12 / 5 * ρ⁻¹) (d := 6 / 5 * ρ⁻¹ * (π / N)) (g := 1.081) (c := 1 / (2 * π ^ 2)) (β := β) (lam := (ρ ^ 2) ^ it)
    hsN (sin_sq_sum (by omega)) hG (by linarith) (by positivity) (fun x y hx hy => weight_near (by omega) hρ hx.le hy.le) hc0
    (fun x y hx hy => by rw [← hex]; exact hz x y hx hy) (fun x y hx hy => by rw [← hex]; exact hcon x y hx hy)
    (by linarith) hlam1 h3
  have hp1 := pi_gt_d2
  have hp2 := pi_lt_d2
  set lam := (ρ ^ 2) ^ it
  set i := ρ⁻¹
  have hd : 6 / 5 * i * (π / N) ≤ 0.019 := by
    have h5 : π / N ≤ 3.15 / 200 := by gcongr
    have h6 : 0 ≤ π / N := by positivity
    nlinarith
  have hcl : 0.05 ≤ 1 / (2 * π ^ 2) := by
    rw [le_div_iff₀ (by positivity)]; nlinarith
  set d := 6 / 5 * i * (π / N)
  have hd0 : 0 ≤ d := by positivity
  set c := 1 / (2 * π ^ 2)
  have ha1 : 1.599 ≤ 4 - 12 / 5 * i := by norm_num at *; linarith
  have ha2 : 4 - 12 / 5 * i ≤ 1.6 := by norm_num at *; linarith
  set a := 4 - 12 / 5 * i
  have hl0 : 0 ≤ l - 1 / 2 := by linarith
  have hla : 0 ≤ lam - 1 / 2 := by linarith
  have f1 : (l - 1 / 2) * (1.599 / 4) - 3 / 2 * (0.019 * 1.081) ≤ (lam - 1 / 2) * (a / 4) - (lam + 1 / 2) * (d * 1.081) := by
    have g1 : (l - 1 / 2) * (1.599 / 4) ≤ (lam - 1 / 2) * (a / 4) := by gcongr
    have g2 : (lam + 1 / 2) * (d * 1.081) ≤ 3 / 2 * (0.019 * 1.081) := by gcongr; linarith
    linarith
  have f2 : (a + 2 * d) * 1.081 ≤ 1.8 := by norm_num at *; linarith
  have f3 : c * ((lam - 1 / 2) * (a / 4) - (lam + 1 / 2) * (d * 1.081)) ≤ 3 * (β * 1.8) := by
    refine le_of_mul_le_mul_right ?_ hN2
    have : 3 * (β * ((a + 2 * d) * (1.081 * (N : ℝ) ^ 2))) ≤ 3 * (β * 1.8) * (N : ℝ) ^ 2 := by
      have := mul_le_mul_of_nonneg_left (mul_le_mul_of_nonneg_right f2 hN2.le) hβ0
      refine le_trans (le_of_eq ?_) (le_trans (mul_le_mul_of_nonneg_left this (by norm_num : (0 : ℝ) ≤ 3)) (le_of_eq ?_)) <;> ring
    refine le_trans (le_of_eq ?_) (fin.trans this)
    ring
  have hpos : 0 ≤ (l - 1 / 2) * (1.599 / 4) - 3 / 2 * (0.019 * 1.081) := by
    by_contra hc
    push Not at hc
    have := mul_neg_of_pos_of_neg (show (0 : ℝ) < 0.05 by norm_num) hc
    have h9 : 0 ≤ 3 * (β * 1.8) := by positivity
    linarith
  have f4 : 0.05 * ((l - 1 / 2) * (1.599 / 4) - 3 / 2 * (0.019 * 1.081)) ≤ c * ((lam - 1 / 2) * (a / 4) - (lam + 1 / 2) * (d * 1.081)) :=
    mul_le_mul hcl f1 hpos hc0
  exact absurd (lt_of_lt_of_le hβ f4) (not_lt.2 f3)

/-- the numbers: values whose error is the start error reduced by at most `N ^ 2 / 39` sweeps can not be within half of the solution everywhere, not even up to 0.0001 -/
theorem slow_core {N it : Nat} (hN : 200 ≤ N) (hm : 39 * it ≤ N ^ 2) {ρ : ℝ} (r1 : 1 - 7.44 / N ^ 2 ≤ ρ) (r2 : ρ ≤ 1) {z u : Nat → Nat → ℝ}
    (hz : ∀ x y, x < N → y < N → |z x y - exact (x / N) (y / N)| ≤ 1 / 10000)
    (hcon : ∀ x y, x < N → y < N → |u x y - exact (x / N) (y / N)| ≤ exact (x / N) (y / N) / 2 + 1 / 10000)
    (h3 : total N N (6 / 5) 1 ρ (fun x y => z x y - u x y) = (ρ ^ 2) ^ it * total N N (6 / 5) 1 ρ z) : False := by
  refine slow_core' hN (l := 0.618) (β := 1 / 10000) (by norm_num) (by norm_num) ?_ (by norm_num) r1 r2 hz hcon h3
  have h7 : 39 * (it : ℝ) ≤ (N : ℝ) ^ 2 := by exact_mod_cast hm
  norm_num at h7 ⊢
  linarith

/-- C104: with relaxation weight 1.2 the finite difference program needs more than `N ^ 2 / 39` sweeps: whatever the tolerance, with at most that many sweeps the program
ends normally and at some inner grid point the value it writes is off by more than half of the true solution of the Poisson problem. -/
theorem C104_slow {M : Type} [MatOps M ℝ] [LawfulMat M ℝ] {N maxIter : Nat} (hN : 200 ≤ N) (hm : 39 * maxIter ≤ N ^ 2) {q : ℝ} (hq : |q - π| ≤ 1 / 100000) (eps : ℝ) :
    ∃ u it, solve (M := M) (shipped N q) (6 / 5) maxIter eps = .ok (fl u, it) ∧
      ∃ x y, 0 < x ∧ x < N ∧ 0 < y ∧ y < N ∧ exact (x / N) (y / N) / 2 < |val2 (shipped N q) u x y - exact (x / N) (y / N)| := by
  have hNr : (200 : ℝ) ≤ N := by exact_mod_cast hN
  have hN0 : (0 : ℝ) < N := by linarith
  have hh : (shipped N q).h ≠ 0 := by show 1 / (N : ℝ) ≠ 0; positivity
  have hk : (shipped N q).k ≠ 0 := hh
  have hr1 : (shipped N q).k ^ 2 / (shipped N q).h ^ 2 = 1 := div_self (pow_ne_zero 2 hh)
  obtain ⟨ρ, r1, r2, r3⟩ := exists_root hN
  obtain ⟨_, _, _, _, _, _, _, _, z, hz, -⟩ := C71_fdm_poisson (M := M) (p := shipped N q) (Nat.succ_pos _) (Nat.succ_pos _) hh hk
  have hv1 : 7.44 / (N : ℝ) ^ 2 ≤ 7.44 / 40000 := by gcongr; nlinarith
  have hρ : 0 < ρ := by
    have : (7.44 : ℝ) / 40000 < 1 := by norm_num
    linarith
  obtain ⟨u, it, h1, h2, h3, h4⟩ := C104_decay (M := M) (p := shipped N q) (X := N) (Y := N) (by omega) (by omega) rfl rfl hh hk (fun _ _ => rfl) hρ.ne'
    (by rw [hr1]; exact r3) hz maxIter eps
  rw [hr1] at h3
  refine ⟨u, it, h2, ?_⟩
  by_contra hcon
  push Not at hcon
  refine slow_core hN ((Nat.mul_le_mul_left 39 h1).trans hm) r1 r2 (fun x y hx hy => (shipped_near hN hq hz hx.le hy.le).trans (by norm_num)) (fun x y hx hy => ?_) h3
  by_cases h0 : 0 < x ∧ 0 < y
  · exact (hcon x y h0.1 hx h0.2 hy).trans (by norm_num)
  · have hv := h4 x y (Nat.lt_succ_of_lt hx) (Nat.lt_succ_of_lt hy) (by unfold OnRim; omega)
    have he : exact (x / N) (y / N) = 0 := by
      unfold exact
      rcases (by omega : x = 0 ∨ y = 0) with h | h <;> rw [h] <;> simp
    rw [hv, he]; norm_num

/-- C104: the numbers of the program: 201 x 201 points, `pi` = 3.141592, 1024 sweeps, tolerance 1e-4.  At some inner grid point the value the program writes is off by more than
half of the true solution. -/
theorem C104_program {M : Type} [MatOps M ℝ] [LawfulMat M ℝ] : ∃ u it, solve (M := M) (shipped 200 3.141592) (6 / 5) 1024 (1 / 10000) = .ok (fl u, it) ∧
    ∃ x y : Nat, 0 < x ∧ x < 200 ∧ 0 < y ∧ y < 200 ∧ exact (x / 200) (y / 200) / 2 < |val2 (shipped 200 3.141592) u x y - exact (x / 200) (y / 200)| := by
  have hq : |(3.141592 : ℝ) - π| ≤ 1 / 100000 := by
    rw [abs_le]; constructor <;> linarith [pi_gt_d6, pi_lt_d6]
  have := C104_slow (M := M) (N := 200) (maxIter := 1024) le_rfl (by norm_num) hq (1 / 10000)
  simpa only [Nat.cast_ofNat] using this

/-- the matrix type of the program -/
example := C104_program (M := Sparse ℝ)

/-- `C104_decay` with the boundary values and the mesh of the program -/
example (ρ : ℝ) (hρ : ρ ≠ 0) (h : (ρ ^ 2 + 6 / 5 - 1) * (1 + 1) = 6 / 5 * ρ * (1 * cos (π / (200 : Nat)) + cos (π / (200 : Nat)))) {z} (hz : Solves (shipped 200 3.141592) z) :=
  C104_decay (M := Sparse ℝ) (p := shipped 200 3.141592) (X := 200) (Y := 200) (by omega) (by omega) rfl rfl (by unfold shipped; norm_num) (by unfold shipped; norm_num)
    (fun _ _ => rfl) (w := 6 / 5) hρ (by simpa [shipped] using h) hz 1024 (1 / 10000)
end NS.Props.Fdm

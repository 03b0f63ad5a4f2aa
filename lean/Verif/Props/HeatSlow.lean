/-
Property C115: how far the heat of `/repo/examples/heat/main.cpp` travels through the time levels in a given number of SOR sweeps.
-/
import Verif.Props.Heat
import Verif.Props.FdmSlow
import Verif.HeatEnergy

set_option linter.unusedSectionVars false
set_option linter.unusedSimpArgs false

namespace NS.Props.Heat
open NS NS.Heat NS.Grid NS.MatOps NS.LawfulMat NS.Props.Iter NS.Iterative Matrix Real NS.HeatEnergy
open NS.Props.LU (IsMat IsVec isVec_iff)
open NS.Props.Fdm (sweep_hybrid)
variable {p : Problem ℝ}

/-! ### One sweep -/

theorem val3_lin (u : Fin p.d → ℝ) {t x y : Nat} (ht : t < p.tc) (hx : x < p.xc) (hy : y < p.yc) : val3 p u t x y = u ⟨p.lin t x y, lin_lt ht hx hy⟩ := by
  unfold val3 ev
  rw [dif_pos (by rw [← lin_eq]; exact lin_lt ht hx hy)]
  congr 1
  exact Fin.ext (lin_eq t x y).symm

/-- the diagonal entry of an inner point -/
noncomputable def diag3 (p : Problem ℝ) (κ : ℝ) : ℝ := 2 * (1 / (p.hx * p.hx) + 1 / (p.hy * p.hy)) * κ + 1 / p.ht

/-- the equation of an inner grid point in a sweep -/
theorem sweep_inner {b : Fin p.d → ℝ} {w κ : ℝ} {e e' : Fin p.d → ℝ} (hw : w ≠ 0) (hr : diag3 p κ ≠ 0) (hs : IsSorSweep (mat p) b w e e e') {t x y : Nat}
    (ht : t < p.tc) (hx : x < p.xc) (hy : y < p.yc) (h : ¬ OnRim p t x y) (hk : p.k (t * p.ht) (x * p.hx) (y * p.hy) = κ) :
    diag3 p κ / w * val3 p e' t x y + diag3 p κ * (1 - 1 / w) * val3 p e t x y -
      (κ / p.hx ^ 2 * val3 p e' t (x - 1) y + κ / p.hy ^ 2 * val3 p e' t x (y - 1)) -
      (κ / p.hx ^ 2 * val3 p e t (x + 1) y + κ / p.hy ^ 2 * val3 p e t x (y + 1)) =
      1 / p.ht * val3 p e' (t - 1) x y + b ⟨p.lin t x y, lin_lt ht hx hy⟩ := by
  have hi := hs ⟨p.lin t x y, lin_lt ht hx hy⟩
  rw [sweep_hybrid] at hi
  have hm := mulVec_row (p := p) (fun j => if j < ⟨p.lin t x y, lin_lt ht hx hy⟩ then e' j else if ⟨p.lin t x y, lin_lt ht hx hy⟩ < j then e j else 0) ht hx hy
  rw [if_neg h] at hm
  rw [hm] at hi
  have hrim : ¬ rimIx p ⟨p.lin t x y, lin_lt ht hx hy⟩ := by
    unfold rimIx
    simp only
    rw [lin_t hx hy, lin_x hx, lin_y hx hy]
    exact h
  have hkx : kIx p ⟨p.lin t x y, lin_lt ht hx hy⟩ = κ := by
    unfold kIx kf
    simp only
    rw [lin_t hx hy, lin_x hx, lin_y hx hy]
    exact hk
  have hkf : kf p t x y = κ := hk
  rw [mat_inner hrim, if_pos rfl, hkx, hkf] at hi
  change _ = _ + w * (_ / diag3 p κ) at hi
  obtain ⟨i1, i2, i3, i4, i5, l1, l2, l3, l4, l5, l6, l7⟩ := inner_facts ht hx hy h
  have m1 : p.lin (t - 1) x y < p.lin t x y := by omega
  have m2 : p.lin t x (y - 1) < p.lin t x y := by omega
  have m3 : p.lin t (x - 1) y < p.lin t x y := by omega
  have m4 : p.lin t x y < p.lin t (x + 1) y := by omega
  have m5 : p.lin t x y < p.lin t x (y + 1) := by omega
  rw [val3_lin _ (show t - 1 < p.tc by omega) hx hy, val3_lin _ ht (show x - 1 < p.xc by omega) hy, val3_lin _ ht i3 hy,
    val3_lin _ ht hx (show y - 1 < p.yc by omega), val3_lin _ ht hx i5, val3_lin _ ht hx hy] at hi
  rw [val3_lin _ (show t - 1 < p.tc by omega) hx hy, val3_lin _ ht (show x - 1 < p.xc by omega) hy, val3_lin _ ht i3 hy,
    val3_lin _ ht hx (show y - 1 < p.yc by omega), val3_lin _ ht hx i5, val3_lin _ ht hx hy, val3_lin _ ht hx hy]
  simp only [Fin.mk_lt_mk, m1, m2, m3, m4, m5, Nat.lt_asymm m4, Nat.lt_asymm m5, lt_irrefl, if_true, if_false] at hi
  rw [hi]
  generalize diag3 p κ = d at *
  field_simp
  ring

theorem sweep_rim {b : Fin p.d → ℝ} {w : ℝ} {e e' : Fin p.d → ℝ} (hs : IsSorSweep (mat p) b w e e e') {t x y : Nat}
    (ht : t < p.tc) (hx : x < p.xc) (hy : y < p.yc) (h : OnRim p t x y) :
    val3 p e' t x y = (1 - w) * val3 p e t x y + w * b ⟨p.lin t x y, lin_lt ht hx hy⟩ := by
  have hi := hs ⟨p.lin t x y, lin_lt ht hx hy⟩
  have hrim : rimIx p ⟨p.lin t x y, lin_lt ht hx hy⟩ := by
    unfold rimIx
    simp only
    rw [lin_t hx hy, lin_x hx, lin_y hx hy]
    exact h
  have hz : (∑ j, (if j < ⟨p.lin t x y, lin_lt ht hx hy⟩ then mat p ⟨p.lin t x y, lin_lt ht hx hy⟩ j * e' j else
      if ⟨p.lin t x y, lin_lt ht hx hy⟩ < j then mat p ⟨p.lin t x y, lin_lt ht hx hy⟩ j * e j else 0)) = 0 := by
    refine Finset.sum_eq_zero fun j _ => ?_
    rw [mat_rim hrim]
    rcases lt_trichotomy j ⟨p.lin t x y, lin_lt ht hx hy⟩ with h | h | h
    · rw [if_pos h, if_neg h.ne]; simp
    · rw [if_neg (by rw [h]; exact lt_irrefl _), if_neg (by rw [h]; exact lt_irrefl _)]
    · rw [if_neg (not_lt.2 h.le), if_pos h, if_neg h.ne']; simp
  rw [hz, mat_rim hrim, if_pos rfl] at hi
  rw [val3_lin _ ht hx hy, val3_lin _ ht hx hy, hi]
  simp

/-! ### Problems without sources -/

/-- constant conductivity `κ`, no source, boundary value 0; `m × n` inner points -/
structure Plain (p : Problem ℝ) (m n : ℕ) (κ : ℝ) : Prop where
  xc : p.xc = m + 2
  yc : p.yc = n + 2
  tc : 0 < p.tc
  ht : 0 < p.ht
  hx : 0 < p.hx
  hy : 0 < p.hy
  pos : 0 < κ
  k : ∀ t x y, p.k t x y = κ
  f : ∀ t x y, p.f t x y = 0
  b : ∀ t x y, p.b t x y = 0

/-- the sum of the squares of the temperatures on time level `t` -/
noncomputable def heat2 (p : Problem ℝ) (u : Fin p.d → ℝ) (t : ℕ) : ℝ := ∑ x ∈ Finset.range p.xc, ∑ y ∈ Finset.range p.yc, val3 p u t x y ^ 2

/-- the slowest mode at an inner point -/
noncomputable def mode2 (m n : ℕ) (i : Fin m × Fin n) : ℝ := sin (π * (i.1 + 1 : ℕ) / (m + 1 : ℕ)) * sin (π * (i.2 + 1 : ℕ) / (n + 1 : ℕ))

/-- the coupling of the slowest mode with its neighbours -/
noncomputable def pull (p : Problem ℝ) (m n : ℕ) (κ : ℝ) : ℝ := 2 * (κ / p.hx ^ 2) * cos (π / (m + 1 : ℕ)) + 2 * (κ / p.hy ^ 2) * cos (π / (n + 1 : ℕ))

theorem mode2_pos {m n : ℕ} (i : Fin m × Fin n) : 0 < mode2 m n i := by
  have key : ∀ {k : ℕ} (j : Fin k), 0 < sin (π * (j + 1 : ℕ) / (k + 1 : ℕ)) := by
    intro k j
    have h1 : (0 : ℝ) < (k + 1 : ℕ) := by positivity
    have h2 : ((j + 1 : ℕ) : ℝ) < (k + 1 : ℕ) := by exact_mod_cast (by omega : (j : ℕ) + 1 < k + 1)
    refine sin_pos_of_pos_of_lt_pi (by positivity) ?_
    rw [div_lt_iff₀ h1]
    exact mul_lt_mul_of_pos_left h2 pi_pos
  exact mul_pos (key _) (key _)

theorem mode2_eigen {m n : ℕ} (a b : ℝ) (i : Fin m × Fin n) :
    ∑ j, (lower a b i j + lower a b j i) * mode2 m n j = (2 * a * cos (π / (m + 1 : ℕ)) + 2 * b * cos (π / (n + 1 : ℕ))) * mode2 m n i := by
  set F : ℕ → ℕ → ℝ := fun x y => sin (π * x / (m + 1 : ℕ)) * sin (π * y / (n + 1 : ℕ)) with hF
  have hend : ∀ k : ℕ, sin (π * (k + 1 : ℕ) / (k + 1 : ℕ)) = 0 := by
    intro k
    have : ((k + 1 : ℕ) : ℝ) ≠ 0 := by positivity
    rw [mul_div_assoc, div_self this, mul_one, sin_pi]
  have e : ∀ j : Fin m × Fin n, mode2 m n j = F (j.1 + 1) (j.2 + 1) := fun _ => rfl
  simp only [add_mul, Finset.sum_add_distrib, e]
  rw [lower_sum F (fun y _ => by simp [hF]) (fun x _ => by simp [hF]), upper_sum F (fun y _ => by simp only [hF]; rw [hend, zero_mul])
    (fun x _ => by simp only [hF]; rw [hend, mul_zero])]
  have h1 := NS.Props.Fdm.sin_three (N := m + 1) (i.1 + 1) (by omega)
  have h2 := NS.Props.Fdm.sin_three (N := n + 1) (i.2 + 1) (by omega)
  simp only [Nat.add_sub_cancel] at h1 h2
  simp only [hF]
  linear_combination a * sin (π * (i.2 + 1 : ℕ) / (n + 1 : ℕ)) * h1 + b * sin (π * (i.1 + 1 : ℕ) / (m + 1 : ℕ)) * h2

section plain
variable {m n : ℕ} {κ : ℝ}

theorem Plain.rhs (h : Plain p m n κ) {t x y : Nat} (ht : t ≠ 0) (hx : x < p.xc) (hy : y < p.yc) : rhs p (p.lin t x y) = 0 := by
  rw [rhs_lin hx hy]
  unfold rhs3
  rw [if_pos ht, h.b, h.f]
  split_ifs <;> rfl

theorem Plain.diag_pos (h : Plain p m n κ) : 0 < diag3 p κ := by
  have := h.ht; have := h.hx; have := h.hy; have := h.pos
  unfold diag3
  positivity

/-- the values of the sweeps at the points with given value -/
theorem Plain.rim (h : Plain p m n κ) {w : ℝ} {y : Nat → Fin p.d → ℝ} (h0 : y 0 = 0)
    (hsw : ∀ j, IsSorSweep (mat p) (fun i : Fin p.d => Heat.rhs p i) w (y j) (y j) (y (j + 1))) {t x v : Nat} (ht : t < p.tc) (hx : x < p.xc) (hv : v < p.yc)
    (hr : OnRim p t x v) (k : ℕ) : val3 p (y k) t x v = (1 - (1 - w) ^ k) * Heat.rhs p (p.lin t x v) := by
  induction k with
  | zero => rw [h0, val3_lin _ ht hx hv]; simp
  | succ k ih =>
    rw [sweep_rim (hsw k) ht hx hv hr, ih]
    ring

theorem onRim_iff (h : Plain p m n κ) {t x v : Nat} (ht : t ≠ 0) (hx : x ≤ m + 1) (hv : v ≤ n + 1) : OnRim p t x v ↔ x = 0 ∨ v = 0 ∨ x = m + 1 ∨ v = n + 1 := by
  unfold OnRim
  rw [h.xc, h.yc]
  omega

/-- the sweeps on one time level -/
theorem Plain.level (h : Plain p m n κ) {w : ℝ} (hw : w ≠ 0) {y : Nat → Fin p.d → ℝ} (h0 : y 0 = 0)
    (hsw : ∀ j, IsSorSweep (mat p) (fun i : Fin p.d => Heat.rhs p i) w (y j) (y j) (y (j + 1))) {t : Nat} (ht0 : t ≠ 0) (ht : t < p.tc) (q : ℝ) (k : ℕ) (i : Fin m × Fin n) :
    diag3 p κ / w * (q ^ (k + 1) * val3 p (y (k + 1)) t (i.1 + 1) (i.2 + 1)) + diag3 p κ * (1 - 1 / w) * q * (q ^ k * val3 p (y k) t (i.1 + 1) (i.2 + 1)) -
      ∑ j, lower (κ / p.hx ^ 2) (κ / p.hy ^ 2) i j * (q ^ (k + 1) * val3 p (y (k + 1)) t (j.1 + 1) (j.2 + 1)) -
      q * ∑ j, lower (κ / p.hx ^ 2) (κ / p.hy ^ 2) j i * (q ^ k * val3 p (y k) t (j.1 + 1) (j.2 + 1)) =
      1 / p.ht * (q ^ (k + 1) * val3 p (y (k + 1)) (t - 1) (i.1 + 1) (i.2 + 1)) := by
  have hz : ∀ k x v, x ≤ m + 1 → v ≤ n + 1 → (x = 0 ∨ v = 0 ∨ x = m + 1 ∨ v = n + 1) → val3 p (y k) t x v = 0 := by
    intro k x v hx hv hr
    rw [h.rim h0 hsw ht (by rw [h.xc]; omega) (by rw [h.yc]; omega) ((onRim_iff h ht0 hx hv).2 hr), h.rhs ht0 (by rw [h.xc]; omega) (by rw [h.yc]; omega), mul_zero]
  have s1 := lower_sum (a := κ / p.hx ^ 2) (b := κ / p.hy ^ 2) (m := m) (n := n) (fun x v => q ^ (k + 1) * val3 p (y (k + 1)) t x v)
    (fun v hv => by rw [hz _ _ _ (by omega) (by omega) (.inl rfl), mul_zero])
    (fun x hx => by rw [hz _ _ _ (by omega) (by omega) (.inr (.inl rfl)), mul_zero]) i
  have s2 := upper_sum (a := κ / p.hx ^ 2) (b := κ / p.hy ^ 2) (m := m) (n := n) (fun x v => q ^ k * val3 p (y k) t x v)
    (fun v hv => by rw [hz _ _ _ (by omega) (by omega) (.inr (.inr (.inl rfl))), mul_zero])
    (fun x hx => by rw [hz _ _ _ (by omega) (by omega) (.inr (.inr (.inr rfl))), mul_zero]) i
  rw [s1, s2]
  have hx : (i.1 : ℕ) + 1 < p.xc := by have := i.1.2; rw [h.xc]; omega
  have hv : (i.2 : ℕ) + 1 < p.yc := by have := i.2.2; rw [h.yc]; omega
  have hin : ¬ OnRim p t (i.1 + 1) (i.2 + 1) := by
    have := i.1.2; have := i.2.2
    rw [onRim_iff h ht0 (by omega) (by omega)]
    omega
  have hs := sweep_inner hw h.diag_pos.ne' (hsw k) ht hx hv hin (h.k _ _ _)
  simp only [Nat.add_sub_cancel, h.rhs ht0 hx hv, add_zero] at hs
  linear_combination q ^ (k + 1) * hs

/-- the energy of one time level is a fixed share of that of the level before -/
theorem Plain.step (h : Plain p m n κ) {w : ℝ} (hw : w ≠ 0) {y : Nat → Fin p.d → ℝ} (h0 : y 0 = 0)
    (hsw : ∀ j, IsSorSweep (mat p) (fun i : Fin p.d => Heat.rhs p i) w (y j) (y j) (y (j + 1))) {q : ℝ} (hq : 0 < q)
    (hb : 2 * (1 + q) * (diag3 p κ * (1 - 1 / w)) ≤ pull p m n κ)
    (hG : 0 < diag3 p κ / w + diag3 p κ * (1 - 1 / w) * q - pull p m n κ / 2 * (1 + q)) (K : ℕ) {t : Nat} (ht : t < p.tc) :
    (diag3 p κ / w + diag3 p κ * (1 - 1 / w) * q - pull p m n κ / 2 * (1 + q)) ^ (2 * t) *
        energy (fun k (i : Fin m × Fin n) => q ^ k * val3 p (y k) t (i.1 + 1) (i.2 + 1)) K ≤
      (1 / p.ht) ^ (2 * t) * energy (fun k (i : Fin m × Fin n) => q ^ k * val3 p (y k) 0 (i.1 + 1) (i.2 + 1)) K := by
  induction t with
  | zero => simp
  | succ t ih =>
    have hx2 : 0 ≤ κ / p.hx ^ 2 := by have := h.pos; positivity
    have hy2 : 0 ≤ κ / p.hy ^ 2 := by have := h.pos; positivity
    have := level_energy (ι := Fin m × Fin n) (L := lower (κ / p.hx ^ 2) (κ / p.hy ^ 2)) (φ := mode2 m n) (β := pull p m n κ) (lower_nonneg hx2 hy2) mode2_pos
      (mode2_eigen _ _) hq hb (y := fun k i => q ^ k * val3 p (y k) (t + 1) (i.1 + 1) (i.2 + 1)) (γ := fun k i => q ^ k * val3 p (y k) t (i.1 + 1) (i.2 + 1))
      (σ := 1 / p.ht) (fun i => by
        have hx : (i.1 : ℕ) + 1 < p.xc := by have := i.1.2; rw [h.xc]; omega
        have hv : (i.2 : ℕ) + 1 < p.yc := by have := i.2.2; rw [h.yc]; omega
        simp only [h0, val3_lin _ ht hx hv]; simp) (K := K)
      (fun k _ i => h.level hw h0 hsw (Nat.succ_ne_zero t) ht q k i) hG
    set G := diag3 p κ / w + diag3 p κ * (1 - 1 / w) * q - pull p m n κ / 2 * (1 + q)
    have ih := ih (by omega)
    set E1 := energy (fun k (i : Fin m × Fin n) => q ^ k * val3 p (y k) (t + 1) (i.1 + 1) (i.2 + 1)) K
    set E := energy (fun k (i : Fin m × Fin n) => q ^ k * val3 p (y k) t (i.1 + 1) (i.2 + 1)) K
    set E0 := energy (fun k (i : Fin m × Fin n) => q ^ k * val3 p (y k) 0 (i.1 + 1) (i.2 + 1)) K
    calc G ^ (2 * (t + 1)) * E1 = G ^ (2 * t) * (G ^ 2 * E1) := by ring
      _ ≤ G ^ (2 * t) * ((1 / p.ht) ^ 2 * E) := mul_le_mul_of_nonneg_left this (by positivity)
      _ = (1 / p.ht) ^ 2 * (G ^ (2 * t) * E) := by ring
      _ ≤ (1 / p.ht) ^ 2 * ((1 / p.ht) ^ (2 * t) * E0) := mul_le_mul_of_nonneg_left ih (by positivity)
      _ = _ := by ring

theorem inner_lt (h : Plain p m n κ) (i : Fin m × Fin n) : (i.1 : ℕ) + 1 < p.xc ∧ (i.2 : ℕ) + 1 < p.yc := by
  have := i.1.2; have := i.2.2
  rw [h.xc, h.yc]
  omega

theorem given_le {w : ℝ} (hw1 : 1 ≤ w) (hw2 : w ≤ 2) (k : ℕ) : (1 - (1 - w) ^ (k + 1)) ^ 2 ≤ w ^ 2 := by
  have h1 : |1 - w| ≤ w - 1 := by rw [abs_le]; constructor <;> linarith
  have h2 : |(1 - w) ^ (k + 1)| ≤ w - 1 := by
    rw [abs_pow, pow_succ]
    calc |1 - w| ^ k * |1 - w| ≤ 1 * |1 - w| := mul_le_mul_of_nonneg_right (pow_le_one₀ (abs_nonneg _) (by linarith)) (abs_nonneg _)
      _ ≤ w - 1 := by linarith
  rw [abs_le] at h2
  exact sq_le_sq' (by linarith) (by linarith)

theorem geom_le {r : ℝ} (h0 : 0 ≤ r) (h1 : r < 1) (K : ℕ) : ∑ k ∈ Finset.range K, r ^ (k + 1) ≤ r / (1 - r) := by
  have h := geom_sum_mul_neg r K
  have e : ∑ k ∈ Finset.range K, r ^ (k + 1) = r * ∑ k ∈ Finset.range K, r ^ k := by
    rw [Finset.mul_sum]; exact Finset.sum_congr rfl fun k _ => by ring
  rw [e, le_div_iff₀ (by linarith), mul_assoc, h]
  have := pow_nonneg h0 K
  nlinarith

/-- sum of the squares of the initial temperatures -/
noncomputable def start2 (p : Problem ℝ) : ℝ := ∑ x ∈ Finset.range p.xc, ∑ y ∈ Finset.range p.yc, p.t0 (x * p.hx) (y * p.hy) ^ 2

theorem start_inner (h : Plain p m n κ) : ∑ i : Fin m × Fin n, p.t0 ((i.1 + 1 : ℕ) * p.hx) ((i.2 + 1 : ℕ) * p.hy) ^ 2 ≤ start2 p := by
  unfold start2
  rw [h.xc, h.yc, Fintype.sum_prod_type, Finset.sum_range_succ, Finset.sum_range_succ', Finset.sum_range]
  have : ∀ x : Fin m, ∑ y : Fin n, p.t0 ((x + 1 : ℕ) * p.hx) ((y + 1 : ℕ) * p.hy) ^ 2 ≤ ∑ y ∈ Finset.range (n + 2), p.t0 ((x + 1 : ℕ) * p.hx) (y * p.hy) ^ 2 := by
    intro x
    rw [Finset.sum_range_succ, Finset.sum_range_succ', Finset.sum_range]
    linarith [sq_nonneg (p.t0 ((x + 1 : ℕ) * p.hx) ((0 : ℕ) * p.hy)), sq_nonneg (p.t0 ((x + 1 : ℕ) * p.hx) ((n + 1 : ℕ) * p.hy))]
  have h1 := Finset.sum_le_sum fun x (_ : x ∈ Finset.univ) => this x
  have h2 : 0 ≤ ∑ y ∈ Finset.range (n + 2), p.t0 ((0 : ℕ) * p.hx) (y * p.hy) ^ 2 := Finset.sum_nonneg fun _ _ => sq_nonneg _
  have h3 : 0 ≤ ∑ y ∈ Finset.range (n + 2), p.t0 ((m + 1 : ℕ) * p.hx) (y * p.hy) ^ 2 := Finset.sum_nonneg fun _ _ => sq_nonneg _
  linarith

theorem rhs_start (h : Plain p m n κ) (i : Fin m × Fin n) : Heat.rhs p (p.lin 0 (i.1 + 1) (i.2 + 1)) = p.t0 ((i.1 + 1 : ℕ) * p.hx) ((i.2 + 1 : ℕ) * p.hy) := by
  obtain ⟨hx, hv⟩ := inner_lt h i
  rw [rhs_lin hx hv]
  unfold rhs3
  rw [if_pos (.inl rfl), if_neg (by simp)]

theorem energy_start (h : Plain p m n κ) {w : ℝ} (hw1 : 1 ≤ w) (hw2 : w ≤ 2) {y : Nat → Fin p.d → ℝ} (h0 : y 0 = 0)
    (hsw : ∀ j, IsSorSweep (mat p) (fun i : Fin p.d => Heat.rhs p i) w (y j) (y j) (y (j + 1))) {q : ℝ} (hq : 0 < q) (hq1 : q < 1) (K : ℕ) :
    energy (fun k (i : Fin m × Fin n) => q ^ k * val3 p (y k) 0 (i.1 + 1) (i.2 + 1)) K ≤ w ^ 2 * q ^ 2 / (1 - q ^ 2) * start2 p := by
  set S := ∑ i : Fin m × Fin n, p.t0 ((i.1 + 1 : ℕ) * p.hx) ((i.2 + 1 : ℕ) * p.hy) ^ 2 with hS
  have hS0 : 0 ≤ S := Finset.sum_nonneg fun _ _ => sq_nonneg _
  have hq2 : q ^ 2 < 1 := by nlinarith
  have h1 : energy (fun k (i : Fin m × Fin n) => q ^ k * val3 p (y k) 0 (i.1 + 1) (i.2 + 1)) K ≤ ∑ k ∈ Finset.range K, (q ^ 2) ^ (k + 1) * (w ^ 2 * S) := by
    unfold energy
    refine Finset.sum_le_sum fun k _ => ?_
    rw [hS, Finset.mul_sum, Finset.mul_sum]
    refine Finset.sum_le_sum fun i _ => ?_
    obtain ⟨hx, hv⟩ := inner_lt h i
    beta_reduce
    rw [h.rim h0 hsw h.tc hx hv (.inl rfl), rhs_start h, mul_pow, mul_pow, ← pow_mul, ← pow_mul, mul_comm 2]
    exact mul_le_mul_of_nonneg_left (mul_le_mul_of_nonneg_right (given_le hw1 hw2 k) (sq_nonneg _)) (by positivity)
  rw [← Finset.sum_mul] at h1
  have h2 := geom_le (sq_nonneg q) hq2 K
  have h3 := start_inner h
  have h4 : 0 ≤ q ^ 2 / (1 - q ^ 2) := div_nonneg (sq_nonneg _) (by linarith)
  calc _ ≤ _ := h1
    _ ≤ q ^ 2 / (1 - q ^ 2) * (w ^ 2 * start2 p) := mul_le_mul h2 (mul_le_mul_of_nonneg_left h3 (sq_nonneg _)) (mul_nonneg (sq_nonneg _) hS0) h4
    _ = _ := by ring

/-- what one time level loses in the weighted sum over the sweeps -/
noncomputable def damp (p : Problem ℝ) (m n : ℕ) (κ w q : ℝ) : ℝ := diag3 p κ / w + diag3 p κ * (1 - 1 / w) * q - pull p m n κ / 2 * (1 + q)

theorem heat_inner (h : Plain p m n κ) {u : Fin p.d → ℝ} {t : ℕ} (hz : ∀ x v, x ≤ m + 1 → v ≤ n + 1 → (x = 0 ∨ v = 0 ∨ x = m + 1 ∨ v = n + 1) → val3 p u t x v = 0) :
    heat2 p u t = ∑ i : Fin m × Fin n, val3 p u t (i.1 + 1) (i.2 + 1) ^ 2 := by
  unfold heat2
  rw [h.xc, h.yc]
  refine grid_sum (fun x v => val3 p u t x v ^ 2) ?_ ?_ ?_ ?_
  · intro v hv; rw [hz 0 v (by omega) hv (.inl rfl)]; simp
  · intro x hx; rw [hz x 0 hx (by omega) (.inr (.inl rfl))]; simp
  · intro v hv; rw [hz (m + 1) v (by omega) hv (.inr (.inr (.inl rfl)))]; simp
  · intro x hx; rw [hz x (n + 1) hx (by omega) (.inr (.inr (.inr rfl)))]; simp

/-- C115: without sources and with constant conductivity, the heat that `maxIter` sweeps can carry to time level `t` is at most a power of `1 / (damp · HT)` with exponent `t`
times a power of `1 / q` with exponent `maxIter`, for every `q` below 1. -/
theorem C115_bound {M : Type} [MatOps M ℝ] [LawfulMat M ℝ] (h : Plain p m n κ) {w : ℝ} (hw1 : 1 ≤ w) (hw2 : w ≤ 2) (maxIter : ℕ) (eps : ℝ) :
    ∃ u it, solve (M := M) p w maxIter eps = .ok (fl u, it) ∧ it ≤ maxIter ∧
      ∀ q, 0 < q → q < 1 → 2 * (1 + q) * (diag3 p κ * (1 - 1 / w)) ≤ pull p m n κ → 0 < damp p m n κ w q → ∀ t, 0 < t → t < p.tc →
        q ^ (2 * maxIter) * (damp p m n κ w q * p.ht) ^ (2 * t) * heat2 p u t ≤ w ^ 2 * q ^ 2 / (1 - q ^ 2) * start2 p := by
  have hw : w ≠ 0 := by linarith
  obtain ⟨⟨a, b'⟩, e, h1, h2⟩ := system_upto (M := M) (p := p) h.tc (by rw [h.xc]; omega) (by rw [h.yc]; omega)
  have hd : ∀ i, mat p i i ≠ 0 := by
    intro i
    by_cases hi : rimIx p i
    · rw [mat_rim hi, if_pos rfl]; exact one_ne_zero
    · rw [mat_inner hi, if_pos rfl]
      have : kIx p i = κ := h.k _ _ _
      rw [this]
      exact h.diag_pos.ne'
  obtain ⟨y, k, k0, k1, k2, k3, k4, -⟩ := C38_sor (b := fun i : Fin p.d => Heat.rhs p i) (x0 := 0) h1 hd w maxIter eps
  have hsw : ∀ j, IsSorSweep (mat p) (fun i : Fin p.d => Heat.rhs p i) w (y j) (y j) (y (j + 1)) := by
    intro j
    rcases Nat.eq_zero_or_pos j with rfl | hj
    · rw [k0]; exact k1
    · exact k2 j hj
  refine ⟨y k, k, ?_, k4, fun q hq hq1 hb hG t ht0 ht => ?_⟩
  · unfold solve
    have e3 : (Vec.resize [] p.d : List ℝ).map Fl.fin = fl (0 : Fin p.d → ℝ) := by
      unfold fl Vec.resize
      apply List.ext_getElem (by simp)
      intro i _ _
      simp
    rw [e, ok_bind, fl_of_isVec h2]
    show sor a _ ((Vec.resize [] p.d : List ℝ).map Fl.fin) w maxIter eps = _
    rw [e3]
    exact k3
  have hz : ∀ k x v, x ≤ m + 1 → v ≤ n + 1 → (x = 0 ∨ v = 0 ∨ x = m + 1 ∨ v = n + 1) → val3 p (y k) t x v = 0 := by
    intro k x v hx hv hr
    rw [h.rim k0 hsw ht (by rw [h.xc]; omega) (by rw [h.yc]; omega) ((onRim_iff h (by omega) hx hv).2 hr), h.rhs (by omega) (by rw [h.xc]; omega) (by rw [h.yc]; omega), mul_zero]
  rw [heat_inner h (hz k)]
  have hs := h.step hw k0 hsw hq hb hG k ht
  have hst := energy_start h hw1 hw2 k0 hsw hq hq1 k
  have hlast : q ^ (2 * k) * ∑ i : Fin m × Fin n, val3 p (y k) t (i.1 + 1) (i.2 + 1) ^ 2 ≤
      energy (fun k (i : Fin m × Fin n) => q ^ k * val3 p (y k) t (i.1 + 1) (i.2 + 1)) k := by
    rcases Nat.eq_zero_or_pos k with rfl | hk
    · have : ∀ i : Fin m × Fin n, val3 p (y 0) t (i.1 + 1) (i.2 + 1) = 0 := by
        intro i
        obtain ⟨hx, hv⟩ := inner_lt h i
        rw [k0, val3_lin _ ht hx hv]; rfl
      simp [this, energy]
    · obtain ⟨k', rfl⟩ : ∃ k', k = k' + 1 := ⟨k - 1, by omega⟩
      unfold energy
      have := Finset.single_le_sum (f := fun j => ∑ i : Fin m × Fin n, (q ^ (j + 1) * val3 p (y (j + 1)) t (i.1 + 1) (i.2 + 1)) ^ 2)
        (fun j _ => Finset.sum_nonneg fun i _ => sq_nonneg _) (Finset.self_mem_range_succ k')
      refine le_trans (le_of_eq ?_) this
      rw [Finset.mul_sum]
      exact Finset.sum_congr rfl fun i _ => by ring
  set S := ∑ i : Fin m × Fin n, val3 p (y k) t (i.1 + 1) (i.2 + 1) ^ 2 with hSd
  have hS0 : 0 ≤ S := Finset.sum_nonneg fun _ _ => sq_nonneg _
  change damp p m n κ w q ^ (2 * t) * _ ≤ _ at hs
  have hqp : q ^ (2 * maxIter) ≤ q ^ (2 * k) := pow_le_pow_of_le_one hq.le hq1.le (by omega)
  have hht := h.ht
  have hht' : (1 / p.ht) ^ (2 * t) * p.ht ^ (2 * t) = 1 := by rw [← mul_pow, one_div_mul_cancel hht.ne', one_pow]
  calc q ^ (2 * maxIter) * (damp p m n κ w q * p.ht) ^ (2 * t) * S ≤ q ^ (2 * k) * (damp p m n κ w q * p.ht) ^ (2 * t) * S := by gcongr
    _ = p.ht ^ (2 * t) * (damp p m n κ w q ^ (2 * t) * (q ^ (2 * k) * S)) := by rw [mul_pow]; ring
    _ ≤ p.ht ^ (2 * t) * (damp p m n κ w q ^ (2 * t) * energy (fun k (i : Fin m × Fin n) => q ^ k * val3 p (y k) t (i.1 + 1) (i.2 + 1)) k) := by gcongr
    _ ≤ p.ht ^ (2 * t) * ((1 / p.ht) ^ (2 * t) * (w ^ 2 * q ^ 2 / (1 - q ^ 2) * start2 p)) :=
        mul_le_mul_of_nonneg_left (hs.trans (mul_le_mul_of_nonneg_left hst (by positivity))) (by positivity)
    _ = (1 / p.ht) ^ (2 * t) * p.ht ^ (2 * t) * (w ^ 2 * q ^ 2 / (1 - q ^ 2) * start2 p) := by ring
    _ = _ := by rw [hht', one_mul]

/-! ### The solution of the scheme -/

theorem solves_rim (h : Plain p m n κ) {z : Fin p.d → ℝ} (hz : Solves p z) {t : ℕ} (ht0 : t ≠ 0) (ht : t < p.tc) {x v : ℕ} (hx : x ≤ m + 1) (hv : v ≤ n + 1)
    (hr : x = 0 ∨ v = 0 ∨ x = m + 1 ∨ v = n + 1) : val3 p z t x v = 0 := by
  rw [(hz t x v ht (by rw [h.xc]; omega) (by rw [h.yc]; omega)).2.1 ht0 ((onRim_iff h ht0 hx hv).2 hr), h.b]

/-- the slowest mode of the solution of the scheme decays by the same factor in every step -/
theorem scheme_mode (h : Plain p m n κ) {z : Fin p.d → ℝ} (hz : Solves p z) {t : ℕ} (ht : t < p.tc) :
    ((diag3 p κ - pull p m n κ) * p.ht) ^ t * ∑ i : Fin m × Fin n, mode2 m n i * val3 p z t (i.1 + 1) (i.2 + 1) =
      ∑ i : Fin m × Fin n, mode2 m n i * p.t0 ((i.1 + 1 : ℕ) * p.hx) ((i.2 + 1 : ℕ) * p.hy) := by
  induction t with
  | zero =>
    rw [pow_zero, one_mul]
    refine Finset.sum_congr rfl fun i _ => ?_
    obtain ⟨hx, hv⟩ := inner_lt h i
    rw [(hz 0 _ _ h.tc hx hv).1 rfl]
  | succ t ih =>
    have hht := h.ht
    have hl := level_mode (ι := Fin m × Fin n) (L := lower (κ / p.hx ^ 2) (κ / p.hy ^ 2)) (φ := mode2 m n) (β := pull p m n κ) (mode2_eigen _ _)
      (d := diag3 p κ) (σ := 1 / p.ht) (z := fun i => val3 p z (t + 1) (i.1 + 1) (i.2 + 1)) (g := fun i => val3 p z t (i.1 + 1) (i.2 + 1)) (fun i => by
        have hr := fun {x v} hx hv hr => solves_rim h hz (Nat.succ_ne_zero t) ht (x := x) (v := v) hx hv hr
        have s1 := lower_sum (a := κ / p.hx ^ 2) (b := κ / p.hy ^ 2) (m := m) (n := n) (fun x v => val3 p z (t + 1) x v)
          (fun v hv => hr (by omega) (by omega) (.inl rfl)) (fun x hx => hr (by omega) (by omega) (.inr (.inl rfl))) i
        have s2 := upper_sum (a := κ / p.hx ^ 2) (b := κ / p.hy ^ 2) (m := m) (n := n) (fun x v => val3 p z (t + 1) x v)
          (fun v hv => hr (by omega) (by omega) (.inr (.inr (.inl rfl)))) (fun x hx => hr (by omega) (by omega) (.inr (.inr (.inr rfl)))) i
        rw [s1, s2]
        obtain ⟨hx, hv⟩ := inner_lt h i
        have hin : ¬ OnRim p (t + 1) (i.1 + 1) (i.2 + 1) := by
          have := i.1.2; have := i.2.2
          rw [onRim_iff h (by omega) (by omega) (by omega)]
          omega
        have := (hz (t + 1) _ _ ht hx hv).2.2 hin
        rw [h.k, h.f] at this
        simp only [Nat.add_sub_cancel] at this
        have hx0 := h.hx; have hy0 := h.hy
        unfold diag3
        linear_combination this)
    rw [pow_succ, ← ih (by omega)]
    have : (diag3 p κ - pull p m n κ) * p.ht * ∑ i : Fin m × Fin n, mode2 m n i * val3 p z (t + 1) (i.1 + 1) (i.2 + 1) =
        ∑ i : Fin m × Fin n, mode2 m n i * val3 p z t (i.1 + 1) (i.2 + 1) := by
      calc _ = p.ht * ((diag3 p κ - pull p m n κ) * ∑ i : Fin m × Fin n, mode2 m n i * val3 p z (t + 1) (i.1 + 1) (i.2 + 1)) := by ring
        _ = _ := by rw [hl]; field_simp
    rw [← this]
    ring
end plain
end NS.Props.Heat

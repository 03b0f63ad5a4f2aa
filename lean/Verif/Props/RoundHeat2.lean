/-
Property C122: the heat program `/repo/examples/heat/main.cpp` gives up too early also when it computes in floating-point arithmetic.
-/
import Verif.Props.RoundHeat

set_option linter.unusedSectionVars false
set_option linter.unusedSimpArgs false

namespace NS.Props.Heat
open NS NS.Heat NS.Grid NS.MatOps NS.Rounding NS.Props.Iter NS.Iterative Matrix Real NS.HeatEnergy

section pert
variable {p : Problem ℝ} {m n : ℕ} {κ w ε : ℝ} {c : Fin p.d → ℝ} {V s : ℕ → Fin p.d → ℝ}

/-- sweeps from the start vector zero with changed given values; each change is at most `ε` times the sizes of the terms of the row. At points that are not on time level 0 the given value is zero. -/
structure Pert (p : Problem ℝ) (w ε : ℝ) (c : Fin p.d → ℝ) (V s : ℕ → Fin p.d → ℝ) : Prop where
  start : V 0 = 0
  sweep : ∀ j, IsSorSweep (mat p) (c + s j) w (V j) (V j) (V (j + 1))
  bound : ∀ j i, |s j i| ≤ ε * (mat p i i / w * |V (j + 1) i| + |1 / w - 1| * mat p i i * |V j i| +
    (∑ l, (if l < i then |mat p i l| * |V (j + 1) l| else if i < l then |mat p i l| * |V j l| else 0)) + |c i|)
  zero : ∀ t x v (ht : t < p.tc) (hx : x < p.xc) (hv : v < p.yc), t ≠ 0 → c ⟨p.lin t x v, lin_lt ht hx hv⟩ = 0

theorem val3_abs (u : Fin p.d → ℝ) (t x y : ℕ) : val3 p (fun i => |u i|) t x y = |val3 p u t x y| := by
  unfold val3 ev
  split_ifs <;> simp

theorem rim_row (h : Pert p w ε c V s) (hw1 : 1 ≤ w) {t x v : ℕ} (ht : t < p.tc) (hx : x < p.xc) (hv : v < p.yc) (hr : OnRim p t x v) (k : ℕ) :
    ∃ σ, val3 p (V (k + 1)) t x v = (1 - w) * val3 p (V k) t x v + w * (c ⟨p.lin t x v, lin_lt ht hx hv⟩ + σ) ∧
      w * |σ| ≤ ε * (|val3 p (V (k + 1)) t x v| + (w - 1) * |val3 p (V k) t x v| + w * |c ⟨p.lin t x v, lin_lt ht hx hv⟩|) := by
  refine ⟨s k ⟨p.lin t x v, lin_lt ht hx hv⟩, sweep_rim (h.sweep k) ht hx hv hr, ?_⟩
  have hb := h.bound k ⟨p.lin t x v, lin_lt ht hx hv⟩
  have hrim : rimIx p ⟨p.lin t x v, lin_lt ht hx hv⟩ := by
    unfold rimIx
    simp only
    rw [lin_t hx hv, lin_x hx, lin_y hx hv]
    exact hr
  have hz : (∑ l, (if l < ⟨p.lin t x v, lin_lt ht hx hv⟩ then |mat p ⟨p.lin t x v, lin_lt ht hx hv⟩ l| * |V (k + 1) l| else
      if ⟨p.lin t x v, lin_lt ht hx hv⟩ < l then |mat p ⟨p.lin t x v, lin_lt ht hx hv⟩ l| * |V k l| else 0)) = 0 := by
    refine Finset.sum_eq_zero fun j _ => ?_
    rw [mat_rim hrim]
    rcases lt_trichotomy j ⟨p.lin t x v, lin_lt ht hx hv⟩ with h | h | h
    · rw [if_pos h, if_neg h.ne]; simp
    · rw [if_neg (by rw [h]; exact lt_irrefl _), if_neg (by rw [h]; exact lt_irrefl _)]
    · rw [if_neg (not_lt.2 h.le), if_pos h, if_neg h.ne']; simp
  rw [hz, mat_rim hrim, if_pos rfl, ← val3_lin (V (k + 1)) ht hx hv, ← val3_lin (V k) ht hx hv] at hb
  have hw0 : 0 < w := by linarith
  have e1 : |1 / w - 1| = (w - 1) / w := by
    rw [abs_of_nonpos (by rw [sub_nonpos, div_le_one hw0]; exact hw1)]
    field_simp
    ring
  rw [e1] at hb
  calc w * |s k ⟨p.lin t x v, lin_lt ht hx hv⟩| ≤ w * _ := mul_le_mul_of_nonneg_left hb hw0.le
    _ = _ := by field_simp; ring

/-- the rim keeps the value zero -/
theorem Pert.rim0 (h : Pert p w ε c V s) (hw1 : 1 ≤ w) (he : ε < 1) {t x v : ℕ} (ht0 : t ≠ 0) (ht : t < p.tc) (hx : x < p.xc) (hv : v < p.yc) (hr : OnRim p t x v) (k : ℕ) :
    val3 p (V k) t x v = 0 := by
  induction k with
  | zero => rw [h.start, val3_lin _ ht hx hv]; rfl
  | succ k ih =>
    obtain ⟨σ, h1, h2⟩ := rim_row h hw1 ht hx hv hr k
    rw [h.zero t x v ht hx hv ht0, ih] at h1 h2
    have h3 : |val3 p (V (k + 1)) t x v| = w * |σ| := by rw [h1, mul_zero, _root_.zero_add, _root_.zero_add, abs_mul, abs_of_pos (by linarith)]
    simp only [abs_zero, mul_zero, add_zero] at h2
    rw [← h3] at h2
    have h4 := abs_nonneg (val3 p (V (k + 1)) t x v)
    have : |val3 p (V (k + 1)) t x v| ≤ 0 := by
      by_contra hc
      push Not at hc
      have := mul_lt_mul_of_pos_right he hc
      linarith
    exact abs_eq_zero.1 (le_antisymm this h4)

/-- the values on time level 0 -/
theorem Pert.rim_start (h : Pert p w ε c V s) (hw1 : 1 ≤ w) (he0 : 0 ≤ ε) (he : ε < 1) {W : ℝ} (hW0 : 0 ≤ W) (hW : (1 + ε) * ((w - 1) * W + w) ≤ (1 - ε) * W) {x v : ℕ} (ht : 0 < p.tc) (hx : x < p.xc)
    (hv : v < p.yc) (k : ℕ) : |val3 p (V k) 0 x v| ≤ W * |c ⟨p.lin 0 x v, lin_lt ht hx hv⟩| := by
  induction k with
  | zero => rw [h.start, val3_lin _ ht hx hv]; simpa using mul_nonneg hW0 (abs_nonneg _)
  | succ k ih =>
    obtain ⟨σ, h1, h2⟩ := rim_row h hw1 ht hx hv (.inl rfl) k
    set C := c ⟨p.lin 0 x v, lin_lt ht hx hv⟩
    set a := val3 p (V k) 0 x v
    set a' := val3 p (V (k + 1)) 0 x v
    have hC := abs_nonneg C
    have h3 : |a'| ≤ (w - 1) * |a| + w * |C| + w * |σ| := by
      rw [h1]
      have q1 := abs_add_le ((1 - w) * a) (w * (C + σ))
      rw [abs_mul, abs_mul, abs_of_nonpos (show 1 - w ≤ 0 by linarith), abs_of_pos (show 0 < w by linarith)] at q1
      have q2 := mul_le_mul_of_nonneg_left (abs_add_le C σ) (show 0 ≤ w by linarith)
      linarith
    have h4 : (1 - ε) * |a'| ≤ (1 + ε) * ((w - 1) * |a| + w * |C|) := by linarith
    have h5 : (1 + ε) * ((w - 1) * |a| + w * |C|) ≤ (1 + ε) * ((w - 1) * (W * |C|) + w * |C|) :=
      mul_le_mul_of_nonneg_left (by have := mul_le_mul_of_nonneg_left ih (show 0 ≤ w - 1 by linarith); linarith) (by linarith)
    have h6 := mul_le_mul_of_nonneg_right hW hC
    have h7 : (1 - ε) * |a'| ≤ (1 - ε) * (W * |C|) := by linarith
    exact le_of_mul_le_mul_left h7 (by linarith)

theorem Pert.all_le (hp : Plain p m n κ) (h : Pert p w ε c V s) (hw1 : 1 ≤ w) (he : ε < 1) {t : ℕ} (ht0 : t ≠ 0) (ht : t < p.tc) {X : ℝ} (hX0 : 0 ≤ X) {k : ℕ}
    (hX : ∀ i : Fin m × Fin n, |val3 p (V k) t (i.1 + 1) (i.2 + 1)| ≤ X) {x v : ℕ} (hx : x < p.xc) (hv : v < p.yc) : |val3 p (V k) t x v| ≤ X := by
  by_cases hr : OnRim p t x v
  · rw [h.rim0 hw1 he ht0 ht hx hv hr, abs_zero]; exact hX0
  · rw [hp.xc] at hx
    rw [hp.yc] at hv
    rw [onRim_iff hp ht0 (by omega) (by omega)] at hr
    have := hX (⟨x - 1, by omega⟩, ⟨v - 1, by omega⟩)
    simp only at this
    rwa [show x - 1 + 1 = x by omega, show v - 1 + 1 = v by omega] at this

/-- the change of a row in a sweep -/
theorem Pert.row_le (hp : Plain p m n κ) (h : Pert p w ε c V s) (hw1 : 1 ≤ w) (he0 : 0 ≤ ε) (he : ε < 1) {t : ℕ} (ht : t + 1 < p.tc) {X : ℝ} (hX0 : 0 ≤ X) {k : ℕ}
    (hX1 : ∀ i : Fin m × Fin n, |val3 p (V (k + 1)) (t + 1) (i.1 + 1) (i.2 + 1)| ≤ X) (hX2 : ∀ i : Fin m × Fin n, |val3 p (V k) (t + 1) (i.1 + 1) (i.2 + 1)| ≤ X)
    (hX3 : ∀ i : Fin m × Fin n, |val3 p (V (k + 1)) t (i.1 + 1) (i.2 + 1)| ≤ X) (i : Fin m × Fin n) :
    |s k ⟨p.lin (t + 1) (i.1 + 1) (i.2 + 1), lin_lt ht (inner_lt hp i).1 (inner_lt hp i).2⟩| ≤ 2 * diag3 p κ * ε * X := by
  obtain ⟨hx, hv⟩ := inner_lt hp i
  have hin : ¬ OnRim p (t + 1) (i.1 + 1) (i.2 + 1) := by
    have := i.1.2; have := i.2.2
    rw [onRim_iff hp (by omega) (by omega) (by omega)]
    omega
  set r : Fin p.d := ⟨p.lin (t + 1) (i.1 + 1) (i.2 + 1), lin_lt ht hx hv⟩ with hr
  have hb := h.bound k r
  have hd : ∀ i, mat p i i ≠ 0 := by
    intro i
    by_cases hi : rimIx p i
    · rw [mat_rim hi, if_pos rfl]; exact one_ne_zero
    · rw [mat_inner hi, if_pos rfl]
      have : kIx p i = κ := hp.k _ _ _
      rw [this]
      exact hp.diag_pos.ne'
  have hg : Good p := ⟨hp.ht, fun t x y _ _ _ _ => by rw [hp.k]; exact hp.pos.le⟩
  have hrim : ¬ rimIx p r := by
    unfold rimIx
    simp only [hr]
    rw [lin_t hx hv, lin_x hx, lin_y hx hv]
    exact hin
  have e1 : mat p r r = diag3 p κ := by
    rw [mat_inner hrim, if_pos rfl]
    have : kIx p r = κ := hp.k _ _ _
    rw [this]; rfl
  have e2 : (∑ l, (if l < r then |mat p r l| * |V (k + 1) l| else if r < l then |mat p r l| * |V k l| else 0)) =
      1 / p.ht * |val3 p (V (k + 1)) t (i.1 + 1) (i.2 + 1)| + (κ / p.hx ^ 2 * |val3 p (V (k + 1)) (t + 1) i.1 (i.2 + 1)| + κ / p.hy ^ 2 * |val3 p (V (k + 1)) (t + 1) (i.1 + 1) i.2|) +
        (κ / p.hx ^ 2 * |val3 p (V k) (t + 1) (i.1 + 1 + 1) (i.2 + 1)| + κ / p.hy ^ 2 * |val3 p (V k) (t + 1) (i.1 + 1) (i.2 + 1 + 1)|) := by
    have hy := hybrid_val (κ := κ) hd hp.diag_pos.ne' (fun l => |V k l|) (fun l => |V (k + 1) l|) ht hx hv hin (hp.k _ _ _)
    simp only [val3_abs, Nat.add_sub_cancel, ← hr] at hy
    rw [← neg_eq_iff_eq_neg] at hy
    rw [← hy, ← Finset.sum_neg_distrib]
    refine Finset.sum_congr rfl fun l _ => ?_
    rcases lt_trichotomy l r with hl | hl | hl
    · rw [if_pos hl, if_pos hl, abs_of_nonpos (mat_off hg hrim hl.ne), neg_mul]
    · simp [hl]
    · rw [if_neg (not_lt.2 hl.le), if_neg (not_lt.2 hl.le), if_pos hl, if_pos hl, abs_of_nonpos (mat_off hg hrim hl.ne'), neg_mul]
  rw [e1, e2, h.zero _ _ _ ht hx hv (Nat.succ_ne_zero t), abs_zero, add_zero, hr, ← val3_lin (V (k + 1)) ht hx hv, ← val3_lin (V k) ht hx hv] at hb
  have hx' : (i.1 : ℕ) + 1 + 1 < p.xc := by have := i.1.2; rw [hp.xc]; omega
  have hv' : (i.2 : ℕ) + 1 + 1 < p.yc := by have := i.2.2; rw [hp.yc]; omega
  have b1 := h.all_le hp hw1 he (Nat.succ_ne_zero t) ht hX0 hX1 hx hv
  have b2 := h.all_le hp hw1 he (Nat.succ_ne_zero t) ht hX0 hX2 hx hv
  have b4 := h.all_le hp hw1 he (Nat.succ_ne_zero t) ht hX0 hX1 (show (i.1 : ℕ) < p.xc by omega) hv
  have b5 := h.all_le hp hw1 he (Nat.succ_ne_zero t) ht hX0 hX1 hx (show (i.2 : ℕ) < p.yc by omega)
  have b6 := h.all_le hp hw1 he (Nat.succ_ne_zero t) ht hX0 hX2 hx' hv
  have b7 := h.all_le hp hw1 he (Nat.succ_ne_zero t) ht hX0 hX2 hx hv'
  have hD := hp.diag_pos
  have hw0 : 0 < w := by linarith
  have hq : |1 / w - 1| = 1 - 1 / w := by rw [abs_of_nonpos (by rw [sub_nonpos, div_le_one hw0]; exact hw1)]; ring
  have hq0 : 0 ≤ 1 - 1 / w := by rw [← hq]; exact abs_nonneg _
  rw [hq] at hb
  have ha0 : 0 ≤ κ / p.hx ^ 2 := by have := hp.pos; positivity
  have hb0 : 0 ≤ κ / p.hy ^ 2 := by have := hp.pos; positivity
  have ht1 : 0 ≤ 1 / p.ht := by have := hp.ht; positivity
  have hDe : diag3 p κ = 2 * (κ / p.hx ^ 2) + 2 * (κ / p.hy ^ 2) + 1 / p.ht := by
    unfold diag3
    have := hp.hx.ne'; have := hp.hy.ne'
    field_simp
  refine hb.trans ?_
  calc _ ≤ ε * (diag3 p κ / w * X + (1 - 1 / w) * diag3 p κ * X + (1 / p.ht * X + (κ / p.hx ^ 2 * X + κ / p.hy ^ 2 * X) + (κ / p.hx ^ 2 * X + κ / p.hy ^ 2 * X))) := by
        have := hX3 i
        gcongr
    _ = ε * (diag3 p κ * X + (2 * (κ / p.hx ^ 2) + 2 * (κ / p.hy ^ 2) + 1 / p.ht) * X) := by field_simp; ring
    _ = _ := by rw [← hDe]; ring

/-- the sweeps on one time level -/
theorem Pert.level (hp : Plain p m n κ) (h : Pert p w ε c V s) (hw1 : 1 ≤ w) (he : ε < 1) {t : ℕ} (ht : t + 1 < p.tc) (q : ℝ) (k : ℕ) (i : Fin m × Fin n) :
    diag3 p κ / w * (q ^ (k + 1) * val3 p (V (k + 1)) (t + 1) (i.1 + 1) (i.2 + 1)) + diag3 p κ * (1 - 1 / w) * q * (q ^ k * val3 p (V k) (t + 1) (i.1 + 1) (i.2 + 1)) -
      ∑ j, lower (κ / p.hx ^ 2) (κ / p.hy ^ 2) i j * (q ^ (k + 1) * val3 p (V (k + 1)) (t + 1) (j.1 + 1) (j.2 + 1)) -
      q * ∑ j, lower (κ / p.hx ^ 2) (κ / p.hy ^ 2) j i * (q ^ k * val3 p (V k) (t + 1) (j.1 + 1) (j.2 + 1)) =
      1 / p.ht * (q ^ (k + 1) * val3 p (V (k + 1)) t (i.1 + 1) (i.2 + 1)) + q ^ (k + 1) * s k ⟨p.lin (t + 1) (i.1 + 1) (i.2 + 1), lin_lt ht (inner_lt hp i).1 (inner_lt hp i).2⟩ := by
  have ht0 : t + 1 ≠ 0 := Nat.succ_ne_zero t
  have hz : ∀ k x v, x ≤ m + 1 → v ≤ n + 1 → (x = 0 ∨ v = 0 ∨ x = m + 1 ∨ v = n + 1) → val3 p (V k) (t + 1) x v = 0 := by
    intro k x v hx hv hr
    exact h.rim0 hw1 he ht0 ht (by rw [hp.xc]; omega) (by rw [hp.yc]; omega) ((onRim_iff hp ht0 hx hv).2 hr) k
  have s1 := lower_sum (a := κ / p.hx ^ 2) (b := κ / p.hy ^ 2) (m := m) (n := n) (fun x v => q ^ (k + 1) * val3 p (V (k + 1)) (t + 1) x v)
    (fun v hv => by rw [hz _ _ _ (by omega) (by omega) (.inl rfl), mul_zero])
    (fun x hx => by rw [hz _ _ _ (by omega) (by omega) (.inr (.inl rfl)), mul_zero]) i
  have s2 := upper_sum (a := κ / p.hx ^ 2) (b := κ / p.hy ^ 2) (m := m) (n := n) (fun x v => q ^ k * val3 p (V k) (t + 1) x v)
    (fun v hv => by rw [hz _ _ _ (by omega) (by omega) (.inr (.inr (.inl rfl))), mul_zero])
    (fun x hx => by rw [hz _ _ _ (by omega) (by omega) (.inr (.inr (.inr rfl))), mul_zero]) i
  rw [s1, s2]
  obtain ⟨hx, hv⟩ := inner_lt hp i
  have hin : ¬ OnRim p (t + 1) (i.1 + 1) (i.2 + 1) := by
    have := i.1.2; have := i.2.2
    rw [onRim_iff hp ht0 (by omega) (by omega)]
    omega
  have hs := sweep_inner (by linarith : w ≠ 0) hp.diag_pos.ne' (h.sweep k) ht hx hv hin (hp.k _ _ _)
  rw [Pi.add_apply, h.zero _ _ _ ht hx hv ht0, _root_.zero_add] at hs
  simp only [Nat.add_sub_cancel] at hs
  linear_combination q ^ (k + 1) * hs

/-- the weighted sums of squares of two consecutive time levels -/
theorem Pert.step1 (hp : Plain p m n κ) (h : Pert p w ε c V s) (hw1 : 1 ≤ w) (he0 : 0 ≤ ε) (he : ε < 1) {q τ η : ℝ} (hq : 0 < q) (hq1 : q < 1) (hτ : 0 < τ)
    (hη : η = (m * n : ℕ) * (2 * diag3 p κ * ε) ^ 2) (hb : 2 * (1 + q) * (diag3 p κ * (1 - 1 / w)) ≤ pull p m n κ) (hG : 0 < damp p m n κ w q) (K : ℕ) {t : ℕ} (ht : t + 1 < p.tc) :
    damp p m n κ w q ^ 2 * energy (fun k (i : Fin m × Fin n) => q ^ k * val3 p (V k) (t + 1) (i.1 + 1) (i.2 + 1)) K ≤
      (1 + τ) * ((1 / p.ht) ^ 2 * energy (fun k (i : Fin m × Fin n) => q ^ k * val3 p (V k) t (i.1 + 1) (i.2 + 1)) K) +
      (1 + 1 / τ) * (η * (2 * energy (fun k (i : Fin m × Fin n) => q ^ k * val3 p (V k) (t + 1) (i.1 + 1) (i.2 + 1)) K +
        energy (fun k (i : Fin m × Fin n) => q ^ k * val3 p (V k) t (i.1 + 1) (i.2 + 1)) K)) := by
  have hx2 : 0 ≤ κ / p.hx ^ 2 := by have := hp.pos; positivity
  have hy2 : 0 ≤ κ / p.hy ^ 2 := by have := hp.pos; positivity
  set S : ℕ → Fin m × Fin n → ℝ := fun k i => s k ⟨p.lin (t + 1) (i.1 + 1) (i.2 + 1), lin_lt ht (inner_lt hp i).1 (inner_lt hp i).2⟩ with hS
  have hz0 : ∀ i : Fin m × Fin n, val3 p (V 0) (t + 1) (i.1 + 1) (i.2 + 1) = 0 := fun i => by
    obtain ⟨hx, hv⟩ := inner_lt hp i
    rw [h.start, val3_lin _ ht hx hv]; rfl
  have key := level_energy (ι := Fin m × Fin n) (L := lower (κ / p.hx ^ 2) (κ / p.hy ^ 2)) (φ := mode2 m n) (β := pull p m n κ) (lower_nonneg hx2 hy2) mode2_pos
    (mode2_eigen _ _) hq hb (y := fun k i => q ^ k * val3 p (V k) (t + 1) (i.1 + 1) (i.2 + 1))
    (γ := fun k i => 1 / p.ht * (q ^ k * val3 p (V k) t (i.1 + 1) (i.2 + 1)) + q ^ k * S (k - 1) i) (σ := 1)
    (fun i => by simp only [hz0, mul_zero]) (K := K)
    (fun k _ i => by rw [one_mul]; exact h.level hp hw1 he ht q k i) hG
  rw [one_pow, one_mul] at key
  refine key.trans ?_
  set E1 := energy (fun k (i : Fin m × Fin n) => q ^ k * val3 p (V k) (t + 1) (i.1 + 1) (i.2 + 1)) K with hE1
  set E0 := energy (fun k (i : Fin m × Fin n) => q ^ k * val3 p (V k) t (i.1 + 1) (i.2 + 1)) K with hE0
  set e1 : ℕ → ℝ := fun k => ∑ i : Fin m × Fin n, (q ^ k * val3 p (V k) (t + 1) (i.1 + 1) (i.2 + 1)) ^ 2 with he1
  set e0 : ℕ → ℝ := fun k => ∑ i : Fin m × Fin n, (q ^ k * val3 p (V k) t (i.1 + 1) (i.2 + 1)) ^ 2 with he0'
  have hE1' : E1 = ∑ k ∈ Finset.range K, e1 (k + 1) := rfl
  have hE0' : E0 = ∑ k ∈ Finset.range K, e0 (k + 1) := rfl
  have hshift : ∑ k ∈ Finset.range K, e1 k ≤ E1 := by
    have h1 := sum_shift e1 K
    have h2 : e1 0 = 0 := Finset.sum_eq_zero fun i _ => by rw [hz0]; simp
    have h3 : 0 ≤ e1 K := Finset.sum_nonneg fun _ _ => sq_nonneg _
    linarith
  have hper : ∀ k, ∑ i : Fin m × Fin n, (q ^ (k + 1) * S k i) ^ 2 ≤ η * (e1 (k + 1) + e1 k + e0 (k + 1)) := by
    intro k
    set a1 := ∑ i : Fin m × Fin n, val3 p (V (k + 1)) (t + 1) (i.1 + 1) (i.2 + 1) ^ 2 with ha1
    set a2 := ∑ i : Fin m × Fin n, val3 p (V k) (t + 1) (i.1 + 1) (i.2 + 1) ^ 2 with ha2
    set a3 := ∑ i : Fin m × Fin n, val3 p (V (k + 1)) t (i.1 + 1) (i.2 + 1) ^ 2 with ha3
    have p1 : 0 ≤ a1 := Finset.sum_nonneg fun _ _ => sq_nonneg _
    have p2 : 0 ≤ a2 := Finset.sum_nonneg fun _ _ => sq_nonneg _
    have p3 : 0 ≤ a3 := Finset.sum_nonneg fun _ _ => sq_nonneg _
    have hX : ∀ {a x : ℝ}, x ^ 2 ≤ a → a ≤ a1 + a2 + a3 → |x| ≤ Real.sqrt (a1 + a2 + a3) := fun h1 h2 => Real.abs_le_sqrt (h1.trans h2)
    have hrow := fun i => h.row_le hp hw1 he0 he ht (Real.sqrt_nonneg (a1 + a2 + a3)) (k := k)
      (fun i => hX (Finset.single_le_sum (f := fun i : Fin m × Fin n => val3 p (V (k + 1)) (t + 1) (i.1 + 1) (i.2 + 1) ^ 2) (fun _ _ => sq_nonneg _) (Finset.mem_univ i)) (by linarith))
      (fun i => hX (Finset.single_le_sum (f := fun i : Fin m × Fin n => val3 p (V k) (t + 1) (i.1 + 1) (i.2 + 1) ^ 2) (fun _ _ => sq_nonneg _) (Finset.mem_univ i)) (by linarith))
      (fun i => hX (Finset.single_le_sum (f := fun i : Fin m × Fin n => val3 p (V (k + 1)) t (i.1 + 1) (i.2 + 1) ^ 2) (fun _ _ => sq_nonneg _) (Finset.mem_univ i)) (by linarith)) i
    have hsq : ∀ i, (q ^ (k + 1) * S k i) ^ 2 ≤ (2 * diag3 p κ * ε) ^ 2 * ((q ^ (k + 1)) ^ 2 * (a1 + a2 + a3)) := by
      intro i
      have h1 : S k i ^ 2 ≤ (2 * diag3 p κ * ε) ^ 2 * (a1 + a2 + a3) := by
        calc S k i ^ 2 = |S k i| ^ 2 := (sq_abs _).symm
          _ ≤ (2 * diag3 p κ * ε * Real.sqrt (a1 + a2 + a3)) ^ 2 := pow_le_pow_left₀ (abs_nonneg _) (hrow i) 2
          _ = _ := by rw [mul_pow, Real.sq_sqrt (by linarith)]
      calc (q ^ (k + 1) * S k i) ^ 2 = (q ^ (k + 1)) ^ 2 * S k i ^ 2 := by ring
        _ ≤ (q ^ (k + 1)) ^ 2 * ((2 * diag3 p κ * ε) ^ 2 * (a1 + a2 + a3)) := mul_le_mul_of_nonneg_left h1 (sq_nonneg _)
        _ = _ := by ring
    have b1 : (q ^ (k + 1)) ^ 2 * a1 = e1 (k + 1) := by
      rw [ha1, Finset.mul_sum]; exact Finset.sum_congr rfl fun i _ => by ring
    have b3 : (q ^ (k + 1)) ^ 2 * a3 = e0 (k + 1) := by
      rw [ha3, Finset.mul_sum]; exact Finset.sum_congr rfl fun i _ => by ring
    have b2 : (q ^ (k + 1)) ^ 2 * a2 ≤ e1 k := by
      have : e1 k = (q ^ k) ^ 2 * a2 := by rw [ha2, Finset.mul_sum]; exact Finset.sum_congr rfl fun i _ => by ring
      rw [this]
      have h1 : q ^ (k + 1) ≤ q ^ k := pow_le_pow_of_le_one hq.le hq1.le (by omega)
      have h2 : 0 ≤ q ^ (k + 1) := by positivity
      exact mul_le_mul_of_nonneg_right (pow_le_pow_left₀ h2 h1 2) p2
    have hη0 : 0 ≤ η := by rw [hη]; positivity
    calc _ ≤ ∑ _i : Fin m × Fin n, (2 * diag3 p κ * ε) ^ 2 * ((q ^ (k + 1)) ^ 2 * (a1 + a2 + a3)) := Finset.sum_le_sum fun i _ => hsq i
      _ = η * ((q ^ (k + 1)) ^ 2 * (a1 + a2 + a3)) := by
          rw [Finset.sum_const, Finset.card_univ, Fintype.card_prod, Fintype.card_fin, Fintype.card_fin, nsmul_eq_mul, hη]; ring
      _ ≤ _ := mul_le_mul_of_nonneg_left (by linarith [mul_add ((q ^ (k + 1)) ^ 2) (a1 + a2) a3, mul_add ((q ^ (k + 1)) ^ 2) a1 a2]) hη0
  have hη0 : 0 ≤ η := by rw [hη]; positivity
  have hsum : ∑ k ∈ Finset.range K, ∑ i : Fin m × Fin n, (q ^ (k + 1) * S k i) ^ 2 ≤ η * (2 * E1 + E0) := by
    refine (Finset.sum_le_sum fun k _ => hper k).trans ?_
    rw [← Finset.mul_sum, Finset.sum_add_distrib, Finset.sum_add_distrib, ← hE1', ← hE0']
    exact mul_le_mul_of_nonneg_left (by linarith) hη0
  have hsplit : ∀ a b : ℝ, (a + b) ^ 2 ≤ (1 + τ) * a ^ 2 + (1 + 1 / τ) * b ^ 2 := by
    intro a b
    have h1 : (1 + τ) * a ^ 2 + (1 + 1 / τ) * b ^ 2 - (a + b) ^ 2 = (τ * a - b) ^ 2 / τ := by field_simp; ring
    have h2 : 0 ≤ (τ * a - b) ^ 2 / τ := by positivity
    linarith
  calc energy (fun k (i : Fin m × Fin n) => 1 / p.ht * (q ^ k * val3 p (V k) t (i.1 + 1) (i.2 + 1)) + q ^ k * S (k - 1) i) K
      ≤ ∑ k ∈ Finset.range K, ∑ i : Fin m × Fin n, ((1 + τ) * (1 / p.ht * (q ^ (k + 1) * val3 p (V (k + 1)) t (i.1 + 1) (i.2 + 1))) ^ 2 + (1 + 1 / τ) * (q ^ (k + 1) * S k i) ^ 2) :=
        Finset.sum_le_sum fun k _ => Finset.sum_le_sum fun i _ => hsplit _ _
    _ = (1 + τ) * ((1 / p.ht) ^ 2 * E0) + (1 + 1 / τ) * ∑ k ∈ Finset.range K, ∑ i : Fin m × Fin n, (q ^ (k + 1) * S k i) ^ 2 := by
        rw [hE0']
        simp only [he0', Finset.mul_sum, Finset.sum_add_distrib, mul_pow]
    _ ≤ _ := by
        have h1 : 0 ≤ 1 + 1 / τ := by positivity
        have := mul_le_mul_of_nonneg_left hsum h1
        linarith

/-- all time levels -/
theorem Pert.steps (hp : Plain p m n κ) (h : Pert p w ε c V s) (hw1 : 1 ≤ w) (he0 : 0 ≤ ε) (he : ε < 1) {q τ δ g : ℝ} (hq : 0 < q) (hq1 : q < 1) (hτ : 0 < τ)
    (hδ : δ = (1 + 1 / τ) * ((m * n : ℕ) * (2 * diag3 p κ * ε) ^ 2)) (hb : 2 * (1 + q) * (diag3 p κ * (1 - 1 / w)) ≤ pull p m n κ) (hG : 0 < damp p m n κ w q)
    (hδ2 : 2 * δ < damp p m n κ w q ^ 2) (hg : g ^ 2 * ((1 + τ) * (1 / p.ht) ^ 2 + δ) ≤ (1 / p.ht) ^ 2 * (damp p m n κ w q ^ 2 - 2 * δ)) (K : ℕ) {t : ℕ} (ht : t < p.tc) :
    g ^ (2 * t) * energy (fun k (i : Fin m × Fin n) => q ^ k * val3 p (V k) t (i.1 + 1) (i.2 + 1)) K ≤
      (1 / p.ht) ^ (2 * t) * energy (fun k (i : Fin m × Fin n) => q ^ k * val3 p (V k) 0 (i.1 + 1) (i.2 + 1)) K := by
  induction t with
  | zero => simp
  | succ t ih =>
    have h1 := h.step1 hp hw1 he0 he hq hq1 hτ rfl hb hG K ht
    have ih := ih (by omega)
    set E1 := energy (fun k (i : Fin m × Fin n) => q ^ k * val3 p (V k) (t + 1) (i.1 + 1) (i.2 + 1)) K
    set E := energy (fun k (i : Fin m × Fin n) => q ^ k * val3 p (V k) t (i.1 + 1) (i.2 + 1)) K with hE
    set E0 := energy (fun k (i : Fin m × Fin n) => q ^ k * val3 p (V k) 0 (i.1 + 1) (i.2 + 1)) K
    have hE0 : 0 ≤ E := Finset.sum_nonneg fun _ _ => Finset.sum_nonneg fun _ _ => sq_nonneg _
    set G := damp p m n κ w q
    have h2 : (G ^ 2 - 2 * δ) * E1 ≤ ((1 + τ) * (1 / p.ht) ^ 2 + δ) * E := by rw [hδ]; linarith
    have h3 : g ^ 2 * E1 ≤ (1 / p.ht) ^ 2 * E := by
      have a1 := mul_le_mul_of_nonneg_left h2 (sq_nonneg g)
      have a2 := mul_le_mul_of_nonneg_right hg hE0
      have a3 : (G ^ 2 - 2 * δ) * (g ^ 2 * E1) ≤ (G ^ 2 - 2 * δ) * ((1 / p.ht) ^ 2 * E) := by linarith
      exact le_of_mul_le_mul_left a3 (by linarith)
    have hgp : 0 ≤ g ^ (2 * t) := by rw [pow_mul]; positivity
    calc g ^ (2 * (t + 1)) * E1 = g ^ (2 * t) * (g ^ 2 * E1) := by ring
      _ ≤ g ^ (2 * t) * ((1 / p.ht) ^ 2 * E) := mul_le_mul_of_nonneg_left h3 hgp
      _ = (1 / p.ht) ^ 2 * (g ^ (2 * t) * E) := by ring
      _ ≤ (1 / p.ht) ^ 2 * ((1 / p.ht) ^ (2 * t) * E0) := mul_le_mul_of_nonneg_left ih (by positivity)
      _ = _ := by ring

/-- the heat that the sweeps can carry to a time level -/
theorem Pert.heat_le (hp : Plain p m n κ) (h : Pert p w ε c V s) (hw1 : 1 ≤ w) (he0 : 0 ≤ ε) (he : ε < 1) {q τ δ g W : ℝ} (hq : 0 < q) (hq1 : q < 1) (hτ : 0 < τ)
    (hδ : δ = (1 + 1 / τ) * ((m * n : ℕ) * (2 * diag3 p κ * ε) ^ 2)) (hb : 2 * (1 + q) * (diag3 p κ * (1 - 1 / w)) ≤ pull p m n κ) (hG : 0 < damp p m n κ w q)
    (hδ2 : 2 * δ < damp p m n κ w q ^ 2) (hg : g ^ 2 * ((1 + τ) * (1 / p.ht) ^ 2 + δ) ≤ (1 / p.ht) ^ 2 * (damp p m n κ w q ^ 2 - 2 * δ))
    (hW0 : 0 ≤ W) (hW : (1 + ε) * ((w - 1) * W + w) ≤ (1 - ε) * W) {C2 : ℝ} (hC : ∑ i : Fin m × Fin n, c ⟨p.lin 0 (i.1 + 1) (i.2 + 1), lin_lt hp.tc (inner_lt hp i).1 (inner_lt hp i).2⟩ ^ 2 ≤ C2)
    {k maxIter : ℕ} (hk : k ≤ maxIter) {t : ℕ} (ht0 : t ≠ 0) (ht : t < p.tc) :
    q ^ (2 * maxIter) * (g * p.ht) ^ (2 * t) * heat2 p (V k) t ≤ q ^ 2 / (1 - q ^ 2) * (W ^ 2 * C2) := by
  have hq2 : q ^ 2 < 1 := by nlinarith
  have hz : ∀ k x v, x ≤ m + 1 → v ≤ n + 1 → (x = 0 ∨ v = 0 ∨ x = m + 1 ∨ v = n + 1) → val3 p (V k) t x v = 0 := by
    intro k x v hx hv hr
    exact h.rim0 hw1 he ht0 ht (by rw [hp.xc]; omega) (by rw [hp.yc]; omega) ((onRim_iff hp ht0 hx hv).2 hr) k
  rw [heat_inner hp (hz k)]
  have hs := h.steps hp hw1 he0 he hq hq1 hτ hδ hb hG hδ2 hg k ht
  have hst : energy (fun k (i : Fin m × Fin n) => q ^ k * val3 p (V k) 0 (i.1 + 1) (i.2 + 1)) k ≤ q ^ 2 / (1 - q ^ 2) * (W ^ 2 * C2) := by
    have h1 : energy (fun k (i : Fin m × Fin n) => q ^ k * val3 p (V k) 0 (i.1 + 1) (i.2 + 1)) k ≤ ∑ k ∈ Finset.range k, (q ^ 2) ^ (k + 1) * (W ^ 2 * C2) := by
      unfold energy
      refine Finset.sum_le_sum fun k _ => ?_
      refine le_trans ?_ (mul_le_mul_of_nonneg_left (mul_le_mul_of_nonneg_left hC (sq_nonneg W)) (by positivity))
      rw [Finset.mul_sum, Finset.mul_sum]
      refine Finset.sum_le_sum fun i _ => ?_
      obtain ⟨hx, hv⟩ := inner_lt hp i
      beta_reduce
      have h2 := h.rim_start hw1 he0 he hW0 hW hp.tc hx hv (k + 1)
      have h3 := pow_le_pow_left₀ (abs_nonneg _) h2 2
      rw [sq_abs, mul_pow, sq_abs] at h3
      rw [mul_pow, ← pow_mul, ← pow_mul, mul_comm 2]
      exact mul_le_mul_of_nonneg_left h3 (by positivity)
    rw [← Finset.sum_mul] at h1
    have hC0 : 0 ≤ C2 := le_trans (Finset.sum_nonneg fun _ _ => sq_nonneg _) hC
    exact h1.trans (mul_le_mul_of_nonneg_right (geom_le (sq_nonneg q) hq2 k) (by positivity))
  have hlast : q ^ (2 * k) * ∑ i : Fin m × Fin n, val3 p (V k) t (i.1 + 1) (i.2 + 1) ^ 2 ≤
      energy (fun k (i : Fin m × Fin n) => q ^ k * val3 p (V k) t (i.1 + 1) (i.2 + 1)) k := by
    rcases Nat.eq_zero_or_pos k with rfl | hk
    · have : ∀ i : Fin m × Fin n, val3 p (V 0) t (i.1 + 1) (i.2 + 1) = 0 := by
        intro i
        obtain ⟨hx, hv⟩ := inner_lt hp i
        rw [h.start, val3_lin _ ht hx hv]; rfl
      simp [this, energy]
    · obtain ⟨k', rfl⟩ : ∃ k', k = k' + 1 := ⟨k - 1, by omega⟩
      unfold energy
      have := Finset.single_le_sum (f := fun j => ∑ i : Fin m × Fin n, (q ^ (j + 1) * val3 p (V (j + 1)) t (i.1 + 1) (i.2 + 1)) ^ 2)
        (fun j _ => Finset.sum_nonneg fun i _ => sq_nonneg _) (Finset.self_mem_range_succ k')
      refine le_trans (le_of_eq ?_) this
      rw [Finset.mul_sum]
      exact Finset.sum_congr rfl fun i _ => by ring
  set S := ∑ i : Fin m × Fin n, val3 p (V k) t (i.1 + 1) (i.2 + 1) ^ 2 with hSd
  have hS0 : 0 ≤ S := Finset.sum_nonneg fun _ _ => sq_nonneg _
  have hqp : q ^ (2 * maxIter) ≤ q ^ (2 * k) := pow_le_pow_of_le_one hq.le hq1.le (by omega)
  have hht := hp.ht
  have hht' : (1 / p.ht) ^ (2 * t) * p.ht ^ (2 * t) = 1 := by rw [← mul_pow, one_div_mul_cancel hht.ne', one_pow]
  have hgp : 0 ≤ g ^ (2 * t) := by rw [pow_mul]; positivity
  have hgh : 0 ≤ (g * p.ht) ^ (2 * t) := by rw [mul_pow]; positivity
  calc q ^ (2 * maxIter) * (g * p.ht) ^ (2 * t) * S ≤ q ^ (2 * k) * (g * p.ht) ^ (2 * t) * S := by gcongr
    _ = p.ht ^ (2 * t) * (g ^ (2 * t) * (q ^ (2 * k) * S)) := by rw [mul_pow]; ring
    _ ≤ p.ht ^ (2 * t) * (g ^ (2 * t) * energy (fun k (i : Fin m × Fin n) => q ^ k * val3 p (V k) t (i.1 + 1) (i.2 + 1)) k) := by gcongr
    _ ≤ p.ht ^ (2 * t) * ((1 / p.ht) ^ (2 * t) * (q ^ 2 / (1 - q ^ 2) * (W ^ 2 * C2))) :=
        mul_le_mul_of_nonneg_left (hs.trans (mul_le_mul_of_nonneg_left hst (by positivity))) (by positivity)
    _ = (1 / p.ht) ^ (2 * t) * p.ht ^ (2 * t) * (q ^ 2 / (1 - q ^ 2) * (W ^ 2 * C2)) := by ring
    _ = _ := by rw [hht', one_mul]
end pert
end NS.Props.Heat

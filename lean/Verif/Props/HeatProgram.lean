/-
Property C115 (the program): `/repo/examples/heat/main.cpp` with its own constants; the call of `sor` gives up after 1024 sweeps.
-/
import Verif.Props.HeatSlow

set_option linter.unusedSectionVars false
set_option linter.unusedSimpArgs false

namespace NS.Props.Heat
open NS NS.Heat NS.Grid NS.MatOps NS.LawfulMat NS.Props.Iter NS.Iterative Matrix Real NS.HeatEnergy
open NS.Props.LU (IsMat IsVec isVec_iff)

/-- the constants and functions of the program, `heat/main.cpp:28-46` -/
noncomputable def shippedHeat : Problem ℝ where
  tc := 101
  xc := 101
  yc := 101
  ht := 1 / 100
  hx := 1 / 100
  hy := 1 / 100
  k := fun _ _ _ => 6 / 10
  f := fun _ _ _ => 0
  b := fun _ _ _ => 0
  t0 := fun x y => 2 * (exp (10 * x * (1 - x) * y * (1 - y)) - 1)

theorem shipped_plain : Plain shippedHeat 99 99 (6 / 10) where
  xc := rfl
  yc := rfl
  tc := by decide
  ht := by norm_num [shippedHeat]
  hx := by norm_num [shippedHeat]
  hy := by norm_num [shippedHeat]
  pos := by norm_num
  k := fun _ _ _ => rfl
  f := fun _ _ _ => rfl
  b := fun _ _ _ => rfl

theorem shipped_diag : diag3 shippedHeat (6 / 10) = 24100 := by unfold diag3 shippedHeat; norm_num

theorem shipped_pull : pull shippedHeat 99 99 (6 / 10) = 24000 * cos (π / 100) := by
  unfold pull shippedHeat
  norm_num
  ring

theorem cos_bounds : 1 - 4.93485 / 10 ^ 4 ≤ cos (π / 100) ∧ cos (π / 100) ≤ 1 := by
  refine ⟨?_, cos_le_one _⟩
  have h := one_sub_sq_div_two_le_cos (x := π / 100)
  have hpi : π ^ 2 ≤ 9.8697 := by nlinarith [pi_lt_d6, pi_gt_three]
  have e : (π / 100) ^ 2 / 2 = π ^ 2 / 20000 := by ring
  rw [e] at h
  linarith

/-! ### The initial temperatures -/

theorem sin_parabola {x : ℝ} (h0 : 0 ≤ x) (h1 : x ≤ 1) : 3 * (x * (1 - x)) ≤ sin (π * x) ∧ sin (π * x) ≤ 4.61 * (x * (1 - x)) := by
  have key : ∀ x : ℝ, 0 ≤ x → x ≤ 1 / 2 → 3 * (x * (1 - x)) ≤ sin (π * x) ∧ sin (π * x) ≤ 4.61 * (x * (1 - x)) := by
    intro x h0 h1
    have p1 := pi_gt_d6
    have p2 := pi_lt_d6
    have hp : 0 ≤ π * x := by positivity
    constructor
    · have h := sin_ge_sub_cube hp
      have e : (π * x) ^ 3 = π ^ 3 * x ^ 3 := by ring
      rw [e] at h
      have h3 : π ^ 3 ≤ 31.1 := by
        have : π ^ 2 ≤ 9.87 := by nlinarith
        calc π ^ 3 = π ^ 2 * π := by ring
          _ ≤ 9.87 * 3.15 := by gcongr; linarith
          _ ≤ _ := by norm_num
      have h4 : π ^ 3 * x ^ 3 ≤ 31.1 * x ^ 3 := mul_le_mul_of_nonneg_right h3 (by positivity)
      have h5 : 3.14 * x ≤ π * x := mul_le_mul_of_nonneg_right (by linarith) h0
      have h6 : 0 ≤ x * ((1 / 2 - x) * x) := mul_nonneg h0 (mul_nonneg (by linarith) h0)
      have h7 : 0 ≤ x * x := mul_nonneg h0 h0
      nlinarith [h6, h7, h0]
    · rcases le_total x (1 / π) with h | h
      · have h3 : sin (π * x) ≤ π * x := sin_le hp
        have h4 : x ≤ 0.31832 := by
          refine h.trans ?_
          rw [div_le_iff₀ pi_pos]; linarith
        nlinarith
      · have h3 := sin_le_one (π * x)
        have h4 : 0.3183 ≤ x := by
          refine le_trans ?_ h
          rw [le_div_iff₀ pi_pos]; linarith
        nlinarith
  rcases le_total x (1 / 2) with h | h
  · exact key x h0 h
  · have := key (1 - x) (by linarith) (by linarith)
    rw [show π * (1 - x) = π - π * x by ring, sin_pi_sub] at this
    constructor <;> linarith [this.1, this.2, show (1 - x) * (1 - (1 - x)) = x * (1 - x) by ring]

theorem start_near {x y : ℝ} (hx0 : 0 ≤ x) (hx1 : x ≤ 1) (hy0 : 0 ≤ y) (hy1 : y ≤ 1) :
    0 ≤ shippedHeat.t0 x y ∧ shippedHeat.t0 x y ≤ 32.5 / 9 * (sin (π * x) * sin (π * y)) ∧ sin (π * x) * sin (π * y) ≤ 1.06261 * shippedHeat.t0 x y := by
  obtain ⟨a1, a2⟩ := sin_parabola hx0 hx1
  obtain ⟨b1, b2⟩ := sin_parabola hy0 hy1
  have hX : 0 ≤ x * (1 - x) := mul_nonneg hx0 (by linarith)
  have hY : 0 ≤ y * (1 - y) := mul_nonneg hy0 (by linarith)
  have hX4 : x * (1 - x) ≤ 1 / 4 := by nlinarith [sq_nonneg (x - 1 / 2)]
  have hY4 : y * (1 - y) ≤ 1 / 4 := by nlinarith [sq_nonneg (y - 1 / 2)]
  have hXY : 0 ≤ x * (1 - x) * (y * (1 - y)) := mul_nonneg hX hY
  have hXY4 : x * (1 - x) * (y * (1 - y)) ≤ 1 / 16 := by nlinarith
  have e : 10 * x * (1 - x) * y * (1 - y) = 10 * (x * (1 - x) * (y * (1 - y))) := by ring
  have et : shippedHeat.t0 x y = 2 * (exp (10 * (x * (1 - x) * (y * (1 - y)))) - 1) := by rw [← e]; rfl
  set P := x * (1 - x) * (y * (1 - y)) with hP
  have l1 := add_one_le_exp (10 * P)
  have l2 : exp (10 * P) ≤ 1 + 10 * P + (10 * P) ^ 2 := by
    have := abs_le.1 (Real.abs_exp_sub_one_sub_id_le (x := 10 * P) (by rw [abs_of_nonneg (by linarith)]; linarith))
    linarith [this.2]
  have s1 : 9 * P ≤ sin (π * x) * sin (π * y) := by
    calc 9 * P = 3 * (x * (1 - x)) * (3 * (y * (1 - y))) := by rw [hP]; ring
      _ ≤ _ := mul_le_mul a1 b1 (by linarith) (by linarith)
  have s2 : sin (π * x) * sin (π * y) ≤ 21.2521 * P := by
    calc _ ≤ 4.61 * (x * (1 - x)) * (4.61 * (y * (1 - y))) := mul_le_mul a2 b2 (by linarith) (by linarith)
      _ = _ := by rw [hP]; norm_num; ring
  rw [et]
  refine ⟨by linarith, ?_, by linarith⟩
  have : (10 * P) ^ 2 ≤ 6.25 * P := by nlinarith
  linarith

/-- the value of the mode at an inner point -/
theorem mode_eq (i : Fin 99 × Fin 99) : mode2 99 99 i = sin (π * ((i.1 + 1 : ℕ) * shippedHeat.hx)) * sin (π * ((i.2 + 1 : ℕ) * shippedHeat.hy)) := by
  unfold mode2 shippedHeat
  simp only
  rw [show π * ((i.1 : ℕ) + 1 : ℕ) / ((99 : ℕ) + 1 : ℕ) = π * (((i.1 : ℕ) + 1 : ℕ) * (1 / 100)) by push_cast; norm_num; ring,
    show π * ((i.2 : ℕ) + 1 : ℕ) / ((99 : ℕ) + 1 : ℕ) = π * (((i.2 : ℕ) + 1 : ℕ) * (1 / 100)) by push_cast; norm_num; ring]

theorem start_inner_near (i : Fin 99 × Fin 99) :
    0 ≤ shippedHeat.t0 ((i.1 + 1 : ℕ) * shippedHeat.hx) ((i.2 + 1 : ℕ) * shippedHeat.hy) ∧
    shippedHeat.t0 ((i.1 + 1 : ℕ) * shippedHeat.hx) ((i.2 + 1 : ℕ) * shippedHeat.hy) ≤ 32.5 / 9 * mode2 99 99 i ∧
    mode2 99 99 i ≤ 1.06261 * shippedHeat.t0 ((i.1 + 1 : ℕ) * shippedHeat.hx) ((i.2 + 1 : ℕ) * shippedHeat.hy) := by
  rw [mode_eq]
  have key : ∀ j : Fin 99, (0 : ℝ) ≤ (j + 1 : ℕ) * (1 / 100) ∧ ((j + 1 : ℕ) : ℝ) * (1 / 100) ≤ 1 := by
    intro j
    have : ((j + 1 : ℕ) : ℝ) ≤ 100 := by exact_mod_cast (by omega : (j : ℕ) + 1 ≤ 100)
    exact ⟨by positivity, by linarith⟩
  exact start_near (key _).1 (key _).2 (key _).1 (key _).2

theorem start_sum : start2 shippedHeat = ∑ i : Fin 99 × Fin 99, shippedHeat.t0 ((i.1 + 1 : ℕ) * shippedHeat.hx) ((i.2 + 1 : ℕ) * shippedHeat.hy) ^ 2 := by
  unfold start2
  refine grid_sum (m := 99) (n := 99) (fun x y => shippedHeat.t0 (x * shippedHeat.hx) (y * shippedHeat.hy) ^ 2) ?_ ?_ ?_ ?_ <;>
    · intro v _
      simp [shippedHeat]

theorem mode_sq_sum : ∑ i : Fin 99 × Fin 99, mode2 99 99 i ^ 2 = 2500 := by
  have h1 : ∑ x : Fin 99, sin (π * (x + 1 : ℕ) / (99 + 1 : ℕ)) ^ 2 = 50 := by
    have h := NS.Props.Fdm.sin_sq_sum (N := 100) (by norm_num)
    rw [Finset.sum_range_succ', Finset.sum_range] at h
    simp only [Nat.cast_zero, mul_zero, zero_div, sin_zero] at h
    norm_num at h ⊢
    exact h
  unfold mode2
  rw [Fintype.sum_prod_type]
  simp only [mul_pow, ← Finset.mul_sum, h1, ← Finset.sum_mul]
  norm_num

/-- the solution of the scheme at time level `t` -/
theorem scheme_lower {z : Fin shippedHeat.d → ℝ} (hz : Solves shippedHeat z) {t : ℕ} (ht0 : t ≠ 0) (ht : t < 101) :
    start2 shippedHeat ≤ 32.5 / 9 * 1.06261 * ((241 - 240 * cos (π / 100)) ^ (2 * t) * heat2 shippedHeat z t) ∧
    2500 ≤ 1.06261 ^ 2 * ((241 - 240 * cos (π / 100)) ^ (2 * t) * heat2 shippedHeat z t) := by
  have hm := scheme_mode shipped_plain hz (t := t) ht
  rw [shipped_diag, shipped_pull, show (24100 - 24000 * cos (π / 100)) * shippedHeat.ht = 241 - 240 * cos (π / 100) by unfold shippedHeat; ring] at hm
  rw [heat_inner shipped_plain (fun x v hx hv hr => solves_rim shipped_plain hz ht0 ht hx hv hr), start_sum]
  set E := 241 - 240 * cos (π / 100)
  set A := ∑ i : Fin 99 × Fin 99, mode2 99 99 i * shippedHeat.t0 ((i.1 + 1 : ℕ) * shippedHeat.hx) ((i.2 + 1 : ℕ) * shippedHeat.hy) with hA
  set Z := ∑ i : Fin 99 × Fin 99, val3 shippedHeat z t (i.1 + 1) (i.2 + 1) ^ 2
  have hcs : A ^ 2 ≤ 2500 * (E ^ (2 * t) * Z) := by
    have h := Finset.sum_mul_sq_le_sq_mul_sq Finset.univ (fun i : Fin 99 × Fin 99 => mode2 99 99 i) (fun i => val3 shippedHeat z t (i.1 + 1) (i.2 + 1))
    rw [mode_sq_sum] at h
    calc A ^ 2 = E ^ (2 * t) * (∑ i : Fin 99 × Fin 99, mode2 99 99 i * val3 shippedHeat z t (i.1 + 1) (i.2 + 1)) ^ 2 := by rw [← hm]; ring
      _ ≤ E ^ (2 * t) * (2500 * Z) := mul_le_mul_of_nonneg_left h (Even.pow_nonneg (even_two_mul t) E)
      _ = _ := by ring
  have s1 : ∑ i : Fin 99 × Fin 99, shippedHeat.t0 ((i.1 + 1 : ℕ) * shippedHeat.hx) ((i.2 + 1 : ℕ) * shippedHeat.hy) ^ 2 ≤ 32.5 / 9 * A := by
    rw [hA, Finset.mul_sum]
    refine Finset.sum_le_sum fun i _ => ?_
    obtain ⟨h0, h1, -⟩ := start_inner_near i
    nlinarith
  have s2 : 2500 ≤ 1.06261 * A := by
    rw [← mode_sq_sum, hA, Finset.mul_sum]
    refine Finset.sum_le_sum fun i _ => ?_
    obtain ⟨-, -, h2⟩ := start_inner_near i
    have := mode2_pos i
    nlinarith
  have hA0 : 0 < A := by linarith
  have s3 : A ≤ 1.06261 * (E ^ (2 * t) * Z) := by
    have h1 : A ^ 2 ≤ 1.06261 * A * (E ^ (2 * t) * Z) := by
      refine hcs.trans (mul_le_mul_of_nonneg_right s2 ?_)
      exact mul_nonneg (Even.pow_nonneg (even_two_mul t) E) (Finset.sum_nonneg fun _ _ => sq_nonneg _)
    have h2 : A * A ≤ A * (1.06261 * (E ^ (2 * t) * Z)) := by linarith [sq A]
    exact le_of_mul_le_mul_left h2 hA0
  constructor
  · linarith
  · linarith

/-- one choice of `q` -/
theorem program_ratio {q r c : ℝ} (hq : 0 < q) (hq1 : q < 1) (hr : 1 ≤ r) {t1 : ℕ} (ht1 : 0 < t1) (hr2 : (r - 1) * 1.118437 ≤ (1 - q) * 79.7741) (hc : 0 ≤ c)
    (hnum : 36 / 25 * q ^ 2 / (1 - q ^ 2) * (32.5 / 9 * 1.06261) ≤ c * (q ^ 2048 * r ^ (2 * t1)))
    {u z : Fin shippedHeat.d → ℝ} (hz : Solves shippedHeat z)
    (hu : ∀ t, 0 < t → t < 101 → q ^ 2048 * (damp shippedHeat 99 99 (6 / 10) (6 / 5) q * shippedHeat.ht) ^ (2 * t) * heat2 shippedHeat u t ≤
      (6 / 5) ^ 2 * q ^ 2 / (1 - q ^ 2) * start2 shippedHeat) {t : ℕ} (ht : t1 ≤ t) (ht2 : t < 101) :
    heat2 shippedHeat u t ≤ c * heat2 shippedHeat z t := by
  obtain ⟨c1, c2⟩ := cos_bounds
  have hE0 : 1 ≤ 241 - 240 * cos (π / 100) := by linarith
  have hE1 : 241 - 240 * cos (π / 100) ≤ 1.118437 := by linarith
  have hG : damp shippedHeat 99 99 (6 / 10) (6 / 5) q * shippedHeat.ht = 241 - 240 * cos (π / 100) + (1 - q) * (120 * cos (π / 100) - 241 / 6) := by
    unfold damp
    rw [shipped_diag, shipped_pull]
    unfold shippedHeat
    ring
  have hu := hu t (by omega) ht2
  obtain ⟨hl, -⟩ := scheme_lower hz (by omega) ht2
  rw [hG] at hu
  set E := 241 - 240 * cos (π / 100) with hE
  have hGr : r * E ≤ E + (1 - q) * (120 * cos (π / 100) - 241 / 6) := by
    have h1 : (r - 1) * E ≤ (r - 1) * 1.118437 := mul_le_mul_of_nonneg_left hE1 (by linarith)
    have h2 : (1 - q) * 79.7741 ≤ (1 - q) * (120 * cos (π / 100) - 241 / 6) := mul_le_mul_of_nonneg_left (by linarith) (by linarith)
    linarith
  set U := heat2 shippedHeat u t
  set Z := heat2 shippedHeat z t
  have hU0 : 0 ≤ U := Finset.sum_nonneg fun _ _ => Finset.sum_nonneg fun _ _ => sq_nonneg _
  have hZ0 : 0 ≤ Z := Finset.sum_nonneg fun _ _ => Finset.sum_nonneg fun _ _ => sq_nonneg _
  have hC : 0 ≤ 36 / 25 * q ^ 2 / (1 - q ^ 2) := div_nonneg (by positivity) (by nlinarith)
  have h1 : q ^ 2048 * (r * E) ^ (2 * t) * U ≤ 36 / 25 * q ^ 2 / (1 - q ^ 2) * (32.5 / 9 * 1.06261 * (E ^ (2 * t) * Z)) := by
    calc q ^ 2048 * (r * E) ^ (2 * t) * U ≤ q ^ 2048 * (E + (1 - q) * (120 * cos (π / 100) - 241 / 6)) ^ (2 * t) * U := by gcongr
      _ ≤ _ := hu
      _ = 36 / 25 * q ^ 2 / (1 - q ^ 2) * start2 shippedHeat := by norm_num
      _ ≤ _ := mul_le_mul_of_nonneg_left hl hC
  have hEp : 0 < E ^ (2 * t) := by positivity
  have hqp : 0 < q ^ 2048 * r ^ (2 * t) := by positivity
  have h2 : q ^ 2048 * r ^ (2 * t) * U ≤ 36 / 25 * q ^ 2 / (1 - q ^ 2) * (32.5 / 9 * 1.06261) * Z := by
    have : E ^ (2 * t) * (q ^ 2048 * r ^ (2 * t) * U) ≤ E ^ (2 * t) * (36 / 25 * q ^ 2 / (1 - q ^ 2) * (32.5 / 9 * 1.06261) * Z) := by
      calc _ = q ^ 2048 * (r * E) ^ (2 * t) * U := by rw [mul_pow]; ring
        _ ≤ _ := h1
        _ = _ := by ring
    exact le_of_mul_le_mul_left this hEp
  have h3 : r ^ (2 * t1) ≤ r ^ (2 * t) := pow_le_pow_right₀ hr (by omega)
  have h4 : 36 / 25 * q ^ 2 / (1 - q ^ 2) * (32.5 / 9 * 1.06261) * Z ≤ q ^ 2048 * r ^ (2 * t) * (c * Z) := by
    calc _ ≤ c * (q ^ 2048 * r ^ (2 * t1)) * Z := mul_le_mul_of_nonneg_right hnum hZ0
      _ ≤ c * (q ^ 2048 * r ^ (2 * t)) * Z := by gcongr
      _ = _ := by ring
  exact le_of_mul_le_mul_left (h2.trans h4) hqp

/-- the bound for the program, for a value of `q` -/
theorem program_bound {q : ℝ} (hq : 0 < q) (hq1 : q < 1) : 2 * (1 + q) * (diag3 shippedHeat (6 / 10) * (1 - 1 / (6 / 5))) ≤ pull shippedHeat 99 99 (6 / 10) ∧
    0 < damp shippedHeat 99 99 (6 / 10) (6 / 5) q := by
  obtain ⟨c1, c2⟩ := cos_bounds
  unfold damp
  rw [shipped_diag, shipped_pull]
  constructor
  · linarith
  · nlinarith

theorem pow_early : (36 / 25 * (197 / 200) ^ 2 / (1 - (197 / 200) ^ 2) * (32.5 / 9 * 1.06261) : ℝ) ≤ 1 / 40 ^ 2 * ((197 / 200) ^ 2048 * 2.0698 ^ (2 * 30)) := by
  have h1 : (0.7851 : ℝ) ≤ (197 / 200) ^ 16 := by norm_num
  have h2 : (0.0208 : ℝ) ≤ 0.7851 ^ 16 := by norm_num
  have h3 : (0.0208 : ℝ) ^ 8 ≤ (197 / 200) ^ 2048 := by
    calc (0.0208 : ℝ) ^ 8 ≤ (0.7851 ^ 16) ^ 8 := by gcongr
      _ ≤ (((197 / 200) ^ 16) ^ 16) ^ 8 := by gcongr
      _ = _ := by rw [← pow_mul, ← pow_mul]
  have h4 : (0 : ℝ) < 2.0698 ^ (2 * 30) := by positivity
  calc _ ≤ (1 / 40 ^ 2 * (0.0208 ^ 8 * 2.0698 ^ (2 * 30)) : ℝ) := by norm_num
    _ ≤ _ := mul_le_mul_of_nonneg_left (mul_le_mul_of_nonneg_right h3 h4.le) (by norm_num)

theorem pow_late : (36 / 25 * (49 / 50) ^ 2 / (1 - (49 / 50) ^ 2) * (32.5 / 9 * 1.06261) : ℝ) ≤ 1 / 100000 ^ 2 * ((49 / 50) ^ 2048 * 2.4264 ^ (2 * 40)) := by
  have h1 : (0.7237 : ℝ) ≤ (49 / 50) ^ 16 := by norm_num
  have h2 : (0.0056 : ℝ) ≤ 0.7237 ^ 16 := by norm_num
  have h3 : (0.0056 : ℝ) ^ 8 ≤ (49 / 50) ^ 2048 := by
    calc (0.0056 : ℝ) ^ 8 ≤ (0.7237 ^ 16) ^ 8 := by gcongr
      _ ≤ (((49 / 50) ^ 16) ^ 16) ^ 8 := by gcongr
      _ = _ := by rw [← pow_mul, ← pow_mul]
  have h4 : (0 : ℝ) < 2.4264 ^ (2 * 40) := by positivity
  calc _ ≤ (1 / 100000 ^ 2 * (0.0056 ^ 8 * 2.4264 ^ (2 * 40)) : ℝ) := by norm_num
    _ ≤ _ := mul_le_mul_of_nonneg_left (mul_le_mul_of_nonneg_right h3 h4.le) (by norm_num)

/-- the squares of the errors on one time level -/
theorem error_sum {u z : Fin shippedHeat.d → ℝ} {t : ℕ} {c δ : ℝ} (hc : 0 < c) (h : heat2 shippedHeat u t ≤ c ^ 2 * heat2 shippedHeat z t)
    (hd : ∀ x y, x ≤ 100 → y ≤ 100 → |val3 shippedHeat u t x y - val3 shippedHeat z t x y| ≤ δ) :
    heat2 shippedHeat z t ≤ (1 + c) * ((∑ _x ∈ Finset.range 101, ∑ _y ∈ Finset.range 101, δ ^ 2) + c * heat2 shippedHeat z t) := by
  have h1 : heat2 shippedHeat z t ≤ (1 + c) * (∑ _x ∈ Finset.range 101, ∑ _y ∈ Finset.range 101, δ ^ 2) + (1 + c) / c * heat2 shippedHeat u t := by
    have e : ∀ v, heat2 shippedHeat v t = ∑ x ∈ Finset.range 101, ∑ y ∈ Finset.range 101, val3 shippedHeat v t x y ^ 2 := fun _ => rfl
    rw [e, e]
    simp only [Finset.mul_sum, ← Finset.sum_add_distrib]
    refine Finset.sum_le_sum fun x hx => ?_
    refine Finset.sum_le_sum fun y hy => ?_
    have h2 := hd x y (by have := Finset.mem_range.1 hx; omega) (by have := Finset.mem_range.1 hy; omega)
    set a := val3 shippedHeat u t x y
    set b := val3 shippedHeat z t x y
    have h3 : (a - b) ^ 2 ≤ δ ^ 2 := by rw [← sq_abs (a - b)]; exact pow_le_pow_left₀ (abs_nonneg _) h2 2
    have h4 : (1 + c) * (a - b) ^ 2 + (1 + c) / c * a ^ 2 - b ^ 2 = (c * (a - b) + a) ^ 2 / c := by field_simp; ring
    have h5 : 0 ≤ (c * (a - b) + a) ^ 2 / c := by positivity
    have h6 : (1 + c) * (a - b) ^ 2 ≤ (1 + c) * δ ^ 2 := mul_le_mul_of_nonneg_left h3 (by linarith)
    linarith
  have h2 : (1 + c) / c * heat2 shippedHeat u t ≤ (1 + c) / c * (c ^ 2 * heat2 shippedHeat z t) := mul_le_mul_of_nonneg_left h (by positivity)
  have h3 : (1 + c) / c * (c ^ 2 * heat2 shippedHeat z t) = (1 + c) * (c * heat2 shippedHeat z t) := by field_simp
  linarith

theorem no_room {Z E : ℝ} (h1 : Z ≤ (1 + 1 / 40) * ((∑ _x ∈ Finset.range 101, ∑ _y ∈ Finset.range 101, (15 / 1000 : ℝ) ^ 2) + 1 / 40 * Z)) (h2 : 2500 ≤ 1.06261 ^ 2 * (E * Z))
    (h3 : E ≤ 826) (hZ0 : 0 ≤ Z) : False := by
  have h4 : E * Z ≤ 826 * Z := mul_le_mul_of_nonneg_right h3 hZ0
  simp only [Finset.sum_const, Finset.card_range, nsmul_eq_mul] at h1
  norm_num at h1 h2
  linarith

theorem decay_pow : (241 - 240 * cos (π / 100)) ^ (2 * 30) ≤ 826 := by
  obtain ⟨k1, k2⟩ := cos_bounds
  calc (241 - 240 * cos (π / 100)) ^ (2 * 30) ≤ 1.118437 ^ (2 * 30) := pow_le_pow_left₀ (by linarith) (by linarith) _
    _ ≤ 826 := by norm_num

theorem program_error {u z : Fin shippedHeat.d → ℝ} (hz : Solves shippedHeat z) (hu : heat2 shippedHeat u 30 ≤ (1 / 40) ^ 2 * heat2 shippedHeat z 30) :
    ∃ x y, x ≤ 100 ∧ y ≤ 100 ∧ 15 / 1000 < |val3 shippedHeat u 30 x y - val3 shippedHeat z 30 x y| := by
  by_contra hne
  push Not at hne
  have h1 := error_sum (c := 1 / 40) (δ := 15 / 1000) (by norm_num) hu hne
  obtain ⟨-, h2⟩ := scheme_lower hz (t := 30) (by decide) (by decide)
  have hZ0 : 0 ≤ heat2 shippedHeat z 30 := Finset.sum_nonneg fun _ _ => Finset.sum_nonneg fun _ _ => sq_nonneg _
  exact no_room h1 h2 decay_pow hZ0

/-- C115: the heat program gives up after 1024 sweeps, long before the heat has reached the later time levels: from time 0.3 on the Euclidean norm of the temperatures
it writes is at most 1/40 of that of the solution of its own scheme, from time 0.4 on at most 1/100000; at time 0.3 the error is more than 0.015 at some point although
the tolerance is 0.0001. -/
theorem C115_program {M : Type} [MatOps M ℝ] [LawfulMat M ℝ] : ∃ u it, solve (M := M) shippedHeat (6 / 5) 1024 (1 / 10000) = .ok (fl u, it) ∧
    ∀ z, Solves shippedHeat z →
      (∀ t, 30 ≤ t → t ≤ 100 → heat2 shippedHeat u t ≤ (1 / 40) ^ 2 * heat2 shippedHeat z t) ∧
      (∀ t, 40 ≤ t → t ≤ 100 → heat2 shippedHeat u t ≤ (1 / 100000) ^ 2 * heat2 shippedHeat z t) ∧
      ∃ x y, x ≤ 100 ∧ y ≤ 100 ∧ 15 / 1000 < |val3 shippedHeat u 30 x y - val3 shippedHeat z 30 x y| := by
  obtain ⟨b1, b2⟩ := program_bound (q := 197 / 200) (by norm_num) (by norm_num)
  obtain ⟨b3, b4⟩ := program_bound (q := 49 / 50) (by norm_num) (by norm_num)
  obtain ⟨u, it, e1, -, e3⟩ := C115_bound (M := M) shipped_plain (w := 6 / 5) (by norm_num) (by norm_num) 1024 (1 / 10000)
  have e6 := e3 (49 / 50) (by norm_num) (by norm_num) b3 b4
  have e3 := e3 (197 / 200) (by norm_num) (by norm_num) b1 b2
  refine ⟨u, it, e1, fun z hz => ?_⟩
  have c1 : ∀ t, 30 ≤ t → t ≤ 100 → heat2 shippedHeat u t ≤ (1 / 40) ^ 2 * heat2 shippedHeat z t := by
    intro t h1 h2
    rw [show ((1 : ℝ) / 40) ^ 2 = 1 / 40 ^ 2 by norm_num]
    exact program_ratio (q := 197 / 200) (r := 2.0698) (t1 := 30) (by norm_num) (by norm_num) (by norm_num) (by norm_num) (by norm_num) (by positivity) pow_early hz e3 h1 (by omega)
  refine ⟨c1, fun t h1 h2 => ?_, ?_⟩
  · rw [show ((1 : ℝ) / 100000) ^ 2 = 1 / 100000 ^ 2 by norm_num]
    exact program_ratio (q := 49 / 50) (r := 2.4264) (t1 := 40) (by norm_num) (by norm_num) (by norm_num) (by norm_num) (by norm_num) (by positivity) pow_late hz e6 h1 (by omega)
  exact program_error hz (c1 30 (by decide) (by decide))

/-- the scheme of the program has exactly one solution -/
theorem shipped_solvable : ∃! z, Solves shippedHeat z := by
  obtain ⟨_, _, _, _, -, -, -, -, hu⟩ := C72_heat_euler (M := Dense ℝ) (p := shippedHeat) (by decide) (by decide) (by decide)
    ⟨by norm_num [shippedHeat], fun _ _ _ _ _ _ _ => by norm_num [shippedHeat]⟩
  exact hu

/-- the hypotheses of `C115_bound` for the program: the factor `q = 197/200` -/
example : Plain shippedHeat 99 99 (6 / 10) ∧ 2 * (1 + 197 / 200) * (diag3 shippedHeat (6 / 10) * (1 - 1 / (6 / 5))) ≤ pull shippedHeat 99 99 (6 / 10) ∧
    0 < damp shippedHeat 99 99 (6 / 10) (6 / 5) (197 / 200) := ⟨shipped_plain, program_bound (by norm_num) (by norm_num)⟩
end NS.Props.Heat

/-
Property theorems C88 (continued): the problem the example solves, `-Δu = sin(πx) sin(πy)` on the unit square with zero boundary
values (`examples/poisson/fem.cpp:46-73`), whose solution the program compares with (`fem.cpp:253-266`).
-/
import Verif.Props.FemConv
import Mathlib.Analysis.SpecialFunctions.Trigonometric.Deriv
import Mathlib.Analysis.SpecialFunctions.Trigonometric.Bounds
import Mathlib.Analysis.Real.Pi.Bounds

set_option linter.unusedSectionVars false
set_option linter.unusedSimpArgs false

namespace NS.Props.Fem
open NS NS.World NS.Fem NS.MatOps NS.LawfulMat Matrix NS.Props.Mesh NS.Props.Shape NS.HyperCube NS.Props.HyperCube Set
open NS.Props.LU (IsMat IsVec isVec_iff isMat_of)
open NS.Props.Fdm (Smooth SolvesPoisson dxx dyy lap lap_error)
open Real

/-- `source_function`, fem.cpp:67-69 -/
noncomputable def sineSource (v : List ℝ) : ℝ := sin (π * v.getD 0 0) * sin (π * v.getD 1 0)
/-- `boundary_function`, fem.cpp:71-73 -/
def zeroBoundary (_ : List ℝ) : ℝ := 0
/-- `solution`, fem.cpp:258-259 -/
noncomputable def sineSolution (x y : ℝ) : ℝ := sin (π * x) * sin (π * y) / (2 * π * π)

theorem deriv_sin_mul (c : ℝ) : (deriv fun s : ℝ => c * sin (π * s)) = fun s => c * π * cos (π * s) := by
  funext s
  have h := (((hasDerivAt_id s).const_mul π).sin).const_mul c
  refine h.deriv.trans ?_
  simp; ring
theorem deriv_cos_mul (c : ℝ) : (deriv fun s : ℝ => c * cos (π * s)) = fun s => -(c * π) * sin (π * s) := by
  funext s
  have h := (((hasDerivAt_id s).const_mul π).cos).const_mul c
  refine h.deriv.trans ?_
  simp; ring

theorem cd_sin (c : ℝ) (n : WithTop ℕ∞) : ContDiff ℝ n fun s : ℝ => c * sin (π * s) :=
  contDiff_const.mul (contDiff_sin.comp (contDiff_const.mul contDiff_id))

theorem iter2 (c x : ℝ) : iteratedDeriv 2 (fun s : ℝ => c * sin (π * s)) x = -(c * π ^ 2) * sin (π * x) := by
  simp only [iteratedDeriv_succ, iteratedDeriv_zero, deriv_sin_mul, deriv_cos_mul]
  ring
theorem iter4 (c x : ℝ) : iteratedDeriv 4 (fun s : ℝ => c * sin (π * s)) x = c * π ^ 4 * sin (π * x) := by
  simp only [iteratedDeriv_succ, iteratedDeriv_zero, deriv_sin_mul, deriv_cos_mul]
  ring

theorem sol_x (y : ℝ) : (fun s => sineSolution s y) = fun s => sin (π * y) / (2 * π * π) * sin (π * s) := by
  funext s; unfold sineSolution; ring
theorem sol_y (x : ℝ) : (fun s => sineSolution x s) = fun s => sin (π * x) / (2 * π * π) * sin (π * s) := by
  funext s; unfold sineSolution; ring

theorem four_le (a b : ℝ) : |sin (π * a) / (2 * π * π) * π ^ 4 * sin (π * b)| ≤ π ^ 2 / 2 := by
  have e : sin (π * a) / (2 * π * π) * π ^ 4 * sin (π * b) = π ^ 2 / 2 * (sin (π * a) * sin (π * b)) := by
    have := pi_ne_zero; field_simp
  rw [e, abs_mul, abs_of_pos (by positivity), abs_mul]
  have h1 := abs_sin_le_one (π * a)
  have h2 := abs_sin_le_one (π * b)
  have : |sin (π * a)| * |sin (π * b)| ≤ 1 := mul_le_one₀ h1 (abs_nonneg _) h2
  exact mul_le_of_le_one_right (by positivity) this

theorem sine_second (x y a b : ℝ) :
    |sin (π * (x + a)) * sin (π * (y + b)) + sin (π * (x - a)) * sin (π * (y - b)) - 2 * (sin (π * x) * sin (π * y))| ≤ π ^ 2 * (a ^ 2 + b ^ 2) := by
  have e : sin (π * (x + a)) * sin (π * (y + b)) + sin (π * (x - a)) * sin (π * (y - b)) - 2 * (sin (π * x) * sin (π * y)) =
      cos (π * (x - y)) * (cos (π * (a - b)) - 1) - cos (π * (x + y)) * (cos (π * (a + b)) - 1) := by
    simp only [mul_add, mul_sub, sin_add, sin_sub, cos_add, cos_sub]
    ring
  rw [e]
  have k : ∀ p q : ℝ, |cos p * (cos q - 1)| ≤ q ^ 2 / 2 := by
    intro p q
    rw [abs_mul]
    have h1 := abs_cos_le_one p
    have h2 : |cos q - 1| ≤ q ^ 2 / 2 := by
      rw [abs_le]
      constructor
      · linarith [one_sub_sq_div_two_le_cos (x := q)]
      · have := cos_le_one q; nlinarith [sq_nonneg q]
    exact (mul_le_of_le_one_left (abs_nonneg _) h1).trans h2
  refine (abs_sub _ _).trans ((add_le_add (k _ _) (k _ _)).trans (le_of_eq ?_))
  ring

/-- the data of the example meet the hypotheses of the error theorems -/
theorem sine_data : PoissonData 1 (π ^ 2 / 2) (π ^ 2 / 2) (π ^ 2) sineSource zeroBoundary sineSolution := by
  have hu : UniqueDiffOn ℝ (Icc (0 : ℝ) 1) := uniqueDiffOn_Icc one_pos
  refine ⟨⟨fun y _ => ?_, fun x _ => ?_, fun x hx y hy => ?_, fun x hx y hy => ?_⟩, ⟨fun x hx y hy => ?_, fun x hx y hy h => ?_⟩, fun x y a b _ _ _ _ => ?_⟩
  · rw [sol_x]; exact (cd_sin _ _).contDiffOn
  · rw [sol_y]; exact (cd_sin _ _).contDiffOn
  · rw [sol_x, iteratedDerivWithin_eq_iteratedDeriv hu (cd_sin _ _).contDiffAt hx, iter4]; exact four_le _ _
  · rw [sol_y, iteratedDerivWithin_eq_iteratedDeriv hu (cd_sin _ _).contDiffAt hy, iter4]; exact four_le _ _
  · show iteratedDerivWithin 2 (fun s => sineSolution s y) (Icc 0 1) x + iteratedDerivWithin 2 (fun s => sineSolution x s) (Icc 0 1) y = -sineSource [x, y]
    rw [sol_x, sol_y, iteratedDerivWithin_eq_iteratedDeriv hu (cd_sin _ _).contDiffAt (Ioo_subset_Icc_self hx),
      iteratedDerivWithin_eq_iteratedDeriv hu (cd_sin _ _).contDiffAt (Ioo_subset_Icc_self hy), iter2, iter2]
    have := pi_ne_zero
    show _ = -(sin (π * x) * sin (π * y))
    field_simp
    ring
  · show sin (π * x) * sin (π * y) / (2 * π * π) = 0
    rcases h with rfl | rfl | rfl | rfl <;> simp
  · exact sine_second x y a b

variable {M : Type} [MatOps M ℝ] [LawfulMat M ℝ]

/-- C88: the program itself (unit square, `f = sin(πx) sin(πy)`, zero boundary values, `EPS` = 1e-8, weight 1.2, tolerance 1e-4):
for every number `N` of cells per side and every iteration limit above some bound, solver 0 returns values whose error is at most
`π²/(32 N²)` (discretisation), `N²/10⁸` (dropped loads) and `N²/(3·10⁴)` (solver tolerance). -/
theorem C88_example {N : Nat} (hN : 1 ≤ N) :
    ∃ (w1 w2 w3 : World ℝ) (K : Nat), generate N N ((1 : ℝ), 1) (0, 0) = .ok w1 ∧ w1.prepare 0 = .ok w2 ∧ Shape.prepareMesh 1 w2 = .ok w3 ∧
      ∀ maxIter, K < maxIter → ∃ (x : Fin ((N + 1) * (N + 1)) → ℝ) (it : Nat),
        solveSor (M := M) (1 / 10 ^ 8) 1 sineSource zeroBoundary (12 / 10) maxIter (1 / 10 ^ 4) w3 = .ok (Iterative.fl x, it) ∧
        ∀ (i : Fin ((N + 1) * (N + 1))) (r c : Nat), (i : Nat) = r * (N + 1) + c → r ≤ N → c ≤ N →
          |x i - sin (π * (c / N)) * sin (π * (r / N)) / (2 * π * π)| ≤
            if Rim N r c then 3 / 10 ^ 4 else π ^ 2 / 32 / (N : ℝ) ^ 2 + (N : ℝ) ^ 2 / 10 ^ 8 + (N : ℝ) ^ 2 / (3 * 10 ^ 4) := by
  have hNp : (0 : ℝ) < N := by exact_mod_cast (by omega : 0 < N)
  obtain ⟨w1, w2, w3, K, e1, e2, e3, h⟩ := C88_sor (M := M) hN one_pos (eps := 1 / 10 ^ 8) (by norm_num) (by unfold kappa; norm_num) sine_data
    (wt := 12 / 10) (by norm_num) (by norm_num) (tol := 1 / 10 ^ 4) (by norm_num)
  refine ⟨w1, w2, w3, K, e1, e2, e3, fun maxIter hm => ?_⟩
  obtain ⟨x, it, f1, -, f3⟩ := h maxIter hm
  refine ⟨x, it, f1, fun i r c hi hr hc => ?_⟩
  have := f3 i r c hi hr hc
  have ew : sineSolution (c * (1 / N)) (r * (1 / N)) = sin (π * (c / N)) * sin (π * (r / N)) / (2 * π * π) := by
    unfold sineSolution; rw [mul_one_div, mul_one_div]
  rw [ew] at this
  refine this.trans ?_
  have ea : |(1 : ℝ) / (12 / 10) - 1| = 1 / 6 := by norm_num [abs_of_nonpos]
  rw [ea]
  split
  · norm_num
  · have hk : 6 * (1 / 10 ^ 8 : ℝ) / kappa ≤ 8 / 10 ^ 8 := by unfold kappa; norm_num
    have h2 : (0 : ℝ) < (N : ℝ) ^ 2 := by positivity
    have e : (1 : ℝ) ^ 2 / 8 * ((π ^ 2 / 2 + π ^ 2 / 2) / 12 + π ^ 2 / 6) * (1 / N) ^ 2 = π ^ 2 / 32 / (N : ℝ) ^ 2 := by field_simp; ring
    rw [e]
    nlinarith [mul_le_mul_of_nonneg_left hk h2.le]

/-- the load at the vertex in the middle is not zero -/
theorem sine_rhs_ne {N : Nat} (hN : 2 ≤ N) (hN2 : N ≤ 1000) {w1 w2 w3 : World ℝ} (e1 : generate N N ((1 : ℝ), 1) (0, 0) = .ok w1)
    (e2 : w1.prepare 0 = .ok w2) (e3 : Shape.prepareMesh 1 w2 = .ok w3) {a : M} {b : List ℝ}
    (hs : system (1 / 10 ^ 8) 1 sineSource zeroBoundary w3 = .ok (a, b)) : ∃ v ∈ b, v ≠ 0 := by
  obtain ⟨w₀, v1, v2, v3, hb, hd, hc, hel, f1, f2, hp, f3, G⟩ := grid_ready (show 1 ≤ N by omega) (one_ne_zero (α := ℝ)) (0, 0)
  obtain rfl : w1 = v1 := Except.ok.inj (e1.symm.trans f1)
  obtain rfl : w2 = v2 := Except.ok.inj (e2.symm.trans f2)
  obtain rfl : w3 = v3 := Except.ok.inj (e3.symm.trans f3)
  have hNp : (0 : ℝ) < N := by exact_mod_cast (by omega : 0 < N)
  have hh : (0 : ℝ) < 1 / N := div_pos one_pos hNp
  have hD := dofs_in hb hd hc hp.setup (.inl rfl) e3
  have hn : w3.vertices.length = (N + 1) * (N + 1) := by rw [G.vertices, List.length_range]
  have he : (1 / 10 ^ 8 : ℝ) < kappa / 2 := by unfold kappa; norm_num
  obtain ⟨a', b', A, B, s1, s2, s3, -⟩ := C67_system (M := M) hb hd hc hp (.inl rfl) e3 hel hn (grid_noneDropped hh.ne' G he) (grid_anchored G hD.elements) sineSource zeroBoundary
  obtain ⟨rfl, rfl⟩ := Prod.mk.inj (Except.ok.inj (hs.symm.trans s1))
  have hm1 : 0 < N / 2 := by omega
  have hm2 : N / 2 < N := by omega
  set m := N / 2 with hm
  obtain ⟨δ, d1, d2⟩ := (grid_residual (show 1 ≤ N by omega) hh.ne' hb hd hc hel hp e3 G (by norm_num) he hs s2 s3 0 hm2.le hm2.le ⟨vid N m m, vid_lt hm2.le hm2.le⟩ rfl).2
    (by unfold Rim; omega)
  have hz : fiveDiff (withRim N (1 / N : ℝ) (0, 0) zeroBoundary 0) m m = 0 := by
    have : ∀ r c, withRim N (1 / N : ℝ) (0, 0) zeroBoundary 0 r c = 0 := by
      intro r c
      unfold withRim zeroBoundary node
      split
      · rfl
      · split <;> rfl
    unfold fiveDiff
    simp only [this]; ring
  rw [hz, mulVec_zero, Pi.zero_apply] at d2
  have hcast : (1 : ℝ) / 6 ≤ (m - 1 / 2) / N ∧ (m + 1 / 2) / N ≤ (3 : ℝ) / 4 := by
    have c1 : (N : ℝ) ≤ 2 * m + 1 := by exact_mod_cast (by omega : N ≤ 2 * m + 1)
    have c2 : 2 * (m : ℝ) ≤ N := by exact_mod_cast (by omega : 2 * m ≤ N)
    have c3 : (2 : ℝ) ≤ N := by exact_mod_cast hN
    have c4 : (1 : ℝ) ≤ m := by exact_mod_cast hm1
    constructor
    · rw [le_div_iff₀ hNp]; linarith
    · rw [div_le_iff₀ hNp]; linarith
  have hsin : ∀ d : ℝ, |d| ≤ 1 / 2 → 1 / 2 ≤ sin (π * ((m + d) / N)) := by
    intro d hd
    rw [abs_le] at hd
    have l1 : (1 : ℝ) / 6 ≤ (m + d) / N := hcast.1.trans (div_le_div_of_nonneg_right (by linarith) hNp.le)
    have l2 : (m + d) / N ≤ (3 : ℝ) / 4 := (div_le_div_of_nonneg_right (by linarith) hNp.le).trans hcast.2
    have hp := pi_pos
    rcases le_total ((m + d) / N) (1 / 2 : ℝ) with h | h
    · rw [← sin_pi_div_six]
      exact sin_le_sin_of_le_of_le_pi_div_two (by linarith) (by nlinarith) (by nlinarith)
    · rw [← sin_pi_sub (π * _), ← sin_pi_div_six]
      exact sin_le_sin_of_le_of_le_pi_div_two (by linarith) (by nlinarith) (by nlinarith)
  have hE : ∀ α β : ℝ, |α| ≤ 1 → |β| ≤ 1 → 1 / 4 ≤ edgeMid (1 / N : ℝ) (0, 0) sineSource m m α β := by
    intro α β ha hb
    have q1 := hsin (β / 2) (by rw [abs_div, abs_two]; linarith)
    have q2 := hsin (α / 2) (by rw [abs_div, abs_two]; linarith)
    have e : edgeMid (1 / N : ℝ) (0, 0) sineSource m m α β = sin (π * ((m + β / 2) / N)) * sin (π * ((m + α / 2) / N)) := by
      unfold edgeMid sineSource
      simp only [List.getD_cons_zero, List.getD_cons_succ]
      congr 2 <;> ring_nf
    rw [e]
    nlinarith
  have hS : (3 : ℝ) / 2 ≤ sixSum (1 / N : ℝ) (0, 0) sineSource m m := by
    unfold sixSum
    have n1 : |(1 : ℝ)| ≤ 1 := by norm_num
    have n0 : |(0 : ℝ)| ≤ 1 := by norm_num
    have n2 : |(-1 : ℝ)| ≤ 1 := by norm_num
    have := hE 1 0 n1 n0
    have := hE 0 1 n0 n1
    have := hE 1 1 n1 n1
    have := hE (-1) 0 n2 n0
    have := hE 0 (-1) n0 n2
    have := hE (-1) (-1) n2 n2
    linarith
  have hB : B ⟨vid N m m, vid_lt hm2.le hm2.le⟩ ≠ 0 := by
    intro h0
    rw [h0] at d2
    have hk : (9 : ℝ) / 10 ≤ kappa := by unfold kappa; norm_num
    have hN3 : (1 : ℝ) / 10 ^ 6 ≤ (1 / N) ^ 2 := by
      have c5 : (N : ℝ) ≤ 1000 := by exact_mod_cast hN2
      rw [div_pow, one_pow]
      apply div_le_div_of_nonneg_left (by norm_num) (by positivity)
      nlinarith
    have := (abs_le.1 d1).2
    have h3 : (1 : ℝ) / 10 ^ 6 * (3 / 2) ≤ (1 / N) ^ 2 * sixSum (1 / N : ℝ) (0, 0) sineSource m m := mul_le_mul hN3 hS (by norm_num) (by positivity)
    have h4 := mul_le_mul hk h3 (by norm_num) (by linarith)
    linarith
  have hg := (isVec_iff.1 s3).2 ⟨vid N m m, vid_lt hm2.le hm2.le⟩
  have hl : vid N m m < b.length := by rw [s3.1]; exact vid_lt hm2.le hm2.le
  rw [List.getD_eq_getElem _ _ hl] at hg
  exact ⟨_, List.getElem_mem hl, by rw [hg]; exact hB⟩

/-- C88: the program with its default solver 2 and all its constants (1024 iterations, tolerance 1e-4), for 2 to 31 cells per side -/
theorem C88_example_pcg {N : Nat} (hN : 2 ≤ N) (hN2 : N ≤ 31) :
    ∃ (w1 w2 w3 : World ℝ), generate N N ((1 : ℝ), 1) (0, 0) = .ok w1 ∧ w1.prepare 0 = .ok w2 ∧ Shape.prepareMesh 1 w2 = .ok w3 ∧
      ∃ (x₁ : List ℝ) (x : Fin ((N + 1) * (N + 1)) → ℝ) (it : Nat),
        solve (M := M) (1 / 10 ^ 8) (1 / 2 ^ 52) 1 sineSource zeroBoundary 1024 (1 / 10 ^ 4) w3 = .ok (x₁, it) ∧ IsVec x₁ _ x ∧
        ∀ (i : Fin ((N + 1) * (N + 1))) (r c : Nat), (i : Nat) = r * (N + 1) + c → r ≤ N → c ≤ N →
          |x i - sin (π * (c / N)) * sin (π * (r / N)) / (2 * π * π)| ≤
            if Rim N r c then 2 / 10 ^ 4 else π ^ 2 / 32 / (N : ℝ) ^ 2 + 126 / 10 ^ 7 * (N : ℝ) ^ 2 := by
  have hNp : (0 : ℝ) < N := by exact_mod_cast (by omega : 0 < N)
  obtain ⟨w1, w2, w3, a, b, e1, e2, e3, e4, h⟩ := C88_pcg (M := M) (show 1 ≤ N by omega) one_pos (eps := 1 / 10 ^ 8) (by norm_num) (by unfold kappa; norm_num) sine_data
    (jeps := 1 / 2 ^ 52) (by unfold kappa; norm_num) (tol := 1 / 10 ^ 4) (by norm_num) (maxIter := 1024)
    (Nat.mul_le_mul (show N + 1 ≤ 32 by omega) (show N + 1 ≤ 32 by omega))
  obtain ⟨x₁, x, it, f1, f2, -, f3⟩ := h (sine_rhs_ne hN (by omega) e1 e2 e3 e4)
  refine ⟨w1, w2, w3, e1, e2, e3, x₁, x, it, f1, f2, fun i r c hi hr hc => ?_⟩
  have := f3 i r c hi hr hc
  have ew : sineSolution (c * (1 / N)) (r * (1 / N)) = sin (π * (c / N)) * sin (π * (r / N)) / (2 * π * π) := by
    unfold sineSolution; rw [mul_one_div, mul_one_div]
  rw [ew] at this
  refine this.trans ?_
  split
  · unfold kappa; norm_num
  · have h2 : (0 : ℝ) < (N : ℝ) ^ 2 := by positivity
    have e : (1 : ℝ) ^ 2 / 8 * ((π ^ 2 / 2 + π ^ 2 / 2) / 12 + π ^ 2 / 6) * (1 / N) ^ 2 = π ^ 2 / 32 / (N : ℝ) ^ 2 := by field_simp; ring
    rw [e]
    unfold kappa
    norm_num
    nlinarith

/-- with 16 cells per side the discretisation error is below 0.0013 (the solution's maximum is 0.05) -/
example : π ^ 2 / 32 / (16 : ℝ) ^ 2 < 13 / 10 ^ 4 := by
  have h1 := pi_lt_d2
  have h2 := pi_pos
  nlinarith
end NS.Props.Fem

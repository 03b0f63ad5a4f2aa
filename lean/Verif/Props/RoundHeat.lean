/-
Property C121: the heat program `/repo/examples/heat/main.cpp` in floating-point arithmetic: what its sweeps compute, whether or not the test accepts.
-/
import Verif.Props.RoundStop
import Verif.Props.HeatProgram

set_option linter.unusedSectionVars false
set_option linter.unusedSimpArgs false

namespace NS.Props.Heat
open NS NS.Heat NS.Grid NS.MatOps NS.Rounding NS.Props.Iter NS.Iterative Matrix Real NS.HeatEnergy
open NS.Props.Rounding (SorRowV sorRows_pert)

section sweeps
variable {p : Problem ℝ} {u w : ℝ} {N : Nat}

/-- the neighbours of an inner point in a sweep -/
theorem hybrid_val {κ : ℝ} (hd : ∀ i, mat p i i ≠ 0) (hr : diag3 p κ ≠ 0) (e e' : Fin p.d → ℝ) {t x y : Nat}
    (ht : t < p.tc) (hx : x < p.xc) (hy : y < p.yc) (h : ¬ OnRim p t x y) (hk : p.k (t * p.ht) (x * p.hx) (y * p.hy) = κ) :
    (∑ j, (if j < ⟨p.lin t x y, lin_lt ht hx hy⟩ then mat p ⟨p.lin t x y, lin_lt ht hx hy⟩ j * e' j
      else if ⟨p.lin t x y, lin_lt ht hx hy⟩ < j then mat p ⟨p.lin t x y, lin_lt ht hx hy⟩ j * e j else 0)) =
      -(1 / p.ht * val3 p e' (t - 1) x y + (κ / p.hx ^ 2 * val3 p e' t (x - 1) y + κ / p.hy ^ 2 * val3 p e' t x (y - 1)) +
        (κ / p.hx ^ 2 * val3 p e t (x + 1) y + κ / p.hy ^ 2 * val3 p e t x (y + 1))) := by
  set b : Fin p.d → ℝ := fun i => mat p i i * e' i + ∑ j, (if j < i then mat p i j * e' j else if i < j then mat p i j * e j else 0) with hb
  have hs : IsSorSweep (mat p) b 1 e e e' := by
    intro i
    rw [hb]
    simp only
    rw [add_sub_cancel_right, mul_div_cancel_left₀ _ (hd i)]
    ring
  have h1 := sweep_inner one_ne_zero hr hs ht hx hy h hk
  have hrim : ¬ rimIx p ⟨p.lin t x y, lin_lt ht hx hy⟩ := by
    unfold rimIx
    simp only
    rw [lin_t hx hy, lin_x hx, lin_y hx hy]
    exact h
  have hkx : kIx p ⟨p.lin t x y, lin_lt ht hx hy⟩ = κ := by
    unfold kIx kf
    simp only
    rw [lin_t hx hy, lin_x hx, lin_y hx hy]
    exact hk
  have e1 : mat p ⟨p.lin t x y, lin_lt ht hx hy⟩ ⟨p.lin t x y, lin_lt ht hx hy⟩ = diag3 p κ := by rw [mat_inner hrim, if_pos rfl, hkx]; rfl
  rw [hb] at h1
  simp only at h1
  rw [e1, ← val3_lin e' ht hx hy] at h1
  linarith

/-- a rounded sweep with the assembled matrix is an exact sweep with the matrix of the scheme and a perturbed right-hand side -/
theorem sorRows_scheme (hu0 : 0 ≤ u) (hu : u < 1) {n : Nat} {A m : Matrix (Fin n) (Fin n) ℝ} (hn : ∀ i j, Near u N (A i j) (m i j)) (hm : ∀ i, 0 < m i i) (hw : 0 < w)
    {b x y : Fin n → ℝ} (h : ∀ i, SorRowV u A w b x x y i) {γ g : ℝ} (hγ : γ = gam u N) (hg : g = gam u (n + 3)) :
    ∃ s : Fin n → ℝ, IsSorSweep m (b + s) w x x y ∧ ∀ i, |s i| ≤ (γ + g * (1 + γ)) * (m i i / w * |y i| + |1 / w - 1| * m i i * |x i| +
      (∑ j, (if j < i then |m i j| * |y j| else if i < j then |m i j| * |x j| else 0)) + |b i|) := by
  have hγ0 : 0 ≤ γ := by rw [hγ]; exact gam_nonneg hu0 hu
  have hg0 : 0 ≤ g := by rw [hg]; exact gam_nonneg hu0 hu
  have hA : ∀ i, 0 < A i i := fun i => by
    obtain ⟨θ, t1, t2⟩ := hn i i
    rw [t2]
    exact mul_pos (hm i) (t1.pos hu)
  have ha : ∀ i j, |A i j| ≤ (1 + γ) * |m i j| ∧ |m i j - A i j| ≤ γ * |m i j| := by
    intro i j
    obtain ⟨θ, t1, t2⟩ := hn i j
    have hθ := t1.pos hu
    have h2 := t1.abs_sub hu
    rw [← hγ] at h2
    rw [t2, abs_mul, abs_of_pos hθ]
    constructor
    · rw [mul_comm]
      exact mul_le_mul_of_nonneg_right (by linarith [(abs_le.1 h2).2]) (abs_nonneg _)
    · rw [show m i j - m i j * θ = m i j * -(θ - 1) by ring, abs_mul, abs_neg, mul_comm]
      exact mul_le_mul_of_nonneg_right h2 (abs_nonneg _)
  obtain ⟨r, r1, r2⟩ := sorRows_pert hu0 hu hA hw.ne' h
  rw [← hg] at r2
  set q := |1 / w - 1| with hq
  have hq0 : 0 ≤ q := abs_nonneg _
  have hyb : ∀ (B : Matrix (Fin n) (Fin n) ℝ) i, (∑ j, if j < i then B i j * y j else if i < j then B i j * x j else 0) =
      ∑ j, B i j * (if j < i then y j else if i < j then x j else 0) := fun B i => Finset.sum_congr rfl fun j _ => by split_ifs <;> simp
  refine ⟨fun i => m i i / w * y i + (1 - 1 / w) * m i i * x i + (∑ j, if j < i then m i j * y j else if i < j then m i j * x j else 0) - b i, fun i => ?_, fun i => ?_⟩
  · have := (hm i).ne'
    simp only [Pi.add_apply]
    field_simp
    ring
  · have e1 := r1 i
    have hai := (hA i).ne'
    rw [Pi.add_apply] at e1
    set SA := ∑ j, (if j < i then A i j * y j else if i < j then A i j * x j else 0) with hSA
    set SM := ∑ j, (if j < i then m i j * y j else if i < j then m i j * x j else 0) with hSM
    set SB := ∑ j, (if j < i then |m i j| * |y j| else if i < j then |m i j| * |x j| else 0) with hSB
    have e2 : r i = A i i / w * y i + (1 - 1 / w) * A i i * x i + SA - b i := by
      rw [e1]
      have := hw.ne'
      field_simp
      ring
    have e3 : m i i / w * y i + (1 - 1 / w) * m i i * x i + SM - b i = r i + ((m i i - A i i) / w * y i + (1 - 1 / w) * (m i i - A i i) * x i + (SM - SA)) := by
      rw [e2]; ring
    have d1 : |(m i i - A i i) / w * y i| ≤ γ * (m i i / w * |y i|) := by
      rw [abs_mul, abs_div, abs_of_pos hw]
      calc |m i i - A i i| / w * |y i| ≤ γ * |m i i| / w * |y i| := by
            have := (ha i i).2
            gcongr
        _ = _ := by rw [abs_of_pos (hm i)]; ring
    have d2 : |(1 - 1 / w) * (m i i - A i i) * x i| ≤ γ * (q * m i i * |x i|) := by
      rw [abs_mul, abs_mul, abs_sub_comm 1 (1 / w), ← hq]
      calc q * |m i i - A i i| * |x i| ≤ q * (γ * |m i i|) * |x i| := by
            have := (ha i i).2
            gcongr
        _ = _ := by rw [abs_of_pos (hm i)]; ring
    have d3 : |SM - SA| ≤ γ * SB := by
      rw [hSM, hSA, hSB, ← Finset.sum_sub_distrib, Finset.mul_sum]
      refine (Finset.abs_sum_le_sum_abs _ _).trans (Finset.sum_le_sum fun j _ => ?_)
      split_ifs
      · rw [← sub_mul, abs_mul, ← mul_assoc]; exact mul_le_mul_of_nonneg_right (ha i j).2 (abs_nonneg _)
      · rw [← sub_mul, abs_mul, ← mul_assoc]; exact mul_le_mul_of_nonneg_right (ha i j).2 (abs_nonneg _)
      · simp
    have hSplit : (∑ j, if i < j then |A i j| * |x j| else 0) + (∑ j, if j < i then |A i j| * |y j| else 0) ≤ (1 + γ) * SB := by
      rw [← Finset.sum_add_distrib, hSB, Finset.mul_sum]
      refine Finset.sum_le_sum fun j _ => ?_
      rcases lt_trichotomy j i with h | h | h
      · simp only [h, not_lt.2 h.le, if_true, if_false, zero_add]
        rw [← mul_assoc]; exact mul_le_mul_of_nonneg_right (ha i j).1 (abs_nonneg _)
      · simp [h]
      · simp only [h, not_lt.2 h.le, if_true, if_false, add_zero]
        rw [← mul_assoc]; exact mul_le_mul_of_nonneg_right (ha i j).1 (abs_nonneg _)
    have d4 : |r i| ≤ g * (1 + γ) * (q * m i i * |x i| + SB + |b i|) := by
      refine (r2 i).trans ?_
      have h1 : q * A i i * |x i| ≤ (1 + γ) * (q * m i i * |x i|) := by
        have h := (ha i i).1
        rw [abs_of_pos (hA i), abs_of_pos (hm i)] at h
        calc q * A i i * |x i| ≤ q * ((1 + γ) * m i i) * |x i| := by gcongr
          _ = _ := by ring
      have h2 : |b i| ≤ (1 + γ) * |b i| := by linarith [mul_nonneg hγ0 (abs_nonneg (b i))]
      calc _ ≤ g * ((1 + γ) * (q * m i i * |x i|) + (1 + γ) * SB + (1 + γ) * |b i|) := mul_le_mul_of_nonneg_left (by linarith) hg0
        _ = _ := by ring
    have hSB0 : 0 ≤ SB := Finset.sum_nonneg fun j _ => by split_ifs <;> positivity
    have k1 : 0 ≤ m i i / w * |y i| := mul_nonneg (div_nonneg (hm i).le hw.le) (abs_nonneg _)
    have k2 : 0 ≤ g * (1 + γ) := mul_nonneg hg0 (by linarith)
    have k3 := mul_nonneg k2 k1
    have k4 := mul_nonneg hγ0 (abs_nonneg (b i))
    show |m i i / w * y i + (1 - 1 / w) * m i i * x i + SM - b i| ≤ _
    rw [e3]
    have a1 := abs_add_le (r i) ((m i i - A i i) / w * y i + (1 - 1 / w) * (m i i - A i i) * x i + (SM - SA))
    have a2 := abs_add_le ((m i i - A i i) / w * y i + (1 - 1 / w) * (m i i - A i i) * x i) (SM - SA)
    have a3 := abs_add_le ((m i i - A i i) / w * y i) ((1 - 1 / w) * (m i i - A i i) * x i)
    linarith
end sweeps

section program
variable {F : Type} [Zero F] [One F] [Add F] [Sub F] [Mul F] [Div F] [Neg F] [NatCast F] [OfNat F 2] [DecidableEq F] [LE F] [DecidableLE F]
variable {fl : F → ℝ} {u : ℝ} {M : Type} [MatOps M F] [LawfulStore M F]
variable {tc xc yc : Nat} {ht hx hy : F} {k f b : F → F → F → F} {t0 : F → F → F} {k' f' b' : ℝ → ℝ → ℝ → ℝ} {t0' : ℝ → ℝ → ℝ}
open NS.Props.Rounding (VecFl MatFl sor_run)

/-- C121: what the heat program computes in floating-point arithmetic with unit roundoff `u`, for every grid, data, weight, tolerance and limit of sweeps, whether or not the test of
the solver ever accepts. There are vectors `V 0 = 0, V 1, …` so that the program returns one of them, `V it` with `it` the number of sweeps it reports. Every `V (j + 1)` is one exact
sweep from `V j` for the difference scheme itself with the given values changed by `s j`, where each entry of `s j` is at most `γ + g (1 + γ)` times the sizes of the
terms of its row, `γ` the relative error of six operations and `g` that of as many as there are grid points, plus 3. -/
theorem C121_sweeps (h : Std fl u) (cabs : F → F) (ex : Stands fl (⟨tc, xc, yc, ht, hx, hy, k, f, b, t0⟩ : Problem F) ⟨tc, xc, yc, fl ht, fl hx, fl hy, k', f', b', t0'⟩)
    (hp : Good (⟨tc, xc, yc, fl ht, fl hx, fl hy, k', f', b', t0'⟩ : Problem ℝ)) (hx0 : fl hx ≠ 0) (hy0 : fl hy ≠ 0) (h1 : 0 < tc) (h2 : 0 < xc) (h3 : 0 < yc)
    {w : F} (hw : 0 < fl w) (eps : F) {g γ : ℝ} (hg : g = gam u (tc * xc * yc + 3)) (hγ : γ = gam u 6)
    {m : Matrix (Fin (tc * xc * yc)) (Fin (tc * xc * yc)) ℝ} (hm : m = mat (⟨tc, xc, yc, fl ht, fl hx, fl hy, k', f', b', t0'⟩ : Problem ℝ))
    {c : Fin (tc * xc * yc) → ℝ} (hc : c = fun i => Heat.rhs (⟨tc, xc, yc, fl ht, fl hx, fl hy, k', f', b', t0'⟩ : Problem ℝ) i.1) :
    ∃ (V s : Nat → Fin (tc * xc * yc) → ℝ), V 0 = 0 ∧ (∀ j, IsSorSweep m (c + s j) (fl w) (V j) (V j) (V (j + 1))) ∧
      (∀ j i, |s j i| ≤ (γ + g * (1 + γ)) * (m i i / fl w * |V (j + 1) i| + |1 / fl w - 1| * m i i * |V j i| +
        (∑ l, (if l < i then |m i l| * |V (j + 1) l| else if i < l then |m i l| * |V j l| else 0)) + |c i|)) ∧
      ∀ maxIter, ∃ (v : List F) (it : Nat), solveFl (M := M) cabs (⟨tc, xc, yc, ht, hx, hy, k, f, b, t0⟩ : Problem F) w maxIter eps = .ok (v, it) ∧
        it ≤ maxIter ∧ (0 < maxIter → 0 < it) ∧ VecFl fl v (tc * xc * yc) (V it) := by
  obtain ⟨a, b₀, A, e, ha, hb, hn⟩ := system_fl (M := M) h ex hp hx0 hy0 h1 h2 h3
  have hm0 : ∀ i, 0 < m i i := fun i => by rw [hm]; exact (row_abs hp i).1
  have hA : ∀ i, A i i ≠ 0 := fun i => by
    obtain ⟨θ, t1, t2⟩ := hn i i
    rw [t2]
    exact (mul_pos (row_abs hp i).1 (t1.pos h.u_lt)).ne'
  have hz0 : VecFl fl (Vec.resize [] (tc * xc * yc) : List F) (tc * xc * yc) (0 : Fin (tc * xc * yc) → ℝ) := by
    have hl : (Vec.resize [] (tc * xc * yc) : List F) = List.replicate (tc * xc * yc) 0 := by
      apply List.ext_getElem (by simp [Vec.resize])
      intro i _ _
      simp [Vec.resize]
    rw [hl]
    refine ⟨List.length_replicate, fun i => ⟨0, ?_, h.zero⟩⟩
    rw [vecAt_get (by rw [List.length_replicate]; exact i.2)]
    congr 1
    simp
  rw [← hc] at hb
  rw [← hm] at hn
  obtain ⟨y, V, hyV, hV0, hrows, y3⟩ := sor_run h cabs ha hA hb hz0 w eps
  choose s s1 s2 using fun j => sorRows_scheme h.u_nonneg h.u_lt hn hm0 hw (hrows j) hγ hg
  refine ⟨V, s, hV0, s1, s2, fun maxIter => ?_⟩
  obtain ⟨it, k1, k2, k3, -⟩ := y3 maxIter
  refine ⟨y it, it, ?_, k2, k3, hyV it⟩
  unfold solveFl
  rw [e, ok_bind]
  exact k1
end program

section witness
open NS.Props.Fdm (real std_real)
open NS.Rounding (Bin)

/-- `C121_sweeps` on the problem `wP` of `C121_heat` (a grid of 2 × 3 × 3 points, arithmetic with 8 binary digits, weight 5/4) -/
example (hx : Stands real wP wP') (hg : Good wP') (h0 : real (1 : Bin 8) ≠ 0) :=
  C121_sweeps (M := Dense (Bin 8)) (std_real 8) NS.Props.Fdm.babs hx hg h0 h0 (by decide) (by decide) (by decide) (w := Bin.rnd (5 / 4))
    (by have : (Bin.rnd (5 / 4) : Bin 8).toRat = 5 / 4 := by decide +kernel
        unfold real; rw [this]; norm_num) (Bin.rnd (1 / 16)) rfl rfl rfl rfl
end witness
end NS.Props.Heat

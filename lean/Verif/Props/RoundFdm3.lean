/-
Property C112: the finite difference program `examples/poisson/fdm.cpp` in floating-point arithmetic: how accurate what it writes is, and that 1024 sweeps are not enough.
-/
import Verif.Props.RoundFdm2
import Verif.Props.CxIterative

set_option linter.unusedSectionVars false
set_option linter.unusedSimpArgs false

namespace NS.Props.Fdm
open NS NS.Fdm NS.Grid MatOps Matrix Real NS.Iterative NS.Props.Iter
open NS.Props.Rounding (VecFl MatFl SorRowV sorRows_pert pert_size sor_run StopTest)
open NS.Rounding (Std gam gam_le gam_nonneg)

/-- a weight near 1.2 -/
theorem weight_facts {w : ℝ} (hw : |w - 6 / 5| ≤ 1 / 100000) : 0 < w ∧ w < 2 ∧ 4 / w + 2 ≤ 5.334 ∧ 0.6666 ≤ 2 / w - 1 ∧ 2 / w - 1 ≤ 0.6668 := by
  rw [abs_le] at hw
  have h0 : 0 < w := by linarith
  refine ⟨h0, by linarith, ?_, ?_, ?_⟩
  · have : 4 / w ≤ 3.334 := by rw [div_le_iff₀ h0]; norm_num; linarith
    norm_num at *; linarith
  · have : 1.6666 ≤ 2 / w := by rw [le_div_iff₀ h0]; norm_num; linarith
    norm_num at *; linarith
  · have : 2 / w ≤ 1.6668 := by rw [div_le_iff₀ h0]; norm_num; linarith
    norm_num at *; linarith

/-- rounded sweeps on the inner points -/
theorem sweeps_bound {N : Nat} {f : ℝ → ℝ → ℝ} {u w : ℝ} (hN : 200 ≤ N) (hu0 : 0 ≤ u) (hu1 : u < 1) (hu : u * N ^ 4 ≤ 1 / 20000) (hw : |w - 6 / 5| ≤ 1 / 100000)
    {z b : Fin ((square N f).xc * (square N f).yc) → ℝ} (hz : core (square N f) *ᵥ z = -b) (hz1 : nsq z ≤ 26 / 10000 * N ^ 2) (hE : z ⬝ᵥ (-b) / (16 / N ^ 2) ≤ 40 / 10000 * N ^ 2)
    {V : Nat → Fin ((square N f).xc * (square N f).yc) → ℝ} (hV0 : V 0 = 0) (hrows : ∀ j i, SorRowV u (core (square N f)) w (-b) (V j) (V j) (V (j + 1)) i) :
    (∀ j, ∃ r, IsSorSweep (core (square N f)) (-b + r) w (V j) (V j) (V (j + 1)) ∧
      nsq r ≤ 6 * (102 / 100 * u * N ^ 2) ^ 2 * 5.334 ^ 2 * (4 * nsq z + nsq (V j - z) + nsq (V (j + 1) - z))) ∧
    (∀ j, nsq (V j - z) ≤ (1 - 0.3748 / N ^ 2) ^ j * (40 / 10000 * N ^ 2) + 4 / 10 ^ 9 * N ^ 2) ∧
    ∀ j, nsq (V (j + 1) - z) ≤ (5.334 * N ^ 2 / 16) ^ 2 * (66 * (102 / 100 * u * N ^ 2) ^ 2 * nsq z + 3 * nsq (V (j + 1) - V j)) := by
  have hNr : (200 : ℝ) ≤ N := by exact_mod_cast hN
  have hN0 : (0 : ℝ) < N := by linarith
  have hN2 : (0 : ℝ) < (N : ℝ) ^ 2 := by positivity
  obtain ⟨w0, w2, w4, k1, k2⟩ := weight_facts hw
  have H := core_const (f := f) (by omega : 2 ≤ N) w0 w2 w4
  have hn : 0 < (square N f).xc * (square N f).yc := Nat.mul_pos (Nat.succ_pos N) (Nat.succ_pos N)
  have hg1 := gam_grid hN hu0 hu
  have hg0 : 0 ≤ gam u ((N + 1) * (N + 1) + 3) := gam_nonneg hu0 hu1
  set g := 102 / 100 * u * (N : ℝ) ^ 2 with hg
  have hg0' : 0 ≤ g := by positivity
  have hkd : 42.66 / (N : ℝ) ^ 2 ≤ (2 / w - 1) * 4 * (16 / N ^ 2) := by
    have : (2 / w - 1) * 4 * (16 / (N : ℝ) ^ 2) = (2 / w - 1) * 64 / N ^ 2 := by ring
    rw [this]
    gcongr
    norm_num at *
    linarith
  have hG : 23 * g * 5.334 ^ 2 ≤ (2 / w - 1) * 4 * (16 / N ^ 2) := by
    refine le_trans ?_ hkd
    rw [le_div_iff₀ hN2, hg]
    have : 23 * (102 / 100 * u * (N : ℝ) ^ 2) * 5.334 ^ 2 * N ^ 2 = 23 * 1.02 * 5.334 ^ 2 * (u * N ^ 4) := by ring
    rw [this]
    norm_num at *
    linarith
  have hsw : ∀ j, ∃ r, IsSorSweep (core (square N f)) (-b + r) w (V j) (V j) (V (j + 1)) ∧
      nsq r ≤ 6 * g ^ 2 * 5.334 ^ 2 * (4 * nsq z + nsq (V j - z) + nsq (V (j + 1) - z)) := by
    intro j
    obtain ⟨r, r1, r2⟩ := sorRows_pert hu0 hu1 (fun i => spd_diag H.spd i) H.w0.ne' (hrows j)
    refine ⟨r, r1, ?_⟩
    refine pert_size H hg0' hz fun i => (r2 i).trans (mul_le_mul_of_nonneg_right hg1 ?_)
    have d := spd_diag H.spd i
    have s1 : 0 ≤ ∑ j', (if i < j' then |core (square N f) i j'| * |V j j'| else 0) := Finset.sum_nonneg fun _ _ => by split_ifs <;> positivity
    have s2 : 0 ≤ ∑ j', (if j' < i then |core (square N f) i j'| * |V (j + 1) j'| else 0) := Finset.sum_nonneg fun _ _ => by split_ifs <;> positivity
    positivity
  have hsw' : ∀ j, ∃ r, IsSorSweep (core (square N f)) r w (V j - z) (V j - z) (V (j + 1) - z) ∧
      nsq r ≤ 6 * g ^ 2 * 5.334 ^ 2 * (4 * nsq z + nsq (V j - z) + nsq (V (j + 1) - z)) := fun j => by
    obtain ⟨r, r1, r2⟩ := hsw j
    exact ⟨r, sweep_pert H.ne hz r1, r2⟩
  have hrate := H.round_rate hn hg0' hG (nsq_nonneg z) (e := fun j => V j - z) hsw'
  have hE0 : (V 0 - z) ⬝ᵥ core (square N f) *ᵥ (V 0 - z) = z ⬝ᵥ (-b) := by
    rw [hV0, zero_sub, Matrix.mulVec_neg, dotProduct_neg, neg_dotProduct, neg_neg, hz]
  refine ⟨hsw, fun j => (hrate j).trans ?_, fun j => ?_⟩
  · simp only [hE0]
    have hzb : 0 ≤ z ⬝ᵥ (-b) := by
      rw [← hz]; exact le_trans (mul_nonneg H.lam0.le (nsq_nonneg z)) (H.form z)
    have p1 : (2 / w - 1) * 4 * (16 / (N : ℝ) ^ 2) / (4 * 5.334 ^ 2) ≤ 1 := by
      rw [div_le_one (by norm_num)]
      have : (2 / w - 1) * 4 * (16 / (N : ℝ) ^ 2) = (2 / w - 1) * 64 / N ^ 2 := by ring
      rw [this, div_le_iff₀ hN2]
      have hN4 : (40000 : ℝ) ≤ (N : ℝ) ^ 2 := by nlinarith
      norm_num at k2 ⊢
      linarith
    have p2 : 0.3748 / (N : ℝ) ^ 2 ≤ (2 / w - 1) * 4 * (16 / (N : ℝ) ^ 2) / (4 * 5.334 ^ 2) := by
      rw [le_div_iff₀ (by norm_num)]
      refine le_trans ?_ hkd
      rw [div_mul_eq_mul_div]
      gcongr
      norm_num
    refine add_le_add ?_ ?_
    · rw [mul_div_assoc]
      exact mul_le_mul (pow_le_pow_left₀ (by linarith) (by linarith) j) hE (div_nonneg hzb (by positivity)) (pow_nonneg (by linarith) j)
    · have q1 : g * 5.334 ^ 2 / ((2 / w - 1) * 4 * (16 / N ^ 2)) ≤ 0.681 * (u * N ^ 4) := by
        rw [div_le_iff₀ (by linarith [show 0 < 42.66 / (N : ℝ) ^ 2 by positivity])]
        refine le_trans ?_ (mul_le_mul_of_nonneg_left hkd (by positivity))
        have : 0.681 * (u * (N : ℝ) ^ 4) * (42.66 / N ^ 2) = 0.681 * 42.66 * (u * N ^ 2) := by field_simp
        rw [this, hg]
        have : 0 ≤ u * (N : ℝ) ^ 2 := by positivity
        norm_num at *
        linarith
      have q2 : 0 ≤ g * 5.334 ^ 2 / ((2 / w - 1) * 4 * (16 / N ^ 2)) := div_nonneg (by positivity) (le_trans (by positivity) hkd)
      have q3 : (35 * (g * 5.334 ^ 2 / ((2 / w - 1) * 4 * (16 / (N : ℝ) ^ 2)))) ^ 2 ≤ (1.2 / 1000) ^ 2 := by
        refine pow_le_pow_left₀ (by linarith) ?_ 2
        norm_num at *
        linarith
      calc _ ≤ (1.2 / 1000) ^ 2 * (26 / 10000 * (N : ℝ) ^ 2) := mul_le_mul q3 hz1 (nsq_nonneg z) (by positivity)
        _ ≤ _ := by nlinarith
  · obtain ⟨r, r1, r2⟩ := hsw' j
    have := (H.round_step hn hg0' hG (nsq_nonneg z) r1 r2).2
    rw [sub_sub_sub_cancel_right, show (5.334 : ℝ) / (16 / (N : ℝ) ^ 2) = 5.334 * N ^ 2 / 16 by field_simp] at this
    exact this

/-! ## Accuracy -/
section
variable {F : Type} [Zero F] [One F] [Add F] [Sub F] [Mul F] [Div F] [Neg F] [NatCast F] [OfNat F 2] [DecidableEq F] [LE F] [DecidableLE F]
variable {fl : F → ℝ} {u s : ℝ} {M : Type} [MatOps M F] [LawfulStore M F] {N : Nat} {k pi w : F} {sinF : F → F}

theorem Program.near_weight (P : Program fl u s N k pi w sinF) (hu : u ≤ 1 / 1000000) : |fl w - 6 / 5| ≤ 1 / 100000 := P.weight.trans (by linarith)

theorem small_u {N : Nat} {u : ℝ} (hN : 200 ≤ N) (hu0 : 0 ≤ u) (hu : u * N ^ 4 ≤ 1 / 20000) : u ≤ 1 / 1000000 := by
  have hNr : (200 : ℝ) ≤ N := by exact_mod_cast hN
  have : (200 : ℝ) ^ 4 ≤ (N : ℝ) ^ 4 := pow_le_pow_left₀ (by norm_num) hNr 4
  nlinarith

/-- the value that a returned vector has at a grid point -/
def at2 (fl : F → ℝ) (N : Nat) (v : List F) (x y : Nat) : ℝ := fl (v.getD (y * (N + 1) + x) 0)

theorem at2_val {f : ℝ → ℝ → ℝ} {v : List F} {V : Fin ((square N f).xc * (square N f).yc) → ℝ} (hv : VecFl fl v ((N + 1) * (N + 1)) V) {x y : Nat} (hx : x ≤ N) (hy : y ≤ N) :
    at2 fl N v x y = val2 (square N f) V x y := by
  have hl : y * (N + 1) + x < (N + 1) * (N + 1) := lin_lt (p := square N f) (Nat.lt_succ_of_le hx) (Nat.lt_succ_of_le hy)
  have e : val2 (square N f) V x y = V ⟨y * (N + 1) + x, hl⟩ := by unfold val2 ev; exact dif_pos hl
  exact (hv.getD ⟨y * (N + 1) + x, hl⟩).trans e.symm

/-- **C112** (accuracy): the finite difference program in floating-point arithmetic with unit roundoff `u`, on a grid with `N + 1` points in both directions.  If at least `28 N²` sweeps are allowed,
the tolerance is at most `1 / (2000 N)`, `u N⁴ ≤ 1/20000` and `std::sin` is accurate to 0.0001, the program ends normally, and what it writes differs from the true solution of
the Poisson problem (largest value about 0.05) by at most 0.0006 in the root mean square over the grid: all roundings, the stopping test, the discretisation and the literal
3.141592 for π are included. -/
theorem C112_accuracy {cabs : F → F} (hle : ∀ a b : F, a ≤ b ↔ fl a ≤ fl b) (hab : ∀ a, fl (cabs a) = |fl a|)
    (h : Std fl u) (ex : Exact fl (N + 1)) (P : Program fl u s N k pi w sinF) (hN : 200 ≤ N) (hu : u * N ^ 4 ≤ 1 / 20000) (hs0 : 0 ≤ s) (hs : s ≤ 1 / 10000)
    {eps : F} (he0 : 0 ≤ fl eps) (he : N * fl eps ≤ 1 / 2000) {maxIter : Nat} (hm : 28 * N ^ 2 ≤ maxIter) :
    ∃ v it, solveFl (M := M) cabs (progFl N k pi sinF) w maxIter eps = .ok (v, it) ∧ v.length = (N + 1) * (N + 1) ∧ it ≤ maxIter ∧
      ∑ y ∈ Finset.range (N + 1), ∑ x ∈ Finset.range (N + 1), (at2 fl N v x y - exact (x / N) (y / N)) ^ 2 ≤ N ^ 2 * (6 / 10000) ^ 2 := by
  have hNr : (200 : ℝ) ≤ N := by exact_mod_cast hN
  have hN0 : (0 : ℝ) < N := by linarith
  have hN2 : (0 : ℝ) < (N : ℝ) ^ 2 := by positivity
  have hu0 := h.u_nonneg
  have hu6 := small_u hN hu0 hu
  obtain ⟨f, z, b, y, V, -, -, hz, hnear, hz1, hE, hyV, hV0, -, hrows, hrun⟩ := prog_run (M := M) h ex P hN hu hs0 hs cabs eps
  obtain ⟨-, s2, s3⟩ := sweeps_bound hN hu0 h.u_lt hu (P.near_weight hu6) hz hz1 hE hV0 hrows
  obtain ⟨it, i1, i2, i3, i4⟩ := hrun maxIter
  refine ⟨y it, it, i1, (hyV it).1, i2, ?_⟩
  have hS : nsq (V it - z) ≤ 1.4 / 10 ^ 7 * N ^ 2 := by
    rcases Nat.lt_or_ge it maxIter with hlt | hge
    · obtain ⟨m, rfl⟩ : ∃ m, it = m + 1 := ⟨it - 1, by have := i3 (by omega); omega⟩
      have hst := (i4 hlt).length hle hab h (hyV _).1 (hyV _).1
      simp only [Nat.add_sub_cancel, fun j i => (hyV j).getD i] at hst
      have hst' : nsq (V (m + 1) - V m) ≤ fl eps ^ 2 * (1 + gam u ((N + 1) * (N + 1) + 3)) := hst
      have hg := gam_grid hN hu0 hu
      have hg0 : 0 ≤ gam u ((N + 1) * (N + 1) + 3) := gam_nonneg hu0 h.u_lt
      have hg1 : gam u ((N + 1) * (N + 1) + 3) ≤ 1 / 100 := by
        refine hg.trans ?_
        have : u * (N : ℝ) ^ 4 = u * N ^ 2 * N ^ 2 := by ring
        have h5 : 0 ≤ u * (N : ℝ) ^ 2 := by positivity
        nlinarith
      have e1 : nsq (V (m + 1) - V m) ≤ 1.01 * fl eps ^ 2 := by
        refine hst'.trans ?_
        have := mul_le_mul_of_nonneg_left hg1 (sq_nonneg (fl eps))
        norm_num at *
        linarith
      have e2 : (N * fl eps) ^ 2 ≤ (1 / 2000 : ℝ) ^ 2 := pow_le_pow_left₀ (by positivity) he 2
      have e3 : (u * (N : ℝ) ^ 4) ^ 2 ≤ (1 / 20000 : ℝ) ^ 2 := pow_le_pow_left₀ (by positivity) hu 2
      refine (s3 m).trans ?_
      have t1 : (5.334 * (N : ℝ) ^ 2 / 16) ^ 2 * (66 * (102 / 100 * u * N ^ 2) ^ 2 * nsq z + 3 * nsq (V (m + 1) - V m)) ≤
          (5.334 * (N : ℝ) ^ 2 / 16) ^ 2 * (66 * (102 / 100 * u * N ^ 2) ^ 2 * (26 / 10000 * N ^ 2) + 3 * (1.01 * fl eps ^ 2)) := by
        gcongr
      refine t1.trans ?_
      have t2 : (5.334 * (N : ℝ) ^ 2 / 16) ^ 2 * (66 * (102 / 100 * u * N ^ 2) ^ 2 * (26 / 10000 * N ^ 2) + 3 * (1.01 * fl eps ^ 2)) =
          ((5.334 / 16) ^ 2 * 66 * (102 / 100) ^ 2 * (26 / 10000) * (u * N ^ 4) ^ 2 + (5.334 / 16) ^ 2 * 3.03 * (N * fl eps) ^ 2) * N ^ 2 := by ring
      rw [t2]
      refine mul_le_mul_of_nonneg_right ?_ hN2.le
      norm_num at *
      linarith
    · refine (s2 it).trans ?_
      have hq0 : 0 ≤ 1 - 0.3748 / (N : ℝ) ^ 2 := by
        rw [sub_nonneg, div_le_one hN2]; norm_num; nlinarith
      have a1 : (1 - 0.3748 / (N : ℝ) ^ 2) ^ it ≤ Real.exp (-10.4) := by
        refine (pow_le_pow_left₀ hq0 (Real.one_sub_le_exp_neg _) it).trans ?_
        rw [← Real.exp_nat_mul, Real.exp_le_exp]
        have a3 : 28 * (N : ℝ) ^ 2 ≤ it := by exact_mod_cast hm.trans hge
        have a4 : (it : ℝ) * -(0.3748 / (N : ℝ) ^ 2) = -(0.3748 * it / (N : ℝ) ^ 2) := by ring
        rw [a4, neg_le_neg_iff, le_div_iff₀ hN2]
        norm_num at *
        linarith
      have hex : Real.exp (-10.4) ≤ 1 / 30000 := by
        rw [Real.exp_neg, ← one_div]
        refine one_div_le_one_div_of_le (by norm_num) ?_
        have a1 : Real.exp 10.4 = Real.exp 1 ^ 10 * Real.exp 0.4 := by
          rw [← Real.exp_nat_mul, ← Real.exp_add]; norm_num
        have a2 : (2.718 : ℝ) ^ 10 ≤ Real.exp 1 ^ 10 := pow_le_pow_left₀ (by norm_num) (by linarith [Real.exp_one_gt_d9]) 10
        have a3 : (1.4 : ℝ) ≤ Real.exp 0.4 := by linarith [Real.add_one_le_exp (0.4 : ℝ)]
        rw [a1]
        calc (30000 : ℝ) ≤ 2.718 ^ 10 * 1.4 := by norm_num
          _ ≤ _ := mul_le_mul a2 a3 (by norm_num) (by positivity)
      have a5 := mul_le_mul_of_nonneg_right (a1.trans hex) (by positivity : 0 ≤ 40 / 10000 * (N : ℝ) ^ 2)
      norm_num at *
      linarith
  have hpt : ∀ y' ∈ Finset.range (N + 1), ∀ x' ∈ Finset.range (N + 1), (at2 fl N (y it) x' y' - exact (x' / N) (y' / N)) ^ 2 ≤
      2 * (val2 (square N f) (V it - z) x' y') ^ 2 + 2 * (1 / 10000) ^ 2 := by
    intro y' hy' x' hx'
    rw [Finset.mem_range] at hx' hy'
    rw [at2_val (f := f) (hyV it) (by omega) (by omega)]
    have e : val2 (square N f) (V it - z) x' y' = val2 (square N f) (V it) x' y' - val2 (square N f) z x' y' := val2_sub (p := square N f) (V it) z x' y'
    rw [e]
    have b1 := hnear x' y' (by omega) (by omega)
    have b2 := pow_le_pow_left₀ (abs_nonneg _) b1 2
    rw [sq_abs] at b2
    nlinarith [sq_nonneg ((val2 (square N f) (V it) x' y' - val2 (square N f) z x' y') - (val2 (square N f) z x' y' - exact (x' / N) (y' / N)))]
  refine (Finset.sum_le_sum fun y' hy' => Finset.sum_le_sum fun x' hx' => hpt y' hy' x' hx').trans ?_
  simp only [Finset.sum_add_distrib, ← Finset.mul_sum, Finset.sum_const, Finset.card_range, nsmul_eq_mul]
  have hg := nsq_grid (p := square N f) (X := N) (Y := N) rfl rfl (V it - z)
  have hS' : nsq (V it - z) = ∑ y ∈ Finset.range (N + 1), ∑ x ∈ Finset.range (N + 1), val2 (square N f) (V it - z) x y ^ 2 := hg
  rw [hS'] at hS
  have hN4 : ((N : ℝ) + 1) * (N + 1) ≤ 1.011 * N ^ 2 := by norm_num; nlinarith
  push_cast
  generalize (∑ y ∈ Finset.range (N + 1), ∑ x ∈ Finset.range (N + 1), val2 (square N f) (V it - z) x y ^ 2) = S at *
  norm_num at hS hN4 ⊢
  linarith
end

/-! ## Too few sweeps -/

/-- sweeps started at zero exist -/
theorem exists_sweeps {n : Nat} (A : Matrix (Fin n) (Fin n) ℝ) (b : Fin n → ℝ) (w : ℝ) : ∃ W : Nat → Fin n → ℝ, W 0 = 0 ∧ ∀ j, IsSorSweep A b w (W j) (W j) (W (j + 1)) := by
  have hex : ∀ x : Fin n → ℝ, ∃ y, IsSorSweep A b w x x y := fun x => NS.Props.CxIterative.sorSweep_exists A b w x x
  choose g hg using hex
  exact ⟨fun j => Nat.rec 0 (fun _ x => g x) j, rfl, fun j => hg _⟩

theorem core_sweep' {p : Poisson ℝ} {w : ℝ} {b e e' : Fin (p.xc * p.yc) → ℝ} (hb : ∀ i, rimIx p i → b i = 0) (he : ∀ i, rimIx p i → e i = 0)
    (hs : IsSorSweep (mat p) b w e e e') : (∀ i, rimIx p i → e' i = 0) ∧ IsSorSweep (core p) (-b) w e e e' := by
  have hrow : ∀ i, SorRowV 0 (mat p) w b e e e' i := by
    intro i
    refine ⟨1, 1, fun _ => 1, by simp [Rounding.Th], by simp [Rounding.Th], fun _ => by simp [Rounding.Th], ?_⟩
    rw [hs i, one_mul, one_mul]
    congr 4
    refine Finset.sum_congr rfl fun j _ => ?_
    rcases lt_trichotomy j i with h | h | h
    · simp [h, h.ne]
    · simp [h]
    · simp [h, h.ne', not_lt.2 h.le]
  obtain ⟨h1, h2⟩ := sorRow_core hb he hrow
  refine ⟨h1, fun i => ?_⟩
  obtain ⟨θ₁, θ₂, t, a1, a2, a3, a4⟩ := h2 i
  have one : ∀ {n : Nat} {c : ℝ}, Rounding.Th 0 n c → c = 1 := by
    intro n c hc
    have := hc.1; have := hc.2
    simp at *
    linarith
  rw [a4, one a1, one a2, one_mul, one_mul]
  congr 4
  refine Finset.sum_congr rfl fun j _ => ?_
  rw [one (a3 j), mul_one]
  rcases lt_trichotomy j i with h | h | h
  · simp [h, h.ne]
  · simp [h]
  · simp [h, h.ne', not_lt.2 h.le]

/-- rounded sweeps stay near the exact ones -/
theorem sweeps_near {N : Nat} {f : ℝ → ℝ → ℝ} {u w : ℝ} (hN : 200 ≤ N) (hu0 : 0 ≤ u) (hu1 : u < 1) (hu : u * N ^ 4 ≤ 1 / 20000) (hw : |w - 6 / 5| ≤ u * (6 / 5))
    {z b : Fin ((square N f).xc * (square N f).yc) → ℝ} (hz : core (square N f) *ᵥ z = -b) (hz1 : nsq z ≤ 26 / 10000 * N ^ 2)
    (hE : z ⬝ᵥ (-b) / (16 / N ^ 2) ≤ 40 / 10000 * N ^ 2)
    {V W : Nat → Fin ((square N f).xc * (square N f).yc) → ℝ} (hV0 : V 0 = 0) (hrows : ∀ j i, SorRowV u (core (square N f)) w (-b) (V j) (V j) (V (j + 1)) i)
    (hW0 : W 0 = 0) (hW : ∀ j, IsSorSweep (core (square N f)) (-b) (6 / 5) (W j) (W j) (W (j + 1))) (j : Nat) : nsq (V j - W j) ≤ j * (u ^ 2 * N ^ 8 / 2) := by
  have hNr : (200 : ℝ) ≤ N := by exact_mod_cast hN
  have hN0 : (0 : ℝ) < N := by linarith
  have hN2 : (40000 : ℝ) ≤ (N : ℝ) ^ 2 := by nlinarith
  have hu6 := small_u hN hu0 hu
  have hw' : |w - 6 / 5| ≤ 1 / 100000 := hw.trans (by linarith)
  obtain ⟨s1, s2, -⟩ := sweeps_bound hN hu0 hu1 hu hw' hz hz1 hE hV0 hrows
  have H := core_const (f := f) (by omega : 2 ≤ N) (w := 6 / 5) (R := 5.334) (by norm_num) (by norm_num) (by norm_num)
  have hd : ∀ i, core (square N f) i i = 4 := fun i => by rw [core_diag, square_r2 (by omega)]; norm_num
  have hbd : ∀ j, nsq (V j - z) ≤ 41 / 10000 * N ^ 2 := by
    intro j
    refine (s2 j).trans ?_
    have hq0 : 0 ≤ 1 - 0.3748 / (N : ℝ) ^ 2 := by
      rw [sub_nonneg, div_le_one (by positivity)]; norm_num; linarith
    have hq1 : 1 - 0.3748 / (N : ℝ) ^ 2 ≤ 1 := by rw [sub_le_self_iff]; positivity
    have := mul_le_mul_of_nonneg_right (pow_le_one₀ hq0 hq1 (n := j)) (by positivity : 0 ≤ 40 / 10000 * (N : ℝ) ^ 2)
    norm_num at *
    linarith
  have hww : |1 / (6 / 5 : ℝ) - 1 / w| ≤ 84 / 100 * u := by
    obtain ⟨w0, -⟩ := weight_facts hw'
    have e : 1 / (6 / 5 : ℝ) - 1 / w = (w - 6 / 5) / (6 / 5 * w) := by field_simp
    rw [e, abs_div, div_le_iff₀ (by positivity), abs_of_pos (by positivity : 0 < 6 / 5 * w)]
    refine hw.trans ?_
    rw [abs_le] at hw'
    nlinarith
  have hstep : ∀ j, (V (j + 1) - W (j + 1)) ⬝ᵥ core (square N f) *ᵥ (V (j + 1) - W (j + 1)) ≤ (V j - W j) ⬝ᵥ core (square N f) *ᵥ (V j - W j) + 8 * (u ^ 2 * N ^ 6) := by
    intro j
    obtain ⟨r, r1, r2⟩ := s1 j
    have t1 := sweep_weight H.ne (w := 6 / 5) (by norm_num) (weight_facts hw').1.ne' r1
    set t : Fin ((square N f).xc * (square N f).yc) → ℝ := fun i => (1 / (6 / 5) - 1 / w) * (core (square N f) i i * (V (j + 1) i - V j i)) with ht
    have t2 := sweep_sub t1 (hW j)
    have e1 : -b + r + t - -b = r + t := by abel
    rw [e1] at t2
    have st := (H.step t2).1
    have nt : nsq t ≤ 16 * (84 / 100 * u) ^ 2 * nsq (V (j + 1) - V j) := by
      unfold nsq
      rw [Finset.mul_sum]
      refine Finset.sum_le_sum fun i _ => ?_
      rw [ht, Pi.sub_apply]
      beta_reduce
      rw [hd]
      have h1 := pow_le_pow_left₀ (abs_nonneg _) hww 2
      rw [sq_abs] at h1
      have : ((1 / (6 / 5) - 1 / w) * (4 * (V (j + 1) i - V j i))) ^ 2 = 16 * (1 / (6 / 5) - 1 / w) ^ 2 * (V (j + 1) i - V j i) ^ 2 := by ring
      rw [this]
      gcongr
    have nd : nsq (V (j + 1) - V j) ≤ 164 / 10000 * N ^ 2 := by
      have := nsq_add (V (j + 1) - z) (-(V j - z))
      have e2 : V (j + 1) - z + -(V j - z) = V (j + 1) - V j := by abel
      have e3 : nsq (-(V j - z)) = nsq (V j - z) := by unfold nsq; exact Finset.sum_congr rfl fun i _ => by rw [Pi.neg_apply, neg_sq]
      rw [e2, e3] at this
      linarith [hbd j, hbd (j + 1)]
    have nr : nsq r ≤ 34 / 10 * (u ^ 2 * N ^ 6) := by
      refine r2.trans ?_
      have : 4 * nsq z + nsq (V j - z) + nsq (V (j + 1) - z) ≤ 186 / 10000 * N ^ 2 := by linarith [hbd j, hbd (j + 1)]
      refine (mul_le_mul_of_nonneg_left this (by positivity)).trans ?_
      have e2 : 6 * (102 / 100 * u * (N : ℝ) ^ 2) ^ 2 * 5.334 ^ 2 * (186 / 10000 * N ^ 2) = 6 * (102 / 100) ^ 2 * 5.334 ^ 2 * (186 / 10000) * (u ^ 2 * N ^ 6) := by ring
      rw [e2]
      exact mul_le_mul_of_nonneg_right (by norm_num) (by positivity)
    have nt' : nsq t ≤ 1 / 1000 * (u ^ 2 * N ^ 6) := by
      refine (nt.trans (mul_le_mul_of_nonneg_left nd (by positivity))).trans ?_
      have e2 : 16 * (84 / 100 * u) ^ 2 * (164 / 10000 * (N : ℝ) ^ 2) = 16 * (84 / 100) ^ 2 * (164 / 10000) * (u ^ 2 * N ^ 2) := by ring
      have e3 : u ^ 2 * (N : ℝ) ^ 6 = (u ^ 2 * N ^ 2) * (N ^ 2 * N ^ 2) := by ring
      rw [e2, e3]
      have h5 : 0 ≤ u ^ 2 * (N : ℝ) ^ 2 := by positivity
      have h6 : (1000 : ℝ) ≤ N ^ 2 * N ^ 2 := by nlinarith
      nlinarith [mul_le_mul_of_nonneg_left h6 h5]
    have na := nsq_add r t
    have hs : 0 ≤ nsq (V (j + 1) - W (j + 1) - (V j - W j)) := nsq_nonneg _
    rw [show (2 / (6 / 5 : ℝ) - 1) * 4 = 8 / 3 by norm_num] at st
    have h6 : 0 ≤ u ^ 2 * (N : ℝ) ^ 6 := by positivity
    linarith
  have hall : ∀ j, (V j - W j) ⬝ᵥ core (square N f) *ᵥ (V j - W j) ≤ j * (8 * (u ^ 2 * N ^ 6)) := by
    intro j
    induction j with
    | zero => rw [hV0, hW0]; simp
    | succ j ih =>
      have := hstep j
      push_cast
      linarith
  have h1 := (H.form (V j - W j)).trans (hall j)
  have h2 : 16 / (N : ℝ) ^ 2 * nsq (V j - W j) ≤ 16 / (N : ℝ) ^ 2 * (j * (u ^ 2 * N ^ 8 / 2)) := by
    refine h1.trans (le_of_eq ?_)
    field_simp
    ring
  exact le_of_mul_le_mul_left h2 (by positivity)

section
variable {F : Type} [Zero F] [One F] [Add F] [Sub F] [Mul F] [Div F] [Neg F] [NatCast F] [OfNat F 2] [DecidableEq F] [LE F] [DecidableLE F]
variable {fl : F → ℝ} {u s : ℝ} {M : Type} [MatOps M F] [LawfulStore M F] {N : Nat} {k pi w : F} {sinF : F → F}

/-- **C112** (too few sweeps): the finite difference program in floating-point arithmetic with unit roundoff `u`, on a grid with `N + 1` points in both directions, `u N⁵ ≤ 1/2000` and
`std::sin` accurate to 0.0001.  Whatever the tolerance, with at most `N² / 39` sweeps the program ends normally, and at some inner grid point the number it writes is off by more than half
of the true solution of the Poisson problem.  (C104 is the same statement for exact arithmetic.) -/
theorem C112_slow (h : Std fl u) (ex : Exact fl (N + 1)) (P : Program fl u s N k pi w sinF) (hN : 200 ≤ N) (hu : u * N ^ 5 ≤ 1 / 2000) (hs0 : 0 ≤ s) (hs : s ≤ 1 / 10000)
    (cabs : F → F) (eps : F) {maxIter : Nat} (hm : 39 * maxIter ≤ N ^ 2) :
    ∃ v it, solveFl (M := M) cabs (progFl N k pi sinF) w maxIter eps = .ok (v, it) ∧ v.length = (N + 1) * (N + 1) ∧ it ≤ maxIter ∧
      ∃ x y : Nat, 0 < x ∧ x < N ∧ 0 < y ∧ y < N ∧ exact (x / N) (y / N) / 2 < |at2 fl N v x y - exact (x / N) (y / N)| := by
  have hNr : (200 : ℝ) ≤ N := by exact_mod_cast hN
  have hN0 : (0 : ℝ) < N := by linarith
  have hu0 := h.u_nonneg
  have hu4 : u * (N : ℝ) ^ 4 ≤ 1 / 20000 := by
    have e : u * (N : ℝ) ^ 5 = u * N ^ 4 * N := by ring
    have h5 : 0 ≤ u * (N : ℝ) ^ 4 := by positivity
    nlinarith
  obtain ⟨f, z, b, y, V, hmz, hbz, hz, hnear, hz1, hE, hyV, hV0, hVr, hrows, hrun⟩ := prog_run (M := M) h ex P hN hu4 hs0 hs cabs eps
  obtain ⟨it, i1, i2, -, -⟩ := hrun maxIter
  refine ⟨y it, it, i1, (hyV it).1, i2, ?_⟩
  obtain ⟨W, hW0, hW⟩ := exists_sweeps (mat (square N f)) b (6 / 5)
  have hWr : ∀ j i, rimIx (square N f) i → W j i = 0 := by
    intro j
    induction j with
    | zero => intro i _; rw [hW0]; rfl
    | succ j ih => exact (core_sweep' (fun i hi => (hbz i hi).1) ih (hW j)).1
  have hn := sweeps_near hN hu0 h.u_lt hu4 P.weight hz hz1 hE hV0 hrows hW0 (fun j => (core_sweep' (fun i hi => (hbz i hi).1) (hWr j) (hW j)).2) it
  have hclose : ∀ i, |V it i - W it i| ≤ 1 / 10000 := by
    intro i
    have h1 := (nsq_single (V it - W it) i).trans hn
    rw [Pi.sub_apply] at h1
    refine abs_le_of_sq_le_sq (h1.trans ?_) (by norm_num)
    have h2 : 39 * (it : ℝ) ≤ (N : ℝ) ^ 2 := by exact_mod_cast (Nat.mul_le_mul_left 39 i2).trans hm
    have h3 : (u * (N : ℝ) ^ 5) ^ 2 ≤ (1 / 2000) ^ 2 := pow_le_pow_left₀ (by positivity) hu 2
    have h4 : 0 ≤ u ^ 2 * (N : ℝ) ^ 8 / 2 := by positivity
    have h5 := mul_le_mul_of_nonneg_right h2 h4
    have h6 : (N : ℝ) ^ 2 * (u ^ 2 * N ^ 8 / 2) = (u * N ^ 5) ^ 2 / 2 := by ring
    rw [h6] at h5
    norm_num at *
    linarith
  have hh := square_h (N := N) (f := f) (by omega)
  have hr1 := square_r2 (N := N) (f := f) (by omega)
  obtain ⟨ρ, r1, r2, r3⟩ := exists_root hN
  have hv1 : 7.44 / (N : ℝ) ^ 2 ≤ 7.44 / 40000 := by gcongr; nlinarith
  have hρ : 0 < ρ := by
    have : (7.44 : ℝ) / 40000 < 1 := by norm_num
    linarith
  have hc : ∀ i, mat (square N f) i i ≠ 0 := by
    intro i
    by_cases hi : rimIx (square N f) i
    · rw [mat_rim hi, if_pos rfl]; exact one_ne_zero
    · rw [mat_inner hi, if_pos rfl]; unfold Poisson.c; rw [hr1]; norm_num
  have hix : ∀ x y (hx : x < (square N f).xc) (hy : y < (square N f).yc), OnRim (square N f) x y → rimIx (square N f) ⟨(square N f).lin x y, lin_lt hx hy⟩ := by
    intro x y hx hy hr
    unfold rimIx
    simp only
    rw [lin_mod hx, lin_div hx]
    exact hr
  have hval : ∀ (v : Fin ((square N f).xc * (square N f).yc) → ℝ) x y (hx : x < (square N f).xc) (hy : y < (square N f).yc), val2 (square N f) v x y = v ⟨(square N f).lin x y, lin_lt hx hy⟩ := by
    intro v x y hx hy
    unfold val2 ev
    exact dif_pos (lin_lt (p := square N f) hx hy)
  obtain ⟨d1, d2⟩ := decay_core (p := square N f) (X := N) (Y := N) (w := 6 / 5) (ρ := ρ) (by omega) (by omega) rfl rfl hh hh hρ.ne' (by rw [hr1]; exact r3) (z := z)
    (fun x y hx hy hr => by rw [hval z x y hx hy]; exact (hbz _ (hix x y hx hy hr)).2) hW0 (fun j => sweep_error hc hmz (hW j)) it
  rw [hr1] at d1
  by_contra hcon
  push Not at hcon
  refine slow_core hN ((Nat.mul_le_mul_left 39 i2).trans hm) r1 r2 (fun x y hx hy => hnear x y hx.le hy.le) (fun x' y' hx hy => ?_) d1
  have hx' : x' < (square N f).xc := Nat.lt_succ_of_lt hx
  have hy' : y' < (square N f).yc := Nat.lt_succ_of_lt hy
  by_cases h0 : 0 < x' ∧ 0 < y'
  · have h1 := hcon x' y' h0.1 hx h0.2 hy
    rw [at2_val (f := f) (hyV it) hx.le hy.le] at h1
    have h2 := hclose ⟨(square N f).lin x' y', lin_lt hx' hy'⟩
    rw [hval _ x' y' hx' hy'] at h1 ⊢
    rw [abs_le] at h1 h2 ⊢
    constructor <;> linarith
  · have hv := d2 x' y' hx' hy' (by unfold OnRim; omega)
    have he : exact (x' / N) (y' / N) = 0 := by
      unfold exact
      rcases (by omega : x' = 0 ∨ y' = 0) with h | h <;> rw [h] <;> simp
    rw [hv, he]; norm_num
end

/-! ## `double` -/
section
open NS.Rounding (Bin rn_err rn_exact)

instance {p : Nat} : NatCast (Bin p) := ⟨fun n => Bin.rnd n⟩
instance {p : Nat} : OfNat (Bin p) 2 := ⟨Bin.rnd 2⟩

/-- the real number that a binary floating-point number means -/
noncomputable def real {p : Nat} (a : Bin p) : ℝ := (a.toRat : ℝ)

theorem cast_err {n : Nat} {a b : ℚ} (h : |a - b| ≤ (1 / 2) ^ n * |b|) : |(a : ℝ) - b| ≤ (1 / 2) ^ n * |(b : ℝ)| := by
  have := (Rat.cast_le (K := ℝ)).2 h
  push_cast at this
  exact this

theorem std_real (p : Nat) : Std (F := Bin p) real ((1 / 2) ^ (p + 1)) where
  u_nonneg := by positivity
  u_lt := pow_lt_one₀ (by norm_num) (by norm_num) (Nat.succ_ne_zero p)
  inj _ _ h := (Bin.std p).inj (Rat.cast_injective h)
  zero := by unfold real; rw [(Bin.std p).zero]; exact Rat.cast_zero
  one := by unfold real; rw [(Bin.std p).one]; exact Rat.cast_one
  add a b := by have := cast_err ((Bin.std p).add a b); push_cast at this; exact this
  sub a b := by have := cast_err ((Bin.std p).sub a b); push_cast at this; exact this
  mul a b := by have := cast_err ((Bin.std p).mul a b); push_cast at this; exact this
  div a b h := by
    unfold real at h
    have := cast_err ((Bin.std p).div a b (by exact_mod_cast h))
    push_cast at this
    exact this
  add_exact a b c h := (Bin.std p).add_exact a b c (by unfold real at h; exact_mod_cast h)
  sub_exact a b c h := (Bin.std p).sub_exact a b c (by unfold real at h; exact_mod_cast h)
  mul_exact a b c h := (Bin.std p).mul_exact a b c (by unfold real at h; exact_mod_cast h)
  div_exact a b c h0 h := (Bin.std p).div_exact a b c (by unfold real at h0; exact_mod_cast h0) (by unfold real at h; exact_mod_cast h)

theorem rnd_real (p : Nat) (x : ℚ) : |real (Bin.rnd x : Bin p) - x| ≤ (1 / 2) ^ (p + 1) * |(x : ℝ)| := by
  exact cast_err (rn_err (p + 1) x)

theorem exact_real {p L : Nat} (hL : L < 2 ^ (p + 1)) (h2 : 2 ≤ L) : Exact (F := Bin p) real L := by
  have hc : ∀ n : Nat, n ≤ L → real (Bin.rnd (n : ℚ) : Bin p) = n := by
    intro n hn
    have : (Bin.rnd (n : ℚ) : Bin p).toRat = n := rn_exact ⟨n, 0, by rw [Nat.abs_cast]; exact_mod_cast hn.trans_lt hL, by simp⟩
    unfold real
    rw [this]; simp
  refine ⟨fun a => ?_, ?_, hc⟩
  · show ((-a.toRat : ℚ) : ℝ) = _
    push_cast; rfl
  · have := hc 2 h2
    push_cast at this
    exact this

/-- the absolute value -/
def babs {p : Nat} (a : Bin p) : Bin p := if 0 ≤ a.toRat then a else -a

theorem babs_real {p : Nat} (a : Bin p) : real (babs a) = |real a| := by
  unfold babs real
  split_ifs with h
  · rw [abs_of_nonneg (by exact_mod_cast h)]
  · rw [abs_of_neg (by exact_mod_cast not_le.1 h)]
    show ((-a.toRat : ℚ) : ℝ) = _
    push_cast; rfl

theorem program_real {s : ℝ} {sinF : Bin 52 → Bin 52} (hs : ∀ a : Bin 52, 0 ≤ real a → real a ≤ 4 → |real (sinF a) - Real.sin (real a)| ≤ s) :
    Program (F := Bin 52) real ((1 / 2) ^ 53) s 200 (Bin.rnd (1 / 200)) (Bin.rnd 3.141592) (Bin.rnd (6 / 5)) sinF := by
  refine ⟨?_, ?_, ?_, hs⟩
  · have := rnd_real 52 (1 / 200)
    rw [abs_of_pos (by norm_num : (0 : ℝ) < ((1 / 200 : ℚ) : ℝ))] at this
    push_cast at this ⊢
    exact this
  · have := rnd_real 52 3.141592
    rw [abs_of_pos (by norm_num : (0 : ℝ) < ((3.141592 : ℚ) : ℝ))] at this
    push_cast at this ⊢
    exact this
  · have := rnd_real 52 (6 / 5)
    rw [abs_of_pos (by norm_num : (0 : ℝ) < ((6 / 5 : ℚ) : ℝ))] at this
    push_cast at this ⊢
    exact this

/-- **C112** for the shipped program: 53 significant bits, 201 x 201 points, mesh width 0.005, `pi` = 3.141592, weight 1.2, at most 1024 sweeps, tolerance 1e-4, and any `std::sin` that is accurate to
0.0001.  The program ends normally, and some number it writes is off by more than half of the true solution. -/
theorem C112_program {M : Type} [MatOps M (Bin 52)] [LawfulStore M (Bin 52)] {sinF : Bin 52 → Bin 52}
    (hs : ∀ a : Bin 52, 0 ≤ real a → real a ≤ 4 → |real (sinF a) - Real.sin (real a)| ≤ 1 / 10000) :
    ∃ v it, solveFl (M := M) babs (progFl 200 (Bin.rnd (1 / 200)) (Bin.rnd 3.141592) sinF) (Bin.rnd (6 / 5)) 1024 (Bin.rnd (1 / 10000)) = .ok (v, it) ∧ v.length = 201 * 201 ∧ it ≤ 1024 ∧
      ∃ x y : Nat, 0 < x ∧ x < 200 ∧ 0 < y ∧ y < 200 ∧ exact (x / 200) (y / 200) / 2 < |at2 real 200 v x y - exact (x / 200) (y / 200)| := by
  have := C112_slow (M := M) (std_real 52) (exact_real (L := 201) (by norm_num) (by norm_num)) (program_real hs) le_rfl (by norm_num) (by norm_num) le_rfl babs (Bin.rnd (1 / 10000))
    (maxIter := 1024) (by norm_num)
  simpa only [Nat.cast_ofNat] using this

/-- such a `std::sin` exists: round a fraction near the sine -/
theorem exists_sin : ∃ sinF : Bin 52 → Bin 52, ∀ a : Bin 52, 0 ≤ real a → real a ≤ 4 → |real (sinF a) - Real.sin (real a)| ≤ 1 / 10000 := by
  have hex : ∀ a : Bin 52, ∃ q : ℚ, |Real.sin (real a) - q| < 1 / 100000 := fun a => exists_rat_near (Real.sin (real a)) (by norm_num)
  choose g hg using hex
  refine ⟨fun a => Bin.rnd (g a), fun a _ _ => ?_⟩
  have h1 := rnd_real 52 (g a)
  have h2 := hg a
  have h3 := abs_sin_le_one (real a)
  have h4 : |(g a : ℝ)| ≤ 2 := by
    rw [abs_lt] at h2; rw [abs_le] at h3 ⊢; constructor <;> linarith
  have h5 : |real (Bin.rnd (g a) : Bin 52) - g a| ≤ 1 / 100000 := by
    refine h1.trans ((mul_le_mul_of_nonneg_left h4 (by positivity)).trans (by norm_num))
  rw [abs_lt] at h2
  rw [abs_le] at h5 ⊢
  constructor <;> linarith

/-- the matrix type of the program -/
example := C112_program (M := Sparse (Bin 52)) (exists_sin.choose_spec)

/-- `C112_accuracy`: the same grid with 1120000 sweeps and the tolerance 1 / 500000 -/
example := C112_accuracy (M := Sparse (Bin 52)) (cabs := babs) (fun a b => (by unfold real; exact_mod_cast Iff.rfl)) babs_real (std_real 52)
  (exact_real (L := 201) (by norm_num) (by norm_num)) (program_real exists_sin.choose_spec) le_rfl (by norm_num) (by norm_num) le_rfl
  (eps := Bin.rnd (1 / 500000)) (maxIter := 1120000)
  (by have := rnd_real 52 (1 / 500000); rw [abs_of_pos (by norm_num : (0 : ℝ) < ((1 / 500000 : ℚ) : ℝ)), abs_le] at this; push_cast at this; norm_num at this ⊢; linarith)
  (by have := rnd_real 52 (1 / 500000); rw [abs_of_pos (by norm_num : (0 : ℝ) < ((1 / 500000 : ℚ) : ℝ)), abs_le] at this; push_cast at this; norm_num at this ⊢; linarith)
  (by norm_num)
end

end NS.Props.Fdm

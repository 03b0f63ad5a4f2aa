/-
Property C112: the finite difference program `examples/poisson/fdm.cpp` in floating-point arithmetic: how accurate what it writes is, and that 1024 sweeps are not enough.
-/
import Verif.Props.RoundFdm

set_option linter.unusedSectionVars false
set_option linter.unusedSimpArgs false

namespace NS.Props.Fdm
open NS NS.Fdm NS.Grid MatOps Matrix Real NS.Iterative NS.Props.Iter
open NS.Props.Rounding (VecFl MatFl SorRowV sorRows_pert pert_size sor_run StopTest)
open NS.Rounding (Std gam gam_le gam_nonneg)

section
variable {N : Nat} {f : ℝ → ℝ → ℝ}

theorem square_r2 (hN : 0 < N) : (square N f).r2 = 1 := by
  have : (0 : ℝ) < N := by exact_mod_cast hN
  show 1 / (N : ℝ) * (1 / N) / (1 / N * (1 / N)) = 1
  field_simp

theorem square_h (hN : 0 < N) : (square N f).h ≠ 0 := by
  have : (0 : ℝ) < N := by exact_mod_cast hN
  show 1 / (N : ℝ) ≠ 0
  positivity

theorem core_const (hN : 2 ≤ N) {w R : ℝ} (hw0 : 0 < w) (hw2 : w < 2) (hR : 4 / w + 2 ≤ R) : SorConst (core (square N f)) w (16 / N ^ 2) 4 R := by
  have hN0 : (0 : ℝ) < N := by exact_mod_cast (by omega : 0 < N)
  have hh := square_h (N := N) (f := f) (by omega)
  have hr := square_r2 (N := N) (f := f) (by omega)
  have hd : ∀ i, core (square N f) i i = 4 := fun i => by rw [core_diag, hr]; norm_num
  have h4 : 0 < 4 / w := by positivity
  refine ⟨core_spd hh hh hN hN rfl rfl, hw0, hw2, by positivity, by norm_num, by linarith, fun v => ?_, fun i => (hd i).ge, fun i => ?_, fun i => ?_⟩
  · have := core_form (p := square N f) hh hh hN hN rfl rfl v
    rw [hr] at this
    refine le_trans (le_of_eq ?_) this
    unfold nsq
    congr 1
    ring
  · have := (core_row (p := square N f) hh hh i).1
    rw [hd]; rw [hr] at this; linarith
  · have := (core_row (p := square N f) hh hh i).2
    rw [hd]; rw [hr] at this; linarith

theorem nsq_rim (hN : 0 < N) {v : Fin ((square N f).xc * (square N f).yc) → ℝ} (hv : ∀ i, rimIx (square N f) i → v i = 0) {c : ℝ} (hc : ∀ i, |v i| ≤ c) :
    nsq v ≤ c ^ 2 * N ^ 2 := by
  rw [nsq_grid (X := N) (Y := N) rfl rfl v, sq (N : ℝ)]
  refine grid_sum_le (sq_nonneg c) (fun x y hx hy h0 => ?_) (fun x y hx hy => ?_)
  · have hx' : x < (square N f).xc := Nat.lt_succ_of_le hx
    have hy' : y < (square N f).yc := Nat.lt_succ_of_le hy
    have : val2 (square N f) v x y = v ⟨(square N f).lin x y, lin_lt hx' hy'⟩ := by unfold val2 ev; exact dif_pos (lin_lt (p := square N f) hx' hy')
    rw [this, hv]
    · simp
    · unfold rimIx OnRim
      simp only
      rw [lin_mod hx', lin_div hx']
      omega
  · have hx' : x < (square N f).xc := Nat.lt_succ_of_le hx
    have hy' : y < (square N f).yc := Nat.lt_succ_of_le hy
    have : val2 (square N f) v x y = v ⟨(square N f).lin x y, lin_lt hx' hy'⟩ := by unfold val2 ev; exact dif_pos (lin_lt (p := square N f) hx' hy')
    rw [this, ← sq_abs]
    exact pow_le_pow_left₀ (abs_nonneg _) (hc _) 2

theorem gam_grid {u : ℝ} (hN : 200 ≤ N) (hu : 0 ≤ u) (h : u * N ^ 4 ≤ 1 / 20000) : gam u ((N + 1) * (N + 1) + 3) ≤ 102 / 100 * u * N ^ 2 := by
  have hNr : (200 : ℝ) ≤ N := by exact_mod_cast hN
  have hN2 : (40000 : ℝ) ≤ (N : ℝ) ^ 2 := by nlinarith
  have h1 : (((N + 1) * (N + 1) + 3 : Nat) : ℝ) ≤ 1011 / 1000 * N ^ 2 := by push_cast; nlinarith
  have h2 : u * (N : ℝ) ^ 2 * 40000 ≤ 1 / 20000 := by
    refine le_trans ?_ h
    have : u * (N : ℝ) ^ 4 = u * N ^ 2 * N ^ 2 := by ring
    rw [this]
    exact mul_le_mul_of_nonneg_left hN2 (by positivity)
  have h3 : (((N + 1) * (N + 1) + 3 : Nat) : ℝ) * u ≤ 1011 / 1000 * (u * N ^ 2) := by
    calc _ ≤ 1011 / 1000 * (N : ℝ) ^ 2 * u := mul_le_mul_of_nonneg_right h1 hu
      _ = _ := by ring
  refine (gam_le hu (by linarith)).trans ?_
  set t := (((N + 1) * (N + 1) + 3 : Nat) : ℝ) * u
  have ht : t ≤ 1 / 10000 := by linarith
  have ht0 : 0 ≤ t := by positivity
  rw [div_le_iff₀ (by linarith)]
  have h5 : 0 ≤ u * (N : ℝ) ^ 2 := by positivity
  nlinarith [mul_nonneg h5 ht0, mul_le_mul_of_nonneg_left ht h5]
end

/-! ## The data of the program -/
section
variable {F : Type} [Zero F] [One F] [Add F] [Sub F] [Mul F] [Div F] [Neg F] [NatCast F] [OfNat F 2]

/-- the discrete problem of `fdm.cpp` as the program has it: `k` is the constant `H` = `K` of lines 32-33, `pi` that of line 26, `sinF` the function `std::sin`;
the source is that of line 36, the boundary values (line 38) are zero -/
def progFl (N : Nat) (k pi : F) (sinF : F → F) : Poisson F := ⟨N + 1, N + 1, k, k, fun x y => -sinF (pi * x) * sinF (pi * y), fun _ _ => 0⟩

/-- the literals of the program are rounded, and `std::sin` is accurate to `s` for the angles that occur -/
structure Program (fl : F → ℝ) (u s : ℝ) (N : Nat) (k pi w : F) (sinF : F → F) : Prop where
  width : |fl k - 1 / N| ≤ u * (1 / N)
  pi : |fl pi - 3.141592| ≤ u * 3.141592
  weight : |fl w - 6 / 5| ≤ u * (6 / 5)
  sin : ∀ a, 0 ≤ fl a → fl a ≤ 4 → |fl (sinF a) - Real.sin (fl a)| ≤ s

variable {fl : F → ℝ} {u s : ℝ} {N : Nat} {k pi w : F} {sinF : F → F}

theorem Program.near_pi (P : Program fl u s N k pi w sinF) (hu : u ≤ 1 / 1000000) : |fl pi - π| ≤ 1 / 100000 := by
  have h1 := P.pi
  have h2 := pi_gt_d6
  have h3 := pi_lt_d6
  rw [abs_le] at h1 ⊢
  norm_num at *
  constructor <;> linarith

/-- one computed angle and its sine -/
theorem Program.angle (h : Std fl u) (ex : Exact fl (N + 1)) (P : Program fl u s N k pi w sinF) (hN : 0 < N) (hu : u ≤ 1 / 1000000) {x : Nat} (hx : x ≤ N) :
    |fl (sinF (pi * (x * k))) - Real.sin (fl pi * (x * (1 / N)))| ≤ s + 13 * u := by
  have hu0 := h.u_nonneg
  have hNr : (0 : ℝ) < N := by exact_mod_cast hN
  have hxr : (x : ℝ) ≤ N := by exact_mod_cast hx
  have hx0 : (0 : ℝ) ≤ x := Nat.cast_nonneg x
  have hq := P.pi
  have m1 := h.mul (x : F) k
  rw [ex.cast x (by omega)] at m1
  have m2 := h.mul pi (x * k)
  have hw := P.width
  -- the coordinate
  set t := (x : ℝ) * (1 / N) with ht
  have ht0 : 0 ≤ t := by positivity
  have ht1 : t ≤ 1 := by rw [ht, mul_one_div]; exact div_le_one_of_le₀ hxr hNr.le
  have a1 : |(x : ℝ) * fl k - t| ≤ u := by
    rw [ht, ← mul_sub, abs_mul, abs_of_nonneg hx0]
    calc (x : ℝ) * |fl k - 1 / N| ≤ x * (u * (1 / N)) := mul_le_mul_of_nonneg_left hw hx0
      _ = u * t := by rw [ht]; ring
      _ ≤ u := by nlinarith
  rw [abs_le] at a1
  have a2 : |(x : ℝ) * fl k| ≤ 1 + u := by rw [abs_le]; constructor <;> linarith
  have a3 : |fl (x * k) - x * fl k| ≤ u * (1 + u) := m1.trans (mul_le_mul_of_nonneg_left a2 hu0)
  rw [abs_le] at a3
  have uu : u * u ≤ u * (1 / 1000000) := mul_le_mul_of_nonneg_left hu hu0
  have a4 : |fl (x * k) - t| ≤ 21 / 10 * u := by rw [abs_le]; constructor <;> linarith
  rw [abs_le] at hq
  norm_num at hq
  have b1 : |fl pi| ≤ 3.15 := by rw [abs_le]; norm_num; constructor <;> linarith
  have b0 : 0 ≤ fl pi := by linarith
  have b2 : |fl pi * fl (x * k)| ≤ 3.15 * 1.01 := by
    rw [abs_mul]
    refine mul_le_mul b1 ?_ (abs_nonneg _) (by norm_num)
    rw [abs_le] at a4 ⊢; norm_num; constructor <;> linarith
  have b3 : |fl pi * fl (x * k) - fl pi * t| ≤ 3.15 * (21 / 10 * u) := by
    rw [← mul_sub, abs_mul]
    exact mul_le_mul b1 a4 (abs_nonneg _) (by norm_num)
  have b4 : |fl (pi * (x * k)) - fl pi * t| ≤ 13 * u := by
    have : |fl (pi * (x * k)) - fl pi * fl (x * k)| ≤ u * (3.15 * 1.01) := m2.trans (mul_le_mul_of_nonneg_left b2 hu0)
    rw [abs_le] at this b3 ⊢
    norm_num at *
    constructor <;> linarith
  -- its sign
  have k0 : 0 ≤ fl k := by
    rw [abs_le] at hw
    have : 0 < 1 / (N : ℝ) := by positivity
    nlinarith
  have c1 : 0 ≤ fl (x * k) := by
    have : 0 ≤ (x : ℝ) * fl k := by positivity
    rw [abs_of_nonneg this, abs_le] at m1
    nlinarith
  have c2 : 0 ≤ fl (pi * (x * k)) := by
    have : 0 ≤ fl pi * fl (x * k) := by positivity
    rw [abs_of_nonneg this, abs_le] at m2
    nlinarith
  have c3 : fl (pi * (x * k)) ≤ 4 := by
    rw [abs_le] at b4
    have : fl pi * t ≤ 3.15 * 1 := mul_le_mul (le_trans (le_abs_self _) b1) ht1 ht0 (by norm_num)
    norm_num at this
    linarith
  have d1 := P.sin _ c2 c3
  have d2 := (Real.abs_sin_sub_sin_le (fl (pi * (x * k))) (fl pi * t)).trans b4
  rw [abs_le] at d1 d2 ⊢
  constructor <;> linarith

/-- the computed right-hand side in the inner points -/
theorem Program.rhs_near (h : Std fl u) (ex : Exact fl (N + 1)) (P : Program fl u s N k pi w sinF) (hN : 0 < N) (hu : u ≤ 1 / 1000000) (hs0 : 0 ≤ s) (hs : s ≤ 1 / 1000) {x y : Nat} (hx : x ≤ N) (hy : y ≤ N) :
    |(N : ℝ) ^ 2 * fl (k * k * (-sinF (pi * (x * k)) * sinF (pi * (y * k)))) - -Real.sin (fl pi * (x * (1 / N))) * Real.sin (fl pi * (y * (1 / N)))| ≤ 3 * s + 40 * u := by
  have hu0 := h.u_nonneg
  have hNr : (0 : ℝ) < N := by exact_mod_cast hN
  have ax := P.angle h ex hN hu hx
  have ay := P.angle h ex hN hu hy
  have sx := abs_sin_le_one (fl pi * (x * (1 / N)))
  have sy := abs_sin_le_one (fl pi * (y * (1 / N)))
  generalize Real.sin (fl pi * (x * (1 / N))) = X at *
  generalize Real.sin (fl pi * (y * (1 / N))) = Y at *
  generalize sinF (pi * (x * k)) = a at *
  generalize sinF (pi * (y * k)) = b at *
  have m1 := h.mul (-a) b
  have m2 := h.mul k k
  have m3 := h.mul (k * k) (-a * b)
  rw [ex.neg] at m1
  have uu : u * u ≤ u * (1 / 1000000) := mul_le_mul_of_nonneg_left hu hu0
  -- the source
  have e1 : |fl a| ≤ 1.0011 := by
    rw [abs_le] at ax sx ⊢; norm_num; constructor <;> linarith
  have e2 : |fl b| ≤ 1.0011 := by
    rw [abs_le] at ay sy ⊢; norm_num; constructor <;> linarith
  have e3 : |fl a * fl b - X * Y| ≤ 2.0011 * (s + 13 * u) := by
    have : fl a * fl b - X * Y = (fl a - X) * fl b + X * (fl b - Y) := by ring
    rw [this]
    refine (abs_add_le _ _).trans ?_
    rw [abs_mul, abs_mul]
    have g1 : |fl a - X| * |fl b| ≤ (s + 13 * u) * 1.0011 := mul_le_mul ax e2 (abs_nonneg _) (by linarith)
    have g2 : |X| * |fl b - Y| ≤ 1 * (s + 13 * u) := mul_le_mul sx ay (abs_nonneg _) zero_le_one
    norm_num at *
    linarith
  have e4 : |fl a * fl b| ≤ 1.0023 := by
    rw [abs_mul]
    calc |fl a| * |fl b| ≤ 1.0011 * 1.0011 := mul_le_mul e1 e2 (abs_nonneg _) (by norm_num)
      _ ≤ _ := by norm_num
  have e5 : |fl (-a * b) - -X * Y| ≤ 2.0011 * s + 27.1 * u := by
    have g : |fl (-a * b) - -fl a * fl b| ≤ u * 1.0023 := by
      refine m1.trans (mul_le_mul_of_nonneg_left ?_ hu0)
      rw [neg_mul, abs_neg]; exact e4
    rw [abs_le] at g e3 ⊢
    norm_num at *
    constructor <;> linarith
  have e6 : |fl (-a * b)| ≤ 1.004 := by
    have : |-X * Y| ≤ 1 := by rw [abs_mul, abs_neg]; exact mul_le_one₀ sx (abs_nonneg _) sy
    rw [abs_le] at this e5 ⊢
    norm_num at *
    constructor <;> linarith
  -- the factor
  have f1 : |(N : ℝ) * fl k - 1| ≤ u := by
    have : (N : ℝ) * fl k - 1 = N * (fl k - 1 / N) := by field_simp
    rw [this, abs_mul, abs_of_pos hNr]
    calc (N : ℝ) * |fl k - 1 / N| ≤ N * (u * (1 / N)) := mul_le_mul_of_nonneg_left P.width hNr.le
      _ = u := by field_simp
  have f2 : |(N : ℝ) ^ 2 * fl (k * k) - 1| ≤ 31 / 10 * u := by
    have g : |(N : ℝ) ^ 2 * fl (k * k) - (N * fl k) * (N * fl k)| ≤ u * |(N * fl k) * (N * fl k)| := by
      have : (N : ℝ) ^ 2 * fl (k * k) - (N * fl k) * (N * fl k) = N ^ 2 * (fl (k * k) - fl k * fl k) := by ring
      rw [this, abs_mul, abs_of_pos (by positivity : (0 : ℝ) < N ^ 2)]
      have : (N * fl k) * (N * fl k) = (N : ℝ) ^ 2 * (fl k * fl k) := by ring
      rw [this, abs_mul, abs_of_pos (by positivity : (0 : ℝ) < N ^ 2)]
      nlinarith [mul_le_mul_of_nonneg_left m2 (by positivity : (0 : ℝ) ≤ N ^ 2)]
    generalize (N : ℝ) * fl k = c at *
    generalize (N : ℝ) ^ 2 * fl (k * k) = d at *
    rw [abs_le] at f1
    have g1 : |c * c - 1| ≤ 201 / 100 * u := by
      have : c * c - 1 = (c - 1) * (c + 1) := by ring
      rw [this, abs_mul]
      calc |c - 1| * |c + 1| ≤ u * (201 / 100) := mul_le_mul (abs_le.2 f1) (by rw [abs_le]; constructor <;> linarith) (abs_nonneg _) hu0
        _ = _ := by ring
    have g2 : |c * c| ≤ 101 / 100 := by rw [abs_le] at g1 ⊢; constructor <;> linarith
    have g3 := g.trans (mul_le_mul_of_nonneg_left g2 hu0)
    rw [abs_le] at g1 g3 ⊢
    constructor <;> linarith
  have f3 : |(N : ℝ) ^ 2 * fl (k * k * (-a * b)) - (N ^ 2 * fl (k * k)) * fl (-a * b)| ≤ u * |(N ^ 2 * fl (k * k)) * fl (-a * b)| := by
    have : (N : ℝ) ^ 2 * fl (k * k * (-a * b)) - (N ^ 2 * fl (k * k)) * fl (-a * b) = N ^ 2 * (fl (k * k * (-a * b)) - fl (k * k) * fl (-a * b)) := by ring
    rw [this, abs_mul, abs_of_pos (by positivity : (0 : ℝ) < N ^ 2), mul_assoc ((N : ℝ) ^ 2), abs_mul ((N : ℝ) ^ 2), abs_of_pos (by positivity : (0 : ℝ) < N ^ 2)]
    nlinarith [mul_le_mul_of_nonneg_left m3 (by positivity : (0 : ℝ) ≤ N ^ 2)]
  generalize (N : ℝ) ^ 2 * fl (k * k * (-a * b)) = r at *
  generalize (N : ℝ) ^ 2 * fl (k * k) = c at *
  generalize fl (-a * b) = v at *
  have g1 : |(c - 1) * v| ≤ 31 / 10 * u * 1.004 := by
    rw [abs_mul]; exact mul_le_mul f2 e6 (abs_nonneg _) (by positivity)
  have g2 : |c * v| ≤ 1.01 := by
    have : c * v = (c - 1) * v + v := by ring
    rw [this]
    refine (abs_add_le _ _).trans ?_
    norm_num at *
    linarith
  have g3 := f3.trans (mul_le_mul_of_nonneg_left g2 hu0)
  have e : r - -X * Y = (r - c * v) + ((c - 1) * v + (v - -X * Y)) := by ring
  rw [e]
  refine (abs_add_le _ _).trans ((add_le_add le_rfl (abs_add_le _ _)).trans ?_)
  norm_num at *
  linarith
end

/-! ## The run -/
section
variable {F : Type} [Zero F] [One F] [Add F] [Sub F] [Mul F] [Div F] [Neg F] [NatCast F] [OfNat F 2] [DecidableEq F] [LE F] [DecidableLE F]
variable {fl : F → ℝ} {u s : ℝ} {M : Type} [MatOps M F] [LawfulStore M F] {N : Nat} {k pi w : F} {sinF : F → F}

/-- the source that the program has in its right-hand side, with all roundings -/
noncomputable def srcFl (fl : F → ℝ) (N : Nat) (k pi : F) (sinF : F → F) (x y : ℝ) : ℝ :=
  (N : ℝ) ^ 2 * fl (k * k * (-sinF (pi * ((⌊x * N + 1 / 2⌋₊ : Nat) * k)) * sinF (pi * ((⌊y * N + 1 / 2⌋₊ : Nat) * k))))

theorem floor_grid (hN : 0 < N) (x : Nat) : ⌊(x : ℝ) * (1 / N) * N + 1 / 2⌋₊ = x := by
  have : (0 : ℝ) < N := by exact_mod_cast hN
  rw [show (x : ℝ) * (1 / N) * N = x by field_simp, Nat.floor_eq_iff (by positivity)]
  constructor <;> linarith

theorem rhs_fl (h : Std fl u) (hN : 0 < N) (i : Nat) : rhs (square N (srcFl fl N k pi sinF)) i = fl (rhs (progFl N k pi sinF) i) := by
  have hNr : (0 : ℝ) < N := by exact_mod_cast hN
  unfold rhs
  by_cases hr : OnRim (progFl N k pi sinF) (i % (progFl N k pi sinF).xc) (i / (progFl N k pi sinF).xc)
  · rw [if_pos hr, if_pos (show OnRim (square N (srcFl fl N k pi sinF)) (i % (square N (srcFl fl N k pi sinF)).xc) (i / (square N (srcFl fl N k pi sinF)).xc) from hr)]
    exact h.zero.symm
  · rw [if_neg hr, if_neg (show ¬ OnRim (square N (srcFl fl N k pi sinF)) (i % (square N (srcFl fl N k pi sinF)).xc) (i / (square N (srcFl fl N k pi sinF)).xc) from hr)]
    show 1 / (N : ℝ) * (1 / N) * srcFl fl N k pi sinF (((i % (N + 1) : Nat) : ℝ) * (1 / N)) (((i / (N + 1) : Nat) : ℝ) * (1 / N)) =
      fl (k * k * (-sinF (pi * ((i % (N + 1) : Nat) * k)) * sinF (pi * ((i / (N + 1) : Nat) * k))))
    unfold srcFl
    rw [floor_grid hN, floor_grid hN]
    field_simp

/-- everything the two theorems need about a run of the program: `V` are the numbers after the sweeps, `z` is the solution of the system of the program, `b` its right-hand side -/
theorem prog_run (h : Std fl u) (ex : Exact fl (N + 1)) (P : Program fl u s N k pi w sinF) (hN : 200 ≤ N) (hu : u * N ^ 4 ≤ 1 / 20000) (hs0 : 0 ≤ s) (hs : s ≤ 1 / 10000)
    (cabs : F → F) (eps : F) : ∃ (f : ℝ → ℝ → ℝ) (z b : Fin ((square N f).xc * (square N f).yc) → ℝ) (y : Nat → List F)
      (V : Nat → Fin ((square N f).xc * (square N f).yc) → ℝ),
      mat (square N f) *ᵥ z = b ∧ (∀ i, rimIx (square N f) i → b i = 0 ∧ z i = 0) ∧ core (square N f) *ᵥ z = -b ∧
      (∀ x y, x ≤ N → y ≤ N → |val2 (square N f) z x y - exact (x / N) (y / N)| ≤ 1 / 10000) ∧ nsq z ≤ 26 / 10000 * N ^ 2 ∧
      z ⬝ᵥ (-b) / (16 / N ^ 2) ≤ 40 / 10000 * N ^ 2 ∧
      (∀ j, VecFl fl (y j) ((N + 1) * (N + 1)) (V j)) ∧ V 0 = 0 ∧ (∀ j i, rimIx (square N f) i → V j i = 0) ∧
      (∀ j i, SorRowV u (core (square N f)) (fl w) (-b) (V j) (V j) (V (j + 1)) i) ∧
      ∀ maxIter, ∃ it, solveFl (M := M) cabs (progFl N k pi sinF) w maxIter eps = .ok (y it, it) ∧ it ≤ maxIter ∧ (0 < maxIter → 0 < it) ∧
        (it < maxIter → StopTest cabs (eps * eps) (y (it - 1)) (y it)) := by
  have hNr : (200 : ℝ) ≤ N := by exact_mod_cast hN
  have hN0 : (0 : ℝ) < N := by linarith
  have hu0 := h.u_nonneg
  have hu6 : u ≤ 1 / 1000000 := by
    have : (200 : ℝ) ^ 4 ≤ (N : ℝ) ^ 4 := pow_le_pow_left₀ (by norm_num) hNr 4
    nlinarith
  set f := srcFl fl N k pi sinF with hfd
  have hh := square_h (N := N) (f := f) (by omega)
  obtain ⟨z, hz, -⟩ := levels_solvable (levels (p := square N f) hh hh) (fun i => rhs (square N f) i)
  have hzs := (solves_iff hh hh z).1 hz
  have hbr : ∀ i, rimIx (square N f) i → rhs (square N f) i = 0 := fun i hi => by unfold rhs; unfold rimIx at hi; rw [if_pos hi]; rfl
  obtain ⟨hzr, hcz⟩ := core_solves hbr hz
  -- the source is near that of the Poisson problem
  have hsrc : ∀ a b : Nat, a ≤ N → b ≤ N → |f (a * (1 / N)) (b * (1 / N)) - -sin (fl pi * (a * (1 / N))) * sin (fl pi * (b * (1 / N)))| ≤ 3 * s + 40 * u := by
    intro a b ha hb
    rw [hfd]
    unfold srcFl
    rw [floor_grid (by omega), floor_grid (by omega)]
    exact P.rhs_near h ex (by omega) hu6 hs0 (by linarith) ha hb
  have hnear : ∀ x y, x ≤ N → y ≤ N → |val2 (square N f) z x y - exact (x / N) (y / N)| ≤ 1 / 10000 := by
    intro x y hx hy
    refine (near_exact hN (P.near_pi hu6) (by linarith : 0 ≤ 3 * s + 40 * u) (fun a b _ ha _ hb => hsrc a b ha.le hb.le) hzs hx hy).trans ?_
    linarith
  have hval : ∀ (v : Fin ((square N f).xc * (square N f).yc) → ℝ) (i : Fin ((square N f).xc * (square N f).yc)), v i = val2 (square N f) v ((i : Nat) % (N + 1)) ((i : Nat) / (N + 1)) := by
    intro v i
    unfold val2
    rw [show (i : Nat) / (N + 1) * (square N f).xc + (i : Nat) % (N + 1) = i by
      show (i : Nat) / (N + 1) * (N + 1) + (i : Nat) % (N + 1) = i
      rw [mul_comm]; exact Nat.div_add_mod _ _, ev_fin]
  have hdiv : ∀ i : Fin ((square N f).xc * (square N f).yc), (i : Nat) % (N + 1) ≤ N ∧ (i : Nat) / (N + 1) ≤ N := fun i =>
    ⟨Nat.le_of_lt_succ (Nat.mod_lt _ (Nat.succ_pos N)), Nat.le_of_lt_succ (Nat.div_lt_of_lt_mul i.2)⟩
  have hexact : ∀ a b : ℝ, |exact a b| ≤ 0.0508 := by
    intro a b
    unfold exact
    rw [abs_div, abs_of_pos (by positivity : 0 < 2 * π ^ 2), div_le_iff₀ (by positivity), abs_mul]
    have h1 : |sin (π * a)| * |sin (π * b)| ≤ 1 := mul_le_one₀ (abs_sin_le_one _) (abs_nonneg _) (abs_sin_le_one _)
    have h2 : (3.1415 : ℝ) ^ 2 ≤ π ^ 2 := pow_le_pow_left₀ (by norm_num) pi_gt_d4.le 2
    norm_num at *
    linarith
  have hz1 : nsq z ≤ 26 / 10000 * N ^ 2 := by
    refine (nsq_rim (by omega) hzr (c := 0.0509) fun i => ?_).trans (mul_le_mul_of_nonneg_right (by norm_num) (by positivity))
    rw [hval z i]
    have h1 := hnear _ _ (hdiv i).1 (hdiv i).2
    have h2 := hexact (((i : Nat) % (N + 1) : Nat) / N) (((i : Nat) / (N + 1) : Nat) / N)
    rw [abs_le] at h1 h2 ⊢
    norm_num at *
    constructor <;> linarith
  have hb1 : nsq (-fun i : Fin ((square N f).xc * (square N f).yc) => rhs (square N f) i) ≤ (1.004 / N ^ 2) ^ 2 * N ^ 2 := by
    refine nsq_rim (by omega) (fun i hi => by rw [Pi.neg_apply, hbr i hi, neg_zero]) fun i => ?_
    rw [Pi.neg_apply, abs_neg]
    by_cases hi : rimIx (square N f) i
    · rw [hbr i hi, abs_zero]; positivity
    · unfold rhs
      unfold rimIx at hi
      rw [if_neg hi]
      show |1 / (N : ℝ) * (1 / N) * f (((i : Nat) % (N + 1) : Nat) * (1 / N)) (((i : Nat) / (N + 1) : Nat) * (1 / N))| ≤ _
      rw [abs_mul, abs_of_pos (by positivity : (0 : ℝ) < 1 / N * (1 / N))]
      have h1 := hsrc _ _ (hdiv i).1 (hdiv i).2
      have h2 : |-sin (fl pi * (((i : Nat) % (N + 1) : Nat) * (1 / N))) * sin (fl pi * (((i : Nat) / (N + 1) : Nat) * (1 / N)))| ≤ 1 := by
        rw [abs_mul, abs_neg]; exact mul_le_one₀ (abs_sin_le_one _) (abs_nonneg _) (abs_sin_le_one _)
      have h3 : |f (((i : Nat) % (N + 1) : Nat) * (1 / N)) (((i : Nat) / (N + 1) : Nat) * (1 / N))| ≤ 1.004 := by
        rw [abs_le] at h1 h2 ⊢
        norm_num at *
        constructor <;> linarith
      calc 1 / (N : ℝ) * (1 / N) * _ ≤ 1 / (N : ℝ) * (1 / N) * 1.004 := mul_le_mul_of_nonneg_left h3 (by positivity)
        _ = _ := by field_simp
  have hform : ∀ v, 16 / (N : ℝ) ^ 2 * nsq v ≤ v ⬝ᵥ core (square N f) *ᵥ v := (core_const (f := f) (w := 1) (R := 6) (by omega) (by norm_num) (by norm_num) (by norm_num)).form
  have hE : z ⬝ᵥ (-fun i : Fin ((square N f).xc * (square N f).yc) => rhs (square N f) i) / (16 / N ^ 2) ≤ 40 / 10000 * N ^ 2 := by
    have h1 := energy_le (A := core (square N f)) (by positivity) hform z
    rw [hcz] at h1
    have h2 := h1.trans hb1
    rw [div_le_iff₀ (by positivity)]
    have h3 : (1.004 / (N : ℝ) ^ 2) ^ 2 * N ^ 2 = 1.008016 / N ^ 2 := by field_simp; norm_num
    have h4 : 16 / (N : ℝ) ^ 2 * (z ⬝ᵥ -fun i : Fin ((square N f).xc * (square N f).yc) => rhs (square N f) i) ≤ 16 / (N : ℝ) ^ 2 * (40 / 10000 * N ^ 2 * (16 / N ^ 2)) := by
      refine h2.trans (le_of_eq_of_le h3 ?_)
      have : 16 / (N : ℝ) ^ 2 * (40 / 10000 * N ^ 2 * (16 / N ^ 2)) = 1.024 / N ^ 2 := by field_simp; norm_num
      rw [this]
      gcongr
      norm_num
    exact le_of_mul_le_mul_left h4 (by positivity)
  -- the run
  have hk0 : fl k ≠ 0 := by
    have h1 := P.width
    have h2 : 0 < 1 / (N : ℝ) := by positivity
    rw [abs_le] at h1
    nlinarith
  obtain ⟨a, B, e, h1, h2⟩ := system_fl (M := M) h ex (by omega : 4 ≤ N + 1) (Nat.succ_pos N) (Nat.succ_pos N) hk0 (fun x y => -sinF (pi * x) * sinF (pi * y)) (fun _ _ => 0)
    (by positivity : (1 : ℝ) / N ≠ 0) f (fun _ _ => 0)
  have h2' : VecFl fl B ((N + 1) * (N + 1)) (fun i : Fin ((N + 1) * (N + 1)) => rhs (square N f) i) := by
    have : (fun i : Fin ((N + 1) * (N + 1)) => rhs (square N f) i) = fun i : Fin ((N + 1) * (N + 1)) => fl (rhs (progFl N k pi sinF) (i : Nat)) :=
      funext fun i => rhs_fl h (Nat.lt_of_lt_of_le (by norm_num) hN) i
    rw [this]; exact h2
  have hd : ∀ i, mat (square N f) i i ≠ 0 := by
    intro i
    by_cases hi : rimIx (square N f) i
    · rw [mat_rim hi, if_pos rfl]; exact one_ne_zero
    · rw [mat_inner hi, if_pos rfl]; unfold Poisson.c; rw [square_r2 (by omega)]; norm_num
  have hx0 : VecFl fl (Vec.resize [] ((N + 1) * (N + 1)) : List F) ((N + 1) * (N + 1)) (0 : Fin ((N + 1) * (N + 1)) → ℝ) := by
    have : (Vec.resize [] ((N + 1) * (N + 1)) : List F) = List.replicate ((N + 1) * (N + 1)) 0 := by unfold Vec.resize; simp
    rw [this]
    refine ⟨List.length_replicate, fun i => ⟨0, ?_, h.zero⟩⟩
    rw [vecAt_get (by rw [List.length_replicate]; exact i.2), List.getD_replicate _ i.2]
  obtain ⟨y, V, r1, r2, r3, r4⟩ := sor_run h cabs h1 hd h2' hx0 w eps
  have hrim : ∀ j i, rimIx (square N f) i → V j i = 0 := by
    intro j
    induction j with
    | zero => intro i _; rw [r2]; rfl
    | succ j ih => exact (sorRow_core hbr ih (r3 j)).1
  refine ⟨f, z, _, y, V, hz, fun i hi => ⟨hbr i hi, hzr i hi⟩, hcz, hnear, hz1, hE, r1, r2, hrim, fun j => (sorRow_core hbr (hrim j) (r3 j)).2, fun maxIter => ?_⟩
  obtain ⟨it, i1, i2, i3, i4, -⟩ := r4 maxIter
  refine ⟨it, ?_, i2, i3, i4⟩
  unfold solveFl
  rw [show (system (progFl N k pi sinF) : R (M × List F)) = .ok (a, B) from e, ok_bind]
  exact i1
end

end NS.Props.Fdm

/-
C84: the finite difference programs converge.  If the continuous problem has a solution that is four times continuously differentiable
in each space direction, the values computed by the programs differ from it by at most a constant times the squares of the mesh widths
(Poisson), plus the time step (heat), plus the tolerance of the solver.  The constants are explicit.
-/
import Mathlib.Analysis.Calculus.ContDiff.Operations
import Mathlib.Analysis.Calculus.IteratedDeriv.Lemmas
import Verif.SecondDiff
import Verif.Props.Fdm
import Verif.Props.Heat

set_option linter.unusedSectionVars false
set_option linter.unusedSimpArgs false

namespace NS.Props.Fdm
open NS NS.Fdm NS.Grid Set

/-- second derivative in the first and in the second direction, as functions on `[0, lx] x [0, ly]` -/
noncomputable def dxx (lx : ℝ) (w : ℝ → ℝ → ℝ) (x y : ℝ) : ℝ := iteratedDerivWithin 2 (fun s => w s y) (Icc 0 lx) x
noncomputable def dyy (ly : ℝ) (w : ℝ → ℝ → ℝ) (x y : ℝ) : ℝ := iteratedDerivWithin 2 (fun s => w x s) (Icc 0 ly) y

/-- `w` is a function on the rectangle, four times continuously differentiable in each direction, with fourth derivatives bounded by
`mx` and `my` -/
structure Smooth (lx ly mx my : ℝ) (w : ℝ → ℝ → ℝ) : Prop where
  cx : ∀ y ∈ Icc 0 ly, ContDiffOn ℝ 4 (fun s => w s y) (Icc 0 lx)
  cy : ∀ x ∈ Icc 0 lx, ContDiffOn ℝ 4 (fun s => w x s) (Icc 0 ly)
  bx : ∀ x ∈ Icc 0 lx, ∀ y ∈ Icc 0 ly, |iteratedDerivWithin 4 (fun s => w s y) (Icc 0 lx) x| ≤ mx
  bY : ∀ x ∈ Icc 0 lx, ∀ y ∈ Icc 0 ly, |iteratedDerivWithin 4 (fun s => w x s) (Icc 0 ly) y| ≤ my

/-- `w` solves the Poisson problem with source `f` and boundary values `b` -/
structure SolvesPoisson (lx ly : ℝ) (f b w : ℝ → ℝ → ℝ) : Prop where
  pde : ∀ x ∈ Ioo 0 lx, ∀ y ∈ Ioo 0 ly, dxx lx w x y + dyy ly w x y = f x y
  rim : ∀ x ∈ Icc 0 lx, ∀ y ∈ Icc 0 ly, x = 0 ∨ x = lx ∨ y = 0 ∨ y = ly → w x y = b x y

variable {p : Poisson ℝ}

/-- width and height of the domain -/
def lx (p : Poisson ℝ) : ℝ := (p.xc - 1 : Nat) * p.h
def ly (p : Poisson ℝ) : ℝ := (p.yc - 1 : Nat) * p.k

theorem mem_x (hh : 0 < p.h) {x : Nat} (hx : x < p.xc) : (x * p.h : ℝ) ∈ Icc 0 (lx p) := by
  refine ⟨by positivity, mul_le_mul_of_nonneg_right ?_ hh.le⟩
  exact_mod_cast Nat.le_sub_one_of_lt hx
theorem mem_y (hk : 0 < p.k) {y : Nat} (hy : y < p.yc) : (y * p.k : ℝ) ∈ Icc 0 (ly p) := by
  refine ⟨by positivity, mul_le_mul_of_nonneg_right ?_ hk.le⟩
  exact_mod_cast Nat.le_sub_one_of_lt hy

/-- the discrete Laplacian of a function of the plane -/
noncomputable def lap (h k : ℝ) (w : ℝ → ℝ → ℝ) (x y : ℝ) : ℝ :=
  (w (x - h) y + w (x + h) y - 2 * w x y) / h ^ 2 + (w x (y - k) + w x (y + k) - 2 * w x y) / k ^ 2

/-- local error of the five-point formula -/
theorem lap_error {a c mx my : ℝ} {w : ℝ → ℝ → ℝ} (hs : Smooth a c mx my w) {h k x y : ℝ} (hh : 0 < h) (hk : 0 < k)
    (hx1 : 0 ≤ x - h) (hx2 : x + h ≤ a) (hy1 : 0 ≤ y - k) (hy2 : y + k ≤ c) :
    |lap h k w x y - (dxx a w x y + dyy c w x y)| ≤ (mx * h ^ 2 + my * k ^ 2) / 12 := by
  have hx : x ∈ Icc 0 a := ⟨by linarith, by linarith⟩
  have hy : y ∈ Icc 0 c := ⟨by linarith, by linarith⟩
  have h1 := second_diff_abs (by linarith) (hs.cx y hy) (fun x hx => hs.bx x hx y hy) hh hx1 hx2
  have h2 := second_diff_abs (by linarith) (hs.cy x hx) (fun y hy => hs.bY x hx y hy) hk hy1 hy2
  unfold lap dxx dyy
  rw [abs_le] at h1 h2 ⊢
  constructor <;> linarith [h1.1, h1.2, h2.1, h2.2]

/-- the grid function of a function of the plane -/
def grid (p : Poisson ℝ) (w : ℝ → ℝ → ℝ) : Fin (p.xc * p.yc) → ℝ :=
  fun r => w (((r : Nat) % p.xc : Nat) * p.h) (((r : Nat) / p.xc : Nat) * p.k)

theorem val2_grid {w : ℝ → ℝ → ℝ} {x y : Nat} (hx : x < p.xc) (hy : y < p.yc) : val2 p (grid p w) x y = w (x * p.h) (y * p.k) := by
  have h := lin_lt (p := p) hx hy
  have e : val2 p (grid p w) x y = grid p w ⟨p.lin x y, h⟩ := by
    unfold val2 ev
    exact dif_pos h
  rw [e]
  unfold grid
  rw [lin_mod hx, lin_div hx]

theorem val2_sub (u v : Fin (p.xc * p.yc) → ℝ) (x y : Nat) : val2 p (fun i => u i - v i) x y = val2 p u x y - val2 p v x y := by
  unfold val2 ev
  split <;> simp

theorem inner_pos {x y : Nat} (hx : x < p.xc) (hy : y < p.yc) (h : ¬ OnRim p x y) : 1 ≤ x ∧ x + 1 < p.xc ∧ 1 ≤ y ∧ y + 1 < p.yc := by
  unfold OnRim at h; omega

/-- the problem of the difference of the discrete solution and `w` -/
noncomputable def residual (p : Poisson ℝ) (w : ℝ → ℝ → ℝ) : Poisson ℝ :=
  { p with f := fun x y => p.f x y - lap p.h p.k w x y, b := fun x y => p.b x y - w x y }

/-- the difference of a discrete solution and a function of the plane is the solution of the problem with the residual as source -/
theorem solves_sub {u : Fin (p.xc * p.yc) → ℝ} (hu : Solves p u) (w : ℝ → ℝ → ℝ) :
    Solves (residual p w) (fun i => u i - grid p w i : Fin (p.xc * p.yc) → ℝ) := by
  intro x y hx hy
  have hx' : x < p.xc := hx
  have hy' : y < p.yc := hy
  obtain ⟨h1, h2⟩ := hu x y hx' hy'
  have ev2 : ∀ x y, val2 (residual p w) (fun i => u i - grid p w i : Fin (p.xc * p.yc) → ℝ) x y = val2 p u x y - val2 p (grid p w) x y := fun x y => val2_sub u _ x y
  refine ⟨fun h => ?_, fun h => ?_⟩
  · rw [ev2, val2_grid hx' hy', h1 h]
    rfl
  · obtain ⟨i1, i2, i3, i4⟩ := inner_pos hx' hy' h
    simp only [ev2]
    rw [val2_grid hx' hy', val2_grid (by omega) hy', val2_grid i2 hy', val2_grid hx' (by omega), val2_grid hx' i4]
    show _ = p.f (x * p.h) (y * p.k) - lap p.h p.k w (x * p.h) (y * p.k)
    rw [← h2 h]
    unfold lap
    have e1 : (((x - 1 : Nat) : ℝ) * p.h) = x * p.h - p.h := by rw [Nat.cast_sub i1]; push_cast; ring
    have e2 : (((y - 1 : Nat) : ℝ) * p.k) = y * p.k - p.k := by rw [Nat.cast_sub i3]; push_cast; ring
    have e3 : (((x + 1 : Nat) : ℝ) * p.h) = x * p.h + p.h := by push_cast; ring
    have e4 : (((y + 1 : Nat) : ℝ) * p.k) = y * p.k + p.k := by push_cast; ring
    rw [e1, e2, e3, e4, show (residual p w).h = p.h from rfl, show (residual p w).k = p.k from rfl]
    ring

theorem rim_pos {x y : Nat} (_hx : x < p.xc) (_hy : y < p.yc) (h : OnRim p x y) :
    (x * p.h : ℝ) = 0 ∨ (x * p.h : ℝ) = lx p ∨ (y * p.k : ℝ) = 0 ∨ (y * p.k : ℝ) = ly p := by
  rcases h with rfl | rfl | rfl | rfl
  · left; simp
  · right; right; left; simp
  · right; left; rfl
  · right; right; right; rfl

theorem inner_mem (hh : 0 < p.h) (hk : 0 < p.k) {x y : Nat} (hx : x < p.xc) (hy : y < p.yc) (h : ¬ OnRim p x y) :
    0 ≤ x * p.h - p.h ∧ x * p.h + p.h ≤ lx p ∧ 0 ≤ y * p.k - p.k ∧ y * p.k + p.k ≤ ly p := by
  obtain ⟨i1, i2, i3, i4⟩ := inner_pos hx hy h
  have c1 : (1 : ℝ) ≤ x := by exact_mod_cast i1
  have c3 : (1 : ℝ) ≤ y := by exact_mod_cast i3
  have c2 : ((x + 1 : Nat) : ℝ) ≤ ((p.xc - 1 : Nat) : ℝ) := by exact_mod_cast (by omega : x + 1 ≤ p.xc - 1)
  have c4 : ((y + 1 : Nat) : ℝ) ≤ ((p.yc - 1 : Nat) : ℝ) := by exact_mod_cast (by omega : y + 1 ≤ p.yc - 1)
  have := mul_le_mul_of_nonneg_right c2 hh.le
  have := mul_le_mul_of_nonneg_right c4 hk.le
  unfold lx ly
  push_cast at *
  refine ⟨by nlinarith, by linarith, by nlinarith, by linarith⟩

/-- one-sided comparison: `g` is a function that is not positive on the rectangle with discrete Laplacian 1 -/
theorem error_le (hh : 0 < p.h) (hk : 0 < p.k) {u : Fin (p.xc * p.yc) → ℝ} (hu : Solves p u) {w g : ℝ → ℝ → ℝ} {τ : ℝ} (hτ : 0 ≤ τ)
    (hl : ∀ x y, x < p.xc → y < p.yc → ¬ OnRim p x y → |lap p.h p.k w (x * p.h) (y * p.k) - p.f (x * p.h) (y * p.k)| ≤ τ)
    (hb : ∀ x y, x < p.xc → y < p.yc → OnRim p x y → w (x * p.h) (y * p.k) = p.b (x * p.h) (y * p.k))
    (hg : ∀ x y, lap p.h p.k g x y = 1) (hg0 : ∀ x ∈ Icc 0 (lx p), ∀ y ∈ Icc 0 (ly p), g x y ≤ 0)
    {x y : Nat} (hx : x < p.xc) (hy : y < p.yc) : |val2 p u x y - w (x * p.h) (y * p.k)| ≤ -(τ * g (x * p.h) (y * p.k)) := by
  have lap_lin : ∀ (s : ℝ) (a b : ℝ), lap p.h p.k (fun x y => w x y + s * g x y) a b = lap p.h p.k w a b + s := by
    intro s a b
    have := hg a b
    unfold lap at this ⊢
    have e : s = s * 1 := (mul_one s).symm
    conv_rhs => rw [e, ← this]
    ring
  have up := C71_maximum (m := 0) (p := residual p (fun x y => w x y + (-τ) * g x y)) hh.ne' hk.ne' (solves_sub hu _)
    (fun a b ha hb' hr => by
      show 0 ≤ p.f _ _ - lap p.h p.k _ _ _
      rw [lap_lin]
      have := (abs_le.1 (hl a b ha hb' hr)).2
      show 0 ≤ p.f (a * p.h) (b * p.k) - (lap p.h p.k w (a * p.h) (b * p.k) + -τ)
      linarith)
    (fun a c ha hc hr => by
      show p.b (a * p.h) (c * p.k) - (w (a * p.h) (c * p.k) + (-τ) * g (a * p.h) (c * p.k)) ≤ 0
      rw [hb a c ha hc hr]
      have := mul_nonneg hτ (neg_nonneg.2 (hg0 _ (mem_x hh ha) _ (mem_y hk hc)))
      linarith) (x := x) (y := y) hx hy
  have dn := C71_minimum (m := 0) (p := residual p (fun x y => w x y + τ * g x y)) hh.ne' hk.ne' (solves_sub hu _)
    (fun a b ha hb' hr => by
      show p.f _ _ - lap p.h p.k _ _ _ ≤ 0
      rw [lap_lin]
      have := (abs_le.1 (hl a b ha hb' hr)).1
      show p.f (a * p.h) (b * p.k) - (lap p.h p.k w (a * p.h) (b * p.k) + τ) ≤ 0
      linarith)
    (fun a c ha hc hr => by
      show 0 ≤ p.b (a * p.h) (c * p.k) - (w (a * p.h) (c * p.k) + τ * g (a * p.h) (c * p.k))
      rw [hb a c ha hc hr]
      have := mul_nonneg hτ (neg_nonneg.2 (hg0 _ (mem_x hh ha) _ (mem_y hk hc)))
      linarith) (x := x) (y := y) hx hy
  have e1 : ∀ s : ℝ, val2 (residual p (fun x y => w x y + s * g x y)) (fun i => u i - grid p (fun x y => w x y + s * g x y) i : Fin (p.xc * p.yc) → ℝ) x y =
      val2 p u x y - (w (x * p.h) (y * p.k) + s * g (x * p.h) (y * p.k)) := by
    intro s
    have : _ = val2 p u x y - val2 p (grid p (fun x y => w x y + s * g x y)) x y := val2_sub u _ x y
    rw [val2_grid hx hy] at this
    exact this
  rw [e1] at up dn
  rw [abs_le]
  constructor <;> linarith

/-- C84: the discrete solution of the Poisson problem on a grid with mesh widths `h`, `k` differs from a smooth solution of the
continuous problem by at most `min(lx, ly)^2 / 8 * (mx h^2 + my k^2) / 12` at every grid point. -/
theorem C84_poisson_error (hh : 0 < p.h) (hk : 0 < p.k) {mx my : ℝ} {w : ℝ → ℝ → ℝ} (hs : Smooth (lx p) (ly p) mx my w)
    (hw : SolvesPoisson (lx p) (ly p) p.f p.b w) {u : Fin (p.xc * p.yc) → ℝ} (hu : Solves p u) {x y : Nat} (hx : x < p.xc) (hy : y < p.yc) :
    |val2 p u x y - w (x * p.h) (y * p.k)| ≤ (min (lx p) (ly p)) ^ 2 / 8 * ((mx * p.h ^ 2 + my * p.k ^ 2) / 12) := by
  have hmx : 0 ≤ mx := (abs_nonneg _).trans (hs.bx _ (mem_x hh hx) _ (mem_y hk hy))
  have hmy : 0 ≤ my := (abs_nonneg _).trans (hs.bY _ (mem_x hh hx) _ (mem_y hk hy))
  set τ := (mx * p.h ^ 2 + my * p.k ^ 2) / 12 with hτd
  have hτ : 0 ≤ τ := by positivity
  have hl : ∀ x y, x < p.xc → y < p.yc → ¬ OnRim p x y → |lap p.h p.k w (x * p.h) (y * p.k) - p.f (x * p.h) (y * p.k)| ≤ τ := by
    intro x y hx hy hr
    obtain ⟨i1, i2, i3, i4⟩ := inner_mem hh hk hx hy hr
    rw [← hw.pde (x * p.h) ⟨by linarith, by linarith⟩ (y * p.k) ⟨by linarith, by linarith⟩]
    exact lap_error hs hh hk i1 i2 i3 i4
  have hb : ∀ x y, x < p.xc → y < p.yc → OnRim p x y → w (x * p.h) (y * p.k) = p.b (x * p.h) (y * p.k) :=
    fun x y hx hy hr => hw.rim _ (mem_x hh hx) _ (mem_y hk hy) (rim_pos hx hy hr)
  have hh2 : p.h ^ 2 ≠ 0 := by positivity
  have hk2 : p.k ^ 2 ≠ 0 := by positivity
  have h1 := error_le hh hk hu hτ hl hb (g := fun x _ => x * (x - lx p) / 2)
    (fun x y => by unfold lap; field_simp; ring)
    (fun x hx y _ => by have := mul_nonneg hx.1 (sub_nonneg.2 hx.2); linarith) hx hy
  have h2 := error_le hh hk hu hτ hl hb (g := fun _ y => y * (y - ly p) / 2)
    (fun x y => by unfold lap; field_simp; ring)
    (fun x _ y hy => by have := mul_nonneg hy.1 (sub_nonneg.2 hy.2); linarith) hx hy
  rcases min_choice (lx p) (ly p) with e | e
  · rw [e]
    refine h1.trans ?_
    have : -((x * p.h) * (x * p.h - lx p) / 2) ≤ lx p ^ 2 / 8 := by nlinarith [sq_nonneg (x * p.h - lx p / 2)]
    nlinarith [mul_le_mul_of_nonneg_left this hτ]
  · rw [e]
    refine h2.trans ?_
    have : -((y * p.k) * (y * p.k - ly p) / 2) ≤ ly p ^ 2 / 8 := by nlinarith [sq_nonneg (y * p.k - ly p / 2)]
    nlinarith [mul_le_mul_of_nonneg_left this hτ]
end NS.Props.Fdm

namespace NS.Props.Fdm
open NS NS.Fdm NS.Grid NS.MatOps NS.LawfulMat NS.Props.LU NS.Props.Iter NS.Iterative Set
variable {M : Type} [MatOps M ℝ] [LawfulMat M ℝ]

/-- C84: the program.  For every grid and every smooth solution of the continuous problem the vector returned by the program, run
with tolerance `eps` and a sufficient iteration limit, differs from the solution at the grid points by at most the discretisation error
plus a multiple of `eps`, where the factor depends on the grid and the relaxation weight only. -/
theorem C84_poisson_program (xc yc : Nat) (hx : 0 < xc) (hy : 0 < yc) {h k : ℝ} (hh : 0 < h) (hk : 0 < k)
    {r : ℝ} (hr0 : 0 < r) (hr2 : r < 2) :
    ∃ C : ℝ, 0 ≤ C ∧ ∀ (f b w : ℝ → ℝ → ℝ) (mx my eps : ℝ), 0 < eps →
      Smooth ((xc - 1 : Nat) * h) ((yc - 1 : Nat) * k) mx my w → SolvesPoisson ((xc - 1 : Nat) * h) ((yc - 1 : Nat) * k) f b w →
      ∃ N, ∀ maxIter, N < maxIter → ∃ u it, solve (M := M) (⟨xc, yc, h, k, f, b⟩ : Poisson ℝ) r maxIter eps = .ok (fl u, it) ∧ it ≤ N ∧
        ∀ x y, x < xc → y < yc → |val2 (⟨xc, yc, h, k, f, b⟩ : Poisson ℝ) u x y - w (x * h) (y * k)| ≤
          C * eps + (min ((xc - 1 : Nat) * h) ((yc - 1 : Nat) * k)) ^ 2 / 8 * ((mx * h ^ 2 + my * k ^ 2) / 12) := by
  obtain ⟨C, hC0, hC⟩ := C71_fdm_solve (M := M) xc yc hx hy hh.ne' hk.ne' hr0 hr2
  refine ⟨C, hC0, fun f b w mx my eps he hs hw => ?_⟩
  obtain ⟨N, hN⟩ := hC f b eps he
  refine ⟨N, fun maxIter hm => ?_⟩
  obtain ⟨u, it, e1, e2, e3⟩ := hN maxIter hm
  refine ⟨u, it, e1, e2, fun x y hx' hy' => ?_⟩
  obtain ⟨_, _, _, _, -, -, -, -, z, hz, -⟩ := C71_fdm_poisson (M := M) (p := (⟨xc, yc, h, k, f, b⟩ : Poisson ℝ)) hx hy hh.ne' hk.ne'
  have h1 := C84_poisson_error (p := (⟨xc, yc, h, k, f, b⟩ : Poisson ℝ)) hh hk hs hw hz hx' hy'
  have h2 : |val2 (⟨xc, yc, h, k, f, b⟩ : Poisson ℝ) u x y - val2 (⟨xc, yc, h, k, f, b⟩ : Poisson ℝ) z x y| ≤ C * eps := by
    have hlt := lin_lt (p := (⟨xc, yc, h, k, f, b⟩ : Poisson ℝ)) hx' hy'
    have ev1 : ∀ v : Fin (xc * yc) → ℝ, val2 (⟨xc, yc, h, k, f, b⟩ : Poisson ℝ) v x y = v ⟨_, hlt⟩ := fun v => by
      unfold val2 ev
      exact dif_pos hlt
    rw [ev1, ev1]
    exact e3 z hz _
  have h3 := abs_sub_le (val2 (⟨xc, yc, h, k, f, b⟩ : Poisson ℝ) u x y) (val2 (⟨xc, yc, h, k, f, b⟩ : Poisson ℝ) z x y) (w (x * h) (y * k))
  refine h3.trans (add_le_add h2 h1)

theorem deriv_quartic : (deriv fun s : ℝ => s ^ 4) = fun s => 4 * s ^ 3 := by
  funext s; simp
theorem deriv_cubic (c : ℝ) : (deriv fun s : ℝ => c * s ^ 3) = fun s => c * 3 * s ^ 2 := by
  funext s; simp; ring
theorem deriv_square (c : ℝ) : (deriv fun s : ℝ => c * s ^ 2) = fun s => c * 2 * s := by
  funext s; simp; ring

/-- a case that meets the hypotheses: `w = x^4` on the unit square solves the problem with source `12 x^2`; its fourth derivatives are
bounded by 24 and 0 -/
theorem quartic_smooth : Smooth 1 1 24 0 (fun x _ => x ^ 4) := by
  have hu : UniqueDiffOn ℝ (Icc (0 : ℝ) 1) := uniqueDiffOn_Icc one_pos
  refine ⟨fun _ _ => (contDiff_id.pow 4).contDiffOn, fun _ _ => contDiffOn_const, fun x hx y hy => ?_, fun x hx y hy => ?_⟩
  · rw [iteratedDerivWithin_eq_iteratedDeriv hu (f := fun s : ℝ => s ^ 4) (contDiff_id.pow 4).contDiffAt hx]
    have : iteratedDeriv 4 (fun s : ℝ => s ^ 4) x = 24 := by
      simp only [iteratedDeriv_succ, iteratedDeriv_zero, deriv_quartic, deriv_cubic, deriv_square]
      simp; norm_num
    rw [this]; norm_num
  · rw [iteratedDerivWithin_eq_iteratedDeriv hu contDiff_const.contDiffAt hy]
    simp [iteratedDeriv_succ]

theorem quartic_solves : SolvesPoisson 1 1 (fun x _ => 12 * x ^ 2) (fun x _ => x ^ 4) (fun x _ => x ^ 4) := by
  have hu : UniqueDiffOn ℝ (Icc (0 : ℝ) 1) := uniqueDiffOn_Icc one_pos
  refine ⟨fun x hx y hy => ?_, fun _ _ _ _ _ => rfl⟩
  show iteratedDerivWithin 2 (fun s : ℝ => s ^ 4) (Icc 0 1) x + iteratedDerivWithin 2 (fun _ => x ^ 4) (Icc 0 1) y = 12 * x ^ 2
  rw [iteratedDerivWithin_eq_iteratedDeriv hu (f := fun s : ℝ => s ^ 4) (contDiff_id.pow 4).contDiffAt (Ioo_subset_Icc_self hx),
    iteratedDerivWithin_eq_iteratedDeriv hu contDiff_const.contDiffAt (Ioo_subset_Icc_self hy)]
  have h1 : iteratedDeriv 2 (fun s : ℝ => s ^ 4) x = 12 * x ^ 2 := by
    simp only [iteratedDeriv_succ, iteratedDeriv_zero, deriv_quartic, deriv_cubic]
    norm_num
  rw [h1]
  simp [iteratedDeriv_succ]

example (u : Fin (5 * 5) → ℝ) (hu : Solves (⟨5, 5, 1 / 4, 1 / 4, fun x _ => 12 * x ^ 2, fun x _ => x ^ 4⟩ : Poisson ℝ) u) :
    |val2 (⟨5, 5, 1 / 4, 1 / 4, fun x _ => 12 * x ^ 2, fun x _ => x ^ 4⟩ : Poisson ℝ) u 2 2 - (1 / 2) ^ 4| ≤ 1 / 64 := by
  have e : lx (⟨5, 5, 1 / 4, 1 / 4, fun x _ => 12 * x ^ 2, fun x _ => x ^ 4⟩ : Poisson ℝ) = 1 := by unfold lx; norm_num
  have e' : ly (⟨5, 5, 1 / 4, 1 / 4, fun x _ => 12 * x ^ 2, fun x _ => x ^ 4⟩ : Poisson ℝ) = 1 := by unfold ly; norm_num
  have := C84_poisson_error (p := (⟨5, 5, 1 / 4, 1 / 4, fun x _ => 12 * x ^ 2, fun x _ => x ^ 4⟩ : Poisson ℝ)) (by norm_num) (by norm_num)
    (by rw [e, e']; exact quartic_smooth) (by rw [e, e']; exact quartic_solves) hu (x := 2) (y := 2) (by norm_num) (by norm_num)
  rw [e, e'] at this
  norm_num at this ⊢
  exact this
end NS.Props.Fdm

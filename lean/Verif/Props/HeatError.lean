/-
C84, second part: error of the heat program (implicit Euler), `examples/heat/main.cpp`.
-/
import Verif.Props.FdmError

set_option linter.unusedSectionVars false
set_option linter.unusedSimpArgs false

namespace NS.Props.Heat
open NS NS.Heat NS.Grid NS.MatOps NS.LawfulMat NS.Props.LU NS.Props.Iter NS.Iterative Set
open NS.Props.Fdm (lap lap_error Smooth dxx dyy)

/-- `w t` is smooth in space at every time, with bounds `mx`, `my` of the fourth derivatives, and `w` is twice continuously
differentiable in time with second derivative bounded by `mt` -/
structure SmoothT (lt lx ly mt mx my : ℝ) (w : ℝ → ℝ → ℝ → ℝ) : Prop where
  space : ∀ t ∈ Icc 0 lt, Smooth lx ly mx my (w t)
  ct : ∀ x ∈ Icc 0 lx, ∀ y ∈ Icc 0 ly, ContDiffOn ℝ 2 (fun s => w s x y) (Icc 0 lt)
  bt : ∀ x ∈ Icc 0 lx, ∀ y ∈ Icc 0 ly, ∀ t ∈ Icc 0 lt, |iteratedDerivWithin 2 (fun s => w s x y) (Icc 0 lt) t| ≤ mt

/-- `w` solves the heat equation `w_t = k (w_xx + w_yy) + f` with boundary values `b` and initial values `w0` -/
structure SolvesHeat (lt lx ly : ℝ) (k f b : ℝ → ℝ → ℝ → ℝ) (w0 : ℝ → ℝ → ℝ) (w : ℝ → ℝ → ℝ → ℝ) : Prop where
  pde : ∀ t ∈ Ioc 0 lt, ∀ x ∈ Ioo 0 lx, ∀ y ∈ Ioo 0 ly,
    derivWithin (fun s => w s x y) (Icc 0 lt) t = k t x y * (dxx lx (w t) x y + dyy ly (w t) x y) + f t x y
  rim : ∀ t ∈ Ioc 0 lt, ∀ x ∈ Icc 0 lx, ∀ y ∈ Icc 0 ly, x = 0 ∨ x = lx ∨ y = 0 ∨ y = ly → w t x y = b t x y
  init : ∀ x ∈ Icc 0 lx, ∀ y ∈ Icc 0 ly, w 0 x y = w0 x y

variable {p : Problem ℝ}

/-- last time, width and height of the domain -/
def lt (p : Problem ℝ) : ℝ := (p.tc - 1 : Nat) * p.ht
def lx (p : Problem ℝ) : ℝ := (p.xc - 1 : Nat) * p.hx
def ly (p : Problem ℝ) : ℝ := (p.yc - 1 : Nat) * p.hy

theorem mem_grid {n i : Nat} {h : ℝ} (hh : 0 < h) (hi : i < n) : (i * h : ℝ) ∈ Icc 0 ((n - 1 : Nat) * h) := by
  refine ⟨by positivity, mul_le_mul_of_nonneg_right ?_ hh.le⟩
  exact_mod_cast Nat.le_sub_one_of_lt hi

/-- the discrete heat operator of a function -/
noncomputable def op (p : Problem ℝ) (w : ℝ → ℝ → ℝ → ℝ) (t x y : ℝ) : ℝ :=
  (w t x y - w (t - p.ht) x y) / p.ht - p.k t x y * lap p.hx p.hy (w t) x y

/-- the grid function of a function -/
def grid (p : Problem ℝ) (w : ℝ → ℝ → ℝ → ℝ) : Fin p.d → ℝ :=
  fun r => w (tOf p r * p.ht) (xOf p r * p.hx) (yOf p r * p.hy)

theorem val3_at {u : Fin p.d → ℝ} {t x y : Nat} (ht : t < p.tc) (hx : x < p.xc) (hy : y < p.yc) :
    val3 p u t x y = u ⟨p.lin t x y, lin_lt ht hx hy⟩ := by
  have h := lin_lt ht hx hy
  unfold val3 ev
  simp only [← lin_eq]
  exact dif_pos h

theorem val3_grid {w : ℝ → ℝ → ℝ → ℝ} {t x y : Nat} (ht : t < p.tc) (hx : x < p.xc) (hy : y < p.yc) :
    val3 p (grid p w) t x y = w (t * p.ht) (x * p.hx) (y * p.hy) := by
  rw [val3_at ht hx hy]
  unfold grid
  simp only [lin_t hx hy, lin_x hx, lin_y hx hy]

theorem val3_sub (u v : Fin p.d → ℝ) (t x y : Nat) : val3 p (fun i => u i - v i) t x y = val3 p u t x y - val3 p v t x y := by
  unfold val3 ev
  split <;> simp

/-- the problem of the difference of the discrete solution and `w` -/
noncomputable def residual (p : Problem ℝ) (w : ℝ → ℝ → ℝ → ℝ) : Problem ℝ :=
  { p with f := fun t x y => p.f t x y - op p w t x y, b := fun t x y => p.b t x y - w t x y, t0 := fun x y => p.t0 x y - w 0 x y }

theorem inner_pos {t x y : Nat} (hx : x < p.xc) (hy : y < p.yc) (h : ¬ OnRim p t x y) :
    1 ≤ t ∧ 1 ≤ x ∧ x + 1 < p.xc ∧ 1 ≤ y ∧ y + 1 < p.yc := by
  unfold OnRim at h; omega

theorem cast_pred {n : Nat} (h : 1 ≤ n) (a : ℝ) : ((n - 1 : Nat) : ℝ) * a = n * a - a := by
  rw [Nat.cast_sub h]; push_cast; ring
theorem cast_succ' (n : Nat) (a : ℝ) : ((n + 1 : Nat) : ℝ) * a = n * a + a := by push_cast; ring

theorem solves_sub {u : Fin p.d → ℝ} (hu : Solves p u) (w : ℝ → ℝ → ℝ → ℝ) :
    Solves (residual p w) (fun i => u i - grid p w i : Fin p.d → ℝ) := by
  intro t x y ht hx hy
  have ht' : t < p.tc := ht
  have hx' : x < p.xc := hx
  have hy' : y < p.yc := hy
  obtain ⟨h1, h2, h3⟩ := hu t x y ht' hx' hy'
  have ev2 : ∀ t x y, val3 (residual p w) (fun i => u i - grid p w i : Fin p.d → ℝ) t x y = val3 p u t x y - val3 p (grid p w) t x y :=
    fun t x y => val3_sub u _ t x y
  refine ⟨fun h => ?_, fun h h' => ?_, fun h => ?_⟩
  · rw [ev2, val3_grid ht' hx' hy', h1 h]
    subst h
    show p.t0 _ _ - w (((0 : Nat) : ℝ) * p.ht) _ _ = p.t0 _ _ - w 0 _ _
    rw [Nat.cast_zero, zero_mul]
    rfl
  · rw [ev2, val3_grid ht' hx' hy', h2 h h']
    rfl
  · obtain ⟨i0, i1, i2, i3, i4⟩ := inner_pos hx' hy' h
    simp only [ev2]
    rw [val3_grid ht' hx' hy', val3_grid (by omega) hx' hy', val3_grid ht' (by omega) hy', val3_grid ht' i2 hy',
      val3_grid ht' hx' (by omega), val3_grid ht' hx' i4]
    show _ = p.f (t * p.ht) (x * p.hx) (y * p.hy) - op p w (t * p.ht) (x * p.hx) (y * p.hy)
    rw [← h3 h]
    unfold op lap
    rw [cast_pred i0, cast_pred i1, cast_pred i3, cast_succ', cast_succ', show (residual p w).ht = p.ht from rfl,
      show (residual p w).hx = p.hx from rfl, show (residual p w).hy = p.hy from rfl, show (residual p w).k = p.k from rfl]
    ring

theorem inner_mem (hht : 0 < p.ht) (hhx : 0 < p.hx) (hhy : 0 < p.hy) {t x y : Nat} (hx : x < p.xc) (hy : y < p.yc) (h : ¬ OnRim p t x y) :
    0 ≤ t * p.ht - p.ht ∧ 0 ≤ x * p.hx - p.hx ∧ x * p.hx + p.hx ≤ lx p ∧ 0 ≤ y * p.hy - p.hy ∧ y * p.hy + p.hy ≤ ly p := by
  obtain ⟨i0, i1, i2, i3, i4⟩ := inner_pos hx hy h
  have c0 : (1 : ℝ) ≤ t := by exact_mod_cast i0
  have c1 : (1 : ℝ) ≤ x := by exact_mod_cast i1
  have c3 : (1 : ℝ) ≤ y := by exact_mod_cast i3
  have c2 : ((x + 1 : Nat) : ℝ) ≤ ((p.xc - 1 : Nat) : ℝ) := by exact_mod_cast (by omega : x + 1 ≤ p.xc - 1)
  have c4 : ((y + 1 : Nat) : ℝ) ≤ ((p.yc - 1 : Nat) : ℝ) := by exact_mod_cast (by omega : y + 1 ≤ p.yc - 1)
  have := mul_le_mul_of_nonneg_right c2 hhx.le
  have := mul_le_mul_of_nonneg_right c4 hhy.le
  unfold lx ly
  push_cast at *
  refine ⟨by nlinarith, by nlinarith, by linarith, by nlinarith, by linarith⟩

theorem error_le (hg : Good p) {u : Fin p.d → ℝ} (hu : Solves p u) {w : ℝ → ℝ → ℝ → ℝ} {τ : ℝ} (hτ : 0 ≤ τ)
    (hl : ∀ t x y, t < p.tc → x < p.xc → y < p.yc → ¬ OnRim p t x y →
      |op p w (t * p.ht) (x * p.hx) (y * p.hy) - p.f (t * p.ht) (x * p.hx) (y * p.hy)| ≤ τ)
    (h0 : ∀ x y, x < p.xc → y < p.yc → w 0 (x * p.hx) (y * p.hy) = p.t0 (x * p.hx) (y * p.hy))
    (hb : ∀ t x y, t < p.tc → x < p.xc → y < p.yc → t ≠ 0 → OnRim p t x y →
      w (t * p.ht) (x * p.hx) (y * p.hy) = p.b (t * p.ht) (x * p.hx) (y * p.hy))
    {t x y : Nat} (ht : t < p.tc) (hx : x < p.xc) (hy : y < p.yc) :
    |val3 p u t x y - w (t * p.ht) (x * p.hx) (y * p.hy)| ≤ (t * p.ht) * τ := by
  have hht := hg.ht
  have op_lin : ∀ (s : ℝ) (a b c : ℝ), op p (fun t x y => w t x y + s * t) a b c = op p w a b c + s := by
    intro s a b c
    unfold op lap
    field_simp
    ring
  have hgr : ∀ s, Good (residual p (fun t x y => w t x y + s * t)) := fun s => ⟨hg.ht, hg.k⟩
  have up := C72_maximum (m := 0) (p := residual p (fun t x y => w t x y + τ * t)) (hgr τ) (solves_sub hu _)
    (fun a b c ha hb' hc hr => by
      show p.f (a * p.ht) (b * p.hx) (c * p.hy) - op p _ (a * p.ht) (b * p.hx) (c * p.hy) ≤ 0
      rw [op_lin]
      have := (abs_le.1 (hl a b c ha hb' hc hr)).1
      linarith)
    (fun b c hb' hc => by
      show p.t0 (b * p.hx) (c * p.hy) - (w 0 (b * p.hx) (c * p.hy) + τ * 0) ≤ 0
      rw [h0 b c hb' hc]; simp)
    (fun a b c ha hb' hc h0' hr => by
      show p.b (a * p.ht) (b * p.hx) (c * p.hy) - (w (a * p.ht) (b * p.hx) (c * p.hy) + τ * (a * p.ht)) ≤ 0
      rw [hb a b c ha hb' hc h0' hr]
      have : 0 ≤ τ * (a * p.ht) := by positivity
      linarith) (t := t) (x := x) (y := y) ht hx hy
  have dn := C72_minimum (m := 0) (p := residual p (fun t x y => w t x y + (-τ) * t)) (hgr (-τ)) (solves_sub hu _)
    (fun a b c ha hb' hc hr => by
      show 0 ≤ p.f (a * p.ht) (b * p.hx) (c * p.hy) - op p _ (a * p.ht) (b * p.hx) (c * p.hy)
      rw [op_lin]
      have := (abs_le.1 (hl a b c ha hb' hc hr)).2
      linarith)
    (fun b c hb' hc => by
      show 0 ≤ p.t0 (b * p.hx) (c * p.hy) - (w 0 (b * p.hx) (c * p.hy) + (-τ) * 0)
      rw [h0 b c hb' hc]; simp)
    (fun a b c ha hb' hc h0' hr => by
      show 0 ≤ p.b (a * p.ht) (b * p.hx) (c * p.hy) - (w (a * p.ht) (b * p.hx) (c * p.hy) + (-τ) * (a * p.ht))
      rw [hb a b c ha hb' hc h0' hr]
      have : 0 ≤ τ * (a * p.ht) := by positivity
      linarith) (t := t) (x := x) (y := y) ht hx hy
  have e1 : ∀ s : ℝ, val3 (residual p (fun t x y => w t x y + s * t)) (fun i => u i - grid p (fun t x y => w t x y + s * t) i : Fin p.d → ℝ) t x y =
      val3 p u t x y - (w (t * p.ht) (x * p.hx) (y * p.hy) + s * (t * p.ht)) := by
    intro s
    have : _ = val3 p u t x y - val3 p (grid p (fun t x y => w t x y + s * t)) t x y := val3_sub u _ t x y
    rw [val3_grid ht hx hy] at this
    exact this
  rw [e1] at up dn
  rw [abs_le]
  constructor <;> linarith

/-- C84: the discrete solution of the heat problem differs from a smooth solution of the continuous problem at time `t * ht` by at most
`t * ht * (mt * ht / 2 + K (mx hx^2 + my hy^2) / 12)`, where `K` bounds the conductivity; there is no condition on the time step. -/
theorem C84_heat_error (hht : 0 < p.ht) (hhx : 0 < p.hx) (hhy : 0 < p.hy) {mt mx my K : ℝ}
    (hk : ∀ t ∈ Icc 0 (lt p), ∀ x ∈ Icc 0 (lx p), ∀ y ∈ Icc 0 (ly p), 0 ≤ p.k t x y ∧ p.k t x y ≤ K)
    {w : ℝ → ℝ → ℝ → ℝ} (hs : SmoothT (lt p) (lx p) (ly p) mt mx my w)
    (hw : SolvesHeat (lt p) (lx p) (ly p) p.k p.f p.b p.t0 w) {u : Fin p.d → ℝ} (hu : Solves p u)
    {t x y : Nat} (ht : t < p.tc) (hx : x < p.xc) (hy : y < p.yc) :
    |val3 p u t x y - w (t * p.ht) (x * p.hx) (y * p.hy)| ≤
      (t * p.ht) * (mt * p.ht / 2 + K * ((mx * p.hx ^ 2 + my * p.hy ^ 2) / 12)) := by
  have mt0 : (0 : ℝ) ∈ Icc 0 (lt p) := ⟨le_refl _, (mem_grid hht ht).1.trans (mem_grid hht ht).2⟩
  have hK : 0 ≤ K := (hk _ (mem_grid hht ht) _ (mem_grid hhx hx) _ (mem_grid hhy hy)).1.trans (hk _ (mem_grid hht ht) _ (mem_grid hhx hx) _ (mem_grid hhy hy)).2
  have hmx : 0 ≤ mx := (abs_nonneg _).trans ((hs.space 0 mt0).bx _ (mem_grid hhx hx) _ (mem_grid hhy hy))
  have hmy : 0 ≤ my := (abs_nonneg _).trans ((hs.space 0 mt0).bY _ (mem_grid hhx hx) _ (mem_grid hhy hy))
  have hmt : 0 ≤ mt := (abs_nonneg _).trans (hs.bt _ (mem_grid hhx hx) _ (mem_grid hhy hy) 0 mt0)
  refine error_le ⟨hht, fun t x y ht hx hy _ => (hk _ (mem_grid hht ht) _ (mem_grid hhx hx) _ (mem_grid hhy hy)).1⟩ hu (by positivity)
    (fun t x y ht hx hy hr => ?_) (fun x y hx hy => hw.init _ (mem_grid hhx hx) _ (mem_grid hhy hy)) (fun t x y ht hx hy h0 hr => ?_) ht hx hy
  · obtain ⟨i0, i1, i2, i3, i4⟩ := inner_mem hht hhx hhy hx hy hr
    have ht1 : (t * p.ht : ℝ) ∈ Icc 0 (lt p) := mem_grid hht ht
    have hx1 : (x * p.hx : ℝ) ∈ Icc 0 (lx p) := mem_grid hhx hx
    have hy1 : (y * p.hy : ℝ) ∈ Icc 0 (ly p) := mem_grid hhy hy
    have e := hw.pde (t * p.ht) ⟨by linarith, ht1.2⟩ (x * p.hx) ⟨by linarith, by linarith⟩ (y * p.hy) ⟨by linarith, by linarith⟩
    have l1 := lap_error (hs.space _ ht1) hhx hhy i1 i2 i3 i4
    have l2 := backward_diff_abs (by linarith [ht1.2]) (hs.ct _ hx1 _ hy1) (hs.bt _ hx1 _ hy1) hht i0 ht1.2
    rw [iteratedDerivWithin_one, e] at l2
    obtain ⟨k1, k2⟩ := hk _ ht1 _ hx1 _ hy1
    have l3 := mul_le_mul k2 l1 (abs_nonneg _) hK
    rw [← abs_of_nonneg k1, ← abs_mul] at l3
    unfold op
    rw [abs_le] at l2 l3 ⊢
    constructor <;> linarith [l2.1, l2.2, l3.1, l3.2]
  · have ht1 := (mem_grid hht ht : (t * p.ht : ℝ) ∈ Icc 0 (lt p))
    have : 0 < (t * p.ht : ℝ) := by
      have : (0 : ℝ) < t := by exact_mod_cast Nat.pos_of_ne_zero h0
      positivity
    refine hw.rim _ ⟨this, ht1.2⟩ _ (mem_grid hhx hx) _ (mem_grid hhy hy) ?_
    rcases hr with rfl | rfl | rfl | rfl | rfl
    · exact absurd rfl h0
    · simp
    · simp
    · right; right; right; rfl
    · right; left; rfl

variable {M : Type} [MatOps M ℝ] [LawfulMat M ℝ]

/-- C84: the heat program: discretisation error plus a multiple of the tolerance of the solver. -/
theorem C84_heat_program (ht : 0 < p.tc) (hx : 0 < p.xc) (hy : 0 < p.yc) (hht : 0 < p.ht) (hhx : 0 < p.hx) (hhy : 0 < p.hy) {mt mx my K : ℝ}
    (hk : ∀ t ∈ Icc 0 (lt p), ∀ x ∈ Icc 0 (lx p), ∀ y ∈ Icc 0 (ly p), 0 < p.k t x y ∧ p.k t x y ≤ K)
    {w : ℝ → ℝ → ℝ → ℝ} (hs : SmoothT (lt p) (lx p) (ly p) mt mx my w)
    (hw : SolvesHeat (lt p) (lx p) (ly p) p.k p.f p.b p.t0 w) {r : ℝ} (hr0 : 0 < r) (hr2 : r < 2) :
    ∃ C : ℝ, 0 ≤ C ∧ ∀ eps : ℝ, 0 < eps →
      ∃ N, ∀ maxIter, N < maxIter → ∃ u it, solve (M := M) p r maxIter eps = .ok (fl u, it) ∧ it ≤ N ∧
        ∀ t x y, t < p.tc → x < p.xc → y < p.yc → |val3 p u t x y - w (t * p.ht) (x * p.hx) (y * p.hy)| ≤
          C * eps + (t * p.ht) * (mt * p.ht / 2 + K * ((mx * p.hx ^ 2 + my * p.hy ^ 2) / 12)) := by
  have hk' : ∀ t x y, t < p.tc → x < p.xc → y < p.yc → ¬ OnRim p t x y → 0 < p.k (t * p.ht) (x * p.hx) (y * p.hy) :=
    fun t x y ht hx hy _ => (hk _ (mem_grid hht ht) _ (mem_grid hhx hx) _ (mem_grid hhy hy)).1
  obtain ⟨C, hC0, hC⟩ := C72_heat_solve (M := M) ht hx hy hht hk' hr0 hr2
  refine ⟨C, hC0, fun eps he => ?_⟩
  obtain ⟨N, hN⟩ := hC eps he
  refine ⟨N, fun maxIter hm => ?_⟩
  obtain ⟨u, it, e1, e2, e3⟩ := hN maxIter hm
  refine ⟨u, it, e1, e2, fun t x y ht' hx' hy' => ?_⟩
  obtain ⟨_, _, _, _, -, -, -, -, z, hz, -⟩ := C72_heat_euler (M := M) (p := p) ht hx hy ⟨hht, fun t x y a b c d => (hk' t x y a b c d).le⟩
  have h1 := C84_heat_error hht hhx hhy (fun t ht x hx y hy => ⟨(hk t ht x hx y hy).1.le, (hk t ht x hx y hy).2⟩) hs hw hz ht' hx' hy'
  have h2 : |val3 p u t x y - val3 p z t x y| ≤ C * eps := by
    rw [val3_at ht' hx' hy', val3_at ht' hx' hy']
    exact e3 z hz _
  exact (abs_sub_le _ (val3 p z t x y) _).trans (add_le_add h2 h1)
open NS.Props.Fdm in
/-- a case that meets the hypotheses: `w = t^2 + x^4` on the unit cube solves the problem with conductivity 1 and source
`2 t - 12 x^2` -/
theorem quartic_smooth : SmoothT 1 1 1 2 24 0 (fun t x _ => t ^ 2 + x ^ 4) := by
  have hu : UniqueDiffOn ℝ (Icc (0 : ℝ) 1) := uniqueDiffOn_Icc one_pos
  refine ⟨fun t ht => ⟨fun _ _ => (contDiff_const.add (contDiff_id.pow 4)).contDiffOn, fun _ _ => contDiffOn_const, fun x hx y hy => ?_, fun x hx y hy => ?_⟩,
    fun _ _ _ _ => ((contDiff_id.pow 2).add contDiff_const).contDiffOn, fun x hx y hy t ht => ?_⟩
  · rw [iteratedDerivWithin_eq_iteratedDeriv hu (f := fun s : ℝ => t ^ 2 + s ^ 4) (contDiff_const.add (contDiff_id.pow 4)).contDiffAt hx]
    have e : (deriv fun s : ℝ => t ^ 2 + s ^ 4) = fun s => 4 * s ^ 3 := by funext s; simp
    have : iteratedDeriv 4 (fun s : ℝ => t ^ 2 + s ^ 4) x = 24 := by
      simp only [iteratedDeriv_succ, iteratedDeriv_zero, e, deriv_cubic, deriv_square]
      simp; norm_num
    rw [this]; norm_num
  · rw [iteratedDerivWithin_eq_iteratedDeriv hu contDiff_const.contDiffAt hy]
    simp [iteratedDeriv_succ]
  · rw [iteratedDerivWithin_eq_iteratedDeriv hu (f := fun s : ℝ => s ^ 2 + x ^ 4) ((contDiff_id.pow 2).add contDiff_const).contDiffAt ht]
    have e : (deriv fun s : ℝ => s ^ 2 + x ^ 4) = fun s => 2 * s := by funext s; simp
    have : iteratedDeriv 2 (fun s : ℝ => s ^ 2 + x ^ 4) t = 2 := by
      simp only [iteratedDeriv_succ, iteratedDeriv_zero, e]
      simp
    rw [this]; norm_num

open NS.Props.Fdm in
theorem quartic_solves : SolvesHeat 1 1 1 (fun _ _ _ => 1) (fun t x _ => 2 * t - 12 * x ^ 2) (fun t x _ => t ^ 2 + x ^ 4)
    (fun x _ => x ^ 4) (fun t x _ => t ^ 2 + x ^ 4) := by
  have hu : UniqueDiffOn ℝ (Icc (0 : ℝ) 1) := uniqueDiffOn_Icc one_pos
  refine ⟨fun t ht x hx y hy => ?_, fun _ _ _ _ _ _ _ => rfl, fun x _ y _ => by simp⟩
  show derivWithin (fun s : ℝ => s ^ 2 + x ^ 4) (Icc 0 1) t = 1 * (iteratedDerivWithin 2 (fun s : ℝ => t ^ 2 + s ^ 4) (Icc 0 1) x +
    iteratedDerivWithin 2 (fun _ => t ^ 2 + x ^ 4) (Icc 0 1) y) + (2 * t - 12 * x ^ 2)
  rw [← iteratedDerivWithin_one,
    iteratedDerivWithin_eq_iteratedDeriv hu (f := fun s : ℝ => s ^ 2 + x ^ 4) ((contDiff_id.pow 2).add contDiff_const).contDiffAt (Ioc_subset_Icc_self ht),
    iteratedDerivWithin_eq_iteratedDeriv hu (f := fun s : ℝ => t ^ 2 + s ^ 4) (contDiff_const.add (contDiff_id.pow 4)).contDiffAt (Ioo_subset_Icc_self hx),
    iteratedDerivWithin_eq_iteratedDeriv hu contDiff_const.contDiffAt (Ioo_subset_Icc_self hy)]
  have e : (deriv fun s : ℝ => t ^ 2 + s ^ 4) = fun s => 4 * s ^ 3 := by funext s; simp
  have h1 : iteratedDeriv 2 (fun s : ℝ => t ^ 2 + s ^ 4) x = 12 * x ^ 2 := by
    simp only [iteratedDeriv_succ, iteratedDeriv_zero, e, deriv_cubic]
    norm_num
  rw [h1]
  simp [iteratedDeriv_succ]

/-- the heat problem with these data, 11 times and 5 x 5 points -/
noncomputable def exQ : Problem ℝ := ⟨11, 5, 5, 1 / 10, 1 / 4, 1 / 4, fun _ _ _ => 1, fun t x _ => 2 * t - 12 * x ^ 2, fun t x _ => t ^ 2 + x ^ 4, fun x _ => x ^ 4⟩

example (u : Fin exQ.d → ℝ) (hu : Solves exQ u) : |val3 exQ u 5 2 2 - ((1 / 2) ^ 2 + (1 / 2) ^ 4)| ≤ 9 / 80 := by
  have e0 : lt exQ = 1 := by unfold lt exQ; norm_num
  have e1 : lx exQ = 1 := by unfold lx exQ; norm_num
  have e2 : ly exQ = 1 := by unfold ly exQ; norm_num
  have := C84_heat_error (p := exQ) (K := 1) (by unfold exQ; norm_num) (by unfold exQ; norm_num) (by unfold exQ; norm_num)
    (fun _ _ _ _ _ _ => by unfold exQ; norm_num)
    (by rw [e0, e1, e2]; exact quartic_smooth) (by rw [e0, e1, e2]; exact quartic_solves) hu (t := 5) (x := 2) (y := 2)
    (by unfold exQ; norm_num) (by unfold exQ; norm_num) (by unfold exQ; norm_num)
  have a1 : exQ.ht = 1 / 10 := rfl
  have a2 : exQ.hx = 1 / 4 := rfl
  have a3 : exQ.hy = 1 / 4 := rfl
  rw [a1, a2, a3] at this
  norm_num at this ⊢
  exact this
end NS.Props.Heat

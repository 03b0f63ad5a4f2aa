/-
Property theorems C88 (continued): the distance of the values computed by the finite element program on the generated grid from the
solution of the Poisson problem.
-/
import Verif.Props.FemError
import Verif.Props.FemSor

set_option linter.unusedSectionVars false
set_option linter.unusedSimpArgs false

namespace NS.Props.Fem
open NS NS.World NS.Fem NS.MatOps NS.LawfulMat Matrix NS.Props.Mesh NS.Props.Shape NS.HyperCube NS.Props.HyperCube Set
open NS.Props.LU (IsMat IsVec isVec_iff isMat_of)
open NS.Props.Fdm (Smooth SolvesPoisson dxx dyy lap lap_error)

/-- symmetric second differences of `f` in the square `[0,L]²` are at most `m` times the square of the step (true if all second
directional derivatives are bounded by `m`) -/
def BoundedSecondDiff (L m : ℝ) (f : ℝ → ℝ → ℝ) : Prop :=
  ∀ x y a b : ℝ, x + a ∈ Icc 0 L → x - a ∈ Icc 0 L → y + b ∈ Icc 0 L → y - b ∈ Icc 0 L →
    |f (x + a) (y + b) + f (x - a) (y - b) - 2 * f x y| ≤ m * (a ^ 2 + b ^ 2)

/-- discrete comparison on the square grid -/
theorem nodal_error {N : Nat} (hN : 1 ≤ N) {L : ℝ} (hL : 0 < L) {u : Nat → Nat → ℝ} {w f : ℝ → ℝ → ℝ} {mx my τ : ℝ} (hτ : 0 ≤ τ)
    (hs : Smooth L L mx my w) (hw : SolvesPoisson L L (fun x y => -f x y) w w)
    (hin : ∀ r ≤ N, ∀ c ≤ N, ¬ Rim N r c → |fiveDiff u r c - (L / N) ^ 2 * f (c * (L / N)) (r * (L / N))| ≤ (L / N) ^ 2 * τ)
    (hrim : ∀ r ≤ N, ∀ c ≤ N, Rim N r c → u r c = w (c * (L / N)) (r * (L / N))) {r c : Nat} (hr : r ≤ N) (hc : c ≤ N) :
    |u r c - w (c * (L / N)) (r * (L / N))| ≤ L ^ 2 / 8 * ((mx + my) * (L / N) ^ 2 / 12 + τ) := by
  have hNp : (0 : ℝ) < N := by exact_mod_cast (by omega : 0 < N)
  set h : ℝ := L / N with hh'
  have hh : 0 < h := div_pos hL hNp
  have hNh : (N : ℝ) * h = L := by rw [hh']; field_simp
  let p : NS.Fdm.Poisson ℝ := ⟨N + 1, N + 1, h, h, fun x y => -(fiveDiff u ⌊y / h⌋₊ ⌊x / h⌋₊) / h ^ 2, fun x y => u ⌊y / h⌋₊ ⌊x / h⌋₊⟩
  have hfl : ∀ k : Nat, ⌊(k : ℝ) * h / h⌋₊ = k := fun k => by rw [mul_div_cancel_right₀ _ hh.ne', Nat.floor_natCast]
  have elx : Props.Fdm.lx p = L := by unfold Props.Fdm.lx; show ((N + 1 - 1 : Nat) : ℝ) * h = L; rw [Nat.add_sub_cancel]; exact hNh
  have ely : Props.Fdm.ly p = L := by unfold Props.Fdm.ly; show ((N + 1 - 1 : Nat) : ℝ) * h = L; rw [Nat.add_sub_cancel]; exact hNh
  let v : Fin (p.xc * p.yc) → ℝ := fun i => u ((i : Nat) / (N + 1)) ((i : Nat) % (N + 1))
  have hval : ∀ x y, x < N + 1 → y < N + 1 → Props.Fdm.val2 p v x y = u y x := by
    intro x y hx hy
    have hlt : p.lin x y < p.xc * p.yc := Props.Fdm.lin_lt (p := p) hx hy
    have e : Props.Fdm.val2 p v x y = v ⟨p.lin x y, hlt⟩ := dif_pos hlt
    rw [e]
    show u (p.lin x y / p.xc) (p.lin x y % p.xc) = u y x
    rw [Props.Fdm.lin_mod (p := p) hx, Props.Fdm.lin_div (p := p) hx]
  have hrimiff : ∀ x y, Props.Fdm.OnRim p x y ↔ Rim N y x := by
    intro x y
    unfold Props.Fdm.OnRim Rim
    show x = 0 ∨ y = 0 ∨ x = N + 1 - 1 ∨ y = N + 1 - 1 ↔ _
    rw [Nat.add_sub_cancel]
    tauto
  have hsol : Props.Fdm.Solves p v := by
    intro x y hx hy
    have hx : x < N + 1 := hx
    have hy : y < N + 1 := hy
    refine ⟨fun _ => ?_, fun hr => ?_⟩
    · rw [hval x y hx hy]
      show u y x = u ⌊(y : ℝ) * h / h⌋₊ ⌊(x : ℝ) * h / h⌋₊
      rw [hfl, hfl]
    · have hr := (not_congr (hrimiff x y)).1 hr
      have hb : 0 < y ∧ y < N ∧ 0 < x ∧ x < N := by unfold Rim at hr; omega
      rw [hval x y hx hy, hval (x - 1) y (by omega) hy, hval (x + 1) y (by omega) hy, hval x (y - 1) hx (by omega), hval x (y + 1) hx (by omega)]
      show _ / h ^ 2 + _ / h ^ 2 = -(fiveDiff u ⌊(y : ℝ) * h / h⌋₊ ⌊(x : ℝ) * h / h⌋₊) / h ^ 2
      rw [hfl, hfl, ← add_div]
      congr 1
      unfold fiveDiff
      ring
  have hmem : ∀ k : Nat, k ≤ N → (k : ℝ) * h ∈ Icc 0 L := fun k hk => by
    refine ⟨by positivity, ?_⟩
    rw [← hNh]
    exact mul_le_mul_of_nonneg_right (by exact_mod_cast hk) hh.le
  have hmx : 0 ≤ mx := (abs_nonneg _).trans (hs.bx _ (hmem c hc) _ (hmem r hr))
  have hmy : 0 ≤ my := (abs_nonneg _).trans (hs.bY _ (hmem c hc) _ (hmem r hr))
  set σ := (mx + my) * h ^ 2 / 12 + τ with hσ
  have hσ0 : 0 ≤ σ := by positivity
  have hl : ∀ x y, x < p.xc → y < p.yc → ¬ Props.Fdm.OnRim p x y → |lap p.h p.k w (x * p.h) (y * p.k) - p.f (x * p.h) (y * p.k)| ≤ σ := by
    intro x y hx hy hr
    have hx : x < N + 1 := hx
    have hy : y < N + 1 := hy
    have hr := (not_congr (hrimiff x y)).1 hr
    have hb : 0 < y ∧ y < N ∧ 0 < x ∧ x < N := by unfold Rim at hr; omega
    have hx1 := hmem (x + 1) (by omega)
    have hy1 := hmem (y + 1) (by omega)
    have cx : (1 : ℝ) ≤ x := by exact_mod_cast hb.2.2.1
    have cy : (1 : ℝ) ≤ y := by exact_mod_cast hb.1
    push_cast at hx1 hy1
    have a1 : 0 ≤ (x : ℝ) * h - h := by nlinarith
    have a2 : (x : ℝ) * h + h ≤ L := by have := hx1.2; nlinarith
    have a3 : 0 ≤ (y : ℝ) * h - h := by nlinarith
    have a4 : (y : ℝ) * h + h ≤ L := by have := hy1.2; nlinarith
    have t1 := lap_error hs (h := h) (k := h) (x := x * h) (y := y * h) hh hh a1 a2 a3 a4
    rw [hw.pde (x * h) ⟨by linarith, by linarith⟩ (y * h) ⟨by linarith, by linarith⟩] at t1
    have t2 := hin y (by omega) x (by omega) hr
    have hh2 : (0 : ℝ) < h ^ 2 := by positivity
    have t3 : |fiveDiff u y x / h ^ 2 - f (x * h) (y * h)| ≤ τ := by
      have e : fiveDiff u y x / h ^ 2 - f (x * h) (y * h) = (fiveDiff u y x - h ^ 2 * f (x * h) (y * h)) / h ^ 2 := by field_simp
      rw [e, abs_div, abs_of_pos hh2, div_le_iff₀ hh2, mul_comm τ]
      exact t2
    show |lap h h w (x * h) (y * h) - -(fiveDiff u ⌊(y : ℝ) * h / h⌋₊ ⌊(x : ℝ) * h / h⌋₊) / h ^ 2| ≤ σ
    rw [hfl, hfl]
    have e : lap h h w (x * h) (y * h) - -(fiveDiff u y x) / h ^ 2 =
        (lap h h w (x * h) (y * h) - -f (x * h) (y * h)) + (fiveDiff u y x / h ^ 2 - f (x * h) (y * h)) := by ring
    rw [e, hσ]
    refine (abs_add_le _ _).trans (add_le_add ?_ t3)
    calc _ ≤ (mx * h ^ 2 + my * h ^ 2) / 12 := t1
      _ = _ := by ring
  have hb : ∀ x y, x < p.xc → y < p.yc → Props.Fdm.OnRim p x y → w (x * p.h) (y * p.k) = p.b (x * p.h) (y * p.k) := by
    intro x y hx hy hr
    have hx : x < N + 1 := hx
    have hy : y < N + 1 := hy
    show w (x * h) (y * h) = u ⌊(y : ℝ) * h / h⌋₊ ⌊(x : ℝ) * h / h⌋₊
    rw [hfl, hfl, hrim y (by omega) x (by omega) ((hrimiff x y).1 hr)]
  have fin := Props.Fdm.error_le (p := p) hh hh hsol hσ0 hl hb (g := fun x _ => x * (x - L) / 2)
    (fun x y => by show lap h h _ x y = 1; unfold lap; field_simp; ring)
    (fun x hx y _ => by rw [elx] at hx; have := mul_nonneg hx.1 (sub_nonneg.2 hx.2); linarith) (x := c) (y := r) (show c < N + 1 by omega) (show r < N + 1 by omega)
  rw [hval c r (by omega) (by omega)] at fin
  refine (show |u r c - w (c * h) (r * h)| ≤ -(σ * ((c * h) * (c * h - L) / 2)) from fin).trans ?_
  have : -((c * h) * (c * h - L) / 2) ≤ L ^ 2 / 8 := by nlinarith [sq_nonneg ((c : ℝ) * h - L / 2)]
  nlinarith [mul_le_mul_of_nonneg_left this hσ0]

/-- the rule averages the source over six points that lie symmetrically around the vertex -/
theorem sixSum_near {N : Nat} {L m : ℝ} (hL : 0 < L) {src : List ℝ → ℝ} (h2 : BoundedSecondDiff L m fun x y => src [x, y]) {r c : Nat}
    (hr : 0 < r) (hrN : r < N) (hc : 0 < c) (hcN : c < N) :
    |sixSum (L / N) (0, 0) src r c / 6 - src [c * (L / N), r * (L / N)]| ≤ m * (L / N) ^ 2 / 6 := by
  have hNp : (0 : ℝ) < N := by exact_mod_cast (by omega : 0 < N)
  set h : ℝ := L / N with hh'
  have hh : 0 < h := div_pos hL hNp
  have hNh : (N : ℝ) * h = L := by rw [hh']; field_simp
  have mem : ∀ k : Nat, 0 < k → k < N → ∀ d : ℝ, |d| ≤ 1 / 2 → (k : ℝ) * h + h * d ∈ Icc 0 L := by
    intro k h1 h2 d hd
    have c1 : (1 : ℝ) ≤ k := by exact_mod_cast h1
    have c2 : (k : ℝ) + 1 ≤ N := by exact_mod_cast h2
    rw [abs_le] at hd
    constructor
    · nlinarith
    · nlinarith
  have pair : ∀ a b : ℝ, |a| ≤ 1 → |b| ≤ 1 → |edgeMid h (0, 0) src r c a b + edgeMid h (0, 0) src r c (-a) (-b) - 2 * src [c * h, r * h]| ≤
      m * (h ^ 2 / 4 * (a ^ 2 + b ^ 2)) := by
    intro a b ha hb
    have ha2 : |a / 2| ≤ 1 / 2 := by rw [abs_div, abs_two]; linarith
    have hb2 : |b / 2| ≤ 1 / 2 := by rw [abs_div, abs_two]; linarith
    have ha2' : |-(a / 2)| ≤ 1 / 2 := by rw [abs_neg]; exact ha2
    have hb2' : |-(b / 2)| ≤ 1 / 2 := by rw [abs_neg]; exact hb2
    have := h2 (c * h) (r * h) (h * (b / 2)) (h * (a / 2)) (mem c hc hcN _ hb2)
      (by have := mem c hc hcN _ hb2'; rwa [mul_neg, ← sub_eq_add_neg] at this) (mem r hr hrN _ ha2)
      (by have := mem r hr hrN _ ha2'; rwa [mul_neg, ← sub_eq_add_neg] at this)
    have e1 : edgeMid h (0, 0) src r c a b = src [c * h + h * (b / 2), r * h + h * (a / 2)] := by
      unfold edgeMid; congr 2
      · ring
      · congr 1; ring
    have e2 : edgeMid h (0, 0) src r c (-a) (-b) = src [c * h - h * (b / 2), r * h - h * (a / 2)] := by
      unfold edgeMid; congr 2
      · ring
      · congr 1; ring
    rw [e1, e2]
    refine this.trans (le_of_eq ?_)
    ring
  have k1 := abs_le.1 (pair 1 0 (by norm_num) (by norm_num))
  have k2 := abs_le.1 (pair 0 1 (by norm_num) (by norm_num))
  have k3 := abs_le.1 (pair 1 1 (by norm_num) (by norm_num))
  simp only [neg_zero] at k1 k2
  unfold sixSum
  rw [abs_le]
  constructor <;> nlinarith [k1.1, k1.2, k2.1, k2.2, k3.1, k3.2]

variable {M : Type} [MatOps M ℝ] [LawfulMat M ℝ]

/-- the data of the continuous problem on the square `[0,L]²`: `w` solves `-Δw = src` with `w = g` on the boundary, the fourth
derivatives of `w` along the axes are at most `mx`, `my` and the second differences of `src` at most `m2` -/
structure PoissonData (L mx my m2 : ℝ) (src g : List ℝ → ℝ) (w : ℝ → ℝ → ℝ) : Prop where
  smooth : Smooth L L mx my w
  solves : SolvesPoisson L L (fun x y => -src [x, y]) (fun x y => g [x, y]) w
  source : BoundedSecondDiff L m2 fun x y => src [x, y]

/-- `x` approximates the solution `w` on the grid: `e` inside, `e'` at the rim -/
def NodalWithin (N : Nat) (L e e' : ℝ) (x : Fin ((N + 1) * (N + 1)) → ℝ) (w : ℝ → ℝ → ℝ) : Prop :=
  ∀ (i : Fin ((N + 1) * (N + 1))) (r c : Nat), (i : Nat) = r * (N + 1) + c → r ≤ N → c ≤ N →
    |x i - w (c * (L / N)) (r * (L / N))| ≤ if Rim N r c then e' else e

theorem kappa_pos : (0 : ℝ) < kappa := by unfold kappa; norm_num

theorem grid_error {N : Nat} (hN : 1 ≤ N) {L : ℝ} (hL : 0 < L) {w₀ w' w'' : World ℝ} (hb : Built w₀) (hd : Distinct w₀)
    (hc : Closed w₀) (hel : w₀.elements ≠ []) (hp : Pipeline w₀ w') (e3 : Shape.prepareMesh 1 w' = .ok w'') (G : GridReady N (L / N) (0, 0) w₀ w'')
    {eps : ℝ} (h0 : 0 ≤ eps) (he : eps < kappa / 2) {src g : List ℝ → ℝ} {a : M} {b : List ℝ}
    {A : Matrix (Fin ((N + 1) * (N + 1))) (Fin ((N + 1) * (N + 1))) ℝ} {B : Fin ((N + 1) * (N + 1)) → ℝ}
    (hs : system eps 1 src g w'' = .ok (a, b)) (ha : IsMat a _ A) (hB : IsVec b _ B) {mx my m2 : ℝ} {w : ℝ → ℝ → ℝ}
    (P : PoissonData L mx my m2 src g w) {x : Fin ((N + 1) * (N + 1)) → ℝ} {ρ : ℝ} (hx : ∀ i, |(A *ᵥ x) i - B i| ≤ ρ) :
    NodalWithin N L (L ^ 2 / 8 * ((mx + my) / 12 + m2 / 6) * (L / N) ^ 2 + (N : ℝ) ^ 2 * (ρ + 6 * eps) / (8 * kappa)) (ρ / kappa) x w := by
  have hNp : (0 : ℝ) < N := by exact_mod_cast (by omega : 0 < N)
  have hk0 := kappa_pos
  have hh : (0 : ℝ) < L / N := div_pos hL hNp
  have hNh : (N : ℝ) * (L / N) = L := by field_simp
  have hmem : ∀ k : Nat, k ≤ N → (k : ℝ) * (L / N) ∈ Icc 0 L := fun k hk => by
    refine ⟨by positivity, ?_⟩
    conv_rhs => rw [← hNh]
    exact mul_le_mul_of_nonneg_right (by exact_mod_cast hk) hh.le
  have hpos : ∀ r c : Nat, g (gridPos (L / N) (0, 0) r c) = g [c * (L / N), r * (L / N)] := fun r c => by
    unfold gridPos; congr 2
    · ring
    · congr 1; ring
  have hg : ∀ r ≤ N, ∀ c ≤ N, Rim N r c → g (gridPos (L / N) (0, 0) r c) = w (c * (L / N)) (r * (L / N)) := by
    intro r hr c hcN hrim
    rw [hpos]
    refine (P.solves.rim _ (hmem c hcN) _ (hmem r hr) ?_).symm
    unfold Rim at hrim
    rcases hrim with rfl | rfl | rfl | rfl
    · right; right; left; simp
    · right; right; right; exact hNh
    · left; simp
    · right; left; exact hNh
  have hres := fun r c (hr : r ≤ N) (hcN : c ≤ N) => grid_residual hN hh.ne' hb hd hc hel hp e3 G h0 he hs ha hB x hr hcN ⟨vid N r c, vid_lt hr hcN⟩ rfl
  have hρ0 : 0 ≤ ρ := (abs_nonneg _).trans (hx ⟨vid N 0 0, vid_lt (Nat.zero_le _) (Nat.zero_le _)⟩)
  intro i r c hi hr hcN
  have hi' : i = ⟨vid N r c, vid_lt hr hcN⟩ := Fin.ext hi
  have hnode : node N x r c = x i := by rw [node_eq hr hcN, hi']
  split
  · next hrim =>
    have e := (hres r c hr hcN).1 hrim
    have h1 := hx ⟨vid N r c, vid_lt hr hcN⟩
    rw [e, hnode, hg r hr c hcN hrim, abs_mul] at h1
    have hav : kappa ≤ 4 * kappa * (N : ℝ) ^ 2 / ((N + 1) * (N + 1)) := by
      rw [le_div_iff₀ (by positivity)]
      have : (1 : ℝ) ≤ N := by exact_mod_cast hN
      nlinarith [mul_nonneg hk0.le (show (0 : ℝ) ≤ (N - 1) * (3 * N + 1) by apply mul_nonneg <;> linarith)]
    rw [abs_of_nonneg (hk0.le.trans hav)] at h1
    rw [le_div_iff₀ hk0, mul_comm]
    exact (mul_le_mul_of_nonneg_right hav (abs_nonneg _)).trans h1
  · next hrim =>
    have hu : withRim N (L / N) (0, 0) g x r c = x i := by unfold withRim; rw [if_neg hrim, hnode]
    have main := nodal_error (u := withRim N (L / N) (0, 0) g x) (w := w) (f := fun x y => src [x, y])
      (τ := m2 * (L / N) ^ 2 / 6 + (ρ + 6 * eps) / (kappa * (L / N) ^ 2)) hN hL ?_ P.smooth ⟨P.solves.pde, fun _ _ _ _ _ => rfl⟩ ?_ ?_ hr hcN
    · rw [hu] at main
      refine main.trans (le_of_eq ?_)
      field_simp
      ring
    · have hin : 0 < r ∧ r < N ∧ 0 < c ∧ c < N := by unfold Rim at hrim; omega
      have := (abs_nonneg _).trans (sixSum_near hL P.source hin.1 hin.2.1 hin.2.2.1 hin.2.2.2)
      positivity
    · intro r hr c hcN hrim
      have hin : 0 < r ∧ r < N ∧ 0 < c ∧ c < N := by unfold Rim at hrim; omega
      obtain ⟨δ, d1, d2⟩ := (hres r c hr hcN).2 hrim
      have h1 := hx ⟨vid N r c, vid_lt hr hcN⟩
      have h2 := sixSum_near hL P.source hin.1 hin.2.1 hin.2.2.1 hin.2.2.2
      set F := fiveDiff (withRim N (L / N) (0, 0) g x) r c
      set S := sixSum (L / N) (0, 0) src r c
      have e : F - (L / N) ^ 2 * src [c * (L / N), r * (L / N)] =
          ((A *ᵥ x) ⟨vid N r c, vid_lt hr hcN⟩ - B ⟨vid N r c, vid_lt hr hcN⟩ - δ) / kappa + (L / N) ^ 2 * (S / 6 - src [c * (L / N), r * (L / N)]) := by
        rw [d2]; field_simp; ring
      show |F - (L / N) ^ 2 * src [c * (L / N), r * (L / N)]| ≤ _
      rw [e]
      refine (abs_add_le _ _).trans ?_
      rw [abs_div, abs_of_pos hk0, abs_mul, abs_of_pos (show (0 : ℝ) < (L / N) ^ 2 by positivity)]
      have t1 : |(A *ᵥ x) ⟨vid N r c, vid_lt hr hcN⟩ - B ⟨vid N r c, vid_lt hr hcN⟩ - δ| / kappa ≤ (ρ + 6 * eps) / kappa :=
        div_le_div_of_nonneg_right ((abs_sub _ _).trans (add_le_add h1 d1)) hk0.le
      have t2 := mul_le_mul_of_nonneg_left h2 (show (0 : ℝ) ≤ (L / N) ^ 2 by positivity)
      refine (add_le_add t1 t2).trans (le_of_eq ?_)
      field_simp
      ring
    · intro r hr c hcN hrim
      unfold withRim
      rw [if_pos hrim]
      exact hg r hr c hcN hrim

/-- C88: for every number of cells, the solution of the linear system the example assembles on the generated square grid is second
order accurate at the vertices, and exact at the boundary; every vector with residual at most `ρ` is as accurate up to
`N²ρ/(8κ)` inside and `ρ/κ` at the boundary. -/
theorem C88_error {N : Nat} (hN : 1 ≤ N) {L : ℝ} (hL : 0 < L) {eps : ℝ} (h0 : 0 ≤ eps) (he : eps < kappa / 2) {src g : List ℝ → ℝ}
    {mx my m2 : ℝ} {w : ℝ → ℝ → ℝ} (P : PoissonData L mx my m2 src g w) :
    ∃ (w1 w2 w3 : World ℝ) (a : M) (b : List ℝ) (A : Matrix (Fin ((N + 1) * (N + 1))) (Fin ((N + 1) * (N + 1))) ℝ)
      (B : Fin ((N + 1) * (N + 1)) → ℝ),
      generate N N (L, L) (0, 0) = .ok w1 ∧ w1.prepare 0 = .ok w2 ∧ Shape.prepareMesh 1 w2 = .ok w3 ∧ system eps 1 src g w3 = .ok (a, b) ∧
      IsMat a _ A ∧ IsVec b _ B ∧
      (∃ u, A *ᵥ u = B ∧ (∀ x, A *ᵥ x = B → x = u) ∧
        NodalWithin N L (L ^ 2 / 8 * ((mx + my) / 12 + m2 / 6) * (L / N) ^ 2 + (N : ℝ) ^ 2 * (6 * eps) / (8 * kappa)) 0 u w) ∧
      ∀ x ρ, (∀ i, |(A *ᵥ x) i - B i| ≤ ρ) →
        NodalWithin N L (L ^ 2 / 8 * ((mx + my) / 12 + m2 / 6) * (L / N) ^ 2 + (N : ℝ) ^ 2 * (ρ + 6 * eps) / (8 * kappa)) (ρ / kappa) x w := by
  obtain ⟨w₀, w1, w2, w3, hb, hd, hc, hel, e1, e2, hp, e3, G⟩ := grid_ready hN hL.ne' (0, 0)
  have hNp : (0 : ℝ) < N := by exact_mod_cast (by omega : 0 < N)
  have hh : (0 : ℝ) < L / N := div_pos hL hNp
  have hD := dofs_in hb hd hc hp.setup (.inl rfl) e3
  have hn : w3.vertices.length = (N + 1) * (N + 1) := by rw [G.vertices, List.length_range]
  obtain ⟨a, b, A, B, s1, s2, s3, s4, ⟨u, s5, s6⟩, -⟩ := C67_system (M := M) hb hd hc hp (.inl rfl) e3 hel hn (grid_noneDropped hh.ne' G he) (grid_anchored G hD.elements) src g
  have ge := fun x ρ (hx : ∀ i, |(A *ᵥ x) i - B i| ≤ ρ) => grid_error hN hL hb hd hc hel hp e3 G h0 he s1 s2 s3 P hx
  refine ⟨w1, w2, w3, a, b, A, B, e1, e2, e3, s1, s2, s3, ⟨u, s5, fun x hx => s6 x hx, ?_⟩, ge⟩
  have := ge u 0 (fun i => by rw [show A *ᵥ u = B from s5, sub_self, abs_zero])
  rwa [zero_add, zero_div] at this

/-- the size of the entries of the five-point matrix -/
theorem grid_entries {N : Nat} (hN : 1 ≤ N) {L : ℝ} (hL : L ≠ 0) {w1 w2 w3 : World ℝ} (e1 : generate N N (L, L) (0, 0) = .ok w1)
    (e2 : w1.prepare 0 = .ok w2) (e3 : Shape.prepareMesh 1 w2 = .ok w3) {eps : ℝ} (he : eps < kappa / 2) {src g : List ℝ → ℝ} {a : M} {b : List ℝ}
    (hs : system eps 1 src g w3 = .ok (a, b)) {A : Matrix (Fin ((N + 1) * (N + 1))) (Fin ((N + 1) * (N + 1))) ℝ} (ha : IsMat a _ A)
    (i : Fin ((N + 1) * (N + 1))) :
    kappa ≤ A i i ∧ A i i ≤ 4 * kappa ∧ (∑ j, if i < j then |A i j| else 0) ≤ 2 * kappa := by
  obtain ⟨v1, v2, v3, a', b', A', B', f1, f2, f3, f4, f5, -, -, -, f6⟩ := C68_grid (M := M) hN hL (0, 0) he src g
  obtain rfl : w1 = v1 := Except.ok.inj (e1.symm.trans f1)
  obtain rfl : w2 = v2 := Except.ok.inj (e2.symm.trans f2)
  obtain rfl : w3 = v3 := Except.ok.inj (e3.symm.trans f3)
  obtain ⟨rfl, -⟩ := Prod.mk.inj (Except.ok.inj (hs.symm.trans f4))
  obtain rfl : A = A' := by
    ext x y
    exact Except.ok.inj ((ha.2.2.2 x y).symm.trans (f5.2.2.2 x y))
  have hk0 := kappa_pos
  have hN1 : (1 : ℝ) ≤ N := by exact_mod_cast hN
  have hdec : ∀ j : Fin ((N + 1) * (N + 1)), (j : Nat) / (N + 1) ≤ N ∧ (j : Nat) % (N + 1) ≤ N ∧
      (j : Nat) = (j : Nat) / (N + 1) * (N + 1) + (j : Nat) % (N + 1) := by
    intro j
    refine ⟨Nat.le_of_lt_succ (Nat.div_lt_of_lt_mul j.2), Nat.le_of_lt_succ (Nat.mod_lt _ (by omega)), ?_⟩
    exact (Nat.div_add_mod' _ _).symm
  obtain ⟨i1, i2, i3⟩ := hdec i
  have hdiag := f6 _ i1 _ i2 _ i1 _ i2 i i i3 i3
  have hent : ∀ j, i < j → |A i j| ≤ (if (j : Nat) = i + 1 then kappa else 0) + if (j : Nat) = i + (N + 1) then kappa else 0 := by
    intro j hij
    obtain ⟨j1, j2, j3⟩ := hdec j
    have h1 : (0 : ℝ) ≤ if (j : Nat) = i + 1 then kappa else 0 := by split <;> [exact hk0.le; rfl]
    have h2 : (0 : ℝ) ≤ if (j : Nat) = i + (N + 1) then kappa else 0 := by split <;> [exact hk0.le; rfl]
    have hij' : (i : Nat) < j := hij
    rw [f6 _ i1 _ i2 _ j1 _ j2 i j i3 j3]
    generalize (i : Nat) / (N + 1) = r at *
    generalize (i : Nat) % (N + 1) = c at *
    generalize (j : Nat) / (N + 1) = r' at *
    generalize (j : Nat) % (N + 1) = c' at *
    have hne : ¬ (r' = r ∧ c' = c) := by rintro ⟨rfl, rfl⟩; omega
    unfold fivePoint
    split
    · first | rw [if_neg hne, mul_zero, abs_zero] | rw [mul_zero, abs_zero]
      exact add_nonneg h1 h2
    · try rw [if_neg hne]
      split
      · next h =>
        rw [mul_neg_one, abs_neg, abs_of_pos hk0]
        have : (j : Nat) = i + 1 ∨ (j : Nat) = i + (N + 1) := by
          rcases h with ⟨rfl, rfl | h⟩ | ⟨rfl, rfl | h⟩
          · left; omega
          · omega
          · right; rw [j3, i3]; ring
          · subst h
            have : (r' + 1) * (N + 1) = r' * (N + 1) + (N + 1) := by ring
            omega
        rcases this with h | h
        · rw [if_pos h]; linarith
        · rw [if_pos h]; linarith
      · rw [mul_zero, abs_zero]; exact add_nonneg h1 h2
  have hone : ∀ k : Nat, (∑ j : Fin ((N + 1) * (N + 1)), if (j : Nat) = k then (kappa : ℝ) else 0) ≤ kappa := by
    intro k
    by_cases hk : k < (N + 1) * (N + 1)
    · rw [Finset.sum_eq_single ⟨k, hk⟩]
      · simp
      · intro j _ hj; rw [if_neg]; intro h; exact hj (Fin.ext h)
      · intro h; exact absurd (Finset.mem_univ _) h
    · rw [Finset.sum_eq_zero]
      · exact hk0.le
      · intro j _; rw [if_neg]; intro h; exact hk (h ▸ j.2)
  refine ⟨?_, ?_, ?_⟩
  · rw [hdiag]
    unfold fivePoint
    split
    · rw [if_pos ⟨rfl, rfl⟩]
      have : (1 : ℝ) ≤ 4 * (N : ℝ) ^ 2 / ((N + 1) * (N + 1)) := by rw [le_div_iff₀ (by positivity)]; nlinarith
      nlinarith
    · rw [if_pos ⟨rfl, rfl⟩]; linarith
  · rw [hdiag]
    unfold fivePoint
    split
    · rw [if_pos ⟨rfl, rfl⟩]
      have : 4 * (N : ℝ) ^ 2 / ((N + 1) * (N + 1)) ≤ 4 := by rw [div_le_iff₀ (by positivity)]; nlinarith
      nlinarith
    · rw [if_pos ⟨rfl, rfl⟩]; linarith
  · calc (∑ j, if i < j then |A i j| else 0)
        ≤ ∑ j : Fin ((N + 1) * (N + 1)), ((if (j : Nat) = i + 1 then kappa else 0) + if (j : Nat) = i + (N + 1) then kappa else 0) := by
          refine Finset.sum_le_sum fun j _ => ?_
          split
          · next h => exact hent j h
          · refine add_nonneg ?_ ?_ <;> split <;> first | exact hk0.le | exact le_rfl
      _ ≤ kappa + kappa := by rw [Finset.sum_add_distrib]; exact add_le_add (hone _) (hone _)
      _ = 2 * kappa := by ring

/-- C88: the whole program with solver 0 (`sor`): for every iteration limit above some bound it returns, and every value it returns
is within the discretisation error, the dropped load contributions and the solver tolerance of the solution. -/
theorem C88_sor {N : Nat} (hN : 1 ≤ N) {L : ℝ} (hL : 0 < L) {eps : ℝ} (h0 : 0 ≤ eps) (he : eps < kappa / 2) {src g : List ℝ → ℝ}
    {mx my m2 : ℝ} {w : ℝ → ℝ → ℝ} (P : PoissonData L mx my m2 src g w) {wt : ℝ} (hw0 : 0 < wt) (hw2 : wt < 2) {tol : ℝ} (ht : 0 < tol) :
    ∃ (w1 w2 w3 : World ℝ) (K : Nat), generate N N (L, L) (0, 0) = .ok w1 ∧ w1.prepare 0 = .ok w2 ∧ Shape.prepareMesh 1 w2 = .ok w3 ∧
      ∀ maxIter, K < maxIter → ∃ (x : Fin ((N + 1) * (N + 1)) → ℝ) (it : Nat),
        solveSor (M := M) eps 1 src g wt maxIter tol w3 = .ok (Iterative.fl x, it) ∧ it ≤ K ∧
        NodalWithin N L (L ^ 2 / 8 * ((mx + my) / 12 + m2 / 6) * (L / N) ^ 2 + (N : ℝ) ^ 2 * ((4 * |1 / wt - 1| + 2) * tol + 6 * eps / kappa) / 8)
          ((4 * |1 / wt - 1| + 2) * tol) x w := by
  obtain ⟨w₀, w1, w2, w3, hb, hd, hc, hel, e1, e2, hp, e3, G⟩ := grid_ready hN hL.ne' (0, 0)
  have hNp : (0 : ℝ) < N := by exact_mod_cast (by omega : 0 < N)
  have hh : (0 : ℝ) < L / N := div_pos hL hNp
  have hD := dofs_in hb hd hc hp.setup (.inl rfl) e3
  have hn : w3.vertices.length = (N + 1) * (N + 1) := by rw [G.vertices, List.length_range]
  obtain ⟨a, b, A, B, s1, s2, s3, K, hK⟩ := C69_fem_sor (M := M) hb hd hc hp (.inl rfl) e3 hel hn (solid_of hb hd hc hp (.inl rfl) e3 hel (grid_noneDropped hh.ne' G he) (grid_anchored G hD.elements)) src g hw0 hw2 ht
  refine ⟨w1, w2, w3, K, e1, e2, e3, fun maxIter hm => ?_⟩
  obtain ⟨x, it, f1, f2, f3⟩ := hK maxIter hm
  refine ⟨x, it, f1, f2, ?_⟩
  have hk0 := kappa_pos
  have hx : ∀ i, |(A *ᵥ x) i - B i| ≤ (4 * |1 / wt - 1| + 2) * kappa * tol := by
    intro i
    obtain ⟨-, g2, g3⟩ := grid_entries hN hL.ne' e1 e2 e3 he s1 s2 i
    rw [abs_sub_comm]
    refine (f3 i).trans (mul_le_mul_of_nonneg_right ?_ ht.le)
    have := mul_le_mul_of_nonneg_left g2 (abs_nonneg (1 / wt - 1))
    linarith
  have := grid_error hN hL hb hd hc hel hp e3 G h0 he s1 s2 s3 P hx
  convert this using 1
  · field_simp
  · field_simp

/-- C88: the whole program with solver 2 (`pcg` with the `jacobi` preconditioner), when the iteration limit is at least the number
of vertices and the right-hand side is not zero. -/
theorem C88_pcg {N : Nat} (hN : 1 ≤ N) {L : ℝ} (hL : 0 < L) {eps : ℝ} (h0 : 0 ≤ eps) (he : eps < kappa / 2) {src g : List ℝ → ℝ}
    {mx my m2 : ℝ} {w : ℝ → ℝ → ℝ} (P : PoissonData L mx my m2 src g w) {jeps : ℝ} (hj : jeps < kappa) {tol : ℝ} (ht : 0 < tol)
    {maxIter : Nat} (hm : (N + 1) * (N + 1) ≤ maxIter) :
    ∃ (w1 w2 w3 : World ℝ) (a : M) (b : List ℝ), generate N N (L, L) (0, 0) = .ok w1 ∧ w1.prepare 0 = .ok w2 ∧ Shape.prepareMesh 1 w2 = .ok w3 ∧
      system eps 1 src g w3 = .ok (a, b) ∧
      ((∃ v ∈ b, v ≠ 0) → ∃ (x₁ : List ℝ) (x : Fin ((N + 1) * (N + 1)) → ℝ) (it : Nat),
        solve (M := M) eps jeps 1 src g maxIter tol w3 = .ok (x₁, it) ∧ IsVec x₁ _ x ∧ it ≤ (N + 1) * (N + 1) ∧
        NodalWithin N L (L ^ 2 / 8 * ((mx + my) / 12 + m2 / 6) * (L / N) ^ 2 + (N : ℝ) ^ 2 * (tol + 6 * eps) / (8 * kappa)) (tol / kappa) x w) := by
  obtain ⟨w₀, w1, w2, w3, hb, hd, hc, hel, e1, e2, hp, e3, G⟩ := grid_ready hN hL.ne' (0, 0)
  have hNp : (0 : ℝ) < N := by exact_mod_cast (by omega : 0 < N)
  have hh : (0 : ℝ) < L / N := div_pos hL hNp
  have hD := dofs_in hb hd hc hp.setup (.inl rfl) e3
  have hn : w3.vertices.length = (N + 1) * (N + 1) := by rw [G.vertices, List.length_range]
  obtain ⟨a, b, A, B, s1, s2, s3, hK⟩ := C67_solve_partial (M := M) hb hd hc hp (.inl rfl) e3 hel hn (grid_noneDropped hh.ne' G he) (grid_anchored G hD.elements) src g jeps
    (show 0 < maxIter from lt_of_lt_of_le (by positivity) hm) ht.ne'
  refine ⟨w1, w2, w3, a, b, e1, e2, e3, s1, fun hne => ?_⟩
  have hk0 := kappa_pos
  rcases hK with ⟨⟨i, hi⟩, -⟩ | ⟨rfl, -⟩ | ⟨x₁, x, it, f1, f2, -, f3, f4⟩
  · exfalso
    have := (grid_entries hN hL.ne' e1 e2 e3 he s1 s2 i).1
    have h2 := (le_abs_self _).trans hi
    linarith
  · exfalso
    obtain ⟨v, hv, hv0⟩ := hne
    obtain ⟨k, hk, rfl⟩ := List.getElem_of_mem hv
    have := (isVec_iff.1 s3).2 ⟨k, s3.1 ▸ hk⟩
    rw [List.getD_eq_getElem _ _ hk] at this
    exact hv0 this
  · refine ⟨x₁, x, it, f1, f2, f3, ?_⟩
    refine grid_error hN hL hb hd hc hel hp e3 G h0 he s1 s2 s3 P fun i => ?_
    have := f4 hm
    unfold Props.CG.resSqr at this
    have h1 : ((A *ᵥ x) i - B i) ^ 2 ≤ tol ^ 2 := by
      refine le_trans ?_ this.le
      unfold dotProduct
      have := Finset.single_le_sum (f := fun j => (B - A *ᵥ x) j * (B - A *ᵥ x) j) (fun j _ => mul_self_nonneg _) (Finset.mem_univ i)
      refine le_trans (le_of_eq ?_) this
      simp only [Pi.sub_apply]; ring
    exact abs_le_of_sq_le_sq h1 ht.le
end NS.Props.Fem

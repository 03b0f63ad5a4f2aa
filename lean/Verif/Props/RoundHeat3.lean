/-
Property C122, continued: the program in floating-point arithmetic and its constants.
-/
import Verif.Props.RoundHeat2

set_option linter.unusedSectionVars false
set_option linter.unusedSimpArgs false

namespace NS.Props.Heat
open NS NS.Heat NS.Grid NS.MatOps NS.Rounding NS.Props.Iter NS.Iterative Matrix Real NS.HeatEnergy
open NS.Props.Rounding (VecFl MatFl sor_run)

theorem std_id {u : ℝ} (h0 : 0 ≤ u) (h1 : u < 1) : Std (fun x : ℝ => x) u where
  u_nonneg := h0
  u_lt := h1
  inj := fun _ _ h => h
  zero := rfl
  one := rfl
  add := fun a b => by rw [sub_self, abs_zero]; positivity
  sub := fun a b => by rw [sub_self, abs_zero]; positivity
  mul := fun a b => by rw [sub_self, abs_zero]; positivity
  div := fun a b _ => by rw [sub_self, abs_zero]; positivity
  add_exact := fun _ _ _ h => h
  sub_exact := fun _ _ _ h => h
  mul_exact := fun _ _ _ h => h
  div_exact := fun _ _ _ _ h => h

theorem Near.trans {u : ℝ} {a b : ℕ} {x y z : ℝ} (h1 : u < 1) (h : Near u a x y) (h' : Near u b y z) : Near u (a + b) x z := by
  obtain ⟨s, s1, s2⟩ := h
  obtain ⟨t, t1, t2⟩ := h'
  exact ⟨s * t, s1.mul h1 t1, by rw [s2, t2]; ring⟩

/-- the matrix of the scheme when its constants are changed by one rounding -/
theorem mat_near {u : ℝ} (u0 : 0 ≤ u) (u1 : u < 1) {tc xc yc : ℕ} {ht hx hy ht2 hx2 hy2 κ κ2 : ℝ} {f b f2 b2 : ℝ → ℝ → ℝ → ℝ} {t0 t02 : ℝ → ℝ → ℝ}
    (nt : Near u 1 ht ht2) (nx : Near u 1 hx hx2) (ny : Near u 1 hy hy2) (nk : Near u 1 κ κ2) (pt : 0 < ht2) (px : 0 < hx2) (py : 0 < hy2) (pk : 0 ≤ κ2)
    (i j : Fin (tc * xc * yc)) : Near u 9 (mat (⟨tc, xc, yc, ht, hx, hy, fun _ _ _ => κ, f, b, t0⟩ : Problem ℝ) i j) (mat (⟨tc, xc, yc, ht2, hx2, hy2, fun _ _ _ => κ2, f2, b2, t02⟩ : Problem ℝ) i j) := by
  set p : Problem ℝ := ⟨tc, xc, yc, ht, hx, hy, fun _ _ _ => κ, f, b, t0⟩ with hp
  set p' : Problem ℝ := ⟨tc, xc, yc, ht2, hx2, hy2, fun _ _ _ => κ2, f2, b2, t02⟩ with hp'
  have h := std_id u0 u1
  have hn : ∀ a : ℝ, (fun x : ℝ => x) (-a) = -(fun x : ℝ => x) a := fun _ => rfl
  show Near u 9 ((fun x : ℝ => x) (row p i j)) (row p' i j)
  unfold row
  refine rowVal_near (fl := fun x : ℝ => x) ?_ _ (x := 0) (x' := 0) (Near.refl 0 u0 u1)
  unfold entries
  by_cases hr : OnRim p (tOf p i) (xOf p i) (yOf p i)
  · rw [if_pos hr, if_pos (show OnRim p' (tOf p' i) (xOf p' i) (yOf p' i) from hr)]
    exact .cons ⟨rfl, Near.refl 1 u0 u1⟩ .nil
  · rw [if_neg hr, if_neg (show ¬ OnRim p' (tOf p' i) (xOf p' i) (yOf p' i) from hr)]
    have ix : Near u 4 ((fun x : ℝ => x) (1 / (hx * hx))) (1 / (hx2 * hx2)) := Near.inv h (Near.mul h nx nx) (by positivity)
    have iy : Near u 4 ((fun x : ℝ => x) (1 / (hy * hy))) (1 / (hy2 * hy2)) := Near.inv h (Near.mul h ny ny) (by positivity)
    have it : Near u 2 ((fun x : ℝ => x) (1 / ht)) (1 / ht2) := Near.inv h nt pt.ne'
    have ix0 : 0 ≤ 1 / (hx2 * hx2) := one_div_nonneg.2 (mul_self_nonneg _)
    have iy0 : 0 ≤ 1 / (hy2 * hy2) := one_div_nonneg.2 (mul_self_nonneg _)
    have it0 : 0 ≤ 1 / ht2 := one_div_nonneg.2 pt.le
    have cx := ((Near.neg (fl := fun x : ℝ => x) hn ix).mul h nk).mono u0 u1 (show 4 + 1 + 1 ≤ 9 by omega)
    have cy := ((Near.neg (fl := fun x : ℝ => x) hn iy).mul h nk).mono u0 u1 (show 4 + 1 + 1 ≤ 9 by omega)
    have ct := (Near.neg (fl := fun x : ℝ => x) hn it).mono u0 u1 (show 2 ≤ 9 by omega)
    have h2' : Near u 0 ((fun x : ℝ => x) 2) 2 := Near.refl _ u0 u1
    have c0 := (h2'.mul h (ix.add h ix0 iy0 iy)).mul h nk
    have cd := c0.add h (mul_nonneg (mul_nonneg (by norm_num) (add_nonneg ix0 iy0)) pk) it0 (it.mono u0 u1 (by omega))
    exact .cons ⟨rfl, ct⟩ (.cons ⟨rfl, cy⟩ (.cons ⟨rfl, cx⟩ (.cons ⟨rfl, cd⟩ (.cons ⟨rfl, cx⟩ (.cons ⟨rfl, cy⟩ .nil)))))

section program
variable {F : Type} [Zero F] [One F] [Add F] [Sub F] [Mul F] [Div F] [Neg F] [NatCast F] [OfNat F 2] [DecidableEq F] [LE F] [DecidableLE F]
variable {fl : F → ℝ} {u : ℝ} {M : Type} [MatOps M F] [LawfulStore M F]
variable {tc xc yc : Nat} {ht hx hy : F} {k f b : F → F → F → F} {t0 : F → F → F} {t0' : ℝ → ℝ → ℝ}

/-- the sweeps of the program, for constant conductivity, no source and boundary value zero -/
theorem program_pert (h : Std fl u) (cabs : F → F) {κ' ht2 hx2 hy2 κ2 : ℝ} {t02 : ℝ → ℝ → ℝ}
    (ex : Stands fl (⟨tc, xc, yc, ht, hx, hy, k, f, b, t0⟩ : Problem F) ⟨tc, xc, yc, fl ht, fl hx, fl hy, fun _ _ _ => κ', fun _ _ _ => 0, fun _ _ _ => 0, t0'⟩)
    (nt : Near u 1 (fl ht) ht2) (nx : Near u 1 (fl hx) hx2) (ny : Near u 1 (fl hy) hy2) (nk : Near u 1 κ' κ2) (pt : 0 < ht2) (px : 0 < hx2) (py : 0 < hy2) (pk : 0 ≤ κ2)
    (h1 : 0 < tc) (h2 : 0 < xc) (h3 : 0 < yc) {w : F} (hw : 0 < fl w) (eps : F) {ε : ℝ} (hε : gam u 15 + gam u (tc * xc * yc + 3) * (1 + gam u 15) ≤ ε)
    {p2 : Problem ℝ} (hp2 : p2 = ⟨tc, xc, yc, ht2, hx2, hy2, fun _ _ _ => κ2, fun _ _ _ => 0, fun _ _ _ => 0, t02⟩) :
    ∃ (V s : Nat → Fin p2.d → ℝ) (c : Fin p2.d → ℝ), Pert p2 (fl w) ε c V s ∧
      (∀ x v (hl : p2.lin 0 x v < p2.d), x < xc → v < yc → c ⟨p2.lin 0 x v, hl⟩ = t0' (x * fl hx) (v * fl hy)) ∧
      ∀ maxIter, ∃ (v : List F) (it : Nat), solveFl (M := M) cabs (⟨tc, xc, yc, ht, hx, hy, k, f, b, t0⟩ : Problem F) w maxIter eps = .ok (v, it) ∧
        it ≤ maxIter ∧ VecFl fl v p2.d (V it) := by
  subst hp2
  have u0 := h.u_nonneg
  have u1 := h.u_lt
  set p1 : Problem ℝ := ⟨tc, xc, yc, fl ht, fl hx, fl hy, fun _ _ _ => κ', fun _ _ _ => 0, fun _ _ _ => 0, t0'⟩ with hp1
  set p2 : Problem ℝ := ⟨tc, xc, yc, ht2, hx2, hy2, fun _ _ _ => κ2, fun _ _ _ => 0, fun _ _ _ => 0, t02⟩ with hp2
  have hpos : ∀ {x y : ℝ}, Near u 1 x y → 0 < y → 0 < x := fun hn hy => by
    obtain ⟨θ, a, rfl⟩ := hn
    exact mul_pos hy (a.pos u1)
  have hg1 : Good p1 := ⟨hpos nt pt, fun _ _ _ _ _ _ _ => nk.nonneg u1 pk⟩
  have hg2 : Good p2 := ⟨pt, fun _ _ _ _ _ _ _ => pk⟩
  obtain ⟨a, b₀, A, e, ha, hb, hn⟩ := system_fl (M := M) h ex hg1 (hpos nx px).ne' (hpos ny py).ne' h1 h2 h3
  have hn2 : ∀ i j : Fin (tc * xc * yc), Near u 15 (A i j) (mat p2 i j) := fun i j => (hn i j).trans u1 (mat_near u0 u1 nt nx ny nk pt px py pk i j)
  have hm0 : ∀ i : Fin (tc * xc * yc), 0 < mat p2 i i := fun i => (row_abs hg2 i).1
  have hA : ∀ i, A i i ≠ 0 := fun i => by
    obtain ⟨θ, t1, t2⟩ := hn i i
    rw [t2]
    exact (mul_pos (row_abs hg1 i).1 (t1.pos u1)).ne'
  have hz0 : VecFl fl (Vec.resize [] (tc * xc * yc) : List F) (tc * xc * yc) (0 : Fin (tc * xc * yc) → ℝ) := by
    have hl : (Vec.resize [] (tc * xc * yc) : List F) = List.replicate (tc * xc * yc) 0 := by
      apply List.ext_getElem (by simp [Vec.resize])
      intro i _ _
      simp [Vec.resize]
    rw [hl]
    refine ⟨List.length_replicate, fun i => ⟨0, ?_, h.zero⟩⟩
    rw [vecAt_get (by rw [List.length_replicate]; exact i.2)]
    congr 1
    simp
  obtain ⟨y, V, hyV, hV0, hrows, y3⟩ := sor_run h cabs ha hA hb hz0 w eps
  choose s s1 s2 using fun j => sorRows_scheme (n := tc * xc * yc) (m := mat p2) u0 u1 hn2 hm0 hw (hrows j) rfl rfl
  refine ⟨V, s, fun i => Heat.rhs p1 i, ⟨hV0, s1, fun j i => (s2 j i).trans (mul_le_mul_of_nonneg_right hε ?_), fun t x v htt hx hv ht0 => ?_⟩, fun x v hl hx hv => ?_, fun maxIter => ?_⟩
  · have q1 : 0 ≤ mat p2 i i / fl w * |V (j + 1) i| := mul_nonneg (div_nonneg (hm0 i).le hw.le) (abs_nonneg _)
    have q2 : 0 ≤ |1 / fl w - 1| * mat p2 i i * |V j i| := mul_nonneg (mul_nonneg (abs_nonneg _) (hm0 i).le) (abs_nonneg _)
    have q3 : 0 ≤ ∑ l, (if l < i then |mat p2 i l| * |V (j + 1) l| else if i < l then |mat p2 i l| * |V j l| else 0) := Finset.sum_nonneg fun l _ => by split_ifs <;> positivity
    exact add_nonneg (add_nonneg (add_nonneg q1 q2) q3) (abs_nonneg _)
  · show Heat.rhs p1 (p1.lin t x v) = 0
    rw [rhs_lin (p := p1) hx hv]
    unfold rhs3
    rw [if_pos ht0]
    split_ifs <;> rfl
  · show Heat.rhs p1 (p1.lin 0 x v) = _
    rw [rhs_lin (p := p1) hx hv]
    unfold rhs3
    rw [if_pos (.inl rfl), if_neg (by simp)]
  · obtain ⟨it, k1, k2, -, -⟩ := y3 maxIter
    refine ⟨y it, it, ?_, k2, hyV it⟩
    unfold solveFl
    rw [e, ok_bind]
    exact k1
end program

/-! ### The constants of the program -/

theorem pow_round : ((197 / 200) ^ 2 / (1 - (197 / 200) ^ 2) * (1.52 ^ 2 * 1.0021) * (32.5 / 9 * 1.06261) : ℝ) ≤ 1 / 30 ^ 2 * ((197 / 200) ^ 2048 * 2.0694 ^ (2 * 30)) := by
  have h1 : (0.7851 : ℝ) ≤ (197 / 200) ^ 16 := by norm_num
  have h2 : (0.0208 : ℝ) ≤ 0.7851 ^ 16 := by norm_num
  have h3 : (0.0208 : ℝ) ^ 8 ≤ (197 / 200) ^ 2048 := by
    calc (0.0208 : ℝ) ^ 8 ≤ (0.7851 ^ 16) ^ 8 := by gcongr
      _ ≤ (((197 / 200) ^ 16) ^ 16) ^ 8 := by gcongr
      _ = _ := by rw [← pow_mul, ← pow_mul]
  have h4 : (0 : ℝ) < 2.0694 ^ (2 * 30) := by positivity
  calc _ ≤ (1 / 30 ^ 2 * (0.0208 ^ 8 * 2.0694 ^ (2 * 30)) : ℝ) := by norm_num
    _ ≤ _ := mul_le_mul_of_nonneg_left (mul_le_mul_of_nonneg_right h3 h4.le) (by norm_num)

theorem no_room_round {Z E : ℝ} (h1 : Z ≤ (1 + 1 / 30) * ((∑ _x ∈ Finset.range 101, ∑ _y ∈ Finset.range 101, (15 / 1000 : ℝ) ^ 2) + 1 / 30 * Z)) (h2 : 2500 ≤ 1.06261 ^ 2 * (E * Z))
    (h3 : E ≤ 826) (hZ0 : 0 ≤ Z) : False := by
  have h4 : E * Z ≤ 826 * Z := mul_le_mul_of_nonneg_right h3 hZ0
  simp only [Finset.sum_const, Finset.card_range, nsmul_eq_mul] at h1
  norm_num at h1 h2
  linarith

/-- the weight after rounding -/
theorem inv_weight {w : ℝ} (hw : |w - 6 / 5| ≤ 1 / 10 ^ 9) : 1 ≤ w ∧ w ≤ 6 / 5 + 1 / 10 ^ 9 ∧ 5 / 6 - 1 / 10 ^ 9 ≤ 1 / w := by
  obtain ⟨h1, h2⟩ := abs_le.1 hw
  have hw1 : 1 ≤ w := by norm_num at h1; linarith
  refine ⟨hw1, by linarith, ?_⟩
  rw [le_div_iff₀ (by linarith)]
  have : (5 / 6 - 1 / 10 ^ 9) * w ≤ (5 / 6 - 1 / 10 ^ 9) * (6 / 5 + 1 / 10 ^ 9) := mul_le_mul_of_nonneg_left (by linarith) (by norm_num)
  refine this.trans (by norm_num)

theorem damp_round {w : ℝ} (hw : |w - 6 / 5| ≤ 1 / 10 ^ 9) : 2 * (1 + 197 / 200) * (diag3 shippedHeat (6 / 10) * (1 - 1 / w)) ≤ pull shippedHeat 99 99 (6 / 10) ∧
    200 ≤ damp shippedHeat 99 99 (6 / 10) w (197 / 200) ∧ 2.0697 * (241 - 240 * cos (π / 100)) ≤ damp shippedHeat 99 99 (6 / 10) w (197 / 200) * (1 / 100) := by
  obtain ⟨c1, c2⟩ := cos_bounds
  obtain ⟨-, -, h3⟩ := inv_weight hw
  unfold damp
  rw [shipped_diag, shipped_pull, div_eq_mul_one_div (24100 : ℝ) w]
  generalize 1 / w = iw at *
  generalize cos (π / 100) = co at *
  norm_num at c1 h3 ⊢
  refine ⟨by linarith, by linarith, by linarith⟩

/-- the heat of the sweeps of the program -/
theorem pert_ratio {w : ℝ} (hw : |w - 6 / 5| ≤ 1 / 10 ^ 9) {c : Fin shippedHeat.d → ℝ} {V s : ℕ → Fin shippedHeat.d → ℝ} (h : Pert shippedHeat w (1 / 10 ^ 9) c V s)
    (hc : ∀ i : Fin 99 × Fin 99, |c ⟨shippedHeat.lin 0 (i.1 + 1) (i.2 + 1), lin_lt shipped_plain.tc (inner_lt shipped_plain i).1 (inner_lt shipped_plain i).2⟩| ≤
      1.001 * shippedHeat.t0 ((i.1 + 1 : ℕ) * shippedHeat.hx) ((i.2 + 1 : ℕ) * shippedHeat.hy))
    {z : Fin shippedHeat.d → ℝ} (hz : Solves shippedHeat z) {k : ℕ} (hk : k ≤ 1024) {t : ℕ} (ht : 30 ≤ t) (ht2 : t ≤ 100) :
    heat2 shippedHeat (V k) t ≤ (1 / 30) ^ 2 * heat2 shippedHeat z t := by
  obtain ⟨w1, w2, -⟩ := inv_weight hw
  obtain ⟨d1, d2, d3⟩ := damp_round hw
  obtain ⟨c1, c2⟩ := cos_bounds
  set G := damp shippedHeat 99 99 (6 / 10) w (197 / 200) with hG
  have hGs : 40000 ≤ G ^ 2 := by
    calc (40000 : ℝ) = 200 ^ 2 := by norm_num
      _ ≤ G ^ 2 := pow_le_pow_left₀ (by norm_num) d2 2
  have hht : shippedHeat.ht = 1 / 100 := rfl
  have hC : ∑ i : Fin 99 × Fin 99, c ⟨shippedHeat.lin 0 (i.1 + 1) (i.2 + 1), lin_lt shipped_plain.tc (inner_lt shipped_plain i).1 (inner_lt shipped_plain i).2⟩ ^ 2 ≤ 1.0021 * start2 shippedHeat := by
    rw [start_sum, Finset.mul_sum]
    refine Finset.sum_le_sum fun i _ => ?_
    have h1 := pow_le_pow_left₀ (abs_nonneg _) (hc i) 2
    rw [sq_abs, mul_pow] at h1
    refine h1.trans (mul_le_mul_of_nonneg_right (by norm_num) (sq_nonneg _))
  have hb := h.heat_le shipped_plain w1 (by norm_num) (by norm_num) (q := 197 / 200) (τ := 1 / 10 ^ 4) (δ := (1 + 1 / (1 / 10 ^ 4)) * ((99 * 99 : ℕ) * (2 * diag3 shippedHeat (6 / 10) * (1 / 10 ^ 9)) ^ 2))
    (g := (1 - 1 / 10 ^ 4) * G) (W := 1.52) (by norm_num) (by norm_num) (by norm_num) rfl d1 (by linarith)
    (by rw [shipped_diag, ← hG]; norm_num; linarith)
    (by
      rw [shipped_diag, ← hG, hht, mul_pow]
      generalize G ^ 2 = S at *
      norm_num
      linarith)
    (by norm_num) (by norm_num at w2 ⊢; linarith) hC hk (t := t) (by omega) (by show t < 101; omega)
  obtain ⟨hl, -⟩ := scheme_lower hz (t := t) (by omega) (by omega)
  set E := 241 - 240 * cos (π / 100) with hE
  have hE1 : 1 ≤ E := by linarith
  have hgE : 2.0694 * E ≤ (1 - 1 / 10 ^ 4) * G * shippedHeat.ht := by
    rw [hht]
    generalize G = G' at *
    norm_num at d3 ⊢
    linarith
  set U := heat2 shippedHeat (V k) t
  set Z := heat2 shippedHeat z t
  have hU0 : 0 ≤ U := Finset.sum_nonneg fun _ _ => Finset.sum_nonneg fun _ _ => sq_nonneg _
  have hZ0 : 0 ≤ Z := Finset.sum_nonneg fun _ _ => Finset.sum_nonneg fun _ _ => sq_nonneg _
  have hpr := pow_round
  have hC0 : (0 : ℝ) ≤ (197 / 200) ^ 2 / (1 - (197 / 200) ^ 2) := by norm_num
  generalize hQ : (197 / 200 : ℝ) ^ 2 / (1 - (197 / 200) ^ 2) = Q at *
  have hqp : (0 : ℝ) < (197 / 200) ^ 2048 := by positivity
  rw [show 2 * 1024 = 2048 from rfl] at hb
  generalize (197 / 200 : ℝ) ^ 2048 = P at *
  have h1 : P * (2.0694 * E) ^ (2 * t) * U ≤ Q * (1.52 ^ 2 * 1.0021) * (32.5 / 9 * 1.06261) * (E ^ (2 * t) * Z) := by
    calc P * (2.0694 * E) ^ (2 * t) * U ≤ P * ((1 - 1 / 10 ^ 4) * G * shippedHeat.ht) ^ (2 * t) * U := by
          have : (2.0694 * E) ^ (2 * t) ≤ ((1 - 1 / 10 ^ 4) * G * shippedHeat.ht) ^ (2 * t) := pow_le_pow_left₀ (by linarith) hgE _
          exact mul_le_mul_of_nonneg_right (mul_le_mul_of_nonneg_left this hqp.le) hU0
      _ ≤ Q * (1.52 ^ 2 * (1.0021 * start2 shippedHeat)) := hb
      _ ≤ Q * (1.52 ^ 2 * (1.0021 * (32.5 / 9 * 1.06261 * (E ^ (2 * t) * Z)))) :=
          mul_le_mul_of_nonneg_left (mul_le_mul_of_nonneg_left (mul_le_mul_of_nonneg_left hl (by norm_num)) (by norm_num)) hC0
      _ = _ := by ring
  have hEp : 0 < E ^ (2 * t) := by positivity
  have h2 : P * 2.0694 ^ (2 * t) * U ≤ Q * (1.52 ^ 2 * 1.0021) * (32.5 / 9 * 1.06261) * Z := by
    have : E ^ (2 * t) * (P * 2.0694 ^ (2 * t) * U) ≤ E ^ (2 * t) * (Q * (1.52 ^ 2 * 1.0021) * (32.5 / 9 * 1.06261) * Z) := by
      calc _ = P * (2.0694 * E) ^ (2 * t) * U := by rw [mul_pow]; ring
        _ ≤ _ := h1
        _ = _ := by ring
    exact le_of_mul_le_mul_left this hEp
  have h3 : (2.0694 : ℝ) ^ (2 * 30) ≤ 2.0694 ^ (2 * t) := pow_le_pow_right₀ (by norm_num) (by omega)
  have hr0 : (0 : ℝ) < 2.0694 ^ (2 * t) := by positivity
  generalize (2.0694 : ℝ) ^ (2 * t) = R at *
  generalize (2.0694 : ℝ) ^ (2 * 30) = R0 at *
  have h4 : Q * (1.52 ^ 2 * 1.0021) * (32.5 / 9 * 1.06261) * Z ≤ P * R * ((1 / 30) ^ 2 * Z) := by
    calc _ ≤ 1 / 30 ^ 2 * (P * R0) * Z := mul_le_mul_of_nonneg_right hpr hZ0
      _ ≤ 1 / 30 ^ 2 * (P * R) * Z := mul_le_mul_of_nonneg_right (mul_le_mul_of_nonneg_left (mul_le_mul_of_nonneg_left h3 hqp.le) (by norm_num)) hZ0
      _ = _ := by ring
  exact le_of_mul_le_mul_left (h2.trans h4) (mul_pos hqp hr0)

section program
variable {F : Type} [Zero F] [One F] [Add F] [Sub F] [Mul F] [Div F] [Neg F] [NatCast F] [OfNat F 2] [DecidableEq F] [LE F] [DecidableLE F]
variable {fl : F → ℝ} {u : ℝ} {M : Type} [MatOps M F] [LawfulStore M F]
variable {ht hx hy : F} {k f b : F → F → F → F} {t0 : F → F → F} {t0' : ℝ → ℝ → ℝ}

theorem gam_program (h0 : 0 ≤ u) (h1 : u < 1) (hu : u ≤ 1 / 2 ^ 53) : gam u 15 + gam u (101 * 101 * 101 + 3) * (1 + gam u 15) ≤ 1 / 10 ^ 9 := by
  have hn : ((101 * 101 * 101 + 3 : ℕ) : ℝ) * u ≤ 12 / 10 ^ 11 := by
    push_cast
    norm_num at hu ⊢
    linarith
  have h2 := gam_le (n := 101 * 101 * 101 + 3) h0 (u := u) (hn.trans_lt (by norm_num))
  have h3 : ((101 * 101 * 101 + 3 : ℕ) : ℝ) * u / (1 - ((101 * 101 * 101 + 3 : ℕ) : ℝ) * u) ≤ 2 / 10 ^ 10 := by
    generalize ((101 * 101 * 101 + 3 : ℕ) : ℝ) * u = a at *
    rw [div_le_iff₀ (by norm_num at hn ⊢; linarith)]
    norm_num at hn ⊢
    linarith
  have h4 : gam u 15 ≤ gam u (101 * 101 * 101 + 3) := gam_mono h0 h1 (by norm_num)
  have h5 := gam_nonneg (n := 15) h0 h1
  generalize gam u (101 * 101 * 101 + 3) = a at *
  have h6 : a ≤ 2 / 10 ^ 10 := h2.trans h3
  have h7 : a * (1 + gam u 15) ≤ 2 / 10 ^ 10 * 2 := mul_le_mul h6 (by linarith) (by linarith) (by norm_num)
  norm_num at h6 h7 ⊢
  linarith

/-- C122: the heat program gives up too early also when it computes in floating-point arithmetic with unit roundoff at most 2⁻⁵³. The step widths and the conductivity are the
rounded values of 1/100 and 6/10, the weight is 6/5 up to 1e-9, the computed start temperatures are at most 1.001 times the exact ones in absolute value, sources and boundary values are
zero. For every tolerance and every limit of at most 1024 sweeps the program returns, and from time 0.3 on the Euclidean norm of the temperatures it returns is at most 1/30 of that of the
solution of the difference scheme; at time 0.3 the error is more than 0.015 at some point. -/
theorem C122_program (h : Std fl u) (hu : u ≤ 1 / 2 ^ 53) (cabs : F → F) {κ' : ℝ}
    (ex : Stands fl (⟨101, 101, 101, ht, hx, hy, k, f, b, t0⟩ : Problem F) ⟨101, 101, 101, fl ht, fl hx, fl hy, fun _ _ _ => κ', fun _ _ _ => 0, fun _ _ _ => 0, t0'⟩)
    (nt : |fl ht - 1 / 100| ≤ u * |1 / 100|) (nx : |fl hx - 1 / 100| ≤ u * |1 / 100|) (ny : |fl hy - 1 / 100| ≤ u * |1 / 100|) (nk : |κ' - 6 / 10| ≤ u * |6 / 10|)
    (n0 : ∀ x v : ℕ, 0 < x → x < 100 → 0 < v → v < 100 → |t0' (x * fl hx) (v * fl hy)| ≤ 1.001 * shippedHeat.t0 (x * (1 / 100)) (v * (1 / 100)))
    {w : F} (hw : |fl w - 6 / 5| ≤ 1 / 10 ^ 9) (eps : F) {maxIter : ℕ} (hm : maxIter ≤ 1024) :
    ∃ (v : List F) (it : ℕ) (y : Fin shippedHeat.d → ℝ), solveFl (M := M) cabs (⟨101, 101, 101, ht, hx, hy, k, f, b, t0⟩ : Problem F) w maxIter eps = .ok (v, it) ∧ it ≤ maxIter ∧
      VecFl fl v shippedHeat.d y ∧ ∀ z, Solves shippedHeat z → (∀ t, 30 ≤ t → t ≤ 100 → heat2 shippedHeat y t ≤ (1 / 30) ^ 2 * heat2 shippedHeat z t) ∧
        ∃ x v, x ≤ 100 ∧ v ≤ 100 ∧ 15 / 1000 < |val3 shippedHeat y 30 x v - val3 shippedHeat z 30 x v| := by
  have u0 := h.u_nonneg
  have u1 := h.u_lt
  obtain ⟨V, s, c, hP, hc, hrun⟩ := program_pert (M := M) h cabs (ht2 := 1 / 100) (hx2 := 1 / 100) (hy2 := 1 / 100) (κ2 := 6 / 10) (t02 := shippedHeat.t0) ex
    (th_of_err u0 u1 nt) (th_of_err u0 u1 nx) (th_of_err u0 u1 ny) (th_of_err u0 u1 nk) (by norm_num) (by norm_num) (by norm_num) (by norm_num) (by norm_num) (by norm_num) (by norm_num)
    (w := w) (by linarith [(inv_weight hw).1]) eps (gam_program u0 u1 hu) (p2 := shippedHeat) rfl
  obtain ⟨v, it, r1, r2, r3⟩ := hrun maxIter
  have hratio : ∀ z, Solves shippedHeat z → ∀ t, 30 ≤ t → t ≤ 100 → heat2 shippedHeat (V it) t ≤ (1 / 30) ^ 2 * heat2 shippedHeat z t := fun z hz t h1 h2 =>
    pert_ratio hw hP (fun i => by
      rw [hc _ _ _ (inner_lt shipped_plain i).1 (inner_lt shipped_plain i).2]
      have := i.1.2; have := i.2.2
      exact n0 (i.1 + 1) (i.2 + 1) (by omega) (by omega) (by omega) (by omega)) hz (by omega) h1 h2
  refine ⟨v, it, V it, r1, r2, r3, fun z hz => ⟨hratio z hz, ?_⟩⟩
  by_contra hne
  push Not at hne
  have h1 := error_sum (c := 1 / 30) (δ := 15 / 1000) (by norm_num) (hratio z hz 30 (by norm_num) (by norm_num)) hne
  obtain ⟨-, h2⟩ := scheme_lower hz (t := 30) (by decide) (by decide)
  have hZ0 : 0 ≤ heat2 shippedHeat z 30 := Finset.sum_nonneg fun _ _ => Finset.sum_nonneg fun _ _ => sq_nonneg _
  exact no_room_round h1 h2 decay_pow hZ0
end program

section shipped
open NS.Props.Fdm (real std_real exact_real babs rnd_real)
open NS.Rounding (Bin)
variable {M : Type} [MatOps M (Bin 52)] [LawfulStore M (Bin 52)]

/-- the program with 53 significant bits; `t0` is the computed start temperature, `heat/main.cpp:28-46` -/
def progHeat (t0 : Bin 52 → Bin 52 → Bin 52) : Problem (Bin 52) :=
  ⟨101, 101, 101, Bin.rnd (1 / 100), Bin.rnd (1 / 100), Bin.rnd (1 / 100), fun _ _ _ => Bin.rnd (6 / 10), fun _ _ _ => 0, fun _ _ _ => 0, t0⟩

theorem rnd_near {a : ℚ} (ha : 0 < a) : |real (Bin.rnd a : Bin 52) - a| ≤ (1 / 2) ^ 53 * |(a : ℝ)| := rnd_real 52 a

/-- **C122** for the shipped program: 53 significant bits, 101 time levels of 101 x 101 points, step widths 0.01, conductivity 0.6, weight 1.2, at most 1024 sweeps, tolerance 1e-4, and any computed
start temperature that is at most 1.001 times the exact one in absolute value at the inner grid points. -/
theorem C122_shipped (t0 : Bin 52 → Bin 52 → Bin 52)
    (n0 : ∀ x v : ℕ, 0 < x → x < 100 → 0 < v → v < 100 → |real (t0 ((x : Bin 52) * Bin.rnd (1 / 100)) ((v : Bin 52) * Bin.rnd (1 / 100)))| ≤ 1.001 * shippedHeat.t0 (x * (1 / 100)) (v * (1 / 100))) :
    ∃ (v : List (Bin 52)) (it : ℕ) (y : Fin shippedHeat.d → ℝ), solveFl (M := M) babs (progHeat t0) (Bin.rnd (6 / 5)) 1024 (Bin.rnd (1 / 10000)) = .ok (v, it) ∧ it ≤ 1024 ∧
      VecFl real v shippedHeat.d y ∧ ∀ z, Solves shippedHeat z → (∀ t, 30 ≤ t → t ≤ 100 → heat2 shippedHeat y t ≤ (1 / 30) ^ 2 * heat2 shippedHeat z t) ∧
        ∃ x v, x ≤ 100 ∧ v ≤ 100 ∧ 15 / 1000 < |val3 shippedHeat y 30 x v - val3 shippedHeat z 30 x v| := by
  set η : ℝ := real (Bin.rnd (1 / 100) : Bin 52) with hη
  have r1 : |η - 1 / 100| ≤ (1 / 2) ^ 53 * |1 / 100| := by
    have := rnd_near (a := 1 / 100) (by norm_num)
    push_cast at this ⊢
    exact this
  have r2 : |real (Bin.rnd (6 / 10) : Bin 52) - 6 / 10| ≤ (1 / 2) ^ 53 * |6 / 10| := by
    have := rnd_near (a := 6 / 10) (by norm_num)
    push_cast at this ⊢
    exact this
  have r3 : |real (Bin.rnd (6 / 5) : Bin 52) - 6 / 5| ≤ 1 / 10 ^ 9 := by
    have := rnd_near (a := 6 / 5) (by norm_num)
    rw [abs_of_pos (by norm_num : (0 : ℝ) < ((6 / 5 : ℚ) : ℝ))] at this
    push_cast at this ⊢
    exact this.trans (by norm_num)
  have hη0 : 0 < η := by
    rw [abs_of_pos (by norm_num : (0 : ℝ) < 1 / 100), abs_le] at r1
    norm_num at r1
    linarith
  have hfl : ∀ x : ℕ, ⌊(x * η) / η⌋₊ = x := fun x => by rw [mul_div_cancel_right₀ _ hη0.ne', Nat.floor_natCast]
  have ex := exact_real (p := 52) (L := 2) (by norm_num) (by norm_num)
  have st := std_real 52
  have sd : Stands real (progHeat t0) ⟨101, 101, 101, η, η, η, fun _ _ _ => real (Bin.rnd (6 / 10) : Bin 52), fun _ _ _ => 0, fun _ _ _ => 0,
      fun a b => real (t0 ((⌊a / η⌋₊ : Bin 52) * Bin.rnd (1 / 100)) ((⌊b / η⌋₊ : Bin 52) * Bin.rnd (1 / 100)))⟩ := by
    refine ⟨ex.neg, ex.two, fun _ _ _ _ _ _ _ => rfl, fun t x v _ _ _ => ?_⟩
    unfold rhs3 OnRim progHeat
    simp only
    split_ifs
    · exact st.zero
    · rw [hfl, hfl]
    · exact st.zero
  exact C122_program (M := M) st (by norm_num) babs (hx := Bin.rnd (1 / 100)) (hy := Bin.rnd (1 / 100)) (ht := Bin.rnd (1 / 100)) sd (by exact_mod_cast r1) (by exact_mod_cast r1)
    (by exact_mod_cast r1) (by exact_mod_cast r2) (fun x v a b c d => by
      have := n0 x v a b c d
      rwa [hfl, hfl]) r3 (Bin.rnd (1 / 10000)) (maxIter := 1024) le_rfl

/-- the hypothesis of `C122_shipped` is met: start temperature 1/1024 everywhere, not zero and below the exact one at every inner grid point -/
example : ∃ t0 : Bin 52 → Bin 52 → Bin 52, (∀ a b, real (t0 a b) = 1 / 1024) ∧ ∀ x v : ℕ, 0 < x → x < 100 → 0 < v → v < 100 →
    |real (t0 ((x : Bin 52) * Bin.rnd (1 / 100)) ((v : Bin 52) * Bin.rnd (1 / 100)))| ≤ 1.001 * shippedHeat.t0 (x * (1 / 100)) (v * (1 / 100)) := by
  have h1 : real (Bin.rnd (1 / 1024) : Bin 52) = 1 / 1024 := by
    have : (Bin.rnd (1 / 1024) : Bin 52).toRat = 1 / 1024 := by decide +kernel
    unfold real
    rw [this]; norm_num
  refine ⟨fun _ _ => Bin.rnd (1 / 1024), fun _ _ => h1, fun x v hx hx' hv hv' => ?_⟩
  rw [h1, abs_of_pos (by norm_num)]
  have hp : ∀ n : ℕ, 0 < n → n < 100 → (99 / 10000 : ℝ) ≤ (n : ℝ) * (1 / 100) * (1 - n * (1 / 100)) := by
    intro n h0 h1
    have a1 : (1 : ℝ) ≤ n := by exact_mod_cast h0
    have a2 : (n : ℝ) ≤ 99 := by exact_mod_cast (by omega : n ≤ 99)
    have := mul_nonneg (sub_nonneg.2 a1) (sub_nonneg.2 a2)
    linarith
  have h2 := mul_le_mul (hp x hx hx') (hp v hv hv') (by norm_num) (le_trans (by norm_num) (hp x hx hx'))
  have h3 := add_one_le_exp (10 * ((x : ℝ) * (1 / 100)) * (1 - x * (1 / 100)) * (v * (1 / 100)) * (1 - v * (1 / 100)))
  have h4 : shippedHeat.t0 (x * (1 / 100)) (v * (1 / 100)) = 2 * (exp (10 * ((x : ℝ) * (1 / 100)) * (1 - x * (1 / 100)) * (v * (1 / 100)) * (1 - v * (1 / 100))) - 1) := rfl
  rw [h4]
  have h5 : 10 * ((x : ℝ) * (1 / 100)) * (1 - x * (1 / 100)) * (v * (1 / 100)) * (1 - v * (1 / 100)) = 10 * ((x : ℝ) * (1 / 100) * (1 - x * (1 / 100)) * (v * (1 / 100) * (1 - v * (1 / 100)))) := by ring
  rw [h5] at h3 ⊢
  generalize exp _ = e at *
  generalize (x : ℝ) * (1 / 100) * (1 - x * (1 / 100)) * (v * (1 / 100) * (1 - v * (1 / 100))) = a at *
  norm_num at h2 ⊢
  linarith

/-- the start temperature of the program at the inner grid points -/
theorem start_pos {x v : ℕ} (hx : 0 < x) (hx' : x < 100) (hv : 0 < v) (hv' : v < 100) : 1 / 1000 ≤ shippedHeat.t0 (x * (1 / 100)) (v * (1 / 100)) := by
  have hp : ∀ n : ℕ, 0 < n → n < 100 → (99 / 10000 : ℝ) ≤ (n : ℝ) * (1 / 100) * (1 - n * (1 / 100)) := by
    intro n h0 h1
    have a1 : (1 : ℝ) ≤ n := by exact_mod_cast h0
    have a2 : (n : ℝ) ≤ 99 := by exact_mod_cast (by omega : n ≤ 99)
    have := mul_nonneg (sub_nonneg.2 a1) (sub_nonneg.2 a2)
    linarith
  have h2 := mul_le_mul (hp x hx hx') (hp v hv hv') (by norm_num) (le_trans (by norm_num) (hp x hx hx'))
  have h3 := add_one_le_exp (10 * ((x : ℝ) * (1 / 100)) * (1 - x * (1 / 100)) * (v * (1 / 100)) * (1 - v * (1 / 100)))
  have h4 : shippedHeat.t0 (x * (1 / 100)) (v * (1 / 100)) = 2 * (exp (10 * ((x : ℝ) * (1 / 100)) * (1 - x * (1 / 100)) * (v * (1 / 100)) * (1 - v * (1 / 100))) - 1) := rfl
  rw [h4]
  have h5 : 10 * ((x : ℝ) * (1 / 100)) * (1 - x * (1 / 100)) * (v * (1 / 100)) * (1 - v * (1 / 100)) = 10 * ((x : ℝ) * (1 / 100) * (1 - x * (1 / 100)) * (v * (1 / 100) * (1 - v * (1 / 100)))) := by ring
  rw [h5] at h3 ⊢
  generalize exp _ = e at *
  generalize (x : ℝ) * (1 / 100) * (1 - x * (1 / 100)) * (v * (1 / 100) * (1 - v * (1 / 100))) = a at *
  norm_num at h2 ⊢
  linarith

/-- the computed coordinates belong to one grid line only -/
theorem coord_round {x : ℕ} (hx : x < 100) : ⌊real ((x : Bin 52) * Bin.rnd (1 / 100)) * 100 + 1 / 2⌋₊ = x := by
  have st := std_real 52
  have ex := exact_real (p := 52) (L := 100) (by norm_num) (by norm_num)
  have r1 := rnd_near (a := 1 / 100) (by norm_num)
  have r2 := st.mul (x : Bin 52) (Bin.rnd (1 / 100))
  rw [ex.cast x hx.le] at r2
  push_cast at r1
  generalize real (Bin.rnd (1 / 100) : Bin 52) = η at *
  generalize real ((x : Bin 52) * Bin.rnd (1 / 100)) = a at *
  have hx0 : (0 : ℝ) ≤ x := Nat.cast_nonneg x
  have hx1 : (x : ℝ) ≤ 99 := by exact_mod_cast (by omega : x ≤ 99)
  rw [abs_of_pos (by norm_num : (0 : ℝ) < 1 / 100)] at r1
  have h1 := abs_le.1 r1
  norm_num at h1
  have h2 : |(x : ℝ) * η| ≤ 2 := by
    rw [abs_le]
    constructor
    · have := mul_nonneg hx0 (show 0 ≤ η by linarith); linarith
    · have := mul_le_mul hx1 (show η ≤ 2 / 100 by linarith) (by linarith) (by norm_num); linarith
  have h3 : |a - x * η| ≤ 1 / 10 ^ 6 := r2.trans ((mul_le_mul_of_nonneg_left h2 (by positivity)).trans (by norm_num))
  have h4 : |(x : ℝ) * η - x * (1 / 100)| ≤ 1 / 10 ^ 6 := by
    rw [← mul_sub, abs_mul, abs_of_nonneg hx0]
    exact (mul_le_mul hx1 r1 (abs_nonneg _) (by norm_num)).trans (by norm_num)
  have h5 := abs_le.1 h3
  have h6 := abs_le.1 h4
  norm_num at h5 h6
  rw [Nat.floor_eq_iff (by linarith)]
  constructor <;> linarith

/-- start temperatures with the accuracy that `C122_shipped` asks for exist: each is within one thousandth of the exact one at every inner grid point -/
theorem start_exists : ∃ t0 : Bin 52 → Bin 52 → Bin 52, ∀ x v : ℕ, 0 < x → x < 100 → 0 < v → v < 100 →
    |real (t0 ((x : Bin 52) * Bin.rnd (1 / 100)) ((v : Bin 52) * Bin.rnd (1 / 100))) - shippedHeat.t0 (x * (1 / 100)) (v * (1 / 100))| ≤ 1 / 1000 * shippedHeat.t0 (x * (1 / 100)) (v * (1 / 100)) := by
  have hex : ∀ x v : ℕ, ∃ q : ℚ, |shippedHeat.t0 (x * (1 / 100)) (v * (1 / 100)) - q| < 1 / 10 ^ 7 := fun x v => exists_rat_near _ (by norm_num)
  choose g hg using hex
  refine ⟨fun a b => Bin.rnd (g ⌊real a * 100 + 1 / 2⌋₊ ⌊real b * 100 + 1 / 2⌋₊), fun x v hx hx' hv hv' => ?_⟩
  beta_reduce
  rw [coord_round hx', coord_round hv']
  have h0 := start_pos hx hx' hv hv'
  have h1 := hg x v
  have h2 := rnd_real 52 (g x v)
  generalize shippedHeat.t0 (x * (1 / 100)) (v * (1 / 100)) = T at *
  have h3 := abs_lt.1 h1
  norm_num at h3
  have hq : 0 < ((g x v : ℚ) : ℝ) := by linarith
  rw [abs_of_pos hq] at h2
  have h4 : (1 / 2 : ℝ) ^ (52 + 1) * (g x v : ℚ) ≤ 1 / 10000 * ((g x v : ℚ) : ℝ) := mul_le_mul_of_nonneg_right (by norm_num) hq.le
  have h5 := abs_le.1 (h2.trans h4)
  rw [abs_le]
  constructor <;> linarith

/-- `C122_shipped` with such start temperatures -/
example : ∃ t0 : Bin 52 → Bin 52 → Bin 52, ∃ (v : List (Bin 52)) (it : ℕ), solveFl (M := M) babs (progHeat t0) (Bin.rnd (6 / 5)) 1024 (Bin.rnd (1 / 10000)) = .ok (v, it) ∧ it ≤ 1024 := by
  obtain ⟨t0, h⟩ := start_exists
  obtain ⟨v, it, -, h1, h2, -⟩ := C122_shipped (M := M) t0 (fun x v a b c d => by
    have h1 := h x v a b c d
    have h2 := start_pos a b c d
    generalize shippedHeat.t0 (x * (1 / 100)) (v * (1 / 100)) = T at *
    rw [abs_le] at h1 ⊢
    norm_num at h1 ⊢
    constructor <;> linarith)
  exact ⟨t0, v, it, h1, h2⟩
end shipped
end NS.Props.Heat

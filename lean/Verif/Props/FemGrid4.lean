/-
Property theorems C119: the right-hand side of the program on the generated grid with quadratic elements, and the program.
-/
import Verif.Props.FemGrid3
set_option linter.unusedSectionVars false
set_option linter.unusedSimpArgs false

namespace NS.Props.FemMain
open NS NS.World NS.FemMain NS.Fem Matrix NS.Props.Mesh NS.Props.Shape NS.Props.Fem NS.HyperCube NS.Props.HyperCube
open NS.Props.LU (IsMat IsVec isVec_iff)
open NS.Props.Simplex (IsSqrt area2)
open Real

section
variable {T : Type} [Field T] [LinearOrder T] [IsStrictOrderedRing T]

/-- everything about the run on the grid -/
theorem grid_all {env : Env T} (hs : IsSqrt env.sqrt) (hT : ∀ t, Vtk.Word (env.showT t)) (hm : 0 < env.maxIter) (ht : env.tol ≠ 0) {L : T} (hL : 0 < L)
    (hsz : env.size = (L, L)) (hst : env.start = (0, 0)) {N : Nat} (hN2 : N ≤ 200) (hv0 : 0 ≤ env.veps) (hv : env.veps < L ^ 2 / (2 * (N : T) ^ 2))
    (he : env.eps = 1 / 10 ^ 8) (hj : env.jeps < 1 / 200) {argv : List (List Char)} {k : Int} (ha : GridArgs2 argv k N) :
    ∃ (w w1 w2 w3 : World T) (n : Nat) (a : Sparse T) (b : List T) (A : Matrix (Fin n) (Fin n) T)
      (B : Fin n → T), generate N N (L, L) (0, 0) = .ok w1 ∧ w1.prepare 0 = .ok w2 ∧ Shape.prepareMesh 2 w2 = .ok w3 ∧ w3.vertices.length = n ∧
      (∃ μ, QuadGrid N (L / N) (0, 0) w3 μ) ∧ (∃ u, Built w ∧ Distinct w ∧ Closed w ∧ Pipeline w w2 ∧ GridReady N (L / N) (0, 0) w u ∧ Solid env.eps 2 w w3) ∧
      system env.eps 2 env.src env.bnd w3 = .ok (a, b) ∧ IsMat a _ A ∧ IsVec b _ B ∧ NS.CG.SPD A ∧
      (k = 0 → ∃ x f, main env argv = .finished f ∧ Report env 2 true w w3 A b x f) ∧
      (k = 1 → main env argv = .fault .nonfinite ∨ ∃ x f, main env argv = .finished f ∧ Report env 2 true w w3 A b x f) ∧
      (k = 2 → B = 0 → main env argv = .fault .nonfinite) ∧
      (k = 2 → B ≠ 0 → ∃ x₁ x f, main env argv = .finished f ∧ IsVec x₁ _ x ∧ Report env 2 true w w3 A b x₁ f ∧
        (n ≤ env.maxIter → Props.CG.resSqr A B x < env.tol ^ 2)) := by
  have hN := ha.2.2.2.1
  obtain ⟨w, w1, w2, u, hb, hd, hc, hel, e1, e2, hp, e3', G⟩ := grid_ready hN hL.ne' (0, 0)
  have hNp : (0 : T) < N := by exact_mod_cast (by omega : 0 < N)
  have hh : (0 : T) < L / N := div_pos hL hNp
  obtain ⟨w3, e3, -, hwi, hcov⟩ := grid_quadratic hN hb hd hc hp e3' G
  have hS := grid_solid hN2 hh.ne' G hwi
  obtain ⟨a, b, A, B, s1, s2, s3, s4, t0, t1, -, t2, t3⟩ := C102_handle hs hT hm ht hb hd hc hp (.inr rfl) e3 hel rfl (he ▸ hS) true ha.2.1
  have hdiag : ∀ i, env.jeps < |A i i| := fun i => by
    obtain ⟨q1, q2⟩ := grid_tame hh.ne' G
    have hdl := C119_diagonal hb hd hc hp (.inr rfl) e3 hel rfl (by norm_num) (by norm_num) (he ▸ q1) q2 hcov s1 s2 i
    refine lt_of_lt_of_le ?_ (le_abs_self _)
    refine lt_of_lt_of_le ?_ hdl
    rw [G.elements, List.length_range]
    have h1 : (N : T) ≤ 200 := by exact_mod_cast hN2
    have h2 : (N : T) * N ≤ 200 * 200 := mul_le_mul h1 h1 hNp.le (by norm_num)
    push_cast
    linarith
  have hval : validate env.veps w2 = .ok () := by
    obtain ⟨v1, v2, f1, f2, f3⟩ := C53_validate hN hN (L, L) (0, 0) hv0 (show env.veps < |L * L| / (2 * (N * N)) by
      rw [abs_of_pos (mul_pos hL hL)]; convert hv using 2 <;> ring)
    obtain rfl : w1 = v1 := Except.ok.inj (e1.symm.trans f1)
    obtain rfl : w2 = v2 := Except.ok.inj (e2.symm.trans f2)
    exact f3
  have hmain : main env argv = ends (handle env 2 k true w2) .finished := by
    unfold main
    rw [ha.parse]
    simp only [FemMain.load, hsz, hst, e1, ends, e2, hval]
    rfl
  refine ⟨w, w1, w2, w3, _, a, b, A, B, e1, e2, e3, rfl, C119_nodes hb hd hc hp e3' G e3, ⟨u, hb, hd, hc, hp, G, he ▸ hS⟩, s1, s2, s3, s4, fun hk => ?_, fun hk => ?_, fun hk hB => ?_, fun hk hB => ?_⟩
  · obtain ⟨x, f, f1, f2⟩ := t0 hk
    exact ⟨x, f, by rw [hmain, f1]; rfl, f2⟩
  · rcases t1 hk with f1 | ⟨x, f, f1, f2⟩
    · left; rw [hmain, f1]; rfl
    · right; exact ⟨x, f, by rw [hmain, f1]; rfl, f2⟩
  · rw [hmain, t2 hk hdiag hB]; rfl
  · obtain ⟨x₁, x, f, f1, f2, f3, f4⟩ := t3 hk hdiag hB
    exact ⟨x₁, x, f, by rw [hmain, f1]; rfl, f2, f3, f4⟩

/-- C119: the program with quadratic elements on the generated grid of up to 200 cells per side: the numbers are the (2N + 1)² points of the grid of half the
width, the system is symmetric positive definite, with solver 0 the program always ends with its files, and so does it with solver 2 unless the right-hand
side is zero -/
theorem C119_grid {env : Env T} (hs : IsSqrt env.sqrt) (hT : ∀ t, Vtk.Word (env.showT t)) (hm : 0 < env.maxIter) (ht : env.tol ≠ 0) {L : T} (hL : 0 < L)
    (hsz : env.size = (L, L)) (hst : env.start = (0, 0)) {N : Nat} (hN2 : N ≤ 200) (hv0 : 0 ≤ env.veps) (hv : env.veps < L ^ 2 / (2 * (N : T) ^ 2))
    (he : env.eps = 1 / 10 ^ 8) (hj : env.jeps < 1 / 200) {argv : List (List Char)} {k : Int} (ha : GridArgs2 argv k N) :
    ∃ (w w1 w2 w3 : World T) (n : Nat) (a : Sparse T) (b : List T) (A : Matrix (Fin n) (Fin n) T)
      (B : Fin n → T), generate N N (L, L) (0, 0) = .ok w1 ∧ w1.prepare 0 = .ok w2 ∧ Shape.prepareMesh 2 w2 = .ok w3 ∧ n = (2 * N + 1) * (2 * N + 1) ∧
      (∃ μ, QuadGrid N (L / N) (0, 0) w3 μ) ∧
      system env.eps 2 env.src env.bnd w3 = .ok (a, b) ∧ IsMat a _ A ∧ IsVec b _ B ∧ NS.CG.SPD A ∧
      (k = 0 → ∃ x f, main env argv = .finished f ∧ Report env 2 true w w3 A b x f) ∧
      (k = 1 → main env argv = .fault .nonfinite ∨ ∃ x f, main env argv = .finished f ∧ Report env 2 true w w3 A b x f) ∧
      (k = 2 → B = 0 → main env argv = .fault .nonfinite) ∧
      (k = 2 → B ≠ 0 → ∃ x₁ x f, main env argv = .finished f ∧ IsVec x₁ _ x ∧ Report env 2 true w w3 A b x₁ f ∧
        (n ≤ env.maxIter → Props.CG.resSqr A B x < env.tol ^ 2)) := by
  obtain ⟨w, w1, w2, w3, n, a, b, A, B, e1, e2, e3, hn, ⟨μ, Q⟩, -, s⟩ := grid_all hs hT hm ht hL hsz hst hN2 hv0 hv he hj ha
  exact ⟨w, w1, w2, w3, n, a, b, A, B, e1, e2, e3, hn.symm.trans Q.length, ⟨μ, Q⟩, s⟩

end

/-- an entry of the right-hand side that belongs to the middle of a side, for a source that does not decrease from the centre of the triangle to one of the points of the rule -/
theorem load_bound {a fc f1 f2 f3 : ℝ} (ha : 0 ≤ a) (h2 : fc ≤ f2) (hc : fc ≤ 1) (h1 : 1 / 64 ≤ f1) (h3 : 0 ≤ f3) (h0 : 0 ≤ fc) :
    a * (1 / 1000) ≤ a * (-562500000000000 / 10 ^ 15 / 2 * (4 * (333333333333333 / 10 ^ 15 * (1 - 333333333333333 / 10 ^ 15 - 333333333333333 / 10 ^ 15)) * fc) +
      520833333333333 / 10 ^ 15 / 2 * (12 / 25 * f1 + 12 / 25 * f2 + 4 / 25 * f3)) := by
  refine mul_le_mul_of_nonneg_left ?_ ha
  norm_num
  linarith

theorem basis_mid (x y : ℝ) : basisAt 2 3 [x, y] = 4 * (x * (1 - x - y)) ∧ basisAt 2 5 [x, y] = 4 * (y * (1 - x - y)) := by
  have p0 : pt 2 [x, y] 0 = x := rfl
  have p1 : pt 2 [x, y] 1 = y := rfl
  constructor <;> simp [basisAt, basis, hat, p0, p1] <;> ring

theorem sine_range {u : ℝ} (h0 : 0 ≤ u) (h1 : u ≤ 1 / 2) : 0 ≤ sin (π * u) ∧ sin (π * u) ≤ 1 ∧ 2 * u ≤ sin (π * u) := by
  have hp := Real.pi_pos
  have h2 : π * u ≤ π / 2 := by
    have := mul_le_mul_of_nonneg_left h1 hp.le
    linarith
  have h3 : 0 ≤ π * u := mul_nonneg hp.le h0
  refine ⟨Real.sin_nonneg_of_nonneg_of_le_pi h3 (by linarith), Real.sin_le_one _, ?_⟩
  refine le_trans (le_of_eq ?_) (Real.mul_le_sin h3 h2)
  field_simp

theorem sine_mono {u v : ℝ} (h0 : 0 ≤ u) (huv : u ≤ v) (h1 : v ≤ 1 / 2) : sin (π * u) ≤ sin (π * v) := by
  have hp := Real.pi_pos
  have h2 : π * v ≤ π / 2 := by
    have := mul_le_mul_of_nonneg_left h1 hp.le
    linarith
  have h3 : 0 ≤ π * u := mul_nonneg hp.le h0
  exact Real.sin_le_sin_of_le_of_le_pi_div_two (by linarith) h2 (mul_le_mul_of_nonneg_left huv hp.le)

/-- points of the square `[0, 1/2]²` -/
theorem source_le {x y x' y' : ℝ} (hx : 0 ≤ x) (hy : 0 ≤ y) (hxx : x ≤ x') (hyy : y ≤ y') (hx' : x' ≤ 1 / 2) (hy' : y' ≤ 1 / 2) :
    sineSource [x, y] ≤ sineSource [x', y'] ∧ 0 ≤ sineSource [x, y] ∧ sineSource [x, y] ≤ 1 ∧ 4 * (x * y) ≤ sineSource [x, y] := by
  have s : ∀ a b : ℝ, sineSource [a, b] = sin (π * a) * sin (π * b) := fun _ _ => rfl
  obtain ⟨a1, a2, a3⟩ := sine_range hx (hxx.trans hx')
  obtain ⟨b1, b2, b3⟩ := sine_range hy (hyy.trans hy')
  obtain ⟨c1, -, -⟩ := sine_range (hx.trans hxx) hx'
  rw [s, s]
  refine ⟨mul_le_mul (sine_mono hx hxx hx') (sine_mono hy hyy hy') b1 c1, mul_nonneg a1 b1, mul_le_one₀ a2 b1 b2, ?_⟩
  have := mul_le_mul a3 b3 (by linarith) a1
  linarith

/-- the two entries at the middle of the diagonal of the cell in the middle of the grid -/
theorem load_mid {N : Nat} (hN : 2 ≤ N) (hN2 : N ≤ 200) {i : Nat} (hi : i = N / 2 - 1) {P : Fin 3 → Fin 2 → ℝ} {k : Nat} (hk : k < 2)
    (hP : ∀ m : Fin 3, P m 0 = 0 + 1 / (N : ℝ) * ((corner i i k m).2 : ℝ) ∧ P m 1 = 0 + 1 / (N : ℝ) * ((corner i i k m).1 : ℝ)) :
    1 / 10 ^ 8 < Fem.load 2 sineSource P (if k = 0 then 5 else 3) := by
  have hN0 : (0 : ℝ) < N := by exact_mod_cast (by omega : 0 < N)
  obtain ⟨h, hh⟩ : ∃ h : ℝ, h = 1 / N := ⟨_, rfl⟩
  have hpos : 0 < h := by rw [hh]; positivity
  have hNh : h * N = 1 := by rw [hh]; field_simp
  have hlo : 1 / 200 ≤ h := by
    rw [hh]
    exact one_div_le_one_div_of_le hN0 (by exact_mod_cast hN2)
  obtain ⟨t, ht⟩ : ∃ t : ℝ, t = h * (i : ℝ) := ⟨_, rfl⟩
  have ht0 : 0 ≤ t := by rw [ht]; positivity
  have ht1 : t + h ≤ 1 / 2 := by
    have h1 : 2 * ((i : ℝ) + 1) ≤ N := by exact_mod_cast (by omega : 2 * (i + 1) ≤ N)
    have := mul_le_mul_of_nonneg_left h1 hpos.le
    rw [hNh] at this
    linarith
  have ht2 : 1 / 16 ≤ t + h * (1 / 5) := by
    have h1 : (N : ℝ) ≤ 16 * i + 3 := by exact_mod_cast (by omega : N ≤ 16 * i + 3)
    have := mul_le_mul_of_nonneg_left h1 hpos.le
    rw [hNh] at this
    linarith
  rw [← hh] at hP
  have hsq : 1 / 40000 ≤ h * h := by
    have := mul_le_mul hlo hlo (by norm_num) hpos.le
    linarith
  have key : ∀ {a fc f1 f2 f3 : ℝ}, a = h * h → fc ≤ f2 → fc ≤ 1 → 1 / 64 ≤ f1 → 0 ≤ f3 → 0 ≤ fc → 1 / 10 ^ 8 <
      a * (-562500000000000 / 10 ^ 15 / 2 * (4 * (333333333333333 / 10 ^ 15 * (1 - 333333333333333 / 10 ^ 15 - 333333333333333 / 10 ^ 15)) * fc) +
      520833333333333 / 10 ^ 15 / 2 * (12 / 25 * f1 + 12 / 25 * f2 + 4 / 25 * f3)) := by
    rintro a fc f1 f2 f3 rfl g2 g3 g1 g4 g5
    refine lt_of_lt_of_le ?_ (load_bound (mul_pos hpos hpos).le g2 g3 g1 g4 g5)
    linarith
  have hbig : 1 / 64 ≤ 4 * ((t + h * (1 / 5)) * (t + h * (2 / 5))) := by
    have := mul_le_mul ht2 (show 1 / 16 ≤ t + h * (2 / 5) by linarith) (by norm_num) (by linarith)
    linarith
  have hcase : |area2 P| = h * h := by
    rw [area2_eq, (hP 0).1, (hP 0).2, (hP 1).1, (hP 1).2, (hP 2).1, (hP 2).2, ← abs_of_pos (mul_pos hpos hpos)]
    rcases (by omega : k = 0 ∨ k = 1) with rfl | rfl
    · rw [← abs_neg]
      congr 1
      simp only [corner, if_pos rfl, Matrix.cons_val_zero, Matrix.cons_val_one, Matrix.cons_val]
      push_cast; ring
    · rw [← abs_neg]
      congr 1
      simp only [corner, if_neg one_ne_zero, Matrix.cons_val_zero, Matrix.cons_val_one, Matrix.cons_val]
      push_cast; ring
  unfold Fem.load
  rw [hcase, quad_three]
  rcases (by omega : k = 0 ∨ k = 1) with rfl | rfl
  · have c0 := hP 0
    have c1 := hP 1
    have c2 := hP 2
    simp only [corner, if_pos rfl, Matrix.cons_val_zero, Matrix.cons_val_one, Matrix.cons_val] at c0 c1 c2
    push_cast at c0 c1 c2
    rw [if_pos rfl]
    simp only [(basis_mid _ _).2, toPoint, show ∀ x y : ℝ, pt 2 [x, y] 0 = x from fun _ _ => rfl, show ∀ x y : ℝ, pt 2 [x, y] 1 = y from fun _ _ => rfl,
      c0.1, c0.2, c1.1, c1.2, c2.1, c2.2]
    have e : ∀ x y : ℝ, [0 + h * (i : ℝ) + x * (0 + h * (i : ℝ) - (0 + h * (i : ℝ))) + y * (0 + h * ((i : ℝ) + 1) - (0 + h * (i : ℝ))),
        0 + h * (i : ℝ) + x * (0 + h * ((i : ℝ) + 1) - (0 + h * (i : ℝ))) + y * (0 + h * ((i : ℝ) + 1) - (0 + h * (i : ℝ)))] = [t + h * y, t + h * (x + y)] := by
      intro x y
      rw [ht]
      congr 1
      · ring
      · congr 1; ring
    simp only [e]
    have g2 := source_le (x := t + h * (333333333333333 / 10 ^ 15)) (y := t + h * (333333333333333 / 10 ^ 15 + 333333333333333 / 10 ^ 15))
      (x' := t + h * (3 / 5)) (y' := t + h * (1 / 5 + 3 / 5)) (by positivity) (by positivity) (by linarith) (by linarith) (by linarith) (by linarith)
    have g1 := source_le (x := t + h * (1 / 5)) (y := t + h * (1 / 5 + 1 / 5)) (by positivity) (by positivity) le_rfl le_rfl (by linarith) (by linarith)
    have g3 := source_le (x := t + h * (1 / 5)) (y := t + h * (3 / 5 + 1 / 5)) (by positivity) (by positivity) le_rfl le_rfl (by linarith) (by linarith)
    have hb : 1 / 64 ≤ 4 * ((t + h * (1 / 5)) * (t + h * (1 / 5 + 1 / 5))) := by
      refine hbig.trans (le_of_eq ?_); ring
    refine lt_of_lt_of_le (key rfl g2.1 g2.2.2.1 (hb.trans g1.2.2.2) g3.2.1 g2.2.1) (le_of_eq ?_)
    ring
  · have c0 := hP 0
    have c1 := hP 1
    have c2 := hP 2
    simp only [corner, if_neg one_ne_zero, Matrix.cons_val_zero, Matrix.cons_val_one, Matrix.cons_val] at c0 c1 c2
    push_cast at c0 c1 c2
    rw [if_neg one_ne_zero]
    simp only [(basis_mid _ _).1, toPoint, show ∀ x y : ℝ, pt 2 [x, y] 0 = x from fun _ _ => rfl, show ∀ x y : ℝ, pt 2 [x, y] 1 = y from fun _ _ => rfl,
      c0.1, c0.2, c1.1, c1.2, c2.1, c2.2]
    have e : ∀ x y : ℝ, [0 + h * (i : ℝ) + x * (0 + h * ((i : ℝ) + 1) - (0 + h * (i : ℝ))) + y * (0 + h * ((i : ℝ) + 1) - (0 + h * (i : ℝ))),
        0 + h * (i : ℝ) + x * (0 + h * ((i : ℝ) + 1) - (0 + h * (i : ℝ))) + y * (0 + h * (i : ℝ) - (0 + h * (i : ℝ)))] = [t + h * (x + y), t + h * x] := by
      intro x y
      rw [ht]
      congr 1
      · ring
      · congr 1; ring
    simp only [e]
    have g2 := source_le (x := t + h * (333333333333333 / 10 ^ 15 + 333333333333333 / 10 ^ 15)) (y := t + h * (333333333333333 / 10 ^ 15))
      (x' := t + h * (3 / 5 + 1 / 5)) (y' := t + h * (3 / 5)) (by positivity) (by positivity) (by linarith) (by linarith) (by linarith) (by linarith)
    have g1 := source_le (x := t + h * (1 / 5 + 1 / 5)) (y := t + h * (1 / 5)) (by positivity) (by positivity) le_rfl le_rfl (by linarith) (by linarith)
    have g3 := source_le (x := t + h * (1 / 5 + 3 / 5)) (y := t + h * (1 / 5)) (by positivity) (by positivity) le_rfl le_rfl (by linarith) (by linarith)
    have hb : 1 / 64 ≤ 4 * ((t + h * (1 / 5 + 1 / 5)) * (t + h * (1 / 5))) := by
      refine hbig.trans (le_of_eq ?_); ring
    refine lt_of_lt_of_le (key rfl g2.1 g2.2.2.1 (hb.trans g1.2.2.2) g3.2.1 g2.2.1) (le_of_eq ?_)
    ring

/-- the same for the grid of one cell, whose triangle reaches beyond the middle of the square -/
theorem load_one {P : Fin 3 → Fin 2 → ℝ} {k : Nat} (hk : k < 2)
    (hP : ∀ m : Fin 3, P m 0 = 0 + 1 / ((1 : Nat) : ℝ) * ((corner 0 0 k m).2 : ℝ) ∧ P m 1 = 0 + 1 / ((1 : Nat) : ℝ) * ((corner 0 0 k m).1 : ℝ)) :
    1 / 10 ^ 8 < Fem.load 2 sineSource P (if k = 0 then 5 else 3) := by
  have s : ∀ a b : ℝ, sineSource [a, b] = sin (π * a) * sin (π * b) := fun _ _ => rfl
  obtain ⟨s1, hs1⟩ : ∃ x, x = sin (π * (1 / 5)) := ⟨_, rfl⟩
  obtain ⟨s2, hs2⟩ : ∃ x, x = sin (π * (2 / 5)) := ⟨_, rfl⟩
  obtain ⟨s3, hs3⟩ : ∃ x, x = sin (π * (1 / 3)) := ⟨_, rfl⟩
  obtain ⟨s4, hs4⟩ : ∃ x, x = sin (π * (333333333333333 / 10 ^ 15)) := ⟨_, rfl⟩
  obtain ⟨s5, hs5⟩ : ∃ x, x = sin (π * (333333333333333 / 10 ^ 15 + 333333333333333 / 10 ^ 15)) := ⟨_, rfl⟩
  have h1 : 1 / 2 ≤ s1 := by
    have := sine_mono (u := 1 / 6) (v := 1 / 5) (by norm_num) (by norm_num) (by norm_num)
    rwa [mul_one_div π 6, Real.sin_pi_div_six, ← hs1] at this
  have h2 : s3 ≤ s2 := by rw [hs3, hs2]; exact sine_mono (by norm_num) (by norm_num) (by norm_num)
  have h3 : s3 ≤ 1 := by rw [hs3]; exact Real.sin_le_one _
  have h30 : 0 ≤ s3 := by rw [hs3]; exact (sine_range (by norm_num) (by norm_num)).1
  have h4 : s4 ≤ s3 := by rw [hs4, hs3]; exact sine_mono (by norm_num) (by norm_num) (by norm_num)
  have h40 : 0 ≤ s4 := by rw [hs4]; exact (sine_range (by norm_num) (by norm_num)).1
  have h5 : s5 ≤ 1 := by rw [hs5]; exact Real.sin_le_one _
  have r4 : sin (π * (4 / 5)) = s1 := by rw [hs1, ← Real.sin_pi_sub]; congr 1; ring
  have r3 : sin (π * (3 / 5)) = s2 := by rw [hs2, ← Real.sin_pi_sub]; congr 1; ring
  have q1 : 1 / 2 * s3 ≤ s1 * s2 := mul_le_mul h1 h2 h30 (by linarith)
  have q2 : 1 / 2 * (1 / 2) ≤ s1 * s1 := mul_le_mul h1 h1 (by norm_num) (by linarith)
  have q3 : s4 * s5 ≤ s3 := (mul_le_of_le_one_right h40 h5).trans h4
  have key : 1 / 10 ^ 8 < 1 * (-562500000000000 / 10 ^ 15 / 2 * (4 * (333333333333333 / 10 ^ 15 * (1 - 333333333333333 / 10 ^ 15 - 333333333333333 / 10 ^ 15)) * (s4 * s5)) +
      520833333333333 / 10 ^ 15 / 2 * (12 / 25 * (s1 * s2) + 12 / 25 * (s1 * s2) + 4 / 25 * (s1 * s1))) := by
    generalize s1 * s2 = a at *
    generalize s1 * s1 = b at *
    generalize s4 * s5 = c at *
    clear r3 r4 hs1 hs2 hs3 hs4 hs5 s
    norm_num
    linarith
  have hcase : |area2 P| = 1 := by
    rw [area2_eq, (hP 0).1, (hP 0).2, (hP 1).1, (hP 1).2, (hP 2).1, (hP 2).2]
    rcases (by omega : k = 0 ∨ k = 1) with rfl | rfl
    · simp [corner]
    · simp [corner]
  unfold Fem.load
  rw [hcase, quad_three]
  rcases (by omega : k = 0 ∨ k = 1) with rfl | rfl
  · have c0 := hP 0
    have c1 := hP 1
    have c2 := hP 2
    simp only [corner, if_pos rfl, Matrix.cons_val_zero, Matrix.cons_val_one, Matrix.cons_val] at c0 c1 c2
    push_cast at c0 c1 c2
    rw [if_pos rfl]
    simp only [(basis_mid _ _).2, toPoint, show ∀ x y : ℝ, pt 2 [x, y] 0 = x from fun _ _ => rfl, show ∀ x y : ℝ, pt 2 [x, y] 1 = y from fun _ _ => rfl,
      c0.1, c0.2, c1.1, c1.2, c2.1, c2.2]
    have e : ∀ x y a b : ℝ, a = y → b = x + y → sineSource [a, b] = sin (π * y) * sin (π * (x + y)) := by
      rintro x y a b rfl rfl; exact s _ _
    rw [e (333333333333333 / 10 ^ 15) (333333333333333 / 10 ^ 15) _ _ (by ring) (by ring), e (1 / 5) (1 / 5) _ _ (by ring) (by ring),
      e (1 / 5) (3 / 5) _ _ (by ring) (by ring), e (3 / 5) (1 / 5) _ _ (by ring) (by ring)]
    rw [show (1 / 5 + 1 / 5 : ℝ) = 2 / 5 by norm_num, show (1 / 5 + 3 / 5 : ℝ) = 4 / 5 by norm_num, show (3 / 5 + 1 / 5 : ℝ) = 4 / 5 by norm_num, r3, r4, ← hs1, ← hs2, ← hs4, ← hs5]
    refine lt_of_lt_of_le key (le_of_eq ?_)
    ring
  · have c0 := hP 0
    have c1 := hP 1
    have c2 := hP 2
    simp only [corner, if_neg one_ne_zero, Matrix.cons_val_zero, Matrix.cons_val_one, Matrix.cons_val] at c0 c1 c2
    push_cast at c0 c1 c2
    rw [if_neg one_ne_zero]
    simp only [(basis_mid _ _).1, toPoint, show ∀ x y : ℝ, pt 2 [x, y] 0 = x from fun _ _ => rfl, show ∀ x y : ℝ, pt 2 [x, y] 1 = y from fun _ _ => rfl,
      c0.1, c0.2, c1.1, c1.2, c2.1, c2.2]
    have e : ∀ x y a b : ℝ, a = x + y → b = x → sineSource [a, b] = sin (π * x) * sin (π * (x + y)) := by
      rintro x y a b rfl rfl; rw [s, mul_comm]
    rw [e (333333333333333 / 10 ^ 15) (333333333333333 / 10 ^ 15) _ _ (by ring) (by ring), e (1 / 5) (1 / 5) _ _ (by ring) (by ring),
      e (1 / 5) (3 / 5) _ _ (by ring) (by ring), e (3 / 5) (1 / 5) _ _ (by ring) (by ring)]
    rw [show (1 / 5 + 1 / 5 : ℝ) = 2 / 5 by norm_num, show (1 / 5 + 3 / 5 : ℝ) = 4 / 5 by norm_num, show (3 / 5 + 1 / 5 : ℝ) = 4 / 5 by norm_num, r3, r4, ← hs1, ← hs2, ← hs4, ← hs5]
    refine lt_of_lt_of_le key (le_of_eq ?_)
    ring

/-- only two elements touch the middle of the diagonal of a cell -/
theorem diagonal_dof {N : Nat} {h : ℝ} {off : ℝ × ℝ} {w'' : World ℝ} {μ : Nat → Nat → Nat} (Q : QuadGrid N h off w'' μ) {i j : Nat} (hi : i < N) (hj : j < N)
    {i' j' k' q : Nat} (hi' : i' < N) (hj' : j' < N) (hk' : k' < 2) (hq : q < 6) :
    dofIndex w'' (eid N i' j' k') q = some (μ (2 * i + 1) (2 * j + 1)) ↔ (i' = i ∧ j' = j) ∧ q = if k' = 0 then 5 else 3 := by
  obtain ⟨t0, t1, t2, t3, t4, t5⟩ := midOf_table i' j'
  have hin : ∀ {R C}, R ≤ 2 * N → C ≤ 2 * N → (some (μ R C) = some (μ (2 * i + 1) (2 * j + 1)) ↔ R = 2 * i + 1 ∧ C = 2 * j + 1) := by
    intro R C hR hC
    rw [Option.some.injEq]
    exact ⟨fun he => Q.inj _ hR _ hC _ (by omega) _ (by omega) he, fun he => by rw [he.1, he.2]⟩
  by_cases h3 : q < 3
  · have hd := Q.dof i' hi' j' hj' k' hk' ⟨q, h3⟩
    obtain ⟨b1, b2⟩ := corner_le (k := k') hi' hj' ⟨q, h3⟩
    rw [show dofIndex w'' (eid N i' j' k') q = _ from hd, hin (by omega) (by omega)]
    constructor
    · intro he; omega
    · rintro ⟨-, he⟩
      split at he <;> omega
  · obtain ⟨p, rfl⟩ : ∃ p, q = 3 + p := ⟨q - 3, by omega⟩
    have hd := Q.mid i' hi' j' hj' k' hk' ⟨p, by omega⟩
    obtain ⟨b1, b2, -⟩ := midOf_range hi' hj' hk' ((⟨p, by omega⟩ : Fin 3) + 2)
    rw [show dofIndex w'' (eid N i' j' k') (3 + p) = _ from hd, hin b1 b2]
    have hp : p < 3 := by omega
    interval_cases k' <;> interval_cases p
    · rw [show (⟨0, hp⟩ : Fin 3) + 2 = 2 from rfl, t2]; simp; omega
    · rw [show (⟨1, hp⟩ : Fin 3) + 2 = 0 from rfl, t0]; simp; omega
    · rw [show (⟨2, hp⟩ : Fin 3) + 2 = 1 from rfl, t1]; simp
    · rw [show (⟨0, hp⟩ : Fin 3) + 2 = 2 from rfl, t5]; simp
    · rw [show (⟨1, hp⟩ : Fin 3) + 2 = 0 from rfl, t3]; simp; omega
    · rw [show (⟨2, hp⟩ : Fin 3) + 2 = 1 from rfl, t4]; simp; omega

theorem keep_of_lt {eps x : ℝ} (h0 : 0 ≤ eps) (h : eps < x) : keep eps x = x := by
  unfold keep
  rw [if_pos (h.trans_le (le_abs_self x))]

/-- C119: the right-hand side of the program is not zero -/
theorem C119_load {n N : Nat} (hN : 1 ≤ N) (hN2 : N ≤ 200) {w w2 w3 w'' : World ℝ} (hb : Built w) (hd : Distinct w) (hcl : Closed w) (hp : Pipeline w w2)
    (g : GridReady N (1 / (N : ℝ)) (0, 0) w w3) (e2 : Shape.prepareMesh 2 w2 = .ok w'') (hn : w''.vertices.length = n) {μ : Nat → Nat → Nat}
    (Q : QuadGrid N (1 / (N : ℝ)) (0, 0) w'' μ) (hS : Solid (1 / 10 ^ 8) 2 w w'') {bnd : List ℝ → ℝ} {a : Sparse ℝ} {b : List ℝ} {B : Fin n → ℝ}
    (hs : system (1 / 10 ^ 8) 2 sineSource bnd w'' = .ok (a, b)) (hB : IsVec b n B) : B ≠ 0 := by
  rintro rfl
  have hel : w.elements ≠ [] := by
    rw [g.elements]
    intro h0
    have := congrArg List.length h0
    simp at this
    omega
  obtain ⟨a', b', A, B', s1, s2, s3, -, -, s5⟩ := C119_system (M := Sparse ℝ) hb hd hcl hp (.inr rfl) e2 hel hn hS sineSource bnd
  rw [hs] at s1
  obtain ⟨rfl, rfl⟩ := Prod.mk.inj (Except.ok.inj s1)
  have hBB : B' = 0 := by
    funext r
    rw [← (isVec_iff.1 s3).2 r, ← (isVec_iff.1 hB).2 r]
  subst hBB
  obtain ⟨i, hi⟩ : ∃ i, i = N / 2 - 1 := ⟨_, rfl⟩
  have hiN : i < N := by omega
  have hr : μ (2 * i + 1) (2 * i + 1) < n := by
    rw [← hn]; exact Q.lt _ (by omega) _ (by omega)
  obtain ⟨v, v1, -, v3⟩ := Q.node (2 * i + 1) (by omega) (2 * i + 1) (by omega)
  have hflag : v.flags &&& 1 = 0 := by
    rw [v3, if_neg (by omega), if_neg (by omega)]
    rfl
  have heq := ((s5 0).1 (Matrix.mulVec_zero A) ⟨_, hr⟩ v v1).2 hflag
  have hz : ∀ a q, valueOf (n := n) w'' 0 a q = (0 : ℝ) := by
    intro a q
    unfold valueOf
    split
    · split <;> rfl
    · rfl
  simp only [hz, mul_zero, Finset.sum_const_zero, ite_self, List.map_const', List.sum_replicate, smul_zero] at heq
  rw [g.elements, sum_cells] at heq
  have hone : ∀ i' < N, ∀ j' < N, ∀ k < 2, (∑ q ∈ Finset.range (3 * 2), if dofIndex w'' (eid N i' j' k) q = some (μ (2 * i + 1) (2 * i + 1)) then
      keep (1 / 10 ^ 8) (Fem.load 2 sineSource (coords w (eid N i' j' k)) q) else 0) =
      if i' = i ∧ j' = i then keep (1 / 10 ^ 8) (Fem.load 2 sineSource (coords w (eid N i' j' k)) (if k = 0 then 5 else 3)) else 0 := by
    intro i' hi' j' hj' k hk
    rw [Finset.sum_congr rfl fun q hq => by rw [if_congr (diagonal_dof Q hiN hiN hi' hj' hk (Finset.mem_range.1 hq)) rfl rfl]]
    by_cases hc : i' = i ∧ j' = i
    · rw [if_pos hc, Finset.sum_eq_single (if k = 0 then 5 else 3)]
      · rw [if_pos ⟨hc, rfl⟩]
      · intro q _ hq; rw [if_neg fun hh => hq hh.2]
      · intro hh
        exact absurd (Finset.mem_range.2 (by split <;> omega)) hh
    · rw [if_neg hc]
      exact Finset.sum_eq_zero fun q _ => if_neg fun hh => hc hh.1
  have hlo : ∀ k < 2, 1 / 10 ^ 8 < Fem.load 2 sineSource (coords w (eid N i i k)) (if k = 0 then 5 else 3) := fun k hk => by
    rcases (by omega : N = 1 ∨ 2 ≤ N) with rfl | h2
    · obtain rfl : i = 0 := by omega
      exact load_one hk fun m => g.coords 0 hiN 0 hiN k hk m
    · exact load_mid h2 hN2 hi hk fun m => g.coords i hiN i hiN k hk m
  have hsum := Finset.sum_congr (rfl : Finset.range N = Finset.range N) fun i' hi' =>
    Finset.sum_congr (rfl : Finset.range N = Finset.range N) fun j' hj' =>
      congrArg₂ (· + ·) (hone i' (Finset.mem_range.1 hi') j' (Finset.mem_range.1 hj') 0 (by omega)) (hone i' (Finset.mem_range.1 hi') j' (Finset.mem_range.1 hj') 1 (by omega))
  beta_reduce at hsum
  rw [hsum] at heq
  have hpick : ∀ i' j' : Nat, ∀ x y : ℝ, ((if i' = i ∧ j' = i then x else 0) + if i' = i ∧ j' = i then y else 0) = if i' + 0 = i ∧ j' + 0 = i then x + y else 0 := by
    intro i' j' x y
    simp only [Nat.add_zero]
    split <;> simp
  rw [Finset.sum_congr rfl fun i' _ => Finset.sum_congr rfl fun j' _ => hpick i' j' _ _, sum_pick (fun i' j' => keep (1 / 10 ^ 8) (Fem.load 2 sineSource (coords w (eid N i' j' 0)) (if 0 = 0 then 5 else 3)) +
    keep (1 / 10 ^ 8) (Fem.load 2 sineSource (coords w (eid N i' j' 1)) (if 1 = 0 then 5 else 3))) (Nat.zero_le i) (Nat.zero_le i) hiN hiN] at heq
  have k0 := hlo 0 (by omega)
  have k1 := hlo 1 (by omega)
  simp only [Nat.sub_zero, reduceIte, one_ne_zero] at heq k0 k1
  rw [keep_of_lt (by norm_num) k0, keep_of_lt (by norm_num) k1] at heq
  linarith

/-- C119: the program as it is (constants of fem.cpp, unit square) with quadratic elements on grids of 1 to 200 cells per side, `fem 0 2 0 N` and `fem 2 2 0 N`:
it ends with its files; with the default solver the residual is below the tolerance for `N` up to 15 -/
theorem C119_run {env : Env ℝ} (h : Standard env) {N : Nat} (hN : 1 ≤ N) (hN2 : N ≤ 200) {argv : List (List Char)} {k : Int} (ha : GridArgs2 argv k N) :
    ∃ (w w3 : World ℝ) (n : Nat) (a : Sparse ℝ) (b : List ℝ) (A : Matrix (Fin n) (Fin n) ℝ) (B : Fin n → ℝ), n = (2 * N + 1) * (2 * N + 1) ∧
      (∃ μ, QuadGrid N (1 / (N : ℝ)) (0, 0) w3 μ) ∧ system env.eps 2 env.src env.bnd w3 = .ok (a, b) ∧ IsMat a n A ∧ IsVec b n B ∧ NS.CG.SPD A ∧ B ≠ 0 ∧
      (k = 0 → ∃ x f, main env argv = .finished f ∧ Report env 2 true w w3 A b x f) ∧
      (k = 2 → ∃ x₁ x f, main env argv = .finished f ∧ IsVec x₁ n x ∧ Report env 2 true w w3 A b x₁ f ∧ (N ≤ 15 → Props.CG.resSqr A B x < (1 / 10 ^ 4) ^ 2)) := by
  have h1 : (N : ℝ) ≤ 200 := by exact_mod_cast hN2
  have h0 : (0 : ℝ) < N := by exact_mod_cast (by omega : 0 < N)
  have h2 : (N : ℝ) * N ≤ 200 * 200 := mul_le_mul h1 h1 h0.le (by norm_num)
  obtain ⟨w, w1, w2, w3, n, a, b, A, B, -, -, e3, hn, ⟨μ, Q⟩, ⟨u, hb, hd, hc, hp, G, hS⟩, s1, s2, s3, s4, t0, -, -, t2⟩ := grid_all (env := env) (L := 1) h.sqrt h.showT
    (by rw [h.maxIter]; norm_num) (by rw [h.tol]; norm_num) one_pos h.size h.start hN2 (by rw [h.veps]; norm_num) (by
      rw [h.veps, lt_div_iff₀ (by positivity)]
      linarith) h.eps (by rw [h.jeps]; norm_num) ha
  have hn' : n = (2 * N + 1) * (2 * N + 1) := hn.symm.trans Q.length
  have hB : B ≠ 0 := C119_load hN hN2 hb hd hc hp G e3 hn Q (h.eps ▸ hS) (bnd := env.bnd) (by rw [← h.eps, ← h.src]; exact s1) s3
  rw [h.maxIter, h.tol] at t2
  refine ⟨w, w3, n, a, b, A, B, hn', ⟨μ, Q⟩, s1, s2, s3, s4, hB, t0, fun hk => ?_⟩
  obtain ⟨x₁, x, f, f1, f2, f3, f4⟩ := t2 hk hB
  refine ⟨x₁, x, f, f1, f2, f3, fun hN15 => f4 ?_⟩
  rw [hn']
  have : (2 * N + 1) * (2 * N + 1) ≤ 31 * 31 := Nat.mul_le_mul (by omega) (by omega)
  omega

/-- the hypotheses of the theorems above are met -/
example : GridArgs2 (["fem", "2", "2", "0", "15"].map String.toList) 2 15 ∧ 1 ≤ 15 ∧ 15 ≤ 200 := by
  refine ⟨⟨⟨by decide, ?_, ?_, ?_⟩, by omega, by decide, by omega, ?_⟩, by omega, by omega⟩ <;> rw [arg_iff]
  exacts [⟨2, by decide +kernel, by decide⟩, ⟨2, by decide +kernel, by decide⟩, ⟨0, by decide +kernel, by decide⟩, ⟨15, by decide +kernel, by decide⟩]

end NS.Props.FemMain

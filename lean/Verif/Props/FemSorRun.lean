/-
Property C114 (the program): `/repo/examples/poisson/fem.cpp` with solver 0 (`sor`, weight 1.2, at most 1024 sweeps) on the generated grid.
-/
import Verif.Props.FemSame
import Verif.Props.FemCgRun
import Verif.Props.FdmRate

set_option linter.unusedSectionVars false
set_option linter.unusedSimpArgs false

namespace NS.Props.FemMain
open NS NS.World NS.FemMain NS.Fem Matrix NS.Props.Mesh NS.Props.Shape NS.Props.Fem NS.HyperCube NS.Props.HyperCube Real
open NS.Props.LU (IsMat IsVec isVec_iff)
open NS.Iterative (fl)
open NS.Props.Fdm (val2 Solves)

theorem fl_inj {n : Nat} {u v : Fin n → ℝ} (h : fl u = fl v) : u = v := by
  unfold fl at h
  have := List.ofFn_injective h
  funext i
  exact Fl.fin.inj (congrFun this i)

/-- the value of a vector at a grid point -/
theorem val2_cells {N : Nat} {h : ℝ} {f : ℝ → ℝ → ℝ} (u : Fin ((N + 1) * (N + 1)) → ℝ) {r c : Nat} (hr : r ≤ N) (hc : c ≤ N) :
    val2 (cells N h f) u c r = u ⟨r * (N + 1) + c, vid_lt hr hc⟩ := by
  unfold val2 NS.Grid.ev
  exact dif_pos (vid_lt (N := N) hr hc)

theorem sine_six {h : ℝ} {r c : Nat} : |sixSum h (0, 0) sineSource r c / 6| ≤ 1 := by
  have key : ∀ v, |sineSource v| ≤ 1 := by
    intro v
    unfold sineSource
    rw [abs_mul]
    exact mul_le_one₀ (abs_sin_le_one _) (abs_nonneg _) (abs_sin_le_one _)
  have e : ∀ a b, -1 ≤ edgeMid h (0, 0) sineSource r c a b ∧ edgeMid h (0, 0) sineSource r c a b ≤ 1 := fun a b => abs_le.1 (key _)
  unfold sixSum
  rw [abs_le]
  have h1 := e 1 0; have h2 := e (-1) 0; have h3 := e 0 1; have h4 := e 0 (-1); have h5 := e 1 1; have h6 := e (-1) (-1)
  constructor <;> linarith [h1.1, h2.1, h3.1, h4.1, h5.1, h6.1, h1.2, h2.2, h3.2, h4.2, h5.2, h6.2]

/-- the program with solver 0: its files, and the finite difference problem with the same result -/
theorem sor_run {env : Env ℝ} (hE : Standard env) (hw : env.weight = 6 / 5) {N : Nat} (hN2 : N ≤ 1000) {argv : List (List Char)} (ha : GridArgs argv 0 N) :
    ∃ (f : Files ℝ) (g : ℝ → ℝ → ℝ) (u : Fin ((N + 1) * (N + 1)) → ℝ) (it : Nat), main env argv = .finished f ∧
      f.data.length = (N + 1) * (N + 1) ∧ f.exact.length = (N + 1) * (N + 1) ∧ f.mesh.length = 2 * N * N ∧
      (∀ r c (hr : r ≤ N) (hc : c ≤ N), f.data[r * (N + 1) + c]? = some ((c : ℝ) / N, (r : ℝ) / N, u ⟨r * (N + 1) + c, vid_lt hr hc⟩) ∧
        f.exact[r * (N + 1) + c]? = some |sin (π * (c / N)) * sin (π * (r / N)) / (2 * π * π) - u ⟨r * (N + 1) + c, vid_lt hr hc⟩|) ∧
      Fdm.solve (M := Sparse ℝ) (cells N (1 / (N : ℝ)) g) (6 / 5) 1024 (1 / 10 ^ 4) = .ok (fl u, it) ∧
      (∀ r c : Nat, 0 < r → r < N → 0 < c → c < N → |g (c * (1 / N)) (r * (1 / N))| ≤ 1 + 7 / 10 ^ 8 * (N : ℝ) ^ 2) ∧
      (∀ z : Fin ((N + 1) * (N + 1)) → ℝ, Solves (cells N (1 / (N : ℝ)) g) z → ∀ r c (hr : r ≤ N) (hc : c ≤ N),
        |z ⟨r * (N + 1) + c, vid_lt hr hc⟩ - sin (π * (c / N)) * sin (π * (r / N)) / (2 * π * π)| ≤
          if Rim N r c then 0 else π ^ 2 / 32 / (N : ℝ) ^ 2 + 8 / 10 ^ 9 * (N : ℝ) ^ 2) ∧
      ∀ r c (hr : r ≤ N) (hc : c ≤ N), Rim N r c → u ⟨r * (N + 1) + c, vid_lt hr hc⟩ = 0 := by
  have hN := ha.2.2.2.1
  have hNp : (0 : ℝ) < N := by exact_mod_cast (by omega : 0 < N)
  have hNle : (N : ℝ) ≤ 1000 := by exact_mod_cast hN2
  have hk0 := kappa_pos
  obtain ⟨w, w1, w2, w3, hb, hd, hc, hel, e1, e2, hp, e3, G⟩ := grid_ready hN (one_ne_zero (α := ℝ)) (0, 0)
  have hD := dofs_in hb hd hc hp.setup (.inl rfl) e3
  have hn : w3.vertices.length = (N + 1) * (N + 1) := by rw [G.vertices, List.length_range]
  have he : (1 / 10 ^ 8 : ℝ) < kappa / 2 := by unfold kappa; norm_num
  obtain ⟨a, b, A, B, s1, s2, s3, s4, -⟩ := C67_system (M := Sparse ℝ) hb hd hc hp (.inl rfl) e3 hel hn (grid_noneDropped (by positivity) G he)
    (grid_anchored G hD.elements) sineSource zeroBoundary
  obtain ⟨g, g1, g2, g3⟩ := same_core hN one_ne_zero hb hd hc hel e1 e2 hp e3 G (by norm_num) he (fun _ => rfl) s1 s2 s3
  obtain ⟨u, it, k1, k2, k3⟩ := g3 (6 / 5) 1024 (1 / 10 ^ 4)
  obtain ⟨c, c1, c2⟩ := isMat_make (T := ℝ) (Sparse ℝ) (show 0 < (N + 1) * (N + 1) by positivity)
  obtain ⟨y, y1, y2⟩ := isVec_mk (T := ℝ) ((N + 1) * (N + 1))
  have hsol : solver env 0 a b ((N + 1) * (N + 1)) = .ok (List.ofFn u) := by
    unfold solver
    rw [s2.2.1, s2.2.2.1, c1]
    simp only [ok_bind]
    rw [if_neg (by omega)]
    simp only [ok_bind]
    rw [cond_printed env.sqrt env.big s2, ok_bind, y1, ok_bind, if_pos trivial, NS.Props.Iter.fl_of_isVec s3, NS.Props.Iter.fl_of_isVec y2, hw, hE.maxIter, hE.tol]
    have k1' : Iterative.sor a (fl B) (fl fun _ => 0) (6 / 5) 1024 (1 / 10 ^ 4) = .ok (fl u, it) := k1
    first | rw [k1', ok_bind] | (rw [show (fl (0 : Fin ((N + 1) * (N + 1)) → ℝ)) = fl fun _ => 0 from rfl, k1', ok_bind])
    exact finite_fl u
  obtain ⟨f, f1, f3⟩ := C102_output (env := env) (grid := true) hE.sqrt hE.showT hb hd hc hp (.inl rfl) e3 hel hn s2 b (x := List.ofFn u) List.length_ofFn
  have hh : handle env 1 0 true w2 = .ok f := by
    unfold handle
    rw [e3, ok_bind, hE.eps, hE.src, hE.bnd, s1, ok_bind, hn, hsol, ok_bind, f1]
  have hval : validate env.veps w2 = .ok () := by
    obtain ⟨v1, v2, q1, q2, q3⟩ := C53_validate hN hN ((1 : ℝ), 1) (0, 0) (show 0 ≤ env.veps by rw [hE.veps]; norm_num)
      (show env.veps < |1 * 1| / (2 * (N * N)) by
        rw [hE.veps, mul_one, abs_one, div_lt_div_iff₀ (by norm_num) (by positivity)]
        nlinarith)
    obtain rfl : w1 = v1 := Except.ok.inj (e1.symm.trans q1)
    obtain rfl : w2 = v2 := Except.ok.inj (e2.symm.trans q2)
    exact q3
  have hmain : main env argv = .finished f := by
    unfold main
    rw [ha.parse]
    simp only [FemMain.load, hE.size, hE.start, e1, ends, e2, hval]
    change ends (handle env 1 0 true w2) .finished = _
    rw [hh]
    rfl
  have hml : f.mesh.length = 2 * N * N := by rw [f3.meshLength, G.elements, List.length_range]; ring
  refine ⟨f, g, u, it, hmain, f3.dataLength, f3.exactLength, hml, fun r c hr hc => ?_, k2, fun r c h1 h2 h3 h4 => ?_, fun z hz r c hr hc' => ?_, fun r c hr hc hrim => ?_⟩
  · obtain ⟨v, q1, q2, -⟩ := G.vertex r hr c hc
    unfold vertexAt at q1
    have hvid : vid N r c = r * (N + 1) + c := rfl
    have hlt : r * (N + 1) + c < (N + 1) * (N + 1) := vid_lt hr hc
    obtain ⟨p, p1⟩ : ∃ p, w3.vertices[r * (N + 1) + c]? = some p := ⟨_, List.getElem?_eq_getElem (by rw [G.vertices, List.length_range]; exact hlt)⟩
    rw [hvid, p1] at q1
    have hd1 := f3.data _ p v p1 q1
    have he1 := f3.exact _ p v p1 q1
    have hx : (List.ofFn u).getD (r * (N + 1) + c) 0 = u ⟨r * (N + 1) + c, hlt⟩ := by
      rw [List.getD_eq_getElem _ _ (by rw [List.length_ofFn]; exact hlt), List.getElem_ofFn]
    rw [q2, hx] at hd1 he1
    have c1 : (1 : ℝ) / N * c = c / N := one_div_mul_eq_div _ _
    have r1 : (1 : ℝ) / N * r = r / N := one_div_mul_eq_div _ _
    refine ⟨?_, ?_⟩
    · rw [hd1]
      simp only [zero_add, c1, r1]
      rfl
    · rw [he1, if_pos rfl, hE.sol]
      congr 3
      show sineSolution (0 + 1 / N * (c : ℝ)) (0 + 1 / N * (r : ℝ)) = _
      rw [zero_add, zero_add, c1, r1]
      rfl
  · have h5 := g1 r c h1 h2 h3 h4
    have h6 := sine_six (h := 1 / N) (r := r) (c := c)
    have h7 : 6 * (1 / 10 ^ 8 : ℝ) / (kappa * (1 / N) ^ 2) ≤ 7 / 10 ^ 8 * (N : ℝ) ^ 2 := by
      rw [div_le_iff₀ (by positivity)]
      have : 7 / 10 ^ 8 * (N : ℝ) ^ 2 * (kappa * (1 / N) ^ 2) = 7 / 10 ^ 8 * kappa := by
        have : (N : ℝ) ≠ 0 := hNp.ne'
        field_simp
      rw [this]
      unfold kappa; norm_num
    rw [abs_le] at h5 h6 ⊢
    constructor <;> linarith [h5.1, h5.2, h6.1, h6.2]
  · have herr := grid_error hN one_pos hb hd hc hel hp e3 G (by norm_num) he s1 s2 s3 sine_data (x := z) (ρ := 0) (fun i => by rw [g2 z hz, sub_self, abs_zero])
      ⟨r * (N + 1) + c, vid_lt hr hc'⟩ r c rfl hr hc'
    have ew : sineSolution (c * (1 / N)) (r * (1 / N)) = sin (π * (c / N)) * sin (π * (r / N)) / (2 * π * π) := by
      unfold sineSolution; rw [mul_one_div, mul_one_div]
    rw [ew] at herr
    refine herr.trans ?_
    split
    · rw [zero_div]
    · have h2 : (0 : ℝ) < (N : ℝ) ^ 2 := by positivity
      have e : (1 : ℝ) ^ 2 / 8 * ((π ^ 2 / 2 + π ^ 2 / 2) / 12 + π ^ 2 / 6) * (1 / N) ^ 2 = π ^ 2 / 32 / (N : ℝ) ^ 2 := by field_simp; ring
      rw [e]
      unfold kappa
      norm_num
      nlinarith
  · refine k3 _ ?_
    unfold RimAt
    show Rim N (vid N r c / (N + 1)) (vid N r c % (N + 1))
    rw [vid_div hc, vid_mod hc]
    exact hrim

theorem exp_fifteen : Real.exp (-15) ≤ 1 / 3000000 := by
  rw [Real.exp_neg, ← one_div]
  refine one_div_le_one_div_of_le (by norm_num) ?_
  have a1 : Real.exp 15 = Real.exp 1 ^ 15 := by rw [← Real.exp_nat_mul]; norm_num
  have a2 : (2.718 : ℝ) ^ 15 ≤ Real.exp 1 ^ 15 := pow_le_pow_left₀ (by norm_num) (by linarith [Real.exp_one_gt_d9]) 15
  rw [a1]
  refine le_trans ?_ a2
  norm_num

/-- **C114**: the program with solver 0 and 2 to 10 cells per side: the solver stops by its own rule before the limit of 1024 sweeps, and every value in
poisson_fem_data.dat differs from the solution `sin(πx) sin(πy) / (2π²)` by at most the discretisation error, the effect of the dropped loads and
`N² / 30000` for the stopping rule; at the boundary the values are exactly 0. -/
theorem C114_fast {env : Env ℝ} (hE : Standard env) (hw : env.weight = 6 / 5) {N : Nat} (hN : 2 ≤ N) (hN2 : N ≤ 10) {argv : List (List Char)} (ha : GridArgs argv 0 N) :
    ∃ f, main env argv = .finished f ∧ f.data.length = (N + 1) * (N + 1) ∧ f.exact.length = (N + 1) * (N + 1) ∧ f.mesh.length = 2 * N * N ∧
      ∀ r ≤ N, ∀ c ≤ N, ∃ z d, f.data[r * (N + 1) + c]? = some ((c : ℝ) / N, (r : ℝ) / N, z) ∧ f.exact[r * (N + 1) + c]? = some d ∧
        d = |sin (π * (c / N)) * sin (π * (r / N)) / (2 * π * π) - z| ∧ (Rim N r c → z = 0) ∧
        (¬ Rim N r c → d ≤ π ^ 2 / 32 / (N : ℝ) ^ 2 + 8 / 10 ^ 9 * (N : ℝ) ^ 2 + (N : ℝ) ^ 2 / (3 * 10 ^ 4)) := by
  have hNp : (0 : ℝ) < N := by exact_mod_cast (by omega : 0 < N)
  have hN2r : (2 : ℝ) ≤ N := by exact_mod_cast hN
  have hNle : (N : ℝ) ≤ 10 := by exact_mod_cast hN2
  have hNsq : (0 : ℝ) < (N : ℝ) ^ 2 := by positivity
  have hNsq2 : (N : ℝ) ^ 2 ≤ 100 := by nlinarith
  obtain ⟨f, g, u, it, f1, f2, f3, f4, f5, f6, f7, f8, f9⟩ := sor_run hE hw (show N ≤ 1000 by omega) ha
  have hh : (cells N (1 / (N : ℝ)) g).h ≠ 0 := by show 1 / (N : ℝ) ≠ 0; positivity
  obtain ⟨_, _, _, _, _, _, _, _, z, hz, -⟩ := Props.Fdm.C71_fdm_poisson (M := Sparse ℝ) (p := cells N (1 / (N : ℝ)) g) (Nat.succ_pos _) (Nat.succ_pos _) hh hh
  obtain ⟨u', it', h1, h2, h3, h4, h5⟩ := Props.Fdm.C108_fdm (M := Sparse ℝ) (p := cells N (1 / (N : ℝ)) g) (X := N) (Y := N) (w := 6 / 5) (F := 1.001) (Λ := 16) (D := 4 * N ^ 2)
    (q := 1 - 3 / 2 / N ^ 2) hN hN rfl rfl hh hh (fun _ _ => rfl) (by norm_num) (by norm_num)
    (fun x y p1 p2 p3 p4 => (f7 y x p3 p4 p1 p2).trans (by norm_num; nlinarith)) hz
    (by show (16 : ℝ) = 8 * (1 / ((N : ℝ) * (1 / N)) ^ 2 + 1 / ((N : ℝ) * (1 / N)) ^ 2); field_simp; norm_num)
    (by show (4 * N ^ 2 : ℝ) = 2 * (1 / (1 / (N : ℝ)) ^ 2 + 1 / (1 / (N : ℝ)) ^ 2); field_simp; norm_num) (by field_simp; ring) 1024 (1 / 10 ^ 4)
  have hpair := Prod.mk.inj (Except.ok.inj (h1.symm.trans f6))
  obtain rfl : u' = u := fl_inj hpair.1
  obtain rfl := hpair.2
  have hit : it' < 1024 := by
    have hq0 : 0 ≤ 1 - 3 / 2 / (N : ℝ) ^ 2 := by
      rw [sub_nonneg, div_le_one hNsq]; nlinarith
    have a1 : (1 - 3 / 2 / (N : ℝ) ^ 2) ^ (10 * N ^ 2) ≤ Real.exp (-15) := by
      have a2 : 1 - 3 / 2 / (N : ℝ) ^ 2 ≤ Real.exp (-(3 / 2 / (N : ℝ) ^ 2)) := Real.one_sub_le_exp_neg _
      refine (pow_le_pow_left₀ hq0 a2 _).trans ?_
      rw [← Real.exp_nat_mul, Real.exp_le_exp]
      push_cast
      apply le_of_eq
      field_simp
      norm_num
    have a2 := a1.trans exp_fifteen
    have := h5 (10 * N ^ 2) (by
      have a6 : (0 : ℝ) ≤ 1.001 ^ 2 / 16 * (N * N) := by positivity
      refine (mul_le_mul_of_nonneg_right a2 a6).trans ?_
      norm_num
      nlinarith)
    have h100 : N ^ 2 ≤ 10 ^ 2 := Nat.pow_le_pow_left hN2 2
    omega
  have hsum := h4 hit
  have hdist : ∀ r c (hr : r ≤ N) (hc : c ≤ N), |u' ⟨r * (N + 1) + c, vid_lt hr hc⟩ - z ⟨r * (N + 1) + c, vid_lt hr hc⟩| ≤ (N : ℝ) ^ 2 / (3 * 10 ^ 4) := by
    intro r c hr hc
    have b1 : (val2 (cells N (1 / (N : ℝ)) g) u' c r - val2 (cells N (1 / (N : ℝ)) g) z c r) ^ 2 ≤
        ∑ y ∈ Finset.range (N + 1), ∑ x ∈ Finset.range (N + 1), (val2 (cells N (1 / (N : ℝ)) g) u' x y - val2 (cells N (1 / (N : ℝ)) g) z x y) ^ 2 :=
      (Finset.single_le_sum (f := fun x => (val2 (cells N (1 / (N : ℝ)) g) u' x r - val2 (cells N (1 / (N : ℝ)) g) z x r) ^ 2) (fun x _ => sq_nonneg _)
        (Finset.mem_range.2 (Nat.lt_succ_of_le hc))).trans
        (Finset.single_le_sum (f := fun y => ∑ x ∈ Finset.range (N + 1), (val2 (cells N (1 / (N : ℝ)) g) u' x y - val2 (cells N (1 / (N : ℝ)) g) z x y) ^ 2)
          (fun y _ => Finset.sum_nonneg fun x _ => sq_nonneg _) (Finset.mem_range.2 (Nat.lt_succ_of_le hr)))
    have b2 := b1.trans hsum
    have b3 : (2 / (6 / 5 : ℝ) + 1) * (4 * (N : ℝ) ^ 2) * (1 / 10 ^ 4) / (2 * 16) = (N : ℝ) ^ 2 / (3 * 10 ^ 4) := by ring
    rw [b3, val2_cells u' hr hc, val2_cells z hr hc] at b2
    exact abs_le_of_sq_le_sq b2 (by positivity)
  refine ⟨f, f1, f2, f3, f4, fun r hr c hc => ⟨_, _, (f5 r c hr hc).1, (f5 r c hr hc).2, rfl, f9 r c hr hc, fun hrim => ?_⟩⟩
  have d1 := hdist r c hr hc
  have d2 := f8 z hz r c hr hc
  rw [if_neg hrim] at d2
  rw [abs_sub_comm]
  have t := abs_add_le (u' ⟨r * (N + 1) + c, vid_lt hr hc⟩ - z ⟨r * (N + 1) + c, vid_lt hr hc⟩)
    (z ⟨r * (N + 1) + c, vid_lt hr hc⟩ - sin (π * (c / N)) * sin (π * (r / N)) / (2 * π * π))
  rw [sub_add_sub_cancel] at t
  exact t.trans ((add_le_add d1 d2).trans (le_of_eq (by ring)))

/-- **C114**: the program with solver 0 and 220 to 380 cells per side ends normally, but its limit of 1024 sweeps is far too small: at some inner grid point the
value it writes is off by more than half of the true solution. -/
theorem C114_slow {env : Env ℝ} (hE : Standard env) (hw : env.weight = 6 / 5) {N : Nat} (hN : 220 ≤ N) (hN2 : N ≤ 380) {argv : List (List Char)} (ha : GridArgs argv 0 N) :
    ∃ f, main env argv = .finished f ∧ ∃ r c z, 0 < r ∧ r < N ∧ 0 < c ∧ c < N ∧ f.data[r * (N + 1) + c]? = some ((c : ℝ) / N, (r : ℝ) / N, z) ∧
      sin (π * (c / N)) * sin (π * (r / N)) / (2 * π * π) / 2 < |sin (π * (c / N)) * sin (π * (r / N)) / (2 * π * π) - z| := by
  have hNr : (220 : ℝ) ≤ N := by exact_mod_cast hN
  have hNle : (N : ℝ) ≤ 380 := by exact_mod_cast hN2
  have hNp : (0 : ℝ) < N := by linarith
  have hNsq : (48400 : ℝ) ≤ (N : ℝ) ^ 2 := by nlinarith
  have hNsq2 : (N : ℝ) ^ 2 ≤ 144400 := by nlinarith
  obtain ⟨f, g, u, it, f1, f2, f3, f4, f5, f6, f7, f8, f9⟩ := sor_run hE hw (show N ≤ 1000 by omega) ha
  have hh : (cells N (1 / (N : ℝ)) g).h ≠ 0 := by show 1 / (N : ℝ) ≠ 0; positivity
  have hr1 : (cells N (1 / (N : ℝ)) g).k ^ 2 / (cells N (1 / (N : ℝ)) g).h ^ 2 = 1 := div_self (pow_ne_zero 2 hh)
  obtain ⟨ρ, r1, r2, r3⟩ := Props.Fdm.exists_root (show 200 ≤ N by omega)
  obtain ⟨_, _, _, _, _, _, _, _, z, hz, -⟩ := Props.Fdm.C71_fdm_poisson (M := Sparse ℝ) (p := cells N (1 / (N : ℝ)) g) (Nat.succ_pos _) (Nat.succ_pos _) hh hh
  have hv1 : 7.44 / (N : ℝ) ^ 2 ≤ 7.44 / 40000 := by gcongr; linarith
  have hρ : 0 < ρ := by
    have : (7.44 : ℝ) / 40000 < 1 := by norm_num
    linarith
  obtain ⟨u', it', h1, h2, h3, h4⟩ := Props.Fdm.C104_decay (M := Sparse ℝ) (p := cells N (1 / (N : ℝ)) g) (X := N) (Y := N) (by omega) (by omega) rfl rfl hh hh (fun _ _ => rfl) hρ.ne'
    (by rw [hr1]; exact r3) hz 1024 (1 / 10 ^ 4)
  have hpair := Prod.mk.inj (Except.ok.inj (h2.symm.trans f6))
  obtain rfl : u' = u := fl_inj hpair.1
  obtain rfl := hpair.2
  rw [hr1] at h3
  refine ⟨f, f1, ?_⟩
  by_contra hcon
  push Not at hcon
  have hex : ∀ x y : ℝ, Props.Fdm.exact x y = sin (π * x) * sin (π * y) / (2 * π * π) := by
    intro x y; unfold Props.Fdm.exact; rw [sq, mul_assoc]
  have hp1 := pi_lt_d2
  have hp0 := pi_pos
  have hv0 : (0 : ℝ) < (N : ℝ) ^ 2 := by linarith
  have hiv : 1 / (N : ℝ) ^ 2 ≤ 1 / 48400 := one_div_le_one_div_of_le (by norm_num) hNsq
  have hpi2 : π ^ 2 / 32 / (N : ℝ) ^ 2 ≤ 7 / 10 ^ 6 := by
    have e : π ^ 2 / 32 / (N : ℝ) ^ 2 = π ^ 2 / 32 * (1 / (N : ℝ) ^ 2) := by ring
    have h9 : π ^ 2 / 32 ≤ 0.3102 := by nlinarith
    rw [e]
    refine (mul_le_mul h9 hiv (by positivity) (by norm_num)).trans ?_
    norm_num
  have hβ0 : (0 : ℝ) ≤ 7 / 10 ^ 6 + 8 / 10 ^ 9 * (N : ℝ) ^ 2 := by positivity
  refine Props.Fdm.slow_core' (N := N) (it := it') (by omega) (l := 1 - 15238 / (N : ℝ) ^ 2) (β := 7 / 10 ^ 6 + 8 / 10 ^ 9 * (N : ℝ) ^ 2) ?_ hβ0 ?_ ?_ r1 r2
    (z := fun x y => val2 (cells N (1 / (N : ℝ)) g) z x y) (u := fun x y => val2 (cells N (1 / (N : ℝ)) g) u' x y) (fun x y hx hy => ?_) (fun x y hx hy => ?_) h3
  · have : 15238 / (N : ℝ) ^ 2 ≤ 15238 / 48400 := by gcongr
    norm_num at this ⊢
    linarith
  · have : (1 - (1 - 15238 / (N : ℝ) ^ 2)) * (N : ℝ) ^ 2 = 15238 := by field_simp; ring
    rw [this]
    have h9 : (it' : ℝ) ≤ 1024 := by exact_mod_cast h1
    norm_num
    linarith
  · have e : 0.05 * ((1 - 15238 / (N : ℝ) ^ 2 - 1 / 2) * (1.599 / 4) - 3 / 2 * (0.019 * 1.081)) - 3 * ((7 / 10 ^ 6 + 8 / 10 ^ 9 * (N : ℝ) ^ 2) * 1.8) =
      (0.05 * (((N : ℝ) ^ 2 / 2 - 15238) * (1.599 / 4) - 3 / 2 * (0.019 * 1.081) * (N : ℝ) ^ 2) - 3 * ((7 / 10 ^ 6 * (N : ℝ) ^ 2 + 8 / 10 ^ 9 * ((N : ℝ) ^ 2) ^ 2) * 1.8)) / (N : ℝ) ^ 2 := by
      field_simp
      ring
    rw [← sub_pos, e]
    refine div_pos ?_ hv0
    generalize (N : ℝ) ^ 2 = n at *
    have hprod : 0 ≤ (n - 48400) * (144400 - n) := mul_nonneg (by linarith) (by linarith)
    norm_num at hprod ⊢
    nlinarith
  · rw [val2_cells z hy.le hx.le, hex]
    refine (f8 z hz y x hy.le hx.le).trans ?_
    split
    · exact hβ0
    · linarith
  · rw [val2_cells u' hy.le hx.le, hex]
    by_cases h0 : 0 < x ∧ 0 < y
    · have := hcon y x _ h0.2 hy h0.1 hx (f5 y x hy.le hx.le).1
      rw [abs_sub_comm]
      linarith
    · have hrim : Rim N y x := by unfold Rim; omega
      rw [f9 y x hy.le hx.le hrim]
      have he : sin (π * ((x : ℝ) / N)) * sin (π * ((y : ℝ) / N)) / (2 * π * π) = 0 := by
        rcases (by omega : x = 0 ∨ y = 0) with h | h <;> rw [h] <;> simp
      rw [he]
      simpa using hβ0

/-- the arguments -/
example : GridArgs (["fem", "0", "1", "0", "10"].map String.toList) 0 10 ∧ GridArgs (["fem", "0", "1", "0", "256"].map String.toList) 0 256 := by
  refine ⟨⟨⟨by decide, ?_, ?_, ?_⟩, by omega, by decide, by omega, ?_⟩, ⟨⟨by decide, ?_, ?_, ?_⟩, by omega, by decide, by omega, ?_⟩⟩ <;> rw [arg_iff]
  exacts [⟨0, by decide +kernel, by decide⟩, ⟨1, by decide +kernel, by decide⟩, ⟨0, by decide +kernel, by decide⟩, ⟨10, by decide +kernel, by decide⟩,
    ⟨0, by decide +kernel, by decide⟩, ⟨1, by decide +kernel, by decide⟩, ⟨0, by decide +kernel, by decide⟩, ⟨256, by decide +kernel, by decide⟩]

/-- with 8 cells per side the bound of `C114_fast` is below a seventh of the maximum 0.0506 of the solution -/
example : π ^ 2 / 32 / ((8 : Nat) : ℝ) ^ 2 + 8 / 10 ^ 9 * ((8 : Nat) : ℝ) ^ 2 + ((8 : Nat) : ℝ) ^ 2 / (3 * 10 ^ 4) ≤ 0.007 := by
  have h1 := pi_lt_d2
  have h2 := pi_pos
  norm_num
  nlinarith
end NS.Props.FemMain

/-
Property C109 (program part): the default solver of the finite element program on the generated grid, and what the program writes for up to 256 cells per side.
-/
import Verif.Props.FemCg
import Mathlib.Analysis.Complex.ExponentialBounds

set_option linter.unusedSectionVars false
set_option linter.unusedSimpArgs false

namespace NS.Props.Fem
open NS NS.World NS.Fem NS.MatOps NS.LawfulMat Matrix NS.Props.Mesh NS.Props.Shape NS.HyperCube NS.Props.HyperCube NS.Props.Iter
open NS.Props.LU (IsMat IsVec isVec_iff)
variable {M T : Type} [Field T] [LinearOrder T] [IsStrictOrderedRing T] [MatOps M T] [LawfulMat M T]

/-- **C109**: the default solver of the program (`pcg` with the Jacobi preconditioner) on the generated grid with `N` by `N` cells and linear elements stops
with a residual below the tolerance within `K` iterations, for every `K` up to the limit with `9 N² |b|² ((5N-7)/(5N+7))^(2K) < tol²`: a number of
iterations proportional to `N`, not to the `(N+1)²` unknowns. -/
theorem C109_grid {N : Nat} (hN : 2 ≤ N) {L : T} (hL : L ≠ 0) (off : T × T) {eps : T} (he : eps < kappa / 2) (src g : List T → T) {jeps : T} (hj : jeps < kappa)
    {maxIter : Nat} (hmax : 0 < maxIter) {tol : T} (ht : tol ≠ 0) :
    ∃ (w1 w2 w3 : World T) (a : M) (b : List T) (A : Matrix (Fin ((N + 1) * (N + 1))) (Fin ((N + 1) * (N + 1))) T) (B : Fin ((N + 1) * (N + 1)) → T),
      generate N N (L, L) off = .ok w1 ∧ w1.prepare 0 = .ok w2 ∧ Shape.prepareMesh 1 w2 = .ok w3 ∧ system eps 1 src g w3 = .ok (a, b) ∧
      IsMat a _ A ∧ IsVec b _ B ∧
      (B ≠ 0 → ∃ x₁ x it, solve (M := M) eps jeps 1 src g maxIter tol w3 = .ok (x₁, it) ∧ IsVec x₁ _ x ∧ it ≤ maxIter ∧
        ∀ K, 0 < K → K ≤ maxIter → 9 * (N : T) ^ 2 * (∑ i, B i ^ 2) * ((5 * N - 7) / (5 * N + 7)) ^ (2 * K) < tol ^ 2 →
          it ≤ K ∧ ∑ i, (B i - (A *ᵥ x) i) ^ 2 < tol ^ 2) := by
  obtain ⟨w1, w2, w3, a, b, A, B, e1, e2, e3, e4, ha, hb, hA, ⟨z, hz, -⟩, h5⟩ := C68_grid (M := M) (show 1 ≤ N by omega) hL off he src g
  have hlen : w3.vertices.length = (N + 1) * (N + 1) := by
    obtain ⟨w₀, v1, v2, v3, -, -, -, -, f1, f2, -, f3, G⟩ := grid_ready (show 1 ≤ N by omega) hL off
    obtain rfl : w1 = v1 := Except.ok.inj (e1.symm.trans f1)
    obtain rfl : w2 = v2 := Except.ok.inj (e2.symm.trans f2)
    obtain rfl : w3 = v3 := Except.ok.inj (e3.symm.trans f3)
    rw [G.vertices, List.length_range]
  refine ⟨w1, w2, w3, a, b, A, B, e1, e2, e3, e4, ha, hb, fun hB => ?_⟩
  obtain ⟨c, c1, c2⟩ := isMat_make (T := T) M (show 0 < (N + 1) * (N + 1) by positivity)
  obtain ⟨y, y1, y2⟩ := isVec_mk (T := T) ((N + 1) * (N + 1))
  have hd := five_diag_bounds (show 1 ≤ N by omega) h5
  rcases Props.CG.C36_jacobi (AbsoluteValue.abs : AbsoluteValue T T) jeps ha c2 with ⟨-, r, j2, -⟩ | ⟨⟨i, hi⟩, -⟩
  swap
  · exfalso
    have h1 := (hd i).1
    have h2 : |A i i| ≤ jeps := hi
    linarith [le_abs_self (A i i)]
  have j4 := Props.CG.C36_jacobi_diagonal (AbsoluteValue.abs : AbsoluteValue T T) ha c2 j2
  have j2' : NS.CG.jacobi (fun x : T => |x|) jeps a c = .ok r := j2
  obtain ⟨x₁, x, it, p1, p2, p3, p4⟩ := five_pcg hN ha h5 hA j4 hb y2 hB hz hmax ht
  refine ⟨x₁, x, it, ?_, p2, p3, fun K k0 k1 k2 => ?_⟩
  · unfold solve
    rw [e4, ok_bind, ha.2.1, ha.2.2.1, c1, ok_bind, j2', ok_bind, hlen, y1, ok_bind, p1]
  · have e : (B ⬝ᵥ B) = ∑ i, B i ^ 2 := by unfold dotProduct; exact Finset.sum_congr rfl fun i _ => by ring
    obtain ⟨q1, q2⟩ := p4 K k0 k1 (by rw [e]; exact k2)
    refine ⟨q1, lt_of_le_of_lt (le_of_eq ?_) q2⟩
    unfold Props.CG.resSqr dotProduct
    exact Finset.sum_congr rfl fun i _ => by rw [Pi.sub_apply]; ring

end NS.Props.Fem

namespace NS.Props.Fem
open NS NS.World NS.Fem NS.MatOps NS.LawfulMat Matrix NS.Props.Mesh NS.Props.Shape NS.HyperCube NS.Props.HyperCube NS.Props.Iter
open NS.Props.LU (IsMat IsVec isVec_iff)
variable {M : Type} [MatOps M ℝ] [LawfulMat M ℝ]

theorem sq_le_of_sum {n : Nat} {v : Fin n → ℝ} {ρ : ℝ} (hρ : 0 ≤ ρ) (h : v ⬝ᵥ v ≤ ρ ^ 2) (i : Fin n) : |v i| ≤ ρ := by
  have h1 : v i ^ 2 ≤ ρ ^ 2 := by
    refine le_trans ?_ h
    unfold dotProduct
    have := Finset.single_le_sum (f := fun j => v j * v j) (fun j _ => mul_self_nonneg _) (Finset.mem_univ i)
    refine le_trans (le_of_eq ?_) this
    ring
  exact abs_le_of_sq_le_sq h1 hρ

theorem grid_error_sum {N : Nat} (hN : 1 ≤ N) {L : ℝ} (hL : 0 < L) {w₀ w1 w2 w3 : World ℝ} (hb : Built w₀) (hd : Distinct w₀)
    (hc : Closed w₀) (hel : w₀.elements ≠ []) (e1 : generate N N (L, L) (0, 0) = .ok w1) (e2 : w1.prepare 0 = .ok w2) (hp : Pipeline w₀ w2)
    (e3 : Shape.prepareMesh 1 w2 = .ok w3) (G : GridReady N (L / N) (0, 0) w₀ w3)
    {eps : ℝ} (h0 : 0 ≤ eps) (he : eps < kappa / 2) {src g : List ℝ → ℝ} {a : M} {b : List ℝ}
    {A : Matrix (Fin ((N + 1) * (N + 1))) (Fin ((N + 1) * (N + 1))) ℝ} {B : Fin ((N + 1) * (N + 1)) → ℝ}
    (hs : system eps 1 src g w3 = .ok (a, b)) (ha : IsMat a _ A) (hB : IsVec b _ B) {mx my m2 : ℝ} {w : ℝ → ℝ → ℝ}
    (P : PoissonData L mx my m2 src g w) {x u : Fin ((N + 1) * (N + 1)) → ℝ} (hu : A *ᵥ u = B) {ρ : ℝ} (hρ : 0 ≤ ρ) (hx : Props.CG.resSqr A B x ≤ ρ ^ 2) :
    NodalWithin N L (L ^ 2 / 8 * ((mx + my) / 12 + m2 / 6) * (L / N) ^ 2 + (N : ℝ) ^ 2 * (6 * eps) / (8 * kappa) + N * ρ / (8 * kappa)) (ρ / kappa) x w := by
  have hk := kappa_pos
  have h5 := (five_of hN hL.ne' e1 e2 e3 he hs ha).1
  have E1 := grid_error hN hL hb hd hc hel hp e3 G h0 he hs ha hB P (x := x) (ρ := ρ) fun i => by
    have := sq_le_of_sum hρ hx i
    rw [Pi.sub_apply, abs_sub_comm] at this
    exact this
  have E2 := grid_error hN hL hb hd hc hel hp e3 G h0 he hs ha hB P (x := u) (ρ := 0) fun i => by rw [hu, sub_self, abs_zero]
  intro i r c hi hr hcN
  have h1 := E1 i r c hi hr hcN
  have h2 := E2 i r c hi hr hcN
  by_cases hrim : Rim N r c
  · rw [if_pos hrim] at h1 ⊢; exact h1
  · rw [if_neg hrim] at h2 ⊢
    rw [zero_add] at h2
    have s := five_sup hN h5 (x - u) hr hcN
    have hin : inside N (x - u) r c = x i - u i := by
      unfold inside
      rw [if_neg hrim, node_eq hr hcN]
      have : (⟨vid N r c, vid_lt hr hcN⟩ : Fin ((N + 1) * (N + 1))) = i := Fin.ext hi.symm
      rw [this]; rfl
    have hres : (A *ᵥ (x - u)) ⬝ᵥ (A *ᵥ (x - u)) = Props.CG.resSqr A B x := by
      have : A *ᵥ (x - u) = - (B - A *ᵥ x) := by rw [mulVec_sub, hu]; abel
      rw [this, neg_dotProduct, dotProduct_neg, neg_neg]; rfl
    rw [hin, hres] at s
    have s2 : (8 * kappa * (x i - u i)) ^ 2 ≤ (N * ρ) ^ 2 := by
      have := mul_le_mul_of_nonneg_left hx (show (0 : ℝ) ≤ (N : ℝ) ^ 2 by positivity)
      nlinarith
    have s3 := abs_le_of_sq_le_sq s2 (by positivity)
    rw [abs_mul, abs_of_pos (by positivity : (0 : ℝ) < 8 * kappa)] at s3
    have s4 : |x i - u i| ≤ N * ρ / (8 * kappa) := by rw [le_div_iff₀ (by positivity)]; linarith
    have t := abs_add_le (x i - u i) (u i - w (c * (L / N)) (r * (L / N)))
    rw [sub_add_sub_cancel] at t
    linarith

/-- **C109**: how the stopping rule of the solver bounds the error at the vertices: a vector whose residual has Euclidean length at most `ρ` is as accurate as
the exact solution of the system up to `N ρ / (8 κ)` inside and `ρ / κ` at the boundary (C88 has `N² ρ / (8 κ)` for residuals whose entries are at most `ρ`). -/
theorem C109_error {N : Nat} (hN : 1 ≤ N) {L : ℝ} (hL : 0 < L) {eps : ℝ} (h0 : 0 ≤ eps) (he : eps < kappa / 2) {src g : List ℝ → ℝ}
    {mx my m2 : ℝ} {w : ℝ → ℝ → ℝ} (P : PoissonData L mx my m2 src g w) :
    ∃ (w1 w2 w3 : World ℝ) (a : M) (b : List ℝ) (A : Matrix (Fin ((N + 1) * (N + 1))) (Fin ((N + 1) * (N + 1))) ℝ) (B : Fin ((N + 1) * (N + 1)) → ℝ),
      generate N N (L, L) (0, 0) = .ok w1 ∧ w1.prepare 0 = .ok w2 ∧ Shape.prepareMesh 1 w2 = .ok w3 ∧ system eps 1 src g w3 = .ok (a, b) ∧
      IsMat a _ A ∧ IsVec b _ B ∧
      ∀ x ρ, 0 ≤ ρ → ∑ i, (B i - (A *ᵥ x) i) ^ 2 ≤ ρ ^ 2 →
        NodalWithin N L (L ^ 2 / 8 * ((mx + my) / 12 + m2 / 6) * (L / N) ^ 2 + (N : ℝ) ^ 2 * (6 * eps) / (8 * kappa) + N * ρ / (8 * kappa)) (ρ / kappa) x w := by
  obtain ⟨w₀, w1, w2, w3, hb, hd, hc, hel, e1, e2, hp, e3, G⟩ := grid_ready hN hL.ne' (0, 0)
  have hNp : (0 : ℝ) < N := by exact_mod_cast (by omega : 0 < N)
  have hh : (0 : ℝ) < L / N := div_pos hL hNp
  have hD := dofs_in hb hd hc hp.setup (.inl rfl) e3
  have hn : w3.vertices.length = (N + 1) * (N + 1) := by rw [G.vertices, List.length_range]
  obtain ⟨a, b, A, B, s1, s2, s3, s4, ⟨u, s5, s6⟩, -⟩ := C67_system (M := M) hb hd hc hp (.inl rfl) e3 hel hn (grid_noneDropped hh.ne' G he) (grid_anchored G hD.elements) src g
  refine ⟨w1, w2, w3, a, b, A, B, e1, e2, e3, s1, s2, s3, fun x ρ hρ hx => ?_⟩
  refine grid_error_sum hN hL hb hd hc hel e1 e2 hp e3 G h0 he s1 s2 s3 P s5 hρ (le_trans (le_of_eq ?_) hx)
  unfold Props.CG.resSqr dotProduct
  exact Finset.sum_congr rfl fun i _ => by rw [Pi.sub_apply]; ring
end NS.Props.Fem

namespace NS.Props.FemMain
open NS NS.World NS.FemMain NS.Fem Matrix NS.Props.Mesh NS.Props.Shape NS.Props.Fem NS.HyperCube NS.Props.HyperCube Real
open NS.Props.LU (IsMat IsVec isVec_iff)

/-- the right-hand side of the program is small -/
theorem sine_rhs_le {N : Nat} (hN : 2 ≤ N) (hN2 : N ≤ 256) {w₀ w2 w3 : World ℝ} (hb : Built w₀) (hd : Distinct w₀)
    (hc : Closed w₀) (hel : w₀.elements ≠ []) (hp : Pipeline w₀ w2)
    (e3 : Shape.prepareMesh 1 w2 = .ok w3) (G : GridReady N (1 / N : ℝ) (0, 0) w₀ w3) {a : Sparse ℝ} {b : List ℝ}
    {A : Matrix (Fin ((N + 1) * (N + 1))) (Fin ((N + 1) * (N + 1))) ℝ} {B : Fin ((N + 1) * (N + 1)) → ℝ}
    (hs : system (1 / 10 ^ 8) 1 sineSource zeroBoundary w3 = .ok (a, b)) (ha : IsMat a _ A) (hB : IsVec b _ B) :
    9 * (N : ℝ) ^ 2 * (B ⬝ᵥ B) ≤ 21 := by
  have hk := kappa_pos
  have hk1 : (kappa : ℝ) ≤ 1 := by unfold kappa; norm_num
  have hN2' : (2 : ℝ) ≤ N := by exact_mod_cast hN
  have hNle : (N : ℝ) ≤ 256 := by exact_mod_cast hN2
  have hNp : (0 : ℝ) < N := by linarith
  have hB1 : ∀ i, |B i| ≤ 1004 / 1000 / (N : ℝ) ^ 2 := by
    intro i
    obtain ⟨i1, i2, i3⟩ := decode i
    obtain ⟨g1, g2⟩ := grid_residual (show 1 ≤ N by omega) (by positivity) hb hd hc hel hp e3 G (by norm_num) (by unfold kappa; norm_num) hs ha hB 0 i1 i2 i i3
    rw [mulVec_zero, Pi.zero_apply, zero_sub] at g1 g2
    by_cases hrim : Rim N ((i : Nat) / (N + 1)) ((i : Nat) % (N + 1))
    · have := g1 hrim
      have h0 : node N (0 : Fin ((N + 1) * (N + 1)) → ℝ) ((i : Nat) / (N + 1)) ((i : Nat) % (N + 1)) = 0 := by rw [node_eq i1 i2]; rfl
      rw [h0, show zeroBoundary _ = 0 from rfl, sub_zero, mul_zero] at this
      rw [neg_eq_zero.1 this, abs_zero]
      positivity
    · obtain ⟨δ, d1, d2⟩ := g2 hrim
      have hz : ∀ r c, withRim N (1 / N : ℝ) (0, 0) zeroBoundary (0 : Fin ((N + 1) * (N + 1)) → ℝ) r c = 0 := by
        intro r c
        unfold withRim
        split
        · rfl
        · unfold Fem.node; split <;> rfl
      have hf : fiveDiff (withRim N (1 / N : ℝ) (0, 0) zeroBoundary (0 : Fin ((N + 1) * (N + 1)) → ℝ)) ((i : Nat) / (N + 1)) ((i : Nat) % (N + 1)) = 0 := by
        unfold fiveDiff
        simp only [hz]; ring
      rw [hf, zero_sub] at d2
      have hsrc : ∀ v, |sineSource v| ≤ 1 := fun v => by
        unfold sineSource
        rw [abs_mul]
        exact mul_le_one₀ (abs_sin_le_one _) (abs_nonneg _) (abs_sin_le_one _)
      have h6 : |sixSum (1 / N : ℝ) (0, 0) sineSource ((i : Nat) / (N + 1)) ((i : Nat) % (N + 1))| ≤ 6 := by
        have hE : ∀ α β, |edgeMid (1 / N : ℝ) (0, 0) sineSource ((i : Nat) / (N + 1)) ((i : Nat) % (N + 1)) α β| ≤ 1 := fun α β => by unfold edgeMid; exact hsrc _
        have k1 := abs_le.1 (hE 1 0)
        have k2 := abs_le.1 (hE (-1) 0)
        have k3 := abs_le.1 (hE 0 1)
        have k4 := abs_le.1 (hE 0 (-1))
        have k5 := abs_le.1 (hE 1 1)
        have k6 := abs_le.1 (hE (-1) (-1))
        unfold sixSum
        rw [abs_le]
        constructor <;> linarith [k1.1, k1.2, k2.1, k2.2, k3.1, k3.2, k4.1, k4.2, k5.1, k5.2, k6.1, k6.2]
      set S := sixSum (1 / N : ℝ) (0, 0) sineSource ((i : Nat) / (N + 1)) ((i : Nat) % (N + 1))
      have e : B i = kappa * ((1 / (N : ℝ)) ^ 2 / 6 * S) - δ := by linarith
      have t1 : |kappa * ((1 / (N : ℝ)) ^ 2 / 6 * S)| ≤ 1 / (N : ℝ) ^ 2 := by
        rw [abs_mul, abs_mul, abs_of_pos hk, abs_of_nonneg (by positivity : (0 : ℝ) ≤ (1 / (N : ℝ)) ^ 2 / 6)]
        have h7 : (1 / (N : ℝ)) ^ 2 / 6 * |S| ≤ (1 / (N : ℝ)) ^ 2 / 6 * 6 := mul_le_mul_of_nonneg_left h6 (by positivity)
        calc kappa * ((1 / (N : ℝ)) ^ 2 / 6 * |S|) ≤ 1 * ((1 / (N : ℝ)) ^ 2 / 6 * 6) := mul_le_mul hk1 h7 (by positivity) (by norm_num)
          _ = 1 / (N : ℝ) ^ 2 := by field_simp
      have t2 : 6 * (1 / 10 ^ 8) ≤ 4 / 1000 / (N : ℝ) ^ 2 := by
        rw [le_div_iff₀ (by positivity)]
        nlinarith
      rw [e]
      refine (abs_sub _ _).trans ((add_le_add t1 (d1.trans t2)).trans (le_of_eq ?_))
      field_simp
      norm_num
  have hsum : B ⬝ᵥ B ≤ ((N : ℝ) + 1) * (N + 1) * (1004 / 1000 / (N : ℝ) ^ 2) ^ 2 := by
    have h1 : B ⬝ᵥ B ≤ ∑ i : Fin ((N + 1) * (N + 1)), (1004 / 1000 / (N : ℝ) ^ 2) ^ 2 := by
      unfold dotProduct
      refine Finset.sum_le_sum fun i _ => ?_
      have := pow_le_pow_left₀ (abs_nonneg _) (hB1 i) 2
      rw [sq_abs] at this
      linarith
    rw [Finset.sum_const, Finset.card_univ, Fintype.card_fin, nsmul_eq_mul] at h1
    push_cast at h1
    exact h1
  have h2 := mul_le_mul_of_nonneg_left hsum (show (0 : ℝ) ≤ 9 * (N : ℝ) ^ 2 by positivity)
  refine h2.trans ?_
  have e : 9 * (N : ℝ) ^ 2 * (((N : ℝ) + 1) * (N + 1) * (1004 / 1000 / (N : ℝ) ^ 2) ^ 2) = 9 * (1004 / 1000) ^ 2 * ((N + 1) * (N + 1)) / (N : ℝ) ^ 2 := by field_simp
  rw [e, div_le_iff₀ (by positivity)]
  nlinarith

theorem rate_256 {N : Nat} (hN : 2 ≤ N) (hN2 : N ≤ 256) : ((5 * (N : ℝ) - 7) / (5 * N + 7)) ^ (2 * 1024) ≤ 2 / 10 ^ 10 := by
  have hN2' : (2 : ℝ) ≤ N := by exact_mod_cast hN
  have hNle : (N : ℝ) ≤ 256 := by exact_mod_cast hN2
  have h1 : (5 * (N : ℝ) - 7) / (5 * N + 7) ≤ 1273 / 1287 := by
    rw [div_le_div_iff₀ (by linarith) (by norm_num)]
    linarith
  have h0 : 0 ≤ (5 * (N : ℝ) - 7) / (5 * N + 7) := div_nonneg (by linarith) (by linarith)
  refine (pow_le_pow_left₀ h0 h1 _).trans ?_
  have e : ((1273 : ℝ) / 1287) ^ (2 * 1024) = (((1273 : ℝ) / 1287) ^ 64) ^ 32 := by rw [← pow_mul]
  have e1 : ((1273 : ℝ) / 1287) ^ 64 ≤ 4967 / 10000 := by norm_num
  rw [e]
  refine (pow_le_pow_left₀ (by positivity) e1 32).trans ?_
  norm_num

/-- **C109**: the program itself with its default solver 2, its limit of 1024 iterations and 2 to 256 cells per side (up to 66049 unknowns): it ends with its
files; poisson_fem_data.dat has one line for each grid point, with its coordinates and a value that differs from the solution
`sin(πx) sin(πy) / (2π²)` by at most the discretisation error, the effect of the dropped entries and the effect of the stopping rule, and
poisson_fem_ExactError.dat has exactly these differences. -/
theorem C109_run {env : Env ℝ} (hE : Standard env) {N : Nat} (hN : 2 ≤ N) (hN2 : N ≤ 256) {argv : List (List Char)} (ha : GridArgs argv 2 N) :
    ∃ f, main env argv = .finished f ∧ f.data.length = (N + 1) * (N + 1) ∧ f.exact.length = (N + 1) * (N + 1) ∧ f.mesh.length = 2 * N * N ∧
      ∀ r ≤ N, ∀ c ≤ N, ∃ z d, f.data[r * (N + 1) + c]? = some ((c : ℝ) / N, (r : ℝ) / N, z) ∧ f.exact[r * (N + 1) + c]? = some d ∧
        d = |sin (π * (c / N)) * sin (π * (r / N)) / (2 * π * π) - z| ∧
        d ≤ if Rim N r c then 2 / 10 ^ 4 else π ^ 2 / 32 / (N : ℝ) ^ 2 + 126 / 10 ^ 7 * N + 8 / 10 ^ 9 * (N : ℝ) ^ 2 := by
  have hNp : (0 : ℝ) < N := by exact_mod_cast (by omega : 0 < N)
  have hNle : (N : ℝ) ≤ 256 := by exact_mod_cast hN2
  have hk0 := kappa_pos
  obtain ⟨w, w1, w2, w3, hb, hd, hc, hel, e1, e2, hp, e3, G⟩ := grid_ready (show 1 ≤ N by omega) (one_ne_zero (α := ℝ)) (0, 0)
  have hD := dofs_in hb hd hc hp.setup (.inl rfl) e3
  have hn : w3.vertices.length = (N + 1) * (N + 1) := by rw [G.vertices, List.length_range]
  have he : (1 / 10 ^ 8 : ℝ) < kappa / 2 := by unfold kappa; norm_num
  obtain ⟨a, b, A, B, s1, s2, s3, s4, ⟨u, s5, -⟩, -⟩ := C67_system (M := Sparse ℝ) hb hd hc hp (.inl rfl) e3 hel hn (grid_noneDropped (by positivity) G he)
    (grid_anchored G hD.elements) sineSource zeroBoundary
  have h5 := (five_of (show 1 ≤ N by omega) one_ne_zero e1 e2 e3 he s1 s2).1
  obtain ⟨v, hv, hv0⟩ := sine_rhs_ne hN (by omega) e1 e2 e3 s1
  have hB : B ≠ 0 := by
    rintro rfl
    obtain ⟨k, hk, rfl⟩ := List.getElem_of_mem hv
    have := (isVec_iff.1 s3).2 ⟨k, s3.1 ▸ hk⟩
    rw [List.getD_eq_getElem _ _ hk] at this
    exact hv0 this
  -- the solver
  obtain ⟨c, c1, c2⟩ := isMat_make (T := ℝ) (Sparse ℝ) (show 0 < (N + 1) * (N + 1) by positivity)
  obtain ⟨y, y1, y2⟩ := isVec_mk (T := ℝ) ((N + 1) * (N + 1))
  obtain ⟨r, j2, j4⟩ : ∃ r, NS.CG.jacobi (fun x : ℝ => |x|) env.jeps a c = .ok r ∧ IsMat r _ (Matrix.diagonal fun i => (A i i)⁻¹) := by
    rcases Props.CG.C36_jacobi (AbsoluteValue.abs : AbsoluteValue ℝ ℝ) env.jeps s2 c2 with ⟨-, r, j2, -⟩ | ⟨⟨i, hi⟩, -⟩
    · exact ⟨r, j2, Props.CG.C36_jacobi_diagonal (AbsoluteValue.abs : AbsoluteValue ℝ ℝ) s2 c2 j2⟩
    · exfalso
      have h1 := (five_diag_bounds (show 1 ≤ N by omega) h5 i).1
      have h2 : |A i i| ≤ env.jeps := hi
      rw [hE.jeps] at h2
      have h3 : (1 / 2 ^ 52 : ℝ) < kappa := by unfold kappa; norm_num
      linarith [le_abs_self (A i i)]
  obtain ⟨x₁, x, it, p1, p2, -, p4⟩ := five_pcg (maxIter := env.maxIter) (tol := env.tol) hN s2 h5 s4 j4 s3 y2 hB s5 (by rw [hE.maxIter]; norm_num) (by rw [hE.tol]; norm_num)
  have hres : Props.CG.resSqr A B x < env.tol ^ 2 := by
    refine (p4 1024 (by norm_num) (by rw [hE.maxIter]) ?_).2
    have h1 := sine_rhs_le hN hN2 hb hd hc hel hp e3 G s1 s2 s3
    have h2 := rate_256 hN hN2
    have h3 : 0 ≤ ((5 * (N : ℝ) - 7) / (5 * N + 7)) ^ (2 * 1024) := by
      have hN2' : (2 : ℝ) ≤ N := by exact_mod_cast hN
      exact pow_nonneg (div_nonneg (by linarith) (by linarith)) _
    have h4 : 9 * (N : ℝ) ^ 2 * (B ⬝ᵥ B) * ((5 * (N : ℝ) - 7) / (5 * N + 7)) ^ (2 * 1024) ≤ 21 * (2 / 10 ^ 10) :=
      (mul_le_mul_of_nonneg_right h1 h3).trans (mul_le_mul_of_nonneg_left h2 (by norm_num))
    rw [hE.tol]
    refine lt_of_le_of_lt h4 ?_
    norm_num
  have hsol : solver env 2 a b ((N + 1) * (N + 1)) = .ok x₁ := by
    unfold solver
    rw [s2.2.1, s2.2.2.1, c1]
    simp only [ok_bind]
    rw [if_pos trivial, j2, ok_bind, cond_printed env.sqrt env.big s2, ok_bind, y1, ok_bind, if_neg (by omega), if_neg (by omega), p1]
    rfl
  obtain ⟨f, f1, f3⟩ := C102_output (env := env) (grid := true) hE.sqrt hE.showT hb hd hc hp (.inl rfl) e3 hel hn s2 b (x := x₁) p2.1
  have hh : handle env 1 2 true w2 = .ok f := by
    unfold handle
    rw [e3, ok_bind, hE.eps, hE.src, hE.bnd, s1, ok_bind, hn, hsol, ok_bind, f1]
  have hval : validate env.veps w2 = .ok () := by
    obtain ⟨v1, v2, g1, g2, g3⟩ := C53_validate (show 1 ≤ N by omega) (show 1 ≤ N by omega) ((1 : ℝ), 1) (0, 0) (show 0 ≤ env.veps by rw [hE.veps]; norm_num)
      (show env.veps < |1 * 1| / (2 * (N * N)) by
        rw [hE.veps, mul_one, abs_one, div_lt_div_iff₀ (by norm_num) (by positivity)]
        nlinarith)
    obtain rfl : w1 = v1 := Except.ok.inj (e1.symm.trans g1)
    obtain rfl : w2 = v2 := Except.ok.inj (e2.symm.trans g2)
    exact g3
  have hmain : main env argv = .finished f := by
    unfold main
    rw [ha.parse]
    simp only [FemMain.load, hE.size, hE.start, e1, ends, e2, hval]
    change ends (handle env 1 2 true w2) .finished = _
    rw [hh]
    rfl
  have herr := grid_error_sum (show 1 ≤ N by omega) one_pos hb hd hc hel e1 e2 hp e3 G (by norm_num) he s1 s2 s3 sine_data s5 (x := x) (ρ := 1 / 10 ^ 4) (by norm_num)
    (by rw [hE.tol] at hres; exact hres.le)
  have hml : f.mesh.length = 2 * N * N := by rw [f3.meshLength, G.elements, List.length_range]; ring
  refine ⟨f, hmain, f3.dataLength, f3.exactLength, hml, fun r hr c hc => ?_⟩
  obtain ⟨v, q1, q2, -⟩ := G.vertex r hr c hc
  unfold vertexAt at q1
  have hvid : vid N r c = r * (N + 1) + c := rfl
  have hlt : r * (N + 1) + c < (N + 1) * (N + 1) := vid_lt hr hc
  obtain ⟨p, p1⟩ : ∃ p, w3.vertices[r * (N + 1) + c]? = some p := ⟨_, List.getElem?_eq_getElem (by rw [G.vertices, List.length_range]; exact hlt)⟩
  rw [hvid, p1] at q1
  have hd1 := f3.data _ p v p1 q1
  have he1 := f3.exact _ p v p1 q1
  have hx := (isVec_iff.1 p2).2 ⟨r * (N + 1) + c, hlt⟩
  rw [q2] at hd1 he1
  have c1 : (1 : ℝ) / N * c = c / N := one_div_mul_eq_div _ _
  have r1 : (1 : ℝ) / N * r = r / N := one_div_mul_eq_div _ _
  refine ⟨x₁.getD (r * (N + 1) + c) 0, _, ?_, he1, ?_, ?_⟩
  · rw [hd1]
    simp only [zero_add, c1, r1]
    rfl
  · rw [if_pos rfl, hE.sol]
    congr 2
    show sineSolution (0 + 1 / N * (c : ℝ)) (0 + 1 / N * (r : ℝ)) = _
    rw [zero_add, zero_add, c1, r1]
    rfl
  · have := herr ⟨r * (N + 1) + c, hlt⟩ r c rfl hr hc
    rw [if_pos rfl, hE.sol]
    have ee : sineSol [0 + 1 / N * (c : ℝ), 0 + 1 / N * (r : ℝ)] = sineSolution (c * (1 / N)) (r * (1 / N)) := by
      show sineSolution (0 + 1 / N * (c : ℝ)) (0 + 1 / N * (r : ℝ)) = _
      rw [zero_add, zero_add, mul_comm (c : ℝ), mul_comm (r : ℝ)]
    rw [abs_sub_comm]
    rw [show x₁.getD (r * (N + 1) + c) 0 = x ⟨r * (N + 1) + c, hlt⟩ from hx]
    refine le_trans (le_of_eq (congrArg (fun z => |x ⟨r * (N + 1) + c, hlt⟩ - z|) ee)) (this.trans ?_)
    split
    · unfold kappa; norm_num
    · have h2 : (0 : ℝ) < (N : ℝ) ^ 2 := by positivity
      have e : (1 : ℝ) ^ 2 / 8 * ((π ^ 2 / 2 + π ^ 2 / 2) / 12 + π ^ 2 / 6) * (1 / N) ^ 2 = π ^ 2 / 32 / (N : ℝ) ^ 2 := by field_simp; ring
      rw [e]
      unfold kappa
      norm_num
      nlinarith

/-- the arguments for the largest grid -/
example : GridArgs (["fem", "2", "1", "0", "256"].map String.toList) 2 256 := by
  refine ⟨⟨by decide, ?_, ?_, ?_⟩, by omega, by decide, by omega, ?_⟩ <;> rw [arg_iff]
  exacts [⟨2, by decide +kernel, by decide⟩, ⟨1, by decide +kernel, by decide⟩, ⟨0, by decide +kernel, by decide⟩, ⟨256, by decide +kernel, by decide⟩]
end NS.Props.FemMain

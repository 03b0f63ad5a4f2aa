/-
Property C109 (general part): how many iterations of `pcg` are enough.
-/
import Verif.CGRate
import Verif.Props.CG

set_option linter.unusedSectionVars false
set_option linter.unusedSimpArgs false

namespace NS.Props.CG
open NS NS.MatOps NS.LawfulMat NS.Props.LU NS.CG Matrix
variable {M T : Type} [Field T] [LinearOrder T] [IsStrictOrderedRing T] [MatOps M T] [LawfulMat M T] {n : Nat}
  {a c : M} {A C D : Matrix (Fin n) (Fin n) T} {b₀ x₀ : List T} {b x0 : Fin n → T}

/-- the Cauchy-Schwarz inequality for the form of a symmetric positive definite matrix -/
theorem cauchy (hA : SPD A) (u v : Fin n → T) : (u ⬝ᵥ A *ᵥ v) ^ 2 ≤ (u ⬝ᵥ A *ᵥ u) * (v ⬝ᵥ A *ᵥ v) := by
  have key : ∀ t : T, 0 ≤ u ⬝ᵥ A *ᵥ u - 2 * t * (u ⬝ᵥ A *ᵥ v) + t ^ 2 * (v ⬝ᵥ A *ᵥ v) := by
    intro t
    have h := hA.nonneg (u - t • v)
    have hs := hA.symm v u
    rw [mulVec_sub, mulVec_smul, sub_dotProduct, dotProduct_sub, dotProduct_sub, smul_dotProduct, smul_dotProduct, dotProduct_smul, dotProduct_smul, hs] at h
    simp only [smul_eq_mul] at h
    linarith
  by_cases hv : v = 0
  · rw [hv]; simp
  have hp := hA.2 v hv
  have := key ((u ⬝ᵥ A *ᵥ v) / (v ⬝ᵥ A *ᵥ v))
  have e : u ⬝ᵥ A *ᵥ u - 2 * ((u ⬝ᵥ A *ᵥ v) / (v ⬝ᵥ A *ᵥ v)) * (u ⬝ᵥ A *ᵥ v) + ((u ⬝ᵥ A *ᵥ v) / (v ⬝ᵥ A *ᵥ v)) ^ 2 * (v ⬝ᵥ A *ᵥ v) =
      u ⬝ᵥ A *ᵥ u - (u ⬝ᵥ A *ᵥ v) ^ 2 / (v ⬝ᵥ A *ᵥ v) := by field_simp; ring
  rw [e, sub_nonneg, div_le_iff₀ hp] at this
  exact this

/-- bounds of `A` by the inverse of the preconditioner as bounds of the preconditioned matrix -/
theorem prec_bounds (hA : SPD A) (hC : SPD C) (hCD : C * D = 1) {al be : T} (hal : 0 < al) (hlo : ∀ v, al * (v ⬝ᵥ D *ᵥ v) ≤ v ⬝ᵥ A *ᵥ v)
    (hhi : ∀ v, v ⬝ᵥ A *ᵥ v ≤ be * (v ⬝ᵥ D *ᵥ v)) (v : Fin n → T) :
    al * (v ⬝ᵥ A *ᵥ v) ≤ (A *ᵥ v) ⬝ᵥ C *ᵥ (A *ᵥ v) ∧ (A *ᵥ v) ⬝ᵥ C *ᵥ (A *ᵥ v) ≤ be * (v ⬝ᵥ A *ᵥ v) := by
  have hDC : D * C = 1 := mul_eq_one_comm.1 hCD
  have cd : ∀ u, C *ᵥ (D *ᵥ u) = u := fun u => by rw [mulVec_mulVec, hCD, one_mulVec]
  have dc : ∀ u, D *ᵥ (C *ᵥ u) = u := fun u => by rw [mulVec_mulVec, hDC, one_mulVec]
  by_cases hv : v = 0
  · rw [hv]; simp
  have hp := hA.2 v hv
  have hav : A *ᵥ v ≠ 0 := fun h => by rw [h, dotProduct_zero] at hp; exact lt_irrefl _ hp
  have hq := hC.2 _ hav
  constructor
  · have h1 := cauchy hC (A *ᵥ v) (D *ᵥ v)
    rw [cd, dotProduct_comm (A *ᵥ v) v, dotProduct_comm (D *ᵥ v) v] at h1
    have h2 := mul_le_mul_of_nonneg_left (hlo v) hq.le
    have h3 : (v ⬝ᵥ A *ᵥ v) * (al * (v ⬝ᵥ A *ᵥ v)) ≤ (v ⬝ᵥ A *ᵥ v) * ((A *ᵥ v) ⬝ᵥ C *ᵥ (A *ᵥ v)) := by
      have := mul_le_mul_of_nonneg_left h1 hal.le
      linarith
    exact le_of_mul_le_mul_left h3 hp
  · have h1 := cauchy hA (C *ᵥ (A *ᵥ v)) v
    have h2 := hhi (C *ᵥ (A *ᵥ v))
    rw [dc, dotProduct_comm (C *ᵥ (A *ᵥ v)) (A *ᵥ v)] at h2
    rw [dotProduct_comm (C *ᵥ (A *ᵥ v)) (A *ᵥ v)] at h1
    have h3 := mul_le_mul_of_nonneg_right h2 hp.le
    have h4 : ((A *ᵥ v) ⬝ᵥ C *ᵥ (A *ᵥ v)) * ((A *ᵥ v) ⬝ᵥ C *ᵥ (A *ᵥ v)) ≤ ((A *ᵥ v) ⬝ᵥ C *ᵥ (A *ᵥ v)) * (be * (v ⬝ᵥ A *ᵥ v)) := by linarith
    exact le_of_mul_le_mul_left h4 hq

/-- **C109**: `pcg` for symmetric positive definite `A` and `C`, where `A` lies between `al` times and `al s²` times the inverse `D` of the preconditioner
(condition number at most `s²`): after `it` iterations the squared error in the energy norm is at most `4 ((s-1)/(s+1))^(2 it)` times the initial one, and
the solver stops with a residual below the tolerance within `K` iterations, for every `K` up to the limit for which that bound (in terms of the residual) is
below the tolerance. -/
theorem C109_pcg_rate (ha : IsMat a n A) (hc : IsMat c n C) (hb : IsVec b₀ n b) (hx : IsVec x₀ n x0) (hA : SPD A) (hC : SPD C) (hCD : C * D = 1)
    {al s Δ : T} (hal : 0 < al) (hs : 1 < s) (hlo : ∀ v, al * (v ⬝ᵥ D *ᵥ v) ≤ v ⬝ᵥ A *ᵥ v) (hhi : ∀ v, v ⬝ᵥ A *ᵥ v ≤ al * s ^ 2 * (v ⬝ᵥ D *ᵥ v))
    (hΔ0 : 0 ≤ Δ) (hΔ : ∀ v, v ⬝ᵥ v ≤ Δ * (v ⬝ᵥ C *ᵥ v)) {z : Fin n → T} (hz : A *ᵥ z = b) (h0 : A *ᵥ x0 ≠ b)
    {maxIter : Nat} (hmax : 0 < maxIter) {eps : T} (heps : eps ≠ 0) :
    ∃ x₁ x it, pcg a b₀ c x₀ maxIter eps = .ok (x₁, it) ∧ IsVec x₁ n x ∧ 1 ≤ it ∧ it ≤ maxIter ∧ it ≤ n ∧
      (x - z) ⬝ᵥ A *ᵥ (x - z) ≤ 4 * ((s - 1) / (s + 1)) ^ (2 * it) * ((x0 - z) ⬝ᵥ A *ᵥ (x0 - z)) ∧
      ∀ K, 0 < K → K ≤ maxIter → Δ * (al * s ^ 2) * (4 * ((s - 1) / (s + 1)) ^ (2 * K) * ((x0 - z) ⬝ᵥ A *ᵥ (x0 - z))) < eps ^ 2 →
        it ≤ K ∧ resSqr A b x < eps ^ 2 := by
  have hB := prec_bounds hA hC hCD hal hlo hhi
  obtain ⟨st, e, h1, h2, h3, h4⟩ := pcg_init ha hc hb hx maxIter eps
  have he : 0 < eps * eps := mul_self_pos.2 heps
  obtain ⟨m, hm, hzm, hnz⟩ := pseq_terminates (b := b) (x0 := x0) hA hC
  have hr0 : (pseq A C b x0 0).r ≠ 0 := fun h => h0 (sub_eq_zero.1 h).symm
  obtain ⟨x₁, k', f1, f2, f3, f4, f5, f6⟩ := pcgLoop_spd (b := b) (x0 := x0) ha hc hA hC he maxIter 0 st hmax
    ⟨h1 ▸ hx, h2, h3⟩ h4 (fun j hj => by obtain rfl : j = 0 := by omega
                                         exact hr0)
  have hm0 : 0 < m := Nat.pos_of_ne_zero (fun h => hr0 (h ▸ hzm))
  have hk : k' < m := by
    by_contra h
    have := f5 m hm0 (by omega)
    rw [hzm, dotProduct_zero] at this
    exact absurd he (not_lt.2 this)
  have rate : ∀ k, k ≤ m → ((pseq A C b x0 k).x - z) ⬝ᵥ A *ᵥ ((pseq A C b x0 k).x - z) ≤ 4 * ((s - 1) / (s + 1)) ^ (2 * k) * ((x0 - z) ⬝ᵥ A *ᵥ (x0 - z)) :=
    fun k hkm => pseq_rate hA hC hal hs (fun v => (hB v).1) (fun v => (hB v).2) hz fun j hj => hnz j (by omega)
  have small : ∀ k, k ≤ m → Δ * (al * s ^ 2) * (4 * ((s - 1) / (s + 1)) ^ (2 * k) * ((x0 - z) ⬝ᵥ A *ᵥ (x0 - z))) < eps ^ 2 →
      (pseq A C b x0 k).r ⬝ᵥ (pseq A C b x0 k).r < eps * eps := by
    intro k hkm hlt
    have hres : (pseq A C b x0 k).r = - (A *ᵥ ((pseq A C b x0 k).x - z)) := by rw [mulVec_sub, hz, pseq_residual]; abel
    have g1 := hΔ (pseq A C b x0 k).r
    have g2 := (hB ((pseq A C b x0 k).x - z)).2
    have g3 : (pseq A C b x0 k).r ⬝ᵥ C *ᵥ (pseq A C b x0 k).r = (A *ᵥ ((pseq A C b x0 k).x - z)) ⬝ᵥ C *ᵥ (A *ᵥ ((pseq A C b x0 k).x - z)) := by
      rw [hres, mulVec_neg, neg_dotProduct, dotProduct_neg, neg_neg]
    have hbe : 0 ≤ al * s ^ 2 := by positivity
    have g4 := g2.trans (mul_le_mul_of_nonneg_left (rate k hkm) hbe)
    rw [← g3] at g4
    have g5 := g1.trans (mul_le_mul_of_nonneg_left g4 hΔ0)
    rw [pow_two eps] at hlt
    refine lt_of_le_of_lt g5 (lt_of_le_of_lt (le_of_eq ?_) hlt)
    ring
  refine ⟨x₁, _, k' + 1, by rw [e, f1]; rfl, f2, by omega, by omega, by omega, rate (k' + 1) (by omega), fun K hK0 hK hlt => ?_⟩
  have hle : k' + 1 ≤ K := by
    by_contra h
    have g := f5 K (by omega) (by omega)
    exact absurd (small K (by omega) hlt) (not_lt.2 g)
  refine ⟨hle, ?_⟩
  rw [pow_two, resSqr, ← pseq_residual]
  rcases f6 with f6 | f6
  · exact f6
  · have : k' + 1 = K := by omega
    rw [this]
    exact small K (by omega) hlt

/-- the hypotheses for the matrix (2 -1; -1 2) with its Jacobi preconditioner and the condition number 4 -/
example : SPD (!![2, -1; -1, 2] : Matrix (Fin 2) (Fin 2) ℚ) ∧ SPD (!![1/2, 0; 0, 1/2] : Matrix (Fin 2) (Fin 2) ℚ) ∧
    (!![1/2, 0; 0, 1/2] : Matrix (Fin 2) (Fin 2) ℚ) * !![2, 0; 0, 2] = 1 ∧
    (∀ v : Fin 2 → ℚ, 1 / 2 * (v ⬝ᵥ !![2, 0; 0, 2] *ᵥ v) ≤ v ⬝ᵥ !![2, -1; -1, 2] *ᵥ v) ∧
    (∀ v : Fin 2 → ℚ, v ⬝ᵥ !![2, -1; -1, 2] *ᵥ v ≤ 1 / 2 * 2 ^ 2 * (v ⬝ᵥ !![2, 0; 0, 2] *ᵥ v)) ∧
    (∀ v : Fin 2 → ℚ, v ⬝ᵥ v ≤ 2 * (v ⬝ᵥ !![1/2, 0; 0, 1/2] *ᵥ v)) := by
  have pos : ∀ v : Fin 2 → ℚ, v ≠ 0 → 0 < v 0 ^ 2 + v 1 ^ 2 := by
    intro v hv
    by_contra h
    have h0 : v 0 = 0 := by nlinarith [sq_nonneg (v 0), sq_nonneg (v 1)]
    have h1 : v 1 = 0 := by nlinarith [sq_nonneg (v 0), sq_nonneg (v 1)]
    exact hv (by funext i; fin_cases i <;> assumption)
  refine ⟨⟨by decide +kernel, fun v hv => ?_⟩, ⟨by decide +kernel, fun v hv => ?_⟩, by decide +kernel, fun v => ?_, fun v => ?_, fun v => ?_⟩
  · have := pos v hv
    simp [dotProduct, Matrix.mulVec, Fin.sum_univ_two]; nlinarith [sq_nonneg (v 0 - v 1)]
  · have := pos v hv
    simp [dotProduct, Matrix.mulVec, Fin.sum_univ_two]; nlinarith
  all_goals
    simp [dotProduct, Matrix.mulVec, Fin.sum_univ_two]
    nlinarith [sq_nonneg (v 0 - v 1), sq_nonneg (v 0 + v 1), sq_nonneg (v 0), sq_nonneg (v 1)]
end NS.Props.CG

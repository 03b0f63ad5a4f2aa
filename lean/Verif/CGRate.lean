/-
How fast the preconditioned conjugate gradient recursion converges: the iterate is the best one in the span of the search directions, and the Chebyshev
polynomials give the bound with the square root of the condition number. Over any linearly ordered field.
-/
import Verif.CGTheory
import Mathlib.Tactic.LinearCombination

set_option linter.unusedSectionVars false
set_option linter.unusedSimpArgs false

namespace NS
namespace CG
open Matrix
variable {n : Nat} {T : Type} [Field T] [LinearOrder T] [IsStrictOrderedRing T] {A C : Matrix (Fin n) (Fin n) T} {b x0 : Fin n → T}

theorem SPD.nonneg (h : SPD A) (v : Fin n → T) : 0 ≤ v ⬝ᵥ A *ᵥ v := by
  by_cases hv : v = 0
  · rw [hv, zero_dotProduct]
  · exact (h.2 v hv).le

/-- the span of the first `k` search directions -/
def dirs (A C : Matrix (Fin n) (Fin n) T) (b x0 : Fin n → T) (k : Nat) : Submodule T (Fin n → T) :=
  Submodule.span T (Set.range fun i : Fin k => (pseq A C b x0 i).p)

theorem dirs_mem {i k : Nat} (h : i < k) : (pseq A C b x0 i).p ∈ dirs A C b x0 k :=
  Submodule.subset_span ⟨⟨i, h⟩, rfl⟩

theorem dirs_mono {i k : Nat} (h : i ≤ k) : dirs A C b x0 i ≤ dirs A C b x0 k := by
  refine Submodule.span_le.2 ?_
  rintro _ ⟨j, rfl⟩
  exact dirs_mem (by omega)

theorem dirs_zero : dirs A C b x0 0 = ⊥ := by
  unfold dirs
  rw [Submodule.span_eq_bot]
  rintro _ ⟨j, -⟩
  exact j.elim0

theorem prec_mem (i : Nat) : C *ᵥ (pseq A C b x0 i).r ∈ dirs A C b x0 (i + 1) := by
  cases i with
  | zero => exact dirs_mem (i := 0) (by omega)
  | succ i =>
    have : C *ᵥ (pseq A C b x0 (i + 1)).r = (pseq A C b x0 (i + 1)).p -
        (((pseq A C b x0 (i + 1)).r ⬝ᵥ C *ᵥ (pseq A C b x0 (i + 1)).r) / ((pseq A C b x0 i).r ⬝ᵥ C *ᵥ (pseq A C b x0 i).r)) • (pseq A C b x0 i).p := by
      rw [eq_sub_iff_add_eq]; rfl
    rw [this]
    exact Submodule.sub_mem _ (dirs_mem (by omega)) (Submodule.smul_mem _ _ (dirs_mem (by omega)))

/-- `C A` maps the span of `k` directions to the span of `k + 1` directions -/
theorem CA_mem (hA : SPD A) (hC : SPD C) {k : Nat} (hr : ∀ j, j < k → (pseq A C b x0 j).r ≠ 0) {v : Fin n → T} (hv : v ∈ dirs A C b x0 k) :
    C *ᵥ (A *ᵥ v) ∈ dirs A C b x0 (k + 1) := by
  have I := cj (b := b) (x0 := x0) hA hC k hr
  induction hv using Submodule.span_induction with
  | zero => rw [mulVec_zero, mulVec_zero]; exact Submodule.zero_mem _
  | add u v _ _ h1 h2 => rw [mulVec_add, mulVec_add]; exact Submodule.add_mem _ h1 h2
  | smul c u _ h => rw [mulVec_smul, mulVec_smul]; exact Submodule.smul_mem _ _ h
  | mem x hx =>
    obtain ⟨⟨i, hi⟩, rfl⟩ := hx
    show C *ᵥ (A *ᵥ (pseq A C b x0 i).p) ∈ _
    have hrz := hC.ne (hr i hi)
    have hp : (pseq A C b x0 i).p ≠ 0 := by
      intro h0
      have := I.prr i (by omega)
      rw [h0, dotProduct_zero] at this
      exact hrz this.symm
    have hq : A *ᵥ (pseq A C b x0 i).p ⬝ᵥ (pseq A C b x0 i).p ≠ 0 := by rw [dotProduct_comm]; exact hA.ne hp
    have er : (pseq A C b x0 (i + 1)).r = (pseq A C b x0 i).r -
        (((pseq A C b x0 i).r ⬝ᵥ C *ᵥ (pseq A C b x0 i).r) / (A *ᵥ (pseq A C b x0 i).p ⬝ᵥ (pseq A C b x0 i).p)) • (A *ᵥ (pseq A C b x0 i).p) := rfl
    have hal := div_ne_zero hrz hq
    have : A *ᵥ (pseq A C b x0 i).p = (((pseq A C b x0 i).r ⬝ᵥ C *ᵥ (pseq A C b x0 i).r) / (A *ᵥ (pseq A C b x0 i).p ⬝ᵥ (pseq A C b x0 i).p))⁻¹ •
        ((pseq A C b x0 i).r - (pseq A C b x0 (i + 1)).r) := by
      rw [er, sub_sub_cancel, smul_smul, inv_mul_cancel₀ hal, one_smul]
    rw [this, mulVec_smul, mulVec_sub]
    exact Submodule.smul_mem _ _ (Submodule.sub_mem _ (dirs_mono (by omega) (prec_mem i)) (dirs_mono (by omega) (prec_mem (i + 1))))

theorem iter_mem (k : Nat) : (pseq A C b x0 k).x - x0 ∈ dirs A C b x0 k := by
  induction k with
  | zero =>
    have : (pseq A C b x0 0).x - x0 = 0 := sub_self _
    rw [this]; exact Submodule.zero_mem _
  | succ k ih =>
    have : (pseq A C b x0 (k + 1)).x - x0 = ((pseq A C b x0 k).x - x0) +
        (((pseq A C b x0 k).r ⬝ᵥ C *ᵥ (pseq A C b x0 k).r) / (A *ᵥ (pseq A C b x0 k).p ⬝ᵥ (pseq A C b x0 k).p)) • (pseq A C b x0 k).p := by
      show (pseq A C b x0 k).x + _ • _ - x0 = _
      abel
    rw [this]
    exact Submodule.add_mem _ (dirs_mono (by omega) ih) (Submodule.smul_mem _ _ (dirs_mem (by omega)))

/-- the iterate is the best one: no other vector in `x_k` plus the span of the search directions has a smaller error -/
theorem pseq_best (hA : SPD A) (hC : SPD C) {k : Nat} (hr : ∀ j, j < k → (pseq A C b x0 j).r ≠ 0) {z : Fin n → T} (hz : A *ᵥ z = b)
    {w : Fin n → T} (hw : w ∈ dirs A C b x0 k) :
    ((pseq A C b x0 k).x - z) ⬝ᵥ A *ᵥ ((pseq A C b x0 k).x - z) ≤ ((pseq A C b x0 k).x - z + w) ⬝ᵥ A *ᵥ ((pseq A C b x0 k).x - z + w) := by
  have I := cj (b := b) (x0 := x0) hA hC k hr
  have hres : A *ᵥ ((pseq A C b x0 k).x - z) = - (pseq A C b x0 k).r := by
    rw [mulVec_sub, hz, pseq_residual]; abel
  have h0 : w ⬝ᵥ (pseq A C b x0 k).r = 0 := by
    induction hw using Submodule.span_induction with
    | zero => rw [zero_dotProduct]
    | add u v _ _ h1 h2 => rw [add_dotProduct, h1, h2, add_zero]
    | smul c u _ h => rw [smul_dotProduct, h, smul_zero]
    | mem x hx =>
      obtain ⟨⟨i, hi⟩, rfl⟩ := hx
      rw [dotProduct_comm]
      exact I.pr i k hi (le_refl _)
  have h1 : w ⬝ᵥ A *ᵥ ((pseq A C b x0 k).x - z) = 0 := by rw [hres, dotProduct_neg, h0, neg_zero]
  have h2 := hA.symm ((pseq A C b x0 k).x - z) w
  have h3 := hA.nonneg w
  rw [mulVec_add, dotProduct_add, add_dotProduct, add_dotProduct, h2, h1]
  linarith

/-! ### Chebyshev -/

/-- a self-adjoint map with quadratic form between -1 and 1 does not increase the norm -/
theorem contr {ip : (Fin n → T) → (Fin n → T) → T} {M : (Fin n → T) → (Fin n → T)}
    (hadd : ∀ u v w, ip (u + v) w = ip u w + ip v w) (hcomm : ∀ u v, ip u v = ip v u) (hneg : ∀ u v, ip (-u) v = - ip u v)
    (hM : ∀ u v, M (u + v) = M u + M v) (hMn : ∀ u, M (-u) = -M u) (hsa : ∀ u v, ip (M u) v = ip u (M v))
    (h1 : ∀ v, ip (M v) v ≤ ip v v) (h2 : ∀ v, - ip v v ≤ ip (M v) v) (v : Fin n → T) : ip (M v) (M v) ≤ ip v v := by
  have e1 := h1 (v + M v)
  have e2 := h2 (v + -M v)
  have hadd' : ∀ u v w, ip w (u + v) = ip w u + ip w v := fun u v w => by rw [hcomm, hadd, hcomm u, hcomm v]
  have hneg' : ∀ u v, ip v (-u) = - ip v u := fun u v => by rw [hcomm, hneg, hcomm u]
  simp only [hM, hMn, hadd, hadd', hneg, hneg'] at e1 e2
  have s1 : ip (M (M v)) v = ip (M v) (M v) := hsa _ _
  have s2 : ip v (M v) = ip (M v) v := (hsa _ _).symm
  have s3 : ip (M (M v)) (M v) = ip (M v) (M (M v)) := hcomm _ _
  rw [s1, s2] at e1 e2
  linarith

/-- the vectors `T_k(M) e` and `U_(k-1)(M) e` -/
def cheb (M : (Fin n → T) → (Fin n → T)) (e : Fin n → T) : Nat → (Fin n → T) × (Fin n → T)
  | 0 => (e, 0)
  | k + 1 => (M (cheb M e k).1 - (cheb M e k).2 + M (M (cheb M e k).2), M (cheb M e k).2 + (cheb M e k).1)

/-- the numbers `T_k(m)` and `U_(k-1)(m)` -/
def chebN (m : T) : Nat → T × T
  | 0 => (1, 0)
  | k + 1 => (m * (chebN m k).1 - (chebN m k).2 + m * (m * (chebN m k).2), m * (chebN m k).2 + (chebN m k).1)

theorem chebN_val {z : T} (hz : z ≠ 0) (k : Nat) :
    (chebN ((z + z⁻¹) / 2) k).1 + (z - z⁻¹) / 2 * (chebN ((z + z⁻¹) / 2) k).2 = z ^ k ∧
      (chebN ((z + z⁻¹) / 2) k).1 - (z - z⁻¹) / 2 * (chebN ((z + z⁻¹) / 2) k).2 = z⁻¹ ^ k := by
  induction k with
  | zero => simp [chebN]
  | succ k ih =>
    obtain ⟨h1, h2⟩ := ih
    have hzi : z * z⁻¹ = 1 := mul_inv_cancel₀ hz
    simp only [chebN]
    rw [pow_succ, pow_succ, ← h1, ← h2]
    constructor
    · linear_combination (chebN ((z + z⁻¹) / 2) k).2 * hzi
    · linear_combination (chebN ((z + z⁻¹) / 2) k).2 * hzi

theorem chebN_ge {z : T} (hz : 0 < z) (k : Nat) : z ^ k ≤ 2 * (chebN ((z + z⁻¹) / 2) k).1 := by
  obtain ⟨h1, h2⟩ := chebN_val hz.ne' k
  have : 0 < z⁻¹ ^ k := pow_pos (inv_pos.2 hz) k
  linarith

theorem cheb_norm {ip : (Fin n → T) → (Fin n → T) → T} {M : (Fin n → T) → (Fin n → T)}
    (hadd : ∀ u v w, ip (u + v) w = ip u w + ip v w) (hcomm : ∀ u v, ip u v = ip v u) (hneg : ∀ u v, ip (-u) v = - ip u v)
    (hM : ∀ u v, M (u + v) = M u + M v) (hsa : ∀ u v, ip (M u) v = ip u (M v)) (e : Fin n → T) (k : Nat) :
    ip (cheb M e k).1 (cheb M e k).1 + ip (cheb M e k).2 (cheb M e k).2 - ip (M (cheb M e k).2) (M (cheb M e k).2) = ip e e := by
  have hadd' : ∀ u v w, ip w (u + v) = ip w u + ip w v := fun u v w => by rw [hcomm, hadd, hcomm u, hcomm v]
  have hneg' : ∀ u v, ip v (-u) = - ip v u := fun u v => by rw [hcomm, hneg, hcomm u]
  induction k with
  | zero =>
    have h0 : ∀ v, ip 0 v = 0 := fun v => by have := hadd 0 0 v; simp at this; exact this
    have hM0 : M 0 = 0 := by have := hM 0 0; simp at this; exact this
    simp only [cheb, hM0, h0]
    ring
  | succ k ih =>
    simp only [cheb]
    set t := (cheb M e k).1
    set u := (cheb M e k).2
    simp only [sub_eq_add_neg] at ih ⊢
    simp only [hM, hadd, hadd', hneg, hneg']
    have s1 : ip (M (M u)) u = ip (M u) (M u) := hsa _ _
    have s2 : ip u (M (M u)) = ip (M u) (M u) := (hsa _ _).symm
    have s3 : ip u (M t) = ip (M u) t := (hsa _ _).symm
    have s4 : ip (M t) u = ip (M u) t := by rw [hcomm, s3]
    have s5 : ip t (M u) = ip (M u) t := hcomm _ _
    rw [s1, s2, s3, s4, s5]
    linarith

/-- the convergence of the method: `C A` has, in the energy inner product, a quadratic form between `al` and `al s²` -/
theorem pseq_rate (hA : SPD A) (hC : SPD C) {al s : T} (hal : 0 < al) (hs : 1 < s)
    (hlo : ∀ v, al * (v ⬝ᵥ A *ᵥ v) ≤ (A *ᵥ v) ⬝ᵥ C *ᵥ (A *ᵥ v)) (hhi : ∀ v, (A *ᵥ v) ⬝ᵥ C *ᵥ (A *ᵥ v) ≤ al * s ^ 2 * (v ⬝ᵥ A *ᵥ v))
    {z : Fin n → T} (hz : A *ᵥ z = b) {k : Nat} (hr : ∀ j, j < k → (pseq A C b x0 j).r ≠ 0) :
    ((pseq A C b x0 k).x - z) ⬝ᵥ A *ᵥ ((pseq A C b x0 k).x - z) ≤ 4 * ((s - 1) / (s + 1)) ^ (2 * k) * ((x0 - z) ⬝ᵥ A *ᵥ (x0 - z)) := by
  have hs2 : 0 < s ^ 2 - 1 := by nlinarith
  -- the shifted and scaled map
  set m : T := (s ^ 2 + 1) / (s ^ 2 - 1) with hm
  set c : T := 2 / (al * (s ^ 2 - 1)) with hc
  have hc0 : 0 < c := by positivity
  let ip : (Fin n → T) → (Fin n → T) → T := fun u v => u ⬝ᵥ A *ᵥ v
  let M : (Fin n → T) → (Fin n → T) := fun u => m • u - c • (C *ᵥ (A *ᵥ u))
  have hadd : ∀ u v w, ip (u + v) w = ip u w + ip v w := fun u v w => add_dotProduct _ _ _
  have hcomm : ∀ u v, ip u v = ip v u := hA.symm
  have hneg : ∀ u v, ip (-u) v = - ip u v := fun u v => neg_dotProduct _ _
  have hM : ∀ u v, M (u + v) = M u + M v := fun u v => by
    show m • (u + v) - c • (C *ᵥ (A *ᵥ (u + v))) = (m • u - c • (C *ᵥ (A *ᵥ u))) + (m • v - c • (C *ᵥ (A *ᵥ v)))
    rw [mulVec_add, mulVec_add, smul_add, smul_add]; abel
  have hMs : ∀ (d : T) u, M (d • u) = d • M u := fun d u => by
    show m • (d • u) - c • (C *ᵥ (A *ᵥ (d • u))) = d • (m • u - c • (C *ᵥ (A *ᵥ u)))
    rw [mulVec_smul, mulVec_smul, smul_sub, smul_comm m d, smul_comm c d]
  have hMn : ∀ u, M (-u) = -M u := fun u => by
    have := hMs (-1) u
    rwa [neg_one_smul, neg_one_smul] at this
  have hCA : ∀ u v, (C *ᵥ (A *ᵥ u)) ⬝ᵥ A *ᵥ v = (A *ᵥ u) ⬝ᵥ C *ᵥ (A *ᵥ v) := fun u v => by
    rw [dotProduct_comm, hC.symm]
  have hMip : ∀ u v, ip (M u) v = m * ip u v - c * ((A *ᵥ u) ⬝ᵥ C *ᵥ (A *ᵥ v)) := fun u v => by
    show (m • u - c • (C *ᵥ (A *ᵥ u))) ⬝ᵥ A *ᵥ v = _
    rw [sub_dotProduct, smul_dotProduct, smul_dotProduct, hCA, smul_eq_mul, smul_eq_mul]
  have hsa : ∀ u v, ip (M u) v = ip u (M v) := fun u v => by
    rw [hcomm u (M v), hMip, hMip, hcomm u v, hC.symm (A *ᵥ u)]
  have h1 : ∀ v, ip (M v) v ≤ ip v v := fun v => by
    rw [hMip]
    have e1 := mul_le_mul_of_nonneg_left (hlo v) hc0.le
    have e2 : c * (al * (v ⬝ᵥ A *ᵥ v)) = (m - 1) * ip v v := by
      show _ = (m - 1) * (v ⬝ᵥ A *ᵥ v)
      rw [hc, hm]; field_simp; ring
    linarith
  have h2 : ∀ v, - ip v v ≤ ip (M v) v := fun v => by
    rw [hMip]
    have e1 := mul_le_mul_of_nonneg_left (hhi v) hc0.le
    have e2 : c * (al * s ^ 2 * (v ⬝ᵥ A *ᵥ v)) = (m + 1) * ip v v := by
      show _ = (m + 1) * (v ⬝ᵥ A *ᵥ v)
      rw [hc, hm]; field_simp; ring
    linarith
  set e := x0 - z with he
  -- the Chebyshev vectors stay in the span
  have hCAe : C *ᵥ (A *ᵥ e) ∈ dirs A C b x0 1 := by
    have : C *ᵥ (A *ᵥ e) = - (C *ᵥ (pseq A C b x0 0).r) := by
      rw [pseq_residual]
      show _ = - (C *ᵥ (b - A *ᵥ x0))
      rw [he, mulVec_sub A, hz, ← mulVec_neg]; congr 1; abel
    rw [this]
    exact Submodule.neg_mem _ (prec_mem 0)
  have step : ∀ (d : T) (u : Fin n → T) (j : Nat), j < k → u - d • e ∈ dirs A C b x0 j → M u - (m * d) • e ∈ dirs A C b x0 (j + 1) := by
    intro d u j hj hu
    have : M u - (m * d) • e = m • (u - d • e) - c • (C *ᵥ (A *ᵥ (u - d • e))) - (c * d) • (C *ᵥ (A *ᵥ e)) := by
      show m • u - c • (C *ᵥ (A *ᵥ u)) - (m * d) • e = _
      simp only [mulVec_sub, mulVec_smul, smul_sub, mul_smul]; abel
    rw [this]
    refine Submodule.sub_mem _ (Submodule.sub_mem _ (Submodule.smul_mem _ _ (dirs_mono (by omega) hu)) (Submodule.smul_mem _ _ ?_))
      (Submodule.smul_mem _ _ (dirs_mono (by omega) hCAe))
    exact CA_mem hA hC (fun i hi => hr i (by omega)) hu
  have hmem : ∀ j, j ≤ k → (cheb M e j).1 - (chebN m j).1 • e ∈ dirs A C b x0 j ∧ (cheb M e j).2 - (chebN m j).2 • e ∈ dirs A C b x0 j ∧
      M (cheb M e j).2 - (m * (chebN m j).2) • e ∈ dirs A C b x0 j := by
    intro j
    induction j with
    | zero =>
      intro _
      have hM0 : M 0 = 0 := by have := hM 0 0; simp at this; exact this
      simp only [cheb, chebN, one_smul, zero_smul, sub_self, mul_zero, hM0]
      exact ⟨Submodule.zero_mem _, Submodule.zero_mem _, Submodule.zero_mem _⟩
    | succ j ih =>
      intro hj
      obtain ⟨i1, i2, i3⟩ := ih (by omega)
      have g1 := step _ _ j (by omega) i1
      have g3 := step _ _ j (by omega) i3
      have g4 : M (cheb M e j).2 + (cheb M e j).1 - (m * (chebN m j).2 + (chebN m j).1) • e ∈ dirs A C b x0 j := by
        have := Submodule.add_mem _ i3 i1
        convert this using 1
        rw [add_smul]; abel
      refine ⟨?_, dirs_mono (by omega) g4, step _ _ j (by omega) g4⟩
      have := Submodule.add_mem _ (Submodule.sub_mem _ g1 (dirs_mono (by omega : j ≤ j + 1) i2)) g3
      convert this using 1
      simp only [cheb, chebN]
      rw [add_smul, sub_smul]; abel
  have hq1 : (s - 1) ≠ 0 := by linarith
  have hq2 : (s + 1) ≠ 0 := by linarith
  set w : T := (s + 1) / (s - 1) with hw
  have hw0 : 0 < w := div_pos (by linarith) (by linarith)
  have hmw : m = (w + w⁻¹) / 2 := by
    rw [hm, hw, inv_div]
    have : s ^ 2 - 1 = (s - 1) * (s + 1) := by ring
    rw [this]; field_simp; ring
  have htau : w ^ k ≤ 2 * (chebN m k).1 := by rw [hmw]; exact chebN_ge hw0 k
  have htau0 : 0 < (chebN m k).1 := by have := pow_pos hw0 k; linarith
  set tau := (chebN m k).1 with htau'
  -- the Chebyshev vector against the best one
  set ek := (pseq A C b x0 k).x - z with hek
  have hin : tau⁻¹ • (cheb M e k).1 - ek ∈ dirs A C b x0 k := by
    have h3 := Submodule.smul_mem _ tau⁻¹ (hmem k le_rfl).1
    have h4 := iter_mem (A := A) (C := C) (b := b) (x0 := x0) k
    have : tau⁻¹ • (cheb M e k).1 - ek = tau⁻¹ • ((cheb M e k).1 - tau • e) - ((pseq A C b x0 k).x - x0) := by
      rw [smul_sub, smul_smul, inv_mul_cancel₀ htau0.ne', one_smul, hek, he]; abel
    rw [this]
    exact Submodule.sub_mem _ h3 h4
  have hb := pseq_best hA hC hr hz hin
  rw [← hek, add_sub_cancel] at hb
  have hn := cheb_norm hadd hcomm hneg hM hsa e k
  have hct := contr hadd hcomm hneg hM hMn hsa h1 h2 (cheb M e k).2
  have hb2 : ek ⬝ᵥ A *ᵥ ek ≤ tau⁻¹ ^ 2 * ip (cheb M e k).1 (cheb M e k).1 := by
    refine hb.trans (le_of_eq ?_)
    rw [mulVec_smul, dotProduct_smul, smul_dotProduct, smul_eq_mul, smul_eq_mul]
    show _ = tau⁻¹ ^ 2 * ((cheb M e k).1 ⬝ᵥ A *ᵥ (cheb M e k).1)
    ring
  have hb3 : ip (cheb M e k).1 (cheb M e k).1 ≤ e ⬝ᵥ A *ᵥ e := by
    show _ ≤ ip e e
    linarith
  have hti : tau⁻¹ ≤ 2 * ((s - 1) / (s + 1)) ^ k := by
    have e1 : ((s - 1) / (s + 1)) ^ k = (w ^ k)⁻¹ := by rw [hw, ← inv_pow, inv_div]
    have hwk := pow_pos hw0 k
    rw [e1, inv_le_iff_one_le_mul₀ htau0, ← div_eq_mul_inv, div_mul_eq_mul_div, le_div_iff₀ hwk]
    linarith
  have hti0 : 0 ≤ tau⁻¹ := (inv_pos.2 htau0).le
  have hE0 := hA.nonneg e
  calc ek ⬝ᵥ A *ᵥ ek ≤ tau⁻¹ ^ 2 * (e ⬝ᵥ A *ᵥ e) := hb2.trans (mul_le_mul_of_nonneg_left hb3 (by positivity))
    _ ≤ (2 * ((s - 1) / (s + 1)) ^ k) ^ 2 * (e ⬝ᵥ A *ᵥ e) := mul_le_mul_of_nonneg_right (pow_le_pow_left₀ hti0 hti 2) hE0
    _ = _ := by rw [mul_pow, ← pow_mul, mul_comm k 2]; norm_num
end CG
end NS

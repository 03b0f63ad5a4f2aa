/-
Property theorems C35, C36: conjugate gradient methods and the Jacobi preconditioner.

`SPD A` (`Verif/CGTheory.lean`): `A` is symmetric and `v·A v > 0` for `v ≠ 0`.  `IsMat`, `IsVec` as in
`Verif/Props/LU.lean`.  Results are pairs `(x, it)` of the returned vector and the iteration count written to
`*it_stat`.  `nonfinite` is the outcome "a floating-point division by zero, so NaN or infinity in the result".
-/
import Verif.CGLink

set_option linter.unusedSectionVars false
set_option linter.unusedSimpArgs false

namespace NS.Props.CG
open NS NS.MatOps NS.LawfulMat NS.Props.LU NS.CG Matrix
variable {M T : Type} [Field T] [LinearOrder T] [IsStrictOrderedRing T] [MatOps M T] [LawfulMat M T] {n : Nat}
  {a c : M} {A C : Matrix (Fin n) (Fin n) T} {b₀ x₀ : List T} {b x0 : Fin n → T}

/-- squared Euclidean length of the residual `b - A x` -/
def resSqr (A : Matrix (Fin n) (Fin n) T) (b x : Fin n → T) : T := (b - A *ᵥ x) ⬝ᵥ (b - A *ᵥ x)

theorem pcg_init (ha : IsMat a n A) (hc : IsMat c n C) (hb : IsVec b₀ n b) (hx : IsVec x₀ n x0) (maxIter : Nat) (eps : T) :
    ∃ s : CgSt T, pcg a b₀ c x₀ maxIter eps =
        (pcgLoop a c (eps * eps) maxIter 0 s >>= fun res => .ok (res.1, res.2 + 1)) ∧ s.x = x₀ ∧
      IsVec s.r n (b - A *ᵥ x0) ∧ IsVec s.p n (C *ᵥ (b - A *ᵥ x0)) ∧
      s.rs = (b - A *ᵥ x0) ⬝ᵥ C *ᵥ (b - A *ᵥ x0) := by
  obtain ⟨ax, e1, h1⟩ := hx.mulVec ha
  obtain ⟨r, e2, h2⟩ := hb.sub h1
  obtain ⟨z, e3, h3⟩ := h2.mulVec hc
  refine ⟨⟨x₀, r, z, (b - A *ᵥ x0) ⬝ᵥ C *ᵥ (b - A *ᵥ x0)⟩, ?_, rfl, h2, h3, rfl⟩
  unfold pcg
  rw [throwIf_false _ (by rw [ha.2.1, ha.2.2.1]; simp), throwIf_false _ (by rw [hc.2.1, hc.2.2.1]; simp),
    throwIf_false _ (by rw [ha.2.1, hc.2.1]; simp)]
  simp only [ok_bind, e1, e2, e3, h2.dot h3, pure_eq_ok]

theorem cg_init (ha : IsMat a n A) (hb : IsVec b₀ n b) (hx : IsVec x₀ n x0) (maxIter : Nat) (eps : T) :
    ∃ s : CgSt T, cg a b₀ x₀ maxIter eps =
        (cgLoop a (eps * eps) maxIter 0 s >>= fun res => .ok (res.1, res.2 + 1)) ∧ s.x = x₀ ∧
      IsVec s.r n (b - A *ᵥ x0) ∧ IsVec s.p n (b - A *ᵥ x0) ∧
      s.rs = (b - A *ᵥ x0) ⬝ᵥ (b - A *ᵥ x0) := by
  obtain ⟨ax, e1, h1⟩ := hx.mulVec ha
  obtain ⟨r, e2, h2⟩ := hb.sub h1
  refine ⟨⟨x₀, r, r, (b - A *ᵥ x0) ⬝ᵥ (b - A *ᵥ x0)⟩, ?_, rfl, h2, h2, rfl⟩
  unfold cg
  rw [throwIf_false _ (by rw [ha.2.1, ha.2.2.1]; simp)]
  simp only [ok_bind, e1, e2, Vec.magSqr, h2.dot h2, pure_eq_ok]

theorem spd_one : SPD (1 : Matrix (Fin n) (Fin n) T) := by
  refine ⟨transpose_one, fun v hv => ?_⟩
  rw [one_mulVec]
  refine lt_of_le_of_ne (Finset.sum_nonneg fun i _ => mul_self_nonneg _) fun h => hv ?_
  exact dotProduct_self_eq_zero.1 h.symm

/-- C35 (residual): for arbitrary square `A`, `C`, a normal return of `pcg` within the iteration limit is
justified by the true residual `b - A x` of the returned vector, never by drift of the updated one. -/
theorem C35_pcg_residual (ha : IsMat a n A) (hc : IsMat c n C) (hb : IsVec b₀ n b) (hx : IsVec x₀ n x0)
    {maxIter : Nat} (hmax : 0 < maxIter) (eps : T) :
    pcg a b₀ c x₀ maxIter eps = .error .nonfinite ∨
    ∃ x₁ x it, pcg a b₀ c x₀ maxIter eps = .ok (x₁, it) ∧ IsVec x₁ n x ∧ 1 ≤ it ∧ it ≤ maxIter ∧
      (it < maxIter → resSqr A b x < eps ^ 2) := by
  obtain ⟨s, e, h1, h2, h3, h4⟩ := pcg_init ha hc hb hx maxIter eps
  rcases pcgLoop_residual (b := b) ha hc (e2 := eps * eps) maxIter 0 s _ _ _ hmax ⟨h1 ▸ hx, h2, h3⟩ rfl with
    h | ⟨x₁, xv, k', f1, f2, f3, f4, f5⟩
  · left; rw [e, h]; rfl
  · right
    refine ⟨x₁, xv, k' + 1, by rw [e, f1]; rfl, f2, by omega, by omega, fun hlt => ?_⟩
    rw [pow_two]
    exact f5.resolve_right (by omega)

/-- C35 (residual) for `cg`. -/
theorem C35_cg_residual (ha : IsMat a n A) (hb : IsVec b₀ n b) (hx : IsVec x₀ n x0)
    {maxIter : Nat} (hmax : 0 < maxIter) (eps : T) :
    cg a b₀ x₀ maxIter eps = .error .nonfinite ∨
    ∃ x₁ x it, cg a b₀ x₀ maxIter eps = .ok (x₁, it) ∧ IsVec x₁ n x ∧ 1 ≤ it ∧ it ≤ maxIter ∧
      (it < maxIter → resSqr A b x < eps ^ 2) := by
  obtain ⟨s, e, h1, h2, h3, h4⟩ := cg_init ha hb hx maxIter eps
  rcases cgLoop_residual (b := b) ha (e2 := eps * eps) maxIter 0 s _ _ _ hmax ⟨h1 ▸ hx, h2, h3⟩ rfl with
    h | ⟨x₁, xv, k', f1, f2, f3, f4, f5⟩
  · left; rw [e, h]; rfl
  · right
    refine ⟨x₁, xv, k' + 1, by rw [e, f1]; rfl, f2, by omega, by omega, fun hlt => ?_⟩
    rw [pow_two]
    exact f5.resolve_right (by omega)

/-- C35 for `pcg`, any SPD `A` and SPD preconditioner, any size: from a start vector that is not already the solution
and with a non-zero tolerance, the call returns after at most `n` iterations a vector whose residual is below the
tolerance (if the limit permits `n` iterations). -/
theorem C35_pcg_partial (ha : IsMat a n A) (hc : IsMat c n C) (hb : IsVec b₀ n b) (hx : IsVec x₀ n x0)
    (hA : SPD A) (hC : SPD C) (h0 : A *ᵥ x0 ≠ b) {maxIter : Nat} (hmax : 0 < maxIter) {eps : T} (heps : eps ≠ 0) :
    ∃ x₁ x it, pcg a b₀ c x₀ maxIter eps = .ok (x₁, it) ∧ IsVec x₁ n x ∧ 1 ≤ it ∧ it ≤ maxIter ∧ it ≤ n ∧
      (n ≤ maxIter → resSqr A b x < eps ^ 2) := by
  obtain ⟨s, e, h1, h2, h3, h4⟩ := pcg_init ha hc hb hx maxIter eps
  have he : 0 < eps * eps := mul_self_pos.2 heps
  obtain ⟨m, hm, hz, hnz⟩ := pseq_terminates (b := b) (x0 := x0) hA hC
  have hr0 : (pseq A C b x0 0).r ≠ 0 := fun h => h0 (sub_eq_zero.1 h).symm
  obtain ⟨x₁, k', f1, f2, f3, f4, f5, f6⟩ := pcgLoop_spd (b := b) (x0 := x0) ha hc hA hC he maxIter 0 s hmax
    ⟨h1 ▸ hx, h2, h3⟩ h4 (fun j hj => by obtain rfl : j = 0 := by omega
                                         exact hr0)
  have hm0 : 0 < m := Nat.pos_of_ne_zero (fun h => hr0 (h ▸ hz))
  have hk : k' < m := by
    by_contra h
    have := f5 m hm0 (by omega)
    rw [hz, dotProduct_zero] at this
    exact absurd he (not_lt.2 this)
  refine ⟨x₁, _, k' + 1, by rw [e, f1]; rfl, f2, by omega, by omega, by omega, fun hn => ?_⟩
  rw [pow_two, resSqr, ← pseq_residual]
  rcases f6 with f6 | f6
  · exact f6
  · have : k' + 1 = m := by omega
    rw [this, hz, dotProduct_zero]; exact he

/-- C35 for `pcg`: with a small enough tolerance the returned vector is the exact solution. -/
theorem C35_pcg_exact_partial (hA : SPD A) (hC : SPD C) (h0 : A *ᵥ x0 ≠ b) :
    ∃ δ : T, 0 < δ ∧ ∀ {M : Type} [MatOps M T] [LawfulMat M T] {a c : M} {b₀ x₀ : List T} (_ : IsMat a n A)
      (_ : IsMat c n C) (_ : IsVec b₀ n b) (_ : IsVec x₀ n x0) (maxIter : Nat) (eps : T),
      n ≤ maxIter → eps ≠ 0 → eps ^ 2 ≤ δ →
      ∃ x₁ x it, pcg a b₀ c x₀ maxIter eps = .ok (x₁, it) ∧ IsVec x₁ n x ∧ it ≤ n ∧ A *ᵥ x = b := by
  obtain ⟨m, hm, hz, hnz⟩ := pseq_terminates (b := b) (x0 := x0) hA hC
  obtain ⟨δ, hδ, hgap⟩ := residual_gap m hnz
  refine ⟨δ, hδ, ?_⟩
  intro M _ _ a c b₀ x₀ ha hc hb hx maxIter eps hmax heps hle
  obtain ⟨s, e, h1, h2, h3, h4⟩ := pcg_init ha hc hb hx maxIter eps
  have he : 0 < eps * eps := mul_self_pos.2 heps
  have hr0 : (pseq A C b x0 0).r ≠ 0 := fun h => h0 (sub_eq_zero.1 h).symm
  have hm0 : 0 < m := Nat.pos_of_ne_zero (fun h => hr0 (h ▸ hz))
  obtain ⟨x₁, k', f1, f2, f3, f4, f5, f6⟩ := pcgLoop_spd (b := b) (x0 := x0) ha hc hA hC he maxIter 0 s (by omega)
    ⟨h1 ▸ hx, h2, h3⟩ h4 (fun j hj => by obtain rfl : j = 0 := by omega
                                         exact hr0)
  have hk : k' < m := by
    by_contra h
    have := f5 m hm0 (by omega)
    rw [hz, dotProduct_zero] at this
    exact absurd he (not_lt.2 this)
  have hkm : k' + 1 = m := by
    by_contra h
    have := hgap (k' + 1) (by omega)
    rw [← pow_two] at f6
    rcases f6 with f6 | f6
    · exact absurd (lt_of_lt_of_le f6 hle) (not_lt.2 this)
    · omega
  refine ⟨x₁, _, k' + 1, by rw [e, f1]; rfl, f2, by omega, ?_⟩
  have := pseq_residual (A := A) (C := C) (b := b) (x0 := x0) (k' + 1)
  rw [hkm, hz] at this
  rw [hkm]
  exact (sub_eq_zero.1 this.symm).symm

/-- C35 for `cg` up to two unknowns: at most `n` iterations, residual below the tolerance. -/
theorem C35_cg_two_partial (ha : IsMat a n A) (hb : IsVec b₀ n b) (hx : IsVec x₀ n x0)
    (hA : SPD A) (h0 : A *ᵥ x0 ≠ b) (hn : n ≤ 2) {maxIter : Nat} (hmax : n ≤ maxIter) {eps : T} (heps : eps ≠ 0) :
    ∃ x₁ x it, cg a b₀ x₀ maxIter eps = .ok (x₁, it) ∧ IsVec x₁ n x ∧ it ≤ n ∧ resSqr A b x < eps ^ 2 := by
  obtain ⟨s, e, h1, h2, h3, h4⟩ := cg_init ha hb hx maxIter eps
  have he : 0 < eps * eps := mul_self_pos.2 heps
  obtain ⟨m, hm, hz, hnz⟩ := pseq_terminates (b := b) (x0 := x0) hA spd_one
  have hr0 : (pseq A 1 b x0 0).r ≠ 0 := fun h => h0 (sub_eq_zero.1 h).symm
  have hm0 : 0 < m := Nat.pos_of_ne_zero (fun h => hr0 (h ▸ hz))
  obtain ⟨x₁, k', f1, f2, f3, f4, f5⟩ := cgLoop_two (b := b) (x0 := x0) ha hA spd_one he (n' := maxIter) (s := s)
    (show m ≤ maxIter by omega) (by omega) hm0
    ⟨h1 ▸ hx, h2, by
      show IsVec s.p n ((1 : Matrix (Fin n) (Fin n) T) *ᵥ _)
      rw [one_mulVec]; exact h3⟩ h4 hnz hz
  refine ⟨x₁, _, k' + 1, by rw [e, f1]; rfl, f2, by omega, ?_⟩
  rw [pow_two, resSqr, ← pseq_residual]
  exact f5

/-- The 3x3 diagonal matrix `diag(1,2,3)` as a dense matrix object. -/
def diag3 : Dense ℚ := ⟨[1, 0, 0, 0, 2, 0, 0, 0, 3], 3, 3⟩

/-- C35 fails for `cg`: on `diag(1,2,3) x = (1,1,1)` from `x = 0` with tolerance 1/100 three iterations do not reach
the tolerance (the new search direction is formed with the old residual instead of the old direction) and five are
needed; the same system is solved exactly by the `pcg` of the same library with `C = I` in three iterations. -/
theorem C35_cg_negation :
    cg diag3 [1, 1, 1] [0, 0, 0] 3 (1 / 100 : ℚ) = .ok ([227 / 230, 113 / 230, 37 / 115], 3) ∧
    ¬ resSqr (Matrix.diagonal ![1, 2, 3]) ![1, 1, 1] ![227 / 230, 113 / 230, 37 / 115] < (1 / 100 : ℚ) ^ 2 ∧
    (cg diag3 [1, 1, 1] [0, 0, 0] 20 (1 / 100 : ℚ)).map Prod.snd = .ok 5 ∧
    pcg diag3 [1, 1, 1] (⟨[1, 0, 0, 0, 1, 0, 0, 0, 1], 3, 3⟩ : Dense ℚ) [0, 0, 0] 20 (1 / 100 : ℚ) =
      .ok ([1, 1 / 2, 1 / 3], 3) :=
  ⟨by decide +kernel, by decide +kernel, by decide +kernel, by decide +kernel⟩

/-- C35 fails when the start vector is already the solution: `cg` and `pcg` divide zero by zero. -/
theorem C35_start_at_solution_negation :
    cg (⟨[2], 1, 1⟩ : Dense ℚ) [2] [1] 5 (1 / 10 : ℚ) = .error .nonfinite ∧
    pcg (⟨[2], 1, 1⟩ : Dense ℚ) [2] (⟨[1], 1, 1⟩ : Dense ℚ) [1] 5 (1 / 10 : ℚ) = .error .nonfinite := by
  decide +kernel

/-- C35: every start at the solution has that outcome. -/
theorem C35_start_at_solution (ha : IsMat a n A) (hc : IsMat c n C) (hb : IsVec b₀ n b) (hx : IsVec x₀ n x0)
    (h0 : A *ᵥ x0 = b) {maxIter : Nat} (hmax : 0 < maxIter) (eps : T) :
    pcg a b₀ c x₀ maxIter eps = .error .nonfinite ∧ cg a b₀ x₀ maxIter eps = .error .nonfinite := by
  obtain ⟨k, rfl⟩ : ∃ k, maxIter = k + 1 := ⟨maxIter - 1, by omega⟩
  have hz : b - A *ᵥ x0 = 0 := by rw [h0, sub_self]
  constructor
  · obtain ⟨s, e, h1, h2, h3, h4⟩ := pcg_init ha hc hb hx (k + 1) eps
    rw [hz, mulVec_zero] at h3
    rcases pcgLoop_step ha hc (e2 := eps * eps) (n' := k) (k := 0) ⟨h1 ▸ hx, h2, h3⟩ with ⟨h, -⟩ | ⟨h, -⟩
    · rw [e, h]; rfl
    · exact absurd (dotProduct_zero _) h
  · obtain ⟨s, e, h1, h2, h3, h4⟩ := cg_init ha hb hx (k + 1) eps
    rw [hz] at h3
    rcases cgLoop_step ha (e2 := eps * eps) (n' := k) (k := 0) ⟨h1 ▸ hx, h2, h3⟩ with ⟨h, -⟩ | ⟨h, -⟩
    · rw [e, h]; rfl
    · exact absurd (dotProduct_zero _) h

/-- C35: shape errors. -/
theorem C35_notSquare (h : rows a ≠ cols a) (maxIter : Nat) (eps : T) :
    cg a b₀ x₀ maxIter eps = .error (.exc .notSquare) ∧ pcg a b₀ c x₀ maxIter eps = .error (.exc .notSquare) := by
  unfold cg pcg
  rw [throwIf_true _ h]
  exact ⟨rfl, rfl⟩

/-- The hypotheses of the C35 theorems are met by a non-diagonal matrix with a non-trivial preconditioner. -/
def exA : Matrix (Fin 2) (Fin 2) ℚ := !![2, 1; 1, 2]
def exC : Matrix (Fin 2) (Fin 2) ℚ := !![1, 0; 0, 2]

theorem exA_spd : SPD exA := by
  refine ⟨by decide +kernel, fun v hv => ?_⟩
  have e : v ⬝ᵥ exA *ᵥ v = v 0 * v 0 + v 1 * v 1 + (v 0 + v 1) * (v 0 + v 1) := by
    simp only [exA, dotProduct, Matrix.mulVec, Fin.sum_univ_two, of_apply, cons_val_zero, cons_val_one]
    simp [Matrix.vecHead, Matrix.vecTail]
    ring
  rw [e]
  by_cases h0 : v 0 = 0
  · have h1 : v 1 ≠ 0 := by
      intro h1
      apply hv
      funext i
      fin_cases i
      · exact h0
      · exact h1
    have := mul_self_pos.2 h1
    nlinarith [mul_self_nonneg (v 0), mul_self_nonneg (v 0 + v 1)]
  · have := mul_self_pos.2 h0
    nlinarith [mul_self_nonneg (v 1), mul_self_nonneg (v 0 + v 1)]

theorem exC_spd : SPD exC := by
  refine ⟨by decide +kernel, fun v hv => ?_⟩
  have e : v ⬝ᵥ exC *ᵥ v = v 0 * v 0 + 2 * (v 1 * v 1) := by
    simp only [exC, dotProduct, Matrix.mulVec, Fin.sum_univ_two, of_apply, cons_val_zero, cons_val_one]
    simp [Matrix.vecHead, Matrix.vecTail]
    ring
  rw [e]
  by_cases h0 : v 0 = 0
  · have h1 : v 1 ≠ 0 := by
      intro h1
      apply hv
      funext i
      fin_cases i
      · exact h0
      · exact h1
    have := mul_self_pos.2 h1
    nlinarith [mul_self_nonneg (v 0)]
  · have := mul_self_pos.2 h0
    nlinarith [mul_self_nonneg (v 1)]

example : ∃ (a c : Dense ℚ) (b₀ x₀ : List ℚ) (b x0 : Fin 2 → ℚ), IsMat a 2 exA ∧ IsMat c 2 exC ∧ IsVec b₀ 2 b ∧
    IsVec x₀ 2 x0 ∧ exA *ᵥ x0 ≠ b ∧
    pcg a b₀ c x₀ 7 (1 / 100 : ℚ) = .ok ([0, 3], 2) ∧ cg a b₀ x₀ 7 (1 / 100 : ℚ) = .ok ([0, 3], 2) :=
  ⟨⟨[2, 1, 1, 2], 2, 2⟩, ⟨[1, 0, 0, 2], 2, 2⟩, [3, 6], [1, 1], ![3, 6], ![1, 1],
    ⟨show Dense.WF _ from ⟨rfl, by decide, by decide⟩, rfl, rfl, by decide +kernel⟩, ⟨show Dense.WF _ from ⟨rfl, by decide, by decide⟩, rfl, rfl, by decide +kernel⟩,
    ⟨rfl, by decide +kernel⟩, ⟨rfl, by decide +kernel⟩, by decide +kernel, by decide +kernel, by decide +kernel⟩
end NS.Props.CG

namespace NS.Props.CG
open NS NS.MatOps NS.LawfulMat NS.Props.LU
variable {M T V : Type} [Field T] [DecidableEq T] [MatOps M T] [LawfulMat M T] {n : Nat} [Field V] [LinearOrder V]
  [IsStrictOrderedRing V]

/-- C36: on square `A`, `C` of the same size the Jacobi preconditioner throws `SingularException` exactly when some
diagonal entry is at most the threshold in absolute value; otherwise the output is `C` with its diagonal replaced by
`1 / A(i,i)`. -/
theorem C36_jacobi (absv : AbsoluteValue T V) (eps : V) {a c : M} {A C : Matrix (Fin n) (Fin n) T}
    (ha : IsMat a n A) (hc : IsMat c n C) :
    ((∀ i, eps < absv (A i i)) ∧ ∃ r, CG.jacobi absv eps a c = .ok r ∧
      IsMat r n (fun i j => if i = j then 1 / A i i else C i j)) ∨
    ((∃ i, absv (A i i) ≤ eps) ∧ CG.jacobi absv eps a c = .error (.exc .singular)) := by
  unfold CG.jacobi
  rw [throwIf_false _ (by rw [ha.2.1, ha.2.2.1]; simp), throwIf_false _ (by rw [hc.2.1, hc.2.2.1]; simp),
    throwIf_false _ (by rw [ha.2.1, hc.2.1]; simp), ha.2.1]
  simp only [ok_bind]
  have := sat_forRange (σ := M) (f := fun i C => do
      let mid ← get a i i
      throwIf (absv mid ≤ eps) .singular
      put C i i (1 / mid)) (E := fun e => e = .exc .singular ∧ ∃ i, absv (A i i) ≤ eps)
    (fun k (m : M) => Valid m ∧ rows m = n ∧ cols m = n ∧ (∀ i : Fin n, (i : Nat) < k → eps < absv (A i i)) ∧
      ∀ i j : Fin n, val m i j = if i = j ∧ (i : Nat) < k then 1 / A i i else C i j)
    (Nat.zero_le n) (s := c) ⟨hc.1, hc.2.1, hc.2.2.1, by simp, fun i j => by simp [hc.val_eq]⟩ (by
      intro k m _ hk ⟨h1, h2, h3, h4, h5⟩
      have hg : get a k k = .ok (A ⟨k, hk⟩ ⟨k, hk⟩) := ha.2.2.2 ⟨k, hk⟩ ⟨k, hk⟩
      rw [hg]
      simp only [ok_bind]
      refine Sat.bind (sat_throwIf (fun h => ⟨rfl, _, h⟩)) ?_
      intro _ hn
      obtain ⟨m', p1, p2, p3, p4, p5⟩ := put_ok (1 / A ⟨k, hk⟩ ⟨k, hk⟩) h1 (h2 ▸ hk) (h3 ▸ hk)
      rw [p1]
      refine ⟨p2, by omega, by omega, ?_, ?_⟩
      · intro i hi
        rcases Nat.lt_succ_iff_lt_or_eq.1 hi with h | h
        · exact h4 i h
        · obtain rfl : i = ⟨k, hk⟩ := Fin.ext h
          exact not_le.1 hn
      · intro i j
        rw [p5, h5]
        by_cases hik : (i : Nat) = k
        · obtain rfl : i = ⟨k, hk⟩ := Fin.ext hik
          by_cases hjk : (j : Nat) = k
          · obtain rfl : j = ⟨k, hk⟩ := Fin.ext hjk
            simp
          · have : ¬ (⟨k, hk⟩ : Fin n) = j := fun h => hjk (by rw [← h])
            simp [hjk, this]
        · have e : ((i : Nat) < k + 1) ↔ (i : Nat) < k := by omega
          simp [hik, e])
  revert this
  cases hres : (forRange 0 n c fun i C => do
      let mid ← get a i i
      throwIf (absv mid ≤ eps) .singular
      put C i i (1 / mid)) with
  | ok r =>
    intro this
    obtain ⟨h1, h2, h3, h4, h5⟩ := this
    refine Or.inl ⟨fun i => h4 i i.2, r, rfl, h1, h2, h3, fun i j => ?_⟩
    rw [get_ok h1 (h2 ▸ i.2) (h3 ▸ j.2), h5]
    simp
  | error e =>
    rintro ⟨rfl, h⟩
    exact Or.inr ⟨h, rfl⟩

/-- C36: for an output matrix that is zero on entry the result is the diagonal matrix of the reciprocals. -/
theorem C36_jacobi_diagonal (absv : AbsoluteValue T V) {eps : V} {a c r : M} {A : Matrix (Fin n) (Fin n) T}
    (ha : IsMat a n A) (hc : IsMat c n (0 : Matrix (Fin n) (Fin n) T)) (h : CG.jacobi absv eps a c = .ok r) :
    IsMat r n (Matrix.diagonal fun i => (A i i)⁻¹) := by
  rcases C36_jacobi absv eps ha hc with ⟨-, r', h1, h2⟩ | ⟨-, h1⟩
  · rw [h] at h1; cases h1
    have e : (Matrix.diagonal fun i => (A i i)⁻¹) = fun i j => if i = j then 1 / A i i else (0 : Matrix (Fin n) (Fin n) T) i j := by
      funext i j
      simp [Matrix.diagonal_apply]
    rw [e]; exact h2
  · rw [h] at h1; cases h1

/-- C36: the shape errors. -/
theorem C36_shape (absv : T → V) (eps : V) (a c : M) :
    (rows a ≠ cols a ∨ rows c ≠ cols c → CG.jacobi absv eps a c = .error (.exc .notSquare)) ∧
    (rows a = cols a → rows c = cols c → rows a ≠ rows c → CG.jacobi absv eps a c = .error (.exc .matrixSizeMismatch)) := by
  unfold CG.jacobi
  constructor
  · intro h
    by_cases h1 : rows a ≠ cols a
    · rw [throwIf_true _ h1]; rfl
    · rw [throwIf_false _ h1, throwIf_true _ (h.resolve_left h1)]; rfl
  · intro h1 h2 h3
    rw [throwIf_false _ (by simpa using h1), throwIf_false _ (by simpa using h2), throwIf_true _ h3]; rfl

example : CG.jacobi (AbsoluteValue.abs : AbsoluteValue ℚ ℚ) (1 / 1000) (⟨[2, 1, 1, 4], 2, 2⟩ : Dense ℚ) ⟨[0, 0, 0, 0], 2, 2⟩
    = .ok ⟨[1 / 2, 0, 0, 1 / 4], 2, 2⟩ := by decide +kernel
example : CG.jacobi (AbsoluteValue.abs : AbsoluteValue ℚ ℚ) (1 / 1000) (⟨[2, 1, 1, 0], 2, 2⟩ : Dense ℚ) ⟨[0, 0, 0, 0], 2, 2⟩
    = .error (.exc .singular) := by decide +kernel
/-- The diagonal output needs a zero `C` on entry: other entries of `C` are kept. -/
theorem C36_dirty_output_negation :
    CG.jacobi (AbsoluteValue.abs : AbsoluteValue ℚ ℚ) (1 / 1000) (⟨[2, 1, 1, 4], 2, 2⟩ : Dense ℚ) ⟨[0, 9, 0, 0], 2, 2⟩
    = .ok ⟨[1 / 2, 9, 0, 1 / 4], 2, 2⟩ := by decide +kernel
end NS.Props.CG

/-
Property theorem C80: the Cholesky decomposition in floating-point arithmetic (`Std fl u`, see `Verif/Rounding.lean`).

`sqrt` returns the square root with relative error at most `u` for the arguments that `sqrt_allowed` accepts (`hsqrt`; `std::sqrt` of
IEEE 754 is correctly rounded).
-/
import Verif.RoundChol
import Verif.Props.Rounding
import Mathlib.Algebra.Order.BigOperators.Ring.Finset
import Mathlib.Analysis.Real.Sqrt

set_option linter.unusedSectionVars false
set_option linter.unusedSimpArgs false

namespace NS.Props.Rounding
open NS NS.MatOps NS.LU NS.Rounding Matrix

variable {F K : Type} [Zero F] [One F] [Add F] [Sub F] [Mul F] [Div F] [Field K] [LinearOrder K] [IsStrictOrderedRing K]
variable {fl : F → K} {u : K} {M : Type} [MatOps M F] [LawfulStore M F] {n : Nat}

/-- `r` is the square root of `s` up to a relative error `u`: `r^2 = s (1+d)^2` with `1+d` between `1-u` and `1/(1-u)`. -/
def SqrtFl (u s r : K) : Prop := ∃ d, (1 - u ≤ d ∧ d ≤ (1 - u)⁻¹) ∧ r ^ 2 = s * d ^ 2

/-- The number whose square root is taken in step `t`, computed from the matrix and the returned `L` as in the code: the rounded value
of `m(t,t) - (L(t,0)^2 + ... + L(t,t-1)^2)`.  If it is zero the code divides `0/0`. -/
def cholPivot (m L : M) (t : Fin n) : F :=
  LawfulStore.val m t t - rowDot (LawfulStore.val L) t t t

/-- C80: on a symmetric matrix and a zero `L`, `cholesky` throws `NotPositiveDefiniteException`, or divides `0/0` (a pivot rounds to
zero), or returns a lower triangular `L` without zeros on the diagonal and `L Lᵀ = A + E` with `|E| <= gam (n+4) |L| |Lᵀ|` entry by
entry; all pivots were accepted by `sqrt_allowed` and are not zero. -/
theorem C80_cholesky [DecidableEq F] (h : Std fl u) (sqrtAllowed : F → Bool) (nanAllowed : Bool) (sqrt : F → F)
    (hsqrt : ∀ s, sqrtAllowed s = true → SqrtFl u (fl s) (fl (sqrt s)))
    {A₀ L₀ : M} {A : Matrix (Fin n) (Fin n) K} (hA : MatFl fl A₀ A) (hL : MatFl fl L₀ (0 : Matrix (Fin n) (Fin n) K))
    (hsym : Aᵀ = A) :
    cholesky sqrtAllowed nanAllowed sqrt A₀ L₀ = .error (.exc .notPositiveDefinite) ∨
    cholesky sqrtAllowed nanAllowed sqrt A₀ L₀ = .error .nonfinite ∨
    ∃ (L₁ : M) (L : Matrix (Fin n) (Fin n) K), cholesky sqrtAllowed nanAllowed sqrt A₀ L₀ = .ok L₁ ∧ MatFl fl L₁ L ∧
      (∀ i j, i < j → L i j = 0) ∧ (∀ i : Fin n, sqrtAllowed (cholPivot A₀ L₁ i) = true ∧ cholPivot A₀ L₁ i ≠ 0) ∧ (∀ i, L i i ≠ 0) ∧
        ∃ E : Matrix (Fin n) (Fin n) K, A + E = L * Lᵀ ∧ ∀ i j, |E i j| ≤ gam u (n + 4) * (mabs L * mabs Lᵀ) i j := by
  have hch := cholesky_round h sqrtAllowed nanAllowed sqrt (fun s hs => by
    obtain ⟨d, d1, d2⟩ := hsqrt s hs
    exact ⟨d, by rw [Th, pow_one]; exact d1, d2⟩) hA.sq hL.sq (hL.zero h)
  cases hr : cholesky sqrtAllowed nanAllowed sqrt A₀ L₀ with
  | error e =>
    rw [hr] at hch
    rcases hch with rfl | rfl
    · exact Or.inl rfl
    · exact Or.inr (Or.inl rfl)
  | ok L₁ =>
    rw [hr] at hch
    obtain ⟨h1, h2, h3'⟩ := hch
    have h3 : ∀ t, t < n → _ ∧ _ := fun t ht => ⟨(h3' t ht).1, (h3' t ht).2.2⟩
    let L : Matrix (Fin n) (Fin n) K := Matrix.of fun i j => fl (LawfulStore.val L₁ i j)
    have hup : ∀ i j, i < j → L i j = 0 := fun i j hij => by
      show fl _ = 0
      rw [h2 i j hij, h.zero]
    have hne : ∀ i : Fin n, fl (LawfulStore.val A₀ i i - rowDot (LawfulStore.val L₁) i i i) ≠ 0 := fun i => (h3' i i.2).2.1
    refine Or.inr (Or.inr ⟨L₁, L, rfl, matFl_of h1.valid h1.hr h1.hc, hup, fun i => ⟨(h3 i i.2).1, fun h0 => hne i (by
      unfold cholPivot at h0; rw [h0, h.zero])⟩, ?_⟩)
    refine ⟨fun i => ((h3 i i.2).2 (hne i)).1, L * Lᵀ - A, by abel, ?_⟩
    -- the equation of one entry with `j <= i`
    have hlow : ∀ i j : Fin n, j ≤ i → |(L * Lᵀ) i j - A i j| ≤ gam u (n + 4) * (mabs L * mabs Lᵀ) i j := by
      intro i j hij
      obtain ⟨τ, τ1, τ2⟩ := ((h3 j j.2).2 (hne j)).2 i hij i.2
      have e1 : A i j = ∑ k : Fin n, L i k * Lᵀ k j * τ k := by
        rw [← hA.val, τ2]
        have hs := sum_trunc' (i := n) (j := (j : Nat) + 1)
          (f := fun k => fl (LawfulStore.val L₁ i k) * fl (LawfulStore.val L₁ j k) * τ k) (by omega)
          (fun k h1 _ => by rw [h2 j k (by omega), h.zero]; ring)
        rw [← hs, Finset.sum_range]
        rfl
      rw [e1, Matrix.mul_apply, ← Finset.sum_sub_distrib, Matrix.mul_apply, Finset.mul_sum]
      refine (Finset.abs_sum_le_sum_abs _ _).trans (Finset.sum_le_sum fun k _ => ?_)
      rw [abs_sub_comm]
      refine (abs_mul_sub ((τ1 k).abs_sub h.u_lt)).trans_eq ?_
      rw [abs_mul]; rfl
    intro i j
    rw [Matrix.sub_apply]
    rcases le_total j i with hij | hij
    · exact hlow i j hij
    · have e1 : (L * Lᵀ) i j = (L * Lᵀ) j i := by
        rw [← Matrix.transpose_apply (L * Lᵀ), Matrix.transpose_mul, Matrix.transpose_transpose]
      have e2 : A i j = A j i := by rw [← Matrix.transpose_apply A, hsym]
      have e3 : (mabs L * mabs Lᵀ) i j = (mabs L * mabs Lᵀ) j i := by
        rw [Matrix.mul_apply, Matrix.mul_apply]
        exact Finset.sum_congr rfl fun k _ => mul_comm _ _
      rw [e1, e2, e3]
      exact hlow j i hij

/-- The a-priori form: with `|E| <= g |L||Lᵀ|` and `A + E = L Lᵀ`, `g < 1`, the error is bounded by the diagonal of `A` alone. -/
theorem C80_a_priori {A L E : Matrix (Fin n) (Fin n) K} {g : K} (hg1 : g < 1) (hE : A + E = L * Lᵀ)
    (bE : ∀ i j, |E i j| ≤ g * (mabs L * mabs Lᵀ) i j) (i j : Fin n) :
    0 ≤ A i i ∧ (E i j) ^ 2 ≤ (g / (1 - g)) ^ 2 * (A i i * A j j) := by
  have hp : 0 < 1 - g := sub_pos.2 hg1
  have hdiag : ∀ i, ∑ k, (L i k) ^ 2 ≤ A i i / (1 - g) := by
    intro i
    have e1 : (L * Lᵀ) i i = ∑ k, (L i k) ^ 2 := by
      rw [Matrix.mul_apply]; exact Finset.sum_congr rfl fun k _ => by rw [Matrix.transpose_apply]; ring
    have e2 : (mabs L * mabs Lᵀ) i i = ∑ k, (L i k) ^ 2 := by
      rw [Matrix.mul_apply]
      refine Finset.sum_congr rfl fun k _ => ?_
      show |L i k| * |L i k| = _
      rw [abs_mul_abs_self]; ring
    have h1 := bE i i
    have h2 := congrFun (congrFun hE i) i
    rw [Matrix.add_apply, e1] at h2
    rw [e2] at h1
    rw [le_div_iff₀ hp]
    have := (abs_le.1 h1).2
    linarith
  have hnn : ∀ i, 0 ≤ A i i := fun i => by
    have h1 : 0 ≤ ∑ k, (L i k) ^ 2 := Finset.sum_nonneg fun k _ => sq_nonneg _
    have h2 := h1.trans (hdiag i)
    have := mul_nonneg h2 hp.le
    rwa [div_mul_cancel₀ _ hp.ne'] at this
  refine ⟨hnn i, ?_⟩
  have hcs : ((mabs L * mabs Lᵀ) i j) ^ 2 ≤ (∑ k, (L i k) ^ 2) * ∑ k, (L j k) ^ 2 := by
    rw [Matrix.mul_apply]
    refine (Finset.sum_mul_sq_le_sq_mul_sq _ _ _).trans_eq ?_
    congr 1 <;> refine Finset.sum_congr rfl fun k _ => ?_
    · show |L i k| ^ 2 = _
      rw [sq_abs]
    · show |L j k| ^ 2 = _
      rw [sq_abs]
  calc (E i j) ^ 2 = |E i j| ^ 2 := (sq_abs _).symm
    _ ≤ (g * (mabs L * mabs Lᵀ) i j) ^ 2 := pow_le_pow_left₀ (abs_nonneg _) (bE i j) 2
    _ = g ^ 2 * ((mabs L * mabs Lᵀ) i j) ^ 2 := by ring
    _ ≤ g ^ 2 * (A i i / (1 - g) * (A j j / (1 - g))) := by
        refine mul_le_mul_of_nonneg_left (hcs.trans ?_) (sq_nonneg _)
        exact mul_le_mul (hdiag i) (hdiag j) (Finset.sum_nonneg fun k _ => sq_nonneg _) (div_nonneg (hnn i) hp.le)
    _ = _ := by field_simp

/-- a square root on four-bit numbers that is accurate enough, as a table for the example -/
def exSqrt (x : Bin 3) : Bin 3 := if x.toRat = 4 then Bin.rnd 2 else if x.toRat = 2 then Bin.rnd (11 / 8) else 1

/-- four significant bits: `[4 2; 2 3]` gives `L = [2 0; 1 3/2]` (the exact corner is `sqrt 2 = 1.41..`, first rounded to `11/8`, then
recomputed as `2 / (11/8) -> 3/2`) -/
example : cholesky (fun x : Bin 3 => decide (0 ≤ x.toRat)) false exSqrt (⟨[Bin.rnd 4, Bin.rnd 2, Bin.rnd 2, Bin.rnd 3], 2, 2⟩ : Dense (Bin 3))
    ⟨[0, 0, 0, 0], 2, 2⟩ = .ok ⟨[Bin.rnd 2, 0, 1, Bin.rnd (3 / 2)], 2, 2⟩ := by decide +kernel

/-- Binary floating point of every precision, read as real numbers, satisfies the standard model. -/
theorem Bin.stdReal (p : Nat) : Std (F := Bin p) (K := ℝ) (fun a => (a.toRat : ℝ)) ((1 / 2) ^ (p + 1)) where
  u_nonneg := by positivity
  u_lt := pow_lt_one₀ (by norm_num) (by norm_num) (Nat.succ_ne_zero p)
  inj _ _ h := Bin.ext (Rat.cast_injective (α := ℝ) h)
  zero := by rw [(Bin.std p).zero]; simp
  one := by rw [(Bin.std p).one]; simp
  add a b := by
    have := (Rat.cast_le (K := ℝ)).2 ((Bin.std p).add a b)
    push_cast [Rat.cast_abs] at this
    exact this
  sub a b := by
    have := (Rat.cast_le (K := ℝ)).2 ((Bin.std p).sub a b)
    push_cast [Rat.cast_abs] at this
    exact this
  mul a b := by
    have := (Rat.cast_le (K := ℝ)).2 ((Bin.std p).mul a b)
    push_cast [Rat.cast_abs] at this
    exact this
  div a b hb := by
    have := (Rat.cast_le (K := ℝ)).2 ((Bin.std p).div a b (by exact_mod_cast hb))
    push_cast [Rat.cast_abs] at this
    exact this
  add_exact a b c h := (Bin.std p).add_exact a b c (by exact_mod_cast h)
  sub_exact a b c h := (Bin.std p).sub_exact a b c (by exact_mod_cast h)
  mul_exact a b c h := (Bin.std p).mul_exact a b c (by exact_mod_cast h)
  div_exact a b c hb h := (Bin.std p).div_exact a b c (by exact_mod_cast hb) (by exact_mod_cast h)

/-- The correctly rounded square root exists for binary floating point of every precision and satisfies the hypothesis of
`C80_cholesky`. -/
theorem C80_sqrt_exists (p : Nat) : ∃ sqrt : Bin p → Bin p, ∀ s : Bin p, 0 ≤ s.toRat →
    SqrtFl ((1 / 2 : ℝ) ^ (p + 1)) (s.toRat : ℝ) ((sqrt s).toRat : ℝ) := by
  have hex : ∀ s : Bin p, ∃ r : Bin p, (r.toRat : ℝ) = rn (p + 1) (Real.sqrt s.toRat) := by
    intro s
    obtain ⟨m, e, h1, h2⟩ := rn_bin (p := p + 1) (Nat.succ_pos p) (Real.sqrt s.toRat)
    exact ⟨⟨m * 2 ^ e, m, e, h1, rfl⟩, by rw [h2]; push_cast; rfl⟩
  choose f hf using hex
  refine ⟨f, fun s hs => ?_⟩
  have hu0 : (0 : ℝ) ≤ (1 / 2) ^ (p + 1) := by positivity
  have hu1 : (1 / 2 : ℝ) ^ (p + 1) < 1 := pow_lt_one₀ (by norm_num) (by norm_num) (Nat.succ_ne_zero p)
  obtain ⟨d, d1, d2⟩ := th_of_err hu0 hu1 (rn_err (p + 1) (Real.sqrt s.toRat))
  rw [Th, pow_one] at d1
  refine ⟨d, d1, ?_⟩
  rw [hf, d2, mul_pow, Real.sq_sqrt (by exact_mod_cast hs)]

/-- the hypotheses of `C80_cholesky` together, for double precision -/
example : ∃ sqrt : Bin 52 → Bin 52, ∀ s, decide (0 ≤ s.toRat) = true →
    SqrtFl ((1 / 2 : ℝ) ^ 53) (s.toRat : ℝ) ((sqrt s).toRat : ℝ) := by
  obtain ⟨f, hf⟩ := C80_sqrt_exists 52
  exact ⟨f, fun s hs => hf s (by simpa using hs)⟩
end NS.Props.Rounding

/-
Property C95: how large the factors of `doolittle` can become, and what that means for the accuracy of a solution.
-/
import Verif.Props.RoundInv

set_option linter.unusedSectionVars false
set_option linter.unusedSimpArgs false

namespace NS.Props.Rounding
open NS NS.MatOps NS.LU NS.Rounding NS.Operations Matrix

section scalar
variable {K : Type} [Field K] [LinearOrder K] [IsStrictOrderedRing K]

/-- a discrete Gronwall inequality -/
theorem growth {n : Nat} (v : Fin n → K) (hv : ∀ i, 0 ≤ v i) {μ c d : K} (hμ : 0 ≤ μ) (hc : 0 < c) (hd : 0 ≤ d)
    (h : ∀ i, c * v i ≤ μ + d * ∑ k with k < i, v k) (i : Fin n) : v i ≤ μ / c * (1 + d / c) ^ (i : Nat) := by
  let w : Nat → K := fun k => if hk : k < n then v ⟨k, hk⟩ else 0
  have hw : ∀ k (hk : k < n), w k = v ⟨k, hk⟩ := fun k hk => dif_pos hk
  have hsum : ∀ i : Fin n, ∑ k with k < i, v k = ∑ k ∈ Finset.range i, w k := by
    intro i
    symm
    refine Finset.sum_bij' (fun k hk => ⟨k, (Finset.mem_range.1 hk).trans i.2⟩) (fun k _ => k) ?_ ?_ ?_ ?_ ?_
    · intro k hk; exact Finset.mem_filter.2 ⟨Finset.mem_univ _, Finset.mem_range.1 hk⟩
    · intro k hk; exact Finset.mem_range.2 (Finset.mem_filter.1 hk).2
    · intro k hk; rfl
    · intro k hk; rfl
    · intro k hk; exact hw k _
  have hr : 0 ≤ d / c := div_nonneg hd hc.le
  have key : ∀ k ≤ n, μ + d * ∑ l ∈ Finset.range k, w l ≤ μ * (1 + d / c) ^ k := by
    intro k
    induction k with
    | zero => intro _; simp
    | succ k ih =>
      intro hk
      have h1 := ih (by omega)
      have h2 := h ⟨k, hk⟩
      rw [hsum, ← hw k hk] at h2
      have h2 : c * w k ≤ μ + d * ∑ l ∈ Finset.range k, w l := h2
      rw [Finset.sum_range_succ, pow_succ]
      have h3 : d * w k ≤ d / c * (μ + d * ∑ l ∈ Finset.range k, w l) := by
        calc d * w k = d / c * (c * w k) := by field_simp
          _ ≤ _ := mul_le_mul_of_nonneg_left h2 hr
      have h4 := mul_le_mul_of_nonneg_left h1 (add_nonneg zero_le_one hr)
      nlinarith
  have h1 := h i
  rw [hsum] at h1
  have h2 := h1.trans (key i i.2.le)
  rw [div_mul_eq_mul_div, le_div_iff₀ hc, mul_comm]
  exact h2
end scalar

/-! ### exact arithmetic -/
section exact
open NS.LawfulMat
variable {T V M : Type} [Field T] [DecidableEq T] [Field V] [LinearOrder V] [IsStrictOrderedRing V] [MatOps M T] [LawfulMat M T] {n : Nat}

theorem growth_exact (absv : AbsoluteValue T V) {A : Matrix (Fin n) (Fin n) T} {r : M × M × M × Nat} (h : NS.Props.LU.Doolittled absv n A r) :
    ∃ U, NS.Props.LU.IsMat r.2.1 n U ∧ ∀ j μ, (∀ k, absv (A k j) ≤ μ) → ∀ i, absv (U i j) ≤ 2 ^ (i : Nat) * μ := by
  obtain ⟨L, U, P, σ, -, hU, -, hLU, l1, -, p1, -, hb⟩ := h
  refine ⟨U, hU, fun j μ hμ i => ?_⟩
  have hμ0 : 0 ≤ μ := (absv.nonneg _).trans (hμ i)
  have := growth (fun k => absv (U k j)) (fun _ => absv.nonneg _) hμ0 (one_pos (α := V)) (zero_le_one (α := V)) (fun i => ?_) i
  · simp only [div_one] at this
    rw [mul_comm]
    convert this using 3
    norm_num
  · have e := congrFun (congrFun hLU i) j
    rw [Matrix.mul_apply, Matrix.mul_apply] at e
    have e1 : ∑ k, P i k * A k j = A (σ i) j := by simp [p1 i]
    have e2 : ∑ k, L i k * U k j = U i j + ∑ k with k < i, L i k * U k j := by
      rw [← Finset.add_sum_erase _ _ (Finset.mem_univ i), l1.1, one_mul, Finset.sum_filter, ← Finset.add_sum_erase (a := i) Finset.univ (fun k => if k < i then _ else _) (Finset.mem_univ i),
        if_neg (lt_irrefl i), zero_add]
      refine congrArg _ (Finset.sum_congr rfl fun k hk => ?_)
      split
      · rfl
      · rw [l1.2 i k (lt_of_le_of_ne (not_lt.1 ‹_›) (Finset.ne_of_mem_erase hk).symm), zero_mul]
    rw [e1, e2] at e
    have e3 : U i j = A (σ i) j - ∑ k with k < i, L i k * U k j := by rw [e]; ring
    rw [one_mul, one_mul, e3]
    have h5 : ∀ a b : T, absv (a - b) ≤ absv a + absv b := fun a b => by
      have := absv.sub_le a 0 b
      rwa [sub_zero, zero_sub, absv.map_neg] at this
    refine (h5 _ _).trans ?_
    refine add_le_add (hμ _) ((absv.sum_le _ _).trans (Finset.sum_le_sum fun k _ => ?_))
    rw [absv.map_mul]
    exact mul_le_of_le_one_left (absv.nonneg _) (hb i k)

/-- C95, dense overload: the entries of `U` in row `i` are at most `2^i` times the largest entry of their column of `A`. -/
theorem C95_growth_dense (absv : AbsoluteValue T V) {eps : V} (heps : 0 ≤ eps) {A₀ L₀ P₀ : M} {A : Matrix (Fin n) (Fin n) T}
    (hA : NS.Props.LU.IsMat A₀ n A) (hL : NS.Props.LU.IsMat L₀ n (0 : Matrix (Fin n) (Fin n) T))
    (hP : NS.Props.LU.IsMat P₀ n (0 : Matrix (Fin n) (Fin n) T)) {r : M × M × M × Nat} (hr : doolittleBase absv eps A₀ L₀ P₀ = .ok r) :
    ∃ U, NS.Props.LU.IsMat r.2.1 n U ∧ ∀ j μ, (∀ k, absv (A k j) ≤ μ) → ∀ i, absv (U i j) ≤ 2 ^ (i : Nat) * μ := by
  rcases NS.Props.LU.C27_doolittle_dense absv heps hA hL hP with ⟨r', h1, h2⟩ | ⟨h1, -⟩
  · rw [hr] at h1; cases h1
    exact growth_exact absv h2
  · rw [hr] at h1; cases h1

/-- C95, sparse overload. -/
theorem C95_growth_sparse (absv : AbsoluteValue T V) {eps : V} (heps : 0 ≤ eps) {A₀ : M} {A : Matrix (Fin n) (Fin n) T}
    (hA : NS.Props.LU.IsMat A₀ n A) {r : M × M × M × Nat} (hr : doolittleSparse absv eps A₀ = .ok r) :
    ∃ U, NS.Props.LU.IsMat r.2.1 n U ∧ ∀ j μ, (∀ k, absv (A k j) ≤ μ) → ∀ i, absv (U i j) ≤ 2 ^ (i : Nat) * μ := by
  rcases NS.Props.LU.C27_doolittle_sparse absv heps hA with ⟨r', h1, h2⟩ | ⟨h1, -⟩
  · rw [hr] at h1; cases h1
    exact growth_exact absv h2
  · rw [hr] at h1; cases h1

/-- the bound is attained: Wilkinson's matrix with 4 rows (the first one moved to the end, since the last of equal pivots is taken) has entries of absolute value 1, and the last entry of `U` is 8 -/
example : (doolittleBase (AbsoluteValue.abs : AbsoluteValue ℚ ℚ) 0 (⟨[-1, 1, 0, 1, -1, -1, 1, 1, -1, -1, -1, 1, 1, 0, 0, 1], 4, 4⟩ : Dense ℚ)
    ⟨List.replicate 16 0, 4, 4⟩ ⟨List.replicate 16 0, 4, 4⟩).toOption.map (fun r => r.2.1.at' 3 3) = some (.ok 8) := by decide +kernel
end exact

/-! ### floating point -/
section float
variable {F K : Type} [Zero F] [One F] [Add F] [Sub F] [Mul F] [Div F] [Field K] [LinearOrder K] [IsStrictOrderedRing K]
variable {fl : F → K} {u : K} {n : Nat}

/-- bound of the multipliers: one division and one comparison of rounded numbers -/
def mulBound (u : K) : K := ((1 - u) ^ 2)⁻¹
/-- growth of the entries of `U` from one row to the next: `2` without rounding errors -/
def rowGrowth (u : K) (n : Nat) : K := 1 + mulBound u * (1 + gam u n) / (1 - gam u n)
/-- bound of the entries of `|L| |triu U|`, as a multiple of the largest entry of the column of `A`: `n 2^(n-1)` without rounding errors -/
def sizeBound (u : K) (n : Nat) : K := n * mulBound u * rowGrowth u n ^ (n - 1) / (1 - gam u n)

theorem mabs_lower_sum {L U : Matrix (Fin n) (Fin n) K} (l1 : ∀ i, L i i = 1) (l2 : ∀ i j, i < j → L i j = 0) (i j : Fin n) :
    (mabs L * mabs U) i j = |U i j| + ∑ k with k < i, |L i k| * |U k j| := by
  rw [Matrix.mul_apply, ← Finset.add_sum_erase _ _ (Finset.mem_univ i), Finset.sum_filter,
    ← Finset.add_sum_erase (a := i) Finset.univ (fun k => if k < i then _ else _) (Finset.mem_univ i), if_neg (lt_irrefl i), zero_add]
  refine congrArg₂ _ (by show |L i i| * |U i j| = _; rw [l1, abs_one, one_mul]) (Finset.sum_congr rfl fun k hk => ?_)
  show |L i k| * |U k j| = _
  split
  · rfl
  · rw [l2 i k (lt_of_le_of_ne (not_lt.1 ‹_›) (Finset.ne_of_mem_erase hk).symm), abs_zero, MulZeroClass.zero_mul]

theorem lower_sum {L U : Matrix (Fin n) (Fin n) K} (l1 : ∀ i, L i i = 1) (l2 : ∀ i j, i < j → L i j = 0) (i j : Fin n) :
    (L * U) i j = U i j + ∑ k with k < i, L i k * U k j := by
  rw [Matrix.mul_apply, ← Finset.add_sum_erase _ _ (Finset.mem_univ i), Finset.sum_filter,
    ← Finset.add_sum_erase (a := i) Finset.univ (fun k => if k < i then _ else _) (Finset.mem_univ i), if_neg (lt_irrefl i), zero_add, l1, one_mul]
  refine congrArg _ (Finset.sum_congr rfl fun k hk => ?_)
  split
  · rfl
  · rw [l2 i k (lt_of_le_of_ne (not_lt.1 ‹_›) (Finset.ne_of_mem_erase hk).symm), MulZeroClass.zero_mul]

section
variable {M : Type} [MatOps M F] [LawfulStore M F]

theorem matFl_unique {r c : Nat} {m : M} {A B : Matrix (Fin r) (Fin c) K} (hA : MatFl fl m A) (hB : MatFl fl m B) : A = B := by
  ext i j
  rw [← hA.val, hB.val]

/-- the factors computed in floating point stay bounded, whatever the rounding errors are -/
theorem growth_float (h : Std fl u) (hg : gam u n < 1) {A : Matrix (Fin n) (Fin n) K} {r : M × M × M × Nat} (hr : DoolittledFl fl u n A r)
    {L U P : Matrix (Fin n) (Fin n) K} (hL : MatFl fl r.1 L) (hU : MatFl fl r.2.1 U) (hP : MatFl fl r.2.2.1 P) (j : Fin n) {μ : K}
    (hμ : ∀ k, |A k j| ≤ μ) :
    (∀ i, |triu U i j| ≤ μ / (1 - gam u n) * rowGrowth u n ^ (i : Nat)) ∧ ∀ i, luSize L U P i j ≤ sizeBound u n * μ := by
  obtain ⟨L', U', P', σ, hL', hU', hP', l1, l2, l3, p1, -, E, e1, e2⟩ := hr
  obtain rfl := matFl_unique hL hL'
  obtain rfl := matFl_unique hU hU'
  obtain rfl := matFl_unique hP hP'
  have hlam : (1 : K) ≤ mulBound u := by
    unfold mulBound
    have h1 := h.u_nonneg
    have h2 := h.u_lt
    exact (one_le_inv₀ (by nlinarith [mul_pos (sub_pos.2 h2) (sub_pos.2 h2)])).2 (by nlinarith)
  have hg0 : 0 ≤ gam u n := gam_nonneg h.u_nonneg h.u_lt
  have hc : 0 < 1 - gam u n := sub_pos.2 hg
  have hd : 0 ≤ mulBound u * (1 + gam u n) := by positivity
  have hμ0 : ∀ _ : Fin n, 0 ≤ μ := fun i => (abs_nonneg _).trans (hμ i)
  have hls : ∀ i : Fin n, ∑ k with k < i, |L i k| * |triu U k j| ≤ mulBound u * ∑ k with k < i, |triu U k j| := by
    intro i
    rw [Finset.mul_sum]
    exact Finset.sum_le_sum fun k _ => mul_le_mul_of_nonneg_right (l3 i k) (abs_nonneg _)
  have hstep : ∀ i : Fin n, (1 - gam u n) * |triu U i j| ≤ μ + mulBound u * (1 + gam u n) * ∑ k with k < i, |triu U k j| := by
    intro i
    have e := congrFun (congrFun e1 i) j
    rw [lower_sum l1 l2, Matrix.add_apply, Matrix.mul_apply] at e
    have e4 : ∑ k, P i k * A k j = A (σ i) j := by simp [p1 i]
    rw [e4] at e
    have e3 : triu U i j = A (σ i) j + E i j - ∑ k with k < i, L i k * triu U k j := by rw [e]; ring
    have b1 := e2 i j
    rw [mabs_lower_sum l1 l2] at b1
    have b2 : |∑ k with k < i, L i k * triu U k j| ≤ ∑ k with k < i, |L i k| * |triu U k j| :=
      (Finset.abs_sum_le_sum_abs _ _).trans_eq (Finset.sum_congr rfl fun k _ => abs_mul _ _)
    have b3 : |triu U i j| ≤ |A (σ i) j| + |E i j| + |∑ k with k < i, L i k * triu U k j| := by
      conv_lhs => rw [e3]
      exact (abs_sub _ _).trans (add_le_add (abs_add_le _ _) le_rfl)
    have b4 := hμ (σ i)
    have b5 := mul_le_mul_of_nonneg_left (hls i) (add_nonneg zero_le_one hg0)
    nlinarith
  have hrow : ∀ i, |triu U i j| ≤ μ / (1 - gam u n) * rowGrowth u n ^ (i : Nat) := fun i =>
    growth (fun k => |triu U k j|) (fun _ => abs_nonneg _) (hμ0 i) hc hd hstep i
  refine ⟨hrow, fun i => ?_⟩
  have hrg : 1 ≤ rowGrowth u n := by
    unfold rowGrowth
    have : 0 ≤ mulBound u * (1 + gam u n) / (1 - gam u n) := div_nonneg hd hc.le
    linarith
  have hsize : ∀ i, (mabs L * mabs (triu U)) i j ≤ sizeBound u n * μ := by
    intro i
    rw [Matrix.mul_apply]
    have : ∀ k : Fin n, |L i k| * |triu U k j| ≤ mulBound u * (μ / (1 - gam u n) * rowGrowth u n ^ (n - 1)) := by
      intro k
      refine mul_le_mul (l3 i k) ((hrow k).trans ?_) (abs_nonneg _) (by linarith)
      exact mul_le_mul_of_nonneg_left (pow_le_pow_right₀ hrg (by have := k.2; omega)) (div_nonneg (hμ0 i) hc.le)
    refine (Finset.sum_le_sum fun k _ => this k).trans_eq ?_
    rw [Finset.sum_const, Finset.card_univ, Fintype.card_fin, nsmul_eq_mul]
    unfold sizeBound
    ring
  have e5 : luSize L U P i j = (mabs L * mabs (triu U)) (σ.symm i) j := by
    unfold luSize
    rw [Matrix.mul_apply]
    rw [Finset.sum_eq_single (σ.symm i)]
    · rw [Matrix.transpose_apply, p1, if_pos (by simp), one_mul]
    · intro k _ hk
      rw [Matrix.transpose_apply, p1, if_neg (fun he => hk (by rw [he]; simp)), MulZeroClass.zero_mul]
    · intro hh; exact absurd (Finset.mem_univ _) hh
  rw [e5]
  exact hsize _
end

variable [Neg F] [DecidableEq F]

/-- C95, sparse: `doolittle`, `P*b`, `solve_lu` return the exact solution of a system whose matrix differs from `A` by at most
`(3 gam + gam^2) sizeBound` times the largest entry of the column - a number that depends on the size and the unit roundoff only. -/
theorem C95_solve_sparse (h : Std fl u) (hg : gam u n < 1) {eps : K} (heps : 0 ≤ eps) {A₀ : Sparse F} {A : Matrix (Fin n) (Fin n) K}
    (hA : MatFl fl A₀ A) {r : Sparse F × Sparse F × Sparse F × Nat} (hr : doolittleSparse (fun a => |fl a|) eps A₀ = .ok r)
    {b₀ pb x₀ : List F} {b : Fin n → K} (hb : VecFl fl b₀ n b) (hpb : r.2.2.1.mulVec b₀ = .ok pb)
    (hx : solveLu (fun a => |fl a|) eps r.1 r.2.1 pb = .ok x₀) :
    ∃ (x : Fin n → K) (ΔA : Matrix (Fin n) (Fin n) K), VecFl fl x₀ n x ∧ (A + ΔA) *ᵥ x = b ∧
      ∀ j μ, (∀ k, |A k j| ≤ μ) → ∀ i, |ΔA i j| ≤ (3 * gam u n + gam u n ^ 2) * (sizeBound u n * μ) := by
  have hg0 : 0 ≤ gam u n := gam_nonneg h.u_nonneg h.u_lt
  rcases C77_doolittle_sparse h heps hA with ⟨r', h1, h2⟩ | h1
  · rw [hr] at h1; cases h1
    obtain ⟨L, U, P, pb', hL, hU, hP, e1, ⟨x', x, ΔA, e2, e3, e4, e5⟩ | ⟨e2, -⟩⟩ := C78_solve_sparse h heps hA hr hb
    · rw [hpb] at e1; cases e1
      rw [hx] at e2; cases e2
      refine ⟨x, ΔA, e3, e4, fun j μ hμ i => (e5 i j).trans ?_⟩
      exact mul_le_mul_of_nonneg_left ((growth_float h hg h2 hL hU hP j hμ).2 i) (by positivity)
    · rw [hpb] at e1; cases e1
      rw [hx] at e2; cases e2
  · rw [hr] at h1; cases h1

/-- C95, dense (zero `L`, `P` on entry). -/
theorem C95_solve_dense (h : Std fl u) (hg : gam u n < 1) {eps : K} (heps : 0 ≤ eps) {A₀ L₀ P₀ : Dense F} {A : Matrix (Fin n) (Fin n) K}
    (hA : MatFl fl A₀ A) (hL₀ : MatFl fl L₀ (0 : Matrix (Fin n) (Fin n) K)) (hP₀ : MatFl fl P₀ (0 : Matrix (Fin n) (Fin n) K))
    {r : Dense F × Dense F × Dense F × Nat} (hr : doolittleBase (fun a => |fl a|) eps A₀ L₀ P₀ = .ok r)
    {b₀ pb x₀ : List F} {b : Fin n → K} (hb : VecFl fl b₀ n b) (hpb : r.2.2.1.mulVec b₀ = .ok pb)
    (hx : solveLu (fun a => |fl a|) eps r.1 r.2.1 pb = .ok x₀) :
    ∃ (x : Fin n → K) (ΔA : Matrix (Fin n) (Fin n) K), VecFl fl x₀ n x ∧ (A + ΔA) *ᵥ x = b ∧
      ∀ j μ, (∀ k, |A k j| ≤ μ) → ∀ i, |ΔA i j| ≤ (3 * gam u n + gam u n ^ 2) * (sizeBound u n * μ) := by
  have hg0 : 0 ≤ gam u n := gam_nonneg h.u_nonneg h.u_lt
  rcases C77_doolittle_dense h heps hA hL₀ hP₀ with ⟨r', h1, h2⟩ | h1
  · rw [hr] at h1; cases h1
    obtain ⟨L, U, P, pb', hL, hU, hP, e1, ⟨x', x, ΔA, e2, e3, e4, e5⟩ | ⟨e2, -⟩⟩ := C78_solve_dense h heps hA hL₀ hP₀ hr hb
    · rw [hpb] at e1; cases e1
      rw [hx] at e2; cases e2
      refine ⟨x, ΔA, e3, e4, fun j μ hμ i => (e5 i j).trans ?_⟩
      exact mul_le_mul_of_nonneg_left ((growth_float h hg h2 hL hU hP j hμ).2 i) (by positivity)
    · rw [hpb] at e1; cases e1
      rw [hx] at e2; cases e2
  · rw [hr] at h1; cases h1

/-- double precision and ten unknowns: the matrix is perturbed by less than `2 * 10^-11` times the largest entry of the column -/
example : gam ((1 / 2) ^ 53 : ℚ) 10 < 1 ∧ (3 * gam ((1 / 2) ^ 53 : ℚ) 10 + gam ((1 / 2) ^ 53) 10 ^ 2) * sizeBound ((1 / 2) ^ 53) 10 ≤ 2 / 10 ^ 11 := by
  unfold sizeBound rowGrowth mulBound gam
  norm_num

/-- the theorems apply to double precision and concrete matrices: the call returns -/
example : (doolittleSparse (fun a => |Bin.toRat a|) (0 : ℚ) (⟨[Bin.rnd 3, 1, 1, 1], [0, 1, 0, 1], [0, 2], 2, 0⟩ : Sparse (Bin 52)) >>= fun r =>
    r.2.2.1.mulVec [1, 1] >>= fun pb => solveLu (fun a => |Bin.toRat a|) (0 : ℚ) r.1 r.2.1 pb).toOption.map List.length = some 2 := by decide +kernel
end float
end NS.Props.Rounding

/-
Property C121: what it means in floating-point arithmetic that `sor` stopped because its test accepted; the program `examples/heat/main.cpp` in floating-point arithmetic.
-/
import Verif.Props.RoundFdm3
import Verif.Props.HeatError

set_option linter.unusedSectionVars false
set_option linter.unusedSimpArgs false

namespace NS.Props.Rounding
open NS NS.MatOps NS.Rounding Matrix NS.LawfulStore NS.Props.Iter

section exact
variable {K : Type} [Field K] [LinearOrder K] [IsStrictOrderedRing K] {n : Nat}

/-- the residual after a sweep whose right-hand side is perturbed by `r` -/
theorem sweep_residual {A : Matrix (Fin n) (Fin n) K} (hd : ∀ i, 0 < A i i) {w : K} (hw : w ≠ 0) {b r x y : Fin n → K} (h : IsSorSweep A (b + r) w x x y) (i : Fin n) :
    (A *ᵥ y) i - b i = r i + (1 - 1 / w) * A i i * (y i - x i) + ∑ j, if i < j then A i j * (y j - x j) else 0 := by
  have hi := h i
  have hdi := (hd i).ne'
  have e1 : (A *ᵥ y) i = A i i * y i + (∑ j, (if j < i then A i j * y j else if i < j then A i j * x j else 0)) + ∑ j, if i < j then A i j * (y j - x j) else 0 := by
    have e0 : A i i * y i = ∑ j, if j = i then A i j * y j else 0 := by simp
    rw [e0, ← Finset.sum_add_distrib, ← Finset.sum_add_distrib]
    unfold Matrix.mulVec dotProduct
    refine Finset.sum_congr rfl fun j _ => ?_
    rcases lt_trichotomy j i with h | h | h
    · simp [h, h.ne, Nat.lt_asymm h, not_lt.2 h.le]
    · simp [h]
    · simp [h, h.ne', not_lt.2 h.le]; ring
  rw [e1]
  set s := ∑ j, (if j < i then A i j * y j else if i < j then A i j * x j else 0)
  have e2 : A i i * y i + s - b i = r i + (1 - 1 / w) * A i i * (y i - x i) := by
    rw [Pi.add_apply] at hi
    have h3 : y i * A i i = (1 - w) * x i * A i i + w * (b i + r i - s) := by
      rw [hi]; field_simp
    have h4 : A i i * (y i - x i) = w * (b i + r i - s - A i i * x i) := by linear_combination h3
    have h5 : 1 / w * (A i i * (y i - x i)) = b i + r i - s - A i i * x i := by
      rw [h4, ← mul_assoc, one_div_mul_cancel hw, one_mul]
    linear_combination h5
  linear_combination e2
end exact

variable {F K : Type} [Zero F] [One F] [Add F] [Sub F] [Mul F] [Div F] [Field K] [LinearOrder K] [IsStrictOrderedRing K]
variable {fl : F → K} {u : K} [DecidableEq F] [LE F] [DecidableLE F]
variable {M : Type} [MatOps M F] [LawfulStore M F] {n : Nat}
variable {cabs : F → F} (hle : ∀ a b : F, a ≤ b ↔ fl a ≤ fl b) (hab : ∀ a, fl (cabs a) = |fl a|)
include hle hab

/-- C121: `sor` in floating-point arithmetic with unit roundoff `u`, started at zero, for any matrix with a positive diagonal and any weight: it returns normally, and if it
stopped because its test accepted, each entry of the residual of the returned vector `y` is at most a multiple of the tolerance, with the entries of the row on and above the diagonal as factors,
plus `g = gam u (n + 3)` (about `(n + 3) u`) times the sizes of the terms of the row. -/
theorem C121_stop (h : Std fl u) {a : M} {A : Matrix (Fin n) (Fin n) K} (ha : MatFl fl a A) (hd : ∀ i, 0 < A i i) {b₀ x₀ : List F} {b : Fin n → K}
    (hb : VecFl fl b₀ n b) (hx : VecFl fl x₀ n (0 : Fin n → K)) {w : F} (hw : fl w ≠ 0) (eps : F) {g d : K} (hg : g = gam u (n + 3)) (hd0 : 0 ≤ d)
    (hd2 : fl eps ^ 2 * (1 + g) ≤ d ^ 2) (maxIter : Nat) :
    ∃ (v : List F) (y : Fin n → K) (k : Nat), CxIterative.sor cabs a b₀ x₀ w maxIter eps = .ok (v, k) ∧ VecFl fl v n y ∧ k ≤ maxIter ∧
      (k < maxIter → ∀ i, |(A *ᵥ y) i - b i| ≤ (1 + g) * (|1 / fl w - 1| * A i i + ∑ j, if i < j then |A i j| else 0) * d +
        g * (|1 / fl w - 1| * A i i * |y i| + (∑ j, if j = i then 0 else |A i j| * |y j|) + |b i|)) := by
  obtain ⟨y, V, hyV, -, hrows, y3⟩ := sor_run h cabs ha (fun i => (hd i).ne') hb hx w eps
  obtain ⟨k, k1, k2, k3, k4, -⟩ := y3 maxIter
  refine ⟨y k, V k, k, k1, hyV k, k2, fun hk i => ?_⟩
  obtain ⟨m, rfl⟩ : ∃ m, k = m + 1 := ⟨k - 1, by have := k3 (by omega); omega⟩
  have hst := (k4 hk).length hle hab h (hyV _).1 (hyV _).1
  simp only [Nat.add_sub_cancel, ← hg, fun j i => (hyV j).getD i] at hst
  have hg0 : 0 ≤ g := by rw [hg]; exact gam_nonneg h.u_nonneg h.u_lt
  have hstep : ∀ j, |V (m + 1) j - V m j| ≤ d := fun j => by
    refine abs_le_of_sq_le_sq ?_ hd0
    exact (Finset.single_le_sum (f := fun j => (V (m + 1) j - V m j) ^ 2) (fun _ _ => sq_nonneg _) (Finset.mem_univ j)).trans (hst.trans hd2)
  have hold : ∀ j, |V m j| ≤ |V (m + 1) j| + d := fun j => by
    have := abs_sub_abs_le_abs_sub (V m j) (V (m + 1) j)
    rw [abs_sub_comm] at this
    linarith [hstep j]
  obtain ⟨r, r1, r2⟩ := sorRows_pert h.u_nonneg h.u_lt hd hw (hrows m)
  rw [sweep_residual hd hw r1 i]
  rw [← hg] at r2
  have hDi := hd i
  have hc : |(1 - 1 / fl w)| = |1 / fl w - 1| := abs_sub_comm _ _
  set q := |1 / fl w - 1| with hq
  have hq0 : 0 ≤ q := abs_nonneg _
  set Up := ∑ j, if i < j then |A i j| else 0 with hUp
  have h1 : |∑ j, if i < j then A i j * (V (m + 1) j - V m j) else 0| ≤ Up * d := by
    refine (Finset.abs_sum_le_sum_abs _ _).trans ?_
    rw [hUp, Finset.sum_mul]
    refine Finset.sum_le_sum fun j _ => ?_
    split_ifs
    · rw [abs_mul]; exact mul_le_mul_of_nonneg_left (hstep j) (abs_nonneg _)
    · simp
  have h2 : |(1 - 1 / fl w) * A i i * (V (m + 1) i - V m i)| ≤ q * A i i * d := by
    rw [abs_mul, abs_mul, hc, abs_of_pos hDi]
    exact mul_le_mul_of_nonneg_left (hstep i) (by positivity)
  have h3 : (∑ j, if i < j then |A i j| * |V m j| else 0) + (∑ j, if j < i then |A i j| * |V (m + 1) j| else 0) ≤
      (∑ j, if j = i then 0 else |A i j| * |V (m + 1) j|) + Up * d := by
    rw [hUp, Finset.sum_mul, ← Finset.sum_add_distrib, ← Finset.sum_add_distrib]
    refine Finset.sum_le_sum fun j _ => ?_
    rcases lt_trichotomy j i with h | h | h
    · simp [h, h.ne, not_lt.2 h.le]
    · simp [h]
    · have := mul_le_mul_of_nonneg_left (hold j) (abs_nonneg (A i j))
      simp only [h, h.ne', not_lt.2 h.le, if_true, if_false, add_zero]
      linarith
  have h4 : q * A i i * |V m i| ≤ q * A i i * |V (m + 1) i| + q * A i i * d := by
    have := mul_le_mul_of_nonneg_left (hold i) (show 0 ≤ q * A i i by positivity)
    linarith
  have h5 : |r i| ≤ g * (q * A i i * |V (m + 1) i| + (∑ j, if j = i then 0 else |A i j| * |V (m + 1) j|) + |b i| + (q * A i i + Up) * d) :=
    (r2 i).trans (mul_le_mul_of_nonneg_left (by linarith) hg0)
  have h6 := abs_add_le (r i + (1 - 1 / fl w) * A i i * (V (m + 1) i - V m i)) (∑ j, if i < j then A i j * (V (m + 1) j - V m j) else 0)
  have h7 := abs_add_le (r i) ((1 - 1 / fl w) * A i i * (V (m + 1) i - V m i))
  linarith
end NS.Props.Rounding

namespace NS.Props.Heat
open NS NS.Heat NS.Grid MatOps Matrix NS.Rounding NS.Props.Iter
open NS.Props.Rounding (VecFl MatFl C121_stop)
open NS.Props.Fdm (Exact rowVal_map)

/-! ## The residual of the scheme and the error -/
section exact
variable {p : Problem ℝ}

/-- the error at time `t · HT` is at most the residual at the points with given value plus `t · HT` times the residual at the others -/
theorem residual_error (hg : Good p) {y z b : Fin p.d → ℝ} (hz : mat p *ᵥ z = b) {ρ₀ ρ : ℝ} (h0 : 0 ≤ ρ₀) (h1 : 0 ≤ ρ) (hr : ∀ i, rimIx p i → |(mat p *ᵥ y) i - b i| ≤ ρ₀)
    (hi : ∀ i, ¬ rimIx p i → |(mat p *ᵥ y) i - b i| ≤ ρ) (i : Fin p.d) : |y i - z i| ≤ ρ₀ + tOf p i * p.ht * ρ := by
  have hht := hg.ht
  set τ : Fin p.d → ℝ := fun r => tOf p r * p.ht with hτ
  have hrow : ∀ (v : Fin p.d → ℝ) r, rimIx p r → (mat p *ᵥ v) r = v r := by
    intro v r h
    unfold Matrix.mulVec dotProduct
    rw [Finset.sum_eq_single r]
    · show mat p r r * v r = _
      rw [mat_rim h, if_pos rfl, one_mul]
    · intro j _ hj
      show mat p r j * v j = 0
      rw [mat_rim h, if_neg hj, zero_mul]
    · simp
  have hτv : ∀ t x v, t < p.tc → x < p.xc → v < p.yc → val3 p τ t x v = t * p.ht := by
    intro t x v ht hx hv
    rw [val3_at ht hx hv]
    simp only [hτ]
    rw [lin_t hx hv]
  have hτr : ∀ r, ¬ rimIx p r → (mat p *ᵥ τ) r = 1 := by
    intro r h
    have ht := tOf_lt r.2
    have hx := xOf_lt r.2
    have hy := yOf_lt r.2
    have hm := mulVec_row τ ht hx hy
    rw [if_neg (c := OnRim p (tOf p r) (xOf p r) (yOf p r)) h] at hm
    obtain ⟨i1, i2, i3, i4, i5, -⟩ := inner_facts ht hx hy h
    have e : (⟨p.lin (tOf p r) (xOf p r) (yOf p r), lin_lt ht hx hy⟩ : Fin p.d) = r := Fin.ext (lin_of _)
    rw [e] at hm
    rw [hm, hτv _ _ _ ht hx hy, hτv _ _ _ (by omega) hx hy, hτv _ _ _ ht (by omega) hy, hτv _ _ _ ht i3 hy, hτv _ _ _ ht hx (by omega), hτv _ _ _ ht hx i5,
      Nat.cast_sub i1]
    have := hht.ne'
    field_simp
    push_cast
    ring
  have key : ∀ s : ℝ, (s = 1 ∨ s = -1) → s * (y i - z i) ≤ ρ₀ + τ i * ρ := by
    intro s hs
    have hsa : ∀ a c : ℝ, |a| ≤ c → s * a ≤ c := by
      intro a c h
      obtain ⟨h1, h2⟩ := abs_le.1 h
      rcases hs with rfl | rfl <;> linarith
    have := max_principle (L := mat p) (rim := rimIx p) (fun r => tOf p r) (u := s • (y - z) - ρ • τ) (m := ρ₀) (mat_row hg) (fun r h => by
        rw [Matrix.mulVec_sub, Matrix.mulVec_smul, Matrix.mulVec_smul, Matrix.mulVec_sub, hz]
        simp only [Pi.sub_apply, Pi.smul_apply, smul_eq_mul]
        rw [hτr r h]
        linarith [hsa _ _ (hi r h)])
      (fun r h => by
        have h2 := hsa _ _ (hr r h)
        rw [hrow y r h, ← hz, hrow z r h] at h2
        have h3 : 0 ≤ ρ * τ r := mul_nonneg h1 (mul_nonneg (Nat.cast_nonneg _) hht.le)
        simp only [Pi.sub_apply, Pi.smul_apply, smul_eq_mul]
        linarith) i
    simp only [Pi.sub_apply, Pi.smul_apply, smul_eq_mul] at this
    linarith
  have k1 := key 1 (.inl rfl)
  have k2 := key (-1) (.inr rfl)
  rw [abs_le]
  change -(ρ₀ + τ i * ρ) ≤ _ ∧ _ ≤ ρ₀ + τ i * ρ
  constructor <;> linarith

/-- the entries beside the diagonal of a row are together at most the diagonal entry -/
theorem row_abs (hg : Good p) (i : Fin p.d) : 0 < mat p i i ∧ (∑ j, if j = i then 0 else |mat p i j|) ≤ mat p i i := by
  by_cases h : rimIx p i
  · have e : mat p i i = 1 := by rw [mat_rim h, if_pos rfl]
    rw [e]
    refine ⟨one_pos, ?_⟩
    rw [Finset.sum_eq_zero fun j _ => ?_]
    · norm_num
    · by_cases hj : j = i
      · rw [if_pos hj]
      · rw [if_neg hj, mat_rim h, if_neg hj, abs_zero]
  · have e : (∑ j, if j = i then 0 else |mat p i j|) = mat p i i := by
      have h1 := mat_row_sum h
      have h2 : (∑ j, mat p i j) = mat p i i + ∑ j, if j = i then 0 else mat p i j := by
        have : mat p i i = ∑ j, if j = i then mat p i j else 0 := by simp
        rw [this, ← Finset.sum_add_distrib]
        exact Finset.sum_congr rfl fun j _ => by by_cases hj : j = i <;> simp [hj]
      have h3 : (∑ j, if j = i then 0 else |mat p i j|) = -∑ j, if j = i then 0 else mat p i j := by
        rw [← Finset.sum_neg_distrib]
        refine Finset.sum_congr rfl fun j _ => ?_
        by_cases hj : j = i
        · simp [hj]
        · rw [if_neg hj, if_neg hj, abs_of_nonpos (mat_off hg h hj)]
      linarith
    refine ⟨?_, e.le⟩
    rw [mat_inner h, if_pos rfl]
    have := hg.kIx h
    have := hg.ht
    have h1 : 0 ≤ 1 / (p.hx * p.hx) := one_div_nonneg.2 (mul_self_nonneg _)
    have h2 : 0 ≤ 1 / (p.hy * p.hy) := one_div_nonneg.2 (mul_self_nonneg _)
    positivity
end exact

/-! ## Assembling -/
section assemble
variable {F : Type} [Zero F] [One F] [Add F] [Sub F] [Mul F] [Div F] [Neg F] [NatCast F] [OfNat F 2]
variable {fl : F → ℝ} {u : ℝ} {M : Type} [MatOps M F] [LawfulStore M F]

/-- `x` is `y` with the relative error of `n` operations -/
def Near (u : ℝ) (n : Nat) (x y : ℝ) : Prop := ∃ θ, Th u n θ ∧ x = y * θ

theorem Near.mono {n m : Nat} {x y : ℝ} (h0 : 0 ≤ u) (h1 : u < 1) (h : Near u n x y) (hnm : n ≤ m) : Near u m x y := by
  obtain ⟨θ, a, b⟩ := h
  exact ⟨θ, a.mono h0 h1 hnm, b⟩

theorem Near.refl {n : Nat} (x : ℝ) (h0 : 0 ≤ u) (h1 : u < 1) : Near u n x x := ⟨1, Th.one h0 h1, by simp⟩

theorem Near.nonneg {n : Nat} {x y : ℝ} (h1 : u < 1) (h : Near u n x y) (hy : 0 ≤ y) : 0 ≤ x := by
  obtain ⟨θ, a, rfl⟩ := h
  exact mul_nonneg hy (a.pos h1).le

theorem Near.mul (h : Std fl u) {n m : Nat} {a b : F} {x y : ℝ} (ha : Near u n (fl a) x) (hb : Near u m (fl b) y) : Near u (n + m + 1) (fl (a * b)) (x * y) := by
  obtain ⟨s, s1, s2⟩ := ha
  obtain ⟨t, t1, t2⟩ := hb
  obtain ⟨r, r1, r2⟩ := h.mul_th a b
  exact ⟨s * t * r, (s1.mul h.u_lt t1).mul h.u_lt r1, by rw [r2, s2, t2]; ring⟩

theorem Near.neg {n : Nat} (hn : ∀ a : F, fl (-a) = -fl a) {a : F} {x : ℝ} (ha : Near u n (fl a) x) : Near u n (fl (-a)) (-x) := by
  obtain ⟨s, s1, s2⟩ := ha
  exact ⟨s, s1, by rw [hn, s2]; ring⟩

theorem Near.inv (h : Std fl u) {n : Nat} {a : F} {x : ℝ} (ha : Near u n (fl a) x) (hx : x ≠ 0) : Near u (n + 1) (fl (1 / a)) (1 / x) := by
  obtain ⟨s, s1, s2⟩ := ha
  have hs := (s1.pos h.u_lt).ne'
  obtain ⟨r, r1, r2⟩ := h.div_th 1 a (by rw [s2]; exact mul_ne_zero hx hs)
  refine ⟨s⁻¹ * r, (s1.inv h.u_lt).mul h.u_lt r1, ?_⟩
  rw [r2, h.one, s2]
  field_simp

theorem Near.add (h : Std fl u) {n : Nat} {a b : F} {x y : ℝ} (hx : 0 ≤ x) (hy : 0 ≤ y) (ha : Near u n (fl a) x) (hb : Near u n (fl b) y) : Near u (n + 1) (fl (a + b)) (x + y) := by
  obtain ⟨s, s1, s2⟩ := ha
  obtain ⟨t, t1, t2⟩ := hb
  obtain ⟨r, r1, r2⟩ := h.add_th a b
  rcases (add_nonneg hx hy).eq_or_lt with h0 | h0
  · have e1 : x = 0 := by linarith
    have e2 : y = 0 := by linarith
    refine ⟨1, Th.one h.u_nonneg h.u_lt, ?_⟩
    rw [r2, s2, t2, e1, e2]; simp
  · refine ⟨(x * s + y * t) / (x + y) * r, Th.mul h.u_lt ⟨?_, ?_⟩ r1, ?_⟩
    · rw [le_div_iff₀ h0]
      linarith [mul_le_mul_of_nonneg_left s1.1 hx, mul_le_mul_of_nonneg_left t1.1 hy]
    · rw [div_le_iff₀ h0]
      linarith [mul_le_mul_of_nonneg_left s1.2 hx, mul_le_mul_of_nonneg_left t1.2 hy]
    · rw [r2, s2, t2]
      have := h0.ne'
      field_simp

theorem rowVal_near {n : Nat} {l : List (Nat × F)} {l' : List (Nat × ℝ)} (h : List.Forall₂ (fun e e' => e.1 = e'.1 ∧ Near u n (fl e.2) e'.2) l l') (c : Nat) :
    ∀ {x : F} {x' : ℝ}, Near u n (fl x) x' → Near u n (fl (rowVal l c x)) (rowVal l' c x') := by
  induction h with
  | nil => intro x x' hx; exact hx
  | cons he _ ih =>
    intro x x' hx
    unfold rowVal
    refine ih ?_
    rw [he.1]
    split_ifs
    · exact he.2
    · exact hx

variable {tc xc yc : Nat} {ht hx hy : F} {k f b : F → F → F → F} {t0 : F → F → F} {k' f' b' : ℝ → ℝ → ℝ → ℝ} {t0' : ℝ → ℝ → ℝ}

/-- the values of the functions that the program computes at the grid points are those of the functions on the right -/
structure Stands (fl : F → ℝ) (p : Problem F) (p' : Problem ℝ) : Prop where
  neg : ∀ a, fl (-a) = -fl a
  two : fl 2 = 2
  k : ∀ t x y, t < p.tc → x < p.xc → y < p.yc → ¬ OnRim p t x y → fl (kf p t x y) = kf p' t x y
  rhs : ∀ t x y, t < p.tc → x < p.xc → y < p.yc → fl (rhs3 p t x y) = rhs3 p' t x y

/-- the system that the program assembles in floating-point arithmetic: every entry of the matrix is that of the scheme with a relative error of at most six operations -/
theorem system_fl (h : Std fl u) (ex : Stands fl (⟨tc, xc, yc, ht, hx, hy, k, f, b, t0⟩ : Problem F) ⟨tc, xc, yc, fl ht, fl hx, fl hy, k', f', b', t0'⟩)
    (hg : Good (⟨tc, xc, yc, fl ht, fl hx, fl hy, k', f', b', t0'⟩ : Problem ℝ)) (hx0 : fl hx ≠ 0) (hy0 : fl hy ≠ 0) (h1 : 0 < tc) (h2 : 0 < xc) (h3 : 0 < yc) :
    ∃ (a : M) (B : List F) (A : Matrix (Fin (tc * xc * yc)) (Fin (tc * xc * yc)) ℝ), system (⟨tc, xc, yc, ht, hx, hy, k, f, b, t0⟩ : Problem F) = .ok (a, B) ∧ MatFl fl a A ∧
      VecFl fl B (tc * xc * yc) (fun i => Heat.rhs (⟨tc, xc, yc, fl ht, fl hx, fl hy, k', f', b', t0'⟩ : Problem ℝ) i) ∧
      ∀ i j, Near u 6 (A i j) (mat (⟨tc, xc, yc, fl ht, fl hx, fl hy, k', f', b', t0'⟩ : Problem ℝ) i j) := by
  set p : Problem F := ⟨tc, xc, yc, ht, hx, hy, k, f, b, t0⟩ with hp
  set p' : Problem ℝ := ⟨tc, xc, yc, fl ht, fl hx, fl hy, k', f', b', t0'⟩ with hp'
  obtain ⟨⟨a, B⟩, e, S, g1, g2⟩ := system_all (M := M) (p := p) h1 h2 h3
  have u0 := h.u_nonneg
  have u1 := h.u_lt
  refine ⟨a, B, fun i j => fl (row p i j), e, ⟨g1.valid, g1.rows, g1.cols, fun i j => ⟨_, LawfulStore.get_ok g1.valid (by rw [g1.rows]; exact i.2) (by rw [g1.cols]; exact j.2), ?_⟩⟩,
    ⟨g1.len, fun i => ⟨_, vecAt_get (by rw [g1.len]; exact i.2), ?_⟩⟩, fun i j => ?_⟩
  · rw [(g1.done i (g2 i i.2) i.2).1 j j.2]
  · rw [(g1.done i (g2 i i.2) i.2).2]
    exact ex.rhs _ _ _ (tOf_lt (p := p) i.2) (xOf_lt (p := p) i.2) (yOf_lt (p := p) i.2)
  · show Near u 6 (fl (row p i j)) (row p' i j)
    unfold row
    refine rowVal_near ?_ _ (by rw [h.zero]; exact Near.refl 0 u0 u1)
    unfold entries
    by_cases hr : OnRim p (tOf p i) (xOf p i) (yOf p i)
    · rw [if_pos hr, if_pos (show OnRim p' (tOf p' i) (xOf p' i) (yOf p' i) from hr)]
      exact .cons ⟨rfl, by rw [h.one]; exact Near.refl 1 u0 u1⟩ .nil
    · rw [if_neg hr, if_neg (show ¬ OnRim p' (tOf p' i) (xOf p' i) (yOf p' i) from hr)]
      have hk : Near u 0 (fl (kf p (tOf p i) (xOf p i) (yOf p i))) (kf p' (tOf p' i) (xOf p' i) (yOf p' i)) := by
        rw [ex.k _ _ _ (tOf_lt (p := p) i.2) (xOf_lt (p := p) i.2) (yOf_lt (p := p) i.2) hr]
        exact Near.refl _ u0 u1
      have hk0 : 0 ≤ kf p' (tOf p' i) (xOf p' i) (yOf p' i) := hg.k _ _ _ (tOf_lt (p := p') i.2) (xOf_lt (p := p') i.2) (yOf_lt (p := p') i.2) hr
      generalize kf p (tOf p i) (xOf p i) (yOf p i) = κ at hk ⊢
      generalize kf p' (tOf p' i) (xOf p' i) (yOf p' i) = κ' at hk hk0 ⊢
      have ix : Near u 2 (fl (1 / (hx * hx))) (1 / (fl hx * fl hx)) := Near.inv h (Near.mul h (Near.refl (n := 0) _ u0 u1) (Near.refl (n := 0) _ u0 u1)) (mul_ne_zero hx0 hx0)
      have iy : Near u 2 (fl (1 / (hy * hy))) (1 / (fl hy * fl hy)) := Near.inv h (Near.mul h (Near.refl (n := 0) _ u0 u1) (Near.refl (n := 0) _ u0 u1)) (mul_ne_zero hy0 hy0)
      have it : Near u 1 (fl (1 / ht)) (1 / fl ht) := Near.inv h (Near.refl (n := 0) _ u0 u1) hg.ht.ne'
      have ix0 : 0 ≤ 1 / (fl hx * fl hx) := one_div_nonneg.2 (mul_self_nonneg _)
      have iy0 : 0 ≤ 1 / (fl hy * fl hy) := one_div_nonneg.2 (mul_self_nonneg _)
      have it0 : 0 ≤ 1 / fl ht := one_div_nonneg.2 hg.ht.le
      have cx := ((ix.neg ex.neg).mul h hk).mono u0 u1 (show 2 + 0 + 1 ≤ 6 by omega)
      have cy := ((iy.neg ex.neg).mul h hk).mono u0 u1 (show 2 + 0 + 1 ≤ 6 by omega)
      have ct := (it.neg ex.neg).mono u0 u1 (show 1 ≤ 6 by omega)
      have h2' : Near u 0 (fl 2) 2 := by rw [ex.two]; exact Near.refl _ u0 u1
      have c0 := (h2'.mul h (ix.add h ix0 iy0 iy)).mul h hk
      have cd := c0.add h (mul_nonneg (mul_nonneg (by norm_num) (add_nonneg ix0 iy0)) hk0) it0 (it.mono u0 u1 (by omega))
      exact .cons ⟨rfl, ct⟩ (.cons ⟨rfl, cy⟩ (.cons ⟨rfl, cx⟩ (.cons ⟨rfl, cd⟩ (.cons ⟨rfl, cx⟩ (.cons ⟨rfl, cy⟩ .nil)))))
end assemble

/-! ## The program -/
section program
variable {F : Type} [Zero F] [One F] [Add F] [Sub F] [Mul F] [Div F] [Neg F] [NatCast F] [OfNat F 2] [DecidableEq F] [LE F] [DecidableLE F]
variable {fl : F → ℝ} {u : ℝ} {M : Type} [MatOps M F] [LawfulStore M F]
variable {tc xc yc : Nat} {ht hx hy : F} {k f b : F → F → F → F} {t0 : F → F → F} {k' f' b' : ℝ → ℝ → ℝ → ℝ} {t0' : ℝ → ℝ → ℝ}

/-- from the residual of the assembled system to that of the scheme, one row; `m` is the row of the scheme, `a` the assembled one -/
theorem row_change {N : Nat} {m a y : Fin N → ℝ} {i : Fin N} {g γ κ d D Y B β : ℝ} (hγ : γ = gam u 6) (h0 : 0 ≤ u) (h1 : u < 1) (hn : ∀ j, Near u 6 (a j) (m j))
    (hm0 : 0 < m i) (hmD : m i ≤ D) (hsum : (∑ j, if j = i then 0 else |m j|) ≤ m i) (hg : 0 ≤ g) (hκ : 0 ≤ κ) (hd : 0 ≤ d) (hy : ∀ j, |y j| ≤ Y) (hβ : |β| ≤ B)
    (h : |∑ j, a j * y j - β| ≤ (1 + g) * (κ * a i + ∑ j, if i < j then |a j| else 0) * d + g * (κ * a i * |y i| + (∑ j, if j = i then 0 else |a j| * |y j|) + |β|)) :
    |∑ j, m j * y j - β| ≤ (1 + g) * (1 + γ) * (κ + 1) * D * d + (g * (1 + γ) * (κ + 1) + 2 * γ) * D * Y + g * B := by
  have hγ0 : 0 ≤ γ := by rw [hγ]; exact gam_nonneg h0 h1
  have hY : 0 ≤ Y := (abs_nonneg _).trans (hy i)
  have hD : 0 ≤ D := hm0.le.trans hmD
  have ha : ∀ j, |a j| ≤ (1 + γ) * |m j| ∧ |m j - a j| ≤ γ * |m j| := by
    intro j
    obtain ⟨θ, t1, t2⟩ := hn j
    have hθ := t1.pos h1
    have h2 := t1.abs_sub h1
    rw [← hγ] at h2
    rw [t2, abs_mul, abs_of_pos hθ]
    constructor
    · rw [mul_comm]
      exact mul_le_mul_of_nonneg_right (by linarith [(abs_le.1 h2).2]) (abs_nonneg _)
    · rw [show m j - m j * θ = m j * -(θ - 1) by ring, abs_mul, abs_neg, mul_comm]
      exact mul_le_mul_of_nonneg_right h2 (abs_nonneg _)
  have hai : a i ≤ (1 + γ) * D := by
    refine (le_abs_self _).trans ((ha i).1.trans ?_)
    rw [abs_of_pos hm0]
    exact mul_le_mul_of_nonneg_left hmD (by linarith)
  have hoff : (∑ j, if j = i then 0 else |a j|) ≤ (1 + γ) * D := by
    refine le_trans ?_ (mul_le_mul_of_nonneg_left (hsum.trans hmD) (show 0 ≤ 1 + γ by linarith))
    rw [Finset.mul_sum]
    refine Finset.sum_le_sum fun j _ => ?_
    split_ifs
    · simp
    · exact (ha j).1
  have hup : (∑ j, if i < j then |a j| else 0) ≤ (1 + γ) * D := by
    refine le_trans (Finset.sum_le_sum fun j _ => ?_) hoff
    by_cases hj : i < j
    · rw [if_pos hj, if_neg hj.ne']
    · rw [if_neg hj]; split_ifs <;> simp
  have hoy : (∑ j, if j = i then 0 else |a j| * |y j|) ≤ (1 + γ) * D * Y := by
    refine le_trans ?_ (mul_le_mul_of_nonneg_right hoff hY)
    rw [Finset.sum_mul]
    refine Finset.sum_le_sum fun j _ => ?_
    split_ifs
    · simp
    · exact mul_le_mul_of_nonneg_left (hy j) (abs_nonneg _)
  have hdiff : |∑ j, m j * y j - ∑ j, a j * y j| ≤ 2 * γ * D * Y := by
    have e : (∑ j, |m j|) = m i + ∑ j, if j = i then 0 else |m j| := by
      have : m i = ∑ j, if j = i then |m j| else 0 := by simp [abs_of_pos hm0]
      conv_rhs => rw [this]
      rw [← Finset.sum_add_distrib]
      exact Finset.sum_congr rfl fun j _ => by by_cases hj : j = i <;> simp [hj]
    rw [← Finset.sum_sub_distrib]
    refine (Finset.abs_sum_le_sum_abs _ _).trans ?_
    calc (∑ j, |m j * y j - a j * y j|) ≤ ∑ j, γ * Y * |m j| := by
          refine Finset.sum_le_sum fun j _ => ?_
          rw [← sub_mul, abs_mul]
          calc |m j - a j| * |y j| ≤ γ * |m j| * Y := mul_le_mul (ha j).2 (hy j) (abs_nonneg _) (mul_nonneg hγ0 (abs_nonneg _))
            _ = _ := by ring
      _ = γ * Y * (m i + ∑ j, if j = i then 0 else |m j|) := by rw [← Finset.mul_sum, e]
      _ ≤ γ * Y * (D + D) := mul_le_mul_of_nonneg_left (add_le_add hmD (hsum.trans hmD)) (mul_nonneg hγ0 hY)
      _ = _ := by ring
  have q1 : (1 + g) * (κ * a i + ∑ j, if i < j then |a j| else 0) * d ≤ (1 + g) * (κ * ((1 + γ) * D) + (1 + γ) * D) * d := by gcongr
  have q2 : κ * a i * |y i| ≤ κ * ((1 + γ) * D) * Y := by
    have : 0 ≤ κ * ((1 + γ) * D) := mul_nonneg hκ (mul_nonneg (by linarith) hD)
    exact mul_le_mul (mul_le_mul_of_nonneg_left hai hκ) (hy i) (abs_nonneg _) this
  have q3 : g * (κ * a i * |y i| + (∑ j, if j = i then 0 else |a j| * |y j|) + |β|) ≤ g * (κ * ((1 + γ) * D) * Y + (1 + γ) * D * Y + B) :=
    mul_le_mul_of_nonneg_left (by linarith) hg
  have q4 := abs_add_le (∑ j, m j * y j - ∑ j, a j * y j) (∑ j, a j * y j - β)
  rw [sub_add_sub_cancel] at q4
  linarith

variable {cabs : F → F} (hle : ∀ a b : F, a ≤ b ↔ fl a ≤ fl b) (hab : ∀ a, fl (cabs a) = |fl a|)
include hle hab

/-- the bound for the residual of a row of the scheme whose diagonal entry is at most `D`, see `C121_heat` -/
def resBound (g γ κ d Y B D : ℝ) : ℝ := (1 + g) * (1 + γ) * (κ + 1) * D * d + (g * (1 + γ) * (κ + 1) + 2 * γ) * D * Y + g * B

/-- C121: the heat program in floating-point arithmetic with unit roundoff `u`: for every grid, step widths, conductivity (not negative), start, boundary and source values it
returns normally; if it stopped because the test of the solver accepted, the values differ from the solution of the scheme at time `t · HT` by at most
`resBound … 1 + t · HT · resBound … D`, where `D` bounds the diagonal, `Y` the returned values, `B` the given values, `d` is the tolerance (up to rounding),
`κ = |1 / weight - 1|`, `γ` the relative error of six operations and `g` that of as many as there are grid points, plus 3. -/
theorem C121_heat (h : Std fl u) (ex : Stands fl (⟨tc, xc, yc, ht, hx, hy, k, f, b, t0⟩ : Problem F) ⟨tc, xc, yc, fl ht, fl hx, fl hy, k', f', b', t0'⟩)
    (hp : Good (⟨tc, xc, yc, fl ht, fl hx, fl hy, k', f', b', t0'⟩ : Problem ℝ)) (hx0 : fl hx ≠ 0) (hy0 : fl hy ≠ 0) (h1 : 0 < tc) (h2 : 0 < xc) (h3 : 0 < yc)
    {w : F} (hw : fl w ≠ 0) (eps : F) {g γ κ d D B : ℝ} (hg : g = gam u (tc * xc * yc + 3)) (hγ : γ = gam u 6) (hκ : κ = |1 / fl w - 1|) (hd0 : 0 ≤ d)
    (hd2 : fl eps ^ 2 * (1 + g) ≤ d ^ 2)
    (hD0 : 0 ≤ D) (hD : ∀ t x y, t < tc → x < xc → y < yc → ¬ OnRim (⟨tc, xc, yc, ht, hx, hy, k, f, b, t0⟩ : Problem F) t x y → 2 * (1 / (fl hx * fl hx) + 1 / (fl hy * fl hy)) * k' (t * fl ht) (x * fl hx) (y * fl hy) + 1 / fl ht ≤ D)
    (hB : ∀ t x y, t < tc → x < xc → y < yc → |f' (t * fl ht) (x * fl hx) (y * fl hy)| ≤ B ∧ |b' (t * fl ht) (x * fl hx) (y * fl hy)| ≤ B ∧ |t0' (x * fl hx) (y * fl hy)| ≤ B)
    (maxIter : Nat) : ∃ (v : List F) (y : Fin (tc * xc * yc) → ℝ) (it : Nat),
      solveFl (M := M) cabs (⟨tc, xc, yc, ht, hx, hy, k, f, b, t0⟩ : Problem F) w maxIter eps = .ok (v, it) ∧ VecFl fl v (tc * xc * yc) y ∧ it ≤ maxIter ∧
      (it < maxIter → ∀ Y, (∀ i, |y i| ≤ Y) → ∀ z, Solves (⟨tc, xc, yc, fl ht, fl hx, fl hy, k', f', b', t0'⟩ : Problem ℝ) z → ∀ t x v, t < tc → x < xc → v < yc →
        |val3 (⟨tc, xc, yc, fl ht, fl hx, fl hy, k', f', b', t0'⟩ : Problem ℝ) y t x v - val3 (⟨tc, xc, yc, fl ht, fl hx, fl hy, k', f', b', t0'⟩ : Problem ℝ) z t x v| ≤
          resBound g γ κ d Y B 1 + t * fl ht * resBound g γ κ d Y B D) := by
  obtain ⟨a, b₀, A, e, ha, hb, hn⟩ := system_fl (M := M) h ex hp hx0 hy0 h1 h2 h3
  set p : Problem F := ⟨tc, xc, yc, ht, hx, hy, k, f, b, t0⟩ with hpd
  set p' : Problem ℝ := ⟨tc, xc, yc, fl ht, fl hx, fl hy, k', f', b', t0'⟩ with hp'
  have hA : ∀ i, 0 < A i i := fun i => by
    obtain ⟨θ, t1, t2⟩ := hn i i
    rw [t2]
    exact mul_pos (row_abs hp i).1 (t1.pos h.u_lt)
  have hz0 : VecFl fl (Vec.resize [] (tc * xc * yc) : List F) (tc * xc * yc) (0 : Fin (tc * xc * yc) → ℝ) := by
    have hl : (Vec.resize [] (tc * xc * yc) : List F) = List.replicate (tc * xc * yc) 0 := by
      apply List.ext_getElem (by simp [Vec.resize])
      intro i _ _
      simp [Vec.resize]
    rw [hl]
    refine ⟨List.length_replicate, fun i => ⟨0, ?_, h.zero⟩⟩
    rw [vecAt_get (by rw [List.length_replicate]; exact i.2)]
    congr 1
    simp
  obtain ⟨v, y, it, r1, r2, r3, r4⟩ := C121_stop hle hab h ha hA hb hz0 hw eps hg hd0 hd2 maxIter
  refine ⟨v, y, it, ?_, r2, r3, fun hit Y hY z hz => ?_⟩
  · unfold solveFl
    rw [e, ok_bind]
    exact r1
  have hg0 : 0 ≤ g := by rw [hg]; exact gam_nonneg h.u_nonneg h.u_lt
  have hγ0 : 0 ≤ γ := by rw [hγ]; exact gam_nonneg h.u_nonneg h.u_lt
  have hκ0 : 0 ≤ κ := by rw [hκ]; exact abs_nonneg _
  have hr := r4 hit
  rw [← hκ] at hr
  have hrhs : ∀ i : Fin p'.d, |Heat.rhs p' i| ≤ B := by
    intro i
    obtain ⟨q1, q2, q3⟩ := hB _ _ _ (tOf_lt i.2) (xOf_lt i.2) (yOf_lt i.2)
    unfold Heat.rhs rhs3
    split_ifs
    · exact q2
    · exact q3
    · exact q1
  have hres : ∀ (i : Fin p'.d) (D' : ℝ), mat p' i i ≤ D' → |(mat p' *ᵥ y) i - Heat.rhs p' i| ≤ resBound g γ κ d Y B D' := fun i D' hD' =>
    row_change hγ h.u_nonneg h.u_lt (hn i) (row_abs hp i).1 hD' (row_abs hp i).2 hg0 hκ0 hd0 hY (hrhs i) (hr i)
  have hnn : ∀ (i : Fin p'.d) (D' : ℝ), mat p' i i ≤ D' → 0 ≤ resBound g γ κ d Y B D' := fun i D' h => (abs_nonneg _).trans (hres i D' h)
  intro t x s ht' hx' hy'
  have hone : ∀ i, rimIx p' i → mat p' i i ≤ 1 := fun i hi => by rw [mat_rim hi, if_pos rfl]
  have hdia : ∀ i, ¬ rimIx p' i → mat p' i i ≤ D := fun i hi => by
    rw [mat_inner hi, if_pos rfl]
    exact hD _ _ _ (tOf_lt (p := p') i.2) (xOf_lt (p := p') i.2) (yOf_lt (p := p') i.2) hi
  have h00 : (0 : Nat) < p'.d := Nat.mul_pos (Nat.mul_pos h1 h2) h3
  have hrim0 : rimIx p' ⟨0, h00⟩ := .inl (by unfold tOf; simp)
  have hY0 : 0 ≤ Y := (abs_nonneg _).trans (hY ⟨0, h00⟩)
  have hB0 : 0 ≤ B := (abs_nonneg _).trans (hrhs ⟨0, h00⟩)
  have hnD : 0 ≤ resBound g γ κ d Y B D := by unfold resBound; positivity
  have e1 := val3_at (p := p') (u := y) ht' hx' hy'
  have e2 := val3_at (p := p') (u := z) ht' hx' hy'
  have := residual_error hp (y := y) ((solves_iff z).2 hz) (hnn _ _ (hone _ hrim0)) hnD (fun i hi => hres i 1 (hone i hi)) (fun i hi => hres i D (hdia i hi)) ⟨p'.lin t x s, lin_lt ht' hx' hy'⟩
  rw [lin_t (p := p') hx' hy', ← e1, ← e2] at this
  exact this
end program

/-! ## Witness: nine-bit significands, two time levels, one inner point, step widths and conductivity 1, start value 1 -/
section witness
open NS.Props.Fdm (real std_real exact_real babs babs_real)
open NS.Rounding (Bin)

/-- the problem of the witness -/
def wP : Problem (Bin 8) := ⟨2, 3, 3, 1, 1, 1, fun _ _ _ => 1, fun _ _ _ => 0, fun _ _ _ => 0, fun _ _ => 1⟩

/-- the same over the real numbers -/
noncomputable def wP' : Problem ℝ := ⟨2, 3, 3, real (1 : Bin 8), real (1 : Bin 8), real (1 : Bin 8), fun _ _ _ => 1, fun _ _ _ => 0, fun _ _ _ => 0, fun _ _ => 1⟩

theorem one_real : real (1 : Bin 8) = 1 := (std_real 8).one

/-- the hypotheses of `C121_heat` are met -/
example : Stands real wP wP' ∧ Good wP' ∧ real (1 : Bin 8) ≠ 0 ∧ real (Bin.rnd (5 / 4) : Bin 8) ≠ 0 ∧
    (∀ t x y, t < 2 → x < 3 → y < 3 → 2 * (1 / (wP'.hx * wP'.hx) + 1 / (wP'.hy * wP'.hy)) * wP'.k (t * wP'.ht) (x * wP'.hx) (y * wP'.hy) + 1 / wP'.ht ≤ 5) ∧ ¬ OnRim wP 1 1 1 := by
  have h1 := one_real
  have ex := exact_real (p := 8) (L := 2) (by norm_num) (by norm_num)
  refine ⟨⟨ex.neg, ex.two, fun _ _ _ _ _ _ _ => h1, fun t x y _ _ _ => ?_⟩, ⟨by show 0 < real (1 : Bin 8); rw [h1]; norm_num, fun _ _ _ _ _ _ _ => zero_le_one⟩, by rw [h1]; norm_num, ?_,
    fun t x y _ _ _ => ?_, by decide⟩
  · have h0 := (std_real 8).zero
    unfold rhs3
    show real (if OnRim wP t x y then (if t ≠ 0 then 0 else 1) else 0) = if OnRim wP t x y then (if t ≠ 0 then 0 else 1) else 0
    split_ifs
    · exact h0
    · exact h1
    · exact h0
  · have : (Bin.rnd (5 / 4) : Bin 8).toRat = 5 / 4 := by decide +kernel
    unfold real
    rw [this]; norm_num
  · unfold wP'
    simp only [h1]
    norm_num

/-- the program on it: the test accepts the fourth sweep -/
example : (solveFl (M := Dense (Bin 8)) babs wP (Bin.rnd (5 / 4)) 30 (Bin.rnd (1 / 16))).toOption.map (fun s => (s.1[13]?.map (·.toRat), s.2)) = some (some (25 / 128), 4) := by
  decide +kernel
end witness
end NS.Props.Heat

/-
Property C112: the finite difference program `examples/poisson/fdm.cpp` in floating-point arithmetic, from assembling to the returned vector.
-/
import Verif.Props.RoundSor
import Verif.Props.FdmRate

set_option linter.unusedSectionVars false
set_option linter.unusedSimpArgs false

namespace NS.Props.Fdm
open NS NS.Fdm NS.Grid MatOps Matrix Real NS.Iterative NS.Props.Iter
open NS.Props.Rounding (VecFl MatFl SorRowV sorRows_pert pert_size sor_run)

/-! ## Assembling -/
section assemble
variable {F : Type} [Zero F] [One F] [Add F] [Sub F] [Mul F] [Div F] [Neg F] [NatCast F] [OfNat F 2]
variable {fl : F → ℝ} {u : ℝ} {M : Type} [MatOps M F] [LawfulStore M F]

theorem rowVal_map (hz : fl 0 = 0) (l : List (Nat × F)) (c : Nat) (x : F) : fl (rowVal l c x) = rowVal (l.map fun e => (e.1, fl e.2)) c (fl x) := by
  induction l generalizing x with
  | nil => rfl
  | cons e l ih =>
    rw [List.map_cons, rowVal, rowVal, ih]
    congr 1
    split_ifs <;> rfl

/-- the operations of the program beside the four basic ones: negation and the constants are exact, and the whole numbers up to `L` are represented -/
structure Exact (fl : F → ℝ) (L : Nat) : Prop where
  neg : ∀ a, fl (-a) = -fl a
  two : fl 2 = 2
  cast : ∀ n : Nat, n ≤ L → fl (n : F) = n

/-- with equal mesh widths the coefficients of the matrix are computed without error -/
theorem coeff_exact (h : Rounding.Std fl u) {L : Nat} (ex : Exact fl L) (hL : 4 ≤ L) {X Y : Nat} {k : F} (hk : fl k ≠ 0) (f b : F → F → F) :
    (⟨X, Y, k, k, f, b⟩ : Poisson F).r2 = 1 ∧ fl (⟨X, Y, k, k, f, b⟩ : Poisson F).c = -4 := by
  have h1 : fl (k * k) ≠ 0 := by
    intro h0
    have := h.mul k k
    rw [h0, zero_sub, abs_neg] at this
    have h2 : 0 < |fl k * fl k| := abs_pos.2 (mul_ne_zero hk hk)
    nlinarith [h.u_lt]
  have h2 : (⟨X, Y, k, k, f, b⟩ : Poisson F).r2 = 1 := h.div_exact _ _ _ h1 (by rw [div_self h1, h.one])
  refine ⟨h2, ?_⟩
  unfold Poisson.c
  rw [h2, h.add_exact 1 1 2 (by rw [h.one, ex.two]; norm_num)]
  have h4 : fl ((4 : Nat) : F) = 4 := by rw [ex.cast 4 hL]; norm_num
  rw [h.mul_exact (-2) 2 (-((4 : Nat) : F)) (by rw [ex.neg, ex.neg, ex.two, h4]; norm_num), ex.neg, h4]

theorem system_fl (h : Rounding.Std fl u) {L : Nat} (ex : Exact fl L) (hL : 4 ≤ L) {X Y : Nat} (hX : 0 < X) (hY : 0 < Y) {k : F} (hk : fl k ≠ 0) (f b : F → F → F)
    {h' : ℝ} (hh : h' ≠ 0) (f' b' : ℝ → ℝ → ℝ) : ∃ (a : M) (B : List F), system (⟨X, Y, k, k, f, b⟩ : Poisson F) = .ok (a, B) ∧
      MatFl fl a (mat (⟨X, Y, h', h', f', b'⟩ : Poisson ℝ)) ∧ VecFl fl B (X * Y) (fun i : Fin (X * Y) => fl (rhs (⟨X, Y, k, k, f, b⟩ : Poisson F) i)) := by
  obtain ⟨c1, c2⟩ := coeff_exact h ex hL hk f b (X := X) (Y := Y)
  obtain ⟨⟨a, B⟩, e, S, h1, h2⟩ := system_all (M := M) (p := (⟨X, Y, k, k, f, b⟩ : Poisson F))
    (fun a => h.mul_exact _ _ _ (by rw [ex.cast 0 (Nat.zero_le _), h.zero]; simp)) hX hY
  refine ⟨a, B, e, ⟨h1.valid, h1.rows, h1.cols, fun i j => ⟨_, LawfulStore.get_ok h1.valid (by rw [h1.rows]; exact i.2) (by rw [h1.cols]; exact j.2), ?_⟩⟩,
    h1.len, fun i => ⟨_, vecAt_get (by rw [h1.len]; exact i.2), ?_⟩⟩
  · rw [(h1.done i (h2 i i.2) i.2).1 j j.2]
    unfold mat row
    rw [rowVal_map h.zero, h.zero]
    congr 1
    have hr : (⟨X, Y, h', h', f', b'⟩ : Poisson ℝ).r2 = 1 := div_self (mul_ne_zero hh hh)
    have hc : (⟨X, Y, h', h', f', b'⟩ : Poisson ℝ).c = -4 := by unfold Poisson.c; rw [hr]; norm_num
    unfold entries
    rw [c1, hr, hc]
    by_cases hrim : OnRim (⟨X, Y, k, k, f, b⟩ : Poisson F) (i % X) (i / X)
    · rw [if_pos hrim, if_pos (show OnRim (⟨X, Y, h', h', f', b'⟩ : Poisson ℝ) (i % X) (i / X) from hrim)]
      simp [h.one]
    · rw [if_neg hrim, if_neg (show ¬ OnRim (⟨X, Y, h', h', f', b'⟩ : Poisson ℝ) (i % X) (i / X) from hrim)]
      simp [h.one, c2]
  · rw [(h1.done i (h2 i i.2) i.2).2]
end assemble

/-! ## Rounded sweeps on the inner points -/
section sweeps
variable {p : Poisson ℝ} {u w : ℝ}

/-- in rows of the boundary nothing happens; the others are those of the matrix of the inner points -/
theorem sorRow_core {b x y : Fin (p.xc * p.yc) → ℝ} (hb : ∀ i, rimIx p i → b i = 0) (hx : ∀ i, rimIx p i → x i = 0)
    (h : ∀ i, SorRowV u (mat p) w b x x y i) : (∀ i, rimIx p i → y i = 0) ∧ ∀ i, SorRowV u (core p) w (-b) x x y i := by
  have hy : ∀ i, rimIx p i → y i = 0 := by
    intro i hi
    obtain ⟨θ₁, θ₂, t, -, -, -, h4⟩ := h i
    rw [h4, hx i hi, hb i hi, Finset.sum_eq_zero fun j _ => ?_]
    · simp
    · by_cases hj : j = i
      · rw [if_pos hj]
      · rw [if_neg hj, mat_rim hi, if_neg hj]; simp
  refine ⟨hy, fun i => ?_⟩
  obtain ⟨θ₁, θ₂, t, h1, h2, h3, h4⟩ := h i
  refine ⟨θ₁, θ₂, t, h1, h2, h3, ?_⟩
  by_cases hi : rimIx p i
  · rw [hy i hi, hx i hi, Pi.neg_apply, hb i hi, Finset.sum_eq_zero fun j _ => ?_]
    · simp
    · by_cases hj : j = i
      · rw [if_pos hj]
      · rw [if_neg hj, core_off (.inl hi) (Ne.symm hj)]; simp
  · rw [h4]
    congr 3
    have e : (∑ j, if j = i then 0 else core p i j * (if j < i then y j else x j) * t j) = -∑ j, if j = i then 0 else mat p i j * (if j < i then y j else x j) * t j := by
      rw [← Finset.sum_neg_distrib]
      refine Finset.sum_congr rfl fun j _ => ?_
      by_cases hj : j = i
      · simp [hj]
      rw [if_neg hj, if_neg hj]
      by_cases hjr : rimIx p j
      · rw [hx j hjr, hy j hjr]; simp
      · rw [core_inner hi hjr]; ring
    rw [e, core_inner hi hi, Pi.neg_apply, neg_sub_neg, ← neg_sub (b i), neg_div_neg_eq]

/-- the system of the inner points -/
theorem core_solves {b z : Fin (p.xc * p.yc) → ℝ} (hb : ∀ i, rimIx p i → b i = 0) (hz : mat p *ᵥ z = b) : (∀ i, rimIx p i → z i = 0) ∧ core p *ᵥ z = -b := by
  have hzr : ∀ i, rimIx p i → z i = 0 := by
    intro i hi
    have := congrFun hz i
    rw [hb i hi, show (mat p *ᵥ z) i = z i by
      unfold Matrix.mulVec dotProduct
      rw [Finset.sum_eq_single i]
      · show mat p i i * z i = z i
        rw [mat_rim hi, if_pos rfl, one_mul]
      · intro j _ hj
        show mat p i j * z j = 0
        rw [mat_rim hi, if_neg hj, zero_mul]
      · simp] at this
    exact this
  refine ⟨hzr, funext fun i => ?_⟩
  by_cases hi : rimIx p i
  · rw [Pi.neg_apply, hb i hi, neg_zero]
    unfold Matrix.mulVec dotProduct
    refine Finset.sum_eq_zero fun j _ => ?_
    show core p i j * z j = 0
    by_cases hj : j = i
    · rw [hj, hzr i hi, mul_zero]
    · rw [core_off (.inl hi) (Ne.symm hj), zero_mul]
  · rw [core_mulVec hzr hi, hz, Pi.neg_apply]

/-- another weight: the difference is a perturbation of the right-hand side -/
theorem sweep_weight {n : Nat} {A : Matrix (Fin n) (Fin n) ℝ} (hd : ∀ i, A i i ≠ 0) {b x y : Fin n → ℝ} {w w' : ℝ} (hw : w ≠ 0) (hw' : w' ≠ 0) (h : IsSorSweep A b w' x x y) :
    IsSorSweep A (b + fun i => (1 / w - 1 / w') * (A i i * (y i - x i))) w x x y := by
  intro i
  have hi := h i
  rw [sweep_split] at hi ⊢
  rw [Pi.add_apply]
  have := hd i
  field_simp at hi ⊢
  linear_combination w * hi

/-- difference of two sweeps -/
theorem sweep_sub {n : Nat} {A : Matrix (Fin n) (Fin n) ℝ} {b c x y v t : Fin n → ℝ} {w : ℝ} (h1 : IsSorSweep A b w x x y) (h2 : IsSorSweep A c w v v t) :
    IsSorSweep A (b - c) w (x - v) (x - v) (y - t) := by
  intro i
  have e1 := h1 i
  have e2 := h2 i
  rw [Pi.sub_apply, e1, e2, Pi.sub_apply, Pi.sub_apply]
  have : (∑ j, if j < i then A i j * (y - t) j else if i < j then A i j * (x - v) j else 0) =
      (∑ j, if j < i then A i j * y j else if i < j then A i j * x j else 0) - ∑ j, if j < i then A i j * t j else if i < j then A i j * v j else 0 := by
    rw [← Finset.sum_sub_distrib]
    refine Finset.sum_congr rfl fun j _ => ?_
    rw [Pi.sub_apply, Pi.sub_apply]
    split_ifs <;> ring
  rw [this]
  ring
end sweeps

end NS.Props.Fdm

/-
Property C108 (grid part): how many sweeps are enough for the finite difference Poisson program.
-/
import Verif.Props.SorRate
import Verif.Props.FdmSlow
import Mathlib.Analysis.Complex.ExponentialBounds

set_option linter.unusedSectionVars false
set_option linter.unusedSimpArgs false

namespace NS.Props.Fdm
open NS NS.Fdm NS.Grid MatOps Matrix Real NS.Iterative NS.Props.Iter
variable {p : Poisson ℝ}

/-- the matrix of the inner grid points -/
noncomputable def core (p : Poisson ℝ) : Matrix (Fin (p.xc * p.yc)) (Fin (p.xc * p.yc)) ℝ := fun i j =>
  if ¬ rimIx p i ∧ ¬ rimIx p j then -mat p i j else if i = j then 2 * (1 + p.r2) else 0

theorem core_inner {i j : Fin (p.xc * p.yc)} (hi : ¬ rimIx p i) (hj : ¬ rimIx p j) : core p i j = -mat p i j := if_pos ⟨hi, hj⟩

theorem core_off {i j : Fin (p.xc * p.yc)} (h : rimIx p i ∨ rimIx p j) (hij : i ≠ j) : core p i j = 0 := by
  unfold core
  rw [if_neg (fun h' => h.elim h'.1 h'.2), if_neg hij]

theorem core_diag (i : Fin (p.xc * p.yc)) : core p i i = 2 * (1 + p.r2) := by
  unfold core
  by_cases h : rimIx p i
  · simp [h]
  · rw [if_pos ⟨h, h⟩, mat_inner h, if_pos rfl]; unfold Poisson.c; ring

theorem core_symm : (core p)ᵀ = core p := by
  ext i j
  rw [Matrix.transpose_apply]
  by_cases h : ¬ rimIx p i ∧ ¬ rimIx p j
  · rw [core_inner h.1 h.2, core_inner h.2 h.1, mat_inner h.1, mat_inner h.2]
    by_cases e : i = j
    · rw [e]
    have e' : ¬ (i : Nat) = j := fun h => e (Fin.ext h)
    rw [if_neg e', if_neg (Ne.symm e')]
    congr 2
    · exact propext (by omega)
    · congr 1
      exact propext (by omega)
  · by_cases e : i = j
    · rw [e]
    have h' : rimIx p i ∨ rimIx p j := by by_contra hc; rw [not_or] at hc; exact h hc
    rw [core_off h' e, core_off h'.symm (Ne.symm e)]

theorem core_nonpos (hh : p.h ≠ 0) (hk : p.k ≠ 0) {i j : Fin (p.xc * p.yc)} (hij : i ≠ j) : core p i j ≤ 0 := by
  by_cases h : ¬ rimIx p i ∧ ¬ rimIx p j
  · rw [core_inner h.1 h.2]
    exact (neg_mat_row hh hk i h.1).1 j (Ne.symm hij)
  · have h' : rimIx p i ∨ rimIx p j := by by_contra hc; rw [not_or] at hc; exact h hc
    exact (core_off h' hij).le

/-- a vector that vanishes on the rim -/
theorem core_mulVec {u : Fin (p.xc * p.yc) → ℝ} (hu : ∀ i, rimIx p i → u i = 0) {i : Fin (p.xc * p.yc)} (hi : ¬ rimIx p i) :
    (core p *ᵥ u) i = - (mat p *ᵥ u) i := by
  unfold Matrix.mulVec dotProduct
  rw [← Finset.sum_neg_distrib]
  refine Finset.sum_congr rfl fun j _ => ?_
  by_cases hj : rimIx p j
  · rw [hu j hj]; simp
  · show core p i j * u j = -(mat p i j * u j)
    rw [core_inner hi hj]; ring

theorem core_sweep {w : ℝ} {e e' : Fin (p.xc * p.yc) → ℝ} (he : ∀ i, rimIx p i → e i = 0) (he' : ∀ i, rimIx p i → e' i = 0)
    (hs : IsSorSweep (mat p) 0 w e e e') : IsSorSweep (core p) 0 w e e e' := by
  intro i
  by_cases hi : rimIx p i
  · have : (∑ j, (if j < i then core p i j * e' j else if i < j then core p i j * e j else 0)) = 0 := by
      refine Finset.sum_eq_zero fun j _ => ?_
      rcases lt_trichotomy j i with h | h | h
      · rw [if_pos h, core_off (.inl hi) h.ne', zero_mul]
      · subst h; simp
      · rw [if_neg (not_lt.2 h.le), if_pos h, core_off (.inl hi) h.ne, zero_mul]
    rw [this, he i hi, he' i hi]; simp
  · have : (∑ j, (if j < i then core p i j * e' j else if i < j then core p i j * e j else 0)) =
        -(∑ j, (if j < i then mat p i j * e' j else if i < j then mat p i j * e j else 0)) := by
      rw [← Finset.sum_neg_distrib]
      refine Finset.sum_congr rfl fun j _ => ?_
      by_cases hj : rimIx p j
      · rw [he j hj, he' j hj]; simp
      · rw [core_inner hi hj]; split_ifs <;> ring
    rw [this, core_inner hi hi, hs i]
    congr 2
    rw [Pi.zero_apply, zero_sub, zero_sub, neg_neg, ← neg_div_neg_eq]
    ring

/-- row sums on both sides of the diagonal -/
theorem core_row (hh : p.h ≠ 0) (hk : p.k ≠ 0) (i : Fin (p.xc * p.yc)) :
    (∑ j, (if j < i then |core p i j| else 0)) ≤ 1 + p.r2 ∧ (∑ j, (if i < j then |core p i j| else 0)) ≤ 1 + p.r2 := by
  have hr2 := r2_pos hh hk
  by_cases hi : rimIx p i
  · have z : ∀ j, (if j < i then |core p i j| else 0) = 0 ∧ (if i < j then |core p i j| else 0) = 0 := by
      intro j
      constructor <;> split_ifs with h
      · rw [core_off (.inl hi) h.ne', abs_zero]
      · rfl
      · rw [core_off (.inl hi) h.ne, abs_zero]
      · rfl
    constructor
    · rw [Finset.sum_eq_zero fun j _ => (z j).1]; linarith
    · rw [Finset.sum_eq_zero fun j _ => (z j).2]; linarith
  obtain ⟨h1, h2, h3, h4⟩ := inner_ix hi
  have habs : ∀ j, j ≠ i → |core p i j| ≤ if (j : Nat) + 1 = i ∨ (j : Nat) = i + 1 then p.r2 else if (j : Nat) + p.xc = i ∨ (j : Nat) = i + p.xc then 1 else 0 := by
    intro j hj
    by_cases hj' : rimIx p j
    · rw [core_off (.inr hj') hj.symm, abs_zero]
      split_ifs <;> linarith
    · rw [core_inner hi hj', abs_neg, mat_inner hi, if_neg (fun h => hj (Fin.ext h))]
      split_ifs
      · rw [abs_of_pos hr2]
      · simp
      · simp
  have two : ∀ (F : Fin (p.xc * p.yc) → ℝ) (a b : Fin (p.xc * p.yc)), (∀ j, F j ≤ (if j = a then p.r2 else 0) + if j = b then 1 else 0) → ∑ j, F j ≤ 1 + p.r2 := by
    intro F a b hF
    refine (Finset.sum_le_sum fun j _ => hF j).trans ?_
    rw [Finset.sum_add_distrib]
    simp [add_comm]
  constructor
  · refine two _ ⟨i - 1, by omega⟩ ⟨i - p.xc, by omega⟩ fun j => ?_
    by_cases hj : j < i
    · rw [if_pos hj]
      refine (habs j hj.ne).trans ?_
      have hj' : (j : Nat) < i := hj
      simp only [Fin.ext_iff]
      split_ifs <;> first | linarith | omega
    · rw [if_neg hj]
      split_ifs <;> linarith
  · refine two _ ⟨i + 1, by omega⟩ ⟨i + p.xc, by omega⟩ fun j => ?_
    by_cases hj : i < j
    · rw [if_pos hj]
      refine (habs j hj.ne').trans ?_
      have hj' : (i : Nat) < j := hj
      simp only [Fin.ext_iff]
      split_ifs <;> first | linarith | omega
    · rw [if_neg hj]
      split_ifs <;> linarith

/-- the product of two parabolas, zero on the rim -/
noncomputable def hill (p : Poisson ℝ) (X Y : Nat) (r : Fin (p.xc * p.yc)) : ℝ :=
  (((r : Nat) % p.xc : Nat) : ℝ) * (X - ((r : Nat) % p.xc : Nat)) * ((((r : Nat) / p.xc : Nat) : ℝ) * (Y - ((r : Nat) / p.xc : Nat)))

theorem hill_val {X Y x y : Nat} (hx : x < p.xc) (hy : y < p.yc) : val2 p (hill p X Y) x y = (x : ℝ) * (X - x) * (y * (Y - y)) := by
  have h := lin_lt (p := p) hx hy
  have e : val2 p (hill p X Y) x y = hill p X Y ⟨p.lin x y, h⟩ := by
    unfold val2 ev
    exact dif_pos h
  rw [e]
  unfold hill
  simp only
  rw [lin_mod hx, lin_div hx]

theorem hill_rim {X Y : Nat} (hX : p.xc = X + 1) (hY : p.yc = Y + 1) {r : Fin (p.xc * p.yc)} (h : rimIx p r) : hill p X Y r = 0 := by
  unfold hill
  rcases h with h | h | h | h
  · rw [h]; simp
  · rw [h]; simp
  · rw [h, show p.xc - 1 = X by omega]; simp
  · rw [h, show p.yc - 1 = Y by omega]; simp

theorem hill_pos {X Y : Nat} (hX : p.xc = X + 1) (hY : p.yc = Y + 1) {r : Fin (p.xc * p.yc)} (h : ¬ rimIx p r) : 0 < hill p X Y r ∧
    (core p *ᵥ hill p X Y) r = 2 * p.r2 * ((((r : Nat) / p.xc : Nat) : ℝ) * (Y - ((r : Nat) / p.xc : Nat))) + 2 * ((((r : Nat) % p.xc : Nat) : ℝ) * (X - ((r : Nat) % p.xc : Nat))) := by
  have hx := mod_lt r.2
  have hy := div_lt r.2
  obtain ⟨i1, i2, i3, i4⟩ := inner_pos hx hy h
  constructor
  · unfold hill
    have a1 : (1 : ℝ) ≤ ((r : Nat) % p.xc : Nat) := by exact_mod_cast i1
    have a2 : (((r : Nat) % p.xc : Nat) : ℝ) + 1 ≤ X := by exact_mod_cast (by omega : (r : Nat) % p.xc + 1 ≤ X)
    have a3 : (1 : ℝ) ≤ ((r : Nat) / p.xc : Nat) := by exact_mod_cast i3
    have a4 : (((r : Nat) / p.xc : Nat) : ℝ) + 1 ≤ Y := by exact_mod_cast (by omega : (r : Nat) / p.xc + 1 ≤ Y)
    have b1 : (0 : ℝ) < X - ((r : Nat) % p.xc : Nat) := by linarith
    have b2 : (0 : ℝ) < Y - ((r : Nat) / p.xc : Nat) := by linarith
    positivity
  · rw [core_mulVec (fun i hi => hill_rim hX hY hi) h]
    have hm := mulVec_row (p := p) (hill p X Y) hx hy
    rw [if_neg (show ¬ OnRim p ((r : Nat) % p.xc) ((r : Nat) / p.xc) from h)] at hm
    have e : (⟨p.lin ((r : Nat) % p.xc) ((r : Nat) / p.xc), lin_lt hx hy⟩ : Fin (p.xc * p.yc)) = r := Fin.ext (lin_of _ r.2)
    rw [e] at hm
    change (mat p *ᵥ _) _ = _ at hm
    rw [hm, hill_val (by omega) hy, hill_val (by omega) hy, hill_val hx (by omega), hill_val hx (by omega), hill_val hx hy, Nat.cast_sub i1, Nat.cast_sub i3]
    push_cast
    ring

/-- lower bound of the quadratic form -/
theorem core_form (hh : p.h ≠ 0) (hk : p.k ≠ 0) {X Y : Nat} (hX2 : 2 ≤ X) (hY2 : 2 ≤ Y) (hX : p.xc = X + 1) (hY : p.yc = Y + 1) (v : Fin (p.xc * p.yc) → ℝ) :
    8 * (p.r2 / X ^ 2 + 1 / Y ^ 2) * nsq v ≤ v ⬝ᵥ core p *ᵥ v := by
  have hr2 := r2_pos hh hk
  have hXr : (2 : ℝ) ≤ X := by exact_mod_cast hX2
  have hYr : (2 : ℝ) ≤ Y := by exact_mod_cast hY2
  refine ground_state core_symm (fun i j hij => core_nonpos hh hk hij) (s := fun r => if rimIx p r then 1 else hill p X Y r) (fun i => ?_) (fun i => ?_) v
  · beta_reduce
    split_ifs with h
    · exact one_pos
    · exact (hill_pos hX hY h).1
  · by_cases h : rimIx p i
    · have e : (core p *ᵥ fun r => if rimIx p r then 1 else hill p X Y r) i = 2 * (1 + p.r2) := by
        unfold Matrix.mulVec dotProduct
        rw [Finset.sum_eq_single i]
        · show core p i i * (if rimIx p i then 1 else hill p X Y i) = _
          rw [if_pos h, mul_one]; exact core_diag i
        · intro j _ hj
          show core p i j * _ = 0
          rw [core_off (.inl h) hj.symm, zero_mul]
        · simp
      rw [e, if_pos h, mul_one]
      have h1 : p.r2 / (X : ℝ) ^ 2 ≤ p.r2 / 4 := by gcongr; nlinarith
      have h2 : 1 / (Y : ℝ) ^ 2 ≤ 1 / 4 := by gcongr; nlinarith
      linarith
    · have e : (core p *ᵥ fun r => if rimIx p r then 1 else hill p X Y r) i = (core p *ᵥ hill p X Y) i := by
        unfold Matrix.mulVec dotProduct
        refine Finset.sum_congr rfl fun j _ => ?_
        show core p i j * (if rimIx p j then 1 else hill p X Y j) = core p i j * _
        by_cases hj : rimIx p j
        · rw [core_off (.inr hj) (fun e => h (by rw [e]; exact hj)), zero_mul, zero_mul]
        · rw [if_neg hj]
      rw [e, if_neg h, (hill_pos hX hY h).2]
      unfold hill
      have hx := mod_lt i.2
      have hy := div_lt i.2
      obtain ⟨i1, i2, i3, i4⟩ := inner_pos hx hy h
      have a1 : (1 : ℝ) ≤ ((i : Nat) % p.xc : Nat) := by exact_mod_cast i1
      have a2 : (((i : Nat) % p.xc : Nat) : ℝ) + 1 ≤ X := by exact_mod_cast (by omega : (i : Nat) % p.xc + 1 ≤ X)
      have a3 : (1 : ℝ) ≤ ((i : Nat) / p.xc : Nat) := by exact_mod_cast i3
      have a4 : (((i : Nat) / p.xc : Nat) : ℝ) + 1 ≤ Y := by exact_mod_cast (by omega : (i : Nat) / p.xc + 1 ≤ Y)
      generalize (((i : Nat) % p.xc : Nat) : ℝ) = x at *
      generalize (((i : Nat) / p.xc : Nat) : ℝ) = y at *
      have key : ∀ N t : ℝ, 0 < N → 1 / N ^ 2 * (t * (N - t)) ≤ 1 / 4 := by
        intro N t hN
        rw [one_div_mul_eq_div, div_le_iff₀ (by positivity)]
        nlinarith [sq_nonneg (N - 2 * t)]
      have k1 := key X x (by linarith)
      have k2 := key Y y (by linarith)
      have f1 : 0 ≤ y * (Y - y) := mul_nonneg (by linarith) (by linarith)
      have f2 : 0 ≤ x * (X - x) := mul_nonneg (by linarith) (by linarith)
      have g1 := mul_le_mul_of_nonneg_right k1 (mul_nonneg hr2.le f1)
      have g2 := mul_le_mul_of_nonneg_right k2 f2
      have e : 8 * (p.r2 / (X : ℝ) ^ 2 + 1 / (Y : ℝ) ^ 2) * (x * (X - x) * (y * (Y - y))) =
          8 * (1 / (X : ℝ) ^ 2 * (x * (X - x)) * (p.r2 * (y * (Y - y)))) + 8 * (1 / (Y : ℝ) ^ 2 * (y * (Y - y)) * (x * (X - x))) := by ring
      rw [e]
      linarith

theorem core_spd (hh : p.h ≠ 0) (hk : p.k ≠ 0) {X Y : Nat} (hX2 : 2 ≤ X) (hY2 : 2 ≤ Y) (hX : p.xc = X + 1) (hY : p.yc = Y + 1) : NS.CG.SPD (core p) := by
  have hr2 := r2_pos hh hk
  refine ⟨core_symm, fun v hv => lt_of_lt_of_le ?_ (core_form hh hk hX2 hY2 hX hY v)⟩
  have : 0 < nsq v := lt_of_not_ge fun h => hv (nsq_eq_zero h)
  have h1 : (0 : ℝ) < X := by exact_mod_cast (by omega : 0 < X)
  have h2 : (0 : ℝ) < Y := by exact_mod_cast (by omega : 0 < Y)
  positivity

/-- a sum over the unknowns is a sum over the grid -/
theorem nsq_grid {X Y : Nat} (hX : p.xc = X + 1) (hY : p.yc = Y + 1) (v : Fin (p.xc * p.yc) → ℝ) :
    nsq v = ∑ y ∈ Finset.range (Y + 1), ∑ x ∈ Finset.range (X + 1), val2 p v x y ^ 2 := by
  have e1 : nsq v = ∑ i : Fin (p.xc * p.yc), ev v i ^ 2 := Finset.sum_congr rfl fun i _ => by rw [ev_fin]
  rw [e1, Fin.sum_univ_eq_sum_range (fun i => ev v i ^ 2)]
  have key : ∀ m, ∑ i ∈ Finset.range (p.xc * m), ev v i ^ 2 = ∑ y ∈ Finset.range m, ∑ x ∈ Finset.range p.xc, val2 p v x y ^ 2 := by
    intro m
    induction m with
    | zero => simp
    | succ m ih =>
      rw [Nat.mul_succ, Finset.sum_range_add, ih, Finset.sum_range_succ]
      congr 1
      refine Finset.sum_congr rfl fun x _ => ?_
      unfold val2
      rw [mul_comm m]
  rw [show Finset.range (Y + 1) = Finset.range p.yc by rw [hY], show Finset.range (X + 1) = Finset.range p.xc by rw [hX]]
  exact key _

theorem grid_sum_le {X Y : Nat} {g : Nat → Nat → ℝ} {C : ℝ} (hC : 0 ≤ C) (h0 : ∀ x y, x ≤ X → y ≤ Y → x = 0 ∨ y = 0 → g x y ≤ 0)
    (h1 : ∀ x y, x ≤ X → y ≤ Y → g x y ≤ C) : ∑ y ∈ Finset.range (Y + 1), ∑ x ∈ Finset.range (X + 1), g x y ≤ C * (X * Y) := by
  have hrow : ∀ y, y ≤ Y → ∑ x ∈ Finset.range (X + 1), g x y ≤ X * C := by
    intro y hy
    rw [Finset.sum_range_succ']
    have a1 := h0 0 y (Nat.zero_le _) hy (.inl rfl)
    have a2 : ∑ x ∈ Finset.range X, g (x + 1) y ≤ ∑ x ∈ Finset.range X, C := Finset.sum_le_sum fun x hx => h1 _ _ (by rw [Finset.mem_range] at hx; omega) hy
    rw [Finset.sum_const, Finset.card_range, nsmul_eq_mul] at a2
    linarith
  rw [Finset.sum_range_succ']
  have b1 : ∑ x ∈ Finset.range (X + 1), g x 0 ≤ 0 := Finset.sum_nonpos fun x hx => h0 _ _ (by rw [Finset.mem_range] at hx; omega) (Nat.zero_le _) (.inr rfl)
  have b2 : ∑ y ∈ Finset.range Y, ∑ x ∈ Finset.range (X + 1), g x (y + 1) ≤ ∑ y ∈ Finset.range Y, X * C :=
    Finset.sum_le_sum fun y hy => hrow _ (by rw [Finset.mem_range] at hy; omega)
  rw [Finset.sum_const, Finset.card_range, nsmul_eq_mul] at b2
  have : (Y : ℝ) * (X * C) = C * (X * Y) := by ring
  linarith

/-- **C108**: the solver of the finite difference Poisson program (zero boundary values, `X` times `Y` cells, mesh widths `h` and `k`, weight `w`, source bounded by
`F`).  With `Λ = 8 (1 / (X h)² + 1 / (Y k)²)` and `D = 2 (1 / h² + 1 / k²)` every sweep multiplies the squared error by at most
`q = 1 - 4 (2 / w - 1) Λ / ((2 / w + 1)² D)` in the energy norm: the sum of the squared errors after `it` sweeps is at most `q ^ it (F / Λ)² X Y`.  If the program
stops before its limit, this sum is at most `((2 / w + 1) D eps / (2 Λ))²`; and it stops after at most `K + 1` sweeps if `q ^ K F² X Y / Λ ≤ (2 / w - 1) D eps²`. -/
theorem C108_fdm {M : Type} [MatOps M ℝ] [LawfulMat M ℝ] {X Y : Nat} (hX2 : 2 ≤ X) (hY2 : 2 ≤ Y) (hX : p.xc = X + 1) (hY : p.yc = Y + 1)
    (hh : p.h ≠ 0) (hk : p.k ≠ 0) (hb : ∀ x y, p.b x y = 0) {w : ℝ} (hw0 : 0 < w) (hw2 : w < 2) {F : ℝ}
    (hF : ∀ x y : Nat, 0 < x → x < X → 0 < y → y < Y → |p.f (x * p.h) (y * p.k)| ≤ F)
    {z : Fin (p.xc * p.yc) → ℝ} (hz : Solves p z) {Λ D q : ℝ} (hΛ : Λ = 8 * (1 / (X * p.h) ^ 2 + 1 / (Y * p.k) ^ 2)) (hD : D = 2 * (1 / p.h ^ 2 + 1 / p.k ^ 2))
    (hq : q = 1 - 4 * (2 / w - 1) * Λ / ((2 / w + 1) ^ 2 * D)) (maxIter : Nat) (eps : ℝ) :
    ∃ u it, solve (M := M) p w maxIter eps = .ok (fl u, it) ∧ it ≤ maxIter ∧
      (∑ y ∈ Finset.range (Y + 1), ∑ x ∈ Finset.range (X + 1), (val2 p u x y - val2 p z x y) ^ 2 ≤ q ^ it * ((F / Λ) ^ 2 * (X * Y))) ∧
      (it < maxIter → ∑ y ∈ Finset.range (Y + 1), ∑ x ∈ Finset.range (X + 1), (val2 p u x y - val2 p z x y) ^ 2 ≤ ((2 / w + 1) * D * eps / (2 * Λ)) ^ 2) ∧
      ∀ K, q ^ K * (F ^ 2 / Λ * (X * Y)) ≤ (2 / w - 1) * D * eps ^ 2 → it ≤ K + 1 := by
  have h0x : 0 < p.xc := by omega
  have h0y : 0 < p.yc := by omega
  have hr2 := r2_pos hh hk
  have hc : p.c ≠ 0 := by unfold Poisson.c; nlinarith
  have hXr : (2 : ℝ) ≤ X := by exact_mod_cast hX2
  have hYr : (2 : ℝ) ≤ Y := by exact_mod_cast hY2
  have hX0 : (0 : ℝ) < X := by linarith
  have hY0 : (0 : ℝ) < Y := by linarith
  have hh2 : 0 < p.h ^ 2 := by positivity
  have hk2 : 0 < p.k ^ 2 := by positivity
  have hΛ0 : 0 < Λ := by rw [hΛ]; positivity
  have hD0 : 0 < D := by rw [hD]; positivity
  have hF0 : 0 ≤ F := (abs_nonneg _).trans (hF 1 1 (by omega) (by omega) (by omega) (by omega))
  -- the constants of the general theorem
  have el : 8 * (p.r2 / (X : ℝ) ^ 2 + 1 / (Y : ℝ) ^ 2) = p.k ^ 2 * Λ := by
    rw [hΛ]; unfold Poisson.r2; field_simp
  have ed : 2 * (1 + p.r2) = p.k ^ 2 * D := by
    rw [hD]; unfold Poisson.r2; field_simp; ring
  have eR : 2 * (1 + p.r2) / w + (1 + p.r2) = (2 / w + 1) * (p.k ^ 2 * D / 2) := by
    rw [← ed]; ring
  have hR0 : 0 < (2 / w + 1) * (p.k ^ 2 * D / 2) := by positivity
  have eq : 1 - (2 / w - 1) * (p.k ^ 2 * D) * (p.k ^ 2 * Λ) / ((2 / w + 1) * (p.k ^ 2 * D / 2)) ^ 2 = q := by
    rw [hq]
    have : (2 / w + 1) ≠ 0 := by positivity
    field_simp
    ring
  obtain ⟨⟨a, b'⟩, e, h1, h2⟩ := system_upto (M := M) (p := p) h0x h0y
  have hd : ∀ i, mat p i i ≠ 0 := by
    intro i
    by_cases hi : rimIx p i
    · rw [mat_rim hi, if_pos rfl]; exact one_ne_zero
    · rw [mat_inner hi, if_pos rfl]; exact hc
  obtain ⟨y, k, k0, k1, k2, k3, k4⟩ := C38_sor (b := fun i : Fin (p.xc * p.yc) => rhs p i) (x0 := 0) h1 hd w maxIter eps
  have hmz := (solves_iff hh hk z).2 hz
  have hsw : ∀ j, IsSorSweep (mat p) 0 w (y j - z) (y j - z) (y (j + 1) - z) := by
    intro j
    refine sweep_error hd hmz ?_
    rcases Nat.eq_zero_or_pos j with rfl | hj
    · rw [k0]; exact k1
    · exact k2 j hj
  have hzr : ∀ i, rimIx p i → z i = 0 := by
    intro i hi
    have := congrFun hmz i
    rw [show (mat p *ᵥ z) i = z i by
      unfold Matrix.mulVec dotProduct
      rw [Finset.sum_eq_single i]
      · show mat p i i * z i = z i
        rw [mat_rim hi, if_pos rfl, one_mul]
      · intro j _ hj
        show mat p i j * z j = 0
        rw [mat_rim hi, if_neg hj, zero_mul]
      · simp] at this
    have hx := mod_lt i.2
    have hy := div_lt i.2
    have e5 := rhs_lin (p := p) (x := (i : Nat) % p.xc) (y := (i : Nat) / p.xc) hx
    rw [lin_of _ i.2, if_pos (show OnRim p ((i : Nat) % p.xc) ((i : Nat) / p.xc) from hi), hb] at e5
    rw [this]; exact e5
  have hrim : ∀ j i, rimIx p i → (y j - z) i = 0 := by
    intro j
    induction j with
    | zero => intro i hi; rw [k0, Pi.sub_apply, hzr i hi]; simp
    | succ j ih =>
      intro i hi
      have hx := mod_lt i.2
      have hy := div_lt i.2
      have hl := lin_of (p := p) i i.2
      have := sweep_rim (hsw j) hx hy hi
      have e6 : ∀ v : Fin (p.xc * p.yc) → ℝ, val2 p v ((i : Nat) % p.xc) ((i : Nat) / p.xc) = v i := by
        intro v
        unfold val2
        unfold Poisson.lin at hl
        rw [hl, ev_fin]
      rw [e6, e6, ih i hi, mul_zero] at this
      exact this
  have hcs : ∀ j, IsSorSweep (core p) 0 w (y j - z) (y j - z) (y (j + 1) - z) := fun j => core_sweep (hrim j) (hrim (j + 1)) (hsw j)
  obtain ⟨r1, r2, r3⟩ := rate_core (core_spd hh hk hX2 hY2 hX hY) hw0 hw2 (lam := p.k ^ 2 * Λ) (δ := p.k ^ 2 * D) (R := (2 / w + 1) * (p.k ^ 2 * D / 2))
    (by positivity) (by positivity) hR0 (fun v => by rw [← el]; exact core_form hh hk hX2 hY2 hX hY v) (fun i => by rw [core_diag, ed])
    (fun i => by rw [core_diag, ← eR]; linarith [(core_row hh hk i).1]) (fun i => by rw [core_diag, ← eR]; linarith [(core_row hh hk i).2]) hcs (k4.shift z)
  rw [eq] at r1 r3
  rw [k0] at r1 r3
  -- the energy of the solution
  have hE0 : p.k ^ 2 * Λ * ((0 - z) ⬝ᵥ core p *ᵥ (0 - z)) ≤ (p.k ^ 2 * F) ^ 2 * (X * Y) := by
    refine (energy_le (A := core p) (lam := p.k ^ 2 * Λ) (by positivity) (fun v => by rw [← el]; exact core_form hh hk hX2 hY2 hX hY v) (0 - z)).trans ?_
    rw [nsq_grid hX hY]
    have hz0 : ∀ i, rimIx p i → ((0 : Fin (p.xc * p.yc) → ℝ) - z) i = 0 := fun i hi => by rw [Pi.sub_apply, hzr i hi]; simp
    have hval : ∀ x' y' (hx' : x' < p.xc) (hy' : y' < p.yc), val2 p (core p *ᵥ (0 - z)) x' y' = if OnRim p x' y' then 0 else p.k ^ 2 * p.f (x' * p.h) (y' * p.k) := by
      intro x' y' hx' hy'
      have h := lin_lt (p := p) hx' hy'
      have e5 : val2 p (core p *ᵥ (0 - z)) x' y' = (core p *ᵥ (0 - z)) ⟨p.lin x' y', h⟩ := by
        unfold val2 ev
        exact dif_pos h
      have hix : rimIx p ⟨p.lin x' y', h⟩ ↔ OnRim p x' y' := by
        unfold rimIx
        simp only
        rw [lin_mod hx', lin_div hx']
      rw [e5]
      by_cases hr : OnRim p x' y'
      · rw [if_pos hr]
        unfold Matrix.mulVec dotProduct
        refine Finset.sum_eq_zero fun j _ => ?_
        show core p _ j * _ = 0
        by_cases hj : rimIx p j
        · rw [hz0 j hj, mul_zero]
        · rw [core_off (.inl (hix.2 hr)) (fun e6 => hj (by rw [← e6]; exact hix.2 hr)), zero_mul]
      · rw [if_neg hr, core_mulVec hz0 (fun h6 => hr (hix.1 h6)), zero_sub, Matrix.mulVec_neg, Pi.neg_apply, neg_neg, hmz]
        simp only
        rw [rhs_lin hx', if_neg hr]
        ring
    refine grid_sum_le (by positivity) (fun x' y' hx' hy' h0 => ?_) (fun x' y' hx' hy' => ?_)
    · rw [hval x' y' (by omega) (by omega), if_pos (by unfold OnRim; omega)]; simp
    · rw [hval x' y' (by omega) (by omega)]
      by_cases hr : OnRim p x' y'
      · rw [if_pos hr, zero_pow two_ne_zero]; positivity
      · rw [if_neg hr]
        obtain ⟨i1, i2, i3, i4⟩ := inner_pos (p := p) (x := x') (y := y') (by omega) (by omega) hr
        have := hF x' y' (by omega) (by omega) (by omega) (by omega)
        rw [mul_pow, mul_pow]
        exact mul_le_mul_of_nonneg_left (by rw [← sq_abs]; exact pow_le_pow_left₀ (abs_nonneg _) this 2) (by positivity)
  have hsum : ∀ u : Fin (p.xc * p.yc) → ℝ, ∑ y' ∈ Finset.range (Y + 1), ∑ x' ∈ Finset.range (X + 1), (val2 p u x' y' - val2 p z x' y') ^ 2 = nsq (u - z) := by
    intro u
    rw [nsq_grid hX hY]
    refine Finset.sum_congr rfl fun y' _ => Finset.sum_congr rfl fun x' _ => ?_
    have : val2 p (u - z) x' y' = val2 p u x' y' - val2 p z x' y' := val2_sub u z x' y'
    rw [this]
  have hq0 : 0 ≤ q := by
    rw [hq, sub_nonneg, div_le_one (by positivity)]
    have h5 : Λ ≤ D := by
      rw [hΛ, hD]
      have a1 : 1 / ((X : ℝ) * p.h) ^ 2 ≤ 1 / (4 * p.h ^ 2) := by
        rw [mul_pow]; gcongr; nlinarith
      have a2 : 1 / ((Y : ℝ) * p.k) ^ 2 ≤ 1 / (4 * p.k ^ 2) := by
        rw [mul_pow]; gcongr; nlinarith
      have a3 : 1 / (4 * p.h ^ 2) = 1 / p.h ^ 2 / 4 := by field_simp
      have a4 : 1 / (4 * p.k ^ 2) = 1 / p.k ^ 2 / 4 := by field_simp
      linarith
    have h6 : 4 * (2 / w - 1) ≤ (2 / w + 1) ^ 2 := by nlinarith [sq_nonneg (2 / w - 1)]
    have h7 : 0 ≤ (2 / w + 1) ^ 2 := sq_nonneg _
    exact (mul_le_mul_of_nonneg_right h6 hΛ0.le).trans (mul_le_mul_of_nonneg_left h5 h7)
  set E0 := (0 - z) ⬝ᵥ core p *ᵥ (0 - z)
  have hE1 : E0 ≤ p.k ^ 2 * (F ^ 2 / Λ * (X * Y)) := by
    have : E0 ≤ (p.k ^ 2 * F) ^ 2 * (X * Y) / (p.k ^ 2 * Λ) := by rw [le_div_iff₀ (by positivity)]; linarith
    refine this.trans (le_of_eq ?_)
    field_simp
  refine ⟨y k, k, ?_, k4.1, ?_, fun hlt => ?_, fun K hK => r3 K ?_⟩
  · unfold solve
    have e3 : (Vec.resize [] (p.xc * p.yc) : List ℝ).map Fl.fin = fl (0 : Fin (p.xc * p.yc) → ℝ) := by
      unfold fl Vec.resize
      apply List.ext_getElem (by simp)
      intro i _ _
      simp
    rw [e, ok_bind, fl_of_isVec h2]
    show sor a _ ((Vec.resize [] (p.xc * p.yc) : List ℝ).map Fl.fin) w maxIter eps = _
    rw [e3]
    exact k3
  · rw [hsum]
    have g1 := core_form hh hk hX2 hY2 hX hY (y k - z)
    rw [el] at g1
    have g2 := mul_le_mul_of_nonneg_left hE1 (pow_nonneg hq0 k)
    have g3 : p.k ^ 2 * Λ * nsq (y k - z) ≤ p.k ^ 2 * Λ * (q ^ k * ((F / Λ) ^ 2 * (X * Y))) := by
      refine g1.trans (r1.trans (g2.trans (le_of_eq ?_)))
      field_simp
    exact le_of_mul_le_mul_left g3 (by positivity)
  · rw [hsum]
    refine (r2 hlt).trans (le_of_eq ?_)
    congr 1
    field_simp
  · refine (mul_le_mul_of_nonneg_left hE1 (pow_nonneg hq0 K)).trans ?_
    have := mul_le_mul_of_nonneg_left hK hk2.le
    linarith

/-- **C108**: the finite difference program with `N + 1` points in both directions, its weight 1.2 and its source.  If at least `7 N ^ 2` sweeps are allowed and the tolerance is
at most `1 / (1000 N)`, the values it writes differ from the true solution of the Poisson problem (largest value about 0.05) by at most 0.0005 in the root mean square over the grid.
(With the shipped 1024 sweeps on 201 x 201 points they do not, C104.) -/
theorem C108_program {M : Type} [MatOps M ℝ] [LawfulMat M ℝ] {N maxIter : Nat} (hN : 200 ≤ N) (hm : 7 * N ^ 2 ≤ maxIter) {q : ℝ} (hq : |q - π| ≤ 1 / 100000)
    {eps : ℝ} (he0 : 0 ≤ eps) (he : N * eps ≤ 1 / 1000) :
    ∃ u it, solve (M := M) (shipped N q) (6 / 5) maxIter eps = .ok (fl u, it) ∧
      ∑ y ∈ Finset.range (N + 1), ∑ x ∈ Finset.range (N + 1), (val2 (shipped N q) u x y - exact (x / N) (y / N)) ^ 2 ≤ N ^ 2 * (1 / 2000) ^ 2 := by
  have hNr : (200 : ℝ) ≤ N := by exact_mod_cast hN
  have hN0 : (0 : ℝ) < N := by linarith
  have hh : (shipped N q).h ≠ 0 := by show 1 / (N : ℝ) ≠ 0; positivity
  have hk : (shipped N q).k ≠ 0 := hh
  obtain ⟨_, _, _, _, _, _, _, _, z, hz, -⟩ := C71_fdm_poisson (M := M) (p := shipped N q) (Nat.succ_pos _) (Nat.succ_pos _) hh hk
  obtain ⟨u, it, h1, h2, h3, h4, -⟩ := C108_fdm (M := M) (p := shipped N q) (X := N) (Y := N) (w := 6 / 5) (F := 1) (Λ := 16) (D := 4 * N ^ 2) (q := 1 - 3 / 2 / N ^ 2)
    (by omega) (by omega) rfl rfl hh hk (fun _ _ => rfl) (by norm_num) (by norm_num)
    (fun x y _ _ _ _ => by
      show |(-sin (q * _) * sin (q * _))| ≤ 1
      rw [abs_mul, abs_neg]
      exact mul_le_one₀ (abs_sin_le_one _) (abs_nonneg _) (abs_sin_le_one _)) hz
    (by show (16 : ℝ) = 8 * (1 / ((N : ℝ) * (1 / N)) ^ 2 + 1 / ((N : ℝ) * (1 / N)) ^ 2); field_simp; norm_num)
    (by show (4 * N ^ 2 : ℝ) = 2 * (1 / (1 / (N : ℝ)) ^ 2 + 1 / (1 / (N : ℝ)) ^ 2); field_simp; norm_num) (by field_simp; ring) maxIter eps
  refine ⟨u, it, h1, ?_⟩
  have hN2 : (0 : ℝ) < (N : ℝ) ^ 2 := by positivity
  have hex : Real.exp (-10.5) ≤ 1 / 33000 := by
    rw [Real.exp_neg, ← one_div]
    refine one_div_le_one_div_of_le (by norm_num) ?_
    have a1 : Real.exp 10.5 = Real.exp 1 ^ 10 * Real.exp 0.5 := by
      rw [← Real.exp_nat_mul, ← Real.exp_add]; norm_num
    have a2 : (2.718 : ℝ) ^ 10 ≤ Real.exp 1 ^ 10 := pow_le_pow_left₀ (by norm_num) (by linarith [Real.exp_one_gt_d9]) 10
    have a3 : (1.5 : ℝ) ≤ Real.exp 0.5 := by linarith [Real.add_one_le_exp (0.5 : ℝ)]
    rw [a1]
    calc (33000 : ℝ) ≤ 2.718 ^ 10 * 1.5 := by norm_num
      _ ≤ _ := mul_le_mul a2 a3 (by norm_num) (by positivity)
  have hS : ∑ y ∈ Finset.range (N + 1), ∑ x ∈ Finset.range (N + 1), (val2 (shipped N q) u x y - val2 (shipped N q) z x y) ^ 2 ≤ N ^ 2 * (1.19 / 10 ^ 7) := by
    rcases Nat.lt_or_ge it maxIter with hlt | hge
    · refine (h4 hlt).trans ?_
      have e1 : (2 / (6 / 5) + 1) * (4 * (N : ℝ) ^ 2) * eps / (2 * 16) = N * (N * eps) / 3 := by ring
      rw [e1]
      have e2 : (N * (N * eps) / 3) ^ 2 = (N : ℝ) ^ 2 * ((N * eps) ^ 2 / 9) := by ring
      rw [e2]
      refine mul_le_mul_of_nonneg_left ?_ hN2.le
      have : (N * eps) ^ 2 ≤ (1 / 1000 : ℝ) ^ 2 := pow_le_pow_left₀ (by positivity) he 2
      norm_num at *
      linarith
    · refine h3.trans ?_
      have hq0 : 0 ≤ 1 - 3 / 2 / (N : ℝ) ^ 2 := by
        rw [sub_nonneg, div_le_one hN2]; nlinarith
      have a1 : (1 - 3 / 2 / (N : ℝ) ^ 2) ^ it ≤ Real.exp (-10.5) := by
        have a2 : 1 - 3 / 2 / (N : ℝ) ^ 2 ≤ Real.exp (-(3 / 2 / (N : ℝ) ^ 2)) := Real.one_sub_le_exp_neg _
        refine (pow_le_pow_left₀ hq0 a2 it).trans ?_
        rw [← Real.exp_nat_mul, Real.exp_le_exp]
        have a3 : 7 * (N : ℝ) ^ 2 ≤ it := by exact_mod_cast hm.trans hge
        have a4 : (it : ℝ) * -(3 / 2 / (N : ℝ) ^ 2) = -(3 / 2 * it / (N : ℝ) ^ 2) := by ring
        rw [a4, neg_le_neg_iff, le_div_iff₀ hN2]
        norm_num
        linarith
      have a5 := a1.trans hex
      have a6 : (0 : ℝ) ≤ (1 / 16) ^ 2 * (N * N) := by positivity
      refine (mul_le_mul_of_nonneg_right a5 a6).trans ?_
      have : (1 / 33000 : ℝ) * ((1 / 16) ^ 2 * (N * N)) = N ^ 2 * (1 / 33000 / 256) := by ring
      rw [this]
      exact mul_le_mul_of_nonneg_left (by norm_num) hN2.le
  have hpt : ∀ y ∈ Finset.range (N + 1), ∀ x ∈ Finset.range (N + 1), (val2 (shipped N q) u x y - exact (x / N) (y / N)) ^ 2 ≤
      2 * (val2 (shipped N q) u x y - val2 (shipped N q) z x y) ^ 2 + 2 * (1 / 100000) ^ 2 := by
    intro y hy x hx
    rw [Finset.mem_range] at hx hy
    have b1 := shipped_near hN hq hz (x := x) (y := y) (by omega) (by omega)
    have b2 := pow_le_pow_left₀ (abs_nonneg _) b1 2
    rw [sq_abs] at b2
    nlinarith [sq_nonneg ((val2 (shipped N q) u x y - val2 (shipped N q) z x y) - (val2 (shipped N q) z x y - exact (x / N) (y / N)))]
  refine (Finset.sum_le_sum fun y hy => Finset.sum_le_sum fun x hx => hpt y hy x hx).trans ?_
  simp only [Finset.sum_add_distrib, ← Finset.mul_sum, Finset.sum_const, Finset.card_range, nsmul_eq_mul]
  push_cast
  nlinarith

/-- the matrix type of the program and its grid, with 280000 sweeps -/
example := C108_program (M := Sparse ℝ) (N := 200) (maxIter := 280000) (q := 3.141592) (eps := 5 / 1000000) le_rfl (by norm_num)
  (by rw [abs_le]; constructor <;> linarith [pi_gt_d6, pi_lt_d6]) (by norm_num) (by norm_num)

end NS.Props.Fdm

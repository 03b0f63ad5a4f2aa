/-
Property C111: `sor` in floating-point arithmetic for symmetric positive definite matrices and any weight between 0 and 2 (the programs use 1.2, which C96 does not cover).
-/
import Verif.Props.SorRate
import Verif.Props.RoundIter

set_option linter.unusedSectionVars false
set_option linter.unusedSimpArgs false

namespace NS.Props.Iter
open NS NS.Iterative Matrix
variable {K : Type} [Field K] [LinearOrder K] [IsStrictOrderedRing K] {n : Nat} {A : Matrix (Fin n) (Fin n) K}

/-- the error of a sweep with a perturbed right-hand side -/
theorem sweep_pert {b r : Fin n → K} (hd : ∀ i, A i i ≠ 0) {w : K} {x y z : Fin n → K} (hz : A *ᵥ z = b) (h : IsSorSweep A (b + r) w x x y) :
    IsSorSweep A r w (x - z) (x - z) (y - z) := by
  intro i
  have hi := h i
  rw [sweep_split] at hi ⊢
  have hb : b i = (A *ᵥ z) i := by rw [hz]
  have e1 : y - z - (x - z) = y - x := by abel
  rw [e1, Matrix.mulVec_sub, Pi.sub_apply, Pi.sub_apply, Pi.sub_apply, hi, Pi.add_apply, hb]
  have := hd i
  field_simp
  ring

/-- the constants of a matrix that decide about the speed of `sor`: the quadratic form is at least `lam`, the diagonal at least `δ`, the row sums of the two triangles,
with the diagonal divided by the weight, are at most `R` -/
structure SorConst (A : Matrix (Fin n) (Fin n) K) (w lam δ R : K) : Prop where
  spd : NS.CG.SPD A
  w0 : 0 < w
  w2 : w < 2
  lam0 : 0 < lam
  δ0 : 0 < δ
  R0 : 0 < R
  form : ∀ v : Fin n → K, lam * ∑ i, v i ^ 2 ≤ v ⬝ᵥ A *ᵥ v
  diag : ∀ i, δ ≤ A i i
  low : ∀ i, A i i / w + ∑ j, (if j < i then |A i j| else 0) ≤ R
  up : ∀ i, A i i / w + ∑ j, (if i < j then |A i j| else 0) ≤ R

variable {w lam δ R : K} (H : SorConst A w lam δ R)
include H

theorem SorConst.ne (i : Fin n) : A i i ≠ 0 := (spd_diag H.spd i).ne'
theorem SorConst.kap : 0 < 2 / w - 1 := by rw [sub_pos, lt_div_iff₀ H.w0]; linarith [H.w2]
theorem SorConst.sym (i j : Fin n) : A i j = A j i := (congrFun (congrFun H.spd.1 i) j).symm

theorem SorConst.diag_le (i : Fin n) : A i i ≤ w * R := by
  have h1 : 0 ≤ ∑ j, (if j < i then |A i j| else 0) := Finset.sum_nonneg fun j _ => by split_ifs <;> simp
  have h2 : A i i / w ≤ R := by linarith [H.low i]
  rw [div_le_iff₀ H.w0] at h2
  linarith

theorem SorConst.kd (hn : 0 < n) : (2 / w - 1) * δ ≤ 2 * R := by
  have h1 := (H.diag ⟨0, hn⟩).trans (H.diag_le ⟨0, hn⟩)
  have h2 := mul_le_mul_of_nonneg_left h1 H.kap.le
  have h3 : (2 / w - 1) * (w * R) = (2 - w) * R := by have := H.w0.ne'; field_simp
  rw [h3] at h2
  linarith [mul_pos H.w0 H.R0]

theorem SorConst.lam_le (hn : 0 < n) : lam ≤ w * R := by
  have h1 := H.form (Pi.single ⟨0, hn⟩ 1)
  have e1 : (∑ i, (Pi.single (⟨0, hn⟩ : Fin n) (1 : K) : Fin n → K) i ^ 2) = 1 := by
    rw [Finset.sum_eq_single ⟨0, hn⟩]
    · simp
    · intro j _ hj; simp [Pi.single_eq_of_ne hj]
    · simp
  rw [e1] at h1
  have e2 : (Pi.single (⟨0, hn⟩ : Fin n) (1 : K)) ⬝ᵥ A *ᵥ (Pi.single ⟨0, hn⟩ 1) = A ⟨0, hn⟩ ⟨0, hn⟩ := by simp
  rw [e2] at h1
  linarith [H.diag_le ⟨0, hn⟩]

theorem SorConst.kdl (hn : 0 < n) : (2 / w - 1) * δ * lam ≤ R ^ 2 := by
  have h1 := (H.diag ⟨0, hn⟩).trans (H.diag_le ⟨0, hn⟩)
  have h2 := mul_le_mul_of_nonneg_left h1 H.kap.le
  have h3 : (2 / w - 1) * (w * R) = (2 - w) * R := by have := H.w0.ne'; field_simp
  rw [h3] at h2
  have h4 : 0 ≤ (2 - w) * R := mul_nonneg (by linarith [H.w2]) H.R0.le
  calc (2 / w - 1) * δ * lam ≤ (2 - w) * R * (w * R) := mul_le_mul h2 (H.lam_le hn) H.lam0.le h4
    _ = (1 - (1 - w) ^ 2) * R ^ 2 := by ring
    _ ≤ 1 * R ^ 2 := mul_le_mul_of_nonneg_right (by linarith [sq_nonneg (1 - w)]) (sq_nonneg R)
    _ = R ^ 2 := one_mul _

/-- the lower triangle with the diagonal divided by the weight -/
theorem SorConst.low_bound (d : Fin n → K) : nsq (fun i => A i i * d i / w + lowSum A d i) ≤ R ^ 2 * nsq d := by
  let B : Matrix (Fin n) (Fin n) K := fun i j => if j < i then A i j else if i = j then A i i / w else 0
  have hB : (fun i => A i i * d i / w + lowSum A d i) = B *ᵥ d := by
    funext i
    unfold Matrix.mulVec dotProduct lowSum
    have : ∀ j, B i j * d j = (if i = j then A i i * d i / w else 0) + if j < i then A i j * d j else 0 := by
      intro j
      show (if j < i then A i j else if i = j then A i i / w else 0) * _ = _
      rcases lt_trichotomy j i with h | rfl | h
      · simp [h, h.ne']
      · simp; ring
      · simp [h.ne, not_lt.2 h.le]
    simp only [this]
    rw [Finset.sum_add_distrib]
    simp
  have habs : ∀ i j, |B i j| = (if i = j then A i i / w else 0) + if j < i then |A i j| else 0 := by
    intro i j
    show |if j < i then A i j else if i = j then A i i / w else 0| = _
    rcases lt_trichotomy j i with h | rfl | h
    · simp [h, h.ne']
    · simp [abs_of_pos (spd_diag H.spd j), abs_of_pos H.w0, abs_div]
    · simp [h.ne, not_lt.2 h.le]
  rw [hB]
  refine schur_bound (fun i => ?_) (fun j => ?_) d
  · simp only [habs]
    rw [Finset.sum_add_distrib]
    simpa using H.low i
  · simp only [habs]
    rw [Finset.sum_add_distrib]
    simp only [fun i => H.sym i j]
    simpa [H.sym] using H.up j

/-- the strict lower triangle, with other signs -/
theorem SorConst.low_bound' (σ : Fin n → Fin n → K) (hσ : ∀ i j, |σ i j| ≤ |A i j|) (d : Fin n → K) :
    nsq (fun i => ∑ j, (if j < i then σ i j * d j else 0)) ≤ R ^ 2 * nsq d := by
  let B : Matrix (Fin n) (Fin n) K := fun i j => if j < i then σ i j else 0
  have hB : (fun i => ∑ j, (if j < i then σ i j * d j else 0)) = B *ᵥ d := by
    funext i
    unfold Matrix.mulVec dotProduct
    refine Finset.sum_congr rfl fun j _ => ?_
    show _ = (if j < i then σ i j else 0) * d j
    split_ifs <;> simp
  have habs : ∀ i j, |B i j| ≤ if j < i then |A i j| else 0 := by
    intro i j
    show |if j < i then σ i j else 0| ≤ _
    split_ifs
    · exact hσ i j
    · simp
  have hpos : ∀ i, 0 ≤ A i i / w := fun i => div_nonneg (spd_diag H.spd i).le H.w0.le
  rw [hB]
  refine schur_bound (fun i => ?_) (fun j => ?_) d
  · exact (Finset.sum_le_sum fun j _ => habs i j).trans (by linarith [H.low i, hpos i])
  · refine (Finset.sum_le_sum fun i _ => habs i j).trans ?_
    simp only [fun i => H.sym i j]
    linarith [H.up j, hpos j]

/-- the upper triangle with part of the diagonal, and its absolute values -/
theorem SorConst.up_bound {c : K} (hc : |c| ≤ 1 / w) (σ : Fin n → Fin n → K) (hσ : ∀ i j, |σ i j| ≤ |A i j|) (d : Fin n → K) :
    nsq (fun i => c * A i i * d i + ∑ j, (if i < j then σ i j * d j else 0)) ≤ R ^ 2 * nsq d := by
  let B : Matrix (Fin n) (Fin n) K := fun i j => if i < j then σ i j else if i = j then c * A i i else 0
  have hB : (fun i => c * A i i * d i + ∑ j, (if i < j then σ i j * d j else 0)) = B *ᵥ d := by
    funext i
    unfold Matrix.mulVec dotProduct
    have : ∀ j, B i j * d j = (if i = j then c * A i i * d i else 0) + if i < j then σ i j * d j else 0 := by
      intro j
      show (if i < j then σ i j else if i = j then c * A i i else 0) * _ = _
      rcases lt_trichotomy j i with h | rfl | h
      · simp [h.ne', not_lt.2 h.le]
      · simp
      · simp [h, h.ne]
    simp only [this]
    rw [Finset.sum_add_distrib]
    simp
  have habs : ∀ i j, |B i j| ≤ (if i = j then A i i / w else 0) + if i < j then |A i j| else 0 := by
    intro i j
    show |if i < j then σ i j else if i = j then c * A i i else 0| ≤ _
    rcases lt_trichotomy j i with h | rfl | h
    · simp [h.ne', not_lt.2 h.le]
    · have := mul_le_mul_of_nonneg_right hc (spd_diag H.spd j).le
      simp [abs_mul, abs_of_pos (spd_diag H.spd j)]
      rw [div_eq_inv_mul, ← one_div]; exact this
    · simp [h, h.ne, hσ i j]
  rw [hB]
  refine schur_bound (fun i => ?_) (fun j => ?_) d
  · refine (Finset.sum_le_sum fun j _ => habs i j).trans ?_
    rw [Finset.sum_add_distrib]
    simpa using H.up i
  · refine (Finset.sum_le_sum fun i _ => habs i j).trans ?_
    rw [Finset.sum_add_distrib]
    simp only [fun i => H.sym i j]
    simpa [H.sym] using H.low j

theorem SorConst.cw : |1 / w - 1| ≤ 1 / w := by
  have h1 := H.w0
  have h2 : 1 / 2 < 1 / w := one_div_lt_one_div_of_lt h1 H.w2
  rw [abs_le]
  constructor <;> linarith

/-- the right-hand side is at most `2 R` times the solution -/
theorem SorConst.mul_bound (d : Fin n → K) : nsq (A *ᵥ d) ≤ 4 * R ^ 2 * nsq d := by
  have e : A *ᵥ d = (fun i => A i i * d i / w + lowSum A d i) + fun i => -(1 / w - 1) * A i i * d i + ∑ j, (if i < j then A i j * d j else 0) := by
    funext i
    rw [mulVec_low_up, Pi.add_apply]
    unfold upSum
    have := H.w0.ne'
    field_simp
    ring
  rw [e]
  refine (nsq_add _ _).trans ?_
  have h1 := H.low_bound d
  have h2 := H.up_bound (c := -(1 / w - 1)) (by rw [abs_neg]; exact H.cw) (fun i j => A i j) (fun _ _ => le_rfl) d
  linarith

/-- one sweep on the homogeneous system, with a perturbation `r` of the right-hand side -/
theorem SorConst.step {r e e' : Fin n → K} (h : IsSorSweep A r w e e e') :
    (e' ⬝ᵥ A *ᵥ e' ≤ e ⬝ᵥ A *ᵥ e - 2 / 3 * ((2 / w - 1) * δ) * nsq (e' - e) + 3 / ((2 / w - 1) * δ) * nsq r) ∧
    lam * (e ⬝ᵥ A *ᵥ e) ≤ 4 / 3 * R ^ 2 * nsq (e' - e) + 4 * nsq r ∧ lam ^ 2 * nsq e' ≤ 2 * R ^ 2 * nsq (e' - e) + 2 * nsq r := by
  have hk := H.kap
  have hkd : 0 < (2 / w - 1) * δ := mul_pos hk H.δ0
  set κ := 2 / w - 1 with hκ
  have hform : ∀ v, lam * nsq v ≤ v ⬝ᵥ A *ᵥ v := H.form
  refine ⟨?_, ?_, ?_⟩
  · have e1 := phi_sweep H.spd H.w0.ne' h
    unfold phi at e1
    rw [← hκ] at e1
    have e2 : δ * nsq (e' - e) ≤ ∑ i, A i i * (e' i - e i) ^ 2 := by
      unfold nsq
      rw [Finset.mul_sum]
      exact Finset.sum_le_sum fun i _ => mul_le_mul_of_nonneg_right (H.diag i) (sq_nonneg _)
    have e3 : 2 * (r ⬝ᵥ e') - 2 * (r ⬝ᵥ e) ≤ κ * δ / 3 * nsq (e' - e) + 3 / (κ * δ) * nsq r := by
      have : 2 * (r ⬝ᵥ e') - 2 * (r ⬝ᵥ e) = ∑ i, 2 * (r i * (e' i - e i)) := by
        unfold dotProduct
        rw [Finset.mul_sum, Finset.mul_sum, ← Finset.sum_sub_distrib]
        exact Finset.sum_congr rfl fun i _ => by ring
      rw [this]
      unfold nsq
      rw [Finset.mul_sum, Finset.mul_sum, ← Finset.sum_add_distrib]
      refine Finset.sum_le_sum fun i _ => ?_
      rw [Pi.sub_apply]
      have h5 : 0 ≤ κ * δ / 3 * ((e' i - e i) - 3 / (κ * δ) * r i) ^ 2 := mul_nonneg (by positivity) (sq_nonneg _)
      have hne : κ * δ ≠ 0 := hkd.ne'
      have h6 : κ * δ / 3 * ((e' i - e i) - 3 / (κ * δ) * r i) ^ 2 = κ * δ / 3 * (e' i - e i) ^ 2 - 2 * (r i * (e' i - e i)) + 3 / (κ * δ) * r i ^ 2 := by
        generalize κ * δ = a at hne
        field_simp
        ring
      linarith
    have e4 := mul_le_mul_of_nonneg_left e2 hk.le
    linarith
  · refine (energy_le H.lam0 hform e).trans ?_
    have hB := H.low_bound (e' - e)
    have e1 : nsq (A *ᵥ e) ≤ 4 / 3 * nsq (fun i => A i i * (e' - e) i / w + lowSum A (e' - e) i) + 4 * nsq r := by
      unfold nsq
      rw [Finset.mul_sum, Finset.mul_sum, ← Finset.sum_add_distrib]
      refine Finset.sum_le_sum fun i _ => ?_
      have := residual_before H.ne H.w0.ne' h i
      beta_reduce
      rw [Pi.sub_apply]
      set q := A i i * (e' i - e i) / w + lowSum A (e' - e) i
      have e5 : (A *ᵥ e) i = r i - q := by linarith
      rw [e5]
      linarith [sq_nonneg (3 * r i + q)]
    linarith
  · have e0 : lam ^ 2 * nsq e' ≤ nsq (A *ᵥ e') := by
      have h1 := energy_le H.lam0 hform e'
      have h2 := mul_le_mul_of_nonneg_left (hform e') H.lam0.le
      linarith
    refine e0.trans ?_
    have hB := H.up_bound (c := 1 / w - 1) H.cw (fun i j => -A i j) (fun i j => by rw [abs_neg]) (e' - e)
    have e1 : nsq (A *ᵥ e') ≤ 2 * nsq (fun i => (1 / w - 1) * A i i * (e' - e) i + ∑ j, (if i < j then -A i j * (e' - e) j else 0)) + 2 * nsq r := by
      unfold nsq
      rw [Finset.mul_sum, Finset.mul_sum, ← Finset.sum_add_distrib]
      refine Finset.sum_le_sum fun i _ => ?_
      have := residual_after H.ne H.w0.ne' h i
      have e5 : (∑ j, (if i < j then -A i j * (e' - e) j else 0)) = - upSum A (e' - e) i := by
        unfold upSum
        rw [← Finset.sum_neg_distrib]
        exact Finset.sum_congr rfl fun j _ => by split_ifs <;> simp
      beta_reduce
      rw [e5, Pi.sub_apply]
      set q := (1 / w - 1) * A i i * (e' i - e i) + -upSum A (e' - e) i with hq
      have e6 : (A *ᵥ e') i = r i - q := by rw [hq]; linarith
      rw [e6]
      linarith [sq_nonneg (r i + q)]
    linarith

set_option maxHeartbeats 1000000 in
/-- the recursion of the squared error in the energy norm when the perturbations are relatively small -/
theorem SorConst.round_step (hn : 0 < n) {g Z : K} (hg : 0 ≤ g) (hG : 23 * g * R ^ 2 ≤ (2 / w - 1) * δ * lam) (hZ : 0 ≤ Z) {r e e' : Fin n → K}
    (h : IsSorSweep A r w e e e') (hr : nsq r ≤ 6 * g ^ 2 * R ^ 2 * (4 * Z + nsq e + nsq e')) :
    (e' ⬝ᵥ A *ᵥ e' ≤ (1 - (2 / w - 1) * δ * lam / (4 * R ^ 2)) * (e ⬝ᵥ A *ᵥ e) + 302 * g ^ 2 * R ^ 2 / ((2 / w - 1) * δ) * Z) ∧
    nsq e' ≤ (R / lam) ^ 2 * (66 * g ^ 2 * Z + 3 * nsq (e' - e)) := by
  obtain ⟨s1, s2, s3⟩ := H.step h
  have hl := H.lam0
  have hR := H.R0
  have hR2 : 0 < R ^ 2 := by positivity
  have hkd : 0 < (2 / w - 1) * δ := mul_pos H.kap H.δ0
  have hkl := H.kdl hn
  have hk2 := H.kd hn
  set a := (2 / w - 1) * δ with ha
  have hal : 0 < a * lam := by positivity
  set S := nsq (e' - e) with hS
  set P := nsq r with hP
  set E := e ⬝ᵥ A *ᵥ e with hE
  set E' := e' ⬝ᵥ A *ᵥ e' with hE'
  have f1 : lam * nsq e ≤ E := H.form e
  have f2 : lam * nsq e' ≤ E' := H.form e'
  have hS0 : 0 ≤ S := nsq_nonneg _
  have hP0 : 0 ≤ P := nsq_nonneg _
  have he0 : 0 ≤ nsq e := nsq_nonneg _
  have he0' : 0 ≤ nsq e' := nsq_nonneg _
  have hE0 : 0 ≤ E := le_trans (by positivity) f1
  -- the size of g
  have hg2 : 529 * g ^ 2 * R ^ 4 ≤ (a * lam) ^ 2 := by
    have := pow_le_pow_left₀ (by positivity) hG 2
    calc 529 * g ^ 2 * R ^ 4 = (23 * g * R ^ 2) ^ 2 := by ring
      _ ≤ _ := this
  constructor
  · -- exact decrease
    have d1 : E' ≤ (1 - a * lam / (2 * R ^ 2)) * E + 11 / a * P := by
      have t1 : a / (2 * R ^ 2) * (lam * E) ≤ 2 / 3 * a * S + 2 * a / R ^ 2 * P := by
        have := mul_le_mul_of_nonneg_left s2 (show 0 ≤ a / (2 * R ^ 2) by positivity)
        refine this.trans (le_of_eq ?_)
        field_simp
        ring
      have t2 : 2 * a / R ^ 2 ≤ 8 / a := by
        rw [div_le_div_iff₀ hR2 hkd]
        linarith [mul_self_le_mul_self hkd.le hk2]
      have t3 := mul_le_mul_of_nonneg_right t2 hP0
      have t4 : (1 - a * lam / (2 * R ^ 2)) * E = E - a / (2 * R ^ 2) * (lam * E) := by field_simp
      have t5 : 11 / a * P = 3 / a * P + 8 / a * P := by ring
      rw [t4, t5]
      linarith
    set c := 66 * g ^ 2 * R ^ 2 / a with hc
    have hc0 : 0 ≤ c := by positivity
    set μ := c / lam with hμ
    have hμ0 : 0 ≤ μ := by positivity
    set σ := a * lam / (2 * R ^ 2) with hσ
    have hσ0 : 0 < σ := by positivity
    have hσ1 : σ ≤ 1 / 2 := by rw [hσ, div_le_div_iff₀ (by positivity) two_pos]; linarith
    have hμσ : μ ≤ σ / 4 := by
      rw [hμ, hc, hσ, div_div, div_div, div_le_div_iff₀ (by positivity) (by positivity)]
      linarith [sq_nonneg (g * R ^ 2)]
    have d2 : E' ≤ (1 - σ) * E + (4 * c * Z + μ * E + μ * E') := by
      refine d1.trans (add_le_add le_rfl ?_)
      have t1 := mul_le_mul_of_nonneg_left hr (show 0 ≤ 11 / a by positivity)
      refine t1.trans ?_
      have t2 : 11 / a * (6 * g ^ 2 * R ^ 2 * (4 * Z + nsq e + nsq e')) = 4 * c * Z + μ * (lam * nsq e) + μ * (lam * nsq e') := by
        rw [hμ, hc]; field_simp; ring
      rw [t2]
      have t3 := mul_le_mul_of_nonneg_left f1 hμ0
      have t4 := mul_le_mul_of_nonneg_left f2 hμ0
      linarith
    have hq : 1 - a * lam / (4 * R ^ 2) = 1 - σ / 2 := by rw [hσ]; field_simp; ring
    have hcz : 302 * g ^ 2 * R ^ 2 / a * Z = (302 / 66) * (c * Z) := by rw [hc]; field_simp
    rw [hq, hcz]
    have hcZ : 0 ≤ c * Z := by positivity
    have hm : 0 < 1 - μ := by linarith
    have key : (1 - μ) * E' ≤ (1 - μ) * ((1 - σ / 2) * E + (302 / 66) * (c * Z)) := by
      have u1 : (1 - σ + μ) * E ≤ (1 - μ) * (1 - σ / 2) * E := mul_le_mul_of_nonneg_right (by linarith [mul_nonneg hμ0 hσ0.le]) hE0
      have u2 : 4 * (c * Z) ≤ (1 - μ) * ((302 / 66) * (c * Z)) := by
        have : 4 ≤ (1 - μ) * (302 / 66) := by linarith
        calc 4 * (c * Z) ≤ ((1 - μ) * (302 / 66)) * (c * Z) := mul_le_mul_of_nonneg_right this hcZ
          _ = _ := by ring
      linarith
    exact le_of_mul_le_mul_left key hm
  · -- the error after a small step
    have hE2 : nsq e ≤ 2 * nsq e' + 2 * S := by
      have : e = e' + (-(e' - e)) := by abel
      have h1 := nsq_add e' (-(e' - e))
      rw [← this] at h1
      have h2 : nsq (-(e' - e)) = S := by rw [hS]; unfold nsq; exact Finset.sum_congr rfl fun i _ => by rw [Pi.neg_apply, neg_sq]
      rw [h2] at h1
      exact h1
    have hgl : 529 * g ^ 2 * R ^ 2 ≤ 4 * lam ^ 2 := by
      have h1 : (a * lam) ^ 2 ≤ (4 * lam ^ 2) * R ^ 2 := by
        have := mul_le_mul_of_nonneg_right (pow_le_pow_left₀ hkd.le hk2 2) (sq_nonneg lam)
        calc (a * lam) ^ 2 = a ^ 2 * lam ^ 2 := by ring
          _ ≤ (2 * R) ^ 2 * lam ^ 2 := this
          _ = _ := by ring
      have h2 : (529 * g ^ 2 * R ^ 2) * R ^ 2 ≤ (4 * lam ^ 2) * R ^ 2 := by
        calc (529 * g ^ 2 * R ^ 2) * R ^ 2 = 529 * g ^ 2 * R ^ 4 := by ring
          _ ≤ _ := hg2.trans h1
      exact le_of_mul_le_mul_right h2 hR2
    have hg1 : 529 * g ^ 2 ≤ 1 := by
      have h1 : (a * lam) ^ 2 ≤ (R ^ 2) ^ 2 := pow_le_pow_left₀ hal.le hkl 2
      have h2 : (529 * g ^ 2) * R ^ 4 ≤ 1 * R ^ 4 := by
        calc (529 * g ^ 2) * R ^ 4 = 529 * g ^ 2 * R ^ 4 := by ring
          _ ≤ _ := hg2
          _ ≤ _ := h1
          _ = _ := by ring
      exact le_of_mul_le_mul_right h2 (by positivity)
    have t1 : lam ^ 2 * nsq e' ≤ 48 * (g ^ 2 * R ^ 2 * Z) + (2 * R ^ 2 * S + 24 * (g ^ 2) * (R ^ 2 * S)) + 36 * (g ^ 2 * R ^ 2) * nsq e' := by
      refine s3.trans ?_
      have hgR : 0 ≤ 12 * (g ^ 2 * R ^ 2) := by positivity
      have := mul_le_mul_of_nonneg_left hE2 hgR
      linarith
    have t2 : 36 * (g ^ 2 * R ^ 2) * nsq e' ≤ (144 / 529 * lam ^ 2) * nsq e' := mul_le_mul_of_nonneg_right (by linarith) he0'
    have t3 : 24 * (g ^ 2) * (R ^ 2 * S) ≤ 24 / 529 * (R ^ 2 * S) := mul_le_mul_of_nonneg_right (by linarith) (by positivity)
    have hZ' : 0 ≤ g ^ 2 * R ^ 2 * Z := by positivity
    have hRS : 0 ≤ R ^ 2 * S := by positivity
    have t4 : lam ^ 2 * nsq e' ≤ R ^ 2 * (66 * g ^ 2 * Z + 3 * S) := by linarith
    rw [div_pow, div_mul_eq_mul_div, le_div_iff₀ (by positivity)]
    linarith

/-- the squared error after `k` rounded sweeps -/
theorem SorConst.round_rate (hn : 0 < n) {g Z : K} (hg : 0 ≤ g) (hG : 23 * g * R ^ 2 ≤ (2 / w - 1) * δ * lam) (hZ : 0 ≤ Z) {e : Nat → Fin n → K}
    (h : ∀ j, ∃ r, IsSorSweep A r w (e j) (e j) (e (j + 1)) ∧ nsq r ≤ 6 * g ^ 2 * R ^ 2 * (4 * Z + nsq (e j) + nsq (e (j + 1)))) (k : Nat) :
    nsq (e k) ≤ (1 - (2 / w - 1) * δ * lam / (4 * R ^ 2)) ^ k * (e 0 ⬝ᵥ A *ᵥ e 0) / lam + (35 * (g * R ^ 2 / ((2 / w - 1) * δ * lam))) ^ 2 * Z := by
  have hl := H.lam0
  have hR := H.R0
  have hkd : 0 < (2 / w - 1) * δ := mul_pos H.kap H.δ0
  have hkl := H.kdl hn
  set a := (2 / w - 1) * δ with ha
  have key : ∀ k, e k ⬝ᵥ A *ᵥ e k ≤ (1 - a * lam / (4 * R ^ 2)) ^ k * (e 0 ⬝ᵥ A *ᵥ e 0) + 1208 * g ^ 2 * R ^ 4 / (a ^ 2 * lam) * Z := by
    intro k
    induction k with
    | zero =>
      have : 0 ≤ 1208 * g ^ 2 * R ^ 4 / (a ^ 2 * lam) * Z := by positivity
      rw [pow_zero, one_mul]; linarith
    | succ k ih =>
      obtain ⟨r, r1, r2⟩ := h k
      have := (H.round_step hn hg hG hZ r1 r2).1
      rw [← ha] at this
      have hq : 0 ≤ 1 - a * lam / (4 * R ^ 2) := by
        rw [sub_nonneg, div_le_one (by positivity)]; linarith [sq_nonneg R]
      refine this.trans ((add_le_add (mul_le_mul_of_nonneg_left ih hq) le_rfl).trans (le_of_eq ?_))
      have e1 : 302 * g ^ 2 * R ^ 2 / a * Z = a * lam / (4 * R ^ 2) * (1208 * g ^ 2 * R ^ 4 / (a ^ 2 * lam) * Z) := by field_simp; ring
      rw [e1, pow_succ _ k]
      ring
  have h1 := (H.form (e k)).trans (key k)
  have h2 : nsq (e k) ≤ ((1 - a * lam / (4 * R ^ 2)) ^ k * (e 0 ⬝ᵥ A *ᵥ e 0) + 1208 * g ^ 2 * R ^ 4 / (a ^ 2 * lam) * Z) / lam := by
    rw [le_div_iff₀ hl, mul_comm]; exact h1
  refine h2.trans ?_
  rw [add_div]
  refine add_le_add le_rfl ?_
  have e1 : (35 * (g * R ^ 2 / (a * lam))) ^ 2 * Z = 1225 * (g ^ 2 * R ^ 4 / (a ^ 2 * lam ^ 2) * Z) := by field_simp; ring
  have e2 : 1208 * g ^ 2 * R ^ 4 / (a ^ 2 * lam) * Z / lam = 1208 * (g ^ 2 * R ^ 4 / (a ^ 2 * lam ^ 2) * Z) := by field_simp
  rw [e1, e2]
  have : 0 ≤ g ^ 2 * R ^ 4 / (a ^ 2 * lam ^ 2) * Z := by positivity
  linarith
end NS.Props.Iter

namespace NS.Props.Rounding
open NS NS.MatOps NS.Rounding Matrix NS.LawfulStore NS.Props.Iter

variable {F K : Type} [Zero F] [One F] [Add F] [Sub F] [Mul F] [Div F] [Field K] [LinearOrder K] [IsStrictOrderedRing K]
variable {fl : F → K} {u : K} [DecidableEq F] [LE F] [DecidableLE F]
variable {M : Type} [MatOps M F] [LawfulStore M F] {n : Nat}

/-- a row of a rounded sweep in terms of the numbers (`SorRow` of `RoundIter.lean`): `base` is the vector against which the first term is computed -/
def SorRowV (u : K) (A : Fin n → Fin n → K) (w : K) (b base x y : Fin n → K) (i : Fin n) : Prop :=
  ∃ (θ₁ θ₂ : K) (t : Nat → K), Th u 3 θ₁ ∧ Th u 4 θ₂ ∧ (∀ j, Th u (n - 1) (t j)) ∧
    y i = (1 - w) * (θ₁ * base i) + w * (θ₂ * ((b i - ∑ j : Fin n, if j = i then 0 else A i j * (if j < i then y j else x j) * t j) / A i i))

/-- a rounded sweep is an exact sweep with a perturbed right-hand side; `x` and `y` are the old and the new numbers -/
theorem sorRows_pert (hu0 : 0 ≤ u) (hu : u < 1) {A : Matrix (Fin n) (Fin n) K} (hd : ∀ i, 0 < A i i) {w : K} (hw : w ≠ 0) {b x y : Fin n → K}
    (h : ∀ i : Fin n, SorRowV u A w b x x y i) :
    ∃ r : Fin n → K, IsSorSweep A (b + r) w x x y ∧ ∀ i, |r i| ≤ gam u (n + 3) * (|1 / w - 1| * A i i * |x i| + (∑ j, if i < j then |A i j| * |x j| else 0) +
      (∑ j, if j < i then |A i j| * |y j| else 0) + |b i|) := by
  set g := gam u (n + 3) with hg
  have hg0 : 0 ≤ g := gam_nonneg hu0 hu
  have hrow : ∀ i, ∃ r, y i = (1 - w) * x i + w * ((b i + r - ∑ j, (if j < i then A i j * y j else if i < j then A i j * x j else 0)) / A i i) ∧
      |r| ≤ g * (|1 / w - 1| * A i i * |x i| + (∑ j, if i < j then |A i j| * |x j| else 0) + (∑ j, if j < i then |A i j| * |y j| else 0) + |b i|) := by
    intro i
    obtain ⟨θ₁, θ₂, t, h1, h2, h3, h4⟩ := h i
    have hn := i.2
    have k1 : |θ₁ - 1| ≤ g := (h1.mono hu0 hu (by omega : 3 ≤ n + 3)).abs_sub hu
    have k2 : |θ₂ - 1| ≤ g := (h2.mono hu0 hu (by omega : 4 ≤ n + 3)).abs_sub hu
    have k3 : ∀ j : Fin n, |θ₂ * t j - 1| ≤ g := fun j => ((h2.mul hu (h3 j)).mono hu0 hu (by omega)).abs_sub hu
    let v : Fin n → K := fun j => if j < i then A i j * y j else if i < j then A i j * x j else 0
    have hs : (∑ j : Fin n, if j = i then 0 else A i j * (if j < i then y j else x j) * t j) = ∑ j, v j * t j := by
      refine Finset.sum_congr rfl fun j _ => ?_
      show _ = (if j < i then A i j * y j else if i < j then A i j * x j else 0) * t j
      rcases lt_trichotomy j i with h | h | h
      · simp [h, h.ne]
      · simp [h]
      · simp [h, h.ne', not_lt.2 h.le]
    rw [hs] at h4
    have hdi := (hd i).ne'
    refine ⟨A i i * (1 / w - 1) * ((θ₁ - 1) * x i) + (θ₂ - 1) * b i - ∑ j, v j * (θ₂ * t j - 1), ?_, ?_⟩
    · have e1 : ∑ j, v j * (θ₂ * t j - 1) = θ₂ * (∑ j, v j * t j) - ∑ j, v j := by
        rw [Finset.mul_sum, ← Finset.sum_sub_distrib]
        exact Finset.sum_congr rfl fun j _ => by ring
      rw [e1, h4]
      change _ = (1 - w) * x i + w * ((_ - ∑ j, v j) / A i i)
      field_simp
      ring
    · have a1 : |A i i * (1 / w - 1) * ((θ₁ - 1) * x i)| ≤ g * (|1 / w - 1| * A i i * |x i|) := by
        rw [abs_mul, abs_mul, abs_mul, abs_of_pos (hd i)]
        have : 0 ≤ |1 / w - 1| * A i i * |x i| := mul_nonneg (mul_nonneg (abs_nonneg _) (hd i).le) (abs_nonneg _)
        calc _ = |θ₁ - 1| * (|1 / w - 1| * A i i * |x i|) := by ring
          _ ≤ _ := mul_le_mul_of_nonneg_right k1 this
      have a2 : |(θ₂ - 1) * b i| ≤ g * |b i| := by
        rw [abs_mul]; exact mul_le_mul_of_nonneg_right k2 (abs_nonneg _)
      have a3 : |∑ j, v j * (θ₂ * t j - 1)| ≤ g * ((∑ j, if i < j then |A i j| * |x j| else 0) + ∑ j, if j < i then |A i j| * |y j| else 0) := by
        refine (Finset.abs_sum_le_sum_abs _ _).trans ?_
        rw [← Finset.sum_add_distrib, Finset.mul_sum]
        refine Finset.sum_le_sum fun j _ => ?_
        rw [abs_mul, mul_comm]
        refine (mul_le_mul_of_nonneg_right (k3 j) (abs_nonneg _)).trans (mul_le_mul_of_nonneg_left ?_ hg0)
        show |if j < i then A i j * y j else if i < j then A i j * x j else 0| ≤ _
        rcases lt_trichotomy j i with h | h | h
        · simp [h, not_lt.2 h.le, abs_mul]
        · simp [h]
        · simp [h, not_lt.2 h.le, abs_mul]
      refine (abs_sub _ _).trans ?_
      have a4 := abs_add_le (A i i * (1 / w - 1) * ((θ₁ - 1) * x i)) ((θ₂ - 1) * b i)
      linarith
  choose r r1 r2 using hrow
  exact ⟨r, fun i => by rw [Pi.add_apply]; exact r1 i, r2⟩

/-- the size of that perturbation -/
theorem pert_size {A : Matrix (Fin n) (Fin n) K} {w lam δ R : K} (H : SorConst A w lam δ R) {g : K} (hg : 0 ≤ g) {b r x y z : Fin n → K} (hz : A *ᵥ z = b)
    (hr : ∀ i, |r i| ≤ g * (|1 / w - 1| * A i i * |x i| + (∑ j, if i < j then |A i j| * |x j| else 0) + (∑ j, if j < i then |A i j| * |y j| else 0) + |b i|)) :
    nsq r ≤ 6 * g ^ 2 * R ^ 2 * (4 * nsq z + nsq (x - z) + nsq (y - z)) := by
  have nabs : ∀ v : Fin n → K, nsq (fun i => |v i|) = nsq v := fun v => Finset.sum_congr rfl fun i _ => sq_abs _
  have p1 := H.up_bound (c := |1 / w - 1|) (by rw [abs_abs]; exact H.cw) (fun i j => |A i j|) (fun i j => by rw [abs_abs]) (fun j => |x j|)
  rw [nabs] at p1
  have p2 := H.low_bound' (fun i j => |A i j|) (fun i j => by rw [abs_abs]) (fun j => |y j|)
  rw [nabs] at p2
  have p3 := H.mul_bound z
  rw [hz] at p3
  have split : ∀ v, nsq v ≤ 2 * nsq z + 2 * nsq (v - z) := fun v => by
    have := nsq_add z (v - z)
    rwa [add_sub_cancel] at this
  have q : nsq r ≤ 3 * g ^ 2 * (nsq (fun i => |1 / w - 1| * A i i * |x i| + ∑ j, if i < j then |A i j| * |x j| else 0) + nsq (fun i => ∑ j, if j < i then |A i j| * |y j| else 0) +
      nsq b) := by
    unfold nsq
    rw [← Finset.sum_add_distrib, ← Finset.sum_add_distrib, Finset.mul_sum]
    refine Finset.sum_le_sum fun i _ => ?_
    have h1 := pow_le_pow_left₀ (abs_nonneg _) (hr i) 2
    rw [sq_abs] at h1
    refine h1.trans ?_
    rw [mul_pow, mul_comm 3, mul_assoc (g ^ 2) 3]
    refine mul_le_mul_of_nonneg_left ?_ (sq_nonneg g)
    rw [← sq_abs (b i)]
    beta_reduce
    generalize |1 / w - 1| * A i i * |x i| + (∑ j, if i < j then |A i j| * |x j| else 0) = p
    generalize (∑ j, if j < i then |A i j| * |y j| else 0) = q
    generalize |b i| = s
    linarith [sq_nonneg (p - q), sq_nonneg (p - s), sq_nonneg (q - s)]
  have hR2 : 0 ≤ R ^ 2 := sq_nonneg R
  have s1 := mul_le_mul_of_nonneg_left (split x) hR2
  have s2 := mul_le_mul_of_nonneg_left (split y) hR2
  refine q.trans ?_
  have hg2 : 0 ≤ 3 * g ^ 2 := by positivity
  calc _ ≤ 3 * g ^ 2 * (R ^ 2 * (2 * nsq z + 2 * nsq (x - z)) + R ^ 2 * (2 * nsq z + 2 * nsq (y - z)) + 4 * R ^ 2 * nsq z) :=
        mul_le_mul_of_nonneg_left (by linarith) hg2
    _ = _ := by ring

section
variable {cabs : F → F} (hle : ∀ a b : F, a ≤ b ↔ fl a ≤ fl b) (hab : ∀ a, fl (cabs a) = |fl a|)
include hle hab

/-- what the stopping test says about the Euclidean length of the step -/
theorem StopTest.length (h : Std fl u) {eps : F} {x y : List F} (hx : x.length = n) (hy : y.length = n) (hs : StopTest cabs (eps * eps) x y) :
    ∑ i : Fin n, (fl (y.getD i 0) - fl (x.getD i 0)) ^ 2 ≤ fl eps ^ 2 * (1 + gam u (n + 3)) := by
  obtain ⟨d, c, a1, a2, a3⟩ := hs
  obtain ⟨d', c', t, b1, b2, b3, b4⟩ := diff_ok h hx hy
  rw [a1] at b1; cases b1
  rw [a2] at b2; cases b2
  rw [hle, hab] at a3
  obtain ⟨e, e1, e2⟩ := h.mul_th eps eps
  have p : 0 < 1 - u := sub_pos.2 h.u_lt
  have h1 : (∑ i : Fin n, (fl (y.getD i 0) - fl (x.getD i 0)) ^ 2) * (1 - u) ^ (n + 2) ≤ fl c := by
    rw [b4, Finset.sum_mul]
    exact Finset.sum_le_sum fun i _ => mul_le_mul_of_nonneg_left (b3 i).1 (sq_nonneg _)
  have h2 : fl c ≤ fl eps ^ 2 * (1 - u)⁻¹ := by
    refine (le_abs_self _).trans (a3.trans ?_)
    rw [e2, pow_two]
    refine mul_le_mul_of_nonneg_left ?_ (mul_self_nonneg _)
    simpa using e1.2
  have e3 : 1 + gam u (n + 3) = ((1 - u) ^ (n + 2))⁻¹ * (1 - u)⁻¹ := by
    unfold gam; rw [pow_succ (1 - u) (n + 2), mul_inv]; ring
  rw [e3, mul_comm _ (1 - u)⁻¹, ← mul_assoc, ← div_eq_mul_inv (fl eps ^ 2 * (1 - u)⁻¹), le_div_iff₀ (pow_pos p _)]
  exact h1.trans h2

/-- steps that are short enough are accepted -/
theorem StopTest.of_length (h : Std fl u) {eps : F} {x y : List F} (hx : x.length = n) (hy : y.length = n)
    (hn : (∑ i : Fin n, (fl (y.getD i 0) - fl (x.getD i 0)) ^ 2) * (1 + gam u (n + 3)) ≤ fl eps ^ 2) : StopTest cabs (eps * eps) x y := by
  obtain ⟨d, c, t, b1, b2, b3, b4⟩ := diff_ok h hx hy
  refine ⟨d, c, b1, b2, ?_⟩
  rw [hle, hab]
  obtain ⟨e, e1, e2⟩ := h.mul_th eps eps
  have p : 0 < 1 - u := sub_pos.2 h.u_lt
  have hc0 : 0 ≤ fl c := by
    rw [b4]; exact Finset.sum_nonneg fun j _ => mul_nonneg (sq_nonneg _) ((b3 j).pos h.u_lt).le
  rw [abs_of_nonneg hc0]
  have h1 : fl c ≤ (∑ i : Fin n, (fl (y.getD i 0) - fl (x.getD i 0)) ^ 2) * ((1 - u) ^ (n + 2))⁻¹ := by
    rw [b4, Finset.sum_mul]
    exact Finset.sum_le_sum fun i _ => mul_le_mul_of_nonneg_left (b3 i).2 (sq_nonneg _)
  have h2 : fl eps ^ 2 * (1 - u) ≤ fl (eps * eps) := by
    rw [e2, ← pow_two]
    refine mul_le_mul_of_nonneg_left ?_ (sq_nonneg _)
    simpa using e1.1
  refine h1.trans (le_trans ?_ h2)
  have e3 : (∑ i : Fin n, (fl (y.getD i 0) - fl (x.getD i 0)) ^ 2) * ((1 - u) ^ (n + 2))⁻¹ =
      (∑ i : Fin n, (fl (y.getD i 0) - fl (x.getD i 0)) ^ 2) * (1 + gam u (n + 3)) * (1 - u) := by
    unfold gam
    rw [pow_succ (1 - u) (n + 2)]
    field_simp
    ring
  rw [e3]
  exact mul_le_mul_of_nonneg_right hn p.le

omit hle hab in
/-- the vectors that `sor` computes in floating-point arithmetic, started at zero, and where it stops -/
theorem sor_run (h : Std fl u) (cabs : F → F) {a : M} {A : Matrix (Fin n) (Fin n) K} (ha : MatFl fl a A) (hd : ∀ i, A i i ≠ 0) {b₀ x₀ : List F} {b : Fin n → K}
    (hb : VecFl fl b₀ n b) (hx : VecFl fl x₀ n (0 : Fin n → K)) (w eps : F) : ∃ (y : Nat → List F) (V : Nat → Fin n → K), (∀ j, VecFl fl (y j) n (V j)) ∧ V 0 = 0 ∧
      (∀ j i, SorRowV u A (fl w) b (V j) (V j) (V (j + 1)) i) ∧
      ∀ maxIter, ∃ k, CxIterative.sor cabs a b₀ x₀ w maxIter eps = .ok (y k, k) ∧ k ≤ maxIter ∧ (0 < maxIter → 0 < k) ∧
        (k < maxIter → StopTest cabs (eps * eps) (y (k - 1)) (y k)) ∧ ∀ j, 0 < j → j < k → ¬ StopTest cabs (eps * eps) (y (j - 1)) (y j) := by
  have hl0 : (List.replicate x₀.length (0 : F)).length = n := by rw [List.length_replicate, hx.1]
  have hs : ∀ x xm : List F, x.length = n → xm.length = n → ∃ y, CxIterative.sorSweep w a b₀ x xm = .ok y ∧ y.length = n :=
    fun x xm h1 h2 => by
      obtain ⟨y, y1, y2, -⟩ := sorSweep_round h ha.sq (A := A) ha.val hd w hb.1 h1 h2
      exact ⟨y, y1, y2⟩
  obtain ⟨y, y0, yl, y1, y2, y3⟩ := loop_run (n := n) h cabs (eps * eps) hs (x0 := x₀) (xm0 := List.replicate x₀.length 0) hx.1 hl0
  set V : Nat → Fin n → K := fun j i => fl ((y j).getD i 0) with hV
  have hx0 : ∀ i, V 0 i = 0 := fun i => by rw [hV]; simp only; rw [y0, hx.getD]; rfl
  have hbe : (fun i : Fin n => fl (b₀.getD i 0)) = b := funext fun i => hb.getD i
  refine ⟨y, V, fun j => vecFl_of (yl j), funext hx0, fun j i => ?_, fun maxIter => ?_⟩
  · have hrows : ∃ base : List F, (∀ i : Fin n, fl (base.getD i 0) = V j i) ∧ ∀ i : Fin n, SorRow fl u A (fl w) b₀ base (y j) (y (j + 1)) i := by
      rcases Nat.eq_zero_or_pos j with rfl | hj
      · obtain ⟨y', w1, -, w3⟩ := sorSweep_round h ha.sq (A := A) ha.val hd w hb.1 (yl 0) hl0
        rw [y1] at w1; cases w1
        refine ⟨_, fun i => ?_, w3⟩
        have hi := i.2
        rw [List.getD_replicate _ (by rw [hx.1]; exact hi), h.zero, hx0]
      · obtain ⟨y', w1, -, w3⟩ := sorSweep_round h ha.sq (A := A) ha.val hd w hb.1 (yl j) (yl j)
        rw [y2 j hj] at w1; cases w1
        exact ⟨_, fun i => rfl, w3⟩
    obtain ⟨base, hbase, hrow⟩ := hrows
    obtain ⟨θ₁, θ₂, t, h1, h2, h3, h4⟩ := hrow i
    rw [hb.getD, hbase] at h4
    exact ⟨θ₁, θ₂, t, h1, h2, h3, h4⟩
  · obtain ⟨k, k1, k2⟩ := y3 maxIter
    refine ⟨k, ?_, k2⟩
    unfold CxIterative.sor
    rw [throwIf_false _ (by rw [ha.2.1, ha.2.2.1]; simp), throwIf_false _ (by rw [ha.2.1, hb.1, hx.1]; simp), ok_bind, ok_bind,
      Vec.fill_ok, ok_bind]
    exact k1

/-- **C111**: `sor` in floating-point arithmetic with unit roundoff `u`, for a symmetric positive definite matrix, any weight `w` between 0 and 2 and start vector 0.
Let the quadratic form be at least `lam`, the diagonal at least `δ`, and the row sums of both triangles (diagonal divided by `w`) at most `R`;
`g = gam u (n + 3)` is about `(n + 3) u` and `G = g R² / ((2 / w - 1) δ lam)`.  If `23 G ≤ 1`, the solver returns normally, and after `k` sweeps the squared Euclidean error is at most
`(1 - (2 / w - 1) δ lam / (4 R²)) ^ k (z · b) / lam + (35 G)² |z|²`, `z` being the solution: the limiting accuracy is a relative error of `35 G`.
If it stopped because the test accepted, the squared error is at most `(R / lam)² (66 g² |z|² + 3 eps² (1 + g))`; and it stops after at most `m + 1` sweeps
if four times the first bound for `k = m`, multiplied with `1 + g`, is at most `eps²`. -/
theorem C111_sor (h : Std fl u) {a : M} {A : Matrix (Fin n) (Fin n) K} (ha : MatFl fl a A) {b₀ x₀ : List F} {b : Fin n → K}
    (hb : VecFl fl b₀ n b) (hx : VecFl fl x₀ n (0 : Fin n → K)) {w : F} {lam δ R g G ρ : K} (H : SorConst A (fl w) lam δ R) (hg : g = gam u (n + 3))
    (hG : G = g * R ^ 2 / ((2 / fl w - 1) * δ * lam)) (hG1 : 23 * G ≤ 1) (hρ : ρ = 1 - (2 / fl w - 1) * δ * lam / (4 * R ^ 2))
    {z : Fin n → K} (hz : A *ᵥ z = b) (eps : F) (maxIter : Nat) :
    ∃ (v : List F) (y : Fin n → K) (k : Nat), CxIterative.sor cabs a b₀ x₀ w maxIter eps = .ok (v, k) ∧ VecFl fl v n y ∧ k ≤ maxIter ∧
      (∑ i, (y i - z i) ^ 2 ≤ ρ ^ k * (z ⬝ᵥ b) / lam + (35 * G) ^ 2 * ∑ i, z i ^ 2) ∧
      (k < maxIter → ∑ i, (y i - z i) ^ 2 ≤ (R / lam) ^ 2 * (66 * g ^ 2 * (∑ i, z i ^ 2) + 3 * (fl eps ^ 2 * (1 + g)))) ∧
      ∀ m, 4 * (ρ ^ m * (z ⬝ᵥ b) / lam + (35 * G) ^ 2 * ∑ i, z i ^ 2) * (1 + g) ≤ fl eps ^ 2 → k ≤ m + 1 := by
  have hn : 0 < n := ha.sq.pos
  have hg0 : 0 ≤ g := by rw [hg]; exact gam_nonneg h.u_nonneg h.u_lt
  have hkd : 0 < (2 / fl w - 1) * δ * lam := mul_pos (mul_pos H.kap H.δ0) H.lam0
  have hG2 : 23 * g * R ^ 2 ≤ (2 / fl w - 1) * δ * lam := by
    rw [hG, mul_div_assoc', div_le_one hkd] at hG1
    linarith
  obtain ⟨y, V, hyV, hV0, hrows, y3⟩ := sor_run h cabs ha H.ne hb hx w eps
  have yl : ∀ j, (y j).length = n := fun j => (hyV j).1
  have hx0 : ∀ i, V 0 i = 0 := fun i => by rw [hV0]; rfl
  have hsw : ∀ j, ∃ r, IsSorSweep A r (fl w) (V j - z) (V j - z) (V (j + 1) - z) ∧ nsq r ≤ 6 * g ^ 2 * R ^ 2 * (4 * nsq z + nsq (V j - z) + nsq (V (j + 1) - z)) := by
    intro j
    obtain ⟨r, r1, r2⟩ := sorRows_pert h.u_nonneg h.u_lt (fun i => spd_diag H.spd i) H.w0.ne' (hrows j)
    rw [← hg] at r2
    exact ⟨r, sweep_pert H.ne hz r1, pert_size H hg0 hz r2⟩
  have hrate := H.round_rate hn hg0 hG2 (nsq_nonneg z) (e := fun j => V j - z) hsw
  have hE0 : (V 0 - z) ⬝ᵥ A *ᵥ (V 0 - z) = z ⬝ᵥ b := by
    have : V 0 - z = -z := by funext i; rw [Pi.sub_apply, hx0, Pi.neg_apply, zero_sub]
    rw [this, Matrix.mulVec_neg, dotProduct_neg, neg_dotProduct, neg_neg, hz]
  simp only [hE0, ← hρ, ← hG] at hrate
  obtain ⟨k, k1, k2, k3, k4, k5⟩ := y3 maxIter
  refine ⟨y k, V k, k, k1, hyV k, k2, hrate k, fun hk => ?_, fun m hm => ?_⟩
  · obtain ⟨m, rfl⟩ : ∃ m, k = m + 1 := ⟨k - 1, by have := k3 (by omega); omega⟩
    have hst := (k4 hk).length hle hab h (yl _) (yl _)
    simp only [Nat.add_sub_cancel, ← hg, fun j i => (hyV j).getD i] at hst
    obtain ⟨r, r1, r2⟩ := hsw m
    have := (H.round_step hn hg0 hG2 (nsq_nonneg z) r1 r2).2
    refine this.trans (mul_le_mul_of_nonneg_left (add_le_add le_rfl (mul_le_mul_of_nonneg_left ?_ (by norm_num))) (sq_nonneg _))
    rw [sub_sub_sub_cancel_right]
    exact hst
  · by_contra hcon
    refine k5 (m + 1) (by omega) (by omega) (StopTest.of_length hle hab h (yl _) (yl _) ?_)
    rw [Nat.add_sub_cancel, ← hg]
    refine le_trans (mul_le_mul_of_nonneg_right ?_ (by linarith)) hm
    have e1 : ∑ i : Fin n, (fl ((y (m + 1)).getD i 0) - fl ((y m).getD i 0)) ^ 2 ≤ 2 * nsq (V (m + 1) - z) + 2 * nsq (V m - z) := by
      unfold nsq
      rw [Finset.mul_sum, Finset.mul_sum, ← Finset.sum_add_distrib]
      refine Finset.sum_le_sum fun i _ => ?_
      rw [(hyV (m + 1)).getD, (hyV m).getD]
      rw [Pi.sub_apply, Pi.sub_apply]
      linarith [sq_nonneg ((V (m + 1) i - z i) + (V m i - z i))]
    refine e1.trans ?_
    have hρ0 : 0 ≤ ρ := by
      have hR2 : 0 < R ^ 2 := pow_pos H.R0 2
      rw [hρ, sub_nonneg, div_le_one (by positivity)]; linarith [H.kdl hn]
    have hρ1 : ρ ≤ 1 := by
      have hR2 : 0 < R ^ 2 := pow_pos H.R0 2
      rw [hρ, sub_le_self_iff]; positivity
    have hzb : 0 ≤ z ⬝ᵥ b := by
      rw [← hz]; exact le_trans (mul_nonneg H.lam0.le (nsq_nonneg z)) (H.form z)
    have e2 : ρ ^ (m + 1) * (z ⬝ᵥ b) / lam ≤ ρ ^ m * (z ⬝ᵥ b) / lam := by
      refine div_le_div_of_nonneg_right (mul_le_mul_of_nonneg_right (pow_le_pow_of_le_one hρ0 hρ1 (Nat.le_succ m)) hzb) H.lam0.le
    have r1 := hrate m
    have r2 := hrate (m + 1)
    change _ ≤ _ + (35 * G) ^ 2 * nsq z at r1 r2
    change _ ≤ 4 * (_ + (35 * G) ^ 2 * nsq z)
    linarith
end

/-! ## Witness: nine-bit significands, `A = [4 1; 1 4]`, `b = (1, 1)`, weight 5/4 -/
section
private def babs {p : Nat} (a : Bin p) : Bin p := if 0 ≤ a.toRat then a else -a
private def wM : Dense (Bin 8) := ⟨[Bin.rnd 4, Bin.rnd 1, Bin.rnd 1, Bin.rnd 4], 2, 2⟩
private def wB : Matrix (Fin 2) (Fin 2) ℚ := !![4, 1; 1, 4]

private theorem wB_form (v : Fin 2 → ℚ) : v ⬝ᵥ wB *ᵥ v = 4 * v 0 ^ 2 + 2 * (v 0 * v 1) + 4 * v 1 ^ 2 := by
  simp [wB, dotProduct, Matrix.mulVec, Fin.sum_univ_two]
  ring

/-- the hypotheses of `C111_sor`: `lam = 3`, `δ = 4`, `R = 21/5`, and `23 G ≤ 1` -/
example : MatFl Bin.toRat wM wB ∧ VecFl Bin.toRat ([Bin.rnd 1, Bin.rnd 1] : List (Bin 8)) 2 ![1, 1] ∧ VecFl Bin.toRat ([0, 0] : List (Bin 8)) 2 (0 : Fin 2 → ℚ) ∧
    (Bin.rnd (5 / 4) : Bin 8).toRat = 5 / 4 ∧ SorConst wB (5 / 4) 3 4 (21 / 5) ∧ wB *ᵥ ![1 / 5, 1 / 5] = ![1, 1] ∧
    23 * (gam ((1 / 2) ^ 9) (2 + 3) * (21 / 5 : ℚ) ^ 2 / ((2 / (5 / 4) - 1) * 4 * 3)) ≤ 1 := by
  refine ⟨⟨⟨rfl, by decide, by decide⟩, rfl, rfl, ?_⟩, ⟨rfl, ?_⟩, ⟨rfl, ?_⟩, by decide +kernel, ⟨⟨?_, ?_⟩, by norm_num, by norm_num, by norm_num, by norm_num, by norm_num, ?_, ?_, ?_, ?_⟩, ?_, ?_⟩
  · intro i j
    fin_cases i <;> fin_cases j <;> exact ⟨_, rfl, by decide +kernel⟩
  · intro i
    fin_cases i <;> exact ⟨_, rfl, by decide +kernel⟩
  · intro i
    fin_cases i <;> exact ⟨_, rfl, by decide +kernel⟩
  · ext i j
    fin_cases i <;> fin_cases j <;> rfl
  · intro v hv
    rw [wB_form]
    by_contra hc
    have h0 : v 0 = 0 := by nlinarith [sq_nonneg (v 0 + v 1), sq_nonneg (v 0), sq_nonneg (v 1)]
    have h1 : v 1 = 0 := by nlinarith [sq_nonneg (v 0 + v 1), sq_nonneg (v 0), sq_nonneg (v 1)]
    exact hv (by funext i; fin_cases i <;> simp [h0, h1])
  · intro v
    rw [wB_form, Fin.sum_univ_two]
    nlinarith [sq_nonneg (v 0 + v 1)]
  · intro i; fin_cases i <;> decide +kernel
  · intro i; fin_cases i <;> decide +kernel
  · intro i; fin_cases i <;> decide +kernel
  · funext i; fin_cases i <;> decide +kernel
  · norm_num [gam]

/-- a run with a weight above one: it stops by the test -/
example : CxIterative.sor babs wM [Bin.rnd 1, Bin.rnd 1] [0, 0] (Bin.rnd (5 / 4)) 20 (Bin.rnd (1 / 16)) = .ok ([Bin.rnd (423 / 2048), Bin.rnd (403 / 2048)], 3) := by
  decide +kernel
end

end NS.Props.Rounding

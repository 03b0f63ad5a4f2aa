/-
Property C108 (general part): how many sweeps of `sor` are enough for a symmetric positive definite matrix.
-/
import Verif.Props.SorLevels

set_option linter.unusedSectionVars false
set_option linter.unusedSimpArgs false

namespace NS.Props.Iter
open NS NS.MatOps NS.LawfulMat NS.Props.LU NS.Iterative Matrix
variable {M T : Type} [Field T] [LinearOrder T] [IsStrictOrderedRing T] [MatOps M T] [LawfulMat M T] {n : Nat}
  {a : M} {A S : Matrix (Fin n) (Fin n) T} {b x0 : Fin n → T}

/-- a lower bound of the quadratic form of a symmetric matrix without positive entries off the diagonal, from a positive vector -/
theorem ground_state (hsym : Aᵀ = A) (hoff : ∀ i j, i ≠ j → A i j ≤ 0) {s : Fin n → T} (hs : ∀ i, 0 < s i) {lam : T} (hlam : ∀ i, lam * s i ≤ (A *ᵥ s) i)
    (v : Fin n → T) : lam * nsq v ≤ v ⬝ᵥ A *ᵥ v := by
  have sw : ∀ i j, A j i = A i j := fun i j => congrFun (congrFun hsym i) j
  have e1 : v ⬝ᵥ A *ᵥ v - ∑ i, (A *ᵥ s) i * (v i ^ 2 / s i) = ∑ i, ∑ j, A i j * (v i * v j - s j * (v i ^ 2 / s i)) := by
    unfold dotProduct Matrix.mulVec dotProduct
    rw [← Finset.sum_sub_distrib]
    refine Finset.sum_congr rfl fun i _ => ?_
    rw [Finset.mul_sum, Finset.sum_mul, ← Finset.sum_sub_distrib]
    refine Finset.sum_congr rfl fun j _ => by ring
  have e2 : (∑ i, ∑ j, A i j * (v i * v j - s j * (v i ^ 2 / s i))) + (∑ i, ∑ j, A i j * (v i * v j - s j * (v i ^ 2 / s i))) =
      ∑ i, ∑ j, -A i j * (s i * s j * (v i / s i - v j / s j) ^ 2) := by
    conv_lhs => arg 2; rw [Finset.sum_comm]
    rw [← Finset.sum_add_distrib]
    refine Finset.sum_congr rfl fun i _ => ?_
    rw [← Finset.sum_add_distrib]
    refine Finset.sum_congr rfl fun j _ => ?_
    rw [sw i j]
    have hi := (hs i).ne'
    have hj := (hs j).ne'
    field_simp
    ring
  have e3 : 0 ≤ ∑ i, ∑ j, -A i j * (s i * s j * (v i / s i - v j / s j) ^ 2) := by
    refine Finset.sum_nonneg fun i _ => Finset.sum_nonneg fun j _ => ?_
    by_cases h : i = j
    · subst h; simp
    · exact mul_nonneg (neg_nonneg.2 (hoff i j h)) (mul_nonneg (mul_pos (hs i) (hs j)).le (sq_nonneg _))
  have e4 : lam * nsq v ≤ ∑ i, (A *ᵥ s) i * (v i ^ 2 / s i) := by
    unfold nsq
    rw [Finset.mul_sum]
    refine Finset.sum_le_sum fun i _ => ?_
    have h1 : 0 ≤ v i ^ 2 / s i := div_nonneg (sq_nonneg _) (hs i).le
    have h2 := mul_le_mul_of_nonneg_right (hlam i) h1
    have h3 : lam * s i * (v i ^ 2 / s i) = lam * v i ^ 2 := by
      have := (hs i).ne'
      field_simp
    linarith
  linarith

/-- bound of a linear map from its row sums and its column sums -/
theorem schur_bound {B : Matrix (Fin n) (Fin n) T} {R : T} (hrow : ∀ i, ∑ j, |B i j| ≤ R) (hcol : ∀ j, ∑ i, |B i j| ≤ R) (d : Fin n → T) :
    nsq (B *ᵥ d) ≤ R ^ 2 * nsq d := by
  rcases Nat.eq_zero_or_pos n with rfl | hn
  · simp [nsq]
  have hR : 0 ≤ R := le_trans (Finset.sum_nonneg fun j _ => abs_nonneg _) (hrow ⟨0, hn⟩)
  have h1 : ∀ i, (B *ᵥ d) i ^ 2 ≤ R * ∑ j, |B i j| * d j ^ 2 := by
    intro i
    have key : (∑ j, |B i j| * |d j|) ^ 2 ≤ (∑ j, |B i j|) * ∑ j, |B i j| * d j ^ 2 := by
      have hz : ∀ t : T, 0 ≤ t ^ 2 * (∑ j, |B i j|) - 2 * t * (∑ j, |B i j| * |d j|) + ∑ j, |B i j| * d j ^ 2 := by
        intro t
        have : t ^ 2 * (∑ j, |B i j|) - 2 * t * (∑ j, |B i j| * |d j|) + ∑ j, |B i j| * d j ^ 2 = ∑ j, |B i j| * (t - |d j|) ^ 2 := by
          rw [Finset.mul_sum, Finset.mul_sum, ← Finset.sum_sub_distrib, ← Finset.sum_add_distrib]
          refine Finset.sum_congr rfl fun j _ => ?_
          rw [← sq_abs (d j)]; ring
        rw [this]
        exact Finset.sum_nonneg fun j _ => mul_nonneg (abs_nonneg _) (sq_nonneg _)
      set P := ∑ j, |B i j|
      set Q := ∑ j, |B i j| * |d j|
      set W := ∑ j, |B i j| * d j ^ 2
      have hP : 0 ≤ P := Finset.sum_nonneg fun j _ => abs_nonneg _
      rcases hP.eq_or_lt with h0 | h0
      · have hb : ∀ j, |B i j| = 0 := fun j => (Finset.sum_eq_zero_iff_of_nonneg (fun j _ => abs_nonneg (B i j))).1 h0.symm j (Finset.mem_univ j)
        have : Q = 0 := Finset.sum_eq_zero fun j _ => by rw [hb j, zero_mul]
        rw [this, ← h0]; simp
      · have := hz (Q / P)
        have e : (Q / P) ^ 2 * P - 2 * (Q / P) * Q + W = W - Q ^ 2 / P := by field_simp; ring
        rw [e, sub_nonneg, div_le_iff₀ h0] at this
        linarith
    have h2 : (B *ᵥ d) i ^ 2 ≤ (∑ j, |B i j| * |d j|) ^ 2 := by
      rw [← sq_abs]
      refine pow_le_pow_left₀ (abs_nonneg _) ?_ 2
      unfold Matrix.mulVec dotProduct
      refine (Finset.abs_sum_le_sum_abs _ _).trans (Finset.sum_le_sum fun j _ => by rw [abs_mul])
    refine h2.trans (key.trans (mul_le_mul_of_nonneg_right (hrow i) ?_))
    exact Finset.sum_nonneg fun j _ => mul_nonneg (abs_nonneg _) (sq_nonneg _)
  calc nsq (B *ᵥ d) ≤ ∑ i, R * ∑ j, |B i j| * d j ^ 2 := Finset.sum_le_sum fun i _ => h1 i
    _ = R * ∑ j, (∑ i, |B i j|) * d j ^ 2 := by
      rw [← Finset.mul_sum, Finset.sum_comm]
      congr 1
      refine Finset.sum_congr rfl fun j _ => by rw [Finset.sum_mul]
    _ ≤ R * ∑ j, R * d j ^ 2 := mul_le_mul_of_nonneg_left (Finset.sum_le_sum fun j _ => mul_le_mul_of_nonneg_right (hcol j) (sq_nonneg _)) hR
    _ = R ^ 2 * nsq d := by unfold nsq; rw [← Finset.mul_sum]; ring

/-- the energy of a vector is bounded by the squared residual -/
theorem energy_le {lam : T} (hl : 0 < lam) (hlam : ∀ v, lam * nsq v ≤ v ⬝ᵥ A *ᵥ v) (e : Fin n → T) : lam * (e ⬝ᵥ A *ᵥ e) ≤ nsq (A *ᵥ e) := by
  have h1 := hlam e
  have h2 : 0 ≤ nsq (fun i => lam * e i - (A *ᵥ e) i) := nsq_nonneg _
  have h3 : nsq (fun i => lam * e i - (A *ᵥ e) i) = lam ^ 2 * nsq e - 2 * lam * (e ⬝ᵥ A *ᵥ e) + nsq (A *ᵥ e) := by
    unfold nsq
    rw [dotProduct, Finset.mul_sum, Finset.mul_sum, ← Finset.sum_sub_distrib, ← Finset.sum_add_distrib]
    exact Finset.sum_congr rfl fun i _ => by ring
  have h4 := mul_le_mul_of_nonneg_left h1 hl.le
  nlinarith

/-- one sweep on the homogeneous system: what it gains, and how large the vector was -/
theorem sweep_rate (hA : NS.CG.SPD A) {w : T} (hw0 : 0 < w) (hw2 : w < 2) {lam δ R : T} (hl : 0 < lam) (hlam : ∀ v, lam * nsq v ≤ v ⬝ᵥ A *ᵥ v)
    (hδ : ∀ i, δ ≤ A i i) (hrow : ∀ i, A i i / w + ∑ j, (if j < i then |A i j| else 0) ≤ R) (hcol : ∀ i, A i i / w + ∑ j, (if i < j then |A i j| else 0) ≤ R)
    {e e' : Fin n → T} (h : IsSorSweep A 0 w e e e') :
    e' ⬝ᵥ A *ᵥ e' ≤ e ⬝ᵥ A *ᵥ e - (2 / w - 1) * δ * distSqr e' e ∧ lam * (e ⬝ᵥ A *ᵥ e) ≤ R ^ 2 * distSqr e' e := by
  have hd : ∀ i, A i i ≠ 0 := fun i => (spd_diag hA i).ne'
  have hw' : 0 < 2 / w - 1 := by rw [sub_pos, lt_div_iff₀ hw0]; linarith
  have hphi : ∀ v, phi A 0 v = v ⬝ᵥ A *ᵥ v := fun v => by simp [phi]
  constructor
  · have e1 := phi_sweep hA hw0.ne' h
    rw [hphi, hphi] at e1
    have e2 : δ * distSqr e' e ≤ ∑ i, A i i * (e' i - e i) ^ 2 := by
      unfold distSqr
      rw [Finset.mul_sum]
      exact Finset.sum_le_sum fun i _ => mul_le_mul_of_nonneg_right (hδ i) (sq_nonneg _)
    have := mul_le_mul_of_nonneg_left e2 hw'.le
    rw [e1]
    linarith
  · let B : Matrix (Fin n) (Fin n) T := fun i j => if j < i then A i j else if i = j then A i i / w else 0
    have hB : ∀ i, (A *ᵥ e) i = - (B *ᵥ (e' - e)) i := by
      intro i
      have := residual_before hd hw0.ne' h i
      have e1 : (B *ᵥ (e' - e)) i = A i i * (e' i - e i) / w + lowSum A (e' - e) i := by
        unfold Matrix.mulVec dotProduct lowSum
        have : ∀ j, B i j * (e' - e) j = (if i = j then A i i * (e' i - e i) / w else 0) + if j < i then A i j * (e' - e) j else 0 := by
          intro j
          show (if j < i then A i j else if i = j then A i i / w else 0) * _ = _
          rcases lt_trichotomy j i with h | rfl | h
          · simp [h, h.ne']
          · simp; ring
          · simp [h.ne, not_lt.2 h.le]
        simp only [this]
        rw [Finset.sum_add_distrib]
        simp
      rw [e1, ← this]; simp
    have hn : nsq (A *ᵥ e) = nsq (B *ᵥ (e' - e)) := by
      unfold nsq
      exact Finset.sum_congr rfl fun i _ => by rw [hB, neg_sq]
    have habs : ∀ i j, |B i j| = (if i = j then A i i / w else 0) + if j < i then |A i j| else 0 := by
      intro i j
      show |if j < i then A i j else if i = j then A i i / w else 0| = _
      rcases lt_trichotomy j i with h | rfl | h
      · simp [h, h.ne']
      · simp [abs_of_pos (spd_diag hA j), abs_of_pos hw0, abs_div]
      · simp [h.ne, not_lt.2 h.le]
    have hs := schur_bound (B := B) (R := R) (fun i => by
        simp only [habs]
        rw [Finset.sum_add_distrib]
        simpa using hrow i) (fun j => by
        simp only [habs]
        rw [Finset.sum_add_distrib]
        have hsw : ∀ i, A i j = A j i := fun i => (congrFun (congrFun hA.1 i) j).symm
        simp only [hsw]
        simpa [hsw] using hcol j) (e' - e)
    have : distSqr e' e = nsq (e' - e) := rfl
    rw [this]
    exact (energy_le hl hlam e).trans (hn ▸ hs)

/-- the three statements about a sequence of sweeps which is stopped by the rule of `sor` -/
theorem rate_core (hA : NS.CG.SPD A) {w : T} (hw0 : 0 < w) (hw2 : w < 2) {lam δ R : T} (hl : 0 < lam) (hδ0 : 0 < δ) (hR0 : 0 < R)
    (hlam : ∀ v : Fin n → T, lam * nsq v ≤ v ⬝ᵥ A *ᵥ v) (hδ : ∀ i, δ ≤ A i i)
    (hrow : ∀ i, A i i / w + ∑ j, (if j < i then |A i j| else 0) ≤ R) (hcol : ∀ i, A i i / w + ∑ j, (if i < j then |A i j| else 0) ≤ R)
    {e : Nat → Fin n → T} (hsw : ∀ j, IsSorSweep A 0 w (e j) (e j) (e (j + 1))) {eps : T} {maxIter k : Nat} (hst : StopsAt e eps maxIter k) :
    (e k ⬝ᵥ A *ᵥ e k ≤ (1 - (2 / w - 1) * δ * lam / R ^ 2) ^ k * (e 0 ⬝ᵥ A *ᵥ e 0)) ∧ (k < maxIter → nsq (e k) ≤ (R * eps / lam) ^ 2) ∧
      ∀ K, (1 - (2 / w - 1) * δ * lam / R ^ 2) ^ K * (e 0 ⬝ᵥ A *ᵥ e 0) ≤ (2 / w - 1) * δ * eps ^ 2 → k ≤ K + 1 := by
  have hw' : 0 < 2 / w - 1 := by rw [sub_pos, lt_div_iff₀ hw0]; linarith
  obtain ⟨h4, h5, h6, h7⟩ := hst
  set E : Nat → T := fun j => e j ⬝ᵥ A *ᵥ e j with hE
  set q := 1 - (2 / w - 1) * δ * lam / R ^ 2 with hq
  have hE0 : ∀ j, 0 ≤ E j := fun j => le_trans (mul_nonneg hl.le (nsq_nonneg _)) (hlam (e j))
  have g1 : ∀ j, E (j + 1) ≤ E j - (2 / w - 1) * δ * distSqr (e (j + 1)) (e j) := fun j => (sweep_rate hA hw0 hw2 hl hlam hδ hrow hcol (hsw j)).1
  have g2 : ∀ j, lam * E j ≤ R ^ 2 * distSqr (e (j + 1)) (e j) := fun j => (sweep_rate hA hw0 hw2 hl hlam hδ hrow hcol (hsw j)).2
  have hR2 : (0 : T) < R ^ 2 := by positivity
  have g3 : ∀ j, E (j + 1) ≤ q * E j := by
    intro j
    have h8 : lam / R ^ 2 * E j ≤ distSqr (e (j + 1)) (e j) := by
      rw [div_mul_eq_mul_div, div_le_iff₀ hR2]; linarith [g2 j]
    have h9 := mul_le_mul_of_nonneg_left h8 (mul_pos hw' hδ0).le
    have h10 : q * E j = E j - (2 / w - 1) * δ * (lam / R ^ 2 * E j) := by rw [hq]; ring
    linarith [g1 j]
  have gq : ∀ j, E j ≤ q ^ j * E 0 := by
    rcases lt_or_ge q 0 with hneg | hpos
    · -- then the energy vanishes
      have hz0 : ∀ j, E j = 0 := by
        intro j
        have := g3 j
        have h8 := hE0 (j + 1)
        have h9 := hE0 j
        by_contra hne
        have : q * E j < 0 := mul_neg_of_neg_of_pos hneg (lt_of_le_of_ne h9 (Ne.symm hne))
        linarith
      intro j; rw [hz0 j, hz0 0, mul_zero]
    · intro j
      induction j with
      | zero => simp
      | succ j ih =>
        refine (g3 j).trans ?_
        rw [pow_succ, mul_comm (q ^ j), mul_assoc]
        exact mul_le_mul_of_nonneg_left ih hpos
  refine ⟨gq k, fun hk => ?_, fun K hK => ?_⟩
  · have hk0 := h5 (by omega)
    have hst := h6 hk
    obtain ⟨j, rfl⟩ : ∃ j, k = j + 1 := ⟨k - 1, by omega⟩
    rw [Nat.add_sub_cancel] at hst
    have a1 := g2 j
    have a2 : lam * nsq (e (j + 1)) ≤ E (j + 1) := hlam (e (j + 1))
    have a3 : E (j + 1) ≤ E j := by
      have : 0 ≤ (2 / w - 1) * δ * distSqr (e (j + 1)) (e j) := mul_nonneg (mul_pos hw' hδ0).le (Finset.sum_nonneg fun i _ => sq_nonneg _)
      linarith [g1 j]
    have a4 : lam * (lam * nsq (e (j + 1))) ≤ R ^ 2 * eps ^ 2 :=
      (mul_le_mul_of_nonneg_left (a2.trans a3) hl.le).trans (a1.trans (mul_le_mul_of_nonneg_left hst hR2.le))
    rw [div_pow, le_div_iff₀ (by positivity), mul_pow]
    linarith
  · by_contra hlt
    have hs := h7 (K + 1) (by omega) (by omega)
    rw [Nat.add_sub_cancel] at hs
    have a1 := g1 K
    have a2 := hE0 (K + 1)
    have a3 := mul_lt_mul_of_pos_left hs (mul_pos hw' hδ0)
    linarith [gq K]

theorem StopsAt.shift {y : Nat → Fin n → T} {eps : T} {maxIter k : Nat} (h : StopsAt y eps maxIter k) (z : Fin n → T) :
    StopsAt (fun j => y j - z) eps maxIter k := by
  have hdist : ∀ u v : Fin n → T, distSqr (u - z) (v - z) = distSqr u v := by
    intro u v; unfold distSqr
    exact Finset.sum_congr rfl fun i _ => by rw [Pi.sub_apply, Pi.sub_apply]; ring
  unfold StopsAt
  simp only [hdist]
  exact h

/-- **C108**: `sor` for a symmetric positive definite matrix with quadratic form at least `lam`, diagonal at least `δ`, and with the row sums of the lower and
the upper triangle (with the diagonal divided by the weight) at most `R`: the squared error in the energy norm is multiplied by at most
`q = 1 - (2 / w - 1) δ lam / R²` per sweep; if the solver stops before the limit, the Euclidean error is at most `R eps / lam`; and it stops
as soon as `q ^ K` times the initial energy is at most `(2 / w - 1) δ eps²`. -/
theorem C108_sor_rate (ha : IsMat a n A) (hA : NS.CG.SPD A) {w : T} (hw0 : 0 < w) (hw2 : w < 2) {lam δ R : T} (hl : 0 < lam) (hδ0 : 0 < δ) (hR0 : 0 < R)
    (hlam : ∀ v : Fin n → T, lam * ∑ i, v i ^ 2 ≤ v ⬝ᵥ A *ᵥ v) (hδ : ∀ i, δ ≤ A i i)
    (hrow : ∀ i, A i i / w + ∑ j, (if j < i then |A i j| else 0) ≤ R) (hcol : ∀ i, A i i / w + ∑ j, (if i < j then |A i j| else 0) ≤ R)
    {z : Fin n → T} (hz : A *ᵥ z = b) (hstart : w = 1 ∨ x0 = 0) (maxIter : Nat) (eps : T) :
    ∃ x it, sor a (fl b) (fl x0) w maxIter eps = .ok (fl x, it) ∧ it ≤ maxIter ∧
      (x - z) ⬝ᵥ A *ᵥ (x - z) ≤ (1 - (2 / w - 1) * δ * lam / R ^ 2) ^ it * ((x0 - z) ⬝ᵥ A *ᵥ (x0 - z)) ∧
      (it < maxIter → ∑ i, (x i - z i) ^ 2 ≤ (R * eps / lam) ^ 2) ∧
      ∀ K, (1 - (2 / w - 1) * δ * lam / R ^ 2) ^ K * ((x0 - z) ⬝ᵥ A *ᵥ (x0 - z)) ≤ (2 / w - 1) * δ * eps ^ 2 → it ≤ K + 1 := by
  have hd : ∀ i, A i i ≠ 0 := fun i => (spd_diag hA i).ne'
  obtain ⟨y, k, h0, h1, h2, h3, h4⟩ := C38_sor (b := b) (x0 := x0) ha hd w maxIter eps
  have hsw : ∀ j, IsSorSweep A 0 w (y j - z) (y j - z) (y (j + 1) - z) := by
    intro j
    refine sweep_error hd hz ?_
    rcases Nat.eq_zero_or_pos j with rfl | hj
    · rw [h0]
      rcases hstart with h | h
      · intro i; have := h1 i; simp only [h, sub_self, zero_mul] at this ⊢; exact this
      · have := h1; rw [h] at this ⊢; exact this
    · exact h2 j hj
  obtain ⟨r1, r2, r3⟩ := rate_core hA hw0 hw2 hl hδ0 hR0 hlam hδ hrow hcol hsw (h4.shift z)
  rw [h0] at r1 r3
  exact ⟨y k, k, h3, h4.1, r1, r2, r3⟩

/-- the hypotheses for the matrix (2 -1; -1 2), Gauss-Seidel and the numbers 1, 2, 3 -/
example : NS.CG.SPD (!![2, -1; -1, 2] : Matrix (Fin 2) (Fin 2) ℚ) ∧ (∀ v : Fin 2 → ℚ, 1 * ∑ i, v i ^ 2 ≤ v ⬝ᵥ !![2, -1; -1, 2] *ᵥ v) ∧
    (∀ i, 2 ≤ (!![2, -1; -1, 2] : Matrix (Fin 2) (Fin 2) ℚ) i i) ∧
    (∀ i, (!![2, -1; -1, 2] : Matrix (Fin 2) (Fin 2) ℚ) i i / 1 + ∑ j, (if j < i then |(!![2, -1; -1, 2] : Matrix (Fin 2) (Fin 2) ℚ) i j| else 0) ≤ 3) ∧
    (∀ i, (!![2, -1; -1, 2] : Matrix (Fin 2) (Fin 2) ℚ) i i / 1 + ∑ j, (if i < j then |(!![2, -1; -1, 2] : Matrix (Fin 2) (Fin 2) ℚ) i j| else 0) ≤ 3) := by
  have hv : ∀ v : Fin 2 → ℚ, v ⬝ᵥ !![2, -1; -1, 2] *ᵥ v = (v 0 - v 1) ^ 2 + (v 0 ^ 2 + v 1 ^ 2) := by
    intro v; simp [dotProduct, Matrix.mulVec, Fin.sum_univ_two]; ring
  have hb : ∀ v : Fin 2 → ℚ, 1 * ∑ i, v i ^ 2 ≤ v ⬝ᵥ !![2, -1; -1, 2] *ᵥ v := by
    intro v
    rw [hv, Fin.sum_univ_two]
    nlinarith [sq_nonneg (v 0 - v 1)]
  refine ⟨⟨by decide +kernel, fun v h0 => lt_of_lt_of_le ?_ (hb v)⟩, hb, by decide +kernel, by decide +kernel, by decide +kernel⟩
  rw [one_mul]
  obtain ⟨i, hi⟩ := Function.ne_iff.1 h0
  exact Finset.sum_pos' (fun j _ => sq_nonneg _) ⟨i, Finset.mem_univ _, by rw [Pi.zero_apply] at hi; positivity⟩
end NS.Props.Iter

/-
Property theorem C70: `Iterative::serial::sor` on systems that are block lower triangular with symmetric positive definite
diagonal blocks (after scaling of rows): the systems of `examples/poisson/fdm.cpp` and `examples/heat/main.cpp`.
-/
import Verif.Props.SorSpd

set_option linter.unusedSectionVars false
set_option linter.unusedSimpArgs false

namespace NS.Props.Iter
open NS NS.MatOps NS.LawfulMat NS.Props.LU NS.Iterative Matrix
variable {M T : Type} [Field T] [LinearOrder T] [IsStrictOrderedRing T] [MatOps M T] [LawfulMat M T] {n : Nat}
  {a : M} {A S : Matrix (Fin n) (Fin n) T} {b x0 : Fin n → T}

/-- squared Euclidean norm -/
def nsq (x : Fin n → T) : T := ∑ i, x i ^ 2

theorem nsq_nonneg (x : Fin n → T) : 0 ≤ nsq x := Finset.sum_nonneg fun _ _ => sq_nonneg _
theorem nsq_single (x : Fin n → T) (i : Fin n) : x i ^ 2 ≤ nsq x :=
  Finset.single_le_sum (f := fun i => x i ^ 2) (fun _ _ => sq_nonneg _) (Finset.mem_univ i)

theorem nsq_add (x y : Fin n → T) : nsq (x + y) ≤ 2 * nsq x + 2 * nsq y := by
  unfold nsq
  rw [Finset.mul_sum, Finset.mul_sum, ← Finset.sum_add_distrib]
  refine Finset.sum_le_sum fun i _ => ?_
  rw [Pi.add_apply]
  nlinarith [sq_nonneg (x i - y i)]

theorem nsq_eq_zero {x : Fin n → T} (h : nsq x ≤ 0) : x = 0 := by
  funext i
  have := nsq_single x i
  exact pow_eq_zero_iff (two_ne_zero) |>.1 (le_antisymm (this.trans h) (sq_nonneg _))

/-- every linear map is bounded -/
theorem mulVec_bound (B : Matrix (Fin n) (Fin n) T) : ∃ c, 0 ≤ c ∧ ∀ x, nsq (B *ᵥ x) ≤ c * nsq x := by
  refine ⟨∑ i, (∑ j, B i j ^ 2), Finset.sum_nonneg fun i _ => Finset.sum_nonneg fun j _ => sq_nonneg _, fun x => ?_⟩
  show ∑ i, (B *ᵥ x) i ^ 2 ≤ _
  rw [Finset.sum_mul]
  exact Finset.sum_le_sum fun i _ => Finset.sum_mul_sq_le_sq_mul_sq Finset.univ (fun j => B i j) x

theorem quad_bound (B : Matrix (Fin n) (Fin n) T) : ∃ c, 0 ≤ c ∧ ∀ x, x ⬝ᵥ B *ᵥ x ≤ c * nsq x := by
  obtain ⟨c, hc, h⟩ := mulVec_bound B
  refine ⟨1 + c, by linarith, fun x => ?_⟩
  have : x ⬝ᵥ B *ᵥ x ≤ nsq x + nsq (B *ᵥ x) := by
    unfold dotProduct nsq
    rw [← Finset.sum_add_distrib]
    refine Finset.sum_le_sum fun i _ => ?_
    nlinarith [sq_nonneg (x i - (B *ᵥ x) i), sq_nonneg (x i), sq_nonneg ((B *ᵥ x) i)]
  have := h x
  linarith

/-- one sweep on a symmetric positive definite system contracts the energy, up to the right-hand side; and the old vector is
bounded by its energy and the right-hand side -/
theorem sweep_contracts (hS : NS.CG.SPD S) {w : T} (hw0 : 0 < w) (hw2 : w < 2) :
    ∃ q C : T, 0 ≤ q ∧ q < 1 ∧ 0 ≤ C ∧ ∀ x y η : Fin n → T, IsSorSweep S η w x x y →
      y ⬝ᵥ S *ᵥ y ≤ q * (x ⬝ᵥ S *ᵥ x) + C * nsq η ∧ nsq x ≤ C * (x ⬝ᵥ S *ᵥ x + nsq η) := by
  have hd : ∀ i, S i i ≠ 0 := fun i => (spd_diag hS i).ne'
  have hE : ∀ x : Fin n → T, 0 ≤ x ⬝ᵥ S *ᵥ x := fun x => by
    by_cases h : x = 0
    · rw [h]; simp
    · exact (hS.2 _ h).le
  obtain ⟨c, hc0, hc⟩ := diag_lower hS
  have hw' : 0 < 2 / w - 1 := by rw [sub_pos, lt_div_iff₀ hw0]; linarith
  set α := (2 / w - 1) * c / 2 with hα
  have hα0 : 0 < α := by positivity
  -- the residual is bounded by the step
  let Lw : Matrix (Fin n) (Fin n) T := fun i j => if j < i then S i j else if j = i then S i i / w else 0
  have hLw : ∀ d i, (Lw *ᵥ d) i = S i i * d i / w + lowSum S d i := by
    intro d i
    unfold lowSum Matrix.mulVec dotProduct
    have : S i i * d i / w = ∑ j, if j = i then S i i * d i / w else 0 := by simp
    rw [this, ← Finset.sum_add_distrib]
    refine Finset.sum_congr rfl fun j _ => ?_
    show (if j < i then S i j else if j = i then S i i / w else 0) * d j = _
    rcases lt_trichotomy j i with h | rfl | h
    · simp [h, h.ne]
    · simp; ring
    · simp [h.ne', h.not_gt]
  obtain ⟨c1, hc1, hb1⟩ := mulVec_bound Lw
  obtain ⟨c2, hc2, hb2⟩ := mulVec_bound S⁻¹
  obtain ⟨c3, hc3, hb3⟩ := quad_bound S
  have hdet : IsUnit S.det := by
    rw [isUnit_iff_ne_zero]
    intro h0
    obtain ⟨v, hv, e⟩ := Matrix.exists_mulVec_eq_zero_iff.2 h0
    have := hS.2 v hv
    rw [e, dotProduct_zero] at this
    exact lt_irrefl _ this
  have hinv : ∀ x, S⁻¹ *ᵥ (S *ᵥ x) = x := fun x => by
    rw [Matrix.mulVec_mulVec, Matrix.nonsing_inv_mul _ hdet, Matrix.one_mulVec]
  have key : ∀ x y η : Fin n → T, IsSorSweep S η w x x y →
      y ⬝ᵥ S *ᵥ y ≤ x ⬝ᵥ S *ᵥ x - α * nsq (y - x) + nsq η / α ∧
      nsq x ≤ c2 * (2 * nsq η + 2 * (c1 * nsq (y - x))) := by
    intro x y η h
    constructor
    · have e := phi_sweep hS hw0.ne' h
      unfold phi at e
      have e1 : y ⬝ᵥ S *ᵥ y = x ⬝ᵥ S *ᵥ x - (2 / w - 1) * ∑ i, S i i * (y i - x i) ^ 2 + 2 * (η ⬝ᵥ (y - x)) := by
        rw [dotProduct_sub]; linear_combination e
      have e2 : c * nsq (y - x) ≤ ∑ i, S i i * (y i - x i) ^ 2 := by
        unfold nsq
        rw [Finset.mul_sum]
        exact Finset.sum_le_sum fun i _ => mul_le_mul_of_nonneg_right (hc i) (sq_nonneg _)
      have e3 := mul_le_mul_of_nonneg_left e2 hw'.le
      have e4 : 2 * (η ⬝ᵥ (y - x)) ≤ α * nsq (y - x) + nsq η / α := by
        unfold dotProduct nsq
        rw [Finset.mul_sum, Finset.mul_sum, div_eq_mul_inv, Finset.sum_mul, ← Finset.sum_add_distrib]
        refine Finset.sum_le_sum fun i _ => ?_
        have : 0 ≤ α⁻¹ * (α * (y - x) i - η i) ^ 2 := by positivity
        have e5 : α⁻¹ * (α * (y - x) i - η i) ^ 2 = α * (y - x) i ^ 2 + η i ^ 2 * α⁻¹ - 2 * (η i * (y - x) i) := by
          field_simp
          ring
        linarith
      have e6 : (2 / w - 1) * (c * nsq (y - x)) = 2 * (α * nsq (y - x)) := by rw [hα]; ring
      linarith
    · have e : S *ᵥ x = η + (-1 : T) • (Lw *ᵥ (y - x)) := by
        funext i
        have := residual_before hd hw0.ne' h i
        rw [Pi.add_apply, Pi.smul_apply, hLw, smul_eq_mul]
        rw [Pi.sub_apply]
        linear_combination -this
      calc nsq x = nsq (S⁻¹ *ᵥ (S *ᵥ x)) := by rw [hinv]
        _ ≤ c2 * nsq (S *ᵥ x) := hb2 _
        _ ≤ _ := by
            refine mul_le_mul_of_nonneg_left ?_ hc2
            rw [e]
            refine (nsq_add _ _).trans ?_
            have e7 : nsq ((-1 : T) • (Lw *ᵥ (y - x))) = nsq (Lw *ᵥ (y - x)) := by
              unfold nsq
              refine Finset.sum_congr rfl fun i _ => ?_
              rw [Pi.smul_apply, smul_eq_mul]; ring
            rw [e7]
            have := hb1 (y - x)
            linarith
  -- put together
  set g := c3 * c2 * (2 * c1) + α with hg
  have hg0 : 0 < g := by positivity
  refine ⟨1 - α / g, max (c3 * (c2 * 2) * (α / g) + 1 / α) (2 * (c2 * 2) + c2 * (2 * c1) / α * (1 + 1 / α)), ?_, ?_, ?_, ?_⟩
  · have : α / g ≤ 1 := by rw [div_le_one hg0, hg]; have : 0 ≤ c3 * c2 * (2 * c1) := by positivity
                           linarith
    linarith
  · have : 0 < α / g := by positivity
    linarith
  · exact le_max_of_le_left (by positivity)
  · intro x y η h
    obtain ⟨k1, k2⟩ := key x y η h
    have hη := nsq_nonneg η
    have hdx := nsq_nonneg (y - x)
    have h3 := hb3 x
    constructor
    · refine le_trans ?_ (add_le_add_right (mul_le_mul_of_nonneg_right (le_max_left _ _) hη) _)
      have e1 : x ⬝ᵥ S *ᵥ x ≤ c3 * (c2 * (2 * nsq η + 2 * (c1 * nsq (y - x)))) := h3.trans (mul_le_mul_of_nonneg_left k2 hc3)
      -- α/g * E ≤ α/g*c3*c2*2 nsq η + α * nsq d
      have e2 : α / g * (x ⬝ᵥ S *ᵥ x) ≤ c3 * (c2 * 2) * (α / g) * nsq η + α * nsq (y - x) := by
        have h5 : 0 ≤ α / g := by positivity
        have h6 := mul_le_mul_of_nonneg_left e1 h5
        have h7 : α / g * (c3 * (c2 * (2 * (c1 * nsq (y - x))))) ≤ α * nsq (y - x) := by
          have : α / g * (c3 * (c2 * (2 * (c1 * nsq (y - x))))) = α * nsq (y - x) * ((c3 * c2 * (2 * c1)) / g) := by ring
          rw [this]
          refine mul_le_of_le_one_right (by positivity) ?_
          rw [div_le_one hg0, hg]; linarith
        linarith
      have e3 : (c3 * (c2 * 2) * (α / g) + 1 / α) * nsq η = c3 * (c2 * 2) * (α / g) * nsq η + nsq η / α := by ring
      rw [e3]
      linarith
    · have e1 : α * nsq (y - x) ≤ x ⬝ᵥ S *ᵥ x + nsq η / α := by have := hE y; linarith
      have e2 : nsq (y - x) ≤ (x ⬝ᵥ S *ᵥ x + nsq η / α) / α := by rw [le_div_iff₀ hα0]; linarith
      have hEx := hE x
      have hsum : 0 ≤ x ⬝ᵥ S *ᵥ x + nsq η := by linarith
      refine le_trans ?_ (mul_le_mul_of_nonneg_right (le_max_right _ _) hsum)
      calc nsq x ≤ c2 * (2 * nsq η + 2 * (c1 * nsq (y - x))) := k2
        _ = (c2 * 2) * nsq η + c2 * (2 * c1) * nsq (y - x) := by ring
        _ ≤ (c2 * 2) * nsq η + c2 * (2 * c1) * ((x ⬝ᵥ S *ᵥ x + nsq η / α) / α) :=
            add_le_add_right (mul_le_mul_of_nonneg_left e2 (by positivity)) _
        _ ≤ (2 * (c2 * 2)) * (x ⬝ᵥ S *ᵥ x + nsq η) + c2 * (2 * c1) / α * (1 + 1 / α) * (x ⬝ᵥ S *ᵥ x + nsq η) := by
            refine add_le_add ?_ ?_
            · have : 0 ≤ c2 * 2 := by positivity
              nlinarith
            · have h8 : x ⬝ᵥ S *ᵥ x + nsq η / α ≤ (1 + 1 / α) * (x ⬝ᵥ S *ᵥ x + nsq η) := by
                have h9 : 0 ≤ 1 / α * (x ⬝ᵥ S *ᵥ x) := by positivity
                have : (1 + 1 / α) * (x ⬝ᵥ S *ᵥ x + nsq η) = x ⬝ᵥ S *ᵥ x + nsq η / α + (1 / α * (x ⬝ᵥ S *ᵥ x) + nsq η) := by ring
                rw [this]; linarith
              have h10 : 0 ≤ c2 * (2 * c1) / α := by positivity
              calc c2 * (2 * c1) * ((x ⬝ᵥ S *ᵥ x + nsq η / α) / α) = c2 * (2 * c1) / α * (x ⬝ᵥ S *ᵥ x + nsq η / α) := by ring
                _ ≤ c2 * (2 * c1) / α * ((1 + 1 / α) * (x ⬝ᵥ S *ᵥ x + nsq η)) := mul_le_mul_of_nonneg_left h8 h10
                _ = _ := by ring
        _ = _ := by ring

/-- a sequence that contracts up to a geometrically small term is geometrically small -/
theorem geometric {e : Nat → T} {q p D : T} (hq0 : 0 ≤ q) (hq1 : q < 1) (hp0 : 0 ≤ p) (hp1 : p < 1) (hD : 0 ≤ D)
    (h : ∀ k, e (k + 1) ≤ q * e k + D * p ^ k) (h0 : 0 ≤ e 0) : ∃ r K : T, 0 ≤ r ∧ r < 1 ∧ p ≤ r ∧ 0 ≤ K ∧ ∀ k, e k ≤ K * r ^ k := by
  set m := max p q with hm
  have hm0 : 0 ≤ m := le_max_of_le_left hp0
  have hm1 : m < 1 := max_lt hp1 hq1
  set r := (1 + m) / 2 with hr
  have hrm : m < r := by rw [hr]; linarith
  have hr1 : r < 1 := by rw [hr]; linarith
  have hr0 : 0 ≤ r := hm0.trans hrm.le
  have hqr : 0 < r - q := by have : q ≤ m := le_max_right _ _; linarith
  have hpr : p ≤ r := (le_max_left p q).trans hrm.le
  set K := e 0 + D / (r - q) with hK
  have hK0 : 0 ≤ K := by positivity
  refine ⟨r, K, hr0, hr1, hpr, hK0, fun k => ?_⟩
  induction k with
  | zero => simp only [pow_zero, mul_one, hK]; have : 0 ≤ D / (r - q) := by positivity
            linarith
  | succ k ih =>
    have h1 : p ^ k ≤ r ^ k := pow_le_pow_left₀ hp0 hpr k
    have h2 : 0 ≤ r ^ k := pow_nonneg hr0 k
    have h3 : D ≤ K * (r - q) := by
      have : D / (r - q) * (r - q) = D := div_mul_cancel₀ _ hqr.ne'
      rw [hK, add_mul, this]
      have := mul_nonneg h0 hqr.le
      linarith
    calc e (k + 1) ≤ q * e k + D * p ^ k := h k
      _ ≤ q * (K * r ^ k) + D * r ^ k := add_le_add (mul_le_mul_of_nonneg_left ih hq0) (mul_le_mul_of_nonneg_left h1 hD)
      _ = (q * K + D) * r ^ k := by ring
      _ ≤ (K * r) * r ^ k := mul_le_mul_of_nonneg_right (by linarith) h2
      _ = _ := by rw [pow_succ]; ring

/-- the diagonal block of one level, rows scaled by `s`, extended by the identity to all indices -/
def block (A : Matrix (Fin n) (Fin n) T) (lev : Fin n → Nat) (s : Fin n → T) (l : Nat) : Matrix (Fin n) (Fin n) T :=
  fun i j => if lev i = l ∧ lev j = l then s i * A i j else if i = j then 1 else 0

/-- the unknowns have levels, no row refers to a higher level, and after scaling of the rows the coupling inside each level is
symmetric positive definite -/
structure Levels (A : Matrix (Fin n) (Fin n) T) (lev : Fin n → Nat) (s : Fin n → T) : Prop where
  lower : ∀ i j, lev i < lev j → A i j = 0
  spd : ∀ l, NS.CG.SPD (block A lev s l)

variable {lev : Fin n → Nat} {s : Fin n → T}

theorem Levels.scaled_pos (h : Levels A lev s) (i : Fin n) : 0 < s i * A i i := by
  have := spd_diag (h.spd (lev i)) i
  simpa [block] using this

theorem Levels.diag (h : Levels A lev s) (i : Fin n) : A i i ≠ 0 := fun h0 => by
  have := h.scaled_pos i
  rw [h0, mul_zero] at this
  exact lt_irrefl _ this

theorem Levels.scale (h : Levels A lev s) (i : Fin n) : s i ≠ 0 := fun h0 => by
  have := h.scaled_pos i
  rw [h0, zero_mul] at this
  exact lt_irrefl _ this

/-- restriction to one level, and to the levels below -/
def onLev (lev : Fin n → Nat) (l : Nat) (x : Fin n → T) : Fin n → T := fun i => if lev i = l then x i else 0
def below (lev : Fin n → Nat) (l : Nat) (x : Fin n → T) : Fin n → T := fun i => if lev i < l then x i else 0

/-- the right-hand side that the lower levels contribute to the scaled system of level `l` -/
def inflow (A : Matrix (Fin n) (Fin n) T) (lev : Fin n → Nat) (s : Fin n → T) (l : Nat) (x y : Fin n → T) : Fin n → T :=
  fun i => if lev i = l then -(s i * ∑ j, (if j < i then A i j * below lev l y j else if i < j then A i j * below lev l x j else 0)) else 0

theorem sweep_level (h : Levels A lev s) {w : T} {x y : Fin n → T} (hs : IsSorSweep A 0 w x x y) (l : Nat) :
    IsSorSweep (block A lev s l) (inflow A lev s l x y) w (onLev lev l x) (onLev lev l x) (onLev lev l y) := by
  intro i
  by_cases hi : lev i = l
  · have hA := h.diag i
    have hsi := h.scale i
    simp only [onLev, hi, inflow, block, if_true, and_self, true_and]
    rw [hs i]
    congr 1
    congr 1
    have e1 : (∑ j, if j < i then A i j * y j else if i < j then A i j * x j else 0) =
        (∑ j, if j < i then A i j * below lev l y j else if i < j then A i j * below lev l x j else 0) +
        ∑ j, if j < i then A i j * onLev lev l y j else if i < j then A i j * onLev lev l x j else 0 := by
      rw [← Finset.sum_add_distrib]
      refine Finset.sum_congr rfl fun j _ => ?_
      have hz : ∀ u : Fin n → T, A i j * u j = A i j * below lev l u j + A i j * onLev lev l u j := by
        intro u
        unfold below onLev
        rcases lt_trichotomy (lev j) l with h1 | h1 | h1
        · simp [h1, h1.ne]
        · simp [h1]
        · simp [h.lower i j (by omega)]
      split
      · exact hz y
      · split
        · exact hz x
        · simp
    have e2 : (∑ j, if j < i then (if lev j = l then s i * A i j else if i = j then 1 else 0) * (if lev j = l then y j else 0)
          else if i < j then (if lev j = l then s i * A i j else if i = j then 1 else 0) * (if lev j = l then x j else 0) else 0) =
        s i * ∑ j, if j < i then A i j * onLev lev l y j else if i < j then A i j * onLev lev l x j else 0 := by
      rw [Finset.mul_sum]
      refine Finset.sum_congr rfl fun j _ => ?_
      unfold onLev
      by_cases hj : lev j = l
      · simp only [hj, if_true]
        split
        · ring
        · split
          · ring
          · simp
      · simp [hj]
    rw [e1, e2, Pi.zero_apply]
    field_simp
    ring
  · simp only [onLev, hi, inflow, block, if_false, false_and, ↓reduceIte]
    have : (∑ j, if j < i then (if i = j then (1 : T) else 0) * (if lev j = l then y j else 0)
        else if i < j then (if i = j then 1 else 0) * (if lev j = l then x j else 0) else 0) = 0 := by
      refine Finset.sum_eq_zero fun j _ => ?_
      split
      · next h => simp [h.ne']
      · split
        · next h => simp [h.ne]
        · rfl
    rw [this]; simp

theorem nsq_levels (lev : Fin n → Nat) (x : Fin n → T) {L : Nat} (hL : ∀ i, lev i < L) : nsq x = ∑ l ∈ Finset.range L, nsq (onLev lev l x) := by
  unfold nsq onLev
  rw [Finset.sum_comm]
  refine Finset.sum_congr rfl fun i _ => ?_
  rw [Finset.sum_eq_single_of_mem (lev i) (Finset.mem_range.2 (hL i))]
  · simp
  · intro l _ hl; simp [Ne.symm hl]

theorem nsq_below (lev : Fin n → Nat) (x : Fin n → T) (l : Nat) : nsq (below lev l x) = ∑ k ∈ Finset.range l, nsq (onLev lev k x) := by
  unfold nsq onLev below
  rw [Finset.sum_comm]
  refine Finset.sum_congr rfl fun i _ => ?_
  by_cases hi : lev i < l
  · rw [Finset.sum_eq_single_of_mem (lev i) (Finset.mem_range.2 hi)]
    · simp [hi]
    · intro k _ hk; simp [Ne.symm hk]
  · rw [Finset.sum_eq_zero]
    · simp [hi]
    · intro k hk
      have : lev i ≠ k := by have := Finset.mem_range.1 hk; omega
      simp [this]

theorem inflow_bound (A : Matrix (Fin n) (Fin n) T) (lev : Fin n → Nat) (s : Fin n → T) (l : Nat) :
    ∃ c, 0 ≤ c ∧ ∀ x y, nsq (inflow A lev s l x y) ≤ c * (nsq (below lev l x) + nsq (below lev l y)) := by
  let B1 : Matrix (Fin n) (Fin n) T := fun i j => if lev i = l ∧ j < i then -(s i * A i j) else 0
  let B2 : Matrix (Fin n) (Fin n) T := fun i j => if lev i = l ∧ i < j then -(s i * A i j) else 0
  obtain ⟨c1, h1, b1⟩ := mulVec_bound B1
  obtain ⟨c2, h2, b2⟩ := mulVec_bound B2
  refine ⟨2 * c1 + 2 * c2, by positivity, fun x y => ?_⟩
  have e : inflow A lev s l x y = B1 *ᵥ below lev l y + B2 *ᵥ below lev l x := by
    funext i
    rw [Pi.add_apply]
    unfold inflow Matrix.mulVec dotProduct
    rw [← Finset.sum_add_distrib]
    by_cases hi : lev i = l
    · rw [if_pos hi, Finset.mul_sum, ← Finset.sum_neg_distrib]
      refine Finset.sum_congr rfl fun j _ => ?_
      simp only [B1, B2, hi, true_and]
      rcases lt_trichotomy j i with h | rfl | h
      · simp [h, h.not_gt]; ring
      · simp
      · simp [h, h.not_gt]; ring
    · rw [if_neg hi, Finset.sum_eq_zero]
      intro j _
      simp [B1, B2, hi]
  rw [e]
  refine (nsq_add _ _).trans ?_
  have := b1 (below lev l y)
  have := b2 (below lev l x)
  have := nsq_nonneg (below lev l x)
  have := nsq_nonneg (below lev l y)
  nlinarith

/-- along the sweeps of the homogeneous system every level decays geometrically -/
theorem level_decay (h : Levels A lev s) {w : T} (hw0 : 0 < w) (hw2 : w < 2) {e : Nat → Fin n → T}
    (he : ∀ k, IsSorSweep A 0 w (e k) (e k) (e (k + 1))) (l : Nat) :
    ∃ r K : T, 0 ≤ r ∧ r < 1 ∧ 0 ≤ K ∧ ∀ k, (∑ m ∈ Finset.range l, nsq (onLev lev m (e k))) ≤ K * r ^ k := by
  induction l with
  | zero => exact ⟨0, 0, le_refl _, one_pos, le_refl _, fun k => by simp⟩
  | succ l ih =>
    obtain ⟨p, K, hp0, hp1, hK0, hK⟩ := ih
    obtain ⟨q, C, hq0, hq1, hC0, hC⟩ := sweep_contracts (h.spd l) hw0 hw2
    obtain ⟨c, hc0, hc⟩ := inflow_bound A lev s l
    have hin : ∀ k, nsq (inflow A lev s l (e k) (e (k + 1))) ≤ c * (2 * K) * p ^ k := by
      intro k
      refine (hc _ _).trans ?_
      rw [mul_assoc]
      refine mul_le_mul_of_nonneg_left ?_ hc0
      rw [nsq_below, nsq_below]
      have h1 := hK k
      have h2 := hK (k + 1)
      have h3 : p ^ (k + 1) ≤ p ^ k := pow_le_pow_of_le_one hp0 hp1.le (by omega)
      have h4 := mul_le_mul_of_nonneg_left h3 hK0
      linarith
    obtain ⟨r, K', hr0, hr1, hpr, hK'0, hK'⟩ := geometric (e := fun k => onLev lev l (e k) ⬝ᵥ block A lev s l *ᵥ onLev lev l (e k))
      (D := C * (c * (2 * K))) hq0 hq1 hp0 hp1 (by positivity) (fun k => by
        have h1 := (hC _ _ _ (sweep_level h (he k) l)).1
        have h2 := mul_le_mul_of_nonneg_left (hin k) hC0
        linarith) (by
        by_cases h0 : onLev lev l (e 0) = 0
        · rw [h0]; simp
        · exact ((h.spd l).2 _ h0).le)
    refine ⟨r, K + C * (K' + c * (2 * K)), hr0, hr1, by positivity, fun k => ?_⟩
    rw [Finset.sum_range_succ]
    have h1 := (hC _ _ _ (sweep_level h (he k) l)).2
    have h2 : p ^ k ≤ r ^ k := pow_le_pow_left₀ hp0 hpr k
    have h3 := hK k
    have h4 := hK' k
    have h5 := hin k
    have h6 := mul_le_mul_of_nonneg_left h2 hK0
    have h7 := mul_le_mul_of_nonneg_left h2 (show 0 ≤ c * (2 * K) by positivity)
    have h8 : nsq (onLev lev l (e k)) ≤ C * ((K' + c * (2 * K)) * r ^ k) :=
      h1.trans (mul_le_mul_of_nonneg_left (by linarith) hC0)
    nlinarith

/-- along the sweeps of the homogeneous system everything decays geometrically -/
theorem sweeps_decay (h : Levels A lev s) {w : T} (hw0 : 0 < w) (hw2 : w < 2) {e : Nat → Fin n → T}
    (he : ∀ k, IsSorSweep A 0 w (e k) (e k) (e (k + 1))) : ∃ r K : T, 0 ≤ r ∧ r < 1 ∧ 0 ≤ K ∧ ∀ k, nsq (e k) ≤ K * r ^ k := by
  obtain ⟨r, K, h1, h2, h3, h4⟩ := level_decay h hw0 hw2 he ((∑ i, lev i) + 1)
  refine ⟨r, K, h1, h2, h3, fun k => ?_⟩
  rw [nsq_levels lev (e k) (L := (∑ i, lev i) + 1)]
  · exact h4 k
  · intro i
    exact Nat.lt_succ_of_le (Finset.single_le_sum (f := lev) (fun _ _ => Nat.zero_le _) (Finset.mem_univ i))

/-- the difference of a sweep and the solution is a sweep of the homogeneous system -/
theorem sweep_error (hd : ∀ i, A i i ≠ 0) {w : T} {x y z : Fin n → T} (hz : A *ᵥ z = b) (h : IsSorSweep A b w x x y) :
    IsSorSweep A 0 w (x - z) (x - z) (y - z) := by
  intro i
  have hi := h i
  rw [sweep_split] at hi ⊢
  have hb : b i = (A *ᵥ z) i := by rw [hz]
  have e1 : y - z - (x - z) = y - x := by abel
  rw [e1, Matrix.mulVec_sub, Pi.sub_apply, Pi.sub_apply, Pi.sub_apply, hi, hb, Pi.zero_apply]
  have := hd i
  field_simp
  ring

/-- such a system has exactly one solution -/
theorem levels_solvable [Archimedean T] (h : Levels A lev s) (b : Fin n → T) : ∃! z, A *ᵥ z = b := by
  have hinj : ∀ v, A *ᵥ v = 0 → v = 0 := by
    intro v hv
    have hsw : IsSorSweep A 0 1 v v v := by
      intro i
      rw [sweep_split, sub_self (1 : T), hv]
      have := h.diag i
      have hl : lowSum A (v - v) i = 0 := by simp [lowSum]
      rw [hl]
      simp only [Pi.zero_apply]
      field_simp
      ring
    obtain ⟨r, K, h1, h2, h3, h4⟩ := sweeps_decay h (w := 1) one_pos (by norm_num) (e := fun _ => v) (fun _ => hsw)
    apply nsq_eq_zero
    by_contra hlt
    push Not at hlt
    rcases h3.eq_or_lt with h0 | h0
    · have := h4 0
      rw [← h0] at this
      simp only [zero_mul] at this
      exact absurd hlt (not_lt.2 this)
    · obtain ⟨k, hk⟩ := exists_pow_lt_of_lt_one (show 0 < nsq v / K by positivity) h2
      rw [lt_div_iff₀ h0] at hk
      have := h4 k
      linarith
  have hdet : A.det ≠ 0 := by
    intro h0
    obtain ⟨v, hv, e⟩ := Matrix.exists_mulVec_eq_zero_iff.2 h0
    exact hv (hinj v e)
  refine ⟨A⁻¹ *ᵥ b, ?_, fun z hz => ?_⟩
  · show A *ᵥ (A⁻¹ *ᵥ b) = b
    rw [Matrix.mulVec_mulVec, Matrix.mul_nonsing_inv _ (isUnit_iff_ne_zero.2 hdet), Matrix.one_mulVec]
  · simp only at hz
    rw [← hz, Matrix.mulVec_mulVec, Matrix.nonsing_inv_mul _ (isUnit_iff_ne_zero.2 hdet), Matrix.one_mulVec]

/-- C70: for every system with such levels and every weight `0 < w < 2` there is a constant `C` such that for every right-hand side,
start vector and tolerance `eps > 0`, `sor` stops by convergence once the iteration limit is large enough, and (unless it made a
single iteration from a non-zero start with `w ≠ 1`) its result is within `C * eps` of the solution, in each component. -/
theorem C70_sor_levels [Archimedean T] (h : Levels A lev s) {w : T} (hw0 : 0 < w) (hw2 : w < 2) :
    ∃ C : T, 0 ≤ C ∧ ∀ (a : M) (b x0 : Fin n → T) (eps : T), IsMat a n A → 0 < eps →
      ∃ N, ∀ maxIter, N < maxIter → ∃ x it, sor a (fl b) (fl x0) w maxIter eps = .ok (fl x, it) ∧ it ≤ N ∧
        (2 ≤ it ∨ w = 1 ∨ x0 = 0 → ∀ z, A *ᵥ z = b → ∀ i, |x i - z i| ≤ C * eps) := by
  have hd := h.diag
  have hdet : IsUnit A.det := by
    rw [isUnit_iff_ne_zero]
    intro h0
    obtain ⟨v, hv, e⟩ := Matrix.exists_mulVec_eq_zero_iff.2 h0
    obtain ⟨z, -, hz⟩ := levels_solvable h (0 : Fin n → T)
    have h1 := hz v e
    have h2 := hz 0 (Matrix.mulVec_zero _)
    exact hv (h1.trans h2.symm)
  have hinv : ∀ x, A⁻¹ *ᵥ (A *ᵥ x) = x := fun x => by
    rw [Matrix.mulVec_mulVec, Matrix.nonsing_inv_mul _ hdet, Matrix.one_mulVec]
  choose next hnext using fun (b x : Fin n → T) => sorStep_exists A b w x x
  set R : Fin n → T := fun i => |1 / w - 1| * |A i i| + ∑ j, if i < j then |A i j| else 0 with hR
  have hR0 : ∀ i, 0 ≤ R i := fun i => by
    have : 0 ≤ ∑ j, if i < j then |A i j| else 0 := Finset.sum_nonneg fun j _ => by split <;> simp
    simp only [hR]; positivity
  refine ⟨∑ i, ∑ j, |A⁻¹ i j| * R j, Finset.sum_nonneg fun i _ => Finset.sum_nonneg fun j _ => mul_nonneg (abs_nonneg _) (hR0 j), ?_⟩
  intro a b x0 eps ha he
  obtain ⟨y1, hy1⟩ := sorStep_exists A b w 0 x0
  obtain ⟨z, hz, -⟩ := levels_solvable h b
  set Y : Nat → Fin n → T := fun k => (next b)^[k] y1 with hY
  have hYs : ∀ k, IsSorSweep A b w (Y k) (Y k) (Y (k + 1)) := by
    intro k
    show IsSorSweep A b w ((next b)^[k] y1) ((next b)^[k] y1) ((next b)^[k + 1] y1)
    rw [Function.iterate_succ_apply']
    exact hnext _ _
  obtain ⟨r, K, hr0, hr1, hK0, hK⟩ := sweeps_decay h hw0 hw2 (e := fun k => Y k - z) (fun k => sweep_error hd hz (hYs k))
  have he2 : 0 < eps ^ 2 := by positivity
  obtain ⟨k0, hk0⟩ : ∃ k, distSqr (Y (k + 1)) (Y k) ≤ eps ^ 2 := by
    obtain ⟨k, hk⟩ := exists_pow_lt_of_lt_one (show 0 < eps ^ 2 / (4 * K + 1) by positivity) hr1
    refine ⟨k, ?_⟩
    rw [lt_div_iff₀ (by positivity)] at hk
    have e1 : distSqr (Y (k + 1)) (Y k) ≤ 2 * nsq (Y (k + 1) - z) + 2 * nsq (Y k - z) := by
      unfold distSqr nsq
      rw [Finset.mul_sum, Finset.mul_sum, ← Finset.sum_add_distrib]
      refine Finset.sum_le_sum fun i _ => ?_
      rw [Pi.sub_apply, Pi.sub_apply]
      nlinarith [sq_nonneg ((Y (k + 1) i - z i) + (Y k i - z i))]
    have h1 := hK k
    have h2 := hK (k + 1)
    have h3 : r ^ (k + 1) ≤ r ^ k := pow_le_pow_of_le_one hr0 hr1.le (by omega)
    have h4 := mul_le_mul_of_nonneg_left h3 hK0
    have h5 : 0 ≤ r ^ k := pow_nonneg hr0 k
    linarith
  refine ⟨k0 + 2, fun maxIter hmax => ?_⟩
  obtain ⟨y, k, h0, h1, h2, h3, h4, h5, h6, h7⟩ := C38_sor (b := b) (x0 := x0) ha hd w maxIter eps
  have hyeq : ∀ k, y (k + 1) = Y k := by
    intro k
    induction k with
    | zero => exact sweep_unique h1 hy1
    | succ k ih =>
      have e1 := h2 (k + 1) (by omega)
      rw [ih] at e1
      exact sweep_unique e1 (hYs k)
  have hkN : k ≤ k0 + 2 := by
    by_contra hlt
    have := h7 (k0 + 2) (by omega) (by omega)
    rw [show k0 + 2 - 1 = k0 + 1 by omega, hyeq (k0 + 1), hyeq k0] at this
    exact absurd hk0 (not_le.2 this)
  refine ⟨y k, k, h3, hkN, fun hstart z' hz' i => ?_⟩
  have hk := h5 (by omega)
  have hstep := h6 (by omega)
  have hsweep : IsSorSweep A b w (y (k - 1)) (y (k - 1)) (y k) := by
    rcases Nat.lt_or_ge 1 k with hk1 | hk1
    · have := h2 (k - 1) (by omega)
      rwa [show k - 1 + 1 = k by omega] at this
    · obtain rfl : k = 1 := by omega
      show IsSorSweep A b w (y 0) (y 0) (y 1)
      rw [h0]
      rcases hstart with h | h | h
      · omega
      · intro i; have := h1 i; simp only [h, sub_self, zero_mul] at this ⊢; exact this
      · have := h1; rw [h] at this ⊢; exact this
  have hres := fun j => residual_bound hd hw0.ne' hsweep he.le hstep j
  have e1 : y k - z' = A⁻¹ *ᵥ (A *ᵥ y k - b) := by
    rw [← hz', ← Matrix.mulVec_sub, hinv]
  have e2 : y k i - z' i = ∑ j, A⁻¹ i j * (A *ᵥ y k - b) j := congrFun e1 i
  rw [e2]
  calc |∑ j, A⁻¹ i j * (A *ᵥ y k - b) j| ≤ ∑ j, |A⁻¹ i j * (A *ᵥ y k - b) j| := Finset.abs_sum_le_sum_abs _ _
    _ ≤ ∑ j, |A⁻¹ i j| * R j * eps := by
        refine Finset.sum_le_sum fun j _ => ?_
        rw [abs_mul, Pi.sub_apply, abs_sub_comm, mul_assoc]
        exact mul_le_mul_of_nonneg_left (hres j) (abs_nonneg _)
    _ = (∑ j, |A⁻¹ i j| * R j) * eps := by rw [Finset.sum_mul]
    _ ≤ _ := by
        refine mul_le_mul_of_nonneg_right ?_ he.le
        exact Finset.single_le_sum (f := fun i => ∑ j, |A⁻¹ i j| * R j)
          (fun i _ => Finset.sum_nonneg fun j _ => mul_nonneg (abs_nonneg _) (hR0 j)) (Finset.mem_univ i)

theorem spd_one : NS.CG.SPD (1 : Matrix (Fin n) (Fin n) T) := by
  refine ⟨Matrix.transpose_one, fun v hv => ?_⟩
  rw [Matrix.one_mulVec]
  obtain ⟨i, hi⟩ := Function.ne_iff.1 hv
  exact Finset.sum_pos' (fun j _ => mul_self_nonneg _) ⟨i, Finset.mem_univ _, mul_self_pos.2 hi⟩

/-- a symmetric positive definite system has one level -/
theorem levels_of_spd (hA : NS.CG.SPD A) : Levels A (fun _ => 0) (fun _ => 1) := by
  refine ⟨fun i j h => absurd h (lt_irrefl _), fun l => ?_⟩
  by_cases hl : l = 0
  · subst hl
    have : block A (fun _ => 0) (fun _ => (1 : T)) 0 = A := by funext i j; simp [block]
    rw [this]; exact hA
  · have : block A (fun _ => 0) (fun _ => (1 : T)) l = 1 := by
      funext i j
      simp [block, Ne.symm hl, Matrix.one_apply]
    rw [this]; exact spd_one

/-- C70 for symmetric positive definite matrices: the error bound that belongs to C69. -/
theorem C70_sor_spd [Archimedean T] (hA : NS.CG.SPD A) {w : T} (hw0 : 0 < w) (hw2 : w < 2) :
    ∃ C : T, 0 ≤ C ∧ ∀ (a : M) (b x0 : Fin n → T) (eps : T), IsMat a n A → 0 < eps →
      ∃ N, ∀ maxIter, N < maxIter → ∃ x it, sor a (fl b) (fl x0) w maxIter eps = .ok (fl x, it) ∧ it ≤ N ∧
        (2 ≤ it ∨ w = 1 ∨ x0 = 0 → ∀ z, A *ᵥ z = b → ∀ i, |x i - z i| ≤ C * eps) :=
  C70_sor_levels (levels_of_spd hA) hw0 hw2

/-- a matrix with two levels, not symmetric: the unknowns 0 and 1 are fixed, the unknowns 2 and 3 depend on them -/
def exL : Matrix (Fin 4) (Fin 4) ℚ := !![1, 0, 0, 0; 0, 1, 0, 0; 1, 0, -2, 1; 0, 1, 1, -2]
example : Levels exL ![0, 0, 1, 1] ![1, 1, -1, -1] ∧ ¬ exLᵀ = exL := by
  refine ⟨⟨by intro i j; fin_cases i <;> fin_cases j <;> simp [exL], fun l => ?_⟩, by decide +kernel⟩
  rcases (show l = 0 ∨ l = 1 ∨ 2 ≤ l by omega) with rfl | rfl | h
  · have : block exL ![0, 0, 1, 1] ![1, 1, -1, -1] 0 = 1 := by decide +kernel
    rw [this]; exact spd_one
  · have : block exL ![0, 0, 1, 1] ![1, 1, -1, -1] 1 = !![1, 0, 0, 0; 0, 1, 0, 0; 0, 0, 2, -1; 0, 0, -1, 2] := by decide +kernel
    rw [this]
    refine ⟨by decide +kernel, fun v hv => ?_⟩
    have e : v ⬝ᵥ (!![1, 0, 0, 0; 0, 1, 0, 0; 0, 0, 2, -1; 0, 0, -1, 2] : Matrix (Fin 4) (Fin 4) ℚ) *ᵥ v =
        v 0 ^ 2 + v 1 ^ 2 + (v 2 - v 3) ^ 2 + v 2 ^ 2 + v 3 ^ 2 := by
      simp [dotProduct, Matrix.mulVec, Fin.sum_univ_four]; ring
    rw [e]
    by_contra h
    have h0 : v 0 = 0 := by nlinarith [sq_nonneg (v 0), sq_nonneg (v 1), sq_nonneg (v 2 - v 3), sq_nonneg (v 2), sq_nonneg (v 3)]
    have h1 : v 1 = 0 := by nlinarith [sq_nonneg (v 0), sq_nonneg (v 1), sq_nonneg (v 2 - v 3), sq_nonneg (v 2), sq_nonneg (v 3)]
    have h2 : v 2 = 0 := by nlinarith [sq_nonneg (v 0), sq_nonneg (v 1), sq_nonneg (v 2 - v 3), sq_nonneg (v 2), sq_nonneg (v 3)]
    have h3 : v 3 = 0 := by nlinarith [sq_nonneg (v 0), sq_nonneg (v 1), sq_nonneg (v 2 - v 3), sq_nonneg (v 2), sq_nonneg (v 3)]
    apply hv
    funext i
    fin_cases i <;> simpa
  · have : block exL ![0, 0, 1, 1] ![1, 1, -1, -1] l = 1 := by
      funext i j
      have : ∀ i : Fin 4, ![0, 0, 1, 1] i ≠ l := by
        intro i
        have : (![0, 0, 1, 1] : Fin 4 → Nat) i ≤ 1 := by revert i; decide
        omega
      simp [block, this i, Matrix.one_apply]
    rw [this]; exact spd_one

end NS.Props.Iter

/-
Property C116: how many SOR sweeps are enough for `/repo/examples/heat/main.cpp`, and how accurate the result is when the solver stops by its own rule.
-/
import Verif.Props.HeatProgram

set_option linter.unusedSectionVars false
set_option linter.unusedSimpArgs false

namespace NS.HeatEnergy
variable {ι : Type} [Fintype ι] {L : ι → ι → ℝ} {φ : ι → ℝ} {β : ℝ}

/-- the quadratic form of the coupling -/
theorem form_le (hL : ∀ i j, 0 ≤ L i j) (hφ : ∀ i, 0 < φ i) (hβ : ∀ i, ∑ j, (L i j + L j i) * φ j = β * φ i) (e : ι → ℝ) :
    ∑ i, e i * (∑ j, L i j * e j + ∑ j, L j i * e j) ≤ β * ∑ i, e i ^ 2 := by
  have h1 : ∑ i, e i * (∑ j, L i j * e j + ∑ j, L j i * e j) = ∑ i, ∑ j, L i j * (2 * (e i * e j)) := by
    have a : ∑ i, e i * ∑ j, L j i * e j = ∑ i, e i * ∑ j, L i j * e j := by
      simp only [Finset.mul_sum]
      rw [Finset.sum_comm]
      exact Finset.sum_congr rfl fun i _ => Finset.sum_congr rfl fun j _ => by ring
    simp only [mul_add, Finset.sum_add_distrib]
    rw [a]
    simp only [Finset.mul_sum, ← Finset.sum_add_distrib]
    exact Finset.sum_congr rfl fun i _ => Finset.sum_congr rfl fun j _ => by ring
  have h2 : ∑ i, ∑ j, L i j * (2 * (e i * e j)) ≤ ∑ i, ∑ j, L i j * (φ j / φ i * e i ^ 2 + φ i / φ j * e j ^ 2) := by
    refine Finset.sum_le_sum fun i _ => Finset.sum_le_sum fun j _ => mul_le_mul_of_nonneg_left ?_ (hL i j)
    have := am_gm (m := 1) (y := e i) (s := e j) one_pos (hφ j) (hφ i)
    simpa using this
  have h3 : ∑ i, ∑ j, L i j * (φ j / φ i * e i ^ 2 + φ i / φ j * e j ^ 2) = β * ∑ i, e i ^ 2 := by
    have : ∑ i, ∑ j, L i j * (φ j / φ i * e i ^ 2 + φ i / φ j * e j ^ 2) = ∑ i, ∑ j, (L i j + L j i) * φ j * (e i ^ 2 / φ i) := by
      have s1 : ∑ i, ∑ j, L i j * (φ j / φ i * e i ^ 2 + φ i / φ j * e j ^ 2) = ∑ i, ∑ j, L i j * (φ j / φ i * e i ^ 2) + ∑ i, ∑ j, L i j * (φ i / φ j * e j ^ 2) := by
        simp only [← Finset.sum_add_distrib, mul_add]
      rw [s1, Finset.sum_comm (f := fun i j => L i j * (φ i / φ j * e j ^ 2)), ← Finset.sum_add_distrib]
      refine Finset.sum_congr rfl fun i _ => ?_
      rw [← Finset.sum_add_distrib]
      refine Finset.sum_congr rfl fun j _ => ?_
      have := (hφ i).ne'
      field_simp
    rw [this, Finset.mul_sum]
    refine Finset.sum_congr rfl fun i _ => ?_
    rw [← Finset.sum_mul, hβ]
    have := (hφ i).ne'
    field_simp
  linarith

/-- one implicit step with a perturbation `d1 D - Lᵀ D` -/
theorem level_error (hL : ∀ i j, 0 ≤ L i j) (hφ : ∀ i, 0 < φ i) (hβ : ∀ i, ∑ j, (L i j + L j i) * φ j = β * φ i) {s : ℝ} (hr : ∀ i, ∑ j, L i j ≤ s) (hc : ∀ i, ∑ j, L j i ≤ s)
    {d d1 σ : ℝ} (hd1 : 0 ≤ d1) (hs : 0 ≤ s) (hσ : 0 < σ) (hE : σ < d - β) {e g D : ι → ℝ}
    (he : ∀ i, d * e i - ∑ j, L i j * e j - ∑ j, L j i * e j = σ * g i + d1 * D i - ∑ j, L j i * D j) :
    ∑ i, e i ^ 2 ≤ ∑ i, g i ^ 2 + (d1 + s) ^ 2 / ((d - β) ^ 2 - σ ^ 2) * ∑ i, D i ^ 2 := by
  set S := ∑ i, e i ^ 2 with hS
  set Sg := ∑ i, g i ^ 2 with hSg
  set SD := ∑ i, D i ^ 2 with hSD
  have hf := form_le hL hφ hβ e
  have h1 : ∑ i, e i * (d * e i - ∑ j, L i j * e j - ∑ j, L j i * e j) = d * S - ∑ i, e i * (∑ j, L i j * e j + ∑ j, L j i * e j) := by
    rw [hS, Finset.mul_sum, ← Finset.sum_sub_distrib]
    exact Finset.sum_congr rfl fun i _ => by ring
  have h2 : ∑ i, e i * (d * e i - ∑ j, L i j * e j - ∑ j, L j i * e j) = σ * ∑ i, e i * g i + d1 * ∑ i, e i * D i - ∑ i, ∑ j, L j i * (e i * D j) := by
    rw [Finset.mul_sum, Finset.mul_sum, ← Finset.sum_add_distrib, ← Finset.sum_sub_distrib]
    refine Finset.sum_congr rfl fun i _ => ?_
    rw [he, mul_sub, Finset.mul_sum]
    congr 1
    · ring
    · exact Finset.sum_congr rfl fun j _ => by ring
  -- weights: `η` for the old level, `ζ` for the perturbation
  set l := d - β with hl
  have hl0 : 0 < l := hσ.trans hE
  have hq : 0 < l ^ 2 - σ ^ 2 := by nlinarith
  -- 2 e g ≤ (σ / l) e² + (l / σ) g²
  have k1 : 2 * (σ * ∑ i, e i * g i) ≤ σ ^ 2 / l * S + l * Sg := by
    have : ∀ i, 2 * (σ * (e i * g i)) ≤ σ ^ 2 / l * e i ^ 2 + l * g i ^ 2 := by
      intro i
      have e1 : σ ^ 2 / l * e i ^ 2 + l * g i ^ 2 - 2 * (σ * (e i * g i)) = (σ * e i - l * g i) ^ 2 / l := by field_simp; ring
      have : 0 ≤ (σ * e i - l * g i) ^ 2 / l := by positivity
      linarith
    have := Finset.sum_le_sum fun i (_ : i ∈ Finset.univ) => this i
    rw [Finset.sum_add_distrib, ← Finset.mul_sum, ← Finset.mul_sum, ← Finset.mul_sum, ← Finset.mul_sum] at this
    exact this
  rcases (add_nonneg hd1 hs).eq_or_lt with h0 | h0
  · have z1 : d1 = 0 := by linarith
    have z2 : s = 0 := by linarith
    have hL0 : ∀ i j, L j i = 0 := by
      intro i j
      have := Finset.single_le_sum (f := fun j => L j i) (fun j _ => hL j i) (Finset.mem_univ j)
      exact le_antisymm (by linarith [hc i]) (hL j i)
    have hz : ∑ i, ∑ j, L j i * (e i * D j) = 0 := Finset.sum_eq_zero fun i _ => Finset.sum_eq_zero fun j _ => by rw [hL0, zero_mul]
    rw [z1, hz, zero_mul, add_zero, sub_zero] at h2
    rw [← h0, zero_pow two_ne_zero, zero_div, zero_mul, add_zero]
    have h3 : l * S ≤ σ * ∑ i, e i * g i := by rw [hl]; linarith
    have h4 : (l ^ 2 * 2 - σ ^ 2) * S ≤ l ^ 2 * Sg := by
      have : 2 * (l * S) ≤ σ ^ 2 / l * S + l * Sg := by linarith
      have := mul_le_mul_of_nonneg_left this hl0.le
      rw [mul_add, show l * (σ ^ 2 / l * S) = σ ^ 2 * S by field_simp] at this
      linarith
    have hS0 : 0 ≤ S := Finset.sum_nonneg fun _ _ => sq_nonneg _
    have h5 : l ^ 2 * S ≤ l ^ 2 * Sg := by nlinarith
    exact le_of_mul_le_mul_left h5 (by positivity)
  set c := d1 + s with hc'
  -- 2 e D ≤ ν e² + D² / ν with ν = (l² - σ²) / (l c)
  have k2 : 2 * (d1 * ∑ i, e i * D i - ∑ i, ∑ j, L j i * (e i * D j)) ≤ (l ^ 2 - σ ^ 2) / l * S + l * c ^ 2 / (l ^ 2 - σ ^ 2) * SD := by
    set ν := (l ^ 2 - σ ^ 2) / (l * c) with hν
    have hν0 : 0 < ν := by positivity
    have pt : ∀ a b : ℝ, 2 * (a * b) ≤ ν * a ^ 2 + 1 / ν * b ^ 2 ∧ -(2 * (a * b)) ≤ ν * a ^ 2 + 1 / ν * b ^ 2 := by
      intro a b
      have e1 : ν * a ^ 2 + 1 / ν * b ^ 2 - 2 * (a * b) = (ν * a - b) ^ 2 / ν := by field_simp; ring
      have e2 : ν * a ^ 2 + 1 / ν * b ^ 2 + 2 * (a * b) = (ν * a + b) ^ 2 / ν := by field_simp; ring
      have p1 : 0 ≤ (ν * a - b) ^ 2 / ν := by positivity
      have p2 : 0 ≤ (ν * a + b) ^ 2 / ν := by positivity
      constructor <;> linarith
    have a1 : 2 * (d1 * ∑ i, e i * D i) ≤ d1 * (ν * S + 1 / ν * SD) := by
      have := Finset.sum_le_sum fun i (_ : i ∈ Finset.univ) => (pt (e i) (D i)).1
      rw [Finset.sum_add_distrib, ← Finset.mul_sum, ← Finset.mul_sum, ← Finset.mul_sum] at this
      calc _ = d1 * (2 * ∑ i, e i * D i) := by ring
        _ ≤ _ := mul_le_mul_of_nonneg_left this hd1
    have a2 : -(2 * ∑ i, ∑ j, L j i * (e i * D j)) ≤ s * (ν * S + 1 / ν * SD) := by
      have b1 : -(2 * ∑ i, ∑ j, L j i * (e i * D j)) ≤ ∑ i, ∑ j, L j i * (ν * e i ^ 2 + 1 / ν * D j ^ 2) := by
        rw [Finset.mul_sum, ← Finset.sum_neg_distrib]
        refine Finset.sum_le_sum fun i _ => ?_
        rw [Finset.mul_sum, ← Finset.sum_neg_distrib]
        refine Finset.sum_le_sum fun j _ => ?_
        calc -(2 * (L j i * (e i * D j))) = L j i * -(2 * (e i * D j)) := by ring
          _ ≤ _ := mul_le_mul_of_nonneg_left (pt _ _).2 (hL j i)
      have b2 : ∑ i, ∑ j, L j i * (ν * e i ^ 2 + 1 / ν * D j ^ 2) = ∑ i, (∑ j, L j i) * (ν * e i ^ 2) + ∑ j, (∑ i, L j i) * (1 / ν * D j ^ 2) := by
        simp only [mul_add, Finset.sum_add_distrib, Finset.sum_mul]
        congr 1
        exact Finset.sum_comm
      have b3 : ∑ i, (∑ j, L j i) * (ν * e i ^ 2) ≤ s * (ν * S) := by
        rw [hS, Finset.mul_sum, Finset.mul_sum]
        exact Finset.sum_le_sum fun i _ => mul_le_mul_of_nonneg_right (hc i) (by positivity)
      have b4 : ∑ j, (∑ i, L j i) * (1 / ν * D j ^ 2) ≤ s * (1 / ν * SD) := by
        rw [hSD, Finset.mul_sum, Finset.mul_sum]
        exact Finset.sum_le_sum fun i _ => mul_le_mul_of_nonneg_right (hr i) (by positivity)
      linarith
    have e1 : c * (ν * S + 1 / ν * SD) = (l ^ 2 - σ ^ 2) / l * S + l * c ^ 2 / (l ^ 2 - σ ^ 2) * SD := by
      rw [hν]; field_simp
    rw [← e1, hc']
    linarith
  have h3 : l * S ≤ σ * ∑ i, e i * g i + (d1 * ∑ i, e i * D i - ∑ i, ∑ j, L j i * (e i * D j)) := by rw [hl]; linarith
  have h4 : 2 * (l * S) ≤ l * S + l * Sg + l * c ^ 2 / (l ^ 2 - σ ^ 2) * SD := by
    have : σ ^ 2 / l * S + (l ^ 2 - σ ^ 2) / l * S = l * S := by field_simp; ring
    linarith
  have h5 : l * S ≤ l * (Sg + c ^ 2 / (l ^ 2 - σ ^ 2) * SD) := by
    rw [mul_add, show l * (c ^ 2 / (l ^ 2 - σ ^ 2) * SD) = l * c ^ 2 / (l ^ 2 - σ ^ 2) * SD by ring]
    linarith
  exact le_of_mul_le_mul_left h5 hl0

theorem lower_row {a b : ℝ} (ha : 0 ≤ a) (hb : 0 ≤ b) {m n : ℕ} (i : Fin m × Fin n) : ∑ j, lower a b i j ≤ a + b := by
  have := lower_sum (a := a) (b := b) (m := m) (n := n) (fun x y => if x = 0 ∨ y = 0 then 0 else 1) (by simp) (by simp) i
  simp at this
  rw [this]
  split_ifs <;> linarith

theorem lower_col {a b : ℝ} (ha : 0 ≤ a) (hb : 0 ≤ b) {m n : ℕ} (i : Fin m × Fin n) : ∑ j, lower a b j i ≤ a + b := by
  have := upper_sum (a := a) (b := b) (m := m) (n := n) (fun x y => if x = m + 1 ∨ y = n + 1 then 0 else 1) (by simp) (by simp) i
  have e : ∀ j : Fin m × Fin n, (if (j.1 : ℕ) + 1 = m + 1 ∨ (j.2 : ℕ) + 1 = n + 1 then (0 : ℝ) else 1) = 1 := by
    intro j
    have := j.1.2; have := j.2.2
    rw [if_neg (by omega)]
  simp only [e, mul_one] at this
  rw [this]
  split_ifs <;> linarith
end NS.HeatEnergy

namespace NS.Props.Heat
open NS NS.Heat NS.Grid NS.MatOps NS.LawfulMat NS.Props.Iter NS.Iterative Matrix Real NS.HeatEnergy
open NS.Props.LU (IsMat IsVec isVec_iff)
variable {p : Problem ℝ}

/-- a sum over all grid points in space and time -/
theorem all_sum (F : Fin p.d → ℝ) (G : ℕ → ℕ → ℕ → ℝ) (h : ∀ t x y (ht : t < p.tc) (hx : x < p.xc) (hy : y < p.yc), G t x y = F ⟨p.lin t x y, lin_lt ht hx hy⟩) :
    ∑ i, F i = ∑ t ∈ Finset.range p.tc, ∑ x ∈ Finset.range p.xc, ∑ y ∈ Finset.range p.yc, G t x y := by
  have e : ∑ t ∈ Finset.range p.tc, ∑ x ∈ Finset.range p.xc, ∑ y ∈ Finset.range p.yc, G t x y =
      ∑ q ∈ Finset.range p.tc ×ˢ (Finset.range p.xc ×ˢ Finset.range p.yc), G q.1 q.2.1 q.2.2 := by
    rw [Finset.sum_product]
    refine Finset.sum_congr rfl fun t _ => ?_
    rw [Finset.sum_product]
  rw [e]
  refine Finset.sum_bij (fun i _ => (tOf p i, xOf p i, yOf p i)) ?_ ?_ ?_ ?_
  · intro i _
    simp only [Finset.mem_product, Finset.mem_range]
    exact ⟨tOf_lt i.2, xOf_lt i.2, yOf_lt i.2⟩
  · intro i _ j _ hij
    simp only [Prod.mk.injEq] at hij
    apply Fin.ext
    rw [← lin_of (p := p) i, ← lin_of (p := p) j, hij.1, hij.2.1, hij.2.2]
  · rintro ⟨t, x, y⟩ hq
    simp only [Finset.mem_product, Finset.mem_range] at hq
    obtain ⟨ht, hx, hy⟩ := hq
    exact ⟨⟨p.lin t x y, lin_lt ht hx hy⟩, Finset.mem_univ _, by simp only [lin_t hx hy, lin_x hx, lin_y hx hy]⟩
  · intro i _
    simp only
    rw [h _ _ _ (tOf_lt i.2) (xOf_lt i.2) (yOf_lt i.2)]
    congr 1
    exact Fin.ext (lin_of (p := p) i).symm

/-- squared distance of two vectors, time level by time level -/
theorem dist_levels (u v : Fin p.d → ℝ) : distSqr u v = ∑ t ∈ Finset.range p.tc, ∑ x ∈ Finset.range p.xc, ∑ y ∈ Finset.range p.yc, (val3 p u t x y - val3 p v t x y) ^ 2 := by
  unfold distSqr
  refine all_sum _ _ fun t x y ht hx hy => ?_
  rw [val3_lin _ ht hx hy, val3_lin _ ht hx hy]

/-- the result of the solver is unique -/
theorem solve_unique {M : Type} [MatOps M ℝ] [LawfulMat M ℝ] {w eps : ℝ} {maxIter : ℕ} {u u' : Fin p.d → ℝ} {it it' : ℕ}
    (h : solve (M := M) p w maxIter eps = .ok (fl u, it)) (h' : solve (M := M) p w maxIter eps = .ok (fl u', it')) : u = u' ∧ it = it' := by
  rw [h] at h'
  have := Except.ok.inj h'
  refine ⟨?_, congrArg Prod.snd this⟩
  have h1 : fl u = fl u' := congrArg Prod.fst this
  unfold fl at h1
  have h2 := List.ofFn_injective h1
  funext i
  exact Fl.fin.inj (congrFun h2 i)

section plain
variable {m n : ℕ} {κ : ℝ}

/-- change of a value in sweep `k` -/
noncomputable def chg (p : Problem ℝ) (y : ℕ → Fin p.d → ℝ) (k t x v : ℕ) : ℝ := val3 p (y k) t x v - val3 p (y (k - 1)) t x v

/-- the changes obey the equations of the sweeps -/
theorem Plain.chg_level (h : Plain p m n κ) {w : ℝ} (hw : w ≠ 0) {y : Nat → Fin p.d → ℝ} (h0 : y 0 = 0)
    (hsw : ∀ j, IsSorSweep (mat p) (fun i : Fin p.d => Heat.rhs p i) w (y j) (y j) (y (j + 1))) {t : Nat} (ht0 : t ≠ 0) (ht : t < p.tc) (q : ℝ) (k : ℕ) (i : Fin m × Fin n) :
    diag3 p κ / w * (q ^ (k + 1) * chg p y (k + 1) t (i.1 + 1) (i.2 + 1)) + diag3 p κ * (1 - 1 / w) * q * (q ^ k * chg p y k t (i.1 + 1) (i.2 + 1)) -
      ∑ j, lower (κ / p.hx ^ 2) (κ / p.hy ^ 2) i j * (q ^ (k + 1) * chg p y (k + 1) t (j.1 + 1) (j.2 + 1)) -
      q * ∑ j, lower (κ / p.hx ^ 2) (κ / p.hy ^ 2) j i * (q ^ k * chg p y k t (j.1 + 1) (j.2 + 1)) =
      1 / p.ht * (q ^ (k + 1) * chg p y (k + 1) (t - 1) (i.1 + 1) (i.2 + 1)) := by
  have hl := h.level hw h0 hsw ht0 ht q k i
  rcases Nat.eq_zero_or_pos k with rfl | hk
  · have hz : ∀ t, t < p.tc → ∀ j : Fin m × Fin n, val3 p (y 0) t (j.1 + 1) (j.2 + 1) = 0 := by
      intro t ht j
      obtain ⟨hx, hv⟩ := inner_lt h j
      rw [h0, val3_lin _ ht hx hv]; rfl
    unfold chg
    simp only [hz t ht, hz (t - 1) (by omega), Nat.add_sub_cancel, sub_zero, Nat.zero_sub] at hl ⊢
    exact hl
  · obtain ⟨k', rfl⟩ : ∃ k', k = k' + 1 := ⟨k - 1, by omega⟩
    have hl' := h.level hw h0 hsw ht0 ht q k' i
    unfold chg
    simp only [Nat.add_sub_cancel, mul_sub, Finset.sum_sub_distrib]
    have s : ∀ (c : ℝ) (f : Fin m × Fin n → ℝ), ∑ j, lower (κ / p.hx ^ 2) (κ / p.hy ^ 2) i j * (q ^ (k' + 1 + 1) * f j) = q * ∑ j, lower (κ / p.hx ^ 2) (κ / p.hy ^ 2) i j * (q ^ (k' + 1) * f j) := by
      intro _ f
      rw [Finset.mul_sum]
      exact Finset.sum_congr rfl fun j _ => by ring
    have s' : ∀ f : Fin m × Fin n → ℝ, ∑ j, lower (κ / p.hx ^ 2) (κ / p.hy ^ 2) j i * (q ^ (k' + 1) * f j) = q * ∑ j, lower (κ / p.hx ^ 2) (κ / p.hy ^ 2) j i * (q ^ k' * f j) := by
      intro f
      rw [Finset.mul_sum]
      exact Finset.sum_congr rfl fun j _ => by ring
    rw [s 0 fun j => val3 p (y (k' + 1)) t (j.1 + 1) (j.2 + 1), s' fun j => val3 p (y k') t (j.1 + 1) (j.2 + 1)]
    linear_combination hl - q * hl'

/-- the energy of the changes on one time level is a fixed share of that on the level before -/
theorem Plain.chg_step (h : Plain p m n κ) {w : ℝ} (hw : w ≠ 0) {y : Nat → Fin p.d → ℝ} (h0 : y 0 = 0)
    (hsw : ∀ j, IsSorSweep (mat p) (fun i : Fin p.d => Heat.rhs p i) w (y j) (y j) (y (j + 1))) {q : ℝ} (hq : 0 < q)
    (hb : 2 * (1 + q) * (diag3 p κ * (1 - 1 / w)) ≤ pull p m n κ) (hG : 1 ≤ damp p m n κ w q * p.ht) (K : ℕ) {t : Nat} (ht : t < p.tc) :
    energy (fun k (i : Fin m × Fin n) => q ^ k * chg p y k t (i.1 + 1) (i.2 + 1)) K ≤
      energy (fun k (i : Fin m × Fin n) => q ^ k * chg p y k 0 (i.1 + 1) (i.2 + 1)) K := by
  induction t with
  | zero => exact le_rfl
  | succ t ih =>
    have hht := h.ht
    have hx2 : 0 ≤ κ / p.hx ^ 2 := by have := h.pos; positivity
    have hy2 : 0 ≤ κ / p.hy ^ 2 := by have := h.pos; positivity
    have hG' : 1 / p.ht ≤ damp p m n κ w q := by rw [div_le_iff₀ hht]; exact hG
    have hG0 : 0 < damp p m n κ w q := lt_of_lt_of_le (by positivity) hG'
    have := level_energy (ι := Fin m × Fin n) (L := lower (κ / p.hx ^ 2) (κ / p.hy ^ 2)) (φ := mode2 m n) (β := pull p m n κ) (lower_nonneg hx2 hy2) mode2_pos
      (mode2_eigen _ _) hq hb (y := fun k i => q ^ k * chg p y k (t + 1) (i.1 + 1) (i.2 + 1)) (γ := fun k i => q ^ k * chg p y k t (i.1 + 1) (i.2 + 1))
      (σ := 1 / p.ht) (fun i => by simp [chg]) (K := K)
      (fun k _ i => h.chg_level hw h0 hsw (Nat.succ_ne_zero t) ht q k i) hG0
    change damp p m n κ w q ^ 2 * _ ≤ _ at this
    refine le_trans ?_ (ih (by omega))
    set E1 := energy (fun k (i : Fin m × Fin n) => q ^ k * chg p y k (t + 1) (i.1 + 1) (i.2 + 1)) K
    set E := energy (fun k (i : Fin m × Fin n) => q ^ k * chg p y k t (i.1 + 1) (i.2 + 1)) K
    have hE1 : 0 ≤ E1 := Finset.sum_nonneg fun _ _ => Finset.sum_nonneg fun _ _ => sq_nonneg _
    have h1 : (1 / p.ht) ^ 2 * E1 ≤ (1 / p.ht) ^ 2 * E := by
      refine le_trans (mul_le_mul_of_nonneg_right ?_ hE1) this
      exact pow_le_pow_left₀ (by positivity) hG' 2
    exact le_of_mul_le_mul_left h1 (by positivity)

theorem Plain.chg_rim (h : Plain p m n κ) {w : ℝ} {y : Nat → Fin p.d → ℝ} (h0 : y 0 = 0)
    (hsw : ∀ j, IsSorSweep (mat p) (fun i : Fin p.d => Heat.rhs p i) w (y j) (y j) (y (j + 1))) {t x v : Nat} (ht : t < p.tc) (hx : x < p.xc) (hv : v < p.yc)
    (hr : OnRim p t x v) (k : ℕ) : chg p y (k + 1) t x v = w * (1 - w) ^ k * Heat.rhs p (p.lin t x v) := by
  unfold chg
  rw [Nat.add_sub_cancel, h.rim h0 hsw ht hx hv hr, h.rim h0 hsw ht hx hv hr]
  ring

theorem chg_start (h : Plain p m n κ) {w : ℝ} {y : Nat → Fin p.d → ℝ} (h0 : y 0 = 0)
    (hsw : ∀ j, IsSorSweep (mat p) (fun i : Fin p.d => Heat.rhs p i) w (y j) (y j) (y (j + 1))) {q : ℝ} (hq1 : (q * (1 - w)) ^ 2 < 1) (K : ℕ) :
    energy (fun k (i : Fin m × Fin n) => q ^ k * chg p y k 0 (i.1 + 1) (i.2 + 1)) K ≤ w ^ 2 * q ^ 2 / (1 - (q * (1 - w)) ^ 2) * start2 p := by
  set S := ∑ i : Fin m × Fin n, p.t0 ((i.1 + 1 : ℕ) * p.hx) ((i.2 + 1 : ℕ) * p.hy) ^ 2 with hS
  have hS0 : 0 ≤ S := Finset.sum_nonneg fun _ _ => sq_nonneg _
  set r := (q * (1 - w)) ^ 2 with hr
  have hr0 : 0 ≤ r := sq_nonneg _
  have h1 : energy (fun k (i : Fin m × Fin n) => q ^ k * chg p y k 0 (i.1 + 1) (i.2 + 1)) K = (∑ k ∈ Finset.range K, r ^ k) * (w ^ 2 * q ^ 2 * S) := by
    unfold energy
    rw [Finset.sum_mul]
    refine Finset.sum_congr rfl fun k _ => ?_
    rw [hS, Finset.mul_sum, Finset.mul_sum]
    refine Finset.sum_congr rfl fun i _ => ?_
    obtain ⟨hx, hv⟩ := inner_lt h i
    beta_reduce
    rw [h.chg_rim h0 hsw h.tc hx hv (.inl rfl), rhs_start h, hr]
    generalize 1 - w = s
    ring
  have h2 : ∑ k ∈ Finset.range K, r ^ k ≤ 1 / (1 - r) := by
    have h := geom_sum_mul_neg r K
    rw [le_div_iff₀ (by linarith), h]
    linarith [pow_nonneg hr0 K]
  have h3 := start_inner h
  rw [h1]
  have h4 : 0 < 1 - r := by linarith
  calc (∑ k ∈ Finset.range K, r ^ k) * (w ^ 2 * q ^ 2 * S) ≤ 1 / (1 - r) * (w ^ 2 * q ^ 2 * start2 p) :=
        mul_le_mul h2 (mul_le_mul_of_nonneg_left h3 (by positivity)) (by positivity) (by positivity)
    _ = _ := by ring

/-- the changes of one sweep on one time level -/
theorem chg_bound (h : Plain p m n κ) {w : ℝ} (hw : w ≠ 0) {y : Nat → Fin p.d → ℝ} (h0 : y 0 = 0)
    (hsw : ∀ j, IsSorSweep (mat p) (fun i : Fin p.d => Heat.rhs p i) w (y j) (y j) (y (j + 1))) {q : ℝ} (hq : 0 < q) (hq1 : (q * (1 - w)) ^ 2 < 1)
    (hb : 2 * (1 + q) * (diag3 p κ * (1 - 1 / w)) ≤ pull p m n κ) (hG : 1 ≤ damp p m n κ w q * p.ht) {k : ℕ} (hk : 0 < k) {t : ℕ} (ht : t < p.tc) :
    q ^ (2 * k) * ∑ x ∈ Finset.range p.xc, ∑ v ∈ Finset.range p.yc, chg p y k t x v ^ 2 ≤ w ^ 2 * q ^ 2 / (1 - (q * (1 - w)) ^ 2) * start2 p := by
  have hS0 : 0 ≤ start2 p := Finset.sum_nonneg fun _ _ => Finset.sum_nonneg fun _ _ => sq_nonneg _
  obtain ⟨k', rfl⟩ : ∃ k', k = k' + 1 := ⟨k - 1, by omega⟩
  rcases Nat.eq_zero_or_pos t with rfl | ht0
  · have e : ∑ x ∈ Finset.range p.xc, ∑ v ∈ Finset.range p.yc, chg p y (k' + 1) 0 x v ^ 2 = (w * (1 - w) ^ k') ^ 2 * start2 p := by
      unfold start2
      rw [Finset.mul_sum]
      refine Finset.sum_congr rfl fun x hx => ?_
      rw [Finset.mul_sum]
      refine Finset.sum_congr rfl fun v hv => ?_
      have hx := Finset.mem_range.1 hx
      have hv := Finset.mem_range.1 hv
      rw [h.chg_rim h0 hsw ht hx hv (.inl rfl), rhs_lin hx hv]
      unfold rhs3
      rw [if_pos (.inl rfl), if_neg (by simp)]
      ring
    rw [e]
    have e2 : q ^ (2 * (k' + 1)) * ((w * (1 - w) ^ k') ^ 2 * start2 p) = ((q * (1 - w)) ^ 2) ^ k' * (w ^ 2 * q ^ 2 * start2 p) := by
      generalize 1 - w = s
      ring
    rw [e2]
    set r := (q * (1 - w)) ^ 2
    have hr0 : 0 ≤ r := sq_nonneg _
    have h4 : 0 < 1 - r := by linarith
    have h5 : r ^ k' ≤ 1 / (1 - r) := by
      refine (pow_le_one₀ hr0 hq1.le).trans ?_
      rw [le_div_iff₀ h4]; linarith
    calc r ^ k' * (w ^ 2 * q ^ 2 * start2 p) ≤ 1 / (1 - r) * (w ^ 2 * q ^ 2 * start2 p) := mul_le_mul_of_nonneg_right h5 (by positivity)
      _ = _ := by ring
  · have hz : ∀ x v, x ≤ m + 1 → v ≤ n + 1 → (x = 0 ∨ v = 0 ∨ x = m + 1 ∨ v = n + 1) → chg p y (k' + 1) t x v = 0 := by
      intro x v hx hv hr
      rw [h.chg_rim h0 hsw ht (by rw [h.xc]; omega) (by rw [h.yc]; omega) ((onRim_iff h (by omega) hx hv).2 hr), h.rhs (by omega) (by rw [h.xc]; omega) (by rw [h.yc]; omega), mul_zero]
    have e : ∑ x ∈ Finset.range p.xc, ∑ v ∈ Finset.range p.yc, chg p y (k' + 1) t x v ^ 2 = ∑ i : Fin m × Fin n, chg p y (k' + 1) t (i.1 + 1) (i.2 + 1) ^ 2 := by
      rw [h.xc, h.yc]
      refine grid_sum (fun x v => chg p y (k' + 1) t x v ^ 2) ?_ ?_ ?_ ?_ <;>
        · intro c hc
          beta_reduce
          rw [hz _ _ (by omega) (by omega) (by simp), zero_pow two_ne_zero]
    rw [e]
    refine le_trans ?_ ((h.chg_step hw h0 hsw hq hb hG (k' + 1) ht).trans (chg_start h h0 hsw hq1 (k' + 1)))
    unfold energy
    have := Finset.single_le_sum (f := fun j => ∑ i : Fin m × Fin n, (q ^ (j + 1) * chg p y (j + 1) t (i.1 + 1) (i.2 + 1)) ^ 2)
      (fun j _ => Finset.sum_nonneg fun i _ => sq_nonneg _) (Finset.self_mem_range_succ k')
    refine le_trans (le_of_eq ?_) this
    rw [Finset.mul_sum]
    exact Finset.sum_congr rfl fun i _ => by ring

/-- the equations of the scheme at the inner points of one time level -/
theorem scheme_eq (h : Plain p m n κ) {z : Fin p.d → ℝ} (hz : Solves p z) {t : ℕ} (ht : t + 1 < p.tc) (i : Fin m × Fin n) :
    diag3 p κ * val3 p z (t + 1) (i.1 + 1) (i.2 + 1) - ∑ j, lower (κ / p.hx ^ 2) (κ / p.hy ^ 2) i j * val3 p z (t + 1) (j.1 + 1) (j.2 + 1) -
      ∑ j, lower (κ / p.hx ^ 2) (κ / p.hy ^ 2) j i * val3 p z (t + 1) (j.1 + 1) (j.2 + 1) = 1 / p.ht * val3 p z t (i.1 + 1) (i.2 + 1) := by
  have hr := fun {x v} hx hv hr => solves_rim h hz (Nat.succ_ne_zero t) ht (x := x) (v := v) hx hv hr
  have s1 := lower_sum (a := κ / p.hx ^ 2) (b := κ / p.hy ^ 2) (m := m) (n := n) (fun x v => val3 p z (t + 1) x v)
    (fun v hv => hr (by omega) (by omega) (.inl rfl)) (fun x hx => hr (by omega) (by omega) (.inr (.inl rfl))) i
  have s2 := upper_sum (a := κ / p.hx ^ 2) (b := κ / p.hy ^ 2) (m := m) (n := n) (fun x v => val3 p z (t + 1) x v)
    (fun v hv => hr (by omega) (by omega) (.inr (.inr (.inl rfl)))) (fun x hx => hr (by omega) (by omega) (.inr (.inr (.inr rfl)))) i
  rw [s1, s2]
  obtain ⟨hx, hv⟩ := inner_lt h i
  have hin : ¬ OnRim p (t + 1) (i.1 + 1) (i.2 + 1) := by
    have := i.1.2; have := i.2.2
    rw [onRim_iff h (by omega) (by omega) (by omega)]
    omega
  have := (hz (t + 1) _ _ ht hx hv).2.2 hin
  rw [h.k, h.f] at this
  simp only [Nat.add_sub_cancel] at this
  have hx0 := h.hx; have hy0 := h.hy
  unfold diag3
  linear_combination this

/-- the sum of the squares of the differences on time level `t` -/
noncomputable def gap2 (p : Problem ℝ) (u z : Fin p.d → ℝ) (t : ℕ) : ℝ := ∑ x ∈ Finset.range p.xc, ∑ y ∈ Finset.range p.yc, (val3 p u t x y - val3 p z t x y) ^ 2

/-- errors from the changes of the last sweep -/
theorem heat_error_le (h : Plain p m n κ) {w : ℝ} (hw1 : 1 ≤ w) {y : Nat → Fin p.d → ℝ} (h0 : y 0 = 0)
    (hsw : ∀ j, IsSorSweep (mat p) (fun i : Fin p.d => Heat.rhs p i) w (y j) (y j) (y (j + 1))) {z : Fin p.d → ℝ} (hz : Solves p z)
    (hE : 1 / p.ht < diag3 p κ - pull p m n κ) {M2 : ℝ} (hM1 : ((1 - w) / w) ^ 2 ≤ M2)
    (hM2 : (diag3 p κ * (1 - 1 / w) + (κ / p.hx ^ 2 + κ / p.hy ^ 2)) ^ 2 / ((diag3 p κ - pull p m n κ) ^ 2 - (1 / p.ht) ^ 2) ≤ M2) {k : ℕ} (hk : 0 < k) {t : ℕ} (ht : t < p.tc) :
    gap2 p (y k) z t ≤ M2 * ∑ s ∈ Finset.range (t + 1), gap2 p (y k) (y (k - 1)) s := by
  have hw : w ≠ 0 := by linarith
  obtain ⟨k', rfl⟩ : ∃ k', k = k' + 1 := ⟨k - 1, by omega⟩
  induction t with
  | zero =>
    rw [Finset.sum_range_succ, Finset.range_zero, Finset.sum_empty, zero_add]
    unfold gap2
    rw [Finset.mul_sum]
    refine Finset.sum_le_sum fun x hx => ?_
    rw [Finset.mul_sum]
    refine Finset.sum_le_sum fun v hv => ?_
    have hx := Finset.mem_range.1 hx
    have hv := Finset.mem_range.1 hv
    have e1 := h.chg_rim h0 hsw ht hx hv (.inl rfl) k'
    unfold chg at e1
    rw [e1, h.rim h0 hsw ht hx hv (.inl rfl), (hz 0 x v ht hx hv).1 rfl]
    have e2 : Heat.rhs p (p.lin 0 x v) = p.t0 (x * p.hx) (v * p.hy) := by
      rw [rhs_lin hx hv]
      unfold rhs3
      rw [if_pos (.inl rfl), if_neg (by simp)]
    rw [e2]
    have e3 : ((1 - (1 - w) ^ (k' + 1)) * p.t0 (x * p.hx) (v * p.hy) - p.t0 (x * p.hx) (v * p.hy)) ^ 2 =
        ((1 - w) / w) ^ 2 * (w * (1 - w) ^ k' * p.t0 (x * p.hx) (v * p.hy)) ^ 2 := by
      generalize 1 - w = s
      field_simp
      ring
    rw [e3]
    exact mul_le_mul_of_nonneg_right hM1 (sq_nonneg _)
  | succ t ih =>
    have ih := ih (by omega)
    rw [Finset.sum_range_succ, mul_add]
    have hzr : ∀ k x v, x ≤ m + 1 → v ≤ n + 1 → (x = 0 ∨ v = 0 ∨ x = m + 1 ∨ v = n + 1) → val3 p (y k) (t + 1) x v = 0 := by
      intro k x v hx hv hr
      rw [h.rim h0 hsw ht (by rw [h.xc]; omega) (by rw [h.yc]; omega) ((onRim_iff h (by omega) hx hv).2 hr), h.rhs (by omega) (by rw [h.xc]; omega) (by rw [h.yc]; omega), mul_zero]
    have hzs : ∀ x v, x ≤ m + 1 → v ≤ n + 1 → (x = 0 ∨ v = 0 ∨ x = m + 1 ∨ v = n + 1) → val3 p z (t + 1) x v = 0 :=
      fun x v hx hv hr => solves_rim h hz (Nat.succ_ne_zero t) ht hx hv hr
    have g1 : gap2 p (y (k' + 1)) z (t + 1) = ∑ i : Fin m × Fin n, (val3 p (y (k' + 1)) (t + 1) (i.1 + 1) (i.2 + 1) - val3 p z (t + 1) (i.1 + 1) (i.2 + 1)) ^ 2 := by
      unfold gap2
      rw [h.xc, h.yc]
      refine grid_sum (fun x v => (val3 p (y (k' + 1)) (t + 1) x v - val3 p z (t + 1) x v) ^ 2) ?_ ?_ ?_ ?_ <;>
        · intro c hc
          beta_reduce
          rw [hzr _ _ _ (by omega) (by omega) (by simp), hzs _ _ (by omega) (by omega) (by simp), sub_zero, zero_pow two_ne_zero]
    have g2 : ∑ i : Fin m × Fin n, (val3 p (y (k' + 1)) (t + 1) (i.1 + 1) (i.2 + 1) - val3 p (y k') (t + 1) (i.1 + 1) (i.2 + 1)) ^ 2 = gap2 p (y (k' + 1)) (y (k' + 1 - 1)) (t + 1) := by
      unfold gap2
      rw [h.xc, h.yc, Nat.add_sub_cancel]
      symm
      refine grid_sum (fun x v => (val3 p (y (k' + 1)) (t + 1) x v - val3 p (y k') (t + 1) x v) ^ 2) ?_ ?_ ?_ ?_ <;>
        · intro c hc
          beta_reduce
          rw [hzr _ _ _ (by omega) (by omega) (by simp), hzr _ _ _ (by omega) (by omega) (by simp), sub_zero, zero_pow two_ne_zero]
    have g3 : ∑ i : Fin m × Fin n, (val3 p (y (k' + 1)) t (i.1 + 1) (i.2 + 1) - val3 p z t (i.1 + 1) (i.2 + 1)) ^ 2 ≤ gap2 p (y (k' + 1)) z t := by
      unfold gap2
      rw [h.xc, h.yc, Fintype.sum_prod_type, Finset.sum_range_succ, Finset.sum_range_succ', Finset.sum_range]
      have : ∀ x : Fin m, ∑ v : Fin n, (val3 p (y (k' + 1)) t (x + 1) (v + 1) - val3 p z t (x + 1) (v + 1)) ^ 2 ≤
          ∑ v ∈ Finset.range (n + 2), (val3 p (y (k' + 1)) t (x + 1) v - val3 p z t (x + 1) v) ^ 2 := by
        intro x
        rw [Finset.sum_range_succ, Finset.sum_range_succ', Finset.sum_range]
        linarith [sq_nonneg (val3 p (y (k' + 1)) t (x + 1) 0 - val3 p z t (x + 1) 0), sq_nonneg (val3 p (y (k' + 1)) t (x + 1) (n + 1) - val3 p z t (x + 1) (n + 1))]
      have h1 := Finset.sum_le_sum fun x (_ : x ∈ Finset.univ) => this x
      have h2 : 0 ≤ ∑ v ∈ Finset.range (n + 2), (val3 p (y (k' + 1)) t 0 v - val3 p z t 0 v) ^ 2 := Finset.sum_nonneg fun _ _ => sq_nonneg _
      have h3 : 0 ≤ ∑ v ∈ Finset.range (n + 2), (val3 p (y (k' + 1)) t (m + 1) v - val3 p z t (m + 1) v) ^ 2 := Finset.sum_nonneg fun _ _ => sq_nonneg _
      linarith
    have hht := h.ht
    have hx2 : 0 ≤ κ / p.hx ^ 2 := by have := h.pos; positivity
    have hy2 : 0 ≤ κ / p.hy ^ 2 := by have := h.pos; positivity
    have hd1 : 0 ≤ diag3 p κ * (1 - 1 / w) := by
      refine mul_nonneg h.diag_pos.le ?_
      rw [sub_nonneg, div_le_one (by linarith)]
      exact hw1
    have key := level_error (ι := Fin m × Fin n) (L := lower (κ / p.hx ^ 2) (κ / p.hy ^ 2)) (φ := mode2 m n) (β := pull p m n κ) (lower_nonneg hx2 hy2) mode2_pos
      (mode2_eigen _ _) (lower_row hx2 hy2) (lower_col hx2 hy2) hd1 (add_nonneg hx2 hy2) (σ := 1 / p.ht) (by positivity) hE
      (e := fun i => val3 p (y (k' + 1)) (t + 1) (i.1 + 1) (i.2 + 1) - val3 p z (t + 1) (i.1 + 1) (i.2 + 1))
      (g := fun i => val3 p (y (k' + 1)) t (i.1 + 1) (i.2 + 1) - val3 p z t (i.1 + 1) (i.2 + 1))
      (D := fun i => val3 p (y (k' + 1)) (t + 1) (i.1 + 1) (i.2 + 1) - val3 p (y k') (t + 1) (i.1 + 1) (i.2 + 1)) (fun i => by
        have a := h.level hw h0 hsw (show t + 1 ≠ 0 by omega) ht 1 k' i
        have b := scheme_eq h hz ht i
        simp only [one_pow, one_mul, mul_one, Nat.add_sub_cancel] at a
        simp only [mul_sub, Finset.sum_sub_distrib]
        have e : diag3 p κ / w = diag3 p κ - diag3 p κ * (1 - 1 / w) := by ring
        rw [e] at a
        linear_combination a - b)
    rw [← g1, g2] at key
    have hg0 : 0 ≤ gap2 p (y (k' + 1)) (y (k' + 1 - 1)) (t + 1) := Finset.sum_nonneg fun _ _ => Finset.sum_nonneg fun _ _ => sq_nonneg _
    have := mul_le_mul_of_nonneg_right hM2 hg0
    linarith

/-- C116: for the heat program with constant conductivity `κ`, without sources and with boundary value 0, weight 1 to 2:
if the solver stops by its own rule, the error on every time level is at most `sqrt M2` times the tolerance; and it does so
after at most `K` sweeps as soon as `q ^ (2 K)` exceeds an explicit quantity. -/
theorem C116_heat {M : Type} [MatOps M ℝ] [LawfulMat M ℝ] (h : Plain p m n κ) {w : ℝ} (hw1 : 1 ≤ w) (hE : 1 / p.ht < diag3 p κ - pull p m n κ) {M2 : ℝ} (hM1 : ((1 - w) / w) ^ 2 ≤ M2)
    (hM2 : (diag3 p κ * (1 - 1 / w) + (κ / p.hx ^ 2 + κ / p.hy ^ 2)) ^ 2 / ((diag3 p κ - pull p m n κ) ^ 2 - (1 / p.ht) ^ 2) ≤ M2)
    {z : Fin p.d → ℝ} (hz : Solves p z) (maxIter : ℕ) (eps : ℝ) :
    ∃ u it, solve (M := M) p w maxIter eps = .ok (fl u, it) ∧ it ≤ maxIter ∧
      (it < maxIter → ∀ t, t < p.tc → gap2 p u z t ≤ M2 * eps ^ 2) ∧
      ∀ q K, 0 < q → (q * (1 - w)) ^ 2 < 1 → 2 * (1 + q) * (diag3 p κ * (1 - 1 / w)) ≤ pull p m n κ → 1 ≤ damp p m n κ w q * p.ht → 0 < K →
        p.tc * (w ^ 2 * q ^ 2 / (1 - (q * (1 - w)) ^ 2) * start2 p) ≤ q ^ (2 * K) * eps ^ 2 → it ≤ K := by
  have hw : w ≠ 0 := by linarith
  obtain ⟨⟨a, b'⟩, e, h1, h2⟩ := system_upto (M := M) (p := p) h.tc (by rw [h.xc]; omega) (by rw [h.yc]; omega)
  have hd : ∀ i, mat p i i ≠ 0 := by
    intro i
    by_cases hi : rimIx p i
    · rw [mat_rim hi, if_pos rfl]; exact one_ne_zero
    · rw [mat_inner hi, if_pos rfl]
      have : kIx p i = κ := h.k _ _ _
      rw [this]
      exact h.diag_pos.ne'
  obtain ⟨y, k, k0, k1, k2, k3, k4, k5, k6, k7⟩ := C38_sor (b := fun i : Fin p.d => Heat.rhs p i) (x0 := 0) h1 hd w maxIter eps
  have hsw : ∀ j, IsSorSweep (mat p) (fun i : Fin p.d => Heat.rhs p i) w (y j) (y j) (y (j + 1)) := by
    intro j
    rcases Nat.eq_zero_or_pos j with rfl | hj
    · rw [k0]; exact k1
    · exact k2 j hj
  refine ⟨y k, k, ?_, k4, fun hlt t ht => ?_, fun q K hq hq1 hb hG hK hnum => ?_⟩
  · unfold solve
    have e3 : (Vec.resize [] p.d : List ℝ).map Fl.fin = fl (0 : Fin p.d → ℝ) := by
      unfold fl Vec.resize
      apply List.ext_getElem (by simp)
      intro i _ _
      simp
    rw [e, ok_bind, fl_of_isVec h2]
    show sor a _ ((Vec.resize [] p.d : List ℝ).map Fl.fin) w maxIter eps = _
    rw [e3]
    exact k3
  · have hM0 : 0 ≤ M2 := le_trans (sq_nonneg _) hM1
    refine (heat_error_le h hw1 k0 hsw hz hE hM1 hM2 (k5 (by omega)) ht).trans (mul_le_mul_of_nonneg_left (le_trans ?_ (k6 hlt)) hM0)
    rw [dist_levels]
    exact Finset.sum_le_sum_of_subset_of_nonneg (Finset.range_mono (by omega)) fun _ _ _ => Finset.sum_nonneg fun _ _ => Finset.sum_nonneg fun _ _ => sq_nonneg _
  · by_contra hlt
    have := k7 K hK (by omega)
    have hqp : 0 < q ^ (2 * K) := by positivity
    have h3 : q ^ (2 * K) * distSqr (y K) (y (K - 1)) ≤ p.tc * (w ^ 2 * q ^ 2 / (1 - (q * (1 - w)) ^ 2) * start2 p) := by
      rw [dist_levels, Finset.mul_sum]
      calc _ ≤ ∑ t ∈ Finset.range p.tc, w ^ 2 * q ^ 2 / (1 - (q * (1 - w)) ^ 2) * start2 p :=
            Finset.sum_le_sum fun t ht => chg_bound h hw k0 hsw hq hq1 hb hG hK (Finset.mem_range.1 ht)
        _ = _ := by rw [Finset.sum_const, Finset.card_range, nsmul_eq_mul]
    have h4 := mul_lt_mul_of_pos_left this hqp
    linarith
end plain

/-! ### The program -/

theorem cos_upper : cos (π / 100) ≤ 1 - 4.934 / 10 ^ 4 := by
  have p1 := pi_gt_d6
  have p2 := pi_lt_d6
  have hx : |π / 100| ≤ 1 := by rw [abs_of_pos (by positivity)]; linarith
  have h := (abs_le.1 (cos_bound hx)).2
  rw [abs_of_pos (by positivity : (0 : ℝ) < π / 100)] at h
  have e : (π / 100) ^ 2 = π ^ 2 / 10000 := by ring
  have l1 : 9.8696 ≤ π ^ 2 := by nlinarith
  have l2 : (π / 100) ^ 4 ≤ (0.0315) ^ 4 := pow_le_pow_left₀ (by positivity) (by linarith) 4
  rw [e] at h
  norm_num at h l2 ⊢
  linarith

theorem start_upper : start2 shippedHeat ≤ (32.5 / 9) ^ 2 * 2500 := by
  rw [start_sum, ← mode_sq_sum, Finset.mul_sum]
  refine Finset.sum_le_sum fun i _ => ?_
  obtain ⟨h0, h1, -⟩ := start_inner_near i
  rw [← mul_pow]
  exact pow_le_pow_left₀ h0 h1 2

theorem pow_enough : (4.96 * 10 ^ 14 : ℝ) ≤ 1.00148 ^ (2 * 11500) := by
  have h1 : (1.0345 : ℝ) ≤ 1.00148 ^ 23 := by norm_num
  have h2 : (1.4035 : ℝ) ≤ 1.0345 ^ 10 := by norm_num
  have h3 : (29.6 : ℝ) ≤ 1.4035 ^ 10 := by norm_num
  have h4 : (4.96 * 10 ^ 14 : ℝ) ≤ 29.6 ^ 10 := by norm_num
  calc (4.96 * 10 ^ 14 : ℝ) ≤ 29.6 ^ 10 := h4
    _ ≤ (1.4035 ^ 10) ^ 10 := by gcongr
    _ ≤ ((1.0345 ^ 10) ^ 10) ^ 10 := by gcongr
    _ ≤ (((1.00148 ^ 23) ^ 10) ^ 10) ^ 10 := by gcongr
    _ = _ := by rw [← pow_mul, ← pow_mul, ← pow_mul]

theorem num_enough {S : ℝ} (hS : S ≤ (32.5 / 9) ^ 2 * 2500) :
    (101 : ℝ) * ((6 / 5) ^ 2 * 1.00148 ^ 2 / (1 - (1.00148 * (1 - 6 / 5)) ^ 2) * S) ≤ 1.00148 ^ (2 * 11500) * (1 / 10000) ^ 2 := by
  calc (101 : ℝ) * ((6 / 5) ^ 2 * 1.00148 ^ 2 / (1 - (1.00148 * (1 - 6 / 5)) ^ 2) * S)
      ≤ 101 * ((6 / 5) ^ 2 * 1.00148 ^ 2 / (1 - (1.00148 * (1 - 6 / 5)) ^ 2) * ((32.5 / 9) ^ 2 * 2500)) := by
        refine mul_le_mul_of_nonneg_left (mul_le_mul_of_nonneg_left hS ?_) (by norm_num)
        norm_num
    _ ≤ 4.96 * 10 ^ 14 * (1 / 10000) ^ 2 := by norm_num
    _ ≤ _ := mul_le_mul_of_nonneg_right pow_enough (by norm_num)

theorem shipped_ht : shippedHeat.ht = 1 / 100 := rfl

/-- the conditions of `C116_heat` for the constants of the program -/
theorem enough_conditions : 1 / shippedHeat.ht < diag3 shippedHeat (6 / 10) - pull shippedHeat 99 99 (6 / 10) ∧ ((1 - 6 / 5 : ℝ) / (6 / 5)) ^ 2 ≤ 320 ^ 2 ∧
    (diag3 shippedHeat (6 / 10) * (1 - 1 / (6 / 5)) + (6 / 10 / shippedHeat.hx ^ 2 + 6 / 10 / shippedHeat.hy ^ 2)) ^ 2 /
      ((diag3 shippedHeat (6 / 10) - pull shippedHeat 99 99 (6 / 10)) ^ 2 - (1 / shippedHeat.ht) ^ 2) ≤ 320 ^ 2 ∧
    (1.00148 * (1 - 6 / 5) : ℝ) ^ 2 < 1 ∧ 2 * (1 + 1.00148) * (diag3 shippedHeat (6 / 10) * (1 - 1 / (6 / 5))) ≤ pull shippedHeat 99 99 (6 / 10) ∧
    1 ≤ damp shippedHeat 99 99 (6 / 10) (6 / 5) 1.00148 * shippedHeat.ht := by
  obtain ⟨c1, c2⟩ := cos_bounds
  have c3 := cos_upper
  have hx : shippedHeat.hx = 1 / 100 := rfl
  have hy : shippedHeat.hy = 1 / 100 := rfl
  unfold damp
  rw [shipped_diag, shipped_pull, shipped_ht, hx, hy]
  generalize cos (π / 100) = c at *
  norm_num at c1 c3
  refine ⟨by norm_num; linarith, by norm_num, ?_, by norm_num, by norm_num; linarith, by norm_num; linarith⟩
  have h1 : 111.84 ≤ 24100 - 24000 * c := by norm_num; linarith
  have h2 : (111.84 : ℝ) ^ 2 ≤ (24100 - 24000 * c) ^ 2 := pow_le_pow_left₀ (by norm_num) h1 2
  rw [div_le_iff₀ (by norm_num at h2 ⊢; linarith)]
  norm_num at h2 ⊢
  linarith

/-- difference of the norms on one time level -/
theorem gap_sum {u z : Fin p.d → ℝ} {t : ℕ} {c : ℝ} (hc : 0 < c) (h : heat2 p u t ≤ c ^ 2 * heat2 p z t) :
    heat2 p z t ≤ (1 + c) * (gap2 p u z t + c * heat2 p z t) := by
  have h1 : heat2 p z t ≤ (1 + c) * gap2 p u z t + (1 + c) / c * heat2 p u t := by
    unfold heat2 gap2
    simp only [Finset.mul_sum, ← Finset.sum_add_distrib]
    refine Finset.sum_le_sum fun x _ => Finset.sum_le_sum fun y _ => ?_
    set a := val3 p u t x y
    set b := val3 p z t x y
    have h4 : (1 + c) * (a - b) ^ 2 + (1 + c) / c * a ^ 2 - b ^ 2 = (c * (a - b) + a) ^ 2 / c := by field_simp; ring
    have h5 : 0 ≤ (c * (a - b) + a) ^ 2 / c := by positivity
    linarith
  have h2 : (1 + c) / c * heat2 p u t ≤ (1 + c) / c * (c ^ 2 * heat2 p z t) := mul_le_mul_of_nonneg_left h (by positivity)
  have h3 : (1 + c) / c * (c ^ 2 * heat2 p z t) = (1 + c) * (c * heat2 p z t) := by field_simp
  linarith

theorem gap_room {Z E g : ℝ} (h1 : Z ≤ (1 + 1 / 40) * (g + 1 / 40 * Z)) (h2 : 2500 ≤ 1.06261 ^ 2 * (E * Z)) (h3 : E ≤ 826) (hZ0 : 0 ≤ Z) : 2 ≤ g := by
  have h4 : E * Z ≤ 826 * Z := mul_le_mul_of_nonneg_right h3 hZ0
  norm_num at h1 h2
  linarith

/-- C116: with 11500 sweeps instead of 1024 the heat program would stop by its own rule, and on every time level the result would
be within 0.032 (Euclidean norm) of the solution of the scheme. -/
theorem C116_enough {M : Type} [MatOps M ℝ] [LawfulMat M ℝ] {maxIter : ℕ} (hm : 11500 < maxIter) :
    ∃ u it, solve (M := M) shippedHeat (6 / 5) maxIter (1 / 10000) = .ok (fl u, it) ∧ it ≤ 11500 ∧
      ∀ z, Solves shippedHeat z → ∀ t, t ≤ 100 → gap2 shippedHeat u z t ≤ (32 / 1000) ^ 2 := by
  obtain ⟨a1, a2, a3, a4, a5, a6⟩ := enough_conditions
  obtain ⟨z, hz, hu⟩ := shipped_solvable
  obtain ⟨u, it, e1, -, e3, e4⟩ := C116_heat (M := M) shipped_plain (w := 6 / 5) (by norm_num) a1 a2 a3 hz maxIter (1 / 10000)
  have hit : it ≤ 11500 := e4 1.00148 11500 (by norm_num) a4 a5 a6 (by norm_num) (num_enough start_upper)
  refine ⟨u, it, e1, hit, fun z' hz' t ht => ?_⟩
  rw [hu z' hz']
  refine (e3 (by omega) t (Nat.lt_succ_of_le ht)).trans ?_
  norm_num

/-- C116: the program as it is uses up its 1024 sweeps: the stopping rule never applies. -/
theorem C116_limit {M : Type} [MatOps M ℝ] [LawfulMat M ℝ] : ∃ u, solve (M := M) shippedHeat (6 / 5) 1024 (1 / 10000) = .ok (fl u, 1024) ∧
    ∀ z, Solves shippedHeat z → 2 ≤ gap2 shippedHeat u z 30 := by
  obtain ⟨a1, a2, a3, a4, a5, a6⟩ := enough_conditions
  obtain ⟨z, hz, hu⟩ := shipped_solvable
  obtain ⟨u, it, e1, e2, e3, -⟩ := C116_heat (M := M) shipped_plain (w := 6 / 5) (by norm_num) a1 a2 a3 hz 1024 (1 / 10000)
  obtain ⟨u', it', e1', e4⟩ := C115_program (M := M)
  obtain ⟨rfl, rfl⟩ := solve_unique e1 e1'
  have hg : ∀ z, Solves shippedHeat z → 2 ≤ gap2 shippedHeat u z 30 := by
    intro z hz
    have h1 := gap_sum (by norm_num) ((e4 z hz).1 30 (by decide) (by decide))
    obtain ⟨-, h2⟩ := scheme_lower hz (t := 30) (by decide) (by decide)
    have hZ0 : 0 ≤ heat2 shippedHeat z 30 := Finset.sum_nonneg fun _ _ => Finset.sum_nonneg fun _ _ => sq_nonneg _
    exact gap_room h1 h2 decay_pow hZ0
  have hlim : it = 1024 := by
    by_contra hne
    have h1 := e3 (by omega) 30 (by decide)
    have h2 := hg z hz
    exact absurd (h2.trans h1) (by norm_num)
  subst hlim
  exact ⟨u, e1, hg⟩
end NS.Props.Heat

/-
Property theorem C72: the finite difference example `examples/heat/main.cpp` (implicit Euler, Dirichlet boundary).
-/
import Verif.Fdm

set_option linter.unusedSectionVars false
set_option linter.unusedSimpArgs false

namespace NS.Props.Heat
open NS NS.Heat NS.Grid NS.MatOps NS.LawfulMat NS.Props.LU NS.Props.Iter NS.Iterative Matrix

section assemble
variable {M T : Type} [Zero T] [One T] [Add T] [Mul T] [Div T] [Neg T] [NatCast T] [OfNat T 2] [MatOps M T] [LawfulStore M T] {p : Problem T}

/-- grid points with a given value: the first time level and the boundary of the rectangle -/
def OnRim (p : Problem T) (t x y : Nat) : Prop := t = 0 ∨ y = 0 ∨ x = 0 ∨ y = p.yc - 1 ∨ x = p.xc - 1

instance (p : Problem T) (t x y : Nat) : Decidable (OnRim p t x y) := by unfold OnRim; infer_instance

/-- the value at a grid point of a vector of unknowns -/
def val3 (p : Problem T) (u : Fin p.d → T) (t x y : Nat) : T := ev u ((t * p.yc + y) * p.xc + x)

/-- coordinates of an index -/
def tOf (p : Problem T) (r : Nat) : Nat := r / p.xc / p.yc
def yOf (p : Problem T) (r : Nat) : Nat := r / p.xc % p.yc
def xOf (p : Problem T) (r : Nat) : Nat := r % p.xc

def kf (p : Problem T) (t x y : Nat) : T := p.k (t * p.ht) (x * p.hx) (y * p.hy)

def entries (p : Problem T) (r : Nat) : List (Nat × T) :=
  if OnRim p (tOf p r) (xOf p r) (yOf p r) then [(r, 1)]
  else [(r - p.yc * p.xc, -(1 / p.ht)), (r - p.xc, -(1 / (p.hy * p.hy)) * kf p (tOf p r) (xOf p r) (yOf p r)),
    (r - 1, -(1 / (p.hx * p.hx)) * kf p (tOf p r) (xOf p r) (yOf p r)),
    (r, 2 * (1 / (p.hx * p.hx) + 1 / (p.hy * p.hy)) * kf p (tOf p r) (xOf p r) (yOf p r) + 1 / p.ht),
    (r + 1, -(1 / (p.hx * p.hx)) * kf p (tOf p r) (xOf p r) (yOf p r)),
    (r + p.xc, -(1 / (p.hy * p.hy)) * kf p (tOf p r) (xOf p r) (yOf p r))]

def rhs3 (p : Problem T) (t x y : Nat) : T :=
  if OnRim p t x y then (if t ≠ 0 then p.b (t * p.ht) (x * p.hx) (y * p.hy) else p.t0 (x * p.hx) (y * p.hy))
  else p.f (t * p.ht) (x * p.hx) (y * p.hy)

def rhs (p : Problem T) (r : Nat) : T := rhs3 p (tOf p r) (xOf p r) (yOf p r)

def row (p : Problem T) (r c : Nat) : T := rowVal (entries p r) c 0

theorem lin_eq (t x y : Nat) : p.lin t x y = (t * p.yc + y) * p.xc + x := by unfold Problem.lin; ring

theorem lin_x {t x y : Nat} (hx : x < p.xc) : xOf p (p.lin t x y) = x := by
  unfold xOf; rw [lin_eq, mul_comm, Nat.mul_add_mod, Nat.mod_eq_of_lt hx]
theorem lin_div {t x y : Nat} (hx : x < p.xc) : p.lin t x y / p.xc = t * p.yc + y := by
  rw [lin_eq, mul_comm, Nat.mul_add_div (by omega), Nat.div_eq_of_lt hx, add_zero]
theorem lin_y {t x y : Nat} (hx : x < p.xc) (hy : y < p.yc) : yOf p (p.lin t x y) = y := by
  unfold yOf; rw [lin_div hx, mul_comm, Nat.mul_add_mod, Nat.mod_eq_of_lt hy]
theorem lin_t {t x y : Nat} (hx : x < p.xc) (hy : y < p.yc) : tOf p (p.lin t x y) = t := by
  unfold tOf; rw [lin_div hx, mul_comm, Nat.mul_add_div (by omega), Nat.div_eq_of_lt hy, add_zero]

theorem d_eq : p.d = p.tc * p.yc * p.xc := by unfold Problem.d; ring

theorem lin_lt {t x y : Nat} (ht : t < p.tc) (hx : x < p.xc) (hy : y < p.yc) : p.lin t x y < p.d := by
  rw [lin_eq, d_eq]
  have h1 : t * p.yc + y < p.tc * p.yc := by
    calc t * p.yc + y < t * p.yc + p.yc := by omega
      _ = (t + 1) * p.yc := by ring
      _ ≤ _ := Nat.mul_le_mul_right _ ht
  calc (t * p.yc + y) * p.xc + x < (t * p.yc + y) * p.xc + p.xc := by omega
    _ = (t * p.yc + y + 1) * p.xc := by ring
    _ ≤ _ := Nat.mul_le_mul_right _ h1

theorem pos_of_lt {r : Nat} (h : r < p.d) : 0 < p.tc ∧ 0 < p.yc ∧ 0 < p.xc := by
  rw [d_eq] at h
  refine ⟨Nat.pos_of_ne_zero ?_, Nat.pos_of_ne_zero ?_, Nat.pos_of_ne_zero ?_⟩ <;> intro h0 <;> rw [h0] at h <;> simp at h

theorem xOf_lt {r : Nat} (h : r < p.d) : xOf p r < p.xc := Nat.mod_lt _ (pos_of_lt h).2.2
theorem yOf_lt {r : Nat} (h : r < p.d) : yOf p r < p.yc := Nat.mod_lt _ (pos_of_lt h).2.1
theorem tOf_lt {r : Nat} (h : r < p.d) : tOf p r < p.tc := by
  unfold tOf
  rw [d_eq] at h
  refine Nat.div_lt_of_lt_mul ?_
  rw [mul_comm p.yc]
  refine Nat.div_lt_of_lt_mul ?_
  rw [mul_comm p.xc]; exact h
theorem lin_of (r : Nat) : p.lin (tOf p r) (xOf p r) (yOf p r) = r := by
  rw [lin_eq]
  unfold tOf xOf yOf
  have h1 : r / p.xc / p.yc * p.yc + r / p.xc % p.yc = r / p.xc := Nat.div_add_mod' _ _
  rw [h1]
  exact Nat.div_add_mod' _ _

theorem inner_facts {t x y : Nat} (ht : t < p.tc) (hx : x < p.xc) (hy : y < p.yc) (h : ¬ OnRim p t x y) :
    1 ≤ t ∧ 1 ≤ x ∧ x + 1 < p.xc ∧ 1 ≤ y ∧ y + 1 < p.yc ∧ p.lin (t - 1) x y = p.lin t x y - p.yc * p.xc ∧
      p.lin t x (y - 1) = p.lin t x y - p.xc ∧ p.lin t (x - 1) y = p.lin t x y - 1 ∧ p.lin t (x + 1) y = p.lin t x y + 1 ∧
      p.lin t x (y + 1) = p.lin t x y + p.xc ∧ p.yc * p.xc + p.xc + 1 ≤ p.lin t x y ∧ 3 * p.xc ≤ p.yc * p.xc := by
  unfold OnRim at h
  push Not at h
  obtain ⟨h1, h2, h3, h4, h5⟩ := h
  obtain ⟨y', rfl⟩ : ∃ y', y = y' + 1 := ⟨y - 1, by omega⟩
  obtain ⟨t', rfl⟩ : ∃ t', t = t' + 1 := ⟨t - 1, by omega⟩
  have h6 : 3 * p.xc ≤ p.yc * p.xc := Nat.mul_le_mul_right _ (by omega)
  simp only [Nat.add_sub_cancel]
  have e1 : p.lin (t' + 1) x (y' + 1) = t' * p.yc * p.xc + p.yc * p.xc + y' * p.xc + p.xc + x := by unfold Problem.lin; ring
  have e2 : p.lin t' x (y' + 1) = t' * p.yc * p.xc + y' * p.xc + p.xc + x := by unfold Problem.lin; ring
  have e3 : p.lin (t' + 1) x y' = t' * p.yc * p.xc + p.yc * p.xc + y' * p.xc + x := by unfold Problem.lin; ring
  have e4 : p.lin (t' + 1) (x - 1) (y' + 1) = t' * p.yc * p.xc + p.yc * p.xc + y' * p.xc + p.xc + (x - 1) := by unfold Problem.lin; ring
  have e5 : p.lin (t' + 1) (x + 1) (y' + 1) = t' * p.yc * p.xc + p.yc * p.xc + y' * p.xc + p.xc + (x + 1) := by unfold Problem.lin; ring
  have e6 : p.lin (t' + 1) x (y' + 1 + 1) = t' * p.yc * p.xc + p.yc * p.xc + y' * p.xc + p.xc + p.xc + x := by unfold Problem.lin; ring
  rw [e1, e2, e3, e4, e5, e6]
  generalize t' * p.yc * p.xc = q1 at *
  generalize y' * p.xc = q2 at *
  generalize p.yc * p.xc = q3 at *
  omega

theorem entries_rim {t x y : Nat} (hx : x < p.xc) (hy : y < p.yc) (h : OnRim p t x y) : entries p (p.lin t x y) = [(p.lin t x y, 1)] := by
  unfold entries; rw [lin_t hx hy, lin_x hx, lin_y hx hy, if_pos h]

theorem entries_inner {t x y : Nat} (ht : t < p.tc) (hx : x < p.xc) (hy : y < p.yc) (h : ¬ OnRim p t x y) :
    entries p (p.lin t x y) = [(p.lin (t - 1) x y, -(1 / p.ht)), (p.lin t x (y - 1), -(1 / (p.hy * p.hy)) * kf p t x y),
      (p.lin t (x - 1) y, -(1 / (p.hx * p.hx)) * kf p t x y),
      (p.lin t x y, 2 * (1 / (p.hx * p.hx) + 1 / (p.hy * p.hy)) * kf p t x y + 1 / p.ht),
      (p.lin t (x + 1) y, -(1 / (p.hx * p.hx)) * kf p t x y), (p.lin t x (y + 1), -(1 / (p.hy * p.hy)) * kf p t x y)] := by
  obtain ⟨-, -, -, -, -, e1, e2, e3, e4, e5, -⟩ := inner_facts ht hx hy h
  unfold entries; rw [lin_t hx hy, lin_x hx, lin_y hx hy, if_neg h, e1, e2, e3, e4, e5]

theorem rhs_lin {t x y : Nat} (hx : x < p.xc) (hy : y < p.yc) : rhs p (p.lin t x y) = rhs3 p t x y := by
  unfold rhs; rw [lin_t hx hy, lin_x hx, lin_y hx hy]

theorem entries_nodup {r : Nat} (hr : r < p.d) : ((entries p r).map (·.1)).Nodup := by
  by_cases h : OnRim p (tOf p r) (xOf p r) (yOf p r)
  · unfold entries; rw [if_pos h]; simp
  · obtain ⟨-, h1, h2, -, -, -, -, -, -, -, h3, h4⟩ := inner_facts (tOf_lt hr) (xOf_lt hr) (yOf_lt hr) h
    rw [lin_of r] at h3
    unfold entries; rw [if_neg h]
    simp only [List.map_cons, List.map_nil, List.nodup_cons, List.mem_cons, List.not_mem_nil, or_false, not_false_eq_true,
      List.nodup_nil, and_true]
    generalize p.yc * p.xc = q at *
    omega

theorem point_adds {t x y : Nat} (ht : t < p.tc) (hx : x < p.xc) (hy : y < p.yc) :
    Adds p.d (row p) (rhs p) (fun i => i = p.lin t x y) (point (M := M) p t y x) := by
  by_cases h : OnRim p t x y
  · have := adds_row (M := M) (row := row p) (rhs := rhs p) (lin_lt ht hx hy) (l := entries p (p.lin t x y)) (x := rhs3 p t x y)
      (by
        rw [entries_rim hx hy h]
        intro e he
        simp only [List.mem_cons, List.not_mem_nil, or_false] at he
        subst he
        exact lin_lt ht hx hy)
      (fun j _ y' => rowVal_cases _ _ _) (rhs_lin hx hy).symm
    rw [entries_rim hx hy h] at this
    intro S st hS
    obtain ⟨st', q1, q2⟩ := this S st hS
    refine ⟨st', ?_, q2⟩
    rw [← q1]
    have h' : t = 0 ∨ y = 0 ∨ x = 0 ∨ y = p.yc - 1 ∨ x = p.xc - 1 := h
    unfold point
    simp only [putRow, bind_assoc, pure_eq_ok, ok_bind, rhs3, if_pos h, if_pos h']
    by_cases h0 : t ≠ 0 <;> simp [h0]
  · have := adds_row (M := M) (row := row p) (rhs := rhs p) (lin_lt ht hx hy) (l := entries p (p.lin t x y)) (x := rhs3 p t x y)
      (by
        have := inner_facts ht hx hy h
        rw [entries_inner ht hx hy h]
        intro e he
        simp only [List.mem_cons, List.not_mem_nil, or_false] at he
        rcases he with rfl | rfl | rfl | rfl | rfl | rfl
        · exact lin_lt (by omega) hx hy
        · exact lin_lt ht hx (by omega)
        · exact lin_lt ht (by omega) hy
        · exact lin_lt ht hx hy
        · exact lin_lt ht (by omega) hy
        · exact lin_lt ht hx (by omega))
      (fun j _ y' => rowVal_cases _ _ _) (rhs_lin hx hy).symm
    rw [entries_inner ht hx hy h] at this
    intro S st hS
    obtain ⟨st', q1, q2⟩ := this S st hS
    refine ⟨st', ?_, q2⟩
    rw [← q1]
    have h' : ¬ (t = 0 ∨ y = 0 ∨ x = 0 ∨ y = p.yc - 1 ∨ x = p.xc - 1) := h
    unfold point
    simp only [putRow, bind_assoc, pure_eq_ok, ok_bind, rhs3, if_neg h, if_neg h', kf]

/-- the assembled system, for any arithmetic -/
theorem system_all (ht : 0 < p.tc) (hx : 0 < p.xc) (hy : 0 < p.yc) : ∃ st : M × List T, system p = .ok st ∧
    ∃ S, Upto p.d (row p) (rhs p) S st ∧ ∀ r, r < p.d → S r := by
  obtain ⟨a, e0, h0⟩ := upto_start (M := M) (row := row p) (rhs := rhs p) (show 0 < p.d from Nat.mul_pos (Nat.mul_pos ht hx) hy)
  obtain ⟨st1, e1, h1⟩ := Adds.loop (a := 0) (b := p.tc)
    (f := fun t st => forRange 0 p.yc st fun y st => forRange 0 p.xc st fun x st => point (M := M) p t y x st)
    (fun t _ ht => Adds.loop (fun y _ hy => Adds.loop (fun x _ hx => point_adds ht hx hy))) _ _ h0
  refine ⟨st1, ?_, _, h1, ?_⟩
  · unfold system
    rw [e0, ok_bind]
    exact e1
  · intro r hr
    exact .inr ⟨tOf p r, Nat.zero_le _, tOf_lt hr, yOf p r, Nat.zero_le _, yOf_lt hr, xOf p r, Nat.zero_le _, xOf_lt hr, (lin_of r).symm⟩
end assemble

section field
variable {M T : Type} [Field T] [DecidableEq T] [MatOps M T] [LawfulMat M T] {p : Problem T}

theorem system_upto (ht : 0 < p.tc) (hx : 0 < p.xc) (hy : 0 < p.yc) : ∃ st : M × List T, system p = .ok st ∧
    IsMat st.1 p.d (fun i j => row p i j) ∧ IsVec st.2 p.d (fun i => rhs p i) := by
  obtain ⟨st, e, S, h1, h2⟩ := system_all (M := M) (p := p) ht hx hy
  exact ⟨st, e, h1.final h2⟩

/-- the assembled matrix -/
def mat (p : Problem T) : Matrix (Fin p.d) (Fin p.d) T := fun i j => row p i j

theorem mulVec_row (u : Fin p.d → T) {t x y : Nat} (ht : t < p.tc) (hx : x < p.xc) (hy : y < p.yc) :
    (mat p *ᵥ u) ⟨p.lin t x y, lin_lt ht hx hy⟩ =
      if OnRim p t x y then val3 p u t x y
      else (val3 p u t x y - val3 p u (t - 1) x y) / p.ht - kf p t x y *
        ((val3 p u t (x - 1) y + val3 p u t (x + 1) y - 2 * val3 p u t x y) / p.hx ^ 2 +
          (val3 p u t x (y - 1) + val3 p u t x (y + 1) - 2 * val3 p u t x y) / p.hy ^ 2) := by
  have e : (mat p *ᵥ u) ⟨p.lin t x y, lin_lt ht hx hy⟩ = ∑ c : Fin p.d, rowVal (entries p (p.lin t x y)) c 0 * u c := rfl
  rw [e, rowVal_sum u (entries_nodup (lin_lt ht hx hy))]
  unfold val3
  by_cases h : OnRim p t x y
  · rw [if_pos h, entries_rim hx hy h]
    simp [lin_eq]
  · rw [if_neg h, entries_inner ht hx hy h]
    simp only [List.map_cons, List.map_nil, List.sum_cons, List.sum_nil, lin_eq]
    ring

/-- C72: for every grid (at least one point), mesh widths and functions, assembling succeeds; the row of a point with given value is
the identity with the initial or boundary value on the right, the row of any other point is the implicit Euler formula
`(u(t) - u(t-1))/HT - k Δ u(t)` with the five-point Laplacian, and the source on the right. -/
theorem C72_heat_system (ht : 0 < p.tc) (hx : 0 < p.xc) (hy : 0 < p.yc) : ∃ (a : M) (b : List T) (A : Matrix (Fin p.d) (Fin p.d) T)
    (B : Fin p.d → T), system p = .ok (a, b) ∧ IsMat a p.d A ∧ IsVec b p.d B ∧
    ∀ t x y (ht : t < p.tc) (hx : x < p.xc) (hy : y < p.yc),
      (∀ u, (A *ᵥ u) ⟨p.lin t x y, lin_lt ht hx hy⟩ = if OnRim p t x y then val3 p u t x y
        else (val3 p u t x y - val3 p u (t - 1) x y) / p.ht - p.k (t * p.ht) (x * p.hx) (y * p.hy) *
          ((val3 p u t (x - 1) y + val3 p u t (x + 1) y - 2 * val3 p u t x y) / p.hx ^ 2 +
            (val3 p u t x (y - 1) + val3 p u t x (y + 1) - 2 * val3 p u t x y) / p.hy ^ 2)) ∧
      B ⟨p.lin t x y, lin_lt ht hx hy⟩ = if t = 0 then p.t0 (x * p.hx) (y * p.hy)
        else if OnRim p t x y then p.b (t * p.ht) (x * p.hx) (y * p.hy) else p.f (t * p.ht) (x * p.hx) (y * p.hy) := by
  obtain ⟨⟨a, b⟩, e, h1, h2⟩ := system_upto (M := M) (p := p) ht hx hy
  refine ⟨a, b, mat p, _, e, h1, h2, fun t x y ht hx hy => ⟨fun u => mulVec_row u ht hx hy, ?_⟩⟩
  show rhs p (p.lin t x y) = _
  rw [rhs_lin hx hy]
  unfold rhs3
  by_cases h0 : t = 0
  · subst h0
    simp [OnRim]
  · simp [h0]
end field

section ordered
variable {M T : Type} [Field T] [LinearOrder T] [IsStrictOrderedRing T] [MatOps M T] [LawfulMat M T] {p : Problem T}

/-- the implicit Euler discretisation of the heat equation with initial and Dirichlet boundary values -/
def Solves (p : Problem T) (u : Fin p.d → T) : Prop := ∀ t x y, t < p.tc → x < p.xc → y < p.yc →
  (t = 0 → val3 p u t x y = p.t0 (x * p.hx) (y * p.hy)) ∧
  (t ≠ 0 → OnRim p t x y → val3 p u t x y = p.b (t * p.ht) (x * p.hx) (y * p.hy)) ∧
  (¬ OnRim p t x y → (val3 p u t x y - val3 p u (t - 1) x y) / p.ht - p.k (t * p.ht) (x * p.hx) (y * p.hy) *
    ((val3 p u t (x - 1) y + val3 p u t (x + 1) y - 2 * val3 p u t x y) / p.hx ^ 2 +
      (val3 p u t x (y - 1) + val3 p u t x (y + 1) - 2 * val3 p u t x y) / p.hy ^ 2) = p.f (t * p.ht) (x * p.hx) (y * p.hy))

theorem solves_iff (u : Fin p.d → T) : mat p *ᵥ u = (fun i : Fin p.d => rhs p i) ↔ Solves p u := by
  have key : ∀ t x y (ht : t < p.tc) (hx : x < p.xc) (hy : y < p.yc),
      (mat p *ᵥ u) ⟨p.lin t x y, lin_lt ht hx hy⟩ = rhs p (p.lin t x y) ↔
      (t = 0 → val3 p u t x y = p.t0 (x * p.hx) (y * p.hy)) ∧
      (t ≠ 0 → OnRim p t x y → val3 p u t x y = p.b (t * p.ht) (x * p.hx) (y * p.hy)) ∧
      (¬ OnRim p t x y → (val3 p u t x y - val3 p u (t - 1) x y) / p.ht - p.k (t * p.ht) (x * p.hx) (y * p.hy) *
        ((val3 p u t (x - 1) y + val3 p u t (x + 1) y - 2 * val3 p u t x y) / p.hx ^ 2 +
          (val3 p u t x (y - 1) + val3 p u t x (y + 1) - 2 * val3 p u t x y) / p.hy ^ 2) = p.f (t * p.ht) (x * p.hx) (y * p.hy)) := by
    intro t x y ht hx hy
    rw [mulVec_row u ht hx hy, rhs_lin hx hy]
    unfold rhs3
    by_cases h : OnRim p t x y
    · by_cases h0 : t = 0
      · subst h0; simp [h]
      · simp [h, h0]
    · have h0 : t ≠ 0 := fun h0 => h (.inl h0)
      simp only [h, h0, if_false, not_false_eq_true, true_imp_iff, false_imp_iff, true_and, ne_eq]
      rfl
  constructor
  · intro h t x y ht hx hy
    exact (key t x y ht hx hy).1 (congrFun h ⟨p.lin t x y, lin_lt ht hx hy⟩)
  · intro h
    funext r
    have ht := tOf_lt r.2
    have hx := xOf_lt r.2
    have hy := yOf_lt r.2
    have := (key _ _ _ ht hx hy).2 (h _ _ _ ht hx hy)
    have e : (⟨p.lin (tOf p r) (xOf p r) (yOf p r), lin_lt ht hx hy⟩ : Fin p.d) = r := Fin.ext (lin_of _)
    rw [e, lin_of] at this
    exact this

/-- index form of "with given value" -/
def rimIx (p : Problem T) (r : Fin p.d) : Prop := OnRim p (tOf p r) (xOf p r) (yOf p r)

instance (p : Problem T) (r : Fin p.d) : Decidable (rimIx p r) := by unfold rimIx; infer_instance

/-- conductivity at an index -/
def kIx (p : Problem T) (r : Fin p.d) : T := kf p (tOf p r) (xOf p r) (yOf p r)

theorem mat_rim {r : Fin p.d} (h : rimIx p r) (c : Fin p.d) : mat p r c = if c = r then 1 else 0 := by
  unfold mat row entries
  rw [if_pos (c := OnRim p (tOf p r) (xOf p r) (yOf p r)) h]
  by_cases hc : c = r
  · subst hc; simp [rowVal]
  · have : ¬ (c : Nat) = r := fun h => hc (Fin.ext h)
    simp [rowVal, hc, this]

theorem inner_ix {r : Fin p.d} (h : ¬ rimIx p r) : 1 ≤ tOf p r ∧ 1 ≤ xOf p r ∧ 3 ≤ p.xc ∧ p.yc * p.xc + p.xc + 1 ≤ (r : Nat) ∧ 3 * p.xc ≤ p.yc * p.xc := by
  have := inner_facts (tOf_lt r.2) (xOf_lt r.2) (yOf_lt r.2) h
  rw [lin_of] at this
  omega

theorem mat_inner {r : Fin p.d} (h : ¬ rimIx p r) (c : Fin p.d) : mat p r c =
    if (c : Nat) = r then 2 * (1 / (p.hx * p.hx) + 1 / (p.hy * p.hy)) * kIx p r + 1 / p.ht
    else if (c : Nat) + 1 = r ∨ (c : Nat) = r + 1 then -(1 / (p.hx * p.hx)) * kIx p r
    else if (c : Nat) + p.xc = r ∨ (c : Nat) = r + p.xc then -(1 / (p.hy * p.hy)) * kIx p r
    else if (c : Nat) + p.yc * p.xc = r then -(1 / p.ht) else 0 := by
  obtain ⟨-, h1, h2, h3, h4⟩ := inner_ix h
  unfold mat row entries
  rw [if_neg (c := OnRim p (tOf p r) (xOf p r) (yOf p r)) h]
  simp only [rowVal]
  generalize p.yc * p.xc = q at *
  split_ifs <;> first | rfl | omega

/-- the same point one time step earlier -/
def prev (r : Fin p.d) : Fin p.d := ⟨r - p.yc * p.xc, lt_of_le_of_lt (Nat.sub_le _ _) r.2⟩

theorem prev_t {r : Fin p.d} (h : ¬ rimIx p r) : tOf p (prev r) = tOf p r - 1 := by
  obtain ⟨-, -, -, -, -, e1, -⟩ := inner_facts (tOf_lt r.2) (xOf_lt r.2) (yOf_lt r.2) h
  rw [lin_of] at e1
  have : ((prev r : Fin p.d) : Nat) = p.lin (tOf p r - 1) (xOf p r) (yOf p r) := e1.symm
  rw [this, lin_t (xOf_lt r.2) (yOf_lt r.2)]

theorem mat_prev {r : Fin p.d} (h : ¬ rimIx p r) : mat p r (prev r) = -(1 / p.ht) := by
  obtain ⟨-, h1, h2, h3, h4⟩ := inner_ix h
  have e : ((prev r : Fin p.d) : Nat) = r - p.yc * p.xc := rfl
  rw [mat_inner h, e]
  generalize p.yc * p.xc = q at *
  rw [if_neg (by omega), if_neg (by omega), if_neg (by omega), if_pos (by omega)]

/-- the values for which a row is an averaging formula: positive time step, conductivity not negative -/
structure Good (p : Problem T) : Prop where
  ht : 0 < p.ht
  k : ∀ t x y, t < p.tc → x < p.xc → y < p.yc → ¬ OnRim p t x y → 0 ≤ p.k (t * p.ht) (x * p.hx) (y * p.hy)

theorem Good.kIx (h : Good p) {r : Fin p.d} (hr : ¬ rimIx p r) : 0 ≤ kIx p r :=
  h.k _ _ _ (tOf_lt r.2) (xOf_lt r.2) (yOf_lt r.2) hr

theorem mat_off (hg : Good p) {r : Fin p.d} (h : ¬ rimIx p r) {c : Fin p.d} (hc : c ≠ r) : mat p r c ≤ 0 := by
  have hk := hg.kIx h
  have hi := hg.ht
  have h1 : 0 ≤ 1 / (p.hx * p.hx) := one_div_nonneg.2 (mul_self_nonneg _)
  have h2 : 0 ≤ 1 / (p.hy * p.hy) := one_div_nonneg.2 (mul_self_nonneg _)
  have h3 : 0 ≤ 1 / p.ht := one_div_nonneg.2 hi.le
  have m1 := mul_nonneg h1 hk
  have m2 := mul_nonneg h2 hk
  rw [mat_inner h, if_neg (fun h => hc (Fin.ext h))]
  split_ifs <;> linarith

theorem mat_row_sum {r : Fin p.d} (h : ¬ rimIx p r) : (∑ c, mat p r c) = 0 := by
  have e := mulVec_row (p := p) (fun _ => (1 : T)) (tOf_lt r.2) (xOf_lt r.2) (yOf_lt r.2)
  have e1 : (⟨p.lin (tOf p r) (xOf p r) (yOf p r), lin_lt (tOf_lt r.2) (xOf_lt r.2) (yOf_lt r.2)⟩ : Fin p.d) = r := Fin.ext (lin_of _)
  have e2 : (mat p *ᵥ fun _ => (1 : T)) r = ∑ c, mat p r c := by
    unfold Matrix.mulVec dotProduct; simp
  have hf := inner_facts (tOf_lt r.2) (xOf_lt r.2) (yOf_lt r.2) h
  have hev : ∀ t x y, t < p.tc → x < p.xc → y < p.yc → val3 p (fun _ : Fin p.d => (1 : T)) t x y = 1 := by
    intro t x y ht hx hy
    have := lin_lt ht hx hy
    rw [lin_eq] at this
    unfold val3 ev
    rw [dif_pos this]
  have ht := tOf_lt r.2
  have hx := xOf_lt r.2
  have hy := yOf_lt r.2
  rw [e1, e2, if_neg (c := OnRim p (tOf p r) (xOf p r) (yOf p r)) h, hev _ _ _ ht hx hy, hev _ _ _ (by omega) hx hy, hev _ _ _ ht (by omega) hy,
    hev _ _ _ ht (by omega) hy, hev _ _ _ ht hx (by omega), hev _ _ _ ht hx (by omega)] at e
  rw [e]
  norm_num

theorem mat_row (hg : Good p) (r : Fin p.d) (h : ¬ rimIx p r) :
    (∀ c, c ≠ r → mat p r c ≤ 0) ∧ (∑ c, mat p r c) = 0 ∧ ∃ c : Fin p.d, tOf p c < tOf p r ∧ mat p r c < 0 := by
  refine ⟨fun c hc => mat_off hg h hc, mat_row_sum h, prev r, ?_, ?_⟩
  · rw [prev_t h]; have := (inner_ix h).1; omega
  · rw [mat_prev h]
    have := one_div_pos.2 hg.ht
    linarith

theorem ev_lin {u : Fin p.d → T} (r : Fin p.d) : val3 p u (tOf p r) (xOf p r) (yOf p r) = u r := by
  unfold val3
  rw [← lin_eq, lin_of, ev_fin]

/-- C72: discrete maximum principle: with positive time step, conductivity not negative and source not positive, no value exceeds a
common bound of the initial and boundary values. -/
theorem C72_maximum (hg : Good p) {u : Fin p.d → T} (hu : Solves p u) {m : T}
    (hf : ∀ t x y, t < p.tc → x < p.xc → y < p.yc → ¬ OnRim p t x y → p.f (t * p.ht) (x * p.hx) (y * p.hy) ≤ 0)
    (h0 : ∀ x y, x < p.xc → y < p.yc → p.t0 (x * p.hx) (y * p.hy) ≤ m)
    (hb : ∀ t x y, t < p.tc → x < p.xc → y < p.yc → t ≠ 0 → OnRim p t x y → p.b (t * p.ht) (x * p.hx) (y * p.hy) ≤ m)
    {t x y : Nat} (ht : t < p.tc) (hx : x < p.xc) (hy : y < p.yc) : val3 p u t x y ≤ m := by
  have hs := (solves_iff u).2 hu
  have := max_principle (L := mat p) (rim := rimIx p) (fun r => tOf p r) (u := u) (m := m) (mat_row hg)
    (fun r hr => by
      rw [hs]
      show rhs p r ≤ 0
      unfold rhs rhs3
      rw [if_neg (c := OnRim p (tOf p r) (xOf p r) (yOf p r)) hr]
      exact hf _ _ _ (tOf_lt r.2) (xOf_lt r.2) (yOf_lt r.2) hr)
    (fun r hr => by
      obtain ⟨h1, h2, -⟩ := hu _ _ _ (tOf_lt r.2) (xOf_lt r.2) (yOf_lt r.2)
      rw [ev_lin] at h1 h2
      by_cases hz : tOf p r = 0
      · rw [h1 hz]; exact h0 _ _ (xOf_lt r.2) (yOf_lt r.2)
      · rw [h2 hz hr]; exact hb _ _ _ (tOf_lt r.2) (xOf_lt r.2) (yOf_lt r.2) hz hr)
    ⟨p.lin t x y, lin_lt ht hx hy⟩
  have e := ev_lin (u := u) ⟨p.lin t x y, lin_lt ht hx hy⟩
  simp only [lin_t hx hy, lin_x hx, lin_y hx hy] at e
  rw [e]; exact this

/-- the same problem with all data negated -/
def negP (p : Problem T) : Problem T :=
  { p with f := fun t x y => -p.f t x y, b := fun t x y => -p.b t x y, t0 := fun x y => -p.t0 x y }

theorem solves_neg {u : Fin p.d → T} (hu : Solves p u) : Solves (negP p) (fun i => -u i : Fin p.d → T) := by
  have hv : ∀ t x y, val3 (negP p) (fun i => -u i : Fin p.d → T) t x y = -val3 p u t x y := by
    intro t x y
    unfold val3 ev
    show (if h : (t * p.yc + y) * p.xc + x < p.d then -u ⟨_, h⟩ else 0) = _
    split <;> simp
  intro t x y ht hx hy
  obtain ⟨h1, h2, h3⟩ := hu t x y ht hx hy
  simp only [hv]
  refine ⟨fun h => congrArg Neg.neg (h1 h), fun h h' => congrArg Neg.neg (h2 h h'), fun h => ?_⟩
  have := congrArg Neg.neg (h3 h)
  refine Eq.trans ?_ this
  show _ = -((val3 p u t x y - val3 p u (t - 1) x y) / p.ht - p.k (t * p.ht) (x * p.hx) (y * p.hy) *
    ((val3 p u t (x - 1) y + val3 p u t (x + 1) y - 2 * val3 p u t x y) / p.hx ^ 2 +
      (val3 p u t x (y - 1) + val3 p u t x (y + 1) - 2 * val3 p u t x y) / p.hy ^ 2))
  show (-val3 p u t x y - -val3 p u (t - 1) x y) / p.ht - p.k (t * p.ht) (x * p.hx) (y * p.hy) *
    ((-val3 p u t (x - 1) y + -val3 p u t (x + 1) y - 2 * -val3 p u t x y) / p.hx ^ 2 +
      (-val3 p u t x (y - 1) + -val3 p u t x (y + 1) - 2 * -val3 p u t x y) / p.hy ^ 2) = _
  ring

/-- C72: discrete minimum principle. -/
theorem C72_minimum (hg : Good p) {u : Fin p.d → T} (hu : Solves p u) {m : T}
    (hf : ∀ t x y, t < p.tc → x < p.xc → y < p.yc → ¬ OnRim p t x y → 0 ≤ p.f (t * p.ht) (x * p.hx) (y * p.hy))
    (h0 : ∀ x y, x < p.xc → y < p.yc → m ≤ p.t0 (x * p.hx) (y * p.hy))
    (hb : ∀ t x y, t < p.tc → x < p.xc → y < p.yc → t ≠ 0 → OnRim p t x y → m ≤ p.b (t * p.ht) (x * p.hx) (y * p.hy))
    {t x y : Nat} (ht : t < p.tc) (hx : x < p.xc) (hy : y < p.yc) : m ≤ val3 p u t x y := by
  have := C72_maximum (p := negP p) (m := -m) ⟨hg.ht, hg.k⟩ (solves_neg hu)
    (fun t x y ht hx hy h => neg_nonpos.2 (hf t x y ht hx hy h)) (fun x y hx hy => neg_le_neg (h0 x y hx hy))
    (fun t x y ht hx hy hz h => neg_le_neg (hb t x y ht hx hy hz h)) ht hx hy
  have hv : val3 (negP p) (fun i => -u i : Fin p.d → T) t x y = -val3 p u t x y := by
    unfold val3 ev
    show (if h : (t * p.yc + y) * p.xc + x < p.d then -u ⟨_, h⟩ else 0) = _
    split <;> simp
  rw [hv] at this
  linarith

theorem mat_injective (hg : Good p) {v : Fin p.d → T} (hv : mat p *ᵥ v = 0) : v = 0 := by
  have hrim : ∀ r, rimIx p r → v r = 0 := by
    intro r hr
    have := congrFun hv r
    have e : (mat p *ᵥ v) r = v r := by
      unfold Matrix.mulVec dotProduct
      simp [mat_rim hr]
    rw [e] at this
    exact this
  funext r
  have h1 := max_principle (L := mat p) (rim := rimIx p) (fun r => tOf p r) (u := v) (m := 0) (mat_row hg)
    (fun r _ => by rw [hv]; exact le_refl _) (fun r hr => (hrim r hr).le) r
  have h2 := max_principle (L := mat p) (rim := rimIx p) (fun r => tOf p r) (u := -v) (m := 0) (mat_row hg)
    (fun r _ => by rw [Matrix.mulVec_neg, hv, neg_zero]; exact le_refl _) (fun r hr => by rw [Pi.neg_apply, hrim r hr, neg_zero]) r
  rw [Pi.neg_apply] at h2
  show v r = 0
  exact le_antisymm h1 (by linarith)

/-- C72: with positive time step and conductivity not negative the assembled system is the implicit Euler scheme and has exactly one
solution. -/
theorem C72_heat_euler (ht : 0 < p.tc) (hx : 0 < p.xc) (hy : 0 < p.yc) (hg : Good p) :
    ∃ (a : M) (b : List T) (A : Matrix (Fin p.d) (Fin p.d) T) (B : Fin p.d → T),
      system p = .ok (a, b) ∧ IsMat a p.d A ∧ IsVec b p.d B ∧ (∀ u, A *ᵥ u = B ↔ Solves p u) ∧ ∃! u, Solves p u := by
  obtain ⟨⟨a, b⟩, e, h1, h2⟩ := system_upto (M := M) (p := p) ht hx hy
  refine ⟨a, b, mat p, _, e, h1, h2, solves_iff, ?_⟩
  have hdet : IsUnit (mat p).det := by
    rw [isUnit_iff_ne_zero]
    intro h0
    obtain ⟨v, hv, e⟩ := Matrix.exists_mulVec_eq_zero_iff.2 h0
    exact hv (mat_injective hg e)
  refine ⟨(mat p)⁻¹ *ᵥ (fun i : Fin p.d => rhs p i), (solves_iff _).1 ?_, fun z hz => ?_⟩
  · rw [Matrix.mulVec_mulVec, Matrix.mul_nonsing_inv _ hdet, Matrix.one_mulVec]
  · rw [← (solves_iff z).2 hz, Matrix.mulVec_mulVec, Matrix.nonsing_inv_mul _ hdet, Matrix.one_mulVec]

theorem levels (hg : Good p) (hk : ∀ t x y, t < p.tc → x < p.xc → y < p.yc → ¬ OnRim p t x y → 0 < p.k (t * p.ht) (x * p.hx) (y * p.hy)) :
    Levels (mat p) (fun r => if rimIx p r then 0 else tOf p r) (fun r => if rimIx p r then 1 else (kIx p r)⁻¹) := by
  have hkp : ∀ r : Fin p.d, ¬ rimIx p r → 0 < kIx p r := fun r hr => hk _ _ _ (tOf_lt r.2) (xOf_lt r.2) (yOf_lt r.2) hr
  set lev : Fin p.d → Nat := fun r => if rimIx p r then 0 else tOf p r with hlev
  set sc : Fin p.d → T := fun r => if rimIx p r then 1 else (kIx p r)⁻¹ with hsc
  have hl0 : ∀ r, rimIx p r → lev r = 0 := fun r hr => if_pos hr
  have hl1 : ∀ r, ¬ rimIx p r → lev r = tOf p r := fun r hr => if_neg hr
  have hs0 : ∀ r, rimIx p r → sc r = 1 := fun r hr => if_pos hr
  have hs1 : ∀ r, ¬ rimIx p r → sc r = (kIx p r)⁻¹ := fun r hr => if_neg hr
  have hmono : ∀ r c : Fin p.d, r ≤ c → tOf p r ≤ tOf p c := fun r c h => Nat.div_le_div_right (Nat.div_le_div_right h)
  refine ⟨fun i j hij => ?_, fun l => ?_⟩
  · by_cases hi : rimIx p i
    · rw [mat_rim hi, if_neg]
      rintro rfl
      exact lt_irrefl _ hij
    · by_contra hne
      have hmem := rowVal_mem (show rowVal (entries p i) j 0 ≠ 0 from hne)
      obtain ⟨e, he, h1, -⟩ := hmem
      rw [show entries p i = entries p (p.lin (tOf p i) (xOf p i) (yOf p i)) by rw [lin_of],
        entries_inner (tOf_lt i.2) (xOf_lt i.2) (yOf_lt i.2) hi] at he
      have hf := inner_facts (tOf_lt i.2) (xOf_lt i.2) (yOf_lt i.2) hi
      have hx := xOf_lt i.2
      have hy := yOf_lt i.2
      have htj : tOf p j ≤ tOf p i := by
        rw [← h1]
        simp only [List.mem_cons, List.not_mem_nil, or_false] at he
        rcases he with rfl | rfl | rfl | rfl | rfl | rfl
        · show tOf p (p.lin _ _ _) ≤ _; rw [lin_t hx hy]; omega
        · show tOf p (p.lin _ _ _) ≤ _; rw [lin_t hx (by omega)]
        · show tOf p (p.lin _ _ _) ≤ _; rw [lin_t (by omega) hy]
        · show tOf p (p.lin _ _ _) ≤ _; rw [lin_t hx hy]
        · show tOf p (p.lin _ _ _) ≤ _; rw [lin_t (by omega) hy]
        · show tOf p (p.lin _ _ _) ≤ _; rw [lin_t hx (by omega)]
      rw [hl1 i hi] at hij
      by_cases hj : rimIx p j
      · rw [hl0 j hj] at hij; omega
      · rw [hl1 j hj] at hij; omega
  · have hval : ∀ i j, block (mat p) lev sc l i j = if lev i = l ∧ lev j = l then sc i * mat p i j else if i = j then 1 else 0 := fun _ _ => rfl
    have hrimrow : ∀ i, rimIx p i → ∀ j, block (mat p) lev sc l i j = if i = j then 1 else 0 := by
      intro i hi j
      rw [hval, hs0 i hi, mat_rim hi, one_mul]
      by_cases hij : i = j
      · subst hij; simp
      · simp [hij, Ne.symm hij]
    have hsamerow : ∀ i, lev i ≠ l → ∀ j, block (mat p) lev sc l i j = if i = j then 1 else 0 := by
      intro i hi j
      rw [hval, if_neg (fun h => hi h.1)]
    have hrimcol : ∀ i j, ¬ rimIx p i → rimIx p j → block (mat p) lev sc l i j = 0 := by
      intro i j hi hj
      have hij : i ≠ j := fun h => hi (h ▸ hj)
      rw [hval, if_neg, if_neg hij]
      rintro ⟨h1, h2⟩
      rw [hl1 i hi] at h1
      rw [hl0 j hj] at h2
      have := (inner_ix hi).1
      omega
    have hoff : ∀ i j, i ≠ j → block (mat p) lev sc l i j ≤ 0 := by
      intro i j hij
      by_cases hi : rimIx p i
      · rw [hrimrow i hi, if_neg hij]
      · rw [hval]
        split
        · rw [hs1 i hi]
          exact mul_nonpos_of_nonneg_of_nonpos (inv_nonneg.2 (hkp i hi).le) (mat_off hg hi (Ne.symm hij))
        · exact le_refl _
    have hpos : ∀ i, 0 < ∑ j, block (mat p) lev sc l i j := by
      intro i
      by_cases hi : rimIx p i
      · simp [hrimrow i hi]
      · by_cases hli : lev i = l
        · have e : (∑ j, block (mat p) lev sc l i j) = sc i * ∑ j, (if lev j = l then 0 else -mat p i j) := by
            have h1 : ∀ j, block (mat p) lev sc l i j = sc i * mat p i j + sc i * (if lev j = l then 0 else -mat p i j) := by
              intro j
              rw [hval]
              by_cases hj : lev j = l
              · simp [hli, hj]
              · have : i ≠ j := fun h => hj (h ▸ hli)
                simp [hj, this]
            rw [Finset.sum_congr rfl fun j _ => h1 j, Finset.sum_add_distrib, ← Finset.mul_sum, ← Finset.mul_sum, mat_row_sum hi]
            ring
          rw [e, hs1 i hi]
          refine mul_pos (inv_pos.2 (hkp i hi)) (Finset.sum_pos' (fun j _ => ?_) ⟨prev i, Finset.mem_univ _, ?_⟩)
          · split
            · exact le_refl _
            · next hj =>
              have := mat_off hg hi (c := j) (fun h => hj (h ▸ hli))
              linarith
          · have hp : lev (prev i) ≠ l := by
              rw [← hli, hl1 i hi]
              have := prev_t hi
              have := (inner_ix hi).1
              by_cases h : rimIx p (prev i)
              · rw [hl0 _ h]; omega
              · rw [hl1 _ h]; omega
            rw [if_neg hp, mat_prev hi]
            have := one_div_pos.2 hg.ht
            linarith
        · simp [hsamerow i hli]
    refine spd_of_zmatrix (fun _ => 0) ?_ hoff (fun i => (hpos i).le) (fun i => .inl (hpos i))
    funext i j
    rw [Matrix.transpose_apply]
    by_cases hi : rimIx p i
    · by_cases hj : rimIx p j
      · rw [hrimrow i hi, hrimrow j hj]; simp [eq_comm]
      · rw [hrimcol j i hj hi, hrimrow i hi, if_neg]
        rintro rfl; exact hj hi
    · by_cases hj : rimIx p j
      · rw [hrimcol i j hi hj, hrimrow j hj, if_neg]
        rintro rfl; exact hi hj
      · rw [hval, hval]
        by_cases hlij : lev i = l ∧ lev j = l
        · rw [if_pos hlij, if_pos hlij.symm, hs1 i hi, hs1 j hj, mat_inner hi, mat_inner hj]
          have k1 := (hkp i hi).ne'
          have k2 := (hkp j hj).ne'
          obtain ⟨-, -, -, -, q1⟩ := inner_ix hi
          by_cases hij : (i : Nat) = j
          · have : i = j := Fin.ext hij
            subst this; rfl
          · have hne : ∀ a b : Fin p.d, ¬ rimIx p a → lev a = l → ¬ rimIx p b → lev b = l → ¬ (b : Nat) + p.yc * p.xc = a := by
              intro a b ha hla hb hlb hab
              have : b = prev a := Fin.ext (by show (b : Nat) = a - p.yc * p.xc; omega)
              have h1 := prev_t ha
              rw [← this] at h1
              rw [hl1 a ha] at hla
              rw [hl1 b hb] at hlb
              have := (inner_ix ha).1
              omega
            have n1 := hne i j hi hlij.1 hj hlij.2
            have n2 := hne j i hj hlij.2 hi hlij.1
            rw [if_neg hij, if_neg (Ne.symm hij), if_neg n1, if_neg n2]
            have e1 : ((i : Nat) + 1 = j ∨ (i : Nat) = j + 1) ↔ ((j : Nat) + 1 = i ∨ (j : Nat) = i + 1) := by omega
            have e2 : ((i : Nat) + p.xc = j ∨ (i : Nat) = j + p.xc) ↔ ((j : Nat) + p.xc = i ∨ (j : Nat) = i + p.xc) := by omega
            simp only [e1, e2]
            split_ifs <;> field_simp <;> simp
        · rw [if_neg hlij, if_neg (fun h => hlij h.symm)]; simp [eq_comm]

/-- C72: for positive time step and conductivity, the solver of the example (weight 1.2 there) stops by convergence for every tolerance
once the iteration limit is large enough, and its result is within a constant times the tolerance of the solution of the scheme. -/
theorem C72_heat_solve [Archimedean T] (ht : 0 < p.tc) (hx : 0 < p.xc) (hy : 0 < p.yc) (hht : 0 < p.ht)
    (hk : ∀ t x y, t < p.tc → x < p.xc → y < p.yc → ¬ OnRim p t x y → 0 < p.k (t * p.ht) (x * p.hx) (y * p.hy))
    {w : T} (hw0 : 0 < w) (hw2 : w < 2) :
    ∃ C : T, 0 ≤ C ∧ ∀ eps : T, 0 < eps →
      ∃ N, ∀ maxIter, N < maxIter → ∃ x it, solve (M := M) p w maxIter eps = .ok (fl x, it) ∧ it ≤ N ∧
        ∀ z, Solves p z → ∀ i, |x i - z i| ≤ C * eps := by
  obtain ⟨C, hC0, hC⟩ := C70_sor_levels (M := M) (levels ⟨hht, fun t x y a b c d => (hk t x y a b c d).le⟩ hk) hw0 hw2
  refine ⟨C, hC0, fun eps he => ?_⟩
  obtain ⟨⟨a, b'⟩, e, h1, h2⟩ := system_upto (M := M) (p := p) ht hx hy
  obtain ⟨N, hN⟩ := hC a (fun i => rhs p i) 0 eps h1 he
  refine ⟨N, fun maxIter hm => ?_⟩
  obtain ⟨x, it, f1, f2, f3⟩ := hN maxIter hm
  refine ⟨x, it, ?_, f2, fun z hz => f3 (.inr (.inr rfl)) z ((solves_iff z).2 hz)⟩
  unfold solve
  have e3 : (Vec.resize [] p.d : List T).map Fl.fin = fl (0 : Fin p.d → T) := by
    unfold fl Vec.resize
    apply List.ext_getElem (by simp)
    intro i _ _
    simp
  rw [e, ok_bind, fl_of_isVec h2]
  show sor a _ ((Vec.resize [] p.d : List T).map Fl.fin) w maxIter eps = _
  rw [e3]
  exact f1
end ordered

/-- a concrete problem: 3 time levels, 4 x 3 points, varying conductivity -/
def exH : Problem ℚ := ⟨3, 4, 3, 1 / 2, 1 / 3, 1 / 2, fun t x _ => 1 + t + x, fun _ _ _ => 0, fun _ _ _ => 0, fun x y => x * (1 - x) * y⟩

/-- it meets the hypotheses and has points without given value -/
example : 0 < exH.tc ∧ 0 < exH.xc ∧ 0 < exH.yc ∧ 0 < exH.ht ∧ ¬ OnRim exH 1 1 1 ∧ ¬ OnRim exH 2 2 1 ∧
    (∀ t x y, t < exH.tc → x < exH.xc → y < exH.yc → ¬ OnRim exH t x y → 0 < exH.k (t * exH.ht) (x * exH.hx) (y * exH.hy)) := by
  refine ⟨by decide, by decide, by decide, by decide +kernel, by decide, by decide, fun t x y _ _ _ _ => ?_⟩
  show (0 : ℚ) < 1 + t * (1 / 2) + x * (1 / 3)
  positivity

/-- row 17 (time level 1, point (1,1)) and its right-hand side; row 5 (initial value 1/9) -/
example : (system (M := Dense ℚ) exH).toOption.map (fun s => ((s.1.rowEntries 17).toOption.map (·.filterMap fun e =>
      if e.2.2 = 0 then none else some e.2), s.2[17]?, s.2[5]?)) =
    some (some [(5, -2), (13, -22 / 3), (16, -33 / 2), (17, 149 / 3), (18, -33 / 2), (21, -22 / 3)], some 0, some (1 / 9)) := by
  decide +kernel
end NS.Props.Heat

/-
Property theorem C71: the finite difference example `examples/poisson/fdm.cpp` (Dirichlet boundary).
-/
import Verif.Fdm

set_option linter.unusedSectionVars false
set_option linter.unusedSimpArgs false

namespace NS.Props.Fdm
open NS NS.Fdm NS.Grid NS.MatOps NS.LawfulStore NS.LawfulMat NS.Props.LU NS.Props.Iter NS.Iterative Matrix

section assemble
variable {M T : Type} [Zero T] [One T] [Add T] [Mul T] [Div T] [Neg T] [NatCast T] [OfNat T 2] [MatOps M T] [LawfulStore M T] {p : Poisson T}

/-- grid points on the boundary of the rectangle -/
def OnRim (p : Poisson T) (x y : Nat) : Prop := x = 0 ∨ y = 0 ∨ x = p.xc - 1 ∨ y = p.yc - 1

instance (p : Poisson T) (x y : Nat) : Decidable (OnRim p x y) := by unfold OnRim; infer_instance

/-- the value at a grid point of a vector of unknowns -/
def val2 (p : Poisson T) (u : Fin (p.xc * p.yc) → T) (x y : Nat) : T := ev u (y * p.xc + x)

/-- entries of the row of `(x, y)` -/
def entries (p : Poisson T) (r : Nat) : List (Nat × T) :=
  if OnRim p (r % p.xc) (r / p.xc) then [(r, 1)]
  else [(r - 1, p.r2), (r, p.c), (r + 1, p.r2), (r - p.xc, 1), (r + p.xc, 1)]

def rhs (p : Poisson T) (r : Nat) : T :=
  if OnRim p (r % p.xc) (r / p.xc) then p.b ((r % p.xc : Nat) * p.h) ((r / p.xc : Nat) * p.k)
  else p.k * p.k * p.f ((r % p.xc : Nat) * p.h) ((r / p.xc : Nat) * p.k)

def row (p : Poisson T) (r c : Nat) : T := rowVal (entries p r) c 0

theorem lin_mod {x y : Nat} (hx : x < p.xc) : p.lin x y % p.xc = x := by
  unfold Poisson.lin; rw [mul_comm, Nat.mul_add_mod, Nat.mod_eq_of_lt hx]
theorem lin_div {x y : Nat} (hx : x < p.xc) : p.lin x y / p.xc = y := by
  unfold Poisson.lin
  rw [mul_comm, Nat.mul_add_div (by omega), Nat.div_eq_of_lt hx, add_zero]
theorem lin_lt {x y : Nat} (hx : x < p.xc) (hy : y < p.yc) : p.lin x y < p.xc * p.yc := by
  unfold Poisson.lin
  calc y * p.xc + x < y * p.xc + p.xc := by omega
    _ = (y + 1) * p.xc := by ring
    _ ≤ p.yc * p.xc := Nat.mul_le_mul_right _ hy
    _ = _ := mul_comm _ _
theorem lin_of (r : Nat) (_h : r < p.xc * p.yc) : p.lin (r % p.xc) (r / p.xc) = r := by
  unfold Poisson.lin; rw [mul_comm]; exact Nat.div_add_mod r p.xc
theorem div_lt {r : Nat} (h : r < p.xc * p.yc) : r / p.xc < p.yc := Nat.div_lt_of_lt_mul h
theorem mod_lt {r : Nat} (h : r < p.xc * p.yc) : r % p.xc < p.xc := by
  refine Nat.mod_lt _ (Nat.pos_of_ne_zero fun h0 => ?_)
  rw [h0] at h; simp at h

theorem entries_rim {x y : Nat} (hx : x < p.xc) (h : OnRim p x y) : entries p (p.lin x y) = [(p.lin x y, 1)] := by
  unfold entries; rw [lin_mod hx, lin_div hx, if_pos h]
theorem entries_inner {x y : Nat} (hx : x < p.xc) (h : ¬ OnRim p x y) :
    entries p (p.lin x y) = [(p.lin x y - 1, p.r2), (p.lin x y, p.c), (p.lin x y + 1, p.r2), (p.lin x y - p.xc, 1), (p.lin x y + p.xc, 1)] := by
  unfold entries; rw [lin_mod hx, lin_div hx, if_neg h]
theorem rhs_lin {x y : Nat} (hx : x < p.xc) :
    rhs p (p.lin x y) = if OnRim p x y then p.b (x * p.h) (y * p.k) else p.k * p.k * p.f (x * p.h) (y * p.k) := by
  unfold rhs; rw [lin_mod hx, lin_div hx]

theorem inner_facts {x y : Nat} (hx : x < p.xc) (hy : y < p.yc) (h : ¬ OnRim p x y) :
    1 ≤ x ∧ x + 1 < p.xc ∧ 1 ≤ y ∧ y + 1 < p.yc ∧ p.lin (x - 1) y = p.lin x y - 1 ∧ p.lin (x + 1) y = p.lin x y + 1 ∧
      p.lin x (y - 1) = p.lin x y - p.xc ∧ p.lin x (y + 1) = p.lin x y + p.xc ∧ p.xc + 1 ≤ p.lin x y := by
  unfold OnRim at h
  push Not at h
  obtain ⟨h1, h2, h3, h4⟩ := h
  obtain ⟨y', rfl⟩ : ∃ y', y = y' + 1 := ⟨y - 1, by omega⟩
  have e : (y' + 1) * p.xc = y' * p.xc + p.xc := by ring
  have e' : (y' + 1 + 1) * p.xc = y' * p.xc + p.xc + p.xc := by ring
  unfold Poisson.lin
  rw [Nat.add_sub_cancel, e, e']
  generalize y' * p.xc = q
  omega

theorem entries_nodup {r : Nat} (hr : r < p.xc * p.yc) : ((entries p r).map (·.1)).Nodup := by
  have hx := mod_lt hr
  have hy := div_lt hr
  by_cases h : OnRim p (r % p.xc) (r / p.xc)
  · unfold entries; rw [if_pos h]; simp
  · have := inner_facts hx hy h
    rw [lin_of r hr] at this
    unfold entries; rw [if_neg h]
    simp only [List.map_cons, List.map_nil, List.nodup_cons, List.mem_cons, List.not_mem_nil, or_false, not_false_eq_true,
      List.nodup_nil, and_true]
    omega

theorem rimX_adds (h0 : ∀ a : T, ((0 : Nat) : T) * a = 0) {x : Nat} (hx : x < p.xc) (hy : 0 < p.yc) :
    Adds (p.xc * p.yc) (row p) (rhs p) (fun i => i = p.lin x 0 ∨ i = p.lin x (p.yc - 1)) (rimX (M := M) p x) := by
  have h1 : OnRim p x 0 := by unfold OnRim; simp
  have h2 : OnRim p x (p.yc - 1) := by unfold OnRim; simp
  refine adds_two (lin_lt hx hy) (lin_lt hx (by omega)) (fun j _ => ?_) (fun j _ => ?_) ?_ ?_
  · unfold row; rw [entries_rim hx h1]; rfl
  · unfold row; rw [entries_rim hx h2]; rfl
  · rw [rhs_lin hx, if_pos h1, h0]
  · rw [rhs_lin hx, if_pos h2]

theorem rimY_adds (h0 : ∀ a : T, ((0 : Nat) : T) * a = 0) {y : Nat} (hy : y < p.yc) (hx : 0 < p.xc) :
    Adds (p.xc * p.yc) (row p) (rhs p) (fun i => i = p.lin 0 y ∨ i = p.lin (p.xc - 1) y) (rimY (M := M) p y) := by
  have h1 : OnRim p 0 y := by unfold OnRim; simp
  have h2 : OnRim p (p.xc - 1) y := by unfold OnRim; simp
  refine adds_two (lin_lt hx hy) (lin_lt (by omega) hy) (fun j _ => ?_) (fun j _ => ?_) ?_ ?_
  · unfold row; rw [entries_rim hx h1]; rfl
  · unfold row; rw [entries_rim (by omega) h2]; rfl
  · rw [rhs_lin hx, if_pos h1, h0]
  · rw [rhs_lin (by omega), if_pos h2]

theorem inner_adds {x y : Nat} (hx1 : 1 ≤ x) (hx2 : x < p.xc - 1) (hy1 : 1 ≤ y) (hy2 : y < p.yc - 1) :
    Adds (p.xc * p.yc) (row p) (rhs p) (fun i => i = p.lin x y) (inner (M := M) p x y) := by
  have hx : x < p.xc := by omega
  have hy : y < p.yc := by omega
  have h : ¬ OnRim p x y := by unfold OnRim; omega
  obtain ⟨-, -, -, -, e1, e2, e3, e4, -⟩ := inner_facts hx hy h
  have := adds_row (M := M) (row := row p) (rhs := rhs p) (lin_lt hx hy) (l := entries p (p.lin x y)) (x := p.k * p.k * p.f (x * p.h) (y * p.k))
    (by
      rw [entries_inner hx h, ← e1, ← e2, ← e3, ← e4]
      intro e he
      simp only [List.mem_cons, List.not_mem_nil, or_false] at he
      rcases he with rfl | rfl | rfl | rfl | rfl
      · exact lin_lt (by omega) hy
      · exact lin_lt hx hy
      · exact lin_lt (by omega) hy
      · exact lin_lt hx (by omega)
      · exact lin_lt hx (by omega))
    (fun j _ y' => rowVal_cases _ _ _) (by rw [rhs_lin hx, if_neg h])
  rw [entries_inner hx h, ← e1, ← e2, ← e3, ← e4] at this
  intro S st hS
  obtain ⟨st', q1, q2⟩ := this S st hS
  refine ⟨st', ?_, q2⟩
  rw [← q1]
  unfold inner
  simp only [putRow, bind_assoc, pure_eq_ok, ok_bind]

/-- the assembled system, for any arithmetic in which 0 times a number is 0 -/
theorem system_all (h0' : ∀ a : T, ((0 : Nat) : T) * a = 0) (hx : 0 < p.xc) (hy : 0 < p.yc) : ∃ st : M × List T, system p = .ok st ∧
    ∃ S, Upto (p.xc * p.yc) (row p) (rhs p) S st ∧ ∀ r, r < p.xc * p.yc → S r := by
  obtain ⟨a, e0, h0⟩ := upto_start (M := M) (row := row p) (rhs := rhs p) (Nat.mul_pos hx hy)
  obtain ⟨st1, e1, h1⟩ := Adds.loop (a := 0) (b := p.xc) (f := rimX (M := M) p) (fun x _ hx' => rimX_adds h0' hx' hy) _ _ h0
  obtain ⟨st2, e2, h2⟩ := Adds.loop (a := 0) (b := p.yc) (f := rimY (M := M) p) (fun y _ hy' => rimY_adds h0' hy' hx) _ _ h1
  obtain ⟨st3, e3, h3⟩ := Adds.loop (a := 1) (b := p.yc - 1) (f := fun y st => forRange 1 (p.xc - 1) st fun x st => inner (M := M) p x y st)
    (fun y hy1 hy2 => Adds.loop (fun x hx1 hx2 => inner_adds hx1 hx2 hy1 hy2)) _ _ h2
  refine ⟨st3, ?_, _, h3, ?_⟩
  · unfold system
    rw [e0, ok_bind]
    have e1' : forRange 0 p.xc (a, Vec.resize [] (p.xc * p.yc)) (rimX p) = .ok st1 := e1
    have e2' : forRange 0 p.yc st1 (rimY p) = .ok st2 := e2
    simp only [e1', ok_bind, e2']
    exact e3
  · intro r hr
    have hx' := mod_lt hr
    have hy' := div_lt hr
    have e := lin_of r hr
    by_cases hrim : OnRim p (r % p.xc) (r / p.xc)
    · rcases hrim with h | h | h | h
      · exact .inl (.inr ⟨r / p.xc, Nat.zero_le _, hy', .inl (by rw [← h, e])⟩)
      · exact .inl (.inl (.inr ⟨r % p.xc, Nat.zero_le _, hx', .inl (by rw [← h, e])⟩))
      · exact .inl (.inr ⟨r / p.xc, Nat.zero_le _, hy', .inr (by rw [← h, e])⟩)
      · exact .inl (.inl (.inr ⟨r % p.xc, Nat.zero_le _, hx', .inr (by rw [← h, e])⟩))
    · have := inner_facts hx' hy' hrim
      exact .inr ⟨r / p.xc, by omega, by omega, r % p.xc, by omega, by omega, e.symm⟩

end assemble

section field
variable {M T : Type} [Field T] [DecidableEq T] [MatOps M T] [LawfulMat M T] {p : Poisson T}

theorem system_upto (hx : 0 < p.xc) (hy : 0 < p.yc) : ∃ st : M × List T, system p = .ok st ∧
    IsMat st.1 (p.xc * p.yc) (fun i j => row p i j) ∧ IsVec st.2 (p.xc * p.yc) (fun i => rhs p i) := by
  obtain ⟨st, e, S, h1, h2⟩ := system_all (M := M) (p := p) (fun a => by simp) hx hy
  exact ⟨st, e, h1.final h2⟩

theorem mulVec_row (u : Fin (p.xc * p.yc) → T) {x y : Nat} (hx : x < p.xc) (hy : y < p.yc) :
    ((fun i j => row p i j : Matrix (Fin (p.xc * p.yc)) (Fin (p.xc * p.yc)) T) *ᵥ u) ⟨p.lin x y, lin_lt hx hy⟩ =
      if OnRim p x y then val2 p u x y
      else p.r2 * (val2 p u (x - 1) y + val2 p u (x + 1) y) + (val2 p u x (y - 1) + val2 p u x (y + 1)) - 2 * (1 + p.r2) * val2 p u x y := by
  have e : ((fun i j => row p i j : Matrix (Fin (p.xc * p.yc)) (Fin (p.xc * p.yc)) T) *ᵥ u) ⟨p.lin x y, lin_lt hx hy⟩ =
      ∑ c : Fin (p.xc * p.yc), rowVal (entries p (p.lin x y)) c 0 * u c := rfl
  rw [e, rowVal_sum u (entries_nodup (lin_lt hx hy))]
  unfold val2
  by_cases h : OnRim p x y
  · rw [if_pos h, entries_rim hx h]
    simp [Poisson.lin]
  · obtain ⟨-, -, -, -, e1, e2, e3, e4, -⟩ := inner_facts hx hy h
    rw [if_neg h, entries_inner hx h, ← e1, ← e2, ← e3, ← e4]
    simp only [List.map_cons, List.map_nil, List.sum_cons, List.sum_nil, Poisson.c, Poisson.lin]
    ring

/-- C71: for every grid (at least one point), mesh widths and functions, assembling succeeds; the row of a boundary point is the
identity with the boundary value on the right, the row of an interior point is the five-point formula times `K²`, with `K² f` on the
right. -/
theorem C71_fdm_system (hx : 0 < p.xc) (hy : 0 < p.yc) : ∃ (a : M) (b : List T) (A : Matrix (Fin (p.xc * p.yc)) (Fin (p.xc * p.yc)) T)
    (B : Fin (p.xc * p.yc) → T), system p = .ok (a, b) ∧ IsMat a (p.xc * p.yc) A ∧ IsVec b (p.xc * p.yc) B ∧
    ∀ x y (hx : x < p.xc) (hy : y < p.yc),
      (∀ u, (A *ᵥ u) ⟨p.lin x y, lin_lt hx hy⟩ = if OnRim p x y then val2 p u x y
        else p.k ^ 2 / p.h ^ 2 * (val2 p u (x - 1) y + val2 p u (x + 1) y - 2 * val2 p u x y) +
          (val2 p u x (y - 1) + val2 p u x (y + 1) - 2 * val2 p u x y)) ∧
      B ⟨p.lin x y, lin_lt hx hy⟩ = if OnRim p x y then p.b (x * p.h) (y * p.k) else p.k ^ 2 * p.f (x * p.h) (y * p.k) := by
  obtain ⟨⟨a, b⟩, e, h1, h2⟩ := system_upto (M := M) (p := p) hx hy
  refine ⟨a, b, _, _, e, h1, h2, fun x y hx hy => ⟨fun u => ?_, ?_⟩⟩
  · rw [mulVec_row u hx hy, Poisson.r2]
    congr 1
    ring
  · show rhs p (p.lin x y) = _
    rw [rhs_lin hx, pow_two]
end field

section ordered
variable {M T : Type} [Field T] [LinearOrder T] [IsStrictOrderedRing T] [MatOps M T] [LawfulMat M T] {p : Poisson T}

/-- the discrete Poisson problem with Dirichlet boundary values on the grid: the five-point formula -/
def Solves (p : Poisson T) (u : Fin (p.xc * p.yc) → T) : Prop := ∀ x y, x < p.xc → y < p.yc →
  (OnRim p x y → val2 p u x y = p.b (x * p.h) (y * p.k)) ∧
  (¬ OnRim p x y → (val2 p u (x - 1) y + val2 p u (x + 1) y - 2 * val2 p u x y) / p.h ^ 2 +
    (val2 p u x (y - 1) + val2 p u x (y + 1) - 2 * val2 p u x y) / p.k ^ 2 = p.f (x * p.h) (y * p.k))

/-- the assembled matrix -/
def mat (p : Poisson T) : Matrix (Fin (p.xc * p.yc)) (Fin (p.xc * p.yc)) T := fun i j => row p i j

theorem solves_iff (hh : p.h ≠ 0) (hk : p.k ≠ 0) (u : Fin (p.xc * p.yc) → T) :
    mat p *ᵥ u = (fun i : Fin (p.xc * p.yc) => rhs p i) ↔ Solves p u := by
  have hh2 : p.h ^ 2 ≠ 0 := pow_ne_zero 2 hh
  have hk2 : p.k ^ 2 ≠ 0 := pow_ne_zero 2 hk
  have key : ∀ x y (hx : x < p.xc) (hy : y < p.yc), (mat p *ᵥ u) ⟨p.lin x y, lin_lt hx hy⟩ = rhs p (p.lin x y) ↔
      (OnRim p x y → val2 p u x y = p.b (x * p.h) (y * p.k)) ∧
      (¬ OnRim p x y → (val2 p u (x - 1) y + val2 p u (x + 1) y - 2 * val2 p u x y) / p.h ^ 2 +
        (val2 p u x (y - 1) + val2 p u x (y + 1) - 2 * val2 p u x y) / p.k ^ 2 = p.f (x * p.h) (y * p.k)) := by
    intro x y hx hy
    have e : (mat p *ᵥ u) ⟨p.lin x y, lin_lt hx hy⟩ = _ := mulVec_row u hx hy
    rw [e, rhs_lin hx]
    by_cases h : OnRim p x y
    · simp [h]
    · simp only [h, if_false, not_false_eq_true, true_imp_iff, false_imp_iff, true_and]
      rw [Poisson.r2, div_add_div _ _ hh2 hk2, div_eq_iff (mul_ne_zero hh2 hk2)]
      generalize p.f _ _ = F
      constructor
      · intro h1
        have h2 : _ * p.h ^ 2 = _ * p.h ^ 2 := congrArg (· * p.h ^ 2) h1
        field_simp at h2
        linear_combination h2
      · intro h1
        have : ∀ a b : T, a * p.h ^ 2 = b * p.h ^ 2 → a = b := fun a b hab => mul_right_cancel₀ hh2 hab
        apply this
        field_simp
        linear_combination h1
  constructor
  · intro h x y hx hy
    exact (key x y hx hy).1 (congrFun h ⟨p.lin x y, lin_lt hx hy⟩)
  · intro h
    funext r
    have hx := mod_lt r.2
    have hy := div_lt r.2
    have := (key _ _ hx hy).2 (h _ _ hx hy)
    have e : (⟨p.lin (r % p.xc) (r / p.xc), lin_lt hx hy⟩ : Fin (p.xc * p.yc)) = r := Fin.ext (lin_of _ r.2)
    rw [e, lin_of _ r.2] at this
    exact this

theorem r2_pos (hh : p.h ≠ 0) (hk : p.k ≠ 0) : 0 < p.r2 := by
  unfold Poisson.r2
  exact div_pos (mul_self_pos.2 hk) (mul_self_pos.2 hh)

/-- index form of "on the boundary" -/
def rimIx (p : Poisson T) (r : Fin (p.xc * p.yc)) : Prop := OnRim p ((r : Nat) % p.xc) ((r : Nat) / p.xc)

instance (p : Poisson T) (r : Fin (p.xc * p.yc)) : Decidable (rimIx p r) := by unfold rimIx; infer_instance

theorem mat_rim {r : Fin (p.xc * p.yc)} (h : rimIx p r) (c : Fin (p.xc * p.yc)) : mat p r c = if c = r then 1 else 0 := by
  unfold mat row entries
  rw [if_pos (c := OnRim p ((r : Nat) % p.xc) ((r : Nat) / p.xc)) h]
  by_cases hc : c = r
  · subst hc; simp [rowVal]
  · have : ¬ (c : Nat) = r := fun h => hc (Fin.ext h)
    simp [rowVal, hc, this]

theorem inner_ix {r : Fin (p.xc * p.yc)} (h : ¬ rimIx p r) : 1 ≤ (r : Nat) % p.xc ∧ (r : Nat) % p.xc + 1 < p.xc ∧
    p.xc + 1 ≤ (r : Nat) ∧ (r : Nat) + p.xc < p.xc * p.yc := by
  have hx := mod_lt r.2
  have hy := div_lt r.2
  obtain ⟨h1, h2, h3, h4, -, -, -, e4, h5⟩ := inner_facts hx hy h
  rw [lin_of _ r.2] at h5 e4
  have := lin_lt (p := p) (x := (r : Nat) % p.xc) (y := (r : Nat) / p.xc + 1) hx h4
  omega

theorem mat_inner {r : Fin (p.xc * p.yc)} (h : ¬ rimIx p r) (c : Fin (p.xc * p.yc)) : mat p r c =
    if (c : Nat) = r then p.c else if (c : Nat) + 1 = r ∨ (c : Nat) = r + 1 then p.r2
    else if (c : Nat) + p.xc = r ∨ (c : Nat) = r + p.xc then 1 else 0 := by
  obtain ⟨h1, h2, h3, -⟩ := inner_ix h
  unfold mat row entries
  rw [if_neg (c := OnRim p ((r : Nat) % p.xc) ((r : Nat) / p.xc)) h]
  simp only [rowVal]
  split_ifs <;> first | rfl | omega

theorem mat_sum {r : Fin (p.xc * p.yc)} (h : ¬ rimIx p r) (u : Fin (p.xc * p.yc) → T) :
    (mat p *ᵥ u) r = p.r2 * ev u (r - 1) + (p.c * u r + (p.r2 * ev u (r + 1) + (ev u (r - p.xc) + ev u (r + p.xc)))) := by
  have e : (mat p *ᵥ u) r = ∑ c : Fin (p.xc * p.yc), rowVal (entries p r) c 0 * u c := rfl
  rw [e, rowVal_sum u (entries_nodup r.2)]
  unfold entries
  rw [if_neg (c := OnRim p ((r : Nat) % p.xc) ((r : Nat) / p.xc)) h]
  simp only [List.map_cons, List.map_nil, List.sum_cons, List.sum_nil, ev_fin]
  ring

/-- the left neighbour -/
def left (r : Fin (p.xc * p.yc)) : Fin (p.xc * p.yc) := ⟨r - 1, by omega⟩

theorem left_mod {r : Fin (p.xc * p.yc)} (h : ¬ rimIx p r) : (left r : Nat) % p.xc < (r : Nat) % p.xc := by
  obtain ⟨h1, h2, h3, -⟩ := inner_ix h
  have e := Nat.div_add_mod (r : Nat) p.xc
  have : (left r : Nat) = p.xc * ((r : Nat) / p.xc) + ((r : Nat) % p.xc - 1) := by unfold left; simp only; omega
  rw [this, Nat.mul_add_mod, Nat.mod_eq_of_lt (by omega)]
  omega

theorem neg_mat_row (hh : p.h ≠ 0) (hk : p.k ≠ 0) (r : Fin (p.xc * p.yc)) (h : ¬ rimIx p r) :
    (∀ c, c ≠ r → (-mat p) r c ≤ 0) ∧ (∑ c, (-mat p) r c) = 0 ∧
      ∃ c : Fin (p.xc * p.yc), (c : Nat) % p.xc < (r : Nat) % p.xc ∧ (-mat p) r c < 0 := by
  have hr2 := r2_pos hh hk
  refine ⟨fun c hc => ?_, ?_, left r, left_mod h, ?_⟩
  · rw [Matrix.neg_apply, mat_inner h, if_neg (fun h => hc (Fin.ext h))]
    split_ifs <;> simp [hr2.le]
  · have e := mat_sum h (fun _ => (1 : T))
    have e2 : (mat p *ᵥ fun _ => (1 : T)) r = ∑ c, mat p r c := by
      unfold Matrix.mulVec dotProduct; simp
    obtain ⟨h1, h2, h3, h4⟩ := inner_ix h
    have hev : ∀ i, i < p.xc * p.yc → ev (fun _ : Fin (p.xc * p.yc) => (1 : T)) i = 1 := fun i hi => by simp [ev, hi]
    rw [hev _ (by omega), hev _ (by omega), hev _ (by omega), hev _ h4] at e
    simp only [Matrix.neg_apply, Finset.sum_neg_distrib]
    rw [← e2, e, Poisson.c]
    ring
  · obtain ⟨h1, h2, h3, -⟩ := inner_ix h
    rw [Matrix.neg_apply, mat_inner h]
    have : ((left r : Fin _) : Nat) + 1 = r := by unfold left; simp only; omega
    rw [if_neg (by omega), if_pos (.inl this)]
    linarith

/-- C71: discrete maximum principle: if the source is not negative at the interior points, no value exceeds a bound of the boundary
values. -/
theorem C71_maximum (hh : p.h ≠ 0) (hk : p.k ≠ 0) {u : Fin (p.xc * p.yc) → T} (hu : Solves p u) {m : T}
    (hf : ∀ x y, x < p.xc → y < p.yc → ¬ OnRim p x y → 0 ≤ p.f (x * p.h) (y * p.k))
    (hb : ∀ x y, x < p.xc → y < p.yc → OnRim p x y → p.b (x * p.h) (y * p.k) ≤ m) {x y : Nat} (hx : x < p.xc) (hy : y < p.yc) :
    val2 p u x y ≤ m := by
  have hs := (solves_iff hh hk u).2 hu
  have := max_principle (L := -mat p) (rim := rimIx p) (fun r => (r : Nat) % p.xc) (u := u) (m := m) (neg_mat_row hh hk)
    (fun r hr => by
      rw [Matrix.neg_mulVec, Pi.neg_apply, hs]
      show -(rhs p r) ≤ 0
      unfold rhs
      rw [if_neg (c := OnRim p ((r : Nat) % p.xc) ((r : Nat) / p.xc)) hr]
      have h1 := hf _ _ (mod_lt r.2) (div_lt r.2) hr
      have h2 := mul_nonneg (mul_self_nonneg p.k) h1
      linarith)
    (fun r hr => by
      have h1 := (hu _ _ (mod_lt r.2) (div_lt r.2)).1 hr
      have h2 := hb _ _ (mod_lt r.2) (div_lt r.2) hr
      unfold val2 at h1
      have h3 : ev u (p.lin ((r : Nat) % p.xc) ((r : Nat) / p.xc)) = _ := h1
      rw [lin_of _ r.2, ev_fin] at h3
      rw [h3]; exact h2)
    ⟨p.lin x y, lin_lt hx hy⟩
  unfold val2
  rw [← ev_fin u] at this
  exact this

/-- the same problem with all data negated -/
def negP (p : Poisson T) : Poisson T := { p with f := fun x y => -p.f x y, b := fun x y => -p.b x y }

theorem val2_neg (u : Fin (p.xc * p.yc) → T) (x y : Nat) :
    val2 (negP p) (fun i => -u i : Fin (p.xc * p.yc) → T) x y = -val2 p u x y := by
  unfold val2 ev
  show (if h : y * p.xc + x < p.xc * p.yc then -u ⟨_, h⟩ else 0) = _
  split <;> simp

theorem solves_neg {u : Fin (p.xc * p.yc) → T} (hu : Solves p u) : Solves (negP p) (fun i => -u i : Fin (p.xc * p.yc) → T) := by
  intro x y hx hy
  obtain ⟨h1, h2⟩ := hu x y hx hy
  simp only [val2_neg]
  refine ⟨fun h => congrArg Neg.neg (h1 h), fun h => ?_⟩
  refine Eq.trans ?_ (congrArg Neg.neg (h2 h))
  show (-val2 p u (x - 1) y + -val2 p u (x + 1) y - 2 * -val2 p u x y) / p.h ^ 2 +
    (-val2 p u x (y - 1) + -val2 p u x (y + 1) - 2 * -val2 p u x y) / p.k ^ 2 = _
  ring

/-- C71: discrete minimum principle. -/
theorem C71_minimum (hh : p.h ≠ 0) (hk : p.k ≠ 0) {u : Fin (p.xc * p.yc) → T} (hu : Solves p u) {m : T}
    (hf : ∀ x y, x < p.xc → y < p.yc → ¬ OnRim p x y → p.f (x * p.h) (y * p.k) ≤ 0)
    (hb : ∀ x y, x < p.xc → y < p.yc → OnRim p x y → m ≤ p.b (x * p.h) (y * p.k)) {x y : Nat} (hx : x < p.xc) (hy : y < p.yc) :
    m ≤ val2 p u x y := by
  have := C71_maximum (p := negP p) (m := -m) hh hk (solves_neg hu) (fun x y hx hy h => neg_nonneg.2 (hf x y hx hy h))
    (fun x y hx hy h => neg_le_neg (hb x y hx hy h)) hx hy
  rw [val2_neg] at this
  linarith

theorem levels (hh : p.h ≠ 0) (hk : p.k ≠ 0) :
    Levels (mat p) (fun r => if rimIx p r then 0 else 1) (fun r => if rimIx p r then 1 else -1) := by
  have hr2 := r2_pos hh hk
  refine ⟨fun i j hij => ?_, fun l => ?_⟩
  · by_cases hi : rimIx p i
    · rw [mat_rim hi, if_neg]
      rintro rfl
      simp [hi] at hij
    · by_cases hj : rimIx p j
      · simp [hi, hj] at hij
      · simp [hi, hj] at hij
  set B := block (mat p) (fun r => if rimIx p r then 0 else 1) (fun r => if rimIx p r then (1 : T) else -1) l with hB
  by_cases hl : l = 1
  · have hval : ∀ i j, B i j = if ¬ rimIx p i ∧ ¬ rimIx p j then -mat p i j else if i = j then 1 else 0 := by
      intro i j
      rw [hB, hl]; unfold block
      by_cases hi : rimIx p i <;> by_cases hj : rimIx p j <;> simp [hi, hj]
    have hoff : ∀ i j, i ≠ j → B i j ≤ 0 := by
      intro i j hij
      rw [hval]
      split
      · next h => exact (neg_mat_row hh hk i h.1).1 j (Ne.symm hij)
      · simp [hij]
    have hsum : ∀ i, ¬ rimIx p i → (∑ j, B i j) = ∑ j, if rimIx p j then mat p i j else 0 := by
      intro i hi
      have h0 := (neg_mat_row hh hk i hi).2.1
      have : (∑ j, B i j) = (∑ j, (-mat p) i j) + ∑ j, if rimIx p j then mat p i j else 0 := by
        rw [← Finset.sum_add_distrib]
        refine Finset.sum_congr rfl fun j _ => ?_
        rw [hval]
        by_cases hj : rimIx p j
        · have : i ≠ j := fun h => hi (h ▸ hj)
          simp [hi, hj, this]
        · simp [hi, hj]
      rw [this, h0, zero_add]
    have hrimsum : ∀ i, rimIx p i → (∑ j, B i j) = 1 := by
      intro i hi
      simp [hval, hi]
    have hnn : ∀ i, ¬ rimIx p i → ∀ j, 0 ≤ if rimIx p j then mat p i j else 0 := by
      intro i hi j
      split
      · next hj =>
        have := (neg_mat_row hh hk i hi).1 j (fun h => hi (h ▸ hj))
        rw [Matrix.neg_apply] at this
        linarith
      · exact le_refl _
    refine spd_of_zmatrix (fun r => (r : Nat) % p.xc) ?_ hoff (fun i => ?_) (fun i => ?_)
    · funext i j
      rw [Matrix.transpose_apply, hval, hval]
      by_cases hi : rimIx p i <;> by_cases hj : rimIx p j
      · simp [hi, hj, eq_comm]
      · simp [hi, hj, eq_comm]
      · simp [hi, hj, eq_comm]
      · simp only [hi, hj, not_false_eq_true, and_self, if_true, mat_inner hi, mat_inner hj]
        congr 1
        split_ifs <;> first | rfl | omega
    · by_cases hi : rimIx p i
      · rw [hrimsum i hi]; exact zero_le_one
      · rw [hsum i hi]; exact Finset.sum_nonneg fun j _ => hnn i hi j
    · by_cases hi : rimIx p i
      · left; rw [hrimsum i hi]; exact one_pos
      · obtain ⟨c, h1, h2⟩ := (neg_mat_row hh hk i hi).2.2
        by_cases hc : rimIx p c
        · left
          rw [hsum i hi]
          refine Finset.sum_pos' (fun j _ => hnn i hi j) ⟨c, Finset.mem_univ c, ?_⟩
          rw [if_pos hc]
          rw [Matrix.neg_apply] at h2
          linarith
        · right
          refine ⟨c, h1, ?_⟩
          rw [hval, if_pos ⟨hi, hc⟩]
          exact h2
  · have : B = 1 := by
      funext i j
      rw [hB]; unfold block
      by_cases hi : rimIx p i
      · by_cases hj : rimIx p j
        · by_cases h0 : l = 0
          · subst h0
            simp only [hi, hj, if_true, and_self, mat_rim hi, one_mul, Matrix.one_apply]
            by_cases hij : j = i
            · simp [hij]
            · simp [hij, Ne.symm hij]
          · simp [hi, hj, Ne.symm h0, Matrix.one_apply]
        · simp [hi, hj, Ne.symm hl, Matrix.one_apply]
      · simp [hi, Ne.symm hl, Matrix.one_apply]
    rw [this]
    refine spd_of_zmatrix (fun _ => 0) Matrix.transpose_one (fun i j hij => by rw [Matrix.one_apply_ne hij]) (fun i => ?_) (fun i => .inl ?_)
    · simp [Matrix.one_apply]
    · simp [Matrix.one_apply]

/-- C71: for non-zero mesh widths the assembled system is the discrete Poisson problem and has exactly one solution. -/
theorem C71_fdm_poisson [Archimedean T] (hx : 0 < p.xc) (hy : 0 < p.yc) (hh : p.h ≠ 0) (hk : p.k ≠ 0) :
    ∃ (a : M) (b : List T) (A : Matrix (Fin (p.xc * p.yc)) (Fin (p.xc * p.yc)) T) (B : Fin (p.xc * p.yc) → T),
      system p = .ok (a, b) ∧ IsMat a (p.xc * p.yc) A ∧ IsVec b (p.xc * p.yc) B ∧ (∀ u, A *ᵥ u = B ↔ Solves p u) ∧ ∃! u, Solves p u := by
  obtain ⟨⟨a, b⟩, e, h1, h2⟩ := system_upto (M := M) (p := p) hx hy
  refine ⟨a, b, mat p, _, e, h1, h2, solves_iff hh hk, ?_⟩
  obtain ⟨z, hz, hu⟩ := levels_solvable (levels hh hk) (fun i : Fin (p.xc * p.yc) => rhs p i)
  exact ⟨z, (solves_iff hh hk z).1 hz, fun y hy => hu y ((solves_iff hh hk y).2 hy)⟩

/-- C71: the solver of the example (weight 1.2 there) stops by convergence for every tolerance once the iteration limit is large enough,
and its result is within a constant times the tolerance of the solution of the discrete problem; the constant depends on the grid and
the weight only. -/
theorem C71_fdm_solve [Archimedean T] (xc yc : Nat) (hx : 0 < xc) (hy : 0 < yc) {h k : T} (hh : h ≠ 0) (hk : k ≠ 0)
    {w : T} (hw0 : 0 < w) (hw2 : w < 2) :
    ∃ C : T, 0 ≤ C ∧ ∀ (f b : T → T → T) (eps : T), 0 < eps →
      ∃ N, ∀ maxIter, N < maxIter → ∃ x it, solve (M := M) (⟨xc, yc, h, k, f, b⟩ : Poisson T) w maxIter eps = .ok (fl x, it) ∧ it ≤ N ∧
        ∀ z, Solves ⟨xc, yc, h, k, f, b⟩ z → ∀ i, |x i - z i| ≤ C * eps := by
  obtain ⟨C, hC0, hC⟩ := C70_sor_levels (M := M) (levels (p := (⟨xc, yc, h, k, fun _ _ => 0, fun _ _ => 0⟩ : Poisson T)) hh hk) hw0 hw2
  refine ⟨C, hC0, fun f b eps he => ?_⟩
  obtain ⟨⟨a, b'⟩, e, h1, h2⟩ := system_upto (M := M) (p := (⟨xc, yc, h, k, f, b⟩ : Poisson T)) hx hy
  obtain ⟨N, hN⟩ := hC a (fun i => rhs (⟨xc, yc, h, k, f, b⟩ : Poisson T) i) 0 eps h1 he
  refine ⟨N, fun maxIter hm => ?_⟩
  obtain ⟨x, it, f1, f2, f3⟩ := hN maxIter hm
  refine ⟨x, it, ?_, f2, fun z hz => f3 (.inr (.inr rfl)) z ((solves_iff (p := (⟨xc, yc, h, k, f, b⟩ : Poisson T)) hh hk z).2 hz)⟩
  unfold solve
  have e3 : (Vec.resize [] (xc * yc) : List T).map Fl.fin = fl (0 : Fin (xc * yc) → T) := by
    unfold fl Vec.resize
    apply List.ext_getElem (by simp)
    intro i _ _
    simp
  rw [e, ok_bind, fl_of_isVec h2]
  show sor a _ ((Vec.resize [] (xc * yc) : List T).map Fl.fin) w maxIter eps = _
  rw [e3]
  exact f1
end ordered

/-- a concrete problem: 4 x 3 points, widths 1/3 and 1/2, source 1, boundary value x + y -/
def exP : Poisson ℚ := ⟨4, 3, 1 / 3, 1 / 2, fun _ _ => 1, fun x y => x + y⟩

/-- it has two interior points, and meets the hypotheses above -/
example : 0 < exP.xc ∧ 0 < exP.yc ∧ exP.h ≠ 0 ∧ exP.k ≠ 0 ∧ ¬ OnRim exP 1 1 ∧ ¬ OnRim exP 2 1 ∧
    (∀ x y, x < exP.xc → y < exP.yc → ¬ OnRim exP x y → 0 ≤ exP.f (x * exP.h) (y * exP.k)) :=
  ⟨by decide, by decide, by decide +kernel, by decide +kernel, by decide, by decide, fun _ _ _ _ _ => show (0 : ℚ) ≤ 1 by decide +kernel⟩

/-- row of the first interior point, and its right-hand side -/
example : (system (M := Dense ℚ) exP).toOption.map (fun s => ((s.1.rowEntries 5).toOption.map (·.map (·.2.2)), s.2[5]?)) =
    some (some [0, 1, 0, 0, 9 / 4, -13 / 2, 9 / 4, 0, 0, 1, 0, 0], some (1 / 4)) := by decide +kernel
end NS.Props.Fdm

/-
Property theorems C90: probing matrices (`has`, `max`, `min`, comparing iterators, default constructed objects).
-/
import Verif.Props.Dense
import Verif.Props.VecMore
import Verif.Props.Simplex

set_option linter.unusedSectionVars false

namespace NS.Props.Dense
open NS NS.Dense

section
variable {T : Type} [CommRing T] [DecidableEq T]

/-- **C90** (`has`): both forms of `has` tell whether the entry is different from zero, the second also returns the entry. -/
theorem C90_has {a : Dense T} {r c : Nat} {A : Nat → Nat → T} (hA : Shows a r c A) {i j : Nat} (hi : i < r) (hj : j < c) :
    a.has i j = .ok (decide (A i j ≠ 0)) ∧ a.hasVal i j = .ok (decide (A i j ≠ 0), A i j) := by
  unfold has hasVal
  rw [hA.2.2 i j hi hj]
  exact ⟨rfl, rfl⟩

/-- **C90** (default matrix): it has no rows, columns and entries; iterating yields nothing, and every access aborts. -/
theorem C90_default : (default : Dense T).rows = 0 ∧ (default : Dense T).columns = 0 ∧ (default : Dense T).size = 0 ∧ (default : Dense T).isEmpty = true ∧
    (default : Dense T).entries = .ok [] ∧ (∀ i j, (default : Dense T).at' i j = .error .abort) ∧
    (∀ k, (default : Dense T).linearAt k = .error .abort) ∧ ∀ i j v, (default : Dense T).set i j v = .error .abort := by
  refine ⟨rfl, rfl, rfl, rfl, rfl, fun i j => ?_, fun k => ?_, fun i j v => ?_⟩ <;> rfl

/-- an iterator of `a` at position `(i, j)` points to an entry -/
def Inside (a : Dense T) (it : DIt) : Prop := it.i1 < a.rows ∧ it.i2 < a.columns

/-- **C90** (comparing iterators): two iterators that point to entries are equal exactly if they point to the same entry; iterators that
point to no entry are all equal to `end()` and to each other, and to no iterator that points to an entry. -/
theorem C90_iterator_eq (a : Dense T) (p q : DIt) :
    (Inside a p → Inside a q → (a.itEq p q = true ↔ p = q)) ∧
    (¬ Inside a p → ¬ Inside a q → a.itEq p q = true) ∧
    (Inside a p → ¬ Inside a q → a.itEq p q = false ∧ a.itEq q p = false) ∧
    (a.itEq p a.itEnd = true ↔ ¬ Inside a p) := by
  obtain ⟨p1, p2⟩ := p
  obtain ⟨q1, q2⟩ := q
  unfold Inside itEq itValid itEnd
  refine ⟨fun hp hq => ?_, fun hp hq => ?_, fun hp hq => ⟨?_, ?_⟩, ?_⟩
  · simp [hp.1, hp.2, hq.1, hq.2]
  · simp only at hp hq
    simp only [Bool.or_eq_true, Bool.and_eq_true, Bool.not_eq_true', Bool.and_eq_false_iff, decide_eq_false_iff_not]
    left
    constructor <;> tauto
  · simp only at hp hq
    simp only [hp.1, hp.2, decide_true, Bool.and_self, Bool.not_true, Bool.false_and, Bool.false_or, Bool.and_eq_false_iff, beq_eq_false_iff_ne]
    by_contra h
    push Not at h
    exact hq (by rw [← h.1, ← h.2]; exact hp)
  · simp only at hp hq
    simp only [hp.1, hp.2, decide_true, Bool.and_self, Bool.not_true, Bool.and_false, Bool.false_or, Bool.and_eq_false_iff, beq_eq_false_iff_ne]
    by_contra h
    push Not at h
    exact hq (by rw [h.1, h.2]; exact hp)
  · simp only [lt_irrefl, decide_false, Bool.and_false, Bool.not_false, Bool.and_true, Bool.or_eq_true, Bool.not_eq_true', Bool.and_eq_true,
      Bool.and_eq_false_iff, decide_eq_false_iff_not, beq_iff_eq]
    omega
end

section
variable {T : Type} [CommRing T] [LinearOrder T]

/-- **C90** (`max`, `min`): `min()` is the smallest entry if no entry exceeds `numeric_limits<T>::max()`; `max()` is the largest entry if
the start value `numeric_limits<T>::min()` is at most some entry. -/
theorem C90_extrema_partial {a : Dense T} (ha : Reach a) {r c : Nat} {A : Nat → Nat → T} (hA : Shows a r c A) (lo hi : T)
    (hlo : ∃ i j, i < r ∧ j < c ∧ lo ≤ A i j) (hhi : ∀ i j, i < r → j < c → A i j ≤ hi) :
    ((∃ i j, i < r ∧ j < c ∧ A i j = a.maxE lo) ∧ ∀ i j, i < r → j < c → A i j ≤ a.maxE lo) ∧
    ((∃ i j, i < r ∧ j < c ∧ A i j = a.minE hi) ∧ ∀ i j, i < r → j < c → a.minE hi ≤ A i j) := by
  have hw := ha.wf
  have hmem : ∀ x, x ∈ a.data ↔ ∃ i j, i < r ∧ j < c ∧ A i j = x := by
    intro x
    rw [hw.mem_data, hA.1, hA.2.1]
    constructor
    · rintro ⟨i, j, hi, hj, h⟩; exact ⟨i, j, hi, hj, by rw [← hA.val hw hi hj]; exact h⟩
    · rintro ⟨i, j, hi, hj, h⟩; exact ⟨i, j, hi, hj, by rw [hA.val hw hi hj]; exact h⟩
  obtain ⟨i₀, j₀, hi₀, hj₀, h₀⟩ := hlo
  have hm₀ := (hmem _).2 ⟨i₀, j₀, hi₀, hj₀, rfl⟩
  obtain ⟨⟨u1, u2⟩, l1, l2⟩ := NS.Props.VecMore.C86_extrema_partial a.data (List.ne_nil_of_mem hm₀) lo hi ⟨_, hm₀, h₀⟩ (by
    intro x hx
    obtain ⟨i, j, h1, h2, rfl⟩ := (hmem x).1 hx
    exact hhi i j h1 h2)
  exact ⟨⟨(hmem _).1 u1, fun i j h1 h2 => u2 _ ((hmem _).2 ⟨i, j, h1, h2, rfl⟩)⟩,
    (hmem _).1 l1, fun i j h1 h2 => l2 _ ((hmem _).2 ⟨i, j, h1, h2, rfl⟩)⟩

/-- **C90 fails** for `max`: if all entries are below the start value (for floating types it is positive), `max()` returns the start
value, which is no entry. -/
theorem C90_max_wrong {a : Dense T} (ha : Reach a) {r c : Nat} {A : Nat → Nat → T} (hA : Shows a r c A) (lo : T)
    (h : ∀ i j, i < r → j < c → A i j < lo) : a.maxE lo = lo := by
  have hw := ha.wf
  refine (NS.Props.VecMore.C86_max_wrong a.data lo fun x hx => ?_).1
  obtain ⟨i, j, h1, h2, rfl⟩ := (hw.mem_data x).1 hx
  rw [hA.1] at h1
  rw [hA.2.1] at h2
  rw [hA.val hw h1 h2]
  exact h i j h1 h2
end

/-- a matrix with negative entries meets the hypotheses (start value of an integral type) -/
example : ∃ d : Dense Int, Reach d ∧ Shows d 2 2 (fun i j => -1 - (i : Int) - j) ∧
    (∃ i j : Nat, i < 2 ∧ j < 2 ∧ (-2147483648 : Int) ≤ -1 - (i : Int) - j) ∧ ∀ i j : Nat, i < 2 → j < 2 → -1 - (i : Int) - j ≤ 2147483647 :=
  let ⟨d, h1, h2⟩ := exists_reach 2 2 (by decide) (by decide) (fun i j => -1 - (i : Int) - j)
  ⟨d, h1, h2, ⟨0, 0, by decide, by decide, by decide⟩, by intros; omega⟩

example : Inside (⟨[1, 2, 3, 4], 2, 2⟩ : Dense Int) ⟨1, 0⟩ ∧ ¬ Inside (⟨[1, 2, 3, 4], 2, 2⟩ : Dense Int) ⟨2, 2⟩ := by
  unfold Inside; decide

section
variable {T : Type} [CommRing T] [DecidableEq T]

/-- **C90** (default sparse matrix): it has no rows, columns and entries; iterating yields nothing, and every access aborts. -/
theorem C90_sparse_default : (Sparse.default : Sparse T).rows = 0 ∧ (Sparse.default : Sparse T).columns = 0 ∧ (Sparse.default : Sparse T).size = 0 ∧
    (Sparse.default : Sparse T).filledCount = 0 ∧ (Sparse.default : Sparse T).isEmpty = true ∧
    (Sparse.default : Sparse T).entries = .ok [] ∧ (∀ i j, (Sparse.default : Sparse T).at' i j = .error .abort) ∧
    (∀ k, (Sparse.default : Sparse T).linearAt k = .error .abort) ∧ ∀ i j v, (Sparse.default : Sparse T).set i j v = .error .abort := by
  refine ⟨rfl, rfl, rfl, rfl, rfl, rfl, fun i j => ?_, fun k => ?_, fun i j v => ?_⟩ <;> rfl

/-- **C90** (comparing sparse iterators): as for dense matrices; the storage position an iterator carries does not matter. -/
theorem C90_sparse_iterator_eq (a : Sparse T) (p q : SIt) :
    ((p.i1 < a.rows ∧ p.i2 < a.columns) → (q.i1 < a.rows ∧ q.i2 < a.columns) → (a.itEq p q = true ↔ p.i1 = q.i1 ∧ p.i2 = q.i2)) ∧
    (¬ (p.i1 < a.rows ∧ p.i2 < a.columns) → ¬ (q.i1 < a.rows ∧ q.i2 < a.columns) → a.itEq p q = true) ∧
    ((p.i1 < a.rows ∧ p.i2 < a.columns) → ¬ (q.i1 < a.rows ∧ q.i2 < a.columns) → a.itEq p q = false ∧ a.itEq q p = false) := by
  obtain ⟨h1, h2, h3, -⟩ := C90_iterator_eq (⟨[], a.rows, a.columns⟩ : Dense T) ⟨p.i1, p.i2⟩ ⟨q.i1, q.i2⟩
  refine ⟨fun hp hq => ?_, fun hp hq => h2 hp hq, fun hp hq => h3 hp hq⟩
  have := h1 hp hq
  rw [DIt.mk.injEq] at this
  exact this
end

section
variable {T : Type} [Field T] [LinearOrder T]
/-- **C90** (default simplex): all three vertices are the origin and it is not prepared. -/
theorem C90_simplex_default : NS.Props.Simplex.HasVerts (Simplex.default : Simplex T) (fun _ _ => 0) ∧ (Simplex.default : Simplex T).prepared = false :=
  ⟨rfl, rfl⟩
end
end NS.Props.Dense

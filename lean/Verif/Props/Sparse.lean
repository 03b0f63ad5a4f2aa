/-
Property theorems C01-C17 about the sparse matrix.

Reading guide.  `Reach s`: `s` can be built through the public API (SparseApi.lean).
`Shows s r c A`: `s` has `r` rows, `c` columns and `at(i,j)` returns `A i j` for every in-range
position.  A result `.ok x` of a model function means: the call returns `x` normally, i.e. it does
not throw, abort, loop forever or access memory out of bounds.
-/
import Verif.SparseApi
import Mathlib.Algebra.Order.Ring.Int
import Mathlib.Algebra.Order.BigOperators.Group.Finset

set_option linter.unusedSectionVars false
set_option linter.unusedSimpArgs false

namespace NS.Props.Sparse
open NS NS.Sparse
variable {T : Type}

/-! ### Specification vocabulary -/

/-- `s` is observed to be the `r x c` matrix `A`. -/
def Shows [Zero T] [DecidableEq T] (s : Sparse T) (r c : Nat) (A : Nat → Nat → T) : Prop :=
  s.rows = r ∧ s.columns = c ∧ ∀ i j, i < r → j < c → s.at' i j = .ok (A i j)

theorem Shows.val [Zero T] [DecidableEq T] {s : Sparse T} {r c A} (h : Shows s r c A) {i j : Nat}
    (hi : i < r) (hj : j < c) : s.val i j = A i j := by
  unfold NS.Sparse.val; rw [h.2.2 i j hi hj]

theorem shows_of [Zero T] [DecidableEq T] {s : Sparse T} (h : Inv s) {r c : Nat} {A : Nat → Nat → T}
    (hr : s.rows = r) (hc : s.columns = c) (hv : ∀ i j, i < r → j < c → s.val i j = A i j) :
    Shows s r c A :=
  ⟨hr, hc, fun i j hi hj => by rw [h.at_ok (by omega) (by omega), hv i j hi hj]⟩

theorem Inv.shows [Zero T] [DecidableEq T] {s : Sparse T} (h : Inv s) :
    Shows s s.rows s.columns s.val := shows_of h rfl rfl (fun _ _ _ _ => rfl)

/-! ### C01 -/

/-- A write through the API. -/
inductive Op (T : Type)
  | set (i j : Nat) (v : T)
  | linearSet (k : Nat) (v : T)

/-- position written, for a matrix with `c` columns -/
def Op.pos (c : Nat) : Op T → Nat × Nat
  | .set i j _ => (i, j)
  | .linearSet k _ => (k / c, k % c)

def Op.value : Op T → T
  | .set _ _ v => v
  | .linearSet _ v => v

/-- the arguments are in range for an `r x c` matrix -/
def Op.inRange (r c : Nat) : Op T → Prop
  | .set i j _ => i < r ∧ j < c
  | .linearSet k _ => k < r * c

def Op.run [Zero T] [DecidableEq T] (s : Sparse T) : Op T → R (Sparse T)
  | .set i j v => s.set i j v
  | .linearSet k v => s.linearSet k v

def runAll [Zero T] [DecidableEq T] (s : Sparse T) : List (Op T) → R (Sparse T)
  | [] => .ok s
  | o :: os => Op.run s o >>= fun s' => runAll s' os

/-- the value of the last write to `(i,j)`, or 0 -/
def lastWrite [Zero T] (c : Nat) (ops : List (Op T)) (i j : Nat) : T :=
  match ops.reverse.find? (fun o => o.pos c = (i, j)) with
  | some o => o.value
  | none => 0

section
variable [Zero T] [DecidableEq T]

theorem lastWrite_cons (c : Nat) (o : Op T) (os : List (Op T)) (i j : Nat) :
    lastWrite c (o :: os) i j =
      if (∃ o' ∈ os, o'.pos c = (i, j)) then lastWrite c os i j
      else if o.pos c = (i, j) then o.value else 0 := by
  unfold lastWrite
  rw [List.reverse_cons, List.find?_append]
  by_cases h : ∃ o' ∈ os, o'.pos c = (i, j)
  · rw [if_pos h]
    have : (os.reverse.find? (fun o => decide (o.pos c = (i, j)))).isSome := by
      rw [List.find?_isSome]
      obtain ⟨o', h1, h2⟩ := h
      exact ⟨o', by simpa using h1, by simpa using h2⟩
    obtain ⟨x, hx⟩ := Option.isSome_iff_exists.1 this
    rw [hx]; rfl
  · rw [if_neg h]
    have : os.reverse.find? (fun o => decide (o.pos c = (i, j))) = none := by
      rw [List.find?_eq_none]
      intro x hx
      simp only [decide_eq_true_eq]
      intro hp
      exact h ⟨x, by simpa using hx, hp⟩
    rw [this]
    by_cases ho : o.pos c = (i, j)
    · simp [ho]
    · simp [ho]

theorem Op.run_ok {s : Sparse T} (h : Inv s) (o : Op T) (ho : o.inRange s.rows s.columns) :
    ∃ s', Op.run s o = .ok s' ∧ Inv s' ∧ s'.rows = s.rows ∧ s'.columns = s.columns ∧
      ∀ a b, s'.val a b = if o.pos s.columns = (a, b) then o.value else s.val a b := by
  cases o with
  | set i j v =>
    obtain ⟨s', h1, h2, h3, h4, h5⟩ := h.set_ok v ho.1 ho.2
    refine ⟨s', h1, h2, h3, h4, ?_⟩
    intro a b
    rw [h5]
    simp only [Op.pos, Op.value, Prod.mk.injEq]
    by_cases hab : a = i ∧ b = j
    · rw [if_pos hab, if_pos ⟨hab.1.symm, hab.2.symm⟩]
    · rw [if_neg hab, if_neg (fun h => hab ⟨h.1.symm, h.2.symm⟩)]
  | linearSet k v =>
    have hk : k < s.rows * s.columns := ho
    have hc := h.cols_pos
    have hd : k / s.columns < s.rows := Nat.div_lt_of_lt_mul (by rw [Nat.mul_comm]; exact hk)
    obtain ⟨s', h1, h2, h3, h4, h5⟩ := h.set_ok v hd (Nat.mod_lt _ hc)
    refine ⟨s', ?_, h2, h3, h4, ?_⟩
    · simp only [Op.run, Sparse.linearSet]
      rw [assert_true (show k < s.size from hk)]
      exact h1
    · intro a b
      rw [h5]
      simp only [Op.pos, Op.value, Prod.mk.injEq]
      by_cases hab : a = k / s.columns ∧ b = k % s.columns
      · rw [if_pos hab, if_pos ⟨hab.1.symm, hab.2.symm⟩]
      · rw [if_neg hab, if_neg (fun h => hab ⟨h.1.symm, h.2.symm⟩)]

theorem runAll_ok (ops : List (Op T)) : ∀ {s : Sparse T}, Inv s →
    (∀ o ∈ ops, o.inRange s.rows s.columns) →
    ∃ s', runAll s ops = .ok s' ∧ Inv s' ∧ s'.rows = s.rows ∧ s'.columns = s.columns ∧
      ∀ a b, s'.val a b = if (∃ o ∈ ops, o.pos s.columns = (a, b)) then lastWrite s.columns ops a b
        else s.val a b := by
  induction ops with
  | nil => intro s h _; exact ⟨s, rfl, h, rfl, rfl, by simp⟩
  | cons o os ih =>
    intro s h ho
    obtain ⟨s1, a1, a2, a3, a4, a5⟩ := Op.run_ok h o (ho o (by simp))
    obtain ⟨s2, b1, b2, b3, b4, b5⟩ := ih a2 (fun x hx => by rw [a3, a4]; exact ho x (by simp [hx]))
    refine ⟨s2, ?_, b2, by omega, by omega, ?_⟩
    · simp only [runAll, a1, ok_bind, b1]
    · intro a b
      rw [b5, a4, lastWrite_cons, a5]
      by_cases h1 : ∃ o' ∈ os, o'.pos s.columns = (a, b)
      · have h2 : ∃ o' ∈ o :: os, o'.pos s.columns = (a, b) := by
          obtain ⟨x, hx, hp⟩ := h1; exact ⟨x, by simp [hx], hp⟩
        rw [if_pos h1, if_pos h2, if_pos h1]
      · by_cases h3 : o.pos s.columns = (a, b)
        · have h2 : ∃ o' ∈ o :: os, o'.pos s.columns = (a, b) := ⟨o, by simp, h3⟩
          rw [if_neg h1, if_pos h3, if_pos h2, if_neg h1, if_pos h3]
        · have h2 : ¬ ∃ o' ∈ o :: os, o'.pos s.columns = (a, b) := by
            rintro ⟨x, hx, hp⟩
            rcases List.mem_cons.1 hx with rfl | hx
            · exact h3 hp
            · exact h1 ⟨x, hx, hp⟩
          rw [if_neg h1, if_neg h3, if_neg h2]

/-- **C01**: construct, then any sequence of in-range `set`/`linear_set`: every call succeeds, the
dimensions are unchanged, and `at(i,j)` returns the last value written to `(i,j)` (0 if none). -/
theorem C01_at_returns_last_set (d1 d2 : Nat) (h1 : 0 < d1) (h2 : 0 < d2) (ops : List (Op T))
    (hops : ∀ o ∈ ops, o.inRange d1 d2) :
    ∃ s, (mk' d1 d2 >>= fun s => runAll s ops) = .ok s ∧ Shows s d1 d2 (lastWrite d2 ops) := by
  obtain ⟨z, z1, z2, z3, z4, z5⟩ := mk_inv (T := T) h1 h2
  obtain ⟨s, b1, b2, b3, b4, b5⟩ := runAll_ok ops z2 (by rw [z3, z4]; exact hops)
  refine ⟨s, by rw [z1]; exact b1, shows_of b2 (by omega) (by omega) ?_⟩
  intro i j hi hj
  rw [b5, z5, z4]
  split
  · rfl
  · rename_i h
    unfold lastWrite
    have : ops.reverse.find? (fun o => decide (o.pos d2 = (i, j))) = none := by
      rw [List.find?_eq_none]
      intro x hx
      simp only [decide_eq_true_eq]
      intro hp
      exact h ⟨x, by simpa using hx, hp⟩
    rw [this]

example : ∀ o ∈ [Op.set 0 1 (5 : Int), .linearSet 5 7, .set 1 2 0], o.inRange 2 3 := by
  simp [Op.inRange]

/-- `linear_at(k)` reads the entry `(k / columns, k % columns)`. -/
theorem C01_linear_at {s : Sparse T} {r c : Nat} {A : Nat → Nat → T} (hs : Shows s r c A) (k : Nat)
    (hk : k < r * c) : s.linearAt k = .ok (A (k / c) (k % c)) := by
  obtain ⟨rfl, rfl, h3⟩ := hs
  have hc : 0 < s.columns := by
    rcases Nat.eq_zero_or_pos s.columns with h | h
    · rw [h] at hk; omega
    · exact h
  have hd : k / s.columns < s.rows := Nat.div_lt_of_lt_mul (by rw [Nat.mul_comm]; exact hk)
  unfold linearAt
  rw [assert_true (show k < s.size from hk)]
  exact h3 _ _ hd (Nat.mod_lt _ hc)

end

variable [CommRing T] [NoZeroDivisors T] [DecidableEq T]

/-- every reachable matrix has a well-defined value at every in-range position -/
theorem reach_shows {s : Sparse T} (h : Reach s) : ∃ A, Shows s s.rows s.columns A :=
  ⟨s.val, Inv.shows h.inv⟩

/-! ### C17 -/

/-- **C17**: initializer-list construction. -/
theorem C17_initializer_list (l : List (List T)) (h : ∃ v ∈ l, v ≠ []) :
    ∃ s, ofLists l = .ok s ∧ Reach s ∧
      Shows s l.length ((l.map List.length).foldr Max.max 0) (fun i j => (l.getD i []).getD j 0) := by
  obtain ⟨s, h1, h2, h3, h4, h5⟩ := ofLists_ok l h
  exact ⟨s, h1, .lists h1, shows_of h2 h3 h4 (fun i j _ _ => h5 i j)⟩

example : ∃ v ∈ [[], [1, 0, (2 : Int)], [3]], v ≠ [] := ⟨[3], by simp, by simp⟩

/-! ### Non-vacuity: a reachable matrix with a prescribed content exists for every content; this is
what meets the hypotheses `Reach s`, `Shows s r c A` of all theorems below. -/

theorem exists_reach (r c : Nat) (hr : 0 < r) (hc : 0 < c) (A : Nat → Nat → T) :
    ∃ s, Reach s ∧ Shows s r c A := by
  let l := (List.range r).map (fun i => (List.range c).map (fun j => A i j))
  have hl : l.length = r := by simp [l]
  obtain ⟨s, -, h2, h3⟩ := C17_initializer_list l ⟨(List.range c).map (A 0), by
    simp only [l, List.mem_map, List.mem_range]; exact ⟨0, hr, rfl⟩, by
    simp only [ne_eq, List.map_eq_nil_iff, List.range_eq_nil]; omega⟩
  refine ⟨s, h2, ?_⟩
  have hmax : (l.map List.length).foldr Max.max 0 = c := by
    have : l.map List.length = List.replicate r c := by
      simp [l, List.map_map, Function.comp_def, List.map_const']
    rw [this]
    clear h3 this hl
    clear_value l
    induction r with
    | zero => omega
    | succ n ih =>
      rw [List.replicate_succ, List.foldr_cons]
      rcases Nat.eq_zero_or_pos n with rfl | hn
      · simp
      · rw [ih hn]; simp
  rw [hl, hmax] at h3
  refine ⟨h3.1, h3.2.1, ?_⟩
  intro i j hi hj
  rw [h3.2.2 i j hi hj]
  simp [l, List.getD_eq_getElem?_getD, hi, hj]

/-! ### C02 -/

/-- **C02**: `has`, `has(..,val)`, `filled_count`, `empty`, `has_zero` report exactly the non-zero
entries, in every reachable state. -/
theorem C02_stores_exactly_nonzeros {s : Sparse T} (h : Reach s) {r c : Nat} {A : Nat → Nat → T}
    (hA : Shows s r c A) :
    (∀ i j, i < r → j < c → s.has i j = .ok (decide (A i j ≠ 0)) ∧
      s.hasVal i j = .ok (decide (A i j ≠ 0), A i j)) ∧
    s.filledCount = ((Finset.range r ×ˢ Finset.range c).filter (fun p => A p.1 p.2 ≠ 0)).card ∧
    (s.isEmpty = true ↔ ∀ i j, i < r → j < c → A i j = 0) ∧
    (s.hasZero = true ↔ ∃ i j, i < r ∧ j < c ∧ A i j = 0) := by
  have hi := h.inv
  have hfc : s.filledCount = ((Finset.range r ×ˢ Finset.range c).filter (fun p => A p.1 p.2 ≠ 0)).card := by
    rw [hi.filledCount_eq, hA.1, hA.2.1]
    congr 1
    apply Finset.filter_congr
    rintro ⟨a, b⟩ hab
    simp only [Finset.mem_product, Finset.mem_range] at hab
    rw [hA.val hab.1 hab.2]
  refine ⟨?_, hfc, ?_, ?_⟩
  · intro i j h1 h2
    have := hA.val h1 h2
    rw [hi.has_ok (by rw [hA.1]; exact h1) (by rw [hA.2.1]; exact h2),
      hi.hasVal_ok (by rw [hA.1]; exact h1) (by rw [hA.2.1]; exact h2), this]
    exact ⟨rfl, rfl⟩
  · have : s.isEmpty = true ↔ s.filledCount = 0 := by
      unfold isEmpty filledCount; simp
    rw [this, hfc, Finset.card_eq_zero, Finset.filter_eq_empty_iff]
    constructor
    · intro h i j hi hj
      have := h (x := (i, j)) (by simp [hi, hj])
      simpa using this
    · rintro h ⟨a, b⟩ hab
      simp only [Finset.mem_product, Finset.mem_range] at hab
      simpa using h a b hab.1 hab.2
  · have : s.hasZero = true ↔ s.filledCount ≠ r * c := by
      unfold hasZero filledCount size; rw [hA.1, hA.2.1]; simp
    rw [this, hfc]
    have hcard : (Finset.range r ×ˢ Finset.range c).card = r * c := by simp
    constructor
    · intro h
      by_contra hne
      apply h
      rw [Finset.filter_true_of_mem, hcard]
      rintro ⟨a, b⟩ hab
      simp only [Finset.mem_product, Finset.mem_range] at hab
      intro hz
      exact hne ⟨a, b, hab.1, hab.2, hz⟩
    · rintro ⟨i, j, h1, h2, hz⟩ heq
      rw [← hcard, Finset.card_filter_eq_iff] at heq
      exact heq (x := (i, j)) (by simp [h1, h2]) hz

example : ∃ s : Sparse Int, Reach s ∧ Shows s 2 3 (fun i j => i * j) := exists_reach 2 3 (by decide) (by decide) _

/-! ### C03, C04, C05 -/

/-- row-major order of positions -/
def Before (a b : Nat × Nat × T) : Prop := a.1 < b.1 ∨ (a.1 = b.1 ∧ a.2.1 < b.2.1)

/-- **C03**: walking `begin()..end()` (const and non-const) terminates and yields exactly the
non-zero entries, in strictly increasing row-major order (hence each once). -/
theorem C03_iteration {s : Sparse T} (h : Reach s) {r c : Nat} {A : Nat → Nat → T}
    (hA : Shows s r c A) :
    ∃ l, s.entries = .ok l ∧ s.entriesNC = .ok l ∧ l.Pairwise Before ∧
      ∀ i j v, (i, j, v) ∈ l ↔ i < r ∧ j < c ∧ A i j = v ∧ v ≠ 0 := by
  obtain ⟨l, h1, h2, h3, -, h5, h6, -⟩ := h.inv.entries_ok
  refine ⟨l, h1, h2, h3, ?_⟩
  intro i j v
  constructor
  · intro hm
    have a := h6 _ hm
    have b := (h5 _).1 hm
    simp only [hA.1, hA.2.1] at a
    refine ⟨a.1, a.2, ?_, b.2⟩
    rw [← hA.val a.1 a.2]; exact b.1.symm
  · rintro ⟨hi, hj, rfl, hne⟩
    exact (h5 _).2 ⟨(hA.val hi hj).symm, hne⟩

example : ∃ s : Sparse Int, Reach s ∧ Shows s 3 2 (fun i j => i + j) := exists_reach 3 2 (by decide) (by decide) _

/-- **C04**: walking `row_begin(i)..row_end(i)` yields exactly the row's non-zeros in increasing
column order; `row_filled_count(i)` is their number. -/
theorem C04_row_iteration {s : Sparse T} (h : Reach s) {r c : Nat} {A : Nat → Nat → T}
    (hA : Shows s r c A) {i : Nat} (hi : i < r) :
    ∃ l, s.rowEntries i = .ok l ∧ l.Pairwise (fun a b => a.2.1 < b.2.1) ∧
      (∀ k j v, (k, j, v) ∈ l ↔ k = i ∧ j < c ∧ A i j = v ∧ v ≠ 0) ∧
      s.rowFilledCount i = .ok l.length ∧
      l.length = ((Finset.range c).filter (fun j => A i j ≠ 0)).card := by
  obtain ⟨l, h1, h3, h5, h6⟩ := h.inv.rowEntries_ok (i := i) (by rw [hA.1]; exact hi)
  have hmem : ∀ k j v, (k, j, v) ∈ l ↔ k = i ∧ j < c ∧ A i j = v ∧ v ≠ 0 := by
    intro k j v
    constructor
    · intro hm
      have a := h6 _ hm
      have b := (h5 _).1 hm
      simp only [hA.1, hA.2.1] at a b
      obtain ⟨rfl, b2, b3⟩ := b
      exact ⟨rfl, a.2, by rw [← hA.val hi a.2]; exact b2.symm, b3⟩
    · rintro ⟨rfl, hj, rfl, hne⟩
      exact (h5 _).2 ⟨rfl, (hA.val hi hj).symm, hne⟩
  refine ⟨l, h1, h3, hmem, ?_, ?_⟩
  · unfold rowFilledCount
    rw [h1]
    simp only [ok_bind]
    rw [forList_count]; simp
  · rw [← List.length_map (f := fun e : Nat × Nat × T => e.2.1)]
    have hnd : (l.map (fun e => e.2.1)).Nodup := by
      unfold List.Nodup
      rw [List.pairwise_map]
      exact h3.imp (fun h => Nat.ne_of_lt h)
    rw [← List.toFinset_card_of_nodup hnd]
    congr 1
    ext j
    simp only [List.mem_toFinset, List.mem_map, Finset.mem_filter, Finset.mem_range]
    constructor
    · rintro ⟨⟨k, j', v⟩, hm, rfl⟩
      obtain ⟨-, a, b, d⟩ := (hmem _ _ _).1 hm
      exact ⟨a, by rw [b]; exact d⟩
    · rintro ⟨a, b⟩
      exact ⟨(i, j, A i j), (hmem _ _ _).2 ⟨rfl, a, rfl, b⟩, rfl⟩

example : ∃ s : Sparse Int, Reach s ∧ Shows s 3 4 (fun i j => (i : Int) - j) ∧ 1 < 3 :=
  let ⟨s, h1, h2⟩ := exists_reach 3 4 (by decide) (by decide) (fun i j => (i : Int) - j); ⟨s, h1, h2, by decide⟩

/-- **C05** (partial: the column has a non-zero entry, or the whole matrix is zero; see
`C05_fails_on_empty_column`). -/
theorem C05_column_iteration_partial {s : Sparse T} (h : Reach s) {r c : Nat} {A : Nat → Nat → T}
    (hA : Shows s r c A) {j : Nat} (hj : j < c)
    (hcol : (∃ i, i < r ∧ A i j ≠ 0) ∨ ∀ i k, i < r → k < c → A i k = 0) :
    ∃ l, s.colEntries j = .ok l ∧ l.Pairwise (fun a b => a.1 < b.1) ∧
      (∀ i k v, (i, k, v) ∈ l ↔ i < r ∧ k = j ∧ A i j = v ∧ v ≠ 0) ∧
      s.colFilledCount j = .ok l.length := by
  have hi := h.inv
  have hzero : ∀ a b, ¬ (a < r ∧ b < c) → s.val a b = 0 := by
    intro a b hab; exact hi.val_zero (by rw [hA.1, hA.2.1]; exact hab)
  obtain ⟨c1, c2, c3⟩ := hi.colEntries_ok (j := j) (by rw [hA.2.1]; exact hj)
  have hcnt : ∀ l, s.colEntries j = .ok l → s.colFilledCount j = .ok l.length := by
    intro l hl
    unfold colFilledCount
    rw [hl]; simp only [ok_bind]
    rw [forList_count]; simp
  by_cases hcol' : ∃ i, i < r ∧ A i j ≠ 0
  · obtain ⟨i0, hi0, hne⟩ := hcol'
    obtain ⟨l, l1, l2, l3⟩ := c3 ⟨i0, by rw [hA.val hi0 hj]; exact hne⟩
    refine ⟨l, l1, l2, ?_, hcnt l l1⟩
    intro i k v
    rw [l3]
    constructor
    · rintro ⟨rfl, b, d⟩
      have : i < r := by
        by_contra hge
        simp only at b
        rw [hzero i k (by omega)] at b; exact d b
      exact ⟨this, rfl, by rw [← hA.val this hj]; exact b.symm, d⟩
    · rintro ⟨a, rfl, rfl, d⟩
      exact ⟨rfl, (hA.val a hj).symm, d⟩
  · rcases hcol with hcol | hcol
    · exact absurd hcol hcol'
    · have hz : ∀ a b, s.val a b = 0 := by
        intro a b
        by_cases hab : a < r ∧ b < c
        · rw [hA.val hab.1 hab.2, hcol a b hab.1 hab.2]
        · exact hzero a b hab
      refine ⟨[], c1 hz, List.Pairwise.nil, ?_, hcnt _ (c1 hz)⟩
      intro i k v
      simp only [List.not_mem_nil, false_iff]
      rintro ⟨a, -, b, d⟩
      rw [hcol i j a hj] at b
      exact d b.symm

example : ∃ s : Sparse Int, Reach s ∧ Shows s 2 2 (fun i _ => i) ∧ ∃ i, i < 2 ∧ ((i : Nat) : Int) ≠ 0 :=
  let ⟨s, h1, h2⟩ := exists_reach 2 2 (by decide) (by decide) (fun i _ => (i : Int)); ⟨s, h1, h2, 1, by decide, by decide⟩

/-- **C05 fails**: on every reachable non-zero matrix with a zero column `j`, `column_begin(j)`
(and hence `column_filled_count(j)`) aborts. -/
theorem C05_fails_on_empty_column {s : Sparse T} (h : Reach s) {r c : Nat} {A : Nat → Nat → T}
    (hA : Shows s r c A) {j : Nat} (hj : j < c) (hz : ∀ i, i < r → A i j = 0)
    (hne : ∃ i k, i < r ∧ k < c ∧ A i k ≠ 0) :
    s.colEntries j = .error .abort ∧ s.colFilledCount j = .error .abort := by
  obtain ⟨i0, k0, a1, a2, a3⟩ := hne
  obtain ⟨-, c2, -⟩ := h.inv.colEntries_ok (j := j) (by rw [hA.2.1]; exact hj)
  have := c2 ⟨i0, k0, by rw [hA.val a1 a2]; exact a3⟩ (by
    intro a
    by_cases ha : a < r
    · rw [hA.val ha hj, hz a ha]
    · exact h.inv.val_zero (by rw [hA.1]; omega))
  refine ⟨this, ?_⟩
  unfold colFilledCount
  rw [this]; rfl

/-- concrete witness: the 1x2 matrix with the single entry (0,0) -/
theorem C05_witness : ∃ s : Sparse Int, Reach s ∧ s.columns = 2 ∧ s.colEntries 1 = .error .abort :=
  ⟨⟨[3], [0], [0], 2, 0⟩, Reach.lists (l := [[3, 0]]) (by decide +kernel), rfl, by decide +kernel⟩

/-! ### C06 -/

/-- **C06** (contents, in full): `erase(it)` and `set(it,0)` at any walked, valid iterator succeed,
zero exactly the entry under the iterator, and leave everything else unchanged. -/
theorem C06_erase_content {s : Sparse T} (h : Reach s) {r c : Nat} {A : Nat → Nat → T}
    (hA : Shows s r c A) {it : SIt} (hw : Walked s it) (hv : s.itValid it = true) :
    ∃ s' it', s.erase it = .ok (s', it') ∧ s.setIt it 0 = .ok (s', it') ∧ Reach s' ∧
      A it.i1 it.i2 ≠ 0 ∧
      Shows s' r c (fun i j => if i = it.i1 ∧ j = it.i2 then 0 else A i j) := by
  obtain ⟨s', it', h1, h2, h3, h4, h5⟩ := h.inv.erase_ok hw hv
  have hv' := hv
  simp only [itValid, Bool.and_eq_true, decide_eq_true_eq] at hv'
  refine ⟨s', it', h1, by simp [setIt, hv, h1], Reach.erase h hw h1, ?_,
    shows_of h2 (by rw [h3, hA.1]) (by rw [h4, hA.2.1]) ?_⟩
  · rw [← hA.val (by rw [← hA.1]; exact hv'.1) (by rw [← hA.2.1]; exact hv'.2)]
    exact (h.inv.walked_entry hw hv).1
  · intro i j hi hj
    rw [h5, hA.val hi hj]

example : ∃ (s : Sparse Int) (it : SIt), Reach s ∧ Walked s it ∧ s.itValid it = true :=
  ⟨⟨[1, 1], [0, 1], [0, 1], 2, 0⟩, ⟨1, 1, 1⟩, Reach.lists (l := [[1, 0], [0, 1]]) (by decide +kernel),
    Walked.next (Walked.begin (it := ⟨0, 0, 0⟩) (by decide +kernel)) (by decide +kernel), by decide +kernel⟩

/-- `set(it,v)` at a walked, valid iterator writes exactly that entry. -/
theorem C06_set_iterator {s : Sparse T} (h : Reach s) {r c : Nat} {A : Nat → Nat → T}
    (hA : Shows s r c A) {it : SIt} (hw : Walked s it) (hv : s.itValid it = true) (v : T) :
    ∃ s' it', s.setIt it v = .ok (s', it') ∧ Reach s' ∧
      Shows s' r c (fun i j => if i = it.i1 ∧ j = it.i2 then v else A i j) := by
  obtain ⟨s', it', h1, h2, h3, h4, h5⟩ := h.inv.setIt_ok hw hv v
  refine ⟨s', it', h1, Reach.setIt h hw h1, shows_of h2 (by rw [h3, hA.1]) (by rw [h4, hA.2.1]) ?_⟩
  intro i j hi hj
  rw [h5, hA.val hi hj]

/-- `it` is a correct successor of position `(i,j)` in the matrix `A`: it denotes the first non-zero
entry after `(i,j)` in row-major order, or is out of range if there is none. -/
def Successor (r c : Nat) (A : Nat → Nat → T) (i j : Nat) (it : SIt) : Prop :=
  (it.i1 < r ∧ it.i2 < c ∧ A it.i1 it.i2 ≠ 0 ∧ (i < it.i1 ∨ i = it.i1 ∧ j < it.i2) ∧
      ∀ a b, a < r → b < c → A a b ≠ 0 → (i < a ∨ i = a ∧ j < b) → (it.i1 < a ∨ it.i1 = a ∧ it.i2 ≤ b)) ∨
  (¬ (it.i1 < r ∧ it.i2 < c) ∧ ∀ a b, a < r → b < c → (i < a ∨ i = a ∧ j < b) → A a b = 0)

theorem successor_iff {s : Sparse T} (h : Inv s) (i j : Nat) (it : SIt) :
    IsNextEntry s i j it ↔ Successor s.rows s.columns s.val i j it := by
  have hz : ∀ a b, s.val a b ≠ 0 → a < s.rows ∧ b < s.columns := by
    intro a b hne
    by_contra hc
    exact hne (h.val_zero hc)
  unfold IsNextEntry Successor
  by_cases hv : s.itValid it = true
  · have hv' := hv
    simp only [itValid, Bool.and_eq_true, decide_eq_true_eq] at hv'
    simp only [hv, if_true, hv', true_and, not_true_eq_false, false_and, or_false]
    constructor
    · rintro ⟨a, b, d⟩; exact ⟨a, b, fun x y _ _ => d x y⟩
    · rintro ⟨a, b, d⟩; exact ⟨a, b, fun x y hne => d x y (hz _ _ hne).1 (hz _ _ hne).2 hne⟩
  · have hv' := hv
    simp only [itValid, Bool.and_eq_true, decide_eq_true_eq] at hv'
    rw [if_neg hv]
    constructor
    · intro a
      exact .inr ⟨hv', fun x y _ _ => a x y⟩
    · rintro (⟨a, b, -⟩ | ⟨-, a⟩)
      · exact absurd ⟨a, b⟩ hv'
      · intro x y hxy
        by_contra hne
        exact hne (a x y (hz _ _ hne).1 (hz _ _ hne).2 hxy)

/-- **C06** (returned iterator, partial): the exact condition under which `erase(it)` returns the
successor: there is a later entry in the same row, or no later entry at all, or the row keeps an
earlier entry and the next row is non-empty.  Outside of this condition the returned iterator is
wrong. -/
theorem C06_erase_successor_partial {s : Sparse T} (h : Reach s) {it : SIt} (hw : Walked s it)
    (hv : s.itValid it = true) {s' : Sparse T} {it' : SIt} (he : s.erase it = .ok (s', it')) :
    Successor s'.rows s'.columns s'.val it.i1 it.i2 it' ↔
      ((∃ b, it.i2 < b ∧ s.val it.i1 b ≠ 0) ∨
       (∀ a b, (it.i1 < a ∨ it.i1 = a ∧ it.i2 < b) → s.val a b = 0) ∨
       ((∃ b, b < it.i2 ∧ s.val it.i1 b ≠ 0) ∧ (∃ b, s.val (it.i1 + 1) b ≠ 0))) := by
  rw [← h.inv.erase_next_iff hw hv he]
  exact (successor_iff (Reach.erase h hw he).inv _ _ _).symm

/-- **C06 fails** for the returned iterator: erasing the only entry of row 0 of the 2x2 identity
returns an iterator denoting (0,1), which is not an entry. -/
theorem C06_erase_returns_wrong_iterator :
    ∃ (s s' : Sparse Int) (it it' : SIt), Reach s ∧ Walked s it ∧ s.itValid it = true ∧
      s.erase it = .ok (s', it') ∧ it' = ⟨0, 1, 0⟩ ∧ s'.at' 0 1 = .ok 0 ∧ s'.at' 1 1 = .ok 1 := by
  refine ⟨⟨[1, 1], [0, 1], [0, 1], 2, 0⟩, ⟨[1], [1], [0, 0], 2, 0⟩, ⟨0, 0, 0⟩, ⟨0, 1, 0⟩,
    Reach.lists (l := [[1, 0], [0, 1]]) (by decide +kernel), Walked.begin (by decide +kernel), ?_⟩
  decide +kernel

/-! ### C07 -/

/-- **C07**: addition and subtraction (`+`, `+=`, `-`, `-=`; distinct objects) are entrywise. -/
theorem C07_add_sub {s t : Sparse T} (hs : Reach s) (ht : Reach t) {r c : Nat} {A B : Nat → Nat → T}
    (hA : Shows s r c A) (hB : Shows t r c B) :
    (∃ u, s.addAssign t = .ok u ∧ s.add t = .ok u ∧ Reach u ∧ Shows u r c (fun i j => A i j + B i j)) ∧
    (∃ u, s.subAssign t = .ok u ∧ s.sub t = .ok u ∧ Reach u ∧ Shows u r c (fun i j => A i j - B i j)) := by
  constructor
  · obtain ⟨u, h1, h2, h3, h4, h5⟩ := hs.inv.add_ok ht.inv (by rw [hA.1, hB.1]) (by rw [hA.2.1, hB.2.1])
    refine ⟨u, h1, h1, .addAssign hs ht h1, shows_of h2 (by rw [h3, hA.1]) (by rw [h4, hA.2.1]) ?_⟩
    intro i j hi hj
    rw [h5, hA.val hi hj, hB.val hi hj]
  · obtain ⟨u, h1, h2, h3, h4, h5⟩ := hs.inv.sub_ok ht.inv (by rw [hA.1, hB.1]) (by rw [hA.2.1, hB.2.1])
    refine ⟨u, h1, h1, .subAssign hs ht h1, shows_of h2 (by rw [h3, hA.1]) (by rw [h4, hA.2.1]) ?_⟩
    intro i j hi hj
    rw [h5, hA.val hi hj, hB.val hi hj]

example : ∃ s t : Sparse Int, Reach s ∧ Reach t ∧ Shows s 2 2 (fun i j => i + j) ∧ Shows t 2 2 (fun i j => (i : Int) - j) :=
  let ⟨s, h1, h2⟩ := exists_reach 2 2 (by decide) (by decide) (fun i j => (i : Int) + j)
  let ⟨t, h3, h4⟩ := exists_reach 2 2 (by decide) (by decide) (fun i j => (i : Int) - j)
  ⟨s, t, h1, h3, h2, h4⟩

/-- "no zero stored" for sums: by C02 the number of stored entries of `A+B` is the number of
non-zero sums (cancelled entries are removed). -/
theorem C07_add_no_zero_stored {s t u : Sparse T} (hs : Reach s) (ht : Reach t) {r c : Nat}
    {A B : Nat → Nat → T} (hA : Shows s r c A) (hB : Shows t r c B) (hu : s.add t = .ok u) :
    u.filledCount = ((Finset.range r ×ˢ Finset.range c).filter (fun p => A p.1 p.2 + B p.1 p.2 ≠ 0)).card := by
  obtain ⟨⟨u', -, h1, h2, h3⟩, -⟩ := C07_add_sub hs ht hA hB
  rw [hu] at h1; cases h1
  exact (C02_stores_exactly_nonzeros h2 h3).2.1

/-! ### C08 -/

/-- **C08** (partial): the Hadamard product is right when every entry of `A` that must be erased
(because `B` is 0 there) is followed by another non-zero entry of `A` in the same row, or by zero rows
of `A` only, or its row keeps some entry and the next row of `A` is not zero. In particular it is right
when the pattern of `A` is contained in the pattern of `B`, and when no row of the product is zero. -/
theorem C08_hadamard_partial {s t : Sparse T} (hs : Reach s) (ht : Reach t) {r c : Nat}
    {A B : Nat → Nat → T} (hA : Shows s r c A) (hB : Shows t r c B)
    (hlast : ∀ i j, i < r → j < c → A i j ≠ 0 → B i j = 0 → (∃ j', j < j' ∧ j' < c ∧ A i j' ≠ 0) ∨
      (∀ i' j', i < i' → i' < r → j' < c → A i' j' = 0) ∨
      ((∃ j' < c, A i j' ≠ 0 ∧ B i j' ≠ 0) ∧ ∃ j' < c, i + 1 < r ∧ A (i + 1) j' ≠ 0)) :
    ∃ u, s.hadamardAssign t = .ok u ∧ s.hadamard t = .ok u ∧ Shows u r c (fun i j => A i j * B i j) ∧
      u.filledCount = ((Finset.range r ×ˢ Finset.range c).filter (fun p => A p.1 p.2 * B p.1 p.2 ≠ 0)).card := by
  have hz : ∀ a b, s.val a b ≠ 0 → a < r ∧ b < c := by
    intro a b hne
    by_contra hc
    exact hne (hs.inv.val_zero (by rw [hA.1, hA.2.1]; exact hc))
  obtain ⟨u, h1, h2, h3, h4, h5⟩ := hs.inv.hadamard_ok ht.inv (by rw [hA.1, hB.1]) (by rw [hA.2.1, hB.2.1]) (by
    intro i j hne hzero
    obtain ⟨hi, hj⟩ := hz _ _ hne
    rcases hlast i j hi hj (by rw [← hA.val hi hj]; exact hne) (by rw [← hB.val hi hj]; exact hzero) with
      ⟨j', a, b, d⟩ | h | ⟨⟨j', a, b, d⟩, j2, e, f, g⟩
    · exact .inl ⟨j', a, by rw [hA.val hi b]; exact d⟩
    · refine .inr (.inl fun i' j' hlt => ?_)
      by_contra hne'
      obtain ⟨hi', hj'⟩ := hz _ _ hne'
      exact hne' (by rw [hA.val hi' hj']; exact h i' j' hlt hi' hj')
    · exact .inr (.inr ⟨⟨j', by rw [hA.val hi a]; exact b, by rw [hB.val hi a]; exact d⟩, j2, by rw [hA.val f e]; exact g⟩))
  have hsh : Shows u r c (fun i j => A i j * B i j) := by
    refine shows_of h2 (by rw [h3, hA.1]) (by rw [h4, hA.2.1]) ?_
    intro i j hi hj
    rw [h5, hA.val hi hj, hB.val hi hj]
  refine ⟨u, h1, h1, hsh, ?_⟩
  rw [h2.filledCount_eq, hsh.1, hsh.2.1]
  congr 1
  apply Finset.filter_congr
  rintro ⟨a, b⟩ hab
  simp only [Finset.mem_product, Finset.mem_range] at hab
  rw [hsh.val hab.1 hab.2]

example : ∃ s t : Sparse Int, Reach s ∧ Reach t ∧ Shows s 1 2 (fun _ j => if j = 0 then 1 else 2) ∧
    Shows t 1 2 (fun _ j => if j = 0 then 0 else 3) := by
  refine ⟨⟨[1, 2], [0, 1], [0], 2, 0⟩, ⟨[3], [1], [0], 2, 0⟩, Reach.lists (l := [[1, 2]]) (by decide +kernel),
    Reach.lists (l := [[0, 3]]) (by decide +kernel), ⟨rfl, rfl, ?_⟩, ⟨rfl, rfl, ?_⟩⟩ <;>
  · intro i j hi hj
    obtain rfl : i = 0 := by omega
    obtain rfl | rfl : j = 0 ∨ j = 1 := by omega
    all_goals decide +kernel

/-- **C08** (partial): the Hadamard product is right when none of its rows is zero. -/
theorem C08_full_rows_partial {s t : Sparse T} (hs : Reach s) (ht : Reach t) {r c : Nat}
    {A B : Nat → Nat → T} (hA : Shows s r c A) (hB : Shows t r c B) (hrow : ∀ i < r, ∃ j < c, A i j * B i j ≠ 0) :
    ∃ u, s.hadamardAssign t = .ok u ∧ s.hadamard t = .ok u ∧ Shows u r c (fun i j => A i j * B i j) := by
  obtain ⟨u, h1, h2, h3, -⟩ := C08_hadamard_partial hs ht hA hB (by
    intro i j hi hj hne hz
    by_cases hi' : i + 1 < r
    · obtain ⟨a, a1, a2⟩ := hrow i hi
      obtain ⟨b, b1, b2⟩ := hrow (i + 1) hi'
      exact .inr (.inr ⟨⟨a, a1, left_ne_zero_of_mul a2, right_ne_zero_of_mul a2⟩, b, b1, hi', left_ne_zero_of_mul b2⟩)
    · exact .inr (.inl fun i' j' h1 h2 => by omega))
  exact ⟨u, h1, h2, h3⟩

/-- the product of a full matrix with a tridiagonal one, where the last entry of the first row is erased -/
example : ∃ s t : Sparse Int, Reach s ∧ Reach t ∧ Shows s 3 3 (fun _ _ => 1) ∧
    Shows t 3 3 (fun i j => if i = j then 2 else if i + 1 = j ∨ j + 1 = i then -1 else 0) := by
  refine ⟨⟨[1, 1, 1, 1, 1, 1, 1, 1, 1], [0, 1, 2, 0, 1, 2, 0, 1, 2], [0, 3, 6], 3, 0⟩, ⟨[2, -1, -1, 2, -1, -1, 2], [0, 1, 0, 1, 2, 1, 2], [0, 2, 5], 3, 0⟩,
    Reach.lists (l := [[1, 1, 1], [1, 1, 1], [1, 1, 1]]) (by decide +kernel),
    Reach.lists (l := [[2, -1, 0], [-1, 2, -1], [0, -1, 2]]) (by decide +kernel), ⟨rfl, rfl, ?_⟩, ⟨rfl, rfl, ?_⟩⟩ <;>
  · intro i j hi hj
    obtain rfl | rfl | rfl : i = 0 ∨ i = 1 ∨ i = 2 := by omega
    all_goals obtain rfl | rfl | rfl : j = 0 ∨ j = 1 ∨ j = 2 := by omega
    all_goals decide +kernel

/-- **C08 fails** in general: `I ∘ [[0,0],[0,1]]` loses the entry (1,1): the result is not even
well-formed (`at(1,1)` is 0 instead of 1). -/
theorem C08_hadamard_wrong :
    ∃ s t u : Sparse Int, Reach s ∧ Reach t ∧ s.at' 1 1 = .ok 1 ∧ t.at' 1 1 = .ok 1 ∧
      s.hadamardAssign t = .ok u ∧ u.at' 1 1 ≠ .ok 1 := by
  refine ⟨⟨[1, 1], [0, 1], [0, 1], 2, 0⟩, ⟨[1], [1], [0, 0], 2, 0⟩, ⟨[], [], [0, 2 ^ 64 - 1], 2, 0⟩,
    Reach.lists (l := [[1, 0], [0, 1]]) (by decide +kernel),
    Reach.lists (l := [[0, 0], [0, 1]]) (by decide +kernel), ?_⟩
  decide +kernel

/-! ### C09 -/

/-- **C09**: scaling and negation are entrywise, and store no zero. -/
theorem C09_scale {s : Sparse T} (hs : Reach s) {r c : Nat} {A : Nat → Nat → T} (hA : Shows s r c A)
    (f : T) :
    ∃ u, s.scaleAssign f = .ok u ∧ s.scale f = .ok u ∧ Reach u ∧ Shows u r c (fun i j => A i j * f) ∧
      u.filledCount = ((Finset.range r ×ˢ Finset.range c).filter (fun p => A p.1 p.2 * f ≠ 0)).card ∧
      (f = 0 → u.isEmpty = true) := by
  obtain ⟨u, h1, h2, h3, h4, h5⟩ := hs.inv.scale_ok f
  have hR : Reach u := .scaleAssign hs h1
  have hsh : Shows u r c (fun i j => A i j * f) := by
    refine shows_of h2 (by rw [h3, hA.1]) (by rw [h4, hA.2.1]) ?_
    intro i j hi hj
    rw [h5, hA.val hi hj]
  have hc := C02_stores_exactly_nonzeros hR hsh
  refine ⟨u, h1, h1, hR, hsh, hc.2.1, ?_⟩
  rintro rfl
  exact hc.2.2.1.2 (by simp)

theorem C09_neg {s : Sparse T} (hs : Reach s) {r c : Nat} {A : Nat → Nat → T} (hA : Shows s r c A) :
    ∃ u, s.neg = .ok u ∧ Reach u ∧ Shows u r c (fun i j => - A i j) := by
  obtain ⟨u, h1, -, h2, h3, -⟩ := C09_scale hs hA (-1)
  refine ⟨u, h1, h2, ?_⟩
  simpa using h3

/-! ### C10 -/

/-- **C10**: transpose, conjugate and adjugate. `cj` is the scalar conjugation. -/
theorem C10_transpose {s : Sparse T} (hs : Reach s) {r c : Nat} {A : Nat → Nat → T}
    (hA : Shows s r c A) :
    ∃ u, s.transpose = .ok u ∧ Reach u ∧ Shows u c r (fun i j => A j i) ∧ u.transpose = .ok s := by
  obtain ⟨u, h1, h2, h3, h4, h5⟩ := hs.inv.transpose_ok
  refine ⟨u, h1, .transpose hs h1, shows_of h2 (by rw [h3, hA.2.1]) (by rw [h4, hA.1]) ?_, ?_⟩
  · intro i j hi hj
    rw [h5, hA.val hj hi]
  · obtain ⟨w, g1, g2, g3, g4, g5⟩ := h2.transpose_ok
    rw [g1]
    congr 1
    apply g2.ext hs.inv (by omega) (by omega)
    intro i j _ _
    rw [g5, h5]

theorem C10_conjugate_adjugate {s : Sparse T} (hs : Reach s) {r c : Nat} {A : Nat → Nat → T}
    (hA : Shows s r c A) (cj : T → T) (h0 : cj 0 = 0) :
    (∃ u, s.conjugate cj = .ok u ∧ Reach u ∧ Shows u r c (fun i j => cj (A i j))) ∧
    (∃ u, s.adjugate cj = .ok u ∧ Reach u ∧ Shows u c r (fun i j => cj (A j i))) := by
  constructor
  · obtain ⟨u, h1, h2, h3, h4, h5⟩ := hs.inv.conjugate_ok cj h0
    refine ⟨u, h1, .conjugate h0 hs h1, shows_of h2 (by rw [h3, hA.1]) (by rw [h4, hA.2.1]) ?_⟩
    intro i j hi hj
    rw [h5, hA.val hi hj]
  · obtain ⟨u, h1, h2, h3, h4, h5⟩ := hs.inv.adjugate_ok cj h0
    refine ⟨u, h1, .adjugate h0 hs h1, shows_of h2 (by rw [h3, hA.2.1]) (by rw [h4, hA.1]) ?_⟩
    intro i j hi hj
    rw [h5, hA.val hj hi]

/-! ### C11, C12 -/

/-- **C11**: the matrix product. -/
theorem C11_mul {s t : Sparse T} (hs : Reach s) (ht : Reach t) {r m m' c : Nat} {A B : Nat → Nat → T}
    (hA : Shows s r m A) (hB : Shows t m' c B) :
    (m ≠ m' → s.mul t = .error (.exc .matrixMulMismatch)) ∧
    (m = m' → ∃ u, s.mul t = .ok u ∧ Reach u ∧
      Shows u r c (fun i j => ∑ k ∈ Finset.range m, A i k * B k j)) := by
  constructor
  · intro hne
    unfold Sparse.mul
    rw [throwIf_true _ (by rw [hA.2.1, hB.1]; exact hne)]; rfl
  · rintro rfl
    obtain ⟨u, h1, h2, h3, h4, h5⟩ := hs.inv.mul_ok ht.inv (by rw [hA.2.1, hB.1])
    refine ⟨u, h1, .mul hs ht h1, shows_of h2 (by rw [h3, hA.1]) (by rw [h4, hB.2.1]) ?_⟩
    intro i j hi hj
    rw [h5 i j (by rw [hA.1]; exact hi) (by rw [hB.2.1]; exact hj), hA.2.1]
    apply Finset.sum_congr rfl
    intro k hk
    rw [hA.val hi (by simpa using hk), hB.val (by simpa using hk) hj]

example : ∃ s t : Sparse Int, Reach s ∧ Reach t ∧ Shows s 2 3 (fun i j => i + j) ∧ Shows t 3 4 (fun i j => (i : Int) - j) :=
  let ⟨s, h1, h2⟩ := exists_reach 2 3 (by decide) (by decide) (fun i j => (i : Int) + j)
  let ⟨t, h3, h4⟩ := exists_reach 3 4 (by decide) (by decide) (fun i j => (i : Int) - j)
  ⟨s, t, h1, h3, h2, h4⟩

/-- **C12**: matrix-vector products from the right and from the left. -/
theorem C12_mul_vector {s : Sparse T} (hs : Reach s) {r c : Nat} {A : Nat → Nat → T}
    (hA : Shows s r c A) (v : List T) :
    (v.length ≠ c → s.mulVec v = .error (.exc .matrixMulMismatch)) ∧
    (v.length = c → ∃ w, s.mulVec v = .ok w ∧ w.length = r ∧
      ∀ i, i < r → w.getD i 0 = ∑ j ∈ Finset.range c, A i j * v.getD j 0) ∧
    (v.length ≠ r → s.mulLeft v = .error (.exc .matrixMulMismatch)) ∧
    (v.length = r → ∃ w, s.mulLeft v = .ok w ∧ w.length = c ∧
      ∀ j, j < c → w.getD j 0 = ∑ i ∈ Finset.range r, v.getD i 0 * A i j) := by
  refine ⟨?_, ?_, ?_, ?_⟩
  · intro hne
    unfold mulVec
    rw [throwIf_true _ (by rw [hA.2.1]; exact fun h => hne h.symm)]; rfl
  · intro heq
    obtain ⟨w, h1, h2, h3⟩ := hs.inv.mulVec_ok v (by rw [hA.2.1, heq])
    refine ⟨w, h1, by rw [h2, hA.1], ?_⟩
    intro i hi
    rw [h3 i (by rw [hA.1]; exact hi), hA.2.1]
    apply Finset.sum_congr rfl
    intro k hk
    rw [hA.val hi (by simpa using hk)]
  · intro hne
    unfold mulLeft
    rw [throwIf_true _ (by rw [hA.1]; exact fun h => hne h.symm)]; rfl
  · intro heq
    obtain ⟨w, h1, h2, h3⟩ := hs.inv.mulLeft_ok v (by rw [hA.1, heq])
    refine ⟨w, h1, by rw [h2, hA.2.1], ?_⟩
    intro j hj
    rw [h3 j (by rw [hA.2.1]; exact hj), hA.1]
    apply Finset.sum_congr rfl
    intro k hk
    rw [hA.val (by simpa using hk) hj]

/-! ### C13 -/

/-- **C13**: `==` never fails and decides semantic equality, whatever the history. -/
theorem C13_equality {s t : Sparse T} (hs : Reach s) (ht : Reach t) {r c r' c' : Nat}
    {A B : Nat → Nat → T} (hA : Shows s r c A) (hB : Shows t r' c' B) :
    ∃ b, Sparse.eq s t = .ok b ∧
      (b = true ↔ r = r' ∧ c = c' ∧ ∀ i j, i < r → j < c → A i j = B i j) := by
  refine ⟨_, hs.inv.eq_ok ht.inv, ?_⟩
  rw [decide_eq_true_eq]
  constructor
  · rintro rfl
    have hr : r = r' := by rw [← hA.1, hB.1]
    have hc : c = c' := by rw [← hA.2.1, hB.2.1]
    subst hr; subst hc
    refine ⟨rfl, rfl, ?_⟩
    intro i j hi hj
    rw [← hA.val hi hj, hB.val hi hj]
  · rintro ⟨rfl, rfl, h⟩
    apply hs.inv.ext ht.inv (by rw [hA.1, hB.1]) (by rw [hA.2.1, hB.2.1])
    intro i j hi hj
    rw [hA.1] at hi; rw [hA.2.1] at hj
    rw [hA.val hi hj, hB.val hi hj, h i j hi hj]

/-- two different histories of the same content give `==` -/
example : ∃ s t : Sparse Int, Reach s ∧ Reach t ∧ Shows s 2 2 (fun i j => i + j) ∧ Shows t 2 2 (fun i j => j + i) :=
  let ⟨s, h1, h2⟩ := exists_reach 2 2 (by decide) (by decide) (fun i j => (i : Int) + j)
  let ⟨t, h3, h4⟩ := exists_reach 2 2 (by decide) (by decide) (fun i j => (j : Int) + i)
  ⟨s, t, h1, h3, h2, h4⟩

/-! ### C14 -/

/-- **C14** (sum and trace). -/
theorem C14_sum_trace {s : Sparse T} (hs : Reach s) {r c : Nat} {A : Nat → Nat → T}
    (hA : Shows s r c A) :
    s.sum = ∑ i ∈ Finset.range r, ∑ j ∈ Finset.range c, A i j ∧
    s.trace = .ok (∑ i ∈ Finset.range (Nat.min r c), A i i) := by
  constructor
  · rw [hs.inv.sum_ok, hA.1, hA.2.1]
    apply Finset.sum_congr rfl
    intro i hi
    apply Finset.sum_congr rfl
    intro j hj
    exact hA.val (by simpa using hi) (by simpa using hj)
  · rw [hs.inv.trace_ok, hA.1, hA.2.1]
    congr 1
    apply Finset.sum_congr rfl
    intro i hi
    have : i < Nat.min r c := by simpa using hi
    exact hA.val (lt_of_lt_of_le this (Nat.min_le_left _ _)) (lt_of_lt_of_le this (Nat.min_le_right _ _))

section order
variable [LinearOrder T]

theorem foldl_max_spec (l : List T) (a : T) :
    let m := l.foldl (fun m l => if m < l then l else m) a
    a ≤ m ∧ (∀ x ∈ l, x ≤ m) ∧ (m = a ∨ m ∈ l) := by
  induction l generalizing a with
  | nil => simp
  | cons x l ih =>
    simp only [List.foldl_cons]
    obtain ⟨h1, h2, h3⟩ := ih (if a < x then x else a)
    refine ⟨?_, ?_, ?_⟩
    · refine le_trans ?_ h1
      split
      · exact le_of_lt (by assumption)
      · exact le_refl _
    · intro y hy
      rcases List.mem_cons.1 hy with rfl | hy
      · refine le_trans ?_ h1
        split
        · exact le_refl _
        · exact le_of_not_gt (by assumption)
      · exact h2 y hy
    · rcases h3 with h3 | h3
      · rw [h3]
        split
        · right; simp
        · left; rfl
      · right; simp [h3]

theorem foldl_min_spec (l : List T) (a : T) :
    let m := l.foldl (fun m l => if l < m then l else m) a
    m ≤ a ∧ (∀ x ∈ l, m ≤ x) ∧ (m = a ∨ m ∈ l) := by
  induction l generalizing a with
  | nil => simp
  | cons x l ih =>
    simp only [List.foldl_cons]
    obtain ⟨h1, h2, h3⟩ := ih (if x < a then x else a)
    refine ⟨?_, ?_, ?_⟩
    · refine le_trans h1 ?_
      split
      · exact le_of_lt (by assumption)
      · exact le_refl _
    · intro y hy
      rcases List.mem_cons.1 hy with rfl | hy
      · refine le_trans h1 ?_
        split
        · exact le_refl _
        · exact le_of_not_gt (by assumption)
      · exact h2 y hy
    · rcases h3 with h3 | h3
      · rw [h3]
        split
        · right; simp
        · left; rfl
      · right; simp [h3]

theorem full_iff {s : Sparse T} (hs : Reach s) {r c : Nat} {A : Nat → Nat → T} (hA : Shows s r c A) :
    s.values.length ≠ s.size ↔ ∃ i j, i < r ∧ j < c ∧ A i j = 0 := by
  rw [← (C02_stores_exactly_nonzeros hs hA).2.2.2]
  unfold hasZero; simp

theorem values_mem {s : Sparse T} (hs : Reach s) {r c : Nat} {A : Nat → Nat → T} (hA : Shows s r c A)
    (v : T) : v ∈ s.values ↔ v ≠ 0 ∧ ∃ i j, i < r ∧ j < c ∧ A i j = v := by
  obtain ⟨l, -, -, -, -, h5, h6, h7⟩ := hs.inv.entries_ok
  rw [h7]
  simp only [List.mem_map]
  constructor
  · rintro ⟨e, he, rfl⟩
    have a := h6 e he
    rw [hA.1, hA.2.1] at a
    have b := (h5 e).1 he
    exact ⟨b.2, e.1, e.2.1, a.1, a.2, by rw [← hA.val a.1 a.2]; exact b.1.symm⟩
  · rintro ⟨hne, i, j, hi, hj, rfl⟩
    exact ⟨(i, j, A i j), (h5 _).2 ⟨(hA.val hi hj).symm, hne⟩, rfl⟩

/-- **C14** (`max`, partial): `max()` is the largest entry, provided the start value
`numeric_limits<T>::min()` is a lower bound of all entries (true for integral types; for floating
types that constant is positive, see `C14_max_wrong`). -/
theorem C14_max_partial {s : Sparse T} (hs : Reach s) {r c : Nat} {A : Nat → Nat → T}
    (hA : Shows s r c A) (init : T) (hinit : ∀ i j, i < r → j < c → init ≤ A i j) :
    (∀ i j, i < r → j < c → A i j ≤ s.maxE init) ∧ ∃ i j, i < r ∧ j < c ∧ A i j = s.maxE init := by
  obtain ⟨h1, h2, h3⟩ := foldl_max_spec s.values init
  have hmem := values_mem hs hA
  have hfull := full_iff hs hA
  have hr : 0 < r := by rw [← hA.1]; exact hs.inv.rows_pos
  have hc : 0 < c := by rw [← hA.2.1]; exact hs.inv.cols_pos
  unfold maxE
  simp only
  generalize s.values.foldl (fun m l => if m < l then l else m) init = m at *
  split
  · rename_i hcond
    obtain ⟨i, j, hi, hj, hz⟩ := hfull.1 hcond.1
    refine ⟨?_, i, j, hi, hj, hz⟩
    intro a b ha hb
    by_cases hne : A a b = 0
    · rw [hne]
    · exact le_trans (h2 _ ((hmem _).2 ⟨hne, a, b, ha, hb, rfl⟩)) (le_of_lt hcond.2)
  · rename_i hcond
    rw [not_and_or, not_not, not_lt] at hcond
    have hub : ∀ i j, i < r → j < c → A i j ≤ m := by
      intro a b ha hb
      by_cases hne : A a b = 0
      · rcases hcond with hcond | hcond
        · exact absurd ⟨a, b, ha, hb, hne⟩ (fun h => (hfull.2 h) hcond)
        · rw [hne]; exact hcond
      · exact h2 _ ((hmem _).2 ⟨hne, a, b, ha, hb, rfl⟩)
    refine ⟨hub, ?_⟩
    rcases h3 with h3 | h3
    · exact ⟨0, 0, hr, hc, le_antisymm (hub 0 0 hr hc) (by rw [h3]; exact hinit 0 0 hr hc)⟩
    · exact ((hmem m).1 h3).2

example : ∃ s : Sparse Int, Reach s ∧ Shows s 2 2 (fun i j => -1 - (i : Int) - j) ∧
    ∀ i j : Nat, i < 2 → j < 2 → (-2147483648 : Int) ≤ -1 - (i : Int) - j :=
  let ⟨s, h1, h2⟩ := exists_reach 2 2 (by decide) (by decide) (fun i j => -1 - (i : Int) - j)
  ⟨s, h1, h2, by intros; omega⟩

/-- **C14** (`min`): `min()` is the smallest entry (`numeric_limits<T>::max()` is an upper bound). -/
theorem C14_min {s : Sparse T} (hs : Reach s) {r c : Nat} {A : Nat → Nat → T}
    (hA : Shows s r c A) (init : T) (hinit : ∀ i j, i < r → j < c → A i j ≤ init) :
    (∀ i j, i < r → j < c → s.minE init ≤ A i j) ∧ ∃ i j, i < r ∧ j < c ∧ A i j = s.minE init := by
  obtain ⟨h1, h2, h3⟩ := foldl_min_spec s.values init
  have hmem := values_mem hs hA
  have hfull := full_iff hs hA
  have hr : 0 < r := by rw [← hA.1]; exact hs.inv.rows_pos
  have hc : 0 < c := by rw [← hA.2.1]; exact hs.inv.cols_pos
  unfold minE
  simp only
  generalize s.values.foldl (fun m l => if l < m then l else m) init = m at *
  split
  · rename_i hcond
    obtain ⟨i, j, hi, hj, hz⟩ := hfull.1 hcond.1
    refine ⟨?_, i, j, hi, hj, hz⟩
    intro a b ha hb
    by_cases hne : A a b = 0
    · rw [hne]
    · exact le_trans (le_of_lt hcond.2) (h2 _ ((hmem _).2 ⟨hne, a, b, ha, hb, rfl⟩))
  · rename_i hcond
    rw [not_and_or, not_not, not_lt] at hcond
    have hub : ∀ i j, i < r → j < c → m ≤ A i j := by
      intro a b ha hb
      by_cases hne : A a b = 0
      · rcases hcond with hcond | hcond
        · exact absurd ⟨a, b, ha, hb, hne⟩ (fun h => (hfull.2 h) hcond)
        · rw [hne]; exact hcond
      · exact h2 _ ((hmem _).2 ⟨hne, a, b, ha, hb, rfl⟩)
    refine ⟨hub, ?_⟩
    rcases h3 with h3 | h3
    · exact ⟨0, 0, hr, hc, le_antisymm (by rw [h3]; exact hinit 0 0 hr hc) (hub 0 0 hr hc)⟩
    · exact ((hmem m).1 h3).2

/-- **C14 fails** for `max` whenever the start value is positive (floating types): on every zero
matrix `max()` returns that start value instead of 0. -/
theorem C14_max_wrong {s : Sparse T} (hs : Reach s) {r c : Nat} (hA : Shows s r c (fun _ _ => 0))
    (init : T) (hpos : 0 < init) : s.maxE init = init := by
  have : s.isEmpty = true := (C02_stores_exactly_nonzeros hs hA).2.2.1.2 (by simp)
  have hv : s.values = [] := by unfold isEmpty at this; simpa using this
  unfold maxE
  rw [hv]
  exact ite_eq_right_iff.2 (fun h => absurd hpos (lt_asymm h.2))

end order

/-! ### C15 -/

/-- **C15** (partial: equal column counts): `swap` exchanges the two matrices. -/
theorem C15_swap_partial {s t : Sparse T} (hs : Reach s) (ht : Reach t)
    (hc : s.columns = t.columns) : Sparse.swap s t = (t, s) := by
  obtain ⟨rs, h1, -, -, -⟩ := hs.inv
  obtain ⟨rt, g1, -, -, -⟩ := ht.inv
  have e1 : s.empty = 0 := by rw [h1]; rfl
  have e2 : t.empty = 0 := by rw [g1]; rfl
  have hc' : s.cols = t.cols := hc
  cases s; cases t
  simp only [Sparse.swap] at *
  subst e1; subst e2; subst hc'; rfl

/-- **C15 fails**: `swap` never exchanges the column counts. -/
theorem C15_swap_wrong (s t : Sparse T) (hc : s.columns ≠ t.columns) :
    (Sparse.swap s t).1.columns ≠ t.columns ∧ (Sparse.swap s t).2.columns ≠ s.columns :=
  ⟨hc, fun h => hc h.symm⟩

/-- witness: a 1x1 and a 1x2 matrix -/
example : ∃ s t : Sparse Int, Reach s ∧ Reach t ∧ s.columns ≠ t.columns :=
  let ⟨s, h1, h2⟩ := exists_reach 1 1 (by decide) (by decide) (fun _ _ => (1 : Int))
  let ⟨t, h3, h4⟩ := exists_reach 1 2 (by decide) (by decide) (fun _ _ => (1 : Int))
  ⟨s, t, h1, h3, by rw [h2.2.1, h4.2.1]; decide⟩

/-! ### C16 -/

/-- **C16**: out-of-range calls abort before touching memory; in-range calls never fail. -/
theorem C16_out_of_range {s : Sparse T} (hs : Reach s) (i j k : Nat) (v : T) :
    (¬ (i < s.rows ∧ j < s.columns) →
      s.at' i j = .error .abort ∧ s.set i j v = .error .abort ∧ s.has i j = .error .abort) ∧
    (i < s.rows ∧ j < s.columns →
      (∃ x, s.at' i j = .ok x) ∧ (∃ x, s.set i j v = .ok x) ∧ (∃ x, s.has i j = .ok x)) ∧
    (¬ k < s.rows * s.columns → s.linearAt k = .error .abort ∧ s.linearSet k v = .error .abort) ∧
    (k < s.rows * s.columns → (∃ x, s.linearAt k = .ok x) ∧ (∃ x, s.linearSet k v = .ok x)) := by
  have h := hs.inv
  refine ⟨?_, ?_, ?_, ?_⟩
  · intro hij
    by_cases hi : i < s.rows
    · have hj : ¬ j < s.columns := fun hj => hij ⟨hi, hj⟩
      simp [at', Sparse.set, has, assert, hi, hj]
    · simp [at', Sparse.set, has, assert, hi]
  · rintro ⟨hi, hj⟩
    obtain ⟨s', h1, _⟩ := h.set_ok v hi hj
    exact ⟨⟨_, h.at_ok hi hj⟩, ⟨s', h1⟩, ⟨_, h.has_ok hi hj⟩⟩
  · intro hk
    have : ¬ k < s.size := hk
    simp [linearAt, linearSet, assert, this]
  · intro hk
    refine ⟨⟨_, C01_linear_at (Inv.shows h) k hk⟩, ?_⟩
    obtain ⟨s', h1, -⟩ := Op.run_ok h (.linearSet k v) hk
    exact ⟨s', h1⟩

end NS.Props.Sparse

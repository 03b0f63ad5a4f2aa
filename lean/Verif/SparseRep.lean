/-
The representation lemmas: CRS arrays as a packed list of sorted rows.
-/
import Verif.SparseModel
import Mathlib.Tactic.Ring
import Mathlib.Data.List.InsertIdx

set_option linter.unusedSectionVars false
set_option linter.unusedSimpArgs false

namespace NS
namespace Sparse
variable {T : Type}

/-- A matrix as the list of its rows, each the list of its (column, value) entries. -/
abbrev Rows (T : Type) := List (List (Nat × T))

/-- offset of row `i` -/
def offs (rs : Rows T) (i : Nat) : Nat := (rs.take i).flatten.length

/-- The CRS arrays that represent `rs`. -/
def pack [Zero T] (c : Nat) (rs : Rows T) : Sparse T :=
  ⟨rs.flatten.map (·.2), rs.flatten.map (·.1), (List.range rs.length).map (offs rs), c, 0⟩

/-- well-formed row: strictly increasing in-range columns, no stored zero -/
def RowOK [Zero T] (c : Nat) (r : List (Nat × T)) : Prop :=
  r.Pairwise (fun a b => a.1 < b.1) ∧ ∀ p ∈ r, p.1 < c ∧ p.2 ≠ 0

def RowsOK [Zero T] (c : Nat) (rs : Rows T) : Prop := ∀ r ∈ rs, RowOK c r

/-- value of a row at column `j` -/
def lookup [Zero T] : List (Nat × T) → Nat → T
  | [], _ => 0
  | (a, b) :: r, j => if a = j then b else lookup r j

def rowPos : List (Nat × T) → Nat → Nat
  | [], _ => 0
  | (a, _) :: r, j => if a < j then rowPos r j + 1 else 0

def rowFound : List (Nat × T) → Nat → Bool
  | [], _ => false
  | (a, _) :: r, j => if a < j then rowFound r j else a == j

def rowSet (j : Nat) (v : T) : List (Nat × T) → List (Nat × T)
  | [] => [(j, v)]
  | (a, b) :: r => if a < j then (a, b) :: rowSet j v r
                   else if a = j then (j, v) :: r else (j, v) :: (a, b) :: r

def rowDel (j : Nat) : List (Nat × T) → List (Nat × T)
  | [] => []
  | (a, b) :: r => if a < j then (a, b) :: rowDel j r else if a = j then r else (a, b) :: r

def rowUpd [Zero T] [DecidableEq T] (j : Nat) (v : T) (r : List (Nat × T)) : List (Nat × T) :=
  if v = 0 then rowDel j r else rowSet j v r

/-! ### basic facts -/

theorem insertIdx_append_right' {α} (A l : List α) (k : Nat) (a : α) :
    (A ++ l).insertIdx (A.length + k) a = A ++ l.insertIdx k a := by
  induction A with
  | nil => simp
  | cons b A ih =>
    rw [List.length_cons, Nat.add_right_comm, List.cons_append, List.insertIdx_succ_cons, ih]; rfl

theorem insertIdx_append_left' {α} (l B : List α) (k : Nat) (a : α) (h : k ≤ l.length) :
    (l ++ B).insertIdx k a = l.insertIdx k a ++ B := by
  induction l generalizing k with
  | nil => simp at h; subst h; simp
  | cons b l ih =>
    cases k with
    | zero => simp
    | succ k => simp only [List.cons_append, List.insertIdx_succ_cons]; rw [ih]; simpa using h

theorem rowPos_le (r : List (Nat × T)) (j : Nat) : rowPos r j ≤ r.length := by
  induction r with
  | nil => simp [rowPos]
  | cons p r ih =>
    obtain ⟨a, b⟩ := p
    simp only [rowPos, List.length_cons]
    split <;> omega

theorem rowFound_lt {r : List (Nat × T)} {j : Nat} (h : rowFound r j = true) :
    rowPos r j < r.length := by
  induction r with
  | nil => simp [rowFound] at h
  | cons p r ih =>
    obtain ⟨a, b⟩ := p
    simp only [rowFound] at h
    simp only [rowPos, List.length_cons]
    split
    · rename_i h1; simp [h1] at h; have := ih h; omega
    · omega

theorem rowFound_get {r : List (Nat × T)} {j : Nat} (h : rowFound r j = true) :
    ∃ b, r[rowPos r j]? = some (j, b) := by
  induction r with
  | nil => simp [rowFound] at h
  | cons p r ih =>
    obtain ⟨a, b⟩ := p
    simp only [rowFound] at h
    simp only [rowPos]
    split
    · rename_i h1; simp [h1] at h; simpa using ih h
    · rename_i h1; simp [h1] at h; subst h; exact ⟨b, by simp⟩

theorem rowSet_eq (j : Nat) (v : T) (r : List (Nat × T)) :
    rowSet j v r = if rowFound r j then r.set (rowPos r j) (j, v)
      else r.insertIdx (rowPos r j) (j, v) := by
  induction r with
  | nil => simp [rowSet, rowFound, rowPos]
  | cons p r ih =>
    obtain ⟨a, b⟩ := p
    simp only [rowSet, rowFound, rowPos]
    by_cases h1 : a < j
    · simp only [h1, if_true, ih]
      split <;> simp
    · simp only [h1, if_false]
      by_cases h2 : a = j
      · simp [h2]
      · simp [h2]

theorem rowDel_eq (j : Nat) (r : List (Nat × T)) :
    rowDel j r = if rowFound r j then r.eraseIdx (rowPos r j) else r := by
  induction r with
  | nil => simp [rowDel, rowFound]
  | cons p r ih =>
    obtain ⟨a, b⟩ := p
    simp only [rowDel, rowFound, rowPos]
    by_cases h1 : a < j
    · simp only [h1, if_true, ih]
      split <;> simp
    · simp only [h1, if_false]
      by_cases h2 : a = j
      · simp [h2]
      · simp [h2]

section
variable [Zero T]

theorem lookup_of_lt {r : List (Nat × T)} {j : Nat} (h : ∀ p ∈ r, j < p.1) : lookup r j = 0 := by
  induction r with
  | nil => rfl
  | cons p r ih =>
    obtain ⟨a, b⟩ := p
    have h1 : j < a := h (a, b) (by simp)
    simp only [lookup]
    rw [if_neg (by omega)]
    exact ih fun q hq => h q (by simp [hq])

theorem lookup_mem {c : Nat} {r : List (Nat × T)} (h : RowOK c r) {j : Nat} {v : T} :
    (j, v) ∈ r ↔ lookup r j = v ∧ v ≠ 0 := by
  induction r with
  | nil => simp [lookup]; intro h; exact h.symm
  | cons p r ih =>
    obtain ⟨a, b⟩ := p
    obtain ⟨hs, hp⟩ := h
    rw [List.pairwise_cons] at hs
    have hr : RowOK c r := ⟨hs.2, fun q hq => hp q (by simp [hq])⟩
    have hb := (hp (a, b) (by simp)).2
    simp only [lookup, List.mem_cons, Prod.mk.injEq]
    by_cases haj : a = j
    · subst haj
      simp only [if_true, true_and]
      constructor
      · rintro (h | h)
        · subst h; exact ⟨rfl, hb⟩
        · have := hs.1 _ h; simp at this
      · rintro ⟨h, _⟩; exact Or.inl h.symm
    · have hja : ¬ j = a := fun h => haj h.symm
      simp only [haj, hja, false_and, false_or, if_false]
      exact ih hr

theorem rowFound_iff {c : Nat} {r : List (Nat × T)} (h : RowOK c r) (j : Nat) :
    rowFound r j = true ↔ lookup r j ≠ 0 := by
  induction r with
  | nil => simp [rowFound, lookup]
  | cons p r ih =>
    obtain ⟨a, b⟩ := p
    obtain ⟨hs, hp⟩ := h
    rw [List.pairwise_cons] at hs
    have hr : RowOK c r := ⟨hs.2, fun q hq => hp q (by simp [hq])⟩
    have hb := (hp (a, b) (by simp)).2
    simp only [rowFound, lookup]
    by_cases h1 : a < j
    · rw [if_pos h1, if_neg (by omega)]; exact ih hr
    · rw [if_neg h1]
      by_cases h2 : a = j
      · simpa [h2] using hb
      · simp only [h2, if_false, beq_iff_eq, false_iff, ne_eq, not_not]
        exact lookup_of_lt fun q hq => by
          have := hs.1 q hq; simp at this; omega

theorem rowFound_lookup {c : Nat} {r : List (Nat × T)} (h : RowOK c r) {j : Nat}
    (hf : rowFound r j = true) : r[rowPos r j]? = some (j, lookup r j) := by
  obtain ⟨b, hb⟩ := rowFound_get hf
  have hm : (j, b) ∈ r := List.mem_of_getElem? hb
  rw [hb, ((lookup_mem h).1 hm).1]

theorem mem_rowSet {j : Nat} {v : T} {r : List (Nat × T)} {p : Nat × T}
    (h : p ∈ rowSet j v r) : p = (j, v) ∨ p ∈ r := by
  induction r with
  | nil => simp [rowSet] at h; exact Or.inl h
  | cons q r ih =>
    obtain ⟨a, b⟩ := q
    simp only [rowSet] at h
    split at h
    · rcases List.mem_cons.1 h with h | h
      · right; simp [h]
      · rcases ih h with h | h
        · exact Or.inl h
        · right; simp [h]
    · split at h
      · rcases List.mem_cons.1 h with h | h
        · exact Or.inl h
        · right; simp [h]
      · rcases List.mem_cons.1 h with h | h
        · exact Or.inl h
        · right; exact h

theorem mem_rowDel {j : Nat} {r : List (Nat × T)} {p : Nat × T}
    (h : p ∈ rowDel j r) : p ∈ r := by
  induction r with
  | nil => simp [rowDel] at h
  | cons q r ih =>
    obtain ⟨a, b⟩ := q
    simp only [rowDel] at h
    split at h
    · rcases List.mem_cons.1 h with h | h
      · simp [h]
      · simp [ih h]
    · split at h
      · simp [h]
      · exact h

theorem rowSet_ok {c j : Nat} {v : T} {r : List (Nat × T)} (h : RowOK c r) (hj : j < c)
    (hv : v ≠ 0) : RowOK c (rowSet j v r) := by
  refine ⟨?_, fun p hp => ?_⟩
  · induction r with
    | nil => simp [rowSet]
    | cons q r ih =>
      obtain ⟨a, b⟩ := q
      obtain ⟨hs, hp⟩ := h
      rw [List.pairwise_cons] at hs
      have hr : RowOK c r := ⟨hs.2, fun q hq => hp q (by simp [hq])⟩
      simp only [rowSet]
      split
      · rename_i h1
        rw [List.pairwise_cons]
        refine ⟨fun p hp => ?_, ih hr⟩
        rcases mem_rowSet hp with h | h
        · subst h; exact h1
        · exact hs.1 _ h
      · split
        · rename_i h1 h2; subst h2
          rw [List.pairwise_cons]; exact ⟨hs.1, hs.2⟩
        · rename_i h1 h2
          rw [List.pairwise_cons]
          refine ⟨fun p hp => ?_, List.pairwise_cons.2 hs⟩
          rcases List.mem_cons.1 hp with h | h
          · subst h; simp; omega
          · have := hs.1 _ h; simp at this ⊢; omega
  · rcases mem_rowSet hp with h' | h'
    · subst h'; exact ⟨hj, hv⟩
    · exact h.2 _ h'

theorem rowDel_ok {c j : Nat} {r : List (Nat × T)} (h : RowOK c r) : RowOK c (rowDel j r) := by
  refine ⟨?_, fun p hp => h.2 _ (mem_rowDel hp)⟩
  rw [rowDel_eq]
  split
  · exact h.1.sublist (List.eraseIdx_sublist _ _)
  · exact h.1

theorem lookup_rowSet {c j : Nat} {v : T} {r : List (Nat × T)} (h : RowOK c r) (k : Nat) :
    lookup (rowSet j v r) k = if k = j then v else lookup r k := by
  induction r with
  | nil => simp only [rowSet, lookup]; by_cases hk : k = j
           · simp [hk]
           · have hk' : ¬ j = k := fun h => hk h.symm
             simp [hk, hk']
  | cons q r ih =>
    obtain ⟨a, b⟩ := q
    obtain ⟨hs, hp⟩ := h
    rw [List.pairwise_cons] at hs
    have hr : RowOK c r := ⟨hs.2, fun q hq => hp q (by simp [hq])⟩
    simp only [rowSet]
    split
    · rename_i h1
      simp only [lookup, ih hr]
      split
      · rw [if_neg (by omega)]
      · rfl
    · split
      · rename_i h1 h2; subst h2
        simp only [lookup]
        by_cases hk : k = a
        · simp [hk]
        · have hk' : ¬ a = k := fun h => hk h.symm
          simp [hk, hk']
      · simp only [lookup]
        by_cases hk : k = j
        · simp [hk]
        · have hk' : ¬ j = k := fun h => hk h.symm
          simp [hk, hk', lookup]

theorem lookup_rowDel {c j : Nat} {r : List (Nat × T)} (h : RowOK c r) (k : Nat) :
    lookup (rowDel j r) k = if k = j then 0 else lookup r k := by
  induction r with
  | nil => simp [rowDel, lookup]
  | cons q r ih =>
    obtain ⟨a, b⟩ := q
    obtain ⟨hs, hp⟩ := h
    rw [List.pairwise_cons] at hs
    have hr : RowOK c r := ⟨hs.2, fun q hq => hp q (by simp [hq])⟩
    simp only [rowDel]
    split
    · rename_i h1
      simp only [lookup, ih hr]
      split
      · rw [if_neg (by omega)]
      · rfl
    · split
      · rename_i h1 h2; subst h2
        simp only [lookup]
        by_cases hk : k = a
        · subst hk; rw [if_pos rfl]
          exact lookup_of_lt fun q hq => by simpa using hs.1 q hq
        · have hk' : ¬ a = k := fun h => hk h.symm
          simp [hk, hk']
      · rename_i h1 h2
        by_cases hk : k = j
        · subst hk; rw [if_pos rfl]
          apply lookup_of_lt
          intro q hq
          rcases List.mem_cons.1 hq with h | h
          · subst h; simp; omega
          · have := hs.1 _ h; simp at this ⊢; omega
        · simp [hk]

variable [DecidableEq T]

theorem rowUpd_ok {c j : Nat} {v : T} {r : List (Nat × T)} (h : RowOK c r) (hj : j < c) :
    RowOK c (rowUpd j v r) := by
  unfold rowUpd
  split
  · exact rowDel_ok h
  · rename_i hv; exact rowSet_ok h hj hv

theorem lookup_rowUpd {c j : Nat} {v : T} {r : List (Nat × T)} (h : RowOK c r) (k : Nat) :
    lookup (rowUpd j v r) k = if k = j then v else lookup r k := by
  unfold rowUpd
  split
  · rename_i hv; subst hv; exact lookup_rowDel h k
  · exact lookup_rowSet h k

end

/-! ### offsets -/

theorem offs_append_left (P S : Rows T) {k : Nat} (h : k ≤ P.length) :
    offs (P ++ S) k = offs P k := by
  simp [offs, List.take_append_of_le_length h]

theorem offs_length (P : Rows T) : offs P P.length = P.flatten.length := by simp [offs]

theorem offs_append_right (P S : Rows T) (k : Nat) :
    offs (P ++ S) (P.length + k) = P.flatten.length + offs S k := by
  unfold offs
  rw [List.take_append, List.take_of_length_le (by omega), Nat.add_sub_cancel_left,
    List.flatten_append, List.length_append]

theorem offs_cons_succ (r : List (Nat × T)) (S : Rows T) (k : Nat) :
    offs (r :: S) (k + 1) = r.length + offs S k := by
  simp [offs]

theorem offs_zero (rs : Rows T) : offs rs 0 = 0 := by simp [offs]

theorem offs_mono (rs : Rows T) {i j : Nat} (h : i ≤ j) : offs rs i ≤ offs rs j := by
  unfold offs
  obtain ⟨d, rfl⟩ := Nat.exists_eq_add_of_le h
  rw [List.take_add, List.flatten_append, List.length_append]
  omega

section pack
variable [Zero T]

@[simp] theorem pack_rows (c : Nat) (rs : Rows T) : (pack c rs).rows = rs.length := by
  simp [pack, rows]
@[simp] theorem pack_columns (c : Nat) (rs : Rows T) : (pack c rs).columns = c := rfl
@[simp] theorem pack_cols (c : Nat) (rs : Rows T) : (pack c rs).cols = c := rfl
@[simp] theorem pack_empty (c : Nat) (rs : Rows T) : (pack c rs).empty = 0 := rfl
@[simp] theorem pack_values (c : Nat) (rs : Rows T) :
    (pack c rs).values = rs.flatten.map (·.2) := rfl
@[simp] theorem pack_colPtr (c : Nat) (rs : Rows T) :
    (pack c rs).colPtr = rs.flatten.map (·.1) := rfl

theorem pack_rowPtr_get (c : Nat) (rs : Rows T) {i : Nat} (h : i < rs.length) :
    getIdx (pack c rs).rowPtr i = .ok (offs rs i) := by
  apply getIdx_of_some
  simp [pack, h]

theorem isEmpty_pack (c : Nat) (rs : Rows T) : (pack c rs).isEmpty = rs.flatten.isEmpty := by
  unfold isEmpty
  rw [pack_values]
  cases rs.flatten <;> rfl

theorem rowEntryCount_pack (c : Nat) (P : Rows T) (r : List (Nat × T)) (S : Rows T) :
    (pack c (P ++ r :: S)).rowEntryCount P.length = .ok (r.length, P.flatten.length) := by
  have hlt : P.length < (P ++ r :: S).length := by simp
  unfold rowEntryCount
  simp only [pack_rows, hlt, if_true]
  rw [pack_rowPtr_get _ _ hlt, offs_append_left _ _ (Nat.le_refl _), offs_length]
  simp only [ok_bind]
  have hw : wsub (P ++ r :: S).length 1 = P.length + S.length := by
    rw [wsub_of_le (by simp; omega)]; simp
  rw [hw]
  by_cases hS : S = []
  · subst hS
    rw [if_neg (by simp), pack_colPtr, List.length_map, wsub_of_le (by simp)]
    simp only [List.flatten_append, List.length_append, pure_eq_ok]
    congr 2; simp
  · have hSl : 0 < S.length := List.length_pos_iff.2 hS
    rw [if_pos (by omega)]
    have h1 : P.length + 1 < (P ++ r :: S).length := by simp; omega
    rw [pack_rowPtr_get _ _ h1, offs_append_right, offs_cons_succ, offs_zero]
    simp [wsub]

theorem scan_eq (A B : List Nat) (r : List (Nat × T)) (j : Nat) :
    scan (A ++ r.map (·.1) ++ B) j r.length A.length = .ok (A.length + rowPos r j, rowFound r j) := by
  induction r generalizing A with
  | nil => simp [scan, rowPos, rowFound]
  | cons p r ih =>
    obtain ⟨a, b⟩ := p
    simp only [List.length_cons, scan]
    have hg : getIdx (A ++ List.map (·.1) ((a, b) :: r) ++ B) A.length = .ok a := by
      apply getIdx_of_some; simp
    rw [hg]
    simp only [ok_bind, rowPos, rowFound]
    by_cases h1 : a < j
    · rw [if_neg (by omega), if_neg (by omega), if_pos h1, if_pos h1]
      have := ih (A ++ [a])
      simp only [List.length_append, List.length_cons, List.length_nil, List.append_assoc,
        List.cons_append, List.nil_append] at this
      simp only [List.map_cons, List.append_assoc, List.cons_append]
      rw [show A.length + 1 = A.length + (0 + 1) from rfl, this]
      congr 2; omega
    · by_cases h2 : a = j
      · simp [h2]
      · rw [if_neg h2, if_pos (by omega), if_neg h1, if_neg h1]; simp [h2]

theorem scan_pack (P : Rows T) (r : List (Nat × T)) (S : Rows T) (j : Nat) :
    scan ((P ++ r :: S).flatten.map (·.1)) j r.length P.flatten.length
      = .ok (P.flatten.length + rowPos r j, rowFound r j) := by
  have := scan_eq (P.flatten.map (·.1)) (S.flatten.map (·.1)) r j
  simp only [List.length_map] at this
  rw [← this]
  simp only [List.flatten_append, List.flatten_cons, List.map_append, List.append_assoc]

/-- Rows before a non-empty row in `S` when `r` and those rows are empty. -/
theorem skipRows_pack (c : Nat) (P : Rows T) (r : List (Nat × T)) (S : Rows T) (n : Nat)
    (hn : S.length ≤ n) :
    ∃ ti cnt rp, (pack c (P ++ r :: S)).skipRows n P.length = .ok (ti, cnt, rp) ∧
      rp = P.flatten.length ∧ P.length ≤ ti ∧ (ti = P.length → cnt = r.length) ∧
      (ti ≠ P.length → r = []) := by
  induction S generalizing P r n with
  | nil =>
    cases n with
    | zero =>
      refine ⟨_, _, _, by simp only [skipRows, rowEntryCount_pack, ok_bind]; rfl, rfl, Nat.le_refl _, fun _ => rfl, ?_⟩
      intro h; exact absurd rfl h
    | succ n =>
      refine ⟨P.length, r.length, P.flatten.length, ?_, rfl, Nat.le_refl _, fun _ => rfl, fun h => absurd rfl h⟩
      simp [skipRows, rowEntryCount_pack, wsub]
  | cons r' S ih =>
    cases n with
    | zero => simp at hn
    | succ n =>
      simp only [skipRows, rowEntryCount_pack, ok_bind]
      by_cases hr : r = []
      · subst hr
        have hlt : P.length < wsub (pack c (P ++ [] :: r' :: S)).rows 1 := by
          rw [pack_rows, wsub_of_le (by simp; omega)]; simp
        rw [if_pos ⟨rfl, hlt⟩]
        obtain ⟨ti, cnt, rp, h1, h2, h3, h4, h5⟩ := ih (P ++ [[]]) r' n (by simpa using hn)
        simp only [List.append_assoc, List.cons_append, List.nil_append, List.length_append,
          List.length_cons, List.length_nil] at h1 h2 h3 h4 h5
        refine ⟨ti, cnt, rp, h1, by simpa using h2, by omega, fun h => by omega, fun _ => rfl⟩
      · have : ¬ (r.length = 0 ∧ P.length < wsub (pack c (P ++ r :: r' :: S)).rows 1) := by
          intro h; exact hr (List.length_eq_zero_iff.1 h.1)
        rw [if_neg this]
        exact ⟨_, _, _, rfl, rfl, Nat.le_refl _, fun _ => rfl, fun h => absurd rfl h⟩

variable [DecidableEq T]

theorem internalAt_pack (c : Nat) (P : Rows T) (r : List (Nat × T)) (S : Rows T) (j : Nat)
    (near : Bool) :
    (pack c (P ++ r :: S)).internalAt P.length j near
      = .ok (if near = false ∧ (P ++ r :: S).flatten = [] then 0 else P.flatten.length + rowPos r j,
        rowFound r j) := by
  unfold internalAt
  rw [isEmpty_pack]
  by_cases he : (P ++ r :: S).flatten = []
  · have hP : P.flatten = [] := by
      rw [List.flatten_append] at he; exact (List.append_eq_nil_iff.1 he).1
    have hr : r = [] := by
      rw [List.flatten_append, List.flatten_cons] at he
      exact (List.append_eq_nil_iff.1 (List.append_eq_nil_iff.1 he).2).1
    rw [if_pos (by rw [he]; rfl), assert_true (pack_empty c (P ++ r :: S))]
    simp only [ok_bind, pure_eq_ok, hP]
    rw [hr]
    simp [rowPos, rowFound]
  · have he' : (P ++ r :: S).flatten.isEmpty = false := by
      cases h : (P ++ r :: S).flatten with
      | nil => exact absurd h he
      | cons _ _ => rfl
    rw [he']
    simp only [Bool.false_eq_true, if_false, he, and_false]
    cases near with
    | false =>
      simp only [findRow, Bool.false_eq_true, if_false, rowEntryCount_pack, ok_bind, pack_colPtr]
      simp only [pure_eq_ok, ok_bind, if_true, scan_pack]
      split
      · rename_i h; rw [h]
      · rename_i h; simp [h]
    | true =>
      obtain ⟨ti, cnt, rp, h1, h2, h3, h4, h5⟩ :=
        skipRows_pack c P r S ((P ++ r :: S).length - P.length) (by simp)
      simp only [findRow, if_true, pack_rows, h1, ok_bind]
      by_cases ht : ti = P.length
      · rw [if_pos ht, h4 ht, h2, pack_colPtr, scan_pack]
        simp only [ok_bind]
        split
        · rename_i h; rw [h]; rfl
        · rename_i h; simp [h]
      · rw [if_neg ht]
        have := h5 ht; subst this
        simp [h2, rowPos, rowFound]

omit [Zero T] [DecidableEq T] in
/-- after a shift of the row pointers -/
theorem shift_pack (P : Rows T) (r r' : List (Nat × T)) (S : Rows T) (f : Nat → Nat)
    (hf : ∀ k, f (P.flatten.length + r.length + offs S k) = P.flatten.length + r'.length + offs S k) :
    ((List.range (P ++ r :: S).length).map (offs (P ++ r :: S))).mapIdx
        (fun k p => if k ≥ P.length + 1 then f p else p)
      = (List.range (P ++ r' :: S).length).map (offs (P ++ r' :: S)) := by
  apply List.ext_getElem
  · simp
  · intro k h1 h2
    simp only [List.getElem_mapIdx, List.getElem_map, List.getElem_range]
    by_cases hk : k ≥ P.length + 1
    · rw [if_pos hk]
      obtain ⟨d, rfl⟩ := Nat.exists_eq_add_of_le hk
      rw [Nat.add_assoc, offs_append_right, offs_append_right, Nat.add_comm 1 d, offs_cons_succ,
        offs_cons_succ, ← Nat.add_assoc, ← Nat.add_assoc, hf]
    · rw [if_neg hk]
      have : k ≤ P.length := by omega
      rw [offs_append_left _ _ this, offs_append_left _ _ this]

theorem removeAt_pack (c : Nat) (P : Rows T) (r : List (Nat × T)) (S : Rows T) (j : Nat) :
    (pack c (P ++ r :: S)).removeAt P.length j = .ok (pack c (P ++ rowDel j r :: S)) := by
  unfold removeAt
  rw [internalAt_pack]
  simp only [ok_bind]
  by_cases hf : rowFound r j = true
  · have hlt := rowFound_lt hf
    have hne : ¬ (P ++ r :: S).flatten = [] := by
      intro h
      have : (P ++ r :: S).flatten.length = 0 := by rw [h]; rfl
      simp only [List.flatten_append, List.flatten_cons, List.length_append] at this; omega
    simp only [hf, if_true, hne, and_false, if_false]
    have hfl : (P ++ r :: S).flatten = P.flatten ++ (r ++ S.flatten) := by simp
    have e1 : (P ++ r :: S).flatten.eraseIdx (P.flatten.length + rowPos r j)
        = (P ++ rowDel j r :: S).flatten := by
      rw [hfl, List.eraseIdx_append_of_length_le (by omega), Nat.add_sub_cancel_left,
        List.eraseIdx_append_of_lt_length hlt, rowDel_eq, if_pos hf]
      simp
    have hl : P.flatten.length + rowPos r j < (P ++ r :: S).flatten.length := by
      rw [hfl]; simp only [List.length_append]; omega
    simp only [eraseAt, pack_values, pack_colPtr, List.length_map, hl, if_true, ok_bind]
    rw [List.eraseIdx_map, List.eraseIdx_map, e1]
    have hd : (rowDel j r).length = r.length - 1 := by
      rw [rowDel_eq, if_pos hf, List.length_eraseIdx_of_lt hlt]
    simp only [shiftRows, pack, pure_eq_ok]
    rw [shift_pack P r (rowDel j r) S]
    intro k
    rw [wsub_of_le (by omega)]; omega
  · simp only [hf]
    rw [rowDel_eq]; simp [hf]

theorem setAt_pack (c : Nat) (P : Rows T) (r : List (Nat × T)) (S : Rows T) (j : Nat) (v : T) :
    (pack c (P ++ r :: S)).setAt P.length j v = .ok (pack c (P ++ rowSet j v r :: S)) := by
  unfold setAt
  rw [internalAt_pack]
  simp only [ok_bind, Bool.true_eq_false, false_and, if_false]
  have hfl : (P ++ r :: S).flatten = P.flatten ++ (r ++ S.flatten) := by simp
  by_cases hf : rowFound r j = true
  · have hlt := rowFound_lt hf
    have hl : P.flatten.length + rowPos r j < (P ++ r :: S).flatten.length := by
      rw [hfl]; simp only [List.length_append]; omega
    simp only [hf, if_true]
    rw [setIdx_eq _ (by rw [pack_values, List.length_map]; exact hl)]
    have hs : rowSet j v r = r.set (rowPos r j) (j, v) := by rw [rowSet_eq, if_pos hf]
    obtain ⟨b, hb⟩ := rowFound_get hf
    have hcol : (rowSet j v r).map (·.1) = r.map (·.1) := by
      rw [hs, List.map_set]
      apply List.ext_getElem? ; intro k
      rw [List.getElem?_set]
      split
      · rename_i hk; subst hk
        rw [if_pos (by simpa using hlt), List.getElem?_map, hb]; rfl
      · rfl
    have hlen : (rowSet j v r).length = r.length := by rw [hs]; simp
    simp only [ok_bind, pure_eq_ok, pack]
    congr 2
    · rw [hfl, List.map_append, List.set_append_right _ _ (by rw [List.length_map]; omega)]
      simp only [List.length_map, Nat.add_sub_cancel_left]
      rw [List.map_append, List.set_append_left _ _ (by simpa using hlt), show v = (fun x : Nat × T => x.2) (j, v) from rfl, ← List.map_set, ← hs]
      simp
    · simp [hcol]
    · apply List.ext_getElem
      · simp
      · intro k h1 h2
        simp only [List.getElem_map, List.getElem_range]
        by_cases hk : k ≥ P.length + 1
        · obtain ⟨d, rfl⟩ := Nat.exists_eq_add_of_le hk
          rw [Nat.add_assoc, offs_append_right, offs_append_right, Nat.add_comm 1 d, offs_cons_succ,
            offs_cons_succ, hlen]
        · have : k ≤ P.length := by omega
          rw [offs_append_left _ _ this, offs_append_left _ _ this]
  · have hpos := rowPos_le r j
    have hl : P.flatten.length + rowPos r j ≤ (P ++ r :: S).flatten.length := by
      rw [hfl]; simp only [List.length_append]; omega
    have hs : rowSet j v r = r.insertIdx (rowPos r j) (j, v) := by rw [rowSet_eq, if_neg hf]
    have e1 : (P ++ r :: S).flatten.insertIdx (P.flatten.length + rowPos r j) (j, v)
        = (P ++ rowSet j v r :: S).flatten := by
      rw [hfl, insertIdx_append_right',
        insertIdx_append_left' _ _ _ _ hpos, hs]
      simp
    simp only [hf, insertAt, pack_values, pack_colPtr, List.length_map, hl, if_true, ok_bind,
      Bool.false_eq_true, if_false]
    rw [← List.map_insertIdx (fun x : Nat × T => x.2) _ _ (j, v), ← List.map_insertIdx (fun x : Nat × T => x.1) _ _ (j, v), e1]
    have hd : (rowSet j v r).length = r.length + 1 := by
      rw [hs, List.length_insertIdx_of_le_length hpos]
    simp only [shiftRows, pack, pure_eq_ok]
    rw [shift_pack P r (rowSet j v r) S]
    intro k; omega

end pack
end Sparse
end NS

/-
The representation invariant of `SparseMatrix` and the API-level lemmas that follow from it.
Everything after this file works with `Inv`, `val` and the lemmas below only.
-/
import Verif.SparseIter
import Mathlib.Algebra.BigOperators.Group.Finset.Basic
import Mathlib.Algebra.BigOperators.Ring.Finset
import Mathlib.Data.List.GetD

set_option linter.unusedSectionVars false
set_option linter.unusedSimpArgs false

namespace NS
namespace Sparse
variable {T : Type}

section
variable [Zero T] [DecidableEq T]

/-- The value returned by `at(i,j)` (0 when the call fails). -/
def val (s : Sparse T) (i j : Nat) : T :=
  match s.at' i j with
  | .ok v => v
  | .error _ => 0

/-- The representation invariant. -/
def Inv (s : Sparse T) : Prop :=
  ∃ rs : Rows T, s = pack s.cols rs ∧ RowsOK s.cols rs ∧ 0 < rs.length ∧ 0 < s.cols

def ent (rs : Rows T) (i j : Nat) : T := lookup (rs.getD i []) j

theorem split_at {α} {rs : List α} {i : Nat} (h : i < rs.length) :
    ∃ P r S, rs = P ++ r :: S ∧ P.length = i := by
  refine ⟨rs.take i, rs[i], rs.drop (i + 1), ?_, by simp; omega⟩
  rw [← List.drop_eq_getElem_cons h, List.take_append_drop]

theorem ent_mid (P : Rows T) (r : List (Nat × T)) (S : Rows T) (j : Nat) :
    ent (P ++ r :: S) P.length j = lookup r j := by
  simp [ent, List.getD_eq_getElem?_getD]

theorem internalVal_pack {c : Nat} {P : Rows T} {r : List (Nat × T)} {S : Rows T} (hok : RowOK c r)
    (j : Nat) (near : Bool) :
    (pack c (P ++ r :: S)).internalVal
      (if near = false ∧ (P ++ r :: S).flatten = [] then 0 else P.flatten.length + rowPos r j)
      (rowFound r j) = .ok (lookup r j) := by
  unfold internalVal
  by_cases hf : rowFound r j = true
  · have hlt := rowFound_lt hf
    have hne : ¬ (P ++ r :: S).flatten = [] := by
      intro h
      have := congrArg List.length h
      simp only [List.flatten_append, List.flatten_cons, List.length_append, List.length_nil] at this
      omega
    rw [if_pos hf, if_neg (fun h => hne h.2)]
    apply getIdx_of_some
    rw [pack_values, List.getElem?_map, List.flatten_append, List.flatten_cons,
      List.getElem?_append_right (by omega), Nat.add_sub_cancel_left,
      List.getElem?_append_left hlt, rowFound_lookup hok hf]
    rfl
  · rw [if_neg hf]
    have := mt (rowFound_iff hok j).2 hf
    simp at this
    simp [this]

theorem at_pack {c : Nat} {rs : Rows T} (hok : RowsOK c rs) {i j : Nat} (hi : i < rs.length)
    (hj : j < c) : (pack c rs).at' i j = .ok (ent rs i j) := by
  obtain ⟨P, r, S, rfl, rfl⟩ := split_at hi
  unfold at'
  rw [assert_true (by simp), assert_true (by simpa using hj), internalAt_pack]
  have := internalVal_pack (P := P) (S := S) hok.mid j false
  simp only [true_and] at this
  simp only [ok_bind, true_and, this, ent_mid]

theorem has_pack {c : Nat} {rs : Rows T} (hok : RowsOK c rs) {i j : Nat} (hi : i < rs.length)
    (hj : j < c) : (pack c rs).has i j = .ok (decide (ent rs i j ≠ 0)) := by
  obtain ⟨P, r, S, rfl, rfl⟩ := split_at hi
  unfold has
  rw [assert_true (by simp), assert_true (by simpa using hj), internalAt_pack]
  simp only [ok_bind, pure_eq_ok, ent_mid]
  congr 1
  rw [Bool.eq_iff_iff, rowFound_iff hok.mid]; simp

theorem hasVal_pack {c : Nat} {rs : Rows T} (hok : RowsOK c rs) {i j : Nat} (hi : i < rs.length)
    (hj : j < c) : (pack c rs).hasVal i j = .ok (decide (ent rs i j ≠ 0), ent rs i j) := by
  obtain ⟨P, r, S, rfl, rfl⟩ := split_at hi
  unfold hasVal
  rw [assert_true (by simp), assert_true (by simpa using hj), internalAt_pack]
  have := internalVal_pack (P := P) (S := S) hok.mid j false
  simp only [ok_bind, pure_eq_ok, ent_mid]
  simp only [true_and] at this
  simp only [true_and, this]
  simp only [ok_bind]
  congr 2
  rw [Bool.eq_iff_iff, rowFound_iff hok.mid]; simp

theorem set_pack {c : Nat} (P : Rows T) (r : List (Nat × T)) (S : Rows T) {j : Nat} (v : T)
    (hj : j < c) : (pack c (P ++ r :: S)).set P.length j v = .ok (pack c (P ++ rowUpd j v r :: S)) := by
  unfold set
  rw [assert_true (by simp), assert_true (by simpa using hj)]
  simp only [ok_bind, rowUpd]
  split
  · exact removeAt_pack c P r S j
  · exact setAt_pack c P r S j v

theorem val_pack {c : Nat} {rs : Rows T} (hok : RowsOK c rs) (i j : Nat) :
    (pack c rs).val i j = if i < rs.length ∧ j < c then ent rs i j else 0 := by
  unfold val
  by_cases h : i < rs.length ∧ j < c
  · rw [at_pack hok h.1 h.2, if_pos h]
  · rw [if_neg h]
    have : (pack c rs).at' i j = .error .abort := by
      unfold at'
      by_cases hi : i < rs.length
      · rw [assert_true (by simpa using hi), assert_false (by simp; omega)]; rfl
      · rw [assert_false (by simpa using hi)]; rfl
    rw [this]

theorem ent_eq_zero_of_ge {c : Nat} {rs : Rows T} (hok : RowsOK c rs) {i j : Nat}
    (h : ¬ (i < rs.length ∧ j < c)) : ent rs i j = 0 := by
  by_cases hi : i < rs.length
  · obtain ⟨P, r, S, rfl, rfl⟩ := split_at hi
    rw [ent_mid]
    by_contra hne
    have := (lookup_mem hok.mid (j := j) (v := lookup r j)).2 ⟨rfl, hne⟩
    have := (hok.mid.2 _ this).1
    simp at this
    exact h ⟨hi, this⟩
  · unfold ent
    rw [List.getD_eq_default _ _ (by omega)]; rfl

theorem val_pack' {c : Nat} {rs : Rows T} (hok : RowsOK c rs) (i j : Nat) :
    (pack c rs).val i j = ent rs i j := by
  rw [val_pack hok]
  split
  · rfl
  · rename_i h; exact (ent_eq_zero_of_ge hok h).symm

/-! ### API-level lemmas -/

theorem Inv.rows_pos {s : Sparse T} (h : Inv s) : 0 < s.rows := by
  obtain ⟨rs, h1, _, h3, _⟩ := h
  rw [h1]; simpa using h3

theorem Inv.cols_pos {s : Sparse T} (h : Inv s) : 0 < s.columns := by
  obtain ⟨rs, h1, _, _, h4⟩ := h
  exact h4

theorem Inv.at_ok {s : Sparse T} (h : Inv s) {i j : Nat} (hi : i < s.rows) (hj : j < s.columns) :
    s.at' i j = .ok (s.val i j) := by
  obtain ⟨rs, h1, h2, h3, h4⟩ := h
  rw [h1] at hi hj ⊢
  rw [at_pack h2 (by simpa using hi) (by simpa using hj), val_pack' h2]

theorem Inv.val_zero {s : Sparse T} (h : Inv s) {i j : Nat} (hij : ¬ (i < s.rows ∧ j < s.columns)) :
    s.val i j = 0 := by
  obtain ⟨rs, h1, h2, h3, h4⟩ := h
  rw [h1] at hij ⊢
  rw [val_pack' h2]
  exact ent_eq_zero_of_ge h2 (by simpa using hij)

theorem Inv.has_ok {s : Sparse T} (h : Inv s) {i j : Nat} (hi : i < s.rows) (hj : j < s.columns) :
    s.has i j = .ok (decide (s.val i j ≠ 0)) := by
  obtain ⟨rs, h1, h2, h3, h4⟩ := h
  rw [h1] at hi hj ⊢
  rw [has_pack h2 (by simpa using hi) (by simpa using hj), val_pack' h2]

theorem Inv.hasVal_ok {s : Sparse T} (h : Inv s) {i j : Nat} (hi : i < s.rows) (hj : j < s.columns) :
    s.hasVal i j = .ok (decide (s.val i j ≠ 0), s.val i j) := by
  obtain ⟨rs, h1, h2, h3, h4⟩ := h
  rw [h1] at hi hj ⊢
  rw [hasVal_pack h2 (by simpa using hi) (by simpa using hj), val_pack' h2]

theorem RowsOK.replace {c : Nat} {P : Rows T} {r r' : List (Nat × T)} {S : Rows T}
    (h : RowsOK c (P ++ r :: S)) (hr : RowOK c r') : RowsOK c (P ++ r' :: S) := by
  intro x hx
  rcases List.mem_append.1 hx with h' | h'
  · exact h x (by simp [h'])
  · rcases List.mem_cons.1 h' with h' | h'
    · subst h'; exact hr
    · exact h x (by simp [h'])

theorem ent_replace (P : Rows T) (r r' : List (Nat × T)) (S : Rows T) (a b : Nat) :
    ent (P ++ r' :: S) a b = if a = P.length then lookup r' b else ent (P ++ r :: S) a b := by
  by_cases h : a = P.length
  · subst h; rw [ent_mid, if_pos rfl]
  · rw [if_neg h]
    unfold ent
    congr 1
    rw [List.getD_eq_getElem?_getD, List.getD_eq_getElem?_getD]
    congr 1
    rcases Nat.lt_or_ge a P.length with h' | h'
    · rw [List.getElem?_append_left h', List.getElem?_append_left h']
    · rw [List.getElem?_append_right h', List.getElem?_append_right h']
      obtain ⟨d, hd⟩ : ∃ d, a - P.length = d + 1 := ⟨a - P.length - 1, by omega⟩
      rw [hd]; simp

theorem Inv.set_ok {s : Sparse T} (h : Inv s) {i j : Nat} (v : T) (hi : i < s.rows)
    (hj : j < s.columns) :
    ∃ s', s.set i j v = .ok s' ∧ Inv s' ∧ s'.rows = s.rows ∧ s'.columns = s.columns ∧
      ∀ a b, s'.val a b = if a = i ∧ b = j then v else s.val a b := by
  obtain ⟨rs, h1, h2, h3, h4⟩ := h
  generalize hc : s.cols = c at *
  subst h1
  have hj' : j < c := by simpa using hj
  obtain ⟨P, r, S, rfl, rfl⟩ := split_at (rs := rs) (i := i) (by simpa using hi)
  have hok := h2.replace (rowUpd_ok (v := v) h2.mid hj')
  refine ⟨_, set_pack P r S v hj', ⟨_, rfl, hok, by simp, h4⟩, by simp, rfl, ?_⟩
  intro a b
  rw [val_pack' hok, val_pack' h2, ent_replace P r (rowUpd j v r) S, lookup_rowUpd h2.mid]
  by_cases ha : a = P.length
  · subst ha
    rw [ent_mid]; simp
  · simp [ha]

theorem mk_inv {d1 d2 : Nat} (h1 : 0 < d1) (h2 : 0 < d2) :
    ∃ s : Sparse T, mk' d1 d2 = .ok s ∧ Inv s ∧ s.rows = d1 ∧ s.columns = d2 ∧
      ∀ i j, s.val i j = 0 := by
  have hp : (⟨[], [], List.replicate d1 0, d2, 0⟩ : Sparse T) = pack d2 (List.replicate d1 []) := by
    have hf : (List.replicate d1 ([] : List (Nat × T))).flatten = [] := by simp
    unfold pack
    rw [hf]
    simp only [List.map_nil, List.length_replicate]
    congr 1
    apply List.ext_getElem
    · simp
    · intro k h1 h2
      simp [offs]
  have hok : RowsOK d2 (List.replicate d1 ([] : List (Nat × T))) := by
    intro r hr
    rw [List.eq_of_mem_replicate hr]
    exact ⟨List.Pairwise.nil, by simp⟩
  refine ⟨pack d2 (List.replicate d1 []), ?_, ⟨_, rfl, hok, by simpa using h1, h2⟩, by simp, rfl, ?_⟩
  · unfold mk'
    rw [assert_true h1, assert_true h2, ← hp]; rfl
  · intro i j
    rw [val_pack' hok]
    unfold ent
    by_cases hi : i < d1
    · simp [List.getD_eq_getElem?_getD, hi, lookup]
    · rw [List.getD_eq_default _ _ (by simpa using hi)]; rfl

/-- strict row-major order on positions -/
def PosLt (a b : Nat × Nat × T) : Prop := a.1 < b.1 ∨ (a.1 = b.1 ∧ a.2.1 < b.2.1)

theorem mem_rowTriples {c : Nat} {r : List (Nat × T)} (h : RowOK c r) {i a j : Nat} {v : T} :
    (a, j, v) ∈ rowTriples i r ↔ a = i ∧ v = lookup r j ∧ v ≠ 0 := by
  unfold rowTriples
  simp only [List.mem_map, Prod.mk.injEq, Prod.exists]
  constructor
  · rintro ⟨x, y, hm, rfl, rfl, rfl⟩
    have := (lookup_mem h).1 hm
    exact ⟨rfl, this.1.symm, this.2⟩
  · rintro ⟨rfl, h1, h2⟩
    exact ⟨j, v, (lookup_mem h).2 ⟨h1.symm, h2⟩, rfl, rfl, rfl⟩

theorem mem_triples {c : Nat} {rs : Rows T} (h : RowsOK c rs) {k i j : Nat} {v : T} :
    (i, j, v) ∈ triples k rs ↔ k ≤ i ∧ v = ent rs (i - k) j ∧ v ≠ 0 := by
  induction rs generalizing k with
  | nil => simp [triples, ent, lookup]
  | cons r rs ih =>
    have hr : RowOK c r := h r (by simp)
    have hrs : RowsOK c rs := fun x hx => h x (by simp [hx])
    simp only [triples, List.mem_append, mem_rowTriples hr, ih hrs]
    constructor
    · rintro (⟨rfl, h1, h2⟩ | ⟨h1, h2, h3⟩)
      · refine ⟨Nat.le_refl _, ?_, h2⟩
        simp [ent, h1]
      · refine ⟨by omega, ?_, h3⟩
        obtain ⟨d, hd⟩ : ∃ d, i - k = d + 1 := ⟨i - k - 1, by omega⟩
        have hd' : i - (k + 1) = d := by omega
        rw [hd'] at h2
        rw [h2, hd]; simp [ent]
    · rintro ⟨h1, h2, h3⟩
      rcases Nat.eq_or_lt_of_le h1 with h | h
      · left; subst h
        simp [ent] at h2
        exact ⟨rfl, h2, h3⟩
      · right
        refine ⟨h, ?_, h3⟩
        obtain ⟨d, hd⟩ : ∃ d, i - k = d + 1 := ⟨i - k - 1, by omega⟩
        have hd' : i - (k + 1) = d := by omega
        rw [hd] at h2
        rw [h2, hd']; simp [ent]

theorem triples_sorted {c : Nat} {rs : Rows T} (h : RowsOK c rs) (k : Nat) :
    (triples k rs).Pairwise PosLt := by
  induction rs generalizing k with
  | nil => simp [triples]
  | cons r rs ih =>
    have hr : RowOK c r := h r (by simp)
    have hrs : RowsOK c rs := fun x hx => h x (by simp [hx])
    simp only [triples]
    rw [List.pairwise_append]
    refine ⟨?_, ih hrs _, ?_⟩
    · unfold rowTriples
      rw [List.pairwise_map]
      exact hr.1.imp (fun hab => Or.inr ⟨rfl, hab⟩)
    · rintro ⟨a, b, v⟩ ha ⟨a', b', v'⟩ hb
      have h1 := (mem_rowTriples hr).1 ha
      have h2 := (mem_triples hrs).1 hb
      left; simp; omega

/-- All entries, in row-major order. -/
theorem Inv.entries_ok {s : Sparse T} (h : Inv s) :
    ∃ l, s.entries = .ok l ∧ s.entriesNC = .ok l ∧ l.Pairwise PosLt ∧
      l.length = s.filledCount ∧ (∀ e, e ∈ l ↔ e.2.2 = s.val e.1 e.2.1 ∧ e.2.2 ≠ 0) ∧
      (∀ e ∈ l, e.1 < s.rows ∧ e.2.1 < s.columns) ∧ s.values = l.map (·.2.2) := by
  have hinv := h
  obtain ⟨rs, h1, h2, h3, h4⟩ := h
  refine ⟨triples 0 rs, ?_, ?_, triples_sorted h2 0, ?_, ?_, ?_, ?_⟩
  · rw [h1]; exact (entries_pack h2).1
  · rw [h1]; exact (entries_pack h2).2
  · rw [triples_length, h1, filledCount, pack_values, List.length_map]
  · rintro ⟨i, j, v⟩
    rw [mem_triples h2]
    conv_rhs => rw [h1, val_pack' h2]
    simp
  · rintro ⟨i, j, v⟩ he
    rw [mem_triples h2] at he
    by_contra hc
    have := hinv.val_zero (i := i) (j := j) hc
    rw [h1, val_pack' h2] at this
    simp only [Nat.sub_zero] at he
    rw [this] at he
    exact he.2.2 he.2.1
  · rw [h1, pack_values]
    clear h1 h3
    suffices ∀ k, rs.flatten.map (·.2) = (triples k rs).map (·.2.2) from this 0
    intro k
    clear h2
    induction rs generalizing k with
    | nil => rfl
    | cons r rs ih =>
      simp only [List.flatten_cons, List.map_append, triples, ← ih (k + 1)]
      congr 1
      simp [rowTriples, Function.comp_def]

/-- Entries of one row, in increasing column order. -/
theorem Inv.rowEntries_ok {s : Sparse T} (h : Inv s) {i : Nat} (hi : i < s.rows) :
    ∃ l, s.rowEntries i = .ok l ∧ l.Pairwise (fun a b => a.2.1 < b.2.1) ∧
      (∀ e, e ∈ l ↔ e.1 = i ∧ e.2.2 = s.val e.1 e.2.1 ∧ e.2.2 ≠ 0) ∧
      (∀ e ∈ l, e.1 < s.rows ∧ e.2.1 < s.columns) := by
  have hinv := h
  obtain ⟨rs, h1, h2, h3, h4⟩ := h
  rw [h1, pack_rows] at hi
  obtain ⟨P, r, S, rfl, rfl⟩ := split_at hi
  have hmem : ∀ e, e ∈ rowTriples P.length r ↔ e.1 = P.length ∧ e.2.2 = s.val e.1 e.2.1 ∧ e.2.2 ≠ 0 := by
    rintro ⟨a, j, v⟩
    rw [mem_rowTriples h2.mid]
    constructor
    · rintro ⟨rfl, h5, h6⟩
      refine ⟨rfl, ?_, h6⟩
      rw [h1, val_pack' h2]; simpa [ent_mid] using h5
    · rintro ⟨rfl, h5, h6⟩
      refine ⟨rfl, ?_, h6⟩
      rw [h1, val_pack' h2] at h5; simpa [ent_mid] using h5
  refine ⟨rowTriples P.length r, ?_, ?_, hmem, ?_⟩
  · rw [h1]; exact rowEntries_pack h2
  · unfold rowTriples
    rw [List.pairwise_map]
    exact h2.mid.1
  · rintro ⟨a, j, v⟩ he
    rw [hmem] at he
    by_contra hc
    have := hinv.val_zero (i := a) (j := j) hc
    simp only at he
    rw [this] at he
    exact he.2.2 he.2.1

/-- canonical storage: equal dimensions and equal entries force equal arrays -/
theorem sorted_ext {c : Nat} {r r' : List (Nat × T)} (h : RowOK c r) (h' : RowOK c r')
    (heq : ∀ j, lookup r j = lookup r' j) : r = r' := by
  have hm : ∀ p, p ∈ r ↔ p ∈ r' := by
    rintro ⟨a, b⟩
    rw [lookup_mem h, lookup_mem h', heq]
  have hn : ∀ {x : List (Nat × T)}, RowOK c x → x.Nodup := fun hx =>
    hx.1.imp (fun {a b} hab => by intro he; subst he; exact absurd hab (lt_irrefl _))
  have hperm : r.Perm r' := (List.perm_ext_iff_of_nodup (hn h) (hn h')).2 hm
  exact hperm.eq_of_pairwise (fun a b _ _ hab hba => absurd (lt_trans hab hba) (lt_irrefl _)) h.1 h'.1

theorem Inv.ext {s t : Sparse T} (hs : Inv s) (ht : Inv t) (hr : s.rows = t.rows)
    (hc : s.columns = t.columns) (hv : ∀ i j, i < s.rows → j < s.columns → s.val i j = t.val i j) :
    s = t := by
  have hv' : ∀ i j, s.val i j = t.val i j := by
    intro i j
    by_cases h : i < s.rows ∧ j < s.columns
    · exact hv i j h.1 h.2
    · rw [hs.val_zero h, ht.val_zero (by rw [← hr, ← hc]; exact h)]
  clear hv
  obtain ⟨rs, s1, s2, s3, s4⟩ := hs
  obtain ⟨rt, t1, t2, t3, t4⟩ := ht
  have hcc : s.cols = t.cols := hc
  have : rs = rt := by
    rw [s1, t1, pack_rows, pack_rows] at hr
    apply List.ext_getElem hr
    intro i h1 h2
    apply sorted_ext (s2 _ (List.getElem_mem h1)) (hcc ▸ t2 _ (List.getElem_mem h2))
    intro j
    have := hv' i j
    rw [s1, t1, val_pack' s2, val_pack' t2] at this
    unfold ent at this
    rwa [List.getD_eq_getElem _ _ h1, List.getD_eq_getElem _ _ h2] at this
  rw [s1, t1, hcc, this]

end

end Sparse
end NS

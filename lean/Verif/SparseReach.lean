/-
Reachable sparse matrices and iterators, Hadamard product, initializer lists.
-/
import Verif.SparseOps2

set_option linter.unusedSectionVars false
set_option linter.unusedSimpArgs false

namespace NS
namespace Sparse
variable {T : Type}

section walked
variable [Zero T] [DecidableEq T]

/-- Iterators obtained by walking a matrix: `begin()` and then any number of `++`. -/
inductive Walked (s : Sparse T) : SIt → Prop
  | begin {it} : s.itBegin = .ok it → Walked s it
  | cbegin {it} : s.itCBegin = .ok it → Walked s it
  | next {it it'} : Walked s it → s.itNext it = .ok it' → Walked s it'

theorem Walked.located {c : Nat} {rs : Rows T} (hok : RowsOK c rs) {it : SIt}
    (hw : Walked (pack c rs) it) :
    (pack c rs).itValid it = false ∨
      ∃ P A p B S, rs = P ++ (A ++ p :: B) :: S ∧ it = ⟨P.length, p.1, P.flatten.length + A.length⟩ := by
  have hbeg : ∀ it, ((pack c rs).itBegin = .ok it ∨ (pack c rs).itCBegin = .ok it) →
      (pack c rs).itValid it = false ∨
      ∃ P A p B S, rs = P ++ (A ++ p :: B) :: S ∧ it = ⟨P.length, p.1, P.flatten.length + A.length⟩ := by
    intro it h
    rcases split_empty rs with hE | ⟨E, q, r', S, hE, rfl⟩
    · left
      have : it = (pack c rs).itEnd := by
        rcases h with h | h
        · rw [(itBegin_pack_empty hE).1] at h; cases h; rfl
        · rw [(itBegin_pack_empty hE).2] at h; cases h; rfl
      subst this
      simp [itValid, itEnd]
    · right
      refine ⟨E, [], q, r', S, rfl, ?_⟩
      have := itBegin_pack (S := S) (c := c) hok.mid hE
      rcases h with h | h
      · rw [this.1] at h; cases h; simp [hE]
      · rw [this.2] at h; cases h; simp [hE]
  induction hw with
  | begin h => exact hbeg _ (.inl h)
  | cbegin h => exact hbeg _ (.inr h)
  | @next it it' hw hn ih =>
    rcases ih with h | ⟨P, A, p, B, S, rfl, rfl⟩
    · left
      unfold itNext at hn
      rw [h] at hn
      simp at hn
      subst hn; exact h
    · have hp : p.1 < c := hok.mid.lt
      cases B with
      | cons q B =>
        right
        rw [itNext_same c P A p q B S hp] at hn
        cases hn
        refine ⟨P, A ++ [p], q, B, S, by simp, ?_⟩
        simp; omega
      | nil =>
        rcases split_empty S with hS | ⟨E, q, r', S', hE, rfl⟩
        · left
          rw [itNext_last c P A p S hp hS] at hn
          cases hn
          simp [itValid]
        · right
          rw [itNext_later c P A p q E r' S' hp hE] at hn
          cases hn
          refine ⟨P ++ (A ++ [p]) :: E, [], q, r', S', by simp, ?_⟩
          have e1 : (P ++ (A ++ [p]) :: E).length = P.length + 1 + E.length := by simp; omega
          have e3 : (P ++ (A ++ [p]) :: E).flatten.length + ([] : List (Nat × T)).length
              = P.flatten.length + A.length + 1 := by
            simp only [List.flatten_append, List.flatten_cons, hE, List.length_append,
              List.length_cons, List.length_nil]; omega
          rw [e1, e3]

/-- `it` denotes the first non-zero entry of `s` after position `(i,j)` in row-major order, or is
an end iterator if there is none.  (Independent of the storage.) -/
def IsNextEntry (s : Sparse T) (i j : Nat) (it : SIt) : Prop :=
  if s.itValid it then
    s.val it.i1 it.i2 ≠ 0 ∧ (i < it.i1 ∨ i = it.i1 ∧ j < it.i2) ∧
      ∀ a b, s.val a b ≠ 0 → (i < a ∨ i = a ∧ j < b) → (it.i1 < a ∨ it.i1 = a ∧ it.i2 ≤ b)
  else ∀ a b, (i < a ∨ i = a ∧ j < b) → s.val a b = 0

theorem lookup_of_mem {c : Nat} {r : List (Nat × T)} (h : RowOK c r) {p : Nat × T} (hp : p ∈ r) :
    lookup r p.1 = p.2 ∧ p.2 ≠ 0 := by
  have := (lookup_mem h (j := p.1) (v := p.2)).1 hp
  exact ⟨this.1, this.2⟩

theorem ent_ne_mem {c : Nat} {rs : Rows T} (h : RowsOK c rs) {a b : Nat} :
    ent rs a b ≠ 0 ↔ (a, b, ent rs a b) ∈ triples 0 rs := by
  rw [mem_triples h]; simp

/-- walked iterators denote stored entries -/
theorem Inv.walked_entry {s : Sparse T} (hs : Inv s) {it : SIt} (hw : Walked s it)
    (hv : s.itValid it = true) :
    s.val it.i1 it.i2 ≠ 0 ∧ s.deref it = .ok (s.val it.i1 it.i2) := by
  obtain ⟨rs, h1, h2, h3, h4⟩ := hs
  generalize hc : s.cols = c at *
  subst h1
  rcases hw.located h2 with h | ⟨P, A, p, B, S, rfl, rfl⟩
  · rw [h] at hv; cases hv
  · have hl := lookup_of_mem h2.mid (p := p) (by simp)
    rw [deref_pack c P A p B S h2.mid.lt, val_pack' h2]
    simp only [ent_mid, hl.1]
    exact ⟨hl.2, trivial⟩

theorem RowOK.sublist {c : Nat} {r r' : List (Nat × T)} (h : RowOK c r) (hs : r'.Sublist r) :
    RowOK c r' := ⟨h.1.sublist hs, fun p hp => h.2 p (hs.subset hp)⟩

theorem lookup_remove {c : Nat} {A : List (Nat × T)} {p : Nat × T} {B : List (Nat × T)}
    (h : RowOK c (A ++ p :: B)) (j : Nat) :
    lookup (A ++ B) j = if j = p.1 then 0 else lookup (A ++ p :: B) j := by
  have h' : RowOK c (A ++ B) := h.sublist (by simp)
  split
  · rename_i hj
    subst hj
    by_contra hne
    have := (lookup_mem h' (j := p.1) (v := lookup (A ++ B) p.1)).2 ⟨rfl, hne⟩
    have hs := h.1
    rw [List.pairwise_append, List.pairwise_cons] at hs
    rcases List.mem_append.1 this with hm | hm
    · exact absurd (hs.2.2 _ hm p (by simp)) (lt_irrefl _)
    · exact absurd (hs.2.1.1 _ hm) (lt_irrefl _)
  · rename_i hj
    by_cases hz : lookup (A ++ B) j = 0
    · by_contra hne
      rw [hz] at hne
      have hne : lookup (A ++ p :: B) j ≠ 0 := fun h => hne h.symm
      have := (lookup_mem h (j := j) (v := lookup (A ++ p :: B) j)).2 ⟨rfl, hne⟩
      have hm : (j, lookup (A ++ p :: B) j) ∈ A ++ B := by
        simp only [List.mem_append, List.mem_cons] at this ⊢
        rcases this with h1 | h1 | h1
        · exact .inl h1
        · exact absurd (by rw [← h1]) hj
        · exact .inr h1
      have := ((lookup_mem h').1 hm).1
      rw [hz] at this; exact hne this.symm
    · have := (lookup_mem h' (j := j) (v := lookup (A ++ B) j)).2 ⟨rfl, hz⟩
      have hm : (j, lookup (A ++ B) j) ∈ A ++ p :: B := by
        simp only [List.mem_append, List.mem_cons] at this ⊢
        tauto
      exact ((lookup_mem h).1 hm).1.symm

/-- `erase` at a walked iterator: contents. -/
theorem Inv.erase_ok {s : Sparse T} (hs : Inv s) {it : SIt} (hw : Walked s it)
    (hv : s.itValid it = true) :
    ∃ s' it', s.erase it = .ok (s', it') ∧ Inv s' ∧ s'.rows = s.rows ∧ s'.columns = s.columns ∧
      (∀ a b, s'.val a b = if a = it.i1 ∧ b = it.i2 then 0 else s.val a b) := by
  obtain ⟨rs, h1, h2, h3, h4⟩ := hs
  generalize hc : s.cols = c at *
  subst h1
  rcases hw.located h2 with h | ⟨P, A, p, B, S, rfl, rfl⟩
  · rw [h] at hv; cases hv
  · have hr : RowOK c (A ++ B) := h2.mid.sublist (by simp)
    have h2' : RowsOK c (P ++ (A ++ B) :: S) := h2.replace hr
    refine ⟨_, _, erase_pack c P A p B S h2.mid.lt, ⟨_, rfl, h2', by simp, h4⟩, by simp, rfl, ?_⟩
    intro a b
    rw [val_pack' h2', val_pack' h2, ent_replace P (A ++ p :: B) (A ++ B) S]
    by_cases ha : a = P.length
    · subst ha
      simp only [if_true, true_and, ent_mid]
      exact lookup_remove h2.mid b
    · simp [ha]

end walked

section nextentry
variable [Zero T] [DecidableEq T]

theorem lookup_ne_iff {c : Nat} {r : List (Nat × T)} (h : RowOK c r) {j : Nat} :
    lookup r j ≠ 0 ↔ ∃ p ∈ r, p.1 = j := by
  constructor
  · intro hne
    exact ⟨_, (lookup_mem h (j := j) (v := lookup r j)).2 ⟨rfl, hne⟩, rfl⟩
  · rintro ⟨p, hp, rfl⟩
    have := lookup_of_mem h hp
    rw [this.1]; exact this.2

theorem ent_append_left (P S : Rows T) {a : Nat} (h : a < P.length) (b : Nat) :
    ent (P ++ S) a b = ent P a b := by
  simp only [ent, List.getD_eq_getElem?_getD, List.getElem?_append_left h]

theorem ent_append_right (P S : Rows T) {a : Nat} (h : P.length ≤ a) (b : Nat) :
    ent (P ++ S) a b = ent S (a - P.length) b := by
  simp only [ent, List.getD_eq_getElem?_getD, List.getElem?_append_right h]

theorem ent_of_empty (E : Rows T) (h : E.flatten = []) (a b : Nat) : ent E a b = 0 := by
  unfold ent
  by_cases ha : a < E.length
  · have : E[a] = [] := by
      have := List.flatten_eq_nil_iff.1 h (E[a]) (by simp)
      exact this
    simp [List.getD_eq_getElem?_getD, ha, this, lookup]
  · simp [List.getD_eq_getElem?_getD, ha, lookup]

/-- In the packed form: the iterator at the head of the rest is the next entry. -/
theorem next_same {c : Nat} {P : Rows T} {A : List (Nat × T)} {p q : Nat × T} {B : List (Nat × T)}
    {S : Rows T} (h : RowsOK c (P ++ (A ++ p :: q :: B) :: S)) :
    ∀ a b, ent (P ++ (A ++ q :: B) :: S) a b ≠ 0 → (P.length < a ∨ P.length = a ∧ p.1 < b) →
      (P.length < a ∨ P.length = a ∧ q.1 ≤ b) := by
  intro a b hne hab
  rcases hab with h1 | ⟨h1, h2⟩
  · exact .inl h1
  · right
    refine ⟨h1, ?_⟩
    subst h1
    rw [ent_mid] at hne
    have hr : RowOK c (A ++ p :: q :: B) := h.mid
    have hr' : RowOK c (A ++ q :: B) := hr.sublist (by simp)
    obtain ⟨x, hx, rfl⟩ := (lookup_ne_iff hr').1 hne
    have hs := hr.1
    rw [List.pairwise_append, List.pairwise_cons, List.pairwise_cons] at hs
    simp only [List.mem_append, List.mem_cons] at hx
    rcases hx with hx | rfl | hx
    · exact absurd (hs.2.2 x hx p (by simp)) (by omega)
    · exact Nat.le_refl _
    · exact Nat.le_of_lt (hs.2.1.2.1 x hx)

/-- Where the iterator returned by `erase` really points: exact condition for being the successor. -/
theorem Inv.erase_next_iff {s : Sparse T} (hs : Inv s) {it : SIt} (hw : Walked s it)
    (hv : s.itValid it = true) {s' : Sparse T} {it' : SIt} (he : s.erase it = .ok (s', it')) :
    IsNextEntry s' it.i1 it.i2 it' ↔
      ((∃ b, it.i2 < b ∧ s.val it.i1 b ≠ 0) ∨
       (∀ a b, (it.i1 < a ∨ it.i1 = a ∧ it.i2 < b) → s.val a b = 0) ∨
       ((∃ b, b < it.i2 ∧ s.val it.i1 b ≠ 0) ∧ (∃ b, s.val (it.i1 + 1) b ≠ 0))) := by
  obtain ⟨rs, h1, h2, h3, h4⟩ := hs
  generalize hc : s.cols = c at *
  subst h1
  rcases hw.located h2 with h | ⟨P, A, p, B, S, rfl, rfl⟩
  · rw [h] at hv; cases hv
  have hr : RowOK c (A ++ B) := h2.mid.sublist (by simp)
  have h2' : RowsOK c (P ++ (A ++ B) :: S) := h2.replace hr
  rw [erase_pack c P A p B S h2.mid.lt] at he
  have hval : ∀ a b, (pack c (P ++ (A ++ p :: B) :: S)).val a b = ent (P ++ (A ++ p :: B) :: S) a b :=
    val_pack' h2
  have hval' : ∀ a b, (pack c (P ++ (A ++ B) :: S)).val a b = ent (P ++ (A ++ B) :: S) a b :=
    val_pack' h2'
  have hrow := h2.mid
  have hsrt := hrow.1
  rw [List.pairwise_append, List.pairwise_cons] at hsrt
  have hentS : ∀ (r : List (Nat × T)) a b, P.length < a →
      ent (P ++ r :: S) a b = ent S (a - (P.length + 1)) b := by
    intro r a b ha
    have : P ++ r :: S = (P ++ [r]) ++ S := by simp
    rw [this, ent_append_right _ _ (by simp; omega)]
    simp
  -- meaning of the disjuncts
  have hlater : (∃ b, p.1 < b ∧ ent (P ++ (A ++ p :: B) :: S) P.length b ≠ 0) ↔ B ≠ [] := by
    rw [show (∃ b, p.1 < b ∧ ent (P ++ (A ++ p :: B) :: S) P.length b ≠ 0) ↔
      ∃ b, p.1 < b ∧ lookup (A ++ p :: B) b ≠ 0 by simp only [ent_mid]]
    constructor
    · rintro ⟨b, hb, hne⟩ rfl
      obtain ⟨x, hx, rfl⟩ := (lookup_ne_iff hrow).1 hne
      simp only [List.mem_append, List.mem_singleton] at hx
      rcases hx with hx | rfl
      · exact absurd (hsrt.2.2 x hx p (by simp)) (by omega)
      · omega
    · intro hB
      obtain ⟨q, B', rfl⟩ := List.exists_cons_of_ne_nil hB
      exact ⟨q.1, hsrt.2.1.1 q (by simp), (lookup_ne_iff hrow).2 ⟨q, by simp, rfl⟩⟩
  have hearlier : (∃ b, b < p.1 ∧ ent (P ++ (A ++ p :: B) :: S) P.length b ≠ 0) ↔ A ≠ [] := by
    rw [show (∃ b, b < p.1 ∧ ent (P ++ (A ++ p :: B) :: S) P.length b ≠ 0) ↔
      ∃ b, b < p.1 ∧ lookup (A ++ p :: B) b ≠ 0 by simp only [ent_mid]]
    constructor
    · rintro ⟨b, hb, hne⟩ rfl
      obtain ⟨x, hx, rfl⟩ := (lookup_ne_iff hrow).1 hne
      simp only [List.nil_append, List.mem_cons] at hx
      rcases hx with rfl | hx
      · omega
      · exact absurd (hsrt.2.1.1 x hx) (by omega)
    · intro hA
      obtain ⟨q, A', rfl⟩ := List.exists_cons_of_ne_nil hA
      exact ⟨q.1, hsrt.2.2 q (by simp) p (by simp), (lookup_ne_iff hrow).2 ⟨q, by simp, rfl⟩⟩
  have hnone : (∀ a b, (P.length < a ∨ P.length = a ∧ p.1 < b) → ent (P ++ (A ++ p :: B) :: S) a b = 0)
      ↔ (B = [] ∧ S.flatten = []) := by
    constructor
    · intro h
      refine ⟨?_, ?_⟩
      · by_contra hB
        obtain ⟨b, hb, hne⟩ := hlater.2 hB
        exact hne (h _ b (.inr ⟨rfl, hb⟩))
      · rcases split_empty S with hS | ⟨E, q, r', S', hE, rfl⟩
        · exact hS
        · exfalso
          have := h (P.length + 1 + E.length) q.1 (.inl (by omega))
          rw [hentS _ _ _ (by omega), show P.length + 1 + E.length - (P.length + 1) = E.length by omega,
            ent_mid] at this
          have hq : RowOK c (q :: r') := h2 _ (by simp)
          exact (lookup_ne_iff hq).2 ⟨q, by simp, rfl⟩ this
    · rintro ⟨hB, hS⟩ a b hab
      rcases hab with h | ⟨rfl, h⟩
      · rw [hentS _ _ _ h, ent_of_empty S hS]
      · by_contra hne
        exact hlater.1 ⟨b, h, hne⟩ hB
  simp only [hval]
  rw [hlater, hnone, hearlier]
  cases B with
  | cons q B =>
    simp only [List.cons_append] at he
    cases he
    refine ⟨fun _ => .inl (by simp), fun _ => ?_⟩
    have hq : q.1 < c := (hr.2 q (by simp)).1
    have hret : eraseRetRow P A (q :: B) = P.length := by unfold eraseRetRow; simp
    unfold IsNextEntry
    rw [hret, itValid_pack (by simp) hq]
    simp only [if_true, hval']
    refine ⟨?_, .inr ⟨trivial, hsrt.2.1.1 q (by simp)⟩, ?_⟩
    · rw [ent_mid]; exact (lookup_ne_iff hr).2 ⟨q, by simp, rfl⟩
    · exact next_same h2
  | nil =>
    rcases split_empty S with hS | ⟨E, q, r', S', hE, rfl⟩
    · simp only [hS, List.append_nil] at he
      cases he
      refine ⟨fun _ => .inr (.inl ⟨rfl, hS⟩), fun _ => ?_⟩
      unfold IsNextEntry
      rw [if_neg (by simp [itValid])]
      intro a b hab
      rw [show P ++ A :: S = P ++ (A ++ []) :: S by simp, hval']
      rcases hab with h | ⟨rfl, h⟩
      · simp only [List.append_nil]; rw [hentS _ _ _ h, ent_of_empty S hS]
      · rw [ent_mid]
        by_contra hne
        obtain ⟨x, hx, rfl⟩ := (lookup_ne_iff hr).1 hne
        simp only [List.append_nil] at hx
        exact absurd (hsrt.2.2 x hx p (by simp)) (by omega)
    · have hq : RowOK c (q :: r') := h2 _ (by simp)
      have hqc : q.1 < c := (hq.2 q (by simp)).1
      have hflat : ([] : List (Nat × T)) ++ (E ++ (q :: r') :: S').flatten = q :: (r' ++ S'.flatten) := by
        simp [hE]
      rw [hflat] at he
      simp only [List.append_nil] at he hr h2' hval' hflat
      cases he
      have hSne : (E ++ (q :: r') :: S').flatten ≠ [] := by simp
      have hqne : ent (P ++ A :: (E ++ (q :: r') :: S')) (P.length + 1 + E.length) q.1 ≠ 0 := by
        rw [hentS _ _ _ (by omega), show P.length + 1 + E.length - (P.length + 1) = E.length by omega,
            ent_mid]
        exact (lookup_ne_iff hq).2 ⟨q, by simp, rfl⟩
      have hgap : ∀ a b, P.length < a → a < P.length + 1 + E.length →
          ent (P ++ A :: (E ++ (q :: r') :: S')) a b = 0 := by
        intro a b h h'
        rw [hentS _ _ _ h, ent_append_left _ _ (by omega), ent_of_empty E hE]
      have hnext1 : (∃ b, ent (P ++ (A ++ [p]) :: (E ++ (q :: r') :: S')) (P.length + 1) b ≠ 0) ↔ E = [] := by
        constructor
        · rintro ⟨b, hb⟩
          by_contra hne
          have hl : 0 < E.length := List.length_pos_iff.2 hne
          apply hb
          rw [hentS _ _ _ (by omega), ent_append_left _ _ (by omega), ent_of_empty E hE]
        · rintro rfl
          refine ⟨q.1, ?_⟩
          rw [hentS _ _ _ (by omega)]
          simp only [List.nil_append, show P.length + 1 - (P.length + 1) = 0 by omega]
          have := ent_mid ([] : Rows T) (q :: r') S' q.1
          simp only [List.nil_append, List.length_nil] at this
          rw [this]
          exact (lookup_ne_iff hq).2 ⟨q, by simp, rfl⟩
      rw [hnext1]
      simp only [ne_eq, not_true_eq_false, false_or, hSne, and_false]
      -- the returned row
      have hlen : (P ++ A :: (E ++ (q :: r') :: S')).length = P.length + 1 + E.length + 1 + S'.length := by
        simp; omega
      unfold IsNextEntry
      by_cases hA : A = []
      · subst hA
        have hret : eraseRetRow P [] ([] : List (Nat × T)) = P.length := by simp [eraseRetRow]
        rw [hret, itValid_pack (by omega) hqc]
        simp only [if_true, hval', not_true_eq_false, false_and, iff_false]
        rintro ⟨h1, -, -⟩
        apply h1
        rw [ent_mid]; rfl
      · have hret : eraseRetRow P A ([] : List (Nat × T)) = P.length + 1 := by simp [eraseRetRow, hA]
        rw [hret, itValid_pack (by omega) hqc]
        simp only [if_true, hval', hA, not_false_eq_true, true_and]
        constructor
        · rintro ⟨h1, -, -⟩
          by_contra hE0
          have hl : 0 < E.length := List.length_pos_iff.2 hE0
          exact h1 (hgap _ _ (by omega) (by omega))
        · rintro rfl
          refine ⟨by simpa using hqne, .inl (by omega), ?_⟩
          intro a b hne hab
          rcases hab with h | ⟨rfl, h⟩
          · by_cases ha : a = P.length + 1
            · right
              refine ⟨ha.symm, ?_⟩
              subst ha
              rw [hentS _ _ _ (by omega)] at hne
              simp only [List.nil_append, show P.length + 1 - (P.length + 1) = 0 by omega] at hne
              have := ent_mid ([] : Rows T) (q :: r') S' b
              simp only [List.nil_append, List.length_nil] at this
              rw [this] at hne
              obtain ⟨x, hx, rfl⟩ := (lookup_ne_iff hq).1 hne
              have := hq.1
              rw [List.pairwise_cons] at this
              rcases List.mem_cons.1 hx with rfl | hx
              · exact Nat.le_refl _
              · exact Nat.le_of_lt (this.1 x hx)
            · left; omega
          · exfalso
            rw [ent_mid] at hne
            obtain ⟨x, hx, rfl⟩ := (lookup_ne_iff hr).1 hne
            exact absurd (hsrt.2.2 x hx p (by simp)) (by omega)

end nextentry
end Sparse
end NS

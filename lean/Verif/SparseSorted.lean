/-
Iteration and access lemmas for packed matrices whose rows are sorted but may contain explicit zeros
(the working copy inside `ilu0`).  Counterparts of the lemmas in `SparseIter.lean`/`SparseInv.lean`.
-/
import Verif.SparseOps2
import Verif.ILUModel

set_option linter.unusedSectionVars false
set_option linter.unusedSimpArgs false

namespace NS
namespace Sparse
namespace Srt
variable {T : Type} [Zero T] [DecidableEq T]

/-- sorted in-range columns; zeros may be stored -/
def RowS (c : Nat) (r : List (Nat × T)) : Prop :=
  r.Pairwise (fun a b => a.1 < b.1) ∧ ∀ p ∈ r, p.1 < c
def RowsS (c : Nat) (rs : Rows T) : Prop := ∀ r ∈ rs, RowS c r

theorem RowsS.mid {c : Nat} {P : Rows T} {r : List (Nat × T)} {S : Rows T}
    (h : RowsS c (P ++ r :: S)) : RowS c r := h r (by simp)

theorem RowS.lt {c : Nat} {A : List (Nat × T)} {p : Nat × T} {B : List (Nat × T)}
    (h : RowS c (A ++ p :: B)) : p.1 < c := h.2 p (by simp)

theorem walk_pack (c : Nat) (rs : Rows T) (hok : RowsS c rs) (n : Nat) :
    ∀ (P : Rows T) (A : List (Nat × T)) (p : Nat × T) (B : List (Nat × T)) (S : Rows T),
      rs = P ++ (A ++ p :: B) :: S → B.length + S.flatten.length + 1 ≤ n →
      walk (pack c rs) (itNext (pack c rs)) n ⟨P.length, p.1, P.flatten.length + A.length⟩
        = .ok (rowTriples P.length (p :: B) ++ triples (P.length + 1) S) := by
  induction n with
  | zero => intro P A p B S _ h; omega
  | succ n ih =>
    intro P A p B S hrs hn
    have hrow : RowS c (A ++ p :: B) := by subst hrs; exact hok.mid
    have hp := hrow.lt
    have hval : (pack c rs).itValid ⟨P.length, p.1, P.flatten.length + A.length⟩ = true :=
      itValid_pack (by simp [hrs]) hp
    have hne := itEq_end_of_valid hval
    have hd : (pack c rs).deref ⟨P.length, p.1, P.flatten.length + A.length⟩ = .ok p.2 := by
      rw [hrs]; exact deref_pack c P A p B S hp
    cases B with
    | cons q B =>
      have hnx : (pack c rs).itNext ⟨P.length, p.1, P.flatten.length + A.length⟩
          = .ok ⟨P.length, q.1, P.flatten.length + (A ++ [p]).length⟩ := by
        rw [hrs, itNext_same c P A p q B S hp]; simp [Nat.add_assoc]
      have hw := ih P (A ++ [p]) q B S (by simp [hrs]) (by simp at hn ⊢; omega)
      rw [walk_step hne hd hnx hw]
      simp [rowTriples]
    | nil =>
      rcases split_empty S with hS | ⟨E, q, r', S', hE, hS⟩
      · have hnx : (pack c rs).itNext ⟨P.length, p.1, P.flatten.length + A.length⟩
          = .ok ⟨(pack c rs).rows, (pack c rs).columns, P.flatten.length + A.length + 1⟩ := by
          rw [hrs, itNext_last c P A p S hp hS]; simp
        rw [walk_step hne hd hnx (walk_end itEq_end_rows), triples_of_empty _ _ hS]
        simp [rowTriples]
      · subst hS
        have hnx : (pack c rs).itNext ⟨P.length, p.1, P.flatten.length + A.length⟩
            = .ok ⟨(P ++ (A ++ [p]) :: E).length, q.1,
                (P ++ (A ++ [p]) :: E).flatten.length + ([] : List (Nat × T)).length⟩ := by
          rw [hrs, itNext_later c P A p q E r' S' hp hE]
          congr 2
          · simp; omega
          · simp only [List.flatten_append, List.flatten_cons, hE, List.length_append,
              List.length_cons, List.length_nil]; omega
        have hw := ih (P ++ (A ++ [p]) :: E) [] q r' S' (by simp [hrs]) (by
          simp only [List.flatten_append, List.flatten_cons, List.length_append,
            List.length_cons, hE, List.length_nil] at hn
          omega)
        rw [walk_step hne hd hnx hw, triples_append, triples_of_empty _ _ hE, triples]
        have : (P ++ (A ++ [p]) :: E).length = P.length + 1 + E.length := by simp; omega
        rw [this]
        simp [rowTriples]

/-! ### begin -/

theorem rowPos_split {c : Nat} {A : List (Nat × T)} {p : Nat × T} {B : List (Nat × T)}
    (h : RowS c (A ++ p :: B)) :
    rowPos (A ++ p :: B) p.1 = A.length ∧ rowFound (A ++ p :: B) p.1 = true := by
  induction A with
  | nil => obtain ⟨a, b⟩ := p; simp [rowPos, rowFound]
  | cons q A ih =>
    obtain ⟨a, b⟩ := q
    have hs := h.1
    simp only [List.cons_append, List.pairwise_cons] at hs
    have h1 : a < p.1 := by simpa using hs.1 p (by simp)
    have h2 := ih ⟨hs.2, fun q hq => h.2 q (by simp at hq ⊢; tauto)⟩
    simp only [List.cons_append, rowPos, rowFound, h1, if_true, h2, List.length_cons, and_self]

theorem mkIt_pack {c : Nat} {P : Rows T} {A : List (Nat × T)} {p : Nat × T}
    {B : List (Nat × T)} {S : Rows T} (h : RowS c (A ++ p :: B)) :
    (pack c (P ++ (A ++ p :: B) :: S)).mkIt P.length p.1
      = .ok ⟨P.length, p.1, P.flatten.length + A.length⟩ := by
  unfold mkIt
  rw [itValid_pack (by simp) h.lt, internalAt_pack]
  obtain ⟨h1, h2⟩ := rowPos_split h
  have hne : ¬ (P ++ (A ++ p :: B) :: S).flatten = [] := by
    intro h
    have := congrArg List.length h
    simp only [List.flatten_append, List.flatten_cons, List.length_append, List.length_cons,
      List.length_nil] at this
    omega
  simp [h1, h2, hne, -List.flatten_append, -List.flatten_cons, -List.flatten_eq_nil_iff, -List.length_flatten]

/-- `begin()` (both overloads) of a non-empty packed matrix -/
theorem itBegin_pack {c : Nat} {E : Rows T} {q : Nat × T} {r' : List (Nat × T)} {S : Rows T}
    (hok : RowS c (q :: r')) (hE : E.flatten = []) :
    (pack c (E ++ (q :: r') :: S)).itBegin = .ok ⟨E.length, q.1, 0⟩ ∧
    (pack c (E ++ (q :: r') :: S)).itCBegin = .ok ⟨E.length, q.1, 0⟩ := by
  have hfl : (E ++ (q :: r') :: S).flatten = q :: (r' ++ S.flatten) := by
    simp only [List.flatten_append, List.flatten_cons, hE]; simp
  have hem : (pack c (E ++ (q :: r') :: S)).isEmpty = false :=
    isEmpty_pack_false (by rw [hfl]; simp)
  have hfr := firstRow_pack c q r' S E [] (E ++ (q :: r') :: S).length hE (by simp)
  simp only [List.nil_append, List.length_nil, List.flatten_nil, Nat.zero_add] at hfr
  have hne : ¬ E.length = (E ++ (q :: r') :: S).length := by simp
  have hg : getIdx (pack c (E ++ (q :: r') :: S)).colPtr 0 = .ok q.1 := by
    apply getIdx_of_some; rw [pack_colPtr, hfl]; rfl
  have hm := mkIt_pack (P := E) (A := []) (p := q) (B := r') (S := S) (c := c) hok
  simp only [List.nil_append, hE, List.length_nil, Nat.add_zero] at hm
  constructor
  · unfold itBegin
    rw [hem, pack_rows, hfr]
    simp only [Bool.false_eq_true, if_false, ok_bind, hne, hg, hm]
  · unfold itCBegin
    rw [hem, pack_rows, hfr]
    simp only [Bool.false_eq_true, if_false, ok_bind, hne, hg, hm]

theorem entries_pack {c : Nat} {rs : Rows T} (hok : RowsS c rs) :
    (pack c rs).entries = .ok (triples 0 rs) ∧ (pack c rs).entriesNC = .ok (triples 0 rs) := by
  rcases split_empty rs with h | ⟨E, q, r', S, hE, h⟩
  · unfold entries entriesNC
    rw [(itBegin_pack_empty h).1, (itBegin_pack_empty h).2, triples_of_empty _ _ h]
    simp only [ok_bind]
    rw [walk_end (by apply itEq_end_of_invalid; simp [itValid, itEnd])]
    simp
  · subst h
    have hrow : RowS c (q :: r') := hok.mid
    unfold entries entriesNC
    rw [(itBegin_pack hrow hE).1, (itBegin_pack hrow hE).2]
    simp only [ok_bind]
    have hw := walk_pack c _ hok ((pack c (E ++ (q :: r') :: S)).values.length + 1) E [] q r' S
      (by simp) (by
        rw [pack_values, List.length_map]
        simp only [List.flatten_append, List.flatten_cons, List.length_append, List.length_cons, hE]
        omega)
    simp only [hE, List.length_nil, Nat.add_zero] at hw
    rw [hw, triples_append, triples_of_empty _ _ hE, triples]
    simp

/-! ### rows -/

theorem rowBegin_pack {c : Nat} {P : Rows T} {r : List (Nat × T)} {S : Rows T} (hok : RowS c r) :
    (pack c (P ++ r :: S)).rowBegin P.length = .ok (match r with
      | [] => (pack c (P ++ r :: S)).itEnd
      | p :: _ => ⟨P.length, p.1, P.flatten.length⟩) := by
  unfold rowBegin
  by_cases he : (P ++ r :: S).flatten = []
  · have hr : r = [] := by
      rw [List.flatten_append, List.flatten_cons] at he
      exact (List.append_eq_nil_iff.1 (List.append_eq_nil_iff.1 he).2).1
    rw [isEmpty_pack_true he]
    subst hr; rfl
  · rw [isEmpty_pack_false he, rowEntryCount_pack]
    simp only [Bool.false_eq_true, if_false, ok_bind]
    cases r with
    | nil => rfl
    | cons p r =>
      simp only [List.length_cons, Nat.add_eq_zero_iff, Nat.one_ne_zero, and_false, if_false]
      have hg : getIdx (pack c (P ++ (p :: r) :: S)).colPtr P.flatten.length = .ok p.1 := by
        apply getIdx_of_some
        rw [pack_colPtr, List.getElem?_map, List.flatten_append, List.flatten_cons,
          List.getElem?_append_right (by omega)]
        simp
      rw [hg]
      simp only [ok_bind]
      have := mkIt_pack (c := c) (P := P) (A := []) (p := p) (B := r) (S := S) hok
      simpa using this


theorem lookup_of_mem {c : Nat} {r : List (Nat × T)} (h : RowS c r) {j : Nat} {v : T}
    (hm : (j, v) ∈ r) : lookup r j = v := by
  induction r with
  | nil => simp at hm
  | cons p r ih =>
    obtain ⟨a, b⟩ := p
    obtain ⟨hs, hp⟩ := h
    rw [List.pairwise_cons] at hs
    have hr : RowS c r := ⟨hs.2, fun q hq => hp q (by simp [hq])⟩
    simp only [List.mem_cons, Prod.mk.injEq] at hm
    simp only [lookup]
    rcases hm with ⟨rfl, rfl⟩ | hm
    · simp
    · have := hs.1 _ hm
      simp only at this
      rw [if_neg (by omega)]
      exact ih hr hm

theorem rowFound_lookup {c : Nat} {r : List (Nat × T)} (h : RowS c r) {j : Nat}
    (hf : rowFound r j = true) : r[rowPos r j]? = some (j, lookup r j) := by
  obtain ⟨b, hb⟩ := rowFound_get hf
  have hm : (j, b) ∈ r := List.mem_of_getElem? hb
  rw [hb, lookup_of_mem h hm]

theorem lookup_of_not_mem {r : List (Nat × T)} {j : Nat} (h : ∀ v, (j, v) ∉ r) : lookup r j = 0 := by
  induction r with
  | nil => rfl
  | cons p r ih =>
    obtain ⟨a, b⟩ := p
    simp only [lookup]
    rw [if_neg (by intro e; exact h b (by simp [e])), ih fun v hv => h v (by simp [hv])]

theorem rowFound_of_mem {c : Nat} {r : List (Nat × T)} (h : RowS c r) {j : Nat} {v : T}
    (hm : (j, v) ∈ r) : rowFound r j = true := by
  induction r with
  | nil => simp at hm
  | cons p r ih =>
    obtain ⟨a, b⟩ := p
    obtain ⟨hs, hp⟩ := h
    rw [List.pairwise_cons] at hs
    simp only [List.mem_cons, Prod.mk.injEq] at hm
    simp only [rowFound]
    rcases hm with ⟨rfl, rfl⟩ | hm
    · simp
    · have := hs.1 _ hm
      simp only at this
      rw [if_pos (by omega)]
      exact ih ⟨hs.2, fun q hq => hp q (by simp [hq])⟩ hm

theorem internalVal_pack {c : Nat} {P : Rows T} {r : List (Nat × T)} {S : Rows T} (hok : RowS c r)
    (j : Nat) (near : Bool) :
    (pack c (P ++ r :: S)).internalVal
      (if near = false ∧ (P ++ r :: S).flatten = [] then 0 else P.flatten.length + rowPos r j)
      (rowFound r j) = .ok (lookup r j) := by
  unfold internalVal
  by_cases hf : rowFound r j = true
  · have hlt := rowFound_lt hf
    have hne : ¬ (P ++ r :: S).flatten = [] := by
      intro h
      have := congrArg List.length h
      simp only [List.flatten_append, List.flatten_cons, List.length_append, List.length_nil] at this
      omega
    rw [if_pos hf, if_neg (fun h => hne h.2)]
    apply getIdx_of_some
    rw [pack_values, List.getElem?_map, List.flatten_append, List.flatten_cons,
      List.getElem?_append_right (by omega), Nat.add_sub_cancel_left,
      List.getElem?_append_left hlt, rowFound_lookup hok hf]
    rfl
  · rw [if_neg hf]
    rw [lookup_of_not_mem fun v hv => hf (rowFound_of_mem hok hv)]
    simp

theorem at_pack {c : Nat} {rs : Rows T} (hok : RowsS c rs) {i j : Nat} (hi : i < rs.length)
    (hj : j < c) : (pack c rs).at' i j = .ok (ent rs i j) := by
  obtain ⟨P, r, S, rfl, rfl⟩ := split_at hi
  unfold at'
  rw [assert_true (by simp), assert_true (by simpa using hj), internalAt_pack]
  have := internalVal_pack (P := P) (S := S) hok.mid j false
  simp only [true_and] at this
  simp only [ok_bind, true_and, this, ent_mid]


end Srt
end Sparse
end NS

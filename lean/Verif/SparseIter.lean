/-
Iterator lemmas for the packed representation.
-/
import Verif.SparseRep

set_option linter.unusedSectionVars false
set_option linter.unusedSimpArgs false

namespace NS
namespace Sparse
variable {T : Type}

def rowTriples (i : Nat) (r : List (Nat × T)) : List (Nat × Nat × T) := r.map fun p => (i, p.1, p.2)

/-- row-major list of all stored entries, rows numbered from `i` -/
def triples : Nat → Rows T → List (Nat × Nat × T)
  | _, [] => []
  | i, r :: rs => rowTriples i r ++ triples (i + 1) rs

theorem triples_append (i : Nat) (P S : Rows T) :
    triples i (P ++ S) = triples i P ++ triples (i + P.length) S := by
  induction P generalizing i with
  | nil => simp [triples]
  | cons r P ih =>
    simp only [List.cons_append, triples, ih, List.length_cons, List.append_assoc]
    congr 3; omega

theorem triples_length (i : Nat) (rs : Rows T) : (triples i rs).length = rs.flatten.length := by
  induction rs generalizing i with
  | nil => rfl
  | cons r rs ih => simp only [triples, List.length_append, rowTriples, List.length_map, ih,
      List.flatten_cons]

theorem triples_of_empty (i : Nat) (E : Rows T) (h : E.flatten = []) : triples i E = [] := by
  have := triples_length i E
  rw [h] at this
  exact List.length_eq_zero_iff.1 this

theorem split_empty (S : Rows T) :
    S.flatten = [] ∨ ∃ E q r' S', E.flatten = [] ∧ S = E ++ (q :: r') :: S' := by
  induction S with
  | nil => left; rfl
  | cons r S ih =>
    cases r with
    | nil =>
      rcases ih with h | ⟨E, q, r', S', h1, h2⟩
      · left; simpa using h
      · right; exact ⟨[] :: E, q, r', S', by simpa using h1, by simp [h2]⟩
    | cons q r' => right; exact ⟨[], q, r', S, rfl, rfl⟩

/-! ### advRow -/

theorem advRow_stop (rp : List Nat) (idx n s1 cur : Nat)
    (h : n = 0 ∨ ∃ p, rp[s1]? = some p ∧ p > idx) : advRow rp idx n s1 cur = .ok cur := by
  rcases h with h | ⟨p, h1, h2⟩
  · subst h; rfl
  · cases n with
    | zero => rfl
    | succ n =>
      rw [advRow, getIdx_of_some h1]
      simp only [ok_bind]
      rw [if_neg (by omega), if_pos h2]; rfl

theorem advRow_eqs (rp : List Nat) (idx m : Nat) : ∀ (n s1 cur : Nat),
    (∀ k, k ≤ n → rp[s1 + k]? = some idx) →
    advRow rp idx (n + 1 + m) s1 cur = advRow rp idx m (s1 + n + 1) (s1 + n)
  | 0, s1, cur, h => by
      rw [show 0 + 1 + m = m + 1 by omega, advRow, getIdx_of_some (by simpa using h 0 (by omega))]
      simp
  | n + 1, s1, cur, h => by
      rw [show n + 1 + 1 + m = (n + 1 + m) + 1 by omega, advRow,
        getIdx_of_some (by simpa using h 0 (by omega))]
      simp only [ok_bind, if_true]
      rw [advRow_eqs rp idx m n (s1 + 1) s1 (fun k hk => by
        have := h (k + 1) (by omega)
        rwa [show s1 + (k + 1) = s1 + 1 + k by omega] at this)]
      rw [show s1 + 1 + n = s1 + (n + 1) by omega]

section
variable [Zero T]

theorem pack_rowPtr_some (c : Nat) (rs : Rows T) {i : Nat} (h : i < rs.length) :
    (pack c rs).rowPtr[i]? = some (offs rs i) := by
  simp [pack, h]

theorem itValid_pack {c : Nat} {rs : Rows T} {i j k : Nat} (hi : i < rs.length) (hj : j < c) :
    (pack c rs).itValid ⟨i, j, k⟩ = true := by
  simp [itValid, hi, hj]

theorem itEq_end_of_valid {s : Sparse T} {it : SIt} (h : s.itValid it = true) :
    s.itEq it s.itEnd = false := by
  simp only [itValid, Bool.and_eq_true, decide_eq_true_eq] at h
  simp only [itEq, itEnd, itValid]
  have h1 := h.1; have h2 := h.2
  simp [h1, h2]
  intro h3; omega

theorem itEq_end_of_invalid {s : Sparse T} {it : SIt} (h : s.itValid it = false) :
    s.itEq it s.itEnd = true := by
  simp only [itEq, h]
  simp [itEnd, itValid]

theorem itEq_end_rows {s : Sparse T} {k : Nat} :
    s.itEq ⟨s.rows, s.columns, k⟩ s.itEnd = true := by
  apply itEq_end_of_invalid; simp [itValid]

/-- next entry in the same row -/
theorem itNext_same (c : Nat) (P : Rows T) (A : List (Nat × T)) (p q : Nat × T)
    (B : List (Nat × T)) (S : Rows T) (hp : p.1 < c) :
    (pack c (P ++ (A ++ p :: q :: B) :: S)).itNext ⟨P.length, p.1, P.flatten.length + A.length⟩
      = .ok ⟨P.length, q.1, P.flatten.length + A.length + 1⟩ := by
  have hl : P.length < (P ++ (A ++ p :: q :: B) :: S).length := by simp
  unfold itNext
  rw [itValid_pack hl hp]
  simp only [if_true, pack_colPtr, List.length_map, pack_rows]
  have hfl : (P ++ (A ++ p :: q :: B) :: S).flatten = P.flatten ++ (A ++ p :: q :: (B ++ S.flatten)) := by
    simp
  rw [if_neg (by rw [hfl]; simp only [List.length_append, List.length_cons]; omega)]
  have hg : getIdx ((P ++ (A ++ p :: q :: B) :: S).flatten.map (·.1)) (P.flatten.length + A.length + 1)
      = .ok q.1 := by
    apply getIdx_of_some
    rw [List.getElem?_map, hfl, List.getElem?_append_right (by omega),
      List.getElem?_append_right (by omega)]
    have : P.flatten.length + A.length + 1 - P.flatten.length - A.length = 1 := by omega
    rw [this]; rfl
  rw [hg]
  simp only [ok_bind]
  have hadv : advRow (pack c (P ++ (A ++ p :: q :: B) :: S)).rowPtr (P.flatten.length + A.length + 1)
      ((P ++ (A ++ p :: q :: B) :: S).length - P.length) P.length P.length = .ok P.length := by
    have : (P ++ (A ++ p :: q :: B) :: S).length - P.length = S.length + 1 := by simp
    rw [this, advRow, getIdx_of_some (pack_rowPtr_some _ _ hl), offs_append_left _ _ (Nat.le_refl _),
      offs_length]
    simp only [ok_bind]
    rw [if_neg (by omega), if_neg (by omega)]
    apply advRow_stop
    rcases Nat.eq_zero_or_pos S.length with h | h
    · left; exact h
    · right
      refine ⟨_, pack_rowPtr_some _ _ (i := P.length + 1) (by simp; omega), ?_⟩
      rw [offs_append_right, offs_cons_succ, offs_zero]
      simp only [List.length_append, List.length_cons]; omega
  rw [hadv]
  rfl

theorem itNext_last (c : Nat) (P : Rows T) (A : List (Nat × T)) (p : Nat × T)
    (S : Rows T) (hp : p.1 < c) (hS : S.flatten = []) :
    (pack c (P ++ (A ++ [p]) :: S)).itNext ⟨P.length, p.1, P.flatten.length + A.length⟩
      = .ok ⟨(P ++ (A ++ [p]) :: S).length, c, P.flatten.length + A.length + 1⟩ := by
  have hl : P.length < (P ++ (A ++ [p]) :: S).length := by simp
  unfold itNext
  rw [itValid_pack hl hp]
  have hfl : (P ++ (A ++ [p]) :: S).flatten = P.flatten ++ (A ++ [p]) := by
    simp only [List.flatten_append, List.flatten_cons, hS, List.append_nil]
  simp only [if_true, pack_colPtr, List.length_map, pack_rows, pack_columns]
  rw [if_pos (by rw [hfl]; simp only [List.length_append, List.length_cons, List.length_nil]; omega)]

/-- next entry in a later row -/
theorem itNext_later (c : Nat) (P : Rows T) (A : List (Nat × T)) (p q : Nat × T)
    (E : Rows T) (r' : List (Nat × T)) (S : Rows T) (hp : p.1 < c) (hE : E.flatten = []) :
    (pack c (P ++ (A ++ [p]) :: (E ++ (q :: r') :: S))).itNext
        ⟨P.length, p.1, P.flatten.length + A.length⟩
      = .ok ⟨P.length + 1 + E.length, q.1, P.flatten.length + A.length + 1⟩ := by
  set rs := P ++ (A ++ [p]) :: (E ++ (q :: r') :: S) with hrs
  have hl : P.length < rs.length := by simp [hrs]
  unfold itNext
  rw [itValid_pack hl hp]
  have hfl : rs.flatten = P.flatten ++ (A ++ p :: q :: (r' ++ S.flatten)) := by
    simp only [hrs, List.flatten_append, List.flatten_cons, hE]
    simp
  simp only [if_true, pack_colPtr, List.length_map, pack_rows, pack_columns]
  rw [if_neg (by rw [hfl]; simp only [List.length_append, List.length_cons]; omega)]
  have hg : getIdx (rs.flatten.map (·.1)) (P.flatten.length + A.length + 1)
      = .ok q.1 := by
    apply getIdx_of_some
    rw [List.getElem?_map, hfl, List.getElem?_append_right (by omega),
      List.getElem?_append_right (by omega)]
    have : P.flatten.length + A.length + 1 - P.flatten.length - A.length = 1 := by omega
    rw [this]; rfl
  rw [hg]
  simp only [ok_bind]
  have hrl : rs.length = P.length + 1 + E.length + 1 + S.length := by
    simp [hrs]; omega
  have hoff : ∀ k, k ≤ E.length → offs rs (P.length + 1 + k) = P.flatten.length + A.length + 1 := by
    intro k hk
    rw [hrs, Nat.add_assoc, offs_append_right, Nat.add_comm 1 k, offs_cons_succ,
      offs_append_left _ _ hk]
    have : offs E k = 0 := by
      have := offs_mono E hk
      rw [offs_length, hE] at this
      simpa using this
    rw [this]; simp only [List.length_append, List.length_cons, List.length_nil]; omega
  have hadv : advRow (pack c rs).rowPtr (P.flatten.length + A.length + 1)
      (rs.length - P.length) P.length P.length = .ok (P.length + 1 + E.length) := by
    have : rs.length - P.length = (E.length + 1 + S.length) + 1 := by omega
    rw [this, advRow, getIdx_of_some (pack_rowPtr_some _ _ hl)]
    have h0 : offs rs P.length = P.flatten.length := by
      rw [hrs, offs_append_left _ _ (Nat.le_refl _), offs_length]
    rw [h0]
    simp only [ok_bind]
    rw [if_neg (by omega), if_neg (by omega)]
    rw [advRow_eqs _ _ _ _ _ _ (fun k hk => by
      rw [pack_rowPtr_some _ _ (by omega), hoff k hk])]
    apply advRow_stop
    rcases Nat.eq_zero_or_pos S.length with h | h
    · left; exact h
    · right
      refine ⟨_, pack_rowPtr_some _ _ (i := P.length + 1 + E.length + 1) (by omega), ?_⟩
      have h2 : offs rs (P.length + 1 + E.length + 1) = P.flatten.length + (A.length + 1 +
          (E.flatten.length + (r'.length + 1))) := by
        rw [show P.length + 1 + E.length + 1 = P.length + ((E.length + 1) + 1) by omega,
          hrs, offs_append_right, offs_cons_succ, offs_append_right, offs_cons_succ, offs_zero]
        simp only [List.length_append, List.length_cons, List.length_nil]
      rw [h2]; omega
  rw [hadv]; rfl

theorem deref_pack (c : Nat) (P : Rows T) (A : List (Nat × T)) (p : Nat × T)
    (B : List (Nat × T)) (S : Rows T) (hp : p.1 < c) :
    (pack c (P ++ (A ++ p :: B) :: S)).deref ⟨P.length, p.1, P.flatten.length + A.length⟩
      = .ok p.2 := by
  unfold deref
  rw [itValid_pack (by simp) hp]
  simp only [if_true]
  apply getIdx_of_some
  rw [pack_values, List.getElem?_map]
  have hfl : (P ++ (A ++ p :: B) :: S).flatten = P.flatten ++ (A ++ p :: (B ++ S.flatten)) := by simp
  rw [hfl, List.getElem?_append_right (by omega), List.getElem?_append_right (by omega)]
  have : P.flatten.length + A.length - P.flatten.length - A.length = 0 := by omega
  rw [this]; rfl

theorem walk_end {s : Sparse T} {next : SIt → R SIt} {n : Nat} {it : SIt}
    (h : s.itEq it s.itEnd = true) : walk s next n it = .ok [] := by
  cases n <;> simp [walk, h]

theorem walk_step {s : Sparse T} {next : SIt → R SIt} {n : Nat} {it it' : SIt} {v : T}
    {l : List (Nat × Nat × T)} (h : s.itEq it s.itEnd = false)
    (hv : s.deref it = .ok v) (hn : next it = .ok it') (hw : walk s next n it' = .ok l) :
    walk s next (n + 1) it = .ok ((it.i1, it.i2, v) :: l) := by
  simp [walk, h, hv, hn, hw]

theorem RowsOK.mid {c : Nat} {P : Rows T} {r : List (Nat × T)} {S : Rows T}
    (h : RowsOK c (P ++ r :: S)) : RowOK c r := h r (by simp)

theorem RowOK.lt {c : Nat} {A : List (Nat × T)} {p : Nat × T} {B : List (Nat × T)}
    (h : RowOK c (A ++ p :: B)) : p.1 < c := (h.2 p (by simp)).1

theorem walk_pack (c : Nat) (rs : Rows T) (hok : RowsOK c rs) (n : Nat) :
    ∀ (P : Rows T) (A : List (Nat × T)) (p : Nat × T) (B : List (Nat × T)) (S : Rows T),
      rs = P ++ (A ++ p :: B) :: S → B.length + S.flatten.length + 1 ≤ n →
      walk (pack c rs) (itNext (pack c rs)) n ⟨P.length, p.1, P.flatten.length + A.length⟩
        = .ok (rowTriples P.length (p :: B) ++ triples (P.length + 1) S) := by
  induction n with
  | zero => intro P A p B S _ h; omega
  | succ n ih =>
    intro P A p B S hrs hn
    have hrow : RowOK c (A ++ p :: B) := by subst hrs; exact hok.mid
    have hp := hrow.lt
    have hval : (pack c rs).itValid ⟨P.length, p.1, P.flatten.length + A.length⟩ = true :=
      itValid_pack (by simp [hrs]) hp
    have hne := itEq_end_of_valid hval
    have hd : (pack c rs).deref ⟨P.length, p.1, P.flatten.length + A.length⟩ = .ok p.2 := by
      rw [hrs]; exact deref_pack c P A p B S hp
    cases B with
    | cons q B =>
      have hnx : (pack c rs).itNext ⟨P.length, p.1, P.flatten.length + A.length⟩
          = .ok ⟨P.length, q.1, P.flatten.length + (A ++ [p]).length⟩ := by
        rw [hrs, itNext_same c P A p q B S hp]; simp [Nat.add_assoc]
      have hw := ih P (A ++ [p]) q B S (by simp [hrs]) (by simp at hn ⊢; omega)
      rw [walk_step hne hd hnx hw]
      simp [rowTriples]
    | nil =>
      rcases split_empty S with hS | ⟨E, q, r', S', hE, hS⟩
      · have hnx : (pack c rs).itNext ⟨P.length, p.1, P.flatten.length + A.length⟩
          = .ok ⟨(pack c rs).rows, (pack c rs).columns, P.flatten.length + A.length + 1⟩ := by
          rw [hrs, itNext_last c P A p S hp hS]; simp
        rw [walk_step hne hd hnx (walk_end itEq_end_rows), triples_of_empty _ _ hS]
        simp [rowTriples]
      · subst hS
        have hnx : (pack c rs).itNext ⟨P.length, p.1, P.flatten.length + A.length⟩
            = .ok ⟨(P ++ (A ++ [p]) :: E).length, q.1,
                (P ++ (A ++ [p]) :: E).flatten.length + ([] : List (Nat × T)).length⟩ := by
          rw [hrs, itNext_later c P A p q E r' S' hp hE]
          congr 2
          · simp; omega
          · simp only [List.flatten_append, List.flatten_cons, hE, List.length_append,
              List.length_cons, List.length_nil]; omega
        have hw := ih (P ++ (A ++ [p]) :: E) [] q r' S' (by simp [hrs]) (by
          simp only [List.flatten_append, List.flatten_cons, List.length_append,
            List.length_cons, hE, List.length_nil] at hn
          omega)
        rw [walk_step hne hd hnx hw, triples_append, triples_of_empty _ _ hE, triples]
        have : (P ++ (A ++ [p]) :: E).length = P.length + 1 + E.length := by simp; omega
        rw [this]
        simp [rowTriples]

/-! ### begin -/

theorem rowPos_split {c : Nat} {A : List (Nat × T)} {p : Nat × T} {B : List (Nat × T)}
    (h : RowOK c (A ++ p :: B)) :
    rowPos (A ++ p :: B) p.1 = A.length ∧ rowFound (A ++ p :: B) p.1 = true := by
  induction A with
  | nil => obtain ⟨a, b⟩ := p; simp [rowPos, rowFound]
  | cons q A ih =>
    obtain ⟨a, b⟩ := q
    have hs := h.1
    simp only [List.cons_append, List.pairwise_cons] at hs
    have h1 : a < p.1 := by simpa using hs.1 p (by simp)
    have h2 := ih ⟨hs.2, fun q hq => h.2 q (by simp at hq ⊢; tauto)⟩
    simp only [List.cons_append, rowPos, rowFound, h1, if_true, h2, List.length_cons, and_self]

variable [DecidableEq T]

theorem mkIt_pack {c : Nat} {P : Rows T} {A : List (Nat × T)} {p : Nat × T}
    {B : List (Nat × T)} {S : Rows T} (h : RowOK c (A ++ p :: B)) :
    (pack c (P ++ (A ++ p :: B) :: S)).mkIt P.length p.1
      = .ok ⟨P.length, p.1, P.flatten.length + A.length⟩ := by
  unfold mkIt
  rw [itValid_pack (by simp) h.lt, internalAt_pack]
  obtain ⟨h1, h2⟩ := rowPos_split h
  have hne : ¬ (P ++ (A ++ p :: B) :: S).flatten = [] := by
    intro h
    have := congrArg List.length h
    simp only [List.flatten_append, List.flatten_cons, List.length_append, List.length_cons,
      List.length_nil] at this
    omega
  simp [h1, h2, hne, -List.flatten_append, -List.flatten_cons, -List.flatten_eq_nil_iff, -List.length_flatten]

theorem rowEntryCount_ge (c : Nat) (rs : Rows T) {i : Nat} (h : rs.length ≤ i) :
    (pack c rs).rowEntryCount i = .ok (0, 0) := by
  unfold rowEntryCount
  rw [if_neg (by simp; omega)]; rfl

theorem firstRow_pack (c : Nat) (q : Nat × T) (r' : List (Nat × T)) (S : Rows T) :
    ∀ (E P : Rows T) (n : Nat), E.flatten = [] → E.length ≤ n →
    (pack c (P ++ E ++ (q :: r') :: S)).firstRow n P.length
      = .ok (P.length + E.length, P.flatten.length) := by
  intro E
  induction E with
  | nil =>
    intro P n _ _
    rw [List.append_nil]
    cases n with
    | zero => simp [firstRow, rowEntryCount_pack]
    | succ n => simp [firstRow, rowEntryCount_pack]
  | cons e E ih =>
    intro P n hE hn
    have he : e = [] ∧ E.flatten = [] := by
      rw [List.flatten_cons] at hE; exact List.append_eq_nil_iff.1 hE
    obtain ⟨he, hE'⟩ := he
    subst he
    cases n with
    | zero => simp at hn
    | succ n =>
      have h1 : P ++ [] :: E ++ (q :: r') :: S = P ++ [] :: (E ++ (q :: r') :: S) := by simp
      simp only [firstRow]
      rw [h1, rowEntryCount_pack]
      simp only [ok_bind, List.length_nil, pack_rows]
      rw [if_pos ⟨trivial, by simp⟩]
      have := ih (P ++ [[]]) n hE' (by simpa using hn)
      have h2 : P ++ [[]] ++ E ++ (q :: r') :: S = P ++ [] :: (E ++ (q :: r') :: S) := by simp
      rw [h2] at this
      simp only [List.length_append, List.length_cons, List.length_nil, List.flatten_append,
        List.flatten_cons, List.append_nil, List.flatten_nil, Nat.zero_add] at this
      rw [this]
      congr 2
      simp; omega

theorem isEmpty_pack_false {c : Nat} {rs : Rows T} (h : rs.flatten ≠ []) :
    (pack c rs).isEmpty = false := by
  rw [isEmpty_pack]
  cases h' : rs.flatten with
  | nil => exact absurd h' h
  | cons _ _ => rfl

theorem isEmpty_pack_true {c : Nat} {rs : Rows T} (h : rs.flatten = []) :
    (pack c rs).isEmpty = true := by
  rw [isEmpty_pack, h]; rfl

/-- `begin()` (both overloads) of a non-empty packed matrix -/
theorem itBegin_pack {c : Nat} {E : Rows T} {q : Nat × T} {r' : List (Nat × T)} {S : Rows T}
    (hok : RowOK c (q :: r')) (hE : E.flatten = []) :
    (pack c (E ++ (q :: r') :: S)).itBegin = .ok ⟨E.length, q.1, 0⟩ ∧
    (pack c (E ++ (q :: r') :: S)).itCBegin = .ok ⟨E.length, q.1, 0⟩ := by
  have hfl : (E ++ (q :: r') :: S).flatten = q :: (r' ++ S.flatten) := by
    simp only [List.flatten_append, List.flatten_cons, hE]; simp
  have hem : (pack c (E ++ (q :: r') :: S)).isEmpty = false :=
    isEmpty_pack_false (by rw [hfl]; simp)
  have hfr := firstRow_pack c q r' S E [] (E ++ (q :: r') :: S).length hE (by simp)
  simp only [List.nil_append, List.length_nil, List.flatten_nil, Nat.zero_add] at hfr
  have hne : ¬ E.length = (E ++ (q :: r') :: S).length := by simp
  have hg : getIdx (pack c (E ++ (q :: r') :: S)).colPtr 0 = .ok q.1 := by
    apply getIdx_of_some; rw [pack_colPtr, hfl]; rfl
  have hm := mkIt_pack (P := E) (A := []) (p := q) (B := r') (S := S) (c := c) hok
  simp only [List.nil_append, hE, List.length_nil, Nat.add_zero] at hm
  constructor
  · unfold itBegin
    rw [hem, pack_rows, hfr]
    simp only [Bool.false_eq_true, if_false, ok_bind, hne, hg, hm]
  · unfold itCBegin
    rw [hem, pack_rows, hfr]
    simp only [Bool.false_eq_true, if_false, ok_bind, hne, hg, hm]

theorem itBegin_pack_empty {c : Nat} {rs : Rows T} (h : rs.flatten = []) :
    (pack c rs).itBegin = .ok (pack c rs).itEnd ∧ (pack c rs).itCBegin = .ok (pack c rs).itEnd := by
  constructor
  · unfold itBegin; rw [isEmpty_pack_true h]; simp
  · unfold itCBegin; rw [isEmpty_pack_true h]; simp

theorem entries_pack {c : Nat} {rs : Rows T} (hok : RowsOK c rs) :
    (pack c rs).entries = .ok (triples 0 rs) ∧ (pack c rs).entriesNC = .ok (triples 0 rs) := by
  rcases split_empty rs with h | ⟨E, q, r', S, hE, h⟩
  · unfold entries entriesNC
    rw [(itBegin_pack_empty h).1, (itBegin_pack_empty h).2, triples_of_empty _ _ h]
    simp only [ok_bind]
    rw [walk_end (by apply itEq_end_of_invalid; simp [itValid, itEnd])]
    simp
  · subst h
    have hrow : RowOK c (q :: r') := hok.mid
    unfold entries entriesNC
    rw [(itBegin_pack hrow hE).1, (itBegin_pack hrow hE).2]
    simp only [ok_bind]
    have hw := walk_pack c _ hok ((pack c (E ++ (q :: r') :: S)).values.length + 1) E [] q r' S
      (by simp) (by
        rw [pack_values, List.length_map]
        simp only [List.flatten_append, List.flatten_cons, List.length_append, List.length_cons, hE]
        omega)
    simp only [hE, List.length_nil, Nat.add_zero] at hw
    rw [hw, triples_append, triples_of_empty _ _ hE, triples]
    simp

/-! ### rows -/

theorem rowNext_same (c : Nat) (P : Rows T) (A : List (Nat × T)) (p q : Nat × T)
    (B : List (Nat × T)) (S : Rows T) (hp : p.1 < c) :
    (pack c (P ++ (A ++ p :: q :: B) :: S)).rowNext ⟨P.length, p.1, P.flatten.length + A.length⟩
      = .ok ⟨P.length, q.1, P.flatten.length + A.length + 1⟩ := by
  have hl : P.length < (P ++ (A ++ p :: q :: B) :: S).length := by simp
  unfold rowNext
  rw [itValid_pack hl hp]
  simp only [if_true, pack_colPtr, List.length_map, pack_rows]
  have hfl : (P ++ (A ++ p :: q :: B) :: S).flatten = P.flatten ++ (A ++ p :: q :: (B ++ S.flatten)) := by
    simp
  rw [if_neg (by rw [hfl]; simp only [List.length_append, List.length_cons]; omega)]
  have hg : getIdx ((P ++ (A ++ p :: q :: B) :: S).flatten.map (·.1)) (P.flatten.length + A.length + 1)
      = .ok q.1 := by
    apply getIdx_of_some
    rw [List.getElem?_map, hfl, List.getElem?_append_right (by omega),
      List.getElem?_append_right (by omega)]
    have : P.flatten.length + A.length + 1 - P.flatten.length - A.length = 1 := by omega
    rw [this]; rfl
  rw [hg]
  simp only [ok_bind]
  have hw : wsub (P ++ (A ++ p :: q :: B) :: S).length 1 = P.length + S.length := by
    rw [wsub_of_le (by simp; omega)]; simp
  rw [hw]
  by_cases hS : S.length = 0
  · rw [if_neg (by omega)]; rfl
  · rw [if_pos (by omega), getIdx_of_some (pack_rowPtr_some _ _ (i := P.length + 1) (by simp; omega)),
      offs_append_right, offs_cons_succ, offs_zero]
    simp only [ok_bind]
    rw [if_neg (by simp only [List.length_append, List.length_cons]; omega)]; rfl

theorem rowNext_last (c : Nat) (P : Rows T) (A : List (Nat × T)) (p : Nat × T)
    (S : Rows T) (hp : p.1 < c) :
    (pack c (P ++ (A ++ [p]) :: S)).rowNext ⟨P.length, p.1, P.flatten.length + A.length⟩
      = .ok ⟨(pack c (P ++ (A ++ [p]) :: S)).rows, (pack c (P ++ (A ++ [p]) :: S)).columns,
          P.flatten.length + A.length + 1⟩ := by
  have hl : P.length < (P ++ (A ++ [p]) :: S).length := by simp
  unfold rowNext
  rw [itValid_pack hl hp]
  simp only [if_true, pack_colPtr, List.length_map]
  have hfl : (P ++ (A ++ [p]) :: S).flatten = P.flatten ++ (A ++ p :: S.flatten) := by simp
  by_cases hS : S.flatten = []
  · rw [if_pos (by rw [hfl, hS]; simp only [List.length_append, List.length_cons, List.length_nil]; omega)]
  · have hSl : 0 < S.flatten.length := List.length_pos_iff.2 hS
    have hSl' : 0 < S.length := by
      rcases Nat.eq_zero_or_pos S.length with h | h
      · exact absurd (by rw [List.length_eq_zero_iff.1 h]; rfl) hS
      · exact h
    rw [if_neg (by rw [hfl]; simp only [List.length_append, List.length_cons]; omega)]
    have hlt : P.flatten.length + A.length + 1 < ((P ++ (A ++ [p]) :: S).flatten.map (·.1)).length := by
      rw [List.length_map, hfl]; simp only [List.length_append, List.length_cons]; omega
    rw [getIdx_eq hlt]
    simp only [ok_bind]
    have hw : wsub (pack c (P ++ (A ++ [p]) :: S)).rows 1 = P.length + S.length := by
      rw [pack_rows, wsub_of_le (by simp; omega)]; simp
    rw [hw, if_pos (by omega), getIdx_of_some (pack_rowPtr_some _ _ (i := P.length + 1) (by simp; omega)),
      offs_append_right, offs_cons_succ, offs_zero]
    simp only [ok_bind]
    rw [if_pos (by simp only [List.length_append, List.length_cons, List.length_nil]; omega)]; rfl

theorem walk_row_pack (c : Nat) (rs : Rows T) (hok : RowsOK c rs) (P : Rows T) (S : Rows T)
    (B : List (Nat × T)) : ∀ (A : List (Nat × T)) (p : Nat × T) (n : Nat),
      rs = P ++ (A ++ p :: B) :: S → B.length + 1 ≤ n →
      walk (pack c rs) (rowNext (pack c rs)) n ⟨P.length, p.1, P.flatten.length + A.length⟩
        = .ok (rowTriples P.length (p :: B)) := by
  induction B with
  | nil =>
    intro A p n hrs hn
    obtain ⟨m, rfl⟩ : ∃ m, n = m + 1 := ⟨n - 1, by simp at hn; omega⟩
    have hrow : RowOK c (A ++ [p]) := by subst hrs; exact hok.mid
    have hp := hrow.lt
    have hne := itEq_end_of_valid (itValid_pack (c := c) (rs := rs) (i := P.length) (j := p.1)
      (k := P.flatten.length + A.length) (by simp [hrs]) hp)
    have hd : (pack c rs).deref ⟨P.length, p.1, P.flatten.length + A.length⟩ = .ok p.2 := by
      rw [hrs]; exact deref_pack c P A p [] S hp
    have hnx : (pack c rs).rowNext ⟨P.length, p.1, P.flatten.length + A.length⟩
        = .ok ⟨(pack c rs).rows, (pack c rs).columns, P.flatten.length + A.length + 1⟩ := by
      rw [hrs]; exact rowNext_last c P A p S hp
    rw [walk_step hne hd hnx (walk_end itEq_end_rows)]
    simp [rowTriples]
  | cons q B ih =>
    intro A p n hrs hn
    obtain ⟨m, rfl⟩ : ∃ m, n = m + 1 := ⟨n - 1, by simp at hn; omega⟩
    have hrow : RowOK c (A ++ p :: q :: B) := by subst hrs; exact hok.mid
    have hp := hrow.lt
    have hne := itEq_end_of_valid (itValid_pack (c := c) (rs := rs) (i := P.length) (j := p.1)
      (k := P.flatten.length + A.length) (by simp [hrs]) hp)
    have hd : (pack c rs).deref ⟨P.length, p.1, P.flatten.length + A.length⟩ = .ok p.2 := by
      rw [hrs]; exact deref_pack c P A p (q :: B) S hp
    have hnx : (pack c rs).rowNext ⟨P.length, p.1, P.flatten.length + A.length⟩
        = .ok ⟨P.length, q.1, P.flatten.length + (A ++ [p]).length⟩ := by
      rw [hrs, rowNext_same c P A p q B S hp]; simp [Nat.add_assoc]
    have hw := ih (A ++ [p]) q m (by simp [hrs]) (by simp at hn ⊢; omega)
    rw [walk_step hne hd hnx hw]
    simp [rowTriples]

theorem rowBegin_pack {c : Nat} {P : Rows T} {r : List (Nat × T)} {S : Rows T} (hok : RowOK c r) :
    (pack c (P ++ r :: S)).rowBegin P.length = .ok (match r with
      | [] => (pack c (P ++ r :: S)).itEnd
      | p :: _ => ⟨P.length, p.1, P.flatten.length⟩) := by
  unfold rowBegin
  by_cases he : (P ++ r :: S).flatten = []
  · have hr : r = [] := by
      rw [List.flatten_append, List.flatten_cons] at he
      exact (List.append_eq_nil_iff.1 (List.append_eq_nil_iff.1 he).2).1
    rw [isEmpty_pack_true he]
    subst hr; rfl
  · rw [isEmpty_pack_false he, rowEntryCount_pack]
    simp only [Bool.false_eq_true, if_false, ok_bind]
    cases r with
    | nil => rfl
    | cons p r =>
      simp only [List.length_cons, Nat.add_eq_zero_iff, Nat.one_ne_zero, and_false, if_false]
      have hg : getIdx (pack c (P ++ (p :: r) :: S)).colPtr P.flatten.length = .ok p.1 := by
        apply getIdx_of_some
        rw [pack_colPtr, List.getElem?_map, List.flatten_append, List.flatten_cons,
          List.getElem?_append_right (by omega)]
        simp
      rw [hg]
      simp only [ok_bind]
      have := mkIt_pack (c := c) (P := P) (A := []) (p := p) (B := r) (S := S) hok
      simpa using this

theorem rowEntries_pack {c : Nat} {P : Rows T} {r : List (Nat × T)} {S : Rows T}
    (hok : RowsOK c (P ++ r :: S)) :
    (pack c (P ++ r :: S)).rowEntries P.length = .ok (rowTriples P.length r) := by
  unfold rowEntries
  rw [rowBegin_pack hok.mid]
  cases r with
  | nil =>
    simp only [ok_bind]
    rw [walk_end (by apply itEq_end_of_invalid; simp [itValid, itEnd])]
    rfl
  | cons p r =>
    simp only [ok_bind]
    exact walk_row_pack c _ hok P S r [] p _ (by simp) (by
      rw [pack_values, List.length_map]
      simp only [List.flatten_append, List.flatten_cons, List.length_append, List.length_cons]
      omega)

/-! ### columns -/

/-- stored entries of column `j`, rows numbered from `i` -/
def colTriples (j : Nat) : Nat → Rows T → List (Nat × Nat × T)
  | _, [] => []
  | i, r :: rs => (if rowFound r j then [(i, j, lookup r j)] else []) ++ colTriples j (i + 1) rs

theorem colTriples_length_le (j i : Nat) (rs : Rows T) :
    (colTriples j i rs).length ≤ rs.flatten.length := by
  induction rs generalizing i with
  | nil => simp [colTriples]
  | cons r rs ih =>
    have := ih (i + 1)
    simp only [colTriples, List.flatten_cons, List.length_append]
    split
    · rename_i h; have := rowFound_lt h; simp only [List.length_cons, List.length_nil]; omega
    · simp only [List.length_nil]; omega

theorem split_col (j : Nat) (S : Rows T) :
    (∀ e ∈ S, rowFound e j = false) ∨
      ∃ E r' S', (∀ e ∈ E, rowFound e j = false) ∧ rowFound r' j = true ∧ S = E ++ r' :: S' := by
  induction S with
  | nil => left; simp
  | cons r S ih =>
    by_cases hr : rowFound r j = true
    · right; exact ⟨[], r, S, by simp, hr, rfl⟩
    · rcases ih with h | ⟨E, r', S', h1, h2, h3⟩
      · left; intro e he
        rcases List.mem_cons.1 he with h' | h'
        · subst h'; simpa using hr
        · exact h e h'
      · right
        refine ⟨r :: E, r', S', ?_, h2, by simp [h3]⟩
        intro e he
        rcases List.mem_cons.1 he with h' | h'
        · subst h'; simpa using hr
        · exact h1 e h'

theorem colTriples_none (j i : Nat) (E : Rows T) (h : ∀ e ∈ E, rowFound e j = false) :
    colTriples j i E = [] := by
  induction E generalizing i with
  | nil => rfl
  | cons e E ih => simp [colTriples, h e (by simp), ih (i + 1) (fun e he => h e (by simp [he]))]

theorem colTriples_append (j i : Nat) (P S : Rows T) :
    colTriples j i (P ++ S) = colTriples j i P ++ colTriples j (i + P.length) S := by
  induction P generalizing i with
  | nil => simp [colTriples]
  | cons r P ih =>
    simp only [List.cons_append, colTriples, ih, List.length_cons, List.append_assoc]
    congr 3; omega

theorem colLoop_none (c j : Nat) : ∀ (S P : Rows T) (r : List (Nat × T)) (n cpi : Nat),
    (∀ e ∈ S, rowFound e j = false) → S.length + 1 ≤ n →
    ∃ k, (pack c (P ++ r :: S)).colLoop j n P.length cpi = .ok ⟨(P ++ r :: S).length, c, k⟩ := by
  intro S
  induction S with
  | nil =>
    intro P r n cpi _ hn
    obtain ⟨m, rfl⟩ : ∃ m, n = m + 1 := ⟨n - 1, by simp at hn; omega⟩
    refine ⟨cpi, ?_⟩
    rw [colLoop, if_pos (by simp)]
    simp
  | cons r' S ih =>
    intro P r n cpi hS hn
    obtain ⟨m, rfl⟩ : ∃ m, n = m + 1 := ⟨n - 1, by simp at hn; omega⟩
    rw [colLoop, if_neg (by simp)]
    have h1 : P ++ r :: r' :: S = (P ++ [r]) ++ r' :: S := by simp
    have hc : (pack c (P ++ r :: r' :: S)).rowEntryCount (P.length + 1)
        = .ok (r'.length, (P ++ [r]).flatten.length) := by
      have := rowEntryCount_pack c (P ++ [r]) r' S
      rw [h1]; simpa using this
    rw [hc]
    simp only [ok_bind, colScan, pack_colPtr]
    rw [h1, scan_pack]
    simp only [ok_bind]
    have hf : rowFound r' j = false := hS r' (by simp)
    rw [hf]
    obtain ⟨k, hk⟩ := ih (P ++ [r]) r' m ((P ++ [r]).flatten.length + rowPos r' j)
      (fun e he => hS e (by simp [he])) (by simp at hn ⊢; omega)
    exact ⟨k, by simpa using hk⟩

theorem colLoop_some (c j : Nat) (r' : List (Nat × T)) (S' : Rows T) (hr' : rowFound r' j = true) :
    ∀ (E P : Rows T) (r : List (Nat × T)) (n cpi : Nat),
    (∀ e ∈ E, rowFound e j = false) → E.length + 1 ≤ n →
    (pack c (P ++ r :: (E ++ r' :: S'))).colLoop j n P.length cpi =
      .ok ⟨P.length + 1 + E.length, j, (P ++ r :: E).flatten.length + rowPos r' j⟩ := by
  intro E
  induction E with
  | nil =>
    intro P r n cpi _ hn
    obtain ⟨m, rfl⟩ : ∃ m, n = m + 1 := ⟨n - 1, by simp at hn; omega⟩
    rw [colLoop, if_neg (by simp)]
    have h1 : P ++ r :: ([] ++ r' :: S') = (P ++ [r]) ++ r' :: S' := by simp
    have hc : (pack c (P ++ r :: ([] ++ r' :: S'))).rowEntryCount (P.length + 1)
        = .ok (r'.length, (P ++ [r]).flatten.length) := by
      have := rowEntryCount_pack c (P ++ [r]) r' S'
      rw [h1]; simpa using this
    rw [hc]
    simp only [ok_bind, colScan, pack_colPtr]
    rw [h1, scan_pack]
    simp [hr']
  | cons e E ih =>
    intro P r n cpi hE hn
    obtain ⟨m, rfl⟩ : ∃ m, n = m + 1 := ⟨n - 1, by simp at hn; omega⟩
    rw [colLoop, if_neg (by simp)]
    have h1 : P ++ r :: (e :: E ++ r' :: S') = (P ++ [r]) ++ e :: (E ++ r' :: S') := by simp
    have hc : (pack c (P ++ r :: (e :: E ++ r' :: S'))).rowEntryCount (P.length + 1)
        = .ok (e.length, (P ++ [r]).flatten.length) := by
      have := rowEntryCount_pack c (P ++ [r]) e (E ++ r' :: S')
      rw [h1]; simpa using this
    rw [hc]
    simp only [ok_bind, colScan, pack_colPtr]
    rw [h1, scan_pack]
    simp only [ok_bind]
    rw [hE e (by simp)]
    have := ih (P ++ [r]) e m ((P ++ [r]).flatten.length + rowPos e j)
      (fun e he => hE e (by simp [he])) (by simp at hn ⊢; omega)
    rw [show (P ++ [r]).length = P.length + 1 by simp] at this
    simp only [Bool.false_eq_true, if_false]
    rw [this]
    congr 2
    · simp; omega
    · simp

theorem deref_col {c j : Nat} {P : Rows T} {r : List (Nat × T)} {S : Rows T} (hok : RowOK c r)
    (hf : rowFound r j = true) (hj : j < c) :
    (pack c (P ++ r :: S)).deref ⟨P.length, j, P.flatten.length + rowPos r j⟩
      = .ok (lookup r j) := by
  unfold deref
  rw [itValid_pack (by simp) hj]
  simp only [if_true]
  apply getIdx_of_some
  rw [pack_values, List.getElem?_map, List.flatten_append, List.flatten_cons,
    List.getElem?_append_right (by omega), Nat.add_sub_cancel_left,
    List.getElem?_append_left (rowFound_lt hf), rowFound_lookup hok hf]
  rfl

theorem walk_col_pack (c j : Nat) (hj : j < c) (rs : Rows T) (hok : RowsOK c rs) (n : Nat) :
    ∀ (P : Rows T) (r : List (Nat × T)) (S : Rows T), rs = P ++ r :: S → rowFound r j = true →
      S.flatten.length + 1 ≤ n →
      walk (pack c rs) (colNext (pack c rs)) n ⟨P.length, j, P.flatten.length + rowPos r j⟩
        = .ok (colTriples j P.length (r :: S)) := by
  induction n with
  | zero => intro P r S _ _ h; omega
  | succ n ih =>
    intro P r S hrs hf hn
    have hrow : RowOK c r := by subst hrs; exact hok.mid
    have hval : (pack c rs).itValid ⟨P.length, j, P.flatten.length + rowPos r j⟩ = true :=
      itValid_pack (by simp [hrs]) hj
    have hne := itEq_end_of_valid hval
    have hd : (pack c rs).deref ⟨P.length, j, P.flatten.length + rowPos r j⟩ = .ok (lookup r j) := by
      rw [hrs]; exact deref_col hrow hf hj
    simp only [colTriples, hf, if_true]
    rcases split_col j S with hS | ⟨E, r', S', hE, hr', hS⟩
    · obtain ⟨k, hk⟩ := colLoop_none c j S P r (rs.length - P.length)
        (P.flatten.length + rowPos r j) hS (by simp [hrs])
      have hnx : (pack c rs).colNext ⟨P.length, j, P.flatten.length + rowPos r j⟩
          = .ok ⟨(pack c rs).rows, (pack c rs).columns, k⟩ := by
        unfold colNext
        rw [hval]
        simp only [if_true, pack_rows, pack_columns]
        rw [hrs] at hk ⊢
        exact hk
      rw [walk_step hne hd hnx (walk_end itEq_end_rows), colTriples_none _ _ _ hS]
      rfl
    · subst hS
      have hnx : (pack c rs).colNext ⟨P.length, j, P.flatten.length + rowPos r j⟩
          = .ok ⟨(P ++ r :: E).length, j, (P ++ r :: E).flatten.length + rowPos r' j⟩ := by
        unfold colNext
        rw [hval]
        simp only [if_true, pack_rows, pack_columns]
        rw [hrs, colLoop_some c j r' S' hr' E P r _ _ hE (by simp)]
        congr 2
        simp; omega
      have hw := ih (P ++ r :: E) r' S' (by simp [hrs]) hr' (by
        have := rowFound_lt hr'
        simp only [List.flatten_append, List.flatten_cons, List.length_append] at hn
        omega)
      rw [walk_step hne hd hnx hw, colTriples_append, colTriples_none _ _ _ hE]
      have : (P ++ r :: E).length = P.length + 1 + E.length := by simp; omega
      rw [this]
      rfl

end
end Sparse
end NS

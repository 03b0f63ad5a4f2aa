/-
Hadamard product and initializer-list construction of the sparse matrix.
-/
import Verif.SparseReach

set_option linter.unusedSectionVars false
set_option linter.unusedSimpArgs false

namespace NS
namespace Sparse
variable {T : Type}
variable [CommRing T] [DecidableEq T]

theorem had_body [NoZeroDivisors T] {s : Sparse T} (hs : Inv s) (e : Nat × Nat × T) (hv : e.2.2 ≠ 0)
    (hi : e.1 < s.rows) (hj : e.2.1 < s.columns) :
    (do
      let (k, found) ← s.internalAt e.1 e.2.1 false
      if found then
        let v ← getIdx s.values k
        let vs ← setIdx s.values k (v * e.2.2)
        return { s with values := vs }
      else return { s with empty := s.empty * e.2.2 }) =
    s.set e.1 e.2.1 (s.val e.1 e.2.1 * e.2.2) := by
  obtain ⟨rs, h1, h2, h3, h4⟩ := hs
  generalize hc : s.cols = c at *
  subst h1
  obtain ⟨i, j, w⟩ := e
  simp only at *
  obtain ⟨P, r, S, rfl, rfl⟩ := split_at (show i < rs.length by simpa using hi)
  have hr := h2.mid
  rw [internalAt_pack, val_pack' h2, ent_mid, set_pack P r S _ (show j < c from hj)]
  simp only [ok_bind]
  by_cases hf : rowFound r j = true
  · have hne := (rowFound_iff hr j).1 hf
    have hfl : (P ++ r :: S).flatten ≠ [] := by
      intro h
      have hlt := rowFound_lt hf
      have : r = [] := by
        have := List.flatten_eq_nil_iff.1 h r (by simp)
        exact this
      subst this; simp at hlt
    rw [if_pos hf, if_neg (fun h => hfl h.2)]
    have hget := rowFound_lookup hr hf
    have hlt := rowFound_lt hf
    have hsplit : r = r.take (rowPos r j) ++ (j, lookup r j) :: r.drop (rowPos r j + 1) := by
      have h' := List.drop_eq_getElem_cons hlt
      rw [List.getElem?_eq_getElem hlt] at hget
      injection hget with hget
      rw [hget] at h'
      rw [← h', List.take_append_drop]
    have hAl : (r.take (rowPos r j)).length = rowPos r j := by simp; omega
    have hup : rowUpd j (lookup r j * w) r
        = r.take (rowPos r j) ++ (j, lookup r j * w) :: r.drop (rowPos r j + 1) := by
      unfold rowUpd
      rw [if_neg (mul_ne_zero hne hv), rowSet_eq, if_pos hf, List.set_eq_take_append_cons_drop, if_pos hlt]
    generalize r.take (rowPos r j) = A at *
    generalize r.drop (rowPos r j + 1) = B at *
    generalize rowPos r j = k at *
    generalize lookup r j = x at *
    subst hAl
    rw [hup, hsplit, getIdx_values_pack c P A (j, x) B S]
    simp only [ok_bind]
    rw [setIdx_values_pack c P A (j, x) B S]
    simp only [ok_bind, pure_eq_ok]
    exact congrArg _ (set_values_pack c P A (j, x) _ B S)
  · have hz : lookup r j = 0 := by
      by_contra h
      exact hf ((rowFound_iff hr j).2 h)
    have hup : rowUpd j (lookup r j * w) r = r := by
      rw [hz]; unfold rowUpd
      rw [if_pos (by simp), rowDel_eq, if_neg hf]
    rw [hup, if_neg hf]
    simp only [pure_eq_ok]
    congr 1
    simp [pack]

theorem Inv.hadScale_ok [NoZeroDivisors T] {s t : Sparse T} (hs : Inv s) (ht : Inv t)
    (hr : t.rows ≤ s.rows) (hc : t.columns ≤ s.columns) :
    ∃ u, s.hadamardScale t = .ok u ∧ Inv u ∧ u.rows = s.rows ∧ u.columns = s.columns ∧
      ∀ i j, u.val i j = if t.val i j = 0 then s.val i j else s.val i j * t.val i j := by
  obtain ⟨l, hl, -, hle⟩ := ht.entries'
  unfold hadamardScale
  rw [hl]
  simp only [ok_bind]
  obtain ⟨u, hu, hu1, hu2, hu3, hu4, hu5⟩ := fold_set (fun e : Nat × Nat × T => (e.1, e.2.1))
    (fun e x => x * e.2.2) (fun e s => do
      let (k, found) ← s.internalAt e.1 e.2.1 false
      if found then
        let v ← getIdx s.values k
        let vs ← setIdx s.values k (v * e.2.2)
        return { s with values := vs }
      else return { s with empty := s.empty * e.2.2 }) s.rows s.columns l hle.nd (by
    intro e he s' hs' hr' hc'
    have hrg := hle.range e he
    have hne := ((hle.mem e).1 he).2
    rw [had_body hs' e hne (by omega) (by omega)]
    obtain ⟨s2, h1, h2, h3, h4, h5⟩ := hs'.set_ok (i := e.1) (j := e.2.1) (s'.val e.1 e.2.1 * e.2.2)
      (by omega) (by omega)
    refine ⟨s2, h1, h2, by omega, by omega, ?_⟩
    intro a b
    rw [h5]
    by_cases hab : a = e.1 ∧ b = e.2.1
    · obtain ⟨rfl, rfl⟩ := hab; simp
    · rw [if_neg hab, if_neg (by simpa using hab)]) s hs rfl rfl
  refine ⟨u, hu, hu1, hu2, hu3, ?_⟩
  intro i j
  split
  · rename_i hz
    apply hu5
    intro e he heq
    have := (hle.mem e).1 he
    simp only [Prod.mk.injEq] at heq
    rw [heq.1, heq.2] at this
    exact this.2 (this.1.trans hz)
  · rename_i hz
    exact hu4 (i, j, t.val i j) ((hle.mem _).2 ⟨rfl, hz⟩)

/-- rows filtered by a predicate on positions -/
def keepRow (keep : Nat → Nat → Bool) (i : Nat) (r : List (Nat × T)) : List (Nat × T) :=
  r.filter (fun q => keep i q.1)

def keepRows (keep : Nat → Nat → Bool) : Nat → Rows T → Rows T
  | _, [] => []
  | i, r :: rs => keepRow keep i r :: keepRows keep (i + 1) rs

theorem keepRows_append (keep : Nat → Nat → Bool) (i : Nat) (P S : Rows T) :
    keepRows keep i (P ++ S) = keepRows keep i P ++ keepRows keep (i + P.length) S := by
  induction P generalizing i with
  | nil => simp [keepRows]
  | cons r P ih => simp [keepRows, ih]; congr 1; omega

theorem keepRows_empty (keep : Nat → Nat → Bool) (i : Nat) (E : Rows T) (h : E.flatten = []) :
    keepRows keep i E = E := by
  induction E generalizing i with
  | nil => rfl
  | cons r E ih =>
    simp at h
    obtain ⟨rfl, h⟩ := h
    simp only [keepRows, keepRow, List.filter_nil]
    rw [ih _ (by simpa using h)]

theorem ent_keepRows (keep : Nat → Nat → Bool) {c : Nat} {rs : Rows T} (h : RowsOK c rs) (k i j : Nat) :
    ent (keepRows keep k rs) i j = if keep (k + i) j then ent rs i j else 0 := by
  induction rs generalizing k i with
  | nil => simp [keepRows, ent, lookup]
  | cons r rs ih =>
    have hr : RowOK c r := h r (by simp)
    have hrs : RowsOK c rs := fun x hx => h x (by simp [hx])
    cases i with
    | zero =>
      simp only [keepRows, ent, List.getD_cons_zero, Nat.add_zero, keepRow]
      have hf : RowOK c (r.filter (fun q => keep k q.1)) := hr.sublist List.filter_sublist
      split
      · rename_i hk
        by_cases hz : lookup r j = 0
        · rw [hz]
          by_contra hne
          have := (lookup_mem hf (j := j)).2 ⟨rfl, hne⟩
          have := ((lookup_mem hr).1 (List.mem_of_mem_filter this)).1
          rw [hz] at this; exact hne this.symm
        · have := (lookup_mem hr (j := j)).2 ⟨rfl, hz⟩
          exact ((lookup_mem hf).1 (List.mem_filter.2 ⟨this, hk⟩)).1
      · rename_i hk
        by_contra hne
        have := (lookup_mem hf (j := j)).2 ⟨rfl, hne⟩
        exact hk (List.mem_filter.1 this).2
    | succ i =>
      have := ih hrs (k + 1) i
      simp only [keepRows, ent, List.getD_cons_succ] at this ⊢
      rw [this, show k + 1 + i = k + (i + 1) by omega]

theorem keepRows_ok (keep : Nat → Nat → Bool) {c : Nat} {rs : Rows T} (h : RowsOK c rs) (k : Nat) :
    RowsOK c (keepRows keep k rs) := by
  induction rs generalizing k with
  | nil => intro r hr; simp [keepRows] at hr
  | cons r rs ih =>
    intro x hx
    simp only [keepRows, List.mem_cons] at hx
    rcases hx with rfl | hx
    · exact (h r (by simp)).sublist List.filter_sublist
    · exact ih (fun y hy => h y (by simp [hy])) _ x hx

theorem keepRows_length (keep : Nat → Nat → Bool) (k : Nat) (rs : Rows T) :
    (keepRows keep k rs).length = rs.length := by
  induction rs generalizing k with
  | nil => rfl
  | cons r rs ih => simp [keepRows, ih]

/-- The row `i` with the entries `A` already kept and `r` still to be looked at is left with the right iterator: its last entry is kept,
or nothing follows, or the row is not empty at the end and the next row is not empty. -/
def RowGood (keep : Nat → Nat → Bool) (i : Nat) (A r : List (Nat × T)) (S : Rows T) : Prop :=
  (∀ q, r.getLast? = some q → keep i q.1 = true) ∨ S.flatten = [] ∨
    ((A ≠ [] ∨ ∃ x ∈ r, keep i x.1 = true) ∧ ∃ q r' S', S = (q :: r') :: S')

/-- all rows are good -/
def LastKept (keep : Nat → Nat → Bool) : Nat → Rows T → Prop
  | _, [] => True
  | i, r :: rs => RowGood keep i [] r rs ∧ LastKept keep (i + 1) rs

theorem LastKept.append {keep : Nat → Nat → Bool} {i : Nat} {P S : Rows T}
    (h : LastKept keep i (P ++ S)) : LastKept keep (i + P.length) S := by
  induction P generalizing i with
  | nil => simpa using h
  | cons r P ih =>
    have := ih h.2
    simp only [List.length_cons]
    rwa [show i + (P.length + 1) = i + 1 + P.length by omega]

theorem hadErase_end {v2 : Sparse T} {n : Nat} {s : Sparse T} {it : SIt}
    (h : s.itEq it s.itEnd = true) : hadamardErase v2 n s it = .ok s := by
  cases n <;> simp [hadamardErase, h]

theorem hadErase_pack (c : Nat) (v2 : Sparse T) (keep : Nat → Nat → Bool) (R' : Nat)
    (hkeep : ∀ i j, i < R' → j < c → v2.has i j = .ok (keep i j)) (n : Nat) :
    ∀ (P : Rows T) (A : List (Nat × T)) (p : Nat × T) (B : List (Nat × T)) (S : Rows T),
      P.length + 1 + S.length = R' →
      (∀ q ∈ p :: B, q.1 < c) → (∀ r ∈ S, ∀ q ∈ r, q.1 < c) → B.length + S.flatten.length + 1 ≤ n →
      RowGood keep P.length A (p :: B) S → LastKept keep (P.length + 1) S →
      hadamardErase v2 n (pack c (P ++ (A ++ p :: B) :: S)) ⟨P.length, p.1, P.flatten.length + A.length⟩
        = .ok (pack c (P ++ (A ++ keepRow keep P.length (p :: B)) :: keepRows keep (P.length + 1) S)) := by
  induction n with
  | zero => intros; omega
  | succ n ih =>
    intro P A p B S hR hB hS hn hg hlk
    have hp : p.1 < c := hB p (by simp)
    have hvalid : (pack c (P ++ (A ++ p :: B) :: S)).itValid ⟨P.length, p.1, P.flatten.length + A.length⟩ = true :=
      itValid_pack (by simp) hp
    rw [hadamardErase, itEq_end_of_valid hvalid]
    simp only [Bool.false_eq_true, if_false]
    rw [hkeep _ _ (by omega) hp]
    simp only [ok_bind]
    by_cases hk : keep P.length p.1 = true
    · rw [if_pos hk]
      have hrow : keepRow keep P.length (p :: B) = p :: keepRow keep P.length B := by
        simp [keepRow, hk]
      cases B with
      | cons q B =>
        rw [itNext_same c P A p q B S hp]
        simp only [ok_bind]
        have := ih P (A ++ [p]) q B S hR (fun x hx => hB x (by simp at hx ⊢; tauto)) hS
          (by simp only [List.length_cons] at hn; omega) (by
            rcases hg with h | h | ⟨-, h⟩
            · exact .inl fun x hx => h x (by simpa using hx)
            · exact .inr (.inl h)
            · exact .inr (.inr ⟨.inl (by simp), h⟩)) hlk
        have e1 : A ++ [p] ++ q :: B = A ++ p :: q :: B := by simp
        have e2 : P.flatten.length + (A ++ [p]).length = P.flatten.length + A.length + 1 := by simp; omega
        rw [e1, e2] at this
        rw [this, hrow]
        simp
      | nil =>
        have hrow' : keepRow keep P.length [p] = [p] := by simp [keepRow, hk]
        rw [hrow']
        rcases split_empty S with hE | ⟨E, q, r', S', hE, rfl⟩
        · rw [itNext_last c P A p S hp hE]
          simp only [ok_bind]
          rw [hadErase_end, keepRows_empty keep _ S hE]
          apply itEq_end_of_invalid
          simp [itValid]
        · rw [itNext_later c P A p q E r' S' hp hE]
          simp only [ok_bind]
          have hlk' : LastKept keep (P.length + 1 + E.length) ((q :: r') :: S') := hlk.append
          have e1 : (P ++ (A ++ [p]) :: E).length = P.length + 1 + E.length := by simp; omega
          have := ih (P ++ (A ++ [p]) :: E) [] q r' S' (by simp at hR ⊢; omega)
            (fun x hx => hS (q :: r') (by simp) x hx)
            (fun r hr x hx => hS r (by simp [hr]) x hx)
            (by
              simp only [List.flatten_append, List.flatten_cons, hE, List.length_append,
                List.length_cons, List.length_nil] at hn
              omega) (by rw [e1]; exact hlk'.1) (by rw [e1]; exact hlk'.2)
          have e0 : (P ++ (A ++ [p]) :: E) ++ ([] ++ q :: r') :: S' = P ++ (A ++ [p]) :: (E ++ (q :: r') :: S') := by
            simp
          have e3 : (P ++ (A ++ [p]) :: E).flatten.length + ([] : List (Nat × T)).length
              = P.flatten.length + A.length + 1 := by
            simp only [List.flatten_append, List.flatten_cons, hE, List.length_append,
                List.length_cons, List.length_nil]; omega
          rw [e0, e1, e3] at this
          rw [this, keepRows_append, keepRows_empty keep _ E hE]
          simp [keepRows]
    · rw [if_neg hk, erase_pack c P A p B S hp]
      simp only [ok_bind]
      cases B with
      | nil =>
        have hrow : keepRow keep P.length [p] = [] := by simp [keepRow, hk]
        rw [hrow]
        rcases hg with h | h | ⟨h, q, r', S', rfl⟩
        · exact absurd (h p (by simp)) hk
        · have hE : S.flatten = [] := h
          simp only [List.nil_append, hE]
          rw [hadErase_end, keepRows_empty keep _ S hE]
          apply itEq_end_of_invalid
          simp [itValid]
        · have hA : A ≠ [] := by
            rcases h with h | ⟨x, hx, hx'⟩
            · exact h
            · rw [List.mem_singleton] at hx
              subst hx
              exact absurd hx' hk
          have hret : eraseRetRow P A ([] : List (Nat × T)) = P.length + 1 := by simp [eraseRetRow, hA]
          simp only [List.nil_append, List.flatten_cons, List.cons_append, hret, List.append_nil]
          have e1 : (P ++ [A]).length = P.length + 1 := by simp
          have := ih (P ++ [A]) [] q r' S' (by simp at hR ⊢; omega)
            (fun x hx => hS (q :: r') (by simp) x hx)
            (fun r hr x hx => hS r (by simp [hr]) x hx)
            (by
              simp only [List.flatten_cons, List.length_append, List.length_cons, List.length_nil] at hn
              omega) (by rw [e1]; exact hlk.1) (by rw [e1]; exact hlk.2)
          have e3 : (P ++ [A]).flatten.length + ([] : List (Nat × T)).length = P.flatten.length + A.length := by simp
          have e0 : (P ++ [A]) ++ ([] ++ q :: r') :: S' = P ++ A :: (q :: r') :: S' := by simp
          rw [e0, e1, e3] at this
          rw [this]
          simp [keepRows]
      | cons q B =>
        have hret : eraseRetRow P A (q :: B) = P.length := by unfold eraseRetRow; simp
        simp only [List.cons_append, hret]
        have := ih P A q B S hR (fun x hx => hB x (by simp at hx ⊢; tauto)) hS
          (by simp only [List.length_cons] at hn; omega) (by
            rcases hg with h | h | ⟨h, h'⟩
            · exact .inl fun x hx => h x (by simpa using hx)
            · exact .inr (.inl h)
            · refine .inr (.inr ⟨?_, h'⟩)
              rcases h with h | ⟨x, hx, hx'⟩
              · exact .inl h
              · rcases List.mem_cons.1 hx with rfl | hx
                · exact absurd hx' hk
                · exact .inr ⟨x, hx, hx'⟩) hlk
        rw [this]
        have hrow : keepRow keep P.length (p :: q :: B) = keepRow keep P.length (q :: B) := by
          unfold keepRow
          rw [List.filter_cons, if_neg (by simpa using hk)]
        rw [hrow]

theorem lastKept_of {keep : Nat → Nat → Bool} {c : Nat} {rs : Rows T} (hok : RowsOK c rs) (k : Nat)
    (h : ∀ i j, ent rs i j ≠ 0 → keep (k + i) j = false → (∃ j', j < j' ∧ ent rs i j' ≠ 0) ∨ (∀ i' j', i < i' → ent rs i' j' = 0) ∨
      ((∃ j', ent rs i j' ≠ 0 ∧ keep (k + i) j' = true) ∧ ∃ j', ent rs (i + 1) j' ≠ 0)) :
    LastKept keep k rs := by
  induction rs generalizing k with
  | nil => trivial
  | cons r rs ih =>
    have hr : RowOK c r := hok r (by simp)
    have hrs : RowsOK c rs := fun x hx => hok x (by simp [hx])
    have h0 : ∀ j, ent (r :: rs) 0 j = lookup r j := by intro j; simp [ent]
    have he : ∀ i b, ent (r :: rs) (i + 1) b = ent rs i b := by intro i b; simp [ent]
    refine ⟨?_, ih hrs _ ?_⟩
    · by_cases hall : ∀ q, r.getLast? = some q → keep k q.1 = true
      · exact .inl hall
      · right
        simp only [not_forall] at hall
        obtain ⟨q, hq, hk⟩ := hall
        have hm : q ∈ r := List.mem_of_getLast? hq
        rcases h 0 q.1 (by rw [h0]; exact (lookup_ne_iff hr).2 ⟨q, hm, rfl⟩) (by simpa using hk) with ⟨j', hj, hne⟩ | hz | ⟨⟨j', hne, hj'⟩, j2, hne2⟩
        · exfalso
          rw [h0] at hne
          obtain ⟨x, hx, rfl⟩ := (lookup_ne_iff hr).1 hne
          obtain ⟨ys, rfl⟩ : ∃ ys, r = ys ++ [q] := by
            have := List.getLast?_eq_some_iff.1 hq
            exact this
          have hs := hr.1
          rw [List.pairwise_append] at hs
          simp only [List.mem_append, List.mem_singleton] at hx
          rcases hx with hx | rfl
          · exact absurd (hs.2.2 x hx q (by simp)) (by omega)
          · omega
        · left
          rw [List.flatten_eq_nil_iff]
          intro r1 hr1
          obtain ⟨n, hn, rfl⟩ := List.mem_iff_getElem.1 hr1
          by_contra hne
          obtain ⟨x, hx⟩ := List.exists_mem_of_ne_nil _ hne
          have := hz (n + 1) x.1 (by omega)
          rw [he] at this
          refine absurd this ?_
          have e : ent rs n x.1 = lookup rs[n] x.1 := by
            simp [ent, List.getElem?_eq_getElem hn]
          rw [e]
          exact (lookup_ne_iff (hrs _ hr1)).2 ⟨x, hx, rfl⟩
        · right
          rw [h0] at hne
          obtain ⟨x, hx, rfl⟩ := (lookup_ne_iff hr).1 hne
          refine ⟨.inr ⟨x, hx, by simpa using hj'⟩, ?_⟩
          rw [he] at hne2
          cases rs with
          | nil => simp [ent, lookup] at hne2
          | cons r1 rs =>
            cases r1 with
            | nil => simp [ent, lookup] at hne2
            | cons q r' => exact ⟨q, r', rs, rfl⟩
    · intro i j hne hk
      have hk' : k + (i + 1) = k + 1 + i := by omega
      rcases h (i + 1) j (by rw [he]; exact hne) (by rwa [hk']) with ⟨j', hj, hne'⟩ | hz | ⟨⟨j', hne', hj'⟩, j2, hne2⟩
      · exact .inl ⟨j', hj, by rwa [he] at hne'⟩
      · exact .inr (.inl fun i' j' hi => by rw [← he]; exact hz _ _ (by omega))
      · exact .inr (.inr ⟨⟨j', by rwa [he] at hne', by rwa [hk'] at hj'⟩, j2, by rwa [he] at hne2⟩)

/-- Hadamard product, when `erase` always returns the right iterator: each entry to be erased is followed by a later stored entry of
the row, or by no row with an entry, or its row keeps an entry and the next row is not empty. -/
theorem Inv.hadamard_ok [NoZeroDivisors T] {s t : Sparse T} (hs : Inv s) (ht : Inv t)
    (hr : s.rows = t.rows) (hc : s.columns = t.columns)
    (hlast : ∀ i j, s.val i j ≠ 0 → t.val i j = 0 → (∃ j', j < j' ∧ s.val i j' ≠ 0) ∨ (∀ i' j', i < i' → s.val i' j' = 0) ∨
      ((∃ j', s.val i j' ≠ 0 ∧ t.val i j' ≠ 0) ∧ ∃ j', s.val (i + 1) j' ≠ 0)) :
    ∃ u, s.hadamardAssign t = .ok u ∧ Inv u ∧ u.rows = s.rows ∧ u.columns = s.columns ∧
      ∀ i j, u.val i j = s.val i j * t.val i j := by
  obtain ⟨w, hw, hw1, hw2, hw3, hw4⟩ := hs.hadScale_ok ht (by omega) (by omega)
  unfold hadamardAssign
  rw [hw]
  simp only [ok_bind]
  have hnz : ∀ i j, w.val i j ≠ 0 ↔ s.val i j ≠ 0 := by
    intro i j
    rw [hw4]
    split
    · rfl
    · rename_i h
      simp [h]
  obtain ⟨rs, h1, h2, h3, h4⟩ := hw1
  generalize hcc : w.cols = c at *
  subst h1
  have hval : ∀ a b, (pack c rs).val a b = ent rs a b := val_pack' h2
  simp only [hval] at hw4 hnz
  have hk : ∀ i j, i < rs.length → j < c → t.has i j = .ok (decide (t.val i j ≠ 0)) := by
    intro i j hi hj
    apply ht.has_ok
    · simp at hw2; omega
    · have : c = s.columns := hw3
      omega
  have hok' := keepRows_ok (fun i j => decide (t.val i j ≠ 0)) h2 0
  have hlk : LastKept (fun i j => decide (t.val i j ≠ 0)) 0 rs := by
    apply lastKept_of h2
    intro i j hne hz
    simp only [Nat.zero_add, decide_eq_false_iff_not, not_not] at hz
    rcases hlast i j ((hnz i j).1 hne) hz with ⟨j', hj, h⟩ | h | ⟨⟨j', h1, h2⟩, j2, h3⟩
    · exact .inl ⟨j', hj, (hnz _ _).2 h⟩
    · refine .inr (.inl fun i' j' hi => ?_)
      by_contra hne'
      exact (hnz _ _).1 hne' (h i' j' hi)
    · exact .inr (.inr ⟨⟨j', (hnz _ _).2 h1, by simpa using h2⟩, j2, (hnz _ _).2 h3⟩)
  refine ⟨pack c (keepRows (fun i j => decide (t.val i j ≠ 0)) 0 rs), ?_,
    ⟨_, rfl, hok', by simpa [keepRows_length] using h3, h4⟩, ?_, hw3, ?_⟩
  · rcases split_empty rs with hE | ⟨E, q, r', S, hE, rfl⟩
    · rw [(itBegin_pack_empty hE).1, keepRows_empty _ _ _ hE]
      simp only [ok_bind]
      rw [hadErase_end (by apply itEq_end_of_invalid; simp [itValid, itEnd])]
    · rw [(itBegin_pack h2.mid hE).1]
      simp only [ok_bind]
      have := hadErase_pack c t _ (E ++ (q :: r') :: S).length hk
        ((pack c (E ++ (q :: r') :: S)).values.length + 1) E [] q r' S (by simp; omega)
        (fun x hx => (h2.mid.2 x hx).1) (fun r hr x hx => ((h2 r (by simp [hr])).2 x hx).1) (by
          rw [pack_values, List.length_map]
          simp only [List.flatten_append, List.flatten_cons, List.length_append, List.length_cons, hE]
          omega) (by simpa using hlk.append.1) (by simpa using hlk.append.2)
      simp only [hE, List.length_nil, Nat.add_zero, List.nil_append] at this
      rw [this, keepRows_append, keepRows_empty _ _ E hE]
      simp [keepRows]
  · rw [← hw2]; simp [keepRows_length]
  · intro i j
    rw [val_pack' hok', ent_keepRows _ h2]
    simp only [Nat.zero_add, decide_eq_true_eq]
    by_cases hz : t.val i j = 0
    · simp [hz]
    · rw [if_pos hz, hw4, if_neg hz]

/-! ### initializer lists -/

theorem ofLists_row (i : Nat) (v : List T) (c : Nat) (hv : v.length ≤ c) (s0 : Sparse T)
    (h0 : Inv s0) (hi : i < s0.rows) (hc : s0.columns = c) (hz : ∀ j, s0.val i j = 0) :
    ∃ s', forList v.zipIdx s0 (fun (w, j) s => if w ≠ 0 then s.set i j w else .ok s) = .ok s' ∧
      Inv s' ∧ s'.rows = s0.rows ∧ s'.columns = c ∧
      ∀ a b, s'.val a b = if a = i then v.getD b 0 else s0.val a b := by
  have := sat_forList (E := noErr) (f := fun (w, j) s => if w ≠ 0 then s.set i j w else .ok s)
    (fun pre s => Inv s ∧ s.rows = s0.rows ∧ s.columns = c ∧
      ∀ a b, s.val a b = if a = i ∧ b < pre.length then v.getD b 0 else s0.val a b)
    v.zipIdx (s := s0) ⟨h0, rfl, hc, by simp⟩ (by
      rintro pre ⟨w, j⟩ suf s heq ⟨h1, h2, h3, h4⟩
      have hget : v.zipIdx[pre.length]? = some (w, j) := by rw [heq]; simp
      rw [List.getElem?_zipIdx] at hget
      have hw : v[pre.length]? = some w ∧ j = pre.length := by
        cases hvp : v[pre.length]? with
        | none => rw [hvp] at hget; cases hget
        | some x => rw [hvp] at hget; simp at hget; exact ⟨by rw [hget.1], by omega⟩
      obtain ⟨hw1, rfl⟩ := hw
      have hlt : pre.length < v.length := by
        by_contra h
        rw [List.getElem?_eq_none (by omega)] at hw1; cases hw1
      simp only
      by_cases hwz : w = 0
      · subst hwz
        simp only [ne_eq, not_true_eq_false, if_false]
        refine ⟨h1, h2, h3, ?_⟩
        intro a b
        rw [h4]
        by_cases ha : a = i
        · subst ha
          by_cases hb : b < pre.length
          · rw [if_pos ⟨rfl, hb⟩, if_pos ⟨rfl, by simp; omega⟩]
          · by_cases hb' : b = pre.length
            · subst hb'
              rw [if_neg (by simp), if_pos ⟨rfl, by simp⟩, hz, List.getD_eq_getElem?_getD, hw1]
              rfl
            · rw [if_neg (by simp; omega), if_neg (by simp; omega)]
        · simp [ha]
      · rw [if_pos hwz]
        obtain ⟨s', g1, g2, g3, g4, g5⟩ := h1.set_ok (i := i) (j := pre.length) w (by omega) (by omega)
        rw [g1]
        refine ⟨g2, by omega, by omega, ?_⟩
        intro a b
        rw [g5, h4]
        by_cases ha : a = i
        · subst ha
          by_cases hb : b < pre.length
          · rw [if_neg (by omega), if_pos ⟨rfl, hb⟩, if_pos ⟨rfl, by simp; omega⟩]
          · by_cases hb' : b = pre.length
            · subst hb'
              rw [if_pos ⟨rfl, rfl⟩, if_pos ⟨rfl, by simp⟩, List.getD_eq_getElem?_getD, hw1]
              rfl
            · rw [if_neg (by omega), if_neg (by omega), if_neg (by simp; omega)]
        · simp [ha])
  obtain ⟨s', h1, h2, h3, h4, h5⟩ := this.ok_of
  refine ⟨s', h1, h2, h3, h4, ?_⟩
  intro a b
  rw [h5]
  by_cases ha : a = i
  · subst ha
    simp only [true_and, if_true, List.length_zipIdx]
    split
    · rfl
    · rename_i hb
      rw [hz, List.getD_eq_getElem?_getD, List.getElem?_eq_none (by omega)]; rfl
  · simp [ha]

theorem le_maxLen (l : List (List T)) (v : List T) (h : v ∈ l) :
    v.length ≤ (l.map List.length).foldr max 0 := by
  induction l with
  | nil => cases h
  | cons x l ih =>
    simp only [List.map_cons, List.foldr_cons]
    rcases List.mem_cons.1 h with rfl | h
    · omega
    · have := ih h; omega

theorem ofLists_ok (l : List (List T)) (h : ∃ v ∈ l, v ≠ []) :
    ∃ s, ofLists l = .ok s ∧ Inv s ∧ s.rows = l.length ∧
      s.columns = (l.map List.length).foldr max 0 ∧
      ∀ i j, s.val i j = (l.getD i []).getD j 0 := by
  obtain ⟨v0, hv0, hne⟩ := h
  have hl : l ≠ [] := by rintro rfl; cases hv0
  have hpos : 0 < (l.map List.length).foldr max 0 := by
    have := le_maxLen l v0 hv0
    have := List.length_pos_iff.2 hne
    omega
  generalize hC : (l.map List.length).foldr max 0 = C at *
  obtain ⟨z, z1, z2, z3, z4, z5⟩ := mk_inv (T := T) (List.length_pos_iff.2 hl) hpos
  unfold ofLists
  rw [if_neg hl, hC, z1]
  simp only [ok_bind]
  have := sat_forList (E := noErr)
    (f := fun (x : List T × Nat) s => forList x.1.zipIdx s fun (w, j) s =>
        if w ≠ 0 then s.set x.2 j w else .ok s)
    (fun pre s => Inv s ∧ s.rows = l.length ∧ s.columns = C ∧
      ∀ a b, s.val a b = if a < pre.length then (l.getD a []).getD b 0 else 0)
    l.zipIdx (s := z) ⟨z2, z3, z4, by simp [z5]⟩ (by
      rintro pre ⟨v, i⟩ suf s heq ⟨h1, h2, h3, h4⟩
      have hget : l.zipIdx[pre.length]? = some (v, i) := by rw [heq]; simp
      rw [List.getElem?_zipIdx] at hget
      have hw : l[pre.length]? = some v ∧ i = pre.length := by
        cases hvp : l[pre.length]? with
        | none => rw [hvp] at hget; cases hget
        | some x => rw [hvp] at hget; simp at hget; exact ⟨by rw [hget.1], by omega⟩
      obtain ⟨hw1, rfl⟩ := hw
      have hlt : pre.length < l.length := by
        by_contra h
        rw [List.getElem?_eq_none (by omega)] at hw1; cases hw1
      have hvl : v.length ≤ C := by
        rw [← hC]; exact le_maxLen l v (List.mem_of_getElem? hw1)
      obtain ⟨s', g1, g2, g3, g4, g5⟩ := ofLists_row pre.length v C hvl s h1 (by omega) h3
        (by intro j; rw [h4, if_neg (by omega)])
      simp only
      rw [g1]
      refine ⟨g2, by omega, g4, ?_⟩
      intro a b
      rw [g5, h4]
      by_cases ha : a = pre.length
      · subst ha
        rw [if_pos rfl, if_pos (by simp), List.getD_eq_getElem?_getD (l := l), hw1]; rfl
      · by_cases ha' : a < pre.length
        · rw [if_neg ha, if_pos ha', if_pos (by simp; omega)]
        · rw [if_neg ha, if_neg ha', if_neg (by simp; omega)])
  obtain ⟨s', h1, h2, h3, h4, h5⟩ := this.ok_of
  refine ⟨s', h1, h2, h3, h4, ?_⟩
  intro a b
  rw [h5]
  split
  · rfl
  · rename_i ha
    simp only [List.length_zipIdx, not_lt] at ha
    rw [List.getD_eq_getElem?_getD (l := l), List.getElem?_eq_none ha]; simp

end Sparse
end NS

/-
In-place operations on the packed representation: scaling, erase, Hadamard, equality, columns.
-/
import Verif.SparseOps

set_option linter.unusedSectionVars false
set_option linter.unusedSimpArgs false

namespace NS
namespace Sparse
variable {T : Type}

/-! ### equality -/
section eq
variable [CommRing T] [DecidableEq T]

theorem eqLoop_eq (a b : Sparse T) : ∀ (n : Nat) (x y : SIt) (lx ly : List (Nat × Nat × T)) (m k : Nat),
    walk a a.itNext m x = .ok lx → walk b b.itNext k y = .ok ly → lx.length < n →
    eqLoop a b n x y = .ok (decide (lx = ly)) := by
  intro n
  induction n with
  | zero => intro x y lx ly m k _ _ h; omega
  | succ n ih =>
    intro x y lx ly m k hx hy hn
    unfold eqLoop
    by_cases ex : a.itEq x a.itEnd = true
    · rw [walk_end ex] at hx
      cases hx
      rw [ex]
      by_cases ey : b.itEq y b.itEnd = true
      · rw [walk_end ey] at hy; cases hy
        simp [ey]
      · cases k with
        | zero => simp [walk, ey] at hy
        | succ k =>
          have ey' : b.itEq y b.itEnd = false := by simpa using ey
          simp only [walk, ey', Bool.false_eq_true, if_false] at hy
          cases hd : b.deref y with
          | error e => rw [hd] at hy; cases hy
          | ok v =>
            rw [hd] at hy
            simp only [ok_bind] at hy
            cases hnx : b.itNext y with
            | error e => rw [hnx] at hy; cases hy
            | ok it' =>
              rw [hnx] at hy
              simp only [ok_bind] at hy
              cases hw : walk b b.itNext k it' with
              | error e => rw [hw] at hy; cases hy
              | ok rest =>
                rw [hw] at hy; simp at hy; subst hy
                simp [ey']
    · have ex' : a.itEq x a.itEnd = false := by simpa using ex
      cases m with
      | zero => simp [walk, ex'] at hx
      | succ m =>
        simp only [walk, ex', Bool.false_eq_true, if_false] at hx
        cases hd : a.deref x with
        | error e => rw [hd] at hx; cases hx
        | ok v =>
          rw [hd] at hx
          simp only [ok_bind] at hx
          cases hnx : a.itNext x with
          | error e => rw [hnx] at hx; cases hx
          | ok x' =>
            rw [hnx] at hx
            simp only [ok_bind] at hx
            cases hw : walk a a.itNext m x' with
            | error e => rw [hw] at hx; cases hx
            | ok rest =>
              rw [hw] at hx; simp at hx; subst hx
              by_cases ey : b.itEq y b.itEnd = true
              · rw [walk_end ey] at hy; cases hy
                simp [ex', ey]
              · have ey' : b.itEq y b.itEnd = false := by simpa using ey
                cases k with
                | zero => simp [walk, ey'] at hy
                | succ k =>
                  simp only [walk, ey', Bool.false_eq_true, if_false] at hy
                  cases hd2 : b.deref y with
                  | error e => rw [hd2] at hy; cases hy
                  | ok v2 =>
                    rw [hd2] at hy
                    simp only [ok_bind] at hy
                    cases hnx2 : b.itNext y with
                    | error e => rw [hnx2] at hy; cases hy
                    | ok y' =>
                      rw [hnx2] at hy
                      simp only [ok_bind] at hy
                      cases hw2 : walk b b.itNext k y' with
                      | error e => rw [hw2] at hy; cases hy
                      | ok rest2 =>
                        rw [hw2] at hy; simp at hy; subst hy
                        have := ih x' y' rest rest2 m k hw hw2 (by simp at hn; omega)
                        simp only [ex', ey', Bool.not_false, Bool.and_self, if_true, ok_bind, hd, hd2,
                          hnx, hnx2, this]
                        by_cases hc : x.i1 ≠ y.i1 ∨ x.i2 ≠ y.i2 ∨ v ≠ v2
                        · rw [if_pos hc]
                          simp only [pure_eq_ok, Except.ok.injEq]
                          symm
                          rw [decide_eq_false_iff_not]
                          intro h
                          simp only [List.cons.injEq, Prod.mk.injEq] at h
                          rcases hc with h' | h' | h'
                          · exact h' h.1.1
                          · exact h' h.1.2.1
                          · exact h' h.1.2.2
                        · rw [if_neg hc]
                          simp only [not_or, not_not] at hc
                          simp [hc.1, hc.2.1, hc.2.2]

theorem Inv.eq_ok {s t : Sparse T} (hs : Inv s) (ht : Inv t) :
    eq s t = .ok (decide (s = t)) := by
  unfold eq
  split
  · rename_i h
    symm
    rw [Except.ok.injEq, decide_eq_false_iff_not]
    intro he; subst he; simp at h
  · rename_i h
    simp only [not_or, not_not] at h
    obtain ⟨hr, hc, hf⟩ := h
    obtain ⟨l, l1, l2, l3, l4, l5, l6, _⟩ := hs.entries_ok
    obtain ⟨m, m1, m2, m3, m4, m5, m6, _⟩ := ht.entries_ok
    unfold entries at l1 m1
    cases hx : s.itCBegin with
    | error e => rw [hx] at l1; cases l1
    | ok x =>
      cases hy : t.itCBegin with
      | error e => rw [hy] at m1; cases m1
      | ok y =>
        rw [hx] at l1
        rw [hy] at m1
        simp only [ok_bind] at l1 m1 ⊢
        rw [eqLoop_eq s t _ x y l m _ _ l1 m1 (by rw [l4]; exact Nat.lt_succ_self _)]
        congr 1
        rw [Bool.eq_iff_iff, decide_eq_true_iff, decide_eq_true_iff]
        constructor
        · intro h
          subst h
          apply hs.ext ht hr hc
          intro i j _ _
          by_cases h0 : s.val i j = 0
          · by_contra hne
            rw [h0] at hne
            have := (m5 (i, j, t.val i j)).2 ⟨rfl, fun h => hne h.symm⟩
            have := (l5 _).1 this
            simp only [h0] at this
            exact this.2 this.1
          · have := (l5 (i, j, s.val i j)).2 ⟨rfl, h0⟩
            exact ((m5 _).1 this).1
        · intro h
          subst h
          rw [hx] at hy; cases hy
          rw [l1] at m1; cases m1; rfl
end eq

/-! ### scaling -/
section scale
variable [CommRing T] [DecidableEq T]

def scaleRow (f : T) (r : List (Nat × T)) : List (Nat × T) := r.map fun q => (q.1, q.2 * f)

theorem scaleRow_ok [NoZeroDivisors T] {f : T} (hf : f ≠ 0) {c : Nat} {r : List (Nat × T)} (h : RowOK c r) :
    RowOK c (scaleRow f r) := by
  unfold scaleRow
  refine ⟨?_, ?_⟩
  · rw [List.pairwise_map]; exact h.1
  · intro p hp
    simp only [List.mem_map] at hp
    obtain ⟨q, hq, rfl⟩ := hp
    exact ⟨(h.2 q hq).1, mul_ne_zero (h.2 q hq).2 hf⟩

theorem lookup_scaleRow (f : T) (r : List (Nat × T)) (j : Nat) :
    lookup (scaleRow f r) j = lookup r j * f := by
  induction r with
  | nil => simp [scaleRow, lookup]
  | cons p r ih =>
    obtain ⟨a, b⟩ := p
    simp only [scaleRow, List.map_cons, lookup] at ih ⊢
    split
    · rfl
    · exact ih

theorem scaleRow_flatten_nil (f : T) {S : Rows T} (h : S.flatten = []) : S.map (scaleRow f) = S := by
  have h' : ∀ r ∈ S, r = [] := by simpa using h
  conv_rhs => rw [← List.map_id S]
  apply List.map_congr_left
  intro r hr
  rw [h' r hr]; rfl

theorem set_values_pack (c : Nat) (P : Rows T) (A : List (Nat × T)) (p : Nat × T) (v : T)
    (B : List (Nat × T)) (S : Rows T) :
    ({ pack c (P ++ (A ++ p :: B) :: S) with
        values := (pack c (P ++ (A ++ p :: B) :: S)).values.set (P.flatten.length + A.length) v } : Sparse T)
      = pack c (P ++ (A ++ (p.1, v) :: B) :: S) := by
  unfold pack
  simp only [Sparse.mk.injEq, true_and, and_true]
  refine ⟨?_, ?_, ?_⟩
  · simp only [List.flatten_append, List.flatten_cons, List.map_append, List.map_cons]
    rw [List.set_append_right _ _ (by simp only [List.length_map]; omega)]
    simp only [List.length_map, Nat.add_sub_cancel_left, List.append_assoc]
    rw [List.set_append_right _ _ (by simp)]
    simp
  · simp only [List.flatten_append, List.flatten_cons, List.map_append, List.map_cons]
  · apply List.ext_getElem
    · simp
    · intro k h1 h2
      simp only [List.getElem_map, List.getElem_range]
      by_cases hk : k ≥ P.length + 1
      · obtain ⟨d, rfl⟩ := Nat.exists_eq_add_of_le hk
        rw [Nat.add_assoc, offs_append_right, offs_append_right, Nat.add_comm 1 d, offs_cons_succ,
          offs_cons_succ]
        simp
      · have : k ≤ P.length := by omega
        rw [offs_append_left _ _ this, offs_append_left _ _ this]

theorem getIdx_values_pack (c : Nat) (P : Rows T) (A : List (Nat × T)) (p : Nat × T)
    (B : List (Nat × T)) (S : Rows T) :
    getIdx (pack c (P ++ (A ++ p :: B) :: S)).values (P.flatten.length + A.length) = .ok p.2 := by
  apply getIdx_of_some
  rw [pack_values, List.getElem?_map, List.flatten_append, List.flatten_cons,
    List.getElem?_append_right (by omega), Nat.add_sub_cancel_left,
    List.getElem?_append_left (by simp), List.getElem?_append_right (by omega)]
  simp

theorem setIdx_values_pack (c : Nat) (P : Rows T) (A : List (Nat × T)) (p : Nat × T)
    (B : List (Nat × T)) (S : Rows T) (v : T) :
    setIdx (pack c (P ++ (A ++ p :: B) :: S)).values (P.flatten.length + A.length) v
      = .ok ((pack c (P ++ (A ++ p :: B) :: S)).values.set (P.flatten.length + A.length) v) := by
  apply setIdx_eq
  rw [pack_values, List.length_map]
  simp only [List.flatten_append, List.flatten_cons, List.length_append, List.length_cons]
  omega

theorem scaleLoop_end (f : T) {n : Nat} {s : Sparse T} {it : SIt} (h : s.itEq it s.itEnd = true) :
    scaleLoop f n s it = .ok s := by
  cases n <;> simp [scaleLoop, h]

theorem scaleLoop_pack (c : Nat) (f : T) (n : Nat) :
    ∀ (P : Rows T) (A : List (Nat × T)) (p : Nat × T) (B : List (Nat × T)) (S : Rows T),
      (∀ q ∈ p :: B, q.1 < c) → (∀ r ∈ S, ∀ q ∈ r, q.1 < c) → B.length + S.flatten.length + 1 ≤ n →
      scaleLoop f n (pack c (P ++ (A ++ p :: B) :: S)) ⟨P.length, p.1, P.flatten.length + A.length⟩
        = .ok (pack c (P ++ (A ++ scaleRow f (p :: B)) :: S.map (scaleRow f))) := by
  induction n with
  | zero => intro P A p B S _ _ h; omega
  | succ n ih =>
    intro P A p B S hB hS hn
    have hp : p.1 < c := hB p (by simp)
    rw [scaleLoop, itEq_end_of_valid (itValid_pack (by simp) hp)]
    simp only [Bool.false_eq_true, if_false, getIdx_values_pack, ok_bind, setIdx_values_pack,
      set_values_pack]
    cases B with
    | cons q B =>
      have hnx := itNext_same c P A (p.1, p.2 * f) q B S hp
      simp only at hnx
      rw [hnx]
      simp only [ok_bind]
      have := ih P (A ++ [(p.1, p.2 * f)]) q B S (fun x hx => hB x (by simp at hx ⊢; tauto)) hS
        (by simp at hn ⊢; omega)
      simp only [List.append_assoc, List.cons_append, List.nil_append, List.length_append,
        List.length_cons, List.length_nil] at this
      rw [show P.flatten.length + A.length + 1 = P.flatten.length + (A.length + (0 + 1)) by omega, this]
      simp [scaleRow]
    | nil =>
      rcases split_empty S with hE | ⟨E, q, r', S', hE, rfl⟩
      · have hnx := itNext_last c P A (p.1, p.2 * f) S hp hE
        simp only at hnx
        rw [hnx]
        simp only [ok_bind]
        rw [scaleLoop_end _ (by
          apply itEq_end_of_invalid; simp [itValid]), scaleRow_flatten_nil f hE]
        rfl
      · have hnx := itNext_later c P A (p.1, p.2 * f) q E r' S' hp hE
        simp only at hnx
        rw [hnx]
        simp only [ok_bind]
        have := ih (P ++ (A ++ [(p.1, p.2 * f)]) :: E) [] q r' S'
          (fun x hx => hS (q :: r') (by simp) x hx) (fun r hr => hS r (by simp [hr])) (by
            simp only [List.flatten_append, List.flatten_cons, List.length_append,
              List.length_cons, hE, List.length_nil] at hn
            omega)
        have e1 : (P ++ (A ++ [(p.1, p.2 * f)]) :: E) ++ ([] ++ q :: r') :: S'
            = P ++ (A ++ [(p.1, p.2 * f)]) :: (E ++ (q :: r') :: S') := by simp
        have e2 : (P ++ (A ++ [(p.1, p.2 * f)]) :: E).length = P.length + 1 + E.length := by simp; omega
        have e3 : (P ++ (A ++ [(p.1, p.2 * f)]) :: E).flatten.length + ([] : List (Nat × T)).length
            = P.flatten.length + A.length + 1 := by
          simp only [List.flatten_append, List.flatten_cons, hE, List.length_append,
              List.length_cons, List.length_nil]; omega
        rw [e1, e2, e3] at this
        rw [this, List.map_append, scaleRow_flatten_nil f hE]
        simp [scaleRow]

theorem Inv.scale_ok [NoZeroDivisors T] {s : Sparse T} (hs : Inv s) (f : T) :
    ∃ u, s.scaleAssign f = .ok u ∧ Inv u ∧ u.rows = s.rows ∧ u.columns = s.columns ∧
      ∀ i j, u.val i j = s.val i j * f := by
  by_cases hf : f = 0
  · subst hf
    obtain ⟨z, z1, z2, z3, z4, z5⟩ := mk_inv (T := T) hs.rows_pos hs.cols_pos
    refine ⟨z, ?_, z2, z3, z4, by simp [z5]⟩
    unfold scaleAssign
    rw [if_pos rfl]
    obtain ⟨rs, h1, h2, h3, h4⟩ := hs
    unfold mk' at z1
    rw [assert_true (by rw [h1]; simpa using h3), ok_bind,
      assert_true (show s.columns > 0 from h4)] at z1
    simp only [ok_bind, pure_eq_ok] at z1
    rw [← z1]
    congr 2
    · exact (List.map_const' ..)
    · rw [h1]; rfl
  · obtain ⟨rs, h1, h2, h3, h4⟩ := hs
    generalize hc : s.cols = c at *
    subst h1
    have hmap : RowsOK c (rs.map (scaleRow f)) := by
      intro r hr
      simp only [List.mem_map] at hr
      obtain ⟨r0, hr0, rfl⟩ := hr
      exact scaleRow_ok hf (h2 r0 hr0)
    refine ⟨pack c (rs.map (scaleRow f)), ?_, ⟨_, rfl, hmap, by simpa using h3, h4⟩, by simp, rfl, ?_⟩
    · unfold scaleAssign
      rw [if_neg hf]
      rcases split_empty rs with hE | ⟨E, q, r', S, hE, rfl⟩
      · rw [(itBegin_pack_empty hE).1, scaleRow_flatten_nil f hE]
        simp only [ok_bind]
        rw [scaleLoop_end _ (by apply itEq_end_of_invalid; simp [itValid, itEnd])]
      · rw [(itBegin_pack h2.mid hE).1]
        simp only [ok_bind]
        have := scaleLoop_pack c f ((pack c (E ++ (q :: r') :: S)).values.length + 1) E [] q r' S
          (fun x hx => (h2.mid.2 x hx).1) (fun r hr x hx => ((h2 r (by simp [hr])).2 x hx).1) (by
            rw [pack_values, List.length_map]
            simp only [List.flatten_append, List.flatten_cons, List.length_append, List.length_cons, hE]
            omega)
        simp only [hE, List.length_nil, Nat.add_zero, List.nil_append] at this
        rw [this, List.map_append, scaleRow_flatten_nil f hE]
        simp
    · intro i j
      rw [val_pack' hmap, val_pack' h2]
      unfold ent
      rw [List.getD_eq_getElem?_getD, List.getElem?_map, List.getD_eq_getElem?_getD]
      cases rs[i]? with
      | none => simp [lookup]
      | some r => simpa using lookup_scaleRow f r j

end scale

/-! ### erase -/
section erase
variable [Zero T] [DecidableEq T]

/-- Row number that `erase` puts into the returned iterator. -/
def eraseRetRow (P : Rows T) (A B : List (Nat × T)) : Nat :=
  if A = [] then P.length else if B = [] then P.length + 1 else P.length

/-- `erase` at a stored entry: the new contents and the returned iterator. -/
theorem erase_pack (c : Nat) (P : Rows T) (A : List (Nat × T)) (p : Nat × T) (B : List (Nat × T))
    (S : Rows T) (hp : p.1 < c) :
    (pack c (P ++ (A ++ p :: B) :: S)).erase ⟨P.length, p.1, P.flatten.length + A.length⟩ =
      .ok (pack c (P ++ (A ++ B) :: S),
        match B ++ S.flatten with
        | [] => ⟨(P ++ (A ++ B) :: S).length, c, P.flatten.length + A.length⟩
        | q :: _ => ⟨eraseRetRow P A B, q.1, P.flatten.length + A.length⟩) := by
  unfold erase
  rw [itValid_pack (by simp) hp]
  simp only [if_true]
  have hfl : (P ++ (A ++ p :: B) :: S).flatten = P.flatten ++ (A ++ p :: (B ++ S.flatten)) := by simp
  have hfl' : (P ++ (A ++ B) :: S).flatten = P.flatten ++ (A ++ (B ++ S.flatten)) := by simp
  have hl : P.flatten.length + A.length < (P ++ (A ++ p :: B) :: S).flatten.length := by
    rw [hfl]; simp only [List.length_append, List.length_cons]; omega
  have e1 : (P ++ (A ++ p :: B) :: S).flatten.eraseIdx (P.flatten.length + A.length)
      = (P ++ (A ++ B) :: S).flatten := by
    rw [hfl, hfl', List.eraseIdx_append_of_length_le (by omega), Nat.add_sub_cancel_left,
      List.eraseIdx_append_of_length_le (by omega), Nat.sub_self]
    simp
  simp only [eraseAt, pack_values, pack_colPtr, List.length_map, hl, if_true, ok_bind]
  rw [List.eraseIdx_map, List.eraseIdx_map, e1]
  have hsh : ({ pack c (P ++ (A ++ p :: B) :: S) with
        values := (P ++ (A ++ B) :: S).flatten.map (·.2),
        colPtr := (P ++ (A ++ B) :: S).flatten.map (·.1) } : Sparse T).shiftRows P.length
          (fun p => wsub p 1) = pack c (P ++ (A ++ B) :: S) := by
    simp only [shiftRows, pack]
    rw [shift_pack P (A ++ p :: B) (A ++ B) S]
    intro k
    rw [wsub_of_le (by simp; omega)]
    simp only [List.length_append, List.length_cons]; omega
  rw [hsh]
  simp only [List.length_map, pack_rows, pack_columns]
  have hlen : (P ++ (A ++ B) :: S).flatten.length = P.flatten.length + A.length + (B ++ S.flatten).length := by
    rw [hfl']; simp only [List.length_append]; omega
  cases hBS : B ++ S.flatten with
  | nil =>
    rw [if_pos (by rw [hlen, hBS]; simp)]
    rfl
  | cons q rest =>
    rw [if_neg (by rw [hlen, hBS]; simp)]
    have hg : getIdx ((P ++ (A ++ B) :: S).flatten.map (·.1)) (P.flatten.length + A.length) = .ok q.1 := by
      apply getIdx_of_some
      rw [List.getElem?_map, hfl', hBS, List.getElem?_append_right (by omega),
        Nat.add_sub_cancel_left, List.getElem?_append_right (by omega)]
      simp
    rw [hg]
    simp only [ok_bind]
    have hr : eraseRow (pack c (P ++ (A ++ B) :: S)).rowPtr (P.flatten.length + A.length)
        ((P ++ (A ++ B) :: S).length - P.length) P.length P.length = .ok (eraseRetRow P A B) := by
      have : (P ++ (A ++ B) :: S).length - P.length = S.length + 1 := by simp
      rw [this, eraseRow, getIdx_of_some (pack_rowPtr_some _ _ (by simp)),
        offs_append_left _ _ (Nat.le_refl _), offs_length]
      simp only [ok_bind, eraseRetRow]
      by_cases hA : A = []
      · simp [hA]
      · have hAl : 0 < A.length := List.length_pos_iff.2 hA
        rw [if_neg (by omega), if_neg (by omega), if_neg hA]
        cases S with
        | nil =>
          have hB : B ≠ [] := by
            intro hB; rw [hB] at hBS; simp at hBS
          simp [eraseRow, hB]
        | cons r' S =>
          rw [List.length_cons, eraseRow, getIdx_of_some (pack_rowPtr_some _ _ (i := P.length + 1) (by simp)),
            offs_append_right, offs_cons_succ, offs_zero]
          simp only [ok_bind, List.length_append, Nat.add_zero]
          by_cases hB : B = []
          · simp [hB]
          · have hBl : 0 < B.length := List.length_pos_iff.2 hB
            rw [if_neg (by omega), if_pos (by omega), if_neg hB]; rfl
    rw [hr]; rfl

end erase

/-! ### column walks -/
section col
variable [Zero T] [DecidableEq T]

theorem colFirst_pack {c j : Nat} (hj : j < c) : ∀ (E P : Rows T) (r : List (Nat × T)) (S : Rows T) (n : Nat),
    RowsOK c (P ++ E ++ r :: S) → (∀ e ∈ E, rowFound e j = false) → rowFound r j = true → E.length ≤ n →
    (pack c (P ++ E ++ r :: S)).colFirst j n P.length = .ok (P.length + E.length) := by
  intro E
  induction E with
  | nil =>
    intro P r S n hok _ hr _
    simp only [List.append_nil] at hok ⊢
    have hh : (pack c (P ++ r :: S)).has P.length j = .ok true := by
      rw [has_pack hok (by simp) hj, ent_mid]
      have := (rowFound_iff hok.mid j).1 hr
      simpa using this
    cases n with
    | zero => rw [colFirst, hh]; simp
    | succ n => rw [colFirst, hh]; simp
  | cons e E ih =>
    intro P r S n hok hE hr hn
    cases n with
    | zero => simp at hn
    | succ n =>
      have h1 : P ++ e :: E ++ r :: S = P ++ e :: (E ++ r :: S) := by simp
      have hh : (pack c (P ++ e :: E ++ r :: S)).has P.length j = .ok false := by
        rw [h1] at hok ⊢
        rw [has_pack hok (by simp) hj, ent_mid]
        have := mt (rowFound_iff hok.mid j).2 (by simp [hE e (by simp)])
        simpa using this
      rw [colFirst, hh]
      have h2 : P ++ e :: E ++ r :: S = (P ++ [e]) ++ E ++ r :: S := by simp
      have := ih (P ++ [e]) r S n (by rw [← h2]; exact hok) (fun x hx => hE x (by simp [hx])) hr
        (by simpa using hn)
      simp only [ok_bind]
      rw [if_pos (by simp), h2]
      rw [show P.length + 1 = (P ++ [e]).length by simp, this]
      congr 1
      simp; omega

theorem colFirst_none {c j : Nat} (hj : j < c) : ∀ (S P : Rows T) (n : Nat),
    RowsOK c (P ++ S) → (∀ e ∈ S, rowFound e j = false) → S.length ≤ n →
    (pack c (P ++ S)).colFirst j n P.length = .error .abort := by
  intro S
  induction S with
  | nil =>
    intro P n _ _ _
    have : (pack c (P ++ ([] : Rows T))).has P.length j = .error .abort := by
      unfold has
      rw [assert_false (by simp)]; rfl
    cases n with
    | zero => rw [colFirst, this]; rfl
    | succ n => rw [colFirst, this]; rfl
  | cons e S ih =>
    intro P n hok hE hn
    cases n with
    | zero => simp at hn
    | succ n =>
      have hh : (pack c (P ++ e :: S)).has P.length j = .ok false := by
        rw [has_pack hok (by simp) hj, ent_mid]
        have := mt (rowFound_iff hok.mid j).2 (by simp [hE e (by simp)])
        simpa using this
      rw [colFirst, hh]
      have h2 : P ++ e :: S = (P ++ [e]) ++ S := by simp
      have := ih (P ++ [e]) n (by rw [← h2]; exact hok) (fun x hx => hE x (by simp [hx])) (by simpa using hn)
      simp only [ok_bind]
      rw [if_pos (by simp), h2]
      rw [show P.length + 1 = (P ++ [e]).length by simp, this]

theorem colEntries_pack {c j : Nat} (hj : j < c) {rs : Rows T} (hok : RowsOK c rs) :
    (pack c rs).colEntries j =
      if rs.flatten = [] then .ok []
      else if colTriples j 0 rs = [] then .error .abort else .ok (colTriples j 0 rs) := by
  unfold colEntries colBegin
  by_cases hE : rs.flatten = []
  · rw [isEmpty_pack_true hE, if_pos hE]
    simp only [if_true, pure_eq_ok, ok_bind]
    rw [walk_end (by apply itEq_end_of_invalid; simp [itValid, itEnd])]
  · rw [isEmpty_pack_false hE, if_neg hE]
    simp only [Bool.false_eq_true, if_false]
    rcases split_col j rs with hN | ⟨E, r, S, hN, hr, rfl⟩
    · rw [colTriples_none _ _ _ hN, if_pos rfl]
      have := colFirst_none hj rs [] (pack c rs).rows hok hN (by simp)
      simp only [List.nil_append, List.length_nil] at this
      rw [this]; rfl
    · have := colFirst_pack hj E [] r S (pack c (E ++ r :: S)).rows (by simpa using hok) hN hr (by simp)
      simp only [List.nil_append, List.length_nil, Nat.zero_add] at this
      rw [this]
      simp only [ok_bind]
      rw [if_neg (by simp), colTriples_append, colTriples_none _ _ _ hN]
      have hne : ¬ (([] : List (Nat × Nat × T)) ++ colTriples j (0 + E.length) (r :: S) = []) := by
        simp [colTriples, hr]
      rw [if_neg hne]
      have hit : (pack c (E ++ r :: S)).mkIt E.length j = .ok ⟨E.length, j, E.flatten.length + rowPos r j⟩ := by
        unfold mkIt
        rw [itValid_pack (by simp) hj, internalAt_pack, hr]
        simp only [if_true, true_and, hE, if_false, ok_bind, pure_eq_ok, assert_true]
      rw [hit]
      simp only [ok_bind, List.nil_append, Nat.zero_add]
      apply walk_col_pack c j hj _ hok _ E r S rfl hr
      rw [pack_values, List.length_map]
      simp only [List.flatten_append, List.flatten_cons, List.length_append]
      omega

theorem mem_colTriples {c : Nat} {rs : Rows T} (h : RowsOK c rs) {j k : Nat} (e : Nat × Nat × T) :
    e ∈ colTriples j k rs ↔ k ≤ e.1 ∧ e.2.1 = j ∧ e.2.2 = ent rs (e.1 - k) j ∧ e.2.2 ≠ 0 := by
  obtain ⟨i, j', v⟩ := e
  induction rs generalizing k with
  | nil => simp [colTriples, ent, lookup]
  | cons r rs ih =>
    have hr : RowOK c r := h r (by simp)
    have hrs : RowsOK c rs := fun x hx => h x (by simp [hx])
    simp only [colTriples, List.mem_append, ih hrs]
    have h1 : (i, j', v) ∈ (if rowFound r j = true then [(k, j, lookup r j)] else []) ↔
        i = k ∧ j' = j ∧ v = lookup r j ∧ v ≠ 0 := by
      split
      · rename_i hf
        have := (rowFound_iff hr j).1 hf
        simp only [List.mem_singleton, Prod.mk.injEq]
        constructor
        · rintro ⟨rfl, rfl, rfl⟩; exact ⟨rfl, rfl, rfl, this⟩
        · rintro ⟨rfl, rfl, rfl, _⟩; exact ⟨rfl, rfl, rfl⟩
      · rename_i hf
        have := mt (rowFound_iff hr j).2 hf
        simp only [ne_eq, not_not] at this
        simp only [List.not_mem_nil, false_iff]
        rintro ⟨_, _, h1, h2⟩
        rw [this] at h1; exact h2 h1
    rw [h1]
    constructor
    · rintro (⟨rfl, rfl, h1, h2⟩ | ⟨h1, rfl, h2, h3⟩)
      · refine ⟨Nat.le_refl _, rfl, ?_, h2⟩
        simp [ent, h1]
      · refine ⟨by omega, rfl, ?_, h3⟩
        obtain ⟨d, hd⟩ : ∃ d, i - k = d + 1 := ⟨i - k - 1, by omega⟩
        have hd' : i - (k + 1) = d := by omega
        rw [hd'] at h2
        rw [h2, hd]; simp [ent]
    · rintro ⟨h1', rfl, h2, h3⟩
      rcases Nat.eq_or_lt_of_le h1' with h | h
      · left; subst h
        simp [ent] at h2
        exact ⟨rfl, rfl, h2, h3⟩
      · right
        refine ⟨h, rfl, ?_, h3⟩
        obtain ⟨d, hd⟩ : ∃ d, i - k = d + 1 := ⟨i - k - 1, by omega⟩
        have hd' : i - (k + 1) = d := by omega
        rw [hd] at h2
        rw [h2, hd']; simp [ent]

theorem colTriples_sorted {c : Nat} {rs : Rows T} (h : RowsOK c rs) (j k : Nat) :
    (colTriples j k rs).Pairwise (fun a b => a.1 < b.1) := by
  induction rs generalizing k with
  | nil => simp [colTriples]
  | cons r rs ih =>
    have hrs : RowsOK c rs := fun x hx => h x (by simp [hx])
    simp only [colTriples]
    rw [List.pairwise_append]
    refine ⟨by split <;> simp, ih hrs _, ?_⟩
    rintro a ha b hb
    have h2 := (mem_colTriples hrs b).1 hb
    split at ha
    · simp at ha; subst ha; simp; omega
    · simp at ha

theorem Inv.colEntries_ok {s : Sparse T} (h : Inv s) {j : Nat} (hj : j < s.columns) :
    ((∀ a b, s.val a b = 0) → s.colEntries j = .ok []) ∧
    ((∃ a b, s.val a b ≠ 0) → (∀ a, s.val a j = 0) → s.colEntries j = .error .abort) ∧
    ((∃ a, s.val a j ≠ 0) → ∃ l, s.colEntries j = .ok l ∧ l.Pairwise (fun a b => a.1 < b.1) ∧
      ∀ e, e ∈ l ↔ e.2.1 = j ∧ e.2.2 = s.val e.1 j ∧ e.2.2 ≠ 0) := by
  have hinv := h
  obtain ⟨rs, h1, h2, h3, h4⟩ := h
  have hval : ∀ a b, s.val a b = ent rs a b := by intro a b; rw [h1, val_pack' h2]
  have hce : (pack s.cols rs).colEntries j = _ := colEntries_pack (j := j) hj h2
  rw [← h1] at hce
  have hnil : rs.flatten = [] ↔ ∀ a b, s.val a b = 0 := by
    constructor
    · intro he a b
      by_contra hne
      rw [hval] at hne
      have := (mem_triples h2 (k := 0) (i := a) (j := b) (v := ent rs a b)).2 ⟨Nat.zero_le _, rfl, hne⟩
      rw [triples_of_empty _ _ he] at this
      simp at this
    · intro hz
      rw [← List.length_eq_zero_iff, ← triples_length 0, List.length_eq_zero_iff]
      by_contra hne
      obtain ⟨⟨a, b, v⟩, he⟩ := List.exists_mem_of_ne_nil _ hne
      have := (mem_triples h2).1 he
      rw [← hval, hz] at this
      exact this.2.2 this.2.1
  have hcol : colTriples j 0 rs = [] ↔ ∀ a, s.val a j = 0 := by
    constructor
    · intro he a
      by_contra hne
      rw [hval] at hne
      have := (mem_colTriples h2 (j := j) (k := 0) (a, j, ent rs a j)).2 ⟨Nat.zero_le _, rfl, rfl, hne⟩
      rw [he] at this
      simp at this
    · intro hz
      by_contra hne
      obtain ⟨⟨a, b, v⟩, he⟩ := List.exists_mem_of_ne_nil _ hne
      have := (mem_colTriples h2 _).1 he
      simp only [Nat.sub_zero] at this
      rw [← hval, hz] at this
      exact this.2.2.2 this.2.2.1
  refine ⟨?_, ?_, ?_⟩
  · intro hz
    rw [hce, if_pos (hnil.2 hz)]
  · rintro ⟨a, b, hab⟩ hz
    rw [hce, if_neg, if_pos (hcol.2 hz)]
    intro he; exact hab (hnil.1 he a b)
  · rintro ⟨a, ha⟩
    refine ⟨colTriples j 0 rs, ?_, colTriples_sorted h2 j 0, ?_⟩
    · rw [hce, if_neg, if_neg]
      · intro he; exact ha (hcol.1 he a)
      · intro he; exact ha (hnil.1 he a j)
    · intro e
      rw [mem_colTriples h2, hval]
      simp

end col
end Sparse
end NS

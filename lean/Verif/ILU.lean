/-
Correctness of `ilu0` (`Verif/ILUModel.lean`).
-/
import Verif.SparseSorted
import Mathlib.Algebra.BigOperators.Group.Finset.Basic
import Mathlib.Algebra.BigOperators.Group.Finset.Piecewise
import Mathlib.Algebra.Order.AbsoluteValue.Basic
import Mathlib.Algebra.Field.Basic

set_option linter.unusedSectionVars false
set_option linter.unusedSimpArgs false

namespace NS
namespace LU
open Sparse Sparse.Srt
variable {T V : Type} [Field T] [DecidableEq T]

def colsOf (r : List (Nat × T)) : List Nat := r.map (·.1)

theorem RowS_of_cols {c : Nat} {r r' : List (Nat × T)} (h : RowS c r) (he : colsOf r' = colsOf r) : RowS c r' := by
  have h1 : (colsOf r).Pairwise (· < ·) := by unfold colsOf; rw [List.pairwise_map]; exact h.1
  have h2 : ∀ a ∈ colsOf r, a < c := by
    intro a ha; unfold colsOf at ha; rw [List.mem_map] at ha
    obtain ⟨p, hp, rfl⟩ := ha; exact h.2 p hp
  rw [← he] at h1 h2
  refine ⟨?_, fun p hp => h2 _ (List.mem_map.2 ⟨p, hp, rfl⟩)⟩
  unfold colsOf at h1; rw [List.pairwise_map] at h1; exact h1

/-- the update `*it2 -= d * M(k, it2.column())` of the remaining entries of a row -/
def upd (d : T) (u : Nat → T) (B : List (Nat × T)) : List (Nat × T) := B.map fun q => (q.1, q.2 - d * u q.1)

theorem colsOf_upd (d : T) (u : Nat → T) (B : List (Nat × T)) : colsOf (upd d u B) = colsOf B := by
  simp [colsOf, upd]

theorem ent_lt {P : Rows T} {k : Nat} (h : k < P.length) (S : Rows T) (j : Nat) :
    ent (P ++ S) k j = ent P k j := by
  unfold ent
  rw [List.getD_append _ _ _ _ h]

theorem RowsS.repl {c : Nat} {P : Rows T} {r r' : List (Nat × T)} {S : Rows T}
    (h : RowsS c (P ++ r :: S)) (he : colsOf r' = colsOf r) : RowsS c (P ++ r' :: S) := by
  intro x hx
  simp only [List.mem_append, List.mem_cons] at hx
  rcases hx with hx | rfl | hx
  · exact h x (by simp [hx])
  · exact RowS_of_cols (h r (by simp)) he
  · exact h x (by simp [hx])

theorem iluInner_end (d : T) (k : Nat) {n : Nat} {s : Sparse T} {it : SIt} (h : s.itEq it s.itEnd = true) :
    iluInner d k n s it = .ok s := by
  cases n <;> simp [iluInner, h]

theorem iluInner_pack (c : Nat) (d : T) (k : Nat) (P S : Rows T) (hk : k < P.length) (n : Nat) :
    ∀ (A : List (Nat × T)) (q : Nat × T) (B : List (Nat × T)),
      RowsS c (P ++ (A ++ q :: B) :: S) → B.length + 1 ≤ n →
      iluInner d k n (pack c (P ++ (A ++ q :: B) :: S)) ⟨P.length, q.1, P.flatten.length + A.length⟩
        = .ok (pack c (P ++ (A ++ upd d (ent P k) (q :: B)) :: S)) := by
  induction n with
  | zero => intro A q B _ h; omega
  | succ n ih =>
    intro A q B hok hn
    have hq : q.1 < c := (hok.mid).2 q (by simp)
    rw [iluInner, itEq_end_of_valid (itValid_pack (by simp) hq),
      Srt.at_pack hok (i := k) (by simp; omega) hq, ent_lt hk]
    simp only [Bool.false_eq_true, if_false, getIdx_values_pack, ok_bind, setIdx_values_pack, set_values_pack]
    cases B with
    | nil =>
      have hnx := rowNext_last c P A (q.1, q.2 - d * ent P k q.1) S hq
      simp only at hnx
      rw [hnx]
      simp only [ok_bind]
      rw [iluInner_end _ _ (by apply itEq_end_of_invalid; simp [itValid])]
      rfl
    | cons q' B =>
      have hnx := rowNext_same c P A (q.1, q.2 - d * ent P k q.1) q' B S hq
      simp only at hnx
      rw [hnx]
      simp only [ok_bind]
      have := ih (A ++ [(q.1, q.2 - d * ent P k q.1)]) q' B (by
        refine RowsS.repl hok ?_
        simp [colsOf]) (by simp at hn ⊢; omega)
      simp only [List.append_assoc, List.cons_append, List.nil_append, List.length_append,
        List.length_cons, List.length_nil] at this
      rw [show P.flatten.length + A.length + 1 = P.flatten.length + (A.length + (0 + 1)) by omega, this]
      simp [upd]

/-- The relation between a row and the row after elimination with the finished rows `u`. -/
inductive Elim (u : Nat → Nat → T) (i : Nat) : List (Nat × T) → List (Nat × T) → Prop
  | nil : Elim u i [] []
  | stop {k a B} : ¬ k < i → Elim u i ((k, a) :: B) ((k, a) :: B)
  | step {k a B B'} : k < i → u k k ≠ 0 → Elim u i (upd (a / u k k) (u k) B) B' →
      Elim u i ((k, a) :: B) ((k, a / u k k) :: B')

variable [Field V] [LinearOrder V] [IsStrictOrderedRing V]

theorem iluRow_stop (absv : AbsoluteValue T V) (eps : V) (i : Nat) {n : Nat} {s : Sparse T} {it : SIt}
    (h : s.itEq it s.itEnd = true) : iluRow absv eps i n s it = .ok s := by
  cases n <;> simp [iluRow, h]

theorem iluRow_pack (absv : AbsoluteValue T V) {eps : V} (heps : 0 ≤ eps) (c : Nat) (P S : Rows T)
    (n : Nat) :
    ∀ (A : List (Nat × T)) (p : Nat × T) (B : List (Nat × T)),
      RowsS c (P ++ (A ++ p :: B) :: S) → B.length + 1 ≤ n →
      Sat (iluRow absv eps P.length n (pack c (P ++ (A ++ p :: B) :: S)) ⟨P.length, p.1, P.flatten.length + A.length⟩)
        (fun s => ∃ r', s = pack c (P ++ (A ++ r') :: S) ∧ Elim (ent P) P.length (p :: B) r')
        (fun e => e = .exc .singular) := by
  induction n with
  | zero => intro A p B _ h; omega
  | succ n ih =>
    intro A p B hok hn
    have hp : p.1 < c := (hok.mid).2 p (by simp)
    rw [iluRow, itEq_end_of_valid (itValid_pack (by simp) hp)]
    by_cases hk : p.1 < P.length
    · simp only [Bool.not_false, Bool.true_and, hk, decide_true, if_true]
      rw [Srt.at_pack hok (i := p.1) (by simp; omega) hp, ent_lt hk]
      simp only [ok_bind]
      refine Sat.bind (sat_throwIf (fun _ => rfl)) ?_
      rintro - hne
      have hu : ent P p.1 p.1 ≠ 0 := by
        intro h0; apply hne; rw [h0, map_zero]; exact heps
      simp only [getIdx_values_pack, ok_bind, setIdx_values_pack, set_values_pack]
      set d := p.2 / ent P p.1 p.1 with hd
      have hok1 : RowsS c (P ++ (A ++ (p.1, d) :: B) :: S) := by
        refine RowsS.repl hok ?_; simp [colsOf]
      cases B with
      | nil =>
        have hnx := rowNext_last c P A (p.1, d) S hp
        simp only at hnx
        rw [hnx]
        simp only [ok_bind]
        have hE : (pack c (P ++ (A ++ [(p.1, d)]) :: S)).itEq
          ⟨(pack c (P ++ (A ++ [(p.1, d)]) :: S)).rows, (pack c (P ++ (A ++ [(p.1, d)]) :: S)).columns,
            P.flatten.length + A.length + 1⟩ (pack c (P ++ (A ++ [(p.1, d)]) :: S)).itEnd = true := by
          apply itEq_end_of_invalid; simp [itValid]
        rw [iluInner_end _ _ hE]
        simp only [ok_bind]
        rw [hnx]
        simp only [ok_bind]
        rw [iluRow_stop absv eps _ hE]
        exact ⟨[(p.1, d)], rfl, Elim.step hk hu Elim.nil⟩
      | cons q B =>
        have hnx := rowNext_same c P A (p.1, d) q B S hp
        simp only at hnx
        rw [hnx]
        simp only [ok_bind]
        have hin := iluInner_pack c d p.1 P S hk n (A ++ [(p.1, d)]) q B (by simpa using hok1)
          (by simp at hn; omega)
        simp only [List.append_assoc, List.cons_append, List.nil_append, List.length_append,
          List.length_cons, List.length_nil] at hin
        rw [show P.flatten.length + A.length + 1 = P.flatten.length + (A.length + (0 + 1)) by omega, hin]
        simp only [ok_bind]
        have hex : upd d (ent P p.1) (q :: B) = (q.1, q.2 - d * ent P p.1 q.1) :: upd d (ent P p.1) B := rfl
        rw [hex]
        have hnx2 := rowNext_same c P A (p.1, d) (q.1, q.2 - d * ent P p.1 q.1) (upd d (ent P p.1) B) S hp
        simp only at hnx2
        rw [hnx2]
        simp only [ok_bind]
        have hih := ih (A ++ [(p.1, d)]) (q.1, q.2 - d * ent P p.1 q.1) (upd d (ent P p.1) B) (by
          refine RowsS.repl hok ?_
          simp [colsOf, upd]) (by simp [upd] at hn ⊢; omega)
        simp only [List.append_assoc, List.cons_append, List.nil_append, List.length_append,
          List.length_cons, List.length_nil] at hih
        rw [show P.flatten.length + A.length + 1 = P.flatten.length + (A.length + (0 + 1)) by omega]
        refine hih.mono ?_ (fun _ h => h)
        rintro s ⟨r', rfl, hr'⟩
        exact ⟨(p.1, d) :: r', rfl, Elim.step hk hu hr'⟩
    · simp only [hk, decide_false, Bool.and_false, Bool.false_eq_true, if_false]
      exact ⟨p :: B, rfl, Elim.stop hk⟩

omit [Field V] [LinearOrder V] [IsStrictOrderedRing V] in
theorem Elim.cols {u : Nat → Nat → T} {i : Nat} {r r' : List (Nat × T)} (h : Elim u i r r') :
    colsOf r' = colsOf r := by
  induction h with
  | nil => rfl
  | stop _ => rfl
  | step _ _ _ ih => rw [colsOf_upd] at ih; simp only [colsOf, List.map_cons] at ih ⊢; rw [ih]

omit [Field V] [LinearOrder V] [IsStrictOrderedRing V] in
theorem lookup_upd (d : T) (u : Nat → T) (B : List (Nat × T)) (j : Nat) (hj : j ∈ colsOf B) :
    lookup (upd d u B) j = lookup B j - d * u j := by
  induction B with
  | nil => simp [colsOf] at hj
  | cons q B ih =>
    obtain ⟨a, b⟩ := q
    simp only [upd, List.map_cons, lookup]
    by_cases h : a = j
    · subst h; simp
    · rw [if_neg h, if_neg h]
      exact ih (by simp [colsOf] at hj ⊢; rcases hj with rfl | hj; exact absurd rfl h; exact hj)

omit [Field V] [LinearOrder V] [IsStrictOrderedRing V] in
theorem lookup_notin {r : List (Nat × T)} {j : Nat} (h : j ∉ colsOf r) : lookup r j = 0 :=
  lookup_of_not_mem fun v hv => h (List.mem_map.2 ⟨(j, v), hv, rfl⟩)

omit [Field V] [LinearOrder V] [IsStrictOrderedRing V] in
/-- The numerical content of the elimination of one row. -/
theorem Elim.sum {u : Nat → Nat → T} {i c : Nat} {r r' : List (Nat × T)} (h : Elim u i r r') (hs : RowS c r)
    {N : Nat} (hN : c ≤ N) (j : Nat) (hj : j ∈ colsOf r) :
    lookup r j = (∑ k ∈ Finset.range N, if k < i ∧ k < j then lookup r' k * u k j else 0) +
      (if j < i then lookup r' j * u j j else lookup r' j) := by
  induction h with
  | nil => simp [colsOf] at hj
  | @stop k a B hk =>
    have hz : (∑ x ∈ Finset.range N, if x < i ∧ x < j then lookup ((k, a) :: B) x * u x j else 0) = 0 := by
      refine Finset.sum_eq_zero (fun x _ => ?_)
      split
      · rename_i hx
        rw [lookup_notin, zero_mul]
        intro hm
        have := hs.1
        rw [List.pairwise_cons] at this
        simp only [colsOf, List.map_cons, List.mem_cons, List.mem_map] at hm
        rcases hm with rfl | ⟨q, hq, rfl⟩
        · exact hk hx.1
        · have := this.1 q hq; simp only at this; omega
      · rfl
    rw [hz, zero_add]
    split
    · rename_i hji
      exfalso
      have := hs.1
      rw [List.pairwise_cons] at this
      simp only [colsOf, List.map_cons, List.mem_cons, List.mem_map] at hj
      rcases hj with rfl | ⟨q, hq, rfl⟩
      · exact hk hji
      · have := this.1 q hq; simp only at this; omega
    · rfl
  | @step k a B B' hk hu hE ih =>
    have hp := hs.1
    rw [List.pairwise_cons] at hp
    have hcB : colsOf B' = colsOf B := by rw [hE.cols, colsOf_upd]
    have hlt : ∀ x ∈ colsOf B, k < x := by
      intro x hx
      obtain ⟨q, hq, rfl⟩ := List.mem_map.1 hx
      exact hp.1 q hq
    have hkN : k < N := by have := hs.2 (k, a) (by simp); simp only at this; omega
    have hlk : lookup B' k = 0 := lookup_notin (by rw [hcB]; intro hm; exact absurd (hlt _ hm) (by omega))
    have hsB : RowS c (upd (a / u k k) (u k) B) := by
      refine RowS_of_cols (r := B) ⟨hp.2, fun q hq => hs.2 q (by simp [hq])⟩ (colsOf_upd _ _ _)
    have hl : ∀ x, lookup ((k, a / u k k) :: B') x = (if x = k then a / u k k else 0) + lookup B' x := by
      intro x
      simp only [lookup]
      by_cases hx : k = x
      · subst hx; simp [hlk]
      · rw [if_neg hx, if_neg (fun h => hx h.symm), zero_add]
    have hsum : (∑ x ∈ Finset.range N, if x < i ∧ x < j then lookup ((k, a / u k k) :: B') x * u x j else 0)
        = (if k < j then a / u k k * u k j else 0) +
          ∑ x ∈ Finset.range N, if x < i ∧ x < j then lookup B' x * u x j else 0 := by
      have : (if k < j then a / u k k * u k j else 0) =
          ∑ x ∈ Finset.range N, if x = k then (if k < j then a / u k k * u k j else 0) else 0 := by
        rw [Finset.sum_ite_eq' (Finset.range N) k, if_pos (Finset.mem_range.2 hkN)]
      rw [this, ← Finset.sum_add_distrib]
      refine Finset.sum_congr rfl (fun x _ => ?_)
      rw [hl]
      by_cases hx : x = k
      · subst hx
        simp only [if_true, hk, true_and, hlk, add_zero, zero_mul]
        split <;> simp
      · simp only [hx, if_false, zero_add]
    rw [hsum]
    simp only [colsOf, List.map_cons, List.mem_cons] at hj
    by_cases hjk : j = k
    · subst hjk
      have hz : (∑ x ∈ Finset.range N, if x < i ∧ x < j then lookup B' x * u x j else 0) = 0 := by
        refine Finset.sum_eq_zero (fun x _ => ?_)
        split
        · rename_i hx
          rw [lookup_notin, zero_mul]
          rw [hcB]; intro hm; have := hlt _ hm; omega
        · rfl
      rw [hz, if_pos hk]
      simp only [lookup, if_true, lt_self_iff_false, if_false]
      rw [zero_add, zero_add, div_mul_cancel₀ _ hu]
    · have hjB : j ∈ colsOf B := hj.resolve_left hjk
      have hkj : k < j := hlt _ hjB
      have := ih hsB (by rw [colsOf_upd]; exact hjB)
      rw [lookup_upd _ _ _ _ hjB] at this
      simp only [lookup, if_neg (show ¬ k = j by omega), if_pos hkj]
      rw [sub_eq_iff_eq_add] at this
      rw [this]; ring

/-- Invariant of the elimination: rows below `i` are finished. -/
structure EInv (n : Nat) (rs0 rs : Rows T) (i : Nat) : Prop where
  len : rs.length = n
  cols : ∀ a, colsOf (rs.getD a []) = colsOf (rs0.getD a [])
  rest : ∀ a, i ≤ a → rs.getD a [] = rs0.getD a []
  done : ∀ a, a < i → ∀ j ∈ colsOf (rs0.getD a []),
    ent rs0 a j = (∑ k ∈ Finset.range n, if k < a ∧ k < j then ent rs a k * ent rs k j else 0) +
      (if j < a then ent rs a j * ent rs j j else ent rs a j)

theorem iluElim_ok (absv : AbsoluteValue T V) {eps : V} (heps : 0 ≤ eps) {n : Nat} (hn : 0 < n) {rs0 : Rows T}
    (h0 : RowsS n rs0) (hl : rs0.length = n) :
    Sat (iluElim absv eps (pack n rs0))
      (fun s => ∃ rs, s = pack n rs ∧ EInv n rs0 rs n) (fun e => e = .exc .singular) := by
  unfold iluElim
  have hr : (pack n rs0).rows = n := by simp [hl]
  rw [hr]
  refine sat_forRange (fun i s => ∃ rs, s = pack n rs ∧ EInv n rs0 rs i) (by omega) ?_ ?_
  · refine ⟨rs0, rfl, hl, fun _ => rfl, fun _ _ => rfl, ?_⟩
    intro a ha j hj
    have : a = 0 := by omega
    subst this
    simp
  · rintro i s hi hin ⟨rs, rfl, hI⟩
    have hS : RowsS n rs := by
      intro r hr
      obtain ⟨a, ha, rfl⟩ := List.getElem_of_mem hr
      have hc := hI.cols a
      rw [List.getD_eq_getElem _ _ ha, List.getD_eq_getElem _ _ (by rw [hl, ← hI.len]; exact ha)] at hc
      exact RowS_of_cols (h0 _ (List.getElem_mem _)) hc
    obtain ⟨P, r, S, rfl, hP⟩ := split_at (rs := rs) (i := i) (by rw [hI.len]; exact hin)
    subst hP
    rw [Srt.rowBegin_pack (hS.mid)]
    simp only [ok_bind]
    have hget : (P ++ r :: S).getD P.length [] = r := by simp [List.getD_eq_getElem?_getD]
    have hr0 : rs0.getD P.length [] = r := by rw [← hI.rest _ (le_refl _), hget]
    have hrow : RowS n r := hS.mid
    have fin : ∀ r', Elim (ent P) P.length r r' → EInv n rs0 (P ++ r' :: S) (P.length + 1) := by
      intro r' hE
      have hne : ∀ a, a ≠ P.length → (P ++ r' :: S).getD a [] = (P ++ r :: S).getD a [] := by
        intro a ha
        rcases Nat.lt_or_ge a P.length with h | h
        · rw [List.getD_append _ _ _ _ h, List.getD_append _ _ _ _ h]
        · rw [List.getD_append_right _ _ _ _ h, List.getD_append_right _ _ _ _ h]
          obtain ⟨m, hm⟩ : ∃ m, a - P.length = m + 1 := ⟨a - P.length - 1, by omega⟩
          rw [hm]; simp
      have hg' : (P ++ r' :: S).getD P.length [] = r' := by simp [List.getD_eq_getElem?_getD]
      refine ⟨?_, ?_, ?_, ?_⟩
      · have := hI.len; simpa using this
      · intro a
        by_cases ha : a = P.length
        · subst ha; rw [hg', hE.cols, hr0]
        · rw [hne a ha]; exact hI.cols a
      · intro a ha
        rw [hne a (by omega)]; exact hI.rest a (by omega)
      · intro a ha j hj
        by_cases haP : a = P.length
        · subst haP
          rw [hr0] at hj
          have := hE.sum hrow (le_refl n) j hj
          unfold ent at this ⊢
          rw [hr0, hg', this]
          congr 1
          · refine Finset.sum_congr rfl (fun k _ => ?_)
            split
            · rename_i hk; rw [List.getD_append _ _ _ _ hk.1]
            · rfl
          · split
            · rename_i hk; rw [List.getD_append _ _ _ _ hk]
            · rfl
        · have := hI.done a (by omega) j hj
          rw [this]
          unfold ent
          rw [hne a haP]
          congr 1
          · refine Finset.sum_congr rfl (fun k _ => ?_)
            split
            · rename_i hk; rw [hne k (by omega)]
            · rfl
          · split
            · rename_i hk; rw [hne j (by omega)]
            · rfl
    cases r with
    | nil =>
      rw [iluRow_stop absv eps _ (by apply itEq_end_of_invalid; simp [itValid, itEnd])]
      exact ⟨_, rfl, fin [] Elim.nil⟩
    | cons p B =>
      have := iluRow_pack absv heps n P S
        ((pack n (P ++ (p :: B) :: S)).values.length + 1) [] p B (by simpa using hS) (by
          rw [pack_values, List.length_map]
          simp only [List.flatten_append, List.flatten_cons, List.length_append, List.length_cons]
          omega)
      simp only [List.nil_append, List.length_nil, Nat.add_zero] at this
      refine this.mono ?_ (fun _ h => h)
      rintro s ⟨r', rfl, hE⟩
      exact ⟨_, rfl, fin r' hE⟩

omit [Field V] [LinearOrder V] [IsStrictOrderedRing V] in
theorem mem_triples' {rs : Rows T} {k i j : Nat} {v : T} :
    (i, j, v) ∈ triples k rs ↔ k ≤ i ∧ (j, v) ∈ rs.getD (i - k) [] := by
  induction rs generalizing k with
  | nil => simp [triples]
  | cons r rs ih =>
    simp only [triples, List.mem_append, ih]
    have hrt : (i, j, v) ∈ rowTriples k r ↔ i = k ∧ (j, v) ∈ r := by
      unfold rowTriples
      simp only [List.mem_map, Prod.mk.injEq, Prod.exists]
      constructor
      · rintro ⟨x, y, hm, rfl, rfl, rfl⟩; exact ⟨rfl, hm⟩
      · rintro ⟨rfl, hm⟩; exact ⟨j, v, hm, rfl, rfl, rfl⟩
    rw [hrt]
    constructor
    · rintro (⟨rfl, h⟩ | ⟨h1, h2⟩)
      · exact ⟨le_refl _, by simpa using h⟩
      · refine ⟨by omega, ?_⟩
        obtain ⟨d, hd⟩ : ∃ d, i - k = d + 1 := ⟨i - k - 1, by omega⟩
        rw [hd]; rw [show i - (k + 1) = d by omega] at h2
        simpa using h2
    · rintro ⟨h1, h2⟩
      rcases Nat.eq_or_lt_of_le h1 with h | h
      · left; subst h; simpa using h2
      · right
        refine ⟨h, ?_⟩
        obtain ⟨d, hd⟩ : ∃ d, i - k = d + 1 := ⟨i - k - 1, by omega⟩
        rw [hd] at h2; rw [show i - (k + 1) = d by omega]
        simpa using h2

omit [Field V] [LinearOrder V] [IsStrictOrderedRing V] in
theorem triples_sorted' {c : Nat} {rs : Rows T} (h : RowsS c rs) (k : Nat) :
    (triples k rs).Pairwise PosLt := by
  induction rs generalizing k with
  | nil => simp [triples]
  | cons r rs ih =>
    have hr : RowS c r := h r (by simp)
    have hrs : RowsS c rs := fun x hx => h x (by simp [hx])
    simp only [triples]
    rw [List.pairwise_append]
    refine ⟨?_, ih hrs _, ?_⟩
    · unfold rowTriples
      rw [List.pairwise_map]
      exact hr.1.imp (fun hab => Or.inr ⟨rfl, hab⟩)
    · rintro ⟨a, b, v⟩ ha ⟨a', b', v'⟩ hb
      have h2 := mem_triples'.1 hb
      unfold rowTriples at ha
      simp only [List.mem_map, Prod.mk.injEq, Prod.exists] at ha
      obtain ⟨x, y, -, rfl, -, -⟩ := ha
      left; simp; omega

/-- value written to `L` for a stored entry `v` at `(a,j)` -/
def lval (a j : Nat) (v : T) : T := if j = a then 1 else if j < a then v else 0
/-- value written to `U` -/
def uval (a j : Nat) (v : T) : T := if a ≤ j then v else 0

omit [Field V] [LinearOrder V] [IsStrictOrderedRing V] in
theorem iluSplit_ok {n : Nat} {rs : Rows T} (hS : RowsS n rs) (hl : rs.length = n) {L U : Sparse T}
    (hL : Inv L) (hU : Inv U) (lr : L.rows = n) (lc : L.columns = n) (ur : U.rows = n) (uc : U.columns = n)
    (zL : ∀ i j, L.val i j = 0) (zU : ∀ i j, U.val i j = 0) :
    Sat (iluSplit (pack n rs) L U) (fun p =>
      (Inv p.1 ∧ p.1.rows = n ∧ p.1.columns = n) ∧ (Inv p.2 ∧ p.2.rows = n ∧ p.2.columns = n) ∧
      (∀ a j v, (j, v) ∈ rs.getD a [] → p.1.val a j = lval a j v ∧ p.2.val a j = uval a j v) ∧
      (∀ a j, j ∉ colsOf (rs.getD a []) → p.1.val a j = 0 ∧ p.2.val a j = 0)) noErr := by
  unfold iluSplit
  rw [(Srt.entries_pack hS).2]
  simp only [ok_bind]
  have hp := triples_sorted' hS 0
  refine (sat_forList (fun pre p =>
      (Inv p.1 ∧ p.1.rows = n ∧ p.1.columns = n) ∧ (Inv p.2 ∧ p.2.rows = n ∧ p.2.columns = n) ∧
      (∀ a j v, (a, j, v) ∈ pre → p.1.val a j = lval a j v ∧ p.2.val a j = uval a j v) ∧
      (∀ a j, (∀ v, (a, j, v) ∉ pre) → p.1.val a j = 0 ∧ p.2.val a j = 0)) (triples 0 rs) ?_ ?_).mono ?_ (fun _ h => h)
  · exact ⟨⟨hL, lr, lc⟩, ⟨hU, ur, uc⟩, by simp, fun a j _ => ⟨zL _ _, zU _ _⟩⟩
  · rintro pre ⟨a, j, v⟩ suf ⟨L, U⟩ hl' ⟨⟨i1, i2, i3⟩, ⟨j1, j2, j3⟩, hin, hout⟩
    have hmem : (a, j, v) ∈ triples 0 rs := by rw [hl']; simp
    have hm := (mem_triples'.1 hmem).2
    rw [Nat.sub_zero] at hm
    have ha : a < n := by
      by_contra hge
      rw [List.getD_eq_default _ _ (by omega)] at hm; simp at hm
    have hjn : j < n := by
      have : rs.getD a [] ∈ rs := by
        rw [List.getD_eq_getElem _ _ (by omega)]; exact List.getElem_mem _
      exact (hS _ this).2 _ hm
    have hnew : ∀ w, (a, j, w) ∉ pre := by
      intro w hw
      rw [hl', List.pairwise_append] at hp
      have := hp.2.2 _ hw (a, j, v) (by simp)
      unfold PosLt at this; simp only at this; omega
    obtain ⟨z1, z2⟩ := hout a j hnew
    simp only at i1 i2 i3 j1 j2 j3 hin hout z1 z2 ⊢
    -- generic conclusion
    have concl : ∀ (L' U' : Sparse T), (Inv L' ∧ L'.rows = n ∧ L'.columns = n) → (Inv U' ∧ U'.rows = n ∧ U'.columns = n) →
        (∀ x y, L'.val x y = if x = a ∧ y = j then lval a j v else L.val x y) →
        (∀ x y, U'.val x y = if x = a ∧ y = j then uval a j v else U.val x y) →
        ((Inv L' ∧ L'.rows = n ∧ L'.columns = n) ∧ (Inv U' ∧ U'.rows = n ∧ U'.columns = n) ∧
        (∀ x y w, (x, y, w) ∈ pre ++ [(a, j, v)] → L'.val x y = lval x y w ∧ U'.val x y = uval x y w) ∧
        (∀ x y, (∀ w, (x, y, w) ∉ pre ++ [(a, j, v)]) → L'.val x y = 0 ∧ U'.val x y = 0)) := by
      intro L' U' hL' hU' eL eU
      refine ⟨hL', hU', ?_, ?_⟩
      · intro x y w hw
        rw [eL, eU]
        rw [List.mem_append, List.mem_singleton] at hw
        rcases hw with hw | hw
        · have : ¬ (x = a ∧ y = j) := by rintro ⟨rfl, rfl⟩; exact hnew _ hw
          rw [if_neg this, if_neg this]; exact hin _ _ _ hw
        · simp only [Prod.mk.injEq] at hw
          obtain ⟨rfl, rfl, rfl⟩ := hw
          simp
      · intro x y hw
        have : ¬ (x = a ∧ y = j) := by rintro ⟨rfl, rfl⟩; exact hw v (by simp)
        rw [eL, eU, if_neg this, if_neg this]
        exact hout _ _ fun w hh => hw w (by simp [hh])
    by_cases h1 : j = a
    · subst h1
      rw [if_pos rfl]
      obtain ⟨L', l1, l2, l3, l4, l5⟩ := i1.set_ok (i := j) (j := j) 1 (by omega) (by omega)
      obtain ⟨U', u1, u2, u3, u4, u5⟩ := j1.set_ok (i := j) (j := j) v (by omega) (by omega)
      rw [l1]; simp only [ok_bind]; rw [u1]
      refine concl L' U' ⟨l2, by omega, by omega⟩ ⟨u2, by omega, by omega⟩ (fun x y => ?_) (fun x y => ?_)
      · rw [l5]; simp [lval]
      · rw [u5]; simp [uval]
    · rw [if_neg h1]
      by_cases h2 : j < a
      · rw [if_pos h2]
        obtain ⟨L', l1, l2, l3, l4, l5⟩ := i1.set_ok (i := a) (j := j) v (by omega) (by omega)
        rw [l1]
        refine concl L' U ⟨l2, by omega, by omega⟩ ⟨j1, j2, j3⟩ (fun x y => ?_) (fun x y => ?_)
        · rw [l5]; simp [lval, h1, h2]
        · split
          · rename_i hxy; rw [hxy.1, hxy.2, z2]; simp [uval, h2]
          · rfl
      · rw [if_neg h2]
        obtain ⟨U', u1, u2, u3, u4, u5⟩ := j1.set_ok (i := a) (j := j) v (by omega) (by omega)
        rw [u1]
        refine concl L U' ⟨i1, i2, i3⟩ ⟨u2, by omega, by omega⟩ (fun x y => ?_) (fun x y => ?_)
        · split
          · rename_i hxy; rw [hxy.1, hxy.2, z1]; simp [lval, h1, h2]
          · rfl
        · rw [u5]; simp [uval, show a ≤ j by omega]
  · rintro p ⟨p1, p2, p3, p4⟩
    refine ⟨p1, p2, fun a j v hm => p3 a j v (mem_triples'.2 ⟨by omega, by simpa using hm⟩), fun a j hj => p4 a j ?_⟩
    intro v hv
    exact hj (List.mem_map.2 ⟨(j, v), by simpa using (mem_triples'.1 hv).2, rfl⟩)
end LU
end NS

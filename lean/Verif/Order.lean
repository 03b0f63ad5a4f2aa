/-
Correctness of `cuthill_mckee`: loop invariants.
-/
import Verif.OrderModel
import Verif.SparseOps2
import Verif.VecLemmas
import Mathlib.Data.List.Perm.Basic
import Mathlib.Data.List.Nodup

set_option linter.unusedSectionVars false
set_option linter.unusedSimpArgs false

namespace NS
namespace Order
variable {T : Type} [CommRing T] [NoZeroDivisors T] [DecidableEq T] {m : Sparse T}

/-- number of non-zero entries of row `i` -/
def deg (m : Sparse T) (i : Nat) : Nat := ((Finset.range m.columns).filter (fun j => m.val i j ≠ 0)).card

/-- rows `c` and `d` are joined: the off-diagonal entry `(c,d)` is non-zero and row `d` is not empty -/
def Edge (m : Sparse T) (c d : Nat) : Prop := c ≠ d ∧ d < m.columns ∧ m.val c d ≠ 0 ∧ 0 < deg m d

theorem rowEntries_length (h : Sparse.Inv m) {i : Nat} (hi : i < m.rows) {l} (hl : m.rowEntries i = .ok l) :
    l.length = deg m i ∧ (∀ d, (∃ e ∈ l, e.2.1 = d) ↔ d < m.columns ∧ m.val i d ≠ 0) ∧ (∀ e ∈ l, e.1 = i ∧ e.2.1 < m.columns) := by
  obtain ⟨l', h1, h2, h3, h4⟩ := h.rowEntries_ok hi
  rw [hl] at h1; cases h1
  have hmem : ∀ d, (∃ e ∈ l, e.2.1 = d) ↔ d < m.columns ∧ m.val i d ≠ 0 := by
    intro d
    constructor
    · rintro ⟨e, he, rfl⟩
      obtain ⟨a, b, c⟩ := (h3 e).1 he
      refine ⟨(h4 e he).2, ?_⟩
      rw [← a, ← b]; exact c
    · rintro ⟨h5, h6⟩
      exact ⟨(i, d, m.val i d), (h3 _).2 ⟨rfl, rfl, h6⟩, rfl⟩
  refine ⟨?_, hmem, fun e he => ⟨((h3 e).1 he).1, (h4 e he).2⟩⟩
  have hnd : (l.map (fun e => e.2.1)).Nodup := by
    rw [List.Nodup, List.pairwise_map]; exact h2.imp (fun h => Nat.ne_of_lt h)
  have : (l.map (fun e => e.2.1)).toFinset = (Finset.range m.columns).filter (fun j => m.val i j ≠ 0) := by
    ext d
    rw [List.mem_toFinset, List.mem_map, hmem, Finset.mem_filter, Finset.mem_range]
  unfold deg
  rw [← this, List.toFinset_card_of_nodup hnd, List.length_map]

theorem rowFilledCount_ok (h : Sparse.Inv m) {i : Nat} (hi : i < m.rows) : m.rowFilledCount i = .ok (deg m i) := by
  obtain ⟨l, h1, -⟩ := h.rowEntries_ok hi
  unfold Sparse.rowFilledCount
  rw [h1, ← (rowEntries_length h hi h1).1]
  simp only [ok_bind]
  rw [forList_ok (g := fun _ n => n + 1) l 0 (fun _ _ _ => rfl)]
  congr 1
  have : ∀ (l : List (Nat × Nat × T)) (k : Nat), l.foldl (fun s _ => s + 1) k = k + l.length := by
    intro l
    induction l with
    | nil => simp
    | cons a l ih => intro k; rw [List.foldl_cons, ih]; simp; omega
  rw [this]; simp

theorem mmInsert_perm (k v : Nat) (l : List (Nat × Nat)) : (mmInsert k v l).Perm ((k, v) :: l) := by
  induction l with
  | nil => exact List.Perm.refl _
  | cons e l ih =>
    unfold mmInsert
    split
    · exact List.Perm.refl _
    · exact (List.Perm.cons e ih).trans (List.Perm.swap _ _ _)

/-- order by key, then value -/
def Lex (a b : Nat × Nat) : Prop := a.1 < b.1 ∨ (a.1 = b.1 ∧ a.2 < b.2)

theorem mmInsert_sorted (k v : Nat) (l : List (Nat × Nat)) (h : l.Pairwise Lex) (hv : ∀ e ∈ l, e.2 < v) :
    (mmInsert k v l).Pairwise Lex := by
  induction l with
  | nil => simp [mmInsert]
  | cons e l ih =>
    obtain ⟨h1, h2⟩ := List.pairwise_cons.1 h
    unfold mmInsert
    split
    · next hlt =>
      refine List.pairwise_cons.2 ⟨?_, h⟩
      intro a ha
      rcases List.mem_cons.1 ha with rfl | ha
      · exact .inl hlt
      · have := h1 a ha
        unfold Lex at this ⊢
        simp only
        omega
    · next hle =>
      refine List.pairwise_cons.2 ⟨?_, ih h2 fun e he => hv e (List.mem_cons_of_mem _ he)⟩
      intro a ha
      rcases List.mem_cons.1 ((mmInsert_perm k v l).mem_iff.1 ha) with rfl | ha
      · have := hv e (by simp)
        unfold Lex
        simp only
        omega
      · exact h1 a ha

theorem adjacent_ok (h : Sparse.Inv m) (hsq : m.rows = m.columns) {p : Nat} (hp : p < m.rows) :
    ∃ adj, adjacent m p = .ok adj ∧ adj.length ≤ m.columns ∧ (∀ d, d ∈ adj.map Prod.snd ↔ Edge m p d) ∧
      (∀ e ∈ adj, e.1 = deg m e.2) ∧ adj.Pairwise Lex := by
  obtain ⟨l, h1, hasc, -⟩ := h.rowEntries_ok hp
  obtain ⟨hlen, hmem, hrng⟩ := rowEntries_length h hp h1
  unfold adjacent
  rw [h1]
  simp only [ok_bind]
  have := sat_forList (f := fun (e : Nat × Nat × T) (adj : List (Nat × Nat)) =>
      if e.2.1 ≠ e.1 then do
        let mc ← m.rowFilledCount e.2.1
        if mc > 0 then (return mmInsert mc e.2.1 adj : R _) else return adj
      else return adj) (E := noErr)
    (fun pre (adj : List (Nat × Nat)) => adj.length ≤ pre.length ∧
      (∀ d, d ∈ adj.map Prod.snd ↔ (∃ e ∈ pre, e.2.1 = d) ∧ d ≠ p ∧ 0 < deg m d) ∧
      (∀ e ∈ adj, e.1 = deg m e.2) ∧ adj.Pairwise Lex) l (s := []) (by simp) (by
      intro pre e suf adj hl ⟨i1, i2, i3, i4⟩
      have he := hrng e (by rw [hl]; simp)
      have hd : ∀ d, (∃ e' ∈ pre ++ [e], e'.2.1 = d) ↔ (∃ e' ∈ pre, e'.2.1 = d) ∨ e.2.1 = d := by
        intro d
        simp only [List.mem_append, List.mem_singleton, or_and_right, exists_or, exists_eq_left]
      by_cases hne : e.2.1 = e.1
      · simp only [hne, ne_eq, not_true_eq_false, if_false, pure_eq_ok, Sat_ok]
        refine ⟨by simp; omega, fun d => ?_, i3, i4⟩
        rw [i2, hd]
        constructor
        · rintro ⟨a, b⟩; exact ⟨Or.inl a, b⟩
        · rintro ⟨a | a, b⟩
          · exact ⟨a, b⟩
          · rw [hne, he.1] at a; exact absurd a.symm b.1
      · rw [if_pos hne, rowFilledCount_ok h (show e.2.1 < m.rows by omega)]
        simp only [ok_bind]
        by_cases hpos : deg m e.2.1 > 0
        · rw [if_pos hpos]
          refine ⟨by rw [(mmInsert_perm _ _ _).length_eq]; simp; omega, fun d => ?_, fun a ha => ?_,
            mmInsert_sorted _ _ _ i4 fun a ha => ?_⟩
          rotate_left
          · rcases List.mem_cons.1 ((mmInsert_perm _ _ _).mem_iff.1 ha) with rfl | ha
            · rfl
            · exact i3 a ha
          · obtain ⟨⟨e', e1, e2⟩, -⟩ := (i2 a.2).1 (List.mem_map.2 ⟨a, ha, rfl⟩)
            rw [hl] at hasc
            have := (List.pairwise_append.1 hasc).2.2 e' e1 e (by simp)
            omega
          have : d ∈ (mmInsert (deg m e.2.1) e.2.1 adj).map Prod.snd ↔ d = e.2.1 ∨ d ∈ adj.map Prod.snd := by
            rw [((mmInsert_perm _ _ _).map Prod.snd).mem_iff]; simp
          rw [this, i2, hd]
          constructor
          · rintro (rfl | ⟨a, b⟩)
            · exact ⟨Or.inr rfl, by rw [← he.1]; exact hne, hpos⟩
            · exact ⟨Or.inl a, b⟩
          · rintro ⟨a | a, b⟩
            · exact Or.inr ⟨a, b⟩
            · exact Or.inl a.symm
        · rw [if_neg hpos]
          refine ⟨by simp; omega, fun d => ?_, i3, i4⟩
          rw [i2, hd]
          constructor
          · rintro ⟨a, b⟩; exact ⟨Or.inl a, b⟩
          · rintro ⟨a | a, b⟩
            · exact ⟨a, b⟩
            · rw [← a] at b; exact absurd b.2 hpos)
  obtain ⟨adj, e1, e2, e3, e4, e5⟩ := this.ok_of
  refine ⟨adj, e1, ?_, fun d => ?_, e4, e5⟩
  · have : deg m p ≤ m.columns := by
      unfold deg
      exact (Finset.card_filter_le _ _).trans (by simp)
    omega
  · rw [e3, hmem]
    unfold Edge
    constructor
    · rintro ⟨⟨a, b⟩, c, d⟩; exact ⟨Ne.symm c, a, b, d⟩
    · rintro ⟨a, b, c, d⟩; exact ⟨⟨b, c⟩, Ne.symm a, d⟩

/-- row `a` is preferred to row `b`: smaller degree, then smaller index -/
def Pref (m : Sparse T) (a b : Nat) : Prop := deg m a < deg m b ∨ (deg m a = deg m b ∧ a ≤ b)

/-- `CMOrder m P`: `P` lists distinct non-empty rows, each of which is either (`next`) the preferred one among the unlisted
neighbours of the earliest listed row that has unlisted neighbours, or (`start`) the preferred one among all unlisted
rows if no listed row has an unlisted neighbour. -/
inductive CMOrder (m : Sparse T) : List Nat → Prop
  | nil : CMOrder m []
  | start {P : List Nat} {v : Nat} : CMOrder m P → v < m.rows → 0 < deg m v → v ∉ P →
      (∀ c ∈ P, ∀ d, Edge m c d → d ∈ P) → (∀ d, d < m.rows → 0 < deg m d → d ∉ P → Pref m v d) →
      CMOrder m (P ++ [v])
  | next {P : List Nat} {v l : Nat} (hl : l < P.length) : CMOrder m P → v < m.rows → v ∉ P → Edge m P[l] v →
      (∀ (l' : Nat) (_ : l' < P.length) (d : Nat), Edge m P[l'] d → d ∉ P → l < l' ∨ (l = l' ∧ Pref m v d)) → CMOrder m (P ++ [v])

/-- invariant of the state: `P` is the part of the result written so far -/
structure St (m : Sparse T) (P : List Nat) (s : CM) : Prop where
  res : s.res = P ++ List.replicate (m.rows - P.length) 0
  cur : s.cur = P.length
  perm : (P ++ s.rows.map Prod.snd).Perm ((List.range m.rows).filter fun i => decide (0 < deg m i))
  keys : ∀ e ∈ s.rows, e.1 = deg m e.2
  sorted : s.rows.Pairwise Lex
  ord : CMOrder m P

theorem St.mem {P : List Nat} {s : CM} (h : St m P s) (d : Nat) :
    (d ∈ P ∨ d ∈ s.rows.map Prod.snd) ↔ d < m.rows ∧ 0 < deg m d := by
  rw [← List.mem_append, h.perm.mem_iff]; simp

theorem St.nodup {P : List Nat} {s : CM} (h : St m P s) : (P ++ s.rows.map Prod.snd).Nodup :=
  h.perm.nodup_iff.2 (List.nodup_range.filter _)

theorem St.length {P : List Nat} {s : CM} (h : St m P s) : P.length + s.rows.length ≤ m.rows := by
  have h1 := h.perm.length_eq
  have h2 := List.length_filter_le (fun i => decide (0 < deg m i)) (List.range m.rows)
  simp at h1 h2
  omega

/-- writing the next element -/
theorem St.write {P : List Nat} {s : CM} (h : St m P s) {c : Nat} {rest : List (Nat × Nat)} (_hc : (deg m c, c) ∈ s.rows)
    (hrest : s.rows.Perm ((deg m c, c) :: rest)) (hsub : rest.Pairwise Lex) (ho : CMOrder m (P ++ [c])) :
    ∃ res, setIdx s.res s.cur c = .ok res ∧ St m (P ++ [c]) ⟨res, s.cur + 1, rest⟩ := by
  have hlen := h.length
  have hr : s.rows.length = rest.length + 1 := hrest.length_eq
  rw [h.res, h.cur, setIdx_eq _ (by simp; omega)]
  refine ⟨_, rfl, ?_, by simp, ?_, ?_, hsub, ho⟩
  · have : m.rows - P.length = (m.rows - (P ++ [c]).length) + 1 := by simp; omega
    rw [this, List.replicate_succ]
    simp
  · refine List.Perm.trans ?_ h.perm
    have : (s.rows.map Prod.snd).Perm (c :: rest.map Prod.snd) := hrest.map Prod.snd
    simpa using (this.symm.append_left P)
  · intro e he
    exact h.keys e (hrest.mem_iff.2 (List.mem_cons_of_mem _ he))

/-- order of queue entries: position of the listed row they were found from, then preference -/
def QLex (m : Sparse T) (a b : Nat × Nat) : Prop := a.1 < b.1 ∨ (a.1 = b.1 ∧ Pref m a.2 b.2)

/-- the queue `Q` holds, in order, neighbours of listed rows, and at least the unlisted ones -/
structure Queue (m : Sparse T) (P : List Nat) (Q : List (Nat × Nat)) : Prop where
  lt : ∀ e ∈ Q, e.1 < P.length
  edge : ∀ e ∈ Q, ∀ h : e.1 < P.length, Edge m P[e.1] e.2
  sorted : Q.Pairwise (QLex m)
  all : ∀ (l : Nat) (h : l < P.length) (d : Nat), Edge m P[l] d → d ∈ P ∨ (l, d) ∈ Q

theorem Queue.push {P : List Nat} {Q adj : List (Nat × Nat)} {c : Nat} (hQ : Queue m P Q)
    (a3 : ∀ d, d ∈ adj.map Prod.snd ↔ Edge m c d) (a4 : ∀ e ∈ adj, e.1 = deg m e.2) (a5 : adj.Pairwise Lex) :
    Queue m (P ++ [c]) (Q ++ adj.map fun e => (P.length, e.2)) := by
  have hget : ∀ (l : Nat) (h : l < P.length) (h' : l < (P ++ [c]).length), (P ++ [c])[l] = P[l] := fun l h _ =>
    List.getElem_append_left h
  have hmem : ∀ e ∈ adj.map (fun e => (P.length, e.2)), e.1 = P.length ∧ Edge m c e.2 := by
    intro e he
    obtain ⟨a, ha, rfl⟩ := List.mem_map.1 he
    exact ⟨rfl, (a3 _).1 (List.mem_map.2 ⟨a, ha, rfl⟩)⟩
  refine ⟨fun e he => ?_, fun e he h => ?_, ?_, fun l hl d hd => ?_⟩
  · rcases List.mem_append.1 he with he | he
    · have := hQ.lt e he; simp; omega
    · have := (hmem e he).1; simp; omega
  · rcases List.mem_append.1 he with he | he
    · rw [hget e.1 (hQ.lt e he)]; exact hQ.edge e he _
    · obtain ⟨h1, h2⟩ := hmem e he
      simp only [h1, List.getElem_append_right (le_refl _), Nat.sub_self, List.getElem_cons_zero]
      exact h2
  · rw [List.pairwise_append]
    refine ⟨hQ.sorted, ?_, fun a ha b hb => .inl ?_⟩
    · rw [List.pairwise_map]
      refine a5.imp_of_mem fun {a b} ha hb hab => .inr ⟨rfl, ?_⟩
      unfold Lex at hab
      rw [a4 a ha, a4 b hb] at hab
      unfold Pref
      simp only
      omega
    · rw [(hmem b hb).1]; exact hQ.lt a ha
  · rcases Nat.lt_or_ge l P.length with h | h
    · rw [hget l h] at hd
      rcases hQ.all l h d hd with h1 | h1
      · left; simp [h1]
      · right; simp [h1]
    · obtain rfl : l = P.length := by simp at hl; omega
      simp only [List.getElem_append_right (le_refl _), Nat.sub_self, List.getElem_cons_zero] at hd
      obtain ⟨e, he, rfl⟩ := List.mem_map.1 ((a3 d).2 hd)
      exact .inr (List.mem_append.2 (.inr (List.mem_map.2 ⟨e, he, rfl⟩)))

theorem Queue.nil_closed {P : List Nat} (hQ : Queue m P []) : ∀ p ∈ P, ∀ d, Edge m p d → d ∈ P := by
  intro p hp d hd
  obtain ⟨l, hl, rfl⟩ := List.getElem_of_mem hp
  exact (hQ.all l hl d hd).resolve_right (by simp)

theorem Queue.pop {P : List Nat} {e : Nat × Nat} {Q : List (Nat × Nat)} (hQ : Queue m P (e :: Q)) (he : e.2 ∈ P) : Queue m P Q := by
  refine ⟨fun a ha => hQ.lt a (by simp [ha]), fun a ha => hQ.edge a (by simp [ha]), (List.pairwise_cons.1 hQ.sorted).2, fun l hl d hd => ?_⟩
  rcases hQ.all l hl d hd with h | h
  · exact .inl h
  · rcases List.mem_cons.1 h with rfl | h
    · exact .inl he
    · exact .inr h

/-- removing the head after listing it -/
theorem Queue.pop_push {P : List Nat} {e : Nat × Nat} {Q adj : List (Nat × Nat)} (hQ : Queue m P (e :: Q))
    (a3 : ∀ d, d ∈ adj.map Prod.snd ↔ Edge m e.2 d) (a4 : ∀ e ∈ adj, e.1 = deg m e.2) (a5 : adj.Pairwise Lex) :
    Queue m (P ++ [e.2]) (Q ++ adj.map fun e => (P.length, e.2)) :=
  (hQ.push a3 a4 a5).pop (by simp)

theorem drain_ok (h : Sparse.Inv m) (hsq : m.rows = m.columns) : ∀ (fuel : Nat) (Q : List (Nat × Nat)) (s : CM) (P : List Nat),
    St m P s → s.rows.length * (m.columns + 1) + Q.length ≤ fuel → Queue m P Q →
    ∃ P' s', drain m fuel (Q.map Prod.snd) s = .ok s' ∧ St m P' s' ∧ (∀ p ∈ P', ∀ d, Edge m p d → d ∈ P') ∧
      s'.rows.length ≤ s.rows.length
  | 0, [], s, P, hs, _, h4 => ⟨P, s, rfl, hs, h4.nil_closed, le_refl _⟩
  | 0, c :: Q, s, P, hs, hf, _ => by simp at hf
  | fuel + 1, [], s, P, hs, _, h4 => ⟨P, s, rfl, hs, h4.nil_closed, le_refl _⟩
  | fuel + 1, (l, c) :: Q, s, P, hs, hf, hQ => by
      have hl : l < P.length := hQ.lt (l, c) (by simp)
      have he : Edge m P[l] c := hQ.edge (l, c) (by simp) hl
      have hc : c < m.rows := by rw [hsq]; exact he.2.1
      have hff : s.rows.length * (m.columns + 1) + Q.length ≤ fuel := by
        simp only [List.length_cons] at hf; omega
      simp only [List.map_cons]
      unfold drain
      rw [rowFilledCount_ok h hc]
      simp only [ok_bind, findPair, List.contains_iff_mem]
      by_cases hin : (deg m c, c) ∈ s.rows
      · rw [if_pos hin]
        have hcP : c ∉ P := fun hcP => by
          have := hs.nodup
          rw [List.nodup_append] at this
          exact this.2.2 c hcP c (List.mem_map.2 ⟨_, hin, rfl⟩) rfl
        have hbest : ∀ (l' : Nat) (_ : l' < P.length) (d : Nat), Edge m P[l'] d → d ∉ P → l < l' ∨ (l = l' ∧ Pref m c d) := by
          intro l' hl' d hd hdP
          rcases List.mem_cons.1 ((hQ.all l' hl' d hd).resolve_left hdP) with h1 | h1
          · cases h1
            exact .inr ⟨rfl, .inr ⟨rfl, le_refl _⟩⟩
          · exact (List.pairwise_cons.1 hQ.sorted).1 _ h1
        obtain ⟨res, w1, w2⟩ := hs.write hin (List.perm_cons_erase hin) (hs.sorted.sublist List.erase_sublist)
          (.next hl hs.ord hc hcP he hbest)
        obtain ⟨adj, a1, a2, a3, a4, a5⟩ := adjacent_ok h hsq hc
        have hlen : s.rows.length = (s.rows.erase (deg m c, c)).length + 1 := (List.perm_cons_erase hin).length_eq
        simp only [w1, a1, ok_bind]
        obtain ⟨P', s', r1, r2, r3, r4⟩ := drain_ok h hsq fuel (Q ++ adj.map fun e => (P.length, e.2)) _ (P ++ [c]) w2 (by
            rw [hlen, Nat.add_mul] at hff
            simp only [List.length_append, List.length_map]
            omega) (hQ.pop_push a3 a4 a5)
        have eQ : (Q ++ adj.map fun e => (P.length, e.2)).map Prod.snd = Q.map Prod.snd ++ adj.map Prod.snd := by
          simp
        rw [eQ] at r1
        refine ⟨P', s', r1, r2, r3, ?_⟩
        have : s'.rows.length ≤ (s.rows.erase (deg m c, c)).length := r4
        omega
      · rw [if_neg hin]
        have hcP : c ∈ P := by
          rcases (hs.mem c).2 ⟨hc, he.2.2.2⟩ with h | h
          · exact h
          · obtain ⟨e, e1, e2⟩ := List.mem_map.1 h
            exact absurd (by rw [← e2, ← hs.keys e e1]; exact e1) hin
        exact drain_ok h hsq fuel Q s P hs hff (hQ.pop hcP)

theorem comps_ok (h : Sparse.Inv m) (hsq : m.rows = m.columns) : ∀ (fuel : Nat) (s : CM) (P : List Nat),
    St m P s → s.rows.length ≤ fuel → (∀ p ∈ P, ∀ d, Edge m p d → d ∈ P) →
    ∃ P' s', comps m fuel s = .ok s' ∧ St m P' s' ∧ s'.rows = []
  | 0, s, P, hs, hf, _ => by
      have : s.rows = [] := List.eq_nil_of_length_eq_zero (by omega)
      exact ⟨P, s, by rw [comps, if_pos this], hs, this⟩
  | fuel + 1, s, P, hs, hf, hcl => by
      unfold comps
      cases hr : s.rows with
      | nil => exact ⟨P, s, rfl, hs, hr⟩
      | cons e rest =>
        have hemem : e ∈ s.rows := by rw [hr]; simp
        have hk := hs.keys e hemem
        have he : (deg m e.2, e.2) = e := by rw [← hk]
        have hin : e.2 < m.rows ∧ 0 < deg m e.2 := (hs.mem e.2).1 (Or.inr (List.mem_map.2 ⟨e, hemem, rfl⟩))
        have hsorted := hs.sorted
        rw [hr] at hsorted
        obtain ⟨so1, so2⟩ := List.pairwise_cons.1 hsorted
        have hnP : e.2 ∉ P := fun hcP => by
          have := hs.nodup
          rw [List.nodup_append] at this
          exact this.2.2 e.2 hcP e.2 (List.mem_map.2 ⟨_, hemem, rfl⟩) rfl
        obtain ⟨res, w1, w2⟩ := hs.write (c := e.2) (rest := rest) (by rw [he]; exact hemem)
          (by rw [he, hr]) so2 (.start hs.ord hin.1 hin.2 hnP hcl (by
            intro d hd hd' hdP
            have := ((hs.mem d).2 ⟨hd, hd'⟩).resolve_left hdP
            obtain ⟨e', e1, rfl⟩ := List.mem_map.1 this
            unfold Pref
            rw [← hk, ← hs.keys e' e1]
            rw [hr] at e1
            rcases List.mem_cons.1 e1 with rfl | e1
            · exact .inr ⟨rfl, le_refl _⟩
            · have := so1 e' e1
              unfold Lex at this
              omega))
        obtain ⟨adj, a1, a2, a3, a4, a5⟩ := adjacent_ok h hsq hin.1
        have hQ0 : Queue m P [] := ⟨by simp, by simp, by simp, fun l hl d hd => .inl (hcl _ (List.getElem_mem hl) d hd)⟩
        obtain ⟨P', s', d1, d2, d3, d4⟩ := drain_ok h hsq (rest.length * (m.columns + 1) + adj.length)
          ([] ++ adj.map fun e => (P.length, e.2)) _ (P ++ [e.2]) w2 (by simp) (hQ0.push a3 a4 a5)
        have eQ : ([] ++ adj.map fun e : Nat × Nat => (P.length, e.2)).map Prod.snd = adj.map Prod.snd := by simp
        rw [eQ] at d1
        simp only [w1, a1, d1, ok_bind]
        refine comps_ok h hsq fuel s' P' d2 ?_ d3
        have : s'.rows.length ≤ rest.length := d4
        rw [hr] at hf
        simp at hf
        omega

/-- the loop filling `Rows` -/
theorem fillRows_ok (h : Sparse.Inv m) : ∃ rs : List (Nat × Nat),
    (forRange 0 m.rows [] fun i rows => do
      let mc ← m.rowFilledCount i
      if mc > 0 then (return mmInsert mc i rows : R (List (Nat × Nat))) else return rows) = .ok rs ∧
    (rs.map Prod.snd).Perm ((List.range m.rows).filter fun i => decide (0 < deg m i)) ∧
    (∀ e ∈ rs, e.1 = deg m e.2) ∧ rs.Pairwise Lex := by
  have := sat_forRange (f := fun i (rows : List (Nat × Nat)) => do
      let mc ← m.rowFilledCount i
      if mc > 0 then (return mmInsert mc i rows : R (List (Nat × Nat))) else return rows) (E := noErr)
    (fun k (rs : List (Nat × Nat)) => (rs.map Prod.snd).Perm ((List.range k).filter fun i => decide (0 < deg m i)) ∧
      (∀ e ∈ rs, e.1 = deg m e.2) ∧ rs.Pairwise Lex) (Nat.zero_le m.rows) (s := []) (by simp) (by
      intro k rs _ hk ⟨h1, h2, h3⟩
      rw [rowFilledCount_ok h hk]
      simp only [ok_bind]
      by_cases hp : deg m k > 0
      · rw [if_pos hp]
        refine ⟨?_, ?_, mmInsert_sorted _ _ _ h3 fun e he => ?_⟩
        · refine ((mmInsert_perm _ _ _).map Prod.snd).trans ?_
          rw [List.range_succ, List.filter_append]
          simp only [List.map_cons, List.filter_cons, hp, decide_true, if_true, List.filter_nil]
          exact (List.Perm.cons k h1).trans (List.perm_append_comm (l₁ := [k]))
        · intro e he
          rcases List.mem_cons.1 ((mmInsert_perm _ _ _).mem_iff.1 he) with rfl | he
          · rfl
          · exact h2 e he
        · have := h1.mem_iff.1 (List.mem_map.2 ⟨e, he, rfl⟩)
          rw [List.mem_filter, List.mem_range] at this
          exact this.1
      · rw [if_neg hp]
        refine ⟨?_, h2, h3⟩
        rw [List.range_succ, List.filter_append]
        simpa [hp] using h1)
  exact this.ok_of

theorem cuthillMckee_ok (h : Sparse.Inv m) (hsq : m.rows = m.columns) : ∃ P, cuthillMckee m =
    .ok (P ++ List.replicate (m.rows - P.length) 0) ∧
    P.Perm ((List.range m.rows).filter fun i => decide (0 < deg m i)) ∧ CMOrder m P := by
  obtain ⟨rs, e1, e2, e3, e4⟩ := fillRows_ok h
  unfold cuthillMckee
  rw [throwIf_false _ (by simpa using hsq), Vec.mk_ok]
  simp only [ok_bind]
  have hs : St m [] ⟨List.replicate m.rows 0, 0, rs⟩ := ⟨by simp, rfl, by simpa using e2, e3, e4, .nil⟩
  have hl := hs.length
  obtain ⟨P', s', c1, c2, c3⟩ := comps_ok h hsq m.rows _ [] hs (by simpa using hl) (by simp)
  have hp := c2.perm
  rw [c3] at hp
  refine ⟨P', ?_, by simpa using hp, c2.ord⟩
  have e1' := e1
  simp only [pure_eq_ok] at e1' ⊢
  rw [e1']
  simp only [ok_bind]
  rw [c1]
  simp only [ok_bind, c2.res]
end Order
end NS

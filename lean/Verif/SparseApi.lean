/-
Reachability through the public API of the sparse matrix, and its invariant.
-/
import Verif.SparseHad

set_option linter.unusedSectionVars false
set_option linter.unusedSimpArgs false

namespace NS
namespace Sparse
variable {T : Type}

section
variable [Zero T] [DecidableEq T]

theorem Inv.set_inv {s s' : Sparse T} (h : Inv s) {i j : Nat} {v : T} (hs : s.set i j v = .ok s') :
    Inv s' ∧ s'.rows = s.rows ∧ s'.columns = s.columns := by
  by_cases hi : i < s.rows
  · by_cases hj : j < s.columns
    · obtain ⟨t, h1, h2, h3, h4, _⟩ := h.set_ok v hi hj
      rw [hs] at h1; cases h1; exact ⟨h2, h3, h4⟩
    · unfold set at hs
      rw [assert_true hi, assert_false hj] at hs
      simp at hs
  · unfold set at hs
    rw [assert_false hi] at hs
    simp at hs

theorem mk_ok_inv {d1 d2 : Nat} {s : Sparse T} (h : mk' d1 d2 = .ok s) : Inv s := by
  by_cases h1 : 0 < d1
  · by_cases h2 : 0 < d2
    · obtain ⟨t, g1, g2, _⟩ := mk_inv (T := T) h1 h2
      rw [h] at g1; cases g1; exact g2
    · unfold mk' at h
      rw [assert_true (show d1 > 0 from h1), assert_false (show ¬ d2 > 0 from h2)] at h
      simp at h
  · unfold mk' at h
    rw [assert_false (show ¬ d1 > 0 from h1)] at h
    simp at h

end

section
variable [CommRing T] [DecidableEq T]

theorem Inv.setIt_ok {s : Sparse T} (hs : Inv s) {it : SIt} (hw : Walked s it)
    (hv : s.itValid it = true) (v : T) :
    ∃ s' it', s.setIt it v = .ok (s', it') ∧ Inv s' ∧ s'.rows = s.rows ∧ s'.columns = s.columns ∧
      (∀ a b, s'.val a b = if a = it.i1 ∧ b = it.i2 then v else s.val a b) := by
  unfold setIt
  rw [if_pos hv]
  by_cases hz : v = 0
  · subst hz
    rw [if_pos rfl]
    exact hs.erase_ok hw hv
  · rw [if_neg hz]
    obtain ⟨rs, h1, h2, h3, h4⟩ := hs
    generalize hc : s.cols = c at *
    subst h1
    rcases hw.located h2 with h | ⟨P, A, p, B, S, rfl, rfl⟩
    · rw [h] at hv; cases hv
    have hrow := h2.mid
    have hr : RowOK c (A ++ (p.1, v) :: B) := by
      refine ⟨?_, ?_⟩
      · have := hrow.1
        rw [List.pairwise_append, List.pairwise_cons] at this ⊢
        refine ⟨this.1, ⟨this.2.1.1, this.2.1.2⟩, ?_⟩
        intro a ha b hb
        rcases List.mem_cons.1 hb with rfl | hb
        · exact this.2.2 a ha p (by simp)
        · exact this.2.2 a ha b (by simp [hb])
      · intro q hq
        simp only [List.mem_append, List.mem_cons] at hq
        rcases hq with hq | rfl | hq
        · exact hrow.2 q (by simp [hq])
        · exact ⟨(hrow.2 p (by simp)).1, hz⟩
        · exact hrow.2 q (by simp [hq])
    have h2' : RowsOK c (P ++ (A ++ (p.1, v) :: B) :: S) := h2.replace hr
    have hset : setIdx (pack c (P ++ (A ++ p :: B) :: S)).values (P.flatten.length + A.length) v
      = .ok ((pack c (P ++ (A ++ p :: B) :: S)).values.set (P.flatten.length + A.length) v) := by
      apply setIdx_eq
      rw [pack_values, List.length_map]
      simp only [List.flatten_append, List.flatten_cons, List.length_append, List.length_cons]
      omega
    refine ⟨pack c (P ++ (A ++ (p.1, v) :: B) :: S), ⟨P.length, p.1, P.flatten.length + A.length⟩, ?_,
      ⟨_, rfl, h2', by simp, h4⟩, by simp, rfl, ?_⟩
    · simp only [hset, ok_bind, pure_eq_ok]
      congr 2
      exact set_values_pack c P A p v B S
    · intro a b
      rw [val_pack' h2', val_pack' h2, ent_replace P (A ++ p :: B) (A ++ (p.1, v) :: B) S]
      by_cases ha : a = P.length
      · subst ha
        simp only [if_true, true_and, ent_mid]
        by_cases hb : b = p.1
        · subst hb
          rw [if_pos rfl]
          exact ((lookup_mem hr).1 (by simp : (p.1, v) ∈ _)).1
        · rw [if_neg hb]
          have l1 := lookup_remove hr b
          have l2 := lookup_remove hrow b
          simp only [hb, if_false] at l1 l2
          rw [← l1, l2]
      · simp [ha]
end

section
variable [CommRing T] [DecidableEq T]

theorem addSub_inv (op : T → T → T) {s t u : Sparse T} (hs : Inv s) (ht : Inv t)
    (h : (do
      let l ← t.entries
      forList l s fun e s => do
        let a ← s.at' e.1 e.2.1
        s.set e.1 e.2.1 (op a e.2.2)) = .ok u) :
    Inv u ∧ u.rows = s.rows ∧ u.columns = s.columns := by
  obtain ⟨l, hl, -, -⟩ := ht.entries'
  rw [hl] at h
  simp only [ok_bind] at h
  have := sat_forList (E := fun _ => True)
    (f := fun e s => do
        let a ← s.at' e.1 e.2.1
        s.set e.1 e.2.1 (op a e.2.2))
    (fun _ x => Inv x ∧ x.rows = s.rows ∧ x.columns = s.columns) l (s := s) ⟨hs, rfl, rfl⟩ (by
      intro pre a suf x _ hx
      rw [sat_iff]
      refine ⟨?_, fun _ _ => trivial⟩
      intro y hy
      cases ha : x.at' a.1 a.2.1 with
      | error e => rw [ha] at hy; cases hy
      | ok w =>
        rw [ha] at hy
        simp only [ok_bind] at hy
        obtain ⟨h1, h2, h3⟩ := hx.1.set_inv hy
        exact ⟨h1, h2.trans hx.2.1, h3.trans hx.2.2⟩)
  rw [h] at this
  exact this

/-- Sparse matrices a program can obtain through the public interface: constructors, `set`,
`linear_set`, `set`/`erase` through walked iterators, the arithmetic operators (except the Hadamard
product, see C08), `transpose`, `conjugate`, `adjugate` and `mul`. -/
inductive Reach : Sparse T → Prop
  | mk {d1 d2 s} : mk' d1 d2 = .ok s → Reach s
  | lists {l s} : ofLists l = .ok s → Reach s
  | set {s i j v s'} : Reach s → s.set i j v = .ok s' → Reach s'
  | linearSet {s k v s'} : Reach s → s.linearSet k v = .ok s' → Reach s'
  | erase {s it s' it'} : Reach s → Walked s it → s.erase it = .ok (s', it') → Reach s'
  | setIt {s it v s' it'} : Reach s → Walked s it → s.setIt it v = .ok (s', it') → Reach s'
  | addAssign {s t u} : Reach s → Reach t → s.addAssign t = .ok u → Reach u
  | subAssign {s t u} : Reach s → Reach t → s.subAssign t = .ok u → Reach u
  | scaleAssign {s f u} : Reach s → s.scaleAssign f = .ok u → Reach u
  | transpose {s u} : Reach s → s.transpose = .ok u → Reach u
  | conjugate {s u} {cj : T → T} : cj 0 = 0 → Reach s → s.conjugate cj = .ok u → Reach u
  | adjugate {s u} {cj : T → T} : cj 0 = 0 → Reach s → s.adjugate cj = .ok u → Reach u
  | mul {s t u} : Reach s → Reach t → s.mul t = .ok u → Reach u

theorem Reach.inv [NoZeroDivisors T] {s : Sparse T} (h : Reach s) : Inv s := by
  induction h with
  | mk h => exact mk_ok_inv h
  | @lists l s h =>
    have hl : ∃ v ∈ l, v ≠ [] := by
      by_contra hne
      simp only [not_exists, not_and, not_not] at hne
      unfold ofLists at h
      split at h
      · cases h
      · have h0 : (l.map List.length).foldr Max.max 0 = 0 := by
          clear h
          induction l with
          | nil => rfl
          | cons x l ih =>
            simp only [List.map_cons, List.foldr_cons]
            rw [hne x (by simp)]
            by_cases hl : l = []
            · subst hl; rfl
            · rw [ih (fun v hv => hne v (by simp [hv])) hl]; rfl
        rw [h0] at h
        cases hm : (mk' l.length 0 : R (Sparse T)) with
        | error e => rw [hm] at h; cases h
        | ok z =>
          have := (mk_ok_inv hm).cols_pos
          unfold mk' at hm
          cases ha : assert (l.length > 0) with
          | error e => rw [ha] at hm; cases hm
          | ok _ => rw [ha] at hm; simp at hm
    obtain ⟨t, g1, g2, _⟩ := ofLists_ok l hl
    rw [h] at g1; cases g1; exact g2
  | set _ h ih => exact (ih.set_inv h).1
  | @linearSet s k v s' _ h ih =>
    unfold Sparse.linearSet at h
    by_cases hk : k < s.size
    · rw [assert_true hk] at h
      exact (ih.set_inv h).1
    · rw [assert_false hk] at h; cases h
  | @erase s it s' it' _ hw h ih =>
    by_cases hv : s.itValid it = true
    · obtain ⟨a, b, g1, g2, _⟩ := ih.erase_ok hw hv
      rw [h] at g1; cases g1; exact g2
    · unfold Sparse.erase at h
      rw [if_neg hv] at h; cases h; exact ih
  | @setIt s it v s' it' _ hw h ih =>
    by_cases hv : s.itValid it = true
    · obtain ⟨a, b, g1, g2, _⟩ := ih.setIt_ok hw hv v
      rw [h] at g1; cases g1; exact g2
    · unfold Sparse.setIt at h
      rw [if_neg hv] at h; cases h; exact ih
  | addAssign _ _ h ih1 ih2 => exact (addSub_inv (· + ·) ih1 ih2 h).1
  | subAssign _ _ h ih1 ih2 => exact (addSub_inv (· - ·) ih1 ih2 h).1
  | scaleAssign _ h ih =>
    obtain ⟨u, g1, g2, _⟩ := ih.scale_ok _
    rw [h] at g1; cases g1; exact g2
  | transpose _ h ih =>
    obtain ⟨u, g1, g2, _⟩ := ih.transpose_ok
    rw [h] at g1; cases g1; exact g2
  | conjugate h0 _ h ih =>
    obtain ⟨u, g1, g2, _⟩ := ih.conjugate_ok _ h0
    rw [h] at g1; cases g1; exact g2
  | adjugate h0 _ h ih =>
    obtain ⟨u, g1, g2, _⟩ := ih.adjugate_ok _ h0
    rw [h] at g1; cases g1; exact g2
  | @mul s t u _ _ h ih1 ih2 =>
    by_cases hd : s.columns = t.rows
    · obtain ⟨u, g1, g2, _⟩ := ih1.mul_ok ih2 hd
      rw [h] at g1; cases g1; exact g2
    · unfold Sparse.mul at h
      rw [throwIf_true _ hd] at h; cases h

end
end Sparse
end NS

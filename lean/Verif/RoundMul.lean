/-
Rounding errors of the matrix-matrix products and of `mul_left`; lemmas for `Verif/Props/RoundMul.lean` (C75).
-/
import Verif.RoundOps
import Verif.Mat

set_option linter.unusedSectionVars false
set_option linter.unusedSimpArgs false

namespace NS.Rounding
open NS

variable {F K : Type} [Zero F] [One F] [Add F] [Sub F] [Mul F] [Div F] [Field K] [LinearOrder K] [IsStrictOrderedRing K]
variable {fl : F → K} {u : K} [Neg F] [DecidableEq F]

/-- one row of stored entries times a column -/
theorem row_sum_round (h : Std fl u) {l : List (Nat × Nat × F)} {i n : Nat} {a : Nat → Nat → F} (b : Nat → F)
    (h2 : l.Pairwise (fun x y => x.2.1 < y.2.1)) (h3 : ∀ e, e ∈ l ↔ e.1 = i ∧ e.2.2 = a e.1 e.2.1 ∧ e.2.2 ≠ 0)
    (h4 : ∀ e ∈ l, e.2.1 < n) :
    ∃ t : Nat → K, (∀ j, Th u (rowCount a i n) (t j)) ∧
      fl (l.foldl (fun s e => s + e.2.2 * b e.2.1) 0) = ∑ j ∈ Finset.range n, fl (a i j) * fl (b j) * t j := by
  have hpw : l.Pairwise (fun x y => x.2.1 ≠ y.2.1) := h2.imp Nat.ne_of_lt
  obtain ⟨t, t1, t2⟩ := h.sumFold_zero (fun e => e.2.1) (fun e : Nat × Nat × F => e.2.2 * b e.2.1) l hpw
  choose d d1 d2 using fun j : Nat => h.mul_th (a i j) (b j)
  have hv : ∀ e ∈ l, e.2.2 = a i e.2.1 := fun e he => by
    obtain ⟨x, y, -⟩ := (h3 e).1 he
    rw [y, x]
  have hlen : l.length ≤ rowCount a i n := by
    refine length_le_of_keys hpw fun e he => ?_
    rw [Finset.mem_filter, Finset.mem_range]
    exact ⟨h4 e he, by rw [← hv e he]; exact ((h3 e).1 he).2.2⟩
  have hin : ∀ j, a i j ≠ 0 → (i, j, a i j) ∈ l := fun j hj => (h3 _).2 ⟨rfl, rfl, hj⟩
  have hfl : ∀ e ∈ l, fl (e.2.2 * b e.2.1) * t e.2.1 = fl (a i e.2.1) * fl (b e.2.1) * (d e.2.1 * t e.2.1) := by
    intro e he
    rw [hv e he, d2]; ring
  have hsum := filter_sum (l := l) (i := i) (n := n) (a := a i) (K := K) hpw
    (fun e he => ⟨((h3 e).1 he).1, h4 e he, hv e he⟩) (fun j _ hne => hin j hne)
    (fun _ => true) (fun j => fl (a i j) * fl (b j) * (d j * t j)) (fun j hj => by rw [hj, h.zero]; ring)
  simp only [if_true, List.filter_true] at hsum
  rcases Nat.eq_zero_or_pos l.length with h0 | h0
  · have hnil : l = [] := List.length_eq_zero_iff.1 h0
    have hz : ∀ j, a i j = 0 := by
      intro j
      by_contra hne
      have := hin j hne
      rw [hnil] at this
      exact absurd this (by simp)
    refine ⟨fun _ => 1, fun _ => h.th_one, ?_⟩
    rw [hnil, List.foldl_nil, h.zero, Finset.sum_eq_zero]
    intro j _
    rw [hz j, h.zero]; ring
  · refine ⟨fun j => d j * t j, fun j => ?_, ?_⟩
    · exact h.th_mono ((d1 j).mul h.u_lt (t1 j)) (by omega)
    · rw [t2, List.map_congr_left hfl, hsum]

/-- filling a new sparse matrix entry by entry -/
theorem sparse_fill_ok {r c : Nat} (hr : 0 < r) (hc : 0 < c) (f : Nat → Nat → F) (body : Nat → Nat → Sparse F → R (Sparse F))
    (hb : ∀ i j t, i < r → j < c → body i j t = t.set i j (f i j)) :
    ∃ d, ((Sparse.mk' r c : R (Sparse F)) >>= fun tmp => forRange 0 r tmp fun i tmp => forRange 0 c tmp fun j tmp => body i j tmp)
        = .ok d ∧ Sparse.Inv d ∧ d.rows = r ∧ d.columns = c ∧ ∀ i j, i < r → j < c → d.val i j = f i j := by
  obtain ⟨z, z1, z2, z3, z4, _⟩ := Sparse.mk_inv (T := F) hr hc
  rw [z1]
  simp only [ok_bind]
  apply Sat.ok_of
  refine (sat_forRange (E := noErr) (fun i (t : Sparse F) => Sparse.Inv t ∧ t.rows = r ∧ t.columns = c ∧
      ∀ a b, a < i → b < c → t.val a b = f a b) (Nat.zero_le r) (s := z)
      ⟨z2, z3, z4, by intro a b h; omega⟩ ?_).mono (fun d hd => hd) (fun _ h => h)
  intro i t _ hi ht
  refine (sat_forRange (E := noErr) (fun j (t : Sparse F) => Sparse.Inv t ∧ t.rows = r ∧ t.columns = c ∧
      (∀ a b, a < i → b < c → t.val a b = f a b) ∧ ∀ b, b < j → t.val i b = f i b) (Nat.zero_le c) (s := t)
      ⟨ht.1, ht.2.1, ht.2.2.1, ht.2.2.2, by intro b h; omega⟩ ?_).mono ?_ (fun _ h => h)
  · rintro j t _ hj ⟨t1, t2, t3, t4, t5⟩
    rw [hb i j t hi hj]
    obtain ⟨w, u1, u2, u3, u4, u5⟩ := t1.set_ok (f i j) (by omega : i < t.rows) (by omega : j < t.columns)
    rw [u1]
    refine ⟨u2, by omega, by omega, ?_, ?_⟩
    · intro a b ha hb'
      rw [u5, if_neg (by omega)]; exact t4 a b ha hb'
    · intro b hb'
      rw [u5]
      by_cases hbj : b = j
      · subst hbj; simp
      · rw [if_neg (by omega)]; exact t5 b (by omega)
  · rintro t ⟨t1, t2, t3, t4, t5⟩
    refine ⟨t1, t2, t3, fun a b ha hb' => ?_⟩
    by_cases h : a = i
    · subst h; exact t5 b hb'
    · exact t4 a b (by omega) hb'

/-- `SparseMatrix::mul(SparseMatrix)` -/
theorem sparse_mul_round (h : Std fl u) {s m : Sparse F} (hs : Sparse.Inv s) (hm : Sparse.Inv m) (hd : s.columns = m.rows) :
    ∃ p, s.mul m = .ok p ∧ Sparse.Inv p ∧ p.rows = s.rows ∧ p.columns = m.columns ∧
      ∀ i k, i < s.rows → k < m.columns → ∃ t : Nat → K, (∀ j, Th u (rowCount s.val i s.columns) (t j)) ∧
        fl (p.val i k) = ∑ j ∈ Finset.range s.columns, fl (s.val i j) * fl (m.val j k) * t j := by
  have hex : ∀ i, ∃ l, i < s.rows → s.rowEntries i = .ok l ∧ l.Pairwise (fun a b => a.2.1 < b.2.1) ∧
      (∀ e, e ∈ l ↔ e.1 = i ∧ e.2.2 = s.val e.1 e.2.1 ∧ e.2.2 ≠ 0) ∧ (∀ e ∈ l, e.1 < s.rows ∧ e.2.1 < s.columns) := by
    intro i
    by_cases hi : i < s.rows
    · obtain ⟨l, hl⟩ := hs.rowEntries_ok hi
      exact ⟨l, fun _ => hl⟩
    · exact ⟨[], fun hh => absurd hh hi⟩
  choose L hL using hex
  have key : ∃ p, s.mul m = .ok p ∧ Sparse.Inv p ∧ p.rows = s.rows ∧ p.columns = m.columns ∧
      ∀ i k, i < s.rows → k < m.columns → p.val i k = (L i).foldl (fun s e => s + e.2.2 * m.val e.2.1 k) 0 := by
    unfold Sparse.mul
    rw [throwIf_false _ (by simpa using hd)]
    refine sparse_fill_ok hs.rows_pos hm.cols_pos (fun i k => (L i).foldl (fun s e => s + e.2.2 * m.val e.2.1 k) 0) _ ?_
    intro i k t hi hk
    obtain ⟨l1, -, -, l4⟩ := hL i hi
    rw [l1]
    simp only [ok_bind]
    rw [Sparse.forList_fold_ok (fun v e => v + e.2.2 * m.val e.2.1 k) (L i) 0]
    · rfl
    · intro e he v
      rw [hm.at_ok (by have := l4 e he; omega) hk]
      rfl
  obtain ⟨p, p1, p2, p3, p4, p5⟩ := key
  refine ⟨p, p1, p2, p3, p4, fun i k hi hk => ?_⟩
  rw [p5 i k hi hk]
  obtain ⟨-, l2, l3, l4⟩ := hL i hi
  exact row_sum_round h (fun j => m.val j k) l2 l3 (fun e he => (l4 e he).2)

/-- sum of products over `0 .. n-1` -/
theorem range_sum_round (h : Std fl u) (n : Nat) (hn : 0 < n) (a b : Nat → F) :
    ∃ t : Nat → K, (∀ j, Th u n (t j)) ∧
      fl ((List.range n).foldl (fun s j => s + a j * b j) 0) = ∑ j ∈ Finset.range n, fl (a j) * fl (b j) * t j := by
  obtain ⟨t, t1, t2⟩ := h.sumFold_zero id (fun j => a j * b j) (List.range n) (range_pairwise _)
  choose d d1 d2 using fun j : Nat => h.mul_th (a j) (b j)
  refine ⟨fun i => d i * t i, fun j => ?_, ?_⟩
  · have := (d1 j).mul h.u_lt (t1 j)
    rw [List.length_range] at this
    exact h.th_mono this (by omega)
  · rw [t2, sum_range_map]
    exact Finset.sum_congr rfl fun i _ => by rw [d2]; simp only [id]; ring

/-- `DenseMatrix::mul(DenseMatrix)` -/
theorem dense_mul_round (h : Std fl u) {a m : Dense F} (ha : Dense.WF a) (hm : Dense.WF m) (hd : a.columns = m.rows) :
    ∃ p, a.mul m = .ok p ∧ Dense.WF p ∧ p.rows = a.rows ∧ p.columns = m.columns ∧
      ∀ i k, i < a.rows → k < m.columns → ∃ t : Nat → K, (∀ j, Th u a.columns (t j)) ∧
        fl (p.val i k) = ∑ j ∈ Finset.range a.columns, fl (a.val i j) * fl (m.val j k) * t j := by
  have key : ∃ p, a.mul m = .ok p ∧ Dense.WF p ∧ p.rows = a.rows ∧ p.columns = m.columns ∧
      ∀ i k, i < a.rows → k < m.columns →
        p.val i k = (List.range a.columns).foldl (fun s j => s + a.val i j * m.val j k) 0 := by
    unfold Dense.mul
    rw [throwIf_false _ (by simpa using hd)]
    refine Dense.fill_ok ha.2.1 hm.2.2 (fun i k => (List.range a.columns).foldl (fun s j => s + a.val i j * m.val j k) 0) _ ?_
    intro i k t hi hk _ _ _
    rw [forRange_fold (g := fun j t => t + a.val i j * m.val j k) _ _ (fun j hj s => by
      rw [ha.at_ok hi hj, ok_bind, hm.at_ok (by omega) hk, ok_bind]; rfl)]
    rfl
  obtain ⟨p, p1, p2, p3, p4, p5⟩ := key
  refine ⟨p, p1, p2, p3, p4, fun i k hi hk => ?_⟩
  rw [p5 i k hi hk]
  exact range_sum_round h _ ha.2.2 (a.val i) (fun j => m.val j k)

/-- number of non-zero entries in column `j` -/
def colCount (a : Nat → Nat → F) (j n : Nat) : Nat := ((Finset.range n).filter (fun i => a i j ≠ 0)).card

/-- `SparseMatrix::mul_left(Vector)` -/
theorem sparse_mulLeft_round (h : Std fl u) {s : Sparse F} (hs : Sparse.Inv s) (v : List F) (hd : s.rows = v.length) :
    ∃ r, s.mulLeft v = .ok r ∧ r.length = s.columns ∧ ∀ j, j < s.columns → ∃ t : Nat → K,
      (∀ i, Th u (colCount s.val j s.rows) (t i)) ∧
      fl (r.getD j 0) = ∑ i ∈ Finset.range s.rows, fl (s.val i j) * fl (v.getD i 0) * t i := by
  obtain ⟨l, h1, -, h3, -, h5, h6, -⟩ := hs.entries_ok
  obtain ⟨r, r1, r2, r3⟩ := accumF l (fun e => e.2.1) (fun e => e.2.2 * v.getD e.1 0) s.columns
    (fun e r => do
      assert (e.2.1 < r.length)
      assert (e.1 < v.length)
      let a ← getIdx r e.2.1
      let b ← getIdx v e.1
      return r.set e.2.1 (a + e.2.2 * b)) (by
      intro e he r hr
      have := h6 e he
      rw [assert_true (by omega), assert_true (by omega)]
      simp only [ok_bind]
      rw [getIdx_eq (by omega), getIdx_eq (by omega)]
      simp only [ok_bind, pure_eq_ok]
      rw [List.getD_eq_getElem _ _ (by omega), List.getD_eq_getElem _ _ (by omega)])
    (fun e he => (h6 e he).2) (List.replicate s.columns 0) (by simp)
  refine ⟨r, ?_, r2, fun j hj => ?_⟩
  · unfold Sparse.mulLeft
    rw [throwIf_false _ (by simpa using hd), h1]
    simp only [ok_bind]
    exact r1
  rw [r3 j hj, List.getD_replicate _ hj]
  set li := l.filter (fun e => decide (e.2.1 = j)) with hli
  have hm : ∀ e ∈ li, e ∈ l ∧ e.2.1 = j := fun e he => by simpa [hli] using he
  have hlt : li.Pairwise (fun x y => x.1 < y.1) := by
    refine ((h3.sublist List.filter_sublist).imp_of_mem ?_)
    intro a b ha hb hab
    have ha := (hm a ha).2
    have hb := (hm b hb).2
    rcases hab with hab | ⟨-, hab⟩
    · exact hab
    · omega
  -- swap rows and columns
  have hsw : li.foldl (fun s e => s + e.2.2 * v.getD e.1 0) 0
      = (li.map fun e => (e.2.1, e.1, e.2.2)).foldl (fun s e => s + e.2.2 * v.getD e.2.1 0) 0 := by
    rw [List.foldl_map]
  rw [hsw]
  refine row_sum_round h (l := li.map fun e => (e.2.1, e.1, e.2.2)) (i := j) (n := s.rows) (a := fun j i => s.val i j)
    (fun i => v.getD i 0) ?_ ?_ ?_
  · rw [List.pairwise_map]; exact hlt
  · rintro ⟨x, y, w⟩
    simp only [List.mem_map, Prod.mk.injEq, Prod.exists]
    constructor
    · rintro ⟨a, b, c, hmem, rfl, rfl, rfl⟩
      obtain ⟨q1, q2⟩ := hm _ hmem
      exact ⟨q2, (h5 _).1 q1⟩
    · rintro ⟨rfl, q1, q2⟩
      refine ⟨y, x, w, ?_, rfl, rfl, rfl⟩
      rw [hli, List.mem_filter]
      exact ⟨(h5 _).2 ⟨q1, q2⟩, by simp⟩
  · intro e he
    obtain ⟨e', he', rfl⟩ := List.mem_map.1 he
    exact (h6 e' (hm e' he').1).1

/-- `DenseMatrix::mul_left(Vector)` -/
theorem dense_mulLeft_round (h : Std fl u) {a : Dense F} (ha : Dense.WF a) (v : List F) (hd : a.rows = v.length) :
    ∃ r, a.mulLeft v = .ok r ∧ r.length = a.columns ∧ ∀ j, j < a.columns → ∃ t : Nat → K,
      (∀ i, Th u a.rows (t i)) ∧
      fl (r.getD j 0) = ∑ i ∈ Finset.range a.rows, fl (a.val i j) * fl (v.getD i 0) * t i := by
  have key : ∃ r, a.mulLeft v = .ok r ∧ r.length = a.columns ∧ ∀ j, j < a.columns →
      r.getD j 0 = (List.range a.rows).foldl (fun s i => s + a.val i j * v.getD i 0) 0 := by
    unfold Dense.mulLeft
    rw [throwIf_false _ (by simpa using hd)]
    apply Sat.ok_of
    refine (sat_forRange (fun k (r : List F) => r.length = a.columns ∧ ∀ j, j < k →
      r.getD j 0 = (List.range a.rows).foldl (fun s i => s + a.val i j * v.getD i 0) 0) (Nat.zero_le _)
      ⟨by simp, fun i hi => by omega⟩ ?_)
    rintro j r - hj ⟨r1, r2⟩
    rw [forRange_fold (g := fun i t => t + a.val i j * v.getD i 0) _ _ (fun i hi s => by
      rw [ha.at_ok hi hj, ok_bind, vecAt_get (by omega), ok_bind]; rfl)]
    simp only [ok_bind]
    rw [vecSet_set _ (by omega)]
    refine ⟨by simpa using r1, fun k hk => ?_⟩
    rw [getD_set _ _ _ _ (by omega)]
    by_cases hki : k = j
    · rw [if_pos hki, hki]
    · rw [if_neg hki]; exact r2 k (by omega)
  obtain ⟨r, r1, r2, r3⟩ := key
  refine ⟨r, r1, r2, fun j hj => ?_⟩
  rw [r3 j hj]
  exact range_sum_round h _ ha.2.1 (fun i => a.val i j) (fun i => v.getD i 0)

end NS.Rounding

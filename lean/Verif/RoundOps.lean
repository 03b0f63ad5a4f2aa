/-
Loops of the vector and matrix operations in an arithmetic with rounding (`Verif/Rounding.lean`): inner products, matrix-vector
products, triangular solves.
-/
import Verif.Rounding
import Verif.LUSolve

set_option linter.unusedSectionVars false
set_option linter.unusedSimpArgs false

namespace NS.Rounding
open NS NS.MatOps NS.LawfulStore

variable {F K : Type} [Zero F] [One F] [Add F] [Sub F] [Mul F] [Div F] [Field K] [LinearOrder K] [IsStrictOrderedRing K]
variable {fl : F → K} {u : K}

theorem forRange_fold {σ : Type} {f : Nat → σ → R σ} {g : Nat → σ → σ} (n : Nat) (s : σ)
    (h : ∀ i < n, ∀ s, f i s = .ok (g i s)) : forRange 0 n s f = .ok ((List.range n).foldl (fun s i => g i s) s) := by
  induction n with
  | zero => rfl
  | succ n ih =>
    have hs : forRange 0 (n + 1) s f = forRange 0 n s f >>= fun s' => f n s' := by
      clear ih h
      have key : ∀ (n k : Nat) (s : σ), forAux f (n + 1) k s = forAux f n k s >>= fun s' => f (k + n) s' := by
        intro n
        induction n with
        | zero =>
          intro k s
          simp only [forAux, Nat.add_zero, ok_bind]
          cases f k s <;> rfl
        | succ n ih =>
          intro k s
          rw [forAux]
          conv_rhs => rw [forAux]
          cases hk : f k s with
          | error e => rfl
          | ok s' =>
            simp only [ok_bind]
            rw [ih]
            congr 1
            funext s''
            congr 1
            omega
      have := key n 0 s
      simpa [forRange] using this
    rw [hs, ih (fun i hi => h i (by omega)), ok_bind, h n (Nat.lt_succ_self n), List.range_succ, List.foldl_append]
    rfl

theorem range_pairwise (n : Nat) : (List.range n).Pairwise (fun a b => a ≠ b) :=
  List.pairwise_lt_range.imp Nat.ne_of_lt

theorem sum_range_map (n : Nat) (g : Nat → K) : ((List.range n).map g).sum = ∑ i ∈ Finset.range n, g i := by
  induction n with
  | zero => rfl
  | succ n ih => rw [List.range_succ, List.map_append, List.sum_append, ih, Finset.sum_range_succ]; simp

/-- `dot` -/
theorem dot_round (h : Std fl u) {v w : List F} (hl : v.length = w.length) :
    ∃ (d : F) (t : Nat → K), Vec.dot v w = .ok d ∧ (∀ j, Th u v.length (t j)) ∧
      fl d = ∑ i ∈ Finset.range v.length, fl (v.getD i 0) * fl (w.getD i 0) * t i := by
  have hx : Vec.dot v w = .ok ((List.range v.length).foldl (fun s i => s + v.getD i 0 * w.getD i 0) 0) := by
    unfold Vec.dot
    rw [throwIf_false _ (by simpa using hl), ok_bind]
    refine forRange_fold (g := fun i s => s + v.getD i 0 * w.getD i 0) _ _ fun i hi s => ?_
    rw [vecAt_get hi, ok_bind, vecAt_get (by omega), ok_bind]; rfl
  obtain ⟨t, t1, t2⟩ := h.sumFold_zero id (fun i => v.getD i 0 * w.getD i 0) (List.range v.length) (range_pairwise _)
  choose d d1 d2 using fun i : Nat => h.mul_th (v.getD i 0) (w.getD i 0)
  by_cases hv : v.length = 0
  · refine ⟨_, fun _ => 1, hx, fun _ => h.th_one, ?_⟩
    rw [hv]; simp [h.zero]
  refine ⟨_, fun i => d i * t i, hx, fun j => ?_, ?_⟩
  · have := (d1 j).mul h.u_lt (t1 j)
    rw [List.length_range] at this
    exact h.th_mono this (by omega)
  · rw [t2, sum_range_map]
    exact Finset.sum_congr rfl fun i _ => by rw [d2]; simp only [id]; ring

/-- `sum` -/
theorem sum_round (h : Std fl u) (v : List F) :
    ∃ (d : F) (t : Nat → K), Vec.sum v = .ok d ∧ (∀ j, Th u (v.length - 1) (t j)) ∧
      fl d = ∑ i ∈ Finset.range v.length, fl (v.getD i 0) * t i := by
  have hx : Vec.sum v = .ok ((List.range v.length).foldl (fun s i => s + v.getD i 0) 0) := by
    unfold Vec.sum
    refine forRange_fold (g := fun i s => s + v.getD i 0) _ _ fun i hi s => ?_
    rw [getIdx_eq hi, ok_bind, List.getD_eq_getElem _ _ hi]; rfl
  obtain ⟨t, t1, t2⟩ := h.sumFold_zero id (fun i => v.getD i 0) (List.range v.length) (range_pairwise _)
  rw [List.length_range] at t1
  exact ⟨_, t, hx, t1, by rw [t2, sum_range_map]; rfl⟩

/-- accumulation `r[key] += w` over a list -/
theorem accumF {α : Type} (l : List α) (key : α → Nat) (w : α → F) (n : Nat) (f : α → List F → R (List F))
    (hf : ∀ e ∈ l, ∀ r : List F, r.length = n → f e r = .ok (r.set (key e) (r.getD (key e) 0 + w e)))
    (hk : ∀ e ∈ l, key e < n) (r0 : List F) (hr0 : r0.length = n) :
    ∃ r, forList l r0 f = .ok r ∧ r.length = n ∧
      ∀ i, i < n → r.getD i 0 = (l.filter (fun e => decide (key e = i))).foldl (fun s e => s + w e) (r0.getD i 0) := by
  induction l generalizing r0 with
  | nil => exact ⟨r0, rfl, hr0, by simp⟩
  | cons e l ih =>
    obtain ⟨r, h1, h2, h3⟩ := ih (fun e he => hf e (by simp [he])) (fun e he => hk e (by simp [he]))
      (r0.set (key e) (r0.getD (key e) 0 + w e)) (by simpa using hr0)
    refine ⟨r, by simp only [forList, hf e (by simp) r0 hr0, ok_bind, h1], h2, ?_⟩
    intro i hi
    rw [h3 i hi, getD_set _ _ _ _ (by rw [hr0]; exact hk e (by simp))]
    by_cases h : i = key e
    · subst h; simp
    · rw [if_neg h, List.filter_cons_of_neg (by simpa using fun hh : key e = i => h hh.symm)]

/-- sums over the stored entries of one row, `g` vanishing where the entry is zero -/
theorem filter_sum {l : List (Nat × Nat × F)} {i n : Nat} {a : Nat → F} (h2 : l.Pairwise (fun x y => x.2.1 ≠ y.2.1))
    (h3 : ∀ e ∈ l, e.1 = i ∧ e.2.1 < n ∧ e.2.2 = a e.2.1) (h4 : ∀ j, j < n → a j ≠ 0 → (i, j, a j) ∈ l)
    (p : Nat → Bool) (g : Nat → K) (hg : ∀ j, a j = 0 → g j = 0) :
    ((l.filter (fun e => p e.2.1)).map (fun e => g e.2.1)).sum = ∑ j ∈ Finset.range n, if p j then g j else 0 := by
  have hnd : (l.map (fun e => e.2.1)).Nodup := by
    rw [List.Nodup, List.pairwise_map]; exact h2
  have e1 : (l.filter (fun e => p e.2.1)).map (fun e => g e.2.1) = ((l.map (fun e => e.2.1)).filter p).map g := by
    rw [List.filter_map, List.map_map]; rfl
  rw [e1, ← List.sum_toFinset _ (hnd.filter _), ← Finset.sum_filter]
  apply Finset.sum_subset
  · intro j hj
    simp only [List.mem_toFinset, List.mem_filter, List.mem_map] at hj
    obtain ⟨⟨e, he, rfl⟩, hp⟩ := hj
    exact Finset.mem_filter.2 ⟨Finset.mem_range.2 (h3 e he).2.1, hp⟩
  · intro j hj hnj
    obtain ⟨hj1, hj2⟩ := Finset.mem_filter.1 hj
    by_contra hne
    apply hnj
    have := h4 j (Finset.mem_range.1 hj1) (fun h0 => hne (hg j h0))
    simp only [List.mem_toFinset, List.mem_filter, List.mem_map]
    exact ⟨⟨_, this, rfl⟩, hj2⟩

/-- distinct keys below `n` -/
theorem length_le_of_keys {l : List (Nat × Nat × F)} {S : Finset Nat} (h2 : l.Pairwise (fun x y => x.2.1 ≠ y.2.1))
    (h3 : ∀ e ∈ l, e.2.1 ∈ S) : l.length ≤ S.card := by
  have hnd : (l.map (fun e => e.2.1)).Nodup := by
    rw [List.Nodup, List.pairwise_map]; exact h2
  rw [← List.length_map (fun e : Nat × Nat × F => e.2.1), ← List.toFinset_card_of_nodup hnd]
  apply Finset.card_le_card
  intro j hj
  simp only [List.mem_toFinset, List.mem_map] at hj
  obtain ⟨e, he, rfl⟩ := hj
  exact h3 e he

section matvec
variable [Neg F] [DecidableEq F]

/-- number of non-zero entries in row `i` -/
def rowCount (a : Nat → Nat → F) (i n : Nat) : Nat := ((Finset.range n).filter (fun j => a i j ≠ 0)).card

theorem rowCount_le (a : Nat → Nat → F) (i n : Nat) : rowCount a i n ≤ n :=
  (Finset.card_filter_le _ _).trans (by rw [Finset.card_range])

/-- `SparseMatrix::mul(Vector)` -/
theorem sparse_mulVec_round (h : Std fl u) {s : Sparse F} (hs : Sparse.Inv s) (v : List F) (hd : s.columns = v.length) :
    ∃ r, s.mulVec v = .ok r ∧ r.length = s.rows ∧ ∀ i, i < s.rows → ∃ t : Nat → K,
      (∀ j, Th u (rowCount s.val i s.columns) (t j)) ∧
      fl (r.getD i 0) = ∑ j ∈ Finset.range s.columns, fl (s.val i j) * fl (v.getD j 0) * t j := by
  obtain ⟨l, h1, -, h3, -, h5, h6, -⟩ := hs.entries_ok
  obtain ⟨r, r1, r2, r3⟩ := accumF l (fun e => e.1) (fun e => e.2.2 * v.getD e.2.1 0) s.rows
    (fun e r => do
      assert (e.1 < r.length)
      assert (e.2.1 < v.length)
      let a ← getIdx r e.1
      let b ← getIdx v e.2.1
      return r.set e.1 (a + e.2.2 * b)) (by
      intro e he r hr
      have := h6 e he
      rw [assert_true (by omega), assert_true (by omega)]
      simp only [ok_bind]
      rw [getIdx_eq (by omega), getIdx_eq (by omega)]
      simp only [ok_bind, pure_eq_ok]
      rw [List.getD_eq_getElem _ _ (by omega), List.getD_eq_getElem _ _ (by omega)])
    (fun e he => (h6 e he).1) (List.replicate s.rows 0) (by simp)
  refine ⟨r, ?_, r2, fun i hi => ?_⟩
  · unfold Sparse.mulVec
    rw [throwIf_false _ (by simpa using hd), h1]
    simp only [ok_bind]
    exact r1
  rw [r3 i hi, List.getD_replicate _ hi]
  set li := l.filter (fun e => decide (e.1 = i)) with hli
  have hm : ∀ e ∈ li, e ∈ l ∧ e.1 = i := fun e he => by simpa [hli] using he
  have hpw : li.Pairwise (fun x y => x.2.1 ≠ y.2.1) := by
    refine ((h3.sublist List.filter_sublist).imp_of_mem ?_)
    intro a b ha hb hab
    have ha := (hm a ha).2
    have hb := (hm b hb).2
    rcases hab with hab | ⟨-, hab⟩
    · omega
    · exact Nat.ne_of_lt hab
  obtain ⟨t, t1, t2⟩ := h.sumFold_zero (fun e => e.2.1) (fun e : Nat × Nat × F => e.2.2 * v.getD e.2.1 0) li hpw
  choose d d1 d2 using fun j : Nat => h.mul_th (s.val i j) (v.getD j 0)
  have hlen : li.length ≤ rowCount s.val i s.columns := by
    refine length_le_of_keys hpw fun e he => ?_
    have h7 := (h5 e).1 (hm e he).1
    rw [Finset.mem_filter, Finset.mem_range]
    refine ⟨(h6 e (hm e he).1).2, ?_⟩
    rw [← (hm e he).2, ← h7.1]; exact h7.2
  have hfl : ∀ e ∈ li, fl (e.2.2 * v.getD e.2.1 0) * t e.2.1 = fl (s.val i e.2.1) * fl (v.getD e.2.1 0) * (d e.2.1 * t e.2.1) := by
    intro e he
    have h7 := (h5 e).1 (hm e he).1
    rw [h7.1, (hm e he).2, d2]; ring
  have hsum := filter_sum (l := li) (i := i) (n := s.columns) (a := s.val i) (K := K) hpw
    (fun e he => ⟨(hm e he).2, (h6 e (hm e he).1).2, by rw [((h5 e).1 (hm e he).1).1, (hm e he).2]⟩)
    (fun j _ hne => by simpa [hli] using (h5 (i, j, s.val i j)).2 ⟨rfl, hne⟩)
    (fun _ => true) (fun j => fl (s.val i j) * fl (v.getD j 0) * (d j * t j))
    (fun j hj => by rw [hj, h.zero]; ring)
  simp only [if_true, List.filter_true] at hsum
  rcases Nat.eq_zero_or_pos li.length with h0 | h0
  · have hnil : li = [] := List.length_eq_zero_iff.1 h0
    have hz : ∀ j, j < s.columns → s.val i j = 0 := by
      intro j hj
      by_contra hne
      have : (i, j, s.val i j) ∈ li := by simpa [hli] using (h5 (i, j, s.val i j)).2 ⟨rfl, hne⟩
      rw [hnil] at this
      exact absurd this (by simp)
    refine ⟨fun _ => 1, fun _ => h.th_one, ?_⟩
    rw [hnil, List.foldl_nil, h.zero, Finset.sum_eq_zero]
    intro j hj
    rw [hz j (Finset.mem_range.1 hj), h.zero]; ring
  · refine ⟨fun j => d j * t j, fun j => ?_, ?_⟩
    · exact h.th_mono ((d1 j).mul h.u_lt (t1 j)) (by omega)
    · rw [t2, List.map_congr_left hfl, hsum]

/-- `DenseMatrix::mul(Vector)` as folds over the rows -/
theorem dense_mulVec_fold {a : Dense F} (ha : Dense.WF a) (v : List F) (hd : a.columns = v.length) :
    ∃ r, a.mulVec v = .ok r ∧ r.length = a.rows ∧ ∀ i, i < a.rows →
      r.getD i 0 = (List.range a.columns).foldl (fun s j => s + a.val i j * v.getD j 0) 0 := by
  have hc := ha.2.2
  unfold Dense.mulVec
  rw [throwIf_false _ (by simpa using hd)]
  apply Sat.ok_of
  refine (sat_forRange (fun k (r : List F) => r.length = a.rows ∧ ∀ i, i < k →
    r.getD i 0 = (List.range a.columns).foldl (fun s j => s + a.val i j * v.getD j 0) 0) (Nat.zero_le _)
    ⟨by simp, fun i hi => by omega⟩ ?_)
  rintro i r - hi ⟨r1, r2⟩
  rw [forRange_fold (g := fun j t => t + a.val i j * v.getD j 0) _ _ (fun j hj s => by
    rw [ha.at_ok hi hj, ok_bind, vecAt_get (by omega), ok_bind]; rfl)]
  simp only [ok_bind]
  rw [vecSet_set _ (by omega)]
  refine ⟨by simpa using r1, fun k hk => ?_⟩
  rw [getD_set _ _ _ _ (by omega)]
  by_cases hki : k = i
  · rw [if_pos hki, hki]
  · rw [if_neg hki]; exact r2 k (by omega)

/-- `DenseMatrix::mul(Vector)` -/
theorem dense_mulVec_round (h : Std fl u) {a : Dense F} (ha : Dense.WF a) (v : List F) (hd : a.columns = v.length) :
    ∃ r, a.mulVec v = .ok r ∧ r.length = a.rows ∧ ∀ i, i < a.rows → ∃ t : Nat → K,
      (∀ j, Th u a.columns (t j)) ∧
      fl (r.getD i 0) = ∑ j ∈ Finset.range a.columns, fl (a.val i j) * fl (v.getD j 0) * t j := by
  have hc := ha.2.2
  have key := dense_mulVec_fold ha v hd
  obtain ⟨r, r1, r2, r3⟩ := key
  refine ⟨r, r1, r2, fun i hi => ?_⟩
  rw [r3 i hi]
  obtain ⟨t, t1, t2⟩ := h.sumFold_zero id (fun j => a.val i j * v.getD j 0) (List.range a.columns) (range_pairwise _)
  choose d d1 d2 using fun j : Nat => h.mul_th (a.val i j) (v.getD j 0)
  refine ⟨fun i => d i * t i, fun j => ?_, ?_⟩
  · have := (d1 j).mul h.u_lt (t1 j)
    rw [List.length_range] at this
    exact h.th_mono this (by omega)
  · rw [t2, sum_range_map]
    exact Finset.sum_congr rfl fun i _ => by rw [d2]; simp only [id]; ring
end matvec

/-! ## Triangular solves -/
section solve
variable {M V : Type} [MatOps M F] [LawfulStore M F] [LinearOrder V] {n : Nat}

/-- `for e in l: x[i] -= e.value * x[e.column]` -/
theorem subRowF (i : Nat) : ∀ (l : List (Nat × Nat × F)) (x : List F), i < x.length →
    (∀ e ∈ l, e.2.1 < x.length ∧ e.2.1 ≠ i) →
    forList l x (fun e x => do
      let xi ← vecAt x i
      let xc ← vecAt x e.2.1
      vecSet x i (xi - e.2.2 * xc))
    = .ok (x.set i (l.foldl (fun s e => s - e.2.2 * x.getD e.2.1 0) (x.getD i 0)))
  | [], x, hi, _ => by
      simp only [forList, List.foldl_nil]
      congr 1
      apply List.ext_getElem?
      intro k
      rw [List.getElem?_set]
      by_cases hk : i = k
      · subst hk; simp [hi]
      · simp [hk]
  | e :: l, x, hi, h => by
      obtain ⟨h1, h2⟩ := h e (by simp)
      simp only [forList, vecAt_get hi, vecAt_get h1, ok_bind, vecSet_set _ hi]
      rw [subRowF i l _ (by simpa using hi) (fun e' he' => by simpa using h e' (by simp [he']))]
      rw [List.set_set]
      congr 2
      rw [getD_set _ _ _ _ hi, if_pos rfl, List.foldl_cons]
      apply List.foldl_ext
      intro s e' he'
      rw [getD_set _ _ _ _ hi, if_neg (h e' (by simp [he'])).2]

/-- one row of a triangular solve: the start value is recovered from the result and the entries used -/
theorem row_round (h : Std fl u) {m : M} (_hm : Sq n m) {i : Nat} (_hi : i < n) (p : Nat → Bool) (hp : p i = false)
    {l : List (Nat × Nat × F)} (l2 : l.Pairwise (fun a b => a.2.1 < b.2.1))
    (l3 : ∀ e ∈ l, e.1 = i ∧ e.2.1 < n ∧ e.2.2 = val m i e.2.1) (l4 : ∀ j, j < n → val m i j ≠ 0 → (i, j, val m i j) ∈ l)
    (x : List F) {N : Nat} (hN : ((Finset.range n).filter (fun j => p j = true)).card ≤ N) (hd : fl (val m i i) ≠ 0) :
    ∃ t : Nat → K, (∀ j, Th u (N + 1) (t j)) ∧
      fl (x.getD i 0) = fl (val m i i) * t i *
          fl ((l.filter (fun e => p e.2.1)).foldl (fun s e => s - e.2.2 * x.getD e.2.1 0) (x.getD i 0) / val m i i)
        + ∑ j ∈ Finset.range n, if p j then fl (val m i j) * t j * fl (x.getD j 0) else 0 := by
  have hpw : l.Pairwise (fun a b => a.2.1 ≠ b.2.1) := l2.imp Nat.ne_of_lt
  set lf := l.filter (fun e => p e.2.1) with hlf
  have hm' : ∀ e ∈ lf, e ∈ l ∧ p e.2.1 = true := fun e he => by simpa [hlf] using he
  have hpf : lf.Pairwise (fun a b => a.2.1 ≠ b.2.1) := hpw.sublist List.filter_sublist
  obtain ⟨t₀, t, t1, t2, t3⟩ := h.subFold (fun e => e.2.1) (fun e : Nat × Nat × F => e.2.2 * x.getD e.2.1 0) lf (x.getD i 0) hpf
  obtain ⟨q, q1, q2⟩ := h.div_th (lf.foldl (fun s e => s - e.2.2 * x.getD e.2.1 0) (x.getD i 0)) (val m i i) hd
  choose d d1 d2 using fun j : Nat => h.mul_th (val m i j) (x.getD j 0)
  have hlen : lf.length ≤ N := by
    refine (length_le_of_keys hpf fun e he => ?_).trans hN
    rw [Finset.mem_filter, Finset.mem_range]
    exact ⟨(l3 e (hm' e he).1).2.1, (hm' e he).2⟩
  have hfl : ∀ e ∈ lf, fl (e.2.2 * x.getD e.2.1 0) * t e.2.1 = fl (val m i e.2.1) * (d e.2.1 * t e.2.1) * fl (x.getD e.2.1 0) := by
    intro e he
    rw [(l3 e (hm' e he).1).2.2, d2]; ring
  have hsum := filter_sum (l := l) (i := i) (n := n) (a := val m i) (K := K) hpw l3 l4 p
    (fun j => fl (val m i j) * (d j * t j) * fl (x.getD j 0)) (fun j hj => by rw [hj, h.zero]; ring)
  have hq := (q1.pos h.u_lt).ne'
  refine ⟨fun j => if j = i then t₀ * q⁻¹ else d j * t j, fun j => ?_, ?_⟩
  · show Th u (N + 1) (if j = i then t₀ * q⁻¹ else d j * t j)
    split
    · exact h.th_mono (t1.mul h.u_lt (q1.inv h.u_lt)) (by omega)
    · exact h.th_mono ((d1 j).mul h.u_lt (t2 j)) (by omega)
  · simp only [if_true]
    rw [t3, q2, List.map_congr_left hfl, hsum]
    congr 1
    · field_simp
    · refine Finset.sum_congr rfl fun j _ => ?_
      by_cases hj : j = i
      · subst hj; rw [hp]; simp
      · rw [if_neg hj]

theorem fwd_round (h : Std fl u) (absv : F → V) (eps : V) {L : M} (hL : Sq n L) {b : List F} (hb : b.length = n) :
    Sat (forRange 0 n b (LU.fwdStep absv eps L))
      (fun y => y.length = n ∧ ∀ a, a < n → ¬ absv (val L a a) ≤ eps ∧
        (fl (val L a a) ≠ 0 → ∃ t : Nat → K, (∀ j, Th u (a + 1) (t j)) ∧
          ∑ c ∈ Finset.range (a + 1), fl (val L a c) * t c * fl (y.getD c 0) = fl (b.getD a 0)))
      (fun e => e = .exc .singular ∧ ∃ a, a < n ∧ absv (val L a a) ≤ eps) := by
  refine (sat_forRange (fun i y => y.length = n ∧ (∀ a, a < i → ¬ absv (val L a a) ≤ eps ∧
        (fl (val L a a) ≠ 0 → ∃ t : Nat → K, (∀ j, Th u (a + 1) (t j)) ∧
          ∑ c ∈ Finset.range (a + 1), fl (val L a c) * t c * fl (y.getD c 0) = fl (b.getD a 0))) ∧
        ∀ a, i ≤ a → y.getD a 0 = b.getD a 0) (Nat.zero_le _) ⟨hb, fun _ h => by omega, fun _ _ => rfl⟩ ?_).mono
        (fun y h => ⟨h.1, h.2.1⟩) (fun _ h => h)
  rintro i y _ hi ⟨hl, h1, h2⟩
  unfold LU.fwdStep
  obtain ⟨l, l1, l2, l3, l4⟩ := rowEntries_ok hL.valid (i := i) (hL.hr ▸ hi)
  rw [hL.hc] at l3 l4
  simp only [l1, ok_bind]
  rw [takeWhile_eq_filter (fun e : Nat × Nat × F => e.2.1) i l l2]
  rw [subRowF i _ y (by omega) (by
    intro e he
    obtain ⟨e1, e2⟩ := List.mem_filter.1 he
    have := (l3 e e1).2.1
    simp at e2; omega)]
  simp only [ok_bind, hL.get hi hi]
  by_cases hle : absv (val L i i) ≤ eps
  · rw [throwIf_true _ hle]; exact ⟨rfl, i, hi, hle⟩
  rw [throwIf_false _ hle, ok_bind, vecAt_get (by simp; omega), ok_bind, vecSet_set _ (by simp; omega)]
  simp only [Sat_ok]
  have hil : i < y.length := by omega
  rw [List.set_set, getD_set _ _ _ _ hil, if_pos rfl]
  refine ⟨by simp [hl], fun a ha => ?_, fun a ha => ?_⟩
  · by_cases hai : a = i
    · subst hai
      refine ⟨hle, fun hne => ?_⟩
      obtain ⟨t, t1, t2⟩ := row_round h hL hi (fun j => decide (j < a)) (by simp) l2 l3 l4 y (N := a) (by
        have : (Finset.range n).filter (fun j => decide (j < a) = true) ⊆ Finset.range a := by
          intro j; simp
        exact (Finset.card_le_card this).trans (by rw [Finset.card_range])) hne
      refine ⟨t, t1, ?_⟩
      rw [← h2 a (le_refl _), t2, Finset.sum_range_succ, getD_set _ _ _ _ hil, if_pos rfl, add_comm]
      congr 1
      rw [← Finset.sum_filter]
      have : (Finset.range n).filter (fun j => decide (j < a) = true) = Finset.range a := by
        ext j; simp; omega
      rw [this]
      refine Finset.sum_congr rfl (fun c hc => ?_)
      rw [getD_set _ _ _ _ hil, if_neg (by have := Finset.mem_range.1 hc; omega)]
    · refine ⟨(h1 a (by omega)).1, fun hne => ?_⟩
      obtain ⟨t, t1, t2⟩ := (h1 a (by omega)).2 hne
      refine ⟨t, t1, ?_⟩
      rw [← t2]
      refine Finset.sum_congr rfl (fun c hc => ?_)
      rw [getD_set _ _ _ _ hil, if_neg (by have := Finset.mem_range.1 hc; omega)]
  · rw [getD_set _ _ _ _ hil, if_neg (by omega), h2 a (by omega)]

theorem bwd_round (h : Std fl u) (absv : F → V) (eps : V) {U : M} (hU : Sq n U) {y : List F} (hy : y.length = n) :
    Sat (LU.downFrom (LU.bwdStep absv eps U) (n - 1) y)
      (fun x => x.length = n ∧ ∀ a, a < n → ¬ absv (val U a a) ≤ eps ∧
        (fl (val U a a) ≠ 0 → ∃ t : Nat → K, (∀ j, Th u (n - a) (t j)) ∧
          ∑ c ∈ Finset.range n, (if a ≤ c then fl (val U a c) * t c * fl (x.getD c 0) else 0) = fl (y.getD a 0)))
      (fun e => e = .exc .singular ∧ ∃ a, a < n ∧ absv (val U a a) ≤ eps) := by
  have hn := hU.pos
  refine (sat_downFrom (fun i x => x.length = n ∧ (∀ a, i ≤ a → a < n → ¬ absv (val U a a) ≤ eps ∧
        (fl (val U a a) ≠ 0 → ∃ t : Nat → K, (∀ j, Th u (n - a) (t j)) ∧
          ∑ c ∈ Finset.range n, (if a ≤ c then fl (val U a c) * t c * fl (x.getD c 0) else 0) = fl (y.getD a 0))) ∧
        ∀ a, a < i → x.getD a 0 = y.getD a 0) (n - 1) y ⟨hy, fun _ h => by omega, fun _ _ => rfl⟩ ?_).mono
        (fun y h => ⟨h.1, fun a ha => h.2.1 a (Nat.zero_le _) ha⟩) (fun _ h => h)
  rintro i x hi ⟨hl, h1, h2⟩
  have hi' : i < n := by omega
  unfold LU.bwdStep
  obtain ⟨l, l1, l2, l3, l4⟩ := rowEntries_ok hU.valid (i := i) (hU.hr ▸ hi')
  rw [hU.hc] at l3 l4
  simp only [l1, ok_bind]
  rw [forList_skip (fun e : Nat × Nat × F => e.2.1 < i + 1)]
  rw [subRowF i _ x (by omega) (by
    intro e he
    obtain ⟨e1, e2⟩ := List.mem_filter.1 he
    have := (l3 e e1).2.1
    simp at e2; omega)]
  simp only [ok_bind, hU.get hi' hi']
  by_cases hle : absv (val U i i) ≤ eps
  · rw [throwIf_true _ hle]; exact ⟨rfl, i, hi', hle⟩
  rw [throwIf_false _ hle, ok_bind, vecAt_get (by simp; omega), ok_bind, vecSet_set _ (by simp; omega)]
  simp only [Sat_ok]
  have hil : i < x.length := by omega
  rw [List.set_set, getD_set _ _ _ _ hil, if_pos rfl]
  refine ⟨by simp [hl], fun a ha han => ?_, fun a ha => ?_⟩
  · by_cases hai : a = i
    · subst hai
      refine ⟨hle, fun hne => ?_⟩
      obtain ⟨t, t1, t2⟩ := row_round h hU hi' (fun j => !decide (j < a + 1)) (by simp) l2 l3 l4 x (N := n - a - 1) (by
        have : (Finset.range n).filter (fun j => (!decide (j < a + 1)) = true) ⊆ (Finset.range n) \ Finset.range (a + 1) := by
          intro j; simp
        refine (Finset.card_le_card this).trans ?_
        rw [Finset.card_sdiff_of_subset (by intro j; simp; omega), Finset.card_range, Finset.card_range]
        omega) hne
      have hna : n - a - 1 + 1 = n - a := by omega
      rw [hna] at t1
      refine ⟨t, t1, ?_⟩
      set w := List.foldl (fun s e => s - e.2.2 * x.getD e.2.1 0) (x.getD a 0)
        (List.filter (fun e => !decide (e.2.1 < a + 1)) l) / val U a a with hw
      rw [← h2 a (Nat.lt_succ_self _), t2]
      rw [← Finset.add_sum_erase _ _ (Finset.mem_range.2 hi'),
        ← Finset.add_sum_erase (Finset.range n) (fun j => if (!decide (j < a + 1)) = true then
          fl (val U a j) * t j * fl (x.getD j 0) else 0) (Finset.mem_range.2 hi')]
      simp only [le_refl, if_true, getD_set _ _ _ _ hil, Nat.lt_succ_self, decide_true, Bool.not_true]
      rw [if_neg (by simp), zero_add]
      congr 1
      refine Finset.sum_congr rfl (fun c hc => ?_)
      have hca := (Finset.mem_erase.1 hc).1
      rw [if_neg hca]
      by_cases hh : a ≤ c
      · rw [if_pos hh, if_pos (by simp; omega)]
      · rw [if_neg hh, if_neg (by simp; omega)]
    · refine ⟨(h1 a (by omega) han).1, fun hne => ?_⟩
      obtain ⟨t, t1, t2⟩ := (h1 a (by omega) han).2 hne
      refine ⟨t, t1, ?_⟩
      rw [← t2]
      refine Finset.sum_congr rfl (fun c hc => ?_)
      by_cases hac : a ≤ c
      · rw [if_pos hac, if_pos hac, getD_set _ _ _ _ hil, if_neg (by omega)]
      · rw [if_neg hac, if_neg hac]
  · rw [getD_set _ _ _ _ hil, if_neg (by omega), h2 a (by omega)]
end solve
end NS.Rounding

/-
Property theorem C98: `doolittle` on strictly column diagonally dominant matrices.
-/
import Verif.Props.LU
import Mathlib.Algebra.BigOperators.Field

set_option linter.unusedSectionVars false
set_option linter.unusedSimpArgs false

namespace NS.Props.LU
open NS NS.MatOps NS.LawfulMat NS.LU
variable {M T V : Type} [Field T] [DecidableEq T] [MatOps M T] [LawfulMat M T] [Field V] [LinearOrder V] [IsStrictOrderedRing V] {n : Nat}

/-- what holds before step `k`: no exchange so far; the remaining block is dominant with margin `eps`, its column sums are not larger than those of
the matrix, and nothing left the band -/
structure DomInv (absv : AbsoluteValue T V) (eps : V) (A : M) (n k : Nat) (s : St M) : Prop where
  sqU : Sq n s.U
  sqL : Sq n s.L
  rt : s.rt = List.range n
  pc : s.pc = 0
  dom : ∀ j, k ≤ j → j < n → (∑ i ∈ (Finset.Ico k n).erase j, absv (val s.U i j)) + eps < absv (val s.U j j)
  col : ∀ j, k ≤ j → j < n → ∑ i ∈ Finset.Ico k n, absv (val s.U i j) ≤ ∑ i ∈ Finset.range n, absv (val A i j)
  top : ∀ i j, i < k → i ≤ j → j < n → absv (val s.U i j) ≤ ∑ i ∈ Finset.range n, absv (val A i j)
  piv : ∀ j, j < k → eps < absv (val s.U j j)
  mul : ∀ j, j < k → ∑ i ∈ Finset.Ico (j + 1) n, absv (val s.L i j) < 1
  bandU : ∀ p q, (∀ i j, j + p < i ∨ i + q < j → val A i j = 0) → ∀ i j, j + p < i ∨ i + q < j → val s.U i j = 0
  bandL : ∀ p q, (∀ i j, j + p < i ∨ i + q < j → val A i j = 0) → ∀ i j, j < k → j + p < i → val s.L i j = 0

theorem dom_step (absv : AbsoluteValue T V) {eps : V} (heps : 0 ≤ eps) {A : M} {k : Nat} {s : St M} (h : DomInv absv eps A n k s) (hk : k < n) :
    ∃ s', step absv eps n k s = .ok s' ∧ DomInv absv eps A n (k + 1) s' := by
  obtain ⟨⟨i, m⟩, f1, f2, f3, f4⟩ := findPivot_ok (fun x => absv x) h.sqU hk
  have hpivk := h.dom k (Nat.le_refl _) hk
  have hsub5 : ∀ a b : T, absv (a - b) ≤ absv a + absv b := fun a b => by
    have := absv.sub_le a 0 b
    rwa [sub_zero, zero_sub, absv.map_neg] at this
  have hother : ∀ j, k < j → j < n → absv (val s.U j k) < absv (val s.U k k) := by
    intro j h1 h2
    have : absv (val s.U j k) ≤ ∑ i ∈ (Finset.Ico k n).erase k, absv (val s.U i k) :=
      Finset.single_le_sum (f := fun i => absv (val s.U i k)) (fun _ _ => absv.nonneg _)
        (Finset.mem_erase.2 ⟨by omega, Finset.mem_Ico.2 ⟨by omega, h2⟩⟩)
    linarith
  have hik : i = k := by
    by_contra hne
    simp only at f2 f3 f4
    exact absurd (f4 k (Nat.le_refl _) hk) (not_le.2 (hother i (by omega) f3))
  subst hik
  obtain ⟨UL, e1, e2, e3, e4, e5⟩ := eliminate_ok h.sqU h.sqL hk
  have hp0 : 0 ≤ ∑ i_1 ∈ (Finset.Ico i n).erase i, absv (val s.U i_1 i) := Finset.sum_nonneg fun _ _ => absv.nonneg _
  have hp : eps < absv (val s.U i i) := by linarith
  have hpos : 0 < absv (val s.U i i) := lt_of_le_of_lt heps hp
  have hne : val s.U i i ≠ 0 := absv.pos_iff.1 hpos
  refine ⟨{ s with U := UL.1, L := UL.2 }, ?_, ?_⟩
  · unfold step
    rw [f1, ok_bind]
    unfold reorder
    simp only [ne_eq, not_true_eq_false, if_false, pure_eq_ok]
    rw [ok_bind, h.sqU.get hk hk, ok_bind, throwIf_false _ (not_le.2 hp), ok_bind, e1, ok_bind]
  -- the multipliers
  have hIco : (Finset.Ico i n).erase i = Finset.Ico (i + 1) n := by
    ext x; simp only [Finset.mem_erase, Finset.mem_Ico]; omega
  have hmul : ∑ r ∈ Finset.Ico (i + 1) n, absv (val s.U r i * (1 / val s.U i i)) < 1 := by
    have : ∀ r, absv (val s.U r i * (1 / val s.U i i)) = absv (val s.U r i) / absv (val s.U i i) := by
      intro r; rw [mul_one_div, map_div₀]
    simp only [this]
    rw [← Finset.sum_div, div_lt_one hpos, ← hIco]
    linarith
  have hU : ∀ r c, i < r → r < n → i < c → c < n → val UL.1 r c = val s.U r c - val s.U r i * (1 / val s.U i i) * val s.U i c := by
    intro r c h1 h2 h3 h4
    rw [e4, if_pos ⟨h1, h2, by omega, h4⟩]
  have hle : ∀ r c, i < r → r < n → i < c → c < n → absv (val UL.1 r c) ≤ absv (val s.U r c) + absv (val s.U r i * (1 / val s.U i i)) * absv (val s.U i c) := by
    intro r c h1 h2 h3 h4
    rw [hU r c h1 h2 h3 h4, ← absv.map_mul]
    exact hsub5 _ _
  have hsplit : ∀ j, i < j → j < n → (Finset.Ico i n).erase j = insert i ((Finset.Ico (i + 1) n).erase j) := by
    intro j h1 h2
    ext x; simp only [Finset.mem_erase, Finset.mem_Ico, Finset.mem_insert]; omega
  refine ⟨e2, e3, h.rt, h.pc, ?_, ?_, ?_, ?_, ?_, ?_, ?_⟩
  · intro j h1 h2
    have hd := h.dom j (by omega) h2
    rw [hsplit j (by omega) h2, Finset.sum_insert (by simp)] at hd
    have hs1 : ∑ r ∈ (Finset.Ico (i + 1) n).erase j, absv (val UL.1 r j) ≤
        ∑ r ∈ (Finset.Ico (i + 1) n).erase j, (absv (val s.U r j) + absv (val s.U r i * (1 / val s.U i i)) * absv (val s.U i j)) := by
      refine Finset.sum_le_sum fun r hr => ?_
      rw [Finset.mem_erase, Finset.mem_Ico] at hr
      exact hle r j (by omega) (by omega) (by omega) h2
    rw [Finset.sum_add_distrib, ← Finset.sum_mul] at hs1
    have hj1 : j ∈ Finset.Ico (i + 1) n := Finset.mem_Ico.2 ⟨by omega, h2⟩
    have hs2 := Finset.sum_erase_add (Finset.Ico (i + 1) n) (fun r => absv (val s.U r i * (1 / val s.U i i))) hj1
    have hs3 : absv (val s.U j j) ≤ absv (val UL.1 j j) + absv (val s.U j i * (1 / val s.U i i)) * absv (val s.U i j) := by
      have := hU j j (by omega) h2 (by omega) h2
      have e : val s.U j j = val UL.1 j j + val s.U j i * (1 / val s.U i i) * val s.U i j := by rw [this]; ring
      rw [e, ← absv.map_mul]
      exact absv.add_le _ _
    have hnn := absv.nonneg (val s.U i j)
    have hm : (∑ r ∈ (Finset.Ico (i + 1) n).erase j, absv (val s.U r i * (1 / val s.U i i)) + absv (val s.U j i * (1 / val s.U i i))) * absv (val s.U i j)
        ≤ 1 * absv (val s.U i j) := mul_le_mul_of_nonneg_right (by rw [hs2]; exact hmul.le) hnn
    rw [add_mul, one_mul] at hm
    show ∑ r ∈ (Finset.Ico (i + 1) n).erase j, absv (val UL.1 r j) + eps < absv (val UL.1 j j)
    linarith
  · intro j h1 h2
    have hc := h.col j (by omega) h2
    have hins : Finset.Ico i n = insert i (Finset.Ico (i + 1) n) := by
      ext x; simp only [Finset.mem_Ico, Finset.mem_insert]; omega
    rw [hins, Finset.sum_insert (by simp)] at hc
    have hs1 : ∑ r ∈ Finset.Ico (i + 1) n, absv (val UL.1 r j) ≤
        ∑ r ∈ Finset.Ico (i + 1) n, (absv (val s.U r j) + absv (val s.U r i * (1 / val s.U i i)) * absv (val s.U i j)) := by
      refine Finset.sum_le_sum fun r hr => ?_
      rw [Finset.mem_Ico] at hr
      exact hle r j (by omega) (by omega) (by omega) h2
    rw [Finset.sum_add_distrib, ← Finset.sum_mul] at hs1
    have hm := mul_le_mul_of_nonneg_right hmul.le (absv.nonneg (val s.U i j))
    rw [one_mul] at hm
    show ∑ r ∈ Finset.Ico (i + 1) n, absv (val UL.1 r j) ≤ _
    linarith
  · intro r j h1 h2 h3
    show absv (val UL.1 r j) ≤ _
    rw [e4, if_neg (by omega)]
    rcases Nat.lt_or_ge r i with h4 | h4
    · exact h.top r j h4 h2 h3
    · obtain rfl : r = i := by omega
      exact (Finset.single_le_sum (f := fun i => absv (val s.U i j)) (fun _ _ => absv.nonneg _)
        (Finset.mem_Ico.2 ⟨Nat.le_refl _, hk⟩)).trans (h.col j h2 h3)
  · intro j h1
    show eps < absv (val UL.1 j j)
    rw [e4, if_neg (by omega)]
    rcases Nat.lt_or_ge j i with h4 | h4
    · exact h.piv j h4
    · obtain rfl : j = i := by omega
      exact hp
  · intro j h1
    show ∑ r ∈ Finset.Ico (j + 1) n, absv (val UL.2 r j) < 1
    rcases Nat.lt_or_ge j i with h4 | h4
    · refine lt_of_le_of_lt (le_of_eq (Finset.sum_congr rfl fun r hr => ?_)) (h.mul j h4)
      rw [e5, if_neg (by omega)]
    · obtain rfl : j = i := by omega
      refine lt_of_le_of_lt (le_of_eq (Finset.sum_congr rfl fun r hr => ?_)) hmul
      rw [Finset.mem_Ico] at hr
      rw [e5, if_pos ⟨by omega, by omega, rfl⟩]
  · intro p q hb r c hrc
    have hu := h.bandU p q hb
    show val UL.1 r c = 0
    rw [e4]
    split
    · rename_i hr
      rw [hu r c hrc, zero_sub, neg_eq_zero]
      rcases hrc with h5 | h5
      · rw [hu r i (Or.inl (by omega)), zero_mul, zero_mul]
      · rw [hu i c (Or.inr (by omega)), mul_zero]
    · exact hu r c hrc
  · intro p q hb r c h1 h2
    show val UL.2 r c = 0
    rw [e5]
    split
    · rename_i hr
      obtain ⟨_, _, rfl⟩ := hr
      rw [h.bandU p q hb r c (Or.inl h2), zero_mul]
    · rename_i hr
      rcases Nat.lt_or_ge c i with h4 | h4
      · exact h.bandL p q hb r c h4 h2
      · obtain rfl : c = i := by omega
        refine h.sqL.zero fun hlt => hr ⟨by omega, hlt.1, rfl⟩

/-- strict column diagonal dominance with margin `eps` -/
def ColDominant (absv : AbsoluteValue T V) (eps : V) (A : Matrix (Fin n) (Fin n) T) : Prop :=
  ∀ j, (∑ i ∈ Finset.univ.erase j, absv (A i j)) + eps < absv (A j j)

theorem sum_range_fin (f : Nat → V) : ∑ i ∈ Finset.range n, f i = ∑ i : Fin n, f i := (Fin.sum_univ_eq_sum_range f n).symm

theorem sum_erase_fin (f : Nat → V) (j : Fin n) : ∑ i ∈ (Finset.Ico 0 n).erase (j : Nat), f i = ∑ i ∈ Finset.univ.erase j, f i := by
  have h1 := Finset.sum_erase_add (Finset.Ico 0 n) f (a := (j : Nat)) (Finset.mem_Ico.2 ⟨Nat.zero_le _, j.2⟩)
  have h2 := Finset.sum_erase_add Finset.univ (fun i : Fin n => f i) (Finset.mem_univ j)
  rw [← sum_range_fin, ← Nat.Ico_zero_eq_range, ← h1] at h2
  exact (add_right_cancel h2).symm

/-- the result for a dominant matrix -/
def DomResult (absv : AbsoluteValue T V) (eps : V) (n : Nat) (A : Matrix (Fin n) (Fin n) T) (r : M × M × M × Nat) : Prop :=
  ∃ L U : Matrix (Fin n) (Fin n) T, IsMat r.1 n L ∧ IsMat r.2.1 n U ∧ IsMat r.2.2.1 n (1 : Matrix (Fin n) (Fin n) T) ∧ r.2.2.2 = 0 ∧
    A = L * U ∧ UnitLower L ∧ Upper U ∧ (∀ j, eps < absv (U j j)) ∧
    (∀ j, ∑ i ∈ Finset.univ.filter (fun i => j < i), absv (L i j) < 1) ∧
    (∀ i j, absv (U i j) ≤ ∑ k, absv (A k j)) ∧
    ∀ p q : Nat, (∀ i j : Fin n, (j : Nat) + p < i ∨ (i : Nat) + q < j → A i j = 0) →
      (∀ i j : Fin n, (j : Nat) + p < i → L i j = 0) ∧ ∀ i j : Fin n, (i : Nat) + q < j → U i j = 0

theorem dom_from (absv : AbsoluteValue T V) {eps : V} (heps : 0 ≤ eps) {A₀ L₀ P₀ : M} {A : Matrix (Fin n) (Fin n) T} (hA : IsMat A₀ n A)
    (hL : IsMat L₀ n (0 : Matrix (Fin n) (Fin n) T)) (hP : IsMat P₀ n (0 : Matrix (Fin n) (Fin n) T)) (hd : ColDominant absv eps A) :
    ∃ r, doolittleFrom absv eps A₀ L₀ P₀ = .ok r ∧ DomResult absv eps n A r := by
  have hn := hA.sq.pos
  have hfact := doolittleFrom_ok absv heps hA.sq hL.sq hP.sq hL.zero hP.zero
  have hval : ∀ i j : Fin n, val A₀ i j = A i j := hA.val_eq
  obtain ⟨⟨L1, rt1⟩, s1, s2, s3, s4, s5⟩ := setup_ok hL.sq hL.zero
  simp only at s2 s3 s4 s5
  have hloop := sat_forRange (f := step absv eps n) (E := noErr) (fun k s => DomInv absv eps A₀ n k s) (Nat.zero_le (n - 1))
    (s := ({ U := A₀, L := L1, rt := rt1, pc := 0 } : St M)) (by
      refine ⟨hA.sq, s2, ?_, rfl, ?_, ?_, fun _ _ h => absurd h (Nat.not_lt_zero _), fun _ h => absurd h (Nat.not_lt_zero _),
        fun _ h => absurd h (Nat.not_lt_zero _), fun p q h => h, fun _ _ _ _ _ h => absurd h (Nat.not_lt_zero _)⟩
      · apply List.ext_getElem
        · simp [s4]
        · intro i h1 h2
          have h3 : i < n := by simpa using h2
          have := s5 i h3
          rw [List.getD_eq_getElem _ _ h1] at this
          simpa using this
      · intro j _ hj
        have := hd ⟨j, hj⟩
        show (∑ i ∈ (Finset.Ico 0 n).erase j, absv (val A₀ i j)) + eps < absv (val A₀ j j)
        have e : ∀ i : Fin n, val A₀ i j = A i ⟨j, hj⟩ := fun i => hval i ⟨j, hj⟩
        have ej : val A₀ j j = A ⟨j, hj⟩ ⟨j, hj⟩ := hval ⟨j, hj⟩ ⟨j, hj⟩
        have es := sum_erase_fin (fun i => absv (val A₀ i j)) ⟨j, hj⟩
        simp only [e] at es
        rw [es, ej]
        exact this
      · intro j _ hj
        rw [Nat.Ico_zero_eq_range])
    (by
      intro k s _ hk hs
      obtain ⟨s', h1, h2⟩ := dom_step absv heps hs (by omega)
      rw [h1]; exact h2)
  obtain ⟨s, hs1, hs⟩ := hloop.ok_of
  have hrt : ∀ i, i < n → s.rt.getD i 0 < n := by
    intro i hi
    rw [hs.rt, List.getD_eq_getElem _ _ (by simpa using hi)]
    simpa using hi
  obtain ⟨P', q1, q2, q3⟩ := buildP_ok hP.sq hP.zero (show s.rt.length = n by rw [hs.rt]; simp) hrt
  have hres : doolittleFrom absv eps A₀ L₀ P₀ = .ok (s.L, s.U, P', s.pc) := by
    unfold doolittleFrom
    rw [hA.2.1]
    dsimp only
    rw [s1, ok_bind, wsub_of_le (show 1 ≤ n by omega), hs1, ok_bind, q1, ok_bind]
    rfl
  rw [hres] at hfact
  obtain ⟨σ, hf⟩ := hfact
  have hPone : IsMat P' n (1 : Matrix (Fin n) (Fin n) T) := by
    refine ⟨q2.valid, q2.hr, q2.hc, fun i j => ?_⟩
    rw [q2.get i.2 j.2, q3, hs.rt, List.getD_eq_getElem _ _ (by simp), Matrix.one_apply]
    simp [Fin.ext_iff, eq_comm]
  obtain ⟨L, U, P, σ', d1, d2, d3, d4, d5, d6, -⟩ := doolittled_of_fact hA hf
  have hPP : P = 1 := by rw [← d3.toMat_eq, hPone.toMat_eq]
  rw [hPP, one_mul] at d4
  have hU : ∀ i j : Fin n, U i j = val s.U i j := fun i j => (d2.val_eq i j).symm
  have hLv : ∀ i j : Fin n, L i j = val s.L i j := fun i j => (d1.val_eq i j).symm
  have hsum : ∀ j : Fin n, ∑ i ∈ Finset.range n, absv (val A₀ i j) = ∑ k, absv (A k j) := by
    intro j
    rw [sum_range_fin]
    exact Finset.sum_congr rfl fun i _ => by rw [hval]
  refine ⟨_, hres, L, U, d1, d2, hPone, hs.pc, d4, d5, d6, ?_, ?_, ?_, ?_⟩
  · intro j
    rw [hU]
    rcases Nat.lt_or_ge (j : Nat) (n - 1) with h | h
    · exact hs.piv j h
    · have := hs.dom j h j.2
      have h0 : 0 ≤ ∑ i ∈ (Finset.Ico (n - 1) n).erase (j : Nat), absv (val s.U i j) := Finset.sum_nonneg fun _ _ => absv.nonneg _
      linarith
  · intro j
    rcases Nat.lt_or_ge (j : Nat) (n - 1) with h | h
    · refine lt_of_le_of_lt (le_of_eq ?_) (hs.mul j h)
      rw [Finset.sum_filter]
      simp only [hLv]
      have e := sum_range_fin (n := n) (fun i => if (j : Nat) < i then absv (val s.L i j) else 0)
      rw [← Finset.sum_filter] at e
      have e2 : (Finset.range n).filter (fun i => (j : Nat) < i) = Finset.Ico ((j : Nat) + 1) n := by
        ext x; simp only [Finset.mem_filter, Finset.mem_range, Finset.mem_Ico]; omega
      rw [e2] at e
      rw [e]
      rfl
    · have : Finset.univ.filter (fun i : Fin n => j < i) = ∅ := by
        rw [Finset.filter_eq_empty_iff]
        intro i _ hi
        have h1 : (j : Nat) < i := hi
        have := i.2
        omega
      rw [this, Finset.sum_empty]; exact one_pos
  · intro i j
    rw [← hsum]
    by_cases hij : j < i
    · rw [d6 i j hij, absv.map_zero]
      exact Finset.sum_nonneg fun _ _ => absv.nonneg _
    · have hij' : (i : Nat) ≤ j := by
        have : i ≤ j := not_lt.1 hij
        exact this
      rw [hU]
      rcases Nat.lt_or_ge (i : Nat) (n - 1) with h | h
      · exact hs.top i j h hij' j.2
      · refine (Finset.single_le_sum (f := fun i => absv (val s.U i j)) (fun _ _ => absv.nonneg _) (Finset.mem_Ico.2 ⟨h, i.2⟩)).trans
          (hs.col j (by omega) j.2)
  · intro p q hb
    have hb' : ∀ i j, j + p < i ∨ i + q < j → val A₀ i j = 0 := by
      intro i j hij
      by_cases hlt : i < n ∧ j < n
      · have := hb ⟨i, hlt.1⟩ ⟨j, hlt.2⟩ hij
        rw [← hval] at this
        exact this
      · exact hA.sq.zero hlt
    refine ⟨fun i j hij => ?_, fun i j hij => ?_⟩
    · rw [hLv]
      rcases Nat.lt_or_ge (j : Nat) (n - 1) with h | h
      · exact hs.bandL p q hb' i j h hij
      · have := i.2; omega
    · rw [hU]
      exact hs.bandU p q hb' i j (Or.inr hij)

/-- **C98**, sparse overload: on a strictly column diagonally dominant matrix (by more than the singularity threshold) `doolittle` returns, exchanges no rows (`P` is the
identity, pivot count 0), all pivots exceed the threshold, the multipliers of a column add up to less than one, the entries of `U` are at most the column
sums of `A` (less than twice the diagonal entry), and the band of `A` is preserved: `L` has no more subdiagonals and `U` no more superdiagonals than `A`. -/
theorem C98_dominant_sparse (absv : AbsoluteValue T V) {eps : V} (heps : 0 ≤ eps) {A₀ : M} {A : Matrix (Fin n) (Fin n) T} (hA : IsMat A₀ n A)
    (hd : ColDominant absv eps A) : ∃ r, doolittleSparse absv eps A₀ = .ok r ∧ DomResult absv eps n A r := by
  have hn := hA.sq.pos
  unfold doolittleSparse
  obtain ⟨Z, z1, z2, z3⟩ := make_sq M hn
  have hZ : IsMat Z n (0 : Matrix (Fin n) (Fin n) T) := by
    have := isMat_of z2
    rwa [show toMat n Z = 0 from by ext i j; exact z3 i j] at this
  obtain ⟨r, h1, h2⟩ := dom_from absv heps hA hZ hZ hd
  refine ⟨r, ?_, h2⟩
  rw [throwIf_false _ (by rw [hA.2.1, hA.2.2.1]; simp), ok_bind]
  simp only [hA.2.1]
  rw [z1, ok_bind, ok_bind]
  exact h1

/-- **C98**, dense overload (zero `L` and `P` on entry). -/
theorem C98_dominant_dense (absv : AbsoluteValue T V) {eps : V} (heps : 0 ≤ eps) {A₀ L₀ P₀ : M} {A : Matrix (Fin n) (Fin n) T} (hA : IsMat A₀ n A)
    (hL : IsMat L₀ n (0 : Matrix (Fin n) (Fin n) T)) (hP : IsMat P₀ n (0 : Matrix (Fin n) (Fin n) T))
    (hd : ColDominant absv eps A) : ∃ r, doolittleBase absv eps A₀ L₀ P₀ = .ok r ∧ DomResult absv eps n A r := by
  obtain ⟨r, h1, h2⟩ := dom_from absv heps hA hL hP hd
  refine ⟨r, ?_, h2⟩
  unfold doolittleBase
  rw [throwIf_false _ (by rw [hA.2.1, hA.2.2.1]; simp), ok_bind,
    throwIf_false _ (by rw [hA.2.1, hA.2.2.1, hL.2.1, hL.2.2.1, hP.2.1, hP.2.2.1]; simp), ok_bind]
  exact h1

/-- without strictness there are exchanges: the last of equal pivots is taken -/
theorem C98_weak_negation : (doolittleBase (AbsoluteValue.abs : AbsoluteValue ℚ ℚ) 0 (⟨[1, 0, 1, 1], 2, 2⟩ : Dense ℚ)
    ⟨[0, 0, 0, 0], 2, 2⟩ ⟨[0, 0, 0, 0], 2, 2⟩).toOption.map (fun r => r.2.2.2) = some 1 := by decide +kernel

/-- the hypothesis holds for the second difference matrix of the heat equation -/
example : ColDominant (AbsoluteValue.abs : AbsoluteValue ℚ ℚ) (1 / 2) !![3, -1, 0; -1, 3, -1; 0, -1, 3] := by
  intro j
  fin_cases j <;> decide +kernel

/-- the same matrix run through the code: no exchange, bidiagonal factors -/
example : doolittleBase (AbsoluteValue.abs : AbsoluteValue ℚ ℚ) (1 / 2) (⟨[3, -1, 0, -1, 3, -1, 0, -1, 3], 3, 3⟩ : Dense ℚ)
    ⟨[0, 0, 0, 0, 0, 0, 0, 0, 0], 3, 3⟩ ⟨[0, 0, 0, 0, 0, 0, 0, 0, 0], 3, 3⟩ =
    .ok (⟨[1, 0, 0, -1 / 3, 1, 0, 0, -3 / 8, 1], 3, 3⟩, ⟨[3, -1, 0, 0, 8 / 3, -1, 0, 0, 21 / 8], 3, 3⟩, ⟨[1, 0, 0, 0, 1, 0, 0, 0, 1], 3, 3⟩, 0) := by
  decide +kernel

end NS.Props.LU

/-
Property theorem C32: the incomplete factorisation `LU::ilu0`.
-/
import Verif.ILU
import Verif.Props.LU

set_option linter.unusedSectionVars false
set_option linter.unusedSimpArgs false

namespace NS.Props.LU
open NS NS.LU NS.Sparse
variable {T V : Type} [Field T] [DecidableEq T] [Field V] [LinearOrder V] [IsStrictOrderedRing V]

/-- C32: for an `n x n` sparse matrix `A` with non-zero diagonal and zero output matrices, `ilu0` either throws
`SingularException` or produces a unit lower triangular `L` and an upper triangular `U`, both zero wherever `A` is
zero, with `(L*U)(i,j) = A(i,j)` at every non-zero position of `A`. -/
theorem C32_ilu0 (absv : AbsoluteValue T V) {eps : V} (heps : 0 ≤ eps) {n : Nat} {A₀ L₀ U₀ : Sparse T}
    {A : Matrix (Fin n) (Fin n) T} (hA : IsMat A₀ n A) (hdiag : ∀ i, A i i ≠ 0)
    (hL : IsMat L₀ n (0 : Matrix (Fin n) (Fin n) T)) (hU : IsMat U₀ n (0 : Matrix (Fin n) (Fin n) T)) :
    ilu0 absv eps A₀ L₀ U₀ = .error (.exc .singular) ∨
    ∃ (L₁ U₁ : Sparse T) (L U : Matrix (Fin n) (Fin n) T),
      ilu0 absv eps A₀ L₀ U₀ = .ok (L₁, U₁) ∧ IsMat L₁ n L ∧ IsMat U₁ n U ∧ UnitLower L ∧ Upper U ∧
      (∀ i j, A i j = 0 → L i j = 0 ∧ U i j = 0) ∧
      (∀ i j, A i j ≠ 0 → (L * U) i j = A i j) := by
  have sqA := hA.sq
  obtain ⟨rs0, e0, ok0, len0, cpos⟩ : Inv A₀ := sqA.valid
  have hc : A₀.cols = n := sqA.hc
  have hr : A₀.rows = n := sqA.hr
  rw [hc] at e0 ok0 cpos
  have hl0 : rs0.length = n := by rw [e0] at hr; simpa using hr
  have hS0 : Srt.RowsS n rs0 := fun r hr => ⟨(ok0 r hr).1, fun p hp => ((ok0 r hr).2 p hp).1⟩
  have hent : ∀ i j : Fin n, ent rs0 i j = A i j := by
    intro i j
    rw [← hA.val_eq i j]
    show _ = Sparse.val A₀ i j
    rw [e0, val_pack' ok0]
  have key : Sat (ilu0 absv eps A₀ L₀ U₀) (fun p => ∃ rs, EInv n rs0 rs n ∧
      (Inv p.1 ∧ p.1.rows = n ∧ p.1.columns = n) ∧ (Inv p.2 ∧ p.2.rows = n ∧ p.2.columns = n) ∧
      (∀ a j v, (j, v) ∈ rs.getD a [] → p.1.val a j = lval a j v ∧ p.2.val a j = uval a j v) ∧
      (∀ a j, j ∉ colsOf (rs.getD a []) → p.1.val a j = 0 ∧ p.2.val a j = 0)) (fun e => e = .exc .singular) := by
    unfold ilu0
    have hsq : ¬ A₀.rows ≠ A₀.columns := by
      rw [not_not, hr]; exact hc.symm
    rw [throwIf_false _ hsq]
    simp only [ok_bind]
    rw [e0]
    refine Sat.bind (iluElim_ok absv heps cpos hS0 hl0) ?_
    rintro s ⟨rs, rfl, hI⟩
    have hS : Srt.RowsS n rs := by
      intro r hr
      obtain ⟨a, ha, rfl⟩ := List.getElem_of_mem hr
      have hcc := hI.cols a
      rw [List.getD_eq_getElem _ _ ha, List.getD_eq_getElem _ _ (by rw [hl0, ← hI.len]; exact ha)] at hcc
      exact RowS_of_cols (hS0 _ (List.getElem_mem _)) hcc
    refine (iluSplit_ok hS hI.len hL.sq.valid hU.sq.valid hL.sq.hr hL.sq.hc hU.sq.hr hU.sq.hc
      (fun i j => hL.zero i j) (fun i j => hU.zero i j)).mono ?_ (fun e h => h.elim)
    exact fun p hp => ⟨rs, hI, hp⟩
  cases hres : ilu0 absv eps A₀ L₀ U₀ with
  | error e => rw [hres] at key; cases key; exact Or.inl rfl
  | ok p =>
    rw [hres] at key
    obtain ⟨L₁, U₁⟩ := p
    obtain ⟨rs, hI, ⟨l1, l2, l3⟩, ⟨u1, u2, u3⟩, hin, hout⟩ := key
    have sqL : Sq n L₁ := ⟨l1, l2, l3⟩
    have sqU : Sq n U₁ := ⟨u1, u2, u3⟩
    -- the values of L and U in terms of the working copy
    have hSrow : ∀ a, Srt.RowS n (rs.getD a []) := by
      intro a
      by_cases ha : a < n
      · refine RowS_of_cols (r := rs0.getD a []) ?_ (hI.cols a)
        rw [List.getD_eq_getElem _ _ (by omega)]
        exact hS0 _ (List.getElem_mem _)
      · rw [List.getD_eq_default _ _ (by rw [hI.len]; omega)]
        exact ⟨by simp, by simp⟩
    have hval : ∀ a j, j ∈ colsOf (rs.getD a []) →
        L₁.val a j = lval a j (ent rs a j) ∧ U₁.val a j = uval a j (ent rs a j) := by
      intro a j hj
      obtain ⟨⟨j', v⟩, hm, rfl⟩ := List.mem_map.1 hj
      have : ent rs a j' = v := Srt.lookup_of_mem (hSrow a) hm
      simp only
      rw [this]; exact hin a j' v hm
    have hpat : ∀ i j : Fin n, (j : Nat) ∈ colsOf (rs.getD i []) ↔ A i j ≠ 0 := by
      intro i j
      rw [hI.cols i, ← hent]
      unfold ent
      have hro : RowOK n (rs0.getD i []) := by
        rw [List.getD_eq_getElem _ _ (by rw [hl0]; exact i.2)]; exact ok0 _ (List.getElem_mem _)
      constructor
      · intro hm
        obtain ⟨⟨j', v⟩, hm, hj'⟩ := List.mem_map.1 hm
        simp only at hj'
        have := (lookup_mem hro).1 hm
        rw [← hj', this.1]; exact this.2
      · intro hne
        exact List.mem_map.2 ⟨(j, lookup (rs0.getD i []) j), (lookup_mem hro).2 ⟨rfl, hne⟩, rfl⟩
    have hz : ∀ i j : Fin n, A i j = 0 → L₁.val i j = 0 ∧ U₁.val i j = 0 := fun i j h =>
      hout i j (fun hm => (hpat i j).1 hm h)
    have hentz : ∀ i j : Fin n, A i j = 0 → ent rs i j = 0 := fun i j h =>
      lookup_notin (fun hm => (hpat i j).1 hm h)
    -- entries of L and U everywhere
    have hLv : ∀ i k : Fin n, L₁.val i k = if k = i then 1 else if k < i then ent rs i k else 0 := by
      intro i k
      by_cases h : A i k = 0
      · rw [(hz i k h).1, hentz i k h]
        have : k ≠ i := by rintro rfl; exact hdiag _ h
        rw [if_neg this]; simp
      · rw [(hval i k ((hpat i k).2 h)).1]
        unfold lval
        simp only [Fin.ext_iff, Fin.lt_def]
    have hUv : ∀ k j : Fin n, U₁.val k j = if k ≤ j then ent rs k j else 0 := by
      intro k j
      by_cases h : A k j = 0
      · rw [(hz k j h).2, hentz k j h]; simp
      · rw [(hval k j ((hpat k j).2 h)).2]
        unfold uval
        simp only [Fin.le_def]
    refine Or.inr ⟨L₁, U₁, toMat n L₁, toMat n U₁, rfl, isMat_of sqL, isMat_of sqU, ⟨fun i => ?_, fun i j hij => ?_⟩,
      fun i j hij => ?_, fun i j h => hz i j h, fun i j h => ?_⟩
    · show L₁.val i i = 1
      rw [hLv, if_pos rfl]
    · show L₁.val i j = 0
      rw [hLv, if_neg (ne_of_gt hij), if_neg (not_lt.2 (le_of_lt hij))]
    · show U₁.val i j = 0
      rw [hUv, if_neg (not_le.2 hij)]
    · have hd := hI.done i i.2 j (by rw [← hI.cols i]; exact (hpat i j).2 h)
      rw [hent, Finset.sum_range] at hd
      rw [hd, Matrix.mul_apply]
      have hsplit : ∀ k : Fin n, toMat n L₁ i k * toMat n U₁ k j =
          (if (k : Nat) < i ∧ (k : Nat) < j then ent rs i k * ent rs k j else 0) +
          (if k = min i j then (if (j : Nat) < i then ent rs i j * ent rs j j else ent rs i j) else 0) := by
        intro k
        show L₁.val i k * U₁.val k j = _
        rw [hLv, hUv]
        rcases lt_trichotomy k i with hki | rfl | hki
        · have hki' : (k : Nat) < i := hki
          rw [if_neg (ne_of_lt hki), if_pos hki]
          rcases lt_trichotomy k j with hkj | rfl | hkj
          · have hkj' : (k : Nat) < j := hkj
            rw [if_pos (le_of_lt hkj), if_pos ⟨hki', hkj'⟩, if_neg (ne_of_lt (lt_min hki hkj)), add_zero]
          · rw [if_pos (le_refl _), if_neg (by omega), if_pos (min_eq_right (le_of_lt hki)).symm, if_pos hki', zero_add]
          · have hkj' : (j : Nat) < k := hkj
            rw [if_neg (not_le.2 hkj), mul_zero, if_neg (by omega),
              if_neg (ne_of_gt (lt_of_le_of_lt (min_le_right _ _) hkj)), add_zero]
        · rw [if_pos rfl, one_mul]
          by_cases hkj : k ≤ j
          · have hkj' : (k : Nat) ≤ j := hkj
            rw [if_pos hkj, if_neg (by omega), if_pos (min_eq_left hkj).symm, if_neg (by omega), zero_add]
          · have hkj2 : j < k := not_le.1 hkj
            rw [if_neg hkj, if_neg (by omega), if_neg (ne_of_gt (lt_of_le_of_lt (min_le_right _ _) hkj2)), add_zero]
        · have hki' : (i : Nat) < k := hki
          rw [if_neg (ne_of_gt hki), if_neg (not_lt.2 (le_of_lt hki)), zero_mul, if_neg (by omega),
            if_neg (ne_of_gt (lt_of_le_of_lt (min_le_left _ _) hki)), add_zero]
      rw [Finset.sum_congr rfl (fun k _ => hsplit k), Finset.sum_add_distrib, Finset.sum_ite_eq' Finset.univ,
        if_pos (Finset.mem_univ _)]

/-- C32: non-square input is rejected. -/
theorem C32_notSquare (absv : AbsoluteValue T V) (eps : V) (A L U : Sparse T) (h : A.rows ≠ A.columns) :
    ilu0 absv eps A L U = .error (.exc .notSquare) := by
  unfold ilu0; rw [throwIf_true _ h]; rfl

/-- `[[2,1,0],[4,3,5],[0,1,7]]` (two structural zeros) with zero outputs meets the hypotheses; the fill-in free
factors are computed. -/
example : (do
    let A ← (Sparse.ofLists [[2, 1, 0], [4, 3, 5], [0, 1, 7]] : R (Sparse ℚ))
    let Z ← (Sparse.mk' 3 3 : R (Sparse ℚ))
    let r ← ilu0 (AbsoluteValue.abs : AbsoluteValue ℚ ℚ) 0 A Z Z
    let l ← r.1.entries
    let u ← r.2.entries
    return (l, u)) =
    .ok ([(0, 0, 1), (1, 0, 2), (1, 1, 1), (2, 1, 1), (2, 2, 1)],
         [(0, 0, 2), (0, 1, 1), (1, 1, 1), (1, 2, 5), (2, 2, 2)]) := by decide +kernel
/-- dropped fill-in: position (1,2) is zero in `A` and stays zero -/
example : (do
    let A ← (Sparse.ofLists [[2, 0, 1], [4, 3, 0], [0, 3, 7]] : R (Sparse ℚ))
    let Z ← (Sparse.mk' 3 3 : R (Sparse ℚ))
    let r ← ilu0 (AbsoluteValue.abs : AbsoluteValue ℚ ℚ) 0 A Z Z
    let l ← r.1.entries
    let u ← r.2.entries
    return (l, u)) =
    .ok ([(0, 0, 1), (1, 0, 2), (1, 1, 1), (2, 1, 1), (2, 2, 1)],
         [(0, 0, 2), (0, 2, 1), (1, 1, 3), (2, 2, 7)]) := by decide +kernel
end NS.Props.LU

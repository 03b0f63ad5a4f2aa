/-
Property theorems C97 for sparse matrices, the Cholesky factorisation and the Jacobi preconditioner.
-/
import Verif.Props.Alias

set_option linter.unusedSectionVars false
set_option linter.unusedSimpArgs false

namespace NS.Props.Alias
open NS

section sparse
open NS.Sparse
variable {T : Type} [CommRing T] [DecidableEq T]

theorem walked_nth {s : Sparse T} {its : Nat → SIt} (hw : IsWalk s its) {p : SIt} (hp : Walked s p) :
    ∃ k, k ≤ s.values.length ∧ p = its k := by
  induction hp with
  | begin h => rw [hw.beg] at h; cases h; exact ⟨0, Nat.zero_le _, rfl⟩
  | cbegin h => rw [hw.cbeg] at h; cases h; exact ⟨0, Nat.zero_le _, rfl⟩
  | @next it it' _ h ih =>
    obtain ⟨k, hk, rfl⟩ := ih
    rcases Nat.lt_or_ge k s.values.length with h' | h'
    · rw [hw.next k h'] at h; cases h; exact ⟨k + 1, h', rfl⟩
    · obtain rfl : k = s.values.length := by omega
      unfold itNext at h
      rw [hw.last] at h
      simp only [Bool.false_eq_true, if_false] at h
      cases h
      exact ⟨_, Nat.le_refl _, rfl⟩

/-- **C97** (partial): for a sparse matrix `m += m` does what it does with a copy of `m` (over numbers for which `v + v` is zero for
zero only). -/
theorem C97_sparse_add_partial [NoZeroDivisors T] (h2 : (2 : T) ≠ 0) {s : Sparse T} (hs : Reach s) :
    selfAssign (· + ·) s = s.addAssign s := by
  have hi := hs.inv
  obtain ⟨its, hw⟩ := hi.walk
  have hne : ∀ v : T, v ≠ 0 → v + v ≠ 0 := fun v hv h => by
    rw [← two_mul] at h
    rcases mul_eq_zero.1 h with h | h
    · exact h2 h
    · exact hv h
  obtain ⟨u, u1, u2, u3, u4, u5⟩ := hi.add_ok hi (Nat.le_refl _) (Nat.le_refl _)
  obtain ⟨m1, m2⟩ := hi.mapVals (g := fun v => v + v) (fun v hv _ => hne v hv)
  unfold selfAssign
  rw [hw.cbeg, ok_bind, selfLoop_ok hw (fun v hv => hne v (hi.values_ne v hv)) (by have := hi.length_le; omega), u1]
  congr 1
  refine Inv.ext m1 u2 u3.symm u4.symm fun i j _ _ => ?_
  rw [m2, u5]
  split
  · rename_i h; simp [h]
  · rfl

/-- **C97** (partial): for a sparse matrix `m *= m` (entrywise) does what it does with a copy of `m`: the result shows the squares. -/
theorem C97_sparse_hadamard_partial [NoZeroDivisors T] {s : Sparse T} (hs : Reach s) {r c : Nat} {A : Nat → Nat → T}
    (hA : Props.Sparse.Shows s r c A) :
    ∃ u, hadamardSelf s = .ok u ∧ s.hadamardAssign s = .ok u ∧ Props.Sparse.Shows u r c fun i j => A i j * A i j := by
  have hi := hs.inv
  obtain ⟨its, hw⟩ := hi.walk
  obtain ⟨u, u1, u2, u3, u4, u5⟩ := hi.hadamard_ok hi rfl rfl (fun i j h1 h2 => absurd h2 h1)
  obtain ⟨m1, m2⟩ := hi.mapVals (g := fun v => v * v) (fun v hv _ => mul_ne_zero hv hv)
  have e : { s with values := s.values.map fun v => v * v } = u := by
    refine Inv.ext m1 u2 u3.symm u4.symm fun i j _ _ => ?_
    rw [m2, u5]
    split
    · rename_i h; simp [h]
    · rfl
  refine ⟨u, ?_, u1, Props.Sparse.shows_of u2 (u3.trans hA.1) (u4.trans hA.2.1) fun i j h1 h2 => ?_⟩
  · obtain ⟨its', hw'⟩ := u2.walk
    unfold hadamardSelf
    rw [hw.cbeg, ok_bind, hadSelfLoop_ok hw (by omega), ok_bind, e, hw'.beg, ok_bind]
    exact hadSelfErase_ok hw' u.values.length _ 0 (by omega) (by omega)
  · rw [u5, hA.val h1 h2]

theorem sub_self_iff {s : Sparse T} (hs : Inv s) :
    (∃ u, selfAssign (· - ·) s = .ok u ∧ u.rows = s.rows ∧ u.columns = s.columns) ∧
    (selfAssign (· - ·) s = s.subAssign s ↔ s.filledCount ≤ 1) := by
  obtain ⟨its, hw⟩ := hs.walk
  obtain ⟨z, z1, z2, z3, z4, z5⟩ := hs.sub_ok hs (Nat.le_refl _) (Nat.le_refl _)
  have hz : z.values.length = 0 := by
    have := z2.filledCount_eq
    unfold filledCount at this
    rw [this, Finset.card_eq_zero, Finset.filter_eq_empty_iff]
    intro p _
    simp [z5]
  rcases Nat.lt_or_ge s.values.length 2 with h | h
  · -- at most one entry
    have hz' : selfAssign (· - ·) s = .ok z := by
      unfold selfAssign
      rw [hw.cbeg, ok_bind]
      rcases Nat.lt_or_ge 0 s.values.length with h0 | h0
      · have h1 : s.values.length = 1 := by omega
        obtain ⟨hb1, hb2⟩ := hw.bounds h0
        have hne : ¬ s.itEq (its 0) s.itEnd = true := by rw [itEq_end_of_valid (hw.valid 0 h0)]; simp
        have hat : s.at' (its 0).i1 (its 0).i2 = .ok s.values[0] := by
          unfold at'
          rw [assert_true hb1, ok_bind, assert_true hb2, ok_bind, hw.found 0 h0 false, ok_bind]
          exact getIdx_of_some (List.getElem?_eq_getElem h0)
        have hde : s.deref (its 0) = .ok s.values[0] := by
          unfold deref
          rw [if_pos (hw.valid 0 h0), hw.cpi 0 h0]
          exact getIdx_of_some (List.getElem?_eq_getElem h0)
        obtain ⟨s', e1, e2, e3, e4, e5⟩ := hs.set_ok (0 : T) hb1 hb2
        have hv0 : ∀ i j, s'.val i j = 0 := by
          intro i j
          rw [e5]
          split
          · rfl
          · rename_i hij
            by_contra hv
            have hc := hs.filledCount_eq
            unfold filledCount at hc
            rw [h1] at hc
            obtain ⟨p, hp⟩ := Finset.card_eq_one.1 hc.symm
            have hin : ∀ a b, s.val a b ≠ 0 → (a, b) = p := by
              intro a b hab
              have : (a, b) ∈ ({p} : Finset (Nat × Nat)) := by
                rw [← hp, Finset.mem_filter, Finset.mem_product, Finset.mem_range, Finset.mem_range]
                refine ⟨?_, hab⟩
                by_contra hc
                exact hab (hs.val_zero hc)
              exact Finset.mem_singleton.1 this
            have h3 := hin i j hv
            have h4 := hin (its 0).i1 (its 0).i2 (by
              have := hs.at_ok hb1 hb2
              rw [hat] at this
              rw [← Except.ok.inj this]
              exact hs.values_ne _ (List.getElem_mem h0))
            rw [← h4] at h3
            exact hij (Prod.mk.inj h3)
        have hzs : s' = z := Inv.ext e2 z2 (e3.trans z3.symm) (e4.trans z4.symm) fun i j _ _ => by rw [hv0, z5, sub_self]
        rw [selfLoop, if_neg hne, hat, ok_bind, hde, ok_bind, sub_self, e1, ok_bind, hzs]
        have hv' : z.itValid (its 0) = true := by
          have := hw.valid 0 h0
          simpa [itValid, z3, z4] using this
        have hn : z.itNext (its 0) = .ok ⟨z.rows, z.columns, (its 0).cpi + 1⟩ := by
          unfold itNext
          rw [if_pos hv']
          have := z2.lengths.1
          simp only []
          rw [if_pos (by omega)]
        rw [hn, ok_bind]
        have : z.itEq ⟨z.rows, z.columns, (its 0).cpi + 1⟩ z.itEnd = true := itEq_end_rows
        cases s.size with
        | zero => unfold selfLoop; rw [if_pos this]
        | succ n => unfold selfLoop; rw [if_pos this]
      · have h1 : s.values.length = 0 := by omega
        have hl := hw.last
        rw [h1] at hl
        rw [selfLoop, if_pos (itEq_end_of_invalid hl)]
        congr 1
        refine Inv.ext hs z2 z3.symm z4.symm fun i j _ _ => ?_
        rw [z5, sub_self]
        by_contra hv
        have hc := hs.filledCount_eq
        unfold filledCount at hc
        rw [h1, eq_comm, Finset.card_eq_zero, Finset.filter_eq_empty_iff] at hc
        have hin : (i, j) ∈ Finset.range s.rows ×ˢ Finset.range s.columns := by
          rw [Finset.mem_product, Finset.mem_range, Finset.mem_range]
          by_contra hc
          exact hv (hs.val_zero hc)
        exact hc hin hv
    refine ⟨⟨z, hz', z3, z4⟩, ?_⟩
    rw [hz', z1]
    unfold filledCount
    exact ⟨fun _ => by omega, fun _ => rfl⟩
  · -- two or more
    obtain ⟨u, u1, u2, u3, u4, u5⟩ := selfLoop_two (· - ·) (s.size + 1) s (its 0) hs (hw.valid 0 (by omega))
      (by rw [hw.cpi 0 (by omega)]; omega) h (by omega)
    have hu : selfAssign (· - ·) s = .ok u := by
      unfold selfAssign
      rw [hw.cbeg, ok_bind, u1]
    refine ⟨⟨u, hu, u3, u4⟩, ?_⟩
    rw [hu, z1]
    unfold filledCount
    constructor
    · intro he
      have := Except.ok.inj he
      rw [this] at u5
      omega
    · intro he; omega

/-- **C97** (partial): `m -= m` on a sparse matrix always returns a matrix of the same size; it is the zero matrix, as with a copy of
`m`, exactly when `m` has at most one non-zero entry. -/
theorem C97_sparse_sub_partial [NoZeroDivisors T] {s : Sparse T} (hs : Reach s) :
    (∃ u, selfAssign (· - ·) s = .ok u ∧ u.rows = s.rows ∧ u.columns = s.columns) ∧
    (selfAssign (· - ·) s = s.subAssign s ↔ s.filledCount ≤ 1) := sub_self_iff hs.inv

/-- **C97 fails**: on `[[1,0],[2,3]]` the result of `m -= m` is not zero and even has a new entry: `[[0,0],[0,0]]` would be right. -/
theorem C97_sparse_sub_negation : ∃ s u : Sparse Int, ofLists [[1, 0], [2, 3]] = .ok s ∧ selfAssign (· - ·) s = .ok u ∧
    [u.val 0 0, u.val 0 1, u.val 1 0, u.val 1 1] = [0, -6, 2, 3] := by
  refine ⟨_, _, rfl, rfl, ?_⟩
  decide +kernel

/-- **C97** (partial): `m *= *p` with a valid iterator `p` of the sparse matrix does what it does with a copy of the entry exactly when
`p` is at the last entry or the entry is one. -/
theorem C97_sparse_scale_partial [NoZeroDivisors T] {s : Sparse T} (hs : Reach s) {p : SIt} (hp : Walked s p) (hv : s.itValid p = true) :
    ∃ f p', s.deref p = .ok f ∧ s.itNext p = .ok p' ∧
      (scaleRef s p = s.scaleAssign f ↔ s.itValid p' = false ∨ f = 1) := by
  have hi := hs.inv
  obtain ⟨its, hw⟩ := hi.walk
  obtain ⟨k, hk, rfl⟩ := walked_nth hw hp
  have hkl : k < s.values.length := by
    rcases Nat.lt_or_ge k s.values.length with h | h
    · exact h
    · obtain rfl : k = s.values.length := by omega
      rw [hw.last] at hv; cases hv
  have hf0 : s.values[k] ≠ 0 := hi.values_ne _ (List.getElem_mem hkl)
  have hde : s.deref (its k) = .ok s.values[k] := by
    unfold deref
    rw [if_pos hv, hw.cpi k hkl]
    exact getIdx_of_some (List.getElem?_eq_getElem hkl)
  refine ⟨s.values[k], its (k + 1), hde, hw.next k hkl, ?_⟩
  obtain ⟨u, u1, u2, u3, u4, u5⟩ := hi.scale_ok s.values[k]
  obtain ⟨m1, m2⟩ := hi.mapVals (g := fun v => v * s.values[k]) (fun v hv _ => mul_ne_zero hv hf0)
  have e : u = { s with values := s.values.map fun v => v * s.values[k] } := by
    refine Inv.ext u2 m1 u3 u4 fun i j _ _ => ?_
    rw [m2, u5]
    split
    · rename_i h; simp [h]
    · rfl
  have hr : scaleRef s (its k) = .ok { s with values := s.values.mapIdx fun t v =>
      if t ≤ k then v * s.values[k] else v * (s.values[k] * s.values[k]) } := by
    unfold scaleRef
    rw [hw.cpi k hkl, getIdx_of_some (List.getElem?_eq_getElem hkl), ok_bind, if_neg hf0, hw.beg, ok_bind]
    exact scaleRefLoop_ok hw hkl (by omega)
  rw [hr, u1, e]
  have hvalid : s.itValid (its (k + 1)) = false ↔ k + 1 = s.values.length := by
    constructor
    · intro h
      by_contra hne
      rw [hw.valid (k + 1) (by omega)] at h
      cases h
    · intro h; rw [h]; exact hw.last
  rw [hvalid]
  have e1 : ((.ok { s with values := s.values.mapIdx fun t v =>
      if t ≤ k then v * s.values[k] else v * (s.values[k] * s.values[k]) } : R (Sparse T)) =
      .ok { s with values := s.values.map fun v => v * s.values[k] }) ↔
      (s.values.mapIdx fun t v => if t ≤ k then v * s.values[k] else v * (s.values[k] * s.values[k])) = s.values.map (· * s.values[k]) := by
    constructor
    · intro h; exact congrArg Sparse.values (Except.ok.inj h)
    · intro h; rw [h]
  rw [e1, Vec.mapIdx_ref_iff (· * ·) s.values hkl]
  constructor
  · intro h
    by_contra hc
    push Not at hc
    have hk1 : k + 1 < s.values.length := by omega
    have := mul_left_cancel₀ (hi.values_ne _ (List.getElem_mem hk1)) (h (k + 1) hk1 (by omega))
    exact hc.2 (mul_left_cancel₀ hf0 (by rw [mul_one]; exact this))
  · rintro (h | h) i hi' hki
    · omega
    · simp [h]

/-- **C97 fails**: `m *= *m.begin()` on `[[2,0],[3,5]]` gives `[[4,0],[12,20]]`, not `[[4,0],[6,10]]`. -/
theorem C97_sparse_scale_negation : ∃ s u : Sparse Int, ∃ p, ofLists [[2, 0], [3, 5]] = .ok s ∧ s.itBegin = .ok p ∧ scaleRef s p = .ok u ∧
    [u.val 0 0, u.val 0 1, u.val 1 0, u.val 1 1] = [4, 0, 12, 20] := by
  refine ⟨_, _, _, rfl, rfl, rfl, ?_⟩
  decide +kernel

example : ∃ s : Sparse Int, Reach s ∧ s.filledCount = 3 ∧ ∃ p, Walked s p ∧ s.itValid p = true := by
  refine ⟨_, Reach.lists (l := [[2, 0], [3, 5]]) rfl, by decide +kernel, _, Walked.begin rfl, by decide +kernel⟩

end sparse

section factor
open NS.MatOps NS.LawfulMat NS.Props.LU
variable {M T V : Type} [Field T] [DecidableEq T] [MatOps M T] [LawfulMat M T] {n : Nat}

/-- **C97** (partial): `jacobi(A, A)` does what `jacobi(A, C)` does when `C` is a copy of `A` (in particular the entries off the diagonal
stay, see C36). -/
theorem C97_jacobi_partial [LinearOrder V] (absv : T → V) (eps : V) {a : M} {A : Matrix (Fin n) (Fin n) T} (ha : IsMat a n A) :
    CG.jacobiSelf absv eps a = CG.jacobi absv eps a a := by
  unfold CG.jacobiSelf CG.jacobi
  congr 1; funext _
  congr 1; funext _
  congr 1; funext _
  rw [ha.2.1]
  refine forRange_congr_inv (fun k (m : M) => Valid m ∧ rows m = n ∧ cols m = n ∧ ∀ i, k ≤ i → i < n → get m i i = get a i i)
    ⟨ha.1, ha.2.1, ha.2.2.1, fun _ _ _ => rfl⟩ fun k m _ hk ⟨h1, h2, h3, h4⟩ => ?_
  refine ⟨by rw [h4 k (Nat.le_refl _) hk], fun m' hm' => ?_⟩
  obtain ⟨mid, _, hm'⟩ := bind_ok_iff.1 hm'
  obtain ⟨_, _, hm'⟩ := bind_ok_iff.1 hm'
  obtain ⟨m2, p1, p2, p3, p4, p5⟩ := put_ok (1 / mid) h1 (h2 ▸ hk) (h3 ▸ hk)
  rw [p1] at hm'
  cases hm'
  refine ⟨p2, by omega, by omega, fun i hi hin => ?_⟩
  rw [← h4 i (by omega) hin, get_ok p2 (by omega) (by omega), get_ok h1 (by omega) (by omega), p5, if_neg (by omega)]

/-- **C97 fails**: whenever `cholesky(m, m)` returns, the entry `(0,0)` of the result is 1, whatever the matrix. -/
theorem C97_cholesky_negation (sqrtAllowed : T → Bool) (nanAllowed : Bool) (sqrt : T → T) {m r : M} {A : Matrix (Fin n) (Fin n) T}
    (hm : IsMat m n A) (h : LU.choleskySelf sqrtAllowed nanAllowed sqrt m = .ok r) : get r 0 0 = .ok 1 := by
  have hn : 0 < n := by have := rows_pos hm.1; rw [hm.2.1] at this; exact this
  unfold LU.choleskySelf at h
  obtain ⟨_, _, h⟩ := bind_ok_iff.1 h
  obtain ⟨_, _, h⟩ := bind_ok_iff.1 h
  rw [hm.2.1] at h
  have key := sat_forRange (σ := M) (E := fun _ => True) (f := fun j L => do
    let s ← forRange 0 j (0 : T) fun k s => do
      let v ← get L j k
      return s + v * v
    let mjj ← get L j j
    let s := mjj - s
    throwIf (sqrtAllowed s = false) .notPositiveDefinite
    let L ← put L j j (sqrt s)
    if sqrt s = 0 then LU.zeroPivot nanAllowed (decide (j + 1 = rows L)) else
    forRange j (rows L) L fun i L => do
      let s ← forRange 0 i (0 : T) fun k s => do
        let a ← get L i k
        let b ← get L j k
        return s + a * b
      let mij ← get L i j
      let d ← get L j j
      let q ← fdiv (mij - s) d
      put L i j q)
    (fun k (L : M) => Valid L ∧ rows L = n ∧ cols L = n ∧ (0 < k → get L 0 0 = .ok 1)) (Nat.zero_le n) (s := m)
    ⟨hm.1, hm.2.1, hm.2.2.1, fun h => absurd h (lt_irrefl _)⟩ (by
      intro j L _ hj ⟨h1, h2, h3, h4⟩
      rw [sat_iff]
      refine ⟨fun L' hL' => ?_, fun _ _ => trivial⟩
      obtain ⟨s0, hs0, hL'⟩ := bind_ok_iff.1 hL'
      obtain ⟨mjj, _, hL'⟩ := bind_ok_iff.1 hL'
      obtain ⟨_, _, hL'⟩ := bind_ok_iff.1 hL'
      obtain ⟨L1, p1, p2, p3, p4, p5⟩ := put_ok (sqrt (mjj - s0)) h1 (h2 ▸ hj) (h3 ▸ hj)
      rw [p1, ok_bind] at hL'
      split at hL'
      · unfold LU.zeroPivot at hL'
        split at hL' <;> cases hL'
      · rename_i hne
        have e1 : get L1 j j = .ok (sqrt (mjj - s0)) := by
          rw [get_ok p2 (by omega) (by omega), p5, if_pos ⟨rfl, rfl⟩]
        rw [p3, h2] at hL'
        have key2 := sat_forRange (σ := M) (E := fun _ => True) (f := fun i L => do
          let s ← forRange 0 i (0 : T) fun k s => do
            let a ← get L i k
            let b ← get L j k
            return s + a * b
          let mij ← get L i j
          let d ← get L j j
          let q ← fdiv (mij - s) d
          put L i j q)
          (fun k (L : M) => Valid L ∧ rows L = n ∧ cols L = n ∧ (j = 0 → k = 0 → get L 0 0 = .ok (sqrt (mjj - s0))) ∧
            (0 < j ∨ 0 < k → get L 0 0 = .ok 1)) (show j ≤ n by omega) (s := L1)
          ⟨p2, by omega, by omega, fun hj0 _ => by subst hj0; exact e1, fun h => by
            have h0 : 0 < j := by omega
            have := h4 h0
            rw [get_ok h1 (by omega) (by omega)] at this
            rw [get_ok p2 (by omega) (by omega), p5, if_neg (by omega)]
            exact this⟩ (by
            intro i L _ hi ⟨k1, k2, k3, k4, k5⟩
            rw [sat_iff]
            refine ⟨fun L2 hL2 => ?_, fun _ _ => trivial⟩
            obtain ⟨s1, hs1, hL2⟩ := bind_ok_iff.1 hL2
            obtain ⟨mij, hmij, hL2⟩ := bind_ok_iff.1 hL2
            obtain ⟨d, hd, hL2⟩ := bind_ok_iff.1 hL2
            obtain ⟨q, hq, hL2⟩ := bind_ok_iff.1 hL2
            obtain ⟨L3, q1, q2, q3, q4, q5⟩ := put_ok q k1 (k2 ▸ hi) (k3 ▸ hj)
            rw [q1] at hL2
            cases hL2
            refine ⟨q2, by omega, by omega, fun _ h => by omega, fun _ => ?_⟩
            rw [get_ok q2 (by omega) (by omega), q5]
            by_cases h0 : 0 = i ∧ 0 = j
            · obtain ⟨rfl, rfl⟩ := h0
              rw [if_pos ⟨rfl, rfl⟩]
              have hg := k4 rfl rfl
              rw [hg] at hmij hd
              cases hmij
              cases hd
              cases hs1
              unfold fdiv at hq
              rw [if_neg hne] at hq
              cases hq
              rw [sub_zero, div_self hne]
            · rw [if_neg h0, ← get_ok k1 (by omega) (by omega)]
              exact k5 (by omega))
        rw [hL'] at key2
        obtain ⟨a1, a2, a3, -, a5⟩ := key2
        exact ⟨a1, a2, a3, fun _ => a5 (by omega)⟩)
  rw [h] at key
  exact key.2.2.2 hn

/-- `cholesky` of the 1x1 matrix `(4)` is `(2)`; called as `cholesky(m, m)` it returns `(1)`. -/
example : LU.cholesky (fun s : ℚ => decide (0 ≤ s)) false (fun s => if s = 4 then 2 else s) (⟨[4], 1, 1⟩ : Dense ℚ) ⟨[0], 1, 1⟩ = .ok ⟨[2], 1, 1⟩ ∧
    LU.choleskySelf (fun s : ℚ => decide (0 ≤ s)) false (fun s => if s = 4 then 2 else s) (⟨[4], 1, 1⟩ : Dense ℚ) = .ok ⟨[1], 1, 1⟩ := by
  decide +kernel

example : CG.jacobiSelf (AbsoluteValue.abs : AbsoluteValue ℚ ℚ) (1 / 1000) (⟨[2, 1, 1, 4], 2, 2⟩ : Dense ℚ) = .ok ⟨[1 / 2, 1, 1, 1 / 4], 2, 2⟩ := by
  decide +kernel

end factor
end NS.Props.Alias

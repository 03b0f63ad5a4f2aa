/-
Lemmas about the assembling loops of `FdmModel.lean`, and about matrices of discrete Dirichlet problems.
-/
import Verif.FdmModel
import Verif.Props.LU
import Verif.VecIs
import Verif.Props.SorLevels

set_option linter.unusedSectionVars false
set_option linter.unusedSimpArgs false

namespace NS.Grid
open NS NS.MatOps NS.LawfulStore NS.Props.LU Matrix
section store
variable {M T : Type} [Zero T] [One T] [MatOps M T] [LawfulStore M T]

/-- the rows in `S` are finished, the others are still empty -/
structure Upto (D : Nat) (row : Nat → Nat → T) (rhs : Nat → T) (S : Nat → Prop) (st : M × List T) : Prop where
  valid : Valid st.1
  rows : MatOps.rows st.1 = D
  cols : MatOps.cols st.1 = D
  len : st.2.length = D
  done : ∀ r, S r → r < D → (∀ c, c < D → val st.1 r c = row r c) ∧ st.2.getD r 0 = rhs r
  todo : ∀ r, ¬ S r → r < D → (∀ c, c < D → val st.1 r c = 0) ∧ st.2.getD r 0 = 0

/-- `f` finishes the rows in `P` -/
def Adds (D : Nat) (row : Nat → Nat → T) (rhs : Nat → T) (P : Nat → Prop) (f : M × List T → R (M × List T)) : Prop :=
  ∀ S st, Upto D row rhs S st → ∃ st', f st = .ok st' ∧ Upto D row rhs (fun r => S r ∨ P r) st'

variable {D : Nat} {row : Nat → Nat → T} {rhs : Nat → T}

theorem Upto.congr {S S' : Nat → Prop} {st : M × List T} (h : Upto D row rhs S st) (e : ∀ r, r < D → (S r ↔ S' r)) : Upto D row rhs S' st :=
  ⟨h.valid, h.rows, h.cols, h.len, fun r hr hD => h.done r ((e r hD).2 hr) hD, fun r hr hD => h.todo r (fun h' => hr ((e r hD).1 h')) hD⟩

/-- a loop finishes what its passes finish -/
theorem Adds.loop {P : Nat → Nat → Prop} {f : Nat → M × List T → R (M × List T)} {a b : Nat}
    (h : ∀ i, a ≤ i → i < b → Adds D row rhs (P i) (f i)) :
    Adds D row rhs (fun r => ∃ i, a ≤ i ∧ i < b ∧ P i r) (fun st => forRange a b st f) := by
  suffices key : ∀ k a, (∀ i, a ≤ i → i < b → Adds D row rhs (P i) (f i)) → b - a = k →
      Adds D row rhs (fun r => ∃ i, a ≤ i ∧ i < b ∧ P i r) (fun st => forRange a b st f) from key _ a h rfl
  intro k
  induction k with
  | zero =>
    intro a _ hk S st hst
    refine ⟨st, forRange_empty (by omega) st, hst.congr fun r _ => ⟨Or.inl, ?_⟩⟩
    rintro (h | ⟨i, h1, h2, -⟩)
    · exact h
    · omega
  | succ k ih =>
    intro a h hk S st hst
    obtain ⟨st1, e1, h1⟩ := h a le_rfl (by omega) S st hst
    obtain ⟨st2, e2, h2⟩ := ih (a + 1) (fun i hi hb => h i (by omega) hb) (by omega) _ st1 h1
    refine ⟨st2, by show forRange a b st f = _; rw [forRange_step (by omega), e1]; exact e2, h2.congr fun r _ => ?_⟩
    constructor
    · rintro ((h | h) | ⟨i, h3, h4, h5⟩)
      · exact .inl h
      · exact .inr ⟨a, le_rfl, by omega, h⟩
      · exact .inr ⟨i, by omega, h4, h5⟩
    · rintro (h | ⟨i, h3, h4, h5⟩)
      · exact .inl (.inl h)
      · by_cases hi : i = a
        · subst hi; exact .inl (.inr h5)
        · exact .inr ⟨i, by omega, h4, h5⟩

/-- rows in `P` may be rewritten, with the intended values or leaving intended zeros untouched -/
theorem Upto.extend {S P : Nat → Prop} {st st' : M × List T} (h : Upto D row rhs S st) (hv : Valid st'.1)
    (hr : MatOps.rows st'.1 = MatOps.rows st.1) (hc : MatOps.cols st'.1 = MatOps.cols st.1) (hl : st'.2.length = st.2.length)
    (hP : ∀ i j, i < D → j < D → P i → val st'.1 i j = row i j ∨ (row i j = 0 ∧ val st'.1 i j = val st.1 i j))
    (hO : ∀ i j, i < D → j < D → ¬ P i → val st'.1 i j = val st.1 i j)
    (hPb : ∀ i, i < D → P i → st'.2.getD i 0 = rhs i) (hOb : ∀ i, i < D → ¬ P i → st'.2.getD i 0 = st.2.getD i 0) :
    Upto D row rhs (fun r => S r ∨ P r) st' := by
  refine ⟨hv, hr.trans h.rows, hc.trans h.cols, hl.trans h.len, fun r hr hD => ?_, fun r hr hD => ?_⟩
  · by_cases hp : P r
    · refine ⟨fun c hc => ?_, hPb r hD hp⟩
      rcases hP r c hD hc hp with h1 | ⟨h1, h2⟩
      · exact h1
      · rw [h2, h1]
        by_cases hs : S r
        · rw [(h.done r hs hD).1 c hc, h1]
        · exact (h.todo r hs hD).1 c hc
    · have hs := hr.resolve_right hp
      exact ⟨fun c hc => by rw [hO r c hD hc hp]; exact (h.done r hs hD).1 c hc, by rw [hOb r hD hp]; exact (h.done r hs hD).2⟩
  · push Not at hr
    exact ⟨fun c hc => by rw [hO r c hD hc hr.2]; exact (h.todo r hr.1 hD).1 c hc, by rw [hOb r hD hr.2]; exact (h.todo r hr.1 hD).2⟩

theorem getD_set (v : List T) (i k : Nat) (x : T) (h : i < v.length) : (v.set i x).getD k 0 = if k = i then x else v.getD k 0 := by
  rw [List.getD_eq_getElem?_getD, List.getElem?_set, List.getD_eq_getElem?_getD]
  by_cases hk : i = k
  · subst hk; simp [h]
  · simp [hk, Ne.symm hk]

/-- writing a list of entries of one row -/
def putRow (r : Nat) : List (Nat × T) → M → R M
  | [], a => .ok a
  | e :: l, a => do let a ← put a r e.1 e.2; putRow r l a

/-- `putRow` in terms of the values: the last write to a column counts -/
def rowVal : List (Nat × T) → Nat → T → T
  | [], _, x => x
  | e :: l, c, x => rowVal l c (if c = e.1 then e.2 else x)

theorem putRow_ok (r : Nat) (l : List (Nat × T)) : ∀ (a : M), Valid a → r < MatOps.rows a → (∀ e ∈ l, e.1 < MatOps.cols a) →
    ∃ a' : M, putRow r l a = .ok a' ∧ Valid a' ∧ MatOps.rows a' = MatOps.rows a ∧ MatOps.cols a' = MatOps.cols a ∧
      ∀ i j, val a' i j = if i = r then rowVal l j (val a i j) else val a i j := by
  induction l with
  | nil => intro a ha _ _; exact ⟨a, rfl, ha, rfl, rfl, fun i j => by simp [rowVal]⟩
  | cons e l ih =>
    intro a ha hr hl
    obtain ⟨a1, e1, v1, r1, c1, w1⟩ := put_ok (m := a) (i := r) (j := e.1) e.2 ha hr (hl e (by simp))
    obtain ⟨a2, e2, v2, r2, c2, w2⟩ := ih a1 v1 (by omega) (fun e he => by rw [c1]; exact hl e (by simp [he]))
    refine ⟨a2, by unfold putRow; rw [e1]; exact e2, v2, r2.trans r1, c2.trans c1, fun i j => ?_⟩
    rw [w2, w1]
    by_cases hi : i = r
    · subst hi; simp [rowVal]
    · simp [hi]

/-- finishing one row: entries `l`, right-hand side `x` -/
theorem adds_row {r : Nat} (hr : r < D) {l : List (Nat × T)} (hl : ∀ e ∈ l, e.1 < D) {x : T}
    (h1 : ∀ j, j < D → ∀ y, rowVal l j y = row r j ∨ (row r j = 0 ∧ rowVal l j y = y)) (h2 : x = rhs r) :
    Adds D row rhs (fun i => i = r) (fun st : M × List T => do let a ← putRow r l st.1; let b ← vecSet st.2 r x; return (a, b)) := by
  intro S st h
  obtain ⟨a', e1, v1, r1, c1, w1⟩ := putRow_ok r l st.1 h.valid (by rw [h.rows]; exact hr) (by rw [h.cols]; exact hl)
  refine ⟨(a', st.2.set r x), ?_, ?_⟩
  · show (putRow r l st.1 >>= _) = _
    rw [e1, ok_bind, vecSet_ok (by rw [h.len]; exact hr)]
    rfl
  · refine h.extend v1 r1 c1 (by simp) ?_ ?_ ?_ ?_
    · rintro i j hi hj rfl
      rw [w1, if_pos rfl]
      exact h1 j hj _
    · intro i j _ _ hi
      rw [w1, if_neg hi]
    · rintro i hi rfl
      rw [getD_set _ _ _ _ (by rw [h.len]; exact hr), if_pos rfl, h2]
    · intro i _ hi
      rw [getD_set _ _ _ _ (by rw [h.len]; exact hr), if_neg hi]

/-- two rows, with the matrix writes first -/
theorem adds_two {r r' : Nat} (hr : r < D) (hr' : r' < D) {x x' : T} (h1 : ∀ j, j < D → row r j = if j = r then 1 else 0)
    (h1' : ∀ j, j < D → row r' j = if j = r' then 1 else 0) (h2 : x = rhs r) (h2' : x' = rhs r') :
    Adds D row rhs (fun i => i = r ∨ i = r') (fun st : M × List T => do
      let a ← put st.1 r r 1
      let a ← put a r' r' 1
      let b ← vecSet st.2 r x
      let b ← vecSet b r' x'
      return (a, b)) := by
  intro S st h
  obtain ⟨a1, e1, v1, r1, c1, w1⟩ := put_ok (m := st.1) (i := r) (j := r) (1 : T) h.valid (by rw [h.rows]; exact hr) (by rw [h.cols]; exact hr)
  obtain ⟨a2, e2, v2, r2, c2, w2⟩ := put_ok (m := a1) (i := r') (j := r') (1 : T) v1 (by rw [r1, h.rows]; exact hr') (by rw [c1, h.cols]; exact hr')
  refine ⟨(a2, (st.2.set r x).set r' x'), ?_, ?_⟩
  · simp only [e1, ok_bind, e2]
    rw [vecSet_ok (by rw [h.len]; exact hr), ok_bind, vecSet_ok (by rw [List.length_set, h.len]; exact hr')]
    rfl
  · have hb : ∀ k, ((st.2.set r x).set r' x').getD k 0 = if k = r' then x' else if k = r then x else st.2.getD k 0 := by
      intro k
      rw [getD_set _ _ _ _ (by rw [List.length_set, h.len]; exact hr'), getD_set _ _ _ _ (by rw [h.len]; exact hr)]
    refine h.extend v2 (r2.trans r1) (c2.trans c1) (by simp) ?_ ?_ ?_ ?_
    · intro i j hi hj hP
      rw [w2, w1]
      rcases hP with rfl | rfl
      · rw [h1 j hj]
        by_cases hji : j = i
        · subst hji; simp
        · have : ¬ (i = r' ∧ j = r') := by rintro ⟨rfl, rfl⟩; exact hji rfl
          simp [hji, this]
      · rw [h1' j hj]
        by_cases hji : j = i
        · subst hji; simp
        · have : ¬ (i = r ∧ j = r) := by rintro ⟨rfl, rfl⟩; exact hji rfl
          simp [hji, this]
    · intro i j _ _ hP
      push Not at hP
      rw [w2, w1]
      simp [hP.1, hP.2]
    · intro i _ hP
      rw [hb]
      rcases hP with rfl | rfl
      · split
        · next h => subst h; exact h2'
        · simp [h2]
      · simp [h2']
    · intro i _ hP
      push Not at hP
      rw [hb]; simp [hP.1, hP.2]

/-- the start: an empty matrix and a zero vector -/
theorem upto_start (hD : 0 < D) : ∃ a : M, make D D = .ok a ∧ Upto D row rhs (fun _ => False) (a, Vec.resize [] D) := by
  obtain ⟨a, e, v, r, c, z⟩ := make_ok (M := M) (T := T) hD hD
  refine ⟨a, e, v, r, c, by simp [Vec.resize], fun _ h => h.elim, fun r _ hr => ⟨fun c _ => z r c, ?_⟩⟩
  simp [Vec.resize, List.getD_eq_getElem?_getD, hr]

end store

section field
variable {M T : Type} [Field T] [DecidableEq T] [MatOps M T] [LawfulMat M T] {D : Nat} {row : Nat → Nat → T} {rhs : Nat → T}
/-- everything finished: the matrix and the vector -/
theorem Upto.final {S : Nat → Prop} {st : M × List T} (h : Upto D row rhs S st) (hS : ∀ r, r < D → S r) :
    IsMat st.1 D (fun i j => row i j) ∧ IsVec st.2 D (fun i => rhs i) := by
  constructor
  · refine ⟨h.valid, h.rows, h.cols, fun i j => ?_⟩
    rw [get_ok h.valid (by rw [h.rows]; exact i.2) (by rw [h.cols]; exact j.2), (h.done i (hS i i.2) i.2).1 j j.2]
  · rw [isVec_iff]
    exact ⟨h.len, fun i => (h.done i (hS i i.2) i.2).2⟩
end field
end NS.Grid

namespace NS.Grid
open NS NS.MatOps NS.LawfulMat NS.Props.LU NS.Props.Iter Matrix

section entries
variable {T : Type} [Zero T] {n : Nat}

/-- component `i` of `u`, 0 outside -/
def ev (u : Fin n → T) (i : Nat) : T := if h : i < n then u ⟨i, h⟩ else 0

theorem ev_fin (u : Fin n → T) (i : Fin n) : ev u i = u i := by simp [ev]

theorem rowVal_not {l : List (Nat × T)} {c : Nat} (h : ∀ e ∈ l, e.1 ≠ c) (x : T) : rowVal l c x = x := by
  induction l generalizing x with
  | nil => rfl
  | cons e l ih =>
    have h1 := h e (by simp)
    rw [rowVal, if_neg (Ne.symm h1)]
    exact ih (fun e he => h e (by simp [he])) x

theorem rowVal_indep {l : List (Nat × T)} {c : Nat} (h : ∃ e ∈ l, e.1 = c) (x y : T) : rowVal l c x = rowVal l c y := by
  induction l generalizing x y with
  | nil => obtain ⟨e, he, -⟩ := h; simp at he
  | cons e l ih =>
    rw [rowVal, rowVal]
    by_cases hc : c = e.1
    · rw [if_pos hc, if_pos hc]
    · rw [if_neg hc, if_neg hc]
      obtain ⟨e', h1, h2⟩ := h
      rcases List.mem_cons.1 h1 with rfl | h1
      · exact absurd h2.symm hc
      · exact ih ⟨e', h1, h2⟩ x y

theorem rowVal_cases (l : List (Nat × T)) (c : Nat) (y : T) : rowVal l c y = rowVal l c 0 ∨ (rowVal l c 0 = 0 ∧ rowVal l c y = y) := by
  by_cases h : ∃ e ∈ l, e.1 = c
  · exact .inl (rowVal_indep h _ _)
  · push Not at h
    exact .inr ⟨rowVal_not h 0, rowVal_not h y⟩

theorem rowVal_mem {l : List (Nat × T)} {c : Nat} (h : rowVal l c 0 ≠ 0) : ∃ e ∈ l, e.1 = c ∧ e.2 = rowVal l c 0 := by
  suffices key : ∀ (l : List (Nat × T)) (x : T), (∃ e ∈ l, e.1 = c ∧ e.2 = rowVal l c x) ∨ rowVal l c x = x from
    (key l 0).resolve_right h
  intro l
  induction l with
  | nil => intro x; exact .inr rfl
  | cons e l ih =>
    intro x
    rw [rowVal]
    rcases ih (if c = e.1 then e.2 else x) with ⟨e', h1, h2, h3⟩ | h1
    · exact .inl ⟨e', by simp [h1], h2, h3⟩
    · by_cases hc : c = e.1
      · rw [if_pos hc] at h1 ⊢
        exact .inl ⟨e, by simp, hc.symm, h1.symm⟩
      · rw [if_neg hc] at h1 ⊢
        exact .inr h1

theorem rowVal_of_mem {l : List (Nat × T)} (hn : (l.map (·.1)).Nodup) {e : Nat × T} (he : e ∈ l) (x : T) : rowVal l e.1 x = e.2 := by
  induction l generalizing x with
  | nil => simp at he
  | cons f l ih =>
    rw [List.map_cons, List.nodup_cons] at hn
    rw [rowVal]
    rcases List.mem_cons.1 he with rfl | h1
    · rw [if_pos rfl]
      exact rowVal_not (c := e.1) (fun e' h' heq => hn.1 (by rw [← heq]; exact List.mem_map_of_mem (f := fun x : Nat × T => x.1) h')) _
    · exact ih hn.2 h1 _

end entries

section sums
variable {T : Type} [Field T] {n : Nat}
/-- a row applied to a vector -/
theorem rowVal_sum (u : Fin n → T) {l : List (Nat × T)} (hn : (l.map (·.1)).Nodup) :
    (∑ c : Fin n, rowVal l c 0 * u c) = (l.map fun e => e.2 * ev u e.1).sum := by
  induction l with
  | nil => simp [rowVal]
  | cons e l ih =>
    rw [List.map_cons, List.nodup_cons] at hn
    rw [List.map_cons, List.sum_cons, ← ih hn.2]
    have e1 : ∀ c : Fin n, rowVal (e :: l) c 0 * u c = (if (c : Nat) = e.1 then e.2 * u c else 0) + rowVal l c 0 * u c := by
      intro c
      rw [rowVal]
      by_cases hc : (c : Nat) = e.1
      · have : ∀ f ∈ l, f.1 ≠ c := fun f hf heq => hn.1 (by rw [← hc, ← heq]; exact List.mem_map_of_mem hf)
        rw [if_pos hc, if_pos hc, rowVal_not this, rowVal_not this]; ring
      · rw [if_neg hc, if_neg hc]; ring
    rw [Finset.sum_congr rfl fun c _ => e1 c, Finset.sum_add_distrib]
    congr 1
    unfold ev
    by_cases h : e.1 < n
    · rw [dif_pos h, Finset.sum_eq_single_of_mem ⟨e.1, h⟩ (Finset.mem_univ _)]
      · simp
      · intro c _ hc
        rw [if_neg]
        intro h2; exact hc (Fin.ext h2)
    · rw [dif_neg h, mul_zero]
      refine Finset.sum_eq_zero fun c _ => ?_
      rw [if_neg]
      intro h2; exact h (h2 ▸ c.2)
end sums

section order
variable {T : Type} [Field T] [LinearOrder T] [IsStrictOrderedRing T] {n : Nat}

/-- maximum principle: where the row sum is zero, the off-diagonal entries are not positive and `(L u) r ≤ 0`, the maximum
of `u` propagates to a predecessor; so it is attained in the rows for which a bound is known -/
theorem max_principle {L : Matrix (Fin n) (Fin n) T} {rim : Fin n → Prop} (μ : Fin n → Nat) {u : Fin n → T} {m : T}
    (hrow : ∀ r, ¬ rim r → (∀ c, c ≠ r → L r c ≤ 0) ∧ (∑ c, L r c) = 0 ∧ ∃ c, μ c < μ r ∧ L r c < 0)
    (hsub : ∀ r, ¬ rim r → (L *ᵥ u) r ≤ 0) (hrim : ∀ r, rim r → u r ≤ m) (r : Fin n) : u r ≤ m := by
  have : Nonempty (Fin n) := ⟨r⟩
  obtain ⟨r0, h0⟩ := Finite.exists_max u
  suffices key : ∀ k r, μ r = k → (∀ c, u c ≤ u r) → u r ≤ m from (h0 r).trans (key _ r0 rfl h0)
  intro k
  induction k using Nat.strong_induction_on with
  | _ k ih =>
    intro r hk hmax
    by_cases hr : rim r
    · exact hrim r hr
    · obtain ⟨h1, h2, c, h3, h4⟩ := hrow r hr
      have e : (∑ c, L r c * (u c - u r)) = (L *ᵥ u) r := by
        have : (∑ c, L r c * (u c - u r)) = (L *ᵥ u) r - (∑ c, L r c) * u r := by
          unfold Matrix.mulVec dotProduct
          rw [Finset.sum_mul, ← Finset.sum_sub_distrib]
          exact Finset.sum_congr rfl fun c _ => by ring
        rw [this, h2]; ring
      have hnn : ∀ c ∈ Finset.univ, 0 ≤ L r c * (u c - u r) := by
        intro c _
        by_cases hc : c = r
        · subst hc; simp
        · exact mul_nonneg_of_nonpos_of_nonpos (h1 c hc) (by have := hmax c; linarith)
      have hz := (Finset.sum_eq_zero_iff_of_nonneg hnn).1 (le_antisymm (by rw [e]; exact hsub r hr) (Finset.sum_nonneg hnn)) c (Finset.mem_univ c)
      have hcr : u c = u r := by
        rcases mul_eq_zero.1 hz with h | h
        · exact absurd h h4.ne
        · linarith
      have := ih (μ c) (by omega) c rfl (fun d => by rw [hcr]; exact hmax d)
      rwa [hcr] at this

/-- a symmetric matrix with non-positive off-diagonal entries and non-negative row sums, in which every row has a positive sum or
refers to a predecessor, is positive definite -/
theorem spd_of_zmatrix {S : Matrix (Fin n) (Fin n) T} (μ : Fin n → Nat) (hsym : S.transpose = S) (hoff : ∀ i j, i ≠ j → S i j ≤ 0)
    (hrow : ∀ i, 0 ≤ ∑ j, S i j) (hdesc : ∀ i, 0 < (∑ j, S i j) ∨ ∃ j, μ j < μ i ∧ S i j < 0) : NS.CG.SPD S := by
  refine ⟨hsym, fun v hv => ?_⟩
  have hs : ∀ i j, S j i = S i j := fun i j => congrFun (congrFun hsym i) j
  have e : 2 * (v ⬝ᵥ S *ᵥ v) = 2 * (∑ i, (∑ j, S i j) * v i ^ 2) + ∑ i, ∑ j, -S i j * (v i - v j) ^ 2 := by
    have e1 : (∑ i, ∑ j, S i j * v j ^ 2) = ∑ i, ∑ j, S i j * v i ^ 2 := by
      rw [Finset.sum_comm]
      exact Finset.sum_congr rfl fun i _ => Finset.sum_congr rfl fun j _ => by rw [hs]
    have e2 : (∑ i, ∑ j, -S i j * (v i - v j) ^ 2) = 2 * (∑ i, ∑ j, v i * (S i j * v j)) - (∑ i, ∑ j, S i j * v i ^ 2) - ∑ i, ∑ j, S i j * v j ^ 2 := by
      rw [Finset.mul_sum, ← Finset.sum_sub_distrib, ← Finset.sum_sub_distrib]
      refine Finset.sum_congr rfl fun i _ => ?_
      rw [Finset.mul_sum, ← Finset.sum_sub_distrib, ← Finset.sum_sub_distrib]
      exact Finset.sum_congr rfl fun j _ => by ring
    have e3 : v ⬝ᵥ S *ᵥ v = ∑ i, ∑ j, v i * (S i j * v j) := by
      unfold Matrix.mulVec dotProduct
      exact Finset.sum_congr rfl fun i _ => by rw [Finset.mul_sum]
    have e4 : (∑ i, (∑ j, S i j) * v i ^ 2) = ∑ i, ∑ j, S i j * v i ^ 2 :=
      Finset.sum_congr rfl fun i _ => by rw [Finset.sum_mul]
    rw [e2, e1, e3, e4]; ring
  have t1 : ∀ i ∈ Finset.univ, 0 ≤ (∑ j, S i j) * v i ^ 2 := fun i _ => mul_nonneg (hrow i) (sq_nonneg _)
  have t2 : ∀ i ∈ Finset.univ, ∀ j ∈ Finset.univ, 0 ≤ -S i j * (v i - v j) ^ 2 := by
    intro i _ j _
    by_cases h : i = j
    · subst h; simp
    · exact mul_nonneg (by have := hoff i j h; linarith) (sq_nonneg _)
  have t3 : ∀ i ∈ Finset.univ, 0 ≤ ∑ j, -S i j * (v i - v j) ^ 2 := fun i hi => Finset.sum_nonneg (t2 i hi)
  by_contra hle
  push Not at hle
  have s1 := Finset.sum_nonneg t1
  have s2 := Finset.sum_nonneg t3
  have z1 := (Finset.sum_eq_zero_iff_of_nonneg t1).1 (by linarith)
  have z2 := (Finset.sum_eq_zero_iff_of_nonneg t3).1 (by linarith)
  apply hv
  suffices key : ∀ k i, μ i = k → v i = 0 from funext fun i => key _ i rfl
  intro k
  induction k using Nat.strong_induction_on with
  | _ k ih =>
    intro i hi
    rcases hdesc i with h | ⟨j, h1, h2⟩
    · rcases mul_eq_zero.1 (z1 i (Finset.mem_univ i)) with h3 | h3
      · exact absurd h3 h.ne'
      · exact pow_eq_zero_iff two_ne_zero |>.1 h3
    · have z3 := (Finset.sum_eq_zero_iff_of_nonneg (t2 i (Finset.mem_univ i))).1 (z2 i (Finset.mem_univ i)) j (Finset.mem_univ j)
      have hj := ih (μ j) (by omega) j rfl
      rcases mul_eq_zero.1 z3 with h3 | h3
      · exact absurd (neg_eq_zero.1 h3) h2.ne
      · have := pow_eq_zero_iff two_ne_zero |>.1 h3
        rw [hj] at this
        linarith
end order
end NS.Grid

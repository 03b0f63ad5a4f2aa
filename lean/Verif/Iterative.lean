/-
Correctness of the sweeps and the outer loop of `Iterative::serial`.
-/
import Verif.IterativeModel
import Verif.VecIs

set_option linter.unusedSectionVars false
set_option linter.unusedSimpArgs false

namespace NS.Iterative
open NS NS.MatOps NS.LawfulMat NS.Props.LU Matrix
variable {M T : Type} [Field T] [LinearOrder T] [IsStrictOrderedRing T] [MatOps M T] [LawfulMat M T] {n : Nat}
  {a : M} {A : Matrix (Fin n) (Fin n) T}

/-- vector object holding the finite values `v` -/
def fl (v : Fin n → T) : List (Fl T) := List.ofFn fun i => Fl.fin (v i)

theorem fl_length (v : Fin n → T) : (fl v).length = n := by simp [fl]
theorem vecAt_ofFn {α : Type} (g : Fin n → α) (i : Fin n) : vecAt (List.ofFn g) i = .ok (g i) := by
  rw [vecAt_ok (by simp)]; simp
theorem vecAt_fl (v : Fin n → T) {i : Nat} (h : i < n) : vecAt (fl v) i = .ok (Fl.fin (v ⟨i, h⟩)) :=
  vecAt_ofFn _ ⟨i, h⟩

/-- `Σ_{j ≠ i} A i j x j` -/
def offSum (A : Matrix (Fin n) (Fin n) T) (x : Fin n → T) (i : Fin n) : T := ∑ j, if j = i then 0 else A i j * x j

theorem forList_mid (l : List (Nat × Nat × T)) (i : Nat) (g : Nat → T)
    (body : Nat × Nat × T → Fl T × Fl T → R (Fl T × Fl T))
    (h1 : ∀ e ∈ l, e.2.1 ≠ i → ∀ s, body e s = .ok (s.1, s.2 + .fin (e.2.2 * g e.2.1)))
    (h2 : ∀ e ∈ l, e.2.1 = i → ∀ s, body e s = .ok (.fin e.2.2, s.2))
    (s : Fl T × Fl T) (hs : l.Pairwise (fun a b => a.2.1 < b.2.1)) :
    forList l s body = .ok
      (((l.find? (fun e => e.2.1 == i)).elim s.1 (fun e => .fin e.2.2)),
        s.2 + .fin ((l.filter (fun e => e.2.1 != i)).map (fun e => e.2.2 * g e.2.1)).sum) := by
  induction l generalizing s with
  | nil =>
    show Except.ok s = _
    congr 1
    ext1
    · rfl
    · show s.2 = s.2 + 0
      rw [add_zero]
  | cons e l ih =>
    obtain ⟨p1, p2⟩ := List.pairwise_cons.1 hs
    by_cases he : e.2.1 = i
    · rw [forList, h2 e (by simp) he, ok_bind,
        ih (fun e' h => h1 e' (List.mem_cons_of_mem _ h)) (fun e' h => h2 e' (List.mem_cons_of_mem _ h)) _ p2]
      have hno : l.find? (fun e => e.2.1 == i) = none := by
        rw [List.find?_eq_none]
        intro e' h'
        have := p1 e' h'
        simp; omega
      rw [hno]
      simp [he]
    · rw [forList, h1 e (by simp) he, ok_bind,
        ih (fun e' h => h1 e' (List.mem_cons_of_mem _ h)) (fun e' h => h2 e' (List.mem_cons_of_mem _ h)) _ p2]
      simp only [List.find?_cons, beq_iff_eq, he, if_false, List.filter_cons, bne_iff_ne, ne_eq, not_false_eq_true, if_true,
        List.map_cons, List.sum_cons, add_assoc, Fl.fin_add, beq_eq_false_iff_ne.2 he]

/-- The row loop of either method on finite data: `mid` is the diagonal entry and `t` the off-diagonal sum. -/
theorem row_ok (ha : IsMat a n A) (i : Fin n) (g : Fin n → T)
    (body : Nat × Nat × T → Fl T × Fl T → R (Fl T × Fl T))
    (h1 : ∀ e : Nat × Nat × T, (h : e.2.1 < n) → e.2.1 ≠ i → ∀ s, body e s = .ok (s.1, s.2 + .fin (e.2.2 * g ⟨e.2.1, h⟩)))
    (h2 : ∀ e : Nat × Nat × T, e.2.1 = i → ∀ s, body e s = .ok (.fin e.2.2, s.2)) :
    ∃ row, rowEntries a i = .ok row ∧ forList row (0, 0) body = .ok (.fin (A i i), .fin (offSum A g i)) := by
  obtain ⟨l, q1, q2, q3, q4⟩ := rowEntries_ok (m := a) (i := i) ha.1 (by rw [ha.2.1]; exact i.2)
  obtain ⟨l', r1, r2, r3, r4⟩ := ha.sq.row_sum i.2
  rw [q1] at r1; cases r1
  refine ⟨l, q1, ?_⟩
  rw [forList_mid l i (fun j => if h : j < n then g ⟨j, h⟩ else 0) body
    (fun e he hne s => by rw [h1 e (r3 e he) hne s, dif_pos (r3 e he)]) (fun e _ he s => h2 e he s) _ q2]
  have e1 : (l.find? (fun e => e.2.1 == (i : Nat))).elim (0 : Fl T) (fun e => .fin e.2.2) = .fin (A i i) := by
    cases hf : l.find? (fun e => e.2.1 == (i : Nat)) with
    | none =>
      rw [List.find?_eq_none] at hf
      have : val a i i = 0 := by
        by_contra h
        exact hf _ (q4 i (by rw [ha.2.2.1]; exact i.2) h) (by simp)
      rw [ha.val_eq] at this
      rw [this]; rfl
    | some e =>
      have h3 := List.mem_of_find?_eq_some hf
      have h4 := List.find?_some hf
      simp only [beq_iff_eq] at h4
      have := (q3 e h3).2.2
      rw [h4, ha.val_eq] at this
      show Fl.fin e.2.2 = _
      rw [this]
  have e2 : ((l.filter (fun e => e.2.1 != (i : Nat))).map
      (fun e => e.2.2 * (fun j => if h : j < n then g ⟨j, h⟩ else 0) e.2.1)).sum = offSum A g i := by
    have := r4 (fun j => j != (i : Nat)) (fun j => if h : j < n then g ⟨j, h⟩ else 0)
    rw [this, Finset.sum_range]
    unfold offSum
    refine Finset.sum_congr rfl fun j _ => ?_
    by_cases hj : j = i
    · subst hj; simp
    · have : (j : Nat) ≠ i := fun h => hj (Fin.ext h)
      simp [hj, this, ha.val_eq]
  rw [e1, e2]
  show Except.ok (_, (0 : Fl T) + _) = _
  rw [zero_add]

theorem jacobiRow_ok (ha : IsMat a n A) (x : Fin n → T) (i : Fin n) :
    ∃ row, rowEntries a i = .ok row ∧ jacobiRow (fl x) i row = .ok (.fin (A i i), .fin (offSum A x i)) := by
  refine row_ok ha i x _ ?_ ?_
  · intro e h hne s
    simp only [hne, ne_eq, not_false_eq_true, if_true, vecAt_fl x h, ok_bind, pure_eq_ok, Fl.fin_mul]
  · intro e he s
    simp only [he, ne_eq, not_true_eq_false, if_false, pure_eq_ok]

/-- a counted loop writing entry `i` of a vector from the earlier entries -/
theorem forRange_fill {α : Type} (xm : List α) (hlen : xm.length = n) (g : Fin n → α) (body : Nat → List α → R (List α))
    (hb : ∀ (i : Fin n) (w : List α), w.length = n → (∀ j : Fin n, (j : Nat) < i → vecAt w j = .ok (g j)) →
      (∀ j : Fin n, (i : Nat) ≤ j → vecAt w j = vecAt xm j) → body i w = vecSet w i (g i)) :
    forRange 0 n xm body = .ok (List.ofFn g) := by
  have := sat_forRange (f := body) (E := noErr) (fun k (w : List α) => w.length = n ∧
      (∀ j : Fin n, (j : Nat) < k → vecAt w j = .ok (g j)) ∧ (∀ j : Fin n, k ≤ (j : Nat) → vecAt w j = vecAt xm j))
    (Nat.zero_le n) (s := xm) ⟨hlen, by simp, by simp⟩ (by
      intro k w _ hk ⟨h1, h2, h3⟩
      rw [hb ⟨k, hk⟩ w h1 h2 h3, vecSet_ok (show (k : Nat) < w.length by omega)]
      refine ⟨by simp [h1], ?_, ?_⟩
      · intro j hj
        rcases Nat.lt_succ_iff_lt_or_eq.1 hj with h | h
        · rw [← h2 j h]
          rw [vecAt_ok (by simp [h1]), vecAt_ok (by simp [h1])]
          simp [show k ≠ (j : Nat) by omega]
        · obtain rfl : j = ⟨k, hk⟩ := Fin.ext h
          rw [vecAt_ok (by simp [h1, hk])]
          simp
      · intro j hj
        rw [← h3 j (by omega), vecAt_ok (by simp [h1]), vecAt_ok (by simp [h1])]
        simp [show k ≠ (j : Nat) by omega])
  obtain ⟨w, e, h1, h2, -⟩ := this.ok_of
  rw [e]
  congr 1
  apply List.ext_getElem (by simp [h1])
  intro i hi hi'
  have := h2 ⟨i, by omega⟩ (by simp; omega)
  rw [vecAt_ok hi] at this
  rw [Except.ok.inj this]
  simp

theorem jacobiSweep_ok (ha : IsMat a n A) (b x : Fin n → T) (xm : List (Fl T)) (hlen : xm.length = n) :
    jacobiSweep a (fl b) (fl x) xm = .ok (List.ofFn fun i => Fl.fin (b i - offSum A x i) / Fl.fin (A i i)) := by
  unfold jacobiSweep
  rw [ha.2.1]
  refine forRange_fill xm hlen _ _ ?_
  intro i w hw _ _
  obtain ⟨row, e1, e2⟩ := jacobiRow_ok ha x i
  simp only [e1, ok_bind, e2, vecAt_fl b i.2, Fl.fin_sub]

/-- the convergence test of the loop on a sweep result `g` and finite previous vector `x` -/
theorem conv_ok (g : Fin n → Fl T) (x : Fin n → T) :
    ∃ d, Vec.subAssign (List.ofFn g) (fl x) = .ok d ∧
      Vec.magSqr d = .ok (∑ i, (g i - .fin (x i)) * (g i - .fin (x i))) := by
  refine ⟨_, Vec.zipAssign_ok _ _ _ (by simp [fl]), ?_⟩
  have e : List.zipWith (fun x y : Fl T => x - y) (List.ofFn g) (fl x) = List.ofFn fun i => g i - .fin (x i) := by
    apply List.ext_getElem (by simp [fl])
    intro i h1 h2
    simp [fl]
  rw [e]
  unfold Vec.magSqr Vec.dot
  rw [throwIf_false _ (by simp)]
  simp only [ok_bind, List.length_ofFn]
  rw [forRange_sum' n _ (fun i => if h : i < n then (g ⟨i, h⟩ - .fin (x ⟨i, h⟩)) * (g ⟨i, h⟩ - .fin (x ⟨i, h⟩)) else 0)
    (by
      intro i s hi
      rw [vecAt_ofFn (fun i => g i - Fl.fin (x i)) ⟨i, hi⟩, dif_pos hi]
      rfl), Finset.sum_range]
  congr 1
  refine Finset.sum_congr rfl fun i _ => ?_
  rw [dif_pos i.2]

theorem conv_fin (y x : Fin n → T) :
    (∑ i, (Fl.fin (y i) - Fl.fin (x i)) * (Fl.fin (y i) - Fl.fin (x i))) = Fl.fin ((y - x) ⬝ᵥ (y - x)) := by
  simp only [Fl.fin_sub, Fl.fin_mul, Fl.sum_fin]
  rfl

/-- One turn of the outer loop with a finite sweep result. -/
theorem iterLoop_fin {sweep : List (Fl T) → List (Fl T) → R (List (Fl T))} {e2 : T} {k it : Nat} {x y : Fin n → T}
    {xm : List (Fl T)} (h : sweep (fl x) xm = .ok (fl y)) :
    iterLoop sweep e2 (k + 1) it (fl x) xm =
      if (y - x) ⬝ᵥ (y - x) ≤ e2 then .ok (fl y, it + 1) else iterLoop sweep e2 k (it + 1) (fl y) (fl y) := by
  obtain ⟨d, h1, h2⟩ := conv_ok (fun i => Fl.fin (y i)) x
  have h1 : Vec.subAssign (fl y) (fl x) = .ok d := h1
  rw [conv_fin] at h2
  have hnn : 0 ≤ (y - x) ⬝ᵥ (y - x) := Finset.sum_nonneg fun i _ => mul_self_nonneg _
  have habs : (Fl.fin ((y - x) ⬝ᵥ (y - x)) : Fl T).abs = Fl.fin ((y - x) ⬝ᵥ (y - x)) := by
    show Fl.fin (max _ _) = _
    rw [max_eq_left (by linarith)]
  simp only [iterLoop, h, ok_bind, h1, h2, habs]
  rw [throwIf_false _ (by simp [Fl.isNan])]
  simp only [ok_bind, Fl.isFinite, Fl.leFin, decide_eq_true_eq, reduceCtorEq, false_or, pure_eq_ok, Bool.true_eq_false]

/-- One turn of the outer loop with a non-finite sweep result. -/
theorem iterLoop_nonfin {sweep : List (Fl T) → List (Fl T) → R (List (Fl T))} {e2 : T} {k it : Nat} {x : Fin n → T}
    {g : Fin n → Fl T} {xm : List (Fl T)} (h : sweep (fl x) xm = .ok (List.ofFn g)) (hg : ∃ i, (g i).isFinite = false) :
    iterLoop sweep e2 (k + 1) it (fl x) xm =
      if ∃ i, g i = .nan then .error (.exc .matrixHasZeroInDiag) else .ok (List.ofFn g, it + 1) := by
  obtain ⟨d, h1, h2⟩ := conv_ok g x
  obtain ⟨-, s2, s3⟩ := Fl.sum_spec Finset.univ (fun i => (g i - .fin (x i)) * (g i - .fin (x i)))
    (fun i _ => Fl.sq_ne_ninf _)
  simp only [Finset.mem_univ, true_and, forall_const, Fl.sq_nan, Fl.sub_fin_nan, Fl.sq_isFinite, Fl.sub_fin_isFinite] at s2 s3
  simp only [iterLoop, h, ok_bind, h1, h2]
  by_cases hn : ∃ i, g i = .nan
  · rw [throwIf_true _ (by rw [Fl.abs_isNan, s2]; exact hn), if_pos hn]; rfl
  · rw [throwIf_false _ (by rw [Fl.abs_isNan, s2]; exact hn), if_neg hn]
    have : (∑ i, (g i - Fl.fin (x i)) * (g i - Fl.fin (x i))).abs.isFinite = false := by
      rw [Fl.abs_isFinite, Bool.eq_false_iff, ne_eq, s3]
      obtain ⟨i, hi⟩ := hg
      intro h; rw [h i] at hi; cases hi
    simp only [ok_bind, this, true_or, if_true, pure_eq_ok]

/-! ### sor -/

/-- the sum used by row `i` of a SOR sweep: new values below `i`, old values above -/
def mixSum (A : Matrix (Fin n) (Fin n) T) (x y : Fin n → T) (i : Fin n) : T :=
  ∑ j, if j < i then A i j * y j else if i < j then A i j * x j else 0

theorem sorRow_ok (ha : IsMat a n A) (x y : Fin n → T) (i : Fin n) (xm : List (Fl T))
    (hxm : ∀ j : Fin n, j < i → vecAt xm j = .ok (.fin (y j))) :
    ∃ row, rowEntries a i = .ok row ∧ sorRow (fl x) xm i row = .ok (.fin (A i i), .fin (mixSum A x y i)) := by
  have e : mixSum A x y i = offSum A (fun j => if j < i then y j else x j) i := by
    unfold mixSum offSum
    refine Finset.sum_congr rfl fun j _ => ?_
    rcases lt_trichotomy j i with h | rfl | h
    · simp [h, h.ne]
    · simp
    · simp [h, h.ne', h.not_gt]
  rw [e]
  refine row_ok ha i (fun j => if j < i then y j else x j) _ ?_ ?_
  · intro e h hne s
    rcases Nat.lt_or_gt_of_ne hne with hlt | hgt
    · rw [if_pos hlt, hxm ⟨e.2.1, h⟩ hlt]
      simp [Fin.lt_def, hlt]
    · rw [if_neg (by omega), if_pos hgt, vecAt_fl x h]
      simp [Fin.lt_def, show ¬ e.2.1 < (i : Nat) by omega]
  · intro e he s
    simp [he]

/-- `y` is the result of one sweep: `base` supplies the old value that is relaxed (`xm.at(i)` in the code). -/
def SorStep (A : Matrix (Fin n) (Fin n) T) (b : Fin n → T) (w : T) (base x y : Fin n → T) : Prop :=
  ∀ i, y i = (1 - w) * base i + w * ((b i - mixSum A x y i) / A i i)

/-- the sweep result exists and is unique -/
theorem sorStep_exists (A : Matrix (Fin n) (Fin n) T) (b : Fin n → T) (w : T) (base x : Fin n → T) :
    ∃ y, SorStep A b w base x y := by
  suffices h : ∀ k : Nat, ∃ y : Fin n → T, ∀ i : Fin n, (i : Nat) < k →
      y i = (1 - w) * base i + w * ((b i - mixSum A x y i) / A i i) by
    obtain ⟨y, hy⟩ := h n
    exact ⟨y, fun i => hy i i.2⟩
  intro k
  induction k with
  | zero => exact ⟨0, fun i hi => absurd hi (Nat.not_lt_zero _)⟩
  | succ k ih =>
    obtain ⟨y, hy⟩ := ih
    by_cases hk : k < n
    · refine ⟨Function.update y ⟨k, hk⟩ ((1 - w) * base ⟨k, hk⟩ + w * ((b ⟨k, hk⟩ - mixSum A x y ⟨k, hk⟩) / A ⟨k, hk⟩ ⟨k, hk⟩)), ?_⟩
      intro i hi
      have hmix : ∀ v, mixSum A x (Function.update y ⟨k, hk⟩ v) i = mixSum A x y i := by
        intro v
        unfold mixSum
        refine Finset.sum_congr rfl fun j _ => ?_
        by_cases hj : j < i
        · rw [if_pos hj, if_pos hj, Function.update_of_ne]
          intro h
          have : (j : Nat) < i := hj
          rw [h] at this
          have : k < (i : Nat) := this
          omega
        · rw [if_neg hj, if_neg hj]
      rw [hmix]
      rcases Nat.lt_succ_iff_lt_or_eq.1 hi with h | h
      · rw [Function.update_of_ne (fun h' => by rw [h'] at h; exact absurd h (lt_irrefl _))]
        exact hy i h
      · obtain rfl : i = ⟨k, hk⟩ := Fin.ext h
        rw [Function.update_self]
    · exact ⟨y, fun i hi => hy i (by omega)⟩

theorem sorSweep_ok (ha : IsMat a n A) (hd : ∀ i, A i i ≠ 0) (b : Fin n → T) (w : T) (x base y : Fin n → T)
    (hy : SorStep A b w base x y) : sorSweep w a (fl b) (fl x) (fl base) = .ok (fl y) := by
  unfold sorSweep
  rw [ha.2.1]
  refine forRange_fill (fl base) (fl_length _) _ _ ?_
  intro i v hv h1 h2
  obtain ⟨row, e1, e2⟩ := sorRow_ok ha x y i v (fun j hj => h1 j hj)
  simp only [e1, ok_bind, e2, vecAt_fl b i.2, h2 i (le_refl _), vecAt_fl base i.2, Fl.fin_sub, Fl.fin_div, if_neg (hd i),
    Fl.fin_mul, Fl.fin_add]
  rw [hy i]

/-- with arbitrary (possibly non-finite) data the row loop still returns -/
theorem sorRow_total (ha : IsMat a n A) (x : Fin n → T) (i : Fin n) (xm : List (Fl T)) (hlen : xm.length = n) :
    ∃ row s, rowEntries a i = .ok row ∧ sorRow (fl x) xm i row = .ok s := by
  obtain ⟨l, r1, r2, r3, -⟩ := ha.sq.row_sum i.2
  refine ⟨l, ?_⟩
  have : Sat (sorRow (fl x) xm i l) (fun _ => True) noErr := by
    unfold sorRow
    refine (sat_forList (fun _ _ => True) l trivial ?_).mono (fun _ _ => trivial) (fun _ h => h)
    intro pre e suf s hl _
    have he := r3 e (by rw [hl]; simp)
    split
    · rw [vecAt_ok (show e.2.1 < xm.length by omega)]; trivial
    · split
      · rw [vecAt_fl x he]; trivial
      · trivial
  obtain ⟨s, h, -⟩ := this.ok_of
  exact ⟨s, r1, h⟩

/-- a zero on the diagonal makes the first sweep non-finite -/
theorem sorSweep_zero (ha : IsMat a n A) {i0 : Fin n} (h0 : A i0 i0 = 0) (hmin : ∀ j, j < i0 → A j j ≠ 0) (b : Fin n → T)
    (w : T) (x : Fin n → T) (base : Fin n → T) : ∃ g : Fin n → Fl T, sorSweep w a (fl b) (fl x) (fl base) = .ok (List.ofFn g) ∧
      (g i0).isFinite = false := by
  obtain ⟨y, hy⟩ := sorStep_exists A b w base x
  unfold sorSweep
  rw [ha.2.1]
  set body := fun i (xm : List (Fl T)) => do
    let row ← rowEntries a i
    let s ← sorRow (fl x) xm i row
    let bi ← vecAt (fl b) i
    let t := (bi - s.2) / s.1
    let xi ← vecAt xm i
    vecSet xm i (Fl.fin (1 - w) * xi + Fl.fin w * t) with hbody
  have := sat_forRange (f := body) (E := noErr) (fun k (v : List (Fl T)) => v.length = n ∧
      (∀ j : Fin n, (j : Nat) < k → j < i0 → vecAt v j = .ok (.fin (y j))) ∧
      (∀ j : Fin n, k ≤ (j : Nat) → vecAt v j = .ok (.fin (base j))) ∧
      ((i0 : Nat) < k → ∃ u, vecAt v i0 = .ok u ∧ u.isFinite = false))
    (Nat.zero_le n) (s := fl base) ⟨fl_length _, by simp, fun j _ => vecAt_fl base j.2, by simp⟩ (by
      intro k v _ hk ⟨h1, h2, h3, h4⟩
      have getset : ∀ (j : Fin n) (u : Fl T), vecAt (v.set k u) j = if (j : Nat) = k then .ok u else vecAt v j := by
        intro j u
        rw [vecAt_ok (by simp [h1])]
        by_cases hj : (j : Nat) = k
        · simp [hj]
        · rw [if_neg hj, vecAt_ok (by simp [h1])]
          simp [show k ≠ (j : Nat) by omega]
      obtain ⟨row, s, e1, e2⟩ := sorRow_total ha x ⟨k, hk⟩ v h1
      have e1' : rowEntries a k = .ok row := e1
      have e2' : sorRow (fl x) v k row = .ok s := e2
      have hstep : body k v = .ok (v.set k (.fin (1 - w) * .fin (base ⟨k, hk⟩) + .fin w * ((.fin (b ⟨k, hk⟩) - s.2) / s.1))) := by
        simp only [hbody, e1', e2', ok_bind, vecAt_fl b hk, h3 ⟨k, hk⟩ (le_refl _), vecSet_ok (show k < v.length by omega)]
      rw [hstep]
      refine ⟨by simp [h1], ?_, ?_, ?_⟩
      · intro j hj hji
        rw [getset]
        by_cases hjk : (j : Nat) = k
        · rw [if_pos hjk]
          obtain rfl : j = ⟨k, hk⟩ := Fin.ext hjk
          obtain ⟨row', f1, f2⟩ := sorRow_ok ha x y ⟨k, hk⟩ v (fun j' hj' => h2 j' hj' (lt_trans hj' hji))
          rw [e1] at f1; cases f1
          rw [e2] at f2; cases f2
          rw [hy]
          simp only [Fl.fin_sub, Fl.fin_div, if_neg (hmin _ hji), Fl.fin_mul, Fl.fin_add]
        · rw [if_neg hjk]; exact h2 j (by omega) hji
      · intro j hj
        rw [getset, if_neg (by omega)]; exact h3 j (by omega)
      · intro hi
        rw [getset]
        by_cases hik : (i0 : Nat) = k
        · rw [if_pos hik]
          obtain rfl : i0 = ⟨k, hk⟩ := Fin.ext hik
          obtain ⟨row', f1, f2⟩ := sorRow_ok ha x y ⟨k, hk⟩ v (fun j' hj' => h2 j' hj' hj')
          rw [e1] at f1; cases f1
          rw [e2] at f2; cases f2
          refine ⟨_, rfl, ?_⟩
          simp only [Fl.fin_sub, Fl.fin_div, h0, if_true, Fl.fin_mul]
          generalize b ⟨k, hk⟩ - mixSum A x y ⟨k, hk⟩ = u
          have hw : (Fl.fin w * Fl.infSgn u : Fl T).isFinite = false := by
            show (Fl.mul _ _).isFinite = false
            unfold Fl.infSgn
            split
            · rfl
            · split
              · show (Fl.infSgn w).isFinite = false
                unfold Fl.infSgn; split
                · rfl
                · split <;> rfl
              · show (Fl.infSgn (-w)).isFinite = false
                unfold Fl.infSgn; split
                · rfl
                · split <;> rfl
          generalize (Fl.fin w * Fl.infSgn u : Fl T) = q at hw
          cases q <;> simp_all [Fl.isFinite, Fl.add_def, Fl.add]
        · rw [if_neg hik]; exact h4 (by omega))
  obtain ⟨v, e, h1, -, -, h4⟩ := this.ok_of
  refine ⟨fun i => v[i]'(by rw [h1]; exact i.2), ?_, ?_⟩
  · refine Eq.trans e ?_
    congr 1
    apply List.ext_getElem (by simp [h1])
    intro i _ _
    simp
  · obtain ⟨u, hu, hf⟩ := h4 i0.2
    rw [vecAt_ok (by rw [h1]; exact i0.2)] at hu
    rw [← Except.ok.inj hu] at hf
    exact hf
end NS.Iterative

/-
Correctness of `solve_lu`, `cholesky`, `ainv_lu` (part L), `inverse(L,U,P)`.
-/
import Verif.LUDoolittle
import Mathlib.Algebra.BigOperators.Intervals

set_option linter.unusedSectionVars false
set_option linter.unusedSimpArgs false

namespace NS
open MatOps LawfulMat

theorem takeWhile_eq_filter {α : Type} (key : α → Nat) (i : Nat) :
    ∀ (l : List α), l.Pairwise (fun a b => key a < key b) →
      l.takeWhile (fun e => decide (key e < i)) = l.filter (fun e => decide (key e < i))
  | [], _ => rfl
  | a :: l, h => by
      obtain ⟨h1, h2⟩ := List.pairwise_cons.1 h
      by_cases ha : key a < i
      · simp only [List.takeWhile_cons, List.filter_cons, ha, decide_true, if_true]
        rw [takeWhile_eq_filter key i l h2]
      · simp only [List.takeWhile_cons, List.filter_cons, ha, decide_false]
        have : l.filter (fun e => decide (key e < i)) = [] := by
          rw [List.filter_eq_nil_iff]
          intro b hb
          have := h1 b hb
          simp; omega
        simp [this]

theorem dropWhile_eq_filter {α : Type} (key : α → Nat) (i : Nat) :
    ∀ (l : List α), l.Pairwise (fun a b => key a < key b) →
      l.dropWhile (fun e => decide (key e < i)) = l.filter (fun e => decide (i ≤ key e))
  | [], _ => rfl
  | a :: l, h => by
      obtain ⟨h1, h2⟩ := List.pairwise_cons.1 h
      by_cases ha : key a < i
      · have : ¬ i ≤ key a := by omega
        simp only [List.dropWhile_cons, List.filter_cons, ha, decide_true, if_true, this, decide_false]
        rw [dropWhile_eq_filter key i l h2]; rfl
      · have : i ≤ key a := by omega
        simp only [List.dropWhile_cons, List.filter_cons, ha, decide_false, this, decide_true, if_true]
        have : l.filter (fun e => decide (i ≤ key e)) = l := by
          rw [List.filter_eq_self]
          intro b hb
          have := h1 b hb
          simp; omega
        rw [this]; rfl

theorem forList_skip {α σ : Type} (q : α → Prop) [DecidablePred q] (f : α → σ → R σ) :
    ∀ (l : List α) (s : σ), forList l s (fun e s => if q e then pure s else f e s)
      = forList (l.filter (fun e => !decide (q e))) s f
  | [], _ => rfl
  | a :: l, s => by
      by_cases h : q a
      · simp only [forList, h, if_true, pure_eq_ok, ok_bind, List.filter_cons, decide_true, Bool.not_true]
        exact forList_skip q f l s
      · simp only [forList, h, if_false, List.filter_cons, decide_false, Bool.not_false, if_true]
        congr 1
        funext s'
        exact forList_skip q f l s'

section
variable {M T : Type} [CommRing T] [NoZeroDivisors T] [DecidableEq T] [MatOps M T] [LawfulMat M T] {n : Nat}

/-- Row traversal restricted to the columns satisfying `p`. -/
theorem Sq.row_sum {m : M} (h : Sq n m) {i : Nat} (hi : i < n) :
    ∃ l, rowEntries m i = .ok l ∧ l.Pairwise (fun a b => a.2.1 < b.2.1) ∧ (∀ e ∈ l, e.2.1 < n) ∧
      ∀ (p : Nat → Bool) (f : Nat → T), ((l.filter (fun e => p e.2.1)).map (fun e => e.2.2 * f e.2.1)).sum
        = ∑ j ∈ Finset.range n, if p j then val m i j * f j else 0 := by
  obtain ⟨l, h1, h2, h3, h4⟩ := rowEntries_ok h.valid (i := i) (h.hr ▸ hi)
  refine ⟨l, h1, h2, fun e he => h.hc ▸ (h3 e he).2.1, fun p f => ?_⟩
  have hnd : (l.map (fun e => e.2.1)).Nodup := by
    rw [List.Nodup, List.pairwise_map]; exact h2.imp (fun h => Nat.ne_of_lt h)
  have e1 : (l.filter (fun e => p e.2.1)).map (fun e => e.2.2 * f e.2.1)
      = ((l.map (fun e => e.2.1)).filter p).map (fun j => val m i j * f j) := by
    rw [List.filter_map, List.map_map]
    apply List.map_congr_left
    intro e he
    have := (h3 e (List.mem_filter.1 he).1).2.2
    simp only [Function.comp, this]
  rw [e1, ← List.sum_toFinset _ (hnd.filter _), ← Finset.sum_filter]
  apply Finset.sum_subset
  · intro j hj
    simp only [List.mem_toFinset, List.mem_filter, List.mem_map] at hj
    obtain ⟨⟨e, he, rfl⟩, hp⟩ := hj
    exact Finset.mem_filter.2 ⟨Finset.mem_range.2 (h.hc ▸ (h3 e he).2.1), hp⟩
  · intro j hj hnj
    obtain ⟨hj1, hj2⟩ := Finset.mem_filter.1 hj
    by_contra hne
    apply hnj
    have hv : val m i j ≠ 0 := fun h0 => hne (by rw [h0, zero_mul])
    have := h4 j (h.hc.symm ▸ Finset.mem_range.1 hj1) hv
    simp only [List.mem_toFinset, List.mem_filter, List.mem_map]
    exact ⟨⟨_, this, rfl⟩, hj2⟩

end

theorem vecAt_get {T : Type} [Zero T] {v : List T} {i : Nat} (h : i < v.length) : vecAt v i = .ok (v.getD i 0) := by
  unfold vecAt
  rw [assert_true h, ok_bind, getIdx_eq h]
  simp [List.getD_eq_getElem?_getD, h]

theorem vecSet_set {T : Type} {v : List T} {i : Nat} (x : T) (h : i < v.length) : vecSet v i x = .ok (v.set i x) := by
  unfold vecSet
  rw [assert_true h, ok_bind, setIdx_eq _ h]

theorem getD_set {T : Type} [Zero T] (v : List T) (i a : Nat) (x : T) (h : i < v.length) :
    (v.set i x).getD a 0 = if a = i then x else v.getD a 0 := by
  simp only [List.getD_eq_getElem?_getD, List.getElem?_set]
  by_cases ha : a = i
  · subst ha; simp [h]
  · simp [ha, Ne.symm ha]

/-- `for e in l: x[i] -= e.value * x[e.column]` -/
theorem subRow_ok {T : Type} [CommRing T] (i : Nat) : ∀ (l : List (Nat × Nat × T)) (x : List T), i < x.length →
    (∀ e ∈ l, e.2.1 < x.length ∧ e.2.1 ≠ i) →
    forList l x (fun e x => do
      let xi ← vecAt x i
      let xc ← vecAt x e.2.1
      vecSet x i (xi - e.2.2 * xc))
    = .ok (x.set i (x.getD i 0 - (l.map (fun e => e.2.2 * x.getD e.2.1 0)).sum))
  | [], x, hi, _ => by
      simp only [forList, List.map_nil, List.sum_nil, sub_zero]
      congr 1
      apply List.ext_getElem?
      intro k
      rw [List.getElem?_set]
      by_cases hk : i = k
      · subst hk; simp [hi]
      · simp [hk]
  | e :: l, x, hi, h => by
      obtain ⟨h1, h2⟩ := h e (by simp)
      simp only [forList, vecAt_get hi, vecAt_get h1, ok_bind, vecSet_set _ hi]
      rw [subRow_ok i l _ (by simpa using hi) (fun e' he' => by simpa using h e' (by simp [he']))]
      rw [List.set_set]
      congr 2
      rw [getD_set _ _ _ _ hi, if_pos rfl, List.map_cons, List.sum_cons]
      have : l.map (fun e' => e'.2.2 * (x.set i (x.getD i 0 - e.2.2 * x.getD e.2.1 0)).getD e'.2.1 0)
          = l.map (fun e' => e'.2.2 * x.getD e'.2.1 0) := by
        apply List.map_congr_left
        intro e' he'
        rw [getD_set _ _ _ _ hi, if_neg (h e' (by simp [he'])).2]
      rw [this]; ring

theorem sat_downFrom {σ : Type} {f : Nat → σ → R σ} {E : Err → Prop} (I : Nat → σ → Prop) :
    ∀ (top : Nat) (s : σ), I (top + 1) s → (∀ j s, j ≤ top → I (j + 1) s → Sat (f j s) (I j) E) →
      Sat (LU.downFrom f top s) (I 0) E
  | 0, s, h0, hs => by simpa [LU.downFrom] using hs 0 s (le_refl _) h0
  | top + 1, s, h0, hs => by
      unfold LU.downFrom
      refine Sat.bind (hs (top + 1) s (le_refl _) h0) ?_
      intro s' h'
      exact sat_downFrom I top s' h' (fun j s hj => hs j s (by omega))

namespace LU
variable {M T V : Type} [Field T] [DecidableEq T] [MatOps M T] [LawfulMat M T] [LinearOrder V]
variable {n : Nat}

theorem fwd_ok (absv : T → V) (eps : V) {L : M} (hL : Sq n L) {b : List T} (hb : b.length = n) :
    Sat (forRange 0 n b (fwdStep absv eps L))
      (fun y => y.length = n ∧ ∀ a, a < n → ¬ absv (val L a a) ≤ eps ∧
        (val L a a ≠ 0 → ∑ c ∈ Finset.range (a + 1), val L a c * y.getD c 0 = b.getD a 0))
      (fun e => e = .exc .singular ∧ ∃ a, a < n ∧ absv (val L a a) ≤ eps) := by
  refine (sat_forRange (fun i y => y.length = n ∧ (∀ a, a < i → ¬ absv (val L a a) ≤ eps ∧
        (val L a a ≠ 0 → ∑ c ∈ Finset.range (a + 1), val L a c * y.getD c 0 = b.getD a 0)) ∧
        ∀ a, i ≤ a → y.getD a 0 = b.getD a 0) (Nat.zero_le _) ⟨hb, fun _ h => by omega, fun _ _ => rfl⟩ ?_).mono
        (fun y h => ⟨h.1, h.2.1⟩) (fun _ h => h)
  rintro i y _ hi ⟨hl, h1, h2⟩
  unfold fwdStep
  obtain ⟨l, l1, l2, l3, l4⟩ := hL.row_sum hi
  simp only [l1, ok_bind]
  rw [takeWhile_eq_filter (fun e : Nat × Nat × T => e.2.1) i l l2]
  rw [subRow_ok i _ y (by omega) (by
    intro e he
    obtain ⟨e1, e2⟩ := List.mem_filter.1 he
    have := l3 e e1
    simp at e2; omega)]
  have hs := l4 (fun j => decide (j < i)) (fun j => y.getD j 0)
  rw [hs]
  simp only [ok_bind, hL.get hi hi]
  by_cases hle : absv (val L i i) ≤ eps
  · rw [throwIf_true _ hle]; exact ⟨rfl, i, hi, hle⟩
  rw [throwIf_false _ hle, ok_bind, vecAt_get (by simp; omega), ok_bind, vecSet_set _ (by simp; omega)]
  simp only [Sat_ok]
  have hil : i < y.length := by omega
  rw [List.set_set, getD_set _ _ _ _ hil, if_pos rfl]
  refine ⟨by simp [hl], fun a ha => ?_, fun a ha => ?_⟩
  · by_cases hai : a = i
    · subst hai
      refine ⟨hle, fun hne => ?_⟩
      rw [Finset.sum_range_succ, getD_set _ _ _ _ hil, if_pos rfl]
      have : ∑ c ∈ Finset.range a, val L a c * (y.set a ((y.getD a 0 - ∑ j ∈ Finset.range n,
            if decide (j < a) = true then val L a j * y.getD j 0 else 0) / val L a a)).getD c 0
          = ∑ j ∈ Finset.range n, if decide (j < a) = true then val L a j * y.getD j 0 else 0 := by
        rw [← Finset.sum_filter]
        have : (Finset.range n).filter (fun j => decide (j < a) = true) = Finset.range a := by
          ext j; simp; omega
        rw [this]
        refine Finset.sum_congr rfl (fun c hc => ?_)
        rw [getD_set _ _ _ _ hil, if_neg (by have := Finset.mem_range.1 hc; omega)]
      rw [this, h2 a (le_refl _)]
      field_simp; ring
    · refine ⟨(h1 a (by omega)).1, fun hne => ?_⟩
      rw [← (h1 a (by omega)).2 hne]
      refine Finset.sum_congr rfl (fun c hc => ?_)
      rw [getD_set _ _ _ _ hil, if_neg (by have := Finset.mem_range.1 hc; omega)]
  · rw [getD_set _ _ _ _ hil, if_neg (by omega), h2 a (by omega)]

theorem bwd_ok (absv : T → V) (eps : V) {U : M} (hU : Sq n U) {y : List T} (hy : y.length = n) :
    Sat (downFrom (bwdStep absv eps U) (n - 1) y)
      (fun x => x.length = n ∧ ∀ a, a < n → ¬ absv (val U a a) ≤ eps ∧
        (val U a a ≠ 0 → ∑ c ∈ Finset.range n, (if a ≤ c then val U a c * x.getD c 0 else 0) = y.getD a 0))
      (fun e => e = .exc .singular ∧ ∃ a, a < n ∧ absv (val U a a) ≤ eps) := by
  have hn := hU.pos
  refine (sat_downFrom (fun i x => x.length = n ∧ (∀ a, i ≤ a → a < n → ¬ absv (val U a a) ≤ eps ∧
        (val U a a ≠ 0 → ∑ c ∈ Finset.range n, (if a ≤ c then val U a c * x.getD c 0 else 0) = y.getD a 0)) ∧
        ∀ a, a < i → x.getD a 0 = y.getD a 0) (n - 1) y ⟨hy, fun _ h => by omega, fun _ _ => rfl⟩ ?_).mono
        (fun y h => ⟨h.1, fun a ha => h.2.1 a (Nat.zero_le _) ha⟩) (fun _ h => h)
  rintro i x hi ⟨hl, h1, h2⟩
  have hi' : i < n := by omega
  unfold bwdStep
  obtain ⟨l, l1, l2, l3, l4⟩ := hU.row_sum hi'
  simp only [l1, ok_bind]
  rw [forList_skip (fun e : Nat × Nat × T => e.2.1 < i + 1)]
  rw [subRow_ok i _ x (by omega) (by
    intro e he
    obtain ⟨e1, e2⟩ := List.mem_filter.1 he
    have := l3 e e1
    simp at e2; omega)]
  have hs := l4 (fun j => !decide (j < i + 1)) (fun j => x.getD j 0)
  rw [hs]
  simp only [ok_bind, hU.get hi' hi']
  by_cases hle : absv (val U i i) ≤ eps
  · rw [throwIf_true _ hle]; exact ⟨rfl, i, hi', hle⟩
  rw [throwIf_false _ hle, ok_bind, vecAt_get (by simp; omega), ok_bind, vecSet_set _ (by simp; omega)]
  simp only [Sat_ok]
  have hil : i < x.length := by omega
  rw [List.set_set, getD_set _ _ _ _ hil, if_pos rfl]
  refine ⟨by simp [hl], fun a ha han => ?_, fun a ha => ?_⟩
  · by_cases hai : a = i
    · subst hai
      refine ⟨hle, fun hne => ?_⟩
      set w := (x.getD a 0 - ∑ j ∈ Finset.range n,
            if (!decide (j < a + 1)) = true then val U a j * x.getD j 0 else 0) / val U a a with hw
      have : ∑ c ∈ Finset.range n, (if a ≤ c then val U a c * (x.set a w).getD c 0 else 0)
          = val U a a * w + ∑ j ∈ Finset.range n, if (!decide (j < a + 1)) = true then val U a j * x.getD j 0 else 0 := by
        rw [← Finset.add_sum_erase _ _ (Finset.mem_range.2 hi'),
          ← Finset.add_sum_erase (Finset.range n) (fun j => if (!decide (j < a + 1)) = true then val U a j * x.getD j 0 else 0)
            (Finset.mem_range.2 hi')]
        simp only [le_refl, if_true, getD_set _ _ _ _ hil, Nat.lt_succ_self, decide_true, Bool.not_true]
        rw [if_neg (by simp), zero_add]
        congr 1
        refine Finset.sum_congr rfl (fun c hc => ?_)
        have hca := (Finset.mem_erase.1 hc).1
        rw [if_neg hca]
        by_cases hh : a ≤ c
        · rw [if_pos hh, if_pos (by simp; omega)]
        · rw [if_neg hh, if_neg (by simp; omega)]
      rw [this, hw, h2 a (Nat.lt_succ_self _)]
      field_simp; ring
    · refine ⟨(h1 a (by omega) han).1, fun hne => ?_⟩
      rw [← (h1 a (by omega) han).2 hne]
      refine Finset.sum_congr rfl (fun c hc => ?_)
      by_cases hac : a ≤ c
      · rw [if_pos hac, if_pos hac, getD_set _ _ _ _ hil, if_neg (by omega)]
      · rw [if_neg hac, if_neg hac]
  · rw [getD_set _ _ _ _ hil, if_neg (by omega), h2 a (by omega)]

/-- `solve_lu`: result on success, cause of failure otherwise. -/
theorem solveLu_ok (absv : T → V) (eps : V) {L U : M} (hL : Sq n L) (hU : Sq n U)
    {b : List T} (hb : b.length = n) :
    Sat (solveLu absv eps L U b)
      (fun x => x.length = n ∧ (∀ a, a < n → ¬ absv (val L a a) ≤ eps ∧ ¬ absv (val U a a) ≤ eps) ∧
        ((∀ a, a < n → val L a a ≠ 0 ∧ val U a a ≠ 0) → ∀ a, a < n →
          ∑ c ∈ Finset.range (a + 1), val L a c *
            (∑ d ∈ Finset.range n, if c ≤ d then val U c d * x.getD d 0 else 0) = b.getD a 0))
      (fun e => e = .exc .singular ∧ ∃ a, a < n ∧ (absv (val L a a) ≤ eps ∨ absv (val U a a) ≤ eps)) := by
  unfold solveLu
  rw [throwIf_false _ (by rw [hL.hr, hL.hc]; simp), throwIf_false _ (by rw [hU.hr, hU.hc]; simp),
    throwIf_false _ (by rw [hL.hr, hU.hr]; simp), throwIf_false _ (by rw [hL.hr, hb]; simp)]
  simp only [ok_bind, hL.hr, hU.hr]
  refine Sat.bind ((fwd_ok absv eps hL hb).mono (fun _ h => h) (fun e h => ⟨h.1, h.2.imp (fun a h => ⟨h.1, Or.inl h.2⟩)⟩)) ?_
  rintro y ⟨y1, y2⟩
  rw [assert_true hL.pos, ok_bind]
  refine (bwd_ok absv eps hU y1).mono ?_ (fun e h => ⟨h.1, h.2.imp (fun a h => ⟨h.1, Or.inr h.2⟩)⟩)
  rintro x ⟨x1, x2⟩
  refine ⟨x1, fun a ha => ⟨(y2 a ha).1, (x2 a ha).1⟩, fun hne a ha => ?_⟩
  rw [← (y2 a ha).2 (hne a ha).1]
  refine Finset.sum_congr rfl (fun c hc => ?_)
  have hc' : c < n := by have := Finset.mem_range.1 hc; omega
  rw [(x2 c hc').2 (hne c hc').2]

end LU
end NS

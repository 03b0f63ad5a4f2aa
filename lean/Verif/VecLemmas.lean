/-
Loop lemmas for vectors.
-/
import Verif.Vec
import Mathlib.Algebra.BigOperators.Group.Finset.Basic
import Mathlib.Algebra.BigOperators.Intervals
import Mathlib.Data.List.GetD

set_option linter.unusedSectionVars false
set_option linter.unusedSimpArgs false

namespace NS
open Finset

theorem vecAt_ok {T} {v : List T} {i : Nat} (h : i < v.length) : vecAt v i = .ok v[i] := by
  simp [vecAt, h, getIdx_eq h]

theorem vecAt_getD {T} {v : List T} {i : Nat} (h : i < v.length) (d : T) :
    vecAt v i = .ok (v.getD i d) := by
  rw [vecAt_ok h, List.getD_eq_getElem _ _ h]

theorem vecAt_abort {T} {v : List T} {i : Nat} (h : ¬ i < v.length) : vecAt v i = .error .abort := by
  simp [vecAt, h]

theorem vecSet_ok {T} {v : List T} {i : Nat} (h : i < v.length) (x : T) :
    vecSet v i x = .ok (v.set i x) := by
  simp [vecSet, h, setIdx_eq x h]

theorem vecSet_abort {T} {v : List T} {i : Nat} (h : ¬ i < v.length) (x : T) :
    vecSet v i x = .error .abort := by
  simp [vecSet, h]

/-- A loop that updates entry `i` in step `i`. -/
theorem forRange_upd {T : Type} (v : List T) (g : Nat → T → T) (body : Nat → List T → R (List T))
    (hb : ∀ (i : Nat) (w : List T) (x : T), i < v.length → w.length = v.length → w[i]? = some x →
      body i w = .ok (w.set i (g i x))) :
    forRange 0 v.length v body = .ok (v.mapIdx g) := by
  have := sat_forRange (f := body) (E := noErr)
    (fun k (w : List T) => w.length = v.length ∧
      ∀ j, w[j]? = (v[j]?).map (fun x => if j < k then g j x else x))
    (Nat.zero_le v.length) (s := v) (by simp) (by
      intro j w _ hj hw
      obtain ⟨x, hx⟩ : ∃ x, w[j]? = some x := ⟨w[j]'(by omega), by simp [hw.1, hj]⟩
      rw [hb j w x hj hw.1 hx]
      refine ⟨by simpa using hw.1, ?_⟩
      intro l
      have hl := hw.2 l
      rw [List.getElem?_set]
      by_cases hjl : j = l
      · subst hjl
        have : v[j]? = some x := by
          rw [hx] at hl
          simpa using hl.symm
        rw [this, if_pos rfl, if_pos (by omega)]
        simp
      · rw [if_neg hjl, hl]
        congr 1
        funext y
        by_cases h1 : l < j
        · simp [h1, show l < j + 1 by omega]
        · simp [h1, show ¬ l < j + 1 by omega])
  obtain ⟨w, h1, h2, h3⟩ := this.ok_of
  rw [h1]
  congr 1
  apply List.ext_getElem?
  intro j
  rw [h3 j, List.getElem?_mapIdx]
  by_cases hj : j < v.length
  · simp [hj]
  · simp [hj]

/-- A summing loop. -/
theorem forRange_sum' {T : Type} [AddCommMonoid T] (n : Nat) (f : Nat → T → R T) (g : Nat → T)
    (h : ∀ i v, i < n → f i v = .ok (v + g i)) :
    forRange 0 n (0 : T) f = .ok (∑ i ∈ Finset.range n, g i) := by
  have := sat_forRange (f := f) (E := noErr)
    (fun k (v : T) => v = ∑ i ∈ Finset.range k, g i) (Nat.zero_le n) (s := 0) (by simp) (by
      intro j s _ hj hs
      subst hs
      simp only [h j _ hj, Sat_ok, Finset.sum_range_succ])
  obtain ⟨a, h1, h2⟩ := this.ok_of
  rw [h1, h2]

/-- A summing loop from a start index and value. -/
theorem forRange_sum_from {T : Type} [AddCommMonoid T] (a n : Nat) (han : a ≤ n) (s0 : T) (f : Nat → T → R T)
    (g : Nat → T) (h : ∀ i v, a ≤ i → i < n → f i v = .ok (v + g i)) :
    forRange a n s0 f = .ok (s0 + ∑ i ∈ Finset.Ico a n, g i) := by
  have := sat_forRange (f := f) (E := noErr)
    (fun k (v : T) => v = s0 + ∑ i ∈ Finset.Ico a k, g i) han (s := s0) (by simp) (by
      intro j s h1 hj hs
      subst hs
      simp only [h j _ h1 hj, Sat_ok, Finset.sum_Ico_succ_top h1, add_assoc])
  obtain ⟨a, h1, h2⟩ := this.ok_of
  rw [h1, h2]

/-- A loop that computes a conjunction with early exit. -/
theorem forRange_all (a n : Nat) (han : a ≤ n) (p : Nat → Prop) [DecidablePred p] (f : Nat → Bool → R Bool)
    (hf : ∀ i, a ≤ i → i < n → f i true = .ok (decide (p i))) (hf' : ∀ i, a ≤ i → i < n → f i false = .ok false) :
    ∃ b, forRange a n true f = .ok b ∧ (b = true ↔ ∀ i, a ≤ i → i < n → p i) := by
  have := sat_forRange (f := f) (E := noErr)
    (fun k (b : Bool) => b = true ↔ ∀ i, a ≤ i → i < k → p i) han (s := true)
    (by simp; intro i h1 h2; omega) (by
      intro j b h1 hj hb
      cases b with
      | false =>
        rw [hf' j h1 hj]
        simp only [Sat_ok, Bool.false_eq_true, false_iff] at hb ⊢
        intro h; apply hb; intro i hi hi'; exact h i hi (by omega)
      | true =>
        rw [hf j h1 hj]
        simp only [Sat_ok, decide_eq_true_eq, true_iff] at hb ⊢
        constructor
        · intro hp i hi hi'
          rcases Nat.lt_succ_iff_lt_or_eq.1 hi' with h | h
          · exact hb i hi h
          · subst h; exact hp
        · intro h; exact h j h1 (by omega))
  exact this.ok_of

/-- A loop that computes a disjunction with early exit. -/
theorem forRange_any (a n : Nat) (han : a ≤ n) (p : Nat → Prop) [DecidablePred p] (f : Nat → Bool → R Bool)
    (hf : ∀ i, a ≤ i → i < n → f i false = .ok (decide (p i))) (hf' : ∀ i, a ≤ i → i < n → f i true = .ok true) :
    ∃ b, forRange a n false f = .ok b ∧ (b = true ↔ ∃ i, a ≤ i ∧ i < n ∧ p i) := by
  have := sat_forRange (f := f) (E := noErr)
    (fun k (b : Bool) => b = true ↔ ∃ i, a ≤ i ∧ i < k ∧ p i) han (s := false)
    (by simp; intro i h1 h2; omega) (by
      intro j b h1 hj hb
      cases b with
      | true =>
        rw [hf' j h1 hj]
        simp only [Sat_ok, true_iff] at hb ⊢
        obtain ⟨i, hi, hi', hp⟩ := hb
        exact ⟨i, hi, by omega, hp⟩
      | false =>
        rw [hf j h1 hj]
        simp only [Sat_ok, decide_eq_true_eq, Bool.false_eq_true, false_iff] at hb ⊢
        constructor
        · intro hp; exact ⟨j, h1, by omega, hp⟩
        · rintro ⟨i, hi, hi', hp⟩
          rcases Nat.lt_succ_iff_lt_or_eq.1 hi' with h | h
          · exact absurd ⟨i, hi, h, hp⟩ hb
          · subst h; exact hp)
  exact this.ok_of

namespace Vec
variable {T : Type}

theorem mapIdx_const (g : T → T) (v : List T) : v.mapIdx (fun _ x => g x) = v.map g := by
  apply List.ext_getElem?
  intro j
  simp [List.getElem?_mapIdx]

theorem mapAssign_ok (g : T → T) (v : List T) : mapAssign g v = .ok (v.map g) := by
  unfold mapAssign
  rw [forRange_upd v (fun _ x => g x), mapIdx_const]
  intro i w x hi hw hx
  simp [getIdx_of_some hx, setIdx_eq _ (show i < w.length by omega)]

theorem zipAssign_ok (op : T → T → T) (v w : List T) (h : v.length = w.length) :
    zipAssign op v w = .ok (List.zipWith op v w) := by
  unfold zipAssign
  rw [throwIf_false _ (by simpa using h)]
  simp only [ok_bind]
  rw [forRange_upd v (fun i x => (w[i]?).elim x (op x))]
  · congr 1
    apply List.ext_getElem
    · simp [h]
    · intro i h1 h2
      have : i < v.length := by simpa using h1
      simp [show i < w.length by omega]
  · intro i u x hi hu hx
    simp [getIdx_of_some hx, setIdx_eq _ (show i < u.length by omega), vecAt_ok (show i < w.length by omega),
      show i < w.length by omega]

theorem zipAssign_throw (op : T → T → T) (v w : List T) (h : v.length ≠ w.length) :
    zipAssign op v w = .error (.exc .vectorSizeMismatch) := by
  unfold zipAssign
  rw [throwIf_true _ h]
  rfl

theorem fill_ok (v : List T) (f : T) : fill v f = .ok (List.replicate v.length f) := by
  unfold fill
  rw [forRange_upd v (fun _ _ => f)]
  · congr 1
    apply List.ext_getElem <;> simp
  · intro i w x hi hw hx
    rw [setIdx_eq _ (by omega)]

theorem mk_ok [Zero T] (n : Nat) : mk' n = .ok (List.replicate n (0 : T)) := by
  unfold mk' resize
  rw [fill_ok]
  simp

theorem initLoop_ok (l v : List T) (h : l.length ≤ v.length) :
    initLoop l v = .ok (l ++ v.drop l.length) := by
  unfold initLoop
  have := sat_forList (f := fun (p : T × Nat) v => vecSet v p.2 p.1) (E := noErr)
    (fun pre (w : List T) => w = pre.map Prod.fst ++ v.drop pre.length) l.zipIdx (s := v) (by simp) (by
      intro pre a suf s hl hs
      subst hs
      have hlen : l.length = pre.length + 1 + suf.length := by
        have := congrArg List.length hl
        simp at this; omega
      have ha : a.2 = pre.length := by
        have h1 : l.zipIdx[pre.length]? = some a := by rw [hl]; simp
        rw [List.getElem?_zipIdx] at h1
        obtain ⟨x, hx, rfl⟩ := Option.map_eq_some_iff.1 h1
        simp
      rw [vecSet_ok (by simp; omega)]
      simp only [Sat_ok]
      rw [ha, List.set_append_right _ _ (by simp)]
      have : v.drop pre.length = v[pre.length]'(by omega) :: v.drop (pre.length + 1) := by
        rw [List.drop_eq_getElem_cons (by omega)]
      rw [this, List.length_map, Nat.sub_self, List.set_cons_zero, List.map_append, List.append_assoc]
      simp)
  obtain ⟨w, h1, h2⟩ := this.ok_of
  rw [h1, h2]
  simp [List.zipIdx_map_fst]

theorem dot_ok [NonUnitalNonAssocSemiring T] (v w : List T) (h : v.length = w.length) :
    dot v w = .ok (∑ i ∈ Finset.range v.length, v.getD i 0 * w.getD i 0) := by
  unfold dot
  rw [throwIf_false _ (by simpa using h)]
  simp only [ok_bind]
  apply forRange_sum'
  intro i s hi
  simp [vecAt_getD hi 0, vecAt_getD (show i < w.length by omega) 0]

end Vec
end NS

/-
Property theorems C23-C26 about vectors (`DynamicVector`, `FixedVector`).

A vector is the list of its entries, so `v.getD i 0` is the entry that `v.at(i)` returns
(`at_returns_entry`).  A result `.ok x` means the call returns `x` normally.  Every compound
assignment checks the sizes before it writes, so an exceptional result leaves the target unchanged.
-/
import Verif.VecLemmas
import Mathlib.Algebra.Order.Field.Basic
import Mathlib.Algebra.Order.BigOperators.Ring.Finset
import Mathlib.Data.Rat.Defs

set_option linter.unusedSectionVars false
set_option linter.unusedSimpArgs false

namespace NS.Props.Vector
open NS NS.Vec
variable {T : Type}

/-- in-range `at`/`operator[]`/`linear_at` return the entry, out-of-range ones abort -/
theorem C23_at (v : List T) (d : T) (i : Nat) :
    (i < v.length → vecAt v i = .ok (v.getD i d)) ∧ (¬ i < v.length → vecAt v i = .error .abort) :=
  ⟨fun h => vecAt_getD h d, fun h => vecAt_abort h⟩

/-- in-range `set` writes exactly that entry, out-of-range ones abort -/
theorem C23_set (v : List T) (d x : T) (i : Nat) :
    (i < v.length → ∃ w, vecSet v i x = .ok w ∧ w.length = v.length ∧
      ∀ k, k < v.length → w.getD k d = if k = i then x else v.getD k d) ∧
    (¬ i < v.length → vecSet v i x = .error .abort) := by
  refine ⟨fun h => ⟨v.set i x, vecSet_ok h x, by simp, ?_⟩, fun h => vecSet_abort h x⟩
  intro k hk
  by_cases hki : k = i
  · subst hki; simp [List.getD_eq_getElem?_getD, hk]
  · rw [if_neg hki]
    simp [List.getD_eq_getElem?_getD, List.getElem?_set, Ne.symm hki]

/-- `r` is the outcome of an entrywise operation `op` on `v`, `w`: the size-mismatch exception
exactly for different sizes, and otherwise a vector of the same size with `op`-combined entries. -/
def Entrywise (r : R (List T)) (op : T → T → T) (d : T) (v w : List T) : Prop :=
  (v.length ≠ w.length → r = .error (.exc .vectorSizeMismatch)) ∧
  (v.length = w.length → ∃ u, r = .ok u ∧ u.length = v.length ∧
    ∀ i, i < v.length → u.getD i d = op (v.getD i d) (w.getD i d))

theorem entrywise_zip (op : T → T → T) (d : T) (v w : List T) :
    Entrywise (zipAssign op v w) op d v w := by
  refine ⟨zipAssign_throw op v w, fun h => ⟨_, zipAssign_ok op v w h, by simp [h], ?_⟩⟩
  intro i hi
  have hw : i < w.length := by omega
  simp [List.getD_eq_getElem?_getD, hi, hw, List.getElem?_zipWith]

/-- **C23**: `+=`, `-=`, `*=`, `/=` with a vector. -/
theorem C23_entrywise [Add T] [Sub T] [Mul T] [Div T] (d : T) (v w : List T) :
    Entrywise (addAssign v w) (· + ·) d v w ∧ Entrywise (subAssign v w) (· - ·) d v w ∧
    Entrywise (mulAssign v w) (· * ·) d v w ∧ Entrywise (divAssign v w) (· / ·) d v w :=
  ⟨entrywise_zip _ d v w, entrywise_zip _ d v w, entrywise_zip _ d v w, entrywise_zip _ d v w⟩

example : ([1, 2] : List Int).length = [3, 4].length ∧ ([1, 2] : List Int).length ≠ [3].length := by simp
example : addAssign ([1, 2] : List Int) [3, 4] = .ok [4, 6] := by decide +kernel

/-- `r` is `v` with `g` applied to each entry. -/
def Mapped (r : R (List T)) (g : T → T) (d : T) (v : List T) : Prop :=
  ∃ u, r = .ok u ∧ u.length = v.length ∧ ∀ i, i < v.length → u.getD i d = g (v.getD i d)

theorem mapped_map (g : T → T) (d : T) (v : List T) : Mapped (mapAssign g v) g d v := by
  refine ⟨_, mapAssign_ok g v, by simp, ?_⟩
  intro i hi
  simp [List.getD_eq_getElem?_getD, hi]

/-- scalar `+=`, `-=`, `*=`, unary minus, `f - v` -/
theorem C23_scalar [Ring T] (d : T) (v : List T) (f : T) :
    Mapped (addScalar v f) (· + f) d v ∧ Mapped (subScalar v f) (· - f) d v ∧
    Mapped (mulScalar v f) (· * f) d v ∧ Mapped (neg v) (fun x => -x) d v ∧
    Mapped (rsubScalar f v) (fun x => f - x) d v := by
  refine ⟨mapped_map _ d v, mapped_map _ d v, mapped_map _ d v, ?_, ?_⟩
  · have := mapped_map (fun x : T => x * -1) d v
    simpa [neg, mulScalar, Mapped] using this
  · have h := mapAssign_ok (fun x : T => x * -1) v
    refine ⟨(v.map (fun x : T => x * -1)).map (fun x => x + f), ?_, by simp, ?_⟩
    · simp only [rsubScalar, neg, mulScalar, h, ok_bind, addScalar]
      exact mapAssign_ok _ _
    · intro i hi
      simp only [List.getD_eq_getElem?_getD, List.getElem?_map, hi, List.getElem?_eq_getElem,
        Option.map_some, Option.getD_some]
      simp only [mul_neg, mul_one]
      rw [sub_eq_add_neg, add_comm]

/-- `==` decides equality of entries and throws exactly for different sizes. -/
theorem C23_eq [DecidableEq T] (v w : List T) :
    (v.length ≠ w.length → Vec.eq v w = .error (.exc .vectorSizeMismatch)) ∧
    (v.length = w.length → ∃ b, Vec.eq v w = .ok b ∧ (b = true ↔ v = w)) := by
  constructor
  · intro h; unfold Vec.eq; rw [throwIf_true _ h]; rfl
  · intro h
    unfold Vec.eq
    rw [throwIf_false _ (by simpa using h)]
    simp only [ok_bind]
    obtain ⟨b, h1, h2⟩ := forRange_all 0 v.length (Nat.zero_le _)
      (fun i => v[i]? = w[i]?) (fun i b =>
        if b then do
          let x ← vecAt v i
          let y ← vecAt w i
          return decide (x = y)
        else return false) (by
        intro i _ hi
        have hw : i < w.length := by omega
        simp [vecAt_ok hi, vecAt_ok hw, hi, hw]) (by intro i _ _; rfl)
    refine ⟨b, h1, ?_⟩
    rw [h2]
    constructor
    · intro hh
      apply List.ext_getElem?
      intro i
      by_cases hi : i < v.length
      · exact hh i (Nat.zero_le _) hi
      · rw [List.getElem?_eq_none (by omega), List.getElem?_eq_none (by omega)]
    · rintro rfl i _ _; rfl

/-- `hasZero()` and `has(start,end,v)` report exactly the presence of such an entry. -/
theorem C23_has [Zero T] [DecidableEq T] (v : List T) :
    (∃ b, hasZero v = .ok b ∧ (b = true ↔ 0 ∈ v)) ∧
    ∀ s e x, s ≤ min e v.length → ∃ b, has v s e x = .ok b ∧ (b = true ↔ ∃ i, s ≤ i ∧ i < e ∧ v[i]? = some x) := by
  constructor
  · obtain ⟨b, h1, h2⟩ := forRange_any 0 v.length (Nat.zero_le _) (fun i => v[i]? = some 0)
      (fun i b => if b then return true else do
        let x ← getIdx v i
        return decide (x = 0)) (by intro i _ hi; simp [getIdx_eq hi, hi]) (by intro i _ _; rfl)
    refine ⟨b, h1, ?_⟩
    rw [h2, List.mem_iff_getElem?]
    constructor
    · rintro ⟨i, _, _, h⟩; exact ⟨i, h⟩
    · rintro ⟨i, h⟩; exact ⟨i, Nat.zero_le _, (List.getElem?_eq_some_iff.1 h).1, h⟩
  · intro s e x hse
    obtain ⟨b, h1, h2⟩ := forRange_any s (min e v.length) hse (fun i => v[i]? = some x)
      (fun i b => if b then return true else do
        let y ← vecAt v i
        return decide (y = x)) (by
          intro i _ hi
          have : i < v.length := by omega
          simp [vecAt_ok this, this]) (by intro i _ _; rfl)
    refine ⟨b, h1, ?_⟩
    rw [h2]
    constructor
    · rintro ⟨i, ha, hb, h⟩; exact ⟨i, ha, by omega, h⟩
    · rintro ⟨i, ha, hb, h⟩
      have := (List.getElem?_eq_some_iff.1 h).1
      exact ⟨i, ha, by omega, h⟩

/-! ### C24 -/

/-- **C24**: `dot` is the sum of products of entries, and throws exactly on a size mismatch. -/
theorem C24_dot [NonUnitalNonAssocSemiring T] (v w : List T) :
    (v.length ≠ w.length → dot v w = .error (.exc .vectorSizeMismatch)) ∧
    (v.length = w.length → dot v w = .ok (∑ i ∈ Finset.range v.length, v.getD i 0 * w.getD i 0)) :=
  ⟨fun h => by unfold dot; rw [throwIf_true _ h]; rfl, dot_ok v w⟩

/-- **C24**: symmetric (including the exceptional case). -/
theorem C24_symm [CommRing T] (v w : List T) : dot v w = dot w v := by
  by_cases h : v.length = w.length
  · rw [dot_ok v w h, dot_ok w v h.symm, h]
    congr 1
    exact Finset.sum_congr rfl (fun i _ => mul_comm _ _)
  · rw [(C24_dot v w).1 h, (C24_dot w v).1 (Ne.symm h)]

/-- **C24**: bilinear, stated with the library's own `+=` and `*=`. -/
theorem C24_bilinear [CommRing T] (u v w : List T) (f a b : T) (h : u.length = v.length)
    (h' : v.length = w.length) (ha : dot u w = .ok a) (hb : dot v w = .ok b) :
    (addAssign u v >>= fun s => dot s w) = .ok (a + b) ∧
    (mulScalar u f >>= fun s => dot s w) = .ok (a * f) := by
  have hw : u.length = w.length := h.trans h'
  rw [dot_ok u w hw] at ha
  rw [dot_ok v w h'] at hb
  cases ha; cases hb
  constructor
  · unfold addAssign
    rw [zipAssign_ok _ u v h]
    simp only [ok_bind]
    rw [dot_ok _ w (by simp [← h', h])]
    congr 1
    rw [← h, ← Finset.sum_add_distrib]
    simp only [List.length_zipWith, ← h, min_self]
    refine Finset.sum_congr rfl (fun i hi => ?_)
    have h1 : i < u.length := Finset.mem_range.1 hi
    have h2 : i < v.length := by omega
    simp [List.getD_eq_getElem?_getD, h1, h2, List.getElem?_zipWith, add_mul]
  · unfold mulScalar
    rw [mapAssign_ok]
    simp only [ok_bind]
    rw [dot_ok _ w (by simpa using hw)]
    congr 1
    rw [Finset.sum_mul, List.length_map]
    refine Finset.sum_congr rfl (fun i hi => ?_)
    have h1 : i < u.length := Finset.mem_range.1 hi
    simp [List.getD_eq_getElem?_getD, h1]
    ring

example : dot ([1, 2] : List Int) [3, 4] = .ok 11 ∧ ([1, 2] : List Int).length = [5, 6].length := by
  exact ⟨by decide +kernel, rfl⟩

/-- **C24**: `magSqr` is non-negative and 0 exactly for the zero vector. -/
theorem C24_magSqr [CommRing T] [LinearOrder T] [IsStrictOrderedRing T] (v : List T) :
    ∃ s, magSqr v = .ok s ∧ 0 ≤ s ∧ (s = 0 ↔ ∀ x ∈ v, x = 0) := by
  refine ⟨_, dot_ok v v rfl, Finset.sum_nonneg (fun i _ => mul_self_nonneg _), ?_⟩
  rw [Finset.sum_eq_zero_iff_of_nonneg (fun i _ => mul_self_nonneg _)]
  constructor
  · intro h x hx
    obtain ⟨i, hi, rfl⟩ := List.mem_iff_getElem.1 hx
    have := h i (Finset.mem_range.2 hi)
    rw [List.getD_eq_getElem _ _ hi] at this
    exact mul_self_eq_zero.1 this
  · intro h i hi
    have hi := Finset.mem_range.1 hi
    rw [List.getD_eq_getElem _ _ hi, h _ (List.getElem_mem hi), mul_zero]

/-! ### C25 -/

/-- **C25** (fields): `v /= f` divides every entry. Missing from the full claim: integral element
types, for which the statement is false, see `C25_fails_for_integers`. -/
theorem C25_scalar_division_partial [Field T] (d : T) (v : List T) (f : T) :
    Mapped (divScalar v f) (· / f) d v := by
  have := mapped_map (fun x : T => x * (1 / f)) d v
  simpa [divScalar, Mapped, div_eq_mul_inv] using this

/-- `f / v` over a field -/
theorem C25_rdiv [Field T] (d : T) (v : List T) (f : T) :
    Mapped (rdivScalar f v) (fun x => f / x) d v := by
  have h : reciprocal v = .ok (v.map (fun x => 1 / x)) := mapAssign_ok (fun x : T => 1 / x) v
  refine ⟨(v.map (fun x : T => 1 / x)).map (fun x => x * f), ?_, by simp, ?_⟩
  · simp only [rdivScalar, h, ok_bind, mulScalar]
    exact mapAssign_ok _ _
  · intro i hi
    simp only [List.getD_eq_getElem?_getD, List.getElem?_map, hi, List.getElem?_eq_getElem,
        Option.map_some, Option.getD_some]
    rw [one_div, mul_comm, div_eq_mul_inv]

/-- **C25 fails** for integral element types (which `is_number` admits): `[4] /= 2` gives `[0]`,
because the code multiplies by `(T)1 / f`, which is 0 in integer arithmetic. -/
theorem C25_fails_for_integers : divScalar ([4] : List Int) 2 = .ok [0] ∧ (4 : Int) / 2 = 2 := by
  decide +kernel

/-! ### C26 -/

/-- **C26**: `resize(n)` has size `n`, keeps the entries below `min(old,n)` and zeroes the others. -/
theorem C26_resize [Zero T] (v : List T) (n : Nat) :
    (resize v n).length = n ∧
    (∀ i, i < v.length → i < n → (resize v n).getD i 0 = v.getD i 0) ∧
    (∀ i, v.length ≤ i → i < n → (resize v n).getD i 0 = 0) := by
  unfold resize
  refine ⟨by simp; omega, ?_, ?_⟩
  · intro i h1 h2
    rw [List.getD_append _ _ _ _ (by simp; omega)]
    simp [List.getD_eq_getElem?_getD, List.getElem?_take, h2]
  · intro i h1 h2
    rw [List.getD_append_right _ _ _ _ (by simp; omega)]
    rw [List.getD_replicate]
    simp; omega

/-- `Vector(n)` is the zero vector; `DynamicVector{..}` has exactly the listed entries;
`FixedVector<T,K>{..}` pads with 0 and aborts on more than `K` entries. -/
theorem C26_constructors [Zero T] (n : Nat) (l : List T) :
    mk' n = .ok (List.replicate n (0 : T)) ∧ ofList l = .ok l ∧
    (l.length ≤ n → ofListFixed n l = .ok (l ++ List.replicate (n - l.length) 0)) ∧
    (n < l.length → ofListFixed n l = .error .abort) := by
  refine ⟨mk_ok n, ?_, ?_, ?_⟩
  · unfold ofList
    rw [mk_ok]
    simp only [ok_bind]
    rw [initLoop_ok _ _ (by simp)]
    simp
  · intro h
    unfold ofListFixed
    rw [fill_ok]
    simp only [ok_bind]
    rw [initLoop_ok _ _ (by simpa using h)]
    simp
  · intro h
    unfold ofListFixed
    rw [fill_ok]
    simp only [ok_bind, List.length_replicate]
    have hsplit : l = l.take n ++ l.drop n := (List.take_append_drop n l).symm
    have h1 : initLoop (l.take n) (List.replicate n (0 : T)) = .ok (l.take n) := by
      rw [initLoop_ok _ _ (by simp)]
      simp [show n - min n l.length = 0 by omega]
    unfold initLoop at h1 ⊢
    rw [hsplit, List.zipIdx_append, forList_append, h1]
    simp only [ok_bind]
    rw [List.drop_eq_getElem_cons h]
    simp only [List.zipIdx_cons, forList]
    rw [vecSet_abort (by simp)]
    rfl

example : ofListFixed 3 ([1, 2] : List Int) = .ok [1, 2, 0] ∧ ofListFixed 1 ([1, 2] : List Int) = .error .abort := by
  decide +kernel

end NS.Props.Vector

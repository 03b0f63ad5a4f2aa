/-
Property theorems C73: `max_norm2`, `min_norm2` and `cond` of a real matrix, exact arithmetic.  `sqrt` is the exact square
root, `big` is `numeric_limits<T>::max()`.
-/
import Verif.NormModel
import Verif.Props.LU
import Mathlib.Algebra.BigOperators.Fin
import Mathlib.Algebra.Order.BigOperators.Group.Finset
import Mathlib.Algebra.Order.BigOperators.Ring.Finset
import Mathlib.Algebra.Order.Chebyshev
import Mathlib.Tactic.Linarith

set_option linter.unusedSectionVars false
set_option linter.unusedSimpArgs false

namespace NS.Props.Norm
open NS NS.MatOps NS.LawfulMat NS.Operations
variable {M T : Type} [Field T] [LinearOrder T] [IsStrictOrderedRing T] [MatOps M T] [LawfulMat M T]
variable {r c : Nat}

/-! ## Specification -/

/-- `m` is a well-formed `r x c` matrix object and `at(i,j)` returns `A i j`. -/
def Holds (m : M) (A : Matrix (Fin r) (Fin c) T) : Prop :=
  Valid m ∧ rows m = r ∧ cols m = c ∧ ∀ i j, get m (i : Fin r) (j : Fin c) = .ok (A i j)

/-- `v` is the Euclidean norm of the vector of the largest absolute values in the rows of `A`. -/
def MaxNorm (A : Matrix (Fin r) (Fin c) T) (v : T) : Prop :=
  0 ≤ v ∧ ∃ s : Fin r → T, (∀ i, (∀ j, |A i j| ≤ s i) ∧ ∃ j, |A i j| = s i) ∧ v ^ 2 = ∑ i, s i ^ 2

/-- `v` is the Euclidean norm of the vector of the least absolute values of those entries in the rows of `A` that satisfy `P`
(`big` in a row without such an entry). -/
def MinNorm (P : T → Prop) (big : T) (A : Matrix (Fin r) (Fin c) T) (v : T) : Prop :=
  0 ≤ v ∧ ∃ s : Fin r → T, (∀ i, (∀ j, P (A i j) → s i ≤ |A i j|) ∧
    ((∃ j, P (A i j) ∧ |A i j| = s i) ∨ (s i = big ∧ ∀ j, ¬ P (A i j)))) ∧ v ^ 2 = ∑ i, s i ^ 2

/-- `sqrt` is the exact square root. -/
def IsSqrt (sqrt : T → T) : Prop := ∀ x, 0 ≤ x → 0 ≤ sqrt x ∧ sqrt x * sqrt x = x

/-! ## The loops -/

theorem Holds.val_eq {m : M} {A : Matrix (Fin r) (Fin c) T} (h : Holds m A) (i : Fin r) (j : Fin c) : val m i j = A i j := by
  have := h.2.2.2 i j
  rw [get_ok h.1 (by rw [h.2.1]; exact i.2) (by rw [h.2.2.1]; exact j.2)] at this
  exact Except.ok.inj this

theorem rowMax_ok (l : List (Nat × Nat × T)) : ∃ s, rowMax l = .ok s ∧ (∀ e ∈ l, |e.2.2| ≤ s) ∧ 0 ≤ s ∧
    (s = 0 ∨ ∃ e ∈ l, |e.2.2| = s) := by
  have : Sat (rowMax l) (fun s => (∀ e ∈ l, |e.2.2| ≤ s) ∧ 0 ≤ s ∧ (s = 0 ∨ ∃ e ∈ l, |e.2.2| = s)) noErr := by
    unfold rowMax
    refine sat_forList (fun l s => (∀ e ∈ l, |e.2.2| ≤ s) ∧ 0 ≤ s ∧ (s = 0 ∨ ∃ e ∈ l, |e.2.2| = s)) l (s := 0) (by simp) ?_
    rintro pre a suf s - ⟨h1, h2, h3⟩
    split
    · rename_i h
      refine ⟨?_, abs_nonneg _, Or.inr ⟨a, by simp, rfl⟩⟩
      intro e he
      rcases List.mem_append.1 he with he | he
      · exact (h1 e he).trans h.le
      · rw [List.mem_singleton.1 he]
    · rename_i h
      refine ⟨?_, h2, ?_⟩
      · intro e he
        rcases List.mem_append.1 he with he | he
        · exact h1 e he
        · rw [List.mem_singleton.1 he]; exact not_lt.1 h
      · rcases h3 with h3 | ⟨e, he, h3⟩
        · exact Or.inl h3
        · exact Or.inr ⟨e, by simp [he], h3⟩
  obtain ⟨s, h1, h2⟩ := Sat.ok_of this
  exact ⟨s, h1, h2⟩

theorem rowMin_ok (big : T) (l : List (Nat × Nat × T)) (_hb : ∀ e ∈ l, |e.2.2| ≤ big) : ∃ s, rowMin big l = .ok s ∧
    (∀ e ∈ l, s ≤ |e.2.2|) ∧ ((∃ e ∈ l, |e.2.2| = s) ∨ (s = big)) ∧ s ≤ big := by
  have : Sat (rowMin big l) (fun s => (∀ e ∈ l, s ≤ |e.2.2|) ∧ ((∃ e ∈ l, |e.2.2| = s) ∨ s = big) ∧ s ≤ big)
      noErr := by
    unfold rowMin
    refine sat_forList (fun l s => (∀ e ∈ l, s ≤ |e.2.2|) ∧ ((∃ e ∈ l, |e.2.2| = s) ∨ s = big) ∧ s ≤ big) l (s := big) (by simp) ?_
    rintro pre a suf s - ⟨h1, h2, h3⟩
    split
    · rename_i h
      refine ⟨?_, Or.inl ⟨a, by simp, rfl⟩, h.le.trans h3⟩
      intro e he
      rcases List.mem_append.1 he with he | he
      · exact h.le.trans (h1 e he)
      · rw [List.mem_singleton.1 he]
    · rename_i h
      refine ⟨?_, ?_, h3⟩
      · intro e he
        rcases List.mem_append.1 he with he | he
        · exact h1 e he
        · rw [List.mem_singleton.1 he]; exact not_lt.1 h
      · rcases h2 with ⟨e, he, h2⟩ | h2
        · exact Or.inl ⟨e, by simp [he], h2⟩
        · exact Or.inr h2
  obtain ⟨s, h1, h2⟩ := Sat.ok_of this
  exact ⟨s, h1, h2⟩

theorem sumLoop (n : Nat) (f : Nat → R T) (P : Nat → T → Prop) (h : ∀ i < n, ∃ s, f i = .ok s ∧ P i s) :
    ∃ s : Fin n → T, (∀ i : Fin n, P i (s i)) ∧
      forRange 0 n (0 : T) (fun i v => do let s ← f i; return v + s * s) = .ok (∑ i, s i ^ 2) := by
  choose! s hs using h
  refine ⟨fun i => s i, fun i => (hs i i.2).2, ?_⟩
  have : Sat (forRange 0 n (0 : T) (fun i v => do let s ← f i; return v + s * s))
      (fun v => v = ∑ i ∈ Finset.range n, s i ^ 2) noErr := by
    refine sat_forRange (fun k v => v = ∑ i ∈ Finset.range k, s i ^ 2) (Nat.zero_le _) (by simp) ?_
    intro j v _ hj hv
    rw [(hs j hj).1]
    show v + s j * s j = _
    rw [hv, Finset.sum_range_succ]; ring
  obtain ⟨v, h1, h2⟩ := Sat.ok_of this
  rw [h1, h2, Finset.sum_range]

/-! ## `max_norm2` -/

/-- `max_norm2` of every matrix object returns the Euclidean norm of the row maxima. -/
theorem C73_max_norm {sqrt : T → T} (hs : IsSqrt sqrt) {m : M} {A : Matrix (Fin r) (Fin c) T} (h : Holds m A) :
    ∃ v, maxNorm2 sqrt m = .ok v ∧ MaxNorm A v := by
  have hc : 0 < c := h.2.2.1 ▸ cols_pos h.1
  obtain ⟨s, h1, h2⟩ := sumLoop r (fun i => do let row ← rowEntries m i; rowMax row)
    (fun i s => ∀ hi : i < r, (∀ j, |A ⟨i, hi⟩ j| ≤ s) ∧ ∃ j, |A ⟨i, hi⟩ j| = s) (by
      intro i hi
      obtain ⟨l, l1, -, l3, l4⟩ := rowEntries_ok (m := m) (i := i) h.1 (by rw [h.2.1]; exact hi)
      obtain ⟨s, s1, s2, s3, s4⟩ := rowMax_ok l
      refine ⟨s, by simp only [l1, ok_bind, s1], fun hi => ?_⟩
      have hv : ∀ j : Fin c, val m i j = A ⟨i, hi⟩ j := fun j => h.val_eq ⟨i, hi⟩ j
      have hle : ∀ j, |A ⟨i, hi⟩ j| ≤ s := by
        intro j
        by_cases hj : A ⟨i, hi⟩ j = 0
        · rw [hj, abs_zero]; exact s3
        · rw [← hv j] at hj ⊢
          exact s2 _ (l4 j (by rw [h.2.2.1]; exact j.2) hj)
      refine ⟨hle, ?_⟩
      rcases s4 with s4 | ⟨e, he, s4⟩
      · exact ⟨⟨0, hc⟩, le_antisymm (hle _) (s4 ▸ abs_nonneg _)⟩
      · obtain ⟨-, e2, e3⟩ := l3 e he
        rw [h.2.2.1] at e2
        refine ⟨⟨e.2.1, e2⟩, ?_⟩
        rw [← hv, ← s4, e3])
  have hx : maxNorm2 sqrt m = .ok (sqrt (∑ i, s i ^ 2)) := by
    unfold maxNorm2
    rw [h.2.1]
    simp only [bind_assoc] at h2
    rw [h2]; rfl
  have h0 : 0 ≤ ∑ i, s i ^ 2 := Finset.sum_nonneg fun i _ => sq_nonneg _
  obtain ⟨q1, q2⟩ := hs _ h0
  exact ⟨_, hx, q1, s, fun i => h1 i i.2, by rw [pow_two, q2]⟩

theorem rowMax_unique {A : Matrix (Fin r) (Fin c) T} {i : Fin r} {s t : T} (hs : (∀ j, |A i j| ≤ s) ∧ ∃ j, |A i j| = s)
    (ht : (∀ j, |A i j| ≤ t) ∧ ∃ j, |A i j| = t) : s = t := by
  obtain ⟨h1, j, h2⟩ := hs
  obtain ⟨h3, k, h4⟩ := ht
  exact le_antisymm (h2 ▸ h3 j) (h4 ▸ h1 k)

theorem sq_inj {a b : T} (ha : 0 ≤ a) (hb : 0 ≤ b) (h : a ^ 2 = b ^ 2) : a = b := by
  rcases sq_eq_sq_iff_eq_or_eq_neg.1 h with h | h
  · exact h
  · have : b = 0 := by linarith
    rw [h, this, neg_zero]

/-- The specification determines the value. -/
theorem MaxNorm.unique {A : Matrix (Fin r) (Fin c) T} {v w : T} (hv : MaxNorm A v) (hw : MaxNorm A w) : v = w := by
  obtain ⟨v0, s, hs, hv⟩ := hv
  obtain ⟨w0, t, ht, hw⟩ := hw
  have : s = t := funext fun i => rowMax_unique (hs i) (ht i)
  subst this
  exact sq_inj v0 w0 (hv.trans hw.symm)

/-- The value depends on the entries only, not on the matrix class or its representation. -/
theorem C73_max_norm_eq {M' : Type} [MatOps M' T] [LawfulMat M' T] {sqrt : T → T} (hs : IsSqrt sqrt) {m : M} {m' : M'}
    {A : Matrix (Fin r) (Fin c) T} (h : Holds m A) (h' : Holds m' A) : maxNorm2 sqrt m = maxNorm2 sqrt m' := by
  obtain ⟨v, h1, h2⟩ := C73_max_norm hs h
  obtain ⟨w, h3, h4⟩ := C73_max_norm hs h'
  rw [h1, h3, h2.unique h4]

/-- `max_norm2` is zero exactly for the zero matrix. -/
theorem C73_definite {sqrt : T → T} (hs : IsSqrt sqrt) {m : M} {A : Matrix (Fin r) (Fin c) T} (h : Holds m A) :
    maxNorm2 sqrt m = .ok 0 ↔ A = 0 := by
  obtain ⟨v, h1, h2, s, h3, h4⟩ := C73_max_norm hs h
  rw [h1]
  constructor
  · intro hv
    have hv : v = 0 := Except.ok.inj hv
    rw [hv, zero_pow two_ne_zero] at h4
    have := (Finset.sum_eq_zero_iff_of_nonneg (fun i _ => sq_nonneg (s i))).1 h4.symm
    ext i j
    have hi : s i = 0 := pow_eq_zero_iff two_ne_zero |>.1 (this i (Finset.mem_univ _))
    have := (h3 i).1 j
    rw [hi] at this
    exact abs_eq_zero.1 (le_antisymm this (abs_nonneg _))
  · rintro rfl
    have : ∀ i, s i = 0 := fun i => by
      obtain ⟨j, hj⟩ := (h3 i).2
      simpa using hj.symm
    simp only [this, ne_eq, OfNat.ofNat_ne_zero, not_false_eq_true, zero_pow, Finset.sum_const_zero] at h4
    rw [pow_eq_zero_iff two_ne_zero |>.1 h4]

/-- Scaling the matrix by `a` scales `max_norm2` by `|a|`. -/
theorem C73_homogeneous {sqrt : T → T} (hs : IsSqrt sqrt) {m m' : M} {A : Matrix (Fin r) (Fin c) T} {a : T}
    (h : Holds m A) (h' : Holds m' (a • A)) :
    ∃ v, maxNorm2 sqrt m = .ok v ∧ maxNorm2 sqrt m' = .ok (|a| * v) := by
  obtain ⟨v, h1, h2, s, h3, h4⟩ := C73_max_norm hs h
  obtain ⟨w, h5, h6⟩ := C73_max_norm hs h'
  refine ⟨v, h1, ?_⟩
  rw [h5]
  congr 1
  refine h6.unique ⟨mul_nonneg (abs_nonneg _) h2, fun i => |a| * s i, fun i => ⟨fun j => ?_, ?_⟩, ?_⟩
  · rw [Matrix.smul_apply, smul_eq_mul, abs_mul]
    exact mul_le_mul_of_nonneg_left ((h3 i).1 j) (abs_nonneg _)
  · obtain ⟨j, hj⟩ := (h3 i).2
    exact ⟨j, by rw [Matrix.smul_apply, smul_eq_mul, abs_mul, hj]⟩
  · simp only [mul_pow, ← Finset.mul_sum, h4]

/-- `max_norm2` satisfies the triangle inequality. -/
theorem C73_triangle {sqrt : T → T} (hs : IsSqrt sqrt) {m m' m'' : M} {A B : Matrix (Fin r) (Fin c) T}
    (h : Holds m A) (h' : Holds m' B) (h'' : Holds m'' (A + B)) :
    ∃ v w u, maxNorm2 sqrt m = .ok v ∧ maxNorm2 sqrt m' = .ok w ∧ maxNorm2 sqrt m'' = .ok u ∧ u ≤ v + w := by
  obtain ⟨v, h1, v0, s, hs1, hv⟩ := C73_max_norm hs h
  obtain ⟨w, h2, w0, t, ht1, hw⟩ := C73_max_norm hs h'
  obtain ⟨u, h3, u0, q, hq1, hu⟩ := C73_max_norm hs h''
  refine ⟨v, w, u, h1, h2, h3, ?_⟩
  have hst : ∀ i, 0 ≤ s i ∧ 0 ≤ t i ∧ 0 ≤ q i ∧ q i ≤ s i + t i := by
    intro i
    obtain ⟨a, ha⟩ := (hs1 i).2
    obtain ⟨b, hb⟩ := (ht1 i).2
    obtain ⟨d, hd⟩ := (hq1 i).2
    refine ⟨ha ▸ abs_nonneg _, hb ▸ abs_nonneg _, hd ▸ abs_nonneg _, ?_⟩
    rw [← hd]
    exact (abs_add_le _ _).trans (add_le_add ((hs1 i).1 d) ((ht1 i).1 d))
  have hcs := Finset.sum_mul_sq_le_sq_mul_sq Finset.univ s t
  rw [← hv, ← hw, ← mul_pow] at hcs
  have hcs' : ∑ i, s i * t i ≤ v * w := abs_le_of_sq_le_sq' hcs (mul_nonneg v0 w0) |>.2
  have : u ^ 2 ≤ (v + w) ^ 2 := by
    rw [hu]
    calc ∑ i, q i ^ 2 ≤ ∑ i, (s i + t i) ^ 2 :=
          Finset.sum_le_sum fun i _ => pow_le_pow_left₀ (hst i).2.2.1 (hst i).2.2.2 2
      _ = ∑ i, s i ^ 2 + 2 * ∑ i, s i * t i + ∑ i, t i ^ 2 := by
          rw [Finset.mul_sum, ← Finset.sum_add_distrib, ← Finset.sum_add_distrib]
          exact Finset.sum_congr rfl fun i _ => by ring
      _ ≤ (v + w) ^ 2 := by rw [← hv, ← hw]; nlinarith
  exact abs_le_of_sq_le_sq' this (add_nonneg v0 w0) |>.2

/-- Every entry is bounded by `max_norm2`, which is bounded by the Frobenius norm. -/
theorem C73_entries {sqrt : T → T} (hs : IsSqrt sqrt) {m : M} {A : Matrix (Fin r) (Fin c) T} (h : Holds m A) :
    ∃ v, maxNorm2 sqrt m = .ok v ∧ (∀ i j, |A i j| ≤ v) ∧ v ^ 2 ≤ ∑ i, ∑ j, A i j ^ 2 := by
  obtain ⟨v, h1, v0, s, hs1, hv⟩ := C73_max_norm hs h
  refine ⟨v, h1, fun i j => ?_, ?_⟩
  · refine (abs_le_of_sq_le_sq' ?_ v0).2
    rw [hv]
    calc |A i j| ^ 2 ≤ s i ^ 2 := pow_le_pow_left₀ (abs_nonneg _) ((hs1 i).1 j) 2
      _ ≤ _ := Finset.single_le_sum (f := fun i => s i ^ 2) (fun i _ => sq_nonneg _) (Finset.mem_univ i)
  · rw [hv]
    refine Finset.sum_le_sum fun i _ => ?_
    obtain ⟨j, hj⟩ := (hs1 i).2
    rw [← hj, sq_abs]
    exact Finset.single_le_sum (f := fun j => A i j ^ 2) (fun i _ => sq_nonneg _) (Finset.mem_univ j)

/-- The norm bounds the action on vectors: the Euclidean norm of `A x` is at most `max_norm2(A)` times the sum of the absolute
values of `x`. -/
theorem C73_action {sqrt : T → T} (hs : IsSqrt sqrt) {m : M} {A : Matrix (Fin r) (Fin c) T} (h : Holds m A) (x : Fin c → T) :
    ∃ v, maxNorm2 sqrt m = .ok v ∧ ∑ i, (A.mulVec x i) ^ 2 ≤ (v * ∑ j, |x j|) ^ 2 := by
  obtain ⟨v, h1, v0, s, hs1, hv⟩ := C73_max_norm hs h
  refine ⟨v, h1, ?_⟩
  rw [mul_pow, hv, Finset.sum_mul]
  refine Finset.sum_le_sum fun i _ => ?_
  rw [← mul_pow, ← sq_abs]
  refine pow_le_pow_left₀ (abs_nonneg _) ?_ 2
  show |∑ j, A i j * x j| ≤ _
  refine (Finset.abs_sum_le_sum_abs _ _).trans ?_
  rw [Finset.mul_sum]
  refine Finset.sum_le_sum fun j _ => ?_
  rw [abs_mul]
  exact mul_le_mul_of_nonneg_right ((hs1 i).1 j) (abs_nonneg _)

/-! ## `min_norm2` -/

theorem min_norm {sqrt : T → T} (hs : IsSqrt sqrt) {big : T} (P : T → Prop) {m : M} {A : Matrix (Fin r) (Fin c) T}
    (h : Holds m A) (hb : ∀ i j, |A i j| ≤ big)
    (hP : ∀ (i : Fin r), ∃ l, rowEntries m i = .ok l ∧ (∀ e ∈ l, ∃ j : Fin c, e.2.2 = A i j ∧ P (A i j)) ∧
      ∀ j : Fin c, P (A i j) → ∃ e ∈ l, e.2.2 = A i j) :
    ∃ v, minNorm2 sqrt big m = .ok v ∧ MinNorm P big A v := by
  obtain ⟨s, h1, h2⟩ := sumLoop r (fun i => do let row ← rowEntries m i; rowMin big row)
    (fun i s => ∀ hi : i < r, (∀ j, P (A ⟨i, hi⟩ j) → s ≤ |A ⟨i, hi⟩ j|) ∧
      ((∃ j, P (A ⟨i, hi⟩ j) ∧ |A ⟨i, hi⟩ j| = s) ∨ (s = big ∧ ∀ j, ¬ P (A ⟨i, hi⟩ j)))) (by
      intro i hi
      obtain ⟨l, l1, l3, l4⟩ := hP ⟨i, hi⟩
      obtain ⟨s, s1, s2, s3, s4⟩ := rowMin_ok big l (fun e he => by
        obtain ⟨j, hj, -⟩ := l3 e he
        rw [hj]; exact hb _ _)
      refine ⟨s, by simp only [l1, ok_bind, s1], fun hi => ⟨?_, ?_⟩⟩
      · intro j hj
        obtain ⟨e, he, h5⟩ := l4 j hj
        rw [← h5]; exact s2 e he
      · rcases s3 with ⟨e, he, s3⟩ | s3
        · obtain ⟨j, h5, h6⟩ := l3 e he
          exact Or.inl ⟨j, h6, by rw [← h5, s3]⟩
        · by_cases hx : ∃ j, P (A ⟨i, hi⟩ j)
          · obtain ⟨j, hj⟩ := hx
            obtain ⟨e, he, h5⟩ := l4 j hj
            refine Or.inl ⟨j, hj, le_antisymm ?_ ?_⟩
            · rw [s3]; exact hb _ _
            · rw [← h5]; exact s2 e he
          · exact Or.inr ⟨s3, fun j hj => hx ⟨j, hj⟩⟩)
  have hx : minNorm2 sqrt big m = .ok (sqrt (∑ i, s i ^ 2)) := by
    unfold minNorm2
    rw [h.2.1]
    simp only [bind_assoc] at h2
    rw [h2]; rfl
  have h0 : 0 ≤ ∑ i, s i ^ 2 := Finset.sum_nonneg fun i _ => sq_nonneg _
  obtain ⟨q1, q2⟩ := hs _ h0
  exact ⟨_, hx, q1, s, fun i => h1 i i.2, by rw [pow_two, q2]⟩

/-- `min_norm2` of a `SparseMatrix`: row minima of the absolute values of the non-zero entries. -/
theorem C73_min_norm_sparse {sqrt : T → T} (hs : IsSqrt sqrt) {big : T} {m : Sparse T} {A : Matrix (Fin r) (Fin c) T}
    (h : Holds m A) (hb : ∀ i j, |A i j| ≤ big) :
    ∃ v, minNorm2 sqrt big m = .ok v ∧ MinNorm (· ≠ 0) big A v := by
  refine min_norm hs _ h hb fun i => ?_
  have hr : m.rows = r := h.2.1
  have hc : m.columns = c := h.2.2.1
  obtain ⟨l, l1, -, l3, l4⟩ := Sparse.Inv.rowEntries_ok (s := m) h.1 (i := i) (by rw [hr]; exact i.2)
  refine ⟨l, l1, fun e he => ?_, fun j hj => ?_⟩
  · obtain ⟨a, b, d⟩ := (l3 e).1 he
    have hlt : e.2.1 < c := hc ▸ (l4 e he).2
    have hv : m.val i e.2.1 = A i ⟨e.2.1, hlt⟩ := h.val_eq i ⟨e.2.1, hlt⟩
    refine ⟨⟨e.2.1, hlt⟩, ?_, ?_⟩
    · rw [b, a, hv]
    · rw [← hv, ← a, ← b]; exact d
  · have hv : m.val i j = A i j := h.val_eq i j
    exact ⟨(i, j, A i j), (l3 _).2 ⟨rfl, hv.symm, hj⟩, rfl⟩

/-- `min_norm2` of a `DenseMatrix`: row minima of the absolute values of all entries. -/
theorem C73_min_norm_dense {sqrt : T → T} (hs : IsSqrt sqrt) {big : T} {m : Dense T} {A : Matrix (Fin r) (Fin c) T}
    (h : Holds m A) (hb : ∀ i j, |A i j| ≤ big) :
    ∃ v, minNorm2 sqrt big m = .ok v ∧ MinNorm (fun _ => True) big A v := by
  refine min_norm hs _ h hb fun i => ?_
  have hr : m.rows = r := h.2.1
  have hc : m.columns = c := h.2.2.1
  refine ⟨_, Dense.WF.rowEntries_ok h.1 (by rw [hr]; exact i.2), ?_, ?_⟩
  · rintro ⟨a, b, x⟩ he
    obtain ⟨rfl, -, h2, rfl⟩ := (Dense.mem_rowFrom m i 0 a b x).1 he
    exact ⟨⟨b, hc ▸ h2⟩, h.val_eq i ⟨b, hc ▸ h2⟩, trivial⟩
  · intro j _
    exact ⟨(i, j, m.val i j), (Dense.mem_rowFrom m i 0 _ _ _).2 ⟨rfl, Nat.zero_le _, hc ▸ j.2, rfl⟩, h.val_eq i j⟩

theorem MinNorm.unique {P : T → Prop} {big : T} {A : Matrix (Fin r) (Fin c) T} {v w : T} (hv : MinNorm P big A v)
    (hw : MinNorm P big A w) : v = w := by
  obtain ⟨v0, s, hs, hv⟩ := hv
  obtain ⟨w0, t, ht, hw⟩ := hw
  have : s = t := by
    funext i
    obtain ⟨a1, a2⟩ := hs i
    obtain ⟨b1, b2⟩ := ht i
    rcases a2 with ⟨j, hj, a2⟩ | ⟨a2, a3⟩
    · rcases b2 with ⟨k, hk, b2⟩ | ⟨b2, b3⟩
      · exact le_antisymm (b2 ▸ a1 k hk) (a2 ▸ b1 j hj)
      · exact absurd hj (b3 j)
    · rcases b2 with ⟨k, hk, b2⟩ | ⟨b2, b3⟩
      · exact absurd hk (a3 k)
      · rw [a2, b2]
  subst this
  exact sq_inj v0 w0 (hv.trans hw.symm)

/-! ## `cond` -/

/-- the row maxima and minima entering `cond` -/
theorem maxmin {P : T → Prop} {big : T} {A : Matrix (Fin r) (Fin c) T} {v w : T} (hv : MaxNorm A v) (hw : MinNorm P big A w)
    (hP : ∀ i, ∃ j, P (A i j)) : w ≤ v ∧ (w = v ↔ ∀ i j k, P (A i j) → |A i j| = |A i k| ∨ |A i k| < |A i j|) := by
  obtain ⟨v0, s, hs, hv⟩ := hv
  obtain ⟨w0, t, ht, hw⟩ := hw
  have h0 : ∀ i, 0 ≤ t i ∧ t i ≤ s i := by
    intro i
    obtain ⟨a1, a2⟩ := ht i
    rcases a2 with ⟨j, hj, a2⟩ | ⟨a2, a3⟩
    · exact ⟨a2 ▸ abs_nonneg _, a2 ▸ (hs i).1 j⟩
    · obtain ⟨j, hj⟩ := hP i
      exact absurd hj (a3 j)
  have hle : w ^ 2 ≤ v ^ 2 := by
    rw [hv, hw]
    exact Finset.sum_le_sum fun i _ => pow_le_pow_left₀ (h0 i).1 (h0 i).2 2
  refine ⟨(abs_le_of_sq_le_sq' hle v0).2, ?_⟩
  have hiff : w = v ↔ ∀ i, t i = s i := by
    constructor
    · intro hwv
      have h1 : ∑ i, t i ^ 2 = ∑ i, s i ^ 2 := by rw [← hv, ← hw, hwv]
      have := (Finset.sum_eq_sum_iff_of_le (fun i _ => pow_le_pow_left₀ (h0 i).1 (h0 i).2 2)).1 h1
      exact fun i => sq_inj (h0 i).1 ((h0 i).1.trans (h0 i).2) (this i (Finset.mem_univ _))
    · intro h
      refine sq_inj w0 v0 ?_
      rw [hv, hw]
      exact Finset.sum_congr rfl fun i _ => by rw [h i]
  rw [hiff]
  constructor
  · intro h i j k hj
    have h1 := (ht i).1 j hj
    have h2 := (hs i).1 k
    rw [← h i] at h2
    exact (h2.trans h1).lt_or_eq.symm.imp_left Eq.symm
  · intro h i
    refine le_antisymm (h0 i).2 ?_
    obtain ⟨k, hk⟩ := (hs i).2
    rcases (ht i).2 with ⟨j, hj, a2⟩ | ⟨a2, a3⟩
    · rw [← hk, ← a2]
      rcases h i j k hj with h | h
      · exact h.ge
      · exact h.le
    · obtain ⟨j, hj⟩ := hP i
      exact absurd hj (a3 j)

/-- the value `cond` is meant to be -/
def Cond (P : T → Prop) (big : T) (A : Matrix (Fin r) (Fin c) T) (k : T) : Prop :=
  ∃ v w, MaxNorm A v ∧ MinNorm P big A w ∧ w ≠ 0 ∧ k = v / w

/-- `cond` of a sparse matrix without zero rows is defined and at least one. -/
theorem C73_cond_sparse {sqrt : T → T} (hs : IsSqrt sqrt) {big : T} {m : Sparse T} {A : Matrix (Fin r) (Fin c) T}
    (h : Holds m A) (hb : ∀ i j, |A i j| ≤ big) (hrow : ∀ i, ∃ j, A i j ≠ 0) :
    ∃ k, cond sqrt big m = .ok k ∧ Cond (· ≠ 0) big A k ∧ 1 ≤ k ∧
      (k = 1 ↔ ∀ i j k, A i j ≠ 0 → A i k ≠ 0 → |A i j| = |A i k|) := by
  obtain ⟨v, h1, h2⟩ := C73_max_norm hs h
  obtain ⟨w, h3, h4⟩ := C73_min_norm_sparse hs h hb
  have hr : 0 < r := h.2.1 ▸ rows_pos h.1
  have hw : 0 < w := by
    obtain ⟨w0, t, ht, hw⟩ := h4
    rcases w0.lt_or_eq with w0 | w0
    · exact w0
    · rw [← w0, zero_pow two_ne_zero] at hw
      have := (Finset.sum_eq_zero_iff_of_nonneg (fun i _ => sq_nonneg (t i))).1 hw.symm ⟨0, hr⟩ (Finset.mem_univ _)
      have ht0 : t ⟨0, hr⟩ = 0 := pow_eq_zero_iff two_ne_zero |>.1 this
      rcases (ht ⟨0, hr⟩).2 with ⟨j, hj, a⟩ | ⟨-, a⟩
      · rw [ht0] at a
        exact absurd (abs_eq_zero.1 a) hj
      · obtain ⟨j, hj⟩ := hrow ⟨0, hr⟩
        exact absurd hj (a j)
  obtain ⟨hle, heq⟩ := maxmin h2 h4 hrow
  refine ⟨v / w, ?_, ⟨v, w, h2, h4, hw.ne', rfl⟩, (one_le_div hw).2 hle, ?_⟩
  · unfold Operations.cond
    rw [h1, h3]
    simp only [ok_bind, fdiv, if_neg hw.ne']
  · rw [div_eq_one_iff_eq hw.ne', eq_comm, heq]
    constructor
    · intro h i j k hj hk
      rcases h i j k hj with h5 | h5
      · exact h5
      · rcases h i k j hk with h6 | h6
        · exact h6.symm
        · exact absurd h6 (not_lt.2 h5.le)
    · intro h i j k hj
      by_cases hk : A i k = 0
      · right; rw [hk, abs_zero]; exact abs_pos.2 hj
      · exact Or.inl (h i j k hj hk)

/-- `cond` of a dense matrix is defined exactly when some row has no zero entry; it is then at least one.  In all other cases the
division by zero makes the result infinite or undefined. -/
theorem C73_cond_dense {sqrt : T → T} (hs : IsSqrt sqrt) {big : T} {m : Dense T} {A : Matrix (Fin r) (Fin c) T}
    (h : Holds m A) (hb : ∀ i j, |A i j| ≤ big) :
    ((∃ i, ∀ j, A i j ≠ 0) → ∃ k, cond sqrt big m = .ok k ∧ Cond (fun _ => True) big A k ∧ 1 ≤ k ∧
      (k = 1 ↔ ∀ i j k, |A i j| = |A i k|)) ∧
    ((∀ i, ∃ j, A i j = 0) → cond sqrt big m = .error .nonfinite) := by
  have hc : 0 < c := h.2.2.1 ▸ cols_pos h.1
  obtain ⟨v, h1, h2⟩ := C73_max_norm hs h
  obtain ⟨w, h3, h4⟩ := C73_min_norm_dense hs h hb
  have hw : w = 0 ↔ ∀ i, ∃ j, A i j = 0 := by
    obtain ⟨w0, t, ht, hw⟩ := h4
    have h5 : w = 0 ↔ ∀ i, t i = 0 := by
      rw [← pow_eq_zero_iff (two_ne_zero), hw, Finset.sum_eq_zero_iff_of_nonneg (fun i _ => sq_nonneg (t i))]
      simp
    rw [h5]
    refine forall_congr' fun i => ?_
    constructor
    · intro h0
      rcases (ht i).2 with ⟨j, -, a⟩ | ⟨-, a⟩
      · rw [h0] at a
        exact ⟨j, abs_eq_zero.1 a⟩
      · exact absurd trivial (a ⟨0, hc⟩)
    · rintro ⟨j, hj⟩
      have := (ht i).1 j trivial
      rw [hj, abs_zero] at this
      refine le_antisymm this ?_
      rcases (ht i).2 with ⟨j, -, a⟩ | ⟨-, a⟩
      · exact a ▸ abs_nonneg _
      · exact absurd trivial (a ⟨0, hc⟩)
  constructor
  · rintro ⟨i₀, hi₀⟩
    have hne : w ≠ 0 := fun h => by
      obtain ⟨j, hj⟩ := hw.1 h i₀
      exact hi₀ j hj
    have hpos : 0 < w := lt_of_le_of_ne h4.1 hne.symm
    obtain ⟨hle, heq⟩ := maxmin h2 h4 (fun _ => ⟨⟨0, hc⟩, trivial⟩)
    refine ⟨v / w, ?_, ⟨v, w, h2, h4, hne, rfl⟩, (one_le_div hpos).2 hle, ?_⟩
    · unfold Operations.cond
      rw [h1, h3]
      simp only [ok_bind, fdiv, if_neg hne]
    · rw [div_eq_one_iff_eq hne, eq_comm, heq]
      constructor
      · intro h i j k
        rcases h i j k trivial with h5 | h5
        · exact h5
        · rcases h i k j trivial with h6 | h6
          · exact h6.symm
          · exact absurd h6 (not_lt.2 h5.le)
      · intro h i j k _
        exact Or.inl (h i j k)
  · intro h0
    unfold Operations.cond
    rw [h1, h3]
    simp only [ok_bind, fdiv, if_pos (hw.2 h0)]

/-- `cond` does not change when a sparse matrix is scaled by a non-zero factor. -/
theorem C73_cond_scale {sqrt : T → T} (hs : IsSqrt sqrt) {big : T} {m m' : Sparse T} {A : Matrix (Fin r) (Fin c) T} {a : T}
    (ha : a ≠ 0) (h : Holds m A) (h' : Holds m' (a • A)) (hb : ∀ i j, |A i j| ≤ big) (hb' : ∀ i j, |a * A i j| ≤ big)
    (hrow : ∀ i, ∃ j, A i j ≠ 0) : cond sqrt big m' = cond sqrt big m := by
  obtain ⟨k, h1, ⟨v, w, hv, hw, hne, hk⟩, -⟩ := C73_cond_sparse hs h hb hrow
  obtain ⟨k', h1', ⟨v', w', hv', hw', hne', hk'⟩, -⟩ := C73_cond_sparse hs h' hb' (fun i => by
    obtain ⟨j, hj⟩ := hrow i
    exact ⟨j, by simpa using ⟨ha, hj⟩⟩)
  have e1 : v' = |a| * v := by
    obtain ⟨v0, s, hs, hv⟩ := hv
    refine hv'.unique ⟨mul_nonneg (abs_nonneg _) v0, fun i => |a| * s i, fun i => ⟨fun j => ?_, ?_⟩, ?_⟩
    · rw [Matrix.smul_apply, smul_eq_mul, abs_mul]
      exact mul_le_mul_of_nonneg_left ((hs i).1 j) (abs_nonneg _)
    · obtain ⟨j, hj⟩ := (hs i).2
      exact ⟨j, by rw [Matrix.smul_apply, smul_eq_mul, abs_mul, hj]⟩
    · simp only [mul_pow, ← Finset.mul_sum, hv]
  have e2 : w' = |a| * w := by
    obtain ⟨w0, t, ht, hw⟩ := hw
    refine hw'.unique ⟨mul_nonneg (abs_nonneg _) w0, fun i => |a| * t i, fun i => ⟨fun j hj => ?_, ?_⟩, ?_⟩
    · rw [Matrix.smul_apply, smul_eq_mul, abs_mul] at *
      exact mul_le_mul_of_nonneg_left ((ht i).1 j (fun h => hj (by simp [h]))) (abs_nonneg _)
    · rcases (ht i).2 with ⟨j, hj, b⟩ | ⟨-, b⟩
      · exact Or.inl ⟨j, by simpa using ⟨ha, hj⟩, by rw [Matrix.smul_apply, smul_eq_mul, abs_mul, b]⟩
      · obtain ⟨j, hj⟩ := hrow i
        exact absurd hj (b j)
    · simp only [mul_pow, ← Finset.mul_sum, hw]
  rw [h1, h1', hk, hk', e1, e2, mul_div_mul_left _ _ (abs_ne_zero.2 ha)]

/-! ## Witnesses -/

/-- every matrix with at least one row and column is represented by some object of the class -/
theorem exists_holds (hr : 0 < r) (hc : 0 < c) (A : Matrix (Fin r) (Fin c) T) : ∃ m : M, Holds m A := by
  classical
  have key : ∀ S : Finset (Fin r × Fin c), ∃ m : M, Valid m ∧ rows m = r ∧ cols m = c ∧
      ∀ (i : Fin r) (j : Fin c), val m i j = if (i, j) ∈ S then A i j else 0 := by
    intro S
    induction S using Finset.induction_on with
    | empty =>
      obtain ⟨m, -, h2, h3, h4, h5⟩ := make_ok (M := M) hr hc
      exact ⟨m, h2, h3, h4, fun i j => by simp [h5]⟩
    | insert p S hp ih =>
      obtain ⟨m, h1, h2, h3, h4⟩ := ih
      obtain ⟨m', -, h6, h7, h8, h9⟩ := put_ok (m := m) (i := p.1) (j := p.2) (A p.1 p.2) h1
        (by rw [h2]; exact p.1.2) (by rw [h3]; exact p.2.2)
      refine ⟨m', h6, h7.trans h2, h8.trans h3, fun i j => ?_⟩
      rw [h9]
      by_cases hij : (i, j) = p
      · subst hij; simp
      · rw [if_neg, h4]
        · simp [hij]
        · rintro ⟨a, b⟩
          exact hij (Prod.ext (Fin.ext a) (Fin.ext b))
  obtain ⟨m, h1, h2, h3, h4⟩ := key Finset.univ
  refine ⟨m, h1, h2, h3, fun i j => ?_⟩
  rw [get_ok h1 (by rw [h2]; exact i.2) (by rw [h3]; exact j.2), h4]
  simp

theorem isSqrt_real : IsSqrt Real.sqrt := fun _ hx => ⟨Real.sqrt_nonneg _, Real.mul_self_sqrt hx⟩

/-- `cond` depends on the matrix class: for the identity it is one as a `SparseMatrix` and a division by zero as a
`DenseMatrix`. -/
theorem C73_not_class_independent {big : ℝ} (hb : 1 ≤ big) : ∃ (m : Sparse ℝ) (d : Dense ℝ),
    Holds m (1 : Matrix (Fin 2) (Fin 2) ℝ) ∧ Holds d (1 : Matrix (Fin 2) (Fin 2) ℝ) ∧
    Operations.cond Real.sqrt big m = .ok 1 ∧ Operations.cond Real.sqrt big d = .error .nonfinite := by
  obtain ⟨m, hm⟩ := exists_holds (M := Sparse ℝ) two_pos two_pos (1 : Matrix (Fin 2) (Fin 2) ℝ)
  obtain ⟨d, hd⟩ := exists_holds (M := Dense ℝ) two_pos two_pos (1 : Matrix (Fin 2) (Fin 2) ℝ)
  have hb' : ∀ i j, |(1 : Matrix (Fin 2) (Fin 2) ℝ) i j| ≤ big := by
    intro i j
    rw [Matrix.one_apply]
    split
    · simpa using hb
    · rw [abs_zero]; linarith
  refine ⟨m, d, hm, hd, ?_, (C73_cond_dense isSqrt_real hd hb').2 fun i => ⟨1 - i, by fin_cases i <;> simp⟩⟩
  obtain ⟨k, h1, -, -, h2⟩ := C73_cond_sparse isSqrt_real hm hb' (fun i => ⟨i, by simp⟩)
  rw [h1, h2.2]
  intro i j k hj hk
  have h1 : ∀ i j : Fin 2, (1 : Matrix (Fin 2) (Fin 2) ℝ) i j ≠ 0 → (1 : Matrix (Fin 2) (Fin 2) ℝ) i j = 1 := by
    intro i j h
    rw [Matrix.one_apply] at h ⊢
    split at h
    · rw [if_pos ‹_›]
    · exact absurd rfl h
  rw [h1 i j hj, h1 i k hk]

/-- `cond` is not a condition number: it is one for a singular matrix. -/
theorem C73_not_condition {big : ℝ} (hb : 1 ≤ big) : ∃ (m : Sparse ℝ) (A : Matrix (Fin 2) (Fin 2) ℝ),
    Holds m A ∧ A.det = 0 ∧ Operations.cond Real.sqrt big m = .ok 1 := by
  obtain ⟨m, hm⟩ := exists_holds (M := Sparse ℝ) two_pos two_pos (Matrix.of fun _ _ => 1 : Matrix (Fin 2) (Fin 2) ℝ)
  refine ⟨m, _, hm, by simp [Matrix.det_fin_two], ?_⟩
  obtain ⟨k, h1, -, -, h2⟩ := C73_cond_sparse isSqrt_real hm (by simpa using hb) (fun i => ⟨i, by simp⟩)
  rw [h1, h2.2 (by simp)]

/-- the hypotheses of the theorems above are met by a matrix with rows of different maxima and a zero entry -/
example : ∃ m : Sparse ℝ, Holds m !![(3 : ℝ), 0, -4; 1, 2, 2] ∧ MaxNorm !![(3 : ℝ), 0, -4; 1, 2, 2] (Real.sqrt 20) ∧
    maxNorm2 Real.sqrt m = .ok (Real.sqrt 20) := by
  obtain ⟨m, hm⟩ := exists_holds (M := Sparse ℝ) two_pos three_pos !![(3 : ℝ), 0, -4; 1, 2, 2]
  have hn : MaxNorm !![(3 : ℝ), 0, -4; 1, 2, 2] (Real.sqrt 20) := by
    refine ⟨Real.sqrt_nonneg _, ![4, 2], ?_, ?_⟩
    · intro i
      fin_cases i
      · exact ⟨fun j => by fin_cases j <;> norm_num, 2, by simp [abs_of_nonneg]⟩
      · exact ⟨fun j => by fin_cases j <;> norm_num, 1, by norm_num⟩
    · rw [Real.sq_sqrt (by norm_num)]; simp [Fin.sum_univ_two]; norm_num
  obtain ⟨v, h1, h2⟩ := C73_max_norm isSqrt_real hm
  exact ⟨m, hm, hn, by rw [h1, h2.unique hn]⟩
end NS.Props.Norm

/-
Property theorems C85 (the length of a vector) and C86 (NaN/infinity tests, average, extrema, iteration, `left`/`right`/`mid`).

C85: scalars are a linearly ordered field (exact real arithmetic) and `sqrt` is any exact square root (`IsSqrt`).
C86: `Fl T` is a floating-point type: finite numbers, the two infinities and NaN.
-/
import Verif.VecMoreModel
import Verif.Props.Vector
import Verif.Props.Sparse
import Verif.Props.Dense
import Verif.Props.Simplex
import Mathlib.Algebra.Order.BigOperators.Ring.Finset
import Mathlib.Algebra.Order.Chebyshev
import Mathlib.NumberTheory.Zsqrtd.GaussianInt

set_option linter.unusedSectionVars false
set_option linter.unusedSimpArgs false

namespace NS.Props.VecMore
open NS NS.Vec
open NS.Props.Simplex (IsSqrt)

section length
variable {T : Type} [Field T] [LinearOrder T] [IsStrictOrderedRing T]

/-- The sum of the squares of the entries. -/
def sq (v : List T) : T := (v.map fun x => x * x).sum

theorem sq_range (v : List T) : sq v = ∑ i ∈ Finset.range v.length, v.getD i 0 * v.getD i 0 := by
  unfold sq
  induction v with
  | nil => simp
  | cons x v ih => rw [List.map_cons, List.sum_cons, ih, List.length_cons, Finset.sum_range_succ']; simp [add_comm]

theorem sq_nonneg' (v : List T) : 0 ≤ sq v := by
  rw [sq_range]; exact Finset.sum_nonneg fun i _ => mul_self_nonneg _

theorem sq_zero_iff (v : List T) : sq v = 0 ↔ ∀ x ∈ v, x = 0 := by
  obtain ⟨s, h1, -, h3⟩ := NS.Props.Vector.C24_magSqr v
  have : magSqr v = .ok (sq v) := by rw [sq_range]; exact dot_ok v v rfl
  rw [this] at h1
  rw [Except.ok.inj h1]; exact h3

theorem mag_eq (sqrt : T → T) (v : List T) : mag sqrt v = .ok (sqrt (sq v)) := by
  unfold mag
  have : magSqr v = .ok (sq v) := by rw [sq_range]; exact dot_ok v v rfl
  rw [this]; rfl

/-- two non-negative numbers with the same square -/
theorem sqrt_unique {sqrt : T → T} (hs : IsSqrt sqrt) {x m : T} (h0 : 0 ≤ m) (h : m * m = x) : sqrt x = m := by
  have hx : 0 ≤ x := h ▸ mul_self_nonneg m
  obtain ⟨a, b⟩ := hs x hx
  exact (mul_self_inj a h0).1 (b.trans h.symm)

/-- **C85**: `mag()` always returns; the result is non-negative, its square is the sum of the squares of the entries, and
it is 0 exactly for the zero vector. -/
theorem C85_mag {sqrt : T → T} (hs : IsSqrt sqrt) (v : List T) :
    ∃ m, mag sqrt v = .ok m ∧ 0 ≤ m ∧ m * m = (v.map fun x => x * x).sum ∧ (m = 0 ↔ ∀ x ∈ v, x = 0) := by
  obtain ⟨a, b⟩ := hs _ (sq_nonneg' v)
  refine ⟨_, mag_eq sqrt v, a, b, ?_⟩
  rw [← sq_zero_iff]
  constructor
  · intro h; rw [← b, h, mul_zero]
  · intro h; exact mul_self_eq_zero.1 (b.trans h)

/-- **C85** (Cauchy-Schwarz): `|v.dot(w)| <= v.mag() * w.mag()`. -/
theorem C85_cauchy_schwarz {sqrt : T → T} (hs : IsSqrt sqrt) (v w : List T) (h : v.length = w.length) :
    ∃ d a b, dot v w = .ok d ∧ mag sqrt v = .ok a ∧ mag sqrt w = .ok b ∧ |d| ≤ a * b := by
  refine ⟨_, _, _, dot_ok v w h, mag_eq sqrt v, mag_eq sqrt w, ?_⟩
  obtain ⟨a0, a1⟩ := hs _ (sq_nonneg' v)
  obtain ⟨b0, b1⟩ := hs _ (sq_nonneg' w)
  apply abs_le_of_sq_le_sq _ (mul_nonneg a0 b0)
  have := Finset.sum_mul_sq_le_sq_mul_sq (Finset.range v.length) (fun i => v.getD i 0) (fun i => w.getD i 0)
  refine this.trans (le_of_eq ?_)
  rw [mul_pow, pow_two (sqrt (sq v)), pow_two (sqrt (sq w)), a1, b1, sq_range, sq_range, ← h]
  simp only [pow_two]

theorem sq_add (v w : List T) (h : v.length = w.length) :
    sq (List.zipWith (· + ·) v w) = sq v + 2 * (∑ i ∈ Finset.range v.length, v.getD i 0 * w.getD i 0) + sq w := by
  induction v generalizing w with
  | nil =>
    cases w with
    | nil => simp [sq]
    | cons y w => simp at h
  | cons x v ih =>
    cases w with
    | nil => simp at h
    | cons y w =>
      have := ih w (by simpa using h)
      unfold sq at this ⊢
      rw [List.zipWith_cons_cons, List.map_cons, List.sum_cons, this, List.length_cons, Finset.sum_range_succ']
      simp only [List.map_cons, List.sum_cons, List.getD_cons_succ, List.getD_cons_zero]
      ring

/-- **C85** (triangle inequality): `(v + w).mag() <= v.mag() + w.mag()`. -/
theorem C85_triangle {sqrt : T → T} (hs : IsSqrt sqrt) (v w : List T) (h : v.length = w.length) :
    ∃ u m a b, addAssign v w = .ok u ∧ mag sqrt u = .ok m ∧ mag sqrt v = .ok a ∧ mag sqrt w = .ok b ∧ m ≤ a + b := by
  obtain ⟨d, a, b, h1, h2, h3, h4⟩ := C85_cauchy_schwarz hs v w h
  refine ⟨_, _, a, b, zipAssign_ok _ v w h, mag_eq sqrt _, h2, h3, ?_⟩
  rw [dot_ok v w h] at h1
  rw [mag_eq] at h2 h3
  have e1 := Except.ok.inj h1
  have e2 := Except.ok.inj h2
  have e3 := Except.ok.inj h3
  obtain ⟨a0, a1⟩ := hs _ (sq_nonneg' v)
  obtain ⟨b0, b1⟩ := hs _ (sq_nonneg' w)
  obtain ⟨m0, m1⟩ := hs _ (sq_nonneg' (List.zipWith (· + ·) v w))
  rw [e2] at a0 a1
  rw [e3] at b0 b1
  refine (sq_le_sq₀ m0 (add_nonneg a0 b0)).1 ?_
  rw [pow_two, m1, sq_add v w h, e1]
  have := le_abs_self d
  nlinarith

/-- **C85** (homogeneity): `(v * f).mag() = |f| * v.mag()`. -/
theorem C85_scale {sqrt : T → T} (hs : IsSqrt sqrt) (v : List T) (f : T) :
    ∃ u a, mulScalar v f = .ok u ∧ mag sqrt v = .ok a ∧ mag sqrt u = .ok (|f| * a) := by
  refine ⟨_, _, mapAssign_ok _ v, mag_eq sqrt v, ?_⟩
  rw [mag_eq]
  obtain ⟨a0, a1⟩ := hs _ (sq_nonneg' v)
  congr 1
  apply sqrt_unique hs (mul_nonneg (abs_nonneg f) a0)
  rw [mul_mul_mul_comm, abs_mul_abs_self, a1]
  unfold sq
  rw [List.map_map, ← List.sum_map_mul_left]
  congr 1
  apply List.map_congr_left
  intro x _
  simp only [Function.comp]
  ring

/-- **C85**: `normalized()` of a vector that is not zero returns the vector of length 1 in the same direction (every entry
is the entry of `v` divided by `v.mag()`); of a zero vector it produces non-finite values. -/
theorem C85_normalized {sqrt : T → T} (hs : IsSqrt sqrt) (v : List T) :
    ((∃ x ∈ v, x ≠ 0) → ∃ u m, normalized sqrt v = .ok u ∧ mag sqrt v = .ok m ∧ 0 < m ∧ u = v.map (fun x => x / m) ∧
      mag sqrt u = .ok 1) ∧
    ((∀ x ∈ v, x = 0) → normalized sqrt v = .error .nonfinite) := by
  obtain ⟨a0, a1⟩ := hs _ (sq_nonneg' v)
  constructor
  · rintro ⟨x, hx, hne⟩
    have hm : sqrt (sq v) ≠ 0 := by
      intro h
      rw [h, mul_zero] at a1
      exact hne ((sq_zero_iff v).1 a1.symm x hx)
    refine ⟨v.map (fun x => x / sqrt (sq v)), _, ?_, mag_eq sqrt v, lt_of_le_of_ne a0 (Ne.symm hm), rfl, ?_⟩
    · unfold normalized
      rw [mag_eq]
      simp only [ok_bind, fdiv, if_neg hm]
      unfold divScalar
      rw [mapAssign_ok]
      congr 1
      apply List.map_congr_left
      intro y _
      ring
    · rw [mag_eq]
      congr 1
      apply sqrt_unique hs zero_le_one
      rw [mul_one]
      unfold sq at a1 hm ⊢
      rw [List.map_map]
      have : (List.map ((fun x => x * x) ∘ fun x => x / sqrt (List.map (fun x => x * x) v).sum) v).sum
          = (1 / (sqrt (List.map (fun x => x * x) v).sum * sqrt (List.map (fun x => x * x) v).sum)) *
            (List.map (fun x => x * x) v).sum := by
        rw [← List.sum_map_mul_left]
        congr 1
        apply List.map_congr_left
        intro y _
        simp only [Function.comp]
        field_simp
      rw [this, a1]
      have h0 : (List.map (fun x => x * x) v).sum ≠ 0 := by
        rw [← a1]; exact mul_ne_zero hm hm
      rw [one_div, inv_mul_cancel₀ h0]
  · intro h
    have h0 := (sq_zero_iff v).2 h
    have hm : sqrt (sq v) = 0 := by
      rw [h0, mul_self_eq_zero] at a1
      rw [h0]; exact a1
    unfold normalized
    rw [mag_eq, hm]
    simp [fdiv]

end length

/-- the hypotheses of C85 hold for real numbers; a vector that is not zero -/
example : IsSqrt Real.sqrt ∧ ([3, 4] : List ℝ).length = [0, 1].length ∧ ∃ x ∈ ([3, 4] : List ℝ), x ≠ 0 :=
  ⟨NS.Props.Simplex.isSqrt_real, rfl, 3, by simp, by norm_num⟩

/-- **C85 fails for complex element types**: `dot` does not conjugate, so `magSqr()` of the non-zero vector `(1, i)` is 0
(and `mag()` is the square root of 0). -/
theorem C85_complex_negation :
    magSqr ([⟨1, 0⟩, ⟨0, 1⟩] : List GaussianInt) = .ok 0 ∧ (⟨1, 0⟩ : GaussianInt) ≠ 0 ∧
    ∀ sqrt : GaussianInt → GaussianInt, mag sqrt ([⟨1, 0⟩, ⟨0, 1⟩] : List GaussianInt) = .ok (sqrt 0) := by
  have h : magSqr ([⟨1, 0⟩, ⟨0, 1⟩] : List GaussianInt) = .ok 0 := by decide +kernel
  refine ⟨h, by decide +kernel, fun sqrt => ?_⟩
  unfold mag
  rw [h]; rfl

/-! ## C86: classification tests -/
section tests
variable {T : Type}

theorem hasTest_ok {E : Type} (test : E → Bool) (v : List E) :
    ∃ b, hasTest test v = .ok b ∧ (b = true ↔ ∃ x ∈ v, test x = true) := by
  unfold hasTest
  obtain ⟨b, h1, h2⟩ := forRange_any 0 v.length (Nat.zero_le _) (fun i => ∃ x, v[i]? = some x ∧ test x = true)
    (fun i b => if b then return true else do let x ← getIdx v i; return test x)
    (by
      intro i _ hi
      simp only [Bool.false_eq_true, if_false]
      rw [getIdx_eq hi]
      simp [List.getElem?_eq_getElem hi])
    (by intro i _ _; rfl)
  refine ⟨b, h1, h2.trans ?_⟩
  constructor
  · rintro ⟨i, -, hi, x, hx, ht⟩
    exact ⟨x, List.mem_of_getElem? hx, ht⟩
  · rintro ⟨x, hx, ht⟩
    obtain ⟨i, hi, rfl⟩ := List.mem_iff_getElem.1 hx
    exact ⟨i, Nat.zero_le _, hi, v[i], List.getElem?_eq_getElem hi, ht⟩

/-- **C86**: `hasNaN()` and `hasInf()` of a vector of real numbers return `true` exactly if an entry is NaN, infinite. -/
theorem C86_vector (v : List (Fl T)) :
    (∃ b, hasNaN v = .ok b ∧ (b = true ↔ Fl.nan ∈ v)) ∧
    (∃ b, hasInf v = .ok b ∧ (b = true ↔ Fl.pinf ∈ v ∨ Fl.ninf ∈ v)) := by
  constructor
  · obtain ⟨b, h1, h2⟩ := hasTest_ok Fl.isNan v
    refine ⟨b, h1, h2.trans ⟨?_, fun h => ⟨_, h, rfl⟩⟩⟩
    rintro ⟨x, hx, ht⟩
    cases x <;> simp_all [Fl.isNan]
  · obtain ⟨b, h1, h2⟩ := hasTest_ok Fl.isInf v
    refine ⟨b, h1, h2.trans ⟨?_, ?_⟩⟩
    · rintro ⟨x, hx, ht⟩
      cases x <;> simp_all [Fl.isInf]
    · rintro (h | h)
      · exact ⟨_, h, rfl⟩
      · exact ⟨_, h, rfl⟩

/-- **C86**: the same for vectors of complex numbers: an entry counts if its real or its imaginary part is NaN, infinite. -/
theorem C86_vector_complex (v : List (Cx (Fl T))) :
    (∃ b, hasNaNC v = .ok b ∧ (b = true ↔ ∃ z ∈ v, z.re = Fl.nan ∨ z.im = Fl.nan)) ∧
    (∃ b, hasInfC v = .ok b ∧ (b = true ↔ ∃ z ∈ v, (z.re = Fl.pinf ∨ z.re = Fl.ninf) ∨ (z.im = Fl.pinf ∨ z.im = Fl.ninf))) := by
  have n : ∀ x : Fl T, x.isNan = true ↔ x = Fl.nan := by intro x; cases x <;> simp [Fl.isNan]
  have f : ∀ x : Fl T, x.isInf = true ↔ x = Fl.pinf ∨ x = Fl.ninf := by intro x; cases x <;> simp [Fl.isInf]
  constructor
  · obtain ⟨b, h1, h2⟩ := hasTest_ok Cx.isNan v
    refine ⟨b, h1, h2.trans ?_⟩
    simp only [Cx.isNan, Bool.or_eq_true, n]
  · obtain ⟨b, h1, h2⟩ := hasTest_ok Cx.isInf v
    refine ⟨b, h1, h2.trans ?_⟩
    simp only [Cx.isInf, Bool.or_eq_true, f]

variable [Field T] [LinearOrder T]

/-- the last value written to a position inside the matrix by a program -/
def Wrote (d1 d2 : Nat) (ops : List (NS.Props.Sparse.Op (Fl T))) (x : Fl T) : Prop :=
  ∃ i j, i < d1 ∧ j < d2 ∧ NS.Props.Sparse.lastWrite d2 ops i j = x

/-- **C86**: construct a sparse matrix, then any sequence of in-range writes: `has_nan()`, `has_inf()` are `true` exactly if
the last value written to some position is NaN, infinite. -/
theorem C86_sparse (d1 d2 : Nat) (h1 : 0 < d1) (h2 : 0 < d2) (ops : List (NS.Props.Sparse.Op (Fl T)))
    (hops : ∀ o ∈ ops, o.inRange d1 d2) :
    ∃ s, (Sparse.mk' d1 d2 >>= fun s => NS.Props.Sparse.runAll s ops) = .ok s ∧
      (s.hasNan = true ↔ Wrote d1 d2 ops Fl.nan) ∧
      (s.hasInf = true ↔ Wrote d1 d2 ops Fl.pinf ∨ Wrote d1 d2 ops Fl.ninf) := by
  obtain ⟨z, z1, z2, z3, z4, z5⟩ := Sparse.mk_inv (T := Fl T) h1 h2
  obtain ⟨s, b1, b2, b3, b4, b5⟩ := NS.Props.Sparse.runAll_ok ops z2 (by rw [z3, z4]; exact hops)
  obtain ⟨s', c1, c2⟩ := NS.Props.Sparse.C01_at_returns_last_set d1 d2 h1 h2 ops hops
  have hrun : (Sparse.mk' d1 d2 >>= fun s => NS.Props.Sparse.runAll s ops) = .ok s := by rw [z1]; exact b1
  rw [hrun] at c1
  obtain rfl := Except.ok.inj c1
  refine ⟨s, hrun, ?_⟩
  have key : ∀ x : Fl T, x ≠ 0 → (x ∈ s.values ↔ Wrote d1 d2 ops x) := by
    intro x hx
    obtain ⟨l, -, -, -, -, h5, h6, h7⟩ := b2.entries_ok
    rw [h7]
    simp only [List.mem_map]
    constructor
    · rintro ⟨e, he, rfl⟩
      have a := h6 e he
      rw [c2.1, c2.2.1] at a
      have b := (h5 e).1 he
      exact ⟨e.1, e.2.1, a.1, a.2, by rw [← c2.val a.1 a.2]; exact b.1.symm⟩
    · rintro ⟨i, j, hi, hj, rfl⟩
      exact ⟨(i, j, _), (h5 _).2 ⟨(c2.val hi hj).symm, hx⟩, rfl⟩
  rw [← key Fl.nan (by rintro ⟨⟩), ← key Fl.pinf (by rintro ⟨⟩), ← key Fl.ninf (by rintro ⟨⟩)]
  unfold Sparse.hasNan Sparse.hasInf
  rw [List.any_eq_true, List.any_eq_true]
  constructor
  · constructor
    · rintro ⟨x, hx, ht⟩; cases x <;> simp_all [Fl.isNan]
    · intro h; exact ⟨_, h, rfl⟩
  · constructor
    · rintro ⟨x, hx, ht⟩; cases x <;> simp_all [Fl.isInf]
    · rintro (h | h)
      · exact ⟨_, h, rfl⟩
      · exact ⟨_, h, rfl⟩

/-- **C86**: the same for a dense matrix. -/
theorem C86_dense (d1 d2 : Nat) (h1 : 0 < d1) (h2 : 0 < d2) (ops : List (NS.Props.Sparse.Op (Fl T)))
    (hops : ∀ o ∈ ops, o.inRange d1 d2) :
    ∃ d, (Dense.mk' d1 d2 >>= fun d => NS.Props.Dense.runAll d ops) = .ok d ∧
      (d.hasNan = true ↔ Wrote d1 d2 ops Fl.nan) ∧
      (d.hasInf = true ↔ Wrote d1 d2 ops Fl.pinf ∨ Wrote d1 d2 ops Fl.ninf) := by
  obtain ⟨z, z1, z2, z3, z4, z5⟩ := Dense.mk_ok (T := Fl T) h1 h2
  obtain ⟨s, b1, b2, b3, b4, b5⟩ := NS.Props.Dense.runAll_ok ops z2 (by rw [z3, z4]; exact hops)
  obtain ⟨s', c1, c2⟩ := NS.Props.Dense.C18_at_returns_last_set d1 d2 h1 h2 ops hops
  have hrun : (Dense.mk' d1 d2 >>= fun s => NS.Props.Dense.runAll s ops) = .ok s := by rw [z1]; exact b1
  rw [hrun] at c1
  obtain rfl := Except.ok.inj c1
  refine ⟨s, hrun, ?_⟩
  have key : ∀ x : Fl T, (x ∈ s.data ↔ Wrote d1 d2 ops x) := by
    intro x
    constructor
    · intro hx
      obtain ⟨k, hk, rfl⟩ := List.mem_iff_getElem.1 hx
      have hk' : k < s.size := by rw [b2.1] at hk; exact hk
      obtain ⟨e, hi, hj⟩ := Dense.data_entry b2 hk'
      rw [List.getElem?_eq_getElem hk] at e
      have e := Option.some.inj e
      have hi' : k / s.columns < d1 := by rw [← c2.1]; exact hi
      have hj' : k % s.columns < d2 := by rw [← c2.2.1]; exact hj
      refine ⟨k / s.columns, k % s.columns, hi', hj', ?_⟩
      rw [e, c2.val b2 hi' hj']
    · rintro ⟨i, j, hi, hj, rfl⟩
      have hk : i * s.columns + j < s.size := by
        unfold Dense.size; rw [c2.1, c2.2.1]; exact Dense.idx_lt hi hj
      obtain ⟨e, -, -⟩ := Dense.data_entry b2 hk
      have hj' : j < s.columns := by rw [c2.2.1]; exact hj
      have e1 : (i * s.columns + j) / s.columns = i := by
        rw [Nat.add_comm, Nat.add_mul_div_right _ _ b2.2.2, Nat.div_eq_of_lt hj', Nat.zero_add]
      have e2 : (i * s.columns + j) % s.columns = j := by
        rw [Nat.add_comm, Nat.add_mul_mod_self_right, Nat.mod_eq_of_lt hj']
      rw [e1, e2, c2.val b2 hi hj] at e
      exact List.mem_of_getElem? e
  rw [← key Fl.nan, ← key Fl.pinf, ← key Fl.ninf]
  unfold Dense.hasNan Dense.hasInf
  rw [List.any_eq_true, List.any_eq_true]
  constructor
  · constructor
    · rintro ⟨x, hx, ht⟩; cases x <;> simp_all [Fl.isNan]
    · intro h; exact ⟨_, h, rfl⟩
  · constructor
    · rintro ⟨x, hx, ht⟩; cases x <;> simp_all [Fl.isInf]
    · rintro (h | h)
      · exact ⟨_, h, rfl⟩
      · exact ⟨_, h, rfl⟩

end tests

/-- a NaN that is overwritten does not count, an infinity that stays does -/
example : (∀ o ∈ [NS.Props.Sparse.Op.set 0 1 (Fl.nan : Fl ℚ), .linearSet 5 Fl.ninf, .set 0 1 (Fl.fin 3)], o.inRange 2 3) ∧
    (Sparse.mk' 2 3 >>= fun s => NS.Props.Sparse.runAll s
      [NS.Props.Sparse.Op.set 0 1 (Fl.nan : Fl ℚ), .linearSet 5 Fl.ninf, .set 0 1 (Fl.fin 3)] >>= fun s =>
        Except.ok (s.hasNan, s.hasInf)) = .ok (false, true) := by
  constructor
  · simp [NS.Props.Sparse.Op.inRange]
  · decide +kernel

/-! ## C86: average, extrema, iteration -/
section avg
variable {T : Type}

theorem sum_ok [AddCommMonoid T] (v : List T) : Vec.sum v = .ok v.sum := by
  unfold Vec.sum
  rw [forRange_sum' v.length _ (fun i => v.getD i 0)]
  · congr 1
    induction v with
    | nil => simp
    | cons x v ih => rw [List.length_cons, Finset.sum_range_succ', List.sum_cons, ← ih]; simp [add_comm]
  · intro i s hi
    rw [getIdx_eq hi]
    simp only [ok_bind, List.getD_eq_getElem _ _ hi]; rfl

variable [Field T] [LinearOrder T] [IsStrictOrderedRing T]

/-- **C86** (`avg`): the average of a non-empty vector is the number `a` with `a * size = sum of the entries`, it lies
between the smallest and the largest entry; the average of an empty vector is not finite. -/
theorem C86_avg (v : List T) :
    (v ≠ [] → ∃ a, Vec.avg v = .ok a ∧ a * v.length = v.sum ∧ ∀ lo hi, (∀ x ∈ v, lo ≤ x ∧ x ≤ hi) → lo ≤ a ∧ a ≤ hi) ∧
    (v = [] → Vec.avg v = .error .nonfinite) := by
  constructor
  · intro h
    have hl : (0 : T) < (v.length : T) := by exact_mod_cast List.length_pos_iff.2 h
    refine ⟨v.sum / v.length, ?_, by field_simp, ?_⟩
    · unfold Vec.avg
      rw [sum_ok]
      simp only [ok_bind, fdiv, if_neg hl.ne']
    · intro lo hi hb
      rw [le_div_iff₀ hl, div_le_iff₀ hl]
      have l1 := List.card_nsmul_le_sum v lo fun x hx => (hb x hx).1
      have l2 := List.sum_le_card_nsmul v hi fun x hx => (hb x hx).2
      rw [nsmul_eq_mul] at l1 l2
      constructor <;> linarith
  · rintro rfl
    unfold Vec.avg
    rw [sum_ok]
    simp [fdiv]

/-- **C86** (`avg` of matrices): for every matrix built through the API it is the mean of all `rows * columns` entries, also
for a sparse matrix, which stores only some of them. -/
theorem C86_matrix_avg :
    (∀ {s : Sparse T}, Sparse.Reach s → ∀ {r c : Nat} {A : Nat → Nat → T}, NS.Props.Sparse.Shows s r c A →
      ∃ a, s.avg = .ok a ∧ a * ((r * c : Nat) : T) = ∑ i ∈ Finset.range r, ∑ j ∈ Finset.range c, A i j) ∧
    (∀ {d : Dense T}, NS.Props.Dense.Reach d → ∀ {r c : Nat} {A : Nat → Nat → T}, NS.Props.Dense.Shows d r c A →
      ∃ a, d.avg = .ok a ∧ a * ((r * c : Nat) : T) = ∑ i ∈ Finset.range r, ∑ j ∈ Finset.range c, A i j) := by
  constructor
  · intro s hs r c A hA
    obtain ⟨rs, e1, e2, e3, e4⟩ := hs.inv
    have hpos : 0 < r * c := by
      have h1 : s.rows = rs.length := by rw [e1]; simp
      have h2 : 0 < s.columns := e4
      rw [← hA.1, ← hA.2.1, h1]; exact Nat.mul_pos e3 h2
    have hl : (0 : T) < ((r * c : Nat) : T) := by exact_mod_cast hpos
    refine ⟨s.sum / ((r * c : Nat) : T), ?_, ?_⟩
    · unfold Sparse.avg Sparse.size
      rw [hA.1, hA.2.1, fdiv, if_neg hl.ne']
    · rw [div_mul_cancel₀ _ hl.ne', (NS.Props.Sparse.C14_sum_trace hs hA).1]
  · intro d hd r c A hA
    have hw := hd.wf
    have hpos : 0 < r * c := by rw [← hA.1, ← hA.2.1]; exact Nat.mul_pos hw.2.1 hw.2.2
    have hl : (0 : T) < ((r * c : Nat) : T) := by exact_mod_cast hpos
    refine ⟨d.sum / ((r * c : Nat) : T), ?_, ?_⟩
    · unfold Dense.avg Dense.size
      rw [hA.1, hA.2.1, fdiv, if_neg hl.ne']
    · rw [div_mul_cancel₀ _ hl.ne', (NS.Props.Dense.C22_observers hd hA).2.2.1]
end avg

example : Vec.avg ([1, 2, 6] : List ℚ) = .ok 3 := by decide +kernel

/-- a sparse matrix with two stored entries, built by the initializer list, and its average over six entries -/
example : ∃ s : Sparse ℚ, Sparse.Reach s ∧ s.values = [1, 5] ∧ s.avg = .ok 1 := by
  refine ⟨_, Sparse.Reach.lists (l := [[1, 0, 0], [0, 5, 0]]) (s := ⟨[1, 5], [0, 1], [0, 1], 3, 0⟩) ?_, ?_⟩ <;>
    decide +kernel

section extrema
variable {T : Type} [LinearOrder T]

theorem foldl_max (l : List T) (a : T) :
    a ≤ Vec.maxE a l ∧ (∀ x ∈ l, x ≤ Vec.maxE a l) ∧ (Vec.maxE a l = a ∨ Vec.maxE a l ∈ l) := by
  unfold Vec.maxE
  induction l generalizing a with
  | nil => simp
  | cons x l ih =>
    simp only [List.foldl_cons]
    obtain ⟨h1, h2, h3⟩ := ih (if a < x then x else a)
    by_cases hax : a < x
    · rw [if_pos hax] at h1 h2 h3 ⊢
      refine ⟨hax.le.trans h1, ?_, Or.inr ?_⟩
      · intro y hy
        rcases List.mem_cons.1 hy with rfl | hy
        · exact h1
        · exact h2 y hy
      · rcases h3 with h3 | h3
        · rw [h3]; simp
        · simp [h3]
    · rw [if_neg hax] at h1 h2 h3 ⊢
      refine ⟨h1, ?_, ?_⟩
      · intro y hy
        rcases List.mem_cons.1 hy with rfl | hy
        · exact (not_lt.1 hax).trans h1
        · exact h2 y hy
      · rcases h3 with h3 | h3
        · exact Or.inl h3
        · right; simp [h3]

theorem foldl_min (l : List T) (a : T) :
    Vec.minE a l ≤ a ∧ (∀ x ∈ l, Vec.minE a l ≤ x) ∧ (Vec.minE a l = a ∨ Vec.minE a l ∈ l) :=
  foldl_max (T := Tᵒᵈ) l a

/-- **C86** (`max`, `min`): on a non-empty vector `min()` is the smallest entry if no entry exceeds
`numeric_limits<T>::max()`; `max()` is the largest entry if the start value `numeric_limits<T>::min()` is at most some
entry. -/
theorem C86_extrema_partial (v : List T) (hv : v ≠ []) (lo hi : T) (hlo : ∃ x ∈ v, lo ≤ x) (hhi : ∀ x ∈ v, x ≤ hi) :
    (Vec.maxE lo v ∈ v ∧ ∀ x ∈ v, x ≤ Vec.maxE lo v) ∧ (Vec.minE hi v ∈ v ∧ ∀ x ∈ v, Vec.minE hi v ≤ x) := by
  obtain ⟨a1, a2, a3⟩ := foldl_max v lo
  obtain ⟨b1, b2, b3⟩ := foldl_min v hi
  refine ⟨⟨?_, a2⟩, ?_, b2⟩
  · rcases a3 with a3 | a3
    · obtain ⟨x, hx, hl⟩ := hlo
      have e : Vec.maxE lo v = x := le_antisymm (by rw [a3]; exact hl) (a2 x hx)
      rw [e]; exact hx
    · exact a3
  · rcases b3 with b3 | b3
    · obtain ⟨x, hx⟩ := List.exists_mem_of_ne_nil v hv
      have e : Vec.minE hi v = x := le_antisymm (b2 x hx) (by rw [b3]; exact hhi x hx)
      rw [e]; exact hx
    · exact b3

/-- **C86 fails** for `max`: whenever all entries are below the start value (for floating types it is positive), `max()`
returns the start value, which is no entry. -/
theorem C86_max_wrong (v : List T) (lo : T) (h : ∀ x ∈ v, x < lo) : Vec.maxE lo v = lo ∧ lo ∉ v := by
  obtain ⟨a1, a2, a3⟩ := foldl_max v lo
  refine ⟨?_, fun hm => lt_irrefl _ (h lo hm)⟩
  rcases a3 with a3 | a3
  · exact a3
  · exact absurd a1 (not_le.2 (h _ a3))

theorem maxC_eq {E : Type} (cabs : E → T) (a : T) (v : List E) : Vec.maxC cabs a v = Vec.maxE a (v.map cabs) := by
  unfold Vec.maxC Vec.maxE; rw [List.foldl_map]
theorem minC_eq {E : Type} (cabs : E → T) (a : T) (v : List E) : Vec.minC cabs a v = Vec.minE a (v.map cabs) := by
  unfold Vec.minC Vec.minE; rw [List.foldl_map]

/-- **C86** (`max`, `min` of complex vectors): the largest and the smallest absolute value of an entry, under the same provisos. -/
theorem C86_complex_extrema_partial {E : Type} (cabs : E → T) (v : List E) (hv : v ≠ []) (lo hi : T) (hlo : ∃ x ∈ v, lo ≤ cabs x)
    (hhi : ∀ x ∈ v, cabs x ≤ hi) :
    ((∃ x ∈ v, Vec.maxC cabs lo v = cabs x) ∧ ∀ x ∈ v, cabs x ≤ Vec.maxC cabs lo v) ∧
    ((∃ x ∈ v, Vec.minC cabs hi v = cabs x) ∧ ∀ x ∈ v, Vec.minC cabs hi v ≤ cabs x) := by
  obtain ⟨⟨h1, h2⟩, h3, h4⟩ := C86_extrema_partial (v.map cabs) (by simpa using hv) lo hi (by simpa using hlo) (by simpa using hhi)
  rw [← maxC_eq] at h1 h2
  rw [← minC_eq] at h3 h4
  simp only [List.mem_map, forall_exists_index, and_imp, forall_apply_eq_imp_iff₂] at h1 h2 h3 h4
  obtain ⟨x, hx, ex⟩ := h1
  obtain ⟨y, hy, ey⟩ := h3
  exact ⟨⟨⟨x, hx, ex.symm⟩, h2⟩, ⟨y, hy, ey.symm⟩, h4⟩

/-- **C86 fails** for `max` of a complex vector exactly when all absolute values are below the (positive) start value, in particular
for a vector of zeros. -/
theorem C86_complex_max_wrong {E : Type} (cabs : E → T) (v : List E) (lo : T) :
    (∀ x ∈ v, cabs x < lo) ↔ Vec.maxC cabs lo v = lo ∧ ∀ x ∈ v, cabs x ≠ lo := by
  constructor
  · intro h
    obtain ⟨h1, h2⟩ := C86_max_wrong (v.map cabs) lo (by simpa using h)
    rw [← maxC_eq] at h1
    exact ⟨h1, fun x hx e => h2 (List.mem_map.2 ⟨x, hx, e⟩)⟩
  · rintro ⟨h1, h2⟩ x hx
    have := (foldl_max (v.map cabs) lo).2.1 (cabs x) (List.mem_map.2 ⟨x, hx, rfl⟩)
    rw [← maxC_eq, h1] at this
    exact lt_of_le_of_ne this (h2 x hx)
end extrema

/-- `|3+4i|² = 25`; a zero vector gives the start value -/
example : Vec.maxC (fun z : ℚ × ℚ => z.1 * z.1 + z.2 * z.2) (1 / 1000) [(1, 1), (3, 4)] = 25 ∧
    Vec.minC (fun z : ℚ × ℚ => z.1 * z.1 + z.2 * z.2) 1000 [(1, 1), (3, 4)] = 2 ∧
    Vec.maxC (fun z : ℚ × ℚ => z.1 * z.1 + z.2 * z.2) (1 / 1000) [(0, 0)] = 1 / 1000 := by decide +kernel

example : Vec.maxE (1 : ℚ) [-3, -2] = 1 ∧ Vec.maxE (1 : ℚ) [5, -2] = 5 := by decide +kernel

section iteration
variable {E : Type}

theorem walk_ok (v : List E) : ∀ fuel p, p ≤ v.length → v.length - p < fuel → walk v fuel p = .ok (v.drop p) := by
  intro fuel
  induction fuel with
  | zero => intro p _ h; omega
  | succ fuel ih =>
    intro p hp hf
    unfold walk
    rcases Nat.lt_or_ge p v.length with h | h
    · have e : itEq v p v.length = false := by
        have : p ≠ v.length := by omega
        simp [itEq, itValid, h, this]
      rw [e]
      simp only [Bool.false_eq_true, if_false]
      unfold itDeref
      rw [assert_true h]
      simp only [ok_bind]
      rw [vecAt_ok h]
      simp only [ok_bind]
      rw [ih (p + 1) (by omega) (by omega)]
      rw [List.drop_eq_getElem_cons h]; rfl
    · have : p = v.length := by omega
      subst this
      have e : itEq v v.length v.length = true := by simp [itEq, itValid]
      rw [e]
      simp

/-- **C86** (iteration): a `begin()`/`end()` loop visits every entry once, in order, and ends after `size()` steps. -/
theorem C86_iteration (v : List E) : ∀ fuel, v.length < fuel → walk v fuel 0 = .ok v := by
  intro fuel h
  rw [walk_ok v fuel 0 (Nat.zero_le _) (by omega)]; rfl

/-- **C86** (iterators): an iterator is valid exactly at a position of an entry, dereferencing it gives that entry and aborts at other positions;
iterators at entries are equal only if they are at the same entry, and all others are equal to `end()` and to each other. -/
theorem C86_iterator (v : List E) (p q : Nat) :
    (itValid v p = true ↔ p < v.length) ∧ (∀ h : p < v.length, itDeref v p = .ok v[p]) ∧ (v.length ≤ p → itDeref v p = .error .abort) ∧
    (itEq v p q = true ↔ p = q ∨ (v.length ≤ p ∧ v.length ≤ q)) := by
  refine ⟨by simp [itValid], fun h => ?_, fun h => ?_, ?_⟩
  · unfold itDeref
    rw [assert_true h, ok_bind, vecAt_ok h]
  · unfold itDeref
    rw [assert_false (by omega)]; rfl
  · unfold itEq itValid
    simp only [Bool.or_eq_true, Bool.and_eq_true, Bool.not_eq_true', decide_eq_false_iff_not, decide_eq_true_eq, Nat.not_lt]
    exact or_comm
end iteration

/-! ## C86: `left`, `right`, `mid` -/
section slices
variable {E : Type} [Zero E]

theorem copyRange_ok (K : Nat) (v : List E) (a b : Nat) (hab : a ≤ b) (hb : b ≤ v.length) (hK : b - a ≤ K) :
    copyRange K v a b = .ok ((v.take b).drop a ++ List.replicate (K - (b - a)) 0) := by
  unfold copyRange
  have := sat_forRange (E := noErr) (f := fun i tmp => do
      let x ← vecAt v i
      vecSet tmp (i - a) x)
    (fun k (w : List E) => w = (v.take k).drop a ++ List.replicate (K - (k - a)) 0) hab (s := List.replicate K 0)
    (by simp [Nat.sub_self, List.drop_eq_nil_of_le]) (by
      rintro k w hk1 hk2 rfl
      have hk : k < v.length := by omega
      simp only [vecAt_ok hk, ok_bind]
      have hl : ((v.take k).drop a).length = k - a := by simp; omega
      rw [vecSet_ok (by rw [List.length_append, hl, List.length_replicate]; omega)]
      simp only [Sat_ok]
      rw [List.set_append_right _ _ (by rw [hl]), hl, Nat.sub_self]
      have e1 : K - (k - a) = (K - (k + 1 - a)) + 1 := by omega
      rw [e1, List.replicate_succ, List.set_cons_zero, ← List.take_append_getElem hk, List.drop_append_of_le_length (by simp; omega),
        List.append_assoc]
      rfl)
  obtain ⟨w, h1, h2⟩ := this.ok_of
  rw [h1, h2]

theorem copyRange_zero (v : List E) (a b : Nat) (hab : a < b) (hb : b ≤ v.length) : copyRange 0 v a b = .error .abort := by
  unfold copyRange
  rw [forRange_step hab]
  simp [vecAt_ok (show a < v.length by omega), vecSet_abort]

/-- **C86** (slices, `FixedVector<T,K>`): `left(i)` is the first `i+1` entries, `right(i)` the entries from `i`, `mid(a,b)` the
entries from `a` to before `b` (or the end), followed by zeros up to the fixed size `K`. -/
theorem C86_slices_partial (v : List E) (i a b : Nat) (hi : i < v.length) (hab : a < b) (ha : a ≤ v.length) :
    left v.length v i = .ok (v.take (i + 1) ++ List.replicate (v.length - (i + 1)) 0) ∧
    right v.length v i = .ok (v.drop i ++ List.replicate i 0) ∧
    mid v.length v a b = .ok ((v.take b).drop a ++ List.replicate (v.length - (min b v.length - a)) 0) := by
  refine ⟨?_, ?_, ?_⟩
  · unfold left
    rw [assert_true hi]
    simp only [ok_bind]
    rw [copyRange_ok _ _ _ _ (by omega) (by omega) (by omega)]; simp
  · unfold right
    rw [assert_true hi]
    simp only [ok_bind]
    rw [copyRange_ok _ _ _ _ (by omega) le_rfl (by omega), List.take_length]
    congr 3; omega
  · unfold mid
    rw [assert_true hab]
    simp only [ok_bind]
    rw [copyRange_ok _ _ _ _ (by omega) (by omega) (by omega)]
    congr 3
    rcases Nat.le_total b v.length with h | h
    · rw [Nat.min_eq_left h]
    · rw [Nat.min_eq_right h, List.take_length, List.take_of_length_le h]

/-- **C86 fails** for `DynamicVector`: the result vector is never given a size, so `left`, `right` and every `mid` with at
least one entry abort on the first write. -/
theorem C86_slices_negation (v : List E) (i a b : Nat) :
    left 0 v i = .error .abort ∧ right 0 v i = .error .abort ∧ (a < v.length → mid 0 v a b = .error .abort) := by
  refine ⟨?_, ?_, ?_⟩
  · unfold left
    by_cases h : i < v.length
    · rw [assert_true h]
      exact copyRange_zero v 0 (i + 1) (by omega) (by omega)
    · rw [assert_false h]; rfl
  · unfold right
    by_cases h : i < v.length
    · rw [assert_true h]
      exact copyRange_zero v i v.length h le_rfl
    · rw [assert_false h]; rfl
  · intro ha
    unfold mid
    by_cases h : a < b
    · rw [assert_true h]
      exact copyRange_zero v a _ (by omega) (by omega)
    · rw [assert_false h]; rfl
end slices

example : mid 4 ([1, 2, 3, 4] : List Int) 1 3 = .ok [2, 3, 0, 0] ∧ mid 0 ([1, 2, 3, 4] : List Int) 1 3 = .error .abort := by
  decide +kernel

end NS.Props.VecMore

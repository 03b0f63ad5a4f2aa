/-
Property theorems C74-C78: rounding errors of the vector, matrix and LU routines in floating-point arithmetic.

The same model functions as in the exact theorems (C01-C34) run here over a number type `F` whose operations round: `Std fl u`
(`Verif/Rounding.lean`) says that `fl a` is the real number meant by `a` and every `+ - * /` of `F` returns the exact result up to a
relative error of at most `u` (and the exact result whenever that is a number of `F`).  `Bin.std` shows that binary floating-point
numbers of every precision with round-to-nearest are an instance (`double`: `u = 2^-53`, as long as nothing overflows or underflows);
`std_exact` shows that exact arithmetic is the case `u = 0`.

`gam u n = 1/(1-u)^n - 1` is the accumulated error of `n` roundings; `C74_constant` bounds it by the usual `n u / (1 - n u)`.
-/
import Verif.RoundLU
import Verif.Props.LU
import Mathlib.Data.Matrix.Mul

set_option linter.unusedSectionVars false
set_option linter.unusedSimpArgs false

namespace NS.Props.Rounding
open NS NS.MatOps NS.LU NS.Rounding Matrix

variable {F K : Type} [Zero F] [One F] [Add F] [Sub F] [Mul F] [Div F] [Field K] [LinearOrder K] [IsStrictOrderedRing K]
variable {fl : F → K} {u : K}

/-! ## Specification -/

/-- The vector object `v` has `n` entries and `v(i)` returns a number that stands for `x i`. -/
def VecFl (fl : F → K) (v : List F) (n : Nat) (x : Fin n → K) : Prop :=
  v.length = n ∧ ∀ i : Fin n, ∃ a, vecAt v i = .ok a ∧ fl a = x i

/-- The matrix object `m` is well formed, has `r x c` entries and `at(i,j)` returns a number that stands for `A i j`. -/
def MatFl {M : Type} [MatOps M F] [LawfulStore M F] (fl : F → K) (m : M) {r c : Nat} (A : Matrix (Fin r) (Fin c) K) : Prop :=
  LawfulStore.Valid m ∧ rows m = r ∧ cols m = c ∧ ∀ (i : Fin r) (j : Fin c), ∃ a, get m i j = .ok a ∧ fl a = A i j

/-- lower triangle with the diagonal, upper triangle with the diagonal -/
def tril {n : Nat} (A : Matrix (Fin n) (Fin n) K) : Matrix (Fin n) (Fin n) K := fun i j => if j ≤ i then A i j else 0
def triu {n : Nat} (A : Matrix (Fin n) (Fin n) K) : Matrix (Fin n) (Fin n) K := fun i j => if i ≤ j then A i j else 0

/-- entrywise absolute value -/
def mabs {r c : Nat} (A : Matrix (Fin r) (Fin c) K) : Matrix (Fin r) (Fin c) K := fun i j => |A i j|

/-! ## Bridges -/

theorem VecFl.getD {v : List F} {n : Nat} {x : Fin n → K} (h : VecFl fl v n x) (i : Fin n) : fl (v.getD i 0) = x i := by
  obtain ⟨a, a1, a2⟩ := h.2 i
  rw [vecAt_get (by rw [h.1]; exact i.2)] at a1
  rw [Except.ok.inj a1, a2]

theorem vecFl_of {v : List F} {n : Nat} (hl : v.length = n) : VecFl fl v n (fun i => fl (v.getD i 0)) :=
  ⟨hl, fun i => ⟨_, vecAt_get (by rw [hl]; exact i.2), rfl⟩⟩

section
variable {M : Type} [MatOps M F] [LawfulStore M F]
theorem MatFl.val {m : M} {r c : Nat} {A : Matrix (Fin r) (Fin c) K} (h : MatFl fl m A) (i : Fin r) (j : Fin c) :
    fl (LawfulStore.val m i j) = A i j := by
  obtain ⟨a, a1, a2⟩ := h.2.2.2 i j
  rw [LawfulStore.get_ok h.1 (by rw [h.2.1]; exact i.2) (by rw [h.2.2.1]; exact j.2)] at a1
  rw [Except.ok.inj a1, a2]
theorem MatFl.sq {m : M} {n : Nat} {A : Matrix (Fin n) (Fin n) K} (h : MatFl fl m A) : Sq n m := ⟨h.1, h.2.1, h.2.2.1⟩
theorem matFl_of {m : M} {r c : Nat} (hv : LawfulStore.Valid m) (hr : rows m = r) (hc : cols m = c) :
    MatFl fl m (fun (i : Fin r) (j : Fin c) => fl (LawfulStore.val m i j)) :=
  ⟨hv, hr, hc, fun i j => ⟨_, LawfulStore.get_ok hv (by rw [hr]; exact i.2) (by rw [hc]; exact j.2), rfl⟩⟩
theorem MatFl.zero (hs : Std fl u) {m : M} {n : Nat} (h : MatFl fl m (0 : Matrix (Fin n) (Fin n) K)) (i j : Nat) :
    LawfulStore.val m i j = 0 := by
  by_cases hij : i < n ∧ j < n
  · exact hs.eq_zero.1 (h.val ⟨i, hij.1⟩ ⟨j, hij.2⟩)
  · exact h.sq.zero hij
end

theorem abs_mul_sub {x t g : K} (h : |t - 1| ≤ g) : |x * t - x| ≤ g * |x| := by
  have : x * t - x = x * (t - 1) := by ring
  rw [this, abs_mul, mul_comm]
  exact mul_le_mul_of_nonneg_right h (abs_nonneg _)

theorem pert_mulVec {r c : Nat} (A G : Matrix (Fin r) (Fin c) K) (x : Fin c → K) (i : Fin r) :
    ((A + G) *ᵥ x) i = ∑ j, (A i j + G i j) * x j := by simp [Matrix.mulVec, dotProduct]

/-! ## C74: dot product and sum -/

/-- C74: the error constant: `gam u n <= n u / (1 - n u)`. -/
theorem C74_constant (h : Std fl u) {n : Nat} (hn : (n : K) * u < 1) : 0 ≤ gam u n ∧ gam u n ≤ n * u / (1 - n * u) :=
  ⟨gam_nonneg h.u_nonneg h.u_lt, gam_le h.u_nonneg hn⟩

/-- C74: `dot` returns the exact dot product of a vector that differs from `x` by at most `gam u n` in every entry, relatively. -/
theorem C74_dot (h : Std fl u) {n : Nat} {v w : List F} {x y : Fin n → K} (hv : VecFl fl v n x) (hw : VecFl fl w n y) :
    ∃ (d : F) (Δ : Fin n → K), Vec.dot v w = .ok d ∧ (∀ i, |Δ i| ≤ gam u n * |x i|) ∧ fl d = (x + Δ) ⬝ᵥ y := by
  obtain ⟨d, t, d1, d2, d3⟩ := dot_round h (hv.1.trans hw.1.symm)
  rw [hv.1] at d2 d3
  refine ⟨d, fun i => x i * t i - x i, d1, fun i => abs_mul_sub ((d2 i).abs_sub h.u_lt), ?_⟩
  rw [d3, Finset.sum_range]
  refine Finset.sum_congr rfl fun i _ => ?_
  rw [hv.getD, hw.getD, Pi.add_apply]; ring

/-- C74: forward error of `dot`. -/
theorem C74_dot_error (h : Std fl u) {n : Nat} {v w : List F} {x y : Fin n → K} (hv : VecFl fl v n x) (hw : VecFl fl w n y) :
    ∃ d : F, Vec.dot v w = .ok d ∧ |fl d - x ⬝ᵥ y| ≤ gam u n * ∑ i, |x i| * |y i| := by
  obtain ⟨d, Δ, d1, d2, d3⟩ := C74_dot h hv hw
  refine ⟨d, d1, ?_⟩
  rw [d3, add_dotProduct, add_sub_cancel_left, dotProduct, Finset.mul_sum]
  refine (Finset.abs_sum_le_sum_abs _ _).trans (Finset.sum_le_sum fun i _ => ?_)
  rw [abs_mul, ← mul_assoc]
  exact mul_le_mul_of_nonneg_right (d2 i) (abs_nonneg _)

/-- C74: the dot product of a vector with itself (`magSqr`, the quantity the CG iterations test) is even relatively accurate, and it
is zero only for the zero vector. -/
theorem C74_self (h : Std fl u) {n : Nat} {v : List F} {x : Fin n → K} (hv : VecFl fl v n x) :
    ∃ d : F, Vec.dot v v = .ok d ∧ |fl d - x ⬝ᵥ x| ≤ gam u n * (x ⬝ᵥ x) ∧ (fl d = 0 ↔ x = 0) ∧ 0 ≤ fl d := by
  obtain ⟨d, t, d1, d2, d3⟩ := dot_round h (rfl : v.length = v.length)
  rw [hv.1] at d2 d3
  have d4 : fl d = ∑ i : Fin n, x i * x i * t i := by
    rw [d3, Finset.sum_range]
    exact Finset.sum_congr rfl fun i _ => by rw [hv.getD]
  have hpos : ∀ i : Fin n, 0 ≤ x i * x i * t i := fun i => mul_nonneg (mul_self_nonneg _) ((d2 i).pos h.u_lt).le
  refine ⟨d, d1, ?_, ⟨fun h0 => ?_, fun h0 => ?_⟩, ?_⟩
  · rw [d4, dotProduct, ← Finset.sum_sub_distrib, Finset.mul_sum]
    refine (Finset.abs_sum_le_sum_abs _ _).trans (Finset.sum_le_sum fun i _ => ?_)
    refine (abs_mul_sub ((d2 i).abs_sub h.u_lt)).trans_eq ?_
    rw [abs_mul_self]
  · rw [d4, Finset.sum_eq_zero_iff_of_nonneg (fun i _ => hpos i)] at h0
    funext i
    have := h0 i (Finset.mem_univ _)
    have ht := ((d2 i).pos h.u_lt).ne'
    simpa [ht] using this
  · rw [d4]; simp [h0]
  · rw [d4]; exact Finset.sum_nonneg fun i _ => hpos i

/-- C74: `sum`. -/
theorem C74_sum (h : Std fl u) {n : Nat} {v : List F} {x : Fin n → K} (hv : VecFl fl v n x) :
    ∃ d : F, Vec.sum v = .ok d ∧ |fl d - ∑ i, x i| ≤ gam u (n - 1) * ∑ i, |x i| := by
  obtain ⟨d, t, d1, d2, d3⟩ := sum_round h v
  rw [hv.1] at d2 d3
  refine ⟨d, d1, ?_⟩
  have d4 : fl d = ∑ i : Fin n, x i * t i := by
    rw [d3, Finset.sum_range]
    exact Finset.sum_congr rfl fun i _ => by rw [hv.getD]
  rw [d4, ← Finset.sum_sub_distrib, Finset.mul_sum]
  exact (Finset.abs_sum_le_sum_abs _ _).trans (Finset.sum_le_sum fun i _ => abs_mul_sub ((d2 i).abs_sub h.u_lt))

/-- three significant bits: `3*5 + 5*3` gives 32 instead of 30 -/
example : Vec.dot [(Bin.rnd 3 : Bin 2), Bin.rnd 5] [Bin.rnd 5, Bin.rnd 3] = .ok (Bin.rnd 32) := by decide +kernel
/-- double precision: the theorem applies to every pair of vectors of the same length -/
example (v w : List (Bin 52)) (h : v.length = w.length) :
    ∃ d, Vec.dot v w = .ok d ∧ |d.toRat - ∑ i : Fin v.length, (v.getD i 0).toRat * (w.getD i 0).toRat|
      ≤ gam ((1 / 2) ^ 53) v.length * ∑ i : Fin v.length, |(v.getD i 0).toRat| * |(w.getD i 0).toRat| :=
  C74_dot_error (Bin.std 52) (vecFl_of rfl) (vecFl_of h.symm)
/-- a million terms lose less than `1.2e-10` -/
example : gam ((1 / 2) ^ 53 : ℚ) 1000000 ≤ 12 / 10 ^ 11 :=
  (C74_constant (Bin.std 52) (by norm_num)).2.trans (by norm_num)

/-! ## C75: matrix-vector products -/
section
variable [Neg F] [DecidableEq F]

/-- C75: `SparseMatrix::mul(Vector)` returns `(A + ΔA) x` with an entrywise small `ΔA`; the constant counts only the non-zero entries
of the row. -/
theorem C75_mulVec_sparse (h : Std fl u) {r c : Nat} {m : Sparse F} {A : Matrix (Fin r) (Fin c) K} (hm : MatFl fl m A)
    {v : List F} {x : Fin c → K} (hv : VecFl fl v c x) :
    ∃ (w : List F) (y : Fin r → K) (ΔA : Matrix (Fin r) (Fin c) K), m.mulVec v = .ok w ∧ VecFl fl w r y ∧ y = (A + ΔA) *ᵥ x ∧
      ∀ i j, |ΔA i j| ≤ gam u (Finset.univ.filter (fun j => A i j ≠ 0)).card * |A i j| := by
  have hr : m.rows = r := hm.2.1
  have hc : m.columns = c := hm.2.2.1
  obtain ⟨w, w1, w2, w3⟩ := sparse_mulVec_round h (s := m) hm.1 v (by rw [hc, hv.1])
  rw [hr] at w2 w3
  rw [hc] at w3
  choose t t1 t2 using fun i : Fin r => w3 i i.2
  refine ⟨w, _, Matrix.of fun i j => A i j * t i j - A i j, w1, vecFl_of w2, ?_, fun i j => ?_⟩
  · funext i
    show fl (w.getD i 0) = _
    rw [t2, Finset.sum_range, pert_mulVec]
    refine Finset.sum_congr rfl fun j _ => ?_
    have hmv : fl (m.val i j) = A i j := hm.val i j
    rw [hmv, hv.getD, Matrix.of_apply]; ring
  · have hcard : rowCount m.val i c = (Finset.univ.filter (fun j => A i j ≠ 0)).card := by
      unfold rowCount
      rw [← Finset.card_map Fin.valEmbedding]
      congr 1
      ext j
      simp only [Finset.mem_filter, Finset.mem_range, Finset.mem_map, Finset.mem_univ, true_and, Fin.valEmbedding_apply]
      constructor
      · rintro ⟨hj, hne⟩
        refine ⟨⟨j, hj⟩, ?_, rfl⟩
        rw [← hm.val]
        exact fun h0 => hne (h.eq_zero.1 h0)
      · rintro ⟨j', hne, rfl⟩
        refine ⟨j'.2, fun h0 => hne ?_⟩
        rw [← hm.val]
        exact h.eq_zero.2 h0
    rw [← hcard]
    exact abs_mul_sub ((t1 i j).abs_sub h.u_lt)

/-- C75: `DenseMatrix`/`FixedMatrix` times vector. -/
theorem C75_mulVec_dense (h : Std fl u) {r c : Nat} {m : Dense F} {A : Matrix (Fin r) (Fin c) K} (hm : MatFl fl m A)
    {v : List F} {x : Fin c → K} (hv : VecFl fl v c x) :
    ∃ (w : List F) (y : Fin r → K) (ΔA : Matrix (Fin r) (Fin c) K), m.mulVec v = .ok w ∧ VecFl fl w r y ∧ y = (A + ΔA) *ᵥ x ∧
      ∀ i j, |ΔA i j| ≤ gam u c * |A i j| := by
  have hr : m.rows = r := hm.2.1
  have hc : m.columns = c := hm.2.2.1
  obtain ⟨w, w1, w2, w3⟩ := dense_mulVec_round h (a := m) hm.1 v (by rw [hc, hv.1])
  rw [hr] at w2 w3
  rw [hc] at w3
  choose t t1 t2 using fun i : Fin r => w3 i i.2
  refine ⟨w, _, Matrix.of fun i j => A i j * t i j - A i j, w1, vecFl_of w2, ?_, fun i j => abs_mul_sub ((t1 i j).abs_sub h.u_lt)⟩
  funext i
  show fl (w.getD i 0) = _
  rw [t2, Finset.sum_range, pert_mulVec]
  refine Finset.sum_congr rfl fun j _ => ?_
  have hmv : fl (m.val i j) = A i j := hm.val i j
  rw [hmv, hv.getD, Matrix.of_apply]; ring
end

example : (⟨[Bin.rnd 3, Bin.rnd 5, Bin.rnd 1, Bin.rnd 7], 2, 2⟩ : Dense (Bin 2)).mulVec [Bin.rnd 5, Bin.rnd 3]
    = .ok [Bin.rnd 32, Bin.rnd 24] := by decide +kernel
example : MatFl Bin.toRat (⟨[Bin.rnd 3, Bin.rnd 5, Bin.rnd 1, Bin.rnd 7], 2, 2⟩ : Dense (Bin 2))
    (!![3, 5; 1, 7] : Matrix (Fin 2) (Fin 2) ℚ) := by
  refine ⟨⟨rfl, by decide, by decide⟩, rfl, rfl, ?_⟩
  intro i j
  fin_cases i <;> fin_cases j <;> exact ⟨_, rfl, by decide +kernel⟩

/-! ## C76: triangular solves -/
section
variable {M : Type} [MatOps M F] [LawfulStore M F]

/-- C76: `solve_lu` is backward stable: it throws `SingularException` exactly if a diagonal entry of `L` or `U` is not larger than the
threshold, and otherwise the returned vector solves exactly a system with triangular factors that differ entrywise by at most
`gam u n` from the triangles of `L` and `U` (and are themselves triangular). -/
theorem C76_solve (h : Std fl u) {eps : K} (heps : 0 ≤ eps) {n : Nat} {L₀ U₀ : M} {b₀ : List F}
    {L U : Matrix (Fin n) (Fin n) K} {b : Fin n → K} (hL : MatFl fl L₀ L) (hU : MatFl fl U₀ U) (hb : VecFl fl b₀ n b) :
    ((∀ i, eps < |L i i| ∧ eps < |U i i|) ∧
      ∃ (x₀ : List F) (x : Fin n → K) (ΔL ΔU : Matrix (Fin n) (Fin n) K),
        solveLu (fun a => |fl a|) eps L₀ U₀ b₀ = .ok x₀ ∧ VecFl fl x₀ n x ∧
        (tril L + ΔL) *ᵥ ((triu U + ΔU) *ᵥ x) = b ∧
        (∀ i j, |ΔL i j| ≤ gam u n * |tril L i j|) ∧ (∀ i j, |ΔU i j| ≤ gam u n * |triu U i j|)) ∨
    ((∃ i, |L i i| ≤ eps ∨ |U i i| ≤ eps) ∧ solveLu (fun a => |fl a|) eps L₀ U₀ b₀ = .error (.exc .singular)) := by
  have hn := hL.sq.pos
  have hf := fwd_round h (fun a => |fl a|) eps hL.sq hb.1
  unfold solveLu
  rw [throwIf_false _ (by rw [hL.2.1, hL.2.2.1]; simp), throwIf_false _ (by rw [hU.2.1, hU.2.2.1]; simp),
    throwIf_false _ (by rw [hL.2.1, hU.2.1]; simp), throwIf_false _ (by rw [hL.2.1, hb.1]; simp)]
  simp only [hL.2.1, hU.2.1, ok_bind]
  cases hr : forRange 0 n b₀ (fwdStep (fun a => |fl a|) eps L₀) with
  | error e =>
    rw [hr] at hf
    obtain ⟨rfl, a, ha, hle⟩ := hf
    refine Or.inr ⟨⟨⟨a, ha⟩, Or.inl ?_⟩, rfl⟩
    rwa [← hL.val]
  | ok y₀ =>
    rw [hr] at hf
    obtain ⟨yl, hy⟩ := hf
    rw [ok_bind, assert_true hn, ok_bind]
    have hg := bwd_round h (fun a => |fl a|) eps hU.sq yl
    cases hr2 : downFrom (bwdStep (fun a => |fl a|) eps U₀) (n - 1) y₀ with
    | error e =>
      rw [hr2] at hg
      obtain ⟨rfl, a, ha, hle⟩ := hg
      refine Or.inr ⟨⟨⟨a, ha⟩, Or.inr ?_⟩, rfl⟩
      rwa [← hU.val]
    | ok x₀ =>
      rw [hr2] at hg
      obtain ⟨xl, hx⟩ := hg
      have hLd : ∀ i : Fin n, eps < |L i i| := fun i => by
        have := (hy i i.2).1
        rw [not_le] at this
        rwa [← hL.val]
      have hUd : ∀ i : Fin n, eps < |U i i| := fun i => by
        have := (hx i i.2).1
        rw [not_le] at this
        rwa [← hU.val]
      have ne : ∀ {a : K}, eps < |a| → a ≠ 0 := fun h1 h0 => by
        rw [h0, abs_zero] at h1; exact absurd h1 (not_lt.2 heps)
      choose s s1 s2 using fun i : Fin n => (hy i i.2).2 (by rw [hL.val]; exact ne (hLd i))
      choose t t1 t2 using fun i : Fin n => (hx i i.2).2 (by rw [hU.val]; exact ne (hUd i))
      refine Or.inl ⟨fun i => ⟨hLd i, hUd i⟩, x₀, _, Matrix.of fun i j => tril L i j * s i j - tril L i j,
        Matrix.of fun i j => triu U i j * t i j - triu U i j, rfl, vecFl_of xl, ?_, fun i j => ?_, fun i j => ?_⟩
      · have hyv : (triu U + Matrix.of fun i j => triu U i j * t i j - triu U i j) *ᵥ (fun i : Fin n => fl (x₀.getD i 0))
            = fun i : Fin n => fl (y₀.getD i 0) := by
          funext i
          rw [← t2 i, Finset.sum_range, pert_mulVec]
          refine Finset.sum_congr rfl fun j _ => ?_
          simp only [triu, Fin.le_def, Matrix.of_apply]
          split
          · rw [hU.val]; ring
          · ring
        rw [hyv]
        funext i
        rw [← hb.getD, ← s2 i]
        have hs : ∀ f : Nat → K, ∑ c ∈ Finset.range ((i : Nat) + 1), f c = ∑ c : Fin n, if c ≤ i then f c else 0 := by
          intro f
          have hsub : (Finset.range n).filter (fun c => c ≤ (i : Nat)) = Finset.range ((i : Nat) + 1) := by
            ext c; have := i.2; simp; omega
          rw [← hsub, Finset.sum_filter, Finset.sum_range]
          rfl
        rw [hs, pert_mulVec]
        refine Finset.sum_congr rfl fun j _ => ?_
        simp only [tril, Matrix.of_apply]
        split
        · rw [hL.val]; ring
        · ring
      · exact abs_mul_sub ((h.th_mono (s1 i j) (by omega)).abs_sub h.u_lt)
      · exact abs_mul_sub ((h.th_mono (t1 i j) (by omega)).abs_sub h.u_lt)

/-- three significant bits: `3 x = 1` gives `5/16` -/
example : solveLu (fun a => |Bin.toRat a|) (0 : ℚ) (⟨[1, 0, Bin.rnd (1 / 2), 1], 2, 2⟩ : Dense (Bin 2))
    ⟨[Bin.rnd 3, 0, 0, Bin.rnd 3], 2, 2⟩ [1, Bin.rnd (3 / 2)] = .ok [Bin.rnd (5 / 16), Bin.rnd (5 / 16)] := by decide +kernel

/-! ## C77: `doolittle` -/

/-- The result of a successful `doolittle` in floating point: unit lower `L` with multipliers of absolute value at most
`1/(1-u)^2`, a permutation `P`, a pivot count of the right parity, and `L` times the upper triangle of `U` is the permuted matrix up to `gam u n * |L| |U|`. -/
def DoolittledFl (fl : F → K) (u : K) (n : Nat) (A : Matrix (Fin n) (Fin n) K) (r : M × M × M × Nat) : Prop :=
  ∃ (L U P : Matrix (Fin n) (Fin n) K) (σ : Equiv.Perm (Fin n)),
    MatFl fl r.1 L ∧ MatFl fl r.2.1 U ∧ MatFl fl r.2.2.1 P ∧
    (∀ i, L i i = 1) ∧ (∀ i j, i < j → L i j = 0) ∧ (∀ i j, |L i j| ≤ ((1 - u) ^ 2)⁻¹) ∧
    (∀ i j, P i j = if j = σ i then 1 else 0) ∧ (Equiv.Perm.sign σ : ℤ) = (-1) ^ r.2.2.2 ∧
    ∃ E : Matrix (Fin n) (Fin n) K, P * A + E = L * triu U ∧ ∀ i j, |E i j| ≤ gam u n * (mabs L * mabs (triu U)) i j

theorem doolittledFl_of (h : Std fl u) {n : Nat} {A₀ : M} {A : Matrix (Fin n) (Fin n) K} (hA : MatFl fl A₀ A)
    {r : M × M × M × Nat} {σ : Equiv.Perm (Fin n)} (hf : RFact fl u n A₀ r.1 r.2.1 r.2.2.1 r.2.2.2 σ) : DoolittledFl fl u n A r := by
  let L : Matrix (Fin n) (Fin n) K := fun i j => fl (LawfulStore.val r.1 i j)
  let U : Matrix (Fin n) (Fin n) K := fun i j => fl (LawfulStore.val r.2.1 i j)
  let P : Matrix (Fin n) (Fin n) K := fun i j => fl (LawfulStore.val r.2.2.1 i j)
  have hL : ∀ i j, i ≤ j → L i j = if i = j then 1 else 0 := by
    intro i j hij
    show fl _ = _
    rw [hf.lower i j hij j.2]
    by_cases he : i = j
    · rw [if_pos (by rw [he]), if_pos he, h.one]
    · rw [if_neg (fun hh => he (Fin.ext hh)), if_neg he, h.zero]
  have hP : ∀ i j, P i j = if j = σ i then 1 else 0 := by
    intro i j
    show fl _ = _
    rw [hf.perm]
    split
    · exact h.one
    · exact h.zero
  choose τ t1 t2 using hf.prod
  have hsum : ∀ (i j : Fin n) (g : Nat → K), ∑ s ∈ Finset.range (min (i : Nat) j + 1), fl (LawfulStore.val r.1 i s) *
      fl (LawfulStore.val r.2.1 s j) * g s = ∑ s : Fin n, L i s * triu U s j * g s := by
    intro i j g
    have hsub : (Finset.range n).filter (fun c => c ≤ min (i : Nat) j) = Finset.range (min (i : Nat) j + 1) := by
      ext c; have := i.2; simp; omega
    rw [← hsub, Finset.sum_filter, Finset.sum_range]
    refine Finset.sum_congr rfl fun s _ => ?_
    by_cases hs : (s : Nat) ≤ min (i : Nat) j
    · rw [if_pos hs]
      have : triu U s j = U s j := if_pos (Fin.le_def.2 (by omega))
      rw [this]
    · rw [if_neg hs]
      by_cases hsj : s ≤ j
      · have hsi : i < s := Fin.lt_def.2 (by rw [Fin.le_def] at hsj; omega)
        rw [hL i s hsi.le, if_neg hsi.ne]; ring
      · have : triu U s j = 0 := if_neg hsj
        rw [this]; ring
  refine ⟨L, U, P, σ, matFl_of hf.sqL.valid hf.sqL.hr hf.sqL.hc, matFl_of hf.sqU.valid hf.sqU.hr hf.sqU.hc,
    matFl_of hf.sqP.valid hf.sqP.hr hf.sqP.hc, fun i => by rw [hL i i le_rfl, if_pos rfl],
    fun i j hij => by rw [hL i j hij.le, if_neg hij.ne], fun i j => hf.bound i j, hP, hf.sgn, L * triu U - P * A,
    by abel, fun i j => ?_⟩
  have hPA : (P * A) i j = A (σ i) j := by
    rw [Matrix.mul_apply]
    simp only [hP, ite_mul, one_mul, zero_mul, Finset.sum_ite_eq', Finset.mem_univ, if_true]
  rw [Matrix.sub_apply, hPA, ← hA.val, t2 i j, hsum, Matrix.mul_apply, ← Finset.sum_sub_distrib, Matrix.mul_apply, Finset.mul_sum]
  refine (Finset.abs_sum_le_sum_abs _ _).trans (Finset.sum_le_sum fun s _ => ?_)
  rw [abs_sub_comm]
  refine (abs_mul_sub ((t1 i j s).abs_sub h.u_lt)).trans_eq ?_
  rw [abs_mul]; rfl

/-- C77, dense overload: on square `A` with zero `L`, `P` of the same shape the call returns a factorisation with small backward
error, or throws `SingularException`. -/
theorem C77_doolittle_dense (h : Std fl u) {eps : K} (heps : 0 ≤ eps) {n : Nat} {A₀ L₀ P₀ : M}
    {A : Matrix (Fin n) (Fin n) K} (hA : MatFl fl A₀ A) (hL : MatFl fl L₀ (0 : Matrix (Fin n) (Fin n) K))
    (hP : MatFl fl P₀ (0 : Matrix (Fin n) (Fin n) K)) :
    (∃ r, doolittleBase (fun a => |fl a|) eps A₀ L₀ P₀ = .ok r ∧ DoolittledFl fl u n A r) ∨
    doolittleBase (fun a => |fl a|) eps A₀ L₀ P₀ = .error (.exc .singular) := by
  have := doolittleFrom_round h heps hA.sq hL.sq hP.sq (hL.zero h) (hP.zero h)
  have e : doolittleBase (fun a => |fl a|) eps A₀ L₀ P₀ = doolittleFrom (fun a => |fl a|) eps A₀ L₀ P₀ := by
    unfold doolittleBase
    rw [throwIf_false _ (by rw [hA.2.1, hA.2.2.1]; simp), throwIf_false _ (by
      rw [hA.2.1, hA.2.2.1, hL.2.1, hL.2.2.1, hP.2.1, hP.2.2.1]; simp)]
    rfl
  rw [e]
  cases hr : doolittleFrom (fun a => |fl a|) eps A₀ L₀ P₀ with
  | ok r => rw [hr] at this; obtain ⟨σ, hf⟩ := this; exact Or.inl ⟨r, rfl, doolittledFl_of h hA hf⟩
  | error e => rw [hr] at this; exact Or.inr (by rw [show e = _ from this])

/-- C77, sparse overload (any previous content of `L` and `P`). -/
theorem C77_doolittle_sparse (h : Std fl u) {eps : K} (heps : 0 ≤ eps) {n : Nat} {A₀ : M}
    {A : Matrix (Fin n) (Fin n) K} (hA : MatFl fl A₀ A) :
    (∃ r, doolittleSparse (fun a => |fl a|) eps A₀ = .ok r ∧ DoolittledFl fl u n A r) ∨
    doolittleSparse (fun a => |fl a|) eps A₀ = .error (.exc .singular) := by
  have hn := hA.sq.pos
  obtain ⟨Z, z1, z2, z3, z4, z5⟩ := LawfulStore.make_ok (M := M) hn hn
  have sZ : Sq n Z := ⟨z2, z3, z4⟩
  have := doolittleFrom_round h heps hA.sq sZ sZ z5 z5
  have e : doolittleSparse (fun a => |fl a|) eps A₀ = doolittleFrom (fun a => |fl a|) eps A₀ Z Z := by
    unfold doolittleSparse
    rw [throwIf_false _ (by rw [hA.2.1, hA.2.2.1]; simp)]
    simp only [hA.2.1, z1, ok_bind]
  rw [e]
  cases hr : doolittleFrom (fun a => |fl a|) eps A₀ Z Z with
  | ok r => rw [hr] at this; obtain ⟨σ, hf⟩ := this; exact Or.inl ⟨r, rfl, doolittledFl_of h hA hf⟩
  | error e => rw [hr] at this; exact Or.inr (by rw [show e = _ from this])

/-- The returned `U` is upper triangular only up to rounding: the code computes the entries below the diagonal instead of setting them
to zero, and in double precision `1 - 49 * (1 / 49)` is not zero.  (`C77_doolittle_dense` therefore speaks about `triu U`, which is what
`solve_lu` reads.) -/
theorem C77_upper_negation :
    ∃ r, doolittleBase (fun a => |Bin.toRat a|) (0 : ℚ) (⟨[Bin.rnd 49, 1, 1, 1], 2, 2⟩ : Dense (Bin 52))
      ⟨[0, 0, 0, 0], 2, 2⟩ ⟨[0, 0, 0, 0], 2, 2⟩ = .ok r ∧ ∃ x, r.2.1.at' 1 0 = .ok x ∧ x ≠ 0 := by
  refine ⟨(⟨[1, 0, 1 / Bin.rnd 49, 1], 2, 2⟩, ⟨[Bin.rnd 49, 1, 1 - 1 / Bin.rnd 49 * Bin.rnd 49, 1 - 1 / Bin.rnd 49], 2, 2⟩,
    ⟨[1, 0, 0, 1], 2, 2⟩, 0), by decide +kernel, _, rfl, by decide +kernel⟩
end
end NS.Props.Rounding

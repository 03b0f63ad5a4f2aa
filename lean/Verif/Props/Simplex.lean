/-
Property theorems C45-C48: `Math::normal` and `Simplex`.

Scalars: a linearly ordered field (exact real arithmetic); the determinant threshold `eps` is 0; `sqrt` is any function
with `sqrt x >= 0` and `sqrt x * sqrt x = x` for `x >= 0` (hypothesis `IsSqrt`).
A triangle is given by its corners `P : Fin 3 → Fin 2 → T`; `HasVerts s P` says that the simplex object `s` stores them.
-/
import Verif.Simplex
import Mathlib.Analysis.Real.Sqrt
import Mathlib.Tactic.FieldSimp
import Mathlib.Tactic.LinearCombination
import Mathlib.Tactic.Positivity
import Mathlib.Tactic.FinCases

set_option linter.unusedSectionVars false
set_option linter.unusedSimpArgs false

namespace NS.Props.Simplex
open NS NS.Props.LU Matrix
variable {T : Type} [Field T] [LinearOrder T] [IsStrictOrderedRing T]

/-- what is assumed about `std::sqrt` -/
def IsSqrt (sqrt : T → T) : Prop := ∀ x, 0 ≤ x → 0 ≤ sqrt x ∧ sqrt x * sqrt x = x

theorem isSqrt_real : IsSqrt Real.sqrt := fun x hx => ⟨Real.sqrt_nonneg x, Real.mul_self_sqrt hx⟩

/-! ### C45 -/

theorem normalized_ok {sqrt : T → T} (hs : IsSqrt sqrt) {n : Nat} {x : List T} {v : Fin n → T} (h : IsVec x n v) :
    (v = 0 → Vec.normalized sqrt x = .error .nonfinite) ∧
    (v ≠ 0 → ∃ r, Vec.normalized sqrt x = .ok r ∧ IsVec r n ((1 / sqrt (v ⬝ᵥ v)) • v) ∧ 0 < sqrt (v ⬝ᵥ v)) := by
  have hnn : 0 ≤ v ⬝ᵥ v := Finset.sum_nonneg fun i _ => mul_self_nonneg (v i)
  have hm : Vec.mag sqrt x = .ok (sqrt (v ⬝ᵥ v)) := by
    unfold Vec.mag Vec.magSqr
    rw [h.dot h]; rfl
  obtain ⟨s0, s1⟩ := hs _ hnn
  constructor
  · intro hv
    have : sqrt (v ⬝ᵥ v) = 0 := by
      have e : v ⬝ᵥ v = 0 := by rw [hv]; simp
      have := s1
      rw [e] at this
      rw [e]
      exact mul_self_eq_zero.1 this
    unfold Vec.normalized
    rw [hm, this]
    simp [fdiv]
  · intro hv
    have hne : sqrt (v ⬝ᵥ v) ≠ 0 := by
      intro h0
      rw [h0, mul_zero] at s1
      apply hv
      funext i
      have := (Finset.sum_eq_zero_iff_of_nonneg (fun i _ => mul_self_nonneg (v i))).1 s1.symm i (Finset.mem_univ i)
      exact mul_self_eq_zero.1 this
    obtain ⟨r, r1, r2⟩ := h.smul (1 / sqrt (v ⬝ᵥ v))
    refine ⟨r, ?_, r2, lt_of_le_of_ne s0 (Ne.symm hne)⟩
    unfold Vec.normalized
    rw [hm]
    simp only [ok_bind, fdiv, if_neg hne]
    exact r1

/-- C45: for `n` linearly independent vectors of dimension `n+1` (the rows of `V`), `normal` returns a vector of length
one that is orthogonal to all of them. -/
theorem C45_normal {sqrt : T → T} (hs : IsSqrt sqrt) {n : Nat} (hn : 0 < n) {vectors : List (List T)}
    {V : Matrix (Fin n) (Fin (n + 1)) T} (h : Normal.IsVecs vectors V) (hV : LinearIndependent T V.row) :
    ∃ r w, Normal.normal 0 sqrt (n + 1) vectors = .ok r ∧ IsVec r (n + 1) w ∧ w ⬝ᵥ w = 1 ∧ ∀ j, V j ⬝ᵥ w = 0 := by
  obtain ⟨x, x1, x2⟩ := Normal.normalRaw_ok hn h
  obtain ⟨r, r1, r2, r3⟩ := (normalized_ok hs x2).2 (Normal.minors_ne_zero V hV)
  refine ⟨r, _, by unfold Normal.normal; rw [x1, ok_bind, r1], r2, ?_, fun j => ?_⟩
  · have hnn : 0 ≤ Normal.minors V ⬝ᵥ Normal.minors V := Finset.sum_nonneg fun i _ => mul_self_nonneg (Normal.minors V i)
    have s1 := (hs _ hnn).2
    rw [smul_dotProduct, dotProduct_smul, smul_eq_mul, smul_eq_mul]
    have hne := ne_of_gt r3
    have s1' : sqrt (Normal.minors V ⬝ᵥ Normal.minors V) * sqrt (Normal.minors V ⬝ᵥ Normal.minors V) =
      Normal.minors V ⬝ᵥ Normal.minors V := s1
    generalize sqrt (Normal.minors V ⬝ᵥ Normal.minors V) = q at *
    rw [← s1']
    field_simp
  · rw [dotProduct_smul, Normal.minors_orth, smul_zero]

/-- C45, remaining case: for linearly dependent vectors all minors vanish, the vector before normalisation is zero (it is
still orthogonal to the input) and the normalisation divides by zero. -/
theorem C45_dependent {sqrt : T → T} (hs : IsSqrt sqrt) {n : Nat} (hn : 0 < n) {vectors : List (List T)}
    {V : Matrix (Fin n) (Fin (n + 1)) T} (h : Normal.IsVecs vectors V) (hV : ¬ LinearIndependent T V.row) :
    Normal.normal 0 sqrt (n + 1) vectors = .error .nonfinite := by
  obtain ⟨x, x1, x2⟩ := Normal.normalRaw_ok hn h
  have hz : Normal.minors V = 0 := by
    by_contra hne
    apply hV
    -- a non-zero minor gives `n` independent columns, hence independent rows
    obtain ⟨i, hi⟩ := Function.ne_iff.1 hne
    have hd : (V.submatrix id i.succAbove).det ≠ 0 := by
      intro h0; apply hi; unfold Normal.minors; rw [h0]; simp
    have hu : IsUnit (V.submatrix id i.succAbove) := by
      rw [Matrix.isUnit_iff_isUnit_det]; exact isUnit_iff_ne_zero.2 hd
    have hli := Matrix.linearIndependent_rows_iff_isUnit.2 hu
    rw [Fintype.linearIndependent_iff] at hli ⊢
    intro g hg
    apply hli g
    funext b
    have := congrFun hg (i.succAbove b)
    simpa [Matrix.row, Finset.sum_apply] using this
  unfold Normal.normal
  rw [x1, ok_bind]
  exact (normalized_ok hs x2).1 hz

/-- Non-vacuity: two independent vectors in three dimensions. -/
example : ∃ r w, Normal.normal 0 Real.sqrt 3 [[1, 2, 2], [0, 1, 1]] = .ok r ∧ IsVec r 3 w ∧ w ⬝ᵥ w = 1 ∧
    ∀ j, (!![1, 2, 2; 0, 1, 1] : Matrix (Fin 2) (Fin 3) ℝ) j ⬝ᵥ w = 0 := by
  refine C45_normal isSqrt_real (n := 2) (by omega) ?_ ?_
  · intro j
    fin_cases j
    · exact ⟨[1, 2, 2], rfl, rfl, fun i => by fin_cases i <;> rfl⟩
    · exact ⟨[0, 1, 1], rfl, rfl, fun i => by fin_cases i <;> rfl⟩
  · rw [Fintype.linearIndependent_iff]
    intro g hg
    have h0 := congrFun hg 0
    have h1 := congrFun hg 1
    simp [Fin.sum_univ_two, Matrix.row] at h0 h1
    intro i
    fin_cases i
    · exact h0
    · simpa [h0] using h1

/-! ### Objects -/

/-- the simplex object stores the triangle `P` -/
def HasVerts (s : Simplex T) (P : Fin 3 → Fin 2 → T) : Prop :=
  s.verts = [[P 0 0, P 0 1], [P 1 0, P 1 1], [P 2 0, P 2 1]]

/-- objects on which `prepare` has never been called -/
inductive Built : Simplex T → Prop
  | default : Built Simplex.default
  | ofLists {l s} : Simplex.ofLists l = .ok s → Built s
  | setVertex {s i v s'} : Built s → v.length = 2 → Simplex.setVertex s i v = .ok s' → Built s'

/-- all objects a program can produce (with the triangle's determinant computed at threshold 0) -/
inductive Reach : Simplex T → Prop
  | built {s} : Built s → Reach s
  | setVertex {s i v s'} : Reach s → v.length = 2 → Simplex.setVertex s i v = .ok s' → Reach s'
  | prepare {s s'} : Reach s → Simplex.prepare 0 s = .ok s' → Reach s'

/-- shape of an object -/
structure Shape (s : Simplex T) : Prop where
  verts : ∃ P, HasVerts s P
  mat : ∃ a b c d, s.mat = ⟨[a, b, c, d], 2, 2⟩
  inv : ∃ a b c d, s.inv = ⟨[a, b, c, d], 2, 2⟩

theorem shape_default : Shape (Simplex.default : Simplex T) :=
  ⟨⟨fun _ _ => 0, rfl⟩, ⟨0, 0, 0, 0, rfl⟩, ⟨0, 0, 0, 0, rfl⟩⟩

theorem two_of_length {v : List T} (h : v.length = 2) : ∃ a b, v = [a, b] := by
  match v, h with
  | [a, b], _ => exact ⟨a, b, rfl⟩

theorem shape_setVertex {s s' : Simplex T} {i v} (h : Shape s) (hv : v.length = 2) (e : Simplex.setVertex s i v = .ok s') :
    Shape s' ∧ s'.prepared = s.prepared := by
  obtain ⟨⟨P, hP⟩, hm, hi⟩ := h
  obtain ⟨a, b, rfl⟩ := two_of_length hv
  unfold HasVerts at hP
  obtain ⟨vs, p, m, iv, d⟩ := s
  simp only at hP hm hi
  subst hP
  match i with
  | 0 =>
    obtain rfl := (Except.ok.inj e).symm
    exact ⟨⟨⟨![![a, b], P 1, P 2], rfl⟩, hm, hi⟩, rfl⟩
  | 1 =>
    obtain rfl := (Except.ok.inj e).symm
    exact ⟨⟨⟨![P 0, ![a, b], P 2], rfl⟩, hm, hi⟩, rfl⟩
  | 2 =>
    obtain rfl := (Except.ok.inj e).symm
    exact ⟨⟨⟨![P 0, P 1, ![a, b]], rfl⟩, hm, hi⟩, rfl⟩
  | k + 3 =>
    exfalso
    simp [Simplex.setVertex, setIdx] at e

theorem ofListFixed_two {v : List T} {x : List T} (e : Vec.ofListFixed 2 v = .ok x) : ∃ a b, x = [a, b] := by
  match v with
  | [] => obtain rfl := (Except.ok.inj e).symm; exact ⟨_, _, rfl⟩
  | [a] => obtain rfl := (Except.ok.inj e).symm; exact ⟨_, _, rfl⟩
  | [a, b] => obtain rfl := (Except.ok.inj e).symm; exact ⟨_, _, rfl⟩
  | a :: b :: c :: l => exact absurd e (by intro h; cases h)

theorem ofLists_three {l : List (List T)} {s : Simplex T} (e : Simplex.ofLists l = .ok s) :
    Shape s ∧ s.prepared = false := by
  unfold Simplex.ofLists at e
  by_cases hl : l.length = 3
  · match l, hl with
    | [u, v, w], _ =>
      rw [assert_true (show [u, v, w].length = 3 from rfl), ok_bind] at e
      simp only [forList] at e
      rcases hu : Vec.ofListFixed 2 u with er | u'
      · rw [hu] at e; cases e
      rcases hv : Vec.ofListFixed 2 v with er | v'
      · rw [hu, hv] at e; cases e
      rcases hw : Vec.ofListFixed 2 w with er | w'
      · rw [hu, hv, hw] at e; cases e
      rw [hu, hv, hw] at e
      obtain ⟨a, b, rfl⟩ := ofListFixed_two hu
      obtain ⟨c, d, rfl⟩ := ofListFixed_two hv
      obtain ⟨f, g, rfl⟩ := ofListFixed_two hw
      obtain rfl := (Except.ok.inj e).symm
      exact ⟨⟨⟨![![a, b], ![c, d], ![f, g]], rfl⟩, ⟨0, 0, 0, 0, rfl⟩, ⟨0, 0, 0, 0, rfl⟩⟩, rfl⟩
  · rw [assert_false hl] at e; cases e

/-- the constructor stores the given corners -/
theorem ofLists_ok (P : Fin 3 → Fin 2 → T) :
    ∃ s, Simplex.ofLists [[P 0 0, P 0 1], [P 1 0, P 1 1], [P 2 0, P 2 1]] = .ok s ∧ HasVerts s P ∧ Built s :=
  ⟨_, rfl, rfl, .ofLists (l := [[P 0 0, P 0 1], [P 1 0, P 1 1], [P 2 0, P 2 1]]) rfl⟩

theorem built_shape {s : Simplex T} (h : Built s) : Shape s ∧ s.prepared = false := by
  induction h with
  | default => exact ⟨shape_default, rfl⟩
  | ofLists e => exact ofLists_three e
  | setVertex _ hv e ih =>
    obtain ⟨a, b⟩ := shape_setVertex ih.1 hv e
    exact ⟨a, by rw [b, ih.2]⟩

/-- twice the signed area: the determinant of the edge matrix -/
def area2 (P : Fin 3 → Fin 2 → T) : T :=
  (Matrix.of fun (i j : Fin 2) => P j.succ i - P 0 i).det

theorem area2_eq (P : Fin 3 → Fin 2 → T) :
    area2 P = Simplex.D (P 0 0) (P 0 1) (P 1 0) (P 1 1) (P 2 0) (P 2 1) := by
  unfold area2 Simplex.D
  rw [Matrix.det_fin_two]
  rfl

theorem inv_area {x0 y0 x1 y1 x2 y2 : T} (h : Simplex.D x0 y0 x1 y1 x2 y2 ≠ 0) :
    1 / Simplex.D x0 y0 x1 y1 x2 y2 * ((x1 - x0) * (y2 - y0) - (x2 - x0) * (y1 - y0)) = 1 := by
  unfold Simplex.D at *
  rw [one_div, inv_mul_cancel₀ h]

/-- the state after `prepare()` -/
def prepOf (P : Fin 3 → Fin 2 → T) : Simplex T :=
  Simplex.prep (P 0 0) (P 0 1) (P 1 0) (P 1 1) (P 2 0) (P 2 1)

theorem prepare_shape {s : Simplex T} {P : Fin 3 → Fin 2 → T} (h : Shape s) (hP : HasVerts s P) :
    Simplex.prepare 0 s = if area2 P = 0 then .error .nonfinite else .ok (prepOf P) := by
  obtain ⟨-, ⟨a, b, c, d, hm⟩, ⟨a', b', c', d', hi⟩⟩ := h
  obtain ⟨vs, p, m, iv, e⟩ := s
  simp only [HasVerts] at hP hm hi
  subst hP hm hi
  rw [area2_eq]
  exact Simplex.prepare_eval _ _ _ _ _ _ _ _ _ _ _ _ _ _ _ _

theorem shape_prep (P : Fin 3 → Fin 2 → T) : Shape (prepOf P) :=
  ⟨⟨P, rfl⟩, ⟨_, _, _, _, rfl⟩, ⟨_, _, _, _, rfl⟩⟩

theorem reach_shape {s : Simplex T} (h : Reach s) : Shape s := by
  induction h with
  | built h => exact (built_shape h).1
  | setVertex _ hv e ih => exact (shape_setVertex ih hv e).1
  | prepare _ e ih =>
    obtain ⟨P, hP⟩ := ih.verts
    rw [prepare_shape ih hP] at e
    split at e
    · cases e
    · obtain rfl := (Except.ok.inj e).symm
      exact shape_prep P

/-! ### C46 -/

/-- C46: accessors before `prepare()` abort, whatever constructor and vertex assignments came before. -/
theorem C46_unprepared {s : Simplex T} (h : Built s) (p : List T) (c : Nat) :
    s.toLocal p = .error .abort ∧ s.toGlobal p = .error .abort ∧ s.volume = .error .abort ∧
    s.gradient c = .error .abort ∧ s.matrix = .error .abort ∧ s.inverseMatrix = .error .abort ∧
    s.determinant = .error .abort := by
  have hp := (built_shape h).2
  obtain ⟨vs, p, m, iv, e⟩ := s
  simp only at hp
  subst hp
  exact ⟨rfl, rfl, rfl, rfl, rfl, rfl, rfl⟩

/-- C46: on every reachable object that stores a non-degenerate triangle `prepare()` returns (whatever was prepared
before); afterwards `toGlobal` is the affine map with matrix `[P1-P0, P2-P0]` and origin `P0`, `toLocal` is its inverse
on both sides, and the corners have local coordinates (0,0), (1,0), (0,1). -/
theorem C46_maps {s : Simplex T} {P : Fin 3 → Fin 2 → T} (h : Reach s) (hP : HasVerts s P) (hd : area2 P ≠ 0) :
    ∃ s', s.prepare 0 = .ok s' ∧ HasVerts s' P ∧
      (∀ x y, s'.toGlobal [x, y] = .ok [P 0 0 + x * (P 1 0 - P 0 0) + y * (P 2 0 - P 0 0),
        P 0 1 + x * (P 1 1 - P 0 1) + y * (P 2 1 - P 0 1)]) ∧
      (∀ x y, (s'.toGlobal [x, y] >>= s'.toLocal) = .ok [x, y]) ∧
      (∀ x y, (s'.toLocal [x, y] >>= s'.toGlobal) = .ok [x, y]) ∧
      s'.toLocal [P 0 0, P 0 1] = .ok [0, 0] ∧ s'.toLocal [P 1 0, P 1 1] = .ok [1, 0] ∧
      s'.toLocal [P 2 0, P 2 1] = .ok [0, 1] := by
  refine ⟨prepOf P, by rw [prepare_shape (reach_shape h) hP, if_neg hd], rfl, ?_⟩
  rw [area2_eq] at hd
  have hG : ∀ x y, (prepOf P).toGlobal [x, y] =
      .ok [0 + (P 1 0 - P 0 0) * x + (P 2 0 - P 0 0) * y + P 0 0, 0 + (P 1 1 - P 0 1) * x + (P 2 1 - P 0 1) * y + P 0 1] :=
    fun x y => rfl
  have hL : ∀ x y, (prepOf P).toLocal [x, y] =
      .ok [0 + (P 2 1 - P 0 1) * (1 / Simplex.D (P 0 0) (P 0 1) (P 1 0) (P 1 1) (P 2 0) (P 2 1)) * (x - P 0 0) +
          -(P 2 0 - P 0 0) * (1 / Simplex.D (P 0 0) (P 0 1) (P 1 0) (P 1 1) (P 2 0) (P 2 1)) * (y - P 0 1),
        0 + -(P 1 1 - P 0 1) * (1 / Simplex.D (P 0 0) (P 0 1) (P 1 0) (P 1 1) (P 2 0) (P 2 1)) * (x - P 0 0) +
          (P 1 0 - P 0 0) * (1 / Simplex.D (P 0 0) (P 0 1) (P 1 0) (P 1 1) (P 2 0) (P 2 1)) * (y - P 0 1)] :=
    fun x y => rfl
  have hI := inv_area hd
  generalize 1 / Simplex.D (P 0 0) (P 0 1) (P 1 0) (P 1 1) (P 2 0) (P 2 1) = I at hL hI
  have key : ∀ x y, (prepOf P).toLocal [P 0 0 + x * (P 1 0 - P 0 0) + y * (P 2 0 - P 0 0),
        P 0 1 + x * (P 1 1 - P 0 1) + y * (P 2 1 - P 0 1)] = .ok [x, y] := by
    intro x y
    rw [hL]
    congr 1
    refine List.cons_eq_cons.2 ⟨?_, List.cons_eq_cons.2 ⟨?_, rfl⟩⟩
    · linear_combination x * hI
    · linear_combination y * hI
  have hG' : ∀ x y, (prepOf P).toGlobal [x, y] = .ok [P 0 0 + x * (P 1 0 - P 0 0) + y * (P 2 0 - P 0 0),
        P 0 1 + x * (P 1 1 - P 0 1) + y * (P 2 1 - P 0 1)] := by
    intro x y
    rw [hG]
    congr 1
    refine List.cons_eq_cons.2 ⟨by ring, List.cons_eq_cons.2 ⟨by ring, rfl⟩⟩
  refine ⟨hG', fun x y => ?_, fun x y => ?_, ?_, ?_, ?_⟩
  · rw [hG', ok_bind, key]
  · rw [hL, ok_bind, hG']
    congr 1
    refine List.cons_eq_cons.2 ⟨?_, List.cons_eq_cons.2 ⟨?_, rfl⟩⟩
    · linear_combination (x - P 0 0) * hI
    · linear_combination (y - P 0 1) * hI
  · have := key 0 0; simpa using this
  · have := key 1 0; simpa using this
  · have := key 0 1; simpa using this

/-- C46: the stored matrices: `matrix()` is the edge matrix, `inverseMatrix()` its inverse and `determinant()` its
determinant. -/
theorem C46_matrices {s : Simplex T} {P : Fin 3 → Fin 2 → T} (h : Reach s) (hP : HasVerts s P) (hd : area2 P ≠ 0) :
    ∃ s' m i, s.prepare 0 = .ok s' ∧ s'.matrix = .ok m ∧ s'.inverseMatrix = .ok i ∧ s'.determinant = .ok (area2 P) ∧
      IsMat m 2 (Matrix.of fun (i j : Fin 2) => P j.succ i - P 0 i) ∧
      IsMat i 2 (Matrix.of fun (i j : Fin 2) => P j.succ i - P 0 i)⁻¹ := by
  refine ⟨prepOf P, (prepOf P).mat, (prepOf P).inv, by rw [prepare_shape (reach_shape h) hP, if_neg hd], rfl, rfl, ?_, ?_, ?_⟩
  · rw [area2_eq]; rfl
  · refine ⟨show Dense.WF _ from ⟨rfl, Nat.zero_lt_two, Nat.zero_lt_two⟩, rfl, rfl, fun i j => ?_⟩
    fin_cases i <;> fin_cases j <;> rfl
  · have hA := area2_eq P
    unfold area2 at hA
    refine ⟨show Dense.WF _ from ⟨rfl, Nat.zero_lt_two, Nat.zero_lt_two⟩, rfl, rfl, fun i j => ?_⟩
    rw [Matrix.inv_def, hA, Matrix.adjugate_fin_two, Ring.inverse_eq_inv']
    have hv : ∀ k l : Fin 2, MatOps.get (prepOf P).inv k l = .ok ((!![(P 2 1 - P 0 1) * (1 / Simplex.D (P 0 0) (P 0 1) (P 1 0) (P 1 1) (P 2 0) (P 2 1)),
        -(P 2 0 - P 0 0) * (1 / Simplex.D (P 0 0) (P 0 1) (P 1 0) (P 1 1) (P 2 0) (P 2 1));
        -(P 1 1 - P 0 1) * (1 / Simplex.D (P 0 0) (P 0 1) (P 1 0) (P 1 1) (P 2 0) (P 2 1)),
        (P 1 0 - P 0 0) * (1 / Simplex.D (P 0 0) (P 0 1) (P 1 0) (P 1 1) (P 2 0) (P 2 1))] : Matrix (Fin 2) (Fin 2) T) k l) := by
      intro k l
      fin_cases k <;> fin_cases l <;> rfl
    rw [hv]
    congr 1
    fin_cases i <;> fin_cases j <;> simp [mul_comm]

/-- C46 (negation of "prepare() reports degenerate triangles"): on every degenerate triangle `prepare()` throws nothing:
it divides by the zero determinant and the inverse matrix is filled with non-finite numbers. -/
theorem C46_degenerate {s : Simplex T} {P : Fin 3 → Fin 2 → T} (h : Reach s) (hP : HasVerts s P) (hd : area2 P = 0) :
    s.prepare 0 = .error .nonfinite := by
  rw [prepare_shape (reach_shape h) hP, if_pos hd]

/-- `prepare()` depends on the corners only: a second call, or a call after changing corners of a prepared object, gives
the same object as preparing a fresh one. -/
theorem C46_prepare_fresh {s t : Simplex T} {P : Fin 3 → Fin 2 → T} (hs : Reach s) (ht : Reach t) (h1 : HasVerts s P)
    (h2 : HasVerts t P) : s.prepare 0 = t.prepare 0 := by
  rw [prepare_shape (reach_shape hs) h1, prepare_shape (reach_shape ht) h2]

/-! ### C47 -/

/-- the squared length of the vector from `P i` to `P j` -/
def dist2 (P : Fin 3 → Fin 2 → T) (i j : Fin 3) : T := (P i - P j) ⬝ᵥ (P i - P j)

/-- C47: the volume is half the absolute value of the determinant. -/
theorem C47_volume {s : Simplex T} {P : Fin 3 → Fin 2 → T} (h : Reach s) (hP : HasVerts s P) (hd : area2 P ≠ 0) :
    (s.prepare 0 >>= Simplex.volume) = .ok (|area2 P| / 2) := by
  rw [prepare_shape (reach_shape h) hP, if_neg hd, ok_bind, area2_eq]
  have : (prepOf P).volume = .ok |1 / 2 * Simplex.D (P 0 0) (P 0 1) (P 1 0) (P 1 1) (P 2 0) (P 2 1)| := rfl
  rw [this, abs_mul, abs_of_pos (by positivity : (0 : T) < 1 / 2)]
  congr 1
  ring

theorem area2_perm (P : Fin 3 → Fin 2 → T) (σ : Equiv.Perm (Fin 3)) : |area2 (P ∘ σ)| = |area2 P| := by
  have key : ∀ Q : Fin 3 → Fin 2 → T, area2 Q = (Matrix.of fun (i j : Fin 3) => (![1, Q i 0, Q i 1] : Fin 3 → T) j).det := by
    intro Q
    rw [area2_eq, Matrix.det_fin_three]
    simp [Simplex.D]
    ring
  rw [key, key P]
  have : (Matrix.of fun (i j : Fin 3) => (![1, (P ∘ σ) i 0, (P ∘ σ) i 1] : Fin 3 → T) j) =
      (Matrix.of fun (i j : Fin 3) => (![1, P i 0, P i 1] : Fin 3 → T) j).submatrix σ id := rfl
  rw [this, Matrix.det_permute, abs_mul]
  rcases Int.units_eq_one_or (Equiv.Perm.sign σ) with h | h <;> simp [h]

/-- C47: permuting the corners does not change the volume. -/
theorem C47_volume_permute {s t : Simplex T} {P : Fin 3 → Fin 2 → T} (hs : Reach s) (ht : Reach t) (hP : HasVerts s P)
    (σ : Equiv.Perm (Fin 3)) (hQ : HasVerts t (P ∘ σ)) (hd : area2 P ≠ 0) :
    (t.prepare 0 >>= Simplex.volume) = (s.prepare 0 >>= Simplex.volume) := by
  have e := area2_perm P σ
  rw [C47_volume hs hP hd, C47_volume ht hQ (by rw [← abs_ne_zero, e]; exact abs_ne_zero.2 hd), e]

/-- C47: translating all corners by `w` does not change the volume. -/
theorem C47_volume_translate {s t : Simplex T} {P : Fin 3 → Fin 2 → T} (hs : Reach s) (ht : Reach t) (hP : HasVerts s P)
    (w : Fin 2 → T) (hQ : HasVerts t (fun i => P i + w)) (hd : area2 P ≠ 0) :
    (t.prepare 0 >>= Simplex.volume) = (s.prepare 0 >>= Simplex.volume) := by
  have e : area2 (fun i => P i + w) = area2 P := by
    unfold area2
    congr 1
    ext i j
    simp
  rw [C47_volume hs hP hd, C47_volume ht hQ (by rw [e]; exact hd), e]

/-- C47: `gradient(c)` is the gradient of the `c`-th barycentric coordinate: the affine function with that gradient and
value 1 at corner `c` is 0 at the other corners; it agrees with the local coordinates; the three gradients sum to zero;
other component numbers abort. -/
theorem C47_gradient {s : Simplex T} {P : Fin 3 → Fin 2 → T} (h : Reach s) (hP : HasVerts s P) (hd : area2 P ≠ 0) :
    ∃ s', ∃ g : Fin 3 → Fin 2 → T, s.prepare 0 = .ok s' ∧ (∀ c : Fin 3, s'.gradient c = .ok [g c 0, g c 1]) ∧
      (∀ c j : Fin 3, 1 + g c ⬝ᵥ (P j - P c) = if j = c then 1 else 0) ∧
      g 0 + g 1 + g 2 = 0 ∧
      (∀ x y, s'.toLocal [x, y] = .ok [g 1 ⬝ᵥ (![x, y] - P 0), g 2 ⬝ᵥ (![x, y] - P 0)]) ∧
      ∀ c, 3 ≤ c → s'.gradient c = .error .abort := by
  have hd' := hd
  rw [area2_eq] at hd'
  let D := Simplex.D (P 0 0) (P 0 1) (P 1 0) (P 1 1) (P 2 0) (P 2 1)
  let g : Fin 3 → Fin 2 → T := ![![(P 1 1 - P 2 1) * (1 / D), (P 2 0 - P 1 0) * (1 / D)],
    ![(P 2 1 - P 0 1) * (1 / D), (P 0 0 - P 2 0) * (1 / D)], ![(P 0 1 - P 1 1) * (1 / D), (P 1 0 - P 0 0) * (1 / D)]]
  have hf : (fdiv 1 D : R T) = .ok (1 / D) := by
    unfold fdiv; exact if_neg hd'
  refine ⟨prepOf P, g, by rw [prepare_shape (reach_shape h) hP, if_neg hd], ?_, ?_, ?_, ?_, ?_⟩
  · intro c
    fin_cases c
    · change (fdiv 1 D >>= _) = _; rw [hf]; rfl
    · change (fdiv 1 D >>= _) = _; rw [hf]; rfl
    · change (fdiv 1 D >>= _) = _; rw [hf]; rfl
  · intro c j
    have hI := inv_area hd'
    change 1 / D * _ = 1 at hI
    fin_cases c <;> fin_cases j <;>
      simp only [g, dotProduct, Fin.sum_univ_two, Fin.zero_eta, Fin.mk_one, Fin.reduceFinMk, Pi.sub_apply, if_true,
        Matrix.cons_val_zero, Matrix.cons_val_one, Matrix.cons_val, sub_self, mul_zero, add_zero, Fin.reduceEq, if_false]
    all_goals linear_combination (-1 : T) * hI
  · funext i
    fin_cases i <;> simp [g] <;> ring
  · intro x y
    change Except.ok [0 + (P 2 1 - P 0 1) * (1 / D) * (x - P 0 0) + -(P 2 0 - P 0 0) * (1 / D) * (y - P 0 1),
        0 + -(P 1 1 - P 0 1) * (1 / D) * (x - P 0 0) + (P 1 0 - P 0 0) * (1 / D) * (y - P 0 1)] = _
    congr 1
    refine List.cons_eq_cons.2 ⟨?_, List.cons_eq_cons.2 ⟨?_, rfl⟩⟩
    · show _ = g 1 ⬝ᵥ (![x, y] - P 0)
      simp only [g, dotProduct, Fin.sum_univ_two, Pi.sub_apply, Matrix.cons_val_zero, Matrix.cons_val_one, Matrix.cons_val]
      ring
    · show _ = g 2 ⬝ᵥ (![x, y] - P 0)
      simp only [g, dotProduct, Fin.sum_univ_two, Pi.sub_apply, Matrix.cons_val_zero, Matrix.cons_val_one, Matrix.cons_val]
      ring
  · intro c hc
    have : ¬ c < 3 := by omega
    unfold Simplex.gradient
    simp [prepOf, Simplex.prep, assert, this]

/-- C47: `diameter()` is the length of an edge and no edge is longer (no `prepare()` needed). -/
theorem C47_diameter (sqrt : T → T) {s : Simplex T} {P : Fin 3 → Fin 2 → T} (hP : HasVerts s P) :
    ∃ i j, s.diameter sqrt = .ok (sqrt (dist2 P i j)) ∧ ∀ a b, dist2 P a b ≤ dist2 P i j := by
  obtain ⟨vs, p, m, iv, e⟩ := s
  simp only [HasVerts] at hP
  subst hP
  have hnn : ∀ a b, 0 ≤ dist2 P a b := fun a b => by
    unfold dist2 dotProduct; exact Finset.sum_nonneg fun i _ => mul_self_nonneg _
  have hsymm : ∀ a b, dist2 P a b = dist2 P b a := by
    intro a b; simp [dist2, dotProduct, Fin.sum_univ_two]; ring
  have hself : ∀ a, dist2 P a a = 0 := by intro a; simp [dist2]
  have e' : (Simplex.diameter sqrt ⟨[[P 0 0, P 0 1], [P 1 0, P 1 1], [P 2 0, P 2 1]], p, m, iv, e⟩) =
      .ok (sqrt (max (max (max (max (max (max 0 (dist2 P 0 1)) (dist2 P 0 2)) (dist2 P 1 0)) (dist2 P 1 2)) (dist2 P 2 0))
        (dist2 P 2 1))) := by
    have hq : ∀ a b : Fin 3, dist2 P a b = 0 + (P a 0 - P b 0) * (P a 0 - P b 0) + (P a 1 - P b 1) * (P a 1 - P b 1) := by
      intro a b; simp [dist2, dotProduct, Fin.sum_univ_two]
    rw [hq, hq, hq, hq, hq, hq]
    rfl
  rw [e', hsymm 1 0, hsymm 2 0, hsymm 2 1]
  have hm : max (max (max (max (max (max 0 (dist2 P 0 1)) (dist2 P 0 2)) (dist2 P 0 1)) (dist2 P 1 2)) (dist2 P 0 2))
        (dist2 P 1 2) = max (max (dist2 P 0 1) (dist2 P 0 2)) (dist2 P 1 2) := by
    apply le_antisymm
    · simp [hnn]
    · refine max_le (max_le ?_ ?_) ?_ <;> simp only [le_max_iff, le_refl, true_or, or_true]
  rw [hm]
  have hb : ∀ a b, dist2 P a b ≤ max (max (dist2 P 0 1) (dist2 P 0 2)) (dist2 P 1 2) := by
    intro a b
    fin_cases a <;> fin_cases b <;> simp [hself, hnn, hsymm 1 0, hsymm 2 0, hsymm 2 1]
  rcases max_choice (max (dist2 P 0 1) (dist2 P 0 2)) (dist2 P 1 2) with h | h
  · rcases max_choice (dist2 P 0 1) (dist2 P 0 2) with h' | h'
    · exact ⟨0, 1, by rw [h, h'], fun a b => by have := hb a b; rwa [h, h'] at this⟩
    · exact ⟨0, 2, by rw [h, h'], fun a b => by have := hb a b; rwa [h, h'] at this⟩
  · exact ⟨1, 2, by rw [h], fun a b => by have := hb a b; rwa [h] at this⟩

/-- non-vacuity of the hypotheses of C46/C47: the triangle (1,1), (4,1), (2,3) -/
def exTri : Fin 3 → Fin 2 → ℚ := ![![1, 1], ![4, 1], ![2, 3]]
example : ∃ s, Reach s ∧ HasVerts s exTri ∧ area2 exTri ≠ 0 ∧ (s.prepare 0 >>= Simplex.volume) = .ok 3 := by
  obtain ⟨s, -, hs, hb⟩ := ofLists_ok exTri
  have hd : area2 exTri = 6 := by
    rw [area2_eq]; simp [Simplex.D, exTri]; norm_num
  refine ⟨s, .built hb, hs, by rw [hd]; norm_num, ?_⟩
  rw [C47_volume (.built hb) hs (by rw [hd]; norm_num), hd]
  norm_num

/-! ### C48 -/

/-- `q` has the same distance to all corners of `P` -/
def Equidistant (P : Fin 3 → Fin 2 → T) (q : Fin 2 → T) : Prop :=
  ∀ i j : Fin 3, (q - P i) ⬝ᵥ (q - P i) = (q - P j) ⬝ᵥ (q - P j)

theorem two_eq (a b : T) : [a, b] = [(![a, b] : Fin 2 → T) 0, (![a, b] : Fin 2 → T) 1] := rfl

theorem equidistant_of {P : Fin 3 → Fin 2 → T} {e : Fin 2 → T}
    (h : ∀ i, 2 * (e ⬝ᵥ (P i - P 0)) = (P i - P 0) ⬝ᵥ (P i - P 0)) : Equidistant P (fun k => P 0 k + e k) := by
  have key : ∀ i : Fin 3, ((fun k => P 0 k + e k) - P i) ⬝ᵥ ((fun k => P 0 k + e k) - P i) = e ⬝ᵥ e := by
    intro i
    have he := h i
    simp only [dotProduct, Fin.sum_univ_two, Pi.sub_apply] at he ⊢
    linear_combination (-1 : T) * he
  intro i j
  rw [key, key]

/-- C48, first part (what holds): the vector returned by `center()` of a prepared triangle, divided by the square of the
determinant and moved to the first corner, is equidistant to the corners.  Missing: `center()` itself is not (see
`C48_center_wrong`): the code multiplies by the determinant instead of dividing and forgets the first corner. -/
theorem C48_center_partial {s : Simplex T} {P : Fin 3 → Fin 2 → T} (h : Reach s) (hP : HasVerts s P) (hd : area2 P ≠ 0) :
    ∃ c : Fin 2 → T, (s.prepare 0 >>= Simplex.center) = .ok [c 0, c 1] ∧
      Equidistant P (fun i => P 0 i + c i / (area2 P * area2 P)) := by
  have hd' := hd
  rw [area2_eq] at hd'
  have hG : (prepOf P).center = .ok
      [((P 2 1 - P 0 1) * (0 + (P 1 0 - P 0 0) * (P 1 0 - P 0 0) + (P 1 1 - P 0 1) * (P 1 1 - P 0 1)) -
          (P 1 1 - P 0 1) * (0 + (P 2 0 - P 0 0) * (P 2 0 - P 0 0) + (P 2 1 - P 0 1) * (P 2 1 - P 0 1))) * (1 / 2) *
          Simplex.D (P 0 0) (P 0 1) (P 1 0) (P 1 1) (P 2 0) (P 2 1),
       ((P 1 0 - P 0 0) * (0 + (P 2 0 - P 0 0) * (P 2 0 - P 0 0) + (P 2 1 - P 0 1) * (P 2 1 - P 0 1)) -
          (P 2 0 - P 0 0) * (0 + (P 1 0 - P 0 0) * (P 1 0 - P 0 0) + (P 1 1 - P 0 1) * (P 1 1 - P 0 1))) * (1 / 2) *
          Simplex.D (P 0 0) (P 0 1) (P 1 0) (P 1 1) (P 2 0) (P 2 1)] := rfl
  refine ⟨_, by rw [prepare_shape (reach_shape h) hP, if_neg hd, ok_bind, hG]; exact congrArg Except.ok (two_eq _ _), ?_⟩
  have hI := inv_area hd'
  rw [area2_eq]
  generalize hD : Simplex.D (P 0 0) (P 0 1) (P 1 0) (P 1 1) (P 2 0) (P 2 1) = D at *
  have hq : ∀ v : T, v * (1 / 2) * D / (D * D) = v * (1 / 2) * (1 / D) := by
    intro v; field_simp
  have h2 : (1 / 2 : T) * 2 = 1 := by norm_num
  refine equidistant_of (fun i => ?_)
  fin_cases i <;>
    simp only [dotProduct, Fin.sum_univ_two, Fin.zero_eta, Fin.mk_one, Fin.reduceFinMk, Pi.sub_apply, hq,
      Matrix.cons_val_zero, Matrix.cons_val_one, Matrix.cons_val, sub_self, mul_zero, add_zero]
  · generalize 1 / D = I at *
    linear_combination ((P 1 0 - P 0 0) ^ 2 + (P 1 1 - P 0 1) ^ 2) * hI
  · generalize 1 / D = I at *
    linear_combination ((P 2 0 - P 0 0) ^ 2 + (P 2 1 - P 0 1) ^ 2) * hI

/-- C48 (when it holds): for a triangle whose first corner is the origin and whose determinant is 1 or -1, `center()` is
equidistant to the corners and `outerRadius()` is the distance to them. -/
theorem C48_center_unit_partial {sqrt : T → T} {s : Simplex T} {P : Fin 3 → Fin 2 → T} (h : Reach s)
    (hP : HasVerts s P) (h0 : P 0 = 0) (hd : area2 P * area2 P = 1) :
    ∃ c : Fin 2 → T, (s.prepare 0 >>= Simplex.center) = .ok [c 0, c 1] ∧ Equidistant P c ∧
      (s.prepare 0 >>= Simplex.outerRadius sqrt) = .ok (sqrt ((c - P 0) ⬝ᵥ (c - P 0))) := by
  have hne : area2 P ≠ 0 := by
    intro h0; rw [h0] at hd; simp at hd
  obtain ⟨c, c1, c2⟩ := C48_center_partial h hP hne
  refine ⟨c, c1, ?_, ?_⟩
  · have : (fun i => P 0 i + c i / (area2 P * area2 P)) = c := by
      funext i; rw [hd, h0]; simp
    rwa [this] at c2
  · rw [prepare_shape (reach_shape h) hP, if_neg hne, ok_bind] at c1 ⊢
    unfold Simplex.outerRadius
    rw [c1]
    change Except.ok (sqrt (0 + (c 0 - P 0 0) * (c 0 - P 0 0) + (c 1 - P 0 1) * (c 1 - P 0 1))) = _
    simp [dotProduct, Fin.sum_univ_two]

/-- C48 (negation): `center()` of the prepared triangle (0,0), (2,0), (0,2) is (16,16), the circumcenter is (1,1). -/
theorem C48_center_wrong : ∃ (s : Simplex ℚ) (P : Fin 3 → Fin 2 → ℚ), Reach s ∧ HasVerts s P ∧ area2 P ≠ 0 ∧
    (s.prepare 0 >>= Simplex.center) = .ok [16, 16] ∧ ¬ Equidistant P ![16, 16] ∧ Equidistant P ![1, 1] := by
  let P : Fin 3 → Fin 2 → ℚ := ![![0, 0], ![2, 0], ![0, 2]]
  obtain ⟨s, -, hs, hb⟩ := ofLists_ok P
  have hd : area2 P ≠ 0 := by rw [area2_eq]; decide +kernel
  refine ⟨s, P, .built hb, hs, hd, ?_, ?_, ?_⟩
  · rw [prepare_shape (built_shape hb).1 hs, if_neg hd, ok_bind]
    decide +kernel
  · intro h
    have := h 0 1
    revert this
    decide +kernel
  · intro i j
    revert i j
    decide +kernel

/-- the two corners of the face opposite to corner `i` -/
def faceA (i : Fin 3) : Fin 3 := if i = 0 then 1 else 0
def faceB (i : Fin 3) : Fin 3 := if i = 2 then 1 else 2

/-- C48: `faceCenter(i)` is the midpoint of the face opposite to corner `i`. -/
theorem C48_faceCenter {s : Simplex T} {P : Fin 3 → Fin 2 → T} (hP : HasVerts s P) (i : Fin 3) :
    s.faceCenter i = .ok [(P (faceA i) 0 + P (faceB i) 0) / 2, (P (faceA i) 1 + P (faceB i) 1) / 2] := by
  obtain ⟨vs, p, m, iv, e⟩ := s
  simp only [HasVerts] at hP
  subst hP
  have : Simplex.faceCenter ⟨[[P 0 0, P 0 1], [P 1 0, P 1 1], [P 2 0, P 2 1]], p, m, iv, e⟩ i =
      .ok [(0 + P (faceA i) 0 + P (faceB i) 0) * (1 / 2), (0 + P (faceA i) 1 + P (faceB i) 1) * (1 / 2)] := by
    fin_cases i <;> rfl
  rw [this]
  congr 1
  refine List.cons_eq_cons.2 ⟨by ring, List.cons_eq_cons.2 ⟨by ring, rfl⟩⟩

/-- C48: `faceNormal(i)` of a non-degenerate triangle has length one, is orthogonal to the face opposite to corner `i`
and points away from that corner (positive product with the vector from the corner to any point of the face). -/
theorem C48_faceNormal {sqrt : T → T} (hs : IsSqrt sqrt) {s : Simplex T} {P : Fin 3 → Fin 2 → T} (hP : HasVerts s P)
    (hd : area2 P ≠ 0) (i : Fin 3) :
    ∃ w : Fin 2 → T, s.faceNormal 0 sqrt i = .ok [w 0, w 1] ∧ w ⬝ᵥ w = 1 ∧ w ⬝ᵥ (P (faceB i) - P (faceA i)) = 0 ∧
      ∀ j, j ≠ i → 0 < w ⬝ᵥ (P j - P i) := by
  have hfc := C48_faceCenter hP i
  obtain ⟨vs, p, m, iv, e⟩ := s
  simp only [HasVerts] at hP
  subst hP
  let d : Fin 2 → T := P (faceB i) - P (faceA i)
  have harr : Normal.IsVecs [[d 0, d 1]] (Matrix.of ![d]) := by
    intro j
    fin_cases j
    exact ⟨[d 0, d 1], rfl, rfl, fun k => by fin_cases k <;> rfl⟩
  -- the scalar product of the normal with an edge at corner `i` decides everything
  have hdot : ∀ (j : Fin 3), j ≠ i → (d 0 * (P j 1 - P i 1) - d 1 * (P j 0 - P i 0)) ^ 2 = area2 P ^ 2 := by
    intro j hj
    rw [area2_eq]
    simp only [d, Pi.sub_apply]
    fin_cases i <;> fin_cases j <;> simp [Simplex.D, faceA, faceB] at hj ⊢ <;> ring
  have hdne : d ≠ 0 := by
    intro h0
    obtain ⟨j, hj⟩ : ∃ j : Fin 3, j ≠ i := by fin_cases i <;> [exact ⟨1, by decide⟩; exact ⟨0, by decide⟩; exact ⟨0, by decide⟩]
    have := hdot j hj
    rw [h0] at this
    simp at this
    exact hd (pow_eq_zero_iff (two_ne_zero) |>.1 this.symm)
  have hli : LinearIndependent T (Matrix.of ![d]).row := by
    rw [Fintype.linearIndependent_iff]
    intro g hg k
    fin_cases k
    simp [Matrix.row] at hg
    rcases hg with hg | hg
    · exact hg
    · exact absurd hg hdne
  obtain ⟨r, w, n1, n2, n3, n4⟩ := C45_normal hs (n := 1) (by omega) harr hli
  change Fin 2 → T at w
  change IsVec r 2 w at n2
  change w ⬝ᵥ w = 1 at n3
  obtain ⟨a, b, rfl⟩ := two_of_length n2.1
  have hw0 : a = w 0 := Except.ok.inj (n2.2 0)
  have hw1 : b = w 1 := Except.ok.inj (n2.2 1)
  subst hw0 hw1
  have horth : w ⬝ᵥ d = 0 := by
    have := n4 0
    rw [dotProduct_comm] at this
    exact this
  -- product with the vector to the face center equals the product with the vector to either face corner
  have hsame : ∀ j, j ≠ i → w ⬝ᵥ (P j - P i) = ((P (faceA i) 0 + P (faceB i) 0) / 2 - P i 0) * w 0 +
      ((P (faceA i) 1 + P (faceB i) 1) / 2 - P i 1) * w 1 := by
    intro j hj
    have ho := horth
    simp only [d, dotProduct, Fin.sum_univ_two, Pi.sub_apply] at ho ⊢
    fin_cases i <;> fin_cases j <;> simp [faceA, faceB] at hj ho ⊢ <;>
      first
        | linear_combination (1 / 2 : T) * ho
        | linear_combination (-1 / 2 : T) * ho
  have hne : ((P (faceA i) 0 + P (faceB i) 0) / 2 - P i 0) * w 0 + ((P (faceA i) 1 + P (faceB i) 1) / 2 - P i 1) * w 1 ≠ 0 := by
    intro h0
    obtain ⟨j, hj⟩ : ∃ j : Fin 3, j ≠ i := by fin_cases i <;> [exact ⟨1, by decide⟩; exact ⟨0, by decide⟩; exact ⟨0, by decide⟩]
    have h1 := hsame j hj
    rw [h0] at h1
    have h2 := hdot j hj
    apply hd
    have h3 := n3
    simp only [dotProduct, Fin.sum_univ_two, Pi.sub_apply] at h1 h3 horth
    have : area2 P ^ 2 = 0 := by
      rw [← h2]
      have hx : d 0 * (P j 1 - P i 1) - d 1 * (P j 0 - P i 0) = 0 := by
        linear_combination (-(d 0 * (P j 1 - P i 1) - d 1 * (P j 0 - P i 0))) * h3 +
          (w 0 * (P j 1 - P i 1) - w 1 * (P j 0 - P i 0)) * horth + (d 0 * w 1 - d 1 * w 0) * h1
      rw [hx]; simp
    exact pow_eq_zero_iff (two_ne_zero) |>.1 this
  have hfn : Simplex.faceNormal 0 sqrt ⟨[[P 0 0, P 0 1], [P 1 0, P 1 1], [P 2 0, P 2 1]], p, m, iv, e⟩ i =
      (Normal.normal 0 sqrt 2 [[d 0, d 1]] >>= fun res => do
        let fc ← Simplex.faceCenter ⟨[[P 0 0, P 0 1], [P 1 0, P 1 1], [P 2 0, P 2 1]], p, m, iv, e⟩ i
        let vi ← getIdx [[P 0 0, P 0 1], [P 1 0, P 1 1], [P 2 0, P 2 1]] i
        let d ← Vec.subAssign fc vi
        let t ← Vec.dot d res
        if t < 0 then Vec.neg res else return res) := by
    fin_cases i <;> rfl
  have hgi : getIdx [[P 0 0, P 0 1], [P 1 0, P 1 1], [P 2 0, P 2 1]] i = .ok [P i 0, P i 1] := by
    fin_cases i <;> rfl
  rw [hfn, n1, ok_bind, hfc, ok_bind, hgi, ok_bind]
  change ∃ w', (if 0 + ((P (faceA i) 0 + P (faceB i) 0) / 2 - P i 0) * w 0 +
    ((P (faceA i) 1 + P (faceB i) 1) / 2 - P i 1) * w 1 < 0 then Vec.neg [w 0, w 1] else pure [w 0, w 1]) = _ ∧ _
  rw [zero_add]
  split
  next hlt =>
    refine ⟨-w, ?_, by simpa using n3, ?_, fun j hj => ?_⟩
    · change Except.ok [w 0 * -1, w 1 * -1] = _
      simp
    · rw [neg_dotProduct]
      exact neg_eq_zero.2 horth
    · rw [neg_dotProduct, hsame j hj]
      exact neg_pos.2 hlt
  next hge =>
    refine ⟨w, rfl, n3, horth, fun j hj => ?_⟩
    rw [hsame j hj]
    exact lt_of_le_of_ne (not_lt.1 hge) (Ne.symm hne)

/-- an out-of-range face number writes outside the array of face corners -/
theorem C48_faceNormal_range {sqrt : T → T} {s : Simplex T} {P : Fin 3 → Fin 2 → T} (hP : HasVerts s P) (i : Nat)
    (hi : 3 ≤ i) : s.faceNormal 0 sqrt i = .error .ub := by
  obtain ⟨vs, p, m, iv, e⟩ := s
  simp only [HasVerts] at hP
  subst hP
  obtain ⟨k, rfl⟩ : ∃ k, i = k + 3 := ⟨i - 3, by omega⟩
  rfl

/-- Non-vacuity of C48: all hypotheses hold for the triangle `exTri` and the real square root. -/
example : ∃ s : Simplex ℝ, Reach s ∧ ∃ P, HasVerts s P ∧ area2 P ≠ 0 ∧ IsSqrt Real.sqrt := by
  obtain ⟨s, -, hs, hb⟩ := ofLists_ok (![![1, 1], ![4, 1], ![2, 3]] : Fin 3 → Fin 2 → ℝ)
  refine ⟨s, .built hb, _, hs, ?_, isSqrt_real⟩
  rw [area2_eq]; simp [Simplex.D]; norm_num

/-- Non-vacuity of `C48_center_unit_partial`. -/
example : ∃ (s : Simplex ℚ) (P : Fin 3 → Fin 2 → ℚ), Reach s ∧ HasVerts s P ∧ P 0 = 0 ∧ area2 P * area2 P = 1 := by
  obtain ⟨s, -, hs, hb⟩ := ofLists_ok (![![0, 0], ![1, 2], ![2, 5]] : Fin 3 → Fin 2 → ℚ)
  refine ⟨s, _, .built hb, hs, by decide +kernel, ?_⟩
  rw [area2_eq]; decide +kernel
end NS.Props.Simplex

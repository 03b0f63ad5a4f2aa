/-
Lemmas about `Math::normal` and `Simplex`.
-/
import Verif.SimplexModel
import Verif.VecIs
import Mathlib.LinearAlgebra.Matrix.Determinant.Basic
import Mathlib.LinearAlgebra.Matrix.NonsingularInverse
import Mathlib.LinearAlgebra.Matrix.Adjugate
import Mathlib.LinearAlgebra.FiniteDimensional.Lemmas

set_option linter.unusedSectionVars false
set_option linter.unusedSimpArgs false

namespace NS
open NS.Props.LU NS.MatOps NS.LawfulMat
variable {T : Type} [Field T] [LinearOrder T] [IsStrictOrderedRing T]

namespace Normal

/-- `vectors` is an array of `n` vectors of dimension `n+1`, the rows of `V`. -/
def IsVecs {n : Nat} (vectors : List (List T)) (V : Matrix (Fin n) (Fin (n + 1)) T) : Prop :=
  ∀ j : Fin n, ∃ vj, vectors[(j : Nat)]? = some vj ∧ IsVec vj (n + 1) (V j)

theorem succAbove_val {n : Nat} (i : Fin (n + 1)) (p : Fin n) :
    ((i.succAbove p : Fin (n + 1)) : Nat) = if (p : Nat) < i then (p : Nat) else p + 1 := by
  by_cases h : (p : Nat) < i
  · rw [if_pos h, Fin.succAbove_of_castSucc_lt _ _ (by rw [Fin.lt_def]; exact h)]; rfl
  · rw [if_neg h, Fin.succAbove_of_le_castSucc _ _ (by rw [Fin.le_def]; simp; omega)]; rfl

theorem subMatrix_ok {n : Nat} (hn : 0 < n) {vectors : List (List T)} {V : Matrix (Fin n) (Fin (n + 1)) T}
    (h : IsVecs vectors V) (i : Fin (n + 1)) :
    ∃ s, subMatrix (n + 1) vectors i = .ok s ∧ IsMat s n (V.submatrix id i.succAbove) := by
  unfold subMatrix
  simp only [Nat.add_sub_cancel]
  obtain ⟨m0, a1, a2, a3, a4, a5⟩ := make_ok (M := Dense T) hn hn
  have a1' : Dense.mk' n n = .ok m0 := a1
  rw [a1', ok_bind]
  have := sat_forRange (E := noErr) (f := fun j (m : Dense T) => do
      let r ← forRange 0 (n + 1) (0, m) fun k (s : Nat × Dense T) =>
        if k = (i : Nat) then return s
        else do
          let vj ← getIdx vectors j
          let x ← vecAt vj k
          let m ← s.2.set j s.1 x
          return (s.1 + 1, m)
      return r.2)
    (fun k (m : Dense T) => Valid m ∧ rows m = n ∧ cols m = n ∧
      ∀ (a b : Fin n), (a : Nat) < k → val m a b = V a (i.succAbove b)) (Nat.zero_le n) (s := m0)
    ⟨a2, a3, a4, fun a b h => absurd h (by omega)⟩ (by
      intro j m _ hj ⟨i1, i2, i3, i4⟩
      obtain ⟨vj, v1, v2⟩ := h ⟨j, hj⟩
      have inner := sat_forRange (E := noErr) (f := fun k (s : Nat × Dense T) =>
          if k = (i : Nat) then return s
          else do
            let vj ← getIdx vectors j
            let x ← vecAt vj k
            let m ← s.2.set j s.1 x
            return (s.1 + 1, m))
        (fun k (s : Nat × Dense T) => s.1 = (if k ≤ (i : Nat) then k else k - 1) ∧ Valid s.2 ∧ rows s.2 = n ∧ cols s.2 = n ∧
          (∀ (a b : Fin n), (a : Nat) < j → val s.2 a b = V a (i.succAbove b)) ∧
          ∀ (b : Fin n), (b : Nat) < s.1 → val s.2 j b = V ⟨j, hj⟩ (i.succAbove b)) (Nat.zero_le (n + 1)) (s := (0, m))
        ⟨by simp, i1, i2, i3, i4, fun b hb => absurd hb (by simp)⟩ (by
          intro k s _ hk ⟨p1, p2, p3, p4, p5, p6⟩
          have hi := i.2
          by_cases hki : k = (i : Nat)
          · rw [if_pos hki]
            refine ⟨?_, p2, p3, p4, p5, p6⟩
            rw [p1, if_pos (by omega), if_neg (by omega)]; omega
          · rw [if_neg hki]
            have hs1 : s.1 < n := by
              rw [p1]; split <;> omega
            rw [getIdx_of_some v1, ok_bind, v2.2 ⟨k, hk⟩, ok_bind]
            obtain ⟨m', b1, b2, b3, b4, b5⟩ := put_ok (M := Dense T) (V ⟨j, hj⟩ ⟨k, hk⟩) p2 (i := j) (j := s.1)
              (by rw [p3]; exact hj) (by rw [p4]; exact hs1)
            have b1' : s.2.set j s.1 (V ⟨j, hj⟩ ⟨k, hk⟩) = .ok m' := b1
            rw [b1', ok_bind]
            refine ⟨?_, b2, by rw [b3, p3], by rw [b4, p4], fun a b ha => ?_, fun b hb => ?_⟩
            · show s.1 + 1 = _
              rw [p1]; split <;> split <;> omega
            · show val m' a b = _
              rw [b5, if_neg (by omega), p5 a b ha]
            · change (b : Nat) < s.1 + 1 at hb
              show val m' j b = _
              rw [b5]
              by_cases hbs : (b : Nat) = s.1
              · rw [if_pos ⟨rfl, hbs⟩]
                congr 1
                apply Fin.ext
                rw [succAbove_val]
                show k = _
                rw [hbs, p1]
                split <;> split <;> omega
              · rw [if_neg (by simp [hbs]), p6 b (by omega)])
      obtain ⟨s, e1, e2, e3, e4, e5, e6, e7⟩ := inner.ok_of
      simp only [pure_eq_ok] at e1
      simp only [pure_eq_ok, e1, ok_bind]
      refine ⟨e3, e4, e5, fun a b ha => ?_⟩
      have hi := i.2
      rcases Nat.lt_succ_iff_lt_or_eq.1 ha with hlt | heq
      · exact e6 a b hlt
      · have : a = ⟨j, hj⟩ := Fin.ext heq
        subst this
        refine e7 b ?_
        rw [e2, if_neg (by omega)]
        have := b.2
        omega)
  obtain ⟨m, e1, e2, e3, e4, e5⟩ := this.ok_of
  refine ⟨m, e1, e2, e3, e4, fun a b => ?_⟩
  rw [get_ok e2 (by rw [e3]; exact a.2) (by rw [e4]; exact b.2), e5 a b a.2]
  rfl

/-- the vector of signed minors -/
def minors {n : Nat} (V : Matrix (Fin n) (Fin (n + 1)) T) (i : Fin (n + 1)) : T :=
  (-1) ^ (i : Nat) * (V.submatrix id i.succAbove).det

theorem normalRaw_ok {n : Nat} (hn : 0 < n) {vectors : List (List T)} {V : Matrix (Fin n) (Fin (n + 1)) T}
    (h : IsVecs vectors V) : ∃ r, normalRaw 0 (n + 1) vectors = .ok r ∧ IsVec r (n + 1) (minors V) := by
  unfold normalRaw
  rw [Vec.fill_ok, ok_bind]
  have := sat_forRange (E := noErr) (f := fun i (res : List T) => do
      let s ← subMatrix (n + 1) vectors i
      let d ← Operations.determinant (LU.doolittleBase (fun x : T => |x|) 0) s
      vecSet res i (if i % 2 ≠ 0 then -d else d))
    (fun k (w : List T) => w.length = n + 1 ∧ ∀ a : Fin (n + 1), (a : Nat) < k → vecAt w a = .ok (minors V a))
    (Nat.zero_le (n + 1)) (s := List.replicate (List.replicate (n + 1) (0 : T)).length 0) ⟨by simp, by simp⟩ (by
      intro k w _ hk ⟨h1, h2⟩
      obtain ⟨s, s1, s2⟩ := subMatrix_ok hn h ⟨k, hk⟩
      have hd := C29_determinant_dense (AbsoluteValue.abs : AbsoluteValue T T) s2
      change Operations.determinant (LU.doolittleBase (fun x : T => |x|) 0) s = _ at hd
      rw [s1, ok_bind, hd, ok_bind, vecSet_ok (by omega)]
      refine ⟨by simp [h1], fun a ha => ?_⟩
      by_cases hak : (a : Nat) = k
      · have : a = ⟨k, hk⟩ := Fin.ext hak
        subst this
        rw [vecAt_ok (by simp; omega)]
        simp only [List.getElem_set_self]
        unfold minors
        simp only
        rcases Nat.even_or_odd k with hev | hod
        · rw [if_neg (by have := Nat.even_iff.1 hev; omega), hev.neg_one_pow, one_mul]
        · rw [if_pos (by have := Nat.odd_iff.1 hod; omega), hod.neg_one_pow, neg_one_mul]
      · have := h2 a (by omega)
        rw [vecAt_ok (by omega)] at this
        rw [vecAt_ok (by simp; omega), ← this]
        congr 1
        rw [List.getElem_set_ne (by omega)])
  obtain ⟨r, e1, e2, e3⟩ := this.ok_of
  exact ⟨r, e1, e2, fun a => e3 a a.2⟩

theorem minors_cons {n : Nat} (V : Matrix (Fin n) (Fin (n + 1)) T) (w : Fin (n + 1) → T) :
    w ⬝ᵥ minors V = (Matrix.of (Fin.cons w V : Fin (n + 1) → Fin (n + 1) → T)).det := by
  rw [Matrix.det_succ_row_zero]
  unfold dotProduct minors
  refine Finset.sum_congr rfl (fun k _ => ?_)
  have : (Matrix.of (Fin.cons w V : Fin (n + 1) → Fin (n + 1) → T)).submatrix Fin.succ k.succAbove =
      V.submatrix id k.succAbove := by
    ext a b; rfl
  rw [this]
  have e : Matrix.of (Fin.cons w V : Fin (n + 1) → Fin (n + 1) → T) 0 k = w k := rfl
  rw [e]
  ring

theorem minors_orth {n : Nat} (V : Matrix (Fin n) (Fin (n + 1)) T) (j : Fin n) : V j ⬝ᵥ minors V = 0 := by
  rw [minors_cons]
  refine Matrix.det_zero_of_row_eq (i := 0) (j := j.succ) (Fin.succ_ne_zero j).symm rfl

theorem minors_ne_zero {n : Nat} (V : Matrix (Fin n) (Fin (n + 1)) T) (h : LinearIndependent T V.row) : minors V ≠ 0 := by
  intro h0
  obtain ⟨w, hw⟩ : ∃ w : Fin (n + 1) → T, w ∉ Submodule.span T (Set.range V.row) := by
    by_contra hc
    push Not at hc
    have htop : Submodule.span T (Set.range V.row) = ⊤ := by
      rw [eq_top_iff]; intro x _; exact hc x
    have := finrank_span_eq_card h
    rw [htop, finrank_top, Module.finrank_fin_fun, Fintype.card_fin] at this
    omega
  have hli : LinearIndependent T (Fin.cons w V.row : Fin (n + 1) → Fin (n + 1) → T) :=
    linearIndependent_finCons.2 ⟨h, hw⟩
  have hdet := minors_cons V w
  rw [h0, dotProduct_zero] at hdet
  have hu : IsUnit (Matrix.of (Fin.cons w V : Fin (n + 1) → Fin (n + 1) → T)) := by
    rw [← Matrix.linearIndependent_rows_iff_isUnit]
    exact hli
  rw [Matrix.isUnit_iff_isUnit_det, ← hdet] at hu
  exact not_isUnit_zero hu
end Normal

namespace Simplex

/-- twice the signed area of the triangle -/
def D (x0 y0 x1 y1 x2 y2 : T) : T := (x1 - x0) * (y2 - y0) - (x2 - x0) * (y1 - y0)

theorem det2 (a b c d : T) :
    Operations.determinant (LU.doolittleBase (fun x : T => |x|) 0) (⟨[a, b, c, d], 2, 2⟩ : Dense T) =
      .ok (a * d - b * c) := by
  have h : IsMat (⟨[a, b, c, d], 2, 2⟩ : Dense T) 2 !![a, b; c, d] := by
    refine ⟨show Dense.WF _ from ⟨rfl, Nat.zero_lt_two, Nat.zero_lt_two⟩, rfl, rfl, fun i j => ?_⟩
    fin_cases i <;> fin_cases j <;> rfl
  have hd := C29_determinant_dense (AbsoluteValue.abs : AbsoluteValue T T) h
  rw [Matrix.det_fin_two_of] at hd
  exact hd

/-- the state after `prepare()` of a non-degenerate triangle -/
def prep (x0 y0 x1 y1 x2 y2 : T) : Simplex T :=
  ⟨[[x0, y0], [x1, y1], [x2, y2]], true, ⟨[x1 - x0, x2 - x0, y1 - y0, y2 - y0], 2, 2⟩,
    ⟨[(y2 - y0) * (1 / D x0 y0 x1 y1 x2 y2), -(x2 - x0) * (1 / D x0 y0 x1 y1 x2 y2),
      -(y1 - y0) * (1 / D x0 y0 x1 y1 x2 y2), (x1 - x0) * (1 / D x0 y0 x1 y1 x2 y2)], 2, 2⟩, D x0 y0 x1 y1 x2 y2⟩

theorem prepare_eval (x0 y0 x1 y1 x2 y2 a b c d a' b' c' d' e : T) (p : Bool) :
    prepare 0 ⟨[[x0, y0], [x1, y1], [x2, y2]], p, ⟨[a, b, c, d], 2, 2⟩, ⟨[a', b', c', d'], 2, 2⟩, e⟩ =
      if D x0 y0 x1 y1 x2 y2 = 0 then .error .nonfinite else .ok (prep x0 y0 x1 y1 x2 y2) := by
  have e1 : (forRange 1 3 (⟨[a, b, c, d], 2, 2⟩ : Dense T) fun i m => do
      let vi ← getIdx [[x0, y0], [x1, y1], [x2, y2]] i
      let v0 ← getIdx [[x0, y0], [x1, y1], [x2, y2]] 0
      let dist ← Vec.subAssign vi v0
      forRange 0 2 m fun j m => do
        let x ← vecAt dist j
        m.set j (i - 1) x) = .ok ⟨[x1 - x0, x2 - x0, y1 - y0, y2 - y0], 2, 2⟩ := rfl
  unfold prepare
  rw [e1, ok_bind, det2, ok_bind]
  change (fdiv 1 (D x0 y0 x1 y1 x2 y2) >>= _) = _
  unfold fdiv
  split
  · rfl
  · rfl
end Simplex
end NS

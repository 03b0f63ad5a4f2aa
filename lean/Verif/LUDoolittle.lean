/-
Correctness of `LU::serial::doolittle` (`/repo/src/lib/LU.inl:49-216`) and `Operations::determinant`.
-/
import Verif.LUModel
import Mathlib.LinearAlgebra.Matrix.Determinant.Basic
import Mathlib.LinearAlgebra.Matrix.Block
import Mathlib.GroupTheory.Perm.Sign
import Mathlib.Tactic.Ring
import Mathlib.Algebra.Order.Field.Basic
import Mathlib.Tactic.Abel
import Mathlib.Tactic.FieldSimp
import Mathlib.Tactic.Linarith

set_option linter.unusedSectionVars false
set_option linter.unusedSimpArgs false

namespace NS
open MatOps LawfulMat

section
variable {M T : Type} [Zero T] [MatOps M T] [LawfulStore M T]

/-- `m` satisfies its representation invariant and is `n x n`. -/
structure Sq (n : Nat) (m : M) : Prop where
  valid : Valid m
  hr : rows m = n
  hc : cols m = n

namespace Sq
variable {n : Nat} {m : M}

theorem pos (h : Sq n m) : 0 < n := h.hr ▸ rows_pos h.valid

theorem get (h : Sq n m) {i j : Nat} (hi : i < n) (hj : j < n) : MatOps.get m i j = .ok (val m i j) :=
  get_ok h.valid (h.hr ▸ hi) (h.hc ▸ hj)

theorem put (h : Sq n m) {i j : Nat} (v : T) (hi : i < n) (hj : j < n) :
    ∃ m', MatOps.put m i j v = .ok m' ∧ Sq n m' ∧
      ∀ a b, val m' a b = if a = i ∧ b = j then v else val m a b := by
  obtain ⟨m', h1, h2, h3, h4, h5⟩ := put_ok v h.valid (i := i) (j := j) (h.hr ▸ hi) (h.hc ▸ hj)
  exact ⟨m', h1, ⟨h2, h3.trans h.hr, h4.trans h.hc⟩, h5⟩

theorem zero (h : Sq n m) {i j : Nat} (hij : ¬ (i < n ∧ j < n)) : val m i j = 0 :=
  val_zero h.valid (by rw [h.hr, h.hc]; exact hij)

end Sq

theorem make_sq (M : Type) [MatOps M T] [LawfulStore M T] {n : Nat} (h : 0 < n) :
    ∃ m : M, make n n = .ok m ∧ Sq n m ∧ ∀ i j, val m i j = 0 := by
  obtain ⟨m, h1, h2, h3, h4, h5⟩ := make_ok (M := M) h h
  exact ⟨m, h1, ⟨h2, h3, h4⟩, h5⟩

/-- The mathematical `n x n` matrix shown by `m`. -/
def toMat (n : Nat) (m : M) : Matrix (Fin n) (Fin n) T := fun i j => val m i j

end

namespace LU
section weak
variable {M T V : Type} [Zero T] [One T] [Sub T] [Mul T] [Div T] [MatOps M T] [LawfulStore M T]
variable {n : Nat}

theorem swapSeg_ok {X : M} (hX : Sq n X) {k i a b : Nat} (hk : k < n) (hi : i < n) (hki : i ≠ k)
    (hab : a ≤ b) (hb : b ≤ n) :
    ∃ X', swapSeg X k i a b = .ok X' ∧ Sq n X' ∧ ∀ r c, val X' r c =
      if a ≤ c ∧ c < b then (if r = k then val X i c else if r = i then val X k c else val X r c)
      else val X r c := by
  unfold swapSeg
  apply Sat.ok_of
  refine sat_forRange (fun j X' => Sq n X' ∧ ∀ r c, val X' r c =
      if a ≤ c ∧ c < j then (if r = k then val X i c else if r = i then val X k c else val X r c)
      else val X r c) hab ?_ ?_
  · refine ⟨hX, fun r c => ?_⟩
    rw [if_neg (by omega)]
  · rintro j Y h1 h2 ⟨hY, hv⟩
    obtain ⟨Y1, p1, s1, v1⟩ := hY.put (val Y i j) (i := k) (j := j) hk (by omega)
    obtain ⟨Y2, p2, s2, v2⟩ := s1.put (val Y k j) (i := i) (j := j) hi (by omega)
    simp only [hY.get hk (show j < n by omega), hY.get hi (show j < n by omega), ok_bind, p1, p2, Sat_ok]
    refine ⟨s2, fun r c => ?_⟩
    rw [v2, v1]
    simp only [hv]
    have e1 : ¬ (a ≤ j ∧ j < j) := by omega
    simp only [if_neg e1]
    by_cases hcj : c = j
    · subst hcj
      rw [if_pos (show a ≤ c ∧ c < c + 1 by omega)]
      by_cases hri : r = i
      · subst hri; simp [hki]
      · by_cases hrk : r = k
        · subst hrk; simp [hri]
        · simp [hri, hrk]
    · have : (a ≤ c ∧ c < j + 1) ↔ (a ≤ c ∧ c < j) := by omega
      simp only [hcj, and_false, if_false, this]

theorem findPivot_ok [LinearOrder V] (absv : T → V) {U : M} (hU : Sq n U) {k : Nat} (hk : k < n) :
    ∃ im, findPivot absv U k n = .ok im ∧ k ≤ im.1 ∧ im.1 < n ∧
      ∀ j, k ≤ j → j < n → absv (val U j k) ≤ absv (val U im.1 k) := by
  unfold findPivot
  rw [hU.get hk hk]
  simp only [ok_bind]
  apply Sat.ok_of
  refine (sat_forRange (fun t im => k ≤ im.1 ∧ im.1 < n ∧ im.2 = absv (val U im.1 k) ∧
      ∀ j, k ≤ j → j < t → absv (val U j k) ≤ im.2) (show k + 1 ≤ n by omega) ?_ ?_).mono ?_ (fun _ h => h)
  · refine ⟨le_refl _, hk, rfl, fun j h1 h2 => ?_⟩
    have : j = k := by omega
    subst this; exact le_refl _
  · rintro j ⟨i, m⟩ h1 h2 ⟨a1, a2, a3, a4⟩
    rw [hU.get (show j < n by omega) hk]
    simp only [ok_bind] at *
    split
    · rename_i hge
      refine ⟨show k ≤ j by omega, show j < n by omega, rfl, fun t b1 b2 => ?_⟩
      by_cases htj : t = j
      · subst htj; exact le_refl _
      · exact le_trans (a4 t b1 (by omega)) hge
    · rename_i hlt
      refine ⟨a1, a2, a3, fun t b1 b2 => ?_⟩
      by_cases htj : t = j
      · subst htj; exact le_of_lt (not_le.1 hlt)
      · exact a4 t b1 (by omega)
  · rintro ⟨i, m⟩ ⟨a1, a2, a3, a4⟩
    refine ⟨a1, a2, fun j h1 h2 => ?_⟩
    simp only at a3
    rw [← a3]; exact a4 j h1 h2

theorem eliminate_ok {U L : M} (hU : Sq n U) (hL : Sq n L) {k : Nat} (hk : k < n) :
    ∃ UL : M × M, eliminate U L k n = .ok UL ∧ Sq n UL.1 ∧ Sq n UL.2 ∧
      (∀ r c, val UL.1 r c = if k < r ∧ r < n ∧ k ≤ c ∧ c < n then
          val U r c - (val U r k * (1 / val U k k)) * val U k c else val U r c) ∧
      (∀ r c, val UL.2 r c = if k < r ∧ r < n ∧ c = k then val U r k * (1 / val U k k) else val L r c) := by
  unfold eliminate
  rw [hU.get hk hk]
  simp only [ok_bind]
  generalize hinv : (1 / val U k k) = inv
  apply Sat.ok_of
  refine sat_forRange (fun j (UL : M × M) => Sq n UL.1 ∧ Sq n UL.2 ∧
      (∀ r c, val UL.1 r c = if k < r ∧ r < j ∧ k ≤ c ∧ c < n then
          val U r c - (val U r k * inv) * val U k c else val U r c) ∧
      (∀ r c, val UL.2 r c = if k < r ∧ r < j ∧ c = k then val U r k * inv else val L r c))
      (show k + 1 ≤ n by omega) ?_ ?_
  · refine ⟨hU, hL, fun r c => ?_, fun r c => ?_⟩
    · rw [if_neg (by omega)]
    · rw [if_neg (by omega)]
  · rintro j ⟨Y, Z⟩ h1 h2 ⟨hY, hZ, vY, vZ⟩
    simp only at hY hZ vY vZ
    obtain ⟨Z1, p1, s1, v1⟩ := hZ.put (val Y j k * inv) (i := j) (j := k) h2 hk
    have e1 : val Y j k = val U j k := by rw [vY, if_neg (by omega)]
    simp only [hY.get h2 hk, ok_bind, p1]
    refine Sat.bind (P := fun Y' => Sq n Y' ∧ ∀ r c, val Y' r c = if r = j ∧ k ≤ c ∧ c < n then
        val U r c - (val U r k * inv) * val U k c else val Y r c) ?_ ?_
    · refine sat_forRange (fun t Y' => Sq n Y' ∧ ∀ r c, val Y' r c = if r = j ∧ k ≤ c ∧ c < t then
        val U r c - (val U r k * inv) * val U k c else val Y r c) (show k ≤ n by omega) ?_ ?_
      · exact ⟨hY, fun r c => by rw [if_neg (by omega)]⟩
      · rintro t Y' t1 t2 ⟨hY', vY'⟩
        obtain ⟨W, q1, q2, q3⟩ := hY'.put (val Y' j t - val Z1 j k * val Y' k t) (i := j) (j := t) h2 t2
        simp only [hY'.get h2 t2, s1.get h2 hk, hY'.get hk t2, ok_bind, q1, Sat_ok]
        refine ⟨q2, fun r c => ?_⟩
        rw [q3]
        by_cases hrc : r = j ∧ c = t
        · obtain ⟨rfl, rfl⟩ := hrc
          rw [if_pos ⟨rfl, rfl⟩, if_pos (by omega), vY', if_neg (by omega), vY, if_neg (by omega), v1,
            if_pos ⟨rfl, rfl⟩, vY', if_neg (by omega), e1, vY k c, if_neg (by omega)]
        · rw [if_neg hrc, vY']
          have : (r = j ∧ k ≤ c ∧ c < t + 1) ↔ (r = j ∧ k ≤ c ∧ c < t) := by
            constructor
            · rintro ⟨a, b, c'⟩; exact ⟨a, b, by by_contra hh; exact hrc ⟨a, by omega⟩⟩
            · rintro ⟨a, b, c'⟩; exact ⟨a, b, by omega⟩
          simp only [this]
    · rintro Y' ⟨hY', vY'⟩
      simp only [pure_eq_ok, Sat_ok]
      refine ⟨hY', s1, fun r c => ?_, fun r c => ?_⟩
      · rw [vY', vY]
        by_cases hrj : r = j
        · subst hrj
          by_cases hc : k ≤ c ∧ c < n
          · rw [if_pos ⟨rfl, hc⟩, if_pos ⟨by omega, by omega, hc⟩]
          · rw [if_neg (by tauto), if_neg (by tauto), if_neg (by tauto)]
        · rw [if_neg (by tauto)]
          have : (k < r ∧ r < j + 1 ∧ k ≤ c ∧ c < n) ↔ (k < r ∧ r < j ∧ k ≤ c ∧ c < n) := by omega
          simp only [this]
      · rw [v1, vZ, e1]
        by_cases hrj : r = j ∧ c = k
        · obtain ⟨rfl, rfl⟩ := hrj
          rw [if_pos ⟨rfl, rfl⟩, if_pos (by omega)]
        · rw [if_neg hrj]
          have : (k < r ∧ r < j + 1 ∧ c = k) ↔ (k < r ∧ r < j ∧ c = k) := by omega
          simp only [this]

theorem setup_ok {L : M} (hL : Sq n L) (hz : ∀ i j, val L i j = 0) :
    ∃ Lr : M × List Nat, setup L n = .ok Lr ∧ Sq n Lr.1 ∧
      (∀ i j, val Lr.1 i j = if i = j ∧ i < n then 1 else 0) ∧ Lr.2.length = n ∧ ∀ i, i < n → Lr.2.getD i 0 = i := by
  unfold setup
  apply Sat.ok_of
  refine sat_forRange (fun k (Lr : M × List Nat) => Sq n Lr.1 ∧
      (∀ i j, val Lr.1 i j = if i = j ∧ i < k then 1 else 0) ∧ Lr.2.length = n ∧ ∀ i, i < k → Lr.2.getD i 0 = i)
      (Nat.zero_le _) ?_ ?_
  · exact ⟨hL, fun i j => by simp [hz], by simp, fun i hi => by omega⟩
  · rintro k ⟨Y, rt⟩ _ hk ⟨hY, vY, hl, hr⟩
    obtain ⟨Y', p1, p2, p3⟩ := hY.put (1 : T) (i := k) (j := k) hk hk
    simp only at hl hr vY
    simp only [p1, ok_bind, setIdx_eq k (hl ▸ hk : k < rt.length), pure_eq_ok, Sat_ok]
    refine ⟨p2, fun i j => ?_, by simpa using hl, fun i hi => ?_⟩
    · rw [p3, vY]
      by_cases hik : i = k ∧ j = k
      · rw [if_pos hik, if_pos (by omega)]
      · rw [if_neg hik]
        have : (i = j ∧ i < k + 1) ↔ (i = j ∧ i < k) := by omega
        simp only [this]
    · simp only [List.getD_eq_getElem?_getD, List.getElem?_set]
      by_cases hik : k = i
      · subst hik; simp [hl, hk]
      · rw [if_neg hik, ← List.getD_eq_getElem?_getD]; exact hr i (by omega)

theorem buildP_ok {P : M} (hP : Sq n P) (hz : ∀ i j, val P i j = 0) {rt : List Nat} (hl : rt.length = n)
    (hr : ∀ i, i < n → rt.getD i 0 < n) :
    ∃ P', buildP P rt n = .ok P' ∧ Sq n P' ∧ ∀ i j, val P' i j = if i < n ∧ j = rt.getD i 0 then 1 else 0 := by
  unfold buildP
  apply Sat.ok_of
  refine sat_forRange (fun k P' => Sq n P' ∧ ∀ i j, val P' i j = if i < k ∧ j = rt.getD i 0 then 1 else 0)
    (Nat.zero_le _) ⟨hP, fun i j => by simp [hz]⟩ ?_
  rintro k Y _ hk ⟨hY, vY⟩
  have hkl : k < rt.length := hl ▸ hk
  have hg : rt[k] = rt.getD k 0 := by simp [List.getD_eq_getElem?_getD, hkl]
  obtain ⟨Y', p1, p2, p3⟩ := hY.put (1 : T) (i := k) (j := rt.getD k 0) hk (hr k hk)
  simp only [getIdx_eq hkl, ok_bind, hg, p1, Sat_ok]
  refine ⟨p2, fun i j => ?_⟩
  rw [p3, vY]
  by_cases hik : i = k
  · subst hik; simp
  · have : (i < k + 1 ∧ j = rt.getD i 0) ↔ (i < k ∧ j = rt.getD i 0) := by omega
    simp only [hik, false_and, if_false, this]

end weak

variable {M T V : Type} [Field T] [DecidableEq T] [MatOps M T] [LawfulMat M T]
variable {n : Nat}

theorem swapIdx_ok {l : List Nat} {i k : Nat} (hi : i < l.length) (hk : k < l.length) (hik : i ≠ k) :
    ∃ l', swapIdx l i k = .ok l' ∧ l'.length = l.length ∧
      ∀ a, l'.getD a 0 = if a = k then l.getD i 0 else if a = i then l.getD k 0 else l.getD a 0 := by
  unfold swapIdx
  rw [getIdx_eq hi, getIdx_eq hk]
  simp only [ok_bind]
  rw [setIdx_eq _ hi]
  simp only [ok_bind]
  rw [setIdx_eq _ (by simpa using hk)]
  refine ⟨_, rfl, by simp, fun a => ?_⟩
  simp only [List.getD_eq_getElem?_getD, List.getElem?_set, List.length_set]
  by_cases hak : a = k
  · subst hak; simp [hk, List.getElem?_eq_getElem hi]
  · by_cases hai : a = i
    · subst hai; simp [hi, hak, List.getElem?_eq_getElem hk, Ne.symm hak]
    · simp [hak, hai, Ne.symm hak, Ne.symm hai]

/-- Loop invariant of `doolittle` after `k` columns. -/
structure DInv (absv : T → V) [LinearOrder V] [One V] (A : M) (n k : Nat) (s : St M) : Prop where
  sqU : Sq n s.U
  sqL : Sq n s.L
  lU : ∀ a j, j < k → j < a → val s.U a j = 0
  lL : ∀ a t, k ≤ t → t < n → val s.L a t = if a = t then 1 else 0
  uL : ∀ a t, a ≤ t → t < n → val s.L a t = if a = t then 1 else 0
  bd : ∀ a t, absv (val s.L a t) ≤ 1
  rtl : s.rt.length = n
  perm : ∃ σ : Equiv.Perm (Fin n), (∀ i : Fin n, s.rt.getD i 0 = (σ i : Nat)) ∧
    (Equiv.Perm.sign σ : ℤ) = (-1) ^ s.pc ∧
    toMat n s.L * toMat n s.U = (toMat n A).submatrix σ id

/-- swapping in function form -/
def sw (k i r : Nat) : Nat := if r = k then i else if r = i then k else r

theorem sw_fin {k i : Nat} (hk : k < n) (hi : i < n) (r : Fin n) :
    ((Equiv.swap (⟨k, hk⟩ : Fin n) ⟨i, hi⟩) r : Nat) = sw k i r := by
  unfold sw
  rw [Equiv.swap_apply_def]
  simp only [Fin.ext_iff]
  split
  · rfl
  · split <;> rfl

variable [Field V] [LinearOrder V] [IsStrictOrderedRing V]

theorem reorder_inv (absv : AbsoluteValue T V) {A : M} {k i : Nat} {s : St M} (h : DInv absv A n k s) (hki : k ≤ i) (hi : i < n) :
    ∃ s', reorder s k i n = .ok s' ∧ DInv absv A n k s' ∧
      ∀ r c, k ≤ c → val s'.U r c = val s.U (sw k i r) c := by
  by_cases hik : i = k
  · subst hik
    refine ⟨s, by simp [reorder], h, fun r c _ => ?_⟩
    unfold sw; split
    · subst_vars; rfl
    · rfl
  have hk : k < n := by omega
  obtain ⟨U', u1, u2, u3⟩ := swapSeg_ok h.sqU (k := k) (i := i) (a := k) (b := n) hk hi hik (by omega) (le_refl _)
  obtain ⟨L', l1, l2, l3⟩ := swapSeg_ok h.sqL (k := k) (i := i) (a := 0) (b := k) hk hi hik (by omega) (by omega)
  obtain ⟨rt', r1, r2, r3⟩ := swapIdx_ok (l := s.rt) (i := i) (k := k) (h.rtl ▸ hi) (h.rtl ▸ hk) hik
  refine ⟨⟨U', L', rt', s.pc + 1⟩, by simp [reorder, hik, u1, l1, r1], ?_, ?_⟩
  · -- values of U' and L' on the whole matrix
    have hU : ∀ r c, r < n → c < n → val U' r c = val s.U (sw k i r) c := by
      intro r c hr hc
      rw [u3]; unfold sw
      by_cases hck : k ≤ c
      · rw [if_pos ⟨hck, hc⟩]
        split <;> [rfl; split <;> rfl]
      · rw [if_neg (by omega)]
        split
        · rename_i hrk; subst hrk
          rw [h.lU _ _ (by omega) (by omega), h.lU _ _ (by omega) (by omega)]
        · split
          · rename_i hri; subst hri
            rw [h.lU _ _ (by omega) (by omega), h.lU _ _ (by omega) (by omega)]
          · rfl
    have hL : ∀ r c, r < n → c < n → val L' r c = val s.L (sw k i r) (sw k i c) := by
      intro r c hr hc
      rw [l3]
      by_cases hck : c < k
      · have : sw k i c = c := by unfold sw; rw [if_neg (by omega), if_neg (by omega)]
        rw [this, if_pos ⟨by omega, hck⟩]; unfold sw
        split <;> [rfl; split <;> rfl]
      · rw [if_neg (by omega), h.lL _ _ (by omega) hc]
        have h2 : k ≤ sw k i c := by unfold sw; split <;> [omega; split <;> omega]
        have h3 : sw k i c < n := by unfold sw; split <;> [omega; split <;> omega]
        rw [h.lL _ _ h2 h3]
        have : (sw k i r = sw k i c) ↔ r = c := by
          unfold sw
          split <;> split <;> (try split) <;> (try split) <;> omega
        simp only [this]
    have hLlt : ∀ r c, c < k → val L' r c = val s.L (sw k i r) c := by
      intro r c hc
      rw [l3, if_pos ⟨by omega, hc⟩]; unfold sw
      split <;> [rfl; split <;> rfl]
    have hLge : ∀ r c, k ≤ c → val L' r c = val s.L r c := by
      intro r c hc
      rw [l3, if_neg (by omega)]
    refine ⟨u2, l2, ?_, ?_, ?_, ?_, r2.trans h.rtl, ?_⟩
    · intro a j hj ha
      have hj' : ¬ (k ≤ j ∧ j < n) := by omega
      show val U' a j = 0
      rw [u3, if_neg hj']; exact h.lU _ _ hj ha
    · intro a t ht htn
      show val L' a t = _
      rw [hLge _ _ ht]; exact h.lL _ _ ht htn
    · intro a t hat htn
      show val L' a t = _
      by_cases hk' : k ≤ t
      · rw [hLge _ _ hk']; exact h.lL _ _ hk' htn
      · rw [hLlt _ _ (by omega)]
        have : sw k i a = a := by unfold sw; rw [if_neg (by omega), if_neg (by omega)]
        rw [this]; exact h.uL _ _ hat htn
    · intro a t
      show absv (val L' a t) ≤ 1
      by_cases hk' : k ≤ t
      · rw [hLge _ _ hk']; exact h.bd _ _
      · rw [hLlt _ _ (by omega)]; exact h.bd _ _
    · obtain ⟨σ, hσ, hs, hm⟩ := h.perm
      let π : Equiv.Perm (Fin n) := Equiv.swap ⟨k, hk⟩ ⟨i, hi⟩
      refine ⟨σ * π, ?_, ?_, ?_⟩
      · intro j
        show rt'.getD j 0 = _
        have e2 : ((σ * π) j : Nat) = (σ (π j) : Nat) := rfl
        rw [r3, e2, ← hσ (π j), sw_fin hk hi]
        unfold sw
        split <;> [rfl; split <;> rfl]
      · have : Equiv.Perm.sign π = -1 := Equiv.Perm.sign_swap (by simp [Fin.ext_iff]; omega)
        rw [map_mul, this]
        simp only [Units.val_mul, hs, pow_succ]
        simp
      · have e1 : toMat n U' = (toMat n s.U).submatrix π id := by
          ext a b
          show val U' a b = val s.U (π a) b
          rw [hU _ _ a.2 b.2, sw_fin hk hi]
        have e2 : toMat n L' = (toMat n s.L).submatrix π π := by
          ext a b
          show val L' a b = val s.L (π a) (π b)
          rw [hL _ _ a.2 b.2, sw_fin hk hi, sw_fin hk hi]
        show toMat n L' * toMat n U' = _
        rw [e1, e2, Matrix.submatrix_mul_equiv, hm]
        rfl
  · intro r c hc
    show val U' r c = _
    by_cases hcn : c < n
    · rw [u3, if_pos ⟨hc, hcn⟩]; unfold sw
      split <;> [rfl; split <;> rfl]
    · rw [u2.zero (by omega), h.sqU.zero (by omega)]

theorem elim_inv (absv : AbsoluteValue T V) {A : M} {k : Nat} {s : St M} (h : DInv absv A n k s) (hk : k < n)
    (hp : val s.U k k ≠ 0) (hmax : ∀ j, k ≤ j → j < n → absv (val s.U j k) ≤ absv (val s.U k k)) :
    ∃ UL : M × M, eliminate s.U s.L k n = .ok UL ∧ DInv absv A n (k + 1) { s with U := UL.1, L := UL.2 } := by
  obtain ⟨⟨U', L'⟩, e0, sU, sL, vU, vL⟩ := eliminate_ok h.sqU h.sqL hk
  refine ⟨(U', L'), e0, ?_⟩
  simp only at sU sL vU vL
  refine ⟨sU, sL, ?_, ?_, ?_, ?_, h.rtl, ?_⟩
  · intro a j hj ha
    show val U' a j = 0
    by_cases han : a < n
    · by_cases hjk : j = k
      · subst hjk
        rw [vU, if_pos ⟨by omega, han, le_refl _, hk⟩]
        field_simp; ring
      · rw [vU, if_neg (by omega)]; exact h.lU _ _ (by omega) ha
    · exact sU.zero (by omega)
  · intro a t ht htn
    show val L' a t = _
    rw [vL, if_neg (by omega)]; exact h.lL _ _ (by omega) htn
  · intro a t hat htn
    show val L' a t = _
    rw [vL, if_neg (by omega)]; exact h.uL _ _ hat htn
  · intro a t
    show absv (val L' a t) ≤ 1
    rw [vL]
    split
    · rename_i hc
      rw [map_mul, map_div₀, map_one, mul_one_div]
      have hpos : 0 < absv (val s.U k k) := absv.pos hp
      rw [div_le_one hpos]
      exact hmax _ (by omega) hc.2.1
    · exact h.bd _ _
  · obtain ⟨σ, hσ, hs, hm⟩ := h.perm
    refine ⟨σ, hσ, hs, ?_⟩
    rw [← hm]
    show toMat n L' * toMat n U' = toMat n s.L * toMat n s.U
    let C : Matrix (Fin n) (Fin n) T := fun a b =>
      if k < (a : Nat) ∧ (b : Nat) = k then val s.U a k * (1 / val s.U k k) else 0
    have eL : toMat n L' = toMat n s.L + C := by
      ext a b
      show val L' a b = val s.L a b + C a b
      rw [vL]
      show _ = _ + if _ then _ else _
      by_cases hc : k < (a : Nat) ∧ (b : Nat) = k
      · rw [if_pos ⟨hc.1, a.2, hc.2⟩, if_pos hc, h.lL _ _ (by omega) b.2, if_neg (by omega), zero_add]
      · rw [if_neg (by tauto), if_neg hc, add_zero]
    have eU : toMat n U' = toMat n s.U - C * toMat n s.U := by
      ext a b
      show val U' a b = val s.U a b - (C * toMat n s.U) a b
      have : (C * toMat n s.U) a b = if k < (a : Nat) then val s.U a k * (1 / val s.U k k) * val s.U k b else 0 := by
        rw [Matrix.mul_apply, Finset.sum_eq_single (⟨k, hk⟩ : Fin n)]
        · show (if _ then _ else _) * val s.U k b = _
          simp only [and_true]
          split <;> simp
        · intro t _ ht
          have : ¬ (k < (a : Nat) ∧ (t : Nat) = k) := fun hh => ht (Fin.ext hh.2)
          show (if _ then _ else _) * _ = _
          rw [if_neg this, zero_mul]
        · simp
      rw [this, vU]
      by_cases ha : k < (a : Nat)
      · rw [if_pos ha]
        by_cases hb : k ≤ (b : Nat)
        · rw [if_pos ⟨ha, a.2, hb, b.2⟩]
        · rw [if_neg (by tauto), h.lU k b (by omega) (by omega)]; ring
      · rw [if_neg ha, if_neg (by tauto), sub_zero]
    have eLC : toMat n s.L * C = C := by
      ext a b
      rw [Matrix.mul_apply, Finset.sum_eq_single a]
      · show val s.L a a * C a b = _
        rw [h.uL a a (le_refl _) a.2, if_pos rfl, one_mul]
      · intro t _ ht
        show val s.L a t * (if _ then _ else _) = 0
        split
        · rename_i hc
          rw [h.lL _ _ (by omega) t.2, if_neg (fun hh => ht (Fin.ext hh.symm)), zero_mul]
        · rw [mul_zero]
      · simp
    have eCC : C * C = 0 := by
      ext a b
      rw [Matrix.mul_apply]
      apply Finset.sum_eq_zero
      intro t _
      show (if _ then _ else _) * (if _ then _ else _) = (0 : T)
      by_cases h1 : k < (a : Nat) ∧ (t : Nat) = k
      · rw [if_neg (c := k < (t : Nat) ∧ (b : Nat) = k) (by omega), mul_zero]
      · rw [if_neg h1, zero_mul]
    rw [eL, eU, add_mul, mul_sub, mul_sub, ← mul_assoc, eLC, ← mul_assoc, eCC, zero_mul, sub_zero]
    abel

/-- What a successful factorisation gives. -/
structure Fact (absv : AbsoluteValue T V) (n : Nat) (A L U P : M) (pc : Nat) (σ : Equiv.Perm (Fin n)) : Prop where
  sqL : Sq n L
  sqU : Sq n U
  sqP : Sq n P
  prod : toMat n L * toMat n U = (toMat n A).submatrix σ id
  lower : ∀ i j, i ≤ j → j < n → val L i j = if i = j then 1 else 0
  upper : ∀ i j, j < i → val U i j = 0
  bound : ∀ i j, absv (val L i j) ≤ 1
  pval : ∀ i j : Fin n, val P i j = if j = σ i then 1 else 0
  sgn : (Equiv.Perm.sign σ : ℤ) = (-1) ^ pc

theorem det_lower {L : M} (hL : ∀ i j, i ≤ j → j < n → val L i j = if i = j then 1 else 0) :
    (toMat n L).det = 1 := by
  have h : (toMat n L).BlockTriangular OrderDual.toDual := by
    intro i j hij
    have : (i : Nat) < j := hij
    show val L i j = 0
    rw [hL _ _ (by omega) j.2, if_neg (by omega)]
  rw [Matrix.det_of_isLowerTriangular _ h]
  apply Finset.prod_eq_one
  intro i _
  show val L i i = 1
  rw [hL _ _ (le_refl _) i.2, if_pos rfl]

theorem det_upper {U : M} (hU : ∀ i j, j < i → val U i j = 0) :
    (toMat n U).det = ∏ i : Fin n, val U i i := by
  have h : (toMat n U).BlockTriangular id := fun i j hij => hU _ _ hij
  rw [Matrix.det_of_isUpperTriangular h]
  rfl

/-- If at column `k` all candidates are zero then `A` is singular. -/
theorem det_zero_of_stuck (absv : AbsoluteValue T V) {A : M} {k : Nat} {s : St M} (h : DInv absv A n k s) (hk : k < n)
    (hz : ∀ j, k ≤ j → j < n → val s.U j k = 0) : (toMat n A).det = 0 := by
  obtain ⟨σ, -, -, hm⟩ := h.perm
  have h1 : (toMat n s.U).det = 0 := by
    rw [Matrix.twoBlockTriangular_det (toMat n s.U) (fun i => (i : Nat) < k)]
    · have : (Matrix.toSquareBlockProp (toMat n s.U) fun i : Fin n => ¬ (i : Nat) < k).det = 0 := by
        apply Matrix.det_eq_zero_of_column_eq_zero (⟨⟨k, hk⟩, by simp⟩ : {a : Fin n // ¬ (a : Nat) < k})
        rintro ⟨i, hi⟩
        show val s.U i k = 0
        exact hz i (by omega) i.2
      rw [this, mul_zero]
    · intro i hi j hj
      exact h.lU _ _ hj (by omega)
  have h2 : (toMat n s.L).det = 1 := det_lower h.uL
  have h3 := congrArg Matrix.det hm
  rw [Matrix.det_mul, h1, h2, Matrix.det_permute, one_mul] at h3
  rcases Int.units_eq_one_or (Equiv.Perm.sign σ) with hs | hs
  · rw [hs] at h3; simpa using h3.symm
  · rw [hs] at h3
    have h3 : (0 : T) = - (toMat n A).det := by simpa using h3
    exact neg_eq_zero.1 h3.symm

theorem step_ok (absv : AbsoluteValue T V) {eps : V} (heps : 0 ≤ eps) {A : M} {k : Nat} {s : St M}
    (h : DInv absv A n k s) (hk : k < n) :
    Sat (step absv eps n k s) (DInv absv A n (k + 1))
      (fun e => e = .exc .singular ∧ (eps = 0 → (toMat n A).det = 0)) := by
  unfold step
  obtain ⟨⟨i, m⟩, f1, f2, f3, f4⟩ := findPivot_ok (n := n) absv h.sqU hk
  simp only at f2 f3 f4
  obtain ⟨s', r1, r2, r3⟩ := reorder_inv absv h f2 f3
  have hsw : sw k i k = i := by unfold sw; rw [if_pos rfl]
  have hpk : val s'.U k k = val s.U i k := by rw [r3 _ _ (le_refl _), hsw]
  have hmax : ∀ j, k ≤ j → j < n → absv (val s'.U j k) ≤ absv (val s'.U k k) := by
    intro j h1 h2
    rw [hpk, r3 _ _ (le_refl _)]
    apply f4
    · unfold sw; split <;> [omega; split <;> omega]
    · unfold sw; split <;> [omega; split <;> omega]
  simp only [f1, r1, ok_bind, r2.sqU.get hk hk]
  by_cases hle : absv (val s'.U k k) ≤ eps
  · rw [throwIf_true _ hle]
    refine ⟨rfl, fun he => ?_⟩
    subst he
    refine det_zero_of_stuck absv r2 hk (fun j h1 h2 => ?_)
    have := le_trans (hmax j h1 h2) hle
    exact absv.eq_zero.1 (le_antisymm this (absv.nonneg _))
  · rw [throwIf_false _ hle]
    have hne : val s'.U k k ≠ 0 := by
      intro h0; rw [h0, map_zero] at hle; exact hle heps
    obtain ⟨UL, e1, e2⟩ := elim_inv absv r2 hk hne hmax
    simp only [ok_bind, e1, pure_eq_ok, Sat_ok]
    exact e2

theorem doolittleFrom_ok (absv : AbsoluteValue T V) {eps : V} (heps : 0 ≤ eps) {A L P : M} (hA : Sq n A)
    (hL : Sq n L) (hP : Sq n P) (zL : ∀ i j, val L i j = 0) (zP : ∀ i j, val P i j = 0) :
    Sat (doolittleFrom absv eps A L P)
      (fun r => ∃ σ, Fact absv n A r.1 r.2.1 r.2.2.1 r.2.2.2 σ)
      (fun e => e = .exc .singular ∧ (eps = 0 → (toMat n A).det = 0)) := by
  have hn := hA.pos
  unfold doolittleFrom
  obtain ⟨⟨L0, rt0⟩, s1, s2, s3, s4, s5⟩ := setup_ok hL zL
  simp only at s2 s3 s4 s5
  simp only [hA.hr, s1, ok_bind]
  have hbd : ∀ i j, absv (val L0 i j) ≤ 1 := by
    intro i j; rw [s3]; split <;> simp
  refine Sat.bind (P := DInv absv A n (n - 1)) ?_ ?_
  · rw [wsub_of_le (show 1 ≤ n by omega)]
    refine sat_forRange (fun k s => DInv absv A n k s) (Nat.zero_le _) ?_ ?_
    · refine ⟨hA, s2, fun _ _ h => by omega, ?_, ?_, hbd, s4, 1, ?_, ?_, ?_⟩
      · intro a t _ htn; show val L0 a t = _; rw [s3]
        have : (a = t ∧ a < n) ↔ a = t := by omega
        simp only [this]
      · intro a t _ htn; show val L0 a t = _; rw [s3]
        have : (a = t ∧ a < n) ↔ a = t := by omega
        simp only [this]
      · intro i; exact s5 i i.2
      · simp
      · have : toMat n L0 = (1 : Matrix (Fin n) (Fin n) T) := by
          ext a b
          show val L0 a b = _
          rw [s3, Matrix.one_apply]
          have : ((a : Nat) = b ∧ (a : Nat) < n) ↔ a = b := by
            rw [Fin.ext_iff]; constructor
            · exact fun h => h.1
            · exact fun h => ⟨h, a.2⟩
          simp only [this]
        show toMat n L0 * toMat n A = _
        rw [this, one_mul]; rfl
    · intro k s _ hk h
      exact step_ok absv heps h (by omega)
  · intro s h
    obtain ⟨σ, p1, p2, p3⟩ := h.perm
    have hrt : ∀ i, i < n → s.rt.getD i 0 < n := fun i hi => by rw [p1 ⟨i, hi⟩]; exact (σ _).2
    obtain ⟨P', q1, q2, q3⟩ := buildP_ok hP zP h.rtl hrt
    simp only [q1, ok_bind, pure_eq_ok, Sat_ok]
    refine ⟨σ, h.sqL, h.sqU, q2, p3, h.uL, ?_, h.bd, ?_, p2⟩
    · intro i j hij
      by_cases hi : i < n
      · exact h.lU _ _ (by omega) hij
      · exact h.sqU.zero (by omega)
    · intro i j
      rw [q3, p1]
      simp only [i.2, true_and, Fin.ext_iff]

end LU
end NS

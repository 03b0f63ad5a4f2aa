/-
Exactness of the product with a permutation matrix, the product loop of `determinant` and the column loop of `inverse` in an
arithmetic with rounding.
-/
import Verif.RoundLU

set_option linter.unusedSectionVars false
set_option linter.unusedSimpArgs false

namespace NS.Rounding
open NS NS.MatOps NS.LawfulStore NS.LU NS.Operations

variable {F K : Type} [Zero F] [One F] [Add F] [Sub F] [Mul F] [Div F] [Field K] [LinearOrder K] [IsStrictOrderedRing K]
variable {fl : F → K} {u : K} {n : Nat}

theorem Std.add_zero (h : Std fl u) (a : F) : a + 0 = a := h.add_exact _ _ _ (by rw [h.zero, _root_.add_zero])
theorem Std.mul_zero (h : Std fl u) (a : F) : a * 0 = 0 := h.mul_exact _ _ _ (by rw [h.zero, MulZeroClass.mul_zero])

/-- the product of a permutation matrix object with a vector has no rounding error -/
def PermExact (M F : Type) [Zero F] [One F] [MatOps M F] [LawfulStore M F] : Prop :=
  ∀ {n : Nat} {P : M} {σ : Equiv.Perm (Fin n)} (b : List F), Sq n P →
    (∀ i j : Fin n, val P i j = if j = σ i then 1 else 0) → b.length = n →
    ∃ pb, mulVec P b = .ok pb ∧ pb.length = n ∧ ∀ i : Fin n, pb.getD i 0 = b.getD (σ i) 0

section
variable [Neg F] [DecidableEq F]

theorem sparse_permExact (h : Std fl u) : PermExact (Sparse F) F := by
  intro n P σ b hP hσ hb
  have hc : P.columns = n := hP.hc
  have hrw : P.rows = n := hP.hr
  have hs : Sparse.Inv P := hP.valid
  have hσ : ∀ i j : Fin n, P.val i j = if j = σ i then 1 else 0 := hσ
  obtain ⟨l, h1, -, h3, -, h5, h6, -⟩ := hs.entries_ok
  obtain ⟨r, r1, r2, r3⟩ := accumF l (fun e => e.1) (fun e => e.2.2 * b.getD e.2.1 0) P.rows
    (fun e r => do
      assert (e.1 < r.length)
      assert (e.2.1 < b.length)
      let t ← getIdx r e.1
      let w ← getIdx b e.2.1
      pure (r.set e.1 (t + e.2.2 * w))) (by
      intro e he r hr
      have := h6 e he
      rw [assert_true (by omega), assert_true (by omega)]
      simp only [ok_bind]
      rw [getIdx_eq (by omega), getIdx_eq (by omega)]
      simp only [ok_bind, pure_eq_ok]
      rw [List.getD_eq_getElem _ _ (by omega), List.getD_eq_getElem _ _ (by omega)])
    (fun e he => (h6 e he).1) (List.replicate P.rows 0) (by simp)
  refine ⟨r, ?_, r2.trans hrw, fun i => ?_⟩
  · show P.mulVec b = _
    unfold Sparse.mulVec
    rw [throwIf_false _ (by simp [hc, hb]), h1]
    simp only [ok_bind]
    exact r1
  have hone : (1 : F) ≠ 0 := fun h0 => one_ne_zero (h.one.symm.trans ((congrArg fl h0).trans h.zero))
  have hi : (i : Nat) < P.rows := by rw [hrw]; exact i.2
  rw [r3 i hi, List.getD_replicate _ hi]
  set li := l.filter (fun e => decide (e.1 = (i : Nat))) with hli
  have hm : ∀ e ∈ li, e = ((i : Nat), ((σ i : Fin n) : Nat), (1 : F)) := by
    intro e he
    obtain ⟨e1, e2⟩ := List.mem_filter.1 he
    have e2 : e.1 = (i : Nat) := by simpa using e2
    have h7 := (h5 e).1 e1
    have hcn : e.2.1 < n := hc ▸ (h6 e e1).2
    rw [e2, hσ i ⟨e.2.1, hcn⟩] at h7
    by_cases hh : (⟨e.2.1, hcn⟩ : Fin n) = σ i
    · rw [if_pos hh] at h7
      have : e.2.1 = ((σ i : Fin n) : Nat) := congrArg Fin.val hh
      ext <;> simp [e2, this, h7.1]
    · rw [if_neg hh] at h7
      exact absurd h7.1 h7.2
  have hmem : ((i : Nat), ((σ i : Fin n) : Nat), (1 : F)) ∈ li := by
    rw [hli, List.mem_filter]
    refine ⟨(h5 _).2 ⟨?_, hone⟩, by simp⟩
    show (1 : F) = P.val i (σ i : Fin n)
    rw [hσ, if_pos rfl]
  have hpw : li.Pairwise (fun x y => x ≠ y) := by
    refine (h3.sublist List.filter_sublist).imp ?_
    intro a b hab e
    subst e
    rcases hab with hab | ⟨-, hab⟩ <;> exact absurd hab (lt_irrefl _)
  have hlist : li = [((i : Nat), ((σ i : Fin n) : Nat), (1 : F))] := by
    cases hl : li with
    | nil => rw [hl] at hmem; simp at hmem
    | cons e t =>
      rw [hl] at hm hpw
      have he := hm e (by simp)
      cases t with
      | nil => rw [he]
      | cons e' t' =>
        have he' := hm e' (by simp)
        have := (List.pairwise_cons.1 hpw).1 e' (by simp)
        rw [he, he'] at this
        exact absurd rfl this
  rw [hlist]
  simp only [List.foldl_cons, List.foldl_nil, h.one_mul, h.zero_add]

theorem dense_permExact (h : Std fl u) : PermExact (Dense F) F := by
  intro n P σ b hP hσ hb
  have hc : P.columns = n := hP.hc
  have hrw : P.rows = n := hP.hr
  have ha : Dense.WF P := hP.valid
  have hσ : ∀ i j : Fin n, P.val i j = if j = σ i then 1 else 0 := hσ
  have key : ∃ r, P.mulVec b = .ok r ∧ r.length = P.rows ∧ ∀ i, i < P.rows →
      r.getD i 0 = (List.range P.columns).foldl (fun s j => s + P.val i j * b.getD j 0) 0 := dense_mulVec_fold ha b (by rw [hc, hb])
  obtain ⟨r, r1, r2, r3⟩ := key
  refine ⟨r, r1, r2.trans hrw, fun i => ?_⟩
  rw [r3 i (by rw [hrw]; exact i.2), hc]
  have hk : ∀ k, k ≤ n → (List.range k).foldl (fun s j => s + P.val i j * b.getD j 0) 0
      = if ((σ i : Fin n) : Nat) < k then b.getD (σ i : Fin n) 0 else 0 := by
    intro k
    induction k with
    | zero => intro _; simp
    | succ k ih =>
      intro hk
      rw [List.range_succ, List.foldl_append, ih (by omega)]
      simp only [List.foldl_cons, List.foldl_nil]
      rw [hσ i ⟨k, by omega⟩]
      by_cases hh : (⟨k, by omega⟩ : Fin n) = σ i
      · have hv : k = ((σ i : Fin n) : Nat) := congrArg Fin.val hh
        rw [if_pos hh, if_neg (by omega), if_pos (by omega), h.one_mul, h.zero_add, hv]
      · have hv : k ≠ ((σ i : Fin n) : Nat) := fun e => hh (Fin.ext e)
        rw [if_neg hh, h.zero_mul, h.add_zero]
        have : (((σ i : Fin n) : Nat) < k + 1) ↔ (((σ i : Fin n) : Nat) < k) := by omega
        simp only [this]
  rw [hk n (le_refl _), if_pos (σ i).2]
end

section
variable {M : Type} [MatOps M F] [LawfulStore M F]

/-- the loop `det *= U(i,i)` -/
theorem prodLoop_round (h : Std fl u) {U : M} (hU : Sq n U) (d : F) :
    ∃ x, (forRange 0 n d fun i det => do
      let u ← get U i i
      return det * u) = .ok x ∧ ∃ t, Th u n t ∧ fl x = fl d * (∏ i ∈ Finset.range n, fl (val U i i)) * t := by
  apply Sat.ok_of
  refine sat_forRange (fun k x => ∃ t, Th u k t ∧ fl x = fl d * (∏ i ∈ Finset.range k, fl (val U i i)) * t) (Nat.zero_le n)
    ⟨1, h.th_one, by simp⟩ ?_
  rintro k x - hk ⟨t, t1, t2⟩
  rw [hU.get hk hk]
  simp only [ok_bind, pure_eq_ok, Sat_ok]
  obtain ⟨s, s1, s2⟩ := h.mul_th x (val U k k)
  refine ⟨t * s, t1.mul h.u_lt s1, ?_⟩
  rw [s2, t2, Finset.prod_range_succ]; ring

theorem setCol_store {X : M} (hX : Sq n X) {i : Nat} (hi : i < n) {x : List F} (hx : x.length = n) :
    ∃ Y, (forRange 0 n X fun j Inv => do
      let xj ← vecAt x j
      put Inv j i xj) = .ok Y ∧ Sq n Y ∧ ∀ a b, val Y a b = if a < n ∧ b = i then x.getD a 0 else val X a b := by
  apply Sat.ok_of
  refine sat_forRange (fun k Y => Sq n Y ∧ ∀ a b, val Y a b = if a < k ∧ b = i then x.getD a 0 else val X a b)
    (Nat.zero_le _) ⟨hX, fun a b => by simp⟩ ?_
  rintro k Y _ hk ⟨hY, hv⟩
  obtain ⟨W, q1, q2, q3⟩ := hY.put (x.getD k 0) (i := k) (j := i) hk hi
  simp only [vecAt_get (show k < x.length by omega), ok_bind, q1, Sat_ok]
  refine ⟨q2, fun a b => ?_⟩
  rw [q3, hv]
  by_cases hab : a = k ∧ b = i
  · rw [if_pos hab, if_pos (by omega), hab.1]
  · rw [if_neg hab]
    have : (a < k + 1 ∧ b = i) ↔ (a < k ∧ b = i) := by omega
    simp only [this]

/-- `inverse(L,U,P)`: column `i` of the result is the output of `solve_lu` on column `i` of `P`. -/
theorem inverseLUP_store {V : Type} [LinearOrder V] (hpe : PermExact M F) (absv : F → V) (eps : V) {L U P : M} (hL : Sq n L)
    (hU : Sq n U) (hP : Sq n P) {σ : Equiv.Perm (Fin n)} (hσ : ∀ i j : Fin n, val P i j = if j = σ i then 1 else 0)
    (hsol : ∀ b : List F, b.length = n → Sat (solveLu absv eps L U b) (fun x => x.length = n) (fun e => e = .exc .singular)) :
    Sat (inverseLUP absv eps L U P)
      (fun X => Sq n X ∧ ∀ i : Fin n, ∃ pb x, pb.length = n ∧ (∀ a : Fin n, pb.getD a 0 = if σ a = i then (1 : F) else 0) ∧
        solveLu absv eps L U pb = .ok x ∧ ∀ a : Fin n, val X a i = x.getD a 0)
      (fun e => e = .exc .singular) := by
  have hn := hL.pos
  unfold inverseLUP
  rw [throwIf_false _ (by rw [hL.hr, hL.hc]; simp), throwIf_false _ (by rw [hU.hr, hU.hc]; simp),
    throwIf_false _ (by rw [hP.hr, hP.hc]; simp), throwIf_false _ (by rw [hL.hr, hU.hr]; simp),
    throwIf_false _ (by rw [hP.hr, hU.hr]; simp)]
  simp only [ok_bind, hL.hr, hL.hc]
  refine Sat.bind (P := fun (r : M × List F) => Sq n r.1 ∧ ∀ i : Fin n, ∃ pb x, pb.length = n ∧
      (∀ a : Fin n, pb.getD a 0 = if σ a = i then (1 : F) else 0) ∧
        solveLu absv eps L U pb = .ok x ∧ ∀ a : Fin n, val r.1 a i = x.getD a 0) ?_ ?_
  · refine (sat_forRange (fun k (r : M × List F) => Sq n r.1 ∧ r.2 = List.replicate n 0 ∧ ∀ i : Fin n, (i : Nat) < k →
      ∃ pb x, pb.length = n ∧ (∀ a : Fin n, pb.getD a 0 = if σ a = i then (1 : F) else 0) ∧
        solveLu absv eps L U pb = .ok x ∧ ∀ a : Fin n, val r.1 a i = x.getD a 0)
      (Nat.zero_le _) ⟨hL, rfl, fun _ h => by omega⟩ ?_).mono ?_ (fun _ h => h)
    · rintro k ⟨X, b⟩ _ hk ⟨hX, rfl, c2⟩
      simp only at hX c2
      have hlen : k < (List.replicate n (0 : F)).length := by simpa using hk
      rw [vecSet_set _ hlen]
      obtain ⟨pb, m1, m2, m3⟩ := hpe (σ := σ) ((List.replicate n (0 : F)).set k 1) hP hσ (by simp)
      have hpb : ∀ a : Fin n, pb.getD a 0 = if σ a = ⟨k, hk⟩ then (1 : F) else 0 := by
        intro a
        rw [m3, getD_set _ _ _ _ hlen]
        simp only [Fin.ext_iff]
        split
        · rfl
        · rw [List.getD_replicate _ (σ a).2]
      simp only [ok_bind, m1]
      cases hx : solveLu absv eps L U pb with
      | error e =>
        have := hsol pb m2
        rw [hx] at this
        exact this
      | ok x =>
        have x1 := hsol pb m2
        rw [hx] at x1
        have x1 : x.length = n := x1
        simp only [ok_bind]
        obtain ⟨Y, y1, y2, y3⟩ := setCol_store hX hk x1
        simp only [y1, ok_bind]
        rw [vecSet_set _ (by simpa using hk)]
        simp only [ok_bind, pure_eq_ok, Sat_ok]
        refine ⟨y2, ?_, fun i hi => ?_⟩
        · rw [List.set_set]
          apply List.ext_getElem?
          intro t
          rw [List.getElem?_set]
          by_cases ht : k = t
          · subst ht; simp [hk]
          · simp [ht]
        · by_cases hik : (i : Nat) = k
          · have hik' : i = ⟨k, hk⟩ := Fin.ext hik
            refine ⟨pb, x, m2, fun a => by rw [hik']; exact hpb a, hx, fun a => ?_⟩
            rw [y3, if_pos ⟨a.2, hik⟩]
          · obtain ⟨pb', x', q1, q2, q3, q4⟩ := c2 i (by omega)
            refine ⟨pb', x', q1, q2, q3, fun a => ?_⟩
            rw [y3, if_neg (by tauto)]; exact q4 a
    · rintro ⟨X, b⟩ ⟨h1, h2, h3⟩
      exact ⟨h1, fun i => h3 i i.2⟩
  · rintro ⟨X, b⟩ ⟨h1, h2⟩
    simp only [pure_eq_ok, Sat_ok]
    exact ⟨h1, h2⟩
end
end NS.Rounding

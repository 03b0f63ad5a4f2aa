/-
Correctness of `cholesky`, `ainv_lu` (lower part), `inverse(L,U,P)` and `determinant`.
-/
import Verif.LUSolve

set_option linter.unusedSectionVars false
set_option linter.unusedSimpArgs false

namespace NS
open MatOps LawfulMat

namespace LU
variable {M T V : Type} [Field T] [DecidableEq T] [MatOps M T] [LawfulMat M T]
variable {n : Nat}

/-! ### Cholesky -/

theorem sum_trunc (f : Nat → T) {j n : Nat} (hj : j ≤ n) (h : ∀ k, j ≤ k → k < n → f k = 0) :
    ∑ k ∈ Finset.range n, f k = ∑ k ∈ Finset.range j, f k := by
  symm
  apply Finset.sum_subset
  · intro k hk; simp at hk ⊢; omega
  · intro k hk hk'; simp at hk hk'; exact h k hk' hk

/-- `X` holds the first `j` columns of the Cholesky factor of `m`, and zeros elsewhere. -/
structure CholPart (n : Nat) (m : M) (j : Nat) (X : M) : Prop where
  sq : Sq n X
  zero : ∀ a t, a < t ∨ j ≤ t → val X a t = 0
  diag : ∀ t, t < j → val X t t ≠ 0
  eqs : ∀ t, t < j → ∀ a, t ≤ a → a < n → ∑ k ∈ Finset.range n, val X a k * val X t k = val m a t

/-- the pivot of column `j` -/
def cholS (m X : M) (j : Nat) : T := val m j j - ∑ k ∈ Finset.range j, val X j k * val X j k

theorem cholesky_ok (sqrtAllowed : T → Bool) (na : Bool) (sqrt : T → T)
    (hsqrt : ∀ s, sqrtAllowed s = true → sqrt s * sqrt s = s)
    {m L : M} (hm : Sq n m) (hL : Sq n L) (hz : ∀ i j, val L i j = 0) :
    Sat (cholesky sqrtAllowed na sqrt m L)
      (fun L => CholPart n m n L ∧ ∀ t, t < n → ∃ s, sqrtAllowed s = true ∧ val L t t = sqrt s)
      (fun e => ∃ j X, j < n ∧ CholPart n m j X ∧
        ((e = .exc .notPositiveDefinite ∧ (sqrtAllowed (cholS m X j) = false ∨ (cholS m X j = 0 ∧ j + 1 < n ∧ na = false))) ∨
         (e = .nonfinite ∧ cholS m X j = 0 ∧ (j + 1 = n ∨ na = true)))) := by
  unfold cholesky
  rw [throwIf_false _ (by rw [hm.hr, hm.hc]; simp), throwIf_false _ (by rw [hm.hr, hm.hc, hL.hr, hL.hc]; simp)]
  simp only [ok_bind, hL.hr]
  refine sat_forRange (fun j L => CholPart n m j L ∧ ∀ t, t < j → ∃ s, sqrtAllowed s = true ∧ val L t t = sqrt s) (Nat.zero_le _)
      ⟨⟨hL, fun a t _ => hz a t, fun t h => by omega, fun t h => by omega⟩, fun t h => by omega⟩ ?_
  · rintro j X _ hj ⟨⟨hX, z, hD, hS⟩, hQ⟩
    rw [forRange_sum' j _ (fun k => val X j k * val X j k) (by
      intro k v hk; rw [hX.get hj (by omega)]; rfl)]
    simp only [ok_bind, hm.get hj hj]
    set s := val m j j - ∑ k ∈ Finset.range j, val X j k * val X j k with hs
    by_cases hsa : sqrtAllowed s = false
    · rw [throwIf_true _ hsa]; exact ⟨j, X, hj, ⟨hX, z, hD, hS⟩, Or.inl ⟨rfl, Or.inl hsa⟩⟩
    rw [throwIf_false _ hsa]
    have hsq := hsqrt s (by simpa using hsa)
    obtain ⟨Y, p1, p2, p3⟩ := hX.put (sqrt s) (i := j) (j := j) hj hj
    simp only [ok_bind, p1]
    rw [p2.hr]
    by_cases h0 : sqrt s = 0
    · have hs0 : cholS m X j = 0 := by rw [h0, mul_zero] at hsq; exact hsq.symm
      rw [if_pos h0]
      unfold zeroPivot
      by_cases hl : j + 1 = n
      · rw [if_pos (by simp [hl])]; exact ⟨j, X, hj, ⟨hX, z, hD, hS⟩, Or.inr ⟨rfl, hs0, Or.inl hl⟩⟩
      · by_cases hna : na = true
        · rw [if_pos (by simp [hna])]; exact ⟨j, X, hj, ⟨hX, z, hD, hS⟩, Or.inr ⟨rfl, hs0, Or.inr hna⟩⟩
        · rw [if_neg (by simp [hna, hl])]
          exact ⟨j, X, hj, ⟨hX, z, hD, hS⟩, Or.inl ⟨rfl, Or.inr ⟨hs0, by omega, by simpa using hna⟩⟩⟩
    rw [if_neg h0]
    refine (sat_forRange (fun i (Z : M) => Sq n Z ∧ (∀ a t, t ≠ j → val Z a t = val X a t) ∧
        (∀ a, a < j → val Z a j = 0) ∧ (∀ a, i ≤ a → a ≠ j → val Z a j = 0) ∧ val Z j j = sqrt s ∧
        (∀ a, j ≤ a → a < i → val Z a j * sqrt s
            = val m a j - ∑ k ∈ Finset.range j, val X a k * val X j k)) (show j ≤ n by omega)
        ?_ ?_).mono ?_ (fun _ h => h)
    · refine ⟨p2, fun a t ht => ?_, fun a ha => ?_, fun a ha hne => ?_, ?_, fun a h1 h2 => by omega⟩
      · rw [p3, if_neg (by tauto)]
      · rw [p3, if_neg (by omega)]; exact z _ _ (Or.inr (le_refl _))
      · rw [p3, if_neg (by tauto)]; exact z _ _ (Or.inr (le_refl _))
      · rw [p3, if_pos ⟨rfl, rfl⟩]
    · rintro i Z hi hin ⟨hZ, c1, c2, c3, c4, c5⟩
      rw [forRange_sum' i _ (fun k => val Z i k * val Z j k) (by
        intro k v hk; rw [hZ.get hin (by omega), hZ.get hj (by omega)]; rfl)]
      simp only [ok_bind, hm.get hin hj, hZ.get hj hj]
      have hsum : ∑ k ∈ Finset.range i, val Z i k * val Z j k = ∑ k ∈ Finset.range j, val X i k * val X j k := by
        rw [sum_trunc (j := j) (n := i) _ hi]
        · refine Finset.sum_congr rfl (fun k hk => ?_)
          have := Finset.mem_range.1 hk
          rw [c1 _ _ (by omega), c1 _ _ (by omega)]
        · intro k h1 h2
          by_cases hkj : k = j
          · subst hkj; rw [c3 i (le_refl _) (by omega), zero_mul]
          · rw [c1 j k hkj, z j k (Or.inl (by omega)), mul_zero]
      rw [hsum]
      obtain ⟨W, q1, q2, q3⟩ := hZ.put ((val m i j - ∑ k ∈ Finset.range j, val X i k * val X j k) / val Z j j)
        (i := i) (j := j) hin hj
      simp only [q1, Sat_ok]
      refine ⟨q2, fun a t ht => ?_, fun a ha => ?_, fun a ha hne => ?_, ?_, fun a h1 h2 => ?_⟩
      · rw [q3, if_neg (by tauto), c1 _ _ ht]
      · rw [q3, if_neg (by omega), c2 _ ha]
      · rw [q3, if_neg (by omega), c3 _ (by omega) hne]
      · rw [q3]
        by_cases hij : j = i
        · subst hij
          rw [if_pos ⟨rfl, rfl⟩, c4, ← hs, div_eq_iff h0, hsq]
        · rw [if_neg (by tauto), c4]
      · rw [q3]
        by_cases hai : a = i
        · subst hai
          rw [if_pos ⟨rfl, rfl⟩, c4, div_mul_cancel₀ _ h0]
        · rw [if_neg (by tauto)]; exact c5 a h1 (by omega)
    · rintro Z ⟨hZ, c1, c2, c3, c4, c5⟩
      refine ⟨⟨hZ, ?_, ?_, ?_⟩, ?_⟩
      · intro a t hat
        by_cases htj : t = j
        · subst htj
          rcases hat with h | h
          · exact c2 a h
          · omega
        · rw [c1 _ _ htj]; exact z _ _ (by omega)
      · intro t ht
        by_cases htj : t = j
        · subst htj; rw [c4]; exact h0
        · rw [c1 _ _ htj]; exact hD t (by omega)
      · intro t ht a hta han
        by_cases htj : t = j
        · subst htj
          have hup : ∀ k, t < k → val Z t k = 0 := fun k hk => by
            rw [c1 _ _ (by omega)]; exact z _ _ (Or.inl hk)
          rw [sum_trunc (j := t + 1) (n := n) _ (by omega) (fun k h1 _ => by rw [hup k (by omega), mul_zero]),
            Finset.sum_range_succ, c4, c5 a hta han]
          have : ∑ k ∈ Finset.range t, val Z a k * val Z t k = ∑ k ∈ Finset.range t, val X a k * val X t k :=
            Finset.sum_congr rfl (fun k hk => by
              have := Finset.mem_range.1 hk
              rw [c1 _ _ (by omega), c1 _ _ (by omega)])
          rw [this]; ring
        · rw [← hS t (by omega) a hta han]
          refine Finset.sum_congr rfl (fun k hk => ?_)
          by_cases hkj : k = j
          · subst hkj
            rw [c2 t (by omega), z t k (Or.inl (by omega)), mul_zero, mul_zero]
          · rw [c1 _ _ hkj, c1 _ _ hkj]
      · intro t ht
        by_cases htj : t = j
        · subst htj; exact ⟨s, by simpa using hsa, c4⟩
        · rw [c1 _ _ htj]; exact hQ t (by omega)

/-! ### Matrix form of `solve_lu` -/

/-- `n x n` matrix with the entries of `m` on and below the diagonal. -/
def lowerPart (n : Nat) (m : M) : Matrix (Fin n) (Fin n) T := fun i j => if j ≤ i then val m i j else 0
/-- `n x n` matrix with the entries of `m` on and above the diagonal. -/
def upperPart (n : Nat) (m : M) : Matrix (Fin n) (Fin n) T := fun i j => if i ≤ j then val m i j else 0
/-- the vector shown by a list -/
def toVec (n : Nat) (x : List T) : Fin n → T := fun i => x.getD i 0

theorem upperPart_mulVec (U : M) (x : List T) (c : Fin n) :
    (upperPart n U).mulVec (toVec n x) c = ∑ d ∈ Finset.range n, if (c : Nat) ≤ d then val U c d * x.getD d 0 else 0 := by
  unfold Matrix.mulVec dotProduct
  rw [Finset.sum_range]
  refine Finset.sum_congr rfl (fun d _ => ?_)
  show (if c ≤ d then _ else _) * _ = _
  have : (c ≤ d) ↔ ((c : Nat) ≤ d) := Iff.rfl
  simp only [this, toVec, ite_mul, zero_mul]

theorem lowerPart_mulVec (L : M) (f : Nat → T) (a : Fin n) :
    (lowerPart n L).mulVec (fun i : Fin n => f i) a = ∑ c ∈ Finset.range (a + 1), val L a c * f c := by
  have hsum := sum_trunc (n := n) (j := a + 1) (fun c => if c ≤ (a : Nat) then val L a c * f c else 0) a.2 (fun k h1 _ => if_neg (by omega))
  refine Eq.trans (Eq.trans ?_ hsum) ?_
  · unfold Matrix.mulVec dotProduct
    rw [Finset.sum_range]
    refine Finset.sum_congr rfl (fun d _ => ?_)
    show (if d ≤ a then _ else _) * _ = _
    have : (d ≤ a) ↔ ((d : Nat) ≤ a) := Iff.rfl
    simp only [this, ite_mul, zero_mul]
  · refine Finset.sum_congr rfl (fun c hc => ?_)
    have := Finset.mem_range.1 hc
    rw [if_pos (by omega)]

theorem solveLu_mat [LinearOrder V] (absv : T → V) (eps : V) {L U : M} (hL : Sq n L) (hU : Sq n U)
    {b : List T} (hb : b.length = n) :
    Sat (solveLu absv eps L U b)
      (fun x => x.length = n ∧ (∀ a, a < n → ¬ absv (val L a a) ≤ eps ∧ ¬ absv (val U a a) ≤ eps) ∧
        ((∀ a, a < n → val L a a ≠ 0 ∧ val U a a ≠ 0) →
          (lowerPart n L * upperPart n U).mulVec (toVec n x) = toVec n b))
      (fun e => e = .exc .singular ∧ ∃ a, a < n ∧ (absv (val L a a) ≤ eps ∨ absv (val U a a) ≤ eps)) := by
  refine (solveLu_ok absv eps hL hU hb).mono ?_ (fun _ h => h)
  rintro x ⟨x1, x2, x3⟩
  refine ⟨x1, x2, fun hne => ?_⟩
  ext a
  rw [← Matrix.mulVec_mulVec]
  have : (upperPart n U).mulVec (toVec n x) = fun c : Fin n => (fun c : Nat =>
      ∑ d ∈ Finset.range n, if c ≤ d then val U c d * x.getD d 0 else 0) c := by
    funext c; exact upperPart_mulVec U x c
  rw [this]
  exact (lowerPart_mulVec L _ a).trans (x3 hne a a.2)

/-! ### `ainv_lu` -/

/-- `for e in l: m -= e.value * f(e.column)` -/
theorem subSum_ok (g : Nat → R T) (f : Nat → T) : ∀ (l : List (Nat × Nat × T)) (m : T),
    (∀ e ∈ l, g e.2.1 = .ok (f e.2.1)) →
    forList l m (fun e m => do
      let x ← g e.2.1
      return m - e.2.2 * x) = .ok (m - (l.map (fun e => e.2.2 * f e.2.1)).sum)
  | [], m, _ => by simp [forList]
  | e :: l, m, h => by
      have ih := subSum_ok g f l (m - e.2.2 * f e.2.1) (fun e' he' => h e' (by simp [he']))
      simp only [pure_eq_ok] at ih
      simp only [forList, h e (by simp), ok_bind, pure_eq_ok, ih]
      simp only [List.map_cons, List.sum_cons]
      congr 1; ring

theorem ainvL_ok {L X : M} (hL : Sq n L) (hX : Sq n X)
    (hu : ∀ i j, i ≤ j → j < n → val L i j = if i = j then 1 else 0) {k : Nat} (hk : k < n)
    (hz : ∀ i, val X i k = 0) :
    ∃ Y, ainvL L n k X = .ok Y ∧ Sq n Y ∧ (∀ i j, j ≠ k → val Y i j = val X i j) ∧
      (∀ i, i < k → val Y i k = 0) ∧
      ∀ i, i < n → ∑ c ∈ Finset.range n, val L i c * val Y c k = if i = k then 1 else 0 := by
  unfold ainvL
  obtain ⟨X1, p1, p2, p3⟩ := hX.put (1 : T) (i := k) (j := k) hk hk
  simp only [p1, ok_bind]
  apply Sat.ok_of
  refine (sat_forRange (fun i (Y : M) => Sq n Y ∧ (∀ a j, j ≠ k → val Y a j = val X a j) ∧
      (∀ a, a < k → val Y a k = 0) ∧ val Y k k = 1 ∧ (∀ a, i ≤ a → val Y a k = 0) ∧
      ∀ a, a < i → ∑ c ∈ Finset.range n, val L a c * val Y c k = if a = k then 1 else 0)
      (show k + 1 ≤ n by omega) ?_ ?_).mono (fun Y h => ⟨h.1, h.2.1, h.2.2.1, h.2.2.2.2.2⟩) (fun _ h => h)
  · refine ⟨p2, fun a j hj => by rw [p3, if_neg (by tauto)], fun a ha => by rw [p3, if_neg (by omega), hz],
      by rw [p3, if_pos ⟨rfl, rfl⟩], fun a ha => by rw [p3, if_neg (by omega), hz], fun a ha => ?_⟩
    rw [Finset.sum_eq_single k]
    · rw [p3, if_pos ⟨rfl, rfl⟩, mul_one, hu a k (by omega) hk]
    · intro c _ hc; rw [p3, if_neg (by tauto), hz, mul_zero]
    · intro h; exact absurd (Finset.mem_range.2 hk) h
  · rintro i Y hi hin ⟨hY, c1, c2, c3, c4, c5⟩
    obtain ⟨l, l1, l2, l3, l4⟩ := hL.row_sum hin
    simp only [hY.get hin hk, l1, ok_bind]
    rw [dropWhile_eq_filter (fun e : Nat × Nat × T => e.2.1) k l l2,
      takeWhile_eq_filter (fun e : Nat × Nat × T => e.2.1) i _ (l2.filter _), List.filter_filter]
    rw [subSum_ok (fun c => get Y c k) (fun c => val Y c k) _ _ (fun e he =>
      hY.get (l3 e (List.mem_filter.1 he).1) hk)]
    have hs := l4 (fun c => decide (c < i) && decide (k ≤ c)) (fun c => val Y c k)
    rw [hs]
    obtain ⟨W, q1, q2, q3⟩ := hY.put (val Y i k - ∑ j ∈ Finset.range n,
      if (decide (j < i) && decide (k ≤ j)) = true then val L i j * val Y j k else 0) (i := i) (j := k) hin hk
    simp only [ok_bind, q1, Sat_ok]
    refine ⟨q2, fun a j hj => by rw [q3, if_neg (by tauto), c1 _ _ hj], fun a ha => by rw [q3, if_neg (by omega), c2 a ha],
      by rw [q3, if_neg (by omega), c3], fun a ha => by rw [q3, if_neg (by omega), c4 a (by omega)], fun a ha => ?_⟩
    by_cases hai : a = i
    · subst hai
      rw [← Finset.add_sum_erase _ _ (Finset.mem_range.2 hin), q3, if_pos ⟨rfl, rfl⟩, c4 a (le_refl _), hu a a (le_refl _) hin,
        if_pos rfl, if_neg (show ¬ a = k by omega)]
      have : ∑ c ∈ (Finset.range n).erase a, val L a c * val W c k = ∑ j ∈ Finset.range n,
          if (decide (j < a) && decide (k ≤ j)) = true then val L a j * val Y j k else 0 := by
        rw [← Finset.add_sum_erase (Finset.range n) (fun j => if (decide (j < a) && decide (k ≤ j)) = true then val L a j * val Y j k else 0)
            (Finset.mem_range.2 hin)]
        rw [if_neg (by simp), zero_add]
        refine Finset.sum_congr rfl (fun c hc => ?_)
        obtain ⟨e1, e2⟩ := Finset.mem_erase.1 hc
        rw [q3, if_neg (by tauto)]
        by_cases hca : c < a
        · by_cases hkc : k ≤ c
          · rw [if_pos (by simp [hca, hkc])]
          · rw [if_neg (by simp [hkc]), c2 c (by omega), mul_zero]
        · rw [if_neg (by simp [hca]), hu a c (by omega) (Finset.mem_range.1 e2), if_neg (Ne.symm e1), zero_mul]
      rw [this]; ring
    · rw [← c5 a (by omega)]
      refine Finset.sum_congr rfl (fun c hc => ?_)
      rw [q3]
      by_cases hci : c = i
      · subst hci
        rw [if_pos ⟨rfl, rfl⟩, hu a c (by omega) hin, if_neg (by omega), zero_mul, zero_mul]
      · rw [if_neg (by tauto)]

theorem ainvU_safe [LinearOrder V] (absv : T → V) (eps : V) {U X : M} (hU : Sq n U) (hX : Sq n X) {k : Nat} (hk : k < n) :
    Sat (ainvU absv eps U n k X) (Sq n) (fun e => e = .exc .singular) := by
  unfold ainvU
  obtain ⟨X1, p1, p2, p3⟩ := hX.put (1 / val U k k : T) (i := k) (j := k) hk hk
  simp only [hU.get hk hk, p1, ok_bind]
  refine sat_downFrom (fun _ Y => Sq n Y) _ _ p2 ?_
  intro i Y hi hY
  have hin : i < n := by omega
  obtain ⟨l, l1, l2, l3, l4⟩ := hU.row_sum hin
  simp only [hY.get hin hk, l1, ok_bind]
  rw [subSum_ok (fun c => get Y c k) (fun c => val Y c k) _ _ (fun e he =>
      hY.get (l3 e (by
        have := (List.takeWhile_sublist _).subset he
        exact (List.dropWhile_sublist _).subset this)) hk)]
  simp only [ok_bind, hU.get hin hin]
  refine Sat.bind (P := fun _ => True) ?_ ?_
  · by_cases hle : absv (val U i i) ≤ eps
    · rw [throwIf_true _ hle]; rfl
    · rw [throwIf_false _ hle]; trivial
  · intro _ _
    obtain ⟨W, q1, q2, q3⟩ := hY.put (_ : T) (i := i) (j := k) hin hk
    rw [q1]; exact q2

theorem ainvLu_L [LinearOrder V] (absv : T → V) (eps : V) {L U X Y : M} (hL : Sq n L) (hU : Sq n U)
    (hX : Sq n X) (hY : Sq n Y) (hu : ∀ i j, i ≤ j → j < n → val L i j = if i = j then 1 else 0)
    (hz : ∀ i j, val X i j = 0) :
    Sat (ainvLu absv eps L U X Y)
      (fun r => Sq n r.1 ∧ Sq n r.2 ∧ (∀ i j, i < j → val r.1 i j = 0) ∧ toMat n L * toMat n r.1 = 1)
      (fun e => e = .exc .singular) := by
  unfold ainvLu
  rw [throwIf_false _ (by rw [hL.hr, hL.hc]; simp), throwIf_false _ (by rw [hU.hr, hU.hc]; simp),
    throwIf_false _ (by rw [hX.hr, hX.hc]; simp), throwIf_false _ (by rw [hY.hr, hY.hc]; simp),
    throwIf_false _ (by rw [hL.hr, hU.hr]; simp), throwIf_false _ (by rw [hL.hr, hX.hr]; simp),
    throwIf_false _ (by rw [hL.hr, hY.hr]; simp)]
  simp only [ok_bind, hL.hc]
  refine (sat_forRange (fun k (r : M × M) => Sq n r.1 ∧ Sq n r.2 ∧ (∀ i j, k ≤ j → val r.1 i j = 0) ∧
      (∀ i j, j < k → i < j → val r.1 i j = 0) ∧
      ∀ i j, i < n → j < k → ∑ c ∈ Finset.range n, val L i c * val r.1 c j = if i = j then 1 else 0)
      (Nat.zero_le _) ⟨hX, hY, fun i j _ => hz i j, fun _ _ h => by omega, fun _ _ _ h => by omega⟩ ?_).mono ?_ (fun _ h => h)
  · rintro k ⟨A, B⟩ _ hk ⟨hA, hB, c1, c2, c3⟩
    simp only at hA hB c1 c2 c3
    obtain ⟨A', a1, a2, a3, a4, a5⟩ := ainvL_ok hL hA hu hk (fun i => c1 i k (le_refl _))
    simp only [a1, ok_bind]
    refine Sat.bind (ainvU_safe absv eps hU hB hk) ?_
    intro B' hB'
    simp only [pure_eq_ok, Sat_ok]
    refine ⟨a2, hB', fun i j hj => ?_, fun i j hj hij => ?_, fun i j hi hj => ?_⟩
    · rw [a3 _ _ (by omega)]; exact c1 _ _ (by omega)
    · by_cases hjk : j = k
      · subst hjk; exact a4 i hij
      · rw [a3 _ _ hjk]; exact c2 _ _ (by omega) hij
    · by_cases hjk : j = k
      · subst hjk; exact a5 i hi
      · rw [← c3 i j hi (by omega)]
        exact Finset.sum_congr rfl (fun c _ => by rw [a3 _ _ hjk])
  · rintro ⟨A, B⟩ ⟨hA, hB, c1, c2, c3⟩
    refine ⟨hA, hB, fun i j hij => ?_, ?_⟩
    · by_cases hj : j < n
      · exact c2 i j hj hij
      · exact c1 i j (by omega)
    · ext i j
      rw [Matrix.mul_apply, Matrix.one_apply]
      have := c3 i j i.2 j.2
      rw [Finset.sum_range] at this
      simp only [Fin.ext_iff]
      exact this

end LU

namespace Operations
open LU
variable {M T V : Type} [Field T] [DecidableEq T] [MatOps M T] [LawfulMat M T]
variable {n : Nat}

theorem setCol_ok {X : M} (hX : Sq n X) {i : Nat} (hi : i < n) {x : List T} (hx : x.length = n) :
    ∃ Y, (forRange 0 n X fun j Inv => do
      let xj ← vecAt x j
      put Inv j i xj) = .ok Y ∧ Sq n Y ∧ ∀ a b, val Y a b = if a < n ∧ b = i then x.getD a 0 else val X a b := by
  apply Sat.ok_of
  refine sat_forRange (fun k Y => Sq n Y ∧ ∀ a b, val Y a b = if a < k ∧ b = i then x.getD a 0 else val X a b)
    (Nat.zero_le _) ⟨hX, fun a b => by simp⟩ ?_
  rintro k Y _ hk ⟨hY, hv⟩
  obtain ⟨W, q1, q2, q3⟩ := hY.put (x.getD k 0) (i := k) (j := i) hk hi
  simp only [vecAt_get (show k < x.length by omega), ok_bind, q1, Sat_ok]
  refine ⟨q2, fun a b => ?_⟩
  rw [q3, hv]
  by_cases hab : a = k ∧ b = i
  · rw [if_pos hab, if_pos (by omega), hab.1]
  · rw [if_neg hab]
    have : (a < k + 1 ∧ b = i) ↔ (a < k ∧ b = i) := by omega
    simp only [this]

theorem inverseLUP_ok [LinearOrder V] (absv : T → V) (eps : V) {L U P : M} (hL : Sq n L) (hU : Sq n U) (hP : Sq n P) :
    Sat (inverseLUP absv eps L U P)
      (fun X => Sq n X ∧ (∀ a, a < n → ¬ absv (val L a a) ≤ eps ∧ ¬ absv (val U a a) ≤ eps) ∧
        ((∀ a, a < n → val L a a ≠ 0 ∧ val U a a ≠ 0) →
          lowerPart n L * upperPart n U * toMat n X = toMat n P))
      (fun e => e = .exc .singular ∧ ∃ a, a < n ∧ (absv (val L a a) ≤ eps ∨ absv (val U a a) ≤ eps)) := by
  have hn := hL.pos
  unfold inverseLUP
  rw [throwIf_false _ (by rw [hL.hr, hL.hc]; simp), throwIf_false _ (by rw [hU.hr, hU.hc]; simp),
    throwIf_false _ (by rw [hP.hr, hP.hc]; simp), throwIf_false _ (by rw [hL.hr, hU.hr]; simp),
    throwIf_false _ (by rw [hP.hr, hU.hr]; simp)]
  simp only [ok_bind, hL.hr, hL.hc]
  refine Sat.bind (P := fun (r : M × List T) => Sq n r.1 ∧
      (∀ a, a < n → ¬ absv (val L a a) ≤ eps ∧ ¬ absv (val U a a) ≤ eps) ∧
      ((∀ a, a < n → val L a a ≠ 0 ∧ val U a a ≠ 0) → ∀ i : Fin n,
        (lowerPart n L * upperPart n U).mulVec (fun a : Fin n => val r.1 a i) = fun a : Fin n => val P a i)) ?_ ?_
  · refine (sat_forRange (fun k (r : M × List T) => Sq n r.1 ∧ r.2 = List.replicate n 0 ∧
      (0 < k → ∀ a, a < n → ¬ absv (val L a a) ≤ eps ∧ ¬ absv (val U a a) ≤ eps) ∧
      ((∀ a, a < n → val L a a ≠ 0 ∧ val U a a ≠ 0) → ∀ i : Fin n, (i : Nat) < k →
        (lowerPart n L * upperPart n U).mulVec (fun a : Fin n => val r.1 a i) = fun a : Fin n => val P a i))
      (Nat.zero_le _) ⟨hL, rfl, fun h => by omega, fun _ _ h => by omega⟩ ?_).mono ?_ (fun _ h => h)
    · rintro k ⟨X, b⟩ _ hk ⟨hX, rfl, c1, c2⟩
      simp only at hX c2
      have hlen : k < (List.replicate n (0 : T)).length := by simpa using hk
      rw [vecSet_set _ hlen]
      obtain ⟨pb, m1, m2, m3⟩ := mulVec_ok ((List.replicate n (0 : T)).set k 1) hP.valid (by simp [hP.hc])
      rw [hP.hr] at m2 m3
      rw [hP.hc] at m3
      have hpb : toVec n pb = fun a : Fin n => val P a k := by
        funext a
        show pb.getD a 0 = _
        rw [m3 a a.2, Finset.sum_eq_single k]
        · rw [getD_set _ _ _ _ hlen, if_pos rfl, mul_one]
        · intro c hc hck
          rw [getD_set _ _ _ _ hlen, if_neg hck]
          simp [List.getD_eq_getElem?_getD, List.getElem?_replicate]
          right; split <;> rfl
        · intro h; exact absurd (Finset.mem_range.2 hk) h
      simp only [ok_bind, m1]
      refine Sat.bind (solveLu_mat absv eps hL hU m2) ?_
      rintro x ⟨x1, x2, x3⟩
      obtain ⟨Y, y1, y2, y3⟩ := setCol_ok hX hk x1
      simp only [y1, ok_bind]
      rw [vecSet_set _ (by simpa using hk)]
      simp only [ok_bind, pure_eq_ok, Sat_ok]
      refine ⟨y2, ?_, fun _ => x2, fun hne i hi => ?_⟩
      · rw [List.set_set]
        apply List.ext_getElem?
        intro t
        rw [List.getElem?_set]
        by_cases ht : k = t
        · subst ht; simp [hk]
        · simp [ht]
      · by_cases hik : (i : Nat) = k
        · have : (fun a : Fin n => val Y a i) = toVec n x := by
            funext a; rw [y3, if_pos ⟨a.2, hik⟩]; rfl
          rw [this, x3 hne, hpb, hik]
        · have : (fun a : Fin n => val Y a i) = fun a : Fin n => val X a i := by
            funext a; rw [y3, if_neg (by tauto)]
          rw [this]; exact c2 hne i (by omega)
    · rintro ⟨X, b⟩ ⟨h1, h2, h3, h4⟩
      exact ⟨h1, h3 hn, fun hne i => h4 hne i i.2⟩
  · rintro ⟨X, b⟩ ⟨h1, h2, h3⟩
    simp only [pure_eq_ok, Sat_ok]
    refine ⟨h1, h2, fun hne => ?_⟩
    ext a i
    exact congrFun (h3 hne i) a

/-- What both `doolittle` overloads do on square input with zero `L` and `P`. -/
def DooSpec [Field V] [LinearOrder V] [IsStrictOrderedRing V] (absv : AbsoluteValue T V) (eps : V)
    (doo : M → M → M → R (M × M × M × Nat)) : Prop :=
  (∀ (n : Nat) (A L P : M), Sq n A → Sq n L → Sq n P → (∀ i j, val L i j = 0) → (∀ i j, val P i j = 0) →
    Sat (doo A L P) (fun r => ∃ σ, Fact absv n A r.1 r.2.1 r.2.2.1 r.2.2.2 σ)
      (fun e => e = .exc .singular ∧ (eps = 0 → (toMat n A).det = 0))) ∧
  ∀ A L P : M, rows A ≠ cols A → doo A L P = .error (.exc .notSquare)

variable [Field V] [LinearOrder V] [IsStrictOrderedRing V]

theorem doolittleBase_spec (absv : AbsoluteValue T V) {eps : V} (heps : 0 ≤ eps) :
    DooSpec (M := M) absv eps (doolittleBase absv eps) := by
  constructor
  · intro n A L P hA hL hP zL zP
    unfold doolittleBase
    rw [throwIf_false _ (by rw [hA.hr, hA.hc]; simp),
      throwIf_false _ (by rw [hA.hr, hA.hc, hL.hr, hL.hc, hP.hr, hP.hc]; simp)]
    exact doolittleFrom_ok absv heps hA hL hP zL zP
  · intro A L P h
    unfold doolittleBase
    rw [throwIf_true _ h]; rfl

theorem doolittleSparse_spec' (absv : AbsoluteValue T V) {eps : V} (heps : 0 ≤ eps) {A : M} (hA : Sq n A) :
    Sat (doolittleSparse absv eps A) (fun r => ∃ σ, Fact absv n A r.1 r.2.1 r.2.2.1 r.2.2.2 σ)
      (fun e => e = .exc .singular ∧ (eps = 0 → (toMat n A).det = 0)) := by
  unfold doolittleSparse
  rw [throwIf_false _ (by rw [hA.hr, hA.hc]; simp), hA.hr]
  obtain ⟨Z, z1, z2, z3⟩ := make_sq M hA.pos
  simp only [ok_bind, z1]
  exact doolittleFrom_ok absv heps hA z2 z2 z3 z3

theorem doolittleSparse_spec (absv : AbsoluteValue T V) {eps : V} (heps : 0 ≤ eps) :
    DooSpec (M := M) absv eps (fun A _ _ => doolittleSparse absv eps A) := by
  constructor
  · intro n A L P hA _ _ _ _
    exact doolittleSparse_spec' absv heps hA
  · intro A L P h
    show doolittleSparse _ _ _ = _
    unfold doolittleSparse
    rw [throwIf_true _ h]; rfl

theorem fact_det {absv : AbsoluteValue T V} {A L U P : M} {pc : Nat} {σ : Equiv.Perm (Fin n)}
    (h : Fact absv n A L U P pc σ) :
    (toMat n A).det = (if pc % 2 = 0 then 1 else -1) * ∏ i ∈ Finset.range n, val U i i := by
  have h3 := congrArg Matrix.det h.prod
  rw [Matrix.det_mul, det_lower h.lower, det_upper h.upper, Matrix.det_permute, one_mul] at h3
  rw [Finset.prod_range, h3, ← mul_assoc]
  have hs : ((Equiv.Perm.sign σ : ℤ) : T) = if pc % 2 = 0 then 1 else -1 := by
    rw [h.sgn]
    push_cast
    split
    · rename_i he; exact Even.neg_one_pow (Nat.even_iff.2 he)
    · rename_i he; exact Odd.neg_one_pow (Nat.odd_iff.2 (by omega))
  rw [hs]
  split <;> simp

theorem prodLoop {U : M} (hU : Sq n U) (d : T) :
    (forRange 0 n d fun i det => do
      let u ← get U i i
      return det * u) = .ok (d * ∏ i ∈ Finset.range n, val U i i) := by
  obtain ⟨x, h1, h2⟩ := Sat.ok_of (sat_forRange (f := fun i (det : T) => do
      let u ← get U i i
      return det * u) (E := noErr) (fun k x => x = d * ∏ i ∈ Finset.range k, val U i i) (Nat.zero_le n) (s := d) (by simp) (by
    intro j s _ hj hs
    rw [hU.get hj hj]
    simp only [ok_bind, pure_eq_ok, Sat_ok]
    rw [Finset.prod_range_succ, hs, mul_assoc]))
  rw [h1, h2]

theorem determinant_ok (absv : AbsoluteValue T V) (eps : V) (doo : M → M → M → R (M × M × M × Nat))
    (hd : DooSpec absv eps doo) {A : M} (hA : Sq n A) :
    determinant doo A = .ok (toMat n A).det ∨ (eps ≠ 0 ∧ determinant doo A = .ok 0) := by
  obtain ⟨Z, z1, z2, z3⟩ := make_sq M hA.pos
  have hs := hd.1 n A Z Z hA z2 z2 z3 z3
  unfold determinant
  rw [hA.hr, hA.hc, z1]
  simp only [ok_bind]
  cases hr : doo A Z Z with
  | error e =>
    rw [hr] at hs
    obtain ⟨rfl, h0⟩ := hs
    simp only [error_bind, catchMath, Exc.isMath, if_true]
    by_cases he : eps = 0
    · left; rw [h0 he]
    · right; exact ⟨he, trivial⟩
  | ok r =>
    rw [hr] at hs
    obtain ⟨σ, hf⟩ := hs
    left
    simp only [ok_bind, hf.sqU.hr]
    rw [prodLoop hf.sqU, fact_det hf]
    rfl

theorem determinant_nonsquare (absv : AbsoluteValue T V) (eps : V) (doo : M → M → M → R (M × M × M × Nat))
    (hd : DooSpec absv eps doo) {A : M} (hA : Valid A) (h : rows A ≠ cols A) :
    determinant doo A = .ok (0 : T) := by
  obtain ⟨Z, z1, -⟩ := make_ok (M := M) (rows_pos hA) (cols_pos hA)
  unfold determinant
  rw [z1]
  simp only [ok_bind, hd.2 A Z Z h, error_bind, catchMath, Exc.isMath, if_true]

theorem fact_parts {absv : AbsoluteValue T V} {A L U P : M} {pc : Nat} {σ : Equiv.Perm (Fin n)}
    (h : Fact absv n A L U P pc σ) :
    lowerPart n L = toMat n L ∧ upperPart n U = toMat n U ∧
      toMat n L * toMat n U = toMat n P * toMat n A ∧ toMat n P = (1 : Matrix (Fin n) (Fin n) T).submatrix σ id := by
  have hp : toMat n P = (1 : Matrix (Fin n) (Fin n) T).submatrix σ id := by
    ext i j
    show val P i j = (1 : Matrix (Fin n) (Fin n) T) (σ i) j
    rw [h.pval, Matrix.one_apply]
    by_cases hij : j = σ i
    · rw [if_pos hij, if_pos hij.symm]
    · rw [if_neg hij, if_neg (fun hh => hij hh.symm)]
  refine ⟨?_, ?_, ?_, hp⟩
  · ext i j
    show (if j ≤ i then val L i j else 0) = val L i j
    split
    · rfl
    · rename_i hh
      have : i < j := not_le.1 hh
      have hlt : (i : Nat) < j := this
      rw [h.lower _ _ (le_of_lt hlt) j.2, if_neg (by omega)]
  · ext i j
    show (if i ≤ j then val U i j else 0) = val U i j
    split
    · rfl
    · rename_i hh
      have : j < i := not_le.1 hh
      exact (h.upper _ _ this).symm
  · rw [h.prod, hp]
    ext i j
    rw [Matrix.mul_apply, Finset.sum_eq_single (σ i)]
    · show (toMat n A) (σ i) j = (1 : Matrix (Fin n) (Fin n) T) (σ i) (σ i) * _
      rw [Matrix.one_apply_eq, one_mul]
    · intro b _ hb
      show (1 : Matrix (Fin n) (Fin n) T) (σ i) b * _ = 0
      rw [Matrix.one_apply_ne (Ne.symm hb), zero_mul]
    · simp

theorem perm_mul_inj {σ : Equiv.Perm (Fin n)} {X Y : Matrix (Fin n) (Fin n) T}
    (h : (1 : Matrix (Fin n) (Fin n) T).submatrix σ id * X = (1 : Matrix (Fin n) (Fin n) T).submatrix σ id * Y) : X = Y := by
  have key : ∀ Z : Matrix (Fin n) (Fin n) T, (1 : Matrix (Fin n) (Fin n) T).submatrix σ id * Z = Z.submatrix σ id := by
    intro Z
    ext i j
    rw [Matrix.mul_apply, Finset.sum_eq_single (σ i)]
    · show (1 : Matrix (Fin n) (Fin n) T) (σ i) (σ i) * _ = _
      rw [Matrix.one_apply_eq, one_mul]; rfl
    · intro b _ hb
      show (1 : Matrix (Fin n) (Fin n) T) (σ i) b * _ = 0
      rw [Matrix.one_apply_ne (Ne.symm hb), zero_mul]
    · simp
  rw [key, key] at h
  ext i j
  have := congrFun (congrFun h (σ.symm i)) j
  simpa using this

/-- `inverse(m)` when `doolittle` starts from cleared `L` and `P` (the sparse overload). -/
theorem inverse_sparse_ok (absv : AbsoluteValue T V) {eps : V} (heps : 0 ≤ eps) {A : M} (hA : Sq n A) :
    Sat (inverse absv eps (fun A _ _ => doolittleSparse absv eps A) A)
      (fun X => Sq n X ∧ toMat n A * toMat n X = 1)
      (fun e => e = .exc .singular ∧ (eps = 0 → (toMat n A).det = 0)) := by
  unfold inverse
  refine Sat.bind (doolittleSparse_spec' absv heps hA) ?_
  rintro ⟨L, U, P, pc⟩ ⟨σ, hf⟩
  simp only at hf ⊢
  obtain ⟨e1, e2, e3, e4⟩ := fact_parts hf
  refine (inverseLUP_ok absv eps hf.sqL hf.sqU hf.sqP).mono ?_ ?_
  · rintro X ⟨x1, x2, x3⟩
    have hne : ∀ a, a < n → val L a a ≠ 0 ∧ val U a a ≠ 0 := by
      intro a ha
      obtain ⟨h1, h2⟩ := x2 a ha
      constructor
      · intro h0; rw [h0, map_zero] at h1; exact h1 heps
      · intro h0; rw [h0, map_zero] at h2; exact h2 heps
    have := x3 hne
    rw [e1, e2, e3, e4, mul_assoc] at this
    refine ⟨x1, perm_mul_inj (σ := σ) ?_⟩
    rw [this, mul_one]
  · rintro e ⟨rfl, a, ha, h⟩
    refine ⟨rfl, fun he => ?_⟩
    subst he
    rcases h with h | h
    · rw [hf.lower a a (le_refl _) ha, if_pos rfl, map_one] at h
      exact absurd h (not_le.2 zero_lt_one)
    · have h0 : val U a a = 0 := absv.eq_zero.1 (le_antisymm h (absv.nonneg _))
      rw [fact_det hf, Finset.prod_eq_zero (f := fun i => val U i i) (Finset.mem_range.2 ha) h0, mul_zero]

end Operations
end NS

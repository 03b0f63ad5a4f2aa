/-
`inverse(L,U)` on factors with unit diagonals.
-/
import Verif.LUMore

set_option linter.unusedSectionVars false
set_option linter.unusedSimpArgs false

namespace NS
open MatOps LawfulMat

namespace LU
variable {M T V : Type} [Field T] [DecidableEq T] [MatOps M T] [LawfulMat M T]
variable {n : Nat}

theorem ainvU_unit [LinearOrder V] (absv : T → V) {eps : V} (h1 : ¬ absv 1 ≤ eps) {U X : M} (hU : Sq n U) (hX : Sq n X)
    (hu : ∀ i j, j ≤ i → i < n → val U i j = if i = j then 1 else 0) {k : Nat} (hk : k < n) (hz : ∀ a, val X a k = 0) :
    ∃ Y : M, ainvU absv eps U n k X = .ok Y ∧ Sq n Y ∧ (∀ a b, b ≠ k → val Y a b = val X a b) ∧
      (2 * k ≤ n → ∀ a, a < n → ∑ c ∈ Finset.range n, val U a c * val Y c k = if a = k then 1 else 0) := by
  unfold ainvU
  have hmid : ∀ i, i < n → val U i i = 1 := fun i hi => by rw [hu i i (le_refl _) hi, if_pos rfl]
  obtain ⟨X1, p1, p2, p3⟩ := hX.put (1 / 1 : T) (i := k) (j := k) hk hk
  simp only [hU.get hk hk, hmid k hk, p1, ok_bind]
  -- rows from `k` on need no work
  have top : ∀ Y : M, val Y k k = 1 → (∀ a, k < a → val Y a k = 0) → ∀ a, k ≤ a → a < n →
      ∑ c ∈ Finset.range n, val U a c * val Y c k = if a = k then 1 else 0 := by
    intro Y y1 y2 a ha han
    rw [Finset.sum_eq_single k]
    · rw [y1, mul_one, hu a k ha han]
    · intro c _ hc
      by_cases hck : k < c
      · rw [y2 c hck, mul_zero]
      · rw [hu a c (by omega) han, if_neg (by omega), zero_mul]
    · intro h; exact absurd (Finset.mem_range.2 hk) h
  apply Sat.ok_of
  refine (sat_downFrom (fun j (Y : M) => Sq n Y ∧ (∀ a b, b ≠ k → val Y a b = val X a b) ∧ val Y k k = 1 ∧
      (∀ a, k < a → val Y a k = 0) ∧ (∀ a, a < j → a ≠ k → val Y a k = 0) ∧
      ∀ a, a < n → j ≤ a → a ≤ n - 1 - k → a < k → ∑ c ∈ Finset.range n, val U a c * val Y c k = 0) _ _ ?_ ?_).mono ?_ (fun _ h => h)
  · exact ⟨p2, fun a b hb => by rw [p3, if_neg (by tauto)], by rw [p3, if_pos ⟨rfl, rfl⟩, div_one],
      fun a ha => by rw [p3, if_neg (by omega), hz], fun a _ hak => by rw [p3, if_neg (by tauto), hz], fun a _ h h' => by omega⟩
  · rintro j Y hj ⟨hY, c1, c2, c3, c4, c5⟩
    have hjn : j < n := by omega
    obtain ⟨l, l1, l2, l3, l4⟩ := hU.row_sum hjn
    simp only [hY.get hjn hk, l1, ok_bind]
    rw [dropWhile_eq_filter (fun e : Nat × Nat × T => e.2.1) (j + 1) l l2,
      takeWhile_eq_filter (fun e : Nat × Nat × T => e.2.1) (k + 1) _ (l2.filter _), List.filter_filter]
    rw [subSum_ok (fun c => get Y c k) (fun c => val Y c k) _ _ (fun e he =>
      hY.get (l3 e (List.mem_filter.1 he).1) hk)]
    have hs := l4 (fun c => decide (c < k + 1) && decide (j + 1 ≤ c)) (fun c => val Y c k)
    rw [hs, ok_bind, hU.get hjn hjn, ok_bind, hmid j hjn, throwIf_false _ h1, ok_bind]
    obtain ⟨W, q1, q2, q3⟩ := hY.put ((val Y j k - ∑ c ∈ Finset.range n,
      if (decide (c < k + 1) && decide (j + 1 ≤ c)) = true then val U j c * val Y c k else 0) / 1) (i := j) (j := k) hjn hk
    rw [q1]
    by_cases hjk : j < k
    · refine ⟨q2, fun a b hb => by rw [q3, if_neg (by tauto), c1 _ _ hb], by rw [q3, if_neg (by omega), c2],
        fun a ha => by rw [q3, if_neg (by omega), c3 a ha], fun a ha hak => by rw [q3, if_neg (by omega), c4 a (by omega) hak], fun a han ha ha' hak => ?_⟩
      by_cases haj : a = j
      · subst haj
        rw [← Finset.add_sum_erase _ _ (Finset.mem_range.2 hjn), q3, if_pos ⟨rfl, rfl⟩, c4 a (by omega) (by omega), hmid a hjn]
        have : ∑ c ∈ (Finset.range n).erase a, val U a c * val W c k = ∑ c ∈ Finset.range n,
            if (decide (c < k + 1) && decide (a + 1 ≤ c)) = true then val U a c * val Y c k else 0 := by
          rw [← Finset.add_sum_erase (Finset.range n) (fun c => if (decide (c < k + 1) && decide (a + 1 ≤ c)) = true then val U a c * val Y c k else 0)
              (Finset.mem_range.2 hjn)]
          rw [if_neg (by simp), zero_add]
          refine Finset.sum_congr rfl (fun c hc => ?_)
          obtain ⟨e1, e2⟩ := Finset.mem_erase.1 hc
          rw [q3, if_neg (by tauto)]
          by_cases hca : a < c
          · by_cases hck : c < k + 1
            · rw [if_pos (by simp; omega)]
            · rw [if_neg (by simp; omega), c3 c (by omega), mul_zero]
          · rw [if_neg (by simp; omega), hu a c (by omega) hjn, if_neg (Ne.symm e1), zero_mul]
        rw [this]; ring
      · rw [← c5 a han (by omega) ha' hak]
        refine Finset.sum_congr rfl (fun c hc => ?_)
        rw [q3]
        by_cases hcj : c = j
        · subst hcj
          rw [if_pos ⟨rfl, rfl⟩, hu a c (by omega) han, if_neg (by omega), zero_mul, zero_mul]
        · rw [if_neg (by tauto)]
    · have hW : ∀ a b, val W a b = val Y a b := by
        intro a b
        rw [q3]
        by_cases h : a = j ∧ b = k
        · rw [if_pos h, h.1, h.2, div_one, Finset.sum_eq_zero, sub_zero]
          intro c _
          by_cases hc : c < k + 1 ∧ j + 1 ≤ c
          · omega
          · rw [if_neg (by simp; omega)]
        · rw [if_neg h]
      simp only [Sat_ok, hW]
      exact ⟨q2, c1, c2, c3, fun a ha => c4 a (by omega), fun a han ha ha' hak => by omega⟩
  · rintro Y ⟨hY, c1, c2, c3, c4, c5⟩
    refine ⟨hY, c1, fun h2 a ha => ?_⟩
    by_cases hak : k ≤ a
    · exact top Y c2 c3 a hak ha
    · rw [if_neg (by omega), c5 a ha (Nat.zero_le _) (by omega) (by omega)]

theorem ainvLu_U [LinearOrder V] (absv : T → V) {eps : V} (h1 : ¬ absv 1 ≤ eps) {L U X Y : M} (hL : Sq n L) (hU : Sq n U)
    (hX : Sq n X) (hY : Sq n Y) (hl : ∀ i j, i ≤ j → j < n → val L i j = if i = j then 1 else 0)
    (hu : ∀ i j, j ≤ i → i < n → val U i j = if i = j then 1 else 0) (hz : ∀ i j, val X i j = 0) (hz' : ∀ i j, val Y i j = 0) :
    ∃ r : M × M, ainvLu absv eps L U X Y = .ok r ∧ Sq n r.2 ∧
      ∀ a b, a < n → b < n → 2 * b ≤ n → ∑ c ∈ Finset.range n, val U a c * val r.2 c b = if a = b then 1 else 0 := by
  unfold ainvLu
  rw [throwIf_false _ (by rw [hL.hr, hL.hc]; simp), throwIf_false _ (by rw [hU.hr, hU.hc]; simp),
    throwIf_false _ (by rw [hX.hr, hX.hc]; simp), throwIf_false _ (by rw [hY.hr, hY.hc]; simp),
    throwIf_false _ (by rw [hL.hr, hU.hr]; simp), throwIf_false _ (by rw [hL.hr, hX.hr]; simp),
    throwIf_false _ (by rw [hL.hr, hY.hr]; simp)]
  simp only [ok_bind, hL.hc]
  apply Sat.ok_of
  refine (sat_forRange (fun k (r : M × M) => Sq n r.1 ∧ Sq n r.2 ∧ (∀ i j, k ≤ j → val r.1 i j = 0) ∧ (∀ i j, k ≤ j → val r.2 i j = 0) ∧
      ∀ a b, a < n → b < k → 2 * b ≤ n → ∑ c ∈ Finset.range n, val U a c * val r.2 c b = if a = b then 1 else 0)
      (Nat.zero_le _) ⟨hX, hY, fun i j _ => hz i j, fun i j _ => hz' i j, fun _ _ _ h => by omega⟩ ?_).mono ?_ (fun _ h => h)
  · rintro k ⟨A, B⟩ _ hk ⟨hA, hB, c1, c2, c3⟩
    simp only at hA hB c1 c2 c3
    obtain ⟨A', a1, a2, a3, -, -⟩ := ainvL_ok hL hA hl hk (fun i => c1 i k (le_refl _))
    obtain ⟨B', b1, b2, b3, b4⟩ := ainvU_unit absv h1 hU hB hu hk (fun i => c2 i k (le_refl _))
    simp only [a1, b1, ok_bind, pure_eq_ok, Sat_ok]
    refine ⟨a2, b2, fun i j hj => ?_, fun i j hj => ?_, fun a b ha hb h2 => ?_⟩
    · rw [a3 _ _ (by omega)]; exact c1 _ _ (by omega)
    · rw [b3 _ _ (by omega)]; exact c2 _ _ (by omega)
    · by_cases hbk : b = k
      · subst hbk; exact b4 h2 a ha
      · rw [← c3 a b ha (by omega) h2]
        exact Finset.sum_congr rfl (fun c _ => by rw [b3 _ _ hbk])
  · rintro ⟨A, B⟩ ⟨-, hB, -, -, c3⟩
    exact ⟨hB, fun a b ha hb h2 => c3 a b ha hb h2⟩
end LU

namespace Operations
open LU
variable {M T V : Type} [Field T] [DecidableEq T] [MatOps M T] [LawfulMat M T]
variable {n : Nat}

/-- `for e in l: X(j,i) -= e.value * X(e.column,i)` -/
theorem subCol_ok {i j : Nat} (hi : i < n) (hj : j < n) : ∀ (l : List (Nat × Nat × T)) (X : M), Sq n X →
    (∀ e ∈ l, e.2.1 < n ∧ e.2.1 ≠ j) →
    ∃ Y : M, forList l X (fun e X => do
      let a ← get X j i
      let b ← get X e.2.1 i
      put X j i (a - e.2.2 * b)) = .ok Y ∧ Sq n Y ∧
      ∀ a b, val Y a b = if a = j ∧ b = i then val X j i - (l.map (fun e => e.2.2 * val X e.2.1 i)).sum else val X a b
  | [], X, hX, _ => ⟨X, rfl, hX, fun a b => by
      by_cases h : a = j ∧ b = i
      · rw [if_pos h, h.1, h.2]; simp
      · rw [if_neg h]⟩
  | e :: l, X, hX, h => by
      obtain ⟨h1, h2⟩ := h e (by simp)
      obtain ⟨W, q1, q2, q3⟩ := hX.put (val X j i - e.2.2 * val X e.2.1 i) (i := j) (j := i) hj hi
      obtain ⟨Y, r1, r2, r3⟩ := subCol_ok hi hj l W q2 (fun e' he' => h e' (by simp [he']))
      refine ⟨Y, ?_, r2, fun a b => ?_⟩
      · simp only [forList, hX.get hj hi, hX.get h1 hi, ok_bind, q1]
        exact r1
      · rw [r3]
        by_cases hab : a = j ∧ b = i
        · rw [if_pos hab, if_pos hab, q3, if_pos ⟨rfl, rfl⟩, List.map_cons, List.sum_cons]
          have : l.map (fun e' => e'.2.2 * val W e'.2.1 i) = l.map (fun e' => e'.2.2 * val X e'.2.1 i) := by
            apply List.map_congr_left
            intro e' he'
            rw [q3, if_neg (fun hh => (h e' (by simp [he'])).2 hh.1)]
          rw [this]; ring
        · rw [if_neg hab, if_neg hab, q3, if_neg hab]

theorem inverseLUStep_ok [LinearOrder V] (absv : T → V) {eps : V} (h1 : ¬ absv 1 ≤ eps) {L U X : M} (hL : Sq n L) (hU : Sq n U) (hX : Sq n X)
    (hl : ∀ i j, i ≤ j → j < n → val L i j = if i = j then 1 else 0)
    (hu : ∀ i j, j ≤ i → i < n → val U i j = if i = j then 1 else 0) {i : Nat} (hi : i < n) (hz : ∀ a, val X a i = 0) :
    ∃ Y : M, inverseLUStep absv eps L U i X = .ok Y ∧ Sq n Y ∧ (∀ a b, b ≠ i → val Y a b = val X a b) ∧
      ∃ y : Nat → T, (∀ a, a < n → ∑ c ∈ Finset.range n, val L a c * y c = if a = i then 1 else 0) ∧
        ∀ a, a < n → ∑ c ∈ Finset.range n, val U a c * val Y c i = y a := by
  have hn := hU.pos
  unfold inverseLUStep
  obtain ⟨X1, p1, p2, p3⟩ := hX.put (1 : T) (i := i) (j := i) hi hi
  simp only [p1, ok_bind, hL.hr, hU.hr]
  have fwd : ∃ Y : M, (forRange (i + 1) n X1 fun j Inv => do
      let l ← rowEntries L j
      forList (l.takeWhile (fun e => decide (e.2.1 < j))) Inv fun e Inv => do
        let a ← get Inv j i
        let b ← get Inv e.2.1 i
        put Inv j i (a - e.2.2 * b)) = .ok Y ∧ Sq n Y ∧ (∀ a b, b ≠ i → val Y a b = val X a b) ∧
        ∀ a, a < n → ∑ c ∈ Finset.range n, val L a c * val Y c i = if a = i then 1 else 0 := by
    apply Sat.ok_of
    refine (sat_forRange (fun j (Y : M) => Sq n Y ∧ (∀ a b, b ≠ i → val Y a b = val X a b) ∧
      (∀ a, j ≤ a → val Y a i = 0) ∧
      ∀ a, a < j → ∑ c ∈ Finset.range n, val L a c * val Y c i = if a = i then 1 else 0)
      (show i + 1 ≤ n by omega) ?_ ?_).mono (fun Y h => ⟨h.1, h.2.1, h.2.2.2⟩) (fun _ h => h)
    · refine ⟨p2, fun a b hb => by rw [p3, if_neg (by tauto)], fun a ha => by rw [p3, if_neg (by omega), hz], fun a ha => ?_⟩
      rw [Finset.sum_eq_single i]
      · rw [p3, if_pos ⟨rfl, rfl⟩, mul_one, hl a i (by omega) hi]
      · intro c _ hc; rw [p3, if_neg (by tauto), hz, mul_zero]
      · intro h; exact absurd (Finset.mem_range.2 hi) h
    · rintro j Y hj hjn ⟨hY, c1, c4, c5⟩
      obtain ⟨l, l1, l2, l3, l4⟩ := hL.row_sum hjn
      simp only [l1, ok_bind]
      rw [takeWhile_eq_filter (fun e : Nat × Nat × T => e.2.1) j l l2]
      obtain ⟨W, q1, q2, q3⟩ := subCol_ok hi hjn (l.filter fun e => decide (e.2.1 < j)) Y hY (fun e he => by
        obtain ⟨e1, e2⟩ := List.mem_filter.1 he
        have := l3 e e1
        simp at e2; omega)
      have hs := l4 (fun c => decide (c < j)) (fun c => val Y c i)
      rw [hs] at q3
      rw [q1]
      refine ⟨q2, fun a b hb => by rw [q3, if_neg (by tauto), c1 _ _ hb], fun a ha => by rw [q3, if_neg (by omega), c4 a (by omega)], fun a ha => ?_⟩
      by_cases haj : a = j
      · subst haj
        rw [← Finset.add_sum_erase _ _ (Finset.mem_range.2 hjn), q3, if_pos ⟨rfl, rfl⟩, c4 a (le_refl _), hl a a (le_refl _) hjn,
          if_pos rfl, if_neg (show ¬ a = i by omega)]
        have : ∑ c ∈ (Finset.range n).erase a, val L a c * val W c i = ∑ c ∈ Finset.range n,
            if decide (c < a) = true then val L a c * val Y c i else 0 := by
          rw [← Finset.add_sum_erase (Finset.range n) (fun c => if decide (c < a) = true then val L a c * val Y c i else 0)
              (Finset.mem_range.2 hjn)]
          rw [if_neg (by simp), zero_add]
          refine Finset.sum_congr rfl (fun c hc => ?_)
          obtain ⟨e1, e2⟩ := Finset.mem_erase.1 hc
          rw [q3, if_neg (by tauto)]
          by_cases hca : c < a
          · rw [if_pos (by simp [hca])]
          · rw [if_neg (by simp [hca]), hl a c (by omega) (Finset.mem_range.1 e2), if_neg (Ne.symm e1), zero_mul]
        rw [this]; ring
      · rw [← c5 a (by omega)]
        refine Finset.sum_congr rfl (fun c hc => ?_)
        rw [q3]
        by_cases hcj : c = j
        · subst hcj
          rw [if_pos ⟨rfl, rfl⟩, hl a c (by omega) hjn, if_neg (by omega), zero_mul, zero_mul]
        · rw [if_neg (by tauto)]
  obtain ⟨X2, f1, f2, f3, f4⟩ := fwd
  rw [f1, ok_bind]
  suffices h : ∃ Y : M, downFrom (fun j Inv => do
      let l ← rowEntries U j
      let Inv ← forList l Inv fun e Inv =>
        if e.2.1 < j + 1 then return Inv
        else do
          let a ← get Inv j i
          let b ← get Inv e.2.1 i
          put Inv j i (a - e.2.2 * b)
      let mid ← get U j j
      throwIf (absv mid ≤ eps) .singular
      let a ← get Inv j j
      put Inv j j (a / mid)) (n - 1) X2 = .ok Y ∧ Sq n Y ∧ (∀ a b, b ≠ i → val Y a b = val X a b) ∧
      ∀ a, a < n → ∑ c ∈ Finset.range n, val U a c * val Y c i = val X2 a i by
    obtain ⟨Y, g1, g2, g3, g4⟩ := h
    exact ⟨Y, g1, g2, g3, fun c => val X2 c i, f4, g4⟩
  apply Sat.ok_of
  refine (sat_downFrom (fun j (Y : M) => Sq n Y ∧ (∀ a b, b ≠ i → val Y a b = val X a b) ∧
    (∀ a, a < j → val Y a i = val X2 a i) ∧
    ∀ a, j ≤ a → a < n → ∑ c ∈ Finset.range n, val U a c * val Y c i = val X2 a i) (n - 1) X2
    ⟨f2, f3, fun _ _ => rfl, fun a h _ => by omega⟩ ?_).mono (fun Y h => ⟨h.1, h.2.1, fun a ha => h.2.2.2 a (Nat.zero_le _) ha⟩) (fun _ h => h)
  rintro j Y hj ⟨hY, c1, c2, c3⟩
  have hjn : j < n := by omega
  obtain ⟨l, l1, l2, l3, l4⟩ := hU.row_sum hjn
  simp only [l1, ok_bind]
  rw [forList_skip (fun e : Nat × Nat × T => e.2.1 < j + 1)]
  obtain ⟨W, q1, q2, q3⟩ := subCol_ok hi hjn (l.filter (fun e => !decide (e.2.1 < j + 1))) Y hY (fun e he => by
    obtain ⟨e1, e2⟩ := List.mem_filter.1 he
    have := l3 e e1
    simp at e2; omega)
  have hs := l4 (fun c => !decide (c < j + 1)) (fun c => val Y c i)
  rw [hs] at q3
  have hmid : val U j j = 1 := by rw [hu j j (le_refl _) hjn, if_pos rfl]
  rw [q1, ok_bind, hU.get hjn hjn, ok_bind, hmid, throwIf_false _ h1, ok_bind, q2.get hjn hjn, ok_bind]
  obtain ⟨Z, z1, z2, z3⟩ := q2.put (val W j j / 1) (i := j) (j := j) hjn hjn
  rw [z1]
  have hZ : ∀ a b, val Z a b = val W a b := by
    intro a b
    rw [z3]
    by_cases h : a = j ∧ b = j
    · rw [if_pos h, h.1, h.2, div_one]
    · rw [if_neg h]
  refine ⟨z2, fun a b hb => by rw [hZ, q3, if_neg (by tauto), c1 _ _ hb], fun a ha => by rw [hZ, q3, if_neg (by omega), c2 a (by omega)], fun a ha han => ?_⟩
  simp only [hZ]
  by_cases haj : a = j
  · subst haj
    rw [← Finset.add_sum_erase _ _ (Finset.mem_range.2 hjn), q3, if_pos ⟨rfl, rfl⟩, c2 a (by omega), hmid]
    have : ∑ c ∈ (Finset.range n).erase a, val U a c * val W c i = ∑ c ∈ Finset.range n,
        if (!decide (c < a + 1)) = true then val U a c * val Y c i else 0 := by
      rw [← Finset.add_sum_erase (Finset.range n) (fun c => if (!decide (c < a + 1)) = true then val U a c * val Y c i else 0)
          (Finset.mem_range.2 hjn)]
      rw [if_neg (by simp), zero_add]
      refine Finset.sum_congr rfl (fun c hc => ?_)
      obtain ⟨e1, e2⟩ := Finset.mem_erase.1 hc
      rw [q3, if_neg (by tauto)]
      by_cases hca : a < c
      · rw [if_pos (by simp; omega)]
      · rw [if_neg (by simp; omega), hu a c (by omega) hjn, if_neg (Ne.symm e1), zero_mul]
    rw [this]; ring
  · rw [← c3 a (by omega) han]
    refine Finset.sum_congr rfl (fun c hc => ?_)
    rw [q3]
    by_cases hcj : c = j
    · subst hcj
      rw [if_pos ⟨rfl, rfl⟩, hu a c (by omega) han, if_neg (by omega), zero_mul, zero_mul]
    · rw [if_neg (by tauto)]

theorem inverseLU_ok [LinearOrder V] (absv : T → V) {eps : V} (h1 : ¬ absv 1 ≤ eps) {L U : M} (hL : Sq n L) (hU : Sq n U)
    (hl : ∀ i j, i ≤ j → j < n → val L i j = if i = j then 1 else 0)
    (hu : ∀ i j, j ≤ i → i < n → val U i j = if i = j then 1 else 0) :
    ∃ B : M, inverseLU absv eps L U = .ok B ∧ Sq n B ∧ toMat n L * toMat n U * toMat n B = 1 := by
  have hn := hU.pos
  unfold inverseLU
  obtain ⟨X, m1, m2, m3, m4, m5⟩ := make_ok (M := M) hn hn
  rw [throwIf_false _ (by rw [hL.hr, hL.hc]; simp), throwIf_false _ (by rw [hU.hr, hU.hc]; simp),
    throwIf_false _ (by rw [hL.hr, hU.hr]; simp)]
  simp only [ok_bind, hL.hc, hL.hr, m1]
  apply Sat.ok_of
  refine (sat_forRange (fun k (B : M) => Sq n B ∧ (∀ a b, k ≤ b → val B a b = 0) ∧
      ∀ b, b < k → ∃ y : Nat → T, (∀ a, a < n → ∑ c ∈ Finset.range n, val L a c * y c = if a = b then 1 else 0) ∧
        ∀ a, a < n → ∑ c ∈ Finset.range n, val U a c * val B c b = y a)
      (Nat.zero_le _) ⟨⟨m2, m3, m4⟩, fun a b _ => m5 a b, fun _ h => by omega⟩ ?_).mono ?_ (fun _ h => h)
  · rintro k B _ hk ⟨hB, c1, c2⟩
    obtain ⟨Y, y1, y2, y3, y4⟩ := inverseLUStep_ok absv h1 hL hU hB hl hu hk (fun a => c1 a k (le_refl _))
    rw [y1]
    refine ⟨y2, fun a b hb => by rw [y3 _ _ (by omega), c1 _ _ (by omega)], fun b hb => ?_⟩
    by_cases hbk : b = k
    · subst hbk; exact y4
    · obtain ⟨y, e1, e2⟩ := c2 b (by omega)
      exact ⟨y, e1, fun a ha => by rw [← e2 a ha]; exact Finset.sum_congr rfl (fun c _ => by rw [y3 _ _ hbk])⟩
  · rintro B ⟨hB, -, c2⟩
    refine ⟨hB, ?_⟩
    ext i j
    obtain ⟨y, e1, e2⟩ := c2 j j.2
    rw [mul_assoc, Matrix.mul_apply, Matrix.one_apply]
    have := e1 i i.2
    rw [Finset.sum_range] at this
    simp only [Fin.ext_iff]
    rw [← this]
    refine Finset.sum_congr rfl (fun c _ => ?_)
    congr 1
    rw [Matrix.mul_apply, ← e2 c c.2, Finset.sum_range]
    rfl
end Operations
end NS

/-
`cholesky` in an arithmetic with rounding: loop invariants for the backward error.
-/
import Verif.RoundLU

set_option linter.unusedSectionVars false
set_option linter.unusedSimpArgs false

namespace NS.Rounding
open NS NS.MatOps NS.LawfulStore NS.LU

variable {F K : Type} [Zero F] [One F] [Add F] [Sub F] [Mul F] [Div F] [Field K] [LinearOrder K] [IsStrictOrderedRing K]
variable {fl : F → K} {u : K} {n : Nat}
variable {M : Type} [MatOps M F] [LawfulStore M F]

/-- the rounded inner product of the first `j` entries of two rows, in the order of the code -/
def rowDot (L : Nat → Nat → F) (a b j : Nat) : F := (List.range j).foldl (fun s k => s + L a k * L b k) 0

theorem rowDot_congr {L L' : Nat → Nat → F} {a b j : Nat} (h : ∀ k, k < j → L' a k = L a k) (h' : ∀ k, k < j → L' b k = L b k) :
    rowDot L' a b j = rowDot L a b j := by
  unfold rowDot
  refine List.foldl_ext _ _ _ fun s k hk => ?_
  have := List.mem_range.1 hk
  rw [h k this, h' k this]

theorem rowDot_round (h : Std fl u) (L : Nat → Nat → F) (a b j : Nat) :
    ∃ t : Nat → K, (∀ k, Th u (j + 1) (t k)) ∧ fl (rowDot L a b j) = ∑ k ∈ Finset.range j, fl (L a k) * fl (L b k) * t k := by
  obtain ⟨t, t1, t2⟩ := h.sumFold_zero id (fun k => L a k * L b k) (List.range j) (range_pairwise _)
  rw [List.length_range] at t1
  choose d d1 d2 using fun k : Nat => h.mul_th (L a k) (L b k)
  refine ⟨fun k => d k * t k, fun k => h.th_mono ((d1 k).mul h.u_lt (t1 k)) (by omega), ?_⟩
  unfold rowDot
  rw [t2, sum_range_map]
  exact Finset.sum_congr rfl fun k _ => by rw [d2]; simp only [id]; ring

theorem sum_trunc' {f : Nat → K} {i j : Nat} (hij : j ≤ i) (h : ∀ k, j ≤ k → k < i → f k = 0) :
    ∑ k ∈ Finset.range i, f k = ∑ k ∈ Finset.range j, f k := by
  symm
  apply Finset.sum_subset
  · intro k; simp; omega
  · intro k h1 h2
    exact h k (by simpa using h2) (by simpa using h1)

/-- the equation of entry `(a,t)`, `t <= a`: the entry of the matrix is the perturbed inner product of rows `a` and `t` of `L` -/
def CEq (fl : F → K) (u : K) (n : Nat) (m : F) (L : Nat → Nat → F) (a t : Nat) : Prop :=
  ∃ τ : Nat → K, (∀ k, Th u (n + 4) (τ k)) ∧
    fl m = ∑ k ∈ Finset.range (t + 1), fl (L a k) * fl (L t k) * τ k

theorem cholesky_round [DecidableEq F] (h : Std fl u) (sqrtAllowed : F → Bool) (na : Bool) (sqrt : F → F)
    (hsqrt : ∀ s, sqrtAllowed s = true → ∃ δ, Th u 1 δ ∧ fl (sqrt s) ^ 2 = fl s * δ ^ 2)
    {m L : M} (hm : Sq n m) (hL : Sq n L) (hz : ∀ i j, val L i j = 0) :
    Sat (cholesky sqrtAllowed na sqrt m L)
      (fun L => Sq n L ∧ (∀ a t, a < t → val L a t = 0) ∧
        ∀ t, t < n → sqrtAllowed (val m t t - rowDot (val L) t t t) = true ∧ fl (val m t t - rowDot (val L) t t t) ≠ 0 ∧
          (fl (val m t t - rowDot (val L) t t t) ≠ 0 → fl (val L t t) ≠ 0 ∧ ∀ a, t ≤ a → a < n → CEq fl u n (val m a t) (val L) a t))
      (fun e => e = .exc .notPositiveDefinite ∨ e = .nonfinite) := by
  unfold cholesky
  rw [throwIf_false _ (by rw [hm.hr, hm.hc]; simp), throwIf_false _ (by rw [hm.hr, hm.hc, hL.hr, hL.hc]; simp)]
  simp only [ok_bind, hL.hr]
  refine (sat_forRange (fun j L => Sq n L ∧ (∀ a t, a < t ∨ j ≤ t → val L a t = 0) ∧
        ∀ t, t < j → sqrtAllowed (val m t t - rowDot (val L) t t t) = true ∧ fl (val m t t - rowDot (val L) t t t) ≠ 0 ∧
          (fl (val m t t - rowDot (val L) t t t) ≠ 0 → fl (val L t t) ≠ 0 ∧ ∀ a, t ≤ a → a < n → CEq fl u n (val m a t) (val L) a t))
      (Nat.zero_le _) ⟨hL, fun a t _ => hz a t, fun t h => by omega⟩ ?_).mono ?_ (fun _ h => h)
  · rintro j X _ hj ⟨hX, z, hS⟩
    rw [forRange_fold (g := fun k s => s + val X j k * val X j k) j _ (fun k hk s => by rw [hX.get hj (by omega)]; rfl)]
    simp only [ok_bind, hm.get hj hj]
    have hfold : (List.range j).foldl (fun s k => s + val X j k * val X j k) 0 = rowDot (val X) j j j := rfl
    rw [hfold]
    set s := val m j j - rowDot (val X) j j j with hs
    by_cases hsa : sqrtAllowed s = false
    · rw [throwIf_true _ hsa]; exact Or.inl rfl
    rw [throwIf_false _ hsa]
    obtain ⟨δ, δ1, δ2⟩ := hsqrt s (by simpa using hsa)
    have hδ := (δ1.pos h.u_lt).ne'
    have hsqne : fl s ≠ 0 → fl (sqrt s) ≠ 0 := by
      intro h0 h1
      rw [h1] at δ2
      have : fl s * δ ^ 2 ≠ 0 := mul_ne_zero h0 (pow_ne_zero _ hδ)
      exact this (by rw [← δ2]; ring)
    obtain ⟨Y, p1, p2, p3⟩ := hX.put (sqrt s) (i := j) (j := j) hj hj
    simp only [ok_bind, p1]
    rw [p2.hr]
    by_cases h0 : sqrt s = 0
    · rw [if_pos h0]
      unfold zeroPivot
      split
      · exact Or.inr rfl
      · exact Or.inl rfl
    rw [if_neg h0]
    have hs0 : fl s ≠ 0 := by
      intro h1
      rw [h1, MulZeroClass.zero_mul] at δ2
      exact h0 (h.eq_zero.1 (pow_eq_zero_iff (two_ne_zero) |>.1 δ2))
    refine (sat_forRange (fun i (Z : M) => Sq n Z ∧ (∀ a t, t ≠ j → val Z a t = val X a t) ∧
        (∀ a, a < j → val Z a j = 0) ∧ (∀ a, i ≤ a → a ≠ j → val Z a j = 0) ∧
        (val Z j j = if j < i then s / sqrt s else sqrt s) ∧
        (fl s ≠ 0 → ∀ a, j ≤ a → a < i → ∃ τ : Nat → K, (∀ k, Th u (n + 4) (τ k)) ∧
          fl (val m a j) = ∑ k ∈ Finset.range j, fl (val X a k) * fl (val X j k) * τ k
            + fl (val Z a j) * fl (s / sqrt s) * τ j)) (show j ≤ n by omega)
        ?_ ?_).mono ?_ (fun _ h => h)
    · refine ⟨p2, fun a t ht => ?_, fun a ha => ?_, fun a ha hne => ?_, ?_, fun _ a h1 h2 => by omega⟩
      · rw [p3, if_neg (by tauto)]
      · rw [p3, if_neg (by omega)]; exact z _ _ (Or.inr (le_refl _))
      · rw [p3, if_neg (by tauto)]; exact z _ _ (Or.inr (le_refl _))
      · rw [p3, if_pos ⟨rfl, rfl⟩, if_neg (by omega)]
    · rintro i Z hi hin ⟨hZ, c1, c2, c3, c4, c5⟩
      rw [forRange_fold (g := fun k s => s + val Z i k * val Z j k) i _ (fun k hk s => by
        rw [hZ.get hin (by omega), hZ.get hj (by omega)]; rfl)]
      simp only [ok_bind, hm.get hin hj, hZ.get hj hj]
      have hfold : (List.range i).foldl (fun s k => s + val Z i k * val Z j k) 0 = rowDot (val Z) i j i := rfl
      rw [hfold]
      obtain ⟨W, q1, q2, q3⟩ := hZ.put ((val m i j - rowDot (val Z) i j i) / val Z j j) (i := i) (j := j) hin hj
      simp only [q1, Sat_ok]
      -- the rounded sum at the level of `K`
      obtain ⟨t, t1, t2⟩ := rowDot_round h (val Z) i j i
      have t3 : fl (rowDot (val Z) i j i) = ∑ k ∈ Finset.range j, fl (val X i k) * fl (val X j k) * t k := by
        rw [t2, sum_trunc' hi]
        · refine Finset.sum_congr rfl fun k hk => ?_
          have := Finset.mem_range.1 hk
          rw [c1 _ _ (by omega), c1 _ _ (by omega)]
        · intro k h1 h2
          by_cases hkj : k = j
          · subst hkj; rw [c3 i (le_refl _) (by omega), h.zero]; ring
          · rw [c1 j k hkj, z j k (Or.inl (by omega)), h.zero]; ring
      refine ⟨q2, fun a t ht => ?_, fun a ha => ?_, fun a ha hne => ?_, ?_, fun hne a h1 h2 => ?_⟩
      · rw [q3, if_neg (by tauto), c1 _ _ ht]
      · rw [q3, if_neg (by omega), c2 _ ha]
      · rw [q3, if_neg (by omega), c3 _ (by omega) hne]
      · rw [q3]
        by_cases hij : j = i
        · subst hij
          rw [if_pos ⟨rfl, rfl⟩, if_pos (by omega), c4, if_neg (by omega)]
          rw [rowDot_congr (L := val X) (fun k hk => c1 _ _ (by omega)) (fun k hk => c1 _ _ (by omega))]
        · rw [if_neg (by tauto), c4, if_pos (by omega), if_pos (by omega)]
      · by_cases hai : a = i
        · subst hai
          rw [q3, if_pos ⟨rfl, rfl⟩]
          have hsq0 := hsqne hne
          obtain ⟨e, e1, e2⟩ := h.sub_th (val m a j) (rowDot (val Z) a j a)
          have he := (e1.pos h.u_lt).ne'
          by_cases haj : j < a
          · -- below the diagonal
            rw [c4, if_pos haj]
            obtain ⟨f0, f1, f2⟩ := h.div_th s (sqrt s) hsq0
            have hf0 := (f1.pos h.u_lt).ne'
            have hd : fl (s / sqrt s) ≠ 0 := by
              rw [f2]; exact mul_ne_zero (div_ne_zero hne hsq0) hf0
            obtain ⟨g, g1, g2⟩ := h.div_th (val m a j - rowDot (val Z) a j a) (s / sqrt s) hd
            have hg := (g1.pos h.u_lt).ne'
            refine ⟨fun k => if k = j then e⁻¹ * g⁻¹ else t k, fun k => ?_, ?_⟩
            · show Th u (n + 4) (if k = j then e⁻¹ * g⁻¹ else t k)
              split
              · exact h.th_mono ((e1.inv h.u_lt).mul h.u_lt (g1.inv h.u_lt)) (by omega)
              · exact h.th_mono (t1 k) (by omega)
            · simp only [if_true]
              have : ∑ k ∈ Finset.range j, fl (val X a k) * fl (val X j k) * (if k = j then e⁻¹ * g⁻¹ else t k)
                  = fl (rowDot (val Z) a j a) := by
                rw [t3]
                refine Finset.sum_congr rfl fun k hk => ?_
                have := Finset.mem_range.1 hk
                rw [if_neg (by omega)]
              rw [this, g2, e2]
              field_simp
              ring
          · -- the diagonal entry
            have haj : a = j := by omega
            subst haj
            rw [c4, if_neg (by omega)]
            have hrd : rowDot (val Z) a a a = rowDot (val X) a a a :=
              rowDot_congr (fun k hk => c1 _ _ (by omega)) (fun k hk => c1 _ _ (by omega))
            rw [hrd, ← hs] at e2 ⊢
            obtain ⟨f0, f1, f2⟩ := h.div_th s (sqrt s) hsq0
            have hf0 := (f1.pos h.u_lt).ne'
            refine ⟨fun k => if k = a then e⁻¹ * (δ * δ * (f0⁻¹ * f0⁻¹)) else t k, fun k => ?_, ?_⟩
            · show Th u (n + 4) (if k = a then e⁻¹ * (δ * δ * (f0⁻¹ * f0⁻¹)) else t k)
              split
              · refine h.th_mono ((e1.inv h.u_lt).mul h.u_lt (((δ1.mul h.u_lt δ1).mul h.u_lt
                  ((f1.inv h.u_lt).mul h.u_lt (f1.inv h.u_lt))))) (by omega)
              · exact h.th_mono (t1 k) (by omega)
            · simp only [if_true]
              have : ∑ k ∈ Finset.range a, fl (val X a k) * fl (val X a k) * (if k = a then e⁻¹ * (δ * δ * (f0⁻¹ * f0⁻¹)) else t k)
                  = fl (rowDot (val X) a a a) := by
                rw [← hrd, t3]
                refine Finset.sum_congr rfl fun k hk => ?_
                have := Finset.mem_range.1 hk
                rw [if_neg (by omega)]
              rw [this, f2]
              have hδs : δ * δ = fl (sqrt s) ^ 2 / fl s := by rw [δ2]; field_simp
              rw [hδs]
              have : fl s / fl (sqrt s) * f0 * (fl s / fl (sqrt s) * f0) * (e⁻¹ * (fl (sqrt s) ^ 2 / fl s * (f0⁻¹ * f0⁻¹)))
                  = fl s * e⁻¹ := by field_simp
              rw [this, e2]
              field_simp
              ring
        · rw [q3, if_neg (by tauto)]; exact c5 hne a h1 (by omega)
    · rintro Z ⟨hZ, c1, c2, c3, c4, c5⟩
      rw [if_pos hj] at c4
      refine ⟨hZ, ?_, ?_⟩
      · intro a t hat
        by_cases htj : t = j
        · subst htj
          rcases hat with h | h
          · exact c2 a h
          · omega
        · rw [c1 _ _ htj]; exact z _ _ (by omega)
      · intro t ht
        have hrd : rowDot (val Z) t t t = rowDot (val X) t t t :=
          rowDot_congr (fun k hk => c1 _ _ (by omega)) (fun k hk => c1 _ _ (by omega))
        rw [hrd]
        by_cases htj : t = j
        · subst htj
          rw [← hs]
          refine ⟨by simpa using hsa, hs0, fun hne => ⟨?_, fun a h1 h2 => ?_⟩⟩
          · obtain ⟨f0, f1, f2⟩ := h.div_th s (sqrt s) (hsqne hne)
            rw [c4, f2]
            exact mul_ne_zero (div_ne_zero hne (hsqne hne)) (f1.pos h.u_lt).ne'
          · obtain ⟨τ, τ1, τ2⟩ := c5 hne a h1 h2
            refine ⟨τ, τ1, ?_⟩
            rw [τ2, Finset.sum_range_succ, c4]
            congr 1
            refine Finset.sum_congr rfl fun k hk => ?_
            have := Finset.mem_range.1 hk
            rw [c1 _ _ (by omega), c1 _ _ (by omega)]
        · obtain ⟨s1, s0, s2⟩ := hS t (by omega)
          refine ⟨s1, s0, fun hne => ⟨?_, fun a h1 h2 => ?_⟩⟩
          · rw [c1 _ _ htj]; exact (s2 hne).1
          · obtain ⟨τ, τ1, τ2⟩ := (s2 hne).2 a h1 h2
            refine ⟨τ, τ1, ?_⟩
            rw [τ2]
            refine Finset.sum_congr rfl fun k hk => ?_
            have := Finset.mem_range.1 hk
            rw [c1 _ _ (by omega), c1 _ _ (by omega)]
  · rintro L' ⟨h1, h2, h3⟩
    exact ⟨h1, fun a t h => h2 a t (Or.inl h), h3⟩
end NS.Rounding

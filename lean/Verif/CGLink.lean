/-
The loops of `cg` and `pcg` follow the mathematical recursion.
-/
import Verif.CGModel
import Verif.CGTheory
import Verif.VecIs

set_option linter.unusedSectionVars false
set_option linter.unusedSimpArgs false

namespace NS.CG
open NS NS.MatOps NS.LawfulMat NS.Props.LU Matrix
variable {M T : Type} [Field T] [LinearOrder T] [IsStrictOrderedRing T] [MatOps M T] [LawfulMat M T] {n : Nat}
  {a c : M} {A C : Matrix (Fin n) (Fin n) T} {b x0 : Fin n → T}

theorem fdiv_ok {p q : T} (h : q ≠ 0) : fdiv p q = .ok (p / q) := if_neg h

/-- the working state holds the vectors `x`, `r`, `p` -/
structure Mt (s : CgSt T) (x r p : Fin n → T) : Prop where
  x : IsVec s.x n x
  r : IsVec s.r n r
  p : IsVec s.p n p

/-- one iteration of `pcg` either fails with `nonfinite`, stops, or continues with the next state -/
theorem pcgLoop_step (ha : IsMat a n A) (hc : IsMat c n C) {e2 : T} {n' k : Nat} {s : CgSt T} {x r p : Fin n → T}
    (hm : Mt s x r p) :
    (pcgLoop a c e2 (n' + 1) k s = .error .nonfinite ∧
      ((A *ᵥ p) ⬝ᵥ p = 0 ∨ s.rs = 0)) ∨
    ((A *ᵥ p) ⬝ᵥ p ≠ 0 ∧ ∃ x₁, IsVec x₁ n (x + (s.rs / ((A *ᵥ p) ⬝ᵥ p)) • p) ∧
      ((((r - (s.rs / ((A *ᵥ p) ⬝ᵥ p)) • (A *ᵥ p)) ⬝ᵥ (r - (s.rs / ((A *ᵥ p) ⬝ᵥ p)) • (A *ᵥ p)) < e2 ∨ n' = 0) ∧
          pcgLoop a c e2 (n' + 1) k s = .ok (x₁, k)) ∨
       (s.rs ≠ 0 ∧ ¬ ((r - (s.rs / ((A *ᵥ p) ⬝ᵥ p)) • (A *ᵥ p)) ⬝ᵥ (r - (s.rs / ((A *ᵥ p) ⬝ᵥ p)) • (A *ᵥ p)) < e2) ∧
          n' ≠ 0 ∧ ∃ s', pcgLoop a c e2 (n' + 1) k s = pcgLoop a c e2 n' (k + 1) s' ∧ s'.x = x₁ ∧
          (∀ r', r' = r - (s.rs / ((A *ᵥ p) ⬝ᵥ p)) • (A *ᵥ p) →
            s'.rs = r' ⬝ᵥ C *ᵥ r' ∧ IsVec s'.r n r' ∧
            IsVec s'.p n (C *ᵥ r' + ((r' ⬝ᵥ C *ᵥ r') / s.rs) • p))))) := by
  obtain ⟨t, e1, h1⟩ := hm.p.mulVec ha
  by_cases hq : (A *ᵥ p) ⬝ᵥ p = 0
  · left
    refine ⟨?_, Or.inl hq⟩
    simp only [pcgLoop, e1, ok_bind, h1.dot hm.p, fdiv, hq, if_true, error_bind]
  · set al := s.rs / ((A *ᵥ p) ⬝ᵥ p) with hal
    obtain ⟨ap, e2', h2⟩ := hm.p.smul al
    obtain ⟨x₁, e3, h3⟩ := hm.x.add h2
    obtain ⟨at', e4, h4⟩ := h1.smul al
    obtain ⟨r₁, e5, h5⟩ := hm.r.sub h4
    obtain ⟨z, e6, h6⟩ := h5.mulVec hc
    have e7 := h5.dot h6
    have key : pcgLoop a c e2 (n' + 1) k s =
        (if (r - al • (A *ᵥ p)) ⬝ᵥ (r - al • (A *ᵥ p)) < e2 ∨ n' = 0 then .ok (x₁, k)
         else do
          let be ← fdiv ((r - al • (A *ᵥ p)) ⬝ᵥ C *ᵥ (r - al • (A *ᵥ p))) s.rs
          let bp ← Vec.mulScalar s.p be
          let p' ← Vec.addAssign z bp
          pcgLoop a c e2 n' (k + 1) ⟨x₁, r₁, p', ((r - al • (A *ᵥ p)) ⬝ᵥ C *ᵥ (r - al • (A *ᵥ p)))⟩) := by
      simp only [pcgLoop, e1, ok_bind, h1.dot hm.p, fdiv_ok hq, ← hal, e2', e3, e4, e5, Vec.magSqr, h5.dot h5, e6, e7,
        pure_eq_ok]
    by_cases hs : (r - al • (A *ᵥ p)) ⬝ᵥ (r - al • (A *ᵥ p)) < e2 ∨ n' = 0
    · right
      refine ⟨hq, x₁, h3, Or.inl ⟨hs, ?_⟩⟩
      rw [key, if_pos hs]
    · by_cases h0 : s.rs = 0
      · left
        refine ⟨?_, Or.inr h0⟩
        rw [key, if_neg hs, h0]
        simp [fdiv]
      · right
        obtain ⟨bp, e8, h8⟩ := hm.p.smul (((r - al • (A *ᵥ p)) ⬝ᵥ C *ᵥ (r - al • (A *ᵥ p))) / s.rs)
        obtain ⟨p₁, e9, h9⟩ := h6.add h8
        refine ⟨hq, x₁, h3, Or.inr ⟨h0, fun h => hs (Or.inl h), fun h => hs (Or.inr h), ⟨x₁, r₁, p₁, (r - al • (A *ᵥ p)) ⬝ᵥ C *ᵥ (r - al • (A *ᵥ p))⟩, ?_, rfl, ?_⟩⟩
        · rw [key, if_neg hs, fdiv_ok h0]
          simp only [ok_bind, e8, e9]
        · rintro r' rfl
          exact ⟨rfl, h5, h9⟩

/-- one iteration of `cg` -/
theorem cgLoop_step (ha : IsMat a n A) {e2 : T} {n' k : Nat} {s : CgSt T} {x r p : Fin n → T}
    (hm : Mt s x r p) :
    (cgLoop a e2 (n' + 1) k s = .error .nonfinite ∧
      ((A *ᵥ p) ⬝ᵥ p = 0 ∨ s.rs = 0)) ∨
    ((A *ᵥ p) ⬝ᵥ p ≠ 0 ∧ ∃ x₁, IsVec x₁ n (x + (s.rs / ((A *ᵥ p) ⬝ᵥ p)) • p) ∧
      ((((r - (s.rs / ((A *ᵥ p) ⬝ᵥ p)) • (A *ᵥ p)) ⬝ᵥ (r - (s.rs / ((A *ᵥ p) ⬝ᵥ p)) • (A *ᵥ p)) < e2 ∨ n' = 0) ∧
          cgLoop a e2 (n' + 1) k s = .ok (x₁, k)) ∨
       (s.rs ≠ 0 ∧ ¬ ((r - (s.rs / ((A *ᵥ p) ⬝ᵥ p)) • (A *ᵥ p)) ⬝ᵥ (r - (s.rs / ((A *ᵥ p) ⬝ᵥ p)) • (A *ᵥ p)) < e2) ∧
          n' ≠ 0 ∧ ∃ s', cgLoop a e2 (n' + 1) k s = cgLoop a e2 n' (k + 1) s' ∧ s'.x = x₁ ∧
          (∀ r', r' = r - (s.rs / ((A *ᵥ p) ⬝ᵥ p)) • (A *ᵥ p) →
            s'.rs = r' ⬝ᵥ r' ∧ IsVec s'.r n r' ∧
            IsVec s'.p n (r' + ((r' ⬝ᵥ r') / s.rs) • r))))) := by
  obtain ⟨t, e1, h1⟩ := hm.p.mulVec ha
  by_cases hq : (A *ᵥ p) ⬝ᵥ p = 0
  · left
    refine ⟨?_, Or.inl hq⟩
    simp only [cgLoop, e1, ok_bind, h1.dot hm.p, fdiv, hq, if_true, error_bind]
  · set al := s.rs / ((A *ᵥ p) ⬝ᵥ p) with hal
    obtain ⟨ap, e2', h2⟩ := hm.p.smul al
    obtain ⟨x₁, e3, h3⟩ := hm.x.add h2
    obtain ⟨at', e4, h4⟩ := h1.smul al
    obtain ⟨r₁, e5, h5⟩ := hm.r.sub h4
    have key : cgLoop a e2 (n' + 1) k s =
        (if (r - al • (A *ᵥ p)) ⬝ᵥ (r - al • (A *ᵥ p)) < e2 ∨ n' = 0 then .ok (x₁, k)
         else do
          let be ← fdiv ((r - al • (A *ᵥ p)) ⬝ᵥ (r - al • (A *ᵥ p))) s.rs
          let bp ← Vec.mulScalar s.r be
          let p' ← Vec.addAssign r₁ bp
          cgLoop a e2 n' (k + 1) ⟨x₁, r₁, p', ((r - al • (A *ᵥ p)) ⬝ᵥ (r - al • (A *ᵥ p)))⟩) := by
      simp only [cgLoop, e1, ok_bind, h1.dot hm.p, fdiv_ok hq, ← hal, e2', e3, e4, e5, Vec.magSqr, h5.dot h5,
        pure_eq_ok]
    by_cases hs : (r - al • (A *ᵥ p)) ⬝ᵥ (r - al • (A *ᵥ p)) < e2 ∨ n' = 0
    · right
      refine ⟨hq, x₁, h3, Or.inl ⟨hs, ?_⟩⟩
      rw [key, if_pos hs]
    · by_cases h0 : s.rs = 0
      · left
        refine ⟨?_, Or.inr h0⟩
        rw [key, if_neg hs, h0]
        simp [fdiv]
      · right
        obtain ⟨bp, e8, h8⟩ := hm.r.smul (((r - al • (A *ᵥ p)) ⬝ᵥ (r - al • (A *ᵥ p))) / s.rs)
        obtain ⟨p₁, e9, h9⟩ := h5.add h8
        refine ⟨hq, x₁, h3, Or.inr ⟨h0, fun h => hs (Or.inl h), fun h => hs (Or.inr h), ⟨x₁, r₁, p₁, (r - al • (A *ᵥ p)) ⬝ᵥ (r - al • (A *ᵥ p))⟩, ?_, rfl, ?_⟩⟩
        · rw [key, if_neg hs, fdiv_ok h0]
          simp only [ok_bind, e8, e9]
        · rintro r' rfl
          exact ⟨rfl, h5, h9⟩

theorem residual_step {x r p : Fin n → T} (al : T) (h : r = b - A *ᵥ x) :
    r - al • (A *ᵥ p) = b - A *ᵥ (x + al • p) := by
  rw [mulVec_add, mulVec_smul, h, sub_sub]

/-- whatever the matrices: a normal return of the loop is by the residual test or by the iteration limit -/
theorem pcgLoop_residual (ha : IsMat a n A) (hc : IsMat c n C) {e2 : T} :
    ∀ (n' k : Nat) (s : CgSt T) (x r p : Fin n → T), 0 < n' → Mt s x r p → r = b - A *ᵥ x →
      (pcgLoop a c e2 n' k s = .error .nonfinite) ∨
      ∃ x₁ xv k', pcgLoop a c e2 n' k s = .ok (x₁, k') ∧ IsVec x₁ n xv ∧ k ≤ k' ∧ k' < k + n' ∧
        ((b - A *ᵥ xv) ⬝ᵥ (b - A *ᵥ xv) < e2 ∨ k' + 1 = k + n')
  | 0, _, _, _, _, _, h, _, _ => absurd h (lt_irrefl _)
  | n' + 1, k, s, x, r, p, _, hm, hr => by
      rcases pcgLoop_step ha hc (e2 := e2) (n' := n') (k := k) hm with ⟨h, -⟩ | ⟨hq, x₁, hx₁, ⟨h1, h2⟩ | ⟨h0, h1, h2, s', h3, h4, h5⟩⟩
      · exact Or.inl h
      · refine Or.inr ⟨x₁, _, k, h2, hx₁, le_refl _, by omega, ?_⟩
        rcases h1 with h1 | h1
        · left; rw [← residual_step _ hr]; exact h1
        · right; omega
      · obtain ⟨-, g1, g2⟩ := h5 _ rfl
        rcases pcgLoop_residual ha hc (e2 := e2) n' (k + 1) s' _ _ _ (Nat.pos_of_ne_zero h2) ⟨h4 ▸ hx₁, g1, g2⟩
          (residual_step _ hr) with h | ⟨y, yv, k', f1, f2, f3, f4, f5⟩
        · left; rw [h3, h]
        · right
          refine ⟨y, yv, k', by rw [h3, f1], f2, by omega, by omega, ?_⟩
          rcases f5 with f5 | f5
          · exact Or.inl f5
          · exact Or.inr (by omega)

theorem cgLoop_residual (ha : IsMat a n A) {e2 : T} :
    ∀ (n' k : Nat) (s : CgSt T) (x r p : Fin n → T), 0 < n' → Mt s x r p → r = b - A *ᵥ x →
      (cgLoop a e2 n' k s = .error .nonfinite) ∨
      ∃ x₁ xv k', cgLoop a e2 n' k s = .ok (x₁, k') ∧ IsVec x₁ n xv ∧ k ≤ k' ∧ k' < k + n' ∧
        ((b - A *ᵥ xv) ⬝ᵥ (b - A *ᵥ xv) < e2 ∨ k' + 1 = k + n')
  | 0, _, _, _, _, _, h, _, _ => absurd h (lt_irrefl _)
  | n' + 1, k, s, x, r, p, _, hm, hr => by
      rcases cgLoop_step ha (e2 := e2) (n' := n') (k := k) hm with ⟨h, -⟩ | ⟨hq, x₁, hx₁, ⟨h1, h2⟩ | ⟨h0, h1, h2, s', h3, h4, h5⟩⟩
      · exact Or.inl h
      · refine Or.inr ⟨x₁, _, k, h2, hx₁, le_refl _, by omega, ?_⟩
        rcases h1 with h1 | h1
        · left; rw [← residual_step _ hr]; exact h1
        · right; omega
      · obtain ⟨-, g1, g2⟩ := h5 _ rfl
        rcases cgLoop_residual ha (e2 := e2) n' (k + 1) s' _ _ _ (Nat.pos_of_ne_zero h2) ⟨h4 ▸ hx₁, g1, g2⟩
          (residual_step _ hr) with h | ⟨y, yv, k', f1, f2, f3, f4, f5⟩
        · left; rw [h3, h]
        · right
          refine ⟨y, yv, k', by rw [h3, f1], f2, by omega, by omega, ?_⟩
          rcases f5 with f5 | f5
          · exact Or.inl f5
          · exact Or.inr (by omega)

/-- the search direction is not conjugate to itself before termination -/
theorem pAp_ne (hA : SPD A) (hC : SPD C) {k : Nat} (hr : ∀ j, j ≤ k → (pseq A C b x0 j).r ≠ 0) :
    (A *ᵥ (pseq A C b x0 k).p) ⬝ᵥ (pseq A C b x0 k).p ≠ 0 := by
  have I := cj (b := b) (x0 := x0) hA hC k fun j hj => hr j (by omega)
  rw [dotProduct_comm]
  refine hA.ne fun h0 => ?_
  have := I.prr k (le_refl _)
  rw [h0, dotProduct_zero] at this
  exact hC.ne (hr k (le_refl _)) this.symm

/-- for SPD matrices the loop of `pcg` walks along the mathematical sequence -/
theorem pcgLoop_spd (ha : IsMat a n A) (hc : IsMat c n C) (hA : SPD A) (hC : SPD C) {e2 : T} (he : 0 < e2) :
    ∀ (n' k : Nat) (s : CgSt T), 0 < n' →
      Mt s (pseq A C b x0 k).x (pseq A C b x0 k).r (pseq A C b x0 k).p →
      s.rs = (pseq A C b x0 k).r ⬝ᵥ C *ᵥ (pseq A C b x0 k).r →
      (∀ j, j ≤ k → (pseq A C b x0 j).r ≠ 0) →
      ∃ x₁ k', pcgLoop a c e2 n' k s = .ok (x₁, k') ∧ IsVec x₁ n (pseq A C b x0 (k' + 1)).x ∧ k ≤ k' ∧ k' < k + n' ∧
        (∀ j, k < j → j ≤ k' → e2 ≤ (pseq A C b x0 j).r ⬝ᵥ (pseq A C b x0 j).r) ∧
        ((pseq A C b x0 (k' + 1)).r ⬝ᵥ (pseq A C b x0 (k' + 1)).r < e2 ∨ k' + 1 = k + n')
  | 0, _, _, h, _, _, _ => absurd h (lt_irrefl _)
  | n' + 1, k, s, _, hm, hrs, hr => by
      have hq := pAp_ne hA hC hr
      have h0 : s.rs ≠ 0 := by rw [hrs]; exact hC.ne (hr k (le_refl _))
      have ex : (pseq A C b x0 k).x + (s.rs / ((A *ᵥ (pseq A C b x0 k).p) ⬝ᵥ (pseq A C b x0 k).p)) • (pseq A C b x0 k).p
          = (pseq A C b x0 (k + 1)).x := by rw [hrs]; rfl
      have er : (pseq A C b x0 k).r - (s.rs / ((A *ᵥ (pseq A C b x0 k).p) ⬝ᵥ (pseq A C b x0 k).p)) •
          (A *ᵥ (pseq A C b x0 k).p) = (pseq A C b x0 (k + 1)).r := by rw [hrs]; rfl
      have step := pcgLoop_step ha hc (e2 := e2) (n' := n') (k := k) hm
      rw [ex, er] at step
      rcases step with ⟨-, h | h⟩ | ⟨-, x₁, hx₁, ⟨h1, h2⟩ | ⟨-, h1, h2, s', h3, h4, h5⟩⟩
      · exact absurd h hq
      · exact absurd h h0
      · refine ⟨x₁, k, h2, hx₁, le_refl _, by omega, fun j _ _ => by omega, ?_⟩
        rcases h1 with h1 | h1
        · exact Or.inl h1
        · right; omega
      · obtain ⟨g0, g1, g2⟩ := h5 _ rfl
        have g2' : IsVec s'.p n (pseq A C b x0 (k + 1)).p := by
          rw [hrs] at g2; exact g2
        have hne : (pseq A C b x0 (k + 1)).r ≠ 0 := by
          intro h; rw [h, dotProduct_zero] at h1; exact h1 he
        obtain ⟨y, k', f1, f2, f3, f4, f5, f6⟩ := pcgLoop_spd ha hc hA hC he n' (k + 1) s' (Nat.pos_of_ne_zero h2)
          ⟨h4 ▸ hx₁, g1, g2'⟩ g0 (fun j hj => by
            rcases Nat.lt_or_eq_of_le hj with h | rfl
            · exact hr j (by omega)
            · exact hne)
        refine ⟨y, k', by rw [h3, f1], f2, by omega, by omega, ?_, ?_⟩
        · intro j hj hj'
          rcases Nat.lt_or_eq_of_le (show k + 1 ≤ j by omega) with h | rfl
          · exact f5 j h hj'
          · exact not_lt.1 h1
        · rcases f6 with f6 | f6
          · exact Or.inl f6
          · exact Or.inr (by omega)

/-- `cg` takes the first two steps of the unpreconditioned method -/
theorem cgLoop_two (ha : IsMat a n A) (hA : SPD A) (hC : SPD (1 : Matrix (Fin n) (Fin n) T)) {e2 : T} (he : 0 < e2)
    {n' m : Nat} {s : CgSt T} (hn' : m ≤ n') (hm2 : m ≤ 2) (hm0 : 0 < m)
    (hm : Mt s (pseq A 1 b x0 0).x (pseq A 1 b x0 0).r (pseq A 1 b x0 0).p)
    (hrs : s.rs = (pseq A 1 b x0 0).r ⬝ᵥ (pseq A 1 b x0 0).r)
    (hr : ∀ j, j < m → (pseq A 1 b x0 j).r ≠ 0) (hz : (pseq A 1 b x0 m).r = 0) :
    ∃ x₁ k', cgLoop a e2 n' 0 s = .ok (x₁, k') ∧ IsVec x₁ n (pseq A 1 b x0 (k' + 1)).x ∧ k' < m ∧
        (∀ j, 0 < j → j ≤ k' → e2 ≤ (pseq A 1 b x0 j).r ⬝ᵥ (pseq A 1 b x0 j).r) ∧
        (pseq A 1 b x0 (k' + 1)).r ⬝ᵥ (pseq A 1 b x0 (k' + 1)).r < e2 := by
  have hq : ∀ k, k < m → (A *ᵥ (pseq A 1 b x0 k).p) ⬝ᵥ (pseq A 1 b x0 k).p ≠ 0 :=
    fun k hk => pAp_ne hA hC fun j hj => hr j (by omega)
  have hself : ∀ k, k < m → (pseq A 1 b x0 k).r ⬝ᵥ (pseq A 1 b x0 k).r ≠ 0 := fun k hk h =>
    hr k hk (dotProduct_self_eq_zero.1 h)
  have hzero : ∀ k, k = m → (pseq A 1 b x0 k).r ⬝ᵥ (pseq A 1 b x0 k).r < e2 := by
    rintro k rfl; rw [hz, dotProduct_zero]; exact he
  have hst : ∀ (k : Nat) (s : CgSt T), s.rs = (pseq A 1 b x0 k).r ⬝ᵥ (pseq A 1 b x0 k).r →
      (pseq A 1 b x0 k).x + (s.rs / ((A *ᵥ (pseq A 1 b x0 k).p) ⬝ᵥ (pseq A 1 b x0 k).p)) • (pseq A 1 b x0 k).p
          = (pseq A 1 b x0 (k + 1)).x ∧
      (pseq A 1 b x0 k).r - (s.rs / ((A *ᵥ (pseq A 1 b x0 k).p) ⬝ᵥ (pseq A 1 b x0 k).p)) •
          (A *ᵥ (pseq A 1 b x0 k).p) = (pseq A 1 b x0 (k + 1)).r := by
    intro k s h
    rw [h]
    constructor
    · show _ = (pseq A 1 b x0 k).x + (((pseq A 1 b x0 k).r ⬝ᵥ (1 : Matrix (Fin n) (Fin n) T) *ᵥ (pseq A 1 b x0 k).r) / _) • _
      rw [one_mulVec]
    · show _ = (pseq A 1 b x0 k).r - (((pseq A 1 b x0 k).r ⬝ᵥ (1 : Matrix (Fin n) (Fin n) T) *ᵥ (pseq A 1 b x0 k).r) / _) • _
      rw [one_mulVec]
  obtain ⟨n'', rfl⟩ : ∃ n'', n' = n'' + 1 := ⟨n' - 1, by omega⟩
  have step := cgLoop_step ha (e2 := e2) (n' := n'') (k := 0) hm
  rw [(hst 0 s hrs).1, (hst 0 s hrs).2] at step
  rcases step with ⟨-, h | h⟩ | ⟨-, x₁, hx₁, ⟨h1, h2⟩ | ⟨-, h1, h2, s', h3, h4, h5⟩⟩
  · exact absurd h (hq 0 hm0)
  · rw [hrs] at h; exact absurd h (hself 0 hm0)
  · refine ⟨x₁, 0, h2, hx₁, hm0, fun j _ _ => by omega, ?_⟩
    rcases h1 with h1 | h1
    · exact h1
    · exact hzero 1 (by omega)
  · have hm1 : m = 2 := by
      by_contra h
      exact h1 (hzero 1 (by omega))
    subst hm1
    obtain ⟨g0, g1, g2⟩ := h5 _ rfl
    have g2' : IsVec s'.p n (pseq A 1 b x0 1).p := by
      have e : (pseq A 1 b x0 1).p = (pseq A 1 b x0 1).r +
          (((pseq A 1 b x0 1).r ⬝ᵥ (pseq A 1 b x0 1).r) / s.rs) • (pseq A 1 b x0 0).r := by
        rw [hrs]
        show (1 : Matrix (Fin n) (Fin n) T) *ᵥ (pseq A 1 b x0 1).r +
          (((pseq A 1 b x0 1).r ⬝ᵥ (1 : Matrix (Fin n) (Fin n) T) *ᵥ (pseq A 1 b x0 1).r) /
            ((pseq A 1 b x0 0).r ⬝ᵥ (1 : Matrix (Fin n) (Fin n) T) *ᵥ (pseq A 1 b x0 0).r)) •
            ((1 : Matrix (Fin n) (Fin n) T) *ᵥ (pseq A 1 b x0 0).r) = _
        simp only [one_mulVec]
      rw [e]; exact g2
    obtain ⟨n3, rfl⟩ : ∃ n3, n'' = n3 + 1 := ⟨n'' - 1, by omega⟩
    have step := cgLoop_step ha (e2 := e2) (n' := n3) (k := 1) (s := s') ⟨h4 ▸ hx₁, g1, g2'⟩
    rw [(hst 1 s' g0).1, (hst 1 s' g0).2] at step
    rcases step with ⟨-, h | h⟩ | ⟨-, x₂, hx₂, ⟨h1', h2'⟩ | ⟨-, h1', -⟩⟩
    · exact absurd h (hq 1 (by omega))
    · rw [g0] at h; exact absurd h (hself 1 (by omega))
    · refine ⟨x₂, 1, by rw [h3, h2'], hx₂, by omega, ?_, hzero 2 rfl⟩
      intro j hj hj'
      obtain rfl : j = 1 := by omega
      exact not_lt.1 h1
    · exact absurd (hzero 2 rfl) h1'
end NS.CG

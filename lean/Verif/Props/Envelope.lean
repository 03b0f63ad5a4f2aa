/-
Property C94: the reverse Cuthill-McKee numbering, and the fill of the Cholesky factor.

The envelope of a square matrix is the set of positions left of the diagonal from the first non-zero entry of the row on; a Cholesky
factorisation fills at most these positions.
-/
import Verif.Props.Order
import Verif.Props.Cholesky
import Mathlib.Data.Fintype.Prod
import Mathlib.Order.Fin.Basic

set_option linter.unusedSectionVars false
set_option linter.unusedSimpArgs false

namespace NS.Props.Envelope
open NS NS.MatOps NS.LawfulMat NS.Order NS.LU NS.Props.LU NS.Props.Order Matrix

/-- The envelope: `(i,j)` with `j < i` such that row `i` has a non-zero entry in one of the columns `0 .. j`. -/
def Env {T : Type} [Zero T] {n : Nat} (B : Matrix (Fin n) (Fin n) T) : Set (Fin n × Fin n) :=
  {p | p.2 < p.1 ∧ ∃ k, k ≤ p.2 ∧ B p.1 k ≠ 0}

/-- all non-zero entries lie within `w` diagonals of the main diagonal -/
def Band {T : Type} [Zero T] {n : Nat} (w : Nat) (B : Matrix (Fin n) (Fin n) T) : Prop :=
  ∀ i j, B i j ≠ 0 → (i : Nat) ≤ j + w ∧ (j : Nat) ≤ i + w

section order
variable {T : Type} [Field T] [DecidableEq T] {n : Nat}

theorem permList_reverse (σ : Equiv.Perm (Fin n)) : (permList σ).reverse = permList (Fin.revPerm.trans σ) := by
  unfold permList
  apply List.ext_getElem
  · simp
  · intro i h1 h2
    simp only [List.getElem_reverse, List.getElem_ofFn, List.length_ofFn, Equiv.trans_apply, Fin.revPerm_apply]
    congr 2
    ext
    simp [Fin.rev]
    omega

/-- In a Cuthill-McKee numbering of a symmetric pattern the envelope of the reversed numbering is part of the (mirrored) envelope of
the numbering. -/
theorem env_rev {A : Matrix (Fin n) (Fin n) T} (hs : ∀ i j, A i j ≠ 0 → A j i ≠ 0) {σ : Equiv.Perm (Fin n)}
    (h : IsCuthillMckee A (List.ofFn σ)) {a b : Fin n}
    (hab : (a, b) ∈ Env (Matrix.of fun i j => A (σ (Fin.rev i)) (σ (Fin.rev j)))) :
    (Fin.rev b, Fin.rev a) ∈ Env (Matrix.of fun i j => A (σ i) (σ j)) := by
  obtain ⟨h1, k, h2, h3⟩ := hab
  have h1 : b < a := h1
  have h2 : k ≤ b := h2
  have h3 : A (σ (Fin.rev a)) (σ (Fin.rev k)) ≠ 0 := h3
  refine ⟨Fin.rev_lt_rev.2 h1, ?_⟩
  show ∃ k, k ≤ Fin.rev a ∧ A (σ (Fin.rev b)) (σ k) ≠ 0
  have hji : Fin.rev a < Fin.rev b := Fin.rev_lt_rev.2 h1
  have hik : Fin.rev b ≤ Fin.rev k := Fin.rev_le_rev.2 h2
  rcases h (Fin.rev b) (by rw [List.length_ofFn]; exact (Fin.rev b).2) with ⟨l, hl, e1, e2⟩ | ⟨e1, -⟩
  · have := e2 (Fin.rev a) hji (Fin.rev k) (by rw [List.length_ofFn]; exact (Fin.rev k).2) hik (by rw [List.getElem_ofFn, List.getElem_ofFn]; exact h3)
    have hln : l < n := hl.trans (Fin.rev b).2
    refine ⟨⟨l, hln⟩, ?_, hs _ _ (by rw [List.getElem_ofFn, List.getElem_ofFn] at e1; exact e1)⟩
    show l ≤ (Fin.rev a : Nat)
    omega
  · exact absurd (e1 (Fin.rev a) hji (Fin.rev k) (by rw [List.length_ofFn]; exact (Fin.rev k).2) hik) (by rw [List.getElem_ofFn, List.getElem_ofFn]; exact h3)

/-- C94: for a matrix with symmetric pattern and without zero rows, renumbering with `r_cuthill_mckee` gives an envelope that is not
larger than the one `cuthill_mckee` gives, and the same bandwidth. -/
theorem C94_reverse {m : Sparse T} {A : Matrix (Fin n) (Fin n) T} (h : IsMat m n A) (hrow : ∀ i, ∃ j, A i j ≠ 0)
    (hs : ∀ i j, A i j ≠ 0 → A j i ≠ 0) :
    ∃ p q r r' B B', cuthillMckee m = .ok p ∧ rCuthillMckee m = .ok q ∧ permutateMat m p = .ok r ∧ permutateMat m q = .ok r' ∧
      IsMat r n B ∧ IsMat r' n B' ∧ (Env B').ncard ≤ (Env B).ncard ∧ ∀ w, Band w B' ↔ Band w B := by
  obtain ⟨σ, e1, e2⟩ := C39_permutation_partial h hrow
  have e3 : rCuthillMckee m = .ok (permList (Fin.revPerm.trans σ)) := by
    rw [C39_reverse, e1, ← permList_reverse]; rfl
  obtain ⟨r, P, r1, -, r2, r3⟩ := C40_permutate_matrix h σ
  obtain ⟨r', P', r1', -, r2', r3'⟩ := C40_permutate_matrix h (Fin.revPerm.trans σ)
  have hB : P * A * Pᵀ = Matrix.of fun i j => A (σ i) (σ j) := by ext i j; exact r3 i j
  have hB' : P' * A * P'ᵀ = Matrix.of fun i j => A (σ (Fin.rev i)) (σ (Fin.rev j)) := by ext i j; exact r3' i j
  rw [hB] at r2
  rw [hB'] at r2'
  refine ⟨_, _, r, r', _, _, e1, e3, r1, r1', r2, r2', ?_, fun w => ⟨fun hb i j hij => ?_, fun hb i j hij => ?_⟩⟩
  · refine Set.ncard_le_ncard_of_injOn (fun p => (Fin.rev p.2, Fin.rev p.1)) (fun p hp => env_rev hs e2 hp) ?_ (Set.toFinite _)
    rintro ⟨a, b⟩ - ⟨c, d⟩ - he
    simp only [Prod.mk.injEq, Fin.rev_inj] at he
    exact Prod.ext he.2 he.1
  · have := hb (Fin.rev i) (Fin.rev j) (by simpa using hij)
    have h1 := Fin.val_rev i
    have h2 := Fin.val_rev j
    omega
  · have := hb (Fin.rev i) (Fin.rev j) (by simpa using hij)
    have h1 := Fin.val_rev i
    have h2 := Fin.val_rev j
    omega
end order

section fill
variable {T : Type} [Field T] {n : Nat}

/-- A lower triangular factor without zeros on the diagonal has non-zero entries only on the diagonal and in the envelope. -/
theorem factor_env {A L : Matrix (Fin n) (Fin n) T} (hlow : Lower L) (hd : ∀ i, L i i ≠ 0) (he : L * Lᵀ = A) {i : Fin n} :
    ∀ j : Fin n, j < i → L i j ≠ 0 → (i, j) ∈ Env A := by
  intro j
  induction j using WellFoundedLT.induction with
  | ind j ih =>
    intro hji hne
    by_contra hout
    have hz : ∀ k, k ≤ j → A i k = 0 := fun k hk => by
      by_contra h0
      exact hout ⟨hji, k, hk, h0⟩
    have hL : ∀ k, k < j → L i k = 0 := fun k hk => by
      by_contra h0
      obtain ⟨-, l, hl, h1⟩ := ih k hk (hk.trans hji) h0
      exact h1 (hz l (hl.trans hk.le))
    have h1 : A i j = L i j * L j j := by
      rw [← he, Matrix.mul_apply, Finset.sum_eq_single j]
      · rfl
      · intro k _ hk
        rcases lt_or_gt_of_ne hk with h | h
        · rw [hL k h, zero_mul]
        · rw [Matrix.transpose_apply, hlow j k h, mul_zero]
      · intro h; exact absurd (Finset.mem_univ _) h
    rw [hz j le_rfl] at h1
    exact (mul_ne_zero hne (hd j)) h1.symm

variable [DecidableEq T] {M : Type} [MatOps M T] [LawfulMat M T]

/-- C94: the factor `cholesky` computes has non-zero entries only on the diagonal and in the envelope of the matrix. -/
theorem C94_fill (sqrtAllowed : T → Bool) (nanAllowed : Bool) (sqrt : T → T) (hsqrt : ∀ s, sqrtAllowed s = true → sqrt s * sqrt s = s)
    {A₀ L₀ L₁ : M} {A : Matrix (Fin n) (Fin n) T} (hA : IsMat A₀ n A) (hL : IsMat L₀ n (0 : Matrix (Fin n) (Fin n) T)) (hsym : Aᵀ = A)
    (h : cholesky sqrtAllowed nanAllowed sqrt A₀ L₀ = .ok L₁) :
    ∃ L, IsMat L₁ n L ∧ L * Lᵀ = A ∧ ∀ i j, L i j ≠ 0 → i = j ∨ (i, j) ∈ Env A := by
  rcases C31_cholesky sqrtAllowed nanAllowed sqrt hsqrt hA hL hsym with e | e | ⟨L₂, L, e, hM, hlow, hd, he⟩
  · rw [h] at e; cases e
  · rw [h] at e; cases e
  · rw [h] at e; cases e
    refine ⟨L, hM, he, fun i j hij => ?_⟩
    rcases lt_trichotomy j i with hlt | rfl | hgt
    · exact Or.inr (factor_env hlow hd he j hlt hij)
    · exact Or.inl rfl
    · exact absurd (hlow i j hgt) hij
end fill

section pipeline
variable {T : Type} [Field T] [LinearOrder T] [IsStrictOrderedRing T] {n : Nat}

/-- C94: renumbering a symmetric positive definite matrix with `r_cuthill_mckee` and factoring it with `cholesky` succeeds, and the
factor has at most as many entries below the diagonal as the envelope of the matrix renumbered with `cuthill_mckee`. -/
theorem C94_pipeline (sqrt : T → T) (hsqrt : ∀ s, 0 ≤ s → 0 ≤ sqrt s ∧ sqrt s * sqrt s = s) {m : Sparse T}
    {A : Matrix (Fin n) (Fin n) T} (hn : 0 < n) (h : IsMat m n A) (hA : NS.CG.SPD A) :
    ∃ p q r r' Z L₁ B L, cuthillMckee m = .ok p ∧ rCuthillMckee m = .ok q ∧ permutateMat m p = .ok r ∧ IsMat r n B ∧
      permutateMat m q = .ok r' ∧ (make n n : R (Sparse T)) = .ok Z ∧
      cholesky (fun s => decide (0 ≤ s)) false sqrt r' Z = .ok L₁ ∧ IsMat L₁ n L ∧ Lower L ∧
      {p : Fin n × Fin n | p.2 < p.1 ∧ L p.1 p.2 ≠ 0}.ncard ≤ (Env B).ncard := by
  have sw : ∀ a b, A a b = A b a := fun a b => by conv_lhs => rw [← hA.1, Matrix.transpose_apply]
  have hdiag : ∀ i, A i i ≠ 0 := fun i => by
    have := hA.2 (Pi.single i 1) (by intro h0; have := congrFun h0 i; simp at this)
    intro h0
    simp [h0] at this
  obtain ⟨σ, e1, e2⟩ := C39_permutation_partial h (fun i => ⟨i, hdiag i⟩)
  obtain ⟨p, q, r, r', B, B', h1, h2, h3, h4, h5, h6, h7, -⟩ := C94_reverse h (fun i => ⟨i, hdiag i⟩) (fun i j hij => by rwa [sw])
  have e3 : q = permList (Fin.revPerm.trans σ) := by
    have : rCuthillMckee m = .ok (permList (Fin.revPerm.trans σ)) := by
      rw [C39_reverse, e1, ← permList_reverse]; rfl
    rw [h2] at this; cases this; rfl
  subst e3
  obtain ⟨r2, P, f1, -, f2, f3⟩ := C40_permutate_matrix h (Fin.revPerm.trans σ)
  rw [h4] at f1
  cases f1
  have hB' : ∀ i j, B' i j = A ((Fin.revPerm.trans σ) i) ((Fin.revPerm.trans σ) j) := fun i j => by
    rw [← f3, ← f2.val_eq, h6.val_eq]
  have hsym : B'ᵀ = B' := by ext i j; rw [Matrix.transpose_apply, hB', hB', sw]
  have hpd : ∀ v, v ≠ 0 → 0 < v ⬝ᵥ B' *ᵥ v := by
    intro v hv
    set τ := Fin.revPerm.trans σ with hτ
    have h0 : (fun i => v (τ.symm i)) ≠ 0 := by
      intro h0
      refine hv (funext fun i => ?_)
      have := congrFun h0 (τ i)
      simpa using this
    have := hA.2 _ h0
    convert this using 1
    show ∑ a, v a * ∑ b, B' a b * v b = ∑ a, v (τ.symm a) * ∑ b, A a b * v (τ.symm b)
    rw [← Equiv.sum_comp τ (fun a => v (τ.symm a) * ∑ b, A a b * v (τ.symm b))]
    refine Finset.sum_congr rfl fun a _ => ?_
    rw [Equiv.symm_apply_apply, ← Equiv.sum_comp τ (fun b => A (τ a) b * v (τ.symm b))]
    congr 1
    refine Finset.sum_congr rfl fun b _ => ?_
    rw [Equiv.symm_apply_apply, hB']
  obtain ⟨Z, z1, zv, zr, zc, z0⟩ := make_ok (M := Sparse T) (T := T) hn hn
  have z2 : IsMat Z n (0 : Matrix (Fin n) (Fin n) T) := ⟨zv, zr, zc, fun i j => by
    have := get_ok zv (show (i : Nat) < rows Z by rw [zr]; exact i.2) (show (j : Nat) < cols Z by rw [zc]; exact j.2)
    rw [this, z0]; rfl⟩
  obtain ⟨L₁, L, g1, g2, g3, g4, g5⟩ := (C31_positive_definite sqrt hsqrt h6 z2 hsym).1 hpd
  refine ⟨p, _, r, r', Z, L₁, B, L, h1, h2, h3, h5, h4, z1, g1, g2, g3, le_trans ?_ h7⟩
  refine Set.ncard_le_ncard ?_ (Set.toFinite _)
  rintro ⟨a, b⟩ ⟨hab, hne⟩
  exact factor_env g3 (fun i => (g4 i).ne') g5 b hab hne
end pipeline

theorem bind_split {α β : Type} {x : R α} {f : α → R β} {m : β} (h : (x >>= f) = .ok m) : ∃ a, x = .ok a ∧ f a = .ok m := by
  cases x with
  | ok a => exact ⟨a, rfl, h⟩
  | _ => cases h

/-- star with the centre 0 and the leaves 1, 2, 3, positive definite -/
def starMat : Matrix (Fin 4) (Fin 4) ℚ := !![4, 1, 1, 1; 1, 1, 0, 0; 1, 0, 1, 0; 1, 0, 0, 1]
def star : R (Sparse ℚ) := do
  let m ← Sparse.mk' 4 4
  let m ← m.set 0 0 4
  let m ← m.set 0 1 1
  let m ← m.set 0 2 1
  let m ← m.set 0 3 1
  let m ← m.set 1 0 1
  let m ← m.set 1 1 1
  let m ← m.set 2 0 1
  let m ← m.set 2 2 1
  let m ← m.set 3 0 1
  m.set 3 3 1

/-- the star meets the hypotheses of C94, and the reversed numbering is better: 3 positions in the envelope instead of 4 -/
example : (∃ m, star = .ok m ∧ IsMat m 4 starMat) ∧ NS.CG.SPD starMat ∧ (star >>= cuthillMckee) = .ok [1, 0, 2, 3] ∧
    (star >>= rCuthillMckee) = .ok [3, 2, 0, 1] := by
  refine ⟨?_, ⟨by decide +kernel, fun v hv => ?_⟩, by decide +kernel, by decide +kernel⟩
  · have hst : ∃ m, star = .ok m := ⟨_, rfl⟩
    obtain ⟨m, hm⟩ := hst
    refine ⟨m, hm, sparse_valid ?_, ?_⟩
    · have hm' := hm
      unfold star at hm'
      obtain ⟨m0, h0, hm'⟩ := bind_split hm'
      obtain ⟨m1, h1, hm'⟩ := bind_split hm'
      obtain ⟨m2, h2, hm'⟩ := bind_split hm'
      obtain ⟨m3, h3, hm'⟩ := bind_split hm'
      obtain ⟨m4, h4, hm'⟩ := bind_split hm'
      obtain ⟨m5, h5, hm'⟩ := bind_split hm'
      obtain ⟨m6, h6, hm'⟩ := bind_split hm'
      obtain ⟨m7, h7, hm'⟩ := bind_split hm'
      obtain ⟨m8, h8, hm'⟩ := bind_split hm'
      obtain ⟨m9, h9, hm'⟩ := bind_split hm'
      exact .set (.set (.set (.set (.set (.set (.set (.set (.set (.set (.mk h0) h1) h2) h3) h4) h5) h6) h7) h8) h9) hm'
    · cases hm
      decide +kernel
  · have e : v ⬝ᵥ starMat *ᵥ v = (v 0 + v 1) ^ 2 + (v 0 + v 2) ^ 2 + (v 0 + v 3) ^ 2 + v 0 ^ 2 := by
      simp [starMat, Matrix.mulVec, dotProduct, Fin.sum_univ_four]
      ring
    rw [e]
    by_contra hle
    have h0 : v 0 ^ 2 = 0 := by nlinarith [sq_nonneg (v 0 + v 1), sq_nonneg (v 0 + v 2), sq_nonneg (v 0 + v 3), sq_nonneg (v 0)]
    have h0' : v 0 = 0 := by simpa using h0
    rw [h0'] at hle
    have h1 : v 1 = 0 := by
      have : v 1 ^ 2 = 0 := by nlinarith [sq_nonneg (v 1), sq_nonneg (v 2), sq_nonneg (v 3)]
      simpa using this
    have h2 : v 2 = 0 := by
      have : v 2 ^ 2 = 0 := by nlinarith [sq_nonneg (v 1), sq_nonneg (v 2), sq_nonneg (v 3)]
      simpa using this
    have h3 : v 3 = 0 := by
      have : v 3 ^ 2 = 0 := by nlinarith [sq_nonneg (v 1), sq_nonneg (v 2), sq_nonneg (v 3)]
      simpa using this
    exact hv (funext fun i => by fin_cases i <;> assumption)

end NS.Props.Envelope

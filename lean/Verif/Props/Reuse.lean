/-
C118: output matrices that are used again.

`doolittle` (dense overload), `cholesky` and `ainv_lu` (`/repo/src/lib/LU.inl:8-46`, `49-132`, `315-386`) take their results as in/out
references and never clear them.  C27, C31 and C33 assume that they are zero on entry; here they hold anything.
-/
import Verif.LUReuse
import Verif.Props.LU

set_option linter.unusedSectionVars false
set_option linter.unusedSimpArgs false

namespace NS.Props.Reuse
open NS NS.MatOps NS.LawfulMat NS.LU NS.Operations NS.Props.LU

/-! ### `doolittle` -/
section weak
variable {M T V : Type} [Zero T] [One T] [Sub T] [Mul T] [Div T] [MatOps M T] [LawfulStore M T] [LinearOrder V]

/-- `m` is a well-formed `n x n` matrix object whose `at(i,j)` is `A i j` (any scalar type, also floating point) -/
def Holds (m : M) (n : Nat) (A : Fin n → Fin n → T) : Prop :=
  LawfulStore.Valid (M := M) (T := T) m ∧ rows m = n ∧ cols m = n ∧ ∀ i j : Fin n, get m i j = .ok (A i j)

theorem Holds.sq {m : M} {n} {A : Fin n → Fin n → T} (h : Holds m n A) : Sq n m := ⟨h.1, h.2.1, h.2.2.1⟩
theorem Holds.val_eq {m : M} {n} {A : Fin n → Fin n → T} (h : Holds m n A) (i j : Fin n) : LawfulStore.val m i j = A i j := by
  have := h.2.2.2 i j
  rw [h.sq.get i.2 j.2] at this
  exact Except.ok.inj this
theorem holds_of {m : M} {n} (h : Sq n m) : Holds m n (fun i j => LawfulStore.val m i j) :=
  ⟨h.valid, h.hr, h.hc, fun i j => h.get i.2 j.2⟩
theorem holds_of_val {m : M} {n} (h : Sq n m) {A : Fin n → Fin n → T} (hA : ∀ i j : Fin n, LawfulStore.val m i j = A i j) : Holds m n A :=
  ⟨h.valid, h.hr, h.hc, fun i j => by rw [h.get i.2 j.2, hA]⟩

/-- C118, dense `doolittle`, any arithmetic (also floating point): compared with a call whose `L` and `P` are zero, a call whose `L` and
`P` hold `OL` and `OP` fails in the same cases with the same error, and otherwise returns the same `U`, the same pivot count and the same
entries below the diagonal of `L`; the entries above the diagonal of `L` and all entries of `P` except the `n` ones are the old ones. -/
theorem C118_doolittle (absv : T → V) (eps : V) {n : Nat} {A₀ L₀ P₀ L₁ P₁ : M} {A OL OP : Fin n → Fin n → T}
    (hA : Holds A₀ n A) (hL : Holds L₀ n OL) (hP : Holds P₀ n OP)
    (hL' : Holds L₁ n (fun _ _ => 0)) (hP' : Holds P₁ n (fun _ _ => 0)) :
    (∃ (r z : M × M × M × Nat) (L U : Fin n → Fin n → T) (σ : Fin n → Fin n),
      doolittleBase absv eps A₀ L₁ P₁ = .ok z ∧ Holds z.1 n L ∧ Holds z.2.1 n U ∧
        Holds z.2.2.1 n (fun i j => if j = σ i then 1 else 0) ∧
      doolittleBase absv eps A₀ L₀ P₀ = .ok r ∧ Holds r.1 n (fun i j => if i < j then OL i j else L i j) ∧ Holds r.2.1 n U ∧
        Holds r.2.2.1 n (fun i j => if j = σ i then 1 else OP i j) ∧ r.2.2.2 = z.2.2.2) ∨
    ∃ e, doolittleBase absv eps A₀ L₁ P₁ = .error e ∧ doolittleBase absv eps A₀ L₀ P₀ = .error e := by
  have key : ∀ (X Y : M), Sq n X → Sq n Y → doolittleBase absv eps A₀ X Y = doolittleFrom absv eps A₀ X Y := by
    intro X Y hX hY
    unfold doolittleBase
    rw [throwIf_false _ (by rw [hA.sq.hr, hA.sq.hc]; simp),
      throwIf_false _ (by rw [hA.sq.hr, hA.sq.hc, hX.hr, hX.hc, hY.hr, hY.hc]; simp)]
    rfl
  rw [key _ _ hL.sq hP.sq, key _ _ hL'.sq hP'.sq]
  have h := doolittleFrom_rel absv eps hA.sq hL.sq hP.sq hL'.sq hP'.sq
  cases hr : doolittleFrom absv eps A₀ L₀ P₀ with
  | error e =>
    cases hz : doolittleFrom absv eps A₀ L₁ P₁ with
    | ok z => rw [hr, hz] at h; exact h.elim
    | error e' => rw [hr, hz] at h; exact Or.inr ⟨e, by rw [show e = e' from h], rfl⟩
  | ok r =>
    cases hz : doolittleFrom absv eps A₀ L₁ P₁ with
    | error e' => rw [hr, hz] at h; exact h.elim
    | ok z =>
      rw [hr, hz] at h
      obtain ⟨r1, r2, r3, z1, z2, z3, hpc, hU, hl, hl', rt, hrt, hp, hp'⟩ := h
      refine Or.inl ⟨r, z, fun i j => LawfulStore.val z.1 i j, fun i j => LawfulStore.val z.2.1 i j,
        fun i => ⟨rt.getD i 0, hrt i i.2⟩, rfl, holds_of z1, holds_of z2, holds_of_val z3 fun i j => ?_, rfl,
        holds_of_val r1 fun i j => ?_, holds_of_val r2 fun i j => hU i j, holds_of_val r3 fun i j => ?_, hpc⟩
      · rw [hp', hP'.val_eq]
        simp only [i.2, true_and, Fin.ext_iff]
      · rw [hl _ _ i.2 j.2]
        by_cases hij : (i : Nat) < j
        · rw [if_neg (by omega), if_neg (by omega), if_pos (show i < j from hij), hL.val_eq]
        · rw [if_neg (show ¬ i < j from hij)]
          by_cases hji : (j : Nat) < i
          · rw [if_pos hji]
          · rw [if_neg hji, if_pos (by omega)]
            show 1 = LawfulStore.val z.1 (i : Nat) (j : Nat)
            rw [hl' _ _ i.2 j.2 hji, if_pos (by omega)]
      · rw [hp, hP.val_eq]
        simp only [i.2, true_and, Fin.ext_iff]

end weak

variable {M T V : Type} [Field T] [DecidableEq T] [MatOps M T] [LawfulMat M T]
variable [Field V] [LinearOrder V] [IsStrictOrderedRing V]

theorem isMat_iff_holds {m : M} {n : Nat} {A : Matrix (Fin n) (Fin n) T} : IsMat m n A ↔ Holds m n A := Iff.rfl

theorem doolittle_clean (absv : AbsoluteValue T V) {eps : V} (heps : 0 ≤ eps) {n : Nat} {A₀ L₀ P₀ : M} {r : M × M × M × Nat}
    {A OL OP : Matrix (Fin n) (Fin n) T} (hA : IsMat A₀ n A) (hL : IsMat L₀ n OL) (hP : IsMat P₀ n OP)
    (hr : doolittleBase absv eps A₀ L₀ P₀ = .ok r) :
    ∃ (L U : Matrix (Fin n) (Fin n) T) (σ : Equiv.Perm (Fin n)), UnitLower L ∧ Upper U ∧
      A.submatrix σ id = L * U ∧ (∀ i j, absv (L i j) ≤ 1) ∧ (Equiv.Perm.sign σ : ℤ) = (-1) ^ r.2.2.2 ∧
      IsMat r.1 n (fun i j => if i < j then OL i j else L i j) ∧ IsMat r.2.1 n U ∧
      IsMat r.2.2.1 n (fun i j => if j = σ i then 1 else OP i j) := by
  have hn : 0 < n := hA.sq.pos
  obtain ⟨Z, z1, z2, z3⟩ := make_sq M hn
  have hZ : IsMat Z n (0 : Matrix (Fin n) (Fin n) T) := holds_of_val z2 fun i j => z3 i j
  rcases C118_doolittle absv eps (isMat_iff_holds.1 hA) hL hP hZ hZ with ⟨r', z, L, U, τ, hz, w1, w2, w3, hr', v1, v2, v3, v4⟩ | ⟨e, -, he⟩
  swap
  · rw [hr] at he; cases he
  rw [hr] at hr'; cases hr'
  rcases C27_doolittle_dense absv heps hA hZ hZ with ⟨z', hz', L', U', P', σ, y1, y2, y3, y4, y5, y6, y7, y8, y9⟩ | ⟨he, -⟩
  swap
  · rw [hz] at he; cases he
  rw [hz] at hz'; cases hz'
  have eL : L' = L := by ext i j; rw [← y1.val_eq]; exact w1.val_eq i j
  have eU : U' = U := by ext i j; rw [← y2.val_eq]; exact w2.val_eq i j
  have eP : ∀ i j, P' i j = if j = τ i then 1 else 0 := by intro i j; rw [← y3.val_eq]; exact w3.val_eq i j
  have eσ : ∀ i, τ i = σ i := by
    intro i
    have h1 := y7 i (τ i)
    rw [eP, if_pos rfl] at h1
    by_contra hne
    rw [if_neg hne] at h1
    exact one_ne_zero h1
  subst eL eU
  refine ⟨L', U', σ, y5, y6, ?_, y9, by rw [v4]; exact y8, v1, v2, ?_⟩
  · rw [← y4]
    have : P' = (1 : Matrix (Fin n) (Fin n) T).submatrix σ id := by
      ext i j
      show P' i j = (1 : Matrix (Fin n) (Fin n) T) (σ i) j
      rw [y7, Matrix.one_apply]
      by_cases hij : j = σ i
      · rw [if_pos hij, if_pos hij.symm]
      · rw [if_neg hij, if_neg (fun hh => hij hh.symm)]
    rw [this]
    ext i j
    rw [Matrix.mul_apply, Finset.sum_eq_single (σ i)]
    · show A (σ i) j = (1 : Matrix (Fin n) (Fin n) T) (σ i) (σ i) * A (σ i) j
      rw [Matrix.one_apply_eq, one_mul]
    · intro k _ hk
      show (1 : Matrix (Fin n) (Fin n) T) (σ i) k * A k j = 0
      rw [Matrix.one_apply_ne (Ne.symm hk), zero_mul]
    · simp
  · have : (fun i j => if j = τ i then (1 : T) else OP i j) = fun i j => if j = σ i then 1 else OP i j := by
      funext i j; rw [eσ]
    rw [← this]; exact v3

/-- C118, dense `doolittle`: the result is a factorisation `P*A = L*U` (in the sense of C27) exactly if the old `L` was zero above the
diagonal and the old `P` was zero outside the ones of some permutation, which is the permutation of the new factorisation. -/
theorem C118_doolittle_iff (absv : AbsoluteValue T V) {eps : V} (heps : 0 ≤ eps) {n : Nat} {A₀ L₀ P₀ : M} {r : M × M × M × Nat}
    {A OL OP : Matrix (Fin n) (Fin n) T} (hA : IsMat A₀ n A) (hL : IsMat L₀ n OL) (hP : IsMat P₀ n OP)
    (hr : doolittleBase absv eps A₀ L₀ P₀ = .ok r) :
    ∃ (L : Matrix (Fin n) (Fin n) T) (U : Matrix (Fin n) (Fin n) T) (σ : Equiv.Perm (Fin n)),
      UnitLower L ∧ Upper U ∧ A.submatrix σ id = L * U ∧
      (Doolittled absv n A r ↔ (∀ i j, i < j → OL i j = 0) ∧ ∀ i j, j ≠ σ i → OP i j = 0) := by
  obtain ⟨L, U, σ, l1, u1, e, b, sg, h1, h2, h3⟩ := doolittle_clean absv heps hA hL hP hr
  refine ⟨L, U, σ, l1, u1, e, ⟨?_, ?_⟩⟩
  · rintro ⟨L', U', P', τ, x1, x2, x3, x4, x5, x6, x7, x8, x9⟩
    have eL : ∀ i j, L' i j = if i < j then OL i j else L i j := fun i j => (x1.val_eq i j).symm.trans (h1.val_eq i j)
    have eP : ∀ i j, P' i j = if j = σ i then 1 else OP i j := fun i j => (x3.val_eq i j).symm.trans (h3.val_eq i j)
    have es : ∀ i, σ i = τ i := by
      intro i
      have h := x7 i (σ i)
      rw [eP, if_pos rfl] at h
      by_contra hne
      rw [if_neg hne] at h
      exact one_ne_zero h
    refine ⟨fun i j hij => ?_, fun i j hij => ?_⟩
    · have := x5.2 i j hij
      rw [eL, if_pos hij] at this; exact this
    · have := x7 i j
      rw [eP, if_neg hij, if_neg (by rw [← es]; exact hij)] at this
      exact this
  · rintro ⟨zL, zP⟩
    have eL : (fun i j => if i < j then OL i j else L i j) = L := by
      funext i j
      by_cases hij : i < j
      · rw [if_pos hij, zL i j hij, l1.2 i j hij]
      · rw [if_neg hij]
    rw [eL] at h1
    obtain ⟨P, hPm, hPv⟩ : ∃ P : Matrix (Fin n) (Fin n) T, IsMat r.2.2.1 n P ∧ ∀ i j, P i j = if j = σ i then 1 else OP i j :=
      ⟨_, h3, fun _ _ => rfl⟩
    refine ⟨L, U, P, σ, h1, h2, hPm, ?_, l1, u1, fun i j => ?_, sg, b⟩
    · rw [← e]
      ext i j
      rw [Matrix.mul_apply, Finset.sum_eq_single (σ i)]
      · rw [hPv, if_pos rfl, one_mul]; rfl
      · intro k _ hk
        rw [hPv, if_neg hk, zP i k hk, zero_mul]
      · simp
    · rw [hPv]
      by_cases hij : j = σ i
      · rw [if_pos hij, if_pos hij]
      · rw [if_neg hij, if_neg hij, zP i j hij]

/-- C118: a dense `L` can be used again for solving, whatever it holds, as long as `P` is fresh: `solve_lu` does not read the upper part of
`L`, so factor, permute, solve gives the solution of `A*x = b`. -/
theorem C118_solve_with_used_L (absv : AbsoluteValue T V) {eps : V} (heps : 0 ≤ eps) {n : Nat} {A₀ L₀ P₀ : M} {r : M × M × M × Nat}
    {A OL : Matrix (Fin n) (Fin n) T} (hA : IsMat A₀ n A) (hL : IsMat L₀ n OL) (hP : IsMat P₀ n (0 : Matrix (Fin n) (Fin n) T))
    (hr : doolittleBase absv eps A₀ L₀ P₀ = .ok r) {b₀ pb x₀ : List T} {b : Fin n → T} (hb : IsVec b₀ n b)
    (hp : mulVec r.2.2.1 b₀ = .ok pb) (hx : solveLu absv eps r.1 r.2.1 pb = .ok x₀) : ∃ x, IsVec x₀ n x ∧ A.mulVec x = b := by
  obtain ⟨L, U, σ, l1, u1, e, bd, sg, h1, h2, h3⟩ := doolittle_clean absv heps hA hL hP hr
  obtain ⟨pb', m1, m2, m3⟩ := mulVec_ok b₀ h3.1 (by rw [h3.2.2.1, hb.1])
  rw [hp] at m1; cases m1
  rw [h3.2.1] at m2 m3
  rw [h3.2.2.1] at m3
  have hpb : IsVec pb n (b ∘ σ) := by
    refine ⟨m2, fun i => ?_⟩
    rw [vecAt_get (by rw [m2]; exact i.2), m3 i i.2, Finset.sum_range, Finset.sum_eq_single (σ i)]
    · rw [h3.val_eq, if_pos rfl, one_mul, ← hb.toVec_eq]; rfl
    · intro k _ hk
      rw [h3.val_eq, if_neg hk]
      show (0 : T) * _ = 0
      rw [zero_mul]
    · simp
  rcases C30_solve absv heps h1 h2 hpb with ⟨-, x₁, x, e1, e2, e3⟩ | ⟨-, h⟩
  · rw [hx] at e1; cases e1
    refine ⟨x, e2, ?_⟩
    have : tril (fun i j => if i < j then OL i j else L i j) = L := by
      ext i j; unfold tril
      by_cases hij : i < j
      · rw [if_neg (not_le.2 hij)]; exact (l1.2 i j hij).symm
      · rw [if_pos (not_lt.1 hij)]
        show (if i < j then OL i j else L i j) = _
        rw [if_neg hij]
    rw [this, triu_upper u1, ← e] at e3
    funext i
    have := congrFun e3 (σ.symm i)
    simp only [Function.comp, Equiv.apply_symm_apply] at this
    rw [← this]
    show A.mulVec x i = ∑ j, A (σ (σ.symm i)) j * x j
    rw [Equiv.apply_symm_apply]; rfl
  · rw [hx] at h; cases h

/-- C118 fails for a used `P`: `doolittle` of the identity and then of `[[0,1],[1,0]]` with the same `L` and `P` leaves `P` with four ones,
and factor-permute-solve for `b = (1,0)` gives `x = (1,1)` instead of `(0,1)`. -/
theorem C118_used_P_negation :
    (do
      let r ← doolittleBase (AbsoluteValue.abs : AbsoluteValue ℚ ℚ) 0 (⟨[1, 0, 0, 1], 2, 2⟩ : Dense ℚ) ⟨[0, 0, 0, 0], 2, 2⟩ ⟨[0, 0, 0, 0], 2, 2⟩
      let r ← doolittleBase (AbsoluteValue.abs : AbsoluteValue ℚ ℚ) 0 (⟨[0, 1, 1, 0], 2, 2⟩ : Dense ℚ) r.1 r.2.2.1
      let pb ← mulVec r.2.2.1 [1, 0]
      let x ← solveLu (AbsoluteValue.abs : AbsoluteValue ℚ ℚ) 0 r.1 r.2.1 pb
      return (r.2.2.1, x)) = .ok ((⟨[1, 1, 1, 1], 2, 2⟩ : Dense ℚ), [1, 1]) ∧
    (do
      let r ← doolittleBase (AbsoluteValue.abs : AbsoluteValue ℚ ℚ) 0 (⟨[0, 1, 1, 0], 2, 2⟩ : Dense ℚ) ⟨[0, 0, 0, 0], 2, 2⟩ ⟨[0, 0, 0, 0], 2, 2⟩
      let pb ← mulVec r.2.2.1 [1, 0]
      let x ← solveLu (AbsoluteValue.abs : AbsoluteValue ℚ ℚ) 0 r.1 r.2.1 pb
      return (r.2.2.1, x)) = .ok ((⟨[0, 1, 1, 0], 2, 2⟩ : Dense ℚ), [0, 1]) :=
  ⟨by decide +kernel, by decide +kernel⟩

/-- a used `L` (all sevens) with a fresh `P`: the solution of `[[0,1],[2,3]] x = (1,5)` is still found -/
example : (do
      let r ← doolittleBase (AbsoluteValue.abs : AbsoluteValue ℚ ℚ) 0 (⟨[0, 1, 2, 3], 2, 2⟩ : Dense ℚ) ⟨[7, 7, 7, 7], 2, 2⟩ ⟨[0, 0, 0, 0], 2, 2⟩
      let pb ← mulVec r.2.2.1 [1, 5]
      let x ← solveLu (AbsoluteValue.abs : AbsoluteValue ℚ ℚ) 0 r.1 r.2.1 pb
      return (r.1, x)) = .ok ((⟨[1, 7, 0, 1], 2, 2⟩ : Dense ℚ), [1, 1]) := by decide +kernel

/-! ### `cholesky` -/

theorem stale_eq {n : Nat} {O : M} {OL : Matrix (Fin n) (Fin n) T} (hO : IsMat O n OL) (d : T) (i j : Fin n) :
    stale (val O) d i j = OL i j * d + ∑ k ∈ Finset.univ.filter (fun k : Fin n => j < k ∧ k < i), OL i k * OL j k := by
  unfold stale
  rw [hO.val_eq]
  congr 1
  have h1 : (∑ k ∈ Finset.range (i : Nat), if (j : Nat) < k then val O i k * val O j k else 0)
      = ∑ k ∈ Finset.range n, if (j : Nat) < k ∧ k < i then val O i k * val O j k else 0 := by
    rw [sum_trunc (j := i) (n := n) (fun k => if (j : Nat) < k ∧ k < i then val O i k * val O j k else 0) (le_of_lt i.2)
      (fun k h1 _ => if_neg (by omega))]
    exact Finset.sum_congr rfl (fun k hk => by
      have := Finset.mem_range.1 hk
      have e : ((j : Nat) < k ∧ k < i) ↔ (j : Nat) < k := by omega
      simp only [e])
  rw [h1, Finset.sum_range, Finset.sum_filter]
  refine Finset.sum_congr rfl (fun k _ => ?_)
  have e : ((j : Nat) < k ∧ (k : Nat) < i) ↔ (j < k ∧ k < i) := Iff.rfl
  by_cases h : j < k ∧ k < i
  · rw [if_pos h, if_pos (e.2 h), hO.val_eq, hO.val_eq]
  · rw [if_neg h, if_neg (fun h' => h (e.1 h'))]

/-- C118, `cholesky`: suppose the call with a zero `L` returns the factor `C`.  The call with an `L` that holds `OL` succeeds with the same
lower triangle exactly if for all `j < i` the old entries satisfy `OL(i,j)*C(j,j) + ∑_{j<k<i} OL(i,k)*OL(j,k) = 0`. -/
theorem C118_cholesky (sqrtAllowed : T → Bool) (nanAllowed : Bool) (sqrt : T → T)
    (hsqrt : ∀ s, sqrtAllowed s = true → sqrt s * sqrt s = s) {n : Nat} {A₀ L₀ Z₀ C₀ : M}
    {A OL C : Matrix (Fin n) (Fin n) T} (hA : IsMat A₀ n A) (hL : IsMat L₀ n OL) (hZ : IsMat Z₀ n (0 : Matrix (Fin n) (Fin n) T))
    (hC : cholesky sqrtAllowed nanAllowed sqrt A₀ Z₀ = .ok C₀) (hC' : IsMat C₀ n C) :
    (∃ X₀ X, cholesky sqrtAllowed nanAllowed sqrt A₀ L₀ = .ok X₀ ∧ IsMat X₀ n X ∧ ∀ i j, j ≤ i → X i j = C i j) ↔
    ∀ i j, j < i → OL i j * C j j + ∑ k ∈ Finset.univ.filter (fun k : Fin n => j < k ∧ k < i), OL i k * OL j k = 0 := by
  have h := cholesky_reuse sqrtAllowed nanAllowed sqrt hsqrt hA.sq hL.sq hZ.sq hZ.zero hC
  constructor
  · rintro ⟨X₀, X, h1, h2, h3⟩ i j hij
    rw [← stale_eq hL, ← hC'.val_eq]
    refine h.1 ⟨X₀, h1, fun t a hta han => ?_⟩ j i hij i.2
    have := h3 ⟨a, han⟩ ⟨t, by omega⟩ (show t ≤ a from hta)
    rw [← h2.val_eq, ← hC'.val_eq] at this
    exact this
  · intro hs
    obtain ⟨X₀, h1, h2⟩ := h.2 (fun t a hta han => by
      have := hs ⟨a, han⟩ ⟨t, by omega⟩ (show t < a from hta)
      rw [← stale_eq hL, ← hC'.val_eq] at this
      exact this)
    have hsq := ((cholesky_dirty sqrtAllowed nanAllowed sqrt hsqrt hA.sq hL.sq).of_ok h1).sq
    refine ⟨X₀, _, h1, isMat_of hsq, fun i j hij => ?_⟩
    show val X₀ i j = _
    rw [h2 j i hij i.2, hC'.val_eq]

/-- C118: an old `L` that is zero below the diagonal does no harm (its upper triangle survives, though). -/
theorem C118_cholesky_upper (sqrtAllowed : T → Bool) (nanAllowed : Bool) (sqrt : T → T)
    (hsqrt : ∀ s, sqrtAllowed s = true → sqrt s * sqrt s = s) {n : Nat} {A₀ L₀ Z₀ C₀ : M}
    {A OL C : Matrix (Fin n) (Fin n) T} (hA : IsMat A₀ n A) (hL : IsMat L₀ n OL) (hZ : IsMat Z₀ n (0 : Matrix (Fin n) (Fin n) T))
    (hC : cholesky sqrtAllowed nanAllowed sqrt A₀ Z₀ = .ok C₀) (hC' : IsMat C₀ n C) (hu : ∀ i j, j < i → OL i j = 0) :
    ∃ X₀, cholesky sqrtAllowed nanAllowed sqrt A₀ L₀ = .ok X₀ ∧ IsMat X₀ n (fun i j => if i < j then OL i j else C i j) := by
  obtain ⟨X₀, X, h1, h2, h3⟩ := (C118_cholesky sqrtAllowed nanAllowed sqrt hsqrt hA hL hZ hC hC').2 (fun i j hij => by
    rw [hu i j hij, zero_mul, zero_add]
    exact Finset.sum_eq_zero (fun k hk => by rw [hu i k (Finset.mem_filter.1 hk).2.2, zero_mul]))
  have hd := (cholesky_dirty sqrtAllowed nanAllowed sqrt hsqrt hA.sq hL.sq).of_ok h1
  refine ⟨X₀, h1, holds_of_val h2.sq fun i j => ?_⟩
  by_cases hij : i < j
  · rw [if_pos hij, hd.old _ _ (Or.inl hij), hL.val_eq]
  · rw [if_neg hij, h2.val_eq, h3 i j (not_lt.1 hij)]

/-- C118: `cholesky(A, L)` called twice with the same arguments gives the same factor the second time exactly if `A` is diagonal (below
the diagonal, the part that is read). -/
theorem C118_cholesky_twice (sqrtAllowed : T → Bool) (nanAllowed : Bool) (sqrt : T → T)
    (hsqrt : ∀ s, sqrtAllowed s = true → sqrt s * sqrt s = s) {n : Nat} {A₀ Z₀ C₀ : M}
    {A C : Matrix (Fin n) (Fin n) T} (hA : IsMat A₀ n A) (hZ : IsMat Z₀ n (0 : Matrix (Fin n) (Fin n) T))
    (hC : cholesky sqrtAllowed nanAllowed sqrt A₀ Z₀ = .ok C₀) (hC' : IsMat C₀ n C) :
    (∃ X₀, cholesky sqrtAllowed nanAllowed sqrt A₀ C₀ = .ok X₀ ∧ IsMat X₀ n C) ↔ ∀ i j, j < i → A i j = 0 := by
  have hd := (cholesky_dirty sqrtAllowed nanAllowed sqrt hsqrt hA.sq hZ.sq).of_ok hC
  have hup : ∀ i j, i < j → C i j = 0 := fun i j hij => by
    rw [← hC'.val_eq, hd.old _ _ (Or.inl hij)]; exact hZ.zero _ _
  have hdiag : ∀ j, C j j ≠ 0 := fun j => by rw [← hC'.val_eq]; exact (hd.diag j j.2).1
  have hsum : ∀ i j : Fin n, ∑ k ∈ Finset.univ.filter (fun k : Fin n => j < k ∧ k < i), C i k * C j k = 0 := fun i j =>
    Finset.sum_eq_zero (fun k hk => by rw [hup j k (Finset.mem_filter.1 hk).2.1, mul_zero])
  have heq : ∀ i j : Fin n, j < i → C i j * C j j = A i j - ∑ k ∈ Finset.range (j : Nat), val C₀ i k * val C₀ j k := by
    intro i j hij
    have := hd.eqs j j.2 i hij i.2
    rw [stale_eq hZ, hC'.val_eq, hC'.val_eq, hA.val_eq] at this
    simpa using this
  have hlow : (∀ i j, j < i → C i j = 0) ↔ ∀ i j, j < i → A i j = 0 := by
    constructor
    · intro h i j hij
      have := heq i j hij
      rw [h i j hij, zero_mul, Finset.sum_eq_zero, sub_zero] at this
      · exact this.symm
      · intro k hk
        have hk := Finset.mem_range.1 hk
        have := hC'.val_eq j ⟨k, by omega⟩
        simp only at this
        rw [this, h j ⟨k, by omega⟩ hk, mul_zero]
    · intro h
      have : ∀ t : Nat, ∀ i j : Fin n, (j : Nat) = t → j < i → C i j = 0 := by
        intro t
        induction t using Nat.strong_induction_on with
        | _ t ih =>
          intro i j hjt hij
          have := heq i j hij
          rw [h i j hij, Finset.sum_eq_zero, sub_zero] at this
          · exact (mul_eq_zero.1 this).resolve_right (hdiag j)
          · intro k hk
            have hk := Finset.mem_range.1 hk
            have := hC'.val_eq j ⟨k, by omega⟩
            simp only at this
            rw [this, ih k (by omega) j ⟨k, by omega⟩ rfl hk, mul_zero]
      exact fun i j hij => this j i j rfl hij
  rw [← hlow]
  constructor
  · rintro ⟨X₀, h1, h2⟩ i j hij
    have := (C118_cholesky sqrtAllowed nanAllowed sqrt hsqrt hA hC' hZ hC hC').1 ⟨X₀, C, h1, h2, fun _ _ _ => rfl⟩ i j hij
    rw [hsum, add_zero] at this
    exact (mul_eq_zero.1 this).resolve_right (hdiag j)
  · intro h
    obtain ⟨X₀, h1, h2⟩ := C118_cholesky_upper sqrtAllowed nanAllowed sqrt hsqrt hA hC' hZ hC hC' h
    exact ⟨X₀, h1, by simpa using h2⟩

/-- C118 fails for a used `L`: `cholesky` of `[[1,3],[3,25]]` into a zero `L` gives `[[1,0],[3,4]]`; the same call again, with the same `L`,
gives `[[1,0],[0,5]]`. -/
theorem C118_cholesky_twice_negation :
    (do
      let sq : ℚ → ℚ := fun s => if s = 1 then 1 else if s = 16 then 4 else if s = 25 then 5 else 0
      let A : Dense ℚ := ⟨[1, 3, 3, 25], 2, 2⟩
      let L ← cholesky (fun s : ℚ => decide (0 ≤ s)) false sq A ⟨[0, 0, 0, 0], 2, 2⟩
      let X ← cholesky (fun s : ℚ => decide (0 ≤ s)) false sq A L
      return (L, X)) = .ok ((⟨[1, 0, 3, 4], 2, 2⟩ : Dense ℚ), ⟨[1, 0, 0, 5], 2, 2⟩) := by decide +kernel

/-- a diagonal matrix can be factored twice into the same `L` -/
example : (do
      let sq : ℚ → ℚ := fun s => if s = 4 then 2 else if s = 9 then 3 else 0
      let A : Dense ℚ := ⟨[4, 0, 0, 9], 2, 2⟩
      let L ← cholesky (fun s : ℚ => decide (0 ≤ s)) false sq A ⟨[0, 0, 0, 0], 2, 2⟩
      let X ← cholesky (fun s : ℚ => decide (0 ≤ s)) false sq A L
      return (L, X)) = .ok ((⟨[2, 0, 0, 3], 2, 2⟩ : Dense ℚ), ⟨[2, 0, 0, 3], 2, 2⟩) := by decide +kernel

/-! ### `ainv_lu` -/

/-- C118, `ainv_lu`, lower factor: for unit lower triangular `L`, the lower triangle of the returned `invL` is the inverse of `L` exactly if
the old content `OX` was zero below the diagonal. -/
theorem C118_ainv_lower (absv : AbsoluteValue T V) (eps : V) {n : Nat} {L₀ U₀ X₀ Y₀ : M} {r : M × M}
    {L U OX OY : Matrix (Fin n) (Fin n) T} (hL : IsMat L₀ n L) (hU : IsMat U₀ n U) (hX : IsMat X₀ n OX) (hY : IsMat Y₀ n OY)
    (hul : UnitLower L) (hr : ainvLu absv eps L₀ U₀ X₀ Y₀ = .ok r) :
    ∃ X, IsMat r.1 n X ∧ (∀ i j, i < j → X i j = OX i j) ∧
      (∀ i j, (L * tril X) i j = if i = j then 1 else if j < i then OX i j else 0) ∧
      (L * tril X = 1 ↔ ∀ i j, j < i → OX i j = 0) := by
  have hu : ∀ i j, i ≤ j → j < n → val L₀ i j = if i = j then 1 else 0 := by
    intro i j hij hj
    rw [hL.val_eq ⟨i, by omega⟩ ⟨j, hj⟩]
    split
    · rename_i h; subst h; exact hul.1 _
    · rename_i h; exact hul.2 _ _ (show i < j by omega)
  obtain ⟨r1, r2, r3⟩ := (ainvLu_dirty absv eps hL.sq hU.sq hX.sq hY.sq hu).of_ok hr
  have key : ∀ i j, (L * tril (toMat n r.1)) i j = if i = j then 1 else if j < i then OX i j else 0 := by
    intro i j
    rw [Matrix.mul_apply]
    rcases lt_or_ge i j with hij | hij
    · rw [if_neg (ne_of_lt hij), if_neg (not_lt.2 (le_of_lt hij))]
      refine Finset.sum_eq_zero (fun c _ => ?_)
      unfold tril
      by_cases hc : j ≤ c
      · rw [if_pos hc, hul.2 i c (lt_of_lt_of_le hij hc), zero_mul]
      · rw [if_neg hc, mul_zero]
    · have := r3 i j hij i.2
      rw [Finset.sum_range] at this
      have e : ∑ c : Fin n, L i c * tril (toMat n r.1) c j = ∑ c : Fin n, if (j : Nat) ≤ c then val L₀ i c * val r.1 c j else 0 := by
        refine Finset.sum_congr rfl (fun c _ => ?_)
        unfold tril
        by_cases hc : j ≤ c
        · rw [if_pos hc, if_pos (show (j : Nat) ≤ c from hc), hL.val_eq]; rfl
        · rw [if_neg hc, if_neg (show ¬ (j : Nat) ≤ c from hc), mul_zero]
      rw [e, this]
      by_cases h : i = j
      · subst h; rw [if_pos rfl, if_pos rfl]
      · rw [if_neg (fun hh => h (Fin.ext hh)), if_neg h, if_pos (lt_of_le_of_ne hij (Ne.symm h)), hX.val_eq]
  refine ⟨toMat n r.1, isMat_of r1, fun i j hij => ?_, key, ⟨fun h i j hij => ?_, fun h => ?_⟩⟩
  · show val r.1 i j = _
    rw [r2 _ _ hij, hX.val_eq]
  · have := key i j
    rw [h, Matrix.one_apply_ne (ne_of_gt hij), if_neg (ne_of_gt hij), if_pos hij] at this
    exact this.symm
  · ext i j
    rw [key, Matrix.one_apply]
    by_cases hij : i = j
    · rw [if_pos hij, if_pos hij]
    · rw [if_neg hij, if_neg hij]
      split
      · rename_i hh; exact h i j hh
      · rfl

/-- C118 fails for a used `invL`: `ainv_lu` of `L = [[1,0],[3,1]]` called twice with the same outputs gives `invL(1,0) = -3`, then `-6`. -/
theorem C118_ainv_twice_negation :
    (do
      let r ← ainvLu (AbsoluteValue.abs : AbsoluteValue ℚ ℚ) (0 : ℚ) (⟨[1, 0, 3, 1], 2, 2⟩ : Dense ℚ) ⟨[1, 0, 0, 1], 2, 2⟩
        ⟨[0, 0, 0, 0], 2, 2⟩ ⟨[0, 0, 0, 0], 2, 2⟩
      let s ← ainvLu (AbsoluteValue.abs : AbsoluteValue ℚ ℚ) (0 : ℚ) (⟨[1, 0, 3, 1], 2, 2⟩ : Dense ℚ) ⟨[1, 0, 0, 1], 2, 2⟩ r.1 r.2
      return (r.1, s.1)) = .ok ((⟨[1, 0, -3, 1], 2, 2⟩ : Dense ℚ), ⟨[1, 0, -6, 1], 2, 2⟩) := by decide +kernel

end NS.Props.Reuse

/-
Property C114 (first part): on the generated square grid with zero boundary values, solver 0 of the finite element program (`/repo/examples/poisson/fem.cpp`)
computes exactly what the finite difference program (`/repo/examples/poisson/fdm.cpp`) computes for the averaged source.
-/
import Verif.Props.FemCg
import Verif.Props.FemError
import Verif.Props.Fdm

set_option linter.unusedSectionVars false
set_option linter.unusedSimpArgs false

namespace NS.Props.Iter
open NS NS.Iterative Matrix NS.Props.LU
variable {M M' T : Type} [Field T] [LinearOrder T] [IsStrictOrderedRing T] [MatOps M T] [LawfulMat M T] [MatOps M' T] [LawfulMat M' T] {n : Nat}
  {A A' : Matrix (Fin n) (Fin n) T} {b b' : Fin n → T}

/-- the iteration that stops is determined by the iterates -/
theorem StopsAt.unique {y : Nat → Fin n → T} {eps : T} {maxIter k k' : Nat} (h : StopsAt y eps maxIter k) (h' : StopsAt y eps maxIter k') : k = k' := by
  have key : ∀ {k k' : Nat}, StopsAt y eps maxIter k → StopsAt y eps maxIter k' → ¬ k < k' := by
    intro k k' h h' hlt
    have h1 : k < maxIter := lt_of_lt_of_le hlt h'.1
    have h2 := h.2.1 (by omega)
    exact absurd (h.2.2.1 h1) (not_le.2 (h'.2.2.2 k h2 hlt))
  rcases lt_trichotomy k k' with h1 | h1 | h1
  · exact absurd h1 (key h h')
  · exact h1
  · exact absurd h1 (key h' h)

/-- a sweep is determined by its start -/
theorem IsSorSweep.unique {w : T} {base x y y' : Fin n → T} (h : IsSorSweep A b w base x y) (h' : IsSorSweep A b w base x y') : y = y' := by
  have key : ∀ m (i : Fin n), (i : Nat) = m → y i = y' i := by
    intro m
    induction m using Nat.strong_induction_on with
    | _ m ih =>
      intro i hi
      rw [h i, h' i]
      have : (∑ j, (if j < i then A i j * y j else if i < j then A i j * x j else 0)) = ∑ j, (if j < i then A i j * y' j else if i < j then A i j * x j else 0) := by
        refine Finset.sum_congr rfl fun j _ => ?_
        by_cases hj : j < i
        · rw [if_pos hj, if_pos hj, ih j (by have := Fin.lt_def.1 hj; omega) j rfl]
        · rw [if_neg hj, if_neg hj]
      rw [this]
  funext i
  exact key i i rfl

/-- two systems whose sweeps agree on a set of vectors that is closed under them give the same result of `sor` started at zero -/
theorem sor_same {a : M} {a' : M'} (ha : IsMat a n A) (ha' : IsMat a' n A') (hd : ∀ i, A i i ≠ 0) (hd' : ∀ i, A' i i ≠ 0) {w : T} (Z : (Fin n → T) → Prop) (hZ : Z 0)
    (hs : ∀ x y, Z x → IsSorSweep A b w x x y → Z y ∧ IsSorSweep A' b' w x x y) (maxIter : Nat) (eps : T) :
    ∃ u it, sor a (fl b) (fl (0 : Fin n → T)) w maxIter eps = .ok (fl u, it) ∧ sor a' (fl b') (fl (0 : Fin n → T)) w maxIter eps = .ok (fl u, it) ∧ Z u := by
  obtain ⟨y, k, h0, h1, h2, h3, h4⟩ := C38_sor (b := b) (x0 := 0) ha hd w maxIter eps
  obtain ⟨y', k', g0, g1, g2, g3, g4⟩ := C38_sor (b := b') (x0 := 0) ha' hd' w maxIter eps
  have hsw : ∀ j, IsSorSweep A b w (y j) (y j) (y (j + 1)) := by
    intro j
    rcases Nat.eq_zero_or_pos j with rfl | hj
    · rw [h0]; exact h1
    · exact h2 j hj
  have gsw : ∀ j, IsSorSweep A' b' w (y' j) (y' j) (y' (j + 1)) := by
    intro j
    rcases Nat.eq_zero_or_pos j with rfl | hj
    · rw [g0]; exact g1
    · exact g2 j hj
  have all : ∀ j, Z (y j) ∧ y j = y' j := by
    intro j
    induction j with
    | zero => rw [h0, g0]; exact ⟨hZ, rfl⟩
    | succ j ih =>
      obtain ⟨z1, z2⟩ := hs _ _ ih.1 (hsw j)
      refine ⟨z1, z2.unique ?_⟩
      rw [ih.2]; exact gsw j
  obtain rfl : y = y' := funext fun j => (all j).2
  obtain rfl := h4.unique g4
  exact ⟨y k, k, h3, g3, (all k).1⟩
end NS.Props.Iter

namespace NS.Props.Fem
open NS NS.World NS.Fem NS.MatOps NS.LawfulMat Matrix NS.Props.Mesh NS.Props.Shape NS.HyperCube NS.Props.HyperCube NS.Props.Iter NS.Fdm
open NS.Props.LU (IsMat IsVec isVec_iff)
open NS.Props.Fdm (mat rhs rimIx OnRim mat_rim mat_inner)
open NS.Iterative (fl sor)
variable {M T : Type} [Field T] [LinearOrder T] [IsStrictOrderedRing T] [MatOps M T] [LawfulMat M T]

/-- the finite difference problem on a square grid with zero boundary values -/
def cells (N : Nat) (h : T) (f : T → T → T) : Poisson T := ⟨N + 1, N + 1, h, h, f, fun _ _ => 0⟩

/-- a function with given values at the grid points -/
theorem exists_source {h : T} (hh : h ≠ 0) (v : Nat → Nat → T) : ∃ f : T → T → T, ∀ r c : Nat, f (c * h) (r * h) = v r c := by
  classical
  refine ⟨fun s t => if H : ∃ q : Nat × Nat, s = q.2 * h ∧ t = q.1 * h then v H.choose.1 H.choose.2 else 0, fun r c => ?_⟩
  have H : ∃ q : Nat × Nat, (c : T) * h = q.2 * h ∧ (r : T) * h = q.1 * h := ⟨(r, c), rfl, rfl⟩
  simp only
  rw [dif_pos H]
  have e1 := mul_right_cancel₀ hh H.choose_spec.1
  have e2 := mul_right_cancel₀ hh H.choose_spec.2
  rw [← Nat.cast_injective e1, ← Nat.cast_injective e2]

section rows
variable {N : Nat} {h : T} {f : T → T → T} {A : Matrix (Fin ((N + 1) * (N + 1))) (Fin ((N + 1) * (N + 1))) T}

/-- an index of the rim -/
def RimAt (N i : Nat) : Prop := Rim N (i / (N + 1)) (i % (N + 1))

/-- the matrix of the finite difference program -/
def diffMat (N : Nat) (h : T) (f : T → T → T) : Matrix (Fin ((N + 1) * (N + 1))) (Fin ((N + 1) * (N + 1))) T := mat (cells N h f)

theorem rim_iff (i : Fin ((cells N h f).xc * (cells N h f).yc)) : rimIx (cells N h f) i ↔ RimAt N i := by
  unfold rimIx OnRim RimAt Rim
  show (i : Nat) % (N + 1) = 0 ∨ (i : Nat) / (N + 1) = 0 ∨ (i : Nat) % (N + 1) = N + 1 - 1 ∨ (i : Nat) / (N + 1) = N + 1 - 1 ↔ _
  omega

theorem diffMat_rim {i : Fin ((N + 1) * (N + 1))} (hi : RimAt N i) (j : Fin ((N + 1) * (N + 1))) : diffMat N h f i j = if j = i then 1 else 0 :=
  mat_rim (p := cells N h f) ((rim_iff i).2 hi) j

theorem rhs_rim {i : Fin ((N + 1) * (N + 1))} (hi : RimAt N i) : rhs (cells N h f) i = 0 := by
  have := (rim_iff (h := h) (f := f) i).2 hi
  unfold rimIx at this
  unfold rhs
  rw [if_pos this]; rfl

theorem rhs_inner {i : Fin ((N + 1) * (N + 1))} (hi : ¬ RimAt N i) :
    rhs (cells N h f) i = h * h * f ((((i : Nat) % (N + 1) : Nat) : T) * h) ((((i : Nat) / (N + 1) : Nat) : T) * h) := by
  have := mt (rim_iff (h := h) (f := f) i).1 hi
  unfold rimIx at this
  unfold rhs
  rw [if_neg this]; rfl

/-- the rows of the two matrices inside -/
theorem rows_inner (hh : h ≠ 0) (h5 : IsFive N A) {i j : Fin ((N + 1) * (N + 1))} (hi : ¬ RimAt N i) (hj : ¬ RimAt N j) : A i j = -kappa * diffMat N h f i j := by
  have hm := mat_inner (p := cells N h f) (mt (rim_iff (h := h) (f := f) i).1 hi) j
  change diffMat N h f i j = _ at hm
  unfold RimAt at hi hj
  obtain ⟨i1, i2, i3⟩ := decode (N := N) i
  obtain ⟨j1, j2, j3⟩ := decode (N := N) j
  have hi' := not_rim i1 i2 hi
  have hj' := not_rim j1 j2 hj
  have hr2 : (cells N h f).r2 = 1 := div_self (mul_ne_zero hh hh)
  have hcc : (cells N h f).c = -4 := by unfold Poisson.c; rw [hr2]; norm_num
  rw [hm, h5 _ i1 _ i2 _ j1 _ j2 i j i3 j3, hr2, hcc]
  generalize (i : Nat) / (N + 1) = r at *
  generalize (i : Nat) % (N + 1) = c at *
  generalize (j : Nat) / (N + 1) = r' at *
  generalize (j : Nat) % (N + 1) = c' at *
  unfold fivePoint
  rw [if_neg (by tauto)]
  have e0 : (j : Nat) = i ↔ r' = r ∧ c' = c := by
    constructor
    · intro e
      rw [i3, j3] at e
      exact vid_inj (n1 := N) j2 i2 e
    · rintro ⟨a, b⟩; rw [i3, j3, a, b]
  have e1 : (j : Nat) + 1 = i ↔ r' = r ∧ c' + 1 = c := by
    constructor
    · intro e
      rw [i3, j3] at e
      exact vid_inj (n1 := N) (r := r') (c := c' + 1) (by omega) i2 (by unfold vid; omega)
    · rintro ⟨a, b⟩; rw [i3, j3, a, ← b]; omega
  have e2 : (j : Nat) = i + 1 ↔ r' = r ∧ c' = c + 1 := by
    constructor
    · intro e
      rw [i3, j3] at e
      exact vid_inj (n1 := N) (r' := r) (c' := c + 1) j2 (by omega) (by unfold vid; omega)
    · rintro ⟨a, b⟩; rw [i3, j3, a, b]; omega
  have e3 : (j : Nat) + (cells N h f).xc = i ↔ r' + 1 = r ∧ c' = c := by
    show (j : Nat) + (N + 1) = i ↔ _
    constructor
    · intro e
      rw [i3, j3] at e
      exact vid_inj (n1 := N) (r := r' + 1) j2 i2 (by unfold vid; rw [Nat.add_mul]; omega)
    · rintro ⟨a, b⟩; rw [i3, j3, ← a, b, Nat.add_mul]; omega
  have e4 : (j : Nat) = i + (cells N h f).xc ↔ r' = r + 1 ∧ c' = c := by
    show (j : Nat) = i + (N + 1) ↔ _
    constructor
    · intro e
      rw [i3, j3] at e
      exact vid_inj (n1 := N) (r' := r + 1) j2 i2 (by unfold vid; rw [Nat.add_mul]; omega)
    · rintro ⟨a, b⟩; rw [i3, j3, a, b, Nat.add_mul]; omega
  rw [if_congr e0 rfl rfl, if_congr (or_congr e1 e2) rfl rfl, if_congr (or_congr e3 e4) rfl rfl]
  split_ifs <;> first | (exfalso; omega) | ring

theorem rows_rim (h5 : IsFive N A) {i : Fin ((N + 1) * (N + 1))} (hi : RimAt N i) (j : Fin ((N + 1) * (N + 1))) (hij : j ≠ i) : A i j = 0 := by
  obtain ⟨i1, i2, i3⟩ := decode (N := N) i
  obtain ⟨j1, j2, j3⟩ := decode (N := N) j
  rw [h5 _ i1 _ i2 _ j1 _ j2 i j i3 j3]
  unfold fivePoint
  rw [if_pos (.inl hi), if_neg, mul_zero]
  rintro ⟨a, b⟩
  apply hij
  apply Fin.ext
  rw [i3, j3, a, b]

/-- a sweep of the finite element system is a sweep of the finite difference system -/
theorem sweep_same (hh : h ≠ 0) (h5 : IsFive N A) {B : Fin ((N + 1) * (N + 1)) → T} (hB0 : ∀ i : Fin ((N + 1) * (N + 1)), RimAt N i → B i = 0)
    (hB : ∀ i : Fin ((N + 1) * (N + 1)), ¬ RimAt N i → B i = -kappa * rhs (cells N h f) i) {w : T}
    {x y : Fin ((N + 1) * (N + 1)) → T} (hx : ∀ i : Fin ((N + 1) * (N + 1)), RimAt N i → x i = 0) (hs : IsSorSweep A B w x x y) :
    (∀ i : Fin ((N + 1) * (N + 1)), RimAt N i → y i = 0) ∧ IsSorSweep (diffMat N h f) (fun i => rhs (cells N h f) i) w x x y := by
  have hk := kappa_gt (T := T)
  have hy : ∀ i : Fin ((N + 1) * (N + 1)), RimAt N i → y i = 0 := by
    intro i hi
    rw [hs i, hB0 i hi, hx i hi, Finset.sum_eq_zero, sub_self, zero_div, mul_zero, mul_zero, add_zero]
    intro j _
    by_cases hj : j = i
    · subst hj; simp
    · rw [rows_rim h5 hi j hj]; simp
  refine ⟨hy, fun i => ?_⟩
  beta_reduce
  by_cases hi : RimAt N i
  · rw [hy i hi, hx i hi, rhs_rim hi, Finset.sum_eq_zero, sub_self, zero_div, mul_zero, mul_zero, add_zero]
    intro j _
    rw [diffMat_rim hi]
    by_cases hj : j = i
    · subst hj; simp
    · simp [hj]
  · rw [hs i, hB i hi, rows_inner (f := f) hh h5 hi hi]
    have e : (∑ j, (if j < i then A i j * y j else if i < j then A i j * x j else 0)) =
        -kappa * ∑ j, (if j < i then diffMat N h f i j * y j else if i < j then diffMat N h f i j * x j else 0) := by
      rw [Finset.mul_sum]
      refine Finset.sum_congr rfl fun j _ => ?_
      by_cases hj : RimAt N j
      · rw [hx j hj, hy j hj]; simp
      · rw [rows_inner (f := f) hh h5 hi hj]
        split_ifs <;> ring
    rw [e, ← mul_sub, mul_div_mul_left _ _ (neg_ne_zero.2 hk.ne')]
end rows

/-- the finite difference problem that belongs to the assembled system -/
theorem same_core {N : Nat} (hN : 1 ≤ N) {L : T} (hL : L ≠ 0) {off : T × T} {w₀ w1 w2 w3 : World T} (hb : Built w₀) (hd : Distinct w₀) (hc : Closed w₀)
    (hel : w₀.elements ≠ []) (e1 : generate N N (L, L) off = .ok w1) (e2 : w1.prepare 0 = .ok w2) (hp : Pipeline w₀ w2) (e3 : Shape.prepareMesh 1 w2 = .ok w3)
    (G : GridReady N (L / N) off w₀ w3) {eps : T} (h0 : 0 ≤ eps) (he : eps < kappa / 2) {src g : List T → T} (hg : ∀ v, g v = 0) {a : M} {b : List T}
    {A : Matrix (Fin ((N + 1) * (N + 1))) (Fin ((N + 1) * (N + 1))) T} {B : Fin ((N + 1) * (N + 1)) → T}
    (s1 : Fem.system eps 1 src g w3 = .ok (a, b)) (s2 : IsMat a _ A) (s3 : IsVec b _ B) :
    ∃ f : T → T → T, (∀ r c, 0 < r → r < N → 0 < c → c < N →
        |f (c * (L / N)) (r * (L / N)) + sixSum (L / N) off src r c / 6| ≤ 6 * eps / (kappa * (L / N) ^ 2)) ∧
      (∀ z : Fin ((N + 1) * (N + 1)) → T, Fdm.Solves (cells N (L / N) f) z → A *ᵥ z = B) ∧
      ∀ (w : T) (maxIter : Nat) (tol : T), ∃ u it, sor a (fl B) (fl (0 : Fin ((N + 1) * (N + 1)) → T)) w maxIter tol = .ok (fl u, it) ∧
        Fdm.solve (M := M) (cells N (L / N) f) w maxIter tol = .ok (fl u, it) ∧ ∀ i : Fin ((N + 1) * (N + 1)), RimAt N i → u i = 0 := by
  have hNp : (0 : T) < N := by exact_mod_cast (by omega : 0 < N)
  have hh : L / N ≠ 0 := div_ne_zero hL hNp.ne'
  have hk := kappa_gt (T := T)
  have h5 := (five_of hN hL e1 e2 e3 he s1 s2).1
  obtain ⟨f, hf⟩ := exists_source hh fun r c => -(node N B r c) / (kappa * (L / N) ^ 2)
  have hB0 : ∀ i : Fin ((N + 1) * (N + 1)), RimAt N i → B i = 0 := by
    intro i hi
    obtain ⟨i1, i2, i3⟩ := decode (N := N) i
    have := (grid_residual hN hh hb hd hc hel hp e3 G h0 he s1 s2 s3 0 i1 i2 i i3).1 hi
    rw [mulVec_zero, Pi.zero_apply, node_eq i1 i2, hg] at this
    simpa using this
  have hB : ∀ i : Fin ((N + 1) * (N + 1)), ¬ RimAt N i → B i = -kappa * rhs (cells N (L / N) f) i := by
    intro i hi
    obtain ⟨i1, i2, i3⟩ := decode (N := N) i
    rw [rhs_inner hi, hf, node_eq i1 i2]
    have : (⟨vid N ((i : Nat) / (N + 1)) ((i : Nat) % (N + 1)), vid_lt i1 i2⟩ : Fin ((N + 1) * (N + 1))) = i := Fin.ext i3.symm
    rw [this]
    have := hk.ne'
    field_simp
  refine ⟨f, fun r c hr hrN hc0 hcN => ?_, fun z hz => ?_, fun w maxIter tol => ?_⟩
  · obtain ⟨δ, d1, d2⟩ := (grid_residual hN hh hb hd hc hel hp e3 G h0 he s1 s2 s3 0 hrN.le hcN.le ⟨vid N r c, vid_lt hrN.le hcN.le⟩ rfl).2 (by unfold Rim; omega)
    have hz : fiveDiff (withRim N (L / N) off g 0) r c = 0 := by
      have : ∀ r c, withRim N (L / N) off g 0 r c = 0 := by
        intro r c
        unfold withRim node
        split
        · exact hg _
        · split <;> rfl
      unfold fiveDiff
      simp only [this]; ring
    rw [hz, mulVec_zero, Pi.zero_apply] at d2
    rw [hf, node_eq hrN.le hcN.le]
    have hkh : (0 : T) < kappa * (L / N) ^ 2 := by positivity
    have : -(B ⟨vid N r c, vid_lt hrN.le hcN.le⟩) / (kappa * (L / N) ^ 2) + sixSum (L / N) off src r c / 6 = δ / (kappa * (L / N) ^ 2) := by
      rw [eq_div_iff hkh.ne', add_mul, div_mul_cancel₀ _ hkh.ne']
      linear_combination d2
    rw [this, abs_div, abs_of_pos hkh]
    exact div_le_div_of_nonneg_right d1 hkh.le
  · have hm : diffMat N (L / N) f *ᵥ z = fun i : Fin ((N + 1) * (N + 1)) => rhs (cells N (L / N) f) i := (Fdm.solves_iff (p := cells N (L / N) f) hh hh z).2 hz
    have hz0 : ∀ i : Fin ((N + 1) * (N + 1)), RimAt N i → z i = 0 := by
      intro i hi
      have h1 := congrFun hm i
      simp only [Matrix.mulVec, dotProduct] at h1
      rw [rhs_rim hi, Finset.sum_eq_single i (fun j _ hj => by rw [diffMat_rim hi, if_neg hj, zero_mul]) (fun h => absurd (Finset.mem_univ _) h),
        diffMat_rim hi, if_pos rfl, one_mul] at h1
      exact h1
    funext i
    by_cases hi : RimAt N i
    · rw [hB0 i hi]
      simp only [Matrix.mulVec, dotProduct]
      refine Finset.sum_eq_zero fun j _ => ?_
      by_cases hj : j = i
      · rw [hj, hz0 i hi, mul_zero]
      · rw [rows_rim h5 hi j hj, zero_mul]
    · rw [hB i hi, ← congrFun hm i]
      simp only [Matrix.mulVec, dotProduct]
      rw [Finset.mul_sum]
      refine Finset.sum_congr rfl fun j _ => ?_
      by_cases hj : RimAt N j
      · rw [hz0 j hj]; simp
      · rw [rows_inner (f := f) hh h5 hi hj, mul_assoc]
  · obtain ⟨⟨a', b'⟩, e, h1, h2⟩ := Fdm.system_upto (M := M) (p := cells N (L / N) f) (Nat.succ_pos _) (Nat.succ_pos _)
    have hdA : ∀ i, A i i ≠ 0 := fun i => ne_of_gt (lt_of_lt_of_le hk (five_diag_bounds hN h5 i).1)
    have h1 : IsMat a' ((N + 1) * (N + 1)) (diffMat N (L / N) f) := h1
    have h2 : IsVec b' ((N + 1) * (N + 1)) (fun i => rhs (cells N (L / N) f) i) := h2
    have hdM : ∀ i, diffMat N (L / N) f i i ≠ 0 := by
      intro i
      by_cases hi : RimAt N i
      · rw [diffMat_rim hi, if_pos rfl]; exact one_ne_zero
      · have := rows_inner (f := f) hh h5 hi hi
        intro h
        rw [h, mul_zero] at this
        exact hdA i this
    obtain ⟨u, it, k1, k2, k3⟩ := sor_same (b := B) s2 h1 hdA hdM (w := w) (fun x => ∀ i : Fin ((N + 1) * (N + 1)), RimAt N i → x i = 0) (fun _ _ => rfl)
      (fun x y hx hs => sweep_same hh h5 hB0 hB hx hs) maxIter tol
    refine ⟨u, it, k1, ?_, k3⟩
    unfold Fdm.solve
    have e3 : ∀ n, (Vec.resize [] n : List T).map Fl.fin = fl (0 : Fin n → T) := by
      intro n
      unfold fl Vec.resize
      apply List.ext_getElem (by simp)
      intro i _ _
      simp
    rw [e, ok_bind]
    show sor a' (b'.map Fl.fin) ((Vec.resize [] ((N + 1) * (N + 1)) : List T).map Fl.fin) w maxIter tol = _
    rw [NS.Props.Iter.fl_of_isVec h2, e3]
    exact k2

/-- **C114**: for every number `N` of cells per side, every size of the square, every source and zero boundary values: the finite element program with solver 0 (`sor`)
on the generated grid and the finite difference program with `N + 1` points per direction run through the same iterates and give the same result after the same
number of sweeps, for every weight, limit and tolerance.  The source of the finite difference problem is, with the opposite sign, the average of the source over the
middles of the six edges at a grid point, up to the contributions of at most `EPS` that the finite element program drops. -/
theorem C114_same {N : Nat} (hN : 1 ≤ N) {L : T} (hL : L ≠ 0) (off : T × T) {eps : T} (h0 : 0 ≤ eps) (he : eps < kappa / 2) (src : List T → T) :
    ∃ (w1 w2 w3 : World T) (f : T → T → T), generate N N (L, L) off = .ok w1 ∧ w1.prepare 0 = .ok w2 ∧ Shape.prepareMesh 1 w2 = .ok w3 ∧
      (∀ r c, 0 < r → r < N → 0 < c → c < N →
        |f (c * (L / N)) (r * (L / N)) + sixSum (L / N) off src r c / 6| ≤ 6 * eps / (kappa * (L / N) ^ 2)) ∧
      ∀ (w : T) (maxIter : Nat) (tol : T), ∃ u it, solveSor (M := M) eps 1 src (fun _ => 0) w maxIter tol w3 = .ok (fl u, it) ∧
        Fdm.solve (M := M) (cells N (L / N) f) w maxIter tol = .ok (fl (n := (N + 1) * (N + 1)) u, it) := by
  obtain ⟨w₀, w1, w2, w3, hb, hd, hc, hel, e1, e2, hp, e3, G⟩ := grid_ready hN hL off
  have hNp : (0 : T) < N := by exact_mod_cast (by omega : 0 < N)
  have hh : L / N ≠ 0 := div_ne_zero hL hNp.ne'
  have hk := kappa_gt (T := T)
  have hD := dofs_in hb hd hc hp.setup (.inl rfl) e3
  have hn : w3.vertices.length = (N + 1) * (N + 1) := by rw [G.vertices, List.length_range]
  obtain ⟨a, b, A, B, s1, s2, s3, s4, -⟩ := C67_system (M := M) hb hd hc hp (.inl rfl) e3 hel hn (grid_noneDropped hh G he) (grid_anchored G hD.elements) src (fun _ => 0)
  have h5 := (five_of hN hL e1 e2 e3 he s1 s2).1
  obtain ⟨f, f1, -, f2⟩ := same_core hN hL hb hd hc hel e1 e2 hp e3 G h0 he (fun _ => rfl) s1 s2 s3
  refine ⟨w1, w2, w3, f, e1, e2, e3, f1, fun w maxIter tol => ?_⟩
  obtain ⟨u, it, k1, k2, -⟩ := f2 w maxIter tol
  obtain ⟨z, z1, z2⟩ := isVec_mk (T := T) ((N + 1) * (N + 1))
  refine ⟨u, it, ?_, k2⟩
  unfold solveSor
  rw [s1, ok_bind, hn, z1, ok_bind, NS.Props.Iter.fl_of_isVec s3, NS.Props.Iter.fl_of_isVec z2]
  exact k1

/-- three cells per side and the source 1: the six values at the edges of an inner point are all 1, so the finite difference source is -1 up to the dropped parts -/
example : (∃ (w1 w2 w3 : World ℚ) (f : ℚ → ℚ → ℚ), generate 3 3 ((1 : ℚ), 1) (0, 0) = .ok w1 ∧ w1.prepare 0 = .ok w2 ∧ Shape.prepareMesh 1 w2 = .ok w3 ∧
    (∀ r c : Nat, 0 < r → r < 3 → 0 < c → c < 3 → |f (c * (1 / 3)) (r * (1 / 3)) + 1| ≤ 1 / 10 ^ 6) ∧
    ∃ u it, solveSor (M := Sparse ℚ) (1 / 10 ^ 8) 1 (fun _ => 1) (fun _ => 0) (12 / 10) 1024 (1 / 10 ^ 4) w3 = .ok (fl u, it) ∧
      Fdm.solve (M := Sparse ℚ) (cells 3 (1 / 3) f) (12 / 10) 1024 (1 / 10 ^ 4) = .ok (fl (n := 16) u, it)) := by
  obtain ⟨w1, w2, w3, f, e1, e2, e3, e4, e5⟩ := C114_same (M := Sparse ℚ) (N := 3) (by omega) (L := 1) one_ne_zero (0, 0) (eps := 1 / 10 ^ 8) (by norm_num)
    (by unfold kappa; norm_num) (fun _ => 1)
  refine ⟨w1, w2, w3, f, e1, e2, e3, fun r c h1 h2 h3 h4 => ?_, e5 _ _ _⟩
  have := e4 r c h1 h2 h3 h4
  have e : sixSum ((1 : ℚ) / (3 : Nat)) (0, 0) (fun _ => (1 : ℚ)) r c / 6 = 1 := by unfold sixSum edgeMid; norm_num
  rw [e] at this
  refine this.trans ?_
  unfold kappa; norm_num
end NS.Props.Fem

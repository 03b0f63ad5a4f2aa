/-
Property theorems C96: the stationary iterations `jacobi` and `sor` in floating-point arithmetic.

The model functions are those of `Verif/CxIterativeModel.lean` (real scalars here), run over a number type `F` whose operations round
(`Std fl u`, see `Verif/Props/Rounding.lean`).  The stopping test compares with the rounded square of the tolerance, as the code does;
`≤` on `F` is the order of the numbers meant (`hle`) and `std::abs` is exact (`hab`).  Infinities and NaN do not occur in `F`; the
diagonal is assumed to be non-zero, so no division by zero happens.
-/
import Verif.RoundIter
import Verif.Props.Rounding
import Verif.Props.Iterative
import Mathlib.Algebra.Order.Archimedean.Basic

set_option linter.unusedSectionVars false
set_option linter.unusedSimpArgs false

namespace NS.Props.Rounding
open NS NS.MatOps NS.Rounding Matrix NS.LawfulStore
open NS.Props.Iter (RowRatio)

variable {F K : Type} [Zero F] [One F] [Add F] [Sub F] [Mul F] [Div F] [Field K] [LinearOrder K] [IsStrictOrderedRing K]
variable {fl : F → K} {u : K} [DecidableEq F] [LE F] [DecidableLE F]
variable {M : Type} [MatOps M F] [LawfulStore M F] {n : Nat}

/-! ## The loop -/

/-- the stopping test of both methods for two successive vectors -/
def StopTest (cabs : F → F) (eps2 : F) (x y : List F) : Prop :=
  ∃ d c, Vec.subAssign y x = .ok d ∧ Vec.magSqr d = .ok c ∧ cabs c ≤ eps2

theorem diff_ok (h : Std fl u) {x y : List F} (hx : x.length = n) (hy : y.length = n) :
    ∃ (d : List F) (c : F) (t : Nat → K), Vec.subAssign y x = .ok d ∧ Vec.magSqr d = .ok c ∧ (∀ i, Th u (n + 2) (t i)) ∧
      fl c = ∑ i : Fin n, (fl (y.getD i 0) - fl (x.getD i 0)) ^ 2 * t i := by
  have e1 : Vec.subAssign y x = .ok (List.zipWith (· - ·) y x) := Vec.zipAssign_ok _ _ _ (by omega)
  obtain ⟨c, t, c1, c2, c3⟩ := dot_round h (v := List.zipWith (· - ·) y x) (w := List.zipWith (· - ·) y x) rfl
  have hl : (List.zipWith (· - ·) y x).length = n := by rw [List.length_zipWith]; omega
  rw [hl] at c2 c3
  choose d d1 d2 using fun i : Nat => h.sub_th (y.getD i 0) (x.getD i 0)
  refine ⟨_, c, fun i => d i * d i * t i, e1, c1, fun i => ?_, ?_⟩
  · rw [Nat.add_comm n 2]
    exact ((d1 i).mul h.u_lt (d1 i)).mul h.u_lt (c2 i)
  · rw [c3, Finset.sum_range]
    refine Finset.sum_congr rfl fun i _ => ?_
    have hi := i.2
    have : (List.zipWith (· - ·) y x).getD i 0 = y.getD i 0 - x.getD i 0 := by
      rw [List.getD_eq_getElem _ _ (by omega), List.getElem_zipWith, List.getD_eq_getElem _ _ (by omega),
        List.getD_eq_getElem _ _ (by omega)]
    rw [this, d2]; ring

section
variable {cabs : F → F} (hle : ∀ a b : F, a ≤ b ↔ fl a ≤ fl b) (hab : ∀ a, fl (cabs a) = |fl a|)
include hle hab

/-- the test accepts only if every component moved by at most about `eps` -/
theorem StopTest.small (h : Std fl u) {eps : F} {x y : List F} (hx : x.length = n) (hy : y.length = n)
    (hs : StopTest cabs (eps * eps) x y) (i : Fin n) :
    |fl (y.getD i 0) - fl (x.getD i 0)| ≤ |fl eps| * (1 + gam u (n + 3)) := by
  obtain ⟨d, c, a1, a2, a3⟩ := hs
  obtain ⟨d', c', t, b1, b2, b3, b4⟩ := diff_ok h hx hy
  rw [a1] at b1; cases b1
  rw [a2] at b2; cases b2
  rw [hle, hab] at a3
  obtain ⟨e, e1, e2⟩ := h.mul_th eps eps
  have p : 0 < 1 - u := sub_pos.2 h.u_lt
  set D := fl (y.getD i 0) - fl (x.getD i 0) with hD
  have h1 : D ^ 2 * t i ≤ fl c := by
    rw [b4]
    exact Finset.single_le_sum (f := fun i : Fin n => (fl (y.getD i 0) - fl (x.getD i 0)) ^ 2 * t i)
      (fun j _ => mul_nonneg (sq_nonneg _) ((b3 j).pos h.u_lt).le) (Finset.mem_univ i)
  have h2 : D ^ 2 * (1 - u) ^ (n + 2) ≤ fl eps ^ 2 * (1 - u)⁻¹ := by
    refine (mul_le_mul_of_nonneg_left (b3 i).1 (sq_nonneg _)).trans (h1.trans ((le_abs_self _).trans (a3.trans ?_)))
    rw [e2, pow_two]
    refine mul_le_mul_of_nonneg_left ?_ (mul_self_nonneg _)
    simpa using e1.2
  set s := (1 - u) ^ (n + 3) with hs
  have hs0 : 0 < s := pow_pos p _
  have hs1 : s ≤ 1 := pow_le_one₀ p.le (by linarith [h.u_nonneg])
  have h3 : D ^ 2 * s ≤ fl eps ^ 2 := by
    have : D ^ 2 * s = (D ^ 2 * (1 - u) ^ (n + 2)) * (1 - u) := by rw [hs, pow_succ]; ring
    rw [this]
    refine (mul_le_mul_of_nonneg_right h2 p.le).trans_eq ?_
    field_simp
  have h4 : (|D| * s) ^ 2 ≤ |fl eps| ^ 2 := by
    rw [mul_pow, sq_abs, sq_abs]
    calc D ^ 2 * s ^ 2 = (D ^ 2 * s) * s := by ring
      _ ≤ (D ^ 2 * s) * 1 := mul_le_mul_of_nonneg_left hs1 (by positivity)
      _ ≤ fl eps ^ 2 := by rw [mul_one]; exact h3
  have h5 : |D| * s ≤ |fl eps| := (sq_le_sq₀ (by positivity) (abs_nonneg _)).1 h4
  have : 1 + gam u (n + 3) = s⁻¹ := by unfold gam; ring
  rw [this, ← div_eq_mul_inv, le_div_iff₀ hs0]
  exact h5

/-- the test accepts if every component moved by at most `D` with `n D² (1 + gam) ≤ eps²` -/
theorem StopTest.of_small (h : Std fl u) {eps : F} {x y : List F} (hx : x.length = n) (hy : y.length = n) {D : K}
    (hD : ∀ i : Fin n, |fl (y.getD i 0) - fl (x.getD i 0)| ≤ D) (hn : (n : K) * D ^ 2 * (1 + gam u (n + 3)) ≤ fl eps ^ 2) :
    StopTest cabs (eps * eps) x y := by
  obtain ⟨d, c, t, b1, b2, b3, b4⟩ := diff_ok h hx hy
  refine ⟨d, c, b1, b2, ?_⟩
  rw [hle, hab]
  obtain ⟨e, e1, e2⟩ := h.mul_th eps eps
  have p : 0 < 1 - u := sub_pos.2 h.u_lt
  have hc0 : 0 ≤ fl c := by
    rw [b4]; exact Finset.sum_nonneg fun j _ => mul_nonneg (sq_nonneg _) ((b3 j).pos h.u_lt).le
  rw [abs_of_nonneg hc0]
  have h1 : fl c ≤ n * D ^ 2 * ((1 - u) ^ (n + 2))⁻¹ := by
    rw [b4]
    calc _ ≤ ∑ _i : Fin n, D ^ 2 * ((1 - u) ^ (n + 2))⁻¹ := Finset.sum_le_sum fun i _ => by
            refine mul_le_mul ?_ (b3 i).2 ((b3 i).pos h.u_lt).le (sq_nonneg _)
            rw [← sq_abs]
            exact pow_le_pow_left₀ (abs_nonneg _) (hD i) 2
      _ = _ := by rw [Finset.sum_const, Finset.card_univ, Fintype.card_fin, nsmul_eq_mul]; ring
  have h2 : fl eps ^ 2 * (1 - u) ≤ fl (eps * eps) := by
    rw [e2, ← pow_two]
    refine mul_le_mul_of_nonneg_left ?_ (sq_nonneg _)
    simpa using e1.1
  refine h1.trans (le_trans ?_ h2)
  have e3 : n * D ^ 2 * ((1 - u) ^ (n + 2))⁻¹ = n * D ^ 2 * (1 + gam u (n + 3)) * (1 - u) := by
    unfold gam
    rw [pow_succ (1 - u) (n + 2)]
    field_simp
    ring
  rw [e3]
  exact mul_le_mul_of_nonneg_right hn p.le
end

/-- the loop follows the sweeps until the test accepts -/
theorem loop_run (h : Std fl u) (cabs : F → F) (eps2 : F) {sweep : List F → List F → R (List F)}
    (hs : ∀ x xm, x.length = n → xm.length = n → ∃ y, sweep x xm = .ok y ∧ y.length = n) {x0 xm0 : List F} (hx : x0.length = n)
    (hxm : xm0.length = n) : ∃ y : Nat → List F, y 0 = x0 ∧ (∀ j, (y j).length = n) ∧ sweep (y 0) xm0 = .ok (y 1) ∧
      (∀ j, 0 < j → sweep (y j) (y j) = .ok (y (j + 1))) ∧
      ∀ maxIter, ∃ k, CxIterative.iterLoop cabs sweep eps2 maxIter 0 x0 xm0 = .ok (y k, k) ∧ k ≤ maxIter ∧ (0 < maxIter → 0 < k) ∧
        (k < maxIter → StopTest cabs eps2 (y (k - 1)) (y k)) ∧
        ∀ j, 0 < j → j < k → ¬ StopTest cabs eps2 (y (j - 1)) (y j) := by
  obtain ⟨y1, hy1, hl1⟩ := hs x0 xm0 hx hxm
  have hex : ∀ x : List F, ∃ y, x.length = n → sweep x x = .ok y ∧ y.length = n := by
    intro x
    by_cases hl : x.length = n
    · obtain ⟨y, hy⟩ := hs x x hl hl
      exact ⟨y, fun _ => hy⟩
    · exact ⟨[], fun hh => absurd hh hl⟩
  choose next hnext using hex
  let y : Nat → List F := fun k => match k with
    | 0 => x0
    | k + 1 => next^[k] y1
  have hlen : ∀ j, (y j).length = n := by
    intro j
    cases j with
    | zero => exact hx
    | succ j =>
      show (next^[j] y1).length = n
      induction j with
      | zero => exact hl1
      | succ j ih => rw [Function.iterate_succ_apply']; exact (hnext _ ih).2
  have hstep : ∀ j, 0 < j → sweep (y j) (y j) = .ok (y (j + 1)) := by
    intro j hj
    obtain ⟨m, rfl⟩ : ∃ m, j = m + 1 := ⟨j - 1, by omega⟩
    show sweep (next^[m] y1) (next^[m] y1) = .ok (next^[m + 1] y1)
    rw [Function.iterate_succ_apply']
    exact (hnext _ (hlen (m + 1))).1
  refine ⟨y, rfl, hlen, hy1, hstep, fun maxIter => ?_⟩
  have key : ∀ (m it : Nat) (xm : List F), it + m = maxIter → sweep (y it) xm = .ok (y (it + 1)) →
      (∀ j, 0 < j → j ≤ it → ¬ StopTest cabs eps2 (y (j - 1)) (y j)) →
      ∃ k, CxIterative.iterLoop cabs sweep eps2 m it (y it) xm = .ok (y k, k) ∧ it ≤ k ∧ k ≤ maxIter ∧ (0 < m → 0 < k) ∧
        (k < maxIter → StopTest cabs eps2 (y (k - 1)) (y k)) ∧ ∀ j, 0 < j → j < k → ¬ StopTest cabs eps2 (y (j - 1)) (y j) := by
    intro m
    induction m with
    | zero =>
      intro it xm hit _ hno
      exact ⟨it, rfl, le_rfl, by omega, by omega, by omega, fun j h1 h2 => hno j h1 (by omega)⟩
    | succ m ih =>
      intro it xm hit hsw hno
      obtain ⟨d, c, t, b1, b2, -, -⟩ := diff_ok h (hlen it) (hlen (it + 1))
      unfold CxIterative.iterLoop
      rw [hsw, ok_bind, b1, ok_bind, b2, ok_bind]
      by_cases hc : cabs c ≤ eps2
      · rw [if_pos hc]
        refine ⟨it + 1, rfl, by omega, by omega, by omega, fun _ => ⟨d, c, b1, b2, hc⟩, fun j h1 h2 => hno j h1 (by omega)⟩
      · rw [if_neg hc]
        obtain ⟨k, e1, e2, e3, e4, e5, e6⟩ := ih (it + 1) (y (it + 1)) (by omega) (hstep (it + 1) (Nat.succ_pos it)) (by
          intro j h1 h2
          by_cases hj : j = it + 1
          · subst hj
            rintro ⟨d', c', q1, q2, q3⟩
            rw [Nat.add_sub_cancel, b1] at q1; cases q1
            rw [b2] at q2; cases q2
            exact hc q3
          · exact hno j h1 (by omega))
        exact ⟨k, e1, by omega, e3, by omega, e5, e6⟩
  obtain ⟨k, e1, -, e3, e4, e5, e6⟩ := key maxIter 0 xm0 (by omega) hy1 (by intro j h1 h2; omega)
  exact ⟨k, e1, e3, e4, e5, e6⟩

/-! ## Error recursion -/

/-- errors that shrink by `ρ` up to an additive term -/
theorem err_iter {e : Nat → Fin n → K} {ρ β E0 : K} (hρ0 : 0 ≤ ρ) (hρ1 : ρ < 1) (hβ : 0 ≤ β) (hE0 : 0 ≤ E0)
    (h0 : ∀ i, |e 0 i| ≤ E0)
    (hstep : ∀ j E, β ≤ (1 - ρ) * E → (j = 0 → E0 ≤ E) → (∀ i, |e j i| ≤ E) → ∀ i, |e (j + 1) i| ≤ ρ * E + β) :
    ∀ k i, |e k i| ≤ β / (1 - ρ) + ρ ^ k * E0 := by
  have p : 0 < 1 - ρ := by linarith
  have hF : 0 ≤ β / (1 - ρ) := div_nonneg hβ p.le
  intro k
  induction k with
  | zero => intro i; have := h0 i; simp only [pow_zero, one_mul]; linarith
  | succ k ih =>
    intro i
    have hpow : 0 ≤ ρ ^ k * E0 := by positivity
    have := hstep k (β / (1 - ρ) + ρ ^ k * E0) (by
      rw [mul_add, mul_div_cancel₀ _ p.ne']; nlinarith) (by rintro rfl; simp only [pow_zero, one_mul]; linarith) ih i
    refine this.trans_eq ?_
    rw [pow_succ]
    field_simp
    ring

/-- after a small step -/
theorem err_step {e e' : Fin n → K} {ρ β δ : K} (hρ0 : 0 ≤ ρ) (hρ1 : ρ < 1) (hβ : 0 ≤ β) (hδ : 0 ≤ δ)
    (hd : ∀ i, |e' i - e i| ≤ δ)
    (hstep : ∀ E, β ≤ (1 - ρ) * E → (∀ i, |e i| ≤ E) → ∀ i, |e' i| ≤ ρ * E + β) (i : Fin n) :
    (1 - ρ) * |e' i| ≤ ρ * δ + β := by
  have p : 0 < 1 - ρ := by linarith
  have hne : (Finset.univ : Finset (Fin n)).Nonempty := ⟨i, Finset.mem_univ i⟩
  obtain ⟨m, -, hm⟩ := Finset.exists_max_image Finset.univ (fun i => |e' i|) hne
  have hm' : ∀ j, |e' j| ≤ |e' m| := fun j => hm j (Finset.mem_univ j)
  refine (mul_le_mul_of_nonneg_left (hm' i) p.le).trans ?_
  have he : ∀ j, |e j| ≤ |e' m| + δ := by
    intro j
    have : e j = e' j - (e' j - e j) := by ring
    rw [this]
    refine (abs_sub _ _).trans (add_le_add (hm' j) (hd j))
  by_cases hE : β ≤ (1 - ρ) * (|e' m| + δ)
  · have := hstep _ hE he m
    nlinarith
  · push Not at hE
    nlinarith [mul_nonneg hρ0 hδ, mul_nonneg p.le hδ]

/-! ## C96: Jacobi -/
section jacobi
variable {cabs : F → F} (hle : ∀ a b : F, a ≤ b ↔ fl a ≤ fl b) (hab : ∀ a, fl (cabs a) = |fl a|)
include hle hab

/-- everything known about a run of `jacobi` -/
theorem jacobi_core (h : Std fl u) {a : M} {A : Matrix (Fin n) (Fin n) K} (ha : MatFl fl a A) {b₀ x₀ : List F} {b x : Fin n → K}
    (hb : VecFl fl b₀ n b) (hx : VecFl fl x₀ n x) (hd : ∀ i, A i i ≠ 0) {q : K} (hq0 : 0 ≤ q) (hq : RowRatio A q)
    {ρ β Z E : K} (hρ : ρ = q * (1 + gam u (n + 1))) (hβ : β = (1 + 2 * q) * gam u (n + 1)) (hρ1 : ρ < 1)
    {z : Fin n → K} (hz : A *ᵥ z = b) (hZ : ∀ i, |z i| ≤ Z) (hE : ∀ i, |x i - z i| ≤ E) (eps : F) :
    ∃ y : Nat → List F, (∀ j, (y j).length = n) ∧ (∀ k (i : Fin n), |fl ((y k).getD i 0) - z i| ≤ β * Z / (1 - ρ) + ρ ^ k * E) ∧
      ∀ maxIter, ∃ k, CxIterative.jacobi cabs a b₀ x₀ maxIter eps = .ok (y k, k) ∧ k ≤ maxIter ∧ (0 < maxIter → 0 < k) ∧
        (k < maxIter → ∀ i : Fin n, (1 - ρ) * |fl ((y k).getD i 0) - z i| ≤ ρ * (|fl eps| * (1 + gam u (n + 3))) + β * Z) ∧
        ∀ j, 0 < j → j < k → ¬ StopTest cabs (eps * eps) (y (j - 1)) (y j) := by
  have hn : 0 < n := ha.sq.pos
  have hg : 0 ≤ gam u (n + 1) := gam_nonneg h.u_nonneg h.u_lt
  have hZ0 : 0 ≤ Z := (abs_nonneg _).trans (hZ ⟨0, hn⟩)
  have hE0 : 0 ≤ E := (abs_nonneg _).trans (hE ⟨0, hn⟩)
  have hρ0 : 0 ≤ ρ := by rw [hρ]; positivity
  have hβ0 : 0 ≤ β * Z := by rw [hβ]; positivity
  have hs : ∀ x xm : List F, x.length = n → xm.length = n → ∃ y, CxIterative.jacobiSweep a b₀ x xm = .ok y ∧ y.length = n :=
    fun x xm h1 h2 => by
      obtain ⟨y, y1, y2, -⟩ := jacobiSweep_round h ha.sq (A := A) ha.val hd hb.1 h1 h2
      exact ⟨y, y1, y2⟩
  obtain ⟨y, y0, yl, y1, y2, y3⟩ := loop_run (n := n) h cabs (eps * eps) hs (x0 := x₀) (xm0 := List.replicate x₀.length 0) hx.1
    (by rw [List.length_replicate, hx.1])
  have hswe : ∀ (x xm y' : List F), x.length = n → xm.length = n → CxIterative.jacobiSweep a b₀ x xm = .ok y' → ∀ E',
      (∀ i : Fin n, |fl (x.getD i 0) - z i| ≤ E') → ∀ i : Fin n, |fl (y'.getD i 0) - z i| ≤ ρ * E' + β * Z := by
    intro x xm y' l1 l2 hsw E' hx' i
    obtain ⟨y'', w1, -, w3⟩ := jacobiSweep_round h ha.sq (A := A) ha.val hd hb.1 l1 l2
    rw [hsw] at w1; cases w1
    refine ((w3 i).err h.u_nonneg h.u_lt (hd i) (hq i) (z := z) ?_ hZ hx').trans_eq ?_
    · rw [hb.getD, ← hz]; rfl
    · rw [hρ, hβ]; ring
  have hstep : ∀ j E', (∀ i : Fin n, |fl ((y j).getD i 0) - z i| ≤ E') →
      ∀ i : Fin n, |fl ((y (j + 1)).getD i 0) - z i| ≤ ρ * E' + β * Z := by
    intro j E' hE'
    rcases Nat.eq_zero_or_pos j with rfl | hj
    · exact hswe _ _ _ (yl 0) (by rw [List.length_replicate, hx.1]) y1 E' hE'
    · exact hswe _ _ _ (yl j) (yl j) (y2 j hj) E' hE'
  refine ⟨y, yl, fun k i => ?_, fun maxIter => ?_⟩
  · exact err_iter (e := fun k i => fl ((y k).getD i 0) - z i) hρ0 hρ1 hβ0 hE0
      (fun i => by rw [y0, hx.getD]; exact hE i) (fun j E' _ _ hE' => hstep j E' hE') k i
  obtain ⟨k, k1, k2, k3, k4, k5⟩ := y3 maxIter
  refine ⟨k, ?_, k2, k3, fun hk i => ?_, k5⟩
  · unfold CxIterative.jacobi
    rw [throwIf_false _ (by rw [ha.2.1, ha.2.2.1]; simp), throwIf_false _ (by rw [ha.2.1, hb.1, hx.1]; simp), ok_bind, ok_bind,
      Vec.fill_ok, ok_bind]
    exact k1
  · obtain ⟨m, rfl⟩ : ∃ m, k = m + 1 := ⟨k - 1, by omega⟩
    have hst := k4 hk
    rw [Nat.add_sub_cancel] at hst
    have hδ : 0 ≤ |fl eps| * (1 + gam u (n + 3)) :=
      mul_nonneg (abs_nonneg _) (by linarith [gam_nonneg (n := n + 3) h.u_nonneg h.u_lt])
    exact err_step (e := fun i => fl ((y m).getD i 0) - z i) (e' := fun i => fl ((y (m + 1)).getD i 0) - z i) hρ0 hρ1 hβ0 hδ
      (fun i => by rw [sub_sub_sub_cancel_right]; exact hst.small hle hab h (yl m) (yl (m + 1)) i)
      (fun E' _ hE' => hstep m E' hE') i

/-- C96: `jacobi` in floating-point arithmetic on a diagonally dominant system `A z = b` (row ratio `q`).  With `ρ = q (1 + gam)` and
`β = (1 + 2q) gam` (`gam = gam u (n+1)`), every run returns normally; the error of the result is at most the limiting accuracy
`β max|z| / (1 - ρ)` plus `ρ^k` times the error of the start vector, and if the run stopped because the test accepted, also at most
`(ρ eps (1 + gam u (n+3)) + β max|z|) / (1 - ρ)`. -/
theorem C96_jacobi (h : Std fl u) {a : M} {A : Matrix (Fin n) (Fin n) K} (ha : MatFl fl a A) {b₀ x₀ : List F} {b x : Fin n → K}
    (hb : VecFl fl b₀ n b) (hx : VecFl fl x₀ n x) (hd : ∀ i, A i i ≠ 0) {q : K} (hq0 : 0 ≤ q) (hq : RowRatio A q)
    {ρ β Z E : K} (hρ : ρ = q * (1 + gam u (n + 1))) (hβ : β = (1 + 2 * q) * gam u (n + 1)) (hρ1 : ρ < 1)
    {z : Fin n → K} (hz : A *ᵥ z = b) (hZ : ∀ i, |z i| ≤ Z) (hE : ∀ i, |x i - z i| ≤ E) (eps : F) (maxIter : Nat) :
    ∃ (w : List F) (y : Fin n → K) (k : Nat), CxIterative.jacobi cabs a b₀ x₀ maxIter eps = .ok (w, k) ∧ VecFl fl w n y ∧
      k ≤ maxIter ∧ (∀ i, |y i - z i| ≤ β * Z / (1 - ρ) + ρ ^ k * E) ∧
      (k < maxIter → ∀ i, (1 - ρ) * |y i - z i| ≤ ρ * (|fl eps| * (1 + gam u (n + 3))) + β * Z) := by
  obtain ⟨y, yl, ye, yr⟩ := jacobi_core hle hab h ha hb hx hd hq0 hq hρ hβ hρ1 hz hZ hE eps
  obtain ⟨k, k1, k2, -, k4, -⟩ := yr maxIter
  exact ⟨y k, _, k, k1, vecFl_of (yl k), k2, ye k, k4⟩

/-- C96: if the tolerance is above the limiting accuracy, `jacobi` stops by convergence once the iteration limit is large enough. -/
theorem C96_jacobi_stops [Archimedean K] (h : Std fl u) {a : M} {A : Matrix (Fin n) (Fin n) K} (ha : MatFl fl a A) {b₀ x₀ : List F}
    {b x : Fin n → K}
    (hb : VecFl fl b₀ n b) (hx : VecFl fl x₀ n x) (hd : ∀ i, A i i ≠ 0) {q : K} (hq0 : 0 ≤ q) (hq : RowRatio A q)
    {ρ β Z : K} (hρ : ρ = q * (1 + gam u (n + 1))) (hβ : β = (1 + 2 * q) * gam u (n + 1)) (hρ1 : ρ < 1)
    {z : Fin n → K} (hz : A *ᵥ z = b) (hZ : ∀ i, |z i| ≤ Z) {eps : F} {D : K} (hD : 2 * (β * Z / (1 - ρ)) < D)
    (heps : (n : K) * D ^ 2 * (1 + gam u (n + 3)) ≤ fl eps ^ 2) :
    ∃ N, ∀ maxIter, N < maxIter → ∃ (w : List F) (y : Fin n → K) (k : Nat),
      CxIterative.jacobi cabs a b₀ x₀ maxIter eps = .ok (w, k) ∧ VecFl fl w n y ∧ k ≤ N ∧
      ∀ i, (1 - ρ) * |y i - z i| ≤ ρ * (|fl eps| * (1 + gam u (n + 3))) + β * Z := by
  obtain ⟨E, hE0, hE⟩ : ∃ E : K, 0 ≤ E ∧ ∀ i, |x i - z i| ≤ E :=
    ⟨∑ i, |x i - z i|, Finset.sum_nonneg fun _ _ => abs_nonneg _,
      fun i => Finset.single_le_sum (f := fun i => |x i - z i|) (fun _ _ => abs_nonneg _) (Finset.mem_univ i)⟩
  obtain ⟨y, yl, ye, yr⟩ := jacobi_core hle hab h ha hb hx hd hq0 hq hρ hβ hρ1 hz hZ hE eps
  have hρ0 : 0 ≤ ρ := by rw [hρ]; have := gam_nonneg (n := n + 1) h.u_nonneg h.u_lt; positivity
  have hgap : 0 < D - 2 * (β * Z / (1 - ρ)) := by linarith
  obtain ⟨N, hN⟩ : ∃ N, 2 * (ρ ^ N * E) ≤ D - 2 * (β * Z / (1 - ρ)) := by
    obtain ⟨N, hN⟩ := exists_pow_lt_of_lt_one (show 0 < (D - 2 * (β * Z / (1 - ρ))) / (2 * (E + 1)) by positivity) hρ1
    refine ⟨N, ?_⟩
    rw [lt_div_iff₀ (by positivity)] at hN
    nlinarith [pow_nonneg hρ0 N]
  refine ⟨N + 1, fun maxIter hmax => ?_⟩
  obtain ⟨k, k1, k2, k3, k4, k5⟩ := yr maxIter
  have hkN : k ≤ N + 1 := by
    by_contra hcon
    refine k5 (N + 1) (by omega) (by omega) (StopTest.of_small hle hab h (yl _) (yl _) (D := D) (fun i => ?_) heps)
    rw [Nat.add_sub_cancel]
    have e1 := ye N i
    have e2 := ye (N + 1) i
    have e3 : ρ ^ (N + 1) * E ≤ ρ ^ N * E :=
      mul_le_mul_of_nonneg_right (pow_le_pow_of_le_one hρ0 hρ1.le (Nat.le_succ N)) hE0
    have e4 : fl ((y (N + 1)).getD i 0) - fl ((y N).getD i 0)
        = (fl ((y (N + 1)).getD i 0) - z i) - (fl ((y N).getD i 0) - z i) := by ring
    rw [e4]
    refine (abs_sub _ _).trans ?_
    linarith
  exact ⟨y k, _, k, k1, vecFl_of (yl k), hkN, k4 (by omega)⟩
end jacobi

/-! ## C96: successive over-relaxation (weights up to one) -/
section sor
variable {cabs : F → F} (hle : ∀ a b : F, a ≤ b ↔ fl a ≤ fl b) (hab : ∀ a, fl (cabs a) = |fl a|)
include hle hab

/-- everything known about a run of `sor`; `E` bounds the error of the start vector and (since the first sweep relaxes against zero)
the solution -/
theorem sor_core (h : Std fl u) {a : M} {A : Matrix (Fin n) (Fin n) K} (ha : MatFl fl a A) {b₀ x₀ : List F} {b x : Fin n → K}
    (hb : VecFl fl b₀ n b) (hx : VecFl fl x₀ n x) (hd : ∀ i, A i i ≠ 0) {q : K} (hq0 : 0 ≤ q) (hq : RowRatio A q)
    {w : F} (hw0 : 0 ≤ fl w) (hw1 : fl w ≤ 1)
    {ρ β Z E : K} (hρ : ρ = (1 - fl w + fl w * q) * (1 + gam u (n + 3))) (hβ : β = (1 + 2 * (fl w * q)) * gam u (n + 3)) (hρ1 : ρ < 1)
    {z : Fin n → K} (hz : A *ᵥ z = b) (hZ : ∀ i, |z i| ≤ Z) (hE : ∀ i, |x i - z i| ≤ E) (hZE : Z ≤ E) (eps : F) :
    ∃ y : Nat → List F, (∀ j, (y j).length = n) ∧ (∀ k (i : Fin n), |fl ((y k).getD i 0) - z i| ≤ β * Z / (1 - ρ) + ρ ^ k * E) ∧
      ∀ maxIter, ∃ k, CxIterative.sor cabs a b₀ x₀ w maxIter eps = .ok (y k, k) ∧ k ≤ maxIter ∧ (0 < maxIter → 0 < k) ∧
        (2 ≤ k → k < maxIter →
          ∀ i : Fin n, (1 - ρ) * |fl ((y k).getD i 0) - z i| ≤ ρ * (|fl eps| * (1 + gam u (n + 3))) + β * Z) ∧
        ∀ j, 0 < j → j < k → ¬ StopTest cabs (eps * eps) (y (j - 1)) (y j) := by
  have hn : 0 < n := ha.sq.pos
  have hg : 0 ≤ gam u (n + 3) := gam_nonneg h.u_nonneg h.u_lt
  have hZ0 : 0 ≤ Z := (abs_nonneg _).trans (hZ ⟨0, hn⟩)
  have hE0 : 0 ≤ E := hZ0.trans hZE
  have hw1' : 0 ≤ 1 - fl w := by linarith
  have hρ0 : 0 ≤ ρ := by rw [hρ]; positivity
  have hβ0 : 0 ≤ β * Z := by rw [hβ]; positivity
  have hl0 : (List.replicate x₀.length (0 : F)).length = n := by rw [List.length_replicate, hx.1]
  have hs : ∀ x xm : List F, x.length = n → xm.length = n → ∃ y, CxIterative.sorSweep w a b₀ x xm = .ok y ∧ y.length = n :=
    fun x xm h1 h2 => by
      obtain ⟨y, y1, y2, -⟩ := sorSweep_round h ha.sq (A := A) ha.val hd w hb.1 h1 h2
      exact ⟨y, y1, y2⟩
  obtain ⟨y, y0, yl, y1, y2, y3⟩ := loop_run (n := n) h cabs (eps * eps) hs (x0 := x₀) (xm0 := List.replicate x₀.length 0) hx.1 hl0
  have hswe : ∀ (x xm y' : List F), x.length = n → xm.length = n → CxIterative.sorSweep w a b₀ x xm = .ok y' → ∀ E',
      β * Z ≤ (1 - ρ) * E' → (∀ i : Fin n, |fl (x.getD i 0) - z i| ≤ E') → (∀ i : Fin n, |fl (xm.getD i 0) - z i| ≤ E') →
      ∀ i : Fin n, |fl (y'.getD i 0) - z i| ≤ ρ * E' + β * Z := by
    intro x xm y' l1 l2 hsw E' hEE hx' hxm'
    obtain ⟨y'', w1, -, w3⟩ := sorSweep_round h ha.sq (A := A) ha.val hd w hb.1 l1 l2
    rw [hsw] at w1; cases w1
    have : ∀ (k : Nat) (i : Fin n), i.val = k → |fl (y'.getD i 0) - z i| ≤ ρ * E' + β * Z := by
      intro k
      induction k using Nat.strong_induction_on with
      | _ k ih =>
        intro i hi
        refine ((w3 i).err h.u_nonneg h.u_lt (hd i) hw0 hw1 (hq i) (z := z) ?_ hZ (fun j _ => hx' j) (hxm' i) (E := E') ?_).trans_eq ?_
        · rw [hb.getD, ← hz]; rfl
        · intro j hj
          refine (ih j.val (by have : j.val < i.val := hj; omega) j rfl).trans ?_
          linarith
        · rw [hρ, hβ]; ring
    exact fun i => this i.val i rfl
  have hstep : ∀ j E', β * Z ≤ (1 - ρ) * E' → (j = 0 → E ≤ E') → (∀ i : Fin n, |fl ((y j).getD i 0) - z i| ≤ E') →
      ∀ i : Fin n, |fl ((y (j + 1)).getD i 0) - z i| ≤ ρ * E' + β * Z := by
    intro j E' hEE h0 hE'
    rcases Nat.eq_zero_or_pos j with rfl | hj
    · refine hswe _ _ _ (yl 0) hl0 y1 E' hEE hE' fun i => ?_
      have hi := i.2
      rw [List.getD_replicate _ (by rw [hx.1]; exact hi), h.zero, zero_sub, abs_neg]
      exact (hZ i).trans (hZE.trans (h0 rfl))
    · exact hswe _ _ _ (yl j) (yl j) (y2 j hj) E' hEE hE' hE'
  refine ⟨y, yl, fun k i => ?_, fun maxIter => ?_⟩
  · exact err_iter (e := fun k i => fl ((y k).getD i 0) - z i) hρ0 hρ1 hβ0 hE0
      (fun i => by rw [y0, hx.getD]; exact hE i) hstep k i
  obtain ⟨k, k1, k2, k3, k4, k5⟩ := y3 maxIter
  refine ⟨k, ?_, k2, k3, fun hk2 hk i => ?_, k5⟩
  · unfold CxIterative.sor
    rw [throwIf_false _ (by rw [ha.2.1, ha.2.2.1]; simp), throwIf_false _ (by rw [ha.2.1, hb.1, hx.1]; simp), ok_bind, ok_bind,
      Vec.fill_ok, ok_bind]
    exact k1
  · obtain ⟨m, rfl⟩ : ∃ m, k = m + 1 := ⟨k - 1, by omega⟩
    have hst := k4 hk
    rw [Nat.add_sub_cancel] at hst
    have hδ : 0 ≤ |fl eps| * (1 + gam u (n + 3)) := mul_nonneg (abs_nonneg _) (by linarith)
    exact err_step (e := fun i => fl ((y m).getD i 0) - z i) (e' := fun i => fl ((y (m + 1)).getD i 0) - z i) hρ0 hρ1 hβ0 hδ
      (fun i => by rw [sub_sub_sub_cancel_right]; exact hst.small hle hab h (yl m) (yl (m + 1)) i)
      (fun E' hEE hE' => hstep m E' hEE (by omega) hE') i

/-- C96: `sor` with a weight in `[0, 1]`, as `C96_jacobi`, with `ρ = (1 - w + w q)(1 + gam)` and `β = (1 + 2 w q) gam`,
`gam = gam u (n+3)`.  The start error counts at least as large as the solution, because the first sweep relaxes against zero, and a
convergence stop in the first sweep says nothing (C38). -/
theorem C96_sor (h : Std fl u) {a : M} {A : Matrix (Fin n) (Fin n) K} (ha : MatFl fl a A) {b₀ x₀ : List F} {b x : Fin n → K}
    (hb : VecFl fl b₀ n b) (hx : VecFl fl x₀ n x) (hd : ∀ i, A i i ≠ 0) {q : K} (hq0 : 0 ≤ q) (hq : RowRatio A q)
    {w : F} (hw0 : 0 ≤ fl w) (hw1 : fl w ≤ 1)
    {ρ β Z E : K} (hρ : ρ = (1 - fl w + fl w * q) * (1 + gam u (n + 3))) (hβ : β = (1 + 2 * (fl w * q)) * gam u (n + 3)) (hρ1 : ρ < 1)
    {z : Fin n → K} (hz : A *ᵥ z = b) (hZ : ∀ i, |z i| ≤ Z) (hE : ∀ i, |x i - z i| ≤ E) (hZE : Z ≤ E) (eps : F) (maxIter : Nat) :
    ∃ (v : List F) (y : Fin n → K) (k : Nat), CxIterative.sor cabs a b₀ x₀ w maxIter eps = .ok (v, k) ∧ VecFl fl v n y ∧
      k ≤ maxIter ∧ (∀ i, |y i - z i| ≤ β * Z / (1 - ρ) + ρ ^ k * E) ∧
      (2 ≤ k → k < maxIter → ∀ i, (1 - ρ) * |y i - z i| ≤ ρ * (|fl eps| * (1 + gam u (n + 3))) + β * Z) := by
  obtain ⟨y, yl, ye, yr⟩ := sor_core hle hab h ha hb hx hd hq0 hq hw0 hw1 hρ hβ hρ1 hz hZ hE hZE eps
  obtain ⟨k, k1, k2, -, k4, -⟩ := yr maxIter
  exact ⟨y k, _, k, k1, vecFl_of (yl k), k2, ye k, k4⟩

/-- C96: if the tolerance is above the limiting accuracy, `sor` stops by convergence once the iteration limit is large enough. -/
theorem C96_sor_stops [Archimedean K] (h : Std fl u) {a : M} {A : Matrix (Fin n) (Fin n) K} (ha : MatFl fl a A) {b₀ x₀ : List F}
    {b x : Fin n → K}
    (hb : VecFl fl b₀ n b) (hx : VecFl fl x₀ n x) (hd : ∀ i, A i i ≠ 0) {q : K} (hq0 : 0 ≤ q) (hq : RowRatio A q)
    {w : F} (hw0 : 0 ≤ fl w) (hw1 : fl w ≤ 1)
    {ρ β Z : K} (hρ : ρ = (1 - fl w + fl w * q) * (1 + gam u (n + 3))) (hβ : β = (1 + 2 * (fl w * q)) * gam u (n + 3)) (hρ1 : ρ < 1)
    {z : Fin n → K} (hz : A *ᵥ z = b) (hZ : ∀ i, |z i| ≤ Z) {eps : F} {D : K} (hD : 2 * (β * Z / (1 - ρ)) < D)
    (heps : (n : K) * D ^ 2 * (1 + gam u (n + 3)) ≤ fl eps ^ 2) :
    ∃ N, ∀ maxIter, N < maxIter → ∃ (v : List F) (y : Fin n → K) (k : Nat),
      CxIterative.sor cabs a b₀ x₀ w maxIter eps = .ok (v, k) ∧ VecFl fl v n y ∧ k ≤ N ∧
      (2 ≤ k → ∀ i, (1 - ρ) * |y i - z i| ≤ ρ * (|fl eps| * (1 + gam u (n + 3))) + β * Z) := by
  have hn : 0 < n := ha.sq.pos
  have hZ0 : 0 ≤ Z := (abs_nonneg _).trans (hZ ⟨0, hn⟩)
  obtain ⟨E, hZE, hE⟩ : ∃ E : K, Z ≤ E ∧ ∀ i, |x i - z i| ≤ E :=
    ⟨Z + ∑ i, |x i - z i|, by linarith [Finset.sum_nonneg fun (i : Fin n) (_ : i ∈ Finset.univ) => abs_nonneg (x i - z i)],
      fun i => by
        have := Finset.single_le_sum (f := fun i => |x i - z i|) (fun _ _ => abs_nonneg _) (Finset.mem_univ i)
        linarith⟩
  have hE0 : 0 ≤ E := hZ0.trans hZE
  obtain ⟨y, yl, ye, yr⟩ := sor_core hle hab h ha hb hx hd hq0 hq hw0 hw1 hρ hβ hρ1 hz hZ hE hZE eps
  have hρ0 : 0 ≤ ρ := by
    rw [hρ]
    have := gam_nonneg (n := n + 3) h.u_nonneg h.u_lt
    have : 0 ≤ 1 - fl w := by linarith
    positivity
  have hgap : 0 < D - 2 * (β * Z / (1 - ρ)) := by linarith
  obtain ⟨N, hN⟩ : ∃ N, 2 * (ρ ^ N * E) ≤ D - 2 * (β * Z / (1 - ρ)) := by
    obtain ⟨N, hN⟩ := exists_pow_lt_of_lt_one (show 0 < (D - 2 * (β * Z / (1 - ρ))) / (2 * (E + 1)) by positivity) hρ1
    refine ⟨N, ?_⟩
    rw [lt_div_iff₀ (by positivity)] at hN
    nlinarith [pow_nonneg hρ0 N]
  refine ⟨N + 1, fun maxIter hmax => ?_⟩
  obtain ⟨k, k1, k2, k3, k4, k5⟩ := yr maxIter
  have hkN : k ≤ N + 1 := by
    by_contra hcon
    refine k5 (N + 1) (by omega) (by omega) (StopTest.of_small hle hab h (yl _) (yl _) (D := D) (fun i => ?_) heps)
    rw [Nat.add_sub_cancel]
    have e1 := ye N i
    have e2 := ye (N + 1) i
    have e3 : ρ ^ (N + 1) * E ≤ ρ ^ N * E :=
      mul_le_mul_of_nonneg_right (pow_le_pow_of_le_one hρ0 hρ1.le (Nat.le_succ N)) hE0
    have e4 : fl ((y (N + 1)).getD i 0) - fl ((y N).getD i 0)
        = (fl ((y (N + 1)).getD i 0) - z i) - (fl ((y N).getD i 0) - z i) := by ring
    rw [e4]
    refine (abs_sub _ _).trans ?_
    linarith
  exact ⟨y k, _, k, k1, vecFl_of (yl k), hkN, fun h2 => k4 h2 (by omega)⟩
end sor

/-! ## Witness: six-bit significands, `A = [4 1; 1 4]`, `b = (1, 1)`, solution `(1/5, 1/5)`, which is not a binary number -/
section
instance {p : Nat} : LE (Bin p) := ⟨fun a b => a.toRat ≤ b.toRat⟩
instance {p : Nat} : DecidableLE (Bin p) := fun a b => inferInstanceAs (Decidable (a.toRat ≤ b.toRat))
private def babs {p : Nat} (a : Bin p) : Bin p := if 0 ≤ a.toRat then a else -a
private theorem babs_ok {p : Nat} (a : Bin p) : (babs a).toRat = |a.toRat| := by
  unfold babs
  split
  · rename_i h; rw [abs_of_nonneg h]
  · rename_i h; push Not at h; rw [abs_of_neg h]; rfl

private def wM : Dense (Bin 5) := ⟨[Bin.rnd 4, Bin.rnd 1, Bin.rnd 1, Bin.rnd 4], 2, 2⟩
private def wB : Matrix (Fin 2) (Fin 2) ℚ := !![4, 1; 1, 4]

/-- the hypotheses of `C96_jacobi` and `C96_jacobi_stops` hold: `q = 1/4`, `ρ < 1`, and the tolerance `1/2` is large enough -/
example : MatFl Bin.toRat wM wB ∧ VecFl Bin.toRat ([Bin.rnd 1, Bin.rnd 1] : List (Bin 5)) 2 ![1, 1] ∧ (∀ i, wB i i ≠ 0) ∧
    RowRatio wB (1 / 4) ∧ wB *ᵥ ![1 / 5, 1 / 5] = ![1, 1] ∧
    (1 / 4 : ℚ) * (1 + gam ((1 / 2) ^ 6) 3) < 1 ∧ (∀ i, |(![1 / 5, 1 / 5] : Fin 2 → ℚ) i| ≤ 1 / 5) ∧
    2 * ((1 + 2 * (1 / 4)) * gam ((1 / 2) ^ 6) 3 * (1 / 5) / (1 - (1 / 4 : ℚ) * (1 + gam ((1 / 2) ^ 6) 3))) < 1 / 25 ∧
    ((2 : ℕ) : ℚ) * (1 / 25) ^ 2 * (1 + gam ((1 / 2) ^ 6) 5) ≤ (1 / 2) ^ 2 := by
  refine ⟨⟨⟨rfl, by decide, by decide⟩, rfl, rfl, ?_⟩, ⟨rfl, ?_⟩, ?_, ?_, ?_, ?_, ?_, ?_, ?_⟩
  · intro i j
    fin_cases i <;> fin_cases j <;> exact ⟨_, rfl, by decide +kernel⟩
  · intro i
    fin_cases i <;> exact ⟨_, rfl, by decide +kernel⟩
  · intro i; fin_cases i <;> decide +kernel
  · intro i; fin_cases i <;> decide +kernel
  · funext i; fin_cases i <;> decide +kernel
  · norm_num [gam]
  · intro i; fin_cases i <;> decide +kernel
  · norm_num [gam]
  · norm_num [gam]

/-- the run stops by convergence, with values near the solution -/
example : CxIterative.jacobi babs wM [Bin.rnd 1, Bin.rnd 1] [0, 0] 20 (Bin.rnd (1 / 16)) = .ok ([Bin.rnd (13 / 64), Bin.rnd (13 / 64)], 3) := by
  decide +kernel
example : CxIterative.sor babs wM [Bin.rnd 1, Bin.rnd 1] [0, 0] (Bin.rnd (1 / 2)) 20 (Bin.rnd (1 / 16))
    = .ok ([Bin.rnd (25 / 128), Bin.rnd (47 / 256)], 3) := by
  decide +kernel
/-- the hypotheses of `C96_sor` on the weight -/
example : (1 - 1 / 2 + 1 / 2 * (1 / 4) : ℚ) * (1 + gam ((1 / 2) ^ 6) 5) < 1 ∧ (Bin.rnd (1 / 2) : Bin 5).toRat = 1 / 2 :=
  ⟨by norm_num [gam], by decide +kernel⟩
end

end NS.Props.Rounding

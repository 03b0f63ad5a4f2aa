/-
Property theorems C117: the finite element example and boundary values of an affine function ("patch test").
-/
import Verif.Props.FemFiles

set_option linter.unusedSectionVars false
set_option linter.unusedSimpArgs false

namespace NS.Props.FemMain
open NS NS.World NS.FemMain NS.Fem Matrix NS.Props.Mesh NS.Props.Shape NS.Props.Fem
open NS.Props.Simplex (area2)
variable {T : Type} [Field T] [LinearOrder T] [IsStrictOrderedRing T]

/-! ### Specification -/

/-- twice the signed area of the triangle of three points: positive if they are in counterclockwise order -/
def turn (pts : List (T × T)) (p q a : Nat) : T :=
  let P := pts.getD p (0, 0)
  let Q := pts.getD q (0, 0)
  let A := pts.getD a (0, 0)
  (Q.1 - P.1) * (A.2 - P.2) - (A.1 - P.1) * (Q.2 - P.2)

/-- two triangles with a side in common lie on different sides of it -/
def Unfolded (pts : List (T × T)) (tris : List (Nat × Nat × Nat)) : Prop :=
  ∀ (i j : Nat) (t u : Nat × Nat × Nat), i ≠ j → tris[i]? = some t → tris[j]? = some u → ∀ p q, p ≠ q →
    HasCorner t p → HasCorner t q → HasCorner u p → HasCorner u q → ∀ a b, HasCorner t a → a ≠ p → a ≠ q → HasCorner u b → b ≠ p → b ≠ q →
    turn pts p q a * turn pts p q b < 0

/-- the triangles whose element matrix the program calculates correctly (C66): the matrix of the edges from the first corner is symmetric, or a rotation with scaling -/
def Upright (pts : List (T × T)) (t : Nat × Nat × Nat) : Prop :=
  let P := triPoints pts t
  (P 2 0 - P 0 0 = P 1 1 - P 0 1) ∨ (P 2 0 - P 0 0 = -(P 1 1 - P 0 1) ∧ P 1 0 - P 0 0 = P 2 1 - P 0 1)

/-- the values of an affine function at the points -/
def affineAt (a b c : T) (pts : List (T × T)) (r : Fin pts.length) : T := a + b * pts[r].1 + c * pts[r].2

/-! ### Contribution of a triangle -/

theorem area2_tri (pts : List (T × T)) (t : Nat × Nat × Nat) : area2 (triPoints pts t) = turn pts t.1 t.2.1 t.2.2 := by
  rw [area2_eq]
  rfl

/-- the sign of a number, as a factor -/
def sgn (x : T) : T := |x| / x

theorem sgn_neg (x : T) : sgn (-x) = -sgn x := by unfold sgn; rw [abs_neg, div_neg]

theorem sgn_add {x y : T} (h : x * y < 0) : sgn x + sgn y = 0 := by
  have hx : x ≠ 0 := by rintro rfl; simp at h
  have hy : y ≠ 0 := by rintro rfl; simp at h
  unfold sgn
  rcases lt_or_gt_of_ne hx with h1 | h1 <;> rcases lt_or_gt_of_ne hy with h2 | h2
  · nlinarith [mul_pos_of_neg_of_neg h1 h2]
  · rw [abs_of_neg h1, abs_of_pos h2, neg_div, div_self hx, div_self hy]; ring
  · rw [abs_of_pos h1, abs_of_neg h2, neg_div, div_self hx, div_self hy]; ring
  · nlinarith [mul_pos h1 h2]

/-- the flux of the affine function through a segment is the difference of this function at its ends -/
def flux (b c : T) (pts : List (T × T)) (p : Nat) : T := b * (pts.getD p (0, 0)).2 - c * (pts.getD p (0, 0)).1

theorem turn_cycle (pts : List (T × T)) (p q a : Nat) : turn pts q a p = turn pts p q a := by unfold turn; ring
theorem turn_swap (pts : List (T × T)) (p q a : Nat) : turn pts p a q = -turn pts p q a := by unfold turn; ring

/-- value of the affine function at a point -/
def aff (a b c : T) (pts : List (T × T)) (p : Nat) : T := a + b * (pts.getD p (0, 0)).1 + c * (pts.getD p (0, 0)).2

theorem contribution {pts : List (T × T)} {t : Nat × Nat × Nat} (hd : turn pts t.1 t.2.1 t.2.2 ≠ 0) (hu : Upright pts t) (a b c : T) (i : Fin 3) :
    ∑ j : Fin 3, energy 1 (triPoints pts t) i j * aff a b c pts (cornerOf t j) =
      kappa / 2 * sgn (turn pts t.1 t.2.1 t.2.2) * (flux b c pts (cornerOf t (i + 1)) - flux b c pts (cornerOf t (i + 2))) := by
  have hA : area2 (triPoints pts t) ≠ 0 := by rw [area2_tri]; exact hd
  obtain ⟨g, hg⟩ := grad_exists hA
  have he := (C66_exact_iff hA hg).2 hu
  obtain ⟨g1, g2, g3, g4, g5, g6⟩ := grad_unique hA hg
  simp only [he, exactEnergy, dotProduct, Fin.sum_univ_three, Fin.sum_univ_two]
  obtain ⟨p, q, s⟩ := t
  have hD : turn pts p q s = ((pts.getD q (0, 0)).1 - (pts.getD p (0, 0)).1) * ((pts.getD s (0, 0)).2 - (pts.getD p (0, 0)).2)
     - ((pts.getD s (0, 0)).1 - (pts.getD p (0, 0)).1) * ((pts.getD q (0, 0)).2 - (pts.getD p (0, 0)).2) := rfl
  obtain ⟨⟨t1, t2⟩, ⟨t3, t4⟩, t5, t6⟩ := triPoints_at pts p q s
  rw [t5, t1, area2_tri] at g2
  rw [t6, t2, area2_tri] at g1
  rw [t4, t2, area2_tri] at g3
  rw [t3, t1, area2_tri] at g4
  rw [area2_tri]
  clear hA he hg t1 t2 t3 t4 t5 t6 hu
  have hf : flux b c pts (cornerOf (p, q, s) (i + 1)) - flux b c pts (cornerOf (p, q, s) (i + 2)) =
      ![flux b c pts q - flux b c pts s, flux b c pts s - flux b c pts p, flux b c pts p - flux b c pts q] i := by fin_cases i <;> rfl
  rw [hf]
  have h0 : cornerOf (p, q, s) 0 = p := rfl
  have h1 : cornerOf (p, q, s) 1 = q := rfl
  have h2 : cornerOf (p, q, s) 2 = s := rfl
  simp only [aff, flux, h0, h1, h2]
  simp only at hd
  generalize turn pts p q s = D at *
  generalize hm : |D| = m
  have hs : sgn D = m / D := by unfold sgn; rw [hm]
  rw [hs]
  generalize (pts.getD p (0, 0)).1 = x0 at *
  generalize (pts.getD p (0, 0)).2 = y0 at *
  generalize (pts.getD q (0, 0)).1 = x1 at *
  generalize (pts.getD q (0, 0)).2 = y1 at *
  generalize (pts.getD s (0, 0)).1 = x2 at *
  generalize (pts.getD s (0, 0)).2 = y2 at *
  have hb : g 0 0 * (a + b * x0 + c * y0) + g 1 0 * (a + b * x1 + c * y1) + g 2 0 * (a + b * x2 + c * y2) = b := by
    rw [g5, g1, g3]
    field_simp
    rw [hD]; ring
  have hc : g 0 1 * (a + b * x0 + c * y0) + g 1 1 * (a + b * x1 + c * y1) + g 2 1 * (a + b * x2 + c * y2) = c := by
    rw [g6, g2, g4]
    field_simp
    rw [hD]; ring
  have hkey : ∀ u v : T, kappa * (m / 2 * (u * g 0 0 + v * g 0 1)) * (a + b * x0 + c * y0) + kappa * (m / 2 * (u * g 1 0 + v * g 1 1)) * (a + b * x1 + c * y1) +
      kappa * (m / 2 * (u * g 2 0 + v * g 2 1)) * (a + b * x2 + c * y2) = kappa * (m / 2) * (u * b + v * c) := by
    intro u v
    linear_combination (kappa * (m / 2) * u) * hb + (kappa * (m / 2) * v) * hc
  rw [hkey]
  fin_cases i
  · show kappa * (m / 2) * (g 0 0 * b + g 0 1 * c) = kappa / 2 * (m / D) * (b * y1 - c * x1 - (b * y2 - c * x2))
    rw [g5, g6, g1, g2, g3, g4]; field_simp; ring
  · show kappa * (m / 2) * (g 1 0 * b + g 1 1 * c) = kappa / 2 * (m / D) * (b * y2 - c * x2 - (b * y0 - c * x0))
    rw [g1, g2]; field_simp; ring
  · show kappa * (m / 2) * (g 2 0 * b + g 2 1 * c) = kappa / 2 * (m / D) * (b * y0 - c * x0 - (b * y1 - c * x1))
    rw [g3, g4]; field_simp; ring

/-! ### Sums over the triangles at a point -/

/-- the corner that follows the corner `r` of the triangle in direction of the two other corners: contribution of the side from `r` to `q` -/
def side (pts : List (T × T)) (t : Nat × Nat × Nat) (r q : Nat) : T :=
  ∑ i : Fin 3, if cornerOf t i = r then
    sgn (turn pts t.1 t.2.1 t.2.2) * ((if cornerOf t (i + 1) = q then 1 else 0) - (if cornerOf t (i + 2) = q then 1 else 0)) else 0

theorem side_none {pts : List (T × T)} {t : Nat × Nat × Nat} {r q : Nat} (h : ¬ (HasCorner t r ∧ HasCorner t q)) : side pts t r q = 0 := by
  have hc : ∀ i, HasCorner t (cornerOf t i) := by
    intro i; fin_cases i
    · exact .inl rfl
    · exact .inr (.inl rfl)
    · exact .inr (.inr rfl)
  refine Finset.sum_eq_zero fun i _ => ?_
  split
  · rename_i hi
    have hr := hc i
    rw [hi] at hr
    rw [if_neg, if_neg]
    · simp
    · rintro rfl; exact h ⟨hr, hc _⟩
    · rintro rfl; exact h ⟨hr, hc _⟩
  · rfl

/-- the side from `r` to `q` with third corner `a` -/
theorem side_some {pts : List (T × T)} {t : Nat × Nat × Nat} (hp : t.1 ≠ t.2.1 ∧ t.1 ≠ t.2.2 ∧ t.2.1 ≠ t.2.2) {r q : Nat} (hrq : r ≠ q)
    (h1 : HasCorner t r) (h2 : HasCorner t q) : ∃ a, HasCorner t a ∧ a ≠ r ∧ a ≠ q ∧ side pts t r q = sgn (turn pts r q a) := by
  obtain ⟨x, y, z⟩ := t
  obtain ⟨p1, p2, p3⟩ := hp
  simp only at p1 p2 p3
  have e0 : cornerOf (x, y, z) 0 = x := rfl
  have e1 : cornerOf (x, y, z) 1 = y := rfl
  have e2 : cornerOf (x, y, z) 2 = z := rfl
  have e3 : (1 : Fin 3) + 1 = 2 := rfl
  have e4 : (1 : Fin 3) + 2 = 0 := rfl
  have e5 : (2 : Fin 3) + 1 = 0 := rfl
  have e6 : (2 : Fin 3) + 2 = 1 := rfl
  unfold side
  simp only [Fin.sum_univ_three, zero_add, e3, e4, e5, e6, e0, e1, e2]
  unfold HasCorner at h1 h2
  simp only at h1 h2
  have s1 : turn pts y z x = turn pts x y z := turn_cycle pts x y z
  have s2 : turn pts z x y = turn pts x y z := by rw [turn_cycle pts y z x, s1]
  have s3 : turn pts x z y = -turn pts x y z := turn_swap pts x y z
  have s4 : turn pts y x z = -turn pts x y z := by rw [turn_swap pts y z x, s1]
  have s5 : turn pts z y x = -turn pts x y z := by rw [turn_swap pts z x y, s2]
  rcases h1 with rfl | rfl | rfl <;> rcases h2 with rfl | rfl | rfl
  · exact absurd rfl hrq
  · refine ⟨z, by simp [HasCorner], p2.symm, p3.symm, ?_⟩
    simp [p1, p2, p3, p1.symm, p2.symm, p3.symm]
  · refine ⟨y, by simp [HasCorner], p1.symm, p3, ?_⟩
    rw [s3, sgn_neg]; simp [p1, p2, p3, p1.symm, p2.symm, p3.symm]
  · refine ⟨z, by simp [HasCorner], p3.symm, p2.symm, ?_⟩
    rw [s4, sgn_neg]; simp [p1, p2, p3, p1.symm, p2.symm, p3.symm]
  · exact absurd rfl hrq
  · refine ⟨x, by simp [HasCorner], p1, p2, ?_⟩
    rw [s1]; simp [p1, p2, p3, p1.symm, p2.symm, p3.symm]
  · refine ⟨y, by simp [HasCorner], p3, p1.symm, ?_⟩
    rw [s2]; simp [p1, p2, p3, p1.symm, p2.symm, p3.symm]
  · refine ⟨x, by simp [HasCorner], p2, p1, ?_⟩
    rw [s5, sgn_neg]; simp [p1, p2, p3, p1.symm, p2.symm, p3.symm]
  · exact absurd rfl hrq

theorem side_self {pts : List (T × T)} {t : Nat × Nat × Nat} (hp : t.1 ≠ t.2.1 ∧ t.1 ≠ t.2.2 ∧ t.2.1 ≠ t.2.2) (r : Nat) : side pts t r r = 0 := by
  obtain ⟨x, y, z⟩ := t
  obtain ⟨p1, p2, p3⟩ := hp
  simp only at p1 p2 p3
  refine Finset.sum_eq_zero fun i _ => ?_
  split
  · rename_i hi
    subst hi
    rw [if_neg, if_neg]
    · simp
    · fin_cases i
      · exact p2.symm
      · exact p1
      · exact p3
    · fin_cases i
      · exact p1.symm
      · exact p3.symm
      · exact p2
  · rfl

theorem sum_tris (tris : List (Nat × Nat × Nat)) (F : Nat × Nat × Nat → T) : (tris.map F).sum = ∑ k : Fin tris.length, F tris[k] := by
  rw [← List.sum_ofFn]
  congr 1
  apply List.ext_getElem
  · simp
  · intro i h1 h2
    simp

/-- around an inner point the contributions of every side cancel -/
theorem sides_cancel {pts : List (T × T)} {tris : List (Nat × Nat × Nat)} (hp : Proper pts.length tris) (hc : ¬ Crowded tris) (hf : Unfolded pts tris)
    {r : Nat} (hr : ¬ OnRim tris r) (q : Nat) : ∑ k : Fin tris.length, side pts tris[k] r q = 0 := by
  by_cases hrq : r = q
  · subst hrq
    exact Finset.sum_eq_zero fun k _ => side_self (hp _ (List.getElem_mem _)).2 _
  by_cases hk : ∃ k : Fin tris.length, HasCorner tris[k] r ∧ HasCorner tris[k] q
  · obtain ⟨k, k1, k2⟩ := hk
    have hg : ∀ k : Fin tris.length, tris[(k : Nat)]? = some tris[k] := fun k => List.getElem?_eq_getElem k.2
    obtain ⟨j, j1, j2, j3⟩ : ∃ j : Fin tris.length, j ≠ k ∧ HasCorner tris[j] r ∧ HasCorner tris[j] q := by
      by_contra hno
      push Not at hno
      refine hr ⟨q, hrq, k, tris[k], hg k, k1, k2, fun j u hu u1 u2 => ?_⟩
      by_contra hjk
      have hj : j < tris.length := (List.getElem?_eq_some_iff.1 hu).1
      have := hno ⟨j, hj⟩ (by intro h; exact hjk (congrArg Fin.val h))
      obtain rfl : tris[(⟨j, hj⟩ : Fin tris.length)] = u := (List.getElem?_eq_some_iff.1 hu).2
      exact this u1 u2
    have hz : ∀ l : Fin tris.length, l ≠ k → l ≠ j → side pts tris[l] r q = 0 := by
      intro l l1 l2
      refine side_none fun ⟨l3, l4⟩ => hc ?_
      exact ⟨r, q, hrq, k, j, l, _, _, _, fun h => j1 (Fin.ext h).symm, fun h => l1 (Fin.ext h).symm, fun h => l2 (Fin.ext h).symm, hg k, hg j, hg l,
        ⟨k1, k2⟩, ⟨j2, j3⟩, l3, l4⟩
    rw [Finset.sum_eq_add k j j1.symm (fun l _ h => hz l h.1 h.2) (by simp) (by simp)]
    obtain ⟨a, a1, a2, a3, a4⟩ := side_some (pts := pts) (hp _ (List.getElem_mem k.2)).2 hrq k1 k2
    obtain ⟨b, b1, b2, b3, b4⟩ := side_some (pts := pts) (hp _ (List.getElem_mem j.2)).2 hrq j2 j3
    have h := hf k j _ _ (fun h => j1 (Fin.ext h).symm) (hg k) (hg j) r q hrq k1 k2 j2 j3 a b a1 a2 a3 b1 b2 b3
    exact (congrArg₂ (· + ·) a4 b4).trans (sgn_add h)
  · push Not at hk
    exact Finset.sum_eq_zero fun k _ => side_none fun h => hk k h.1 h.2

/-- no source: the right-hand side of the equations is zero -/
theorem load_zero (eps : T) (P : Fin 3 → Fin 2 → T) (i : Nat) : keep eps (Fem.load 1 (fun _ => 0) P i) = 0 := by
  have : Fem.load 1 (fun _ => (0 : T)) P i = 0 := by
    unfold Fem.load quad
    simp
  rw [this]
  unfold keep
  split <;> rfl

/-- C117: without a source term and with an affine function as boundary values, the values of this function at the points solve the discrete problem, on every
triangulation with triangles for which the element matrix is correct -/
theorem C117_affine_partial (eps : T) {pts : List (T × T)} {tris : List (Nat × Nat × Nat)} (hp : Proper pts.length tris) (hc : ¬ Crowded tris)
    (hz : ∀ t ∈ tris, triArea pts t ≠ 0) (hf : Unfolded pts tris) (hu : ∀ t ∈ tris, Upright pts t) (a b c : T) :
    Discrete eps (fun _ => 0) (fun p => a + b * p.getD 0 0 + c * p.getD 1 0) pts tris (affineAt a b c pts) := by
  intro r
  refine ⟨fun _ => ?_, fun hr => ?_⟩
  · simp [affineAt]
  have hR : (tris.map fun t => ∑ i : Fin 3, if cornerOf t i = r then keep eps (Fem.load 1 (fun _ => 0) (triPoints pts t) i) else 0).sum = 0 := by
    apply List.sum_eq_zero
    intro x hx
    obtain ⟨t, -, rfl⟩ := List.mem_map.1 hx
    refine Finset.sum_eq_zero fun i _ => ?_
    rw [load_zero]
    simp
  rw [hR, sum_tris]
  -- the contribution of a triangle as a sum over all points
  have hL : ∀ k : Fin tris.length, (∑ i : Fin 3, if cornerOf tris[k] i = r then ∑ j : Fin 3, energy 1 (triPoints pts tris[k]) i j * at' (affineAt a b c pts) (cornerOf tris[k] j) else 0) =
      kappa / 2 * ∑ q : Fin pts.length, side pts tris[k] r q * flux b c pts q := by
    intro k
    generalize ht : tris[k] = t
    have htm : t ∈ tris := ht ▸ List.getElem_mem _
    obtain ⟨⟨l1, l2, l3⟩, -⟩ := hp t htm
    have hlt : ∀ i, cornerOf t i < pts.length := by intro i; fin_cases i <;> assumption
    have hat : ∀ j, at' (affineAt a b c pts) (cornerOf t j) = aff a b c pts (cornerOf t j) := by
      intro j
      unfold at' aff affineAt
      rw [dif_pos (hlt j)]
      simp [List.getD_eq_getElem?_getD, List.getElem?_eq_getElem (hlt j)]
    have hd : turn pts t.1 t.2.1 t.2.2 ≠ 0 := by
      intro h0
      refine hz t htm ?_
      unfold triArea
      unfold turn at h0
      simp only at h0 ⊢
      rw [h0]; simp
    simp only [hat, contribution hd (hu t htm)]
    unfold side
    have hone : ∀ p, p < pts.length → ∑ q : Fin pts.length, (if p = (q : Nat) then 1 else 0) * flux b c pts q = flux b c pts p := by
      intro p hpl
      rw [Finset.sum_eq_single ⟨p, hpl⟩]
      · simp
      · intro q _ hq
        rw [if_neg]
        · simp
        · intro h; exact hq (Fin.ext h.symm)
      · simp
    simp only [Finset.sum_mul]
    rw [Finset.sum_comm, Finset.mul_sum]
    refine Finset.sum_congr rfl fun i _ => ?_
    by_cases hi : cornerOf t i = r
    · simp only [if_pos hi]
      rw [show (∑ x : Fin pts.length, sgn (turn pts t.1 t.2.1 t.2.2) * ((if cornerOf t (i + 1) = (x : Nat) then 1 else 0) - if cornerOf t (i + 2) = (x : Nat) then 1 else 0) * flux b c pts x) =
        sgn (turn pts t.1 t.2.1 t.2.2) * (∑ x : Fin pts.length, (if cornerOf t (i + 1) = (x : Nat) then 1 else 0) * flux b c pts x - ∑ x : Fin pts.length, (if cornerOf t (i + 2) = (x : Nat) then 1 else 0) * flux b c pts x) from by
          rw [← Finset.sum_sub_distrib, Finset.mul_sum]
          exact Finset.sum_congr rfl fun x _ => by ring]
      rw [hone _ (hlt _), hone _ (hlt _)]
      ring
    · simp only [if_neg hi]
      simp
  rw [Finset.sum_congr rfl fun k _ => hL k, ← Finset.mul_sum, Finset.sum_comm]
  rw [Finset.sum_eq_zero, mul_zero]
  intro q _
  rw [← Finset.sum_mul, sides_cancel hp hc hf hr, zero_mul]


/-! ### Concrete meshes: a square of four triangles around its centre, with the centre as first corner of every triangle, or of all but one -/

def starUp : List (Nat × Nat × Nat) := [(4, 0, 1), (4, 1, 2), (4, 2, 3), (4, 3, 0)]
def starTurned : List (Nat × Nat × Nat) := [(0, 1, 4), (4, 1, 2), (4, 2, 3), (4, 3, 0)]

theorem corner_up (i p : Nat) : (∃ t, starUp[i]? = some t ∧ HasCorner t p) ↔ ∃ t, starTurned[i]? = some t ∧ HasCorner t p := by
  rcases i with _ | _ | _ | _ | i <;> simp [starUp, starTurned, HasCorner] <;> omega

theorem starUp_crowded : ¬ Crowded starUp := by
  rintro ⟨p, q, hpq, i, j, k, t, u, v, hij, hik, hjk, ht, hu, hv, h1, h2, h3⟩
  have hi : i < 4 := (List.getElem?_eq_some_iff.1 ht).1
  have hj : j < 4 := (List.getElem?_eq_some_iff.1 hu).1
  have hk : k < 4 := (List.getElem?_eq_some_iff.1 hv).1
  unfold starUp at ht hu hv
  unfold HasCorner at h1 h2 h3
  interval_cases i <;> interval_cases j <;> (try exact absurd rfl hij) <;> interval_cases k <;> (try exact absurd rfl hik) <;> (try exact absurd rfl hjk) <;>
    (simp only [List.getElem?_cons_zero, List.getElem?_cons_succ, Option.some.injEq] at ht hu hv; subst ht hu hv; simp only at h1 h2 h3; omega)

theorem starTurned_crowded : ¬ Crowded starTurned := by
  rintro ⟨p, q, hpq, i, j, k, t, u, v, hij, hik, hjk, ht, hu, hv, h1, h2, h3⟩
  have hi : i < 4 := (List.getElem?_eq_some_iff.1 ht).1
  have hj : j < 4 := (List.getElem?_eq_some_iff.1 hu).1
  have hk : k < 4 := (List.getElem?_eq_some_iff.1 hv).1
  unfold starTurned at ht hu hv
  unfold HasCorner at h1 h2 h3
  interval_cases i <;> interval_cases j <;> (try exact absurd rfl hij) <;> interval_cases k <;> (try exact absurd rfl hik) <;> (try exact absurd rfl hjk) <;>
    (simp only [List.getElem?_cons_zero, List.getElem?_cons_succ, Option.some.injEq] at ht hu hv; subst ht hu hv; simp only at h1 h2 h3; omega)

theorem starUp_unfolded : Unfolded starPts starUp := by
  intro i j t u hij ht hu p q hpq t1 t2 u1 u2 a b a1 a2 a3 b1 b2 b3
  have hi : i < 4 := (List.getElem?_eq_some_iff.1 ht).1
  have hj : j < 4 := (List.getElem?_eq_some_iff.1 hu).1
  unfold starUp at ht hu
  unfold HasCorner at t1 t2 u1 u2 a1 b1
  interval_cases i <;> interval_cases j <;> (try exact absurd rfl hij) <;>
    (simp only [List.getElem?_cons_zero, List.getElem?_cons_succ, Option.some.injEq] at ht hu; subst ht hu; simp only at t1 t2 u1 u2 a1 b1
     rcases t1 with rfl | rfl | rfl <;> (try omega) <;> rcases t2 with rfl | rfl | rfl <;> (try omega) <;>
      rcases a1 with rfl | rfl | rfl <;> (try omega) <;> rcases b1 with rfl | rfl | rfl <;> (try omega) <;> norm_num [turn, starPts])

theorem starUp_upright : ∀ t ∈ starUp, Upright starPts t := by
  intro t ht
  simp only [starUp, List.mem_cons, List.not_mem_nil, or_false] at ht
  right
  rcases ht with rfl | rfl | rfl | rfl <;> norm_num [(triPoints_at _ _ _ _).1.1, (triPoints_at _ _ _ _).1.2, (triPoints_at _ _ _ _).2.1.1, (triPoints_at _ _ _ _).2.1.2,
    (triPoints_at _ _ _ _).2.2.1, (triPoints_at _ _ _ _).2.2.2, starPts]

theorem starUp_area : ∀ t ∈ starUp, triArea starPts t = 1 := by
  intro t ht
  simp only [starUp, List.mem_cons, List.not_mem_nil, or_false] at ht
  rcases ht with rfl | rfl | rfl | rfl <;> norm_num [triArea, starPts]

theorem starTurned_area : ∀ t ∈ starTurned, triArea starPts t = 1 := by
  intro t ht
  simp only [starTurned, List.mem_cons, List.not_mem_nil, or_false] at ht
  rcases ht with rfl | rfl | rfl | rfl <;> norm_num [triArea, starPts]

theorem starTurned_rim : ∀ p < 4, OnRim starTurned p := by
  intro p hp
  have hp' : ∀ q < 4, ∀ j u, starTurned[j]? = some u → HasCorner u q → HasCorner u ((q + 1) % 4) → j = q := by
    intro q hq j u hu h1 h2
    have hj : j < 4 := (List.getElem?_eq_some_iff.1 hu).1
    unfold starTurned at hu
    unfold HasCorner at h1 h2
    interval_cases j <;> (simp only [List.getElem?_cons_zero, List.getElem?_cons_succ, Option.some.injEq] at hu; subst hu; simp only at h1 h2; omega)
  refine ⟨(p + 1) % 4, by omega, p, starTurned.getD p (0, 0, 0), ?_, ?_, ?_, fun j u hu h1 h2 => hp' p hp j u hu h1 h2⟩ <;>
    interval_cases p <;> simp [starTurned, HasCorner]

theorem starTurned_inner : ¬ OnRim starTurned 4 := by
  rintro ⟨q, hq, i, t, ht, h1, h2, h3⟩
  have hi : i < 4 := (List.getElem?_eq_some_iff.1 ht).1
  have e0 := h3 0 _ rfl (by simp [HasCorner])
  have e1 := h3 1 _ rfl (by simp [HasCorner])
  have e2 := h3 2 _ rfl (by simp [HasCorner])
  have e3 := h3 3 _ rfl (by simp [HasCorner])
  unfold starTurned at ht
  unfold HasCorner at h2 e0 e1 e2 e3
  interval_cases i <;> (simp only [List.getElem?_cons_zero, List.getElem?_cons_succ, Option.some.injEq] at ht; subst ht; simp only at h2 e0 e1 e2 e3; omega)

theorem starTurned_reach : ∀ p < starPts.length, ∃ q, Relation.ReflTransGen (Together starTurned) p q ∧ OnRim starTurned q := by
  intro p hp
  have hp : p < 5 := hp
  by_cases h : p < 4
  · exact ⟨p, .refl, starTurned_rim p h⟩
  · obtain rfl : p = 4 := by omega
    exact ⟨0, .single ⟨(0, 1, 4), by simp [starTurned], by simp [HasCorner]⟩, starTurned_rim 0 (by omega)⟩

theorem starTurned_coarse : Coarse (1 / 10 ^ 8 : ℝ) 1 starPts starTurned := by
  intro t ht i hi j hj
  obtain ⟨i, rfl⟩ : ∃ i' : Fin 3, (i' : Nat) = i := ⟨⟨i, by omega⟩, rfl⟩
  obtain ⟨j, rfl⟩ : ∃ i' : Fin 3, (i' : Nat) = j := ⟨⟨j, by omega⟩, rfl⟩
  rw [energy_one, inv_apply, inv_apply, area2_eq, dotProduct, Fin.sum_univ_two]
  simp only [starTurned, List.mem_cons, List.not_mem_nil, or_false] at ht
  rcases ht with rfl | rfl | rfl | rfl <;> fin_cases i <;> fin_cases j <;> norm_num [(triPoints_at _ _ _ _).1.1, (triPoints_at _ _ _ _).1.2, (triPoints_at _ _ _ _).2.1.1, (triPoints_at _ _ _ _).2.1.2,
    (triPoints_at _ _ _ _).2.2.1, (triPoints_at _ _ _ _).2.2.2, starPts, kappa, abs_of_pos, abs_of_neg]

theorem starUp_rim : ∀ p < 4, OnRim starUp p := by
  intro p hp
  have hp' : ∀ q < 4, ∀ j u, starUp[j]? = some u → HasCorner u q → HasCorner u ((q + 1) % 4) → j = q := by
    intro q hq j u hu h1 h2
    have hj : j < 4 := (List.getElem?_eq_some_iff.1 hu).1
    unfold starUp at hu
    unfold HasCorner at h1 h2
    interval_cases j <;> (simp only [List.getElem?_cons_zero, List.getElem?_cons_succ, Option.some.injEq] at hu; subst hu; simp only at h1 h2; omega)
  refine ⟨(p + 1) % 4, by omega, p, starUp.getD p (0, 0, 0), ?_, ?_, ?_, fun j u hu h1 h2 => hp' p hp j u hu h1 h2⟩ <;>
    interval_cases p <;> simp [starUp, HasCorner]

theorem starUp_reach : ∀ p < starPts.length, ∃ q, Relation.ReflTransGen (Together starUp) p q ∧ OnRim starUp q := by
  intro p hp
  have hp : p < 5 := hp
  by_cases h : p < 4
  · exact ⟨p, .refl, starUp_rim p h⟩
  · obtain rfl : p = 4 := by omega
    exact ⟨0, .single ⟨(4, 0, 1), by simp [starUp], by simp [HasCorner]⟩, starUp_rim 0 (by omega)⟩

theorem starUp_coarse : Coarse (1 / 10 ^ 8 : ℝ) 1 starPts starUp := by
  intro t ht i hi j hj
  obtain ⟨i, rfl⟩ : ∃ i' : Fin 3, (i' : Nat) = i := ⟨⟨i, by omega⟩, rfl⟩
  obtain ⟨j, rfl⟩ : ∃ i' : Fin 3, (i' : Nat) = j := ⟨⟨j, by omega⟩, rfl⟩
  rw [energy_one, inv_apply, inv_apply, area2_eq, dotProduct, Fin.sum_univ_two]
  simp only [starUp, List.mem_cons, List.not_mem_nil, or_false] at ht
  rcases ht with rfl | rfl | rfl | rfl <;> fin_cases i <;> fin_cases j <;> norm_num [(triPoints_at _ _ _ _).1.1, (triPoints_at _ _ _ _).1.2, (triPoints_at _ _ _ _).2.1.1, (triPoints_at _ _ _ _).2.1.2,
    (triPoints_at _ _ _ _).2.2.1, (triPoints_at _ _ _ _).2.2.2, starPts, kappa, abs_of_pos, abs_of_neg]

/-- the equation of the centre when the corners of one triangle are listed in another order -/
theorem starTurned_center {z : Fin starPts.length → ℝ} (h : Discrete (1 / 10 ^ 8) (fun _ => 0) (fun p => 0 + 1 * p.getD 0 0 + 0 * p.getD 1 0) starPts starTurned z) :
    z ⟨4, by decide⟩ = 14 / 17 := by
  have hb : ∀ p (hp : p < 4), z ⟨p, by show p < 5; omega⟩ = (starPts.getD p (0, 0)).1 := by
    intro p hp
    rw [(h ⟨p, by show p < 5; omega⟩).1 (starTurned_rim p hp)]
    interval_cases p <;> simp [starPts]
  have b0 := hb 0 (by omega)
  have b1 := hb 1 (by omega)
  have b2 := hb 2 (by omega)
  have b3 := hb 3 (by omega)
  have h4 := (h ⟨4, by decide⟩).2 starTurned_inner
  simp only [load_zero, ite_self, Finset.sum_const_zero] at h4
  simp only [starTurned, List.map_cons, List.map_nil, List.sum_cons, List.sum_nil, Fin.sum_univ_three] at h4
  have c0 : ∀ t, cornerOf t 0 = t.1 := fun _ => rfl
  have c1 : ∀ t, cornerOf t 1 = t.2.1 := fun _ => rfl
  have c2 : ∀ t, cornerOf t 2 = t.2.2 := fun _ => rfl
  have z0 : at' z 0 = 0 := b0
  have z1 : at' z 1 = 2 := b1
  have z2 : at' z 2 = 2 := b2
  have z3 : at' z 3 = 0 := b3
  have z4 : at' z 4 = z ⟨4, by decide⟩ := rfl
  simp only [c0, c1, c2, z0, z1, z2, z3, z4] at h4
  generalize z ⟨4, by decide⟩ = y at h4 ⊢
  have v0 : (![![-1, -1], ![1, 0], ![0, 1]] : Fin 3 → Fin 2 → ℝ) 0 = ![-1, -1] := rfl
  have v1 : (![![-1, -1], ![1, 0], ![0, 1]] : Fin 3 → Fin 2 → ℝ) 1 = ![1, 0] := rfl
  have v2 : (![![-1, -1], ![1, 0], ![0, 1]] : Fin 3 → Fin 2 → ℝ) 2 = ![0, 1] := rfl
  simp only [energy_one, v0, v1, v2, inv_apply, area2_eq, dotProduct, Fin.sum_univ_two, (triPoints_at _ _ _ _).1.1, (triPoints_at _ _ _ _).1.2, (triPoints_at _ _ _ _).2.1.1, (triPoints_at _ _ _ _).2.1.2,
    (triPoints_at _ _ _ _).2.2.1, (triPoints_at _ _ _ _).2.2.2, starPts] at h4
  norm_num at h4
  have hk : (kappa : ℝ) ≠ 0 := by unfold kappa; norm_num
  have : kappa * (17 / 4 * y - 7 / 2) = 0 := by linarith only [h4]
  have := (mul_eq_zero.1 this).resolve_left hk
  linarith only [this]

/-! ### The program -/

section
variable {env : Env T} {pts : List (T × T)} {tris : List (Nat × Nat × Nat)} {argv : List (List Char)} {k : Int} {s : Source}

/-- C117: on such a triangulation the exact solution of the system of the program is the affine function, so that with solver 2 the residual of the difference between the
numbers in the file and this function is below the tolerance -/
theorem C117_program_partial (hs : NS.Props.Simplex.IsSqrt env.sqrt) (hT : ∀ t, Vtk.Word (env.showT t)) (hm : 0 < env.maxIter) (ht : env.tol ≠ 0)
    (ha : parse argv = .run k 1 s) (hr : Reads env s pts tris) (hp : Proper pts.length tris) (hv : 0 ≤ env.veps) (hne : tris ≠ [])
    (hc : ¬ Crowded tris) (hz : ∀ t ∈ tris, env.veps < triArea pts t)
    (hrim : ∀ p < pts.length, ∃ q, Relation.ReflTransGen (Together tris) p q ∧ OnRim tris q) (hk : Coarse env.eps 1 pts tris)
    (hf : Unfolded pts tris) (hu : ∀ t ∈ tris, Upright pts t) {a b c : T} (h0 : env.src = fun _ => 0)
    (hg : env.bnd = fun p => a + b * p.getD 0 0 + c * p.getD 1 0) :
    ∃ (A : Matrix (Fin pts.length) (Fin pts.length) T) (B : Fin pts.length → T), NS.CG.SPD A ∧ (∀ z, A *ᵥ z = B ↔ z = affineAt a b c pts) ∧
      (k = 0 → ∃ z f, main env argv = .finished f ∧ Tables pts tris z f) ∧
      (k = 2 → (∀ i, env.jeps < |A i i|) → B ≠ 0 → ∃ z f, main env argv = .finished f ∧ Tables pts tris z f ∧
        (pts.length ≤ env.maxIter → (A *ᵥ (z - affineAt a b c pts)) ⬝ᵥ (A *ᵥ (z - affineAt a b c pts)) < env.tol ^ 2)) := by
  obtain ⟨A, B, h1, h2, h3, h4⟩ := C103_linear hs hT hm ht ha hr hp hv hne hc hz hrim hk
  have hsol : A *ᵥ affineAt a b c pts = B := by
    rw [h2, h0, hg]
    exact C117_affine_partial _ hp hc (fun t htm => (lt_of_le_of_lt hv (hz t htm)).ne') hf hu a b c
  refine ⟨A, B, h1, fun z => ⟨fun h => ?_, fun h => by rw [h]; exact hsol⟩, h3, fun hk hj hB => ?_⟩
  · by_contra hne'
    have hd : z - affineAt a b c pts ≠ 0 := sub_ne_zero.2 hne'
    have := h1.2 _ hd
    rw [Matrix.mulVec_sub, h, hsol, sub_self] at this
    simp at this
  · obtain ⟨z, f, f1, f2, f3⟩ := h4 hk hj hB
    refine ⟨z, f, f1, f2, fun hl => ?_⟩
    have := f3 hl
    unfold Props.CG.resSqr at this
    rw [Matrix.mulVec_sub, hsol, ← neg_sub B, neg_dotProduct, dotProduct_neg, neg_neg]
    exact this
end

/-! ### Two files with the same triangles -/

def upEle : List Char := "4 3\n0 4 0 1 \n1 4 1 2 \n2 4 2 3 \n3 4 3 0 \n".toList
def turnedEle : List Char := "4 3\n0 0 1 4 \n1 4 1 2 \n2 4 2 3 \n3 4 3 0 \n".toList

/-- as `starEnv`, with no source term and the first coordinate as boundary value -/
noncomputable def patchEnv (ele : List Char) : Env ℝ := { starEnv with
  src := fun _ => 0
  bnd := fun p => 0 + 1 * p.getD 0 0 + 0 * p.getD 1 0
  content := fun p => if p = "s.node".toList then starNode else if p = "s.ele".toList then ele else [] }

section
open NS.Props.Loader
theorem up_ele : EleFile 0 upEle starUp :=
  ⟨"4 3".toList, ['4'], ['3'], [], ["0 4 0 1 ".toList, "1 4 1 2 ".toList, "2 4 2 3 ".toList, "3 4 3 0 ".toList], 4, by decide +kernel,
    .cons (ws := []) (by simp) m4.tok (ends_space _) (.cons (ws := [' ']) (by decide) m3.tok (.inl rfl) .nil), m4, by decide, i3,
    .cons (row4 m0 m4 m0 m1) m0 m4 m0 m1 (.cons (row4 m1 m4 m1 m2) m1 m4 m1 m2 (.cons (row4 m2 m4 m2 m3) m2 m4 m2 m3 (.cons (row4 m3 m4 m3 m0) m3 m4 m3 m0 .nil)))⟩

theorem turned_ele : EleFile 0 turnedEle starTurned :=
  ⟨"4 3".toList, ['4'], ['3'], [], ["0 0 1 4 ".toList, "1 4 1 2 ".toList, "2 4 2 3 ".toList, "3 4 3 0 ".toList], 4, by decide +kernel,
    .cons (ws := []) (by simp) m4.tok (ends_space _) (.cons (ws := [' ']) (by decide) m3.tok (.inl rfl) .nil), m4, by decide, i3,
    .cons (row4 m0 m0 m1 m4) m0 m0 m1 m4 (.cons (row4 m1 m4 m1 m2) m1 m4 m1 m2 (.cons (row4 m2 m4 m2 m3) m2 m4 m2 m3 (.cons (row4 m3 m4 m3 m0) m3 m4 m3 m0 .nil)))⟩
end

theorem patch_reads {ele : List Char} {tris : List (Nat × Nat × Nat)} (h : NS.Props.Loader.EleFile 0 ele tris) :
    Reads (patchEnv ele) (.triangle "s.node".toList "s.ele".toList) starPts tris :=
  ⟨0, 0, by decide, by decide, by
    have : (patchEnv ele).content "s.node".toList = starNode := rfl
    rw [this]; exact star_node, by
    have : (patchEnv ele).content "s.ele".toList = ele := rfl
    rw [this]; exact h⟩

/-- the hypotheses of C117 are met by the files with the centre as first corner of every triangle -/
example : ∃ A B, NS.CG.SPD (A : Matrix (Fin starPts.length) (Fin starPts.length) ℝ) ∧ ∀ z, A *ᵥ z = B ↔ z = affineAt 0 1 0 starPts := by
  obtain ⟨A, B, h1, h2, -⟩ := C117_program_partial (env := patchEnv upEle) Norm.isSqrt_real (fun _ => ⟨by simp [patchEnv, starEnv], by simp [patchEnv, starEnv]⟩)
    (by norm_num [patchEnv, starEnv]) (by norm_num [patchEnv, starEnv]) star_parse (patch_reads up_ele) (by unfold Proper starPts starUp; simp)
    (by norm_num [patchEnv, starEnv]) (by simp [starUp]) starUp_crowded (fun t ht => by rw [starUp_area t ht]; norm_num [patchEnv, starEnv]) starUp_reach
    starUp_coarse starUp_unfolded starUp_upright rfl rfl
  exact ⟨A, B, h1, h2⟩

/-- C117 is false of other triangulations: the result depends on the order in which the file lists the corners of a triangle. With the centre first in every triangle of the
square, the system has the first coordinate as solution; with the corners of one of these triangles in another order, the value at the centre is 14/17 instead of 1. -/
theorem C117_negation : (∀ i p : Nat, (∃ t, starUp[i]? = some t ∧ HasCorner t p) ↔ ∃ t, starTurned[i]? = some t ∧ HasCorner t p) ∧
    ∃ (A : Matrix (Fin starPts.length) (Fin starPts.length) ℝ) (B : Fin starPts.length → ℝ), NS.CG.SPD A ∧
      (∀ z, A *ᵥ z = B ↔ Discrete (patchEnv turnedEle).eps (patchEnv turnedEle).src (patchEnv turnedEle).bnd starPts starTurned z) ∧
      ∀ z, A *ᵥ z = B → z ⟨4, by decide⟩ = 14 / 17 ∧ affineAt 0 1 0 starPts ⟨4, by decide⟩ = 1 := by
  refine ⟨corner_up, ?_⟩
  obtain ⟨A, B, h1, h2, -⟩ := C103_linear (env := patchEnv turnedEle) Norm.isSqrt_real (fun _ => ⟨by simp [patchEnv, starEnv], by simp [patchEnv, starEnv]⟩)
    (by norm_num [patchEnv, starEnv]) (by norm_num [patchEnv, starEnv]) star_parse (patch_reads turned_ele) (by unfold Proper starPts starTurned; simp)
    (by norm_num [patchEnv, starEnv]) (by simp [starTurned]) starTurned_crowded (fun t ht => by rw [starTurned_area t ht]; norm_num [patchEnv, starEnv]) starTurned_reach
    starTurned_coarse
  refine ⟨A, B, h1, h2, fun z hz => ⟨starTurned_center ((h2 z).1 hz), ?_⟩⟩
  norm_num [affineAt, starPts]

end NS.Props.FemMain

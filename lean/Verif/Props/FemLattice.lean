/-
Property theorems C119: quadratic elements on triangulations whose points lie on a lattice.
-/
import Verif.Props.FemTame2
import Verif.Props.FemFiles

set_option linter.unusedSectionVars false
set_option linter.unusedSimpArgs false

namespace NS.Props.FemMain
open NS NS.World NS.FemMain NS.Fem Matrix NS.Props.Mesh NS.Props.Shape NS.Props.Fem
open NS.Props.LU (IsMat IsVec isVec_iff)
open NS.Props.Simplex (IsSqrt area2)
variable {T : Type} [Field T] [LinearOrder T] [IsStrictOrderedRing T] {n : Nat}

/-- six times the integrals of the products of derivatives on the reference triangle: `x x`, `x y + y x`, `y y` -/
def sixthsA : List (List Int) := [[3, 1, 0, -4, 0, 0], [1, 3, 0, -4, 0, 0], [0, 0, 0, 0, 0, 0], [-4, -4, 0, 8, 0, 0], [0, 0, 0, 0, 8, -8], [0, 0, 0, 0, -8, 8]]
def sixthsB : List (List Int) := [[6, 1, 1, -4, 0, -4], [1, 0, -1, -4, 4, 0], [1, -1, 0, 0, 4, -4], [-4, -4, 0, 8, -8, 8], [0, 4, 4, -8, 8, -8], [-4, 0, -4, 8, -8, 8]]
def sixthsC : List (List Int) := [[3, 0, 1, 0, 0, -4], [0, 0, 0, 0, 0, 0], [1, 0, 3, 0, 0, -4], [0, 0, 0, 8, -8, 0], [0, 0, 0, -8, 8, 0], [-4, 0, -4, 0, 0, 8]]

theorem near_sixths {i j : Nat} (hi : i < 6) (hj : j < 6) :
    |quad 3 (fun p : List T => (grads (pt 2 p 0) (pt 2 p 1) i).1 * (grads (pt 2 p 0) (pt 2 p 1) j).1) - ((sixthsA.getD i []).getD j 0 : Int) / 6| ≤ 1 / 10 ^ 14 ∧
    |quad 3 (fun p : List T => (grads (pt 2 p 0) (pt 2 p 1) i).1 * (grads (pt 2 p 0) (pt 2 p 1) j).2) +
      quad 3 (fun p : List T => (grads (pt 2 p 0) (pt 2 p 1) i).2 * (grads (pt 2 p 0) (pt 2 p 1) j).1) - ((sixthsB.getD i []).getD j 0 : Int) / 6| ≤ 1 / 10 ^ 14 ∧
    |quad 3 (fun p : List T => (grads (pt 2 p 0) (pt 2 p 1) i).2 * (grads (pt 2 p 0) (pt 2 p 1) j).2) - ((sixthsC.getD i []).getD j 0 : Int) / 6| ≤ 1 / 10 ^ 14 := by
  have hp : ∀ x y : T, pt 2 [x, y] 0 = x ∧ pt 2 [x, y] 1 = y := fun _ _ => ⟨rfl, rfl⟩
  simp only [quad_three, (hp _ _).1, (hp _ _).2, abs_le]
  interval_cases i <;> interval_cases j <;> norm_num [grads, sixthsA, sixthsB, sixthsC]

/-- the entries of a triangle on a lattice of width `h`: a multiple of `h ^ 2 / 6` up to the decimals of the table -/
theorem lattice_entry {P : Fin 3 → Fin 2 → T} {h : T} (hd : area2 P ≠ 0) (hP : ∀ k c, ∃ z : Int, P k c - P 0 c = h * z) {i j : Nat} (hi : i < 6) (hj : j < 6) :
    ∃ z : Int, |energy 2 P i j * |area2 P| - h ^ 2 * z / 6| ≤ 3 / 2 / 10 ^ 14 * sides P := by
  rw [energy_two hd hi hj]
  have hs : sides P = (P 1 0 - P 0 0) ^ 2 + (P 1 1 - P 0 1) ^ 2 + ((P 2 0 - P 0 0) ^ 2 + (P 2 1 - P 0 1) ^ 2) := by
    simp only [sides, dotProduct, Fin.sum_univ_two, Pi.sub_apply]; ring
  rw [hs]
  obtain ⟨a, ha⟩ := hP 1 0
  obtain ⟨b, hb⟩ := hP 2 0
  obtain ⟨c, hc⟩ := hP 1 1
  obtain ⟨d, hd'⟩ := hP 2 1
  rw [ha, hb, hc, hd']
  obtain ⟨h1, h2, h3⟩ := near_sixths (T := T) hi hj
  generalize (sixthsA.getD i []).getD j 0 = A at *
  generalize (sixthsB.getD i []).getD j 0 = B at *
  generalize (sixthsC.getD i []).getD j 0 = C at *
  generalize quad 3 (fun p : List T => (grads (pt 2 p 0) (pt 2 p 1) i).1 * (grads (pt 2 p 0) (pt 2 p 1) j).1) = x at *
  generalize quad 3 (fun p : List T => (grads (pt 2 p 0) (pt 2 p 1) i).1 * (grads (pt 2 p 0) (pt 2 p 1) j).2) +
      quad 3 (fun p : List T => (grads (pt 2 p 0) (pt 2 p 1) i).2 * (grads (pt 2 p 0) (pt 2 p 1) j).1) = y at *
  generalize quad 3 (fun p : List T => (grads (pt 2 p 0) (pt 2 p 1) i).2 * (grads (pt 2 p 0) (pt 2 p 1) j).2) = z at *
  refine ⟨(d ^ 2 + c ^ 2) * A - (d * b + c * a) * B + (b ^ 2 + a ^ 2) * C, ?_⟩
  push_cast
  generalize (a : T) = a at *
  generalize (b : T) = b at *
  generalize (c : T) = c at *
  generalize (d : T) = d at *
  have e : ((h * d) ^ 2 + (h * c) ^ 2) * x - (h * d * (h * b) + h * c * (h * a)) * y + ((h * b) ^ 2 + (h * a) ^ 2) * z -
      h ^ 2 * ((d ^ 2 + c ^ 2) * A - (d * b + c * a) * B + (b ^ 2 + a ^ 2) * C) / 6 =
      ((h * d) ^ 2 + (h * c) ^ 2) * (x - A / 6) - (h * d * (h * b) + h * c * (h * a)) * (y - B / 6) + ((h * b) ^ 2 + (h * a) ^ 2) * (z - C / 6) := by ring
  rw [e]
  have q1 : |((h * d) ^ 2 + (h * c) ^ 2) * (x - A / 6)| ≤ ((h * d) ^ 2 + (h * c) ^ 2) * (1 / 10 ^ 14) := by
    rw [abs_mul, abs_of_nonneg (by positivity)]
    exact mul_le_mul_of_nonneg_left h1 (by positivity)
  have q3 : |((h * b) ^ 2 + (h * a) ^ 2) * (z - C / 6)| ≤ ((h * b) ^ 2 + (h * a) ^ 2) * (1 / 10 ^ 14) := by
    rw [abs_mul, abs_of_nonneg (by positivity)]
    exact mul_le_mul_of_nonneg_left h3 (by positivity)
  have q0 : |h * d * (h * b) + h * c * (h * a)| ≤ ((h * a) ^ 2 + (h * c) ^ 2 + ((h * b) ^ 2 + (h * d) ^ 2)) / 2 := by
    rw [abs_le]
    constructor
    · linarith [sq_nonneg (h * d + h * b), sq_nonneg (h * c + h * a)]
    · linarith [sq_nonneg (h * d - h * b), sq_nonneg (h * c - h * a)]
  have q2 : |(h * d * (h * b) + h * c * (h * a)) * (y - B / 6)| ≤ ((h * a) ^ 2 + (h * c) ^ 2 + ((h * b) ^ 2 + (h * d) ^ 2)) / 2 * (1 / 10 ^ 14) := by
    rw [abs_mul]
    exact mul_le_mul q0 h2 (abs_nonneg _) (by positivity)
  rw [abs_le] at *
  constructor <;> linarith [q1.1, q1.2, q2.1, q2.2, q3.1, q3.2]

theorem lattice_area {P : Fin 3 → Fin 2 → T} {h : T} (h0 : h ≠ 0) (hd : area2 P ≠ 0) (hP : ∀ k c, ∃ z : Int, P k c - P 0 c = h * z) : h ^ 2 ≤ |area2 P| := by
  have hh : 0 < h ^ 2 := by positivity
  obtain ⟨a, ha⟩ := hP 1 0
  obtain ⟨b, hb⟩ := hP 2 0
  obtain ⟨c, hc⟩ := hP 1 1
  obtain ⟨d, hd'⟩ := hP 2 1
  have e : area2 P = h ^ 2 * ((a * d - b * c : Int) : T) := by
    rw [area2_eq, ha, hb, hc, hd']; push_cast; ring
  rw [e] at hd ⊢
  have hne : a * d - b * c ≠ 0 := by rintro h1; rw [h1] at hd; simp at hd
  rw [abs_mul, abs_of_pos hh]
  have : (1 : T) ≤ |((a * d - b * c : Int) : T)| := by
    rw [← Int.cast_abs]
    exact_mod_cast Int.one_le_abs hne
  calc h ^ 2 = h ^ 2 * 1 := (mul_one _).symm
    _ ≤ _ := mul_le_mul_of_nonneg_left this hh.le

/-- what the threshold of the program drops on a triangle of a lattice is only the dust of the quadrature table -/
theorem lattice_drops {P : Fin 3 → Fin 2 → T} {h S : T} (h0 : h ≠ 0) (hd : area2 P ≠ 0) (hP : ∀ k c, ∃ z : Int, P k c - P 0 c = h * z) (hS : sides P ≤ S * h ^ 2)
    (hS1 : S ≤ 10 ^ 6) {i j : Nat} (hi : i < 6) (hj : j < 6) (hk : |energy 2 P i j| ≤ 1 / 10 ^ 8) :
    |energy 2 P i j| ≤ 3 / 2 / 10 ^ 14 * S := by
  obtain ⟨z, hz⟩ := lattice_entry hd hP hi hj
  have hh : 0 < h ^ 2 := by positivity
  have hA := lattice_area h0 hd hP
  have hpos : 0 < |area2 P| := hh.trans_le hA
  have hsd : |area2 P| ≤ sides P / 2 := by
    have hs : sides P = (P 1 0 - P 0 0) ^ 2 + (P 1 1 - P 0 1) ^ 2 + ((P 2 0 - P 0 0) ^ 2 + (P 2 1 - P 0 1) ^ 2) := by
      simp only [sides, dotProduct, Fin.sum_univ_two, Pi.sub_apply]; ring
    rw [hs, area2_eq, abs_le]
    constructor
    · linarith [sq_nonneg (P 1 0 - P 0 0 + (P 2 1 - P 0 1)), sq_nonneg (P 2 0 - P 0 0 - (P 1 1 - P 0 1))]
    · linarith [sq_nonneg (P 1 0 - P 0 0 - (P 2 1 - P 0 1)), sq_nonneg (P 2 0 - P 0 0 + (P 1 1 - P 0 1))]
  have hbase : |energy 2 P i j| * |area2 P| = abs (energy 2 P i j * |area2 P|) := by rw [abs_mul, abs_abs]
  have hz0 : z = 0 := by
    by_contra hne
    have h1 : (1 : T) ≤ |(z : T)| := by
      rw [← Int.cast_abs]
      exact_mod_cast Int.one_le_abs hne
    have h2 : h ^ 2 / 6 ≤ |h ^ 2 * z / 6| := by
      rw [abs_div, abs_mul, abs_of_pos hh, abs_of_pos (by norm_num : (0 : T) < 6)]
      have := mul_le_mul_of_nonneg_left h1 hh.le
      linarith
    have h3 : |h ^ 2 * z / 6| ≤ abs (energy 2 P i j * |area2 P|) + |energy 2 P i j * |area2 P| - h ^ 2 * z / 6| := by
      have := abs_sub_abs_le_abs_sub (h ^ 2 * (z : T) / 6) (energy 2 P i j * |area2 P|)
      rw [abs_sub_comm] at this
      linarith
    have h4 : |energy 2 P i j| * |area2 P| ≤ 1 / 10 ^ 8 * (sides P / 2) := mul_le_mul hk hsd hpos.le (by positivity)
    have h5 : S * h ^ 2 ≤ 10 ^ 6 * h ^ 2 := mul_le_mul_of_nonneg_right hS1 hh.le
    linarith
  rw [hz0] at hz
  have hz' : |energy 2 P i j| * |area2 P| ≤ 3 / 2 / 10 ^ 14 * sides P := by
    rw [hbase]
    simpa using hz
  have hSn : 0 ≤ S := by
    by_contra hn
    have : S * h ^ 2 < 0 := mul_neg_of_neg_of_pos (not_le.1 hn) hh
    linarith [sides_pos hd]
  refine le_of_mul_le_mul_right ?_ hpos
  calc |energy 2 P i j| * |area2 P| ≤ 3 / 2 / 10 ^ 14 * (S * h ^ 2) := by linarith
    _ ≤ 3 / 2 / 10 ^ 14 * (S * |area2 P|) := by
      have := mul_le_mul_of_nonneg_left hA hSn
      linarith
    _ = _ := by ring

/-- C119: with the threshold of the program, quadratic elements and points on a lattice the condition of `C103_finished` is met -/
theorem C119_lattice {pts : List (T × T)} {tris : List (Nat × Nat × Nat)} {h S : T} {o : T × T} (h0 : h ≠ 0)
    (hl : ∀ t ∈ tris, ∀ c, ∃ x y : Int, pts.getD (cornerOf t c) (0, 0) = (o.1 + h * x, o.2 + h * y)) (ha : ∀ t ∈ tris, area2 (triPoints pts t) ≠ 0)
    (hs : ∀ t ∈ tris, sides (triPoints pts t) ≤ S * h ^ 2) (hS0 : 0 < S) (hS1 : S ≤ 10 ^ 6)
    (hb : tris.length * ((pts.length : T) + 3 * tris.length + 1) ^ 2 * S ^ 2 ≤ 3 * 10 ^ 10) : Tame (1 / 10 ^ 8) 2 pts tris := by
  have hh : 0 < h ^ 2 := by positivity
  have hP : ∀ t ∈ tris, ∀ k c, ∃ z : Int, triPoints pts t k c - triPoints pts t 0 c = h * z := by
    intro t ht k c
    obtain ⟨x, y, e⟩ := hl t ht k
    obtain ⟨x', y', e'⟩ := hl t ht 0
    have q : ∀ k, triPoints pts t k 0 = (pts.getD (cornerOf t k) (0, 0)).1 ∧ triPoints pts t k 1 = (pts.getD (cornerOf t k) (0, 0)).2 := by
      intro k; fin_cases k <;> exact ⟨rfl, rfl⟩
    fin_cases c
    · refine ⟨x - x', ?_⟩
      show triPoints pts t k 0 - triPoints pts t 0 0 = _
      rw [(q k).1, (q 0).1, e, e']
      push_cast; ring
    · refine ⟨y - y', ?_⟩
      show triPoints pts t k 1 - triPoints pts t 0 1 = _
      rw [(q k).2, (q 0).2, e, e']
      push_cast; ring
  by_cases hne : tris = []
  · exact ⟨0, 1, le_rfl, by simp [hne], by simp [hne], by simp [hne]⟩
  refine ⟨3 / 2 / 10 ^ 14 * S, 1 / S, by positivity, fun t ht i hi j hj hk => (lattice_drops h0 (ha t ht) (hP t ht) (hs t ht) hS1 hi hj hk), fun t ht => ?_, ?_⟩
  · have hA := lattice_area h0 (ha t ht) (hP t ht)
    calc 1 / S * sides (triPoints pts t) ≤ 1 / S * (S * h ^ 2) := mul_le_mul_of_nonneg_left (hs t ht) (by positivity)
      _ = h ^ 2 := by field_simp
      _ ≤ _ := hA
  · rw [lt_div_iff₀ hS0]
    linarith

/-! ### The four triangles with quadratic elements -/

def starArgs2 : List (List Char) := ["fem", "2", "2", "2", "s.node", "s.ele"].map String.toList

theorem star_parse2 : parse starArgs2 = .run 2 2 (.triangle "s.node".toList "s.ele".toList) := by decide +kernel

theorem star_tame : Tame (1 / 10 ^ 8 : ℝ) 2 starPts starTris := by
  refine C119_lattice (h := 1) (S := 6) (o := (0, 0)) one_ne_zero ?_ ?_ ?_ (by norm_num) (by norm_num) (by norm_num [starPts, starTris])
  · intro t ht c
    simp only [starTris, List.mem_cons, List.not_mem_nil, or_false] at ht
    rcases ht with rfl | rfl | rfl | rfl <;> fin_cases c
    exacts [⟨0, 0, by simp [starPts, cornerOf]⟩, ⟨2, 0, by simp [starPts, cornerOf]⟩, ⟨1, 1, by simp [starPts, cornerOf]⟩,
      ⟨2, 0, by simp [starPts, cornerOf]⟩, ⟨2, 2, by simp [starPts, cornerOf]⟩, ⟨1, 1, by simp [starPts, cornerOf]⟩,
      ⟨2, 2, by simp [starPts, cornerOf]⟩, ⟨0, 2, by simp [starPts, cornerOf]⟩, ⟨1, 1, by simp [starPts, cornerOf]⟩,
      ⟨0, 2, by simp [starPts, cornerOf]⟩, ⟨0, 0, by simp [starPts, cornerOf]⟩, ⟨1, 1, by simp [starPts, cornerOf]⟩]
  · intro t ht h0
    have h2 : triArea starPts t = |area2 (triPoints starPts t)| / 2 := by rw [area2_eq]; rfl
    rw [star_area t ht, h0] at h2
    norm_num at h2
  · intro t ht
    simp only [starTris, List.mem_cons, List.not_mem_nil, or_false] at ht
    rcases ht with rfl | rfl | rfl | rfl <;>
      simp only [sides, dotProduct, Fin.sum_univ_two, Pi.sub_apply, (triPoints_at _ _ _ _).1.1, (triPoints_at _ _ _ _).1.2, (triPoints_at _ _ _ _).2.1.1,
        (triPoints_at _ _ _ _).2.1.2, (triPoints_at _ _ _ _).2.2.1, (triPoints_at _ _ _ _).2.2.2, starPts] <;> norm_num

/-- the hypotheses of C103 for quadratic elements are met by the two files, although the threshold drops entries that are not zero -/
example : ∃ (w' w'' : World ℝ) (n : Nat) (A : Matrix (Fin n) (Fin n) ℝ), Shape.prepareMesh 2 w' = .ok w'' ∧ w''.vertices.length = n ∧ NS.CG.SPD A ∧
    ¬ Coarse (1 / 10 ^ 8 : ℝ) 2 starPts starTris := by
  obtain ⟨w, w', w'', n, a, b, A, B, h, hpl, e, hn, -, -, -, hA, -⟩ := C103_finished (env := starEnv) Norm.isSqrt_real (fun _ => ⟨by simp [starEnv], by simp [starEnv]⟩)
    (by norm_num [starEnv]) (by norm_num [starEnv]) star_parse2 star_reads star_proper (by norm_num [starEnv]) (by simp [starTris]) star_crowded
    (fun t ht => by rw [star_area t ht]; norm_num [starEnv]) star_reach star_tame
  refine ⟨w', w'', n, A, e, hn, hA, fun hc => ?_⟩
  have ht : ((0, 1, 4) : Nat × Nat × Nat) ∈ starTris := by simp [starTris]
  have hd : area2 (triPoints starPts (0, 1, 4)) ≠ 0 := by
    intro h0
    have h2 : triArea starPts (0, 1, 4) = |area2 (triPoints starPts (0, 1, 4))| / 2 := by rw [area2_eq]; rfl
    rw [star_area _ ht, h0] at h2
    norm_num at h2
  obtain ⟨h1, -, h3⟩ := C119_dropped hd
  refine absurd (hc _ ht 0 (by omega) 4 (by omega) h1) (not_lt.2 (h3 ?_))
  simp only [sides, dotProduct, Fin.sum_univ_two, Pi.sub_apply, area2_eq, (triPoints_at _ _ _ _).1.1, (triPoints_at _ _ _ _).1.2, (triPoints_at _ _ _ _).2.1.1,
        (triPoints_at _ _ _ _).2.1.2, (triPoints_at _ _ _ _).2.2.1, (triPoints_at _ _ _ _).2.2.2, starPts]
  norm_num

end NS.Props.FemMain

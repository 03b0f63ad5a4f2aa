/-
A bound of the values of a grid function that vanishes on the rim of a square by the sum of the squares of its five-point differences.
-/
import Mathlib.Algebra.Order.Chebyshev
import Mathlib.Algebra.BigOperators.Intervals
import Mathlib.Tactic.Linarith
import Mathlib.Tactic.Ring
import Mathlib.Tactic.LinearCombination

set_option linter.unusedSectionVars false
set_option linter.unusedSimpArgs false

namespace NS.GridSup
variable {T : Type} [Field T] [LinearOrder T] [IsStrictOrderedRing T]

/-- a function on `0..N` that vanishes at both ends -/
theorem chain {f : Nat → T} {N : Nat} (h0 : f 0 = 0) (hN : f N = 0) {c : Nat} (hc : c ≤ N) :
    (N : T) * f c ^ 2 ≤ c * (N - c) * ∑ j ∈ Finset.range N, (f (j + 1) - f j) ^ 2 := by
  have hsplit : ∑ j ∈ Finset.range N, (f (j + 1) - f j) ^ 2 =
      ∑ j ∈ Finset.range c, (f (j + 1) - f j) ^ 2 + ∑ j ∈ Finset.Ico c N, (f (j + 1) - f j) ^ 2 := by
    rw [Finset.sum_range_add_sum_Ico _ hc]
  have h1 : f c ^ 2 ≤ c * ∑ j ∈ Finset.range c, (f (j + 1) - f j) ^ 2 := by
    have := sq_sum_le_card_mul_sum_sq (s := Finset.range c) (f := fun j => f (j + 1) - f j)
    rw [Finset.sum_range_sub, h0, sub_zero, Finset.card_range] at this
    exact this
  have h2 : f c ^ 2 ≤ (N - c) * ∑ j ∈ Finset.Ico c N, (f (j + 1) - f j) ^ 2 := by
    have := sq_sum_le_card_mul_sum_sq (s := Finset.Ico c N) (f := fun j => f (j + 1) - f j)
    rw [Finset.sum_Ico_sub _ hc, hN, zero_sub, neg_sq, Nat.card_Ico, Nat.cast_sub hc] at this
    exact this
  have a1 : (0 : T) ≤ c := Nat.cast_nonneg c
  have a2 : (0 : T) ≤ N - c := sub_nonneg.2 (Nat.cast_le.2 hc)
  rw [hsplit]
  have b1 := mul_le_mul_of_nonneg_left h1 a2
  have b2 := mul_le_mul_of_nonneg_left h2 a1
  linarith

/-- summation by parts -/
theorem parts (f g : Nat → T) (M : Nat) :
    ∑ i ∈ Finset.range (M + 1), (f (i + 1) - f i) * (g (i + 1) - g i) =
      (f (M + 1) - f M) * g (M + 1) - (f 1 - f 0) * g 0 - ∑ i ∈ Finset.range M, (f (i + 2) - 2 * f (i + 1) + f i) * g (i + 1) := by
  induction M with
  | zero => simp; ring
  | succ M ih => rw [Finset.sum_range_succ, ih, Finset.sum_range_succ _ M]; ring

variable {u : Nat → Nat → T} {M : Nat}

/-- the mixed differences and the products of the second differences -/
theorem mixed (h1 : ∀ c, u 0 c = 0) (h2 : ∀ c, u (M + 1) c = 0) (h3 : ∀ r, u r 0 = 0) (h4 : ∀ r, u r (M + 1) = 0) :
    ∑ c ∈ Finset.range (M + 1), ∑ r ∈ Finset.range (M + 1), (u (r + 1) (c + 1) - u (r + 1) c - (u r (c + 1) - u r c)) ^ 2 =
      ∑ r ∈ Finset.range M, ∑ c ∈ Finset.range M, (u (r + 1) (c + 2) - 2 * u (r + 1) (c + 1) + u (r + 1) c) *
        (u (r + 2) (c + 1) - 2 * u (r + 1) (c + 1) + u r (c + 1)) := by
  have e1 : ∀ c, ∑ r ∈ Finset.range (M + 1), (u (r + 1) (c + 1) - u (r + 1) c - (u r (c + 1) - u r c)) ^ 2 =
      - ∑ r ∈ Finset.range M, ((u (r + 2) (c + 1) - 2 * u (r + 1) (c + 1) + u r (c + 1)) - (u (r + 2) c - 2 * u (r + 1) c + u r c)) * (u (r + 1) (c + 1) - u (r + 1) c) := by
    intro c
    have := parts (fun r => u r (c + 1) - u r c) (fun r => u r (c + 1) - u r c) M
    simp only [h1, h2, sub_zero, mul_zero, zero_sub] at this
    simp only [pow_two]
    rw [this, Finset.sum_congr rfl]
    intro r _
    ring
  have e2 : ∀ r, ∑ c ∈ Finset.range (M + 1), ((u (r + 2) (c + 1) - 2 * u (r + 1) (c + 1) + u r (c + 1)) - (u (r + 2) c - 2 * u (r + 1) c + u r c)) * (u (r + 1) (c + 1) - u (r + 1) c) =
      - ∑ c ∈ Finset.range M, (u (r + 1) (c + 2) - 2 * u (r + 1) (c + 1) + u (r + 1) c) * (u (r + 2) (c + 1) - 2 * u (r + 1) (c + 1) + u r (c + 1)) := by
    intro r
    have := parts (fun c => u (r + 1) c) (fun c => u (r + 2) c - 2 * u (r + 1) c + u r c) M
    simp only [h3, h4, sub_zero, mul_zero, zero_sub, add_zero] at this
    rw [← this]
    refine Finset.sum_congr rfl fun c _ => by ring
  rw [Finset.sum_congr rfl fun c _ => e1 c, Finset.sum_neg_distrib, Finset.sum_comm, Finset.sum_congr rfl fun r _ => e2 r, Finset.sum_neg_distrib, neg_neg]

/-- the bound -/
theorem sup_le {N : Nat} (h1 : ∀ c, u 0 c = 0) (h2 : ∀ c, u N c = 0) (h3 : ∀ r, u r 0 = 0) (h4 : ∀ r, u r N = 0) {r c : Nat} (hr : r ≤ N) (hc : c ≤ N) :
    64 * u r c ^ 2 ≤ (N : T) ^ 2 * ∑ r ∈ Finset.range (N - 1), ∑ c ∈ Finset.range (N - 1),
      (4 * u (r + 1) (c + 1) - u (r + 2) (c + 1) - u r (c + 1) - u (r + 1) (c + 2) - u (r + 1) c) ^ 2 := by
  rcases Nat.eq_zero_or_pos N with rfl | hN
  · obtain rfl : r = 0 := by omega
    rw [h1]; simp
  obtain ⟨M, rfl⟩ : ∃ M, N = M + 1 := ⟨N - 1, by omega⟩
  rw [Nat.add_sub_cancel]
  set S := ∑ c ∈ Finset.range (M + 1), ∑ r ∈ Finset.range (M + 1), (u (r + 1) (c + 1) - u (r + 1) c - (u r (c + 1) - u r c)) ^ 2 with hS
  have hNp : (0 : T) < ((M + 1 : Nat) : T) := Nat.cast_pos.2 hN
  set n : T := ((M + 1 : Nat) : T) with hn
  have b1 : n * u r c ^ 2 ≤ c * (n - c) * ∑ j ∈ Finset.range (M + 1), (u r (j + 1) - u r j) ^ 2 := chain (f := fun c => u r c) (h3 r) (h4 r) hc
  have b2 : n * ∑ j ∈ Finset.range (M + 1), (u r (j + 1) - u r j) ^ 2 ≤ r * (n - r) * S := by
    rw [hS, Finset.mul_sum, Finset.mul_sum]
    refine Finset.sum_le_sum fun j _ => ?_
    exact chain (f := fun r => u r (j + 1) - u r j) (by simp [h1]) (by simp [h2]) hr
  have b3 : 4 * S ≤ ∑ r ∈ Finset.range M, ∑ c ∈ Finset.range M,
      (4 * u (r + 1) (c + 1) - u (r + 2) (c + 1) - u r (c + 1) - u (r + 1) (c + 2) - u (r + 1) c) ^ 2 := by
    rw [hS, mixed h1 h2 h3 h4, Finset.mul_sum]
    refine Finset.sum_le_sum fun r _ => ?_
    rw [Finset.mul_sum]
    refine Finset.sum_le_sum fun c _ => ?_
    set X := u (r + 1) (c + 2) - 2 * u (r + 1) (c + 1) + u (r + 1) c
    set Y := u (r + 2) (c + 1) - 2 * u (r + 1) (c + 1) + u r (c + 1)
    have e : (4 * u (r + 1) (c + 1) - u (r + 2) (c + 1) - u r (c + 1) - u (r + 1) (c + 2) - u (r + 1) c) ^ 2 = (X + Y) ^ 2 := by ring
    rw [e]
    nlinarith [sq_nonneg (X - Y)]
  have hS0 : 0 ≤ S := Finset.sum_nonneg fun c _ => Finset.sum_nonneg fun r _ => sq_nonneg _
  have q : ∀ t : T, 4 * (t * (n - t)) ≤ n ^ 2 := fun t => by nlinarith [sq_nonneg (n - 2 * t)]
  have hcn : (0 : T) ≤ c * (n - c) := mul_nonneg (Nat.cast_nonneg c) (sub_nonneg.2 (Nat.cast_le.2 hc))
  have hrn : (0 : T) ≤ r * (n - r) := mul_nonneg (Nat.cast_nonneg r) (sub_nonneg.2 (Nat.cast_le.2 hr))
  set W := ∑ j ∈ Finset.range (M + 1), (u r (j + 1) - u r j) ^ 2 with hW
  have hW0 : 0 ≤ W := Finset.sum_nonneg fun c _ => sq_nonneg _
  -- 4 u² ≤ n W and 4 W ≤ n S
  have c1 : 4 * u r c ^ 2 ≤ n * W := by
    have := mul_le_mul_of_nonneg_right (q c) hW0
    have h : n * (4 * u r c ^ 2) ≤ n * (n * W) := by nlinarith
    exact le_of_mul_le_mul_left h hNp
  have c2 : 4 * W ≤ n * S := by
    have := mul_le_mul_of_nonneg_right (q r) hS0
    have h : n * (4 * W) ≤ n * (n * S) := by nlinarith
    exact le_of_mul_le_mul_left h hNp
  have c3 := mul_le_mul_of_nonneg_left c2 hNp.le
  have c4 := mul_le_mul_of_nonneg_left b3 (show (0 : T) ≤ n ^ 2 by positivity)
  nlinarith
end NS.GridSup

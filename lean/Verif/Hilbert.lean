/-
The inverse of the Hilbert matrix: the combinatorial identity behind `inv_hilbert`, for every size.
-/
import Verif.Construct
import Mathlib.Tactic.FieldSimp
import Mathlib.Tactic.LinearCombination

set_option linter.unusedSectionVars false
set_option linter.unusedSimpArgs false

namespace NS.Construct
open Polynomial Finset
variable {F : Type} [Field F] [CharZero F]

theorem prod_erase_sub (j r : Nat) :
    ∏ m ∈ (range (j + 1 + r)).erase j, ((j : F) - (m : F)) = (-1) ^ r * (j.factorial : F) * (r.factorial : F) := by
  induction r with
  | zero =>
    have : (range (j + 1 + 0)).erase j = range j := by
      ext m; simp only [mem_erase, mem_range]; omega
    rw [this]
    have h : ∏ m ∈ range j, ((j : F) - (m : F)) = ((∏ m ∈ range j, (m + 1) : Nat) : F) := by
      rw [← Finset.prod_range_reflect]
      push_cast
      refine Finset.prod_congr rfl (fun m hm => ?_)
      have := mem_range.1 hm
      rw [show (j - 1 - m : Nat) = j - (m + 1) by omega, Nat.cast_sub (by omega)]
      push_cast; ring
    rw [h, Finset.prod_range_add_one_eq_factorial]
    simp
  | succ r ih =>
    have : (range (j + 1 + (r + 1))).erase j = insert (j + 1 + r) ((range (j + 1 + r)).erase j) := by
      ext m; simp only [mem_erase, mem_range, mem_insert]; omega
    rw [this, Finset.prod_insert (by simp), ih, Nat.factorial_succ]
    push_cast
    ring

theorem prod_erase_sub' {n j : Nat} (hj : j < n) :
    ∏ m ∈ (range n).erase j, ((j : F) - (m : F)) =
      (-1) ^ (n - 1 - j) * (j.factorial : F) * ((n - 1 - j).factorial : F) := by
  have := prod_erase_sub (F := F) j (n - 1 - j)
  rwa [show j + 1 + (n - 1 - j) = n by omega] at this

theorem prod_add (n j : Nat) :
    (∏ l ∈ range n, ((j : F) + (l : F) + 1)) * (j.factorial : F) = ((n + j).factorial : F) := by
  have h1 := Nat.factorial_mul_ascFactorial j n
  rw [Nat.ascFactorial_eq_prod_range] at h1
  rw [add_comm n j, ← h1]
  push_cast
  rw [mul_comm]
  congr 1
  refine Finset.prod_congr rfl (fun l _ => by ring)

theorem ihEntry_eq {n k j : Nat} (hk : k < n) (hj : j < n) :
    (ihEntry n k j : F) * ((k + j + 1 : F) * (k.factorial : F) ^ 2 * (j.factorial : F) ^ 2 *
      ((n - 1 - j).factorial : F) * ((n - 1 - k).factorial : F)) =
      ((n + k).factorial : F) * ((n + j).factorial : F) := by
  have c1 := Nat.choose_mul_factorial_mul_factorial (n := n + k) (k := n - j - 1) (by omega)
  have c2 := Nat.choose_mul_factorial_mul_factorial (n := n + j) (k := n - k - 1) (by omega)
  have c3 := Nat.choose_mul_factorial_mul_factorial (n := k + j) (k := k) (by omega)
  rw [show n + k - (n - j - 1) = k + j + 1 by omega] at c1
  rw [show n + j - (n - k - 1) = k + j + 1 by omega] at c2
  rw [show k + j - k = j by omega] at c3
  have f1 : (k + j + 1).factorial = (k + j + 1) * (k + j).factorial := Nat.factorial_succ _
  unfold ihEntry
  rw [show n - 1 - j = n - j - 1 by omega, show n - 1 - k = n - k - 1 by omega]
  have hne : ((k + j).factorial : F) ≠ 0 := by exact_mod_cast Nat.factorial_ne_zero _
  have g1 := congrArg (Nat.cast : Nat → F) c1
  have g2 := congrArg (Nat.cast : Nat → F) c2
  have g3 := congrArg (Nat.cast : Nat → F) c3
  rw [f1] at g1 g2
  push_cast at g1 g2 g3 ⊢
  rw [← g1, ← g2]
  rw [← g3]
  ring

theorem aux (PJ PK I K s s1 s2 s3 fk fj fnk fnj E : F) (hI : I ≠ 0) (hK : K ≠ 0) (h1 : s1 ≠ 0) (h2 : s2 ≠ 0) (h3 : s3 ≠ 0)
    (hfk : fk ≠ 0) (hfj : fj ≠ 0) (hfnk : fnk ≠ 0) (hfnj : fnj ≠ 0)
    (hE : E * (K * fk ^ 2 * fj ^ 2 * fnj * fnk) = PK * fk * (PJ * fj)) :
    PJ * ((s3 * (s1 * fk * fnk))⁻¹ * I⁻¹ * ((-(s * (s3 * s1 * s2)) * PK) * ((s2 * fj * fnj)⁻¹ * (-K)⁻¹))) =
      (1 / I) * (s * E) := by
  have hE' : E = PK * fk * (PJ * fj) / (K * fk ^ 2 * fj ^ 2 * fnj * fnk) := by
    rw [eq_div_iff (by simp [hK, hfk, hfj, hfnj, hfnk])]; exact hE
  rw [hE']
  field_simp

theorem hilbert_identity {n i j : Nat} (hi : i < n) (hj : j < n) :
    ∑ k ∈ range n, (1 / ((i : F) + (k : F) + 1)) * ((-1 : F) ^ (k + j) * (ihEntry n k j : F)) =
      if i = j then 1 else 0 := by
  set v : Nat → F := fun k => (k : F) with hv
  set y : Nat → F := fun k => -((k : F) + 1) with hy
  have hvi : Set.InjOn v (range n) := fun a _ b _ h => by
    have h' : (a : F) = b := h
    exact_mod_cast h'
  have hyi : Set.InjOn y (range n) := fun a _ b _ h => by
    have h' : (a : F) = b := by
      have : -((a : F) + 1) = -((b : F) + 1) := h
      linear_combination -this
    exact_mod_cast h'
  have hpos : ∀ a b : Nat, (a : F) + (b : F) + 1 ≠ 0 := fun a b => by exact_mod_cast Nat.succ_ne_zero (a + b)
  set g := Lagrange.basis (range n) v j with hg
  have hdeg : g.degree < #(range n) := by
    rw [hg, Lagrange.degree_basis hvi (mem_range.2 hj), card_range]
    exact_mod_cast (by omega : n - 1 < n)
  have hint := Lagrange.eq_interpolate hyi hdeg
  have hev : eval (i : F) g = if i = j then 1 else 0 := by
    by_cases hij : i = j
    · subst hij
      rw [if_pos rfl]
      exact Lagrange.eval_basis_self hvi (mem_range.2 hi)
    · rw [if_neg hij]
      exact Lagrange.eval_basis_of_ne (v := v) (Ne.symm hij) (mem_range.2 hi)
  have hnode : ∀ k ∈ range n, (i : F) ≠ y k := fun k _ h => by
    have : (i : F) = -((k : F) + 1) := h
    exact hpos i k (by linear_combination this)
  rw [hint, Lagrange.eval_interpolate_not_at_node _ hnode] at hev
  have hN : ∀ a : Nat, eval (a : F) (Lagrange.nodal (range n) y) = ∏ l ∈ range n, ((a : F) + (l : F) + 1) := by
    intro a
    rw [Lagrange.eval_nodal]
    refine Finset.prod_congr rfl (fun l _ => ?_)
    simp only [hy]; ring
  have hN0 : ∀ a : Nat, ∏ l ∈ range n, ((a : F) + (l : F) + 1) ≠ 0 := fun a =>
    Finset.prod_ne_zero_iff.2 (fun l _ => hpos a l)
  have hfac : ∀ a : Nat, (a.factorial : F) ≠ 0 := fun a => by exact_mod_cast Nat.factorial_ne_zero a
  have hterm : ∀ k ∈ range n, (∏ l ∈ range n, ((j : F) + (l : F) + 1)) *
      (Lagrange.nodalWeight (range n) y k * ((i : F) - y k)⁻¹ * eval (y k) g) =
      (1 / ((i : F) + (k : F) + 1)) * ((-1 : F) ^ (k + j) * (ihEntry n k j : F)) := by
    intro k hk
    have hk' := mem_range.1 hk
    have hne : y k ≠ v j := fun h => by
      have : -((k : F) + 1) = (j : F) := h
      exact hpos k j (by linear_combination -this)
    rw [hg, Lagrange.eval_basis_not_at_node (mem_range.2 hj) hne]
    have w1 : Lagrange.nodalWeight (range n) y k =
        ((-1) ^ (n - 1) * ((-1) ^ (n - 1 - k) * (k.factorial : F) * ((n - 1 - k).factorial : F)))⁻¹ := by
      unfold Lagrange.nodalWeight
      rw [Finset.prod_inv_distrib, ← prod_erase_sub' hk']
      congr 1
      have : ∏ l ∈ (range n).erase k, (y k - y l) = ∏ l ∈ (range n).erase k, ((-1) * ((k : F) - (l : F))) := by
        refine Finset.prod_congr rfl (fun l _ => ?_)
        simp only [hy]; ring
      rw [this, Finset.prod_mul_distrib, Finset.prod_const, Finset.card_erase_of_mem hk, card_range]
    have w2 : Lagrange.nodalWeight (range n) v j =
        ((-1) ^ (n - 1 - j) * (j.factorial : F) * ((n - 1 - j).factorial : F))⁻¹ := by
      unfold Lagrange.nodalWeight
      rw [Finset.prod_inv_distrib, ← prod_erase_sub' hj]
    have w3 : eval (y k) (Lagrange.nodal (range n) v) = (-1) ^ n * ∏ l ∈ range n, ((k : F) + (l : F) + 1) := by
      rw [Lagrange.eval_nodal]
      have : ∏ l ∈ range n, (y k - v l) = ∏ l ∈ range n, ((-1) * ((k : F) + (l : F) + 1)) := by
        refine Finset.prod_congr rfl (fun l _ => ?_)
        simp only [hy, hv]; ring
      rw [this, Finset.prod_mul_distrib, Finset.prod_const, card_range]
    have hE := ihEntry_eq (F := F) hk' hj
    have pj := prod_add (F := F) n j
    have pk := prod_add (F := F) n k
    rw [w1, w2, w3]
    have e1 : (i : F) - y k = (i : F) + k + 1 := by simp only [hy]; ring
    have e2 : y k - v j = -((k : F) + j + 1) := by simp only [hy, hv]; ring
    rw [e1, e2]
    have hs : ((-1 : F) ^ (n - 1 - k)) ≠ 0 := pow_ne_zero _ (by norm_num)
    have hs2 : ((-1 : F) ^ (n - 1 - j)) ≠ 0 := pow_ne_zero _ (by norm_num)
    have hs3 : ((-1 : F) ^ (n - 1)) ≠ 0 := pow_ne_zero _ (by norm_num)
    have hsig : (-1 : F) ^ n = - ((-1) ^ (k + j) * ((-1) ^ (n - 1) * (-1) ^ (n - 1 - k) * (-1) ^ (n - 1 - j))) := by
      obtain ⟨a, rfl⟩ : ∃ a, n = k + 1 + a := ⟨n - 1 - k, by omega⟩
      rw [show k + 1 + a - 1 - k = a by omega]
      obtain ⟨b, hb⟩ : ∃ b, k + 1 + a = j + 1 + b := ⟨k + a - j, by omega⟩
      rw [show k + 1 + a - 1 - j = b by omega, show k + 1 + a - 1 = k + a by omega]
      have hb' : k + a = j + b := by omega
      have hjj : (-1 : F) ^ j * (-1) ^ j = 1 := by rw [← pow_add, ← two_mul, pow_mul]; norm_num
      have hbb : (-1 : F) ^ b * (-1) ^ b = 1 := by rw [← pow_add, ← two_mul, pow_mul]; norm_num
      have hka : (-1 : F) ^ (k + a) = (-1) ^ j * (-1) ^ b := by rw [hb', pow_add]
      rw [pow_add (-1 : F) (k + 1) a, pow_add (-1 : F) k 1, pow_add (-1 : F) k j, hka]
      rw [pow_add] at hka
      linear_combination (-1 : F) * (hka) * (1 : F) + (1:F) * ((-1 : F) ^ k * (-1) ^ a * (hjj * 1)) * ((-1 : F)^b * (-1 : F)^b) + (-1 : F) ^ k * (-1) ^ a * hbb - (-1) * hka
    rw [hsig]
    rw [← pj, ← pk] at hE
    exact aux _ _ _ _ _ _ _ _ _ _ _ _ _ (hpos i k) (hpos k j) hs hs2 hs3 (hfac _) (hfac _) (hfac _) (hfac _) hE
  rw [← Finset.sum_congr rfl hterm, ← Finset.mul_sum]
  rw [hN] at hev
  by_cases hij : i = j
  · subst hij
    rw [hev]
  · rw [if_neg hij] at hev ⊢
    rw [(mul_eq_zero.1 hev).resolve_left (hN0 i), mul_zero]
end NS.Construct

/-
Lemmas about `Math`, `Construct` and `Check`.
-/
import Verif.ConstructModel
import Verif.VecLemmas
import Mathlib.Data.Nat.Choose.Basic
import Mathlib.Data.Nat.Choose.Cast
import Mathlib.Data.Nat.Factorial.BigOperators
import Mathlib.LinearAlgebra.Lagrange
import Mathlib.LinearAlgebra.Matrix.NonsingularInverse

set_option linter.unusedSectionVars false
set_option linter.unusedSimpArgs false

namespace NS
namespace MathU

theorem signPow_eq (k : Int) : signPow k = (-1) ^ k.natAbs := by
  unfold signPow
  rcases Nat.even_or_odd k.natAbs with h | h
  · rw [h.neg_one_pow, if_pos]
    have : (2 : Int) ∣ k := by
      rw [← Int.natAbs_dvd_natAbs]; exact h.two_dvd
    exact Int.tmod_eq_zero_of_dvd this
  · rw [h.neg_one_pow, if_neg]
    intro h0
    have : (2 : Int) ∣ k := Int.dvd_of_tmod_eq_zero h0
    rw [← Int.natAbs_dvd_natAbs] at this
    exact (Nat.not_even_iff_odd.2 h) (even_iff_two_dvd.2 this)

theorem factorial_eq (W k : Nat) : factorial W k = k.factorial % 2 ^ W := by
  induction k with
  | zero => rfl
  | succ k ih => rw [factorial, ih, Nat.factorial_succ, Nat.mul_mod_mod]

theorem subW_of_le {W a b : Nat} (hb : b ≤ a) (ha : a < 2 ^ W) : subW W a b = a - b := by
  unfold subW
  rw [Nat.mod_eq_of_lt (show b < 2 ^ W by omega), show a + 2 ^ W - b = (a - b) + 2 ^ W by omega, Nat.add_mod_right,
    Nat.mod_eq_of_lt (by omega)]

theorem choose_mono_diag {n k i : Nat} (hk : k ≤ n) (hi : i ≤ k) : (n - k + i).choose i ≤ n.choose k := by
  rw [← Nat.choose_symm_add (a := n - k) (b := i), ← Nat.choose_symm hk]
  exact Nat.choose_le_choose _ (by omega)

theorem binomLoop_ok {W n k : Nat} (hk : 0 < k) (hkn : k ≤ n) (hn : n < 2 ^ W) (hfit : k * n.choose k < 2 ^ W) :
    binomLoop W n k = .ok (n.choose k) := by
  unfold binomLoop
  rw [subW_of_le hkn hn]
  have hlt : ∀ i ≤ k, i * (n - k + i).choose i < 2 ^ W := fun i hi =>
    lt_of_le_of_lt (Nat.mul_le_mul hi (choose_mono_diag hkn hi)) hfit
  have := sat_forRange (E := noErr) (f := fun i v =>
      (.ok ((v * ((n - k + i) % 2 ^ W)) % 2 ^ W / i) : R Nat))
    (fun i (v : Nat) => v = (n - k + (i - 1)).choose (i - 1)) (show 2 ≤ k + 1 by omega)
    (s := (n - k + 1) % 2 ^ W) (by
      have := Nat.mod_eq_of_lt (show n - k + 1 < 2 ^ W by omega)
      simp [this]) (by
      intro i v h2 hi hv
      subst hv
      show _ = _
      obtain ⟨j, rfl⟩ : ∃ j, i = j + 1 := ⟨i - 1, by omega⟩
      have e := Nat.add_one_mul_choose_eq (n - k + j) j
      simp only [Nat.add_sub_cancel]
      have hb := hlt (j + 1) (by omega)
      rw [Nat.mod_eq_of_lt (show n - k + (j + 1) < 2 ^ W by omega)]
      have e2 : (n - k + j).choose j * (n - k + (j + 1)) = (j + 1) * (n - k + (j + 1)).choose (j + 1) := by
        rw [Nat.mul_comm, ← Nat.add_assoc, e, Nat.mul_comm]
      rw [e2, Nat.mod_eq_of_lt hb, Nat.mul_div_cancel_left _ (by omega)])
  obtain ⟨v, e1, e2⟩ := this.ok_of
  rw [e1, e2]
  simp only [Nat.add_sub_cancel]
  congr 2; omega

theorem binom_ok {W n k : Nat} (hkn : k ≤ n) (hn : 2 * n < 2 ^ W)
    (hfit : min k (n - k) * n.choose k < 2 ^ W) : binom W n k = .ok (n.choose k) := by
  unfold binom
  have key : ∀ f k, k ≤ n → 2 * k ≤ n → k * n.choose k < 2 ^ W → binomF W (f + 1) n k = .ok (n.choose k) := by
    intro f k hkn h2 hf
    unfold binomF
    by_cases h0 : k = 0
    · simp [h0]
    · rw [if_neg h0, Nat.mod_eq_of_lt (by omega), if_neg (by omega)]
      exact binomLoop_ok (by omega) hkn (by omega) hf
  by_cases h2 : 2 * k ≤ n
  · exact key 2 k hkn h2 (by rwa [Nat.min_eq_left (by omega)] at hfit)
  · rw [binomF, if_neg (by omega), Nat.mod_eq_of_lt (by omega), if_pos (by omega), subW_of_le hkn (by omega),
      key 1 (n - k) (by omega) (by omega) (by
        rw [Nat.min_eq_right (by omega)] at hfit
        rwa [Nat.choose_symm hkn]), Nat.choose_symm hkn]

theorem binom_diverge {W n k : Nat} (hk : n < k) (h2 : 2 * k < 2 ^ W) (fuel : Nat) :
    binomF W fuel n k = .error .diverge := by
  have step : ∀ fuel, binomF W fuel n k = .error .diverge ∧ binomF W fuel n (2 ^ W + n - k) = .error .diverge := by
    intro fuel
    induction fuel with
    | zero => exact ⟨rfl, rfl⟩
    | succ f ih =>
      constructor
      · rw [binomF, if_neg (by omega), Nat.mod_eq_of_lt h2, if_pos (by omega)]
        have : subW W n k = 2 ^ W + n - k := by
          unfold subW
          rw [Nat.mod_eq_of_lt (show k < 2 ^ W by omega), Nat.mod_eq_of_lt (by omega)]
          omega
        rw [this]; exact ih.2
      · have e : 2 * (2 ^ W + n - k) % 2 ^ W = 2 ^ W + 2 * n - 2 * k := by
          rw [show 2 * (2 ^ W + n - k) = (2 ^ W + 2 * n - 2 * k) + 2 ^ W by omega, Nat.add_mod_right,
            Nat.mod_eq_of_lt (by omega)]
        rw [binomF, if_neg (by omega), e, if_pos (by omega)]
        have : subW W n (2 ^ W + n - k) = k := by
          unfold subW
          rw [Nat.mod_eq_of_lt (show 2 ^ W + n - k < 2 ^ W by omega),
            show n + 2 ^ W - (2 ^ W + n - k) = k by omega, Nat.mod_eq_of_lt (by omega)]
        rw [this]; exact ih.1
  exact (step fuel).1

theorem binomReal_ok {T : Type} [Field T] (n : T) (k : Nat) :
    binomReal n k = .ok (∏ i ∈ Finset.range k, ((n - (i : T)) / ((i : T) + 1))) := by
  unfold binomReal
  have := sat_forRange (E := noErr) (f := fun i (v : T) =>
      (.ok (v * ((n - (i : T)) * (1 / ((i : T) + 1)))) : R T))
    (fun k v => v = ∏ i ∈ Finset.range k, ((n - (i : T)) / ((i : T) + 1))) (Nat.zero_le k) (s := 1) (by simp) (by
      intro i v _ _ hv
      show _ = _
      rw [Finset.prod_range_succ, hv, mul_one_div])
  obtain ⟨v, e1, e2⟩ := this.ok_of
  rw [e1, e2]

theorem binomReal_nat {T : Type} [Field T] [CharZero T] (n k : Nat) :
    binomReal (n : T) k = .ok ((n.choose k : Nat) : T) := by
  rw [binomReal_ok]
  congr 1
  induction k with
  | zero => simp
  | succ k ih =>
    rw [Finset.prod_range_succ, ih, ← mul_div_assoc, div_eq_iff (by exact_mod_cast Nat.succ_ne_zero k)]
    rcases Nat.lt_or_ge n k with h | h
    · rw [Nat.choose_eq_zero_of_lt h, Nat.choose_eq_zero_of_lt (by omega)]; simp
    · rw [← Nat.cast_sub h]
      have := Nat.choose_succ_right_eq n k
      exact_mod_cast this.symm
end MathU

namespace Construct
open MatOps LawfulMat
variable {M T : Type} [Field T] [DecidableEq T] [MatOps M T] [LawfulMat M T]

/-- a loop that writes `f` at the positions `pos q`, `lo <= q < hi` -/
theorem loop_set (m : M) (hm : Valid m) (f : Nat → Nat → T) (lo hi : Nat) (pos : Nat → Nat × Nat)
    (hpos : ∀ q, lo ≤ q → q < hi → (pos q).1 < rows m ∧ (pos q).2 < cols m) (body : Nat → M → R M)
    (hb : ∀ q r, lo ≤ q → q < hi → body q r = put r (pos q).1 (pos q).2 (f (pos q).1 (pos q).2)) :
    ∃ m', forRange lo hi m body = .ok m' ∧ Valid m' ∧ rows m' = rows m ∧ cols m' = cols m ∧
      ∀ a b, ((∃ q, lo ≤ q ∧ q < hi ∧ pos q = (a, b)) → val m' a b = f a b) ∧
        ((¬ ∃ q, lo ≤ q ∧ q < hi ∧ pos q = (a, b)) → val m' a b = val m a b) := by
  rcases Nat.lt_or_ge hi lo with hlt | hle
  · rw [forRange_empty hlt.le]
    refine ⟨m, rfl, hm, rfl, rfl, fun a b => ⟨?_, fun _ => rfl⟩⟩
    rintro ⟨q, h1, h2, _⟩; omega
  have := sat_forRange (E := noErr) (f := body)
    (fun k (r : M) => Valid r ∧ rows r = rows m ∧ cols r = cols m ∧
      ∀ a b, ((∃ q, lo ≤ q ∧ q < k ∧ pos q = (a, b)) → val r a b = f a b) ∧
        ((¬ ∃ q, lo ≤ q ∧ q < k ∧ pos q = (a, b)) → val r a b = val m a b)) hle (s := m)
    ⟨hm, rfl, rfl, fun a b => ⟨by rintro ⟨q, h1, h2, _⟩; omega, fun _ => rfl⟩⟩ (by
      intro k r h1 h2 ⟨i1, i2, i3, i4⟩
      rw [hb k r h1 h2]
      obtain ⟨p1, p2⟩ := hpos k h1 h2
      obtain ⟨r', e1, e2, e3, e4, e5⟩ := put_ok (f (pos k).1 (pos k).2) i1 (by rw [i2]; exact p1) (by rw [i3]; exact p2)
      rw [e1]
      refine ⟨e2, by rw [e3, i2], by rw [e4, i3], fun a b => ⟨?_, ?_⟩⟩
      · rintro ⟨q, q1, q2, q3⟩
        rw [e5]
        by_cases hk : a = (pos k).1 ∧ b = (pos k).2
        · rw [if_pos hk, hk.1, hk.2]
        · rw [if_neg hk]
          refine (i4 a b).1 ⟨q, q1, ?_, q3⟩
          rcases Nat.lt_succ_iff_lt_or_eq.1 q2 with h | h
          · exact h
          · subst h; exact absurd ⟨by rw [q3], by rw [q3]⟩ hk
      · intro hne
        rw [e5, if_neg, (i4 a b).2]
        · rintro ⟨q, q1, q2, q3⟩; exact hne ⟨q, q1, by omega, q3⟩
        · rintro ⟨rfl, rfl⟩; exact hne ⟨k, h1, by omega, rfl⟩)
  obtain ⟨m', e1, e2⟩ := this.ok_of
  exact ⟨m', e1, e2⟩

/-- two nested loops that write `f` at the positions `pos o q` -/
theorem loop_set2 (m : M) (hm : Valid m) (f : Nat → Nat → T) (N : Nat) (lo hi : Nat → Nat) (pos : Nat → Nat → Nat × Nat)
    (hpos : ∀ o q, o < N → lo o ≤ q → q < hi o → (pos o q).1 < rows m ∧ (pos o q).2 < cols m) (body : Nat → M → R M)
    (inner : Nat → Nat → M → R M) (hbody : ∀ o r, o < N → body o r = forRange (lo o) (hi o) r (inner o))
    (hb : ∀ o q r, o < N → lo o ≤ q → q < hi o → inner o q r = put r (pos o q).1 (pos o q).2 (f (pos o q).1 (pos o q).2)) :
    ∃ m', forRange 0 N m body = .ok m' ∧ Valid m' ∧ rows m' = rows m ∧ cols m' = cols m ∧
      ∀ a b, ((∃ o q, o < N ∧ lo o ≤ q ∧ q < hi o ∧ pos o q = (a, b)) → val m' a b = f a b) ∧
        ((¬ ∃ o q, o < N ∧ lo o ≤ q ∧ q < hi o ∧ pos o q = (a, b)) → val m' a b = val m a b) := by
  have := sat_forRange (E := noErr) (f := body)
    (fun k (r : M) => Valid r ∧ rows r = rows m ∧ cols r = cols m ∧
      ∀ a b, ((∃ o q, o < k ∧ lo o ≤ q ∧ q < hi o ∧ pos o q = (a, b)) → val r a b = f a b) ∧
        ((¬ ∃ o q, o < k ∧ lo o ≤ q ∧ q < hi o ∧ pos o q = (a, b)) → val r a b = val m a b)) (Nat.zero_le N) (s := m)
    ⟨hm, rfl, rfl, fun a b => ⟨by rintro ⟨o, q, h1, _⟩; omega, fun _ => rfl⟩⟩ (by
      intro k r _ h2 ⟨i1, i2, i3, i4⟩
      rw [hbody k r h2]
      obtain ⟨r', e1, e2, e3, e4, e5⟩ := loop_set r i1 f (lo k) (hi k) (pos k)
        (fun q q1 q2 => by rw [i2, i3]; exact hpos k q h2 q1 q2) (inner k) (fun q r => hb k q r h2)
      rw [e1]
      refine ⟨e2, by rw [e3, i2], by rw [e4, i3], fun a b => ⟨?_, ?_⟩⟩
      · rintro ⟨o, q, q1, q2, q3, q4⟩
        by_cases hk : ∃ q, lo k ≤ q ∧ q < hi k ∧ pos k q = (a, b)
        · exact (e5 a b).1 hk
        · rw [(e5 a b).2 hk]
          refine (i4 a b).1 ⟨o, q, ?_, q2, q3, q4⟩
          rcases Nat.lt_succ_iff_lt_or_eq.1 q1 with h | h
          · exact h
          · subst h; exact absurd ⟨q, q2, q3, q4⟩ hk
      · intro hne
        rw [(e5 a b).2, (i4 a b).2]
        · rintro ⟨o, q, q1, q2⟩; exact hne ⟨o, q, by omega, q2⟩
        · rintro ⟨q, q2⟩; exact hne ⟨k, q, by omega, q2⟩)
  obtain ⟨m', e1, e2⟩ := this.ok_of
  exact ⟨m', e1, e2⟩

theorem eye_ok {d1 d2 : Nat} (h1 : 0 < d1) (h2 : 0 < d2) :
    ∃ m : M, eye d1 d2 = .ok m ∧ Valid m ∧ rows m = d1 ∧ cols m = d2 ∧
      ∀ i j, i < d1 → j < d2 → val m i j = if i = j then 1 else 0 := by
  unfold eye
  obtain ⟨m0, a1, a2, a3, a4, a5⟩ := make_ok (M := M) h1 h2
  rw [a1, ok_bind]
  obtain ⟨m, e1, e2, e3, e4, e5⟩ := loop_set m0 a2 (fun _ _ => 1) 0 (min d1 d2) (fun q => (q, q))
    (fun q _ hq => by rw [a3, a4]; simp only; omega) (fun i m => put m i i 1) (fun q r _ _ => rfl)
  refine ⟨m, e1, e2, by rw [e3, a3], by rw [e4, a4], fun i j hi hj => ?_⟩
  by_cases hij : i = j
  · rw [if_pos hij]
    exact (e5 i j).1 ⟨i, by omega, by omega, by rw [hij]⟩
  · rw [if_neg hij, (e5 i j).2, a5]
    rintro ⟨q, _, _, hq⟩
    simp only [Prod.mk.injEq] at hq
    omega

theorem diagOf_ok (v : List T) (hv : 0 < v.length) :
    ∃ m : M, diagOf v = .ok m ∧ Valid m ∧ rows m = v.length ∧ cols m = v.length ∧
      ∀ i j, i < v.length → j < v.length → val m i j = if i = j then v.getD i 0 else 0 := by
  unfold diagOf
  obtain ⟨m0, a1, a2, a3, a4, a5⟩ := make_ok (M := M) hv hv
  rw [a1, ok_bind]
  obtain ⟨m, e1, e2, e3, e4, e5⟩ := loop_set m0 a2 (fun i _ => v.getD i 0) 0 v.length (fun q => (q, q))
    (fun q _ hq => by rw [a3, a4]; exact ⟨hq, hq⟩) (fun i m => do
      let x ← vecAt v i
      put m i i x) (fun q r _ hq => by rw [vecAt_getD hq 0]; rfl)
  refine ⟨m, e1, e2, by rw [e3, a3], by rw [e4, a4], fun i j hi hj => ?_⟩
  by_cases hij : i = j
  · rw [if_pos hij]
    exact (e5 i j).1 ⟨i, by omega, by omega, by rw [hij]⟩
  · rw [if_neg hij, (e5 i j).2, a5]
    rintro ⟨q, _, _, hq⟩
    simp only [Prod.mk.injEq] at hq
    omega

theorem diagVec_ok {m : M} (hm : Valid m) :
    diagVec m = .ok ((List.range (min (rows m) (cols m))).map fun i => val m i i) := by
  unfold diagVec
  rw [Vec.mk_ok, ok_bind]
  have hl : (List.replicate (min (rows m) (cols m)) (0 : T)).length = min (rows m) (cols m) := by simp
  have := forRange_upd (List.replicate (min (rows m) (cols m)) (0 : T)) (fun i _ => val m i i)
    (fun i v => do
      let x ← get m i i
      vecSet v i x) (by
      intro i w x hi hw hx
      rw [hl] at hi hw
      rw [get_ok hm (by omega) (by omega), ok_bind, vecSet_ok (by omega)])
  rw [hl] at this
  rw [this]
  congr 1
  apply List.ext_getElem <;> simp

theorem wadd_eq {i k : Nat} (h : i + k < 2 ^ 64) : wadd i k = i + k := Nat.mod_eq_of_lt h

theorem tril_ok {m : M} (hm : Valid m) {k : Int} (hk : k.natAbs < 2 ^ 62) (hr : rows m < 2 ^ 63) (hc : cols m < 2 ^ 63) :
    ∃ r : M, tril m k = .ok r ∧ Valid r ∧ rows r = rows m ∧ cols r = cols m ∧
      ∀ i j, i < rows m → j < cols m → val r i j = if (j : Int) ≤ (i : Int) + k then val m i j else 0 := by
  unfold tril
  obtain ⟨m0, a1, a2, a3, a4, a5⟩ := make_ok (M := M) (rows_pos hm) (cols_pos hm)
  rw [a1, ok_bind]
  split
  case isTrue h0 =>
    obtain ⟨r, e1, e2, e3, e4, e5⟩ := loop_set2 m0 a2 (val m) (rows m) (fun _ => 0)
      (fun i => min (wadd i k.natAbs + 1) (cols m)) (fun i j => (i, j))
      (fun i j hi _ hj => by rw [a3, a4]; simp only; omega) _ (fun i j r => do
        let x ← get m i j
        put r i j x) (fun i r _ => rfl)
      (fun i j r hi _ hj => by rw [get_ok hm hi (by omega), ok_bind])
    refine ⟨r, e1, e2, by rw [e3, a3], by rw [e4, a4], fun i j hi hj => ?_⟩
    split
    case isTrue h =>
      refine (e5 i j).1 ⟨i, j, hi, Nat.zero_le _, ?_, rfl⟩
      rw [wadd_eq (by omega)]; omega
    case isFalse h =>
      rw [(e5 i j).2, a5]
      rintro ⟨o, q, h1, h2, h3, h4⟩
      simp only [Prod.mk.injEq] at h4
      obtain ⟨rfl, rfl⟩ := h4
      rw [wadd_eq (by omega)] at h3
      omega
  case isFalse h0 =>
    obtain ⟨r, e1, e2, e3, e4, e5⟩ := loop_set2 m0 a2 (val m) (cols m) (fun j => wadd j k.natAbs)
      (fun _ => rows m) (fun j i => (i, j))
      (fun j i hj _ hi => by rw [a3, a4]; exact ⟨hi, hj⟩) _ (fun j i r => do
        let x ← get m i j
        put r i j x) (fun i r _ => rfl)
      (fun j i r hj _ hi => by rw [get_ok hm hi hj, ok_bind])
    refine ⟨r, e1, e2, by rw [e3, a3], by rw [e4, a4], fun i j hi hj => ?_⟩
    split
    case isTrue h =>
      refine (e5 i j).1 ⟨j, i, hj, ?_, hi, rfl⟩
      rw [wadd_eq (by omega)]; omega
    case isFalse h =>
      rw [(e5 i j).2, a5]
      rintro ⟨o, q, h1, h2, h3, h4⟩
      simp only [Prod.mk.injEq] at h4
      obtain ⟨rfl, rfl⟩ := h4
      rw [wadd_eq (by omega)] at h2
      omega

theorem triu_ok {m : M} (hm : Valid m) {k : Int} (hk : k.natAbs < 2 ^ 62) (hr : rows m < 2 ^ 63) (hc : cols m < 2 ^ 63) :
    ∃ r : M, triu m k = .ok r ∧ Valid r ∧ rows r = rows m ∧ cols r = cols m ∧
      ∀ i j, i < rows m → j < cols m → val r i j = if (i : Int) + k ≤ (j : Int) then val m i j else 0 := by
  unfold triu
  obtain ⟨m0, a1, a2, a3, a4, a5⟩ := make_ok (M := M) (rows_pos hm) (cols_pos hm)
  rw [a1, ok_bind]
  split
  case isTrue h0 =>
    obtain ⟨r, e1, e2, e3, e4, e5⟩ := loop_set2 m0 a2 (val m) (rows m) (fun i => wadd i k.natAbs)
      (fun _ => cols m) (fun i j => (i, j))
      (fun i j hi _ hj => by rw [a3, a4]; exact ⟨hi, hj⟩) _ (fun i j r => do
        let x ← get m i j
        put r i j x) (fun i r _ => rfl)
      (fun i j r hi _ hj => by rw [get_ok hm hi hj, ok_bind])
    refine ⟨r, e1, e2, by rw [e3, a3], by rw [e4, a4], fun i j hi hj => ?_⟩
    split
    case isTrue h =>
      refine (e5 i j).1 ⟨i, j, hi, ?_, hj, rfl⟩
      rw [wadd_eq (by omega)]; omega
    case isFalse h =>
      rw [(e5 i j).2, a5]
      rintro ⟨o, q, h1, h2, h3, h4⟩
      simp only [Prod.mk.injEq] at h4
      obtain ⟨rfl, rfl⟩ := h4
      rw [wadd_eq (by omega)] at h2
      omega
  case isFalse h0 =>
    obtain ⟨r, e1, e2, e3, e4, e5⟩ := loop_set2 m0 a2 (val m) (cols m) (fun _ => 0)
      (fun j => min (wadd j k.natAbs + 1) (rows m)) (fun j i => (i, j))
      (fun j i hj _ hi => by rw [a3, a4]; simp only; omega) _ (fun j i r => do
        let x ← get m i j
        put r i j x) (fun i r _ => rfl)
      (fun j i r hj _ hi => by rw [get_ok hm (by omega) hj, ok_bind])
    refine ⟨r, e1, e2, by rw [e3, a3], by rw [e4, a4], fun i j hi hj => ?_⟩
    split
    case isTrue h =>
      refine (e5 i j).1 ⟨j, i, hj, Nat.zero_le _, ?_, rfl⟩
      rw [wadd_eq (by omega)]; omega
    case isFalse h =>
      rw [(e5 i j).2, a5]
      rintro ⟨o, q, h1, h2, h3, h4⟩
      simp only [Prod.mk.injEq] at h4
      obtain ⟨rfl, rfl⟩ := h4
      rw [wadd_eq (by omega)] at h3
      omega

theorem hilbert_ok {d : Nat} (hd : 0 < d) :
    ∃ m : M, hilbert d = .ok m ∧ Valid m ∧ rows m = d ∧ cols m = d ∧
      ∀ i j, i < d → j < d → val m i j = 1 / ((i : T) + (j : T) + 1) := by
  unfold hilbert
  obtain ⟨m0, a1, a2, a3, a4, a5⟩ := make_ok (M := M) hd hd
  rw [a1, ok_bind]
  obtain ⟨m, e1, e2, e3, e4, e5⟩ := loop_set2 m0 a2 (fun i j => 1 / ((i : T) + (j : T) + 1)) d (fun _ => 0)
    (fun _ => d) (fun i j => (i, j)) (fun i j hi _ hj => by rw [a3, a4]; exact ⟨hi, hj⟩) _ _ (fun i r _ => rfl)
    (fun i j r hi _ hj => rfl)
  exact ⟨m, e1, e2, by rw [e3, a3], by rw [e4, a4], fun i j hi hj =>
    (e5 i j).1 ⟨i, j, hi, Nat.zero_le _, hj, rfl⟩⟩

/-- the exact entry of the inverse Hilbert matrix without the sign -/
def ihEntry (d i j : Nat) : Nat :=
  (i + j + 1) * (d + i).choose (d - j - 1) * (d + j).choose (d - i - 1) * (i + j).choose i * (i + j).choose i

/-- all intermediate integers of `inv_hilbert(d)` fit into `W` bits -/
def IHFits (W d : Nat) : Prop :=
  4 * d < 2 ^ W ∧ ∀ i < d, ∀ j < d, ihEntry d i j < 2 ^ W ∧ (d + i) * (d + i).choose (d - j - 1) < 2 ^ W

theorem ihEntry_pos {d i j : Nat} (hi : i < d) (hj : j < d) : (i + j + 1) * (i + j).choose i ≤ ihEntry d i j := by
  unfold ihEntry
  have h1 : 0 < (d + i).choose (d - j - 1) := Nat.choose_pos (by omega)
  have h2 : 0 < (d + j).choose (d - i - 1) := Nat.choose_pos (by omega)
  have h3 : 0 < (i + j).choose i := Nat.choose_pos (by omega)
  calc (i + j + 1) * (i + j).choose i = (i + j + 1) * 1 * 1 * 1 * (i + j).choose i := by ring
    _ ≤ _ := by gcongr <;> omega

theorem invHilbertEntry_ok {W d i j : Nat} (hi : i < d) (hj : j < d) (hf : IHFits W d) :
    invHilbertEntry W d i j = .ok ((-1) ^ (i + j), ihEntry d i j) := by
  obtain ⟨hw, hf⟩ := hf
  unfold invHilbertEntry
  have s1 : MathU.subW W d j = d - j := MathU.subW_of_le (by omega) (by omega)
  have s2 : MathU.subW W d i = d - i := MathU.subW_of_le (by omega) (by omega)
  have e1 : MathU.subW W (MathU.subW W d j) 1 = d - j - 1 := by
    rw [s1, MathU.subW_of_le (by omega) (by omega)]
  have e2 : MathU.subW W (MathU.subW W d i) 1 = d - i - 1 := by
    rw [s2, MathU.subW_of_le (by omega) (by omega)]
  rw [e1, e2]
  have hE := (hf i hi j hj).1
  have hv : MathU.binom W (i + j) i = .ok ((i + j).choose i) := by
    refine MathU.binom_ok (by omega) (by omega) (lt_of_le_of_lt ?_ (lt_of_le_of_lt (ihEntry_pos hi hj) hE))
    gcongr
    omega
  have hb1 : MathU.binom W (d + i) (d - j - 1) = .ok ((d + i).choose (d - j - 1)) := by
    refine MathU.binom_ok (by omega) (by omega) (lt_of_le_of_lt ?_ (hf i hi j hj).2)
    gcongr
    omega
  have hb2 : MathU.binom W (d + j) (d - i - 1) = .ok ((d + j).choose (d - i - 1)) := by
    refine MathU.binom_ok (by omega) (by omega) (lt_of_le_of_lt ?_ (hf j hj i hi).2)
    gcongr
    omega
  rw [hv, ok_bind, hb1, ok_bind, hb2, ok_bind]
  simp only [pure_eq_ok]
  rw [MathU.signPow_eq, Int.natAbs_natCast]
  have : ihEntry d i j % 2 ^ W = ihEntry d i j := Nat.mod_eq_of_lt hE
  unfold ihEntry at this ⊢
  rw [this]

theorem invHilbert_ok {W d : Nat} (hd : 0 < d) (hf : IHFits W d) :
    ∃ m : M, invHilbert W d = .ok m ∧ Valid m ∧ rows m = d ∧ cols m = d ∧
      ∀ i j, i < d → j < d → val m i j = (-1 : T) ^ (i + j) * (ihEntry d i j : T) := by
  unfold invHilbert
  obtain ⟨m0, a1, a2, a3, a4, a5⟩ := make_ok (M := M) hd hd
  rw [a1, ok_bind]
  obtain ⟨m, e1, e2, e3, e4, e5⟩ := loop_set2 m0 a2 (fun i j => (-1 : T) ^ (i + j) * (ihEntry d i j : T)) d (fun _ => 0)
    (fun _ => d) (fun i j => (i, j)) (fun i j hi _ hj => by rw [a3, a4]; exact ⟨hi, hj⟩) _ (fun i j m => do
      let e ← invHilbertEntry W d i j
      put m i j ((e.1 : T) * (e.2 : T))) (fun i r _ => rfl)
    (fun i j r hi _ hj => by rw [invHilbertEntry_ok hi hj hf, ok_bind]; simp)
  exact ⟨m, e1, e2, by rw [e3, a3], by rw [e4, a4], fun i j hi hj =>
    (e5 i j).1 ⟨i, j, hi, Nat.zero_le _, hj, rfl⟩⟩
end Construct
end NS

/-
The standard model of floating-point arithmetic (unbounded exponent range: no overflow, underflow, infinities or NaN) and the
bookkeeping of products of factors `1 + d`, `|d| <= u`.
-/
import Mathlib.Algebra.Order.Field.Basic
import Mathlib.Algebra.Order.Ring.Abs
import Mathlib.Algebra.BigOperators.Ring.Finset
import Mathlib.Algebra.Order.BigOperators.Group.Finset
import Mathlib.Tactic.Ring
import Mathlib.Tactic.Linarith
import Mathlib.Tactic.FieldSimp
import Mathlib.Tactic.Positivity
import Mathlib.Data.Rat.Floor
import Mathlib.Data.Int.Log
import Mathlib.Algebra.Order.Round
import Mathlib.Algebra.Order.Ring.Pow

set_option linter.unusedSectionVars false
set_option linter.unusedSimpArgs false

namespace NS.Rounding

/-! ## Specification -/

/-- The number type `F` of the program computes with relative error at most `u`: `fl a` is the number meant by `a`, every operation
returns the exact result up to a relative error `u`, and the exact result if that is a number of `F`. -/
structure Std {F K : Type} [Zero F] [One F] [Add F] [Sub F] [Mul F] [Div F] [Field K] [LinearOrder K] [IsStrictOrderedRing K]
    (fl : F → K) (u : K) : Prop where
  u_nonneg : 0 ≤ u
  u_lt : u < 1
  inj : Function.Injective fl
  zero : fl 0 = 0
  one : fl 1 = 1
  add : ∀ a b, |fl (a + b) - (fl a + fl b)| ≤ u * |fl a + fl b|
  sub : ∀ a b, |fl (a - b) - (fl a - fl b)| ≤ u * |fl a - fl b|
  mul : ∀ a b, |fl (a * b) - fl a * fl b| ≤ u * |fl a * fl b|
  div : ∀ a b, fl b ≠ 0 → |fl (a / b) - fl a / fl b| ≤ u * |fl a / fl b|
  add_exact : ∀ a b c, fl a + fl b = fl c → a + b = c
  sub_exact : ∀ a b c, fl a - fl b = fl c → a - b = c
  mul_exact : ∀ a b c, fl a * fl b = fl c → a * b = c
  div_exact : ∀ a b c, fl b ≠ 0 → fl a / fl b = fl c → a / b = c

section
variable {K : Type} [Field K] [LinearOrder K] [IsStrictOrderedRing K]

/-- the error constant after `n` roundings: `1/(1-u)^n - 1`, see `gam_le` -/
def gam (u : K) (n : Nat) : K := ((1 - u) ^ n)⁻¹ - 1

/-- `t` is within the bounds of a product of `n` factors `(1+d)` or `1/(1+d)` with `|d| <= u`. -/
def Th (u : K) (n : Nat) (t : K) : Prop := (1 - u) ^ n ≤ t ∧ t ≤ ((1 - u) ^ n)⁻¹

variable {u : K} {n m : Nat} {s t : K}

theorem Th.pos (hu : u < 1) (h : Th u n t) : 0 < t := (pow_pos (sub_pos.2 hu) n).trans_le h.1

theorem Th.one (h0 : 0 ≤ u) (hu : u < 1) : Th u n 1 := by
  have h1 : (1 - u) ^ n ≤ 1 := pow_le_one₀ (sub_nonneg.2 hu.le) (by linarith)
  exact ⟨h1, (one_le_inv₀ (pow_pos (sub_pos.2 hu) n)).2 h1⟩

theorem Th.mono (h0 : 0 ≤ u) (hu : u < 1) (h : Th u n t) (hnm : n ≤ m) : Th u m t := by
  have h1 : (1 - u) ^ m ≤ (1 - u) ^ n := pow_le_pow_of_le_one (sub_nonneg.2 hu.le) (by linarith) hnm
  exact ⟨h1.trans h.1, h.2.trans (inv_anti₀ (pow_pos (sub_pos.2 hu) m) h1)⟩

theorem Th.mul (hu : u < 1) (hs : Th u n s) (ht : Th u m t) : Th u (n + m) (s * t) := by
  have p := sub_pos.2 hu
  constructor
  · rw [pow_add]
    exact mul_le_mul hs.1 ht.1 (pow_pos p m).le (hs.pos hu).le
  · rw [pow_add, mul_inv]
    exact mul_le_mul hs.2 ht.2 (ht.pos hu).le (inv_pos.2 (pow_pos p n)).le

theorem Th.inv (hu : u < 1) (h : Th u n t) : Th u n t⁻¹ := by
  have p := pow_pos (sub_pos.2 hu) n
  refine ⟨?_, inv_anti₀ p h.1⟩
  rw [← inv_inv ((1 - u) ^ n)]
  exact inv_anti₀ (h.pos hu) h.2

theorem Th.of_abs (h0 : 0 ≤ u) (hu : u < 1) {d : K} (h : |d| ≤ u) : Th u 1 (1 + d) := by
  obtain ⟨h1, h2⟩ := abs_le.1 h
  rw [Th, pow_one]
  refine ⟨by linarith, ?_⟩
  rw [le_inv_comm₀ (by linarith [sub_pos.2 hu]) (sub_pos.2 hu)]
  rw [inv_eq_one_div, le_div_iff₀ (by linarith)]
  nlinarith

/-- A product of `n` rounding factors differs from one by at most `gam u n`. -/
theorem Th.abs_sub (hu : u < 1) (h : Th u n t) : |t - 1| ≤ gam u n := by
  have p := pow_pos (sub_pos.2 hu) n
  rw [abs_le]
  refine ⟨?_, sub_le_sub_right h.2 1⟩
  unfold gam
  have : 2 ≤ ((1 - u) ^ n)⁻¹ + (1 - u) ^ n := by
    set x := (1 - u) ^ n with hx
    have : (x - 1) ^ 2 * x⁻¹ ≥ 0 := mul_nonneg (sq_nonneg _) (inv_pos.2 p).le
    have e : (x - 1) ^ 2 * x⁻¹ = x - 2 + x⁻¹ := by field_simp; ring
    rw [e] at this
    linarith
  linarith [h.1]

theorem gam_nonneg (h0 : 0 ≤ u) (hu : u < 1) : 0 ≤ gam u n := by
  have := (Th.one (n := n) h0 hu).abs_sub hu
  simpa using this

theorem gam_mono (h0 : 0 ≤ u) (hu : u < 1) (h : n ≤ m) : gam u n ≤ gam u m :=
  sub_le_sub_right (inv_anti₀ (pow_pos (sub_pos.2 hu) m) (pow_le_pow_of_le_one (sub_nonneg.2 hu.le) (by linarith) h)) 1

/-- The usual form of the constant: at most `n*u/(1-n*u)`. -/
theorem gam_le (h0 : 0 ≤ u) (hu : (n : K) * u < 1) : gam u n ≤ n * u / (1 - n * u) := by
  rcases Nat.eq_zero_or_pos n with rfl | hn
  · simp [gam]
  have hn' : (1 : K) ≤ n := by exact_mod_cast hn
  have hu1 : u < 1 := lt_of_le_of_lt (le_mul_of_one_le_left h0 hn') hu
  have hb : 1 - n * u ≤ (1 - u) ^ n := by
    have := one_add_mul_le_pow (a := -u) (by linarith) n
    simpa [sub_eq_add_neg] using this
  have hp : 0 < 1 - n * u := by linarith
  unfold gam
  rw [le_div_iff₀ hp, sub_mul, one_mul]
  have : ((1 - u) ^ n)⁻¹ * (1 - n * u) ≤ 1 := by
    rw [inv_mul_le_iff₀ (pow_pos (sub_pos.2 hu1) n), mul_one]
    exact hb
  linarith
end

/-! ## One operation -/
section
variable {F K : Type} [Zero F] [One F] [Add F] [Sub F] [Mul F] [Div F] [Field K] [LinearOrder K] [IsStrictOrderedRing K]
variable {fl : F → K} {u : K}

theorem th_of_err (h0 : 0 ≤ u) (hu : u < 1) {x y : K} (h : |x - y| ≤ u * |y|) : ∃ t, Th u 1 t ∧ x = y * t := by
  by_cases hy : y = 0
  · subst hy
    rw [abs_zero, mul_zero, sub_zero] at h
    exact ⟨1, Th.one h0 hu, by rw [abs_nonpos_iff.1 h]; ring⟩
  · refine ⟨1 + (x - y) / y, Th.of_abs h0 hu ?_, by field_simp; ring⟩
    rw [abs_div, div_le_iff₀ (abs_pos.2 hy)]
    exact h

namespace Std
variable (h : Std fl u)
include h
theorem add_th (a b : F) : ∃ t, Th u 1 t ∧ fl (a + b) = (fl a + fl b) * t := th_of_err h.u_nonneg h.u_lt (h.add a b)
theorem sub_th (a b : F) : ∃ t, Th u 1 t ∧ fl (a - b) = (fl a - fl b) * t := th_of_err h.u_nonneg h.u_lt (h.sub a b)
theorem mul_th (a b : F) : ∃ t, Th u 1 t ∧ fl (a * b) = fl a * fl b * t := th_of_err h.u_nonneg h.u_lt (h.mul a b)
theorem div_th (a b : F) (hb : fl b ≠ 0) : ∃ t, Th u 1 t ∧ fl (a / b) = fl a / fl b * t :=
  th_of_err h.u_nonneg h.u_lt (h.div a b hb)
theorem eq_zero {a : F} : fl a = 0 ↔ a = 0 := ⟨fun e => h.inj (e.trans h.zero.symm), fun e => e ▸ h.zero⟩
theorem zero_add (a : F) : 0 + a = a := h.add_exact _ _ _ (by rw [h.zero, _root_.zero_add])
theorem one_mul (a : F) : 1 * a = a := h.mul_exact _ _ _ (by rw [h.one, _root_.one_mul])
theorem zero_mul (a : F) : 0 * a = 0 := h.mul_exact _ _ _ (by rw [h.zero, MulZeroClass.zero_mul])
theorem th_one {n : Nat} : Th u n (1 : K) := Th.one h.u_nonneg h.u_lt
theorem th_mono {n m : Nat} {t : K} (ht : Th u n t) (hnm : n ≤ m) : Th u m t := ht.mono h.u_nonneg h.u_lt hnm

/-- Accumulation `s += f(e)` over a sequence with distinct keys. -/
theorem sumFold {α : Type} (key : α → Nat) (f : α → F) : ∀ (l : List α) (s : F), l.Pairwise (fun a b => key a ≠ key b) →
    ∃ (t₀ : K) (t : Nat → K), Th u l.length t₀ ∧ (∀ j, Th u l.length (t j)) ∧
      fl (l.foldl (fun s e => s + f e) s) = fl s * t₀ + (l.map fun e => fl (f e) * t (key e)).sum
  | [], s, _ => ⟨1, fun _ => 1, h.th_one, fun _ => h.th_one, by simp⟩
  | e :: l, s, hl => by
      obtain ⟨h1, h2⟩ := List.pairwise_cons.1 hl
      obtain ⟨t₀, t, a1, a2, a3⟩ := sumFold key f l (s + f e) h2
      obtain ⟨d, d1, d2⟩ := h.add_th s (f e)
      have hd : Th u (l.length + 1) (d * t₀) := by rw [Nat.add_comm]; exact d1.mul h.u_lt a1
      refine ⟨d * t₀, fun j => if j = key e then d * t₀ else t j, hd, fun j => ?_, ?_⟩
      · show Th u (l.length + 1) (if j = key e then d * t₀ else t j)
        split
        · exact hd
        · exact h.th_mono (a2 j) (Nat.le_succ _)
      · simp only [List.foldl_cons, a3, d2, List.map_cons, List.sum_cons, if_true]
        have : l.map (fun e' => fl (f e') * if key e' = key e then d * t₀ else t (key e'))
            = l.map (fun e' => fl (f e') * t (key e')) := by
          apply List.map_congr_left
          intro e' he'
          rw [if_neg (h1 e' he').symm]
        rw [this]; ring

/-- Accumulation from zero: one rounding less. -/
theorem sumFold_zero {α : Type} (key : α → Nat) (f : α → F) (l : List α) (hl : l.Pairwise (fun a b => key a ≠ key b)) :
    ∃ (t : Nat → K), (∀ j, Th u (l.length - 1) (t j)) ∧
      fl (l.foldl (fun s e => s + f e) 0) = (l.map fun e => fl (f e) * t (key e)).sum := by
  cases l with
  | nil => exact ⟨fun _ => 1, fun _ => h.th_one, by simp [h.zero]⟩
  | cons e l =>
    obtain ⟨h1, h2⟩ := List.pairwise_cons.1 hl
    obtain ⟨t₀, t, a1, a2, a3⟩ := h.sumFold key f l (f e) h2
    refine ⟨fun j => if j = key e then t₀ else t j, fun j => ?_, ?_⟩
    · show Th u l.length (if j = key e then t₀ else t j)
      split
      · exact a1
      · exact a2 j
    · simp only [List.foldl_cons, h.zero_add, a3, List.map_cons, List.sum_cons, if_true]
      congr 2
      apply List.map_congr_left
      intro e' he'
      rw [if_neg (h1 e' he').symm]

/-- Accumulation `s -= f(e)`, solved for the start value. -/
theorem subFold {α : Type} (key : α → Nat) (f : α → F) : ∀ (l : List α) (s : F), l.Pairwise (fun a b => key a ≠ key b) →
    ∃ (t₀ : K) (t : Nat → K), Th u l.length t₀ ∧ (∀ j, Th u (l.length - 1) (t j)) ∧
      fl s = fl (l.foldl (fun s e => s - f e) s) * t₀ + (l.map fun e => fl (f e) * t (key e)).sum
  | [], s, _ => ⟨1, fun _ => 1, h.th_one, fun _ => h.th_one, by simp⟩
  | e :: l, s, hl => by
      obtain ⟨h1, h2⟩ := List.pairwise_cons.1 hl
      obtain ⟨t₀, t, a1, a2, a3⟩ := subFold key f l (s - f e) h2
      obtain ⟨d, d1, d2⟩ := h.sub_th s (f e)
      have hdp := (d1.pos h.u_lt).ne'
      have hd : Th u (l.length + 1) (d⁻¹ * t₀) := by rw [Nat.add_comm]; exact (d1.inv h.u_lt).mul h.u_lt a1
      refine ⟨d⁻¹ * t₀, fun j => if j = key e then 1 else if l = [] then 1 else d⁻¹ * t j, hd, fun j => ?_, ?_⟩
      · show Th u l.length (if j = key e then 1 else if l = [] then 1 else d⁻¹ * t j)
        split
        · exact h.th_one
        · split
          · exact h.th_one
          · rename_i hne
            have : 0 < l.length := List.length_pos_iff.2 hne
            have e1 : l.length = 1 + (l.length - 1) := by omega
            rw [e1]
            exact (d1.inv h.u_lt).mul h.u_lt (a2 j)
      · simp only [List.foldl_cons, List.map_cons, List.sum_cons, if_true]
        have e1 : l.map (fun e' => fl (f e') * if key e' = key e then 1 else if l = [] then 1 else d⁻¹ * t (key e'))
            = l.map (fun e' => d⁻¹ * (fl (f e') * t (key e'))) := by
          apply List.map_congr_left
          intro e' he'
          rw [if_neg (h1 e' he').symm, if_neg (List.ne_nil_of_mem he')]; ring
        rw [e1, List.sum_map_mul_left]
        have e2 : fl s = d⁻¹ * fl (s - f e) + fl (f e) := by rw [d2]; field_simp; ring
        rw [e2, a3]; ring
end Std
end

/-! ## A concrete arithmetic: `p`-bit binary floating-point numbers, round to nearest -/

section
variable {K : Type} [Field K] [LinearOrder K] [IsStrictOrderedRing K] [FloorRing K]

/-- the spacing exponent of `x` -/
def ex (p : Nat) (x : K) : ℤ := Int.log 2 |x| - p + 1

/-- round to nearest with `p` significant bits -/
def rn (p : Nat) (x : K) : K := round (x / 2 ^ ex p x) * 2 ^ ex p x

theorem rn_err (p : Nat) (x : K) : |rn p x - x| ≤ (1 / 2) ^ p * |x| := by
  by_cases hx : x = 0
  · subst hx; simp [rn]
  have h2 : (0 : K) < 2 ^ ex p x := zpow_pos (by norm_num) _
  have h1 : |(round (x / 2 ^ ex p x) : K) - x / 2 ^ ex p x| ≤ 1 / 2 := by
    rw [abs_sub_comm]; exact abs_sub_round _
  have e1 : rn p x - x = ((round (x / 2 ^ ex p x) : K) - x / 2 ^ ex p x) * 2 ^ ex p x := by
    unfold rn; field_simp
  rw [e1, abs_mul, abs_of_pos h2]
  have hlog : (2 : K) ^ Int.log 2 |x| ≤ |x| := by
    have := Int.zpow_log_le_self (b := 2) (by norm_num) (abs_pos.2 hx)
    exact_mod_cast this
  have e2 : (2 : K) ^ ex p x = 2 ^ Int.log 2 |x| * (1 / 2) ^ p * 2 := by
    unfold ex
    rw [zpow_add₀ (by norm_num), zpow_sub₀ (by norm_num)]
    simp; ring
  calc _ ≤ 1 / 2 * 2 ^ ex p x := mul_le_mul_of_nonneg_right h1 h2.le
    _ = 2 ^ Int.log 2 |x| * (1 / 2) ^ p := by rw [e2]; ring
    _ ≤ |x| * (1 / 2) ^ p := mul_le_mul_of_nonneg_right hlog (by positivity)
    _ = _ := mul_comm _ _

theorem ex_le (p : Nat) {m e : ℤ} {x : K} (hx : x ≠ 0) (hm : |m| < 2 ^ p) (h : x = m * 2 ^ e) : ex p x ≤ e := by
  have h2 : (0 : K) < 2 ^ e := zpow_pos (by norm_num) _
  have h1 : |x| < 2 ^ (p + e : ℤ) := by
    rw [h, abs_mul, abs_of_pos h2, zpow_add₀ (by norm_num)]
    refine mul_lt_mul_of_pos_right ?_ h2
    rw [zpow_natCast]; exact_mod_cast hm
  have := (Int.lt_zpow_iff_log_lt (b := 2) (by norm_num) (abs_pos.2 hx)).1 (by exact_mod_cast h1)
  unfold ex; omega

/-- the numbers with `p` significant bits -/
def IsBin (p : Nat) (x : K) : Prop := ∃ m e : ℤ, |m| < 2 ^ p ∧ x = m * 2 ^ e

theorem rn_exact {p : Nat} {x : K} (h : IsBin p x) : rn p x = x := by
  by_cases hx : x = 0
  · subst hx; simp [rn]
  obtain ⟨m, e, hm, he⟩ := h
  have hle := ex_le p hx hm he
  have h2 : (0 : K) < 2 ^ ex p x := zpow_pos (by norm_num) _
  have : x / 2 ^ ex p x = ((m * 2 ^ (e - ex p x).toNat : ℤ) : K) := by
    have e1 : (2 : K) ^ e = 2 ^ (e - ex p x).toNat * 2 ^ ex p x := by
      rw [← zpow_natCast, ← zpow_add₀ (by norm_num)]
      congr 1
      rw [Int.toNat_of_nonneg (by omega)]; ring
    rw [div_eq_iff h2.ne']
    conv_lhs => rw [he, e1]
    push_cast; ring
  unfold rn
  rw [this, round_intCast, ← this]
  field_simp

theorem round_mono' {x y : K} (h : x ≤ y) : round x ≤ round y := by
  rw [round_eq, round_eq]
  exact Int.floor_le_floor (by linarith)

theorem rn_bin {p : Nat} (hp : 0 < p) (x : K) : IsBin p (rn p x) := by
  by_cases hx : x = 0
  · subst hx; exact ⟨0, 0, by simp, by simp [rn]⟩
  have h2 : (0 : K) < 2 ^ ex p x := zpow_pos (by norm_num) _
  have h1 : |x / 2 ^ ex p x| < 2 ^ p := by
    rw [abs_div, abs_of_pos h2, div_lt_iff₀ h2, ← zpow_natCast, ← zpow_add₀ (by norm_num)]
    have : (p : ℤ) + ex p x = Int.log 2 |x| + 1 := by unfold ex; ring
    rw [this]
    have := Int.lt_zpow_succ_log_self (b := 2) (by norm_num) |x|
    exact_mod_cast this
  have h3 : |round (x / 2 ^ ex p x)| ≤ 2 ^ p := by
    obtain ⟨a, b⟩ := abs_lt.1 h1
    rw [abs_le]
    constructor
    · have : round (-(2 ^ p : K)) ≤ round (x / 2 ^ ex p x) := round_mono' a.le
      have e : (-(2 ^ p : K)) = ((-(2 ^ p) : ℤ) : K) := by push_cast; rfl
      rwa [e, round_intCast] at this
    · have : round (x / 2 ^ ex p x) ≤ round ((2 ^ p : K)) := round_mono' b.le
      have e : ((2 ^ p : K)) = (((2 ^ p) : ℤ) : K) := by push_cast; rfl
      rwa [e, round_intCast] at this
  rcases h3.lt_or_eq with h3 | h3
  · exact ⟨_, _, h3, rfl⟩
  · refine ⟨(round (x / 2 ^ ex p x)).sign, ex p x + p, ?_, ?_⟩
    · have : round (x / 2 ^ ex p x) ≠ 0 := by
        intro h0
        rw [h0] at h3
        have : (0 : ℤ) < 2 ^ p := by positivity
        rw [abs_zero] at h3; omega
      rw [Int.abs_sign_of_ne_zero this]
      exact one_lt_pow₀ (by norm_num) hp.ne'
    · rw [zpow_add₀ (by norm_num), zpow_natCast]
      have e1 : (round (x / 2 ^ ex p x) : K) = (round (x / 2 ^ ex p x)).sign * 2 ^ p := by
        have := Int.sign_mul_abs (round (x / 2 ^ ex p x))
        rw [h3] at this
        conv_lhs => rw [← this]
        push_cast; rfl
      unfold rn
      rw [e1]; ring

end

/-- binary floating-point numbers with `p + 1` significant bits and unbounded exponent -/
structure Bin (p : Nat) where
  toRat : ℚ
  bin : IsBin (p + 1) toRat

namespace Bin
variable {p : Nat}
theorem ext {a b : Bin p} (h : a.toRat = b.toRat) : a = b := by cases a; cases b; simp_all
def rnd (x : ℚ) : Bin p := ⟨rn (p + 1) x, rn_bin (Nat.succ_pos p) x⟩
instance : Zero (Bin p) := ⟨⟨0, 0, 0, by simp, by simp⟩⟩
instance : One (Bin p) := ⟨⟨1, 1, 0, by
  rw [abs_one]; exact one_lt_pow₀ (by norm_num) (Nat.succ_ne_zero p), by simp⟩⟩
instance : Add (Bin p) := ⟨fun a b => rnd (a.toRat + b.toRat)⟩
instance : Sub (Bin p) := ⟨fun a b => rnd (a.toRat - b.toRat)⟩
instance : Mul (Bin p) := ⟨fun a b => rnd (a.toRat * b.toRat)⟩
instance : Div (Bin p) := ⟨fun a b => rnd (a.toRat / b.toRat)⟩
instance : Neg (Bin p) := ⟨fun a => ⟨-a.toRat, by
  obtain ⟨m, e, h1, h2⟩ := a.bin
  exact ⟨-m, e, by rwa [abs_neg], by rw [h2]; push_cast; ring⟩⟩⟩
instance : DecidableEq (Bin p) := fun a b =>
  if h : a.toRat = b.toRat then .isTrue (ext h) else .isFalse fun e => h (e ▸ rfl)

/-- The hypotheses of the rounding theorems hold for binary floating-point numbers of every precision; `double` without overflow and
underflow is `p = 52`, `u = 2^-53`. -/
theorem std (p : Nat) : Std (F := Bin p) (K := ℚ) Bin.toRat ((1 / 2) ^ (p + 1)) where
  u_nonneg := by positivity
  u_lt := pow_lt_one₀ (by norm_num) (by norm_num) (Nat.succ_ne_zero p)
  inj _ _ h := ext h
  zero := rfl
  one := rfl
  add a b := rn_err _ _
  sub a b := rn_err _ _
  mul a b := rn_err _ _
  div a b _ := rn_err _ _
  add_exact a b c h := ext ((rn_exact (h ▸ c.bin)).trans h)
  sub_exact a b c h := ext ((rn_exact (h ▸ c.bin)).trans h)
  mul_exact a b c h := ext ((rn_exact (h ▸ c.bin)).trans h)
  div_exact a b c _ h := ext ((rn_exact (h ▸ c.bin)).trans h)
end Bin

/-- exact arithmetic is the case `u = 0` -/
theorem std_exact {K : Type} [Field K] [LinearOrder K] [IsStrictOrderedRing K] : Std (F := K) (K := K) id 0 where
  u_nonneg := le_refl _
  u_lt := one_pos
  inj := Function.injective_id
  zero := rfl
  one := rfl
  add a b := by simp
  sub a b := by simp
  mul a b := by simp
  div a b _ := by simp
  add_exact a b c h := h
  sub_exact a b c h := h
  mul_exact a b c h := h
  div_exact a b c _ h := h
end NS.Rounding

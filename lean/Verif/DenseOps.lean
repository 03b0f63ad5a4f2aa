/-
Dense matrices: products, reductions, comparison, iteration, construction from lists.
-/
import Verif.Dense
import Mathlib.Algebra.BigOperators.Group.Finset.Sigma
import Mathlib.Algebra.Ring.Basic

set_option linter.unusedSectionVars false
set_option linter.unusedSimpArgs false

namespace NS
namespace Dense
variable {T : Type}

theorem data_entry [Zero T] {d : Dense T} (h : WF d) {k : Nat} (hk : k < d.size) :
    d.data[k]? = some (d.val (k / d.columns) (k % d.columns)) ∧ k / d.columns < d.rows ∧ k % d.columns < d.columns := by
  have hc : 0 < d.columns := h.2.2
  have hi : k / d.columns < d.rows := Nat.div_lt_of_lt_mul (by rw [Nat.mul_comm]; exact hk)
  have hj : k % d.columns < d.columns := Nat.mod_lt _ hc
  refine ⟨?_, hi, hj⟩
  rw [val_of hi hj]
  have he : k / d.columns * d.columns + k % d.columns = k := by rw [Nat.mul_comm]; exact Nat.div_add_mod k d.columns
  rw [he]
  have : k < d.data.length := by rw [h.1]; exact hk
  simp [this]

theorem WF.linearAt_ok [Zero T] {d : Dense T} (h : WF d) {k : Nat} (hk : k < d.size) :
    d.linearAt k = .ok (d.val (k / d.columns) (k % d.columns)) := by
  unfold linearAt
  rw [assert_true hk]
  exact getIdx_of_some (data_entry h hk).1

theorem WF.mem_data [Zero T] {d : Dense T} (h : WF d) (x : T) :
    x ∈ d.data ↔ ∃ i j, i < d.rows ∧ j < d.columns ∧ d.val i j = x := by
  rw [List.mem_iff_getElem?]
  constructor
  · rintro ⟨k, hk⟩
    have hlt : k < d.size := by
      have := (List.getElem?_eq_some_iff.1 hk).1
      rw [h.1] at this; exact this
    obtain ⟨h1, h2, h3⟩ := data_entry h hlt
    rw [hk] at h1
    exact ⟨_, _, h2, h3, (Option.some.inj h1).symm⟩
  · rintro ⟨i, j, hi, hj, rfl⟩
    refine ⟨i * d.columns + j, ?_⟩
    rw [val_of hi hj]
    have : i * d.columns + j < d.data.length := by rw [h.1]; exact idx_lt hi hj
    simp [this]

section
variable [Zero T] [DecidableEq T]
theorem WF.isEmpty_iff {d : Dense T} (h : WF d) :
    d.isEmpty = true ↔ ∀ i j, i < d.rows → j < d.columns → d.val i j = 0 := by
  unfold isEmpty
  simp only [List.all_eq_true, decide_eq_true_eq]
  constructor
  · intro hh i j hi hj; exact hh _ ((h.mem_data _).2 ⟨i, j, hi, hj, rfl⟩)
  · intro hh x hx
    obtain ⟨i, j, hi, hj, rfl⟩ := (h.mem_data x).1 hx
    exact hh i j hi hj

theorem WF.hasZero_iff {d : Dense T} (h : WF d) :
    d.hasZero = true ↔ ∃ i j, i < d.rows ∧ j < d.columns ∧ d.val i j = 0 := by
  unfold hasZero
  simp only [List.any_eq_true, decide_eq_true_eq]
  rw [← h.mem_data 0]
  constructor
  · rintro ⟨x, hx, rfl⟩; exact hx
  · intro h; exact ⟨0, h, rfl⟩

theorem WF.has_ok {d : Dense T} (h : WF d) {i j : Nat} (hi : i < d.rows) (hj : j < d.columns) :
    d.has i j = .ok (decide (d.val i j ≠ 0)) := by
  unfold has; rw [h.at_ok hi hj]; rfl

theorem WF.eq_ok {a b : Dense T} (ha : WF a) (hb : WF b) (hr : a.rows = b.rows) (hc : a.columns = b.columns) :
    ∃ r, Dense.eq a b = .ok r ∧ (r = true ↔ ∀ i j, i < a.rows → j < a.columns → a.val i j = b.val i j) := by
  unfold Dense.eq
  rw [throwIf_false _ (by omega)]
  simp only [ok_bind]
  have hs : a.size = b.size := by unfold size; rw [hr, hc]
  obtain ⟨r, h1, h2⟩ := forRange_all 0 a.size (Nat.zero_le _)
    (fun k => a.val (k / a.columns) (k % a.columns) = b.val (k / a.columns) (k % a.columns))
    (fun i ok =>
      if ok then do
        let x ← a.linearAt i
        let y ← b.linearAt i
        return decide (x = y)
      else return false) (by
      intro k _ hk
      rw [ha.linearAt_ok hk, hb.linearAt_ok (hs ▸ hk), ← hc]
      rfl) (by intro i _ _; rfl)
  refine ⟨r, h1, ?_⟩
  rw [h2]
  constructor
  · intro h i j hi hj
    have := h (i * a.columns + j) (Nat.zero_le _) (idx_lt hi hj)
    have e1 : (i * a.columns + j) / a.columns = i := by
      rw [Nat.mul_comm, Nat.mul_add_div (by omega), Nat.div_eq_of_lt hj, Nat.add_zero]
    have e2 : (i * a.columns + j) % a.columns = j := by
      rw [Nat.mul_comm, Nat.mul_add_mod, Nat.mod_eq_of_lt hj]
    rwa [e1, e2] at this
  · intro h k _ hk
    obtain ⟨_, h2, h3⟩ := data_entry ha hk
    exact h _ _ h2 h3

theorem eq_throw {a b : Dense T} (h : a.rows ≠ b.rows ∨ a.columns ≠ b.columns) :
    Dense.eq a b = .error (.exc .matrixSizeMismatch) := by
  unfold Dense.eq; rw [throwIf_true _ h]; rfl
end

section
variable [Semiring T]

theorem WF.scale_ok {a : Dense T} (ha : WF a) (f : T) :
    ∃ u, scaleAssign a f = .ok u ∧ WF u ∧ u.rows = a.rows ∧ u.columns = a.columns ∧
      ∀ i j, u.val i j = a.val i j * f := by
  have h1 : scaleAssign a f = .ok { a with data := a.data.mapIdx (fun _ x => x * f) } := by
    unfold scaleAssign
    apply dataLoop_ok a ha.1
    intro i w x hi hw hx
    simp only [getIdx_of_some hx, ok_bind]
    rw [setIdx_eq _ (by omega)]
    rfl
  refine ⟨_, h1, ⟨by simpa using ha.1, ha.2⟩, rfl, rfl, ?_⟩
  intro i j
  unfold val
  simp only
  by_cases h : i < a.rows ∧ j < a.columns
  · rw [if_pos h, if_pos h]
    have := idx_lt h.1 h.2
    rw [← ha.1] at this
    simp [List.getD_eq_getElem?_getD, this]
  · rw [if_neg h, if_neg h, zero_mul]

theorem WF.trace_ok {d : Dense T} (h : WF d) :
    d.trace = .ok (∑ i ∈ Finset.range (min d.rows d.columns), d.val i i) := by
  unfold trace
  apply forRange_sum'
  intro i v hi
  rw [h.at_ok (by omega) (by omega)]
  rfl

theorem sum_data (l : List T) (r c : Nat) (h : l.length = r * c) :
    l.foldl (· + ·) 0 = ∑ i ∈ Finset.range r, ∑ j ∈ Finset.range c, l.getD (i * c + j) 0 := by
  rw [show l.foldl (· + ·) 0 = l.sum from List.sum_eq_foldl.symm]
  induction r generalizing l with
  | zero =>
    have : l = [] := by simpa using h
    simp [this]
  | succ n ih =>
    have hs : l = l.take c ++ l.drop c := (List.take_append_drop c l).symm
    rw [Finset.sum_range_succ']
    have hd : (l.drop c).length = n * c := by
      rw [List.length_drop, h, Nat.succ_mul]; omega
    have h2 := ih (l.drop c) hd
    conv_lhs => rw [hs, List.sum_append]
    rw [h2, add_comm]
    congr 1
    · refine Finset.sum_congr rfl (fun i _ => Finset.sum_congr rfl (fun j _ => ?_))
      simp only [List.getD_eq_getElem?_getD, List.getElem?_drop]
      congr 2
      rw [Nat.add_mul]; omega
    · have hc : c ≤ l.length := by rw [h, Nat.succ_mul]; omega
      simp only [Nat.zero_mul, Nat.zero_add]
      clear ih h hd h2 hs
      have key : ∀ (c : Nat) (l : List T), c ≤ l.length → (l.take c).sum = ∑ j ∈ Finset.range c, l.getD j 0 := by
        intro c
        induction c with
        | zero => intro l _; simp
        | succ c ih =>
          intro l hl
          rw [Finset.sum_range_succ, ← ih l (by omega), List.take_succ_eq_append_getElem (by omega), List.sum_append,
            List.getD_eq_getElem _ _ (by omega)]
          simp
      exact key c l hc

theorem WF.sum_ok {d : Dense T} (h : WF d) :
    d.sum = ∑ i ∈ Finset.range d.rows, ∑ j ∈ Finset.range d.columns, d.val i j := by
  unfold sum
  rw [sum_data d.data d.rows d.columns h.1]
  refine Finset.sum_congr rfl (fun i hi => Finset.sum_congr rfl (fun j hj => ?_))
  rw [val_of (Finset.mem_range.1 hi) (Finset.mem_range.1 hj)]

theorem WF.mul_ok {a m : Dense T} (ha : WF a) (hm : WF m) (hd : a.columns = m.rows) :
    ∃ u, a.mul m = .ok u ∧ WF u ∧ u.rows = a.rows ∧ u.columns = m.columns ∧
      ∀ i j, i < a.rows → j < m.columns →
        u.val i j = ∑ k ∈ Finset.range a.columns, a.val i k * m.val k j := by
  unfold mul
  rw [throwIf_false _ (by simpa using hd)]
  exact fill_ok ha.2.1 hm.2.2 (fun i k => ∑ j ∈ Finset.range a.columns, a.val i j * m.val j k) _ (by
    intro i k t hi hk _ _ _
    rw [forRange_sum' (g := fun j => a.val i j * m.val j k)]
    · rfl
    · intro j v hj
      rw [ha.at_ok hi hj, hm.at_ok (by omega) hk]
      rfl)

/-- filling a vector entry by entry -/
theorem vecFill_ok (n : Nat) (g : Nat → T) (body : Nat → List T → R (List T))
    (hb : ∀ i (r : List T), i < n → r.length = n → body i r = vecSet r i (g i)) :
    ∃ r, forRange 0 n (List.replicate n (0 : T)) body = .ok r ∧ r.length = n ∧ ∀ i, i < n → r.getD i 0 = g i := by
  have hlen : (List.replicate n (0 : T)).length = n := by simp
  have := forRange_upd (List.replicate n (0 : T)) (fun i _ => g i) body (by
    intro i w x hi hw hx
    rw [hlen] at hi hw
    rw [hb i w hi hw, vecSet_ok (by omega)])
  rw [hlen] at this
  refine ⟨_, this, by simp, ?_⟩
  intro i hi
  simp [List.getD_eq_getElem?_getD, hi]

theorem WF.mulVec_ok {a : Dense T} (ha : WF a) (v : List T) (hd : a.columns = v.length) :
    ∃ r, a.mulVec v = .ok r ∧ r.length = a.rows ∧
      ∀ i, i < a.rows → r.getD i 0 = ∑ j ∈ Finset.range a.columns, a.val i j * v.getD j 0 := by
  unfold mulVec
  rw [throwIf_false _ (by simpa using hd)]
  exact vecFill_ok a.rows _ _ (by
    intro i r hi _
    rw [forRange_sum' (g := fun j => a.val i j * v.getD j 0)]
    · rfl
    · intro j s hj
      rw [ha.at_ok hi hj, vecAt_getD (by omega) 0]
      rfl)

theorem WF.mulLeft_ok {a : Dense T} (ha : WF a) (v : List T) (hd : a.rows = v.length) :
    ∃ r, a.mulLeft v = .ok r ∧ r.length = a.columns ∧
      ∀ j, j < a.columns → r.getD j 0 = ∑ i ∈ Finset.range a.rows, a.val i j * v.getD i 0 := by
  unfold mulLeft
  rw [throwIf_false _ (by simpa using hd)]
  exact vecFill_ok a.columns _ _ (by
    intro j r hj _
    rw [forRange_sum' (g := fun i => a.val i j * v.getD i 0)]
    · rfl
    · intro i s hi
      rw [ha.at_ok hi hj, vecAt_getD (by omega) 0]
      rfl)
end

/-! ### Iteration -/
section
variable [Zero T]

theorem valid_iff (d : Dense T) (i j : Nat) : d.itValid ⟨i, j⟩ = true ↔ i < d.rows ∧ j < d.columns := by
  simp [itValid]

theorem end_invalid (d : Dense T) : d.itValid d.itEnd = false := by simp [itValid, itEnd]

theorem itEq_end (d : Dense T) (it : DIt) : d.itEq it d.itEnd = !d.itValid it := by
  unfold itEq
  rw [end_invalid]
  cases h : d.itValid it with
  | false => simp
  | true =>
    have := (valid_iff d it.i1 it.i2).1 h
    simp [itEnd]; omega

theorem walk_end (d : Dense T) (next : DIt → DIt) (n : Nat) (it : DIt) (h : d.itValid it = false) :
    walk d next n it = .ok [] := by
  cases n <;> simp [walk, itEq_end, h]

theorem WF.walk_step {d : Dense T} (hd : WF d) (next : DIt → DIt) (n : Nat) {i j : Nat} (hi : i < d.rows) (hj : j < d.columns) :
    walk d next (n + 1) ⟨i, j⟩ = (walk d next n (next ⟨i, j⟩)) >>= fun l => .ok ((i, j, d.val i j) :: l) := by
  have hv := (valid_iff d i j).2 ⟨hi, hj⟩
  simp only [walk, itEq_end, hv, deref, hd.at_ok hi hj]
  rfl

/-- the row `i` from column `j` on -/
def rowFrom (d : Dense T) (i j : Nat) : List (Nat × Nat × T) :=
  (List.range' j (d.columns - j)).map (fun k => (i, k, d.val i k))

theorem WF.rowWalk {d : Dense T} (hd : WF d) {i : Nat} (hi : i < d.rows) :
    ∀ m j n, m = d.columns - j → m ≤ n → j ≤ d.columns → (j < d.columns ∨ True) →
      walk d (rowNext d) n (if j < d.columns then ⟨i, j⟩ else d.itEnd) = .ok (rowFrom d i j) := by
  intro m
  induction m with
  | zero =>
    intro j n hm _ hj _
    rw [if_neg (by omega), walk_end d _ n _ (end_invalid d)]
    simp [rowFrom, ← hm]
  | succ m ih =>
    intro j n hm hn hj _
    have hjc : j < d.columns := by omega
    rw [if_pos hjc]
    obtain ⟨n', rfl⟩ : ∃ n', n = n' + 1 := ⟨n - 1, by omega⟩
    rw [hd.walk_step _ _ hi hjc]
    have hnext : rowNext d ⟨i, j⟩ = (if j + 1 < d.columns then ⟨i, j + 1⟩ else d.itEnd) := by
      unfold rowNext
      rw [if_pos ((valid_iff d i j).2 ⟨hi, hjc⟩)]
      by_cases h : j + 1 < d.columns
      · rw [if_pos h, if_neg (by simp; omega)]
      · rw [if_neg h, if_pos (by simp; omega)]; rfl
    rw [hnext, ih (j + 1) n' (by omega) (by omega) (by omega) (Or.inr trivial)]
    simp only [ok_bind, rowFrom]
    rw [← hm, show d.columns - (j + 1) = m by omega, List.range'_succ]
    rfl

theorem WF.rowEntries_ok {d : Dense T} (hd : WF d) {i : Nat} (hi : i < d.rows) :
    d.rowEntries i = .ok (rowFrom d i 0) := by
  unfold rowEntries rowBegin
  rw [assert_true hi]
  simp only [ok_bind, pure_eq_ok]
  have := hd.rowWalk hi d.columns 0 (d.columns + 1) (by omega) (by omega) (by omega) (Or.inr trivial)
  rw [if_pos hd.2.2] at this
  exact this

theorem mem_rowFrom (d : Dense T) (i j a b : Nat) (x : T) :
    (a, b, x) ∈ rowFrom d i j ↔ a = i ∧ j ≤ b ∧ b < d.columns ∧ x = d.val i b := by
  unfold rowFrom
  simp only [List.mem_map, List.mem_range'_1, Prod.mk.injEq]
  constructor
  · rintro ⟨k, ⟨h1, h2⟩, rfl, rfl, rfl⟩
    exact ⟨rfl, h1, by omega, rfl⟩
  · rintro ⟨rfl, h1, h2, rfl⟩
    exact ⟨b, ⟨h1, by omega⟩, rfl, rfl, rfl⟩

/-- column `j` from row `i` on -/
def colFrom (d : Dense T) (i j : Nat) : List (Nat × Nat × T) :=
  (List.range' i (d.rows - i)).map (fun k => (k, j, d.val k j))

theorem WF.colWalk {d : Dense T} (hd : WF d) {j : Nat} (hj : j < d.columns) :
    ∀ m i n, m = d.rows - i → m ≤ n → i ≤ d.rows →
      walk d (colNext d) n (if i < d.rows then ⟨i, j⟩ else d.itEnd) = .ok (colFrom d i j) := by
  intro m
  induction m with
  | zero =>
    intro i n hm _ hi
    rw [if_neg (by omega), walk_end d _ n _ (end_invalid d)]
    simp [colFrom, ← hm]
  | succ m ih =>
    intro i n hm hn hi
    have hic : i < d.rows := by omega
    rw [if_pos hic]
    obtain ⟨n', rfl⟩ : ∃ n', n = n' + 1 := ⟨n - 1, by omega⟩
    rw [hd.walk_step _ _ hic hj]
    have hnext : colNext d ⟨i, j⟩ = (if i + 1 < d.rows then ⟨i + 1, j⟩ else d.itEnd) := by
      unfold colNext
      rw [if_pos ((valid_iff d i j).2 ⟨hic, hj⟩)]
      by_cases h : i + 1 < d.rows
      · rw [if_pos h, if_neg (by simp; omega)]
      · rw [if_neg h, if_pos (by simp; omega)]; rfl
    rw [hnext, ih (i + 1) n' (by omega) (by omega) (by omega)]
    simp only [ok_bind, colFrom]
    rw [← hm, show d.rows - (i + 1) = m by omega, List.range'_succ]
    rfl

theorem WF.colEntries_ok {d : Dense T} (hd : WF d) {j : Nat} (hj : j < d.columns) :
    d.colEntries j = .ok (colFrom d 0 j) := by
  unfold colEntries colBegin
  rw [assert_true hj]
  simp only [ok_bind, pure_eq_ok]
  have := hd.colWalk hj d.rows 0 (d.rows + 1) (by omega) (by omega) (by omega)
  rw [if_pos hd.2.1] at this
  exact this

theorem mem_colFrom (d : Dense T) (i j a b : Nat) (x : T) :
    (a, b, x) ∈ colFrom d i j ↔ b = j ∧ i ≤ a ∧ a < d.rows ∧ x = d.val a j := by
  unfold colFrom
  simp only [List.mem_map, List.mem_range'_1, Prod.mk.injEq]
  constructor
  · rintro ⟨k, ⟨h1, h2⟩, rfl, rfl, rfl⟩
    exact ⟨rfl, h1, by omega, rfl⟩
  · rintro ⟨rfl, h1, h2, rfl⟩
    exact ⟨a, ⟨h1, by omega⟩, rfl, rfl, rfl⟩

/-- the matrix from position `k` (linear) on -/
def allFrom (d : Dense T) (k : Nat) : List (Nat × Nat × T) :=
  (List.range' k (d.size - k)).map (fun k => (k / d.columns, k % d.columns, d.val (k / d.columns) (k % d.columns)))

theorem WF.allWalk {d : Dense T} (hd : WF d) :
    ∀ m k n, m = d.size - k → m ≤ n → k ≤ d.size →
      walk d (itNext d) n (if k < d.size then ⟨k / d.columns, k % d.columns⟩ else d.itEnd) = .ok (allFrom d k) := by
  have hc := hd.2.2
  intro m
  induction m with
  | zero =>
    intro k n hm _ hk
    rw [if_neg (by omega), walk_end d _ n _ (end_invalid d)]
    simp [allFrom, ← hm]
  | succ m ih =>
    intro k n hm hn hk
    have hkc : k < d.size := by omega
    rw [if_pos hkc]
    obtain ⟨n', rfl⟩ : ∃ n', n = n' + 1 := ⟨n - 1, by omega⟩
    obtain ⟨-, hi, hj⟩ := data_entry hd hkc
    rw [hd.walk_step _ _ hi hj]
    have hnext : itNext d ⟨k / d.columns, k % d.columns⟩
        = (if k + 1 < d.size then ⟨(k + 1) / d.columns, (k + 1) % d.columns⟩ else d.itEnd) := by
      unfold itNext
      rw [if_pos ((valid_iff d _ _).2 ⟨hi, hj⟩)]
      have hdm := Nat.div_add_mod k d.columns
      have hsz : d.size = d.columns * d.rows := Nat.mul_comm _ _
      by_cases h : k % d.columns + 1 ≥ d.columns
      · have hm' : k % d.columns + 1 = d.columns := by omega
        have hk1 : k + 1 = d.columns * (k / d.columns + 1) := by rw [Nat.mul_add]; omega
        have e1 : (k + 1) / d.columns = k / d.columns + 1 := by rw [hk1, Nat.mul_div_cancel_left _ hc]
        have e2 : (k + 1) % d.columns = 0 := by rw [hk1, Nat.mul_mod_right]
        rw [if_pos h]
        by_cases h' : k / d.columns + 1 ≥ d.rows
        · have : k / d.columns + 1 = d.rows := by omega
          rw [if_pos h', if_neg (by rw [hk1, hsz, this]; omega)]
          rfl
        · have : k + 1 < d.size := by
            rw [hk1, hsz]
            exact Nat.mul_lt_mul_of_pos_left (by omega) hc
          rw [if_neg h', if_pos this, e1, e2]
      · rw [if_neg h]
        have e1 : (k + 1) / d.columns = k / d.columns := by
          have : k + 1 = d.columns * (k / d.columns) + (k % d.columns + 1) := by omega
          have hlt : k % d.columns + 1 < d.columns := by omega
          generalize k / d.columns = q at *
          generalize k % d.columns = r at *
          rw [this, Nat.mul_add_div hc, Nat.div_eq_of_lt hlt, Nat.add_zero]
        have e2 : (k + 1) % d.columns = k % d.columns + 1 := by
          have : k + 1 = d.columns * (k / d.columns) + (k % d.columns + 1) := by omega
          rw [this, Nat.mul_add_mod, Nat.mod_eq_of_lt (by omega)]
        have : k + 1 < d.size := by
          have := idx_lt hi (show k % d.columns + 1 < d.columns by omega)
          rw [Nat.mul_comm] at this
          have h2 : d.size = d.rows * d.columns := rfl
          omega
        rw [if_pos this, e1, e2]
    rw [hnext, ih (k + 1) n' (by omega) (by omega) (by omega)]
    simp only [ok_bind, allFrom]
    rw [← hm, show d.size - (k + 1) = m by omega, List.range'_succ]
    rfl

theorem WF.entries_ok {d : Dense T} (hd : WF d) : d.entries = .ok (allFrom d 0) := by
  unfold entries
  have := hd.allWalk d.size 0 (d.size + 1) (by omega) (by omega) (by omega)
  rw [if_pos (show 0 < d.size from Nat.mul_pos hd.2.1 hd.2.2)] at this
  simpa [itBegin] using this

theorem WF.mem_allFrom {d : Dense T} (hd : WF d) (a b : Nat) (x : T) :
    (a, b, x) ∈ allFrom d 0 ↔ a < d.rows ∧ b < d.columns ∧ x = d.val a b := by
  unfold allFrom
  simp only [List.mem_map, List.mem_range'_1, Prod.mk.injEq]
  constructor
  · rintro ⟨k, ⟨_, h2⟩, rfl, rfl, rfl⟩
    obtain ⟨-, hi, hj⟩ := data_entry hd (show k < d.size by omega)
    exact ⟨hi, hj, rfl⟩
  · rintro ⟨h1, h2, rfl⟩
    have e1 : (a * d.columns + b) / d.columns = a := by
      rw [Nat.mul_comm, Nat.mul_add_div (by omega), Nat.div_eq_of_lt h2, Nat.add_zero]
    have e2 : (a * d.columns + b) % d.columns = b := by
      rw [Nat.mul_comm, Nat.mul_add_mod, Nat.mod_eq_of_lt h2]
    have h3 := idx_lt h1 h2
    have h4 : d.size = d.rows * d.columns := rfl
    exact ⟨a * d.columns + b, ⟨Nat.zero_le _, by omega⟩, e1, e2, by rw [e1, e2]⟩

theorem WF.allFrom_sorted {d : Dense T} (hd : WF d) :
    (allFrom d 0).Pairwise (fun a b => a.1 < b.1 ∨ (a.1 = b.1 ∧ a.2.1 < b.2.1)) := by
  unfold allFrom
  rw [List.pairwise_map]
  refine (List.pairwise_lt_range' (s := 0) (n := d.size - 0) (step := 1) (by omega)).imp ?_
  intro a b hab
  have hc := hd.2.2
  have h1 := Nat.div_add_mod a d.columns
  have h2 := Nat.div_add_mod b d.columns
  have h3 := Nat.div_le_div_right (c := d.columns) (Nat.le_of_lt hab)
  rcases Nat.lt_or_ge (a / d.columns) (b / d.columns) with h | h
  · exact Or.inl h
  · have : a / d.columns = b / d.columns := by omega
    rw [this] at h1
    exact Or.inr ⟨this, by simp only; omega⟩

/-! ### Construction from lists -/

theorem ofLists_ok (l : List (List T)) (h : ∃ v ∈ l, v ≠ []) :
    ∃ d, ofLists l = .ok d ∧ WF d ∧ d.rows = l.length ∧
      d.columns = (l.map List.length).foldr max 0 ∧
      ∀ i j, i < d.rows → j < d.columns → d.val i j = (l.getD i []).getD j 0 := by
  obtain ⟨v0, hv0, hne⟩ := h
  have hl : l ≠ [] := by rintro rfl; simp at hv0
  set C := (l.map List.length).foldr max 0 with hC
  have hle : ∀ v ∈ l, v.length ≤ C := by
    intro v hv
    rw [hC]
    clear hv0 hl hC C hne
    induction l with
    | nil => simp at hv
    | cons a l ih =>
      simp only [List.map_cons, List.foldr_cons]
      rcases List.mem_cons.1 hv with rfl | hv
      · exact le_max_left _ _
      · exact le_trans (ih hv) (le_max_right _ _)
  have hCpos : 0 < C := lt_of_lt_of_le (List.length_pos_of_ne_nil hne) (hle v0 hv0)
  have hlpos : 0 < l.length := List.length_pos_of_ne_nil hl
  obtain ⟨z, z1, z2, z3, z4, z5⟩ := mk_ok (T := T) hlpos hCpos
  unfold ofLists
  rw [if_neg hl, ← hC, z1]
  simp only [ok_bind]
  -- writing one value
  have write : ∀ (s : Dense T) (i j : Nat) (w : T), WF s → i < s.rows → j < s.columns →
      (do let d ← setIdx s.data (i * s.columns + j) w
          return { s with data := d } : R (Dense T)) = s.set i j w := by
    intro s i j w hs hi hj
    unfold set linearSet
    rw [assert_true hi, assert_true hj, assert_true (show _ < s.size from idx_lt hi hj)]
    rfl
  obtain ⟨d, h1, h2⟩ := (sat_forList (E := noErr)
    (f := fun (p : List T × Nat) s => forList p.1.zipIdx s fun (q : T × Nat) s => do
        let d ← setIdx s.data (p.2 * s.columns + q.2) q.1
        return { s with data := d })
    (fun pre (s : Dense T) => WF s ∧ s.rows = l.length ∧ s.columns = C ∧
      ∀ i j, i < s.rows → j < s.columns → s.val i j = if i < pre.length then (l.getD i []).getD j 0 else 0)
    l.zipIdx (s := z) ⟨z2, z3, z4, by intro i j _ _; rw [z5]; simp⟩ (by
      intro pre a suf s hsplit hs
      have hlen : l.length = pre.length + 1 + suf.length := by
        have := congrArg List.length hsplit
        simp at this; omega
      have h1 : l.zipIdx[pre.length]? = some a := by rw [hsplit]; simp
      rw [List.getElem?_zipIdx] at h1
      obtain ⟨v, hv, rfl⟩ := Option.map_eq_some_iff.1 h1
      simp only [Nat.zero_add]
      have hvm : v ∈ l := List.mem_of_getElem? hv
      have hvl := hle v hvm
      have hgd : l.getD pre.length [] = v := by simp [List.getD_eq_getElem?_getD, hv]
      refine (sat_forList (E := noErr)
        (fun pre' (t : Dense T) => WF t ∧ t.rows = l.length ∧ t.columns = C ∧
          ∀ i j, i < t.rows → j < t.columns → t.val i j =
            if i < pre.length ∨ (i = pre.length ∧ j < pre'.length) then (l.getD i []).getD j 0 else 0)
        v.zipIdx (s := s) ⟨hs.1, hs.2.1, hs.2.2.1, by
          intro i j hi hj; rw [hs.2.2.2 i j hi hj]; simp⟩ ?_).mono ?_ (fun _ h => h)
      · intro pre' b suf' t hsplit' ht
        have hlen' : v.length = pre'.length + 1 + suf'.length := by
          have := congrArg List.length hsplit'
          simp at this; omega
        have h1' : v.zipIdx[pre'.length]? = some b := by rw [hsplit']; simp
        rw [List.getElem?_zipIdx] at h1'
        obtain ⟨w, hw, rfl⟩ := Option.map_eq_some_iff.1 h1'
        simp only [Nat.zero_add]
        obtain ⟨t1, t2, t3, t4⟩ := ht
        rw [write t _ _ _ t1 (by omega) (by omega)]
        obtain ⟨u, u1, u2, u3, u4, u5⟩ := t1.set_ok w (show pre.length < t.rows by omega) (show pre'.length < t.columns by omega)
        rw [u1]
        refine ⟨u2, by omega, by omega, ?_⟩
        intro i j hi hj
        rw [u5]
        by_cases hij : i = pre.length ∧ j = pre'.length
        · obtain ⟨rfl, rfl⟩ := hij
          rw [if_pos ⟨rfl, rfl⟩, if_pos (by simp), hgd]
          simp [List.getD_eq_getElem?_getD, hw]
        · rw [if_neg hij, t4 i j (by omega) (by omega)]
          congr 1
          simp only [List.length_append, List.length_cons, List.length_nil, eq_iff_iff]
          omega
      · rintro t ⟨t1, t2, t3, t4⟩
        refine ⟨t1, t2, t3, ?_⟩
        intro i j hi hj
        rw [t4 i j hi hj]
        simp only [List.length_append, List.length_cons, List.length_nil, List.length_zipIdx]
        by_cases h1 : i < pre.length
        · rw [if_pos (Or.inl h1), if_pos (by omega)]
        · by_cases h2 : i = pre.length
          · subst h2
            rw [if_pos (show pre.length < pre.length + (0 + 1) by omega)]
            by_cases h3 : j < v.length
            · rw [if_pos (by omega)]
            · rw [if_neg (by omega), hgd, List.getD_eq_default _ _ (by omega)]
          · rw [if_neg (by omega), if_neg (by omega)])).ok_of
  refine ⟨d, h1, h2.1, h2.2.1, h2.2.2.1, ?_⟩
  intro i j hi hj
  rw [h2.2.2.2 i j hi hj, if_pos (by simp; omega)]
end
end Dense
end NS

/-
Property theorems C97: operators whose operand is the object itself or a reference to one of its entries.

`x op= y` takes its operand by reference.  For an operand `y` that is a different object the other properties say what the result is.
Here the operand is the object itself (`v += v`) or one of its entries (`v *= v[k]`), and the result is compared with that of the
same operator on a copy of the operand.
-/
import Verif.Alias
import Verif.Props.Sparse
import Verif.Props.Dense
import Verif.Props.CG

set_option linter.unusedSectionVars false
set_option linter.unusedSimpArgs false

namespace NS.Props.Alias
open NS

section vector
variable {T : Type}

/-- **C97** (partial): for vectors `v += v`, `v -= v`, `v *= v` and `v /= v` do what they do with a copy of `v`. -/
theorem C97_vector_partial [Add T] [Sub T] [Mul T] [Div T] (v : List T) :
    Vec.zipSelf (· + ·) v = Vec.addAssign v v ∧ Vec.zipSelf (· - ·) v = Vec.subAssign v v ∧
    Vec.zipSelf (· * ·) v = Vec.mulAssign v v ∧ Vec.zipSelf (· / ·) v = Vec.divAssign v v := by
  have key : ∀ op : T → T → T, Vec.zipSelf op v = Vec.zipAssign op v v := by
    intro op
    rw [Vec.zipSelf_ok, Vec.zipAssign_ok op v v rfl, List.zipWith_self]
  exact ⟨key _, key _, key _, key _⟩

example : Vec.zipSelf (· * ·) [2, 3, 5] = .ok [4, 9, (25 : Int)] := by decide +kernel

theorem mapRef_iff (op : T → T → T) (v : List T) {k : Nat} (hk : k < v.length) :
    Vec.mapRef op v k = Vec.mapAssign (fun x => op x v[k]) v ↔
      ∀ i (hi : i < v.length), k < i → op v[i] (op v[k] v[k]) = op v[i] v[k] := by
  rw [Vec.mapRef_ok op v hk, Vec.mapAssign_ok, ← Vec.mapIdx_ref_iff op v hk]
  exact ⟨Except.ok.inj, congrArg _⟩

/-- **C97** (partial): `v /= v[k]` does what it does with a copy of the entry. -/
theorem C97_vector_div_partial [One T] [Div T] [Mul T] (v : List T) {k : Nat} (hk : k < v.length) :
    Vec.divRef v k = Vec.divScalar v v[k] := by
  unfold Vec.divRef Vec.divScalar
  rw [assert_true hk, ok_bind, getIdx_of_some (List.getElem?_eq_getElem hk), ok_bind]

example : Vec.divRef [2, 3, 5] 0 = .ok [1, 3 / 2, (5 / 2 : ℚ)] := by decide +kernel

variable [CommRing T] [NoZeroDivisors T]

/-- **C97** (partial): `v += v[k]` and `v -= v[k]` do what they do with a copy of the entry exactly when the entry is the last one or
zero; `v *= v[k]` exactly when all later entries are zero, or the entry is zero or one. -/
theorem C97_vector_scalar_partial (v : List T) {k : Nat} (hk : k < v.length) :
    (Vec.mapRef (· + ·) v k = Vec.addScalar v v[k] ↔ k + 1 = v.length ∨ v[k] = 0) ∧
    (Vec.mapRef (· - ·) v k = Vec.subScalar v v[k] ↔ k + 1 = v.length ∨ v[k] = 0) ∧
    (Vec.mapRef (· * ·) v k = Vec.mulScalar v v[k] ↔ (∀ i (hi : i < v.length), k < i → v[i] = 0) ∨ v[k] = 0 ∨ v[k] = 1) := by
  refine ⟨(mapRef_iff (· + ·) v hk).trans ?_, (mapRef_iff (· - ·) v hk).trans ?_, (mapRef_iff (· * ·) v hk).trans ?_⟩
  · constructor
    · intro h
      by_contra hc
      push Not at hc
      have := h (k + 1) (by omega) (by omega)
      simp only [add_right_inj] at this
      exact hc.2 (by simpa using this)
    · rintro (h | h) i hi hki
      · omega
      · simp [h]
  · constructor
    · intro h
      by_contra hc
      push Not at hc
      have := h (k + 1) (by omega) (by omega)
      simp only [sub_self, sub_right_inj] at this
      exact hc.2 this.symm
    · rintro (h | h) i hi hki
      · omega
      · simp [h]
  · constructor
    · intro h
      by_contra hc
      push Not at hc
      obtain ⟨⟨i, hi, hki, hne⟩, h0, h1⟩ := hc
      have := mul_left_cancel₀ hne (h i hi hki)
      exact h1 (mul_left_cancel₀ h0 (by rw [mul_one]; exact this))
    · rintro (h | h | h) i hi hki
      · simp [h i hi hki]
      · simp [h]
      · simp [h]

/-- **C97 fails**: `v *= v[0]` on `[2,3,5]` gives `[4,12,20]`, not `[4,6,10]`; `v += v[0]` gives `[4,7,9]`, not `[4,5,7]`; and
`v -= v[0]` changes the first entry only. -/
theorem C97_vector_negation :
    Vec.mapRef (· * ·) [2, 3, 5] 0 = .ok [4, 12, (20 : Int)] ∧ Vec.mulScalar [2, 3, 5] 2 = .ok [4, 6, (10 : Int)] ∧
    Vec.mapRef (· + ·) [2, 3, 5] 0 = .ok [4, 7, (9 : Int)] ∧ Vec.addScalar [2, 3, 5] 2 = .ok [4, 5, (7 : Int)] ∧
    Vec.mapRef (· - ·) [2, 3, 5] 0 = .ok [0, 3, (5 : Int)] ∧ Vec.subScalar [2, 3, 5] 2 = .ok [0, 1, (3 : Int)] := by
  decide +kernel

end vector

section dense
open NS.Dense
variable {T : Type} [CommRing T] [DecidableEq T]

/-- **C97** (partial): for dense matrices `m += m`, `m -= m` and `m *= m` do what they do with a copy of `m`. -/
theorem C97_dense_partial {d : Dense T} (h : Props.Dense.Reach d) :
    Dense.zipSelf (· + ·) d = d.addAssign d ∧ Dense.zipSelf (· - ·) d = d.subAssign d ∧ Dense.zipSelf (· * ·) d = d.hadamardAssign d :=
  ⟨Dense.zipSelf_ok _ h.wf, Dense.zipSelf_ok _ h.wf, Dense.zipSelf_ok _ h.wf⟩

/-- **C97** (partial): `m *= *it` with `it` at `(i,j)` does what it does with a copy of the entry exactly when all entries behind
`(i,j)` in row-major order are zero, or the entry is zero or one. -/
theorem C97_dense_scale_partial [NoZeroDivisors T] {d : Dense T} (h : Props.Dense.Reach d) {A : Nat → Nat → T}
    (hA : Props.Dense.Shows d d.rows d.columns A) {i j : Nat} (hi : i < d.rows) (hj : j < d.columns) :
    Dense.scaleRef d i j = d.scaleAssign (A i j) ↔
      (∀ a b, a < d.rows → b < d.columns → i < a ∨ i = a ∧ j < b → A a b = 0) ∨ A i j = 0 ∨ A i j = 1 := by
  have hw := h.wf
  have hval : ∀ a b, a < d.rows → b < d.columns → ∃ hlt : a * d.columns + b < d.data.length, d.data[a * d.columns + b] = A a b := by
    intro a b ha hb
    have hlt : a * d.columns + b < d.data.length := by rw [hw.1]; exact idx_lt ha hb
    refine ⟨hlt, ?_⟩
    have := hA.2.2 a b ha hb
    rw [hw.at_ok ha hb] at this
    have := Except.ok.inj this
    rw [val_of ha hb, List.getD_eq_getElem _ _ hlt] at this
    exact this
  obtain ⟨hlt, hAij⟩ := hval i j hi hj
  have hs : d.scaleAssign (A i j) = .ok { d with data := d.data.map (· * A i j) } := by
    unfold scaleAssign
    rw [dataLoop_ok d hw.1 (fun _ x => x * A i j), Vec.mapIdx_const]
    intro t w x ht hwl hx
    simp only [getIdx_of_some hx, ok_bind]
    rw [setIdx_eq _ (by omega)]
    rfl
  rw [Dense.scaleRef_ok hw hi hj, hs, Vec.mapRef_ok (· * ·) d.data hlt, ok_bind]
  simp only [pure_eq_ok]
  have e1 : ((.ok { d with data := d.data.mapIdx fun t x => if t ≤ i * d.columns + j then x * d.data[i * d.columns + j] else
      x * (d.data[i * d.columns + j] * d.data[i * d.columns + j]) } : R (Dense T)) = .ok { d with data := d.data.map (· * A i j) }) ↔
      (d.data.mapIdx fun t x => if t ≤ i * d.columns + j then x * d.data[i * d.columns + j] else
        x * (d.data[i * d.columns + j] * d.data[i * d.columns + j])) = d.data.map (· * d.data[i * d.columns + j]) := by
    rw [hAij]
    constructor
    · intro h
      have := Except.ok.inj h
      exact congrArg Dense.data this
    · intro h; rw [h]
  rw [e1, Vec.mapIdx_ref_iff (· * ·) d.data hlt]
  constructor
  · intro h
    by_contra hc
    push Not at hc
    obtain ⟨⟨a, b, ha, hb, hab, hne⟩, h0, h1⟩ := hc
    obtain ⟨hlt', hAab⟩ := hval a b ha hb
    have hlt2 : i * d.columns + j < a * d.columns + b := by
      rcases hab with h | ⟨h, h'⟩
      · have : (i + 1) * d.columns ≤ a * d.columns := Nat.mul_le_mul_right _ h
        rw [Nat.add_mul] at this; omega
      · subst h; omega
    have := h _ hlt' hlt2
    rw [hAab, hAij] at this
    have := mul_left_cancel₀ hne this
    exact h1 (mul_left_cancel₀ h0 (by rw [mul_one]; exact this))
  · rintro (h | h | h) t ht hk
    · have hc := hw.2.2
      have h1 : t / d.columns < d.rows := by
        rw [Nat.div_lt_iff_lt_mul hc, ← hw.1]; exact ht
      have h2 := Nat.mod_lt t hc
      have h3 : t / d.columns * d.columns + t % d.columns = t := by
        rw [Nat.mul_comm]; exact Nat.div_add_mod t d.columns
      obtain ⟨hlt', hAab⟩ := hval _ _ h1 h2
      have hz := h _ _ h1 h2 (by
        rcases Nat.lt_or_ge i (t / d.columns) with h' | h'
        · exact Or.inl h'
        · right
          have : t / d.columns * d.columns ≤ i * d.columns := Nat.mul_le_mul_right _ h'
          have h4 : ¬ t / d.columns < i := by
            intro h5
            have : (t / d.columns + 1) * d.columns ≤ i * d.columns := Nat.mul_le_mul_right _ h5
            rw [Nat.add_mul] at this; omega
          have h5 : i = t / d.columns := by omega
          refine ⟨h5, ?_⟩
          rw [h5] at hk; omega)
      simp only [h3] at hAab
      rw [hAab, hz, zero_mul, zero_mul]
    · rw [hAij, h]; simp
    · rw [hAij, h]; simp

example : Dense.scaleRef (⟨[2, 3, 5, 7], 2, 2⟩ : Dense Int) 0 0 = .ok ⟨[4, 12, 20, 28], 2, 2⟩ ∧
    Dense.scaleRef (⟨[2, 3, 5, 7], 2, 2⟩ : Dense Int) 1 1 = .ok ⟨[14, 21, 35, 49], 2, 2⟩ := by decide +kernel

end dense
end NS.Props.Alias

/-
Characterisations of normal return, used to turn a chain of checks into a conjunction.
-/
import Verif.Outcome

namespace NS
variable {α β σ : Type _}

theorem bind_ok_iff {x : R α} {f : α → R β} {b : β} : (x >>= f) = .ok b ↔ ∃ a, x = .ok a ∧ f a = .ok b := by
  cases x with
  | error e => simp
  | ok a => simp

theorem throwIf_ok_iff {p : Prop} [Decidable p] {e : Exc} {u : Unit} : throwIf p e = .ok u ↔ ¬ p := by
  by_cases h : p <;> simp [throwIf, h]

theorem assert_ok_iff {p : Prop} [Decidable p] {u : Unit} : assert p = .ok u ↔ p := by
  by_cases h : p <;> simp [assert, h]

theorem getIdx_ok_iff {l : List α} {i : Nat} {a : α} : getIdx l i = .ok a ↔ l[i]? = some a := by
  unfold getIdx
  cases l[i]? <;> simp

theorem exists_unit {p : Unit → Prop} : (∃ a, p a) ↔ p () := ⟨fun ⟨_, h⟩ => h, fun h => ⟨(), h⟩⟩

/-- a loop without state succeeds when all its iterations do -/
theorem forList_unit_ok_iff {f : α → Unit → R Unit} (l : List α) {u : Unit} :
    forList l () f = .ok u ↔ ∀ a ∈ l, f a () = .ok () := by
  induction l with
  | nil => simp [forList]
  | cons a l ih =>
    unfold forList
    rw [bind_ok_iff, exists_unit, ih]
    simp

theorem forRange3_unit_ok_iff {f : Nat → Unit → R Unit} {u : Unit} :
    forRange 0 3 () f = .ok u ↔ ∀ i < 3, f i () = .ok () := by
  unfold forRange
  simp only [Nat.sub_zero, forAux, bind_ok_iff, exists_unit, and_true]
  constructor
  · rintro ⟨h0, h1, h2⟩ i hi
    match i, hi with
    | 0, _ => exact h0
    | 1, _ => exact h1
    | 2, _ => exact h2
  · intro h
    exact ⟨h 0 (by omega), h 1 (by omega), h 2 (by omega)⟩

/-- a loop whose state is a counter -/
theorem forList_count_ok_iff {g : α → Nat → R Unit} (l : List α) (k : Nat) :
    (∃ n, forList l k (fun a id => g a id >>= fun _ => (.ok (id + 1) : R Nat)) = .ok n) ↔
      ∀ (i : Nat) (a : α), l[i]? = some a → g a (k + i) = .ok () := by
  induction l generalizing k with
  | nil => simp [forList]
  | cons a l ih =>
    unfold forList
    simp only [bind_ok_iff, exists_unit]
    constructor
    · rintro ⟨n, s, ⟨h1, h2⟩, h3⟩ i b hb
      obtain rfl := Except.ok.inj h2
      match i with
      | 0 =>
        simp at hb
        subst hb
        exact h1
      | i + 1 =>
        simp at hb
        have := (ih (k + 1)).1 ⟨n, h3⟩ i b hb
        rwa [show k + (i + 1) = k + 1 + i by omega]
    · intro h
      obtain ⟨n, hn⟩ := (ih (k + 1)).2 (fun i b hb => by
        have := h (i + 1) b (by simpa using hb)
        rwa [show k + 1 + i = k + (i + 1) by omega])
      exact ⟨n, k + 1, ⟨by simpa using h 0 a rfl, rfl⟩, hn⟩
end NS

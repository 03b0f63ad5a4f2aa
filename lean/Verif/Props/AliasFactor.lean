/-
Property C97 for the output arguments of `ilu0` and `doolittle`.
-/
import Verif.Props.AliasSparse
import Verif.Props.ILU

set_option linter.unusedSectionVars false
set_option linter.unusedSimpArgs false

namespace NS.Props.Alias
open NS

section outputs
open NS.Props.LU NS.MatOps NS.LawfulMat
variable {T V : Type} [Field T] [DecidableEq T] [LinearOrder V] {n : Nat}

/-- a write outside the matrix fails, a write inside changes this entry only -/
theorem set_frame {s s' : Sparse T} {i j : Nat} {v : T} (h : Sparse.Inv s) (e : s.set i j v = .ok s') :
    Sparse.Inv s' ∧ (s'.rows = s.rows ∧ s'.columns = s.columns) ∧ ∀ a b, ¬ (a = i ∧ b = j) → s'.val a b = s.val a b := by
  have hr : i < s.rows ∧ j < s.columns := by
    by_contra hn
    unfold Sparse.set at e
    obtain ⟨_, e1, e⟩ := bind_ok_iff.1 e
    obtain ⟨_, e2, e⟩ := bind_ok_iff.1 e
    unfold assert at e1 e2
    split at e1
    · split at e2
      · exact hn ⟨by assumption, by assumption⟩
      · cases e2
    · cases e1
  obtain ⟨t, t1, t2, t3, t4, t5⟩ := h.set_ok v hr.1 hr.2
  rw [t1] at e
  cases e
  exact ⟨t2, ⟨t3, t4⟩, fun a b hab => by rw [t5, if_neg hab]⟩

/-- **C97 fails** for the outputs of `ilu0`: called with `L` the matrix `A` itself, every entry above the diagonal of `A` stays in `L`; called
with `U` the matrix `A` itself, every entry below the diagonal of `A` stays in `U`.  So the factors are triangular only if `A` was.
(`A` is copied first, `LU.inl:224`, so that passing `A` twice to the model is the aliased call.) -/
theorem C97_ilu0_negation (absv : T → V) (eps : V) {A₀ X₀ : Sparse T} {A X : Matrix (Fin n) (Fin n) T} (hA : IsMat A₀ n A)
    (hX : IsMat X₀ n X) {L₁ U₁ : Sparse T} :
    (LU.ilu0 absv eps A₀ A₀ X₀ = .ok (L₁, U₁) → ∀ i j : Fin n, i < j → get L₁ i j = .ok (A i j)) ∧
    (LU.ilu0 absv eps A₀ X₀ A₀ = .ok (L₁, U₁) → ∀ i j : Fin n, j < i → get U₁ i j = .ok (A i j)) := by
  have split : ∀ (M L U : Sparse T), Sparse.Inv L → Sparse.Inv U → Sat (LU.iluSplit M L U) (fun p => (Sparse.Inv p.1 ∧ p.1.rows = L.rows ∧ p.1.columns = L.columns) ∧ (Sparse.Inv p.2 ∧ p.2.rows = U.rows ∧ p.2.columns = U.columns) ∧
      (∀ a b, a < b → p.1.val a b = L.val a b) ∧ ∀ a b, b < a → p.2.val a b = U.val a b) (fun _ => True) := by
    intro M L U hL hU
    unfold LU.iluSplit
    rcases M.entriesNC with e | l
    · trivial
    rw [ok_bind]
    refine sat_forList (fun _ (p : Sparse T × Sparse T) => (Sparse.Inv p.1 ∧ p.1.rows = L.rows ∧ p.1.columns = L.columns) ∧ (Sparse.Inv p.2 ∧ p.2.rows = U.rows ∧ p.2.columns = U.columns) ∧ (∀ a b, a < b → p.1.val a b = L.val a b) ∧
      ∀ a b, b < a → p.2.val a b = U.val a b) l ⟨⟨hL, rfl, rfl⟩, ⟨hU, rfl, rfl⟩, fun _ _ _ => rfl, fun _ _ _ => rfl⟩ ?_
    rintro pre ⟨a, b, v⟩ suf p - ⟨⟨h1, r1, c1⟩, ⟨h2, r2, c2⟩, h3, h4⟩
    rw [sat_iff]
    refine ⟨fun q hq => ?_, fun _ _ => trivial⟩
    by_cases hab : b = a
    · rw [if_pos hab] at hq
      obtain ⟨L', e1, hq⟩ := bind_ok_iff.1 hq
      obtain ⟨U', e2, hq⟩ := bind_ok_iff.1 hq
      cases hq
      obtain ⟨f1, f0, f2⟩ := set_frame h1 e1
      obtain ⟨g1, g0, g2⟩ := set_frame h2 e2
      exact ⟨⟨f1, f0.1.trans r1, f0.2.trans c1⟩, ⟨g1, g0.1.trans r2, g0.2.trans c2⟩, fun c d hcd => by rw [f2 c d (show ¬ (c = a ∧ d = b) by omega), h3 c d hcd], fun c d hcd => by rw [g2 c d (show ¬ (c = a ∧ d = b) by omega), h4 c d hcd]⟩
    rw [if_neg hab] at hq
    by_cases hlt : b < a
    · rw [if_pos hlt] at hq
      obtain ⟨L', e1, hq⟩ := bind_ok_iff.1 hq
      cases hq
      obtain ⟨f1, f0, f2⟩ := set_frame h1 e1
      exact ⟨⟨f1, f0.1.trans r1, f0.2.trans c1⟩, ⟨h2, r2, c2⟩, fun c d hcd => by rw [f2 c d (show ¬ (c = a ∧ d = b) by omega), h3 c d hcd], h4⟩
    · rw [if_neg hlt] at hq
      obtain ⟨U', e2, hq⟩ := bind_ok_iff.1 hq
      cases hq
      obtain ⟨g1, g0, g2⟩ := set_frame h2 e2
      exact ⟨⟨h1, r1, c1⟩, ⟨g1, g0.1.trans r2, g0.2.trans c2⟩, h3, fun c d hcd => by rw [g2 c d (show ¬ (c = a ∧ d = b) by omega), h4 c d hcd]⟩
  have run : ∀ L U : Sparse T, Sparse.Inv L → Sparse.Inv U → ∀ L' U', LU.ilu0 absv eps A₀ L U = .ok (L', U') → (Sparse.Inv L' ∧ L'.rows = L.rows ∧ L'.columns = L.columns) ∧ (Sparse.Inv U' ∧ U'.rows = U.rows ∧ U'.columns = U.columns) ∧
      (∀ a b, a < b → L'.val a b = L.val a b) ∧ ∀ a b, b < a → U'.val a b = U.val a b := by
    intro L U hL hU L' U' h
    unfold LU.ilu0 at h
    obtain ⟨_, -, h⟩ := bind_ok_iff.1 h
    obtain ⟨M, -, h⟩ := bind_ok_iff.1 h
    have := split M L U hL hU
    rw [h] at this
    exact this
  have hav : ∀ i j : Fin n, A₀.val i j = A i j := fun i j => hA.val_eq i j
  have hr : A₀.rows = n := hA.2.1
  have hc : A₀.columns = n := hA.2.2.1
  constructor
  · intro h i j hij
    obtain ⟨⟨k1, k2, k3⟩, -, k4, -⟩ := run A₀ X₀ hA.1 hX.1 L₁ U₁ h
    rw [← hav, ← k4 i j hij]
    exact get_ok k1 (show (i : Nat) < L₁.rows by rw [k2, hr]; exact i.2) (show (j : Nat) < L₁.columns by rw [k3, hc]; exact j.2)
  · intro h i j hij
    obtain ⟨-, ⟨k1, k2, k3⟩, -, k4⟩ := run X₀ A₀ hX.1 hA.1 L₁ U₁ h
    rw [← hav, ← k4 i j hij]
    exact get_ok k1 (show (i : Nat) < U₁.rows by rw [k2, hr]; exact i.2) (show (j : Nat) < U₁.columns by rw [k3, hc]; exact j.2)

/-- the same for the dense `doolittle` with `L` the matrix `A` itself: `A` is copied to `U` first (`LU.inl:62`), its entry above the diagonal
stays in `L`; the sparse `doolittle` replaces `L` and `P` by new matrices and is not affected -/
theorem C97_doolittle_negation : LU.doolittleBase (AbsoluteValue.abs : AbsoluteValue ℚ ℚ) 0 (⟨[4, 3, 2, 5], 2, 2⟩ : Dense ℚ) ⟨[4, 3, 2, 5], 2, 2⟩
    ⟨[0, 0, 0, 0], 2, 2⟩ = .ok (⟨[1, 3, 1 / 2, 1], 2, 2⟩, ⟨[4, 3, 0, 7 / 2], 2, 2⟩, ⟨[1, 0, 0, 1], 2, 2⟩, 0) := by
  decide +kernel

/-- an aliased call that returns: the entry 3 of `A` is in `L` -/
example : (do
    let a ← Sparse.ofLists [[(4 : ℚ), 3], [2, 5]]
    let x ← Sparse.mk' 2 2
    let r ← LU.ilu0 (AbsoluteValue.abs : AbsoluteValue ℚ ℚ) (0 : ℚ) a a x
    return (← r.1.at' 0 1, ← r.2.at' 1 0)) = .ok (3, 0) := by decide +kernel

end outputs
end NS.Props.Alias

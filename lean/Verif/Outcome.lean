/-
Outcomes of C++ calls, checked accesses and loops.
-/
import Mathlib.Tactic.Basic

namespace NS

/-- The exception classes of `/repo/src/lib/Exceptions.h:36-65` that the modelled code throws,
plus the loader exceptions of `/repo/src/lib/loader/MeshTriangleLoader.h` and
`/repo/src/objloader/loader/MeshObjLoader.h`. -/
inductive Exc
  | notSquare | singular | notPositiveDefinite | notHermitian | invalidOutputMatrix
  | vectorSizeMismatch | matrixSizeMismatch | matrixVectorMismatch | matrixMulMismatch
  | matrixHasZeroInDiag | matrixInitializerListFailed
  | invalidVertexIndex | isolatedVertex | malformedVertexElementConnection | incompleteElement
  | zeroVolumeSimplex | malformedElementNeighborConnection | elementNeighborVertex
  | invalidElementCount | tooManySharedFaces
  | loadTriangleNodeError | loadTriangleElementError | loadObjError
  deriving DecidableEq, Repr

/-- `catch(const MathException&)`: which exceptions derive from `MathException`
(`/repo/src/lib/Exceptions.h:39-52`; note that `MatrixVectorMismatch` is in the Math group). -/
def Exc.isMath : Exc → Bool
  | .notSquare | .singular | .notPositiveDefinite | .notHermitian | .invalidOutputMatrix
  | .matrixHasZeroInDiag | .matrixVectorMismatch => true
  | _ => false

/-- Ways in which a C++ call can fail to return normally. -/
inductive Err
  | exc (e : Exc)   -- a C++ exception is thrown
  | abort           -- a failing NS_ASSERT (nsConfig.h:61-80): std::abort()
  | ub              -- undefined behaviour
  | diverge         -- a loop that never terminates
  | nonfinite       -- a division by zero in exact arithmetic: the float result would be infinite or NaN
  deriving DecidableEq, Repr

abbrev R := Except Err

/-- Decidable equality of outcomes (used for concrete witnesses only). -/
instance {α : Type _} [DecidableEq α] : DecidableEq (R α)
  | .ok a, .ok b => decidable_of_iff (a = b) ⟨congrArg _, fun h => by cases h; rfl⟩
  | .error a, .error b => decidable_of_iff (a = b) ⟨congrArg _, fun h => by cases h; rfl⟩
  | .ok _, .error _ => .isFalse (by intro h; cases h)
  | .error _, .ok _ => .isFalse (by intro h; cases h)

/-- `NS_ASSERT(cond)`, `/repo/src/lib/nsConfig.h:61-80` (assertions are active unless
`NS_NO_ASSERTS` is defined; modelled as active). -/
def assert (p : Prop) [Decidable p] : R Unit :=
  if p then .ok () else .error .abort

/-- `throw e` -/
def throwE {α} (e : Exc) : R α := .error (.exc e)

/-- `if (cond) throw e;` -/
def throwIf (p : Prop) [Decidable p] (e : Exc) : R Unit :=
  if p then .error (.exc e) else .ok ()

/-- An unguarded floating-point division `a / b` in a model with exact arithmetic: for `b = 0` the C++ value is
infinite or NaN, which exact arithmetic cannot represent; that outcome is reported as `nonfinite`. -/
def fdiv {T} [Div T] [Zero T] [DecidableEq T] (a b : T) : R T :=
  if b = 0 then .error .nonfinite else .ok (a / b)

/-- `std::vector<T>::operator[]` as an rvalue: undefined behaviour out of range. -/
def getIdx {α} (l : List α) (i : Nat) : R α :=
  match l[i]? with
  | some a => .ok a
  | none => .error .ub

/-- `v[i] = a` on a `std::vector`: undefined behaviour out of range. -/
def setIdx {α} (l : List α) (i : Nat) (a : α) : R (List α) :=
  if i < l.length then .ok (l.set i a) else .error .ub

/-- `size_t` subtraction: wraps modulo 2^64. -/
def wsub (a b : Nat) : Nat := if b ≤ a then a - b else a + 2 ^ 64 - b

/-- `for (k = k0; n more times; ++k) s = f k s` -/
def forAux {σ} (f : Nat → σ → R σ) : Nat → Nat → σ → R σ
  | 0, _, s => .ok s
  | n + 1, k, s => (f k s) >>= fun s' => forAux f n (k + 1) s'

/-- `for (Index k = a; k < b; ++k) body` -/
def forRange {σ} (a b : Nat) (s : σ) (f : Nat → σ → R σ) : R σ := forAux f (b - a) a s

/-- `for (x : l) body` over a sequence that the body does not modify. -/
def forList {α σ} : List α → σ → (α → σ → R σ) → R σ
  | [], s, _ => .ok s
  | a :: l, s, f => (f a s) >>= fun s' => forList l s' f

/-- `Sat x Q E`: if `x` returns normally then with a value satisfying `Q`, and otherwise fails
with an error satisfying `E`. -/
def Sat {α} (x : R α) (Q : α → Prop) (E : Err → Prop) : Prop :=
  match x with
  | .ok a => Q a
  | .error e => E e

/-- no error -/
def noErr : Err → Prop := fun _ => False

section lemmas
variable {α β σ : Type _}

@[simp] theorem ok_bind (a : α) (f : α → R β) : ((Except.ok a : R α) >>= f) = f a := rfl
@[simp] theorem error_bind (e : Err) (f : α → R β) : ((Except.error e : R α) >>= f) = .error e := rfl
@[simp] theorem pure_eq_ok (a : α) : (pure a : R α) = .ok a := rfl

@[simp] theorem assert_true {p : Prop} [Decidable p] (h : p) : assert p = .ok () := by
  simp [assert, h]
@[simp] theorem assert_false {p : Prop} [Decidable p] (h : ¬ p) : assert p = .error .abort := by
  simp [assert, h]
theorem throwIf_false {p : Prop} [Decidable p] (e) (h : ¬ p) : throwIf p e = .ok () := by
  simp [throwIf, h]
theorem throwIf_true {p : Prop} [Decidable p] (e) (h : p) : throwIf p e = .error (.exc e) := by
  simp [throwIf, h]

theorem getIdx_eq {l : List α} {i : Nat} (h : i < l.length) : getIdx l i = .ok l[i] := by
  simp [getIdx, h]
theorem getIdx_of_some {l : List α} {i : Nat} {a : α} (h : l[i]? = some a) :
    getIdx l i = .ok a := by
  simp [getIdx, h]
theorem setIdx_eq {l : List α} {i : Nat} (a : α) (h : i < l.length) :
    setIdx l i a = .ok (l.set i a) := by
  simp [setIdx, h]
theorem wsub_of_le {a b : Nat} (h : b ≤ a) : wsub a b = a - b := by simp [wsub, h]

@[simp] theorem Sat_ok {a : α} {Q E} : Sat (.ok a : R α) Q E ↔ Q a := Iff.rfl
@[simp] theorem Sat_error {e : Err} {Q : α → Prop} {E} : Sat (.error e : R α) Q E ↔ E e := Iff.rfl

theorem Sat.mono {x : R α} {Q Q' : α → Prop} {E E' : Err → Prop} (h : Sat x Q E)
    (hq : ∀ a, Q a → Q' a) (he : ∀ e, E e → E' e) : Sat x Q' E' := by
  cases x with
  | ok a => exact hq _ h
  | error e => exact he _ h

theorem Sat.bind {x : R α} {f : α → R β} {Q : β → Prop} {P : α → Prop} {E : Err → Prop}
    (h : Sat x P E) (hf : ∀ a, P a → Sat (f a) Q E) : Sat (x >>= f) Q E := by
  cases x with
  | ok a => exact hf _ h
  | error e => exact h

theorem Sat.ok_of {x : R α} {Q : α → Prop} (h : Sat x Q noErr) : ∃ a, x = .ok a ∧ Q a := by
  cases x with
  | ok a => exact ⟨a, rfl, h⟩
  | error e => exact h.elim

theorem Sat.of_ok {x : R α} {Q : α → Prop} {E} {a : α} (h : Sat x Q E) (hx : x = .ok a) : Q a := by
  subst hx; exact h

theorem Sat.of_error {x : R α} {Q : α → Prop} {E} {e : Err} (h : Sat x Q E) (hx : x = .error e) :
    E e := by
  subst hx; exact h

theorem sat_iff {x : R α} {Q : α → Prop} {E} :
    Sat x Q E ↔ (∀ a, x = .ok a → Q a) ∧ (∀ e, x = .error e → E e) := by
  cases x <;> simp

theorem Sat.assert {p : Prop} [Decidable p] {Q : Unit → Prop} {E} (h : p) (hq : Q ()) :
    Sat (assert p) Q E := by simp [h, hq]

theorem sat_throwIf {p : Prop} [Decidable p] {e : Exc} {E : Err → Prop} (hE : p → E (.exc e)) :
    Sat (throwIf p e) (fun _ => ¬ p) E := by
  by_cases h : p
  · simpa [throwIf, h] using hE h
  · simp [throwIf, h]

/-- Invariant rule for counted loops. -/
theorem sat_forAux {f : Nat → σ → R σ} {E : Err → Prop} (I : Nat → σ → Prop) :
    ∀ (n k : Nat) (s : σ), I k s →
      (∀ j s, k ≤ j → j < k + n → I j s → Sat (f j s) (I (j + 1)) E) →
      Sat (forAux f n k s) (I (k + n)) E
  | 0, k, s, h0, _ => by simpa [forAux] using h0
  | n + 1, k, s, h0, hs => by
      unfold forAux
      refine Sat.bind (hs k s (Nat.le_refl _) (by omega) h0) ?_
      intro s' h'
      have := sat_forAux I n (k + 1) s' h' (fun j s hj hj' => hs j s (by omega) (by omega))
      have he : k + 1 + n = k + (n + 1) := by omega
      rwa [he] at this

theorem sat_forRange {f : Nat → σ → R σ} {E : Err → Prop} (I : Nat → σ → Prop) {a b : Nat}
    (hab : a ≤ b) {s : σ} (h0 : I a s)
    (hs : ∀ j s, a ≤ j → j < b → I j s → Sat (f j s) (I (j + 1)) E) :
    Sat (forRange a b s f) (I b) E := by
  have := sat_forAux (f := f) (E := E) I (b - a) a s h0
    (fun j s hj hj' => hs j s hj (by omega))
  have he : a + (b - a) = b := by omega
  rwa [he] at this

theorem forRange_empty {f : Nat → σ → R σ} {a b : Nat} (h : b ≤ a) (s : σ) :
    forRange a b s f = .ok s := by
  have : b - a = 0 := by omega
  simp [forRange, this, forAux]

theorem forRange_step {f : Nat → σ → R σ} {a b : Nat} (h : a < b) (s : σ) :
    forRange a b s f = (f a s) >>= fun s' => forRange (a + 1) b s' f := by
  have : b - a = (b - (a + 1)) + 1 := by omega
  simp only [forRange, this, forAux]

/-- Invariant rule for sequence loops: `I` may depend on the part already processed. -/
theorem sat_forList {f : α → σ → R σ} {E : Err → Prop} (I : List α → σ → Prop) (l : List α)
    {s : σ} (h0 : I [] s)
    (hs : ∀ pre a suf s, l = pre ++ a :: suf → I pre s → Sat (f a s) (I (pre ++ [a])) E) :
    Sat (forList l s f) (I l) E := by
  suffices h : ∀ (suf pre : List α) (s : σ), l = pre ++ suf → I pre s →
      Sat (forList suf s f) (I l) E from h l [] s rfl h0
  intro suf
  induction suf with
  | nil => intro pre s hl hp; simp at hl; subst hl; simpa [forList] using hp
  | cons a suf ih =>
    intro pre s hl hp
    unfold forList
    refine Sat.bind (hs pre a suf s hl hp) ?_
    intro s' h'
    exact ih (pre ++ [a]) s' (by simp [hl]) h'

theorem forList_append {f : α → σ → R σ} (l₁ l₂ : List α) (s : σ) :
    forList (l₁ ++ l₂) s f = forList l₁ s f >>= fun s' => forList l₂ s' f := by
  induction l₁ generalizing s with
  | nil => simp [forList]
  | cons a l ih =>
    simp only [List.cons_append, forList]
    cases f a s with
    | error e => rfl
    | ok s' => simp [ih]

/-- A loop whose body never fails is a fold. -/
theorem forList_ok {f : α → σ → R σ} {g : α → σ → σ} (l : List α) (s : σ)
    (h : ∀ a ∈ l, ∀ s, f a s = .ok (g a s)) :
    forList l s f = .ok (l.foldl (fun s a => g a s) s) := by
  induction l generalizing s with
  | nil => rfl
  | cons a l ih =>
    simp only [forList, h a (by simp), ok_bind, List.foldl_cons]
    exact ih _ (fun b hb => h b (by simp [hb]))

end lemmas
end NS

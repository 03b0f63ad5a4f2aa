/-
Lemmas about the mesh model: incidence lists and `setupNeighbors`.
-/
import Verif.MeshModel
import Mathlib.Data.Finset.Card
import Mathlib.Data.Finset.Image
import Mathlib.Data.Fintype.Basic
import Mathlib.Data.List.Nodup
import Mathlib.Tactic.FinCases

set_option linter.unusedSectionVars false
set_option linter.unusedSimpArgs false

namespace NS
namespace World
variable {T : Type} [Field T] [LinearOrder T]

/-! ### faces of a triangle -/

/-- the two corners of face `i` (the face opposite to corner `i`) in the order of `shared` -/
def fA (i : Fin 3) : Fin 3 := if i = 0 then 1 else 0
def fB (i : Fin 3) : Fin 3 := if i = 2 then 1 else 2

/-- face `i` of the triangle with corners `t` -/
def fc (t : Fin 3 → Nat) (i : Fin 3) : Finset Nat := {t (fA i), t (fB i)}
/-- the corners of the triangle -/
def cs (t : Fin 3 → Nat) : Finset Nat := Finset.univ.image t
/-- the array of corners -/
def arr (t : Fin 3 → Nat) : List (Option Nat) := [some (t 0), some (t 1), some (t 2)]

theorem mem_cs {t : Fin 3 → Nat} {x : Nat} : x ∈ cs t ↔ x = t 0 ∨ x = t 1 ∨ x = t 2 := by
  simp only [cs, Finset.mem_image, Finset.mem_univ, true_and, Fin.exists_fin_succ, Fin.isValue]
  constructor
  · rintro (h | h | h | h)
    · exact .inl h.symm
    · exact .inr (.inl h.symm)
    · exact .inr (.inr h.symm)
    · exact absurd h (by rintro ⟨⟨k, hk⟩, -⟩; omega)
  · rintro (h | h | h)
    · exact .inl h.symm
    · exact .inr (.inl h.symm)
    · exact .inr (.inr (.inl h.symm))

theorem mem_arr {t : Fin 3 → Nat} {x : Nat} : some x ∈ arr t ↔ x ∈ cs t := by
  rw [mem_cs]; simp [arr]

theorem fA_ne_fB (i : Fin 3) : fA i ≠ fB i := by fin_cases i <;> decide

theorem fc_subset_cs (t : Fin 3 → Nat) (i : Fin 3) : fc t i ⊆ cs t := by
  intro x hx
  simp only [fc, Finset.mem_insert, Finset.mem_singleton] at hx
  simp only [cs, Finset.mem_image, Finset.mem_univ, true_and]
  rcases hx with h | h
  · exact ⟨_, h.symm⟩
  · exact ⟨_, h.symm⟩

theorem fc_inj {t : Fin 3 → Nat} (ht : Function.Injective t) {i j : Fin 3} (h : fc t i = fc t j) : i = j := by
  have key : ∀ i j : Fin 3, i ≠ j → t j ∈ fc t i := by
    intro i j hij
    simp only [fc, Finset.mem_insert, Finset.mem_singleton]
    fin_cases i <;> fin_cases j <;> simp [fA, fB] at hij ⊢
  have key2 : ∀ j : Fin 3, t j ∉ fc t j := by
    intro j hj
    simp only [fc, Finset.mem_insert, Finset.mem_singleton] at hj
    rcases hj with h | h
    · have := ht h; fin_cases j <;> simp [fA] at this
    · have := ht h; fin_cases j <;> simp [fB] at this
  by_contra hne
  have := key i j hne
  rw [h] at this
  exact key2 j this

theorem fc_mem_iff {t : Fin 3 → Nat} (ht : Function.Injective t) (i j : Fin 3) : t j ∈ fc t i ↔ j ≠ i := by
  constructor
  · rintro hj rfl
    simp only [fc, Finset.mem_insert, Finset.mem_singleton] at hj
    rcases hj with h | h
    · have := ht h; fin_cases j <;> simp [fA] at this
    · have := ht h; fin_cases j <;> simp [fB] at this
  · intro hij
    simp only [fc, Finset.mem_insert, Finset.mem_singleton]
    fin_cases i <;> fin_cases j <;> simp [fA, fB] at hij ⊢

theorem sharedArr_ok (t : Fin 3 → Nat) (i : Fin 3) :
    sharedArr (arr t) i = .ok (2, [some (t (fA i)), some (t (fB i))]) := by
  fin_cases i <;> rfl

theorem matchCount_iff {t : Fin 3 → Nat} (ht : Function.Injective t) {x y : Nat} (hxy : x ≠ y) :
    matchCount [some x, some y] (arr t) = 2 ↔ ({x, y} : Finset Nat) ⊆ cs t := by
  have h01 : t 0 ≠ t 1 := fun h => by simpa using ht h
  have h02 : t 0 ≠ t 2 := fun h => by simpa using ht h
  have h12 : t 1 ≠ t 2 := fun h => by simpa using ht h
  rw [Finset.insert_subset_iff, Finset.singleton_subset_iff, mem_cs, mem_cs]
  simp only [matchCount, arr, List.foldl_cons, List.foldl_nil, List.contains_cons, List.contains_nil, Bool.or_false,
    Bool.or_eq_true, beq_iff_eq, Option.some.injEq]
  by_cases a0 : t 0 = x <;> by_cases a1 : t 1 = x <;> by_cases a2 : t 2 = x <;>
  by_cases b0 : t 0 = y <;> by_cases b1 : t 1 = y <;> by_cases b2 : t 2 = y <;>
    simp [a0, a1, a2, b0, b1, b2] <;> omega

theorem symIndex_ok {t : Fin 3 → Nat} (ht : Function.Injective t) {x y : Nat} (hxy : x ≠ y)
    (hs : ({x, y} : Finset Nat) ⊆ cs t) :
    ∃ j : Fin 3, symIndex [some x, some y] (arr t) = .ok (some (j : Nat)) ∧ fc t j = {x, y} := by
  have h01 : t 0 ≠ t 1 := fun h => by simpa using ht h
  have h02 : t 0 ≠ t 2 := fun h => by simpa using ht h
  have h12 : t 1 ≠ t 2 := fun h => by simpa using ht h
  rw [Finset.insert_subset_iff, Finset.singleton_subset_iff, mem_cs, mem_cs] at hs
  obtain ⟨hx, hy⟩ := hs
  have key : symIndex [some x, some y] (arr t) =
      if [some x, some y].contains (some (t 0)) then
        if [some x, some y].contains (some (t 1)) then
          if [some x, some y].contains (some (t 2)) then .ok none else .ok (some 2)
        else .ok (some 1)
      else .ok (some 0) := by
    unfold symIndex arr
    simp only [forRange, Nat.sub_zero, forAux, getIdx, List.getElem?_cons_zero, List.getElem?_cons_succ, ok_bind,
      pure_eq_ok]
    split <;> simp only [ok_bind, pure_eq_ok]
    split <;> simp only [ok_bind, pure_eq_ok]
    split <;> rfl
  rw [key]
  simp only [List.contains_cons, List.contains_nil, Bool.or_false, Bool.or_eq_true, beq_iff_eq, Option.some.injEq]
  rcases hx with rfl | rfl | rfl <;> rcases hy with rfl | rfl | rfl
  · exact absurd rfl hxy
  · exact ⟨2, by simp [h01, h02, h12, h01.symm, h02.symm, h12.symm], by simp [fc, fA, fB]⟩
  · exact ⟨1, by simp [h01, h02, h12, h01.symm, h02.symm, h12.symm], by simp [fc, fA, fB]⟩
  · exact ⟨2, by simp [h01, h02, h12, h01.symm, h02.symm, h12.symm], by simp [fc, fA, fB, Finset.pair_comm]⟩
  · exact absurd rfl hxy
  · exact ⟨0, by simp [h01, h02, h12, h01.symm, h02.symm, h12.symm], by simp [fc, fA, fB]⟩
  · exact ⟨1, by simp [h01, h02, h12, h01.symm, h02.symm, h12.symm], by simp [fc, fA, fB, Finset.pair_comm]⟩
  · exact ⟨0, by simp [h01, h02, h12, h01.symm, h02.symm, h12.symm], by simp [fc, fA, fB, Finset.pair_comm]⟩
  · exact absurd rfl hxy

/-! ### setupNeighbors -/

/-- pointer to the edge stored in slot `i` of element `a` -/
def nbr (w : World T) (a i : Nat) : Option Nat := (w.E[a]?.bind fun e => e.nbrs[i]?).join

/-- the part of the mesh `setupNeighbors` reads: the elements `els` with corners `tv`, and the incidence lists -/
structure Static (els : List Nat) (tv : Nat → Fin 3 → Nat) (w : World T) : Prop where
  els_eq : w.elements = els
  inj : ∀ a ∈ els, Function.Injective (tv a)
  el : ∀ a ∈ els, ∃ e, w.E[a]? = some e ∧ e.verts = arr (tv a) ∧ e.nbrs.length = 3
  inc : ∀ a ∈ els, ∀ q ∈ cs (tv a), ∃ v, w.V[q]? = some v ∧ ∀ b, b ∈ v.elems ↔ b ∈ els ∧ q ∈ cs (tv b)

/-- element `b`, different from `S`, contains the face `f` -/
def Other (els : List Nat) (tv : Nat → Fin 3 → Nat) (S : Nat) (f : Finset Nat) (b : Nat) : Prop :=
  b ∈ els ∧ b ≠ S ∧ f ⊆ cs (tv b)

theorem findOther_spec {els tv} {w : World T} (h : Static els tv w) {S : Nat} (hS : S ∈ els) (i : Fin 3) :
    Sat (findOther w S [some (tv S (fA i)), some (tv S (fB i))])
      (fun r => (∀ o, r = some o → Other els tv S (fc (tv S) i) o) ∧ ∀ b, Other els tv S (fc (tv S) i) b → r = some b)
      (fun e => e = .exc .tooManySharedFaces ∧ ∃ b c, b ≠ c ∧ Other els tv S (fc (tv S) i) b ∧
        Other els tv S (fc (tv S) i) c) := by
  unfold findOther
  have hne : tv S (fA i) ≠ tv S (fB i) := fun hh => fA_ne_fB i (h.inj S hS hh)
  refine Sat.mono (sat_forRange
    (fun j (r : Option Nat) => (∀ o, r = some o → Other els tv S (fc (tv S) i) o) ∧
      (1 ≤ j → ∀ b, Other els tv S (fc (tv S) i) b → r = some b)) (Nat.zero_le 2)
    ⟨fun o ho => (by cases ho), fun hh => absurd hh (by omega)⟩ ?_) (fun r hr => ⟨hr.1, hr.2 (by omega)⟩)
    (fun e he => he)
  intro j r _ hj ⟨hr1, hr2⟩
  obtain ⟨q, hq, hqc⟩ : ∃ q, [some (tv S (fA i)), some (tv S (fB i))][j]? = some (some q) ∧ q ∈ fc (tv S) i := by
    match j, hj with
    | 0, _ => exact ⟨_, rfl, by simp [fc]⟩
    | 1, _ => exact ⟨_, rfl, by simp [fc]⟩
  obtain ⟨v, v1, v2⟩ := h.inc S hS q (fc_subset_cs _ _ hqc)
  rw [getIdx_of_some hq, ok_bind]
  simp only [deref, ok_bind]
  rw [getIdx_of_some v1, ok_bind]
  refine Sat.mono (sat_forList (fun pre (r' : Option Nat) => (∀ o, r' = some o → Other els tv S (fc (tv S) i) o) ∧
    (∀ o, r = some o → r' = some o) ∧ ∀ b ∈ pre, Other els tv S (fc (tv S) i) b → r' = some b) v.elems
    ⟨hr1, fun o ho => ho, fun b hb => absurd hb (by simp)⟩ ?_) ?_ (fun e he => he)
  · intro pre oe suf r' hsplit ⟨g1, g2, g3⟩
    have hoe : oe ∈ v.elems := by rw [hsplit]; simp
    obtain ⟨hoe1, hoe2⟩ := (v2 oe).1 hoe
    obtain ⟨e, e1, e2, -⟩ := h.el oe hoe1
    by_cases hSo : oe = S
    · rw [if_pos hSo]
      refine ⟨g1, g2, fun b hb hob => ?_⟩
      rcases List.mem_append.1 hb with hb | hb
      · exact g3 b hb hob
      · rw [List.mem_singleton] at hb
        exact absurd (hb.trans hSo) hob.2.1
    · rw [if_neg hSo, getIdx_of_some e1, ok_bind, e2]
      by_cases hm : matchCount [some (tv S (fA i)), some (tv S (fB i))] (arr (tv oe)) = 2
      · rw [if_pos hm]
        have hO : Other els tv S (fc (tv S) i) oe := ⟨hoe1, hSo, (matchCount_iff (h.inj oe hoe1) hne).1 hm⟩
        by_cases ht : r' ≠ none ∧ r' ≠ some oe
        · rw [throwIf_true _ ht]
          obtain ⟨o, ho⟩ := Option.ne_none_iff_exists'.1 ht.1
          exact ⟨rfl, o, oe, fun hh => ht.2 (by rw [ho, hh]), g1 o ho, hO⟩
        · rw [throwIf_false _ ht, ok_bind]
          have hr' : ∀ o, r' = some o → o = oe := by
            intro o ho
            by_contra hne'
            exact ht ⟨by rw [ho]; simp, by rw [ho]; simpa using hne'⟩
          refine ⟨fun o ho => ?_, fun o ho => ?_, fun b hb hob => ?_⟩
          · obtain rfl := Option.some.inj ho; exact hO
          · rw [hr' o (g2 o ho)]
          · rcases List.mem_append.1 hb with hb | hb
            · rw [hr' b (g3 b hb hob)]
            · rw [List.mem_singleton] at hb; rw [hb]
      · rw [if_neg hm]
        refine ⟨g1, g2, fun b hb hob => ?_⟩
        rcases List.mem_append.1 hb with hb | hb
        · exact g3 b hb hob
        · rw [List.mem_singleton] at hb
          subst hb
          exact absurd ((matchCount_iff (h.inj b hoe1) hne).2 hob.2.2) hm
  · rintro r' ⟨g1, g2, g3⟩
    refine ⟨g1, fun _ b hob => g3 b ?_ hob⟩
    exact (v2 b).2 ⟨hob.1, hob.2.2 hqc⟩

/-- edge object `f` describes the face `F` -/
structure EdgeFor (els : List Nat) (tv : Nat → Fin 3 → Nat) (F : Finset Nat) (f : MEdge) : Prop where
  verts : ∃ p q, f.verts = [some p, some q] ∧ p ≠ q ∧ F = {p, q}
  first : ∃ a, f.e0 = some a ∧ a ∈ els ∧ F ⊆ cs (tv a)
  second : ∀ b, f.e1 = some b → b ∈ els ∧ F ⊆ cs (tv b) ∧ f.e0 ≠ some b
  all : ∀ b ∈ els, F ⊆ cs (tv b) → f.e0 = some b ∨ f.e1 = some b
  dofs : f.dofs = []

/-- invariant of `setupNeighbors` -/
structure NB (els : List Nat) (tv : Nat → Fin 3 → Nat) (w : World T) : Prop extends Static els tv w where
  edge : ∀ a ∈ els, ∀ i : Fin 3, ∀ ep, nbr w a i = some ep → ∃ f, w.F[ep]? = some f ∧ EdgeFor els tv (fc (tv a) i) f
  clos : ∀ a ∈ els, ∀ b ∈ els, ∀ i j : Fin 3, fc (tv a) i = fc (tv b) j → nbr w a i = nbr w b j
  edges_eq : w.edges = List.range w.F.length
  used : ∀ ep < w.F.length, ∃ a ∈ els, ∃ i : Fin 3, nbr w a i = some ep

theorem getElem?_set' {α : Type} (l : List α) (k m : Nat) (x : α) (hk : k < l.length) :
    (l.set k x)[m]? = if m = k then some x else l[m]? := by
  rw [List.getElem?_set]
  by_cases h : k = m
  · subst h; simp [hk]
  · simp [h, Ne.symm h]

theorem nbr_of {w : World T} {a i : Nat} {e : MElem T} (h : w.E[a]? = some e) {n : Option Nat} (hi : e.nbrs[i]? = some n) :
    nbr w a i = n := by
  unfold nbr
  rw [h]
  simp [hi]

/-- writing one neighbour slot -/
theorem nbr_set {w w' : World T} {S i : Nat} {s : MElem T} {ep : Nat} (hs : w.E[S]? = some s) (hi : i < s.nbrs.length)
    (hE : w'.E = w.E.set S { s with nbrs := s.nbrs.set i (some ep) }) (a k : Nat) :
    nbr w' a k = if a = S ∧ k = i then some ep else nbr w a k := by
  have hlt : S < w.E.length := by
    by_contra hc
    rw [List.getElem?_eq_none (by omega)] at hs; cases hs
  unfold nbr
  rw [hE, getElem?_set' _ _ _ _ hlt]
  by_cases ha : a = S
  · subst ha
    rw [if_pos rfl, hs]
    simp only [Option.bind_some, true_and]
    rw [getElem?_set' _ _ _ _ hi]
    by_cases hk : k = i
    · simp [hk]
    · simp [hk]
  · rw [if_neg ha, if_neg (fun h => ha h.1)]

theorem static_set {els tv} {w w' : World T} (h : Static els tv w) {S i : Nat} {s : MElem T} {ep : Nat}
    (hs : w.E[S]? = some s) (hV : w'.V = w.V) (hel : w'.elements = w.elements)
    (hE : w'.E = w.E.set S { s with nbrs := s.nbrs.set i (some ep) }) : Static els tv w' := by
  have hlt : S < w.E.length := by
    by_contra hc
    rw [List.getElem?_eq_none (by omega)] at hs; cases hs
  refine ⟨by rw [hel]; exact h.els_eq, h.inj, fun a ha => ?_, fun a ha q hq => by rw [hV]; exact h.inc a ha q hq⟩
  obtain ⟨e, e1, e2, e3⟩ := h.el a ha
  rw [hE, getElem?_set' _ _ _ _ hlt]
  by_cases haS : a = S
  · subst haS
    rw [hs] at e1
    obtain rfl := (Option.some.inj e1).symm
    rw [if_pos rfl]
    exact ⟨_, rfl, e2, by simpa using e3⟩
  · rw [if_neg haS]
    exact ⟨e, e1, e2, e3⟩

theorem setupFace_done {S i : Nat} {w : World T} {s : MElem T} (hs : w.E[S]? = some s) {ep : Nat}
    (hn : s.nbrs[i]? = some (some ep)) : setupFace S i w = .ok w := by
  unfold setupFace
  rw [getIdx_of_some hs, ok_bind, getIdx_of_some hn, ok_bind, if_pos (by simp)]
  rfl

theorem setupFace_spec {els tv} {w : World T} (h : NB els tv w) {S : Nat} (hS : S ∈ els) (i : Fin 3) :
    Sat (setupFace S i w)
      (fun w' => NB els tv w' ∧ (∃ ep, nbr w' S i = some ep) ∧ (∀ a k ep, nbr w a k = some ep → nbr w' a k = some ep) ∧
        w'.V = w.V ∧ w'.vertices = w.vertices ∧ w.F.length ≤ w'.F.length)
      (fun e => e = .exc .tooManySharedFaces ∧ ∃ a ∈ els, ∃ b c, ∃ i, b ≠ c ∧ Other els tv a (fc (tv a) i) b ∧
        Other els tv a (fc (tv a) i) c) := by
  obtain ⟨s, s1, s2, s3⟩ := h.el S hS
  have hi : (i : Nat) < s.nbrs.length := by rw [s3]; exact i.2
  have hlt : S < w.E.length := by
    by_contra hc
    rw [List.getElem?_eq_none (by omega)] at s1; cases s1
  have hn : s.nbrs[(i : Nat)]? = some (s.nbrs[(i : Nat)]) := by simp [hi]
  have hnb : nbr w S i = s.nbrs[(i : Nat)] := nbr_of s1 hn
  rcases hcase : s.nbrs[(i : Nat)] with _ | ep0
  swap
  · rw [hcase] at hn hnb
    rw [setupFace_done s1 hn]
    exact ⟨h, ⟨ep0, hnb⟩, fun a k ep he => he, rfl, rfl, le_refl _⟩
  rw [hcase] at hn hnb
  have hne : tv S (fA i) ≠ tv S (fB i) := fun hh => fA_ne_fB i (h.inj S hS hh)
  have hsa : sharedArr s.verts i = .ok (2, [some (tv S (fA i)), some (tv S (fB i))]) := by rw [s2, sharedArr_ok]
  unfold setupFace
  rw [getIdx_of_some s1, ok_bind, getIdx_of_some hn, ok_bind, if_neg (by simp), hsa, ok_bind]
  simp only
  rw [throwIf_false _ (by simp), ok_bind, setIdx_eq _ hi, ok_bind]
  set w1 : World T := { w with
    F := w.F ++ [⟨[some (tv S (fA i)), some (tv S (fB i))], some S, none, []⟩],
    E := w.E.set S { s with nbrs := s.nbrs.set i (some w.F.length) },
    edges := w.edges ++ [w.F.length] } with hw1
  have hst1 : Static els tv w1 := static_set h.toStatic s1 rfl rfl rfl
  have hnb1 : ∀ a k, nbr w1 a k = if a = S ∧ k = (i : Nat) then some w.F.length else nbr w a k :=
    fun a k => nbr_set s1 hi rfl a k
  have hF1 : ∀ (ep : Nat) f, w.F[ep]? = some f → w1.F[ep]? = some f := by
    intro ep f hf
    have : ep < w.F.length := by
      by_contra hc
      rw [List.getElem?_eq_none (by omega)] at hf; cases hf
    show (w.F ++ _)[ep]? = _
    rw [List.getElem?_append_left this, hf]
  have hlen1 : w1.F.length = w.F.length + 1 := by simp [hw1]
  have hnew1 : w1.F[w.F.length]? = some ⟨[some (tv S (fA i)), some (tv S (fB i))], some S, none, []⟩ := by
    show (w.F ++ _)[w.F.length]? = _
    simp
  have hkeep : ∀ a k ep, nbr w a k = some ep → ¬ (a = S ∧ k = (i : Nat)) := by
    rintro a k ep he ⟨rfl, rfl⟩
    rw [hnb] at he; cases he
  have hedges1 : w1.edges = List.range w1.F.length := by
    rw [hlen1, List.range_succ, ← h.edges_eq]
  -- a slot with the same face as (S,i) is empty in `w`
  have hempty : ∀ a ∈ els, ∀ k : Fin 3, fc (tv a) k = fc (tv S) i → nbr w a k = none := by
    intro a ha k hf
    rw [h.clos a ha S hS k i hf, hnb]
  refine Sat.bind (Sat.mono (findOther_spec hst1 hS i) (fun r hr => hr) ?_) ?_
  · rintro e ⟨rfl, b, c, hbc, hb, hc⟩
    exact ⟨rfl, S, hS, b, c, i, hbc, hb, hc⟩
  intro r ⟨r1, r2⟩
  cases r with
  | none =>
    have hno : ∀ b, ¬ Other els tv S (fc (tv S) i) b := fun b hb => by cases r2 b hb
    have honly : ∀ b ∈ els, fc (tv S) i ⊆ cs (tv b) → b = S := by
      intro b hb hsub
      by_contra hbS
      exact hno b ⟨hb, hbS, hsub⟩
    refine ⟨⟨hst1, ?_, ?_, hedges1, ?_⟩, ⟨w.F.length, by rw [hnb1]; simp⟩, ?_, rfl, rfl, by omega⟩
    · intro a ha k ep he
      rw [hnb1] at he
      split at he
      · next hh =>
        obtain ⟨rfl, hk⟩ := hh
        obtain rfl := Fin.ext hk
        obtain rfl := Option.some.inj he
        refine ⟨_, hnew1, ⟨_, _, rfl, hne, rfl⟩, ⟨a, rfl, ha, fc_subset_cs _ _⟩, fun b hb => (by cases hb), ?_, rfl⟩
        intro b hb hsub
        exact .inl (by rw [honly b hb hsub])
      · obtain ⟨f, f1, f2⟩ := h.edge a ha k ep he
        exact ⟨f, hF1 ep f f1, f2⟩
    · intro a ha b hb k l hf
      rw [hnb1, hnb1]
      by_cases hA : a = S ∧ (k : Nat) = i
      · obtain ⟨rfl, hk⟩ := hA
        obtain rfl := Fin.ext hk
        have hbS := honly b hb (by rw [hf]; exact fc_subset_cs _ _)
        subst hbS
        obtain rfl := fc_inj (h.inj _ hb) hf
        rfl
      · by_cases hB : b = S ∧ (l : Nat) = i
        · obtain ⟨rfl, hl⟩ := hB
          obtain rfl := Fin.ext hl
          have haS := honly a ha (by rw [← hf]; exact fc_subset_cs _ _)
          subst haS
          obtain rfl := fc_inj (h.inj _ ha) hf
          exact absurd ⟨rfl, rfl⟩ hA
        · rw [if_neg hA, if_neg hB]
          exact h.clos a ha b hb k l hf
    · intro ep hep
      rw [hlen1] at hep
      by_cases hlast : ep = w.F.length
      · exact ⟨S, hS, i, by rw [hnb1, if_pos ⟨rfl, rfl⟩, hlast]⟩
      · obtain ⟨a, ha, k, hk⟩ := h.used ep (by omega)
        exact ⟨a, ha, k, by rw [hnb1, if_neg (hkeep a k ep hk), hk]⟩
    · intro a k ep he
      rw [hnb1, if_neg (hkeep a k ep he), he]
  | some o =>
    obtain ⟨ho, hoS, hosub⟩ := r1 o rfl
    obtain ⟨other, o1, o2, o3⟩ := hst1.el o ho
    obtain ⟨j, j1, j2⟩ := symIndex_ok (h.inj o ho) hne (show ({tv S (fA i), tv S (fB i)} : Finset Nat) ⊆ cs (tv o) from hosub)
    have hjlt : (j : Nat) < other.nbrs.length := by rw [o3]; exact j.2
    simp only
    rw [getIdx_of_some o1, ok_bind, show symIndex [some (tv S (fA i)), some (tv S (fB i))] other.verts = .ok (some (j : Nat)) by rw [o2, j1], ok_bind]
    simp only
    rw [setIdx_eq _ hjlt, ok_bind]
    have hjfc : fc (tv o) j = fc (tv S) i := j2
    have hwho : ∀ b ∈ els, fc (tv S) i ⊆ cs (tv b) → b = S ∨ b = o := by
      intro b hb hsub
      by_cases hbS : b = S
      · exact .inl hbS
      · right
        have := r2 b ⟨hb, hbS, hsub⟩
        exact (Option.some.inj this).symm
    set w2 : World T := { w1 with
      F := w1.F.set w.F.length ⟨[some (tv S (fA i)), some (tv S (fB i))], some S, some o, []⟩,
      E := w1.E.set o { other with nbrs := other.nbrs.set j (some w.F.length) } } with hw2
    have hst2 : Static els tv w2 := static_set hst1 o1 rfl rfl rfl
    have hnb2 : ∀ a k, nbr w2 a k = if (a = S ∧ k = (i : Nat)) ∨ (a = o ∧ k = (j : Nat)) then some w.F.length else nbr w a k := by
      intro a k
      rw [nbr_set o1 hjlt rfl a k, hnb1]
      by_cases h1 : a = o ∧ k = (j : Nat) <;> by_cases h2 : a = S ∧ k = (i : Nat) <;> simp [h1, h2]
    have hlen2 : w2.F.length = w.F.length + 1 := by simp [hw2, hlen1]
    have hF2 : ∀ (ep : Nat) f, w.F[ep]? = some f → w2.F[ep]? = some f := by
      intro ep f hf
      have : ep < w.F.length := by
        by_contra hc
        rw [List.getElem?_eq_none (by omega)] at hf; cases hf
      show (w1.F.set _ _)[ep]? = _
      rw [List.getElem?_set_ne (by omega)]
      exact hF1 ep f hf
    have hnew2 : w2.F[w.F.length]? = some ⟨[some (tv S (fA i)), some (tv S (fB i))], some S, some o, []⟩ := by
      show (w1.F.set _ _)[w.F.length]? = _
      rw [getElem?_set' _ _ _ _ (by omega), if_pos rfl]
    have hkeep2 : ∀ a, a ∈ els → ∀ k : Nat, ∀ ep, nbr w a k = some ep → ¬ ((a = S ∧ k = (i : Nat)) ∨ (a = o ∧ k = (j : Nat))) := by
      rintro a ha k ep he (hh | ⟨rfl, rfl⟩)
      · exact hkeep a k ep he hh
      · rw [hempty a ha j hjfc] at he; cases he
    have hkeep2' : ∀ a, ∀ k : Nat, ∀ ep, nbr w a k = some ep → ¬ ((a = S ∧ k = (i : Nat)) ∨ (a = o ∧ k = (j : Nat))) := by
      rintro a k ep he (hh | ⟨rfl, rfl⟩)
      · exact hkeep a k ep he hh
      · rw [hempty a ho j hjfc] at he; cases he
    have hslot : ∀ a, ∀ k : Fin 3, ((a = S ∧ (k : Nat) = i) ∨ (a = o ∧ (k : Nat) = j)) → fc (tv a) k = fc (tv S) i := by
      rintro a k (⟨rfl, hk⟩ | ⟨rfl, hk⟩)
      · rw [Fin.ext hk]
      · rw [Fin.ext hk, hjfc]
    have hslot' : ∀ a ∈ els, ∀ k : Fin 3, fc (tv a) k = fc (tv S) i → ((a = S ∧ (k : Nat) = i) ∨ (a = o ∧ (k : Nat) = j)) := by
      intro a ha k hf
      rcases hwho a ha (by rw [← hf]; exact fc_subset_cs _ _) with rfl | rfl
      · left; exact ⟨rfl, by rw [fc_inj (h.inj _ ha) hf]⟩
      · right; exact ⟨rfl, by rw [fc_inj (h.inj _ ha) (hf.trans hjfc.symm)]⟩
    refine ⟨⟨hst2, ?_, ?_, ?_, ?_⟩, ⟨w.F.length, by rw [hnb2]; simp⟩, ?_, rfl, rfl, by omega⟩
    · intro a ha k ep he
      rw [hnb2] at he
      split at he
      · next hh =>
        obtain rfl := Option.some.inj he
        rw [hslot a k hh]
        refine ⟨_, hnew2, ⟨_, _, rfl, hne, rfl⟩, ⟨S, rfl, hS, fc_subset_cs _ _⟩, ?_, ?_, rfl⟩
        · intro b hb
          obtain rfl := Option.some.inj hb
          exact ⟨ho, hosub, fun hh => hoS (Option.some.inj hh).symm⟩
        · intro b hb hsub
          rcases hwho b hb hsub with rfl | rfl
          · exact .inl rfl
          · exact .inr rfl
      · obtain ⟨f, f1, f2⟩ := h.edge a ha k ep he
        exact ⟨f, hF2 ep f f1, f2⟩
    · intro a ha b hb k l hf
      rw [hnb2, hnb2]
      by_cases hA : (a = S ∧ (k : Nat) = i) ∨ (a = o ∧ (k : Nat) = j)
      · rw [if_pos hA, if_pos (hslot' b hb l (by rw [← hf]; exact hslot a k hA))]
      · rw [if_neg hA, if_neg (fun hB => hA (hslot' a ha k (by rw [hf]; exact hslot b l hB)))]
        exact h.clos a ha b hb k l hf
    · rw [hlen2, ← hlen1]; exact hedges1
    · intro ep hep
      rw [hlen2] at hep
      by_cases hlast : ep = w.F.length
      · exact ⟨S, hS, i, by rw [hnb2, if_pos (.inl ⟨rfl, rfl⟩), hlast]⟩
      · obtain ⟨a, ha, k, hk⟩ := h.used ep (by omega)
        exact ⟨a, ha, k, by rw [hnb2, if_neg (hkeep2 a ha k ep hk), hk]⟩
    · intro a k ep he
      rw [hnb2, if_neg (hkeep2' a k ep he), he]

theorem setupNeighbors_spec {els tv} {w : World T} (h : NB els tv w) :
    Sat (setupNeighbors w)
      (fun w' => NB els tv w' ∧ (∀ a ∈ els, ∀ i : Fin 3, ∃ ep, nbr w' a i = some ep) ∧ w'.V = w.V ∧ w'.vertices = w.vertices)
      (fun e => e = .exc .tooManySharedFaces ∧ ∃ a ∈ els, ∃ b c, ∃ i, b ≠ c ∧ Other els tv a (fc (tv a) i) b ∧
        Other els tv a (fc (tv a) i) c) := by
  unfold setupNeighbors
  rw [h.els_eq]
  refine Sat.mono (sat_forList (fun pre w' => NB els tv w' ∧ (∀ a ∈ pre, ∀ i : Fin 3, ∃ ep, nbr w' a i = some ep) ∧
    w'.V = w.V ∧ w'.vertices = w.vertices) els ⟨h, fun a ha => absurd ha (by simp), rfl, rfl⟩ ?_) (fun w' hw => hw) (fun e he => he)
  intro pre S suf w' hsplit ⟨h1, h2, h3, h4⟩
  have hS : S ∈ els := by rw [hsplit]; simp
  refine Sat.mono (sat_forRange (fun k (w'' : World T) => NB els tv w'' ∧
    (∀ a ∈ pre, ∀ i : Fin 3, ∃ ep, nbr w'' a i = some ep) ∧ (∀ i : Fin 3, (i : Nat) < k → ∃ ep, nbr w'' S i = some ep) ∧
    w''.V = w.V ∧ w''.vertices = w.vertices) (Nat.zero_le 3) ⟨h1, h2, fun i hi => absurd hi (by omega), h3, h4⟩ ?_) ?_ (fun e he => he)
  · intro k w'' _ hk ⟨g1, g2, g3, g4, g5⟩
    refine Sat.mono (setupFace_spec g1 hS ⟨k, hk⟩) ?_ (fun e he => he)
    rintro w3 ⟨k1, k2, k3, k4, k5, -⟩
    refine ⟨k1, fun a ha i => ?_, fun i hi => ?_, by rw [k4, g4], by rw [k5, g5]⟩
    · obtain ⟨ep, he⟩ := g2 a ha i
      exact ⟨ep, k3 a i ep he⟩
    · by_cases hik : (i : Nat) = k
      · obtain ⟨ep, he⟩ := k2
        exact ⟨ep, by rw [hik]; exact he⟩
      · obtain ⟨ep, he⟩ := g3 i (by omega)
        exact ⟨ep, k3 S i ep he⟩
  · rintro w'' ⟨g1, g2, g3, g4, g5⟩
    refine ⟨g1, fun a ha i => ?_, g4, g5⟩
    rcases List.mem_append.1 ha with ha | ha
    · exact g2 a ha i
    · rw [List.mem_singleton] at ha
      subst ha
      exact g3 i i.2

end World
end NS

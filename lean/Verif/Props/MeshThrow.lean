/-
Property theorems C113: what `setupNeighbors()` leaves behind when it throws `TooManySharedFacesException`, and what happens when it is called again.
-/
import Verif.MeshThrow
import Verif.Props.MeshValidate

set_option linter.unusedSectionVars false

namespace NS
namespace Props
namespace Mesh
open World
variable {T : Type} [Field T] [LinearOrder T] [IsStrictOrderedRing T]

/-- face `i` of element `a` belongs to three or more elements -/
def Crowded (w : World T) (a : Nat) (i : Fin 3) : Prop :=
  ∃ b c, HasFace w b a i ∧ HasFace w c a i ∧ a ≠ b ∧ a ≠ c ∧ b ≠ c

open Classical in
/-- the faces of elements that belong to three or more elements; a face is counted once for each of its elements -/
noncomputable def crowdedFaces (w : World T) : Finset (Nat × Fin 3) :=
  (w.elements.toFinset ×ˢ Finset.univ).filter fun x => Crowded w x.1 x.2

/-- `n` calls of `setupNeighbors()`, each of which throws `TooManySharedFacesException`, lead from `w` to `u` -/
inductive Rejected (w : World T) : Nat → World T → Prop
  | zero : Rejected w 0 w
  | succ {n u u'} : Rejected w n u → setupNeighborsK u = .ok (u', some .tooManySharedFaces) → Rejected w (n + 1) u'

theorem crowded_iff {w : World T} (h : Inv w) (hd : Distinct w) {a : Nat} (ha : a ∈ w.elements) (i : Fin 3) :
    Crowded w a i ↔ Over w.elements w.cornerFn (fc (w.cornerFn a) i) := by
  rw [over_iff ha]
  unfold Crowded
  constructor
  · rintro ⟨b, c, hb, hc, hab, hac, hbc⟩
    rw [hasFace_iff h hd ha] at hb hc
    exact ⟨b, c, hbc, ⟨hb.1, hab.symm, hb.2⟩, ⟨hc.1, hac.symm, hc.2⟩⟩
  · rintro ⟨b, c, hbc, ⟨b1, b2, b3⟩, ⟨c1, c2, c3⟩⟩
    exact ⟨b, c, (hasFace_iff h hd ha i).2 ⟨b1, b3⟩, (hasFace_iff h hd ha i).2 ⟨c1, c3⟩, b2.symm, c2.symm, hbc⟩

theorem pending_built {w : World T} (h : Inv w) (hd : Distinct w) : pending w.elements w.cornerFn w = crowdedFaces w := by
  ext ⟨a, i⟩
  rw [mem_pending]
  simp only [crowdedFaces, Finset.mem_filter, Finset.mem_product, List.mem_toFinset, Finset.mem_univ, and_true]
  refine and_congr_right fun ha => ?_
  rw [crowded_iff h hd ha]
  refine and_iff_left ?_
  obtain ⟨e, he⟩ : ∃ e, w.E[a]? = some e := ⟨_, List.getElem?_eq_getElem (h.elt a ha)⟩
  refine nbr_of he ?_
  rw [(h.shape a e he).2.1]
  fin_cases i <;> rfl

theorem setupFaceK_frame {S i : Nat} {st st' : World T × Option Exc} (h : setupFaceK S i st = .ok st') : st'.1.E.map core = st.1.E.map core := by
  obtain ⟨w, t⟩ := st
  unfold setupFaceK at h
  split at h
  · obtain rfl := Except.ok.inj h; rfl
  simp only at h
  rw [bind_ok_iff] at h
  obtain ⟨s, hs, h⟩ := h
  rw [getIdx_ok_iff] at hs
  rw [bind_ok_iff] at h
  obtain ⟨n, hn, h⟩ := h
  split at h
  · obtain rfl := Except.ok.inj h; rfl
  · rw [bind_ok_iff] at h
    obtain ⟨sh, -, h⟩ := h
    split at h
    · obtain rfl := Except.ok.inj h; rfl
    rw [bind_ok_iff] at h
    obtain ⟨nb, hnb, h⟩ := h
    have h1 : (w.E.set S { s with nbrs := nb }).map core = w.E.map core := map_core_set hs rfl
    rw [bind_ok_iff] at h
    obtain ⟨o, -, h⟩ := h
    rcases o with ⟨_ | oe, _ | k⟩
    · obtain rfl := Except.ok.inj h; exact h1
    · obtain rfl := Except.ok.inj h; exact h1
    · simp only at h
      rw [bind_ok_iff] at h
      obtain ⟨other, ho, h⟩ := h
      rw [getIdx_ok_iff] at ho
      rw [bind_ok_iff] at h
      obtain ⟨j, -, h⟩ := h
      rcases j with _ | j
      · obtain rfl := Except.ok.inj h; exact h1
      · simp only at h
        rw [bind_ok_iff] at h
        obtain ⟨nb', -, h⟩ := h
        obtain rfl := Except.ok.inj h
        show ((w.E.set S _).set oe _).map core = _
        exact (map_core_set ho (by rfl)).trans h1
    · obtain rfl := Except.ok.inj h; exact h1

theorem setupNeighborsK_frame {w : World T} {st : World T × Option Exc} (h : setupNeighborsK w = .ok st) : st.1.E.map core = w.E.map core := by
  unfold setupNeighborsK at h
  refine (Sat.of_ok (Q := fun st => st.1.E.map core = w.E.map core) (E := fun _ => True) ?_ h)
  refine sat_forList (fun _ (u : World T × Option Exc) => u.1.E.map core = w.E.map core) _ rfl ?_
  intro pre S suf u _ hu
  refine sat_forRange (fun _ (u : World T × Option Exc) => u.1.E.map core = w.E.map core) (Nat.zero_le 3) hu ?_
  intro j u _ _ hu
  rcases hr : setupFaceK S j u with er | u'
  · trivial
  · show u'.1.E.map core = _
    rw [setupFaceK_frame hr, hu]

/-- C113: `setupNeighborsK` is `setupNeighbors` with the mesh that is left behind by an exception: forgetting that mesh gives the outcome of `setupNeighbors`. -/
theorem C113_same (w : World T) : w.setupNeighbors =
    match setupNeighborsK w with
    | .ok (w', none) => .ok w'
    | .ok (_, some k) => .error (.exc k)
    | .error e => .error e := by
  rw [setupNeighborsK_same]
  rcases setupNeighborsK w with e | ⟨w', _ | k⟩ <;> rfl

/-- one element at a face of three or more elements has an edge object of its own there, that names one of the other elements -/
def OwnEdge (w w' : World T) (a : Nat) (i : Fin 3) : Prop :=
  ∃ ep f b, neighbor w' a i = some ep ∧ ep ∈ w'.edges ∧ w'.F[ep]? = some f ∧ f.verts.length = 2 ∧ (∀ q, OnFace w a i q ↔ some q ∈ f.verts) ∧
    f.e0 = some a ∧ f.e1 = some b ∧ b ≠ a ∧ HasFace w b a i

/-- the edge object of a face of one or two elements is the one required by C51 -/
def RightEdge (w w' : World T) (a : Nat) (i : Fin 3) : Prop :=
  (∃ ep f, neighbor w' a i = some ep ∧ ep ∈ w'.edges ∧ w'.F[ep]? = some f ∧ f.verts.length = 2 ∧ (∀ q, OnFace w a i q ↔ some q ∈ f.verts) ∧
    f.e0 ≠ none ∧ f.e0 ≠ f.e1 ∧ ∀ b, HasFace w b a i ↔ f.e0 = some b ∨ f.e1 = some b) ∧
  ∀ b ∈ w.elements, ∀ j, (∀ q, OnFace w a i q ↔ OnFace w b j q) → neighbor w' a i = neighbor w' b j

theorem rejected_inv {w u : World T} {n : Nat} (h : Built w) (hd : Distinct w) (hr : Rejected w n u) :
    KB w.elements w.cornerFn u ∧ u.V = w.V ∧ u.vertices = w.vertices ∧ u.E.map core = w.E.map core ∧
      (pending w.elements w.cornerFn u).card + n = (crowdedFaces w).card := by
  induction hr with
  | zero =>
    exact ⟨(inv_nb (built_inv h) hd).kb, rfl, rfl, rfl, by rw [pending_built (built_inv h) hd, Nat.add_zero]⟩
  | succ hr e ih =>
    obtain ⟨i1, i2, i3, i4, i5⟩ := ih
    have hf := setupNeighborsK_frame e
    have hu := (setupNeighborsK_spec i1).of_ok e
    obtain ⟨-, x, hx, he⟩ := hu.thrown (by simp)
    refine ⟨hu.kb, hu.V.trans i2, hu.vs.trans i3, hf.trans i4, ?_⟩
    have hc : 0 < (pending w.elements w.cornerFn _).card := Finset.card_pos.2 ⟨x, hx⟩
    simp only at he
    rw [he, Finset.card_erase_of_mem hx]
    omega

/-- C113: a rejected call keeps vertices, elements, corners and coordinates -/
theorem C113_keep {w u : World T} {n : Nat} (h : Built w) (hd : Distinct w) (hr : Rejected w n u) :
    u.V = w.V ∧ u.vertices = w.vertices ∧ u.elements = w.elements ∧
      ∀ (a : Nat) (e : MElem T), w.E[a]? = some e → ∃ e', u.E[a]? = some e' ∧ e'.simplex = e.simplex ∧ e'.verts = e.verts ∧ e'.dofs = e.dofs := by
  obtain ⟨i1, i2, i3, i4, -⟩ := rejected_inv h hd hr
  exact ⟨i2, i3, i1.els_eq, fun a e he => core_some i4 he⟩

/-- C113: after `n` rejected calls the next one is rejected again exactly when `n` is less than the number of crowded faces; otherwise it succeeds. -/
theorem C113_next {w u : World T} {n : Nat} (h : Built w) (hd : Distinct w) (hr : Rejected w n u) :
    n ≤ (crowdedFaces w).card ∧
    (n < (crowdedFaces w).card → ∃ u', setupNeighborsK u = .ok (u', some .tooManySharedFaces)) ∧
    (n = (crowdedFaces w).card → ∃ u', setupNeighborsK u = .ok (u', none)) := by
  obtain ⟨i1, i2, i3, i4, i5⟩ := rejected_inv h hd hr
  obtain ⟨⟨u', t⟩, hok, hu⟩ := (setupNeighborsK_spec i1).ok_of
  refine ⟨by omega, fun hn => ?_, fun hn => ?_⟩
  · cases t with
    | none =>
      exfalso
      obtain ⟨f1, f2⟩ := hu.fine rfl
      have hpos : 0 < (pending w.elements w.cornerFn u).card := by omega
      obtain ⟨⟨a, i⟩, hx⟩ := Finset.card_pos.1 hpos
      rw [← f1, mem_pending] at hx
      obtain ⟨ep, hep⟩ := f2 a hx.1 i
      rw [hx.2.2] at hep
      cases hep
    | some k =>
      obtain ⟨hk, -⟩ := hu.thrown (by simp)
      rw [hok]
      exact ⟨u', by rw [show some k = _ from hk]⟩
  · cases t with
    | none => exact ⟨u', hok⟩
    | some k =>
      exfalso
      obtain ⟨-, x, hx, -⟩ := hu.thrown (by simp)
      have := Finset.card_pos.2 ⟨x, hx⟩
      omega

/-- C113: `setupNeighbors()` throws once for every crowded face of an element and then succeeds: a caller that repeats the call after each exception obtains a
mesh in which the faces of one or two elements are connected as C51 requires, and at the crowded ones every element has an edge object of its own that names
one of the other elements. -/
theorem C113_accepts {w : World T} (h : Built w) (hd : Distinct w) :
    ∃ u w', Rejected w (crowdedFaces w).card u ∧ u.setupNeighbors = .ok w' ∧ w'.V = w.V ∧ w'.vertices = w.vertices ∧ w'.elements = w.elements ∧
      ∀ a ∈ w.elements, w'.vertsOf a = w.vertsOf a ∧ ∀ i, (Crowded w a i → OwnEdge w w' a i) ∧ (¬ Crowded w a i → RightEdge w w' a i) := by
  have hI := built_inv h
  have hex : ∀ n ≤ (crowdedFaces w).card, ∃ u, Rejected w n u := by
    intro n
    induction n with
    | zero => exact fun _ => ⟨w, .zero⟩
    | succ n ih =>
      intro hn
      obtain ⟨u, hu⟩ := ih (by omega)
      obtain ⟨u', hu'⟩ := (C113_next h hd hu).2.1 (by omega)
      exact ⟨u', .succ hu hu'⟩
  obtain ⟨u, hu⟩ := hex _ (le_refl _)
  obtain ⟨w', hw'⟩ := (C113_next h hd hu).2.2 rfl
  obtain ⟨i1, i2, i3, i4, i5⟩ := rejected_inv h hd hu
  have hup := (setupNeighborsK_spec i1).of_ok hw'
  obtain ⟨-, hall⟩ := hup.fine rfl
  have hkb := hup.kb
  have hV := hup.V
  have hvs := hup.vs
  simp only at hall hkb hV hvs
  have honf : ∀ a ∈ w.elements, ∀ i : Fin 3, ∀ (f : MEdge) (p q : Nat), f.verts = [some p, some q] → fc (w.cornerFn a) i = {p, q} →
      ∀ x, OnFace w a i x ↔ some x ∈ f.verts := by
    intro a ha i f p q e1 e2 x
    rw [onFace_iff hI hd ha, e2, e1]
    simp
  have hmem : ∀ a ∈ w.elements, ∀ i : Fin 3, ∀ ep f, nbr w' a i = some ep → w'.F[ep]? = some f → ep ∈ w'.edges := by
    intro a ha i ep f _ hf
    rw [hkb.edges_eq, List.mem_range]
    exact lt_of_getElem? hf
  refine ⟨u, w', hu, by rw [C113_same, hw'], hV.trans i2, hvs.trans i3, hkb.els_eq, fun a ha => ⟨?_, fun i => ⟨fun hc => ?_, fun hc => ?_⟩⟩⟩
  · obtain ⟨e, e1, e2, -⟩ := hkb.el a ha
    rw [vertsOf_some e1, e2, vertsOf_arr hI ha]
  · rw [crowded_iff hI hd ha] at hc
    obtain ⟨ep, hep⟩ := hall a ha i
    obtain ⟨f, f1, ⟨p, q, f2, -, f3⟩, f4, ⟨b, f5, f6⟩, -⟩ := hkb.own a ha i ep hep hc
    exact ⟨ep, f, b, hep, hmem a ha i ep f hep f1, f1, by rw [f2]; rfl, honf a ha i f p q f2 f3, f4, f5, f6.2.1, (hasFace_iff hI hd ha i).2 ⟨f6.1, f6.2.2⟩⟩
  · rw [crowded_iff hI hd ha] at hc
    obtain ⟨ep, hep⟩ := hall a ha i
    obtain ⟨f, f1, f2⟩ := hkb.edge a ha i ep hep hc
    obtain ⟨p, q, f3, -, f4⟩ := f2.verts
    obtain ⟨x, x1, x2, x3⟩ := f2.first
    refine ⟨⟨ep, f, hep, hmem a ha i ep f hep f1, f1, by rw [f3]; rfl, honf a ha i f p q f3 f4, by rw [x1]; simp, ?_, fun b => ?_⟩, fun b hb j hq => ?_⟩
    · intro he
      rw [x1] at he
      exact (f2.second x he.symm).2.2 x1
    · rw [hasFace_iff hI hd ha]
      constructor
      · rintro ⟨b1, b2⟩
        exact f2.all b b1 b2
      · rintro (e | e)
        · rw [x1] at e
          obtain rfl := Option.some.inj e
          exact ⟨x2, x3⟩
        · obtain ⟨s1, s2, -⟩ := f2.second b e
          exact ⟨s1, s2⟩
    · refine hkb.clos a ha b hb i j hc ?_
      ext y
      rw [← onFace_iff hI hd ha, ← onFace_iff hI hd hb]
      exact hq y

/-- C113: such a mesh passes `prepare()` and `validate()` like any other one, if no vertex is isolated and all elements have a volume above the threshold. -/
theorem C113_validate {eps : T} (heps : 0 ≤ eps) {w u w' : World T} {n : Nat} (h : Built w) (hd : Distinct w) (hr : Rejected w n u)
    (e : u.setupNeighbors = .ok w') (hiso : ∀ p ∈ w.vertices, ∃ a ∈ w.elements, some p ∈ w.vertsOf a) (hvol : ∀ a ∈ w.elements, eps < elementVolume w a) :
    ∃ w'', w'.prepare 0 = .ok w'' ∧ validate eps w'' = .ok () := by
  obtain ⟨i1, i2, i3, i4, i5⟩ := rejected_inv h hd hr
  have hK : setupNeighborsK u = .ok (w', none) := by
    rw [C113_same] at e
    rcases hk : setupNeighborsK u with er | ⟨v, _ | k⟩ <;> rw [hk] at e
    · cases e
    · obtain rfl := Except.ok.inj e; rfl
    · cases e
  have hup := (setupNeighborsK_spec i1).of_ok hK
  obtain ⟨-, hall⟩ := hup.fine rfl
  have hready : Ready w w' := by
    refine ⟨(setupNeighborsK_frame hK).trans i4, hup.kb.els_eq, fun a ha => ?_, hall, hup.V.trans i2, hup.vs.trans i3⟩
    obtain ⟨e2, he2, -, hl2⟩ := hup.kb.el a ha
    exact ⟨e2, he2, hl2⟩
  obtain ⟨w'', hw''⟩ := (prepare_ready_iff h hready).1 fun a ha hz => absurd (hvol a ha) (by rw [hz]; exact not_lt.2 heps)
  exact ⟨w'', hw'', (pipeline_ready heps h hd hready hw'').2.2 hiso hvol⟩

/-- three triangles at one edge -/
def book : World ℚ := match build [[0, 0], [1, 0], [0, 1], [0, -1], [0, 2]] [(0, 1, 2), (0, 1, 3), (0, 1, 4)] World.empty with
  | .ok w => w
  | .error _ => World.empty

/-- the mesh left behind by a call -/
def leftBy (x : R (World ℚ × Option Exc)) : World ℚ := match x with | .ok st => st.1 | .error _ => World.empty
/-- the mesh returned by a call -/
def got (x : R (World ℚ)) : World ℚ := match x with | .ok w => w | .error _ => World.empty

theorem leftBy_eq {x : R (World ℚ × Option Exc)} {t : Option Exc} (h : x.toOption.map (·.2) = some t) : x = .ok (leftBy x, t) := by
  rcases x with e | ⟨w, k⟩
  · cases h
  · obtain rfl := Option.some.inj h; rfl
theorem got_eq {x : R (World ℚ)} (h : x.toOption.isSome = true) : x = .ok (got x) := by
  rcases x with e | w
  · cases h
  · rfl

/-- C113: a mesh rejected by `setupNeighbors()` does not stay rejected: with three triangles at one edge the call throws three times, the fourth call succeeds and the
mesh passes `validate()`, with three edge objects for the one edge -/
theorem C113_negation : ∃ u1 u2 u3 w w' : World ℚ,
    setupNeighborsK book = .ok (u1, some .tooManySharedFaces) ∧ setupNeighborsK u1 = .ok (u2, some .tooManySharedFaces) ∧
    setupNeighborsK u2 = .ok (u3, some .tooManySharedFaces) ∧ u3.setupNeighbors = .ok w ∧ w.prepare 0 = .ok w' ∧ validate (1 / 1000) w' = .ok () ∧
    (w'.F.filter fun f => f.verts = [some 0, some 1]).length = 3 := by
  refine ⟨_, _, _, _, _, leftBy_eq ?_, leftBy_eq ?_, leftBy_eq ?_, got_eq ?_, got_eq ?_, ?_, ?_⟩ <;> decide +kernel

theorem book_built : Built book := by
  refine build_built (vs := [[0, 0], [1, 0], [0, 1], [0, -1], [0, 2]]) (ts := [(0, 1, 2), (0, 1, 3), (0, 1, 4)]) (w := World.empty) .empty ?_ ?_
  · intro x hx
    fin_cases hx <;> rfl
  · rfl

/-- the hypotheses of C113 hold for three triangles at one edge, and the common edge is a crowded face -/
example : Built book ∧ Distinct book ∧ Crowded book 0 2 := by
  refine ⟨book_built, by unfold Distinct; decide, 1, 2, ⟨by decide, ?_⟩, ⟨by decide, ?_⟩, by decide, by decide, by decide⟩
  all_goals
    rintro q ⟨j, hj, hq⟩
    fin_cases j <;> first
      | exact absurd rfl hj
      | (obtain rfl := Option.some.inj (Option.some.inj (hq : some (some _) = some (some q)))
         decide)
end Mesh
end Props
end NS

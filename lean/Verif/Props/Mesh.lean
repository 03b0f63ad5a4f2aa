/-
Property theorems C50-C52: building a mesh, face adjacency, boundary flags.

`World T` is the heap with the three pointer lists of one mesh.  `Built w`: `w` was produced by some history of
`new MeshVertex`, `new MeshElement`, `addVertex`, `addElement` and flag updates in which no object is added twice.
`vertsOf w a` are the corner pointers of element `a`; `Distinct w`: every added element has three different corners.
-/
import Verif.MeshBuild
import Mathlib.Algebra.Order.Field.Rat
import Mathlib.Data.Rat.Defs

set_option linter.unusedSectionVars false
set_option linter.unusedSimpArgs false

namespace NS.Props.Mesh
open NS NS.World
variable {T : Type} [Field T] [LinearOrder T]

/-! ### C50 -/

/-- C50: after every history the `i`-th vertex of the mesh has global index `i`, and the element list of every vertex
object is the list of the added elements in insertion order, each as often as the vertex is one of its corners. -/
theorem C50_history {w : World T} (h : Built w) :
    (∀ (i p : Nat) v, w.vertices[i]? = some p → w.V[p]? = some v → v.gi = i) ∧
    (∀ (q : Nat) v, w.V[q]? = some v →
      v.elems = w.elements.flatMap fun a => List.replicate ((w.vertsOf a).count (some q)) a) ∧
    w.vertices.Nodup ∧ w.elements.Nodup :=
  ⟨(built_inv h).gi, (built_inv h).inc, (built_inv h).vnd, (built_inv h).end_⟩

/-- C50, elements with three different corners: the element list of a vertex is exactly the list of the elements that
have it as a corner, in insertion order. -/
theorem C50_incidence {w : World T} (h : Built w) (hd : Distinct w) {q : Nat} {v : MVertex T} (hv : w.V[q]? = some v) :
    v.elems = w.elements.filter fun a => (w.vertsOf a).contains (some q) := by
  rw [(built_inv h).inc q v hv]
  have : ∀ l : List Nat, (∀ a ∈ l, (w.vertsOf a).Nodup) →
      (l.flatMap fun a => List.replicate ((w.vertsOf a).count (some q)) a) = l.filter fun a => (w.vertsOf a).contains (some q) := by
    intro l
    induction l with
    | nil => intro _; rfl
    | cons a l ih =>
      intro hl
      rw [List.flatMap_cons, List.filter_cons, ih (fun b hb => hl b (by simp [hb]))]
      by_cases hm : some q ∈ w.vertsOf a
      · rw [List.count_eq_one_of_mem (hl a (by simp)) hm, if_pos (by simpa using hm)]; rfl
      · rw [List.count_eq_zero.2 hm, if_neg (by simpa using hm)]; rfl
  exact this _ hd

/-- C50: the stored simplex of every added element has the coordinates of its corner vertices. -/
theorem C50_coordinates {w : World T} (h : Built w) {a : Nat} (ha : a ∈ w.elements) (i : Fin 3) :
    ∃ e q v, w.E[a]? = some e ∧ e.verts[(i : Nat)]? = some (some q) ∧ w.V[q]? = some v ∧
      e.simplex.verts[(i : Nat)]? = some v.pos := by
  have he : w.E[a]? = some (w.E[a]'((built_inv h).elt a ha)) := by simp [(built_inv h).elt a ha]
  obtain ⟨q, v, a1, a2, a3⟩ := (built_inv h).corner a ha _ he i i.2
  exact ⟨_, q, v, he, a1, a2, a3⟩

/-- C50: `addVertex` of a vertex object appends it and changes nothing but its global index. -/
theorem C50_addVertex {w : World T} {p : Nat} {v : MVertex T} (hv : w.V[p]? = some v) :
    ∃ w', w.addVertex (some p) = .ok w' ∧ w'.vertices = w.vertices ++ [p] ∧ w'.elements = w.elements ∧ w'.E = w.E ∧
      w'.V[p]? = some { v with gi := w.vertices.length } ∧ ∀ q, q ≠ p → w'.V[q]? = w.V[q]? := by
  have hlt := lt_of_getElem? hv
  refine ⟨{ w with V := w.V.set p { v with gi := w.vertices.length }, vertices := w.vertices ++ [p] }, ?_, rfl, rfl, rfl, ?_, ?_⟩
  · unfold World.addVertex
    rw [assert_true (by simp), ok_bind]
    simp only [deref, ok_bind]
    rw [getIdx_of_some hv]; rfl
  · show (w.V.set p _)[p]? = _
    rw [getElem?_set' _ _ _ _ hlt, if_pos rfl]
  · intro q hq
    show (w.V.set p _)[q]? = _
    rw [getElem?_set' _ _ _ _ hlt, if_neg hq]

/-- C50: `addElement` of an element whose three corners are vertex objects succeeds, appends it and keeps the corners of
all elements; with a null or dangling corner it is undefined behaviour; a null element aborts. -/
theorem C50_addElement {w : World T} (h : Built w) {a : Nat} {e : MElem T} (he : w.E[a]? = some e) :
    ((∀ i < 3, ∃ q v, e.verts[i]? = some (some q) ∧ w.V[q]? = some v) →
      ∃ w', w.addElement (some a) = .ok w' ∧ w'.elements = w.elements ++ [a] ∧ w'.vertices = w.vertices ∧
        ∀ b, w'.vertsOf b = w.vertsOf b) ∧
    ((∃ i < 3, ∀ q, e.verts[i]? = some (some q) → w.V[q]? = none) → w.addElement (some a) = .error .ub) ∧
    w.addElement none = .error .abort := by
  obtain ⟨s1, -, -, -, s5, -⟩ := (built_inv h).shape a e he
  have key := addElement_spec he s1 s5
  refine ⟨fun hc => ?_, fun hc => ?_, rfl⟩
  · rcases hr : w.addElement (some a) with er | w'
    · obtain ⟨-, i, hi, hn⟩ := key.of_error hr
      obtain ⟨q, v, c1, c2⟩ := hc i hi
      rw [hn q c1] at c2; cases c2
    · obtain ⟨h1, h2, -, -, ⟨vs, h5, -, -⟩, -, -⟩ := key.of_ok hr
      refine ⟨w', rfl, h2, h1, fun b => ?_⟩
      unfold vertsOf
      rw [h5, getElem?_set' _ _ _ _ (lt_of_getElem? he)]
      split
      · next hb => rw [hb, he]; rfl
      · rfl
  · rcases hr : w.addElement (some a) with er | w'
    · rw [(key.of_error hr).1]
    · exfalso
      obtain ⟨-, -, -, -, ⟨vs, -, -, h7⟩, -, -⟩ := key.of_ok hr
      obtain ⟨i, hi, hn⟩ := hc
      obtain ⟨q, v, c1, c2, -⟩ := h7 i hi
      rw [hn q c1] at c2; cases c2

/-! ### C51 -/

/-- vertex `q` lies on face `i` of element `a`: it is a corner other than the `i`-th -/
def OnFace (w : World T) (a : Nat) (i : Fin 3) (q : Nat) : Prop :=
  ∃ j : Fin 3, j ≠ i ∧ (w.vertsOf a)[(j : Nat)]? = some (some q)

/-- element `b` of the mesh contains face `i` of element `a` -/
def HasFace (w : World T) (b a : Nat) (i : Fin 3) : Prop :=
  b ∈ w.elements ∧ ∀ q, OnFace w a i q → some q ∈ w.vertsOf b

/-- some face belongs to three different elements -/
def Overshared (w : World T) : Prop :=
  ∃ a ∈ w.elements, ∃ i b c, HasFace w b a i ∧ HasFace w c a i ∧ a ≠ b ∧ a ≠ c ∧ b ≠ c

/-- pointer stored in `element->Neighbors[i]` -/
def neighbor (w : World T) (a : Nat) (i : Fin 3) : Option Nat := nbr w a i

/-- the adjacency `w'` must have for the mesh `w` -/
structure FaceAdjacency (w w' : World T) : Prop where
  /-- vertices, elements and corners are unchanged -/
  keep : w'.V = w.V ∧ w'.vertices = w.vertices ∧ w'.elements = w.elements ∧ ∀ a ∈ w.elements, w'.vertsOf a = w.vertsOf a
  /-- every face has an edge object in `edges()`, with the vertices of the face, belonging to one or two elements:
  exactly the ones that contain the face -/
  edge : ∀ a ∈ w.elements, ∀ i, ∃ ep f, neighbor w' a i = some ep ∧ ep ∈ w'.edges ∧ w'.F[ep]? = some f ∧
    f.verts.length = 2 ∧ (∀ q, OnFace w a i q ↔ some q ∈ f.verts) ∧
    f.e0 ≠ none ∧ f.e0 ≠ f.e1 ∧ ∀ b, HasFace w b a i ↔ f.e0 = some b ∨ f.e1 = some b
  /-- two faces have the same edge object exactly when they have the same vertices -/
  unique : ∀ a ∈ w.elements, ∀ b ∈ w.elements, ∀ i j,
    neighbor w' a i = neighbor w' b j ↔ ∀ q, OnFace w a i q ↔ OnFace w b j q
  /-- `edges()` lists every edge object once and contains nothing else -/
  edges : w'.edges.Nodup ∧ ∀ ep ∈ w'.edges, ∃ a ∈ w.elements, ∃ i, neighbor w' a i = some ep

theorem onFace_iff {w : World T} (h : Inv w) (hd : Distinct w) {a : Nat} (ha : a ∈ w.elements) (i : Fin 3) (q : Nat) :
    OnFace w a i q ↔ q ∈ fc (w.cornerFn a) i := by
  have hinj : Function.Injective (w.cornerFn a) := arr_inj (by rw [← vertsOf_arr h ha]; exact hd a ha)
  unfold OnFace
  rw [vertsOf_arr h ha]
  have harr : ∀ j : Fin 3, (arr (w.cornerFn a))[(j : Nat)]? = some (some (w.cornerFn a j)) := by
    intro j; fin_cases j <;> rfl
  constructor
  · rintro ⟨j, hj, hq⟩
    rw [harr j] at hq
    obtain rfl := Option.some.inj (Option.some.inj hq)
    exact (fc_mem_iff hinj i j).2 hj
  · intro hq
    have hq' := fc_subset_cs _ _ hq
    simp only [cs, Finset.mem_image, Finset.mem_univ, true_and] at hq'
    obtain ⟨j, rfl⟩ := hq'
    exact ⟨j, (fc_mem_iff hinj i j).1 hq, harr j⟩

theorem hasFace_iff {w : World T} (h : Inv w) (hd : Distinct w) {a b : Nat} (ha : a ∈ w.elements) (i : Fin 3) :
    HasFace w b a i ↔ b ∈ w.elements ∧ fc (w.cornerFn a) i ⊆ cs (w.cornerFn b) := by
  unfold HasFace
  refine and_congr_right fun hb => ?_
  constructor
  · intro hh q hq
    have := hh q ((onFace_iff h hd ha i q).2 hq)
    rw [vertsOf_arr h hb] at this
    exact mem_arr.1 this
  · intro hh q hq
    rw [vertsOf_arr h hb]
    exact mem_arr.2 (hh ((onFace_iff h hd ha i q).1 hq))

theorem adjacency_of_nb {w w' : World T} (h : Inv w) (hd : Distinct w) (hn : NB w.elements w.cornerFn w')
    (hall : ∀ a ∈ w.elements, ∀ i : Fin 3, ∃ ep, nbr w' a i = some ep) (hV : w'.V = w.V) (hvv : w'.vertices = w.vertices) :
    FaceAdjacency w w' := by
  refine ⟨⟨hV, hvv, hn.els_eq, fun a ha => ?_⟩, fun a ha i => ?_, fun a ha b hb i j => ?_, ?_, fun ep hep => ?_⟩
  · obtain ⟨e, e1, e2, -⟩ := hn.el a ha
    rw [vertsOf_some e1, e2, vertsOf_arr h ha]
  · obtain ⟨ep, hep⟩ := hall a ha i
    obtain ⟨f, f1, f2⟩ := hn.edge a ha i ep hep
    obtain ⟨⟨p, q, v1, v2, v3⟩, ⟨a0, a1, a2, a3⟩, b1, c1, -⟩ := f2
    refine ⟨ep, f, hep, ?_, f1, by rw [v1]; rfl, fun r => ?_, by rw [a1]; simp, ?_, fun b => ?_⟩
    · rw [hn.edges_eq, List.mem_range]; exact lt_of_getElem? f1
    · rw [onFace_iff h hd ha, v3, v1]; simp
    · intro heq
      rw [a1] at heq
      exact (b1 a0 heq.symm).2.2 a1
    · rw [hasFace_iff h hd ha]
      constructor
      · rintro ⟨hb, hsub⟩
        exact c1 b hb hsub
      · rintro (hb | hb)
        · rw [a1] at hb
          obtain rfl := Option.some.inj hb
          exact ⟨a2, a3⟩
        · exact ⟨(b1 b hb).1, (b1 b hb).2.1⟩
  · have hface : (∀ q, OnFace w a i q ↔ OnFace w b j q) ↔ fc (w.cornerFn a) i = fc (w.cornerFn b) j := by
      rw [Finset.ext_iff]
      refine forall_congr' fun q => ?_
      rw [onFace_iff h hd ha, onFace_iff h hd hb]
    rw [hface]
    constructor
    · intro he
      obtain ⟨ep, hep⟩ := hall a ha i
      have hep' : nbr w' b j = some ep := by
        have : nbr w' a i = nbr w' b j := he
        rw [← this]; exact hep
      obtain ⟨f, f1, f2⟩ := hn.edge a ha i ep hep
      obtain ⟨g, g1, g2⟩ := hn.edge b hb j ep hep'
      rw [f1] at g1
      obtain rfl := Option.some.inj g1
      obtain ⟨p, q, v1, -, v3⟩ := f2.verts
      obtain ⟨p', q', v1', -, v3'⟩ := g2.verts
      rw [v1] at v1'
      simp at v1'
      rw [v3, v3', v1'.1, v1'.2]
    · intro hf
      exact hn.clos a ha b hb i j hf
  · rw [hn.edges_eq]; exact List.nodup_range
  · rw [hn.edges_eq, List.mem_range] at hep
    obtain ⟨a, ha, i, hi⟩ := hn.used ep hep
    exact ⟨a, ha, i, hi⟩

/-- C51: on every mesh built by an `addVertex`/`addElement` history, `setupNeighbors()` returns normally exactly when no
face is shared by three or more elements, and then it has built the face adjacency; otherwise it throws
`TooManySharedFacesException`. -/
theorem C51_setupNeighbors {w : World T} (h : Built w) (hd : Distinct w) :
    (¬ Overshared w → ∃ w', w.setupNeighbors = .ok w' ∧ FaceAdjacency w w') ∧
    (Overshared w → w.setupNeighbors = .error (.exc .tooManySharedFaces)) := by
  have hI := built_inv h
  have key := setupNeighbors_spec (inv_nb hI hd)
  constructor
  · intro hno
    rcases hr : w.setupNeighbors with er | w'
    · exfalso
      obtain ⟨-, a, ha, b, c, i, hbc, hb, hc⟩ := key.of_error hr
      exact hno ⟨a, ha, i, b, c, (hasFace_iff hI hd ha i).2 ⟨hb.1, hb.2.2⟩, (hasFace_iff hI hd ha i).2 ⟨hc.1, hc.2.2⟩,
        fun hh => hb.2.1 hh.symm, fun hh => hc.2.1 hh.symm, hbc⟩
    · obtain ⟨h1, h2, h3, h4⟩ := key.of_ok hr
      exact ⟨w', rfl, adjacency_of_nb hI hd h1 h2 h3 h4⟩
  · rintro ⟨a, ha, i, b, c, hb, hc, hab, hac, hbc⟩
    rcases hr : w.setupNeighbors with er | w'
    · rw [(key.of_error hr).1]
    · exfalso
      obtain ⟨h1, h2, h3, h4⟩ := key.of_ok hr
      obtain ⟨ep, f, -, -, -, -, -, -, -, hall⟩ := (adjacency_of_nb hI hd h1 h2 h3 h4).edge a ha i
      have ea := (hall a).1 ⟨ha, fun q hq => by
        obtain ⟨j, -, hj⟩ := hq
        exact List.mem_of_getElem? hj⟩
      have eb := (hall b).1 hb
      have ec := (hall c).1 hc
      rcases ea with ea | ea <;> rcases eb with eb | eb <;> rcases ec with ec | ec <;>
        first
          | exact hab (Option.some.inj (ea.symm.trans eb))
          | exact hac (Option.some.inj (ea.symm.trans ec))
          | exact hbc (Option.some.inj (eb.symm.trans ec))

/-- a second `setupNeighbors()` changes nothing -/
theorem C51_idempotent {w w' : World T} (h : Built w) (hd : Distinct w) (e : w.setupNeighbors = .ok w') :
    w'.setupNeighbors = .ok w' := by
  obtain ⟨h1, h2, -, -⟩ := (setupNeighbors_spec (inv_nb (built_inv h) hd)).of_ok e
  have key : ∀ l : List Nat, (∀ a ∈ l, a ∈ w.elements) →
      forList l w' (fun S w => forRange 0 3 w fun i w => setupFace S i w) = .ok w' := by
    intro l
    induction l with
    | nil => intro _; rfl
    | cons a l ih =>
      intro hl
      unfold forList
      have ha : a ∈ w.elements := hl a (by simp)
      obtain ⟨el, e1, -, e3⟩ := h1.el a ha
      have hdone : ∀ i : Fin 3, setupFace a i w' = .ok w' := by
        intro i
        obtain ⟨ep, hep⟩ := h2 a ha i
        have hlt : (i : Nat) < el.nbrs.length := by rw [e3]; exact i.2
        have hget : el.nbrs[(i : Nat)]? = some (el.nbrs[(i : Nat)]) := by simp [hlt]
        have := nbr_of e1 hget
        rw [hep] at this
        exact setupFace_done e1 (by rw [hget, ← this])
      have h0 := hdone 0
      have h1' := hdone 1
      have h2' := hdone 2
      simp only [Fin.val_zero, Fin.val_one, Fin.val_two] at h0 h1' h2'
      have : (forRange 0 3 w' fun i w => setupFace a i w) = .ok w' := by
        unfold forRange
        simp only [Nat.sub_zero, forAux]
        rw [h0, ok_bind, h1', ok_bind, h2', ok_bind]
      show ((forRange 0 3 w' fun i w => setupFace a i w) >>= _) = _
      rw [this, ok_bind]
      exact ih (fun b hb => hl b (by simp [hb]))
  unfold World.setupNeighbors
  refine key _ (fun a ha => ?_)
  rw [h1.els_eq] at ha
  exact ha

/-- a program that builds a mesh from coordinates and triangles -/
def build (vs : List (List ℚ)) (ts : List (Nat × Nat × Nat)) (w : World ℚ) : R (World ℚ) := do
  let w ← forList vs w fun x w => (w.newVertex x).1.addVertex (some (w.newVertex x).2)
  forList ts w fun t w =>
    let r := w.newElement [some t.1, some t.2.1, some t.2.2]
    r.1.addElement (some r.2)

/-- C51 fails for meshes that grow after `setupNeighbors()`: adding a triangle at an existing boundary face and calling
`setupNeighbors()` again leaves the old edge object in `edges()`; it is no longer the neighbour of any element and still
has only one element, although the face now belongs to two. -/
theorem C51_stale_edge : ∃ w1 w2 w3 : World ℚ,
    build [[0, 0], [1, 0], [0, 1], [1, 1]] [(0, 1, 2)] World.empty = .ok w1 ∧
    (w1.setupNeighbors >>= build [] [(1, 3, 2)]) = .ok w2 ∧ w2.setupNeighbors = .ok w3 ∧
    w3.edges.length = 6 ∧
    (∃ ep ∈ w3.edges, (∀ a < 2, ∀ i : Fin 3, neighbor w3 a i ≠ some ep) ∧
      ∃ f, w3.F[ep]? = some f ∧ f.verts = [some 1, some 2] ∧ f.e0 = some 0 ∧ f.e1 = none) := by
  refine ⟨_, _, _, rfl, rfl, rfl, rfl, 0, by decide, by decide, _, rfl, rfl, rfl, rfl⟩

/-! ### C52 -/

/-- vertex `q` lies on a face that belongs to only one element -/
def Boundary (w : World T) (q : Nat) : Prop :=
  ∃ a ∈ w.elements, ∃ i, OnFace w a i q ∧ ∀ b, HasFace w b a i → b = a

open Classical in
/-- `v`, with the boundary flag added if `P` -/
noncomputable def mark (P : Prop) (v : MVertex T) : MVertex T := if P then { v with flags := v.flags ||| 1 } else v
theorem mark_pos {P : Prop} (h : P) (v : MVertex T) : mark P v = { v with flags := v.flags ||| 1 } := if_pos h
theorem mark_neg {P : Prop} (h : ¬ P) (v : MVertex T) : mark P v = v := if_neg h

theorem setupBoundaries_spec {w : World T}
    (hF : ∀ ep ∈ w.edges, ∃ f p q, w.F[ep]? = some f ∧ f.verts = [some p, some q] ∧ p < w.V.length ∧ q < w.V.length) :
    Sat w.setupBoundaries (fun w' => w' = { w with V := w'.V } ∧ w'.V.length = w.V.length ∧
      ∀ q v, w.V[q]? = some v → w'.V[q]? = some (mark (∃ ep ∈ w.edges, ∃ f, w.F[ep]? = some f ∧ (f.e0 = none ∨ f.e1 = none) ∧ some q ∈ f.verts) v)) noErr := by
  unfold World.setupBoundaries
  refine Sat.mono (sat_forList (fun pre (w' : World T) => w' = { w with V := w'.V } ∧ w'.V.length = w.V.length ∧
      ∀ q v, w.V[q]? = some v → w'.V[q]? = some (mark (∃ ep ∈ pre, ∃ f, w.F[ep]? = some f ∧ (f.e0 = none ∨ f.e1 = none) ∧ some q ∈ f.verts) v)) w.edges ⟨rfl, rfl, fun q v hv => by rw [mark_neg (by simp)]; exact hv⟩ ?_) (fun w' h => h) (fun e h => h)
  intro pre ep suf w' hsplit ⟨h1, h2, h3⟩
  obtain ⟨f, p, q, f1, f2, hp, hq⟩ := hF ep (by rw [hsplit]; simp)
  have f1' : w'.F[ep]? = some f := by rw [h1]; exact f1
  rw [getIdx_of_some f1', ok_bind]
  have hsnoc : ∀ r : Nat, (∃ ep' ∈ pre ++ [ep], ∃ g, w.F[ep']? = some g ∧ (g.e0 = none ∨ g.e1 = none) ∧ some r ∈ g.verts) ↔
      ((∃ ep' ∈ pre, ∃ g, w.F[ep']? = some g ∧ (g.e0 = none ∨ g.e1 = none) ∧ some r ∈ g.verts) ∨
        ((f.e0 = none ∨ f.e1 = none) ∧ (r = p ∨ r = q))) := by
    intro r
    constructor
    · rintro ⟨ep', hep', g, g1, g2, g3⟩
      rcases List.mem_append.1 hep' with hh | hh
      · exact .inl ⟨ep', hh, g, g1, g2, g3⟩
      · rw [List.mem_singleton] at hh
        subst hh
        rw [f1] at g1
        obtain rfl := Option.some.inj g1
        rw [f2] at g3
        simp at g3
        exact .inr ⟨g2, g3⟩
    · rintro (⟨ep', hh, g, g1, g2, g3⟩ | ⟨hb, hr⟩)
      · exact ⟨ep', by simp [hh], g, g1, g2, g3⟩
      · refine ⟨ep, by simp, f, f1, hb, ?_⟩
        rw [f2]; simpa using hr
  by_cases hb : f.e0 = none ∨ f.e1 = none
  · rw [if_pos hb]
    have hstep : (forRange 0 2 w' fun i w => do
        let vp ← getIdx f.verts i
        assert (vp ≠ none)
        let p ← deref vp
        World.orFlags w p 1) = (w'.orFlags p 1 >>= fun w'' => w''.orFlags q 1) := by
      rw [f2]
      unfold forRange
      simp only [Nat.sub_zero, forAux, getIdx, List.getElem?_cons_zero, List.getElem?_cons_succ, ok_bind]
      rw [assert_true (by simp), ok_bind, assert_true (by simp)]
      simp only [deref, ok_bind, zero_add]
      cases w'.orFlags p 1 with
      | error e => rfl
      | ok u =>
        simp only [ok_bind]
        cases u.orFlags q 1 <;> rfl
    rw [hstep]
    have hp' : p < w'.V.length := by omega
    have e1 : w'.orFlags p 1 = .ok { w' with V := w'.V.set p { w'.V[p] with flags := w'.V[p].flags ||| 1 } } := by
      unfold World.orFlags
      rw [getIdx_eq hp']; rfl
    rw [e1, ok_bind]
    set V1 := w'.V.set p { w'.V[p] with flags := w'.V[p].flags ||| 1 } with hV1
    have hl1 : V1.length = w'.V.length := by simp [hV1]
    have hq' : q < V1.length := by omega
    have e2 : World.orFlags { w' with V := V1 } q 1 =
        .ok { w' with V := V1.set q { V1[q] with flags := V1[q].flags ||| 1 } } := by
      unfold World.orFlags
      rw [getIdx_eq hq']; rfl
    rw [e2]
    refine ⟨by rw [h1], by simp; omega, fun r v hv => ?_⟩
    show (V1.set q _)[r]? = _
    have hv3 := h3 r v hv
    have hidem : ∀ n : Nat, (n ||| 1) ||| 1 = n ||| 1 := by intro n; rw [Nat.or_assoc, Nat.or_self]
    have hV1r : ∀ s u, w'.V[s]? = some u → V1[s]? = some (if s = p then { u with flags := u.flags ||| 1 } else u) := by
      intro s u hs
      rw [hV1, getElem?_set' _ _ _ _ hp']
      by_cases hsp : s = p
      · subst hsp
        have : w'.V[s] = u := by
          have h' : w'.V[s]? = some w'.V[s] := by simp [hp']
          rw [hs] at h'; exact (Option.some.inj h').symm
        simp [this]
      · simp [hsp, hs]
    have hV2r : (V1.set q { V1[q] with flags := V1[q].flags ||| 1 })[r]? =
        (V1[r]?).map (fun u => if r = q then { u with flags := u.flags ||| 1 } else u) := by
      rw [getElem?_set' _ _ _ _ hq']
      by_cases hrq : r = q
      · subst hrq
        have h' : V1[r]? = some V1[r] := by simp [hq']
        rw [h']; simp
      · rw [if_neg hrq]
        cases V1[r]? <;> simp [hrq]
    rw [hV2r, hV1r r _ hv3]
    simp only [Option.map_some]
    congr 1
    rw [hsnoc r]
    generalize (∃ ep' ∈ pre, ∃ g, w.F[ep']? = some g ∧ (g.e0 = none ∨ g.e1 = none) ∧ some r ∈ g.verts) = A
    by_cases hA : A <;> by_cases hrp : r = p <;> by_cases hrq : r = q <;>
      first
        | (simp [mark, hA, hb, hrp, hrq, hidem]; done)
        | (subst hrq; simp [mark, hA, hb, hrp, hidem])
  · rw [if_neg hb]
    refine ⟨h1, h2, fun r v hv => ?_⟩
    rw [h3 r v hv]
    congr 1
    rw [hsnoc r]
    simp [hb]

/-- C52: after `setupNeighbors()` and `setupBoundaries()` exactly the vertices on a face that belongs to a single element
have got the boundary flag (bit 0); all other flag bits, all other vertices and everything else are unchanged. -/
theorem C52_setupBoundaries {w w' : World T} (h : Built w) (hd : Distinct w) (e : w.setupNeighbors = .ok w') :
    ∃ w'', w'.setupBoundaries = .ok w'' ∧ w'' = { w' with V := w''.V } ∧ w''.V.length = w.V.length ∧
      ∀ q v, w.V[q]? = some v →
        (Boundary w q → w''.V[q]? = some { v with flags := v.flags ||| 1 }) ∧ (¬ Boundary w q → w''.V[q]? = some v) := by
  classical
  have hI := built_inv h
  obtain ⟨h1, h2, h3, h4⟩ := (setupNeighbors_spec (inv_nb hI hd)).of_ok e
  have hadj := adjacency_of_nb hI hd h1 h2 h3 h4
  have hF : ∀ ep ∈ w'.edges, ∃ f p q, w'.F[ep]? = some f ∧ f.verts = [some p, some q] ∧ p < w'.V.length ∧ q < w'.V.length := by
    intro ep hep
    obtain ⟨a, ha, i, hi⟩ := hadj.edges.2 ep hep
    obtain ⟨f, f1, f2⟩ := h1.edge a ha i ep hi
    obtain ⟨p, q, v1, -, v3⟩ := f2.verts
    have hb : ∀ r ∈ fc (w.cornerFn a) i, r < w'.V.length := by
      intro r hr
      obtain ⟨v, hv, -⟩ := h1.inc a ha r (fc_subset_cs _ _ hr)
      exact lt_of_getElem? hv
    exact ⟨f, p, q, f1, v1, hb p (by rw [v3]; simp), hb q (by rw [v3]; simp)⟩
  obtain ⟨w'', e1, e2, e3, e4⟩ := (setupBoundaries_spec hF).ok_of
  refine ⟨w'', e1, e2, e3.trans (by rw [hadj.keep.1]), fun q v hv => ?_⟩
  have hiff : (∃ ep ∈ w'.edges, ∃ f, w'.F[ep]? = some f ∧ (f.e0 = none ∨ f.e1 = none) ∧ some q ∈ f.verts) ↔ Boundary w q := by
    constructor
    · rintro ⟨ep, hep, f, f1, f2, f3⟩
      obtain ⟨a, ha, i, hi⟩ := hadj.edges.2 ep hep
      obtain ⟨ep', f', g1, -, g3, -, g5, g6, -, g8⟩ := hadj.edge a ha i
      rw [hi] at g1
      obtain rfl := Option.some.inj g1
      rw [f1] at g3
      obtain rfl := Option.some.inj g3
      have he1 : f.e1 = none := by
        rcases f2 with hh | hh
        · exact absurd hh g6
        · exact hh
      refine ⟨a, ha, i, (g5 q).2 f3, fun b hb => ?_⟩
      have ha' := (g8 a).1 ⟨ha, fun r hr => by
        obtain ⟨j, -, hj⟩ := hr
        exact List.mem_of_getElem? hj⟩
      have hb' := (g8 b).1 hb
      rw [he1] at ha' hb'
      simp at ha' hb'
      rw [ha'] at hb'
      exact (Option.some.inj hb').symm
    · rintro ⟨a, ha, i, hq, honly⟩
      obtain ⟨ep, f, g1, g2, g3, -, g5, g6, g7, g8⟩ := hadj.edge a ha i
      refine ⟨ep, g2, f, g3, .inr ?_, (g5 q).1 hq⟩
      by_contra hne
      obtain ⟨b, hb⟩ := Option.ne_none_iff_exists'.1 hne
      obtain ⟨c, hc⟩ := Option.ne_none_iff_exists'.1 g6
      have hba := honly b ((g8 b).2 (.inr hb))
      have hca := honly c ((g8 c).2 (.inl hc))
      exact g7 (by rw [hb, hc, hba, hca])
  have hv' : w'.V[q]? = some v := by rw [h3]; exact hv
  have := e4 q v hv'
  constructor
  · intro hB
    rw [this, mark_pos (hiff.2 hB)]
  · intro hB
    rw [this, mark_neg (fun hh => hB (hiff.1 hh))]

/-! ### Non-vacuity -/

/-- a square of two triangles -/
def square : World ℚ := match build [[0, 0], [1, 0], [0, 1], [1, 1]] [(0, 1, 2), (1, 3, 2)] World.empty with
  | .ok w => w
  | .error _ => World.empty

theorem build_built {vs : List (List ℚ)} {ts : List (Nat × Nat × Nat)} {w w' : World ℚ} (h : Built w)
    (hvs : ∀ x ∈ vs, x.length = 2) (e : build vs ts w = .ok w') : Built w' := by
  unfold build at e
  have s1 : Sat (forList vs w fun x w => (w.newVertex x).1.addVertex (some (w.newVertex x).2)) (fun w => Built w) (fun _ => True) := by
    refine sat_forList (fun _ w => Built w) vs h ?_
    intro pre x suf w hs hw
    rcases hr : (w.newVertex x).1.addVertex (some (w.newVertex x).2) with er | u
    · trivial
    · refine Built.addVertex (.newVertex x hw (hvs x (by rw [hs]; simp))) ?_ hr
      intro hm
      have := (built_inv hw).vlt _ hm
      exact absurd this (by simp [World.newVertex])
  rcases hr : forList vs w fun x w => (w.newVertex x).1.addVertex (some (w.newVertex x).2) with er | u
  · rw [hr] at e; cases e
  · rw [hr, ok_bind] at e
    have s2 : Sat (forList ts u fun t w =>
        let r := w.newElement [some t.1, some t.2.1, some t.2.2]
        r.1.addElement (some r.2)) (fun w => Built w) (fun _ => True) := by
      refine sat_forList (fun _ w => Built w) ts (s1.of_ok hr) ?_
      intro pre t suf w hs hw
      simp only
      rcases hr' : (w.newElement [some t.1, some t.2.1, some t.2.2]).1.addElement
        (some (w.newElement [some t.1, some t.2.1, some t.2.2]).2) with er | u'
      · trivial
      · refine Built.addElement (.newElement _ hw rfl) ?_ hr'
        intro hm
        have := (built_inv hw).elt _ hm
        exact absurd this (by simp [World.newElement])
    exact s2.of_ok e

theorem square_built : Built square :=
  build_built (vs := [[0, 0], [1, 0], [0, 1], [1, 1]]) (ts := [(0, 1, 2), (1, 3, 2)]) .empty (by simp) rfl

/-- Non-vacuity of C50-C52: the square satisfies the hypotheses, `setupNeighbors` finds five edges. -/
example : Built square ∧ Distinct square ∧ square.elements = [0, 1] ∧ (square.setupNeighbors.toOption.map (·.edges.length)) = some 5 :=
  ⟨square_built, by unfold Distinct; decide, rfl, rfl⟩

/-- Non-vacuity of the exception case: three triangles at the edge (0,1). -/
def fan : World ℚ := match build [[0, 0], [1, 0], [0, 1], [1, 1], [2, 2]] [(0, 1, 2), (0, 1, 3), (0, 1, 4)] World.empty with
  | .ok w => w
  | .error _ => World.empty
example : Built fan ∧ Distinct fan ∧ fan.setupNeighbors = .error (.exc .tooManySharedFaces) :=
  ⟨build_built (vs := [[0, 0], [1, 0], [0, 1], [1, 1], [2, 2]]) (ts := [(0, 1, 2), (0, 1, 3), (0, 1, 4)]) .empty (by simp) rfl,
    by unfold Distinct; decide, rfl⟩
end NS.Props.Mesh

/-
Property theorems C56: `PolyShapePolicy<T,2,Order>::prepareMesh` numbers the degrees of freedom.
-/
import Verif.ShapeMesh
import Verif.Props.MeshValidate
import Verif.Props.Shape

set_option linter.unusedSectionVars false
set_option linter.unusedSimpArgs false

namespace NS.Props.Shape
open NS NS.World NS.Shape NS.Props.Mesh
variable {T : Type} [Field T] [LinearOrder T] [IsStrictOrderedRing T]

/-- The meshes `prepareMesh` is meant for: built by an `addVertex`/`addElement` history `w`, then `setupNeighbors()`, then any
number of `setupBoundaries()` and `prepare()` calls. -/
inductive Setup (w : World T) : World T → Prop
  | neighbors {w'} : w.setupNeighbors = .ok w' → Setup w w'
  | boundaries {w' w''} : Setup w w' → w'.setupBoundaries = .ok w'' → Setup w w''
  | prepare {w' w''} (eps : T) : Setup w w' → w'.prepare eps = .ok w'' → Setup w w''

/-- `w'` differs from `w` only in flags and simplices -/
structure Like (w w' : World T) : Prop where
  vertices : w'.vertices = w.vertices
  elements : w'.elements = w.elements
  edges : w'.edges = w.edges
  F : w'.F = w.F
  V : ∀ (q : Nat) (v : MVertex T), w.V[q]? = some v → ∃ v', w'.V[q]? = some v' ∧ v'.pos = v.pos ∧ v'.gi = v.gi ∧ v'.elems = v.elems
  E : ∀ (a : Nat) (e : MElem T), w.E[a]? = some e → ∃ e', w'.E[a]? = some e' ∧ e'.verts = e.verts ∧ e'.nbrs = e.nbrs ∧ e'.dofs = e.dofs ∧
    e'.simplex.verts = e.simplex.verts
  Vlen : w'.V.length = w.V.length
  Elen : w'.E.length = w.E.length

theorem Like.refl (w : World T) : Like w w :=
  ⟨rfl, rfl, rfl, rfl, fun _ v h => ⟨v, h, rfl, rfl, rfl⟩, fun _ e h => ⟨e, h, rfl, rfl, rfl, rfl⟩, rfl, rfl⟩

theorem Like.trans {w w' w'' : World T} (h : Like w w') (g : Like w' w'') : Like w w'' := by
  refine ⟨g.vertices.trans h.vertices, g.elements.trans h.elements, g.edges.trans h.edges, g.F.trans h.F, fun q v hv => ?_, fun a e he => ?_,
    g.Vlen.trans h.Vlen, g.Elen.trans h.Elen⟩
  · obtain ⟨v', a1, a2, a3, a4⟩ := h.V q v hv
    obtain ⟨v'', b1, b2, b3, b4⟩ := g.V q v' a1
    exact ⟨v'', b1, b2.trans a2, b3.trans a3, b4.trans a4⟩
  · obtain ⟨e', a1, a2, a3, a4, a5⟩ := h.E a e he
    obtain ⟨e'', b1, b2, b3, b4, b5⟩ := g.E a e' a1
    exact ⟨e'', b1, b2.trans a2, b3.trans a3, b4.trans a4, b5.trans a5⟩

theorem like_orFlags {w w' : World T} {p f : Nat} (h : w.orFlags p f = .ok w') : Like w w' := by
  unfold World.orFlags at h
  rw [bind_ok_iff] at h
  obtain ⟨v, hv, h⟩ := h
  rw [getIdx_ok_iff] at hv
  obtain rfl := Except.ok.inj h
  refine { Like.refl w with V := fun q u hu => ?_, Vlen := by simp }
  simp only
  rw [getElem?_set' _ _ _ _ (lt_of_getElem? hv)]
  split
  · next hq =>
    subst hq
    rw [hv] at hu
    obtain rfl := Option.some.inj hu
    exact ⟨_, rfl, rfl, rfl, rfl⟩
  · exact ⟨u, hu, rfl, rfl, rfl⟩

theorem sat_of_ok {α : Type} {x : R α} {Q : α → Prop} (h : ∀ a, x = .ok a → Q a) : Sat x Q (fun _ => True) := by
  rcases hx : x with er | a
  · trivial
  · exact h a hx

theorem like_boundaries {w w' : World T} (h : w.setupBoundaries = .ok w') : Like w w' := by
  unfold World.setupBoundaries at h
  refine (Sat.of_ok (Q := fun w' => Like w w') (E := fun _ => True) ?_ h)
  refine sat_forList (fun _ (u : World T) => Like w u) _ (Like.refl w) ?_
  intro pre S suf u _ hu
  rcases hg : getIdx u.F S with er | e
  · trivial
  rw [ok_bind]
  split
  · refine sat_forRange (fun _ (u : World T) => Like w u) (Nat.zero_le 2) hu ?_
    intro j u _ _ hu
    refine sat_of_ok fun u' hr => ?_
    · show Like w u'
      rw [bind_ok_iff] at hr
      obtain ⟨vp, -, hr⟩ := hr
      rw [bind_ok_iff] at hr
      obtain ⟨-, -, hr⟩ := hr
      rw [bind_ok_iff] at hr
      obtain ⟨p, -, hr⟩ := hr
      exact hu.trans (like_orFlags hr)
  · exact hu

theorem prepare_verts {eps : T} {s s' : Simplex T} (h : s.prepare eps = .ok s') : s'.verts = s.verts := by
  unfold Simplex.prepare at h
  simp only [bind_ok_iff] at h
  obtain ⟨_, _, _, _, _, _, _, _, _, _, _, _, _, _, _, _, _, _, _, _, _, _, _, _, h⟩ := h
  obtain rfl := Except.ok.inj h
  rfl

theorem like_prepare {eps : T} {w w' : World T} (h : w.prepare eps = .ok w') : Like w w' := by
  unfold World.prepare at h
  refine (Sat.of_ok (Q := fun w' => Like w w') (E := fun _ => True) ?_ h)
  refine sat_forList (fun _ (u : World T) => Like w u) _ (Like.refl w) ?_
  intro pre S suf u _ hu
  refine sat_of_ok fun u' hr => ?_
  · show Like w u'
    refine hu.trans ?_
    rw [bind_ok_iff] at hr
    obtain ⟨e, he, hr⟩ := hr
    rw [getIdx_ok_iff] at he
    rw [bind_ok_iff] at hr
    obtain ⟨s, hs, hr⟩ := hr
    obtain rfl := Except.ok.inj hr
    refine { Like.refl u with E := fun q x hx => ?_, Elen := by simp }
    simp only
    rw [getElem?_set' _ _ _ _ (lt_of_getElem? he)]
    split
    · next hq =>
      subst hq
      rw [he] at hx
      obtain rfl := Option.some.inj hx
      exact ⟨_, rfl, rfl, rfl, rfl, prepare_verts hs⟩
    · exact ⟨x, hx, rfl, rfl, rfl, rfl⟩

theorem setup_like {w w' : World T} (h : Setup w w') : ∃ w1, w.setupNeighbors = .ok w1 ∧ Like w1 w' := by
  induction h with
  | @neighbors w' e => exact ⟨w', e, Like.refl _⟩
  | boundaries _ e ih =>
    obtain ⟨w1, e1, l⟩ := ih
    exact ⟨w1, e1, l.trans (like_boundaries e)⟩
  | prepare eps _ e ih =>
    obtain ⟨w1, e1, l⟩ := ih
    exact ⟨w1, e1, l.trans (like_prepare e)⟩

/-- the edge in slot `i` of element `a` -/
def en (w : World T) (a : Nat) (i : Fin 3) : Nat := (nbr w a i).getD 0
/-- the edge object -/
def eo (w : World T) (ep : Nat) : MEdge := (w.F[ep]?).getD ⟨[], none, none, []⟩
/-- its end points -/
def ev (w : World T) (k ep : Nat) : Nat := ((eo w ep).verts[k]?.join).getD 0
/-- its midpoint -/
def em (w : World T) (ep : Nat) : List T :=
  ((do
    let vp ← getIdx w.V (ev w 0 ep)
    let vq ← getIdx w.V (ev w 1 ep)
    let s ← Vec.addAssign vp.pos vq.pos
    Vec.divScalar s 2 : R (List T)).toOption).getD []

theorem midpoint_eq (x y x' y' : T) :
    (do let s ← Vec.addAssign [x, y] [x', y']; Vec.divScalar s 2) = (.ok [(x + x') * (1 / 2), (y + y') * (1 / 2)] : R (List T)) := rfl

/-- everything about the edges of a set-up mesh -/
structure Edges (w w' : World T) : Prop where
  ready : Ready w' (w.cornerFn) (en w') (eo w') (ev w' 0) (ev w' 1) (em w')
  ef : ∀ a ∈ w.elements, ∀ i, EdgeFor w.elements w.cornerFn (fc (w.cornerFn a) i) (eo w' (en w' a i))
  same : ∀ a ∈ w.elements, ∀ b ∈ w.elements, ∀ i j, en w' a i = en w' b j ↔ fc (w.cornerFn a) i = fc (w.cornerFn b) j
  used : ∀ ep, ep ∈ w'.edges ↔ ∃ a ∈ w.elements, ∃ i, en w' a i = ep
  endd : w'.edges.Nodup
  elements : w'.elements = w.elements
  vertices : w'.vertices = w.vertices
  Vlen : w'.V.length = w.V.length
  V : ∀ (q : Nat) (v : MVertex T), w.V[q]? = some v → ∃ v', w'.V[q]? = some v' ∧ v'.pos = v.pos ∧ v'.gi = v.gi ∧ v'.elems = v.elems
  E : ∀ a ∈ w.elements, ∃ e e', w.E[a]? = some e ∧ w'.E[a]? = some e' ∧ e'.verts = e.verts ∧ e'.dofs = [] ∧ e'.simplex.verts = e.simplex.verts
  planar : Planar w'

theorem mem_fc (t : Fin 3 → Nat) (i : Fin 3) : ∃ j k, j ≠ k ∧ j ≠ i ∧ k ≠ i ∧ fc t i = {t j, t k} :=
  ⟨fA i, fB i, fA_ne_fB i, by fin_cases i <;> decide, by fin_cases i <;> decide, rfl⟩

theorem edges_of {w w' : World T} (h : Built w) (hd : Distinct w) (s : Setup w w') : Edges w w' := by
  have hI := built_inv h
  obtain ⟨w1, e1, l⟩ := setup_like s
  obtain ⟨h1, h2, h3, h4⟩ := (setupNeighbors_spec (inv_nb hI hd)).of_ok e1
  have hadj := adjacency_of_nb hI hd h1 h2 h3 h4
  have hfr := setupNeighbors_frame e1
  have hEl : ∀ a ∈ w.elements, ∃ e e1 e', w.E[a]? = some e ∧ w1.E[a]? = some e1 ∧ w'.E[a]? = some e' ∧ e'.verts = e.verts ∧ e'.dofs = [] ∧
      e'.nbrs = e1.nbrs ∧ e'.simplex.verts = e.simplex.verts := by
    intro a ha
    obtain ⟨e, he⟩ : ∃ e, w.E[a]? = some e := ⟨_, List.getElem?_eq_getElem (hI.elt a ha)⟩
    obtain ⟨e', a1, a2, a3, a4⟩ := core_some hfr he
    obtain ⟨e'', b1, b2, b3, b4, b5⟩ := l.E a e' a1
    exact ⟨e, e', e'', he, a1, b1, b2.trans a3, b4.trans (a4.trans (hI.shape a e he).2.2.1), b3, b5.trans (by rw [a2])⟩
  have hnb : ∀ a ∈ w.elements, ∀ i : Fin 3, nbr w' a i = nbr w1 a i := by
    intro a ha i
    obtain ⟨e, e1, e', -, b1, c1, -, -, d, -⟩ := hEl a ha
    unfold nbr
    rw [b1, c1]
    simp [d]
  have hen : ∀ a ∈ w.elements, ∀ i : Fin 3, nbr w1 a i = some (en w' a i) := by
    intro a ha i
    obtain ⟨ep, hep⟩ := h2 a ha i
    unfold en
    rw [hnb a ha i, hep]; rfl
  have hV : ∀ (q : Nat) (v : MVertex T), w.V[q]? = some v → ∃ v', w'.V[q]? = some v' ∧ v'.pos = v.pos ∧ v'.gi = v.gi ∧ v'.elems = v.elems := by
    intro q v hv
    exact l.V q v (by rw [h3]; exact hv)
  have hVl : w'.V.length = w.V.length := by rw [l.Vlen, h3]
  have hpos : ∀ (q : Nat) (v : MVertex T), w'.V[q]? = some v → v.pos.length = 2 := by
    intro q v hv
    have hlt := lt_of_getElem? hv
    rw [hVl] at hlt
    obtain ⟨v', b1, b2, -⟩ := hV q _ (List.getElem?_eq_getElem hlt)
    rw [hv] at b1
    obtain rfl := Option.some.inj b1
    rw [b2]; exact hI.pos q _ (List.getElem?_eq_getElem hlt)
  have hef : ∀ a ∈ w.elements, ∀ i, w'.F[en w' a i]? = some (eo w' (en w' a i)) ∧
      EdgeFor w.elements w.cornerFn (fc (w.cornerFn a) i) (eo w' (en w' a i)) := by
    intro a ha i
    obtain ⟨f, f1, f2⟩ := h1.edge a ha i _ (hen a ha i)
    rw [← l.F] at f1
    have : eo w' (en w' a i) = f := by unfold eo; rw [f1]; rfl
    rw [this]
    exact ⟨f1, f2⟩
  refine ⟨⟨by rw [l.elements, h1.els_eq]; exact hI.end_, fun a ha => ?_, fun a ha i => ?_, fun a ha i => ?_⟩, fun a ha i => (hef a ha i).2,
    fun a ha b hb i j => ?_, fun ep => ?_, by rw [l.edges]; exact hadj.edges.1, by rw [l.elements, h1.els_eq], by rw [l.vertices, h4], hVl, hV, fun a ha => ?_, hpos, fun a e he x hx => ?_⟩
  · rw [l.elements, h1.els_eq] at ha
    obtain ⟨e, e1, e', b0, b1, b2, b3, b4, b5, -⟩ := hEl a ha
    refine ⟨e', b2, ?_, ?_, b4⟩
    · rw [b3, ← vertsOf_some b0, vertsOf_arr hI ha]
    · obtain ⟨e2, c1, -, c3⟩ := h1.el a ha
      rw [b1] at c1
      obtain rfl := Option.some.inj c1
      apply List.ext_getElem?
      intro i
      by_cases hi : i < 3
      · rw [arr_get _ ⟨i, hi⟩]
        have hg : e1.nbrs[i]? = some e1.nbrs[i] := by simp [c3, hi]
        have := nbr_of b1 hg
        rw [show nbr w1 a i = some (en w' a ⟨i, hi⟩) from hen a ha ⟨i, hi⟩] at this
        rw [b5, hg, ← this]
      · rw [List.getElem?_eq_none (by rw [b5, c3]; omega), List.getElem?_eq_none (by simp [arr]; omega)]
  · rw [l.elements, h1.els_eq] at ha
    obtain ⟨f1, f2⟩ := hef a ha i
    obtain ⟨p, q, v1, -, -⟩ := f2.verts
    refine ⟨f1, ?_, f2.dofs⟩
    unfold ev
    rw [v1]; rfl
  · rw [l.elements, h1.els_eq] at ha
    obtain ⟨f1, f2⟩ := hef a ha i
    obtain ⟨p, q, v1, -, v3⟩ := f2.verts
    have hp : ev w' 0 (en w' a i) = p := by unfold ev; rw [v1]; rfl
    have hq : ev w' 1 (en w' a i) = q := by unfold ev; rw [v1]; rfl
    have hb : ∀ r ∈ fc (w.cornerFn a) i, ∃ v, w'.V[r]? = some v := by
      intro r hr
      obtain ⟨v, hv, -⟩ := h1.inc a ha r (fc_subset_cs _ _ hr)
      obtain ⟨v', hv', -⟩ := l.V r v hv
      exact ⟨v', hv'⟩
    obtain ⟨vp, hvp⟩ := hb p (by rw [v3]; simp)
    obtain ⟨vq, hvq⟩ := hb q (by rw [v3]; simp)
    obtain ⟨x, y, hx⟩ := Props.Simplex.two_of_length (hpos p vp hvp)
    obtain ⟨x', y', hx'⟩ := Props.Simplex.two_of_length (hpos q vq hvq)
    have hm := midpoint_eq x y x' y'
    rw [bind_ok_iff] at hm
    obtain ⟨s, m1, m2⟩ := hm
    refine ⟨vp, vq, s, by rw [hp]; exact hvp, by rw [hq]; exact hvq, by rw [hx, hx']; exact m1, ?_⟩
    unfold em
    rw [hp, hq, getIdx_of_some hvp, ok_bind, getIdx_of_some hvq, ok_bind, hx, hx', m1, ok_bind, m2]
    rfl
  · constructor
    · intro he
      obtain ⟨f1, f2⟩ := hef a ha i
      obtain ⟨g1, g2⟩ := hef b hb j
      rw [he] at f2
      obtain ⟨p, q, v1, -, v3⟩ := f2.verts
      obtain ⟨p', q', v1', -, v3'⟩ := g2.verts
      rw [v1] at v1'
      simp at v1'
      rw [v3, v3', v1'.1, v1'.2]
    · intro hf
      have := h1.clos a ha b hb i j hf
      rw [hen a ha i, hen b hb j] at this
      exact Option.some.inj this
  · rw [l.edges, h1.edges_eq, List.mem_range]
    constructor
    · intro hlt
      obtain ⟨a, ha, i, hi⟩ := h1.used ep hlt
      refine ⟨a, ha, i, ?_⟩
      rw [hen a ha i] at hi
      exact Option.some.inj hi
    · rintro ⟨a, ha, i, rfl⟩
      have := lt_of_getElem? (hef a ha i).1
      rwa [l.F] at this
  · obtain ⟨e, e1, e', b0, b1, b2, b3, b4, b5, b6⟩ := hEl a ha
    exact ⟨e, e', b0, b2, b3, b4, b6⟩
  · have hlt := lt_of_getElem? he
    have hm := congrArg List.length hfr
    rw [List.length_map, List.length_map] at hm
    rw [l.Elen, hm] at hlt
    have hg := List.getElem?_eq_getElem hlt
    obtain ⟨e', a1, a2, -⟩ := core_some hfr hg
    obtain ⟨e'', b1, -, -, -, b5⟩ := l.E a e' a1
    rw [he] at b1
    obtain rfl := Option.some.inj b1
    rw [b5, a2] at hx
    exact (hI.shape a _ hg).2.2.2.2.2.1 x hx

/-! ### C56 -/

/-- what order 1 promises: nothing but the DOF lists changes, and the DOFs of an element are its corners -/
structure LinearDofs (w' w'' : World T) : Prop where
  keep : w''.V = w'.V ∧ w''.vertices = w'.vertices ∧ w''.elements = w'.elements ∧ w''.edges = w'.edges
  dofs : ∀ a ∈ w'.elements, ∃ e d, w'.E[a]? = some e ∧ e.verts = d.map some ∧ d.length = 3 ∧ w''.E[a]? = some { e with dofs := d }

/-- what order 2 promises, for the mesh `w` (before `setupNeighbors`), `w'` (before) and `w''` (after the call), where `m a i`
is the new vertex in the middle of face `i` of element `a` -/
structure QuadraticDofs (w w' w'' : World T) (m : Nat → Fin 3 → Nat) : Prop where
  /-- the mesh keeps its elements and edges, and every old vertex object -/
  elements : w''.elements = w'.elements
  edges : w''.edges = w'.edges
  old : ∀ p < w'.V.length, w''.V[p]? = w'.V[p]?
  /-- `vertices()` grows by exactly one new object per edge -/
  vertices : ∃ news, w''.vertices = w'.vertices ++ news ∧ news.Nodup ∧ news.length = w'.edges.length ∧
    (∀ p ∈ news, w'.V.length ≤ p) ∧ ∀ p, p ∈ news ↔ ∃ a ∈ w.elements, ∃ i, m a i = p
  /-- the index of every vertex is its position: `0, 1, 2, …` -/
  index : ∀ i p, w''.vertices[i]? = some p → ∃ v : MVertex T, w''.V[p]? = some v ∧ v.gi = i
  /-- two faces have the same new vertex exactly when they have the same end points -/
  shared : ∀ a ∈ w.elements, ∀ b ∈ w.elements, ∀ i j, m a i = m b j ↔ ∀ q, OnFace w a i q ↔ OnFace w b j q
  /-- DOFs of an element: the corners, then the vertices on the faces opposite to corner 2, 0 and 1 -/
  dofs : ∀ a ∈ w.elements, ∃ e c0 c1 c2, w'.E[a]? = some e ∧ e.verts = [some c0, some c1, some c2] ∧
    w''.E[a]? = some { e with dofs := [c0, c1, c2, m a 2, m a 0, m a 1] }
  /-- the new vertex lies in the middle of the face, knows exactly the elements that contain the face, and has the DOF-only
  flag (2) and, if the face belongs to a single element, the boundary flag (1) -/
  mid : ∀ a ∈ w.elements, ∀ i, ∃ v : MVertex T, w''.V[m a i]? = some v ∧
    v.pos = [(∑ k ∈ Finset.univ.erase i, coords w a k 0) / 2, (∑ k ∈ Finset.univ.erase i, coords w a k 1) / 2] ∧
    v.elems.Nodup ∧ (∀ b, b ∈ v.elems ↔ HasFace w b a i) ∧
    ((∀ b, HasFace w b a i → b = a) → v.flags = 3) ∧ (¬ (∀ b, HasFace w b a i → b = a) → v.flags = 2)

/-- C56, order 1: `prepareMesh` succeeds on every mesh that was set up, and the DOFs are the vertices. -/
theorem C56_order1 {w w' : World T} (h : Built w) (hd : Distinct w) (s : Setup w w') :
    ∃ w'', prepareMesh 1 w' = .ok w'' ∧ LinearDofs w' w'' := by
  have hE := edges_of h hd s
  obtain ⟨w'', e, M, h1, -⟩ := firstPass_ok hE.ready
  refine ⟨w'', ?_, ⟨h1.V, h1.vertices, h1.elements, h1.edges⟩, fun a ha => ?_⟩
  · unfold prepareMesh
    rw [e, ok_bind, if_neg (by decide)]; rfl
  · obtain ⟨e, e1, e2, -, -⟩ := hE.ready.elem a ha
    exact ⟨e, cl (w.cornerFn a), e1, e2, rfl, by rw [h1.E a ha e e1, if_pos ha]⟩

theorem mem_visits {els : List Nat} {x : Nat × Fin 3} : x ∈ visits els ↔ x.1 ∈ els := by
  obtain ⟨a, i⟩ := x
  simp only [visits, List.mem_flatMap]
  constructor
  · rintro ⟨b, hb, hx⟩
    simp at hx
    rcases hx with hx | hx | hx <;> rw [hx.1] <;> exact hb
  · intro ha
    refine ⟨a, ha, ?_⟩
    fin_cases i <;> simp

theorem nodup_visits {els : List Nat} (h : els.Nodup) : (visits els).Nodup := by
  unfold visits
  rw [List.nodup_flatMap]
  refine ⟨fun a _ => by simp, ?_⟩
  refine List.Pairwise.imp ?_ h
  intro a b hab x hx hy
  simp at hx hy
  rcases hx with rfl | rfl | rfl <;> simp [hab] at hy

theorem visits_of {els : List Nat} (h : els.Nodup) {a : Nat} (ha : a ∈ els) :
    (visits els).filter (fun h => h.1 = a) = [(a, 2), (a, 0), (a, 1)] := by
  induction els with
  | nil => simp at ha
  | cons b els ih =>
    rw [List.nodup_cons] at h
    unfold visits
    rw [List.flatMap_cons, List.filter_append]
    by_cases hab : a = b
    · subst hab
      have : (els.flatMap fun a => [(a, (2 : Fin 3)), (a, 0), (a, 1)]).filter (fun h => h.1 = a) = [] := by
        rw [List.filter_eq_nil_iff]
        intro x hx hxa
        have := (mem_visits (els := els)).1 hx
        simp at hxa
        exact h.1 (hxa ▸ this)
      rw [this]; simp
    · have : a ∈ els := by simpa [hab] using ha
      have := ih h.2 this
      unfold visits at this
      rw [this]
      simp [Ne.symm hab]

theorem sum_erase (i : Fin 3) (g : Fin 3 → T) : ∑ k ∈ Finset.univ.erase i, g k = g (fA i) + g (fB i) := by
  have : (Finset.univ.erase i : Finset (Fin 3)) = {fA i, fB i} := by fin_cases i <;> decide
  rw [this, Finset.sum_pair (fA_ne_fB i)]

theorem coords_eq {w : World T} (h : Inv w) {a : Nat} (ha : a ∈ w.elements) (k : Fin 3) {v : MVertex T} (hv : w.V[w.cornerFn a k]? = some v) :
    v.pos = [coords w a k 0, coords w a k 1] := by
  obtain ⟨x, y, hx⟩ := Props.Simplex.two_of_length (h.pos _ v hv)
  unfold coords
  rw [vertsOf_arr h ha, arr_get]
  simp [hv, hx]

theorem single_iff {f : MEdge} {a : Nat} {F : Finset Nat} {els : List Nat} {tv : Nat → Fin 3 → Nat}
    (hf : EdgeFor els tv F f) (ha : a ∈ els) (hF : F ⊆ cs (tv a)) :
    (f.e0 = none ∨ f.e1 = none) ↔ ∀ b, (b ∈ els ∧ F ⊆ cs (tv b)) → b = a := by
  obtain ⟨a0, a1, a2, a3⟩ := hf.first
  constructor
  · rintro (h | h) b ⟨hb, hs⟩
    · rw [a1] at h; cases h
    · rcases hf.all b hb hs with hb' | hb'
      · rcases hf.all a ha hF with ha' | ha'
        · rw [hb'] at ha'; exact Option.some.inj ha'
        · rw [h] at ha'; cases ha'
      · rw [h] at hb'; cases hb'
  · intro hall
    right
    rcases h1 : f.e1 with _ | b
    · rfl
    · obtain ⟨c1, c2, c3⟩ := hf.second b h1
      have := hall b ⟨c1, c2⟩
      have h0 := hall a0 ⟨a2, a3⟩
      rw [a1, h0, this] at c3
      exact absurd rfl c3

theorem face_eq {w : World T} (hI : Inv w) (hd : Distinct w) {a b : Nat} (ha : a ∈ w.elements) (_hb : b ∈ w.elements) (i : Fin 3)
    (hsub : fc (w.cornerFn a) i ⊆ cs (w.cornerFn b)) : ∃ j, fc (w.cornerFn b) j = fc (w.cornerFn a) i := by
  have hinja : Function.Injective (w.cornerFn a) := arr_inj (by rw [← vertsOf_arr hI ha]; exact hd a ha)
  have hA : w.cornerFn a (fA i) ∈ cs (w.cornerFn b) := hsub (by simp [fc])
  have hB : w.cornerFn a (fB i) ∈ cs (w.cornerFn b) := hsub (by simp [fc])
  have hne : w.cornerFn a (fA i) ≠ w.cornerFn a (fB i) := fun hh => fA_ne_fB i (hinja hh)
  unfold fc at *
  rw [mem_cs] at hA hB
  rcases hA with hA | hA | hA <;> rcases hB with hB | hB | hB <;> rw [hA, hB] at hne ⊢ <;>
    first
      | exact absurd rfl hne
      | exact ⟨0, rfl⟩
      | exact ⟨1, rfl⟩
      | exact ⟨2, rfl⟩
      | exact ⟨0, Finset.pair_comm _ _⟩
      | exact ⟨1, Finset.pair_comm _ _⟩
      | exact ⟨2, Finset.pair_comm _ _⟩

theorem face_of {w : World T} (hI : Inv w) (hd : Distinct w) {a b : Nat} {i : Fin 3} (ha : a ∈ w.elements) (h : HasFace w b a i) :
    ∃ j, ∀ q, OnFace w a i q ↔ OnFace w b j q := by
  have h' := (hasFace_iff hI hd ha i).1 h
  obtain ⟨j, hj⟩ := face_eq hI hd ha h'.1 i h'.2
  exact ⟨j, fun q => by rw [onFace_iff hI hd ha, onFace_iff hI hd h'.1, hj]⟩

/-- C56, order 2: `prepareMesh` succeeds on every mesh that was set up and adds one DOF per edge, in the middle of the edge,
shared by the adjacent elements; all indices are distinct and contiguous. -/
theorem C56_order2 {w w' : World T} (h : Built w) (hd : Distinct w) (s : Setup w w') :
    ∃ w'' m, prepareMesh 2 w' = .ok w'' ∧ QuadraticDofs w w' w'' m := by
  have hI := built_inv h
  have hE := edges_of h hd s
  obtain ⟨w'', es, e, hP⟩ := prepareMesh2_ok hE.ready
  have hels := hE.elements
  have hmem : ∀ ep, ep ∈ es ↔ ∃ a ∈ w.elements, ∃ i, en w' a i = ep := by
    intro ep
    rw [hP.mem]
    constructor
    · rintro ⟨⟨a, i⟩, hx, rfl⟩
      exact ⟨a, by rw [← hels]; exact mem_visits.1 hx, i, rfl⟩
    · rintro ⟨a, ha, i, rfl⟩
      exact ⟨(a, i), mem_visits.2 (by rw [hels]; exact ha), rfl⟩
  have hin : ∀ a ∈ w.elements, ∀ i, en w' a i ∈ es := fun a ha i => (hmem _).2 ⟨a, ha, i, rfl⟩
  have hlen : es.length = w'.edges.length := by
    refine List.Perm.length_eq ((List.perm_ext_iff_of_nodup hP.nd hE.endd).2 fun ep => ?_)
    rw [hmem, hE.used]
  have hnewV : ∀ a ∈ w.elements, ∀ i, w''.V[w'.V.length + es.idxOf (en w' a i)]? = _ := fun a ha i =>
    hP.new _ _ (List.getElem?_idxOf (hin a ha i))
  have hface : ∀ a ∈ w.elements, ∀ b ∈ w.elements, ∀ i j, (∀ q, OnFace w a i q ↔ OnFace w b j q) ↔ en w' a i = en w' b j := by
    intro a ha b hb i j
    rw [hE.same a ha b hb, Finset.ext_iff]
    refine forall_congr' fun q => ?_
    rw [onFace_iff hI hd ha, onFace_iff hI hd hb]
  have hnd : w'.elements.Nodup := by rw [hels]; exact hI.end_
  refine ⟨w'', fun a i => w'.V.length + es.idxOf (en w' a i), e, hP.elements, hP.edges, hP.old,
    ⟨(List.range es.length).map (w'.V.length + ·), hP.vertices, ?_, by simp [hlen], fun p hp => ?_, fun p => ?_⟩,
    fun i p hp => ?_, fun a ha b hb i j => ?_, fun a ha => ?_, fun a ha i => ?_⟩
  · exact List.nodup_range.map (fun a b hab => by simpa using hab)
  · simp at hp
    obtain ⟨k, -, rfl⟩ := hp
    omega
  · simp only [List.mem_map, List.mem_range]
    constructor
    · rintro ⟨k, hk, rfl⟩
      obtain ⟨a, ha, i, hi⟩ := (hmem es[k]).1 (List.getElem_mem hk)
      refine ⟨a, ha, i, ?_⟩
      rw [hi, List.Nodup.idxOf_getElem hP.nd]
    · rintro ⟨a, ha, i, rfl⟩
      exact ⟨_, List.idxOf_lt_length_iff.2 (hin a ha i), rfl⟩
  · rw [hP.vertices] at hp
    by_cases hi : i < w'.vertices.length
    · rw [List.getElem?_append_left hi, hE.vertices] at hp
      have hlt := hI.vlt p (List.mem_of_getElem? hp)
      obtain ⟨v', b1, -, b3, -⟩ := hE.V p _ (List.getElem?_eq_getElem hlt)
      refine ⟨v', by rw [hP.old p (lt_of_getElem? b1)]; exact b1, ?_⟩
      rw [b3]; exact hI.gi i p _ hp (List.getElem?_eq_getElem hlt)
    · rw [List.getElem?_append_right (by omega)] at hp
      have hlt := lt_of_getElem? hp
      rw [List.length_map, List.length_range] at hlt
      have hp' : w'.V.length + (i - w'.vertices.length) = p := by
        rw [List.getElem?_map, List.getElem?_range hlt] at hp
        exact Option.some.inj hp
      rw [← hp']
      have := hP.new (i - w'.vertices.length) _ (List.getElem?_eq_getElem hlt)
      exact ⟨_, this, by show w'.vertices.length + (i - w'.vertices.length) = i; omega⟩
  · rw [hface a ha b hb]
    constructor
    · intro hh
      have hh : es.idxOf (en w' a i) = es.idxOf (en w' b j) := by simpa using hh
      exact (List.idxOf_inj (hin a ha i)).1 hh
    · intro hh; simp only [hh]
  · obtain ⟨e, e1, e2, -, -⟩ := hE.ready.elem a (by rw [hels]; exact ha)
    refine ⟨e, _, _, _, e1, e2, ?_⟩
    rw [hP.E a (by rw [hels]; exact ha) e e1, visits_of hnd (by rw [hels]; exact ha)]
    rfl
  · refine ⟨_, hnewV a ha i, ?_, ?_, fun b => ?_, ?_⟩
    · have hfe := hE.ef a ha i
      obtain ⟨p, q, v1, vne, v3⟩ := hfe.verts
      have hp : ev w' 0 (en w' a i) = p := by unfold ev; rw [v1]; rfl
      have hq : ev w' 1 (en w' a i) = q := by unfold ev; rw [v1]; rfl
      obtain ⟨vp, vq, s, m1, m2, m3, m4⟩ := hE.ready.mid a (by rw [hels]; exact ha) i
      rw [hp] at m1
      rw [hq] at m2
      have hc : ∀ k : Fin 3, ∀ v : MVertex T, w'.V[w.cornerFn a k]? = some v → v.pos = [coords w a k 0, coords w a k 1] := by
        intro k v hv
        have hlt := lt_of_getElem? hv
        rw [hE.Vlen] at hlt
        obtain ⟨v', b1, b2, -⟩ := hE.V _ _ (List.getElem?_eq_getElem hlt)
        rw [hv] at b1
        obtain rfl := Option.some.inj b1
        rw [b2]; exact coords_eq hI ha k (List.getElem?_eq_getElem hlt)
      simp only
      rw [sum_erase, sum_erase]
      have hpq : (p = w.cornerFn a (fA i) ∧ q = w.cornerFn a (fB i)) ∨ (p = w.cornerFn a (fB i) ∧ q = w.cornerFn a (fA i)) := by
        have hpm : p ∈ fc (w.cornerFn a) i := by rw [v3]; simp
        have hqm : q ∈ fc (w.cornerFn a) i := by rw [v3]; simp
        simp only [fc, Finset.mem_insert, Finset.mem_singleton] at hpm hqm
        rcases hpm with hpm | hpm <;> rcases hqm with hqm | hqm
        · exact absurd (hpm.trans hqm.symm) vne
        · exact .inl ⟨hpm, hqm⟩
        · exact .inr ⟨hpm, hqm⟩
        · exact absurd (hpm.trans hqm.symm) vne
      rcases hpq with ⟨rfl, rfl⟩ | ⟨rfl, rfl⟩
      · rw [hc _ vp m1, hc _ vq m2] at m3
        have := midpoint_eq (coords w a (fA i) 0) (coords w a (fA i) 1) (coords w a (fB i) 0) (coords w a (fB i) 1)
        rw [m3, ok_bind, m4] at this
        rw [Except.ok.inj this]
        simp [div_eq_mul_inv]
      · rw [hc _ vp m1, hc _ vq m2] at m3
        have := midpoint_eq (coords w a (fB i) 0) (coords w a (fB i) 1) (coords w a (fA i) 0) (coords w a (fA i) 1)
        rw [m3, ok_bind, m4] at this
        rw [Except.ok.inj this]
        simp [div_eq_mul_inv, add_comm]
    · refine List.Nodup.map_on ?_ ((nodup_visits hnd).filter _)
      rintro ⟨b, j⟩ hx ⟨b', k⟩ hy (rfl : b = b')
      rw [List.mem_filter] at hx hy
      have hb : b ∈ w.elements := by rw [← hels]; exact mem_visits.1 hx.1
      have h1 : en w' b j = en w' b k := by
        have a1 := hx.2
        have a2 := hy.2
        exact (of_decide_eq_true a1).trans (of_decide_eq_true a2).symm
      rw [hE.same b hb b hb] at h1
      have hinj : Function.Injective (w.cornerFn b) := arr_inj (by rw [← vertsOf_arr hI hb]; exact hd b hb)
      rw [fc_inj hinj h1]
    · rw [hasFace_iff hI hd ha]
      simp only [List.mem_map, List.mem_filter, decide_eq_true_eq]
      constructor
      · rintro ⟨⟨b', j⟩, ⟨hx, hy⟩, rfl⟩
        have hb : b' ∈ w.elements := by rw [← hels]; exact mem_visits.1 hx
        refine ⟨hb, ?_⟩
        have := (hE.same b' hb a ha j i).1 hy
        rw [← this]; exact fc_subset_cs _ _
      · rintro ⟨hb, hsub⟩
        obtain ⟨j, hj⟩ := face_eq hI hd ha hb i hsub
        exact ⟨(b, j), ⟨mem_visits.2 (by rw [hels]; exact hb), (hE.same b hb a ha j i).2 hj⟩, rfl⟩
    · have hs := single_iff (hE.ef a ha i) ha (fc_subset_cs _ _)
      have hrw : (∀ b, HasFace w b a i → b = a) ↔ ((eo w' (en w' a i)).e0 = none ∨ (eo w' (en w' a i)).e1 = none) := by
        rw [hs]
        refine forall_congr' fun b => ?_
        rw [hasFace_iff hI hd ha]
      rw [hrw]
      exact ⟨fun hh => if_pos hh, fun hh => if_neg hh⟩

/-- C56: the `l`-th DOF of an element lies at the image of the `l`-th node of the reference triangle under the affine map that
takes the reference triangle to the element, so that the shape functions of C54 belong to these DOFs. -/
theorem C56_nodes {w w' w'' : World T} (h : Built w) (hd : Distinct w) (s : Setup w w') (e : prepareMesh 2 w' = .ok w'')
    {a : Nat} (ha : a ∈ w.elements) {l : Nat} (hl : l < 6) : ∃ e p v ξ η, w''.E[a]? = some e ∧ e.dofs[l]? = some p ∧ w''.V[p]? = some v ∧
      (node 2 2 l : List T) = [ξ, η] ∧
      v.pos = [coords w a 0 0 + (coords w a 1 0 - coords w a 0 0) * ξ + (coords w a 2 0 - coords w a 0 0) * η,
        coords w a 0 1 + (coords w a 1 1 - coords w a 0 1) * ξ + (coords w a 2 1 - coords w a 0 1) * η] := by
  have hI := built_inv h
  have hE := edges_of h hd s
  obtain ⟨w2, m, e2, hq⟩ := C56_order2 h hd s
  rw [e] at e2
  obtain rfl := Except.ok.inj e2
  obtain ⟨x, c0, c1, c2, x1, x2, x3⟩ := hq.dofs a ha
  have hx : x.verts = arr (w.cornerFn a) := by
    obtain ⟨x', y1, y2, -, -⟩ := hE.ready.elem a (by rw [hE.elements]; exact ha)
    rw [x1] at y1
    obtain rfl := Option.some.inj y1
    exact y2
  rw [hx] at x2
  simp only [arr, List.cons.injEq, Option.some.injEq, and_true] at x2
  have hc : ∀ k : Fin 3, ∃ v : MVertex T, w''.V[w.cornerFn a k]? = some v ∧ v.pos = [coords w a k 0, coords w a k 1] := by
    intro k
    obtain ⟨e0, he0⟩ : ∃ e0, w.E[a]? = some e0 := ⟨_, List.getElem?_eq_getElem (hI.elt a ha)⟩
    obtain ⟨q, v, b1, b2, b3⟩ := hI.corner a ha e0 he0 k k.2
    have hqc : q = w.cornerFn a k := by
      rw [← vertsOf_some he0, vertsOf_arr hI ha, arr_get] at b1
      exact (Option.some.inj (Option.some.inj b1)).symm
    subst hqc
    obtain ⟨v', d1, d2, -⟩ := hE.V _ _ b2
    exact ⟨v', by rw [hq.old _ (lt_of_getElem? d1)]; exact d1, by rw [d2]; exact coords_eq hI ha k b2⟩
  obtain ⟨rfl, rfl, rfl⟩ := x2
  interval_cases l
  · obtain ⟨v, d1, d2⟩ := hc 0
    exact ⟨_, _, v, 0, 0, x3, rfl, d1, rfl, by rw [d2]; congr 1 <;> [skip; congr 1] <;> ring⟩
  · obtain ⟨v, d1, d2⟩ := hc 1
    exact ⟨_, _, v, 1, 0, x3, rfl, d1, rfl, by rw [d2]; congr 1 <;> [skip; congr 1] <;> ring⟩
  · obtain ⟨v, d1, d2⟩ := hc 2
    exact ⟨_, _, v, 0, 1, x3, rfl, d1, rfl, by rw [d2]; congr 1 <;> [skip; congr 1] <;> ring⟩
  · obtain ⟨v, d1, d2, -⟩ := hq.mid a ha 2
    refine ⟨_, _, v, 1 / 2, 0, x3, rfl, d1, rfl, ?_⟩
    rw [d2, sum_erase, sum_erase]
    show [(coords w a 0 0 + coords w a 1 0) / 2, (coords w a 0 1 + coords w a 1 1) / 2] = _
    congr 1 <;> [skip; congr 1] <;> ring
  · obtain ⟨v, d1, d2, -⟩ := hq.mid a ha 0
    refine ⟨_, _, v, 1 / 2, 1 / 2, x3, rfl, d1, rfl, ?_⟩
    rw [d2, sum_erase, sum_erase]
    show [(coords w a 1 0 + coords w a 2 0) / 2, (coords w a 1 1 + coords w a 2 1) / 2] = _
    congr 1 <;> [skip; congr 1] <;> ring
  · obtain ⟨v, d1, d2, -⟩ := hq.mid a ha 1
    refine ⟨_, _, v, 0, 1 / 2, x3, rfl, d1, rfl, ?_⟩
    rw [d2, sum_erase, sum_erase]
    show [(coords w a 0 0 + coords w a 2 0) / 2, (coords w a 0 1 + coords w a 2 1) / 2] = _
    congr 1 <;> [skip; congr 1] <;> ring

theorem validateElements_keep {eps : T} {w w' : World T} (hels : w'.elements = w.elements)
    (hE : ∀ a ∈ w.elements, ∃ e d, w.E[a]? = some e ∧ w'.E[a]? = some { e with dofs := d })
    (hV : ∀ p < w.V.length, w'.V[p]? = w.V[p]?) (h : validateElements eps w = .ok ()) : validateElements eps w' = .ok () := by
  unfold validateElements at h ⊢
  rw [forList_unit_ok_iff] at h ⊢
  rw [hels]
  intro a ha
  have h' := h a ha
  obtain ⟨e, d, e1, e2⟩ := hE a ha
  rw [getIdx_of_some e1, ok_bind] at h'
  rw [getIdx_of_some e2, ok_bind]
  rw [bind_ok_iff, exists_unit] at h' ⊢
  refine ⟨?_, h'.2⟩
  have h'' := h'.1
  rw [forRange3_unit_ok_iff] at h'' ⊢
  intro i hi
  have g := h'' i hi
  rw [bind_ok_iff] at g ⊢
  obtain ⟨vp, g1, g⟩ := g
  refine ⟨vp, g1, ?_⟩
  rw [bind_ok_iff] at g ⊢
  obtain ⟨u, g2, g⟩ := g
  refine ⟨u, g2, ?_⟩
  rw [bind_ok_iff] at g ⊢
  obtain ⟨p, g3, g⟩ := g
  refine ⟨p, g3, ?_⟩
  rw [bind_ok_iff] at g ⊢
  obtain ⟨v, g4, g⟩ := g
  refine ⟨v, ?_, g⟩
  rw [getIdx_ok_iff] at g4 ⊢
  rw [hV p (lt_of_getElem? g4)]; exact g4

/-- C56: if the mesh passes `validate()` before `prepareMesh`, it passes `validate()` afterwards. -/
theorem C56_validate {eps : T} {w w' w'' : World T} {order : Nat} (h : Built w) (hd : Distinct w) (s : Setup w w')
    (ho : order = 1 ∨ order = 2) (hv : validate eps w' = .ok ()) (e : prepareMesh order w' = .ok w'') : validate eps w'' = .ok () := by
  have hI := built_inv h
  have hE := edges_of h hd s
  have hval := (C64_validate_iff hE.planar).1 hv
  -- incidence of an old vertex
  have hvert : ∀ (p : Nat), p ∈ w.vertices → ∀ v : MVertex T, w'.V[p]? = some v → ∀ a ∈ v.elems, a ∈ w.elements ∧ p ∈ cl (w.cornerFn a) := by
    intro p hp v hv a ha
    obtain ⟨v', b1, -, -, b4⟩ := hE.V p _ (List.getElem?_eq_getElem (hI.vlt p hp))
    rw [hv] at b1
    obtain rfl := Option.some.inj b1
    rw [b4, C50_incidence h hd (List.getElem?_eq_getElem (hI.vlt p hp))] at ha
    simp only [List.mem_filter, decide_eq_true_eq] at ha
    refine ⟨ha.1, ?_⟩
    have := ha.2
    rw [vertsOf_arr hI ha.1] at this
    simpa [arr, cl] using this
  rcases ho with rfl | rfl
  · obtain ⟨w2, e2, hl⟩ := C56_order1 h hd s
    rw [e] at e2
    obtain rfl := Except.ok.inj e2
    obtain ⟨k1, k2, k3, -⟩ := hl.keep
    unfold validate
    rw [bind_ok_iff, exists_unit]
    constructor
    · rw [validateVertices_iff]
      intro i p hp
      rw [k2] at hp
      obtain ⟨v, v1, v2, v3, -⟩ := hval.vertex i p hp
      refine ⟨v, by rw [k1]; exact v1, v2, v3, fun a ha => ?_⟩
      have hpm : p ∈ w.vertices := by rw [← hE.vertices]; exact List.mem_of_getElem? hp
      obtain ⟨ha1, ha2⟩ := hvert p hpm v v1 a ha
      obtain ⟨x, d, x1, x2, x3, x4⟩ := hl.dofs a (by rw [hE.elements]; exact ha1)
      refine ⟨_, x4, ?_⟩
      obtain ⟨x', y1, y2, -, -⟩ := hE.ready.elem a (by rw [hE.elements]; exact ha1)
      rw [x1] at y1
      obtain rfl := Option.some.inj y1
      have hd' : d = cl (w.cornerFn a) := by
        have : d.map some = (cl (w.cornerFn a)).map some := by rw [← x2, y2]; rfl
        exact List.map_injective_iff.2 (Option.some_injective _) this
      simp only
      rw [if_neg (by rw [hd']; simp [cl]), hd']
      exact ha2
    · unfold validate at hv
      rw [bind_ok_iff, exists_unit] at hv
      refine validateElements_keep k3 (fun a ha => ?_) (fun p _ => by rw [k1]) hv.2
      obtain ⟨x, d, x1, -, -, x4⟩ := hl.dofs a ha
      exact ⟨x, d, x1, x4⟩
  · obtain ⟨w2, m, e2, hq⟩ := C56_order2 h hd s
    rw [e] at e2
    obtain rfl := Except.ok.inj e2
    have hdofs : ∀ a ∈ w.elements, ∃ x, w'.E[a]? = some x ∧
        w''.E[a]? = some { x with dofs := cl (w.cornerFn a) ++ [m a 2, m a 0, m a 1] } := by
      intro a ha
      obtain ⟨x, c0, c1, c2, x1, x2, x3⟩ := hq.dofs a ha
      obtain ⟨x', y1, y2, -, -⟩ := hE.ready.elem a (by rw [hE.elements]; exact ha)
      rw [x1] at y1
      obtain rfl := Option.some.inj y1
      rw [y2] at x2
      simp only [arr, List.cons.injEq, Option.some.injEq, and_true] at x2
      obtain ⟨rfl, rfl, rfl⟩ := x2
      exact ⟨x, x1, x3⟩
    unfold validate
    rw [bind_ok_iff, exists_unit]
    constructor
    · rw [validateVertices_iff]
      intro i p hp
      obtain ⟨v, v1, v2⟩ := hq.index i p hp
      refine ⟨v, v1, v2, ?_⟩
      obtain ⟨news, n1, n2, n3, n4, n5⟩ := hq.vertices
      rw [n1] at hp
      rcases List.mem_append.1 (List.mem_of_getElem? hp) with hpo | hpn
      · have hpw : p ∈ w.vertices := by rw [← hE.vertices]; exact hpo
        have hplt : p < w'.V.length := by rw [hE.Vlen]; exact hI.vlt p hpw
        rw [hq.old p hplt] at v1
        obtain ⟨j, hj⟩ := List.getElem?_of_mem hpo
        obtain ⟨u, u1, -, u3, -⟩ := hval.vertex j p hj
        rw [v1] at u1
        obtain rfl := Option.some.inj u1
        refine ⟨u3, fun a ha => ?_⟩
        obtain ⟨ha1, ha2⟩ := hvert p hpw v v1 a ha
        obtain ⟨x, -, x2⟩ := hdofs a ha1
        refine ⟨_, x2, ?_⟩
        rw [if_neg (by simp [cl])]
        exact List.mem_append_left _ ha2
      · obtain ⟨a, ha, i, rfl⟩ := (n5 p).1 hpn
        obtain ⟨u, u1, -, -, u4, -⟩ := hq.mid a ha i
        rw [v1] at u1
        obtain rfl := Option.some.inj u1
        have hself : HasFace w a a i := ⟨ha, fun q hq => by
          obtain ⟨j, -, hj⟩ := hq
          exact List.mem_of_getElem? hj⟩
        refine ⟨List.ne_nil_of_mem ((u4 a).2 hself), fun b hb => ?_⟩
        have hb' := (u4 b).1 hb
        obtain ⟨x, -, x2⟩ := hdofs b hb'.1
        refine ⟨_, x2, ?_⟩
        rw [if_neg (by simp [cl])]
        -- the face of `b` that equals face `i` of `a`
        obtain ⟨j, hj⟩ := face_of hI hd ha hb'
        have : m a i = m b j := (hq.shared a ha b hb'.1 i j).2 hj
        rw [this]
        fin_cases j <;> simp
    · unfold validate at hv
      rw [bind_ok_iff, exists_unit] at hv
      refine validateElements_keep hq.elements (fun a ha => ?_) hq.old hv.2
      obtain ⟨x, x1, x2⟩ := hdofs a (by rw [← hE.elements]; exact ha)
      exact ⟨x, _, x1, x2⟩

/-- calling `prepareMesh` a second time appends the DOFs again -/
theorem C56_not_idempotent : ∃ w w' w'' : World ℚ, square.setupNeighbors = .ok w ∧ prepareMesh 2 w = .ok w' ∧ prepareMesh 2 w' = .ok w'' ∧
    (∃ e, w'.E[0]? = some e ∧ e.dofs = [0, 1, 2, 4, 5, 6]) ∧ ∃ e, w''.E[0]? = some e ∧ e.dofs = [0, 1, 2, 4, 5, 6, 0, 1, 2, 4, 5, 6] :=
  ⟨_, _, _, rfl, rfl, rfl, ⟨_, rfl, rfl⟩, _, rfl, rfl⟩

/-! ### Non-vacuity -/

/-- the square can be set up, prepared and validated, and then gets 4 + 5 vertices; the one on the diagonal belongs to both
elements and is not a boundary vertex -/
example : Built square ∧ Distinct square ∧ ∃ w w1 w2 : World ℚ, Setup square w1 ∧ validate (1 / 1000) w1 = .ok () ∧
    prepareMesh 2 w1 = .ok w2 ∧ w2.vertices.length = 9 ∧ w.edges.length = 5 ∧
    (w2.V[5]?.map fun v => (v.pos, v.flags, v.elems)) = some ([1 / 2, 1 / 2], 2, [0, 1]) := by
  obtain ⟨w, hw⟩ : ∃ w, square.setupNeighbors = .ok w := ⟨_, rfl⟩
  have hwe : w.edges.length = 5 := by
    have : (square.setupNeighbors.toOption.map (·.edges.length)) = some 5 := rfl
    rw [hw] at this
    exact Option.some.inj this
  have h2 : ((square.setupNeighbors >>= World.prepare 0 >>= prepareMesh 2).toOption.map fun w => (w.vertices.length,
      w.V[5]?.map fun v => (v.pos, v.flags, v.elems))) = some (9, some ([1 / 2, 1 / 2], 2, [0, 1])) := by decide +kernel
  have hv : (square.setupNeighbors >>= World.prepare 0 >>= validate (1 / 1000)) = .ok () := by decide +kernel
  rcases hw1 : (square.setupNeighbors >>= World.prepare 0) with er | w1
  · rw [hw1] at hv; cases hv
  rw [hw1, ok_bind] at hv h2
  rcases hw2 : prepareMesh 2 w1 with er | w2
  · rw [hw2] at h2; cases h2
  rw [hw2] at h2
  have h2 := Prod.mk.inj (Option.some.inj h2)
  rw [hw, ok_bind] at hw1
  exact ⟨square_built, by unfold Distinct; decide, w, w1, w2, .prepare 0 (.neighbors hw) hw1, hv, hw2, h2.1, hwe, h2.2⟩

end NS.Props.Shape

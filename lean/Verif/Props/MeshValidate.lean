/-
Property theorems C64: `Mesh::validate()` decides the consistency of the mesh.
-/
import Verif.Props.Mesh
import Verif.Props.Simplex
import Verif.OutcomeIff

set_option linter.unusedSectionVars false
set_option linter.unusedSimpArgs false

namespace NS.Props.Mesh
open NS NS.World
variable {T : Type} [Field T] [LinearOrder T] [IsStrictOrderedRing T]

/-- points of the plane: the length of `FixedVector<T,2>` is part of its type -/
structure Planar (w : World T) : Prop where
  pos : ∀ (q : Nat) (v : MVertex T), w.V[q]? = some v → v.pos.length = 2
  sim : ∀ (a : Nat) (e : MElem T), w.E[a]? = some e → ∀ x ∈ e.simplex.verts, x.length = 2

/-- squared distance of two points of the plane is at most `eps` -/
def Near (eps : T) (c p : List T) : Prop :=
  ∃ x y x' y', c = [x, y] ∧ p = [x', y'] ∧ |(x - x') * (x - x') + (y - y') * (y - y')| ≤ eps

/-- what `validate()` promises about a mesh -/
structure Valid (eps : T) (w : World T) : Prop where
  /-- the `i`-th vertex has index `i`, belongs to some element, and every element in its list knows it -/
  vertex : ∀ (i p : Nat), w.vertices[i]? = some p → ∃ v : MVertex T, w.V[p]? = some v ∧ v.gi = i ∧ v.elems ≠ [] ∧
    ∀ a ∈ v.elems, ∃ e : MElem T, w.E[a]? = some e ∧ if e.dofs = [] then some p ∈ e.verts else p ∈ e.dofs
  /-- every element has three vertices at the corners of its simplex, a prepared simplex of non-negligible volume, and
  an edge at each face -/
  element : ∀ a ∈ w.elements, ∃ e : MElem T, w.E[a]? = some e ∧
    (∀ i < 3, ∃ q v c, e.verts[i]? = some (some q) ∧ w.V[q]? = some v ∧ e.simplex.verts[i]? = some c ∧ Near eps c v.pos) ∧
    e.simplex.prepared = true ∧ eps < |1 / 2 * e.simplex.det| ∧
    ∀ i < 3, ∃ n, e.nbrs[i]? = some (some n)

theorem distSqr_eq (x y x' y' : T) :
    (do let d ← Vec.subAssign [x, y] [x', y']; Vec.magSqr d) =
      (.ok (0 + (x - x') * (x - x') + (y - y') * (y - y')) : R T) := rfl

theorem deref_ok_iff {p : Option Nat} {a : Nat} : deref p = .ok a ↔ p = some a := by
  cases p <;> simp [deref]

theorem validateVertices_iff (w : World T) : validateVertices w = .ok () ↔
    ∀ (i p : Nat), w.vertices[i]? = some p → ∃ v : MVertex T, w.V[p]? = some v ∧ v.gi = i ∧ v.elems ≠ [] ∧
    ∀ a ∈ v.elems, ∃ e : MElem T, w.E[a]? = some e ∧ if e.dofs = [] then some p ∈ e.verts else p ∈ e.dofs := by
  unfold validateVertices
  rw [bind_ok_iff]
  have := forList_count_ok_iff (g := fun p id => do
    let v ← getIdx w.V p
    throwIf (v.gi ≠ id) .invalidVertexIndex
    throwIf (v.elems = []) .isolatedVertex
    forList v.elems () fun sp _ => do
      let s ← getIdx w.E sp
      let found : Bool := if s.dofs = [] then s.verts.contains (some p) else s.dofs.contains p
      throwIf (found = false) .malformedVertexElementConnection) w.vertices 0
  simp only [Nat.zero_add, bind_ok_iff, exists_unit, throwIf_ok_iff, getIdx_ok_iff, forList_unit_ok_iff] at this
  have hrw : ∀ (i p : Nat), (∃ v : MVertex T, w.V[p]? = some v ∧ ¬ (v.gi ≠ i) ∧ ¬ v.elems = [] ∧ ∀ a ∈ v.elems,
      ∃ e : MElem T, w.E[a]? = some e ∧ ¬ (if e.dofs = [] then e.verts.contains (some p) else e.dofs.contains p) = false) ↔
      ∃ v : MVertex T, w.V[p]? = some v ∧ v.gi = i ∧ v.elems ≠ [] ∧
        ∀ a ∈ v.elems, ∃ e : MElem T, w.E[a]? = some e ∧ if e.dofs = [] then some p ∈ e.verts else p ∈ e.dofs := by
    intro i p
    refine exists_congr fun v => and_congr_right fun _ => and_congr (by simp) (and_congr_right fun _ => ?_)
    refine forall_congr' fun a => forall_congr' fun _ => exists_congr fun e => and_congr_right fun _ => ?_
    split <;> simp
  simp only [hrw] at this
  rw [← this]
  simp only [pure_eq_ok, and_true]
  refine exists_congr fun n => ?_
  constructor
  · intro h
    rw [← h]
    congr 1
    funext p id
    simp only [bind_assoc]
  · intro h
    rw [← h]
    congr 1
    funext p id
    simp only [bind_assoc]

theorem validateElements_iff {eps : T} {w : World T} (hp : Planar w) : validateElements eps w = .ok () ↔
    ∀ a ∈ w.elements, ∃ e : MElem T, w.E[a]? = some e ∧
    (∀ i < 3, ∃ q v c, e.verts[i]? = some (some q) ∧ w.V[q]? = some v ∧ e.simplex.verts[i]? = some c ∧ Near eps c v.pos) ∧
    e.simplex.prepared = true ∧ eps < |1 / 2 * e.simplex.det| ∧
    ∀ i < 3, ∃ n, e.nbrs[i]? = some (some n) := by
  unfold validateElements
  rw [forList_unit_ok_iff]
  refine forall_congr' fun a => forall_congr' fun _ => ?_
  simp only [bind_ok_iff, exists_unit, throwIf_ok_iff, getIdx_ok_iff, forRange3_unit_ok_iff, Simplex.volume, assert_ok_iff,
    deref_ok_iff, pure_eq_ok]
  refine exists_congr fun e => and_congr_right fun he => and_congr ?_ ?_
  · refine forall_congr' fun i => forall_congr' fun _ => ?_
    constructor
    · rintro ⟨vp, h1, h2, q, h3, v, h4, c, h5, d, h6, m, h7, h8⟩
      subst h3
      refine ⟨q, v, c, h1, h4, h5, ?_⟩
      obtain ⟨x, y, rfl⟩ := Props.Simplex.two_of_length (hp.sim a e he c (List.mem_of_getElem? h5))
      obtain ⟨x', y', hv⟩ := Props.Simplex.two_of_length (hp.pos q v h4)
      refine ⟨x, y, x', y', rfl, hv, ?_⟩
      rw [hv] at h6
      have h9 : (do let d ← Vec.subAssign [x, y] [x', y']; Vec.magSqr d) = (.ok m : R T) := by rw [h6]; exact h7
      rw [distSqr_eq] at h9
      obtain rfl := Except.ok.inj h9
      simpa using h8
    · rintro ⟨q, v, c, h1, h2, h3, x, y, x', y', rfl, hv, hn⟩
      have h9 := distSqr_eq x y x' y'
      rw [bind_ok_iff] at h9
      obtain ⟨d, h9, h10⟩ := h9
      exact ⟨some q, h1, by simp, q, rfl, v, h2, _, h3, d, by rw [hv]; exact h9, _, h10, by simpa using hn⟩
  · constructor
    · rintro ⟨vol, ⟨h1, h2⟩, h3, h4⟩
      obtain rfl := Except.ok.inj h2
      refine ⟨h1, by simpa using h3, fun i hi => ?_⟩
      obtain ⟨n, h5, h6⟩ := h4 i hi
      obtain ⟨m, rfl⟩ := Option.ne_none_iff_exists'.1 h6
      exact ⟨m, h5⟩
    · rintro ⟨h1, h2, h3⟩
      refine ⟨_, ⟨h1, rfl⟩, by simpa using h2, fun i hi => ?_⟩
      obtain ⟨n, hn⟩ := h3 i hi
      exact ⟨_, hn, by simp⟩

/-- C64: on every mesh (whatever pointers it contains) `validate()` returns normally exactly when the mesh is valid. -/
theorem C64_validate_iff {eps : T} {w : World T} (hp : Planar w) : validate eps w = .ok () ↔ Valid eps w := by
  unfold validate
  rw [bind_ok_iff, exists_unit, validateVertices_iff, validateElements_iff hp]
  exact ⟨fun h => ⟨h.1, h.2⟩, fun h => ⟨h.1, h.2⟩⟩


/-! ### The usual sequence of calls -/

/-- what `setupNeighbors()` does not touch -/
def core (e : MElem T) : Simplex T × List (Option Nat) × List Nat := (e.simplex, e.verts, e.dofs)

theorem map_core_set {l : List (MElem T)} {a : Nat} {e e' : MElem T} (h : l[a]? = some e) (hc : core e' = core e) :
    (l.set a e').map core = l.map core := by
  rw [List.map_set, hc]
  apply List.ext_getElem?
  intro i
  have hlt := lt_of_getElem? h
  rw [getElem?_set' _ _ _ _ (by simpa using hlt)]
  split
  · next hi => subst hi; simp [h]
  · rfl

theorem setupFace_frame {S i : Nat} {w w' : World T} (h : setupFace S i w = .ok w') : w'.E.map core = w.E.map core := by
  unfold setupFace at h
  rw [bind_ok_iff] at h
  obtain ⟨s, hs, h⟩ := h
  rw [getIdx_ok_iff] at hs
  rw [bind_ok_iff] at h
  obtain ⟨n, hn, h⟩ := h
  split at h
  · obtain rfl := Except.ok.inj h; rfl
  · rw [bind_ok_iff] at h
    obtain ⟨sh, -, h⟩ := h
    rw [bind_ok_iff] at h
    obtain ⟨-, -, h⟩ := h
    rw [bind_ok_iff] at h
    obtain ⟨nb, hnb, h⟩ := h
    have h1 : (w.E.set S { s with nbrs := nb }).map core = w.E.map core := map_core_set hs rfl
    simp only at h
    rw [bind_ok_iff] at h
    obtain ⟨o, -, h⟩ := h
    rcases o with _ | oe
    · obtain rfl := Except.ok.inj h; exact h1
    · simp only at h
      rw [bind_ok_iff] at h
      obtain ⟨other, ho, h⟩ := h
      rw [getIdx_ok_iff] at ho
      rw [bind_ok_iff] at h
      obtain ⟨j, -, h⟩ := h
      rcases j with _ | j
      · obtain rfl := Except.ok.inj h; exact h1
      · simp only at h
        rw [bind_ok_iff] at h
        obtain ⟨nb', -, h⟩ := h
        obtain rfl := Except.ok.inj h
        show ((w.E.set S _).set oe _).map core = _
        exact (map_core_set ho (by rfl)).trans h1

theorem setupNeighbors_frame {w w' : World T} (h : w.setupNeighbors = .ok w') : w'.E.map core = w.E.map core := by
  unfold setupNeighbors at h
  refine (Sat.of_ok (Q := fun w' => w'.E.map core = w.E.map core) (E := fun _ => True) ?_ h)
  refine sat_forList (fun _ (u : World T) => u.E.map core = w.E.map core) _ rfl ?_
  intro pre S suf u _ hu
  refine sat_forRange (fun _ (u : World T) => u.E.map core = w.E.map core) (Nat.zero_le 3) hu ?_
  intro j u _ _ hu
  rcases hr : setupFace S j u with er | u'
  · trivial
  · show u'.E.map core = _
    rw [setupFace_frame hr, hu]

theorem core_some {w w' : World T} (h : w'.E.map core = w.E.map core) {a : Nat} {e : MElem T} (he : w.E[a]? = some e) :
    ∃ e', w'.E[a]? = some e' ∧ e'.simplex = e.simplex ∧ e'.verts = e.verts ∧ e'.dofs = e.dofs := by
  have : (w'.E.map core)[a]? = some (core e) := by rw [h]; simp [he]
  simp at this
  obtain ⟨e', h1, h2⟩ := this
  simp only [core, Prod.mk.injEq] at h2
  exact ⟨e', h1, h2⟩

/-- coordinates of the corners of element `a` -/
def coords (w : World T) (a : Nat) (i : Fin 3) (j : Fin 2) : T :=
  (((w.vertsOf a)[(i : Nat)]?.join.bind fun q => w.V[q]?).bind fun v => v.pos[(j : Nat)]?).getD 0

/-- the volume of element `a` -/
def elementVolume (w : World T) (a : Nat) : T := |1 / 2 * Props.Simplex.area2 (coords w a)|

theorem hasVerts_coords {w : World T} (h : Inv w) {a : Nat} (ha : a ∈ w.elements) {e : MElem T} (he : w.E[a]? = some e) :
    Props.Simplex.HasVerts e.simplex (coords w a) := by
  obtain ⟨s1, -, -, -, s5, s6, -, -⟩ := h.shape a e he
  have key : ∀ i : Fin 3, e.simplex.verts[(i : Nat)]? = some [coords w a i 0, coords w a i 1] := by
    intro i
    obtain ⟨q, v, a1, a2, a3⟩ := h.corner a ha e he i i.2
    have hp := h.pos q v a2
    obtain ⟨x, y, hv⟩ := Props.Simplex.two_of_length hp
    rw [a3, hv]
    unfold coords
    rw [vertsOf_some he]
    simp [a1, a2, hv]
  unfold Props.Simplex.HasVerts
  apply List.ext_getElem?
  intro i
  by_cases hi : i < 3
  · rw [show e.simplex.verts[i]? = _ from key ⟨i, hi⟩]
    match i, hi with
    | 0, _ => rfl
    | 1, _ => rfl
    | 2, _ => rfl
  · rw [List.getElem?_eq_none (by omega), List.getElem?_eq_none (by simp; omega)]

/-- the state of the mesh after `setupNeighbors()` and `prepare()` -/
structure Prepared (w w' w'' : World T) : Prop where
  V : w''.V = w.V
  vertices : w''.vertices = w.vertices
  elements : w''.elements = w.elements
  el : ∀ a ∈ w.elements, ∃ e e', w'.E[a]? = some e ∧ w''.E[a]? = some e' ∧ e'.verts = e.verts ∧ e'.nbrs = e.nbrs ∧ e'.dofs = e.dofs ∧
    e'.simplex = Props.Simplex.prepOf (coords w a) ∧ Props.Simplex.area2 (coords w a) ≠ 0

/-- what `prepare()` and `validate()` need to know of `setupNeighbors()` -/
structure Ready (w w' : World T) : Prop where
  fr : w'.E.map core = w.E.map core
  els_eq : w'.elements = w.elements
  el : ∀ a ∈ w.elements, ∃ e, w'.E[a]? = some e ∧ e.nbrs.length = 3
  set : ∀ a ∈ w.elements, ∀ i : Fin 3, ∃ ep, nbr w' a i = some ep
  V : w'.V = w.V
  vs : w'.vertices = w.vertices

theorem ready {w w' : World T} (h : Built w) (hd : Distinct w) (e : w.setupNeighbors = .ok w') : Ready w w' := by
  obtain ⟨h1, h2, h3, h4⟩ := (setupNeighbors_spec (inv_nb (built_inv h) hd)).of_ok e
  refine ⟨setupNeighbors_frame e, h1.els_eq, fun a ha => ?_, h2, h3, h4⟩
  obtain ⟨e2, he2, -, hl2⟩ := h1.el a ha
  exact ⟨e2, he2, hl2⟩

theorem prepare_ready {w w' : World T} (h : Built w) (e : Ready w w') :
    Sat (w'.prepare 0) (fun w'' => Prepared w w' w'') (fun er => er = .nonfinite ∧ ∃ a ∈ w.elements, elementVolume w a = 0) := by
  have hI := built_inv h
  have hfr := e.fr
  have h1 := e
  have h2 := e.set
  have h3 := e.V
  have h4 := e.vs
  unfold World.prepare
  rw [h1.els_eq]
  refine Sat.mono (sat_forList (fun pre (u : World T) => u.V = w.V ∧ u.vertices = w.vertices ∧ u.elements = w.elements ∧
      u.E.length = w'.E.length ∧ (∀ b, b ∉ pre → u.E[b]? = w'.E[b]?) ∧
      ∀ a ∈ pre, ∃ e e', w'.E[a]? = some e ∧ u.E[a]? = some e' ∧ e'.verts = e.verts ∧ e'.nbrs = e.nbrs ∧ e'.dofs = e.dofs ∧
        e'.simplex = Props.Simplex.prepOf (coords w a) ∧ Props.Simplex.area2 (coords w a) ≠ 0) w.elements
      ⟨h3, h4, h1.els_eq, rfl, fun _ _ => rfl, fun a ha => absurd ha (by simp)⟩ ?_)
    (fun u hu => ⟨hu.1, hu.2.1, hu.2.2.1, hu.2.2.2.2.2⟩) (fun _ h => h)
  intro pre S suf u hsplit ⟨g1, g2, g3, g4, g5, g6⟩
  have hS : S ∈ w.elements := by rw [hsplit]; simp
  have hSp : S ∉ pre := by
    have := hI.end_
    rw [hsplit, List.nodup_append] at this
    exact fun hh => this.2.2 S hh S (by simp) rfl
  obtain ⟨e0, he0⟩ : ∃ e0, w.E[S]? = some e0 := ⟨_, List.getElem?_eq_getElem (hI.elt S hS)⟩
  obtain ⟨e1, he1, hs1, hv1, hd1⟩ := core_some hfr he0
  have hu : u.E[S]? = some e1 := by rw [g5 S hSp, he1]
  have hlt := lt_of_getElem? hu
  rw [getIdx_of_some hu, ok_bind, hs1]
  have hsh : Props.Simplex.Shape e0.simplex := by
    obtain ⟨-, -, -, -, -, -, s7, s8⟩ := hI.shape S e0 he0
    exact ⟨⟨_, hasVerts_coords hI hS he0⟩, by rw [s7]; exact ⟨0, 0, 0, 0, rfl⟩, by rw [s8]; exact ⟨0, 0, 0, 0, rfl⟩⟩
  rw [Props.Simplex.prepare_shape hsh (hasVerts_coords hI hS he0)]
  split
  · next hz =>
    exact ⟨rfl, S, hS, by unfold elementVolume; rw [hz]; simp⟩
  · next hz =>
    rw [ok_bind]
    refine ⟨g1, g2, g3, by simpa using g4, fun b hb => ?_, fun a ha => ?_⟩
    · rw [getElem?_set' _ _ _ _ hlt, if_neg (by rintro rfl; simp at hb)]
      exact g5 b (fun hh => hb (by simp [hh]))
    · by_cases haS : a = S
      · subst haS
        exact ⟨e1, { e1 with simplex := Props.Simplex.prepOf (coords w a) }, he1, by rw [getElem?_set' _ _ _ _ hlt, if_pos rfl], rfl, rfl, rfl, rfl, hz⟩
      · rw [List.mem_append, List.mem_singleton] at ha
        obtain ⟨x, x', k⟩ := g6 a (by tauto)
        exact ⟨x, x', k.1, by rw [getElem?_set' _ _ _ _ hlt, if_neg haS]; exact k.2.1, k.2.2⟩

theorem prepare_spec {w w' : World T} (h : Built w) (hd : Distinct w) (e : w.setupNeighbors = .ok w') :
    Sat (w'.prepare 0) (fun w'' => Prepared w w' w'') (fun er => er = .nonfinite ∧ ∃ a ∈ w.elements, elementVolume w a = 0) :=
  prepare_ready h (ready h hd e)

theorem prepare_ready_iff {w w' : World T} (h : Built w) (e : Ready w w') :
    ((∀ a ∈ w.elements, elementVolume w a ≠ 0) → ∃ w'', w'.prepare 0 = .ok w'') ∧
    ((∃ a ∈ w.elements, elementVolume w a = 0) → w'.prepare 0 = .error .nonfinite) := by
  have key := prepare_ready h e
  constructor
  · intro hall
    rcases hr : w'.prepare 0 with er | w''
    · obtain ⟨-, a, ha, hz⟩ := key.of_error hr
      exact absurd hz (hall a ha)
    · exact ⟨_, rfl⟩
  · rintro ⟨a, ha, hz⟩
    rcases hr : w'.prepare 0 with er | w''
    · rw [(key.of_error hr).1]
    · exfalso
      obtain ⟨-, -, -, -, -, -, -, -, hne⟩ := (key.of_ok hr).el a ha
      unfold elementVolume at hz
      rw [abs_eq_zero] at hz
      rcases mul_eq_zero.1 hz with hh | hh
      · exact absurd hh (by norm_num)
      · exact hne hh

/-- C64, `prepare()` on a mesh whose elements all have non-zero volume succeeds; a degenerate element makes it divide by
zero. -/
theorem C64_prepare {w w' : World T} (h : Built w) (hd : Distinct w) (e : w.setupNeighbors = .ok w') :
    ((∀ a ∈ w.elements, elementVolume w a ≠ 0) → ∃ w'', w'.prepare 0 = .ok w'') ∧
    ((∃ a ∈ w.elements, elementVolume w a = 0) → w'.prepare 0 = .error .nonfinite) :=
  prepare_ready_iff h (ready h hd e)

theorem pipeline_ready {eps : T} (heps : 0 ≤ eps) {w w' w'' : World T} (h : Built w) (hd : Distinct w)
    (e : Ready w w') (e' : w'.prepare 0 = .ok w'') :
    ((∃ p ∈ w.vertices, ∀ a ∈ w.elements, some p ∉ w.vertsOf a) → validate eps w'' = .error (.exc .isolatedVertex)) ∧
    ((∀ p ∈ w.vertices, ∃ a ∈ w.elements, some p ∈ w.vertsOf a) → (∃ a ∈ w.elements, elementVolume w a ≤ eps) →
      validate eps w'' = .error (.exc .zeroVolumeSimplex)) ∧
    ((∀ p ∈ w.vertices, ∃ a ∈ w.elements, some p ∈ w.vertsOf a) → (∀ a ∈ w.elements, eps < elementVolume w a) →
      validate eps w'' = .ok ()) := by
  have hI := built_inv h
  have hfr := e.fr
  have h1 := e
  have h2 := e.set
  have hp := (prepare_ready h e).of_ok e'
  -- elements of the final mesh
  have hel : ∀ a ∈ w.elements, ∃ e'', w''.E[a]? = some e'' ∧ e''.verts = w.vertsOf a ∧ e''.dofs = [] ∧
      e''.simplex = Props.Simplex.prepOf (coords w a) ∧ ∀ i < 3, ∃ n, e''.nbrs[i]? = some (some n) := by
    intro a ha
    obtain ⟨x, x', k1, k2, k3, k4, k5, k6, -⟩ := hp.el a ha
    obtain ⟨e0, he0⟩ : ∃ e0, w.E[a]? = some e0 := ⟨_, List.getElem?_eq_getElem (hI.elt a ha)⟩
    obtain ⟨e1, he1, hs1, hv1, hd1⟩ := core_some hfr he0
    rw [k1] at he1
    obtain rfl := Option.some.inj he1
    obtain ⟨e2, he2, hl2⟩ := h1.el a ha
    rw [k1] at he2
    obtain rfl := Option.some.inj he2
    refine ⟨x', k2, by rw [k3, hv1, vertsOf_some he0], by rw [k5, hd1, (hI.shape a e0 he0).2.2.1], k6, fun i hi => ?_⟩
    obtain ⟨ep, hep⟩ := h2 a ha ⟨i, hi⟩
    have hg : x.nbrs[i]? = some x.nbrs[i] := by simp [hl2, hi]
    have := nbr_of k1 hg
    rw [show nbr w' a i = some ep from hep] at this
    exact ⟨ep, by rw [k4, hg, ← this]⟩
  have hmem : ∀ (p : Nat) (v : MVertex T), w.V[p]? = some v → ∀ a, a ∈ v.elems ↔ a ∈ w.elements ∧ some p ∈ w.vertsOf a := by
    intro p v hv a
    rw [C50_incidence h hd hv]
    simp
  have sV : Sat (validateVertices w'') (fun _ => ∀ p ∈ w.vertices, ∃ a ∈ w.elements, some p ∈ w.vertsOf a)
      (fun er => er = .exc .isolatedVertex ∧ ∃ p ∈ w.vertices, ∀ a ∈ w.elements, some p ∉ w.vertsOf a) := by
    unfold validateVertices
    rw [hp.vertices, hp.V]
    refine Sat.bind (sat_forList (fun pre (id : Nat) => id = pre.length ∧ ∀ p ∈ pre, ∃ a ∈ w.elements, some p ∈ w.vertsOf a)
      w.vertices ⟨rfl, by simp⟩ ?_) (fun _ hh => hh.2)
    intro pre p suf id hsplit ⟨hid, hpre⟩
    have hpm : p ∈ w.vertices := by rw [hsplit]; simp
    obtain ⟨v, hv⟩ : ∃ v, w.V[p]? = some v := ⟨_, List.getElem?_eq_getElem (hI.vlt p hpm)⟩
    have hgi : v.gi = id := by
      rw [hid]
      exact hI.gi _ p v (by rw [hsplit]; simp) hv
    rw [getIdx_of_some hv, ok_bind, throwIf_false _ (by simpa using hgi), ok_bind]
    by_cases hem : v.elems = []
    · rw [throwIf_true _ hem]
      refine ⟨rfl, p, hpm, fun a ha hh => ?_⟩
      have := (hmem p v hv a).2 ⟨ha, hh⟩
      rw [hem] at this; simp at this
    · rw [throwIf_false _ hem, ok_bind]
      have hok : (forList v.elems () fun sp _ => do
          let s ← getIdx w''.E sp
          let found : Bool := if s.dofs = [] then s.verts.contains (some p) else s.dofs.contains p
          throwIf (found = false) .malformedVertexElementConnection) = .ok () := by
        rw [forList_unit_ok_iff]
        intro a ha
        obtain ⟨ha1, ha2⟩ := (hmem p v hv a).1 ha
        obtain ⟨x, x1, x2, x3, -, -⟩ := hel a ha1
        rw [getIdx_of_some x1, ok_bind]
        simp only
        rw [if_pos x3, x2, throwIf_false _ (by simpa using ha2)]
      simp only [hok, ok_bind]
      refine ⟨by simp [hid], fun q hq => ?_⟩
      rcases List.mem_append.1 hq with hq | hq
      · exact hpre q hq
      · rw [List.mem_singleton] at hq
        subst hq
        obtain ⟨a, ha⟩ := List.exists_mem_of_ne_nil _ hem
        exact ⟨a, (hmem q v hv a).1 ha⟩
  have sE : Sat (validateElements eps w'') (fun _ => ∀ a ∈ w.elements, eps < elementVolume w a)
      (fun er => er = .exc .zeroVolumeSimplex ∧ ∃ a ∈ w.elements, elementVolume w a ≤ eps) := by
    unfold validateElements
    rw [hp.elements]
    refine sat_forList (fun pre (_ : Unit) => ∀ a ∈ pre, eps < elementVolume w a) w.elements (by simp) ?_
    intro pre a suf _ hsplit hpre
    have ha : a ∈ w.elements := by rw [hsplit]; simp
    obtain ⟨x, x1, x2, x3, x4, x5⟩ := hel a ha
    obtain ⟨e0, he0⟩ : ∃ e0, w.E[a]? = some e0 := ⟨_, List.getElem?_eq_getElem (hI.elt a ha)⟩
    have hcorner : (forRange 0 3 () fun i _ => do
      let vp ← getIdx x.verts i
      throwIf (vp = none) .incompleteElement
      let p ← deref vp
      let v ← getIdx w''.V p
      let c ← getIdx x.simplex.verts i
      let d ← Vec.subAssign c v.pos
      let q ← Vec.magSqr d
      throwIf (eps < |q|) .incompleteElement) = .ok () := by
      rw [forRange3_unit_ok_iff]
      intro i hi
      obtain ⟨q, v, c1, c2, c3⟩ := hI.corner a ha e0 he0 i hi
      have hsv : x.simplex.verts = e0.simplex.verts := by
        rw [x4, show e0.simplex.verts = _ from hasVerts_coords hI ha he0]; rfl
      rw [x2, vertsOf_some he0, getIdx_of_some c1, ok_bind, throwIf_false _ (by simp), ok_bind]
      simp only [deref, ok_bind]
      rw [hp.V, getIdx_of_some c2, ok_bind, hsv, getIdx_of_some c3, ok_bind]
      obtain ⟨y, z, hyz⟩ := Props.Simplex.two_of_length (hI.pos q v c2)
      rw [hyz]
      have := distSqr_eq y z y z
      rw [bind_ok_iff] at this
      obtain ⟨d, d1, d2⟩ := this
      rw [d1, ok_bind, d2, ok_bind]
      exact throwIf_false _ (by simpa using heps)
    rw [getIdx_of_some x1, ok_bind, hcorner, ok_bind]
    have hvol : x.simplex.volume = .ok (elementVolume w a) := by
      rw [x4]
      unfold elementVolume
      rw [Props.Simplex.area2_eq]
      rfl
    rw [hvol, ok_bind]
    have habs : |elementVolume w a| = elementVolume w a := abs_of_nonneg (abs_nonneg _)
    rw [habs]
    by_cases hle : elementVolume w a ≤ eps
    · rw [throwIf_true _ hle]
      exact ⟨rfl, a, ha, hle⟩
    · rw [throwIf_false _ hle, ok_bind]
      have hnb : (forRange 0 3 () fun i _ => do
          let n ← getIdx x.nbrs i
          throwIf (n = none) .malformedElementNeighborConnection) = .ok () := by
        rw [forRange3_unit_ok_iff]
        intro i hi
        obtain ⟨n, hn⟩ := x5 i hi
        rw [getIdx_of_some hn, ok_bind]
        exact throwIf_false _ (by simp)
      rw [hnb]
      intro b hb
      rcases List.mem_append.1 hb with hb | hb
      · exact hpre b hb
      · rw [List.mem_singleton] at hb
        subst hb
        exact not_le.1 hle
  unfold validate
  rcases hrV : validateVertices w'' with er | u
  · obtain ⟨rfl, p, hp1, hp2⟩ := sV.of_error hrV
    refine ⟨fun _ => rfl, fun hall => ?_, fun hall => ?_⟩ <;>
    · obtain ⟨a, ha, hh⟩ := hall p hp1
      exact absurd hh (hp2 a ha)
  · have hall := sV.of_ok hrV
    refine ⟨fun ⟨p, hp1, hp2⟩ => ?_, fun _ ⟨a, ha, hle⟩ => ?_, fun _ hbig => ?_⟩
    · obtain ⟨a, ha, hh⟩ := hall p hp1
      exact absurd hh (hp2 a ha)
    · rw [ok_bind]
      rcases hrE : validateElements eps w'' with er | u'
      · rw [(sE.of_error hrE).1]
      · exact absurd ((sE.of_ok hrE) a ha) (not_lt.2 hle)
    · rw [ok_bind]
      rcases hrE : validateElements eps w'' with er | u'
      · obtain ⟨-, a, ha, hle⟩ := sE.of_error hrE
        exact absurd (hbig a ha) (not_lt.2 hle)
      · rfl

/-- C64, the usual sequence: for every mesh built by an `addVertex`/`addElement` history for which `setupNeighbors()` and
`prepare()` succeed, `validate()` throws `IsolatedVertexException` if some vertex belongs to no element, otherwise
`ZeroVolumeSimplexException` if some element has a volume of at most `eps`, and otherwise returns normally. -/
theorem C64_pipeline {eps : T} (heps : 0 ≤ eps) {w w' w'' : World T} (h : Built w) (hd : Distinct w)
    (e : w.setupNeighbors = .ok w') (e' : w'.prepare 0 = .ok w'') :
    ((∃ p ∈ w.vertices, ∀ a ∈ w.elements, some p ∉ w.vertsOf a) → validate eps w'' = .error (.exc .isolatedVertex)) ∧
    ((∀ p ∈ w.vertices, ∃ a ∈ w.elements, some p ∈ w.vertsOf a) → (∃ a ∈ w.elements, elementVolume w a ≤ eps) →
      validate eps w'' = .error (.exc .zeroVolumeSimplex)) ∧
    ((∀ p ∈ w.vertices, ∃ a ∈ w.elements, some p ∈ w.vertsOf a) → (∀ a ∈ w.elements, eps < elementVolume w a) →
      validate eps w'' = .ok ()) :=
  pipeline_ready heps h hd (ready h hd e) e'

/-! ### Non-vacuity -/

/-- the square passes `setupNeighbors`, `prepare` and `validate`; without the second triangle the vertex `(1,1)` is
isolated -/
example : ((square.setupNeighbors >>= World.prepare 0) >>= validate (1 / 1000)) = .ok () := by decide +kernel
example : (build [[0, 0], [1, 0], [0, 1], [1, 1]] [(0, 1, 2)] World.empty >>= World.setupNeighbors >>= World.prepare 0 >>=
    validate (1 / 1000)) = .error (.exc .isolatedVertex) := by decide +kernel
/-- a mesh that was not prepared aborts, one with a wrong index is rejected -/
example : (square.setupNeighbors >>= validate (1 / 1000)) = .error .abort := by decide +kernel

end NS.Props.Mesh

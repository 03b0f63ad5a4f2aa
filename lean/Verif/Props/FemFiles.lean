/-
Property theorems C103: the program `examples/poisson/fem.cpp` on a triangulation read from files.
-/
import Verif.Props.FemRun
import Verif.Props.Loader
import Verif.Props.ObjLoader

set_option linter.unusedSectionVars false
set_option linter.unusedSimpArgs false

namespace NS.Props.FemMain
open NS NS.World NS.FemMain NS.Fem Matrix NS.Props.Mesh NS.Props.Shape NS.Props.Fem
open NS.Props.LU (IsMat IsVec isVec_iff)
open NS.Props.Simplex (IsSqrt area2)
variable {T : Type} [Field T] [LinearOrder T] [IsStrictOrderedRing T] {n : Nat}

/-! ### Flags do not matter for `prepare()` and `validate()` -/

/-- everything in a vertex but its flags -/
def noFlags (v : MVertex T) : Nat × List T × List Nat := (v.gi, v.pos, v.elems)

theorem prepare_withV {u : World T} (V : List (MVertex T)) (eps : T) :
    ({ u with V := V } : World T).prepare eps = (u.prepare eps).map fun u' => { u' with V := V } := by
  have key : ∀ (l : List Nat) (u : World T), forList l ({ u with V := V } : World T) (fun S w => do
      let e ← getIdx w.E S
      let s ← e.simplex.prepare eps
      return { w with E := w.E.set S { e with simplex := s } }) = (forList l u (fun S w => do
      let e ← getIdx w.E S
      let s ← e.simplex.prepare eps
      return { w with E := w.E.set S { e with simplex := s } })).map fun u' => ({ u' with V := V } : World T) := by
    intro l
    induction l with
    | nil => intro u; rfl
    | cons S l ih =>
      intro u
      unfold forList
      show (getIdx u.E S >>= _) >>= _ = Except.map _ ((getIdx u.E S >>= _) >>= _)
      rcases hg : getIdx u.E S with er | e
      · rfl
      show (e.simplex.prepare eps >>= _) >>= _ = Except.map _ ((e.simplex.prepare eps >>= _) >>= _)
      rcases hs : e.simplex.prepare eps with er | s
      · rfl
      exact ih { u with E := u.E.set S { e with simplex := s } }
  exact key u.elements u

theorem getIdx_map_bind {α β γ : Type} {f : α → β} {l l' : List α} (h : l'.map f = l.map f) (p : Nat) (g : β → R γ) :
    (getIdx l' p >>= fun v => g (f v)) = getIdx l p >>= fun v => g (f v) := by
  have h1 : (l'[p]?).map f = (l[p]?).map f := by rw [← List.getElem?_map, ← List.getElem?_map, h]
  unfold getIdx
  rcases hl : l[p]? with _ | a <;> rcases hl' : l'[p]? with _ | a'
  · rfl
  · rw [hl, hl'] at h1; cases h1
  · rw [hl, hl'] at h1; cases h1
  · rw [hl, hl'] at h1
    have h2 := Option.some.inj h1
    show g (f a') = g (f a)
    rw [h2]

theorem validate_withV {u : World T} {V : List (MVertex T)} (h : V.map noFlags = u.V.map noFlags) (eps : T) :
    validate eps ({ u with V := V } : World T) = validate eps u := by
  have h1 : validateVertices ({ u with V := V } : World T) = validateVertices u := by
    unfold validateVertices
    refine congrArg (· >>= fun _ => (pure () : R Unit)) ?_
    refine congrArg (forList u.vertices 0) ?_
    funext p id
    exact getIdx_map_bind h p fun t => do
      throwIf (t.1 ≠ id) .invalidVertexIndex
      throwIf (t.2.2 = []) .isolatedVertex
      let _ ← forList t.2.2 () fun sp _ => do
        let s ← getIdx u.E sp
        let found : Bool := if s.dofs = [] then s.verts.contains (some p) else s.dofs.contains p
        throwIf (found = false) .malformedVertexElementConnection
      return id + 1
  have h2 : validateElements eps ({ u with V := V } : World T) = validateElements eps u := by
    unfold validateElements
    refine congrArg (forList u.elements ()) ?_
    funext sp _
    refine congrArg (getIdx u.E sp >>= ·) ?_
    funext s
    refine congrArg (· >>= _) ?_
    refine congrArg (forRange 0 3 ()) ?_
    funext i _
    refine congrArg (getIdx s.verts i >>= ·) ?_
    funext vp
    refine congrArg (throwIf (vp = none) .incompleteElement >>= ·) ?_
    funext _
    refine congrArg (deref vp >>= ·) ?_
    funext p
    exact getIdx_map_bind h p fun t => do
      let c ← getIdx s.simplex.verts i
      let d ← Vec.subAssign c t.2.1
      let q ← Vec.magSqr d
      throwIf (eps < |q|) .incompleteElement
  unfold validate
  rw [h1, h2]

/-! ### A mesh that was built, its neighbours and its boundary -/

theorem noFlags_boundaries {w w1 w2 : World T} (h : Built w) (hd : Distinct w) (e1 : w.setupNeighbors = .ok w1) (e2 : w1.setupBoundaries = .ok w2) :
    w2 = { w1 with V := w2.V } ∧ w2.V.map noFlags = w1.V.map noFlags := by
  obtain ⟨u, f1, f2, f3, f4⟩ := C52_setupBoundaries h hd e1
  obtain rfl : w2 = u := Except.ok.inj (e2.symm.trans f1)
  refine ⟨f2, ?_⟩
  have hadj : w1.V = w.V := by
    have hI := built_inv h
    obtain ⟨h1, h2, h3, h4⟩ := (setupNeighbors_spec (inv_nb hI hd)).of_ok e1
    exact h3
  rw [hadj]
  apply List.ext_getElem?
  intro q
  rw [List.getElem?_map, List.getElem?_map]
  by_cases hq : q < w.V.length
  · have hv : w.V[q]? = some w.V[q] := List.getElem?_eq_getElem hq
    by_cases hb : Boundary w q
    · rw [(f4 q _ hv).1 hb, hv]; rfl
    · rw [(f4 q _ hv).2 hb, hv]
  · rw [List.getElem?_eq_none (by omega), List.getElem?_eq_none (by omega)]

theorem ready_spec {veps : T} (heps : 0 ≤ veps) {w : World T} (h : Built w) (hd : Distinct w) :
    (Overshared w → w.setupNeighbors = .error (.exc .tooManySharedFaces)) ∧
    (¬ Overshared w → ∃ w1 w2, w.setupNeighbors = .ok w1 ∧ w1.setupBoundaries = .ok w2 ∧
      ((∃ a ∈ w.elements, elementVolume w a = 0) → w2.prepare 0 = .error .nonfinite) ∧
      ((∀ a ∈ w.elements, elementVolume w a ≠ 0) → ∃ w3, w2.prepare 0 = .ok w3 ∧ Pipeline w w3 ∧
        (((∃ p ∈ w.vertices, ∀ a ∈ w.elements, some p ∉ w.vertsOf a) ∨ ∃ a ∈ w.elements, elementVolume w a ≤ veps) →
          ∃ x, validate veps w3 = .error (.exc x)) ∧
        ((∀ p ∈ w.vertices, ∃ a ∈ w.elements, some p ∈ w.vertsOf a) → (∀ a ∈ w.elements, veps < elementVolume w a) → validate veps w3 = .ok ()))) := by
  refine ⟨(C51_setupNeighbors h hd).2, fun hno => ?_⟩
  obtain ⟨w1, e1, -⟩ := (C51_setupNeighbors h hd).1 hno
  obtain ⟨w2, e2, -⟩ := C52_setupBoundaries h hd e1
  obtain ⟨g1, g2⟩ := noFlags_boundaries h hd e1 e2
  obtain ⟨p1, p2⟩ := C64_prepare h hd e1
  have hprep : w2.prepare 0 = (w1.prepare 0).map fun u' => { u' with V := w2.V } := by
    conv_lhs => rw [g1]
    exact prepare_withV _ _
  refine ⟨w1, w2, e1, e2, fun hz => ?_, fun hz => ?_⟩
  · rw [hprep, p2 hz]; rfl
  · obtain ⟨w3, e3⟩ := p1 hz
    have e4 : w2.prepare 0 = .ok { w3 with V := w2.V } := by rw [hprep, e3]; rfl
    obtain ⟨v1, v2, v3⟩ := C64_pipeline heps h hd e1 e3
    have hV : w2.V.map noFlags = w3.V.map noFlags := by rw [g2, (prepare_V e3).1]
    refine ⟨_, e4, ⟨w1, w2, e1, .inr e2, e4⟩, fun hh => ?_, fun h1 h2 => ?_⟩
    · rw [validate_withV hV]
      by_cases hi : ∃ p ∈ w.vertices, ∀ a ∈ w.elements, some p ∉ w.vertsOf a
      · exact ⟨_, v1 hi⟩
      · push Not at hi
        rcases hh with ⟨p, hp, hq⟩ | hh
        · obtain ⟨a, ha, hpa⟩ := hi p hp
          exact absurd hpa (hq a ha)
        · exact ⟨_, v2 hi hh⟩
    · rw [validate_withV hV]
      exact v3 h1 h2

/-- `p` and `q` are corners of the same element -/
def Neighbours (w : World T) (p q : Nat) : Prop := ∃ a ∈ w.elements, some p ∈ w.vertsOf a ∧ some q ∈ w.vertsOf a

/-- the numbering after `prepareMesh`: vertex `p` of the mesh has number `k` -/
def HasNumber (w : World T) (p k : Nat) : Prop := w.vertices[k]? = some p ∧ ∃ v : MVertex T, w.V[p]? = some v ∧ v.gi = k

theorem V_after {w w1 w2 w' w'' : World T} {order : Nat} (h : Built w) (hd : Distinct w) (e1 : w.setupNeighbors = .ok w1)
    (e2 : w1.setupBoundaries = .ok w2) (e3 : w2.prepare 0 = .ok w') (ho : order = 1 ∨ order = 2) (e : Shape.prepareMesh order w' = .ok w'') :
    ∀ p < w.V.length, w''.V[p]? = w2.V[p]? := by
  have s := (show Pipeline w w' from ⟨w1, w2, e1, .inr e2, e3⟩).setup
  have hE := edges_of h hd s
  intro p hpl
  have hw' : w'.V = w2.V := (prepare_V e3).1
  rcases ho with rfl | rfl
  · obtain ⟨u, u1, hl⟩ := C56_order1 h hd s
    obtain rfl : u = w'' := Except.ok.inj (u1.symm.trans e)
    rw [hl.keep.1, hw']
  · obtain ⟨u, m, u1, hq⟩ := C56_order2 h hd s
    obtain rfl : u = w'' := Except.ok.inj (u1.symm.trans e)
    rw [hq.old p (by rw [hE.Vlen]; exact hpl), hw']

theorem anchored_of {w w1 w2 w' w'' : World T} {order : Nat} (h : Built w) (hd : Distinct w) (hc : Closed w) (e1 : w.setupNeighbors = .ok w1)
    (e2 : w1.setupBoundaries = .ok w2) (e3 : w2.prepare 0 = .ok w') (ho : order = 1 ∨ order = 2) (e : Shape.prepareMesh order w' = .ok w'')
    (hr : ∀ p ∈ w.vertices, ∃ s ∈ w.vertices, Relation.ReflTransGen (Neighbours w) p s ∧ Boundary w s) : Anchored order w'' := by
  have hp : Pipeline w w' := ⟨w1, w2, e1, .inr e2, e3⟩
  have s := hp.setup
  have hE := edges_of h hd s
  have hI := built_inv h
  have hN := C60_numbered h hd s ho e
  have hD := dofs_in h hd hc s ho e
  obtain ⟨hvo, hsub⟩ := verts_after h hd s ho e
  -- the corners are the first nodes
  have hnode : ∀ a ∈ w.elements, ∃ x, w''.E[a]? = some x ∧ ∀ i < 3, ∀ p, (w.vertsOf a)[i]? = some (some p) → x.dofs[i]? = some p := by
    intro a ha
    have hcv : ∀ e : MElem T, w'.E[a]? = some e → e.verts = w.vertsOf a := by
      intro e he
      obtain ⟨x, x', x1, x2, x3, -⟩ := hE.E a ha
      rw [he] at x2
      obtain rfl := Option.some.inj x2
      rw [x3, vertsOf_some x1]
    rcases ho with rfl | rfl
    · obtain ⟨u, u1, hl⟩ := C56_order1 h hd s
      obtain rfl : u = w'' := Except.ok.inj (u1.symm.trans e)
      obtain ⟨x, d, x1, x2, x3, x4⟩ := hl.dofs a (by rw [hE.elements]; exact ha)
      refine ⟨_, x4, fun i hi p hp => ?_⟩
      rw [← hcv x x1, x2, List.getElem?_map] at hp
      obtain ⟨q, q1, q2⟩ := Option.map_eq_some_iff.1 hp
      rw [← Option.some.inj q2]
      exact q1
    · obtain ⟨u, m, u1, hq⟩ := C56_order2 h hd s
      obtain rfl : u = w'' := Except.ok.inj (u1.symm.trans e)
      obtain ⟨x, c0, c1, c2, x1, x2, x3⟩ := hq.dofs a ha
      refine ⟨_, x3, fun i hi p hp => ?_⟩
      rw [← hcv x x1, x2] at hp
      interval_cases i
      · rw [← Option.some.inj (Option.some.inj hp)]; rfl
      · rw [← Option.some.inj (Option.some.inj hp)]; rfl
      · rw [← Option.some.inj (Option.some.inj hp)]; rfl
  have hnum : ∀ p ∈ w''.vertices, ∃ k, HasNumber w'' p k := by
    intro p hp
    obtain ⟨k, v, k1, -, k3, k4⟩ := numbered_mem hN hp
    exact ⟨k, k1, v, k3, k4⟩
  have huniq : ∀ {p k l}, HasNumber w'' p k → HasNumber w'' p l → k = l := by
    rintro p k l ⟨-, v, v1, v2⟩ ⟨-, u, u1, u2⟩
    rw [v1] at u1
    rw [← v2, ← u2, Option.some.inj u1]
  have hidx : ∀ {a x i p k}, w''.E[a]? = some x → x.dofs[i]? = some p → HasNumber w'' p k → dofIndex w'' a i = some k := by
    rintro a x i p k hx hi ⟨-, v, v1, v2⟩
    unfold dofIndex
    rw [hx, Option.bind_some, hi, Option.bind_some, v1, Option.map_some, v2]
  have hmem : ∀ a ∈ w.elements, ∀ p, some p ∈ w.vertsOf a → ∃ i < 3, (w.vertsOf a)[i]? = some (some p) := by
    intro a ha p hp
    obtain ⟨i, hi⟩ := List.getElem?_of_mem hp
    refine ⟨i, ?_, hi⟩
    have := lt_of_getElem? hi
    rw [vertsOf_arr hI ha] at this
    exact this
  have h3 : 3 ≤ 3 * order := by rcases ho with rfl | rfl <;> omega
  have hstep : ∀ {p q k l}, Neighbours w p q → HasNumber w'' p k → HasNumber w'' q l → Linked order w'' k l := by
    rintro p q k l ⟨a, ha, hpa, hqa⟩ hk hl
    obtain ⟨x, x1, x2⟩ := hnode a ha
    obtain ⟨i, i1, i2⟩ := hmem a ha p hpa
    obtain ⟨j, j1, j2⟩ := hmem a ha q hqa
    exact ⟨a, by rw [hD.elements]; exact ha, i, by omega, j, by omega, hidx x1 (x2 i i1 p i2) hk, hidx x1 (x2 j j1 q j2) hl⟩
  have hpath : ∀ {p s}, Relation.ReflTransGen (Neighbours w) p s → ∀ {k l}, HasNumber w'' p k → HasNumber w'' s l →
      Relation.ReflTransGen (Linked order w'') k l := by
    intro p s hps
    induction hps with
    | refl => intro k l hk hl; rw [huniq hk hl]
    | tail h1 h2 ih =>
      intro k l hk hl
      have ⟨a, ha, hpa, _⟩ := h2
      obtain ⟨m, hm⟩ := hnum _ (hsub _ (hc a ha _ hpa))
      exact (ih hk hm).tail (hstep h2 hm hl)
  have hold := V_after h hd e1 e2 e3 ho e
  have hbd : ∀ {s l}, Boundary w s → s ∈ w.vertices → HasNumber w'' s l → OnBoundary w'' l := by
    rintro s l hb hs ⟨l1, v, v1, v2⟩
    refine ⟨v, by unfold vertexAt; rw [l1]; exact v1, ?_⟩
    have hlt := hI.vlt s hs
    obtain ⟨u, f1, f2, f3, f4⟩ := C52_setupBoundaries h hd e1
    obtain rfl : u = w2 := Except.ok.inj (f1.symm.trans e2)
    have := (f4 s _ (List.getElem?_eq_getElem hlt)).1 hb
    rw [hold s hlt, this] at v1
    rw [← Option.some.inj v1]
    simp only [ne_eq]
    intro h0
    have h1 := congrArg (fun z => z.testBit 0) h0
    simp at h1
  -- old vertices
  have hcase : ∀ p ∈ w.vertices, ∀ k, HasNumber w'' p k → ∃ s, Relation.ReflTransGen (Linked order w'') k s ∧ OnBoundary w'' s := by
    intro p hp k hk
    obtain ⟨s, s1, s2, s3⟩ := hr p hp
    obtain ⟨l, hl⟩ := hnum s (hsub s s1)
    exact ⟨l, hpath s2 hk hl, hbd s3 s1 hl⟩
  intro k hk
  obtain ⟨p, p1⟩ : ∃ p, w''.vertices[k]? = some p := ⟨_, List.getElem?_eq_getElem hk⟩
  have hkn : HasNumber w'' p k := by
    obtain ⟨v, v1, v2⟩ := hN k hk
    unfold vertexAt at v1
    rw [p1] at v1
    exact ⟨p1, v, v1, v2⟩
  by_cases hpw : p ∈ w.vertices
  · exact hcase p hpw k hkn
  · rcases ho with rfl | rfl
    · obtain ⟨u, u1, hl⟩ := C56_order1 h hd s
      obtain rfl : u = w'' := Except.ok.inj (u1.symm.trans e)
      refine absurd ?_ hpw
      rw [← hE.vertices, ← hl.keep.2.1]
      exact List.mem_of_getElem? p1
    · obtain ⟨u, m, u1, hq⟩ := C56_order2 h hd s
      obtain rfl : u = w'' := Except.ok.inj (u1.symm.trans e)
      obtain ⟨news, n1, -, -, -, n5⟩ := hq.vertices
      have hpn : p ∈ news := by
        have := List.mem_of_getElem? p1
        rw [n1, hE.vertices] at this
        exact (List.mem_append.1 this).resolve_left hpw
      obtain ⟨a, ha, i, rfl⟩ := (n5 p).1 hpn
      obtain ⟨x, c0, c1, c2, x1, x2, x3⟩ := hq.dofs a ha
      have hc0 : some c0 ∈ w.vertsOf a := by
        obtain ⟨y, y', y1, y2, y3, -⟩ := hE.E a ha
        rw [x1] at y2
        obtain rfl := Option.some.inj y2
        rw [vertsOf_some y1, ← y3, x2]
        simp
      have hc0v := hc a ha c0 hc0
      obtain ⟨l, hl⟩ := hnum c0 (hsub c0 hc0v)
      obtain ⟨s, s1, s2⟩ := hcase c0 hc0v l hl
      have hmi : ∃ j < 6, ([c0, c1, c2, m a 2, m a 0, m a 1] : List Nat)[j]? = some (m a i) := by
        fin_cases i
        · exact ⟨4, by omega, rfl⟩
        · exact ⟨5, by omega, rfl⟩
        · exact ⟨3, by omega, rfl⟩
      obtain ⟨j, j1, j2⟩ := hmi
      refine ⟨s, .head ⟨a, by rw [hD.elements]; exact ha, j, by omega, 0, by omega, hidx x3 j2 hkn, hidx x3 (i := 0) (p := c0) rfl hl⟩ s1, s2⟩

/-! ### Triangulations -/

/-- `p` is a corner of the triangle `t` -/
def HasCorner (t : Nat × Nat × Nat) (p : Nat) : Prop := p = t.1 ∨ p = t.2.1 ∨ p = t.2.2

/-- triangles with three different corners among `N` points -/
def Proper (N : Nat) (tris : List (Nat × Nat × Nat)) : Prop :=
  ∀ t ∈ tris, (t.1 < N ∧ t.2.1 < N ∧ t.2.2 < N) ∧ t.1 ≠ t.2.1 ∧ t.1 ≠ t.2.2 ∧ t.2.1 ≠ t.2.2

/-- three triangles have a side in common -/
def Crowded (tris : List (Nat × Nat × Nat)) : Prop :=
  ∃ p q, p ≠ q ∧ ∃ (i j k : Nat) (t u v : Nat × Nat × Nat), i ≠ j ∧ i ≠ k ∧ j ≠ k ∧ tris[i]? = some t ∧ tris[j]? = some u ∧ tris[k]? = some v ∧
    (HasCorner t p ∧ HasCorner t q) ∧ (HasCorner u p ∧ HasCorner u q) ∧ HasCorner v p ∧ HasCorner v q

/-- point `p` is an end of a side that belongs to one triangle only -/
def OnRim (tris : List (Nat × Nat × Nat)) (p : Nat) : Prop :=
  ∃ q, p ≠ q ∧ ∃ (i : Nat) (t : Nat × Nat × Nat), tris[i]? = some t ∧ HasCorner t p ∧ HasCorner t q ∧
    ∀ (j : Nat) (u : Nat × Nat × Nat), tris[j]? = some u → HasCorner u p → HasCorner u q → j = i

/-- two points are corners of the same triangle -/
def Together (tris : List (Nat × Nat × Nat)) (p q : Nat) : Prop := ∃ t ∈ tris, HasCorner t p ∧ HasCorner t q

/-- coordinates of the corners of a triangle -/
def triPoints (pts : List (T × T)) (t : Nat × Nat × Nat) (i : Fin 3) (j : Fin 2) : T :=
  ![(pts.getD (![t.1, t.2.1, t.2.2] i) (0, 0)).1, (pts.getD (![t.1, t.2.1, t.2.2] i) (0, 0)).2] j

/-- the area of a triangle -/
def triArea (pts : List (T × T)) (t : Nat × Nat × Nat) : T :=
  let a := pts.getD t.1 (0, 0)
  let b := pts.getD t.2.1 (0, 0)
  let c := pts.getD t.2.2 (0, 0)
  |(b.1 - a.1) * (c.2 - a.2) - (c.1 - a.1) * (b.2 - a.2)| / 2

/-- the mesh `w` has these points and triangles -/
structure Represents (pts : List (T × T)) (tris : List (Nat × Nat × Nat)) (w : World T) : Prop where
  built : Built w
  vertices : w.vertices = List.range pts.length
  elements : w.elements = List.range tris.length
  vertex : ∀ (k : Nat) (x y : T), pts[k]? = some (x, y) → ∃ v, w.V[k]? = some v ∧ v.pos = [x, y] ∧ v.flags = 0 ∧ v.gi = k
  element : ∀ (k : Nat) (t : Nat × Nat × Nat), tris[k]? = some t → w.vertsOf k = [some t.1, some t.2.1, some t.2.2]

section
variable {pts : List (T × T)} {tris : List (Nat × Nat × Nat)} {w : World T}

theorem Represents.mem (h : Represents pts tris w) {k : Nat} : k ∈ w.elements ↔ ∃ t, tris[k]? = some t := by
  rw [h.elements, List.mem_range]
  exact ⟨fun hk => ⟨_, List.getElem?_eq_getElem hk⟩, fun ⟨t, ht⟩ => lt_of_getElem? ht⟩

theorem Represents.corner (h : Represents pts tris w) {k : Nat} {t : Nat × Nat × Nat} (ht : tris[k]? = some t) (p : Nat) :
    some p ∈ w.vertsOf k ↔ HasCorner t p := by
  rw [h.element k t ht]
  simp [HasCorner]

theorem Represents.distinct (h : Represents pts tris w) (hp : Proper pts.length tris) : Distinct w := by
  intro a ha
  obtain ⟨t, ht⟩ := h.mem.1 ha
  obtain ⟨-, h1, h2, h3⟩ := hp t (List.mem_of_getElem? ht)
  rw [h.element a t ht]
  simp [h1, h2, h3]

theorem Represents.closed (h : Represents pts tris w) (hp : Proper pts.length tris) : Closed w := by
  intro a ha q hq
  obtain ⟨t, ht⟩ := h.mem.1 ha
  obtain ⟨⟨h1, h2, h3⟩, -⟩ := hp t (List.mem_of_getElem? ht)
  rw [h.corner ht] at hq
  rw [h.vertices, List.mem_range]
  rcases hq with rfl | rfl | rfl <;> assumption

theorem Represents.face (h : Represents pts tris w) (hp : Proper pts.length tris) {k : Nat} {t : Nat × Nat × Nat} (ht : tris[k]? = some t) :
    (∀ i, ∃ p q, p ≠ q ∧ HasCorner t p ∧ HasCorner t q ∧ ∀ r, OnFace w k i r ↔ r = p ∨ r = q) ∧
    ∀ p q, p ≠ q → HasCorner t p → HasCorner t q → ∃ i, ∀ r, OnFace w k i r ↔ r = p ∨ r = q := by
  obtain ⟨-, h1, h2, h3⟩ := hp t (List.mem_of_getElem? ht)
  have f0 : ∀ r, OnFace w k 0 r ↔ r = t.2.1 ∨ r = t.2.2 := by
    intro r
    unfold OnFace
    rw [h.element k t ht]
    constructor
    · rintro ⟨j, hj, e⟩
      fin_cases j <;> simp_all
    · rintro (rfl | rfl)
      · exact ⟨1, by decide, rfl⟩
      · exact ⟨2, by decide, rfl⟩
  have f1 : ∀ r, OnFace w k 1 r ↔ r = t.1 ∨ r = t.2.2 := by
    intro r
    unfold OnFace
    rw [h.element k t ht]
    constructor
    · rintro ⟨j, hj, e⟩
      fin_cases j <;> simp_all
    · rintro (rfl | rfl)
      · exact ⟨0, by decide, rfl⟩
      · exact ⟨2, by decide, rfl⟩
  have f2 : ∀ r, OnFace w k 2 r ↔ r = t.1 ∨ r = t.2.1 := by
    intro r
    unfold OnFace
    rw [h.element k t ht]
    constructor
    · rintro ⟨j, hj, e⟩
      fin_cases j <;> simp_all
    · rintro (rfl | rfl)
      · exact ⟨0, by decide, rfl⟩
      · exact ⟨1, by decide, rfl⟩
  constructor
  · intro i
    fin_cases i
    · exact ⟨_, _, h3, .inr (.inl rfl), .inr (.inr rfl), f0⟩
    · exact ⟨_, _, h2, .inl rfl, .inr (.inr rfl), f1⟩
    · exact ⟨_, _, h1, .inl rfl, .inr (.inl rfl), f2⟩
  · rintro p q hpq (rfl | rfl | rfl) (rfl | rfl | rfl)
    · exact absurd rfl hpq
    · exact ⟨2, f2⟩
    · exact ⟨1, f1⟩
    · exact ⟨2, fun r => (f2 r).trans or_comm⟩
    · exact absurd rfl hpq
    · exact ⟨0, f0⟩
    · exact ⟨1, fun r => (f1 r).trans or_comm⟩
    · exact ⟨0, fun r => (f0 r).trans or_comm⟩
    · exact absurd rfl hpq

theorem Represents.hasFace (h : Represents pts tris w) {a : Nat} {i : Fin 3} {p q : Nat} (hf : ∀ r, OnFace w a i r ↔ r = p ∨ r = q) (b : Nat) :
    HasFace w b a i ↔ ∃ u, tris[b]? = some u ∧ HasCorner u p ∧ HasCorner u q := by
  unfold HasFace
  rw [h.mem]
  constructor
  · rintro ⟨⟨u, hu⟩, hb⟩
    exact ⟨u, hu, (h.corner hu p).1 (hb p ((hf p).2 (.inl rfl))), (h.corner hu q).1 (hb q ((hf q).2 (.inr rfl)))⟩
  · rintro ⟨u, hu, h1, h2⟩
    refine ⟨⟨u, hu⟩, fun r hr => ?_⟩
    rw [h.corner hu]
    rcases (hf r).1 hr with rfl | rfl <;> assumption

theorem Represents.crowded (h : Represents pts tris w) (hp : Proper pts.length tris) : Overshared w ↔ Crowded tris := by
  constructor
  · rintro ⟨a, ha, i, b, c, hb, hc, h1, h2, h3⟩
    obtain ⟨t, ht⟩ := h.mem.1 ha
    obtain ⟨p, q, hpq, p1, q1, hf⟩ := (h.face hp ht).1 i
    obtain ⟨u, u1, u2⟩ := (h.hasFace hf b).1 hb
    obtain ⟨v, v1, v2⟩ := (h.hasFace hf c).1 hc
    exact ⟨p, q, hpq, a, b, c, t, u, v, h1, h2, h3, ht, u1, v1, ⟨p1, q1⟩, u2, v2⟩
  · rintro ⟨p, q, hpq, a, b, c, t, u, v, h1, h2, h3, ht, hu, hv, ⟨p1, q1⟩, u2, v2⟩
    obtain ⟨i, hf⟩ := (h.face hp ht).2 p q hpq p1 q1
    exact ⟨a, h.mem.2 ⟨t, ht⟩, i, b, c, (h.hasFace hf b).2 ⟨u, hu, u2⟩, (h.hasFace hf c).2 ⟨v, hv, v2⟩, h1, h2, h3⟩

theorem Represents.rim (h : Represents pts tris w) (hp : Proper pts.length tris) (p : Nat) : Boundary w p ↔ OnRim tris p := by
  constructor
  · rintro ⟨a, ha, i, h1, h2⟩
    obtain ⟨t, ht⟩ := h.mem.1 ha
    obtain ⟨x, y, hxy, x1, y1, hf⟩ := (h.face hp ht).1 i
    have hall : ∀ j u, tris[j]? = some u → HasCorner u x → HasCorner u y → j = a := fun j u hu ux uy => h2 j ((h.hasFace hf j).2 ⟨u, hu, ux, uy⟩)
    rcases (hf p).1 h1 with rfl | rfl
    · exact ⟨y, hxy, a, t, ht, x1, y1, hall⟩
    · exact ⟨x, hxy.symm, a, t, ht, y1, x1, fun j u hu ux uy => hall j u hu uy ux⟩
  · rintro ⟨q, hpq, a, t, ht, p1, q1, hall⟩
    obtain ⟨i, hf⟩ := (h.face hp ht).2 p q hpq p1 q1
    refine ⟨a, h.mem.2 ⟨t, ht⟩, i, (hf p).2 (.inl rfl), fun b hb => ?_⟩
    obtain ⟨u, hu, u1, u2⟩ := (h.hasFace hf b).1 hb
    exact hall b u hu u1 u2

theorem Represents.coords (h : Represents pts tris w) (hp : Proper pts.length tris) {k : Nat} {t : Nat × Nat × Nat} (ht : tris[k]? = some t) :
    coords w k = triPoints pts t := by
  obtain ⟨⟨h1, h2, h3⟩, -⟩ := hp t (List.mem_of_getElem? ht)
  have hv : ∀ p, p < pts.length → ∃ v, w.V[p]? = some v ∧ v.pos = [(pts.getD p (0, 0)).1, (pts.getD p (0, 0)).2] := by
    intro p hpl
    obtain ⟨v, v1, v2, -⟩ := h.vertex p pts[p].1 pts[p].2 (List.getElem?_eq_getElem hpl)
    exact ⟨v, v1, by rw [v2, List.getD_eq_getElem _ _ hpl]⟩
  funext i j
  unfold Mesh.coords triPoints
  rw [h.element k t ht]
  obtain ⟨v, v1, v2⟩ := hv t.1 h1
  obtain ⟨u, u1, u2⟩ := hv t.2.1 h2
  obtain ⟨x, x1, x2⟩ := hv t.2.2 h3
  fin_cases i <;> fin_cases j <;> simp [v1, v2, u1, u2, x1, x2]

theorem Represents.volume (h : Represents pts tris w) (hp : Proper pts.length tris) {k : Nat} {t : Nat × Nat × Nat} (ht : tris[k]? = some t) :
    elementVolume w k = triArea pts t := by
  unfold elementVolume triArea
  rw [h.coords hp ht, abs_mul, abs_of_pos (show (0 : T) < 1 / 2 by norm_num), mul_comm, mul_one_div]
  congr 2
  rw [area2_eq]
  simp only [triPoints, Matrix.cons_val_zero, Matrix.cons_val_one, Matrix.cons_val]

open Classical in
theorem Represents.after (h : Represents pts tris w) (hp : Proper pts.length tris) {w1 w2 w' w'' : World T} {order : Nat} (e1 : w.setupNeighbors = .ok w1)
    (e2 : w1.setupBoundaries = .ok w2) (e3 : w2.prepare 0 = .ok w') (ho : order = 1 ∨ order = 2) (e : Shape.prepareMesh order w' = .ok w'')
    {p : Nat} {x y : T} (hx : pts[p]? = some (x, y)) :
    w''.vertices[p]? = some p ∧ ∃ v, w''.V[p]? = some v ∧ v.gi = p ∧ v.pos = [x, y] ∧ v.flags = if OnRim tris p then 1 else 0 := by
  have hd := h.distinct hp
  have hb := h.built
  have s := (show Pipeline w w' from ⟨w1, w2, e1, .inr e2, e3⟩).setup
  have hE := edges_of hb hd s
  obtain ⟨v, v1, v2, v3, v4⟩ := h.vertex p x y hx
  have hlt := lt_of_getElem? hx
  constructor
  · have hr : w'.vertices[p]? = some p := by rw [hE.vertices, h.vertices, List.getElem?_range hlt]
    rcases ho with rfl | rfl
    · obtain ⟨u, u1, hl⟩ := C56_order1 hb hd s
      obtain rfl : u = w'' := Except.ok.inj (u1.symm.trans e)
      rw [hl.keep.2.1, hr]
    · obtain ⟨u, m, u1, hq⟩ := C56_order2 hb hd s
      obtain rfl : u = w'' := Except.ok.inj (u1.symm.trans e)
      obtain ⟨news, n1, -⟩ := hq.vertices
      rw [n1, List.getElem?_append_left (lt_of_getElem? hr), hr]
  · rw [V_after hb hd e1 e2 e3 ho e p (lt_of_getElem? v1)]
    obtain ⟨u, f1, f2, f3, f4⟩ := C52_setupBoundaries hb hd e1
    obtain rfl : u = w2 := Except.ok.inj (f1.symm.trans e2)
    obtain ⟨g1, g2⟩ := f4 p v v1
    rw [h.rim hp] at g1 g2
    by_cases hq : OnRim tris p
    · exact ⟨_, g1 hq, v4, v2, by rw [if_pos hq, v3]; rfl⟩
    · exact ⟨_, g2 hq, v4, v2, by rw [if_neg hq, v3]⟩

theorem Represents.exists_of (hp : Proper pts.length tris) : ∃ w : World T, Loader.mesh pts tris = .ok w ∧ Represents pts tris w := by
  obtain ⟨w, e, h1, h2, h3, h4, h5⟩ := Loader.C59_mesh pts tris fun t ht => (hp t ht).1
  exact ⟨w, e, h1, h2, h3, h4, fun k t ht => h5 k t.1 t.2.1 t.2.2 ht⟩

end

/-! ### The program -/

/-- the files named on the command line contain these points and triangles -/
def Reads (env : Env T) (s : Source) (pts : List (T × T)) (tris : List (Nat × Nat × Nat)) : Prop :=
  match s with
  | .grid _ => False
  | .obj p => ∃ (s : ObjLoader.Shape T) (more : List (ObjLoader.Shape T)), env.loadObj p = ObjLoader.load 2 0 (s :: more) ∧
      pts = ObjLoader.points 2 0 s.positions ∧ tris = ObjLoader.triangles s.indices
  | .triangle p q => ∃ b b', b ≤ 1 ∧ b' ≤ 1 ∧ Loader.NodeFile env.pT b (env.content p) pts ∧ Loader.EleFile b' (env.content q) tris

section
variable {env : Env T} {argv : List (List Char)} {k o : Int} {s : Source} {pts : List (T × T)} {tris : List (Nat × Nat × Nat)}

theorem Reads.notGrid (h : Reads env s pts tris) : s.isGrid = false := by
  cases s <;> first | rfl | exact h.elim

theorem Reads.load (h : Reads env s pts tris) (hp : Proper pts.length tris) :
    FemMain.load env s = Loader.mesh pts tris >>= World.setupNeighbors >>= World.setupBoundaries := by
  cases s with
  | grid n => exact h.elim
  | obj p =>
    obtain ⟨s, more, h1, rfl, rfl⟩ := h
    have := (ObjLoader.C81_load (yI := 2) (xI := 0) (by omega) (by omega) s more).2 fun t ht => (hp t ht).1
    simp only [FemMain.load]
    rw [h1, this]
  | triangle p q =>
    obtain ⟨b, b', hb, hb', h1, h2⟩ := h
    simp only [FemMain.load]
    rw [Loader.C59_load hb hb' h1 h2 fun t ht => (hp t ht).1]

theorem run_range (ha : parse argv = .run k o s) : (0 ≤ k ∧ k ≤ 2) ∧ (1 ≤ o ∧ o ≤ 2) := by
  obtain ⟨-, -, -, -, -, c1, c2, c3⟩ := C101_arguments argv
  cases s with
  | grid N => have := ((c1 k o N).1 ha).2.1; exact ⟨this.1, this.2.1⟩
  | obj p => have := ((c2 k o p).1 ha).2.1; exact ⟨this.1, this.2.1⟩
  | triangle p q => have := ((c3 k o p q).1 ha).2.1; exact ⟨this.1, this.2.1⟩

theorem main_files (ha : parse argv = .run k o s) (hr : Reads env s pts tris) (hp : Proper pts.length tris) {w : World T} (e : Loader.mesh pts tris = .ok w) :
    ∃ after : World T → End T, main env argv = ends (w.setupNeighbors >>= World.setupBoundaries) (fun w => ends (w.prepare 0) after) ∧
      (∀ w x, validate env.veps w = .error (.exc x) → after w = .exit (-1)) ∧
      ∀ w, validate env.veps w = .ok () → after w = ends (handle env o.toNat k false w) .finished := by
  refine ⟨fun w => match validate env.veps w with
    | .error (.exc _) => .exit (-1)
    | .error e => .fault e
    | .ok _ => ends (handle env o.toNat k s.isGrid w) .finished, ?_, ?_, ?_⟩
  · unfold main
    rw [ha]
    simp only
    rw [hr.load hp, e, ok_bind]
    rfl
  · intro w x hx
    simp only [hx]
  · intro w hx
    simp only [hx, hr.notGrid]

/-- C103: how the program ends without a calculation: an exception that nothing catches if three triangles share a side, a division by zero if a triangle is
degenerate, and otherwise the code -1 if a point belongs to no triangle or if a triangle is negligibly small -/
theorem C103_rejected (ha : parse argv = .run k o s) (hr : Reads env s pts tris) (hp : Proper pts.length tris) (hv : 0 ≤ env.veps) :
    (Crowded tris → main env argv = .uncaught) ∧
    (¬ Crowded tris → (∃ t ∈ tris, triArea pts t = 0) → main env argv = .fault .nonfinite) ∧
    (¬ Crowded tris → (∀ t ∈ tris, triArea pts t ≠ 0) →
      ((∃ p < pts.length, ∀ t ∈ tris, ¬ HasCorner t p) ∨ ∃ t ∈ tris, triArea pts t ≤ env.veps) → main env argv = .exit (-1)) := by
  obtain ⟨w, e, h⟩ := Represents.exists_of hp
  have hd := h.distinct hp
  obtain ⟨r1, r2⟩ := ready_spec hv h.built hd
  obtain ⟨after, hmain, g1, g2⟩ := main_files ha hr hp e
  have hvol : ∀ (P : T → Prop), (∃ t ∈ tris, P (triArea pts t)) → ∃ a ∈ w.elements, P (elementVolume w a) := by
    rintro P ⟨t, ht, h0⟩
    obtain ⟨k, hk⟩ := List.getElem?_of_mem ht
    exact ⟨k, h.mem.2 ⟨t, hk⟩, by rw [h.volume hp hk]; exact h0⟩
  refine ⟨fun hc => ?_, fun hc hz => ?_, fun hc hz hi => ?_⟩
  · rw [hmain, r1 ((h.crowded hp).2 hc)]; rfl
  · obtain ⟨w1, w2, e1, e2, p1, -⟩ := r2 fun hh => hc ((h.crowded hp).1 hh)
    rw [hmain, e1, ok_bind, e2]
    show ends (w2.prepare 0) _ = _
    rw [p1 (hvol (· = 0) hz)]; rfl
  · obtain ⟨w1, w2, e1, e2, -, p2⟩ := r2 fun hh => hc ((h.crowded hp).1 hh)
    obtain ⟨w3, e3, -, v1, -⟩ := p2 fun a ha => by
      obtain ⟨t, ht⟩ := h.mem.1 ha
      rw [h.volume hp ht]
      exact hz t (List.mem_of_getElem? ht)
    obtain ⟨x, hx⟩ := v1 (by
      rcases hi with ⟨p, hpl, hp2⟩ | hi
      · refine .inl ⟨p, by rw [h.vertices, List.mem_range]; exact hpl, fun a ha => ?_⟩
        obtain ⟨t, ht⟩ := h.mem.1 ha
        rw [h.corner ht]
        exact hp2 t (List.mem_of_getElem? ht)
      · exact .inr (hvol (· ≤ env.veps) hi))
    rw [hmain, e1, ok_bind, e2]
    show ends (w2.prepare 0) _ = _
    rw [e3]
    exact g1 w3 x hx

/-- no two nodes of an element have an interaction that the threshold of the program drops -/
def Coarse (eps : T) (order : Nat) (pts : List (T × T)) (tris : List (Nat × Nat × Nat)) : Prop :=
  ∀ t ∈ tris, ∀ i < 3 * order, ∀ j < 3 * order, energy order (triPoints pts t) i j ≠ 0 → eps < |energy order (triPoints pts t) i j|

/-- corners and middles of sides -/
theorem verts_count {pts : List (T × T)} {tris : List (Nat × Nat × Nat)} {w w' w'' : World T} {order : Nat} (h : Represents pts tris w) (hp : Proper pts.length tris)
    (hpl : Pipeline w w') (ho : order = 1 ∨ order = 2) (e : Shape.prepareMesh order w' = .ok w'') : w''.vertices.length ≤ pts.length + 3 * tris.length := by
  have hd := h.distinct hp
  have hE := edges_of h.built hd hpl.setup
  have hv : w'.vertices.length = pts.length := by rw [hE.vertices, h.vertices, List.length_range]
  rcases ho with rfl | rfl
  · obtain ⟨u, u1, hl⟩ := C56_order1 h.built hd hpl.setup
    obtain rfl : u = w'' := Except.ok.inj (u1.symm.trans e)
    rw [hl.keep.2.1, hv]
    omega
  · obtain ⟨u, m, u1, hq⟩ := C56_order2 h.built hd hpl.setup
    obtain rfl : u = w'' := Except.ok.inj (u1.symm.trans e)
    obtain ⟨news, n1, n2, -, -, n5⟩ := hq.vertices
    rw [n1, List.length_append, hv]
    have : news ⊆ w.elements.flatMap fun a => [m a 0, m a 1, m a 2] := by
      intro p hpn
      obtain ⟨a, ha, i, rfl⟩ := (n5 p).1 hpn
      rw [List.mem_flatMap]
      exact ⟨a, ha, by fin_cases i <;> simp⟩
    have hle := (n2.subperm this).length_le
    have hc : (w.elements.flatMap fun a => [m a 0, m a 1, m a 2]).length = 3 * tris.length := by
      rw [List.length_flatMap, h.elements]
      simp
      ring
    omega

/-- the entries of the element matrices that the threshold drops are small compared with the shape and the number of the triangles -/
def Tame (eps : T) (order : Nat) (pts : List (T × T)) (tris : List (Nat × Nat × Nat)) : Prop :=
  ∃ δ c : T, 0 ≤ δ ∧
    (∀ t ∈ tris, ∀ i < 3 * order, ∀ j < 3 * order, |energy order (triPoints pts t) i j| ≤ eps → |energy order (triPoints pts t) i j| ≤ δ) ∧
    (∀ t ∈ tris, c * sides (triPoints pts t) ≤ |area2 (triPoints pts t)|) ∧
    2160 * tris.length * ((pts.length : T) + 3 * tris.length + 1) ^ 2 * δ < c

/-- if nothing is dropped the condition is met -/
theorem Coarse.tame {eps : T} {order : Nat} {pts : List (T × T)} {tris : List (Nat × Nat × Nat)} (h : Coarse eps order pts tris)
    (hz : ∀ t ∈ tris, area2 (triPoints pts t) ≠ 0) : Tame eps order pts tris := by
  have hf : ∃ c, 0 < c ∧ ∀ t ∈ tris, c * sides (triPoints pts t) ≤ |area2 (triPoints pts t)| := by
    clear h
    induction tris with
    | nil => exact ⟨1, one_pos, fun a ha => by simp at ha⟩
    | cons b l ih =>
      obtain ⟨c, c0, hc⟩ := ih fun a ha => hz a (List.mem_cons_of_mem _ ha)
      have hb := hz b List.mem_cons_self
      have hs := sides_pos hb
      refine ⟨min c (|area2 (triPoints pts b)| / sides (triPoints pts b)), lt_min c0 (div_pos (abs_pos.2 hb) hs), fun a ha => ?_⟩
      rcases List.mem_cons.1 ha with rfl | ha
      · calc _ ≤ |area2 (triPoints pts a)| / sides (triPoints pts a) * sides (triPoints pts a) := mul_le_mul_of_nonneg_right (min_le_right _ _) hs.le
          _ = _ := div_mul_cancel₀ _ hs.ne'
      · exact (mul_le_mul_of_nonneg_right (min_le_left _ _) (sides_pos (hz a (List.mem_cons_of_mem _ ha))).le).trans (hc a ha)
  obtain ⟨c, c0, hc⟩ := hf
  refine ⟨0, c, le_rfl, fun t ht i hi j hj hle => ?_, hc, by simpa using c0⟩
  by_contra hn
  exact absurd (h t ht i hi j hj fun h0 => hn (by rw [h0, abs_zero])) (not_lt.2 hle)

open Classical in
/-- C103: on every triangulation in which no three triangles share a side, no triangle is negligibly small, the threshold drops nothing that is not small, and every
point is connected through triangles to a side that belongs to one triangle only, the program calculates with a symmetric positive definite system and, with solver 0, always ends with its files; with solver 2
it does so unless the system is badly scaled or its right-hand side is zero, and the residual is below the tolerance if there are enough iterations -/
theorem C103_finished (hs : IsSqrt env.sqrt) (hT : ∀ t, Vtk.Word (env.showT t)) (hm : 0 < env.maxIter) (ht : env.tol ≠ 0)
    (ha : parse argv = .run k o s) (hr : Reads env s pts tris) (hp : Proper pts.length tris) (hv : 0 ≤ env.veps) (hne : tris ≠ [])
    (hc : ¬ Crowded tris) (hz : ∀ t ∈ tris, env.veps < triArea pts t)
    (hrim : ∀ p < pts.length, ∃ q, Relation.ReflTransGen (Together tris) p q ∧ OnRim tris q) (hk : Tame env.eps o.toNat pts tris) :
    ∃ (w w' w'' : World T) (n : Nat) (a : Sparse T) (b : List T) (A : Matrix (Fin n) (Fin n) T) (B : Fin n → T), Represents pts tris w ∧ Pipeline w w' ∧
      Shape.prepareMesh o.toNat w' = .ok w'' ∧ w''.vertices.length = n ∧ system env.eps o.toNat env.src env.bnd w'' = .ok (a, b) ∧ IsMat a n A ∧ IsVec b n B ∧
      NS.CG.SPD A ∧
      (∀ (p : Nat) (x y : T), pts[p]? = some (x, y) →
        w''.vertices[p]? = some p ∧ ∃ v, w''.V[p]? = some v ∧ v.gi = p ∧ v.pos = [x, y] ∧ v.flags = if OnRim tris p then 1 else 0) ∧
      (∀ x : Fin n → T, A *ᵥ x = B ↔ ∀ (r : Fin n) v, vertexAt w'' r = some v →
        (v.flags &&& 1 ≠ 0 → x r = env.bnd v.pos) ∧
        (v.flags &&& 1 = 0 → (w.elements.map fun a => ∑ i ∈ Finset.range (3 * o.toNat), if dofIndex w'' a i = some (r : Nat) then
            ∑ j ∈ Finset.range (3 * o.toNat), keep env.eps (energy o.toNat (coords w a) i j) * valueOf w'' x a j else 0).sum =
          (w.elements.map fun a => ∑ i ∈ Finset.range (3 * o.toNat), if dofIndex w'' a i = some (r : Nat) then
            keep env.eps (Fem.load o.toNat env.src (coords w a) i) else 0).sum)) ∧
      (k = 0 → ∃ x f, main env argv = .finished f ∧ Report env o.toNat false w w'' A b x f) ∧
      (k = 1 → main env argv = .fault .nonfinite ∨ ∃ x f, main env argv = .finished f ∧ Report env o.toNat false w w'' A b x f) ∧
      (k = 2 → (∃ i, |A i i| ≤ env.jeps) → main env argv = .uncaught) ∧
      (k = 2 → (∀ i, env.jeps < |A i i|) → B = 0 → main env argv = .fault .nonfinite) ∧
      (k = 2 → (∀ i, env.jeps < |A i i|) → B ≠ 0 → ∃ x₁ x f, main env argv = .finished f ∧ IsVec x₁ n x ∧ Report env o.toNat false w w'' A b x₁ f ∧
        (n ≤ env.maxIter → Props.CG.resSqr A B x < env.tol ^ 2)) := by
  obtain ⟨w, e, h⟩ := Represents.exists_of hp
  have hd := h.distinct hp
  have hcl := h.closed hp
  obtain ⟨after, hmain, -, g2⟩ := main_files ha hr hp e
  obtain ⟨-, r2⟩ := ready_spec hv h.built hd
  obtain ⟨w1, w2, e1, e2, -, p2⟩ := r2 fun hh => hc ((h.crowded hp).1 hh)
  have hvol : ∀ a ∈ w.elements, env.veps < elementVolume w a := by
    intro a ha
    obtain ⟨t, ht⟩ := h.mem.1 ha
    rw [h.volume hp ht]
    exact hz t (List.mem_of_getElem? ht)
  obtain ⟨w3, e3, hpl, -, v2⟩ := p2 fun a ha => (lt_of_le_of_lt hv (hvol a ha)).ne'
  have hto : ∀ p q, Together tris p q → Neighbours w p q := by
    rintro p q ⟨t, ht, h1, h2⟩
    obtain ⟨k, hk⟩ := List.getElem?_of_mem ht
    exact ⟨k, h.mem.2 ⟨t, hk⟩, (h.corner hk p).2 h1, (h.corner hk q).2 h2⟩
  have hrimlt : ∀ q, OnRim tris q → q < pts.length := by
    rintro q ⟨-, -, i, t, ht, h1, -⟩
    obtain ⟨⟨h2, h3, h4⟩, -⟩ := hp t (List.mem_of_getElem? ht)
    rcases h1 with rfl | rfl | rfl <;> assumption
  have hval : validate env.veps w3 = .ok () := by
    refine v2 (fun p hpw => ?_) hvol
    rw [h.vertices, List.mem_range] at hpw
    obtain ⟨q, q1, q2⟩ := hrim p hpw
    rcases q1.cases_head with rfl | ⟨c, c1, -⟩
    · obtain ⟨-, -, i, t, ht, h1, -⟩ := q2
      exact ⟨i, h.mem.2 ⟨t, ht⟩, (h.corner ht _).2 h1⟩
    · obtain ⟨a, a1, a2, -⟩ := hto p c c1
      exact ⟨a, a1, a2⟩
  have ho : o.toNat = 1 ∨ o.toNat = 2 := by
    obtain ⟨-, h1, h2⟩ := run_range ha
    omega
  obtain ⟨w4, e4⟩ : ∃ w4, Shape.prepareMesh o.toNat w3 = .ok w4 := by
    rcases ho with h1 | h1 <;> rw [h1]
    · obtain ⟨u, hu, -⟩ := C56_order1 h.built hd hpl.setup
      exact ⟨u, hu⟩
    · obtain ⟨u, m, hu, -⟩ := C56_order2 h.built hd hpl.setup
      exact ⟨u, hu⟩
  have hel : w.elements ≠ [] := by
    rw [h.elements]
    intro h0
    exact hne (List.length_eq_zero_iff.1 (List.range_eq_nil.1 h0))
  have hanch : Anchored o.toNat w4 := anchored_of h.built hd hcl e1 e2 e3 ho e4 fun p hpw => by
    rw [h.vertices, List.mem_range] at hpw
    obtain ⟨q, q1, q2⟩ := hrim p hpw
    exact ⟨q, by rw [h.vertices, List.mem_range]; exact hrimlt q q2, Relation.ReflTransGen.mono hto _ _ q1, (h.rim hp q).2 q2⟩
  have hlen : w4.vertices.length ≤ pts.length + 3 * tris.length := verts_count h hp hpl ho e4
  have hsolid : Solid env.eps o.toNat w w4 := by
    obtain ⟨δ, c, k1, k2, k3, k4⟩ := hk
    have hel0 : w.elements.length = tris.length := by rw [h.elements, List.length_range]
    have hvne : w.vertices ≠ [] := by
      obtain ⟨t, ht⟩ := List.exists_mem_of_ne_nil _ hne
      obtain ⟨⟨l1, -, -⟩, -⟩ := hp t ht
      rw [h.vertices]
      intro h0
      rw [List.range_eq_nil] at h0
      omega
    refine solid_of_small h.built hd hcl hpl ho e4 hvne k1 (fun a ha i hi j hj => ?_) (fun a ha => ?_) hanch (lt_of_le_of_lt ?_ k4)
    · obtain ⟨t, ht⟩ := h.mem.1 ha
      rw [h.coords hp ht]
      exact k2 t (List.mem_of_getElem? ht) i hi j hj
    · obtain ⟨t, ht⟩ := h.mem.1 ha
      rw [h.coords hp ht]
      exact k3 t (List.mem_of_getElem? ht)
    · rw [hel0]
      have h1 : ((w4.vertices.length : Nat) : T) ≤ pts.length + 3 * tris.length := by exact_mod_cast hlen
      have h2 : (0 : T) ≤ ((w4.vertices.length : Nat) : T) := Nat.cast_nonneg _
      have h3 : (((w4.vertices.length : Nat) : T) + 1) ^ 2 ≤ ((pts.length : T) + 3 * tris.length + 1) ^ 2 := by
        refine pow_le_pow_left₀ (by linarith) (by linarith) 2
      exact mul_le_mul_of_nonneg_right (mul_le_mul_of_nonneg_left h3 (by positivity)) k1
  obtain ⟨a, b, A, B, s1, s2, s3, s4, t0, t1, t4, t2, t3⟩ := C102_handle hs hT hm ht h.built hd hcl hpl ho e4 hel rfl hsolid false (run_range ha).1
  obtain ⟨a', b', A', B', c1, c2, c3, -, -, c6⟩ := C119_system (M := Sparse T) h.built hd hcl hpl ho e4 hel rfl hsolid env.src env.bnd
  obtain ⟨rfl, rfl⟩ := Prod.mk.inj (Except.ok.inj (s1.symm.trans c1))
  obtain rfl : A = A' := by ext i j; rw [← s2.val_eq, ← c2.val_eq]
  obtain rfl : B = B' := by funext i; rw [← (isVec_iff.1 s3).2 i, ← (isVec_iff.1 c3).2 i]
  have hm2 : main env argv = ends (handle env o.toNat k false w3) .finished := by
    rw [hmain, e1, ok_bind, e2]
    show ends (w2.prepare 0) _ = _
    rw [e3]
    exact g2 w3 hval
  refine ⟨w, w3, w4, _, a, b, A, B, h, hpl, e4, rfl, s1, s2, s3, s4, fun p x y hx => h.after hp e1 e2 e3 ho e4 hx, c6, fun hk => ?_, fun hk => ?_, fun hk hB => ?_, fun hk hj hB => ?_, fun hk hj hB => ?_⟩
  · obtain ⟨x, f, f1, f2⟩ := t0 hk
    exact ⟨x, f, by rw [hm2, f1]; rfl, f2⟩
  · rcases t1 hk with f1 | ⟨x, f, f1, f2⟩
    · left; rw [hm2, f1]; rfl
    · right; exact ⟨x, f, by rw [hm2, f1]; rfl, f2⟩
  · rw [hm2, t4 hk hB]; rfl
  · rw [hm2, t2 hk hj hB]; rfl
  · obtain ⟨x₁, x, f, f1, f2, f3, f4⟩ := t3 hk hj hB
    exact ⟨x₁, x, f, by rw [hm2, f1]; rfl, f2, f3, f4⟩

/-! ### Linear elements -/

/-- the number of a corner -/
def cornerOf (t : Nat × Nat × Nat) (i : Fin 3) : Nat := ![t.1, t.2.1, t.2.2] i

/-- the value at a point -/
def at' {N : Nat} (z : Fin N → T) (p : Nat) : T := if h : p < N then z ⟨p, h⟩ else 0

/-- the discrete problem on a triangulation: the boundary values at the rim, and at every other point the equation of its shape function -/
def Discrete (eps : T) (src bnd : List T → T) (pts : List (T × T)) (tris : List (Nat × Nat × Nat)) (z : Fin pts.length → T) : Prop :=
  ∀ r : Fin pts.length, (OnRim tris r → z r = bnd [pts[r].1, pts[r].2]) ∧
    (¬ OnRim tris r → (tris.map fun t => ∑ i : Fin 3, if cornerOf t i = r then ∑ j : Fin 3, energy 1 (triPoints pts t) i j * at' z (cornerOf t j) else 0).sum =
      (tris.map fun t => ∑ i : Fin 3, if cornerOf t i = r then keep eps (Fem.load 1 src (triPoints pts t) i) else 0).sum)

/-- the files with the result: a line for each point with its coordinates and value, and a line for each triangle with the numbers of these lines, from 1 -/
structure Tables (pts : List (T × T)) (tris : List (Nat × Nat × Nat)) (z : Fin pts.length → T) (f : Files T) : Prop where
  data : f.data = List.ofFn fun i : Fin pts.length => (pts[i].1, pts[i].2, z i)
  mesh : f.mesh = tris.map fun t => (t.1 + 1, t.2.1 + 1, t.2.2 + 1)
  exact : f.exact = List.replicate pts.length 0

theorem sum_range_tris (tris : List (Nat × Nat × Nat)) (F : Nat → T) (G : Nat × Nat × Nat → T) (h : ∀ k t, tris[k]? = some t → F k = G t) :
    ((List.range tris.length).map F).sum = (tris.map G).sum := by
  congr 1
  apply List.ext_getElem
  · simp
  · intro k h1 h2
    rw [List.getElem_map, List.getElem_map, List.getElem_range]
    exact h k _ (List.getElem?_eq_getElem (by simpa using h2))

/-- C103: with linear elements the program solves the discrete problem on the triangulation of the files, and its files list the points with the calculated values
and the triangles, in the order of the input -/
theorem C103_linear (hs : IsSqrt env.sqrt) (hT : ∀ t, Vtk.Word (env.showT t)) (hm : 0 < env.maxIter) (ht : env.tol ≠ 0)
    (ha : parse argv = .run k 1 s) (hr : Reads env s pts tris) (hp : Proper pts.length tris) (hv : 0 ≤ env.veps) (hne : tris ≠ [])
    (hc : ¬ Crowded tris) (hz : ∀ t ∈ tris, env.veps < triArea pts t)
    (hrim : ∀ p < pts.length, ∃ q, Relation.ReflTransGen (Together tris) p q ∧ OnRim tris q) (hk : Coarse env.eps 1 pts tris) :
    ∃ (A : Matrix (Fin pts.length) (Fin pts.length) T) (B : Fin pts.length → T), NS.CG.SPD A ∧
      (∀ z, A *ᵥ z = B ↔ Discrete env.eps env.src env.bnd pts tris z) ∧
      (k = 0 → ∃ z f, main env argv = .finished f ∧ Tables pts tris z f) ∧
      (k = 2 → (∀ i, env.jeps < |A i i|) → B ≠ 0 → ∃ z f, main env argv = .finished f ∧ Tables pts tris z f ∧
        (pts.length ≤ env.maxIter → Props.CG.resSqr A B z < env.tol ^ 2)) := by
  classical
  have htne : ∀ t ∈ tris, area2 (triPoints pts t) ≠ 0 := by
    intro t htm h0
    have h1 := lt_of_le_of_lt hv (hz t htm)
    have h2 : triArea pts t = |area2 (triPoints pts t)| / 2 := by rw [area2_eq]; rfl
    rw [h2, h0] at h1
    simp at h1
  have hco := hk
  obtain ⟨w, w', w'', n, a, b, A, B, h, hpl, e4, hn, s1, s2, s3, s4, hb, hsys, t0, -, -, -, t2⟩ :=
    C103_finished hs hT hm ht ha hr hp hv hne hc hz hrim (hk.tame htne)
  obtain ⟨u, u1, hl⟩ := C56_order1 h.built (h.distinct hp) hpl.setup
  obtain rfl : u = w'' := Except.ok.inj (u1.symm.trans e4)
  have hE := edges_of h.built (h.distinct hp) hpl.setup
  have hvs : u.vertices = List.range pts.length := by rw [hl.keep.2.1, hE.vertices, h.vertices]
  obtain rfl : n = pts.length := by rw [← hn, hvs, List.length_range]
  have hdof : ∀ (k : Nat) t, tris[k]? = some t → ∀ i : Fin 3, dofIndex u k i = some (cornerOf t i) := by
    intro k t hk i
    obtain ⟨⟨h1, h2, h3⟩, -⟩ := hp t (List.mem_of_getElem? hk)
    have hke := h.mem.2 ⟨t, hk⟩
    obtain ⟨x, d, x1, x2, x3, x4⟩ := hl.dofs k (by rw [hE.elements]; exact hke)
    have hd : d = [t.1, t.2.1, t.2.2] := by
      obtain ⟨y, y', y1, y2, y3, -⟩ := hE.E k hke
      rw [x1] at y2
      obtain rfl := Option.some.inj y2
      have := h.element k t hk
      rw [vertsOf_some y1, ← y3, x2] at this
      exact List.map_injective_iff.2 (Option.some_injective _) this
    have hc : cornerOf t i < pts.length := by fin_cases i <;> assumption
    obtain ⟨-, v, v1, v2, -⟩ := hb (cornerOf t i) pts[cornerOf t i].1 pts[cornerOf t i].2 (List.getElem?_eq_getElem hc)
    unfold dofIndex
    rw [x4, Option.bind_some]
    simp only [hd]
    have : ([t.1, t.2.1, t.2.2] : List Nat)[(i : Nat)]? = some (cornerOf t i) := by fin_cases i <;> rfl
    rw [this, Option.bind_some, v1, Option.map_some, v2]
  have hval : ∀ (z : Fin pts.length → T) (k : Nat) t, tris[k]? = some t → ∀ i : Fin 3, valueOf u z k i = at' z (cornerOf t i) := by
    intro z k t hk i
    unfold valueOf at'
    rw [hdof k t hk i]
  have hel : w.elements ≠ [] := by
    rw [h.elements]
    intro h0
    exact hne (List.length_eq_zero_iff.1 (List.range_eq_nil.1 h0))
  have htab : ∀ {x₁ : List T} {f : Files T}, Report env 1 false w u A b x₁ f → Tables pts tris (fun i => x₁.getD i 0) f := by
    intro x₁ f hf
    refine ⟨?_, ?_, ?_⟩
    · apply List.ext_getElem?
      intro i
      by_cases hi : i < pts.length
      · obtain ⟨v1, v, v2, v3, v4, -⟩ := hb i pts[i].1 pts[i].2 (List.getElem?_eq_getElem hi)
        rw [hf.data i i v v1 v2, v4, List.getElem?_ofFn, dif_pos hi]
        rfl
      · rw [List.getElem?_eq_none (by rw [hf.dataLength]; omega), List.getElem?_eq_none (by rw [List.length_ofFn]; omega)]
    · apply List.ext_getElem?
      intro i
      by_cases hi : i < tris.length
      · have hti : tris[i]? = some tris[i] := List.getElem?_eq_getElem hi
        obtain ⟨m, m1, m2⟩ := hf.mesh i i (by rw [h.elements, List.getElem?_range hi])
        have hmj : ∀ j, m j = cornerOf tris[i] j := by
          intro j
          obtain ⟨-, p, p1, p2⟩ := m2 j
          rw [h.element i _ hti] at p1
          have hlt := lt_of_getElem? p2
          rw [hvs, List.length_range] at hlt
          rw [hvs, List.getElem?_range hlt] at p2
          rw [Option.some.inj p2]
          fin_cases j <;> exact (Option.some.inj (Option.some.inj p1)).symm
        rw [m1, hmj, hmj, hmj, List.getElem?_map, hti]
        rfl
      · rw [List.getElem?_eq_none (by rw [hf.meshLength, h.elements, List.length_range]; omega), List.getElem?_eq_none (by rw [List.length_map]; omega)]
    · apply List.ext_getElem?
      intro i
      by_cases hi : i < pts.length
      · obtain ⟨v1, v, v2, v3, v4, -⟩ := hb i pts[i].1 pts[i].2 (List.getElem?_eq_getElem hi)
        rw [hf.exact i i v v1 v2, List.getElem?_replicate, if_pos hi]
        rfl
      · rw [List.getElem?_eq_none (by rw [hf.exactLength]; omega), List.getElem?_eq_none (by rw [List.length_replicate]; omega)]
  refine ⟨A, B, s4, fun z => ?_, fun hk => ?_, fun hk hj hB => ?_⟩
  · rw [hsys z]
    have hat : ∀ r : Fin pts.length, ∃ v, vertexAt u r = some v ∧ v.pos = [pts[r].1, pts[r].2] ∧ v.flags = if OnRim tris r then 1 else 0 := by
      intro r
      obtain ⟨v1, v, v2, v3, v4, v5⟩ := hb r pts[r].1 pts[r].2 (List.getElem?_eq_getElem r.2)
      exact ⟨v, by unfold vertexAt; rw [v1]; exact v2, v4, v5⟩
    refine forall_congr' fun r => ?_
    obtain ⟨v, v1, v2, v3⟩ := hat r
    have f1 : v.flags &&& 1 ≠ 0 ↔ OnRim tris r := by rw [v3]; split <;> simp [*]
    have f2 : v.flags &&& 1 = 0 ↔ ¬ OnRim tris r := by rw [← f1, not_not]
    have l1 : (w.elements.map fun a => ∑ i ∈ Finset.range (3 * (1 : Int).toNat), if dofIndex u a i = some (r : Nat) then
        ∑ j ∈ Finset.range (3 * (1 : Int).toNat), keep env.eps (energy (1 : Int).toNat (coords w a) i j) * valueOf u z a j else 0).sum =
        (tris.map fun t => ∑ i : Fin 3, if cornerOf t i = r then ∑ j : Fin 3, energy 1 (triPoints pts t) i j * at' z (cornerOf t j) else 0).sum := by
      rw [h.elements]
      refine sum_range_tris tris _ _ fun k t hk => ?_
      show (∑ i ∈ Finset.range 3, _) = _
      rw [Finset.sum_range]
      refine Finset.sum_congr rfl fun i _ => ?_
      rw [hdof k t hk i]
      simp only [Option.some.injEq]
      refine if_congr Iff.rfl ?_ rfl
      show (∑ j ∈ Finset.range 3, _) = _
      rw [Finset.sum_range]
      refine Finset.sum_congr rfl fun j _ => ?_
      rw [hval z k t hk j, h.coords hp hk]
      congr 1
      exact keep_of (hco t (List.mem_of_getElem? hk) i (by omega) j (by omega))
    have l2 : (w.elements.map fun a => ∑ i ∈ Finset.range (3 * (1 : Int).toNat), if dofIndex u a i = some (r : Nat) then
        keep env.eps (Fem.load (1 : Int).toNat env.src (coords w a) i) else 0).sum =
        (tris.map fun t => ∑ i : Fin 3, if cornerOf t i = r then keep env.eps (Fem.load 1 env.src (triPoints pts t) i) else 0).sum := by
      rw [h.elements]
      refine sum_range_tris tris _ _ fun k t hk => ?_
      show (∑ i ∈ Finset.range 3, _) = _
      rw [Finset.sum_range]
      refine Finset.sum_congr rfl fun i _ => ?_
      rw [hdof k t hk i]
      simp only [Option.some.injEq]
      refine if_congr Iff.rfl ?_ rfl
      rw [h.coords hp hk]
      rfl
    constructor
    · intro hh
      obtain ⟨g1, g2⟩ := hh v v1
      rw [f1, v2] at g1
      rw [f2, l1, l2] at g2
      exact ⟨g1, g2⟩
    · rintro ⟨g1, g2⟩ v' hv'
      obtain rfl : v = v' := Option.some.inj (v1.symm.trans hv')
      rw [f1, v2, f2, l1, l2]
      exact ⟨g1, g2⟩
  · obtain ⟨x, f, f1, f2⟩ := t0 hk
    exact ⟨_, f, f1, htab f2⟩
  · obtain ⟨x₁, x, f, f1, f2, f3, f4⟩ := t2 hk hj hB
    have hx : (fun i : Fin pts.length => x₁.getD i 0) = x := by
      funext i
      exact (isVec_iff.1 f2).2 i
    exact ⟨x, f, f1, hx ▸ htab f3, f4⟩
end

/-- C102: on the generated grid the program ends with the code -1 if the cells are negligibly small -/
theorem C102_invalid {env : Env T} {L : T} (hL : 0 < L) (hsz : env.size = (L, L)) (hst : env.start = (0, 0)) {N : Nat} (hv0 : 0 ≤ env.veps)
    (hv : L ^ 2 / (2 * (N : T) ^ 2) ≤ env.veps) {argv : List (List Char)} {k : Int} (ha : GridArgs argv k N) : main env argv = .exit (-1) := by
  have hN := ha.2.2.2.1
  have hNp : (0 : T) < N := by exact_mod_cast (by omega : 0 < N)
  obtain ⟨w, w', e, e', hb, hd, ha', hg, -, -, hvol, -⟩ := HyperCube.C53_generate hN hN (L, L) (0, 0)
  obtain ⟨kV, kvs, kes, kvo⟩ := ha'.keep
  have hvl : ∀ a ∈ w.elements, elementVolume w a = L ^ 2 / (2 * (N : T) ^ 2) := by
    intro a haw
    have := hvol a (by rw [kes]; exact haw)
    rw [abs_of_pos (mul_pos hL hL)] at this
    have h2 : elementVolume w a = elementVolume w' a := by
      unfold elementVolume coords
      rw [kV, kvo a haw]
    rw [h2, this]
    congr 1 <;> ring
  have hpos : 0 < L ^ 2 / (2 * (N : T) ^ 2) := by positivity
  obtain ⟨w'', e''⟩ := (C64_prepare hb hd e').1 (fun a haw => by rw [hvl a haw]; exact hpos.ne')
  obtain ⟨x, hx⟩ : ∃ x, validate env.veps w'' = .error (.exc x) := by
    obtain ⟨q1, q2, -⟩ := C64_pipeline hv0 hb hd e' e''
    by_cases hi : ∃ p ∈ w.vertices, ∀ a ∈ w.elements, some p ∉ w.vertsOf a
    · exact ⟨_, q1 hi⟩
    · push Not at hi
      have hne : w'.elements.length ≠ 0 := by
        rw [hg.elementCount]
        have : 0 < N * N := Nat.mul_pos hN hN
        nlinarith
      obtain ⟨a, la⟩ := List.exists_mem_of_ne_nil w'.elements (by rintro h0; rw [h0] at hne; exact hne rfl)
      rw [kes] at la
      exact ⟨_, q2 hi ⟨a, la, by rw [hvl a la]; exact hv⟩⟩
  unfold main
  rw [ha.parse]
  simp only [FemMain.load, hsz, hst, e, ends, e'', hx]

/-! ### Concrete files: a square of four triangles around its centre -/

def starNode : List Char := "5 2\n0 0 0 \n1 2 0 \n2 2 2 \n3 0 2 \n4 1 1 \n".toList
def starEle : List Char := "4 3\n0 0 1 4 \n1 1 2 4 \n2 2 3 4 \n3 3 0 4 \n".toList
def starPts : List (ℝ × ℝ) := [(0, 0), (2, 0), (2, 2), (0, 2), (1, 1)]
def starTris : List (Nat × Nat × Nat) := [(0, 1, 4), (1, 2, 4), (2, 3, 4), (3, 0, 4)]

/-- a reader of whole numbers -/
noncomputable def readR (s : List Char) : ℝ × Option Nat := ((Loader.parseU s).1, (Loader.parseU s).2)

theorem means_readR {t : List Char} {n : Nat} (h : Loader.Means Loader.parseU t n) : Loader.Means readR t n :=
  ⟨h.tok, by simp [readR, h.atEnd], fun c r hc => by simp [readR, h.before c r hc]⟩

/-- an environment with the constants of the program and the two files -/
noncomputable def starEnv : Env ℝ := ⟨Real.sqrt, 0, 0, 1 / 2 ^ 52, 1 / 10 ^ 8, 1 / 2 ^ 52, 12 / 10, 1024, 1 / 10 ^ 4, 1, (1, 1), (0, 0), sineSource, zeroBoundary,
  sineSol, fun _ => ['0'], readR, fun p => if p = "s.node".toList then starNode else if p = "s.ele".toList then starEle else [], fun _ => .error .ub⟩

def starArgs : List (List Char) := ["fem", "2", "1", "2", "s.node", "s.ele"].map String.toList

section
open NS.Props.Loader
theorem m4 : Means NS.Loader.parseU ['4'] 4 := means_digits (by decide) (by decide) (by decide)
theorem m5 : Means NS.Loader.parseU ['5'] 5 := means_digits (by decide) (by decide) (by decide)

theorem row3 {a b c : List Char} {i x y : Nat} (h1 : Means NS.Loader.parseU a i) (h2 : Means NS.Loader.parseU b x) (h3 : Means NS.Loader.parseU c y) :
    Starts (a ++ ' ' :: (b ++ ' ' :: (c ++ [' ']))) [a, b, c] [' '] :=
  .cons (ws := []) (by simp) h1.tok (ends_space _) (.cons (ws := [' ']) (by decide) h2.tok (ends_space _) (.cons (ws := [' ']) (by decide) h3.tok (ends_space _) .nil))

theorem star_node : NodeFile readR 0 starNode starPts :=
  ⟨"5 2".toList, ['5'], ['2'], [], ["0 0 0 ".toList, "1 2 0 ".toList, "2 2 2 ".toList, "3 0 2 ".toList, "4 1 1 ".toList], 5, by decide +kernel,
    .cons (ws := []) (by simp) m5.tok (ends_space _) (.cons (ws := [' ']) (by decide) m2.tok (.inl rfl) .nil), m5, by decide, i2,
    .cons (row3 m0 m0 m0) m0 (by simpa using means_readR m0) (by simpa using means_readR m0)
    (.cons (row3 m1 m2 m0) m1 (by simpa using means_readR m2) (by simpa using means_readR m0)
    (.cons (row3 m2 m2 m2) m2 (by simpa using means_readR m2) (by simpa using means_readR m2)
    (.cons (row3 m3 m0 m2) m3 (by simpa using means_readR m0) (by simpa using means_readR m2)
    (.cons (row3 m4 m1 m1) m4 (by simpa using means_readR m1) (by simpa using means_readR m1) .nil))))⟩

theorem row4 {a b c d : List Char} {i x y z : Nat} (h1 : Means NS.Loader.parseU a i) (h2 : Means NS.Loader.parseU b x) (h3 : Means NS.Loader.parseU c y)
    (h4 : Means NS.Loader.parseU d z) : Starts (a ++ ' ' :: (b ++ ' ' :: (c ++ ' ' :: (d ++ [' '])))) [a, b, c, d] [' '] :=
  .cons (ws := []) (by simp) h1.tok (ends_space _) (.cons (ws := [' ']) (by decide) h2.tok (ends_space _) (.cons (ws := [' ']) (by decide) h3.tok (ends_space _)
    (.cons (ws := [' ']) (by decide) h4.tok (ends_space _) .nil)))

theorem star_ele : EleFile 0 starEle starTris :=
  ⟨"4 3".toList, ['4'], ['3'], [], ["0 0 1 4 ".toList, "1 1 2 4 ".toList, "2 2 3 4 ".toList, "3 3 0 4 ".toList], 4, by decide +kernel,
    .cons (ws := []) (by simp) m4.tok (ends_space _) (.cons (ws := [' ']) (by decide) m3.tok (.inl rfl) .nil), m4, by decide, i3,
    .cons (row4 m0 m0 m1 m4) m0 m0 m1 m4 (.cons (row4 m1 m1 m2 m4) m1 m1 m2 m4 (.cons (row4 m2 m2 m3 m4) m2 m2 m3 m4 (.cons (row4 m3 m3 m0 m4) m3 m3 m0 m4 .nil)))⟩
end

theorem star_parse : parse starArgs = .run 2 1 (.triangle "s.node".toList "s.ele".toList) := by decide +kernel

theorem star_reads : Reads starEnv (.triangle "s.node".toList "s.ele".toList) starPts starTris :=
  ⟨0, 0, by decide, by decide, by
    have : starEnv.content "s.node".toList = starNode := rfl
    rw [this]; exact star_node, by
    have : starEnv.content "s.ele".toList = starEle := rfl
    rw [this]; exact star_ele⟩

theorem star_proper : Proper starPts.length starTris := by
  unfold Proper starPts starTris
  simp

theorem star_crowded : ¬ Crowded starTris := by
  rintro ⟨p, q, hpq, i, j, k, t, u, v, hij, hik, hjk, ht, hu, hv, h1, h2, h3⟩
  have hi : i < 4 := (List.getElem?_eq_some_iff.1 ht).1
  have hj : j < 4 := (List.getElem?_eq_some_iff.1 hu).1
  have hk : k < 4 := (List.getElem?_eq_some_iff.1 hv).1
  unfold starTris at ht hu hv
  unfold HasCorner at h1 h2 h3
  interval_cases i <;> interval_cases j <;> (try exact absurd rfl hij) <;> interval_cases k <;> (try exact absurd rfl hik) <;> (try exact absurd rfl hjk) <;>
    (simp only [List.getElem?_cons_zero, List.getElem?_cons_succ, Option.some.injEq] at ht hu hv; subst ht hu hv; simp only at h1 h2 h3; omega)

theorem star_area : ∀ t ∈ starTris, triArea starPts t = 1 := by
  intro t ht
  simp only [starTris, List.mem_cons, List.not_mem_nil, or_false] at ht
  rcases ht with rfl | rfl | rfl | rfl <;> norm_num [triArea, starPts]

theorem star_rim : ∀ p < 4, OnRim starTris p := by
  intro p hp
  have hp' : ∀ q < 4, ∀ j u, starTris[j]? = some u → HasCorner u q → HasCorner u ((q + 1) % 4) → j = q := by
    intro q hq j u hu h1 h2
    have hj : j < 4 := (List.getElem?_eq_some_iff.1 hu).1
    unfold starTris at hu
    unfold HasCorner at h1 h2
    interval_cases j <;> (simp only [List.getElem?_cons_zero, List.getElem?_cons_succ, Option.some.injEq] at hu; subst hu; simp only at h1 h2; omega)
  refine ⟨(p + 1) % 4, by omega, p, starTris.getD p (0, 0, 0), ?_, ?_, ?_, fun j u hu h1 h2 => hp' p hp j u hu h1 h2⟩ <;>
    interval_cases p <;> simp [starTris, HasCorner]

theorem star_reach : ∀ p < starPts.length, ∃ q, Relation.ReflTransGen (Together starTris) p q ∧ OnRim starTris q := by
  intro p hp
  have hp : p < 5 := hp
  rcases Nat.lt_or_ge p 4 with h | h
  · exact ⟨p, .refl, star_rim p h⟩
  · obtain rfl : p = 4 := by omega
    exact ⟨0, .single ⟨(0, 1, 4), by simp [starTris], by simp [HasCorner]⟩, star_rim 0 (by omega)⟩

theorem triPoints_at (pts : List (T × T)) (a b c : Nat) : (triPoints pts (a, b, c) 0 0 = (pts.getD a (0, 0)).1 ∧ triPoints pts (a, b, c) 0 1 = (pts.getD a (0, 0)).2) ∧
    (triPoints pts (a, b, c) 1 0 = (pts.getD b (0, 0)).1 ∧ triPoints pts (a, b, c) 1 1 = (pts.getD b (0, 0)).2) ∧
    triPoints pts (a, b, c) 2 0 = (pts.getD c (0, 0)).1 ∧ triPoints pts (a, b, c) 2 1 = (pts.getD c (0, 0)).2 :=
  ⟨⟨rfl, rfl⟩, ⟨rfl, rfl⟩, rfl, rfl⟩

theorem star_coarse : Coarse (1 / 10 ^ 8 : ℝ) 1 starPts starTris := by
  intro t ht i hi j hj
  obtain ⟨i, rfl⟩ : ∃ i' : Fin 3, (i' : Nat) = i := ⟨⟨i, by omega⟩, rfl⟩
  obtain ⟨j, rfl⟩ : ∃ i' : Fin 3, (i' : Nat) = j := ⟨⟨j, by omega⟩, rfl⟩
  rw [energy_one, inv_apply, inv_apply, area2_eq, dotProduct, Fin.sum_univ_two]
  simp only [starTris, List.mem_cons, List.not_mem_nil, or_false] at ht
  rcases ht with rfl | rfl | rfl | rfl <;> fin_cases i <;> fin_cases j <;> norm_num [(triPoints_at _ _ _ _).1.1, (triPoints_at _ _ _ _).1.2, (triPoints_at _ _ _ _).2.1.1, (triPoints_at _ _ _ _).2.1.2,
    (triPoints_at _ _ _ _).2.2.1, (triPoints_at _ _ _ _).2.2.2, starPts, kappa, abs_of_pos, abs_of_neg]

/-- the hypotheses of C103 are met by the two files above, and the program ends with the table of the five points -/
example : ∃ A B, NS.CG.SPD (A : Matrix (Fin starPts.length) (Fin starPts.length) ℝ) ∧ (∀ z, A *ᵥ z = B ↔ Discrete starEnv.eps starEnv.src starEnv.bnd starPts starTris z) := by
  obtain ⟨A, B, h1, h2, -⟩ := C103_linear (env := starEnv) Norm.isSqrt_real (fun _ => ⟨by simp [starEnv], by simp [starEnv]⟩) (by norm_num [starEnv]) (by norm_num [starEnv])
    star_parse star_reads star_proper (by norm_num [starEnv]) (by simp [starTris]) star_crowded (fun t ht => by rw [star_area t ht]; norm_num [starEnv]) star_reach
    star_coarse
  exact ⟨A, B, h1, h2⟩

/-- each kind of rejected triangulation exists -/
example : Crowded [(0, 1, 2), (0, 1, 3), (0, 1, 4)] ∧ triArea [((0 : ℝ), (0 : ℝ)), (1, 1), (2, 2)] (0, 1, 2) = 0 ∧
    (¬ Crowded [(0, 1, 2)] ∧ ∀ t ∈ [(0, 1, 2)], ¬ HasCorner t 3) := by
  refine ⟨⟨0, 1, by omega, 0, 1, 2, _, _, _, by omega, by omega, by omega, rfl, rfl, rfl, by simp [HasCorner], by simp [HasCorner], by simp [HasCorner], by simp [HasCorner]⟩,
    by norm_num [triArea], ?_, by simp [HasCorner]⟩
  rintro ⟨p, q, -, i, j, k, t, u, v, hij, -, -, ht, hu, -⟩
  have hi : i < 1 := (List.getElem?_eq_some_iff.1 ht).1
  have hj : j < 1 := (List.getElem?_eq_some_iff.1 hu).1
  omega

/-- the hypotheses of `C102_invalid` are met -/
example : (1 : ℝ) ^ 2 / (2 * ((2 ^ 26 : ℕ) : ℝ) ^ 2) ≤ 1 / 2 ^ 52 := by norm_num

end NS.Props.FemMain

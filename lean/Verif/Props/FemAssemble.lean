/-
Property theorems C65-C67: the linear system of the finite element example.
-/
import Verif.FemEnergy
import Verif.Props.CG

set_option linter.unusedSectionVars false
set_option linter.unusedSimpArgs false

namespace NS.Props.Fem
open NS NS.World NS.Fem NS.MatOps NS.LawfulMat Matrix NS.Props.Mesh NS.Props.Shape
open NS.Props.LU (IsMat IsVec isVec_iff isMat_of)
open NS.Props.Simplex (area2 prepOf)
variable {T : Type} [Field T] [LinearOrder T] [IsStrictOrderedRing T] {M : Type} [MatOps M T] [LawfulMat M T] {n : Nat}

/-- the calls of the example before `handleMesh` (`fem.cpp:453-492`) on a mesh `w` built by `addVertex`/`addElement`:
`setupNeighbors()` (called by every loader), `setupBoundaries()` (not for the hypercube), `prepare()` -/
def Pipeline (w w' : World T) : Prop :=
  ∃ w1 w2, w.setupNeighbors = .ok w1 ∧ (w2 = w1 ∨ w1.setupBoundaries = .ok w2) ∧ w2.prepare 0 = .ok w'

/-- all corners of the elements have been added to the mesh -/
def Closed (w : World T) : Prop := ∀ a ∈ w.elements, ∀ q, some q ∈ w.vertsOf a → q ∈ w.vertices

theorem Pipeline.setup {w w' : World T} (h : Pipeline w w') : Setup w w' := by
  obtain ⟨w1, w2, h1, h2, h3⟩ := h
  rcases h2 with rfl | h2
  · exact .prepare 0 (.neighbors h1) h3
  · exact .prepare 0 (.boundaries (.neighbors h1) h2) h3

theorem boundaries_E {w w' : World T} (h : w.setupBoundaries = .ok w') : w'.E = w.E ∧ w'.elements = w.elements := by
  unfold World.setupBoundaries at h
  refine (Sat.of_ok (Q := fun w' : World T => w'.E = w.E ∧ w'.elements = w.elements) (E := fun _ => True) ?_ h)
  refine sat_forList (fun _ (u : World T) => u.E = w.E ∧ u.elements = w.elements) _ ⟨rfl, rfl⟩ ?_
  intro pre S suf u _ hu
  rcases hg : getIdx u.F S with er | e
  · trivial
  rw [ok_bind]
  split
  · refine sat_forRange (fun _ (u : World T) => u.E = w.E ∧ u.elements = w.elements) (Nat.zero_le 2) hu ?_
    intro j u _ _ hu
    refine sat_of_ok fun u' hr => ?_
    rw [bind_ok_iff] at hr
    obtain ⟨vp, -, hr⟩ := hr
    rw [bind_ok_iff] at hr
    obtain ⟨-, -, hr⟩ := hr
    rw [bind_ok_iff] at hr
    obtain ⟨p, -, hr⟩ := hr
    unfold World.orFlags at hr
    rw [bind_ok_iff] at hr
    obtain ⟨v, -, hr⟩ := hr
    obtain rfl := Except.ok.inj hr
    exact hu
  · exact hu

theorem prepare_all {u u' : World T} {P : Nat → Fin 3 → Fin 2 → T} (hnd : u.elements.Nodup)
    (hs : ∀ a ∈ u.elements, ∃ e, u.E[a]? = some e ∧ Props.Simplex.Shape e.simplex ∧ Props.Simplex.HasVerts e.simplex (P a))
    (h : u.prepare 0 = .ok u') :
    u'.elements = u.elements ∧ ∀ a ∈ u.elements, area2 (P a) ≠ 0 ∧ ∃ e, u'.E[a]? = some e ∧ e.simplex = prepOf (P a) := by
  unfold World.prepare at h
  refine (Sat.of_ok (Q := fun u' : World T => u'.elements = u.elements ∧ ∀ a ∈ u.elements, area2 (P a) ≠ 0 ∧ ∃ e, u'.E[a]? = some e ∧ e.simplex = prepOf (P a))
    (E := fun _ => True) ?_ h)
  refine (sat_forList (fun pre (v : World T) => v.elements = u.elements ∧ (∀ b, b ∉ pre → v.E[b]? = u.E[b]?) ∧
      ∀ a ∈ pre, area2 (P a) ≠ 0 ∧ ∃ e, v.E[a]? = some e ∧ e.simplex = prepOf (P a)) u.elements ⟨rfl, fun _ _ => rfl, fun a ha => absurd ha (by simp)⟩ ?_).mono
    (fun v hv => ⟨hv.1, hv.2.2⟩) (fun _ h => h)
  intro pre S suf v hsplit ⟨g1, g2, g3⟩
  have hS : S ∈ u.elements := by rw [hsplit]; simp
  have hSp : S ∉ pre := by
    have := hnd
    rw [hsplit, List.nodup_append] at this
    exact fun hh => this.2.2 S hh S (by simp) rfl
  obtain ⟨e, e1, e2, e3⟩ := hs S hS
  have hv : v.E[S]? = some e := by rw [g2 S hSp, e1]
  have hlt := lt_of_getElem? hv
  rw [getIdx_of_some hv, ok_bind, Props.Simplex.prepare_shape e2 e3]
  split
  · trivial
  · next hz =>
    rw [ok_bind]
    refine ⟨g1, fun b hb => ?_, fun a ha => ?_⟩
    · simp only
      rw [getElem?_set' _ _ _ _ hlt, if_neg (by rintro rfl; simp at hb)]
      exact g2 b (fun hh => hb (by simp [hh]))
    · simp only
      rw [getElem?_set' _ _ _ _ hlt]
      by_cases haS : a = S
      · subst haS
        exact ⟨hz, _, if_pos rfl, rfl⟩
      · rw [if_neg haS]
        rw [List.mem_append, List.mem_singleton] at ha
        exact g3 a (by tauto)

theorem Pipeline.simplex {w w' : World T} (hb : Built w) (hd : Distinct w) (h : Pipeline w w') :
    ∀ a ∈ w.elements, area2 (coords w a) ≠ 0 ∧ ∃ e, w'.E[a]? = some e ∧ e.simplex = prepOf (coords w a) := by
  obtain ⟨w1, w2, h1, h2, h3⟩ := h
  have hI := built_inv hb
  obtain ⟨k1, -, -, -⟩ := (setupNeighbors_spec (inv_nb hI hd)).of_ok h1
  have hfr := setupNeighbors_frame h1
  have hE2 : w2.E = w1.E ∧ w2.elements = w.elements := by
    rcases h2 with rfl | h2
    · exact ⟨rfl, k1.els_eq⟩
    · obtain ⟨x, y⟩ := boundaries_E h2
      exact ⟨x, y.trans k1.els_eq⟩
  have key := prepare_all (P := coords w) (by rw [hE2.2]; exact hI.end_) (fun a ha => ?_) h3
  · rw [hE2.2] at key
    exact key.2
  · rw [hE2.2] at ha
    obtain ⟨e, he⟩ : ∃ e, w.E[a]? = some e := ⟨_, List.getElem?_eq_getElem (hI.elt a ha)⟩
    obtain ⟨e', a1, a2, -⟩ := core_some hfr he
    refine ⟨e', by rw [hE2.1]; exact a1, ?_, by rw [a2]; exact hasVerts_coords hI ha he⟩
    obtain ⟨-, -, -, -, -, -, s7, s8⟩ := hI.shape a e he
    rw [a2]
    exact ⟨⟨_, hasVerts_coords hI ha he⟩, by rw [s7]; exact ⟨0, 0, 0, 0, rfl⟩, by rw [s8]; exact ⟨0, 0, 0, 0, rfl⟩⟩

theorem numbered_mem {w : World T} (h : Numbered w) {q : Nat} (hq : q ∈ w.vertices) :
    ∃ k v, w.vertices[k]? = some q ∧ k < w.vertices.length ∧ w.V[q]? = some v ∧ v.gi = k := by
  obtain ⟨k, hk⟩ := List.getElem?_of_mem hq
  obtain ⟨v, h1, h2⟩ := h k (lt_of_getElem? hk)
  unfold vertexAt at h1
  rw [hk] at h1
  exact ⟨k, v, hk, lt_of_getElem? hk, h1, h2⟩

/-- the degrees of freedom of every element are vertices of the mesh; the first two differ -/
structure DofsIn (order : Nat) (w w'' : World T) : Prop where
  elements : w''.elements = w.elements
  dof : ∀ a ∈ w.elements, ∃ e, w''.E[a]? = some e ∧ (∀ i < Shape.dof 2 order, ∃ q, e.dofs[i]? = some q ∧ q ∈ w''.vertices) ∧
    e.dofs[0]? ≠ e.dofs[1]?

theorem dofs_in {w w' w'' : World T} {order : Nat} (h : Built w) (hd : Distinct w) (hc : Closed w) (s : Setup w w')
    (ho : order = 1 ∨ order = 2) (e : Shape.prepareMesh order w' = .ok w'') : DofsIn order w w'' := by
  have hE := edges_of h hd s
  have hI := built_inv h
  have hcv : ∀ a ∈ w.elements, ∀ e : MElem T, w'.E[a]? = some e → e.verts = w.vertsOf a := by
    intro a ha e he
    obtain ⟨x, x', x1, x2, x3, -⟩ := hE.E a ha
    rw [he] at x2
    obtain rfl := Option.some.inj x2
    rw [x3, vertsOf_some x1]
  rcases ho with rfl | rfl
  · obtain ⟨w2, e2, hl⟩ := C56_order1 h hd s
    rw [e] at e2
    obtain rfl := Except.ok.inj e2
    refine ⟨hl.keep.2.2.1.trans hE.elements, fun a ha => ?_⟩
    obtain ⟨x, d, x1, x2, x3, x4⟩ := hl.dofs a (by rw [hE.elements]; exact ha)
    have hv := hcv a ha x x1
    refine ⟨_, x4, fun i hi => ?_, ?_⟩
    · simp only [Shape.dof] at hi
      have hq : d[i]? = some (d[i]'(by omega)) := List.getElem?_eq_getElem _
      refine ⟨_, hq, ?_⟩
      rw [hl.keep.2.1, hE.vertices]
      refine hc a ha _ ?_
      rw [← hv, x2]
      exact List.mem_map_of_mem (List.getElem_mem _)
    · have hnd := hd a ha
      rw [← hv, x2, List.nodup_map_iff (Option.some_injective _)] at hnd
      simp only
      intro hh
      have := (List.getElem?_inj (i := 0) (j := 1) (by omega) hnd).1 hh
      omega
  · obtain ⟨w2, m, e2, hq⟩ := C56_order2 h hd s
    rw [e] at e2
    obtain rfl := Except.ok.inj e2
    obtain ⟨news, n1, n2, n3, n4, n5⟩ := hq.vertices
    refine ⟨hq.elements.trans hE.elements, fun a ha => ?_⟩
    obtain ⟨x, c0, c1, c2, x1, x2, x3⟩ := hq.dofs a ha
    have hv := hcv a ha x x1
    have hcm : ∀ c, some c ∈ x.verts → c ∈ w''.vertices := by
      intro c hcx
      rw [n1, hE.vertices]
      exact List.mem_append_left _ (hc a ha c (by rw [← hv]; exact hcx))
    have hmm : ∀ i, m a i ∈ w''.vertices := by
      intro i
      rw [n1]
      exact List.mem_append_right _ ((n5 _).2 ⟨a, ha, i, rfl⟩)
    refine ⟨_, x3, fun i hi => ?_, ?_⟩
    · simp only [Shape.dof] at hi
      rw [x2] at hcm
      interval_cases i
      · exact ⟨c0, rfl, hcm _ (by simp)⟩
      · exact ⟨c1, rfl, hcm _ (by simp)⟩
      · exact ⟨c2, rfl, hcm _ (by simp)⟩
      · exact ⟨_, rfl, hmm 2⟩
      · exact ⟨_, rfl, hmm 0⟩
      · exact ⟨_, rfl, hmm 1⟩
    · have hnd := hd a ha
      rw [← hv, x2] at hnd
      simp only [List.getElem?_cons_zero, List.getElem?_cons_succ, ne_eq, Option.some.injEq]
      simp at hnd
      exact hnd.1.1

/-- the mesh on which the example assembles its system satisfies everything the assembling needs -/
theorem ready_of {w w' w'' : World T} {order : Nat} (h : Built w) (hd : Distinct w) (hc : Closed w) (hp : Pipeline w w')
    (ho : order = 1 ∨ order = 2) (e : Shape.prepareMesh order w' = .ok w'') (hv : w.vertices ≠ []) : Ready order w'' (coords w) := by
  have hs := hp.setup
  have hD := dofs_in h hd hc hs ho e
  have hN := C60_numbered h hd hs ho e
  have hE := edges_of h hd hs
  have hx : ∀ a ∈ w.elements, ∀ x x' : MElem T, w'.E[a]? = some x → w''.E[a]? = some x' → x'.simplex = x.simplex := by
    intro a ha x x' hx hx'
    rcases ho with rfl | rfl
    · obtain ⟨w2, e2, hl⟩ := C56_order1 h hd hs
      rw [e] at e2
      obtain rfl := Except.ok.inj e2
      obtain ⟨y, d, y1, -, -, y4⟩ := hl.dofs a (by rw [hE.elements]; exact ha)
      rw [hx'] at y4
      rw [hx] at y1
      obtain rfl := Option.some.inj y1
      obtain rfl := Option.some.inj y4
      rfl
    · obtain ⟨w2, m, e2, hq⟩ := C56_order2 h hd hs
      rw [e] at e2
      obtain rfl := Except.ok.inj e2
      obtain ⟨y, c0, c1, c2, y1, -, y3⟩ := hq.dofs a ha
      rw [hx'] at y3
      rw [hx] at y1
      obtain rfl := Option.some.inj y1
      obtain rfl := Option.some.inj y3
      rfl
  have hpos : 0 < w''.vertices.length := by
    have h0 : 0 < w.vertices.length := List.length_pos_iff.2 hv
    rcases ho with rfl | rfl
    · obtain ⟨w2, e2, hl⟩ := C56_order1 h hd hs
      rw [e] at e2
      obtain rfl := Except.ok.inj e2
      rw [hl.keep.2.1, hE.vertices]
      exact h0
    · obtain ⟨w2, m, e2, hq⟩ := C56_order2 h hd hs
      rw [e] at e2
      obtain rfl := Except.ok.inj e2
      obtain ⟨news, n1, -⟩ := hq.vertices
      rw [n1, List.length_append, hE.vertices]
      omega
  refine ⟨hpos, fun a ha => ?_, fun a ha => ?_, fun a ha i hi => ?_⟩
  · rw [hD.elements] at ha
    obtain ⟨-, x, x1, x2⟩ := hp.simplex h hd a ha
    obtain ⟨y, y1, -⟩ := hD.dof a ha
    exact ⟨y, y1, (hx a ha x y x1 y1).trans x2⟩
  · rw [hD.elements] at ha
    exact (hp.simplex h hd a ha).1
  · rw [hD.elements] at ha
    obtain ⟨y, y1, y2, -⟩ := hD.dof a ha
    obtain ⟨q, q1, q2⟩ := y2 i hi
    obtain ⟨k, v, -, k2, k3, k4⟩ := numbered_mem hN q2
    refine ⟨k, k2, ?_⟩
    unfold dofIndex
    rw [y1, Option.bind_some, q1, Option.bind_some, k3, ← k4]
    rfl

/-! ### C65 -/

/-- C65: on every mesh set up as in the example, assembling succeeds and gives, at `(r, c)`, the sum over all elements and all
pairs of their degrees of freedom numbered `r` and `c` of the entries of the element matrix (entries of absolute value at most
`eps` are dropped), and likewise for the right-hand side. -/
theorem C65_assemble {w w' w'' : World T} {order : Nat} (h : Built w) (hd : Distinct w) (hc : Closed w) (hp : Pipeline w w')
    (ho : order = 1 ∨ order = 2) (e : Shape.prepareMesh order w' = .ok w'') (hv : w.vertices ≠ []) (hn : w''.vertices.length = n)
    (eps : T) (src : List T → T) :
    ∃ (a : M) (b : List T) (A : Matrix (Fin n) (Fin n) T) (B : Fin n → T), assemble eps order src w'' = .ok (a, b) ∧ IsMat a n A ∧ IsVec b n B ∧
      (∀ r c : Fin n, A r c = (w.elements.map fun a => ∑ i ∈ Finset.range (3 * order), ∑ j ∈ Finset.range (3 * order),
        if dofIndex w'' a i = some (r : Nat) ∧ dofIndex w'' a j = some (c : Nat) then keep eps (energy order (coords w a) i j) else 0).sum) ∧
      (∀ r : Fin n, B r = (w.elements.map fun a => ∑ i ∈ Finset.range (3 * order),
        if dofIndex w'' a i = some (r : Nat) then keep eps (load order src (coords w a) i) else 0).sum) ∧ A.IsSymm := by
  have hr := ready_of h hd hc hp ho e hv
  have hD := dofs_in h hd hc hp.setup ho e
  obtain ⟨a, b, e1, e2, e3⟩ := assemble_ok (M := M) (eps := eps) ho src hr hn
  refine ⟨a, b, _, _, e1, e2, e3, fun r c => ?_, fun r => ?_, ?_⟩
  · rw [sysMat, Matrix.of_apply, hD.elements]; rfl
  · rw [sysVec, hD.elements]; rfl
  · rw [sysMat_eq]
    exact gather_symm _ _ (fun a i j => by rw [energy_comm]) _

/-! ### Properties of the assembled matrix -/

/-- no entry of an element matrix falls under the threshold except zeros -/
def NoneDropped (eps : T) (order : Nat) (w : World T) : Prop :=
  ∀ a ∈ w.elements, ∀ i < 3 * order, ∀ j < 3 * order, energy order (coords w a) i j ≠ 0 → eps < |energy order (coords w a) i j|

theorem keep_of {eps x : T} (h : x ≠ 0 → eps < |x|) : keep eps x = x := by
  unfold keep
  split
  · rfl
  · next hn =>
    by_contra hx
    exact hn (h fun h0 => hx h0.symm)

theorem sysMat_gather {eps : T} {order : Nat} {w w'' : World T} (ho : order = 1 ∨ order = 2) (he : w''.elements = w.elements)
    (hk : NoneDropped eps order w) :
    (sysMat eps order w'' (coords w) : Matrix (Fin n) (Fin n) T) =
      gather w'' (Shape.dof 2 order) (fun a i j => energy order (coords w a) i j) w.elements := by
  rw [sysMat_eq, he]
  have hd : Shape.dof 2 order = 3 * order := by rcases ho with rfl | rfl <;> rfl
  refine gather_congr _ _ fun a ha i hi j hj => keep_of (hk a ha i (by omega) j (by omega))

theorem valueOf_eq {w : World T} {x : Fin n → T} {a i : Nat} {k : Fin n} (h : dofIndex w a i = some (k : Nat)) : valueOf w x a i = x k := by
  unfold valueOf
  rw [h]
  simp

/-- C65: the quadratic form of the assembled matrix is never negative, and constant vectors are in its kernel. -/
theorem C65_semidefinite {w w' w'' : World T} {order : Nat} (h : Built w) (hd : Distinct w) (hc : Closed w) (hp : Pipeline w w')
    (ho : order = 1 ∨ order = 2) (e : Shape.prepareMesh order w' = .ok w'') (hv : w.vertices ≠ []) (hn : w''.vertices.length = n)
    {eps : T} (hk : NoneDropped eps order w) (src : List T → T) {a : M} {b : List T} (hs : assemble eps order src w'' = .ok (a, b)) :
    ∃ A : Matrix (Fin n) (Fin n) T, IsMat a n A ∧ A.IsSymm ∧ (∀ x, 0 ≤ x ⬝ᵥ A *ᵥ x) ∧ A *ᵥ 1 = 0 := by
  have hr := ready_of h hd hc hp ho e hv
  have hD := dofs_in h hd hc hp.setup ho e
  obtain ⟨a', b', e1, e2, -⟩ := assemble_ok (M := M) (eps := eps) ho src hr hn
  rw [hs] at e1
  obtain ⟨rfl, rfl⟩ := Prod.mk.inj (Except.ok.inj e1)
  rw [sysMat_gather ho hD.elements hk] at e2
  refine ⟨_, e2, ?_, fun x => ?_, ?_⟩
  · exact gather_symm _ _ (fun a i j => energy_comm order (coords w a) i j) w.elements
  · rw [gather_form]
    refine List.sum_nonneg fun y hy => ?_
    obtain ⟨c, hc, rfl⟩ := List.mem_map.1 hy
    exact (energy_pos ho (hr.area c (by rw [hD.elements]; exact hc)) _).1
  · funext r
    rw [gather_mulVec]
    refine List.sum_eq_zero fun y hy => ?_
    obtain ⟨c, hc, rfl⟩ := List.mem_map.1 hy
    refine Finset.sum_eq_zero fun i _ => ?_
    split
    · rw [← energy_row ho (coords w c) i]
      refine Finset.sum_congr rfl fun j hj => ?_
      obtain ⟨k, k1, k2⟩ := hr.dof c (by rw [hD.elements]; exact hc) j (Finset.mem_range.1 hj)
      rw [valueOf_eq (k := ⟨k, by omega⟩) k2]
      simp
    · rfl

/-! ### C67: the constrained system -/

/-- two degrees of freedom of the same element -/
def Linked (order : Nat) (w : World T) (r c : Nat) : Prop :=
  ∃ a ∈ w.elements, ∃ i < 3 * order, ∃ j < 3 * order, dofIndex w a i = some r ∧ dofIndex w a j = some c

/-- every vertex is connected through elements to a vertex of the strong boundary -/
def Anchored (order : Nat) (w : World T) : Prop :=
  ∀ r < w.vertices.length, ∃ s, Relation.ReflTransGen (Linked order w) r s ∧ OnBoundary w s

/-- the quadratic form vanishes only on vectors constant on connected parts -/
theorem gather_pos {order : Nat} {w w'' : World T} (ho : order = 1 ∨ order = 2) (he : w''.elements = w.elements)
    (hr : Ready order w'' (coords w)) (hn : w''.vertices.length = n) {x : Fin n → T}
    (h0 : x ⬝ᵥ gather w'' (Shape.dof 2 order) (fun a i j => energy order (coords w a) i j) w.elements *ᵥ x = 0)
    {r s : Nat} (hl : Relation.ReflTransGen (Linked order w'') r s) (hrn : r < n) : ∃ hs : s < n, x ⟨s, hs⟩ = x ⟨r, hrn⟩ := by
  have hdof : Shape.dof 2 order = 3 * order := by rcases ho with rfl | rfl <;> rfl
  rw [gather_form] at h0
  have hz : ∀ a ∈ w.elements, ∀ i < Shape.dof 2 order, valueOf w'' x a i = valueOf w'' x a 0 := by
    intro a ha
    refine (energy_pos ho (hr.area a (by rw [he]; exact ha)) (fun i => valueOf w'' x a i)).2 ?_
    have hnn : ∀ y ∈ w.elements.map (fun a => ∑ i ∈ Finset.range (Shape.dof 2 order), ∑ j ∈ Finset.range (Shape.dof 2 order),
        energy order (coords w a) i j * valueOf w'' x a i * valueOf w'' x a j), 0 ≤ y := by
      intro y hy
      obtain ⟨c, hc, rfl⟩ := List.mem_map.1 hy
      exact (energy_pos ho (hr.area c (by rw [he]; exact hc)) _).1
    exact List.all_zero_of_le_zero_le_of_sum_eq_zero hnn h0 (List.mem_map_of_mem (f := fun a => ∑ i ∈ Finset.range (Shape.dof 2 order), ∑ j ∈ Finset.range (Shape.dof 2 order),
        energy order (coords w a) i j * valueOf w'' x a i * valueOf w'' x a j) ha)
  induction hl with
  | refl => exact ⟨hrn, rfl⟩
  | tail _ hstep ih =>
    obtain ⟨ht, hx⟩ := ih
    obtain ⟨a, ha, i, hi, j, hj, d1, d2⟩ := hstep
    obtain ⟨k, k1, k2⟩ := hr.dof a ha j (by omega)
    rw [d2] at k2
    obtain rfl := Option.some.inj k2
    rw [he] at ha
    refine ⟨by omega, ?_⟩
    rw [← hx, ← valueOf_eq (x := x) (k := ⟨_, by omega⟩) d2, hz a ha j (by omega), ← hz a ha i (by omega), valueOf_eq (k := ⟨_, ht⟩) d1]

theorem numbered_inj {w : World T} (h : Numbered w) {a i j : Nat} {e : MElem T} (he : w.E[a]? = some e) {p q r : Nat}
    (hp : e.dofs[i]? = some p) (hq : e.dofs[j]? = some q) (mp : p ∈ w.vertices) (mq : q ∈ w.vertices)
    (hi : dofIndex w a i = some r) (hj : dofIndex w a j = some r) : p = q := by
  obtain ⟨k, v, k1, -, k3, k4⟩ := numbered_mem h mp
  obtain ⟨l, u, l1, -, l3, l4⟩ := numbered_mem h mq
  unfold dofIndex at hi hj
  rw [he, Option.bind_some, hp, Option.bind_some, k3, Option.map_some, k4] at hi
  rw [he, Option.bind_some, hq, Option.bind_some, l3, Option.map_some, l4] at hj
  obtain rfl := Option.some.inj hi
  obtain rfl := Option.some.inj hj
  rw [k1] at l1
  exact Option.some.inj l1

/-- the sum of the diagonal entries is positive -/
theorem diag_pos {w w' w'' : World T} {order : Nat} (h : Built w) (hd : Distinct w) (hc : Closed w) (hp : Pipeline w w')
    (ho : order = 1 ∨ order = 2) (e : Shape.prepareMesh order w' = .ok w'') (hv : w.vertices ≠ []) (hel : w.elements ≠ [])
    (hn : w''.vertices.length = n) :
    0 < ∑ i : Fin n, |(gather w'' (Shape.dof 2 order) (fun a i j => energy order (coords w a) i j) w.elements : Matrix (Fin n) (Fin n) T) i i| := by
  have hr := ready_of h hd hc hp ho e hv
  have hD := dofs_in h hd hc hp.setup ho e
  have hN := C60_numbered h hd hp.setup ho e
  have hdof : Shape.dof 2 order = 3 * order := by rcases ho with rfl | rfl <;> rfl
  have h1 : 1 < Shape.dof 2 order := by rcases ho with rfl | rfl <;> decide
  obtain ⟨a, ha⟩ := List.exists_mem_of_ne_nil _ hel
  have ha' : a ∈ w''.elements := by rw [hD.elements]; exact ha
  obtain ⟨r, r1, r2⟩ := hr.dof a ha' 0 (by omega)
  obtain ⟨s, s1, s2⟩ := hr.dof a ha' 1 h1
  obtain ⟨x, x1, x2, x3⟩ := hD.dof a ha
  obtain ⟨p, p1, p2⟩ := x2 0 (by omega)
  obtain ⟨q, q1, q2⟩ := x2 1 h1
  have hrs : r ≠ s := by
    rintro rfl
    have := numbered_inj hN x1 p1 q1 p2 q2 r2 s2
    rw [p1, q1, this] at x3
    exact x3 rfl
  refine lt_of_lt_of_le ?_ (Finset.single_le_sum (fun i _ => abs_nonneg _) (Finset.mem_univ (⟨r, by omega⟩ : Fin n)))
  rw [abs_pos]
  intro h0
  have hlink : Linked order w'' r s := ⟨a, ha', 0, by omega, 1, by omega, r2, s2⟩
  obtain ⟨hs, hx⟩ := gather_pos (x := Pi.single ⟨r, by omega⟩ 1) ho hD.elements hr hn (by
    rw [Matrix.mulVec_single_one, single_one_dotProduct]
    exact h0) (.single hlink) (by omega)
  rw [Pi.single_eq_same, Pi.single_eq_of_ne (by intro hh; exact hrs (Fin.ext_iff.1 hh).symm)] at hx
  exact zero_ne_one hx

open Classical in
/-- C67: on every mesh in which every vertex is connected to the strong boundary, the matrix of the example is symmetric positive
definite, its system has exactly one solution, and this is the function with the given boundary values that satisfies the
discrete equations at all other vertices. -/
theorem C67_system {w w' w'' : World T} {order : Nat} (h : Built w) (hd : Distinct w) (hc : Closed w) (hp : Pipeline w w')
    (ho : order = 1 ∨ order = 2) (e : Shape.prepareMesh order w' = .ok w'') (hel : w.elements ≠ [])
    (hn : w''.vertices.length = n) {eps : T} (hk : NoneDropped eps order w) (ha : Anchored order w'') (src g : List T → T) :
    ∃ (a : M) (b : List T) (A : Matrix (Fin n) (Fin n) T) (B : Fin n → T), system eps order src g w'' = .ok (a, b) ∧ IsMat a n A ∧ IsVec b n B ∧
      NS.CG.SPD A ∧ (∃! x, A *ᵥ x = B) ∧
      ∀ x : Fin n → T, A *ᵥ x = B ↔ ∀ (r : Fin n) v, vertexAt w'' r = some v →
        (v.flags &&& 1 ≠ 0 → x r = g v.pos) ∧
        (v.flags &&& 1 = 0 → (w.elements.map fun a => ∑ i ∈ Finset.range (3 * order), if dofIndex w'' a i = some (r : Nat) then
            ∑ j ∈ Finset.range (3 * order), energy order (coords w a) i j * valueOf w'' x a j else 0).sum =
          (w.elements.map fun a => ∑ i ∈ Finset.range (3 * order), if dofIndex w'' a i = some (r : Nat) then keep eps (load order src (coords w a) i) else 0).sum) := by
  have hv : w.vertices ≠ [] := by
    obtain ⟨a, ha⟩ := List.exists_mem_of_ne_nil _ hel
    have hI := built_inv h
    obtain ⟨x, hx⟩ : ∃ x, w.E[a]? = some x := ⟨_, List.getElem?_eq_getElem (hI.elt a ha)⟩
    intro h0
    obtain ⟨q, -, q1, -⟩ := hI.corner a ha x hx 0 (by omega)
    have := hc a ha q (by rw [vertsOf_some hx]; exact List.mem_of_getElem? q1)
    rw [h0] at this
    simp at this
  have hr := ready_of h hd hc hp ho e hv
  have hD := dofs_in h hd hc hp.setup ho e
  have hN := C60_numbered h hd hp.setup ho e
  have hdof : Shape.dof 2 order = 3 * order := by rcases ho with rfl | rfl <;> rfl
  have hn0 : 0 < n := by rw [← hn]; exact hr.pos
  obtain ⟨a, b, e1, e2, e3⟩ := assemble_ok (M := M) (eps := eps) ho src hr hn
  have hsum := diag_pos h hd hc hp ho e hv hel hn
  rw [sysMat_gather ho hD.elements hk] at e2
  obtain ⟨G, hG⟩ : ∃ G : Matrix (Fin n) (Fin n) T, G = gather w'' (Shape.dof 2 order) (fun a i j => energy order (coords w a) i j) w.elements := ⟨_, rfl⟩
  rw [← hG] at e2 hsum
  have havg := C60_avgMid hN hn hn0 e2
  have hpos : 0 < (∑ i, |G i i|) / n := div_pos hsum (by exact_mod_cast hn0)
  obtain ⟨a', b', f1, f2, f3⟩ := C60_constrain hN hn e2 e3 ((∑ i, |G i i|) / n) g
  obtain ⟨a2, b2, A2, B2, g1, g2, g3, g4, -⟩ := C60_solutions hN hn e2 e3 hpos.ne' g
  rw [f1] at g1
  obtain ⟨rfl, rfl⟩ := Prod.mk.inj (Except.ok.inj g1)
  have hA : A2 = reducedMat w'' ((∑ i, |G i i|) / n) G := by
    ext i j
    rw [← g2.val_eq, ← f2.val_eq]
  have hspd : NS.CG.SPD A2 := by
    rw [hA]
    refine C60_spd w'' hpos ?_ fun x hx hb => ?_
    · rw [hG]
      exact gather_symm _ _ (fun a i j => energy_comm order (coords w a) i j) w.elements
    · have hge : 0 ≤ x ⬝ᵥ G *ᵥ x := by
        rw [hG, gather_form]
        refine List.sum_nonneg fun y hy => ?_
        obtain ⟨c, hc, rfl⟩ := List.mem_map.1 hy
        exact (energy_pos ho (hr.area c (by rw [hD.elements]; exact hc)) _).1
      refine lt_of_le_of_ne hge fun h0 => hx ?_
      funext r
      obtain ⟨s, s1, s2⟩ := ha r (by rw [hn]; exact r.2)
      obtain ⟨hs, hxs⟩ := gather_pos ho hD.elements hr hn (x := x) (by rw [← hG]; exact h0.symm) s1 r.2
      rw [hb ⟨s, hs⟩ s2] at hxs
      exact hxs.symm
  refine ⟨a', b', A2, B2, ?_, g2, g3, hspd, ?_, fun x => ?_⟩
  · unfold system
    rw [e1, ok_bind, havg, ok_bind, f1]
  · have hinj : Function.Injective A2.mulVec := by
      intro x y hxy
      by_contra hne
      have := hspd.2 (x - y) (sub_ne_zero.2 hne)
      rw [Matrix.mulVec_sub, hxy, sub_self, dotProduct_zero] at this
      exact lt_irrefl _ this
    have hu := Matrix.mulVec_injective_iff_isUnit.1 hinj
    obtain ⟨x, hx⟩ := Matrix.mulVec_surjective_iff_isUnit.2 hu B2
    exact ⟨x, hx, fun y hy => hinj (hy.trans hx.symm)⟩
  · rw [g4 x]
    refine forall_congr' fun r => forall_congr' fun v => forall_congr' fun hv => and_congr Iff.rfl (imp_congr Iff.rfl ?_)
    rw [hG, gather_mulVec, sysVec, hD.elements, hdof]

/-- C67: solving with the preconditioned conjugate gradient method: unless a diagonal entry is at most the threshold of the
preconditioner or the zero vector already is the solution, at most `maxIter` iterations give a vector, and if `maxIter` is at
least the number of vertices the residual is below the tolerance. -/
theorem C67_solve_partial {w w' w'' : World T} {order : Nat} (h : Built w) (hd : Distinct w) (hc : Closed w) (hp : Pipeline w w')
    (ho : order = 1 ∨ order = 2) (e : Shape.prepareMesh order w' = .ok w'') (hel : w.elements ≠ [])
    (hn : w''.vertices.length = n) {eps : T} (hk : NoneDropped eps order w) (ha : Anchored order w'') (src g : List T → T)
    (jeps : T) {maxIter : Nat} (hm : 0 < maxIter) {tol : T} (ht : tol ≠ 0) :
    ∃ (a : M) (b : List T) (A : Matrix (Fin n) (Fin n) T) (B : Fin n → T), system eps order src g w'' = .ok (a, b) ∧ IsMat a n A ∧ IsVec b n B ∧
      (((∃ i, |A i i| ≤ jeps) ∧ solve (M := M) eps jeps order src g maxIter tol w'' = .error (.exc .singular)) ∨
       (B = 0 ∧ solve (M := M) eps jeps order src g maxIter tol w'' = .error .nonfinite) ∨
       ∃ x₁ x it, solve (M := M) eps jeps order src g maxIter tol w'' = .ok (x₁, it) ∧ IsVec x₁ n x ∧ it ≤ maxIter ∧ it ≤ n ∧
         (n ≤ maxIter → Props.CG.resSqr A B x < tol ^ 2)) := by
  obtain ⟨a, b, A, B, e1, e2, e3, e4, -⟩ := C67_system (M := M) h hd hc hp ho e hel hn hk ha src g
  refine ⟨a, b, A, B, e1, e2, e3, ?_⟩
  have hn0 : 0 < n := by
    obtain ⟨c, hc'⟩ := List.exists_mem_of_ne_nil _ hel
    have hD := dofs_in h hd hc hp.setup ho e
    obtain ⟨x, -, x2, -⟩ := hD.dof c hc'
    obtain ⟨q, -, hq⟩ := x2 0 (by rcases ho with rfl | rfl <;> decide)
    rw [← hn]
    exact List.length_pos_of_mem hq
  unfold solve
  rw [e1, ok_bind, e2.2.1, e2.2.2.1]
  obtain ⟨c, c1, c2⟩ := isMat_make M hn0
  obtain ⟨z, z1, z2⟩ := isVec_mk (T := T) n
  rw [c1, ok_bind, hn, z1]
  rcases Props.CG.C36_jacobi (AbsoluteValue.abs : AbsoluteValue T T) jeps e2 c2 with ⟨j1, r, j2, j3⟩ | ⟨j1, j2⟩
  · right
    have j4 := Props.CG.C36_jacobi_diagonal (AbsoluteValue.abs : AbsoluteValue T T) e2 c2 j2
    have hC : NS.CG.SPD (Matrix.diagonal fun i => (A i i)⁻¹) := by
      refine ⟨Matrix.diagonal_transpose _, fun v hv => ?_⟩
      have hdiag : ∀ i, 0 < (A i i)⁻¹ := fun i => by
        have := e4.2 (Pi.single i 1) (fun h0 => by have := congrFun h0 i; simp at this)
        rw [Matrix.mulVec_single_one, single_one_dotProduct] at this
        exact inv_pos.2 this
      simp only [Matrix.mulVec_diagonal, dotProduct]
      obtain ⟨i, hi⟩ := Function.ne_iff.1 hv
      refine Finset.sum_pos' (fun j _ => ?_) ⟨i, Finset.mem_univ _, ?_⟩
      · have := mul_nonneg (hdiag j).le (mul_self_nonneg (v j))
        nlinarith
      · have := mul_pos (hdiag i) (mul_self_pos.2 hi)
        nlinarith
    change _ = Except.ok r at j2
    have j2' : NS.CG.jacobi (fun x : T => |x|) jeps a c = .ok r := j2
    rw [j2', ok_bind, ok_bind]
    by_cases hB : B = 0
    · left
      exact ⟨hB, (Props.CG.C35_start_at_solution e2 j4 e3 z2 (by rw [hB, Matrix.mulVec_zero]) hm tol).1⟩
    · right
      obtain ⟨x₁, x, it, p1, p2, -, p4, p5, p6⟩ := Props.CG.C35_pcg_partial e2 j4 e3 z2 e4 hC (by rw [Matrix.mulVec_zero]; exact fun hh => hB hh.symm) hm ht
      exact ⟨x₁, x, it, p1, p2, p4, p5, p6⟩
  · left
    have j2' : NS.CG.jacobi (fun x : T => |x|) jeps a c = .error (.exc .singular) := j2
    refine ⟨j1, ?_⟩
    rw [j2']
    rfl

/-! ### Non-vacuity: the unit square in two triangles with quadratic elements -/

theorem square_pipeline {o : Nat} {w : World ℚ} (h : squareMesh o = .ok w) :
    ∃ w1, Pipeline NS.Props.Mesh.square w1 ∧ Shape.prepareMesh o w1 = .ok w := by
  unfold squareMesh at h
  simp only [bind_ok_iff] at h
  obtain ⟨w1, h1, w2, h2, w3, h3, h4⟩ := h
  exact ⟨w3, ⟨w1, w2, h1, .inr h2, h3⟩, h4⟩

theorem square_closed : Closed (NS.Props.Mesh.square : World ℚ) := by
  have : ∀ a ∈ (NS.Props.Mesh.square : World ℚ).elements, ∀ x ∈ (NS.Props.Mesh.square : World ℚ).vertsOf a,
      x ∈ (NS.Props.Mesh.square : World ℚ).vertices.map some := by decide
  intro a ha q hq
  simpa using this a ha _ hq

/-- the hypotheses of C65 and C67 hold for the square with order 2: nine degrees of freedom, one of them not on the boundary -/
example : ∃ w' w'' : World ℚ, Built (NS.Props.Mesh.square : World ℚ) ∧ Distinct (NS.Props.Mesh.square : World ℚ) ∧
    Closed (NS.Props.Mesh.square : World ℚ) ∧ Pipeline NS.Props.Mesh.square w' ∧ Shape.prepareMesh 2 w' = .ok w'' ∧
    (NS.Props.Mesh.square : World ℚ).elements ≠ [] ∧ w''.vertices.length = 9 ∧ NoneDropped 0 2 (NS.Props.Mesh.square : World ℚ) ∧
    Anchored 2 w'' ∧ ¬ OnBoundary w'' 5 := by
  have h2 : ((squareMesh 2).toOption.map fun w => (w.vertices.length, (List.range 9).map fun r => (vertexAt w r).map (·.flags))) =
      some (9, [some 1, some 1, some 1, some 1, some 3, some 2, some 3, some 3, some 3]) := by decide +kernel
  have h3 : ((squareMesh 2).toOption.map fun w => (decide (0 ∈ w.elements), dofIndex w 0 4, dofIndex w 0 0)) =
      some (true, some 5, some 0) := by decide +kernel
  rcases hw : squareMesh 2 with er | w
  · rw [hw] at h2; cases h2
  rw [hw] at h2 h3
  have h2 := Option.some.inj h2
  have h3 := Option.some.inj h3
  simp only [Prod.mk.injEq, decide_eq_true_eq] at h2 h3
  obtain ⟨w1, p, e⟩ := square_pipeline hw
  have hf : ∀ r < 9, (vertexAt w r).map (·.flags) = [some 1, some 1, some 1, some 1, some 3, some 2, some 3, some 3, some 3][r]! := by
    intro r hr
    rw [← h2.2, List.getElem!_eq_getElem?_getD]
    simp [hr]
  have hb : ∀ r < 9, r ≠ 5 → OnBoundary w r := by
    intro r hr h5
    have := hf r hr
    rcases hv : vertexAt w r with _ | v
    · rw [hv] at this; interval_cases r <;> simp at this
    · refine ⟨v, hv, ?_⟩
      rw [hv, Option.map_some] at this
      interval_cases r <;> simp at this <;> first | (exact absurd rfl h5) | (rw [this]; decide)
  refine ⟨w1, w, NS.Props.Mesh.square_built, by unfold Distinct; decide, square_closed, p, e, by decide, h2.1,
    fun _ _ _ _ _ _ h => abs_pos.2 h, fun r hr => ?_, ?_⟩
  · rw [h2.1] at hr
    by_cases h5 : r = 5
    · subst h5
      exact ⟨0, .single ⟨0, h3.1, 4, by omega, 0, by omega, h3.2⟩, hb 0 (by omega) (by omega)⟩
    · exact ⟨r, .refl, hb r hr h5⟩
  · rintro ⟨v, hv, h⟩
    have := hf 5 (by omega)
    rw [hv] at this
    simp at this
    rw [this] at h
    exact h (by decide)

end NS.Props.Fem

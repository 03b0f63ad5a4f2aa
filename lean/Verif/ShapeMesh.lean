/-
`PolyShapePolicy<T,2,Order>::prepareMesh`: loop invariants.
-/
import Verif.ShapeModel
import Verif.MeshBuild

set_option linter.unusedSectionVars false
set_option linter.unusedSimpArgs false

namespace NS
namespace Shape
open World
variable {T : Type} [Field T] [LinearOrder T]

/-- corners as a list of pointers that are not null -/
def cl (t : Fin 3 → Nat) : List Nat := [t 0, t 1, t 2]

/-- the mesh has neighbours set up and no DOFs yet; `c`: corners, `n`: edges, `f`: edge objects with end points `p`, `q` and
midpoint `mp` -/
structure Ready (w : World T) (c n : Nat → Fin 3 → Nat) (f : Nat → MEdge) (p q : Nat → Nat) (mp : Nat → List T) : Prop where
  nd : w.elements.Nodup
  elem : ∀ a ∈ w.elements, ∃ e, w.E[a]? = some e ∧ e.verts = arr (c a) ∧ e.nbrs = arr (n a) ∧ e.dofs = []
  edge : ∀ a ∈ w.elements, ∀ i, w.F[n a i]? = some (f (n a i)) ∧ (f (n a i)).verts = [some (p (n a i)), some (q (n a i))] ∧
    (f (n a i)).dofs = []
  mid : ∀ a ∈ w.elements, ∀ i, ∃ vp vq s, w.V[p (n a i)]? = some vp ∧ w.V[q (n a i)]? = some vq ∧
    Vec.addAssign vp.pos vq.pos = .ok s ∧ Vec.divScalar s 2 = .ok (mp (n a i))

variable {w0 : World T} {c n : Nat → Fin 3 → Nat} {f : Nat → MEdge} {p q : Nat → Nat} {mp : Nat → List T}

theorem arr_get (t : Fin 3 → Nat) (i : Fin 3) : (arr t)[(i : Nat)]? = some (some (t i)) := by
  fin_cases i <;> rfl

theorem deref_some (a : Nat) : deref (some a) = .ok a := rfl

theorem push_arr (t : Fin 3 → Nat) : (forList (arr t) ([] : List Nat) fun vp l => do
      let p ← deref vp
      return l ++ [p]) = (.ok (cl t) : R (List Nat)) := rfl
theorem push_two (a b : Nat) : (forList [some a, some b] ([] : List Nat) fun vp l => do
      let p ← deref vp
      return l ++ [p]) = (.ok [a, b] : R (List Nat)) := rfl

/-- after the first pass over the elements `pre` -/
structure P1 (w0 : World T) (c n : Nat → Fin 3 → Nat) (f : Nat → MEdge) (p q : Nat → Nat) (pre : List Nat) (M : List Nat) (w : World T) : Prop where
  V : w.V = w0.V
  vertices : w.vertices = w0.vertices
  elements : w.elements = w0.elements
  edges : w.edges = w0.edges
  E : ∀ a ∈ w0.elements, ∀ e, w0.E[a]? = some e → w.E[a]? = some { e with dofs := if a ∈ pre then cl (c a) else [] }
  F : ∀ a ∈ w0.elements, ∀ i, w.F[n a i]? = some (if n a i ∈ M then { f (n a i) with dofs := [p (n a i), q (n a i)] } else f (n a i))

theorem firstPass_ok (h : Ready w0 c n f p q mp) :
    ∃ w, firstPass w0 = .ok w ∧ ∃ M, P1 w0 c n f p q w0.elements M w ∧ ∀ a ∈ w0.elements, ∀ i, n a i ∈ M := by
  unfold firstPass
  refine (Sat.mono (sat_forList (E := noErr) (fun pre (w : World T) => ∃ M, P1 w0 c n f p q pre M w ∧ ∀ a ∈ pre, ∀ i, n a i ∈ M) w0.elements
    ⟨[], ⟨rfl, rfl, rfl, rfl, fun a ha e he => ?_, fun a ha i => ?_⟩, fun a ha => absurd ha (by simp)⟩ ?_) (fun w hw => hw) (fun e he => he)).ok_of
  · obtain ⟨e', e1, -, -, e4⟩ := h.elem a ha
    rw [he] at e1
    obtain rfl := Option.some.inj e1
    rw [he, if_neg (by simp), ← e4]
  · rw [if_neg (by simp)]; exact (h.edge a ha i).1
  · rintro pre S suf w hsplit ⟨M, h1, h2⟩
    have hS : S ∈ w0.elements := by rw [hsplit]; simp
    have hSpre : S ∉ pre := by
      have := h.nd
      rw [hsplit, List.nodup_append] at this
      intro hh
      exact this.2.2 S hh S (by simp) rfl
    obtain ⟨e, e1, e2, e3, e4⟩ := h.elem S hS
    have he := h1.E S hS e e1
    rw [if_neg hSpre] at he
    rw [getIdx_of_some he, ok_bind]
    simp only
    rw [e2, push_arr, ok_bind]
    refine Sat.mono (sat_forRange (E := noErr) (fun k (w : World T) => ∃ M, P1 w0 c n f p q (pre ++ [S]) M w ∧
      (∀ a ∈ pre, ∀ i, n a i ∈ M) ∧ ∀ i : Fin 3, (i : Nat) < k → n S i ∈ M) (Nat.zero_le 3) ⟨M, ?_, h2, fun i hi => absurd hi (by omega)⟩ ?_)
      ?_ (fun e he => he)
    · refine { h1 with E := fun a ha e' he' => ?_ }
      show (w.E.set S _)[a]? = _
      rw [getElem?_set' _ _ _ _ (lt_of_getElem? he)]
      by_cases haS : a = S
      · subst haS
        rw [e1] at he'
        obtain rfl := Option.some.inj he'
        rw [if_pos rfl, if_pos (by simp), e2]
      · rw [if_neg haS, h1.E a ha e' he']
        simp [haS]
    · rintro k w _ hk ⟨M, g1, g2, g3⟩
      have he' := g1.E S hS e e1
      rw [getIdx_of_some he', ok_bind]
      simp only
      rw [e3, getIdx_of_some (arr_get (n S) ⟨k, hk⟩), ok_bind]
      simp only [deref_some, ok_bind]
      have hF := g1.F S hS ⟨k, hk⟩
      rw [getIdx_of_some hF, ok_bind]
      obtain ⟨-, f2, f3⟩ := h.edge S hS ⟨k, hk⟩
      by_cases hM : n S ⟨k, hk⟩ ∈ M
      · simp only [hM, if_true]
        rw [if_pos (by simp)]
        refine ⟨M, g1, g2, fun i hi => ?_⟩
        by_cases hik : (i : Nat) = k
        · have : i = ⟨k, hk⟩ := Fin.ext hik
          rw [this]; exact hM
        · exact g3 i (by omega)
      · simp only [hM, if_false]
        rw [if_neg (by simp [f3]), f3, f2, show (forList [some (p (n S ⟨k, hk⟩)), some (q (n S ⟨k, hk⟩))] ([] : List Nat) fun vp l => do
            let p ← deref vp
            return l ++ [p]) = (.ok [p (n S ⟨k, hk⟩), q (n S ⟨k, hk⟩)] : R (List Nat)) from rfl, ok_bind]
        refine ⟨n S ⟨k, hk⟩ :: M, { g1 with F := fun a ha i => ?_ }, fun a ha i => .tail _ (g2 a ha i), fun i hi => ?_⟩
        · show (w.F.set (n S ⟨k, hk⟩) _)[n a i]? = _
          rw [getElem?_set' _ _ _ _ (lt_of_getElem? hF)]
          by_cases heq : n a i = n S ⟨k, hk⟩
          · rw [heq, if_pos rfl, if_pos (by simp), ← f2]
          · rw [if_neg heq, g1.F a ha i]
            simp [heq]
        · by_cases hik : (i : Nat) = k
          · have : i = ⟨k, hk⟩ := Fin.ext hik
            rw [this]; simp
          · exact .tail _ (g3 i (by omega))
    · rintro w ⟨M, g1, g2, g3⟩
      refine ⟨M, g1, fun a ha i => ?_⟩
      rcases List.mem_append.1 ha with ha | ha
      · exact g2 a ha i
      · rw [List.mem_singleton] at ha
        subst ha
        exact g3 i i.2

/-- flags of the vertex in the middle of an edge -/
def mflag (f : MEdge) : Nat := if f.e0 = none ∨ f.e1 = none then 3 else 2

/-- edge of a handled (element, face) pair -/
def ed (n : Nat → Fin 3 → Nat) (h : Nat × Fin 3) : Nat := n h.1 h.2

/-- after the pairs `H` have been handled; `es` are the edges met so far, in the order of their midpoints -/
structure P2 (w0 : World T) (c n : Nat → Fin 3 → Nat) (f : Nat → MEdge) (p q : Nat → Nat) (mp : Nat → List T) (H : List (Nat × Fin 3)) (es : List Nat) (w : World T) : Prop where
  nd : es.Nodup
  mem : ∀ ep, ep ∈ es ↔ ∃ h ∈ H, ed n h = ep
  vertices : w.vertices = w0.vertices ++ (List.range es.length).map (w0.V.length + ·)
  elements : w.elements = w0.elements
  edges : w.edges = w0.edges
  vlen : w.V.length = w0.V.length + es.length
  old : ∀ r < w0.V.length, w.V[r]? = w0.V[r]?
  new : ∀ (k ep : Nat), es[k]? = some ep → w.V[w0.V.length + k]? =
    some ⟨mflag (f ep), w0.vertices.length + k, mp ep, (H.filter fun h => ed n h = ep).map Prod.fst⟩
  E : ∀ a ∈ w0.elements, ∀ e, w0.E[a]? = some e → w.E[a]? =
    some { e with dofs := cl (c a) ++ (H.filter fun h => h.1 = a).map fun h => w0.V.length + es.idxOf (ed n h) }
  F : ∀ a ∈ w0.elements, ∀ i, w.F[n a i]? = some { f (n a i) with dofs := [p (n a i), q (n a i)] ++
    (if n a i ∈ es then [w0.V.length + es.idxOf (n a i)] else []) }

theorem set_last {α : Type} (l : List α) (x y : α) : (l ++ [x]).set l.length y = l ++ [y] := by simp
theorem get_last {α : Type} (l : List α) (x : α) : (l ++ [x])[l.length]? = some x := by simp

theorem orFlags_last (w : World T) (v : MVertex T) (fl : Nat) :
    ({ w with V := w.V ++ [v] } : World T).orFlags w.V.length fl = .ok { w with V := w.V ++ [{ v with flags := v.flags ||| fl }] } := by
  unfold World.orFlags
  rw [getIdx_of_some (get_last w.V v)]
  show Except.ok _ = Except.ok _
  simp only [set_last]

theorem addVertex_last (w : World T) (v : MVertex T) :
    ({ w with V := w.V ++ [v] } : World T).addVertex (some w.V.length) =
      .ok { w with V := w.V ++ [{ v with gi := w.vertices.length }], vertices := w.vertices ++ [w.V.length] } := by
  unfold World.addVertex
  rw [assert_true (by simp), ok_bind, deref_some, ok_bind, getIdx_of_some (get_last w.V v)]
  show Except.ok _ = Except.ok _
  simp only [set_last]

theorem handleEdge_ok (h : Ready w0 c n f p q mp) {H es} {w : World T} (hw : P2 w0 c n f p q mp H es w) (_hH : ∀ x ∈ H, x.1 ∈ w0.elements)
    {a : Nat} (ha : a ∈ w0.elements) (i : Fin 3) :
    ∃ w' es', handleEdge i a w = .ok w' ∧ P2 w0 c n f p q mp (H ++ [(a, i)]) es' w' := by
  unfold handleEdge
  obtain ⟨e0, e1, e2, e3, e4⟩ := h.elem a ha
  have he := hw.E a ha e0 e1
  have hF := hw.F a ha i
  obtain ⟨-, f2, f3⟩ := h.edge a ha i
  rw [getIdx_of_some he, ok_bind]
  simp only
  rw [e3, getIdx_of_some (arr_get (n a) i), ok_bind]
  simp only [deref_some, ok_bind]
  rw [getIdx_of_some hF, ok_bind]
  have hedlast : ed n (a, i) = n a i := rfl
  by_cases hm : n a i ∈ es
  · simp only [hm, if_true]
    rw [if_pos (by simp)]
    have hk := List.getElem?_idxOf hm
    have hv := hw.new _ _ hk
    have hlt := List.idxOf_lt_length_iff.2 hm
    rw [show getIdx ([p (n a i), q (n a i)] ++ [w0.V.length + es.idxOf (n a i)]) (([p (n a i), q (n a i)] ++ [w0.V.length + es.idxOf (n a i)]).length - 1)
      = .ok (w0.V.length + es.idxOf (n a i)) from rfl, ok_bind, getIdx_of_some hv, ok_bind]
    refine ⟨_, es, rfl, ⟨hw.nd, fun ep => ?_, hw.vertices, hw.elements, hw.edges, by simpa using hw.vlen, fun r hr => ?_, fun k ep hk' => ?_, fun b hb e he' => ?_, fun b hb j => ?_⟩⟩
    · rw [hw.mem]
      constructor
      · rintro ⟨x, hx, rfl⟩; exact ⟨x, by simp [hx], rfl⟩
      · rintro ⟨x, hx, rfl⟩
        rcases List.mem_append.1 hx with hx | hx
        · exact ⟨x, hx, rfl⟩
        · rw [List.mem_singleton] at hx
          subst hx
          exact (hw.mem _).1 hm
    · show (w.V.set _ _)[r]? = _
      rw [getElem?_set' _ _ _ _ (lt_of_getElem? hv), if_neg (by omega), hw.old r hr]
    · show (w.V.set _ _)[w0.V.length + k]? = _
      rw [getElem?_set' _ _ _ _ (lt_of_getElem? hv)]
      by_cases hkk : k = es.idxOf (n a i)
      · subst hkk
        rw [hk] at hk'
        obtain rfl := Option.some.inj hk'
        rw [if_pos rfl]
        simp [List.filter_append, hedlast]
      · rw [if_neg (by omega), hw.new k ep hk']
        have hne : n a i ≠ ep := by
          rintro rfl
          have hklt := lt_of_getElem? hk'
          have h1 : es[k] = n a i := by
            rw [List.getElem?_eq_getElem hklt] at hk'
            exact Option.some.inj hk'
          have h2 : es[es.idxOf (n a i)] = n a i := List.getElem_idxOf hlt
          exact hkk ((hw.nd.getElem_inj_iff).1 (h1.trans h2.symm))
        simp [List.filter_append, hedlast, hne]
    · show (w.E.set a _)[b]? = _
      rw [getElem?_set' _ _ _ _ (lt_of_getElem? he)]
      by_cases hba : b = a
      · subst hba
        rw [e1] at he'
        obtain rfl := Option.some.inj he'
        rw [if_pos rfl]
        simp [List.filter_append, hedlast, e3]
      · rw [if_neg hba, hw.E b hb e he']
        simp [List.filter_append, Ne.symm hba]
    · exact hw.F b hb j
  · simp only [hm, if_false]
    rw [if_neg (by simp), f2]
    obtain ⟨vp, vq, s, m1, m2, m3, m4⟩ := h.mid a ha i
    have m1' : w.V[p (n a i)]? = some vp := by rw [hw.old _ (lt_of_getElem? m1)]; exact m1
    have m2' : w.V[q (n a i)]? = some vq := by rw [hw.old _ (lt_of_getElem? m2)]; exact m2
    rw [show getIdx [some (p (n a i)), some (q (n a i))] 0 = .ok (some (p (n a i))) from rfl, ok_bind]
    simp only [deref_some, ok_bind]
    rw [getIdx_of_some m1', ok_bind, show getIdx [some (p (n a i)), some (q (n a i))] 1 = .ok (some (q (n a i))) from rfl, ok_bind]
    simp only [deref_some, ok_bind]
    rw [getIdx_of_some m2', ok_bind, m3, ok_bind, m4, ok_bind]
    have hnew : (w.newVertex (mp (n a i))) = ({ w with V := w.V ++ [⟨0, 0, mp (n a i), []⟩] }, w.V.length) := rfl
    simp only [hnew]
    rw [orFlags_last, ok_bind]
    have hflag : (if (f (n a i)).e0 = none ∨ (f (n a i)).e1 = none then
        ({ w with V := w.V ++ [⟨0 ||| 2, 0, mp (n a i), []⟩] } : World T).orFlags w.V.length 1
        else pure { w with V := w.V ++ [⟨0 ||| 2, 0, mp (n a i), []⟩] }) =
        .ok { w with V := w.V ++ [⟨mflag (f (n a i)), 0, mp (n a i), []⟩] } := by
      unfold mflag
      split
      · rw [orFlags_last]; simp
      · simp only [Nat.zero_or]; rfl
    rw [hflag, ok_bind, addVertex_last, ok_bind, getIdx_of_some (get_last w.V _), ok_bind]
    simp only [set_last]
    have hnd : (es ++ [n a i]).Nodup := by
      rw [List.nodup_append]
      exact ⟨hw.nd, by simp, fun x hx y hy => by rw [List.mem_singleton] at hy; rintro rfl; exact hm (hy ▸ hx)⟩
    have hidx : ∀ x ∈ H, (es ++ [n a i]).idxOf (ed n x) = es.idxOf (ed n x) := fun x hx =>
      List.idxOf_append_of_mem ((hw.mem _).2 ⟨x, hx, rfl⟩)
    have hidxl : (es ++ [n a i]).idxOf (n a i) = es.length := by
      rw [List.idxOf_append_of_notMem hm]; simp
    refine ⟨_, es ++ [n a i], rfl, ⟨hnd, fun ep => ?_, ?_, hw.elements, hw.edges, ?_, fun r hr => ?_, fun k ep hk' => ?_, fun b hb e he' => ?_, fun b hb j => ?_⟩⟩
    · rw [List.mem_append, hw.mem, List.mem_singleton]
      constructor
      · rintro (⟨x, hx, rfl⟩ | rfl)
        · exact ⟨x, by simp [hx], rfl⟩
        · exact ⟨(a, i), by simp, rfl⟩
      · rintro ⟨x, hx, rfl⟩
        rcases List.mem_append.1 hx with hx | hx
        · exact .inl ⟨x, hx, rfl⟩
        · rw [List.mem_singleton] at hx
          subst hx
          exact .inr rfl
    · show w.vertices ++ [w.V.length] = _
      rw [hw.vertices, hw.vlen, List.length_append, List.length_singleton, List.range_succ, List.map_append, List.append_assoc]; rfl
    · show (w.V ++ [_]).length = _
      rw [List.length_append, hw.vlen, List.length_append]; simp; omega
    · show (w.V ++ [_])[r]? = _
      rw [List.getElem?_append_left (by rw [hw.vlen]; omega), hw.old r hr]
    · show (w.V ++ [_])[w0.V.length + k]? = _
      by_cases hkl : k < es.length
      · rw [List.getElem?_append_left (by rw [hw.vlen]; omega)]
        rw [List.getElem?_append_left hkl] at hk'
        rw [hw.new k ep hk']
        have hne : n a i ≠ ep := by
          rintro rfl
          exact hm (List.mem_of_getElem? hk')
        simp [List.filter_append, hedlast, hne]
      · have hkl' := lt_of_getElem? hk'
        rw [List.length_append, List.length_singleton] at hkl'
        obtain rfl : k = es.length := by omega
        rw [get_last] at hk'
        obtain rfl := Option.some.inj hk'
        rw [← hw.vlen, get_last]
        have hnone : H.filter (fun x => ed n x = n a i) = [] := by
          rw [List.filter_eq_nil_iff]
          intro x hx hh
          exact hm ((hw.mem _).2 ⟨x, hx, by simpa using hh⟩)
        simp [List.filter_append, hedlast, hnone, hw.vertices]
    · show (w.E.set a _)[b]? = _
      rw [getElem?_set' _ _ _ _ (lt_of_getElem? he)]
      have hmap : ∀ b, ((H.filter fun x => x.1 = b).map fun x => w0.V.length + (es ++ [n a i]).idxOf (ed n x)) =
          (H.filter fun x => x.1 = b).map fun x => w0.V.length + es.idxOf (ed n x) := by
        intro b
        refine List.map_congr_left fun x hx => ?_
        rw [hidx x (List.mem_filter.1 hx).1]
      by_cases hba : b = a
      · subst hba
        rw [e1] at he'
        obtain rfl := Option.some.inj he'
        rw [if_pos rfl, List.filter_append, List.map_append, hmap]
        simp [hedlast, e3, hidxl, hw.vlen]
      · rw [if_neg hba, hw.E b hb e he', List.filter_append, List.map_append, hmap]
        simp [Ne.symm hba]
    · show (w.F.set (n a i) _)[n b j]? = _
      rw [getElem?_set' _ _ _ _ (lt_of_getElem? hF)]
      by_cases heq : n b j = n a i
      · rw [heq, if_pos rfl, if_pos (by simp), hidxl, hw.vlen]; simp [f2]
      · rw [if_neg heq, hw.F b hb j]
        by_cases hbm : n b j ∈ es
        · rw [if_pos hbm, if_pos (by simp [hbm]), List.idxOf_append_of_mem hbm]
        · rw [if_neg hbm, if_neg (by simp [hbm, heq])]

/-- the order in which `prepareMesh` visits the faces -/
def visits (els : List Nat) : List (Nat × Fin 3) := els.flatMap fun a => [(a, 2), (a, 0), (a, 1)]

theorem prepareMesh2_ok (h : Ready w0 c n f p q mp) :
    ∃ w es, prepareMesh 2 w0 = .ok w ∧ P2 w0 c n f p q mp (visits w0.elements) es w := by
  unfold prepareMesh
  obtain ⟨w1, e1, M, h1, hM⟩ := firstPass_ok h
  rw [e1, ok_bind, if_pos rfl]
  have h0 : P2 w0 c n f p q mp [] [] w1 := by
    refine ⟨List.nodup_nil, fun ep => by simp, by simpa using h1.vertices, h1.elements, h1.edges, by simpa using congrArg List.length h1.V,
      fun r _ => by rw [h1.V], fun k ep hk => by simp at hk, fun a ha e he => ?_, fun a ha i => ?_⟩
    · rw [h1.E a ha e he, if_pos ha]; simp
    · rw [h1.F a ha i, if_pos (hM a ha i)]; simp
  have hvis : ∀ pre suf, w0.elements = pre ++ suf → ∀ x ∈ visits pre, x.1 ∈ w0.elements := by
    intro pre suf hs x hx
    simp only [visits, List.mem_flatMap] at hx
    obtain ⟨b, hb, hx⟩ := hx
    have : b ∈ w0.elements := by rw [hs]; simp [hb]
    simp at hx
    rcases hx with rfl | rfl | rfl <;> exact this
  have key : Sat (forList w1.elements w1 fun ep w => do
      let w ← handleEdge 2 ep w
      let w ← handleEdge 0 ep w
      handleEdge 1 ep w) (fun w => ∃ es, P2 w0 c n f p q mp (visits w0.elements) es w) noErr := by
    rw [h1.elements]
    refine sat_forList (E := noErr) (fun pre (w : World T) => ∃ es, P2 w0 c n f p q mp (visits pre) es w) w0.elements ⟨[], h0⟩ ?_
    rintro pre S suf w hsplit ⟨es, hw⟩
    have hS : S ∈ w0.elements := by rw [hsplit]; simp
    have hH := hvis pre _ hsplit
    obtain ⟨w2, es2, a1, a2⟩ := handleEdge_ok h hw hH hS 2
    have hH2 : ∀ x ∈ visits pre ++ [(S, 2)], x.1 ∈ w0.elements := by
      intro x hx
      rcases List.mem_append.1 hx with hx | hx
      · exact hH x hx
      · rw [List.mem_singleton] at hx; subst hx; exact hS
    obtain ⟨w3, es3, b1, b2⟩ := handleEdge_ok h a2 hH2 hS 0
    have hH3 : ∀ x ∈ visits pre ++ [(S, 2)] ++ [(S, 0)], x.1 ∈ w0.elements := by
      intro x hx
      rcases List.mem_append.1 hx with hx | hx
      · exact hH2 x hx
      · rw [List.mem_singleton] at hx; subst hx; exact hS
    obtain ⟨w4, es4, c1, c2⟩ := handleEdge_ok h b2 hH3 hS 1
    simp only [Fin.val_zero, Fin.val_one, Fin.val_two] at a1 b1 c1
    rw [a1, ok_bind, b1, ok_bind, c1]
    refine ⟨es4, ?_⟩
    have : visits (pre ++ [S]) = visits pre ++ [(S, 2)] ++ [(S, 0)] ++ [(S, 1)] := by simp [visits]
    rw [this]; exact c2
  obtain ⟨w, e, es, hw⟩ := key.ok_of
  exact ⟨w, es, e, hw⟩

end Shape
end NS

/-
Property theorems C81: loading a Wavefront OBJ file.
-/
import Verif.ObjLoaderModel
import Verif.Props.Loader

set_option linter.unusedSectionVars false
set_option linter.unusedSimpArgs false

namespace NS.Props.ObjLoader
open NS NS.World NS.ObjLoader NS.Props.Loader NS.Props.Mesh
variable {T : Type} [Field T] [LinearOrder T]

/-- the points of a shape: every group of three coordinates, projected to the coordinates `xI` and `yI` -/
def points (yI xI : Nat) : List T → List (T × T)
  | a :: b :: c :: l => ([a, b, c].getD xI 0, [a, b, c].getD yI 0) :: points yI xI l
  | _ => []

/-- the triangles of a shape: every group of three indices -/
def triangles : List Nat → List (Nat × Nat × Nat)
  | a :: b :: c :: l => (a, b, c) :: triangles l
  | _ => []

theorem points_length (yI xI : Nat) : ∀ l : List T, (points yI xI l).length = l.length / 3
  | a :: b :: c :: l => by
    rw [points, List.length_cons, points_length yI xI l]; simp only [List.length_cons]; omega
  | [] => by simp [points]
  | [_] => by simp [points]
  | [_, _] => by simp [points]

theorem triangles_length : ∀ l : List Nat, (triangles l).length = l.length / 3
  | a :: b :: c :: l => by
    rw [triangles, List.length_cons, triangles_length l]; simp only [List.length_cons]; omega
  | [] => rfl
  | [_] => by simp [triangles]
  | [_, _] => by simp [triangles]

theorem triangles_get : ∀ (l : List Nat) (i : Nat) (t : Nat × Nat × Nat), (triangles l)[i]? = some t →
    l[3 * i]? = some t.1 ∧ l[3 * i + 1]? = some t.2.1 ∧ l[3 * i + 2]? = some t.2.2
  | a :: b :: c :: l, 0, t, h => by
    simp [triangles] at h; subst h; exact ⟨rfl, rfl, rfl⟩
  | a :: b :: c :: l, i + 1, t, h => by
    rw [triangles, List.getElem?_cons_succ] at h
    have := triangles_get l i t h
    have e : ∀ k, (a :: b :: c :: l)[3 * (i + 1) + k]? = l[3 * i + k]? := by
      intro k
      rw [show 3 * (i + 1) + k = 3 * i + k + 1 + 1 + 1 by ring]; rfl
    exact ⟨(e 0).trans this.1, (e 1).trans this.2.1, (e 2).trans this.2.2⟩
  | [], i, t, h => by simp [triangles] at h
  | [_], i, t, h => by simp [triangles] at h
  | [_, _], i, t, h => by simp [triangles] at h

theorem points_get (yI xI : Nat) (hx : xI < 3) (hy : yI < 3) : ∀ (l : List T) (i : Nat) (p : T × T), (points yI xI l)[i]? = some p →
    l[3 * i + xI]? = some p.1 ∧ l[3 * i + yI]? = some p.2
  | a :: b :: c :: l, 0, p, h => by
    simp [points] at h; subst h
    have e : ∀ k, k < 3 → (a :: b :: c :: l)[3 * 0 + k]? = some ([a, b, c][k]?.getD 0) := by
      intro k hk
      have : k = 0 ∨ k = 1 ∨ k = 2 := by omega
      rcases this with rfl | rfl | rfl <;> rfl
    exact ⟨e xI hx, e yI hy⟩
  | a :: b :: c :: l, i + 1, p, h => by
    rw [points, List.getElem?_cons_succ] at h
    have := points_get yI xI hx hy l i p h
    have e : ∀ k, (a :: b :: c :: l)[3 * (i + 1) + k]? = l[3 * i + k]? := by
      intro k
      rw [show 3 * (i + 1) + k = 3 * i + k + 1 + 1 + 1 by ring]; rfl
    exact ⟨(e _).trans this.1, (e _).trans this.2⟩
  | [], i, p, h => by simp [points] at h
  | [_], i, p, h => by simp [points] at h
  | [_, _], i, p, h => by simp [points] at h

theorem forList_take_succ {α σ : Type} {f : α → σ → R σ} {l : List α} {k : Nat} {a : α} {s s' : σ} (ha : l[k]? = some a)
    (h : forList (l.take k) s f = .ok s') : forList (l.take (k + 1)) s f = f a s' := by
  rw [List.take_add_one, ha, forList_append, h, ok_bind]
  simp only [Option.toList, forList]
  cases f a s' <;> rfl

theorem addVertices_ok {yI xI : Nat} (hx : xI < 3) (hy : yI < 3) (s : Shape T) :
    Sat (addVertices yI xI s World.empty) (fun w => forList (points yI xI s.positions) World.empty addV = .ok w) noErr := by
  unfold addVertices
  refine (sat_forRange (fun k w => forList ((points yI xI s.positions).take k) World.empty addV = .ok w) (Nat.zero_le _) rfl ?_).mono ?_ (fun _ h => h)
  · intro k w _ hk hw
    have hlt : k < (points yI xI s.positions).length := by rw [points_length]; exact hk
    have hp : (points yI xI s.positions)[k]? = some ((points yI xI s.positions)[k]) := by simp [hlt]
    obtain ⟨e1, e2⟩ := points_get yI xI hx hy _ _ _ hp
    rw [getIdx_of_some e1, ok_bind, getIdx_of_some e2, ok_bind]
    rw [forList_take_succ hp hw]
    have := addPoint_eq w (points yI xI s.positions)[k].1 (points yI xI s.positions)[k].2
    simp only
    rw [this]
    exact addV_eq _ _
  · intro w hw
    rwa [List.take_of_length_le (by rw [points_length])] at hw

/-- all corner numbers of a triangle are numbers of points -/
def InRange (n : Nat) (t : Nat × Nat × Nat) : Prop := t.1 < n ∧ t.2.1 < n ∧ t.2.2 < n

theorem corners_ok {s : Shape T} {w : World T} (hv : w.vertices = List.range (s.positions.length / 3)) {i : Nat} {t : Nat × Nat × Nat}
    (ht : (triangles s.indices)[i]? = some t) :
    Sat (corners s w i) (fun vs => vs = [some t.1, some t.2.1, some t.2.2] ∧ InRange (s.positions.length / 3) t)
      (fun e => e = .exc .loadObjError ∧ ¬ InRange (s.positions.length / 3) t) := by
  obtain ⟨h0, h1, h2⟩ := triangles_get _ _ _ ht
  have hg : ∀ k, k < s.positions.length / 3 → getIdx w.vertices k = .ok k := by
    intro k hk; exact getIdx_of_some (by rw [hv]; simp [hk])
  unfold corners
  rw [forRange_step (by omega), getIdx_of_some (i := 3 * i + 0) h0, ok_bind]
  by_cases c0 : s.positions.length / 3 ≤ t.1
  · rw [throwIf_true _ c0]; exact ⟨rfl, fun h => by have := h.1; omega⟩
  rw [throwIf_false _ c0, ok_bind, hg _ (by omega), ok_bind, setIdx_eq _ (by simp), ok_bind]
  rw [forRange_step (by omega), getIdx_of_some h1, ok_bind]
  by_cases c1 : s.positions.length / 3 ≤ t.2.1
  · rw [throwIf_true _ c1]; exact ⟨rfl, fun h => by have := h.2.1; omega⟩
  rw [throwIf_false _ c1, ok_bind, hg _ (by omega), ok_bind, setIdx_eq _ (by simp), ok_bind]
  rw [forRange_step (by omega), getIdx_of_some h2, ok_bind]
  by_cases c2 : s.positions.length / 3 ≤ t.2.2
  · rw [throwIf_true _ c2]; exact ⟨rfl, fun h => by have := h.2.2; omega⟩
  rw [throwIf_false _ c2, ok_bind, hg _ (by omega), ok_bind, setIdx_eq _ (by simp), ok_bind, forRange_empty (by omega)]
  exact ⟨rfl, by unfold InRange; omega⟩

theorem addElements_ok {s : Shape T} {w : World T} (hv : w.vertices = List.range w.V.length) (hn : w.V.length = s.positions.length / 3) :
    Sat (addElements s w) (fun w' => forList (triangles s.indices) w addE = .ok w' ∧ ∀ t ∈ triangles s.indices, InRange (s.positions.length / 3) t)
      (fun e => e = .exc .loadObjError ∧ ∃ t ∈ triangles s.indices, ¬ InRange (s.positions.length / 3) t) := by
  unfold addElements
  refine (sat_forRange (fun k w' => forList ((triangles s.indices).take k) w addE = .ok w' ∧ w'.vertices = w.vertices ∧ w'.V.length = w.V.length ∧
    ∀ t ∈ (triangles s.indices).take k, InRange (s.positions.length / 3) t) (Nat.zero_le _) ⟨rfl, rfl, rfl, by simp⟩ ?_).mono ?_ (fun _ h => h)
  · rintro k w' _ hk ⟨i1, i2, i3, i4⟩
    have hlt : k < (triangles s.indices).length := by rw [triangles_length]; exact hk
    have hp : (triangles s.indices)[k]? = some ((triangles s.indices)[k]) := by simp [hlt]
    rcases hr : corners s w' k with er | vs
    · obtain ⟨e1, e2⟩ := (corners_ok (by rw [i2, hv, hn]) hp).of_error hr
      exact ⟨e1, _, List.getElem_mem hlt, e2⟩
    · obtain ⟨rfl, hin⟩ := (corners_ok (by rw [i2, hv, hn]) hp).of_ok hr
      rw [ok_bind]
      obtain ⟨w2, e1, e2, -, -, e5, -⟩ := (addE_spec (triangles s.indices)[k] w' (by rw [i3, hn]; exact hin.1) (by rw [i3, hn]; exact hin.2.1)
        (by rw [i3, hn]; exact hin.2.2)).ok_of
      have e1' := e1
      unfold addE at e1'
      simp only
      rw [e1']
      refine ⟨?_, by rw [e2, i2], by rw [e5, i3], ?_⟩
      · rw [forList_take_succ hp i1]; exact e1
      · intro t ht
        rw [List.take_add_one, hp, List.mem_append] at ht
        rcases ht with ht | ht
        · exact i4 t ht
        · simp at ht; rw [ht]; exact hin
  · rintro w' ⟨h1, -, -, h4⟩
    rw [List.take_of_length_le (by rw [triangles_length])] at h1 h4
    exact ⟨h1, h4⟩

/-- C81: a file whose first shape has an index outside its points is rejected; every other file loads the mesh that the mesh functions
build from the points and triangles of the first shape. -/
theorem C81_load {yI xI : Nat} (hx : xI < 3) (hy : yI < 3) (s : Shape T) (more : List (Shape T)) :
    ((∃ t ∈ triangles s.indices, ¬ InRange (points yI xI s.positions).length t) → load yI xI (s :: more) = .error (.exc .loadObjError)) ∧
    ((∀ t ∈ triangles s.indices, InRange (points yI xI s.positions).length t) →
      load yI xI (s :: more) = mesh (points yI xI s.positions) (triangles s.indices) >>= World.setupNeighbors) := by
  rw [points_length]
  obtain ⟨w, hw, hw'⟩ := (addVertices_ok hx hy s).ok_of
  obtain ⟨w0, k1, k2, k3, -⟩ := addV_vertices (points yI xI s.positions) (World.empty : World T) rfl
  obtain rfl : w = w0 := Except.ok.inj (hw'.symm.trans k1)
  have hN : w.V.length = s.positions.length / 3 := by rw [k2]; simp [World.empty, points_length]
  have key := addElements_ok k3 hN
  unfold load
  simp only
  rw [hw, ok_bind]
  constructor
  · rintro ⟨t, ht, hbad⟩
    rcases hr : addElements s w with er | w'
    · rw [(key.of_error hr).1]; rfl
    · exact absurd ((key.of_ok hr).2 t ht) hbad
  · intro hall
    rcases hr : addElements s w with er | w'
    · obtain ⟨-, t, ht, hbad⟩ := key.of_error hr
      exact absurd (hall t ht) hbad
    · rw [mesh_eq, hw', ok_bind, ok_bind, (key.of_ok hr).1, ok_bind]

/-- C81: what is loaded, for triangles with three different corners: vertex `k` is the `k`-th point, element `k` the `k`-th triangle, with the
face adjacency of C51; or the exception of C51 if three triangles share a face. -/
theorem C81_mesh {yI xI : Nat} (hx : xI < 3) (hy : yI < 3) (s : Shape T) (more : List (Shape T))
    (hr : ∀ t ∈ triangles s.indices, InRange (points yI xI s.positions).length t)
    (hd : ∀ t ∈ triangles s.indices, t.1 ≠ t.2.1 ∧ t.1 ≠ t.2.2 ∧ t.2.1 ≠ t.2.2) :
    ∃ w : World T, w.vertices = List.range (points yI xI s.positions).length ∧ w.elements = List.range (triangles s.indices).length ∧
      (∀ (k : Nat) (x y : T), (points yI xI s.positions)[k]? = some (x, y) → ∃ v, w.V[k]? = some v ∧ v.pos = [x, y] ∧ v.flags = 0 ∧ v.gi = k) ∧
      (∀ (k p q r : Nat), (triangles s.indices)[k]? = some (p, q, r) → w.vertsOf k = [some p, some q, some r]) ∧
      (¬ Overshared w → ∃ w', load yI xI (s :: more) = .ok w' ∧ FaceAdjacency w w') ∧
      (Overshared w → load yI xI (s :: more) = .error (.exc .tooManySharedFaces)) := by
  obtain ⟨w, h1, h2, h3, h4, h5, h6⟩ := C59_mesh (points yI xI s.positions) (triangles s.indices) hr
  rw [(C81_load hx hy s more).2 hr, h1, ok_bind]
  have hD : Distinct w := by
    intro a ha
    rw [h4, List.mem_range] at ha
    have he : (triangles s.indices)[a]? = some ((triangles s.indices)[a]) := by simp [ha]
    have := hd _ (List.getElem_mem ha)
    rw [h6 a _ _ _ he]
    simp [this.1, this.2.1, this.2.2]
  exact ⟨w, h3, h4, h5, h6, (C51_setupNeighbors h2 hD).1, (C51_setupNeighbors h2 hD).2⟩

/-- C81: shapes after the first have no effect, a file without shapes gives the empty mesh, and a file the parser rejects an exception. -/
theorem C81_other (yI xI : Nat) : (∀ (s : Shape T) more, load yI xI (s :: more) = load yI xI [s]) ∧
    load yI xI ([] : List (Shape T)) = .ok World.empty ∧ loadParsed yI xI (none : Option (List (Shape T))) = .error (.exc .loadObjError) ∧
    ∀ l : List (Shape T), loadParsed yI xI (some l) = load yI xI l := ⟨fun _ _ => rfl, rfl, rfl, fun _ => rfl⟩

/-! A square of two triangles in the x-z plane (`yI = 2`) with a spare coordinate and index at the end, and a second shape. -/
def exShape : Shape ℚ := ⟨[0, 9, 0, 1, 9, 0, 0, 9, 1, 1, 9, 1, 7], [0, 1, 2, 1, 3, 2, 5]⟩

example : points 2 0 exShape.positions = [(0, 0), (1, 0), (0, 1), (1, 1)] ∧ triangles exShape.indices = [(0, 1, 2), (1, 3, 2)] ∧
    (∀ t ∈ triangles exShape.indices, InRange 4 t) ∧ ∀ t ∈ triangles exShape.indices, t.1 ≠ t.2.1 ∧ t.1 ≠ t.2.2 ∧ t.2.1 ≠ t.2.2 :=
  ⟨rfl, rfl, by simp [exShape, triangles, InRange], by simp [exShape, triangles]⟩

example : ∃ w, load 2 0 [exShape, ⟨[0], [0]⟩] = .ok w ∧ w.elements = [0, 1] ∧ w.edges = [0, 1, 2, 3, 4] := ⟨_, rfl, rfl, rfl⟩
example : load 2 0 [⟨[0, 0, 0, 1, 0, 0], [0, 1, 2]⟩] = (.error (.exc .loadObjError) : R (World ℚ)) := rfl

/-- C81: the sizes need not be multiples of three, and a repeated corner is not rejected by the loader: a degenerate triangle is stored. -/
theorem C81_degenerate_accepted : ∃ w : World ℚ, load 1 0 [⟨[0, 0, 0, 1, 0, 0], [0, 0, 1]⟩] = .ok w ∧ w.vertsOf 0 = [some 0, some 0, some 1] :=
  ⟨_, rfl, rfl⟩
end NS.Props.ObjLoader

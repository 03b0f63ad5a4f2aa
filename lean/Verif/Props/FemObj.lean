/-
Property theorems C103 (OBJ files): from the text of an OBJ file to the end of the program `examples/poisson/fem.cpp`.
-/
import Verif.Props.FemFiles
import Verif.Props.ObjText

set_option linter.unusedSectionVars false
set_option linter.unusedSimpArgs false

namespace NS.Props.FemMain
open NS NS.World NS.FemMain NS.Fem Matrix NS.Props.Mesh NS.Props.Shape NS.Props.Fem
open NS.Props.Obj (Corner Doc Item LineIs Lines firsts corners coords arrays)
open NS.TinyObj (MatMap)
variable {T : Type} [Field T] [LinearOrder T] [IsStrictOrderedRing T]

/-- the points of a group of faces: the first and the third coordinate of the vertex of every different corner, in the order of first use -/
def objPoints (verts : List (T × T × T)) (g : List (List Corner)) : List (T × T) :=
  (firsts (corners g)).map fun c => let p := verts.getD c.v (0, 0, 0); (p.1, p.2.2)

/-- the triangles of a group of faces, each corner by its place in the order of first use -/
def objTris (g : List (List Corner)) : List (Nat × Nat × Nat) :=
  (Obj.tris g).map fun t => ((firsts (corners g)).idxOf t.1, (firsts (corners g)).idxOf t.2.1, (firsts (corners g)).idxOf t.2.2)

section
variable {env : Env T} {argv : List (List Char)} {k o : Int} {p : List Char} {cast : T → T} {readMtl : List Char → MatMap → R MatMap} {text : List Char}
  {ls : List (List Char)} {items : List (Item T)} {g : List (List Corner)} {more : List (List (List Corner))}

/-- C103: a well-formed OBJ text (C92) is a triangulation for the program: the different corners of its first non-empty group, with their first and third
coordinate, and the triangles of its polygons -/
theorem C103_text (he : env.loadObj p = TinyObj.loadString 2 0 cast readMtl text) (ht : Lines text ls) (hl : List.Forall₂ (LineIs cast readMtl) ls items)
    (hok : Doc.init.Ok items) (hsm : (Doc.init.read items).Small) (hg : (Doc.init.read items).groups = g :: more)
    (hd : ∀ t ∈ Obj.tris g, t.1 ≠ t.2.1 ∧ t.1 ≠ t.2.2 ∧ t.2.1 ≠ t.2.2) :
    Reads env (.obj p) (objPoints (Doc.init.read items).verts g) (objTris g) ∧ Proper (objPoints (Doc.init.read items).verts g).length (objTris g) := by
  obtain ⟨shapes, e, hs⟩ := Obj.C92_parse cast readMtl ht hl hok hsm
  rw [hg, List.map_cons] at hs
  obtain ⟨s, rest, rfl, hs1, -⟩ := List.map_eq_cons_iff.1 hs
  obtain ⟨hp, hi⟩ : s.positions = (arrays (Doc.init.read items).verts g).1 ∧ s.indices = (arrays (Doc.init.read items).verts g).2 :=
    ⟨congrArg Prod.fst hs1, congrArg Prod.snd hs1⟩
  have hin : ∀ c ∈ firsts (corners g), c.v < (Doc.init.read items).verts.length := by
    intro c hc
    have hc : c ∈ corners g := Obj.mem_firsts.1 hc
    unfold corners at hc
    rw [List.mem_flatMap] at hc
    obtain ⟨f, hf, hc⟩ := hc
    exact Obj.groups_in hok g (by rw [hg]; simp) f hf c (Obj.mem_fan hc)
  obtain ⟨q1, q2⟩ := Obj.points_coords 2 0 (firsts (corners g)) hin
  have hpts : objPoints (Doc.init.read items).verts g = ObjLoader.points 2 0 s.positions := by
    have hpos : s.positions = (firsts (corners g)).flatMap (coords (Doc.init.read items).verts) := by rw [hp]; rfl
    rw [hpos]
    refine List.ext_getElem? fun i => ?_
    unfold objPoints
    rw [List.getElem?_map]
    rcases hc : (firsts (corners g))[i]? with _ | c
    · rw [List.getElem?_eq_none_iff] at hc
      rw [List.getElem?_eq_none (by rw [q1]; exact hc)]
      rfl
    · have hlt := hin c (List.mem_of_getElem? hc)
      have hv := List.getElem?_eq_getElem hlt
      rw [q2 i c _ hc hv]
      simp only [Option.map_some, List.getD_eq_getElem?_getD, hv, Option.getD_some]
      rfl
  have htri : objTris g = ObjLoader.triangles s.indices := by
    rw [hi]
    show _ = ObjLoader.triangles ((corners g).map fun c => (firsts (corners g)).idxOf c)
    unfold objTris
    generalize hF : firsts (corners g) = F
    rw [Obj.corners_eq]
    exact (Obj.triangles_map (fun c => F.idxOf c) (Obj.tris g)).symm
  refine ⟨⟨⟨s.positions, s.indices⟩, rest.map fun s => ⟨s.positions, s.indices⟩, ?_, hpts, htri⟩, ?_⟩
  · rw [he]
    unfold TinyObj.loadString
    rw [e, ok_bind]
    rfl
  · intro t ht
    unfold objTris at ht
    rw [List.mem_map] at ht
    obtain ⟨t', ht', rfl⟩ := ht
    obtain ⟨d1, d2, d3⟩ := hd t' ht'
    have m : ∀ c, c = t'.1 ∨ c = t'.2.1 ∨ c = t'.2.2 → c ∈ firsts (corners g) := by
      intro c hc
      rw [Obj.mem_firsts, Obj.corners_eq]
      exact List.mem_flatMap.2 ⟨t', ht', by simp; tauto⟩
    have hlen : (objPoints (Doc.init.read items).verts g).length = (firsts (corners g)).length := by unfold objPoints; rw [List.length_map]
    have hinj : ∀ {a b : Corner}, a ∈ firsts (corners g) → a ≠ b → (firsts (corners g)).idxOf a ≠ (firsts (corners g)).idxOf b :=
      fun ha hab h => hab ((List.idxOf_inj ha).1 h)
    rw [hlen]
    exact ⟨⟨List.idxOf_lt_length_iff.2 (m _ (by simp)), List.idxOf_lt_length_iff.2 (m _ (by simp)), List.idxOf_lt_length_iff.2 (m _ (by simp))⟩,
      hinj (m _ (by simp)) d1, hinj (m _ (by simp)) d2, hinj (m _ (by simp)) d3⟩

theorem objPoints_flat {verts : List (T × T × T)} (hz : ∀ v ∈ verts, v.2.2 = 0) (g : List (List Corner)) (i : Nat) : ((objPoints verts g).getD i (0, 0)).2 = 0 := by
  rw [List.getD_eq_getElem?_getD]
  rcases h : (objPoints verts g)[i]? with _ | x
  · rfl
  have hx := List.mem_of_getElem? h
  unfold objPoints at hx
  rw [List.mem_map] at hx
  obtain ⟨c, -, rfl⟩ := hx
  show (verts.getD c.v (0, 0, 0)).2.2 = 0
  rw [List.getD_eq_getElem?_getD]
  rcases h' : verts[c.v]? with _ | v
  · rfl
  · exact hz v (List.mem_of_getElem? h')

/-- C103 (what a user might not expect): a triangulation that is drawn in the plane of the first two coordinates, all third coordinates zero, is never
calculated, because the program reads the first and the third coordinate: all its triangles are degenerate. -/
theorem C103_flat (ha : parse argv = .run k o (.obj p)) (he : env.loadObj p = TinyObj.loadString 2 0 cast readMtl text) (ht : Lines text ls)
    (hl : List.Forall₂ (LineIs cast readMtl) ls items) (hok : Doc.init.Ok items) (hsm : (Doc.init.read items).Small)
    (hg : (Doc.init.read items).groups = g :: more) (hd : ∀ t ∈ Obj.tris g, t.1 ≠ t.2.1 ∧ t.1 ≠ t.2.2 ∧ t.2.1 ≠ t.2.2) (hne : Obj.tris g ≠ [])
    (hv : 0 ≤ env.veps) (hz : ∀ v ∈ (Doc.init.read items).verts, v.2.2 = 0) :
    main env argv = .uncaught ∨ main env argv = .fault .nonfinite := by
  obtain ⟨hr, hp⟩ := C103_text he ht hl hok hsm hg hd
  obtain ⟨h1, h2, -⟩ := C103_rejected ha hr hp hv
  by_cases hc : Crowded (objTris g)
  · exact .inl (h1 hc)
  · refine .inr (h2 hc ?_)
    obtain ⟨t, htm⟩ := List.exists_mem_of_ne_nil _ hne
    refine ⟨_, List.mem_map.2 ⟨t, htm, rfl⟩, ?_⟩
    unfold triArea
    simp only [objPoints_flat hz, sub_self, mul_zero, abs_zero, zero_div]

end

/-- settings for the example: the OBJ file `t.obj` holds one triangle in the plane of the first two coordinates -/
def flatEnv : Env ℚ := ⟨id, 0, 0, 1 / 2 ^ 52, 1 / 10 ^ 8, 1 / 2 ^ 52, 12 / 10, 1024, 1 / 10 ^ 4, 1, (1, 1), (0, 0), fun _ => 1, fun _ => 0, fun _ => 0, fun _ => ['0'],
  fun _ => (0, none), fun _ => [], fun _ => TinyObj.loadString 2 0 id Obj.noMtl "v 0 0 0\nv 1 0 0\nv 0 1 0\nf 1 2 3\n".toList⟩

def flatArgs : List (List Char) := ["fem", "2", "1", "1", "t.obj"].map String.toList

theorem flat_parse : parse flatArgs = .run 2 1 (.obj "t.obj".toList) := by decide +kernel

/-- the hypotheses of C103_text and C103_flat hold for the text of a triangle -/
example : (Reads flatEnv (.obj "t.obj".toList) [(0, 0), (1, 0), (0, 0)] [(0, 1, 2)] ∧ Proper 3 [(0, 1, 2)]) ∧
    (main flatEnv flatArgs = .uncaught ∨ main flatEnv flatArgs = .fault .nonfinite) := by
  obtain ⟨ls, h1, h2, h3, h4, h5⟩ := Obj.triText_ok
  have hd : ∀ t ∈ Obj.tris [[(⟨0, none, none, 0⟩ : Corner), ⟨1, none, none, 0⟩, ⟨2, none, none, 0⟩]], t.1 ≠ t.2.1 ∧ t.1 ≠ t.2.2 ∧ t.2.1 ≠ t.2.2 := by decide +kernel
  refine ⟨?_, C103_flat flat_parse rfl h1 h2 h3 h4 h5 hd (by decide +kernel) (by norm_num [flatEnv]) (by decide +kernel)⟩
  have := C103_text (env := flatEnv) (p := "t.obj".toList) rfl h1 h2 h3 h4 h5 hd
  have e1 : objPoints (Doc.init.read Obj.triItems).verts [[(⟨0, none, none, 0⟩ : Corner), ⟨1, none, none, 0⟩, ⟨2, none, none, 0⟩]] = [(0, 0), (1, 0), (0, 0)] := by
    decide +kernel
  have e2 : objTris [[(⟨0, none, none, 0⟩ : Corner), ⟨1, none, none, 0⟩, ⟨2, none, none, 0⟩]] = [(0, 1, 2)] := by decide +kernel
  rw [e1, e2] at this
  exact this

end NS.Props.FemMain

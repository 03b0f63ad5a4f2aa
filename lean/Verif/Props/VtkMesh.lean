/-
Property theorems C82, continued: the file of a mesh that was set up as in the examples.
-/
import Verif.Props.Vtk
import Verif.Props.FemAssemble

set_option linter.unusedSectionVars false
set_option linter.unusedSimpArgs false

namespace NS.Props.Vtk
open NS NS.World NS.Vtk NS.Props.Mesh NS.Props.Shape NS.Props.Fem
variable {T : Type} [Field T] [LinearOrder T] [IsStrictOrderedRing T]

/-- the points of a (quadratic) triangle in the order the format demands: the corners, then the midpoints of the sides 01, 12, 20 -/
def node (P : Fin 3 → Fin 2 → T) : Nat → List T
  | 0 => [P 0 0, P 0 1]
  | 1 => [P 1 0, P 1 1]
  | 2 => [P 2 0, P 2 1]
  | 3 => [(P 0 0 + P 1 0) / 2, (P 0 1 + P 1 1) / 2]
  | 4 => [(P 1 0 + P 2 0) / 2, (P 1 1 + P 2 1) / 2]
  | 5 => [(P 2 0 + P 0 0) / 2, (P 2 1 + P 0 1) / 2]
  | _ => []

/-- number of points of an element -/
def nodes (order : Nat) : Nat := if order = 2 then 6 else 3

theorem dofs_at {w w' w'' : World T} {order : Nat} (h : Built w) (hd : Distinct w) (hc : Closed w) (s : Setup w w')
    (ho : order = 1 ∨ order = 2) (e : Shape.prepareMesh order w' = .ok w'') : w''.elements = w.elements ∧
    ∀ a ∈ w.elements, ∃ x, w''.E[a]? = some x ∧ x.dofs.length = nodes order ∧
      ∀ (k p : Nat), x.dofs[k]? = some p → p ∈ w''.vertices ∧ ∃ v : MVertex T, w''.V[p]? = some v ∧ v.pos = node (coords w a) k := by
  have hE := edges_of h hd s
  have hI := built_inv h
  have hD := dofs_in h hd hc s ho e
  refine ⟨hD.elements, fun a ha => ?_⟩
  have hcv : ∀ e : MElem T, w'.E[a]? = some e → e.verts = w.vertsOf a := by
    intro e he
    obtain ⟨x, x', x1, x2, x3, -⟩ := hE.E a ha
    rw [he] at x2
    obtain rfl := Option.some.inj x2
    rw [x3, vertsOf_some x1]
  have hpos : ∀ (k : Fin 3) (c : Nat), (w.vertsOf a)[(k : Nat)]? = some (some c) → ∃ v : MVertex T, w'.V[c]? = some v ∧ v.pos = [coords w a k 0, coords w a k 1] := by
    intro k c hk
    have hck : w.cornerFn a k = c := by unfold cornerFn; rw [hk]; rfl
    have hm : c ∈ w.vertices := hc a ha c (List.mem_of_getElem? hk)
    have hg := List.getElem?_eq_getElem (hI.vlt c hm)
    obtain ⟨v', a1, a2, -⟩ := hE.V c _ hg
    exact ⟨v', a1, by rw [a2]; exact coords_eq hI ha k (by rw [hck]; exact hg)⟩
  rcases ho with rfl | rfl
  · obtain ⟨w2, e2, hl⟩ := C56_order1 h hd s
    rw [e] at e2
    obtain rfl := Except.ok.inj e2
    obtain ⟨x, d, x1, x2, x3, x4⟩ := hl.dofs a (by rw [hE.elements]; exact ha)
    have hv := hcv x x1
    refine ⟨_, x4, x3, fun k p hk => ?_⟩
    simp only at hk
    have hk3 : k < 3 := by rw [← x3]; exact lt_of_getElem? hk
    have hkv : (w.vertsOf a)[k]? = some (some p) := by rw [← hv, x2, List.getElem?_map, hk]; rfl
    obtain ⟨v, v1, v2⟩ := hpos ⟨k, hk3⟩ p hkv
    refine ⟨?_, v, by rw [hl.keep.1]; exact v1, ?_⟩
    · rw [hl.keep.2.1, hE.vertices]
      exact hc a ha p (List.mem_of_getElem? hkv)
    · rw [v2]
      interval_cases k <;> rfl
  · obtain ⟨w2, m, e2, hq⟩ := C56_order2 h hd s
    rw [e] at e2
    obtain rfl := Except.ok.inj e2
    obtain ⟨news, n1, n2, n3, n4, n5⟩ := hq.vertices
    obtain ⟨x, c0, c1, c2, x1, x2, x3⟩ := hq.dofs a ha
    have hv := hcv x x1
    have hcm : ∀ (k : Fin 3) (c : Nat), (w.vertsOf a)[(k : Nat)]? = some (some c) → c ∈ w''.vertices ∧ ∃ v : MVertex T, w''.V[c]? = some v ∧
        v.pos = [coords w a k 0, coords w a k 1] := by
      intro k c hk
      obtain ⟨v, v1, v2⟩ := hpos k c hk
      refine ⟨?_, v, by rw [hq.old c (lt_of_getElem? v1)]; exact v1, v2⟩
      rw [n1, hE.vertices]
      exact List.mem_append_left _ (hc a ha c (List.mem_of_getElem? hk))
    have hmm : ∀ i, m a i ∈ w''.vertices ∧ ∃ v : MVertex T, w''.V[m a i]? = some v ∧
        v.pos = [(coords w a (fA i) 0 + coords w a (fB i) 0) / 2, (coords w a (fA i) 1 + coords w a (fB i) 1) / 2] := by
      intro i
      obtain ⟨v, v1, v2, -⟩ := hq.mid a ha i
      refine ⟨?_, v, v1, by rw [v2, sum_erase i fun k => coords w a k 0, sum_erase i fun k => coords w a k 1]⟩
      rw [n1]
      exact List.mem_append_right _ ((n5 _).2 ⟨a, ha, i, rfl⟩)
    refine ⟨_, x3, rfl, fun k p hk => ?_⟩
    have hk6 : k < 6 := lt_of_getElem? hk
    simp only at hk
    rw [x2] at hv
    interval_cases k
    · obtain rfl := Option.some.inj hk; exact hcm 0 _ (by rw [← hv]; rfl)
    · obtain rfl := Option.some.inj hk; exact hcm 1 _ (by rw [← hv]; rfl)
    · obtain rfl := Option.some.inj hk; exact hcm 2 _ (by rw [← hv]; rfl)
    · obtain rfl := Option.some.inj hk
      obtain ⟨m1, v, v1, v2⟩ := hmm 2
      refine ⟨m1, v, v1, v2.trans ?_⟩
      simp [node, fA, fB, add_comm]
    · obtain rfl := Option.some.inj hk
      obtain ⟨m1, v, v1, v2⟩ := hmm 0
      refine ⟨m1, v, v1, v2.trans ?_⟩
      simp [node, fA, fB, add_comm]
    · obtain rfl := Option.some.inj hk
      obtain ⟨m1, v, v1, v2⟩ := hmm 1
      refine ⟨m1, v, v1, v2.trans ?_⟩
      simp [node, fA, fB, add_comm]

theorem planar_after {w w' w'' : World T} {order : Nat} (h : Built w) (hd : Distinct w) (s : Setup w w')
    (ho : order = 1 ∨ order = 2) (e : Shape.prepareMesh order w' = .ok w'') : ∀ p ∈ w''.vertices, ∃ v x y, w''.V[p]? = some v ∧ v.pos = [x, y] := by
  have hE := edges_of h hd s
  have hI := built_inv h
  have hold : ∀ p ∈ w.vertices, ∃ v : MVertex T, ∃ x y, w'.V[p]? = some v ∧ v.pos = [x, y] := by
    intro p hp
    obtain ⟨v', a1, -⟩ := hE.V p _ (List.getElem?_eq_getElem (hI.vlt p hp))
    obtain ⟨x, y, hx⟩ := Props.Simplex.two_of_length (hE.planar.pos p v' a1)
    exact ⟨v', x, y, a1, hx⟩
  rcases ho with rfl | rfl
  · obtain ⟨w2, e2, hl⟩ := C56_order1 h hd s
    rw [e] at e2
    obtain rfl := Except.ok.inj e2
    intro p hp
    rw [hl.keep.2.1, hE.vertices] at hp
    rw [hl.keep.1]
    exact hold p hp
  · obtain ⟨w2, m, e2, hq⟩ := C56_order2 h hd s
    rw [e] at e2
    obtain rfl := Except.ok.inj e2
    obtain ⟨news, n1, n2, n3, n4, n5⟩ := hq.vertices
    intro p hp
    rw [n1, hE.vertices, List.mem_append] at hp
    rcases hp with hp | hp
    · obtain ⟨v, x, y, v1, v2⟩ := hold p hp
      exact ⟨v, x, y, by rw [hq.old p (lt_of_getElem? v1)]; exact v1, v2⟩
    · obtain ⟨a, ha, i, rfl⟩ := (n5 p).1 hp
      obtain ⟨v, v1, v2, -⟩ := hq.mid a ha i
      exact ⟨v, _, _, v1, v2⟩

/-- everything an export needs holds after `setupNeighbors()`, `setupBoundaries()`, `prepare()` and `prepareMesh()` -/
theorem exportable {w w' w'' : World T} {order : Nat} (h : Built w) (hd : Distinct w) (hc : Closed w) (s : Setup w w')
    (ho : order = 1 ∨ order = 2) (e : Shape.prepareMesh order w' = .ok w'') : Exportable w'' := by
  obtain ⟨h1, h2⟩ := dofs_at h hd hc s ho e
  refine ⟨planar_after h hd s ho e, fun a ha => ?_⟩
  rw [h1] at ha
  obtain ⟨x, x1, -, x3⟩ := h2 a ha
  refine ⟨x, x1, fun p hp => ?_⟩
  obtain ⟨k, hk⟩ := List.getElem?_of_mem hp
  obtain ⟨-, v, hv, -⟩ := x3 k p hk
  exact ⟨v, hv⟩

theorem measured {w w' w'' : World T} {order : Nat} (h : Built w) (hd : Distinct w) (hc : Closed w) (hp : Pipeline w w')
    (ho : order = 1 ∨ order = 2) (e : Shape.prepareMesh order w' = .ok w'') (hv : w.vertices ≠ []) : ∀ x ∈ elemsOf w'', Measured x := by
  have hR := ready_of h hd hc hp ho e hv
  intro x hx
  unfold elemsOf at hx
  rw [List.mem_filterMap] at hx
  obtain ⟨a, ha, hx⟩ := hx
  obtain ⟨y, y1, y2⟩ := hR.simplex a ha
  have har := hR.area a ha
  rw [hx] at y1
  obtain rfl := Option.some.inj y1
  refine ⟨by rw [y2]; rfl, by rw [y2]; exact ⟨_, _, _, _, _, _, rfl⟩, by rw [y2]; exact ⟨_, _, _, _, rfl⟩, ?_⟩
  rw [y2]
  intro h0
  apply har
  rw [Props.Simplex.area2_eq]
  exact h0

/-- C82, for a mesh set up as in the examples: the file is valid, has one cell for each element, and the points of the cell are, in the order the format
demands, the corners of the triangle and (order 2) the midpoints of its sides -/
theorem C82_mesh {showT : T → Text} (hT : ∀ t, Word (showT t)) {w w' w'' : World T} {order opts : Nat} (h : Built w) (hd : Distinct w) (hc : Closed w)
    (hp : Pipeline w w') (ho : order = 1 ∨ order = 2) (e : Shape.prepareMesh order w' = .ok w'') (hv : w.vertices ≠ [])
    (hq : opts &&& 0x80 ≠ 0 ↔ order = 2) (hg : opts &&& 0x4 = 0) {pointData cellData : List (Text × List T)} (hne : pointData ≠ [])
    (hpn : ∀ d ∈ pointData, Name d.1 ∧ d.2.length = w''.vertices.length) (hcn : ∀ d ∈ cellData, Name d.1 ∧ d.2.length = w.elements.length) :
    ∃ t f cs, write showT w'' pointData cellData opts = .ok t ∧ readFile t = some f ∧ Valid f ∧ cells f = some cs ∧ cs.length = w.elements.length ∧
      ∀ (i a : Nat), w.elements[i]? = some a → ∃ c : List Nat, cs[i]? = some c ∧ c.length = nodes order ∧
        ∀ (k j : Nat), c[k]? = some j → point f j = (node (coords w a) k ++ [0]).map showT := by
  have s := hp.setup
  have hx := exportable h hd hc s ho e
  have hm := measured h hd hc hp ho e hv
  have hN := C60_numbered h hd s ho e
  obtain ⟨h1, h2⟩ := dofs_at h hd hc s ho e
  obtain ⟨t, t1, t2⟩ := C82_read (opts := opts) hT hx hne (fun d hd => (hpn d hd).1) (fun d hd => (hcn d hd).1) fun _ => hm
  have hlen : ∀ a ∈ w''.elements, (dofsOf w'' a).length = if opts &&& 0x80 ≠ 0 then 6 else 3 := by
    intro a ha
    rw [h1] at ha
    obtain ⟨x, x1, x2, -⟩ := h2 a ha
    unfold dofsOf
    rw [x1, List.length_map]
    simp only [Option.elim_some, hq]
    exact x2
  have hcs := cells_of (showT := showT) (pointData := pointData) (cellData := cellData) hlen
  refine ⟨t, _, _, t1, t2, C82_valid hx hlen ?_ (fun d hd => (hpn d hd).2) (fun d hd => by rw [h1]; exact (hcn d hd).2) (fun _ => hm) hg, hcs,
    by rw [List.length_map, h1], ?_⟩
  · intro a ha i hi
    rw [h1] at ha
    obtain ⟨x, x1, -, x3⟩ := h2 a ha
    unfold dofsOf at hi
    rw [x1, List.mem_map] at hi
    obtain ⟨p, hp, rfl⟩ := hi
    obtain ⟨k, hk⟩ := List.getElem?_of_mem hp
    obtain ⟨hpv, -⟩ := x3 k p hk
    obtain ⟨n, v, -, n2, n3, n4⟩ := numbered_mem hN hpv
    rw [n3]
    simp only [Option.elim_some, n4]
    exact n2
  · intro i a hia
    have ha := List.mem_of_getElem? hia
    obtain ⟨x, x1, x2, x3⟩ := h2 a ha
    refine ⟨dofsOf w'' a, by rw [List.getElem?_map, h1, hia]; rfl, ?_, fun k j hj => ?_⟩
    · unfold dofsOf
      rw [x1, List.length_map]
      exact x2
    · unfold dofsOf at hj
      rw [x1, List.getElem?_map] at hj
      simp only [Option.elim_some] at hj
      rw [Option.map_eq_some_iff] at hj
      obtain ⟨p, hk, rfl⟩ := hj
      obtain ⟨hpv, v, v1, v2⟩ := x3 k p hk
      obtain ⟨n, v', n1, n2, n3, n4⟩ := numbered_mem hN hpv
      rw [v1] at n3
      obtain rfl := Option.some.inj n3
      rw [v1]
      simp only [Option.elim_some, n4]
      rw [C82_point hx n1 v1, v2]

/-! ### Non-vacuity -/

/-- a printer for numbers -/
def showQ (q : ℚ) : Text := (if q < 0 then str "-" else []) ++ showNat q.num.natAbs ++ str "/" ++ showNat q.den

theorem word_append {a b : Text} (ha : Word a) (hb : ∀ c ∈ b, c ≠ ' ' ∧ c ≠ '\n' ∧ c ≠ '<') : Word (a ++ b) :=
  ⟨by simp [ha.1], fun c hc => by rcases List.mem_append.1 hc with hc | hc; exacts [ha.2 c hc, hb c hc]⟩

theorem showQ_word (q : ℚ) : Word (showQ q) := by
  unfold showQ
  have h1 : ∀ c ∈ (if q < 0 then str "-" else []), c ≠ ' ' ∧ c ≠ '\n' ∧ c ≠ '<' := by
    split
    · decide
    · simp
  refine word_append (word_append ⟨?_, fun c hc => ?_⟩ (by decide)) (word_showNat _).2
  · simp [(word_showNat _).1]
  · rcases List.mem_append.1 hc with hc | hc
    · exact h1 c hc
    · exact (word_showNat _).2 c hc

/-- the hypotheses hold for the square with quadratic elements and one field -/
example : ∃ w' w'' : World ℚ, Built (NS.Props.Mesh.square : World ℚ) ∧ Distinct (NS.Props.Mesh.square : World ℚ) ∧
    Closed (NS.Props.Mesh.square : World ℚ) ∧ Pipeline NS.Props.Mesh.square w' ∧ Shape.prepareMesh 2 w' = .ok w'' ∧
    (NS.Props.Mesh.square : World ℚ).vertices ≠ [] ∧ w''.vertices.length = 9 ∧ Name (str "u") ∧ (0x8b &&& 0x80 ≠ 0 ↔ (2 : Nat) = 2) ∧ 0x8b &&& 0x4 = 0 := by
  have h2 : ((squareMesh 2).toOption.map fun w => w.vertices.length) = some 9 := by decide +kernel
  rcases hw : squareMesh 2 with er | w
  · rw [hw] at h2; cases h2
  rw [hw] at h2
  obtain ⟨w1, p, e⟩ := square_pipeline hw
  exact ⟨w1, w, NS.Props.Mesh.square_built, by unfold Distinct; decide, square_closed, p, e, by decide, Option.some.inj h2, by unfold Name; decide, by decide, by decide⟩

/-- the file of the square with linear elements -/
def exFile : Option File := (((do
    let w ← squareMesh 1
    write showQ w [(str "u", [1, 2, 3, 4])] [] 0x9) : R Text).toOption.bind readFile)

example : (exFile.bind cells) = some [[0, 1, 2], [1, 3, 2]] := by decide +kernel
example : (exFile.map fun f => point f 2) = some [str "0/1", str "1/1", str "0/1"] := by decide +kernel
example : (exFile.map fun f => f.cellData) =
    some [⟨[attr "Name" "ElementDeterminant", attr "type" "Float32", attr "format" "ascii"], [str "1/1", str "1/1"]⟩] := by decide +kernel

end NS.Props.Vtk

/-
Property theorems C119: the nodes of the generated grid with quadratic elements.
-/
import Verif.Props.FemGrid2

set_option linter.unusedSectionVars false
set_option linter.unusedSimpArgs false

namespace NS.Props.HyperCube
open NS NS.World NS.HyperCube

/-- the end points (row, column) of the face opposite to corner `f` of a triangle of the grid -/
def faceSet (i j k : Nat) (f : Fin 3) : Finset (Nat × Nat) := (Finset.univ.erase f).image (corner i j k)

/-- twice the middle (row, column) of a face -/
def midOf (i j k : Nat) (f : Fin 3) : Nat × Nat := ∑ q ∈ faceSet i j k f, q

theorem midOf_sum (i j k : Nat) (f : Fin 3) : midOf i j k f = ∑ m ∈ Finset.univ.erase f, corner i j k m := by
  unfold midOf faceSet
  exact Finset.sum_image fun x _ y _ h => corner_inj i j k h

theorem midOf_table (i j : Nat) : midOf i j 0 0 = (2 * i + 2, 2 * j + 1) ∧ midOf i j 0 1 = (2 * i + 1, 2 * j + 1) ∧ midOf i j 0 2 = (2 * i + 1, 2 * j) ∧
    midOf i j 1 0 = (2 * i + 1, 2 * j + 2) ∧ midOf i j 1 1 = (2 * i, 2 * j + 1) ∧ midOf i j 1 2 = (2 * i + 1, 2 * j + 1) := by
  have e0 : (Finset.univ.erase 0 : Finset (Fin 3)) = {1, 2} := by decide
  have e1 : (Finset.univ.erase 1 : Finset (Fin 3)) = {0, 2} := by decide
  have e2 : (Finset.univ.erase 2 : Finset (Fin 3)) = {0, 1} := by decide
  simp only [midOf_sum, e0, e1, e2]
  refine ⟨?_, ?_, ?_, ?_, ?_, ?_⟩ <;> rw [Finset.sum_pair (by decide)] <;> simp [corner] <;> omega

theorem mem_faceSet {i j k : Nat} {f : Fin 3} {q : Nat × Nat} : q ∈ faceSet i j k f ↔ ∃ m, m ≠ f ∧ q = corner i j k m := by
  unfold faceSet
  simp [eq_comm]

theorem midOf_eq_iff {i j k i' j' k' : Nat} {f f' : Fin 3} (hk : k < 2) (hk' : k' < 2) : midOf i j k f = midOf i' j' k' f' ↔ faceSet i j k f = faceSet i' j' k' f' := by
  refine ⟨fun h => ?_, fun h => by unfold midOf; rw [h]⟩
  have e0 : (Finset.univ.erase 0 : Finset (Fin 3)) = {1, 2} := by decide
  have e1 : (Finset.univ.erase 1 : Finset (Fin 3)) = {0, 2} := by decide
  have e2 : (Finset.univ.erase 2 : Finset (Fin 3)) = {0, 1} := by decide
  obtain ⟨t0, t1, t2, t3, t4, t5⟩ := midOf_table i j
  obtain ⟨s0, s1, s2, s3, s4, s5⟩ := midOf_table i' j'
  ext ⟨a, b⟩
  interval_cases k <;> interval_cases k' <;> fin_cases f <;> fin_cases f' <;>
    simp only [Fin.zero_eta, Fin.mk_one, Fin.reduceFinMk, t0, t1, t2, t3, t4, t5, s0, s1, s2, s3, s4, s5, Prod.mk.injEq] at h <;>
    simp [faceSet, e0, e1, e2, corner] <;> omega

/-- the middles of the faces: all points of the grid of half the width that are not corners -/
theorem midOf_range {N i j k : Nat} (hi : i < N) (hj : j < N) (hk : k < 2) (f : Fin 3) :
    (midOf i j k f).1 ≤ 2 * N ∧ (midOf i j k f).2 ≤ 2 * N ∧ ¬ ((midOf i j k f).1 % 2 = 0 ∧ (midOf i j k f).2 % 2 = 0) := by
  obtain ⟨t0, t1, t2, t3, t4, t5⟩ := midOf_table i j
  interval_cases k <;> fin_cases f <;> simp only [Fin.zero_eta, Fin.mk_one, Fin.reduceFinMk, t0, t1, t2, t3, t4, t5] <;> omega

theorem midOf_surj {N R C : Nat} (hR : R ≤ 2 * N) (hC : C ≤ 2 * N) (hp : ¬ (R % 2 = 0 ∧ C % 2 = 0)) :
    ∃ i < N, ∃ j < N, ∃ k < 2, ∃ f, midOf i j k f = (R, C) := by
  rcases Nat.mod_two_eq_zero_or_one R with h1 | h1 <;> rcases Nat.mod_two_eq_zero_or_one C with h2 | h2
  · exact absurd ⟨h1, h2⟩ hp
  · by_cases h0 : R = 0
    · exact ⟨0, by omega, C / 2, by omega, 1, by omega, 1, by rw [(midOf_table _ _).2.2.2.2.1]; ext <;> simp <;> omega⟩
    · exact ⟨R / 2 - 1, by omega, C / 2, by omega, 0, by omega, 0, by rw [(midOf_table _ _).1]; ext <;> simp <;> omega⟩
  · by_cases h0 : C = 0
    · exact ⟨R / 2, by omega, 0, by omega, 0, by omega, 2, by rw [(midOf_table _ _).2.2.1]; ext <;> simp <;> omega⟩
    · exact ⟨R / 2, by omega, C / 2 - 1, by omega, 1, by omega, 0, by rw [(midOf_table _ _).2.2.2.1]; ext <;> simp <;> omega⟩
  · exact ⟨R / 2, by omega, C / 2, by omega, 0, by omega, 1, by rw [(midOf_table _ _).2.1]; ext <;> simp <;> omega⟩

/-- the other element of a face -/
theorem midOf_rim {N i j k : Nat} (hi : i < N) (hj : j < N) (hk : k < 2) (f : Fin 3) :
    (∀ i' < N, ∀ j' < N, ∀ k' < 2, (i' = i ∧ j' = j ∧ k' = k) ∨ Opp k f i j i' j' k' → i' = i ∧ j' = j ∧ k' = k) ↔
      (midOf i j k f).1 = 0 ∨ (midOf i j k f).1 = 2 * N ∨ (midOf i j k f).2 = 0 ∨ (midOf i j k f).2 = 2 * N := by
  obtain ⟨t0, t1, t2, t3, t4, t5⟩ := midOf_table i j
  interval_cases k <;> fin_cases f <;> simp only [Fin.zero_eta, Fin.mk_one, Fin.reduceFinMk, t0, t1, t2, t3, t4, t5, Opp] <;> constructor <;> intro h
  · by_contra hn
    have := h (i + 1) (by omega) j (by omega) 1 (by omega) (.inr ⟨rfl, rfl, rfl⟩)
    omega
  · intro i' h1 j' h2 k' h3 h4; simp at h4; omega
  · have := h i (by omega) j (by omega) 1 (by omega) (.inr ⟨rfl, rfl, rfl⟩)
    omega
  · omega
  · by_contra hn
    have := h i (by omega) (j - 1) (by omega) 1 (by omega) (.inr ⟨rfl, by omega, rfl⟩)
    omega
  · intro i' h1 j' h2 k' h3 h4; simp at h4; omega
  · by_contra hn
    have := h i (by omega) (j + 1) (by omega) 0 (by omega) (.inr ⟨rfl, rfl, rfl⟩)
    omega
  · intro i' h1 j' h2 k' h3 h4; simp at h4; omega
  · by_contra hn
    have := h (i - 1) (by omega) j (by omega) 0 (by omega) (.inr ⟨by omega, rfl, rfl⟩)
    omega
  · intro i' h1 j' h2 k' h3 h4; simp at h4; omega
  · have := h i (by omega) j (by omega) 0 (by omega) (.inr ⟨rfl, rfl, rfl⟩)
    omega
  · omega

end NS.Props.HyperCube

namespace NS.Props.FemMain
open NS NS.World NS.FemMain NS.Fem Matrix NS.Props.Mesh NS.Props.Shape NS.Props.Fem NS.HyperCube NS.Props.HyperCube
variable {T : Type} [Field T] [LinearOrder T] [IsStrictOrderedRing T] {n : Nat}

/-- the nodes of the grid with quadratic elements: `μ R C` is the number of the node in row `R` and column `C` of the grid of half the width, whose even
rows and columns are the vertices of the mesh -/
structure QuadGrid (N : Nat) (h : T) (off : T × T) (w'' : World T) (μ : Nat → Nat → Nat) : Prop where
  corner : ∀ r ≤ N, ∀ c ≤ N, μ (2 * r) (2 * c) = r * (N + 1) + c
  inj : ∀ R ≤ 2 * N, ∀ C ≤ 2 * N, ∀ R' ≤ 2 * N, ∀ C' ≤ 2 * N, μ R C = μ R' C' → R = R' ∧ C = C'
  lt : ∀ R ≤ 2 * N, ∀ C ≤ 2 * N, μ R C < w''.vertices.length
  surj : ∀ x < w''.vertices.length, ∃ R ≤ 2 * N, ∃ C ≤ 2 * N, μ R C = x
  length : w''.vertices.length = (2 * N + 1) * (2 * N + 1)
  node : ∀ R ≤ 2 * N, ∀ C ≤ 2 * N, ∃ v, vertexAt w'' (μ R C) = some v ∧ v.pos = [off.1 + h / 2 * (C : T), off.2 + h / 2 * (R : T)] ∧
    v.flags = (if R = 0 ∨ R = 2 * N ∨ C = 0 ∨ C = 2 * N then 1 else 0) + (if R % 2 = 0 ∧ C % 2 = 0 then 0 else 2)
  /-- the numbers of an element: its corners, then the middles of the faces opposite to corner 2, 0 and 1 -/
  dof : ∀ i < N, ∀ j < N, ∀ k < 2, ∀ q : Fin 3, dofIndex w'' (eid N i j k) q = some (μ (2 * (HyperCube.corner i j k q).1) (2 * (HyperCube.corner i j k q).2))
  mid : ∀ i < N, ∀ j < N, ∀ k < 2, ∀ q : Fin 3, dofIndex w'' (eid N i j k) (3 + q) = some (μ (midOf i j k (q + 2)).1 (midOf i j k (q + 2)).2)

theorem onFace_grid {N : Nat} {h : T} {off : T × T} {w u : World T} (g : GridReady N h off w u) {i j k : Nat} (hi : i < N) (hj : j < N) (hk : k < 2) (f : Fin 3) (q : Nat) :
    OnFace w (eid N i j k) f q ↔ ∃ x ∈ faceSet i j k f, q = vid N x.1 x.2 := by
  unfold OnFace
  rw [g.verts i hi j hj k hk]
  constructor
  · rintro ⟨m, hm, e⟩
    refine ⟨_, mem_faceSet.2 ⟨m, hm, rfl⟩, ?_⟩
    rw [List.getElem?_ofFn, dif_pos m.2] at e
    exact (Option.some.inj (Option.some.inj e)).symm
  · rintro ⟨x, hx, rfl⟩
    obtain ⟨m, hm, rfl⟩ := mem_faceSet.1 hx
    refine ⟨m, hm, ?_⟩
    rw [List.getElem?_ofFn, dif_pos m.2]

theorem faceSet_le {N i j k : Nat} (hi : i < N) (hj : j < N) {f : Fin 3} {x : Nat × Nat} (hx : x ∈ faceSet i j k f) : x.1 ≤ N ∧ x.2 ≤ N := by
  obtain ⟨m, -, rfl⟩ := mem_faceSet.1 hx
  exact corner_le hi hj m

theorem onFace_eq_iff {N : Nat} {h : T} {off : T × T} {w u : World T} (g : GridReady N h off w u) {i j k : Nat} (hi : i < N) (hj : j < N) (hk : k < 2)
    {i' j' k' : Nat} (hi' : i' < N) (hj' : j' < N) (hk' : k' < 2) (f f' : Fin 3) :
    (∀ q, OnFace w (eid N i j k) f q ↔ OnFace w (eid N i' j' k') f' q) ↔ midOf i j k f = midOf i' j' k' f' := by
  rw [midOf_eq_iff hk hk']
  simp only [onFace_grid g hi hj hk, onFace_grid g hi' hj' hk']
  constructor
  · intro hq
    ext x
    constructor
    · intro hx
      obtain ⟨y, hy, e⟩ := (hq (vid N x.1 x.2)).1 ⟨x, hx, rfl⟩
      have := vid_inj (faceSet_le hi hj hx).2 (faceSet_le hi' hj' hy).2 e
      rw [Prod.ext this.1 this.2]; exact hy
    · intro hx
      obtain ⟨y, hy, e⟩ := (hq (vid N x.1 x.2)).2 ⟨x, hx, rfl⟩
      have := vid_inj (faceSet_le hi' hj' hx).2 (faceSet_le hi hj hy).2 e
      rw [Prod.ext this.1 this.2]; exact hy
  · intro e q
    rw [e]

theorem hasFace_grid {N : Nat} {h : T} {off : T × T} {w u : World T} (g : GridReady N h off w u) {i j k i' j' k' : Nat} (hi : i < N) (hj : j < N) (hk : k < 2)
    (hi' : i' < N) (hj' : j' < N) (hk' : k' < 2) (f : Fin 3) :
    HasFace w (eid N i' j' k') (eid N i j k) f ↔ (i' = i ∧ j' = j ∧ k' = k) ∨ Opp k f i j i' j' k' := by
  rw [← contains_iff hk hk' f]
  unfold HasFace
  have hm : eid N i' j' k' ∈ w.elements := by rw [g.elements, List.mem_range]; exact eid_lt hi' hj' hk'
  have hmem : ∀ q, some q ∈ w.vertsOf (eid N i' j' k') ↔ ∃ m : Fin 3, q = vid N (HyperCube.corner i' j' k' m).1 (HyperCube.corner i' j' k' m).2 := by
    intro q
    rw [g.verts i' hi' j' hj' k' hk', List.mem_ofFn]
    simp [eq_comm]
  simp only [hm, true_and, onFace_grid g hi hj hk, hmem]
  constructor
  · intro hh m hmf
    obtain ⟨m', hm'⟩ := hh _ ⟨_, mem_faceSet.2 ⟨m, hmf, rfl⟩, rfl⟩
    have := vid_inj (corner_le hi hj m).2 (corner_le hi' hj' m').2 hm'
    exact ⟨m', Prod.ext this.1 this.2⟩
  · rintro hh q ⟨x, hx, rfl⟩
    obtain ⟨m, hmf, rfl⟩ := mem_faceSet.1 hx
    obtain ⟨m', hm'⟩ := hh m hmf
    exact ⟨m', by rw [hm']⟩

theorem alone_grid {N : Nat} {h : T} {off : T × T} {w u : World T} (g : GridReady N h off w u) {i j k : Nat} (hi : i < N) (hj : j < N) (hk : k < 2) (f : Fin 3) :
    (∀ b, HasFace w b (eid N i j k) f → b = eid N i j k) ↔
      (midOf i j k f).1 = 0 ∨ (midOf i j k f).1 = 2 * N ∨ (midOf i j k f).2 = 0 ∨ (midOf i j k f).2 = 2 * N := by
  rw [← midOf_rim hi hj hk f]
  constructor
  · intro hb i' hi' j' hj' k' hk' hO
    exact eid_inj hj' hj hk' hk (hb _ ((hasFace_grid g hi hj hk hi' hj' hk' f).2 hO))
  · intro hb b hF
    have hbm := hF.1
    rw [g.elements, List.mem_range] at hbm
    obtain ⟨i', hi', j', hj', k', hk', rfl⟩ := exists_eid hbm
    obtain ⟨rfl, rfl, rfl⟩ := hb i' hi' j' hj' k' hk' ((hasFace_grid g hi hj hk hi' hj' hk' f).1 hF)
    rfl

theorem sum_mid (o h : T) (i j k : Nat) (f : Fin 3) :
    (∑ m ∈ Finset.univ.erase f, (o + h * ((HyperCube.corner i j k m).2 : T))) = 2 * o + h * ((midOf i j k f).2 : T) ∧
    (∑ m ∈ Finset.univ.erase f, (o + h * ((HyperCube.corner i j k m).1 : T))) = 2 * o + h * ((midOf i j k f).1 : T) := by
  have hc : (Finset.univ.erase f : Finset (Fin 3)).card = 2 := by rw [Finset.card_erase_of_mem (Finset.mem_univ _)]; rfl
  rw [midOf_sum, Prod.snd_sum, Prod.fst_sum]
  push_cast
  constructor <;> rw [Finset.sum_add_distrib, ← Finset.mul_sum, Finset.sum_const, hc, nsmul_eq_mul] <;> push_cast <;> rfl

/-- C119: the nodes of the generated grid with quadratic elements are the points of the grid of half the width -/
theorem C119_nodes {N : Nat} {h : T} {off : T × T} {w w2 w3 w'' : World T} (hb : Built w) (hd : Distinct w) (hcl : Closed w) (hp : Pipeline w w2)
    (e1 : Shape.prepareMesh 1 w2 = .ok w3) (g : GridReady N h off w w3) (e2 : Shape.prepareMesh 2 w2 = .ok w'') : ∃ μ, QuadGrid N h off w'' μ := by
  obtain ⟨u, u1, hl⟩ := C56_order1 hb hd hp.setup
  obtain rfl : u = w3 := Except.ok.inj (u1.symm.trans e1)
  obtain ⟨w1, m, e2', hq⟩ := C56_order2 hb hd hp.setup
  obtain rfl : w1 = w'' := Except.ok.inj (e2'.symm.trans e2)
  have hE := edges_of hb hd hp.setup
  have hw'' : w1.elements = w.elements := hq.elements.trans hE.elements
  have hv2 : w2.vertices = List.range ((N + 1) * (N + 1)) := hl.keep.2.1.symm.trans g.vertices
  obtain ⟨news, n1, -, -, n4, n5⟩ := hq.vertices
  have hvlt : ∀ {r c}, r ≤ N → c ≤ N → vid N r c < (N + 1) * (N + 1) := by
    intro r c hr hc
    have : r * (N + 1) ≤ N * (N + 1) := Nat.mul_le_mul_right _ hr
    unfold vid
    rw [Nat.add_mul]; omega
  have hpos : ∀ {r c}, r ≤ N → c ≤ N → w1.vertices[vid N r c]? = some (vid N r c) := by
    intro r c hr hc
    have := hvlt hr hc
    rw [n1, hv2, List.getElem?_append_left (by rw [List.length_range]; exact this), List.getElem?_range this]
  have hvert : ∀ {r c}, r ≤ N → c ≤ N → ∃ v, w1.V[vid N r c]? = some v ∧ v.gi = vid N r c ∧ v.pos = [off.1 + h * (c : T), off.2 + h * (r : T)] ∧
      (v.flags = if r = 0 ∨ r = N ∨ c = 0 ∨ c = N then 1 else 0) ∧ vid N r c < w2.V.length := by
    intro r c hr hc
    obtain ⟨v, v1, v2, v3⟩ := g.vertex r hr c hc
    unfold vertexAt at v1
    rw [g.vertices, List.getElem?_range (hvlt hr hc), Option.bind_some, hl.keep.1] at v1
    have hlt := lt_of_getElem? v1
    obtain ⟨v', q1, q2⟩ := hq.index _ _ (hpos hr hc)
    rw [hq.old _ hlt, v1] at q1
    obtain rfl := Option.some.inj q1
    exact ⟨v, by rw [hq.old _ hlt]; exact v1, q2, v2, v3, hlt⟩
  have hel : ∀ {i j k}, i < N → j < N → k < 2 → eid N i j k ∈ w.elements := by
    intro i j k hi hj hk
    rw [g.elements, List.mem_range]; exact eid_lt hi hj hk
  -- the place of a new vertex
  have hplace : ∀ {i j k}, i < N → j < N → k < 2 → ∀ f, ∃ x : Nat, w1.vertices[x]? = some (m (eid N i j k) f) := by
    intro i j k hi hj hk f
    have hm : m (eid N i j k) f ∈ w1.vertices := by
      rw [n1, List.mem_append]; exact .inr ((n5 _).2 ⟨_, hel hi hj hk, f, rfl⟩)
    exact List.getElem?_of_mem hm
  have hplace1 : ∀ {x y p : Nat}, w1.vertices[x]? = some p → w1.vertices[y]? = some p → x = y := by
    intro x y p hx hy
    obtain ⟨v, v1, v2⟩ := hq.index _ _ hx
    obtain ⟨v', v1', v2'⟩ := hq.index _ _ hy
    rw [v1] at v1'
    rw [← v2, ← v2', Option.some.inj v1']
  have hshare : ∀ {i j k i' j' k'}, i < N → j < N → k < 2 → i' < N → j' < N → k' < 2 → ∀ f f', m (eid N i j k) f = m (eid N i' j' k') f' ↔ midOf i j k f = midOf i' j' k' f' := by
    intro i j k i' j' k' hi hj hk hi' hj' hk' f f'
    rw [hq.shared _ (hel hi hj hk) _ (hel hi' hj' hk'), onFace_eq_iff g hi hj hk hi' hj' hk']
  have hex : ∀ R C : Nat, ∃ x : Nat, R ≤ 2 * N → C ≤ 2 * N → (R % 2 = 0 ∧ C % 2 = 0 → x = vid N (R / 2) (C / 2)) ∧
      ∀ i < N, ∀ j < N, ∀ k < 2, ∀ f, midOf i j k f = (R, C) → w1.vertices[x]? = some (m (eid N i j k) f) := by
    intro R C
    by_cases hRC : R ≤ 2 * N ∧ C ≤ 2 * N
    swap
    · exact ⟨0, fun h1 h2 => absurd ⟨h1, h2⟩ hRC⟩
    by_cases hev : R % 2 = 0 ∧ C % 2 = 0
    · refine ⟨_, fun _ _ => ⟨fun _ => rfl, fun i hi j hj k hk f hm => absurd hev ?_⟩⟩
      have := (midOf_range hi hj hk f).2.2
      rw [hm] at this; exact this
    · obtain ⟨i, hi, j, hj, k, hk, f, hm⟩ := midOf_surj hRC.1 hRC.2 hev
      obtain ⟨x, hx⟩ := hplace hi hj hk f
      refine ⟨x, fun _ _ => ⟨fun h0 => absurd h0 hev, fun i' hi' j' hj' k' hk' f' hm' => ?_⟩⟩
      rw [hx, (hshare hi hj hk hi' hj' hk' f f').2 (hm.trans hm'.symm)]
  choose μ hμ using hex
  have hcor : ∀ r ≤ N, ∀ c ≤ N, μ (2 * r) (2 * c) = vid N r c := by
    intro r hr c hc
    rw [(hμ (2 * r) (2 * c) (by omega) (by omega)).1 ⟨by omega, by omega⟩]
    congr 1 <;> omega
  have hmid : ∀ {i j k}, i < N → j < N → k < 2 → ∀ f, w1.vertices[μ (midOf i j k f).1 (midOf i j k f).2]? = some (m (eid N i j k) f) := by
    intro i j k hi hj hk f
    obtain ⟨q1, q2, -⟩ := midOf_range hi hj hk f
    exact (hμ _ _ q1 q2).2 i hi j hj k hk f rfl
  -- the object behind a number
  have hobj : ∀ R ≤ 2 * N, ∀ C ≤ 2 * N, (∃ r ≤ N, ∃ c ≤ N, R = 2 * r ∧ C = 2 * c ∧ w1.vertices[μ R C]? = some (vid N r c)) ∨
      ∃ i < N, ∃ j < N, ∃ k < 2, ∃ f, midOf i j k f = (R, C) ∧ w1.vertices[μ R C]? = some (m (eid N i j k) f) := by
    intro R hR C hC
    by_cases hev : R % 2 = 0 ∧ C % 2 = 0
    · left
      refine ⟨R / 2, by omega, C / 2, by omega, by omega, by omega, ?_⟩
      rw [(hμ R C hR hC).1 hev]
      exact hpos (by omega) (by omega)
    · right
      obtain ⟨i, hi, j, hj, k, hk, f, hm⟩ := midOf_surj hR hC hev
      refine ⟨i, hi, j, hj, k, hk, f, hm, ?_⟩
      have := hmid hi hj hk f
      rwa [hm] at this
  have hdiff : ∀ {r c i j k}, r ≤ N → c ≤ N → i < N → j < N → k < 2 → ∀ f, vid N r c ≠ m (eid N i j k) f := by
    intro r c i j k hr hc hi hj hk f heq
    have h1 := (hvert hr hc).choose_spec.2.2.2.2
    have h2 := n4 _ ((n5 _).2 ⟨_, hel hi hj hk, f, heq.symm⟩)
    omega
  have hlt : ∀ R ≤ 2 * N, ∀ C ≤ 2 * N, μ R C < w1.vertices.length := by
    intro R hR C hC
    rcases hobj R hR C hC with ⟨r, -, c, -, -, -, h0⟩ | ⟨i, -, j, -, k, -, f, -, h0⟩ <;> exact lt_of_getElem? h0
  have hinj : ∀ R ≤ 2 * N, ∀ C ≤ 2 * N, ∀ R' ≤ 2 * N, ∀ C' ≤ 2 * N, μ R C = μ R' C' → R = R' ∧ C = C' := by
    intro R hR C hC R' hR' C' hC' he
    rcases hobj R hR C hC with ⟨r, hr, c, hc, rfl, rfl, h0⟩ | ⟨i, hi, j, hj, k, hk, f, hm, h0⟩ <;>
    rcases hobj R' hR' C' hC' with ⟨r', hr', c', hc', rfl, rfl, h0'⟩ | ⟨i', hi', j', hj', k', hk', f', hm', h0'⟩ <;>
    rw [he, h0'] at h0 <;> have h1 := Option.some.inj h0
    · have := vid_inj hc' hc h1
      omega
    · exact absurd h1.symm (hdiff hr hc hi' hj' hk' f')
    · exact absurd h1 (hdiff hr' hc' hi hj hk f)
    · have := (hshare hi' hj' hk' hi hj hk f' f).1 h1
      rw [hm, hm'] at this
      exact ⟨(Prod.mk.inj this).1.symm, (Prod.mk.inj this).2.symm⟩
  have hsurj : ∀ x < w1.vertices.length, ∃ R ≤ 2 * N, ∃ C ≤ 2 * N, μ R C = x := by
    intro x hx
    obtain ⟨p, p1⟩ : ∃ p, w1.vertices[x]? = some p := ⟨_, List.getElem?_eq_getElem hx⟩
    by_cases hxl : x < (N + 1) * (N + 1)
    · obtain ⟨r, c, hc, rfl⟩ := exists_vid N x
      have hr : r ≤ N := by
        by_contra hcon
        have : (N + 1) * (N + 1) ≤ r * (N + 1) := Nat.mul_le_mul_right _ (by omega)
        unfold vid at hxl; omega
      exact ⟨2 * r, by omega, 2 * c, by omega, hcor r hr c hc⟩
    · have hpn : p ∈ news := by
        rw [n1, hv2, List.getElem?_append_right (by rw [List.length_range]; omega)] at p1
        exact List.mem_of_getElem? p1
      obtain ⟨a, ha, f, rfl⟩ := (n5 p).1 hpn
      rw [g.elements, List.mem_range] at ha
      obtain ⟨i, hi, j, hj, k, hk, rfl⟩ := exists_eid ha
      obtain ⟨q1, q2, -⟩ := midOf_range hi hj hk f
      exact ⟨_, q1, _, q2, hplace1 (hmid hi hj hk f) p1⟩
  have hdofs : ∀ {i j k}, i < N → j < N → k < 2 → ∃ x : MElem T, w1.E[eid N i j k]? = some { x with dofs := [vid N (HyperCube.corner i j k 0).1 (HyperCube.corner i j k 0).2,
      vid N (HyperCube.corner i j k 1).1 (HyperCube.corner i j k 1).2, vid N (HyperCube.corner i j k 2).1 (HyperCube.corner i j k 2).2, m (eid N i j k) 2, m (eid N i j k) 0, m (eid N i j k) 1] } := by
    intro i j k hi hj hk
    obtain ⟨y, c0, c1, c2, y1, y2, y3⟩ := hq.dofs _ (hel hi hj hk)
    obtain ⟨z, z', z1, z2, z3, -⟩ := hE.E _ (hel hi hj hk)
    rw [y1] at z2
    obtain rfl := Option.some.inj z2
    have := g.verts i hi j hj k hk
    rw [vertsOf_some z1, ← z3, y2] at this
    simp only [List.ofFn_succ, List.ofFn_zero, List.cons.injEq, Option.some.injEq, and_true] at this
    obtain ⟨rfl, rfl, rfl⟩ := this
    exact ⟨y, y3⟩
  refine ⟨μ, ⟨hcor, hinj, hlt, hsurj, ?_, ?_, ?_, ?_⟩⟩
  · have := Finset.card_nbij (s := Finset.range (2 * N + 1) ×ˢ Finset.range (2 * N + 1)) (t := Finset.range w1.vertices.length) (fun p => μ p.1 p.2)
      (fun p hp => by
        simp only [Finset.coe_product, Set.mem_prod, Finset.mem_product, Finset.mem_range, Finset.coe_range, Set.mem_Iio, Finset.mem_coe] at hp ⊢
        exact hlt _ (by omega) _ (by omega))
      (fun p hp q hq he => by
        simp only [Finset.coe_product, Set.mem_prod, Finset.mem_product, Finset.mem_range, Finset.coe_range, Set.mem_Iio, Finset.mem_coe] at hp hq
        have := hinj _ (by omega) _ (by omega) _ (by omega) _ (by omega) he
        exact Prod.ext this.1 this.2)
      (fun x hx => by
        simp only [Finset.mem_range, Finset.coe_range, Set.mem_Iio, Finset.mem_coe] at hx
        obtain ⟨R, hR, C, hC, e⟩ := hsurj x hx
        refine ⟨(R, C), ?_, e⟩
        simp only [Finset.coe_product, Set.mem_prod, Finset.mem_product, Finset.mem_range, Finset.coe_range, Set.mem_Iio, Finset.mem_coe]
        omega)
    rw [Finset.card_product, Finset.card_range, Finset.card_range] at this
    exact this.symm
  · intro R hR C hC
    rcases hobj R hR C hC with ⟨r, hr, c, hc, rfl, rfl, h0⟩ | ⟨i, hi, j, hj, k, hk, f, hm, h0⟩
    · obtain ⟨v, v1, -, v2, v3, -⟩ := hvert hr hc
      refine ⟨v, by unfold vertexAt; rw [h0]; exact v1, ?_, ?_⟩
      · rw [v2]; push_cast
        congr 1
        · ring
        · congr 1; ring
      · rw [v3, if_pos (c := 2 * r % 2 = 0 ∧ _) (by omega), Nat.add_zero]
        split_ifs <;> first | rfl | omega
    · obtain ⟨v, v1, v2, -, -, v3, v4⟩ := hq.mid _ (hel hi hj hk) f
      refine ⟨v, by unfold vertexAt; rw [h0]; exact v1, ?_, ?_⟩
      · rw [v2]
        have c0 : ∀ q ∈ Finset.univ.erase f, coords w (eid N i j k) q 0 = off.1 + h * ((HyperCube.corner i j k q).2 : T) := fun q _ => (g.coords i hi j hj k hk q).1
        have c1 : ∀ q ∈ Finset.univ.erase f, coords w (eid N i j k) q 1 = off.2 + h * ((HyperCube.corner i j k q).1 : T) := fun q _ => (g.coords i hi j hj k hk q).2
        rw [Finset.sum_congr rfl c0, Finset.sum_congr rfl c1, (sum_mid _ _ i j k f).1, (sum_mid _ _ i j k f).2, hm]
        congr 1
        · ring
        · congr 1; ring
      · have hodd := (midOf_range hi hj hk f).2.2
        have hal := alone_grid g hi hj hk f
        rw [hm] at hodd hal
        rw [if_neg hodd]
        by_cases hrim : R = 0 ∨ R = 2 * N ∨ C = 0 ∨ C = 2 * N
        · rw [if_pos hrim, v3 (hal.2 hrim)]
        · rw [if_neg hrim, v4 (fun h0 => hrim (hal.1 h0))]
  · intro i hi j hj k hk q
    obtain ⟨x, hx⟩ := hdofs hi hj hk
    obtain ⟨hr, hc⟩ := corner_le (k := k) hi hj q
    obtain ⟨v, v1, v2, -⟩ := hvert hr hc
    rw [hcor _ hr _ hc]
    unfold dofIndex
    rw [hx, Option.bind_some]
    fin_cases q <;> simp only [Fin.zero_eta, Fin.mk_one, Fin.reduceFinMk] at v1 v2 ⊢ <;>
      (refine (Option.bind_eq_some_iff.2 ⟨_, rfl, ?_⟩); rw [v1, Option.map_some, v2])
  · intro i hi j hj k hk q
    obtain ⟨x, hx⟩ := hdofs hi hj hk
    obtain ⟨v, v1, v2⟩ := hq.index _ _ (hmid hi hj hk (q + 2))
    unfold dofIndex
    rw [hx, Option.bind_some, ← v2]
    have hv' : (w1.V[m (eid N i j k) (q + 2)]?).map (·.gi) = some v.gi := by rw [v1, Option.map_some]
    rw [← hv']
    fin_cases q <;> rfl

end NS.Props.FemMain

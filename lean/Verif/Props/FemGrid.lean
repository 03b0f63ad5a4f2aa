/-
Property theorems C68: the finite element example on the generated grid.
-/
import Verif.Props.FemGradient
import Verif.Props.HyperCube

set_option linter.unusedSectionVars false
set_option linter.unusedSimpArgs false

namespace NS.Props.Fem
open NS NS.World NS.Fem NS.MatOps NS.LawfulMat Matrix NS.Props.Mesh NS.Props.Shape NS.HyperCube NS.Props.HyperCube
open NS.Props.LU (IsMat IsVec isVec_iff isMat_of)
open NS.Props.Simplex (area2 prepOf)
variable {T : Type} [Field T] [LinearOrder T] [IsStrictOrderedRing T] {M : Type} [MatOps M T] [LawfulMat M T] {n : Nat}

/-! ### Sums over the elements of the grid -/

theorem list_sum_range (f : Nat → T) (m : Nat) : ((List.range m).map f).sum = ∑ a ∈ Finset.range m, f a := by
  induction m with
  | zero => simp
  | succ m ih => rw [List.range_succ, List.map_append, List.sum_append, ih, Finset.sum_range_succ]; simp

theorem sum_pairs (f : Nat → T) (m : Nat) : (∑ a ∈ Finset.range (2 * m), f a) = ∑ b ∈ Finset.range m, (f (2 * b + 0) + f (2 * b + 1)) := by
  induction m with
  | zero => simp
  | succ m ih =>
    rw [show 2 * (m + 1) = 2 * m + 1 + 1 by omega, Finset.sum_range_succ, Finset.sum_range_succ, ih, Finset.sum_range_succ]
    simp only [Nat.add_zero]; ring

theorem sum_rows (f : Nat → T) (a b : Nat) : (∑ x ∈ Finset.range (a * b), f x) = ∑ i ∈ Finset.range a, ∑ j ∈ Finset.range b, f (i * b + j) := by
  induction a with
  | zero => simp
  | succ a ih => rw [Nat.succ_mul, Finset.sum_range_add, ih, Finset.sum_range_succ]

theorem sum_cells (f : Nat → T) (n0 n1 : Nat) : ((List.range (2 * (n0 * n1))).map f).sum =
    ∑ i ∈ Finset.range n0, ∑ j ∈ Finset.range n1, (f (eid n1 i j 0) + f (eid n1 i j 1)) := by
  rw [list_sum_range, sum_pairs, sum_rows]
  rfl

/-- selecting one cell -/
theorem sum_pick {N d e r c : Nat} (X : Nat → Nat → T) (hd : d ≤ r) (he : e ≤ c) (hr : r - d < N) (hc : c - e < N) :
    (∑ i ∈ Finset.range N, ∑ j ∈ Finset.range N, if i + d = r ∧ j + e = c then X i j else 0) = X (r - d) (c - e) := by
  rw [Finset.sum_eq_single (r - d), Finset.sum_eq_single (c - e)]
  · rw [if_pos ⟨by omega, by omega⟩]
  · intro j _ hj; rw [if_neg (by omega)]
  · intro h; exact absurd (Finset.mem_range.2 hc) h
  · intro i _ hi
    refine Finset.sum_eq_zero fun j _ => ?_
    rw [if_neg (by omega)]
  · intro h; exact absurd (Finset.mem_range.2 hr) h

/-! ### The mesh of the example -/

/-- the element matrices of the two kinds of triangles, in units of `kappa` -/
def cellMat (k : Nat) : Fin 3 → Fin 3 → T :=
  if k = 0 then ![![1 / 2, -1 / 2, 0], ![-1 / 2, 1, -1 / 2], ![0, -1 / 2, 1 / 2]]
  else ![![1 / 2, 0, -1 / 2], ![0, 1 / 2, -1 / 2], ![-1 / 2, -1 / 2, 1]]

/-- what the calls before the assembling leave -/
structure GridReady (N : Nat) (h : T) (off : T × T) (w w'' : World T) : Prop where
  elements : w.elements = List.range (2 * (N * N))
  vertices : w''.vertices = List.range ((N + 1) * (N + 1))
  vertex : ∀ r ≤ N, ∀ c ≤ N, ∃ v, vertexAt w'' (vid N r c) = some v ∧ v.pos = [off.1 + h * (c : T), off.2 + h * (r : T)] ∧
    v.flags = if r = 0 ∨ r = N ∨ c = 0 ∨ c = N then 1 else 0
  dof : ∀ i < N, ∀ j < N, ∀ k < 2, ∀ m : Fin 3, dofIndex w'' (eid N i j k) m = some (vid N (corner i j k m).1 (corner i j k m).2)
  coords : ∀ i < N, ∀ j < N, ∀ k < 2, ∀ m : Fin 3, coords w (eid N i j k) m 0 = off.1 + h * ((corner i j k m).2 : T) ∧
    coords w (eid N i j k) m 1 = off.2 + h * ((corner i j k m).1 : T)
  verts : ∀ i < N, ∀ j < N, ∀ k < 2, w.vertsOf (eid N i j k) = (List.ofFn fun m : Fin 3 => some (vid N (corner i j k m).1 (corner i j k m).2))

theorem prepare_V {u u' : World T} {eps : T} (h : u.prepare eps = .ok u') : u'.V = u.V ∧ u'.vertices = u.vertices := by
  unfold World.prepare at h
  refine (Sat.of_ok (Q := fun u' : World T => u'.V = u.V ∧ u'.vertices = u.vertices) (E := fun _ => True) ?_ h)
  refine sat_forList (fun _ (v : World T) => v.V = u.V ∧ v.vertices = u.vertices) _ ⟨rfl, rfl⟩ ?_
  intro pre S suf v _ hv
  refine sat_of_ok fun v' hr => ?_
  rw [bind_ok_iff] at hr
  obtain ⟨e, -, hr⟩ := hr
  rw [bind_ok_iff] at hr
  obtain ⟨s, -, hr⟩ := hr
  obtain rfl := Except.ok.inj hr
  exact hv

theorem grid_ready {N : Nat} (hN : 1 ≤ N) {L : T} (hL : L ≠ 0) (off : T × T) :
    ∃ w w1 w2 w3 : World T, Built w ∧ Distinct w ∧ Closed w ∧ w.elements ≠ [] ∧ generate N N (L, L) off = .ok w1 ∧ w1.prepare 0 = .ok w2 ∧
      Pipeline w w2 ∧ Shape.prepareMesh 1 w2 = .ok w3 ∧ GridReady N (L / N) off w w3 := by
  obtain ⟨w, e, h⟩ := grid_ok hN hN (L, L) off
  have h : GG w N N (posOf N off.1 off.2 (L / N) (L / N)) (flag N N) := h
  have hd := distinct h
  have hb := h.built
  have hI := built_inv hb
  obtain ⟨w1, e1, ha⟩ := (C51_setupNeighbors hb hd).1 (not_overshared h)
  obtain ⟨kV, kvs, kes, kvo⟩ := ha.keep
  have hN' : (N : T) ≠ 0 := by exact_mod_cast (by omega : N ≠ 0)
  have hh : L / N ≠ 0 := div_ne_zero hL hN'
  have hvlt : ∀ {r c}, r ≤ N → c ≤ N → vid N r c < (N + 1) * (N + 1) := by
    intro r c hr hc
    have : r * (N + 1) ≤ N * (N + 1) := Nat.mul_le_mul_right _ hr
    unfold vid
    rw [Nat.add_mul]; omega
  have hvert : ∀ {r c}, r ≤ N → c ≤ N → ∃ v, w.V[vid N r c]? = some v ∧ v.pos = [off.1 + L / N * (c : T), off.2 + L / N * (r : T)] ∧
      (v.flags = if r = 0 ∨ r = N ∨ c = 0 ∨ c = N then 1 else 0) ∧ v.gi = vid N r c := by
    intro r c hr hc
    obtain ⟨v, v1, v2, v3⟩ := h.v _ (hvlt hr hc)
    refine ⟨v, v1, ?_, ?_, ?_⟩
    · rw [v2, posOf, vid_div hc, vid_mod hc]
    · rw [v3, flag, vid_div hc, vid_mod hc]
    · refine hI.gi _ _ _ ?_ v1
      rw [h.verts, List.getElem?_range (hvlt hr hc)]
  have hco : ∀ i < N, ∀ j < N, ∀ k < 2, ∀ m : Fin 3, coords w (eid N i j k) m 0 = off.1 + L / N * ((corner i j k m).2 : T) ∧
      coords w (eid N i j k) m 1 = off.2 + L / N * ((corner i j k m).1 : T) := by
    intro i hi j hj k hk m
    obtain ⟨v, v1, v2, -⟩ := hvert (corner_le (k := k) hi hj m).1 (corner_le (k := k) hi hj m).2
    unfold coords
    rw [vertsOf_corner h hi hj hk m]
    simp only [Option.join_some, Option.bind_some, v1, v2]
    exact ⟨rfl, rfl⟩
  have hv : ∀ a ∈ w.elements, elementVolume w a ≠ 0 := by
    intro a haw
    rw [h.elems, List.mem_range] at haw
    obtain ⟨i, hi, j, hj, k, hk, rfl⟩ := exists_eid haw
    have hc := hco i hi j hj k hk
    unfold elementVolume
    rw [area2_eq, (hc 0).1, (hc 0).2, (hc 1).1, (hc 1).2, (hc 2).1, (hc 2).2]
    rw [abs_ne_zero]
    have hne : (1 / 2 : T) * -(L / N * (L / N)) ≠ 0 := mul_ne_zero (by norm_num) (neg_ne_zero.2 (mul_ne_zero hh hh))
    obtain rfl | rfl : k = 0 ∨ k = 1 := by omega
    · convert hne using 2
      simp only [corner, if_pos rfl, Matrix.cons_val_zero, Matrix.cons_val_one, Matrix.cons_val]
      push_cast; ring
    · convert hne using 2
      simp only [corner, if_neg one_ne_zero, Matrix.cons_val_zero, Matrix.cons_val_one, Matrix.cons_val]
      push_cast; ring
  obtain ⟨w2, e2⟩ := (C64_prepare hb hd e1).1 hv
  have hp : Pipeline w w2 := ⟨w1, w1, e1, .inl rfl, e2⟩
  obtain ⟨w3, e3, hl⟩ := C56_order1 hb hd hp.setup
  have hE := edges_of hb hd hp.setup
  have hV3 : w3.V = w.V := hl.keep.1.trans ((prepare_V e2).1.trans kV)
  have hvs3 : w3.vertices = List.range ((N + 1) * (N + 1)) := by
    rw [hl.keep.2.1, (prepare_V e2).2, kvs, h.verts]
  have hclosed : Closed w := by
    intro a haw q hq
    rw [h.elems, List.mem_range] at haw
    obtain ⟨i, hi, j, hj, k, hk, rfl⟩ := exists_eid haw
    rw [mem_vertsOf h hi hj hk] at hq
    obtain ⟨m, rfl⟩ := hq
    rw [h.verts, List.mem_range]
    exact hvlt (corner_le hi hj m).1 (corner_le hi hj m).2
  have hel : w.elements ≠ [] := by
    rw [h.elems]
    intro h0
    have := congrArg List.length h0
    simp at this
    omega
  refine ⟨w, w1, w2, w3, hb, hd, hclosed, hel, ?_, e2, hp, e3, h.elems, hvs3, fun r hr c hc => ?_, fun i hi j hj k hk m => ?_, hco, fun i hi j hj k hk => ?_⟩
  · unfold generate
    rw [e, ok_bind]; exact e1
  · obtain ⟨v, v1, v2, v3, -⟩ := hvert hr hc
    refine ⟨v, ?_, v2, v3⟩
    unfold vertexAt
    rw [hvs3, List.getElem?_range (hvlt hr hc), Option.bind_some, hV3, v1]
  · have haw : eid N i j k ∈ w.elements := by rw [h.elems, List.mem_range]; exact eid_lt hi hj hk
    obtain ⟨x, d, x1, x2, x3, x4⟩ := hl.dofs _ (by rw [hE.elements]; exact haw)
    obtain ⟨y, y', y1, y2, y3, -⟩ := hE.E _ haw
    rw [x1] at y2
    obtain rfl := Option.some.inj y2
    have hdm : d[(m : Nat)]? = some (vid N (corner i j k m).1 (corner i j k m).2) := by
      have := vertsOf_corner h hi hj hk m
      rw [vertsOf_some y1, ← y3, x2, List.getElem?_map] at this
      obtain ⟨q, q1, q2⟩ := Option.map_eq_some_iff.1 this
      rw [q1, Option.some.inj q2]
    obtain ⟨v, v1, -, -, v4⟩ := hvert (corner_le (k := k) hi hj m).1 (corner_le (k := k) hi hj m).2
    unfold dofIndex
    rw [x4, Option.bind_some]
    simp only
    rw [hdm, Option.bind_some, hV3, v1, Option.map_some, v4]
  · rw [h.e _ (eid_lt hi hj hk)]
    obtain rfl | rfl : k = 0 ∨ k = 1 := by omega
    · rw [elemOf_even hj]; rfl
    · rw [elemOf_odd hj]; rfl

theorem grid_energy {N : Nat} {h : T} (hh : h ≠ 0) {off : T × T} {w w'' : World T} (g : GridReady N h off w w'') {i j k : Nat}
    (hi : i < N) (hj : j < N) (hk : k < 2) (m m' : Fin 3) : energy 1 (coords w (eid N i j k)) m m' = kappa * cellMat k m m' := by
  rw [energy_one]
  congr 1
  have hc := g.coords i hi j hj k hk
  have hA : area2 (coords w (eid N i j k)) = -(h * h) := by
    rw [area2_eq, (hc 0).1, (hc 0).2, (hc 1).1, (hc 1).2, (hc 2).1, (hc 2).2]
    obtain rfl | rfl : k = 0 ∨ k = 1 := by omega
    · simp only [corner, if_pos rfl, Matrix.cons_val_zero, Matrix.cons_val_one, Matrix.cons_val]
      push_cast; ring
    · simp only [corner, if_neg one_ne_zero, Matrix.cons_val_zero, Matrix.cons_val_one, Matrix.cons_val]
      push_cast; ring
  rw [inv_apply, inv_apply, hA, abs_neg, abs_mul_self, (hc 0).1, (hc 0).2, (hc 1).1, (hc 1).2, (hc 2).1, (hc 2).2, dotProduct, Fin.sum_univ_two]
  obtain rfl | rfl : k = 0 ∨ k = 1 := by omega
  · simp only [corner, cellMat, if_pos rfl, Matrix.cons_val_zero, Matrix.cons_val_one, Matrix.cons_val]
    push_cast
    fin_cases m <;> fin_cases m' <;> simp <;> field_simp <;> first | ring1 | (ring_nf; simp)
  · simp only [corner, cellMat, if_neg one_ne_zero, Matrix.cons_val_zero, Matrix.cons_val_one, Matrix.cons_val]
    push_cast
    fin_cases m <;> fin_cases m' <;> simp <;> field_simp <;> first | ring1 | (ring_nf; simp)

/-- indicator of a grid position -/
def at2 (r' c' : Nat) (x : Nat × Nat) : T := if x = (r', c') then 1 else 0

theorem grid_term {N : Nat} {h : T} (hh : h ≠ 0) {off : T × T} {w w'' : World T} (g : GridReady N h off w w'') {i j k r c r' c' : Nat}
    (hi : i < N) (hj : j < N) (hk : k < 2) (hc : c ≤ N) (hc' : c' ≤ N) :
    (∑ m ∈ Finset.range 3, ∑ m' ∈ Finset.range 3,
      if dofIndex w'' (eid N i j k) m = some (vid N r c) ∧ dofIndex w'' (eid N i j k) m' = some (vid N r' c') then
        energy 1 (coords w (eid N i j k)) m m' else 0) =
      ∑ m : Fin 3, if corner i j k m = (r, c) then ∑ m' : Fin 3, kappa * cellMat k m m' * at2 r' c' (corner i j k m') else 0 := by
  have hiff : ∀ (m : Fin 3) (x y : Nat), y ≤ N → (dofIndex w'' (eid N i j k) m = some (vid N x y) ↔ corner i j k m = (x, y)) := by
    intro m x y hy
    rw [g.dof i hi j hj k hk m, Option.some.injEq]
    constructor
    · intro hv
      obtain ⟨a, b⟩ := vid_inj (corner_le hi hj m).2 hy hv
      exact Prod.ext a b
    · intro hv; rw [hv]
  rw [Finset.sum_range]
  refine Finset.sum_congr rfl fun m _ => ?_
  rw [Finset.sum_range]
  split
  · next hm =>
    refine Finset.sum_congr rfl fun m' _ => ?_
    simp only [hiff m r c hc, hiff m' r' c' hc', hm, true_and, at2]
    split
    · rw [grid_energy hh g hi hj hk, mul_one]
    · rw [mul_zero]
  · next hm =>
    refine Finset.sum_eq_zero fun m' _ => ?_
    rw [if_neg]
    rintro ⟨h1, -⟩
    exact hm ((hiff m r c hc).1 h1)

/-- the assembled matrix at a vertex inside the grid -/
theorem grid_entry {N : Nat} {h : T} (hh : h ≠ 0) {off : T × T} {w w'' : World T} (g : GridReady N h off w w'') {r c r' c' : Nat}
    (hr : 0 < r) (hrN : r < N) (hc : 0 < c) (hcN : c < N) (hc' : c' ≤ N) (x y : Fin n)
    (hx : (x : Nat) = vid N r c) (hy : (y : Nat) = vid N r' c') :
    (gather w'' (Shape.dof 2 1) (fun a i j => energy 1 (coords w a) i j) w.elements : Matrix (Fin n) (Fin n) T) x y =
      kappa * (4 * at2 r' c' (r, c) - at2 r' c' (r + 1, c) - at2 r' c' (r - 1, c) - at2 r' c' (r, c + 1) - at2 r' c' (r, c - 1)) := by
  rw [gather, Matrix.of_apply, g.elements, sum_cells, hx, hy]
  have hdof : Shape.dof 2 1 = 3 := rfl
  rw [hdof]
  have step : ∀ i ∈ Finset.range N, ∀ j ∈ Finset.range N, _ := fun i hi j hj => congrArg₂ (· + ·)
    (grid_term hh g (k := 0) (r := r) (c := c) (r' := r') (c' := c') (Finset.mem_range.1 hi) (Finset.mem_range.1 hj) (by omega) (by omega) hc')
    (grid_term hh g (k := 1) (r := r) (c := c) (r' := r') (c' := c') (Finset.mem_range.1 hi) (Finset.mem_range.1 hj) (by omega) (by omega) hc')
  rw [Finset.sum_congr rfl fun i hi => Finset.sum_congr rfl fun j hj => step i hi j hj]
  simp only [Fin.sum_univ_three, corner, ↓reduceIte, one_ne_zero, Matrix.cons_val_zero, Matrix.cons_val_one, Matrix.cons_val,
    Finset.sum_add_distrib, cellMat, Prod.mk.injEq]
  have p00 := fun X => sum_pick (T := T) (N := N) (d := 0) (e := 0) (r := r) (c := c) X (by omega) (by omega) (by omega) (by omega)
  have p10 := fun X => sum_pick (T := T) (N := N) (d := 1) (e := 0) (r := r) (c := c) X (by omega) (by omega) (by omega) (by omega)
  have p01 := fun X => sum_pick (T := T) (N := N) (d := 0) (e := 1) (r := r) (c := c) X (by omega) (by omega) (by omega) (by omega)
  have p11 := fun X => sum_pick (T := T) (N := N) (d := 1) (e := 1) (r := r) (c := c) X (by omega) (by omega) (by omega) (by omega)
  simp only [Nat.add_zero] at p00 p10 p01 p11
  rw [p00, p10, p11, p00, p11, p01]
  have e1 : r - 1 + 1 = r := by omega
  have e2 : c - 1 + 1 = c := by omega
  simp only [Nat.sub_zero, e1, e2]
  ring

theorem system_mat {w w' w'' : World T} {order : Nat} (h : Built w) (hd : Distinct w) (hc : Closed w) (hp : Pipeline w w')
    (ho : order = 1 ∨ order = 2) (e : Shape.prepareMesh order w' = .ok w'') (hv : w.vertices ≠ [])
    (hn : w''.vertices.length = n) {eps : T} (hk : NoneDropped eps order w) (src g : List T → T) {a : M} {b : List T}
    {A G : Matrix (Fin n) (Fin n) T} (hs : system eps order src g w'' = .ok (a, b)) (ha : IsMat a n A)
    (hG : G = gather w'' (Shape.dof 2 order) (fun a i j => energy order (coords w a) i j) w.elements) :
    A = reducedMat w'' ((∑ i, |G i i|) / n) G := by
  have hr := ready_of h hd hc hp ho e hv
  have hD := dofs_in h hd hc hp.setup ho e
  have hN := C60_numbered h hd hp.setup ho e
  have hn0 : 0 < n := by rw [← hn]; exact hr.pos
  obtain ⟨a', b', e1, e2, e3⟩ := assemble_ok (M := M) (eps := eps) ho src hr hn
  rw [sysMat_gather ho hD.elements hk, ← hG] at e2
  obtain ⟨a2, b2, f1, f2, -⟩ := C60_constrain hN hn e2 e3 ((∑ i, |G i i|) / n) g
  unfold system at hs
  rw [e1, ok_bind, C60_avgMid hN hn hn0 e2, ok_bind, f1] at hs
  obtain ⟨rfl, rfl⟩ := Prod.mk.inj (Except.ok.inj hs)
  ext i j
  rw [← ha.val_eq, ← f2.val_eq]

/-- the rim of the grid -/
def Rim (N r c : Nat) : Prop := r = 0 ∨ r = N ∨ c = 0 ∨ c = N

instance (N r c : Nat) : Decidable (Rim N r c) := by unfold Rim; infer_instance

theorem grid_onBoundary {N : Nat} {h : T} {off : T × T} {w w'' : World T} (g : GridReady N h off w w'') {r c : Nat} (hr : r ≤ N) (hc : c ≤ N) :
    OnBoundary w'' (vid N r c) ↔ Rim N r c := by
  obtain ⟨v, v1, -, v3⟩ := g.vertex r hr c hc
  unfold OnBoundary
  rw [v1]
  simp only [Option.some.injEq, exists_eq_left', v3]
  unfold Rim
  split
  · next h => simp [h]
  · next h => simp [h]

theorem grid_noneDropped {N : Nat} {h : T} (hh : h ≠ 0) {off : T × T} {w w'' : World T} (g : GridReady N h off w w'') {eps : T}
    (he : eps < kappa / 2) : NoneDropped eps 1 w := by
  intro a ha i hi j hj hne
  rw [g.elements, List.mem_range] at ha
  obtain ⟨p, hp, q, hq, k, hk, rfl⟩ := exists_eid ha
  have := grid_energy hh g hp hq hk ⟨i, hi⟩ ⟨j, hj⟩
  simp only at this
  rw [this] at hne ⊢
  have hk0 : (0 : T) < kappa := by unfold kappa; norm_num
  rw [abs_mul, abs_of_pos hk0]
  have hcm : (1 / 2 : T) ≤ |cellMat k ⟨i, hi⟩ ⟨j, hj⟩| := by
    have hne' : (cellMat k ⟨i, hi⟩ ⟨j, hj⟩ : T) ≠ 0 := fun h0 => hne (by rw [h0, mul_zero])
    have h1 : |(-1 : T) / 2| = 1 / 2 := by rw [abs_div, abs_neg, abs_one, abs_two]
    have h2 : |(1 : T) / 2| = 1 / 2 := by rw [abs_div, abs_one, abs_two]
    revert hne'
    unfold cellMat
    interval_cases k <;> interval_cases i <;> interval_cases j <;> intro hne' <;> simp at hne' ⊢ <;>
      (try rw [h1]) <;> (try rw [h2]) <;> norm_num
  calc eps < kappa * (1 / 2) := by rw [mul_one_div]; exact he
    _ ≤ _ := mul_le_mul_of_nonneg_left hcm hk0.le

theorem grid_linked {N : Nat} {h : T} {off : T × T} {w w'' : World T} (g : GridReady N h off w w'') (hE : w''.elements = w.elements)
    {r c : Nat} (hr : r < N) (hc : c < N) : Linked 1 w'' (vid N (r + 1) c) (vid N r c) := by
  refine ⟨eid N r c 0, ?_, 1, by omega, 0, by omega, g.dof r hr c hc 0 (by omega) 1, g.dof r hr c hc 0 (by omega) 0⟩
  rw [hE, g.elements, List.mem_range]
  exact eid_lt hr hc (by omega)

theorem grid_anchored {N : Nat} {h : T} {off : T × T} {w w'' : World T} (g : GridReady N h off w w'') (hE : w''.elements = w.elements) :
    Anchored 1 w'' := by
  intro x hx
  rw [g.vertices, List.length_range] at hx
  obtain ⟨r, c, hc, rfl⟩ := exists_vid N x
  have hr : r ≤ N := by
    by_contra hcon
    have : (N + 1) * (N + 1) ≤ r * (N + 1) := Nat.mul_le_mul_right _ (by omega)
    unfold vid at hx; omega
  clear hx
  induction r with
  | zero => exact ⟨_, .refl, (grid_onBoundary g hr hc).2 (.inl rfl)⟩
  | succ r ih =>
    by_cases hcN : c = N
    · exact ⟨_, .refl, (grid_onBoundary g hr hc).2 (.inr (.inr (.inr hcN)))⟩
    · obtain ⟨s, s1, s2⟩ := ih (by omega)
      exact ⟨s, .head (grid_linked g hE (by omega) (by omega)) s1, s2⟩

/-- the sum of the diagonal -/
theorem grid_trace {N : Nat} {h : T} (hh : h ≠ 0) {off : T × T} {w w'' : World T} (g : GridReady N h off w w'')
    (hn : (N + 1) * (N + 1) = n) :
    (∑ x : Fin n, (gather w'' (Shape.dof 2 1) (fun a i j => energy 1 (coords w a) i j) w.elements : Matrix (Fin n) (Fin n) T) x x) =
      4 * kappa * N ^ 2 := by
  have hdof : Shape.dof 2 1 = 3 := rfl
  have one : ∀ i < N, ∀ j < N, ∀ k < 2, (∑ x : Fin n, ∑ m ∈ Finset.range 3, ∑ m' ∈ Finset.range 3,
      if dofIndex w'' (eid N i j k) m = some (x : Nat) ∧ dofIndex w'' (eid N i j k) m' = some (x : Nat) then
        energy 1 (coords w (eid N i j k)) m m' else 0) = 2 * kappa := by
    intro i hi j hj k hk
    have hlt : ∀ m : Fin 3, vid N (corner i j k m).1 (corner i j k m).2 < n := by
      intro m
      have := corner_le (k := k) hi hj m
      have : (corner i j k m).1 * (N + 1) ≤ N * (N + 1) := Nat.mul_le_mul_right _ this.1
      unfold vid
      rw [← hn, Nat.add_mul]; omega
    have hinj : ∀ m m' : Fin 3, vid N (corner i j k m).1 (corner i j k m).2 = vid N (corner i j k m').1 (corner i j k m').2 ↔ m = m' := by
      intro m m'
      constructor
      · intro hv
        obtain ⟨a, b⟩ := vid_inj (corner_le hi hj m).2 (corner_le hi hj m').2 hv
        exact corner_inj i j k (Prod.ext a b)
      · rintro rfl; rfl
    rw [Finset.sum_comm, Finset.sum_range]
    have : ∀ m : Fin 3, (∑ x : Fin n, ∑ m' ∈ Finset.range 3,
        if dofIndex w'' (eid N i j k) m = some (x : Nat) ∧ dofIndex w'' (eid N i j k) m' = some (x : Nat) then
          energy 1 (coords w (eid N i j k)) m m' else 0) = kappa * cellMat k m m := by
      intro m
      rw [Finset.sum_comm, Finset.sum_range, Finset.sum_eq_single m]
      · rw [Finset.sum_eq_single (⟨_, hlt m⟩ : Fin n)]
        · rw [g.dof i hi j hj k hk m, if_pos ⟨rfl, rfl⟩, grid_energy hh g hi hj hk]
        · intro x _ hx
          rw [if_neg]
          rintro ⟨h1, -⟩
          rw [g.dof i hi j hj k hk m, Option.some.injEq] at h1
          exact hx (Fin.ext h1.symm)
        · intro hx; exact absurd (Finset.mem_univ _) hx
      · intro m' _ hm'
        refine Finset.sum_eq_zero fun x _ => ?_
        rw [if_neg]
        rintro ⟨h1, h2⟩
        rw [g.dof i hi j hj k hk m, Option.some.injEq] at h1
        rw [g.dof i hi j hj k hk m', Option.some.injEq, ← h1] at h2
        exact hm' ((hinj _ _).1 h2)
      · intro hx; exact absurd (Finset.mem_univ _) hx
    rw [Finset.sum_congr rfl fun m _ => this m, Fin.sum_univ_three]
    unfold cellMat
    interval_cases k <;> simp <;> ring
  simp only [gather, Matrix.of_apply, g.elements, hdof, sum_cells]
  rw [Finset.sum_comm]
  have : ∀ i ∈ Finset.range N, (∑ x : Fin n, ∑ j ∈ Finset.range N,
      ((∑ m ∈ Finset.range 3, ∑ m' ∈ Finset.range 3,
          if dofIndex w'' (eid N i j 0) m = some (x : Nat) ∧ dofIndex w'' (eid N i j 0) m' = some (x : Nat) then
            energy 1 (coords w (eid N i j 0)) m m' else 0) +
        ∑ m ∈ Finset.range 3, ∑ m' ∈ Finset.range 3,
          if dofIndex w'' (eid N i j 1) m = some (x : Nat) ∧ dofIndex w'' (eid N i j 1) m' = some (x : Nat) then
            energy 1 (coords w (eid N i j 1)) m m' else 0)) = N * (4 * kappa) := by
    intro i hi
    rw [Finset.sum_comm]
    simp only [Finset.sum_add_distrib (s := (Finset.univ : Finset (Fin n)))]
    rw [Finset.sum_congr rfl fun j hj => by rw [one i (Finset.mem_range.1 hi) j (Finset.mem_range.1 hj) 0 (by omega),
      one i (Finset.mem_range.1 hi) j (Finset.mem_range.1 hj) 1 (by omega)]]
    rw [Finset.sum_const, Finset.card_range, nsmul_eq_mul]
    ring
  rw [Finset.sum_congr rfl this, Finset.sum_const, Finset.card_range, nsmul_eq_mul]
  ring

/-- the five-point stencil with eliminated rim, for the vertices in row `r`, column `c` and row `r'`, column `c'` -/
def fivePoint (N r c r' c' : Nat) : T :=
  if Rim N r c ∨ Rim N r' c' then (if r' = r ∧ c' = c then 4 * (N : T) ^ 2 / ((N + 1) * (N + 1)) else 0)
  else if r' = r ∧ c' = c then 4
  else if (r' = r ∧ (c' = c + 1 ∨ c' + 1 = c)) ∨ (c' = c ∧ (r' = r + 1 ∨ r' + 1 = r)) then -1
  else 0

/-- C68: for every number of cells, the example's linear elements on the generated square grid give the five-point stencil
(times the rounding factor of the quadrature weights), which is symmetric positive definite; the rim is decoupled. -/
theorem C68_grid {N : Nat} (hN : 1 ≤ N) {L : T} (hL : L ≠ 0) (off : T × T) {eps : T} (he : eps < kappa / 2) (src g : List T → T) :
    ∃ (w1 w2 w3 : World T) (a : M) (b : List T) (A : Matrix (Fin ((N + 1) * (N + 1))) (Fin ((N + 1) * (N + 1))) T)
      (B : Fin ((N + 1) * (N + 1)) → T),
      generate N N (L, L) off = .ok w1 ∧ w1.prepare 0 = .ok w2 ∧ Shape.prepareMesh 1 w2 = .ok w3 ∧ system eps 1 src g w3 = .ok (a, b) ∧
      IsMat a _ A ∧ IsVec b _ B ∧ NS.CG.SPD A ∧ (∃! x, A *ᵥ x = B) ∧
      ∀ r ≤ N, ∀ c ≤ N, ∀ r' ≤ N, ∀ c' ≤ N, ∀ x y : Fin ((N + 1) * (N + 1)), (x : Nat) = r * (N + 1) + c → (y : Nat) = r' * (N + 1) + c' →
        A x y = kappa * fivePoint N r c r' c' := by
  obtain ⟨w, w1, w2, w3, hb, hd, hc, hel, e1, e2, hp, e3, G⟩ := grid_ready hN hL off
  have hN' : (N : T) ≠ 0 := by exact_mod_cast (by omega : N ≠ 0)
  have hh : L / N ≠ 0 := div_ne_zero hL hN'
  have hD := dofs_in hb hd hc hp.setup (.inl rfl) e3
  have hk := grid_noneDropped hh G he
  have hn : w3.vertices.length = (N + 1) * (N + 1) := by rw [G.vertices, List.length_range]
  obtain ⟨a, b, A, B, s1, s2, s3, s4, s5, -⟩ := C67_system (M := M) hb hd hc hp (.inl rfl) e3 hel hn hk (grid_anchored G hD.elements) src g
  refine ⟨w1, w2, w3, a, b, A, B, e1, e2, e3, s1, s2, s3, s4, s5, fun r hr c hcN r' hr' c' hcN' x y hx hy => ?_⟩
  have hv : w.vertices ≠ [] := by
    obtain ⟨q, hq⟩ := List.exists_mem_of_ne_nil _ hel
    have hI := built_inv hb
    obtain ⟨z, hz⟩ : ∃ z, w.E[q]? = some z := ⟨_, List.getElem?_eq_getElem (hI.elt q hq)⟩
    intro h0
    obtain ⟨u, -, q1, -⟩ := hI.corner q hq z hz 0 (by omega)
    have := hc q hq u (by rw [vertsOf_some hz]; exact List.mem_of_getElem? q1)
    rw [h0] at this
    simp at this
  have hred := system_mat hb hd hc hp (.inl rfl) e3 hv hn hk src g s1 s2 rfl
  have hr0 := ready_of hb hd hc hp (.inl rfl) e3 hv
  have htr : (∑ i, |(gather w3 (Shape.dof 2 1) (fun a i j => energy 1 (coords w a) i j) w.elements :
      Matrix (Fin ((N + 1) * (N + 1))) (Fin ((N + 1) * (N + 1))) T) i i|) = 4 * kappa * N ^ 2 := by
    rw [← grid_trace hh G rfl]
    refine Finset.sum_congr rfl fun i _ => abs_of_nonneg ?_
    have hge : 0 ≤ (Pi.single i 1 : Fin ((N + 1) * (N + 1)) → T) ⬝ᵥ
        gather w3 (Shape.dof 2 1) (fun a i j => energy 1 (coords w a) i j) w.elements *ᵥ Pi.single i 1 := by
      rw [gather_form]
      refine List.sum_nonneg fun y hy => ?_
      obtain ⟨c, hc, rfl⟩ := List.mem_map.1 hy
      exact (energy_pos (.inl rfl) (hr0.area c (by rw [hD.elements]; exact hc)) _).1
    rw [Matrix.mulVec_single_one, single_one_dotProduct] at hge
    exact hge
  have hx' : (x : Nat) = vid N r c := hx
  have hy' : (y : Nat) = vid N r' c' := hy
  have hxy : x = y ↔ r' = r ∧ c' = c := by
    rw [Fin.ext_iff, hx', hy']
    constructor
    · intro hv
      obtain ⟨p, q⟩ := vid_inj hcN hcN' hv
      exact ⟨p.symm, q.symm⟩
    · rintro ⟨rfl, rfl⟩; rfl
  rw [hred, reducedMat, Matrix.of_apply, htr, hx', hy', grid_onBoundary G hr hcN, grid_onBoundary G hr' hcN']
  unfold fivePoint
  by_cases hrim : Rim N r c ∨ Rim N r' c'
  · rw [if_pos hrim, if_pos hrim]
    simp only [hxy]
    split
    · push_cast; ring
    · rw [mul_zero]
  · rw [if_neg hrim, if_neg hrim]
    have hrc : ¬ Rim N r c := fun h => hrim (.inl h)
    unfold Rim at hrc
    rw [grid_entry hh G (by omega) (by omega) (by omega) (by omega) hcN' x y hx' hy']
    congr 1
    unfold at2
    simp only [Prod.mk.injEq]
    by_cases q0 : r' = r ∧ c' = c
    · obtain ⟨rfl, rfl⟩ := q0
      rw [if_pos ⟨rfl, rfl⟩, if_neg (by omega), if_neg (by omega), if_neg (by omega), if_neg (by omega), if_pos ⟨rfl, rfl⟩]; ring
    · rw [if_neg (by omega), if_neg q0]
      by_cases q1 : r + 1 = r' ∧ c = c'
      · rw [if_pos q1, if_neg (by omega), if_neg (by omega), if_neg (by omega), if_pos (by omega)]; ring
      by_cases q2 : r - 1 = r' ∧ c = c'
      · rw [if_neg q1, if_pos q2, if_neg (by omega), if_neg (by omega), if_pos (by omega)]; ring
      by_cases q3 : r = r' ∧ c + 1 = c'
      · rw [if_neg q1, if_neg q2, if_pos q3, if_neg (by omega), if_pos (by omega)]; ring
      by_cases q4 : r = r' ∧ c - 1 = c'
      · rw [if_neg q1, if_neg q2, if_neg q3, if_pos q4, if_pos (by omega)]; ring
      · rw [if_neg q1, if_neg q2, if_neg q3, if_neg q4, if_neg (by omega)]; ring

/-- non-vacuity: the threshold of the example -/
example : (1 / 10 ^ 8 : ℚ) < kappa / 2 := by unfold kappa; norm_num

end NS.Props.Fem

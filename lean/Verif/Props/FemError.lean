/-
Property theorems C88: the finite element example converges on the generated grid.

Over any ordered field: the equations solved by `fem.cpp` for linear elements on the square grid.  Over the reals: the distance of the
computed values from the solution of the Poisson problem.
-/
import Verif.Props.FemGrid
import Verif.Props.FdmError

set_option linter.unusedSectionVars false
set_option linter.unusedSimpArgs false

namespace NS.Props.Fem
open NS NS.World NS.Fem NS.MatOps NS.LawfulMat Matrix NS.Props.Mesh NS.Props.Shape NS.HyperCube NS.Props.HyperCube
open NS.Props.LU (IsMat IsVec isVec_iff isMat_of)
open NS.Props.Simplex (area2 prepOf)

section field
variable {T : Type} [Field T] [LinearOrder T] [IsStrictOrderedRing T] {M : Type} [MatOps M T] [LawfulMat M T] {n : Nat}

/-- the middle of an edge of a triangle -/
def mp (P : Fin 3 → Fin 2 → T) (a b : Fin 3) : List T := [(P a 0 + P b 0) / 2, (P a 1 + P b 1) / 2]

theorem quad_two (f : List T → T) : quad 2 f = kappa / 6 * (f [0, 1 / 2] + f [1 / 2, 0] + f [1 / 2, 1 / 2]) := by
  have h : (Quadrature.lit 500000000000000 : T) = 1 / 2 := by unfold Quadrature.lit; norm_num
  have h' : (Quadrature.lit 333333333333333 : T) = kappa / 3 := by unfold Quadrature.lit kappa; norm_num
  unfold quad
  simp only [Quadrature.table, List.map_cons, List.map_nil, List.sum_cons, List.sum_nil, h, h']
  ring

theorem basisAt_one (x y : T) : basisAt 1 0 [x, y] = 1 - x - y ∧ basisAt 1 1 [x, y] = x ∧ basisAt 1 2 [x, y] = y := by
  have p0 : pt 2 [x, y] 0 = x := rfl
  have p1 : pt 2 [x, y] 1 = y := rfl
  refine ⟨?_, ?_, ?_⟩ <;> simp [basisAt, basis, hat, p0, p1]

theorem toPoint_mid (P : Fin 3 → Fin 2 → T) : toPoint P [0, 1 / 2] = mp P 0 2 ∧ toPoint P [1 / 2, 0] = mp P 0 1 ∧
    toPoint P [1 / 2, 1 / 2] = mp P 1 2 := by
  have p : ∀ x y : T, pt 2 [x, y] 0 = x ∧ pt 2 [x, y] 1 = y := fun _ _ => ⟨rfl, rfl⟩
  unfold toPoint mp
  simp only [p]
  refine ⟨?_, ?_, ?_⟩ <;> refine List.cons_eq_cons.2 ⟨?_, List.cons_eq_cons.2 ⟨?_, rfl⟩⟩ <;> ring

/-- the element vector: the rule evaluates the source in the middles of the two edges at the corner -/
theorem load_one (src : List T → T) (P : Fin 3 → Fin 2 → T) :
    load 1 src P 0 = kappa / 12 * |area2 P| * (src (mp P 0 1) + src (mp P 0 2)) ∧
    load 1 src P 1 = kappa / 12 * |area2 P| * (src (mp P 0 1) + src (mp P 1 2)) ∧
    load 1 src P 2 = kappa / 12 * |area2 P| * (src (mp P 0 2) + src (mp P 1 2)) := by
  obtain ⟨t1, t2, t3⟩ := toPoint_mid P
  have e : ∀ i, load 1 src P i = |area2 P| * quad 2 fun p => basisAt 1 i p * src (toPoint P p) := fun _ => rfl
  simp only [e, quad_two, basisAt_one, t1, t2, t3]
  refine ⟨?_, ?_, ?_⟩ <;> ring

theorem keep_near {eps : T} (h0 : 0 ≤ eps) (x : T) : |keep eps x - x| ≤ eps := by
  unfold keep
  split
  · simpa using h0
  · next h => rw [zero_sub, abs_neg]; exact not_lt.1 h

/-- the source in the middle of the edge from the vertex in row `r`, column `c` in direction `(a, b)` -/
def edgeMid (h : T) (off : T × T) (src : List T → T) (r c : Nat) (a b : T) : T :=
  src [off.1 + h * (c + b / 2), off.2 + h * (r + a / 2)]

/-- the right-hand side before the constraints at a vertex inside the grid: the six triangles around the vertex -/
theorem grid_rhs {N : Nat} {h : T} {off : T × T} {w w'' : World T} (g : GridReady N h off w w'') (hE : w''.elements = w.elements)
    {eps : T} {src : List T → T} {r c : Nat}
    (hr : 0 < r) (hrN : r < N) (hc : 0 < c) (hcN : c < N) (x : Fin n) (hx : (x : Nat) = vid N r c) :
    sysVec eps 1 src w'' (coords w) x =
      keep eps (kappa / 12 * h ^ 2 * (edgeMid h off src r c 1 0 + edgeMid h off src r c 1 1)) +
      keep eps (kappa / 12 * h ^ 2 * (edgeMid h off src r c (-1) 0 + edgeMid h off src r c 0 1)) +
      keep eps (kappa / 12 * h ^ 2 * (edgeMid h off src r c (-1) (-1) + edgeMid h off src r c 0 (-1))) +
      keep eps (kappa / 12 * h ^ 2 * (edgeMid h off src r c 1 1 + edgeMid h off src r c 0 1)) +
      keep eps (kappa / 12 * h ^ 2 * (edgeMid h off src r c (-1) (-1) + edgeMid h off src r c (-1) 0)) +
      keep eps (kappa / 12 * h ^ 2 * (edgeMid h off src r c 0 (-1) + edgeMid h off src r c 1 0)) := by
  have hA : ∀ i < N, ∀ j < N, ∀ k < 2, |area2 (coords w (eid N i j k))| = h ^ 2 := by
    intro i hi j hj k hk
    have hc := g.coords i hi j hj k hk
    have : area2 (coords w (eid N i j k)) = -(h * h) := by
      rw [area2_eq, (hc 0).1, (hc 0).2, (hc 1).1, (hc 1).2, (hc 2).1, (hc 2).2]
      obtain rfl | rfl : k = 0 ∨ k = 1 := by omega
      · simp only [corner, if_pos rfl, Matrix.cons_val_zero, Matrix.cons_val_one, Matrix.cons_val]
        push_cast; ring
      · simp only [corner, if_neg one_ne_zero, Matrix.cons_val_zero, Matrix.cons_val_one, Matrix.cons_val]
        push_cast; ring
    rw [this, abs_neg, abs_mul_self, pow_two]
  have hiff : ∀ i < N, ∀ j < N, ∀ k < 2, ∀ m : Fin 3, (dofIndex w'' (eid N i j k) m = some (vid N r c) ↔ corner i j k m = (r, c)) := by
    intro i hi j hj k hk m
    rw [g.dof i hi j hj k hk m, Option.some.injEq]
    constructor
    · intro hv
      obtain ⟨a, b⟩ := vid_inj (corner_le hi hj m).2 (by omega) hv
      exact Prod.ext a b
    · intro hv; rw [hv]
  have step : ∀ i ∈ Finset.range N, ∀ j ∈ Finset.range N, ∀ k < 2,
      (∑ m ∈ Finset.range 3, if dofIndex w'' (eid N i j k) m = some (vid N r c) then keep eps (load 1 src (coords w (eid N i j k)) m) else 0) =
      ∑ m : Fin 3, if corner i j k m = (r, c) then keep eps (load 1 src (coords w (eid N i j k)) m) else 0 := by
    intro i hi j hj k hk
    rw [Finset.sum_range]
    refine Finset.sum_congr rfl fun m _ => ?_
    simp only [hiff i (Finset.mem_range.1 hi) j (Finset.mem_range.1 hj) k hk m]
  rw [sysVec, hE, g.elements, sum_cells, hx, show Shape.dof 2 1 = 3 from rfl]
  rw [Finset.sum_congr rfl fun i hi => Finset.sum_congr rfl fun j hj => congrArg₂ (· + ·) (step i hi j hj 0 (by omega)) (step i hi j hj 1 (by omega))]
  simp only [Fin.sum_univ_three, corner, ↓reduceIte, one_ne_zero, Matrix.cons_val_zero, Matrix.cons_val_one, Matrix.cons_val,
    Finset.sum_add_distrib, Prod.mk.injEq]
  have p00 := fun X => sum_pick (T := T) (N := N) (d := 0) (e := 0) (r := r) (c := c) X (by omega) (by omega) (by omega) (by omega)
  have p10 := fun X => sum_pick (T := T) (N := N) (d := 1) (e := 0) (r := r) (c := c) X (by omega) (by omega) (by omega) (by omega)
  have p01 := fun X => sum_pick (T := T) (N := N) (d := 0) (e := 1) (r := r) (c := c) X (by omega) (by omega) (by omega) (by omega)
  have p11 := fun X => sum_pick (T := T) (N := N) (d := 1) (e := 1) (r := r) (c := c) X (by omega) (by omega) (by omega) (by omega)
  simp only [Nat.add_zero] at p00 p10 p01 p11
  rw [p00, p10, p11, p00, p11, p01]
  simp only [Nat.sub_zero]
  have f0 : ((0 : Fin 3) : Nat) = 0 := rfl
  have f1 : ((1 : Fin 3) : Nat) = 1 := rfl
  have f2 : ((2 : Fin 3) : Nat) = 2 := rfl
  obtain ⟨r, rfl⟩ : ∃ q, r = q + 1 := ⟨r - 1, by omega⟩
  obtain ⟨c, rfl⟩ : ∃ q, c = q + 1 := ⟨c - 1, by omega⟩
  simp only [Nat.add_sub_cancel] at *
  have key : ∀ i < N, ∀ j < N, ∀ k < 2, ∀ a b : Fin 3, ∀ da db : T,
      ((corner i j k a).1 + (corner i j k b).1 : T) = 2 * (r + 1) + da → ((corner i j k a).2 + (corner i j k b).2 : T) = 2 * (c + 1) + db →
      src (mp (coords w (eid N i j k)) a b) = edgeMid h off src (r + 1) (c + 1) da db := by
    intro i hi j hj k hk a b da db e1 e2
    have hc := g.coords i hi j hj k hk
    unfold mp edgeMid
    rw [(hc a).1, (hc a).2, (hc b).1, (hc b).2]
    congr 2
    · push_cast; linear_combination h / 2 * e2
    · congr 1; push_cast; linear_combination h / 2 * e1
  have hr1 : r + 1 < N := hrN
  have hc1 : c + 1 < N := hcN
  have hr0 : r < N := by omega
  have hc0 : c < N := by omega
  rw [f0, f1, f2, (load_one src _).1, (load_one src _).2.1, (load_one src _).2.2, (load_one src _).1, (load_one src _).2.1, (load_one src _).2.2,
    hA _ hr1 _ hc1 0 (by omega), hA _ hr0 _ hc1 0 (by omega), hA _ hr0 _ hc0 0 (by omega), hA _ hr1 _ hc1 1 (by omega), hA _ hr0 _ hc0 1 (by omega), hA _ hr1 _ hc0 1 (by omega)]
  rw [key _ hr1 _ hc1 0 (by omega) 0 1 1 0, key _ hr1 _ hc1 0 (by omega) 0 2 1 1,
    key _ hr0 _ hc1 0 (by omega) 0 1 (-1) 0, key _ hr0 _ hc1 0 (by omega) 1 2 0 1,
    key _ hr0 _ hc0 0 (by omega) 0 2 (-1) (-1), key _ hr0 _ hc0 0 (by omega) 1 2 0 (-1),
    key _ hr1 _ hc1 1 (by omega) 0 1 1 1, key _ hr1 _ hc1 1 (by omega) 0 2 0 1,
    key _ hr0 _ hc0 1 (by omega) 0 1 (-1) (-1), key _ hr0 _ hc0 1 (by omega) 1 2 (-1) 0,
    key _ hr1 _ hc0 1 (by omega) 0 2 0 (-1), key _ hr1 _ hc0 1 (by omega) 1 2 1 0]
  · ring
  all_goals (simp [corner]; try ring)
/-- the value of a vector over the vertices at row `r`, column `c` -/
def node (N : Nat) (v : Fin ((N + 1) * (N + 1)) → T) (r c : Nat) : T :=
  if h : r * (N + 1) + c < (N + 1) * (N + 1) then v ⟨r * (N + 1) + c, h⟩ else 0

theorem vid_lt {N r c : Nat} (hr : r ≤ N) (hc : c ≤ N) : vid N r c < (N + 1) * (N + 1) := by
  have : r * (N + 1) ≤ N * (N + 1) := Nat.mul_le_mul_right _ hr
  unfold vid
  rw [Nat.add_mul]; omega

theorem node_eq {N r c : Nat} (hr : r ≤ N) (hc : c ≤ N) (v : Fin ((N + 1) * (N + 1)) → T) : node N v r c = v ⟨vid N r c, vid_lt hr hc⟩ :=
  dif_pos (vid_lt hr hc)

/-- the negative five-point operator -/
def fiveDiff (u : Nat → Nat → T) (r c : Nat) : T := 4 * u r c - u (r + 1) c - u (r - 1) c - u r (c + 1) - u r (c - 1)

theorem grid_mul {N : Nat} {h : T} (hh : h ≠ 0) {off : T × T} {w w'' : World T} (g : GridReady N h off w w'') {r c : Nat}
    (hr : 0 < r) (hrN : r < N) (hc : 0 < c) (hcN : c < N) (v : Fin ((N + 1) * (N + 1)) → T) (x : Fin ((N + 1) * (N + 1)))
    (hx : (x : Nat) = vid N r c) :
    ((gather w'' (Shape.dof 2 1) (fun a i j => energy 1 (coords w a) i j) w.elements :
      Matrix (Fin ((N + 1) * (N + 1))) (Fin ((N + 1) * (N + 1))) T) *ᵥ v) x = kappa * fiveDiff (node N v) r c := by
  have ent : ∀ y : Fin ((N + 1) * (N + 1)), (gather w'' (Shape.dof 2 1) (fun a i j => energy 1 (coords w a) i j) w.elements :
      Matrix (Fin ((N + 1) * (N + 1))) (Fin ((N + 1) * (N + 1))) T) x y =
      kappa * (4 * (if y = ⟨vid N r c, vid_lt hrN.le hcN.le⟩ then 1 else 0) - (if y = ⟨vid N (r + 1) c, vid_lt hrN hcN.le⟩ then 1 else 0)
        - (if y = ⟨vid N (r - 1) c, vid_lt (by omega) hcN.le⟩ then 1 else 0) - (if y = ⟨vid N r (c + 1), vid_lt hrN.le hcN⟩ then 1 else 0)
        - (if y = ⟨vid N r (c - 1), vid_lt hrN.le (by omega)⟩ then 1 else 0)) := by
    intro y
    obtain ⟨r', c', hc', hy⟩ := exists_vid N (y : Nat)
    have hy : (y : Nat) = vid N r' c' := hy
    rw [grid_entry hh g hr hrN hc hcN hc' x y hx hy]
    have e : ∀ a b (ha : a ≤ N) (hb : b ≤ N), (at2 r' c' (a, b) : T) = if y = ⟨vid N a b, vid_lt ha hb⟩ then 1 else 0 := by
      intro a b ha hb
      unfold at2
      refine if_congr ?_ rfl rfl
      rw [Fin.ext_iff, Prod.mk.injEq]
      show a = r' ∧ b = c' ↔ (y : Nat) = vid N a b
      rw [hy]
      constructor
      · rintro ⟨rfl, rfl⟩; rfl
      · intro hv
        obtain ⟨p, q⟩ := vid_inj hc' hb hv
        exact ⟨p.symm, q.symm⟩
    rw [e r c hrN.le hcN.le, e (r + 1) c hrN hcN.le, e (r - 1) c (by omega) hcN.le, e r (c + 1) hrN.le hcN, e r (c - 1) hrN.le (by omega)]
  rw [Matrix.mulVec, dotProduct]
  simp only [ent]
  unfold fiveDiff
  rw [node_eq hrN.le hcN.le, node_eq hrN hcN.le, node_eq (show r - 1 ≤ N by omega) hcN.le, node_eq hrN.le hcN, node_eq hrN.le (show c - 1 ≤ N by omega)]
  have pick : ∀ z : Fin ((N + 1) * (N + 1)), (∑ y, (if y = z then (1 : T) else 0) * v y) = v z := by
    intro z
    rw [Finset.sum_eq_single z]
    · simp
    · intro y _ hy; rw [if_neg hy, zero_mul]
    · intro hz; exact absurd (Finset.mem_univ _) hz
  simp only [← pick ⟨vid N r c, vid_lt hrN.le hcN.le⟩, ← pick ⟨vid N (r + 1) c, vid_lt hrN hcN.le⟩,
    ← pick ⟨vid N (r - 1) c, vid_lt (show r - 1 ≤ N by omega) hcN.le⟩,
    ← pick ⟨vid N r (c + 1), vid_lt hrN.le hcN⟩, ← pick ⟨vid N r (c - 1), vid_lt hrN.le (show c - 1 ≤ N by omega)⟩]
  rw [Finset.mul_sum, ← Finset.sum_sub_distrib, ← Finset.sum_sub_distrib, ← Finset.sum_sub_distrib, ← Finset.sum_sub_distrib, Finset.mul_sum]
  refine Finset.sum_congr rfl fun y _ => ?_
  ring

theorem system_vec {w w' w'' : World T} {order : Nat} (h : Built w) (hd : Distinct w) (hc : Closed w) (hp : Pipeline w w')
    (ho : order = 1 ∨ order = 2) (e : Shape.prepareMesh order w' = .ok w'') (hv : w.vertices ≠ [])
    (hn : w''.vertices.length = n) {eps : T} (hk : NoneDropped eps order w) (src g : List T → T) {a : M} {b : List T}
    {B : Fin n → T} {G : Matrix (Fin n) (Fin n) T} (hs : system eps order src g w'' = .ok (a, b)) (hb : IsVec b n B)
    (hG : G = gather w'' (Shape.dof 2 order) (fun a i j => energy order (coords w a) i j) w.elements) :
    B = reducedVec w'' ((∑ i, |G i i|) / n) g G (sysVec eps order src w'' (coords w)) := by
  have hr := ready_of h hd hc hp ho e hv
  have hD := dofs_in h hd hc hp.setup ho e
  have hN := C60_numbered h hd hp.setup ho e
  have hn0 : 0 < n := by rw [← hn]; exact hr.pos
  obtain ⟨a', b', e1, e2, e3⟩ := assemble_ok (M := M) (eps := eps) ho src hr hn
  rw [sysMat_gather ho hD.elements hk, ← hG] at e2
  obtain ⟨a2, b2, f1, -, f2⟩ := C60_constrain hN hn e2 e3 ((∑ i, |G i i|) / n) g
  unfold system at hs
  rw [e1, ok_bind, C60_avgMid hN hn hn0 e2, ok_bind, f1] at hs
  obtain ⟨rfl, rfl⟩ := Prod.mk.inj (Except.ok.inj hs)
  funext i
  have k1 := hb.2 i
  rw [f2.2 i] at k1
  exact (Except.ok.inj k1).symm

/-- position of the vertex in row `r`, column `c` -/
def gridPos (h : T) (off : T × T) (r c : Nat) : List T := [off.1 + h * (c : T), off.2 + h * (r : T)]

/-- a vector over the vertices, with the boundary values on the rim -/
def withRim (N : Nat) (h : T) (off : T × T) (g : List T → T) (v : Fin ((N + 1) * (N + 1)) → T) (r c : Nat) : T :=
  if Rim N r c then g (gridPos h off r c) else node N v r c

/-- the sum of the source over the middles of the six edges at a vertex -/
def sixSum (h : T) (off : T × T) (src : List T → T) (r c : Nat) : T :=
  edgeMid h off src r c 1 0 + edgeMid h off src r c (-1) 0 + edgeMid h off src r c 0 1 + edgeMid h off src r c 0 (-1) +
    edgeMid h off src r c 1 1 + edgeMid h off src r c (-1) (-1)

theorem valueAt_grid {N : Nat} {h : T} {off : T × T} {w w'' : World T} (G : GridReady N h off w w'') {r c : Nat} (hr : r ≤ N) (hc : c ≤ N)
    (g : List T → T) : valueAt w'' g (vid N r c) = g (gridPos h off r c) := by
  obtain ⟨v, v1, v2, -⟩ := G.vertex r hr c hc
  unfold valueAt gridPos
  rw [v1, Option.map_some, Option.getD_some, v2]

/-- residuals of the system in terms of the grid -/
theorem grid_residual {N : Nat} (hN : 1 ≤ N) {h : T} (hh : h ≠ 0) {off : T × T} {w w' w'' : World T} (hb : Built w) (hd : Distinct w)
    (hc : Closed w) (hel : w.elements ≠ []) (hp : Pipeline w w') (e3 : Shape.prepareMesh 1 w' = .ok w'') (G : GridReady N h off w w'') {eps : T} (h0 : 0 ≤ eps)
    (he : eps < kappa / 2) {src g : List T → T} {a : M} {b : List T} {A : Matrix (Fin ((N + 1) * (N + 1))) (Fin ((N + 1) * (N + 1))) T}
    {B : Fin ((N + 1) * (N + 1)) → T} (hs : system eps 1 src g w'' = .ok (a, b)) (ha : IsMat a _ A) (hB : IsVec b _ B)
    (x : Fin ((N + 1) * (N + 1)) → T) {r c : Nat} (hr : r ≤ N) (hcN : c ≤ N) (i : Fin ((N + 1) * (N + 1))) (hi : (i : Nat) = vid N r c) :
    (Rim N r c → (A *ᵥ x) i - B i = 4 * kappa * (N : T) ^ 2 / ((N + 1) * (N + 1)) * (node N x r c - g (gridPos h off r c))) ∧
    (¬ Rim N r c → ∃ δ, |δ| ≤ 6 * eps ∧
      (A *ᵥ x) i - B i = kappa * (fiveDiff (withRim N h off g x) r c - h ^ 2 / 6 * sixSum h off src r c) + δ) := by
  classical
  have hD := dofs_in hb hd hc hp.setup (.inl rfl) e3
  have hk := grid_noneDropped hh G he
  have hn : w''.vertices.length = (N + 1) * (N + 1) := by rw [G.vertices, List.length_range]
  have hv : w.vertices ≠ [] := by
    obtain ⟨q, hq⟩ := List.exists_mem_of_ne_nil _ hel
    have hI := built_inv hb
    obtain ⟨z, hz⟩ : ∃ z, w.E[q]? = some z := ⟨_, List.getElem?_eq_getElem (hI.elt q hq)⟩
    intro h0
    obtain ⟨u, -, q1, -⟩ := hI.corner q hq z hz 0 (by omega)
    have := hc q hq u (by rw [vertsOf_some hz]; exact List.mem_of_getElem? q1)
    rw [h0] at this
    simp at this
  have hred := system_mat hb hd hc hp (.inl rfl) e3 hv hn hk src g hs ha rfl
  have hvec := system_vec hb hd hc hp (.inl rfl) e3 hv hn hk src g hs hB rfl
  have hr0 := ready_of hb hd hc hp (.inl rfl) e3 hv
  set Gm : Matrix (Fin ((N + 1) * (N + 1))) (Fin ((N + 1) * (N + 1))) T :=
    gather w'' (Shape.dof 2 1) (fun a i j => energy 1 (coords w a) i j) w.elements with hGm
  have htr : (∑ i, |Gm i i|) / (((N + 1) * (N + 1) : Nat) : T) = 4 * kappa * (N : T) ^ 2 / ((N + 1) * (N + 1)) := by
    have : (∑ i, |Gm i i|) = 4 * kappa * N ^ 2 := by
      rw [← grid_trace hh G rfl]
      refine Finset.sum_congr rfl fun i _ => abs_of_nonneg ?_
      have hge : 0 ≤ (Pi.single i 1 : Fin ((N + 1) * (N + 1)) → T) ⬝ᵥ
          gather w'' (Shape.dof 2 1) (fun a i j => energy 1 (coords w a) i j) w.elements *ᵥ Pi.single i 1 := by
        rw [gather_form]
        refine List.sum_nonneg fun y hy => ?_
        obtain ⟨c, hc, rfl⟩ := List.mem_map.1 hy
        exact (energy_pos (.inl rfl) (hr0.area c (by rw [hD.elements]; exact hc)) _).1
      rw [Matrix.mulVec_single_one, single_one_dotProduct] at hge
      exact hge
    rw [this]; push_cast; rfl
  rw [htr] at hred hvec
  set avg := 4 * kappa * (N : T) ^ 2 / ((N + 1) * (N + 1)) with havg
  have hbd : OnBoundary w'' (i : Nat) ↔ Rim N r c := by rw [hi]; exact grid_onBoundary G hr hcN
  have hxi : node N x r c = x i := by rw [node_eq hr hcN]; congr 1; exact Fin.ext hi.symm
  constructor
  · intro hrim
    have h1 : (A *ᵥ x) i = avg * x i := by
      rw [hred, Matrix.mulVec, dotProduct, Finset.sum_eq_single i]
      · rw [reducedMat, Matrix.of_apply, if_pos (.inl (hbd.2 hrim)), if_pos rfl]
      · intro j _ hj
        rw [reducedMat, Matrix.of_apply, if_pos (.inl (hbd.2 hrim)), if_neg (Ne.symm hj), zero_mul]
      · intro hz; exact absurd (Finset.mem_univ _) hz
    have h2 : B i = avg * g (gridPos h off r c) := by
      rw [hvec, reducedVec, if_pos (hbd.2 hrim), hi, valueAt_grid G hr hcN]
    rw [h1, h2, hxi]; ring
  · intro hrim
    have hin : 0 < r ∧ r < N ∧ 0 < c ∧ c < N := by unfold Rim at hrim; omega
    obtain ⟨hr1, hr2, hc1, hc2⟩ := hin
    -- the vector with boundary values
    set v : Fin ((N + 1) * (N + 1)) → T := fun j => if OnBoundary w'' j then valueAt w'' g j else x j with hvdef
    have h1 : (A *ᵥ x) i - B i = (Gm *ᵥ v) i - sysVec eps 1 src w'' (coords w) i := by
      have e1 : (A *ᵥ x) i = ∑ j with ¬ OnBoundary w'' (j : Fin ((N + 1) * (N + 1))), Gm i j * x j := by
        rw [hred, Matrix.mulVec, dotProduct, Finset.sum_filter]
        refine Finset.sum_congr rfl fun j _ => ?_
        rw [reducedMat, Matrix.of_apply]
        by_cases hj : OnBoundary w'' (j : Nat)
        · rw [if_pos (.inr hj), if_neg (by rintro rfl; exact hrim (hbd.1 hj)), zero_mul, if_neg (not_not.2 hj)]
        · rw [if_neg (by rintro (h | h); exacts [hrim (hbd.1 h), hj h]), if_pos hj]
      have e2 : B i = sysVec eps 1 src w'' (coords w) i - ∑ j with OnBoundary w'' (j : Fin ((N + 1) * (N + 1))), Gm i j * valueAt w'' g j := by
        rw [hvec, reducedVec, if_neg (fun h => hrim (hbd.1 h))]
      have e3 : (Gm *ᵥ v) i = (∑ j with OnBoundary w'' (j : Fin ((N + 1) * (N + 1))), Gm i j * valueAt w'' g j) + ∑ j with ¬ OnBoundary w'' (j : Fin ((N + 1) * (N + 1))), Gm i j * x j := by
        rw [Matrix.mulVec, dotProduct, ← Finset.sum_filter_add_sum_filter_not _ (fun j : Fin ((N + 1) * (N + 1)) => OnBoundary w'' (j : Nat))]
        congr 1
        · refine Finset.sum_congr rfl fun j hj => ?_
          rw [hvdef]
          simp only [(Finset.mem_filter.1 hj).2, if_true]
        · refine Finset.sum_congr rfl fun j hj => ?_
          rw [hvdef]
          simp only [(Finset.mem_filter.1 hj).2, if_false]
      rw [e1, e2, e3]; ring
    have hnode : ∀ a b, a ≤ N → b ≤ N → node N v a b = withRim N h off g x a b := by
      intro a b ha hb
      unfold withRim
      rw [node_eq ha hb, node_eq ha hb, hvdef]
      simp only [grid_onBoundary G ha hb, valueAt_grid G ha hb]
    have h2 : (Gm *ᵥ v) i = kappa * fiveDiff (withRim N h off g x) r c := by
      rw [grid_mul hh G hr1 hr2 hc1 hc2 v i hi]
      unfold fiveDiff
      rw [hnode r c hr hcN, hnode (r + 1) c hr2 hcN, hnode (r - 1) c (by omega) hcN, hnode r (c + 1) hr hc2, hnode r (c - 1) hr (by omega)]
    refine ⟨kappa * (h ^ 2 / 6 * sixSum h off src r c) - sysVec eps 1 src w'' (coords w) i, ?_, ?_⟩
    · rw [grid_rhs G hD.elements hr1 hr2 hc1 hc2 i hi]
      have k1 := abs_le.1 (keep_near h0 (kappa / 12 * h ^ 2 * (edgeMid h off src r c 1 0 + edgeMid h off src r c 1 1)))
      have k2 := abs_le.1 (keep_near h0 (kappa / 12 * h ^ 2 * (edgeMid h off src r c (-1) 0 + edgeMid h off src r c 0 1)))
      have k3 := abs_le.1 (keep_near h0 (kappa / 12 * h ^ 2 * (edgeMid h off src r c (-1) (-1) + edgeMid h off src r c 0 (-1))))
      have k4 := abs_le.1 (keep_near h0 (kappa / 12 * h ^ 2 * (edgeMid h off src r c 1 1 + edgeMid h off src r c 0 1)))
      have k5 := abs_le.1 (keep_near h0 (kappa / 12 * h ^ 2 * (edgeMid h off src r c (-1) (-1) + edgeMid h off src r c (-1) 0)))
      have k6 := abs_le.1 (keep_near h0 (kappa / 12 * h ^ 2 * (edgeMid h off src r c 0 (-1) + edgeMid h off src r c 1 0)))
      unfold sixSum
      rw [abs_le]
      constructor
      · linarith [k1.2, k2.2, k3.2, k4.2, k5.2, k6.2]
      · linarith [k1.1, k2.1, k3.1, k4.1, k5.1, k6.1]
    · rw [h1, h2]; ring

/-- **C88** (the equations): on the generated square grid of `N x N` cells of width `h = L/N`, the linear system of the finite element
program for linear elements is solved by exactly one vector `u`; `u` has the boundary values on the rim, and at every other vertex
`4 u(r,c) - u(r+1,c) - u(r-1,c) - u(r,c+1) - u(r,c-1)` equals `h²` times the mean of the source over the middles of the six edges
at the vertex, up to the threshold (`6 eps / kappa`, where `kappa = 0.999999999999999`). -/
theorem C88_equations {N : Nat} (hN : 1 ≤ N) {L : T} (hL : L ≠ 0) (off : T × T) {eps : T} (h0 : 0 ≤ eps) (he : eps < kappa / 2) (src g : List T → T) :
    ∃ (w1 w2 w3 : World T) (a : M) (b : List T) (A : Matrix (Fin ((N + 1) * (N + 1))) (Fin ((N + 1) * (N + 1))) T)
      (B : Fin ((N + 1) * (N + 1)) → T) (u : Fin ((N + 1) * (N + 1)) → T),
      generate N N (L, L) off = .ok w1 ∧ w1.prepare 0 = .ok w2 ∧ Shape.prepareMesh 1 w2 = .ok w3 ∧ system eps 1 src g w3 = .ok (a, b) ∧
      IsMat a _ A ∧ IsVec b _ B ∧ A *ᵥ u = B ∧ (∀ x, A *ᵥ x = B → x = u) ∧
      (∀ r ≤ N, ∀ c ≤ N, Rim N r c → node N u r c = g [off.1 + L / N * (c : T), off.2 + L / N * (r : T)]) ∧
      ∀ r ≤ N, ∀ c ≤ N, ¬ Rim N r c → |fiveDiff (node N u) r c - (L / N) ^ 2 * (sixSum (L / N) off src r c / 6)| ≤ 6 * eps / kappa := by
  obtain ⟨w, w1, w2, w3, hb, hd, hc, hel, e1, e2, hp, e3, G⟩ := grid_ready hN hL off
  have hN' : (N : T) ≠ 0 := by exact_mod_cast (by omega : N ≠ 0)
  have hh : L / N ≠ 0 := div_ne_zero hL hN'
  have hD := dofs_in hb hd hc hp.setup (.inl rfl) e3
  have hn : w3.vertices.length = (N + 1) * (N + 1) := by rw [G.vertices, List.length_range]
  obtain ⟨a, b, A, B, s1, s2, s3, s4, ⟨u, s5, s6⟩, -⟩ := C67_system (M := M) hb hd hc hp (.inl rfl) e3 hel hn (grid_noneDropped hh G he) (grid_anchored G hD.elements) src g
  have hk0 : (0 : T) < kappa := by unfold kappa; norm_num
  have hrim : ∀ r ≤ N, ∀ c ≤ N, Rim N r c → node N u r c = g (gridPos (L / N) off r c) := by
    intro r hr c hcN hrim
    have := (grid_residual hN hh hb hd hc hel hp e3 G h0 he s1 s2 s3 u hr hcN ⟨vid N r c, vid_lt hr hcN⟩ rfl).1 hrim
    rw [show A *ᵥ u = B from s5, sub_self] at this
    have hNp : (0 : T) < N := by exact_mod_cast (by omega : 0 < N)
    have hpos : (0 : T) < 4 * kappa * (N : T) ^ 2 / ((N + 1) * (N + 1)) := by positivity
    rcases mul_eq_zero.1 this.symm with h | h
    · exact absurd h hpos.ne'
    · exact sub_eq_zero.1 h
  refine ⟨w1, w2, w3, a, b, A, B, u, e1, e2, e3, s1, s2, s3, s5, fun x hx => s6 x hx, hrim, ?_⟩
  intro r hr c hcN hr'
  obtain ⟨δ, d1, d2⟩ := (grid_residual hN hh hb hd hc hel hp e3 G h0 he s1 s2 s3 u hr hcN ⟨vid N r c, vid_lt hr hcN⟩ rfl).2 hr'
  rw [show A *ᵥ u = B from s5, sub_self] at d2
  have hw : ∀ a b, a ≤ N → b ≤ N → withRim N (L / N) off g u a b = node N u a b := by
    intro a b ha hb
    unfold withRim
    split
    · next h => exact (hrim a ha b hb h).symm
    · rfl
  have hin : 0 < r ∧ r < N ∧ 0 < c ∧ c < N := by unfold Rim at hr'; omega
  have hf : fiveDiff (withRim N (L / N) off g u) r c = fiveDiff (node N u) r c := by
    unfold fiveDiff
    rw [hw _ _ hr hcN, hw _ _ hin.2.1 hcN, hw _ _ (show r - 1 ≤ N by omega) hcN, hw _ _ hr hin.2.2.2, hw _ _ hr (show c - 1 ≤ N by omega)]
  rw [hf] at d2
  have : fiveDiff (node N u) r c - (L / N) ^ 2 * (sixSum (L / N) off src r c / 6) = -δ / kappa := by
    rw [eq_div_iff hk0.ne']; linear_combination -d2
  rw [this, abs_div, abs_neg, abs_of_pos hk0]
  exact div_le_div_of_nonneg_right d1 hk0.le
end field
end NS.Props.Fem

/-
Property theorems C89: the error report of the finite element example.
-/
import Verif.FemPostModel
import Verif.Props.FemSine
import Verif.Props.VecMore
import Verif.Props.VtkMesh

set_option linter.unusedSectionVars false
set_option linter.unusedSimpArgs false

namespace NS.Props.Fem
open NS NS.World NS.Fem NS.MatOps NS.LawfulMat Matrix NS.Props.Mesh NS.Props.Shape
open NS.Props.LU (IsMat IsVec isVec_iff isMat_of)
open NS.Props.Simplex (IsSqrt area2 prepOf)
open NS.Shape (firstPass_ok prepareMesh2_ok arr_get)

variable {T : Type} [Field T] [LinearOrder T] [IsStrictOrderedRing T]

/-- distance of two points -/
def dist2 (sqrt : T → T) (P Q : Fin 2 → T) : T := sqrt ((P 0 - Q 0) * (P 0 - Q 0) + (P 1 - Q 1) * (P 1 - Q 1))

/-- the sum over the three sides: length of the side times the sum of the squares of the two difference quotients along the other
sides -/
def sideSum (sqrt : T → T) (P : Fin 3 → Fin 2 → T) (y : Fin 3 → T) : T :=
  ∑ i : Fin 3, dist2 sqrt (P (i + 1)) (P (i + 2)) *
    (((y (i + 1) - y i) / dist2 sqrt (P (i + 1)) (P i)) ^ 2 + ((y (i + 2) - y i) / dist2 sqrt (P (i + 2)) (P i)) ^ 2)

/-- value at corner `i` of element `a` -/
def cornerValue (w : World T) (x : List T) (a : Nat) (i : Fin 3) : T :=
  (((w.vertsOf a)[(i : Nat)]?.join.bind fun q => w.V[q]?).map fun v => x.getD v.gi 0).getD 0

/-- value at node `i` of element `a` (of quadratic elements: the corners and the midpoints of the sides, see `C56_nodes`) -/
def nodeValue (w : World T) (x : List T) (a i : Nat) : T :=
  (((w.E[a]?).bind fun e => e.dofs[i]?.bind fun q => w.V[q]?).map fun v => x.getD v.gi 0).getD 0

/-- points and weights of the rule for the cells: exact for cubic polynomials but for the rounding of the literals (C57) -/
def cellRule (q : Fin 4) : (T × T) × T :=
  ![((333333333333333 / 10 ^ 15, 333333333333333 / 10 ^ 15), -562500000000000 / 10 ^ 15 / 2),
    ((200000000000000 / 10 ^ 15, 200000000000000 / 10 ^ 15), 520833333333333 / 10 ^ 15 / 2),
    ((200000000000000 / 10 ^ 15, 600000000000000 / 10 ^ 15), 520833333333333 / 10 ^ 15 / 2),
    ((600000000000000 / 10 ^ 15, 200000000000000 / 10 ^ 15), 520833333333333 / 10 ^ 15 / 2)] q

/-- the part of the cell (`y` are the values at the nodes): at the point number `q` the second derivatives of the shape function number
`q` are multiplied by the values at the nodes 4 and 5, by the inverse of the matrix of the triangle, and added to the source.  This is
not the residual, see `C89_cell_negation`. -/
def cellPart (P : Fin 3 → Fin 2 → T) (src : List T → T) (y : Nat → T) : T :=
  |area2 P| * ∑ q : Fin 4, (cellRule q).2 *
    (((P 2 1 - P 0 1) - (P 1 1 - P 0 1)) / area2 P * (![4, 4, 0, -8] q * y 4) + ((P 1 0 - P 0 0) - (P 2 0 - P 0 0)) / area2 P * (![4, 0, 4, 0] q * y 5) +
      src [P 0 0 + (P 1 0 - P 0 0) * (cellRule (T := T) q).1.1 + (P 2 0 - P 0 0) * (cellRule (T := T) q).1.2,
        P 0 1 + (P 1 1 - P 0 1) * (cellRule (T := T) q).1.1 + (P 2 1 - P 0 1) * (cellRule (T := T) q).1.2])

/-- `H` is the length of the longest side -/
def IsDiameter (sqrt : T → T) (P : Fin 3 → Fin 2 → T) (H : T) : Prop :=
  (∃ i j, H = dist2 sqrt (P i) (P j)) ∧ ∀ i j, dist2 sqrt (P i) (P j) ≤ H

theorem dist2_comm (sqrt : T → T) (P Q : Fin 2 → T) : dist2 sqrt P Q = dist2 sqrt Q P := by
  unfold dist2; congr 1; ring

theorem mag_two (sqrt : T → T) (a b : T) : Vec.mag sqrt [a, b] = .ok (sqrt (a * a + b * b)) := by
  have : Vec.magSqr [a, b] = .ok (0 + a * a + b * b) := rfl
  unfold Vec.mag
  rw [this, zero_add]; rfl

theorem dist_ok (sqrt : T → T) (P Q : Fin 2 → T) :
    (do let d ← Vec.subAssign [P 0, P 1] [Q 0, Q 1]; Vec.mag sqrt d : R T) = .ok (dist2 sqrt P Q) := by
  have : Vec.subAssign [P 0, P 1] [Q 0, Q 1] = .ok [P 0 - Q 0, P 1 - Q 1] := rfl
  rw [this, ok_bind, mag_two]; rfl

theorem dist2_pos {sqrt : T → T} (hs : IsSqrt sqrt) {P Q : Fin 2 → T} (h : P ≠ Q) : 0 < dist2 sqrt P Q := by
  unfold dist2
  set s := (P 0 - Q 0) * (P 0 - Q 0) + (P 1 - Q 1) * (P 1 - Q 1) with hs'
  have h0 : 0 ≤ s := add_nonneg (mul_self_nonneg _) (mul_self_nonneg _)
  have hne : s ≠ 0 := by
    intro hz
    have h1 : (P 0 - Q 0) * (P 0 - Q 0) = 0 := by nlinarith [mul_self_nonneg (P 0 - Q 0), mul_self_nonneg (P 1 - Q 1)]
    have h2 : (P 1 - Q 1) * (P 1 - Q 1) = 0 := by nlinarith [mul_self_nonneg (P 0 - Q 0), mul_self_nonneg (P 1 - Q 1)]
    refine h (funext fun k => ?_)
    fin_cases k
    · exact sub_eq_zero.1 (mul_self_eq_zero.1 h1)
    · exact sub_eq_zero.1 (mul_self_eq_zero.1 h2)
  obtain ⟨q1, q2⟩ := hs s h0
  refine lt_of_le_of_ne q1 fun hz => hne ?_
  rw [← q2, ← hz, mul_zero]

theorem corner_ne {P : Fin 3 → Fin 2 → T} (h : area2 P ≠ 0) {i j : Fin 3} (hij : i ≠ j) : P i ≠ P j := by
  intro he
  apply h
  have h0 := congrFun he 0
  have h1 := congrFun he 1
  have e : area2 P = (P 1 0 - P 0 0) * (P 2 1 - P 0 1) - (P 2 0 - P 0 0) * (P 1 1 - P 0 1) := by
    unfold area2
    rw [Matrix.det_fin_two]; rfl
  rw [e]
  fin_cases i <;> fin_cases j <;> first | exact absurd rfl hij | (simp at h0 h1; rw [h0, h1]; ring)

/-- what the error report needs to know about one element -/
structure PostElem (w : World T) (a : Nat) (P : Fin 3 → Fin 2 → T) (x : MElem T) (v : Fin 3 → MVertex T) : Prop where
  elem : w.E[a]? = some x
  vert : ∀ i : Fin 3, vertexOf w x.verts i = .ok (v i)
  pos : ∀ i, (v i).pos = [P i 0, P i 1]
  gi : ∀ i, (v i).gi < w.vertices.length
  num : ∀ i, vertexAt w (v i).gi = some (v i)
  value : ∀ (y : List T) i, cornerValue w y a i = y.getD (v i).gi 0
  face : ∀ i : Fin 3, ∃ n f, x.nbrs[(i : Nat)]? = some (some n) ∧ w.F[n]? = some f ∧
    ((vertexOf w f.verts 0 = .ok (v (i + 1)) ∧ vertexOf w f.verts 1 = .ok (v (i + 2))) ∨
     (vertexOf w f.verts 0 = .ok (v (i + 2)) ∧ vertexOf w f.verts 1 = .ok (v (i + 1))))

theorem sum_three (f : Nat → T → R T) (g : Fin 3 → T) (h : ∀ (i : Fin 3) s, f i s = .ok (s + g i)) : forRange 0 3 0 f = .ok (∑ i, g i) := by
  have h0 : f 0 0 = _ := h 0 0
  have h1 : ∀ s, f 1 s = _ := h 1
  have h2 : ∀ s, f 2 s = _ := h 2
  rw [forRange_step (by decide), h0, ok_bind, forRange_step (by decide), h1, ok_bind, forRange_step (by decide), h2, ok_bind, forRange_empty (by decide),
    Fin.sum_univ_three, zero_add]

theorem faceError_ok {sqrt : T → T} (hs : IsSqrt sqrt) {w : World T} {a : Nat} {P : Fin 3 → Fin 2 → T} (hP : area2 P ≠ 0) {x : MElem T}
    {v : Fin 3 → MVertex T} (h : PostElem w a P x v) {y : List T} (hy : y.length = w.vertices.length) :
    faceError sqrt y w x = .ok (sideSum sqrt P (cornerValue w y a)) := by
  have hat : ∀ i, vecAt y (v i).gi = .ok (cornerValue w y a i) := by
    intro i
    have hl : (v i).gi < y.length := by rw [hy]; exact h.gi i
    unfold vecAt
    rw [assert_true hl, ok_bind, h.value, List.getD_eq_getElem _ _ hl, getIdx_of_some (List.getElem?_eq_getElem hl)]
  have hsl : ∀ i j, i ≠ j → diffQuot sqrt y (v i) (v j) = .ok ((cornerValue w y a i - cornerValue w y a j) / dist2 sqrt (P i) (P j)) := by
    intro i j hij
    have := dist_ok sqrt (P i) (P j)
    unfold diffQuot
    rw [hat, ok_bind, hat, ok_bind, h.pos, h.pos]
    rw [bind_ok_iff] at this
    obtain ⟨d, d1, d2⟩ := this
    rw [d1, ok_bind, d2, ok_bind]
    unfold fdiv
    rw [if_neg (dist2_pos hs (corner_ne hP hij)).ne']
  have hstep : ∀ (i : Fin 3) (s : T), (do
      let np ← getIdx x.nbrs i
      let n ← deref np
      let f ← getIdx w.F n
      let v ← vertexOf w x.verts i
      let p ← vertexOf w f.verts 0
      let q ← vertexOf w f.verts 1
      let u0 ← diffQuot sqrt y p v
      let u1 ← diffQuot sqrt y q v
      let d ← Vec.subAssign p.pos q.pos
      let m ← Vec.mag sqrt d
      let g ← Vec.magSqr [u0, u1]
      return s + m * g : R T) = .ok (s + dist2 sqrt (P (i + 1)) (P (i + 2)) *
        (((cornerValue w y a (i + 1) - cornerValue w y a i) / dist2 sqrt (P (i + 1)) (P i)) ^ 2 +
         ((cornerValue w y a (i + 2) - cornerValue w y a i) / dist2 sqrt (P (i + 2)) (P i)) ^ 2)) := by
    intro i s
    have n1 : i + 1 ≠ i := by fin_cases i <;> decide
    have n2 : i + 2 ≠ i := by fin_cases i <;> decide
    obtain ⟨n, f, f1, f2, f3⟩ := h.face i
    rw [getIdx_of_some f1, ok_bind]
    show (do let f ← getIdx w.F n; _ : R T) = _
    rw [getIdx_of_some f2, ok_bind, h.vert, ok_bind]
    have hm : ∀ b c : T, Vec.magSqr [b, c] = .ok (0 + b * b + c * c) := fun _ _ => rfl
    rcases f3 with ⟨g1, g2⟩ | ⟨g1, g2⟩
    · rw [g1, ok_bind, g2, ok_bind, hsl _ _ n1, ok_bind, hsl _ _ n2, ok_bind, h.pos, h.pos]
      obtain ⟨d, d1, d2⟩ := bind_ok_iff.1 (dist_ok sqrt (P (i + 1)) (P (i + 2)))
      rw [d1, ok_bind, d2, ok_bind, hm, ok_bind]
      refine congrArg Except.ok ?_
      ring
    · rw [g1, ok_bind, g2, ok_bind, hsl _ _ n2, ok_bind, hsl _ _ n1, ok_bind, h.pos, h.pos]
      obtain ⟨d, d1, d2⟩ := bind_ok_iff.1 (dist_ok sqrt (P (i + 2)) (P (i + 1)))
      rw [d1, ok_bind, d2, ok_bind, hm, ok_bind, dist2_comm sqrt (P (i + 2)) (P (i + 1))]
      refine congrArg Except.ok ?_
      ring
  exact sum_three _ _ hstep

/-- the vertices an error report can use are vertices of the mesh, with their number and coordinates -/
theorem postElem_of {w w' w'' : World T} {order : Nat} (h : Built w) (hd : Distinct w) (hc : Closed w) (hp : Pipeline w w')
    (ho : order = 1 ∨ order = 2) (e : Shape.prepareMesh order w' = .ok w'') {a : Nat} (ha : a ∈ w.elements) :
    ∃ x v, PostElem w'' a (coords w a) x v := by
  have hs := hp.setup
  have hE := edges_of h hd hs
  have hI := built_inv h
  have hN := C60_numbered h hd hs ho e
  have ha' : a ∈ w'.elements := by rw [hE.elements]; exact ha
  obtain ⟨x, x1, x2, x3, -⟩ := hE.ready.elem a ha'
  have key : (∃ x', w''.E[a]? = some x' ∧ x'.verts = x.verts ∧ x'.nbrs = x.nbrs) ∧
      (∀ i, ∃ f, w''.F[en w' a i]? = some f ∧ f.verts = (eo w' (en w' a i)).verts) ∧
      (∀ (q : Nat) (v : MVertex T), w'.V[q]? = some v → w''.V[q]? = some v) ∧ (∀ q ∈ w'.vertices, q ∈ w''.vertices) := by
    rcases ho with rfl | rfl
    · obtain ⟨w2, e2, M, h1, -⟩ := firstPass_ok hE.ready
      have e3 : Shape.prepareMesh 1 w' = .ok w2 := by unfold Shape.prepareMesh; rw [e2, ok_bind, if_neg (by decide)]; rfl
      obtain rfl := Except.ok.inj (e.symm.trans e3)
      refine ⟨⟨_, h1.E a ha' x x1, rfl, rfl⟩, fun i => ⟨_, h1.F a ha' i, ?_⟩, fun q v hv => by rw [h1.V]; exact hv, fun q hq => by rw [h1.vertices]; exact hq⟩
      split <;> rfl
    · obtain ⟨w2, es, e2, h1⟩ := prepareMesh2_ok hE.ready
      obtain rfl := Except.ok.inj (e.symm.trans e2)
      refine ⟨⟨_, h1.E a ha' x x1, rfl, rfl⟩, fun i => ⟨_, h1.F a ha' i, rfl⟩, fun q v hv => ?_, fun q hq => ?_⟩
      · rw [h1.old q (lt_of_getElem? hv)]; exact hv
      · rw [h1.vertices]; exact List.mem_append_left _ hq
  obtain ⟨⟨x', y1, y2, y3⟩, kF, kV, kM⟩ := key
  have hcor : ∀ i : Fin 3, ∃ v, w''.V[w.cornerFn a i]? = some v ∧ v.pos = [coords w a i 0, coords w a i 1] ∧ v.gi < w''.vertices.length ∧ vertexAt w'' v.gi = some v := by
    intro i
    have hm : w.cornerFn a i ∈ w.vertices := hc a ha _ (by
      rw [vertsOf_arr hI ha]; exact List.mem_of_getElem? (arr_get _ i))
    obtain ⟨v, v1⟩ : ∃ v, w.V[w.cornerFn a i]? = some v := ⟨_, List.getElem?_eq_getElem (hI.vlt _ hm)⟩
    obtain ⟨v', v2, v3, v4, -⟩ := hE.V _ v v1
    have v5 := kV _ _ v2
    obtain ⟨k, u, k1, k2, k3, k4⟩ := numbered_mem hN (kM _ (by rw [hE.vertices]; exact hm))
    rw [v5] at k3
    obtain rfl := Option.some.inj k3
    exact ⟨v', v5, by rw [v3]; exact coords_eq hI ha i v1, by rw [k4]; exact k2, by unfold vertexAt; rw [k4, k1]; exact v5⟩
  choose v v1 v2 v3 v4 using hcor
  have hvert : ∀ (l : List (Option Nat)) (k : Nat) (i : Fin 3), l[k]? = some (some (w.cornerFn a i)) → vertexOf w'' l k = .ok (v i) := by
    intro l k i hl
    unfold vertexOf
    rw [getIdx_of_some hl, ok_bind]
    show getIdx w''.V (w.cornerFn a i) = _
    exact getIdx_of_some (v1 i)
  refine ⟨x', v, y1, fun i => hvert _ _ _ (by rw [y2, x2]; exact arr_get _ i), v2, v3, v4, fun y i => ?_, fun i => ?_⟩
  · unfold cornerValue
    rw [vertsOf_some y1, y2, x2, arr_get]
    simp [v1]
  · obtain ⟨f, f1, f2⟩ := kF i
    refine ⟨en w' a i, f, by rw [y3, x3]; exact arr_get _ i, f1, ?_⟩
    obtain ⟨p, q, p1, p2, p3⟩ := (hE.ef a ha i).verts
    rw [← f2] at p1
    have hAB : (fA i = i + 1 ∧ fB i = i + 2) ∨ (fA i = i + 2 ∧ fB i = i + 1) := by fin_cases i <;> decide
    have hpq : (p = w.cornerFn a (fA i) ∧ q = w.cornerFn a (fB i)) ∨ (p = w.cornerFn a (fB i) ∧ q = w.cornerFn a (fA i)) := by
      have hp' : p ∈ fc (w.cornerFn a) i := by rw [p3]; simp
      have hq' : q ∈ fc (w.cornerFn a) i := by rw [p3]; simp
      unfold fc at hp' hq'
      rw [Finset.mem_insert, Finset.mem_singleton] at hp' hq'
      rcases hp' with rfl | rfl <;> rcases hq' with rfl | rfl
      · exact absurd rfl p2
      · exact .inl ⟨rfl, rfl⟩
      · exact .inr ⟨rfl, rfl⟩
      · exact absurd rfl p2
    have g : ∀ j k : Fin 3, p = w.cornerFn a j → q = w.cornerFn a k → vertexOf w'' f.verts 0 = .ok (v j) ∧ vertexOf w'' f.verts 1 = .ok (v k) := by
      rintro j k rfl rfl
      exact ⟨hvert _ _ _ (by rw [p1]; rfl), hvert _ _ _ (by rw [p1]; rfl)⟩
    rcases hAB with ⟨a1, a2⟩ | ⟨a1, a2⟩ <;> rcases hpq with ⟨b1, b2⟩ | ⟨b1, b2⟩
    · rw [a1] at b1; rw [a2] at b2; exact .inl (g _ _ b1 b2)
    · rw [a2] at b1; rw [a1] at b2; exact .inr (g _ _ b1 b2)
    · rw [a1] at b1; rw [a2] at b2; exact .inr (g _ _ b1 b2)
    · rw [a2] at b1; rw [a1] at b2; exact .inl (g _ _ b1 b2)

theorem sideSum_nonneg {sqrt : T → T} (hs : IsSqrt sqrt) {P : Fin 3 → Fin 2 → T} (hP : area2 P ≠ 0) (y : Fin 3 → T) :
    0 ≤ sideSum sqrt P y ∧ (sideSum sqrt P y = 0 ↔ ∀ i j, y i = y j) := by
  have n1 : ∀ i : Fin 3, i + 1 ≠ i := by decide
  have n2 : ∀ i : Fin 3, i + 2 ≠ i := by decide
  have n3 : ∀ i : Fin 3, i + 1 ≠ i + 2 := by decide
  have hpos := fun i j (h : i ≠ j) => dist2_pos hs (corner_ne hP (i := i) (j := j) h)
  have hterm : ∀ i : Fin 3, 0 ≤ dist2 sqrt (P (i + 1)) (P (i + 2)) *
    (((y (i + 1) - y i) / dist2 sqrt (P (i + 1)) (P i)) ^ 2 + ((y (i + 2) - y i) / dist2 sqrt (P (i + 2)) (P i)) ^ 2) :=
    fun i => mul_nonneg (hpos _ _ (n3 i)).le (add_nonneg (sq_nonneg _) (sq_nonneg _))
  refine ⟨Finset.sum_nonneg fun i _ => hterm i, fun h0 => ?_, fun h => ?_⟩
  · have hz := (Finset.sum_eq_zero_iff_of_nonneg fun i _ => hterm i).1 h0
    have hy : ∀ i : Fin 3, y (i + 1) = y i := by
      intro i
      have h1 := (mul_eq_zero.1 (hz i (Finset.mem_univ _))).resolve_left (hpos _ _ (n3 i)).ne'
      have h2 : ((y (i + 1) - y i) / dist2 sqrt (P (i + 1)) (P i)) ^ 2 = 0 := by
        nlinarith [sq_nonneg ((y (i + 1) - y i) / dist2 sqrt (P (i + 1)) (P i)), sq_nonneg ((y (i + 2) - y i) / dist2 sqrt (P (i + 2)) (P i))]
      rcases div_eq_zero_iff.1 (pow_eq_zero_iff two_ne_zero |>.1 h2) with h | h
      · exact sub_eq_zero.1 h
      · exact absurd h (hpos _ _ (n1 i)).ne'
    have h0' := hy 0
    have h1' := hy 1
    simp only [zero_add] at h0'
    have h1'' : y 2 = y 1 := h1'
    intro i j
    fin_cases i <;> fin_cases j <;> simp [h0', h1'']
  · unfold sideSum
    refine Finset.sum_eq_zero fun i _ => ?_
    rw [h (i + 1) i, h (i + 2) i]
    simp

theorem getD_six (b : List T) (hl : b.length = 6) : b = [b.getD 0 0, b.getD 1 0, b.getD 2 0, b.getD 3 0, b.getD 4 0, b.getD 5 0] := by
  match b, hl with
  | [a0, a1, a2, a3, a4, a5], _ => rfl

theorem cellError_ok {order : Nat} (ho : order = 1 ∨ order = 2) {w : World T} {P : Fin 3 → Fin 2 → T} {x : MElem T} {a : Nat}
    (hxa : w.E[a]? = some x) (hx : x.simplex = prepOf P) (hdof : ∀ i < Shape.dof 2 order, ∃ k < w.vertices.length, globalIndex w x i = .ok k)
    (src : List T → T) {y : List T} (hy : y.length = w.vertices.length) :
    ∃ c, cellError order src y w x = .ok c ∧ (order = 1 → c = 0) ∧ (order = 2 → c = cellPart P src (nodeValue w y a)) := by
  have hdet : (prepOf P).determinant = .ok (area2 P) := by rw [Props.Simplex.area2_eq]; rfl
  have hinv : (prepOf P).inverseMatrix = .ok (prepOf P).inv := rfl
  have hval : ∀ i k, globalIndex w x i = .ok k → nodeValue w y a i = y.getD k 0 := by
    intro i k h
    unfold globalIndex at h
    obtain ⟨q, q1, h⟩ := bind_ok_iff.1 h
    obtain ⟨v, v1, h⟩ := bind_ok_iff.1 h
    obtain rfl := Except.ok.inj h
    unfold nodeValue
    rw [hxa, Option.bind_some, getIdx_ok_iff.1 q1, Option.bind_some, getIdx_ok_iff.1 v1]
    rfl
  unfold cellError
  rw [hx, hinv, ok_bind, hdet, ok_bind]
  rcases ho with rfl | rfl
  · exact ⟨0, rfl, fun _ => rfl, fun h => absurd h (by decide)⟩
  · rw [if_pos rfl]
    have hnv : ∃ nv : List T, nodeValues 2 y w x = .ok nv ∧ nv.length = 6 ∧ ∀ i < 6, nv.getD i 0 = nodeValue w y a i := by
      obtain ⟨z, z1, z2⟩ := isVec_mk (T := T) (Shape.dof 2 2)
      have : Sat (nodeValues 2 y w x) (fun nv : List T => nv.length = 6 ∧ ∀ i < 6, nv.getD i 0 = nodeValue w y a i) noErr := by
        unfold nodeValues
        rw [z1, ok_bind]
        refine sat_forRange (fun k (nv : List T) => nv.length = 6 ∧ ∀ i < k, nv.getD i 0 = nodeValue w y a i) (Nat.zero_le _) ⟨z2.1, fun i hi => absurd hi (by omega)⟩ ?_
        intro i nv _ hi hl
        obtain ⟨k, k1, k2⟩ := hdof i hi
        have hi6 : i < 6 := hi
        have hk : k < y.length := by omega
        rw [k2, ok_bind, vecAt_ok hk, ok_bind, vecSet_ok (by omega)]
        show List.length _ = 6 ∧ _
        refine ⟨by rw [List.length_set, hl.1], fun j hj => ?_⟩
        rw [List.getD_eq_getElem _ _ (by rw [List.length_set]; omega), List.getElem_set]
        split
        · subst_vars
          rw [hval _ _ k2, List.getD_eq_getElem _ _ hk]
        · have := hl.2 j (by omega)
          rw [List.getD_eq_getElem _ _ (by omega)] at this
          exact this
      exact this.ok_of
    obtain ⟨nv, n1, n2, n3⟩ := hnv
    rw [n1, ok_bind, getD_six nv n2, n3 0 (by omega), n3 1 (by omega), n3 2 (by omega), n3 3 (by omega), n3 4 (by omega), n3 5 (by omega)]
    set b := nodeValue w y a
    refine ⟨_, rfl, fun h => absurd h (by decide), fun _ => ?_⟩
    unfold cellPart
    congr 1
    rw [Fin.sum_univ_four]
    have hu : (Quadrature.unitVolume 2 : T) = 1 / 2 := by unfold Quadrature.unitVolume; norm_num
    have hD : area2 P = Simplex.D (P 0 0) (P 0 1) (P 1 0) (P 1 1) (P 2 0) (P 2 1) := Props.Simplex.area2_eq P
    have hlist : ∀ s t : T, (((((List.replicate (prepOf P).mat.rows (0 : T)).set 0 (0 + (P 1 0 - P 0 0) * s + (P 2 0 - P 0 0) * t)).set (0 + 1)
        (0 + (P 1 1 - P 0 1) * s + (P 2 1 - P 0 1) * t)).set 0 ((fun x1 x2 => x1 + x2) (0 + (P 1 0 - P 0 0) * s + (P 2 0 - P 0 0) * t) (P 0 0))).set (0 + 1)
        ((fun x1 x2 => x1 + x2) (0 + (P 1 1 - P 0 1) * s + (P 2 1 - P 0 1) * t) (P 0 1))) =
        [P 0 0 + (P 1 0 - P 0 0) * s + (P 2 0 - P 0 0) * t, P 0 1 + (P 1 1 - P 0 1) * s + (P 2 1 - P 0 1) * t] := by
      intro s t
      show [_, _] = [_, _]
      simp only [zero_add]
      congr 1
      · ring
      · congr 1; ring
    rw [hlist, hlist, hlist, hlist, hu, hD]
    simp only [cellRule, Quadrature.lit, Matrix.cons_val_zero, Matrix.cons_val_one, Matrix.cons_val, Matrix.head_cons, Matrix.cons_val_fin_one, Nat.cast_ofNat,
      Int.cast_ofNat, Int.cast_neg, zero_add]
    ring

theorem isDiameter_of {sqrt : T → T} (hs : IsSqrt sqrt) {P : Fin 3 → Fin 2 → T} {i j : Fin 3}
    (h : ∀ a b, Props.Simplex.dist2 P a b ≤ Props.Simplex.dist2 P i j) : IsDiameter sqrt P (sqrt (Props.Simplex.dist2 P i j)) := by
  have e : ∀ a b, dist2 sqrt (P a) (P b) = sqrt (Props.Simplex.dist2 P a b) := by
    intro a b
    unfold dist2 Props.Simplex.dist2 dotProduct
    rw [Fin.sum_univ_two]
    rfl
  have hn : ∀ a b, 0 ≤ Props.Simplex.dist2 P a b := by
    intro a b
    unfold Props.Simplex.dist2 dotProduct
    exact Finset.sum_nonneg fun k _ => mul_self_nonneg _
  refine ⟨⟨i, j, (e i j).symm⟩, fun a b => ?_⟩
  rw [e]
  obtain ⟨p1, p2⟩ := hs _ (hn a b)
  obtain ⟨q1, q2⟩ := hs _ (hn i j)
  by_contra hlt
  have := h a b
  nlinarith

theorem postOne_ok {order : Nat} (ho : order = 1 ∨ order = 2) {sqrt : T → T} (hs : IsSqrt sqrt) {w : World T} {a : Nat} {P : Fin 3 → Fin 2 → T} {x : MElem T}
    {v : Fin 3 → MVertex T} (h : PostElem w a P x v) (hx : x.simplex = prepOf P) (hP : area2 P ≠ 0)
    (hdof : ∀ i < Shape.dof 2 order, ∃ k < w.vertices.length, globalIndex w x i = .ok k) (src : List T → T) {y : List T} (hy : y.length = w.vertices.length) :
    ∃ c, postOne sqrt order src y w x = .ok (c + 1 / 2 * sideSum sqrt P (cornerValue w y a)) ∧ (order = 1 → c = 0) ∧
      (order = 2 → ∃ H, IsDiameter sqrt P H ∧ c = H ^ 2 * cellPart P src (nodeValue w y a)) := by
  obtain ⟨c, c1, c2, c3⟩ := cellError_ok ho h.elem hx hdof src hy
  obtain ⟨i, j, d, hd⟩ := Props.Simplex.C47_diameter sqrt (s := x.simplex) (P := P) (by rw [hx]; rfl)
  unfold postOne
  rw [d, ok_bind, c1, ok_bind, faceError_ok hs hP h hy, ok_bind]
  exact ⟨_, rfl, fun h1 => by rw [c2 h1, mul_zero], fun h1 => ⟨_, isDiameter_of hs hd, by rw [c3 h1, sq]⟩⟩

theorem fill_list {α : Type} (l : List α) (val : α → T) (body : α → List T × Nat → R (List T × Nat))
    (hb : ∀ a ∈ l, ∀ r k, k < r.length → body a (r, k) = .ok (r.set k (val a), k + 1)) :
    ∀ (pre z : List T), z.length = l.length → forList l (pre ++ z, pre.length) body = .ok (pre ++ l.map val, pre.length + l.length) := by
  induction l with
  | nil => intro pre z hz; obtain rfl := List.length_eq_zero_iff.1 hz; rfl
  | cons a l ih =>
    intro pre z hz
    obtain ⟨b, z, rfl⟩ : ∃ b z', z = b :: z' := by cases z with | nil => simp at hz | cons b z => exact ⟨b, z, rfl⟩
    unfold forList
    rw [hb a (by simp) _ _ (by simp), ok_bind]
    have e1 : (pre ++ b :: z).set pre.length (val a) = (pre ++ [val a]) ++ z := by simp
    have := ih (fun c hc => hb c (by simp [hc])) (pre ++ [val a]) z (by simpa using hz)
    rw [e1]
    rw [List.length_append, List.length_singleton] at this
    rw [this]
    simp [Nat.add_comm, Nat.add_left_comm]

/-- C89: the a posteriori error is computed for every element, for linear and quadratic elements: the part of the sides is half the
sum over the sides of the length of the side times the squares of the difference quotients along the other two sides; for quadratic
elements the part of the cell, times the square of the diameter, is added. -/
theorem C89_post {w w' w'' : World T} {order : Nat} (h : Built w) (hd : Distinct w) (hc : Closed w) (hp : Pipeline w w')
    (ho : order = 1 ∨ order = 2) (e : Shape.prepareMesh order w' = .ok w'') (hel : w.elements ≠ []) {sqrt : T → T} (hs : IsSqrt sqrt)
    (factor : T) (src : List T → T) {y : List T} (hy : y.length = w''.vertices.length) :
    ∃ c : Nat → T, (order = 1 → ∀ a, c a = 0) ∧
      (order = 2 → ∀ a ∈ w.elements, ∃ H, IsDiameter sqrt (coords w a) H ∧ c a = H ^ 2 * cellPart (coords w a) src (nodeValue w'' y a)) ∧
      postError sqrt factor order src y w'' = .ok (w.elements.map fun a => factor * (c a + 1 / 2 * sideSum sqrt (coords w a) (cornerValue w'' y a))) ∧
      ∀ a ∈ w.elements, 0 ≤ sideSum sqrt (coords w a) (cornerValue w'' y a) ∧
        (sideSum sqrt (coords w a) (cornerValue w'' y a) = 0 ↔ ∀ i j, cornerValue w'' y a i = cornerValue w'' y a j) := by
  have hs' := hp.setup
  have hv : w.vertices ≠ [] := by
    obtain ⟨q, hq⟩ := List.exists_mem_of_ne_nil _ hel
    have hI := built_inv h
    obtain ⟨z, hz⟩ : ∃ z, w.E[q]? = some z := ⟨_, List.getElem?_eq_getElem (hI.elt q hq)⟩
    intro h0
    obtain ⟨u, -, q1, -⟩ := hI.corner q hq z hz 0 (by omega)
    have := hc q hq u (by rw [vertsOf_some hz]; exact List.mem_of_getElem? q1)
    rw [h0] at this
    simp at this
  have hR := ready_of h hd hc hp ho e hv
  have hD := dofs_in h hd hc hs' ho e
  have hone : ∀ a, ∃ c : T, (order = 1 → c = 0) ∧
      (order = 2 → a ∈ w.elements → ∃ H, IsDiameter sqrt (coords w a) H ∧ c = H ^ 2 * cellPart (coords w a) src (nodeValue w'' y a)) ∧ (a ∈ w.elements → ∃ x, w''.E[a]? = some x ∧
      postOne sqrt order src y w'' x = .ok (c + 1 / 2 * sideSum sqrt (coords w a) (cornerValue w'' y a))) := by
    intro a
    by_cases ha : a ∈ w.elements
    · obtain ⟨x, v, hx⟩ := postElem_of h hd hc hp ho e ha
      have ha'' : a ∈ w''.elements := by rw [hD.elements]; exact ha
      obtain ⟨x', x1, x2⟩ := hR.simplex a ha''
      rw [hx.elem] at x1
      obtain rfl := Option.some.inj x1
      obtain ⟨c, c1, c2, c3⟩ := postOne_ok ho hs hx x2 (hR.area a ha'')
        (fun i hi => by obtain ⟨q, q1, q2⟩ := hR.dof a ha'' i hi; exact ⟨q, q1, globalIndex_ok hx.elem q2⟩) src hy
      exact ⟨c, c2, fun h2 _ => c3 h2, fun _ => ⟨x, hx.elem, c1⟩⟩
    · exact ⟨0, fun _ => rfl, fun _ h => absurd h ha, fun h => absurd h ha⟩
  choose c c1 c3 c2 using hone
  refine ⟨c, fun h a => c1 a h, fun h a ha => c3 a h ha, ?_, fun a ha => sideSum_nonneg hs (hR.area a (by rw [hD.elements]; exact ha)) _⟩
  obtain ⟨z, z1, z2⟩ := isVec_mk (T := T) w.elements.length
  unfold postError
  rw [hD.elements, z1, ok_bind]
  have key := fill_list w.elements (fun a => factor * (c a + 1 / 2 * sideSum sqrt (coords w a) (cornerValue w'' y a)))
    (fun a st => do
      let e ← getIdx w''.E a
      let nk ← postOne sqrt order src y w'' e
      let r ← vecSet st.1 st.2 (factor * nk)
      return (r, st.2 + 1)) ?_ [] z z2.1
  · rw [List.nil_append, List.nil_append] at key
    exact congrArg (fun r => r >>= fun st => pure (f := R) st.1) key
  · intro a ha r k hk
    obtain ⟨x, x1, x2⟩ := c2 a ha
    simp only
    rw [getIdx_of_some x1, ok_bind, x2, ok_bind, vecSet_ok hk]
    rfl

/-- C89: with linear elements the a posteriori error of an element is the part of the sides alone. -/
theorem C89_post_linear {w w' w'' : World T} (h : Built w) (hd : Distinct w) (hc : Closed w) (hp : Pipeline w w')
    (e : Shape.prepareMesh 1 w' = .ok w'') (hel : w.elements ≠ []) {sqrt : T → T} (hs : IsSqrt sqrt) (factor : T) (src : List T → T) {y : List T}
    (hy : y.length = w''.vertices.length) :
    postError sqrt factor 1 src y w'' = .ok (w.elements.map fun a => factor * (1 / 2 * sideSum sqrt (coords w a) (cornerValue w'' y a))) := by
  obtain ⟨c, c1, -, c2, -⟩ := C89_post h hd hc hp (.inl rfl) e hel hs factor src hy
  rw [c2]
  simp only [c1 rfl, zero_add]

theorem collect_list {α β : Type} (l : List α) (val : α → β) (body : α → List β → R (List β))
    (hb : ∀ a ∈ l, ∀ r, body a r = .ok (r ++ [val a])) : ∀ pre, forList l pre body = .ok (pre ++ l.map val) := by
  induction l with
  | nil => intro pre; simp [forList]
  | cons a l ih =>
    intro pre
    unfold forList
    rw [hb a (by simp), ok_bind, ih (fun c hc => hb c (by simp [hc]))]
    simp

/-- `prepareMesh` keeps the corners and the vertices -/
theorem verts_after {w w' w'' : World T} {order : Nat} (h : Built w) (hd : Distinct w) (s : Setup w w') (ho : order = 1 ∨ order = 2)
    (e : Shape.prepareMesh order w' = .ok w'') : (∀ a ∈ w.elements, w''.vertsOf a = w.vertsOf a) ∧ ∀ q ∈ w.vertices, q ∈ w''.vertices := by
  have hE := edges_of h hd s
  have hcv : ∀ a ∈ w.elements, ∀ e : MElem T, w'.E[a]? = some e → e.verts = w.vertsOf a := by
    intro a ha e he
    obtain ⟨x, x', x1, x2, x3, -⟩ := hE.E a ha
    rw [he] at x2
    obtain rfl := Option.some.inj x2
    rw [x3, vertsOf_some x1]
  rcases ho with rfl | rfl
  · obtain ⟨w2, e2, hl⟩ := C56_order1 h hd s
    rw [e] at e2
    obtain rfl := Except.ok.inj e2
    refine ⟨fun a ha => ?_, fun q hq => by rw [hl.keep.2.1, hE.vertices]; exact hq⟩
    obtain ⟨x, d, x1, x2, x3, x4⟩ := hl.dofs a (by rw [hE.elements]; exact ha)
    rw [vertsOf_some x4]
    exact hcv a ha x x1
  · obtain ⟨w2, m, e2, hq⟩ := C56_order2 h hd s
    rw [e] at e2
    obtain rfl := Except.ok.inj e2
    obtain ⟨news, n1, -⟩ := hq.vertices
    refine ⟨fun a ha => ?_, fun q hq => by rw [n1, hE.vertices]; exact List.mem_append_left _ hq⟩
    obtain ⟨x, c0, c1, c2, x1, x2, x3⟩ := hq.dofs a ha
    rw [vertsOf_some x3]
    exact hcv a ha x x1

/-- C89: the two files describe the result: `poisson_fem_data.dat` has one line per vertex, in the order of their numbers, with the
coordinates and the value; `poisson_fem_mesh.dat` has one line per element with the (1-based) line numbers of its corners. -/
theorem C89_files {w w' w'' : World T} {order : Nat} (h : Built w) (hd : Distinct w) (hc : Closed w) (hp : Pipeline w w')
    (ho : order = 1 ∨ order = 2) (e : Shape.prepareMesh order w' = .ok w'')
    {y : List T} (hy : y.length = w''.vertices.length) :
    ∃ (D : List (T × T × T)) (K : List (Nat × Nat × Nat)), dataRows y w'' = .ok D ∧ meshRows w'' = .ok K ∧ D.length = w''.vertices.length ∧ K.length = w.elements.length ∧
      (∀ (i p : Nat) (v : MVertex T), w''.vertices[i]? = some p → w''.V[p]? = some v → D[i]? = some (v.pos.getD 0 0, v.pos.getD 1 0, y.getD i 0)) ∧
      ∀ (k a : Nat), w.elements[k]? = some a → ∃ n : Fin 3 → Nat, K[k]? = some (n 0 + 1, n 1 + 1, n 2 + 1) ∧
        ∀ j, D[n j]? = some (coords w a j 0, coords w a j 1, cornerValue w'' y a j) ∧
          ∃ p, (w.vertsOf a)[(j : Nat)]? = some (some p) ∧ w''.vertices[n j]? = some p := by
  have hN := C60_numbered h hd hp.setup ho e
  have hD := dofs_in h hd hc hp.setup ho e
  have hp' := hp
  have hlook : ∀ i p, w''.vertices[i]? = some p → ∃ v : MVertex T, w''.V[p]? = some v ∧ v.gi = i := by
    intro i p hp
    obtain ⟨v, h1, h2⟩ := hN i (lt_of_getElem? hp)
    unfold vertexAt at h1
    rw [hp] at h1
    exact ⟨v, h1, h2⟩
  let dv : Nat → T × T × T := fun p => ((w''.V[p]?).map fun v : MVertex T => (v.pos.getD 0 0, v.pos.getD 1 0, y.getD v.gi 0)).getD (0, 0, 0)
  have hdata : dataRows y w'' = .ok (w''.vertices.map dv) := by
    refine collect_list w''.vertices dv _ (fun p hp r => ?_) []
    obtain ⟨k, v, k1, k2, k3, k4⟩ := numbered_mem hN hp
    have hl : v.pos.length = 2 := by
      obtain ⟨u, x, y, u1, u2⟩ := Props.Vtk.planar_after h hd hp'.setup ho e p hp
      rw [k3] at u1
      rw [Option.some.inj u1, u2]; rfl
    have hv : dv p = (v.pos[0], v.pos[1], y[v.gi]'(by omega)) := by
      show ((w''.V[p]?).map fun v : MVertex T => (v.pos.getD 0 0, v.pos.getD 1 0, y.getD v.gi 0)).getD (0, 0, 0) = _
      rw [k3, Option.map_some, Option.getD_some, List.getD_eq_getElem _ _ (by omega), List.getD_eq_getElem _ _ (by omega), List.getD_eq_getElem _ _ (by omega)]
    rw [getIdx_of_some k3, ok_bind, vecAt_ok (by omega), ok_bind, vecAt_ok (by omega), ok_bind, vecAt_ok (by omega), ok_bind, hv]
    rfl
  have hrow : ∀ (i p : Nat) (v : MVertex T), w''.vertices[i]? = some p → w''.V[p]? = some v →
      (w''.vertices.map dv)[i]? = some (v.pos.getD 0 0, v.pos.getD 1 0, y.getD i 0) := by
    intro i p v hp hv
    obtain ⟨u, u1, u2⟩ := hlook _ _ hp
    rw [hv] at u1
    obtain rfl := Option.some.inj u1
    rw [List.getElem?_map, hp, Option.map_some]
    show some (((w''.V[p]?).map fun v : MVertex T => (v.pos.getD 0 0, v.pos.getD 1 0, y.getD v.gi 0)).getD (0, 0, 0)) = _
    rw [hv, Option.map_some, Option.getD_some, u2]
  have hel : ∀ a, ∃ n : Fin 3 → Nat, a ∈ w.elements → ∃ x v, PostElem w'' a (coords w a) x v ∧ ∀ i, n i = (v i).gi := by
    intro a
    by_cases ha : a ∈ w.elements
    · obtain ⟨x, v, hx⟩ := postElem_of h hd hc hp ho e ha
      exact ⟨fun i => (v i).gi, fun _ => ⟨x, v, hx, fun _ => rfl⟩⟩
    · exact ⟨fun _ => 0, fun h => absurd h ha⟩
  choose n hn using hel
  have hmesh : meshRows w'' = .ok (w''.elements.map fun a => (n a 0 + 1, n a 1 + 1, n a 2 + 1)) := by
    refine collect_list w''.elements _ _ (fun a ha r => ?_) []
    obtain ⟨x, v, hx, hv⟩ := hn a (by rw [← hD.elements]; exact ha)
    have g0 : vertexOf w'' x.verts 0 = .ok (v 0) := hx.vert 0
    have g1 : vertexOf w'' x.verts 1 = .ok (v 1) := hx.vert 1
    have g2 : vertexOf w'' x.verts 2 = .ok (v 2) := hx.vert 2
    rw [getIdx_of_some hx.elem, ok_bind, g0, ok_bind, g1, ok_bind, g2, ok_bind, hv, hv, hv]
    rfl
  refine ⟨_, _, hdata, hmesh, List.length_map _, by rw [List.length_map, hD.elements], hrow, fun k a hk => ⟨n a, ?_, fun j => ?_⟩⟩
  · rw [List.getElem?_map, hD.elements, hk]; rfl
  · have hae := List.mem_of_getElem? hk
    obtain ⟨x, v, hx, hv⟩ := hn a hae
    have hl := hx.gi j
    have hcor : ∃ p, (w.vertsOf a)[(j : Nat)]? = some (some p) ∧ w''.vertices[n a j]? = some p := by
      obtain ⟨hvo, hsub⟩ := verts_after h hd hp'.setup ho e
      have hj := hx.vert j
      unfold vertexOf at hj
      rw [bind_ok_iff] at hj
      obtain ⟨o, o1, hj⟩ := hj
      rw [bind_ok_iff] at hj
      obtain ⟨p, o2, hj⟩ := hj
      rw [getIdx_ok_iff] at o1 hj
      rw [deref_ok_iff] at o2
      subst o2
      have hpv : (w.vertsOf a)[(j : Nat)]? = some (some p) := by rw [← hvo a hae, vertsOf_some hx.elem]; exact o1
      refine ⟨p, hpv, ?_⟩
      obtain ⟨k, u, k1, k2, k3, k4⟩ := numbered_mem hN (hsub _ (hc a hae p (List.mem_of_getElem? hpv)))
      rw [hj] at k3
      obtain rfl := Option.some.inj k3
      rw [hv, k4]
      exact k1
    refine ⟨?_, hcor⟩
    obtain ⟨p, hp⟩ : ∃ p, w''.vertices[n a j]? = some p := ⟨_, List.getElem?_eq_getElem (by rw [hv]; exact hl)⟩
    have hat := hx.num j
    unfold vertexAt at hat
    rw [← hv, hp] at hat
    rw [hrow _ _ _ hp hat, hx.pos, hx.value, hv]
    rfl

/-- C89: the vector of exact errors, for any values `y` at the vertices, and the reported number: it is the largest error unless all
errors are below the start value `lo` of `max()` (the smallest positive normal number). -/
theorem C89_exact {w : World T} (hN : Numbered w) (sol : List T → T) {y : List T} (hy : y.length = w.vertices.length) (lo : T) :
    ∃ r, exactError sol y w = .ok r ∧ r.length = w.vertices.length ∧
      (∀ (i p : Nat) (v : MVertex T), w.vertices[i]? = some p → w.V[p]? = some v → r[i]? = some |sol v.pos - y.getD i 0|) ∧
      ∃ m, reportExact lo sol y w = .ok m ∧ (∀ x ∈ r, x ≤ m) ∧ lo ≤ m ∧ (m = lo ∨ m ∈ r) := by
  obtain ⟨z, z1, z2⟩ := isVec_mk (T := T) w.vertices.length
  have hlook : ∀ i p, w.vertices[i]? = some p → ∃ v : MVertex T, w.V[p]? = some v ∧ v.gi = i := by
    intro i p hp
    obtain ⟨v, h1, h2⟩ := hN i (lt_of_getElem? hp)
    unfold vertexAt at h1
    rw [hp] at h1
    exact ⟨v, h1, h2⟩
  let val : Nat → T := fun p => ((w.V[p]?).map fun v : MVertex T => |sol v.pos - y.getD v.gi 0|).getD 0
  let body : Nat → List T → R (List T) := fun p e => do
    let v ← getIdx w.V p
    let uh ← vecAt y v.gi
    vecSet e v.gi |sol v.pos - uh|
  have key : ∀ (l done : List Nat) (pre z : List T), w.vertices = done ++ l → pre.length = done.length → z.length = l.length →
      forList l (pre ++ z) body = .ok (pre ++ l.map val) := by
    intro l
    induction l with
    | nil => intro done pre z _ _ hz; obtain rfl := List.length_eq_zero_iff.1 hz; rfl
    | cons p l ih =>
      intro done pre z hw hpre hz
      obtain ⟨b, z, rfl⟩ : ∃ b z', z = b :: z' := by cases z with | nil => simp at hz | cons b z => exact ⟨b, z, rfl⟩
      have hp : w.vertices[pre.length]? = some p := by rw [hw, hpre]; simp
      obtain ⟨v, v1, v2⟩ := hlook _ _ hp
      have hlt : pre.length < y.length := by rw [hy]; exact lt_of_getElem? hp
      have hb : body p (pre ++ b :: z) = .ok ((pre ++ [val p]) ++ z) := by
        show (do let v ← getIdx w.V p; let uh ← vecAt y v.gi; vecSet (pre ++ b :: z) v.gi |sol v.pos - uh| : R (List T)) = _
        have hval : val p = |sol v.pos - y[pre.length]| := by
          show ((w.V[p]?).map fun v : MVertex T => |sol v.pos - y.getD v.gi 0|).getD 0 = _
          rw [v1, Option.map_some, Option.getD_some, v2, List.getD_eq_getElem _ _ hlt]
        rw [getIdx_of_some v1, ok_bind, v2, vecAt_ok hlt, ok_bind, vecSet_ok (by simp), hval]
        simp
      unfold forList
      rw [hb, ok_bind, ih (done ++ [p]) (pre ++ [val p]) z (by rw [hw]; simp) (by simp [hpre]) (by simpa using hz)]
      simp
  have hres : exactError sol y w = .ok (w.vertices.map val) := by
    unfold exactError
    rw [z1, ok_bind]
    exact key w.vertices [] [] z rfl rfl z2.1
  refine ⟨_, hres, List.length_map _, fun i p v hp hv => ?_, Vec.maxE lo (w.vertices.map val), ?_, ?_⟩
  · obtain ⟨u, u1, u2⟩ := hlook _ _ hp
    rw [hv] at u1
    obtain rfl := Option.some.inj u1
    rw [List.getElem?_map, hp, Option.map_some]
    show some (((w.V[p]?).map fun v : MVertex T => |sol v.pos - y.getD v.gi 0|).getD 0) = _
    rw [hv, Option.map_some, Option.getD_some, u2]
  · unfold reportExact
    rw [hres]; rfl
  · obtain ⟨a1, a2, a3⟩ := Props.VecMore.foldl_max (w.vertices.map val) lo
    exact ⟨a2, a1, a3⟩

section example_
open NS.HyperCube NS.Props.HyperCube
open Real
variable {M : Type} [MatOps M ℝ] [LawfulMat M ℝ]

/-- `solution`, fem.cpp:259-260 -/
noncomputable def sineSol (v : List ℝ) : ℝ := sineSolution (v.getD 0 0) (v.getD 1 0)

/-- on the grid: if the error at every vertex is at most `bound`, the reported number is at most the larger of `bound` and `lo` -/
theorem report_grid {N : Nat} (hN : 1 ≤ N) {w1 w2 w3 : World ℝ} (e1 : generate N N ((1 : ℝ), 1) (0, 0) = .ok w1)
    (e2 : w1.prepare 0 = .ok w2) (e3 : Shape.prepareMesh 1 w2 = .ok w3) {x₁ : List ℝ} {x : Fin ((N + 1) * (N + 1)) → ℝ} (hx : IsVec x₁ _ x)
    {bound : ℝ} (hb : ∀ (i : Fin ((N + 1) * (N + 1))) (r c : Nat), (i : Nat) = r * (N + 1) + c → r ≤ N → c ≤ N →
      |x i - sin (π * (c / N)) * sin (π * (r / N)) / (2 * π * π)| ≤ bound) (lo : ℝ) :
    ∃ m, reportExact lo sineSol x₁ w3 = .ok m ∧ m ≤ max lo bound ∧
      ∀ (i : Fin ((N + 1) * (N + 1))) (r c : Nat), (i : Nat) = r * (N + 1) + c → r ≤ N → c ≤ N →
        |x i - sin (π * (c / N)) * sin (π * (r / N)) / (2 * π * π)| ≤ m := by
  obtain ⟨w₀, v1, v2, v3, hb', hd, hc, hel, f1, f2, hp, f3, G⟩ := grid_ready hN (one_ne_zero (α := ℝ)) (0, 0)
  obtain rfl : w1 = v1 := Except.ok.inj (e1.symm.trans f1)
  obtain rfl : w2 = v2 := Except.ok.inj (e2.symm.trans f2)
  obtain rfl : w3 = v3 := Except.ok.inj (e3.symm.trans f3)
  have hNum := C60_numbered hb' hd hp.setup (.inl rfl) e3
  have hlen : x₁.length = w3.vertices.length := by rw [G.vertices, List.length_range]; exact hx.1
  obtain ⟨r, r1, r2, r3, m, m1, m2, m3, m4⟩ := C89_exact hNum sineSol hlen lo
  have hval : ∀ (i : Fin ((N + 1) * (N + 1))) (a b : Nat), (i : Nat) = a * (N + 1) + b → a ≤ N → b ≤ N →
      r[(i : Nat)]? = some |x i - sin (π * (b / N)) * sin (π * (a / N)) / (2 * π * π)| := by
    intro i a b hi ha hb1
    obtain ⟨v, q1, q2, -⟩ := G.vertex a ha b hb1
    have hii : (i : Nat) = vid N a b := hi
    rw [← hii] at q1
    unfold vertexAt at q1
    obtain ⟨p, p1⟩ : ∃ p, w3.vertices[(i : Nat)]? = some p := ⟨_, List.getElem?_eq_getElem (by rw [G.vertices, List.length_range]; exact i.2)⟩
    rw [p1] at q1
    rw [r3 i p v p1 q1, q2, (isVec_iff.1 hx).2 i, abs_sub_comm]
    congr 3
    show sineSolution (0 + 1 / N * (b : ℝ)) (0 + 1 / N * (a : ℝ)) = _
    unfold sineSolution
    rw [zero_add, zero_add, one_div_mul_eq_div, one_div_mul_eq_div]
  refine ⟨m, m1, ?_, fun i a b hi ha hb1 => m2 _ (List.mem_of_getElem? (hval i a b hi ha hb1))⟩
  rcases m4 with rfl | hm
  · exact le_max_left _ _
  · obtain ⟨k, hk⟩ := List.getElem?_of_mem hm
    have hkl : k < (N + 1) * (N + 1) := by
      have := lt_of_getElem? hk
      rwa [r2, G.vertices, List.length_range] at this
    have hdiv : k / (N + 1) ≤ N := by
      have := Nat.div_lt_of_lt_mul hkl
      omega
    have hmod : k % (N + 1) ≤ N := by have := Nat.mod_lt k (show 0 < N + 1 by omega); omega
    have hik : k = k / (N + 1) * (N + 1) + k % (N + 1) := by rw [Nat.mul_comm]; exact (Nat.div_add_mod k (N + 1)).symm
    have := hval ⟨k, hkl⟩ _ _ hik hdiv hmod
    rw [hk] at this
    rw [Option.some.inj this]
    exact (hb ⟨k, hkl⟩ _ _ hik hdiv hmod).trans (le_max_right _ _)

/-- C89: the program on the unit square with the preconditioned conjugate gradients (solver 2): the printed exact error is at least the
error at every vertex and at most the bound of C88, or the start value of `max()`. -/
theorem C89_example {N : Nat} (hN : 2 ≤ N) (hN2 : N ≤ 31) (lo : ℝ) :
    ∃ (w1 w2 w3 : World ℝ) (x₁ : List ℝ) (it : Nat) (m : ℝ), generate N N ((1 : ℝ), 1) (0, 0) = .ok w1 ∧ w1.prepare 0 = .ok w2 ∧
      Shape.prepareMesh 1 w2 = .ok w3 ∧ solve (M := M) (1 / 10 ^ 8) (1 / 2 ^ 52) 1 sineSource zeroBoundary 1024 (1 / 10 ^ 4) w3 = .ok (x₁, it) ∧
      reportExact lo sineSol x₁ w3 = .ok m ∧ m ≤ max lo (2 / 10 ^ 4 + π ^ 2 / 32 / (N : ℝ) ^ 2 + 126 / 10 ^ 7 * (N : ℝ) ^ 2) ∧
      ∀ r ≤ N, ∀ c ≤ N, |x₁.getD (r * (N + 1) + c) 0 - sin (π * (c / N)) * sin (π * (r / N)) / (2 * π * π)| ≤ m := by
  obtain ⟨w1, w2, w3, e1, e2, e3, x₁, x, it, f1, f2, f3⟩ := C88_example_pcg (M := M) hN hN2
  obtain ⟨m, m1, m2, m3⟩ := report_grid (by omega) e1 e2 e3 f2 (bound := 2 / 10 ^ 4 + π ^ 2 / 32 / (N : ℝ) ^ 2 + 126 / 10 ^ 7 * (N : ℝ) ^ 2)
    (fun i r c hi hr hc => (f3 i r c hi hr hc).trans (by
      have p1 : (0 : ℝ) ≤ π ^ 2 / 32 / (N : ℝ) ^ 2 := by positivity
      have p2 : (0 : ℝ) ≤ 126 / 10 ^ 7 * (N : ℝ) ^ 2 := by positivity
      split <;> linarith)) lo
  refine ⟨w1, w2, w3, x₁, it, m, e1, e2, e3, f1, m1, m2, fun r hr c hc => ?_⟩
  have hl : r * (N + 1) + c < (N + 1) * (N + 1) := vid_lt hr hc
  have := m3 ⟨_, hl⟩ r c rfl hr hc
  rwa [← (isVec_iff.1 f2).2] at this

/-- C89 fails for the a posteriori error: printed as a bound of `|grad(e)|`, it is zero on the grid with one cell, whose only discrete
solution is zero, although the derivative of the solution in `y` at `(1/2, 0)` is `1/(2π)`. -/
theorem C89_post_negation : ∃ (w1 w2 w3 : World ℝ) (a : M) (b : List ℝ) (A : Matrix (Fin 4) (Fin 4) ℝ) (B : Fin 4 → ℝ),
    generate 1 1 ((1 : ℝ), 1) (0, 0) = .ok w1 ∧ w1.prepare 0 = .ok w2 ∧ Shape.prepareMesh 1 w2 = .ok w3 ∧
      system (1 / 10 ^ 8) 1 sineSource zeroBoundary w3 = .ok (a, b) ∧ IsMat a 4 A ∧ IsVec b 4 B ∧ (∀ x, A *ᵥ x = B ↔ x = 0) ∧
      postError sqrt 1 1 sineSource [0, 0, 0, 0] w3 = .ok [0, 0] ∧ HasDerivAt (fun y => sineSolution (1 / 2) y) (1 / (2 * π)) 0 := by
  obtain ⟨w1, w2, w3, a, b, A, B, u, e1, e2, e3, e4, hA, hB, hu, huu, hr, -⟩ :=
    C88_equations (M := M) le_rfl (one_ne_zero (α := ℝ)) (0, 0) (eps := 1 / 10 ^ 8) (by norm_num) (by unfold kappa; norm_num) sineSource zeroBoundary
  obtain ⟨w₀, v1, v2, v3, hb', hd, hc, hel, f1, f2, hp, f3, G⟩ := grid_ready (N := 1) le_rfl (one_ne_zero (α := ℝ)) (0, 0)
  obtain rfl : w1 = v1 := Except.ok.inj (e1.symm.trans f1)
  obtain rfl : w2 = v2 := Except.ok.inj (e2.symm.trans f2)
  obtain rfl : w3 = v3 := Except.ok.inj (e3.symm.trans f3)
  have hu0 : u = 0 := by
    funext i
    have hdiv : (i : Nat) / 2 ≤ 1 := by have := i.2; omega
    have hmod : (i : Nat) % 2 ≤ 1 := by omega
    have := hr _ hdiv _ hmod (by unfold Rim; omega)
    unfold node at this
    have hi : (i : Nat) / 2 * (1 + 1) + (i : Nat) % 2 = i := by omega
    rw [dif_pos (by rw [hi]; exact i.2)] at this
    simp only [hi] at this
    exact this
  refine ⟨w1, w2, w3, a, b, A, B, e1, e2, e3, e4, hA, hB, fun x => ⟨fun h => (huu x h).trans hu0, fun h => by rw [h, ← hu0]; exact hu⟩, ?_, ?_⟩
  · have hs : IsSqrt sqrt := fun s hs => ⟨sqrt_nonneg s, mul_self_sqrt hs⟩
    obtain ⟨c, c1, -, c2, c3⟩ := C89_post hb' hd hc hp (.inl rfl) e3 hel hs 1 sineSource (y := [0, 0, 0, 0]) (by rw [G.vertices]; rfl)
    have hz : ∀ n, ([0, 0, 0, 0] : List ℝ).getD n 0 = 0 := by
      intro n
      rcases n with _ | _ | _ | _ | n <;> rfl
    have hcv : ∀ q i, cornerValue w3 [0, 0, 0, 0] q i = 0 := by
      intro q i
      unfold cornerValue
      simp only [hz]
      cases ((w3.vertsOf q)[(i : Nat)]?.join.bind fun q => w3.V[q]?) <;> rfl
    rw [c2, G.elements]
    have : ∀ q ∈ List.range (2 * (1 * 1)), 1 * (c q + 1 / 2 * sideSum sqrt (coords w₀ q) (cornerValue w3 [0, 0, 0, 0] q)) = 0 := by
      intro q hq
      rw [c1 rfl, (c3 q (by rw [G.elements]; exact hq)).2.2 fun i j => by rw [hcv, hcv]]
      norm_num
    rw [List.map_congr_left this]
    rfl
  · have h := (((hasDerivAt_id (0 : ℝ)).const_mul π).sin).const_mul (1 / (2 * π * π))
    have e : (fun y => sineSolution (1 / 2) y) = fun y => 1 / (2 * π * π) * sin (π * id y) := by
      funext y
      unfold sineSolution
      rw [mul_one_div, sin_pi_div_two]
      simp only [id]
      ring
    rw [e]
    have h0 : (1 : ℝ) / (2 * π) = 1 / (2 * π * π) * (cos (π * id 0) * (π * 1)) := by
      have := pi_ne_zero
      simp only [id, mul_zero, cos_zero]
      field_simp
    rw [h0]
    exact h
end example_

/-- C89 fails for the cells of quadratic elements: for `u = x²` and `f = -2` (so that `Δu + f = 0`) the part of the cell is not zero: the
number of the quadrature point is used as the number of the shape function. -/
theorem C89_cell_negation : ∃ (w : World ℚ) (x : MElem ℚ) (y : List ℚ), squareMesh 2 = .ok w ∧ w.E[0]? = some x ∧
    (∀ v ∈ w.V, y.getD v.gi 0 = v.pos.getD 0 0 * v.pos.getD 0 0) ∧ cellError 2 (fun _ => -2) y w x ≠ .ok 0 := by
  have h2 : ((squareMesh 2).toOption.map fun w => (decide (∀ v ∈ w.V, ([0, 1, 0, 1, 1/4, 1/4, 0, 1, 1/4] : List ℚ).getD v.gi 0 = v.pos.getD 0 0 * v.pos.getD 0 0),
      (w.E[0]?).map fun x => (cellError 2 (fun _ => -2) [0, 1, 0, 1, 1/4, 1/4, 0, 1, 1/4] w x).toOption)) =
      some (true, some (some (-3083333333333331 / 2000000000000000))) := by decide +kernel
  rcases hw : squareMesh 2 with er | w
  · rw [hw] at h2; cases h2
  rw [hw] at h2
  obtain ⟨g1, g2⟩ := Prod.mk.inj (Option.some.inj h2)
  obtain ⟨x, x1, x2⟩ := Option.map_eq_some_iff.1 g2
  refine ⟨w, x, _, rfl, x1, of_decide_eq_true g1, fun h => ?_⟩
  rw [h] at x2
  have := Option.some.inj x2
  norm_num at this

/-- the square of two triangles meets the hypotheses of the theorems above; its files -/
example : ∃ w w' : World ℚ, Built (NS.Props.Mesh.square : World ℚ) ∧ Distinct (NS.Props.Mesh.square : World ℚ) ∧
    Closed (NS.Props.Mesh.square : World ℚ) ∧ Pipeline NS.Props.Mesh.square w' ∧ Shape.prepareMesh 1 w' = .ok w ∧
    (dataRows [5, 6, 7, 8] w).toOption = some [(0, 0, 5), (1, 0, 6), (0, 1, 7), (1, 1, 8)] ∧
    (meshRows w).toOption = some [(1, 2, 3), (2, 4, 3)] := by
  have h3 : ((squareMesh 1).toOption.map fun w => (dataRows [5, 6, 7, 8] w).toOption) =
      some (some [(0, 0, 5), (1, 0, 6), (0, 1, 7), (1, 1, 8)]) := by decide +kernel
  have h4 : ((squareMesh 1).toOption.map fun w => (meshRows w).toOption) = some (some [(1, 2, 3), (2, 4, 3)]) := by decide +kernel
  rcases hw : squareMesh 1 with er | w
  · rw [hw] at h3; cases h3
  rw [hw] at h3 h4
  obtain ⟨w1, p1, p2⟩ := square_pipeline hw
  exact ⟨w, w1, NS.Props.Mesh.square_built, by unfold Distinct; decide, square_closed, p1, p2, Option.some.inj h3, Option.some.inj h4⟩
end NS.Props.Fem

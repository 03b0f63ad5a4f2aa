/-
Property theorems C119: the program on the generated grid with quadratic elements.
-/
import Verif.Props.FemLattice
import Verif.Props.FemRun

set_option linter.unusedSectionVars false
set_option linter.unusedSimpArgs false

namespace NS.Props.Fem
open NS NS.World NS.Fem NS.MatOps NS.LawfulMat Matrix NS.Props.Mesh NS.Props.Shape
open NS.Props.LU (IsMat IsVec isVec_iff isMat_of)
open NS.Props.Simplex (area2 prepOf)
variable {T : Type} [Field T] [LinearOrder T] [IsStrictOrderedRing T] {n : Nat} {M : Type} [MatOps M T] [LawfulMat M T]

/-- C119: the diagonal of the system: no entry is smaller than a constant that depends on the shape of the triangles, less what is dropped -/
theorem C119_diagonal {w w' w'' : World T} {order : Nat} (h : Built w) (hd : Distinct w) (hc : Closed w) (hp : Pipeline w w')
    (ho : order = 1 ∨ order = 2) (e : Shape.prepareMesh order w' = .ok w'') (hel : w.elements ≠ [])
    (hn : w''.vertices.length = n) {eps δ c : T} (hδ : 0 ≤ δ) (hc0 : 0 ≤ c) (hD : Drops eps δ order w) (hF : Fat c w)
    (hcov : ∀ r < n, ∃ s, Linked order w'' r s) {src g : List T → T}
    {a : M} {b : List T} {A : Matrix (Fin n) (Fin n) T} (hs : system eps order src g w'' = .ok (a, b)) (hA : IsMat a n A) (r : Fin n) :
    c / 60 - 36 * w.elements.length * δ ≤ A r r := by
  have hv : w.vertices ≠ [] := by
    obtain ⟨a, ha⟩ := List.exists_mem_of_ne_nil _ hel
    have hI := built_inv h
    obtain ⟨x, hx⟩ : ∃ x, w.E[a]? = some x := ⟨_, List.getElem?_eq_getElem (hI.elt a ha)⟩
    intro h0
    obtain ⟨q, -, q1, -⟩ := hI.corner a ha x hx 0 (by omega)
    have := hc a ha q (by rw [vertsOf_some hx]; exact List.mem_of_getElem? q1)
    rw [h0] at this
    simp at this
  have hr := ready_of h hd hc hp ho e hv
  have hDi := dofs_in h hd hc hp.setup ho e
  have hN := C60_numbered h hd hp.setup ho e
  have hdof : Shape.dof 2 order = 3 * order := by rcases ho with rfl | rfl <;> rfl
  have hn0 : 0 < n := by rw [← hn]; exact hr.pos
  obtain ⟨a0, b0, e1, e2, e3⟩ := assemble_ok (M := M) (eps := eps) ho src hr hn
  rw [sysMat_eq, hDi.elements] at e2
  obtain ⟨G, hG⟩ : ∃ G : Matrix (Fin n) (Fin n) T, G = gather w'' (Shape.dof 2 order) (fun a i j => keep eps (energy order (coords w a) i j)) w.elements := ⟨_, rfl⟩
  rw [← hG] at e2
  have hdiag : ∀ r : Fin n, c / 60 - 36 * w.elements.length * δ ≤ G r r := by
    intro r
    obtain ⟨s, hs, hsr⟩ : ∃ s, Linked order w'' r s ∧ s ≠ r := by
      obtain ⟨s, a, ha, i, hi, j, hj, d1, d2⟩ := hcov r r.2
      have ha' : a ∈ w.elements := by rw [← hDi.elements]; exact ha
      have h1 : 1 < Shape.dof 2 order := by rcases ho with rfl | rfl <;> decide
      obtain ⟨k, k1, k2⟩ := hr.dof a ha 0 (by omega)
      obtain ⟨l, l1, l2⟩ := hr.dof a ha 1 h1
      obtain ⟨x, x1, x2, x3⟩ := hDi.dof a ha'
      obtain ⟨p, p1, p2⟩ := x2 0 (by omega)
      obtain ⟨q, q1, q2⟩ := x2 1 h1
      have hkl : k ≠ l := by
        rintro rfl
        have := numbered_inj hN x1 p1 q1 p2 q2 k2 l2
        rw [p1, q1, this] at x3
        exact x3 rfl
      by_cases hkr : k = r
      · exact ⟨l, ⟨a, ha, i, hi, 1, by omega, d1, l2⟩, by omega⟩
      · exact ⟨k, ⟨a, ha, i, hi, 0, by omega, d1, k2⟩, hkr⟩
    obtain ⟨_, hsn, hstep⟩ := step_le ho hDi.elements hr hn (Pi.single r 1) hs
    rw [Pi.single_eq_same, Pi.single_eq_of_ne (by intro hh; exact hsr (Fin.ext_iff.1 hh))] at hstep
    have hf := kept_form (x := Pi.single r 1) ho hDi.elements hr hδ hD hc0 hF (zero_le_one (α := T)) (fun k => by
      rw [Pi.single_apply]
      split <;> norm_num)
    rw [← hG, Matrix.mulVec_single_one, single_one_dotProduct] at hf
    refine le_trans ?_ hf
    have h5 : c / 30 * (1 / 2) ≤ c / 30 * spreads order w w'' (Pi.single r 1) :=
      mul_le_mul_of_nonneg_left (by linarith) (by linarith)
    linarith
  have havg := C60_avgMid hN hn hn0 e2
  have hmean : c / 60 - 36 * w.elements.length * δ ≤ (∑ i, |G i i|) / n := by
    rw [le_div_iff₀ (by exact_mod_cast hn0)]
    have : ∑ _i : Fin n, (c / 60 - 36 * w.elements.length * δ) ≤ ∑ i, |G i i| := Finset.sum_le_sum fun i _ => (hdiag i).trans (le_abs_self _)
    rw [Finset.sum_const, Finset.card_univ, Fintype.card_fin, nsmul_eq_mul] at this
    linarith
  obtain ⟨a', b', f1, f2, f3⟩ := C60_constrain hN hn e2 e3 ((∑ i, |G i i|) / n) g
  unfold system at hs
  rw [e1, ok_bind, havg, ok_bind, f1] at hs
  obtain ⟨rfl, rfl⟩ := Prod.mk.inj (Except.ok.inj hs)
  rw [← hA.val_eq, f2.val_eq]
  unfold reducedMat
  rw [Matrix.of_apply, if_pos rfl]
  split
  · exact hmean
  · exact hdiag r

end NS.Props.Fem

namespace NS.Props.FemMain
open NS NS.World NS.FemMain NS.Fem Matrix NS.Props.Mesh NS.Props.Shape NS.Props.Fem NS.HyperCube NS.Props.HyperCube
open NS.Props.LU (IsMat IsVec isVec_iff)
open NS.Props.Simplex (IsSqrt area2)
variable {T : Type} [Field T] [LinearOrder T] [IsStrictOrderedRing T] {n : Nat}

/-- the grid after `prepareMesh` of order 2: the corners keep their numbers, and from every number at most `N + 1` steps inside of elements lead to the rim -/
theorem grid_quadratic {N : Nat} (hN : 1 ≤ N) {h : T} {off : T × T} {w w2 w3 : World T} (hb : Built w) (hd : Distinct w) (hcl : Closed w) (hp : Pipeline w w2)
    (e1 : Shape.prepareMesh 1 w2 = .ok w3) (g : GridReady N h off w w3) :
    ∃ w'', Shape.prepareMesh 2 w2 = .ok w'' ∧
      (∀ r ≤ N, ∀ c ≤ N, ∃ v, vertexAt w'' (vid N r c) = some v ∧ v.pos = [off.1 + h * (c : T), off.2 + h * (r : T)] ∧
        v.flags = if r = 0 ∨ r = N ∨ c = 0 ∨ c = N then 1 else 0) ∧
      (∀ x < w''.vertices.length, Within 2 w'' (N + 1) x) ∧ ∀ x < w''.vertices.length, ∃ s, Linked 2 w'' x s := by
  obtain ⟨u, u1, hl⟩ := C56_order1 hb hd hp.setup
  obtain rfl : u = w3 := Except.ok.inj (u1.symm.trans e1)
  obtain ⟨w'', m, e2, hq⟩ := C56_order2 hb hd hp.setup
  have hE := edges_of hb hd hp.setup
  have hw'' : w''.elements = w.elements := hq.elements.trans hE.elements
  have hv2 : w2.vertices = List.range ((N + 1) * (N + 1)) := hl.keep.2.1.symm.trans g.vertices
  obtain ⟨news, n1, -, -, -, n5⟩ := hq.vertices
  have hvlt : ∀ {r c}, r ≤ N → c ≤ N → vid N r c < (N + 1) * (N + 1) := by
    intro r c hr hc
    have : r * (N + 1) ≤ N * (N + 1) := Nat.mul_le_mul_right _ hr
    unfold vid
    rw [Nat.add_mul]; omega
  have hpos : ∀ {r c}, r ≤ N → c ≤ N → w''.vertices[vid N r c]? = some (vid N r c) := by
    intro r c hr hc
    have := hvlt hr hc
    rw [n1, hv2, List.getElem?_append_left (by rw [List.length_range]; exact this), List.getElem?_range this]
  have hvert : ∀ {r c}, r ≤ N → c ≤ N → ∃ v, w''.V[vid N r c]? = some v ∧ v.gi = vid N r c ∧ v.pos = [off.1 + h * (c : T), off.2 + h * (r : T)] ∧
      v.flags = if r = 0 ∨ r = N ∨ c = 0 ∨ c = N then 1 else 0 := by
    intro r c hr hc
    obtain ⟨v, v1, v2, v3⟩ := g.vertex r hr c hc
    unfold vertexAt at v1
    rw [g.vertices, List.getElem?_range (hvlt hr hc), Option.bind_some, hl.keep.1] at v1
    have hlt := lt_of_getElem? v1
    obtain ⟨v', q1, q2⟩ := hq.index _ _ (hpos hr hc)
    rw [hq.old _ hlt, v1] at q1
    obtain rfl := Option.some.inj q1
    exact ⟨v, by rw [hq.old _ hlt]; exact v1, q2, v2, v3⟩
  have hat : ∀ {r c}, r ≤ N → c ≤ N → ∃ v, vertexAt w'' (vid N r c) = some v ∧ v.pos = [off.1 + h * (c : T), off.2 + h * (r : T)] ∧
      v.flags = if r = 0 ∨ r = N ∨ c = 0 ∨ c = N then 1 else 0 := by
    intro r c hr hc
    obtain ⟨v, v1, -, v2, v3⟩ := hvert hr hc
    exact ⟨v, by unfold vertexAt; rw [hpos hr hc]; exact v1, v2, v3⟩
  have hbd : ∀ {r c}, r ≤ N → c ≤ N → (r = 0 ∨ r = N ∨ c = 0 ∨ c = N) → OnBoundary w'' (vid N r c) := by
    intro r c hr hc hh
    obtain ⟨v, v1, -, v3⟩ := hat hr hc
    exact ⟨v, v1, by rw [v3, if_pos hh]; decide⟩
  -- the first three nodes of an element are its corners
  have hnode : ∀ a ∈ w.elements, ∃ (x : MElem T) (c0 c1 c2 : Nat), u.E[a]? = some { x with dofs := [c0, c1, c2] } ∧ w.vertsOf a = [c0, c1, c2].map some ∧
      w''.E[a]? = some { x with dofs := [c0, c1, c2, m a 2, m a 0, m a 1] } := by
    intro a ha
    obtain ⟨x, d, x1, x2, -, x4⟩ := hl.dofs a (by rw [hE.elements]; exact ha)
    obtain ⟨y, c0, c1, c2, y1, y2, y3⟩ := hq.dofs a ha
    rw [x1] at y1
    obtain rfl := Option.some.inj y1
    have hd3 : d = [c0, c1, c2] := by
      have : d.map some = [c0, c1, c2].map some := by rw [← x2, y2]; rfl
      exact List.map_injective_iff.2 (Option.some_injective _) this
    subst hd3
    obtain ⟨z, z', z1, z2, z3, -⟩ := hE.E a ha
    rw [x1] at z2
    obtain rfl := Option.some.inj z2
    exact ⟨x, c0, c1, c2, x4, by rw [vertsOf_some z1, ← z3, x2], y3⟩
  have hold : ∀ p < (N + 1) * (N + 1), ∃ v, w''.V[p]? = some v ∧ u.V[p]? = some v ∧ v.gi = p ∧ w''.vertices[p]? = some p := by
    intro p hpl
    obtain ⟨r, c, hc, rfl⟩ := exists_vid N p
    have hr : r ≤ N := by
      by_contra hcon
      have : (N + 1) * (N + 1) ≤ r * (N + 1) := Nat.mul_le_mul_right _ (by omega)
      unfold vid at hpl; omega
    obtain ⟨v, v1, v2, -⟩ := hvert hr hc
    obtain ⟨v', v1', -⟩ := g.vertex r hr c hc
    unfold vertexAt at v1'
    rw [g.vertices, List.getElem?_range (hvlt hr hc), Option.bind_some] at v1'
    refine ⟨v, v1, ?_, v2, hpos hr hc⟩
    rw [← v1, hq.old _ (lt_of_getElem? (hl.keep.1 ▸ v1')), hl.keep.1]
  have hcv : ∀ a ∈ w.elements, ∀ p, some p ∈ w.vertsOf a → p < (N + 1) * (N + 1) := by
    intro a ha p hpa
    have := hcl a ha p hpa
    rwa [← hE.vertices, hv2, List.mem_range] at this
  have hsame : ∀ a ∈ w.elements, ∀ q < 3, dofIndex w'' a q = dofIndex u a q := by
    intro a ha q hq3
    obtain ⟨x, c0, c1, c2, x1, x2, x3⟩ := hnode a ha
    unfold dofIndex
    rw [x1, x3, Option.bind_some, Option.bind_some]
    simp only
    have e3 : ([c0, c1, c2, m a 2, m a 0, m a 1] : List Nat)[q]? = ([c0, c1, c2] : List Nat)[q]? := by
      interval_cases q <;> rfl
    rw [e3]
    obtain ⟨p, p1⟩ : ∃ p, ([c0, c1, c2] : List Nat)[q]? = some p := ⟨_, List.getElem?_eq_getElem (by simpa using hq3)⟩
    rw [p1, Option.bind_some, Option.bind_some]
    obtain ⟨v, v1, v2, -⟩ := hold p (hcv a ha p (by rw [x2]; exact List.mem_map_of_mem (List.mem_of_getElem? p1)))
    rw [v1, v2]
  have hlink : ∀ {r c : Nat}, r < N → c < N → Linked 2 w'' (vid N (r + 1) c) (vid N r c) := by
    intro r c hr hc
    have haw : eid N r c 0 ∈ w.elements := by rw [g.elements, List.mem_range]; exact eid_lt hr hc (by omega)
    refine ⟨eid N r c 0, by rw [hw'']; exact haw, 1, by omega, 0, by omega, ?_, ?_⟩
    · rw [hsame _ haw 1 (by omega)]; exact g.dof r hr c hc 0 (by omega) 1
    · rw [hsame _ haw 0 (by omega)]; exact g.dof r hr c hc 0 (by omega) 0
  have hcorner : ∀ r ≤ N, ∀ c ≤ N, Within 2 w'' r (vid N r c) := by
    intro r
    induction r with
    | zero => intro hr c hc; exact hbd hr hc (.inl rfl)
    | succ r ih =>
      intro hr c hc
      by_cases hcN : c = N
      · exact within_mono (k := 0) (hbd hr hc (.inr (.inr (.inr hcN)))) (by omega)
      · exact .inr ⟨_, hlink (by omega) (by omega), ih (by omega) c hc⟩
  have hold' : ∀ p < (N + 1) * (N + 1), Within 2 w'' N p := by
    intro p hpl
    obtain ⟨r, c, hc, rfl⟩ := exists_vid N p
    have hr : r ≤ N := by
      by_contra hcon
      have : (N + 1) * (N + 1) ≤ r * (N + 1) := Nat.mul_le_mul_right _ (by omega)
      unfold vid at hpl; omega
    exact within_mono (hcorner r hr c hc) hr
  have hself : ∀ r ≤ N, ∀ c ≤ N, ∃ s, Linked 2 w'' (vid N r c) s := by
    have one : ∀ i < N, ∀ j < N, ∀ k < 2, ∀ q : Fin 3, ∃ s, Linked 2 w'' (vid N (corner i j k q).1 (corner i j k q).2) s := by
      intro i hi j hj k hk q
      have haw : eid N i j k ∈ w.elements := by rw [g.elements, List.mem_range]; exact eid_lt hi hj hk
      have hdq := (hsame _ haw q q.2).trans (g.dof i hi j hj k hk q)
      exact ⟨_, _, by rw [hw'']; exact haw, q, by omega, q, by omega, hdq, hdq⟩
    intro r hr c hc
    rcases Nat.lt_or_ge r N with h1 | h1 <;> rcases Nat.lt_or_ge c N with h2 | h2
    · exact one r h1 c h2 0 (by omega) 0
    · have := one r h1 (N - 1) (by omega) 1 (by omega) 2
      simp only [corner, if_neg one_ne_zero, Matrix.cons_val] at this
      rwa [show N - 1 + 1 = c by omega] at this
    · have := one (N - 1) (by omega) c h2 0 (by omega) 1
      simp only [corner, if_pos rfl, Matrix.cons_val_one] at this
      rwa [show N - 1 + 1 = r by omega] at this
    · have := one (N - 1) (by omega) (N - 1) (by omega) 0 (by omega) 2
      simp only [corner, if_pos rfl, Matrix.cons_val] at this
      rw [show r = N - 1 + 1 by omega, show c = N - 1 + 1 by omega]
      exact this
  have hnew : ∀ x < w''.vertices.length, ¬ x < (N + 1) * (N + 1) → ∃ c0 < (N + 1) * (N + 1), Linked 2 w'' x c0 := by
    intro x hx hxl
    obtain ⟨p, p1⟩ : ∃ p, w''.vertices[x]? = some p := ⟨_, List.getElem?_eq_getElem hx⟩
    have hpn : p ∈ news := by
      rw [n1, hv2, List.getElem?_append_right (by rw [List.length_range]; omega)] at p1
      exact List.mem_of_getElem? p1
    obtain ⟨a, ha, i, rfl⟩ := (n5 p).1 hpn
    obtain ⟨y, c0, c1, c2, -, y2, y3⟩ := hnode a ha
    obtain ⟨v, v1, v2⟩ := hq.index _ _ p1
    have hc0 := hcv a ha c0 (by rw [y2]; simp)
    obtain ⟨v', v1', -, v2', -⟩ := hold c0 hc0
    have hmi : ∃ j < 6, ([c0, c1, c2, m a 2, m a 0, m a 1] : List Nat)[j]? = some (m a i) := by
      fin_cases i
      · exact ⟨4, by omega, rfl⟩
      · exact ⟨5, by omega, rfl⟩
      · exact ⟨3, by omega, rfl⟩
    obtain ⟨j, j1, j2⟩ := hmi
    refine ⟨c0, hc0, a, by rw [hw'']; exact ha, j, by omega, 0, by omega, ?_, ?_⟩
    · unfold dofIndex
      rw [y3, Option.bind_some]
      simp only
      rw [j2, Option.bind_some, v1, Option.map_some, v2]
    · unfold dofIndex
      rw [y3, Option.bind_some]
      simp only
      rw [List.getElem?_cons_zero, Option.bind_some, v1', Option.map_some, v2']
  refine ⟨w'', e2, fun r hr c hc => hat hr hc, fun x hx => ?_, fun x hx => ?_⟩
  · by_cases hxl : x < (N + 1) * (N + 1)
    · exact within_mono (hold' x hxl) (Nat.le_succ _)
    · obtain ⟨c0, h0, hl0⟩ := hnew x hx hxl
      exact .inr ⟨c0, hl0, hold' c0 h0⟩
  · by_cases hxl : x < (N + 1) * (N + 1)
    · obtain ⟨r, c, hc, rfl⟩ := exists_vid N x
      refine hself r ?_ c hc
      by_contra hcon
      have : (N + 1) * (N + 1) ≤ r * (N + 1) := Nat.mul_le_mul_right _ (by omega)
      unfold vid at hxl; omega
    · obtain ⟨c0, -, hl0⟩ := hnew x hx hxl
      exact ⟨c0, hl0⟩

/-- what the threshold drops on the grid, and the shape of its triangles -/
theorem grid_tame {N : Nat} {h : T} (hh : h ≠ 0) {off : T × T} {w w3 : World T} (g : GridReady N h off w w3) :
    Drops (1 / 10 ^ 8) (3 / 2 / 10 ^ 14 * 3) 2 w ∧ Fat (1 / 3) w := by
  have hP : ∀ a ∈ w.elements, (∀ k c, ∃ z : Int, coords w a k c - coords w a 0 c = h * z) ∧ area2 (coords w a) ≠ 0 ∧ sides (coords w a) ≤ 3 * h ^ 2 := by
    intro a ha
    rw [g.elements, List.mem_range] at ha
    obtain ⟨i, hi, j, hj, k, hk, rfl⟩ := exists_eid ha
    have hco := g.coords i hi j hj k hk
    refine ⟨fun q c => ?_, ?_, ?_⟩
    · fin_cases c
      · refine ⟨(corner i j k q).2 - (corner i j k 0).2, ?_⟩
        show coords w _ q 0 - coords w _ 0 0 = _
        rw [(hco q).1, (hco 0).1]; push_cast; ring
      · refine ⟨(corner i j k q).1 - (corner i j k 0).1, ?_⟩
        show coords w _ q 1 - coords w _ 0 1 = _
        rw [(hco q).2, (hco 0).2]; push_cast; ring
    · rw [area2_eq, (hco 0).1, (hco 0).2, (hco 1).1, (hco 1).2, (hco 2).1, (hco 2).2]
      have hne : -(h * h) ≠ 0 := neg_ne_zero.2 (mul_ne_zero hh hh)
      interval_cases k
      · convert hne using 1
        simp only [corner, if_pos rfl, Matrix.cons_val_zero, Matrix.cons_val_one, Matrix.cons_val]
        push_cast; ring
      · convert hne using 1
        simp only [corner, if_neg one_ne_zero, Matrix.cons_val_zero, Matrix.cons_val_one, Matrix.cons_val]
        push_cast; ring
    · simp only [sides, dotProduct, Fin.sum_univ_two, Pi.sub_apply]
      rw [(hco 0).1, (hco 0).2, (hco 1).1, (hco 1).2, (hco 2).1, (hco 2).2]
      refine le_of_eq ?_
      interval_cases k
      · simp only [corner, if_pos rfl, Matrix.cons_val_zero, Matrix.cons_val_one, Matrix.cons_val]
        push_cast; ring
      · simp only [corner, if_neg one_ne_zero, Matrix.cons_val_zero, Matrix.cons_val_one, Matrix.cons_val]
        push_cast; ring
  refine ⟨fun a ha i hi j hj hk => ?_, fun a ha => ?_⟩
  · obtain ⟨p1, p2, p3⟩ := hP a ha
    exact lattice_drops hh p2 p1 p3 (by norm_num) hi hj hk
  · obtain ⟨p1, p2, p3⟩ := hP a ha
    have := lattice_area hh p2 p1
    linarith

theorem grid_solid {N : Nat} (hN2 : N ≤ 200) {h : T} (hh : h ≠ 0) {off : T × T} {w w3 w'' : World T} (g : GridReady N h off w w3)
    (hw : ∀ x < w''.vertices.length, Within 2 w'' (N + 1) x) : Solid (1 / 10 ^ 8) 2 w w'' := by
  obtain ⟨q1, q2⟩ := grid_tame hh g
  refine ⟨3 / 2 / 10 ^ 14 * 3, 1 / 3, N + 1, by norm_num, q1, q2, hw, ?_⟩
  rw [g.elements, List.length_range]
  have h1 : (N : T) ≤ 200 := by exact_mod_cast hN2
  have h0 : (0 : T) ≤ N := Nat.cast_nonneg N
  push_cast
  have h2 : (N : T) * N ≤ 200 * 200 := mul_le_mul h1 h1 h0 (by norm_num)
  have h3 : ((N : T) + 1 + 1) ^ 2 ≤ 202 ^ 2 := pow_le_pow_left₀ (by linarith) (by linarith) 2
  have h4 : (N : T) * N * ((N : T) + 1 + 1) ^ 2 ≤ 200 * 200 * 202 ^ 2 := mul_le_mul h2 h3 (by positivity) (by norm_num)
  linarith

/-- a command line that asks for quadratic elements on the generated grid -/
def GridArgs2 (argv : List (List Char)) (k : Int) (N : Nat) : Prop :=
  Args3 argv k 2 0 ∧ (0 ≤ k ∧ k ≤ 2) ∧ argv.length = 5 ∧ 1 ≤ N ∧ Arg (argv.getD 4 []) N

theorem GridArgs2.parse {argv : List (List Char)} {k : Int} {N : Nat} (h : GridArgs2 argv k N) : FemMain.parse argv = .run k 2 (.grid N) :=
  ((C101_arguments argv).2.2.2.2.2.1 k 2 N).2 ⟨h.1, ⟨h.2.1, by omega, by omega⟩, h.2.2.1, h.2.2.2.1, h.2.2.2.2⟩

/-- such a command line -/
example : GridArgs2 (["fem", "2", "2", "0", "16"].map String.toList) 2 16 := by
  refine ⟨⟨by decide, ?_, ?_, ?_⟩, by omega, by decide, by omega, ?_⟩ <;> rw [arg_iff]
  exacts [⟨2, by decide +kernel, by decide⟩, ⟨2, by decide +kernel, by decide⟩, ⟨0, by decide +kernel, by decide⟩, ⟨16, by decide +kernel, by decide⟩]

end NS.Props.FemMain

/-
Property theorems C102: the calculation and the files of the program `examples/poisson/fem.cpp`.
-/
import Verif.Props.FemMain
import Verif.Props.FemTame
import Verif.Props.FemPost
import Verif.Props.Norm

set_option linter.unusedSectionVars false
set_option linter.unusedSimpArgs false

namespace NS.Props.FemMain
open NS NS.World NS.FemMain NS.Fem Matrix NS.Props.Mesh NS.Props.Shape NS.Props.Fem
open NS.Props.LU (IsMat IsVec isVec_iff)
open NS.Props.Simplex (IsSqrt)
variable {T : Type} [Field T] [LinearOrder T] [IsStrictOrderedRing T] {n : Nat}

/-! ### The files -/

/-- the contents of the files, for the mesh `w` as it was built, the prepared mesh `w''`, the matrix `A`, the vectors `b` and `x` -/
structure Report (env : Env T) (order : Nat) (grid : Bool) (w w'' : World T) (A : Matrix (Fin n) (Fin n) T) (b x : List T) (f : Files T) : Prop where
  /-- a line of poisson_fem_data.dat for each vertex -/
  dataLength : f.data.length = n
  data : ∀ (i p : Nat) (v : MVertex T), w''.vertices[i]? = some p → w''.V[p]? = some v → f.data[i]? = some (v.pos.getD 0 0, v.pos.getD 1 0, x.getD i 0)
  /-- a line of poisson_fem_mesh.dat for each element: the numbers, from 1, of the lines of its corners -/
  meshLength : f.mesh.length = w.elements.length
  mesh : ∀ (k a : Nat), w.elements[k]? = some a → ∃ m : Fin 3 → Nat, f.mesh[k]? = some (m 0 + 1, m 1 + 1, m 2 + 1) ∧
    ∀ j, f.data[m j]? = some (coords w a j 0, coords w a j 1, cornerValue w'' x a j) ∧
      ∃ p, (w.vertsOf a)[(j : Nat)]? = some (some p) ∧ w''.vertices[m j]? = some p
  /-- poisson_fem_A.dat: the non-zero entries, row by row, numbered from 1 -/
  aOrder : f.a.Pairwise fun u v => u.1 < v.1 ∨ (u.1 = v.1 ∧ u.2.1 < v.2.1)
  a : ∀ i j v, (i, j, v) ∈ f.a ↔ v ≠ 0 ∧ ∃ r c : Fin n, i = r + 1 ∧ j = c + 1 ∧ v = A r c
  /-- poisson_fem_B.dat -/
  b : f.b = b
  /-- poisson_fem_ExactError.dat: the error at each vertex, zeros where the solution is not known -/
  exactLength : f.exact.length = n
  exact : ∀ (i p : Nat) (v : MVertex T), w''.vertices[i]? = some p → w''.V[p]? = some v → f.exact[i]? = some (if grid then |env.sol v.pos - x.getD i 0| else 0)
  /-- poisson_fem_PostError.dat -/
  post : ∃ c : Nat → T, (order = 1 → ∀ a, c a = 0) ∧
    (order = 2 → ∀ a ∈ w.elements, ∃ H, IsDiameter env.sqrt (coords w a) H ∧ c a = H ^ 2 * cellPart (coords w a) env.src (nodeValue w'' x a)) ∧
    f.post = w.elements.map fun a => env.factor * (c a + 1 / 2 * sideSum env.sqrt (coords w a) (cornerValue w'' x a))
  /-- poisson_fem.vtu: a valid file with the elements as cells and the values -/
  vtu : ∃ u cs, Vtk.readFile f.vtu = some u ∧ Vtk.Valid u ∧ Vtk.cells u = some cs ∧ cs.length = w.elements.length ∧
    (∀ (i a : Nat), w.elements[i]? = some a → ∃ c : List Nat, cs[i]? = some c ∧ c.length = Vtk.nodes order ∧
      ∀ (k j : Nat), c[k]? = some j → Vtk.point u j = (Vtk.node (coords w a) k ++ [0]).map env.showT) ∧
    Vtk.fieldArray env.showT ("Results".toList, x) ∈ u.pointData ∧
    (grid = true → Vtk.fieldArray env.showT ("ExactError".toList, f.exact) ∈ u.pointData) ∧
    Vtk.fieldArray env.showT ("PostError".toList, f.post) ∈ u.cellData

theorem mk_zero (m : Nat) : (Vec.mk' m : R (List T)) = .ok (List.replicate m 0) := Vec.mk_ok m

/-- C102: for every mesh that was set up as in the program and any values at the vertices, the files are written and have the contents above -/
theorem C102_output {env : Env T} (hs : IsSqrt env.sqrt) (hT : ∀ t, Vtk.Word (env.showT t)) {w w' w'' : World T} {order : Nat} (h : Built w)
    (hd : Distinct w) (hc : Closed w) (hp : Pipeline w w') (ho : order = 1 ∨ order = 2) (e : Shape.prepareMesh order w' = .ok w'') (hel : w.elements ≠ [])
    (hn : w''.vertices.length = n) (grid : Bool) {a : Sparse T} {A : Matrix (Fin n) (Fin n) T} (ha : IsMat a n A) (b : List T) {x : List T} (hx : x.length = n) :
    ∃ f, output env order grid a b x w'' = .ok f ∧ Report env order grid w w'' A b x f := by
  have hx' : x.length = w''.vertices.length := by rw [hx, hn]
  have hv : w.vertices ≠ [] := by
    obtain ⟨q, hq⟩ := List.exists_mem_of_ne_nil _ hel
    have hI := built_inv h
    obtain ⟨z, hz⟩ : ∃ z, w.E[q]? = some z := ⟨_, List.getElem?_eq_getElem (hI.elt q hq)⟩
    intro h0
    obtain ⟨u, -, q1, -⟩ := hI.corner q hq z hz 0 (by omega)
    have := hc q hq u (by rw [vertsOf_some hz]; exact List.mem_of_getElem? q1)
    rw [h0] at this
    simp at this
  have hN := C60_numbered h hd hp.setup ho e
  obtain ⟨D, K, d1, d2, d3, d4, d5, d6⟩ := C89_files h hd hc hp ho e hx'
  obtain ⟨c, c1, c2, c3, -⟩ := C89_post h hd hc hp ho e hel hs env.factor env.src hx'
  obtain ⟨r, r1, r2, r3, -⟩ := C89_exact hN env.sol hx' env.lo
  set ee : List T := if grid then r else List.replicate w''.vertices.length 0 with hee
  have hee1 : (if grid then exactError env.sol x w'' else Vec.mk' w''.vertices.length : R (List T)) = .ok ee := by
    rw [hee]; split
    · exact r1
    · exact mk_zero _
  have hel2 : ee.length = w''.vertices.length := by
    rw [hee]; split
    · exact r2
    · simp
  have hinv : Sparse.Inv a := ha.1
  obtain ⟨l, l1, l2, l3, -, l5, l6, -⟩ := hinv.entries_ok
  set pe := w.elements.map fun a => env.factor * (c a + 1 / 2 * sideSum env.sqrt (coords w a) (cornerValue w'' x a)) with hpe
  set pd : List (Vtk.Text × List T) := if grid then [("ExactError".toList, ee), ("Results".toList, x)] else [("Results".toList, x)] with hpd
  set opts := if order = 2 then 0x9b else 0x1b with hopts
  have hpd1 : pd ≠ [] := by rw [hpd]; split <;> simp
  have hpn : ∀ d ∈ pd, Vtk.Name d.1 ∧ d.2.length = w''.vertices.length := by
    have n1 : Vtk.Name "ExactError".toList := by unfold Vtk.Name; decide
    have n2 : Vtk.Name "Results".toList := by unfold Vtk.Name; decide
    rw [hpd]
    intro d hdd
    split at hdd
    · rcases List.mem_cons.1 hdd with rfl | hdd
      · exact ⟨n1, hel2⟩
      · rw [List.mem_singleton.1 hdd]; exact ⟨n2, hx'⟩
    · rw [List.mem_singleton.1 hdd]; exact ⟨n2, hx'⟩
  have n3 : Vtk.Name "PostError".toList := by unfold Vtk.Name; decide
  have hcn : ∀ d ∈ [("PostError".toList, pe)], Vtk.Name d.1 ∧ d.2.length = w.elements.length := by
    intro d hdd
    rw [List.mem_singleton.1 hdd]
    exact ⟨n3, by rw [hpe, List.length_map]⟩
  have hq : opts &&& 0x80 ≠ 0 ↔ order = 2 := by rw [hopts]; rcases ho with rfl | rfl <;> decide
  have hg : opts &&& 0x4 = 0 := by rw [hopts]; rcases ho with rfl | rfl <;> decide
  obtain ⟨t, u, cs, t1, t2, t3, t4, t5, t6⟩ := Vtk.C82_mesh hT h hd hc hp ho e hv hq hg hpd1 hpn hcn
  obtain ⟨t', s1, s2⟩ := Vtk.C82_read (opts := opts) hT (Vtk.exportable h hd hc hp.setup ho e) hpd1 (fun d hd => (hpn d hd).1)
    (fun d hd => (hcn d hd).1) fun _ => Vtk.measured h hd hc hp ho e hv
  obtain rfl : t = t' := Except.ok.inj (t1.symm.trans s1)
  obtain rfl := Option.some.inj (t2.symm.trans s2)
  refine ⟨⟨D, K, l.map fun e => (e.1 + 1, e.2.1 + 1, e.2.2), b, ee, pe, t⟩, ?_, ?_⟩
  · unfold output
    rw [hee1, ok_bind, c3, ok_bind, d1, ok_bind, d2, ok_bind, l2, ok_bind, t1]
    rfl
  · refine ⟨d3.trans hn, d5, d4, d6, ?_, ?_, rfl, hel2.trans hn, ?_, ⟨c, c1, c2, rfl⟩, ⟨_, cs, t2, t3, t4, t5, t6, ?_, ?_, ?_⟩⟩
    · rw [List.pairwise_map]
      refine l3.imp fun {u v} huv => ?_
      rcases huv with h1 | ⟨h1, h2⟩
      · left; simpa using h1
      · right; simp [h1, h2]
    · intro i j v
      simp only [List.mem_map]
      constructor
      · rintro ⟨⟨i', j', v'⟩, m1, m2⟩
        have a1 := l6 _ m1
        have a2 := (l5 _).1 m1
        simp only [Prod.mk.injEq] at m2 a1 a2
        obtain ⟨rfl, rfl, rfl⟩ := m2
        have hi : i' < n := by rw [← ha.2.1]; exact a1.1
        have hj : j' < n := by rw [← ha.2.2.1]; exact a1.2
        exact ⟨a2.2, ⟨i', hi⟩, ⟨j', hj⟩, rfl, rfl, a2.1.trans (ha.val_eq ⟨i', hi⟩ ⟨j', hj⟩)⟩
      · rintro ⟨h0, r, c, rfl, rfl, rfl⟩
        refine ⟨(r, c, A r c), (l5 _).2 ⟨(ha.val_eq r c).symm, h0⟩, rfl⟩
    · intro i p v h1 h2
      show ee[i]? = _
      rw [hee]
      cases grid with
      | true => exact r3 i p v h1 h2
      | false =>
        have : i < w''.vertices.length := lt_of_getElem? h1
        simp [this]
    · simp only [Vtk.fileOf, List.mem_append, List.mem_map]
      exact .inl (.inl ⟨_, by rw [hpd]; split <;> simp, rfl⟩)
    · intro hgr
      simp only [Vtk.fileOf, List.mem_append, List.mem_map]
      exact .inl (.inl ⟨_, by rw [hpd, hgr]; simp, rfl⟩)
    · simp only [Vtk.fileOf, List.mem_append, List.mem_map]
      exact .inl (.inl (.inl ⟨_, List.mem_singleton.2 rfl, rfl⟩))

/-! ### The solvers -/

/-- the printed condition number stops nothing -/
theorem cond_printed (sqrt : T → T) (big : T) {a : Sparse T} {A : Matrix (Fin n) (Fin n) T} (ha : IsMat a n A) :
    printed (Operations.cond sqrt big a) = .ok () := by
  have h1 : ∃ v, Operations.maxNorm2 sqrt a = .ok v := by
    obtain ⟨s, -, h2⟩ := Norm.sumLoop n (fun i => do let row ← MatOps.rowEntries a i; Operations.rowMax row) (fun _ _ => True) (by
      intro i hi
      obtain ⟨l, l1, -⟩ := LawfulMat.rowEntries_ok (m := a) (i := i) ha.1 (by rw [ha.2.1]; exact hi)
      obtain ⟨s, s1, -⟩ := Norm.rowMax_ok l
      exact ⟨s, by simp only [l1, ok_bind, s1], trivial⟩)
    refine ⟨sqrt (∑ i, s i ^ 2), ?_⟩
    unfold Operations.maxNorm2
    rw [ha.2.1]
    simp only [bind_assoc] at h2
    rw [h2]; rfl
  have h2 : ∃ v, Operations.minNorm2 sqrt big a = .ok v := by
    obtain ⟨s, -, h2⟩ := Norm.sumLoop n (fun i => do let row ← MatOps.rowEntries a i; Operations.rowMin big row) (fun _ _ => True) (by
      intro i hi
      obtain ⟨l, l1, -⟩ := LawfulMat.rowEntries_ok (m := a) (i := i) ha.1 (by rw [ha.2.1]; exact hi)
      have : ∃ s, Operations.rowMin big l = .ok s := by
        unfold Operations.rowMin
        have : Sat (forList l big fun e s => if |e.2.2| < s then return |e.2.2| else return s) (fun _ : T => True) noErr := by
          refine sat_forList (fun _ _ => True) l (s := big) trivial ?_
          rintro pre a suf s - -
          split <;> trivial
        obtain ⟨s, h, -⟩ := Sat.ok_of this
        exact ⟨s, h⟩
      obtain ⟨s, s1⟩ := this
      exact ⟨s, by simp only [l1, ok_bind, s1], trivial⟩)
    refine ⟨sqrt (∑ i, s i ^ 2), ?_⟩
    unfold Operations.minNorm2
    rw [ha.2.1]
    simp only [bind_assoc] at h2
    rw [h2]; rfl
  obtain ⟨v, h1⟩ := h1
  obtain ⟨u, h2⟩ := h2
  unfold Operations.cond
  rw [h1, ok_bind, h2, ok_bind]
  unfold fdiv
  split <;> rfl

theorem finite_fin (l : List T) : finite (l.map Fl.fin) = .ok l := by
  induction l with
  | nil => rfl
  | cons a l ih => rw [List.map_cons, finite, ih]; rfl

theorem finite_fl (v : Fin n → T) : finite (Iterative.fl v) = .ok (List.ofFn v) := by
  have h2 : Iterative.fl v = (List.ofFn v).map Fl.fin := by rw [List.map_ofFn]; rfl
  rw [h2, finite_fin]

theorem ofFn_of_isVec {b : List T} {B : Fin n → T} (h : IsVec b n B) : b = List.ofFn B := by
  refine List.ext_getElem (by rw [h.1, List.length_ofFn]) fun i h1 h2 => ?_
  rw [List.getElem_ofFn]
  have := (isVec_iff.1 h).2 ⟨i, by rw [← h.1]; exact h1⟩
  rw [← this, List.getD_eq_getElem _ _ h1]

theorem fin_of_isVec {b : List T} {B : Fin n → T} (h : IsVec b n B) : b.map Fl.fin = Iterative.fl B := by
  rw [ofFn_of_isVec h, List.map_ofFn]; rfl

/-- C102: what the three solvers return for the symmetric positive definite matrix of the program -/
theorem C102_solver {env : Env T} (hm : 0 < env.maxIter) (ht : env.tol ≠ 0) {a : Sparse T} {A : Matrix (Fin n) (Fin n) T} (ha : IsMat a n A) (hA : NS.CG.SPD A)
    {b : List T} {B : Fin n → T} (hb : IsVec b n B) {k : Int} (hk : 0 ≤ k ∧ k ≤ 2) :
    (k = 0 → ∃ x : Fin n → T, solver env k a b n = .ok (List.ofFn x)) ∧
    (k = 1 → solver env k a b n = .error .nonfinite ∨ ∃ x₁ x, solver env k a b n = .ok x₁ ∧ IsVec x₁ n x) ∧
    (k = 2 → (∃ i, |A i i| ≤ env.jeps) → solver env k a b n = .error (.exc .singular)) ∧
    (k = 2 → (∀ i, env.jeps < |A i i|) → B = 0 → solver env k a b n = .error .nonfinite) ∧
    (k = 2 → (∀ i, env.jeps < |A i i|) → B ≠ 0 → ∃ x₁ x, solver env k a b n = .ok x₁ ∧ IsVec x₁ n x ∧
      (n ≤ env.maxIter → Props.CG.resSqr A B x < env.tol ^ 2)) := by
  have hn0 : 0 < n := by
    rw [← ha.2.1]; exact LawfulStore.rows_pos (m := a) ha.1
  obtain ⟨c, c1, c2⟩ := isMat_make (T := T) (Sparse T) hn0
  obtain ⟨z, z1, z2⟩ := isVec_mk (T := T) n
  have hp := cond_printed env.sqrt env.big ha
  have hdiag : ∀ i, 0 < A i i := fun i => by
    have := hA.2 (Pi.single i 1) (fun h0 => by have := congrFun h0 i; simp at this)
    rwa [Matrix.mulVec_single_one, single_one_dotProduct] at this
  unfold solver
  rw [ha.2.1, ha.2.2.1, c1]
  simp only [ok_bind]
  rw [z1, hp]
  simp only [ok_bind]
  refine ⟨?_, ?_, ?_, ?_, ?_⟩
  · rintro rfl
    rw [if_neg (by omega), ok_bind, if_pos rfl, fin_of_isVec hb, fin_of_isVec z2]
    obtain ⟨y, j, -, -, -, h4, -⟩ := Props.Iter.C38_sor (b := B) (x0 := 0) ha (fun i => (hdiag i).ne') env.weight env.maxIter env.tol
    rw [h4, ok_bind, finite_fl]
    exact ⟨_, rfl⟩
  · rintro rfl
    rw [if_neg (by omega), ok_bind, if_neg (by omega), if_pos rfl]
    rcases Props.CG.C35_cg_residual ha hb z2 hm env.tol with h | ⟨x₁, x, it, h1, h2, -⟩
    · left; rw [h]; rfl
    · right; rw [h1]; exact ⟨x₁, x, rfl, h2⟩
  · rintro rfl ⟨i, hi⟩
    rw [if_pos rfl]
    rcases Props.CG.C36_jacobi (AbsoluteValue.abs : AbsoluteValue T T) env.jeps ha c2 with ⟨j1, -⟩ | ⟨-, j2⟩
    · exact absurd hi (not_le.2 (j1 i))
    · have j2' : NS.CG.jacobi (fun x : T => |x|) env.jeps a c = .error (.exc .singular) := j2
      rw [j2']; rfl
  all_goals
    rintro rfl hj
    rw [if_pos rfl]
    rcases Props.CG.C36_jacobi (AbsoluteValue.abs : AbsoluteValue T T) env.jeps ha c2 with ⟨-, r, j2, -⟩ | ⟨⟨i, hi⟩, -⟩
    swap
    · exact absurd hi (not_le.2 (hj i))
    have j4 := Props.CG.C36_jacobi_diagonal (AbsoluteValue.abs : AbsoluteValue T T) ha c2 j2
    have j2' : NS.CG.jacobi (fun x : T => |x|) env.jeps a c = .ok r := j2
    rw [j2', ok_bind, if_neg (by omega), if_neg (by omega)]
  · intro hB
    rw [(Props.CG.C35_start_at_solution ha j4 hb z2 (by rw [hB, Matrix.mulVec_zero]) hm env.tol).1]
    rfl
  · intro hB
    have hC : NS.CG.SPD (Matrix.diagonal fun i => (A i i)⁻¹) := by
      refine ⟨Matrix.diagonal_transpose _, fun v hv => ?_⟩
      simp only [Matrix.mulVec_diagonal, dotProduct]
      obtain ⟨i, hi⟩ := Function.ne_iff.1 hv
      refine Finset.sum_pos' (fun j _ => ?_) ⟨i, Finset.mem_univ _, ?_⟩
      · have := mul_nonneg (inv_pos.2 (hdiag j)).le (mul_self_nonneg (v j))
        nlinarith
      · have := mul_pos (inv_pos.2 (hdiag i)) (mul_self_pos.2 hi)
        nlinarith
    obtain ⟨x₁, x, it, p1, p2, -, -, -, p6⟩ := Props.CG.C35_pcg_partial ha j4 hb z2 hA hC (by rw [Matrix.mulVec_zero]; exact fun hh => hB hh.symm) hm ht
    rw [p1]
    exact ⟨x₁, x, rfl, p2, p6⟩

/-! ### The calculation -/

/-- C102: the calculation on a mesh that was set up as in the program and whose system is not degenerate: solver 0 always writes the files; solver 1
writes them or meets a division by zero; solver 2 writes them unless a diagonal entry is at most the threshold of the preconditioner or the right-hand
side is zero. -/
theorem C102_handle {env : Env T} (hs : IsSqrt env.sqrt) (hT : ∀ t, Vtk.Word (env.showT t)) (hm : 0 < env.maxIter) (ht : env.tol ≠ 0) {w w' w'' : World T}
    {order : Nat} (h : Built w) (hd : Distinct w) (hc : Closed w) (hp : Pipeline w w') (ho : order = 1 ∨ order = 2) (e : Shape.prepareMesh order w' = .ok w'')
    (hel : w.elements ≠ []) (hn : w''.vertices.length = n) (hS : Solid env.eps order w w'') (grid : Bool) {k : Int}
    (hkr : 0 ≤ k ∧ k ≤ 2) :
    ∃ (a : Sparse T) (b : List T) (A : Matrix (Fin n) (Fin n) T) (B : Fin n → T), system env.eps order env.src env.bnd w'' = .ok (a, b) ∧ IsMat a n A ∧
      IsVec b n B ∧ NS.CG.SPD A ∧
      (k = 0 → ∃ x f, handle env order k grid w' = .ok f ∧ Report env order grid w w'' A b x f) ∧
      (k = 1 → handle env order k grid w' = .error .nonfinite ∨ ∃ x f, handle env order k grid w' = .ok f ∧ Report env order grid w w'' A b x f) ∧
      (k = 2 → (∃ i, |A i i| ≤ env.jeps) → handle env order k grid w' = .error (.exc .singular)) ∧
      (k = 2 → (∀ i, env.jeps < |A i i|) → B = 0 → handle env order k grid w' = .error .nonfinite) ∧
      (k = 2 → (∀ i, env.jeps < |A i i|) → B ≠ 0 → ∃ x₁ x f, handle env order k grid w' = .ok f ∧ IsVec x₁ n x ∧ Report env order grid w w'' A b x₁ f ∧
        (n ≤ env.maxIter → Props.CG.resSqr A B x < env.tol ^ 2)) := by
  obtain ⟨a, b, A, B, e1, e2, e3, e4, -⟩ := C119_system (M := Sparse T) h hd hc hp ho e hel hn hS env.src env.bnd
  obtain ⟨s0, s1, s2, s3, s4⟩ := C102_solver hm ht e2 e4 e3 hkr
  have hh : handle env order k grid w' = solver env k a b n >>= fun x => output env order grid a b x w'' := by
    unfold handle
    rw [e, ok_bind, e1, ok_bind, hn]
  have out : ∀ {x : List T}, x.length = n → solver env k a b n = .ok x → ∃ f, handle env order k grid w' = .ok f ∧ Report env order grid w w'' A b x f := by
    intro x hx hsx
    obtain ⟨f, f1, f2⟩ := C102_output hs hT h hd hc hp ho e hel hn grid e2 b hx
    exact ⟨f, by rw [hh, hsx, ok_bind, f1], f2⟩
  refine ⟨a, b, A, B, e1, e2, e3, e4, fun hk => ?_, fun hk => ?_, fun hk h1 => ?_, fun hk h1 h2 => ?_, fun hk h1 h2 => ?_⟩
  · obtain ⟨x, hx⟩ := s0 hk
    obtain ⟨f, hf⟩ := out (by simp) hx
    exact ⟨_, f, hf⟩
  · rcases s1 hk with hx | ⟨x₁, x, hx, hv⟩
    · left; rw [hh, hx]; rfl
    · right
      obtain ⟨f, hf⟩ := out hv.1 hx
      exact ⟨_, f, hf⟩
  · rw [hh, s2 hk h1]; rfl
  · rw [hh, s3 hk h1 h2]; rfl
  · obtain ⟨x₁, x, hx, hv, hr⟩ := s4 hk h1 h2
    obtain ⟨f, hf1, hf2⟩ := out hv.1 hx
    exact ⟨x₁, x, f, hf1, hv, hf2, hr⟩

/-! ### The program on the generated grid -/

open NS.HyperCube NS.Props.HyperCube

/-- the arguments ask for the grid of `N` by `N` cells, linear elements and solver `k` -/
def GridArgs (argv : List (List Char)) (k : Int) (N : Nat) : Prop :=
  Args3 argv k 1 0 ∧ (0 ≤ k ∧ k ≤ 2) ∧ argv.length = 5 ∧ 1 ≤ N ∧ Arg (argv.getD 4 []) N

theorem GridArgs.parse {argv : List (List Char)} {k : Int} {N : Nat} (h : GridArgs argv k N) : FemMain.parse argv = .run k 1 (.grid N) :=
  ((C101_arguments argv).2.2.2.2.2.1 k 1 N).2 ⟨h.1, ⟨h.2.1, by omega, by omega⟩, h.2.2.1, h.2.2.2.1, h.2.2.2.2⟩

/-- C102: the program with linear elements on the generated grid, for every number `N` of cells per side: the system is that of C68, and with solver 0 the
program always ends with its files; with solver 1 or if the right-hand side is zero it may meet a division by zero. -/
theorem C102_grid {env : Env ℝ} (hs : IsSqrt env.sqrt) (hT : ∀ t, Vtk.Word (env.showT t)) (hm : 0 < env.maxIter) (ht : env.tol ≠ 0) {L : ℝ} (hL : 0 < L)
    (hsz : env.size = (L, L)) (hst : env.start = (0, 0)) {N : Nat} (hv0 : 0 ≤ env.veps) (hv : env.veps < L ^ 2 / (2 * (N : ℝ) ^ 2))
    (he : env.eps < kappa / 2) (hj : env.jeps < kappa) {argv : List (List Char)} {k : Int} (ha : GridArgs argv k N) :
    ∃ (w w1 w2 w3 : World ℝ) (a : Sparse ℝ) (b : List ℝ) (A : Matrix (Fin ((N + 1) * (N + 1))) (Fin ((N + 1) * (N + 1))) ℝ)
      (B : Fin ((N + 1) * (N + 1)) → ℝ), generate N N (L, L) (0, 0) = .ok w1 ∧ w1.prepare 0 = .ok w2 ∧ Shape.prepareMesh 1 w2 = .ok w3 ∧
      Built w ∧ Distinct w ∧ Closed w ∧ w.elements ≠ [] ∧ Pipeline w w2 ∧ GridReady N (L / N) (0, 0) w w3 ∧
      system env.eps 1 env.src env.bnd w3 = .ok (a, b) ∧ IsMat a _ A ∧ IsVec b _ B ∧
      (k = 0 → ∃ x f, main env argv = .finished f ∧ Report env 1 true w w3 A b x f) ∧
      (k = 1 → main env argv = .fault .nonfinite ∨ ∃ x f, main env argv = .finished f ∧ Report env 1 true w w3 A b x f) ∧
      (k = 2 → B = 0 → main env argv = .fault .nonfinite) ∧
      (k = 2 → B ≠ 0 → ∃ x₁ x f, main env argv = .finished f ∧ IsVec x₁ _ x ∧ Report env 1 true w w3 A b x₁ f ∧
        ((N + 1) * (N + 1) ≤ env.maxIter → Props.CG.resSqr A B x < env.tol ^ 2)) := by
  have hN := ha.2.2.2.1
  obtain ⟨w, w1, w2, w3, hb, hd, hc, hel, e1, e2, hp, e3, G⟩ := grid_ready hN hL.ne' (0, 0)
  have hNp : (0 : ℝ) < N := by exact_mod_cast (by omega : 0 < N)
  have hh : (0 : ℝ) < L / N := div_pos hL hNp
  have hD := dofs_in hb hd hc hp.setup (.inl rfl) e3
  have hn : w3.vertices.length = (N + 1) * (N + 1) := by rw [G.vertices, List.length_range]
  obtain ⟨a, b, A, B, s1, s2, s3, s4, t0, t1, -, t2, t3⟩ := C102_handle hs hT hm ht hb hd hc hp (.inl rfl) e3 hel hn
    (solid_of hb hd hc hp (.inl rfl) e3 hel (grid_noneDropped hh.ne' G he) (grid_anchored G hD.elements)) true ha.2.1
  have hdiag : ∀ i, env.jeps < |A i i| := fun i => by
    have := (grid_entries hN hL.ne' e1 e2 e3 he s1 s2 i).1
    exact lt_of_lt_of_le hj (this.trans (le_abs_self _))
  have hval : validate env.veps w2 = .ok () := by
    obtain ⟨v1, v2, f1, f2, f3⟩ := C53_validate hN hN (L, L) (0, 0) hv0 (show env.veps < |L * L| / (2 * (N * N)) by
      rw [abs_of_pos (mul_pos hL hL)]; convert hv using 2 <;> ring)
    obtain rfl : w1 = v1 := Except.ok.inj (e1.symm.trans f1)
    obtain rfl : w2 = v2 := Except.ok.inj (e2.symm.trans f2)
    exact f3
  have hmain : main env argv = ends (handle env 1 k true w2) .finished := by
    unfold main
    rw [ha.parse]
    simp only [FemMain.load, hsz, hst, e1, ends, e2, hval]
    rfl
  refine ⟨w, w1, w2, w3, a, b, A, B, e1, e2, e3, hb, hd, hc, hel, hp, G, s1, s2, s3, fun hk => ?_, fun hk => ?_, fun hk hB => ?_, fun hk hB => ?_⟩
  · obtain ⟨x, f, f1, f2⟩ := t0 hk
    exact ⟨x, f, by rw [hmain, f1]; rfl, f2⟩
  · rcases t1 hk with f1 | ⟨x, f, f1, f2⟩
    · left; rw [hmain, f1]; rfl
    · right; exact ⟨x, f, by rw [hmain, f1]; rfl, f2⟩
  · rw [hmain, t2 hk hdiag hB]; rfl
  · obtain ⟨x₁, x, f, f1, f2, f3, f4⟩ := t3 hk hdiag hB
    exact ⟨x₁, x, f, by rw [hmain, f1]; rfl, f2, f3, f4⟩

/-! ### The problem of the program -/

open Real

/-- the constants and functions of the program (fem.cpp:52-73, 212-262, `Types.h`) -/
structure Standard (env : Env ℝ) : Prop where
  sqrt : IsSqrt env.sqrt
  showT : ∀ t, Vtk.Word (env.showT t)
  veps : env.veps = 1 / 2 ^ 52
  eps : env.eps = 1 / 10 ^ 8
  jeps : env.jeps = 1 / 2 ^ 52
  maxIter : env.maxIter = 1024
  tol : env.tol = 1 / 10 ^ 4
  size : env.size = (1, 1)
  start : env.start = (0, 0)
  src : env.src = sineSource
  bnd : env.bnd = zeroBoundary
  sol : env.sol = sineSol

/-- C102: the program itself with its default solver 2 and 2 to 31 cells per side: it ends with its files; poisson_fem_data.dat has one line for each grid
point, with its coordinates and a value that differs from the solution `sin(πx) sin(πy) / (2π²)` by at most the bound of C88, and
poisson_fem_ExactError.dat has exactly these differences. -/
theorem C102_run {env : Env ℝ} (hE : Standard env) {N : Nat} (hN : 2 ≤ N) (hN2 : N ≤ 31) {argv : List (List Char)} (ha : GridArgs argv 2 N) :
    ∃ f, main env argv = .finished f ∧ f.data.length = (N + 1) * (N + 1) ∧ f.exact.length = (N + 1) * (N + 1) ∧ f.mesh.length = 2 * N * N ∧
      ∀ r ≤ N, ∀ c ≤ N, ∃ z d, f.data[r * (N + 1) + c]? = some ((c : ℝ) / N, (r : ℝ) / N, z) ∧ f.exact[r * (N + 1) + c]? = some d ∧
        d = |sin (π * (c / N)) * sin (π * (r / N)) / (2 * π * π) - z| ∧
        d ≤ if Rim N r c then 2 / 10 ^ 4 else π ^ 2 / 32 / (N : ℝ) ^ 2 + 126 / 10 ^ 7 * (N : ℝ) ^ 2 := by
  have hNp : (0 : ℝ) < N := by exact_mod_cast (by omega : 0 < N)
  have hNle : (N : ℝ) ≤ 31 := by exact_mod_cast hN2
  have hk0 := kappa_pos
  obtain ⟨w, w1, w2, w3, a, b, A, B, e1, e2, e3, hb, hd, hc, hel, hp, G, s1, s2, s3, -, -, -, h⟩ := C102_grid (L := 1) hE.sqrt hE.showT (by rw [hE.maxIter]; norm_num)
    (by rw [hE.tol]; norm_num) one_pos hE.size hE.start (by rw [hE.veps]; norm_num) (by
      rw [hE.veps, div_lt_div_iff₀ (by norm_num) (by positivity)]
      nlinarith) (by rw [hE.eps]; unfold kappa; norm_num) (by rw [hE.jeps]; unfold kappa; norm_num) ha
  rw [hE.eps, hE.src, hE.bnd] at s1
  obtain ⟨v, hv, hv0⟩ := sine_rhs_ne hN (by omega) e1 e2 e3 s1
  have hB : B ≠ 0 := by
    rintro rfl
    obtain ⟨k, hk, rfl⟩ := List.getElem_of_mem hv
    have := (isVec_iff.1 s3).2 ⟨k, s3.1 ▸ hk⟩
    rw [List.getD_eq_getElem _ _ hk] at this
    exact hv0 this
  obtain ⟨x₁, x, f, f1, f2, f3, f4⟩ := h rfl hB
  have f4 := f4 (by rw [hE.maxIter]; exact Nat.mul_le_mul (show N + 1 ≤ 32 by omega) (show N + 1 ≤ 32 by omega))
  have herr := grid_error (show 1 ≤ N by omega) one_pos hb hd hc hel hp e3 G (by norm_num) (by unfold kappa; norm_num) s1 s2 s3 sine_data
    (x := x) (ρ := 1 / 10 ^ 4) fun i => by
      rw [hE.tol] at f4
      unfold Props.CG.resSqr at f4
      have h1 : ((A *ᵥ x) i - B i) ^ 2 ≤ (1 / 10 ^ 4) ^ 2 := by
        refine le_trans ?_ f4.le
        unfold dotProduct
        have := Finset.single_le_sum (f := fun j => (B - A *ᵥ x) j * (B - A *ᵥ x) j) (fun j _ => mul_self_nonneg _) (Finset.mem_univ i)
        refine le_trans (le_of_eq ?_) this
        simp only [Pi.sub_apply]; ring
      exact abs_le_of_sq_le_sq h1 (by norm_num)
  have hml : f.mesh.length = 2 * N * N := by rw [f3.meshLength, G.elements, List.length_range]; ring
  refine ⟨f, f1, f3.dataLength, f3.exactLength, hml, fun r hr c hc => ?_⟩
  obtain ⟨v, q1, q2, -⟩ := G.vertex r hr c hc
  unfold vertexAt at q1
  have hvid : vid N r c = r * (N + 1) + c := rfl
  have hlt : r * (N + 1) + c < (N + 1) * (N + 1) := vid_lt hr hc
  obtain ⟨p, p1⟩ : ∃ p, w3.vertices[r * (N + 1) + c]? = some p := ⟨_, List.getElem?_eq_getElem (by rw [G.vertices, List.length_range]; exact hlt)⟩
  rw [hvid, p1] at q1
  have hd1 := f3.data _ p v p1 q1
  have he1 := f3.exact _ p v p1 q1
  have hx := (isVec_iff.1 f2).2 ⟨r * (N + 1) + c, hlt⟩
  rw [q2] at hd1 he1
  have c1 : (1 : ℝ) / N * c = c / N := one_div_mul_eq_div _ _
  have r1 : (1 : ℝ) / N * r = r / N := one_div_mul_eq_div _ _
  refine ⟨x₁.getD (r * (N + 1) + c) 0, _, ?_, he1, ?_, ?_⟩
  · rw [hd1]
    simp only [zero_add, c1, r1]
    rfl
  · rw [if_pos rfl, hE.sol]
    congr 2
    show sineSolution (0 + 1 / N * (c : ℝ)) (0 + 1 / N * (r : ℝ)) = _
    rw [zero_add, zero_add, c1, r1]
    rfl
  · have := herr ⟨r * (N + 1) + c, hlt⟩ r c rfl hr hc
    rw [if_pos rfl, hE.sol]
    have ee : sineSol [0 + 1 / N * (c : ℝ), 0 + 1 / N * (r : ℝ)] = sineSolution (c * (1 / N)) (r * (1 / N)) := by
      show sineSolution (0 + 1 / N * (c : ℝ)) (0 + 1 / N * (r : ℝ)) = _
      rw [zero_add, zero_add, mul_comm (c : ℝ), mul_comm (r : ℝ)]
    have e0 : ((0, 0) : ℝ × ℝ).1 + 1 / N * (c : ℝ) = 0 + 1 / N * (c : ℝ) := rfl
    rw [abs_sub_comm]
    rw [show x₁.getD (r * (N + 1) + c) 0 = x ⟨r * (N + 1) + c, hlt⟩ from hx]
    refine le_trans (le_of_eq (congrArg (fun z => |x ⟨r * (N + 1) + c, hlt⟩ - z|) ee)) (this.trans ?_)
    split
    · unfold kappa; norm_num
    · have h2 : (0 : ℝ) < (N : ℝ) ^ 2 := by positivity
      have e : (1 : ℝ) ^ 2 / 8 * ((π ^ 2 / 2 + π ^ 2 / 2) / 12 + π ^ 2 / 6) * (1 / N) ^ 2 = π ^ 2 / 32 / (N : ℝ) ^ 2 := by field_simp; ring
      rw [e]
      unfold kappa
      norm_num
      nlinarith

/-- C102 fails for one cell: every vertex is on the boundary, the right-hand side is zero and the default solver divides zero by zero. -/
theorem C102_one_cell_negation {env : Env ℝ} (hE : Standard env) {argv : List (List Char)} (ha : GridArgs argv 2 1) : main env argv = .fault .nonfinite := by
  obtain ⟨w, w1, w2, w3, a, b, A, B, e1, e2, e3, hb, hd, hc, hel, hp, G, s1, s2, s3, -, -, h, -⟩ := C102_grid (L := 1) hE.sqrt hE.showT (by rw [hE.maxIter]; norm_num)
    (by rw [hE.tol]; norm_num) one_pos hE.size hE.start (by rw [hE.veps]; norm_num) (by
      rw [hE.veps]; norm_num) (by rw [hE.eps]; unfold kappa; norm_num) (by rw [hE.jeps]; unfold kappa; norm_num) ha
  refine h rfl ?_
  rw [hE.eps, hE.src, hE.bnd] at s1
  obtain ⟨v1, v2, v3, a', b', A', B', u, f1, f2, f3, f4, hA, hB, hu, -, hr, -⟩ :=
    C88_equations (M := Sparse ℝ) le_rfl (one_ne_zero (α := ℝ)) (0, 0) (eps := 1 / 10 ^ 8) (by norm_num) (by unfold kappa; norm_num) sineSource zeroBoundary
  obtain rfl : w1 = v1 := Except.ok.inj (e1.symm.trans f1)
  obtain rfl : w2 = v2 := Except.ok.inj (e2.symm.trans f2)
  obtain rfl : w3 = v3 := Except.ok.inj (e3.symm.trans f3)
  obtain ⟨rfl, rfl⟩ := Prod.mk.inj (Except.ok.inj (s1.symm.trans f4))
  have hB' : B = B' := by
    funext i
    rw [← (isVec_iff.1 s3).2 i, ← (isVec_iff.1 hB).2 i]
  have hu0 : u = 0 := by
    funext i
    obtain ⟨k, hk⟩ := i
    have : k = k / 2 * (1 + 1) + k % 2 := by omega
    have h1 := hr (k / 2) (by omega) (k % 2) (by omega) (by unfold Rim; omega)
    rw [node_eq (by omega) (by omega)] at h1
    have h2 : (⟨vid 1 (k / 2) (k % 2), vid_lt (by omega) (by omega)⟩ : Fin ((1 + 1) * (1 + 1))) = ⟨k, hk⟩ := Fin.ext (show k / 2 * (1 + 1) + k % 2 = k by omega)
    rw [h2] at h1
    exact h1
  rw [hB', ← hu, hu0, Matrix.mulVec_zero]

/-- C102 fails for missing files: the Triangle loader takes a file that cannot be opened for an empty one, the mesh without vertices passes `validate()`, and
the program aborts when it makes the matrix -/
theorem C102_missing_negation (env : Env T) {argv : List (List Char)} {k o : Int} (h3 : Args3 argv k o 2) (hr : InRange k o 2) (hl : argv.length = 6)
    (h1 : env.content (argv.getD 4 []) = []) (h2 : env.content (argv.getD 5 []) = []) : main env argv = .fault .abort := by
  have hp : FemMain.parse argv = .run k o (.triangle (argv.getD 4 []) (argv.getD 5 [])) :=
    ((C101_arguments argv).2.2.2.2.2.2.2 k o _ _).2 ⟨h3, hr, hl, rfl, rfl⟩
  have hld : FemMain.load env (.triangle (argv.getD 4 []) (argv.getD 5 [])) = .ok World.empty := by
    simp only [FemMain.load]
    rw [h1, h2]
    rfl
  unfold main
  rw [hp]
  simp only [hld, ends]
  obtain ⟨-, ⟨o1, o2⟩, -⟩ := hr
  obtain rfl | rfl : o = 1 ∨ o = 2 := by omega
  · rfl
  · rfl

/-- the hypotheses of the theorems above are met: a standard environment, the arguments for 16 cells, and file names -/
example : (∃ env : Env ℝ, Standard env) ∧ GridArgs (["fem", "2", "1", "0", "16"].map String.toList) 2 16 ∧ GridArgs (["fem", "2", "1", "0", "1"].map String.toList) 2 1 ∧
    Args3 (["fem", "2", "1", "2", "no.node", "no.ele"].map String.toList) 2 1 2 := by
  refine ⟨⟨⟨Real.sqrt, 0, 0, 1 / 2 ^ 52, 1 / 10 ^ 8, 1 / 2 ^ 52, 12 / 10, 1024, 1 / 10 ^ 4, 1, (1, 1), (0, 0), sineSource, zeroBoundary, sineSol,
    fun _ => ['0'], fun _ => (0, none), fun _ => [], fun _ => .error .ub⟩, ⟨Norm.isSqrt_real, fun _ => ⟨by simp, by simp⟩, rfl, rfl, rfl, rfl, rfl, rfl, rfl, rfl, rfl, rfl⟩⟩,
    ⟨⟨by decide, ?_, ?_, ?_⟩, by omega, by decide, by omega, ?_⟩, ⟨⟨by decide, ?_, ?_, ?_⟩, by omega, by decide, by omega, ?_⟩, by decide, ?_, ?_, ?_⟩ <;> rw [arg_iff]
  exacts [⟨2, by decide +kernel, by decide⟩, ⟨1, by decide +kernel, by decide⟩, ⟨0, by decide +kernel, by decide⟩, ⟨16, by decide +kernel, by decide⟩,
    ⟨2, by decide +kernel, by decide⟩, ⟨1, by decide +kernel, by decide⟩, ⟨0, by decide +kernel, by decide⟩, ⟨1, by decide +kernel, by decide⟩,
    ⟨2, by decide +kernel, by decide⟩, ⟨1, by decide +kernel, by decide⟩, ⟨2, by decide +kernel, by decide⟩]
end NS.Props.FemMain

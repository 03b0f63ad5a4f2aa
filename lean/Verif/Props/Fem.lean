/-
Property theorem C60: the boundary constraints of the finite element example keep the solution.
-/
import Verif.FemModel
import Verif.VecIs
import Verif.Props.ShapeMesh
import Verif.CGTheory
import Mathlib.Data.Matrix.Basic
import Mathlib.LinearAlgebra.Matrix.Symmetric

set_option linter.unusedSectionVars false
set_option linter.unusedSimpArgs false

namespace NS.Props.Fem
open NS NS.World NS.Fem NS.MatOps NS.LawfulMat Matrix
open NS.Props.LU (IsMat IsVec isVec_iff isMat_of)
variable {T : Type} [Field T] [LinearOrder T] {M : Type} [MatOps M T] [LawfulMat M T] {n : Nat}

/-- `vertices()[i]` -/
def vertexAt (w : World T) (i : Nat) : Option (MVertex T) := (w.vertices[i]?).bind fun p => w.V[p]?

/-- `vertices()[i]->GlobalIndex == i` for all vertices -/
def Numbered (w : World T) : Prop := ∀ i < w.vertices.length, ∃ v, vertexAt w i = some v ∧ v.gi = i

theorem isMat_put {a : M} {A : Matrix (Fin n) (Fin n) T} (h : IsMat a n A) (i j : Fin n) (v : T) :
    ∃ a', MatOps.put a i j v = .ok a' ∧ IsMat a' n (Matrix.of fun r c => if r = i ∧ c = j then v else A r c) := by
  obtain ⟨a', h1, h2, h3, h4, h5⟩ := put_ok (i := i) (j := j) v h.1 (by rw [h.2.1]; exact i.2) (by rw [h.2.2.1]; exact j.2)
  refine ⟨a', h1, h2, h3.trans h.2.1, h4.trans h.2.2.1, fun r c => ?_⟩
  rw [get_ok h2 (by rw [h3, h.2.1]; exact r.2) (by rw [h4, h.2.2.1]; exact c.2), h5]
  congr 1
  simp only [Matrix.of_apply, ← h.val_eq, Fin.ext_iff]

theorem isVec_set {x : List T} {v : Fin n → T} (h : IsVec x n v) (i : Fin n) (y : T) :
    ∃ x', vecSet x i y = .ok x' ∧ IsVec x' n (fun r => if r = i then y else v r) := by
  have hi : (i : Nat) < x.length := by rw [h.1]; exact i.2
  refine ⟨x.set i y, vecSet_ok hi y, by rw [List.length_set, h.1], fun r => ?_⟩
  have hr : (r : Nat) < (x.set i y).length := by rw [List.length_set, h.1]; exact r.2
  rw [vecAt_ok hr, List.getElem_set]
  have := h.2 r
  rw [vecAt_ok (by rw [h.1]; exact r.2)] at this
  split
  · next he => simp only; rw [if_pos (Fin.ext he.symm)]
  · next he => simp only; rw [if_neg (fun hh : r = i => he (by rw [hh]))]; exact this

theorem isMat_congr {a : M} {A B : Matrix (Fin n) (Fin n) T} (h : IsMat a n A) (e : ∀ i j, A i j = B i j) : IsMat a n B := by
  have : A = B := by ext i j; exact e i j
  rwa [← this]

theorem isVec_congr {x : List T} {v u : Fin n → T} (h : IsVec x n v) (e : ∀ i, v i = u i) : IsVec x n u := by
  have : v = u := funext e
  rwa [← this]

/-- the effect of the constraint at one vertex -/
theorem constrainOne_ok {a : M} {b : List T} {A : Matrix (Fin n) (Fin n) T} {B : Fin n → T} (ha : IsMat a n A) (hb : IsVec b n B)
    (avg : T) (k : Fin n) (g : T) :
    ∃ a' b', constrainOne avg n k g (a, b) = .ok (a', b') ∧
      IsMat a' n (Matrix.of fun r c => if r = k ∨ c = k then (if r = c then avg else 0) else A r c) ∧
      IsVec b' n (fun r => if r = k then avg * g else B r - A r k * g) := by
  have key : Sat (forRange 0 n (a, b) fun i st => do
      let b ← vecAt st.2 i
      let x ← MatOps.get st.1 i k
      let b ← vecSet st.2 i (b - x * g)
      let a ← MatOps.put st.1 k i 0
      let a ← MatOps.put a i k 0
      return (a, b)) (fun st => IsMat st.1 n (Matrix.of fun r c => if r = k ∨ c = k then 0 else A r c) ∧
        IsVec st.2 n (fun r => B r - A r k * g)) noErr := by
    refine (sat_forRange (fun m st => IsMat st.1 n (Matrix.of fun r c => if (r = k ∧ (c : Nat) < m) ∨ (c = k ∧ (r : Nat) < m) then 0 else A r c) ∧
        IsVec st.2 n (fun r => if (r : Nat) < m then B r - A r k * g else B r)) (Nat.zero_le n) ?_ ?_).mono ?_ fun _ h => h
    · refine ⟨isMat_congr ha fun i j => ?_, isVec_congr hb fun i => ?_⟩ <;> simp
    · rintro m st - hm ⟨h1, h2⟩
      set i : Fin n := ⟨m, hm⟩ with hi
      have e1 := h2.2 i
      have e2 := h1.2.2.2 i k
      simp only [hi] at e1 e2
      rw [e1, ok_bind, e2, ok_bind]
      obtain ⟨b', f1, f2⟩ := isVec_set h2 i (B i - A i k * g)
      have hx : (Matrix.of fun (r c : Fin n) => if (r = k ∧ (c : Nat) < m) ∨ (c = k ∧ (r : Nat) < m) then 0 else A r c) (⟨m, hm⟩ : Fin n) k = A i k := by
        rw [Matrix.of_apply, if_neg]
        rintro (⟨rfl, h⟩ | ⟨-, h⟩)
        · exact absurd h (by simp)
        · exact absurd h (by simp)
      rw [hx]
      simp only [lt_irrefl, if_false]
      have f1' : vecSet st.2 m (B ⟨m, hm⟩ - A i k * g) = .ok b' := f1
      rw [f1', ok_bind]
      obtain ⟨a1, g1, g2⟩ := isMat_put h1 k i 0
      obtain ⟨a2, l1, l2⟩ := isMat_put g2 i k 0
      have g1' : MatOps.put st.1 k m 0 = .ok a1 := g1
      have l1' : MatOps.put a1 m k 0 = .ok a2 := l1
      rw [g1', ok_bind, l1', ok_bind]
      refine ⟨isMat_congr l2 fun r c => ?_, isVec_congr f2 fun r => ?_⟩
      · simp only [Matrix.of_apply, Fin.ext_iff, hi]
        by_cases p1 : (r : Nat) = m ∧ (c : Nat) = k
        · rw [if_pos p1, if_pos (.inr ⟨p1.2, by omega⟩)]
        rw [if_neg p1]
        by_cases p2 : (r : Nat) = k ∧ (c : Nat) = m
        · rw [if_pos p2, if_pos (.inl ⟨p2.1, by omega⟩)]
        rw [if_neg p2]
        refine if_congr ?_ rfl rfl
        omega
      · by_cases hr : r = i
        · subst hr
          rw [if_pos rfl, if_pos (by simp [hi])]
        · rw [if_neg hr]
          have : (r : Nat) ≠ m := fun h => hr (Fin.ext h)
          refine if_congr ?_ rfl rfl
          omega
    · rintro st ⟨h1, h2⟩
      refine ⟨isMat_congr h1 fun r c => ?_, isVec_congr h2 fun r => ?_⟩
      · simp only [Matrix.of_apply]
        refine if_congr ?_ rfl rfl
        constructor
        · rintro (⟨h, -⟩ | ⟨h, -⟩)
          · exact .inl h
          · exact .inr h
        · rintro (h | h)
          · exact .inl ⟨h, c.2⟩
          · exact .inr ⟨h, r.2⟩
      · rw [if_pos r.2]
  obtain ⟨⟨a1, b1⟩, e, h1, h2⟩ := key.ok_of
  unfold constrainOne
  rw [e, ok_bind]
  obtain ⟨a', g1, g2⟩ := isMat_put h1 k k avg
  obtain ⟨b', l1, l2⟩ := isVec_set h2 k (avg * g)
  refine ⟨a', b', ?_, isMat_congr g2 fun r c => ?_, l2⟩
  · simp only
    rw [g1, ok_bind, l1]; rfl
  · simp only [Matrix.of_apply]
    by_cases hr : r = k
    · by_cases hc : c = k
      · rw [if_pos ⟨hr, hc⟩, if_pos (.inl hr), if_pos (by rw [hr, hc])]
      · rw [if_neg (fun h => hc h.2), if_pos (.inl hr), if_pos (.inl hr), if_neg (fun h => hc (by rw [← h, hr]))]
    · rw [if_neg (fun h => hr h.1)]
      by_cases hc : c = k
      · rw [if_pos (.inr hc), if_pos (.inr hc), if_neg (fun h => hr (by rw [h, hc]))]
      · rw [if_neg (by tauto), if_neg (by tauto)]

/-- `vertices()[i]` is a boundary vertex -/
def OnBoundary (w : World T) (i : Nat) : Prop := ∃ v, vertexAt w i = some v ∧ v.flags &&& 1 ≠ 0

/-- value of the boundary function at `vertices()[i]` -/
def valueAt (w : World T) (g : List T → T) (i : Nat) : T := ((vertexAt w i).map fun v => g v.pos).getD 0

open Classical in
/-- the constrained matrix -/
noncomputable def reducedMat (w : World T) (avg : T) (A : Matrix (Fin n) (Fin n) T) : Matrix (Fin n) (Fin n) T :=
  Matrix.of fun r c => if OnBoundary w r ∨ OnBoundary w c then (if r = c then avg else 0) else A r c

open Classical in
/-- the constrained right-hand side -/
noncomputable def reducedVec (w : World T) (avg : T) (g : List T → T) (A : Matrix (Fin n) (Fin n) T) (B : Fin n → T) : Fin n → T := fun r =>
  if OnBoundary w r then avg * valueAt w g r else B r - ∑ k with OnBoundary w (k : Fin n), A r k * valueAt w g k

open Classical in
/-- C60: what the constraints do: rows and columns of boundary vertices become those of `avg` times the identity, and the
known values are moved to the right-hand side. -/
theorem C60_constrain {w : World T} (hw : Numbered w) (hn : w.vertices.length = n) {a : M} {b : List T} {A : Matrix (Fin n) (Fin n) T}
    {B : Fin n → T} (ha : IsMat a n A) (hb : IsVec b n B) (avg : T) (g : List T → T) :
    ∃ a' b', constrain avg g w (a, b) = .ok (a', b') ∧ IsMat a' n (reducedMat w avg A) ∧ IsVec b' n (reducedVec w avg g A B) := by
  have key : Sat (constrain avg g w (a, b)) (fun st => IsMat st.1 n (reducedMat w avg A) ∧ IsVec st.2 n (reducedVec w avg g A B)) noErr := by
    unfold constrain
    have fin : ∀ (r : Fin n), (r : Nat) < w.vertices.length := fun r => by rw [hn]; exact r.2
    refine (sat_forList (fun pre st => IsMat st.1 n (Matrix.of fun r c =>
          if (OnBoundary w r ∧ (r : Nat) < pre.length) ∨ (OnBoundary w c ∧ (c : Nat) < pre.length) then (if r = c then avg else 0) else A r c) ∧
        IsVec st.2 n (fun r => if OnBoundary w r ∧ (r : Nat) < pre.length then avg * valueAt w g r
          else B r - ∑ k with (OnBoundary w (k : Fin n) ∧ (k : Nat) < pre.length), A r k * valueAt w g k)) w.vertices ?_ ?_).mono ?_ fun _ h => h
    · refine ⟨isMat_congr ha fun i j => ?_, isVec_congr hb fun i => ?_⟩
      · simp
      · simp
    · rintro pre p suf st hs ⟨h1, h2⟩
      have hlt : pre.length < w.vertices.length := by rw [hs]; simp
      obtain ⟨v, hv, hgi⟩ := hw pre.length hlt
      have hp : w.vertices[pre.length]? = some p := by rw [hs]; simp
      have hV : w.V[p]? = some v := by unfold vertexAt at hv; rw [hp] at hv; exact hv
      rw [getIdx_of_some hV, ok_bind]
      set k : Fin n := ⟨pre.length, by omega⟩ with hk
      have hbd : OnBoundary w k ↔ v.flags &&& 1 ≠ 0 := by
        constructor
        · rintro ⟨v', h, h'⟩
          rw [hv] at h
          obtain rfl := Option.some.inj h
          exact h'
        · intro h; exact ⟨v, hv, h⟩
      have hval : valueAt w g k = g v.pos := by unfold valueAt; rw [hv]; rfl
      by_cases hf : v.flags &&& 1 = 0
      · rw [if_pos hf]
        have hno : ¬ OnBoundary w k := by rw [hbd]; simp [hf]
        have same : ∀ r : Fin n, (OnBoundary w r ∧ (r : Nat) < (pre ++ [p]).length) ↔ (OnBoundary w r ∧ (r : Nat) < pre.length) := by
          intro r
          refine and_congr_right fun hr => ?_
          have : (r : Nat) ≠ pre.length := fun h => hno (by rw [show k = r from Fin.ext h.symm]; exact hr)
          simp
          omega
        refine ⟨isMat_congr h1 fun r c => ?_, isVec_congr h2 fun r => ?_⟩
        · simp only [Matrix.of_apply, same]
        · simp only [same]
      · rw [if_neg hf, hgi, hn]
        have hyes : OnBoundary w k := hbd.2 hf
        obtain ⟨a', b', e, g1, g2⟩ := constrainOne_ok h1 h2 avg k (g v.pos)
        have e' : constrainOne avg n pre.length (g v.pos) st = .ok (a', b') := e
        rw [e']
        have more : ∀ r : Fin n, (OnBoundary w r ∧ (r : Nat) < (pre ++ [p]).length) ↔ (OnBoundary w r ∧ (r : Nat) < pre.length) ∨ r = k := by
          intro r
          simp only [List.length_append, List.length_singleton, hk, Fin.ext_iff]
          constructor
          · rintro ⟨h, h'⟩
            by_cases hh : (r : Nat) = pre.length
            · exact .inr hh
            · exact .inl ⟨h, by omega⟩
          · rintro (⟨h, h'⟩ | h)
            · exact ⟨h, by omega⟩
            · refine ⟨by rw [show r = k from Fin.ext h]; exact hyes, by omega⟩
        refine ⟨isMat_congr g1 fun r c => ?_, isVec_congr g2 fun r => ?_⟩
        · simp only [Matrix.of_apply, more]
          by_cases q1 : r = k ∨ c = k
          · rw [if_pos q1, if_pos (c := ((OnBoundary w r ∧ (r : Nat) < pre.length) ∨ r = k) ∨ ((OnBoundary w c ∧ (c : Nat) < pre.length) ∨ c = k)) (by tauto)]
          · rw [if_neg q1]
            exact if_congr (by tauto) rfl rfl
        · have hknot : ¬ (OnBoundary w k ∧ (k : Nat) < pre.length) := fun h => absurd h.2 (by simp [hk])
          simp only [more, Matrix.of_apply]
          by_cases hr : r = k
          · rw [if_pos hr, if_pos (.inr hr), hr, hval]
          · rw [if_neg hr]
            by_cases hr' : OnBoundary w r ∧ (r : Nat) < pre.length
            · rw [if_pos hr', if_pos (c := (OnBoundary w r ∧ (r : Nat) < pre.length) ∨ (OnBoundary w k ∧ (k : Nat) < pre.length)) (.inl hr'), if_neg hr,
                if_pos (c := (OnBoundary w r ∧ (r : Nat) < pre.length) ∨ r = k) (.inl hr')]
              ring
            · rw [if_neg hr', if_neg (by rintro (h | h) <;> [exact hr' h; exact hknot h]), if_neg (by tauto)]
              have hset : (Finset.univ.filter fun k' : Fin n => (OnBoundary w k' ∧ (k' : Nat) < pre.length) ∨ k' = k) =
                  insert k (Finset.univ.filter fun k' : Fin n => OnBoundary w k' ∧ (k' : Nat) < pre.length) := by
                ext z
                simp only [Finset.mem_filter, Finset.mem_univ, true_and, Finset.mem_insert]
                tauto
              rw [hset, Finset.sum_insert (by simpa using hknot), hval]
              ring
    · rintro st ⟨h1, h2⟩
      have same : ∀ r : Fin n, (OnBoundary w r ∧ (r : Nat) < w.vertices.length) ↔ OnBoundary w r := fun r => and_iff_left (fin r)
      refine ⟨isMat_congr h1 fun r c => ?_, isVec_congr h2 fun r => ?_⟩
      · simp only [Matrix.of_apply, same, reducedMat]
      · simp only [same, reducedVec]
  obtain ⟨⟨a', b'⟩, e, h1, h2⟩ := key.ok_of
  exact ⟨a', b', e, h1, h2⟩

open Classical in
theorem reduced_mulVec (w : World T) (avg : T) (A : Matrix (Fin n) (Fin n) T) (x : Fin n → T) (r : Fin n) :
    (reducedMat w avg A *ᵥ x) r = if OnBoundary w r then avg * x r else ∑ c with ¬ OnBoundary w (c : Fin n), A r c * x c := by
  unfold Matrix.mulVec dotProduct reducedMat
  simp only [Matrix.of_apply]
  split
  · next h =>
    simp only [h, true_or, if_true, ite_mul, zero_mul]
    simp
  · next h =>
    simp only [h, false_or]
    rw [Finset.sum_filter]
    refine Finset.sum_congr rfl fun c _ => ?_
    by_cases hc : OnBoundary w c
    · rw [if_pos hc, if_neg (by rintro rfl; exact h hc), if_neg (not_not.2 hc), zero_mul]
    · rw [if_neg hc, if_pos hc]

/-- C60: the solutions of the constrained system are exactly the vectors that have the boundary values at the boundary vertices
and satisfy the original equations at all other vertices; symmetry is preserved.  For every mesh whose vertices are numbered by
their position, every matrix, right-hand side, boundary function and diagonal value. -/
theorem C60_solutions {w : World T} (hw : Numbered w) (hn : w.vertices.length = n) {a : M} {b : List T} {A : Matrix (Fin n) (Fin n) T}
    {B : Fin n → T} (ha : IsMat a n A) (hb : IsVec b n B) {avg : T} (h0 : avg ≠ 0) (g : List T → T) :
    ∃ a' b' A' B', constrain avg g w (a, b) = .ok (a', b') ∧ IsMat a' n A' ∧ IsVec b' n B' ∧
      (∀ x : Fin n → T, A' *ᵥ x = B' ↔ ∀ (i : Fin n) v, vertexAt w i = some v →
        (v.flags &&& 1 ≠ 0 → x i = g v.pos) ∧ (v.flags &&& 1 = 0 → (A *ᵥ x) i = B i)) ∧
      (A.IsSymm → A'.IsSymm) := by
  classical
  obtain ⟨a', b', e, h1, h2⟩ := C60_constrain hw hn ha hb avg g
  refine ⟨a', b', _, _, e, h1, h2, fun x => ?_, fun hs => ?_⟩
  · have hv : ∀ i : Fin n, ∃ v, vertexAt w i = some v := fun i => by
      obtain ⟨v, h, -⟩ := hw i (by rw [hn]; exact i.2)
      exact ⟨v, h⟩
    have hbd : ∀ (i : Fin n) v, vertexAt w i = some v → (OnBoundary w i ↔ v.flags &&& 1 ≠ 0) := by
      intro i v h
      constructor
      · rintro ⟨v', h', hf⟩
        rw [h] at h'
        obtain rfl := Option.some.inj h'
        exact hf
      · intro hf; exact ⟨v, h, hf⟩
    have hsplit : ∀ r : Fin n, (A *ᵥ x) r = (∑ c with OnBoundary w (c : Fin n), A r c * x c) + ∑ c with ¬ OnBoundary w (c : Fin n), A r c * x c := fun r => by
      unfold Matrix.mulVec dotProduct
      rw [Finset.sum_filter_add_sum_filter_not]
    rw [funext_iff]
    simp only [reduced_mulVec, reducedVec]
    constructor
    · intro h
      have hB : ∀ i : Fin n, OnBoundary w i → x i = valueAt w g i := by
        intro i hi
        have := h i
        rw [if_pos hi, if_pos hi] at this
        exact mul_left_cancel₀ h0 this
      intro i v hvi
      refine ⟨fun hf => ?_, fun hf => ?_⟩
      · rw [hB i ((hbd i v hvi).2 hf)]
        unfold valueAt; rw [hvi]; rfl
      · have hno : ¬ OnBoundary w i := fun hh => (hbd i v hvi).1 hh hf
        have := h i
        rw [if_neg hno, if_neg hno] at this
        rw [hsplit, this, Finset.sum_congr rfl (fun c hc => by rw [hB c (by simpa using hc)])]
        ring
    · intro h i
      have hB : ∀ i : Fin n, OnBoundary w i → x i = valueAt w g i := by
        intro i hi
        obtain ⟨v, hvi⟩ := hv i
        rw [(h i v hvi).1 ((hbd i v hvi).1 hi)]
        unfold valueAt; rw [hvi]; rfl
      by_cases hi : OnBoundary w i
      · rw [if_pos hi, if_pos hi, hB i hi]
      · rw [if_neg hi, if_neg hi]
        obtain ⟨v, hvi⟩ := hv i
        have := (h i v hvi).2 (by by_contra hf; exact hi ((hbd i v hvi).2 hf))
        rw [hsplit, Finset.sum_congr rfl (fun c hc => by rw [hB c (by simpa using hc)])] at this
        rw [← this]
        ring
  · ext i j
    unfold reducedMat
    simp only [Matrix.transpose_apply, Matrix.of_apply]
    rw [hs.apply j i]
    exact if_congr or_comm (if_congr eq_comm rfl rfl) rfl

/-- every mesh that `prepareMesh` accepts has its vertices numbered by their position -/
theorem C60_numbered [IsStrictOrderedRing T] {w w' w'' : World T} {order : Nat} (h : NS.World.Built w) (hd : NS.World.Distinct w)
    (s : NS.Props.Shape.Setup w w') (ho : order = 1 ∨ order = 2) (e : Shape.prepareMesh order w' = .ok w'') : Numbered w'' := by
  rcases ho with rfl | rfl
  · obtain ⟨w2, e2, hl⟩ := NS.Props.Shape.C56_order1 h hd s
    rw [e] at e2
    obtain rfl := Except.ok.inj e2
    obtain ⟨k1, k2, -, -⟩ := hl.keep
    have hE := NS.Props.Shape.edges_of h hd s
    have hI := NS.World.built_inv h
    intro i hi
    rw [k2, hE.vertices] at hi
    have hp := List.getElem?_eq_getElem hi
    obtain ⟨v', a1, -, a3, -⟩ := hE.V _ _ (List.getElem?_eq_getElem (hI.vlt _ (List.getElem_mem hi)))
    refine ⟨v', ?_, a3.trans (hI.gi i _ _ hp (List.getElem?_eq_getElem _))⟩
    unfold vertexAt
    rw [k2, hE.vertices, hp, k1]
    exact a1
  · obtain ⟨w2, m, e2, hq⟩ := NS.Props.Shape.C56_order2 h hd s
    rw [e] at e2
    obtain rfl := Except.ok.inj e2
    intro i hi
    have hp := List.getElem?_eq_getElem hi
    obtain ⟨v, h1, h2⟩ := hq.index i _ hp
    refine ⟨v, ?_, h2⟩
    unfold vertexAt
    rw [hp]
    exact h1

/-- C60: `avgMid` is the mean absolute value of the diagonal -/
theorem C60_avgMid [IsStrictOrderedRing T] {w : World T} (hw : Numbered w) (hn : w.vertices.length = n) (h0 : 0 < n) {a : M}
    {A : Matrix (Fin n) (Fin n) T} (ha : IsMat a n A) : avgMid w a = .ok ((∑ i, |A i i|) / n) := by
  have key : Sat (forList w.vertices (0 : T) fun p s => do
      let v ← getIdx w.V p
      let x ← MatOps.get a v.gi v.gi
      return s + |x|) (fun s => s = ∑ i, |A i i|) noErr := by
    refine (sat_forList (fun pre s => s = ∑ i with ((i : Fin n) : Nat) < pre.length, |A i i|) w.vertices ?_ ?_).mono ?_ fun _ h => h
    · simp
    · rintro pre p suf s hs rfl
      have hlt : pre.length < w.vertices.length := by rw [hs]; simp
      obtain ⟨v, hv, hgi⟩ := hw pre.length hlt
      have hp : w.vertices[pre.length]? = some p := by rw [hs]; simp
      have hV : w.V[p]? = some v := by unfold vertexAt at hv; rw [hp] at hv; exact hv
      rw [getIdx_of_some hV, ok_bind, hgi]
      have hk := ha.2.2.2 ⟨pre.length, by omega⟩ ⟨pre.length, by omega⟩
      simp only at hk
      rw [hk, ok_bind]
      show _ = _
      have hset : (Finset.univ.filter fun i : Fin n => (i : Nat) < (pre ++ [p]).length) =
          insert (⟨pre.length, by omega⟩ : Fin n) (Finset.univ.filter fun i : Fin n => (i : Nat) < pre.length) := by
        ext z
        simp only [Finset.mem_filter, Finset.mem_univ, true_and, Finset.mem_insert, Fin.ext_iff, List.length_append, List.length_singleton]
        omega
      rw [hset, Finset.sum_insert (by simp)]
      ring
    · rintro s rfl
      refine Finset.sum_congr ?_ fun _ _ => rfl
      ext z
      simp [hn]
  obtain ⟨s, e, rfl⟩ := key.ok_of
  unfold avgMid
  rw [e, ok_bind, hn, fdiv, if_neg (by exact_mod_cast h0.ne')]

open Classical in
/-- C60: if the assembled matrix is symmetric and positive on the vectors that vanish at the boundary, the constrained matrix is
symmetric positive definite, so that the theorems C35 on `cg` and `pcg` apply to it. -/
theorem C60_spd [IsStrictOrderedRing T] (w : World T) {avg : T} (h0 : 0 < avg) {A : Matrix (Fin n) (Fin n) T} (hs : A.IsSymm)
    (hp : ∀ x : Fin n → T, x ≠ 0 → (∀ i : Fin n, OnBoundary w i → x i = 0) → 0 < x ⬝ᵥ A *ᵥ x) : NS.CG.SPD (reducedMat w avg A) := by
  constructor
  · ext i j
    unfold reducedMat
    simp only [Matrix.transpose_apply, Matrix.of_apply]
    rw [hs.apply j i]
    exact if_congr or_comm (if_congr eq_comm rfl rfl) rfl
  · intro x hx
    set y : Fin n → T := fun i => if OnBoundary w i then 0 else x i with hy
    have hyb : ∀ i : Fin n, OnBoundary w i → y i = 0 := fun i hi => by simp only [hy, if_pos hi]
    have hyi : ∀ i : Fin n, ¬ OnBoundary w i → y i = x i := fun i hi => by simp only [hy, if_neg hi]
    have split : x ⬝ᵥ reducedMat w avg A *ᵥ x = (∑ i with OnBoundary w (i : Fin n), avg * (x i * x i)) + y ⬝ᵥ A *ᵥ y := by
      rw [dotProduct, dotProduct, ← Finset.sum_filter_add_sum_filter_not _ (fun i : Fin n => OnBoundary w i) (fun i => x i * _),
        ← Finset.sum_filter_add_sum_filter_not _ (fun i : Fin n => OnBoundary w i) (fun i => y i * _)]
      congr 1
      · refine Finset.sum_congr rfl fun i hi => ?_
        rw [reduced_mulVec, if_pos (by simpa using hi)]; ring
      · rw [Finset.sum_eq_zero (s := Finset.univ.filter fun i : Fin n => OnBoundary w i) (fun i hi => by rw [hyb i (by simpa using hi), zero_mul]), zero_add]
        refine Finset.sum_congr rfl fun i hi => ?_
        have hi' : ¬ OnBoundary w i := by simpa using hi
        rw [reduced_mulVec, if_neg hi', hyi i hi']
        congr 1
        unfold Matrix.mulVec dotProduct
        rw [Finset.sum_filter]
        refine Finset.sum_congr rfl fun c _ => ?_
        by_cases hc : OnBoundary w c
        · rw [if_neg (not_not.2 hc), hyb c hc, mul_zero]
        · rw [if_pos hc, hyi c hc]
    rw [split]
    have p1 : 0 ≤ ∑ i with OnBoundary w (i : Fin n), avg * (x i * x i) :=
      Finset.sum_nonneg fun i _ => mul_nonneg h0.le (mul_self_nonneg _)
    by_cases hz : y = 0
    · rw [hz, zero_dotProduct, add_zero]
      obtain ⟨i, hi⟩ : ∃ i, x i ≠ 0 := by
        by_contra hc
        push Not at hc
        exact hx (funext hc)
      have hib : OnBoundary w i := by
        by_contra hc
        exact hi (by rw [← hyi i hc, hz]; rfl)
      exact Finset.sum_pos' (fun i _ => mul_nonneg h0.le (mul_self_nonneg _))
        ⟨i, by simpa using hib, mul_pos h0 (mul_self_pos.2 hi)⟩
    · exact add_pos_of_nonneg_of_pos p1 (hp y hz hyb)

/-! ### Non-vacuity -/

/-- the square of two triangles, set up for elements of order `o` -/
def squareMesh (o : Nat) : R (World ℚ) := do
  let w ← NS.Props.Mesh.square.setupNeighbors
  let w ← w.setupBoundaries
  let w ← w.prepare 0
  Shape.prepareMesh o w

theorem squareMesh_ok {o : Nat} {w : World ℚ} (h : squareMesh o = .ok w) : ∃ w1, NS.Props.Shape.Setup NS.Props.Mesh.square w1 ∧ Shape.prepareMesh o w1 = .ok w := by
  unfold squareMesh at h
  simp only [bind_ok_iff] at h
  obtain ⟨w1, h1, w2, h2, w3, h3, h4⟩ := h
  exact ⟨w3, .prepare 0 (.boundaries (.neighbors h1) h2) h3, h4⟩

/-- with order 2 the square has 9 vertices, numbered, and the one in the middle is not on the boundary -/
example : ∃ w : World ℚ, squareMesh 2 = .ok w ∧ Numbered w ∧ w.vertices.length = 9 ∧ OnBoundary w 0 ∧ ¬ OnBoundary w 5 := by
  have h2 : ((squareMesh 2).toOption.map fun w => (w.vertices.length, (vertexAt w 0).map (·.flags), (vertexAt w 5).map (·.flags))) =
      some (9, some 1, some 2) := by decide +kernel
  rcases hw : squareMesh 2 with er | w
  · rw [hw] at h2; cases h2
  rw [hw] at h2
  have h2 := Option.some.inj h2
  simp only [Prod.mk.injEq] at h2
  obtain ⟨w1, s, e⟩ := squareMesh_ok hw
  refine ⟨w, rfl, C60_numbered NS.Props.Mesh.square_built (by unfold Distinct; decide) s (.inr rfl) e, h2.1, ?_, ?_⟩
  · obtain ⟨v, hv, hf⟩ := Option.map_eq_some_iff.1 h2.2.1
    exact ⟨v, hv, by rw [hf]; decide⟩
  · rintro ⟨v, hv, hf⟩
    rw [hv] at h2
    have := Option.some.inj h2.2.2
    simp only at this
    rw [this] at hf
    exact hf (by decide)

end NS.Props.Fem

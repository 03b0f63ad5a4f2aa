/-
Lemmas for the assembling of the finite element example: element matrices, scatter and sums over elements.
-/
import Verif.Props.Fem
import Verif.Props.Quadrature
import Mathlib.Algebra.MvPolynomial.PDeriv

set_option linter.unusedSectionVars false
set_option linter.unusedSimpArgs false

namespace NS.Props.Fem
open NS NS.World NS.Fem NS.MatOps NS.LawfulMat Matrix
open NS.Props.LU (IsMat IsVec isVec_iff isMat_of)
open NS.Props.Simplex (area2 prepOf)
open NS.Props.Shape (pt)
variable {T : Type} [Field T] [LinearOrder T] [IsStrictOrderedRing T]

/-! ### Specification of the element matrix and vector -/

/-- barycentric coordinates on the reference triangle (0,0), (1,0), (0,1) -/
noncomputable def hat (i : Fin 3) : MvPolynomial (Fin 2) T := ![1 - MvPolynomial.X 0 - MvPolynomial.X 1, MvPolynomial.X 0, MvPolynomial.X 1] i

/-- the Lagrange basis of order 1 (corners) and 2 (corners, then the midpoints of the edges 01, 12, 20) -/
noncomputable def basis (order i : Nat) : MvPolynomial (Fin 2) T :=
  match order, i with
  | 1, 0 => hat 0
  | 1, 1 => hat 1
  | 1, 2 => hat 2
  | 2, 0 => hat 0 * (MvPolynomial.C 2 * hat 0 - 1)
  | 2, 1 => hat 1 * (MvPolynomial.C 2 * hat 1 - 1)
  | 2, 2 => hat 2 * (MvPolynomial.C 2 * hat 2 - 1)
  | 2, 3 => MvPolynomial.C 4 * (hat 0 * hat 1)
  | 2, 4 => MvPolynomial.C 4 * (hat 1 * hat 2)
  | 2, 5 => MvPolynomial.C 4 * (hat 2 * hat 0)
  | _, _ => 0

/-- the gradient of a basis function at the local point `p` -/
noncomputable def gradAt (order i : Nat) (p : List T) : Fin 2 → T :=
  fun k => MvPolynomial.eval (pt 2 p) (MvPolynomial.pderiv k (basis order i))

/-- the value of a basis function at the local point `p` -/
noncomputable def basisAt (order i : Nat) (p : List T) : T := MvPolynomial.eval (pt 2 p) (basis order i)

/-- the edge matrix of a triangle -/
def jac (P : Fin 3 → Fin 2 → T) : Matrix (Fin 2) (Fin 2) T := Matrix.of fun i j => P j.succ i - P 0 i

/-- the point of the triangle with local coordinates `p` -/
def toPoint (P : Fin 3 → Fin 2 → T) (p : List T) : List T :=
  [P 0 0 + pt 2 p 0 * (P 1 0 - P 0 0) + pt 2 p 1 * (P 2 0 - P 0 0), P 0 1 + pt 2 p 0 * (P 1 1 - P 0 1) + pt 2 p 1 * (P 2 1 - P 0 1)]

/-- the quadrature rule as a weighted sum over its points -/
def quad (order : Nat) (f : List T → T) : T := ((Quadrature.table 2 order).map fun x => x.2 / 2 * f x.1).sum

/-- entry of the element matrix before the threshold: note the factor `J⁻¹` where the gradient of the transformed function has
`J⁻ᵀ` -/
noncomputable def energy (order : Nat) (P : Fin 3 → Fin 2 → T) (i j : Nat) : T :=
  |area2 P| * quad (order + 1) fun p => ((jac P)⁻¹ *ᵥ gradAt order i p) ⬝ᵥ ((jac P)⁻¹ *ᵥ gradAt order j p)

/-- entry of the element vector before the threshold -/
noncomputable def load (order : Nat) (src : List T → T) (P : Fin 3 → Fin 2 → T) (i : Nat) : T :=
  |area2 P| * quad (order + 1) fun p => basisAt order i p * src (toPoint P p)

/-- entries of absolute value at most `eps` are dropped -/
def keep (eps x : T) : T := if eps < |x| then x else 0

/-! ### Shape functions -/

theorem gradAt_eq {order i : Nat} (ho : order = 1 ∨ order = 2) (hi : i < Shape.dof 2 order) (x y : T) :
    Shape.gradient 2 order i [x, y] = .ok [gradAt order i [x, y] 0, gradAt order i [x, y] 1] := by
  have p0 : pt 2 [x, y] 0 = x := rfl
  have p1 : pt 2 [x, y] 1 = y := rfl
  rcases ho with rfl | rfl <;> simp only [Shape.dof] at hi <;> interval_cases i <;> refine congrArg Except.ok ?_ <;>
    refine List.cons_eq_cons.2 ⟨?_, List.cons_eq_cons.2 ⟨?_, rfl⟩⟩ <;>
    simp [gradAt, basis, hat, MvPolynomial.pderiv_X, Pi.single_apply, p0, p1, Shape.prodAt] <;> ring

theorem basisAt_eq {order i : Nat} (ho : order = 1 ∨ order = 2) (hi : i < Shape.dof 2 order) (x y : T) :
    Shape.value 2 order i [x, y] = .ok (basisAt order i [x, y]) := by
  have p0 : pt 2 [x, y] 0 = x := rfl
  have p1 : pt 2 [x, y] 1 = y := rfl
  rcases ho with rfl | rfl <;> simp only [Shape.dof] at hi <;> interval_cases i <;> refine congrArg Except.ok ?_ <;>
    simp [basisAt, basis, hat, p0, p1, Shape.prodAt] <;> ring

/-! ### Quadrature of a function that can fail -/

theorem bindCongr {α β : Type} {x : R α} {f g : α → R β} (h : ∀ a, f a = g a) : (x >>= f) = (x >>= g) := by rw [funext h]

theorem evalR_congr {K order : Nat} {f g : List T → R T} (h : ∀ p ∈ (Quadrature.points K order : List (List T)), f p = g p) :
    evalR K order f = evalR K order g := by
  unfold evalR
  refine bindCongr fun ws => bindCongr fun _ => ?_
  have aux : ∀ (n a : Nat) (s : T), a + n = (Quadrature.points K order : List (List T)).length →
      forAux (fun i v => do
        let w ← getIdx ws i
        let p ← getIdx (Quadrature.points K order) i
        let x ← f p
        return v + w * x) n a s = forAux (fun i v => do
        let w ← getIdx ws i
        let p ← getIdx (Quadrature.points K order) i
        let x ← g p
        return v + w * x) n a s := by
    intro n
    induction n with
    | zero => intros; rfl
    | succ n ih =>
      intro a s ha
      have hlt : a < (Quadrature.points K order : List (List T)).length := by omega
      unfold forAux
      simp only [getIdx_eq hlt, ok_bind, h _ (List.getElem_mem hlt)]
      exact bindCongr fun s' => ih _ _ (by omega)
  exact aux _ 0 0 (by omega)

theorem evalR_ok {order : Nat} (ho : order = 1 ∨ order = 2) {f : List T → R T} {g : List T → T} (h : ∀ x y, f [x, y] = .ok (g [x, y])) :
    evalR 2 (order + 1) f = .ok (quad (order + 1) g) := by
  have : evalR 2 (order + 1) f = evalR 2 (order + 1) fun p => .ok (g p) := by
    refine evalR_congr fun p hp => ?_
    have : p.length = 2 := by
      rcases ho with rfl | rfl <;> simp [Quadrature.points, Quadrature.table] at hp <;> aesop
    obtain ⟨x, y, rfl⟩ := Props.Simplex.two_of_length this
    exact h x y
  rw [this]
  rcases ho with rfl | rfl <;> refine congrArg Except.ok ?_ <;>
    simp [quad, Quadrature.table, Quadrature.unitVolume, add_assoc, div_eq_mul_inv]

/-! ### One element -/

theorem isMat_inv {P : Fin 3 → Fin 2 → T} (hd : area2 P ≠ 0) : IsMat (prepOf P).inv 2 (jac P)⁻¹ := by
  obtain ⟨s0, e0, hv, hb⟩ := Props.Simplex.ofLists_ok P
  obtain ⟨s, m, i, h1, h2, h3, -, -, h4⟩ := Props.Simplex.C46_matrices (.built hb) hv hd
  rw [Props.Simplex.prepare_shape (Props.Simplex.built_shape hb).1 hv, if_neg hd] at h1
  obtain rfl := Except.ok.inj h1
  obtain rfl := Except.ok.inj h3
  exact h4

theorem isVec_two (v : Fin 2 → T) : IsVec [v 0, v 1] 2 v := by
  refine ⟨rfl, fun i => ?_⟩
  fin_cases i <;> rfl

theorem stiffAt_ok {order i j : Nat} (ho : order = 1 ∨ order = 2) (hi : i < Shape.dof 2 order) (hj : j < Shape.dof 2 order)
    {P : Fin 3 → Fin 2 → T} (hd : area2 P ≠ 0) (x y : T) :
    stiffAt order (prepOf P).inv i j [x, y] = .ok (((jac P)⁻¹ *ᵥ gradAt order i [x, y]) ⬝ᵥ ((jac P)⁻¹ *ᵥ gradAt order j [x, y])) := by
  unfold stiffAt
  rw [gradAt_eq ho hi, ok_bind]
  obtain ⟨a, a1, a2⟩ := Props.LU.IsVec.mulVec (isMat_inv hd) (isVec_two (gradAt order i [x, y]))
  obtain ⟨b, b1, b2⟩ := Props.LU.IsVec.mulVec (isMat_inv hd) (isVec_two (gradAt order j [x, y]))
  have a1' : Dense.mulVec (prepOf P).inv [gradAt order i [x, y] 0, gradAt order i [x, y] 1] = .ok a := a1
  have b1' : Dense.mulVec (prepOf P).inv [gradAt order j [x, y] 0, gradAt order j [x, y] 1] = .ok b := b1
  rw [a1', ok_bind, gradAt_eq ho hj, ok_bind, b1', ok_bind, Props.LU.IsVec.dot a2 b2]

theorem loadAt_ok {order i : Nat} (ho : order = 1 ∨ order = 2) (hi : i < Shape.dof 2 order) (src : List T → T)
    {P : Fin 3 → Fin 2 → T} (x y : T) :
    loadAt order (prepOf P) src i [x, y] = .ok (basisAt order i [x, y] * src (toPoint P [x, y])) := by
  unfold loadAt
  rw [basisAt_eq ho hi, ok_bind]
  have hG : (prepOf P).toGlobal [x, y] = .ok [0 + (P 1 0 - P 0 0) * x + (P 2 0 - P 0 0) * y + P 0 0,
    0 + (P 1 1 - P 0 1) * x + (P 2 1 - P 0 1) * y + P 0 1] := rfl
  have hp : ([0 + (P 1 0 - P 0 0) * x + (P 2 0 - P 0 0) * y + P 0 0, 0 + (P 1 1 - P 0 1) * x + (P 2 1 - P 0 1) * y + P 0 1] : List T) =
      toPoint P [x, y] := by
    unfold toPoint
    have p0 : pt 2 [x, y] 0 = x := rfl
    have p1 : pt 2 [x, y] 1 = y := rfl
    rw [p0, p1]
    refine List.cons_eq_cons.2 ⟨by ring, List.cons_eq_cons.2 ⟨by ring, rfl⟩⟩
  rw [hG, ok_bind, hp]; rfl

variable {M : Type} [MatOps M T] [LawfulMat M T] {n : Nat}

theorem isMat_make (M : Type) [MatOps M T] [LawfulMat M T] {n : Nat} (hn : 0 < n) : ∃ a : M, MatOps.make n n = .ok a ∧ IsMat a n (0 : Matrix (Fin n) (Fin n) T) := by
  obtain ⟨m0, a1, a2, a3, a4, a5⟩ := make_ok (M := M) hn hn
  refine ⟨m0, a1, a2, a3, a4, fun i j => ?_⟩
  rw [get_ok a2 (by rw [a3]; exact i.2) (by rw [a4]; exact j.2), a5]
  rfl

theorem isVec_mk (n : Nat) : ∃ b : List T, Vec.mk' n = .ok b ∧ IsVec b n (0 : Fin n → T) := by
  refine ⟨_, Vec.mk_ok n, by simp, fun i => ?_⟩
  rw [vecAt_ok (by simp)]
  simp

theorem local_ok {eps : T} {order : Nat} (ho : order = 1 ∨ order = 2) (src : List T → T) {P : Fin 3 → Fin 2 → T} (hd : area2 P ≠ 0) :
    ∃ m b, local' eps order src (prepOf P) = .ok (m, b) ∧
      IsMat m (Shape.dof 2 order) (Matrix.of fun i j : Fin (Shape.dof 2 order) => keep eps (energy order P i j)) ∧
      IsVec b (Shape.dof 2 order) (fun i : Fin (Shape.dof 2 order) => keep eps (load order src P i)) := by
  have hpos : 0 < Shape.dof 2 order := by rcases ho with rfl | rfl <;> decide
  generalize hN : Shape.dof 2 order = N at hpos
  obtain ⟨m0, m1, m2⟩ := isMat_make (Dense T) hpos
  obtain ⟨b0, b1, b2⟩ := isVec_mk (T := T) N
  have m1' : Dense.mk' N N = .ok m0 := m1
  have key : Sat (local' eps order src (prepOf P)) (fun r => IsMat r.1 N (Matrix.of fun i j : Fin N => keep eps (energy order P i j)) ∧
      IsVec r.2 N (fun i : Fin N => keep eps (load order src P i))) noErr := by
    unfold local'
    rw [hN]
    have hdet : (prepOf P).determinant = .ok (area2 P) := by rw [Props.Simplex.area2_eq]; rfl
    have hinv : (prepOf P).inverseMatrix = .ok (prepOf P).inv := rfl
    rw [hdet, ok_bind, m1', ok_bind, b1, ok_bind, hinv, ok_bind]
    refine (sat_forRange (fun k (st : Dense T × List T) => IsMat st.1 N (Matrix.of fun i j : Fin N => if (i : Nat) < k then keep eps (energy order P i j) else 0) ∧
      IsVec st.2 N (fun i : Fin N => if (i : Nat) < k then keep eps (load order src P i) else 0)) (Nat.zero_le N) ?_ ?_).mono ?_ fun _ h => h
    · exact ⟨isMat_congr m2 fun i j => by simp, isVec_congr b2 fun i => by simp⟩
    · rintro k ⟨m, b⟩ - hk ⟨h1, h2⟩
      have hk' : k < Shape.dof 2 order := by omega
      have inner : Sat (forRange 0 N m fun j m => do
          let q ← evalR 2 (order + 1) (stiffAt order (prepOf P).inv k j)
          let val := |area2 P| * q
          if eps < |val| then m.set k j val else return m)
          (fun m => IsMat m N (Matrix.of fun i j : Fin N => if (i : Nat) < k + 1 then keep eps (energy order P i j) else 0)) noErr := by
        refine (sat_forRange (fun l (m : Dense T) => IsMat m N (Matrix.of fun i j : Fin N =>
            if (i : Nat) < k ∨ ((i : Nat) = k ∧ (j : Nat) < l) then keep eps (energy order P i j) else 0)) (Nat.zero_le N) ?_ ?_).mono ?_ fun _ h => h
        · exact isMat_congr h1 fun i j => by simp
        · rintro l m - hl hm
          rw [evalR_ok ho (g := fun p => ((jac P)⁻¹ *ᵥ gradAt order k p) ⬝ᵥ ((jac P)⁻¹ *ᵥ gradAt order l p))
            (fun x y => stiffAt_ok ho hk' (by omega) hd x y), ok_bind]
          have he : |area2 P| * quad (order + 1) (fun p => ((jac P)⁻¹ *ᵥ gradAt order k p) ⬝ᵥ ((jac P)⁻¹ *ᵥ gradAt order l p)) = energy order P k l := rfl
          simp only [he]
          split
          · next hbig =>
            obtain ⟨m', e1, e2⟩ := isMat_put hm ⟨k, hk⟩ ⟨l, hl⟩ (energy order P k l)
            have e1' : m.set k l (energy order P k l) = .ok m' := e1
            rw [e1']
            refine isMat_congr e2 fun i j => ?_
            simp only [Matrix.of_apply, Fin.ext_iff]
            by_cases hij : (i : Nat) = k ∧ (j : Nat) = l
            · rw [if_pos hij, if_pos (by omega), hij.1, hij.2, keep, if_pos hbig]
            · rw [if_neg hij]
              exact if_congr (by omega) rfl rfl
          · next hsmall =>
            refine isMat_congr hm fun i j => ?_
            simp only [Matrix.of_apply]
            by_cases hij : (i : Nat) = k ∧ (j : Nat) = l
            · rw [if_neg (by omega), if_pos (by omega), hij.1, hij.2, keep, if_neg hsmall]
            · exact if_congr (by omega) rfl rfl
        · intro m hm
          refine isMat_congr hm fun i j => ?_
          simp only [Matrix.of_apply]
          exact if_congr (by omega) rfl rfl
      obtain ⟨m', e1, e2⟩ := inner.ok_of
      simp only [e1, ok_bind]
      rw [evalR_ok ho (g := fun p => basisAt order k p * src (toPoint P p)) (fun x y => loadAt_ok ho hk' src x y), ok_bind]
      have he : |area2 P| * quad (order + 1) (fun p => basisAt order k p * src (toPoint P p)) = load order src P k := rfl
      simp only [he]
      split
      · next hbig =>
        obtain ⟨b', f1, f2⟩ := isVec_set h2 ⟨k, hk⟩ (load order src P k)
        have f1' : vecSet b k (load order src P k) = .ok b' := f1
        rw [f1', ok_bind]
        refine ⟨e2, isVec_congr f2 fun i => ?_⟩
        simp only [Fin.ext_iff]
        by_cases hij : (i : Nat) = k
        · rw [if_pos hij, if_pos (by omega), hij, keep, if_pos hbig]
        · rw [if_neg hij]
          exact if_congr (by omega) rfl rfl
      · next hsmall =>
        refine ⟨e2, isVec_congr h2 fun i => ?_⟩
        by_cases hij : (i : Nat) = k
        · rw [if_neg (by omega), if_pos (by omega), hij, keep, if_neg hsmall]
        · exact if_congr (by omega) rfl rfl
    · rintro ⟨m, b⟩ ⟨h1, h2⟩
      exact ⟨isMat_congr h1 fun i j => by simp, isVec_congr h2 fun i => by simp⟩
  obtain ⟨⟨m, b⟩, e, h1, h2⟩ := key.ok_of
  exact ⟨m, b, e, h1, h2⟩

/-! ### Scatter -/

/-- the number of degree of freedom `i` of element `a`: `elements()[..]->DOFVertices[i]->GlobalIndex` -/
def dofIndex (w : World T) (a i : Nat) : Option Nat := ((w.E[a]?).bind fun e => e.dofs[i]?).bind fun q => (w.V[q]?).map (·.gi)

theorem globalIndex_ok {w : World T} {a i k : Nat} {e : MElem T} (he : w.E[a]? = some e) (h : dofIndex w a i = some k) :
    globalIndex w e i = .ok k := by
  unfold dofIndex at h
  rw [he, Option.bind_some] at h
  obtain ⟨q, h1, h2⟩ := Option.bind_eq_some_iff.1 h
  obtain ⟨v, h3, h4⟩ := Option.map_eq_some_iff.1 h2
  unfold globalIndex
  rw [getIdx_of_some h1, ok_bind, getIdx_of_some h3, ok_bind, ← h4]
  rfl

theorem scatter_ok {order : Nat} {w : World T} {e : MElem T} {G : Nat → Nat} {N : Nat} (hN : Shape.dof 2 order = N)
    (hG : ∀ i < N, globalIndex w e i = .ok (G i) ∧ G i < n) {k : Dense T × List T} {K : Nat → Nat → T} {F : Nat → T}
    (hK : ∀ i < N, ∀ j < N, k.1.at' i j = .ok (K i j)) (hF : ∀ i < N, vecAt k.2 i = .ok (F i))
    {a : M} {b : List T} {A : Matrix (Fin n) (Fin n) T} {B : Fin n → T} (ha : IsMat a n A) (hb : IsVec b n B) :
    ∃ a' b', scatter order w e k (a, b) = .ok (a', b') ∧
      IsMat a' n (Matrix.of fun r c => A r c + ∑ i ∈ Finset.range N, ∑ j ∈ Finset.range N, if G i = r ∧ G j = c then K i j else 0) ∧
      IsVec b' n (fun r => B r + ∑ i ∈ Finset.range N, if G i = r then F i else 0) := by
  have key : Sat (scatter order w e k (a, b)) (fun st => IsMat st.1 n (Matrix.of fun r c => A r c + ∑ i ∈ Finset.range N,
        ∑ j ∈ Finset.range N, if G i = r ∧ G j = c then K i j else 0) ∧
      IsVec st.2 n (fun r => B r + ∑ i ∈ Finset.range N, if G i = r then F i else 0)) noErr := by
    unfold scatter
    rw [hN]
    refine sat_forRange (fun m (st : M × List T) => IsMat st.1 n (Matrix.of fun r c => A r c + ∑ i ∈ Finset.range m,
        ∑ j ∈ Finset.range N, if G i = r ∧ G j = c then K i j else 0) ∧
      IsVec st.2 n (fun r => B r + ∑ i ∈ Finset.range m, if G i = r then F i else 0)) (Nat.zero_le N)
      ⟨isMat_congr ha fun i j => by simp, isVec_congr hb fun i => by simp⟩ ?_
    rintro m ⟨a, b⟩ - hm ⟨h1, h2⟩
    obtain ⟨gm, gmn⟩ := hG m hm
    rw [gm, ok_bind]
    have inner : Sat (forRange 0 N a fun j a => do
          let gj ← globalIndex w e j
          let x ← MatOps.get a (G m) gj
          let y ← k.1.at' m j
          MatOps.put a (G m) gj (x + y))
        (fun a => IsMat a n (Matrix.of fun r c => A r c + ∑ i ∈ Finset.range (m + 1),
        ∑ j ∈ Finset.range N, if G i = r ∧ G j = c then K i j else 0)) noErr := by
      refine (sat_forRange (fun l (a : M) => IsMat a n (Matrix.of fun r c => (A r c + ∑ i ∈ Finset.range m,
        ∑ j ∈ Finset.range N, if G i = r ∧ G j = c then K i j else 0) + ∑ j ∈ Finset.range l, if G m = r ∧ G j = c then K m j else 0)) (Nat.zero_le N)
        (isMat_congr h1 fun i j => by simp) ?_).mono ?_ fun _ h => h
      · rintro l a - hl h
        obtain ⟨gl, gln⟩ := hG l hl
        rw [gl, ok_bind]
        have hget := h.2.2.2 ⟨G m, gmn⟩ ⟨G l, gln⟩
        simp only at hget
        rw [hget, ok_bind, hK m hm l hl, ok_bind]
        obtain ⟨a', e1, e2⟩ := isMat_put h ⟨G m, gmn⟩ ⟨G l, gln⟩ ((Matrix.of fun (r c : Fin n) => (A r c + ∑ i ∈ Finset.range m,
          ∑ j ∈ Finset.range N, if G i = r ∧ G j = c then K i j else 0) + ∑ j ∈ Finset.range l, if G m = r ∧ G j = c then K m j else 0)
            ⟨G m, gmn⟩ ⟨G l, gln⟩ + K m l)
        simp only at e1
        rw [e1]
        refine isMat_congr e2 fun r c => ?_
        simp only [Matrix.of_apply, Finset.sum_range_succ]
        by_cases hrc : r = ⟨G m, gmn⟩ ∧ c = ⟨G l, gln⟩
        · rw [if_pos hrc, hrc.1, hrc.2, if_pos (c := G m = G m ∧ G l = G l) ⟨rfl, rfl⟩]
          ring
        · rw [if_neg hrc, if_neg (fun hh => hrc ⟨Fin.ext hh.1.symm, Fin.ext hh.2.symm⟩), add_zero]
      · intro a h
        refine isMat_congr h fun r c => ?_
        simp only [Matrix.of_apply, Finset.sum_range_succ, add_assoc]
    obtain ⟨a', e1, e2⟩ := inner.ok_of
    simp only [e1, ok_bind]
    have hget := h2.2 ⟨G m, gmn⟩
    simp only at hget
    rw [hget, ok_bind, hF m hm, ok_bind]
    obtain ⟨b', f1, f2⟩ := isVec_set h2 ⟨G m, gmn⟩ ((B ⟨G m, gmn⟩ + ∑ i ∈ Finset.range m, if G i = G m then F i else 0) + F m)
    simp only at f1
    rw [f1, ok_bind]
    refine ⟨e2, isVec_congr f2 fun r => ?_⟩
    simp only [Finset.sum_range_succ]
    by_cases hr : r = ⟨G m, gmn⟩
    · rw [if_pos hr, hr, if_pos (c := G m = G m) rfl]
      ring
    · rw [if_neg hr, if_neg (fun hh => hr (Fin.ext hh.symm)), add_zero]
  obtain ⟨⟨a', b'⟩, e, h1, h2⟩ := key.ok_of
  exact ⟨a', b', e, h1, h2⟩

/-! ### Assembling -/

/-- what assembling needs: prepared non-degenerate simplices and numbered degrees of freedom -/
structure Ready (order : Nat) (w : World T) (P : Nat → Fin 3 → Fin 2 → T) : Prop where
  pos : 0 < w.vertices.length
  simplex : ∀ a ∈ w.elements, ∃ e, w.E[a]? = some e ∧ e.simplex = prepOf (P a)
  area : ∀ a ∈ w.elements, area2 (P a) ≠ 0
  dof : ∀ a ∈ w.elements, ∀ i < Shape.dof 2 order, ∃ k < w.vertices.length, dofIndex w a i = some k

/-- the assembled matrix: every element adds its entries at the numbers of its degrees of freedom -/
noncomputable def sysMat (eps : T) (order : Nat) (w : World T) (P : Nat → Fin 3 → Fin 2 → T) : Matrix (Fin n) (Fin n) T :=
  Matrix.of fun r c => (w.elements.map fun a => ∑ i ∈ Finset.range (Shape.dof 2 order), ∑ j ∈ Finset.range (Shape.dof 2 order),
    if dofIndex w a i = some (r : Nat) ∧ dofIndex w a j = some (c : Nat) then keep eps (energy order (P a) i j) else 0).sum

/-- the assembled right-hand side -/
noncomputable def sysVec (eps : T) (order : Nat) (src : List T → T) (w : World T) (P : Nat → Fin 3 → Fin 2 → T) : Fin n → T := fun r =>
  (w.elements.map fun a => ∑ i ∈ Finset.range (Shape.dof 2 order),
    if dofIndex w a i = some (r : Nat) then keep eps (load order src (P a) i) else 0).sum

theorem assemble_ok {eps : T} {order : Nat} (ho : order = 1 ∨ order = 2) (src : List T → T) {w : World T} {P : Nat → Fin 3 → Fin 2 → T}
    (hw : Ready order w P) (hn : w.vertices.length = n) :
    ∃ (a : M) (b : List T), assemble eps order src w = .ok (a, b) ∧ IsMat a n (sysMat eps order w P) ∧ IsVec b n (sysVec eps order src w P) := by
  have key : Sat (assemble eps order src w : R (M × List T)) (fun st => IsMat st.1 n (sysMat eps order w P) ∧ IsVec st.2 n (sysVec eps order src w P)) noErr := by
    unfold assemble
    rw [hn]
    obtain ⟨m0, m1, m2⟩ := isMat_make M (n := n) (by rw [← hn]; exact hw.pos)
    obtain ⟨b0, b1, b2⟩ := isVec_mk (T := T) n
    rw [m1, ok_bind, b1, ok_bind]
    refine sat_forList (fun pre (st : M × List T) => IsMat st.1 n (Matrix.of fun r c => (pre.map fun a => ∑ i ∈ Finset.range (Shape.dof 2 order), ∑ j ∈ Finset.range (Shape.dof 2 order),
        if dofIndex w a i = some (r : Nat) ∧ dofIndex w a j = some (c : Nat) then keep eps (energy order (P a) i j) else 0).sum) ∧
      IsVec st.2 n (fun r => (pre.map fun a => ∑ i ∈ Finset.range (Shape.dof 2 order),
        if dofIndex w a i = some (r : Nat) then keep eps (load order src (P a) i) else 0).sum)) w.elements
      ⟨isMat_congr m2 fun i j => by simp, isVec_congr b2 fun i => by simp⟩ ?_
    rintro pre p suf ⟨a, b⟩ hs ⟨h1, h2⟩
    have hp : p ∈ w.elements := by rw [hs]; simp
    obtain ⟨e, e1, e2⟩ := hw.simplex p hp
    obtain ⟨m, v, l1, l2, l3⟩ := local_ok (eps := eps) ho src (hw.area p hp)
    rw [getIdx_of_some e1, ok_bind, e2, l1, ok_bind]
    have hG : ∀ i < Shape.dof 2 order, dofIndex w p i = some ((dofIndex w p i).getD 0) ∧ (dofIndex w p i).getD 0 < n := by
      intro i hi
      obtain ⟨k, k1, k2⟩ := hw.dof p hp i hi
      rw [k2]
      exact ⟨rfl, by rw [← hn]; exact k1⟩
    obtain ⟨a', b', s1, s2, s3⟩ := scatter_ok (order := order) (w := w) (e := e) (G := fun i => (dofIndex w p i).getD 0) (k := (m, v)) rfl
      (fun i hi => ⟨globalIndex_ok e1 (hG i hi).1, (hG i hi).2⟩)
      (K := fun i j => keep eps (energy order (P p) i j)) (F := fun i => keep eps (load order src (P p) i))
      (fun i hi j hj => l2.2.2.2 ⟨i, hi⟩ ⟨j, hj⟩) (fun i hi => l3.2 ⟨i, hi⟩) h1 h2
    rw [s1]
    have hiff : ∀ i < Shape.dof 2 order, ∀ r : Nat, (dofIndex w p i).getD 0 = r ↔ dofIndex w p i = some r := by
      intro i hi r
      rw [(hG i hi).1]
      simp
    refine ⟨isMat_congr s2 fun r c => ?_, isVec_congr s3 fun r => ?_⟩
    · simp only [Matrix.of_apply, List.map_append, List.sum_append, List.map_cons, List.map_nil, List.sum_cons, List.sum_nil, add_zero]
      congr 1
      refine Finset.sum_congr rfl fun i hi => Finset.sum_congr rfl fun j hj => ?_
      exact if_congr (and_congr (hiff i (Finset.mem_range.1 hi) r) (hiff j (Finset.mem_range.1 hj) c)) rfl rfl
    · simp only [List.map_append, List.sum_append, List.map_cons, List.map_nil, List.sum_cons, List.sum_nil, add_zero]
      congr 1
      refine Finset.sum_congr rfl fun i hi => ?_
      exact if_congr (hiff i (Finset.mem_range.1 hi) r) rfl rfl
  obtain ⟨⟨a', b'⟩, e, h1, h2⟩ := key.ok_of
  exact ⟨a', b', e, h1, h2⟩

end NS.Props.Fem

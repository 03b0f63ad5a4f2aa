/-
Property theorem C69 applied: solver 0 of `examples/poisson/fem.cpp` (`sor` with weight 1.2) on the assembled system.
-/
import Verif.Props.FemTame
import Verif.Props.SorSpd

set_option linter.unusedSectionVars false
set_option linter.unusedSimpArgs false

namespace NS.Props.Fem
open NS NS.World NS.Fem NS.MatOps NS.LawfulMat Matrix NS.Props.Mesh NS.Props.Shape
open NS.Props.LU (IsMat IsVec)
open NS.Props.Iter NS.Iterative
variable {M T : Type} [Field T] [LinearOrder T] [IsStrictOrderedRing T] [MatOps M T] [LawfulMat M T] {n : Nat}

/-- C69: on the mesh pipeline of the finite element example, solver 0 returns a finite vector for every iteration limit above
some bound, after convergence, with residual bounded by the tolerance. -/
theorem C69_fem_sor [Archimedean T] {w w' w'' : World T} {order : Nat} (h : Built w) (hd : Distinct w) (hc : Closed w) (hp : Pipeline w w')
    (ho : order = 1 ∨ order = 2) (e : Shape.prepareMesh order w' = .ok w'') (hel : w.elements ≠ [])
    (hn : w''.vertices.length = n) {eps : T} (hS : Solid eps order w w'') (src g : List T → T)
    {wt : T} (hw0 : 0 < wt) (hw2 : wt < 2) {tol : T} (ht : 0 < tol) :
    ∃ (a : M) (b : List T) (A : Matrix (Fin n) (Fin n) T) (B : Fin n → T), system eps order src g w'' = .ok (a, b) ∧ IsMat a n A ∧ IsVec b n B ∧
      ∃ N, ∀ maxIter, N < maxIter → ∃ x it, solveSor (M := M) eps order src g wt maxIter tol w'' = .ok (fl x, it) ∧ it ≤ N ∧
        ∀ i : Fin n, |B i - (A *ᵥ x) i| ≤ (|1 / wt - 1| * A i i + ∑ j, if i < j then |A i j| else 0) * tol := by
  obtain ⟨a, b, A, B, e1, e2, e3, e4, -⟩ := C119_system (M := M) h hd hc hp ho e hel hn hS src g
  refine ⟨a, b, A, B, e1, e2, e3, ?_⟩
  obtain ⟨z, z1, z2⟩ := isVec_mk (T := T) n
  obtain ⟨N, hN⟩ := C69_sor_spd (b := B) (x0 := 0) e2 e4 hw0 hw2 ht
  refine ⟨N, fun maxIter hm => ?_⟩
  obtain ⟨x, it, f1, f2, f3⟩ := hN maxIter hm
  refine ⟨x, it, ?_, f2, f3 (.inr (.inr rfl))⟩
  unfold solveSor
  rw [e1, ok_bind, hn, z1, ok_bind, fl_of_isVec e3, fl_of_isVec z2]
  exact f1

/-- the weight of the example is in the range -/
example : (0 : ℚ) < 6 / 5 ∧ (6 / 5 : ℚ) < 2 := by norm_num
end NS.Props.Fem

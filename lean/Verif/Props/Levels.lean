/-
Property C107: the bandwidth after renumbering with Cuthill-McKee.

The graph of a matrix with symmetric pattern has an edge between `i` and `j` if `A i j ≠ 0`, `i ≠ j`.  The level of a vertex is its distance from
the first numbered vertex of its component.
-/
import Verif.Props.Envelope
import Mathlib.Combinatorics.SimpleGraph.Metric
import Mathlib.Combinatorics.SimpleGraph.Connectivity.Connected

set_option linter.unusedSectionVars false
set_option linter.unusedSimpArgs false

namespace NS.Props.Levels
open NS NS.MatOps NS.LawfulMat NS.Order NS.LU NS.Props.LU NS.Props.Order NS.Props.Envelope Matrix
variable {T : Type} [Field T] [DecidableEq T] {n : Nat}

/-- the graph of a matrix: two different indices are adjacent if one of the two entries is not zero -/
def graph (A : Matrix (Fin n) (Fin n) T) : SimpleGraph (Fin n) where
  Adj i j := i ≠ j ∧ (A i j ≠ 0 ∨ A j i ≠ 0)
  symm := ⟨fun _ _ h => ⟨h.1.symm, h.2.symm⟩⟩
  loopless := ⟨fun _ h => h.1 rfl⟩

/-- the level set: the vertices connected with `s` whose distance from `s` is `d` -/
def level (A : Matrix (Fin n) (Fin n) T) (s : Fin n) (d : Nat) : Set (Fin n) := {v | (graph A).Reachable s v ∧ (graph A).dist s v = d}

/-- `f` is the first number given to an index of the component of `v` -/
def First (A : Matrix (Fin n) (Fin n) T) (σ : Equiv.Perm (Fin n)) (f v : Fin n) : Prop :=
  (graph A).Reachable (σ f) v ∧ ∀ k, (graph A).Reachable (σ k) v → f ≤ k

/-! ### The numbering -/

section
variable {A : Matrix (Fin n) (Fin n) T} {σ : Equiv.Perm (Fin n)}

/-- the choice of every number -/
theorem choice (h : IsCuthillMckee A (List.ofFn σ)) (k : Fin n) :
    (∃ l < k, A (σ l) (σ k) ≠ 0 ∧ ∀ l' < k, ∀ q, k ≤ q → A (σ l') (σ q) ≠ 0 → l ≤ l') ∨
    ((∀ l < k, ∀ q, k ≤ q → A (σ l) (σ q) = 0) ∧ ∀ q, k ≤ q → Preferred A (σ k) (σ q)) := by
  rcases h k (by rw [List.length_ofFn]; exact k.2) with ⟨l, hl, e1, e2⟩ | ⟨e1, e2⟩
  · refine Or.inl ⟨⟨l, hl.trans k.2⟩, hl, by rw [List.getElem_ofFn, List.getElem_ofFn] at e1; exact e1, fun l' hl' q hq hne => ?_⟩
    have := e2 l' hl' q (by rw [List.length_ofFn]; exact q.2) hq (by rw [List.getElem_ofFn, List.getElem_ofFn]; exact hne)
    show l ≤ (l' : Nat)
    omega
  · refine Or.inr ⟨fun l hl q hq => ?_, fun q hq => ?_⟩
    · have := e1 l hl q (by rw [List.length_ofFn]; exact q.2) hq
      rw [List.getElem_ofFn, List.getElem_ofFn] at this; exact this
    · have := e2 q (by rw [List.length_ofFn]; exact q.2) hq
      rw [List.getElem_ofFn, List.getElem_ofFn] at this; exact this

variable (hs : ∀ i j, A i j ≠ 0 → A j i ≠ 0)
include hs

theorem adj_iff (i j : Fin n) : (graph A).Adj i j ↔ i ≠ j ∧ A i j ≠ 0 :=
  ⟨fun h => ⟨h.1, h.2.elim id (hs j i)⟩, fun h => ⟨h.1, Or.inl h.2⟩⟩

/-- an edge between different numbers -/
theorem adj_of {a b : Fin n} (hab : a ≠ b) (h : A (σ a) (σ b) ≠ 0) : (graph A).Adj (σ a) (σ b) :=
  (adj_iff hs _ _).2 ⟨fun e => hab (σ.injective e), h⟩

/-- the component of a vertex has a first number -/
theorem first_exists (v : Fin n) : ∃ f, First A σ f v := by
  classical
  have hne : (Finset.univ.filter fun k => (graph A).Reachable (σ k) v).Nonempty := ⟨σ.symm v, by simp⟩
  refine ⟨_, (Finset.mem_filter.1 (Finset.min'_mem _ hne)).2, fun k hk => Finset.min'_le _ _ (by simp [hk])⟩

/-- an edge leaves every set which contains some but not all vertices of a component -/
theorem leaving {S : Fin n → Prop} {u v : Fin n} (h : (graph A).Reachable u v) (hu : S u) (hv : ¬ S v) :
    ∃ a b, (graph A).Adj a b ∧ S a ∧ ¬ S b ∧ (graph A).Reachable u a := by
  obtain ⟨w⟩ := h
  induction w with
  | nil => exact absurd hu hv
  | @cons a b c hab w ih =>
    by_cases hb : S b
    · obtain ⟨x, y, h1, h2, h3, h4⟩ := ih hb hv
      exact ⟨x, y, h1, h2, h3, hab.reachable.trans h4⟩
    · exact ⟨a, b, hab, hu, hb, SimpleGraph.Reachable.refl _⟩

/-- the first number of a component is chosen freely -/
theorem First.free (hc : IsCuthillMckee A (List.ofFn σ)) {f v : Fin n} (hf : First A σ f v) :
    (∀ l < f, ∀ q, f ≤ q → A (σ l) (σ q) = 0) ∧ ∀ q, f ≤ q → Preferred A (σ f) (σ q) := by
  rcases choice hc f with ⟨l, hl, e, -⟩ | h
  · have := hf.2 l (((adj_of hs hl.ne e).reachable).trans hf.1)
    exact absurd hl (not_lt.2 this)
  · exact h

/-- a component is numbered without a gap -/
theorem First.gap (hc : IsCuthillMckee A (List.ofFn σ)) {f v : Fin n} (hf : First A σ f v) {j : Fin n} (hj : (graph A).Reachable (σ j) v) :
    ∀ k, f ≤ k → k ≤ j → (graph A).Reachable (σ k) v := by
  intro k
  induction hk : (k : Nat) using Nat.strong_induction_on generalizing k with
  | _ N ih =>
    subst hk
    intro hfk hkj
    by_contra hno
    have hfk' : f < k := lt_of_le_of_ne hfk (by rintro rfl; exact hno hf.1)
    have hkj' : k < j := lt_of_le_of_ne hkj (by rintro rfl; exact hno hj)
    rcases choice hc k with ⟨l, hl, e, -⟩ | ⟨h1, -⟩
    · have hlk := (adj_of hs hl.ne e).reachable
      rcases lt_or_ge l f with h | h
      · exact e ((hf.free hs hc).1 l h k hfk)
      · exact hno (hlk.symm.trans (ih l hl l rfl h (hl.le.trans hkj)))
    · obtain ⟨a, b, h2, h3, h4, h5⟩ := leaving hs (S := fun x => σ.symm x < k) (hf.1.trans hj.symm) (by simpa using hfk') (by simpa using hkj'.le)
      have := h1 (σ.symm a) h3 (σ.symm b) (not_lt.1 h4)
      rw [Equiv.apply_symm_apply, Equiv.apply_symm_apply] at this
      exact ((adj_iff hs _ _).1 h2).2 this

/-- the vertices of a component are numbered in the order of their distances from the first one -/
theorem First.sorted (hc : IsCuthillMckee A (List.ofFn σ)) {f v : Fin n} (hf : First A σ f v) (D : Nat) :
    ∀ i j, (graph A).Reachable (σ i) v → (graph A).Reachable (σ j) v → (graph A).dist (σ f) (σ j) ≤ D → D < (graph A).dist (σ f) (σ i) → j < i := by
  induction D with
  | zero =>
    intro i j hi hj hdj hdi
    have h0 : σ f = σ j := ((hf.1.trans hj.symm).dist_eq_zero_iff).1 (by omega)
    have h1 := σ.injective h0
    subst h1
    refine lt_of_le_of_ne (hf.2 i hi) ?_
    rintro rfl
    simp at hdi
  | succ D ih =>
    intro i j hi hj hdj hdi
    rcases Nat.lt_or_ge D ((graph A).dist (σ f) (σ j)) with hj1 | hj1
    swap
    · exact ih i j hi hj hj1 (by omega)
    have hj2 : (graph A).dist (σ f) (σ j) = D + 1 := by omega
    by_contra hij
    have hij : i ≤ j := not_lt.1 hij
    have hne : σ f ≠ σ j := by intro e; rw [e] at hj2; simp at hj2
    obtain ⟨w, hw1, hw2⟩ : ∃ w, (graph A).Adj w (σ j) ∧ (graph A).dist (σ f) w = D := by
      obtain ⟨p, hp⟩ := (hf.1.trans hj.symm).exists_walk_length_eq_dist
      rw [hj2] at hp
      have hnil : ¬ p.Nil := by intro hn; exact hne hn.eq
      refine ⟨p.penultimate, p.adj_penultimate hnil, ?_⟩
      have h1 : (graph A).dist (σ f) p.penultimate ≤ D := by
        have := SimpleGraph.dist_le (p.dropLast)
        have h2 : p.dropLast.length = D := by rw [SimpleGraph.Walk.length_dropLast]; omega
        omega
      have h3 := (p.adj_penultimate hnil).reachable
      have h4 : (graph A).dist (σ f) (σ j) ≤ (graph A).dist (σ f) p.penultimate + 1 := by
        obtain ⟨q, hq⟩ := ((hf.1.trans hj.symm).trans h3.symm).exists_walk_length_eq_dist
        have := SimpleGraph.dist_le (q.concat (p.adj_penultimate hnil))
        rw [SimpleGraph.Walk.length_concat, hq] at this
        exact this
      omega
    obtain ⟨l', rfl⟩ := σ.surjective w
    have hl'v : (graph A).Reachable (σ l') v := hw1.reachable.trans hj
    have hl'i : l' < i := ih i l' hi hl'v hw2.le (by omega)
    have hne' : A (σ l') (σ j) ≠ 0 := ((adj_iff hs _ _).1 hw1).2
    rcases choice hc i with ⟨l, hl, e, hmin⟩ | ⟨h1, -⟩
    · have hli := adj_of hs hl.ne e
      have hlv : (graph A).Reachable (σ l) v := hli.reachable.trans hi
      have h1 : (graph A).dist (σ f) (σ i) ≤ (graph A).dist (σ f) (σ l) + 1 := by
        obtain ⟨q, hq⟩ := (hf.1.trans hlv.symm).exists_walk_length_eq_dist
        have := SimpleGraph.dist_le (q.concat hli)
        rw [SimpleGraph.Walk.length_concat, hq] at this
        exact this
      have h2 := ih l l' hlv hl'v hw2.le (by omega)
      exact absurd (hmin l' hl'i j hij hne') (not_le.2 h2)
    · exact hne' (h1 l' hl'i j hij)

/-- the distances of neighbours differ by at most one -/
theorem dist_step {r u w : Fin n} (hr : (graph A).Reachable r u) (h : (graph A).Adj u w) : (graph A).dist r w ≤ (graph A).dist r u + 1 := by
  obtain ⟨q, hq⟩ := hr.exists_walk_length_eq_dist
  have := SimpleGraph.dist_le (q.concat h)
  rw [SimpleGraph.Walk.length_concat, hq] at this
  exact this

/-- the distance in the numbering of two neighbours -/
theorem First.width (hc : IsCuthillMckee A (List.ofFn σ)) {i j f : Fin n} (hij : i < j) (hA : A (σ i) (σ j) ≠ 0) (hf : First A σ f (σ i)) :
    (graph A).dist (σ f) (σ i) ≤ (graph A).dist (σ f) (σ j) ∧ (graph A).dist (σ f) (σ j) ≤ (graph A).dist (σ f) (σ i) + 1 ∧
      (j : Nat) - i + 1 ≤ (level A (σ f) ((graph A).dist (σ f) (σ i)) ∪ level A (σ f) ((graph A).dist (σ f) (σ j))).ncard := by
  have hadj := adj_of hs hij.ne hA
  have hj : (graph A).Reachable (σ j) (σ i) := hadj.symm.reachable
  have mono : ∀ a b, (graph A).Reachable (σ a) (σ i) → (graph A).Reachable (σ b) (σ i) → a ≤ b → (graph A).dist (σ f) (σ a) ≤ (graph A).dist (σ f) (σ b) := by
    intro a b ha hb hab
    by_contra hlt
    exact absurd hab (not_le.2 (hf.sorted hs hc _ a b ha hb le_rfl (not_le.1 hlt)))
  have h1 := mono i j (SimpleGraph.Reachable.refl _) hj hij.le
  have h2 := dist_step hs hf.1 hadj
  refine ⟨h1, h2, ?_⟩
  have h3 : σ '' (Set.Icc i j) ⊆ level A (σ f) ((graph A).dist (σ f) (σ i)) ∪ level A (σ f) ((graph A).dist (σ f) (σ j)) := by
    rintro _ ⟨k, ⟨hk1, hk2⟩, rfl⟩
    have hk := hf.gap hs hc hj k ((hf.2 i (SimpleGraph.Reachable.refl _)).trans hk1) hk2
    have m1 := mono i k (SimpleGraph.Reachable.refl _) hk hk1
    have m2 := mono k j hk hj hk2
    have hr : (graph A).Reachable (σ f) (σ k) := hf.1.trans hk.symm
    rcases Nat.lt_or_ge ((graph A).dist (σ f) (σ i)) ((graph A).dist (σ f) (σ k)) with h | h
    · exact Or.inr ⟨hr, by omega⟩
    · exact Or.inl ⟨hr, by omega⟩
  have h4 := Set.ncard_le_ncard h3 (Set.toFinite _)
  rw [Set.ncard_image_of_injective _ σ.injective, Set.ncard_eq_toFinset_card', Set.toFinset_Icc, Fin.card_Icc] at h4
  have : (i : Nat) < j := hij
  omega
end

/-! ### The property -/

/-- **C107**: renumbering a matrix with symmetric pattern and no zero row with `cuthill_mckee`: every component is numbered level by level, beginning
with an index of smallest degree, and the numbers of two adjacent indices differ by less than the size of their two levels (of the one level, if
it is the same). -/
theorem C107_levels {m : Sparse T} {A : Matrix (Fin n) (Fin n) T} (h : IsMat m n A) (hrow : ∀ i, ∃ j, A i j ≠ 0) (hs : ∀ i j, A i j ≠ 0 → A j i ≠ 0) :
    ∃ (σ : Equiv.Perm (Fin n)) (r : Sparse T) (B : Matrix (Fin n) (Fin n) T), cuthillMckee m = .ok (permList σ) ∧ permutateMat m (permList σ) = .ok r ∧ IsMat r n B ∧
      (∀ i j, B i j = A (σ i) (σ j)) ∧
      (∀ v, ∃ f, First A σ f v) ∧
      (∀ f v, First A σ f v → ∀ u, (graph A).Reachable u v → degree A (σ f) ≤ degree A u) ∧
      (∀ f v, First A σ f v → ∀ i j, (graph A).Reachable (σ i) v → (graph A).Reachable (σ j) v → i ≤ j → (graph A).dist (σ f) (σ i) ≤ (graph A).dist (σ f) (σ j)) ∧
      ∀ i j f, i < j → B i j ≠ 0 → First A σ f (σ i) →
        (j : Nat) - i < (level A (σ f) ((graph A).dist (σ f) (σ i)) ∪ level A (σ f) ((graph A).dist (σ f) (σ j))).ncard := by
  obtain ⟨σ, e1, e2⟩ := C39_permutation_partial h hrow
  obtain ⟨r, P, r1, -, r2, r3⟩ := C40_permutate_matrix h σ
  refine ⟨σ, r, _, e1, r1, r2, r3, first_exists hs, fun f v hf u hu => ?_, fun f v hf i j hi hj hij => ?_, fun i j f hij hB hf => ?_⟩
  · obtain ⟨k, rfl⟩ := σ.surjective u
    rcases (hf.free hs e2).2 k (hf.2 k hu) with h | h
    · exact h.le
    · exact h.1.le
  · by_contra hlt
    exact absurd hij (not_le.2 (hf.sorted hs e2 _ i j hi hj le_rfl (not_le.1 hlt)))
  · have := (hf.width hs e2 hij (by rw [← r3]; exact hB)).2.2
    omega

/-- **C107**: if no level of the graph, from whatever index, has more than `w` members, the renumbered matrix has bandwidth at most `2 w - 1`. -/
theorem C107_bandwidth {m : Sparse T} {A : Matrix (Fin n) (Fin n) T} (h : IsMat m n A) (hrow : ∀ i, ∃ j, A i j ≠ 0) (hs : ∀ i j, A i j ≠ 0 → A j i ≠ 0)
    {w : Nat} (hw : ∀ s d, (level A s d).ncard ≤ w) :
    ∃ p r B, cuthillMckee m = .ok p ∧ permutateMat m p = .ok r ∧ IsMat r n B ∧ Band (2 * w - 1) B := by
  obtain ⟨σ, r, B, e1, e2, e3, e4, e5, -, -, e8⟩ := C107_levels h hrow hs
  refine ⟨_, r, B, e1, e2, e3, fun i j hij => ?_⟩
  have key : ∀ a b : Fin n, a < b → B a b ≠ 0 → (b : Nat) ≤ a + (2 * w - 1) := by
    intro a b hab hB
    obtain ⟨f, hf⟩ := e5 (σ a)
    have h1 := e8 a b f hab hB hf
    have h2 := Set.ncard_union_le (level A (σ f) ((graph A).dist (σ f) (σ a))) (level A (σ f) ((graph A).dist (σ f) (σ b)))
    have h3 := hw (σ f) ((graph A).dist (σ f) (σ a))
    have h4 := hw (σ f) ((graph A).dist (σ f) (σ b))
    omega
  rcases lt_trichotomy i j with hlt | rfl | hgt
  · exact ⟨by have : (i : Nat) < j := hlt; omega, key i j hlt hij⟩
  · constructor <;> omega
  · refine ⟨key j i hgt ?_, by have : (j : Nat) < i := hgt; omega⟩
    rw [e4] at hij ⊢
    exact hs _ _ hij

/-! ### Tridiagonal matrices -/

section
variable {A : Matrix (Fin n) (Fin n) T}

/-- from an index at the lower end of a path, the distance is the difference of the positions -/
theorem level_position (hs : ∀ i j, A i j ≠ 0 → A j i ≠ 0) {g : Fin n → ℤ} (hg : Function.Injective g) (hadj : ∀ u v, (graph A).Adj u v → g v = g u + 1 ∨ g v = g u - 1)
    {s : Fin n} (hend : ∀ v, (graph A).Adj s v → g v = g s + 1) :
    ∀ (d : Nat) (v : Fin n), (graph A).Reachable s v → (graph A).dist s v = d → g v = g s + d := by
  have low : ∀ v, (graph A).Reachable s v → g s ≤ g v := by
    intro v hv
    by_contra hlt
    obtain ⟨a, b, h1, h2, h3, -⟩ := leaving hs (S := fun x => g s ≤ g x) hv le_rfl hlt
    rcases hadj a b h1 with e | e
    · omega
    · have : g a = g s := by omega
      have := hg this
      subst this
      have := hend b h1
      omega
  intro d
  induction d using Nat.strong_induction_on with
  | _ d ih =>
    intro v hv hd
    rcases d with _ | d
    · rw [(hv.dist_eq_zero_iff).1 hd]; simp
    have pen : ∀ (e : Nat) (v : Fin n), (graph A).Reachable s v → (graph A).dist s v = e + 1 → ∃ w, (graph A).Adj w v ∧ (graph A).Reachable s w ∧ (graph A).dist s w = e := by
      intro e v hv hd
      obtain ⟨p, hp⟩ := hv.exists_walk_length_eq_dist
      rw [hd] at hp
      have hnil : ¬ p.Nil := by
        intro hn
        have := SimpleGraph.Walk.length_eq_zero_iff.2 hn
        omega
      have ha := p.adj_penultimate hnil
      have hr : (graph A).Reachable s p.penultimate := hv.trans ha.symm.reachable
      refine ⟨p.penultimate, ha, hr, ?_⟩
      have h1 : (graph A).dist s p.penultimate ≤ e := by
        have := SimpleGraph.dist_le (p.dropLast)
        have h2 : p.dropLast.length = e := by rw [SimpleGraph.Walk.length_dropLast]; omega
        omega
      have := dist_step hs hr ha
      omega
    obtain ⟨w, h1, h2, h3⟩ := pen d v hv hd
    have hw := ih d (by omega) w h2 h3
    rcases hadj w v h1 with e | e
    · push_cast; omega
    · rcases d with _ | d
      · have := low v hv
        simp at hw
        omega
      · obtain ⟨w', k1, k2, k3⟩ := pen d w h2 h3
        have hw' := ih d (by omega) w' k2 k3
        have : g v = g w' := by push_cast at hw; omega
        have := hg this
        subst this
        omega

theorem level_path (hs : ∀ i j, A i j ≠ 0 → A j i ≠ 0) {g : Fin n → ℤ} (hg : Function.Injective g) (hadj : ∀ u v, (graph A).Adj u v → g v = g u + 1 ∨ g v = g u - 1)
    {s : Fin n} (hend : ∀ v, (graph A).Adj s v → g v = g s + 1) (d : Nat) : (level A s d).ncard ≤ 1 := by
  rw [Set.ncard_le_one (Set.toFinite _)]
  rintro a ⟨a1, a2⟩ b ⟨b1, b2⟩
  refine hg ?_
  rw [level_position hs hg hadj hend d a a1 a2, level_position hs hg hadj hend d b b1 b2]

/-- an index of smallest degree in its component has neighbours on one side only -/
theorem path_end (hd : ∀ i, A i i ≠ 0) (hs : ∀ i j, A i j ≠ 0 → A j i ≠ 0) {g : Fin n → ℤ} (hg : Function.Injective g)
    (hadj : ∀ u v, (graph A).Adj u v → g v = g u + 1 ∨ g v = g u - 1) {s : Fin n} (hmin : ∀ u, (graph A).Reachable u s → degree A s ≤ degree A u) :
    (∀ v, (graph A).Adj s v → g v = g s + 1) ∨ ∀ v, (graph A).Adj s v → g v = g s - 1 := by
  classical
  by_contra hno
  rw [not_or] at hno
  push Not at hno
  obtain ⟨⟨a, ha, ha'⟩, ⟨b, hb, hb'⟩⟩ := hno
  have ha'' : g a = g s - 1 := (hadj s a ha).resolve_left ha'
  have hb'' : g b = g s + 1 := (hadj s b hb).resolve_right hb'
  have h3 : 3 ≤ degree A s := by
    unfold degree
    have hsub : ({s, a, b} : Finset (Fin n)) ⊆ Finset.univ.filter fun j => A s j ≠ 0 := by
      intro x hx
      simp only [Finset.mem_insert, Finset.mem_singleton] at hx
      simp only [Finset.mem_filter, Finset.mem_univ, true_and]
      rcases hx with rfl | rfl | rfl
      · exact hd _
      · exact ((adj_iff hs _ _).1 ha).2
      · exact ((adj_iff hs _ _).1 hb).2
    have hcard : ({s, a, b} : Finset (Fin n)).card = 3 := by
      rw [Finset.card_eq_three]
      refine ⟨s, a, b, ha.ne, hb.ne, ?_, rfl⟩
      rintro rfl
      omega
    rw [← hcard]
    exact Finset.card_le_card hsub
  obtain ⟨x, hx1, hx2⟩ := Finset.exists_max_image (Finset.univ.filter fun v => (graph A).Reachable v s) g ⟨s, by simp⟩
  rw [Finset.mem_filter] at hx1
  have hx := hmin x hx1.2
  have h2 : degree A x ≤ 2 := by
    unfold degree
    by_cases hex : ∃ y, g y = g x - 1
    · obtain ⟨y, hy⟩ := hex
      refine le_trans (Finset.card_le_card (t := {x, y}) ?_) Finset.card_le_two
      intro z hz
      simp only [Finset.mem_filter, Finset.mem_univ, true_and] at hz
      simp only [Finset.mem_insert, Finset.mem_singleton]
      by_cases hzx : z = x
      · exact Or.inl hzx
      have hzadj : (graph A).Adj x z := (adj_iff hs _ _).2 ⟨fun e => hzx e.symm, hz⟩
      right
      refine hg ?_
      rcases hadj x z hzadj with e | e
      · have := hx2 z (by simp [hzadj.symm.reachable.trans hx1.2])
        omega
      · omega
    · refine le_trans (Finset.card_le_card (t := {x}) ?_) (by simp)
      intro z hz
      simp only [Finset.mem_filter, Finset.mem_univ, true_and] at hz
      simp only [Finset.mem_singleton]
      by_contra hzx
      have hzadj : (graph A).Adj x z := (adj_iff hs _ _).2 ⟨fun e => hzx e.symm, hz⟩
      rcases hadj x z hzadj with e | e
      · have := hx2 z (by simp [hzadj.symm.reachable.trans hx1.2])
        omega
      · exact hex ⟨z, e⟩
  omega
end

/-- **C107**: if some numbering makes the matrix (symmetric pattern, no zero on the diagonal) tridiagonal, the numbering of `cuthill_mckee` does. -/
theorem C107_tridiagonal {m : Sparse T} {A : Matrix (Fin n) (Fin n) T} (h : IsMat m n A) (hd : ∀ i, A i i ≠ 0) (hs : ∀ i j, A i j ≠ 0 → A j i ≠ 0)
    {τ : Equiv.Perm (Fin n)} (hb : Band 1 (Matrix.of fun i j => A (τ i) (τ j))) :
    ∃ p r B, cuthillMckee m = .ok p ∧ permutateMat m p = .ok r ∧ IsMat r n B ∧ Band 1 B := by
  obtain ⟨σ, r, B, e1, e2, e3, e4, e5, e6, -, e8⟩ := C107_levels h (fun i => ⟨i, hd i⟩) hs
  refine ⟨_, r, B, e1, e2, e3, ?_⟩
  let g : Fin n → ℤ := fun v => ((τ.symm v : Nat) : ℤ)
  have hg : Function.Injective g := by
    intro a b hab
    have : (τ.symm a : Nat) = τ.symm b := by exact_mod_cast (show ((τ.symm a : Nat) : ℤ) = (τ.symm b : Nat) from hab)
    exact τ.symm.injective (Fin.ext this)
  have hadj : ∀ u v, (graph A).Adj u v → g v = g u + 1 ∨ g v = g u - 1 := by
    intro u v huv
    obtain ⟨h1, h2⟩ := (adj_iff hs _ _).1 huv
    have h3 := hb (τ.symm u) (τ.symm v) (by simpa using h2)
    have h4 : g u ≠ g v := fun e => h1 (hg e)
    have h5 : g u = ((τ.symm u : Nat) : ℤ) := rfl
    have h6 : g v = ((τ.symm v : Nat) : ℤ) := rfl
    omega
  have small : ∀ f v, First A σ f v → ∀ d, (level A (σ f) d).ncard ≤ 1 := by
    intro f v hf d
    have hmin : ∀ u, (graph A).Reachable u (σ f) → degree A (σ f) ≤ degree A u := fun u hu => e6 f v hf u (hu.trans hf.1)
    rcases path_end hd hs hg hadj hmin with hend | hend
    · exact level_path hs hg hadj hend d
    · refine level_path (g := fun v => - g v) hs (fun a b hab => hg (neg_injective hab)) (fun u v huv => ?_) (fun v hv => ?_) d
      · rcases hadj u v huv with e | e
        · right; simp only [e]; ring
        · left; simp only [e]; ring
      · simp only [hend v hv]; ring
  have key : ∀ a b : Fin n, a < b → B a b ≠ 0 → (b : Nat) ≤ a + 1 := by
    intro a b hab hB
    obtain ⟨f, hf⟩ := e5 (σ a)
    have h1 := e8 a b f hab hB hf
    have h2 := Set.ncard_union_le (level A (σ f) ((graph A).dist (σ f) (σ a))) (level A (σ f) ((graph A).dist (σ f) (σ b)))
    have h3 := small f _ hf ((graph A).dist (σ f) (σ a))
    have h4 := small f _ hf ((graph A).dist (σ f) (σ b))
    omega
  intro i j hij
  rcases lt_trichotomy i j with hlt | rfl | hgt
  · exact ⟨by have : (i : Nat) < j := hlt; omega, key i j hlt hij⟩
  · constructor <;> omega
  · refine ⟨key j i hgt ?_, by have : (j : Nat) < i := hgt; omega⟩
    rw [e4] at hij ⊢
    exact hs _ _ hij

/-! ### The hypotheses are needed, and the result is not optimal -/

theorem exists_sparse {n : Nat} (hn : 0 < n) (A : Matrix (Fin n) (Fin n) T) : ∃ m : Sparse T, IsMat m n A := by
  obtain ⟨s, h1, h2⟩ := NS.Props.Sparse.exists_reach n n hn hn (fun i j => if h : i < n ∧ j < n then A ⟨i, h.1⟩ ⟨j, h.2⟩ else 0)
  obtain ⟨h2, h3, h4⟩ := h2
  refine ⟨s, sparse_valid h1, h2, h3, fun i j => ?_⟩
  have := h4 i j i.2 j.2
  beta_reduce at this
  rw [dif_pos ⟨i.2, j.2⟩] at this
  exact this

/-- the path `1 - 0 - 2` -/
def pathMat : Matrix (Fin 3) (Fin 3) ℚ := !![1, 1, 1; 1, 1, 0; 1, 0, 1]

/-- it is not tridiagonal, but the order 1, 0, 2 makes it so: it meets the hypotheses of C107 -/
example : (∃ m, IsMat (m : Sparse ℚ) 3 pathMat) ∧ (∀ i, pathMat i i ≠ 0) ∧ (∀ i j, pathMat i j ≠ 0 → pathMat j i ≠ 0) ∧ ¬ Band 1 pathMat ∧
    Band 1 (Matrix.of fun i j => pathMat (Equiv.swap 0 1 i) (Equiv.swap 0 1 j)) := by
  refine ⟨exists_sparse (by decide) _, by decide +kernel, fun i j h => ?_, fun h => ?_, fun i j => ?_⟩
  · rw [show pathMat j i = pathMat i j from congrFun (congrFun (show pathMatᵀ = pathMat by decide +kernel) i) j]; exact h
  · have := h 0 2 (by decide +kernel)
    revert this; decide
  · have key : ∀ i j : Fin 3, (Matrix.of fun i j => pathMat (Equiv.swap 0 1 i) (Equiv.swap 0 1 j)) i j = 0 ∨ ((i : Nat) ≤ j + 1 ∧ (j : Nat) ≤ i + 1) := by
      have e : ∀ i j : Fin 3, pathMat (Equiv.swap 0 1 i) (Equiv.swap 0 1 j) = 0 ∨ ((i : Nat) ≤ j + 1 ∧ (j : Nat) ≤ i + 1) := by
        intro i j
        fin_cases i <;> fin_cases j <;> first | (right; decide) | (left; decide +kernel)
      exact e
    exact fun h => (key i j).resolve_left h

/-- the matrix of the path `1 - 0 - 2` with a zero on the diagonal -/
def pathZero : R (Sparse ℚ) := do
  let m ← Sparse.mk' 3 3
  let m ← m.set 0 1 1
  let m ← m.set 0 2 1
  let m ← m.set 1 0 1
  let m ← m.set 1 1 1
  let m ← m.set 2 0 1
  m.set 2 2 1

/-- C107: without the diagonal entry all degrees are equal, the numbering begins in the middle of the path, and the matrix is not tridiagonal
although the numbering 1, 0, 2 makes it tridiagonal. -/
theorem C107_diagonal_negation : (pathZero >>= cuthillMckee) = .ok [0, 1, 2] ∧
    (pathZero >>= fun m => permutateMat m [0, 1, 2] >>= fun r => r.at' 0 2) = .ok 1 ∧
    (pathZero >>= fun m => permutateMat m [1, 0, 2] >>= fun r => r.at' 0 2) = .ok 0 ∧
    (pathZero >>= fun m => permutateMat m [1, 0, 2] >>= fun r => r.at' 2 0) = .ok 0 := by
  refine ⟨by decide +kernel, by decide +kernel, by decide +kernel, by decide +kernel⟩

/-- the star with the centre 0 and four leaves -/
def starFive : R (Sparse ℚ) := do
  let m ← Sparse.mk' 5 5
  let m ← m.set 0 0 1
  let m ← m.set 1 1 1
  let m ← m.set 2 2 1
  let m ← m.set 3 3 1
  let m ← m.set 4 4 1
  let m ← m.set 0 1 1
  let m ← m.set 0 2 1
  let m ← m.set 0 3 1
  let m ← m.set 0 4 1
  let m ← m.set 1 0 1
  let m ← m.set 2 0 1
  let m ← m.set 3 0 1
  m.set 4 0 1

/-- the largest distance from the diagonal of a non-zero entry of the renumbered matrix -/
def bandwidth (n : Nat) (m : R (Sparse ℚ)) (p : List Nat) : R Nat := do
  let r ← m >>= fun m => permutateMat m p
  (List.range n).foldlM (fun acc i => (List.range n).foldlM (fun acc j => do
    let v ← r.at' i j
    .ok (if v = 0 then acc else max acc (if i < j then j - i else i - j))) acc) 0

/-- C107: the numbering need not have the smallest possible bandwidth. -/
theorem C107_minimal_negation : (starFive >>= cuthillMckee) = .ok [1, 0, 2, 3, 4] ∧ bandwidth 5 starFive [1, 0, 2, 3, 4] = .ok 3 ∧
    bandwidth 5 starFive [1, 2, 0, 3, 4] = .ok 2 := by
  refine ⟨by decide +kernel, by decide +kernel, by decide +kernel⟩
end NS.Props.Levels

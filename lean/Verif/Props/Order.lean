/-
Property theorems C39, C40, C63: Cuthill-McKee ordering and the permutation helpers.

`IsMat m n A` (`Verif/Props/LU.lean`) says that `m` is a well-formed `n x n` sparse matrix object whose `at(i,j)` returns
`A i j`; `IsVec` is the same for vectors.  A permutation object (a vector of indices) that holds the permutation `σ` of
`{0,..,n-1}` is `permList σ`, i.e. its `i`-th entry is `σ i`.
-/
import Verif.Order
import Verif.VecIs
import Mathlib.Logic.Equiv.Fin.Basic
import Mathlib.Data.Fintype.EquivFin
import Mathlib.GroupTheory.Perm.Basic

set_option linter.unusedSectionVars false
set_option linter.unusedSimpArgs false

namespace NS.Props.Order
open NS NS.MatOps NS.LawfulMat NS.Order NS.Props.LU Matrix
variable {T : Type} [Field T] [DecidableEq T] {n : Nat}

/-- The vector of indices `[σ 0, σ 1, ..]`. -/
def permList (σ : Equiv.Perm (Fin n)) : List Nat := List.ofFn fun i => (σ i : Nat)

theorem permList_length (σ : Equiv.Perm (Fin n)) : (permList σ).length = n := by simp [permList]
theorem permList_get (σ : Equiv.Perm (Fin n)) (i : Fin n) : getIdx (permList σ) i = .ok (σ i : Nat) := by
  rw [getIdx_eq (by rw [permList_length]; exact i.2)]
  simp [permList]

/-- number of non-zero entries of row `i` -/
def degree (A : Matrix (Fin n) (Fin n) T) (i : Fin n) : Nat := (Finset.univ.filter fun j => A i j ≠ 0).card

theorem deg_eq {m : Sparse T} {A : Matrix (Fin n) (Fin n) T} (h : IsMat m n A) (i : Fin n) : deg m i = degree A i := by
  unfold deg degree
  have hc : m.columns = n := h.2.2.1
  rw [hc]
  refine (Finset.card_bij (fun (a : Fin n) _ => (a : Nat)) ?_ ?_ ?_).symm
  · intro a ha
    simp only [Finset.mem_filter, Finset.mem_univ, true_and] at ha
    simp only [Finset.mem_filter, Finset.mem_range]
    refine ⟨a.2, ?_⟩
    have := h.val_eq i a
    change m.val i a = _ at this
    rwa [this]
  · intro a _ b _ e; exact Fin.ext e
  · intro b hb
    simp only [Finset.mem_filter, Finset.mem_range] at hb
    refine ⟨⟨b, hb.1⟩, ?_, rfl⟩
    simp only [Finset.mem_filter, Finset.mem_univ, true_and]
    have := h.val_eq i ⟨b, hb.1⟩
    change m.val i b = _ at this
    rw [← this]; exact hb.2

theorem degree_pos {A : Matrix (Fin n) (Fin n) T} (i : Fin n) : 0 < degree A i ↔ ∃ j, A i j ≠ 0 := by
  unfold degree
  rw [Finset.card_pos]
  constructor
  · rintro ⟨j, hj⟩; exact ⟨j, by simpa using hj⟩
  · rintro ⟨j, hj⟩; exact ⟨j, by simpa using hj⟩

theorem cmorder_get {m : Sparse T} {P : List Nat} (h : CMOrder m P) : ∀ (k : Nat) (hk : k < P.length),
    (∃ (l : Nat) (hl : l < k), Edge m P[l] P[k] ∧ ∀ (l' : Nat) (hl' : l' < k) (d : Nat), Edge m P[l'] d → d ∉ P.take k →
      l < l' ∨ (l = l' ∧ Pref m P[k] d)) ∨
    ((∀ (l : Nat) (hl : l < k) (d : Nat), Edge m P[l] d → d ∈ P.take k) ∧
      ∀ d, d < m.rows → 0 < deg m d → d ∉ P.take k → Pref m P[k] d) := by
  have key : ∀ (P : List Nat) (v : Nat), (∀ (k : Nat) (hk : k < P.length),
      (∃ (l : Nat) (hl : l < k), Edge m P[l] P[k] ∧ ∀ (l' : Nat) (hl' : l' < k) (d : Nat), Edge m P[l'] d → d ∉ P.take k →
        l < l' ∨ (l = l' ∧ Pref m P[k] d)) ∨
      ((∀ (l : Nat) (hl : l < k) (d : Nat), Edge m P[l] d → d ∈ P.take k) ∧
        ∀ d, d < m.rows → 0 < deg m d → d ∉ P.take k → Pref m P[k] d)) →
      ((∃ (l : Nat) (hl : l < P.length), Edge m P[l] v ∧ ∀ (l' : Nat) (hl' : l' < P.length) (d : Nat), Edge m P[l'] d → d ∉ P →
        l < l' ∨ (l = l' ∧ Pref m v d)) ∨ ((∀ c ∈ P, ∀ d, Edge m c d → d ∈ P) ∧
        ∀ d, d < m.rows → 0 < deg m d → d ∉ P → Pref m v d)) →
      ∀ (k : Nat) (hk : k < (P ++ [v]).length),
      (∃ (l : Nat) (hl : l < k), Edge m (P ++ [v])[l] (P ++ [v])[k] ∧ ∀ (l' : Nat) (hl' : l' < k) (d : Nat),
        Edge m (P ++ [v])[l'] d → d ∉ (P ++ [v]).take k → l < l' ∨ (l = l' ∧ Pref m (P ++ [v])[k] d)) ∨
      ((∀ (l : Nat) (hl : l < k) (d : Nat), Edge m (P ++ [v])[l] d → d ∈ (P ++ [v]).take k) ∧
        ∀ d, d < m.rows → 0 < deg m d → d ∉ (P ++ [v]).take k → Pref m (P ++ [v])[k] d) := by
    intro P v ih hv k hk
    rcases Nat.lt_or_ge k P.length with hlt | hge
    · have e : (P ++ [v])[k] = P[k] := List.getElem_append_left hlt
      have et : (P ++ [v]).take k = P.take k := List.take_append_of_le_length hlt.le
      have e' : ∀ (l : Nat) (hl : l < k), (P ++ [v])[l] = P[l] := fun l hl => List.getElem_append_left (hl.trans hlt)
      rw [et]
      rcases ih k hlt with ⟨l, hl, he, hb⟩ | ⟨h1, h2⟩
      · refine Or.inl ⟨l, hl, ?_, fun l' hl' d hd hdP => ?_⟩
        · rw [e, e' l hl]; exact he
        · rw [e' l' hl'] at hd
          rw [e]
          exact hb l' hl' d hd hdP
      · refine Or.inr ⟨fun l hl d hd => ?_, fun d a b c => ?_⟩
        · rw [e' l hl] at hd
          exact h1 l hl d hd
        · rw [e]; exact h2 d a b c
    · have hkk : k = P.length := by simp at hk; omega
      subst hkk
      have e : (P ++ [v])[P.length] = v := by simp
      have et : (P ++ [v]).take P.length = P := by simp
      have e' : ∀ (l : Nat) (hl : l < P.length), (P ++ [v])[l] = P[l] := fun l hl => List.getElem_append_left hl
      rw [et, e]
      rcases hv with ⟨l, hl, he, hb⟩ | ⟨h1, h2⟩
      · refine Or.inl ⟨l, hl, ?_, fun l' hl' d hd hdP => ?_⟩
        · rw [e' l hl]; exact he
        · rw [e' l' hl'] at hd
          exact hb l' hl' d hd hdP
      · refine Or.inr ⟨fun l hl d hd => ?_, h2⟩
        rw [e' l hl] at hd
        exact h1 _ (List.getElem_mem hl) d hd
  induction h with
  | nil => intro k hk; simp at hk
  | start hP hv hd hn h1 h2 ih => exact key _ _ ih (Or.inr ⟨h1, h2⟩)
  | next hl hP hv hn he hb ih => exact key _ _ ih (Or.inl ⟨_, hl, he, hb⟩)

/-- index `a` is preferred to index `b`: smaller degree or, for equal degrees, smaller index -/
def Preferred (A : Matrix (Fin n) (Fin n) T) (a b : Fin n) : Prop := degree A a < degree A b ∨ (degree A a = degree A b ∧ a ≤ b)

theorem pref_iff {m : Sparse T} {A : Matrix (Fin n) (Fin n) T} (h : IsMat m n A) (a b : Fin n) :
    Pref m a b ↔ Preferred A a b := by
  unfold Pref Preferred
  rw [deg_eq h, deg_eq h, Fin.le_def]

/-- The textbook definition of the Cuthill-McKee numbering `P` (a list of indices) of the graph of `A` (edges: non-zero
off-diagonal entries `A i j`), position by position.  The index at position `k` is
* the preferred one among the not yet numbered neighbours of the earliest numbered index that has such neighbours, or
* if no numbered index has a not yet numbered neighbour, the preferred one among all indices not yet numbered. -/
def IsCuthillMckee (A : Matrix (Fin n) (Fin n) T) (P : List (Fin n)) : Prop :=
  ∀ (k : Nat) (hk : k < P.length),
    (∃ (l : Nat) (hl : l < k), A P[l] P[k] ≠ 0 ∧ ∀ (l' : Nat) (hl' : l' < k) (q : Nat) (hq : q < P.length), k ≤ q → A P[l'] P[q] ≠ 0 →
      l < l' ∨ (l = l' ∧ Preferred A P[k] P[q])) ∨
    ((∀ (l : Nat) (hl : l < k) (q : Nat) (hq : q < P.length), k ≤ q → A P[l] P[q] = 0) ∧
      ∀ (q : Nat) (hq : q < P.length), k ≤ q → Preferred A P[k] P[q])

/-- C39 and C63, every square matrix: the result lists each row that has a non-zero entry exactly once, followed by
zeros, and the listed part is the Cuthill-McKee numbering of these rows. -/
theorem C39_general {m : Sparse T} {A : Matrix (Fin n) (Fin n) T} (h : IsMat m n A) :
    ∃ P : List (Fin n), cuthillMckee m = .ok (P.map Fin.val ++ List.replicate (n - P.length) 0) ∧ P.Nodup ∧
      (∀ i, i ∈ P ↔ ∃ j, A i j ≠ 0) ∧
      IsCuthillMckee A P := by
  have hr : m.rows = n := h.2.1
  have hc : m.columns = n := h.2.2.1
  obtain ⟨P, e1, e2, e3⟩ := cuthillMckee_ok (m := m) h.1 (by rw [hr, hc])
  rw [hr] at e1 e2
  have hmem : ∀ i, i ∈ P ↔ ∃ hi : i < n, 0 < degree A ⟨i, hi⟩ := by
    intro i
    rw [e2.mem_iff, List.mem_filter, List.mem_range]
    simp only [decide_eq_true_eq]
    constructor
    · rintro ⟨hi, hd⟩
      refine ⟨hi, ?_⟩
      rw [← deg_eq h]; exact hd
    · rintro ⟨hi, hd⟩
      refine ⟨hi, ?_⟩
      rwa [← deg_eq h] at hd
  obtain ⟨P', rfl⟩ : ∃ P' : List (Fin n), P = P'.map Fin.val := by
    refine ⟨P.attach.map fun x => ⟨x.1, ((hmem x.1).1 x.2).1⟩, ?_⟩
    rw [List.map_map]
    exact (List.attach_map_subtype_val P).symm
  have hnd : (P'.map Fin.val).Nodup := e2.nodup_iff.2 (List.nodup_range.filter _)
  have hnd' : P'.Nodup := List.Nodup.of_map _ hnd
  have hme : ∀ i : Fin n, i ∈ P' ↔ 0 < degree A i := by
    intro i
    have := hmem i
    rw [List.mem_map] at this
    constructor
    · intro hi
      exact (this.1 ⟨i, hi, rfl⟩).2
    · intro hi
      obtain ⟨a, ha, hai⟩ := this.2 ⟨i.2, hi⟩
      rwa [← Fin.ext hai]
  have hedge : ∀ a b : Fin n, Edge m a b ↔ a ≠ b ∧ A a b ≠ 0 ∧ b ∈ P' := by
    intro a b
    unfold Edge
    have hv := h.val_eq a b
    change m.val a b = _ at hv
    rw [hv, hc, deg_eq h, hme]
    constructor
    · rintro ⟨h1, _, h2, h3⟩; exact ⟨fun e => h1 (congrArg _ e), h2, h3⟩
    · rintro ⟨h1, h2, h3⟩; exact ⟨fun e => h1 (Fin.ext e), b.2, h2, h3⟩
  refine ⟨P', by simpa using e1, hnd', fun i => by rw [hme, degree_pos], fun k hk => ?_⟩
  have hnot : ∀ (q : Nat) (hq : q < P'.length), k ≤ q → ((P'[q] : Fin n) : Nat) ∉ (P'.map Fin.val).take k := by
    intro q hq hkq hin
    obtain ⟨l, hl, he⟩ := List.getElem_of_mem hin
    have hlk : l < k := by simp at hl; omega
    rw [List.getElem_take, List.getElem_map] at he
    have := (List.Nodup.getElem_inj_iff hnd' (hi := by omega) (hj := hq)).1 (Fin.ext he)
    omega
  have htake : ∀ (q : Nat) (hq : q < P'.length) (l : Nat) (_ : l < k), k ≤ q → A (P'[l]'(by omega)) P'[q] ≠ 0 →
      Edge m ((P'[l]'(by omega) : Fin n) : Nat) ((P'[q] : Fin n) : Nat) := by
    intro q hq l hl hkq hne
    refine (hedge _ _).2 ⟨fun e => ?_, hne, List.getElem_mem hq⟩
    have := (List.Nodup.getElem_inj_iff hnd' (hi := by omega) (hj := hq)).1 e
    omega
  rcases cmorder_get e3 k (by simpa using hk) with ⟨l, hl, he, hb⟩ | ⟨h1, h2⟩
  · left
    simp only [List.getElem_map] at he hb
    refine ⟨l, hl, ((hedge _ _).1 he).2.1, fun l' hl' q hq hkq hne => ?_⟩
    have := hb l' hl' _ (htake q hq l' hl' hkq hne) (hnot q hq hkq)
    rwa [pref_iff h] at this
  · right
    simp only [List.getElem_map] at h1 h2
    refine ⟨fun l hl q hq hkq => ?_, fun q hq hkq => ?_⟩
    · by_contra hne
      exact hnot q hq hkq (h1 l hl _ (htake q hq l hl hkq hne))
    · have := h2 _ (by rw [hr]; exact (P'[q]).2) (by
        rw [deg_eq h]; exact (hme _).1 (List.getElem_mem hq)) (hnot q hq hkq)
      rwa [pref_iff h] at this

/-- C63: the numbering is determined by its definition. -/
theorem C63_unique {A : Matrix (Fin n) (Fin n) T} {P Q : List (Fin n)} (hP : P.Nodup) (hQ : Q.Nodup) (hPQ : ∀ i, i ∈ P ↔ i ∈ Q)
    (h1 : IsCuthillMckee A P) (h2 : IsCuthillMckee A Q) : P = Q := by
  have hperm : P.Perm Q := (List.perm_ext_iff_of_nodup hP hQ).2 hPQ
  have hlen := hperm.length_eq
  have anti : ∀ a b : Fin n, Preferred A a b → Preferred A b a → a = b := by
    intro a b hab hba
    unfold Preferred at hab hba
    apply Fin.ext
    simp only [Fin.le_def] at hab hba
    omega
  have key : ∀ k : Nat, k ≤ P.length → P.take k = Q.take k := by
    intro k
    induction k with
    | zero => intro; simp
    | succ k ih =>
      intro hk
      have ih := ih (by omega)
      have hk1 : k < P.length := by omega
      have hk2 : k < Q.length := by omega
      have hget : ∀ (l : Nat) (hl : l < k), P[l] = Q[l] := by
        intro l hl
        have e1 : (P.take k)[l]'(by simp; omega) = P[l] := List.getElem_take ..
        have e2 : (Q.take k)[l]'(by simp; omega) = Q[l] := List.getElem_take ..
        rw [← e1, ← e2]
        simp only [ih]
      have hpos : ∀ {P Q : List (Fin n)} (_ : P.Nodup) (_ : ∀ i, i ∈ P ↔ i ∈ Q) (_ : P.take k = Q.take k) (hk : k < P.length),
          ∃ (q : Nat) (hq : q < Q.length), k ≤ q ∧ Q[q] = P[k] := by
        intro P Q hP hPQ ih hk
        obtain ⟨q, hq, e⟩ := List.getElem_of_mem ((hPQ _).1 (List.getElem_mem hk))
        refine ⟨q, hq, ?_, e⟩
        by_contra hlt
        have hq' : q < k := by omega
        have e1 : (P.take k)[q]'(by simp; omega) = P[q] := List.getElem_take ..
        have e2 : (Q.take k)[q]'(by simp; omega) = Q[q] := List.getElem_take ..
        have : P[q] = P[k] := by
          rw [← e, ← e1, ← e2]
          simp only [ih]
        have := (List.Nodup.getElem_inj_iff hP (hi := by omega) (hj := hk)).1 this
        omega
      obtain ⟨q, hq, hkq, eq⟩ := hpos hP hPQ ih hk1
      obtain ⟨r, hr, hkr, er⟩ := hpos hQ (fun i => (hPQ i).symm) ih.symm hk2
      have hmain : P[k] = Q[k] := by
        rcases h1 k hk1 with ⟨l, hl, a1, b1⟩ | ⟨a1, b1⟩
        · rcases h2 k hk2 with ⟨l', hl', a2, b2⟩ | ⟨a2, b2⟩
          · have c1 := b1 l' hl' r hr hkr (by rw [hget l' hl', er]; exact a2)
            have c2 := b2 l hl q hq hkq (by rw [← hget l hl, eq]; exact a1)
            rw [er] at c1
            rw [eq] at c2
            have : l = l' := by omega
            subst this
            exact anti _ _ (c1.resolve_left (lt_irrefl _)).2 (c2.resolve_left (lt_irrefl _)).2
          · exact absurd (a2 l hl q hq hkq) (by rw [← hget l hl, eq]; exact a1)
        · rcases h2 k hk2 with ⟨l', hl', a2, b2⟩ | ⟨a2, b2⟩
          · exact absurd (a1 l' hl' r hr hkr) (by rw [hget l' hl', er]; exact a2)
          · have c1 := b1 r hr hkr
            have c2 := b2 q hq hkq
            rw [er] at c1
            rw [eq] at c2
            exact anti _ _ c1 c2
      rw [List.take_add_one, List.take_add_one, ih, List.getElem?_eq_getElem hk1, List.getElem?_eq_getElem hk2, hmain]
  have := key P.length (le_refl _)
  rw [List.take_length, hlen, List.take_length] at this
  exact this

/-- the first numbered index with an edge to the index at position `k` -/
def IsParent (A : Matrix (Fin n) (Fin n) T) (P : List (Fin n)) (l k : Nat) : Prop :=
  ∃ (hl : l < k) (hk : k < P.length), A P[l] P[k] ≠ 0 ∧ ∀ (l' : Nat) (h : l' < l), A P[l'] P[k] = 0

/-- C63: the numbering is breadth first: the indices are numbered in the order of their parents, and the children of one parent
in the order of their degrees. -/
theorem C63_breadth_first {A : Matrix (Fin n) (Fin n) T} {P : List (Fin n)} (h : IsCuthillMckee A P)
    {k q l r : Nat} (hkq : k < q) (hk : IsParent A P l k) (hq : IsParent A P r q) :
    ∃ (_ : k < P.length) (_ : q < P.length), l < r ∨ (l = r ∧ Preferred A P[k] P[q]) := by
  obtain ⟨hl, hk', a1, a2⟩ := hk
  obtain ⟨hr, hq', b1, b2⟩ := hq
  refine ⟨hk', hq', ?_⟩
  rcases h k hk' with ⟨l0, h0, c1, c2⟩ | ⟨c1, -⟩
  · have e1 := c2 l hl k hk' (le_refl _) a1
    have : ¬ l0 < l := fun hlt => c1 (a2 l0 hlt)
    have hl0 : l0 = l := by omega
    subst hl0
    rcases Nat.lt_or_ge r k with hrk | hrk
    · exact c2 r hrk q hq' hkq.le b1
    · left; omega
  · exact absurd (c1 l hl k hk' (le_refl _)) a1

/-- C39 (part) and C63: for a square matrix without zero rows `cuthill_mckee` returns a permutation of `0..n-1`, and
that permutation is the Cuthill-McKee numbering.
Missing from C39: matrices with a row without non-zero entries, for which the claim is false
(`C39_empty_row_negation`); `C39_general` says what is returned then. -/
theorem C39_permutation_partial {m : Sparse T} {A : Matrix (Fin n) (Fin n) T} (h : IsMat m n A)
    (hrow : ∀ i, ∃ j, A i j ≠ 0) :
    ∃ p : Equiv.Perm (Fin n), cuthillMckee m = .ok (permList p) ∧ IsCuthillMckee A (List.ofFn p) := by
  obtain ⟨P, e1, e2, e3, e4⟩ := C39_general h
  have hall : ∀ i, i ∈ P := fun i => (e3 i).2 (hrow i)
  have hlen : P.length = n := by
    have : P.toFinset = Finset.univ := by ext i; simp [hall i]
    rw [← List.toFinset_card_of_nodup e2, this, Finset.card_univ, Fintype.card_fin]
  have hi' : ∀ i : Fin n, (i : Nat) < P.length := fun i => by rw [hlen]; exact i.2
  have hinj : Function.Injective (fun i : Fin n => P[(i : Nat)]'(hi' i)) := fun i j hij =>
    Fin.ext ((List.Nodup.getElem_inj_iff e2 (hi := hi' i) (hj := hi' j)).1 hij)
  refine ⟨Equiv.ofBijective _ (Finite.injective_iff_bijective.1 hinj), ?_, ?_⟩
  · rw [e1]
    congr 1
    rw [hlen]
    simp only [Nat.sub_self, List.replicate_zero, List.append_nil]
    unfold permList
    apply List.ext_getElem (by simp [hlen])
    intro i h1 h2
    simp
  · have : List.ofFn (Equiv.ofBijective (fun i : Fin n => P[(i : Nat)]'(hi' i)) (Finite.injective_iff_bijective.1 hinj)) = P := by
      apply List.ext_getElem (by simp [hlen])
      intro i h1 h2
      simp
    rw [this]
    exact e4

theorem C39_notSquare {m : Sparse T} (h : m.rows ≠ m.columns) :
    cuthillMckee m = .error (.exc .notSquare) ∧ rCuthillMckee m = .error (.exc .notSquare) := by
  have : cuthillMckee m = .error (.exc .notSquare) := by
    unfold cuthillMckee
    rw [throwIf_true _ (by simpa using h)]; rfl
  refine ⟨this, ?_⟩
  unfold rCuthillMckee
  rw [this]; rfl

/-- the in-place reversal loop -/
theorem reverse_ok (v : List Nat) :
    (forRange 0 (v.length / 2) v fun i v => do
      let tmp ← vecAt v i
      let o ← vecAt v (v.length - i - 1)
      let v ← vecSet v i o
      vecSet v (v.length - i - 1) tmp) = .ok v.reverse := by
  have := sat_forRange (E := noErr) (f := fun i (v : List Nat) => do
      let tmp ← vecAt v i
      let o ← vecAt v (v.length - i - 1)
      let v ← vecSet v i o
      vecSet v (v.length - i - 1) tmp)
    (fun k (w : List Nat) => w.length = v.length ∧ ∀ j, j < v.length →
      w[j]? = if j < k ∨ v.length - k ≤ j then v[v.length - 1 - j]? else v[j]?)
    (Nat.zero_le (v.length / 2)) (s := v) ⟨rfl, by
      intro j hj
      rw [if_neg (by omega)]⟩ (by
      intro k w _ hk ⟨h1, h2⟩
      have hk2 : k < w.length := by omega
      have hk3 : w.length - k - 1 < w.length := by omega
      rw [vecAt_ok hk2, ok_bind, vecAt_ok hk3, ok_bind, vecSet_ok hk2, ok_bind, vecSet_ok (by simp; omega)]
      refine ⟨by simp [h1], fun j hj => ?_⟩
      have q1 := h2 k (by omega)
      rw [if_neg (by omega)] at q1
      have q2 := h2 (v.length - k - 1) (by omega)
      rw [if_neg (by omega)] at q2
      have q3 := h2 j hj
      simp only [List.length_set, h1]
      rw [List.getElem?_set]
      by_cases c1 : v.length - k - 1 = j
      · rw [if_pos c1, if_pos (by simp; omega), if_pos (by omega), ← List.getElem?_eq_getElem hk2, q1]
        congr 1; omega
      · rw [if_neg c1, List.getElem?_set]
        by_cases c2 : k = j
        · rw [if_pos c2, if_pos (by omega), if_pos (by omega)]
          subst c2
          have : w[w.length - k - 1]? = some w[w.length - k - 1] := List.getElem?_eq_getElem hk3
          simp only [h1] at this
          rw [← this, q2]
          congr 1; omega
        · rw [if_neg c2, q3]
          by_cases c3 : j < k ∨ v.length - k ≤ j
          · rw [if_pos c3, if_pos (by omega)]
          · rw [if_neg c3, if_neg (by omega)])
  obtain ⟨w, e1, e2, e3⟩ := this.ok_of
  rw [e1]
  congr 1
  apply List.ext_getElem?
  intro j
  by_cases hj : j < v.length
  · rw [e3 j hj, List.getElem?_reverse hj]
    split
    · rfl
    · congr 1; omega
  · rw [List.getElem?_eq_none (by omega), List.getElem?_eq_none (by simp; omega)]

/-- C39: `r_cuthill_mckee` returns the reverse of `cuthill_mckee`. -/
theorem C39_reverse (m : Sparse T) :
    rCuthillMckee m = (cuthillMckee m).map List.reverse := by
  unfold rCuthillMckee
  cases h : cuthillMckee m with
  | error e => rfl
  | ok v =>
    simp only [ok_bind]
    have := reverse_ok v
    rw [this]
    rfl

/-- With an empty row the result is not a permutation: `[[1,0],[0,0]]` gives `[0,0]`. -/
def emptyRow : R (Sparse ℚ) := do
  let m ← Sparse.mk' 2 2
  m.set 0 0 1
theorem C39_empty_row_negation : (emptyRow >>= cuthillMckee) = .ok [0, 0] ∧ ¬ ([0, 0] : List Nat).Perm (List.range 2) := by
  constructor <;> decide +kernel

/-- path graph 1 - 0 - 2 -/
def pathGraph : R (Sparse ℚ) := do
  let m ← Sparse.mk' 3 3
  let m ← m.set 0 1 1
  let m ← m.set 1 0 1
  let m ← m.set 0 2 1
  m.set 2 0 1
example : (pathGraph >>= cuthillMckee) = .ok [1, 0, 2] ∧ (pathGraph >>= rCuthillMckee) = .ok [2, 0, 1] := by
  decide +kernel

/-- a graph with two components and ties: edges 0-3, 0-4, 3-1, 4-1 and 2-5; the start has the smallest degree, the neighbours are
listed by degree -/
def twoComp : R (Sparse ℚ) := do
  let m ← Sparse.mk' 6 6
  let m ← m.set 0 3 1
  let m ← m.set 3 0 1
  let m ← m.set 0 4 1
  let m ← m.set 4 0 1
  let m ← m.set 4 4 1
  let m ← m.set 3 1 1
  let m ← m.set 1 3 1
  let m ← m.set 4 1 1
  let m ← m.set 1 4 1
  let m ← m.set 2 5 1
  m.set 5 2 1
example : (twoComp >>= cuthillMckee) = .ok [2, 5, 0, 3, 4, 1] := by decide +kernel

/-! ### C40 -/

/-- C40: `permutation_matrix` of the permutation `σ` is the matrix `P` with `P(i,j) = 1` if `j = σ i`, else 0. -/
theorem C40_permutation_matrix (hn : 0 < n) (σ : Equiv.Perm (Fin n)) :
    ∃ (m : Sparse T) (P : Matrix (Fin n) (Fin n) T), permutationMatrix (permList σ) = .ok m ∧ IsMat m n P ∧ IsPerm σ P ∧
      ∀ v i, (P *ᵥ v) i = v (σ i) := by
  unfold permutationMatrix
  rw [permList_length]
  obtain ⟨m0, a1, a2, a3, a4, a5⟩ := make_ok (M := Sparse T) hn hn
  have a1' : Sparse.mk' n n = .ok m0 := a1
  rw [a1', ok_bind]
  have := sat_forRange (E := noErr) (f := fun i (nm : Sparse T) => do
      let pi ← getIdx (permList σ) i
      nm.set i pi 1)
    (fun k (w : Sparse T) => Valid w ∧ MatOps.rows w = n ∧ MatOps.cols w = n ∧ ∀ i j : Fin n,
      val w i j = if (i : Nat) < k ∧ j = σ i then 1 else 0)
    (Nat.zero_le n) (s := m0) ⟨a2, a3, a4, by intro i j; rw [a5]; simp⟩ (by
      intro k w _ hk ⟨h1, h2, h3, h4⟩
      rw [permList_get σ ⟨k, hk⟩, ok_bind]
      obtain ⟨w', b1, b2, b3, b4, b5⟩ := put_ok (M := Sparse T) (i := k) (j := σ ⟨k, hk⟩) 1 h1 (by omega) (by
        rw [h3]; exact (σ ⟨k, hk⟩).2)
      have b1' : w.set k (σ ⟨k, hk⟩) 1 = .ok w' := b1
      rw [b1']
      refine ⟨b2, by omega, by omega, fun i j => ?_⟩
      rw [b5, h4]
      by_cases hik : (i : Nat) = k
      · have hik' : i = ⟨k, hk⟩ := Fin.ext hik
        subst hik'
        by_cases hj : j = σ ⟨k, hk⟩
        · subst hj; simp
        · have : (j : Nat) ≠ σ ⟨k, hk⟩ := fun e => hj (Fin.ext e)
          simp [this, hj]
      · simp only [hik, false_and, if_false]
        have : ((i : Nat) < k) ↔ ((i : Nat) < k + 1) := by omega
        simp only [this])
  obtain ⟨m, e1, e2, e3, e4, e5⟩ := this.ok_of
  refine ⟨m, fun i j => if j = σ i then 1 else 0, e1, ⟨e2, e3, e4, fun i j => ?_⟩, fun i j => rfl, fun v i => ?_⟩
  · rw [get_ok e2 (by rw [e3]; exact i.2) (by rw [e4]; exact j.2), e5]
    simp
  · simp [Matrix.mulVec, dotProduct]

/-- an index outside the range makes `permutation_matrix` stop with a failed assertion -/
theorem C40_out_of_range {p : List Nat} (h : ∃ x ∈ p, p.length ≤ x) :
    permutationMatrix (T := T) p = .error .abort ∧ inversePermutation p = .error .abort := by
  obtain ⟨x, hx, hpx⟩ := h
  have hn : 0 < p.length := List.length_pos_of_mem hx
  obtain ⟨q, hq, rfl⟩ := List.getElem_of_mem hx
  constructor
  · unfold permutationMatrix
    obtain ⟨m0, a1, a2, a3, a4, a5⟩ := make_ok (M := Sparse T) hn hn
    have a1' : Sparse.mk' p.length p.length = .ok m0 := a1
    rw [a1', ok_bind]
    have := sat_forRange (E := fun e => e = .abort) (f := fun i (nm : Sparse T) => do
      let pi ← getIdx p i
      nm.set i pi 1)
      (fun k (w : Sparse T) => Valid w ∧ MatOps.rows w = p.length ∧ MatOps.cols w = p.length ∧ k ≤ q)
      (Nat.zero_le p.length) (s := m0) ⟨a2, a3, a4, by omega⟩ (by
        intro k w _ hk ⟨h1, h2, h3, h4⟩
        rw [getIdx_eq hk, ok_bind]
        by_cases hkr : p[k] < p.length
        · obtain ⟨w', b1, b2, b3, b4, b5⟩ := put_ok (M := Sparse T) (i := k) (j := p[k]) 1 h1 (by omega) (by omega)
          have b1' : w.set k p[k] 1 = .ok w' := b1
          rw [b1']
          refine ⟨b2, by omega, by omega, ?_⟩
          by_contra hc
          have : k = q := by omega
          subst this
          omega
        · have h3' : w.columns = p.length := h3
          have h2' : w.rows = p.length := h2
          have : w.set k p[k] 1 = .error .abort := by
            unfold Sparse.set
            rw [assert_true (by rw [h2']; omega), ok_bind, assert_false (by rw [h3']; omega)]; rfl
          rw [this]; exact rfl)
    rcases hres : forRange 0 p.length m0 (fun i (nm : Sparse T) => do
      let pi ← getIdx p i
      nm.set i pi 1) with e | w
    · rw [this.of_error hres]
    · exact absurd (this.of_ok hres).2.2.2 (by omega)
  · unfold inversePermutation
    rw [Vec.mk_ok, ok_bind]
    have := sat_forRange (E := fun e => e = .abort) (f := fun i (np : List Nat) => do
      let pi ← getIdx p i
      vecSet np pi i)
      (fun k (w : List Nat) => w.length = p.length ∧ k ≤ q)
      (Nat.zero_le p.length) (s := List.replicate p.length 0) ⟨by simp, by omega⟩ (by
        intro k w _ hk ⟨h1, h4⟩
        rw [getIdx_eq hk, ok_bind]
        by_cases hkr : p[k] < p.length
        · rw [vecSet_ok (by omega)]
          refine ⟨by simp [h1], ?_⟩
          by_contra hc
          have : k = q := by omega
          subst this
          omega
        · rw [vecSet_abort (by omega)]; exact rfl)
    rcases hres : forRange 0 p.length (List.replicate p.length 0) (fun i (np : List Nat) => do
      let pi ← getIdx p i
      vecSet np pi i) with e | w
    · rw [this.of_error hres]
    · exact absurd (this.of_ok hres).2 (by omega)

/-- scattering `g i` to position `σ i` -/
theorem scatter_ok {α : Type} (σ : Equiv.Perm (Fin n)) (g : Fin n → α) (v0 : List α) (h0 : v0.length = n)
    (body : Nat → List α → R (List α))
    (hb : ∀ (i : Fin n) (w : List α), body i w = vecSet w (σ i) (g i)) :
    forRange 0 n v0 body = .ok (List.ofFn fun i => g (σ.symm i)) := by
  have := sat_forRange (E := noErr) (f := body)
    (fun k (w : List α) => w.length = n ∧ ∀ i : Fin n, (i : Nat) < k → w[((σ i : Fin n) : Nat)]? = some (g i))
    (Nat.zero_le n) (s := v0) ⟨h0, by simp⟩ (by
      intro k w _ hk ⟨h1, h2⟩
      rw [hb ⟨k, hk⟩ w, vecSet_ok (by rw [h1]; exact (σ ⟨k, hk⟩).2)]
      refine ⟨by simp [h1], fun i hi => ?_⟩
      rw [List.getElem?_set]
      by_cases c : (i : Nat) = k
      · have : i = ⟨k, hk⟩ := Fin.ext c
        subst this
        rw [if_pos rfl, if_pos (by rw [h1]; exact (σ _).2)]
      · rw [if_neg, h2 i (by omega)]
        intro e
        have := σ.injective (Fin.ext e)
        exact c (congrArg Fin.val this).symm)
  obtain ⟨w, e1, e2, e3⟩ := this.ok_of
  rw [e1]
  congr 1
  apply List.ext_getElem
  · simp [e2]
  · intro j h1 h2
    have hj : j < n := by omega
    have := e3 (σ.symm ⟨j, hj⟩) (σ.symm ⟨j, hj⟩).2
    simp only [Equiv.apply_symm_apply] at this
    rw [List.getElem?_eq_getElem h1] at this
    simpa using this

/-- C40: `inverse_permutation` of `σ` is the inverse permutation. -/
theorem C40_inverse_permutation (σ : Equiv.Perm (Fin n)) :
    inversePermutation (permList σ) = .ok (permList σ.symm) := by
  unfold inversePermutation
  rw [permList_length, Vec.mk_ok, ok_bind]
  refine scatter_ok σ (fun i => (i : Nat)) _ (by simp) _ ?_
  intro i w
  rw [permList_get, ok_bind]

/-- C40: `permutate(A, p)` is `P * A * P^T`, that is entry `(i,j)` is `A(p i, p j)`. -/
theorem C40_permutate_matrix {m : Sparse T} {A : Matrix (Fin n) (Fin n) T} (h : IsMat m n A) (σ : Equiv.Perm (Fin n)) :
    ∃ r P, permutateMat m (permList σ) = .ok r ∧ IsPerm σ P ∧ IsMat r n (P * A * Pᵀ) ∧
      ∀ i j, (P * A * Pᵀ) i j = A (σ i) (σ j) := by
  have hr : m.rows = n := h.2.1
  have hc : m.columns = n := h.2.2.1
  have hn : 0 < n := by rw [← hr]; exact rows_pos h.1
  obtain ⟨pm, P, p1, p2, p3, _⟩ := C40_permutation_matrix (T := T) hn σ
  unfold permutateMat
  rw [throwIf_false _ (by rw [hr, hc]; simp), ok_bind, throwIf_false _ (by rw [hr, permList_length]; simp), ok_bind,
    p1, ok_bind]
  obtain ⟨pt, t1, t2, t3, t4, t5⟩ := transpose_ok p2.1
  rw [p2.2.1] at t4 t5
  rw [p2.2.2.1] at t3 t5
  have t1' : pm.transpose = .ok pt := t1
  obtain ⟨x, x1, x2, x3, x4, x5⟩ := mul_ok h.1 t2 (by rw [h.2.2.1, t3])
  have x1' : m.mul pt = .ok x := x1
  rw [h.2.1] at x3 x5
  rw [t4] at x4 x5
  rw [h.2.2.1] at x5
  obtain ⟨y, y1, y2, y3, y4, y5⟩ := mul_ok p2.1 x2 (by rw [p2.2.2.1, x3])
  have y1' : pm.mul x = .ok y := y1
  rw [p2.2.1] at y3 y5
  rw [x4] at y4 y5
  rw [p2.2.2.1] at y5
  rw [t1', ok_bind, x1', ok_bind]
  refine ⟨y, P, y1', p3, ⟨y2, y3, y4, fun i j => ?_⟩, fun i j => ?_⟩
  · rw [get_ok y2 (by rw [y3]; exact i.2) (by rw [y4]; exact j.2), y5 i j i.2 j.2, Matrix.mul_assoc, Matrix.mul_apply,
      Finset.sum_range]
    congr 1
    refine Finset.sum_congr rfl (fun k _ => ?_)
    rw [p2.val_eq, x5 k j k.2 j.2, Matrix.mul_apply, Finset.sum_range]
    congr 1
    refine Finset.sum_congr rfl (fun l _ => ?_)
    rw [h.val_eq, t5 l j l.2 j.2, p2.val_eq, Matrix.transpose_apply]
  · simp only [Matrix.mul_apply, Matrix.transpose_apply, p3 _ _]
    simp

theorem C40_permutate_matrix_shape (m : Sparse T) (p : List Nat) :
    (m.rows ≠ m.columns → permutateMat m p = .error (.exc .notSquare)) ∧
    (m.rows = m.columns → m.rows ≠ p.length → permutateMat m p = .error (.exc .matrixMulMismatch)) := by
  constructor
  · intro h; unfold permutateMat; rw [throwIf_true _ (by simpa using h)]; rfl
  · intro h h'
    unfold permutateMat
    rw [throwIf_false _ (by simpa using h), ok_bind, throwIf_true _ (by simpa using h')]; rfl

/-- C40: what `permutate(v, p)` really computes: entry `p i` of the result is `v i`, i.e. the result is `P^T * v`. -/
theorem C40_permutate_vector {v : List T} {x : Fin n → T} (h : IsVec v n x) (σ : Equiv.Perm (Fin n)) :
    ∃ r, permutateVec v (permList σ) = .ok r ∧ IsVec r n (fun i => x (σ.symm i)) := by
  refine ⟨List.ofFn fun i => x (σ.symm i), ?_, isVec_ofFn _⟩
  unfold permutateVec
  rw [throwIf_false _ (by rw [h.1, permList_length]; simp), ok_bind, h.1, Vec.mk_ok, ok_bind]
  refine scatter_ok σ x _ (by simp) _ ?_
  intro i w
  have hi : (i : Nat) < v.length := by rw [h.1]; exact i.2
  have := h.2 i
  rw [vecAt_ok hi] at this
  rw [permList_get, ok_bind, getIdx_eq hi, ok_bind, Except.ok.inj this]

/-- C40 (part): `permutate(v,p) = P*v` for involutions.
Missing: other permutations, for which it is false (`C40_permutate_vector_negation`). -/
theorem C40_permutate_vector_partial {v : List T} {x : Fin n → T} (h : IsVec v n x) (σ : Equiv.Perm (Fin n))
    (hσ : ∀ i, σ (σ i) = i) {P : Matrix (Fin n) (Fin n) T} (hP : IsPerm σ P) :
    ∃ r, permutateVec v (permList σ) = .ok r ∧ IsVec r n (P *ᵥ x) := by
  obtain ⟨r, e1, e2⟩ := C40_permutate_vector h σ
  refine ⟨r, e1, ?_⟩
  convert e2 using 1
  ext i
  have : σ.symm i = σ i := by rw [Equiv.symm_apply_eq, hσ]
  rw [this]
  simp [Matrix.mulVec, dotProduct, hP _ _]

/-- C40: permuting with the inverse permutation gives `P*v` for every permutation. -/
theorem C40_permutate_inverse {v : List T} {x : Fin n → T} (h : IsVec v n x) (σ : Equiv.Perm (Fin n))
    {P : Matrix (Fin n) (Fin n) T} (hP : IsPerm σ P) :
    ∃ q r, inversePermutation (permList σ) = .ok q ∧ permutateVec v q = .ok r ∧ IsVec r n (P *ᵥ x) := by
  obtain ⟨r, e1, e2⟩ := C40_permutate_vector h σ.symm
  refine ⟨_, r, C40_inverse_permutation σ, e1, ?_⟩
  convert e2 using 1
  ext i
  simp [Matrix.mulVec, dotProduct, hP _ _]

/-- C40: the reordering workflow: if `y` solves the permuted system `permutate(A,p) y = permutate(b, inverse p)`, then
`permutate(y, p)` solves `A x = b`. -/
theorem C40_workflow {m : Sparse T} {A : Matrix (Fin n) (Fin n) T} (h : IsMat m n A) {b : List T} {bv : Fin n → T}
    (hb : IsVec b n bv) (σ : Equiv.Perm (Fin n)) :
    ∃ q pm pb, inversePermutation (permList σ) = .ok q ∧ permutateMat m (permList σ) = .ok pm ∧
      permutateVec b q = .ok pb ∧ ∃ (B : Matrix (Fin n) (Fin n) T) (c : Fin n → T), IsMat pm n B ∧ IsVec pb n c ∧
      ∀ (y : List T) (yv : Fin n → T), IsVec y n yv → B *ᵥ yv = c →
        ∃ x xv, permutateVec y (permList σ) = .ok x ∧ IsVec x n xv ∧ A *ᵥ xv = bv := by
  obtain ⟨pm, P, e1, e2, e3, e4⟩ := C40_permutate_matrix h σ
  obtain ⟨pb, f1, f2⟩ := C40_permutate_vector hb σ.symm
  refine ⟨_, pm, pb, C40_inverse_permutation σ, e1, f1, _, _, e3, f2, fun y yv hy hs => ?_⟩
  obtain ⟨x, g1, g2⟩ := C40_permutate_vector hy σ
  refine ⟨x, _, g1, g2, ?_⟩
  ext i
  have := congrFun hs (σ.symm i)
  simp only [Equiv.symm_symm, Equiv.apply_symm_apply] at this
  rw [← this]
  simp only [Matrix.mulVec, dotProduct, e4]
  rw [← Equiv.sum_comp σ]
  simp

theorem C40_permutate_vector_shape (v : List T) (p : List Nat) (h : v.length ≠ p.length) :
    permutateVec v p = .error (.exc .vectorSizeMismatch) := by
  unfold permutateVec; rw [throwIf_true _ (by simpa using h)]; rfl

/-- for the 3-cycle `p = (1,2,0)` the product `P*v` and `permutate(v,p)` differ -/
theorem C40_permutate_vector_negation :
    permutateVec (T := ℚ) [10, 20, 30] [1, 2, 0] = .ok [30, 10, 20] ∧
    (permutationMatrix (T := ℚ) [1, 2, 0] >>= fun P => P.mulVec [10, 20, 30]) = .ok [20, 30, 10] := by
  constructor <;> decide +kernel

example : permList (finRotate 3) = [1, 2, 0] := by decide
example : (pathGraph >>= fun m => permutateMat m [1, 0, 2] >>= fun r => r.at' 1 2) = .ok 1 := by decide +kernel
end NS.Props.Order

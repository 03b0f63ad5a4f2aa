/-
Property theorems C83: what is printed for a vector or a matrix can be read back.
-/
import Verif.PrintModel
import Verif.Props.Vtk
import Verif.Props.LU

set_option linter.unusedSectionVars false
set_option linter.unusedSimpArgs false

namespace NS.Props.Print
open NS NS.Vtk NS.Print NS.MatOps NS.LawfulStore
open NS.Props.Vtk (split words split_line split_last decimal decimal_showNat forRange_text showNat_char word_showNat)
variable {T : Type}

/-! ### Readers -/

/-- the words between the brackets -/
def inside (t : Text) : Option (List Text) :=
  match words t with
  | ['['] :: l => if l.getLast? = some [']'] then some l.dropLast else none
  | _ => none

/-- the rows of a matrix: groups of words separated by `|` -/
def groups : List Text → List (List Text)
  | [] => [[]]
  | w :: l =>
    if w = ['|'] then [] :: groups l
    else match groups l with
      | [] => [[w]]
      | g :: gs => (w :: g) :: gs

def readMatrix (t : Text) : Option (List (List Text)) := (inside t).map groups

/-- remove the last character, which must be `c` -/
def dropEnd (c : Char) (w : Text) : Option Text := if w.getLast? = some c then some w.dropLast else none

/-- triples `(row, column; value)` -/
def triples : List Text → Option (List (Nat × Nat × Text))
  | [] => some []
  | ('(' :: a) :: b :: c :: l => do
    let a ← dropEnd ',' a
    let b ← dropEnd ';' b
    let c ← dropEnd ')' c
    let r ← triples l
    return (decimal a, decimal b, c) :: r
  | _ => none

def readSparse (t : Text) : Option (List (Nat × Nat × Text)) := (inside t).bind triples

/-- numbers are printed without blanks -/
def Solid (t : Text) : Prop := t ≠ [] ∧ ' ' ∉ t

/-! ### Proofs -/

theorem words_solid {ws : List Text} {x : Text} (h : ∀ x ∈ ws, Solid x) (hx : Solid x) : words (ws.flatMap (· ++ sp) ++ x) = ws ++ [x] := by
  have : ∀ ws : List Text, (∀ x ∈ ws, Solid x) → split ' ' (ws.flatMap (· ++ sp) ++ x) = ws ++ [x] := by
    intro ws
    induction ws with
    | nil => intro _; exact split_last hx.2
    | cons l ls ih =>
      intro h
      rw [List.flatMap_cons, List.append_assoc, List.append_assoc]
      show split ' ' (l ++ ' ' :: (ls.flatMap (· ++ sp) ++ x)) = _
      rw [split_line (h l (by simp)).2, ih (fun x hx => h x (by simp [hx]))]
      rfl
  unfold words
  rw [this ws h, List.filter_eq_self]
  intro y hy
  rcases List.mem_append.1 hy with hy | hy
  · simpa using (h y hy).1
  · rw [List.mem_singleton] at hy; rw [hy]; simpa using hx.1

theorem solid_close : Solid (str "]") := ⟨by decide, by decide⟩

theorem inside_of {ws : List Text} (h : ∀ x ∈ ws, Solid x) : inside (str "[ " ++ ws.flatMap (· ++ sp) ++ str "]") = some ws := by
  have hw : words (str "[ " ++ ws.flatMap (· ++ sp) ++ str "]") = ['['] :: (ws ++ [[']']]) :=
    words_solid (ws := ['['] :: ws) (x := str "]") (fun x hx => by
      rcases List.mem_cons.1 hx with rfl | hx
      · exact ⟨by decide, by decide⟩
      · exact h x hx) solid_close
  unfold inside
  rw [hw]
  simp

variable {showT : T → Text} (hT : ∀ t, Solid (showT t))

include hT in
/-- C83: the words between the brackets are the values of the vector in order -/
theorem C83_vector (v : List T) : ∃ t, vecText showT v = .ok t ∧ inside t = some (v.map showT) := by
  unfold vecText
  rcases v with _ | ⟨a, v'⟩
  · exact ⟨_, rfl, inside_of (ws := []) (by simp)⟩
  generalize hv : a :: v' = v
  have h := forRange_text (f := fun i out => do
    let x ← vecAt v i
    return out ++ (showT x ++ sp)) (g := fun i => showT (v.getD i a) ++ sp) v.length 0 (fun i _ hi out => by
      rw [Nat.zero_add] at hi
      have : vecAt v i = .ok (v.getD i a) := by
        unfold vecAt
        rw [assert_true hi, ok_bind, getIdx_of_some (a := v.getD i a) (by simp [hi])]
      rw [this]; rfl) (str "[ ")
  rw [Nat.zero_add] at h
  rw [h, ok_bind]
  have e : (List.range' 0 v.length).flatMap (fun i => showT (v.getD i a) ++ sp) = (v.map showT).flatMap (· ++ sp) := by
    have e' : v = (List.range' 0 v.length).map (fun i => v.getD i a) := by
      refine List.ext_getElem (by simp) fun i h1 h2 => ?_
      simp [h1]
    conv_rhs => rw [e']
    rw [List.map_map, List.flatMap_map]
    rfl
  rw [e]
  exact ⟨_, rfl, inside_of fun x hx => by obtain ⟨y, -, rfl⟩ := List.mem_map.1 hx; exact hT y⟩

/-- C83: vectors that are printed alike are equal -/
theorem C83_vector_injective (hT : ∀ t, Solid (showT t)) (hi : Function.Injective showT) {v v' : List T} (h : vecText showT v = vecText showT v') : v = v' := by
  obtain ⟨t, h1, h2⟩ := C83_vector hT v
  obtain ⟨t', h1', h2'⟩ := C83_vector hT v'
  rw [h1, h1'] at h
  obtain rfl := Except.ok.inj h
  rw [h2] at h2'
  exact List.map_injective_iff.2 hi (Option.some.inj h2')

/-! #### Matrices -/

/-- words with `|` between the rows -/
def joined : List (List Text) → List Text
  | [] => []
  | [r] => r
  | r :: rs => r ++ ['|'] :: joined rs

theorem groups_row {r : List Text} (h : ∀ x ∈ r, x ≠ ['|']) : groups r = [r] := by
  induction r with
  | nil => rfl
  | cons a r ih => rw [groups, if_neg (h a (by simp)), ih fun x hx => h x (by simp [hx])]

theorem groups_rows {r : List Text} (h : ∀ x ∈ r, x ≠ ['|']) (l : List Text) : groups (r ++ ['|'] :: l) = r :: groups l := by
  induction r with
  | nil => simp [groups]
  | cons a r ih => rw [List.cons_append, groups, if_neg (h a (by simp)), ih fun x hx => h x (by simp [hx])]

theorem groups_joined {rs : List (List Text)} (hne : rs ≠ []) (h : ∀ r ∈ rs, ∀ x ∈ r, x ≠ ['|']) : groups (joined rs) = rs := by
  induction rs with
  | nil => exact absurd rfl hne
  | cons r rs ih =>
    rcases rs with _ | ⟨r', rs⟩
    · exact groups_row (h r (by simp))
    · rw [joined, groups_rows (h r (by simp)), ih (by simp) fun x hx => h x (by simp [hx])]
      simp

variable [CommRing T] [DecidableEq T] {M : Type} [MatOps M T] [LawfulStore M T]

/-- the rows of a matrix -/
def rowsOf (r c : Nat) (A : Nat → Nat → T) : List (List T) := (List.range r).map fun i => (List.range c).map (A i)

theorem joined_range (g : Nat → List Text) (n a : Nat) : ((List.range' a n).flatMap fun i => g i ++ if i ≠ a + n - 1 then [['|']] else []) =
    joined ((List.range' a n).map g) := by
  induction n generalizing a with
  | zero => rfl
  | succ n ih =>
    have := ih (a + 1)
    rw [show a + 1 + n - 1 = a + (n + 1) - 1 by omega] at this
    rw [List.range'_succ, List.flatMap_cons, this, List.map_cons]
    rcases n with _ | n
    · simp [joined]
    · rw [if_pos (by omega), List.range'_succ, List.map_cons]
      show _ = g a ++ ['|'] :: joined (g (a + 1) :: (List.range' (a + 1 + 1) n).map g)
      simp

include hT in
/-- C83: the rows of the matrix, separated by `|` -/
theorem C83_matrix (hb : ∀ t, showT t ≠ ['|']) {m : M} (hm : Valid m) :
    ∃ t, matText showT m = .ok t ∧ readMatrix t = some ((rowsOf (rows m) (cols m) (val m)).map (·.map showT)) := by
  have hr := rows_pos hm
  have hw : wsub (rows m) 1 = rows m - 1 := by rw [wsub, if_pos (by omega)]
  let row : Nat → List Text := fun i => ((List.range (cols m)).map (val m i)).map showT
  have h : matText showT m = .ok (str "[ " ++ (joined ((List.range (rows m)).map row)).flatMap (· ++ sp) ++ str "]") := by
    unfold matText
    have h1 := forRange_text (f := fun i out => do
      let out ← forRange 0 (cols m) out fun j out => do
        let x ← get m i j
        return out ++ (showT x ++ sp)
      return if i ≠ wsub (rows m) 1 then out ++ str "| " else out)
      (g := fun i => (row i ++ if i ≠ 0 + rows m - 1 then [['|']] else []).flatMap (· ++ sp)) (rows m) 0 (fun i _ hi out => by
        rw [Nat.zero_add] at hi
        have h2 := forRange_text (f := fun j out => do
          let x ← get m i j
          return out ++ (showT x ++ sp)) (g := fun j => showT (val m i j) ++ sp) (cols m) 0 (fun j _ hj out => by
            rw [get_ok hm hi (by omega)]; rfl) out
        rw [Nat.zero_add] at h2
        rw [h2, ok_bind, hw, Nat.zero_add, ← List.range_eq_range']
        have e : (List.range (cols m)).flatMap (fun j => showT (val m i j) ++ sp) = (row i).flatMap (· ++ sp) := by
          simp only [row, List.map_map, List.flatMap_map, Function.comp_def]
        rw [e]
        split
        · rw [List.flatMap_append]; simp only [List.append_assoc, List.flatMap_cons, List.flatMap_nil, List.append_nil]; rfl
        · simp [pure, Except.pure]) (str "[ ")
    rw [Nat.zero_add] at h1
    rw [h1, ok_bind]
    have h3 := joined_range row (rows m) 0
    rw [Nat.zero_add] at h3
    rw [← List.flatMap_assoc, h3, List.range_eq_range']
    rfl
  refine ⟨_, h, ?_⟩
  have hrow : ∀ i, ∀ x ∈ row i, Solid x ∧ x ≠ ['|'] := by
    intro i x hx
    obtain ⟨y, -, rfl⟩ := List.mem_map.1 hx
    exact ⟨hT y, hb y⟩
  have hj : ∀ rs : List (List Text), (∀ r ∈ rs, ∀ x ∈ r, Solid x) → ∀ x ∈ joined rs, Solid x := by
    intro rs
    induction rs with
    | nil => intro _ x hx; simp [joined] at hx
    | cons r rs ih =>
      intro hrs x hx
      rcases rs with _ | ⟨r', rs⟩
      · exact hrs r (by simp) x hx
      · rw [joined, List.mem_append, List.mem_cons] at hx
        rcases hx with hx | rfl | hx
        · exact hrs r (by simp) x hx
        · exact ⟨by decide, by decide⟩
        · exact ih (fun q hq => hrs q (by simp [hq])) x hx
        · simp
  unfold readMatrix
  rw [inside_of (hj _ fun r hr x hx => by obtain ⟨i, -, rfl⟩ := List.mem_map.1 hr; exact (hrow i x hx).1), Option.map_some,
    groups_joined (by simp; omega) fun r hr x hx => by obtain ⟨i, -, rfl⟩ := List.mem_map.1 hr; exact (hrow i x hx).2]
  simp only [row, rowsOf, List.map_map, Function.comp_def]

/-- C83: matrices that are printed alike have the same shape and entries -/
theorem C83_matrix_injective (hT : ∀ t, Solid (showT t)) (hb : ∀ t, showT t ≠ ['|']) (hi : Function.Injective showT) {m m' : M} (hm : Valid m) (hm' : Valid m')
    (h : matText showT m = matText showT m') : rows m = rows m' ∧ cols m = cols m' ∧ ∀ i j, val m i j = val m' i j := by
  obtain ⟨t, h1, h2⟩ := C83_matrix hT hb hm
  obtain ⟨t', h1', h2'⟩ := C83_matrix hT hb hm'
  rw [h1, h1'] at h
  obtain rfl := Except.ok.inj h
  rw [h2] at h2'
  have he := List.map_injective_iff.2 (List.map_injective_iff.2 hi) (Option.some.inj h2')
  have hr : rows m = rows m' := by simpa [rowsOf] using congrArg List.length he
  have hrow : ∀ i < rows m, (List.range (cols m)).map (val m i) = (List.range (cols m')).map (val m' i) := by
    intro i hi
    have := congrArg (·[i]?) he
    simpa [rowsOf, hi, hr ▸ hi] using this
  have hc : cols m = cols m' := by simpa using congrArg List.length (hrow 0 (rows_pos hm))
  refine ⟨hr, hc, fun i j => ?_⟩
  by_cases hij : i < rows m ∧ j < cols m
  · have := congrArg (·[j]?) (hrow i hij.1)
    simpa [hij.2, hc ▸ hij.2] using this
  · rw [val_zero hm hij, val_zero hm' (by rw [← hr, ← hc]; exact hij)]

/-! #### Sparse matrices -/

theorem dropEnd_append (c : Char) (w : Text) : dropEnd c (w ++ [c]) = some w := by simp [dropEnd]

theorem triples_cons (a b c : Text) (l : List Text) : triples (('(' :: (a ++ [','])) :: (b ++ [';']) :: (c ++ [')']) :: l) =
    (triples l).map ((decimal a, decimal b, c) :: ·) := by
  rw [triples, dropEnd_append, dropEnd_append, dropEnd_append]
  rcases triples l with _ | r <;> rfl

theorem triples_map (l : List (Nat × Nat × T)) : triples (l.flatMap fun e => ['(' :: (showNat e.1 ++ [',']), showNat e.2.1 ++ [';'], showT e.2.2 ++ [')']]) =
    some (l.map fun e => (e.1, e.2.1, showT e.2.2)) := by
  induction l with
  | nil => rfl
  | cons e l ih =>
    rw [List.flatMap_cons]
    show triples (('(' :: (showNat e.1 ++ [','])) :: (showNat e.2.1 ++ [';']) :: (showT e.2.2 ++ [')']) :: _) = _
    rw [triples_cons]
    show Option.map _ (triples (l.flatMap _)) = _
    rw [ih]
    simp [decimal_showNat]

theorem solid_showNat (n : Nat) : ' ' ∉ showNat n := fun h => ((word_showNat n).2 _ h).1 rfl

include hT in
/-- C83: the printed triples are the non-zero entries in row-major order -/
theorem C83_sparse [NoZeroDivisors T] {s : Sparse T} (h : Sparse.Reach s) {r c : Nat} {A : Nat → Nat → T} (hA : Props.Sparse.Shows s r c A) :
    ∃ (t : Text) (l : List (Nat × Nat × T)), sparseText showT s = .ok t ∧ readSparse t = some (l.map fun e => (e.1, e.2.1, showT e.2.2)) ∧ l.Pairwise Props.Sparse.Before ∧
      ∀ i j v, (i, j, v) ∈ l ↔ i < r ∧ j < c ∧ A i j = v ∧ v ≠ 0 := by
  obtain ⟨l, h1, -, h3, h4⟩ := Props.Sparse.C03_iteration h hA
  unfold sparseText
  rw [h1, ok_bind]
  refine ⟨_, l, rfl, ?_, h3, h4⟩
  have key : ∀ (l : List (Nat × Nat × T)) (out : Text), l.foldl (fun out e => out ++ (str "(" ++ showNat e.1 ++ str ", " ++ showNat e.2.1 ++ str "; " ++ showT e.2.2 ++ str ") ")) out =
      out ++ (l.flatMap fun e => ['(' :: (showNat e.1 ++ [',']), showNat e.2.1 ++ [';'], showT e.2.2 ++ [')']]).flatMap (· ++ sp) := by
    intro l
    induction l with
    | nil => intro out; simp
    | cons e l ih =>
      intro out
      rw [List.foldl_cons, ih]
      simp [sp]
      rfl
  unfold readSparse
  rw [key, inside_of ?_, Option.bind_some, triples_map]
  intro x hx
  rw [List.mem_flatMap] at hx
  obtain ⟨e, -, hx⟩ := hx
  simp only [List.mem_cons, List.not_mem_nil, or_false] at hx
  rcases hx with rfl | rfl | rfl
  · exact ⟨by simp, by simp [solid_showNat]⟩
  · exact ⟨by simp, by simp [solid_showNat]⟩
  · exact ⟨by simp, by simp [(hT e.2.2).2]⟩

/-- C83: sparse matrices of the same shape that are printed alike have the same entries -/
theorem C83_sparse_injective [NoZeroDivisors T] (hT : ∀ t, Solid (showT t)) (hi : Function.Injective showT) {s s' : Sparse T} (h : Sparse.Reach s) (h' : Sparse.Reach s') {r c : Nat}
    {A A' : Nat → Nat → T} (hA : Props.Sparse.Shows s r c A) (hA' : Props.Sparse.Shows s' r c A') (he : sparseText showT s = sparseText showT s') :
    ∀ i < r, ∀ j < c, A i j = A' i j := by
  obtain ⟨t, l, h1, h2, -, h4⟩ := C83_sparse hT h hA
  obtain ⟨t', l', h1', h2', -, h4'⟩ := C83_sparse hT h' hA'
  rw [h1, h1'] at he
  obtain rfl := Except.ok.inj he
  rw [h2] at h2'
  have hll : l = l' := by
    refine List.map_injective_iff.2 ?_ (Option.some.inj h2')
    rintro ⟨a, b, x⟩ ⟨a', b', x'⟩ hx
    simp only [Prod.mk.injEq] at hx ⊢
    exact ⟨hx.1, hx.2.1, hi hx.2.2⟩
  intro i hir j hjc
  have e := h4 i j (A i j)
  have e' := h4' i j (A' i j)
  have f := h4 i j (A' i j)
  have f' := h4' i j (A i j)
  rw [hll] at e f
  by_cases h0 : A i j = 0
  · by_cases h0' : A' i j = 0
    · rw [h0, h0']
    · exact (f.1 (e'.2 ⟨hir, hjc, rfl, h0'⟩)).2.2.1
  · exact (f'.1 (e.2 ⟨hir, hjc, rfl, h0⟩)).2.2.1.symm

/-! ### Examples -/

theorem solid_of_word {t : Text} (h : Props.Vtk.Word t) : Solid t := ⟨h.1, fun hc => (h.2 _ hc).1 rfl⟩

/-- a printer that satisfies the hypotheses -/
def showI (q : ℤ) : Text := (if q < 0 then str "-" else []) ++ showNat q.natAbs

theorem showI_solid (q : ℤ) : Solid (showI q) := by
  unfold showI
  refine ⟨by simp [(word_showNat _).1], ?_⟩
  rw [List.mem_append, not_or]
  exact ⟨by split <;> decide, solid_showNat _⟩

theorem showI_injective : Function.Injective showI := by
  have hne : ∀ (n m : Nat), '-' :: showNat n ≠ showNat m := by
    intro n m h
    have : '-' ∈ showNat m := by rw [← h]; simp
    exact showNat_char this (fun c => c ≠ '-') (by decide) (by decide) (by decide) (by decide) (by decide) (by decide) (by decide) (by decide) (by decide) (by decide) rfl
  have hs : ∀ n m, showNat n = showNat m → n = m := fun n m h => by rw [← decimal_showNat n, h, decimal_showNat]
  intro a b h
  unfold showI at h
  split at h <;> split at h
  · have := hs _ _ (List.append_cancel_left h); omega
  · exact absurd h (hne _ _)
  · exact absurd h.symm (hne _ _)
  · have := hs _ _ h; omega

theorem showI_bar (q : ℤ) : showI q ≠ ['|'] := by
  unfold showI
  intro h
  have : '|' ∈ showNat q.natAbs := by
    have hm : '|' ∈ ((if q < 0 then str "-" else []) ++ showNat q.natAbs) := by rw [h]; simp
    rcases List.mem_append.1 hm with hm | hm
    · split at hm
      · exact absurd hm (by decide)
      · simp at hm
    · exact hm
  exact showNat_char this (fun c => c ≠ '|') (by decide) (by decide) (by decide) (by decide) (by decide) (by decide) (by decide) (by decide) (by decide) (by decide) rfl

example : vecText showI [3, -12, 0] = .ok (str "[ 3 -12 0 ]") := by decide +kernel
example : (do let m ← (MatOps.make 2 2 : R (Dense ℤ)); let m ← put m 0 1 7; matText showI m) = .ok (str "[ 0 7 | 0 0 ]") := by decide +kernel
example : (do let m ← (MatOps.make 2 3 : R (Sparse ℤ)); let m ← put m 1 2 (-7); let m ← put m 0 1 5; sparseText showI m) = .ok (str "[ (0, 1; 5) (1, 2; -7) ]") := by
  decide +kernel

/-- C83 (negation of "the text determines the sparse matrix"): the shape is not printed -/
theorem C83_sparse_shape : ∃ s s' : Sparse ℤ, Sparse.mk' 2 3 = .ok s ∧ Sparse.mk' 1 1 = .ok s' ∧ sparseText showI s = sparseText showI s' ∧ s.rows ≠ s'.rows :=
  ⟨_, _, rfl, rfl, by decide +kernel, by decide +kernel⟩

end NS.Props.Print

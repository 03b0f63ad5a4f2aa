/-
Lemmas on operators whose operand aliases the object.
-/
import Verif.AliasModel
import Verif.VecLemmas
import Verif.SparseApi
import Verif.OutcomeIff
import Verif.DenseOps

set_option linter.unusedSectionVars false
set_option linter.unusedSimpArgs false

namespace NS

namespace Vec
variable {T : Type}

theorem zipSelf_ok (op : T → T → T) (v : List T) : zipSelf op v = .ok (v.map fun x => op x x) := by
  unfold zipSelf
  rw [throwIf_false _ (by simp), ok_bind, ← mapIdx_const]
  refine forRange_upd v _ _ fun i w x hi hw hx => ?_
  rw [getIdx_of_some hx, ok_bind, vecAt, assert_true (by omega), ok_bind, getIdx_of_some hx, ok_bind, setIdx_eq _ (by omega)]

/-- the loop of a compound assignment with a reference to the entry `k` -/
theorem refLoop_ok (op : T → T → T) (v : List T) {k : Nat} (hk : k < v.length) (body : Nat → List T → R (List T))
    (hb : ∀ (i : Nat) (w : List T) (x f : T), i < v.length → w.length = v.length → w[i]? = some x → w[k]? = some f →
      body i w = .ok (w.set i (op x f))) :
    forRange 0 v.length v body = .ok (v.mapIdx fun i x => if i ≤ k then op x v[k] else op x (op v[k] v[k])) := by
  have := sat_forRange (f := body) (E := noErr)
    (fun m (w : List T) => w.length = v.length ∧
      ∀ j, w[j]? = (v[j]?).map (fun x => if j < m then (if j ≤ k then op x v[k] else op x (op v[k] v[k])) else x))
    (Nat.zero_le v.length) (s := v) (by simp) (by
      intro j w _ hj hw
      obtain ⟨x, hx⟩ : ∃ x, w[j]? = some x := ⟨w[j]'(by omega), by simp [hw.1, hj]⟩
      obtain ⟨f, hf⟩ : ∃ x, w[k]? = some x := ⟨w[k]'(by omega), by simp [hw.1, hk]⟩
      have hf' := hw.2 k
      rw [hf, List.getElem?_eq_getElem hk] at hf'
      simp only [Option.map_some, Option.some.injEq, le_refl, if_true] at hf'
      rw [hb j w x f hj hw.1 hx hf]
      refine ⟨by simpa using hw.1, ?_⟩
      intro l
      have hl := hw.2 l
      rw [List.getElem?_set]
      by_cases hjl : j = l
      · subst hjl
        have : v[j]? = some x := by
          rw [hx] at hl
          simpa using hl.symm
        rw [this, if_pos rfl, if_pos (by omega)]
        simp only [Option.map_some, Option.some.injEq]
        rw [if_pos (by omega), hf']
        by_cases hjk : j ≤ k
        · rw [if_neg (by omega), if_pos hjk]
        · rw [if_pos (by omega), if_neg hjk]
      · rw [if_neg hjl, hl]
        congr 1
        funext y
        by_cases h1 : l < j
        · simp [h1, show l < j + 1 by omega]
        · simp [h1, show ¬ l < j + 1 by omega])
  obtain ⟨w, h1, h2, h3⟩ := this.ok_of
  rw [h1]
  congr 1
  apply List.ext_getElem?
  intro j
  rw [h3 j, List.getElem?_mapIdx]
  by_cases hj : j < v.length
  · simp [hj]
  · simp [hj]

theorem mapRef_ok (op : T → T → T) (v : List T) {k : Nat} (hk : k < v.length) :
    mapRef op v k = .ok (v.mapIdx fun i x => if i ≤ k then op x v[k] else op x (op v[k] v[k])) := by
  unfold mapRef
  rw [assert_true hk, ok_bind]
  refine refLoop_ok op v hk _ fun i w x f hi hw hx hf => ?_
  rw [getIdx_of_some hx, ok_bind, getIdx_of_some hf, ok_bind, setIdx_eq _ (by omega)]

/-- when the result is the same as with a copy of the entry -/
theorem mapIdx_ref_iff (op : T → T → T) (v : List T) {k : Nat} (hk : k < v.length) :
    (v.mapIdx fun i x => if i ≤ k then op x v[k] else op x (op v[k] v[k])) = v.map (fun x => op x v[k]) ↔
      ∀ i (hi : i < v.length), k < i → op v[i] (op v[k] v[k]) = op v[i] v[k] := by
  constructor
  · intro h i hi hki
    have := congrArg (fun l => l[i]?) h
    simp only [List.getElem?_mapIdx, List.getElem?_map, List.getElem?_eq_getElem hi, Option.map_some, Option.some.injEq, if_neg (show ¬ i ≤ k by omega)] at this
    exact this
  · intro h
    apply List.ext_getElem
    · simp
    · intro i h1 h2
      simp only [List.getElem_mapIdx, List.getElem_map]
      split
      · rfl
      · exact h i (by simpa using h1) (by omega)

end Vec

/-- two loops agree when their bodies agree on the states that satisfy an invariant -/
theorem forRange_congr_inv {σ : Type} {f g : Nat → σ → R σ} (P : Nat → σ → Prop) {a n : Nat} {s : σ} (h0 : P a s)
    (h : ∀ k s, a ≤ k → k < n → P k s → f k s = g k s ∧ ∀ s', f k s = .ok s' → P (k + 1) s') :
    forRange a n s f = forRange a n s g := by
  unfold forRange
  have main : ∀ m k s, a ≤ k → k + m ≤ n → P k s → forAux f m k s = forAux g m k s := by
    intro m
    induction m with
    | zero => intros; rfl
    | succ m ih =>
      intro k s hk hm hP
      obtain ⟨h1, h2⟩ := h k s hk (by omega) hP
      unfold forAux
      rw [← h1]
      cases hf : f k s with
      | error e => rfl
      | ok s' => exact ih (k + 1) s' (by omega) (by omega) (h2 s' hf)
  by_cases hn : a ≤ n
  · exact main (n - a) a s (Nat.le_refl _) (by omega) h0
  · rw [show n - a = 0 by omega]; rfl

namespace Dense
variable {T : Type}

theorem zipSelf_ok [Zero T] (op : T → T → T) {d : Dense T} (h : WF d) : zipSelf op d = zipAssign op d d := by
  rw [h.zipAssign_ok op h rfl]
  unfold zipSelf
  rw [throwIf_false _ (by simp), ok_bind, dataLoop_ok d h.1 (fun _ x => op x x), Vec.mapIdx_const]
  · congr 2
    exact (List.zipWith_self ..).symm
  · intro i w x hi hw hx
    rw [getIdx_of_some hx, ok_bind, linearAt, assert_true (show i < size { d with data := w } from hi), ok_bind, getIdx_of_some hx, ok_bind,
      setIdx_eq _ (show i < w.length by omega), ok_bind]
    rfl

theorem scaleRef_ok [Mul T] {d : Dense T} (h : WF d) {i j : Nat} (hi : i < d.rows) (hj : j < d.columns) :
    scaleRef d i j = (do
      let l ← Vec.mapRef (· * ·) d.data (i * d.columns + j)
      return { d with data := l }) := by
  have hlt : i * d.columns + j < d.data.length := by rw [h.1]; exact idx_lt hi hj
  have hsz : d.data.length = d.size := h.1
  unfold scaleRef Vec.mapRef
  rw [assert_true hi, ok_bind, assert_true hj, ok_bind, assert_true hlt, ok_bind]
  unfold forRange
  have main : ∀ n k (w : List T), k + n ≤ d.size → w.length = d.size →
      forAux (fun t (d : Dense T) => do
        let x ← getIdx d.data t
        let f ← getIdx d.data (i * d.columns + j)
        let l ← setIdx d.data t (x * f)
        return { d with data := l }) n k { d with data := w } =
      (forAux (fun t (v : List T) => do
        let x ← getIdx v t
        let f ← getIdx v (i * d.columns + j)
        setIdx v t (x * f)) n k w >>= fun l => .ok { d with data := l }) := by
    intro n
    induction n with
    | zero => intros; rfl
    | succ n ih =>
      intro k w hk hw
      unfold forAux
      obtain ⟨x, hx⟩ : ∃ x, w[k]? = some x := ⟨w[k]'(by omega), by simp⟩
      obtain ⟨f, hf⟩ : ∃ x, w[i * d.columns + j]? = some x := ⟨w[i * d.columns + j]'(by omega), by simp⟩
      have h2 : setIdx w k (x * f) = .ok (w.set k (x * f)) := setIdx_eq _ (by omega)
      simp only [pure_eq_ok, ok_bind, getIdx_of_some hx, getIdx_of_some hf, h2]
      exact ih (k + 1) (w.set k (x * f)) (by omega) (by simpa using hw)
  have := main d.size 0 d.data (by omega) hsz
  simp only [Nat.sub_zero, hsz] at this ⊢
  exact this

end Dense

namespace Sparse
variable {T : Type}

section
variable [Zero T] [DecidableEq T]

/-! ### The sequence of iterators of a walk -/

/-- the `k`-th iterator of a walk from `it` -/
def nth (s : Sparse T) (it : SIt) : Nat → SIt
  | 0 => it
  | k + 1 => match s.itNext (nth s it k) with
    | .ok it' => it'
    | .error _ => nth s it k

theorem nth_located {c : Nat} {rs : Rows T} (hok : RowsOK c rs) {it : SIt}
    (hb : (pack c rs).itBegin = .ok it) : ∀ k, k < rs.flatten.length → ∃ P A p B S, rs = P ++ (A ++ p :: B) :: S ∧
      (pack c rs).nth it k = ⟨P.length, p.1, P.flatten.length + A.length⟩ ∧ P.flatten.length + A.length = k := by
  intro k
  induction k with
  | zero =>
    intro hk
    rcases split_empty rs with hE | ⟨E, q, r', S, hE, rfl⟩
    · rw [hE] at hk; simp at hk
    · refine ⟨E, [], q, r', S, rfl, ?_, by simp [hE]⟩
      rw [(itBegin_pack (S := S) (c := c) hok.mid hE).1] at hb
      cases hb
      simp [nth, hE]
  | succ k ih =>
    intro hk
    obtain ⟨P, A, p, B, S, rfl, h1, h2⟩ := ih (by omega)
    have hp : p.1 < c := hok.mid.lt
    simp only [nth, h1]
    cases B with
    | cons q B =>
      rw [itNext_same c P A p q B S hp]
      have el : (A ++ [p]).length = A.length + 1 := by simp
      refine ⟨P, A ++ [p], q, B, S, by simp, ?_, by rw [el]; omega⟩
      rw [el]; rfl
    | nil =>
      rcases split_empty S with hS | ⟨E, q, r', S', hE, rfl⟩
      · exfalso
        simp only [List.flatten_append, List.flatten_cons, hS, List.length_append, List.length_cons, List.length_nil] at hk
        omega
      · rw [itNext_later c P A p q E r' S' hp hE]
        have e3 : (P ++ (A ++ [p]) :: E).flatten.length + ([] : List (Nat × T)).length
            = P.flatten.length + A.length + 1 := by
          simp only [List.flatten_append, List.flatten_cons, hE, List.length_append,
            List.length_cons, List.length_nil]; omega
        refine ⟨P ++ (A ++ [p]) :: E, [], q, r', S', by simp, ?_, by rw [e3]; omega⟩
        have e1 : (P ++ (A ++ [p]) :: E).length = P.length + 1 + E.length := by simp; omega
        rw [e1, e3]

/-- what is known of the walk over a well-formed matrix -/
structure IsWalk (s : Sparse T) (its : Nat → SIt) : Prop where
  beg : s.itBegin = .ok (its 0)
  cbeg : s.itCBegin = .ok (its 0)
  next : ∀ k, k < s.values.length → s.itNext (its k) = .ok (its (k + 1))
  valid : ∀ k, k < s.values.length → s.itValid (its k) = true
  cpi : ∀ k, k < s.values.length → (its k).cpi = k
  found : ∀ k, k < s.values.length → ∀ near, s.internalAt (its k).i1 (its k).i2 near = .ok (k, true)
  last : s.itValid (its s.values.length) = false

theorem Inv.walk {s : Sparse T} (h : Inv s) : ∃ its, IsWalk s its := by
  obtain ⟨rs, h1, h2, h3, h4⟩ := h
  generalize hc : s.cols = c at *
  subst h1
  have hlen : (pack c rs).values.length = rs.flatten.length := by rw [pack_values, List.length_map]
  obtain ⟨it, hb, hcb⟩ : ∃ it, (pack c rs).itBegin = .ok it ∧ (pack c rs).itCBegin = .ok it := by
    rcases split_empty rs with hE | ⟨E, q, r', S, hE, rfl⟩
    · exact ⟨_, itBegin_pack_empty hE⟩
    · exact ⟨_, itBegin_pack (S := S) (c := c) h2.mid hE⟩
  have loc := nth_located h2 hb
  have hnext : ∀ k, k < rs.flatten.length → (pack c rs).itNext ((pack c rs).nth it k) = .ok ((pack c rs).nth it (k + 1)) := by
    intro k hk
    obtain ⟨P, A, p, B, S, hrs, e1, e2⟩ := loc k hk
    have : ∃ it', (pack c rs).itNext ((pack c rs).nth it k) = .ok it' := by
      have hp : p.1 < c := by rw [hrs] at h2; exact h2.mid.lt
      rw [e1, hrs]
      cases B with
      | cons q B => exact ⟨_, itNext_same c P A p q B S hp⟩
      | nil =>
        rcases split_empty S with hS | ⟨E, q, r', S', hE, rfl⟩
        · exact ⟨_, itNext_last c P A p S hp hS⟩
        · exact ⟨_, itNext_later c P A p q E r' S' hp hE⟩
    obtain ⟨it', hit'⟩ := this
    rw [hit']
    simp only [nth, hit']
  refine ⟨(pack c rs).nth it, hb, hcb, fun k hk => hnext k (by rwa [hlen] at hk), ?_, ?_, ?_, ?_⟩
  · intro k hk
    obtain ⟨P, A, p, B, S, rfl, e1, e2⟩ := loc k (by rwa [hlen] at hk)
    rw [e1]
    exact itValid_pack (by simp) h2.mid.lt
  · intro k hk
    obtain ⟨P, A, p, B, S, rfl, e1, e2⟩ := loc k (by rwa [hlen] at hk)
    rw [e1]; exact e2
  · intro k hk near
    obtain ⟨P, A, p, B, S, rfl, e1, e2⟩ := loc k (by rwa [hlen] at hk)
    rw [e1, internalAt_pack]
    obtain ⟨q1, q2⟩ := rowPos_split h2.mid
    have hne : ¬ (P ++ (A ++ p :: B) :: S).flatten = [] := by
      intro h
      have := congrArg List.length h
      simp only [List.flatten_append, List.flatten_cons, List.length_append, List.length_cons, List.length_nil] at this
      omega
    rw [if_neg (fun h => hne h.2), q1, q2, e2]
  · rw [hlen]
    rcases Nat.eq_zero_or_pos rs.flatten.length with h0 | hpos
    · rw [h0]
      rw [(itBegin_pack_empty (List.length_eq_zero_iff.1 h0)).1] at hb
      cases hb
      simp [nth, itValid, itEnd]
    · obtain ⟨m, hm⟩ : ∃ m, rs.flatten.length = m + 1 := ⟨rs.flatten.length - 1, by omega⟩
      have hx := hnext m (by omega)
      obtain ⟨P, A, p, B, S, hrs, e1, e2⟩ := loc m (by omega)
      have hp : p.1 < c := by rw [hrs] at h2; exact h2.mid.lt
      have hlen2 : rs.flatten.length = P.flatten.length + (A.length + (B.length + 1) + S.flatten.length) := by
        rw [hrs]; simp only [List.flatten_append, List.flatten_cons, List.length_append, List.length_cons]
      have hB : B = [] := List.length_eq_zero_iff.1 (by omega)
      have hS : S.flatten = [] := List.length_eq_zero_iff.1 (by omega)
      subst hB
      have hl := itNext_last c P A p S hp hS
      rw [← hrs, ← e1, hx] at hl
      rw [hm, Except.ok.inj hl]
      simp [itValid]

/-! ### Loops that change values only -/

@[simp] theorem itValid_values (s : Sparse T) (vs : List T) (it : SIt) : itValid { s with values := vs } it = s.itValid it := rfl
@[simp] theorem itNext_values (s : Sparse T) (vs : List T) (it : SIt) : itNext { s with values := vs } it = s.itNext it := rfl
theorem itEq_values (s : Sparse T) (vs : List T) (a b : SIt) : itEq { s with values := vs } a b = s.itEq a b := rfl
theorem itEnd_values (s : Sparse T) (vs : List T) : itEnd { s with values := vs } = s.itEnd := rfl

theorem skipRows_values (s : Sparse T) (vs : List T) : ∀ n i, skipRows { s with values := vs } n i = s.skipRows n i
  | 0, _ => rfl
  | n + 1, i => by
    have := skipRows_values s vs n (i + 1)
    unfold skipRows
    rw [this]; rfl

theorem findRow_values (s : Sparse T) (vs : List T) (i : Nat) (near : Bool) :
    findRow { s with values := vs } i near = s.findRow i near := by
  unfold findRow
  rw [skipRows_values]; rfl

theorem internalAt_values (s : Sparse T) {vs : List T} (h : vs.length = s.values.length) (i j : Nat) (near : Bool) :
    internalAt { s with values := vs } i j near = s.internalAt i j near := by
  have e : isEmpty { s with values := vs } = s.isEmpty := by
    unfold isEmpty
    cases hv : s.values with
    | nil => rw [hv] at h; rw [List.length_eq_zero_iff.1 h]
    | cons a l =>
      cases hw : vs with
      | nil => rw [hv, hw] at h; simp at h
      | cons _ _ => rfl
  unfold internalAt
  rw [e, findRow_values]

/-- a loop over the iterators whose body replaces the current value -/
theorem valLoop {s : Sparse T} {its : Nat → SIt} (hw : IsWalk s its) (g : Nat → T → T)
    (loop : Nat → Sparse T → SIt → R (Sparse T))
    (hend : ∀ n vs it, s.itValid it = false → loop n { s with values := vs } it = .ok { s with values := vs })
    (hstep : ∀ n k x vs, s.values[k]? = some x → vs.length = s.values.length →
      (∀ i, vs[i]? = (s.values[i]?).map (fun y => if i < k then g i y else y)) →
      loop (n + 1) { s with values := vs } (its k) = loop n { s with values := vs.set k (g k x) } (its (k + 1))) :
    ∀ n, s.values.length ≤ n → loop n s (its 0) = .ok { s with values := s.values.mapIdx g } := by
  have main : ∀ m n k vs, k + m = s.values.length → m ≤ n → vs.length = s.values.length →
      (∀ i, vs[i]? = (s.values[i]?).map (fun y => if i < k then g i y else y)) →
      loop n { s with values := vs } (its k) = .ok { s with values := s.values.mapIdx g } := by
    intro m
    induction m with
    | zero =>
      intro n k vs hk hn hl hv
      rw [hend n vs (its k) (by rw [show k = s.values.length by omega]; exact hw.last)]
      congr 2
      apply List.ext_getElem?
      intro i
      rw [hv, List.getElem?_mapIdx]
      by_cases hi : i < s.values.length
      · simp [hi, show i < k by omega]
      · simp [hi]
    | succ m ih =>
      intro n k vs hk hn hl hv
      obtain ⟨n, rfl⟩ : ∃ n', n = n' + 1 := ⟨n - 1, by omega⟩
      have hkl : k < s.values.length := by omega
      rw [hstep n k s.values[k] vs (List.getElem?_eq_getElem hkl) hl hv]
      refine ih n (k + 1) _ (by omega) (by omega) (by simpa using hl) fun i => ?_
      rw [List.getElem?_set]
      by_cases hki : k = i
      · subst hki
        rw [if_pos rfl, if_pos (by omega), List.getElem?_eq_getElem hkl]
        simp
      · rw [if_neg hki, hv]
        congr 1
        funext y
        by_cases h1 : i < k
        · simp [h1, show i < k + 1 by omega]
        · simp [h1, show ¬ i < k + 1 by omega]
  intro n hn
  exact main s.values.length n 0 s.values (by omega) hn rfl (by intro i; simp)

/-! ### Changing all values -/

/-- apply `g` to the values of a row -/
def mapRow (g : T → T) (r : List (Nat × T)) : List (Nat × T) := r.map fun q => (q.1, g q.2)

theorem lookup_mapRow {g : T → T} {c : Nat} {r : List (Nat × T)} (h : RowOK c r) (j : Nat) :
    lookup (mapRow g r) j = if lookup r j = 0 then 0 else g (lookup r j) := by
  induction r with
  | nil => simp [mapRow, lookup]
  | cons p r ih =>
    obtain ⟨a, b⟩ := p
    have ih := ih ⟨(List.pairwise_cons.1 h.1).2, fun q hq => h.2 q (by simp [hq])⟩
    simp only [mapRow, List.map_cons, lookup] at ih ⊢
    split
    · rw [if_neg (h.2 (a, b) (by simp)).2]
    · exact ih

theorem pack_map (g : T → T) (c : Nat) (rs : Rows T) :
    pack c (rs.map (mapRow g)) = { pack c rs with values := (pack c rs).values.map g } := by
  have hl : ∀ l : Rows T, (l.map (mapRow g)).flatten.length = l.flatten.length := by
    intro l
    rw [List.length_flatten, List.length_flatten, List.map_map]
    congr 1
    apply List.map_congr_left
    intro r _
    simp [mapRow]
  unfold pack
  simp only [Sparse.mk.injEq, and_true]
  refine ⟨?_, ?_, ?_⟩
  · simp only [List.map_flatten, List.map_map]
    congr 1
    apply List.map_congr_left
    intro r _
    simp [mapRow]
  · simp only [List.map_flatten, List.map_map]
    congr 1
    apply List.map_congr_left
    intro r _
    simp [mapRow]
  · rw [List.length_map]
    apply List.map_congr_left
    intro i _
    unfold offs
    rw [← List.map_take, hl]

theorem Inv.mapVals {s : Sparse T} (h : Inv s) {g : T → T} (hg : ∀ v, v ≠ 0 → v ∈ s.values → g v ≠ 0) :
    Inv { s with values := s.values.map g } ∧
      ∀ i j, val { s with values := s.values.map g } i j = if s.val i j = 0 then 0 else g (s.val i j) := by
  obtain ⟨rs, h1, h2, h3, h4⟩ := h
  generalize hc : s.cols = c at *
  subst h1
  change Inv { pack c rs with values := (pack c rs).values.map g } ∧ ∀ i j, val { pack c rs with values := (pack c rs).values.map g } i j = _
  rw [← pack_map]
  have hok : RowsOK c (rs.map (mapRow g)) := by
    intro r hr
    simp only [List.mem_map] at hr
    obtain ⟨r0, hr0, rfl⟩ := hr
    refine ⟨?_, ?_⟩
    · unfold mapRow; rw [List.pairwise_map]; exact (h2 r0 hr0).1
    · intro p hp
      simp only [mapRow, List.mem_map] at hp
      obtain ⟨q, hq, rfl⟩ := hp
      refine ⟨((h2 r0 hr0).2 q hq).1, hg _ ((h2 r0 hr0).2 q hq).2 ?_⟩
      rw [pack_values]
      exact List.mem_map.2 ⟨q, List.mem_flatten.2 ⟨r0, hr0, hq⟩, rfl⟩
  refine ⟨⟨_, rfl, hok, by simpa using h3, h4⟩, fun i j => ?_⟩
  rw [val_pack' hok, val_pack' h2]
  unfold ent
  rw [List.getD_eq_getElem?_getD, List.getElem?_map, List.getD_eq_getElem?_getD]
  cases hr : rs[i]? with
  | none => simp [lookup]
  | some r => simpa using lookup_mapRow (h2 r (List.mem_of_getElem? hr)) j

theorem Inv.values_ne {s : Sparse T} (h : Inv s) : ∀ v ∈ s.values, v ≠ 0 := by
  obtain ⟨rs, h1, h2, h3, h4⟩ := h
  intro v hv
  rw [h1, pack_values] at hv
  obtain ⟨q, hq, rfl⟩ := List.mem_map.1 hv
  obtain ⟨r, hr, hq⟩ := List.mem_flatten.1 hq
  exact ((h2 r hr).2 q hq).2

theorem Inv.lengths {s : Sparse T} (h : Inv s) : s.colPtr.length = s.values.length ∧ (∀ c ∈ s.colPtr, c < s.columns) ∧ s.empty = 0 := by
  obtain ⟨rs, h1, h2, h3, h4⟩ := h
  refine ⟨?_, ?_, ?_⟩
  · rw [h1, pack_values, pack_colPtr, List.length_map, List.length_map]
  · intro c hc
    rw [h1, pack_colPtr] at hc
    obtain ⟨q, hq, rfl⟩ := List.mem_map.1 hc
    obtain ⟨r, hr, hq⟩ := List.mem_flatten.1 hq
    exact ((h2 r hr).2 q hq).1
  · rw [h1]; rfl

/-! ### The loops -/

theorem IsWalk.bounds {s : Sparse T} {its : Nat → SIt} (hw : IsWalk s its) {k : Nat} (hk : k < s.values.length) :
    (its k).i1 < s.rows ∧ (its k).i2 < s.columns := by
  have := hw.valid k hk
  simpa [itValid] using this

/-- the loop of `m += m` when no doubled value is zero -/
theorem selfLoop_ok {op : T → T → T} {s : Sparse T} {its : Nat → SIt} (hw : IsWalk s its)
    (hop : ∀ v ∈ s.values, op v v ≠ 0) {n : Nat} (hn : s.values.length ≤ n) :
    selfLoop op n s (its 0) = .ok { s with values := s.values.map fun v => op v v } := by
  rw [← Vec.mapIdx_const]
  refine valLoop hw (fun _ v => op v v) (selfLoop op) ?_ ?_ n hn
  · intro n vs it h
    have : itEq { s with values := vs } it (itEnd { s with values := vs }) = true := itEq_end_of_invalid (s := { s with values := vs }) h
    cases n with
    | zero => unfold selfLoop; rw [if_pos this]
    | succ n => unfold selfLoop; rw [if_pos this]
  · intro n k x vs hx hl hv
    have hk : k < s.values.length := (List.getElem?_eq_some_iff.1 hx).1
    have hvk : vs[k]? = some x := by rw [hv k, hx]; simp
    have hvalid := hw.valid k hk
    have hne : ¬ itEq { s with values := vs } (its k) (itEnd { s with values := vs }) = true := by
      have := itEq_end_of_valid (s := { s with values := vs }) (it := its k) hvalid
      rw [this]; simp
    obtain ⟨hb1, hb2⟩ := hw.bounds hk
    have hint : ∀ near, internalAt { s with values := vs } (its k).i1 (its k).i2 near = .ok (k, true) := by
      intro near
      rw [internalAt_values s hl]; exact hw.found k hk near
    have hat : at' { s with values := vs } (its k).i1 (its k).i2 = .ok x := by
      unfold at'
      rw [assert_true (show (its k).i1 < rows { s with values := vs } from hb1), ok_bind,
        assert_true (show (its k).i2 < columns { s with values := vs } from hb2), ok_bind, hint]
      exact getIdx_of_some hvk
    have hde : deref { s with values := vs } (its k) = .ok x := by
      unfold deref
      rw [if_pos (show itValid { s with values := vs } (its k) = true from hvalid), hw.cpi k hk]
      exact getIdx_of_some hvk
    have hset : set { s with values := vs } (its k).i1 (its k).i2 (op x x) = .ok { s with values := vs.set k (op x x) } := by
      unfold set
      rw [assert_true (show (its k).i1 < rows { s with values := vs } from hb1), ok_bind,
        assert_true (show (its k).i2 < columns { s with values := vs } from hb2), ok_bind, if_neg (hop x (List.mem_of_getElem? hx))]
      unfold setAt
      rw [hint, ok_bind]
      simp only [if_true]
      rw [setIdx_eq _ (by omega), ok_bind]
      rfl
    rw [selfLoop, if_neg hne, hat, ok_bind, hde, ok_bind, hset, ok_bind]
    rw [show itNext { s with values := vs.set k (op x x) } (its k) = s.itNext (its k) from rfl, hw.next k hk, ok_bind]

/-- the first loop of `m *= m` -/
theorem hadSelfLoop_ok [Mul T] {s : Sparse T} {its : Nat → SIt} (hw : IsWalk s its) {n : Nat} (hn : s.values.length ≤ n) :
    hadSelfLoop n s (its 0) = .ok { s with values := s.values.map fun v => v * v } := by
  rw [← Vec.mapIdx_const]
  refine valLoop hw (fun _ v => v * v) hadSelfLoop ?_ ?_ n hn
  · intro n vs it h
    have : itEq { s with values := vs } it (itEnd { s with values := vs }) = true := itEq_end_of_invalid (s := { s with values := vs }) h
    cases n with
    | zero => unfold hadSelfLoop; rw [if_pos this]
    | succ n => unfold hadSelfLoop; rw [if_pos this]
  · intro n k x vs hx hl hv
    have hk : k < s.values.length := (List.getElem?_eq_some_iff.1 hx).1
    have hvk : vs[k]? = some x := by rw [hv k, hx]; simp
    have hvalid := hw.valid k hk
    have hne : ¬ itEq { s with values := vs } (its k) (itEnd { s with values := vs }) = true := by
      have := itEq_end_of_valid (s := { s with values := vs }) (it := its k) hvalid
      rw [this]; simp
    have hint : internalAt { s with values := vs } (its k).i1 (its k).i2 false = .ok (k, true) := by
      rw [internalAt_values s hl]; exact hw.found k hk false
    have hde : deref { s with values := vs } (its k) = .ok x := by
      unfold deref
      rw [if_pos (show itValid { s with values := vs } (its k) = true from hvalid), hw.cpi k hk]
      exact getIdx_of_some hvk
    rw [hadSelfLoop, if_neg hne, hint, ok_bind]
    simp only [if_true]
    rw [hde, ok_bind, getIdx_of_some (l := vs) hvk, ok_bind, setIdx_eq _ (by omega), ok_bind]
    simp only [pure_eq_ok]
    rw [ok_bind, show itNext { s with values := vs.set k (x * x) } (its k) = s.itNext (its k) from rfl, hw.next k hk, ok_bind]

/-- the second loop of `m *= m` erases nothing -/
theorem hadSelfErase_ok {s : Sparse T} {its : Nat → SIt} (hw : IsWalk s its) :
    ∀ m n k, k + m = s.values.length → m ≤ n → hadSelfErase n s (its k) = .ok s := by
  intro m
  induction m with
  | zero =>
    intro n k hk hn
    have : s.itEq (its k) s.itEnd = true := itEq_end_of_invalid (by rw [show k = s.values.length by omega]; exact hw.last)
    cases n with
    | zero => unfold hadSelfErase; rw [if_pos this]
    | succ n => unfold hadSelfErase; rw [if_pos this]
  | succ m ih =>
    intro n k hk hn
    obtain ⟨n, rfl⟩ : ∃ n', n = n' + 1 := ⟨n - 1, by omega⟩
    have hk' : k < s.values.length := by omega
    obtain ⟨hb1, hb2⟩ := hw.bounds hk'
    have hne : ¬ s.itEq (its k) s.itEnd = true := by
      rw [itEq_end_of_valid (hw.valid k hk')]; simp
    have hh : s.has (its k).i1 (its k).i2 = .ok true := by
      unfold has
      rw [assert_true hb1, ok_bind, assert_true hb2, ok_bind, hw.found k hk' false, ok_bind]
      rfl
    rw [hadSelfErase, if_neg hne, hh, ok_bind, if_pos rfl, hw.next k hk', ok_bind]
    exact ih n (k + 1) (by omega) (by omega)

/-- the loop of `m *= *p` -/
theorem scaleRefLoop_ok [Mul T] {s : Sparse T} {its : Nat → SIt} (hw : IsWalk s its) {q : Nat} (hq : q < s.values.length) {n : Nat}
    (hn : s.values.length ≤ n) :
    scaleRefLoop q n s (its 0) = .ok { s with values := s.values.mapIdx fun k v =>
      if k ≤ q then v * s.values[q] else v * (s.values[q] * s.values[q]) } := by
  refine valLoop hw (fun k v => if k ≤ q then v * s.values[q] else v * (s.values[q] * s.values[q])) (scaleRefLoop q) ?_ ?_ n hn
  · intro n vs it h
    have : itEq { s with values := vs } it (itEnd { s with values := vs }) = true := itEq_end_of_invalid (s := { s with values := vs }) h
    cases n with
    | zero => unfold scaleRefLoop; rw [if_pos this]
    | succ n => unfold scaleRefLoop; rw [if_pos this]
  · intro n k x vs hx hl hv
    have hk : k < s.values.length := (List.getElem?_eq_some_iff.1 hx).1
    have hvk : vs[k]? = some x := by rw [hv k, hx]; simp
    have hvq : vs[q]? = some (if q < k then s.values[q] * s.values[q] else s.values[q]) := by
      rw [hv q, List.getElem?_eq_getElem hq]; simp
    have hvalid := hw.valid k hk
    have hne : ¬ itEq { s with values := vs } (its k) (itEnd { s with values := vs }) = true := by
      have := itEq_end_of_valid (s := { s with values := vs }) (it := its k) hvalid
      rw [this]; simp
    have hg : (if k ≤ q then x * s.values[q] else x * (s.values[q] * s.values[q]))
        = x * (if q < k then s.values[q] * s.values[q] else s.values[q]) := by
      by_cases h : k ≤ q
      · rw [if_pos h, if_neg (by omega)]
      · rw [if_neg h, if_pos (by omega)]
    simp only [hg]
    rw [scaleRefLoop, if_neg hne, hw.cpi k hk, getIdx_of_some (l := vs) hvk, ok_bind, getIdx_of_some (l := vs) hvq, ok_bind,
      setIdx_eq _ (show k < vs.length by omega), ok_bind]
    simp only []
    rw [show ∀ ws, itNext { s with values := ws } (its k) = s.itNext (its k) from fun _ => rfl, hw.next k hk, ok_bind]

/-! ### The loop that erases entries of the matrix it runs over -/

theorem set_length {s s' : Sparse T} {i j : Nat} {v : T} (h : s.set i j v = .ok s') : s.values.length ≤ s'.values.length + 1 := by
  unfold set at h
  obtain ⟨_, _, h⟩ := bind_ok_iff.1 h
  obtain ⟨_, _, h⟩ := bind_ok_iff.1 h
  split at h
  · unfold removeAt at h
    obtain ⟨⟨k, found⟩, _, h⟩ := bind_ok_iff.1 h
    cases found with
    | false => cases h; omega
    | true =>
      simp only [if_true] at h
      obtain ⟨vs, hv, h⟩ := bind_ok_iff.1 h
      obtain ⟨cs, _, h⟩ := bind_ok_iff.1 h
      cases h
      unfold eraseAt at hv
      split at hv
      · cases hv
        rename_i hk
        simp only [shiftRows, List.length_eraseIdx]
        split <;> omega
      · cases hv
  · unfold setAt at h
    obtain ⟨⟨k, found⟩, _, h⟩ := bind_ok_iff.1 h
    cases found with
    | true =>
      simp only [if_true] at h
      obtain ⟨vs, hv, h⟩ := bind_ok_iff.1 h
      cases h
      unfold setIdx at hv
      split at hv
      · cases hv; simp
      · cases hv
    | false =>
      simp only [Bool.false_eq_true, if_false] at h
      obtain ⟨vs, hv, h⟩ := bind_ok_iff.1 h
      obtain ⟨cs, _, h⟩ := bind_ok_iff.1 h
      cases h
      unfold insertAt at hv
      split at hv
      · cases hv
        rename_i hk
        simp only [shiftRows, List.length_insertIdx]
        split <;> omega
      · cases hv

theorem advRow_ok (rp : List Nat) (idx : Nat) : ∀ n s1 cur, s1 + n ≤ rp.length → cur < rp.length →
    ∃ r, advRow rp idx n s1 cur = .ok r ∧ r < rp.length := by
  intro n
  induction n with
  | zero => intro s1 cur _ h; exact ⟨cur, rfl, h⟩
  | succ n ih =>
    intro s1 cur h1 h2
    unfold advRow
    rw [getIdx_of_some (List.getElem?_eq_getElem (show s1 < rp.length by omega)), ok_bind]
    split
    · exact ih (s1 + 1) s1 (by omega) (by omega)
    · split
      · exact ⟨cur, rfl, h2⟩
      · exact ih (s1 + 1) cur (by omega) h2

theorem Inv.length_le {s : Sparse T} (h : Inv s) : s.values.length ≤ s.size := by
  have := h.filledCount_eq
  unfold filledCount at this
  rw [this]
  refine (Finset.card_filter_le _ _).trans ?_
  rw [Finset.card_product, Finset.card_range, Finset.card_range]
  exact Nat.le_refl _

/-- the loop always comes to an end, and leaves an entry when there are two or more -/
theorem selfLoop_two (op : T → T → T) : ∀ n (s : Sparse T) (it : SIt), Inv s → s.itValid it = true → it.cpi < s.values.length →
    2 ≤ s.values.length → s.size < n + it.cpi + 1 →
    ∃ u, selfLoop op n s it = .ok u ∧ Inv u ∧ u.rows = s.rows ∧ u.columns = s.columns ∧ 1 ≤ u.values.length := by
  intro n
  induction n with
  | zero =>
    intro s it hs hv hc h2 hn
    have := hs.length_le
    omega
  | succ n ih =>
    intro s it hs hv hc h2 hn
    have hb : it.i1 < s.rows ∧ it.i2 < s.columns := by simpa [itValid] using hv
    have hne : ¬ s.itEq it s.itEnd = true := by rw [itEq_end_of_valid hv]; simp
    have hde : s.deref it = .ok s.values[it.cpi] := by
      unfold deref
      rw [if_pos hv]
      exact getIdx_of_some (List.getElem?_eq_getElem hc)
    obtain ⟨s', e1, e2, e3, e4, -⟩ := hs.set_ok (op (s.val it.i1 it.i2) s.values[it.cpi]) hb.1 hb.2
    have hlen := set_length e1
    have hsz : s'.size = s.size := by unfold size; rw [e3, e4]
    rw [selfLoop, if_neg hne, hs.at_ok hb.1 hb.2, ok_bind, hde, ok_bind, e1, ok_bind]
    have hv' : s'.itValid it = true := by simpa [itValid, e3, e4] using hv
    obtain ⟨l1, l2, -⟩ := e2.lengths
    unfold itNext
    rw [if_pos hv']
    by_cases hend : s'.colPtr.length ≤ it.cpi + 1
    · simp only [if_pos hend, ok_bind]
      refine ⟨s', ?_, e2, e3, e4, by omega⟩
      have : s'.itEq ⟨s'.rows, s'.columns, it.cpi + 1⟩ s'.itEnd = true := itEq_end_rows
      cases n with
      | zero => unfold selfLoop; rw [if_pos this]
      | succ n => unfold selfLoop; rw [if_pos this]
    · simp only [if_neg hend]
      have hcl : it.cpi + 1 < s'.colPtr.length := by omega
      rw [getIdx_of_some (List.getElem?_eq_getElem hcl), ok_bind]
      have hr : it.i1 < s'.rowPtr.length := by
        have := hb.1
        rw [← e3] at this
        exact this
      obtain ⟨r, a1, a2⟩ := advRow_ok s'.rowPtr (it.cpi + 1) (s'.rows - it.i1) it.i1 it.i1 (by
        show it.i1 + (s'.rowPtr.length - it.i1) ≤ s'.rowPtr.length
        omega) hr
      rw [a1, ok_bind]
      simp only [pure_eq_ok]
      rw [ok_bind]
      obtain ⟨u, u1, u2, u3, u4, u5⟩ := ih s' ⟨r, s'.colPtr[it.cpi + 1], it.cpi + 1⟩ e2 (by
        simp only [itValid, Bool.and_eq_true, decide_eq_true_eq]
        exact ⟨a2, l2 _ (List.getElem_mem hcl)⟩) (by simp only; omega) (by omega) (by simp only; omega)
      exact ⟨u, u1, u2, u3.trans e3, u4.trans e4, u5⟩

end
end Sparse
end NS

/-
`doolittle`, `cholesky` and `ainv_lu` (`/repo/src/lib/LU.inl:8-46`, `49-132`, `315-386`) called with output matrices that are not
zero: proofs for `Props/Reuse.lean`.
-/
import Verif.LUMore

set_option linter.unusedSectionVars false
set_option linter.unusedSimpArgs false

namespace NS
open MatOps LawfulMat

/-- Both computations succeed with related results, or both fail with the same error. -/
def Rel {α β : Type} (x : R α) (y : R β) (P : α → β → Prop) : Prop :=
  match x, y with
  | .ok a, .ok b => P a b
  | .error e, .error f => e = f
  | _, _ => False

section
variable {α β γ δ σ τ : Type}
@[simp] theorem Rel_ok {a : α} {b : β} {P : α → β → Prop} : Rel (.ok a) (.ok b) P ↔ P a b := Iff.rfl
@[simp] theorem Rel_error {e f : Err} {P : α → β → Prop} : Rel (.error e) (.error f) P ↔ e = f := Iff.rfl

theorem Rel.bind {x : R α} {y : R β} {P : α → β → Prop} {f : α → R γ} {g : β → R δ} {Q : γ → δ → Prop} (h : Rel x y P)
    (hf : ∀ a b, P a b → Rel (f a) (g b) Q) : Rel (x >>= f) (y >>= g) Q := by
  cases x <;> cases y
  · exact h
  · exact h.elim
  · exact h.elim
  · exact hf _ _ h

theorem rel_forAux {f : Nat → σ → R σ} {g : Nat → τ → R τ} (P : Nat → σ → τ → Prop) :
    ∀ (m k : Nat) (s : σ) (t : τ), P k s t →
      (∀ j s t, k ≤ j → j < k + m → P j s t → Rel (f j s) (g j t) (P (j + 1))) →
      Rel (forAux f m k s) (forAux g m k t) (P (k + m))
  | 0, k, s, t, h0, _ => by simpa [forAux] using h0
  | m + 1, k, s, t, h0, hs => by
      unfold forAux
      refine Rel.bind (hs k s t (le_refl _) (by omega) h0) fun s' t' h' => ?_
      have := rel_forAux P m (k + 1) s' t' h' (fun j s t hj hj' => hs j s t (by omega) (by omega))
      have he : k + 1 + m = k + (m + 1) := by omega
      rwa [he] at this

theorem rel_forRange {f : Nat → σ → R σ} {g : Nat → τ → R τ} (P : Nat → σ → τ → Prop) {a b : Nat} (hab : a ≤ b) {s : σ} {t : τ}
    (h0 : P a s t) (hs : ∀ j s t, a ≤ j → j < b → P j s t → Rel (f j s) (g j t) (P (j + 1))) :
    Rel (forRange a b s f) (forRange a b t g) (P b) := by
  have := rel_forAux P (b - a) a s t h0 (fun j s t hj hj' => hs j s t hj (by omega))
  have he : a + (b - a) = b := by omega
  rwa [he] at this
end

namespace LU
section weak
variable {M T V : Type} [Zero T] [One T] [Sub T] [Mul T] [Div T] [MatOps M T] [LawfulStore M T] [LinearOrder V]
variable {n : Nat}

/-- the pivot search only depends on the entries of the matrix -/
theorem findPivot_congr (absv : T → V) {U U' : M} (hU : Sq n U) (hU' : Sq n U') {k : Nat} (hk : k < n)
    (h : ∀ r c, val U r c = val U' r c) : findPivot absv U k n = findPivot absv U' k n := by
  have key : Rel (findPivot absv U k n) (findPivot absv U' k n) Eq := by
    unfold findPivot
    rw [hU.get hk hk, hU'.get hk hk, h]
    simp only [ok_bind]
    refine rel_forRange (fun _ a b => a = b) (show k + 1 ≤ n by omega) rfl ?_
    rintro j s _ h1 h2 rfl
    rw [hU.get h2 hk, hU'.get h2 hk, h]
    simp only [ok_bind]
    split <;> simp
  obtain ⟨a, ha, -⟩ := findPivot_ok absv hU hk
  obtain ⟨b, hb, -⟩ := findPivot_ok absv hU' hk
  rw [ha, hb] at key ⊢
  rw [Rel_ok.1 key]

/-- two runs of `doolittle` on the same matrix, with different old contents `O`, `O'` of `L`, after `k` columns -/
structure DRel (O O' : M) (n k : Nat) (s s' : St M) : Prop where
  sqU : Sq n s.U
  sqU' : Sq n s'.U
  sqL : Sq n s.L
  sqL' : Sq n s'.L
  u : ∀ r c, val s.U r c = val s'.U r c
  rt : s.rt = s'.rt
  pc : s.pc = s'.pc
  rtl : s.rt.length = n
  rtb : ∀ i, i < n → s.rt.getD i 0 < n
  l : ∀ a t, a < n → t < n → val s.L a t = if t < k ∧ t < a then val s'.L a t else if a = t then 1 else val O a t
  l' : ∀ a t, a < n → t < n → ¬ (t < k ∧ t < a) → val s'.L a t = if a = t then 1 else val O' a t

theorem setup_dirty {L : M} (hL : Sq n L) :
    ∃ Lr : M × List Nat, setup L n = .ok Lr ∧ Sq n Lr.1 ∧
      (∀ i j, val Lr.1 i j = if i = j ∧ i < n then 1 else val L i j) ∧ Lr.2.length = n ∧ ∀ i, i < n → Lr.2.getD i 0 = i := by
  unfold setup
  apply Sat.ok_of
  refine sat_forRange (fun k (Lr : M × List Nat) => Sq n Lr.1 ∧
      (∀ i j, val Lr.1 i j = if i = j ∧ i < k then 1 else val L i j) ∧ Lr.2.length = n ∧ ∀ i, i < k → Lr.2.getD i 0 = i)
      (Nat.zero_le _) ?_ ?_
  · exact ⟨hL, fun i j => by simp, by simp, fun i hi => by omega⟩
  · rintro k ⟨Y, rt⟩ _ hk ⟨hY, vY, hl, hr⟩
    obtain ⟨Y', p1, p2, p3⟩ := hY.put (1 : T) (i := k) (j := k) hk hk
    simp only at hl hr vY
    simp only [p1, ok_bind, setIdx_eq k (hl ▸ hk : k < rt.length), pure_eq_ok, Sat_ok]
    refine ⟨p2, fun i j => ?_, by simpa using hl, fun i hi => ?_⟩
    · rw [p3, vY]
      by_cases hik : i = k ∧ j = k
      · rw [if_pos hik, if_pos (by omega)]
      · rw [if_neg hik]
        have : (i = j ∧ i < k + 1) ↔ (i = j ∧ i < k) := by omega
        simp only [this]
    · simp only [List.getD_eq_getElem?_getD, List.getElem?_set]
      by_cases hik : k = i
      · subst hik; simp [hl, hk]
      · rw [if_neg hik, ← List.getD_eq_getElem?_getD]; exact hr i (by omega)

theorem buildP_dirty {P : M} (hP : Sq n P) {rt : List Nat} (hl : rt.length = n) (hr : ∀ i, i < n → rt.getD i 0 < n) :
    ∃ P', buildP P rt n = .ok P' ∧ Sq n P' ∧ ∀ i j, val P' i j = if i < n ∧ j = rt.getD i 0 then 1 else val P i j := by
  unfold buildP
  apply Sat.ok_of
  refine sat_forRange (fun k P' => Sq n P' ∧ ∀ i j, val P' i j = if i < k ∧ j = rt.getD i 0 then 1 else val P i j)
    (Nat.zero_le _) ⟨hP, fun i j => by simp⟩ ?_
  rintro k Y _ hk ⟨hY, vY⟩
  have hkl : k < rt.length := hl ▸ hk
  have hg : rt[k] = rt.getD k 0 := by simp [List.getD_eq_getElem?_getD, hkl]
  obtain ⟨Y', p1, p2, p3⟩ := hY.put (1 : T) (i := k) (j := rt.getD k 0) hk (hr k hk)
  simp only [getIdx_eq hkl, ok_bind, hg, p1, Sat_ok]
  refine ⟨p2, fun i j => ?_⟩
  rw [p3, vY]
  by_cases hik : i = k
  · subst hik; simp
  · have : (i < k + 1 ∧ j = rt.getD i 0) ↔ (i < k ∧ j = rt.getD i 0) := by omega
    simp only [hik, false_and, if_false, this]

theorem reorder_rel {O O' : M} {k i : Nat} {s s' : St M} (h : DRel O O' n k s s') (hki : k ≤ i) (hi : i < n) :
    Rel (reorder s k i n) (reorder s' k i n) (DRel O O' n k) := by
  unfold reorder
  by_cases hik : i = k
  · rw [if_neg (not_not.2 hik), if_neg (not_not.2 hik)]; exact h
  rw [if_pos hik, if_pos hik]
  have hk : k < n := by omega
  obtain ⟨U1, u1, u2, u3⟩ := swapSeg_ok h.sqU (k := k) (i := i) (a := k) (b := n) hk hi hik (by omega) (le_refl _)
  obtain ⟨L1, l1, l2, l3⟩ := swapSeg_ok h.sqL (k := k) (i := i) (a := 0) (b := k) hk hi hik (by omega) (by omega)
  obtain ⟨U2, w1, w2, w3⟩ := swapSeg_ok h.sqU' (k := k) (i := i) (a := k) (b := n) hk hi hik (by omega) (le_refl _)
  obtain ⟨L2, m1, m2, m3⟩ := swapSeg_ok h.sqL' (k := k) (i := i) (a := 0) (b := k) hk hi hik (by omega) (by omega)
  obtain ⟨rt', r1, r2, r3⟩ := swapIdx_ok (l := s.rt) (i := i) (k := k) (h.rtl ▸ hi) (h.rtl ▸ hk) hik
  rw [u1, l1, r1, w1, m1, ← h.rt, r1]
  simp only [ok_bind, pure_eq_ok, Rel_ok]
  refine ⟨u2, w2, l2, m2, fun r c => ?_, rfl, ?_, r2.trans h.rtl, fun j hj => ?_, fun a t ha ht => ?_, fun a t ha ht hn => ?_⟩
  · show val U1 r c = val U2 r c
    rw [u3, w3]; simp only [h.u]
  · show s.pc + 1 = s'.pc + 1
    rw [h.pc]
  · show rt'.getD j 0 < n
    rw [r3]
    split
    · exact h.rtb _ hi
    · split
      · exact h.rtb _ hk
      · exact h.rtb _ hj
  · show val L1 a t = if _ then val L2 a t else _
    rw [l3, m3]
    by_cases htk : t < k
    · rw [if_pos (show 0 ≤ t ∧ t < k by omega), if_pos (show 0 ≤ t ∧ t < k by omega)]
      by_cases hak : a = k
      · rw [if_pos hak, if_pos hak, if_pos (by omega), h.l _ _ hi ht, if_pos (by omega)]
      · rw [if_neg hak, if_neg hak]
        by_cases hai : a = i
        · rw [if_pos hai, if_pos hai, if_pos (by omega), h.l _ _ hk ht, if_pos (by omega)]
        · rw [if_neg hai, if_neg hai, h.l _ _ ha ht]
    · rw [if_neg (show ¬ (0 ≤ t ∧ t < k) by omega), if_neg (show ¬ (0 ≤ t ∧ t < k) by omega), h.l _ _ ha ht]
  · show val L2 a t = _
    rw [m3]
    by_cases htk : t < k
    · rw [if_pos (show 0 ≤ t ∧ t < k by omega), if_neg (show ¬ a = k by omega), if_neg (show ¬ a = i by omega), h.l' _ _ ha ht hn]
    · rw [if_neg (show ¬ (0 ≤ t ∧ t < k) by omega), h.l' _ _ ha ht hn]

theorem step_rel (absv : T → V) (eps : V) {O O' : M} {k : Nat} {s s' : St M} (h : DRel O O' n k s s') (hk : k < n) :
    Rel (step absv eps n k s) (step absv eps n k s') (DRel O O' n (k + 1)) := by
  unfold step
  rw [← findPivot_congr absv h.sqU h.sqU' hk h.u]
  obtain ⟨⟨i, m⟩, f1, f2, f3, f4⟩ := findPivot_ok (n := n) absv h.sqU hk
  simp only at f2 f3
  simp only [f1, ok_bind]
  refine Rel.bind (reorder_rel h f2 f3) fun s s' h => ?_
  rw [h.sqU.get hk hk, h.sqU'.get hk hk, ← h.u]
  simp only [ok_bind]
  by_cases hle : absv (val s.U k k) ≤ eps
  · rw [throwIf_true _ hle]; rfl
  rw [throwIf_false _ hle]
  obtain ⟨UL, e1, e2, e3, e4, e5⟩ := eliminate_ok h.sqU h.sqL hk
  obtain ⟨UL', d1, d2, d3, d4, d5⟩ := eliminate_ok h.sqU' h.sqL' hk
  simp only [ok_bind, e1, d1, pure_eq_ok, Rel_ok]
  refine ⟨e2, d2, e3, d3, fun r c => ?_, h.rt, h.pc, h.rtl, h.rtb, fun a t ha ht => ?_, fun a t ha ht hn => ?_⟩
  · show val UL.1 r c = val UL'.1 r c
    rw [e4, d4]; simp only [h.u]
  · show val UL.2 a t = if _ then val UL'.2 a t else _
    rw [e5, d5, ← h.u, ← h.u]
    by_cases htk : k < a ∧ a < n ∧ t = k
    · rw [if_pos htk, if_pos (by omega), if_pos htk]
    · rw [if_neg htk, h.l _ _ ha ht, if_neg htk]
      have : (t < k + 1 ∧ t < a) ↔ (t < k ∧ t < a) := by omega
      simp only [this]
  · show val UL'.2 a t = _
    rw [d5, if_neg (by omega), h.l' _ _ ha ht (by omega)]

/-- two runs of `doolittle` on the same matrix, with different old contents of the output matrices -/
theorem doolittleFrom_rel (absv : T → V) (eps : V) {A L P L' P' : M} (hA : Sq n A) (hL : Sq n L) (hP : Sq n P)
    (hL' : Sq n L') (hP' : Sq n P') :
    Rel (doolittleFrom absv eps A L P) (doolittleFrom absv eps A L' P') (fun r z =>
      Sq n r.1 ∧ Sq n r.2.1 ∧ Sq n r.2.2.1 ∧ Sq n z.1 ∧ Sq n z.2.1 ∧ Sq n z.2.2.1 ∧ r.2.2.2 = z.2.2.2 ∧
      (∀ a t, val r.2.1 a t = val z.2.1 a t) ∧
      (∀ a t, a < n → t < n → val r.1 a t = if t < a then val z.1 a t else if a = t then 1 else val L a t) ∧
      (∀ a t, a < n → t < n → ¬ t < a → val z.1 a t = if a = t then 1 else val L' a t) ∧
      ∃ rt : List Nat, (∀ i, i < n → rt.getD i 0 < n) ∧
        (∀ i j, val r.2.2.1 i j = if i < n ∧ j = rt.getD i 0 then 1 else val P i j) ∧
        (∀ i j, val z.2.2.1 i j = if i < n ∧ j = rt.getD i 0 then 1 else val P' i j)) := by
  have hn := hA.pos
  unfold doolittleFrom
  obtain ⟨⟨L0, rt0⟩, s1, s2, s3, s4, s5⟩ := setup_dirty hL
  obtain ⟨⟨L0', rt0'⟩, t1, t2, t3, t4, t5⟩ := setup_dirty hL'
  simp only at s2 s3 s4 s5 t2 t3 t4 t5
  have hrt : rt0 = rt0' := by
    apply List.ext_getElem (by omega)
    intro i h1 h2
    have := (s5 i (by omega)).trans (t5 i (by omega)).symm
    simpa [List.getD_eq_getElem?_getD, h1, h2] using this
  simp only [hA.hr, s1, t1, ok_bind]
  rw [wsub_of_le (show 1 ≤ n by omega)]
  refine Rel.bind (rel_forRange (fun k s s' => DRel L L' n k s s') (Nat.zero_le _) ?_
    (fun j s s' _ hj h => step_rel absv eps h (by omega))) ?_
  · refine ⟨hA, hA, s2, t2, fun _ _ => rfl, hrt, rfl, s4, fun i hi => ?_, fun a t ha ht => ?_, fun a t ha ht _ => ?_⟩
    · show rt0.getD i 0 < n
      rw [s5 i hi]; exact hi
    · show val L0 a t = _
      rw [s3, if_neg (c := t < 0 ∧ _) (by omega)]
      have : (a = t ∧ a < n) ↔ a = t := by omega
      simp only [this]
    · show val L0' a t = _
      rw [t3]
      have : (a = t ∧ a < n) ↔ a = t := by omega
      simp only [this]
  · intro s s' h
    obtain ⟨P1, q1, q2, q3⟩ := buildP_dirty hP h.rtl h.rtb
    obtain ⟨P2, v1, v2, v3⟩ := buildP_dirty hP' h.rtl h.rtb
    rw [← h.rt]
    simp only [q1, v1, ok_bind, pure_eq_ok, Rel_ok]
    refine ⟨h.sqL, h.sqU, q2, h.sqL', h.sqU', v2, h.pc, h.u, fun a t ha ht => ?_, fun a t ha ht hta => ?_, s.rt, h.rtb, q3, v3⟩
    · rw [h.l _ _ ha ht]
      have : (t < n - 1 ∧ t < a) ↔ t < a := by omega
      simp only [this]
    · exact h.l' _ _ ha ht (by omega)

end weak
section field
variable {M T V : Type} [Field T] [DecidableEq T] [MatOps M T] [LawfulMat M T]
variable {n : Nat}

/-- what the old content `O` of `L` adds to the sum of `LU.inl:38-42` for entry `(a,t)`: the old entry itself, times the pivot, and the
products of old entries right of column `t` -/
def stale (O : Nat → Nat → T) (d : T) (a t : Nat) : T := O a t * d + ∑ k ∈ Finset.range a, if t < k then O a k * O t k else 0

/-- `X` holds the first `j` columns that `cholesky` computes from `m` when `L` held `O` on entry. -/
structure CholDirty (sqrtAllowed : T → Bool) (sqrt : T → T) (n : Nat) (m O : M) (j : Nat) (X : M) : Prop where
  sq : Sq n X
  old : ∀ a t, a < t ∨ j ≤ t → val X a t = val O a t
  diag : ∀ t, t < j → val X t t ≠ 0 ∧ sqrtAllowed (cholS m X t) = true ∧ val X t t = sqrt (cholS m X t)
  eqs : ∀ t, t < j → ∀ a, t < a → a < n →
    val X a t * val X t t = val m a t - ∑ k ∈ Finset.range t, val X a k * val X t k - stale (val O) (val X t t) a t

theorem sum_split_at (f : Nat → T) {t a : Nat} (h : t < a) :
    ∑ k ∈ Finset.range a, f k = ∑ k ∈ Finset.range t, f k + f t + ∑ k ∈ Finset.range a, if t < k then f k else 0 := by
  have h1 : ∀ k ∈ Finset.range a, f k = (if k < t then f k else 0) + (if k = t then f k else 0) + (if t < k then f k else 0) := by
    intro k _
    rcases lt_trichotomy k t with h | h | h
    · rw [if_pos h, if_neg (by omega), if_neg (by omega)]; simp
    · rw [if_neg (by omega), if_pos h, if_neg (by omega)]; simp
    · rw [if_neg (by omega), if_neg (by omega), if_pos h]; simp
  rw [Finset.sum_congr rfl h1, Finset.sum_add_distrib, Finset.sum_add_distrib]
  congr 2
  · rw [sum_trunc (j := t) (n := a) _ (le_of_lt h) (fun k h1 _ => if_neg (by omega))]
    exact Finset.sum_congr rfl (fun k hk => if_pos (Finset.mem_range.1 hk))
  · rw [Finset.sum_eq_single t]
    · rw [if_pos rfl]
    · intro k _ hk; rw [if_neg hk]
    · intro hh; exact absurd (Finset.mem_range.2 h) hh

theorem cholesky_dirty (sqrtAllowed : T → Bool) (na : Bool) (sqrt : T → T)
    (hsqrt : ∀ s, sqrtAllowed s = true → sqrt s * sqrt s = s)
    {m O : M} (hm : Sq n m) (hO : Sq n O) :
    Sat (cholesky sqrtAllowed na sqrt m O)
      (CholDirty sqrtAllowed sqrt n m O n)
      (fun e => (e = .exc .notPositiveDefinite ∨ e = .nonfinite) ∧ ∃ j X, j < n ∧ CholDirty sqrtAllowed sqrt n m O j X ∧
        (sqrtAllowed (cholS m X j) = false ∨ sqrt (cholS m X j) = 0)) := by
  unfold cholesky
  rw [throwIf_false _ (by rw [hm.hr, hm.hc]; simp), throwIf_false _ (by rw [hm.hr, hm.hc, hO.hr, hO.hc]; simp)]
  simp only [ok_bind, hO.hr]
  refine sat_forRange (fun j L => CholDirty sqrtAllowed sqrt n m O j L) (Nat.zero_le _)
      ⟨hO, fun a t _ => rfl, fun t h => by omega, fun t h => by omega⟩ ?_
  rintro j X _ hj hC
  obtain ⟨hX, z, hD, hE⟩ := hC
  rw [forRange_sum' j _ (fun k => val X j k * val X j k) (by
    intro k v hk; rw [hX.get hj (by omega)]; rfl)]
  simp only [ok_bind, hm.get hj hj]
  change Sat (throwIf (sqrtAllowed (cholS m X j) = false) .notPositiveDefinite >>= _) _ _
  show Sat (throwIf (sqrtAllowed (cholS m X j) = false) .notPositiveDefinite >>= fun _ => _) _ _
  have hsdef : val m j j - ∑ k ∈ Finset.range j, val X j k * val X j k = cholS m X j := rfl
  simp only [hsdef]
  generalize hs : cholS m X j = s
  by_cases hsa : sqrtAllowed s = false
  · rw [throwIf_true _ hsa]
    exact ⟨Or.inl rfl, j, X, hj, ⟨hX, z, hD, hE⟩, Or.inl (by rw [hs]; exact hsa)⟩
  rw [throwIf_false _ hsa]
  have hsq := hsqrt s (by simpa using hsa)
  obtain ⟨Y, p1, p2, p3⟩ := hX.put (sqrt s) (i := j) (j := j) hj hj
  simp only [ok_bind, p1]
  rw [p2.hr]
  by_cases h0 : sqrt s = 0
  · rw [if_pos h0]
    unfold zeroPivot
    split
    · exact ⟨Or.inr rfl, j, X, hj, ⟨hX, z, hD, hE⟩, Or.inr (by rw [hs]; exact h0)⟩
    · exact ⟨Or.inl rfl, j, X, hj, ⟨hX, z, hD, hE⟩, Or.inr (by rw [hs]; exact h0)⟩
  rw [if_neg h0]
  refine (sat_forRange (fun i (Z : M) => Sq n Z ∧ (∀ a t, t ≠ j → val Z a t = val X a t) ∧
      (∀ a, a ≠ j → (a < j ∨ i ≤ a) → val Z a j = val O a j) ∧ val Z j j = sqrt s ∧
      (∀ a, j < a → a < i → val Z a j * sqrt s = val m a j - ∑ k ∈ Finset.range j, val X a k * val X j k
        - stale (val O) (sqrt s) a j)) (show j ≤ n by omega)
      ?_ ?_).mono ?_ (fun _ h => h)
  · refine ⟨p2, fun a t ht => ?_, fun a ha _ => ?_, ?_, fun a h1 h2 => by omega⟩
    · rw [p3, if_neg (by tauto)]
    · rw [p3, if_neg (by omega)]; exact z _ _ (Or.inr (le_refl _))
    · rw [p3, if_pos ⟨rfl, rfl⟩]
  · rintro i Z hi hin ⟨hZ, c1, c2, c3, c4⟩
    rw [forRange_sum' i _ (fun k => val Z i k * val Z j k) (by
      intro k v hk; rw [hZ.get hin (by omega), hZ.get hj (by omega)]; rfl)]
    simp only [ok_bind, hm.get hin hj, hZ.get hj hj]
    obtain ⟨W, q1, q2, q3⟩ := hZ.put ((val m i j - ∑ k ∈ Finset.range i, val Z i k * val Z j k) / val Z j j)
      (i := i) (j := j) hin hj
    simp only [q1, Sat_ok]
    have hpre : ∑ k ∈ Finset.range j, val Z i k * val Z j k = ∑ k ∈ Finset.range j, val X i k * val X j k :=
      Finset.sum_congr rfl (fun k hk => by
        have := Finset.mem_range.1 hk
        rw [c1 _ _ (by omega), c1 _ _ (by omega)])
    refine ⟨q2, fun a t ht => ?_, fun a ha hr => ?_, ?_, fun a h1 h2 => ?_⟩
    · rw [q3, if_neg (by tauto), c1 _ _ ht]
    · rw [q3, if_neg (by omega), c2 _ ha (by omega)]
    · rw [q3]
      by_cases hij : j = i
      · subst hij
        rw [if_pos ⟨rfl, rfl⟩, c3, hpre, div_eq_iff h0, hsq, ← hs]; rfl
      · rw [if_neg (by tauto), c3]
    · rw [q3]
      by_cases hai : a = i
      · subst hai
        rw [if_pos ⟨rfl, rfl⟩, c3, div_mul_cancel₀ _ h0, sum_split_at _ h1, hpre, c3, c2 a (by omega) (Or.inr (le_refl _))]
        have : ∑ k ∈ Finset.range a, (if j < k then val Z a k * val Z j k else 0)
            = ∑ k ∈ Finset.range a, if j < k then val O a k * val O j k else 0 :=
          Finset.sum_congr rfl (fun k _ => by
            by_cases hk : j < k
            · rw [if_pos hk, if_pos hk, c1 _ _ (by omega), c1 _ _ (by omega), z _ _ (Or.inr (by omega)), z _ _ (Or.inr (by omega))]
            · rw [if_neg hk, if_neg hk])
        rw [this]; unfold stale; ring
      · rw [if_neg (by tauto)]; exact c4 a h1 (by omega)
  · rintro Z ⟨hZ, c1, c2, c3, c4⟩
    have hpiv : ∀ t, t ≤ j → cholS m Z t = cholS m X t := by
      intro t ht
      unfold cholS
      congr 1
      exact Finset.sum_congr rfl (fun k hk => by
        have := Finset.mem_range.1 hk
        rw [c1 _ _ (by omega)])
    refine ⟨hZ, fun a t hat => ?_, fun t ht => ?_, fun t ht a hta han => ?_⟩
    · by_cases htj : t = j
      · subst htj; exact c2 a (by omega) (by omega)
      · rw [c1 _ _ htj]; exact z _ _ (by omega)
    · rw [hpiv t (by omega)]
      by_cases htj : t = j
      · subst htj; rw [c3, hs]; exact ⟨h0, by simpa using hsa, rfl⟩
      · rw [c1 _ _ htj]; exact hD t (by omega)
    · have hpre : ∑ k ∈ Finset.range t, val Z a k * val Z t k = ∑ k ∈ Finset.range t, val X a k * val X t k :=
        Finset.sum_congr rfl (fun k hk => by
          have := Finset.mem_range.1 hk
          rw [c1 _ _ (by omega), c1 _ _ (by omega)])
      rw [hpre]
      by_cases htj : t = j
      · subst htj; rw [c3]; exact c4 a hta han
      · rw [c1 _ _ htj, c1 _ _ htj]; exact hE t (by omega) a hta han

/-- agreement of the computed columns with a factor `C` that obeys the equations without old content -/
theorem CholDirty.agree {sqrtAllowed : T → Bool} {sqrt : T → T} {m O C Z : M} {j : Nat} {X : M}
    (h : CholDirty sqrtAllowed sqrt n m O j X) (hj : j ≤ n) (hC : CholDirty sqrtAllowed sqrt n m Z n C)
    (hZ : ∀ i j, val Z i j = 0)
    (hs : ∀ t a, t < a → a < n → stale (val O) (val C t t) a t = 0) :
    ∀ t, t < j → ∀ a, t ≤ a → a < n → val X a t = val C a t := by
  intro t
  induction t using Nat.strong_induction_on with
  | _ t ih =>
    intro htj
    have hrow : ∀ a k, k < t → t ≤ a → a < n → val X a k = val C a k := fun a k hk ha han => ih k hk (by omega) a (by omega) han
    have hp : cholS m X t = cholS m C t := by
      unfold cholS
      congr 1
      exact Finset.sum_congr rfl (fun k hk => by
        have := Finset.mem_range.1 hk
        rw [hrow t k this (le_refl _) (by omega)])
    have hd : val X t t = val C t t := by
      rw [(h.diag t htj).2.2, (hC.diag t (by omega)).2.2, hp]
    intro a hta han
    rcases eq_or_lt_of_le hta with rfl | hlt
    · exact hd
    · have e1 := h.eqs t htj a hlt han
      have e2 := hC.eqs t (by omega) a hlt han
      have hne := (hC.diag t (by omega)).1
      have hz0 : stale (val Z) (val C t t) a t = 0 := by
        unfold stale
        rw [hZ, zero_mul, zero_add]
        exact Finset.sum_eq_zero (fun k _ => by rw [hZ, zero_mul, ite_self])
      rw [hd, hs t a hlt han, sub_zero] at e1
      rw [hz0, sub_zero] at e2
      have : ∑ k ∈ Finset.range t, val X a k * val X t k = ∑ k ∈ Finset.range t, val C a k * val C t k :=
        Finset.sum_congr rfl (fun k hk => by
          have := Finset.mem_range.1 hk
          rw [hrow t k this (le_refl _) (by omega), hrow a k this (by omega) han])
      rw [this, ← e2] at e1
      exact mul_right_cancel₀ hne e1

/-- `cholesky` with old content `O`, when the same call with a zero `L` returns `C` -/
theorem cholesky_reuse (sqrtAllowed : T → Bool) (na : Bool) (sqrt : T → T)
    (hsqrt : ∀ s, sqrtAllowed s = true → sqrt s * sqrt s = s)
    {m O Z C : M} (hm : Sq n m) (hO : Sq n O) (hZ : Sq n Z) (hz : ∀ i j, val Z i j = 0)
    (hC : cholesky sqrtAllowed na sqrt m Z = .ok C) :
    (∃ X, cholesky sqrtAllowed na sqrt m O = .ok X ∧ ∀ t a, t ≤ a → a < n → val X a t = val C a t) ↔
    ∀ t a, t < a → a < n → stale (val O) (val C t t) a t = 0 := by
  have c1 := (cholesky_dirty sqrtAllowed na sqrt hsqrt hm hZ).of_ok hC
  constructor
  · rintro ⟨X, hX, hv⟩ t a hta han
    have c2 := (cholesky_dirty sqrtAllowed na sqrt hsqrt hm hO).of_ok hX
    have e1 := c2.eqs t (by omega) a hta han
    have e2 := c1.eqs t (by omega) a hta han
    have hz0 : stale (val Z) (val C t t) a t = 0 := by
      unfold stale
      rw [hz, zero_mul, zero_add]
      exact Finset.sum_eq_zero (fun k _ => by rw [hz, zero_mul, ite_self])
    rw [hz0, sub_zero] at e2
    have : ∑ k ∈ Finset.range t, val X a k * val X t k = ∑ k ∈ Finset.range t, val C a k * val C t k :=
      Finset.sum_congr rfl (fun k hk => by
        have := Finset.mem_range.1 hk
        rw [hv k t (by omega) (by omega), hv k a (by omega) han])
    rw [hv t a (by omega) han, hv t t (le_refl _) (by omega), this, e2] at e1
    have := sub_eq_self.1 e1.symm
    exact this
  · intro hs
    have h := cholesky_dirty sqrtAllowed na sqrt hsqrt hm hO
    cases hr : cholesky sqrtAllowed na sqrt m O with
    | ok X =>
      rw [hr] at h
      exact ⟨X, rfl, fun t a hta han => CholDirty.agree h (le_refl _) c1 hz hs t (by omega) a hta han⟩
    | error e =>
      rw [hr] at h
      obtain ⟨-, j, X, hj, hX, hp⟩ := h
      exfalso
      have hag := CholDirty.agree hX (le_of_lt hj) c1 hz hs
      have : cholS m X j = cholS m C j := by
        unfold cholS
        congr 1
        exact Finset.sum_congr rfl (fun k hk => by
          have := Finset.mem_range.1 hk
          rw [hag k this j (by omega) hj])
      rw [this] at hp
      obtain ⟨d1, d2, d3⟩ := c1.diag j hj
      rcases hp with hp | hp
      · rw [hp] at d2; cases d2
      · rw [d3] at d1; exact d1 hp

/-! ### `ainv_lu` -/

theorem ainvL_dirty {L X : M} (hL : Sq n L) (hX : Sq n X)
    (hu : ∀ i j, i ≤ j → j < n → val L i j = if i = j then 1 else 0) {k : Nat} (hk : k < n) :
    ∃ Y, ainvL L n k X = .ok Y ∧ Sq n Y ∧ (∀ i j, j ≠ k → val Y i j = val X i j) ∧
      (∀ i, i < k → val Y i k = val X i k) ∧
      ∀ i, k ≤ i → i < n → (∑ c ∈ Finset.range n, if k ≤ c then val L i c * val Y c k else 0) = if i = k then 1 else val X i k := by
  unfold ainvL
  obtain ⟨X1, p1, p2, p3⟩ := hX.put (1 : T) (i := k) (j := k) hk hk
  simp only [p1, ok_bind]
  apply Sat.ok_of
  refine (sat_forRange (fun i (Y : M) => Sq n Y ∧ (∀ a j, j ≠ k → val Y a j = val X a j) ∧
      (∀ a, a < k → val Y a k = val X a k) ∧ val Y k k = 1 ∧ (∀ a, i ≤ a → val Y a k = val X a k) ∧
      ∀ a, k ≤ a → a < i → (∑ c ∈ Finset.range n, if k ≤ c then val L a c * val Y c k else 0) = if a = k then 1 else val X a k)
      (show k + 1 ≤ n by omega) ?_ ?_).mono (fun Y h => ⟨h.1, h.2.1, h.2.2.1, h.2.2.2.2.2⟩) (fun _ h => h)
  · refine ⟨p2, fun a j hj => by rw [p3, if_neg (by tauto)], fun a ha => by rw [p3, if_neg (by omega)],
      by rw [p3, if_pos ⟨rfl, rfl⟩], fun a ha => by rw [p3, if_neg (by omega)], fun a ha1 ha => ?_⟩
    have hak : a = k := by omega
    subst hak
    rw [if_pos rfl, Finset.sum_eq_single a]
    · rw [if_pos (le_refl _), p3, if_pos ⟨rfl, rfl⟩, mul_one, hu a a (le_refl _) hk, if_pos rfl]
    · intro c hc hca
      by_cases h : a ≤ c
      · rw [if_pos h, hu a c h (Finset.mem_range.1 hc), if_neg (by omega), zero_mul]
      · rw [if_neg h]
    · intro h; exact absurd (Finset.mem_range.2 hk) h
  · rintro i Y hi hin ⟨hY, c1, c2, c3, c4, c5⟩
    obtain ⟨l, l1, l2, l3, l4⟩ := hL.row_sum hin
    simp only [hY.get hin hk, l1, ok_bind]
    rw [dropWhile_eq_filter (fun e : Nat × Nat × T => e.2.1) k l l2,
      takeWhile_eq_filter (fun e : Nat × Nat × T => e.2.1) i _ (l2.filter _), List.filter_filter]
    rw [subSum_ok (fun c => get Y c k) (fun c => val Y c k) _ _ (fun e he =>
      hY.get (l3 e (List.mem_filter.1 he).1) hk)]
    have hs := l4 (fun c => decide (c < i) && decide (k ≤ c)) (fun c => val Y c k)
    rw [hs]
    obtain ⟨W, q1, q2, q3⟩ := hY.put (val Y i k - ∑ j ∈ Finset.range n,
      if (decide (j < i) && decide (k ≤ j)) = true then val L i j * val Y j k else 0) (i := i) (j := k) hin hk
    simp only [ok_bind, q1, Sat_ok]
    refine ⟨q2, fun a j hj => by rw [q3, if_neg (by tauto), c1 _ _ hj], fun a ha => by rw [q3, if_neg (by omega), c2 a ha],
      by rw [q3, if_neg (by omega), c3], fun a ha => by rw [q3, if_neg (by omega), c4 a (by omega)], fun a ha1 ha => ?_⟩
    by_cases hai : a = i
    · subst hai
      rw [← Finset.add_sum_erase _ _ (Finset.mem_range.2 hin), if_pos ha1, q3, if_pos ⟨rfl, rfl⟩, c4 a (le_refl _),
        hu a a (le_refl _) hin, if_pos rfl, if_neg (show ¬ a = k by omega)]
      have : (∑ c ∈ (Finset.range n).erase a, if k ≤ c then val L a c * val W c k else 0) = ∑ j ∈ Finset.range n,
          if (decide (j < a) && decide (k ≤ j)) = true then val L a j * val Y j k else 0 := by
        rw [← Finset.add_sum_erase (Finset.range n) (fun j => if (decide (j < a) && decide (k ≤ j)) = true then val L a j * val Y j k else 0)
            (Finset.mem_range.2 hin)]
        rw [if_neg (by simp), zero_add]
        refine Finset.sum_congr rfl (fun c hc => ?_)
        obtain ⟨e1, e2⟩ := Finset.mem_erase.1 hc
        have hca' : ¬ (c = a ∧ k = k) := fun h => e1 h.1
        by_cases hkc : k ≤ c
        · rw [if_pos hkc, q3, if_neg hca']
          by_cases hca : c < a
          · rw [if_pos (by simp [hca, hkc])]
          · rw [if_neg (by simp [hca]), hu a c (by omega) (Finset.mem_range.1 e2), if_neg (Ne.symm e1), zero_mul]
        · rw [if_neg hkc, if_neg (by simp [hkc])]
      rw [this]; ring
    · rw [← c5 a ha1 (by omega)]
      refine Finset.sum_congr rfl (fun c hc => ?_)
      by_cases hkc : k ≤ c
      · rw [if_pos hkc, if_pos hkc, q3]
        by_cases hci : c = i
        · subst hci
          rw [if_pos ⟨rfl, rfl⟩, hu a c (by omega) hin, if_neg (by omega), zero_mul, zero_mul]
        · rw [if_neg (by tauto)]
      · rw [if_neg hkc, if_neg hkc]

theorem ainvLu_dirty [LinearOrder V] (absv : T → V) (eps : V) {L U X Y : M} (hL : Sq n L) (hU : Sq n U)
    (hX : Sq n X) (hY : Sq n Y) (hu : ∀ i j, i ≤ j → j < n → val L i j = if i = j then 1 else 0) :
    Sat (ainvLu absv eps L U X Y)
      (fun r => Sq n r.1 ∧ (∀ i j, i < j → val r.1 i j = val X i j) ∧
        ∀ i j, j ≤ i → i < n → (∑ c ∈ Finset.range n, if j ≤ c then val L i c * val r.1 c j else 0) = if i = j then 1 else val X i j)
      (fun e => e = .exc .singular) := by
  unfold ainvLu
  rw [throwIf_false _ (by rw [hL.hr, hL.hc]; simp), throwIf_false _ (by rw [hU.hr, hU.hc]; simp),
    throwIf_false _ (by rw [hX.hr, hX.hc]; simp), throwIf_false _ (by rw [hY.hr, hY.hc]; simp),
    throwIf_false _ (by rw [hL.hr, hU.hr]; simp), throwIf_false _ (by rw [hL.hr, hX.hr]; simp),
    throwIf_false _ (by rw [hL.hr, hY.hr]; simp)]
  simp only [ok_bind, hL.hc]
  refine (sat_forRange (fun k (r : M × M) => Sq n r.1 ∧ Sq n r.2 ∧ (∀ i j, k ≤ j ∨ i < j → val r.1 i j = val X i j) ∧
      ∀ i j, j < k → j ≤ i → i < n →
        (∑ c ∈ Finset.range n, if j ≤ c then val L i c * val r.1 c j else 0) = if i = j then 1 else val X i j)
      (Nat.zero_le _) ⟨hX, hY, fun i j _ => rfl, fun _ _ h => by omega⟩ ?_).mono ?_ (fun _ h => h)
  · rintro k ⟨A, B⟩ _ hk ⟨hA, hB, c1, c2⟩
    simp only at hA hB c1 c2
    obtain ⟨A', a1, a2, a3, a4, a5⟩ := ainvL_dirty hL hA hu hk
    simp only [a1, ok_bind]
    refine Sat.bind (ainvU_safe absv eps hU hB hk) ?_
    intro B' hB'
    simp only [pure_eq_ok, Sat_ok]
    refine ⟨a2, hB', fun i j hj => ?_, fun i j hj hij hi => ?_⟩
    · by_cases hjk : j = k
      · subst hjk; rw [a4 i (by omega)]; exact c1 _ _ (by omega)
      · rw [a3 _ _ hjk]; exact c1 _ _ (by omega)
    · by_cases hjk : j = k
      · subst hjk
        rw [a5 i hij hi, c1 i j (Or.inl (le_refl _))]
      · rw [← c2 i j (by omega) hij hi]
        exact Finset.sum_congr rfl (fun c _ => by rw [a3 _ _ hjk])
  · rintro ⟨A, B⟩ ⟨hA, hB, c1, c2⟩
    refine ⟨hA, fun i j hij => c1 i j (Or.inr hij), fun i j hij hi => c2 i j (by omega) hij hi⟩

end field

end LU
end NS

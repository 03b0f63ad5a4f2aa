/-
API-level lemmas for the sparse operators.
-/
import Verif.SparseInv
import Mathlib.Algebra.BigOperators.Group.Finset.Sigma

set_option linter.unusedSectionVars false
set_option linter.unusedSimpArgs false

namespace NS
namespace Sparse
variable {T : Type}

theorem forList_fold_ok {α σ : Type _} {f : α → σ → R σ} (g : σ → α → σ) (l : List α) (s : σ)
    (h : ∀ a ∈ l, ∀ s, f a s = .ok (g s a)) : forList l s f = .ok (l.foldl g s) := by
  induction l generalizing s with
  | nil => rfl
  | cons a l ih =>
    simp only [forList, h a (by simp), ok_bind, List.foldl_cons]
    exact ih _ (fun b hb => h b (by simp [hb]))

theorem forList_count {α : Type _} (l : List α) (n : Nat) :
    forList l n (fun _ k => (.ok (k + 1) : R Nat)) = .ok (n + l.length) := by
  induction l generalizing n with
  | nil => rfl
  | cons a l ih => simp only [forList, ok_bind, ih, List.length_cons]; congr 1; omega

section
variable [Zero T] [DecidableEq T]

theorem PosLt.ne {a b : Nat × Nat × T} (h : PosLt a b) : (a.1, a.2.1) ≠ (b.1, b.2.1) := by
  intro he
  simp only [Prod.mk.injEq] at he
  rcases h with h | h
  · omega
  · omega

/-- A loop of single-entry updates at pairwise distinct positions. -/
theorem fold_set {E : Type _} (key : E → Nat × Nat) (g : E → T → T) (body : E → Sparse T → R (Sparse T))
    (R' C : Nat) (l : List E) (hnd : l.Pairwise (fun a b => key a ≠ key b))
    (hbody : ∀ e ∈ l, ∀ s : Sparse T, Inv s → s.rows = R' → s.columns = C →
      ∃ s', body e s = .ok s' ∧ Inv s' ∧ s'.rows = R' ∧ s'.columns = C ∧
        ∀ a b, s'.val a b = if (a, b) = key e then g e (s.val a b) else s.val a b)
    (s0 : Sparse T) (h0 : Inv s0) (hr : s0.rows = R') (hc : s0.columns = C) :
    ∃ s', forList l s0 body = .ok s' ∧ Inv s' ∧ s'.rows = R' ∧ s'.columns = C ∧
      (∀ e ∈ l, s'.val (key e).1 (key e).2 = g e (s0.val (key e).1 (key e).2)) ∧
      (∀ a b, (∀ e ∈ l, key e ≠ (a, b)) → s'.val a b = s0.val a b) := by
  induction l generalizing s0 with
  | nil => exact ⟨s0, rfl, h0, hr, hc, by simp, fun _ _ _ => rfl⟩
  | cons e l ih =>
    rw [List.pairwise_cons] at hnd
    obtain ⟨s1, b1, b2, b3, b4, b5⟩ := hbody e (by simp) s0 h0 hr hc
    obtain ⟨s2, c1, c2, c3, c4, c5, c6⟩ := ih hnd.2 (fun e he => hbody e (by simp [he])) s1 b2 b3 b4
    refine ⟨s2, by simp only [forList, b1, ok_bind, c1], c2, c3, c4, ?_, ?_⟩
    · intro x hx
      rcases List.mem_cons.1 hx with h | h
      · subst h
        rw [c6 _ _ (fun e he heq => hnd.1 e he heq.symm), b5, if_pos rfl]
      · rw [c5 x h, b5, if_neg]
        intro heq; exact hnd.1 x h heq.symm
    · intro a b hab
      rw [c6 a b (fun e he => hab e (by simp [he])), b5, if_neg]
      intro heq; exact hab e (by simp) heq.symm

/-- The list of entries of an invariant-satisfying matrix. -/
structure IsEntries (s : Sparse T) (l : List (Nat × Nat × T)) : Prop where
  sorted : l.Pairwise PosLt
  mem : ∀ e, e ∈ l ↔ e.2.2 = s.val e.1 e.2.1 ∧ e.2.2 ≠ 0
  range : ∀ e ∈ l, e.1 < s.rows ∧ e.2.1 < s.columns

theorem Inv.entries' {s : Sparse T} (h : Inv s) : ∃ l, s.entries = .ok l ∧ s.entriesNC = .ok l ∧ IsEntries s l := by
  obtain ⟨l, h1, h2, h3, _, h5, h6, _⟩ := h.entries_ok
  exact ⟨l, h1, h2, h3, h5, h6⟩

theorem IsEntries.nd {s : Sparse T} {l} (h : IsEntries s l) :
    l.Pairwise (fun a b => (a.1, a.2.1) ≠ (b.1, b.2.1)) := h.sorted.imp PosLt.ne

theorem IsEntries.nd' {s : Sparse T} {l} (h : IsEntries s l) :
    l.Pairwise (fun a b => (a.2.1, a.1) ≠ (b.2.1, b.1)) := h.nd.imp (by
      intro a b h1 h2; apply h1
      simp only [Prod.mk.injEq] at h2 ⊢; exact ⟨h2.2, h2.1⟩)

/-- Fold of updates at the entry positions of `t`, result for all positions. -/
theorem fold_entries {t : Sparse T} {l} (hl : IsEntries t l) (g : T → T → T)
    (hg : ∀ x, g 0 x = x)
    (s0 : Sparse T) (h0 : Inv s0) (hr : t.rows ≤ s0.rows) (hc : t.columns ≤ s0.columns)
    (body : Nat × Nat × T → Sparse T → R (Sparse T))
    (hbody : ∀ e s, Inv s → e.1 < s.rows → e.2.1 < s.columns →
      body e s = s.set e.1 e.2.1 (g e.2.2 (s.val e.1 e.2.1))) :
    ∃ s', forList l s0 body = .ok s' ∧ Inv s' ∧ s'.rows = s0.rows ∧ s'.columns = s0.columns ∧
      ∀ a b, s'.val a b = g (t.val a b) (s0.val a b) := by
  obtain ⟨s', h1, h2, h3, h4, h5, h6⟩ := fold_set (fun e : Nat × Nat × T => (e.1, e.2.1))
    (fun e x => g e.2.2 x) body s0.rows s0.columns l hl.nd (by
      intro e he s hs hsr hsc
      have := hl.range e he
      obtain ⟨s', h1, h2, h3, h4, h5⟩ := hs.set_ok (i := e.1) (j := e.2.1) (g e.2.2 (s.val e.1 e.2.1))
        (by omega) (by omega)
      refine ⟨s', by rw [hbody e s hs (by omega) (by omega), h1], h2, by omega, by omega, ?_⟩
      intro a b
      rw [h5]
      by_cases hab : a = e.1 ∧ b = e.2.1
      · rw [if_pos hab, if_pos (by simp [hab]), hab.1, hab.2]
      · rw [if_neg hab, if_neg (by simpa using hab)]) s0 h0 rfl rfl
  refine ⟨s', h1, h2, h3, h4, ?_⟩
  intro a b
  by_cases ht : t.val a b = 0
  · rw [ht, hg]
    apply h6
    intro e he heq
    have := (hl.mem e).1 he
    simp only [Prod.mk.injEq] at heq
    rw [heq.1, heq.2, ht] at this
    exact this.2 this.1
  · have := h5 (a, b, t.val a b) ((hl.mem _).2 ⟨rfl, ht⟩)
    simpa using this

/-- Copying the entries of `t` into a zero matrix, transformed by `h` and possibly transposed. -/
theorem fold_copy {t : Sparse T} {l} (hl : IsEntries t l) (tr : Bool) (h : T → T) (hh : h 0 = 0)
    (s0 : Sparse T) (h0 : Inv s0) (hr : s0.rows = if tr then t.columns else t.rows)
    (hc : s0.columns = if tr then t.rows else t.columns) (hz : ∀ a b, s0.val a b = 0) :
    ∃ s', forList l s0 (fun e s => if tr then s.set e.2.1 e.1 (h e.2.2) else s.set e.1 e.2.1 (h e.2.2)) = .ok s' ∧
      Inv s' ∧ s'.rows = s0.rows ∧ s'.columns = s0.columns ∧
      ∀ a b, s'.val a b = if tr then h (t.val b a) else h (t.val a b) := by
  obtain ⟨s', h1, h2, h3, h4, h5, h6⟩ := fold_set
    (fun e : Nat × Nat × T => if tr then (e.2.1, e.1) else (e.1, e.2.1))
    (fun e _ => h e.2.2) (fun e s => if tr then s.set e.2.1 e.1 (h e.2.2) else s.set e.1 e.2.1 (h e.2.2))
    s0.rows s0.columns l (by
      cases tr with
      | true => simpa using hl.nd'
      | false => simpa using hl.nd) (by
      intro e he s hs hsr hsc
      have := hl.range e he
      cases tr with
      | true =>
        simp only [if_true] at hr hc
        obtain ⟨s', h1, h2, h3, h4, h5⟩ := hs.set_ok (i := e.2.1) (j := e.1) (h e.2.2)
          (by omega) (by omega)
        refine ⟨s', by simpa using h1, h2, by omega, by omega, ?_⟩
        intro a b
        rw [h5]; simp
      | false =>
        simp only [Bool.false_eq_true, if_false] at hr hc
        obtain ⟨s', h1, h2, h3, h4, h5⟩ := hs.set_ok (i := e.1) (j := e.2.1) (h e.2.2)
          (by omega) (by omega)
        refine ⟨s', by simpa using h1, h2, by omega, by omega, ?_⟩
        intro a b
        rw [h5]; simp) s0 h0 rfl rfl
  refine ⟨s', h1, h2, h3, h4, ?_⟩
  intro a b
  cases tr with
  | true =>
    simp only [if_true] at h5 h6 ⊢
    by_cases ht : t.val b a = 0
    · rw [ht, hh, h6, hz]
      intro e he heq
      have := (hl.mem e).1 he
      simp only [Prod.mk.injEq] at heq
      rw [heq.1, heq.2, ht] at this
      exact this.2 this.1
    · exact h5 (b, a, t.val b a) ((hl.mem _).2 ⟨rfl, ht⟩)
  | false =>
    simp only [Bool.false_eq_true, if_false] at h5 h6 ⊢
    by_cases ht : t.val a b = 0
    · rw [ht, hh, h6, hz]
      intro e he heq
      have := (hl.mem e).1 he
      simp only [Prod.mk.injEq] at heq
      rw [heq.1, heq.2, ht] at this
      exact this.2 this.1
    · exact h5 (a, b, t.val a b) ((hl.mem _).2 ⟨rfl, ht⟩)

/-! ### filled count -/

theorem Inv.filledCount_eq {s : Sparse T} (h : Inv s) :
    s.filledCount = (((Finset.range s.rows) ×ˢ (Finset.range s.columns)).filter
      (fun p => s.val p.1 p.2 ≠ 0)).card := by
  obtain ⟨l, h1, h2, h3, h4, h5, h6, _⟩ := h.entries_ok
  rw [← h4]
  have hnd : (l.map (fun e => (e.1, e.2.1))).Nodup := by
    rw [List.Nodup, List.pairwise_map]; exact h3.imp PosLt.ne
  have hs : (l.map (fun e => (e.1, e.2.1))).toFinset = ((Finset.range s.rows) ×ˢ (Finset.range s.columns)).filter
      (fun p => s.val p.1 p.2 ≠ 0) := by
    ext ⟨a, b⟩
    simp only [List.mem_toFinset, List.mem_map, Finset.mem_filter, Finset.mem_product, Finset.mem_range]
    constructor
    · rintro ⟨e, he, heq⟩
      simp only [Prod.mk.injEq] at heq
      obtain ⟨rfl, rfl⟩ := heq
      have := (h5 e).1 he
      exact ⟨h6 e he, by rw [← this.1]; exact this.2⟩
    · rintro ⟨_, hne⟩
      exact ⟨(a, b, s.val a b), (h5 _).2 ⟨rfl, hne⟩, rfl⟩
  rw [← hs, List.toFinset_card_of_nodup hnd, List.length_map]

end

section ring
variable [CommRing T] [DecidableEq T]

theorem IsEntries.sum_eq {s : Sparse T} {l} (h : IsEntries s l) (f : Nat → Nat → T → T)
    (hf : ∀ i j, f i j 0 = 0) :
    (l.map (fun e => f e.1 e.2.1 e.2.2)).sum
      = ∑ i ∈ Finset.range s.rows, ∑ j ∈ Finset.range s.columns, f i j (s.val i j) := by
  have hnd : (l.map (fun e => (e.1, e.2.1))).Nodup := by
    rw [List.Nodup, List.pairwise_map]; exact h.nd
  have h1 : l.map (fun e => f e.1 e.2.1 e.2.2)
      = (l.map (fun e => (e.1, e.2.1))).map (fun p => f p.1 p.2 (s.val p.1 p.2)) := by
    rw [List.map_map]
    apply List.map_congr_left
    intro e he
    simp only [Function.comp]
    rw [((h.mem e).1 he).1]
  rw [h1, ← List.sum_toFinset _ hnd]
  have hs : (l.map (fun e => (e.1, e.2.1))).toFinset ⊆
      (Finset.range s.rows) ×ˢ (Finset.range s.columns) := by
    rintro ⟨a, b⟩ hab
    simp only [List.mem_toFinset, List.mem_map] at hab
    obtain ⟨e, he, heq⟩ := hab
    simp only [Prod.mk.injEq] at heq
    obtain ⟨rfl, rfl⟩ := heq
    simpa using h.range e he
  rw [Finset.sum_subset hs, Finset.sum_product]
  rintro ⟨a, b⟩ _ hn
  have : s.val a b = 0 := by
    by_contra hne
    apply hn
    simp only [List.mem_toFinset, List.mem_map]
    exact ⟨(a, b, s.val a b), (h.mem _).2 ⟨rfl, hne⟩, rfl⟩
  simp [this, hf]

theorem Inv.rowEntries_sum {s : Sparse T} (h : Inv s) {i : Nat} (hi : i < s.rows) :
    ∃ l, s.rowEntries i = .ok l ∧ (∀ e ∈ l, e.2.1 < s.columns) ∧
      ∀ f : Nat → T, (l.map (fun e => e.2.2 * f e.2.1)).sum
        = ∑ j ∈ Finset.range s.columns, s.val i j * f j := by
  obtain ⟨l, h1, h2, h3, h4⟩ := h.rowEntries_ok hi
  refine ⟨l, h1, fun e he => (h4 e he).2, ?_⟩
  intro f
  have hnd : (l.map (fun e => e.2.1)).Nodup := by
    rw [List.Nodup, List.pairwise_map]; exact h2.imp (fun h => Nat.ne_of_lt h)
  have h1 : l.map (fun e => e.2.2 * f e.2.1) = (l.map (fun e => e.2.1)).map (fun j => s.val i j * f j) := by
    rw [List.map_map]
    apply List.map_congr_left
    intro e he
    have := (h3 e).1 he
    simp only [Function.comp]
    rw [this.2.1, this.1]
  rw [h1, ← List.sum_toFinset _ hnd]
  apply Finset.sum_subset
  · intro a ha
    simp only [List.mem_toFinset, List.mem_map] at ha
    obtain ⟨e, he, rfl⟩ := ha
    simpa using (h4 e he).2
  · intro j _ hn
    have : s.val i j = 0 := by
      by_contra hne
      apply hn
      simp only [List.mem_toFinset, List.mem_map]
      exact ⟨(i, j, s.val i j), (h3 _).2 ⟨rfl, rfl, hne⟩, rfl⟩
    simp [this]

theorem Inv.add_ok {s t : Sparse T} (hs : Inv s) (ht : Inv t) (hr : t.rows ≤ s.rows)
    (hc : t.columns ≤ s.columns) :
    ∃ u, addAssign s t = .ok u ∧ Inv u ∧ u.rows = s.rows ∧ u.columns = s.columns ∧
      ∀ i j, u.val i j = s.val i j + t.val i j := by
  obtain ⟨l, h1, _, hl⟩ := ht.entries'
  obtain ⟨u, k1, k2, k3, k4, k5⟩ := fold_entries hl (fun v x => x + v) (by simp) s hs hr hc
    (fun e s => do
      let a ← s.at' e.1 e.2.1
      s.set e.1 e.2.1 (a + e.2.2)) (by
      intro e s hs h1 h2
      rw [hs.at_ok h1 h2]; rfl)
  exact ⟨u, by unfold addAssign; rw [h1]; exact k1, k2, k3, k4, k5⟩

theorem Inv.sub_ok {s t : Sparse T} (hs : Inv s) (ht : Inv t) (hr : t.rows ≤ s.rows)
    (hc : t.columns ≤ s.columns) :
    ∃ u, subAssign s t = .ok u ∧ Inv u ∧ u.rows = s.rows ∧ u.columns = s.columns ∧
      ∀ i j, u.val i j = s.val i j - t.val i j := by
  obtain ⟨l, h1, _, hl⟩ := ht.entries'
  obtain ⟨u, k1, k2, k3, k4, k5⟩ := fold_entries hl (fun v x => x - v) (by simp) s hs hr hc
    (fun e s => do
      let a ← s.at' e.1 e.2.1
      s.set e.1 e.2.1 (a - e.2.2)) (by
      intro e s hs h1 h2
      rw [hs.at_ok h1 h2]; rfl)
  exact ⟨u, by unfold subAssign; rw [h1]; exact k1, k2, k3, k4, k5⟩

theorem Inv.transpose_ok {s : Sparse T} (hs : Inv s) :
    ∃ u, s.transpose = .ok u ∧ Inv u ∧ u.rows = s.columns ∧ u.columns = s.rows ∧
      ∀ i j, u.val i j = s.val j i := by
  obtain ⟨l, h1, _, hl⟩ := hs.entries'
  obtain ⟨z, z1, z2, z3, z4, z5⟩ := mk_inv (T := T) hs.cols_pos hs.rows_pos
  obtain ⟨u, k1, k2, k3, k4, k5⟩ := fold_copy hl true id rfl z z2 z3 z4 z5
  refine ⟨u, ?_, k2, by omega, by omega, by simpa using k5⟩
  unfold transpose
  rw [z1, h1]
  simpa using k1

theorem Inv.conjugate_ok {s : Sparse T} (hs : Inv s) (cj : T → T) (hcj : cj 0 = 0) :
    ∃ u, s.conjugate cj = .ok u ∧ Inv u ∧ u.rows = s.rows ∧ u.columns = s.columns ∧
      ∀ i j, u.val i j = cj (s.val i j) := by
  obtain ⟨l, h1, _, hl⟩ := hs.entries'
  obtain ⟨z, z1, z2, z3, z4, z5⟩ := mk_inv (T := T) hs.rows_pos hs.cols_pos
  obtain ⟨u, k1, k2, k3, k4, k5⟩ := fold_copy hl false cj hcj z z2 z3 z4 z5
  refine ⟨u, ?_, k2, by omega, by omega, by simpa using k5⟩
  unfold conjugate
  rw [z1, h1]
  simpa using k1

theorem Inv.adjugate_ok {s : Sparse T} (hs : Inv s) (cj : T → T) (hcj : cj 0 = 0) :
    ∃ u, s.adjugate cj = .ok u ∧ Inv u ∧ u.rows = s.columns ∧ u.columns = s.rows ∧
      ∀ i j, u.val i j = cj (s.val j i) := by
  obtain ⟨l, h1, _, hl⟩ := hs.entries'
  obtain ⟨z, z1, z2, z3, z4, z5⟩ := mk_inv (T := T) hs.cols_pos hs.rows_pos
  obtain ⟨u, k1, k2, k3, k4, k5⟩ := fold_copy hl true cj hcj z z2 z3 z4 z5
  refine ⟨u, ?_, k2, by omega, by omega, by simpa using k5⟩
  unfold adjugate
  rw [z1, h1]
  simpa using k1

theorem foldl_add_eq (l : List T) (a : T) : l.foldl (· + ·) a = a + l.sum := by
  induction l generalizing a with
  | nil => simp
  | cons x l ih => rw [List.foldl_cons, ih, List.sum_cons, add_assoc]

theorem foldl_add_map {α : Type _} (f : α → T) (l : List α) (a : T) :
    l.foldl (fun v e => v + f e) a = a + (l.map f).sum := by
  induction l generalizing a with
  | nil => simp
  | cons x l ih => rw [List.foldl_cons, ih, List.map_cons, List.sum_cons, add_assoc]

theorem forList_sum {α : Type _} (f : α → R T) (g : α → T) (l : List α)
    (h : ∀ e ∈ l, f e = .ok (g e)) (a : T) :
    forList l a (fun e v => do let b ← f e; return v + b) = .ok (a + (l.map g).sum) := by
  rw [forList_fold_ok (fun v e => v + g e) l a (fun e he s => by simp [h e he]), foldl_add_map]

theorem Inv.sum_ok {s : Sparse T} (hs : Inv s) :
    s.sum = ∑ i ∈ Finset.range s.rows, ∑ j ∈ Finset.range s.columns, s.val i j := by
  obtain ⟨l, h1, h2, h3, h4, h5, h6, h7⟩ := hs.entries_ok
  have hl : IsEntries s l := ⟨h3, h5, h6⟩
  unfold sum
  rw [foldl_add_eq, zero_add, h7]
  exact hl.sum_eq (fun _ _ v => v) (fun _ _ => rfl)

theorem forRange_sum (n : Nat) (f : Nat → R T) (g : Nat → T) (h : ∀ i < n, f i = .ok (g i)) :
    forRange 0 n (0 : T) (fun i v => do let a ← f i; return v + a)
      = .ok (∑ i ∈ Finset.range n, g i) := by
  have := sat_forRange (f := fun i v => do let a ← f i; return v + a) (E := noErr)
    (fun k (v : T) => v = ∑ i ∈ Finset.range k, g i) (Nat.zero_le n) (s := 0) (by simp) (by
      intro j s _ hj hs
      subst hs
      simp only [h j hj, ok_bind, pure_eq_ok, Sat_ok, Finset.sum_range_succ])
  obtain ⟨a, h1, h2⟩ := this.ok_of
  rw [h1, h2]

theorem Inv.trace_ok {s : Sparse T} (hs : Inv s) :
    s.trace = .ok (∑ i ∈ Finset.range (Nat.min s.rows s.columns), s.val i i) := by
  unfold trace
  exact forRange_sum _ _ _ (fun i hi => hs.at_ok (by have := Nat.min_le_left s.rows s.columns; omega)
    (by have := Nat.min_le_right s.rows s.columns; omega))

theorem Inv.mul_ok {s m : Sparse T} (hs : Inv s) (hm : Inv m) (hd : s.columns = m.rows) :
    ∃ u, s.mul m = .ok u ∧ Inv u ∧ u.rows = s.rows ∧ u.columns = m.columns ∧
      ∀ i j, i < s.rows → j < m.columns →
        u.val i j = ∑ k ∈ Finset.range s.columns, s.val i k * m.val k j := by
  obtain ⟨z, z1, z2, z3, z4, z5⟩ := mk_inv (T := T) hs.rows_pos hm.cols_pos
  unfold mul
  rw [throwIf_false _ (by simpa using hd), z1]
  simp only [ok_bind]
  apply Sat.ok_of
  refine (sat_forRange (E := noErr) (fun i (u : Sparse T) => Inv u ∧ u.rows = s.rows ∧ u.columns = m.columns ∧
      ∀ a b, a < i → b < m.columns → u.val a b = ∑ k ∈ Finset.range s.columns, s.val a k * m.val k b)
    (Nat.zero_le s.rows) (s := z) ⟨z2, z3, z4, by intro a b h; omega⟩ ?_).mono ?_ (fun _ h => h)
  · rintro i u _ hi ⟨u1, u2, u3, u4⟩
    refine (sat_forRange (E := noErr) (fun j (u : Sparse T) => Inv u ∧ u.rows = s.rows ∧ u.columns = m.columns ∧
        (∀ a b, a < i → b < m.columns → u.val a b = ∑ k ∈ Finset.range s.columns, s.val a k * m.val k b) ∧
        ∀ b, b < j → u.val i b = ∑ k ∈ Finset.range s.columns, s.val i k * m.val k b)
      (Nat.zero_le m.columns) (s := u) ⟨u1, u2, u3, u4, by intro b h; omega⟩ ?_).mono ?_ (fun _ h => h)
    · rintro j u _ hj ⟨u1, u2, u3, u4, u5⟩
      obtain ⟨l, l1, l2, l3⟩ := hs.rowEntries_sum hi
      rw [l1]
      simp only [ok_bind]
      have hsum : (forList l (0 : T) fun e v => do
          let b ← m.at' e.2.1 j
          return v + e.2.2 * b) = .ok (∑ k ∈ Finset.range s.columns, s.val i k * m.val k j) := by
        rw [forList_fold_ok (fun v e => v + e.2.2 * m.val e.2.1 j) l 0, foldl_add_map, zero_add, l3 (fun k => m.val k j)]
        intro e he v
        rw [hm.at_ok (by have := l2 e he; omega) hj]
        rfl
      rw [hsum]
      simp only [ok_bind]
      obtain ⟨u', w1, w2, w3, w4, w5⟩ := u1.set_ok (i := i) (j := j)
        (∑ k ∈ Finset.range s.columns, s.val i k * m.val k j) (by omega) (by omega)
      rw [w1]
      refine ⟨w2, by omega, by omega, ?_, ?_⟩
      · intro a b ha hb
        rw [w5, if_neg (by omega)]; exact u4 a b ha hb
      · intro b hb
        rw [w5]
        by_cases h : b = j
        · rw [if_pos ⟨rfl, h⟩, h]
        · rw [if_neg (by omega)]; exact u5 b (by omega)
    · rintro u' ⟨u1, u2, u3, u4, u5⟩
      refine ⟨u1, u2, u3, ?_⟩
      intro a b ha hb
      by_cases h : a = i
      · subst h; exact u5 b hb
      · exact u4 a b (by omega) hb
  · rintro u ⟨u1, u2, u3, u4⟩
    exact ⟨u1, u2, u3, u4⟩

/-- accumulation `r[key] += w` over a list -/
theorem accum_ok {α : Type _} (l : List α) (key : α → Nat) (w : α → T) (n : Nat)
    (f : α → List T → R (List T))
    (hf : ∀ e ∈ l, ∀ r : List T, r.length = n → f e r = .ok (r.set (key e) (r.getD (key e) 0 + w e)))
    (hk : ∀ e ∈ l, key e < n) (r0 : List T) (hr0 : r0.length = n) :
    ∃ r, forList l r0 f = .ok r ∧ r.length = n ∧
      ∀ i, i < n → r.getD i 0 = r0.getD i 0 + (l.map (fun e => if key e = i then w e else 0)).sum := by
  induction l generalizing r0 with
  | nil => exact ⟨r0, rfl, hr0, by simp⟩
  | cons e l ih =>
    obtain ⟨r, h1, h2, h3⟩ := ih (fun e he => hf e (by simp [he])) (fun e he => hk e (by simp [he]))
      (r0.set (key e) (r0.getD (key e) 0 + w e)) (by simpa using hr0)
    refine ⟨r, by simp only [forList, hf e (by simp) r0 hr0, ok_bind, h1], h2, ?_⟩
    intro i hi
    rw [h3 i hi, List.map_cons, List.sum_cons, ← add_assoc]
    congr 1
    have hke := hk e (by simp)
    rw [List.getD_eq_getElem?_getD, List.getElem?_set]
    by_cases h : key e = i
    · subst h; simp [hr0, hke]
    · simp [h, List.getD_eq_getElem?_getD]

theorem Inv.mulVec_ok {s : Sparse T} (hs : Inv s) (v : List T) (hd : s.columns = v.length) :
    ∃ r, s.mulVec v = .ok r ∧ r.length = s.rows ∧
      ∀ i, i < s.rows → r.getD i 0 = ∑ j ∈ Finset.range s.columns, s.val i j * v.getD j 0 := by
  obtain ⟨l, h1, _, hl⟩ := hs.entries'
  unfold mulVec
  rw [throwIf_false _ (by simpa using hd), h1]
  simp only [ok_bind]
  obtain ⟨r, r1, r2, r3⟩ := accum_ok l (fun e => e.1) (fun e => e.2.2 * v.getD e.2.1 0) s.rows
    (fun e r => do
      assert (e.1 < r.length)
      assert (e.2.1 < v.length)
      let a ← getIdx r e.1
      let b ← getIdx v e.2.1
      return r.set e.1 (a + e.2.2 * b)) (by
      intro e he r hr
      have := hl.range e he
      rw [assert_true (by omega), assert_true (by omega)]
      simp only [ok_bind]
      rw [getIdx_eq (by omega), getIdx_eq (by omega)]
      simp only [ok_bind, pure_eq_ok]
      rw [List.getD_eq_getElem _ _ (by omega), List.getD_eq_getElem _ _ (by omega)])
    (fun e he => (hl.range e he).1) (List.replicate s.rows 0) (by simp)
  refine ⟨r, r1, r2, ?_⟩
  intro i hi
  rw [r3 i hi]
  have := hl.sum_eq (fun a b x => if a = i then x * v.getD b 0 else 0) (by intros; split <;> simp)
  rw [this]
  rw [List.getD_replicate _ hi, zero_add]
  rw [Finset.sum_eq_single i]
  · simp
  · intro b _ hb; simp [hb]
  · intro h; exact absurd (Finset.mem_range.2 hi) h

theorem Inv.mulLeft_ok {s : Sparse T} (hs : Inv s) (v : List T) (hd : s.rows = v.length) :
    ∃ r, s.mulLeft v = .ok r ∧ r.length = s.columns ∧
      ∀ j, j < s.columns → r.getD j 0 = ∑ i ∈ Finset.range s.rows, v.getD i 0 * s.val i j := by
  obtain ⟨l, h1, _, hl⟩ := hs.entries'
  unfold mulLeft
  rw [throwIf_false _ (by simpa using hd), h1]
  simp only [ok_bind]
  obtain ⟨r, r1, r2, r3⟩ := accum_ok l (fun e => e.2.1) (fun e => e.2.2 * v.getD e.1 0) s.columns
    (fun e r => do
      assert (e.2.1 < r.length)
      assert (e.1 < v.length)
      let a ← getIdx r e.2.1
      let b ← getIdx v e.1
      return r.set e.2.1 (a + e.2.2 * b)) (by
      intro e he r hr
      have := hl.range e he
      rw [assert_true (by omega), assert_true (by omega)]
      simp only [ok_bind]
      rw [getIdx_eq (by omega), getIdx_eq (by omega)]
      simp only [ok_bind, pure_eq_ok]
      rw [List.getD_eq_getElem _ _ (by omega), List.getD_eq_getElem _ _ (by omega)])
    (fun e he => (hl.range e he).2) (List.replicate s.columns 0) (by simp)
  refine ⟨r, r1, r2, ?_⟩
  intro j hj
  rw [r3 j hj]
  have := hl.sum_eq (fun a b x => if b = j then x * v.getD a 0 else 0) (by intros; split <;> simp)
  rw [this]
  rw [List.getD_replicate _ hj, zero_add]
  apply Finset.sum_congr rfl
  intro i _
  rw [Finset.sum_eq_single j]
  · simp [mul_comm]
  · intro b _ hb; simp [hb]
  · intro h; exact absurd (Finset.mem_range.2 hj) h

end ring
end Sparse
end NS

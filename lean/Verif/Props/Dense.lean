/-
Property theorems C16 (dense half) and C18-C22 about `DenseMatrix` (and `FixedMatrix`, which has the
same loops with constant dimensions).

`Reach d`: `d` can be built through the public API from the sized or initializer-list constructor.
`Shows d r c A`: `d` has `r` rows, `c` columns and `at(i,j)` returns `A i j` for every in-range position.
-/
import Verif.DenseOps
import Verif.Props.Sparse
import Mathlib.Tactic.Abel

set_option linter.unusedSectionVars false
set_option linter.unusedSimpArgs false

namespace NS.Props.Dense
open NS NS.Dense
variable {T : Type}

/-- `d` is observed to be the `r x c` matrix `A`. -/
def Shows (d : Dense T) (r c : Nat) (A : Nat → Nat → T) : Prop :=
  d.rows = r ∧ d.columns = c ∧ ∀ i j, i < r → j < c → d.at' i j = .ok (A i j)

/-- Dense matrices that a program can build through the public API. -/
inductive Reach [CommRing T] [DecidableEq T] : Dense T → Prop
  | mk {d1 d2 : Nat} {d : Dense T} : Dense.mk' d1 d2 = .ok d → Reach d
  | lists {l : List (List T)} {d : Dense T} : ofLists l = .ok d → Reach d
  | set {d d' : Dense T} {i j : Nat} {v : T} : Reach d → d.set i j v = .ok d' → Reach d'
  | linearSet {d d' : Dense T} {k : Nat} {v : T} : Reach d → d.linearSet k v = .ok d' → Reach d'
  | setIt {d d' : Dense T} {it it' : DIt} {v : T} : Reach d → d.setIt it v = .ok (d', it') → Reach d'
  | zip {a b u : Dense T} {op : T → T → T} : Reach a → Reach b → Dense.zipAssign op a b = .ok u → Reach u
  | scale {a u : Dense T} {f : T} : Reach a → scaleAssign a f = .ok u → Reach u
  | transpose {a u : Dense T} : Reach a → a.transpose = .ok u → Reach u
  | conjugate {a u : Dense T} {cj : T → T} : Reach a → a.conjugate cj = .ok u → Reach u
  | adjugate {a u : Dense T} {cj : T → T} : Reach a → a.adjugate cj = .ok u → Reach u
  | mul {a b u : Dense T} : Reach a → Reach b → a.mul b = .ok u → Reach u
  | swap₁ {a b : Dense T} : Reach a → Reach b → Reach (Dense.swap a b).1
  | swap₂ {a b : Dense T} : Reach a → Reach b → Reach (Dense.swap a b).2

section
variable [CommRing T] [DecidableEq T]

theorem Reach.wf {d : Dense T} (h : Reach d) : WF d := by
  induction h with
  | @mk d1 d2 d h =>
    by_cases h12 : 0 < d1 ∧ 0 < d2
    · obtain ⟨z, z1, z2, _⟩ := Dense.mk_ok (T := T) h12.1 h12.2
      rw [h] at z1; cases z1; exact z2
    · rw [mk_abort h12] at h; cases h
  | @lists l d h =>
    by_cases hl : ∃ v ∈ l, v ≠ []
    · obtain ⟨u, u1, u2, _⟩ := ofLists_ok l hl
      rw [h] at u1; cases u1; exact u2
    · have : (l.map List.length).foldr max 0 = 0 := by
        clear h
        induction l with
        | nil => rfl
        | cons a l ih =>
          have ha : a = [] := by
            by_contra hne; exact hl ⟨a, by simp, hne⟩
          simp only [List.map_cons, List.foldr_cons, ha, List.length_nil]
          rw [ih (fun ⟨v, hv, hn⟩ => hl ⟨v, by simp [hv], hn⟩)]
          rfl
      unfold ofLists at h
      split at h
      · cases h
      · rw [this, mk_abort (by omega)] at h
        cases h
  | set _ h ih => exact (ih.set_wf h).1
  | @linearSet d d' k v _ h ih =>
    unfold Dense.linearSet at h
    by_cases hk : k < d.size
    · rw [assert_true hk] at h
      simp only [ok_bind] at h
      have hk' : k < d.data.length := by rw [ih.1]; exact hk
      rw [setIdx_eq _ hk'] at h
      cases h
      exact ⟨by simpa using ih.1, ih.2⟩
    · rw [assert_false hk] at h; cases h
  | @setIt d d' it it' v _ h ih =>
    unfold Dense.setIt at h
    split at h
    · cases hs : d.set it.i1 it.i2 v with
      | error e => rw [hs] at h; cases h
      | ok t => rw [hs] at h; cases h; exact (ih.set_wf hs).1
    · cases h; exact ih
  | @zip a b u op _ _ h iha ihb =>
    by_cases hs : a.size = b.size
    · rw [iha.zipAssign_ok op ihb hs] at h
      cases h
      refine ⟨?_, iha.2⟩
      have h1 := iha.1; have h2 := ihb.1
      simp only [Dense.size] at hs
      simp; omega
    · rw [Dense.zipAssign_throw op a b hs] at h; cases h
  | @scale a u f _ h ih =>
    obtain ⟨w, h1, h2, _⟩ := ih.scale_ok f
    rw [h] at h1; cases h1; exact h2
  | transpose _ h ih =>
    obtain ⟨w, h1, h2, _⟩ := ih.transpose_ok
    rw [h] at h1; cases h1; exact h2
  | @conjugate a u cj _ h ih =>
    obtain ⟨w, h1, h2, _⟩ := ih.conjugate_ok cj
    rw [h] at h1; cases h1; exact h2
  | @adjugate a u cj _ h ih =>
    obtain ⟨w, h1, h2, _⟩ := ih.adjugate_ok cj
    rw [h] at h1; cases h1; exact h2
  | @mul a b u _ _ h iha ihb =>
    by_cases hd : a.columns = b.rows
    · obtain ⟨w, h1, h2, _⟩ := iha.mul_ok ihb hd
      rw [h] at h1; cases h1; exact h2
    · unfold Dense.mul at h
      rw [throwIf_true _ hd] at h
      cases h
  | swap₁ _ _ _ ihb => exact ihb
  | swap₂ _ _ iha _ => exact iha
end

section
variable [Zero T]
theorem shows_of {d : Dense T} (h : WF d) {r c : Nat} {A : Nat → Nat → T}
    (hr : d.rows = r) (hc : d.columns = c) (hv : ∀ i j, i < r → j < c → d.val i j = A i j) :
    Shows d r c A :=
  ⟨hr, hc, fun i j hi hj => by rw [h.at_ok (by omega) (by omega), hv i j hi hj]⟩

theorem Shows.val {d : Dense T} (h : WF d) {r c A} (hA : Shows d r c A) {i j : Nat}
    (hi : i < r) (hj : j < c) : d.val i j = A i j := by
  have := hA.2.2 i j hi hj
  rw [h.at_ok (by rw [hA.1]; exact hi) (by rw [hA.2.1]; exact hj)] at this
  exact Except.ok.inj this
end

/-! ### C16 (dense) -/

/-- **C16** for dense matrices: out-of-range `at`/`set`/`has`/`linear_at`/`linear_set` abort before
any memory access; in-range ones return normally. -/
theorem C16_dense_range [CommRing T] [DecidableEq T] {d : Dense T} (h : Reach d) :
    (∀ i j, ¬ (i < d.rows ∧ j < d.columns) → d.at' i j = .error .abort ∧ d.has i j = .error .abort ∧
      ∀ v, d.set i j v = .error .abort) ∧
    (∀ k, ¬ k < d.rows * d.columns → d.linearAt k = .error .abort ∧ ∀ v, d.linearSet k v = .error .abort) ∧
    (∀ i j, i < d.rows → j < d.columns → (∃ x, d.at' i j = .ok x) ∧ (∃ b, d.has i j = .ok b) ∧
      ∀ v, ∃ d', d.set i j v = .ok d') ∧
    (∀ k, k < d.rows * d.columns → (∃ x, d.linearAt k = .ok x) ∧ ∀ v, ∃ d', d.linearSet k v = .ok d') := by
  have hw := h.wf
  refine ⟨?_, ?_, ?_, ?_⟩
  · intro i j hij
    refine ⟨at_abort d hij, ?_, fun v => set_abort d v hij⟩
    unfold Dense.has; rw [at_abort d hij]; rfl
  · intro k hk
    unfold linearAt Dense.linearSet
    rw [assert_false (show ¬ k < d.size from hk)]
    exact ⟨rfl, fun _ => rfl⟩
  · intro i j hi hj
    refine ⟨⟨_, hw.at_ok hi hj⟩, ⟨_, hw.has_ok hi hj⟩, fun v => ?_⟩
    obtain ⟨d', h1, _⟩ := hw.set_ok v hi hj
    exact ⟨d', h1⟩
  · intro k hk
    refine ⟨⟨_, hw.linearAt_ok hk⟩, fun v => ?_⟩
    unfold Dense.linearSet
    rw [assert_true (show k < d.size from hk)]
    simp only [ok_bind]
    rw [setIdx_eq _ (by rw [hw.1]; exact hk)]
    exact ⟨_, rfl⟩

/-! ### C18 -/
open NS.Props.Sparse (Op lastWrite lastWrite_cons)

/-- run a write on a dense matrix (`Op` is the vocabulary of C01) -/
def runOp (d : Dense T) : Op T → R (Dense T)
  | .set i j v => d.set i j v
  | .linearSet k v => d.linearSet k v

def runAll (d : Dense T) : List (Op T) → R (Dense T)
  | [] => .ok d
  | o :: os => runOp d o >>= fun d' => runAll d' os

section
variable [Zero T] [DecidableEq T]

theorem linearSet_eq {d : Dense T} (h : WF d) {k : Nat} (hk : k < d.size) (v : T) :
    d.linearSet k v = d.set (k / d.columns) (k % d.columns) v := by
  obtain ⟨-, hi, hj⟩ := data_entry h hk
  unfold Dense.set
  rw [assert_true hi, assert_true hj]
  have he : k / d.columns * d.columns + k % d.columns = k := by rw [Nat.mul_comm]; exact Nat.div_add_mod k d.columns
  rw [he]; rfl

theorem runOp_ok {d : Dense T} (h : WF d) (o : Op T) (ho : o.inRange d.rows d.columns) :
    ∃ d', runOp d o = .ok d' ∧ WF d' ∧ d'.rows = d.rows ∧ d'.columns = d.columns ∧
      ∀ a b, d'.val a b = if o.pos d.columns = (a, b) then o.value else d.val a b := by
  have key : ∀ i j v, i < d.rows → j < d.columns → ∃ d', d.set i j v = .ok d' ∧ WF d' ∧ d'.rows = d.rows ∧
      d'.columns = d.columns ∧ ∀ a b, d'.val a b = if (i, j) = (a, b) then v else d.val a b := by
    intro i j v hi hj
    obtain ⟨d', h1, h2, h3, h4, h5⟩ := h.set_ok v hi hj
    refine ⟨d', h1, h2, h3, h4, fun a b => ?_⟩
    rw [h5]
    congr 1
    simp only [Prod.mk.injEq, eq_iff_iff]
    constructor <;> (rintro ⟨rfl, rfl⟩; exact ⟨rfl, rfl⟩)
  cases o with
  | set i j v => exact key i j v ho.1 ho.2
  | linearSet k v =>
    obtain ⟨-, hi, hj⟩ := data_entry h (show k < d.size from ho)
    rw [runOp, linearSet_eq h ho]
    exact key _ _ v hi hj

theorem runAll_ok (ops : List (Op T)) : ∀ {d : Dense T}, WF d → (∀ o ∈ ops, o.inRange d.rows d.columns) →
    ∃ d', runAll d ops = .ok d' ∧ WF d' ∧ d'.rows = d.rows ∧ d'.columns = d.columns ∧
      ∀ a b, d'.val a b = if (∃ o ∈ ops, o.pos d.columns = (a, b)) then lastWrite d.columns ops a b
        else d.val a b := by
  induction ops with
  | nil => intro s h _; exact ⟨s, rfl, h, rfl, rfl, by simp⟩
  | cons o os ih =>
    intro s h ho
    obtain ⟨s1, a1, a2, a3, a4, a5⟩ := runOp_ok h o (ho o (by simp))
    obtain ⟨s2, b1, b2, b3, b4, b5⟩ := ih a2 (fun x hx => by rw [a3, a4]; exact ho x (by simp [hx]))
    refine ⟨s2, ?_, b2, by omega, by omega, ?_⟩
    · simp only [runAll, a1, ok_bind, b1]
    · intro a b
      rw [b5, a4, lastWrite_cons, a5]
      by_cases h1 : ∃ o' ∈ os, o'.pos s.columns = (a, b)
      · have h2 : ∃ o' ∈ o :: os, o'.pos s.columns = (a, b) := by
          obtain ⟨x, hx, hp⟩ := h1; exact ⟨x, by simp [hx], hp⟩
        rw [if_pos h1, if_pos h2, if_pos h1]
      · by_cases h3 : o.pos s.columns = (a, b)
        · have h2 : ∃ o' ∈ o :: os, o'.pos s.columns = (a, b) := ⟨o, by simp, h3⟩
          rw [if_neg h1, if_pos h3, if_pos h2, if_neg h1, if_pos h3]
        · have h2 : ¬ ∃ o' ∈ o :: os, o'.pos s.columns = (a, b) := by
            rintro ⟨x, hx, hp⟩
            rcases List.mem_cons.1 hx with rfl | hx
            · exact h3 hp
            · exact h1 ⟨x, hx, hp⟩
          rw [if_neg h1, if_neg h3, if_neg h2]

theorem lastWrite_none {c : Nat} {ops : List (Op T)} {i j : Nat} (h : ¬ ∃ o ∈ ops, o.pos c = (i, j)) :
    lastWrite c ops i j = 0 := by
  unfold lastWrite
  have : ops.reverse.find? (fun o => decide (o.pos c = (i, j))) = none := by
    rw [List.find?_eq_none]
    intro x hx
    simp only [decide_eq_true_eq]
    intro hp
    exact h ⟨x, by simpa using hx, hp⟩
  rw [this]

/-- **C18**: construct, then any sequence of in-range `set`/`linear_set`: every call succeeds and
`at(i,j)` returns the last value written to `(i,j)` (0 if none); positions never alias. -/
theorem C18_at_returns_last_set (d1 d2 : Nat) (h1 : 0 < d1) (h2 : 0 < d2) (ops : List (Op T))
    (hops : ∀ o ∈ ops, o.inRange d1 d2) :
    ∃ d, (Dense.mk' d1 d2 >>= fun d => runAll d ops) = .ok d ∧ Shows d d1 d2 (lastWrite d2 ops) := by
  obtain ⟨z, z1, z2, z3, z4, z5⟩ := Dense.mk_ok (T := T) h1 h2
  obtain ⟨s, b1, b2, b3, b4, b5⟩ := runAll_ok ops z2 (by rw [z3, z4]; exact hops)
  refine ⟨s, by rw [z1]; exact b1, shows_of b2 (by omega) (by omega) ?_⟩
  intro i j hi hj
  rw [b5, z5, z4]
  split
  · rfl
  · rename_i h; exact (lastWrite_none h).symm

example : ∀ o ∈ [Op.set 0 1 (5 : Int), .linearSet 5 7, .set 1 2 0], o.inRange 2 3 := by
  simp [Op.inRange]

/-- **C18**: `linear_at(i*columns()+j)` and `at(i,j)` read the same entry. -/
theorem C18_linear_at {d : Dense T} {r c : Nat} {A : Nat → Nat → T} (hd : Shows d r c A) (i j : Nat)
    (hi : i < r) (hj : j < c) : d.linearAt (i * c + j) = .ok (A i j) := by
  have := hd.2.2 i j hi hj
  unfold at' at this
  rw [assert_true (by rw [hd.1]; exact hi), assert_true (by rw [hd.2.1]; exact hj), hd.2.1] at this
  exact this
end

variable [CommRing T] [DecidableEq T]

/-- initializer-list construction -/
theorem C18_initializer_list (l : List (List T)) (h : ∃ v ∈ l, v ≠ []) :
    ∃ d, ofLists l = .ok d ∧ Reach d ∧
      Shows d l.length ((l.map List.length).foldr Max.max 0) (fun i j => (l.getD i []).getD j 0) := by
  obtain ⟨d, h1, h2, h3, h4, h5⟩ := ofLists_ok l h
  exact ⟨d, h1, .lists h1, shows_of h2 h3 h4 (fun i j hi hj => h5 i j (by omega) (by omega))⟩

/-- Non-vacuity: every content is shown by a reachable matrix. -/
theorem exists_reach (r c : Nat) (hr : 0 < r) (hc : 0 < c) (A : Nat → Nat → T) :
    ∃ d, Reach d ∧ Shows d r c A := by
  obtain ⟨d, h1, h2, h3, h4, h5⟩ := fill_ok hr hc A (fun i j t => t.set i j (A i j)) (by intros; rfl)
  have hreach : Reach d := by
    obtain ⟨z, z1, -⟩ := Dense.mk_ok (T := T) hr hc
    rw [z1] at h1
    simp only [ok_bind] at h1
    have := sat_forRange (E := fun _ => True) (f := fun i tmp => forRange 0 c tmp fun j tmp => tmp.set i j (A i j))
      (fun _ (t : Dense T) => Reach t) (Nat.zero_le r) (s := z) (.mk z1) (by
        intro i t _ _ ht
        refine sat_forRange (fun _ (t : Dense T) => Reach t) (Nat.zero_le c) ht ?_
        intro j t _ _ ht
        rw [sat_iff]
        exact ⟨fun a ha => .set ht ha, fun _ _ => trivial⟩)
    exact this.of_ok h1
  exact ⟨d, hreach, shows_of h2 h3 h4 h5⟩

/-! ### C19 -/

/-- A dense and a sparse matrix agree: same dimensions and same `at` everywhere. -/
def Agree (d : Dense T) (s : Sparse T) : Prop :=
  ∃ r c A, Shows d r c A ∧ NS.Props.Sparse.Shows s r c A

/-- **C19**: the same in-range write history on a dense and a sparse matrix of the same dimensions. -/
theorem C19_same_history (d1 d2 : Nat) (h1 : 0 < d1) (h2 : 0 < d2) (ops : List (Op T))
    (hops : ∀ o ∈ ops, o.inRange d1 d2) :
    ∃ d s, (Dense.mk' d1 d2 >>= fun d => runAll d ops) = .ok d ∧
      (Sparse.mk' d1 d2 >>= fun s => NS.Props.Sparse.runAll s ops) = .ok s ∧ Agree d s := by
  obtain ⟨d, hd, hd'⟩ := C18_at_returns_last_set d1 d2 h1 h2 ops hops
  obtain ⟨s, hs, hs'⟩ := NS.Props.Sparse.C01_at_returns_last_set d1 d2 h1 h2 ops hops
  exact ⟨d, s, hd, hs, d1, d2, _, hd', hs'⟩

section
variable [NoZeroDivisors T]

/-- **C19**: `transpose`, `+`, `-`, scaling, `mul`, `mul(vector)` and `mul_left` of agreeing matrices
agree again (all calls return normally on matching dimensions). -/
theorem C19_operations {d d' : Dense T} {s s' : Sparse T} (hd : Reach d) (hd' : Reach d')
    (hs : NS.Sparse.Reach s) (hs' : NS.Sparse.Reach s') (ha : Agree d s) (ha' : Agree d' s') :
    (∃ x y, d.transpose = .ok x ∧ s.transpose = .ok y ∧ Agree x y) ∧
    (∀ f, ∃ x y, d.scale f = .ok x ∧ s.scale f = .ok y ∧ Agree x y) ∧
    (d.rows = d'.rows → d.columns = d'.columns →
      (∃ x y, d.add d' = .ok x ∧ s.add s' = .ok y ∧ Agree x y) ∧
      (∃ x y, d.sub d' = .ok x ∧ s.sub s' = .ok y ∧ Agree x y)) ∧
    (d.columns = d'.rows → ∃ x y, d.mul d' = .ok x ∧ s.mul s' = .ok y ∧ Agree x y) ∧
    (∀ v : List T, d.columns = v.length → ∃ r, d.mulVec v = .ok r ∧ s.mulVec v = .ok r) ∧
    (∀ v : List T, d.rows = v.length → ∃ r, d.mulLeft v = .ok r ∧ s.mulLeft v = .ok r) := by
  obtain ⟨r, c, A, hA, hA'⟩ := ha
  obtain ⟨r', c', B, hB, hB'⟩ := ha'
  have wd := hd.wf
  have wd' := hd'.wf
  have is := hs.inv
  have is' := hs'.inv
  have hdr := hA.1; have hdc := hA.2.1; have hsr := hA'.1; have hsc := hA'.2.1
  have hdr' := hB.1; have hdc' := hB.2.1; have hsr' := hB'.1; have hsc' := hB'.2.1
  have veq : ∀ i j, i < r → j < c → d.val i j = s.val i j := fun i j hi hj => by
    rw [hA.val wd hi hj, hA'.val hi hj]
  have veq' : ∀ i j, i < r' → j < c' → d'.val i j = s'.val i j := fun i j hi hj => by
    rw [hB.val wd' hi hj, hB'.val hi hj]
  have agree : ∀ (x : Dense T) (y : Sparse T), WF x → NS.Sparse.Inv y → x.rows = y.rows →
      x.columns = y.columns → (∀ i j, i < x.rows → j < x.columns → x.val i j = y.val i j) → Agree x y := by
    intro x y hx hy h1 h2 h3
    exact ⟨x.rows, x.columns, x.val, shows_of hx rfl rfl (fun _ _ _ _ => rfl),
      NS.Props.Sparse.shows_of hy h1.symm h2.symm (fun i j hi hj => (h3 i j hi hj).symm)⟩
  refine ⟨?_, ?_, ?_, ?_, ?_, ?_⟩
  · obtain ⟨x, x1, x2, x3, x4, x5⟩ := wd.transpose_ok
    obtain ⟨y, y1, y2, y3, y4, y5⟩ := is.transpose_ok
    refine ⟨x, y, x1, y1, agree x y x2 y2 (by omega) (by omega) ?_⟩
    intro i j hi hj
    rw [x5 i j (by omega) (by omega), y5, veq j i (by omega) (by omega)]
  · intro f
    obtain ⟨x, x1, x2, x3, x4, x5⟩ := wd.scale_ok f
    obtain ⟨y, y1, y2, y3, y4, y5⟩ := is.scale_ok f
    refine ⟨x, y, x1, y1, agree x y x2 y2 (by omega) (by omega) ?_⟩
    intro i j hi hj
    rw [x5, y5, veq i j (by omega) (by omega)]
  · intro h1 h2
    constructor
    · obtain ⟨x, x1, x2, x3, x4, x5⟩ := wd.zip_ok (· + ·) wd' h1 h2
      obtain ⟨y, y1, y2, y3, y4, y5⟩ := is.add_ok is' (by omega) (by omega)
      refine ⟨x, y, x1, y1, agree x y x2 y2 (by omega) (by omega) ?_⟩
      intro i j hi hj
      rw [x5 i j (by omega) (by omega), y5, veq i j (by omega) (by omega), veq' i j (by omega) (by omega)]
    · obtain ⟨x, x1, x2, x3, x4, x5⟩ := wd.zip_ok (· - ·) wd' h1 h2
      obtain ⟨y, y1, y2, y3, y4, y5⟩ := is.sub_ok is' (by omega) (by omega)
      refine ⟨x, y, x1, y1, agree x y x2 y2 (by omega) (by omega) ?_⟩
      intro i j hi hj
      rw [x5 i j (by omega) (by omega), y5, veq i j (by omega) (by omega), veq' i j (by omega) (by omega)]
  · intro h1
    obtain ⟨x, x1, x2, x3, x4, x5⟩ := wd.mul_ok wd' h1
    obtain ⟨y, y1, y2, y3, y4, y5⟩ := is.mul_ok is' (by omega)
    refine ⟨x, y, x1, y1, agree x y x2 y2 (by omega) (by omega) ?_⟩
    intro i j hi hj
    rw [x5 i j (by omega) (by omega), y5 i j (by omega) (by omega), hdc, hsc]
    refine Finset.sum_congr rfl (fun k hk => ?_)
    have := Finset.mem_range.1 hk
    rw [veq i k (by omega) (by omega), veq' k j (by omega) (by omega)]
  · intro v hv
    obtain ⟨x, x1, x2, x3⟩ := wd.mulVec_ok v hv
    obtain ⟨y, y1, y2, y3⟩ := is.mulVec_ok v (by omega)
    have : x = y := by
      apply List.ext_getElem (by omega)
      intro i h1 h2
      have a := x3 i (by omega)
      have b := y3 i (by omega)
      rw [List.getD_eq_getElem _ _ h1] at a
      rw [List.getD_eq_getElem _ _ h2] at b
      rw [a, b, hdc, hsc]
      refine Finset.sum_congr rfl (fun k hk => ?_)
      have := Finset.mem_range.1 hk
      rw [veq i k (by omega) (by omega)]
    exact ⟨x, x1, this ▸ y1⟩
  · intro v hv
    obtain ⟨x, x1, x2, x3⟩ := wd.mulLeft_ok v hv
    obtain ⟨y, y1, y2, y3⟩ := is.mulLeft_ok v (by omega)
    have : x = y := by
      apply List.ext_getElem (by omega)
      intro i h1 h2
      have a := x3 i (by omega)
      have b := y3 i (by omega)
      rw [List.getD_eq_getElem _ _ h1] at a
      rw [List.getD_eq_getElem _ _ h2] at b
      rw [a, b, hdr, hsr]
      refine Finset.sum_congr rfl (fun k hk => ?_)
      have := Finset.mem_range.1 hk
      rw [veq k i (by omega) (by omega), mul_comm]
    exact ⟨x, x1, this ▸ y1⟩

/-- the hypotheses of `C19_operations` can be met for every content -/
theorem C19_hypotheses_met (r c : Nat) (hr : 0 < r) (hc : 0 < c) (A : Nat → Nat → T) :
    ∃ (d : Dense T) (s : Sparse T), Reach d ∧ NS.Sparse.Reach s ∧ Agree d s := by
  obtain ⟨d, h1, h2⟩ := exists_reach r c hr hc A
  obtain ⟨s, h3, h4⟩ := NS.Props.Sparse.exists_reach r c hr hc A
  exact ⟨d, s, h1, h3, r, c, A, h2, h4⟩
end

/-! ### C20 -/

/-- **C20**: `begin()..end()` visits every position exactly once, in row-major order, with its value. -/
theorem C20_iteration {d : Dense T} (h : Reach d) {r c : Nat} {A : Nat → Nat → T} (hA : Shows d r c A) :
    ∃ l, d.entries = .ok l ∧ l.Pairwise NS.Props.Sparse.Before ∧ l.length = r * c ∧
      ∀ i j v, (i, j, v) ∈ l ↔ i < r ∧ j < c ∧ v = A i j := by
  refine ⟨_, h.wf.entries_ok, h.wf.allFrom_sorted, ?_, ?_⟩
  · simp [allFrom, Dense.size, hA.1, hA.2.1]
  · intro i j v
    rw [h.wf.mem_allFrom, hA.1, hA.2.1]
    constructor
    · rintro ⟨h1, h2, rfl⟩; exact ⟨h1, h2, hA.val h.wf h1 h2⟩
    · rintro ⟨h1, h2, rfl⟩; exact ⟨h1, h2, (hA.val h.wf h1 h2).symm⟩

/-- **C20**: `row_begin(i)..` is exactly row `i`, `column_begin(j)..` exactly column `j`, in order. -/
theorem C20_row_column {d : Dense T} (h : Reach d) {r c : Nat} {A : Nat → Nat → T} (hA : Shows d r c A) :
    (∀ i, i < r → d.rowEntries i = .ok ((List.range c).map fun j => (i, j, A i j))) ∧
    (∀ j, j < c → d.colEntries j = .ok ((List.range r).map fun i => (i, j, A i j))) ∧
    (∀ i, ¬ i < r → d.rowEntries i = .error .abort) ∧
    (∀ j, ¬ j < c → d.colEntries j = .error .abort) := by
  have hw := h.wf
  refine ⟨?_, ?_, ?_, ?_⟩
  · intro i hi
    rw [hw.rowEntries_ok (by rw [hA.1]; exact hi)]
    unfold rowFrom
    rw [hA.2.1, Nat.sub_zero, ← List.range_eq_range']
    congr 1
    apply List.map_congr_left
    intro j hj
    rw [hA.val hw hi (List.mem_range.1 hj)]
  · intro j hj
    rw [hw.colEntries_ok (by rw [hA.2.1]; exact hj)]
    unfold colFrom
    rw [hA.1, Nat.sub_zero, ← List.range_eq_range']
    congr 1
    apply List.map_congr_left
    intro i hi
    rw [hA.val hw (List.mem_range.1 hi) hj]
  · intro i hi
    unfold Dense.rowEntries rowBegin
    rw [assert_false (by rw [hA.1]; exact hi)]; rfl
  · intro j hj
    unfold Dense.colEntries colBegin
    rw [assert_false (by rw [hA.2.1]; exact hj)]; rfl

example : ∃ d : Dense Int, Reach d ∧ Shows d 2 3 (fun i j => i * j) := exists_reach 2 3 (by decide) (by decide) _

/-- writing through an iterator (`set(it,v)`/`erase(it)`) writes exactly that entry and returns the
same iterator -/
theorem C20_set_through_iterator {d : Dense T} (h : Reach d) {r c : Nat} {A : Nat → Nat → T} (hA : Shows d r c A)
    (i j : Nat) (hi : i < r) (hj : j < c) (v : T) :
    ∃ d', d.setIt ⟨i, j⟩ v = .ok (d', ⟨i, j⟩) ∧
      Shows d' r c (fun a b => if a = i ∧ b = j then v else A a b) := by
  have hw := h.wf
  have hi' : i < d.rows := by rw [hA.1]; exact hi
  have hj' : j < d.columns := by rw [hA.2.1]; exact hj
  obtain ⟨d', h1, h2, h3, h4, h5⟩ := hw.set_ok v hi' hj'
  refine ⟨d', ?_, shows_of h2 (h3.trans hA.1) (h4.trans hA.2.1) ?_⟩
  · unfold Dense.setIt
    rw [if_pos ⟨hi', hj'⟩, h1]; rfl
  · intro a b ha hb
    rw [h5, hA.val hw ha hb]

/-! ### C21 -/

/-- **C21** (equal shapes, and differing element counts): entrywise on equal shapes, and the size
exception if `rows*columns` differs.  Missing: shapes that differ with equal element count are
accepted, see `C21_fails_on_equal_size`; there is no `/=` for dense matrices. -/
theorem C21_entrywise_partial {a b : Dense T} (ha : Reach a) (hb : Reach b) {r c r' c' : Nat}
    {A B : Nat → Nat → T} (hA : Shows a r c A) (hB : Shows b r' c' B) :
    (r * c ≠ r' * c' → a.addAssign b = .error (.exc .matrixSizeMismatch) ∧
      a.subAssign b = .error (.exc .matrixSizeMismatch) ∧
      a.hadamardAssign b = .error (.exc .matrixSizeMismatch)) ∧
    (r = r' → c = c' →
      (∃ u, a.addAssign b = .ok u ∧ Shows u r c (fun i j => A i j + B i j)) ∧
      (∃ u, a.subAssign b = .ok u ∧ Shows u r c (fun i j => A i j - B i j)) ∧
      (∃ u, a.hadamardAssign b = .ok u ∧ Shows u r c (fun i j => A i j * B i j))) := by
  have hwa := ha.wf
  have hwb := hb.wf
  constructor
  · intro hne
    have : a.size ≠ b.size := by unfold Dense.size; rw [hA.1, hA.2.1, hB.1, hB.2.1]; exact hne
    exact ⟨zipAssign_throw _ a b this, zipAssign_throw _ a b this, zipAssign_throw _ a b this⟩
  · rintro rfl rfl
    have key : ∀ op : T → T → T, ∃ u, Dense.zipAssign op a b = .ok u ∧ Shows u r c (fun i j => op (A i j) (B i j)) := by
      intro op
      obtain ⟨u, h1, h2, h3, h4, h5⟩ := hwa.zip_ok op hwb (by rw [hA.1, hB.1]) (by rw [hA.2.1, hB.2.1])
      refine ⟨u, h1, shows_of h2 (h3.trans hA.1) (h4.trans hA.2.1) ?_⟩
      intro i j hi hj
      rw [h5 i j (by rw [hA.1]; exact hi) (by rw [hA.2.1]; exact hj), hA.val hwa hi hj, hB.val hwb hi hj]
    exact ⟨key _, key _, key _⟩

/-- **C21 fails**: a 1x2 matrix and a 2x1 matrix can be added; no exception is thrown. -/
theorem C21_fails_on_equal_size :
    ∃ a b : Dense Int, Reach a ∧ Reach b ∧ a.rows = 1 ∧ a.columns = 2 ∧ b.rows = 2 ∧ b.columns = 1 ∧
      a.addAssign b = .ok ⟨[4, 6], 1, 2⟩ := by
  have h1 : ofLists ([[1, 2]] : List (List Int)) = .ok ⟨[1, 2], 1, 2⟩ := by decide +kernel
  have h2 : ofLists ([[3], [4]] : List (List Int)) = .ok ⟨[3, 4], 2, 1⟩ := by decide +kernel
  exact ⟨_, _, .lists h1, .lists h2, rfl, rfl, rfl, rfl, by decide +kernel⟩

/-- scalar multiplication and negation -/
theorem C21_scale {a : Dense T} (ha : Reach a) {r c : Nat} {A : Nat → Nat → T} (hA : Shows a r c A) :
    (∀ f, ∃ u, a.scaleAssign f = .ok u ∧ Shows u r c (fun i j => A i j * f)) ∧
    (∃ u, a.neg = .ok u ∧ Shows u r c (fun i j => - A i j)) := by
  have hw := ha.wf
  have key : ∀ f, ∃ u, a.scaleAssign f = .ok u ∧ Shows u r c (fun i j => A i j * f) := by
    intro f
    obtain ⟨u, h1, h2, h3, h4, h5⟩ := hw.scale_ok f
    refine ⟨u, h1, shows_of h2 (h3.trans hA.1) (h4.trans hA.2.1) ?_⟩
    intro i j hi hj
    rw [h5, hA.val hw hi hj]
  refine ⟨key, ?_⟩
  obtain ⟨u, h1, h2⟩ := key (-1)
  exact ⟨u, h1, by simpa using h2⟩

/-! ### C22 -/

/-- **C22**: dense `mul` -/
theorem C22_mul {a b : Dense T} (ha : Reach a) (hb : Reach b) {r c r' c' : Nat}
    {A B : Nat → Nat → T} (hA : Shows a r c A) (hB : Shows b r' c' B) :
    (c ≠ r' → a.mul b = .error (.exc .matrixMulMismatch)) ∧
    (c = r' → ∃ u, a.mul b = .ok u ∧ Shows u r c' (fun i j => ∑ k ∈ Finset.range c, A i k * B k j)) := by
  have hwa := ha.wf
  have hwb := hb.wf
  constructor
  · intro h
    unfold Dense.mul
    rw [throwIf_true _ (by rw [hA.2.1, hB.1]; exact h)]; rfl
  · rintro rfl
    obtain ⟨u, h1, h2, h3, h4, h5⟩ := hwa.mul_ok hwb (by rw [hA.2.1, hB.1])
    refine ⟨u, h1, shows_of h2 (h3.trans hA.1) (h4.trans hB.2.1) ?_⟩
    intro i j hi hj
    rw [h5 i j (by rw [hA.1]; exact hi) (by rw [hB.2.1]; exact hj), hA.2.1]
    refine Finset.sum_congr rfl (fun k hk => ?_)
    have := Finset.mem_range.1 hk
    rw [hA.val hwa hi this, hB.val hwb this hj]

/-- **C22**: dense `mul(vector)` and `mul_left(vector)` -/
theorem C22_mul_vector {a : Dense T} (ha : Reach a) {r c : Nat} {A : Nat → Nat → T} (hA : Shows a r c A) (v : List T) :
    (c ≠ v.length → a.mulVec v = .error (.exc .matrixMulMismatch)) ∧
    (r ≠ v.length → a.mulLeft v = .error (.exc .matrixMulMismatch)) ∧
    (c = v.length → a.mulVec v = .ok ((List.range r).map fun i => ∑ j ∈ Finset.range c, A i j * v.getD j 0)) ∧
    (r = v.length → a.mulLeft v = .ok ((List.range c).map fun j => ∑ i ∈ Finset.range r, A i j * v.getD i 0)) := by
  have hw := ha.wf
  refine ⟨?_, ?_, ?_, ?_⟩
  · intro h
    unfold Dense.mulVec
    rw [throwIf_true _ (by rw [hA.2.1]; exact h)]; rfl
  · intro h
    unfold Dense.mulLeft
    rw [throwIf_true _ (by rw [hA.1]; exact h)]; rfl
  · intro h
    obtain ⟨x, h1, h2, h3⟩ := hw.mulVec_ok v (by rw [hA.2.1]; exact h)
    rw [h1]
    congr 1
    apply List.ext_getElem
    · simp [h2, hA.1]
    · intro i g1 g2
      have hi : i < r := by simpa using g2
      have := h3 i (by rw [hA.1]; exact hi)
      rw [List.getD_eq_getElem _ _ g1] at this
      rw [this, hA.2.1]
      simp only [List.getElem_map, List.getElem_range]
      refine Finset.sum_congr rfl (fun k hk => ?_)
      rw [hA.val hw hi (Finset.mem_range.1 hk)]
  · intro h
    obtain ⟨x, h1, h2, h3⟩ := hw.mulLeft_ok v (by rw [hA.1]; exact h)
    rw [h1]
    congr 1
    apply List.ext_getElem
    · simp [h2, hA.2.1]
    · intro j g1 g2
      have hj : j < c := by simpa using g2
      have := h3 j (by rw [hA.2.1]; exact hj)
      rw [List.getD_eq_getElem _ _ g1] at this
      rw [this, hA.1]
      simp only [List.getElem_map, List.getElem_range]
      refine Finset.sum_congr rfl (fun k hk => ?_)
      rw [hA.val hw (Finset.mem_range.1 hk) hj]

/-- **C22**: `transpose`, `conjugate`, `adjugate` -/
theorem C22_transpose {a : Dense T} (ha : Reach a) {r c : Nat} {A : Nat → Nat → T} (hA : Shows a r c A) (cj : T → T) :
    (∃ u, a.transpose = .ok u ∧ Shows u c r (fun i j => A j i)) ∧
    (∃ u, a.conjugate cj = .ok u ∧ Shows u r c (fun i j => cj (A i j))) ∧
    (∃ u, a.adjugate cj = .ok u ∧ Shows u c r (fun i j => cj (A j i))) := by
  have hw := ha.wf
  have hr := hA.1; have hc := hA.2.1
  refine ⟨?_, ?_, ?_⟩
  · obtain ⟨u, h1, h2, h3, h4, h5⟩ := hw.transpose_ok
    refine ⟨u, h1, shows_of h2 (by omega) (by omega) fun i j hi hj => ?_⟩
    rw [h5 i j (by omega) (by omega), hA.val hw hj hi]
  · obtain ⟨u, h1, h2, h3, h4, h5⟩ := hw.conjugate_ok cj
    refine ⟨u, h1, shows_of h2 (by omega) (by omega) fun i j hi hj => ?_⟩
    rw [h5 i j (by omega) (by omega), hA.val hw hi hj]
  · obtain ⟨u, h1, h2, h3, h4, h5⟩ := hw.adjugate_ok cj
    refine ⟨u, h1, shows_of h2 (by omega) (by omega) fun i j hi hj => ?_⟩
    rw [h5 i j (by omega) (by omega), hA.val hw hj hi]

/-- observers: `empty`, `has_zero`, `sum`, `trace`, `==`, `swap` -/
theorem C22_observers {a : Dense T} (ha : Reach a) {r c : Nat} {A : Nat → Nat → T} (hA : Shows a r c A) :
    (a.isEmpty = true ↔ ∀ i j, i < r → j < c → A i j = 0) ∧
    (a.hasZero = true ↔ ∃ i j, i < r ∧ j < c ∧ A i j = 0) ∧
    a.sum = ∑ i ∈ Finset.range r, ∑ j ∈ Finset.range c, A i j ∧
    a.trace = .ok (∑ i ∈ Finset.range (min r c), A i i) := by
  have hw := ha.wf
  refine ⟨?_, ?_, ?_, ?_⟩
  · rw [hw.isEmpty_iff, hA.1, hA.2.1]
    constructor
    · intro h i j hi hj; rw [← hA.val hw hi hj]; exact h i j hi hj
    · intro h i j hi hj; rw [hA.val hw hi hj]; exact h i j hi hj
  · rw [hw.hasZero_iff, hA.1, hA.2.1]
    constructor
    · rintro ⟨i, j, hi, hj, h⟩; exact ⟨i, j, hi, hj, by rw [← hA.val hw hi hj]; exact h⟩
    · rintro ⟨i, j, hi, hj, h⟩; exact ⟨i, j, hi, hj, by rw [hA.val hw hi hj]; exact h⟩
  · rw [hw.sum_ok, hA.1, hA.2.1]
    refine Finset.sum_congr rfl fun i hi => Finset.sum_congr rfl fun j hj => ?_
    rw [hA.val hw (Finset.mem_range.1 hi) (Finset.mem_range.1 hj)]
  · rw [hw.trace_ok, hA.1, hA.2.1]
    congr 1
    refine Finset.sum_congr rfl fun i hi => ?_
    have := Finset.mem_range.1 hi
    rw [hA.val hw (by omega) (by omega)]

/-- `==` decides entrywise equality on equal shapes and throws otherwise; `swap` exchanges. -/
theorem C22_eq_swap {a b : Dense T} (ha : Reach a) (hb : Reach b) {r c r' c' : Nat}
    {A B : Nat → Nat → T} (hA : Shows a r c A) (hB : Shows b r' c' B) :
    (¬ (r = r' ∧ c = c') → Dense.eq a b = .error (.exc .matrixSizeMismatch)) ∧
    (r = r' → c = c' → ∃ x, Dense.eq a b = .ok x ∧ (x = true ↔ ∀ i j, i < r → j < c → A i j = B i j)) ∧
    Shows (Dense.swap a b).1 r' c' B ∧ Shows (Dense.swap a b).2 r c A := by
  have hwa := ha.wf
  have hwb := hb.wf
  refine ⟨?_, ?_, hB, hA⟩
  · intro h
    apply eq_throw
    rw [hA.1, hA.2.1, hB.1, hB.2.1]; omega
  · rintro rfl rfl
    obtain ⟨x, h1, h2⟩ := hwa.eq_ok hwb (by rw [hA.1, hB.1]) (by rw [hA.2.1, hB.2.1])
    refine ⟨x, h1, ?_⟩
    rw [h2, hA.1, hA.2.1]
    constructor
    · intro h i j hi hj
      rw [← hA.val hwa hi hj, ← hB.val hwb hi hj]; exact h i j hi hj
    · intro h i j hi hj
      rw [hA.val hwa hi hj, hB.val hwb hi hj]; exact h i j hi hj

end NS.Props.Dense

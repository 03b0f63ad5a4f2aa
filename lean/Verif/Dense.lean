/-
Dense matrices: abstraction function and correctness of every operation.
-/
import Verif.DenseModel
import Verif.VecLemmas

set_option linter.unusedSectionVars false
set_option linter.unusedSimpArgs false

namespace NS
namespace Dense
variable {T : Type}

/-- well-formed: the container has `rows*columns` entries and both dimensions are positive -/
def WF (d : Dense T) : Prop := d.data.length = d.rows * d.columns ∧ 0 < d.rows ∧ 0 < d.columns

theorem idx_lt {r c i j : Nat} (hi : i < r) (hj : j < c) : i * c + j < r * c := by
  have : (i + 1) * c ≤ r * c := Nat.mul_le_mul_right c (by omega)
  rw [Nat.add_mul] at this; omega

theorem idx_inj {c i j i' j' : Nat} (hj : j < c) (hj' : j' < c) :
    i * c + j = i' * c + j' ↔ i = i' ∧ j = j' := by
  constructor
  · intro h
    have h1 : (i * c + j) / c = i := by
      rw [Nat.mul_comm, Nat.mul_add_div (by omega), Nat.div_eq_of_lt hj, Nat.add_zero]
    have h2 : (i' * c + j') / c = i' := by
      rw [Nat.mul_comm, Nat.mul_add_div (by omega), Nat.div_eq_of_lt hj', Nat.add_zero]
    have : i = i' := by rw [← h1, ← h2, h]
    subst this
    exact ⟨rfl, by omega⟩
  · rintro ⟨rfl, rfl⟩; rfl

variable [Zero T]

/-- the entry at `(i,j)`; 0 outside -/
def val (d : Dense T) (i j : Nat) : T :=
  if i < d.rows ∧ j < d.columns then d.data.getD (i * d.columns + j) 0 else 0

theorem val_of {d : Dense T} {i j : Nat} (hi : i < d.rows) (hj : j < d.columns) :
    d.val i j = d.data.getD (i * d.columns + j) 0 := if_pos ⟨hi, hj⟩

theorem WF.at_ok {d : Dense T} (h : WF d) {i j : Nat} (hi : i < d.rows) (hj : j < d.columns) :
    d.at' i j = .ok (d.val i j) := by
  have hlt := idx_lt hi hj
  unfold at' linearAt
  rw [assert_true hi, assert_true hj, assert_true (show _ < d.size from hlt)]
  simp only [ok_bind]
  rw [getIdx_eq (by rw [h.1]; exact hlt), val_of hi hj, List.getD_eq_getElem _ _ (by rw [h.1]; exact hlt)]

theorem at_abort (d : Dense T) {i j : Nat} (hij : ¬ (i < d.rows ∧ j < d.columns)) :
    d.at' i j = .error .abort := by
  unfold at'
  by_cases hi : i < d.rows
  · rw [assert_true hi, assert_false (fun hj => hij ⟨hi, hj⟩)]; rfl
  · rw [assert_false hi]; rfl

theorem set_abort (d : Dense T) {i j : Nat} (v : T) (hij : ¬ (i < d.rows ∧ j < d.columns)) :
    d.set i j v = .error .abort := by
  unfold set
  by_cases hi : i < d.rows
  · rw [assert_true hi, assert_false (fun hj => hij ⟨hi, hj⟩)]; rfl
  · rw [assert_false hi]; rfl

theorem WF.val_zero {d : Dense T} (_h : WF d) {i j : Nat} (hij : ¬ (i < d.rows ∧ j < d.columns)) :
    d.val i j = 0 := if_neg hij

theorem WF.set_ok {d : Dense T} (h : WF d) {i j : Nat} (v : T) (hi : i < d.rows) (hj : j < d.columns) :
    ∃ d', d.set i j v = .ok d' ∧ WF d' ∧ d'.rows = d.rows ∧ d'.columns = d.columns ∧
      ∀ a b, d'.val a b = if a = i ∧ b = j then v else d.val a b := by
  have hlt := idx_lt hi hj
  refine ⟨{ d with data := d.data.set (i * d.columns + j) v }, ?_, ?_, rfl, rfl, ?_⟩
  · unfold set linearSet
    rw [assert_true hi, assert_true hj, assert_true (show _ < d.size from hlt)]
    simp only [ok_bind]
    rw [setIdx_eq _ (by rw [h.1]; exact hlt)]
    rfl
  · exact ⟨by simpa using h.1, h.2⟩
  · intro a b
    unfold val
    simp only
    by_cases hab : a < d.rows ∧ b < d.columns
    · rw [if_pos hab, if_pos hab]
      simp only [List.getD_eq_getElem?_getD, List.getElem?_set]
      by_cases he : i * d.columns + j = a * d.columns + b
      · rw [if_pos he]
        have := (idx_inj hj hab.2).1 he
        rw [if_pos (by rw [h.1]; exact hlt), if_pos (show a = i ∧ b = j from ⟨this.1.symm, this.2.symm⟩)]
        rfl
      · rw [if_neg he, if_neg]
        rintro ⟨rfl, rfl⟩; exact he rfl
    · rw [if_neg hab, if_neg hab, if_neg]
      rintro ⟨rfl, rfl⟩; exact hab ⟨hi, hj⟩

theorem WF.set_wf {d d' : Dense T} (h : WF d) {i j : Nat} {v : T} (hs : d.set i j v = .ok d') :
    WF d' ∧ d'.rows = d.rows ∧ d'.columns = d.columns := by
  by_cases hij : i < d.rows ∧ j < d.columns
  · obtain ⟨t, h1, h2, h3, h4, _⟩ := h.set_ok v hij.1 hij.2
    rw [hs] at h1; cases h1; exact ⟨h2, h3, h4⟩
  · rw [set_abort d v hij] at hs; cases hs

theorem mk_ok {d1 d2 : Nat} (h1 : 0 < d1) (h2 : 0 < d2) :
    ∃ d : Dense T, mk' d1 d2 = .ok d ∧ WF d ∧ d.rows = d1 ∧ d.columns = d2 ∧ ∀ i j, d.val i j = 0 := by
  refine ⟨⟨List.replicate (d1 * d2) 0, d1, d2⟩, ?_, ⟨by simp, h1, h2⟩, rfl, rfl, ?_⟩
  · unfold mk'
    rw [assert_true (show d1 > 0 from h1), assert_true (show d2 > 0 from h2)]; rfl
  · intro i j
    unfold val
    split
    · rename_i h
      exact List.getD_replicate _ (idx_lt h.1 h.2)
    · rfl

theorem mk_abort {d1 d2 : Nat} (h : ¬ (0 < d1 ∧ 0 < d2)) : (mk' d1 d2 : R (Dense T)) = .error .abort := by
  unfold mk'
  by_cases h1 : 0 < d1
  · rw [assert_true (show d1 > 0 from h1), assert_false (show ¬ d2 > 0 from fun h2 => h ⟨h1, h2⟩)]; rfl
  · rw [assert_false (show ¬ d1 > 0 from h1)]; rfl

/-- same dimensions and entries: same matrix -/
theorem WF.ext {a b : Dense T} (ha : WF a) (hb : WF b) (hr : a.rows = b.rows)
    (hc : a.columns = b.columns) (hv : ∀ i j, i < a.rows → j < a.columns → a.val i j = b.val i j) : a = b := by
  obtain ⟨da, ra, ca⟩ := a
  obtain ⟨db, rb, cb⟩ := b
  simp only at hr hc
  subst hr; subst hc
  congr 1
  apply List.ext_getElem
  · have := ha.1; have := hb.1; simp at *; omega
  · intro k h1 h2
    have hk : k < ra * ca := by have := ha.1; simp at this; omega
    have hc : 0 < ca := ha.2.2
    have hi : k / ca < ra := Nat.div_lt_of_lt_mul (by rw [Nat.mul_comm]; exact hk)
    have hj : k % ca < ca := Nat.mod_lt _ hc
    have := hv _ _ hi hj
    have he : k / ca * ca + k % ca = k := by rw [Nat.mul_comm]; exact Nat.div_add_mod k ca
    rw [val_of hi hj, val_of hi hj] at this
    simp only [he] at this
    rwa [List.getD_eq_getElem _ _ h1, List.getD_eq_getElem _ _ h2] at this

/-! ### filling a matrix by a double loop -/

/-- The double loop `for i < r, for j < c: tmp.set(i,j, f i j)` produces the matrix `f`. -/
theorem fill_ok {r c : Nat} (hr : 0 < r) (hc : 0 < c) (f : Nat → Nat → T)
    (body : Nat → Nat → Dense T → R (Dense T))
    (hb : ∀ i j t, i < r → j < c → WF t → t.rows = r → t.columns = c → body i j t = t.set i j (f i j)) :
    ∃ d, ((mk' r c : R (Dense T)) >>= fun tmp => forRange 0 r tmp fun i tmp => forRange 0 c tmp fun j tmp => body i j tmp)
        = .ok d ∧ WF d ∧ d.rows = r ∧ d.columns = c ∧ ∀ i j, i < r → j < c → d.val i j = f i j := by
  obtain ⟨z, z1, z2, z3, z4, _⟩ := mk_ok (T := T) hr hc
  rw [z1]
  simp only [ok_bind]
  apply Sat.ok_of
  refine (sat_forRange (E := noErr) (fun i (t : Dense T) => WF t ∧ t.rows = r ∧ t.columns = c ∧
      ∀ a b, a < i → b < c → t.val a b = f a b) (Nat.zero_le r) (s := z)
      ⟨z2, z3, z4, by intro a b h; omega⟩ ?_).mono (fun d hd => hd) (fun _ h => h)
  intro i t _ hi ht
  refine (sat_forRange (E := noErr) (fun j (t : Dense T) => WF t ∧ t.rows = r ∧ t.columns = c ∧
      (∀ a b, a < i → b < c → t.val a b = f a b) ∧ ∀ b, b < j → t.val i b = f i b) (Nat.zero_le c) (s := t)
      ⟨ht.1, ht.2.1, ht.2.2.1, ht.2.2.2, by intro b h; omega⟩ ?_).mono ?_ (fun _ h => h)
  · intro j t _ hj ht
    obtain ⟨t1, t2, t3, t4, t5⟩ := ht
    rw [hb i j t hi hj t1 t2 t3]
    obtain ⟨u, u1, u2, u3, u4, u5⟩ := t1.set_ok (f i j) (by omega : i < t.rows) (by omega : j < t.columns)
    rw [u1]
    refine ⟨u2, by omega, by omega, ?_, ?_⟩
    · intro a b ha hb'
      rw [u5, if_neg (by omega)]; exact t4 a b ha hb'
    · intro b hb'
      rw [u5]
      by_cases hbj : b = j
      · subst hbj; simp
      · rw [if_neg (by omega)]; exact t5 b (by omega)
  · rintro t ⟨t1, t2, t3, t4, t5⟩
    refine ⟨t1, t2, t3, ?_⟩
    intro a b ha hb'
    rcases Nat.lt_succ_iff_lt_or_eq.1 ha with h | h
    · exact t4 a b h hb'
    · subst h; exact t5 b hb'

theorem WF.transpose_ok {d : Dense T} (h : WF d) :
    ∃ u, d.transpose = .ok u ∧ WF u ∧ u.rows = d.columns ∧ u.columns = d.rows ∧
      ∀ i j, i < d.columns → j < d.rows → u.val i j = d.val j i := by
  unfold transpose
  exact fill_ok h.2.2 h.2.1 (fun i j => d.val j i) (fun i j tmp => do
      let v ← d.at' j i
      tmp.set i j v) (by
    intro i j t hi hj _ _ _
    rw [h.at_ok hj hi]; rfl)

theorem WF.conjugate_ok {d : Dense T} (h : WF d) (cj : T → T) :
    ∃ u, d.conjugate cj = .ok u ∧ WF u ∧ u.rows = d.rows ∧ u.columns = d.columns ∧
      ∀ i j, i < d.rows → j < d.columns → u.val i j = cj (d.val i j) := by
  unfold conjugate
  exact fill_ok h.2.1 h.2.2 (fun i j => cj (d.val i j)) (fun i j tmp => do
      let v ← d.at' i j
      tmp.set i j (cj v)) (by
    intro i j t hi hj _ _ _
    rw [h.at_ok hi hj]; rfl)

theorem WF.adjugate_ok {d : Dense T} (h : WF d) (cj : T → T) :
    ∃ u, d.adjugate cj = .ok u ∧ WF u ∧ u.rows = d.columns ∧ u.columns = d.rows ∧
      ∀ i j, i < d.columns → j < d.rows → u.val i j = cj (d.val j i) := by
  unfold adjugate
  exact fill_ok h.2.2 h.2.1 (fun i j => cj (d.val j i)) (fun i j tmp => do
      let v ← d.at' j i
      tmp.set i j (cj v)) (by
    intro i j t hi hj _ _ _
    rw [h.at_ok hj hi]; rfl)

/-! ### entrywise operators -/

theorem zipAssign_throw (op : T → T → T) (a m : Dense T) (h : a.size ≠ m.size) :
    zipAssign op a m = .error (.exc .matrixSizeMismatch) := by
  unfold zipAssign; rw [throwIf_true _ h]; rfl

/-- a loop over the container that updates entry `i` in step `i` -/
theorem dataLoop_ok (d : Dense T) (hd : d.data.length = d.size) (g : Nat → T → T) (body : Nat → Dense T → R (Dense T))
    (hb : ∀ (i : Nat) (w : List T) (x : T), i < d.size → w.length = d.size → w[i]? = some x →
      body i { d with data := w } = .ok { d with data := w.set i (g i x) }) :
    forRange 0 d.size d body = .ok { d with data := d.data.mapIdx g } := by
  have key : ∀ n k (w : List T), k + n ≤ d.size → w.length = d.size →
      forAux body n k { d with data := w } =
        (forAux (fun i w => match w[i]? with | some x => (.ok (w.set i (g i x)) : R (List T)) | none => .error .ub) n k w
          >>= fun w => .ok { d with data := w }) := by
    intro n
    induction n with
    | zero => intro k w _ _; rfl
    | succ n ih =>
      intro k w hk hw
      obtain ⟨x, hx⟩ : ∃ x, w[k]? = some x := ⟨w[k]'(by omega), by simp⟩
      simp only [forAux]
      rw [hb k w x (by omega) hw hx, hx]
      simp only [ok_bind]
      exact ih (k + 1) _ (by omega) (by simpa using hw)
  have h1 := key d.size 0 d.data (by omega) hd
  have h2 := forRange_upd d.data g (fun i w => match w[i]? with | some x => (.ok (w.set i (g i x)) : R (List T)) | none => .error .ub)
    (by intro i w x _ _ hx; simp [hx])
  unfold forRange at h2 ⊢
  rw [hd] at h2
  simp only [Nat.sub_zero] at h1 h2 ⊢
  rw [show d = { d with data := d.data } from rfl, h1, h2]
  rfl

theorem WF.zipAssign_ok (op : T → T → T) {a m : Dense T} (ha : WF a) (hm : WF m) (h : a.size = m.size) :
    zipAssign op a m = .ok { a with data := List.zipWith op a.data m.data } := by
  unfold zipAssign
  rw [throwIf_false _ (by simpa using h)]
  simp only [ok_bind]
  have hla : a.data.length = a.size := ha.1
  have hlm : m.data.length = m.size := hm.1
  rw [dataLoop_ok a hla (fun i x => (m.data[i]?).elim x (op x))]
  · congr 2
    apply List.ext_getElem
    · simp; omega
    · intro i h1 h2
      have : i < a.data.length := by simpa using h1
      simp [show i < m.data.length by omega]
  · intro i w x hi hw hx
    have him : i < m.data.length := by omega
    simp only [getIdx_of_some hx, ok_bind, linearAt]
    rw [assert_true (show i < m.size by omega)]
    simp only [ok_bind]
    rw [getIdx_eq him]
    simp only [ok_bind]
    rw [setIdx_eq _ (by omega)]
    simp [him]

theorem WF.zip_ok (op : T → T → T) {a m : Dense T} (ha : WF a) (hm : WF m) (hr : a.rows = m.rows)
    (hc : a.columns = m.columns) :
    ∃ u, zipAssign op a m = .ok u ∧ WF u ∧ u.rows = a.rows ∧ u.columns = a.columns ∧
      ∀ i j, i < a.rows → j < a.columns → u.val i j = op (a.val i j) (m.val i j) := by
  have hl : a.data.length = m.data.length := by rw [ha.1, hm.1, hr, hc]
  refine ⟨_, ha.zipAssign_ok op hm (by unfold size; rw [hr, hc]), ?_, rfl, rfl, ?_⟩
  · refine ⟨?_, ha.2⟩
    simp [← hl, ha.1]
  · intro i j hi hj
    have hlt := idx_lt hi hj
    rw [val_of (d := a) hi hj, val_of (d := m) (hr ▸ hi) (hc ▸ hj)]
    unfold val
    rw [if_pos ⟨hi, hj⟩]
    simp only [← hc]
    rw [List.getD_eq_getElem _ _ (by simp [← hl, ha.1]; exact hlt), List.getD_eq_getElem _ _ (by rw [ha.1]; exact hlt),
      List.getD_eq_getElem _ _ (by rw [← hl, ha.1]; exact hlt)]
    simp

end Dense
end NS

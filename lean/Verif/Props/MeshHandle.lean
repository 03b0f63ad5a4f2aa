/-
Property theorems C49: `Mesh` handles share data and free it exactly once.
-/
import Verif.MeshHandleModel
import Mathlib.Logic.Function.Basic
import Mathlib.Data.List.Basic

set_option linter.unusedSimpArgs false

namespace NS.Props.MeshHandle
open NS NS.Handles

/-! ### Specification: shared ownership without reference counts -/

/-- `hs[h]`: the mesh that handle `h` denotes (`none`: the handle does not exist, `some none`: moved from);
`objs[c]`: what mesh `c` owns -/
structure Shared where
  objs : List Owned
  hs : List (Option (Option Nat))

/-- the mesh denoted by handle `h` -/
def Shared.denotes (s : Shared) (h c : Nat) : Prop := s.hs[h]? = some (some (some c))
/-- handle `h` exists -/
def Shared.exists_ (s : Shared) (h : Nat) : Prop := ∃ p, s.hs[h]? = some (some p)
/-- some handle denotes mesh `c` -/
def Shared.referenced (s : Shared) (c : Nat) : Prop := ∃ h, s.denotes h c

/-- effect of an operation on the handles and the shared data -/
def Shared.step (s : Shared) : Op → Shared
  | .create => ⟨s.objs ++ [⟨0, 0, 0⟩], s.hs ++ [some (some s.objs.length)]⟩
  | .copy h => { s with hs := s.hs ++ [(s.hs[h]?).join] }
  | .move h => { s with hs := s.hs.set h (some none) ++ [(s.hs[h]?).join] }
  | .destroy h => { s with hs := s.hs.set h none }
  | .assign h g => { s with hs := s.hs.set h ((s.hs[g]?).join) }
  | .moveAssign h g => { s with hs := (s.hs.set h ((s.hs[g]?).join)).set g (some none) }
  | .write h d => match s.hs[h]? with
    | some (some (some c)) => { s with objs := s.objs.set c d }
    | _ => s

/-- operations a program may apply: the handles exist, data is only read from handles that have some, and a handle that
is the only one of its mesh is not assigned to itself -/
def Shared.Allowed (s : Shared) : Op → Prop
  | .create => True
  | .copy h => ∃ c, s.denotes h c
  | .move h => s.exists_ h
  | .destroy h => s.exists_ h
  | .assign h g => s.exists_ h ∧ (∃ c, s.denotes g c) ∧ (h = g → ∃ h' c, h' ≠ h ∧ s.denotes h c ∧ s.denotes h' c)
  | .moveAssign h g => s.exists_ h ∧ s.exists_ g
  | .write h _ => ∃ c, s.denotes h c

/-- all operations of the history are allowed -/
def AllowedHistory : Shared → List Op → Prop
  | _, [] => True
  | s, o :: ops => s.Allowed o ∧ AllowedHistory (s.step o) ops

/-- the shared state after a history -/
def Shared.run (s : Shared) (ops : List Op) : Shared := ops.foldl Shared.step s

/-! ### The reference counts implement shared ownership -/

structure Cells (cells : List Cell) (objs : List Owned) (n : Nat → Nat) : Prop where
  len : cells.length = objs.length
  cell : ∀ (c : Nat) k d, cells[c]? = some k → objs[c]? = some d →
    k.refs = n c ∧ k.alive = decide (0 < n c) ∧ k.data = if 0 < n c then d else Handles.clear d

/-- number of handles denoting mesh `c` -/
def cnt (hs : List (Option (Option Nat))) (c : Nat) : Nat := hs.count (some (some c))

structure Rel (s : Handles) (sp : Shared) : Prop where
  hs : s.hs = sp.hs
  cells : Cells s.cells sp.objs (cnt sp.hs)
  wf : ∀ c, some (some c) ∈ sp.hs → c < sp.objs.length

theorem getElem?_set_of {α : Type} {l : List α} {i j : Nat} {a b : α} (h : (l.set i a)[j]? = some b) :
    (j = i ∧ b = a) ∨ (j ≠ i ∧ l[j]? = some b) := by
  rw [List.getElem?_set] at h
  split at h
  · next hij =>
    split at h
    · left; exact ⟨hij.symm, (Option.some.inj h).symm⟩
    · cases h
  · next hij => right; exact ⟨fun hh => hij hh.symm, h⟩

theorem Cells.block {s : Handles} {objs n} (h : Cells s.cells objs n) {c : Nat} (hc : c < objs.length) (hn : 0 < n c) :
    ∃ k d, s.block (some c) = .ok (c, k) ∧ s.cells[c]? = some k ∧ objs[c]? = some d ∧ k.refs = n c ∧ k.alive = true ∧ k.data = d := by
  have h1 : s.cells[c]? = some (s.cells[c]'(by rw [h.len]; exact hc)) := List.getElem?_eq_getElem _
  have h2 : objs[c]? = some objs[c] := List.getElem?_eq_getElem hc
  obtain ⟨a1, a2, a3⟩ := h.cell c _ _ h1 h2
  rw [if_pos hn] at a3
  have a2' : (s.cells[c]'(by rw [h.len]; exact hc)).alive = true := by simpa [hn] using a2
  refine ⟨_, _, ?_, h1, h2, a1, a2', a3⟩
  unfold Handles.block
  simp only [h1, a2', if_true]

theorem Cells.release {s : Handles} {objs n} (h : Cells s.cells objs n) {c : Nat} (hc : c < objs.length) (hn : 0 < n c) :
    ∃ s', s.release (some c) = .ok s' ∧ s'.hs = s.hs ∧ Cells s'.cells objs (Function.update n c (n c - 1)) := by
  obtain ⟨k, d, b1, b2, b3, b4, b5, b6⟩ := h.block hc hn
  unfold Handles.release
  rw [if_neg (by simp), b1, ok_bind]
  simp only
  rw [assert_true (by omega), ok_bind]
  split
  · next hz =>
    refine ⟨_, rfl, rfl, ⟨by simpa using h.len, fun c' k' d' hk hd => ?_⟩⟩
    rcases getElem?_set_of hk with ⟨rfl, rfl⟩ | ⟨hne, hk⟩
    · rw [b3] at hd
      obtain rfl := Option.some.inj hd
      have : n c' - 1 = 0 := by rw [← b4]; exact hz
      simp [Function.update, this, b6]
    · simpa [Function.update, hne] using h.cell c' k' d' hk hd
  · next hz =>
    refine ⟨_, rfl, rfl, ⟨by simpa using h.len, fun c' k' d' hk hd => ?_⟩⟩
    rcases getElem?_set_of hk with ⟨rfl, rfl⟩ | ⟨hne, hk⟩
    · rw [b3] at hd
      obtain rfl := Option.some.inj hd
      have : 0 < n c' - 1 := by omega
      simp [Function.update, this, b4, b5, b6]
    · simpa [Function.update, hne] using h.cell c' k' d' hk hd

theorem Cells.addRef {s : Handles} {objs n} (h : Cells s.cells objs n) {c : Nat} (hc : c < objs.length) (hn : 0 < n c) :
    ∃ s', s.addRef (some c) = .ok s' ∧ s'.hs = s.hs ∧ Cells s'.cells objs (Function.update n c (n c + 1)) := by
  obtain ⟨k, d, b1, b2, b3, b4, b5, b6⟩ := h.block hc hn
  unfold Handles.addRef
  rw [b1, ok_bind]
  refine ⟨_, rfl, rfl, ⟨by simpa using h.len, fun c' k' d' hk hd => ?_⟩⟩
  rcases getElem?_set_of hk with ⟨rfl, rfl⟩ | ⟨hne, hk⟩
  · rw [b3] at hd
    obtain rfl := Option.some.inj hd
    simp [Function.update, b4, b5, b6]
  · simpa [Function.update, hne] using h.cell c' k' d' hk hd

theorem Cells.congr {cells objs n m} (h : Cells cells objs n) (e : ∀ c, n c = m c) : Cells cells objs m := by
  rwa [show m = n from (funext e).symm]

theorem cnt_set {hs : List (Option (Option Nat))} {h : Nat} {x : Option (Option Nat)} (hx : hs[h]? = some x)
    (y : Option (Option Nat)) (c : Nat) :
    cnt (hs.set h y) c = cnt hs c - (if x = some (some c) then 1 else 0) + (if y = some (some c) then 1 else 0) := by
  have hlt : h < hs.length := by
    by_contra hc
    rw [List.getElem?_eq_none (by omega)] at hx; cases hx
  have : hs[h] = x := by
    rw [List.getElem?_eq_getElem hlt] at hx
    exact Option.some.inj hx
  unfold cnt
  rw [List.count_set hlt, this]
  simp

theorem cnt_append (hs : List (Option (Option Nat))) (y : Option (Option Nat)) (c : Nat) :
    cnt (hs ++ [y]) c = cnt hs c + (if y = some (some c) then 1 else 0) := by
  unfold cnt
  rw [List.count_append, List.count_singleton]
  simp

theorem cnt_pos {hs : List (Option (Option Nat))} {h c : Nat} (hx : hs[h]? = some (some (some c))) : 0 < cnt hs c :=
  List.count_pos_iff.2 (List.mem_of_getElem? hx)

theorem mem_set_of {α : Type} {l : List α} {i : Nat} {a x : α} (h : x ∈ l.set i a) : x ∈ l ∨ x = a :=
  List.mem_or_eq_of_mem_set h

/-- releasing the mesh of handle `h` -/
theorem Rel.release {s : Handles} {sp : Shared} (r : Rel s sp) {h : Nat} {p : Option Nat} (hp : sp.hs[h]? = some (some p)) :
    ∃ s', s.release p = .ok s' ∧ s'.hs = s.hs ∧ Cells s'.cells sp.objs (cnt (sp.hs.set h (some none))) := by
  rcases p with _ | c
  · refine ⟨s, rfl, rfl, r.cells.congr fun c => ?_⟩
    rw [cnt_set hp]; simp
  · obtain ⟨s', h1, h2, h3⟩ := r.cells.release (r.wf c (List.mem_of_getElem? hp)) (cnt_pos hp)
    refine ⟨s', h1, h2, h3.congr fun c' => ?_⟩
    rw [cnt_set hp]
    by_cases hc : c' = c
    · subst hc; simp [Function.update]
    · simp [Function.update, hc, Ne.symm hc]

theorem ptr_ok {s : Handles} {h : Nat} {p : Option Nat} (hp : s.hs[h]? = some (some p)) : s.ptr h = .ok p := by
  unfold Handles.ptr; rw [hp]

/-- one allowed operation succeeds and has the specified effect -/
theorem step_ok {s : Handles} {sp : Shared} (r : Rel s sp) {o : Op} (ha : sp.Allowed o) :
    ∃ s', s.step o = .ok s' ∧ Rel s' (sp.step o) := by
  cases o with
  | create =>
    refine ⟨_, rfl, ⟨?_, ⟨by simp [Shared.step, r.cells.len], fun c k d hk hd => ?_⟩, fun c hc => ?_⟩⟩
    · simp [Shared.step, r.hs, r.cells.len]
    · have hcnt : cnt (sp.step .create).hs c = cnt sp.hs c + if sp.objs.length = c then 1 else 0 := by
        show cnt (sp.hs ++ [_]) c = _
        rw [cnt_append]; simp
      have hfresh : cnt sp.hs sp.objs.length = 0 := by
        unfold cnt
        rw [List.count_eq_zero]
        intro hm
        exact absurd (r.wf _ hm) (by omega)
      by_cases hcl : c < sp.objs.length
      · have hd' : sp.objs[c]? = some d := by
          change (sp.objs ++ [_])[c]? = _ at hd
          rwa [List.getElem?_append_left hcl] at hd
        have hk' : s.cells[c]? = some k := by
          change (s.cells ++ [_])[c]? = _ at hk
          rwa [List.getElem?_append_left (by rw [r.cells.len]; exact hcl)] at hk
        rw [hcnt, if_neg (by omega)]
        exact r.cells.cell c k d hk' hd'
      · have hce : c = sp.objs.length := by
          change (sp.objs ++ [_])[c]? = _ at hd
          by_contra hne
          rw [List.getElem?_eq_none (by simp; omega)] at hd
          cases hd
        subst hce
        change (sp.objs ++ [_])[sp.objs.length]? = _ at hd
        change (s.cells ++ [_])[sp.objs.length]? = _ at hk
        rw [← r.cells.len] at hk
        simp at hk hd
        rw [hcnt, hfresh]
        subst hk hd
        simp
    · change some (some c) ∈ sp.hs ++ [_] at hc
      rcases List.mem_append.1 hc with hc | hc
      · have := r.wf c hc
        show c < (sp.objs ++ [_]).length
        simp; omega
      · simp at hc
        show c < (sp.objs ++ [_]).length
        simp; omega
  | copy h =>
    obtain ⟨c, hc⟩ := ha
    have hc : sp.hs[h]? = some (some (some c)) := hc
    obtain ⟨s', e1, e2, e3⟩ := r.cells.addRef (r.wf c (List.mem_of_getElem? hc)) (cnt_pos hc)
    have hst : (sp.step (.copy h)) = { sp with hs := sp.hs ++ [some (some c)] } := by simp [Shared.step, hc]
    refine ⟨{ s' with hs := s'.hs ++ [some (some c)] }, ?_, ?_⟩
    · unfold Handles.step
      simp only
      rw [ptr_ok (by rw [r.hs]; exact hc), ok_bind, e1]; rfl
    · rw [hst]
      refine ⟨by simp [e2, r.hs], e3.congr fun c' => ?_, fun c' hc' => ?_⟩
      · rw [cnt_append]
        by_cases hcc : c' = c
        · subst hcc; simp [Function.update]
        · simp [Function.update, hcc, Ne.symm hcc]
      · rcases List.mem_append.1 hc' with hh | hh
        · exact r.wf c' hh
        · simp at hh; subst hh
          exact r.wf _ (List.mem_of_getElem? hc)
  | move h =>
    obtain ⟨p, hp⟩ := ha
    have hst : (sp.step (.move h)) = { sp with hs := sp.hs.set h (some none) ++ [some p] } := by simp [Shared.step, hp]
    refine ⟨{ s with hs := s.hs.set h (some none) ++ [some p] }, ?_, ?_⟩
    · unfold Handles.step
      simp only
      rw [ptr_ok (by rw [r.hs]; exact hp), ok_bind]; rfl
    · rw [hst]
      refine ⟨by simp [r.hs], r.cells.congr fun c' => ?_, fun c' hc' => ?_⟩
      · rw [cnt_append, cnt_set hp]
        by_cases hcc : p = some c'
        · subst hcc
          have := cnt_pos hp
          simp; omega
        · simp [hcc]
      · rcases List.mem_append.1 hc' with hh | hh
        · rcases mem_set_of hh with hh | hh
          · exact r.wf c' hh
          · simp at hh
        · simp at hh; subst hh
          exact r.wf _ (List.mem_of_getElem? hp)
  | destroy h =>
    obtain ⟨p, hp⟩ := ha
    obtain ⟨s', e1, e2, e3⟩ := r.release hp
    refine ⟨{ s' with hs := s'.hs.set h none }, ?_, ⟨by simp [Shared.step, e2, r.hs], e3.congr fun c' => ?_, fun c' hc' => ?_⟩⟩
    · unfold Handles.step
      simp only
      rw [ptr_ok (by rw [r.hs]; exact hp), ok_bind, e1]; rfl
    · show _ = cnt (sp.hs.set h none) c'
      rw [cnt_set hp, cnt_set hp]; simp
    · change some (some c') ∈ sp.hs.set h none at hc'
      rcases mem_set_of hc' with hh | hh
      · exact r.wf c' hh
      · simp at hh
  | assign h g =>
    obtain ⟨⟨p, hp⟩, ⟨c, hc⟩, hself⟩ := ha
    have hc : sp.hs[g]? = some (some (some c)) := hc
    obtain ⟨s', e1, e2, e3⟩ := r.release hp
    have hpos : 0 < cnt (sp.hs.set h (some none)) c := by
      by_cases hgh : g = h
      · subst hgh
        obtain ⟨h', c', hne, k1, k2⟩ := hself rfl
        have k1 : sp.hs[g]? = some (some (some c')) := k1
        have k2 : sp.hs[h']? = some (some (some c')) := k2
        rw [hc] at k1
        have hcc : c = c' := by simpa using k1
        subst hcc
        refine cnt_pos (h := h') ?_
        rw [List.getElem?_set_ne (Ne.symm hne)]; exact k2
      · refine cnt_pos (h := g) ?_
        rw [List.getElem?_set_ne (Ne.symm hgh)]; exact hc
    have hst : (sp.step (.assign h g)) = { sp with hs := sp.hs.set h (some (some c)) } := by simp [Shared.step, hc]
    have hwf := r.wf c (List.mem_of_getElem? hc)
    obtain ⟨s'', f1, f2, f3⟩ := Cells.addRef (s := { s' with hs := s'.hs.set h (some (some c)) }) e3 hwf hpos
    refine ⟨s'', ?_, ?_⟩
    · unfold Handles.step
      simp only
      rw [ptr_ok (by rw [r.hs]; exact hp), ok_bind, e1, ok_bind, ptr_ok (by rw [e2, r.hs]; exact hc), ok_bind]
      exact f1
    · rw [hst]
      refine ⟨by rw [f2]; simp [e2, r.hs], f3.congr fun c' => ?_, fun c' hc' => ?_⟩
      · rw [cnt_set hp (some (some c)) c']
        by_cases hcc : c' = c
        · subst hcc
          simp [Function.update, cnt_set hp]
        · simp [Function.update, hcc, Ne.symm hcc, cnt_set hp]
      · rcases mem_set_of hc' with hh | hh
        · exact r.wf c' hh
        · simp at hh; subst hh; exact hwf
  | moveAssign h g =>
    obtain ⟨⟨p, hp⟩, ⟨q, hq⟩⟩ := ha
    obtain ⟨s', e1, e2, e3⟩ := r.release hp
    have hst : (sp.step (.moveAssign h g)) = { sp with hs := (sp.hs.set h (some q)).set g (some none) } := by
      simp [Shared.step, hq]
    refine ⟨{ s' with hs := (s'.hs.set h (some q)).set g (some none) }, ?_, ?_⟩
    · unfold Handles.step
      simp only
      rw [ptr_ok (by rw [r.hs]; exact hp), ok_bind, e1, ok_bind, ptr_ok (by rw [e2, r.hs]; exact hq), ok_bind]; rfl
    · rw [hst]
      refine ⟨by simp [e2, r.hs], e3.congr fun c' => ?_, fun c' hc' => ?_⟩
      · show _ = cnt ((sp.hs.set h (some q)).set g (some none)) c'
        by_cases hgh : g = h
        · subst hgh
          rw [List.set_set]
        · have hq' : (sp.hs.set h (some q))[g]? = some (some q) := by
            rw [List.getElem?_set_ne (Ne.symm hgh)]; exact hq
          rw [cnt_set hq', cnt_set hp, cnt_set hp]
          simp
      · rcases mem_set_of hc' with hh | hh
        · rcases mem_set_of hh with hh | hh
          · exact r.wf c' hh
          · simp at hh; subst hh
            exact r.wf _ (List.mem_of_getElem? hq)
        · simp at hh
  | write h d =>
    obtain ⟨c, hc⟩ := ha
    have hc : sp.hs[h]? = some (some (some c)) := hc
    have hwf := r.wf c (List.mem_of_getElem? hc)
    obtain ⟨k, d0, b1, b2, b3, b4, b5, b6⟩ := r.cells.block hwf (cnt_pos hc)
    have hst : (sp.step (.write h d)) = { sp with objs := sp.objs.set c d } := by simp [Shared.step, hc]
    refine ⟨{ s with cells := s.cells.set c { k with data := d } }, ?_, ?_⟩
    · unfold Handles.step
      simp only
      rw [ptr_ok (by rw [r.hs]; exact hc), ok_bind, b1, ok_bind]; rfl
    · rw [hst]
      refine ⟨r.hs, ⟨by simpa using r.cells.len, fun c' k' d' hk hd => ?_⟩, fun c' hc' => ?_⟩
      · rcases getElem?_set_of hk with ⟨h1, rfl⟩ | ⟨hne, hk⟩
        · subst h1
          rcases getElem?_set_of hd with ⟨-, rfl⟩ | ⟨hne, -⟩
          · simp [b4, b5, cnt_pos hc]
          · exact absurd rfl hne
        · rcases getElem?_set_of hd with ⟨h1, -⟩ | ⟨-, hd⟩
          · exact absurd h1 hne
          · exact r.cells.cell c' k' d' hk hd
      · show c' < (sp.objs.set c d).length
        simpa using r.wf c' hc'

theorem run_rel {ops : List Op} : ∀ {s : Handles} {sp : Shared}, Rel s sp → AllowedHistory sp ops →
    ∃ s', (forList ops s fun o s => s.step o) = .ok s' ∧ Rel s' (sp.run ops) := by
  induction ops with
  | nil => intro s sp r _; exact ⟨s, rfl, r⟩
  | cons o ops ih =>
    intro s sp r ⟨h1, h2⟩
    obtain ⟨s1, e1, r1⟩ := step_ok r h1
    obtain ⟨s2, e2, r2⟩ := ih r1 h2
    refine ⟨s2, ?_, r2⟩
    unfold forList
    simp only [e1, ok_bind]
    exact e2

/-- C49: every allowed history runs without undefined behaviour or assertion failure.  Afterwards the handles denote the
meshes given by shared ownership, the data block of a mesh is deleted exactly when no handle denotes it any more, all
handles of a mesh see the data last written through any of them, and the vertices and elements of a mesh without handles
have been deleted. -/
theorem C49_handles {ops : List Op} (h : AllowedHistory ⟨[], []⟩ ops) :
    ∃ s, run ops = .ok s ∧ s.hs = (Shared.run ⟨[], []⟩ ops).hs ∧
      s.cells.length = (Shared.run ⟨[], []⟩ ops).objs.length ∧
      ∀ (c : Nat) k d, s.cells[c]? = some k → (Shared.run ⟨[], []⟩ ops).objs[c]? = some d →
        (k.alive = true ↔ (Shared.run ⟨[], []⟩ ops).referenced c) ∧
        (k.alive = true → k.data = d) ∧
        (k.alive = false → k.data.vertices = 0 ∧ k.data.elements = 0 ∧ k.data.edges = d.edges) := by
  obtain ⟨s, e, r⟩ := run_rel (s := ⟨[], []⟩) (sp := ⟨[], []⟩) (ops := ops)
    ⟨rfl, ⟨rfl, fun c k d hk => by simp at hk⟩, fun c hc => by simp at hc⟩ h
  refine ⟨s, e, r.hs, r.cells.len, fun c k d hk hd => ?_⟩
  obtain ⟨a1, a2, a3⟩ := r.cells.cell c k d hk hd
  have hiff : 0 < cnt (Shared.run ⟨[], []⟩ ops).hs c ↔ (Shared.run ⟨[], []⟩ ops).referenced c := by
    unfold cnt Shared.referenced Shared.denotes
    rw [List.count_pos_iff, List.mem_iff_getElem?]
  rw [a2, decide_eq_true_iff]
  refine ⟨hiff, fun hh => ?_, fun hh => ?_⟩
  · rw [a3, if_pos hh]
  · rw [decide_eq_false_iff_not] at hh
    rw [a3, if_neg hh]
    exact ⟨rfl, rfl, rfl⟩

/-- C49: which operations go wrong.  After any allowed history, copying from or assigning from a moved-from handle, and
assigning the only handle of a mesh to itself, is undefined behaviour (the latter uses the block after freeing it). -/
theorem C49_forbidden {ops : List Op} (h : AllowedHistory ⟨[], []⟩ ops) {s : Handles} (e : run ops = .ok s) {g k : Nat}
    (hk : (Shared.run ⟨[], []⟩ ops).exists_ k) :
    ((Shared.run ⟨[], []⟩ ops).hs[g]? = some (some none) → s.step (.copy g) = .error .ub ∧ s.step (.assign k g) = .error .ub) ∧
    ((∃ c, (Shared.run ⟨[], []⟩ ops).denotes g c ∧ ∀ g', (Shared.run ⟨[], []⟩ ops).denotes g' c → g' = g) →
      s.step (.assign g g) = .error .ub) := by
  obtain ⟨s', e', r⟩ := run_rel (s := ⟨[], []⟩) (sp := ⟨[], []⟩) (ops := ops)
    ⟨rfl, ⟨rfl, fun c k d hk => by simp at hk⟩, fun c hc => by simp at hc⟩ h
  have : s' = s := Except.ok.inj (e'.symm.trans e)
  subst this
  constructor
  · intro hg
    obtain ⟨p, hp⟩ := hk
    have hpg : s'.ptr g = .ok none := ptr_ok (by rw [r.hs]; exact hg)
    constructor
    · unfold Handles.step
      simp only
      rw [hpg]; rfl
    · obtain ⟨s2, e1, e2, -⟩ := r.release hp
      unfold Handles.step
      simp only
      rw [ptr_ok (by rw [r.hs]; exact hp), ok_bind, e1, ok_bind, ptr_ok (p := none) (by rw [e2, r.hs]; exact hg), ok_bind]; rfl
  · rintro ⟨c, hc, honly⟩
    have hc : (Shared.run ⟨[], []⟩ ops).hs[g]? = some (some (some c)) := hc
    obtain ⟨s2, e1, e2, e3⟩ := r.release hc
    have hwf := r.wf c (List.mem_of_getElem? hc)
    have hz : cnt ((Shared.run ⟨[], []⟩ ops).hs.set g (some none)) c = 0 := by
      unfold cnt
      rw [List.count_eq_zero]
      intro hm
      obtain ⟨g', hg'⟩ := List.mem_iff_getElem?.1 hm
      rcases getElem?_set_of hg' with ⟨-, hh⟩ | ⟨hne, hh⟩
      · simp at hh
      · exact hne (honly g' hh)
    have hk1 : s2.cells[c]? = some (s2.cells[c]'(by rw [e3.len]; exact hwf)) := List.getElem?_eq_getElem _
    have hd1 : (Shared.run ⟨[], []⟩ ops).objs[c]? = some _ := List.getElem?_eq_getElem hwf
    obtain ⟨-, a2, -⟩ := e3.cell c _ _ hk1 hd1
    rw [hz] at a2
    have hlen : c < s2.cells.length := by rw [e3.len]; exact hwf
    unfold Handles.step
    simp only
    rw [ptr_ok (by rw [r.hs]; exact hc), ok_bind, e1, ok_bind, ptr_ok (p := some c) (by rw [e2, r.hs]; exact hc), ok_bind]
    unfold Handles.addRef Handles.block
    simp only [hk1]
    rw [a2]; rfl

/-- C49 is violated by self-assignment of an only handle: undefined behaviour. -/
theorem C49_self_assign_negation : run [.create, .assign 0 0] = .error .ub := rfl
/-- ... by copying a moved-from handle -/
theorem C49_moved_from_negation : run [.create, .move 0, .copy 0] = .error .ub := rfl
/-- ... and the edge objects of a mesh are never deleted: after the last handle is gone three of them are still
allocated -/
theorem C49_leak_negation : run [.create, .write 0 ⟨4, 2, 3⟩, .destroy 0] = .ok ⟨[⟨0, false, ⟨0, 0, 3⟩⟩], [none]⟩ := rfl

/-- Non-vacuity: two meshes, copies, moves and assignments; the first mesh dies with its last handle. -/
example : AllowedHistory ⟨[], []⟩ [.create, .copy 0, .create, .write 1 ⟨3, 1, 3⟩, .assign 1 2, .assign 2 2, .moveAssign 0 1, .destroy 2] ∧
    run [.create, .copy 0, .create, .write 1 ⟨3, 1, 3⟩, .assign 1 2, .assign 2 2, .moveAssign 0 1, .destroy 2] =
      .ok ⟨[⟨0, false, ⟨0, 0, 3⟩⟩, ⟨1, true, ⟨0, 0, 0⟩⟩], [some (some 1), some none, none]⟩ := by
  refine ⟨⟨trivial, ⟨0, rfl⟩, trivial, ⟨0, rfl⟩, ⟨⟨some 0, rfl⟩, ⟨1, rfl⟩, by simp⟩, ⟨⟨some 1, rfl⟩, ⟨1, rfl⟩, fun _ => ⟨1, 1, by decide, rfl, rfl⟩⟩,
    ⟨⟨some 0, rfl⟩, ⟨some 1, rfl⟩⟩, ⟨some 1, rfl⟩, trivial⟩, rfl⟩

end NS.Props.MeshHandle

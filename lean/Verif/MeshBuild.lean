/-
Building a mesh: `addVertex`/`addElement` histories and the incidence invariant.
-/
import Verif.Mesh

set_option linter.unusedSectionVars false
set_option linter.unusedSimpArgs false

namespace NS
namespace World
variable {T : Type} [Field T] [LinearOrder T]

/-- the corner pointers of element `a` -/
def vertsOf (w : World T) (a : Nat) : List (Option Nat) := ((w.E[a]?).map (·.verts)).getD []

/-- All meshes a program can build with `new MeshVertex`, `new MeshElement`, `addVertex`, `addElement` and flag updates,
when no object is added twice. -/
inductive Built : World T → Prop
  | empty : Built World.empty
  | newVertex {w} (pos : List T) : Built w → pos.length = 2 → Built (w.newVertex pos).1
  | newElement {w} (vs : List (Option Nat)) : Built w → vs.length = 3 → Built (w.newElement vs).1
  | mark {w w' p f} : Built w → w.orFlags p f = .ok w' → Built w'
  | addVertex {w w' p} : Built w → p ∉ w.vertices → w.addVertex (some p) = .ok w' → Built w'
  | addElement {w w' a} : Built w → a ∉ w.elements → w.addElement (some a) = .ok w' → Built w'

structure Inv (w : World T) : Prop where
  noF : w.F = []
  noEdges : w.edges = []
  vlt : ∀ p ∈ w.vertices, p < w.V.length
  vnd : w.vertices.Nodup
  gi : ∀ (i p : Nat) (v : MVertex T), w.vertices[i]? = some p → w.V[p]? = some v → v.gi = i
  elt : ∀ a ∈ w.elements, a < w.E.length
  end_ : w.elements.Nodup
  shape : ∀ (a : Nat) (e : MElem T), w.E[a]? = some e → e.verts.length = 3 ∧ e.nbrs = [none, none, none] ∧ e.dofs = [] ∧
    e.simplex.prepared = false ∧ e.simplex.verts.length = 3 ∧ (∀ x ∈ e.simplex.verts, x.length = 2) ∧
    e.simplex.mat = (Simplex.default : Simplex T).mat ∧ e.simplex.inv = (Simplex.default : Simplex T).inv
  corner : ∀ a ∈ w.elements, ∀ e : MElem T, w.E[a]? = some e → ∀ i < 3, ∃ (q : Nat) (v : MVertex T), e.verts[i]? = some (some q) ∧ w.V[q]? = some v ∧
    e.simplex.verts[i]? = some v.pos
  inc : ∀ (q : Nat) (v : MVertex T), w.V[q]? = some v →
    v.elems = w.elements.flatMap fun a => List.replicate ((w.vertsOf a).count (some q)) a
  pos : ∀ (q : Nat) (v : MVertex T), w.V[q]? = some v → v.pos.length = 2

theorem lt_of_getElem? {α : Type} {l : List α} {i : Nat} {a : α} (h : l[i]? = some a) : i < l.length := by
  by_contra hc
  rw [List.getElem?_eq_none (by omega)] at h; cases h

theorem getElem?_append_one {α : Type} (l : List α) (x : α) (i : Nat) (a : α) (h : (l ++ [x])[i]? = some a) :
    l[i]? = some a ∨ (i = l.length ∧ a = x) := by
  have := lt_of_getElem? h
  simp at this
  by_cases hi : i < l.length
  · left; rwa [List.getElem?_append_left hi] at h
  · right
    have : i = l.length := by omega
    subst this
    simp at h
    exact ⟨rfl, h.symm⟩

theorem addElement_spec {w : World T} {a : Nat} {e : MElem T} (he : w.E[a]? = some e) (hl : e.verts.length = 3)
    (hs : e.simplex.verts.length = 3) :
    Sat (w.addElement (some a))
      (fun w' => w'.vertices = w.vertices ∧ w'.elements = w.elements ++ [a] ∧ w'.F = w.F ∧ w'.edges = w.edges ∧
        (∃ vs : List (List T), w'.E = w.E.set a { e with simplex := { e.simplex with verts := vs } } ∧ vs.length = 3 ∧
          ∀ i < 3, ∃ (q : Nat) (v : MVertex T), e.verts[i]? = some (some q) ∧ w.V[q]? = some v ∧ vs[i]? = some v.pos) ∧
        w'.V.length = w.V.length ∧
        ∀ (q : Nat) (v : MVertex T), w.V[q]? = some v →
          w'.V[q]? = some { v with elems := v.elems ++ List.replicate (e.verts.count (some q)) a })
      (fun err => err = .ub ∧ ∃ i < 3, ∀ q, e.verts[i]? = some (some q) → w.V[q]? = none) := by
  have hlt := lt_of_getElem? he
  unfold addElement
  rw [assert_true (by simp), ok_bind]
  simp only [deref, ok_bind]
  refine Sat.mono (sat_forRange (fun k (w' : World T) => w'.vertices = w.vertices ∧ w'.elements = w.elements ++ [a] ∧
      w'.F = w.F ∧ w'.edges = w.edges ∧
        (∃ vs : List (List T), w'.E = w.E.set a { e with simplex := { e.simplex with verts := vs } } ∧ vs.length = 3 ∧
          ∀ i < k, ∃ (q : Nat) (v : MVertex T), e.verts[i]? = some (some q) ∧ w.V[q]? = some v ∧ vs[i]? = some v.pos) ∧
        w'.V.length = w.V.length ∧
        ∀ (q : Nat) (v : MVertex T), w.V[q]? = some v →
          w'.V[q]? = some { v with elems := v.elems ++ List.replicate ((e.verts.take k).count (some q)) a })
    (Nat.zero_le 3) ⟨rfl, rfl, rfl, rfl, ⟨e.simplex.verts, ?_, hs, fun i hi => absurd hi (by omega)⟩, rfl, fun q v hv => by simpa using hv⟩
    ?_) ?_ (fun _ h => h)
  · show w.E = _
    apply List.ext_getElem?
    intro i
    rw [getElem?_set' _ _ _ _ hlt]
    split
    · next h => rw [h, he]
    · rfl
  · intro k w' _ hk ⟨h1, h2, h3, h4, ⟨vs, h5, h6, h7⟩, h8, h9⟩
    have hE' : w'.E[a]? = some { e with simplex := { e.simplex with verts := vs } } := by
      rw [h5, getElem?_set' _ _ _ _ hlt, if_pos rfl]
    rw [getIdx_of_some hE', ok_bind]
    have hvk : e.verts[k]? = some (e.verts[k]) := by simp [hl, hk]
    rw [getIdx_of_some hvk, ok_bind]
    rcases hcase : e.verts[k] with _ | q
    · exact ⟨rfl, k, hk, fun q hq => by rw [hvk, hcase] at hq; cases hq⟩
    · simp only [deref, ok_bind]
      rcases hV : w.V[q]? with _ | v
      · have : w'.V[q]? = none := by
          rw [List.getElem?_eq_none_iff] at hV ⊢; omega
        have hg : getIdx w'.V q = .error .ub := by unfold getIdx; rw [this]
        rw [hg]
        exact ⟨rfl, k, hk, fun q' hq' => by
          rw [hvk, hcase] at hq'
          obtain rfl := Option.some.inj (Option.some.inj hq'); exact hV⟩
      · have hV' := h9 q v hV
        have hqlt := lt_of_getElem? hV'
        rw [getIdx_of_some hV', ok_bind]
        unfold Simplex.setVertex
        simp only
        rw [setIdx_eq _ (by omega), ok_bind]
        simp only [pure_eq_ok, ok_bind]
        refine ⟨h1, h2, h3, h4, ⟨vs.set k v.pos, ?_, by simpa using h6, ?_⟩, by simpa using h8, ?_⟩
        · show w'.E.set a _ = _
          rw [h5, List.set_set]
        · intro i hi
          by_cases hik : i = k
          · subst hik
            exact ⟨q, v, by rw [hvk, hcase], hV, by rw [getElem?_set' _ _ _ _ (by omega), if_pos rfl]⟩
          · obtain ⟨q', v', a1, a2, a3⟩ := h7 i (by omega)
            exact ⟨q', v', a1, a2, by rw [getElem?_set' _ _ _ _ (by omega), if_neg hik, a3]⟩
        · intro q' v' hv'
          show (w'.V.set q _)[q']? = _
          rw [getElem?_set' _ _ _ _ hqlt]
          have htake : e.verts.take (k + 1) = e.verts.take k ++ [some q] := by
            rw [List.take_add_one, hvk, hcase]; rfl
          rw [htake, List.count_append]
          by_cases hqq : q' = q
          · subst hqq
            rw [if_pos rfl]
            rw [hV] at hv'
            obtain rfl := Option.some.inj hv'
            simp [List.replicate_add]
          · rw [if_neg hqq, h9 q' v' hv']
            simp [Ne.symm hqq]
  · rintro w' ⟨h1, h2, h3, h4, h5, h6, h7⟩
    have : e.verts.take 3 = e.verts := List.take_of_length_le (by omega)
    rw [this] at h7
    exact ⟨h1, h2, h3, h4, h5, h6, h7⟩

theorem vertsOf_some {w : World T} {a : Nat} {e : MElem T} (h : w.E[a]? = some e) : w.vertsOf a = e.verts := by
  unfold vertsOf; rw [h]; rfl

theorem flatMap_congr' {α β : Type} {l : List α} {f g : α → List β} (h : ∀ a ∈ l, f a = g a) : l.flatMap f = l.flatMap g := by
  induction l with
  | nil => rfl
  | cons a l ih =>
    rw [List.flatMap_cons, List.flatMap_cons, h a (by simp), ih (fun b hb => h b (by simp [hb]))]

theorem built_inv {w : World T} (h : Built w) : Inv w := by
  induction h with
  | empty =>
    refine ⟨rfl, rfl, ?_, List.nodup_nil, ?_, ?_, List.nodup_nil, ?_, ?_, ?_, ?_⟩ <;> simp [World.empty]
  | @newVertex w pos _ hp ih =>
    refine ⟨ih.noF, ih.noEdges, fun p hp => ?_, ih.vnd, fun i p v h1 h2 => ?_, ih.elt, ih.end_, ih.shape, ?_, ?_, ?_⟩
    · have := ih.vlt p hp
      show p < (w.V ++ [_]).length
      simp; omega
    · have hlt := ih.vlt p (List.mem_of_getElem? h1)
      have h2' : (w.V ++ [_])[p]? = some v := h2
      rw [List.getElem?_append_left hlt] at h2'
      exact ih.gi i p v h1 h2'
    · intro a ha e he i hi
      obtain ⟨q, v, a1, a2, a3⟩ := ih.corner a ha e he i hi
      refine ⟨q, v, a1, ?_, a3⟩
      show (w.V ++ [_])[q]? = _
      rw [List.getElem?_append_left (lt_of_getElem? a2), a2]
    · intro q v hv
      rcases getElem?_append_one _ _ _ _ hv with hv | ⟨rfl, rfl⟩
      · exact ih.inc q v hv
      · -- a fresh vertex is in no element
        show [] = List.flatMap _ w.elements
        symm
        rw [List.flatMap_eq_nil_iff]
        intro a ha
        have : ∃ e, w.E[a]? = some e := ⟨w.E[a]'(ih.elt a ha), by simp [ih.elt a ha]⟩
        obtain ⟨e, he⟩ := this
        have h0 : (vertsOf (w.newVertex pos).1 a).count (some w.V.length) = 0 := by
          rw [List.count_eq_zero]
          intro hm
          have hve : vertsOf (w.newVertex pos).1 a = e.verts := vertsOf_some he
          rw [hve] at hm
          obtain ⟨i, hi⟩ := List.getElem?_of_mem hm
          have hi3 : i < 3 := by have := lt_of_getElem? hi; rw [(ih.shape a e he).1] at this; exact this
          obtain ⟨q, v, a1, a2, -⟩ := ih.corner a ha e he i hi3
          rw [hi] at a1
          obtain rfl := Option.some.inj (Option.some.inj a1)
          have := lt_of_getElem? a2
          omega
        rw [h0]; rfl
    · intro q v hv
      rcases getElem?_append_one _ _ _ _ hv with hv | ⟨rfl, rfl⟩
      · exact ih.pos q v hv
      · exact hp
  | @newElement w vs _ hl ih =>
    have hvo : ∀ a ∈ w.elements, vertsOf (w.newElement vs).1 a = w.vertsOf a := by
      intro a ha
      unfold vertsOf
      show (((w.E ++ [_])[a]?).map _).getD _ = _
      rw [List.getElem?_append_left (ih.elt a ha)]
    refine ⟨ih.noF, ih.noEdges, ih.vlt, ih.vnd, ih.gi, fun a ha => ?_, ih.end_, ?_, ?_, ?_, ih.pos⟩
    · have := ih.elt a ha
      show a < (w.E ++ [_]).length
      simp; omega
    · intro a e he
      rcases getElem?_append_one _ _ _ _ he with he | ⟨rfl, rfl⟩
      · exact ih.shape a e he
      · exact ⟨hl, rfl, rfl, rfl, rfl, by simp [Simplex.default], rfl, rfl⟩
    · intro a ha e he i hi
      have he' : (w.E ++ [_])[a]? = some e := he
      rw [List.getElem?_append_left (ih.elt a ha)] at he'
      exact ih.corner a ha e he' i hi
    · intro q v hv
      rw [ih.inc q v hv]
      exact flatMap_congr' (fun a ha => by rw [hvo a ha])
  | @mark w w' p f _ e ih =>
    unfold orFlags at e
    rcases hp : w.V[p]? with _ | v
    · have hg : getIdx w.V p = .error .ub := by unfold getIdx; rw [hp]
      rw [hg] at e; cases e
    rw [getIdx_of_some hp, ok_bind] at e
    obtain rfl := (Except.ok.inj e).symm
    have hplt := lt_of_getElem? hp
    have hget : ∀ (q : Nat) (u : MVertex T), (w.V.set p { v with flags := v.flags ||| f })[q]? = some u →
        ∃ u', w.V[q]? = some u' ∧ u'.gi = u.gi ∧ u'.pos = u.pos ∧ u'.elems = u.elems := by
      intro q u hu
      rw [getElem?_set' _ _ _ _ hplt] at hu
      split at hu
      · next h =>
        obtain rfl := Option.some.inj hu
        exact ⟨v, by rw [h]; exact hp, rfl, rfl, rfl⟩
      · exact ⟨u, hu, rfl, rfl, rfl⟩
    have hget' : ∀ (q : Nat) (u' : MVertex T), w.V[q]? = some u' → ∃ u, (w.V.set p { v with flags := v.flags ||| f })[q]? = some u ∧
        u.pos = u'.pos := by
      intro q u' hu
      rw [getElem?_set' _ _ _ _ hplt]
      split
      · next h =>
        rw [h, hp] at hu
        obtain rfl := Option.some.inj hu
        exact ⟨_, rfl, rfl⟩
      · exact ⟨u', hu, rfl⟩
    refine ⟨ih.noF, ih.noEdges, fun q hq => ?_, ih.vnd, fun i q u h1 h2 => ?_, ih.elt, ih.end_, ih.shape, ?_, ?_, ?_⟩
    · simpa using ih.vlt q hq
    · obtain ⟨u', b1, b2, -⟩ := hget q u h2
      rw [← b2]; exact ih.gi i q u' h1 b1
    · intro a ha e he i hi
      obtain ⟨q, v', a1, a2, a3⟩ := ih.corner a ha e he i hi
      obtain ⟨u, b1, b2⟩ := hget' q v' a2
      exact ⟨q, u, a1, b1, by rw [b2]; exact a3⟩
    · intro q u hu
      obtain ⟨u', b1, -, -, b4⟩ := hget q u hu
      rw [← b4]; exact ih.inc q u' b1
    · intro q u hu
      obtain ⟨u', b1, -, b3, -⟩ := hget q u hu
      rw [← b3]; exact ih.pos q u' b1
  | @addVertex w w' p _ hnew e ih =>
    unfold World.addVertex at e
    rw [assert_true (by simp), ok_bind] at e
    simp only [deref, ok_bind] at e
    rcases hp : w.V[p]? with _ | v
    · have hg : getIdx w.V p = .error .ub := by unfold getIdx; rw [hp]
      rw [hg] at e; cases e
    rw [getIdx_of_some hp, ok_bind] at e
    obtain rfl := (Except.ok.inj e).symm
    have hplt := lt_of_getElem? hp
    have hget : ∀ (q : Nat) (u : MVertex T), (w.V.set p { v with gi := w.vertices.length })[q]? = some u →
        (q = p ∧ u.gi = w.vertices.length ∧ u.pos = v.pos ∧ u.elems = v.elems) ∨ (q ≠ p ∧ w.V[q]? = some u) := by
      intro q u hu
      rw [getElem?_set' _ _ _ _ hplt] at hu
      split at hu
      · next h =>
        obtain rfl := Option.some.inj hu
        exact .inl ⟨h, rfl, rfl, rfl⟩
      · next h => exact .inr ⟨h, hu⟩
    refine ⟨ih.noF, ih.noEdges, fun q hq => ?_, ?_, fun i q u h1 h2 => ?_, ih.elt, ih.end_, ih.shape, ?_, ?_, ?_⟩
    · rcases List.mem_append.1 hq with hq | hq
      · simpa using ih.vlt q hq
      · rw [List.mem_singleton] at hq; simpa [hq] using hplt
    · refine List.Nodup.append ih.vnd (List.nodup_singleton _) ?_
      intro x hx hx'
      rw [List.mem_singleton] at hx'
      exact hnew (hx' ▸ hx)
    · rcases getElem?_append_one _ _ _ _ h1 with g1 | ⟨rfl, rfl⟩
      · rcases hget q u h2 with ⟨rfl, -⟩ | ⟨-, h⟩
        · exact (hnew (List.mem_of_getElem? g1)).elim
        · exact ih.gi i q u g1 h
      · rcases hget q u h2 with ⟨-, h, -⟩ | ⟨h, -⟩
        · exact h
        · exact absurd rfl h
    · intro a ha e he i hi
      obtain ⟨q, v', a1, a2, a3⟩ := ih.corner a ha e he i hi
      by_cases hqp : q = p
      · subst hqp
        rw [hp] at a2
        obtain rfl := Option.some.inj a2
        exact ⟨q, { v with gi := w.vertices.length }, a1, by simp only; rw [getElem?_set' _ _ _ _ hplt, if_pos rfl], a3⟩
      · exact ⟨q, v', a1, by simp only; rw [getElem?_set' _ _ _ _ hplt, if_neg hqp, a2], a3⟩
    · intro q u hu
      rcases hget q u hu with ⟨rfl, -, -, h⟩ | ⟨-, h⟩
      · rw [h]; exact ih.inc q v hp
      · exact ih.inc q u h
    · intro q u hu
      rcases hget q u hu with ⟨rfl, -, h, -⟩ | ⟨-, h⟩
      · rw [h]; exact ih.pos q v hp
      · exact ih.pos q u h
  | @addElement w w' a _ hnew e ih =>
    rcases he : w.E[a]? with _ | el
    · exfalso
      have hg : getIdx w.E a = .error .ub := by unfold getIdx; rw [he]
      have : w.addElement (some a) = .error .ub := by
        unfold World.addElement
        rw [assert_true (by simp), ok_bind]
        simp only [deref, ok_bind]
        rw [forRange_step (by omega)]
        simp only [hg, error_bind]
      rw [this] at e; cases e
    have halt := lt_of_getElem? he
    obtain ⟨s1, s2, s3, s4, s5, s6, s7, s8⟩ := ih.shape a el he
    obtain ⟨h1, h2, h3, h4, ⟨vs, h5, h6, h7⟩, h8, h9⟩ := (addElement_spec he s1 s5).of_ok e
    have hgetE : ∀ (b : Nat) (eb : MElem T), w'.E[b]? = some eb →
        (b = a ∧ eb = { el with simplex := { el.simplex with verts := vs } }) ∨ (b ≠ a ∧ w.E[b]? = some eb) := by
      intro b eb hb
      rw [h5, getElem?_set' _ _ _ _ halt] at hb
      split at hb
      · next h => exact .inl ⟨h, (Option.some.inj hb).symm⟩
      · next h => exact .inr ⟨h, hb⟩
    have hvo : ∀ b, w'.vertsOf b = w.vertsOf b := by
      intro b
      unfold vertsOf
      rw [h5, getElem?_set' _ _ _ _ halt]
      split
      · next h => rw [h, he]; rfl
      · rfl
    have hgetV : ∀ (q : Nat) (u : MVertex T), w'.V[q]? = some u → ∃ v, w.V[q]? = some v ∧
        u = { v with elems := v.elems ++ List.replicate (el.verts.count (some q)) a } := by
      intro q u hu
      have hq : q < w.V.length := by rw [← h8]; exact lt_of_getElem? hu
      have hv : w.V[q]? = some (w.V[q]) := by simp [hq]
      refine ⟨_, hv, ?_⟩
      have := h9 q _ hv
      rw [hu] at this
      exact Option.some.inj this
    refine ⟨by rw [h3, ih.noF], by rw [h4, ih.noEdges], fun p hp => ?_, by rw [h1]; exact ih.vnd, fun i p u g1 g2 => ?_,
      fun b hb => ?_, ?_, ?_, ?_, ?_, ?_⟩
    · rw [h8]; rw [h1] at hp; exact ih.vlt p hp
    · rw [h1] at g1
      obtain ⟨v, hv, rfl⟩ := hgetV p u g2
      exact ih.gi i p v g1 hv
    · rw [h5, List.length_set]
      rw [h2] at hb
      rcases List.mem_append.1 hb with hb | hb
      · exact ih.elt b hb
      · rw [List.mem_singleton] at hb; rw [hb]; exact halt
    · rw [h2]
      refine List.Nodup.append ih.end_ (List.nodup_singleton _) ?_
      intro x hx hx'
      rw [List.mem_singleton] at hx'
      exact hnew (hx' ▸ hx)
    · intro b eb hb
      rcases hgetE b eb hb with ⟨rfl, rfl⟩ | ⟨-, hb⟩
      · refine ⟨s1, s2, s3, s4, h6, fun x hx => ?_, s7, s8⟩
        obtain ⟨i, hi⟩ := List.getElem?_of_mem hx
        have hi3 : i < 3 := by have := lt_of_getElem? hi; simp only at this; omega
        obtain ⟨q, v, -, a2, a3⟩ := h7 i hi3
        simp only at hi
        rw [a3] at hi
        obtain rfl := Option.some.inj hi
        exact ih.pos q v a2
      · exact ih.shape b eb hb
    · intro b hb eb heb i hi
      rw [h2] at hb
      rcases hgetE b eb heb with ⟨rfl, rfl⟩ | ⟨hba, heb⟩
      · obtain ⟨q, v, a1, a2, a3⟩ := h7 i hi
        exact ⟨q, _, a1, h9 q v a2, a3⟩
      · rcases List.mem_append.1 hb with hb | hb
        · obtain ⟨q, v, a1, a2, a3⟩ := ih.corner b hb eb heb i hi
          exact ⟨q, _, a1, h9 q v a2, a3⟩
        · rw [List.mem_singleton] at hb; exact absurd hb hba
    · intro q u hu
      obtain ⟨v, hv, rfl⟩ := hgetV q u hu
      show v.elems ++ _ = _
      rw [h2, List.flatMap_append, ih.inc q v hv]
      congr 1
      · exact flatMap_congr' (fun b _ => by rw [hvo b])
      · simp only [List.flatMap_cons, List.flatMap_nil, List.append_nil]
        rw [hvo a, vertsOf_some he]
    · intro q u hu
      obtain ⟨v, hv, rfl⟩ := hgetV q u hu
      exact ih.pos q v hv

/-- every added element has three pairwise different corners -/
def Distinct (w : World T) : Prop := ∀ a ∈ w.elements, (w.vertsOf a).Nodup

/-- corner numbers of an element -/
def cornerFn (w : World T) (a : Nat) (i : Fin 3) : Nat := ((w.vertsOf a)[(i : Nat)]?.join).getD 0

theorem vertsOf_arr {w : World T} (h : Inv w) {a : Nat} (ha : a ∈ w.elements) : w.vertsOf a = arr (w.cornerFn a) := by
  have hlt := h.elt a ha
  have he : w.E[a]? = some (w.E[a]) := by simp [hlt]
  have hl := (h.shape a _ he).1
  obtain ⟨q0, -, c0, -⟩ := h.corner a ha _ he 0 (by omega)
  obtain ⟨q1, -, c1, -⟩ := h.corner a ha _ he 1 (by omega)
  obtain ⟨q2, -, c2, -⟩ := h.corner a ha _ he 2 (by omega)
  rw [← vertsOf_some he] at hl c0 c1 c2
  unfold arr cornerFn
  simp only [Fin.val_zero, Fin.val_one, Fin.val_two, c0, c1, c2, Option.join_some, Option.getD_some]
  apply List.ext_getElem?
  intro i
  match i with
  | 0 => simpa using c0
  | 1 => simpa using c1
  | 2 => simpa using c2
  | k + 3 => rw [List.getElem?_eq_none (by omega)]; simp

theorem arr_inj {t : Fin 3 → Nat} (h : (arr t).Nodup) : Function.Injective t := by
  simp only [arr, List.nodup_cons, List.mem_cons, Option.some.injEq, List.not_mem_nil, or_false, not_or,
    List.nodup_nil, and_true, not_false_eq_true] at h
  obtain ⟨⟨h1, h2⟩, h3⟩ := h
  intro i j hij
  fin_cases i <;> fin_cases j <;> first | rfl | (exfalso; simp only [Fin.zero_eta, Fin.mk_one, Fin.reduceFinMk, Fin.isValue] at hij; first | exact h1 hij | exact h1 hij.symm | exact h2 hij | exact h2 hij.symm | exact h3 hij | exact h3 hij.symm)

theorem inv_nb {w : World T} (h : Inv w) (hd : Distinct w) : NB w.elements w.cornerFn w := by
  have hinj : ∀ a ∈ w.elements, Function.Injective (w.cornerFn a) := fun a ha =>
    arr_inj (by rw [← vertsOf_arr h ha]; exact hd a ha)
  have hnone : ∀ a ∈ w.elements, ∀ i : Fin 3, nbr w a i = none := by
    intro a ha i
    have he : w.E[a]? = some (w.E[a]'(h.elt a ha)) := by simp [h.elt a ha]
    refine nbr_of he ?_
    rw [(h.shape a _ he).2.1]
    fin_cases i <;> rfl
  refine ⟨⟨rfl, hinj, fun a ha => ?_, fun a ha q hq => ?_⟩, ?_, ?_, ?_, ?_⟩
  · have he : w.E[a]? = some (w.E[a]'(h.elt a ha)) := by simp [h.elt a ha]
    refine ⟨_, he, ?_, by rw [(h.shape a _ he).2.1]; rfl⟩
    rw [← vertsOf_arr h ha, vertsOf_some he]
  · have he : w.E[a]? = some (w.E[a]'(h.elt a ha)) := by simp [h.elt a ha]
    have hm : some q ∈ w.vertsOf a := by rw [vertsOf_arr h ha]; exact mem_arr.2 hq
    obtain ⟨i, hi⟩ := List.getElem?_of_mem hm
    have hi3 : i < 3 := by
      have := lt_of_getElem? hi
      rw [vertsOf_some he, (h.shape a _ he).1] at this; exact this
    obtain ⟨q', v, a1, a2, -⟩ := h.corner a ha _ he i hi3
    rw [← vertsOf_some he, hi] at a1
    obtain rfl := Option.some.inj (Option.some.inj a1)
    refine ⟨v, a2, fun b => ?_⟩
    rw [h.inc q v a2, List.mem_flatMap]
    constructor
    · rintro ⟨c, hc, hb⟩
      rw [List.mem_replicate] at hb
      obtain ⟨h0, rfl⟩ := hb
      refine ⟨hc, ?_⟩
      rw [← mem_arr, ← vertsOf_arr h hc]
      by_contra hcon
      exact h0 (List.count_eq_zero.2 hcon)
    · rintro ⟨hb, hq'⟩
      refine ⟨b, hb, ?_⟩
      rw [List.mem_replicate]
      refine ⟨?_, rfl⟩
      rw [← mem_arr, ← vertsOf_arr h hb] at hq'
      exact fun h0 => (List.count_eq_zero.1 h0) hq'
  · intro a ha i ep he
    rw [hnone a ha i] at he; cases he
  · intro a ha b hb i j _
    rw [hnone a ha, hnone b hb]
  · rw [h.noEdges, h.noF]; rfl
  · intro ep hep
    rw [h.noF] at hep; simp at hep
end World
end NS

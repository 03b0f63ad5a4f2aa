/-
The grid built by `HyperCube<T,2>::generate`: loop invariants.
-/
import Verif.HyperCubeModel
import Verif.MeshBuild
import Mathlib.Tactic.Ring
import Mathlib.Algebra.Field.Basic

set_option linter.unusedSectionVars false
set_option linter.unusedSimpArgs false

namespace NS
namespace HyperCube
open World
variable {T : Type} [Field T] [LinearOrder T]

/-- the mesh has the vertices `0, .., nv-1` with positions `pos` and flags `fl`, and the elements `0, .., ne-1` with corners `ev` -/
structure G (w : World T) (nv ne : Nat) (pos : Nat → List T) (fl : Nat → Nat) (ev : Nat → List Nat) : Prop where
  built : Built w
  vlen : w.V.length = nv
  verts : w.vertices = List.range nv
  elen : w.E.length = ne
  elems : w.elements = List.range ne
  v : ∀ id < nv, ∃ x, w.V[id]? = some x ∧ x.pos = pos id ∧ x.flags = fl id
  e : ∀ a < ne, w.vertsOf a = (ev a).map some

theorem addVertex_eq {w : World T} {p : Nat} {v : MVertex T} (hv : w.V[p]? = some v) :
    w.addVertex (some p) = .ok { w with V := w.V.set p { v with gi := w.vertices.length }, vertices := w.vertices ++ [p] } := by
  unfold World.addVertex
  rw [assert_true (by simp), ok_bind]
  simp only [deref, ok_bind]
  rw [getIdx_of_some hv]; rfl

theorem orFlags_eq {w : World T} {p f : Nat} {v : MVertex T} (hv : w.V[p]? = some v) :
    w.orFlags p f = .ok { w with V := w.V.set p { v with flags := v.flags ||| f } } := by
  unfold World.orFlags
  rw [getIdx_of_some hv]; rfl

theorem G.orF {w : World T} {nv ne pos fl ev} (h : G w nv ne pos fl ev) {p : Nat} (hp : p < nv) {fl' : Nat → Nat}
    (h1 : fl' p = fl p ||| 1) (h2 : ∀ id < nv, id ≠ p → fl' id = fl id) :
    ∃ w', w.orFlags p 1 = .ok w' ∧ G w' nv ne pos fl' ev := by
  obtain ⟨x, hx, hpos, hfl⟩ := h.v p hp
  have e := orFlags_eq (f := 1) hx
  refine ⟨_, e, ⟨.mark h.built e, by simpa using h.vlen, h.verts, h.elen, h.elems, fun id hid => ?_, h.e⟩⟩
  show ∃ y, (w.V.set p _)[id]? = some y ∧ _
  rw [getElem?_set' _ _ _ _ (lt_of_getElem? hx)]
  by_cases hip : id = p
  · subst hip
    exact ⟨_, if_pos rfl, hpos, by rw [h1, ← hfl]⟩
  · rw [if_neg hip, h2 id hid hip]
    exact h.v id hid

theorem G.newV {w : World T} {nv ne pos fl ev} (h : G w nv ne pos fl ev) {p : List T} (hl : p.length = 2) (hp : p = pos nv) :
    (w.newVertex p).2 = nv ∧ ∃ w', (w.newVertex p).1.addVertex (some nv) = .ok w' ∧
      ∀ fl', fl' nv = 0 → (∀ id < nv, fl' id = fl id) → G w' (nv + 1) ne pos fl' ev := by
  have hx : (w.newVertex p).1.V[nv]? = some ⟨0, 0, p, []⟩ := by
    show (w.V ++ [_])[nv]? = _
    rw [← h.vlen]; simp
  have e := addVertex_eq hx
  refine ⟨h.vlen, _, e, fun fl' h1 h2 => ⟨.addVertex (.newVertex p h.built hl) ?_ e, ?_, ?_, h.elen, h.elems, fun id hid => ?_, h.e⟩⟩
  · show nv ∉ w.vertices
    rw [h.verts]; simp
  · show ((w.V ++ [_]).set nv _).length = _
    simp [h.vlen]
  · show w.vertices ++ [nv] = _
    rw [h.verts, List.range_succ]
  · by_cases hip : id = nv
    · subst hip
      exact ⟨_, (getElem?_set' _ _ _ _ (lt_of_getElem? hx)).trans (if_pos rfl), hp, h1.symm⟩
    · obtain ⟨x, x1, x2, x3⟩ := h.v id (by omega)
      refine ⟨x, (getElem?_set' _ _ _ _ (lt_of_getElem? hx)).trans ((if_neg hip).trans ?_), x2, by rw [h2 id (by omega)]; exact x3⟩
      show (w.V ++ [_])[id]? = _
      rw [List.getElem?_append_left (by rw [h.vlen]; omega), x1]

theorem G.newVF {w : World T} {nv ne pos fl ev} (h : G w nv ne pos fl ev) {p : List T} (hl : p.length = 2) (hp : p = pos nv) :
    (w.newVertex p).2 = nv ∧ ∃ w1 w', (w.newVertex p).1.orFlags nv 1 = .ok w1 ∧ w1.addVertex (some nv) = .ok w' ∧
      ∀ fl', fl' nv = 1 → (∀ id < nv, fl' id = fl id) → G w' (nv + 1) ne pos fl' ev := by
  have hx : (w.newVertex p).1.V[nv]? = some ⟨0, 0, p, []⟩ := by
    show (w.V ++ [_])[nv]? = _
    rw [← h.vlen]; simp
  have e0 := orFlags_eq (f := 1) hx
  have hx1 : ((w.V ++ [(⟨0, 0, p, []⟩ : MVertex T)]).set nv ⟨0 ||| 1, 0, p, []⟩)[nv]? = some ⟨1, 0, p, []⟩ := by
    exact (getElem?_set' _ _ _ _ (lt_of_getElem? hx)).trans (if_pos rfl)
  have e := addVertex_eq (w := { (w.newVertex p).1 with V := (w.V ++ [(⟨0, 0, p, []⟩ : MVertex T)]).set nv ⟨0 ||| 1, 0, p, []⟩ }) hx1
  refine ⟨h.vlen, _, _, e0, e, fun fl' h1 h2 => ⟨.addVertex (.mark (.newVertex p h.built hl) e0) ?_ e, ?_, ?_, h.elen, h.elems, fun id hid => ?_, h.e⟩⟩
  · show nv ∉ w.vertices
    rw [h.verts]; simp
  · show (((w.V ++ [_]).set nv _).set nv _).length = _
    simp [h.vlen]
  · show w.vertices ++ [nv] = _
    rw [h.verts, List.range_succ]
  · by_cases hip : id = nv
    · subst hip
      exact ⟨_, (getElem?_set' _ _ _ _ (lt_of_getElem? hx1)).trans (if_pos rfl), hp, h1.symm⟩
    · obtain ⟨x, x1, x2, x3⟩ := h.v id (by omega)
      refine ⟨x, (getElem?_set' _ _ _ _ (lt_of_getElem? hx1)).trans ((if_neg hip).trans ?_), x2, by rw [h2 id (by omega)]; exact x3⟩
      refine (getElem?_set' _ _ _ _ (lt_of_getElem? hx)).trans ((if_neg hip).trans ?_)
      show (w.V ++ [_])[id]? = _
      rw [List.getElem?_append_left (by rw [h.vlen]; omega), x1]

theorem G.newE {w : World T} {nv ne pos fl ev} (h : G w nv ne pos fl ev) {a b c : Nat} (ha : a < nv) (hb : b < nv) (hc : c < nv)
    (he : ev ne = [a, b, c]) :
    (w.newElement [some a, some b, some c]).2 = ne ∧
    ∃ w', (w.newElement [some a, some b, some c]).1.addElement (some ne) = .ok w' ∧ G w' nv (ne + 1) pos fl ev := by
  have hx : (w.newElement [some a, some b, some c]).1.E[ne]? =
      some ⟨Simplex.default, [some a, some b, some c], [none, none, none], []⟩ := by
    show (w.E ++ [_])[ne]? = _
    rw [← h.elen]; simp
  have key := addElement_spec hx rfl rfl
  rcases hr : (w.newElement [some a, some b, some c]).1.addElement (some ne) with er | w'
  · exfalso
    obtain ⟨-, i, hi, hn⟩ := key.of_error hr
    match i, hi with
    | 0, _ =>
      obtain ⟨x, hx, -⟩ := h.v a ha
      have := hn a rfl
      change w.V[a]? = none at this
      rw [hx] at this; cases this
    | 1, _ =>
      obtain ⟨x, hx, -⟩ := h.v b hb
      have := hn b rfl
      change w.V[b]? = none at this
      rw [hx] at this; cases this
    | 2, _ =>
      obtain ⟨x, hx, -⟩ := h.v c hc
      have := hn c rfl
      change w.V[c]? = none at this
      rw [hx] at this; cases this
  · refine ⟨h.elen, w', rfl, ?_⟩
    obtain ⟨k1, k2, k3, k4, ⟨vs, k5, -, -⟩, k6, k7⟩ := key.of_ok hr
    refine ⟨.addElement (.newElement _ h.built rfl) ?_ hr, k6.trans h.vlen, k1.trans h.verts, ?_, ?_, fun id hid => ?_, fun a' ha' => ?_⟩
    · show ne ∉ w.elements
      rw [h.elems]; simp
    · rw [k5]
      show ((w.E ++ [_]).set ne _).length = _
      simp [h.elen]
    · rw [k2]
      show w.elements ++ [ne] = _
      rw [h.elems, List.range_succ]
    · obtain ⟨x, x1, x2, x3⟩ := h.v id hid
      exact ⟨_, k7 id x x1, x2, x3⟩
    · by_cases hane : a' = ne
      · subst hane
        have : w'.E[a']? = some ⟨{ Simplex.default with verts := vs }, [some a, some b, some c], [none, none, none], []⟩ := by
          rw [k5, getElem?_set' _ _ _ _ (lt_of_getElem? hx), if_pos rfl]
        rw [vertsOf_some this, he]; rfl
      · rw [← h.e a' (by omega)]
        unfold vertsOf
        rw [k5, getElem?_set' _ _ _ _ (lt_of_getElem? hx), if_neg hane]
        show (((w.E ++ [_])[a']?).map _).getD _ = _
        rw [List.getElem?_append_left (by rw [h.elen]; omega)]

/-! ### Numbering -/

/-- number of the vertex in row `r` and column `c` -/
def vid (n1 r c : Nat) : Nat := r * (n1 + 1) + c

theorem vid_div {n1 r c : Nat} (hc : c ≤ n1) : vid n1 r c / (n1 + 1) = r := by
  unfold vid
  rw [Nat.add_comm, Nat.add_mul_div_right _ _ (by omega), Nat.div_eq_of_lt (by omega)]; omega
theorem vid_mod {n1 r c : Nat} (hc : c ≤ n1) : vid n1 r c % (n1 + 1) = c := by
  unfold vid
  rw [Nat.add_comm, Nat.add_mul_mod_self_right, Nat.mod_eq_of_lt (by omega)]
theorem vid_inj {n1 r c r' c' : Nat} (hc : c ≤ n1) (hc' : c' ≤ n1) (h : vid n1 r c = vid n1 r' c') : r = r' ∧ c = c' := by
  have h1 := congrArg (· / (n1 + 1)) h
  have h2 := congrArg (· % (n1 + 1)) h
  simp only [vid_div hc, vid_div hc', vid_mod hc, vid_mod hc'] at h1 h2
  exact ⟨h1, h2⟩
theorem vid_lt {n1 r c R C : Nat} (hc : c ≤ n1) : vid n1 r c < vid n1 R C ↔ r < R ∨ (r = R ∧ c < C) ∨ (R < r ∧ vid n1 r c < vid n1 R C) := by
  unfold vid
  constructor
  · intro h
    by_cases h1 : r < R
    · exact .inl h1
    · by_cases h2 : r = R
      · subst h2; exact .inr (.inl ⟨rfl, by omega⟩)
      · exact .inr (.inr ⟨by omega, h⟩)
  · rintro (h | ⟨rfl, h⟩ | ⟨-, h⟩)
    · have : (r + 1) * (n1 + 1) ≤ R * (n1 + 1) := Nat.mul_le_mul_right _ h
      rw [Nat.add_mul] at this
      omega
    · omega
    · exact h
theorem exists_vid (n1 id : Nat) : ∃ r c, c ≤ n1 ∧ id = vid n1 r c := by
  refine ⟨id / (n1 + 1), id % (n1 + 1), by have := Nat.mod_lt id (show 0 < n1 + 1 by omega); omega, ?_⟩
  unfold vid
  have := Nat.div_add_mod id (n1 + 1)
  rw [Nat.mul_comm]; omega

/-- position of vertex `id` -/
def posOf (n1 : Nat) (ox oy hx hy : T) (id : Nat) : List T :=
  [ox + hx * ((id % (n1 + 1) : Nat) : T), oy + hy * ((id / (n1 + 1) : Nat) : T)]

/-- corners of element `a` -/
def elemOf (n1 : Nat) (a : Nat) : List Nat :=
  let i := a / 2 / n1
  let j := a / 2 % n1
  if a % 2 = 0 then [vid n1 i j, vid n1 (i + 1) j, vid n1 (i + 1) (j + 1)]
  else [vid n1 i j, vid n1 (i + 1) (j + 1), vid n1 i (j + 1)]

/-- number of element `k` of cell `(i, j)` -/
def eid (n1 i j k : Nat) : Nat := 2 * (i * n1 + j) + k

theorem elemOf_even {n1 i j : Nat} (hj : j < n1) :
    elemOf n1 (eid n1 i j 0) = [vid n1 i j, vid n1 (i + 1) j, vid n1 (i + 1) (j + 1)] := by
  unfold elemOf eid
  have h1 : (2 * (i * n1 + j) + 0) / 2 = j + i * n1 := by omega
  have h2 : (2 * (i * n1 + j) + 0) % 2 = 0 := by omega
  rw [h1, h2, if_pos rfl, Nat.add_mul_div_right _ _ (by omega), Nat.div_eq_of_lt hj, Nat.add_mul_mod_self_right, Nat.mod_eq_of_lt hj]
  simp
theorem elemOf_odd {n1 i j : Nat} (hj : j < n1) :
    elemOf n1 (eid n1 i j 1) = [vid n1 i j, vid n1 (i + 1) (j + 1), vid n1 i (j + 1)] := by
  unfold elemOf eid
  have h1 : (2 * (i * n1 + j) + 1) / 2 = j + i * n1 := by omega
  have h2 : (2 * (i * n1 + j) + 1) % 2 = 1 := by omega
  rw [h1, h2, if_neg (by decide), Nat.add_mul_div_right _ _ (by omega), Nat.div_eq_of_lt hj, Nat.add_mul_mod_self_right, Nat.mod_eq_of_lt hj]
  simp

/-- flags while row `i` is built -/
def flA (n1 i id : Nat) : Nat :=
  if id / (n1 + 1) = 0 ∨ id % (n1 + 1) = 0 ∨ (id % (n1 + 1) = n1 ∧ id / (n1 + 1) < i) then 1 else 0
/-- flags after column `k` of the last row has been marked -/
def flB (n1 n0 k id : Nat) : Nat :=
  if id / (n1 + 1) = 0 ∨ id % (n1 + 1) = 0 ∨ id % (n1 + 1) = n1 ∨ (id / (n1 + 1) = n0 ∧ id % (n1 + 1) < k) then 1 else 0

theorem firstRow_ok (n1 : Nat) (ox oy hx hy : T) :
    ∃ s, firstRow n1 [ox, oy] [hx, 0] ⟨World.empty, List.replicate (n1 + 1) none, 0⟩ = .ok s ∧
      G s.w (n1 + 1) 0 (posOf n1 ox oy hx hy) (flA n1 1) (elemOf n1) ∧ s.last.length = n1 + 1 ∧
      ∀ j ≤ n1, s.last[j]? = some (some (vid n1 0 j)) := by
  unfold firstRow
  refine (Sat.mono (sat_forRange (fun j (s : St T) => G s.w j 0 (posOf n1 ox oy hx hy) (flA n1 1) (elemOf n1) ∧
    s.last.length = n1 + 1 ∧ ∀ c < j, s.last[c]? = some (some (vid n1 0 c))) (Nat.zero_le (n1 + 1))
    ⟨⟨.empty, rfl, rfl, rfl, rfl, fun id hid => absurd hid (by omega), fun a ha => absurd ha (by omega)⟩, by simp, fun c hc => absurd hc (by omega)⟩ ?_)
    (fun s hs => (⟨hs.1, hs.2.1, fun j hj => hs.2.2 j (by omega)⟩ : _ ∧ _ ∧ _)) (fun e he => he)).ok_of
  intro j s _ hj ⟨h1, h2, h3⟩
  have e1 : Vec.mulScalar [hx, 0] (j : T) = .ok [hx * (j : T), 0 * (j : T)] := rfl
  have e2 : Vec.addAssign [ox, oy] [hx * (j : T), 0 * (j : T)] = .ok [ox + hx * (j : T), oy + 0 * (j : T)] := rfl
  rw [e1, ok_bind, e2, ok_bind]
  have hdiv : j / (n1 + 1) = 0 := Nat.div_eq_of_lt hj
  have hmod : j % (n1 + 1) = j := Nat.mod_eq_of_lt hj
  obtain ⟨f1, w1, w2, f2, f3, f4⟩ := h1.newVF (p := [ox + hx * (j : T), oy + 0 * (j : T)]) rfl (by
    unfold posOf; rw [hdiv, hmod]; simp)
  simp only [f1]
  rw [f2, ok_bind, f3, ok_bind, setIdx_eq _ (by omega), ok_bind]
  refine ⟨f4 _ (by unfold flA; simp [hdiv]) (fun _ _ => rfl), by simpa using h2, fun c hc => ?_⟩
  show (s.last.set j _)[c]? = _
  rw [getElem?_set' _ _ _ _ (by omega)]
  by_cases hcj : c = j
  · subst hcj; simp [vid]
  · rw [if_neg hcj, h3 c (by omega)]

/-- invariant inside row `i + 1`, after `j` columns -/
structure RowInv (n1 : Nat) (ox oy hx hy : T) (i j : Nat) (s : St T) : Prop where
  g : G s.w (vid n1 (i + 1) (j + 1)) (eid n1 i j 0) (posOf n1 ox oy hx hy) (flA n1 (i + 1)) (elemOf n1)
  len : s.last.length = n1 + 1
  lv : s.lv = vid n1 (i + 1) j
  done : ∀ c < j, s.last[c]? = some (some (vid n1 (i + 1) c))
  todo : ∀ c, j ≤ c → c ≤ n1 → s.last[c]? = some (some (vid n1 i c))

theorem cellStep_ok {n1 : Nat} {ox oy hx hy : T} {i j : Nat} {s : St T} (h : RowInv n1 ox oy hx hy i j s) (hj : j < n1) :
    ∃ s', cellStep [ox, oy] [hx, 0] [0 * ((i + 1 : Nat) : T), hy * ((i + 1 : Nat) : T)] (j + 1) s = .ok s' ∧ RowInv n1 ox oy hx hy i (j + 1) s' := by
  unfold cellStep
  have e1 : Vec.mulScalar [hx, 0] ((j + 1 : Nat) : T) = .ok [hx * ((j + 1 : Nat) : T), 0 * ((j + 1 : Nat) : T)] := rfl
  have e2 : Vec.addAssign [ox, oy] [hx * ((j + 1 : Nat) : T), 0 * ((j + 1 : Nat) : T)] = .ok [ox + hx * ((j + 1 : Nat) : T), oy + 0 * ((j + 1 : Nat) : T)] := rfl
  have e3 : Vec.addAssign [ox + hx * ((j + 1 : Nat) : T), oy + 0 * ((j + 1 : Nat) : T)] [0 * ((i + 1 : Nat) : T), hy * ((i + 1 : Nat) : T)] =
    .ok [ox + hx * ((j + 1 : Nat) : T) + 0 * ((i + 1 : Nat) : T), oy + 0 * ((j + 1 : Nat) : T) + hy * ((i + 1 : Nat) : T)] := rfl
  rw [e1, ok_bind, e2, ok_bind, e3, ok_bind]
  obtain ⟨f1, w1, f2, f3⟩ := h.g.newV (p := [ox + hx * ((j + 1 : Nat) : T) + 0 * ((i + 1 : Nat) : T), oy + 0 * ((j + 1 : Nat) : T) + hy * ((i + 1 : Nat) : T)]) rfl (by
    unfold posOf; rw [vid_div (by omega), vid_mod (by omega)]; simp)
  simp only [f1]
  rw [f2, ok_bind]
  have g1 := f3 (flA n1 (i + 1)) (by unfold flA; rw [vid_div (by omega), vid_mod (by omega)]; simp) (fun _ _ => rfl)
  rw [show j + 1 - 1 = j from rfl, getIdx_of_some (h.todo j (le_refl _) (by omega)), ok_bind, h.lv]
  have hlt : ∀ r c, c ≤ n1 → (r = i ∨ (r = i + 1 ∧ c ≤ j + 1)) → vid n1 r c < vid n1 (i + 1) (j + 1) + 1 := by
    intro r c hc hr
    have : vid n1 (i + 1) (j + 1) + 1 = vid n1 (i + 1) (j + 2) := rfl
    rw [this, vid_lt hc]
    rcases hr with rfl | ⟨rfl, hc'⟩
    · exact .inl (by omega)
    · exact .inr (.inl ⟨rfl, by omega⟩)
  obtain ⟨k1, w2, k2, k3⟩ := g1.newE (hlt i j (by omega) (.inl rfl)) (hlt (i + 1) j (by omega) (.inr ⟨rfl, by omega⟩))
    (hlt (i + 1) (j + 1) (by omega) (.inr ⟨rfl, by omega⟩)) (elemOf_even hj)
  simp only [k1]
  rw [k2, ok_bind, getIdx_of_some (h.todo (j + 1) (by omega) (by omega)), ok_bind]
  obtain ⟨l1, w3, l2, l3⟩ := k3.newE (hlt i j (by omega) (.inl rfl)) (hlt (i + 1) (j + 1) (by omega) (.inr ⟨rfl, by omega⟩))
    (hlt i (j + 1) (by omega) (.inl rfl)) (elemOf_odd hj)
  simp only [l1]
  rw [l2, ok_bind, setIdx_eq _ (by rw [h.len]; omega), ok_bind]
  refine ⟨_, rfl, ⟨?_, by simpa using h.len, rfl, fun c hc => ?_, fun c hc hc' => ?_⟩⟩
  · exact l3
  · show (s.last.set j _)[c]? = _
    rw [getElem?_set' _ _ _ _ (by rw [h.len]; omega)]
    by_cases hcj : c = j
    · subst hcj; simp
    · rw [if_neg hcj, h.done c (by omega)]
  · show (s.last.set j _)[c]? = _
    rw [getElem?_set' _ _ _ _ (by rw [h.len]; omega), if_neg (by omega), h.todo c (by omega) hc']

/-- invariant between rows: rows `0, .., i` are done -/
structure GridInv (n1 : Nat) (ox oy hx hy : T) (i : Nat) (s : St T) : Prop where
  g : G s.w (vid n1 (i + 1) 0) (eid n1 i 0 0) (posOf n1 ox oy hx hy) (flA n1 (i + 1)) (elemOf n1)
  len : s.last.length = n1 + 1
  last : ∀ c ≤ n1, s.last[c]? = some (some (vid n1 i c))

theorem rowStep_ok {n1 : Nat} (hn1 : 1 ≤ n1) {ox oy hx hy : T} {i : Nat} {s : St T} (h : GridInv n1 ox oy hx hy i s) :
    ∃ s', rowStep n1 [ox, oy] [hx, 0] [0, hy] (i + 1) s = .ok s' ∧ GridInv n1 ox oy hx hy (i + 1) s' := by
  unfold rowStep
  have e1 : Vec.mulScalar [0, hy] ((i + 1 : Nat) : T) = .ok [0 * ((i + 1 : Nat) : T), hy * ((i + 1 : Nat) : T)] := rfl
  have e2 : Vec.addAssign [ox, oy] [0 * ((i + 1 : Nat) : T), hy * ((i + 1 : Nat) : T)] =
    .ok [ox + 0 * ((i + 1 : Nat) : T), oy + hy * ((i + 1 : Nat) : T)] := rfl
  rw [e1, ok_bind, e2, ok_bind]
  obtain ⟨f1, w1, w2, f2, f3, f4⟩ := h.g.newVF (p := [ox + 0 * ((i + 1 : Nat) : T), oy + hy * ((i + 1 : Nat) : T)]) rfl (by
    unfold posOf; rw [vid_div (by omega), vid_mod (by omega)]; simp)
  simp only [f1]
  rw [f2, ok_bind, f3, ok_bind]
  have g1 := f4 (flA n1 (i + 1)) (by unfold flA; rw [vid_mod (by omega)]; simp) (fun _ _ => rfl)
  have hloop : ∃ s', (forRange 1 (n1 + 1) ⟨w2, s.last, vid n1 (i + 1) 0⟩ fun j s =>
      cellStep [ox, oy] [hx, 0] [0 * ((i + 1 : Nat) : T), hy * ((i + 1 : Nat) : T)] j s) = .ok s' ∧ RowInv n1 ox oy hx hy i n1 s' := by
    refine (Sat.mono (sat_forRange (s := ⟨w2, s.last, vid n1 (i + 1) 0⟩) (E := noErr) (fun j (s : St T) => RowInv n1 ox oy hx hy i (j - 1) s) (show 1 ≤ n1 + 1 by omega)
      ⟨g1, h.len, rfl, fun c hc => absurd hc (by omega), fun c _ hc => h.last c hc⟩ ?_) (fun s hs => hs) (fun e he => he)).ok_of
    intro j s' hj1 hj2 hs'
    obtain ⟨j, rfl⟩ : ∃ k, j = k + 1 := ⟨j - 1, by omega⟩
    obtain ⟨s2, q1, q2⟩ := cellStep_ok (j := j) hs' (by omega)
    rw [q1]
    exact q2
  obtain ⟨s', q1, q2⟩ := hloop
  rw [q1, ok_bind, q2.lv]
  have hlt : vid n1 (i + 1) n1 < vid n1 (i + 1) (n1 + 1) := by unfold vid; omega
  obtain ⟨w4, m1, m2⟩ := q2.g.orF hlt (fl' := flA n1 (i + 2)) (by
      unfold flA; rw [vid_div (le_refl _), vid_mod (le_refl _), if_pos (.inr (.inr ⟨rfl, by omega⟩))]
      split <;> rfl) (by
      intro id hid hne
      obtain ⟨r, c, hc, rfl⟩ := exists_vid n1 id
      unfold flA
      rw [vid_div hc, vid_mod hc]
      have hr : ¬ (r = i + 1 ∧ c = n1) := by rintro ⟨rfl, rfl⟩; exact hne rfl
      have : c = n1 → (r < i + 2 ↔ r < i + 1) := fun hcn => by
        have : r ≠ i + 1 := fun hh => hr ⟨hh, hcn⟩
        omega
      by_cases hcn : c = n1
      · simp only [this hcn]
      · simp [hcn])
  rw [m1, ok_bind, setIdx_eq _ (by rw [q2.len]; omega), ok_bind]
  refine ⟨_, rfl, ⟨?_, by simpa using q2.len, fun c hc => ?_⟩⟩
  · have h1 : vid n1 (i + 1) (n1 + 1) = vid n1 (i + 1 + 1) 0 := by unfold vid; ring
    have h2 : eid n1 i n1 0 = eid n1 (i + 1) 0 0 := by unfold eid; ring
    rw [← h1, ← h2]; exact m2
  · show (s'.last.set n1 _)[c]? = _
    rw [getElem?_set' _ _ _ _ (by rw [q2.len]; omega)]
    by_cases hcj : c = n1
    · subst hcj; simp
    · rw [if_neg hcj, q2.done c (by omega)]

/-- flags of the finished grid -/
def flag (n0 n1 id : Nat) : Nat :=
  if id / (n1 + 1) = 0 ∨ id / (n1 + 1) = n0 ∨ id % (n1 + 1) = 0 ∨ id % (n1 + 1) = n1 then 1 else 0

theorem grid_ok {n0 n1 : Nat} (hn0 : 1 ≤ n0) (hn1 : 1 ≤ n1) (size off : T × T) :
    ∃ w, grid n0 n1 size off = .ok w ∧
      G w ((n0 + 1) * (n1 + 1)) (2 * (n0 * n1)) (posOf n1 off.1 off.2 (size.1 / (n0 : T)) (size.2 / (n1 : T))) (flag n0 n1) (elemOf n1) := by
  unfold grid
  rw [throwIf_false _ (by omega), ok_bind, assert_true (Nat.mul_pos (by omega) (by omega)), ok_bind,
    assert_true (Nat.mul_pos (Nat.mul_pos (by omega) (by omega)) (by omega)), ok_bind]
  obtain ⟨s, e1, e2, e3, e4⟩ := firstRow_ok n1 off.1 off.2 (size.1 / (n0 : T)) (size.2 / (n1 : T))
  simp only []
  rw [e1, ok_bind]
  have hloop : ∃ s', (forRange 1 (n0 + 1) s fun i s =>
      rowStep n1 [off.1, off.2] [size.1 / (n0 : T), 0] [0, size.2 / (n1 : T)] i s) = .ok s' ∧
      GridInv n1 off.1 off.2 (size.1 / (n0 : T)) (size.2 / (n1 : T)) n0 s' := by
    refine (Sat.mono (sat_forRange (E := noErr) (fun i (s : St T) => GridInv n1 off.1 off.2 (size.1 / (n0 : T)) (size.2 / (n1 : T)) (i - 1) s)
      (show 1 ≤ n0 + 1 by omega) ⟨?_, e3, e4⟩ ?_) (fun s hs => hs) (fun e he => he)).ok_of
    · have h1 : vid n1 (1 - 1 + 1) 0 = n1 + 1 := by simp [vid]
      have h2 : eid n1 (1 - 1) 0 0 = 0 := by simp [eid]
      rw [h1, h2]; exact e2
    · intro i s' hi1 hi2 hs'
      obtain ⟨i, rfl⟩ : ∃ k, i = k + 1 := ⟨i - 1, by omega⟩
      obtain ⟨s2, q1, q2⟩ := rowStep_ok hn1 (i := i) hs'
      rw [q1]
      exact q2
  obtain ⟨s', q1, q2⟩ := hloop
  rw [q1, ok_bind]
  have hN : vid n1 (n0 + 1) 0 = (n0 + 1) * (n1 + 1) := by simp [vid]
  have hE : eid n1 n0 0 0 = 2 * (n0 * n1) := by simp [eid]
  rw [← hN, ← hE]
  refine (Sat.mono (sat_forRange (E := noErr) (fun k (w : World T) => G w (vid n1 (n0 + 1) 0) (eid n1 n0 0 0)
    (posOf n1 off.1 off.2 (size.1 / (n0 : T)) (size.2 / (n1 : T))) (flB n1 n0 k) (elemOf n1)) (Nat.zero_le (n1 + 1)) ?_ ?_) ?_ (fun e he => he)).ok_of
  · refine { q2.g with v := fun id hid => ?_ }
    obtain ⟨x, x1, x2, x3⟩ := q2.g.v id hid
    refine ⟨x, x1, x2, ?_⟩
    rw [x3]
    obtain ⟨r, c, hc, rfl⟩ := exists_vid n1 id
    have hr : r < n0 + 1 := by
      rcases (vid_lt hc).1 hid with hh | ⟨rfl, hh⟩ | ⟨hh, hh'⟩
      · exact hh
      · omega
      · have : vid n1 (n0 + 1) 0 ≤ vid n1 r c := by
          have : (n0 + 1) * (n1 + 1) ≤ r * (n1 + 1) := Nat.mul_le_mul_right _ (by omega)
          unfold vid; omega
        omega
    unfold flA flB
    rw [vid_div hc, vid_mod hc]
    simp [hr]
  · intro k w _ hk hw
    rw [getIdx_of_some (q2.last k (by omega)), ok_bind]
    simp only [deref, ok_bind]
    have hlt : vid n1 n0 k < vid n1 (n0 + 1) 0 := (vid_lt (by omega)).2 (.inl (by omega))
    obtain ⟨w', m1, m2⟩ := hw.orF hlt (fl' := flB n1 n0 (k + 1)) (by
      unfold flB; rw [vid_div (by omega), vid_mod (by omega), if_pos (.inr (.inr (.inr ⟨rfl, by omega⟩)))]
      split <;> rfl) (by
      intro id hid hne
      obtain ⟨r, c, hc, rfl⟩ := exists_vid n1 id
      unfold flB
      rw [vid_div hc, vid_mod hc]
      have hr : ¬ (r = n0 ∧ c = k) := by rintro ⟨rfl, rfl⟩; exact hne rfl
      by_cases hrn : r = n0
      · have : c ≠ k := fun hh => hr ⟨hrn, hh⟩
        have : c < k + 1 ↔ c < k := by omega
        simp only [this]
      · simp [hrn])
    rw [m1]
    exact m2
  · intro w hw
    refine { hw with v := fun id hid => ?_ }
    obtain ⟨x, x1, x2, x3⟩ := hw.v id hid
    refine ⟨x, x1, x2, ?_⟩
    rw [x3]
    unfold flB flag
    have : id % (n1 + 1) < n1 + 1 := Nat.mod_lt _ (by omega)
    congr 1
    simp only [this, and_true, eq_iff_iff]
    tauto

end HyperCube
end NS

/-
Property theorems C53: `HyperCube<T,2>::generate`.
-/
import Verif.HyperCube
import Verif.Props.MeshValidate

set_option linter.unusedSectionVars false
set_option linter.unusedSimpArgs false

namespace NS.Props.HyperCube
open NS NS.World NS.HyperCube NS.Props.Mesh
variable {T : Type} [Field T] [LinearOrder T] [IsStrictOrderedRing T]

/-- row and column of corner `m` of element `k` (0 or 1) of cell `(i, j)` -/
def corner (i j k : Nat) (m : Fin 3) : Nat × Nat :=
  if k = 0 then ![(i, j), (i + 1, j), (i + 1, j + 1)] m else ![(i, j), (i + 1, j + 1), (i, j + 1)] m

/-- The finished mesh `w` is the grid of `n0` rows and `n1` columns of cells with spacing `hx`, `hy` and corner `off`:
vertex number `r * (n1 + 1) + c` lies in row `r` and column `c`, elements number `2 * (i * n1 + j)` and
`2 * (i * n1 + j) + 1` are the triangles of cell `(i, j)`, and exactly the vertices of the rim are marked. -/
structure IsGrid (n0 n1 : Nat) (hx hy : T) (off : T × T) (w : World T) : Prop where
  vertexCount : w.vertices.length = (n0 + 1) * (n1 + 1)
  elementCount : w.elements.length = 2 * (n0 * n1)
  vertex : ∀ r ≤ n0, ∀ c ≤ n1, ∃ p v, w.vertices[r * (n1 + 1) + c]? = some p ∧ w.V[p]? = some v ∧
    v.pos = [off.1 + hx * (c : T), off.2 + hy * (r : T)] ∧
    v.flags = if r = 0 ∨ r = n0 ∨ c = 0 ∨ c = n1 then 1 else 0
  element : ∀ i < n0, ∀ j < n1, ∀ k < 2, ∃ a, w.elements[2 * (i * n1 + j) + k]? = some a ∧ (w.vertsOf a).length = 3 ∧
    ∀ m : Fin 3, ∃ p, (w.vertsOf a)[(m : Nat)]? = some (some p) ∧
      w.vertices[(corner i j k m).1 * (n1 + 1) + (corner i j k m).2]? = some p

/-! ### Combinatorics of the grid -/

/-- the triangle `(i', j', k')` on the other side of face `f` of triangle `(i, j, k)` -/
def Opp (k : Nat) (f : Fin 3) (i j i' j' k' : Nat) : Prop :=
  if k = 0 then
    match f with
    | 0 => i' = i + 1 ∧ j' = j ∧ k' = 1
    | 1 => i' = i ∧ j' = j ∧ k' = 1
    | 2 => i' = i ∧ j' + 1 = j ∧ k' = 1
  else
    match f with
    | 0 => i' = i ∧ j' = j + 1 ∧ k' = 0
    | 1 => i' + 1 = i ∧ j' = j ∧ k' = 0
    | 2 => i' = i ∧ j' = j ∧ k' = 0

theorem contains_iff {i j k i' j' k' : Nat} (hk : k < 2) (hk' : k' < 2) (f : Fin 3) :
    (∀ m : Fin 3, m ≠ f → ∃ m', corner i j k m = corner i' j' k' m') ↔
      (i' = i ∧ j' = j ∧ k' = k) ∨ Opp k f i j i' j' k' := by
  obtain rfl | rfl : k = 0 ∨ k = 1 := by omega
  all_goals
    obtain rfl | rfl : k' = 0 ∨ k' = 1 := by omega
    all_goals
      fin_cases f <;>
      · simp only [Fin.forall_fin_succ, Fin.exists_fin_succ, corner, Opp, Matrix.cons_val_zero, Matrix.cons_val_one,
          Matrix.cons_val_succ, Fin.succ_zero_eq_one, Fin.succ_one_eq_two, IsEmpty.forall_iff, IsEmpty.exists_iff, Prod.mk.injEq]
        simp
        omega

theorem exists_eid {n0 n1 a : Nat} (h : a < 2 * (n0 * n1)) : ∃ i < n0, ∃ j < n1, ∃ k < 2, a = eid n1 i j k := by
  have hn1 : 0 < n1 := by
    rcases Nat.eq_zero_or_pos n1 with h0 | h0
    · subst h0; simp at h
    · exact h0
  refine ⟨a / 2 / n1, ?_, a / 2 % n1, Nat.mod_lt _ hn1, a % 2, by omega, ?_⟩
  · rw [Nat.div_lt_iff_lt_mul hn1]; omega
  · unfold eid
    have := Nat.div_add_mod (a / 2) n1
    rw [Nat.mul_comm n1] at this
    omega

theorem eid_lt {n0 n1 i j k : Nat} (hi : i < n0) (hj : j < n1) (hk : k < 2) : eid n1 i j k < 2 * (n0 * n1) := by
  have : (i + 1) * n1 ≤ n0 * n1 := Nat.mul_le_mul_right _ hi
  rw [Nat.add_mul] at this
  unfold eid; omega

theorem eid_inj {n1 i j k i' j' k' : Nat} (hj : j < n1) (hj' : j' < n1) (hk : k < 2) (hk' : k' < 2)
    (h : eid n1 i j k = eid n1 i' j' k') : i = i' ∧ j = j' ∧ k = k' := by
  unfold eid at h
  have hkk : k = k' := by omega
  have h2 : j + i * n1 = j' + i' * n1 := by omega
  have h3 := congrArg (· % n1) h2
  simp only [Nat.add_mul_mod_self_right, Nat.mod_eq_of_lt hj, Nat.mod_eq_of_lt hj'] at h3
  have h4 := congrArg (· / n1) h2
  simp only [Nat.add_mul_div_right _ _ (show 0 < n1 by omega), Nat.div_eq_of_lt hj, Nat.div_eq_of_lt hj'] at h4
  omega

theorem elemOf_corner {n1 i j k : Nat} (hj : j < n1) (hk : k < 2) (m : Fin 3) :
    (elemOf n1 (eid n1 i j k))[(m : Nat)]? = some (vid n1 (corner i j k m).1 (corner i j k m).2) := by
  obtain rfl | rfl : k = 0 ∨ k = 1 := by omega
  · rw [elemOf_even hj]
    fin_cases m <;> rfl
  · rw [elemOf_odd hj]
    fin_cases m <;> rfl

theorem elemOf_length {n1 a : Nat} : (elemOf n1 a).length = 3 := by
  unfold elemOf
  simp only
  split <;> rfl

theorem corner_le {n0 n1 i j k : Nat} (hi : i < n0) (hj : j < n1) (m : Fin 3) :
    (corner i j k m).1 ≤ n0 ∧ (corner i j k m).2 ≤ n1 := by
  unfold corner
  split <;> fin_cases m <;> simp <;> omega

theorem corner_inj (i j k : Nat) : Function.Injective (corner i j k) := by
  intro m m' h
  unfold corner at h
  split at h <;> revert h <;> fin_cases m <;> fin_cases m' <;> simp

variable {w : World T} {n0 n1 : Nat} {pos : Nat → List T} {fl : Nat → Nat}

/-- abbreviation for the state before `setupNeighbors` -/
abbrev GG (w : World T) (n0 n1 : Nat) (pos : Nat → List T) (fl : Nat → Nat) : Prop :=
  G w ((n0 + 1) * (n1 + 1)) (2 * (n0 * n1)) pos fl (elemOf n1)

theorem vertsOf_corner (h : GG w n0 n1 pos fl) {i j k : Nat} (hi : i < n0) (hj : j < n1) (hk : k < 2) (m : Fin 3) :
    (w.vertsOf (eid n1 i j k))[(m : Nat)]? = some (some (vid n1 (corner i j k m).1 (corner i j k m).2)) := by
  rw [h.e _ (eid_lt hi hj hk), List.getElem?_map, elemOf_corner hj hk]; rfl

theorem vertsOf_len (h : GG w n0 n1 pos fl) {a : Nat} (ha : a < 2 * (n0 * n1)) : (w.vertsOf a).length = 3 := by
  rw [h.e _ ha, List.length_map, elemOf_length]

theorem mem_vertsOf (h : GG w n0 n1 pos fl) {i j k : Nat} (hi : i < n0) (hj : j < n1) (hk : k < 2) (q : Nat) :
    some q ∈ w.vertsOf (eid n1 i j k) ↔ ∃ m : Fin 3, q = vid n1 (corner i j k m).1 (corner i j k m).2 := by
  constructor
  · intro hm
    obtain ⟨m, hm⟩ := List.getElem?_of_mem hm
    have hlt : m < 3 := by rw [← vertsOf_len h (eid_lt hi hj hk)]; exact lt_of_getElem? hm
    refine ⟨⟨m, hlt⟩, ?_⟩
    have := vertsOf_corner h hi hj hk ⟨m, hlt⟩
    rw [hm] at this
    exact Option.some.inj (Option.some.inj this)
  · rintro ⟨m, rfl⟩
    exact List.mem_of_getElem? (vertsOf_corner h hi hj hk m)

theorem distinct (h : GG w n0 n1 pos fl) : Distinct w := by
  intro a ha
  rw [h.elems, List.mem_range] at ha
  obtain ⟨i, hi, j, hj, k, hk, rfl⟩ := exists_eid ha
  rw [List.nodup_iff_getElem?_ne_getElem?]
  intro m m' hmm hm' heq
  rw [vertsOf_len h ha] at hm'
  have h1 := vertsOf_corner h hi hj hk ⟨m, by omega⟩
  have h2 := vertsOf_corner h hi hj hk ⟨m', hm'⟩
  simp only at h1 h2
  rw [h1, h2] at heq
  have hv := Option.some.inj (Option.some.inj heq)
  have c1 := corner_le (k := k) hi hj ⟨m, by omega⟩
  have c2 := corner_le (k := k) hi hj ⟨m', hm'⟩
  have := vid_inj c1.2 c2.2 hv
  have := corner_inj i j k (Prod.ext this.1 this.2)
  simp at this
  omega

theorem onFace_corner (h : GG w n0 n1 pos fl) {i j k : Nat} (hi : i < n0) (hj : j < n1) (hk : k < 2) (f : Fin 3) (q : Nat) :
    OnFace w (eid n1 i j k) f q ↔ ∃ m : Fin 3, m ≠ f ∧ q = vid n1 (corner i j k m).1 (corner i j k m).2 := by
  unfold OnFace
  refine exists_congr fun m => and_congr_right fun _ => ?_
  rw [vertsOf_corner h hi hj hk]
  simp [eq_comm]

theorem hasFace_corner (h : GG w n0 n1 pos fl) {i j k i' j' k' : Nat} (hi : i < n0) (hj : j < n1) (hk : k < 2)
    (hi' : i' < n0) (hj' : j' < n1) (hk' : k' < 2) (f : Fin 3) :
    HasFace w (eid n1 i' j' k') (eid n1 i j k) f ↔ (i' = i ∧ j' = j ∧ k' = k) ∨ Opp k f i j i' j' k' := by
  rw [← contains_iff hk hk' f]
  unfold HasFace
  have hm : eid n1 i' j' k' ∈ w.elements := by rw [h.elems, List.mem_range]; exact eid_lt hi' hj' hk'
  simp only [hm, true_and, onFace_corner h hi hj hk, mem_vertsOf h hi' hj' hk']
  constructor
  · intro hh m hmf
    obtain ⟨m', hm'⟩ := hh _ ⟨m, hmf, rfl⟩
    have := vid_inj (corner_le hi hj m).2 (corner_le hi' hj' m').2 hm'
    exact ⟨m', Prod.ext this.1 this.2⟩
  · rintro hh q ⟨m, hmf, rfl⟩
    obtain ⟨m', hm'⟩ := hh m hmf
    exact ⟨m', by rw [hm']⟩

theorem not_overshared (h : GG w n0 n1 pos fl) : ¬ Overshared w := by
  rintro ⟨a, ha, f, b, c, hb, hc, hab, hac, hbc⟩
  have hb' := hb.1
  have hc' := hc.1
  rw [h.elems, List.mem_range] at ha hb' hc'
  obtain ⟨i, hi, j, hj, k, hk, rfl⟩ := exists_eid ha
  obtain ⟨i', hi', j', hj', k', hk', rfl⟩ := exists_eid hb'
  obtain ⟨i'', hi'', j'', hj'', k'', hk'', rfl⟩ := exists_eid hc'
  rw [hasFace_corner h hi hj hk hi' hj' hk'] at hb
  rw [hasFace_corner h hi hj hk hi'' hj'' hk''] at hc
  rcases hb with ⟨rfl, rfl, rfl⟩ | hb
  · exact hab rfl
  rcases hc with ⟨rfl, rfl, rfl⟩ | hc
  · exact hac rfl
  refine hbc ?_
  have : i' = i'' ∧ j' = j'' ∧ k' = k'' := by
    unfold Opp at hb hc
    split at hb <;> split at hc <;> first | omega | (fin_cases f <;> simp only at hb hc <;> omega)
  obtain ⟨rfl, rfl, rfl⟩ := this
  rfl

/-- the rim vertices are exactly the vertices on faces with one element -/
theorem boundary_iff (hn0 : 1 ≤ n0) (hn1 : 1 ≤ n1) (h : GG w n0 n1 pos fl) {r c : Nat} (hr : r ≤ n0) (hc : c ≤ n1) :
    Boundary w (vid n1 r c) ↔ r = 0 ∨ r = n0 ∨ c = 0 ∨ c = n1 := by
  have honly : ∀ {i j k : Nat} (hi : i < n0) (hj : j < n1) (hk : k < 2) (f : Fin 3),
      (∀ b, HasFace w b (eid n1 i j k) f → b = eid n1 i j k) ↔ ∀ i' < n0, ∀ j' < n1, ∀ k' < 2, ¬ Opp k f i j i' j' k' := by
    intro i j k hi hj hk f
    constructor
    · intro hh i' hi' j' hj' k' hk' ho
      have := hh _ ((hasFace_corner h hi hj hk hi' hj' hk' f).2 (.inr ho))
      obtain ⟨rfl, rfl, rfl⟩ := eid_inj hj' hj hk' hk this
      unfold Opp at ho
      split at ho <;> fin_cases f <;> simp only at ho <;> omega
    · intro hh b hb
      have hb' := hb.1
      rw [h.elems, List.mem_range] at hb'
      obtain ⟨i', hi', j', hj', k', hk', rfl⟩ := exists_eid hb'
      rw [hasFace_corner h hi hj hk hi' hj' hk'] at hb
      rcases hb with ⟨rfl, rfl, rfl⟩ | hb
      · rfl
      · exact absurd hb (hh i' hi' j' hj' k' hk')
  constructor
  · rintro ⟨a, ha, f, hq, ho⟩
    rw [h.elems, List.mem_range] at ha
    obtain ⟨i, hi, j, hj, k, hk, rfl⟩ := exists_eid ha
    rw [honly hi hj hk] at ho
    rw [onFace_corner h hi hj hk] at hq
    obtain ⟨m, hmf, hm⟩ := hq
    obtain ⟨h1, h2⟩ := vid_inj hc (corner_le hi hj m).2 hm
    obtain rfl | rfl : k = 0 ∨ k = 1 := by omega
    · fin_cases f
      · have hin : i + 1 = n0 := by
          by_contra hne
          exact ho (i + 1) (by omega) j hj 1 (by omega) ⟨rfl, rfl, rfl⟩
        fin_cases m
        · exact absurd rfl hmf
        · simp [corner] at h1 h2; omega
        · simp [corner] at h1 h2; omega
      · exact absurd (show Opp 0 1 i j i j 1 from ⟨rfl, rfl, rfl⟩) (ho i hi j hj 1 (by omega))
      · have hj0 : j = 0 := by
          by_contra hne
          exact ho i hi (j - 1) (by omega) 1 (by omega) ⟨rfl, by omega, rfl⟩
        fin_cases m
        · simp [corner] at h1 h2; omega
        · simp [corner] at h1 h2; omega
        · exact absurd rfl hmf
    · fin_cases f
      · have hjn : j + 1 = n1 := by
          by_contra hne
          exact ho i hi (j + 1) (by omega) 0 (by omega) ⟨rfl, rfl, rfl⟩
        fin_cases m
        · exact absurd rfl hmf
        · simp [corner] at h1 h2; omega
        · simp [corner] at h1 h2; omega
      · have hi0 : i = 0 := by
          by_contra hne
          exact ho (i - 1) (by omega) j hj 0 (by omega) ⟨by omega, rfl, rfl⟩
        fin_cases m
        · simp [corner] at h1 h2; omega
        · exact absurd rfl hmf
        · simp [corner] at h1 h2; omega
      · exact absurd (show Opp 1 2 i j i j 0 from ⟨rfl, rfl, rfl⟩) (ho i hi j hj 0 (by omega))
  · intro hrim
    have mk : ∀ (i j k : Nat) (f m : Fin 3), i < n0 → j < n1 → k < 2 → m ≠ f → corner i j k m = (r, c) →
        (∀ i' < n0, ∀ j' < n1, ∀ k' < 2, ¬ Opp k f i j i' j' k') → Boundary w (vid n1 r c) := by
      intro i j k f m hi hj hk hmf hcor hno
      refine ⟨eid n1 i j k, by rw [h.elems, List.mem_range]; exact eid_lt hi hj hk, f, ?_, (honly hi hj hk f).2 hno⟩
      rw [onFace_corner h hi hj hk]
      exact ⟨m, hmf, by rw [hcor]⟩
    by_cases h0 : r = 0
    · subst h0
      by_cases hcn : c < n1
      · exact mk 0 c 1 1 0 (by omega) hcn (by omega) (by decide) rfl
          (fun i' _ j' _ k' _ ho => by have ho : i' + 1 = 0 ∧ j' = c ∧ k' = 0 := ho; omega)
      · exact mk 0 (c - 1) 1 1 2 (by omega) (by omega) (by omega) (by decide)
          (by show (0, c - 1 + 1) = (0, c); rw [Nat.sub_add_cancel (by omega)])
          (fun i' _ j' _ k' _ ho => by have ho : i' + 1 = 0 ∧ j' = c - 1 ∧ k' = 0 := ho; omega)
    by_cases h1 : r = n0
    · by_cases hcn : c < n1
      · exact mk (n0 - 1) c 0 0 1 (by omega) hcn (by omega) (by decide)
          (by show (n0 - 1 + 1, c) = (r, c); rw [Nat.sub_add_cancel (by omega), h1])
          (fun i' _ j' _ k' _ ho => by have ho : i' = n0 - 1 + 1 ∧ j' = c ∧ k' = 1 := ho; omega)
      · exact mk (n0 - 1) (c - 1) 0 0 2 (by omega) (by omega) (by omega) (by decide)
          (by show (n0 - 1 + 1, c - 1 + 1) = (r, c); rw [Nat.sub_add_cancel (by omega), Nat.sub_add_cancel (by omega), h1])
          (fun i' _ j' _ k' _ ho => by have ho : i' = n0 - 1 + 1 ∧ j' = c - 1 ∧ k' = 1 := ho; omega)
    by_cases h2 : c = 0
    · subst h2
      exact mk r 0 0 2 0 (by omega) (by omega) (by omega) (by decide) rfl
        (fun i' _ j' _ k' _ ho => by have ho : i' = r ∧ j' + 1 = 0 ∧ k' = 1 := ho; omega)
    · exact mk r (c - 1) 1 0 2 (by omega) (by omega) (by omega) (by decide)
          (by show (r, c - 1 + 1) = (r, c); rw [Nat.sub_add_cancel (by omega)])
          (fun i' _ j' _ k' _ ho => by have ho : i' = r ∧ j' = c - 1 + 1 ∧ k' = 0 := ho; omega)

/-! ### C53 -/

/-- C53: fewer than one cell in a direction is rejected -/
theorem C53_count (size off : T × T) (n0 n1 : Nat) (h : n0 = 0 ∨ n1 = 0) :
    generate n0 n1 size off = .error (.exc .invalidElementCount) := by
  unfold generate grid
  rw [throwIf_true _ (by omega)]; rfl

/-- C53: for all element counts and sizes the generator succeeds; the result is the grid with spacing `size0 / n0` and
`size1 / n1`, with its face adjacency set up (`w` is the mesh before `setupNeighbors`), the flagged rim is exactly
the boundary, and all triangles have the same volume, which add up to the requested area. -/
theorem C53_generate {n0 n1 : Nat} (hn0 : 1 ≤ n0) (hn1 : 1 ≤ n1) (size off : T × T) :
    ∃ w w' : World T, generate n0 n1 size off = .ok w' ∧ w.setupNeighbors = .ok w' ∧ Built w ∧ Distinct w ∧ FaceAdjacency w w' ∧
      IsGrid n0 n1 (size.1 / n0) (size.2 / n1) off w' ∧
      (∀ r ≤ n0, ∀ c ≤ n1, ∀ p, w'.vertices[r * (n1 + 1) + c]? = some p →
        (Boundary w p ↔ r = 0 ∨ r = n0 ∨ c = 0 ∨ c = n1)) ∧
      w'.setupBoundaries = .ok w' ∧
      (∀ a ∈ w'.elements, elementVolume w' a = |size.1 * size.2| / (2 * (n0 * n1))) ∧
      (w'.elements.map (elementVolume w')).sum = |size.1 * size.2| := by
  obtain ⟨w, e, h⟩ := grid_ok hn0 hn1 size off
  have h : GG w n0 n1 (posOf n1 off.1 off.2 (size.1 / n0) (size.2 / n1)) (flag n0 n1) := h
  have hd := distinct h
  obtain ⟨w', e', ha⟩ := (C51_setupNeighbors h.built hd).1 (not_overshared h)
  obtain ⟨kV, kvs, kes, kvo⟩ := ha.keep
  have hvlt : ∀ {r c}, r ≤ n0 → c ≤ n1 → vid n1 r c < (n0 + 1) * (n1 + 1) := by
    intro r c hr hc
    have : r * (n1 + 1) ≤ n0 * (n1 + 1) := Nat.mul_le_mul_right _ hr
    have : (n0 + 1) * (n1 + 1) = n0 * (n1 + 1) + (n1 + 1) := by rw [Nat.add_mul]; omega
    unfold vid; omega
  have hvs : ∀ {r c}, r ≤ n0 → c ≤ n1 → w'.vertices[r * (n1 + 1) + c]? = some (vid n1 r c) := by
    intro r c hr hc
    rw [kvs, h.verts]
    exact List.getElem?_range (hvlt hr hc)
  have hvert : ∀ {r c}, r ≤ n0 → c ≤ n1 → ∃ v, w.V[vid n1 r c]? = some v ∧
      v.pos = [off.1 + size.1 / n0 * (c : T), off.2 + size.2 / n1 * (r : T)] ∧
      v.flags = if r = 0 ∨ r = n0 ∨ c = 0 ∨ c = n1 then 1 else 0 := by
    intro r c hr hc
    obtain ⟨v, v1, v2, v3⟩ := h.v _ (hvlt hr hc)
    refine ⟨v, v1, ?_, ?_⟩
    · rw [v2]; unfold posOf; rw [vid_div hc, vid_mod hc]
    · rw [v3]; unfold flag; rw [vid_div hc, vid_mod hc]
  have hgrid : IsGrid n0 n1 (size.1 / n0) (size.2 / n1) off w' := by
    refine ⟨by rw [kvs, h.verts, List.length_range], by rw [kes, h.elems, List.length_range], ?_, ?_⟩
    · intro r hr c hc
      obtain ⟨v, v1, v2, v3⟩ := hvert hr hc
      exact ⟨_, v, hvs hr hc, by rw [kV]; exact v1, v2, v3⟩
    · intro i hi j hj k hk
      have hlt := eid_lt hi hj hk
      have hm : eid n1 i j k ∈ w.elements := by rw [h.elems, List.mem_range]; exact hlt
      refine ⟨eid n1 i j k, by rw [kes, h.elems]; exact List.getElem?_range hlt, ?_, fun m => ?_⟩
      · rw [kvo _ hm, vertsOf_len h hlt]
      · rw [kvo _ hm]
        have hc := corner_le (k := k) hi hj m
        exact ⟨_, vertsOf_corner h hi hj hk m, hvs hc.1 hc.2⟩
  have hbd : ∀ r ≤ n0, ∀ c ≤ n1, ∀ p, w'.vertices[r * (n1 + 1) + c]? = some p →
        (Boundary w p ↔ r = 0 ∨ r = n0 ∨ c = 0 ∨ c = n1) := by
    intro r hr c hc p hp
    rw [hvs hr hc] at hp
    obtain rfl := Option.some.inj hp
    exact boundary_iff hn0 hn1 h hr hc
  have hvol : ∀ a ∈ w'.elements, elementVolume w' a = |size.1 * size.2| / (2 * (n0 * n1)) := by
    intro a haw
    rw [kes, h.elems, List.mem_range] at haw
    obtain ⟨i, hi, j, hj, k, hk, rfl⟩ := exists_eid haw
    have hm : eid n1 i j k ∈ w.elements := by rw [h.elems, List.mem_range]; exact haw
    have hco : ∀ m : Fin 3, coords w' (eid n1 i j k) m 0 = off.1 + size.1 / n0 * ((corner i j k m).2 : T) ∧
        coords w' (eid n1 i j k) m 1 = off.2 + size.2 / n1 * ((corner i j k m).1 : T) := by
      intro m
      have hc := corner_le (k := k) hi hj m
      obtain ⟨v, v1, v2, -⟩ := hvert hc.1 hc.2
      unfold coords
      rw [kvo _ hm, vertsOf_corner h hi hj hk m, kV]
      simp [v1, v2]
    have hn0' : (n0 : T) ≠ 0 := by exact_mod_cast (by omega : n0 ≠ 0)
    have hn1' : (n1 : T) ≠ 0 := by exact_mod_cast (by omega : n1 ≠ 0)
    have hmain : |1 / 2 * (size.1 / n0 * (size.2 / n1))| = |size.1 * size.2| / (2 * (n0 * n1)) := by
      rw [show 1 / 2 * (size.1 / n0 * (size.2 / n1)) = size.1 * size.2 / (2 * (n0 * n1)) by field_simp, abs_div,
        abs_of_pos (show (0 : T) < 2 * (n0 * n1) from by positivity)]
    unfold elementVolume
    rw [Simplex.area2_eq]
    unfold NS.Simplex.D
    rw [(hco 0).1, (hco 0).2, (hco 1).1, (hco 1).2, (hco 2).1, (hco 2).2]
    obtain rfl | rfl : k = 0 ∨ k = 1 := by omega
    · have c0 : corner i j 0 0 = (i, j) := rfl
      have c1 : corner i j 0 1 = (i + 1, j) := rfl
      have c2 : corner i j 0 2 = (i + 1, j + 1) := rfl
      rw [c0, c1, c2]
      push_cast
      rw [← hmain, ← abs_neg]
      congr 1
      ring
    · have c0 : corner i j 1 0 = (i, j) := rfl
      have c1 : corner i j 1 1 = (i + 1, j + 1) := rfl
      have c2 : corner i j 1 2 = (i, j + 1) := rfl
      rw [c0, c1, c2]
      push_cast
      rw [← hmain, ← abs_neg]
      congr 1
      ring
  refine ⟨w, w', ?_, e', h.built, hd, ha, hgrid, hbd, ?_, hvol, ?_⟩
  · unfold generate
    rw [e, ok_bind]; exact e'
  · obtain ⟨w'', f1, f2, f4, f3⟩ := C52_setupBoundaries h.built hd e'
    rw [f1]
    have hVV : w''.V = w'.V := by
      apply List.ext_getElem?
      intro q
      rcases hq : w.V[q]? with _ | v
      · have hlen : w.V.length ≤ q := List.getElem?_eq_none_iff.1 hq
        rw [kV, hq]
        exact List.getElem?_eq_none_iff.2 (by omega)
      · have hlt : q < (n0 + 1) * (n1 + 1) := by rw [← h.vlen]; exact lt_of_getElem? hq
        obtain ⟨r, c, hc, rfl⟩ := exists_vid n1 q
        have hr : r ≤ n0 := by
          by_contra hcon
          have : (n0 + 1) * (n1 + 1) ≤ r * (n1 + 1) := Nat.mul_le_mul_right _ (by omega)
          unfold vid at hlt; omega
        obtain ⟨v', v1, -, v3⟩ := hvert hr hc
        rw [hq] at v1
        obtain rfl := Option.some.inj v1
        rw [kV, hq]
        by_cases hb : Boundary w (vid n1 r c)
        · rw [(f3 _ _ hq).1 hb]
          rw [if_pos ((boundary_iff hn0 hn1 h hr hc).1 hb)] at v3
          rw [v3]
          obtain ⟨f, g, p, el⟩ := v
          simp only at v3
          subst v3
          rfl
        · exact (f3 _ _ hq).2 hb
    rw [f2, hVV]
  · have hlen : w'.elements.length = 2 * (n0 * n1) := hgrid.elementCount
    rw [List.map_congr_left hvol, List.map_const', List.sum_replicate, hlen, nsmul_eq_mul]
    have hn0' : (n0 : T) ≠ 0 := by exact_mod_cast (by omega : n0 ≠ 0)
    have hn1' : (n1 : T) ≠ 0 := by exact_mod_cast (by omega : n1 ≠ 0)
    push_cast
    field_simp

/-- the points of all vertices of a mesh -/
def points (w : World T) : List (List T) := w.vertices.map fun p => ((w.V[p]?).map MVertex.pos).getD []

/-- the bounding box of the mesh is `[off0, off0 + ext0] × [off1, off1 + ext1]`, and its corners are vertices -/
structure Spans (w : World T) (off ext : T × T) : Prop where
  inside : ∀ p ∈ points w, ∃ x y, p = [x, y] ∧ off.1 ≤ x ∧ x ≤ off.1 + ext.1 ∧ off.2 ≤ y ∧ y ≤ off.2 + ext.2
  corners : [off.1, off.2] ∈ points w ∧ [off.1 + ext.1, off.2] ∈ points w ∧ [off.1, off.2 + ext.2] ∈ points w ∧
    [off.1 + ext.1, off.2 + ext.2] ∈ points w

theorem mem_points {n0 n1 : Nat} {hx hy : T} {off : T × T} {w : World T} (h : IsGrid n0 n1 hx hy off w) (p : List T) :
    p ∈ points w ↔ ∃ r ≤ n0, ∃ c ≤ n1, p = [off.1 + hx * (c : T), off.2 + hy * (r : T)] := by
  unfold points
  rw [List.mem_map]
  constructor
  · rintro ⟨q, hq, rfl⟩
    obtain ⟨m, hm⟩ := List.getElem?_of_mem hq
    have hlt : m < (n0 + 1) * (n1 + 1) := by rw [← h.vertexCount]; exact lt_of_getElem? hm
    obtain ⟨r, c, hc, rfl⟩ := exists_vid n1 m
    have hr : r ≤ n0 := by
      by_contra hcon
      have : (n0 + 1) * (n1 + 1) ≤ r * (n1 + 1) := Nat.mul_le_mul_right _ (by omega)
      unfold vid at hlt; omega
    obtain ⟨q', v, h1, h2, h3, -⟩ := h.vertex r hr c hc
    unfold vid at hm
    rw [hm] at h1
    obtain rfl := Option.some.inj h1
    exact ⟨r, hr, c, hc, by rw [h2]; exact h3⟩
  · rintro ⟨r, hr, c, hc, rfl⟩
    obtain ⟨q', v, h1, h2, h3, -⟩ := h.vertex r hr c hc
    exact ⟨q', List.mem_of_getElem? h1, by rw [h2]; exact h3⟩

/-- C53: what the generator really spans: the x direction has `n1` cells of width `size0 / n0` and the y direction `n0`
cells of height `size1 / n1`, so the extents are `size0 * n1 / n0` and `size1 * n0 / n1`. -/
theorem C53_extent_actual {n0 n1 : Nat} (hn0 : 1 ≤ n0) (hn1 : 1 ≤ n1) {size : T × T} (off : T × T) (h0 : 0 ≤ size.1) (h1 : 0 ≤ size.2) :
    ∃ w, generate n0 n1 size off = .ok w ∧ Spans w off (size.1 * n1 / n0, size.2 * n0 / n1) := by
  obtain ⟨-, w, e, -, -, -, -, hg, -⟩ := C53_generate hn0 hn1 size off
  refine ⟨w, e, ⟨fun p hp => ?_, ?_⟩⟩
  · obtain ⟨r, hr, c, hc, rfl⟩ := (mem_points hg p).1 hp
    have hr' : (r : T) ≤ n0 := by exact_mod_cast hr
    have hc' : (c : T) ≤ n1 := by exact_mod_cast hc
    have a1 : 0 ≤ size.1 / n0 := div_nonneg h0 (by positivity)
    have a2 : 0 ≤ size.2 / n1 := div_nonneg h1 (by positivity)
    have b1 := mul_le_mul_of_nonneg_left hc' a1
    have b2 := mul_le_mul_of_nonneg_left hr' a2
    have c1 : 0 ≤ size.1 / n0 * (c : T) := mul_nonneg a1 (by positivity)
    have c2 : 0 ≤ size.2 / n1 * (r : T) := mul_nonneg a2 (by positivity)
    have d1 : size.1 / n0 * n1 = size.1 * n1 / n0 := by ring
    have d2 : size.2 / n1 * n0 = size.2 * n0 / n1 := by ring
    refine ⟨_, _, rfl, by linarith, ?_, by linarith, ?_⟩
    · simp only []; linarith
    · simp only []; linarith
  · simp only [mem_points hg]
    refine ⟨⟨0, by omega, 0, by omega, by simp⟩, ⟨0, by omega, n1, le_refl _, ?_⟩, ⟨n0, le_refl _, 0, by omega, ?_⟩,
      ⟨n0, le_refl _, n1, le_refl _, ?_⟩⟩
    · rw [show size.1 * n1 / n0 = size.1 / n0 * (n1 : T) by ring]; simp
    · rw [show size.2 * n0 / n1 = size.2 / n1 * (n0 : T) by ring]; simp
    · rw [show size.2 * n0 / n1 = size.2 / n1 * (n0 : T) by ring, show size.1 * n1 / n0 = size.1 / n0 * (n1 : T) by ring]

/-- C53 (partial): with equally many elements in both directions the mesh spans the requested rectangle.  Missing:
different element counts, where it is false (`C53_extent_negation`). -/
theorem C53_extent_partial {n : Nat} (hn : 1 ≤ n) {size : T × T} (off : T × T) (h0 : 0 ≤ size.1) (h1 : 0 ≤ size.2) :
    ∃ w, generate n n size off = .ok w ∧ Spans w off size := by
  obtain ⟨w, e, hs⟩ := C53_extent_actual hn hn off h0 h1
  have hn' : (n : T) ≠ 0 := by exact_mod_cast (by omega : n ≠ 0)
  rw [mul_div_cancel_right₀ _ hn', mul_div_cancel_right₀ _ hn'] at hs
  exact ⟨w, e, hs⟩

/-- C53: the extent claim is false for all different element counts and all non-zero sizes. -/
theorem C53_extent_negation {n0 n1 : Nat} (hn0 : 1 ≤ n0) (hn1 : 1 ≤ n1) (hne : n0 ≠ n1) {size : T × T} (off : T × T)
    (h0 : 0 < size.1) (h1 : 0 < size.2) :
    ∃ w, generate n0 n1 size off = .ok w ∧ ¬ Spans w off size := by
  obtain ⟨w, e, hs⟩ := C53_extent_actual hn0 hn1 off h0.le h1.le
  refine ⟨w, e, fun hs' => hne ?_⟩
  obtain ⟨x, y, hxy, -, hx, -, -⟩ := hs'.inside _ hs.corners.2.1
  obtain ⟨x', y', hxy', -, hx', -, -⟩ := hs.inside _ hs'.corners.2.1
  simp only [List.cons.injEq, and_true] at hxy hxy'
  have hp : (0 : T) < n0 := by exact_mod_cast hn0
  have h2 : size.1 * n1 / n0 = size.1 := by
    apply le_antisymm
    · linarith [hxy.1]
    · linarith [hxy'.1]
  rw [div_eq_iff hp.ne'] at h2
  have := mul_left_cancel₀ h0.ne' h2
  exact_mod_cast this.symm

/-- C53: the generated mesh passes `prepare()` and `validate()` whenever a triangle's area exceeds the tolerance. -/
theorem C53_validate {n0 n1 : Nat} (hn0 : 1 ≤ n0) (hn1 : 1 ≤ n1) (size off : T × T) {eps : T} (heps : 0 ≤ eps)
    (hbig : eps < |size.1 * size.2| / (2 * (n0 * n1))) :
    ∃ w' w'', generate n0 n1 size off = .ok w' ∧ w'.prepare 0 = .ok w'' ∧ validate eps w'' = .ok () := by
  obtain ⟨w, w', e, e', hb, hd, ha, hg, -, -, hvol, -⟩ := C53_generate hn0 hn1 size off
  obtain ⟨kV, kvs, kes, kvo⟩ := ha.keep
  have hv : ∀ a ∈ w.elements, elementVolume w a = |size.1 * size.2| / (2 * (n0 * n1)) := by
    intro a haw
    rw [← hvol a (by rw [kes]; exact haw)]
    unfold elementVolume coords
    rw [kV, kvo a haw]
  obtain ⟨w'', e''⟩ := (C64_prepare hb hd e').1 (fun a haw => by rw [hv a haw]; exact (lt_of_le_of_lt heps hbig).ne')
  refine ⟨w', w'', e, e'', (C64_pipeline heps hb hd e' e'').2.2 ?_ (fun a haw => by rw [hv a haw]; exact hbig)⟩
  intro p hp
  rw [← kvs] at hp
  obtain ⟨m, hm⟩ := List.getElem?_of_mem hp
  have hlt : m < (n0 + 1) * (n1 + 1) := by rw [← hg.vertexCount]; exact lt_of_getElem? hm
  obtain ⟨r, c, hc, rfl⟩ := exists_vid n1 m
  have hr : r ≤ n0 := by
    by_contra hcon
    have : (n0 + 1) * (n1 + 1) ≤ r * (n1 + 1) := Nat.mul_le_mul_right _ (by omega)
    unfold vid at hlt; omega
  have mk : ∀ (i j k : Nat) (m : Fin 3), i < n0 → j < n1 → k < 2 → corner i j k m = (r, c) → ∃ a ∈ w.elements, some p ∈ w.vertsOf a := by
    intro i j k m hi hj hk hcor
    obtain ⟨a, a1, -, a3⟩ := hg.element i hi j hj k hk
    have ham : a ∈ w.elements := by rw [← kes]; exact List.mem_of_getElem? a1
    obtain ⟨q, q1, q2⟩ := a3 m
    rw [hcor] at q2
    unfold vid at hm
    rw [hm] at q2
    obtain rfl := Option.some.inj q2
    rw [kvo a ham] at q1
    exact ⟨a, ham, List.mem_of_getElem? q1⟩
  by_cases h1 : r < n0 <;> by_cases h2 : c < n1
  · exact mk r c 0 0 h1 h2 (by omega) rfl
  · exact mk r (c - 1) 1 2 h1 (by omega) (by omega) (by show (r, c - 1 + 1) = (r, c); rw [Nat.sub_add_cancel (by omega)])
  · exact mk (r - 1) c 0 1 (by omega) h2 (by omega) (by show (r - 1 + 1, c) = (r, c); rw [Nat.sub_add_cancel (by omega)])
  · exact mk (r - 1) (c - 1) 0 2 (by omega) (by omega) (by omega)
      (by show (r - 1 + 1, c - 1 + 1) = (r, c); rw [Nat.sub_add_cancel (by omega), Nat.sub_add_cancel (by omega)])

/-- non-vacuity: a 2 × 3 grid -/
example : ∃ w : World ℚ, generate 2 3 (2, 3) (1, 0) = .ok w ∧ w.vertices.length = 12 ∧ w.elements.length = 12 ∧
    (w.elements.map (elementVolume w)).sum = 6 := by
  obtain ⟨-, w, e, -, -, -, -, hg, -, -, -, hs⟩ := C53_generate (n0 := 2) (n1 := 3) (by omega) (by omega) ((2 : ℚ), 3) (1, 0)
  exact ⟨w, e, hg.vertexCount, hg.elementCount, by rw [hs]; norm_num⟩

/-- non-vacuity: the hypotheses of `C53_validate` -/
example : (0 : ℚ) ≤ 1 / 100 ∧ (1 / 100 : ℚ) < |(2 : ℚ) * 3| / (2 * (2 * 3)) := by norm_num

/-- a concrete run: the unit square in 1 × 2 elements reaches x = 2 -/
example : ∃ w : World ℚ, generate 1 2 (1, 1) (0, 0) = .ok w ∧ [2, 0] ∈ points w := by
  obtain ⟨w, e, h⟩ := C53_extent_actual (T := ℚ) (n0 := 1) (n1 := 2) (by omega) (by omega) (size := (1, 1)) (0, 0) (by norm_num) (by norm_num)
  exact ⟨w, e, by have := h.corners.2.1; norm_num at this; exact this⟩

end NS.Props.HyperCube

/-
Lemmas about `setupNeighborsK`: it is `setupNeighbors` with the mesh left behind, and its invariant.
-/
import Verif.MeshThrowModel
import Verif.MeshBuild
import Mathlib.Data.Finset.Prod

set_option linter.unusedSectionVars false

namespace NS
namespace World
variable {T : Type} [Field T] [LinearOrder T]

/-- forget what is left behind when an exception has been thrown -/
def raise {α : Type} (st : α × Option Exc) : R α :=
  match st.2 with
  | none => .ok st.1
  | some k => .error (.exc k)

theorem forAux_raise {α : Type} {f : Nat → α → R α} {g : Nat → α × Option Exc → R (α × Option Exc)}
    (h1 : ∀ i x, f i x = g i (x, none) >>= raise) (h2 : ∀ i x k, g i (x, some k) = .ok (x, some k)) (n k : Nat) (x : α) :
    forAux f n k x = forAux g n k (x, none) >>= raise := by
  have stop : ∀ n k (x : α) e, forAux g n k (x, some e) = .ok (x, some e) := by
    intro n
    induction n with
    | zero => intro k x e; rfl
    | succ n ih => intro k x e; show (g k (x, some e) >>= _) = _; rw [h2, ok_bind, ih]
  induction n generalizing k x with
  | zero => rfl
  | succ n ih =>
    show (f k x >>= _) = ((g k (x, none) >>= _) >>= raise)
    rw [h1]
    rcases g k (x, none) with e | ⟨y, _ | e⟩
    · rfl
    · show forAux f n (k + 1) y = _
      rw [ih]; rfl
    · show Except.error (Err.exc e) = (forAux g n (k + 1) (y, some e) >>= raise)
      rw [stop]; rfl

theorem forRange_raise {α : Type} {f : Nat → α → R α} {g : Nat → α × Option Exc → R (α × Option Exc)}
    (h1 : ∀ i x, f i x = g i (x, none) >>= raise) (h2 : ∀ i x k, g i (x, some k) = .ok (x, some k)) (a b : Nat) (x : α) :
    forRange a b x f = forRange a b (x, none) g >>= raise := forAux_raise h1 h2 _ _ _

theorem forRange_stop {α : Type} {g : Nat → α × Option Exc → R (α × Option Exc)}
    (h2 : ∀ i x k, g i (x, some k) = .ok (x, some k)) (a b : Nat) (x : α) (e : Exc) :
    forRange a b (x, some e) g = .ok (x, some e) := by
  unfold forRange
  generalize b - a = n
  induction n generalizing a with
  | zero => rfl
  | succ n ih => show (g a (x, some e) >>= _) = _; rw [h2, ok_bind, ih]

theorem forList_raise {α β : Type} {f : β → α → R α} {g : β → α × Option Exc → R (α × Option Exc)}
    (h1 : ∀ i x, f i x = g i (x, none) >>= raise) (h2 : ∀ i x k, g i (x, some k) = .ok (x, some k)) (l : List β) (x : α) :
    forList l x f = forList l (x, none) g >>= raise := by
  have stop : ∀ (l : List β) (x : α) e, forList l (x, some e) g = .ok (x, some e) := by
    intro l
    induction l with
    | nil => intro x e; rfl
    | cons b l ih => intro x e; show (g b (x, some e) >>= _) = _; rw [h2, ok_bind, ih]
  induction l generalizing x with
  | nil => rfl
  | cons b l ih =>
    show (f b x >>= _) = ((g b (x, none) >>= _) >>= raise)
    rw [h1]
    rcases g b (x, none) with e | ⟨y, _ | e⟩
    · rfl
    · show forList l y f = _
      rw [ih]; rfl
    · show Except.error (Err.exc e) = (forList l (y, some e) g >>= raise)
      rw [stop]; rfl

theorem forList_stop {α β : Type} {g : β → α × Option Exc → R (α × Option Exc)}
    (h2 : ∀ i x k, g i (x, some k) = .ok (x, some k)) (l : List β) (x : α) (e : Exc) :
    forList l (x, some e) g = .ok (x, some e) := by
  induction l with
  | nil => rfl
  | cons b l ih => show (g b (x, some e) >>= _) = _; rw [h2, ok_bind, ih]

theorem findOtherK_same (w : World T) (S : Nat) (shared : List (Option Nat)) :
    findOther w S shared = findOtherK w S shared >>= raise := by
  unfold findOther findOtherK
  apply forRange_raise
  · intro j x
    rw [if_neg (by simp)]
    rcases getIdx shared j with e | vj
    · rfl
    rw [ok_bind, ok_bind]
    rcases deref vj with e | q
    · rfl
    rw [ok_bind, ok_bind]
    rcases getIdx w.V q with e | v
    · rfl
    rw [ok_bind, ok_bind]
    apply forList_raise
    · intro oe y
      rw [if_neg (c := (y, (none : Option Exc)).2 ≠ none) (by simp)]
      by_cases h : oe = S
      · rw [if_pos h, if_pos h]; rfl
      rw [if_neg h, if_neg h]
      rcases getIdx w.E oe with e | o
      · rfl
      rw [ok_bind, ok_bind]
      by_cases hm : matchCount shared o.verts = 2
      · rw [if_pos hm, if_pos hm]
        by_cases ht : y ≠ none ∧ y ≠ some oe
        · rw [throwIf_true _ ht, if_pos ht]; rfl
        · rw [throwIf_false _ ht, if_neg ht]; rfl
      · rw [if_neg hm, if_neg hm]; rfl
    · intro oe y k
      rw [if_pos (by simp)]; rfl
  · intro j x k
    rw [if_pos (by simp)]; rfl

theorem setupFaceK_stop (S i : Nat) (w : World T) (k : Exc) : setupFaceK S i (w, some k) = .ok (w, some k) := by
  unfold setupFaceK
  rw [if_pos (by simp)]; rfl

theorem setupFaceK_same (S i : Nat) (w : World T) : setupFace S i w = setupFaceK S i (w, none) >>= raise := by
  unfold setupFace setupFaceK
  rw [if_neg (by simp)]
  simp only
  rcases getIdx w.E S with e | s
  · rfl
  rw [ok_bind, ok_bind]
  rcases getIdx s.nbrs i with e | n
  · rfl
  rw [ok_bind, ok_bind]
  by_cases hn : n ≠ none
  · rw [if_pos hn, if_pos hn]; rfl
  rw [if_neg hn, if_neg hn]
  rcases sharedArr s.verts i with e | sh
  · rfl
  rw [ok_bind, ok_bind]
  by_cases h2 : sh.1 ≠ 2
  · rw [throwIf_true _ h2, if_pos h2]; rfl
  rw [throwIf_false _ h2, if_neg h2, ok_bind]
  rcases setIdx s.nbrs i (some w.F.length) with e | nb
  · rfl
  rw [ok_bind, ok_bind, findOtherK_same]
  rcases findOtherK _ S sh.2 with e | ⟨_ | oe, _ | k⟩
  · rfl
  · rfl
  · rfl
  · simp only [ok_bind, raise]
    rcases getIdx (w.E.set S _) oe with e | other
    · rfl
    rw [ok_bind, ok_bind]
    rcases symIndex sh.2 other.verts with e | _ | j
    · rfl
    · rfl
    simp only [ok_bind]
    rcases setIdx other.nbrs j (some w.F.length) with e | nb'
    · rfl
    · rfl
  · rfl

theorem setupNeighborsK_same (w : World T) : setupNeighbors w = setupNeighborsK w >>= raise := by
  unfold setupNeighbors setupNeighborsK
  refine forList_raise (fun S x => ?_) (fun S x k => ?_) _ _
  · exact forRange_raise (fun i y => setupFaceK_same S i y) (fun i y k => setupFaceK_stop S i y k) _ _ _
  · exact forRange_stop (fun i y k => setupFaceK_stop S i y k) _ _ _ _

/-! ### The invariant -/

/-- three different elements contain the face `F` -/
def Over (els : List Nat) (tv : Nat → Fin 3 → Nat) (F : Finset Nat) : Prop :=
  ∃ a b c, a ∈ els ∧ b ∈ els ∧ c ∈ els ∧ a ≠ b ∧ a ≠ c ∧ b ≠ c ∧ F ⊆ cs (tv a) ∧ F ⊆ cs (tv b) ∧ F ⊆ cs (tv c)

theorem over_iff {els : List Nat} {tv : Nat → Fin 3 → Nat} {S : Nat} (hS : S ∈ els) (i : Fin 3) :
    Over els tv (fc (tv S) i) ↔ ∃ b c, b ≠ c ∧ Other els tv S (fc (tv S) i) b ∧ Other els tv S (fc (tv S) i) c := by
  constructor
  · rintro ⟨a, b, c, ha, hb, hc, hab, hac, hbc, sa, sb, sc⟩
    by_cases h1 : a = S
    · subst h1
      exact ⟨b, c, hbc, ⟨hb, hab.symm, sb⟩, ⟨hc, hac.symm, sc⟩⟩
    · by_cases h2 : b = S
      · subst h2
        exact ⟨a, c, hac, ⟨ha, hab, sa⟩, ⟨hc, hbc.symm, sc⟩⟩
      · exact ⟨a, b, hab, ⟨ha, h1, sa⟩, ⟨hb, h2, sb⟩⟩
  · rintro ⟨b, c, hbc, ⟨hb, hbS, sb⟩, ⟨hc, hcS, sc⟩⟩
    exact ⟨S, b, c, hS, hb, hc, hbS.symm, hcS.symm, hbc, fc_subset_cs _ _, sb, sc⟩

theorem findOtherK_spec {els tv} {w : World T} (h : Static els tv w) {S : Nat} (hS : S ∈ els) (i : Fin 3) :
    Sat (findOtherK w S [some (tv S (fA i)), some (tv S (fB i))])
      (fun r => (∀ o, r.1 = some o → Other els tv S (fc (tv S) i) o) ∧
        (r.2 = none → ∀ b, Other els tv S (fc (tv S) i) b → r.1 = some b) ∧
        (r.2 ≠ none → r.2 = some .tooManySharedFaces ∧ r.1 ≠ none ∧ Over els tv (fc (tv S) i)))
      noErr := by
  unfold findOtherK
  have hne : tv S (fA i) ≠ tv S (fB i) := fun hh => fA_ne_fB i (h.inj S hS hh)
  refine Sat.mono (sat_forRange
    (fun j (r : Option Nat × Option Exc) => (∀ o, r.1 = some o → Other els tv S (fc (tv S) i) o) ∧
      (1 ≤ j → r.2 = none → ∀ b, Other els tv S (fc (tv S) i) b → r.1 = some b) ∧
      (r.2 ≠ none → r.2 = some .tooManySharedFaces ∧ r.1 ≠ none ∧ Over els tv (fc (tv S) i))) (Nat.zero_le 2)
    ⟨fun o ho => (by cases ho), fun hh => absurd hh (by omega), fun hh => absurd rfl hh⟩ ?_) (fun r hr => ⟨hr.1, hr.2.1 (by omega), hr.2.2⟩)
    (fun e he => he)
  intro j r _ hj ⟨hr1, hr2, hr3⟩
  by_cases hthr : r.2 ≠ none
  · rw [if_pos hthr]
    exact ⟨hr1, fun _ hh => absurd hh hthr, hr3⟩
  rw [if_neg hthr]
  rw [not_ne_iff] at hthr
  obtain ⟨q, hq, hqc⟩ : ∃ q, [some (tv S (fA i)), some (tv S (fB i))][j]? = some (some q) ∧ q ∈ fc (tv S) i := by
    match j, hj with
    | 0, _ => exact ⟨_, rfl, by simp [fc]⟩
    | 1, _ => exact ⟨_, rfl, by simp [fc]⟩
  obtain ⟨v, v1, v2⟩ := h.inc S hS q (fc_subset_cs _ _ hqc)
  rw [getIdx_of_some hq, ok_bind]
  simp only [deref, ok_bind]
  rw [getIdx_of_some v1, ok_bind]
  refine Sat.mono (sat_forList (fun pre (r' : Option Nat × Option Exc) => (∀ o, r'.1 = some o → Other els tv S (fc (tv S) i) o) ∧
    (r'.2 = none → ∀ b ∈ pre, Other els tv S (fc (tv S) i) b → r'.1 = some b) ∧
    (r'.2 ≠ none → r'.2 = some .tooManySharedFaces ∧ r'.1 ≠ none ∧ Over els tv (fc (tv S) i))) v.elems
    ⟨hr1, fun _ b hb => absurd hb (by simp), hr3⟩ ?_) ?_ (fun e he => he)
  · intro pre oe suf r' hsplit ⟨g1, g3, g4⟩
    by_cases hthr' : r'.2 ≠ none
    · rw [if_pos hthr']
      exact ⟨g1, fun hh => absurd hh hthr', g4⟩
    rw [if_neg hthr']
    rw [not_ne_iff] at hthr'
    have hoe : oe ∈ v.elems := by rw [hsplit]; simp
    obtain ⟨hoe1, hoe2⟩ := (v2 oe).1 hoe
    obtain ⟨e, e1, e2, -⟩ := h.el oe hoe1
    by_cases hSo : oe = S
    · rw [if_pos hSo]
      refine ⟨g1, fun hh b hb hob => ?_, g4⟩
      rcases List.mem_append.1 hb with hb | hb
      · exact g3 hh b hb hob
      · rw [List.mem_singleton] at hb
        exact absurd (hb.trans hSo) hob.2.1
    · rw [if_neg hSo, getIdx_of_some e1, ok_bind, e2]
      by_cases hm : matchCount [some (tv S (fA i)), some (tv S (fB i))] (arr (tv oe)) = 2
      · rw [if_pos hm]
        have hO : Other els tv S (fc (tv S) i) oe := ⟨hoe1, hSo, (matchCount_iff (h.inj oe hoe1) hne).1 hm⟩
        by_cases ht : r'.1 ≠ none ∧ r'.1 ≠ some oe
        · rw [if_pos ht]
          obtain ⟨o, ho⟩ := Option.ne_none_iff_exists'.1 ht.1
          refine ⟨g1, fun hh => (by cases hh), fun _ => ⟨rfl, ht.1, ?_⟩⟩
          exact (over_iff hS i).2 ⟨o, oe, fun hh => ht.2 (by rw [ho, hh]), g1 o ho, hO⟩
        · rw [if_neg ht]
          have hr' : ∀ o, r'.1 = some o → o = oe := by
            intro o ho
            by_contra hne'
            exact ht ⟨by rw [ho]; simp, by rw [ho]; simpa using hne'⟩
          refine ⟨fun o ho => ?_, fun hh b hb hob => ?_, fun hh => absurd rfl hh⟩
          · obtain rfl := Option.some.inj ho; exact hO
          · rcases List.mem_append.1 hb with hb | hb
            · rw [hr' b (g3 hthr' b hb hob)]
            · rw [List.mem_singleton] at hb; rw [hb]
      · rw [if_neg hm]
        refine ⟨g1, fun hh b hb hob => ?_, g4⟩
        rcases List.mem_append.1 hb with hb | hb
        · exact g3 hh b hb hob
        · rw [List.mem_singleton] at hb
          subst hb
          exact absurd ((matchCount_iff (h.inj b hoe1) hne).2 hob.2.2) hm
  · rintro r' ⟨g1, g3, g4⟩
    refine ⟨g1, fun _ hh b hob => g3 hh b ?_ hob, g4⟩
    exact (v2 b).2 ⟨hob.1, hob.2.2 hqc⟩

/-- invariant of `setupNeighborsK`: as `NB`, except that an element at a face of three or more elements has an edge object of its own there -/
structure KB (els : List Nat) (tv : Nat → Fin 3 → Nat) (w : World T) : Prop extends Static els tv w where
  edge : ∀ a ∈ els, ∀ i : Fin 3, ∀ ep, nbr w a i = some ep → ¬ Over els tv (fc (tv a) i) →
    ∃ f, w.F[ep]? = some f ∧ EdgeFor els tv (fc (tv a) i) f
  own : ∀ a ∈ els, ∀ i : Fin 3, ∀ ep, nbr w a i = some ep → Over els tv (fc (tv a) i) →
    ∃ f, w.F[ep]? = some f ∧ (∃ p q, f.verts = [some p, some q] ∧ p ≠ q ∧ fc (tv a) i = {p, q}) ∧ f.e0 = some a ∧
      (∃ b, f.e1 = some b ∧ Other els tv a (fc (tv a) i) b) ∧ f.dofs = []
  clos : ∀ a ∈ els, ∀ b ∈ els, ∀ i j : Fin 3, ¬ Over els tv (fc (tv a) i) → fc (tv a) i = fc (tv b) j → nbr w a i = nbr w b j
  edges_eq : w.edges = List.range w.F.length
  used : ∀ ep < w.F.length, ∃ a ∈ els, ∃ i : Fin 3, nbr w a i = some ep

theorem NB.kb {els tv} {w : World T} (h : NB els tv w) : KB els tv w := by
  refine ⟨h.toStatic, fun a ha i ep he _ => h.edge a ha i ep he, fun a ha i ep he ho => ?_, fun a ha b hb i j _ e => h.clos a ha b hb i j e, h.edges_eq, h.used⟩
  obtain ⟨f, f1, f2⟩ := h.edge a ha i ep he
  obtain ⟨x, y, z, hx, hy, hz, hxy, hxz, hyz, sx, sy, sz⟩ := ho
  exfalso
  have ex := f2.all x hx sx
  have ey := f2.all y hy sy
  have ez := f2.all z hz sz
  rcases ex with ex | ex <;> rcases ey with ey | ey <;> rcases ez with ez | ez <;> rw [ex] at * <;> simp_all

theorem setupFaceK_spec {els tv} {w : World T} (h : KB els tv w) {S : Nat} (hS : S ∈ els) (i : Fin 3) :
    Sat (setupFaceK S i (w, none))
      (fun r => KB els tv r.1 ∧ (∃ ep, nbr r.1 S i = some ep) ∧ (∀ a k ep, nbr w a k = some ep → nbr r.1 a k = some ep) ∧
        r.1.V = w.V ∧ r.1.vertices = w.vertices ∧
        (∀ a ∈ els, ∀ k : Fin 3, Over els tv (fc (tv a) k) → nbr r.1 a k = nbr w a k ∨ (a = S ∧ k = i)) ∧
        (r.2 = none ∨ r.2 = some .tooManySharedFaces) ∧
        (r.2 ≠ none ↔ Over els tv (fc (tv S) i) ∧ nbr w S i = none)) noErr := by
  obtain ⟨s, s1, s2, s3⟩ := h.el S hS
  have hi : (i : Nat) < s.nbrs.length := by rw [s3]; exact i.2
  have hlt : S < w.E.length := by
    by_contra hc
    rw [List.getElem?_eq_none (by omega)] at s1; cases s1
  have hn : s.nbrs[(i : Nat)]? = some (s.nbrs[(i : Nat)]) := by simp [hi]
  have hnb : nbr w S i = s.nbrs[(i : Nat)] := nbr_of s1 hn
  rcases hcase : s.nbrs[(i : Nat)] with _ | ep0
  swap
  · rw [hcase] at hn hnb
    unfold setupFaceK
    rw [if_neg (by simp)]
    simp only
    rw [getIdx_of_some s1, ok_bind, getIdx_of_some hn, ok_bind, if_pos (by simp)]
    exact ⟨h, ⟨ep0, hnb⟩, fun a k ep he => he, rfl, rfl, fun a _ k _ => .inl rfl, .inl rfl,
      ⟨fun hh => absurd rfl hh, fun hh => by rw [hnb] at hh; cases hh.2⟩⟩
  rw [hcase] at hn hnb
  have hne : tv S (fA i) ≠ tv S (fB i) := fun hh => fA_ne_fB i (h.inj S hS hh)
  have hsa : sharedArr s.verts i = .ok (2, [some (tv S (fA i)), some (tv S (fB i))]) := by rw [s2, sharedArr_ok]
  unfold setupFaceK
  rw [if_neg (by simp)]
  simp only
  rw [getIdx_of_some s1, ok_bind, getIdx_of_some hn, ok_bind, if_neg (by simp), hsa, ok_bind]
  simp only
  rw [if_neg (by simp), setIdx_eq _ hi, ok_bind]
  set w1 : World T := { w with
    F := w.F ++ [⟨[some (tv S (fA i)), some (tv S (fB i))], some S, none, []⟩],
    E := w.E.set S { s with nbrs := s.nbrs.set i (some w.F.length) },
    edges := w.edges ++ [w.F.length] } with hw1
  have hst1 : Static els tv w1 := static_set h.toStatic s1 rfl rfl rfl
  have hnb1 : ∀ a k, nbr w1 a k = if a = S ∧ k = (i : Nat) then some w.F.length else nbr w a k :=
    fun a k => nbr_set s1 hi rfl a k
  have hF1 : ∀ (ep : Nat) f, w.F[ep]? = some f → w1.F[ep]? = some f := by
    intro ep f hf
    have : ep < w.F.length := by
      by_contra hc
      rw [List.getElem?_eq_none (by omega)] at hf; cases hf
    show (w.F ++ _)[ep]? = _
    rw [List.getElem?_append_left this, hf]
  have hlen1 : w1.F.length = w.F.length + 1 := by simp [hw1]
  have hnew1 : w1.F[w.F.length]? = some ⟨[some (tv S (fA i)), some (tv S (fB i))], some S, none, []⟩ := by
    show (w.F ++ _)[w.F.length]? = _
    simp
  have hkeep : ∀ a k ep, nbr w a k = some ep → ¬ (a = S ∧ k = (i : Nat)) := by
    rintro a k ep he ⟨rfl, rfl⟩
    rw [hnb] at he; cases he
  have hedges1 : w1.edges = List.range w1.F.length := by
    rw [hlen1, List.range_succ, ← h.edges_eq]
  -- a slot with the same face as (S,i) is empty in `w`
  have hempty : ¬ Over els tv (fc (tv S) i) → ∀ a ∈ els, ∀ k : Fin 3, fc (tv a) k = fc (tv S) i → nbr w a k = none := by
    intro hno a ha k hf
    rw [h.clos a ha S hS k i (by rw [hf]; exact hno) hf, hnb]
  refine Sat.bind (findOtherK_spec hst1 hS i) ?_
  rintro ⟨r, thr⟩ ⟨r1, r2, r3⟩
  rcases thr with _ | k
  swap
  · obtain ⟨k1, k2, hover⟩ := r3 (by simp)
    obtain ⟨o, rfl⟩ := Option.ne_none_iff_exists'.1 k2
    simp only at k1
    have hO := r1 o rfl
    simp only
    set w2 : World T := { w1 with F := w1.F.set w.F.length ⟨[some (tv S (fA i)), some (tv S (fB i))], some S, some o, []⟩ } with hw2
    have hst2 : Static els tv w2 := ⟨hst1.els_eq, hst1.inj, hst1.el, hst1.inc⟩
    have hnb2 : ∀ a k, nbr w2 a k = nbr w1 a k := fun a k => rfl
    have hlen2 : w2.F.length = w.F.length + 1 := by simp [hw2, hlen1]
    have hF2 : ∀ (ep : Nat) f, w.F[ep]? = some f → w2.F[ep]? = some f := by
      intro ep f hf
      have : ep < w.F.length := by
        by_contra hc
        rw [List.getElem?_eq_none (by omega)] at hf; cases hf
      show (w1.F.set _ _)[ep]? = _
      rw [List.getElem?_set_ne (by omega)]
      exact hF1 ep f hf
    have hnew2 : w2.F[w.F.length]? = some ⟨[some (tv S (fA i)), some (tv S (fB i))], some S, some o, []⟩ := by
      show (w1.F.set _ _)[w.F.length]? = _
      rw [getElem?_set' _ _ _ _ (by omega), if_pos rfl]
    refine ⟨⟨hst2, ?_, ?_, ?_, ?_, ?_⟩, ⟨w.F.length, by show nbr w2 S i = _; rw [hnb2, hnb1]; simp⟩, ?_, rfl, rfl, ?_, .inr k1, ⟨fun _ => ⟨hover, hnb⟩, fun _ => by simp⟩⟩
    · intro a ha k ep he hno
      simp only at he
      rw [hnb2, hnb1] at he
      split at he
      · next hh =>
        obtain ⟨rfl, hk⟩ := hh
        obtain rfl := Fin.ext hk
        exact absurd hover hno
      · obtain ⟨f, f1, f2⟩ := h.edge a ha k ep he hno
        exact ⟨f, hF2 ep f f1, f2⟩
    · intro a ha k ep he ho
      simp only at he
      rw [hnb2, hnb1] at he
      split at he
      · next hh =>
        obtain ⟨rfl, hk⟩ := hh
        obtain rfl := Fin.ext hk
        obtain rfl := Option.some.inj he
        exact ⟨_, hnew2, ⟨_, _, rfl, hne, rfl⟩, rfl, ⟨o, rfl, hO⟩, rfl⟩
      · obtain ⟨f, f1, f2⟩ := h.own a ha k ep he ho
        exact ⟨f, hF2 ep f f1, f2⟩
    · intro a ha b hb k l hno hf
      simp only
      rw [hnb2, hnb2, hnb1, hnb1]
      by_cases hA : a = S ∧ (k : Nat) = i
      · obtain ⟨rfl, hk⟩ := hA
        obtain rfl := Fin.ext hk
        exact absurd hover hno
      · by_cases hB : b = S ∧ (l : Nat) = i
        · obtain ⟨rfl, hl⟩ := hB
          obtain rfl := Fin.ext hl
          exact absurd (hf ▸ hover) hno
        · rw [if_neg hA, if_neg hB]
          exact h.clos a ha b hb k l hno hf
    · show w1.edges = List.range w2.F.length
      rw [hlen2, ← hlen1]; exact hedges1
    · intro ep hep
      have hep' : ep < w.F.length + 1 := by rw [← hlen2]; exact hep
      by_cases hlast : ep = w.F.length
      · exact ⟨S, hS, i, by show nbr w2 S i = _; rw [hnb2, hnb1, if_pos ⟨rfl, rfl⟩, hlast]⟩
      · obtain ⟨a, ha, k, hk⟩ := h.used ep (by omega)
        exact ⟨a, ha, k, by show nbr w2 a k = _; rw [hnb2, hnb1, if_neg (hkeep a k ep hk), hk]⟩
    · intro a k ep he
      show nbr w2 a k = _
      rw [hnb2, hnb1, if_neg (hkeep a k ep he), he]
    · intro a ha k _
      by_cases hA : a = S ∧ (k : Nat) = i
      · exact .inr ⟨hA.1, Fin.ext hA.2⟩
      · left
        show nbr w2 a k = _
        rw [hnb2, hnb1, if_neg hA]
  replace r2 : ∀ b, Other els tv S (fc (tv S) i) b → r = some b := r2 rfl
  replace r1 : ∀ o, r = some o → Other els tv S (fc (tv S) i) o := r1
  have hnov : ¬ Over els tv (fc (tv S) i) := by
    rw [over_iff hS]
    rintro ⟨b, c, hbc, hb, hc⟩
    exact hbc (Option.some.inj ((r2 b hb).symm.trans (r2 c hc)))
  cases r with
  | none =>
    have hno : ∀ b, ¬ Other els tv S (fc (tv S) i) b := fun b hb => by cases r2 b hb
    have honly : ∀ b ∈ els, fc (tv S) i ⊆ cs (tv b) → b = S := by
      intro b hb hsub
      by_contra hbS
      exact hno b ⟨hb, hbS, hsub⟩
    refine ⟨⟨hst1, ?_, ?_, ?_, hedges1, ?_⟩, ⟨w.F.length, by show nbr w1 S i = _; rw [hnb1]; simp⟩, ?_, rfl, rfl, ?_, .inl rfl, ⟨fun hh => absurd rfl hh, fun hh => absurd hh.1 hnov⟩⟩
    · intro a ha k ep he hno
      replace he : nbr w1 a k = some ep := he
      rw [hnb1] at he
      split at he
      · next hh =>
        obtain ⟨rfl, hk⟩ := hh
        obtain rfl := Fin.ext hk
        obtain rfl := Option.some.inj he
        refine ⟨_, hnew1, ⟨_, _, rfl, hne, rfl⟩, ⟨a, rfl, ha, fc_subset_cs _ _⟩, fun b hb => (by cases hb), ?_, rfl⟩
        intro b hb hsub
        exact .inl (by rw [honly b hb hsub])
      · obtain ⟨f, f1, f2⟩ := h.edge a ha k ep he hno
        exact ⟨f, hF1 ep f f1, f2⟩
    · intro a ha k ep he ho
      replace he : nbr w1 a k = some ep := he
      rw [hnb1] at he
      split at he
      · next hh =>
        obtain ⟨rfl, hk⟩ := hh
        obtain rfl := Fin.ext hk
        exact absurd ho hnov
      · obtain ⟨f, f1, f2⟩ := h.own a ha k ep he ho
        exact ⟨f, hF1 ep f f1, f2⟩
    · intro a ha b hb k l hno hf
      show nbr w1 a k = nbr w1 b l
      rw [hnb1, hnb1]
      by_cases hA : a = S ∧ (k : Nat) = i
      · obtain ⟨rfl, hk⟩ := hA
        obtain rfl := Fin.ext hk
        have hbS := honly b hb (by rw [hf]; exact fc_subset_cs _ _)
        subst hbS
        obtain rfl := fc_inj (h.inj _ hb) hf
        rfl
      · by_cases hB : b = S ∧ (l : Nat) = i
        · obtain ⟨rfl, hl⟩ := hB
          obtain rfl := Fin.ext hl
          have haS := honly a ha (by rw [← hf]; exact fc_subset_cs _ _)
          subst haS
          obtain rfl := fc_inj (h.inj _ ha) hf
          exact absurd ⟨rfl, rfl⟩ hA
        · rw [if_neg hA, if_neg hB]
          exact h.clos a ha b hb k l hno hf
    · intro ep hep
      have hep' : ep < w.F.length + 1 := by rw [← hlen1]; exact hep
      by_cases hlast : ep = w.F.length
      · exact ⟨S, hS, i, by show nbr w1 S i = _; rw [hnb1, if_pos ⟨rfl, rfl⟩, hlast]⟩
      · obtain ⟨a, ha, k, hk⟩ := h.used ep (by omega)
        exact ⟨a, ha, k, by show nbr w1 a k = _; rw [hnb1, if_neg (hkeep a k ep hk), hk]⟩
    · intro a k ep he
      show nbr w1 a k = _
      rw [hnb1, if_neg (hkeep a k ep he), he]
    · intro a ha k _
      by_cases hA : a = S ∧ (k : Nat) = i
      · exact .inr ⟨hA.1, Fin.ext hA.2⟩
      · left
        show nbr w1 a k = _
        rw [hnb1, if_neg hA]
  | some o =>
    obtain ⟨ho, hoS, hosub⟩ := r1 o rfl
    obtain ⟨other, o1, o2, o3⟩ := hst1.el o ho
    obtain ⟨j, j1, j2⟩ := symIndex_ok (h.inj o ho) hne (show ({tv S (fA i), tv S (fB i)} : Finset Nat) ⊆ cs (tv o) from hosub)
    have hjlt : (j : Nat) < other.nbrs.length := by rw [o3]; exact j.2
    simp only
    rw [getIdx_of_some o1, ok_bind, show symIndex [some (tv S (fA i)), some (tv S (fB i))] other.verts = .ok (some (j : Nat)) by rw [o2, j1], ok_bind]
    simp only
    rw [setIdx_eq _ hjlt, ok_bind]
    have hjfc : fc (tv o) j = fc (tv S) i := j2
    have hwho : ∀ b ∈ els, fc (tv S) i ⊆ cs (tv b) → b = S ∨ b = o := by
      intro b hb hsub
      by_cases hbS : b = S
      · exact .inl hbS
      · right
        have := r2 b ⟨hb, hbS, hsub⟩
        exact (Option.some.inj this).symm
    set w2 : World T := { w1 with
      F := w1.F.set w.F.length ⟨[some (tv S (fA i)), some (tv S (fB i))], some S, some o, []⟩,
      E := w1.E.set o { other with nbrs := other.nbrs.set j (some w.F.length) } } with hw2
    have hst2 : Static els tv w2 := static_set hst1 o1 rfl rfl rfl
    have hnb2 : ∀ a k, nbr w2 a k = if (a = S ∧ k = (i : Nat)) ∨ (a = o ∧ k = (j : Nat)) then some w.F.length else nbr w a k := by
      intro a k
      rw [nbr_set o1 hjlt rfl a k, hnb1]
      by_cases h1 : a = o ∧ k = (j : Nat) <;> by_cases h2 : a = S ∧ k = (i : Nat) <;> simp [h1, h2]
    have hlen2 : w2.F.length = w.F.length + 1 := by simp [hw2, hlen1]
    have hF2 : ∀ (ep : Nat) f, w.F[ep]? = some f → w2.F[ep]? = some f := by
      intro ep f hf
      have : ep < w.F.length := by
        by_contra hc
        rw [List.getElem?_eq_none (by omega)] at hf; cases hf
      show (w1.F.set _ _)[ep]? = _
      rw [List.getElem?_set_ne (by omega)]
      exact hF1 ep f hf
    have hnew2 : w2.F[w.F.length]? = some ⟨[some (tv S (fA i)), some (tv S (fB i))], some S, some o, []⟩ := by
      show (w1.F.set _ _)[w.F.length]? = _
      rw [getElem?_set' _ _ _ _ (by omega), if_pos rfl]
    have hkeep2 : ∀ a, a ∈ els → ∀ k : Nat, ∀ ep, nbr w a k = some ep → ¬ ((a = S ∧ k = (i : Nat)) ∨ (a = o ∧ k = (j : Nat))) := by
      rintro a ha k ep he (hh | ⟨rfl, rfl⟩)
      · exact hkeep a k ep he hh
      · rw [hempty hnov a ha j hjfc] at he; cases he
    have hkeep2' : ∀ a, ∀ k : Nat, ∀ ep, nbr w a k = some ep → ¬ ((a = S ∧ k = (i : Nat)) ∨ (a = o ∧ k = (j : Nat))) := by
      rintro a k ep he (hh | ⟨rfl, rfl⟩)
      · exact hkeep a k ep he hh
      · rw [hempty hnov a ho j hjfc] at he; cases he
    have hslot : ∀ a, ∀ k : Fin 3, ((a = S ∧ (k : Nat) = i) ∨ (a = o ∧ (k : Nat) = j)) → fc (tv a) k = fc (tv S) i := by
      rintro a k (⟨rfl, hk⟩ | ⟨rfl, hk⟩)
      · rw [Fin.ext hk]
      · rw [Fin.ext hk, hjfc]
    have hslot' : ∀ a ∈ els, ∀ k : Fin 3, fc (tv a) k = fc (tv S) i → ((a = S ∧ (k : Nat) = i) ∨ (a = o ∧ (k : Nat) = j)) := by
      intro a ha k hf
      rcases hwho a ha (by rw [← hf]; exact fc_subset_cs _ _) with rfl | rfl
      · left; exact ⟨rfl, by rw [fc_inj (h.inj _ ha) hf]⟩
      · right; exact ⟨rfl, by rw [fc_inj (h.inj _ ha) (hf.trans hjfc.symm)]⟩
    refine ⟨⟨hst2, ?_, ?_, ?_, ?_, ?_⟩, ⟨w.F.length, by show nbr w2 S i = _; rw [hnb2]; simp⟩, ?_, rfl, rfl, ?_, .inl rfl, ⟨fun hh => absurd rfl hh, fun hh => absurd hh.1 hnov⟩⟩
    · intro a ha k ep he hno
      replace he : nbr w2 a k = some ep := he
      rw [hnb2] at he
      split at he
      · next hh =>
        obtain rfl := Option.some.inj he
        rw [hslot a k hh]
        refine ⟨_, hnew2, ⟨_, _, rfl, hne, rfl⟩, ⟨S, rfl, hS, fc_subset_cs _ _⟩, ?_, ?_, rfl⟩
        · intro b hb
          obtain rfl := Option.some.inj hb
          exact ⟨ho, hosub, fun hh => hoS (Option.some.inj hh).symm⟩
        · intro b hb hsub
          rcases hwho b hb hsub with rfl | rfl
          · exact .inl rfl
          · exact .inr rfl
      · obtain ⟨f, f1, f2⟩ := h.edge a ha k ep he hno
        exact ⟨f, hF2 ep f f1, f2⟩
    · intro a ha k ep he hov
      replace he : nbr w2 a k = some ep := he
      rw [hnb2] at he
      split at he
      · next hh =>
        rw [hslot a k hh] at hov
        exact absurd hov hnov
      · obtain ⟨f, f1, f2⟩ := h.own a ha k ep he hov
        exact ⟨f, hF2 ep f f1, f2⟩
    · intro a ha b hb k l hno hf
      show nbr w2 a k = nbr w2 b l
      rw [hnb2, hnb2]
      by_cases hA : (a = S ∧ (k : Nat) = i) ∨ (a = o ∧ (k : Nat) = j)
      · rw [if_pos hA, if_pos (hslot' b hb l (by rw [← hf]; exact hslot a k hA))]
      · rw [if_neg hA, if_neg (fun hB => hA (hslot' a ha k (by rw [hf]; exact hslot b l hB)))]
        exact h.clos a ha b hb k l hno hf
    · show w1.edges = List.range w2.F.length
      rw [hlen2, ← hlen1]; exact hedges1
    · intro ep hep
      have hep' : ep < w.F.length + 1 := by rw [← hlen2]; exact hep
      by_cases hlast : ep = w.F.length
      · exact ⟨S, hS, i, by show nbr w2 S i = _; rw [hnb2, if_pos (.inl ⟨rfl, rfl⟩), hlast]⟩
      · obtain ⟨a, ha, k, hk⟩ := h.used ep (by omega)
        exact ⟨a, ha, k, by show nbr w2 a k = _; rw [hnb2, if_neg (hkeep2 a ha k ep hk), hk]⟩
    · intro a k ep he
      show nbr w2 a k = _
      rw [hnb2, if_neg (hkeep2' a k ep he), he]
    · intro a ha k hov
      left
      show nbr w2 a k = _
      rw [hnb2, if_neg]
      intro hA
      rw [hslot a k hA] at hov
      exact hnov hov

open Classical in
/-- the faces of elements that have no edge object yet and belong to three or more elements -/
noncomputable def pending (els : List Nat) (tv : Nat → Fin 3 → Nat) (w : World T) : Finset (Nat × Fin 3) :=
  (els.toFinset ×ˢ Finset.univ).filter fun x => Over els tv (fc (tv x.1) x.2) ∧ nbr w x.1 x.2 = none

theorem mem_pending {els tv} {w : World T} {a : Nat} {i : Fin 3} :
    (a, i) ∈ pending els tv w ↔ a ∈ els ∧ Over els tv (fc (tv a) i) ∧ nbr w a i = none := by
  simp [pending]

/-- what is known after some of the steps, with or without an exception -/
structure Upto (els : List Nat) (tv : Nat → Fin 3 → Nat) (w : World T) (P : World T → Prop) (r : World T × Option Exc) : Prop where
  kb : KB els tv r.1
  V : r.1.V = w.V
  vs : r.1.vertices = w.vertices
  mono : ∀ a k ep, nbr w a k = some ep → nbr r.1 a k = some ep
  fine : r.2 = none → pending els tv r.1 = pending els tv w ∧ P r.1
  thrown : r.2 ≠ none → r.2 = some .tooManySharedFaces ∧ ∃ x ∈ pending els tv w, pending els tv r.1 = (pending els tv w).erase x

theorem upto_face {els tv} {w : World T} {P : World T → Prop} {r : World T × Option Exc} (h : Upto els tv w P r) {S : Nat} (hS : S ∈ els) (i : Fin 3)
    (Q : World T → Prop) (hQ : ∀ u u' : World T, P u → (∀ a k ep, nbr u a k = some ep → nbr u' a k = some ep) → (∃ ep, nbr u' S i = some ep) → Q u') :
    Sat (setupFaceK S i r) (Upto els tv w Q) noErr := by
  obtain ⟨u, t⟩ := r
  cases t with
  | some k =>
    rw [setupFaceK_stop]
    exact ⟨h.kb, h.V, h.vs, h.mono, fun hh => (by cases hh), h.thrown⟩
  | none =>
    refine Sat.mono (setupFaceK_spec h.kb hS i) ?_ (fun e he => he)
    rintro ⟨u', t'⟩ ⟨k1, k2, k3, k4, k5, k6, k7, k8⟩
    obtain ⟨f1, f2⟩ := h.fine rfl
    simp only at k1 k2 k3 k4 k5 k6 k7 k8 f1 f2
    refine ⟨k1, k4.trans h.V, k5.trans h.vs, fun a k ep he => k3 a k ep (h.mono a k ep he), ?_, ?_⟩
    · intro ht
      simp only at ht
      refine ⟨?_, hQ u u' f2 k3 k2⟩
      rw [← f1]
      ext ⟨a, k⟩
      rw [mem_pending, mem_pending]
      refine and_congr_right fun ha => and_congr_right fun ho => ?_
      rcases k6 a ha k ho with he | ⟨rfl, rfl⟩
      · rw [he]
      · have hns : nbr u a k ≠ none := fun hn => k8.2 ⟨ho, hn⟩ ht
        obtain ⟨ep, hep⟩ := k2
        simp [hns, hep]
    · intro ht
      simp only at ht
      obtain ⟨ho, hn⟩ := k8.1 ht
      refine ⟨k7.resolve_left ht, (S, i), by rw [← f1, mem_pending]; exact ⟨hS, ho, hn⟩, ?_⟩
      rw [← f1]
      ext ⟨a, k⟩
      rw [Finset.mem_erase, mem_pending, mem_pending]
      obtain ⟨ep, hep⟩ := k2
      by_cases hA : a = S ∧ k = i
      · obtain ⟨rfl, rfl⟩ := hA
        simp [hep]
      · have hA' : (a, k) ≠ (S, i) := fun hh => hA (by simpa using hh)
        simp only [hA', ne_eq, not_false_eq_true, true_and]
        refine and_congr_right fun ha => and_congr_right fun ho' => ?_
        rcases k6 a ha k ho' with he | he
        · rw [he]
        · exact absurd he hA

theorem setupNeighborsK_spec {els tv} {w : World T} (h : KB els tv w) :
    Sat (setupNeighborsK w) (Upto els tv w fun w' => ∀ a ∈ els, ∀ i : Fin 3, ∃ ep, nbr w' a i = some ep) noErr := by
  unfold setupNeighborsK
  rw [h.els_eq]
  refine Sat.mono (sat_forList (fun pre r => Upto els tv w (fun w' => ∀ a ∈ pre, ∀ i : Fin 3, ∃ ep, nbr w' a i = some ep) r) els
    ⟨h, rfl, rfl, fun _ _ _ he => he, fun _ => ⟨rfl, fun a ha => absurd ha (by simp)⟩, fun hh => absurd rfl hh⟩ ?_) (fun w' hw => hw) (fun e he => he)
  intro pre S suf r hsplit hr
  have hS : S ∈ els := by rw [hsplit]; simp
  refine Sat.mono (sat_forRange (fun k r => Upto els tv w (fun w' => (∀ a ∈ pre, ∀ i : Fin 3, ∃ ep, nbr w' a i = some ep) ∧
    ∀ i : Fin 3, (i : Nat) < k → ∃ ep, nbr w' S i = some ep) r) (Nat.zero_le 3)
    ⟨hr.kb, hr.V, hr.vs, hr.mono, fun hh => ⟨(hr.fine hh).1, (hr.fine hh).2, fun i hi => absurd hi (by omega)⟩, hr.thrown⟩ ?_) ?_ (fun e he => he)
  · intro k r _ hk hr
    refine upto_face hr hS ⟨k, hk⟩ _ ?_
    rintro u u' ⟨g1, g2⟩ hm hset
    refine ⟨fun a ha i => ?_, fun i hi => ?_⟩
    · obtain ⟨ep, he⟩ := g1 a ha i
      exact ⟨ep, hm a i ep he⟩
    · by_cases hik : (i : Nat) = k
      · obtain ⟨ep, he⟩ := hset
        exact ⟨ep, by rw [hik]; exact he⟩
      · obtain ⟨ep, he⟩ := g2 i (by omega)
        exact ⟨ep, hm S i ep he⟩
  · intro r hr
    refine ⟨hr.kb, hr.V, hr.vs, hr.mono, fun hh => ⟨(hr.fine hh).1, fun a ha i => ?_⟩, hr.thrown⟩
    rcases List.mem_append.1 ha with ha | ha
    · exact (hr.fine hh).2.1 a ha i
    · rw [List.mem_singleton] at ha
      subst ha
      exact (hr.fine hh).2.2 i i.2

end World
end NS

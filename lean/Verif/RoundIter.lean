/-
The sweeps of `jacobi` and `sor` (`Verif/CxIterativeModel.lean`, run over a number type that rounds): lemmas for
`Verif/Props/RoundIter.lean` (C96).
-/
import Verif.RoundOps
import Verif.CxIterativeModel
import Verif.VecLemmas
import Mathlib.Tactic.Linarith
import Mathlib.Tactic.Ring
import Mathlib.Tactic.FieldSimp

set_option linter.unusedSectionVars false
set_option linter.unusedSimpArgs false

namespace NS.Rounding
open NS NS.MatOps NS.LawfulStore

variable {F K : Type} [Zero F] [One F] [Add F] [Sub F] [Mul F] [Div F] [Field K] [LinearOrder K] [IsStrictOrderedRing K]
variable {fl : F → K} {u : K} [DecidableEq F]
variable {M : Type} [MatOps M F] [LawfulStore M F] {n : Nat}

/-- the row loop shared by both methods: `v j` is the value used for unknown `j` -/
theorem row_loop (v : Nat → F) (i : Nat) (get' : Nat → R F) : ∀ (l : List (Nat × Nat × F)) (s : F × F),
    (∀ e ∈ l, e.2.1 ≠ i → get' e.2.1 = .ok (v e.2.1)) → l.Pairwise (fun a b => a.2.1 < b.2.1) →
    (forList l s fun e s => if e.2.1 ≠ i then do let xv ← get' e.2.1; return (s.1, s.2 + e.2.2 * xv) else return (e.2.2, s.2))
      = .ok (((l.filter fun e => decide (e.2.1 = i)).map (fun e => e.2.2)).getLastD s.1,
          (l.filter fun e => decide (e.2.1 ≠ i)).foldl (fun t e => t + e.2.2 * v e.2.1) s.2)
  | [], s, _, _ => rfl
  | e :: l, s, h, hp => by
      obtain ⟨hp1, hp2⟩ := List.pairwise_cons.1 hp
      have ih := row_loop v i get' l
      simp only [pure_eq_ok] at ih
      simp only [forList]
      by_cases he : e.2.1 = i
      · rw [if_neg (by simpa using he)]
        simp only [pure_eq_ok, ok_bind]
        rw [ih _ (fun e' h' => h e' (by simp [h'])) hp2, List.filter_cons_of_pos (by simpa using he),
          List.filter_cons_of_neg (by simpa using he)]
        have : l.filter (fun e => decide (e.2.1 = i)) = [] := by
          rw [List.filter_eq_nil_iff]
          intro e' h'
          have := hp1 e' h'
          simp only [decide_eq_true_eq]; omega
        rw [this]; rfl
      · rw [if_pos he, h e (by simp) he]
        simp only [pure_eq_ok, ok_bind]
        rw [ih _ (fun e' h' => h e' (by simp [h'])) hp2, List.filter_cons_of_neg (by simpa using he),
          List.filter_cons_of_pos (by simpa using he), List.foldl_cons]

/-- one row: the diagonal entry and the rounded sum over the other entries -/
theorem row_round' (h : Std fl u) {m : M} (hm : Sq n m) {i : Nat} (hi : i < n) (hd : val m i i ≠ 0) (v : Nat → F) (get' : Nat → R F)
    (hv : ∀ j, j < n → j ≠ i → get' j = .ok (v j)) :
    ∃ (l : List (Nat × Nat × F)) (s : F) (t : Nat → K), rowEntries m i = .ok l ∧ (∀ j, Th u (n - 1) (t j)) ∧
      (forList l ((0 : F), (0 : F)) fun e s =>
        if e.2.1 ≠ i then do let xv ← get' e.2.1; return (s.1, s.2 + e.2.2 * xv) else return (e.2.2, s.2)) = .ok (val m i i, s) ∧
      fl s = ∑ j ∈ Finset.range n, if j = i then 0 else fl (val m i j) * fl (v j) * t j := by
  obtain ⟨l, l1, l2, l3, l4⟩ := LawfulStore.rowEntries_ok hm.1 (by rw [hm.hr]; exact hi)
  rw [hm.hc] at l3 l4
  have hpw : l.Pairwise (fun x y => x.2.1 ≠ y.2.1) := l2.imp Nat.ne_of_lt
  have hrun := row_loop v i get' l (0, 0) (fun e he hne => hv _ (l3 e he).2.1 hne) l2
  have hdiag : ((l.filter fun e => decide (e.2.1 = i)).map (fun e => e.2.2)).getLastD 0 = val m i i := by
    have hmem : (i, i, val m i i) ∈ l := l4 i hi hd
    have hall : ∀ x ∈ (l.filter fun e => decide (e.2.1 = i)).map (fun e => e.2.2), x = val m i i := by
      intro x hx
      obtain ⟨e, he, rfl⟩ := List.mem_map.1 hx
      obtain ⟨he1, he2⟩ := List.mem_filter.1 he
      have he2 : e.2.1 = i := by simpa using he2
      rw [(l3 e he1).2.2, he2]
    have hne : (l.filter fun e => decide (e.2.1 = i)).map (fun e => e.2.2) ≠ [] := by
      intro h0
      have : (l.filter fun e => decide (e.2.1 = i)) = [] := List.map_eq_nil_iff.1 h0
      rw [List.filter_eq_nil_iff] at this
      exact this _ hmem (by simp)
    rw [List.getLastD_eq_getLast?, List.getLast?_eq_some_getLast hne, Option.getD_some]
    exact hall _ (List.getLast_mem hne)
  rw [hdiag] at hrun
  set li := l.filter (fun e => decide (e.2.1 ≠ i)) with hli
  have hpl : li.Pairwise (fun x y => x.2.1 ≠ y.2.1) := hpw.sublist List.filter_sublist
  obtain ⟨t, t1, t2⟩ := h.sumFold_zero (fun e => e.2.1) (fun e : Nat × Nat × F => e.2.2 * v e.2.1) li hpl
  choose d d1 d2 using fun j : Nat => h.mul_th (val m i j) (v j)
  have hm' : ∀ e ∈ li, e ∈ l ∧ e.2.1 ≠ i := fun e he => by simpa [hli] using he
  have hlen : li.length ≤ n - 1 := by
    have := length_le_of_keys (S := (Finset.range n).erase i) hpl fun e he => by
      rw [Finset.mem_erase, Finset.mem_range]
      exact ⟨(hm' e he).2, (l3 e (hm' e he).1).2.1⟩
    rwa [Finset.card_erase_of_mem (Finset.mem_range.2 hi), Finset.card_range] at this
  have hfl : ∀ e ∈ li, fl (e.2.2 * v e.2.1) * t e.2.1 = fl (val m i e.2.1) * fl (v e.2.1) * (d e.2.1 * t e.2.1) := by
    intro e he
    rw [(l3 e (hm' e he).1).2.2, d2]; ring
  have hsum := filter_sum (l := l) (i := i) (n := n) (a := fun j => val m i j) (K := K) hpw l3 (fun j hj hne => l4 j hj hne)
    (fun j => decide (j ≠ i)) (fun j => fl (val m i j) * fl (v j) * (d j * t j)) (fun j hj => by rw [hj, h.zero]; ring)
  rw [← hli] at hsum
  have hif : ∀ g : Nat → K, (∑ j ∈ Finset.range n, if decide (j ≠ i) = true then g j else 0)
      = ∑ j ∈ Finset.range n, if j = i then 0 else g j := fun g =>
    Finset.sum_congr rfl fun j _ => by by_cases hj : j = i <;> simp [hj]
  rw [hif] at hsum
  by_cases h0 : li.length = 0
  · refine ⟨l, _, fun _ => 1, l1, fun _ => h.th_one, hrun, ?_⟩
    have hnil : li = [] := List.length_eq_zero_iff.1 h0
    rw [hnil, List.foldl_nil, h.zero]
    symm
    refine Finset.sum_eq_zero fun j hj => ?_
    by_cases hji : j = i
    · rw [if_pos hji]
    rw [if_neg hji]
    have : val m i j = 0 := by
      by_contra hne
      have : (i, j, val m i j) ∈ li := by
        rw [hli, List.mem_filter]
        exact ⟨l4 j (Finset.mem_range.1 hj) hne, by simpa using hji⟩
      rw [hnil] at this
      exact absurd this (by simp)
    rw [this, h.zero]; ring
  · refine ⟨l, _, fun j => d j * t j, l1, fun j => ?_, hrun, ?_⟩
    · exact h.th_mono ((d1 j).mul h.u_lt (t1 j)) (by omega)
    · rw [t2, List.map_congr_left hfl, hsum]

/-- one perturbed row step: distance of the new value to the solution -/
theorem row_err {n : Nat} {A : Fin n → K} {i : Fin n} (hd : A i ≠ 0) {b q g E Z θ : K} {z v t : Fin n → K}
    (hq : (∑ j, if j = i then 0 else |A j|) ≤ q * |A i|) (hz : ∑ j, A j * z j = b) (hZ : ∀ j, |z j| ≤ Z)
    (hv : ∀ j, j ≠ i → |v j - z j| ≤ E) (hE : 0 ≤ E) (hZ0 : 0 ≤ Z) (hg : 0 ≤ g) (h1 : |θ - 1| ≤ g) (h2 : ∀ j, |θ * t j - 1| ≤ g) :
    |θ * ((b - ∑ j, if j = i then 0 else A j * v j * t j) / A i) - z i| ≤ q * ((1 + g) * E + 2 * g * Z) + g * Z := by
  have hpos : 0 < |A i| := abs_pos.2 hd
  have hb : b = A i * z i + ∑ j, if j = i then 0 else A j * z j := by
    rw [← hz, ← Finset.sum_erase_add _ _ (Finset.mem_univ i), add_comm]
    congr 1
    rw [← Finset.sum_erase_add (a := i) Finset.univ (fun j => if j = i then 0 else A j * z j) (Finset.mem_univ i), if_pos rfl, add_zero]
    exact Finset.sum_congr rfl fun j hj => by rw [if_neg (Finset.ne_of_mem_erase hj)]
  have e : A i * (θ * ((b - ∑ j, if j = i then 0 else A j * v j * t j) / A i) - z i)
      = (θ - 1) * (A i * z i) + ∑ j, if j = i then 0 else A j * (θ * z j - θ * t j * v j) := by
    have : A i * (θ * ((b - ∑ j, if j = i then 0 else A j * v j * t j) / A i) - z i)
        = θ * (b - ∑ j, if j = i then 0 else A j * v j * t j) - A i * z i := by field_simp
    rw [this, hb]
    have e2 : (∑ j, if j = i then 0 else A j * (θ * z j - θ * t j * v j))
        = θ * (∑ j, if j = i then 0 else A j * z j) - θ * ∑ j, if j = i then 0 else A j * v j * t j := by
      rw [Finset.mul_sum, Finset.mul_sum, ← Finset.sum_sub_distrib]
      refine Finset.sum_congr rfl fun j _ => ?_
      split
      · ring
      · ring
    rw [e2]; ring
  have hc : ∀ j, j ≠ i → |θ * z j - θ * t j * v j| ≤ (1 + g) * E + 2 * g * Z := by
    intro j hj
    have e3 : θ * z j - θ * t j * v j = -(θ * t j) * (v j - z j) + ((θ - 1) - (θ * t j - 1)) * z j := by ring
    rw [e3]
    refine (abs_add_le _ _).trans ?_
    rw [abs_mul, abs_mul, abs_neg]
    have k1 : |θ * t j| ≤ 1 + g := by
      have : θ * t j = 1 + (θ * t j - 1) := by ring
      rw [this]
      refine (abs_add_le _ _).trans ?_
      rw [abs_one]; linarith [h2 j]
    have k2 : |(θ - 1) - (θ * t j - 1)| ≤ 2 * g := by
      refine (abs_sub _ _).trans ?_
      linarith [h2 j]
    exact add_le_add (mul_le_mul k1 (hv j hj) (abs_nonneg _) (by linarith)) (mul_le_mul k2 (hZ j) (abs_nonneg _) (by linarith))
  set C := (1 + g) * E + 2 * g * Z with hC
  have hC0 : 0 ≤ C := by positivity
  have key : |A i| * |θ * ((b - ∑ j, if j = i then 0 else A j * v j * t j) / A i) - z i| ≤ |A i| * (q * C + g * Z) := by
    rw [← abs_mul, e]
    refine (abs_add_le _ _).trans ?_
    have k1 : |(θ - 1) * (A i * z i)| ≤ g * (|A i| * Z) := by
      rw [abs_mul, abs_mul (A i)]
      exact mul_le_mul h1 (mul_le_mul_of_nonneg_left (hZ i) hpos.le) (by positivity) hg
    have k2 : |∑ j, if j = i then 0 else A j * (θ * z j - θ * t j * v j)| ≤ (q * |A i|) * C := by
      refine (Finset.abs_sum_le_sum_abs _ _).trans ?_
      refine le_trans ?_ (mul_le_mul_of_nonneg_right hq hC0)
      rw [Finset.sum_mul]
      refine Finset.sum_le_sum fun j _ => ?_
      by_cases hj : j = i
      · simp [hj]
      · rw [if_neg hj, if_neg hj, abs_mul]
        exact mul_le_mul_of_nonneg_left (hc j hj) (abs_nonneg _)
    calc _ ≤ g * (|A i| * Z) + q * |A i| * C := add_le_add k1 k2
      _ = |A i| * (q * C + g * Z) := by ring
  exact le_of_mul_le_mul_left key hpos

/-! ## The sweeps -/
section sweeps
variable {A : Fin n → Fin n → K}

/-- what one row of `jacobi` computes -/
def JacRow (fl : F → K) (u : K) (A : Fin n → Fin n → K) (b x : List F) (y : F) (i : Fin n) : Prop :=
  ∃ (θ : K) (t : Nat → K), Th u 2 θ ∧ (∀ j, Th u (n - 1) (t j)) ∧
    fl y = θ * ((fl (b.getD i 0) - ∑ j : Fin n, if j = i then 0 else A i j * fl (x.getD j 0) * t j) / A i i)

theorem jacobiSweep_round (h : Std fl u) {a : M} (ha : Sq n a) (hA : ∀ i j : Fin n, fl (val a i j) = A i j)
    (hd : ∀ i, A i i ≠ 0) {b x xm : List F} (hb : b.length = n) (hx : x.length = n) (hxm : xm.length = n) :
    ∃ y, CxIterative.jacobiSweep a b x xm = .ok y ∧ y.length = n ∧ ∀ i : Fin n, JacRow fl u A b x (y.getD i 0) i := by
  unfold CxIterative.jacobiSweep
  rw [ha.hr]
  apply Sat.ok_of
  refine (sat_forRange (E := noErr) (fun k (y : List F) => y.length = n ∧ ∀ i : Fin n, i.val < k → JacRow fl u A b x (y.getD i 0) i)
    (Nat.zero_le n) ⟨hxm, fun i hi => by omega⟩ ?_).mono (fun y hy => ⟨hy.1, fun i => hy.2 i i.2⟩) (fun _ h => h)
  rintro i y - hi ⟨y1, y2⟩
  have hdi : val a i i ≠ 0 := fun h0 => hd ⟨i, hi⟩ (by rw [← hA, h0, h.zero])
  obtain ⟨l, s, t, l1, l2, l3, l4⟩ := row_round' h ha hi hdi (fun j => x.getD j 0) (fun j => vecAt x j)
    (fun j hj _ => vecAt_get (by omega))
  rw [l1, ok_bind]
  have l3' : CxIterative.jacobiRow x i l = .ok (val a i i, s) := l3
  rw [l3', ok_bind, vecAt_get (by omega), ok_bind]
  simp only [fdiv, if_neg hdi, ok_bind]
  rw [vecSet_set _ (by omega)]
  refine ⟨by simpa using y1, fun k hk => ?_⟩
  rw [getD_set _ _ _ _ (by omega)]
  by_cases hki : k.val = i
  · rw [if_pos hki]
    obtain ⟨d1, e1, e2⟩ := h.sub_th (b.getD i 0) s
    obtain ⟨d2, e3, e4⟩ := h.div_th (b.getD i 0 - s) (val a i i) (fun h0 => hdi (h.eq_zero.1 h0))
    refine ⟨d1 * d2, t, e1.mul h.u_lt e3, l2, ?_⟩
    obtain rfl : k = ⟨i, hi⟩ := Fin.ext hki
    rw [e4, e2, l4, Finset.sum_range]
    have hAi : fl (val a i i) = A ⟨i, hi⟩ ⟨i, hi⟩ := hA ⟨i, hi⟩ ⟨i, hi⟩
    have hs : ∀ j : Fin n, (if (j : Nat) = i then 0 else fl (val a i j) * fl (x.getD j 0) * t j)
        = if j = (⟨i, hi⟩ : Fin n) then 0 else A ⟨i, hi⟩ j * fl (x.getD j 0) * t j := by
      intro j
      have : fl (val a i j) = A ⟨i, hi⟩ j := hA ⟨i, hi⟩ j
      rw [this]
      by_cases hj : (j : Nat) = i
      · rw [if_pos hj, if_pos (Fin.ext hj)]
      · rw [if_neg hj, if_neg (fun hh => hj (congrArg Fin.val hh))]
    rw [Finset.sum_congr rfl fun j _ => hs j, hAi]
    ring
  · rw [if_neg hki]; exact y2 k (by omega)

/-- what one row of `sor` computes -/
def SorRow (fl : F → K) (u : K) (A : Fin n → Fin n → K) (w : K) (b base x y : List F) (i : Fin n) : Prop :=
  ∃ (θ₁ θ₂ : K) (t : Nat → K), Th u 3 θ₁ ∧ Th u 4 θ₂ ∧ (∀ j, Th u (n - 1) (t j)) ∧
    fl (y.getD i 0) = (1 - w) * (θ₁ * fl (base.getD i 0)) + w * (θ₂ * ((fl (b.getD i 0) -
      ∑ j : Fin n, if j = i then 0 else A i j * (if j < i then fl (y.getD j 0) else fl (x.getD j 0)) * t j) / A i i))

theorem sorSweep_round (h : Std fl u) {a : M} (ha : Sq n a) (hA : ∀ i j : Fin n, fl (val a i j) = A i j)
    (hd : ∀ i, A i i ≠ 0) (w : F) {b x xm : List F} (hb : b.length = n) (hx : x.length = n) (hxm : xm.length = n) :
    ∃ y, CxIterative.sorSweep w a b x xm = .ok y ∧ y.length = n ∧ ∀ i : Fin n, SorRow fl u A (fl w) b xm x y i := by
  unfold CxIterative.sorSweep
  rw [ha.hr]
  apply Sat.ok_of
  refine (sat_forRange (E := noErr) (fun k (y : List F) => y.length = n ∧ (∀ i, k ≤ i → y.getD i 0 = xm.getD i 0) ∧
    ∀ i : Fin n, i.val < k → SorRow fl u A (fl w) b xm x y i)
    (Nat.zero_le n) ⟨hxm, fun i _ => rfl, fun i hi => by omega⟩ ?_).mono (fun y hy => ⟨hy.1, fun i => hy.2.2 i i.2⟩) (fun _ h => h)
  rintro i y - hi ⟨y1, y2, y3⟩
  have hdi : val a i i ≠ 0 := fun h0 => hd ⟨i, hi⟩ (by rw [← hA, h0, h.zero])
  obtain ⟨l, s, t, l1, l2, l3, l4⟩ := row_round' h ha hi hdi (fun j => if j < i then y.getD j 0 else x.getD j 0)
    (fun j => if j < i then vecAt y j else vecAt x j) (fun j hj _ => by
      by_cases hji : j < i
      · simp only [if_pos hji]; exact vecAt_get (by omega)
      · simp only [if_neg hji]; exact vecAt_get (by omega))
  rw [l1, ok_bind]
  have l3' : CxIterative.sorRow x y i l = .ok (val a i i, s) := by
    rw [← l3]
    unfold CxIterative.sorRow
    congr 1
    funext e s
    rcases lt_trichotomy e.2.1 i with hlt | heq | hgt
    · rw [if_pos hlt, if_pos (by omega), if_pos hlt]
    · rw [if_neg (by omega), if_neg (by omega), if_neg (by omega)]
    · rw [if_neg (by omega), if_pos hgt, if_pos (by omega), if_neg (by omega)]
  rw [l3', ok_bind, vecAt_get (by omega), ok_bind]
  simp only [fdiv, if_neg hdi, ok_bind]
  rw [vecAt_get (by omega), ok_bind, vecSet_set _ (by omega)]
  set new := (1 - w) * y.getD i 0 + w * ((b.getD i 0 - s) / val a i i) with hnew
  have hget : ∀ j, (y.set i new).getD j 0 = if j = i then new else y.getD j 0 := fun j => getD_set _ _ _ _ (by omega)
  refine ⟨by simpa using y1, fun k hk => ?_, fun k hk => ?_⟩
  · rw [hget, if_neg (by omega)]; exact y2 k (by omega)
  by_cases hki : k.val = i
  · obtain rfl : k = ⟨i, hi⟩ := Fin.ext hki
    obtain ⟨d1, e1, e2⟩ := h.sub_th (b.getD i 0) s
    obtain ⟨d2, e3, e4⟩ := h.div_th (b.getD i 0 - s) (val a i i) (fun h0 => hdi (h.eq_zero.1 h0))
    obtain ⟨d3, e5, e6⟩ := h.sub_th 1 w
    obtain ⟨d4, e7, e8⟩ := h.mul_th (1 - w) (y.getD i 0)
    obtain ⟨d5, e9, e10⟩ := h.mul_th w ((b.getD i 0 - s) / val a i i)
    obtain ⟨d6, e11, e12⟩ := h.add_th ((1 - w) * y.getD i 0) (w * ((b.getD i 0 - s) / val a i i))
    refine ⟨d3 * d4 * d6, d1 * d2 * d5 * d6, t, (e5.mul h.u_lt e7).mul h.u_lt e11,
      ((e1.mul h.u_lt e3).mul h.u_lt e9).mul h.u_lt e11, l2, ?_⟩
    have hfn : fl new = _ := e12
    have y2' : fl (y.getD i 0) = fl (xm.getD i 0) := by rw [y2 i le_rfl]
    show fl ((y.set i new).getD i 0) = _
    rw [hget, if_pos rfl, hfn, e8, e6, e10, e4, e2, l4, h.one, y2', Finset.sum_range]
    have hAi : fl (val a i i) = A ⟨i, hi⟩ ⟨i, hi⟩ := hA ⟨i, hi⟩ ⟨i, hi⟩
    have hs : ∀ j : Fin n, (if (j : Nat) = i then 0 else
          fl (val a i j) * fl (if (j : Nat) < i then y.getD j 0 else x.getD j 0) * t j)
        = if j = (⟨i, hi⟩ : Fin n) then 0 else A ⟨i, hi⟩ j *
          (if j < (⟨i, hi⟩ : Fin n) then fl ((y.set i new).getD j 0) else fl (x.getD j 0)) * t j := by
      intro j
      have : fl (val a i j) = A ⟨i, hi⟩ j := hA ⟨i, hi⟩ j
      rw [this]
      by_cases hj : (j : Nat) = i
      · rw [if_pos hj, if_pos (Fin.ext hj)]
      · rw [if_neg hj, if_neg (fun hh => hj (congrArg Fin.val hh)), hget, if_neg hj]
        by_cases hlt : (j : Nat) < i
        · rw [if_pos hlt, if_pos (show j < (⟨i, hi⟩ : Fin n) from hlt)]
        · rw [if_neg hlt, if_neg (show ¬ j < (⟨i, hi⟩ : Fin n) from hlt)]
    rw [Finset.sum_congr rfl fun j _ => hs j, hAi]
    ring
  · obtain ⟨θ₁, θ₂, t', a1, a2, a3, a4⟩ := y3 k (by omega)
    refine ⟨θ₁, θ₂, t', a1, a2, a3, ?_⟩
    rw [hget, if_neg hki, a4]
    congr 5
    refine Finset.sum_congr rfl fun j _ => ?_
    by_cases hlt : j < k
    · have : (j : Nat) < k := hlt
      simp only [if_pos hlt, hget, if_neg (show ¬ (j : Nat) = i by omega)]
    · rw [if_neg hlt, if_neg hlt]

/-- the two error constants: `z` is the solution, `Z` bounds its components -/
theorem JacRow.err (hu0 : 0 ≤ u) (hu : u < 1) {i : Fin n} {b x : List F} {y : F} (hr : JacRow fl u A b x y i) (hd : A i i ≠ 0) {q E Z : K}
    {z : Fin n → K} (hq : (∑ j, if j = i then 0 else |A i j|) ≤ q * |A i i|) (hz : ∑ j, A i j * z j = fl (b.getD i 0))
    (hZ : ∀ j, |z j| ≤ Z) (hx : ∀ j : Fin n, |fl (x.getD j 0) - z j| ≤ E) :
    |fl y - z i| ≤ q * ((1 + gam u (n + 1)) * E + 2 * gam u (n + 1) * Z) + gam u (n + 1) * Z := by
  obtain ⟨θ, t, h1, h2, h3⟩ := hr
  have hn := i.2
  rw [h3]
  have hθ : |θ - 1| ≤ gam u (n + 1) := (h1.mono hu0 hu (by omega : 2 ≤ n + 1)).abs_sub hu
  have ht : ∀ j : Fin n, |θ * t j - 1| ≤ gam u (n + 1) := fun j => by
    have := h1.mul hu (h2 j)
    exact (this.mono hu0 hu (by omega)).abs_sub hu
  exact row_err hd hq hz hZ (fun j _ => hx j) ((abs_nonneg _).trans (hx i)) ((abs_nonneg _).trans (hZ i)) (gam_nonneg hu0 hu) hθ ht

theorem SorRow.err (hu0 : 0 ≤ u) (hu : u < 1) {i : Fin n} {b base x y : List F} {w : K} (hr : SorRow fl u A w b base x y i)
    (hd : A i i ≠ 0) (hw0 : 0 ≤ w) (hw1 : w ≤ 1) {q E Z : K}
    {z : Fin n → K} (hq : (∑ j, if j = i then 0 else |A i j|) ≤ q * |A i i|) (hz : ∑ j, A i j * z j = fl (b.getD i 0))
    (hZ : ∀ j, |z j| ≤ Z) (hx : ∀ j : Fin n, i < j → |fl (x.getD j 0) - z j| ≤ E) (hb : |fl (base.getD i 0) - z i| ≤ E)
    (hy : ∀ j : Fin n, j < i → |fl (y.getD j 0) - z j| ≤ E) :
    |fl (y.getD i 0) - z i| ≤ (1 - w) * ((1 + gam u (n + 3)) * E + gam u (n + 3) * Z) +
      w * (q * ((1 + gam u (n + 3)) * E + 2 * gam u (n + 3) * Z) + gam u (n + 3) * Z) := by
  obtain ⟨θ₁, θ₂, t, h1, h2, h3, h4⟩ := hr
  have hn := i.2
  have hE : 0 ≤ E := (abs_nonneg _).trans hb
  have hZ0 : 0 ≤ Z := (abs_nonneg _).trans (hZ i)
  set g := gam u (n + 3) with hg
  have hg0 : 0 ≤ g := gam_nonneg hu0 hu
  have k1 : |θ₁ - 1| ≤ g := (h1.mono hu0 hu (by omega : 3 ≤ n + 3)).abs_sub hu
  have k2 : |θ₂ - 1| ≤ g := (h2.mono hu0 hu (by omega : 4 ≤ n + 3)).abs_sub hu
  have k3 : ∀ j : Fin n, |θ₂ * t j - 1| ≤ g := fun j => ((h2.mul hu (h3 j)).mono hu0 hu (by omega)).abs_sub hu
  have r1 := row_err (v := fun j => if j < i then fl (y.getD j 0) else fl (x.getD j 0)) hd hq hz hZ (fun j hj => by
    by_cases hlt : j < i
    · simp only [if_pos hlt]; exact hy j hlt
    · simp only [if_neg hlt]; exact hx j (lt_of_le_of_ne (not_lt.1 hlt) hj.symm)) hE hZ0 hg0 k2 k3
  have r2 : |θ₁ * fl (base.getD i 0) - z i| ≤ (1 + g) * E + g * Z := by
    have e : θ₁ * fl (base.getD i 0) - z i = (1 + (θ₁ - 1)) * (fl (base.getD i 0) - z i) + (θ₁ - 1) * z i := by ring
    rw [e]
    refine (abs_add_le _ _).trans ?_
    rw [abs_mul, abs_mul]
    have : |1 + (θ₁ - 1)| ≤ 1 + g := by
      refine (abs_add_le _ _).trans ?_
      rw [abs_one]; linarith
    exact add_le_add (mul_le_mul this hb (abs_nonneg _) (by linarith)) (mul_le_mul k1 (hZ i) (abs_nonneg _) hg0)
  rw [h4]
  set X := θ₁ * fl (base.getD i 0) with hX
  set Y := θ₂ * ((fl (b.getD i 0) - ∑ j : Fin n, if j = i then 0 else A i j *
    (if j < i then fl (y.getD j 0) else fl (x.getD j 0)) * t j) / A i i) with hY
  have e : (1 - w) * X + w * Y - z i = (1 - w) * (X - z i) + w * (Y - z i) := by ring
  rw [e]
  refine (abs_add_le _ _).trans ?_
  rw [abs_mul, abs_mul, abs_of_nonneg hw0, abs_of_nonneg (by linarith : 0 ≤ 1 - w)]
  exact add_le_add (mul_le_mul_of_nonneg_left r2 (by linarith)) (mul_le_mul_of_nonneg_left r1 hw0)
end sweeps

end NS.Rounding

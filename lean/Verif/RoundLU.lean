/-
`doolittle` in an arithmetic with rounding: loop invariant for the backward error of the factorisation.
-/
import Verif.RoundOps

set_option linter.unusedSectionVars false
set_option linter.unusedSimpArgs false

namespace NS.Rounding
open NS NS.MatOps NS.LawfulStore NS.LU

variable {F K : Type} [Zero F] [One F] [Add F] [Sub F] [Mul F] [Div F] [Field K] [LinearOrder K] [IsStrictOrderedRing K]
variable {fl : F → K} {u : K}
variable {M : Type} [MatOps M F] [LawfulStore M F] {n : Nat}

/-- Row `j` of the permuted matrix is the product of row `j` of `L` with `U`, up to rounding factors: in the columns `t >= min j k` the
current entry of `U` stands for the part not yet eliminated. -/
def RowFact (fl : F → K) (u : K) (a : Nat → K) (L U : Nat → Nat → F) (k j n : Nat) : Prop :=
  ∀ t, t < n →
    (min j k ≤ t → ∃ (τ : K) (τs : Nat → K), Th u (min j k) τ ∧ (∀ s, Th u (min j k) (τs s)) ∧
      a t = fl (U j t) * τ + ∑ s ∈ Finset.range (min j k), fl (L j s) * fl (U s t) * τs s) ∧
    (t < min j k → ∃ τs : Nat → K, (∀ s, Th u (t + 2) (τs s)) ∧
      a t = ∑ s ∈ Finset.range (t + 1), fl (L j s) * fl (U s t) * τs s)

/-- Loop invariant of `doolittle` after `k` columns. -/
structure RInv (fl : F → K) (u : K) (A : M) (n k : Nat) (s : St M) : Prop where
  sqU : Sq n s.U
  sqL : Sq n s.L
  lL : ∀ a t, k ≤ t → t < n → val s.L a t = if a = t then 1 else 0
  uL : ∀ a t, a ≤ t → t < n → val s.L a t = if a = t then 1 else 0
  bd : ∀ a t, |fl (val s.L a t)| ≤ ((1 - u) ^ 2)⁻¹
  rtl : s.rt.length = n
  perm : ∃ σ : Equiv.Perm (Fin n), (∀ i : Fin n, s.rt.getD i 0 = (σ i : Nat)) ∧
    (Equiv.Perm.sign σ : ℤ) = (-1) ^ s.pc ∧
    ∀ j : Fin n, RowFact fl u (fun t => fl (val A (σ j) t)) (val s.L) (val s.U) k j n

theorem RowFact.congr {a : Nat → K} {L U L' U' : Nat → Nat → F} {k j j' : Nat} (h : RowFact fl u a L U k j n)
    (hj : min j' k = min j k) (hU : ∀ t, min j k ≤ t → t < n → U' j' t = U j t)
    (hU' : ∀ s t, s < min j k → s ≤ t → t < n → U' s t = U s t)
    (hL : ∀ s, s < min j k → L' j' s = L j s) : RowFact fl u a L' U' k j' n := by
  intro t ht
  rw [hj]
  refine ⟨fun h1 => ?_, fun h1 => ?_⟩
  · obtain ⟨τ, τs, a1, a2, a3⟩ := (h t ht).1 h1
    refine ⟨τ, τs, a1, a2, ?_⟩
    rw [a3, hU t h1 ht]
    congr 1
    refine Finset.sum_congr rfl fun s hs => ?_
    have hs := Finset.mem_range.1 hs
    rw [hL s hs, hU' s t hs (by omega) ht]
  · obtain ⟨τs, a2, a3⟩ := (h t ht).2 h1
    refine ⟨τs, a2, ?_⟩
    rw [a3]
    refine Finset.sum_congr rfl fun s hs => ?_
    have hs := Finset.mem_range.1 hs
    rw [hL s (by omega), hU' s t (by omega) (by omega) ht]

theorem reorder_rinv {A : M} {k i : Nat} {s : St M} (h : RInv fl u A n k s) (hki : k ≤ i) (hi : i < n) :
    ∃ s', reorder s k i n = .ok s' ∧ RInv fl u A n k s' ∧
      ∀ r c, k ≤ c → val s'.U r c = val s.U (sw k i r) c := by
  by_cases hik : i = k
  · subst hik
    refine ⟨s, by simp [reorder], h, fun r c _ => ?_⟩
    unfold sw; split
    · subst_vars; rfl
    · rfl
  have hk : k < n := by omega
  obtain ⟨U', u1, u2, u3⟩ := swapSeg_ok h.sqU (k := k) (i := i) (a := k) (b := n) hk hi hik (by omega) (le_refl _)
  obtain ⟨L', l1, l2, l3⟩ := swapSeg_ok h.sqL (k := k) (i := i) (a := 0) (b := k) hk hi hik (by omega) (by omega)
  obtain ⟨rt', r1, r2, r3⟩ := swapIdx_ok (l := s.rt) (i := i) (k := k) (h.rtl ▸ hi) (h.rtl ▸ hk) hik
  have hUge : ∀ r c, k ≤ c → val U' r c = val s.U (sw k i r) c := by
    intro r c hc
    by_cases hcn : c < n
    · rw [u3, if_pos ⟨hc, hcn⟩]; unfold sw
      split <;> [rfl; split <;> rfl]
    · rw [u2.zero (by omega), h.sqU.zero (by omega)]
  have hLlt : ∀ r c, c < k → val L' r c = val s.L (sw k i r) c := by
    intro r c hc
    rw [l3, if_pos ⟨by omega, hc⟩]; unfold sw
    split <;> [rfl; split <;> rfl]
  have hLge : ∀ r c, k ≤ c → val L' r c = val s.L r c := by
    intro r c hc
    rw [l3, if_neg (by omega)]
  refine ⟨⟨U', L', rt', s.pc + 1⟩, by simp [reorder, hik, u1, l1, r1], ?_, hUge⟩
  refine ⟨u2, l2, ?_, ?_, ?_, r2.trans h.rtl, ?_⟩
  · intro a t ht htn
    show val L' a t = _
    rw [hLge _ _ ht]; exact h.lL _ _ ht htn
  · intro a t hat htn
    show val L' a t = _
    by_cases hk' : k ≤ t
    · rw [hLge _ _ hk']; exact h.lL _ _ hk' htn
    · rw [hLlt _ _ (by omega)]
      have : sw k i a = a := by unfold sw; rw [if_neg (by omega), if_neg (by omega)]
      rw [this]; exact h.uL _ _ hat htn
  · intro a t
    show |fl (val L' a t)| ≤ _
    by_cases hk' : k ≤ t
    · rw [hLge _ _ hk']; exact h.bd _ _
    · rw [hLlt _ _ (by omega)]; exact h.bd _ _
  · obtain ⟨σ, hσ, hsg, hm⟩ := h.perm
    let π : Equiv.Perm (Fin n) := Equiv.swap ⟨k, hk⟩ ⟨i, hi⟩
    refine ⟨σ * π, ?_, ?_, ?_⟩
    · intro j
      show rt'.getD j 0 = _
      have e2 : ((σ * π) j : Nat) = (σ (π j) : Nat) := rfl
      rw [r3, e2, ← hσ (π j), sw_fin hk hi]
      unfold sw
      split <;> [rfl; split <;> rfl]
    · have : Equiv.Perm.sign π = -1 := Equiv.Perm.sign_swap (by simp [Fin.ext_iff]; omega)
      rw [Equiv.Perm.sign_mul, this]
      push_cast
      rw [hsg, pow_succ]
    · intro j
      have hj : ((π j : Fin n) : Nat) = sw k i j := sw_fin hk hi j
      have hmin : min (j : Nat) k = min ((π j : Fin n) : Nat) k := by
        rw [hj]; unfold sw; split <;> [omega; split <;> omega]
      refine RowFact.congr (hm (π j)) hmin ?_ ?_ ?_
      · intro t ht htn
        show val U' j t = _
        rw [hj] at ht ⊢
        by_cases hkt : k ≤ t
        · exact hUge _ _ hkt
        · have : sw k i j = j := by
            unfold sw at ht ⊢
            split at ht
            · omega
            · split at ht
              · omega
              · rw [if_neg ‹_›, if_neg ‹_›]
          rw [this, u3, if_neg (by omega)]
      · intro s' t hs hst htn
        show val U' s' t = _
        have hsk : s' < k := by omega
        have : sw k i s' = s' := by unfold sw; rw [if_neg (by omega), if_neg (by omega)]
        by_cases hkt : k ≤ t
        · rw [hUge _ _ hkt, this]
        · rw [u3, if_neg (by omega)]
      · intro s' hs
        show val L' j s' = _
        rw [hLlt _ _ (by omega), hj]

theorem elim_rinv (h : Std fl u) {A : M} {k : Nat} {s : St M} (hs : RInv fl u A n k s) (hk : k < n)
    (hp : fl (val s.U k k) ≠ 0) (hmax : ∀ j, k ≤ j → j < n → |fl (val s.U j k)| ≤ |fl (val s.U k k)|) :
    ∃ UL : M × M, eliminate s.U s.L k n = .ok UL ∧ RInv fl u A n (k + 1) { s with U := UL.1, L := UL.2 } := by
  obtain ⟨⟨U', L'⟩, e0, sU, sL, vU, vL⟩ := eliminate_ok hs.sqU hs.sqL hk
  refine ⟨(U', L'), e0, ?_⟩
  simp only at sU sL vU vL
  obtain ⟨dm, dm1, dm2⟩ := h.div_th 1 (val s.U k k) hp
  rw [h.one] at dm2
  choose dl dl1 dl2 using fun j : Nat => h.mul_th (val s.U j k) (1 / val s.U k k)
  have hlv : ∀ j, fl (val s.U j k * (1 / val s.U k k)) = fl (val s.U j k) / fl (val s.U k k) * (dm * dl j) := by
    intro j; rw [dl2, dm2]; ring
  refine ⟨sU, sL, ?_, ?_, ?_, hs.rtl, ?_⟩
  · intro a t ht htn
    show val L' a t = _
    rw [vL, if_neg (by omega)]; exact hs.lL _ _ (by omega) htn
  · intro a t hat htn
    show val L' a t = _
    rw [vL, if_neg (by omega)]; exact hs.uL _ _ hat htn
  · intro a t
    show |fl (val L' a t)| ≤ _
    rw [vL]
    split
    · rename_i hc
      have h2 : Th u 2 (dm * dl a) := dm1.mul h.u_lt (dl1 a)
      rw [hlv, abs_mul, abs_div, abs_of_pos (h2.pos h.u_lt)]
      have h3 : |fl (val s.U a k)| / |fl (val s.U k k)| ≤ 1 :=
        (div_le_one (abs_pos.2 hp)).2 (hmax a (by omega) hc.2.1)
      calc _ ≤ 1 * (dm * dl a) := mul_le_mul_of_nonneg_right h3 (h2.pos h.u_lt).le
        _ ≤ _ := by rw [one_mul]; exact h2.2
    · exact hs.bd a t
  · obtain ⟨σ, hσ, hsg, hm⟩ := hs.perm
    refine ⟨σ, hσ, hsg, fun j => ?_⟩
    show RowFact fl u _ (val L') (val U') (k + 1) j n
    by_cases hjk : (j : Nat) ≤ k
    · have hmin : min (j : Nat) (k + 1) = min (j : Nat) k := by omega
      intro t ht
      have := RowFact.congr (L' := val L') (U' := val U') (j' := j) (hm j) rfl
        (fun t h1 h2 => by rw [vU, if_neg (by omega)])
        (fun s' t h1 h2 h3 => by rw [vU, if_neg (by omega)])
        (fun s' h1 => by rw [vL, if_neg (by omega)]) t ht
      rw [hmin]; exact this
    · have hkj : k < (j : Nat) := by omega
      have hmin : min (j : Nat) (k + 1) = k + 1 := by omega
      have hmin' : min (j : Nat) k = k := by omega
      have hLs : ∀ s', s' < k → val L' j s' = val s.L j s' := fun s' h1 => by rw [vL, if_neg (by omega)]
      have hUs : ∀ s' t, s' ≤ k → val U' s' t = val s.U s' t := fun s' t h1 => by rw [vU, if_neg (by omega)]
      have hLk : val L' j k = val s.U j k * (1 / val s.U k k) := by rw [vL, if_pos ⟨hkj, j.2, rfl⟩]
      intro t ht
      rw [hmin]
      refine ⟨fun h1 => ?_, fun h1 => ?_⟩
      · obtain ⟨τ, τs, a1, a2, a3⟩ := (hm j t ht).1 (by omega)
        rw [hmin'] at a1 a2 a3
        obtain ⟨d, d1, d2⟩ := h.mul_th (val L' j k) (val s.U k t)
        obtain ⟨e, e1, e2⟩ := h.sub_th (val s.U j t) (val L' j k * val s.U k t)
        have hU' : val U' j t = val s.U j t - val L' j k * val s.U k t := by
          rw [vU, if_pos ⟨hkj, j.2, by omega, ht⟩, hLk]
        have he := (e1.pos h.u_lt).ne'
        refine ⟨τ * e⁻¹, fun s' => if s' = k then τ * d else τs s', a1.mul h.u_lt (e1.inv h.u_lt), fun s' => ?_, ?_⟩
        · show Th u (k + 1) (if s' = k then τ * d else τs s')
          split
          · exact a1.mul h.u_lt d1
          · exact h.th_mono (a2 s') (by omega)
        · rw [a3, Finset.sum_range_succ]
          simp only [if_true]
          have hsum : ∑ s' ∈ Finset.range k, fl (val L' j s') * fl (val U' s' t) * (if s' = k then τ * d else τs s')
              = ∑ s' ∈ Finset.range k, fl (val s.L j s') * fl (val s.U s' t) * τs s' := by
            refine Finset.sum_congr rfl fun s' hs' => ?_
            have hs' := Finset.mem_range.1 hs'
            rw [if_neg (by omega), hLs s' hs', hUs s' t (by omega)]
          rw [hsum, hUs k t (le_refl _), hU', e2, d2]
          field_simp
          ring
      · by_cases htk : t = k
        · subst htk
          obtain ⟨τ, τs, a1, a2, a3⟩ := (hm j t ht).1 (by omega)
          rw [hmin'] at a1 a2 a3
          have h2 : Th u 2 (dm * dl j) := dm1.mul h.u_lt (dl1 j)
          have hne := (h2.pos h.u_lt).ne'
          refine ⟨fun s' => if s' = t then τ * (dm * dl j)⁻¹ else τs s', fun s' => ?_, ?_⟩
          · show Th u (t + 2) (if s' = t then τ * (dm * dl j)⁻¹ else τs s')
            split
            · exact a1.mul h.u_lt (h2.inv h.u_lt)
            · exact h.th_mono (a2 s') (by omega)
          · rw [a3, Finset.sum_range_succ]
            simp only [if_true]
            have hsum : ∑ s' ∈ Finset.range t, fl (val L' j s') * fl (val U' s' t) *
                  (if s' = t then τ * (dm * dl j)⁻¹ else τs s')
                = ∑ s' ∈ Finset.range t, fl (val s.L j s') * fl (val s.U s' t) * τs s' := by
              refine Finset.sum_congr rfl fun s' hs' => ?_
              have hs' := Finset.mem_range.1 hs'
              rw [if_neg (by omega), hLs s' hs', hUs s' t (by omega)]
            rw [hsum, hUs t t (le_refl _), hLk, hlv, add_comm]
            congr 1
            have n1 := (dm1.pos h.u_lt).ne'
            have n2 := ((dl1 j).pos h.u_lt).ne'
            field_simp
        · obtain ⟨τs, a2, a3⟩ := (hm j t ht).2 (by omega)
          refine ⟨τs, a2, ?_⟩
          rw [a3]
          refine Finset.sum_congr rfl fun s' hs' => ?_
          have hs' := Finset.mem_range.1 hs'
          rw [hLs s' (by omega), hUs s' t (by omega)]

theorem step_rinv (h : Std fl u) {eps : K} (heps : 0 ≤ eps) {A : M} {k : Nat} {s : St M}
    (hs : RInv fl u A n k s) (hk : k < n) :
    Sat (step (fun a => |fl a|) eps n k s) (RInv fl u A n (k + 1)) (fun e => e = .exc .singular) := by
  unfold step
  obtain ⟨⟨i, m⟩, f1, f2, f3, f4⟩ := findPivot_ok (n := n) (fun a => |fl a|) hs.sqU hk
  simp only at f2 f3 f4
  obtain ⟨s', r1, r2, r3⟩ := reorder_rinv hs f2 f3
  have hsw : sw k i k = i := by unfold sw; rw [if_pos rfl]
  have hpk : val s'.U k k = val s.U i k := by rw [r3 _ _ (le_refl _), hsw]
  have hmax : ∀ j, k ≤ j → j < n → |fl (val s'.U j k)| ≤ |fl (val s'.U k k)| := by
    intro j h1 h2
    rw [hpk, r3 _ _ (le_refl _)]
    apply f4
    · unfold sw; split <;> [omega; split <;> omega]
    · unfold sw; split <;> [omega; split <;> omega]
  simp only [f1, r1, ok_bind, r2.sqU.get hk hk]
  by_cases hle : |fl (val s'.U k k)| ≤ eps
  · rw [throwIf_true _ hle]; rfl
  · rw [throwIf_false _ hle]
    have hne : fl (val s'.U k k) ≠ 0 := by
      intro h0; rw [h0, abs_zero] at hle; exact hle heps
    obtain ⟨UL, e1, e2⟩ := elim_rinv h r2 hk hne hmax
    simp only [ok_bind, e1, pure_eq_ok, Sat_ok]
    exact e2

/-- What a successful factorisation gives. -/
structure RFact (fl : F → K) (u : K) (n : Nat) (A L U P : M) (pc : Nat) (σ : Equiv.Perm (Fin n)) : Prop where
  sqL : Sq n L
  sqU : Sq n U
  sqP : Sq n P
  lower : ∀ i j, i ≤ j → j < n → val L i j = if i = j then 1 else 0
  bound : ∀ i j, |fl (val L i j)| ≤ ((1 - u) ^ 2)⁻¹
  perm : ∀ i j : Fin n, val P i j = if j = σ i then 1 else 0
  sgn : (Equiv.Perm.sign σ : ℤ) = (-1) ^ pc
  prod : ∀ j t : Fin n, ∃ τ : Nat → K, (∀ s, Th u n (τ s)) ∧
    fl (val A (σ j) t) = ∑ s ∈ Finset.range (min (j : Nat) t + 1), fl (val L j s) * fl (val U s t) * τ s

theorem doolittleFrom_round (h : Std fl u) {eps : K} (heps : 0 ≤ eps) {A L P : M} (hA : Sq n A)
    (hL : Sq n L) (hP : Sq n P) (zL : ∀ i j, val L i j = 0) (zP : ∀ i j, val P i j = 0) :
    Sat (doolittleFrom (fun a => |fl a|) eps A L P)
      (fun r => ∃ σ, RFact fl u n A r.1 r.2.1 r.2.2.1 r.2.2.2 σ) (fun e => e = .exc .singular) := by
  have hn := hA.pos
  unfold doolittleFrom
  obtain ⟨⟨L0, rt0⟩, s1, s2, s3, s4, s5⟩ := setup_ok hL zL
  simp only at s2 s3 s4 s5
  simp only [hA.hr, s1, ok_bind]
  have hbd : ∀ i j, |fl (val L0 i j)| ≤ ((1 - u) ^ 2)⁻¹ := by
    intro i j
    have h1 := (h.th_one (n := 2)).2
    rw [s3]; split
    · rwa [h.one, abs_one]
    · rw [h.zero, abs_zero]; exact zero_le_one.trans h1
  refine Sat.bind (P := RInv fl u A n (n - 1)) ?_ ?_
  · rw [wsub_of_le (show 1 ≤ n by omega)]
    refine sat_forRange (fun k s => RInv fl u A n k s) (Nat.zero_le _) ?_ ?_
    · refine ⟨hA, s2, ?_, ?_, hbd, s4, 1, ?_, by simp, ?_⟩
      · intro a t _ htn; show val L0 a t = _; rw [s3]
        have : (a = t ∧ a < n) ↔ a = t := by omega
        simp only [this]
      · intro a t _ htn; show val L0 a t = _; rw [s3]
        have : (a = t ∧ a < n) ↔ a = t := by omega
        simp only [this]
      · intro i; exact s5 i i.2
      · intro j t ht
        refine ⟨fun _ => ⟨1, fun _ => 1, h.th_one, fun _ => h.th_one, ?_⟩, fun h1 => absurd h1 (by simp)⟩
        simp
    · intro k s _ hk hs
      exact step_rinv h heps hs (by omega)
  · intro s hs
    obtain ⟨σ, p1, psg, p2⟩ := hs.perm
    have hrt : ∀ i, i < n → s.rt.getD i 0 < n := fun i hi => by rw [p1 ⟨i, hi⟩]; exact (σ _).2
    obtain ⟨P', q1, q2, q3⟩ := buildP_ok hP zP hs.rtl hrt
    simp only [q1, ok_bind, pure_eq_ok, Sat_ok]
    refine ⟨σ, hs.sqL, hs.sqU, q2, hs.uL, hs.bd, ?_, psg, ?_⟩
    · intro i j
      rw [q3, p1]
      simp only [i.2, true_and, Fin.ext_iff]
    · intro j t
      have hmin : min (j : Nat) (n - 1) = j := by have := j.2; omega
      have := p2 j t t.2
      rw [hmin] at this
      beta_reduce at this
      by_cases hjt : (j : Nat) ≤ t
      · obtain ⟨τ, τs, a1, a2, a3⟩ := this.1 hjt
        refine ⟨fun s' => if s' = j then τ else τs s', fun s' => ?_, ?_⟩
        · show Th u n (if s' = j then τ else τs s')
          split
          · exact h.th_mono a1 j.2.le
          · exact h.th_mono (a2 s') j.2.le
        · rw [a3, min_eq_left hjt, Finset.sum_range_succ]
          simp only [if_true]
          rw [hs.uL j j (le_refl _) j.2, if_pos rfl, h.one, one_mul, add_comm]
          congr 1
          refine Finset.sum_congr rfl fun s' hs' => ?_
          rw [if_neg (by have := Finset.mem_range.1 hs'; omega)]
      · obtain ⟨τs, a2, a3⟩ := this.2 (by omega)
        refine ⟨τs, fun s' => h.th_mono (a2 s') (by have := j.2; omega), ?_⟩
        rw [a3, min_eq_right (by omega)]
end NS.Rounding

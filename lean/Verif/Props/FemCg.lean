/-
Property C109 (grid part): how many iterations the default solver of the finite element program needs on the generated grid.
-/
import Verif.GridSup
import Verif.Props.CGRate
import Verif.Props.SorRate
import Verif.Props.FemRun

set_option linter.unusedSectionVars false
set_option linter.unusedSimpArgs false

namespace NS.Props.Fem
open NS NS.World NS.Fem NS.MatOps NS.LawfulMat Matrix NS.Props.Mesh NS.Props.Shape NS.HyperCube NS.Props.HyperCube NS.Props.Iter
open NS.Props.LU (IsMat IsVec isVec_iff)
variable {M T : Type} [Field T] [LinearOrder T] [IsStrictOrderedRing T]

section matrix
variable {N : Nat} {A : Matrix (Fin ((N + 1) * (N + 1))) (Fin ((N + 1) * (N + 1))) T}

/-- the five-point matrix of C68 -/
def IsFive (N : Nat) (A : Matrix (Fin ((N + 1) * (N + 1))) (Fin ((N + 1) * (N + 1))) T) : Prop :=
  ∀ r ≤ N, ∀ c ≤ N, ∀ r' ≤ N, ∀ c' ≤ N, ∀ x y : Fin ((N + 1) * (N + 1)), (x : Nat) = r * (N + 1) + c → (y : Nat) = r' * (N + 1) + c' →
    A x y = kappa * fivePoint N r c r' c'

/-- the values inside, zero on the rim -/
def inside (N : Nat) (v : Fin ((N + 1) * (N + 1)) → T) (r c : Nat) : T := if Rim N r c then 0 else node N v r c

theorem kappa_gt : (0 : T) < kappa := by unfold kappa; norm_num

theorem decode (j : Fin ((N + 1) * (N + 1))) : (j : Nat) / (N + 1) ≤ N ∧ (j : Nat) % (N + 1) ≤ N ∧ (j : Nat) = (j : Nat) / (N + 1) * (N + 1) + (j : Nat) % (N + 1) :=
  ⟨Nat.le_of_lt_succ (Nat.div_lt_of_lt_mul j.2), Nat.le_of_lt_succ (Nat.mod_lt _ (by omega)), (Nat.div_add_mod' _ _).symm⟩

theorem not_rim {r c : Nat} (hr : r ≤ N) (hc : c ≤ N) (h : ¬ Rim N r c) : 0 < r ∧ r < N ∧ 0 < c ∧ c < N := by unfold Rim at h; omega

theorem five_diag (h : IsFive N A) {r c : Nat} (hr : r ≤ N) (hc : c ≤ N) {x : Fin ((N + 1) * (N + 1))} (hx : (x : Nat) = r * (N + 1) + c) :
    A x x = kappa * if Rim N r c then 4 * (N : T) ^ 2 / ((N + 1) * (N + 1)) else 4 := by
  rw [h r hr c hc r hr c hc x x hx hx]
  unfold fivePoint
  simp

/-- a row of the rim -/
theorem five_rim (h : IsFive N A) {r c : Nat} (hr : r ≤ N) (hc : c ≤ N) (hrim : Rim N r c) {x : Fin ((N + 1) * (N + 1))} (hx : (x : Nat) = r * (N + 1) + c)
    (v : Fin ((N + 1) * (N + 1)) → T) : (A *ᵥ v) x = A x x * v x := by
  unfold Matrix.mulVec dotProduct
  rw [Finset.sum_eq_single x]
  · intro y _ hy
    obtain ⟨y1, y2, y3⟩ := decode y
    have : A x y = 0 := by
      rw [h r hr c hc _ y1 _ y2 x y hx y3]
      unfold fivePoint
      rw [if_pos (.inl hrim), if_neg, mul_zero]
      rintro ⟨h1, h2⟩
      exact hy (Fin.ext (by rw [y3, hx, h1, h2]))
    show A x y * v y = 0
    rw [this, zero_mul]
  · intro h; exact absurd (Finset.mem_univ _) h

/-- a row inside -/
theorem five_mul (h : IsFive N A) {r c : Nat} (hr : 0 < r) (hrN : r < N) (hc : 0 < c) (hcN : c < N) {x : Fin ((N + 1) * (N + 1))}
    (hx : (x : Nat) = r * (N + 1) + c) (v : Fin ((N + 1) * (N + 1)) → T) : (A *ᵥ v) x = kappa * fiveDiff (inside N v) r c := by
  let v' : Fin ((N + 1) * (N + 1)) → T := fun y => inside N v ((y : Nat) / (N + 1)) ((y : Nat) % (N + 1))
  have hin : ∀ a b (ha : a ≤ N) (hb : b ≤ N), inside N v a b = v' ⟨vid N a b, vid_lt ha hb⟩ := by
    intro a b ha hb
    show _ = inside N v ((a * (N + 1) + b) / (N + 1)) ((a * (N + 1) + b) % (N + 1))
    have h1 : (a * (N + 1) + b) / (N + 1) = a := by
      rw [Nat.add_comm, Nat.add_mul_div_right _ _ (by omega), Nat.div_eq_of_lt (by omega), Nat.zero_add]
    have h2 : (a * (N + 1) + b) % (N + 1) = b := by
      rw [Nat.add_comm, Nat.add_mul_mod_self_right, Nat.mod_eq_of_lt (by omega)]
    rw [h1, h2]
  have ent : ∀ y : Fin ((N + 1) * (N + 1)), A x y * v y =
      kappa * (4 * (if y = ⟨vid N r c, vid_lt hrN.le hcN.le⟩ then 1 else 0) - (if y = ⟨vid N (r + 1) c, vid_lt hrN hcN.le⟩ then 1 else 0)
        - (if y = ⟨vid N (r - 1) c, vid_lt (by omega) hcN.le⟩ then 1 else 0) - (if y = ⟨vid N r (c + 1), vid_lt hrN.le hcN⟩ then 1 else 0)
        - (if y = ⟨vid N r (c - 1), vid_lt hrN.le (by omega)⟩ then 1 else 0)) * v' y := by
    intro y
    obtain ⟨y1, y2, y3⟩ := decode y
    rw [h r hrN.le c hcN.le _ y1 _ y2 x y hx y3]
    have e : ∀ a b (ha : a ≤ N) (hb : b ≤ N), (if y = ⟨vid N a b, vid_lt ha hb⟩ then (1 : T) else 0) = if (y : Nat) / (N + 1) = a ∧ (y : Nat) % (N + 1) = b then 1 else 0 := by
      intro a b ha hb
      refine if_congr ?_ rfl rfl
      rw [Fin.ext_iff]
      show (y : Nat) = vid N a b ↔ _
      constructor
      · intro hv
        have hv' : vid N ((y : Nat) / (N + 1)) ((y : Nat) % (N + 1)) = vid N a b := by rw [← hv]; exact y3.symm
        exact vid_inj y2 hb hv'
      · rintro ⟨h1, h2⟩
        rw [y3, h1, h2]; rfl
    rw [e r c hrN.le hcN.le, e (r + 1) c hrN hcN.le, e (r - 1) c (by omega) hcN.le, e r (c + 1) hrN.le hcN, e r (c - 1) hrN.le (by omega)]
    have hv' : v' y = if Rim N ((y : Nat) / (N + 1)) ((y : Nat) % (N + 1)) then 0 else v y := by
      show inside N v _ _ = _
      unfold inside
      split
      · rfl
      · rw [node_eq y1 y2]; congr 1; exact Fin.ext y3.symm
    rw [hv']
    generalize (y : Nat) / (N + 1) = r' at *
    generalize (y : Nat) % (N + 1) = c' at *
    unfold fivePoint
    have hnr : ¬ Rim N r c := by unfold Rim; omega
    by_cases hrim : Rim N r' c'
    · rw [if_pos (.inr hrim), if_pos hrim]
      rw [if_neg, mul_zero, zero_mul, mul_zero]
      rintro ⟨rfl, rfl⟩
      exact hnr hrim
    · rw [if_neg (by tauto), if_neg hrim]
      congr 2
      by_cases c0 : r' = r ∧ c' = c
      · rw [if_pos c0, if_pos c0, if_neg (by omega), if_neg (by omega), if_neg (by omega), if_neg (by omega)]; ring
      rw [if_neg c0, if_neg c0]
      by_cases c1 : r' = r + 1 ∧ c' = c
      · rw [if_pos (by omega), if_pos c1, if_neg (by omega), if_neg (by omega), if_neg (by omega)]; ring
      rw [if_neg c1]
      by_cases c2 : r' = r - 1 ∧ c' = c
      · rw [if_pos (by omega), if_pos c2, if_neg (by omega), if_neg (by omega)]; ring
      rw [if_neg c2]
      by_cases c3 : r' = r ∧ c' = c + 1
      · rw [if_pos (by omega), if_pos c3, if_neg (by omega)]; ring
      rw [if_neg c3]
      by_cases c4 : r' = r ∧ c' = c - 1
      · rw [if_pos (by omega), if_pos c4]; ring
      rw [if_neg c4, if_neg (by omega)]; ring
  rw [Matrix.mulVec, dotProduct]
  simp only [ent]
  unfold fiveDiff
  rw [hin r c hrN.le hcN.le, hin (r + 1) c hrN hcN.le, hin (r - 1) c (by omega) hcN.le, hin r (c + 1) hrN.le hcN, hin r (c - 1) hrN.le (by omega)]
  have pick : ∀ z : Fin ((N + 1) * (N + 1)), (∑ y, (if y = z then (1 : T) else 0) * v' y) = v' z := by
    intro z
    rw [Finset.sum_eq_single z]
    · simp
    · intro y _ hy; rw [if_neg hy, zero_mul]
    · intro hz; exact absurd (Finset.mem_univ _) hz
  simp only [← pick ⟨vid N r c, vid_lt hrN.le hcN.le⟩, ← pick ⟨vid N (r + 1) c, vid_lt hrN hcN.le⟩,
    ← pick ⟨vid N (r - 1) c, vid_lt (show r - 1 ≤ N by omega) hcN.le⟩,
    ← pick ⟨vid N r (c + 1), vid_lt hrN.le hcN⟩, ← pick ⟨vid N r (c - 1), vid_lt hrN.le (show c - 1 ≤ N by omega)⟩]
  rw [Finset.mul_sum, ← Finset.sum_sub_distrib, ← Finset.sum_sub_distrib, ← Finset.sum_sub_distrib, ← Finset.sum_sub_distrib, Finset.mul_sum]
  refine Finset.sum_congr rfl fun y _ => ?_
  ring
/-- an upper bound of the quadratic form of a symmetric diagonally dominant matrix without positive entries off the diagonal -/
theorem dominant_upper {n : Nat} {A : Matrix (Fin n) (Fin n) T} (hsym : Aᵀ = A) (hoff : ∀ i j, i ≠ j → A i j ≤ 0) (h1 : ∀ i, 0 ≤ (A *ᵥ fun _ => 1) i) (v : Fin n → T) :
    v ⬝ᵥ A *ᵥ v ≤ 2 * ∑ i, A i i * v i ^ 2 := by
  have g := ground_state hsym hoff (s := fun _ => 1) (fun _ => one_pos) (lam := 0) (fun i => by rw [zero_mul]; exact h1 i) (fun i => |v i|)
  rw [zero_mul] at g
  have e : v ⬝ᵥ A *ᵥ v + (fun i => |v i|) ⬝ᵥ A *ᵥ (fun i => |v i|) ≤ 2 * ∑ i, A i i * v i ^ 2 := by
    unfold dotProduct Matrix.mulVec dotProduct
    rw [← Finset.sum_add_distrib, Finset.mul_sum]
    refine Finset.sum_le_sum fun i _ => ?_
    rw [Finset.mul_sum, Finset.mul_sum, ← Finset.sum_add_distrib]
    have : ∀ j, v i * (A i j * v j) + |v i| * (A i j * |v j|) ≤ if j = i then 2 * (A i i * v i ^ 2) else 0 := by
      intro j
      by_cases hj : j = i
      · subst hj
        rw [if_pos rfl]
        exact le_of_eq (by rw [show |v j| * (A j j * |v j|) = A j j * |v j| ^ 2 by ring, sq_abs]; ring)
      · rw [if_neg hj]
        have h2 := hoff i j (Ne.symm hj)
        have h3 : 0 ≤ v i * v j + |v i| * |v j| := by
          rw [← abs_mul]
          linarith [neg_abs_le (v i * v j)]
        nlinarith
    refine (Finset.sum_le_sum fun j _ => this j).trans ?_
    rw [Finset.sum_ite_eq' Finset.univ i]
    simp
  linarith

theorem five_off (h : IsFive N A) {x y : Fin ((N + 1) * (N + 1))} (hxy : x ≠ y) : A x y ≤ 0 := by
  obtain ⟨x1, x2, x3⟩ := decode x
  obtain ⟨y1, y2, y3⟩ := decode y
  rw [h _ x1 _ x2 _ y1 _ y2 x y x3 y3]
  have hk := kappa_gt (T := T)
  have hne : ¬ ((y : Nat) / (N + 1) = (x : Nat) / (N + 1) ∧ (y : Nat) % (N + 1) = (x : Nat) % (N + 1)) := by
    rintro ⟨h1, h2⟩
    exact hxy (Fin.ext (by rw [y3, x3, h1, h2]))
  unfold fivePoint
  rw [if_neg hne, if_neg hne]
  split_ifs
  · simp
  · linarith
  · simp

theorem five_diag_bounds (hN : 1 ≤ N) (h : IsFive N A) (x : Fin ((N + 1) * (N + 1))) : kappa ≤ A x x ∧ A x x ≤ 4 * kappa := by
  obtain ⟨x1, x2, x3⟩ := decode x
  rw [five_diag h x1 x2 x3]
  have hk := kappa_gt (T := T)
  have hN1 : (1 : T) ≤ N := by exact_mod_cast hN
  split_ifs
  · have h1 : (1 : T) ≤ 4 * (N : T) ^ 2 / ((N + 1) * (N + 1)) := by rw [le_div_iff₀ (by positivity)]; nlinarith
    have h2 : 4 * (N : T) ^ 2 / ((N + 1) * (N + 1)) ≤ 4 := by rw [div_le_iff₀ (by positivity)]; nlinarith
    constructor <;> nlinarith
  · constructor <;> linarith

theorem five_upper (hN : 1 ≤ N) (h : IsFive N A) (hsym : Aᵀ = A) (v : Fin ((N + 1) * (N + 1)) → T) : v ⬝ᵥ A *ᵥ v ≤ 2 * ∑ i, A i i * v i ^ 2 := by
  refine dominant_upper hsym (fun i j => five_off h) (fun x => ?_) v
  obtain ⟨x1, x2, x3⟩ := decode x
  by_cases hrim : Rim N ((x : Nat) / (N + 1)) ((x : Nat) % (N + 1))
  · rw [five_rim h x1 x2 hrim x3, mul_one]
    exact kappa_gt.le.trans (five_diag_bounds hN h x).1
  · have hin := not_rim x1 x2 hrim
    rw [five_mul h hin.1 hin.2.1 hin.2.2.1 hin.2.2.2 x3]
    refine mul_nonneg kappa_gt.le ?_
    have hle : ∀ r c, inside N (fun _ => (1 : T)) r c ≤ 1 := by
      intro r c
      unfold inside node
      split_ifs <;> norm_num
    have hone : inside N (fun _ => (1 : T)) ((x : Nat) / (N + 1)) ((x : Nat) % (N + 1)) = 1 := by
      unfold inside
      rw [if_neg hrim, node_eq x1 x2]
    unfold fiveDiff
    rw [hone]
    linarith [hle ((x : Nat) / (N + 1) + 1) ((x : Nat) % (N + 1)), hle ((x : Nat) / (N + 1) - 1) ((x : Nat) % (N + 1)),
      hle ((x : Nat) / (N + 1)) ((x : Nat) % (N + 1) + 1), hle ((x : Nat) / (N + 1)) ((x : Nat) % (N + 1) - 1)]

/-- the product of two parabolas, one on the rim -/
def dome (N : Nat) (x : Fin ((N + 1) * (N + 1))) : T :=
  if Rim N ((x : Nat) / (N + 1)) ((x : Nat) % (N + 1)) then 1
  else (((x : Nat) / (N + 1) : Nat) : T) * (N - ((x : Nat) / (N + 1) : Nat)) * ((((x : Nat) % (N + 1) : Nat) : T) * (N - ((x : Nat) % (N + 1) : Nat)))

theorem dome_inside {r c : Nat} (hr : r ≤ N) (hc : c ≤ N) : inside N (dome N : _ → T) r c = (r : T) * (N - r) * (c * (N - c)) := by
  unfold inside
  by_cases h : Rim N r c
  · rw [if_pos h]
    unfold Rim at h
    rcases h with rfl | rfl | rfl | rfl <;> simp
  · rw [if_neg h, node_eq hr hc]
    unfold dome
    simp only [vid_div hc, vid_mod hc]
    rw [if_neg h]

theorem five_lower (hN : 2 ≤ N) (h : IsFive N A) (hsym : Aᵀ = A) (v : Fin ((N + 1) * (N + 1)) → T) :
    4 / (N : T) ^ 2 * ∑ i, A i i * v i ^ 2 ≤ v ⬝ᵥ A *ᵥ v := by
  have hk := kappa_gt (T := T)
  have hN2 : (2 : T) ≤ N := by exact_mod_cast hN
  have hNp : (0 : T) < (N : T) ^ 2 := by positivity
  set lam : T := 4 / (N : T) ^ 2 with hlam
  have hl1 : lam ≤ 1 := by rw [hlam, div_le_one hNp]; nlinarith
  have g := ground_state (A := A - lam • Matrix.diagonal fun i => A i i) (by
      rw [transpose_sub, transpose_smul, diagonal_transpose, hsym]) (fun i j hij => by
        rw [Matrix.sub_apply, Matrix.smul_apply, diagonal_apply_ne _ hij, smul_zero, sub_zero]
        exact five_off h hij) (s := dome N) (fun x => ?_) (lam := 0) (fun x => ?_) v
  · rw [zero_mul, sub_mulVec, dotProduct_sub, sub_nonneg, smul_mulVec, dotProduct_smul, smul_eq_mul] at g
    refine le_trans (le_of_eq ?_) g
    congr 1
    unfold dotProduct
    refine Finset.sum_congr rfl fun i _ => ?_
    rw [mulVec_diagonal]; ring
  · unfold dome
    obtain ⟨x1, x2, x3⟩ := decode x
    split_ifs with hrim
    · exact one_pos
    · have hin := not_rim x1 x2 hrim
      obtain ⟨i1, i2, i3, i4⟩ := hin
      have a1 : (0 : T) < ((x : Nat) / (N + 1) : Nat) := Nat.cast_pos.2 i1
      have a2 : (0 : T) < N - ((x : Nat) / (N + 1) : Nat) := sub_pos.2 (Nat.cast_lt.2 i2)
      have a3 : (0 : T) < ((x : Nat) % (N + 1) : Nat) := Nat.cast_pos.2 i3
      have a4 : (0 : T) < N - ((x : Nat) % (N + 1) : Nat) := sub_pos.2 (Nat.cast_lt.2 i4)
      positivity
  · rw [zero_mul, sub_mulVec, Pi.sub_apply, smul_mulVec, Pi.smul_apply, mulVec_diagonal, smul_eq_mul]
    obtain ⟨x1, x2, x3⟩ := decode x
    have hdom : dome N x = if Rim N ((x : Nat) / (N + 1)) ((x : Nat) % (N + 1)) then (1 : T) else inside N (dome N) ((x : Nat) / (N + 1)) ((x : Nat) % (N + 1)) := by
      rw [dome_inside x1 x2]; rfl
    have hd := five_diag h x1 x2 x3
    by_cases hrim : Rim N ((x : Nat) / (N + 1)) ((x : Nat) % (N + 1))
    · rw [five_rim h x1 x2 hrim x3, hdom, if_pos hrim]
      have := kappa_gt.le.trans (five_diag_bounds (by omega) h x).1
      nlinarith
    · have hin := not_rim x1 x2 hrim
      rw [five_mul h hin.1 hin.2.1 hin.2.2.1 hin.2.2.2 x3, hdom, if_neg hrim, hd, if_neg hrim]
      obtain ⟨i1, i2, i3, i4⟩ := hin
      generalize (x : Nat) / (N + 1) = r at *
      generalize (x : Nat) % (N + 1) = c at *
      unfold fiveDiff
      rw [dome_inside x1 x2, dome_inside (by omega) x2, dome_inside (by omega) x2, dome_inside x1 (by omega), dome_inside x1 (by omega), Nat.cast_sub i1, Nat.cast_sub i3]
      push_cast
      have a1 : (0 : T) < r * (N - r) := mul_pos (Nat.cast_pos.2 i1) (sub_pos.2 (Nat.cast_lt.2 i2))
      have a2 : (0 : T) < c * (N - c) := mul_pos (Nat.cast_pos.2 i3) (sub_pos.2 (Nat.cast_lt.2 i4))
      have q1 : 4 * ((r : T) * (N - r)) ≤ N ^ 2 := by nlinarith [sq_nonneg ((N : T) - 2 * r)]
      have q2 : 4 * ((c : T) * (N - c)) ≤ N ^ 2 := by nlinarith [sq_nonneg ((N : T) - 2 * c)]
      have key : lam * (4 * ((r : T) * (N - r) * (c * (N - c)))) ≤ 2 * ((r : T) * (N - r)) + 2 * (c * (N - c)) := by
        rw [hlam, div_mul_eq_mul_div, div_le_iff₀ hNp]
        nlinarith
      have e : (4 * ((r : T) * (N - r) * (c * (N - c))) - (r + 1) * (N - (r + 1)) * (c * (N - c)) - (r - 1) * (N - (r - 1)) * (c * (N - c)) -
          (r * (N - r)) * ((c + 1) * (N - (c + 1))) - (r * (N - r)) * ((c - 1) * (N - (c - 1)))) = 2 * ((r : T) * (N - r)) + 2 * (c * (N - c)) := by ring
      rw [e, sub_nonneg]
      have := mul_le_mul_of_nonneg_left key hk.le
      linarith

/-- the values inside from the residual -/
theorem five_sup (hN : 1 ≤ N) (h : IsFive N A) (v : Fin ((N + 1) * (N + 1)) → T) {r c : Nat} (hr : r ≤ N) (hc : c ≤ N) :
    64 * kappa ^ 2 * inside N v r c ^ 2 ≤ (N : T) ^ 2 * ((A *ᵥ v) ⬝ᵥ (A *ᵥ v)) := by
  have hk := kappa_gt (T := T)
  have s := NS.GridSup.sup_le (u := inside N v) (N := N) (fun c => if_pos (.inl rfl)) (fun c => if_pos (.inr (.inl rfl))) (fun r => if_pos (.inr (.inr (.inl rfl))))
    (fun r => if_pos (.inr (.inr (.inr rfl)))) hr hc
  have hsum : kappa ^ 2 * ∑ r ∈ Finset.range (N - 1), ∑ c ∈ Finset.range (N - 1),
      (4 * inside N v (r + 1) (c + 1) - inside N v (r + 2) (c + 1) - inside N v r (c + 1) - inside N v (r + 1) (c + 2) - inside N v (r + 1) c) ^ 2 ≤
      (A *ᵥ v) ⬝ᵥ (A *ᵥ v) := by
    let f : Nat × Nat → Fin ((N + 1) * (N + 1)) := fun q => if h : q.1 < N - 1 ∧ q.2 < N - 1 then ⟨vid N (q.1 + 1) (q.2 + 1), vid_lt (by omega) (by omega)⟩ else ⟨0, by positivity⟩
    have hf : ∀ q ∈ Finset.range (N - 1) ×ˢ Finset.range (N - 1), (f q : Nat) = (q.1 + 1) * (N + 1) + (q.2 + 1) := by
      intro q hq
      rw [Finset.mem_product, Finset.mem_range, Finset.mem_range] at hq
      show ((dite _ _ _ : Fin ((N + 1) * (N + 1))) : Nat) = _
      rw [dif_pos hq]; rfl
    have hinj : Set.InjOn f ↑(Finset.range (N - 1) ×ˢ Finset.range (N - 1)) := by
      intro p hp q hq e
      have e1 := hf p hp
      rw [e, hf q hq] at e1
      have hp' := hp; have hq' := hq
      rw [Finset.mem_coe, Finset.mem_product, Finset.mem_range, Finset.mem_range] at hp' hq'
      obtain ⟨k1, k2⟩ := vid_inj (n1 := N) (show q.2 + 1 ≤ N by omega) (show p.2 + 1 ≤ N by omega) e1
      exact Prod.ext (by omega) (by omega)
    have e1 : ∑ x ∈ (Finset.range (N - 1) ×ˢ Finset.range (N - 1)).image f, (A *ᵥ v) x * (A *ᵥ v) x ≤ (A *ᵥ v) ⬝ᵥ (A *ᵥ v) :=
      Finset.sum_le_sum_of_subset_of_nonneg (Finset.subset_univ _) fun i _ _ => mul_self_nonneg _
    refine le_trans (le_of_eq ?_) e1
    rw [Finset.sum_image hinj, Finset.sum_product, Finset.mul_sum]
    refine Finset.sum_congr rfl fun r hr => ?_
    rw [Finset.mul_sum]
    refine Finset.sum_congr rfl fun c hc => ?_
    have hr' := Finset.mem_range.1 hr
    have hc' := Finset.mem_range.1 hc
    rw [five_mul h (r := r + 1) (c := c + 1) (by omega) (by omega) (by omega) (by omega) (hf (r, c) (Finset.mem_product.2 ⟨hr, hc⟩))]
    unfold fiveDiff
    simp only [Nat.add_sub_cancel]
    ring
  have := mul_le_mul_of_nonneg_left s (show (0 : T) ≤ kappa ^ 2 by positivity)
  have h2 := mul_le_mul_of_nonneg_left hsum (show (0 : T) ≤ (N : T) ^ 2 by positivity)
  nlinarith
end matrix

variable [MatOps M T] [LawfulMat M T]

/-- the matrix of the program on the generated grid -/
theorem five_of {N : Nat} (hN : 1 ≤ N) {L : T} (hL : L ≠ 0) {off : T × T} {w1 w2 w3 : World T} (e1 : generate N N (L, L) off = .ok w1) (e2 : w1.prepare 0 = .ok w2)
    (e3 : Shape.prepareMesh 1 w2 = .ok w3) {eps : T} (he : eps < kappa / 2) {src g : List T → T} {a : M} {b : List T} (hs : system eps 1 src g w3 = .ok (a, b))
    {A : Matrix (Fin ((N + 1) * (N + 1))) (Fin ((N + 1) * (N + 1))) T} (ha : IsMat a _ A) : IsFive N A ∧ NS.CG.SPD A := by
  obtain ⟨v1, v2, v3, a', b', A', B', f1, f2, f3, f4, f5, -, f7, -, f6⟩ := C68_grid (M := M) hN hL off he src g
  obtain rfl : w1 = v1 := Except.ok.inj (e1.symm.trans f1)
  obtain rfl : w2 = v2 := Except.ok.inj (e2.symm.trans f2)
  obtain rfl : w3 = v3 := Except.ok.inj (e3.symm.trans f3)
  obtain ⟨rfl, -⟩ := Prod.mk.inj (Except.ok.inj (hs.symm.trans f4))
  obtain rfl : A = A' := by
    ext x y
    exact Except.ok.inj ((ha.2.2.2 x y).symm.trans (f5.2.2.2 x y))
  exact ⟨f6, f7⟩

theorem diag_spd {n : Nat} {A : Matrix (Fin n) (Fin n) T} (hd : ∀ i, 0 < A i i) : NS.CG.SPD (Matrix.diagonal fun i => (A i i)⁻¹) := by
  refine ⟨Matrix.diagonal_transpose _, fun v hv => ?_⟩
  simp only [Matrix.mulVec_diagonal, dotProduct]
  obtain ⟨i, hi⟩ := Function.ne_iff.1 hv
  refine Finset.sum_pos' (fun j _ => ?_) ⟨i, Finset.mem_univ _, ?_⟩
  · have := mul_nonneg (inv_pos.2 (hd j)).le (mul_self_nonneg (v j))
    nlinarith
  · have := mul_pos (inv_pos.2 (hd i)) (mul_self_pos.2 hi)
    nlinarith

/-- `pcg` with the Jacobi preconditioner on the five-point matrix -/
theorem five_pcg {N : Nat} (hN : 2 ≤ N) {a c : M} {A : Matrix (Fin ((N + 1) * (N + 1))) (Fin ((N + 1) * (N + 1))) T} (ha : IsMat a _ A) (h5 : IsFive N A)
    (hA : NS.CG.SPD A) (hc : IsMat c _ (Matrix.diagonal fun i => (A i i)⁻¹)) {b x₀ : List T} {B : Fin ((N + 1) * (N + 1)) → T} (hb : IsVec b _ B)
    (hx : IsVec x₀ _ (0 : Fin ((N + 1) * (N + 1)) → T)) (hB : B ≠ 0) {z : Fin ((N + 1) * (N + 1)) → T} (hz : A *ᵥ z = B) {maxIter : Nat} (hmax : 0 < maxIter) {tol : T} (ht : tol ≠ 0) :
    ∃ x₁ x it, CG.pcg a b c x₀ maxIter tol = .ok (x₁, it) ∧ IsVec x₁ _ x ∧ it ≤ maxIter ∧
      ∀ K, 0 < K → K ≤ maxIter → 9 * (N : T) ^ 2 * (B ⬝ᵥ B) * ((5 * N - 7) / (5 * N + 7)) ^ (2 * K) < tol ^ 2 → it ≤ K ∧ Props.CG.resSqr A B x < tol ^ 2 := by
  have hk := kappa_gt (T := T)
  have hN2 : (2 : T) ≤ N := by exact_mod_cast hN
  have hNp : (0 : T) < (N : T) ^ 2 := by positivity
  have hd := five_diag_bounds (show 1 ≤ N by omega) h5
  have hd0 : ∀ i, 0 < A i i := fun i => hk.trans_le (hd i).1
  have hC := diag_spd hd0
  set D : Matrix (Fin ((N + 1) * (N + 1))) (Fin ((N + 1) * (N + 1))) T := Matrix.diagonal fun i => A i i with hD
  have hDv : ∀ v : Fin ((N + 1) * (N + 1)) → T, v ⬝ᵥ D *ᵥ v = ∑ i, A i i * v i ^ 2 := fun v => by
    unfold dotProduct
    exact Finset.sum_congr rfl fun i _ => by rw [hD, mulVec_diagonal]; ring
  have hCv : ∀ v : Fin ((N + 1) * (N + 1)) → T, v ⬝ᵥ (Matrix.diagonal fun i => (A i i)⁻¹) *ᵥ v = ∑ i, (A i i)⁻¹ * v i ^ 2 := fun v => by
    unfold dotProduct
    exact Finset.sum_congr rfl fun i _ => by rw [mulVec_diagonal]; ring
  have hCD : (Matrix.diagonal fun i => (A i i)⁻¹) * D = 1 := by
    rw [hD, diagonal_mul_diagonal, ← diagonal_one]
    congr 1
    funext i
    exact inv_mul_cancel₀ (hd0 i).ne'
  have hal : (0 : T) < 4 / (N : T) ^ 2 := by positivity
  have hs : (1 : T) < 5 * N / 7 := by rw [lt_div_iff₀ (by norm_num)]; linarith
  have hals : 4 / (N : T) ^ 2 * (5 * N / 7) ^ 2 = 100 / 49 := by field_simp; norm_num
  have hlo : ∀ v, 4 / (N : T) ^ 2 * (v ⬝ᵥ D *ᵥ v) ≤ v ⬝ᵥ A *ᵥ v := fun v => by rw [hDv]; exact five_lower hN h5 hA.1 v
  have hhi : ∀ v, v ⬝ᵥ A *ᵥ v ≤ 4 / (N : T) ^ 2 * (5 * N / 7) ^ 2 * (v ⬝ᵥ D *ᵥ v) := fun v => by
    rw [hals, hDv]
    have h1 := five_upper (show 1 ≤ N by omega) h5 hA.1 v
    have h2 : 0 ≤ ∑ i, A i i * v i ^ 2 := Finset.sum_nonneg fun i _ => mul_nonneg (hd0 i).le (sq_nonneg _)
    linarith
  have hΔ : ∀ v : Fin ((N + 1) * (N + 1)) → T, v ⬝ᵥ v ≤ 4 * kappa * (v ⬝ᵥ (Matrix.diagonal fun i => (A i i)⁻¹) *ᵥ v) := fun v => by
    rw [hCv, Finset.mul_sum]
    refine Finset.sum_le_sum fun i _ => ?_
    have h1 : 1 ≤ 4 * kappa * (A i i)⁻¹ := by rw [← div_eq_mul_inv, le_div_iff₀ (hd0 i), one_mul]; exact (hd i).2
    have := mul_le_mul_of_nonneg_right h1 (sq_nonneg (v i))
    nlinarith
  obtain ⟨x₁, x, it, p1, p2, -, p4, -, -, p7⟩ := Props.CG.C109_pcg_rate ha hc hb hx hA hC hCD hal hs hlo hhi (show (0 : T) ≤ 4 * kappa by positivity) hΔ hz
    (by rw [mulVec_zero]; exact hB.symm) hmax ht
  refine ⟨x₁, x, it, p1, p2, p4, fun K hK0 hK hlt => p7 K hK0 hK (lt_of_le_of_lt ?_ hlt)⟩
  have hq : (5 * (N : T) / 7 - 1) / (5 * N / 7 + 1) = (5 * N - 7) / (5 * N + 7) := by
    have : (5 * (N : T) + 7) ≠ 0 := by positivity
    field_simp
  have hq0 : (0 : T) ≤ (5 * N - 7) / (5 * N + 7) := div_nonneg (by linarith) (by linarith)
  rw [hals, hq, zero_sub]
  have hE : (-z) ⬝ᵥ A *ᵥ (-z) = z ⬝ᵥ A *ᵥ z := by rw [mulVec_neg, neg_dotProduct, dotProduct_neg, neg_neg]
  rw [hE]
  have b1 := (Props.CG.prec_bounds hA hC hCD hal hlo hhi z).1
  rw [hz, hCv] at b1
  have b2 : kappa * ∑ i, (A i i)⁻¹ * B i ^ 2 ≤ B ⬝ᵥ B := by
    rw [Finset.mul_sum]
    refine Finset.sum_le_sum fun i _ => ?_
    have h1 : kappa * (A i i)⁻¹ ≤ 1 := by rw [← div_eq_mul_inv, div_le_one (hd0 i)]; exact (hd i).1
    have := mul_le_mul_of_nonneg_right h1 (sq_nonneg (B i))
    nlinarith
  have b3 : kappa * (z ⬝ᵥ A *ᵥ z) ≤ (N : T) ^ 2 / 4 * (B ⬝ᵥ B) := by
    rw [hz]
    have h1 : z ⬝ᵥ B = (N : T) ^ 2 / 4 * (4 / (N : T) ^ 2 * (z ⬝ᵥ B)) := by field_simp
    have h2 := mul_le_mul_of_nonneg_left b1 hk.le
    have h3 := mul_le_mul_of_nonneg_left (h2.trans b2) (show (0 : T) ≤ (N : T) ^ 2 / 4 by positivity)
    calc kappa * (z ⬝ᵥ B) = (N : T) ^ 2 / 4 * (kappa * (4 / (N : T) ^ 2 * (z ⬝ᵥ B))) := by rw [h1]; ring_nf; field_simp
      _ ≤ _ := h3
  have hqp := pow_nonneg hq0 (2 * K)
  have hBB : 0 ≤ B ⬝ᵥ B := Finset.sum_nonneg fun i _ => mul_self_nonneg _
  set Q := ((5 * (N : T) - 7) / (5 * N + 7)) ^ (2 * K)
  have e : 4 * kappa * (100 / 49) * (4 * Q * (z ⬝ᵥ A *ᵥ z)) = 1600 / 49 * Q * (kappa * (z ⬝ᵥ A *ᵥ z)) := by ring
  rw [e]
  have h4 := mul_le_mul_of_nonneg_left b3 (show 0 ≤ 1600 / 49 * Q by positivity)
  refine h4.trans ?_
  have : 0 ≤ (N : T) ^ 2 * (B ⬝ᵥ B) * Q := by positivity
  nlinarith
end NS.Props.Fem

import Verif.Lemmas.Scores
import Verif.Model.ScoreDispatch
import Verif.Spec.Score

/-! Exactness of the sixteen score functions (before the wrap to the return type). -/

set_option linter.unnecessarySeqFocus false

namespace LFM

open Spec

theorem list_sum_fin (D : Nat) (t : Nat → Int) :
    ((List.range D).map t).sum = ∑ d : Fin D, t d := by
  induction D with
  | zero => simp
  | succ n ih => rw [List.range_succ, List.map_append, List.sum_append, ih, Fin.sum_univ_castSucc]; simp

theorem two_mul_sum (D : Nat) (c : Int) (t : Nat → Int) (g : Fin D → Int)
    (h : ∀ d : Fin D, 2 * (c * t d) = g d) : 2 * (c * ((List.range D).map t).sum) = ∑ d, g d := by
  rw [list_sum_fin, Finset.mul_sum, Finset.mul_sum]
  exact Finset.sum_congr rfl fun d _ => h d

theorem two_mul_sum2 (D M : Nat) (c : Int) (t : Nat → Nat → Int) (g : Fin D → Fin M → Int)
    (h : ∀ (d : Fin D) (k : Fin M), 2 * (c * t d k) = g d k) :
    2 * (c * ((List.range D).map fun d => ((List.range M).map (t d)).sum).sum) =
      ∑ d, ∑ k, g d k := by
  apply two_mul_sum
  intro d
  apply two_mul_sum
  intro k
  exact h d k

section two
variable {D L : Nat} {Z U X : Arr Int} {l : Nat} (hl : l < L) (hZ : Z.shape = [L])
  (hU : U.shape = [D, L]) (pZ : PMArr Z) (pU : PMArr U)

theorem pm_entry2 {U : Arr Int} {D L : Nat} (hU : U.shape = [D, L]) (pU : PMArr U) {d l : Nat}
    (hd : d < D) (hl : l < L) : IsPM (U [d, l]) := pU [d, l] (by rw [hU]; exact ⟨hd, hl, trivial⟩)

include hZ pZ in
theorem pm_set (v : Int) (hv : IsPM v) (l' : Fin L) : IsPM (setEntry (fun l => Z [l]) l v l') := by
  unfold setEntry
  split
  · exact hv
  · exact pZ.one hZ l'.2

include hl hZ hU pZ pU in
theorem score_OR_AND_2D : ∃ S, posterior_score_OR_AND_2D Z U X l = wrap16 S ∧
    2 * S = twiceScore2 .OR_AND D L (fun l => Z [l]) (fun d l => U [d, l])
      (fun d => X [d]) l := by
  have hD : U.dim 0 = D := by simp [Arr.dim, hU]
  have hL : U.dim 1 = L := by simp [Arr.dim, hU]
  have e : posterior_score_OR_AND_2D Z U X l = _ := run_score_or2 (U.dim 0) (U.dim 1) wrap16
    (fun d => U [d, l] ≠ 1)
    (fun d l' => Z [l'] = 1 ∧ U [d, l'] = 1 ∧ l' ≠ l) (fun d => X [d])
  rw [e]
  refine ⟨(1) * _, congrArg wrap16 (one_mul _).symm, ?_⟩
  rw [hD, hL]
  apply two_mul_sum
  intro d
  have c1 : pred2 .OR_AND L (setEntry (fun l => Z [l]) l (1)) (fun l' => U [d, l']) = _ :=
    or_cell L l hl (fun l => Z [l]) (fun v l' => v = 1 ∧ U [d, l'] = 1)
      (fun l' => Z [l'] = 1 ∧ U [d, l'] = 1 ∧ l' ≠ l) (fun l' _ => by tauto) (1) _
      fun l' => and2 (pm_set hZ pZ (1) (Or.inl rfl) l') (pm_entry2 hU pU d.2 l'.2)
  have c0 : pred2 .OR_AND L (setEntry (fun l => Z [l]) l (-1)) (fun l' => U [d, l']) = _ :=
    or_cell L l hl (fun l => Z [l]) (fun v l' => v = 1 ∧ U [d, l'] = 1)
      (fun l' => Z [l'] = 1 ∧ U [d, l'] = 1 ∧ l' ≠ l) (fun l' _ => by tauto) (-1) _
      fun l' => and2 (pm_set hZ pZ (-1) (Or.inr rfl) l') (pm_entry2 hU pU d.2 l'.2)
  simp only [c1, c0]
  rw [one_mul]
  apply orTerm_cell
  rcases pm_entry2 hU pU d.2 hl with h | h <;> simp [h] <;> ring

include hl hZ hU pZ pU in
theorem score_XOR_AND_2D : ∃ S, posterior_score_XOR_AND_2D Z U X l = wrap16 S ∧
    2 * S = twiceScore2 .XOR_AND D L (fun l => Z [l]) (fun d l => U [d, l])
      (fun d => X [d]) l := by
  have hD : U.dim 0 = D := by simp [Arr.dim, hU]
  have hL : U.dim 1 = L := by simp [Arr.dim, hU]
  have e : posterior_score_XOR_AND_2D Z U X l = _ := run_score_xor2_in (U.dim 0) (U.dim 1) wrap16
    (fun d => U [d, l] ≠ 1)
    (fun d l' => Z [l'] = 1 ∧ U [d, l'] = 1 ∧ l' ≠ l)
    (fun d => X [d]) (fun d => -(X [d]))
    (fun d s => s + X [d]) (fun d s => s - X [d])
    (by intros; ring) (by intros; ring)
  rw [e]
  refine ⟨(1) * _, congrArg wrap16 (one_mul _).symm, ?_⟩
  rw [hD, hL]
  apply two_mul_sum
  intro d
  have c1 : pred2 .XOR_AND L (setEntry (fun l => Z [l]) l (1)) (fun l' => U [d, l']) = _ :=
    xor_cell L l hl (fun l => Z [l]) (fun v l' => v = 1 ∧ U [d, l'] = 1)
      (fun l' => Z [l'] = 1 ∧ U [d, l'] = 1 ∧ l' ≠ l) (fun l' _ => by tauto) (1) _
      fun l' => and2 (pm_set hZ pZ (1) (Or.inl rfl) l') (pm_entry2 hU pU d.2 l'.2)
  have c0 : pred2 .XOR_AND L (setEntry (fun l => Z [l]) l (-1)) (fun l' => U [d, l']) = _ :=
    xor_cell L l hl (fun l => Z [l]) (fun v l' => v = 1 ∧ U [d, l'] = 1)
      (fun l' => Z [l'] = 1 ∧ U [d, l'] = 1 ∧ l' ≠ l) (fun l' _ => by tauto) (-1) _
      fun l' => and2 (pm_set hZ pZ (-1) (Or.inr rfl) l') (pm_entry2 hU pU d.2 l'.2)
  simp only [c1, c0]
  rw [one_mul]
  apply xorTerm_cell
  · ring
  · rcases pm_entry2 hU pU d.2 hl with h | h <;> simp [h] <;> ring

include hl hZ hU pZ pU in
theorem score_XOR_NAND_2D : ∃ S, posterior_score_XOR_NAND_2D Z U X l = wrap16 S ∧
    2 * S = twiceScore2 .XOR_NAND D L (fun l => Z [l]) (fun d l => U [d, l])
      (fun d => X [d]) l := by
  have hD : U.dim 0 = D := by simp [Arr.dim, hU]
  have hL : U.dim 1 = L := by simp [Arr.dim, hU]
  have e : posterior_score_XOR_NAND_2D Z U X l = _ := run_score_xor2_in (U.dim 0) (U.dim 1) (fun s => wrap16 (-s))
    (fun d => U [d, l] ≠ 1)
    (fun d l' => (Z [l'] ≠ 1 ∨ U [d, l'] ≠ 1) ∧ l' ≠ l)
    (fun d => X [d]) (fun d => -(X [d]))
    (fun d s => s + X [d]) (fun d s => s - X [d])
    (by intros; ring) (by intros; ring)
  rw [e]
  refine ⟨(-1) * _, congrArg wrap16 (neg_one_mul _).symm, ?_⟩
  rw [hD, hL]
  apply two_mul_sum
  intro d
  have c1 : pred2 .XOR_NAND L (setEntry (fun l => Z [l]) l (1)) (fun l' => U [d, l']) = _ :=
    xor_cell L l hl (fun l => Z [l]) (fun v l' => v ≠ 1 ∨ U [d, l'] ≠ 1)
      (fun l' => (Z [l'] ≠ 1 ∨ U [d, l'] ≠ 1) ∧ l' ≠ l) (fun l' _ => by tauto) (1) _
      fun l' => nand2' (pm_set hZ pZ (1) (Or.inl rfl) l') (pm_entry2 hU pU d.2 l'.2)
  have c0 : pred2 .XOR_NAND L (setEntry (fun l => Z [l]) l (-1)) (fun l' => U [d, l']) = _ :=
    xor_cell L l hl (fun l => Z [l]) (fun v l' => v ≠ 1 ∨ U [d, l'] ≠ 1)
      (fun l' => (Z [l'] ≠ 1 ∨ U [d, l'] ≠ 1) ∧ l' ≠ l) (fun l' _ => by tauto) (-1) _
      fun l' => nand2' (pm_set hZ pZ (-1) (Or.inr rfl) l') (pm_entry2 hU pU d.2 l'.2)
  simp only [c1, c0]
  rw [neg_one_mul, mul_neg, neg_eq_iff_eq_neg, ← neg_mul]
  apply xorTerm_cell
  · ring
  · rcases pm_entry2 hU pU d.2 hl with h | h <;> simp [h] <;> ring

include hl hZ hU pZ pU in
theorem score_OR_NAND_2D : ∃ S, posterior_score_OR_NAND_2D Z U X l = wrap16 S ∧
    2 * S = twiceScore2 .OR_NAND D L (fun l => Z [l]) (fun d l => U [d, l])
      (fun d => X [d]) l := by
  have hD : U.dim 0 = D := by simp [Arr.dim, hU]
  have hL : U.dim 1 = L := by simp [Arr.dim, hU]
  have e : posterior_score_OR_NAND_2D Z U X l = _ := run_score_or2 (U.dim 0) (U.dim 1) (fun s => wrap16 (-s))
    (fun d => U [d, l] = -1)
    (fun d l' => (Z [l'] = -1 ∨ U [d, l'] = -1) ∧ l' ≠ l) (fun d => X [d])
  rw [e]
  refine ⟨(-1) * _, congrArg wrap16 (neg_one_mul _).symm, ?_⟩
  rw [hD, hL]
  apply two_mul_sum
  intro d
  have c1 : pred2 .OR_NAND L (setEntry (fun l => Z [l]) l (1)) (fun l' => U [d, l']) = _ :=
    or_cell L l hl (fun l => Z [l]) (fun v l' => v = -1 ∨ U [d, l'] = -1)
      (fun l' => (Z [l'] = -1 ∨ U [d, l'] = -1) ∧ l' ≠ l) (fun l' _ => by tauto) (1) _
      fun l' => nand2 (pm_set hZ pZ (1) (Or.inl rfl) l') (pm_entry2 hU pU d.2 l'.2)
  have c0 : pred2 .OR_NAND L (setEntry (fun l => Z [l]) l (-1)) (fun l' => U [d, l']) = _ :=
    or_cell L l hl (fun l => Z [l]) (fun v l' => v = -1 ∨ U [d, l'] = -1)
      (fun l' => (Z [l'] = -1 ∨ U [d, l'] = -1) ∧ l' ≠ l) (fun l' _ => by tauto) (-1) _
      fun l' => nand2 (pm_set hZ pZ (-1) (Or.inr rfl) l') (pm_entry2 hU pU d.2 l'.2)
  simp only [c1, c0]
  rw [neg_one_mul, mul_neg, neg_eq_iff_eq_neg, ← neg_mul]
  apply orTerm_cell
  rcases pm_entry2 hU pU d.2 hl with h | h <;> simp [h] <;> ring

include hl hZ hU pZ pU in
theorem score_OR_XOR_2D : ∃ S, posterior_score_OR_XOR_2D Z U X l = wrap16 S ∧
    2 * S = twiceScore2 .OR_XOR D L (fun l => Z [l]) (fun d l => U [d, l])
      (fun d => X [d]) l := by
  have hD : U.dim 0 = D := by simp [Arr.dim, hU]
  have hL : U.dim 1 = L := by simp [Arr.dim, hU]
  have e : posterior_score_OR_XOR_2D Z U X l = _ := run_score_or2' (U.dim 0) (U.dim 1) (fun s => wrap16 (-s))
    (fun d l' => Z [l'] ≠ U [d, l'] ∧ l' ≠ l) (fun d => X [d] * U [d, l])
  rw [e]
  refine ⟨(-1) * _, congrArg wrap16 (neg_one_mul _).symm, ?_⟩
  rw [hD, hL]
  apply two_mul_sum
  intro d
  have c1 : pred2 .OR_XOR L (setEntry (fun l => Z [l]) l (1)) (fun l' => U [d, l']) = _ :=
    or_cell L l hl (fun l => Z [l]) (fun v l' => v ≠ U [d, l'])
      (fun l' => Z [l'] ≠ U [d, l'] ∧ l' ≠ l) (fun l' _ => by tauto) (1) _
      fun l' => xor2 (pm_set hZ pZ (1) (Or.inl rfl) l') (pm_entry2 hU pU d.2 l'.2)
  have c0 : pred2 .OR_XOR L (setEntry (fun l => Z [l]) l (-1)) (fun l' => U [d, l']) = _ :=
    or_cell L l hl (fun l => Z [l]) (fun v l' => v ≠ U [d, l'])
      (fun l' => Z [l'] ≠ U [d, l'] ∧ l' ≠ l) (fun l' _ => by tauto) (-1) _
      fun l' => xor2 (pm_set hZ pZ (-1) (Or.inr rfl) l') (pm_entry2 hU pU d.2 l'.2)
  simp only [c1, c0]
  rw [neg_one_mul, mul_neg, neg_eq_iff_eq_neg, ← neg_mul]
  apply orTerm_cell
  rcases pm_entry2 hU pU d.2 hl with h | h <;> simp [h] <;> ring

include hl hZ hU pZ pU in
theorem score_NAND_XOR_2D : ∃ S, posterior_score_NAND_XOR_2D Z U X l = wrap16 S ∧
    2 * S = twiceScore2 .NAND_XOR D L (fun l => Z [l]) (fun d l => U [d, l])
      (fun d => X [d]) l := by
  have hD : U.dim 0 = D := by simp [Arr.dim, hU]
  have hL : U.dim 1 = L := by simp [Arr.dim, hU]
  have e : posterior_score_NAND_XOR_2D Z U X l = _ := run_score_or2' (U.dim 0) (U.dim 1) wrap16
    (fun d l' => Z [l'] = U [d, l'] ∧ l' ≠ l) (fun d => X [d] * U [d, l])
  rw [e]
  refine ⟨(1) * _, congrArg wrap16 (one_mul _).symm, ?_⟩
  rw [hD, hL]
  apply two_mul_sum
  intro d
  have c1 : pred2 .NAND_XOR L (setEntry (fun l => Z [l]) l (1)) (fun l' => U [d, l']) = _ :=
    nand_cell L l hl (fun l => Z [l]) (fun v l' => v = U [d, l'])
      (fun l' => Z [l'] = U [d, l'] ∧ l' ≠ l) (fun l' _ => by tauto) (1) _
      fun l' => (xor2 (pm_set hZ pZ (1) (Or.inl rfl) l') (pm_entry2 hU pU d.2 l'.2)).not.trans not_not
  have c0 : pred2 .NAND_XOR L (setEntry (fun l => Z [l]) l (-1)) (fun l' => U [d, l']) = _ :=
    nand_cell L l hl (fun l => Z [l]) (fun v l' => v = U [d, l'])
      (fun l' => Z [l'] = U [d, l'] ∧ l' ≠ l) (fun l' _ => by tauto) (-1) _
      fun l' => (xor2 (pm_set hZ pZ (-1) (Or.inr rfl) l') (pm_entry2 hU pU d.2 l'.2)).not.trans not_not
  simp only [c1, c0]
  rw [one_mul]
  apply orTerm_cell
  rcases pm_entry2 hU pU d.2 hl with h | h <;> simp [h] <;> ring

include hl hZ hU pZ pU in
theorem score_XOR_XOR_2D : ∃ S, posterior_score_XOR_XOR_2D Z U X l = wrap16 S ∧
    2 * S = twiceScore2 .XOR_XOR D L (fun l => Z [l]) (fun d l => U [d, l])
      (fun d => X [d]) l := by
  have hD : U.dim 0 = D := by simp [Arr.dim, hU]
  have hL : U.dim 1 = L := by simp [Arr.dim, hU]
  have e : posterior_score_XOR_XOR_2D Z U X l = _ := run_score_xor2_out (U.dim 0) (U.dim 1) wrap16
    (fun d l' => Z [l'] ≠ U [d, l'] ∧ l' ≠ l)
    (fun d => -(X [d] * U [d, l])) (fun d => X [d] * U [d, l])
    (fun d s => s - X [d] * U [d, l]) (fun d s => s + X [d] * U [d, l])
    (by intros; ring) (by intros; ring)
  rw [e]
  refine ⟨(1) * _, congrArg wrap16 (one_mul _).symm, ?_⟩
  rw [hD, hL]
  apply two_mul_sum
  intro d
  have c1 : pred2 .XOR_XOR L (setEntry (fun l => Z [l]) l (1)) (fun l' => U [d, l']) = _ :=
    xor_cell L l hl (fun l => Z [l]) (fun v l' => v ≠ U [d, l'])
      (fun l' => Z [l'] ≠ U [d, l'] ∧ l' ≠ l) (fun l' _ => by tauto) (1) _
      fun l' => xor2 (pm_set hZ pZ (1) (Or.inl rfl) l') (pm_entry2 hU pU d.2 l'.2)
  have c0 : pred2 .XOR_XOR L (setEntry (fun l => Z [l]) l (-1)) (fun l' => U [d, l']) = _ :=
    xor_cell L l hl (fun l => Z [l]) (fun v l' => v ≠ U [d, l'])
      (fun l' => Z [l'] ≠ U [d, l'] ∧ l' ≠ l) (fun l' _ => by tauto) (-1) _
      fun l' => xor2 (pm_set hZ pZ (-1) (Or.inr rfl) l') (pm_entry2 hU pU d.2 l'.2)
  simp only [c1, c0]
  rw [one_mul]
  apply xorTerm_cell
  · ring
  · rcases pm_entry2 hU pU d.2 hl with h | h <;> simp [h] <;> ring

include hl hZ hU pZ pU in
theorem score_XOR_NXOR_2D : ∃ S, posterior_score_XOR_NXOR_2D Z U X l = wrap16 S ∧
    2 * S = twiceScore2 .XOR_NXOR D L (fun l => Z [l]) (fun d l => U [d, l])
      (fun d => X [d]) l := by
  have hD : U.dim 0 = D := by simp [Arr.dim, hU]
  have hL : U.dim 1 = L := by simp [Arr.dim, hU]
  have e : posterior_score_XOR_NXOR_2D Z U X l = _ := run_score_xor2_out (U.dim 0) (U.dim 1) wrap16
    (fun d l' => U [d, l'] = Z [l'] ∧ l' ≠ l)
    (fun d => X [d] * U [d, l]) (fun d => -(X [d] * U [d, l]))
    (fun d s => s + X [d] * U [d, l]) (fun d s => s - X [d] * U [d, l])
    (by intros; ring) (by intros; ring)
  rw [e]
  refine ⟨(1) * _, congrArg wrap16 (one_mul _).symm, ?_⟩
  rw [hD, hL]
  apply two_mul_sum
  intro d
  have c1 : pred2 .XOR_NXOR L (setEntry (fun l => Z [l]) l (1)) (fun l' => U [d, l']) = _ :=
    xor_cell L l hl (fun l => Z [l]) (fun v l' => v = U [d, l'])
      (fun l' => U [d, l'] = Z [l'] ∧ l' ≠ l) (fun l' _ => by rw [eq_comm]) (1) _
      fun l' => nxor2 (pm_set hZ pZ (1) (Or.inl rfl) l') (pm_entry2 hU pU d.2 l'.2)
  have c0 : pred2 .XOR_NXOR L (setEntry (fun l => Z [l]) l (-1)) (fun l' => U [d, l']) = _ :=
    xor_cell L l hl (fun l => Z [l]) (fun v l' => v = U [d, l'])
      (fun l' => U [d, l'] = Z [l'] ∧ l' ≠ l) (fun l' _ => by rw [eq_comm]) (-1) _
      fun l' => nxor2 (pm_set hZ pZ (-1) (Or.inr rfl) l') (pm_entry2 hU pU d.2 l'.2)
  simp only [c1, c0]
  rw [one_mul]
  apply xorTerm_cell
  · ring
  · rcases pm_entry2 hU pU d.2 hl with h | h <;> simp [h] <;> ring

end two

section three
variable {D M L : Nat} {Z U V X : Arr Int} {l : Nat} (hl : l < L) (hZ : Z.shape = [L])
  (hU : U.shape = [D, L]) (hV : V.shape = [M, L]) (pZ : PMArr Z) (pU : PMArr U) (pV : PMArr V)

include hl hZ hU hV pZ pU pV in
theorem score_OR_AND_3D : ∃ S, posterior_score_OR_AND_3D Z U V X l = wrap64 S ∧
    2 * S = twiceScore3 .OR_AND D M L (fun l => Z [l]) (fun d l => U [d, l]) (fun k l => V [k, l])
      (fun d k => X [d, k]) l := by
  have hD : U.dim 0 = D := by simp [Arr.dim, hU]
  have hL : U.dim 1 = L := by simp [Arr.dim, hU]
  have hM : V.dim 0 = M := by simp [Arr.dim, hV]
  have e : posterior_score_OR_AND_3D Z U V X l = _ := run_score_or3 (U.dim 0) (V.dim 0) (U.dim 1) wrap64
    (fun d k => U [d, l] ≠ 1 ∨ V [k, l] ≠ 1)
    (fun d k l' => Z [l'] = 1 ∧ U [d, l'] = 1 ∧ V [k, l'] = 1 ∧ l' ≠ l) (fun d k => X [d, k])
  rw [e]
  refine ⟨(1) * _, congrArg wrap64 (one_mul _).symm, ?_⟩
  rw [hD, hM, hL]
  apply two_mul_sum2
  intro d k
  have c1 : pred3 .OR_AND L (setEntry (fun l => Z [l]) l (1)) (fun l' => U [d, l']) (fun l' => V [k, l']) = _ :=
    or_cell L l hl (fun l => Z [l]) (fun v l' => v = 1 ∧ U [d, l'] = 1 ∧ V [k, l'] = 1)
      (fun l' => Z [l'] = 1 ∧ U [d, l'] = 1 ∧ V [k, l'] = 1 ∧ l' ≠ l) (fun l' _ => by tauto) (1) _
      fun l' => and3 (pm_set hZ pZ (1) (Or.inl rfl) l') (pm_entry2 hU pU d.2 l'.2) (pm_entry2 hV pV k.2 l'.2)
  have c0 : pred3 .OR_AND L (setEntry (fun l => Z [l]) l (-1)) (fun l' => U [d, l']) (fun l' => V [k, l']) = _ :=
    or_cell L l hl (fun l => Z [l]) (fun v l' => v = 1 ∧ U [d, l'] = 1 ∧ V [k, l'] = 1)
      (fun l' => Z [l'] = 1 ∧ U [d, l'] = 1 ∧ V [k, l'] = 1 ∧ l' ≠ l) (fun l' _ => by tauto) (-1) _
      fun l' => and3 (pm_set hZ pZ (-1) (Or.inr rfl) l') (pm_entry2 hU pU d.2 l'.2) (pm_entry2 hV pV k.2 l'.2)
  simp only [c1, c0]
  rw [one_mul]
  apply orTerm_cell
  rcases pm_entry2 hU pU d.2 hl with h | h <;> rcases pm_entry2 hV pV k.2 hl with h' | h' <;> simp [h, h'] <;> ring

include hl hZ hU hV pZ pU pV in
theorem score_XOR_AND_3D : ∃ S, posterior_score_XOR_AND_3D Z U V X l = wrap64 S ∧
    2 * S = twiceScore3 .XOR_AND D M L (fun l => Z [l]) (fun d l => U [d, l]) (fun k l => V [k, l])
      (fun d k => X [d, k]) l := by
  have hD : U.dim 0 = D := by simp [Arr.dim, hU]
  have hL : U.dim 1 = L := by simp [Arr.dim, hU]
  have hM : V.dim 0 = M := by simp [Arr.dim, hV]
  have e : posterior_score_XOR_AND_3D Z U V X l = _ := run_score_xor3_in (U.dim 0) (V.dim 0) (U.dim 1) wrap64
    (fun d k => U [d, l] ≠ 1 ∨ V [k, l] ≠ 1)
    (fun d k l' => Z [l'] = 1 ∧ U [d, l'] = 1 ∧ V [k, l'] = 1 ∧ l' ≠ l)
    (fun d k => X [d, k]) (fun d k => -(X [d, k]))
    (fun d k s => s + X [d, k]) (fun d k s => s - X [d, k])
    (by intros; ring) (by intros; ring)
  rw [e]
  refine ⟨(1) * _, congrArg wrap64 (one_mul _).symm, ?_⟩
  rw [hD, hM, hL]
  apply two_mul_sum2
  intro d k
  have c1 : pred3 .XOR_AND L (setEntry (fun l => Z [l]) l (1)) (fun l' => U [d, l']) (fun l' => V [k, l']) = _ :=
    xor_cell L l hl (fun l => Z [l]) (fun v l' => v = 1 ∧ U [d, l'] = 1 ∧ V [k, l'] = 1)
      (fun l' => Z [l'] = 1 ∧ U [d, l'] = 1 ∧ V [k, l'] = 1 ∧ l' ≠ l) (fun l' _ => by tauto) (1) _
      fun l' => and3 (pm_set hZ pZ (1) (Or.inl rfl) l') (pm_entry2 hU pU d.2 l'.2) (pm_entry2 hV pV k.2 l'.2)
  have c0 : pred3 .XOR_AND L (setEntry (fun l => Z [l]) l (-1)) (fun l' => U [d, l']) (fun l' => V [k, l']) = _ :=
    xor_cell L l hl (fun l => Z [l]) (fun v l' => v = 1 ∧ U [d, l'] = 1 ∧ V [k, l'] = 1)
      (fun l' => Z [l'] = 1 ∧ U [d, l'] = 1 ∧ V [k, l'] = 1 ∧ l' ≠ l) (fun l' _ => by tauto) (-1) _
      fun l' => and3 (pm_set hZ pZ (-1) (Or.inr rfl) l') (pm_entry2 hU pU d.2 l'.2) (pm_entry2 hV pV k.2 l'.2)
  simp only [c1, c0]
  rw [one_mul]
  apply xorTerm_cell
  · ring
  · rcases pm_entry2 hU pU d.2 hl with h | h <;> rcases pm_entry2 hV pV k.2 hl with h' | h' <;> simp [h, h'] <;> ring

include hl hZ hU hV pZ pU pV in
theorem score_XOR_NAND_3D : ∃ S, posterior_score_XOR_NAND_3D Z U V X l = wrap64 S ∧
    2 * S = twiceScore3 .XOR_NAND D M L (fun l => Z [l]) (fun d l => U [d, l]) (fun k l => V [k, l])
      (fun d k => X [d, k]) l := by
  have hD : U.dim 0 = D := by simp [Arr.dim, hU]
  have hL : U.dim 1 = L := by simp [Arr.dim, hU]
  have hM : V.dim 0 = M := by simp [Arr.dim, hV]
  have e : posterior_score_XOR_NAND_3D Z U V X l = _ := run_score_xor3_in (U.dim 0) (V.dim 0) (U.dim 1) (fun s => wrap64 (-s))
    (fun d k => U [d, l] ≠ 1 ∨ V [k, l] ≠ 1)
    (fun d k l' => (Z [l'] ≠ 1 ∨ U [d, l'] ≠ 1 ∨ V [k, l'] ≠ 1) ∧ l' ≠ l)
    (fun d k => X [d, k]) (fun d k => -(X [d, k]))
    (fun d k s => s + X [d, k]) (fun d k s => s - X [d, k])
    (by intros; ring) (by intros; ring)
  rw [e]
  refine ⟨(-1) * _, congrArg wrap64 (neg_one_mul _).symm, ?_⟩
  rw [hD, hM, hL]
  apply two_mul_sum2
  intro d k
  have c1 : pred3 .XOR_NAND L (setEntry (fun l => Z [l]) l (1)) (fun l' => U [d, l']) (fun l' => V [k, l']) = _ :=
    xor_cell L l hl (fun l => Z [l]) (fun v l' => v ≠ 1 ∨ U [d, l'] ≠ 1 ∨ V [k, l'] ≠ 1)
      (fun l' => (Z [l'] ≠ 1 ∨ U [d, l'] ≠ 1 ∨ V [k, l'] ≠ 1) ∧ l' ≠ l) (fun l' _ => by tauto) (1) _
      fun l' => nand3' (pm_set hZ pZ (1) (Or.inl rfl) l') (pm_entry2 hU pU d.2 l'.2) (pm_entry2 hV pV k.2 l'.2)
  have c0 : pred3 .XOR_NAND L (setEntry (fun l => Z [l]) l (-1)) (fun l' => U [d, l']) (fun l' => V [k, l']) = _ :=
    xor_cell L l hl (fun l => Z [l]) (fun v l' => v ≠ 1 ∨ U [d, l'] ≠ 1 ∨ V [k, l'] ≠ 1)
      (fun l' => (Z [l'] ≠ 1 ∨ U [d, l'] ≠ 1 ∨ V [k, l'] ≠ 1) ∧ l' ≠ l) (fun l' _ => by tauto) (-1) _
      fun l' => nand3' (pm_set hZ pZ (-1) (Or.inr rfl) l') (pm_entry2 hU pU d.2 l'.2) (pm_entry2 hV pV k.2 l'.2)
  simp only [c1, c0]
  rw [neg_one_mul, mul_neg, neg_eq_iff_eq_neg, ← neg_mul]
  apply xorTerm_cell
  · ring
  · rcases pm_entry2 hU pU d.2 hl with h | h <;> rcases pm_entry2 hV pV k.2 hl with h' | h' <;> simp [h, h'] <;> ring

include hl hZ hU hV pZ pU pV in
theorem score_OR_NAND_3D : ∃ S, posterior_score_OR_NAND_3D Z U V X l = wrap64 S ∧
    2 * S = twiceScore3 .OR_NAND D M L (fun l => Z [l]) (fun d l => U [d, l]) (fun k l => V [k, l])
      (fun d k => X [d, k]) l := by
  have hD : U.dim 0 = D := by simp [Arr.dim, hU]
  have hL : U.dim 1 = L := by simp [Arr.dim, hU]
  have hM : V.dim 0 = M := by simp [Arr.dim, hV]
  have e : posterior_score_OR_NAND_3D Z U V X l = _ := run_score_or3 (U.dim 0) (V.dim 0) (U.dim 1) (fun s => wrap64 (-s))
    (fun d k => U [d, l] = -1 ∨ V [k, l] = -1)
    (fun d k l' => (Z [l'] = -1 ∨ U [d, l'] = -1 ∨ V [k, l'] = -1) ∧ l' ≠ l) (fun d k => X [d, k])
  rw [e]
  refine ⟨(-1) * _, congrArg wrap64 (neg_one_mul _).symm, ?_⟩
  rw [hD, hM, hL]
  apply two_mul_sum2
  intro d k
  have c1 : pred3 .OR_NAND L (setEntry (fun l => Z [l]) l (1)) (fun l' => U [d, l']) (fun l' => V [k, l']) = _ :=
    or_cell L l hl (fun l => Z [l]) (fun v l' => v = -1 ∨ U [d, l'] = -1 ∨ V [k, l'] = -1)
      (fun l' => (Z [l'] = -1 ∨ U [d, l'] = -1 ∨ V [k, l'] = -1) ∧ l' ≠ l) (fun l' _ => by tauto) (1) _
      fun l' => nand3 (pm_set hZ pZ (1) (Or.inl rfl) l') (pm_entry2 hU pU d.2 l'.2) (pm_entry2 hV pV k.2 l'.2)
  have c0 : pred3 .OR_NAND L (setEntry (fun l => Z [l]) l (-1)) (fun l' => U [d, l']) (fun l' => V [k, l']) = _ :=
    or_cell L l hl (fun l => Z [l]) (fun v l' => v = -1 ∨ U [d, l'] = -1 ∨ V [k, l'] = -1)
      (fun l' => (Z [l'] = -1 ∨ U [d, l'] = -1 ∨ V [k, l'] = -1) ∧ l' ≠ l) (fun l' _ => by tauto) (-1) _
      fun l' => nand3 (pm_set hZ pZ (-1) (Or.inr rfl) l') (pm_entry2 hU pU d.2 l'.2) (pm_entry2 hV pV k.2 l'.2)
  simp only [c1, c0]
  rw [neg_one_mul, mul_neg, neg_eq_iff_eq_neg, ← neg_mul]
  apply orTerm_cell
  rcases pm_entry2 hU pU d.2 hl with h | h <;> rcases pm_entry2 hV pV k.2 hl with h' | h' <;> simp [h, h'] <;> ring

include hl hZ hU hV pZ pU pV in
theorem score_OR_XOR_3D : ∃ S, posterior_score_OR_XOR_3D Z U V X l = wrap64 S ∧
    2 * S = twiceScore3 .OR_XOR D M L (fun l => Z [l]) (fun d l => U [d, l]) (fun k l => V [k, l])
      (fun d k => X [d, k]) l := by
  have hD : U.dim 0 = D := by simp [Arr.dim, hU]
  have hL : U.dim 1 = L := by simp [Arr.dim, hU]
  have hM : V.dim 0 = M := by simp [Arr.dim, hV]
  have e : posterior_score_OR_XOR_3D Z U V X l = _ := run_score_or3 (U.dim 0) (V.dim 0) (U.dim 1) wrap64
    (fun d k => U [d, l] = 1 ∧ V [k, l] = 1)
    (fun d k l' => Z [l'] + U [d, l'] + V [k, l'] = -1 ∧ l' ≠ l) (fun d k => X [d, k] * U [d, l] * V [k, l])
  rw [e]
  refine ⟨(1) * _, congrArg wrap64 (one_mul _).symm, ?_⟩
  rw [hD, hM, hL]
  apply two_mul_sum2
  intro d k
  have c1 : pred3 .OR_XOR L (setEntry (fun l => Z [l]) l (1)) (fun l' => U [d, l']) (fun l' => V [k, l']) = _ :=
    or_cell L l hl (fun l => Z [l]) (fun v l' => v + U [d, l'] + V [k, l'] = -1)
      (fun l' => Z [l'] + U [d, l'] + V [k, l'] = -1 ∧ l' ≠ l) (fun l' _ => by tauto) (1) _
      fun l' => xor3 (pm_set hZ pZ (1) (Or.inl rfl) l') (pm_entry2 hU pU d.2 l'.2) (pm_entry2 hV pV k.2 l'.2)
  have c0 : pred3 .OR_XOR L (setEntry (fun l => Z [l]) l (-1)) (fun l' => U [d, l']) (fun l' => V [k, l']) = _ :=
    or_cell L l hl (fun l => Z [l]) (fun v l' => v + U [d, l'] + V [k, l'] = -1)
      (fun l' => Z [l'] + U [d, l'] + V [k, l'] = -1 ∧ l' ≠ l) (fun l' _ => by tauto) (-1) _
      fun l' => xor3 (pm_set hZ pZ (-1) (Or.inr rfl) l') (pm_entry2 hU pU d.2 l'.2) (pm_entry2 hV pV k.2 l'.2)
  simp only [c1, c0]
  rw [one_mul]
  apply orTerm_cell
  rcases pm_entry2 hU pU d.2 hl with h | h <;> rcases pm_entry2 hV pV k.2 hl with h' | h' <;> simp [h, h'] <;> ring

include hl hZ hU hV pZ pU pV in
theorem score_NAND_XOR_3D : ∃ S, posterior_score_NAND_XOR_3D Z U V X l = wrap64 S ∧
    2 * S = twiceScore3 .NAND_XOR D M L (fun l => Z [l]) (fun d l => U [d, l]) (fun k l => V [k, l])
      (fun d k => X [d, k]) l := by
  have hD : U.dim 0 = D := by simp [Arr.dim, hU]
  have hL : U.dim 1 = L := by simp [Arr.dim, hU]
  have hM : V.dim 0 = M := by simp [Arr.dim, hV]
  have e : posterior_score_NAND_XOR_3D Z U V X l = _ := run_score_or3 (U.dim 0) (V.dim 0) (U.dim 1) (fun s => wrap64 (-s))
    (fun d k => U [d, l] = 1 ∧ V [k, l] = 1)
    (fun d k l' => Z [l'] + U [d, l'] + V [k, l'] ≠ -1 ∧ l' ≠ l) (fun d k => X [d, k] * U [d, l] * V [k, l])
  rw [e]
  refine ⟨(-1) * _, congrArg wrap64 (neg_one_mul _).symm, ?_⟩
  rw [hD, hM, hL]
  apply two_mul_sum2
  intro d k
  have c1 : pred3 .NAND_XOR L (setEntry (fun l => Z [l]) l (1)) (fun l' => U [d, l']) (fun l' => V [k, l']) = _ :=
    nand_cell L l hl (fun l => Z [l]) (fun v l' => v + U [d, l'] + V [k, l'] ≠ -1)
      (fun l' => Z [l'] + U [d, l'] + V [k, l'] ≠ -1 ∧ l' ≠ l) (fun l' _ => by tauto) (1) _
      fun l' => (xor3 (pm_set hZ pZ (1) (Or.inl rfl) l') (pm_entry2 hU pU d.2 l'.2) (pm_entry2 hV pV k.2 l'.2)).not
  have c0 : pred3 .NAND_XOR L (setEntry (fun l => Z [l]) l (-1)) (fun l' => U [d, l']) (fun l' => V [k, l']) = _ :=
    nand_cell L l hl (fun l => Z [l]) (fun v l' => v + U [d, l'] + V [k, l'] ≠ -1)
      (fun l' => Z [l'] + U [d, l'] + V [k, l'] ≠ -1 ∧ l' ≠ l) (fun l' _ => by tauto) (-1) _
      fun l' => (xor3 (pm_set hZ pZ (-1) (Or.inr rfl) l') (pm_entry2 hU pU d.2 l'.2) (pm_entry2 hV pV k.2 l'.2)).not
  simp only [c1, c0]
  rw [neg_one_mul, mul_neg, neg_eq_iff_eq_neg, ← neg_mul]
  apply orTerm_cell
  rcases pm_entry2 hU pU d.2 hl with h | h <;> rcases pm_entry2 hV pV k.2 hl with h' | h' <;> simp [h, h'] <;> ring

include hl hZ hU hV pZ pU pV in
theorem score_XOR_XOR_3D : ∃ S, posterior_score_XOR_XOR_3D Z U V X l = wrap64 S ∧
    2 * S = twiceScore3 .XOR_XOR D M L (fun l => Z [l]) (fun d l => U [d, l]) (fun k l => V [k, l])
      (fun d k => X [d, k]) l := by
  have hD : U.dim 0 = D := by simp [Arr.dim, hU]
  have hL : U.dim 1 = L := by simp [Arr.dim, hU]
  have hM : V.dim 0 = M := by simp [Arr.dim, hV]
  have e : posterior_score_XOR_XOR_3D Z U V X l = _ := run_score_xor3_out (U.dim 0) (V.dim 0) (U.dim 1) wrap64
    (fun d k => U [d, l] = 1 ∧ V [k, l] = 1)
    (fun d k l' => Z [l'] + U [d, l'] + V [k, l'] = -1 ∧ l' ≠ l)
    (fun d k => X [d, k] * U [d, l] * V [k, l]) (fun d k => -(X [d, k] * U [d, l] * V [k, l]))
    (fun d k s => s + X [d, k] * U [d, l] * V [k, l]) (fun d k s => s - X [d, k] * U [d, l] * V [k, l])
    (by intros; ring) (by intros; ring)
  rw [e]
  refine ⟨(1) * _, congrArg wrap64 (one_mul _).symm, ?_⟩
  rw [hD, hM, hL]
  apply two_mul_sum2
  intro d k
  have c1 : pred3 .XOR_XOR L (setEntry (fun l => Z [l]) l (1)) (fun l' => U [d, l']) (fun l' => V [k, l']) = _ :=
    xor_cell L l hl (fun l => Z [l]) (fun v l' => v + U [d, l'] + V [k, l'] = -1)
      (fun l' => Z [l'] + U [d, l'] + V [k, l'] = -1 ∧ l' ≠ l) (fun l' _ => by tauto) (1) _
      fun l' => xor3 (pm_set hZ pZ (1) (Or.inl rfl) l') (pm_entry2 hU pU d.2 l'.2) (pm_entry2 hV pV k.2 l'.2)
  have c0 : pred3 .XOR_XOR L (setEntry (fun l => Z [l]) l (-1)) (fun l' => U [d, l']) (fun l' => V [k, l']) = _ :=
    xor_cell L l hl (fun l => Z [l]) (fun v l' => v + U [d, l'] + V [k, l'] = -1)
      (fun l' => Z [l'] + U [d, l'] + V [k, l'] = -1 ∧ l' ≠ l) (fun l' _ => by tauto) (-1) _
      fun l' => xor3 (pm_set hZ pZ (-1) (Or.inr rfl) l') (pm_entry2 hU pU d.2 l'.2) (pm_entry2 hV pV k.2 l'.2)
  simp only [c1, c0]
  rw [one_mul]
  apply xorTerm_cell
  · ring
  · rcases pm_entry2 hU pU d.2 hl with h | h <;> rcases pm_entry2 hV pV k.2 hl with h' | h' <;> simp [h, h'] <;> ring

include hl hZ hU hV pZ pU pV in
theorem score_XOR_NXOR_3D : ∃ S, posterior_score_XOR_NXOR_3D Z U V X l = wrap64 S ∧
    2 * S = twiceScore3 .XOR_NXOR D M L (fun l => Z [l]) (fun d l => U [d, l]) (fun k l => V [k, l])
      (fun d k => X [d, k]) l := by
  have hD : U.dim 0 = D := by simp [Arr.dim, hU]
  have hL : U.dim 1 = L := by simp [Arr.dim, hU]
  have hM : V.dim 0 = M := by simp [Arr.dim, hV]
  have e : posterior_score_XOR_NXOR_3D Z U V X l = _ := run_score_xor3_out (U.dim 0) (V.dim 0) (U.dim 1) wrap64
    (fun d k => U [d, l] = 1 ∧ V [k, l] = 1)
    (fun d k l' => U [d, l'] + Z [l'] + V [k, l'] ≠ -1 ∧ l' ≠ l)
    (fun d k => -(X [d, k] * U [d, l] * V [k, l])) (fun d k => X [d, k] * U [d, l] * V [k, l])
    (fun d k s => s - X [d, k] * U [d, l] * V [k, l]) (fun d k s => s + X [d, k] * U [d, l] * V [k, l])
    (by intros; ring) (by intros; ring)
  rw [e]
  refine ⟨(1) * _, congrArg wrap64 (one_mul _).symm, ?_⟩
  rw [hD, hM, hL]
  apply two_mul_sum2
  intro d k
  have c1 : pred3 .XOR_NXOR L (setEntry (fun l => Z [l]) l (1)) (fun l' => U [d, l']) (fun l' => V [k, l']) = _ :=
    xor_cell L l hl (fun l => Z [l]) (fun v l' => v + U [d, l'] + V [k, l'] ≠ -1)
      (fun l' => U [d, l'] + Z [l'] + V [k, l'] ≠ -1 ∧ l' ≠ l) (fun l' _ => by rw [add_comm (U [d, l'])]) (1) _
      fun l' => nxor3 (pm_set hZ pZ (1) (Or.inl rfl) l') (pm_entry2 hU pU d.2 l'.2) (pm_entry2 hV pV k.2 l'.2)
  have c0 : pred3 .XOR_NXOR L (setEntry (fun l => Z [l]) l (-1)) (fun l' => U [d, l']) (fun l' => V [k, l']) = _ :=
    xor_cell L l hl (fun l => Z [l]) (fun v l' => v + U [d, l'] + V [k, l'] ≠ -1)
      (fun l' => U [d, l'] + Z [l'] + V [k, l'] ≠ -1 ∧ l' ≠ l) (fun l' _ => by rw [add_comm (U [d, l'])]) (-1) _
      fun l' => nxor3 (pm_set hZ pZ (-1) (Or.inr rfl) l') (pm_entry2 hU pU d.2 l'.2) (pm_entry2 hV pV k.2 l'.2)
  simp only [c1, c0]
  rw [one_mul]
  apply xorTerm_cell
  · ring
  · rcases pm_entry2 hU pU d.2 hl with h | h <;> rcases pm_entry2 hV pV k.2 hl with h' | h' <;> simp [h, h'] <;> ring

end three

theorem pm_sub_abs (P Q : Prop) : -2 ≤ pm P - pm Q ∧ pm P - pm Q ≤ 2 := by
  unfold pm
  split <;> split <;> omega

theorem data_mul_bound {x y : Int} (hx : IsData x) (h1 : -2 ≤ y) (h2 : y ≤ 2) :
    -2 ≤ x * y ∧ x * y ≤ 2 := by
  rcases hx with rfl | rfl | rfl <;> omega

theorem sum_bound (D : Nat) (g : Fin D → Int) (c : Int) (h : ∀ d, -c ≤ g d ∧ g d ≤ c) :
    -(c * D) ≤ ∑ d, g d ∧ ∑ d, g d ≤ c * D := by
  induction D with
  | zero => simp
  | succ n ih =>
    rw [Fin.sum_univ_castSucc]
    have h1 := ih (fun d => g d.castSucc) fun d => h _
    have h2 := h (Fin.last n)
    push_cast
    constructor <;> nlinarith

theorem twiceScore2_bound (m : Lom8) (D L : Nat) (z : Nat → Int) (u : Nat → Nat → Int)
    (x : Nat → Int) (l : Nat) (hx : ∀ d < D, IsData (x d)) :
    -(2 * (D : Int)) ≤ twiceScore2 m D L z u x l ∧ twiceScore2 m D L z u x l ≤ 2 * D := by
  apply sum_bound
  intro d
  exact data_mul_bound (hx d d.2) (pm_sub_abs _ _).1 (pm_sub_abs _ _).2

theorem twiceScore3_bound (m : Lom8) (D M L : Nat) (z : Nat → Int) (u v : Nat → Nat → Int)
    (x : Nat → Nat → Int) (l : Nat) (hx : ∀ d k, d < D → k < M → IsData (x d k)) :
    -(2 * ((D * M : Nat) : Int)) ≤ twiceScore3 m D M L z u v x l ∧
      twiceScore3 m D M L z u v x l ≤ 2 * ((D * M : Nat) : Int) := by
  have h := sum_bound D (fun d => ∑ k : Fin M, x d k *
    (pred3 m L (setEntry z l 1) (u d) (v k) - pred3 m L (setEntry z l (-1)) (u d) (v k))) (2 * M)
    (fun d => sum_bound M _ 2 fun k =>
      data_mul_bound (hx d k d.2 k.2) (pm_sub_abs _ _).1 (pm_sub_abs _ _).2)
  unfold twiceScore3
  push_cast
  constructor <;> nlinarith [h.1, h.2]

end LFM

import Mathlib.Data.Fintype.Prod
import Mathlib.Data.Fintype.BigOperators
import Mathlib.Algebra.BigOperators.Fin
import Mathlib.Algebra.BigOperators.Ring.Finset
import Verif.Lemmas.Loops
import Verif.Model.LambdaUpdates

/-! Counting loops and the number of valid indices. -/

namespace LFM

open List

theorem foldl_count {α : Type} (xs : List α) (c : Nat) (t : α → Nat) :
    xs.foldl (fun b a => b + t a) c = c + (xs.map t).sum := by
  induction xs generalizing c with
  | nil => simp
  | cons x xs ih => simp [ih, add_assoc]

theorem sum_map_range {M : Type} [AddCommMonoid M] (n : Nat) (t : Nat → M) :
    ((List.range n).map t).sum = ∑ i : Fin n, t i := by
  rw [Fin.sum_univ_eq_sum_range (fun i => t i) n]; rfl

/-- two nested counting loops -/
theorem run_count2 (N D : Nat) (p : Nat → Nat → Prop) [∀ n d, Decidable (p n d)] :
    (Id.run do
      let mut count := 0
      for n in List.range N do
        for d in List.range D do
          if p n d then
            count := count + 1
      return count) = (Finset.univ.filter fun i : Fin N × Fin D => p i.1 i.2).card := by
  simp only [Id.run_bind, Id.run_pure]
  rw [run_forIn_yield _ _ _ (fun b n => b + ((List.range D).map fun d => if p n d then 1 else 0).sum)]
  · rw [foldl_count, zero_add, sum_map_range, Finset.card_filter, Fintype.sum_prod_type]
    exact Finset.sum_congr rfl fun n _ => sum_map_range D _
  · intro n b
    simp only [Id.run_bind, Id.run_pure]
    rw [run_forIn_yield _ _ _ (fun b d => b + if p n d then 1 else 0) (by
      intro d b; by_cases h : p n d <;> simp [h])]
    rw [foldl_count]

/-- three nested counting loops -/
theorem run_count3 (N D M : Nat) (p : Nat → Nat → Nat → Prop) [∀ n d m, Decidable (p n d m)] :
    (Id.run do
      let mut count := 0
      for n in List.range N do
        for d in List.range D do
          for m in List.range M do
            if p n d m then
              count := count + 1
      return count) =
      (Finset.univ.filter fun i : Fin N × Fin D × Fin M => p i.1 i.2.1 i.2.2).card := by
  simp only [Id.run_bind, Id.run_pure]
  rw [run_forIn_yield _ _ _ (fun b n => b + ((List.range D).map fun d =>
    ((List.range M).map fun m => if p n d m then 1 else 0).sum).sum)]
  · rw [foldl_count, zero_add, sum_map_range, Finset.card_filter, Fintype.sum_prod_type]
    refine Finset.sum_congr rfl fun n _ => ?_
    rw [sum_map_range, Fintype.sum_prod_type]
    exact Finset.sum_congr rfl fun d _ => sum_map_range M _
  · intro n b
    simp only [Id.run_bind, Id.run_pure]
    rw [run_forIn_yield _ _ _ (fun b d => b + ((List.range M).map fun m =>
      if p n d m then 1 else 0).sum)]
    · rw [foldl_count]
    · intro d b
      simp only [Id.run_bind, Id.run_pure]
      rw [run_forIn_yield _ _ _ (fun b m => b + if p n d m then 1 else 0) (by
        intro m b; by_cases h : p n d m <;> simp [h])]
      rw [foldl_count]

theorem count_correct_2d_eq (f : Arr Int → Arr Int → Int) (Z U X : Arr Int) (N D : Nat)
    (hX : X.shape = [N, D]) : count_correct_2d f Z U X =
      (Finset.univ.filter fun i : Fin N × Fin D => f (Z.row i.1) (U.row i.2) = X [i.1, i.2]).card := by
  have hN : X.dim 0 = N := by simp [Arr.dim, hX]
  have hD : X.dim 1 = D := by simp [Arr.dim, hX]
  rw [← run_count2 N D fun n d => f (Z.row n) (U.row d) = X [n, d], ← hN, ← hD]; rfl

theorem count_correct_qL_eq (Z U X q : Arr Int) (N D : Nat)
    (hX : X.shape = [N, D]) : count_correct_qL Z U X q =
      (Finset.univ.filter fun i : Fin N × Fin D =>
        qL_AND_product (Z.row i.1) (U.row i.2) (q [i.2]) = X [i.1, i.2]).card := by
  have hN : X.dim 0 = N := by simp [Arr.dim, hX]
  have hD : X.dim 1 = D := by simp [Arr.dim, hX]
  rw [← run_count2 N D fun n d => qL_AND_product (Z.row n) (U.row d) (q [d]) = X [n, d], ← hN, ← hD]
  rfl

theorem count_correct_3d_eq (f : Arr Int → Arr Int → Arr Int → Int) (Z U V X : Arr Int)
    (N D M : Nat) (hX : X.shape = [N, D, M]) : count_correct_3d f Z U V X =
      (Finset.univ.filter fun i : Fin N × Fin D × Fin M =>
        f (Z.row i.1) (U.row i.2.1) (V.row i.2.2) = X [i.1, i.2.1, i.2.2]).card := by
  have hN : X.dim 0 = N := by simp [Arr.dim, hX]
  have hD : X.dim 1 = D := by simp [Arr.dim, hX]
  have hM : X.dim 2 = M := by simp [Arr.dim, hX]
  rw [← run_count3 N D M fun n d m => f (Z.row n) (U.row d) (V.row m) = X [n, d, m], ← hN, ← hD, ← hM]
  rfl

theorem length_indices (s : List Nat) : (indices s).length = s.prod := by
  induction s with
  | nil => rfl
  | cons d ds ih => simp [indices, List.length_flatMap, ih]

theorem countP_indices2 (N D : Nat) (p : List Nat → Prop) [DecidablePred p] :
    (indices [N, D]).countP p =
      (Finset.univ.filter fun i : Fin N × Fin D => p [i.1, i.2]).card := by
  simp only [indices, List.map_flatMap, List.countP_flatMap, List.map_cons,
    List.map_nil]
  rw [Finset.card_filter, Fintype.sum_prod_type, sum_map_range]
  refine Finset.sum_congr rfl fun n _ => ?_
  simp only [Function.comp_def, List.countP_flatMap]
  rw [sum_map_range]
  refine Finset.sum_congr rfl fun d _ => ?_
  simp [List.countP_cons]

theorem countP_indices3 (N D M : Nat) (p : List Nat → Prop) [DecidablePred p] :
    (indices [N, D, M]).countP p =
      (Finset.univ.filter fun i : Fin N × Fin D × Fin M => p [i.1, i.2.1, i.2.2]).card := by
  rw [show indices [N, D, M] = (List.range N).flatMap fun n => (indices [D, M]).map (n :: ·) from rfl,
    List.countP_flatMap, sum_map_range, Finset.card_filter, Fintype.sum_prod_type]
  refine Finset.sum_congr rfl fun n _ => ?_
  simp only [Function.comp_def, List.countP_map]
  rw [← Finset.card_filter]
  exact countP_indices2 D M fun i => p (n :: i)

/-- the number of observed cells is the number of non-zero cells (any shape) -/
theorem num_observed_eq_countP (X : Arr Int) :
    num_observed X = ((indices X.shape).countP fun i => X i ≠ 0 : Nat) := by
  have h := List.length_eq_countP_add_countP (fun i => decide (X i = 0)) (l := indices X.shape)
  rw [length_indices] at h
  unfold num_observed
  have h2 : (indices X.shape).countP (fun i => decide ¬ decide (X i = 0) = true) =
    (indices X.shape).countP fun i => X i ≠ 0 := by
    apply List.countP_congr; simp
  rw [h2] at h
  omega

end LFM

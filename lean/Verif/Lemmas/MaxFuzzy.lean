import Mathlib.Algebra.BigOperators.Intervals
import Verif.Spec.Output
import Verif.Lemmas.Outputs

/-!
# The loops of `MAX_AND_product_fuzzy`
-/

namespace LFM

theorem foldl_mul_range (L : Nat) (f : Nat → ℝ) (a : ℝ) :
    (List.range L).foldl (fun p l => p * f l) a = a * ∏ l ∈ Finset.range L, f l := by
  induction L with
  | zero => simp
  | succ L ih => rw [List.range_succ, List.foldl_append, ih, Finset.prod_range_succ]; simp [mul_assoc]

theorem foldl_add_range (L : Nat) (f : Nat → ℝ) (a : ℝ) :
    (List.range L).foldl (fun p l => p + f l) a = a + ∑ l ∈ Finset.range L, f l := by
  induction L with
  | zero => simp
  | succ L ih => rw [List.range_succ, List.foldl_append, ih, Finset.sum_range_succ]; simp [add_assoc]

/-- one cell: sum over the dimensions, each multiplied by the probability that no dimension with a larger product of
probability and lambda is on -/
noncomputable def maxFuzzyCell (L : Nat) (p lb : Nat → ℝ) : ℝ :=
  ∑ i ∈ Finset.range L, p i * lb i * ∏ j ∈ Finset.range L, if i = j then 1 else
    if p j * lb j > p i * lb i then 1 - p j else 1

theorem MAX_AND_product_fuzzy_get {Z U : Arr ℝ} {N D L : Nat} (hZ : Z.shape = [N, L]) (hU : U.shape = [D, L])
    (lb : Arr ℝ) : (MAX_AND_product_fuzzy Z U lb).shape = [N, D] ∧ ∀ n d, n < N → d < D →
      MAX_AND_product_fuzzy Z U lb [n, d] = maxFuzzyCell L (fun l => Z [n, l] * U [d, l]) (fun l => lb [l]) := by
  have hN : Z.dim 0 = N := by simp [Arr.dim, hZ]
  have hL : Z.dim 1 = L := by simp [Arr.dim, hZ]
  have hD : U.dim 0 = D := by simp [Arr.dim, hU]
  have e : MAX_AND_product_fuzzy Z U lb = (List.range N).foldl (fun X n => (List.range D).foldl (fun X d =>
      X.set [n, d] (maxFuzzyCell L (fun l => Z [n, l] * U [d, l]) (fun l => lb [l]))) X) (Arr.full [N, D] 0) := by
    unfold MAX_AND_product_fuzzy
    simp only [Id.run_bind, Id.run_pure, hN, hD, hL]
    rw [run_forIn_yield _ _ _ (fun X n => (List.range D).foldl (fun X d =>
      X.set [n, d] (maxFuzzyCell L (fun l => Z [n, l] * U [d, l]) (fun l => lb [l]))) X)]
    intro n X
    simp only [Id.run_bind, Id.run_pure]
    rw [run_forIn_yield _ _ _ (fun X d =>
      X.set [n, d] (maxFuzzyCell L (fun l => Z [n, l] * U [d, l]) (fun l => lb [l])))]
    intro d X
    simp only [Id.run_bind, Id.run_pure]
    rw [run_forIn_yield _ _ _ (fun (acc : ℝ) i => acc + Z [n, i] * U [d, i] * lb [i] *
      ∏ j ∈ Finset.range L, if i = j then 1 else
        if Z [n, j] * U [d, j] * lb [j] > Z [n, i] * U [d, i] * lb [i] then 1 - Z [n, j] * U [d, j] else 1)]
    · rw [foldl_add_range, zero_add]
      rfl
    · intro i acc
      simp only [Id.run_bind, Id.run_pure]
      rw [run_forIn_yield _ _ _ (fun (p : ℝ) j => p * if i = j then 1 else
        if Z [n, j] * U [d, j] * lb [j] > Z [n, i] * U [d, i] * lb [i] then 1 - Z [n, j] * U [d, j] else 1)]
      · rw [foldl_mul_range, one_mul]
      · intro j p
        by_cases h1 : i = j
        · simp [h1]
        · by_cases h2 : Z [n, j] * U [d, j] * lb [j] > Z [n, i] * U [d, i] * lb [i]
          · simp [h1, h2]
          · simp [h1, h2]
  have h := fill2 N D (fun n d => maxFuzzyCell L (fun l => Z [n, l] * U [d, l]) (fun l => lb [l])) (Arr.full [N, D] 0)
  rw [e]
  exact ⟨h.1, fun n d hn hd => h.2 n d hn hd⟩

end LFM

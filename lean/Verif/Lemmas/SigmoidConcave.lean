import Mathlib.Analysis.Convex.Deriv
import Mathlib.Analysis.Convex.Jensen
import Mathlib.Analysis.SpecialFunctions.ExpDeriv
import Mathlib.Analysis.Calculus.Deriv.Inv
import Verif.Lemmas.Lambda
import Verif.Lemmas.Flip

namespace LFM

open Spec

theorem sigmoid_hasDeriv (x : ℝ) : HasDerivAt sigmoid (sigmoid x * (1 - sigmoid x)) x := by
  have hpos : 1 + Real.exp (-x) ≠ 0 := by positivity
  have h1 : HasDerivAt (fun y : ℝ => 1 + Real.exp (-y)) (-Real.exp (-x)) x := by
    have := ((hasDerivAt_neg x).exp).const_add 1
    simpa using this
  have h2 := HasDerivAt.inv h1 hpos
  have h3 : (fun y : ℝ => (1 + Real.exp (-y))⁻¹) = sigmoid := by
    funext y; simp [sigmoid]
  have h4 : (fun y : ℝ => 1 + Real.exp (-y))⁻¹ = sigmoid := h3
  rw [h4] at h2
  have h5 : -(-Real.exp (-x)) / (1 + Real.exp (-x)) ^ 2 = sigmoid x * (1 - sigmoid x) := by
    unfold sigmoid
    field_simp
    ring
  rw [← h5]
  exact h2

theorem sigmoid_strictConcave : StrictConcaveOn ℝ (Set.Ici 0) sigmoid := by
  refine StrictAntiOn.strictConcaveOn_of_deriv (convex_Ici 0)
    (fun x _ => (sigmoid_hasDeriv x).continuousAt.continuousWithinAt) ?_
  rw [interior_Ici]
  intro x hx y hy hxy
  rw [(sigmoid_hasDeriv x).deriv, (sigmoid_hasDeriv y).deriv]
  have h1 : sigmoid x < sigmoid y := sigmoid_strictMono hxy
  have h2 : 1 / 2 ≤ sigmoid x := (half_le_sigmoid_iff x).mpr (le_of_lt hx)
  nlinarith

/-- the average of the sigmoids is at most the sigmoid of the average -/
theorem sigmoid_average {S : Nat} (hS : 0 < S) (lam : Nat → ℝ) (h0 : ∀ t < S, 0 ≤ lam t) :
    (∑ t ∈ Finset.range S, sigmoid (lam t)) / S ≤ sigmoid ((∑ t ∈ Finset.range S, lam t) / S) := by
  have hS' : (0 : ℝ) < S := by exact_mod_cast hS
  have := sigmoid_strictConcave.concaveOn.le_map_sum (t := Finset.range S) (w := fun _ => (1 : ℝ) / S) (p := lam)
    (fun _ _ => by positivity) (by simp [hS'.ne']) (fun t ht => h0 t (Finset.mem_range.mp ht))
  simpa [← Finset.mul_sum, div_eq_inv_mul] using this

/-- it is smaller if two of them differ -/
theorem sigmoid_average_lt {S : Nat} (lam : Nat → ℝ) (h0 : ∀ t < S, 0 ≤ lam t) {t t' : Nat} (ht : t < S) (ht' : t' < S) (hne : lam t ≠ lam t') :
    (∑ t ∈ Finset.range S, sigmoid (lam t)) / S < sigmoid ((∑ t ∈ Finset.range S, lam t) / S) := by
  have hS' : (0 : ℝ) < S := by exact_mod_cast (Nat.zero_lt_of_lt ht)
  have := sigmoid_strictConcave.lt_map_sum (t := Finset.range S) (w := fun _ => (1 : ℝ) / S) (p := lam)
    (fun _ _ => by positivity) (by simp [hS'.ne']) (fun t ht => h0 t (Finset.mem_range.mp ht))
    ⟨t, Finset.mem_range.mpr ht, t', Finset.mem_range.mpr ht', hne⟩
  simpa [← Finset.mul_sum, div_eq_inv_mul] using this

end LFM

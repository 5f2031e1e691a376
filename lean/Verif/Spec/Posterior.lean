import Mathlib.Analysis.SpecialFunctions.Log.Basic
import Mathlib.Algebra.BigOperators.Fin
import Verif.Spec.Score

/-!
# Specification: the posterior of a logical factorisation machine

Every observed cell `x ∈ {-1, 1}` has likelihood `sigmoid(λ · x · prediction)`, a missing cell (0) has
likelihood 1; factor entries are independent Bernoulli.
-/

namespace LFM.Spec

/-- logistic function -/
noncomputable def sigmoid (x : ℝ) : ℝ := 1 / (1 + Real.exp (-x))

/-- likelihood of one cell -/
noncomputable def cellLik (lbda : ℝ) (x p : Int) : ℝ :=
  if x = 0 then 1 else sigmoid (lbda * x * p)

/-- a factor: entry of row `i`, latent dimension `l` -/
abbrev Factor := Nat → Nat → Int

/-- the factor with entry `(i, l)` replaced by `v` -/
def Factor.set (F : Factor) (i l : Nat) (v : Int) : Factor :=
  fun i' l' => if i' = i ∧ l' = l then v else F i' l'

/-- prior probability of an `N × L` factor with independent Bernoulli(`q`) entries -/
noncomputable def priorProb (q : ℝ) (N L : Nat) (F : Factor) : ℝ :=
  ∏ n : Fin N, ∏ l : Fin L, if F n l = 1 then q else 1 - q

/-- likelihood of a two-dimensional data array -/
noncomputable def lik2 (m : Lom8) (N D L : Nat) (lbda : ℝ) (X : Nat → Nat → Int) (F G : Factor) : ℝ :=
  ∏ n : Fin N, ∏ d : Fin D, cellLik lbda (X n d) (pred2 m L (F n) (G d))

/-- likelihood of a three-dimensional data array -/
noncomputable def lik3 (m : Lom8) (N D M L : Nat) (lbda : ℝ) (X : Nat → Nat → Nat → Int)
    (F G H : Factor) : ℝ :=
  ∏ n : Fin N, ∏ d : Fin D, ∏ k : Fin M, cellLik lbda (X n d k) (pred3 m L (F n) (G d) (H k))

/-- total agreement of data and prediction -/
noncomputable def agreement2 (m : Lom8) (N D L : Nat) (X : Nat → Nat → Int) (F G : Factor) : Int :=
  ∑ n : Fin N, ∑ d : Fin D, X n d * pred2 m L (F n) (G d)

/-- total agreement of data and prediction -/
noncomputable def agreement3 (m : Lom8) (N D M L : Nat) (X : Nat → Nat → Nat → Int)
    (F G H : Factor) : Int :=
  ∑ n : Fin N, ∑ d : Fin D, ∑ k : Fin M, X n d k * pred3 m L (F n) (G d) (H k)

end LFM.Spec

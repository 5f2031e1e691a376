import Verif.Spec.Posterior
import Mathlib.Data.Nat.Factorial.Basic
import Mathlib.Order.Interval.Finset.Nat

/-!
# Specification: the qL-AND machine

A cell is predicted on iff at least `k` latent dimensions are on in both factors; thresholds have a Poisson
prior restricted to `1..5`.
-/

namespace LFM.Spec

/-- prediction for one cell at threshold `k` -/
noncomputable def predQ (L : Nat) (k : Int) (z u : Nat → Int) : Int :=
  pm (k ≤ (Finset.univ.filter fun l : Fin L => z l = 1 ∧ u l = 1).card)

/-- prior times likelihood of a data column `x` at threshold `k`, for the column's factor row `u` -/
noncomputable def thresholdWeight (N L : Nat) (lbda gamma : ℝ) (x : Nat → Int) (F : Factor) (u : Nat → Int)
    (k : Nat) : ℝ :=
  Real.exp (-gamma) * gamma ^ k / k.factorial * ∏ n : Fin N, cellLik lbda (x n) (predQ L k (F n) u)

/-- conditional probability of threshold `k ∈ 1..5` -/
noncomputable def thresholdPost (N L : Nat) (lbda gamma : ℝ) (x : Nat → Int) (F : Factor) (u : Nat → Int)
    (k : Nat) : ℝ :=
  thresholdWeight N L lbda gamma x F u k / ∑ j ∈ Finset.Icc 1 5, thresholdWeight N L lbda gamma x F u j

/-- agreement of the data with the predictions of one row, all thresholds given -/
noncomputable def rowAgreementQ (D L : Nat) (z : Nat → Int) (u : Factor) (x : Nat → Int) (q : Nat → Int) : Int :=
  ∑ d : Fin D, x d * predQ L (q d) z (u d)

/-- likelihood of an `N × D` data array -/
noncomputable def likQ (N D L : Nat) (lbda : ℝ) (X : Nat → Nat → Int) (F G : Factor) (q : Nat → Int) : ℝ :=
  ∏ n : Fin N, ∏ d : Fin D, cellLik lbda (X n d) (predQ L (q d) (F n) (G d))

end LFM.Spec

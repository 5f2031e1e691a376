import Verif.Spec.Posterior
import Verif.Spec.Prob
import Mathlib.Data.Nat.Factorial.Basic

/-!
# Specification: adding new features to one row of an OR-AND machine
-/

namespace LFM.Spec

/-- Probability of data point `x` in a cell that no present feature switches on, when `k` features are added
to its row and each of them has the cell's column on with probability `q`, independently. -/
noncomputable def newFeatureLik (lbda q : ℝ) (k : Nat) (x : Int) : ℝ :=
  bernProb (fun _ : Fin k => q) (LOp.Holds .OR) * cellLik lbda x 1 +
    bernProb (fun _ : Fin k => q) (LOp.Holds .NOR) * cellLik lbda x (-1)

/-- Poisson probabilities -/
noncomputable def poisson (mean : ℝ) (k : Nat) : ℝ := Real.exp (-mean) * mean ^ k / k.factorial

/-- normalised weights of `0, 1, 2` -/
noncomputable def normalised3 (w : Nat → ℝ) (k : Nat) : ℝ := w k / (w 0 + w 1 + w 2)

/-- how many of `N` rows other than `n` use feature `l` -/
def usedByOthers (N : Nat) (F : Factor) (n l : Nat) : Nat :=
  (List.range N).countP fun i => decide (i ≠ n ∧ F i l = 1)

/-- the features that rows other than `n` use, in ascending order -/
def sharedFeatures (N L : Nat) (F : Factor) (n : Nat) : List Nat :=
  (List.range L).filter fun l => decide (∃ i < N, i ≠ n ∧ F i l = 1)

/-- probability that row `n` uses feature `l` given all other entries of both factors and the data: in an Indian buffet
process the prior odds are `m : N - m`, where `m` other rows use the feature -/
noncomputable def buffetConditional (N D L : Nat) (lbda : ℝ) (X : Nat → Nat → Int) (F G : Factor) (n l : Nat) : ℝ :=
  let p : ℝ := usedByOthers N F n l / N
  p * lik2 .OR_AND N D L lbda X (F.set n l 1) G /
    (p * lik2 .OR_AND N D L lbda X (F.set n l 1) G + (1 - p) * lik2 .OR_AND N D L lbda X (F.set n l (-1)) G)

/-- number of cells of row `n` with data `x` that none of the features `ls` switches on -/
def unexplained (D : Nat) (X : Nat → Nat → Int) (F G : Factor) (ls : List Nat) (n : Nat) (x : Int) : Nat :=
  (List.range D).countP fun d => decide (X n d = x ∧ ∀ l ∈ ls, ¬(F n l = 1 ∧ G d l = 1))

/-- probability that feature `l` switches on column `d` given all other entries of both factors and the data, if the
prior is flat -/
noncomputable def flatConditional (N D L : Nat) (lbda : ℝ) (X : Nat → Nat → Int) (F G : Factor) (d l : Nat) : ℝ :=
  lik2 .OR_AND N D L lbda X F (G.set d l 1) /
    (lik2 .OR_AND N D L lbda X F (G.set d l 1) + lik2 .OR_AND N D L lbda X F (G.set d l (-1)))

end LFM.Spec

import Mathlib.Probability.Distributions.Beta

/-!
# Binomial and beta-binomial probabilities
-/

namespace LFM.Spec

/-- probability of `k` successes in `n` draws with success probability `q` -/
noncomputable def binomial (n : Nat) (q : ℝ) (k : Nat) : ℝ := n.choose k * q ^ k * (1 - q) ^ (n - k)

/-- the same with a Beta(a, b) distributed success probability -/
noncomputable def betaBinomial (n : Nat) (a b : ℝ) (k : Nat) : ℝ :=
  n.choose k * ProbabilityTheory.beta (k + a) ((n : ℝ) - k + b) / ProbabilityTheory.beta a b

/-- arithmetic mean of a list -/
noncomputable def average (xs : List ℝ) : ℝ := xs.sum / xs.length

end LFM.Spec

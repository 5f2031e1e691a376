import Verif.Spec.Logic

/-!
# Specification: the sets of ones of the columns of a matrix
-/

namespace LFM.Spec

/-- row `n` is a one of column `l` -/
def IsOne (mat : Arr Int) (n l : Nat) : Prop := n < mat.dim 0 ∧ mat [n, l] = 1

/-- no two columns share a one -/
def DisjointColumns (mat : Arr Int) : Prop :=
  ∀ i j, i < mat.dim 1 → j < mat.dim 1 → i ≠ j → ∀ n, ¬ (IsOne mat n i ∧ IsOne mat n j)

/-- the ones of no column are contained in those of another -/
def AntichainColumns (mat : Arr Int) : Prop :=
  ∀ i j, i < mat.dim 1 → j < mat.dim 1 → i ≠ j → ∃ n, IsOne mat n i ∧ ¬ IsOne mat n j

end LFM.Spec

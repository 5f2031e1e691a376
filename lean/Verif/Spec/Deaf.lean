import Verif.Spec.Mirror
import Mathlib.Data.Finset.Card

/-! Factors for which the predictions of a model with inner operator NAND do not depend on the other factors. -/

namespace LFM.Spec

/-- every row of `A` has at least `k` entries -1 -/
def ManyNegative (k : Nat) (A : Arr Int) : Prop :=
  ∀ n < A.dim 0, ∃ s : Finset (Fin (A.dim 1)), k ≤ s.card ∧ ∀ l ∈ s, A [n, l] = -1

/-- every row of every factor has at least `k` entries -1, and also if all its entries that are not fixed are multiplied
by -1. The flag of a factor says that the whole factor is fixed. -/
def Deaf (k : Nat) (fs : List (Fac × Bool)) : Prop :=
  ∀ F ∈ fs, ∀ A, (if F.2 then A = F.1.val else ∃ σ, IsPM σ ∧ MirrorOf F.1 σ A) → ManyNegative k A

end LFM.Spec

import Verif.Spec.Posterior
import Mathlib.Data.Fintype.Prod

/-!
# Specification: the MAX-AND machine

Latent dimension `l` is active in cell `(n, d)` iff both factor entries are 1. The probability of a one
is the largest `lbda l` of an active dimension, and the clamped value if none is active.
-/

namespace LFM.Spec

/-- dimension `l` is active in the cell of rows `z`, `u` -/
def Active (z u : Nat → Int) (l : Nat) : Prop := z l = 1 ∧ u l = 1

instance (z u : Nat → Int) (l : Nat) : Decidable (Active z u l) := by unfold Active; infer_instance

/-- `v` is the largest lambda among the active dimensions, `dflt` if there is none -/
def IsMaxActive (L : Nat) (lbda : Nat → ℝ) (dflt : ℝ) (z u : Nat → Int) (v : ℝ) : Prop :=
  (∃ l < L, Active z u l ∧ lbda l = v ∧ ∀ l' < L, Active z u l' → lbda l' ≤ v) ∨
  ((∀ l < L, ¬ Active z u l) ∧ v = dflt)

/-- the largest lambda among the active dimensions, `dflt` if there is none -/
noncomputable def maxActive (L : Nat) (lbda : Nat → ℝ) (dflt : ℝ) (z u : Nat → Int) : ℝ :=
  if h : (Finset.univ.filter fun l : Fin L => Active z u l).Nonempty then
    (Finset.univ.filter fun l : Fin L => Active z u l).sup' h fun l => lbda l
  else dflt

/-- log-probability of a cell with value `x` when a one has probability `p`; missing cells count 0 -/
noncomputable def logCell (x : Int) (p : ℝ) : ℝ :=
  if x = 1 then Real.log p else if x = -1 then Real.log (1 - p) else 0

/-- log-likelihood of a row of data given the row `z` of the first factor -/
noncomputable def rowLogLik (D L : Nat) (lbda : Nat → ℝ) (clamped : ℝ) (x : Nat → Int) (z : Nat → Int)
    (u : Nat → Nat → Int) : ℝ :=
  ∑ d : Fin D, logCell (x d) (maxActive L lbda clamped z (u d))

/-- log-likelihood of a data matrix given both factors -/
noncomputable def matLogLik (N D L : Nat) (lbda : Nat → ℝ) (clamped : ℝ) (x z u : Nat → Nat → Int) : ℝ :=
  ∑ n : Fin N, rowLogLik D L lbda clamped (x n) (z n) u

/-- number of cells with value `v` in which `l` is active and no dimension of `prev` is -/
def attributed (N D : Nat) (X : Nat → Nat → Int) (F G : Factor) (prev : List Nat) (l : Nat) (v : Int) :
    Nat :=
  (Finset.univ.filter fun i : Fin N × Fin D =>
    X i.1 i.2 = v ∧ Active (F i.1) (G i.2) l ∧ ∀ l' ∈ prev, ¬ Active (F i.1) (G i.2) l').card

/-- number of cells with value `v` in which no dimension below `L` is active -/
def unattributed (N D L : Nat) (X : Nat → Nat → Int) (F G : Factor) (v : Int) : Nat :=
  (Finset.univ.filter fun i : Fin N × Fin D =>
    X i.1 i.2 = v ∧ ∀ l < L, ¬ Active (F i.1) (G i.2) l).card

/-- Laplace's rule of succession -/
noncomputable def laplace (tp fp : Nat) : ℝ := (tp + 1) / (tp + fp + 2)

end LFM.Spec

import Verif.Model.MatrixUpdates

/-!
# Specification: a sweep

A sweep visits the entries of an array in row-major order, skips fixed entries and replaces every other
entry by a metropolised flip (the function characterised by C17) with a given logit. The sampling
theorems say which logit a sampling function uses.
-/

namespace LFM

/-- update of one entry: skip if fixed, otherwise flip -/
noncomputable def updEntry (logit : Arr Int → List Nat → ℝ) (Zf : Arr Int) (rnd : Rnd) (Z : Arr Int)
    (i : List Nat) : Arr Int :=
  if Zf i = 1 then Z
  else Z.set i (flip_metropolised_gibbs_numba (logit Z i) (Z i) (rnd i))

/-- the entries of a matrix in row-major order -/
def tasks2 (N L : Nat) : List (List Nat) :=
  (List.range N).flatMap fun n => (List.range L).map fun l => [n, l]

/-- the entries of a three-dimensional array in row-major order -/
def tasks3 (N D M : Nat) : List (List Nat) :=
  (List.range N).flatMap fun n => (List.range D).flatMap fun d => (List.range M).map fun m => [n, d, m]

/-- the sweep with a given logit function -/
noncomputable def sweep (logit : Arr Int → List Nat → ℝ) (Zf : Arr Int) (rnd : Rnd)
    (ts : List (List Nat)) (Z : Arr Int) : Arr Int :=
  ts.foldl (updEntry logit Zf rnd) Z

/-- first and second component of an index -/
def i0 (i : List Nat) : Nat := i.getD 0 0
@[inherit_doc i0] def i1 (i : List Nat) : Nat := i.getD 1 0
@[inherit_doc i0] def i2 (i : List Nat) : Nat := i.getD 2 0

end LFM

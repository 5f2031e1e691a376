import Verif.Py

/-!
# Specification: selections and transpositions of data arrays
-/

namespace LFM.Spec

/-- `X[np.ix_(keep[0], keep[1], …)]`: the rows `keep[j]` of axis `j`, in this order -/
def ix (keep : List (List Nat)) (X : Arr Int) : Arr Int :=
  ⟨keep.map List.length, fun idx => X (List.zipWith (fun (k : List Nat) n => k.getD n 0) keep idx)⟩

/-- `keep` lists rows of every axis of `X`, none of them twice, and every cell outside of the selection is missing -/
structure Selects (keep : List (List Nat)) (X : Arr Int) : Prop where
  axes : keep.length = X.shape.length
  rows : ∀ j (k : List Nat), keep[j]? = some k → k.Nodup ∧ ∀ n ∈ k, n < X.shape.getD j 0
  missing : ∀ idx, InB X.shape idx → X idx ≠ 0 → ∀ j (k : List Nat), keep[j]? = some k → idx.getD j 0 ∈ k

/-- `keep` lists all rows of every axis of `X` in any order -/
def Reorders (keep : List (List Nat)) (X : Arr Int) : Prop :=
  keep.length = X.shape.length ∧ ∀ j (k : List Nat), keep[j]? = some k → k.Perm (List.range (X.shape.getD j 0))

/-- `np.transpose(X, axes)`: axis `j` of the result is axis `axes[j]` of `X` -/
def transposed (axes : List Nat) (X : Arr Int) : Arr Int :=
  ⟨axes.map fun a => X.shape.getD a 0, fun idx => X ((List.range axes.length).map fun a => idx.getD (axes.idxOf a) 0)⟩

end LFM.Spec

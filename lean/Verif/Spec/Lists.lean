import Mathlib.Data.List.Basic

/-!
# Specification: distinct elements and blocks of a list
-/

namespace LFM.Spec

/-- `ys` are the distinct elements of `xs`, ordered by where they first occur -/
structure Distinct {α : Type} [DecidableEq α] (xs ys : List α) : Prop where
  nodup : ys.Nodup
  mem : ∀ x, x ∈ ys ↔ x ∈ xs
  order : ys.Pairwise fun a b => xs.idxOf a < xs.idxOf b

/-- equal elements are contiguous -/
def Blocks {α : Type} (xs : List α) : Prop :=
  ∀ i j k, i < j → j < k → k < xs.length → xs[i]? = xs[k]? → xs[j]? = xs[i]?

end LFM.Spec

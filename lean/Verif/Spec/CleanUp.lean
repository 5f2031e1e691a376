import Verif.Spec.Logic

/-!
# Specification: useless and duplicate latent dimensions, and what a layer predicts

A layer is given by its factor matrices (rows: one axis of the data; columns: latent dimensions).
-/

namespace LFM.Spec

/-- dimension `l` is all -1 in some factor -/
def Useless (vals : List (Arr Int)) (l : Nat) : Prop :=
  ∃ a ∈ vals, ∀ i < a.dim 0, a [i, l] = -1

/-- dimensions `l` and `l'` are equal in some factor -/
def Coincide (vals : List (Arr Int)) (l l' : Nat) : Prop :=
  ∃ a ∈ vals, ∀ i < a.dim 0, a [i, l] = a [i, l']

/-- dimensions `l` and `l'` are equal in all factors -/
def Same (vals : List (Arr Int)) (l l' : Nat) : Prop :=
  ∀ a ∈ vals, ∀ i < a.dim 0, a [i, l] = a [i, l']

/-- matrices with `L` columns each -/
def LatentColumns (L : Nat) (vals : List (Arr Int)) : Prop :=
  ∀ a ∈ vals, a.shape = [a.dim 0, L]

/-- nothing to clean up -/
def Tidy (L : Nat) (vals : List (Arr Int)) : Prop :=
  (∀ l < L, ¬ Useless vals l) ∧ ∀ l l', l < l' → l' < L → ¬ Coincide vals l l'

/-- what the OR-AND machine predicts at the data position with index `idx k` on the axis of the `k`-th factor -/
def orAnd (L : Nat) (vals : List (Arr Int)) (idx : Nat → Nat) : Prop :=
  lom .OR .AND fun (l : Fin L) (k : Fin vals.length) => vals[k] [idx k, l] = 1

/-- `idx` is a data position -/
def Position (vals : List (Arr Int)) (idx : Nat → Nat) : Prop :=
  ∀ k : Fin vals.length, idx k < vals[k].dim 0

end LFM.Spec

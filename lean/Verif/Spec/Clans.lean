import Verif.Spec.Logic

/-!
# Specification: families and clans of models

Two models are in the same family if one is the other, possibly with all factors inverted; they are in the same clan if
one is the other, possibly with all factors inverted and possibly with the data inverted: for all numbers of factors and
latent dimensions.
-/

namespace LFM.Spec

/-- all factors inverted, or not -/
def flipped {ι κ : Type} (flip : Bool) (x : ι → κ → Prop) : ι → κ → Prop := fun l k => if flip then ¬ x l k else x l k

/-- model `a` is model `b` with factors inverted (`flip`) and data inverted (`neg`) -/
def Matches (a b : LOp × LOp) (flip neg : Bool) : Prop :=
  ∀ (ι κ : Type) (x : ι → κ → Prop), lom a.1 a.2 x ↔ if neg then ¬ lom b.1 b.2 (flipped flip x) else lom b.1 b.2 (flipped flip x)

/-- the same up to inversion of the factors -/
def SameFamily (a b : LOp × LOp) : Prop := ∃ flip, Matches a b flip false

/-- the same up to inversion of the factors and of the data -/
def SameClan (a b : LOp × LOp) : Prop := ∃ flip neg, Matches a b flip neg

end LFM.Spec

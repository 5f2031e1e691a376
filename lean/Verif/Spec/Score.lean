import Verif.Spec.Logic
import Mathlib.Algebra.BigOperators.Fin

/-!
# Specification: predicted cells and exact score differences
-/

namespace LFM.Spec

/-- cell predicted by model `m` from two factor rows -/
noncomputable def pred2 (m : Lom8) (L : Nat) (z u : Nat → Int) : Int :=
  pm (lom m.outer m.inner fun (l : Fin L) (k : Fin 2) => ![z l, u l] k = 1)

/-- cell predicted by model `m` from three factor rows -/
noncomputable def pred3 (m : Lom8) (L : Nat) (z u v : Nat → Int) : Int :=
  pm (lom m.outer m.inner fun (l : Fin L) (k : Fin 3) => ![z l, u l, v l] k = 1)

/-- the row `z` with entry `l` replaced by `v` -/
def setEntry (z : Nat → Int) (l : Nat) (v : Int) : Nat → Int := fun l' => if l' = l then v else z l'

/-- `∑_d X[d] · (prediction with z_l = 1 − prediction with z_l = -1)`, i.e. twice the score -/
noncomputable def twiceScore2 (m : Lom8) (D L : Nat) (z : Nat → Int) (u : Nat → Nat → Int)
    (x : Nat → Int) (l : Nat) : Int :=
  ∑ d : Fin D, x d * (pred2 m L (setEntry z l 1) (u d) - pred2 m L (setEntry z l (-1)) (u d))

/-- three-factor version, summing over cells `(d, k)` -/
noncomputable def twiceScore3 (m : Lom8) (D M L : Nat) (z : Nat → Int) (u v : Nat → Nat → Int)
    (x : Nat → Nat → Int) (l : Nat) : Int :=
  ∑ d : Fin D, ∑ k : Fin M, x d k *
    (pred3 m L (setEntry z l 1) (u d) (v k) - pred3 m L (setEntry z l (-1)) (u d) (v k))

end LFM.Spec

import Verif.Spec.Posterior
import Mathlib.Data.Fintype.Prod

/-!
# Specification: correct predictions and the dispersion estimate
-/

namespace LFM.Spec

open Classical in
/-- number of cells of an `N × D` array whose value equals the prediction of model `m` -/
noncomputable def correct2 (m : Lom8) (N D L : Nat) (X : Nat → Nat → Int) (F G : Factor) : Nat :=
  (Finset.univ.filter fun i : Fin N × Fin D => X i.1 i.2 = pred2 m L (F i.1) (G i.2)).card

open Classical in
/-- number of cells of an `N × D × M` array whose value equals the prediction of model `m` -/
noncomputable def correct3 (m : Lom8) (N D M L : Nat) (X : Nat → Nat → Nat → Int) (F G H : Factor) :
    Nat :=
  (Finset.univ.filter fun i : Fin N × Fin D × Fin M =>
    X i.1 i.2.1 i.2.2 = pred3 m L (F i.1) (G i.2.1) (H i.2.2)).card

/-- number of non-missing cells -/
def observed2 (N D : Nat) (X : Nat → Nat → Int) : Nat :=
  (Finset.univ.filter fun i : Fin N × Fin D => X i.1 i.2 ≠ 0).card

/-- number of non-missing cells -/
def observed3 (N D M : Nat) (X : Nat → Nat → Nat → Int) : Nat :=
  (Finset.univ.filter fun i : Fin N × Fin D × Fin M => X i.1 i.2.1 i.2.2 ≠ 0).card

/-- number of cells whose value equals the prediction "at least `q d` active dimensions" -/
noncomputable def correctQ (N D L : Nat) (X : Nat → Nat → Int) (F G : Factor) (q : Nat → Int) : Nat :=
  (Finset.univ.filter fun i : Fin N × Fin D => X i.1 i.2 =
    pm (q i.2 ≤ (Finset.univ.filter fun l : Fin L => F i.1 l = 1 ∧ G i.2 l = 1).card)).card

/-- log-likelihood of `P + a` correct and `ND - P + b` wrong predictions -/
noncomputable def regLogLik (P ND a b lbda : ℝ) : ℝ :=
  (P + a) * Real.log (sigmoid lbda) + (ND - P + b) * Real.log (sigmoid (-lbda))

end LFM.Spec

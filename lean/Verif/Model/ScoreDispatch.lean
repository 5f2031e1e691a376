import Verif.Model.PosteriorScores
import Verif.Model.LomOutputs

/-!
# Model of `lom/_numba/matrix_updates_numba.py`, lines 74-154: score function look-up
-/

namespace LFM

/-- a score function for two- or three-factor layers (matrix_updates_numba.py:74-115) -/
inductive ScoreFct
  /-- `f(Z_n, U, X_n, l)` -/
  | two (f : Arr Int → Arr Int → Arr Int → Nat → Int)
  /-- `f(Z_n, U, V, X_n, l)` -/
  | three (f : Arr Int → Arr Int → Arr Int → Arr Int → Nat → Int)

/-- matrix_updates_numba.py:74-115. The `OR_ALL` entries (108-111) name functions that do not exist
in `posterior_score_fcts`, so the attribute look-up fails. -/
def get_posterior_score_fct (model : String) : Except Err ScoreFct :=
  if model = "OR_AND_2D" then .ok (.two posterior_score_OR_AND_2D)
  else if model = "OR_NAND_2D" then .ok (.two posterior_score_OR_NAND_2D)
  else if model = "OR_XOR_2D" then .ok (.two posterior_score_OR_XOR_2D)
  else if model = "NAND_XOR_2D" then .ok (.two posterior_score_NAND_XOR_2D)
  else if model = "XOR_AND_2D" then .ok (.two posterior_score_XOR_AND_2D)
  else if model = "XOR_XOR_2D" then .ok (.two posterior_score_XOR_XOR_2D)
  else if model = "XOR_NXOR_2D" then .ok (.two posterior_score_XOR_NXOR_2D)
  else if model = "XOR_NAND_2D" then .ok (.two posterior_score_XOR_NAND_2D)
  else if model = "OR_AND_3D" then .ok (.three posterior_score_OR_AND_3D)
  else if model = "OR_NAND_3D" then .ok (.three posterior_score_OR_NAND_3D)
  else if model = "OR_XOR_3D" then .ok (.three posterior_score_OR_XOR_3D)
  else if model = "NAND_XOR_3D" then .ok (.three posterior_score_NAND_XOR_3D)
  else if model = "XOR_AND_3D" then .ok (.three posterior_score_XOR_AND_3D)
  else if model = "XOR_XOR_3D" then .ok (.three posterior_score_XOR_XOR_3D)
  else if model = "XOR_NXOR_3D" then .ok (.three posterior_score_XOR_NXOR_3D)
  else if model = "XOR_NAND_3D" then .ok (.three posterior_score_XOR_NAND_3D)
  else if model = "OR_ALL_2D" then .error .attributeError
  else if model = "OR_ALL_3D" then .error .attributeError
  else .error .notImplemented

/-- an output function of two or three factor rows (matrix_updates_numba.py:118-154) -/
inductive ParentFct
  | two (f : Arr Int → Arr Int → Int)
  | three (f : Arr Int → Arr Int → Arr Int → Int)

/-- matrix_updates_numba.py:118-154 -/
def get_parent_score_fct (model : String) : Except Err ParentFct :=
  if model = "OR_AND_2D" then .ok (.two OR_AND_product)
  else if model = "OR_NAND_2D" then .ok (.two OR_NAND_product)
  else if model = "OR_XOR_2D" then .ok (.two OR_XOR_product)
  else if model = "NAND_XOR_2D" then .ok (.two NAND_XOR_product)
  else if model = "XOR_AND_2D" then .ok (.two XOR_AND_product)
  else if model = "XOR_XOR_2D" then .ok (.two XOR_XOR_product)
  else if model = "XOR_NXOR_2D" then .ok (.two XOR_NXOR_product)
  else if model = "XOR_NAND_2D" then .ok (.two XOR_NAND_product)
  else if model = "OR_AND_3D" then .ok (.three OR_AND_product_3d)
  else if model = "OR_NAND_3D" then .ok (.three OR_NAND_product_3d)
  else if model = "OR_XOR_3D" then .ok (.three OR_XOR_product_3d)
  else if model = "NAND_XOR_3D" then .ok (.three NAND_XOR_product_3d)
  else if model = "XOR_AND_3D" then .ok (.three XOR_AND_product_3d)
  else if model = "XOR_XOR_3D" then .ok (.three XOR_XOR_product_3d)
  else if model = "XOR_NXOR_3D" then .ok (.three XOR_NXOR_product_3d)
  else if model = "XOR_NAND_3D" then .ok (.three XOR_NAND_product_3d)
  else .error .notImplemented

end LFM

import Mathlib.Data.Fin.VecNotation
import Verif.Py

/-!
# Specification: logical operators and logical operator machines

Independent of the model. `LOp.Holds op p` is the meaning of an operator applied to a family of
propositions; `XOR` is "exactly one". A logical operator machine (LOM) `outer-inner` applies `inner`
to the factors (index `k`) in every latent dimension (index `l`) and `outer` to the results.
-/

namespace LFM.Spec

/-- the six operators of the paper / of `get_lop` -/
inductive LOp
  | AND | NAND | OR | NOR | XOR | NXOR
  deriving DecidableEq, Repr

/-- meaning of an operator on a family of propositions -/
def LOp.Holds {ι : Type} : LOp → (ι → Prop) → Prop
  | .AND, p => ∀ i, p i
  | .NAND, p => ¬ ∀ i, p i
  | .OR, p => ∃ i, p i
  | .NOR, p => ¬ ∃ i, p i
  | .XOR, p => ∃! i, p i
  | .NXOR, p => ¬ ∃! i, p i

/-- the LOM formula: `outer` over latent dimensions of `inner` over factors -/
def lom {ι κ : Type} (outer inner : LOp) (x : ι → κ → Prop) : Prop :=
  outer.Holds fun l => inner.Holds (x l)

/-- name of an operator as used in model strings -/
def LOp.name : LOp → String
  | .AND => "AND" | .NAND => "NAND" | .OR => "OR" | .NOR => "NOR" | .XOR => "XOR" | .NXOR => "NXOR"

/-- model string `"OUTER-INNER"` -/
def modelName (outer inner : LOp) : String := outer.name ++ "-" ++ inner.name

open Classical in
/-- the `{-1, 1}` coding of a proposition -/
noncomputable def pm (P : Prop) : Int := if P then 1 else -1

/-- `x` is a legal binary entry -/
def IsPM (x : Int) : Prop := x = 1 ∨ x = -1

/-- `x` is a legal data entry: binary or missing (0) -/
def IsData (x : Int) : Prop := x = 1 ∨ x = -1 ∨ x = 0

/-- all entries of an array are legal binary entries -/
def PMArr (a : Arr Int) : Prop := ∀ idx, InB a.shape idx → IsPM (a idx)

/-- all entries of an array are legal data entries -/
def DataArr (a : Arr Int) : Prop := ∀ idx, InB a.shape idx → IsData (a idx)

/-- the eight (outer, inner) pairs with dedicated implementations -/
inductive Lom8
  | OR_AND | OR_NAND | OR_XOR | NAND_XOR | XOR_AND | XOR_XOR | XOR_NXOR | XOR_NAND
  deriving DecidableEq, Repr

def Lom8.outer : Lom8 → LOp
  | .OR_AND => .OR | .OR_NAND => .OR | .OR_XOR => .OR | .NAND_XOR => .NAND
  | .XOR_AND => .XOR | .XOR_XOR => .XOR | .XOR_NXOR => .XOR | .XOR_NAND => .XOR

def Lom8.inner : Lom8 → LOp
  | .OR_AND => .AND | .OR_NAND => .NAND | .OR_XOR => .XOR | .NAND_XOR => .XOR
  | .XOR_AND => .AND | .XOR_XOR => .XOR | .XOR_NXOR => .NXOR | .XOR_NAND => .NAND

/-- model string of one of the eight -/
def Lom8.name (m : Lom8) : String := modelName m.outer m.inner

end LFM.Spec

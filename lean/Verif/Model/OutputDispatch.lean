import Verif.Model.LomOutputs

/-!
# Model of `lom/_numba/lambda_updates_numba.py`, lines 15-126 (crisp output functions)

The `fuzzy=True` branches are modelled in `Verif.Model.Fuzzy`. A Python function falling off its end
returns `None`, here `Option.none`.
-/

namespace LFM

/-- lambda_updates_numba.py:15-34 `get_scalar_output_function_2d(model, fuzzy=False)`.
The `'qL-AND'` entry (line 33-34) takes a third argument and is modelled by `qL_AND_product`
directly. -/
def get_scalar_output_function_2d (model : String) : Option (Arr Int → Arr Int → Int) :=
  if model = "OR-AND" then some OR_AND_product
  else if model = "XOR-AND" then some XOR_AND_product
  else if model = "XOR-NAND" then some XOR_NAND_product
  else if model = "OR-XOR" then some OR_XOR_product
  else if model = "NAND-XOR" then some NAND_XOR_product
  else if model = "XOR-XOR" then some XOR_XOR_product
  else if model = "XOR-NXOR" then some XOR_NXOR_product
  else if model = "OR-NAND" then some OR_NAND_product
  else none

/-- lambda_updates_numba.py:54-71 `get_scalar_output_function_3d(model, fuzzy=False)` -/
def get_scalar_output_function_3d (model : String) :
    Option (Arr Int → Arr Int → Arr Int → Int) :=
  if model = "OR-AND" then some OR_AND_product_3d
  else if model = "XOR-AND" then some XOR_AND_product_3d
  else if model = "XOR-NAND" then some XOR_NAND_product_3d
  else if model = "OR-XOR" then some OR_XOR_product_3d
  else if model = "NAND-XOR" then some NAND_XOR_product_3d
  else if model = "XOR-XOR" then some XOR_XOR_product_3d
  else if model = "XOR-NXOR" then some XOR_NXOR_product_3d
  else if model = "OR-NAND" then some OR_NAND_product_3d
  else none

/-- lambda_updates_numba.py:91-106 `make_output_function_2d(model)`. The scalar function is called
with a row of `Z` first and a row of `U` second. `None` as a scalar function makes the call fail
(`TypeError` at call time, here `typingError`). -/
def output_function_2d (model : String) (Z U : Arr Int) : Except Err (Arr Int) :=
  match get_scalar_output_function_2d model with
  | none => .error .typingError
  | some f => .ok <| Id.run do
      let N := Z.dim 0
      let D := U.dim 0
      let mut X : Arr Int := Arr.full [N, D] 0
      for n in List.range N do
        for d in List.range D do
          X := X.set [n, d] (f (Z.row n) (U.row d))
      return X

/-- lambda_updates_numba.py:109-126 `make_output_function_3d(model)` -/
def output_function_3d (model : String) (Z U V : Arr Int) : Except Err (Arr Int) :=
  match get_scalar_output_function_3d model with
  | none => .error .typingError
  | some f => .ok <| Id.run do
      let N := Z.dim 0
      let D := U.dim 0
      let M := V.dim 0
      let mut X : Arr Int := Arr.full [N, D, M] 0
      for n in List.range N do
        for d in List.range D do
          for m in List.range M do
            X := X.set [n, d, m] (f (Z.row n) (U.row d) (V.row m))
      return X

end LFM

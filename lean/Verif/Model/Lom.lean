import Verif.Model.OutputDispatch

/-!
# Model of `lom/auxiliary_functions.py`, lines 657-1018: generating data and canonical models

`factors` is a Python list of two-dimensional arrays. `np.bool_` values are `Bool`; `~` on a boolean is
logical negation (numpy and numba). Printing and `pdb.set_trace()` have no effect in the model.
-/

namespace LFM

/-- auxiliary_functions.py:657-693 `get_lop`: operators on one-dimensional boolean arrays -/
def get_lop (name : String) : Except Err (List Bool → Bool) :=
  if name = "OR" then .ok fun x => x.any id
  else if name = "NOR" then .ok fun x => !(x.any id)
  else if name = "AND" then .ok fun x => x.all id
  else if name = "NAND" then .ok fun x => !(x.all id)
  else if name = "XOR" then .ok fun x => x.count true == 1
  else if name = "NXOR" then .ok fun x => !(x.count true == 1)
  else .error .valueError

/-- `outer, inner = model.split('-')` (auxiliary_functions.py:781, 805) -/
def splitModel (model : String) : Except Err (String × String) :=
  match pySplitDash model with
  | [a, b] => .ok (a, b)
  | _ => .error .valueError

/-- auxiliary_functions.py:788-796, the loop of `lom_generate_data`. `outer_logic` and `inner_logic` are
overwritten completely for every cell, so they are lists computed afresh. -/
def generate_cells (factors : List (Arr Int)) (L : Nat) (outer inner : List Bool → Bool) : Arr Int :=
  Id.run do
    let mut out : Arr Int := Arr.full (factors.map fun x => x.dim 0) 0
    for index in indices (factors.map fun x => x.dim 0) do
      let outer_logic := (List.range L).map fun l =>
        inner (factors.zipIdx.map fun (f, i) => decide (f [index.getD i 0, l] = 1))
      out := out.set index (2 * (if outer outer_logic then 1 else 0) - 1)
    return out

/-- auxiliary_functions.py:772-798 `lom_generate_data` -/
def lom_generate_data (factors : List (Arr Int)) (model : String) : Except Err (Arr Int) := do
  let L ← match factors with
    | [] => throw Err.indexError
    | f :: _ => pure (f.dim 1)
  let (outer_name, inner_name) ← splitModel model
  let outer ← get_lop outer_name
  let inner ← get_lop inner_name
  return generate_cells factors L outer inner

/-- auxiliary_functions.py:991-993 -/
def implemented_loms : List String :=
  ["OR-AND", "OR-NAND", "OR-XOR", "NAND-XOR", "XOR-AND", "XOR-XOR", "XOR-NXOR", "XOR-NAND"]

/-- auxiliary_functions.py:739-769 `lom_generate_data_fast` with `fuzzy=False` (the default). The
conversion of the factors to int8 does nothing to `{-1, 1}` values. -/
def lom_generate_data_fast (factors : List (Arr Int)) (model : String) : Except Err (Arr Int) :=
  if model ∉ implemented_loms then lom_generate_data factors model
  else match factors with
    | [Z, U] => output_function_2d model Z U
    | [Z, U, V] =>
      if model = "OR-AND" then output_function_3d model Z U V
      else lom_generate_data factors model
    | _ => lom_generate_data factors model

/-- auxiliary_functions.py:1001-1012, the default `equivalent_pairs` -/
def equivalent_pairs : List (String × String) :=
  [("OR-AND", "NAND-NAND"), ("OR-NOR", "NAND-OR"), ("AND-OR", "NOR-NOR"), ("AND-NAND", "NOR-AND"),
   ("OR-OR", "NAND-NOR"), ("OR-NAND", "NAND-AND"), ("AND-AND", "NOR-NAND"), ("AND-NOR", "NOR-OR"),
   ("NAND-XOR", "OR-NXOR"), ("AND-XOR", "NOR-NXOR"), ("OR-XOR", "NAND-NXOR"), ("NOR-XOR", "AND-NXOR")]

/-- auxiliary_functions.py:996-1018 `replace_equivalent_model` (default `equivalent_pairs`) -/
def replace_equivalent_model (model : String) : String :=
  if model ∈ equivalent_pairs.map (·.2) then
    ((equivalent_pairs.filter fun pair => pair.2 = model).map (·.1)).headD model
  else model

/-- auxiliary_functions.py:833-929, first part of `canonise_model`: the canonical model and the flags
`invert_data`, `invert_factors`. Note that two branches (lines 873, 876) test `model`, not `model_new`. -/
def canonical_form (model : String) : Except Err (String × Bool × Bool) :=
  let model_new := replace_equivalent_model model
  if model_new = "OR-AND" then .ok (model_new, false, false)
  else if model_new = "AND-NAND" then .ok ("OR-AND", true, false)
  else if model_new = "OR-NOR" then .ok ("OR-AND", false, true)
  else if model_new = "AND-OR" then .ok ("OR-AND", true, true)
  else if model_new = "OR-NAND" then .ok (model_new, false, false)
  else if model_new = "AND-AND" then .ok ("OR-NAND", true, false)
  else if model_new = "OR-OR" then .ok ("OR-NAND", false, true)
  else if model_new = "AND-NOR" then .ok ("OR-NAND", true, true)
  else if model_new = "XOR-AND" then .ok (model_new, false, false)
  else if model_new = "XOR-NOR" then .ok ("XOR-AND", false, true)
  else if model = "NXOR-AND" then .ok ("XOR-AND", true, false)
  else if model = "NXOR-NOR" then .ok ("XOR-AND", true, true)
  else if model_new = "XOR-NAND" then .ok (model_new, false, false)
  else if model_new = "XOR-OR" then .ok ("XOR-NAND", false, true)
  else if model_new = "NXOR-NAND" then .ok ("XOR-NAND", true, false)
  else if model_new = "NXOR-OR" then .ok ("XOR-NAND", true, true)
  else if model_new = "NAND-XOR" then .ok (model_new, false, false)
  else if model_new = "AND-XOR" then .ok ("NAND-XOR", true, false)
  else if model_new = "OR-XOR" then .ok (model_new, false, false)
  else if model_new = "NOR-XOR" then .ok ("OR-XOR", true, false)
  else if model_new = "XOR-NXOR" then .ok (model_new, false, false)
  else if model_new = "NXOR-NXOR" then .ok ("XOR-NXOR", true, false)
  else if model_new = "XOR-XOR" then .ok (model_new, false, false)
  else if model_new = "NXOR-XOR" then .ok ("XOR-XOR", true, false)
  else if model_new = "MAX-AND" then .ok (model_new, false, false)
  else if model_new = "OR-AND-IBP" then .ok (model_new, false, false)
  else if model_new = "qL-AND" then .ok (model_new, false, false)
  else .error .notImplemented

/-- auxiliary_functions.py:826-961 `canonise_model(model, child)`. `child` is the value of the child matrix
(`none` if the Python argument is `None`). The result is the value of the child afterwards, together with
the returned triple or the exception. `child.val *= -1` is an in-place int8 operation. -/
def canonise_model (model : String) (child : Option (Arr Int)) :
    Option (Arr Int) × Except Err (String × Bool × Bool) :=
  match canonical_form model with
  | .error e => (child, .error e)
  | .ok (model_new, invert_data, invert_factors) =>
    if invert_data then
      match child with
      | none => (none, .error .attributeError)
      | some c => (some (c.map fun x => wrap8 (-x)), .ok (model_new, invert_data, invert_factors))
    else (child, .ok (model_new, invert_data, invert_factors))

end LFM

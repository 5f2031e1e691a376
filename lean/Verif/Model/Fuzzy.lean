import Verif.Py
import Verif.Model.Lom
import Mathlib.Data.Real.Basic

/-!
# Model of `lom/_numba/lom_outputs_fuzzy.py`, of the `fuzzy=True` branches of
`lom/_numba/lambda_updates_numba.py:35-51, 72-88, 129-162`, and of
`lom/auxiliary_functions.py:696-823` (`get_fuzzy_lop`, `lom_generate_data_fuzzy`, `lom_generate_data_fast`)

Vectors of probabilities are one-dimensional arrays of reals (`float64` in the code). `prange` without
`parallel=True` is `range`; the loops of `make_output_function_*_fuzzy` are parallel over disjoint cells.
-/

namespace LFM

/-- lom_outputs_fuzzy.py:14-22 `OR_AND_product_fuzzy` -/
noncomputable def OR_AND_product_fuzzy (Z_n U_d : Arr ℝ) : ℝ := Id.run do
  let mut out : ℝ := 1
  for l in List.range (Z_n.dim 0) do
    out := out * (1 - Z_n [l] * U_d [l])
  return 1 - out

/-- lom_outputs_fuzzy.py:25-33 `OR_AND_product_fuzzy_3d` -/
noncomputable def OR_AND_product_fuzzy_3d (Z_n U_d V_m : Arr ℝ) : ℝ := Id.run do
  let mut out : ℝ := 1
  for l in List.range (Z_n.dim 0) do
    out := out * (1 - Z_n [l] * U_d [l] * V_m [l])
  return 1 - out

/-- lom_outputs_fuzzy.py:37-46 `XOR_AND_product_fuzzy` -/
noncomputable def XOR_AND_product_fuzzy (Z_n U_d : Arr ℝ) : ℝ := Id.run do
  let mut out : ℝ := 0
  for l in List.range (Z_n.dim 0) do
    let mut temp : ℝ := 1
    for l_prime in List.range (Z_n.dim 0) do
      if l ≠ l_prime then
        temp := temp * (1 - Z_n [l_prime] * U_d [l_prime])
    out := out + Z_n [l] * U_d [l] * temp
  return out

/-- lom_outputs_fuzzy.py:49-58 `XOR_AND_product_fuzzy_3d` -/
noncomputable def XOR_AND_product_fuzzy_3d (Z_n U_d V_m : Arr ℝ) : ℝ := Id.run do
  let mut out : ℝ := 0
  for l in List.range (Z_n.dim 0) do
    let mut temp : ℝ := 1
    for l_prime in List.range (Z_n.dim 0) do
      if l ≠ l_prime then
        temp := temp * (1 - Z_n [l_prime] * U_d [l_prime] * V_m [l_prime])
    out := out + Z_n [l] * U_d [l] * V_m [l] * temp
  return out

/-- lom_outputs_fuzzy.py:62-71 `XOR_NAND_product_fuzzy` -/
noncomputable def XOR_NAND_product_fuzzy (Z_n U_d : Arr ℝ) : ℝ := Id.run do
  let mut out : ℝ := 0
  for l in List.range (Z_n.dim 0) do
    let mut temp : ℝ := 1
    for l_prime in List.range (Z_n.dim 0) do
      if l ≠ l_prime then
        temp := temp * (Z_n [l_prime] * U_d [l_prime])
    out := out + (1 - Z_n [l] * U_d [l]) * temp
  return out

/-- lom_outputs_fuzzy.py:74-83 `XOR_NAND_product_fuzzy_3d` -/
noncomputable def XOR_NAND_product_fuzzy_3d (Z_n U_d V_m : Arr ℝ) : ℝ := Id.run do
  let mut out : ℝ := 0
  for l in List.range (Z_n.dim 0) do
    let mut temp : ℝ := 1
    for l_prime in List.range (Z_n.dim 0) do
      if l ≠ l_prime then
        temp := temp * (Z_n [l_prime] * U_d [l_prime] * V_m [l_prime])
    out := out + (1 - Z_n [l] * U_d [l] * V_m [l]) * temp
  return out

/-- lom_outputs_fuzzy.py:87-92 `OR_XOR_product_fuzzy` -/
noncomputable def OR_XOR_product_fuzzy (Z_n U_d : Arr ℝ) : ℝ := Id.run do
  let mut temp : ℝ := 1
  for l in List.range (Z_n.dim 0) do
    temp := temp * (Z_n [l] * U_d [l] + (1 - Z_n [l]) * (1 - U_d [l]))
  return 1 - temp

/-- lom_outputs_fuzzy.py:95-103 `OR_XOR_product_fuzzy_3d` -/
noncomputable def OR_XOR_product_fuzzy_3d (Z_n U_d V_m : Arr ℝ) : ℝ := Id.run do
  let mut temp : ℝ := 1
  for l in List.range (Z_n.dim 0) do
    temp := temp * (1 - Z_n [l] * (1 - U_d [l]) * (1 - V_m [l]) +
      U_d [l] * (1 - V_m [l]) * (1 - Z_n [l]) +
      V_m [l] * (1 - Z_n [l]) * (1 - U_d [l]))
  return 1 - temp

/-- lom_outputs_fuzzy.py:107-112 `NAND_XOR_product_fuzzy` -/
noncomputable def NAND_XOR_product_fuzzy (Z_n U_d : Arr ℝ) : ℝ := Id.run do
  let mut temp : ℝ := 1
  for l in List.range (Z_n.dim 0) do
    temp := temp * (Z_n [l] * (1 - U_d [l]) + U_d [l] * (1 - Z_n [l]))
  return 1 - temp

/-- lom_outputs_fuzzy.py:115-123 `NAND_XOR_product_fuzzy_3d` -/
noncomputable def NAND_XOR_product_fuzzy_3d (Z_n U_d V_m : Arr ℝ) : ℝ := Id.run do
  let mut temp : ℝ := 1
  for l in List.range (Z_n.dim 0) do
    temp := temp * (Z_n [l] * (1 - U_d [l]) * (1 - V_m [l]) +
      V_m [l] * (1 - Z_n [l]) * (1 - U_d [l]) +
      U_d [l] * (1 - V_m [l]) * (1 - Z_n [l]))
  return 1 - temp

/-- lom_outputs_fuzzy.py:127-137 `XOR_XOR_product_fuzzy` -/
noncomputable def XOR_XOR_product_fuzzy (Z_n U_d : Arr ℝ) : ℝ := Id.run do
  let mut out : ℝ := 0
  for l in List.range (Z_n.dim 0) do
    let mut temp : ℝ := 1
    for l_prime in List.range (Z_n.dim 0) do
      if l ≠ l_prime then
        temp := temp * (Z_n [l_prime] * U_d [l_prime] +
          (1 - Z_n [l_prime]) * (1 - U_d [l_prime]))
    out := out + temp * ((1 - Z_n [l]) * U_d [l] + (1 - U_d [l]) * Z_n [l])
  return out

/-- lom_outputs_fuzzy.py:140-145 `p_XOR_fuzzy_3d` -/
noncomputable def p_XOR_fuzzy_3d (z u v : ℝ) : ℝ :=
  3 * z * u * v - 2 * (z * u + u * v + z * v) + z + u + v

/-- lom_outputs_fuzzy.py:148-158 `XOR_XOR_product_fuzzy_3d` -/
noncomputable def XOR_XOR_product_fuzzy_3d (Z_n U_d V_m : Arr ℝ) : ℝ := Id.run do
  let mut out : ℝ := 0
  for l in List.range (Z_n.dim 0) do
    let mut temp : ℝ := 1
    for l_prime in List.range (Z_n.dim 0) do
      if l ≠ l_prime then
        temp := temp * (1 - p_XOR_fuzzy_3d (Z_n [l_prime]) (U_d [l_prime]) (V_m [l_prime]))
    out := out + temp * p_XOR_fuzzy_3d (Z_n [l]) (U_d [l]) (V_m [l])
  return out

/-- lom_outputs_fuzzy.py:162-172 `XOR_NXOR_product_fuzzy` -/
noncomputable def XOR_NXOR_product_fuzzy (Z_n U_d : Arr ℝ) : ℝ := Id.run do
  let mut out : ℝ := 0
  for l in List.range (Z_n.dim 0) do
    let mut temp : ℝ := 1
    for l_prime in List.range (Z_n.dim 0) do
      if l ≠ l_prime then
        temp := temp * (Z_n [l_prime] * (1 - U_d [l_prime]) +
          (1 - Z_n [l_prime]) * U_d [l_prime])
    out := out + temp * (Z_n [l] * U_d [l] + (1 - U_d [l]) * (1 - Z_n [l]))
  return out

/-- lom_outputs_fuzzy.py:175-185 `XOR_NXOR_product_fuzzy_3d` -/
noncomputable def XOR_NXOR_product_fuzzy_3d (Z_n U_d V_m : Arr ℝ) : ℝ := Id.run do
  let mut out : ℝ := 0
  for l in List.range (Z_n.dim 0) do
    let mut temp : ℝ := 1
    for l_prime in List.range (Z_n.dim 0) do
      if l ≠ l_prime then
        temp := temp * p_XOR_fuzzy_3d (Z_n [l_prime]) (U_d [l_prime]) (V_m [l_prime])
    out := out + temp * (1 - p_XOR_fuzzy_3d (Z_n [l]) (U_d [l]) (V_m [l]))
  return out

/-- lom_outputs_fuzzy.py:189-194 `OR_NAND_product_fuzzy` -/
noncomputable def OR_NAND_product_fuzzy (Z_n U_d : Arr ℝ) : ℝ := Id.run do
  let mut temp : ℝ := 1
  for l in List.range (Z_n.dim 0) do
    temp := temp * (Z_n [l] * U_d [l])
  return 1 - temp

/-- lom_outputs_fuzzy.py:197-202 `OR_NAND_product_fuzzy_3d` -/
noncomputable def OR_NAND_product_fuzzy_3d (Z_n U_d V_m : Arr ℝ) : ℝ := Id.run do
  let mut temp : ℝ := 1
  for l in List.range (Z_n.dim 0) do
    temp := temp * (Z_n [l] * U_d [l] * V_m [l])
  return 1 - temp

/-- lambda_updates_numba.py:35-51 `get_scalar_output_function_2d(model, fuzzy=True)` -/
noncomputable def get_scalar_output_function_2d_fuzzy (model : String) : Option (Arr ℝ → Arr ℝ → ℝ) :=
  if model = "OR-AND" then some OR_AND_product_fuzzy
  else if model = "XOR-AND" then some XOR_AND_product_fuzzy
  else if model = "XOR-NAND" then some XOR_NAND_product_fuzzy
  else if model = "OR-XOR" then some OR_XOR_product_fuzzy
  else if model = "NAND-XOR" then some NAND_XOR_product_fuzzy
  else if model = "XOR-XOR" then some XOR_XOR_product_fuzzy
  else if model = "XOR-NXOR" then some XOR_NXOR_product_fuzzy
  else if model = "OR-NAND" then some OR_NAND_product_fuzzy
  else none

/-- lambda_updates_numba.py:72-88 `get_scalar_output_function_3d(model, fuzzy=True)` -/
noncomputable def get_scalar_output_function_3d_fuzzy (model : String) : Option (Arr ℝ → Arr ℝ → Arr ℝ → ℝ) :=
  if model = "OR-AND" then some OR_AND_product_fuzzy_3d
  else if model = "XOR-AND" then some XOR_AND_product_fuzzy_3d
  else if model = "XOR-NAND" then some XOR_NAND_product_fuzzy_3d
  else if model = "OR-XOR" then some OR_XOR_product_fuzzy_3d
  else if model = "NAND-XOR" then some NAND_XOR_product_fuzzy_3d
  else if model = "XOR-XOR" then some XOR_XOR_product_fuzzy_3d
  else if model = "XOR-NXOR" then some XOR_NXOR_product_fuzzy_3d
  else if model = "OR-NAND" then some OR_NAND_product_fuzzy_3d
  else none

/-- lambda_updates_numba.py:129-143 `make_output_function_2d_fuzzy(model)` -/
noncomputable def output_function_2d_fuzzy (model : String) (Z U : Arr ℝ) : Except Err (Arr ℝ) :=
  match get_scalar_output_function_2d_fuzzy model with
  | none => .error .typingError
  | some f => .ok <| Id.run do
      let N := Z.dim 0
      let D := U.dim 0
      let mut X : Arr ℝ := Arr.full [N, D] 0
      for n in List.range N do
        for d in List.range D do
          X := X.set [n, d] (f (Z.row n) (U.row d))
      return X

/-- lambda_updates_numba.py:146-162 `make_output_function_3d_fuzzy(model)`. The numba signature declares a
two-dimensional result although the array returned has three dimensions; the model assumes that the function
compiles and returns that array (see DESIGN.md). -/
noncomputable def output_function_3d_fuzzy (model : String) (Z U V : Arr ℝ) : Except Err (Arr ℝ) :=
  match get_scalar_output_function_3d_fuzzy model with
  | none => .error .typingError
  | some f => .ok <| Id.run do
      let N := Z.dim 0
      let D := U.dim 0
      let M := V.dim 0
      let mut X : Arr ℝ := Arr.full [N, D, M] 0
      for n in List.range N do
        for d in List.range D do
          for m in List.range M do
            X := X.set [n, d, m] (f (Z.row n) (U.row d) (V.row m))
      return X

/-- auxiliary_functions.py:710-714, 724-728: the sum shared by `XOR` and `NXOR` of `get_fuzzy_lop` -/
noncomputable def fuzzy_xor (x : List ℝ) : ℝ :=
  ((List.range x.length).map fun j =>
    (((List.range x.length).filter fun i => i ≠ j).map (fun i => 1 - x.getD i 0) ++ [x.getD j 0]).prod).sum

/-- auxiliary_functions.py:696-736 `get_fuzzy_lop` -/
noncomputable def get_fuzzy_lop (name : String) : Except Err (List ℝ → ℝ) :=
  if name = "OR" then .ok fun x => 1 - (x.map (1 - ·)).prod
  else if name = "NOR" then .ok fun x => (x.map (1 - ·)).prod
  else if name = "AND" then .ok fun x => x.prod
  else if name = "NAND" then .ok fun x => 1 - x.prod
  else if name = "XOR" then .ok fuzzy_xor
  else if name = "NXOR" then .ok fun x => 1 - fuzzy_xor x
  else .error .valueError

/-- auxiliary_functions.py:812-821, the loop of `lom_generate_data_fuzzy`. `outer_logic` and `inner_logic`
are overwritten completely for every cell, so they are lists computed afresh. -/
noncomputable def generate_cells_fuzzy (factors : List (Arr ℝ)) (L : Nat) (outer inner : List ℝ → ℝ) : Arr ℝ :=
  Id.run do
    let mut out : Arr ℝ := Arr.full (factors.map fun x => x.dim 0) 0
    for index in indices (factors.map fun x => x.dim 0) do
      let outer_logic := (List.range L).map fun l =>
        inner (factors.zipIdx.map fun (f, i) => 1 / 2 * (f [index.getD i 0, l] + 1))
      out := out.set index (outer outer_logic)
    return out

/-- auxiliary_functions.py:801-823 `lom_generate_data_fuzzy` -/
noncomputable def lom_generate_data_fuzzy (factors : List (Arr ℝ)) (model : String) :
    Except Err (Arr ℝ) := do
  let L ← match factors with
    | [] => throw Err.indexError
    | f :: _ => pure (f.dim 1)
  let (outer_name, inner_name) ← splitModel model
  let outer ← get_fuzzy_lop outer_name
  let inner ← get_fuzzy_lop inner_name
  return (generate_cells_fuzzy factors L outer inner).map fun x => 2 * x - 1

end LFM

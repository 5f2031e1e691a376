import Verif.Py

/-!
# Model of `lom/_numba/lom_outputs.py`

Loops are written in `do` notation, statement by statement. Counters (`np.int8(0)`, promoted to
`int64` by numba as soon as an `int64` literal is added) are naturals. `u.shape[0]` is `u.dim 0`.
-/

namespace LFM

/-- lom_outputs.py:15-23 `compute_g`: number of active sources, accumulated into `g` in place.
`g` is an `int8` array: every stored value is wrapped to int8. The `prange` loops over `n`, `d`
write disjoint cells. -/
def compute_g (Z U g : Arr Int) : Arr Int := Id.run do
  let N := Z.dim 0
  let L := Z.dim 1
  let D := U.dim 0
  let mut g := g
  for n in List.range N do
    for d in List.range D do
      for l in List.range L do
        if Z [n, l] = U [d, l] ∧ U [d, l] = 1 then
          g := g.set [n, d] (wrap8 (g [n, d] + 1))
  return g

/-- lom_outputs.py:27-36 `qL_AND_product` (the `else` belongs to the `for`). -/
def qL_AND_product (u z : Arr Int) (q : Int) : Int := Id.run do
  let mut counter : Nat := 0
  for l in List.range (u.dim 0) do
    if u [l] = 1 ∧ z [l] = 1 then
      counter := counter + 1
    if (counter : Int) = q then
      return 1
  return -1

/-- lom_outputs.py:39-44 -/
def OR_AND_product (u z : Arr Int) : Int := Id.run do
  for l in List.range (u.dim 0) do
    if u [l] = 1 ∧ z [l] = 1 then
      return 1
  return -1

/-- lom_outputs.py:47-52 -/
def OR_AND_product_3d (Z_n U_d V_m : Arr Int) : Int := Id.run do
  for l in List.range (Z_n.dim 0) do
    if Z_n [l] = 1 ∧ U_d [l] = 1 ∧ V_m [l] = 1 then
      return 1
  return -1

/-- lom_outputs.py:55-68 `OR_AND_product_expand`: 0/1 matrix of a single latent dimension. -/
def OR_AND_product_expand (z u : Arr Int) : Arr Int := Id.run do
  let N := z.dim 0
  let D := u.dim 0
  let mut X : Arr Int := Arr.full [N, D] 0
  for n in List.range N do
    for d in List.range D do
      if u [d] = 1 ∧ z [n] = 1 then
        X := X.set [n, d] 1
  return X

/-- lom_outputs.py:70-82 `OR_AND_single_n`: crisp output of one row. -/
def OR_AND_single_n (z U : Arr Int) : Arr Int := Id.run do
  let D := U.dim 0
  let mut out : Arr Int := Arr.full [D] 0
  for d in List.range D do
    out := out.set [d] (OR_AND_product z (U.row d))
  return out

/-- lom_outputs.py:86-91 -/
def OR_NAND_product (u z : Arr Int) : Int := Id.run do
  for l in List.range (u.dim 0) do
    if u [l] = -1 ∨ z [l] = -1 then
      return 1
  return -1

/-- lom_outputs.py:94-99 -/
def OR_NAND_product_3d (u z v : Arr Int) : Int := Id.run do
  for l in List.range (u.dim 0) do
    if u [l] = -1 ∨ z [l] = -1 ∨ v [l] = -1 then
      return 1
  return -1

/-- lom_outputs.py:103-108 -/
def OR_XOR_product (u z : Arr Int) : Int := Id.run do
  for l in List.range (u.dim 0) do
    if u [l] ≠ z [l] then
      return 1
  return -1

/-- lom_outputs.py:111-116 -/
def OR_XOR_product_3d (u z v : Arr Int) : Int := Id.run do
  for l in List.range (u.dim 0) do
    if u [l] + z [l] + v [l] = -1 then
      return 1
  return -1

/-- lom_outputs.py:120-125 -/
def NAND_XOR_product (u z : Arr Int) : Int := Id.run do
  for l in List.range (u.dim 0) do
    if u [l] = z [l] then
      return 1
  return -1

/-- lom_outputs.py:128-133 -/
def NAND_XOR_product_3d (u z v : Arr Int) : Int := Id.run do
  for l in List.range (u.dim 0) do
    if u [l] + z [l] + v [l] ≠ -1 then
      return 1
  return -1

/-- lom_outputs.py:137-148 -/
def XOR_AND_product (u z : Arr Int) : Int := Id.run do
  let mut xor_count : Nat := 0
  for l in List.range (u.dim 0) do
    if u [l] = 1 ∧ z [l] = 1 then
      xor_count := xor_count + 1
    if xor_count > 1 then
      return -1
  if xor_count = 1 then
    return 1
  else
    return -1

/-- lom_outputs.py:151-162 -/
def XOR_AND_product_3d (u z v : Arr Int) : Int := Id.run do
  let mut xor_count : Nat := 0
  for l in List.range (u.dim 0) do
    if u [l] = 1 ∧ z [l] = 1 ∧ v [l] = 1 then
      xor_count := xor_count + 1
    if xor_count > 1 then
      return -1
  if xor_count = 1 then
    return 1
  else
    return -1

/-- lom_outputs.py:166-177 -/
def XOR_XOR_product (u z : Arr Int) : Int := Id.run do
  let mut xor_count : Nat := 0
  for l in List.range (u.dim 0) do
    if u [l] ≠ z [l] then
      xor_count := xor_count + 1
    if xor_count > 1 then
      return -1
  if xor_count = 1 then
    return 1
  else
    return -1

/-- lom_outputs.py:180-191 -/
def XOR_XOR_product_3d (u z v : Arr Int) : Int := Id.run do
  let mut xor_count : Nat := 0
  for l in List.range (u.dim 0) do
    if u [l] + z [l] + v [l] = -1 then
      xor_count := xor_count + 1
    if xor_count > 1 then
      return -1
  if xor_count = 1 then
    return 1
  else
    return -1

/-- lom_outputs.py:195-206 -/
def XOR_NXOR_product (u z : Arr Int) : Int := Id.run do
  let mut xor_count : Nat := 0
  for i in List.range (u.dim 0) do
    if u [i] = z [i] then
      xor_count := xor_count + 1
    if xor_count > 1 then
      return -1
  if xor_count = 1 then
    return 1
  else
    return -1

/-- lom_outputs.py:209-220 -/
def XOR_NXOR_product_3d (u z v : Arr Int) : Int := Id.run do
  let mut xor_count : Nat := 0
  for l in List.range (u.dim 0) do
    if u [l] + z [l] + v [l] ≠ -1 then
      xor_count := xor_count + 1
    if xor_count > 1 then
      return -1
  if xor_count = 1 then
    return 1
  else
    return -1

/-- lom_outputs.py:224-235 -/
def XOR_NAND_product (u z : Arr Int) : Int := Id.run do
  let mut xor_count : Nat := 0
  for l in List.range (u.dim 0) do
    if u [l] ≠ 1 ∨ z [l] ≠ 1 then
      xor_count := xor_count + 1
    if xor_count > 1 then
      return -1
  if xor_count = 1 then
    return 1
  else
    return -1

/-- lom_outputs.py:238-249 -/
def XOR_NAND_product_3d (u z v : Arr Int) : Int := Id.run do
  let mut xor_count : Nat := 0
  for l in List.range (u.dim 0) do
    if u [l] ≠ 1 ∨ z [l] ≠ 1 ∨ v [l] ≠ 1 then
      xor_count := xor_count + 1
    if xor_count > 1 then
      return -1
  if xor_count = 1 then
    return 1
  else
    return -1

end LFM

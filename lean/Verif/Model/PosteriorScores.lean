import Verif.Py

/-!
# Model of `lom/_numba/posterior_score_fcts.py`

`score = 0` is an `int64` in numba; the declared return type of the 2D functions is `int16`, so the
returned value is wrapped to 16 bits (`wrap16`), that of the 3D functions `int64` (`wrap64`). The
counter `num_active` is a natural number. `l` is a natural number (declared `int16`, so the model is
meant for `L ≤ 32767`).
-/

namespace LFM

/-- posterior_score_fcts.py:11-37 -/
def posterior_score_OR_AND_2D (Z_n U X_n : Arr Int) (l : Nat) : Int := Id.run do
  let D := U.dim 0
  let L := U.dim 1
  let mut score : Int := 0
  for d in List.range D do
    if U [d, l] ≠ 1 then
      continue
    let mut alrdy_active := false
    for l' in List.range L do
      if Z_n [l'] = 1 ∧ U [d, l'] = 1 ∧ l' ≠ l then
        alrdy_active := true
        break
    if alrdy_active = false then
      score := score + X_n [d]
  return wrap16 (score)

/-- posterior_score_fcts.py:40-70 -/
def posterior_score_OR_AND_3D (Z_n U V X_n : Arr Int) (l : Nat) : Int := Id.run do
  let D := U.dim 0
  let L := U.dim 1
  let M := V.dim 0
  let mut score : Int := 0
  for d in List.range D do
    for m in List.range M do
      if U [d, l] ≠ 1 ∨ V [m, l] ≠ 1 then
        continue
      let mut alrdy_active := false
      for l' in List.range L do
        if Z_n [l'] = 1 ∧ U [d, l'] = 1 ∧ V [m, l'] = 1 ∧ l' ≠ l then
          alrdy_active := true
          break
      if alrdy_active = false then
        score := score + X_n [d, m]
  return wrap64 (score)

/-- posterior_score_fcts.py:74-104 -/
def posterior_score_XOR_AND_2D (Z_n U X_n : Arr Int) (l : Nat) : Int := Id.run do
  let D := U.dim 0
  let L := U.dim 1
  let mut score : Int := 0
  for d in List.range D do
    if U [d, l] ≠ 1 then
      continue
    let mut num_active : Nat := 0
    for l' in List.range L do
      if Z_n [l'] = 1 ∧ U [d, l'] = 1 ∧ l' ≠ l then
        num_active := num_active + 1
        if num_active > 1 then
          break
    if num_active = 0 then
      score := score + X_n [d]
    else if num_active = 1 then
      score := score - X_n [d]
  return wrap16 (score)

/-- posterior_score_fcts.py:107-140 -/
def posterior_score_XOR_AND_3D (Z_n U V X_n : Arr Int) (l : Nat) : Int := Id.run do
  let D := U.dim 0
  let L := U.dim 1
  let M := V.dim 0
  let mut score : Int := 0
  for d in List.range D do
    for m in List.range M do
      if U [d, l] ≠ 1 ∨ V [m, l] ≠ 1 then
        continue
      let mut num_active : Nat := 0
      for l' in List.range L do
        if Z_n [l'] = 1 ∧ U [d, l'] = 1 ∧ V [m, l'] = 1 ∧ l' ≠ l then
          num_active := num_active + 1
          if num_active > 1 then
            break
      if num_active = 0 then
        score := score + X_n [d, m]
      else if num_active = 1 then
        score := score - X_n [d, m]
  return wrap64 (score)

/-- posterior_score_fcts.py:144-173 -/
def posterior_score_XOR_NAND_2D (Z_n U X_n : Arr Int) (l : Nat) : Int := Id.run do
  let D := U.dim 0
  let L := U.dim 1
  let mut score : Int := 0
  for d in List.range D do
    if U [d, l] ≠ 1 then
      continue
    let mut num_active : Nat := 0
    for l' in List.range L do
      if (Z_n [l'] ≠ 1 ∨ U [d, l'] ≠ 1) ∧ l' ≠ l then
        num_active := num_active + 1
        if num_active > 1 then
          break
    if num_active = 0 then
      score := score + X_n [d]
    else if num_active = 1 then
      score := score - X_n [d]
  return wrap16 (-score)

/-- posterior_score_fcts.py:176-204 -/
def posterior_score_XOR_NAND_3D (Z_n U V X_n : Arr Int) (l : Nat) : Int := Id.run do
  let D := U.dim 0
  let L := U.dim 1
  let M := V.dim 0
  let mut score : Int := 0
  for d in List.range D do
    for m in List.range M do
      if U [d, l] ≠ 1 ∨ V [m, l] ≠ 1 then
        continue
      let mut num_active : Nat := 0
      for l' in List.range L do
        if (Z_n [l'] ≠ 1 ∨ U [d, l'] ≠ 1 ∨ V [m, l'] ≠ 1) ∧ l' ≠ l then
          num_active := num_active + 1
          if num_active > 1 then
            break
      if num_active = 0 then
        score := score + X_n [d, m]
      else if num_active = 1 then
        score := score - X_n [d, m]
  return wrap64 (-score)

/-- posterior_score_fcts.py:209-234 -/
def posterior_score_OR_NAND_2D (Z_n U X_n : Arr Int) (l : Nat) : Int := Id.run do
  let D := U.dim 0
  let L := U.dim 1
  let mut score : Int := 0
  for d in List.range D do
    if U [d, l] = -1 then
      continue
    let mut alrdy_active := false
    for l' in List.range L do
      if (Z_n [l'] = -1 ∨ U [d, l'] = -1) ∧ l' ≠ l then
        alrdy_active := true
        break
    if alrdy_active = false then
      score := score + X_n [d]
  return wrap16 (-score)

/-- posterior_score_fcts.py:237-261 -/
def posterior_score_OR_NAND_3D (Z_n U V X_n : Arr Int) (l : Nat) : Int := Id.run do
  let D := U.dim 0
  let L := U.dim 1
  let M := V.dim 0
  let mut score : Int := 0
  for d in List.range D do
    for m in List.range M do
      if U [d, l] = -1 ∨ V [m, l] = -1 then
        continue
      let mut alrdy_active := false
      for l' in List.range L do
        if (Z_n [l'] = -1 ∨ U [d, l'] = -1 ∨ V [m, l'] = -1) ∧ l' ≠ l then
          alrdy_active := true
          break
      if alrdy_active = false then
        score := score + X_n [d, m]
  return wrap64 (-score)

/-- posterior_score_fcts.py:265-287 -/
def posterior_score_OR_XOR_2D (Z_n U X_n : Arr Int) (l : Nat) : Int := Id.run do
  let D := U.dim 0
  let L := U.dim 1
  let mut score : Int := 0
  for d in List.range D do
    let mut explained_away := false
    for l' in List.range L do
      if Z_n [l'] ≠ U [d, l'] ∧ l' ≠ l then
        explained_away := true
        break
    if explained_away = false then
      score := score + X_n [d] * U [d, l]
  return wrap16 (-score)

/-- posterior_score_fcts.py:290-312 -/
def posterior_score_OR_XOR_3D (Z_n U V X_n : Arr Int) (l : Nat) : Int := Id.run do
  let D := U.dim 0
  let L := U.dim 1
  let M := V.dim 0
  let mut score : Int := 0
  for d in List.range D do
    for m in List.range M do
      if U [d, l] = 1 ∧ V [m, l] = 1 then
        continue
      let mut explained_away := false
      for l' in List.range L do
        if Z_n [l'] + U [d, l'] + V [m, l'] = -1 ∧ l' ≠ l then
          explained_away := true
          break
      if explained_away = false then
        score := score + X_n [d, m] * U [d, l] * V [m, l]
  return wrap64 (score)

/-- posterior_score_fcts.py:316-332 -/
def posterior_score_NAND_XOR_2D (Z_n U X_n : Arr Int) (l : Nat) : Int := Id.run do
  let D := U.dim 0
  let L := U.dim 1
  let mut score : Int := 0
  for d in List.range D do
    let mut explained_away := false
    for l' in List.range L do
      if Z_n [l'] = U [d, l'] ∧ l' ≠ l then
        explained_away := true
        break
    if explained_away = false then
      score := score + X_n [d] * U [d, l]
  return wrap16 (score)

/-- posterior_score_fcts.py:335-356 -/
def posterior_score_NAND_XOR_3D (Z_n U V X_n : Arr Int) (l : Nat) : Int := Id.run do
  let D := U.dim 0
  let L := U.dim 1
  let M := V.dim 0
  let mut score : Int := 0
  for d in List.range D do
    for m in List.range M do
      if U [d, l] = 1 ∧ V [m, l] = 1 then
        continue
      let mut explained_away := false
      for l' in List.range L do
        if Z_n [l'] + U [d, l'] + V [m, l'] ≠ -1 ∧ l' ≠ l then
          explained_away := true
          break
      if explained_away = false then
        score := score + X_n [d, m] * U [d, l] * V [m, l]
  return wrap64 (-score)

/-- posterior_score_fcts.py:360-379 -/
def posterior_score_XOR_XOR_2D (Z_n U X_n : Arr Int) (l : Nat) : Int := Id.run do
  let D := U.dim 0
  let L := U.dim 1
  let mut score : Int := 0
  for d in List.range D do
    let mut num_active : Nat := 0
    for l' in List.range L do
      if Z_n [l'] ≠ U [d, l'] ∧ l' ≠ l then
        num_active := num_active + 1
      if num_active > 1 then
        break
    if num_active = 0 then
      score := score - X_n [d] * U [d, l]
    else if num_active = 1 then
      score := score + X_n [d] * U [d, l]
  return wrap16 (score)

/-- posterior_score_fcts.py:382-407 -/
def posterior_score_XOR_XOR_3D (Z_n U V X_n : Arr Int) (l : Nat) : Int := Id.run do
  let D := U.dim 0
  let L := U.dim 1
  let M := V.dim 0
  let mut score : Int := 0
  for d in List.range D do
    for m in List.range M do
      if U [d, l] = 1 ∧ V [m, l] = 1 then
        continue
      let mut num_active : Nat := 0
      for l' in List.range L do
        if Z_n [l'] + U [d, l'] + V [m, l'] = -1 ∧ l' ≠ l then
          num_active := num_active + 1
        if num_active > 1 then
          break
      if num_active = 0 then
        score := score + X_n [d, m] * U [d, l] * V [m, l]
      else if num_active = 1 then
        score := score - X_n [d, m] * U [d, l] * V [m, l]
  return wrap64 (score)

/-- posterior_score_fcts.py:411-430 -/
def posterior_score_XOR_NXOR_2D (Z_n U X_n : Arr Int) (l : Nat) : Int := Id.run do
  let D := U.dim 0
  let L := U.dim 1
  let mut score : Int := 0
  for d in List.range D do
    let mut num_active : Nat := 0
    for l' in List.range L do
      if U [d, l'] = Z_n [l'] ∧ l' ≠ l then
        num_active := num_active + 1
      if num_active > 1 then
        break
    if num_active = 0 then
      score := score + X_n [d] * U [d, l]
    else if num_active = 1 then
      score := score - X_n [d] * U [d, l]
  return wrap16 (score)

/-- posterior_score_fcts.py:433-458 -/
def posterior_score_XOR_NXOR_3D (Z_n U V X_n : Arr Int) (l : Nat) : Int := Id.run do
  let D := U.dim 0
  let L := U.dim 1
  let M := V.dim 0
  let mut score : Int := 0
  for d in List.range D do
    for m in List.range M do
      if U [d, l] = 1 ∧ V [m, l] = 1 then
        continue
      let mut num_active : Nat := 0
      for l' in List.range L do
        if U [d, l'] + Z_n [l'] + V [m, l'] ≠ -1 ∧ l' ≠ l then
          num_active := num_active + 1
        if num_active > 1 then
          break
      if num_active = 0 then
        score := score - X_n [d, m] * U [d, l] * V [m, l]
      else if num_active = 1 then
        score := score + X_n [d, m] * U [d, l] * V [m, l]
  return wrap64 (score)

end LFM

import Mathlib.Analysis.SpecialFunctions.Log.Basic
import Verif.Model.ScoreDispatch

/-!
# Model of `lom/_numba/matrix_updates_numba.py`, lines 18-71 and 157-381

Random draws: every `np.random.rand()` is an explicit argument. In the sampling functions
`rnd idx` is the number that the call made while entry `idx` is updated would return (at most one call
is made per entry). Floats are reals.

The sampling functions write only their first argument; the model returns its new value.
`prange` is modelled by the sequential loop here; all parallel schedules are treated in
`Verif/Model/Parallel.lean`.
-/

namespace LFM

/-- matrix_updates_numba.py:18-35. `u` is the draw of line 32. -/
noncomputable def flip_metropolised_gibbs_numba (logit_p : ℝ) (z : Int) (u : ℝ) : Int :=
  if z = 1 ∧ logit_p ≤ 0 then -1
  else if z = -1 ∧ logit_p ≥ 0 then 1
  else if Real.exp (-(z : ℝ) * logit_p) > u then -z
  else z

/-- matrix_updates_numba.py:38-47. `u` is the draw of line 44. -/
noncomputable def flip_gibbs_numba (p : ℝ) (u : ℝ) : Int :=
  if p > u then 1 else -1

/-- matrix_updates_numba.py:50-71. `u` is the draw of line 68. -/
noncomputable def flip_metropolised_gibbs_numba_classic (p : ℝ) (z : Int) (u : ℝ) : Int :=
  let accept (alpha : ℝ) : Int := if u < alpha then -z else z
  if z = 1 then
    if p ≤ 1 / 2 then -z else accept ((1 - p) / p)
  else
    if p ≥ 1 / 2 then -z else accept (p / (1 - p))

/-- uniform draws, one per entry of the updated array (`np.random.rand()` of matrix_updates_numba.py:32) -/
abbrev Rnd := List Nat → ℝ

/-- matrix_updates_numba.py:165-174 -/
noncomputable def sampling_onechild_2D (posterior_score_fct : Arr Int → Arr Int → Arr Int → Nat → Int)
    (Z Z_fixed U X : Arr Int) (lbda logit_prior : ℝ) (rnd : Rnd) : Arr Int := Id.run do
  let N := Z.dim 0
  let L := Z.dim 1
  let mut Z := Z
  for n in List.range N do
    for l in List.range L do
      if Z_fixed [n, l] = 1 then
        continue
      let logit_score := lbda * posterior_score_fct (Z.row n) U (X.row n) l
      Z := Z.set [n, l] (flip_metropolised_gibbs_numba (logit_score + logit_prior) (Z [n, l])
        (rnd [n, l]))
  return Z

/-- matrix_updates_numba.py:180-189 -/
noncomputable def sampling_onechild_3D
    (posterior_score_fct : Arr Int → Arr Int → Arr Int → Arr Int → Nat → Int)
    (Z Z_fixed U V X : Arr Int) (lbda logit_prior : ℝ) (rnd : Rnd) : Arr Int := Id.run do
  let N := Z.dim 0
  let L := Z.dim 1
  let mut Z := Z
  for n in List.range N do
    for l in List.range L do
      if Z_fixed [n, l] = 1 then
        continue
      let logit_score := lbda * posterior_score_fct (Z.row n) U V (X.row n) l
      Z := Z.set [n, l] (flip_metropolised_gibbs_numba (logit_score + logit_prior) (Z [n, l])
        (rnd [n, l]))
  return Z

/-- matrix_updates_numba.py:203-215 -/
noncomputable def sampling_onechild_oneparent_2D
    (posterior_score_fct : Arr Int → Arr Int → Arr Int → Nat → Int)
    (parent_posterior_score_fct : Arr Int → Arr Int → Int)
    (Z Z_fixed U X : Arr Int) (lbda : ℝ) (pa1 pa2 : Arr Int) (lbda_pa logit_prior : ℝ) (rnd : Rnd) :
    Arr Int := Id.run do
  let N := Z.dim 0
  let L := Z.dim 1
  let mut Z := Z
  for n in List.range N do
    for l in List.range L do
      if Z_fixed [n, l] = 1 then
        continue
      let logit_score := lbda * posterior_score_fct (Z.row n) U (X.row n) l
      let logit_parent_score := lbda_pa * parent_posterior_score_fct (pa1.row n) (pa2.row l)
      Z := Z.set [n, l] (flip_metropolised_gibbs_numba
        (logit_score + logit_parent_score + logit_prior) (Z [n, l]) (rnd [n, l]))
  return Z

/-- matrix_updates_numba.py:249-259 -/
noncomputable def sampling_nochild_oneparent_2D (parent_posterior_score_fct : Arr Int → Arr Int → Int)
    (Z Z_fixed pa1 pa2 : Arr Int) (lbda_pa logit_prior : ℝ) (rnd : Rnd) : Arr Int := Id.run do
  let N := Z.dim 0
  let L := Z.dim 1
  let mut Z := Z
  for n in List.range N do
    for l in List.range L do
      if Z_fixed [n, l] = 1 then
        continue
      let logit_parent_score := lbda_pa * parent_posterior_score_fct (pa1.row n) (pa2.row l)
      Z := Z.set [n, l] (flip_metropolised_gibbs_numba (logit_parent_score + logit_prior) (Z [n, l])
        (rnd [n, l]))
  return Z

/-- matrix_updates_numba.py:290-308 -/
noncomputable def sampling_nochild_twoparents_2D
    (parent_posterior_score_fct : Arr Int → Arr Int → Int)
    (Z Z_fixed pa1_1 pa1_2 : Arr Int) (lbda_pa1 : ℝ) (pa2_1 pa2_2 : Arr Int)
    (lbda_pa2 logit_prior : ℝ) (rnd : Rnd) : Arr Int := Id.run do
  let N := Z.dim 0
  let L := Z.dim 1
  let mut Z := Z
  for n in List.range N do
    for l in List.range L do
      if Z_fixed [n, l] = 1 then
        continue
      let logit_parent_score_1 := lbda_pa1 * parent_posterior_score_fct (pa1_1.row n) (pa1_2.row l)
      let logit_parent_score_2 := lbda_pa2 * parent_posterior_score_fct (pa2_1.row n) (pa2_2.row l)
      Z := Z.set [n, l] (flip_metropolised_gibbs_numba
        (logit_parent_score_1 + logit_parent_score_2 + logit_prior) (Z [n, l]) (rnd [n, l]))
  return Z

/-- matrix_updates_numba.py:314-337 -/
noncomputable def sampling_nochild_twoparents_3D
    (parent_posterior_score_fct : Arr Int → Arr Int → Arr Int → Int)
    (Z Z_fixed pa1_1 pa1_2 pa1_3 : Arr Int) (lbda_pa1 : ℝ) (pa2_1 pa2_2 pa2_3 : Arr Int)
    (lbda_pa2 logit_prior : ℝ) (rnd : Rnd) : Arr Int := Id.run do
  let N := Z.dim 0
  let D := Z.dim 1
  let M := Z.dim 2
  let mut Z := Z
  for n in List.range N do
    for d in List.range D do
      for m in List.range M do
        if Z_fixed [n, d, m] = 1 then
          continue
        let logit_parent_score_1 := lbda_pa1 *
          parent_posterior_score_fct (pa1_1.row n) (pa1_2.row d) (pa1_3.row m)
        let logit_parent_score_2 := lbda_pa2 *
          parent_posterior_score_fct (pa2_1.row n) (pa2_2.row d) (pa2_3.row m)
        Z := Z.set [n, d, m] (flip_metropolised_gibbs_numba
          (logit_parent_score_1 + logit_parent_score_2 + logit_prior) (Z [n, d, m]) (rnd [n, d, m]))
  return Z

/-- matrix_updates_numba.py:354-376 -/
noncomputable def sampling_onechild_twoparents_2D
    (posterior_score_fct : Arr Int → Arr Int → Arr Int → Nat → Int)
    (parent_posterior_score_fct : Arr Int → Arr Int → Int)
    (Z Z_fixed U X : Arr Int) (lbda : ℝ) (pa1_1 pa1_2 : Arr Int) (lbda_pa1 : ℝ)
    (pa2_1 pa2_2 : Arr Int) (lbda_pa2 logit_prior : ℝ) (rnd : Rnd) : Arr Int := Id.run do
  let N := Z.dim 0
  let L := Z.dim 1
  let mut Z := Z
  for n in List.range N do
    for l in List.range L do
      if Z_fixed [n, l] = 1 then
        continue
      let logit_score := lbda * posterior_score_fct (Z.row n) U (X.row n) l
      let logit_parent_score_1 := lbda_pa1 * parent_posterior_score_fct (pa1_1.row n) (pa1_2.row l)
      let logit_parent_score_2 := lbda_pa2 * parent_posterior_score_fct (pa2_1.row n) (pa2_2.row l)
      Z := Z.set [n, l] (flip_metropolised_gibbs_numba
        (logit_score + logit_parent_score_1 + logit_parent_score_2 + logit_prior) (Z [n, l])
        (rnd [n, l]))
  return Z

/-- sampling function compiled for a matrix with one child and no parents (matrix_updates_numba.py:165, 180) -/
inductive OneChild
  /-- `sampling_fct(Z, Z_fixed, U, X, lbda, logit_prior)` -/
  | two (f : Arr Int → Arr Int → Arr Int → Arr Int → ℝ → ℝ → Rnd → Arr Int)
  /-- `sampling_fct(Z, Z_fixed, U, V, X, lbda, logit_prior)` -/
  | three (f : Arr Int → Arr Int → Arr Int → Arr Int → Arr Int → ℝ → ℝ → Rnd → Arr Int)

/-- matrix_updates_numba.py:157-191. Calling a two-factor score function with the arguments of the 3D
loop (or the converse) is a numba typing error; it cannot happen, since both are selected by the same
suffix of `model`. Without a `2D`/`3D` suffix `sampling_fct` would be unbound at line 191. -/
noncomputable def make_sampling_fct_onechild (model : String) : Except Err OneChild := do
  let posterior_score_fct ← get_posterior_score_fct model
  if pyLastTwo model = "2D" then
    match posterior_score_fct with
    | .two f => .ok (.two (sampling_onechild_2D f))
    | .three _ => .error .typingError
  else if pyLastTwo model = "3D" then
    match posterior_score_fct with
    | .three f => .ok (.three (sampling_onechild_3D f))
    | .two _ => .error .typingError
  else .error .unboundLocal

/-- `sampling_fct(Z, Z_fixed, U, X, lbda, pa1, pa2, lbda_pa, logit_prior)` (matrix_updates_numba.py:203) -/
abbrev OneChildOneParent :=
  Arr Int → Arr Int → Arr Int → Arr Int → ℝ → Arr Int → Arr Int → ℝ → ℝ → Rnd → Arr Int

/-- matrix_updates_numba.py:194-235. The 3D function (line 232-233) calls the flip function with one
argument because of a misplaced parenthesis; it is compiled eagerly in nopython mode, so building it is
a typing error. A 3D parent function called with two rows is a typing error, too. -/
noncomputable def make_sampling_fct_onechild_oneparent (model parent_model : String) :
    Except Err OneChildOneParent := do
  let posterior_score_fct ← get_posterior_score_fct model
  let parent_posterior_score_fct ← get_parent_score_fct parent_model
  if pyLastTwo model = "2D" then
    match posterior_score_fct, parent_posterior_score_fct with
    | .two f, .two g => .ok (sampling_onechild_oneparent_2D f g)
    | _, _ => .error .typingError
  else if pyLastTwo model = "3D" then
    .error .typingError
  else .error .unboundLocal

/-- `sampling_fct(Z, Z_fixed, pa1, pa2, lbda_pa, logit_prior)` (matrix_updates_numba.py:249, 264) -/
abbrev NoChildOneParent := Arr Int → Arr Int → Arr Int → Arr Int → ℝ → ℝ → Rnd → Arr Int

/-- matrix_updates_numba.py:238-278. The 3D function (line 262) declares six argument types for seven
arguments: compilation fails. -/
noncomputable def make_sampling_fct_nochild_oneparent (parent_model : String) :
    Except Err NoChildOneParent := do
  let parent_posterior_score_fct ← get_parent_score_fct parent_model
  if pyLastTwo parent_model = "2D" then
    match parent_posterior_score_fct with
    | .two g => .ok (sampling_nochild_oneparent_2D g)
    | .three _ => .error .typingError
  else if pyLastTwo parent_model = "3D" then
    .error .typingError
  else .error .unboundLocal

/-- sampling function for a matrix without child and with two parents (matrix_updates_numba.py:290, 314) -/
inductive NoChildTwoParents
  | two (f : Arr Int → Arr Int → Arr Int → Arr Int → ℝ → Arr Int → Arr Int → ℝ → ℝ → Rnd → Arr Int)
  | three (f : Arr Int → Arr Int → Arr Int → Arr Int → Arr Int → ℝ →
      Arr Int → Arr Int → Arr Int → ℝ → ℝ → Rnd → Arr Int)

/-- matrix_updates_numba.py:281-339. Lines 283-284 bind the same name twice: only the score function of
`parent_model_2` survives. With one 2D and one 3D parent `sampling_fct` is unbound at line 339. -/
noncomputable def make_sampling_fct_nochild_twoparents (parent_model_1 parent_model_2 : String) :
    Except Err NoChildTwoParents := do
  let _ ← get_parent_score_fct parent_model_1
  let parent_posterior_score_fct ← get_parent_score_fct parent_model_2
  if pyLastTwo parent_model_1 = "2D" ∧ pyLastTwo parent_model_2 = "2D" then
    match parent_posterior_score_fct with
    | .two g => .ok (.two (sampling_nochild_twoparents_2D g))
    | .three _ => .error .typingError
  else if pyLastTwo parent_model_1 = "3D" ∧ pyLastTwo parent_model_2 = "3D" then
    match parent_posterior_score_fct with
    | .three g => .ok (.three (sampling_nochild_twoparents_3D g))
    | .two _ => .error .typingError
  else .error .unboundLocal

/-- `sampling_fct(Z, Z_fixed, U, X, lbda, pa1_1, pa1_2, lbda_pa1, pa2_1, pa2_2, lbda_pa2, logit_prior)`
(matrix_updates_numba.py:354) -/
abbrev OneChildTwoParents :=
  Arr Int → Arr Int → Arr Int → Arr Int → ℝ → Arr Int → Arr Int → ℝ →
    Arr Int → Arr Int → ℝ → ℝ → Rnd → Arr Int

/-- matrix_updates_numba.py:342-381. Lines 345-346 bind the same name twice: only the score function of
`parent_model_2` survives. -/
noncomputable def make_sampling_fct_onechild_twoparents (model parent_model_1 parent_model_2 : String) :
    Except Err OneChildTwoParents := do
  let posterior_score_fct ← get_posterior_score_fct model
  let _ ← get_parent_score_fct parent_model_1
  let parent_posterior_score_fct ← get_parent_score_fct parent_model_2
  if pyLastTwo model = "2D" then
    match posterior_score_fct, parent_posterior_score_fct with
    | .two f, .two g => .ok (sampling_onechild_twoparents_2D f g)
    | _, _ => .error .typingError
  else if pyLastTwo model = "3D" then
    .error .notImplemented
  else .error .unboundLocal

end LFM

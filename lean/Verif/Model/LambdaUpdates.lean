import Mathlib.Analysis.SpecialFunctions.Log.Basic
import Verif.Model.OutputDispatch

/-!
# Model of `lom/_numba/lambda_updates_numba.py`, lines 165-274, and of
`lom/lambda_update_wrappers.py`, lines 14-29

The `int64` counter is a natural number (it is bounded by the number of cells of an array, see C26).
Floats are real numbers extended by the IEEE specials (`NpF`), because the update expression can reach
`log(0)` and division by zero, which numpy answers with `inf`/`nan` and a warning rather than with an
exception. `prange` reductions over `count` are sequential sums.
-/

namespace LFM

/-- float64 without rounding: a real number or one of the IEEE special values
(values of the expressions of lambda_updates_numba.py:250-272) -/
inductive NpF
  | fin (x : ℝ) | posInf | negInf | nan

/-- `x / y` for float64 arguments (numpy: `0/0 = nan`, `x/0 = ±inf`) (lambda_updates_numba.py:251, 272) -/
noncomputable def npDiv (x y : ℝ) : NpF :=
  if y = 0 then if x = 0 then .nan else if 0 < x then .posInf else .negInf else .fin (x / y)

/-- `v - c` (lambda_updates_numba.py:251, 272) -/
noncomputable def NpF.sub (v : NpF) (c : ℝ) : NpF :=
  match v with
  | .fin x => .fin (x - c)
  | v => v

/-- `np.log(v)`: `log 0 = -inf`, `nan` for negative arguments (lambda_updates_numba.py:251, 272) -/
noncomputable def NpF.log (v : NpF) : NpF :=
  match v with
  | .fin x => if x = 0 then .negInf else if x < 0 then .nan else .fin (Real.log x)
  | .posInf => .posInf
  | .negInf => .nan
  | .nan => .nan

/-- `-v` (lambda_updates_numba.py:251, 272) -/
noncomputable def NpF.neg (v : NpF) : NpF :=
  match v with
  | .fin x => .fin (-x)
  | .posInf => .negInf
  | .negInf => .posInf
  | .nan => .nan

/-- `np.max([v, c])` for a finite `c` (a `nan` propagates) (lambda_updates_numba.py:251, 272) -/
noncomputable def NpF.max (v : NpF) (c : ℝ) : NpF :=
  match v with
  | .fin x => .fin (Max.max x c)
  | .posInf => .posInf
  | .negInf => .fin c
  | .nan => .nan

/-- the function returned by `make_correct_predictions_counter`, by its number of factors
(lambda_updates_numba.py:165-227) -/
inductive Counter
  /-- lambda_updates_numba.py:196-205 -/
  | two (f : Arr Int → Arr Int → Arr Int → Nat)
  /-- lambda_updates_numba.py:211-221 -/
  | three (f : Arr Int → Arr Int → Arr Int → Arr Int → Nat)
  /-- lambda_updates_numba.py:179-188 -/
  | qL (f : Arr Int → Arr Int → Arr Int → Arr Int → Nat)

/-- lambda_updates_numba.py:198-205: counts the cells of `X` that equal the output function on the
corresponding rows -/
def count_correct_2d (output_fct : Arr Int → Arr Int → Int) (Z U X : Arr Int) : Nat := Id.run do
  let N := X.dim 0
  let D := X.dim 1
  let mut count := 0
  for n in List.range N do
    for d in List.range D do
      if output_fct (Z.row n) (U.row d) = X [n, d] then
        count := count + 1
  return count

/-- lambda_updates_numba.py:213-221 -/
def count_correct_3d (output_fct : Arr Int → Arr Int → Arr Int → Int) (Z U V X : Arr Int) : Nat :=
  Id.run do
  let N := X.dim 0
  let D := X.dim 1
  let M := X.dim 2
  let mut count := 0
  for n in List.range N do
    for d in List.range D do
      for m in List.range M do
        if output_fct (Z.row n) (U.row d) (V.row m) = X [n, d, m] then
          count := count + 1
  return count

/-- lambda_updates_numba.py:181-188 -/
def count_correct_qL (Z U X q : Arr Int) : Nat := Id.run do
  let N := X.dim 0
  let D := X.dim 1
  let mut count := 0
  for n in List.range N do
    for d in List.range D do
      if qL_AND_product (Z.row n) (U.row d) (q [d]) = X [n, d] then
        count := count + 1
  return count

/-- lambda_updates_numba.py:165-227 `make_correct_predictions_counter(model, dimensionality)`. The
functions are compiled when they are defined (explicit signature), so an output function `None` (model
name not found) is a typing error here and not at call time. -/
def make_correct_predictions_counter (model : String) (dimensionality : Nat) : Except Err Counter :=
  let model := if model = "OR-AND-IBP" then "OR-AND" else model
  if model = "qL-AND" then .ok (.qL count_correct_qL)
  else if dimensionality = 2 then
    match get_scalar_output_function_2d model with
    | some f => .ok (.two (count_correct_2d f))
    | none => .error .typingError
  else if dimensionality = 3 then
    match get_scalar_output_function_3d model with
    | some f => .ok (.three (count_correct_3d f))
    | none => .error .typingError
  else .error .notImplemented

/-- `np.prod(X.shape) - np.count_nonzero(X == 0)` (lambda_updates_numba.py:250 and 271) -/
def num_observed (X : Arr Int) : Int :=
  (X.shape.prod : Int) - ((indices X.shape).countP fun i => X i = 0 : Nat)

/-- lambda_updates_numba.py:251 and 272: the new value of lambda -/
noncomputable def lbda_value (P : Nat) (ND : Int) (alpha beta : ℝ) : NpF :=
  ((((npDiv (ND + alpha + beta) (P + alpha)).sub 1).log).neg).max 0

/-- update functions returned by `get_update_fct` / `make_lbda_update_fct`
(lambda_update_wrappers.py:14-32, lambda_updates_numba.py:230-274) -/
inductive LbdaUpdate
  /-- lambda_update_wrappers.py:23-25 -/
  | max_and_2d
  /-- lambda_updates_numba.py:241-256 -/
  | qL (counter : Counter)
  /-- lambda_updates_numba.py:265-272 -/
  | lom (counter : Counter)

/-- lambda_updates_numba.py:230-274 `make_lbda_update_fct`. Line 260 refers to `bda_MAX_AND`, which
does not exist in the module (`AttributeError`). -/
def make_lbda_update_fct (model : String) (dimensionality : Nat) : Except Err LbdaUpdate := do
  if model = "qL-AND" then
    let counter ← make_correct_predictions_counter model dimensionality
    return .qL counter
  else if model = "MAX-AND" then throw .attributeError
  else
    let counter ← make_correct_predictions_counter model dimensionality
    return .lom counter

/-- lambda_update_wrappers.py:14-29 `get_update_fct`; `cached` is `parm.sampling_fct` -/
def get_update_fct (cached : Option LbdaUpdate) (model : String) (dimensionality : Nat) :
    Except Err LbdaUpdate :=
  match cached with
  | some f => .ok f
  | none =>
    if model = "MAX-AND" ∧ dimensionality = 2 then .ok .max_and_2d
    else make_lbda_update_fct model dimensionality

/-- calling the update function of a scalar lambda on a layer with the given factors (in the order of
`layer.factors`), data `child` and, for qL-AND, thresholds `q` (row 0 of a matrix): the value assigned to
`parm.val`. A wrong number of arguments is a numba dispatch error. `max_and_2d` updates a vector of
lambdas and is modelled in `Verif.Model.MaxMachine`. (lambda_updates_numba.py:241-272) -/
noncomputable def LbdaUpdate.run (f : LbdaUpdate) (factors : List (Arr Int)) (child q : Arr Int)
    (beta_prior : ℝ × ℝ) : Except Err NpF :=
  match f, factors with
  | .lom (.two c), [Z, U] => .ok (lbda_value (c Z U child) (num_observed child) beta_prior.1 beta_prior.2)
  | .lom (.three c), [Z, U, V] =>
      .ok (lbda_value (c Z U V child) (num_observed child) beta_prior.1 beta_prior.2)
  | .qL (.qL c), [Z, U] =>
      .ok (lbda_value (c Z U child (q.row 0)) (num_observed child) beta_prior.1 beta_prior.2)
  | _, _ => .error .typingError

end LFM

import Verif.Model.MatrixWrappers
import Mathlib.Analysis.SpecialFunctions.Gamma.Basic

/-!
# Model of the qL-AND samplers, `lom/_numba/matrix_updates_numba.py:511-659`, and of their assignment,
`lom/matrix_update_wrappers.py:61-94` within `lom/machine.py:686-694`

`prange` without `parallel=True` is `range`. `rnd` are the uniform draws.
-/

namespace LFM

/-- matrix_updates_numba.py:511-524 `random_choice`: `rand_float` is the draw of line 517. The result is
converted to `int8`. -/
noncomputable def random_choice (p : List ℝ) (rand_float : ℝ) : Int := Id.run do
  let mut acc : ℝ := 0
  for i in List.range p.length do
    acc := acc + p.getD i 0
    if rand_float < acc then
      return wrap8 (i + 1)
  return wrap8 (p.length + 1)

/-- `np.max` of a non-empty two-dimensional array (matrix_updates_numba.py:555) -/
noncomputable def npMax2 (a : Arr ℝ) : ℝ := ((indices a.shape).map a.get).foldl max (a [0, 0])

/-- matrix_updates_numba.py:547-550: number of rows for which the dot product of the 0/1 codings of row `n`
of `Z` and of row `d` of `U` is at least `q_new + 1` -/
noncomputable def true_predictions (Z U : Arr Int) (d q_new : Nat) : Nat :=
  (List.range (Z.dim 0)).countP fun n => decide
    (((List.range (Z.dim 1)).map fun l => ((Z [n, l] + 1 : ℝ) / 2) * ((U [d, l] + 1 : ℝ) / 2)).sum ≥ q_new + 1)

/-- matrix_updates_numba.py:541-552: the first inner loop, column `d` of `logconditional` -/
noncomputable def qL_logconditional (Z U : Arr Int) (N d : Nat) (q_max : Nat) (p_lbda m_lbda gamma : ℝ)
    (logconditional : Arr ℝ) : Arr ℝ := Id.run do
  let mut logconditional := logconditional
  for q_new in List.range (q_max - 1) do
    logconditional := logconditional.set [q_new, d] ((q_new + 1) * Real.log gamma - gamma -
      Real.log (Real.Gamma (q_new + 2)))
    logconditional := logconditional.set [q_new, d] (logconditional [q_new, d] +
      true_predictions Z U d q_new * p_lbda + ((N : ℝ) - true_predictions Z U d q_new) * m_lbda)
  return logconditional

/-- matrix_updates_numba.py:556-560: column `d` is exponentiated and normalised -/
noncomputable def qL_normalise (d q_max : Nat) (logconditional : Arr ℝ) : Arr ℝ := Id.run do
  let log_p_max := npMax2 logconditional
  let mut logconditional := logconditional
  for q_new in List.range (q_max - 1) do
    logconditional := logconditional.set [q_new, d] (Real.exp (logconditional [q_new, d] - log_p_max))
  let sum := ((List.range (q_max - 1)).map fun k => logconditional [k, d]).sum
  for q_new in List.range (q_max - 1) do
    logconditional := logconditional.set [q_new, d] (logconditional [q_new, d] / sum)
  return logconditional

/-- matrix_updates_numba.py:530-562 `sample_qL_q` (the data `X` is used for its shape only) -/
noncomputable def sample_qL_q (Z U X q : Arr Int) (lbda gamma : ℝ) (rnd : Nat → ℝ) : Arr Int := Id.run do
  let N := X.dim 0
  let D := X.dim 1
  let q_max := 6
  let p_lbda := Real.log (1 + Real.exp lbda)
  let m_lbda := Real.log (1 + Real.exp (-lbda))
  let mut logconditional : Arr ℝ := Arr.full [q_max - 1, D] 0
  let mut q := q
  for d in List.range D do
    logconditional := qL_logconditional Z U N d q_max p_lbda m_lbda gamma logconditional
    logconditional := qL_normalise d q_max logconditional
    q := q.set [0, d] (random_choice ((List.range (q_max - 1)).map fun k => logconditional [k, d]) (rnd d))
  return q

/-- matrix_updates_numba.py:566-597 -/
def posterior_score_fct_qL_Z (Z_n U X_n : Arr Int) (l : Nat) (q : Arr Int) : Int := Id.run do
  let D := U.dim 0
  let L := U.dim 1
  let mut score : Int := 0
  for d in List.range D do
    if U [d, l] ≠ 1 then
      continue
    let mut counter : Int := 0
    for l' in List.range L do
      if Z_n [l'] = 1 ∧ U [d, l'] = 1 ∧ l' ≠ l then
        counter := counter + 1
      if counter = q [0, d] then
        break
    if counter = q [0, d] - 1 then
      score := score + X_n [d]
  return wrap16 (score)

/-- matrix_updates_numba.py:600-624 -/
def posterior_score_fct_qL_U (U_d Z X_d : Arr Int) (l : Nat) (q_d : Int) : Int := Id.run do
  let N := Z.dim 0
  let L := Z.dim 1
  let mut score : Int := 0
  for n in List.range N do
    if Z [n, l] ≠ 1 then
      continue
    let mut counter : Int := 0
    for l' in List.range L do
      if U_d [l'] = 1 ∧ Z [n, l'] = 1 ∧ l' ≠ l then
        counter := counter + 1
      if counter = q_d then
        break
    if counter = q_d - 1 then
      score := score + X_d [n]
  return wrap16 (score)

/-- matrix_updates_numba.py:627-641 `sample_qL_factors_Z` (the argument `lbda` is not used) -/
noncomputable def sample_qL_factors_Z (Z U X q : Arr Int) (_lbda : ℝ) (rnd : Rnd) : Arr Int := Id.run do
  let N := Z.dim 0
  let L := Z.dim 1
  let mut Z := Z
  for n in List.range N do
    for l in List.range L do
      let logit_score : ℝ := posterior_score_fct_qL_Z (Z.row n) U (X.row n) l q
      Z := Z.set [n, l] (flip_metropolised_gibbs_numba logit_score (Z [n, l]) (rnd [n, l]))
  return Z

/-- matrix_updates_numba.py:644-659 `sample_qL_factors_U` (the argument `lbda` is not used) -/
noncomputable def sample_qL_factors_U (U Z X q : Arr Int) (_lbda : ℝ) (rnd : Rnd) : Arr Int := Id.run do
  let D := U.dim 0
  let L := U.dim 1
  let mut U := U
  for d in List.range D do
    for l in List.range L do
      let logit_score : ℝ := posterior_score_fct_qL_U (U.row d) Z (X.row d) l (q [0, d])
      U := U.set [d, l] (flip_metropolised_gibbs_numba logit_score (U [d, l]) (rnd [d, l]))
  return U

/-- `X.transpose(order)` (numpy): a number of axes that differs from that of the array is a ValueError
(matrix_update_wrappers.py:79, 90) -/
def npTranspose (X : Arr Int) (order : List Nat) : Except Err (Arr Int) :=
  if order.length = X.shape.length then .ok (X.transpose order) else .error .valueError

/-- a qL-AND layer: factor values and their `fixed_entries` masks (machine.py:206-240, which no function of this file
reads), thresholds, data, parameters (machine.py:304-308) -/
structure QLLayer where
  Z : Arr Int
  U : Arr Int
  Z_fixed : Arr Int
  U_fixed : Arr Int
  q : Arr Int
  X : Arr Int
  lbda : ℝ
  gamma : ℝ

/-- which matrix of a qL-AND layer (matrix_update_wrappers.py:62-96) -/
inductive QLMat
  | z | u | q
  deriving DecidableEq

/-- calling the sampling function `s` assigned to matrix `k` of a qL-AND layer,
matrix_update_wrappers.py:63-94. `mat()` is the matrix the function is called with, `mat.siblings[0]` the
first of the *other factors of the layer* (the thresholds are not a factor: their siblings are both
factors). -/
noncomputable def QLLayer.sample (y : QLLayer) (k : QLMat) (s : Sampler) (rnd : Rnd) : Except Err QLLayer :=
  let val := match k with
    | .z => y.Z
    | .u => y.U
    | .q => y.q
  let sibling0 := match k with
    | .z => y.U
    | .u => y.Z
    | .q => y.Z
  let store (v : Arr Int) : QLLayer := match k with
    | .z => { y with Z := v }
    | .u => { y with U := v }
    | .q => { y with q := v }
  match s with
  | .qL_q => match k with
    | .q => .ok { y with q := sample_qL_q y.Z y.U y.X y.q y.lbda y.gamma fun d => rnd [0, d] }
    | _ => .error .typingError
  | .qL_Z order => match npTranspose y.X order with
    | .error e => .error e
    | .ok X => .ok (store (sample_qL_factors_Z val sibling0 X y.q y.lbda rnd))
  | .qL_U order => match npTranspose y.X order with
    | .error e => .error e
    | .ok X => .ok (store (sample_qL_factors_U val sibling0 X y.q y.lbda rnd))
  | _ => .error .typingError

/-- the sampling functions of the three matrices of a qL-AND layer (matrix_update_wrappers.py:62-96) -/
structure QLFcts where
  z : Option Sampler
  u : Option Sampler
  q : Option Sampler

/-- `mat.sampling_fct = get_sampling_fct(mat)` (machine.py:694) for one matrix of a qL-AND layer on
two-dimensional data without parents, matrix_update_wrappers.py:20-94: a cached function is kept; otherwise
the threshold sampler is stored in the thresholds first (line 72) and then the function for the matrix is
chosen by its child axis (0 for `z`, 1 for `u` and for the thresholds, machine.py:305) and stored. The order of
axes is the matrix's own child axis followed by those of the other factors. -/
def QLFcts.assign (f : QLFcts) : QLMat → QLFcts
  | .z => match f.z with
    | some _ => f
    | none => { f with q := some .qL_q, z := some (.qL_Z [0, 1]) }
  | .u => match f.u with
    | some _ => f
    | none => { f with q := some .qL_q, u := some (.qL_U [1, 0]) }
  | .q => match f.q with
    | some _ => f
    | none => { f with q := some (.qL_U [1, 0, 1]) }

/-- machine.py:686, 693-694: the loop over the matrices that are not fixed, in the order of
`Machine.members` (470-481: factors first, thresholds last) -/
def QLFcts.assignAll (f : QLFcts) (fixed_z fixed_u fixed_q : Bool) : QLFcts :=
  ([(QLMat.z, fixed_z), (.u, fixed_u), (.q, fixed_q)].filterMap fun (k, fx) =>
    if fx then none else some k).foldl QLFcts.assign f

end LFM

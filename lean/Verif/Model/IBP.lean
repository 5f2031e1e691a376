import Verif.Model.MatrixWrappers
import Verif.Model.LomOutputs
import Mathlib.Analysis.SpecialFunctions.Gamma.Basic

/-!
# Model of the Indian buffet process update, `lom/_numba/matrix_updates_numba.py:384-485`, and of the samplers
of an OR-AND-IBP layer, `lom/matrix_update_wrappers.py:96-138`

Floats are reals. Draws are explicit arguments.
-/

namespace LFM

/-- auxiliary_functions.py:19-28 `expit` (that of scipy if it is installed) -/
noncomputable def expit (x : ℝ) : ℝ := 1 / (1 + Real.exp (-x))

/-- the numbers that the calls of the random generator return while row `n` is updated
(matrix_updates_numba.py:32, 464) -/
structure IBPDraws where
  /-- line 424, for column `l` of `Z` -/
  z : Nat → Nat → ℝ
  /-- line 464 -/
  new : Nat → ℝ
  /-- line 478, for entry `[d, l]` of `U` -/
  u : Nat → Nat → Nat → ℝ

/-- `a[:, mask]` (matrix_updates_numba.py:436-437) -/
def Arr.maskCols {α : Type} (a : Arr α) (mask : Arr Bool) : Arr α :=
  let keep := (List.range (a.dim 1)).filter fun l => mask [l]
  ⟨[a.dim 0, keep.length], fun i => a [i.getD 0 0, keep.getD (i.getD 1 0) 0]⟩

/-- `np.hstack([a, b])` with `b` a constant array of `k` columns (matrix_updates_numba.py:469-471) -/
def Arr.hstackFull {α : Type} (a : Arr α) (k : Nat) (v : α) : Arr α :=
  ⟨[a.dim 0, a.dim 1 + k], fun i => if i.getD 1 0 < a.dim 1 then a i else v⟩

/-- `np.random.choice(range(len(p)), p=p)`: numpy searches the normalised cumulative sums for the first that exceeds
the draw. (The checks of numpy, that `p` is non-negative without NaN and sums to one, are C36.)
(matrix_updates_numba.py:464) -/
noncomputable def np_choice (p : List ℝ) (u : ℝ) : Nat :=
  (List.range p.length).countP fun i => decide ((p.take (i + 1)).sum / p.sum ≤ u)

/-- matrix_updates_numba.py:405-406 -/
noncomputable def FN_factor (lbda q : ℝ) (L_temp : Nat) : ℝ :=
  Real.log (expit lbda * (1 - 2 * q ^ L_temp) + q ^ L_temp)

/-- matrix_updates_numba.py:407-408 -/
noncomputable def TN_factor (lbda q : ℝ) (L_temp : Nat) : ℝ :=
  Real.log (expit (-lbda) * (1 - 2 * q ^ L_temp) + q ^ L_temp)

/-- matrix_updates_numba.py:413, entry `l`: how many rows other than `n` use column `l` -/
def ibp_m (Z : Arr Int) (n l : Nat) : Nat :=
  (List.range (Z.dim 0)).countP fun n' => n' ≠ n ∧ Z [n', l] = 1

/-- matrix_updates_numba.py:414-433: row `n` of `Z` in the columns that other rows use, and the mask of these columns.
`m` is computed before the loop. -/
noncomputable def ibp_existing (Z U X : Arr Int) (lbda : ℝ) (n N L : Nat) (rnd : Nat → ℝ) : Arr Int × Arr Bool := Id.run do
  let m := ibp_m Z n
  let mut columns_to_keep : Arr Bool := Arr.full [L] true
  let mut Z := Z
  for l in List.range L do
    if m l > 0 then
      let logit_score := lbda * posterior_score_OR_AND_2D (Z.row n) U (X.row n) l
      let logit_prior := logit ((m l : ℝ) / N)
      Z := Z.set [n, l] (flip_gibbs_numba (expit (logit_score + logit_prior)) (rnd l))
    else if m l = 0 then
      columns_to_keep := columns_to_keep.set [l] false
  return (Z, columns_to_keep)

/-- matrix_updates_numba.py:451-462: `p_L_new` as a function of the numbers of true and false negatives of the row,
the number `L` of columns left and the number `N` of rows; `L_new_max = 3` -/
noncomputable def ibp_p_L_new (lbda q alpha : ℝ) (N L TN FN : Nat) : List ℝ :=
  let log_L_new := (List.range 3).map fun L_temp =>
    (TN * TN_factor lbda q L_temp + FN * FN_factor lbda q L_temp) +
      (((L_temp : ℝ) + L) * Real.log (alpha / N) - alpha / N - Real.log (Real.Gamma (L + L_temp + 1)))
  let p := (List.range 3).map fun i => Real.exp (log_L_new.getD i 0 - log_L_new.foldl max (log_L_new.getD 0 0))
  p.map fun x => x / p.sum

/-- matrix_updates_numba.py:444-449: numbers of true and of false negatives in row `n` -/
def ibp_negatives (Z U X : Arr Int) (n : Nat) : Nat × Nat :=
  let n_predict := OR_AND_single_n (Z.row n) U
  ((List.range (U.dim 0)).countP fun d => X [n, d] = -1 ∧ n_predict [d] = -1,
   (List.range (U.dim 0)).countP fun d => X [n, d] = 1 ∧ n_predict [d] = -1)

/-- matrix_updates_numba.py:473-478: the features of the columns `L, …, L + L_new - 1` -/
noncomputable def ibp_new_causes (Z U X : Arr Int) (lbda : ℝ) (D L L_new : Nat) (rnd : Nat → Nat → ℝ) : Arr Int := Id.run do
  let mut U := U
  for l in (List.range L_new).map (L + ·) do
    for d in List.range D do
      let logit_score := lbda * posterior_score_OR_AND_2D (U.row d) Z (X.col d) l
      U := U.set [d, l] (flip_gibbs_numba (expit logit_score) (rnd d l))
  return U

/-- matrix_updates_numba.py:466-478: `L_new` new columns, used by row `n` only -/
noncomputable def ibp_add (Z U X : Arr Int) (lbda : ℝ) (n D L L_new : Nat) (rnd : Nat → Nat → ℝ) : Arr Int × Arr Int :=
  if L_new > 0 then
    let Z1 := Z.hstackFull L_new (-1)
    let Z2 : Arr Int := ⟨Z1.shape, fun i => if i.getD 0 0 = n ∧ Z1.dim 1 - L_new ≤ i.getD 1 0 then 1 else Z1 i⟩
    let U1 := U.hstackFull L_new (-1)
    (Z2, ibp_new_causes Z2 U1 X lbda D L L_new rnd)
  else (Z, U)

/-- matrix_updates_numba.py:410-480: the update of row `n`, on the pair `Z`, `U` with `L` columns -/
noncomputable def ibp_row (X : Arr Int) (lbda q alpha : ℝ) (N D : Nat) (rnd : IBPDraws) (n : Nat)
    (s : Arr Int × Arr Int × Nat) : Arr Int × Arr Int × Nat :=
  let (Z, U, L) := s
  let (Z, columns_to_keep) := ibp_existing Z U X lbda n N L (rnd.z n)
  let L := (List.range L).countP fun l => columns_to_keep [l]
  let Z := Z.maskCols columns_to_keep
  let U := U.maskCols columns_to_keep
  let (TN, FN) := ibp_negatives Z U X n
  let L_new := np_choice (ibp_p_L_new lbda q alpha N L TN FN) (rnd.new n)
  let (Z, U) := ibp_add Z U X lbda n D L L_new (rnd.u n)
  (Z, U, L + L_new)

/-- matrix_updates_numba.py:384-485 `sample_2d_IBP` -/
noncomputable def sample_2d_IBP (Z U X : Arr Int) (lbda q alpha : ℝ) (rnd : IBPDraws) : Arr Int × Arr Int := Id.run do
  let N := Z.dim 0
  let L := Z.dim 1
  let D := U.dim 0
  let mut s := (Z, U, L)
  for n in List.range N do
    s := ibp_row X lbda q alpha N D rnd n s
  return (s.1, s.2.1)

/-- an OR-AND-IBP layer: factor values, their `fixed_entries` masks, data, lambda, Bernoulli prior of the second factor
and concentration parameter (attributes of machine.py:206-244, 276-310) -/
structure IBPLayer where
  Z : Arr Int
  U : Arr Int
  Z_fixed : Arr Int
  U_fixed : Arr Int
  X : Arr Int
  lbda : ℝ
  prior_U : ℝ
  alpha : ℝ

/-- which factor of an OR-AND-IBP layer (matrix_update_wrappers.py:98-138) -/
inductive IBPMat
  | z | u
  deriving DecidableEq

/-- calling the sampling function of one factor of an OR-AND-IBP layer on two-dimensional data:
matrix_update_wrappers.py:107-118 for the first, 128-138 (the sampler of an OR-AND layer, without the parents) for the
second; the axes of the data are `[0, 1]` and `[1, 0]`. `logit_bernoulli_prior` is what line 126 captured when the
function was assigned. -/
noncomputable def IBPLayer.sample (y : IBPLayer) (logit_bernoulli_prior : ℝ) (rnd : IBPDraws) (rndU : Rnd) :
    IBPMat → IBPLayer
  | .z =>
    let r := sample_2d_IBP y.Z y.U (y.X.transpose [0, 1]) y.lbda y.prior_U y.alpha rnd
    { y with Z := r.1, U := r.2 }
  | .u =>
    let U := sampling_onechild_2D posterior_score_OR_AND_2D y.U y.U_fixed y.Z (y.X.transpose [1, 0]) y.lbda
      logit_bernoulli_prior rndU
    { y with U := U }

/-- the calls of sampling functions that `infer` and `burn_in` make (machine.py:686, 737; 579, 668): a sequence
of factors with the draws made in each call, of which those of fixed factors are left out -/
noncomputable def IBPLayer.calls (y : IBPLayer) (fixed : IBPMat → Bool) (logit_bernoulli_prior : ℝ)
    (order : List (IBPMat × IBPDraws × Rnd)) : IBPLayer :=
  (order.filter fun k => !fixed k.1).foldl (fun y k => y.sample logit_bernoulli_prior k.2.1 k.2.2 k.1) y

end LFM

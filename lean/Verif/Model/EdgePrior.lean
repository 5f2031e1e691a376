import Verif.Model.LambdaUpdates
import Verif.Model.MatrixUpdates
import Verif.Model.MatrixWrappers

/-!
# Sampling with any number as `bernoulli_prior`

`Model/MatrixWrappers.lean` takes the logit of a prior strictly between 0 and 1. Here the prior is any real number, and the
logit a float64 that may be infinite or nan. Lambdas are finite.
-/

namespace LFM

/-- `scipy.special.logit` (matrix_update_wrappers.py:8, 126, 142): infinite at 0 and 1, nan outside -/
noncomputable def npLogit (p : ℝ) : NpF :=
  if p = 0 then .negInf else if p = 1 then .posInf else if 0 < p ∧ p < 1 then .fin (Real.log (p / (1 - p))) else .nan

/-- `score + logit_prior` for a finite score (matrix_updates_numba.py:174, 189, 215, 259, 307, 374-375) -/
noncomputable def npAdd (score : ℝ) : NpF → NpF
  | .fin x => .fin (score + x)
  | v => v

/-- `logit_p <= 0` (matrix_updates_numba.py:24); false for nan -/
def NpF.nonpos : NpF → Prop
  | .fin x => x ≤ 0
  | .negInf => True
  | .posInf => False
  | .nan => False

/-- `logit_p >= 0` (matrix_updates_numba.py:27); false for nan -/
def NpF.nonneg : NpF → Prop
  | .fin x => x ≥ 0
  | .negInf => False
  | .posInf => True
  | .nan => False

/-- `math.exp(-z * logit_p) > u` (matrix_updates_numba.py:32) for `z ≠ 0`; `exp(-inf) = 0`, `exp(inf) = inf`, comparisons with
nan are false -/
def NpF.accepts (z : Int) (u : ℝ) : NpF → Prop
  | .fin x => Real.exp (-(z : ℝ) * x) > u
  | .negInf => if 0 < z then True else (0 : ℝ) > u
  | .posInf => if 0 < z then (0 : ℝ) > u else True
  | .nan => False

open Classical in
/-- matrix_updates_numba.py:18-35; `u` is the draw of line 32 -/
noncomputable def flipAny (logit_p : NpF) (z : Int) (u : ℝ) : Int :=
  if z = 1 ∧ logit_p.nonpos then -1
  else if z = -1 ∧ logit_p.nonneg then 1
  else if logit_p.accepts z u then -z
  else z

/-- the loops of matrix_updates_numba.py:165-174, 180-189, 203-215, 249-259, 290-309 and 350-377, which differ in the score
only. `score Z n l` is the finite part of the argument of the flip. -/
noncomputable def samplingAnyPrior (score : Arr Int → Nat → Nat → ℝ) (Z Z_fixed : Arr Int) (logit_prior : NpF) (rnd : Rnd) :
    Arr Int := Id.run do
  let N := Z.dim 0
  let L := Z.dim 1
  let mut Z := Z
  for n in List.range N do
    for l in List.range L do
      if Z_fixed [n, l] = 1 then
        continue
      Z := Z.set [n, l] (flipAny (npAdd (score Z n l) logit_prior) (Z [n, l]) (rnd [n, l]))
  return Z

end LFM

import Verif.Model.Output

/-!
# What is plotted: `MachineMatrix.show` (lom/machine.py) and `plot_matrix` (lom/auxiliary_functions.py)

The model is the array that is handed to matplotlib (`imshow` with `vmin=0`, `vmax=1`, so that 0 and 1 are the ends of the
scale). Colours, figures and printing are not modelled.
-/

namespace LFM

/-- auxiliary_functions.py:200-202 (and 168-170): the array is rescaled if an entry is negative -/
noncomputable def plot_matrix (mat : Arr ℝ) : Arr ℝ :=
  if (indices mat.shape).any fun i => decide (mat i < 0) then mat.map fun x => 1 / 2 * (x + 1) else mat

/-- plotting a mean; comparisons with nan are False, so nans are not rescaled (auxiliary_functions.py:200-202) -/
noncomputable def plotMean : FMean → FMean
  | .nums a => .nums (plot_matrix a)
  | .nans shape => .nans shape

/-- `x.mean() > .5` as an array of zeros and ones, which is how booleans are plotted (machine.py:250) -/
noncomputable def aboveHalf : FMean → Arr ℝ
  | .nums a => a.map fun x => if 1 / 2 < x then 1 else 0
  | .nans shape => Arr.full shape 0

/-- machine.py:246-254 `MachineMatrix.show` -/
noncomputable def OFac.show (f : OFac) (technique : String) : Except Err FMean :=
  if technique = "mean" then .ok (plotMean f.mean)
  else if technique = "map" then .ok (plotMean (.nums (aboveHalf f.mean)))
  else if technique = "state" then .ok (plotMean (.nums (toReal f.val)))
  else .error .valueError

end LFM

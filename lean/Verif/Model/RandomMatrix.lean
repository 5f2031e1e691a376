import Verif.Model.MatrixUpdates

/-! `random_machine_matrix` (auxiliary_functions.py:627-628). -/

namespace LFM

/-- one entry of `numpy.random.binomial(n=1, p=p)` (called in auxiliary_functions.py:628), by inversion, from a draw `u`
uniform on `[0, 1)`: one if the draw exceeds the probability of zero; for `p` above one half numpy draws from the
distribution with `1 - p` and subtracts the result from `n = 1` -/
noncomputable def np_binomial1 (p u : ℝ) : Int :=
  if p ≤ 1 / 2 then (if u > 1 - p then 1 else 0) else 1 - (if u > 1 - (1 - p) then 1 else 0)

/-- auxiliary_functions.py:627-628 `random_machine_matrix`; numpy raises a ValueError if `p` is no probability -/
noncomputable def random_machine_matrix (p : ℝ) (shape : List Nat) (rand : Rnd) : Except Err (Arr Int) :=
  if p < 0 ∨ p > 1 then .error .valueError
  else .ok ⟨shape, fun i => 2 * np_binomial1 p (rand i) - 1⟩

end LFM

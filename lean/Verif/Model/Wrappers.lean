import Verif.Model.DataPrep

/-!
# Wrappers for whole analyses that use names which do not exist

`predict_applicability_simple`, `predict_applicability_fast`, `plot_codes` (lom/auxiliary_functions.py) and
`tensorm_reconstruct_indp` (lom/experiments.py). Modelled up to the statement at which they end. Imports are assumed to succeed,
printing is left out.
-/

namespace LFM

/-- auxiliary_functions.py:291-326 `predict_applicability_simple`: line 304 names a module `maxmachine`, which is not imported -/
noncomputable def predict_applicability_simple (data : Arr Int) (true_idx false_idx : List Nat) : Except Err Unit := do
  let data := if hasMinusOne data then data else data.map fun x => 2 * x - 1
  let _ ← split_test_train data (1 / 10) true_idx false_idx
  throw .nameError

/-- auxiliary_functions.py:366-466 `predict_applicability_fast`: a subset of the rows is drawn (lines 386-391), line 394 names the
module `maxmachine` -/
noncomputable def predict_applicability_fast (data : Arr Int) (N_sub : Int) (true_idx false_idx : List Nat) : Except Err Unit := do
  let data := check_binary_coding data
  let _ ← split_test_train data (1 / 10) true_idx false_idx
  let N_sub := if N_sub > data.dim 0 then (data.dim 0 : Int) else N_sub
  choiceCheck (data.dim 0) N_sub
  throw .nameError

/-- auxiliary_functions.py:236-275 `plot_codes`: line 254 calls `maxmachine_relevance`, which is defined in another module and
not imported, before any argument is looked at -/
def plot_codes (_attributes : Option (List String)) (_order : String) : Except Err Unit := throw .nameError

/-- experiments.py:126-159 `tensorm_reconstruct_indp`: after the data have been recoded (128-132), line 138 passes an argument
`sampling_indicator` that `add_matrix` does not have -/
def tensorm_reconstruct_indp (_X : Arr Int) (_L : Nat) : Except Err Unit := throw .typingError

end LFM

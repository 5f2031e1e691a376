import Verif.Model.MatrixUpdates

/-! Initial values of matrices (machine.py). -/

namespace LFM

/-- `2 * np.array(np.random.rand(*shape) > p, dtype=np.int8) - 1` (machine.py:226-230) -/
noncomputable def randomInit (shape : List Nat) (p : ℝ) (rand : Rnd) : Arr Int :=
  ⟨shape, fun i => 2 * (if rand i > p then 1 else 0) - 1⟩

/-- the argument `val` of `MachineMatrix` and `add_matrix` (machine.py:210, 533): nothing, an array of int8, or a Python float; other
types of arrays are converted (machine.py:535-536, see `Build`) -/
inductive InitArg
  | nothing
  | array (A : Arr Int)
  | float (p : ℝ)

/-- machine.py:218-219: `val.shape`, which Python floats do not have -/
def InitArg.shape : InitArg → List Nat → Except Err (List Nat)
  | .nothing, shape => .ok shape
  | .array A, _ => .ok A.shape
  | .float _, _ => .error .attributeError

/-- machine.py:218-230: the initial value of a matrix; `shape` is given (without shape and value line 229 raises a TypeError) -/
noncomputable def matrixInit (shape : List Nat) (val : InitArg) (rand : Rnd) : Except Err (Arr Int) := do
  let shape ← val.shape shape
  match val with
  | .array A => pure A
  | .float p => pure (randomInit shape p rand)
  | .nothing => pure (randomInit shape (1 / 2) rand)

/-- machine.py:535: `val.dtype`, which Python floats do not have -/
def InitArg.dtype : InitArg → Except Err Unit
  | .float _ => .error .attributeError
  | _ => .ok ()

/-- machine.py:533-542 `add_matrix`, the value of the new matrix -/
noncomputable def addMatrixInit (shape : List Nat) (val : InitArg) (rand : Rnd) : Except Err (Arr Int) := do
  val.dtype
  matrixInit shape val rand

end LFM

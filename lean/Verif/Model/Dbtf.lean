import Verif.Model.DataPrep

/-!
# Model: calling an external program for Boolean tensor factorisation

lom/experiments.py:42-95 `dbtf_reconstruct`. The program `dbtf`, its directory and the files it writes are outside of /repo: the
model takes the lines of the three files as arguments and assumes that changing the directory, writing, calling and reading succeed.
-/

namespace LFM

/-- result of `np.loadtxt` of a file of lines `i,j` (experiments.py:80-81): nothing for an empty file, a one-dimensional array
for a file of one line, otherwise a matrix of two columns -/
inductive Loaded
  | nothing
  | flat (i j : Int)
  | table (rows : List (Int × Int))

/-- experiments.py:80-81 `np.loadtxt(..., delimiter=',', dtype=np.int)` -/
def loadtxt : List (Int × Int) → Loaded
  | [] => .nothing
  | [(i, j)] => .flat i j
  | rows => .table rows

/-- index of an axis of length `n`; negative numbers count from the end (experiments.py:88) -/
def pyIndex (n : Nat) (i : Int) : Except Err Nat :=
  if 0 ≤ i ∧ i < n then .ok i.toNat else if i < 0 ∧ -n ≤ i then .ok (i + n).toNat else .error .indexError

/-- experiments.py:87-88: the assignments `f_dbtf[-1][i, j] = True`, `True` is 1 -/
def setAll (dim L : Nat) : List (Int × Int) → Arr Int → Except Err (Arr Int)
  | [], a => .ok a
  | (i, j) :: rest, a => do
    let n ← pyIndex dim i
    let l ← pyIndex L j
    setAll dim L rest (a.set [n, l] 1)

/-- experiments.py:85-88: one factor. The rows of a one-dimensional array are numbers, which cannot be unpacked (TypeError). -/
def dbtfFactor (dim L : Nat) : Loaded → Except Err (Arr Int)
  | .nothing => .ok (Arr.full [dim, L] 0)
  | .flat _ _ => .error .typingError
  | .table rows => setAll dim L rows (Arr.full [dim, L] 0)

/-- experiments.py:66 `np.array(np.nonzero(X == 1)).transpose()`: what is written for the program, in row-major order -/
def sparse_tensor (X : Arr Int) : List (List Nat) := (indices X.shape).filter fun i => decide (X i = 1)

/-- experiments.py:42-95 `dbtf_reconstruct`: the tensor written and the result; `f1`, `f2`, `f3` are the lines of the three files -/
def dbtf_reconstruct (X : Arr Int) (L : Nat) (compute_output : Bool) (f1 f2 f3 : List (Int × Int)) :
    Except Err (Option (Arr Bool) × Arr Int × Arr Int × Arr Int) :=
  match X.shape with
  | [N, D, M] => do
    let Z ← dbtfFactor N L (loadtxt f1)
    let U ← dbtfFactor D L (loadtxt f2)
    let V ← dbtfFactor M L (loadtxt f3)
    if compute_output then
      let R ← boolean_tensor_product Z U V
      pure (some R, Z, U, V)
    else pure (none, Z, U, V)
  | _ => .error .valueError

end LFM

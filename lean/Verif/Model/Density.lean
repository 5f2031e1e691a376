import Verif.Py
import Mathlib.Data.Real.Basic
import Mathlib.Algebra.Order.Group.Unbundled.Abs

/-!
# Model of `expected_density` and `get_lom_class` and `factor_density`
(lom/auxiliary_functions.py:1021-1108, 1111-1199)

`L`, `K` are positive Python integers, `f` a float (here a real).
-/

namespace LFM

/-- auxiliary_functions.py:1111-1199 `get_lom_class`: class and the three inversion instructions. For an
unknown name the local `Inv` is unbound; the bare `except` starts the debugger and the function returns
`None`, which the caller cannot unpack (`TypeError`, here `typingError`). -/
def get_lom_class (machine : String) : Except Err (String × Bool × Bool × Bool) :=
  if machine = "AND-AND" ∨ machine = "NOR-NAND" then .ok ("AND-AND", false, false, false)
  else if machine = "AND-NOR" ∨ machine = "NOR-OR" then .ok ("AND-AND", false, false, true)
  else if machine = "OR-NAND" ∨ machine = "NAND-AND" then .ok ("AND-AND", true, false, false)
  else if machine = "OR-OR" ∨ machine = "NAND-NOR" then .ok ("AND-AND", true, false, true)
  else if machine = "AND-NAND" ∨ machine = "NOR-AND" then .ok ("AND-AND", false, true, false)
  else if machine = "AND-OR" ∨ machine = "NOR-NOR" then .ok ("AND-AND", false, true, true)
  else if machine = "OR-AND" ∨ machine = "NAND-NAND" then .ok ("AND-AND", true, true, false)
  else if machine = "OR-NOR" ∨ machine = "NAND-OR" then .ok ("AND-AND", true, true, true)
  else if machine = "XOR-AND" then .ok ("XOR-AND", false, false, false)
  else if machine = "XOR-NOR" then .ok ("XOR-AND", false, false, true)
  else if machine = "NXOR-AND" then .ok ("XOR-AND", true, false, false)
  else if machine = "NXOR-NOR" then .ok ("XOR-AND", true, false, true)
  else if machine = "XOR-NAND" then .ok ("XOR-AND", false, true, false)
  else if machine = "XOR-OR" then .ok ("XOR-AND", false, true, true)
  else if machine = "NXOR-NAND" then .ok ("XOR-AND", true, true, false)
  else if machine = "NXOR-OR" then .ok ("XOR-AND", true, true, true)
  else if machine = "AND-XOR" ∨ machine = "NOR-NXOR" then .ok ("AND-XOR", false, false, false)
  else if machine = "OR-NXOR" ∨ machine = "NAND-XOR" then .ok ("AND-XOR", true, false, false)
  else if machine = "AND-NXOR" ∨ machine = "NOR-XOR" then .ok ("AND-XOR", false, true, false)
  else if machine = "OR-XOR" ∨ machine = "NAND-NXOR" then .ok ("AND-XOR", true, true, false)
  else if machine = "XOR-XOR" then .ok ("XOR-XOR", false, false, false)
  else if machine = "NXOR-XOR" then .ok ("XOR-XOR", true, false, false)
  else if machine = "XOR-NXOR" then .ok ("XOR-XOR", false, true, false)
  else if machine = "NXOR-NXOR" then .ok ("XOR-XOR", true, true, false)
  else .error .typingError

/-- `invert` or `identity`, auxiliary_functions.py:1025-1029, 1047-1051 -/
def applyInv (inv : Bool) (x : ℝ) : ℝ := if inv then 1 - x else x

/-- auxiliary_functions.py:1021-1069 `expected_density` -/
noncomputable def expected_density (model : String) (L K : Nat) (f : ℝ) : Except Err ℝ :=
  if model = "XOR-NXOR" ∨ model = "NXOR-NXOR" then
    .ok (applyInv (model = "NXOR-NXOR")
      (L * ((1 - (K * f * (1 - f) ^ (K - 1))) * (K * f * (1 - f) ^ (K - 1)) ^ (L - 1))))
  else match get_lom_class model with
    | .error e => .error e
    | .ok (model_group, i0, i1, i2) =>
      if model_group = "AND-AND" then
        .ok (applyInv i0 (applyInv i1 (applyInv i2 f ^ K) ^ L))
      else if model_group = "XOR-AND" then
        .ok (applyInv i0 (L * (1 - applyInv i1 (applyInv i2 f ^ K)) ^ (L - 1) *
          applyInv i1 (applyInv i2 f ^ K)))
      else if model_group = "AND-XOR" then
        .ok (applyInv i0 (applyInv i1 (K * f * (1 - f) ^ (K - 1)) ^ L))
      else if model_group = "XOR-XOR" then
        .ok (applyInv i0 (L * applyInv i1 (K * f * (1 - f) ^ (K - 1) *
          (f ^ K + (1 - f) ^ K) ^ (L - 1))))
      else .error .unboundLocal

/-- auxiliary_functions.py:1080-1086, the nested `func` of `factor_density`, called with an array of one entry: outside
[0, 1] it returns a Python float (`false`), otherwise an array of one entry (`true`) -/
noncomputable def fdFunc (machine : String) (L K : Nat) (X f_d : ℝ) : Except Err (ℝ × Bool) :=
  if f_d < 0 then .ok (1e10, false)
  else if f_d > 1 then .ok (1e10, false)
  else match expected_density machine L K f_d with
    | .error e => .error e
    | .ok d => .ok (d - X, true)

/-- `func(x)[0]`, auxiliary_functions.py:1097-1098: a Python float cannot be indexed (`TypeError`) -/
def index0 : Except Err (ℝ × Bool) → Except Err ℝ
  | .error e => .error e
  | .ok (_, false) => .error .typingError
  | .ok (v, true) => .ok v

/-- the call of `scipy.optimize.fsolve`, auxiliary_functions.py:1094-1096. The solver is an arbitrary function `fs` of the
function it is given and the initial guess. It evaluates `func` at the guess, so an exception there (which depends on the
name of the model only) is passed on. -/
noncomputable def callSolver (fs : (ℝ → ℝ) → ℝ → ℝ) (func : ℝ → Except Err (ℝ × Bool)) (guess : ℝ) : Except Err ℝ :=
  match func guess with
  | .error e => .error e
  | .ok _ => .ok (fs (fun f => match func f with | .ok v => v.1 | .error _ => 0) guess)

/-- auxiliary_functions.py:1093 the initial guesses -/
noncomputable def fdGuesses : List ℝ := [0.01, 0.25, 0.5, 0.75, 0.99]

/-- one pass of the loop auxiliary_functions.py:1093-1099; `best_solution` is unbound (`none`) until first assigned -/
noncomputable def fdStep (fs : (ℝ → ℝ) → ℝ → ℝ) (func : ℝ → Except Err (ℝ × Bool)) (st : ℝ × Option ℝ) (guess : ℝ) :
    Except Err (ℝ × Option ℝ) := do
  let tau_solution ← callSolver fs func guess
  let v ← index0 (func tau_solution)
  if |v| < st.1 then pure (|v|, some tau_solution) else pure st

/-- auxiliary_functions.py:1072-1108 `factor_density(machine, L, K, X)`; the messages printed are not modelled -/
noncomputable def factor_density (fs : (ℝ → ℝ) → ℝ → ℝ) (machine : String) (L K : Nat) (X : ℝ) : Except Err ℝ := do
  let func := fdFunc machine L K X
  let st ← fdGuesses.foldlM (fdStep fs func) (1e10, none)
  match st.2 with
  | none => throw Err.unboundLocal
  | some best_solution => pure best_solution

end LFM

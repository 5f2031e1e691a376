import Verif.Model.LambdaUpdates
import Verif.Model.IBP

/-!
# Numerical helpers of auxiliary_functions.py

Numbers are real numbers, extended by the IEEE specials (`NpF`) where they are reached. Python's own float division
raises ZeroDivisionError (`pyDiv`). The fallbacks of `expit`, `logit` and `logsumexp` (used if scipy is missing) are
modelled (`aux_logit`: the name `logit` is taken by the compiled one); scipy's functions are not. Not modelled: rounding and overflow, the fallback of `logit` on arrays (`float` of
an array raises TypeError).
-/

namespace LFM

/-- `x / y` of Python floats (auxiliary_functions.py:40, 69, 85-86) -/
noncomputable def pyDiv (x y : ℝ) : Except Err ℝ := if y = 0 then .error .zeroDivision else .ok (x / y)

/-- auxiliary_functions.py:31-40 `logit`, fallback: `np.log(float(x) / (1 - x))` -/
noncomputable def aux_logit (x : ℝ) : Except Err NpF := do
  let r ← pyDiv x (1 - x)
  pure (NpF.fin r).log

/-- `np.max` of a list; ValueError for an empty one (auxiliary_functions.py:52) -/
noncomputable def npMax : List ℝ → Except Err ℝ
  | [] => .error .valueError
  | x :: xs => .ok (xs.foldl max x)

/-- auxiliary_functions.py:43-55 `logsumexp`, fallback: the numbers that are exponentiated, and the result -/
noncomputable def logsumexp (a : List ℝ) : Except Err (List ℝ × NpF) := do
  let a_max ← npMax a
  let args := a.map fun x => x - a_max
  let out := (NpF.fin (args.map Real.exp).sum).log
  pure (args, out.sub (-a_max))

/-- `np.log(x) if (x > 0) else -np.infty` (auxiliary_functions.py:71, 87) -/
noncomputable def logOrNegInf (x : ℝ) : NpF := if 0 < x then .fin (Real.log x) else .negInf

/-- `xs[:stop] = ys` on a Python list: a negative `stop` counts from the end, one beyond the end means the end
(auxiliary_functions.py:75) -/
def sliceAssign {α : Type} (xs : List α) (stop : Int) (ys : List α) : List α :=
  ys ++ xs.drop (if stop < 0 then (stop + xs.length).toNat else stop.toNat)

/-- auxiliary_functions.py:58-77 `compute_bp`; `q`, `tau` Python floats -/
noncomputable def compute_bp (q : ℝ) (n N : Nat) (tau : ℝ) : Except Err (List NpF) := do
  let exp_bp ← (List.range n).mapM fun k : Nat => pyDiv (q * (n - k * tau)) ((1 - q) * (k * tau + 1))
  let bp := exp_bp.map logOrNegInf
  if N ≠ n then
    let bp_new := List.replicate N NpF.negInf
    pure (sliceAssign bp_new ((n : Int) - 1) bp)
  else
    pure bp

/-- auxiliary_functions.py:80-88 `compute_bbp` -/
noncomputable def compute_bbp (n : Nat) (a b : ℝ) : Except Err (List NpF) := do
  let exp_bbp ← (List.range (n + 1)).mapM fun k : Nat => pyDiv ((n - k) * (k + a)) ((k + 1) * (n - k + b - 1))
  pure (exp_bbp.map logOrNegInf)

/-- addition of floats (numpy, auxiliary_functions.py:53, 488-490) -/
noncomputable def NpF.add : NpF → NpF → NpF
  | .fin x, .fin y => .fin (x + y)
  | .nan, _ => .nan
  | _, .nan => .nan
  | .posInf, .negInf => .nan
  | .negInf, .posInf => .nan
  | .posInf, _ => .posInf
  | _, .posInf => .posInf
  | .negInf, _ => .negInf
  | _, .negInf => .negInf

/-- `np.sum` of a one-dimensional array (auxiliary_functions.py:53) -/
noncomputable def npSum (xs : List NpF) : NpF := xs.foldl NpF.add (.fin 0)

/-- `np.mean` of a one-dimensional array: nan for an empty one (auxiliary_functions.py:488-490) -/
noncomputable def npMean (xs : List NpF) : NpF :=
  match npSum xs with
  | .fin s => npDiv s xs.length
  | s => s

/-- `expit` including the specials (auxiliary_functions.py:19-28) -/
noncomputable def NpF.expit : NpF → NpF
  | .fin x => .fin (LFM.expit x)
  | .posInf => .fin 1
  | .negInf => .fin 0
  | .nan => .nan

/-- `np.abs(x - y) < eps`, false if nan is involved. Both are results of `expit`, so no infinite values occur.
(auxiliary_functions.py:492) -/
noncomputable def absDiffLt (x y : NpF) (eps : ℝ) : Bool :=
  match x, y with
  | .fin x, .fin y => decide (|x - y| < eps)
  | _, _ => false

/-- auxiliary_functions.py:481-495 `check_convergence_single_trace` (the unused `r` is left out) -/
noncomputable def check_convergence_single_trace (trace : List NpF) (eps : ℝ) : Bool :=
  let l := trace.length / 2
  let r1 := (npMean (trace.take l)).expit
  let r2 := (npMean (trace.drop l)).expit
  absDiffLt r1 r2 eps

end LFM

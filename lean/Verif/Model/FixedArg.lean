import Verif.Model.Machine

/-!
# The argument and attribute `fixed` of a matrix

machine.py:231-235 allows an array for `fixed`; machine.py:686 takes the truth value of it.
-/

namespace LFM

/-- values of `fixed` (machine.py:212, 231-235, 533): a flag or an array; entries are numbers, `True` is 1 -/
inductive FixedArg
  | flag (b : Bool)
  | mask (A : Arr Int)

/-- machine.py:231-235: what `MachineMatrix.__init__` stores, for a matrix of a given shape -/
def storeFixed (shape : List Nat) : FixedArg → Except Err FixedArg
  | .flag b => .ok (.flag b)
  | .mask A => if A.shape = shape then .ok (.mask A) else .error .assertionError

/-- machine.py:236-238: the entries held fixed in a new matrix, whatever `fixed` is -/
def newFixedEntries (shape : List Nat) (_fixed : FixedArg) : Arr Int := Arr.full shape 0

/-- `bool(mat.fixed)` in machine.py:686: numpy arrays have a truth value if they have one entry, and (with a warning)
if they have none -/
def FixedArg.truth : FixedArg → Except Err Bool
  | .flag b => .ok b
  | .mask A => match indices A.shape with
    | [] => .ok false
    | [i] => .ok (decide (A i ≠ 0))
    | _ :: _ :: _ => .error .valueError

/-- machine.py:686 for a list of matrices -/
def freeOf (fx : Nat → FixedArg) : List Nat → Except Err (List Nat)
  | [] => .ok []
  | i :: rest => do
    let b ← (fx i).truth
    let mats ← freeOf fx rest
    pure (if b then mats else i :: mats)

variable {F G : Type}

/-- machine.py:672-775 `infer` with attributes `fixed` of both kinds; `fixed` is not read after line 686, so that
everything else is `infer` of the machine with the flags found there -/
noncomputable def inferFixedArg (fx : Nat → FixedArg) (env : Env F G) (no_samples convergence_window : Nat)
    (convergence_eps : ℝ) (burn_in_min : Nat) (burn_in_max : Int) (print_step fix_lbda_iters : Nat) (m : Mach F G) :
    Except Err (Mach F G) := do
  let mats ← freeOf fx (members m)
  infer env no_samples convergence_window convergence_eps burn_in_min burn_in_max print_step fix_lbda_iters
    { m with fixed := fun i => if i ∈ members m then decide (i ∉ mats) else m.fixed i }

end LFM

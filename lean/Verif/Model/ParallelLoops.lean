import Verif.Model.LambdaUpdates
import Verif.Model.Output
import Verif.Model.Parallel
import Verif.Model.Machine

/-!
# Model of the other `prange` loops: output functions and counters

`lom/_numba/lambda_updates_numba.py` (91-162, 179-222) and `lom/_numba/lom_outputs_fuzzy.py` (206-228). The iterations of
a parallel loop are divided among threads; the division and the interleaving of the threads are arbitrary here. numba
parallelises the outermost `prange` only; dividing single cells among threads, as here, is more general.

An assignment is not atomic: the right-hand side is evaluated into a variable of the thread, later it is stored. A variable
that is only incremented in a parallel loop (`count += 1`) is a reduction: every thread has its own, starting from zero,
and they are added up in the end, in any order (documentation of numba; the compiler is trusted).
-/

namespace LFM

/-- what thread `t` does for cell `i` (lambda_updates_numba.py:101-103, 184-187) -/
inductive LoopAction
  /-- evaluate the right-hand side into a variable of the thread -/
  | eval (t : Nat) (i : List Nat)
  /-- store that variable -/
  | store (t : Nat) (i : List Nat)
  deriving DecidableEq

/-- the thread that acts (lambda_updates_numba.py:101, 184) -/
def LoopAction.thread : LoopAction → Nat
  | .eval t _ => t
  | .store t _ => t

/-- what a thread does for the cells given to it, one after the other (lambda_updates_numba.py:101-103, 184-187) -/
def threadProgram (t : Nat) (cells : List (List Nat)) : List LoopAction :=
  cells.flatMap fun i => [.eval t i, .store t i]

/-- the cells of a loop are divided among the threads `T`: thread `t` gets `work t`
(`prange`, lambda_updates_numba.py:101-102, 120-122, 184-185) -/
structure Divided (cells : List (List Nat)) (T : List Nat) (work : Nat → List (List Nat)) : Prop where
  nodup : T.Nodup
  all : (T.flatMap work).Perm cells

/-- an execution of the threads: every thread acts in the order of its own program (lambda_updates_numba.py:101-103) -/
structure Interleaved (T : List Nat) (work : Nat → List (List Nat)) (σ : List LoopAction) : Prop where
  only : ∀ a ∈ σ, a.thread ∈ T
  order : ∀ t ∈ T, σ.filter (fun a => a.thread = t) = threadProgram t (work t)

/-- the shared array and a variable for every thread (lambda_updates_numba.py:100-103) -/
structure WriteState (α : Type) where
  out : Arr α
  loc : Nat → α

/-- `X[i] = val(i)` (lambda_updates_numba.py:103, 123, 141, 160; lom_outputs_fuzzy.py:227). The right-hand sides do not
read the array. -/
def LoopAction.write {α : Type} (val : List Nat → α) (s : WriteState α) : LoopAction → WriteState α
  | .eval t i => { s with loc := upd s.loc t (val i) }
  | .store t i => { s with out := s.out.set i (s.loc t) }

/-- every thread's own counter, and the result of an increment that has not been stored yet
(lambda_updates_numba.py:183-187) -/
structure CountState where
  priv : Nat → Nat
  reg : Nat → Nat

/-- `if hit(i): count += 1` (lambda_updates_numba.py:186-187, 203-204, 219-220) -/
def LoopAction.count (hit : List Nat → Bool) (s : CountState) : LoopAction → CountState
  | .eval t i => { s with reg := upd s.reg t (if hit i then s.priv t + 1 else s.priv t) }
  | .store t _ => { s with priv := upd s.priv t (s.reg t) }

/-- after the loop: the threads' counters are added to the initial value, zero, in the order given
(lambda_updates_numba.py:183, 188) -/
def reduceCount (order : List Nat) (s : CountState) : Nat := order.foldl (fun c t => c + s.priv t) 0

end LFM

import Verif.Model.MatrixUpdates

/-!
# Model of the `prange` loops of `lom/_numba/matrix_updates_numba.py`

`prange(N)` distributes the iterations `n` (rows) over threads; within one iteration the entries are
processed in order. An entry update is not atomic: the thread first computes the new value from what is
in memory at that time (a local variable) and later stores it. Threads run in any interleaving.
`rnd idx` is the draw consumed by entry `idx`; which draw a thread's generator hands to which entry
depends on the number of threads, so the model fixes the draws per entry.
-/

namespace LFM

/-- what a thread does for entry `idx` (matrix_updates_numba.py:168-174) -/
inductive Action
  /-- evaluate the right-hand side for entry `idx` into the row's local variable -/
  | compute (idx : List Nat)
  /-- store the local variable to `Z[idx]` -/
  | store (idx : List Nat)

/-- the row that performs the action (the prange loops, matrix_updates_numba.py:168, 183) -/
def Action.row : Action → Nat
  | .compute i => i.getD 0 0
  | .store i => i.getD 0 0

/-- shared matrix and one local variable per row (matrix_updates_numba.py:168-174) -/
structure PState where
  Z : Arr Int
  loc : Nat → Int

/-- effect of an action. `logit Z idx` is the argument the code passes to the flip function.
(matrix_updates_numba.py:171-174) -/
noncomputable def Action.exec (logit : Arr Int → List Nat → ℝ) (rnd : Rnd) (s : PState) (a : Action) :
    PState :=
  match a with
  | .compute i => { s with
      loc := fun n => if n = a.row then flip_metropolised_gibbs_numba (logit s.Z i) (s.Z i) (rnd i)
        else s.loc n }
  | .store i => { s with Z := s.Z.set i (s.loc a.row) }

/-- run a schedule (matrix_updates_numba.py:168-174) -/
noncomputable def execAll (logit : Arr Int → List Nat → ℝ) (rnd : Rnd) (s : PState)
    (schedule : List Action) : PState :=
  schedule.foldl (Action.exec logit rnd) s

/-- the actions of a list of entries in program order; fixed entries are skipped (matrix_updates_numba.py:170, 185,
207, 253, 294, 319, 359) -/
def program (Z_fixed : Arr Int) (entries : List (List Nat)) : List Action :=
  entries.flatMap fun i => if Z_fixed i = 1 then [] else [.compute i, .store i]

/-- entries of a two- and three-dimensional array in loop order (matrix_updates_numba.py:168-169) -/
def entries : List Nat → List (List Nat)
  | [N, L] => (List.range N).flatMap fun n => (List.range L).map fun l => [n, l]
  | [N, D, M] => (List.range N).flatMap fun n => (List.range D).flatMap fun d =>
      (List.range M).map fun m => [n, d, m]
  | _ => []

/-- argument of the flip function in matrix_updates_numba.py:171-174 -/
noncomputable def logit_onechild_2D (f : Arr Int → Arr Int → Arr Int → Nat → Int) (U X : Arr Int)
    (lbda logit_prior : ℝ) (Z : Arr Int) (i : List Nat) : ℝ :=
  lbda * f (Z.row (i.getD 0 0)) U (X.row (i.getD 0 0)) (i.getD 1 0) + logit_prior

/-- argument of the flip function in matrix_updates_numba.py:186-189 -/
noncomputable def logit_onechild_3D (f : Arr Int → Arr Int → Arr Int → Arr Int → Nat → Int)
    (U V X : Arr Int) (lbda logit_prior : ℝ) (Z : Arr Int) (i : List Nat) : ℝ :=
  lbda * f (Z.row (i.getD 0 0)) U V (X.row (i.getD 0 0)) (i.getD 1 0) + logit_prior

/-- argument of the flip function in matrix_updates_numba.py:208-215 -/
noncomputable def logit_onechild_oneparent_2D (f : Arr Int → Arr Int → Arr Int → Nat → Int)
    (g : Arr Int → Arr Int → Int) (U X : Arr Int) (lbda : ℝ) (pa1 pa2 : Arr Int)
    (lbda_pa logit_prior : ℝ) (Z : Arr Int) (i : List Nat) : ℝ :=
  lbda * f (Z.row (i.getD 0 0)) U (X.row (i.getD 0 0)) (i.getD 1 0) +
    lbda_pa * g (pa1.row (i.getD 0 0)) (pa2.row (i.getD 1 0)) + logit_prior

/-- argument of the flip function in matrix_updates_numba.py:254-259 -/
noncomputable def logit_nochild_oneparent_2D (g : Arr Int → Arr Int → Int) (pa1 pa2 : Arr Int)
    (lbda_pa logit_prior : ℝ) (_ : Arr Int) (i : List Nat) : ℝ :=
  lbda_pa * g (pa1.row (i.getD 0 0)) (pa2.row (i.getD 1 0)) + logit_prior

/-- argument of the flip function in matrix_updates_numba.py:295-308 -/
noncomputable def logit_nochild_twoparents_2D (g : Arr Int → Arr Int → Int) (pa1_1 pa1_2 : Arr Int)
    (lbda_pa1 : ℝ) (pa2_1 pa2_2 : Arr Int) (lbda_pa2 logit_prior : ℝ) (_ : Arr Int) (i : List Nat) : ℝ :=
  lbda_pa1 * g (pa1_1.row (i.getD 0 0)) (pa1_2.row (i.getD 1 0)) +
    lbda_pa2 * g (pa2_1.row (i.getD 0 0)) (pa2_2.row (i.getD 1 0)) + logit_prior

/-- argument of the flip function in matrix_updates_numba.py:320-337 -/
noncomputable def logit_nochild_twoparents_3D (g : Arr Int → Arr Int → Arr Int → Int)
    (pa1_1 pa1_2 pa1_3 : Arr Int) (lbda_pa1 : ℝ) (pa2_1 pa2_2 pa2_3 : Arr Int)
    (lbda_pa2 logit_prior : ℝ) (_ : Arr Int) (i : List Nat) : ℝ :=
  lbda_pa1 * g (pa1_1.row (i.getD 0 0)) (pa1_2.row (i.getD 1 0)) (pa1_3.row (i.getD 2 0)) +
    lbda_pa2 * g (pa2_1.row (i.getD 0 0)) (pa2_2.row (i.getD 1 0)) (pa2_3.row (i.getD 2 0)) + logit_prior

/-- argument of the flip function in matrix_updates_numba.py:360-376 -/
noncomputable def logit_onechild_twoparents_2D (f : Arr Int → Arr Int → Arr Int → Nat → Int)
    (g : Arr Int → Arr Int → Int) (U X : Arr Int) (lbda : ℝ) (pa1_1 pa1_2 : Arr Int) (lbda_pa1 : ℝ)
    (pa2_1 pa2_2 : Arr Int) (lbda_pa2 logit_prior : ℝ) (Z : Arr Int) (i : List Nat) : ℝ :=
  lbda * f (Z.row (i.getD 0 0)) U (X.row (i.getD 0 0)) (i.getD 1 0) +
    lbda_pa1 * g (pa1_1.row (i.getD 0 0)) (pa1_2.row (i.getD 1 0)) +
    lbda_pa2 * g (pa2_1.row (i.getD 0 0)) (pa2_2.row (i.getD 1 0)) + logit_prior

/-- A schedule of the sampling function on a matrix: an interleaving of the rows' programs, i.e. every
row's actions occur exactly in that row's program order, and nothing else occurs.
(numba prange, matrix_updates_numba.py:168, 183) -/
def IsSchedule (Z_fixed : Arr Int) (shape : List Nat) (schedule : List Action) : Prop :=
  ∀ n, schedule.filter (fun a => a.row = n) = (program Z_fixed (entries shape)).filter fun a => a.row = n

end LFM

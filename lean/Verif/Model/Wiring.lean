import Verif.Model.Machine
import Verif.Model.MatrixWrappers
import Verif.Model.LambdaUpdates

/-!
# `Machine.infer` with the update functions of the generic models

`Verif.Model.Machine` leaves open what update functions do. Here they are the closures of
lom/matrix_update_wrappers.py and lom/lambda_update_wrappers.py, reading their arguments from the current values of the
matrices and parameters, as those closures do. The samplers of MAX-AND, qL-AND and IBP layers are modelled in their own
files and raise here (`Sampler.run`).

Simplification: samplers take a real lambda. If lambda is infinite or nan, the update of a matrix is left open
(`Wiring.special`); it is shown below that this is not reached with positive beta priors.
-/

namespace LFM

/-- attributes that inference does not change: of matrices `child_axis` and `parents` (as numbers of layers), of layers
`child`, of parameters `beta_prior`; further the random draws of a sweep (by clock and matrix), the orders of sweeps and
the contents of fresh memory. (machine.py:206-244, 276-310) -/
structure Wiring where
  layers : List LayerInfo
  layerOf : Nat → Option Nat
  childAxis : Nat → Nat
  parents : Nat → List Nat
  child : Nat → Nat
  beta_prior : Nat → ℝ × ℝ
  rnd : Nat → Nat → Rnd
  perm : Nat → List Nat → List Nat
  junk : Nat → Nat → Nat → Nat → NpF
  junkSampling : Nat → Nat → Nat → NpF
  junkMat : Nat → List Nat → Int
  special : Sampler → Nat → Nat → World → Except Err World

/-- what a sampling function reads of matrix `i`; the prior is not read at run time (it is captured before)
(matrix_update_wrappers.py:148-156) -/
noncomputable def memberAt (wr : Wiring) (w : World) (i : Nat) : Member :=
  ⟨(w.mat i).val, (w.mat i).fixed_entries, wr.childAxis i, 1 / 2⟩

/-- `lbda()` as a float (matrix_update_wrappers.py:155) -/
def LVal.float? : LVal → Option ℝ
  | .scalar (.fin x) => some x
  | _ => none

/-- `layer.lbda()`, `layer.factors` and `layer.model` of a parent layer (matrix_update_wrappers.py:165-226) -/
noncomputable def parentAt (wr : Wiring) (w : World) (p : Nat) : Option ParentLayer := do
  let lr ← wr.layers[p]?
  let x ← (w.lbda p).float?
  some ⟨lr.model, lr.factors.map fun i => (w.mat i).val, x⟩

/-- factors of a layer, data matrix and lambda that the sampling function of a matrix reads; a matrix that is not in a
layer has none of them (matrix_update_wrappers.py:148-156) -/
noncomputable def layerView (wr : Wiring) (w : World) (i : Nat) : Option (List Member × Nat × Arr Int × ℝ) :=
  match wr.layerOf i with
  | none => some ([], 0, Arr.full [] 0, 0)
  | some k => do
    let lr ← wr.layers[k]?
    let x ← (w.lbda k).float?
    some (lr.factors.map (memberAt wr w), lr.factors.idxOf i, (w.mat (wr.child k)).val, x)

/-- writing `mat.val` (the in-place updates of matrix_update_wrappers.py:150-156) -/
def World.setVal (w : World) (i : Nat) (v : Arr Int) : World := { w with mat := upd w.mat i { w.mat i with val := v } }

/-- calling `mat.sampling_fct(mat)` (matrix_update_wrappers.py:128-226) -/
noncomputable def runSampler (wr : Wiring) (s : Sampler) (i t : Nat) (w : World) : Except Err World :=
  match layerView wr w i, (wr.parents i).mapM (parentAt wr w) with
  | some (fs, k, child, lbda), some parents => do
    let v ← s.run (memberAt wr w i) fs k child lbda parents (wr.rnd t i)
    pure (w.setVal i v)
  | _, _ => wr.special s i t w

/-- calling `parm.sampling_fct(parm)` (lambda_updates_numba.py:241-272) -/
noncomputable def runUpdate (wr : Wiring) (f : LbdaUpdate) (k _t : Nat) (w : World) : Except Err World :=
  match wr.layers[k]? with
  | none => .error .indexError
  | some lr => do
    let q := match lr.q with
      | some q => (w.mat q).val
      | none => Arr.full [] 0
    let x ← f.run (lr.factors.map fun i => (w.mat i).val) (w.mat (wr.child k)).val q (wr.beta_prior k)
    pure { w with lbda := upd w.lbda k (.scalar x) }

/-- `get_sampling_fct(mat)`, matrix_update_wrappers.py:11-231; assigning a factor of a qL-AND layer assigns the
thresholds, too (line 72) -/
noncomputable def getSampler (wr : Wiring) (m : Mach Sampler LbdaUpdate) (i : Nat) :
    Except Err (Option Sampler × Option (Nat × Sampler)) := do
  let lr := (m.layerOf i).bind fun k => m.layers[k]?
  let fs := match lr with
    | some lr => lr.factors
    | none => []
  let member (j : Nat) : Member :=
    ⟨(m.world.mat j).val, (m.world.mat j).fixed_entries, wr.childAxis j, m.bernoulli_prior j⟩
  let parents := (wr.parents i).filterMap fun p => m.layers[p]?.map fun lr => (lr.model, lr.factors.length)
  let s ← get_sampling_fct none (lr.map LayerInfo.model) (fs.map member) (wr.childAxis i) (fs.idxOf i)
    (m.bernoulli_prior i) parents
  match s with
  | .none => pure (none, none)
  | .qL_Z _ | .qL_U _ => pure (some s, (lr.bind LayerInfo.q).map fun q => (q, .qL_q))
  | s => pure (some s, none)

/-- `get_update_fct(parm)`, lambda_update_wrappers.py:14-29 -/
noncomputable def getUpdate (m : Mach Sampler LbdaUpdate) (k : Nat) : Except Err LbdaUpdate :=
  match m.layers[k]? with
  | none => .error .indexError
  | some lr => get_update_fct none lr.model lr.factors.length

/-- the environment of `infer` in a machine of generic layers
(matrix_update_wrappers.py:140-231, lambda_update_wrappers.py:14-32) -/
noncomputable def genericEnv (wr : Wiring) : Env Sampler LbdaUpdate where
  runMat := runSampler wr
  runLbda := runUpdate wr
  perm := wr.perm
  getFct := getSampler wr
  getLfct := getUpdate
  junk := wr.junk
  junkSampling := wr.junkSampling
  junkMat := wr.junkMat

end LFM

import Verif.Model.DataPrep
import Verif.Model.Lom
import Verif.Model.Posterior
import Verif.Model.Wiring

/-!
# Model of the predictive experiments in lom/experiments.py

`tensorm_reconstruct`, `LOM_predictive`, `parallel_function` and `LOM_hyperparms_parallel_gridsearch`. Not modelled: pandas, the operating system
processes of the pool (a task is run in memory of its own; tasks that are sent to a worker together share their objects),
the models MAX-AND, OR-AND-IBP and qL-AND in `LOM_predictive`, and that line 274 stores `anneal` on a machine that is used
once.
-/

namespace LFM

/-- everything that is random or undetermined in one experiment: initial entries of factor `k`, the draws of sweeps, the
orders of sweeps and the contents of fresh memory (machine.py:225-230, 579, 668, 737, matrix_updates_numba.py:32) -/
structure Draws where
  init : Nat → List Nat → Int
  rnd : Nat → Nat → Rnd
  perm : Nat → List Nat → List Nat
  junk : Nat → Nat → Nat → Nat → NpF
  junkSampling : Nat → Nat → Nat → NpF
  junkMat : Nat → List Nat → Int

/-- machine.py:276-302, the layer of a new machine: one factor per axis of the data -/
def newLayer (K : Nat) (model : String) : LayerInfo := ⟨List.range K, model, none, false, false⟩

/-- attributes of a machine with a single new layer: factors are matrices `0, ..., K - 1` in the order of the axes
(machine.py:280, 509-511), the data is matrix `K`; machine.py:183 `beta_prior = (1, 1)` -/
noncomputable def newWiring (K : Nat) (model : String) (dr : Draws) : Wiring where
  layers := [newLayer K model]
  layerOf i := if i < K then some 0 else none
  childAxis i := i
  parents i := if i < K then [] else [0]
  child _ := K
  beta_prior _ := (1, 1)
  rnd := dr.rnd
  perm := dr.perm
  junk := dr.junk
  junkSampling := dr.junkSampling
  junkMat := dr.junkMat
  special _ _ _ _ := .error .notImplemented

/-- experiments.py:267-274: a new machine with fixed data (machine.py:533-542), one layer (machine.py:487-531, after
`canonise_model`), the given value of lambda and the given `anneal`. In machine.py:206-241 factors start at random entries,
none of them fixed, with prior 0.5. -/
noncomputable def newMach (data : Arr Int) (model : String) (L : Nat) (lbda_init : ℝ) (anneal : Bool) (dr : Draws) :
    Mach Sampler LbdaUpdate where
  layers := [newLayer data.shape.length model]
  matrices := [data.shape.length]
  anneal := anneal
  world :=
    { mat := fun i =>
        if i < data.shape.length then ⟨⟨[data.shape.getD i 0, L], dr.init i⟩, Arr.full [data.shape.getD i 0, L] 0⟩
        else ⟨data, Arr.full data.shape 0⟩
      lbda := fun _ => .scalar (.fin lbda_init) }
  fixed i := decide (i = data.shape.length)
  layerOf i := if i < data.shape.length then some 0 else none
  bernoulli_prior _ := 1 / 2
  fct _ := none
  trace _ := none
  trace_index _ := 0
  lfixed _ := false
  lfct _ := none
  ltrace _ := none
  ltrace_index _ := 0
  burn_in_iters := none
  clock := 0

/-- the tuple that experiments.py:265 unpacks. `int8`: the type of `X_train`; `same`: `X` and `X_train` are one array. -/
structure Experiment where
  X : Arr Int
  X_train : Arr Int
  int8 : Bool
  same : Bool
  train_mask : Arr Bool
  machine : String
  L : Nat
  lbda_init : ℝ
  anneal : Bool

/-- what experiments.py:288 returns -/
structure Predictive where
  accuracy : NpF
  machine : String
  size : Nat
  means : List FMean

/-- experiments.py:268-269, the data of the layer: machine.py:535-536 copies arrays of other types than int8, then
`canonise_model` works in place -/
def Experiment.data (e : Experiment) : Option (Arr Int) × Except Err (String × Bool × Bool) :=
  canonise_model e.machine (some (if e.int8 then e.X_train else e.X_train.map wrap8))

/-- `a[mask]` for a boolean array: the entries where the mask is True, in row-major order (experiments.py:282) -/
def maskIndex {α : Type} (a : Arr α) (mask : Arr Bool) : Except Err (List α) :=
  if a.shape = mask.shape then .ok (((indices mask.shape).filter fun i => mask i).map fun i => a i) else .error .indexError

/-- `x > .5` (experiments.py:282) -/
noncomputable def NpF.gtHalf : NpF → Bool
  | .fin x => decide (1 / 2 < x)
  | .posInf => true
  | _ => false

/-- experiments.py:282-286 -/
noncomputable def predictiveAccuracy (P : Arr NpF) (X : Arr Int) (mask : Arr Bool) (invert_data : Bool) : Except Err NpF := do
  let out ← maskIndex P mask
  let x ← maskIndex X mask
  let truth := x.map fun v => decide ((-2 * (if invert_data then 1 else 0) + 1) * v = 1)
  pure (npMean ((List.zipWith (fun o t => o.gtHalf == t) out truth).map fun b => .fin (if b then 1 else 0)))

/-- experiments.py:273-280: the two calls of `infer` -/
noncomputable def inferCall (env : Env Sampler LbdaUpdate) (anneal : Bool) (m : Mach Sampler LbdaUpdate) :
    Except Err (Mach Sampler LbdaUpdate) :=
  if anneal then infer env 10 50 (5 / 1000) 600 1000 10 0 m else infer env 10 10 (5 / 1000) 100 150 10 50 m

/-- experiments.py:259-289 `LOM_predictive`; `argsort` is only used by MAX-AND. In machine.py:672-679 `print_step=10`,
`convergence_eps=5e-3`. -/
noncomputable def LOM_predictive (argsort : Arr ℝ → List Nat) (e : Experiment) (dr : Draws) : Except Err Predictive := do
  let (model, invert_data, _) ← e.data.2
  if model ∉ implemented_loms then throw Err.notImplemented   -- not modelled
  let data := e.data.1.getD e.X_train
  let X := if e.same ∧ e.int8 then data else e.X
  let m := newMach data model e.L e.lbda_init e.anneal dr
  let env := genericEnv (newWiring data.shape.length model dr)
  let m' ← inferCall env e.anneal m
  match m'.olayer 0 none with
  | none => throw Err.attributeError
  | some s => do
    let P ← (output argsort "factor_mean" false false true s).1
    let acc ← predictiveAccuracy P X e.train_mask invert_data
    pure ⟨acc, e.machine, (s.factors.headD ⟨⟨[], fun _ => 0⟩, none⟩).val.dim 1, s.factors.map OFac.mean⟩

/-- experiments.py:100-104, the data that the machine is given: cast to int8; recoded if all entries are 0 or 1 -/
noncomputable def tensormData (X : Arr Int) (int8 : Bool) : Arr Int :=
  let X := if int8 then X else X.map wrap8
  if ∀ idx ∈ indices X.shape, X idx = 0 ∨ X idx = 1 then X.map fun x => wrap8 (2 * x - 1) else X

/-- experiments.py:98-123 `tensorm_reconstruct`: `X_recon`, `f_tensorm`, `X_recon_plugin`. With `return_layer` the layer is
returned after the same computations. The argument `hyperparms` is not used. machine.py:521: lambda starts at 0.05;
machine.py:672-679: the defaults of `infer`; machine.py:310-320: `layer.v` is the third factor. -/
noncomputable def tensorm_reconstruct (argsort : Arr ℝ → List Nat) (X : Arr Int) (int8 : Bool) (L : Nat) (dr : Draws) :
    Except Err (Arr NpF × List FMean × Arr NpF) := do
  let data := tensormData X int8
  let m := newMach data "OR-AND" L (5 / 100) false dr
  let m' ← infer (genericEnv (newWiring data.shape.length "OR-AND" dr)) 50 15 (5 / 1000) 100 2000 10 0 m
  match m'.olayer 0 none with
  | none => throw Err.attributeError
  | some s => do
    let (r, s) := output argsort "factor_mean" false false true s
    let X_recon ← r
    let (r, s) := output argsort "factor_map" false false true s
    let X_recon_plugin ← r
    match s.factors with
    | z :: u :: v :: _ => pure (X_recon, [z.mean, u.mean, v.mean], X_recon_plugin)
    | _ => throw Err.indexError

/-- experiments.py:327-336: attempts to split with `split = .1`, `.01`, ...; `none`: no attempt has succeeded yet. The draws
of attempt `k` are given. -/
noncomputable def splitLoop (X : Arr Int) (balanced : Bool) (draws : Nat → (List Nat → Bool) × List Nat × List Nat) :
    Nat → ℝ → Nat → Option (Arr Int × Arr Bool)
  | 0, _, _ => none
  | fuel + 1, split, k =>
    match split_train_test X split balanced (draws k).1 (draws k).2.1 (draws k).2.2 with
    | .ok r => some r
    | .error _ => splitLoop X balanced draws fuel (split * (1 / 10)) (k + 1)

/-- experiments.py:339-345: the list of experiments -/
def gridOf (machines : List String) (L_inits : List Nat) (random_idxs : List Nat) : List (String × Nat × Nat) :=
  machines.flatMap fun machine => L_inits.flatMap fun L => random_idxs.map fun idx => (machine, L, idx)

/-- multiprocessing.Pool.map: `len(iterable)` tasks are sent to `processes` workers in chunks of this size
(called in experiments.py:300-301) -/
def chunkSize (n processes : Nat) : Nat := (n + processes * 4 - 1) / (processes * 4)

/-- experiments.py:296-307, 347-349: the training data that every experiment of a grid is run on. Experiments are sent to
workers in chunks of `size`; those of a chunk are run one after the other and share the array `X_train` (pickle keeps
identity within a message), which `canonise_model` inverts in place if it is of type int8. `left`: remaining experiments
of the current chunk; `shared`: its array. -/
def gridDataFrom (int8 : Bool) (X_train : Arr Int) (size : Nat) : Nat → Arr Int → List String → List (Arr Int)
  | _, _, [] => []
  | 0, _, machine :: rest =>
    X_train :: gridDataFrom int8 X_train size (size - 1)
      (if int8 then (canonise_model machine (some X_train)).1.getD X_train else X_train) rest
  | left + 1, shared, machine :: rest =>
    shared :: gridDataFrom int8 X_train size left
      (if int8 then (canonise_model machine (some shared)).1.getD shared else shared) rest

/-- the training data of all experiments of a grid (experiments.py:330-346) -/
def gridData (int8 : Bool) (X_train : Arr Int) (processes : Nat) (machines : List String) : List (Arr Int) :=
  gridDataFrom int8 X_train (chunkSize machines.length processes) 0 X_train machines

/-- experiments.py:310-353 `LOM_hyperparms_parallel_gridsearch` with 28 processes (line 301). `none`: no split has been
found in `fuel` attempts. Line 325: the name `aux` is not defined in the module. -/
noncomputable def gridsearch (argsort : Arr ℝ → List Nat) (X : Arr Int) (int8 : Bool) (machines : Option (List String))
    (L_inits random_idxs : List Nat) (lbda_init : ℝ) (balanced anneal : Bool)
    (draws : Nat → (List Nat → Bool) × List Nat × List Nat) (dr : Nat → Draws) (fuel : Nat) :
    Except Err (Option (List Predictive)) :=
  match machines with
  | none => .error .nameError
  | some machines =>
    match splitLoop X balanced draws fuel (1 / 10) 0 with
    | none => .ok none
    | some (X_train, train_mask) =>
      let grid := gridOf machines L_inits random_idxs
      let data := gridData int8 X_train 28 (grid.map fun g => g.1)
      some <$> ((grid.zip data).zipIdx.mapM fun (((machine, L, _), X_train), j) =>
        LOM_predictive argsort ⟨X, X_train, int8, false, train_mask, machine, L, lbda_init, anneal⟩ (dr j))

end LFM

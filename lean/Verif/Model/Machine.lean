import Verif.Model.CleanUp
import Verif.Model.Numeric

/-!
# Model of traces, `Machine.burn_in` and `Machine.infer` (lom/machine.py:104-170, 455-775)

Matrix objects are numbers, the dispersion parameter of a layer is referred to by the number of the layer. The values
that update functions read and write (`val` of matrices and parameters, `fixed_entries`) form a `World`; all other
attributes are in `Mach`. The update functions themselves are arbitrary (`Env.runMat`, `Env.runLbda`, of arbitrary
types of closures `F` and `G`); randomness enters through their argument `clock`. So are the order in which matrices
are visited, the contents of memory allocated by `np.empty`, and the assignment of update functions.
`while True` loops are recursive functions without fuel.

Simplifications: printing is left out, except that `% print_step` may fail; the attribute `fixed` is True or False (an
array raises in infer); a negative `burn_in_min` (the loop of line 563 would not end) is excluded by its type; writing a
value of another shape to a trace raises ValueError (numpy would broadcast a single row or column).
-/

namespace LFM

/-- value of a dispersion parameter: a float, or an array (MAX-AND, BALANCED) (machine.py:513-522) -/
inductive LVal
  | scalar (x : NpF)
  | vector (xs : List NpF)

/-- everything update functions work on: of matrices `val` and `fixed_entries`, of the parameter of a layer `val`, of a
MAX-AND layer `lbda_ratios` (max_machine_sampler.py:166; other layers have no such attribute) -/
structure World where
  mat : Nat → Fac
  lbda : Nat → LVal
  ratios : Nat → Arr ℝ := fun _ => Arr.full [] 0

/-- attributes of a layer that inference reads (machine.py:276-308) -/
structure LayerInfo where
  factors : List Nat
  model : String
  q : Option Nat
  auto_clean : Bool
  auto_reset : Bool

/-- trace array of a parameter: `ndim` 1 or 2 (`cols` is the second dimension) (machine.py:138-142) -/
inductive LTrace
  | scalars (xs : List NpF)
  | vectors (cols : Nat) (rows : List (List NpF))

/-- a machine with the attributes of its members. `clock` counts sweeps over matrices; it is not in the code.
(machine.py:173-184, 206-244, 276-310, 455-485) -/
structure Mach (F G : Type) where
  layers : List LayerInfo
  matrices : List Nat
  anneal : Bool
  world : World
  /-- attributes of matrices -/
  fixed : Nat → Bool
  layerOf : Nat → Option Nat
  bernoulli_prior : Nat → ℝ
  fct : Nat → Option F
  trace : Nat → Option (Arr Int)
  trace_index : Nat → Nat
  /-- attributes of parameters -/
  lfixed : Nat → Bool
  lfct : Nat → Option G
  ltrace : Nat → Option LTrace
  ltrace_index : Nat → Nat
  burn_in_iters : Option Nat
  clock : Nat

/-- what is not determined by the code of machine.py. `getFct` and `getLfct` are called without a pre-assigned
function; the former may assign a function to another matrix, too.
(called in machine.py:579, 583, 668-669, 694-696, 737, 745) -/
structure Env (F G : Type) where
  runMat : F → Nat → Nat → World → Except Err World
  runLbda : G → Nat → Nat → World → Except Err World
  perm : Nat → List Nat → List Nat
  getFct : Mach F G → Nat → Except Err (Option F × Option (Nat × F))
  getLfct : Mach F G → Nat → Except Err G
  /-- contents of `np.empty`, by allocation, parameter, row and column -/
  junk : Nat → Nat → Nat → Nat → NpF
  /-- the same for the traces of the sampling phase -/
  junkSampling : Nat → Nat → Nat → NpF
  junkMat : Nat → List Nat → Int

variable {F G : Type}

/-- function update, `f[i] = v` (assignments to attributes, e.g. machine.py:145-146) -/
def upd {α : Type} (f : Nat → α) (i : Nat) (v : α) : Nat → α := fun j => if j = i then v else f j

/-! ## Traces -/

/-- machine.py:132-142 `allocate_trace_arrays` of a parameter -/
def allocL (junk : Nat → Nat → NpF) (no_of_samples : Nat) (val : LVal) : LTrace :=
  match val with
  | .scalar _ => .scalars ((List.range no_of_samples).map fun r => junk r 0)
  | .vector xs => .vectors xs.length
      ((List.range no_of_samples).map fun r => (List.range xs.length).map fun c => junk r c)

/-- machine.py:144-146 `update_trace` of a parameter: `trace[k] = val` -/
def writeL (t : LTrace) (k : Nat) (val : LVal) : Except Err LTrace :=
  match t, val with
  | .scalars xs, .scalar x => if k < xs.length then .ok (.scalars (xs.set k x)) else .error .indexError
  | .scalars xs, .vector _ => if k < xs.length then .error .valueError else .error .indexError
  | .vectors c rows, .scalar x =>
    if k < rows.length then .ok (.vectors c (rows.set k (List.replicate c x))) else .error .indexError
  | .vectors c rows, .vector xs =>
    if k < rows.length then
      if xs.length = c then .ok (.vectors c (rows.set k xs)) else .error .valueError
    else .error .indexError

/-- machine.py:155-170 `check_convergence` of a parameter -/
noncomputable def checkL (t : LTrace) (eps : ℝ) : Bool :=
  match t with
  | .scalars xs => check_convergence_single_trace xs eps
  | .vectors c rows => (List.range c).all fun l =>
      check_convergence_single_trace (rows.map fun r => r.getD l .nan) eps

/-- machine.py:132-140 `allocate_trace_arrays` of a matrix -/
def allocM (junk : List Nat → Int) (no_of_samples : Nat) (val : Arr Int) : Arr Int :=
  ⟨no_of_samples :: val.shape, junk⟩

/-- machine.py:113-124 `allocate_trace_arrays_IBP` -/
def allocIBP (no_of_samples : Nat) (val : Arr Int) : Arr Int :=
  ⟨[no_of_samples, val.dim 0, val.dim 1 + 10], fun _ => -1⟩

/-- machine.py:144-146 `update_trace` of a matrix: `trace[k] = val` -/
def writeM (t : Arr Int) (k : Nat) (val : Arr Int) : Except Err (Arr Int) :=
  if k < t.dim 0 then
    if t.shape.drop 1 = val.shape then
      .ok ⟨t.shape, fun i => if i.head? = some k then val (i.drop 1) else t i⟩
    else .error .valueError
  else .error .indexError

/-- machine.py:126-130 `update_trace_IBP`: `trace[k, :a, :b] = val` -/
def writeIBP (t : Arr Int) (k : Nat) (val : Arr Int) : Except Err (Arr Int) :=
  if k < t.dim 0 then
    if val.dim 0 ≤ t.dim 1 ∧ val.dim 1 ≤ t.dim 2 then
      .ok ⟨t.shape, fun i =>
        if i.head? = some k ∧ i.getD 1 0 < val.dim 0 ∧ i.getD 2 0 < val.dim 1 then val (i.drop 1) else t i⟩
    else .error .valueError
  else .error .indexError

/-- one of the two (machine.py:126-130, 144-146) -/
def writeTrace (ibp : Bool) (t : Arr Int) (k : Nat) (val : Arr Int) : Except Err (Arr Int) :=
  if ibp then writeIBP t k val else writeM t k val

/-! ## Sweeps -/

/-- machine.py:470-481 `members` -/
def members (m : Mach F G) : List Nat :=
  m.layers.flatMap LayerInfo.factors ++ m.matrices ++
    m.layers.flatMap fun layer => if layer.model = "qL-AND" then layer.q.toList else []

/-- machine.py:257-264 `mat.model` -/
def modelOf (m : Mach F G) (i : Nat) : Option String :=
  (m.layerOf i).bind fun k => m.layers[k]?.map LayerInfo.model

/-- `mat.sampling_fct(mat)`; TypeError if it is None (machine.py:579, 668, 737) -/
def callMat (env : Env F G) (m : Mach F G) (i : Nat) : Except Err (Mach F G) :=
  match m.fct i with
  | none => .error .typingError
  | some f => do
    let w ← env.runMat f i m.clock m.world
    pure { m with world := w }

/-- `[mat.sampling_fct(mat) for mat in np.random.permutation(mats)]` (machine.py:579, 668, 737) -/
def sampleMats (env : Env F G) (mats : List Nat) (m : Mach F G) : Except Err (Mach F G) := do
  let m ← (env.perm m.clock mats).foldlM (callMat env) m
  pure { m with clock := m.clock + 1 }

/-- `lbda.sampling_fct(lbda)` (machine.py:583, 669, 745) -/
def callLbda (env : Env F G) (m : Mach F G) (k : Nat) : Except Err (Mach F G) :=
  match m.lfct k with
  | none => .error .typingError
  | some g => do
    let w ← env.runLbda g k m.clock m.world
    pure { m with world := w }

/-- `[lbda.sampling_fct(lbda) for lbda in lbdas]` (machine.py:583, 669, 745) -/
def sampleLbdas (env : Env F G) (lbdas : List Nat) (m : Mach F G) : Except Err (Mach F G) :=
  lbdas.foldlM (callLbda env) m

/-- `lbda.update_trace()`; AttributeError without a trace (machine.py:144-146, called in 670, 746) -/
def updateTraceL (m : Mach F G) (k : Nat) : Except Err (Mach F G) :=
  match m.ltrace k with
  | none => .error .attributeError
  | some t => do
    let t' ← writeL t (m.ltrace_index k) (m.world.lbda k)
    pure { m with ltrace := upd m.ltrace k (some t'), ltrace_index := upd m.ltrace_index k (m.ltrace_index k + 1) }

/-- `lbda.allocate_trace_arrays(n); lbda.trace_index = 0` for all (machine.py:604-606, 642-645) -/
def allocLbdas (junk : Nat → Nat → Nat → NpF) (n : Nat) (lbdas : List Nat) (m : Mach F G) : Mach F G :=
  { m with
    ltrace := fun k => if k ∈ lbdas then some (allocL (junk k) n (m.world.lbda k)) else m.ltrace k
    ltrace_index := fun k => if k ∈ lbdas then 0 else m.ltrace_index k }

/-- `for lbda in lbdas: lbda.trace_index = 0` (machine.py:624-625, 662-663) -/
def resetIndexL (lbdas : List Nat) (m : Mach F G) : Mach F G :=
  { m with ltrace_index := fun k => if k ∈ lbdas then 0 else m.ltrace_index k }

/-! ## Burn-in -/

/-- `np.arange(start, stop, step)` in exact arithmetic (numpy, machine.py:594-597). A step of zero raises
ZeroDivisionError for Python numbers; for numpy numbers the length is nan and ValueError is raised, which is not
distinguished here. -/
noncomputable def npArange (start stop step : ℝ) : Except Err (List ℝ) :=
  if step = 0 then .error .zeroDivision
  else .ok ((List.range ⌈(stop - start) / step⌉.toNat).map fun i : Nat => start + i * step)

/-- machine.py:593-598: the annealing steps of one parameter. Without a finite number: ValueError. -/
noncomputable def annealing (burn_in_min : Nat) (v : LVal) : Except Err (List ℝ) :=
  match v with
  | .scalar (.fin x) => npArange (x / burn_in_min) (x + 2 * x / burn_in_min) (x / burn_in_min)
  | _ => .error .valueError

/-- machine.py:593-598: the annealing steps are computed in the first turn and kept -/
noncomputable def annealingSteps (lbdas : List Nat) (burn_in_min fix_lbda_iters pre : Nat) (steps : List (List ℝ))
    (m : Mach F G) : Except Err (List (List ℝ)) :=
  if pre = fix_lbda_iters + 1 then lbdas.mapM fun k => annealing burn_in_min (m.world.lbda k) else .ok steps

/-- machine.py:600-601: `lbda.val = annealing_lbdas[lbda_idx][pre_burn_in_iter]` for all parameters -/
def annealTo (pre : Nat) : List (Nat × List ℝ) → Mach F G → Except Err (Mach F G)
  | [], m => .ok m
  | (k, steps) :: rest, m =>
    match steps[pre]? with
    | none => .error .indexError
    | some x => annealTo pre rest { m with world := { m.world with lbda := upd m.world.lbda k (.scalar (.fin x)) } }

/-- machine.py:568-601: one turn of the first loop; `pre` is the value after the increment of line 568, `steps` the
variable `annealing_lbdas` -/
noncomputable def preStep (env : Env F G) (mats lbdas : List Nat) (burn_in_min print_step fix_lbda_iters : Nat)
    (pre : Nat) (steps : List (List ℝ)) (m : Mach F G) : Except Err (List (List ℝ) × Mach F G) := do
  if print_step = 0 then throw .zeroDivision
  let m ← sampleMats env mats m
  if pre > fix_lbda_iters then
    if m.anneal = false then
      let m ← sampleLbdas env lbdas m
      pure (steps, m)
    else if fix_lbda_iters ≠ 0 then
      throw .valueError
    else do
      let steps ← annealingSteps lbdas burn_in_min fix_lbda_iters pre steps m
      let m ← annealTo pre (lbdas.zip steps) m
      pure (steps, m)
  else pure (steps, m)

/-- machine.py:562-601: the first loop, from the state that `todo` turns are left -/
noncomputable def preLoop (env : Env F G) (mats lbdas : List Nat) (burn_in_min print_step fix_lbda_iters : Nat) :
    Nat → List (List ℝ) → Mach F G → Except Err (Mach F G)
  | 0, _, m => .ok m
  | todo + 1, steps, m => do
    let (steps, m) ← preStep env mats lbdas burn_in_min print_step fix_lbda_iters (burn_in_min - todo) steps m
    preLoop env mats lbdas burn_in_min print_step fix_lbda_iters todo steps m

/-- writing the factors of a layer back (auxiliary_functions.py:148-160) -/
def writeFactors (w : World) : List Nat → List Fac → World
  | i :: is, f :: fs => writeFactors { w with mat := upd w.mat i f } is fs
  | _, _ => w

/-- `aux.clean_up_codes(lr, reset, clean)` on layer `lr`
(auxiliary_functions.py:100-145, called in machine.py:635-640, 656-658) -/
def cleanLayer (reset clean : Bool) (m : Mach F G) (lr : LayerInfo) : Except Err (Mach F G × Bool) := do
  let (fs, b) ← clean_up_codes (lr.factors.map m.world.mat) reset clean
  pure ({ m with world := writeFactors m.world lr.factors fs }, b)

/-- machine.py:635-640: clean up the layers with a flag set, all of them; is any result True? -/
def autoClean : List LayerInfo → Mach F G → Except Err (Mach F G × Bool)
  | [], m => .ok (m, false)
  | lr :: rest, m =>
    if lr.auto_clean = true ∨ lr.auto_reset = true then do
      let (m, b) ← cleanLayer lr.auto_reset lr.auto_clean m lr
      let (m, b') ← autoClean rest m
      pure (m, b || b')
    else autoClean rest m

/-- machine.py:655-658: `clean_up_codes(lr, reset=False, clean=True)` of the layers with `auto_reset` -/
def finalClean : List LayerInfo → Mach F G → Except Err (Mach F G)
  | [], m => .ok m
  | lr :: rest, m =>
    if lr.auto_reset = true then do
      let (m, _) ← cleanLayer false true m lr
      finalClean rest m
    else finalClean rest m

/-- machine.py:628: `np.all([x.check_convergence(eps=eps) for x in lbdas])`; AttributeError without a trace -/
noncomputable def allConverged (eps : ℝ) (m : Mach F G) : List Nat → Except Err Bool
  | [] => .ok true
  | k :: ks =>
    match m.ltrace k with
    | none => .error .attributeError
    | some t => do
      let rest ← allConverged eps m ks
      pure (checkL t eps && rest)

/-- machine.py:622-650: what happens every `convergence_window` turns; the second result is True if burn-in ends -/
noncomputable def windowStep (env : Env F G) (lbdas : List Nat) (eps : ℝ) (convergence_window pre iter : Nat)
    (m : Mach F G) : Except Err (Mach F G × Bool) := do
  let m := resetIndexL lbdas m
  let conv ← allConverged eps m lbdas
  if conv then
    let (m, b) ← autoClean m.layers m
    if b then pure (allocLbdas (env.junk iter) convergence_window lbdas m, false)
    else pure ({ m with burn_in_iters := some (iter + pre) }, true)
  else pure (m, false)

/-- machine.py:622: only every `convergence_window` turns -/
noncomputable def windowTurn (env : Env F G) (lbdas : List Nat) (eps : ℝ) (convergence_window pre iter : Nat)
    (m : Mach F G) : Except Err (Mach F G × Bool) :=
  if iter % convergence_window = 0 then windowStep env lbdas eps convergence_window pre iter m else .ok (m, false)

/-- machine.py:653-665: the limit of burn-in is reached -/
def stopStep (lbdas : List Nat) (iter : Nat) (m : Mach F G) : Except Err (Mach F G) := do
  let m ← finalClean m.layers m
  let m := resetIndexL lbdas m
  pure { m with burn_in_iters := some iter }

/-- machine.py:667-670: a sweep of burn-in -/
def burnSweep (env : Env F G) (mats lbdas : List Nat) (m : Mach F G) : Except Err (Mach F G) := do
  let m ← sampleMats env mats m
  let m ← sampleLbdas env lbdas m
  lbdas.foldlM updateTraceL m

/-- machine.py:609-670: the second loop; `iter` is `burn_in_iter` after the increment of line 611 -/
noncomputable def mainLoop (env : Env F G) (mats lbdas : List Nat) (eps : ℝ) (convergence_window : Nat)
    (burn_in_max : Int) (print_step pre iter : Nat) (m : Mach F G) : Except Err (Mach F G) := do
  if print_step = 0 then throw .zeroDivision
  if convergence_window = 0 then throw .zeroDivision
  let (m, done) ← windowTurn env lbdas eps convergence_window pre iter m
  if done then pure m
  else if h : burn_in_max < (iter : Int) + pre then stopStep lbdas iter m
  else
    let m ← burnSweep env mats lbdas m
    mainLoop env mats lbdas eps convergence_window burn_in_max print_step pre (iter + 1) m
termination_by (burn_in_max + 1 - (iter + pre)).toNat
decreasing_by omega

/-- machine.py:544-670 `burn_in` -/
noncomputable def burn_in (env : Env F G) (mats lbdas : List Nat) (eps : ℝ) (convergence_window burn_in_min : Nat)
    (burn_in_max : Int) (print_step fix_lbda_iters : Nat) (m : Mach F G) : Except Err (Mach F G) := do
  let m ← preLoop env mats lbdas burn_in_min print_step fix_lbda_iters burn_in_min [] m
  let m := allocLbdas (env.junk 0) convergence_window lbdas m
  mainLoop env mats lbdas eps convergence_window burn_in_max print_step burn_in_min 1 m

/-! ## infer -/

/-- `mat.sampling_fct = get_sampling_fct(mat)` (machine.py:693-694, matrix_update_wrappers.py:20-21): a pre-assigned
function is kept -/
def assignFct (env : Env F G) (m : Mach F G) (i : Nat) : Except Err (Mach F G) :=
  match m.fct i with
  | some _ => .ok m
  | none => do
    let (f, extra) ← env.getFct m i
    let m := match extra with
      | some (j, g) => { m with fct := upd m.fct j (some g) }
      | none => m
    pure { m with fct := upd m.fct i f }

/-- `lbda.sampling_fct = get_update_fct(lbda)` (machine.py:695-696, lambda_update_wrappers.py:18-19) -/
def assignLfct (env : Env F G) (m : Mach F G) (k : Nat) : Except Err (Mach F G) :=
  match m.lfct k with
  | some _ => .ok m
  | none => do
    let g ← env.getLfct m k
    pure { m with lfct := upd m.lfct k (some g) }

/-- machine.py:725-729: a matrix that is not in a layer has no attribute `layer.model` -/
def allocMat (env : Env F G) (no_samples : Nat) (m : Mach F G) (i : Nat) : Except Err (Mach F G) :=
  match modelOf m i with
  | none => .error .attributeError
  | some model =>
    let v := (m.world.mat i).val
    .ok { m with trace := upd m.trace i (some (if model = "OR-AND-IBP" then allocIBP no_samples v
      else allocM (env.junkMat i) no_samples v)) }

/-- `mat.update_trace()` or `mat.update_trace_IBP()` (machine.py:739-742) -/
def updateTraceM (ibp : Bool) (m : Mach F G) (i : Nat) : Except Err (Mach F G) :=
  match m.trace i with
  | none => .error .attributeError
  | some t => do
    let v := (m.world.mat i).val
    let t' ← writeTrace ibp t (m.trace_index i) v
    pure { m with trace := upd m.trace i (some t'), trace_index := upd m.trace_index i (m.trace_index i + 1) }

/-- machine.py:734-753: one turn of the sampling loop -/
def samplingStep (env : Env F G) (mats lbdas : List Nat) (print_step : Nat) (m : Mach F G) :
    Except Err (Mach F G) := do
  let m ← sampleMats env mats m
  let m ← mats.foldlM (updateTraceM (mats.any fun i => modelOf m i = some "OR-AND-IBP")) m
  let m ← sampleLbdas env lbdas m
  let m ← lbdas.foldlM updateTraceL m
  if print_step = 0 then throw .zeroDivision
  pure m

/-- machine.py:733-753: the sampling loop -/
def samplingLoop (env : Env F G) (mats lbdas : List Nat) (print_step : Nat) : Nat → Mach F G → Except Err (Mach F G)
  | 0, m => .ok m
  | todo + 1, m => do
    let m ← samplingStep env mats lbdas print_step m
    samplingLoop env mats lbdas print_step todo m

/-- machine.py:686: the matrices that are sampled -/
def freeMats (m : Mach F G) : List Nat := (members m).filter fun i => !m.fixed i

/-- machine.py:691: the parameters that are updated -/
def freeLbdas (m : Mach F G) : List Nat := (List.range m.layers.length).filter fun k => !m.lfixed k

/-- machine.py:705-710: all trace indices are set to zero -/
def resetIndices (mats lbdas : List Nat) (m : Mach F G) : Mach F G :=
  { m with
    trace_index := fun i => if i ∈ mats then 0 else m.trace_index i
    ltrace_index := fun k => if k ∈ lbdas then 0 else m.ltrace_index k }

/-- machine.py:730-731: `lbda.allocate_trace_arrays(no_samples)`, the indices are left as they are -/
def allocLbdasS (junk : Nat → Nat → Nat → NpF) (n : Nat) (lbdas : List Nat) (m : Mach F G) : Mach F G :=
  { m with ltrace := fun k => if k ∈ lbdas then some (allocL (junk k) n (m.world.lbda k)) else m.ltrace k }

/-- machine.py:672-775 `infer` -/
noncomputable def infer (env : Env F G) (no_samples convergence_window : Nat) (convergence_eps : ℝ) (burn_in_min : Nat)
    (burn_in_max : Int) (print_step fix_lbda_iters : Nat) (m : Mach F G) : Except Err (Mach F G) := do
  let mats := freeMats m
  let lbdas := freeLbdas m
  let m ← mats.foldlM (assignFct env) m
  let m ← lbdas.foldlM (assignLfct env) m
  let m := resetIndices mats lbdas m
  let m ← burn_in env mats lbdas convergence_eps convergence_window burn_in_min burn_in_max print_step fix_lbda_iters m
  let m ← mats.foldlM (allocMat env no_samples) m
  let m := allocLbdasS env.junkSampling no_samples lbdas m
  samplingLoop env mats lbdas print_step no_samples m

end LFM

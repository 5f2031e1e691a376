import Verif.Model.MatrixUpdates

/-!
# Model of `lom/matrix_update_wrappers.py` (and of `MachineMatrix.siblings`, machine.py:266-269)

`Member` is what a sampling function reads from a matrix object. A sampling function assigned to a
matrix is a closure: what is captured at assignment time (the compiled numba function, the order of
axes, the logit of the Bernoulli prior) is stored in `Sampler`, what is read when it is called (current
values of the matrix, its siblings, child, parents, lambdas) is the argument of `Sampler.run`.
-/

namespace LFM

/-- `scipy.special.logit` for arguments strictly between 0 and 1 (matrix_update_wrappers.py:8, 126, 142) -/
noncomputable def logit (p : ℝ) : ℝ := Real.log (p / (1 - p))

/-- what is read from a factor matrix: `val`, `fixed_entries`, `child_axis`, `bernoulli_prior`
(machine.py:206-241) -/
structure Member where
  val : Arr Int
  fixed_entries : Arr Int
  child_axis : Nat
  bernoulli_prior : ℝ

/-- a parent layer as seen from its child: factor values, lambda, model name (matrix_update_wrappers.py:171-172) -/
structure ParentLayer where
  model : String
  factors : List (Arr Int)
  lbda : ℝ

/-- machine.py:266-269: the other factors, sorted by their child axis. `k` is the position of the
matrix itself in `layer.factors`. -/
def siblings (factors : List Member) (k : Nat) : List Member :=
  (factors.eraseIdx k).mergeSort fun a b => a.child_axis ≤ b.child_axis

/-- matrix_update_wrappers.py:234-255. `model` is the model of the layer the matrix is a factor of
(`None` for a pure data matrix), `dim` its number of factors, `parents` the parent layers' model names
and numbers of factors. Line 252 is an `elif` of `len(parents) > 1`, hence never reached. -/
def get_relatives_models (model : Option String) (dim : Nat) (parents : List (String × Nat)) :
    Except Err (Option String × Option String × Option String) := do
  let mod := model.map fun m => pyDashToUnderscore (m ++ "-" ++ toString dim ++ "D")
  let mut parent1_model := none
  let mut parent2_model := none
  if parents.length > 0 then
    match parents[0]? with
    | some p =>
      if p.2 ≠ 2 then throw .assertionError
      parent1_model := some (pyDashToUnderscore (p.1 ++ "-2D"))
    | none => pure ()
  if parents.length > 1 then
    match parents[1]? with
    | some p =>
      if p.2 ≠ 2 then throw .assertionError
      parent2_model := some (pyDashToUnderscore (p.1 ++ "-2D"))
    | none => pure ()
  else if parents.length > 2 then
    throw .notImplemented
  return (mod, parent1_model, parent2_model)

/-- closures returned by `get_sampling_fct`, with the values they capture (matrix_update_wrappers.py:140-226) -/
inductive Sampler
  /-- 48-59 -/
  | maxAnd (order : List Nat)
  /-- 63-70, assigned to the matrix of thresholds as a side effect (line 72) -/
  | qL_q
  /-- 75-83 -/
  | qL_Z (order : List Nat)
  /-- 86-94 -/
  | qL_U (order : List Nat)
  /-- 107-120 -/
  | ibp (order : List Nat)
  /-- 128-138 and 148-158 -/
  | lom (sample : OneChild) (order : List Nat) (logit_bernoulli_prior : ℝ)
  /-- 165-176 -/
  | onechild_oneparent (sample : OneChildOneParent) (order : List Nat) (logit_bernoulli_prior : ℝ)
  /-- 182-190 -/
  | nochild_oneparent (sample : NoChildOneParent) (logit_bernoulli_prior : ℝ)
  /-- 196-206 -/
  | nochild_twoparents (sample : NoChildTwoParents) (logit_bernoulli_prior : ℝ)
  /-- 213-226 -/
  | onechild_twoparents (sample : OneChildTwoParents) (order : List Nat) (logit_bernoulli_prior : ℝ)
  /-- 61-94 fall through without `return` for another child axis: the function returns `None` -/
  | none

/-- matrix_update_wrappers.py:11-231 for a matrix with position `k` in `factors` (if it belongs to a
layer with model `model`), Bernoulli prior `bernoulli_prior` and the given parents. `cached` is
`mat.sampling_fct`. The `IBP` hyperparameter default (100-102) is not part of the closure. -/
noncomputable def get_sampling_fct (cached : Option Sampler) (model : Option String)
    (factors : List Member) (child_axis : Nat) (k : Nat) (bernoulli_prior : ℝ)
    (parents : List (String × Nat)) : Except Err Sampler := do
  match cached with
  | some s => return s
  | none =>
  let (mod, p1mod, p2mod) ← get_relatives_models model factors.length parents
  let transpose_order := child_axis :: (siblings factors k).map Member.child_axis
  if mod = some "MAX_AND_2D" then
    if p1mod ≠ none then throw .assertionError
    if p2mod ≠ none then throw .assertionError
    return .maxAnd transpose_order
  else if mod = some "qL_AND_2D" then
    if child_axis = 0 then return .qL_Z transpose_order
    else if child_axis = 1 then return .qL_U transpose_order
    else return .none
  else if mod = some "OR_AND_IBP_2D" then
    if child_axis = 0 then return .ibp transpose_order
    else if child_axis = 1 then
      let sample ← make_sampling_fct_onechild "OR_AND_2D"
      return .lom sample transpose_order (logit bernoulli_prior)
    else return .none
  else
    let logit_bernoulli_prior := logit bernoulli_prior
    match mod, p1mod, p2mod with
    | some mod, none, _ =>
      let sample ← make_sampling_fct_onechild mod
      return .lom sample transpose_order logit_bernoulli_prior
    | some mod, some p1mod, none =>
      let sample ← make_sampling_fct_onechild_oneparent mod p1mod
      return .onechild_oneparent sample transpose_order logit_bernoulli_prior
    | none, some p1mod, none =>
      let sample ← make_sampling_fct_nochild_oneparent p1mod
      return .nochild_oneparent sample logit_bernoulli_prior
    | none, some p1mod, some p2mod =>
      let sample ← make_sampling_fct_nochild_twoparents p1mod p2mod
      return .nochild_twoparents sample logit_bernoulli_prior
    | some mod, some p1mod, some p2mod =>
      let sample ← make_sampling_fct_onechild_twoparents mod p1mod p2mod
      return .onechild_twoparents sample transpose_order logit_bernoulli_prior
    | none, none, _ => throw .notImplemented

/-- calling a generic sampling closure on the matrix `mat` (position `k` in `factors` of a layer with
data `child` and dispersion `lbda`; `parents` are its parent layers): the new value of the matrix.
A wrong number of array arguments is a numba dispatch error. The MAX-AND, qL-AND and IBP samplers are
modelled in their own files. (matrix_update_wrappers.py:148-224) -/
noncomputable def Sampler.run (s : Sampler) (mat : Member) (factors : List Member) (k : Nat)
    (child : Arr Int) (lbda : ℝ) (parents : List ParentLayer) (rnd : Rnd) : Except Err (Arr Int) :=
  let sibs := (siblings factors k).map Member.val
  match s with
  | .lom (.two f) order lp =>
    match sibs with
    | [u] => .ok (f mat.val mat.fixed_entries u (child.transpose order) lbda lp rnd)
    | _ => .error .typingError
  | .lom (.three f) order lp =>
    match sibs with
    | [u, v] => .ok (f mat.val mat.fixed_entries u v (child.transpose order) lbda lp rnd)
    | _ => .error .typingError
  | .onechild_oneparent f order lp =>
    match sibs, parents with
    | [u], pa :: _ =>
      match pa.factors with
      | [pa1, pa2] =>
        .ok (f mat.val mat.fixed_entries u (child.transpose order) lbda pa1 pa2 pa.lbda lp rnd)
      | _ => .error .typingError
    | _, _ => .error .typingError
  | .nochild_oneparent f lp =>
    match parents with
    | pa :: _ =>
      match pa.factors with
      | [pa1, pa2] => .ok (f mat.val mat.fixed_entries pa1 pa2 pa.lbda lp rnd)
      | _ => .error .typingError
    | [] => .error .indexError
  | .nochild_twoparents (.two f) lp =>
    match parents with
    | pa :: pb :: _ =>
      match pa.factors, pb.factors with
      | [pa1, pa2], [pb1, pb2] =>
        .ok (f mat.val mat.fixed_entries pa1 pa2 pa.lbda pb1 pb2 pb.lbda lp rnd)
      | _, _ => .error .typingError
    | _ => .error .indexError
  | .nochild_twoparents (.three f) lp =>
    match parents with
    | pa :: pb :: _ =>
      match pa.factors, pb.factors with
      | [pa1, pa2, pa3], [pb1, pb2, pb3] =>
        .ok (f mat.val mat.fixed_entries pa1 pa2 pa3 pa.lbda pb1 pb2 pb3 pb.lbda lp rnd)
      | _, _ => .error .typingError
    | _ => .error .indexError
  | .onechild_twoparents f order lp =>
    match sibs, parents with
    | [u], pa :: pb :: _ =>
      match pa.factors, pb.factors with
      | [pa1, pa2], [pb1, pb2] =>
        .ok (f mat.val mat.fixed_entries u (child.transpose order) lbda pa1 pa2 pa.lbda pb1 pb2
          pb.lbda lp rnd)
      | _, _ => .error .typingError
    | _, _ => .error .typingError
  | _ => .error .typingError

end LFM

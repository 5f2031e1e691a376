import Verif.Model.Wiring
import Verif.Model.MaxMachine
import Verif.Model.QL
import Verif.Model.IBP

/-!
# `Machine.infer` with the update functions of MAX-AND, qL-AND and OR-AND-IBP layers

`genericEnv` raises for the closures of these layers. Here they are called: lom/matrix_update_wrappers.py:45-138 and
lom/lambda_update_wrappers.py:23-29. All other closures are called as there.

Simplifications: as in the modules of these samplers (reals for floats, `l_order` is not narrowed to int8). A lambda that
is infinite or nan leaves the update open (`Wiring.special`), as in `runSampler`.
-/

namespace LFM

/-- attributes that inference does not change and that only these layers read: `layer.gamma` (machine.py:308),
`layer.alpha` (None has been replaced by 3, matrix_update_wrappers.py:100-102), `bernoulli_prior` of matrices; further
`np.argsort` (some ascending order) and the draws of the IBP update, by clock and matrix -/
structure SpecialWiring extends Wiring where
  gamma : Nat → ℝ
  alpha : Nat → ℝ
  prior : Nat → ℝ
  argsort : List ℝ → List Nat
  ibp : Nat → Nat → IBPDraws

/-- `lbda()` as an array of floats (matrix_update_wrappers.py:49, 55) -/
def LVal.floats? : LVal → Option (List ℝ)
  | .vector xs => xs.mapM fun x => match x with
    | .fin y => some y
    | _ => none
  | _ => none

/-- a list as an array (numpy, machine.py:514-516) -/
def listArr (xs : List ℝ) : Arr ℝ := ⟨[xs.length], fun i => xs.getD (i.getD 0 0) 0⟩

/-- an array of floats as the value of a parameter (machine.py:514-516) -/
def arrLVal (a : Arr ℝ) : LVal := .vector ((List.range (a.dim 0)).map fun l => .fin (a [l]))

/-- machine.py:266-269 `mat.siblings`, as matrices: the other factors of the layer, by `child_axis` -/
def siblingIds (wr : Wiring) (lr : LayerInfo) (i : Nat) : List Nat :=
  (lr.factors.filter fun j => j ≠ i).mergeSort fun a b => wr.childAxis a ≤ wr.childAxis b

/-- calling `mat.sampling_fct(mat)`: matrix_update_wrappers.py:48-57 (MAX-AND), 63-70, 75-81, 86-92 (qL-AND), 107-118
(IBP, which writes both factors) -/
noncomputable def runSpecial (wr : SpecialWiring) (s : Sampler) (i t : Nat) (w : World) : Except Err World :=
  match (wr.layerOf i).bind fun k => wr.layers[k]?.map fun lr => (k, lr) with
  | none => runSampler wr.toWiring s i t w
  | some (k, lr) =>
    let mat := w.mat i
    let child := (w.mat (wr.child k)).val
    match s with
    | .maxAnd order =>
      match siblingIds wr.toWiring lr i, (w.lbda k).floats? with
      | j :: _, some lbda => do
        let X ← npTranspose child order
        let l_order := wr.argsort (lbda.dropLast.map fun x => -x)
        pure (w.setVal i (draw_MAX_AND_2D mat.val mat.fixed_entries (w.mat j).val X l_order (w.ratios k) (wr.rnd t i)))
      | [], _ => .error .indexError
      | _, none => wr.special s i t w
    | .qL_q =>
      match lr.factors, (w.lbda k).float? with
      | z :: u :: _, some lbda =>
        .ok (w.setVal i (sample_qL_q (w.mat z).val (w.mat u).val child mat.val lbda (wr.gamma k) fun d => wr.rnd t i [0, d]))
      | _, some _ => .error .indexError
      | _, none => wr.special s i t w
    | .qL_Z order =>
      match siblingIds wr.toWiring lr i, lr.q, (w.lbda k).float? with
      | j :: _, some q, some lbda => do
        let X ← npTranspose child order
        pure (w.setVal i (sample_qL_factors_Z mat.val (w.mat j).val X (w.mat q).val lbda (wr.rnd t i)))
      | [], _, _ => .error .indexError
      | _, none, _ => .error .attributeError
      | _, _, none => wr.special s i t w
    | .qL_U order =>
      match siblingIds wr.toWiring lr i, lr.q, (w.lbda k).float? with
      | j :: _, some q, some lbda => do
        let X ← npTranspose child order
        pure (w.setVal i (sample_qL_factors_U mat.val (w.mat j).val X (w.mat q).val lbda (wr.rnd t i)))
      | [], _, _ => .error .indexError
      | _, none, _ => .error .attributeError
      | _, _, none => wr.special s i t w
    | .ibp order =>
      match siblingIds wr.toWiring lr i, (w.lbda k).float? with
      | j :: _, some lbda => do
        let X ← npTranspose child order
        let r := sample_2d_IBP mat.val (w.mat j).val X lbda (wr.prior j) (wr.alpha k) (wr.ibp t i)
        pure ((w.setVal i r.1).setVal j r.2)
      | [], _ => .error .indexError
      | _, none => wr.special s i t w
    | s => runSampler wr.toWiring s i t w

/-- calling `parm.sampling_fct(parm)`: lambda_update_wrappers.py:25-26 (MAX-AND, which writes the array in place and
`layer.lbda_ratios`), else lambda_updates_numba.py:241-272. A lambda that is not an array of numbers is no input of
MAX-AND's update: IndexError. -/
noncomputable def runSpecialLbda (wr : SpecialWiring) (f : LbdaUpdate) (k t : Nat) (w : World) : Except Err World :=
  match f with
  | .max_and_2d =>
    match wr.layers[k]?.map LayerInfo.factors, (w.lbda k).floats? with
    | some (z :: u :: _), some lbda => do
      let (new, ratios) ← lbda_MAX_AND 2 (w.mat z).val (w.mat u).val (w.mat (wr.child k)).val (listArr lbda)
      pure { w with lbda := upd w.lbda k (arrLVal new), ratios := upd w.ratios k ratios }
    | _, _ => .error .indexError
  | f => runUpdate wr.toWiring f k t w

/-- the environment of `infer` in a machine of layers of any model
(matrix_update_wrappers.py:11-231, lambda_update_wrappers.py:14-32) -/
noncomputable def specialEnv (wr : SpecialWiring) : Env Sampler LbdaUpdate :=
  { genericEnv wr.toWiring with runMat := runSpecial wr, runLbda := runSpecialLbda wr }

end LFM

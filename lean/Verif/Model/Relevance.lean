import Verif.Model.MaxMachine
import Verif.Model.Numeric

/-!
# Model of `maxmachine_relevance` (lom/_numba/max_machine_sampler.py:194-270)

Strings are compared with `is`; equal literals are one object in CPython, so this is modelled as equality. The branch
`'plugin'` always ends at `len(zip(...))` (line 227), a TypeError in Python 3 (assuming that the statements before it
succeed).
-/

namespace LFM

/-- what `maxmachine_relevance` reads of a layer. `eigenvals` is the attribute of that name: absent (`none`), `None`, or the
result of an earlier call. Traces are absent until inference has sampled the parameter.
(max_machine_sampler.py:194-270) -/
structure RLayer where
  eigenvals : Option (Option (Arr NpF))
  lbdaTrace : Option (List (Arr ℝ))
  zTrace : Option (List (Arr Int))
  uTrace : Option (List (Arr Int))
  child : Arr Int
  /-- `lbda.trace.shape[1]` -/
  nLbda : Nat
  /-- `u.trace.shape[2]` -/
  L : Nat

/-- max_machine_sampler.py:247-249: `x_pred`, the prediction of dimension `l` alone (a product of Booleans) -/
def relPred (z u : Arr Int) (l n d : Nat) : Bool := z [n, l] = 1 && u [d, l] = 1

/-- max_machine_sampler.py:251-257: `x_pred_alt`, the prediction of all dimensions with a larger parameter -/
noncomputable def relAlt (z u : Arr Int) (alpha : Arr ℝ) (L l n d : Nat) : Bool :=
  (List.range L).foldl (fun alt l_alt => if alpha [l_alt] > alpha [l] then alt || relPred z u l_alt n d else alt) false

/-- max_machine_sampler.py:259: the term that is added for sample and dimension -/
noncomputable def relTerm (x z u : Arr Int) (alpha : Arr ℝ) (L l : Nat) : ℝ :=
  alpha [l] * ((countCells (x.dim 0) (x.dim 1) fun n d =>
    relPred z u l n d && !relAlt z u alpha L l n d && decide (x [n, d] = 1) : Int) : ℝ)

/-- max_machine_sampler.py:243-265: one sample -/
noncomputable def relSample (x z u : Arr Int) (alpha : Arr ℝ) (L nLbda : Nat) (e : Arr ℝ) : Arr ℝ :=
  let e := (List.range L).foldl (fun (e : Arr ℝ) l => e.set [l] (e [l] + relTerm x z u alpha L l)) e
  e.set [nLbda - 1] (e [nLbda - 1] + alpha [nLbda - 1])

/-- max_machine_sampler.py:194-270 `maxmachine_relevance(layer, model_type)`: the result and the attribute afterwards -/
noncomputable def maxmachine_relevance (s : RLayer) (model_type : String) : Except Err (Arr NpF × RLayer) :=
  match s.eigenvals with
  | none => .error .attributeError
  | some (some e) => .ok (e, s)
  | some none =>
    if model_type = "plugin" then .error .typingError
    else if model_type = "mcmc" then
      match s.lbdaTrace, s.zTrace, s.uTrace with
      | some a, some z, some u =>
        let tr_len := u.length
        let e := (List.range tr_len).foldl (fun (e : Arr ℝ) t => relSample s.child (z.getD t (Arr.full [] 0))
          (u.getD t (Arr.full [] 0)) (a.getD t (Arr.full [] 0)) s.L s.nLbda e) (Arr.full [s.nLbda] 0)
        let ones : Int := countCells (s.child.dim 0) (s.child.dim 1) fun n d => decide (s.child [n, d] = 1)
        let out : Arr NpF := ⟨e.shape, fun i => npDiv (e i) (tr_len * (ones : ℝ))⟩
        .ok (out, { s with eigenvals := some (some out) })
      | _, _, _ => .error .attributeError
    else .error .unboundLocal

end LFM

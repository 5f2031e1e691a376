import Verif.Model.Lom
import Verif.Model.Fuzzy
import Verif.Model.MaxMachine
import Verif.Model.Numeric

/-!
# Model of `Trace.mean`, `MachineMatrix.set_to_map` and `MachineLayer.output` (lom/machine.py)

What these functions see of a factor is its value and its trace; a trace exists (`some`) once a call of `infer`
has sampled the factor. Numbers are real numbers, extended by the IEEE specials where they can be reached: the
mean of a trace without samples (`np.mean` of an empty axis is nan), the division by the number of samples and
lambda. Not modelled: printing; that the array returned and the one stored in `prediction` are one object (so
that a caller who overwrites the result overwrites the stored prediction).
-/

namespace LFM

/-- a factor of a layer: `val` and, if there is one, `trace` (samples in order) (machine.py:104-153) -/
structure OFac where
  val : Arr Int
  trace : Option (List (Arr Int))

/-- result of `Trace.mean` for a factor: numbers, or an array of nans of the given shape (machine.py:148-153) -/
inductive FMean
  | nums (a : Arr ℝ)
  | nans (shape : List Nat)

/-- the numbers of an integer array (machine.py:148-153) -/
def toReal (a : Arr Int) : Arr ℝ := a.map fun (x : Int) => (x : ℝ)

/-- machine.py:148-153 `Trace.mean` for a factor. `np.mean(self.trace, axis=0)` has the shape of the samples (of the
current value if there are no samples). -/
noncomputable def OFac.mean (f : OFac) : FMean :=
  match f.trace with
  | none => .nums (toReal f.val)
  | some [] => .nans f.val.shape
  | some (s :: ss) => .nums ⟨s.shape, fun i => ((s :: ss).map fun a => (a i : ℝ)).sum / (s :: ss).length⟩

/-- `2 * (x.mean() > 0) - 1` (machine.py:379, 413): comparisons with nan are False -/
noncomputable def FMean.sign : FMean → Arr Int
  | .nums a => a.map fun x => if 0 < x then 1 else -1
  | .nans shape => Arr.full shape (-1)

/-- machine.py:271-273 `MachineMatrix.set_to_map`: `np.array(self.mean() > 0, dtype=np.int8)`, then zeros are
overwritten by -1 -/
noncomputable def OFac.set_to_map (f : OFac) : OFac :=
  let v : Arr Int := match f.mean with
    | .nums a => a.map fun x => if 0 < x then 1 else 0
    | .nans shape => Arr.full shape 0
  { f with val := v.map fun x => if x = 0 then -1 else x }

/-- the dispersion parameter of a layer: a number, or an array (MAX-AND), each with the trace (machine.py:173-184) -/
inductive OLbda
  | scalar (val : NpF) (trace : Option (List NpF))
  | vector (val : Arr ℝ) (trace : Option (List (Arr ℝ)))

/-- `self.lbda.trace.shape[0]`, if there is a trace (machine.py:383, 387, 432, 436) -/
def OLbda.traceLen : OLbda → Option Nat
  | .scalar _ tr => tr.map List.length
  | .vector _ tr => tr.map List.length

/-- `(1 + x) * .5` (machine.py:409, 437) -/
noncomputable def NpF.halfPlus : NpF → NpF
  | .fin x => .fin ((1 + x) * (1 / 2))
  | v => v

/-- what `MachineLayer.output` reads and writes (machine.py:341-452) -/
structure OLayer where
  model : String
  factors : List OFac
  lbda : OLbda
  /-- value of `self.q` (qL-AND only) -/
  q : Arr Int
  /-- `self.child().shape` (qL-AND only) -/
  childShape : List Nat
  prediction : Option (Arr NpF)

/-- machine.py:148-153 `Trace.mean` for a number -/
noncomputable def scalarMean (val : NpF) : Option (List NpF) → NpF
  | none => val
  | some xs => npMean xs

/-- auxiliary_functions.py:772-798 `lom_generate_data` on arrays of numbers: entries are only compared with 1 -/
noncomputable def lom_generate_data_real (factors : List (Arr ℝ)) (model : String) : Except Err (Arr Int) :=
  lom_generate_data (factors.map fun f => f.map fun x => if x = 1 then 1 else 0) model

/-- auxiliary_functions.py:739-769 `lom_generate_data_fast` with `fuzzy=True` -/
noncomputable def lom_generate_data_fast_fuzzy (factors : List (Arr ℝ)) (model : String) : Except Err (Arr ℝ) :=
  if model ∉ implemented_loms then toReal <$> lom_generate_data_real factors model
  else match factors with
    | [Z, U] => output_function_2d_fuzzy model Z U
    | [Z, U, V] =>
      if model = "OR-AND" then output_function_3d_fuzzy model Z U V
      else toReal <$> lom_generate_data_real factors model
    | _ => toReal <$> lom_generate_data_real factors model

/-- lom_outputs_fuzzy.py:206-228 `MAX_AND_product_fuzzy`. `prange` over rows writes disjoint cells. -/
noncomputable def MAX_AND_product_fuzzy (Z U lbdas : Arr ℝ) : Arr ℝ := Id.run do
  let N := Z.dim 0
  let D := U.dim 0
  let L := Z.dim 1
  let mut out : Arr ℝ := Arr.full [N, D] 0
  for n in List.range N do
    for d in List.range D do
      let mut acc : ℝ := 0
      for l1 in List.range L do
        let temp1 := Z [n, l1] * U [d, l1] * lbdas [l1]
        let mut prod : ℝ := 1
        for l2 in List.range L do
          if l1 = l2 then
            continue
          let temp2 := Z [n, l2] * U [d, l2]
          if temp2 * lbdas [l2] > temp1 then
            prod := prod * (1 - temp2)
        acc := acc + temp1 * prod
      out := out.set [n, d] acc
  return out

/-- `lom_outputs.MAX_AND_product_2d(factors, lbdas)` for a list of factors: `OR_AND_product_expand` takes two
arguments, so any other number of factors is a TypeError (assuming at least one latent dimension); `argsort` is the
result of `np.argsort(lbdas[:-1])` (lom_outputs.py:254-262) -/
noncomputable def maxAndProduct (argsort : Arr ℝ → List Nat) (factors : List (Arr Int)) (lbdas : Arr ℝ) :
    Except Err (Arr ℝ) :=
  match factors with
  | [Z, U] => .ok (MAX_AND_product_2d Z U lbdas (argsort lbdas))
  | _ => .error .typingError

/-- `[x.trace[t, :] for x in self.factors]`: AttributeError without a trace, IndexError beyond its end
(machine.py:385, 433-434) -/
def traceAt (factors : List OFac) (t : Nat) : Except Err (List (Arr Int)) :=
  factors.mapM fun f => match f.trace with
    | none => .error .attributeError
    | some tr => match tr[t]? with
      | none => .error .indexError
      | some a => .ok a

/-- `out += m` for arrays of the same shape. Other shapes are a ValueError, or broadcast if they are 1, which is not
modelled: this can only happen if a factor and its samples have different numbers of rows. (machine.py:384, 433) -/
noncomputable def addTo (out m : Arr ℝ) : Except Err (Arr ℝ) :=
  if m.shape = out.shape then .ok ⟨out.shape, fun i => out i + m i⟩ else .error .valueError

/-- `np.zeros([x().shape[0] for x in self.factors])` (machine.py:382, 430) -/
noncomputable def zerosLike (factors : List OFac) : Arr ℝ := Arr.full (factors.map fun f => f.val.dim 0) 0

/-- the entries of an array of numbers as floats (machine.py:407-415) -/
noncomputable def finArr (a : Arr ℝ) : Arr NpF := a.map .fin

/-- the numbers of means, none if one of them consists of nans (machine.py:389-392, 419-422) -/
def allNums : List FMean → Option (List (Arr ℝ))
  | [] => some []
  | .nums a :: ms => (allNums ms).map (a :: ·)
  | .nans _ :: _ => none

/-- a mean with 0 in place of nan (machine.py:389-392, 419-427) -/
noncomputable def FMean.orZero : FMean → Arr ℝ
  | .nums a => a
  | .nans shape => Arr.full shape 0

/-- the result of a function of means. A formula (`formula = true`) uses every one of its arguments in every cell, so its result is nan if
one argument is nan (assuming at least one latent dimension); the general implementation only compares with 1, for which nan is as good
as a mean of 0. Means with nans only occur for a trace without samples. (machine.py:389-392, 419-427) -/
noncomputable def liftMeans (formula : Bool) (factors : List OFac) (g : List (Arr ℝ) → Except Err (Arr ℝ)) :
    Except Err (Arr NpF) :=
  match allNums (factors.map OFac.mean) with
  | some ms => finArr <$> g ms
  | none => do
    let out ← g (factors.map fun f => f.mean.orZero)
    if formula then pure (Arr.full out.shape .nan) else pure (finArr out)

/-- whether `lom_generate_data_fast` uses a formula rather than the general implementation (auxiliary_functions.py:744-769) -/
def hasFormula (factors : Nat) (model : String) : Bool :=
  model ∈ implemented_loms && (factors = 2 || (factors = 3 && model = "OR-AND"))

/-- machine.py:373-392, MAX-AND. `.5 * (x.mean() + 1)` etc. The branch `mc` reads the trace of lambda first. -/
noncomputable def outputMax (argsort : Arr ℝ → List Nat) (technique : String) (s : OLayer) :
    Except Err (Arr NpF) :=
  match s.lbda with
  | .scalar _ _ => .error .typingError
  | .vector lval ltrace =>
    if technique = "point_estimate" then do
      let out ← maxAndProduct argsort (s.factors.map (·.val)) lval
      pure (finArr out)
    else if technique = "factor_map" then do
      let out ← maxAndProduct argsort (s.factors.map fun x => x.mean.sign) lval
      pure (finArr out)
    else if technique = "mc" then
      match ltrace with
      | none => .error .attributeError
      | some lt => do
        let out ← (List.range lt.length).foldlM (fun (out : Arr ℝ) t => do
          let fs ← traceAt s.factors t
          let m ← maxAndProduct argsort fs (lt.getD t (Arr.full [] 0))
          addTo out m) (zerosLike s.factors)
        pure (out.map fun x => npDiv x lt.length)
    else if technique = "factor_mean" then
      match s.factors with
      | z :: u :: _ =>
        match ltrace with
        | some [] => .ok (Arr.full [z.val.dim 0, u.val.dim 0] .nan)
        | some (b :: bs) => liftMeans true [z, u] fun ms => match ms with
            | [Z, U] => .ok (MAX_AND_product_fuzzy (Z.map fun x => 1 / 2 * (x + 1)) (U.map fun x => 1 / 2 * (x + 1))
                ⟨b.shape, fun i => ((b :: bs).map fun a => a i).sum / (b :: bs).length⟩)
            | _ => .error .valueError
        | none => liftMeans true [z, u] fun ms => match ms with
            | [Z, U] => .ok (MAX_AND_product_fuzzy (Z.map fun x => 1 / 2 * (x + 1)) (U.map fun x => 1 / 2 * (x + 1)) lval)
            | _ => .error .valueError
      | _ => .error .indexError
    else .error .unboundLocal

/-- machine.py:394-403, qL-AND: the technique is not looked at -/
noncomputable def outputQL (s : OLayer) : Except Err (Arr NpF) :=
  match s.childShape, s.factors with
  | [N, D], z :: u :: _ => .ok <| Id.run do
      let mut out : Arr NpF := Arr.full [N, D] (.fin 0)
      for n in List.range N do
        for d in List.range D do
          out := out.set [n, d] (.fin (qL_AND_product (u.val.row d) (z.val.row n) (s.q [0, d]) : ℝ))
      return out
  | [_, _], _ => .error .indexError
  | _, _ => .error .valueError

/-- machine.py:440-442 `out * expit(mean) + (1 - out) * expit(-mean)` for one entry -/
noncomputable def noisyEntry (m : NpF) (out : NpF) : NpF :=
  match out, m.expit, m.neg.expit with
  | .fin x, .fin a, .fin b => .fin (x * a + (1 - x) * b)
  | _, _, _ => .nan

/-- machine.py:405-437: the generic models, before noise -/
noncomputable def outputGeneric (technique : String) (s : OLayer) : Except Err (Arr NpF) :=
  if technique = "point_estimate" then do
    let out ← lom_generate_data_fast (s.factors.map (·.val)) s.model
    pure (finArr (out.map fun (x : Int) => (1 + (x : ℝ)) * (1 / 2)))
  else if technique = "factor_map" then do
    let out ← lom_generate_data_fast (s.factors.map fun x => x.mean.sign) s.model
    pure (finArr (out.map fun x => if x = 1 then (1 : ℝ) else 0))
  else if technique = "factor_mean" then
    liftMeans (hasFormula s.factors.length s.model) s.factors fun ms =>
      lom_generate_data_fast_fuzzy (ms.map fun a => a.map fun x => (x + 1) * (1 / 2)) s.model
  else if technique = "factor_mean_old" then
    liftMeans true s.factors fun ms => lom_generate_data_fuzzy ms s.model
  else if technique = "mc" then
    match s.lbda.traceLen with
    | none => .error .attributeError
    | some S => do
      let out ← (List.range S).foldlM (fun (out : Arr ℝ) t => do
        let fs ← traceAt s.factors t
        let m ← lom_generate_data_fast fs s.model
        addTo out (toReal m)) (zerosLike s.factors)
      pure (out.map fun x => (npDiv x S).halfPlus)
  else .error .unboundLocal

/-- machine.py:373-442: the branches on the model. `noisy_emission` is only looked at in the last one; an array of
lambdas there (models `BALANCED-…`) is reported as the ValueError of shapes that do not broadcast. -/
noncomputable def computeOutput (argsort : Arr ℝ → List Nat) (technique : String) (noisy : Bool) (s : OLayer) :
    Except Err (Arr NpF) :=
  if s.model = "MAX-AND" then outputMax argsort technique s
  else if s.model = "qL-AND" then outputQL s
  else do
    let out ← outputGeneric technique s
    if noisy then
      match s.lbda with
      | .scalar val tr => pure (out.map (noisyEntry (scalarMean val tr)))
      | .vector _ _ => throw Err.valueError
    else
      pure out

/-- `2 * x - 1` (machine.py:452) -/
noncomputable def NpF.twiceMinusOne : NpF → NpF
  | .fin x => .fin (2 * x - 1)
  | v => v

/-- machine.py:341-452 `MachineLayer.output`: the result (or exception) and the state of the layer afterwards -/
noncomputable def output (argsort : Arr ℝ → List Nat) (technique : String) (noisy lazy map_to_probabilities : Bool)
    (s : OLayer) : Except Err (Arr NpF) × OLayer :=
  match s.prediction, lazy with
  | some p, true => (.ok p, s)
  | _, _ =>
    let reset_name_to_IBP := s.model = "OR-AND-IBP"
    let s1 : OLayer := if reset_name_to_IBP then { s with model := "OR-AND" } else s
    match computeOutput argsort technique noisy s1 with
    | .error e => (.error e, s1)
    | .ok out =>
      let s2 : OLayer := { s1 with prediction := some out }
      let s3 : OLayer := if reset_name_to_IBP then { s2 with model := "OR-AND-IBP" } else s2
      (.ok (if map_to_probabilities then out else out.map NpF.twiceMinusOne), s3)

end LFM

import Verif.Model.Machine
import Verif.Model.Output

/-!
# What `Trace.mean` and `MachineLayer.output` see of a machine after `infer`
-/

namespace LFM

variable {F G : Type}

/-- `self.trace[t]` for all `t` (machine.py:138, 144-146) -/
def samplesOf (tr : Arr Int) : List (Arr Int) :=
  (List.range (tr.dim 0)).map fun t => ⟨tr.shape.drop 1, fun idx => tr (t :: idx)⟩

/-- the attributes `val` and `trace` of matrix `i` (machine.py:104-170) -/
def Mach.ofac (m : Mach F G) (i : Nat) : OFac := ⟨(m.world.mat i).val, (m.trace i).map samplesOf⟩

/-- the attributes `val` and `trace` of a dispersion parameter that is a number. `none`: an array, or a number with a
trace of arrays, which inference does not produce. (machine.py:104-146, 173-184) -/
def Mach.olbda (m : Mach F G) (k : Nat) : Option OLbda :=
  match m.world.lbda k, m.ltrace k with
  | .scalar x, none => some (.scalar x none)
  | .scalar x, some (.scalars xs) => some (.scalar x (some xs))
  | _, _ => none

/-- what `MachineLayer.output` (machine.py:341-452) reads of layer `k`, for models with a single dispersion parameter:
the name of the model, its factors and lambda with their traces, the last prediction. The shape of the child and the
thresholds are read for qL-AND only. -/
def Mach.olayer (m : Mach F G) (k : Nat) (prediction : Option (Arr NpF)) : Option OLayer :=
  match m.layers[k]?, m.olbda k with
  | some lr, some lbda => some ⟨lr.model, lr.factors.map m.ofac, lbda, ⟨[], fun _ => 0⟩, [], prediction⟩
  | _, _ => none

end LFM

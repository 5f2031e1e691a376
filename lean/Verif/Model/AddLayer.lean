import Verif.Model.Lom

/-!
# Model of `Machine.add_layer` (lom/machine.py:487-531) as far as the data is concerned

Child matrices are mutable objects that may be shared between layers: they live in a store and are
referred to by numbers. Not modelled here: `child.parents`, the factors and lambdas of the new layer.
-/

namespace LFM

/-- what `add_layer` records in a layer object about its child (machine.py:278-290, 525-529) -/
structure LayerRec where
  child : Nat
  model : String
  invert_data : Bool
  invert_factors : Bool
  /-- one factor per axis of the data -/
  dimensionality : Nat

/-- a machine and the matrices that exist (machine.py:457-468) -/
structure Sys where
  data : Nat → Arr Int
  next : Nat
  layers : List LayerRec

/-- arguments of one call of `add_layer`; `fresh` are the random values of a new child matrix (machine.py:487-491) -/
structure Call where
  child : Option Nat
  shape : Option (List Nat)
  model : String
  fresh : List Nat → Int

/-- `child.val` after the call of `canonise_model` (auxiliary_functions.py:932-955) -/
def Sys.setData (s : Sys) (child : Option Nat) (val : Option (Arr Int)) : Sys :=
  match child, val with
  | some id, some v => { s with data := fun j => if j = id then v else s.data j }
  | _, _ => s

/-- machine.py:500-531, `add_layer` after the model has been canonised: lines 501-506 check the shape
information, line 524 creates the layer (`MachineLayer.__init__`, whose line 304 reads `child().shape[1]`
for qL-AND), line 527 stores it. -/
def attach (s : Sys) (c : Call) (model : String) (invert_data invert_factors : Bool) :
    Sys × Except Err LayerRec :=
  match c.child, c.shape with
  | none, some sh =>
    let layer : LayerRec := ⟨s.next, model, invert_data, invert_factors, sh.length⟩
    let s' : Sys := { s with
      data := fun j => if j = s.next then ⟨sh, c.fresh⟩ else s.data j
      next := s.next + 1 }
    if model = "qL-AND" ∧ sh.length < 2 then (s', .error .indexError)
    else ({ s' with layers := s'.layers ++ [layer] }, .ok layer)
  | some id, none =>
    let layer : LayerRec := ⟨id, model, invert_data, invert_factors, (s.data id).shape.length⟩
    if model = "qL-AND" ∧ (s.data id).shape.length < 2 then (s, .error .indexError)
    else ({ s with layers := s.layers ++ [layer] }, .ok layer)
  | _, _ => (s, .error .valueError)

/-- machine.py:487-531 `Machine.add_layer`. Line 498 canonises the model and inverts the child in place. -/
def add_layer (s : Sys) (c : Call) : Sys × Except Err LayerRec :=
  let r := canonise_model c.model (c.child.map s.data)
  let s := s.setData c.child r.1
  match r.2 with
  | .error e => (s, .error e)
  | .ok (model, invert_data, invert_factors) => attach s c model invert_data invert_factors

/-- a sequence of calls; exceptions are caught by the caller (machine.py:487-531, any number of times) -/
def add_layers (s : Sys) (cs : List Call) : Sys := cs.foldl (fun s c => (add_layer s c).1) s

end LFM

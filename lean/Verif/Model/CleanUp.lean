import Verif.Py

/-!
# Model of `clean_up_codes`, `remove_dimension` and `reset_dimension`, `lom/auxiliary_functions.py:100-159`

A layer is the list of its factors: value and `fixed_entries` of each (the other attributes are not read or
written). Printed output is not modelled. The `while` loops are recursive functions without fuel, so Lean's check that
they are total is a proof that they terminate.
-/

namespace LFM

/-- `f.val` and `f.fixed_entries` of a factor (machine.py:206-241) -/
structure Fac where
  val : Arr Int
  fixed_entries : Arr Int

/-- machine.py:322-324 `layer.size` (a layer has at least one factor) -/
def layerSize : List Fac → Nat
  | [] => 0
  | f :: _ => f.val.dim 1

/-- `np.delete(a, l, axis=1)` (auxiliary_functions.py:154) -/
def Arr.deleteCol {α : Type} (a : Arr α) (l : Nat) : Arr α :=
  ⟨[a.dim 0, a.dim 1 - 1], fun i => a [i.getD 0 0, if i.getD 1 0 < l then i.getD 1 0 else i.getD 1 0 + 1]⟩

/-- `a[:, l] = v` (auxiliary_functions.py:159) -/
def Arr.setCol {α : Type} (a : Arr α) (l : Nat) (v : α) : Arr α :=
  ⟨a.shape, fun i => if i.getD 1 0 = l then v else a i⟩

/-- auxiliary_functions.py:148-154 -/
def remove_dimension (l_prime : Nat) (layer : List Fac) : List Fac :=
  layer.map fun f => { f with val := f.val.deleteCol l_prime }

/-- auxiliary_functions.py:157-159 -/
def reset_dimension (l_prime : Nat) (layer : List Fac) : List Fac :=
  layer.map fun f => { f with val := f.val.setCol l_prime (-1) }

/-- the two functions that `cleaning_action` may be (auxiliary_functions.py:107-110) -/
inductive CleanAction
  | reset | remove

/-- auxiliary_functions.py:107-110: the local variable is unbound if both flags are false -/
def cleaning_action (reset clean : Bool) : Option CleanAction :=
  if reset then some .reset else if clean then some .remove else none

/-- calling `cleaning_action(l, layer)`. Deleting a column that does not exist is an error of numpy; the loops only
pass existing ones of the first factor. (auxiliary_functions.py:119, 131) -/
def CleanAction.run : Option CleanAction → Nat → List Fac → Except Err (List Fac)
  | none, _, _ => .error .unboundLocal
  | some .reset, l, layer => .ok (reset_dimension l layer)
  | some .remove, l, layer => .ok (remove_dimension l layer)

/-- auxiliary_functions.py:118: some factor's column `l` is all -1 -/
def inactive (layer : List Fac) (l : Nat) : Bool :=
  layer.any fun f => (List.range (f.val.dim 0)).all fun i => f.val [i, l] = -1

/-- auxiliary_functions.py:128-129: columns `l` and `l_prime` of some factor are equal -/
def duplicate (layer : List Fac) (l l_prime : Nat) : Bool :=
  layer.any fun f => (List.range (f.val.dim 0)).all fun i => f.val [i, l] = f.val [i, l_prime]

theorem layerSize_run {a : Option CleanAction} {l : Nat} {layer layer' : List Fac} (h : CleanAction.run a l layer = .ok layer') :
    layerSize layer' ≤ layerSize layer := by
  match a with
  | none => simp [CleanAction.run] at h
  | some .reset =>
    simp only [CleanAction.run, Except.ok.injEq] at h
    subst h
    cases layer <;> simp [layerSize, reset_dimension, Arr.setCol, Arr.dim]
  | some .remove =>
    simp only [CleanAction.run, Except.ok.injEq] at h
    subst h
    cases layer <;> simp [layerSize, remove_dimension, Arr.deleteCol, Arr.dim]

/-- auxiliary_functions.py:116-121: the first loop, from `l` on -/
def cleanInactive (a : Option CleanAction) (l : Nat) (layer : List Fac) (reduction_applied : Bool) :
    Except Err (List Fac × Bool) :=
  if l < layerSize layer then
    if inactive layer l then
      match h : CleanAction.run a l layer with
      | .error e => .error e
      | .ok layer' => cleanInactive a (l + 1) layer' true
    else cleanInactive a (l + 1) layer reduction_applied
  else .ok (layer, reduction_applied)
termination_by layerSize layer - l
decreasing_by
  · have := layerSize_run h; omega
  · omega

/-- auxiliary_functions.py:127-133: the inner of the two loops that search duplicates, from `l_prime` on -/
def cleanDupInner (a : Option CleanAction) (l l_prime : Nat) (layer : List Fac) (reduction_applied : Bool) :
    Except Err (List Fac × Bool) :=
  if l_prime < layerSize layer then
    if duplicate layer l l_prime then
      match h : CleanAction.run a l_prime layer with
      | .error e => .error e
      | .ok layer' => cleanDupInner a l (l_prime + 1) layer' true
    else cleanDupInner a l (l_prime + 1) layer reduction_applied
  else .ok (layer, reduction_applied)
termination_by layerSize layer - l_prime
decreasing_by
  · have := layerSize_run h; omega
  · omega

theorem layerSize_dupInner {a : Option CleanAction} {l l' : Nat} {layer : List Fac} {b : Bool} {r : List Fac × Bool}
    (h : cleanDupInner a l l' layer b = .ok r) : layerSize r.1 ≤ layerSize layer := by
  fun_induction cleanDupInner a l l' layer b with
  | case1 l' layer b h1 h2 e h3 => simp at h
  | case2 l' layer b h1 h2 layer' h3 ih => exact Nat.le_trans (ih h) (layerSize_run h3)
  | case3 l' layer b h1 h2 ih => exact ih h
  | case4 l' layer b h1 =>
    simp only [Except.ok.injEq] at h
    subst h
    exact Nat.le_refl _

/-- auxiliary_functions.py:124-134: both loops that search duplicates, from `l` on -/
def cleanDup (a : Option CleanAction) (l : Nat) (layer : List Fac) (reduction_applied : Bool) :
    Except Err (List Fac × Bool) :=
  if l < layerSize layer then
    match h : cleanDupInner a l (l + 1) layer reduction_applied with
    | .error e => .error e
    | .ok r => cleanDup a (l + 1) r.1 r.2
  else .ok (layer, reduction_applied)
termination_by layerSize layer - l
decreasing_by
  have := layerSize_dupInner h; omega

/-- auxiliary_functions.py:100-145 `clean_up_codes(layer, reset, clean)`: the layer afterwards and the return value -/
def clean_up_codes (layer : List Fac) (reset clean : Bool) : Except Err (List Fac × Bool) := do
  let a := cleaning_action reset clean
  let r ← cleanInactive a 0 layer false
  cleanDup a 0 r.1 r.2

end LFM

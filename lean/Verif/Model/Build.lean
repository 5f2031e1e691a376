import Mathlib.Data.Real.Basic
import Verif.Model.Lom

/-!
# Model of the arrays behind matrices: `MachineMatrix.__init__`, `Machine.add_matrix`, `Machine.add_layer`

Arrays live at addresses, some of them created by the caller, and matrices of any number of machines refer to them.
What samplers write is left open: any values. Arrays of floats are taken to hold integers.
-/

namespace LFM

/-- dtypes of numpy arrays (machine.py:535 tests for int8) -/
inductive DType
  | bool | int8 | int32 | int64 | float64
  deriving DecidableEq, Repr

/-- a numpy array (`val` of machine.py:206-230) -/
structure NpArr where
  dtype : DType
  arr : Arr Int

/-- `mat.val` (an address) and `mat.fixed` (machine.py:224, 235) -/
structure MatRef where
  val : Nat
  fixed : Bool

/-- all arrays and all matrices in the order of creation (machine.py:457-468) -/
structure Session where
  mem : Nat → NpArr
  next : Nat
  mats : List MatRef

/-- what the caller does (machine.py:271-273, 487-542) -/
inductive BAct
  /-- creates an array -/
  | alloc (a : NpArr)
  /-- writes into an array -/
  | write (addr : Nat) (f : List Nat → Int)
  /-- `machine.add_matrix(val=array, fixed=fixed)` -/
  | addMatrix (addr : Nat) (fixed : Bool)
  /-- `machine.add_layer(latent_size=size, child=mats[m], model=model)` with random initial values -/
  | addLayer (m : Nat) (size : Nat) (model : String) (init : Nat → List Nat → Int)
  /-- inference samples matrix `m` -/
  | sample (m : Nat) (f : List Nat → Int)
  /-- `mats[m].set_to_map()` with means `mean` -/
  | setToMap (m : Nat) (mean : List Nat → ℝ)

/-- a new array (numpy; np.array of machine.py:536) -/
def Session.alloc (s : Session) (a : NpArr) : Session :=
  { s with mem := fun j => if j = s.next then a else s.mem j, next := s.next + 1 }

/-- an in-place operation on the array at `addr`; the type stays
(numpy; used by auxiliary_functions.py:932-955 and the samplers of matrix_updates_numba.py) -/
def Session.inplace (s : Session) (addr : Nat) (f : Arr Int → Arr Int) : Session :=
  { s with mem := fun j => if j = addr then { s.mem addr with arr := f (s.mem addr).arr } else s.mem j }

/-- machine.py:206-240 `MachineMatrix.__init__` for an ndarray (line 223: no copy) -/
def Session.machineMatrix (s : Session) (addr : Nat) (fixed : Bool) : Session :=
  { s with mats := s.mats ++ [⟨addr, fixed⟩] }

/-- machine.py:533-542 `add_matrix`: lines 535-536 copy arrays of other types than int8 -/
def Session.addMatrix (s : Session) (addr : Nat) (fixed : Bool) : Session :=
  if (s.mem addr).dtype ≠ .int8 then
    (s.alloc ⟨.int8, (s.mem addr).arr.map wrap8⟩).machineMatrix s.next fixed
  else s.machineMatrix addr fixed

/-- machine.py:509-511, one factor per axis, each with a new array (line 228) -/
def Session.addFactors (s : Session) (size : Nat) (init : Nat → List Nat → Int) : List Nat → Nat → Session
  | [], _ => s
  | K :: shape, i => ((s.alloc ⟨.int8, ⟨[K, size], init i⟩⟩).machineMatrix s.next false).addFactors size init shape (i + 1)

/-- machine.py:487-531 `add_layer` with a given child; an unknown model raises an exception, which the caller catches -/
def Session.addLayer (s : Session) (m size : Nat) (model : String) (init : Nat → List Nat → Int) : Session :=
  match s.mats[m]? with
  | none => s
  | some mat =>
    match canonise_model model (some (s.mem mat.val).arr) with
    | (some v, .ok _) => (s.inplace mat.val fun _ => v).addFactors size init (s.mem mat.val).arr.shape 0
    | _ => s

/-- one action. Fixed matrices are not sampled (machine.py:686); `set_to_map` (machine.py:271-273) creates an array. -/
noncomputable def Session.step (s : Session) : BAct → Session
  | .alloc a => s.alloc a
  | .write addr f => s.inplace addr fun a => ⟨a.shape, f⟩
  | .addMatrix addr fixed => s.addMatrix addr fixed
  | .addLayer m size model init => s.addLayer m size model init
  | .sample m f =>
    match s.mats[m]? with
    | some mat => if mat.fixed then s else s.inplace mat.val fun a => ⟨a.shape, f⟩
    | none => s
  | .setToMap m mean =>
    match s.mats[m]? with
    | some mat =>
      { s.alloc ⟨.int8, ⟨(s.mem mat.val).arr.shape, fun i => if mean i > 0 then 1 else -1⟩⟩ with
        mats := s.mats.set m { mat with val := s.next } }
    | none => s

/-- a history of actions (machine.py:455-775) -/
noncomputable def Session.run (s : Session) (h : List BAct) : Session := h.foldl Session.step s

/-- at the beginning there is nothing (machine.py:457-468) -/
def Session.empty : Session := ⟨fun _ => ⟨.int8, Arr.full [] 0⟩, 0, []⟩

end LFM

/-!
# Python / numpy / numba vocabulary used by the model

* `Arr α` is a numpy array: a shape and a function from index lists to values. `Z [n, l]` reads like
  Python's `Z[n, l]`. Reads outside the shape return some value, as unchecked numba reads do;
  theorems state the shapes they need.
* machine integers: `wrap8/16/64` is two's-complement wrap-around.
* Python strings: `pySplitDash` is `s.split('-')`, `pyDashToUnderscore` is `s.replace('-', '_')`.
-/

namespace LFM

/-- numpy array: shape and element access (indices are lists of naturals, one per axis). -/
structure Arr (α : Type) where
  shape : List Nat
  get : List Nat → α

instance {α : Type} : CoeFun (Arr α) (fun _ => List Nat → α) := ⟨Arr.get⟩

namespace Arr
variable {α β : Type}

/-- `a.shape[i]` -/
def dim (a : Arr α) (i : Nat) : Nat := a.shape.getD i 0

/-- `a[n, ...]` : drop the first axis at index `n` -/
def row (a : Arr α) (n : Nat) : Arr α := ⟨a.shape.tail, fun i => a.get (n :: i)⟩

/-- `a[:, l]` of a two-dimensional array -/
def col (a : Arr α) (l : Nat) : Arr α := ⟨[a.dim 0], fun i => a.get (i ++ [l])⟩

/-- in-place write `a[idx] = v` -/
def set (a : Arr α) (idx : List Nat) (v : α) : Arr α :=
  ⟨a.shape, fun i => if i = idx then v else a.get i⟩

/-- elementwise map, e.g. `2 * a - 1` -/
def map (f : α → β) (a : Arr α) : Arr β := ⟨a.shape, fun i => f (a.get i)⟩

/-- `a.transpose(order)`: axis `i` of the result is axis `order[i]` of `a`, i.e. the result at
`idx` is `a` at the index whose `order[i]`-th component is `idx[i]`. -/
def transpose (a : Arr α) (order : List Nat) : Arr α :=
  ⟨order.map (fun k => a.dim k),
   fun idx => a.get ((List.range order.length).map (fun k => idx.getD (order.idxOf k) 0))⟩

/-- `np.full(shape, v)` -/
def full (shape : List Nat) (v : α) : Arr α := ⟨shape, fun _ => v⟩

/-- `np.array([x0, x1, ...])` -/
def vec (xs : List α) (dflt : α) : Arr α := ⟨[xs.length], fun i => xs.getD (i.getD 0 0) dflt⟩

/-- `np.array([[...], [...], ...])` with `c` columns -/
def mat (c : Nat) (xss : List (List α)) (dflt : α) : Arr α :=
  ⟨[xss.length, c], fun i => (xss.getD (i.getD 0 0) []).getD (i.getD 1 0) dflt⟩

end Arr

/-- `idx` is a valid index for an array of shape `shape`. -/
def InB : (shape idx : List Nat) → Prop
  | [], [] => True
  | d :: ds, i :: is => i < d ∧ InB ds is
  | _, _ => False

/-- all valid indices of a shape in row-major order (`np.ndenumerate`, `itertools.product`). -/
def indices : List Nat → List (List Nat)
  | [] => [[]]
  | d :: ds => (List.range d).flatMap (fun i => (indices ds).map (fun is => i :: is))

/-- two's complement wrap-around to int8 -/
def wrap8 (x : Int) : Int := Int.bmod x 256
/-- two's complement wrap-around to int16 -/
def wrap16 (x : Int) : Int := Int.bmod x 65536
/-- two's complement wrap-around to int64 -/
def wrap64 (x : Int) : Int := Int.bmod x 18446744073709551616

/-- Python exceptions, by class name (plus the two kinds numba raises while compiling). -/
inductive Err
  | valueError | attributeError | notImplemented | assertionError | unboundLocal
  | zeroDivision | indexError | nameError | typingError
  deriving DecidableEq, Repr

/-- split a list of characters at a separator (`str.split(sep)`) -/
def splitChars (c : Char) : List Char → List (List Char)
  | [] => [[]]
  | x :: xs =>
    if x = c then [] :: splitChars c xs
    else match splitChars c xs with
      | [] => [[x]]
      | y :: ys => (x :: y) :: ys

/-- `s.split('-')` -/
def pySplitDash (s : String) : List String := (splitChars '-' s.toList).map String.ofList

/-- `s.replace('-', '_')` -/
def pyDashToUnderscore (s : String) : String :=
  String.ofList (s.toList.map fun c => if c = '-' then '_' else c)

/-- `s[-2:]` -/
def pyLastTwo (s : String) : String :=
  String.ofList (s.toList.drop (s.toList.length - 2))

end LFM

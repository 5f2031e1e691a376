import Verif.Py
import Mathlib.Data.List.Sort

/-!
# Model of `intersect_dataframes` (lom/auxiliary_functions.py, lines 592-613)

Labels of rows and columns are natural numbers (pandas: any labels that can be compared). The order in which Python goes
through a set is arbitrary: the list of joint columns is an argument, constrained by `IsSetOrder`. `sort_index` is modelled
by a stable sort; the order of rows with equal labels plays no role below.
-/

namespace LFM

/-- a data frame: labels of the columns, and rows with their labels (pandas, auxiliary_functions.py:592) -/
structure Frame (α : Type) where
  columns : List Nat
  rows : List (Nat × List α)

/-- `A.index` (auxiliary_functions.py:597) -/
def Frame.index {α : Type} (A : Frame α) : List Nat := A.rows.map (·.1)

/-- `order` is a possible result of `list(set(a).intersection(b))` (auxiliary_functions.py:597, 601) -/
def IsSetOrder (order a b : List Nat) : Prop := order.Nodup ∧ ∀ x, x ∈ order ↔ x ∈ a ∧ x ∈ b

/-- `A[A.index.isin(labels)]` (auxiliary_functions.py:598-599) -/
def Frame.keepRows {α : Type} (A : Frame α) (labels : List Nat) : Frame α :=
  { A with rows := A.rows.filter fun r => decide (r.1 ∈ labels) }

/-- positions of the columns with the labels `cs`, in the order of `cs` (auxiliary_functions.py:602-603) -/
def Frame.positions {α : Type} (A : Frame α) (cs : List Nat) : List Nat :=
  cs.flatMap fun c => (List.range A.columns.length).filter fun j => decide (A.columns[j]? = some c)

/-- `A[cs]` for a list of labels that all exist (auxiliary_functions.py:602-603) -/
def Frame.select {α : Type} (A : Frame α) (cs : List Nat) : Frame α :=
  { columns := (A.positions cs).filterMap fun j => A.columns[j]?
    rows := A.rows.map fun r => (r.1, (A.positions cs).filterMap fun j => r.2[j]?) }

/-- `A.sort_index()` (auxiliary_functions.py:605-606) -/
def Frame.sort_index {α : Type} (A : Frame α) : Frame α :=
  { A with rows := A.rows.insertionSort fun r s => r.1 ≤ s.1 }

/-- `assert np.all(a == b)` for two indices: of different lengths they cannot be compared, ValueError
(auxiliary_functions.py:608-609) -/
def assertSame (a b : List Nat) : Except Err Unit :=
  if a.length ≠ b.length then .error .valueError else if a = b then .ok () else .error .assertionError

/-- auxiliary_functions.py:597-606: the two frames before the assertions; `rows` and `cols` are the sets of joint labels in
some order -/
def intersected {α : Type} (rows cols : List Nat) (A : Frame α) : Frame α :=
  ((A.keepRows rows).select cols).sort_index

/-- auxiliary_functions.py:592-613 `intersect_dataframes`. Line 611 uses a variable `mut` that is not defined anywhere. -/
def intersect_dataframes {α : Type} (rows cols : List Nat) (A B : Frame α) : Except Err (Frame α × Frame α) := do
  let A := intersected rows cols A
  let B := intersected rows cols B
  assertSame A.index B.index
  assertSame A.columns B.columns
  throw .nameError

end LFM

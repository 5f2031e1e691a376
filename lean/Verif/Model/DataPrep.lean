import Verif.Py
import Mathlib.Analysis.SpecialFunctions.Pow.Real
import Mathlib.Algebra.Order.Floor.Ring

/-!
# Model of the data preparation functions

`lom/auxiliary_functions.py` (`unique_ordered`, `get_roc_auc`, `split_test_train`, `check_binary_coding`,
`boolean_tensor_product`, `add_bernoulli_noise*`, `all_columsn_are_disjoint`, `generate_orm_product`,
`find_centers_of_ordered_list`) and `lom/experiments.py` (`generate_random_tensor`, `split_train_test`,
`split_tensor_train_test_old`).

Arrays are values, so an update of a copy cannot affect the original; where the code works in place the function
returns the new array. `np.random.choice(range(n), k, replace=False)` is an argument: a list of `k` distinct numbers
below `n` (`Choice`), and `choiceCheck` is its error branch.
-/

namespace LFM

/-- `int(x)` of a float: truncation towards zero (auxiliary_functions.py:353-355, experiments.py:245) -/
noncomputable def pyInt (x : ℝ) : Int := if x < 0 then ⌈x⌉ else ⌊x⌋

/-- a possible result of `np.random.choice(range(n), k, replace=False)`
(auxiliary_functions.py:345, 352-355, experiments.py:245) -/
structure Choice (n : Nat) (k : Int) (draw : List Nat) : Prop where
  length : (draw.length : Int) = k
  nodup : draw.Nodup
  lt : ∀ i ∈ draw, i < n

/-- `np.random.choice(range(n), k, replace=False)` fails if there are fewer than `k` numbers or `k` is negative
(auxiliary_functions.py:345, 352-355, experiments.py:245) -/
def choiceCheck (n : Nat) (k : Int) : Except Err Unit :=
  if k < 0 ∨ (n : Int) < k then .error .valueError else .ok ()

/-- auxiliary_functions.py:91-97 `unique_ordered`; `seen_add(x)` is `None`, hence false -/
def unique_ordered {α : Type} [DecidableEq α] (seq : List α) : List α := Id.run do
  let mut seen : List α := []
  let mut out : List α := []
  for x in seq do
    if x ∈ seen then
      pure ()
    else
      seen := x :: seen
      out := out ++ [x]
  return out

/-- auxiliary_functions.py:1202-1218. `pandas.unique` returns the distinct elements in order of appearance;
`int(np.mean(idxs))` of integers is the integer quotient. -/
def find_centers_of_ordered_list {α : Type} [DecidableEq α] (ls : List α) : List Nat :=
  (unique_ordered ls).map fun u =>
    let idxs := (List.range ls.length).filter fun index => ls[index]? = some u
    idxs.sum / idxs.length

/-- `-1 in np.unique(data)` (auxiliary_functions.py:337, 475) -/
def hasMinusOne (data : Arr Int) : Bool := (indices data.shape).any fun i => data i = -1

/-- auxiliary_functions.py:469-478 `check_binary_coding` -/
def check_binary_coding (data : Arr Int) : Arr Int :=
  let data := if hasMinusOne data then data else data.map fun x => 2 * x - 1
  data.map wrap8

/-- auxiliary_functions.py:329-363 `split_test_train` of a matrix; the two draws of `np.random.choice` are arguments -/
noncomputable def split_test_train (data : Arr Int) (p : ℝ) (true_random_idx false_random_idx : List Nat) :
    Except Err (Arr Int) := do
  let data := if hasMinusOne data then data else data.map fun x => 2 * x - 1
  let num_of_zeros : ℝ := (data.shape.prod : ℝ) * p
  let index_pairs := indices [data.dim 0, data.dim 1]
  let true_index_pairs := index_pairs.filter fun x => data x = 1
  let false_index_pairs := index_pairs.filter fun x => data x = -1
  choiceCheck true_index_pairs.length (pyInt (num_of_zeros / 2))
  choiceCheck false_index_pairs.length (pyInt (num_of_zeros / 2))
  let zero_idx := true_random_idx.map (fun i => true_index_pairs.getD i []) ++
    false_random_idx.map (fun i => false_index_pairs.getD i [])
  pure (zero_idx.foldl (fun data_train ij => data_train.set ij 0) data)

/-- experiments.py:162-232 `split_train_test`: training tensor and mask. `maskDraw` is the result of
`np.random.choice([True, False], size=shape, p=[p, 1 - p])`, which fails unless `0 ≤ p ≤ 1`; `p` is infinite or not a
number if nothing is observed. `np.nonzero` lists the positions in row-major order. -/
noncomputable def split_train_test (tensor : Arr Int) (split : ℝ) (balanced : Bool) (maskDraw : List Nat → Bool)
    (p_draw n_draw : List Nat) : Except Err (Arr Int × Arr Bool) := do
  let nonzero : Nat := (indices tensor.shape).countP fun i => tensor i ≠ 0
  let num_split := pyInt (nonzero * split)
  if num_split < 0 then throw .valueError      -- np.zeros with a negative dimension, line 173
  let mask : Arr Bool ← (do
    if balanced = false then
      if nonzero = 0 then throw .valueError
      let p : ℝ := split / (1 - ((indices tensor.shape).countP (fun i => tensor i = 0) : ℝ) / tensor.shape.prod)
      if p < 0 ∨ 1 < p then throw .valueError
      pure ⟨tensor.shape, fun i => if tensor i = 0 then false else maskDraw i⟩
    else
      let S := pyInt (nonzero * split * 0.5)
      let pos := (indices tensor.shape).filter fun i => tensor i = 1
      let neg := (indices tensor.shape).filter fun i => tensor i = -1
      if ¬ (S : ℝ) / 2 < pos.length then throw .assertionError
      if ¬ (S : ℝ) / 2 < neg.length then throw .assertionError
      choiceCheck pos.length S
      choiceCheck neg.length S
      let mask := (n_draw.map fun k => neg.getD k []).foldl (fun (m : Arr Bool) i => m.set i true)
        (Arr.full tensor.shape false)
      pure ((p_draw.map fun k => pos.getD k []).foldl (fun m i => m.set i true) mask))
  pure (⟨tensor.shape, fun i => if mask i then 0 else tensor i⟩, mask)

/-- experiments.py:235-256 `split_tensor_train_test_old` of an int8 tensor -/
noncomputable def split_tensor_train_test_old (tensor : Arr Int) (split : ℝ) (rand_idx : List Nat) :
    Except Err (Arr Int × Arr Bool) := do
  let num_data_points := tensor.shape.prod
  choiceCheck num_data_points (pyInt (split * num_data_points))
  let wher := (indices tensor.shape).filter fun i => tensor i ≠ 0
  let rand_tensor_idx := (List.range wher.length).filter (fun i => i ∈ rand_idx) |>.map fun i => wher.getD i []
  let test_mask := rand_tensor_idx.foldl (fun (m : Arr Bool) idx => m.set idx true) (Arr.full tensor.shape false)
  pure (⟨tensor.shape, fun i => if test_mask i then 0 else tensor i⟩, test_mask)

/-- numpy's global random generator: `np.random.seed`, `np.random.rand()`, `np.random.randint(n)`
(auxiliary_functions.py:531, 542, 548, 557, 570) -/
structure Rng (σ : Type) where
  seed : Nat → σ
  rand : σ → ℝ × σ
  randint : Nat → σ → Nat × σ

/-- the `for` loops of auxiliary_functions.py:528-532, 546-549 over the listed cells; `neg` is `~` or `-` -/
noncomputable def noiseLoop {σ α : Type} (g : Rng σ) (neg : α → α) (p : ℝ) : List (List Nat) → Arr α → σ → Arr α × σ
  | [], X, s => (X, s)
  | idx :: rest, X, s =>
    let r := g.rand s
    noiseLoop g neg p rest (if r.1 < p then X.set idx (neg (X idx)) else X) r.2

/-- auxiliary_functions.py:524-534 `add_bernoulli_noise` of a three-dimensional array; `neg` is `~` of its dtype -/
noncomputable def add_bernoulli_noise {σ α : Type} (g : Rng σ) (neg : α → α) (X : Arr α) (p : ℝ) (s : σ) : Arr α × σ :=
  noiseLoop g neg p (indices [X.dim 0, X.dim 1, X.dim 2]) X s

/-- `~x` for integers (auxiliary_functions.py:532) -/
def intInvert (x : Int) : Int := -x - 1

/-- auxiliary_functions.py:537-550 `add_bernoulli_noise_2d` -/
noncomputable def add_bernoulli_noise_2d {σ : Type} (g : Rng σ) (X : Arr Int) (p : ℝ) (seed : Option Nat) (s : σ) :
    Arr Int × σ :=
  let s := match seed with
    | none => g.seed (g.randint 10000 s).1
    | some _ => s
  noiseLoop g (fun x => -x) p (indices [X.dim 0, X.dim 1]) X s

/-- the loops of auxiliary_functions.py:560-571; `p` keeps its value from one cell to the next -/
noncomputable def noiseLoopBiased {σ : Type} (g : Rng σ) (p_plus p_minus : ℝ) :
    List (List Nat) → Option ℝ → Arr Int → σ → Except Err (Arr Int × σ)
  | [], _, X, s => .ok (X, s)
  | idx :: rest, p, X, s =>
    let p := if X idx = 1 then some p_plus else p
    if X idx = 0 then noiseLoopBiased g p_plus p_minus rest p X s
    else
      let p := if X idx = -1 then some p_minus else p
      match p with
      | none => .error .unboundLocal
      | some q =>
        let r := g.rand s
        noiseLoopBiased g p_plus p_minus rest p (if r.1 < q then X.set idx (-(X idx)) else X) r.2

/-- auxiliary_functions.py:554-573 `add_bernoulli_noise_2d_biased` -/
noncomputable def add_bernoulli_noise_2d_biased {σ : Type} (g : Rng σ) (X : Arr Int) (p_plus p_minus : ℝ)
    (seed : Option Nat) (s : σ) : Except Err (Arr Int × σ) :=
  let s := match seed with
    | none => g.seed (g.randint 10000 s).1
    | some _ => s
  noiseLoopBiased g p_plus p_minus (indices [X.dim 0, X.dim 1]) none X s

/-- auxiliary_functions.py:616-624 `all_columsn_are_disjoint` -/
def all_columsn_are_disjoint (mat : Arr Int) : Bool :=
  ! ((List.range (mat.dim 1)).any fun i => (List.range (mat.dim 1)).any fun j =>
    decide (i ≠ j) && (List.range (mat.dim 0)).all fun n => decide (mat [n, i] = 1 → mat [n, j] = 1))

/-- auxiliary_functions.py:638-642 `disjoint_columns_mat(K, L)`: `rand t` is the array drawn in the `t`-th round.
`none` is a loop that never ends. -/
noncomputable def disjoint_columns_mat (K L : Nat) (rand : Nat → List Nat → ℝ) : Option (Arr Int) :=
  let mat := fun t => (⟨[K, L], fun i => if 0.5 < rand t i then 1 else 0⟩ : Arr Int)
  open Classical in
  if h : ∃ t, all_columsn_are_disjoint (mat t) = true then some (mat (Nat.find h)) else none

/-- auxiliary_functions.py:631-654 `generate_orm_product`: `U, Z, X`; the dot product of Boolean matrices is the
Boolean product -/
noncomputable def generate_orm_product (N D L : Nat) (randU randZ : Nat → List Nat → ℝ) :
    Option (Arr Int × Arr Int × Arr Int) := do
  let U ← disjoint_columns_mat D L randU
  let Z ← disjoint_columns_mat N L randZ
  let X : Arr Int := ⟨[N, D], fun i =>
    if (List.range L).any fun l => decide (Z [i.getD 0 0, l] = 1) && decide (U [i.getD 1 0, l] = 1) then 1 else 0⟩
  let recode := fun x : Int => 2 * x - 1
  pure (U.map recode, Z.map recode, X.map recode)

/-- auxiliary_functions.py:508, 513-521: the loops of `boolean_tensor_product`; `True` is 1 -/
def boolean_tensor_cells (Z U V : Arr Int) : Arr Bool := Id.run do
  let mut X : Arr Bool := Arr.full [Z.dim 0, U.dim 0, V.dim 0] false
  for n in List.range (Z.dim 0) do
    for d in List.range (U.dim 0) do
      for m in List.range (V.dim 0) do
        if (List.range (Z.dim 1)).any fun l =>
            decide (Z [n, l] = 1) && decide (U [d, l] = 1) && decide (V [m, l] = 1) then
          X := X.set [n, d, m] true
  return X

/-- auxiliary_functions.py:498-521 `boolean_tensor_product` -/
def boolean_tensor_product (Z U V : Arr Int) : Except Err (Arr Bool) := do
  let L := Z.dim 1
  if U.dim 1 ≠ L then throw .assertionError
  if V.dim 1 ≠ L then throw .assertionError
  pure (boolean_tensor_cells Z U V)

/-- experiments.py:24-25: the required factor density; `1 / L` fails for `L = 0` -/
noncomputable def required_factor_density (density : ℝ) (L : Nat) : Except Err ℝ :=
  if L = 0 then .error .zeroDivision
  else .ok ((1 - (1 - density) ^ ((1 : ℝ) / L)) ^ ((1 : ℝ) / 3))

/-- `np.array(np.random.rand(N, L) > (1 - f), dtype=bool)` as 0/1, experiments.py:29-31 -/
noncomputable def randFactor (N L : Nat) (f : ℝ) (rand : List Nat → ℝ) : Arr Int :=
  ⟨[N, L], fun i => if 1 - f < rand i then 1 else 0⟩

/-- experiments.py:14-39 `generate_random_tensor`: noisy tensor, tensor, factors, factor density -/
noncomputable def generate_random_tensor {σ : Type} (g : Rng σ) (L N D M : Nat) (noise density : ℝ)
    (randZ randU randV : List Nat → ℝ) (s : σ) :
    Except Err (Arr Bool × Arr Bool × (Arr Int × Arr Int × Arr Int) × ℝ) := do
  let f ← required_factor_density density L
  let Z := randFactor N L f randZ
  let U := randFactor D L f randU
  let V := randFactor M L f randV
  let X ← boolean_tensor_product Z U V
  pure ((add_bernoulli_noise g not X noise s).1, X, (Z, U, V), f)

/-- a Python iterator: what is left (auxiliary_functions.py:284) -/
structure Iter (α : Type) where
  left : List α

/-- a list comprehension over an iterator uses it up (auxiliary_functions.py:286) -/
def Iter.comprehension {α β : Type} (it : Iter α) (f : α → β) : List β × Iter α := (it.left.map f, ⟨[]⟩)

/-- auxiliary_functions.py:278-288 `get_roc_auc`: the two arguments of `roc_auc_score` -/
def get_roc_auc_args (data data_train : Arr Int) (prediction : Arr ℝ) : List Bool × List ℝ :=
  let zero_idx : Iter (List Nat) := ⟨(indices data_train.shape).filter fun i => data_train i = 0⟩
  let labels := zero_idx.comprehension fun ij => decide (data ij = 1)
  let scores := labels.2.comprehension fun ij => prediction ij
  (labels.1, scores.1)

end LFM

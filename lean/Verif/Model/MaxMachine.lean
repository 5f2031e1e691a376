import Mathlib.Data.Int.Log
import Mathlib.Analysis.SpecialFunctions.Log.Basic
import Verif.Model.LomOutputs
import Verif.Model.MatrixUpdates

/-!
# Model of the MAX-AND machine

`lom/_numba/max_machine_sampler.py` lines 13-166 and 273-285, `MAX_AND_product_2d`
(`lom/_numba/lom_outputs.py` lines 254-262) and the MAX-AND branch of `get_sampling_fct`
(`lom/matrix_update_wrappers.py` lines 48-57).

float32/float64 are real numbers. `np.argsort` (unstable quicksort) returns *some* ascending order: it is
an argument `order` of the functions below, constrained by `IsArgsort`. The cast of `l_order` to `int8`
(matrix_update_wrappers.py:49) is not modelled, i.e. fewer than 128 latent dimensions are assumed.
-/

namespace LFM

/-- `order` is a possible result of `np.argsort(keys)` with `keys = [key 0, ..., key (n-1)]`
(numpy, matrix_update_wrappers.py:49) -/
def IsArgsort (key : Nat → ℝ) (n : Nat) (order : List Nat) : Prop :=
  order.Perm (List.range n) ∧ order.Pairwise fun i j => key i ≤ key j

/-- lom_outputs.py:254-262 `MAX_AND_product_2d([Z, U], lbdas)`; `order` is `np.argsort(lbdas[:-1])`.
`out[out == 0] = temp[out == 0]` is written cell by cell. -/
noncomputable def MAX_AND_product_2d (Z U : Arr Int) (lbdas : Arr ℝ) (order : List Nat) : Arr ℝ :=
  Id.run do
  let mut out : Arr ℝ := Arr.full [Z.dim 0, U.dim 0] 0
  for l_idx in order do
    let temp : Arr ℝ := (OR_AND_product_expand (Z.col l_idx) (U.col l_idx)).map
      fun (b : Int) => lbdas [l_idx] * (b : ℝ)
    let prev := out
    out := ⟨prev.shape, fun i => if prev i = 0 then temp i else prev i⟩
  return out

/-- max_machine_sampler.py:273-285 `maxmachine_forward_pass(u, z, alpha)`; `order` is
`np.argsort(-alpha[:-1])`, the factors hold numbers. `x[x==0] += ...[x==0]` adds to cells that are 0. -/
noncomputable def maxmachine_forward_pass (u z alpha : Arr ℝ) (order : List Nat) : Arr ℝ := Id.run do
  let mut x : Arr ℝ := Arr.full [z.dim 0, u.dim 0] 0
  for l in order do
    let prev := x
    x := ⟨prev.shape, fun i =>
      if prev i = 0 then prev i + alpha [l] * (z [i.getD 0 0, l] * u [i.getD 1 0, l]) else prev i⟩
  let prev := x
  x := ⟨prev.shape, fun i => if prev i = 0 then alpha [alpha.dim 0 - 1] else prev i⟩
  return x

/-- max_machine_sampler.py:145-166 `compute_lbda_ratios`: the table stored in `layer.lbda_ratios`.
`size` is `layer.size`. -/
noncomputable def compute_lbda_ratios (size : Nat) (lbda : Arr ℝ) : Arr ℝ := Id.run do
  let L := size + 1
  let mut r : Arr ℝ := Arr.full [2, L, L] 0
  for l1 in List.range L do
    for l2 in List.range (l1 + 1) do
      let lratio_p := Real.log (lbda [l1] / lbda [l2])
      let lratio_m := Real.log ((1 - lbda [l1]) / (1 - lbda [l2]))
      r := r.set [0, l1, l2] lratio_p
      r := r.set [0, l2, l1] (-lratio_p)
      r := r.set [1, l1, l2] lratio_m
      r := r.set [1, l2, l1] (-lratio_m)
  return r

/-- max_machine_sampler.py:35-69: what is added to the score for feature `d`. `l_sorted` is the
descending order of the lambdas. The `for`/`break` over older siblings is a search, the one over younger
siblings a search for the first active one. -/
noncomputable def max_and_term (Z_n U X_n : Arr Int) (L l : Nat) (l_sorted : Nat → Nat) (r : Arr ℝ)
    (d : Nat) : ℝ :=
  if U [d, l] ≠ 1 then 0
  else if (List.range l).any fun i =>
      decide (Z_n [l_sorted i] = 1 ∧ U [d, l_sorted i] = 1) then 0
  else match (List.range' (l + 1) (L - (l + 1))).find? fun i =>
      decide (Z_n [l_sorted i] = 1 ∧ U [d, l_sorted i] = 1) with
    | some i =>
      if X_n [d] = 1 then r [0, l_sorted l, l_sorted i]
      else if X_n [d] = -1 then r [1, l_sorted l, l_sorted i]
      else 0
    | none =>
      if X_n [d] = 1 then r [0, l_sorted l, L]
      else if X_n [d] = -1 then r [1, l_sorted l, L]
      else 0

/-- the value of `score` at max_machine_sampler.py:71, before it is cast to the declared return type.
(numba unifies the type of `score`, initialised as an int32 and incremented by float32, to float64.) -/
noncomputable def max_and_score (Z_n U X_n : Arr Int) (l : Nat) (l_sorted : Nat → Nat) (r : Arr ℝ) : ℝ :=
  ((List.range (U.dim 0)).map (max_and_term Z_n U X_n (U.dim 1) l l_sorted r)).sum

/-- C cast of a float to an integer: truncation towards zero
(the signature `int32(...)` of max_machine_sampler.py:24) -/
noncomputable def truncToInt (x : ℝ) : Int := if 0 ≤ x then ⌊x⌋ else ⌈x⌉

/-- max_machine_sampler.py:24-71 `posterior_score_MAX_AND_2D`, declared to return an `int32` -/
noncomputable def posterior_score_MAX_AND_2D (Z_n U X_n : Arr Int) (l : Nat) (l_sorted : List Nat)
    (r : Arr ℝ) : Int :=
  truncToInt (max_and_score Z_n U X_n l (fun i => l_sorted.getD i 0) r)

/-- max_machine_sampler.py:13-21 `draw_MAX_AND_2D` -/
noncomputable def draw_MAX_AND_2D (Z Z_fixed U X : Arr Int) (l_sorted : List Nat) (r : Arr ℝ)
    (rnd : Rnd) : Arr Int := Id.run do
  let N := Z.dim 0
  let L := Z.dim 1
  let mut Z := Z
  for n in List.range N do
    for l in List.range L do
      if Z_fixed [n, l] = 1 then
        continue
      let logit_p := posterior_score_MAX_AND_2D (Z.row n) U (X.row n) l l_sorted r
      Z := Z.set [n, l] (flip_metropolised_gibbs_numba logit_p (Z [n, l]) (rnd [n, l]))
  return Z

/-- `np.count_nonzero` of a Boolean `N × D` matrix (max_machine_sampler.py:94-95, 117-120, 126-127) -/
def countCells (N D : Nat) (p : Nat → Nat → Bool) : Int :=
  ((indices [N, D]).countP fun i => p (i.getD 0 0) (i.getD 1 0) : Nat)

/-- `np.argmax(xs)`: the first index of a largest element (max_machine_sampler.py:103) -/
noncomputable def argmax (xs : List ℝ) : Nat := xs.idxOf (xs.foldl max (xs.getD 0 0))

/-- `np.min(a)` of a one-dimensional array (max_machine_sampler.py:134-137) -/
noncomputable def npMin (a : Arr ℝ) : ℝ := ((List.range (a.dim 0)).map fun i => a [i]).foldl min (a [0])

/-- local variables of `lbda_MAX_AND` that change in the loop (max_machine_sampler.py:88-123) -/
structure MaxState where
  l_list : List Nat
  TP : List Int
  FP : List Int
  mask : Nat → Nat → Bool
  lbda : Arr ℝ

/-- max_machine_sampler.py:91-92 -/
def max_predictions (Z U : Arr Int) (l n d : Nat) : Bool :=
  OR_AND_product_expand (Z.col l) (U.col l) [n, d] = 1

/-- max_machine_sampler.py:88-95: initial values -/
def maxInit (Z U X : Arr Int) (lbda : Arr ℝ) : MaxState :=
  let N := Z.dim 0
  let L := Z.dim 1
  let D := U.dim 0
  { mask := fun _ _ => false
    l_list := List.range L
    TP := (List.range L).map fun l => countCells N D fun n d =>
      max_predictions Z U l n d && X [n, d] = 1
    FP := (List.range L).map fun l => countCells N D fun n d =>
      max_predictions Z U l n d && X [n, d] = -1
    lbda := lbda }

/-- max_machine_sampler.py:99-122: one iteration. The list comprehension of line 110 drops position
`l_max_idx`, those of lines 117-120 read `TP`, `FP` with that position skipped. -/
noncomputable def maxStep (Z U X : Arr Int) (s : MaxState) : MaxState :=
  let N := Z.dim 0
  let D := U.dim 0
  let l_pp_rate := List.zipWith (fun tp fp : Int => ((tp : ℝ) + 1) / (tp + fp + 2)) s.TP s.FP
  let l_max_idx := argmax l_pp_rate
  let l_max := s.l_list.getD l_max_idx 0
  let lbda := s.lbda.set [l_max] (l_pp_rate.getD l_max_idx 0)
  let l_list := s.l_list.eraseIdx l_max_idx
  let temp_array := fun n d => max_predictions Z U l_max n d && !s.mask n d
  let temp_array1 := fun n d => temp_array n d && X [n, d] = 1
  let temp_array2 := fun n d => temp_array n d && X [n, d] = -1
  { lbda := lbda
    l_list := l_list
    TP := (List.range l_list.length).map fun l =>
      s.TP.getD (l + if l ≥ l_max_idx then 1 else 0) 0 -
        countCells N D fun n d => temp_array1 n d && max_predictions Z U (l_list.getD l 0) n d
    FP := (List.range l_list.length).map fun l =>
      s.FP.getD (l + if l ≥ l_max_idx then 1 else 0) 0 -
        countCells N D fun n d => temp_array2 n d && max_predictions Z U (l_list.getD l 0) n d
    mask := fun n d => s.mask n d || max_predictions Z U l_max n d }

/-- max_machine_sampler.py:74-141 `lbda_MAX_AND(parm, K)` for a layer with factors `Z`, `U`, data `X`
and current lambdas `lbda`: the new lambdas and the table of ratios recomputed on line 141. -/
noncomputable def lbda_MAX_AND (K : Nat) (Z U X : Arr Int) (lbda : Arr ℝ) :
    Except Err (Arr ℝ × Arr ℝ) := do
  if K ≠ 2 then throw .notImplemented
  let N := Z.dim 0
  let L := Z.dim 1
  let D := U.dim 0
  let s := (List.range L).foldl (fun s _ => maxStep Z U X s) (maxInit Z U X lbda)
  if s.l_list.length ≠ 0 then throw .assertionError
  let P_remain := countCells N D fun n d => !s.mask n d && X [n, d] = 1
  let N_remain := countCells N D fun n d => !s.mask n d && X [n, d] = -1
  let p_new : ℝ := (P_remain + 1) / (P_remain + N_remain + 2)
  let last := s.lbda.dim 0 - 1
  let mut new := s.lbda.set [last] p_new
  if new [last] ≠ npMin new then
    new := new.set [last] (npMin new)
  return (new, compute_lbda_ratios L new)

/-- the part of a MAX-AND layer's state that concerns lambdas: `layer.lbda.val` and
`layer.lbda_ratios` (max_machine_sampler.py:145-166) -/
structure MaxLayer where
  lbda : Arr ℝ
  ratios : Arr ℝ

/-- machine.py:298-299, with the initial lambdas of machine.py:514-516 -/
noncomputable def MaxLayer.init (latent_size : Nat) : MaxLayer :=
  let lbda : Arr ℝ := ⟨[latent_size + 1], fun i => if i = [latent_size] then 1 / 100 else 8 / 10⟩
  ⟨lbda, compute_lbda_ratios latent_size lbda⟩

/-- what can happen to the lambdas of a MAX-AND layer (max_machine_sampler.py:74-166, machine.py:581-601) -/
inductive MaxEvent
  /-- `layer.lbda.val = v` or `layer.lbda.val[:] = v` by the user -/
  | assign (v : Arr ℝ)
  /-- a lambda update during inference, with the factors and data of that moment -/
  | update (Z U X : Arr Int)

/-- effect of an event; a failing update leaves the layer as it is (max_machine_sampler.py:74-166) -/
noncomputable def MaxLayer.step (s : MaxLayer) : MaxEvent → MaxLayer
  | .assign v => { s with lbda := v }
  | .update Z U X =>
    match lbda_MAX_AND 2 Z U X s.lbda with
    | .ok (l, r) => ⟨l, r⟩
    | .error _ => s

end LFM

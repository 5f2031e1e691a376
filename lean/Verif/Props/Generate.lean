import Verif.Lemmas.Generate
import Verif.Props.Outputs

/-!
# C03, C04: generating data
-/

namespace LFM

open Spec

/-- all factors have `L` columns -/
def Spec.Columns (factors : List (Arr Int)) (L : Nat) : Prop := ∀ f ∈ factors, ∃ N, f.shape = [N, L]

/-- row counts of the factors: the shape of the data -/
def Spec.rowCounts (factors : List (Arr Int)) : List Nat := factors.map fun f => f.shape.headD 0

theorem rowCounts_eq {factors : List (Arr Int)} {L : Nat} (h : Columns factors L) :
    factors.map (fun x => x.dim 0) = rowCounts factors := by
  unfold rowCounts
  refine List.map_congr_left fun f hf => ?_
  obtain ⟨N, hN⟩ := h f hf
  simp [Arr.dim, hN]

/-- **C03**. For each of the 36 models and any number `K ≥ 1` of factors, `lom_generate_data` succeeds;
the shape of the result is the list of row counts and every cell is `1` if OUTER over `l` of INNER over
the factors `k` (`factors[k][idx_k, l] == 1`) holds, `-1` otherwise. -/
theorem C03_all_models_all_arities (o i : LOp) (L : Nat) (factors : List (Arr Int))
    (hne : factors ≠ []) (hcol : Columns factors L) :
    ∃ X, lom_generate_data factors (modelName o i) = .ok X ∧ X.shape = rowCounts factors ∧
      ∀ idx, InB (rowCounts factors) idx →
        X idx = pm (lom o i fun (l : Fin L) (k : Fin factors.length) =>
          factors[k] [idx.getD k 0, l] = 1) := by
  obtain ⟨fo, ho, so⟩ := get_lop_spec o
  obtain ⟨fi, hi, si⟩ := get_lop_spec i
  have h := generate_cells_spec factors L o i fo fi so si
  rw [rowCounts_eq hcol] at h
  refine ⟨generate_cells factors L fo fi, ?_, h⟩
  cases factors with
  | nil => exact absurd rfl hne
  | cons f fs =>
    obtain ⟨N, hN⟩ := hcol f List.mem_cons_self
    have hd : f.dim 1 = L := by simp [Arr.dim, hN]
    simp only [lom_generate_data, splitModel_name, ho, hi, hd, bind, Except.bind, pure, Except.pure]

/-- **C03**, errors: if `lom_generate_data` returns at all, there is a factor and the model is one of the
36; every other string raises an exception. -/
theorem C03_other_names_rejected (factors : List (Arr Int)) (model : String) (X : Arr Int)
    (h : lom_generate_data factors model = .ok X) :
    factors ≠ [] ∧ ∃ o i : LOp, model = modelName o i := by
  unfold lom_generate_data at h
  cases factors with
  | nil => simp [bind, Except.bind, throw, throwThe, MonadExceptOf.throw] at h
  | cons f fs =>
    refine ⟨by simp, ?_⟩
    simp only [bind, Except.bind, pure, Except.pure] at h
    split at h
    · simp at h
    · rename_i v hv
      obtain ⟨a, b⟩ := v
      simp only [] at h
      split at h
      · simp at h
      · rename_i fo hfo
        split at h
        · simp at h
        · rename_i fi hfi
          obtain ⟨o, rfl⟩ := get_lop_ok hfo
          obtain ⟨i, rfl⟩ := get_lop_ok hfi
          exact ⟨o, i, splitModel_ok hv⟩

/-- non-vacuity of C03: four factors, of 1, 2, 1 and 1 rows, with two columns -/
def c03F : List (Arr Int) :=
  [Arr.mat 2 [[1, -1]] 0, Arr.mat 2 [[1, 1], [-1, 1]] 0, Arr.mat 2 [[1, -1]] 0, Arr.mat 2 [[1, 1]] 0]

example : c03F ≠ [] ∧ Columns c03F 2 ∧ rowCounts c03F = [1, 2, 1, 1] ∧ InB (rowCounts c03F) [0, 1, 0, 0] := by
  refine ⟨by simp [c03F], ?_, rfl, by simp [rowCounts, c03F, InB, Arr.mat]⟩
  intro f hf
  simp only [c03F, List.mem_cons, List.not_mem_nil, or_false] at hf
  rcases hf with rfl | rfl | rfl | rfl
  exacts [⟨1, rfl⟩, ⟨2, rfl⟩, ⟨1, rfl⟩, ⟨1, rfl⟩]

/-- two results are the same array: same exception, or same shape and same cells -/
def Spec.SameArray : Except Err (Arr Int) → Except Err (Arr Int) → Prop
  | .ok X, .ok Y => X.shape = Y.shape ∧ ∀ idx, InB X.shape idx → X idx = Y idx
  | .error e, .error e' => e = e'
  | _, _ => False

theorem Spec.SameArray.rfl' (r : Except Err (Arr Int)) : SameArray r r := by
  cases r <;> simp [SameArray]

theorem implemented_iff (model : String) : model ∈ implemented_loms ↔ ∃ m : Lom8, model = m.name := by
  constructor
  · intro h
    simp only [implemented_loms, List.mem_cons, List.not_mem_nil, or_false] at h
    rcases h with rfl | rfl | rfl | rfl | rfl | rfl | rfl | rfl
    exacts [⟨.OR_AND, rfl⟩, ⟨.OR_NAND, rfl⟩, ⟨.OR_XOR, rfl⟩, ⟨.NAND_XOR, rfl⟩, ⟨.XOR_AND, rfl⟩,
      ⟨.XOR_XOR, rfl⟩, ⟨.XOR_NXOR, rfl⟩, ⟨.XOR_NAND, rfl⟩]
  · rintro ⟨m, rfl⟩
    cases m <;> decide

/-- **C04**. Whatever the model string and the number of factors, the fast implementation returns the same
array (or the same exception) as the general one on binary factors with a common number of columns. -/
theorem C04_fast_agrees (L : Nat) (factors : List (Arr Int)) (model : String)
    (hcol : Columns factors L) (hpm : ∀ f ∈ factors, PMArr f) :
    SameArray (lom_generate_data_fast factors model) (lom_generate_data factors model) := by
  unfold lom_generate_data_fast
  by_cases hm : model ∈ implemented_loms
  swap
  · rw [if_pos hm]; exact Spec.SameArray.rfl' _
  rw [if_neg (not_not.2 hm)]
  obtain ⟨m, rfl⟩ := (implemented_iff model).1 hm
  match factors, hcol, hpm with
  | [], _, _ => exact Spec.SameArray.rfl' _
  | [_], _, _ => exact Spec.SameArray.rfl' _
  | [Z, U], hcol, hpm =>
    obtain ⟨N, hZ⟩ := hcol Z (by simp)
    obtain ⟨D, hU⟩ := hcol U (by simp)
    obtain ⟨X, h1, h2, h3⟩ := C01_two_factor_matrix m N D L Z U hZ hU (hpm Z (by simp)) (hpm U (by simp))
    obtain ⟨Y, g1, g2, g3⟩ := C03_all_models_all_arities m.outer m.inner L [Z, U] (by simp) hcol
    have hs : rowCounts [Z, U] = [N, D] := by simp [rowCounts, hZ, hU]
    rw [hs] at g2 g3
    simp only [h1]
    rw [show m.name = modelName m.outer m.inner from rfl, g1]
    refine ⟨h2.trans g2.symm, fun idx hidx => ?_⟩
    rw [h2] at hidx
    match idx, hidx with
    | [n, d], hidx =>
      rw [h3 n d hidx.1 hidx.2.1, g3 [n, d] hidx]
      apply pm_congr
      refine iff_of_eq (congrArg (lom m.outer m.inner) ?_)
      funext l k
      match k with
      | 0 => rfl
      | 1 => rfl
  | [Z, U, V], hcol, hpm =>
    simp only []
    by_cases hor : m.name = "OR-AND"
    swap
    · rw [if_neg hor]; exact Spec.SameArray.rfl' _
    rw [if_pos hor]
    obtain ⟨N, hZ⟩ := hcol Z (by simp)
    obtain ⟨D, hU⟩ := hcol U (by simp)
    obtain ⟨M, hV⟩ := hcol V (by simp)
    obtain ⟨X, h1, h2, h3⟩ := C02_three_factor_tensor m N D M L Z U V hZ hU hV (hpm Z (by simp))
      (hpm U (by simp)) (hpm V (by simp))
    obtain ⟨Y, g1, g2, g3⟩ := C03_all_models_all_arities m.outer m.inner L [Z, U, V] (by simp) hcol
    have hs : rowCounts [Z, U, V] = [N, D, M] := by simp [rowCounts, hZ, hU, hV]
    rw [hs] at g2 g3
    rw [h1, show m.name = modelName m.outer m.inner from rfl, g1]
    refine ⟨h2.trans g2.symm, fun idx hidx => ?_⟩
    rw [h2] at hidx
    match idx, hidx with
    | [n, d, k], hidx =>
      rw [h3 n d k hidx.1 hidx.2.1 hidx.2.2.1, g3 [n, d, k] hidx]
      apply pm_congr
      refine iff_of_eq (congrArg (lom m.outer m.inner) ?_)
      funext l k
      match k with
      | 0 => rfl
      | 1 => rfl
      | 2 => rfl
  | _ :: _ :: _ :: _ :: _, _, _ => exact Spec.SameArray.rfl' _

/-- non-vacuity of C04: the 2D kernel is taken with an implemented model -/
example : Columns [Arr.mat 2 [[1, -1]] 0, Arr.mat 2 [[1, 1], [-1, 1]] 0] 2 ∧
    "XOR-NXOR" ∈ implemented_loms := by
  refine ⟨?_, by decide⟩
  intro f hf
  simp only [List.mem_cons, List.not_mem_nil, or_false] at hf
  rcases hf with rfl | rfl
  exacts [⟨1, rfl⟩, ⟨2, rfl⟩]

end LFM

import Verif.Model.Lom
import Verif.Spec.Logic
import Verif.Lemmas.Arrays
import Verif.Lemmas.Outputs

/-! Lemmas on `get_lop`, `lom_generate_data` and splitting of model strings. -/

namespace LFM

open Spec

theorem count_map_range (n : Nat) (b : Nat → Bool) :
    ((List.range n).map b).count true = (List.range n).countP fun i => decide (b i = true) := by
  rw [List.count, List.countP_map]
  congr 1

/-- `get_lop` finds each of the six operators, and the function it returns computes it -/
theorem get_lop_spec (o : LOp) : ∃ f, get_lop o.name = .ok f ∧
    ∀ (n : Nat) (b : Nat → Bool), f ((List.range n).map b) = true ↔
      o.Holds fun i : Fin n => b i = true := by
  have hx : ∀ (n : Nat) (b : Nat → Bool), (((List.range n).map b).count true == 1) = true ↔
      ∃! i : Fin n, b i = true := by
    intro n b
    rw [beq_iff_eq, count_map_range, countP_range_eq_one]
  cases o <;> refine ⟨_, rfl, fun n b => ?_⟩
  · simp [LOp.Holds, Fin.forall_iff]
  · simp [LOp.Holds, Fin.forall_iff]
  · simp [LOp.Holds, Fin.exists_iff]
  · simp [LOp.Holds, Fin.forall_iff]
  · exact hx n b
  · have := hx n b
    simp only [Bool.not_eq_true', LOp.Holds, ← this, Bool.not_eq_true]

/-- only the six operators are found -/
theorem get_lop_ok {name : String} {f : List Bool → Bool} (h : get_lop name = .ok f) :
    ∃ o : LOp, name = o.name := by
  unfold get_lop at h
  split_ifs at h with h1 h2 h3 h4 h5 h6
  exacts [⟨.OR, h1⟩, ⟨.NOR, h2⟩, ⟨.AND, h3⟩, ⟨.NAND, h4⟩, ⟨.XOR, h5⟩, ⟨.NXOR, h6⟩]

theorem splitChars_ne_nil (c : Char) (xs : List Char) : splitChars c xs ≠ [] := by
  induction xs with
  | nil => simp [splitChars]
  | cons x xs ih =>
    unfold splitChars
    split
    · simp
    · split <;> simp

theorem splitChars_one {c : Char} {xs a : List Char} (h : splitChars c xs = [a]) : xs = a := by
  induction xs generalizing a with
  | nil => simpa [splitChars] using h
  | cons x xs ih =>
    unfold splitChars at h
    split at h
    · rw [List.cons.injEq] at h
      exact absurd h.2 (splitChars_ne_nil c xs)
    · split at h
      · rename_i h0
        exact absurd h0 (splitChars_ne_nil c xs)
      · rename_i y ys h0
        rw [List.cons.injEq] at h
        obtain ⟨rfl, rfl⟩ := h
        rw [ih h0]

theorem splitChars_two {c : Char} {xs a b : List Char} (h : splitChars c xs = [a, b]) :
    xs = a ++ c :: b := by
  induction xs generalizing a b with
  | nil => simp [splitChars] at h
  | cons x xs ih =>
    unfold splitChars at h
    split at h
    · rename_i hc
      rw [List.cons.injEq] at h
      obtain ⟨rfl, h2⟩ := h
      rw [splitChars_one h2, hc]; rfl
    · split at h
      · rename_i h0
        exact absurd h0 (splitChars_ne_nil c xs)
      · rename_i y ys h0
        rw [List.cons.injEq] at h
        obtain ⟨rfl, rfl⟩ := h
        rw [ih h0]; rfl

theorem splitModel_ok {model a b : String} (h : splitModel model = .ok (a, b)) :
    model = a ++ "-" ++ b := by
  unfold splitModel at h
  split at h
  · rename_i a' b' heq
    simp only [Except.ok.injEq, Prod.mk.injEq] at h
    obtain ⟨rfl, rfl⟩ := h
    unfold pySplitDash at heq
    rw [List.map_eq_cons_iff] at heq
    obtain ⟨a, l, h1, rfl, h2⟩ := heq
    rw [List.map_eq_cons_iff] at h2
    obtain ⟨b, l', h3, rfl, h4⟩ := h2
    rw [List.map_eq_nil_iff] at h4
    subst h4 h3
    have := splitChars_two h1
    rw [← String.toList_inj, this]
    simp
  · simp at h

theorem splitModel_name (o i : LOp) : splitModel (modelName o i) = .ok (o.name, i.name) := by
  cases o <;> cases i <;> rfl

theorem mem_indices {shape idx : List Nat} : idx ∈ indices shape ↔ InB shape idx := by
  induction shape generalizing idx with
  | nil => cases idx <;> simp [indices, InB]
  | cons d ds ih =>
    cases idx with
    | nil => simp [indices, InB]
    | cons i is => simp [indices, InB, ih]

/-- fill every cell of an array -/
theorem fill_indices {β : Type} (shape : List Nat) (f : List Nat → β) (X : Arr β) :
    let Y := (indices shape).foldl (fun X i => X.set i (f i)) X
    Y.shape = X.shape ∧ ∀ idx, InB shape idx → Y idx = f idx := by
  have h := overwrites_foldl (indices shape) (fun (X : Arr β) i => X.set i (f i))
    (fun i idx => idx = i) f fun i _ => overwrites_set i f
  exact ⟨h.shape X, fun idx hi => h.on X idx ⟨idx, mem_indices.2 hi, rfl⟩⟩

theorem zipIdx_map_range {α β : Type} [Inhabited α] (xs : List α) (g : α → Nat → β) :
    (xs.zipIdx.map fun (f, i) => g f i) =
      (List.range xs.length).map fun k => g (xs.getD k default) k := by
  apply List.ext_getElem
  · simp
  · intro i h1 h2
    simp only [List.length_map, List.length_zipIdx] at h1
    simp [h1]

instance : Inhabited (Arr Int) := ⟨Arr.full [] 0⟩

theorem generate_cells_spec (factors : List (Arr Int)) (L : Nat) (o i : LOp) (fo fi : List Bool → Bool)
    (ho : ∀ (n : Nat) (b : Nat → Bool), fo ((List.range n).map b) = true ↔
      o.Holds fun i : Fin n => b i = true)
    (hi : ∀ (n : Nat) (b : Nat → Bool), fi ((List.range n).map b) = true ↔
      i.Holds fun i : Fin n => b i = true) :
    (generate_cells factors L fo fi).shape = factors.map (fun x => x.dim 0) ∧
    ∀ idx, InB (factors.map fun x => x.dim 0) idx →
      generate_cells factors L fo fi idx = pm (lom o i fun (l : Fin L) (k : Fin factors.length) =>
        factors[k] [idx.getD k 0, l] = 1) := by
  have e : generate_cells factors L fo fi = (indices (factors.map fun x => x.dim 0)).foldl
      (fun X index => X.set index (2 * (if fo ((List.range L).map fun l =>
        fi (factors.zipIdx.map fun (f, i) => decide (f [index.getD i 0, l] = 1))) then 1 else 0) - 1))
      (Arr.full (factors.map fun x => x.dim 0) 0) := by
    unfold generate_cells
    simp only [Id.run_bind, Id.run_pure]
    rw [run_forIn_yield _ _ _ _ (by intros; rfl)]
  have h := fill_indices (factors.map fun x => x.dim 0) (fun index =>
    2 * (if fo ((List.range L).map fun l =>
        fi (factors.zipIdx.map fun (f, i) => decide (f [index.getD i 0, l] = 1))) then 1 else 0) - 1 : _ → Int)
      (Arr.full (factors.map fun x => x.dim 0) 0)
  rw [e]
  refine ⟨h.1, fun idx hidx => (h.2 idx hidx).trans ?_⟩
  have key : fo ((List.range L).map fun l =>
        fi (factors.zipIdx.map fun (f, i) => decide (f [idx.getD i 0, l] = 1))) = true ↔
      lom o i fun (l : Fin L) (k : Fin factors.length) => factors[k] [idx.getD k 0, l] = 1 := by
    rw [ho]
    unfold lom
    have : (fun l : Fin L => fi (factors.zipIdx.map fun (f, i) => decide (f [idx.getD i 0, l] = 1)) = true) =
        fun l : Fin L => i.Holds fun k : Fin factors.length => factors[k] [idx.getD k 0, l] = 1 := by
      funext l
      rw [zipIdx_map_range factors fun f i => decide (f [idx.getD i 0, l] = 1), hi]
      simp
    rw [this]
  classical
  rw [pm_eq_ite]
  by_cases hk : lom o i fun (l : Fin L) (k : Fin factors.length) => factors[k] [idx.getD k 0, l] = 1
  · rw [if_pos hk, if_pos (key.2 hk)]; rfl
  · rw [if_neg hk, if_neg (fun h => hk (key.1 h))]; rfl

end LFM

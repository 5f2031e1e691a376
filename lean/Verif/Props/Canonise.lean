import Verif.Props.Generate

/-!
# C09, C10, C12: canonical models
-/

namespace LFM

open Spec

/-! ### canonical models -/

/-- `F` with all entries negated -/
def Spec.negate (F : List (Arr Int)) : List (Arr Int) := F.map fun f => f.map fun x => -x

theorem canonical_table (o i : LOp) : ∃ (m : Lom8) (d f : Bool),
    canonical_form (modelName o i) = .ok (m.name, d, f) ∧
    ∀ (ι κ : Type) (x : ι → κ → Prop),
      lom o i x ↔ (if d then ¬ lom m.outer m.inner (fun l k => if f then ¬ x l k else x l k)
        else lom m.outer m.inner (fun l k => if f then ¬ x l k else x l k)) := by
  cases o <;> cases i <;>
  first
  | refine ⟨.OR_AND, true, true, rfl, fun ι κ x => ?_⟩; simp [lom, LOp.Holds, Lom8.outer, Lom8.inner]
  | refine ⟨.OR_AND, true, false, rfl, fun ι κ x => ?_⟩; simp [lom, LOp.Holds, Lom8.outer, Lom8.inner]
  | refine ⟨.OR_AND, false, true, rfl, fun ι κ x => ?_⟩; simp [lom, LOp.Holds, Lom8.outer, Lom8.inner]
  | refine ⟨.OR_AND, false, false, rfl, fun ι κ x => ?_⟩; simp [lom, LOp.Holds, Lom8.outer, Lom8.inner]
  | refine ⟨.OR_NAND, true, true, rfl, fun ι κ x => ?_⟩; simp [lom, LOp.Holds, Lom8.outer, Lom8.inner]
  | refine ⟨.OR_NAND, true, false, rfl, fun ι κ x => ?_⟩; simp [lom, LOp.Holds, Lom8.outer, Lom8.inner]
  | refine ⟨.OR_NAND, false, true, rfl, fun ι κ x => ?_⟩; simp [lom, LOp.Holds, Lom8.outer, Lom8.inner]
  | refine ⟨.OR_NAND, false, false, rfl, fun ι κ x => ?_⟩; simp [lom, LOp.Holds, Lom8.outer, Lom8.inner]
  | refine ⟨.XOR_AND, true, true, rfl, fun ι κ x => ?_⟩; simp [lom, LOp.Holds, Lom8.outer, Lom8.inner]
  | refine ⟨.XOR_AND, true, false, rfl, fun ι κ x => ?_⟩; simp [lom, LOp.Holds, Lom8.outer, Lom8.inner]
  | refine ⟨.XOR_AND, false, true, rfl, fun ι κ x => ?_⟩; simp [lom, LOp.Holds, Lom8.outer, Lom8.inner]
  | refine ⟨.XOR_AND, false, false, rfl, fun ι κ x => ?_⟩; simp [lom, LOp.Holds, Lom8.outer, Lom8.inner]
  | refine ⟨.XOR_NAND, true, true, rfl, fun ι κ x => ?_⟩; simp [lom, LOp.Holds, Lom8.outer, Lom8.inner]
  | refine ⟨.XOR_NAND, true, false, rfl, fun ι κ x => ?_⟩; simp [lom, LOp.Holds, Lom8.outer, Lom8.inner]
  | refine ⟨.XOR_NAND, false, true, rfl, fun ι κ x => ?_⟩; simp [lom, LOp.Holds, Lom8.outer, Lom8.inner]
  | refine ⟨.XOR_NAND, false, false, rfl, fun ι κ x => ?_⟩; simp [lom, LOp.Holds, Lom8.outer, Lom8.inner]
  | refine ⟨.NAND_XOR, true, false, rfl, fun ι κ x => ?_⟩; simp [lom, LOp.Holds, Lom8.outer, Lom8.inner]
  | refine ⟨.NAND_XOR, false, false, rfl, fun ι κ x => ?_⟩; simp [lom, LOp.Holds, Lom8.outer, Lom8.inner]
  | refine ⟨.OR_XOR, true, false, rfl, fun ι κ x => ?_⟩; simp [lom, LOp.Holds, Lom8.outer, Lom8.inner]
  | refine ⟨.OR_XOR, false, false, rfl, fun ι κ x => ?_⟩; simp [lom, LOp.Holds, Lom8.outer, Lom8.inner]
  | refine ⟨.XOR_NXOR, true, false, rfl, fun ι κ x => ?_⟩; simp [lom, LOp.Holds, Lom8.outer, Lom8.inner]
  | refine ⟨.XOR_NXOR, false, false, rfl, fun ι κ x => ?_⟩; simp [lom, LOp.Holds, Lom8.outer, Lom8.inner]
  | refine ⟨.XOR_XOR, true, false, rfl, fun ι κ x => ?_⟩; simp [lom, LOp.Holds, Lom8.outer, Lom8.inner]
  | refine ⟨.XOR_XOR, false, false, rfl, fun ι κ x => ?_⟩; simp [lom, LOp.Holds, Lom8.outer, Lom8.inner]

theorem holds_fin_congr {L K K' : Nat} (h : K' = K) (o i : LOp) (x : Fin L → Fin K → Prop) :
    (lom o i fun l (k : Fin K') => x l (finCongr h k)) ↔ lom o i x := by
  subst h
  exact Iff.rfl

theorem negate_columns {F : List (Arr Int)} {L : Nat} (h : Columns F L) : Columns (negate F) L := by
  intro f hf
  simp only [negate, List.mem_map] at hf
  obtain ⟨g, hg, rfl⟩ := hf
  exact h g hg

theorem negate_rowCounts (F : List (Arr Int)) : rowCounts (negate F) = rowCounts F := by
  simp [rowCounts, negate, Arr.map]

theorem InB.length {shape idx : List Nat} (h : InB shape idx) : idx.length = shape.length := by
  induction shape generalizing idx with
  | nil => cases idx <;> simp_all [InB]
  | cons d ds ih => cases idx with
    | nil => simp [InB] at h
    | cons i is => simp [ih h.2]

theorem InB.getD {shape idx : List Nat} (h : InB shape idx) {k : Nat} (hk : k < shape.length) :
    idx.getD k 0 < shape.getD k 0 := by
  induction shape generalizing idx k with
  | nil => simp at hk
  | cons d ds ih => cases idx with
    | nil => simp [InB] at h
    | cons i is => cases k with
      | zero => simpa using h.1
      | succ k => simpa using ih h.2 (by simpa using hk)

/-- **C09**. `canonise_model` translates each of the 36 models into one of the eight implemented ones with
two flags, such that for any number of binary factors the data generated by the requested model is the
data generated by the canonical model from the factors (negated if `invert_factors`), negated if
`invert_data`. -/
theorem C09_canonical_form_preserves_meaning (o i : LOp) (child : Arr Int) (L : Nat)
    (factors : List (Arr Int)) (hne : factors ≠ []) (hcol : Columns factors L)
    (hpm : ∀ f ∈ factors, PMArr f) :
    ∃ (m : Lom8) (invert_data invert_factors : Bool) (X Y : Arr Int),
      (canonise_model (modelName o i) (some child)).2 = .ok (m.name, invert_data, invert_factors) ∧
      lom_generate_data factors (modelName o i) = .ok X ∧
      lom_generate_data (if invert_factors then negate factors else factors) m.name = .ok Y ∧
      X.shape = Y.shape ∧
      ∀ idx, InB X.shape idx → X idx = if invert_data then -Y idx else Y idx := by
  obtain ⟨m, d, f, hc, heq⟩ := canonical_table o i
  obtain ⟨X, hX, sX, vX⟩ := C03_all_models_all_arities o i L factors hne hcol
  have hcan : (canonise_model (modelName o i) (some child)).2 = .ok (m.name, d, f) := by
    unfold canonise_model
    rw [hc]
    cases d <;> simp
  have hbits : ∀ idx, InB (rowCounts factors) idx → ∀ (l : Fin L) (k : Fin factors.length),
      (((negate factors)[k.1]'(by simp [negate])).get [idx.getD k 0, l] = 1 ↔
        ¬ factors[k] [idx.getD k 0, l] = 1) := by
    intro idx hidx l k
    have hk : (factors[k] : Arr Int) ∈ factors := List.getElem_mem _
    obtain ⟨N, hN⟩ := hcol _ hk
    have h1 : idx.getD k 0 < N := by
      have := hidx.getD (k := k) (by simp [rowCounts])
      have hN' : factors[k.1].shape = [N, L] := hN
      simpa [rowCounts, hN'] using this
    have hb : IsPM (factors[k] [idx.getD k 0, l]) := by
      apply hpm _ hk
      rw [hN]
      exact ⟨h1, l.2, trivial⟩
    simp only [negate, List.getElem_map, Arr.map]
    have hb' : IsPM (factors[k.1].get [idx.getD k 0, l]) := hb
    show -factors[k.1].get [idx.getD k 0, l] = 1 ↔ ¬ factors[k.1].get [idx.getD k 0, l] = 1
    rcases hb' with h | h <;> rw [h] <;> decide
  cases f with
  | false =>
    obtain ⟨Y, hY, sY, vY⟩ := C03_all_models_all_arities m.outer m.inner L factors hne hcol
    refine ⟨m, d, false, X, Y, hcan, hX, hY, sX.trans sY.symm, fun idx hidx => ?_⟩
    rw [sX] at hidx
    rw [vX idx hidx, vY idx hidx]
    have := heq _ _ fun (l : Fin L) (k : Fin factors.length) => factors[k] [idx.getD k 0, l] = 1
    classical
    rw [pm_eq_ite, pm_eq_ite]
    cases d <;> simp only [Bool.false_eq_true, if_false, if_true] at this ⊢ <;> rw [if_congr this rfl rfl]
    split_ifs <;> simp_all
  | true =>
    obtain ⟨Y, hY, sY, vY⟩ := C03_all_models_all_arities m.outer m.inner L (negate factors)
      (by simpa [negate] using hne) (negate_columns hcol)
    rw [negate_rowCounts] at sY vY
    refine ⟨m, d, true, X, Y, hcan, hX, hY, sX.trans sY.symm, fun idx hidx => ?_⟩
    rw [sX] at hidx
    rw [vX idx hidx, vY idx hidx]
    have := heq _ _ fun (l : Fin L) (k : Fin factors.length) => factors[k] [idx.getD k 0, l] = 1
    have hlen : (negate factors).length = factors.length := by simp [negate]
    have hY' : (lom m.outer m.inner fun (l : Fin L) (k : Fin (negate factors).length) =>
        (negate factors)[k] [idx.getD k 0, l] = 1) ↔
        lom m.outer m.inner fun (l : Fin L) (k : Fin factors.length) =>
          ¬ factors[k] [idx.getD k 0, l] = 1 := by
      have e : (fun (l : Fin L) (k : Fin (negate factors).length) =>
          (negate factors)[k] [idx.getD k 0, l] = 1) =
          fun (l : Fin L) k => ¬ factors[(finCongr hlen k).1] [idx.getD (finCongr hlen k).1 0, l] = 1 := by
        funext l k
        exact propext (hbits idx hidx l (finCongr hlen k))
      rw [e]
      exact holds_fin_congr hlen m.outer m.inner fun (l : Fin L) (k : Fin factors.length) =>
        ¬ factors[k] [idx.getD k 0, l] = 1
    rw [pm_congr hY']
    classical
    rw [pm_eq_ite, pm_eq_ite]
    cases d <;> simp only [Bool.false_eq_true, if_false, if_true] at this ⊢ <;> rw [if_congr this rfl rfl]
    split_ifs <;> simp_all

/-- non-vacuity of C09: the four factors of the example for C03 are binary -/
example : ∀ f ∈ c03F, PMArr f := by
  have h : ∀ f ∈ c03F, ∀ idx ∈ indices f.shape, f idx = 1 ∨ f idx = -1 := by decide
  exact fun f hf idx hi => h f hf idx (mem_indices.2 hi)

/-- **C10**, acceptance. Each of the 36 models is accepted (whatever the data) and lands on one of the
eight implemented ones. -/
theorem C10_accepts_all (o i : LOp) (child : Arr Int) : ∃ (m : Lom8) (d f : Bool),
    (canonise_model (modelName o i) (some child)).2 = .ok (m.name, d, f) ∧ m.name ∈ implemented_loms := by
  obtain ⟨m, d, f, hc, -⟩ := canonical_table o i
  refine ⟨m, d, f, ?_, (implemented_iff _).2 ⟨m, rfl⟩⟩
  unfold canonise_model
  rw [hc]
  cases d <;> simp

/-- the three models that are not of the form OUTER-INNER -/
def Spec.specialModels : List String := ["MAX-AND", "OR-AND-IBP", "qL-AND"]

theorem replace_cases (model : String) : replace_equivalent_model model = model ∨
    ∃ o i : LOp, model = modelName o i := by
  unfold replace_equivalent_model
  split
  · rename_i h
    right
    simp only [equivalent_pairs, List.map_cons, List.map_nil, List.mem_cons, List.not_mem_nil,
      or_false] at h
    rcases h with rfl | rfl | rfl | rfl | rfl | rfl | rfl | rfl | rfl | rfl | rfl | rfl
    exacts [⟨.NAND, .NAND, rfl⟩, ⟨.NAND, .OR, rfl⟩, ⟨.NOR, .NOR, rfl⟩, ⟨.NOR, .AND, rfl⟩,
      ⟨.NAND, .NOR, rfl⟩, ⟨.NAND, .AND, rfl⟩, ⟨.NOR, .NAND, rfl⟩, ⟨.NOR, .OR, rfl⟩, ⟨.OR, .NXOR, rfl⟩,
      ⟨.NOR, .NXOR, rfl⟩, ⟨.NAND, .NXOR, rfl⟩, ⟨.AND, .NXOR, rfl⟩]
  · exact Or.inl rfl

theorem ite_ok {α : Type} {c : Prop} [Decidable c] {a b : Except Err α} {r : α}
    (h : (if c then a else b) = .ok r) : (c ∧ a = .ok r) ∨ b = .ok r := by
  split at h
  · rename_i hc; exact Or.inl ⟨hc, h⟩
  · exact Or.inr h

theorem canonical_form_ok {model : String} {r : String × Bool × Bool} (h : canonical_form model = .ok r) :
    (∃ o i : LOp, model = modelName o i) ∨ (model ∈ specialModels ∧ r = (model, false, false)) := by
  rcases replace_cases model with he | h'
  swap
  · exact Or.inl h'
  unfold canonical_form at h
  rw [he] at h
  rcases ite_ok h with ⟨h, -⟩ | h
  · exact Or.inl ⟨.OR, .AND, h⟩
  rcases ite_ok h with ⟨h, -⟩ | h
  · exact Or.inl ⟨.AND, .NAND, h⟩
  rcases ite_ok h with ⟨h, -⟩ | h
  · exact Or.inl ⟨.OR, .NOR, h⟩
  rcases ite_ok h with ⟨h, -⟩ | h
  · exact Or.inl ⟨.AND, .OR, h⟩
  rcases ite_ok h with ⟨h, -⟩ | h
  · exact Or.inl ⟨.OR, .NAND, h⟩
  rcases ite_ok h with ⟨h, -⟩ | h
  · exact Or.inl ⟨.AND, .AND, h⟩
  rcases ite_ok h with ⟨h, -⟩ | h
  · exact Or.inl ⟨.OR, .OR, h⟩
  rcases ite_ok h with ⟨h, -⟩ | h
  · exact Or.inl ⟨.AND, .NOR, h⟩
  rcases ite_ok h with ⟨h, -⟩ | h
  · exact Or.inl ⟨.XOR, .AND, h⟩
  rcases ite_ok h with ⟨h, -⟩ | h
  · exact Or.inl ⟨.XOR, .NOR, h⟩
  rcases ite_ok h with ⟨h, -⟩ | h
  · exact Or.inl ⟨.NXOR, .AND, h⟩
  rcases ite_ok h with ⟨h, -⟩ | h
  · exact Or.inl ⟨.NXOR, .NOR, h⟩
  rcases ite_ok h with ⟨h, -⟩ | h
  · exact Or.inl ⟨.XOR, .NAND, h⟩
  rcases ite_ok h with ⟨h, -⟩ | h
  · exact Or.inl ⟨.XOR, .OR, h⟩
  rcases ite_ok h with ⟨h, -⟩ | h
  · exact Or.inl ⟨.NXOR, .NAND, h⟩
  rcases ite_ok h with ⟨h, -⟩ | h
  · exact Or.inl ⟨.NXOR, .OR, h⟩
  rcases ite_ok h with ⟨h, -⟩ | h
  · exact Or.inl ⟨.NAND, .XOR, h⟩
  rcases ite_ok h with ⟨h, -⟩ | h
  · exact Or.inl ⟨.AND, .XOR, h⟩
  rcases ite_ok h with ⟨h, -⟩ | h
  · exact Or.inl ⟨.OR, .XOR, h⟩
  rcases ite_ok h with ⟨h, -⟩ | h
  · exact Or.inl ⟨.NOR, .XOR, h⟩
  rcases ite_ok h with ⟨h, -⟩ | h
  · exact Or.inl ⟨.XOR, .NXOR, h⟩
  rcases ite_ok h with ⟨h, -⟩ | h
  · exact Or.inl ⟨.NXOR, .NXOR, h⟩
  rcases ite_ok h with ⟨h, -⟩ | h
  · exact Or.inl ⟨.XOR, .XOR, h⟩
  rcases ite_ok h with ⟨h, -⟩ | h
  · exact Or.inl ⟨.NXOR, .XOR, h⟩
  rcases ite_ok h with ⟨h, hr⟩ | h
  · refine Or.inr ⟨by rw [h]; decide, ?_⟩
    exact (Except.ok.inj hr).symm
  rcases ite_ok h with ⟨h, hr⟩ | h
  · refine Or.inr ⟨by rw [h]; decide, ?_⟩
    exact (Except.ok.inj hr).symm
  rcases ite_ok h with ⟨h, hr⟩ | h
  · refine Or.inr ⟨by rw [h]; decide, ?_⟩
    exact (Except.ok.inj hr).symm
  exact absurd h (by simp)

/-- **C10**, rejection. A model that is neither one of the 36 nor one of the three special models raises an
exception; and whenever an exception is raised the data is untouched. -/
theorem C10_rejects_others (model : String) (child : Option (Arr Int)) :
    (∀ r, (canonise_model model child).2 = .ok r →
      (∃ o i : LOp, model = modelName o i) ∨ model ∈ specialModels) ∧
    (∀ e, (canonise_model model child).2 = .error e → (canonise_model model child).1 = child) ∧
    (model ∈ specialModels → canonise_model model child = (child, .ok (model, false, false))) := by
  refine ⟨fun r hr => ?_, fun e he => ?_, fun h => ?_⟩
  · unfold canonise_model at hr
    split at hr
    · simp at hr
    · rename_i h
      rcases canonical_form_ok h with h | h
      exacts [Or.inl h, Or.inr h.1]
  · unfold canonise_model at he ⊢
    split
    · rfl
    · rename_i h
      rw [h] at he
      simp only [] at he
      split
      · rename_i hd
        cases child with
        | none => rfl
        | some c => simp [hd] at he
      · rfl
  · simp only [specialModels, List.mem_cons, List.not_mem_nil, or_false] at h
    rcases h with rfl | rfl | rfl <;> cases child <;> rfl

/-- the third alternative is not empty talk: a misspelt model is rejected -/
example : (canonise_model "AND-ND" none).2 = .error .notImplemented := rfl

/-- **C12**. The replacement of a model computes the same data from any factors whatsoever (or raises the
same exception), and a second replacement changes nothing. -/
theorem C12_replacement_equivalent (model : String) (L : Nat) (factors : List (Arr Int))
    (hcol : Columns factors L) :
    SameArray (lom_generate_data factors (replace_equivalent_model model)) (lom_generate_data factors model) ∧
    replace_equivalent_model (replace_equivalent_model model) = replace_equivalent_model model := by
  rcases replace_cases model with he | ⟨o, i, rfl⟩
  · rw [he, he]
    exact ⟨Spec.SameArray.rfl' _, rfl⟩
  have hkey : ∃ o' i' : LOp, replace_equivalent_model (modelName o i) = modelName o' i' ∧
      replace_equivalent_model (modelName o' i') = modelName o' i' ∧
      ∀ (ι κ : Type) (x : ι → κ → Prop), lom o' i' x ↔ lom o i x := by
    cases o <;> cases i <;>
    first
    | refine ⟨.OR, .AND, rfl, rfl, fun ι κ x => ?_⟩; simp [lom, LOp.Holds]
    | refine ⟨.OR, .NOR, rfl, rfl, fun ι κ x => ?_⟩; simp [lom, LOp.Holds]
    | refine ⟨.AND, .OR, rfl, rfl, fun ι κ x => ?_⟩; simp [lom, LOp.Holds]
    | refine ⟨.AND, .NAND, rfl, rfl, fun ι κ x => ?_⟩; simp [lom, LOp.Holds]
    | refine ⟨.OR, .OR, rfl, rfl, fun ι κ x => ?_⟩; simp [lom, LOp.Holds]
    | refine ⟨.OR, .NAND, rfl, rfl, fun ι κ x => ?_⟩; simp [lom, LOp.Holds]
    | refine ⟨.AND, .AND, rfl, rfl, fun ι κ x => ?_⟩; simp [lom, LOp.Holds]
    | refine ⟨.AND, .NOR, rfl, rfl, fun ι κ x => ?_⟩; simp [lom, LOp.Holds]
    | refine ⟨.NAND, .XOR, rfl, rfl, fun ι κ x => ?_⟩; simp [lom, LOp.Holds]
    | refine ⟨.AND, .XOR, rfl, rfl, fun ι κ x => ?_⟩; simp [lom, LOp.Holds]
    | refine ⟨.OR, .XOR, rfl, rfl, fun ι κ x => ?_⟩; simp [lom, LOp.Holds]
    | refine ⟨.NOR, .XOR, rfl, rfl, fun ι κ x => ?_⟩; simp [lom, LOp.Holds]
    | exact ⟨_, _, rfl, rfl, fun _ _ _ => Iff.rfl⟩
  obtain ⟨o', i', h1, h2, h3⟩ := hkey
  rw [h1]
  refine ⟨?_, h2⟩
  by_cases hne : factors = []
  · subst hne
    exact Spec.SameArray.rfl' _
  obtain ⟨X, hX, sX, vX⟩ := C03_all_models_all_arities o' i' L factors hne hcol
  obtain ⟨Y, hY, sY, vY⟩ := C03_all_models_all_arities o i L factors hne hcol
  rw [hX, hY]
  refine ⟨sX.trans sY.symm, fun idx hidx => ?_⟩
  rw [sX] at hidx
  rw [vX idx hidx, vY idx hidx]
  exact pm_congr (h3 _ _ _)

/-- the replacement does something -/
example : replace_equivalent_model "NAND-NXOR" = "OR-XOR" := rfl

end LFM

import Verif.Props.Inferable
import Verif.Props.FactorDensity
import Verif.Props.Fuzzy
import Verif.Props.Outputs
import Verif.Model.MatrixUpdates

/-!
# C116: names of models that do not exist are rejected by every function, always with the same exception
-/

namespace LFM

open Spec

theorem canonical_form_error {model : String} {e : Err} (h : canonical_form model = .error e) : e = .notImplemented := by
  have key : ∀ {c : Prop} [Decidable c] {a : String × Bool × Bool} {b : Except Err (String × Bool × Bool)},
      (if c then .ok a else b) = .error e → b = .error e := by
    intro c _ a b hh
    split at hh
    · simp at hh
    · exact hh
  unfold canonical_form at h
  dsimp only at h
  iterate 27 replace h := key h
  exact (Except.error.inj h).symm

theorem get_lop_error {s : String} {e : Err} (h : get_lop s = .error e) : e = .valueError := by
  unfold get_lop at h
  repeat' split at h
  all_goals first | exact (Except.error.inj h).symm | (simp at h; done)

theorem get_fuzzy_lop_error {s : String} {e : Err} (h : get_fuzzy_lop s = .error e) : e = .valueError := by
  unfold get_fuzzy_lop at h
  repeat' split at h
  all_goals first | exact (Except.error.inj h).symm | (simp at h; done)

theorem splitModel_error {s : String} {e : Err} (h : splitModel s = .error e) : e = .valueError := by
  unfold splitModel at h
  split at h
  · exact absurd h (by simp)
  · exact (Except.error.inj h).symm

/-- **C116**, generating data: exactly the 36 models are accepted, all other names (MAX-AND, qL-AND and OR-AND-IBP are
among them) raise ValueError; without factors there is an IndexError -/
theorem C116_generate (f : Arr Int) (g : Arr ℝ) (fs : List (Arr Int)) (gs : List (Arr ℝ)) (model : String)
    (h : ∀ o i : LOp, model ≠ modelName o i) :
    lom_generate_data (f :: fs) model = .error .valueError ∧ lom_generate_data_fast (f :: fs) model = .error .valueError ∧
    lom_generate_data_fuzzy (g :: gs) model = .error .valueError := by
  have h1 : lom_generate_data (f :: fs) model = .error .valueError := by
    cases hr : lom_generate_data (f :: fs) model with
    | ok X =>
      obtain ⟨-, o, i, ho⟩ := C03_other_names_rejected _ _ _ hr
      exact absurd ho (h o i)
    | error e =>
      unfold lom_generate_data at hr
      cases hs : splitModel model with
      | error e' =>
        rw [hs] at hr
        rw [← splitModel_error hs]
        exact hr.symm ▸ rfl
      | ok p =>
        rw [hs] at hr
        cases ho : get_lop p.1 with
        | error e' =>
          simp only [ho, bind, Except.bind, pure, Except.pure] at hr
          rw [← hr, get_lop_error ho]
        | ok o =>
          cases hi : get_lop p.2 with
          | error e' =>
            simp only [ho, hi, bind, Except.bind, pure, Except.pure] at hr
            rw [← hr, get_lop_error hi]
          | ok i => simp [ho, hi, bind, Except.bind, pure, Except.pure] at hr
  refine ⟨h1, ?_, ?_⟩
  · have hn : model ∉ implemented_loms := by
      rw [implemented_iff]
      rintro ⟨m, hm⟩
      exact h _ _ hm
    unfold lom_generate_data_fast
    rw [if_pos hn, h1]
  · unfold lom_generate_data_fuzzy
    cases hs : splitModel model with
    | error e' => rw [splitModel_error hs]; rfl
    | ok p =>
      cases ho : get_fuzzy_lop p.1 with
      | error e' => simp only [ho, bind, Except.bind, pure, Except.pure, get_fuzzy_lop_error ho]
      | ok o =>
        cases hi : get_fuzzy_lop p.2 with
        | error e' => simp only [ho, hi, bind, Except.bind, pure, Except.pure, get_fuzzy_lop_error hi]
        | ok i =>
          obtain ⟨o', ho'⟩ := get_fuzzy_lop_ok ho
          obtain ⟨i', hi'⟩ := get_fuzzy_lop_ok hi
          refine absurd (splitModel_ok (a := p.1) (b := p.2) hs) ?_
          rw [ho', hi']
          exact h o' i'

/-- **C116**, without factors -/
theorem C116_no_factors (model : String) :
    lom_generate_data [] model = .error .indexError ∧ lom_generate_data_fast [] model = .error .indexError ∧
    lom_generate_data_fuzzy [] model = .error .indexError := by
  refine ⟨rfl, ?_, rfl⟩
  unfold lom_generate_data_fast
  split <;> rfl

/-- **C116**, building: a name that is neither one of the 36 nor one of the three special models raises NotImplementedError, and
the machine and its data stay as they are -/
theorem C116_add_layer (s : Sys) (c : Call) (h : ∀ o i : LOp, c.model ≠ modelName o i)
    (h' : c.model ≠ "MAX-AND" ∧ c.model ≠ "qL-AND" ∧ c.model ≠ "OR-AND-IBP") : add_layer s c = (s, .error .notImplemented) := by
  have e : ∀ child, canonise_model c.model child = (child, .error .notImplemented) := by
    intro child
    unfold canonise_model
    cases hf : canonical_form c.model with
    | error e => rw [canonical_form_error hf]
    | ok r =>
      rcases canonical_form_ok hf with ⟨o, i, hm⟩ | ⟨hm, -⟩
      · exact absurd hm (h o i)
      · simp only [specialModels, List.mem_cons, List.not_mem_nil, or_false] at hm
        tauto
  unfold add_layer
  rw [e]
  have : s.setData c.child (c.child.map s.data) = s := by
    unfold Sys.setData
    cases c.child with
    | none => rfl
    | some id =>
      simp only [Option.map_some]
      congr 1
      funext j
      split
      · rename_i hj; rw [hj]
      · rfl
  simp only [this]

/-- **C116**, densities -/
theorem C116_density (fs : (ℝ → ℝ) → ℝ → ℝ) (model : String) (L K : Nat) (x : ℝ) (h : ∀ o i : LOp, model ≠ modelName o i) :
    expected_density model L K x = .error .typingError ∧ factor_density fs model L K x = .error .typingError :=
  ⟨C13_unknown_rejected model L K x h, C83_unknown_rejected fs model L K x h⟩

/-- **C116**, predictions and counts: only the eight models that are sampled are accepted -/
theorem C116_outputs (model : String) (h : ∀ m : Lom8, model ≠ m.name) (Z U V : Arr Int) (z u v : Arr ℝ) :
    output_function_2d model Z U = .error .typingError ∧ output_function_3d model Z U V = .error .typingError ∧
    output_function_2d_fuzzy model z u = .error .typingError ∧ output_function_3d_fuzzy model z u v = .error .typingError := by
  have h1 : model ≠ "OR-AND" := h .OR_AND
  have h2 : model ≠ "OR-NAND" := h .OR_NAND
  have h3 : model ≠ "OR-XOR" := h .OR_XOR
  have h4 : model ≠ "NAND-XOR" := h .NAND_XOR
  have h5 : model ≠ "XOR-AND" := h .XOR_AND
  have h6 : model ≠ "XOR-XOR" := h .XOR_XOR
  have h7 : model ≠ "XOR-NXOR" := h .XOR_NXOR
  have h8 : model ≠ "XOR-NAND" := h .XOR_NAND
  have e2 : get_scalar_output_function_2d_fuzzy model = none := by
    simp only [get_scalar_output_function_2d_fuzzy, h1, h2, h3, h4, h5, h6, h7, h8, if_false]
  have e3 : get_scalar_output_function_3d_fuzzy model = none := by
    simp only [get_scalar_output_function_3d_fuzzy, h1, h2, h3, h4, h5, h6, h7, h8, if_false]
  refine ⟨(C02_other_models model h Z U V).1, (C02_other_models model h Z U V).2, ?_, ?_⟩
  · rw [output_function_2d_fuzzy, e2]
  · rw [output_function_3d_fuzzy, e3]

/-- **C116**, updates of lambda: for matrices and tensors of three axes any other name than those of the eight models, qL-AND,
OR-AND-IBP and MAX-AND raises TypeError; for other numbers of
axes NotImplementedError -/
theorem C116_lambda (model : String) (h : ∀ m : Lom8, model ≠ m.name) (h' : model ≠ "qL-AND" ∧ model ≠ "OR-AND-IBP" ∧ model ≠ "MAX-AND")
    (K : Nat) : get_update_fct none model K = .error (if K = 2 ∨ K = 3 then .typingError else .notImplemented) := by
  have h1 : model ≠ "OR-AND" := h .OR_AND
  have h2 : model ≠ "OR-NAND" := h .OR_NAND
  have h3 : model ≠ "OR-XOR" := h .OR_XOR
  have h4 : model ≠ "NAND-XOR" := h .NAND_XOR
  have h5 : model ≠ "XOR-AND" := h .XOR_AND
  have h6 : model ≠ "XOR-XOR" := h .XOR_XOR
  have h7 : model ≠ "XOR-NXOR" := h .XOR_NXOR
  have h8 : model ≠ "XOR-NAND" := h .XOR_NAND
  have e2 : get_scalar_output_function_2d model = none := by
    simp only [get_scalar_output_function_2d, h1, h2, h3, h4, h5, h6, h7, h8, if_false]
  have e3 : get_scalar_output_function_3d model = none := by
    simp only [get_scalar_output_function_3d, h1, h2, h3, h4, h5, h6, h7, h8, if_false]
  have ec : make_correct_predictions_counter model K = .error (if K = 2 ∨ K = 3 then .typingError else .notImplemented) := by
    unfold make_correct_predictions_counter
    simp only [h'.2.1, if_false, h'.1]
    by_cases k2 : K = 2
    · simp [k2, e2]
    · by_cases k3 : K = 3
      · simp [k3, e3]
      · simp [k2, k3]
  simp only [get_update_fct, h'.2.2, false_and, if_false, make_lbda_update_fct, h'.1, ec, bind, Except.bind]

/-- there are such names: a misspelt one, and one with two dashes -/
example : (∀ o i : LOp, "AND-ND" ≠ modelName o i) ∧ (∀ m : Lom8, "AND-ND" ≠ m.name) ∧
    (∀ o i : LOp, "OR-AND-IBP" ≠ modelName o i) :=
  ⟨fun o i => by cases o <;> cases i <;> decide, fun m => by cases m <;> decide, fun o i => by cases o <;> cases i <;> decide⟩

example (f : Arr Int) : lom_generate_data_fast [f] "OR-AND-IBP" = .error .valueError :=
  (C116_generate f (Arr.full [] 0) [] [] "OR-AND-IBP" fun o i => by cases o <;> cases i <;> decide).2.1

/-- the names by which update functions are looked up: operators and the number of axes joined by underscores -/
def Spec.updateName (m : Lom8) (axes : String) : String := m.outer.name ++ "_" ++ m.inner.name ++ "_" ++ axes

/-- **C116**, updates of matrices: other names than those of the eight models for two and three axes have no sampling function,
neither as a child nor as parents. The exception is NotImplementedError, except for the two names of a model that was never
written, which raise AttributeError -/
theorem C116_sampling (model : String) (h : ∀ m : Lom8, model ≠ Spec.updateName m "2D" ∧ model ≠ Spec.updateName m "3D") :
    make_sampling_fct_onechild model =
      .error (if model = "OR_ALL_2D" ∨ model = "OR_ALL_3D" then .attributeError else .notImplemented) ∧
    make_sampling_fct_nochild_oneparent model = .error .notImplemented ∧
    (∀ other, make_sampling_fct_nochild_twoparents model other = .error .notImplemented) ∧
    (∀ other, make_sampling_fct_onechild_oneparent model other =
      .error (if model = "OR_ALL_2D" ∨ model = "OR_ALL_3D" then .attributeError else .notImplemented)) ∧
    (∀ other other', make_sampling_fct_onechild_twoparents model other other' =
      .error (if model = "OR_ALL_2D" ∨ model = "OR_ALL_3D" then .attributeError else .notImplemented)) ∧
    (∀ m : Lom8, ∀ axes, axes = "2D" ∨ axes = "3D" →
      make_sampling_fct_nochild_twoparents (Spec.updateName m axes) model = .error .notImplemented ∧
      make_sampling_fct_onechild_oneparent (Spec.updateName m axes) model = .error .notImplemented ∧
      ∀ m' : Lom8, ∀ axes', axes' = "2D" ∨ axes' = "3D" →
      make_sampling_fct_onechild_twoparents (Spec.updateName m axes) (Spec.updateName m' axes') model = .error .notImplemented) := by
  have h1 := h .OR_AND
  have h2 := h .OR_NAND
  have h3 := h .OR_XOR
  have h4 := h .NAND_XOR
  have h5 := h .XOR_AND
  have h6 := h .XOR_XOR
  have h7 := h .XOR_NXOR
  have h8 := h .XOR_NAND
  simp only [Spec.updateName, Lom8.outer, Lom8.inner, LOp.name, String.reduceAppend] at h1 h2 h3 h4 h5 h6 h7 h8
  have e : get_posterior_score_fct model =
      .error (if model = "OR_ALL_2D" ∨ model = "OR_ALL_3D" then .attributeError else .notImplemented) := by
    simp only [get_posterior_score_fct, h1, h2, h3, h4, h5, h6, h7, h8, if_false]
    by_cases k : model = "OR_ALL_2D"
    · simp [k]
    · by_cases k' : model = "OR_ALL_3D" <;> simp [k, k']
  have e' : get_parent_score_fct model = .error .notImplemented := by
    simp only [get_parent_score_fct, h1, h2, h3, h4, h5, h6, h7, h8, if_false]
  have k : ∀ m : Lom8, ∀ axes, axes = "2D" ∨ axes = "3D" → (∃ f, get_posterior_score_fct (Spec.updateName m axes) = .ok f) ∧
      ∃ f, get_parent_score_fct (Spec.updateName m axes) = .ok f := by
    intro m axes ha
    rcases ha with rfl | rfl <;> cases m <;> exact ⟨⟨_, rfl⟩, ⟨_, rfl⟩⟩
  refine ⟨?_, ?_, fun other => ?_, fun other => ?_, fun other other' => ?_, fun m axes ha => ⟨?_, ?_, fun m' axes' ha' => ?_⟩⟩
  · simp only [make_sampling_fct_onechild, e, bind, Except.bind]
  · simp only [make_sampling_fct_nochild_oneparent, e', bind, Except.bind]
  · simp only [make_sampling_fct_nochild_twoparents, e', bind, Except.bind]
  · simp only [make_sampling_fct_onechild_oneparent, e, bind, Except.bind]
  · simp only [make_sampling_fct_onechild_twoparents, e, bind, Except.bind]
  · obtain ⟨⟨f, hf⟩, ⟨g, hg⟩⟩ := k m axes ha
    simp only [make_sampling_fct_nochild_twoparents, hg, e', bind, Except.bind]
  · obtain ⟨⟨f, hf⟩, ⟨g, hg⟩⟩ := k m axes ha
    simp only [make_sampling_fct_onechild_oneparent, hf, e', bind, Except.bind]
  · obtain ⟨⟨f, hf⟩, ⟨g, hg⟩⟩ := k m axes ha
    obtain ⟨⟨f', hf'⟩, ⟨g', hg'⟩⟩ := k m' axes' ha'
    simp only [make_sampling_fct_onechild_twoparents, hf, hg', e', bind, Except.bind]

/-- such names exist -/
example : ∀ m : Lom8, "OR_ALL_2D" ≠ Spec.updateName m "2D" ∧ "OR_ALL_2D" ≠ Spec.updateName m "3D" :=
  fun m => by cases m <;> decide

end LFM

import Verif.Props.Canonise
import Verif.Model.AddLayer
import Verif.Model.MatrixWrappers
import Verif.Model.LambdaUpdates
import Mathlib.Tactic.IntervalCases

/-!
# C25: which accepted machines can be inferred
-/

namespace LFM

open Spec

/-- assigning the sampling functions of all factors and the update function of lambda succeeds for a single layer with
the given model and as many factors as `factors` (position = child axis), and every factor does get a function -/
def Spec.Assignable (model : String) (factors : List Member) (prior : ℝ) : Prop :=
  (∀ k, k < factors.length → ∃ s, get_sampling_fct none (some model) factors k k prior [] = .ok s ∧ s ≠ .none) ∧
    ∃ f, get_update_fct none model factors.length = .ok f

theorem repr_eq_two {K : Nat} (h : (toString K).toList = ['2']) : K = 2 := by
  have h' : Nat.toDigits 10 K = ['2'] := by
    have : toString K = String.ofList (Nat.toDigits 10 K) := rfl
    rw [this] at h
    simpa using h
  by_cases hK : K < 10
  · rw [Nat.toDigits_of_lt_base hK] at h'
    interval_cases K <;> simp_all [Nat.digitChar]
  · rw [Nat.toDigits_of_base_le (by norm_num) (by omega)] at h'
    have := Nat.length_toDigits_pos (b := 10) (n := K / 10)
    have hl := congrArg List.length h'
    simp at hl

theorem relatives_none (model : String) (K : Nat) :
    get_relatives_models (some model) K [] = .ok (some (pyDashToUnderscore (model ++ "-" ++ toString K ++ "D")),
      none, none) := rfl

/-- the dispatched name of a qL-AND layer determines the number of factors -/
theorem qL_name {K : Nat} {s : String} (hs : pyDashToUnderscore ("qL-AND" ++ "-" ++ toString K ++ "D") = s) :
    ∃ t : List Char, s.toList = 'q' :: 'L' :: '_' :: 'A' :: 'N' :: 'D' :: '_' :: t ∧
      (t = ['2', 'D'] → K = 2) := by
  have hl : s.toList = ("qL-AND" ++ "-" ++ toString K ++ "D").toList.map fun c => if c = '-' then '_' else c := by
    rw [← hs, pyDashToUnderscore, String.toList_ofList]
  simp only [String.toList_append, List.map_append] at hl
  refine ⟨((toString K).toList.map fun c => if c = '-' then '_' else c) ++ ['D'], ?_, ?_⟩
  · rw [hl]; rfl
  · intro ht
    have h2 : ((toString K).toList.map fun c => if c = '-' then '_' else c) = ['2'] :=
      List.append_cancel_right (bs := ['D']) ht
    apply repr_eq_two
    cases hc : (toString K).toList with
    | nil => rw [hc] at h2; simp at h2
    | cons c cs =>
      rw [hc] at h2
      cases cs with
      | nil =>
        simp only [List.map_cons, List.map_nil, List.cons.injEq, and_true] at h2
        split at h2
        · simp at h2
        · rw [h2]
      | cons _ _ => simp at h2

theorem not_assign_qL {K : Nat} (h2 : K ≠ 2) {factors : List Member} (hf : factors.length = K) (k : Nat)
    (prior : ℝ) : ∃ e, get_sampling_fct none (some "qL-AND") factors k k prior [] = .error e := by
  obtain ⟨s, hs⟩ : ∃ s, pyDashToUnderscore ("qL-AND" ++ "-" ++ toString K ++ "D") = s := ⟨_, rfl⟩
  obtain ⟨t, ht, hK⟩ := qL_name hs
  have hne : ∀ s' : String, s'.toList ≠ 'q' :: 'L' :: '_' :: 'A' :: 'N' :: 'D' :: '_' :: t → s ≠ s' := by
    rintro s' h rfl; exact h ht
  have hq : s ≠ "qL_AND_2D" := hne _ (by
    intro h
    have : t = ['2', 'D'] := by
      have h' : ("qL_AND_2D" : String).toList = ['q', 'L', '_', 'A', 'N', 'D', '_', '2', 'D'] := rfl
      rw [h'] at h
      simpa using h.symm
    exact h2 (hK this))
  have hscore : get_posterior_score_fct s = .error .notImplemented := by
    unfold get_posterior_score_fct
    have h : ∀ s' ∈ ["OR_AND_2D", "OR_NAND_2D", "OR_XOR_2D", "NAND_XOR_2D", "XOR_AND_2D", "XOR_XOR_2D", "XOR_NXOR_2D",
      "XOR_NAND_2D", "OR_AND_3D", "OR_NAND_3D", "OR_XOR_3D", "NAND_XOR_3D", "XOR_AND_3D", "XOR_XOR_3D", "XOR_NXOR_3D",
      "XOR_NAND_3D", "OR_ALL_2D", "OR_ALL_3D"], s ≠ s' := by
      intro s' hs'
      apply hne
      intro h
      have hd : s'.toList.head? = some 'q' := by rw [h]; rfl
      clear h
      revert hd
      revert s'
      decide
    simp only [List.mem_cons, List.not_mem_nil, or_false, forall_eq_or_imp, forall_eq] at h
    simp only [h, if_false]
  refine ⟨.notImplemented, ?_⟩
  unfold get_sampling_fct
  rw [hf]
  simp only [relatives_none, hs, bind, Except.bind, Option.some.injEq]
  rw [if_neg (hne _ (by intro h; have h' : ("MAX_AND_2D" : String).toList.head? = some 'q' := by rw [h]; rfl
                        revert h'; decide)), if_neg hq,
    if_neg (hne _ (by intro h; have h' : ("OR_AND_IBP_2D" : String).toList.head? = some 'q' := by rw [h]; rfl
                      revert h'; decide))]
  simp only [make_sampling_fct_onechild, hscore, bind, Except.bind]

theorem add_layer_canonical {s : Sys} {c : Call} {layer : LayerRec} (h : (add_layer s c).2 = .ok layer) :
    ∃ d f, canonical_form c.model = .ok (layer.model, d, f) := by
  unfold add_layer at h
  simp only at h
  split at h
  · simp at h
  · rename_i model d f heq
    have hm : layer.model = model := by
      unfold attach at h
      split at h
      · simp only at h
        split at h <;> simp at h
        rw [← h]
      · simp only at h
        split at h <;> simp at h
        rw [← h]
      · simp at h
    rw [hm]
    refine ⟨d, f, ?_⟩
    unfold canonise_model at heq
    cases hc : canonical_form c.model with
    | error e => rw [hc] at heq; simp at heq
    | ok r =>
      rw [hc] at heq
      obtain ⟨a, b, c'⟩ := r
      cases b
      · simpa using heq
      · cases hch : c.child with
        | none => rw [hch] at heq; simp at heq
        | some id => rw [hch] at heq; simpa using heq

/-- names that `add_layer` can give to a layer -/
theorem add_layer_model {s : Sys} {c : Call} {layer : LayerRec} (h : (add_layer s c).2 = .ok layer) :
    (∃ m : Lom8, layer.model = m.name) ∨ layer.model ∈ specialModels := by
  obtain ⟨d, f, hcf⟩ := add_layer_canonical h
  rcases canonical_form_ok hcf with ⟨o, i, ho⟩ | ⟨h1, h2⟩
  · obtain ⟨m', d', f', hc', -⟩ := canonical_table o i
    rw [← ho, hcf] at hc'
    simp only [Except.ok.injEq, Prod.mk.injEq] at hc'
    exact Or.inl ⟨m', hc'.1⟩
  · simp only [Prod.mk.injEq] at h2
    exact Or.inr (h2.1 ▸ h1)

theorem add_layer_qL_dims {s : Sys} {c : Call} {layer : LayerRec} (h : (add_layer s c).2 = .ok layer)
    (hm : layer.model = "qL-AND") : 2 ≤ layer.dimensionality := by
  unfold add_layer at h
  simp only at h
  split at h
  · simp at h
  · unfold attach at h
    split at h
    · simp only at h
      split at h
      · simp at h
      · rename_i hn
        simp only [Except.ok.injEq] at h
        subst h
        simp only at hm ⊢
        by_contra hlt
        exact hn ⟨hm, by omega⟩
    · simp only at h
      split at h
      · simp at h
      · rename_i hn
        simp only [Except.ok.injEq] at h
        subst h
        simp only at hm ⊢
        by_contra hlt
        exact hn ⟨hm, by omega⟩
    · simp at h

/-- the general branch of the dispatch for a matrix without parents -/
theorem sampling_general {model s : String} {K : Nat} (hs : pyDashToUnderscore (model ++ "-" ++ toString K ++ "D") = s)
    (h1 : s ≠ "MAX_AND_2D") (h2 : s ≠ "qL_AND_2D") (h3 : s ≠ "OR_AND_IBP_2D") {factors : List Member}
    (hf : factors.length = K) (k : Nat) (prior : ℝ) :
    (∀ f, make_sampling_fct_onechild s = .ok f → ∃ o p,
      get_sampling_fct none (some model) factors k k prior [] = .ok (.lom f o p)) ∧
    (∀ e, make_sampling_fct_onechild s = .error e →
      get_sampling_fct none (some model) factors k k prior [] = .error e) := by
  subst hf
  constructor
  · intro f hf
    refine ⟨k :: (siblings factors k).map Member.child_axis, logit prior, ?_⟩
    unfold get_sampling_fct
    simp only [relatives_none, hs, bind, Except.bind, Option.some.injEq]
    rw [if_neg h1, if_neg h2, if_neg h3]
    simp only [hf, pure, Except.pure]
  · intro e he
    unfold get_sampling_fct
    simp only [relatives_none, hs, bind, Except.bind, Option.some.injEq]
    rw [if_neg h1, if_neg h2, if_neg h3]
    simp only [he]

theorem not_assign_IBP {factors : List Member} (hf : factors.length = 3) (prior : ℝ) :
    ∃ e, get_sampling_fct none (some "OR-AND-IBP") factors 0 0 prior [] = .error e :=
  ⟨.notImplemented, (sampling_general (K := 3) (s := "OR_AND_IBP_3D") rfl (by decide) (by decide) (by decide) hf 0
    prior).2 _ rfl⟩

theorem assign_lom (m : Lom8) {K : Nat} (hK : K = 2 ∨ K = 3) {factors : List Member} (hf : factors.length = K) (k : Nat)
    (prior : ℝ) : ∃ s, get_sampling_fct none (some m.name) factors k k prior [] = .ok s ∧ s ≠ .none := by
  obtain ⟨s, f, hs, h1, h2, h3, hm⟩ : ∃ s f, pyDashToUnderscore (m.name ++ "-" ++ toString K ++ "D") = s ∧
      s ≠ "MAX_AND_2D" ∧ s ≠ "qL_AND_2D" ∧ s ≠ "OR_AND_IBP_2D" ∧ make_sampling_fct_onechild s = .ok f := by
    rcases hK with rfl | rfl <;> cases m <;>
      exact ⟨_, _, rfl, by decide, by decide, by decide, rfl⟩
  obtain ⟨o, p, h⟩ := (sampling_general hs h1 h2 h3 hf k prior).1 f hm
  exact ⟨_, h, by simp⟩

theorem assign_special {model : String} (hm : model ∈ specialModels) {factors : List Member}
    (hf : factors.length = 2) {k : Nat} (hk : k < 2) (prior : ℝ) :
    ∃ s, get_sampling_fct none (some model) factors k k prior [] = .ok s ∧ s ≠ .none := by
  simp only [specialModels, List.mem_cons, List.not_mem_nil, or_false] at hm
  unfold get_sampling_fct
  rw [hf]
  have e1 : pyDashToUnderscore ("MAX-AND" ++ "-" ++ toString 2 ++ "D") = "MAX_AND_2D" := rfl
  have e2 : pyDashToUnderscore ("qL-AND" ++ "-" ++ toString 2 ++ "D") = "qL_AND_2D" := rfl
  have e3 : pyDashToUnderscore ("OR-AND-IBP" ++ "-" ++ toString 2 ++ "D") = "OR_AND_IBP_2D" := rfl
  obtain ⟨f, hfn⟩ : ∃ f, make_sampling_fct_onechild "OR_AND_2D" = .ok f := ⟨_, rfl⟩
  have n1 : ("qL_AND_2D" : String) ≠ "MAX_AND_2D" := by decide
  have n2 : ("OR_AND_IBP_2D" : String) ≠ "MAX_AND_2D" := by decide
  have n3 : ("OR_AND_IBP_2D" : String) ≠ "qL_AND_2D" := by decide
  have hk' : k = 0 ∨ k = 1 := by omega
  rcases hm with rfl | rfl | rfl
  · simp only [relatives_none, e1, bind, Except.bind]
    exact ⟨_, rfl, by simp⟩
  · simp only [relatives_none, e3, bind, Except.bind, Option.some.injEq]
    rw [if_neg n2, if_neg n3]
    rcases hk' with rfl | rfl
    · exact ⟨_, rfl, by simp⟩
    · simp only [hfn]
      exact ⟨_, rfl, by simp⟩
  · simp only [relatives_none, e2, bind, Except.bind, Option.some.injEq]
    rw [if_neg n1]
    rcases hk' with rfl | rfl
    · exact ⟨_, rfl, by simp⟩
    · exact ⟨_, rfl, by simp⟩

theorem not_update {model : String} {K : Nat} (h2 : K ≠ 2) (h3 : K ≠ 3) (hm : model ≠ "qL-AND") :
    ∃ e, get_update_fct none model K = .error e := by
  simp only [get_update_fct, h2, and_false, if_false, make_lbda_update_fct, hm]
  by_cases h1 : model = "MAX-AND"
  · exact ⟨.attributeError, by simp [h1, throw, throwThe, MonadExceptOf.throw]⟩
  · have : ("OR-AND" : String) ≠ "qL-AND" := by decide
    refine ⟨.notImplemented, ?_⟩
    simp only [h1, if_false, make_correct_predictions_counter, h2, h3]
    split <;> simp [bind, Except.bind]

/-- number of axes of the data of a call: of the child that is given, or of the shape of the new one -/
def Spec.axes (s : Sys) (c : Call) : Nat :=
  match c.child, c.shape with
  | some id, _ => (s.data id).shape.length
  | none, some sh => sh.length
  | none, none => 0

/-- **C25**, a layer has one factor for each axis of its data, and its child is the matrix with these data -/
theorem C25_axes {s : Sys} {c : Call} {layer : LayerRec} (h : (add_layer s c).2 = .ok layer) :
    layer.dimensionality = Spec.axes s c ∧ layer.child = c.child.getD s.next ∧
      ((add_layer s c).1.data layer.child).shape.length = Spec.axes s c := by
  have hdim : ∀ r : Option (Arr Int) × Except Err (String × Bool × Bool), r = canonise_model c.model (c.child.map s.data) →
      ∀ id, ((s.setData c.child r.1).data id).shape = (s.data id).shape := by
    intro r hr id
    unfold Sys.setData
    split
    · rename_i id' v e1 e2
      dsimp only
      split
      · rename_i e
        subst e
        rw [hr, e1, Option.map_some, canonise_model] at e2
        split at e2
        · cases e2; rfl
        · dsimp only at e2
          split at e2
          · simp only [Option.some.injEq] at e2; rw [← e2]; rfl
          · cases e2; rfl
      · rfl
    · rfl
  unfold add_layer at h ⊢
  generalize hr : canonise_model c.model (c.child.map s.data) = r at h ⊢
  have hdim := hdim r hr.symm
  have hnext : (s.setData c.child r.1).next = s.next := by
    unfold Sys.setData; split <;> rfl
  dsimp only at h ⊢
  split at h
  · simp at h
  · rename_i model d f hm
    unfold attach at h ⊢
    split at h
    · rename_i sh hc hs
      simp only [hc, hs, hnext] at h ⊢
      split at h
      · simp at h
      · rename_i hn
        simp only [hn, if_false, Except.ok.injEq] at h ⊢
        subst h
        rw [hc] at hnext
        simp [Spec.axes, hc, hs, hnext]
    · rename_i id hc hs
      simp only [hc, hs] at h ⊢
      split at h
      · simp at h
      · rename_i hn
        simp only [hc] at hdim
        simp only [Except.ok.injEq] at h
        subst h
        rw [if_neg hn]
        simp [Spec.axes, hc, hdim]
    · simp at h

/-- **C25**, exact characterisation: among the machines that `add_layer` accepts, those on which the assignment
succeeds are the two-dimensional ones and the three-dimensional ones with an OUTER-INNER model. -/
theorem C25_assignable_iff {s : Sys} {c : Call} {layer : LayerRec} (h : (add_layer s c).2 = .ok layer)
    (factors : List Member) (hf : factors.length = Spec.axes s c) (prior : ℝ) :
    Spec.Assignable layer.model factors prior ↔
      Spec.axes s c = 2 ∨ (Spec.axes s c = 3 ∧ layer.model ∉ specialModels) := by
  rw [← (C25_axes h).1] at hf ⊢
  have hm := add_layer_model h
  rw [← hf]
  constructor
  · rintro ⟨hs, g, hg⟩
    by_contra hcon
    push Not at hcon
    obtain ⟨h2, h3⟩ := hcon
    rcases hm with ⟨m, hm⟩ | hm
    · rw [hm] at hg h3
      have h3' : factors.length ≠ 3 := by
        intro h
        have := h3 h
        revert this
        cases m <;> decide
      obtain ⟨e, he⟩ := not_update (model := m.name) h2 h3' (by cases m <;> decide)
      rw [he] at hg
      simp at hg
    · simp only [specialModels, List.mem_cons, List.not_mem_nil, or_false] at hm
      rcases hm with hm | hm | hm <;> rw [hm] at hs hg
      · have : get_update_fct none "MAX-AND" factors.length = .error .attributeError := by
          simp [get_update_fct, make_lbda_update_fct, h2, throw, throwThe, MonadExceptOf.throw]
        rw [this] at hg
        simp at hg
      · by_cases h3' : factors.length = 3
        · obtain ⟨t, ht, -⟩ := hs 0 (by omega)
          obtain ⟨e, he⟩ := not_assign_IBP h3' prior
          rw [he] at ht
          simp at ht
        · obtain ⟨e, he⟩ := not_update (model := "OR-AND-IBP") h2 h3' (by decide)
          rw [he] at hg
          simp at hg
      · have h0 : 0 < factors.length := by have := add_layer_qL_dims h hm; omega
        obtain ⟨t, ht, -⟩ := hs 0 h0
        obtain ⟨e, he⟩ := not_assign_qL h2 rfl 0 prior
        rw [he] at ht
        simp at ht
  · clear hf h
    generalize layer.model = model at hm
    rintro (h2 | ⟨h3, hn⟩)
    · rcases hm with ⟨m, rfl⟩ | hm
      · refine ⟨fun k _ => assign_lom m (Or.inl rfl) h2 k prior, ?_⟩
        rw [h2]
        cases m <;> exact ⟨_, rfl⟩
      · refine ⟨fun k hk => assign_special hm h2 (h2 ▸ hk) prior, ?_⟩
        rw [h2]
        simp only [specialModels, List.mem_cons, List.not_mem_nil, or_false] at hm
        rcases hm with rfl | rfl | rfl <;> exact ⟨_, rfl⟩
    · rcases hm with ⟨m, rfl⟩ | hm
      · refine ⟨fun k _ => assign_lom m (Or.inr rfl) h3 k prior, ?_⟩
        rw [h3]
        cases m <;> exact ⟨_, rfl⟩
      · exact absurd hm hn

/-- **C25**, partial: every accepted machine over two-dimensional data, and every accepted OUTER-INNER machine over
three-dimensional data, can be inferred. Missing: other numbers of dimensions and the special models on
three-dimensional data, where it is false (`C25_wrong`). -/
theorem C25_inferable_partial {s : Sys} {c : Call} {layer : LayerRec} (h : (add_layer s c).2 = .ok layer)
    (factors : List Member) (hf : factors.length = Spec.axes s c) (prior : ℝ)
    (hd : Spec.axes s c = 2 ∨ (Spec.axes s c = 3 ∧ c.model ∉ specialModels)) :
    Spec.Assignable layer.model factors prior := by
  rw [C25_assignable_iff h factors hf prior]
  rcases hd with hd | ⟨hd, hn⟩
  · exact Or.inl hd
  · refine Or.inr ⟨hd, fun hmem => hn ?_⟩
    obtain ⟨d, f, hcf⟩ := add_layer_canonical h
    rcases canonical_form_ok hcf with ⟨o, i, ho⟩ | ⟨h1, h2⟩
    · obtain ⟨m', d', f', hc', -⟩ := canonical_table o i
      rw [← ho, hcf] at hc'
      simp only [Except.ok.injEq, Prod.mk.injEq] at hc'
      rw [hc'.1] at hmem
      exfalso
      clear hc'
      revert hmem
      cases m' <;> decide
    · exact h1

/-- a new machine without matrices -/
def c25Sys : Sys := ⟨fun _ => ⟨[], fun _ => 0⟩, 0, []⟩

/-- `add_layer` with a shape and a model -/
def c25Call (shape : List Nat) (model : String) : Call := ⟨none, some shape, model, fun _ => 1⟩

/-- the hypotheses of `C25_assignable_iff` hold for 2-, 3-dimensional data -/
example : ((add_layer c25Sys (c25Call [4, 5] "OR-AND-IBP")).2 = .ok ⟨0, "OR-AND-IBP", false, false, 2⟩) ∧
    ((add_layer c25Sys (c25Call [4, 5, 6] "XOR-AND")).2 = .ok ⟨0, "XOR-AND", false, false, 3⟩) := ⟨rfl, rfl⟩

/-- machines that `add_layer` accepts and that can not be inferred: special models on three-dimensional data, any model
on one- or four-dimensional data -/
theorem C25_wrong (factors : List Member) (prior : ℝ) :
    (∀ model ∈ specialModels, ∃ layer, (add_layer c25Sys (c25Call [4, 5, 6] model)).2 = .ok layer ∧
      (factors.length = 3 → ¬ Spec.Assignable layer.model factors prior)) ∧
    (∀ shape ∈ [[4], [4, 5, 6, 7]], ∃ layer, (add_layer c25Sys (c25Call shape "OR-AND")).2 = .ok layer ∧
      (factors.length = shape.length → ¬ Spec.Assignable layer.model factors prior)) := by
  constructor
  · intro model hm
    have hacc : (add_layer c25Sys (c25Call [4, 5, 6] model)).2 = .ok ⟨0, model, false, false, 3⟩ := by
      simp only [specialModels, List.mem_cons, List.not_mem_nil, or_false] at hm
      rcases hm with rfl | rfl | rfl <;> rfl
    refine ⟨_, hacc, fun hf => ?_⟩
    rw [C25_assignable_iff hacc factors hf prior]
    simp [hm, Spec.axes, c25Call]
  · intro shape hs
    simp only [List.mem_cons, List.not_mem_nil, or_false] at hs
    rcases hs with rfl | rfl
    · have hacc : (add_layer c25Sys (c25Call [4] "OR-AND")).2 = .ok ⟨0, "OR-AND", false, false, 1⟩ := rfl
      refine ⟨_, hacc, fun hf => ?_⟩
      rw [C25_assignable_iff hacc factors hf prior]
      simp [Spec.axes, c25Call]
    · have hacc : (add_layer c25Sys (c25Call [4, 5, 6, 7] "OR-AND")).2 = .ok ⟨0, "OR-AND", false, false, 4⟩ := rfl
      refine ⟨_, hacc, fun hf => ?_⟩
      rw [C25_assignable_iff hacc factors hf prior]
      simp [Spec.axes, c25Call]

end LFM

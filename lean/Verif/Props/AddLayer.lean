import Verif.Model.AddLayer
import Verif.Props.Canonise

/-!
# C11: the data a layer sees
-/

namespace LFM

open Spec

/-- the model string asks for inverted data -/
def Spec.Inverts (model : String) : Prop := ∃ m f, canonical_form model = .ok (m, true, f)

instance (model : String) : Decidable (Inverts model) :=
  match h : canonical_form model with
  | .ok (m, true, f) => .isTrue ⟨m, f, h⟩
  | .ok (_, false, _) => .isFalse (by rintro ⟨m, f, h'⟩; rw [h] at h'; simp at h')
  | .error _ => .isFalse (by rintro ⟨m, f, h'⟩; rw [h] at h'; simp at h')

/-- number of calls on child `id` whose model needs inverted data -/
def Spec.invertingCalls (cs : List Call) (id : Nat) : Nat :=
  cs.countP fun c => decide (c.child = some id ∧ Inverts c.model)

theorem canonise_model_val (model : String) (c : Arr Int) :
    (canonise_model model (some c)).1 = some (if Inverts model then c.map (fun x => wrap8 (-x)) else c) := by
  unfold canonise_model
  cases h : canonical_form model with
  | error e =>
    rw [if_neg]
    rintro ⟨m, f, h'⟩; rw [h] at h'; simp at h'
  | ok r =>
    obtain ⟨m, d, f⟩ := r
    cases d with
    | false =>
      rw [if_neg]
      · rfl
      rintro ⟨m, f, h'⟩; rw [h] at h'; simp at h'
    | true => rw [if_pos ⟨m, f, h⟩]; rfl

theorem canonise_model_none (model : String) : (canonise_model model none).1 = none := by
  unfold canonise_model
  split
  · rfl
  · split <;> rfl

theorem wrap8_neg_data {x : Int} (h : IsData x) : wrap8 (-x) = -x := by
  rcases h with rfl | rfl | rfl <;> decide

theorem attach_data (s : Sys) (c : Call) (m : String) (d f : Bool) (id : Nat) (hid : id < s.next) :
    (attach s c m d f).1.data id = s.data id ∧ s.next ≤ (attach s c m d f).1.next := by
  have hne : id ≠ s.next := by omega
  unfold attach
  split
  · simp only []
    split_ifs <;> simp [hne]
  · simp only []
    split_ifs <;> simp
  · simp

/-- the layers after a call: those before, plus the new one if the call succeeds -/
theorem attach_layers (s : Sys) (c : Call) (m : String) (d f : Bool) :
    (∃ e, (attach s c m d f).2 = .error e ∧ (attach s c m d f).1.layers = s.layers) ∨
    ∃ layer, (attach s c m d f).2 = .ok layer ∧ (attach s c m d f).1.layers = s.layers ++ [layer] ∧
      layer.invert_data = d ∧ layer.invert_factors = f ∧ layer.model = m ∧
      (c.child = some layer.child ∨ c.child = none ∧ layer.child = s.next) := by
  unfold attach
  split
  · simp only []
    split_ifs
    · left; exact ⟨_, rfl, rfl⟩
    · right
      rename_i h _ _
      exact ⟨_, rfl, rfl, rfl, rfl, rfl, Or.inr ⟨h, rfl⟩⟩
  · simp only []
    split_ifs
    · left; exact ⟨_, rfl, rfl⟩
    · right
      rename_i h _ _
      exact ⟨_, rfl, rfl, rfl, rfl, rfl, Or.inl h⟩
  · left; exact ⟨_, rfl, rfl⟩

theorem setData_eq (s : Sys) (c : Call) :
    s.setData c.child (canonise_model c.model (c.child.map s.data)).1 =
      { s with data := fun j => if c.child = some j ∧ Inverts c.model then
          (s.data j).map (fun x => wrap8 (-x)) else s.data j } := by
  cases hc : c.child with
  | none => simp [Sys.setData]
  | some id =>
    simp only [Option.map_some, canonise_model_val, Sys.setData]
    congr 1
    funext j
    by_cases hj : j = id
    · subst hj
      simp
    · rw [if_neg hj, if_neg]
      rintro ⟨h, -⟩
      exact hj (Option.some.inj h).symm

/-- effect of one call on an existing matrix -/
theorem add_layer_data (s : Sys) (c : Call) (id : Nat) (hid : id < s.next) :
    (add_layer s c).1.data id = (if c.child = some id ∧ Inverts c.model then
      (s.data id).map (fun x => wrap8 (-x)) else s.data id) ∧ s.next ≤ (add_layer s c).1.next := by
  unfold add_layer
  simp only []
  rw [setData_eq]
  split
  · exact ⟨rfl, le_rfl⟩
  · exact attach_data _ c _ _ _ id hid

/-- `X` is `Y`, negated if `flip` -/
def Spec.IsOriented (flip : Bool) (X Y : Arr Int) : Prop :=
  X.shape = Y.shape ∧ ∀ idx, InB Y.shape idx → X idx = if flip then -Y idx else Y idx

/-- **C11**, what the code does: after any sequence of calls of `add_layer` (successful or not), a data
matrix that existed before is its original value, negated once for every call on it whose model needs
inverted data. -/
theorem C11_actual_orientation (s : Sys) (cs : List Call) (id : Nat) (hid : id < s.next)
    (hdata : DataArr (s.data id)) :
    IsOriented (decide (invertingCalls cs id % 2 = 1)) ((add_layers s cs).data id) (s.data id) := by
  induction cs generalizing s with
  | nil => exact ⟨rfl, fun idx _ => by simp [invertingCalls, add_layers]⟩
  | cons c cs ih =>
    obtain ⟨h1, h2⟩ := add_layer_data s c id hid
    have hcount : invertingCalls (c :: cs) id = invertingCalls cs id +
        if c.child = some id ∧ Inverts c.model then 1 else 0 := by
      unfold invertingCalls
      rw [List.countP_cons]
      simp
    have hrun : add_layers s (c :: cs) = add_layers (add_layer s c).1 cs := rfl
    by_cases hinv : c.child = some id ∧ Inverts c.model
    · rw [if_pos hinv] at h1 hcount
      have hneg : DataArr ((add_layer s c).1.data id) := by
        rw [h1]
        intro idx hi
        show IsData (wrap8 (-(s.data id).get idx))
        have := hdata idx hi
        rw [wrap8_neg_data this]
        rcases this with h | h | h <;> rw [h] <;> simp [IsData]
      obtain ⟨g1, g2⟩ := ih (add_layer s c).1 (by omega) hneg
      rw [hrun, hcount]
      rw [h1] at g1 g2
      refine ⟨g1, fun idx hi => ?_⟩
      rw [g2 idx hi]
      show (if _ then -(wrap8 (-(s.data id).get idx)) else wrap8 (-(s.data id).get idx)) = _
      rw [wrap8_neg_data (hdata idx hi)]
      by_cases hp : invertingCalls cs id % 2 = 1
      · have : ¬ (invertingCalls cs id + 1) % 2 = 1 := by omega
        simp [hp, this]
      · have : (invertingCalls cs id + 1) % 2 = 1 := by omega
        simp [hp, this]
    · rw [if_neg hinv] at h1 hcount
      obtain ⟨g1, g2⟩ := ih (add_layer s c).1 (by omega) (by rw [h1]; exact hdata)
      rw [hrun, hcount]
      rw [h1] at g1 g2
      exact ⟨g1, g2⟩

theorem add_layer_invert {s : Sys} {c : Call} {layer : LayerRec} (h : (add_layer s c).2 = .ok layer) :
    (layer.invert_data = true ↔ Inverts c.model) ∧
    (c.child = some layer.child ∨ c.child = none ∧ layer.child = s.next) := by
  unfold add_layer at h
  simp only [] at h
  split at h
  · simp at h
  · rename_i m d f hr
    have hd : canonical_form c.model = .ok (m, d, f) := by
      unfold canonise_model at hr
      split at hr
      · simp at hr
      · rename_i m' d' f' hc
        rw [hc]
        split at hr
        · split at hr <;> simp at hr
          obtain ⟨rfl, rfl, rfl⟩ := hr; rfl
        · simp at hr
          obtain ⟨rfl, rfl, rfl⟩ := hr; rfl
    rcases attach_layers (s.setData c.child (canonise_model c.model (c.child.map s.data)).1) c m d f with
      ⟨e, he, -⟩ | ⟨l, hl, -, h1, -, -, h2⟩
    · rw [he] at h; simp at h
    · rw [hl] at h
      obtain rfl : l = layer := by simpa using h
      rw [setData_eq] at h2
      refine ⟨?_, h2⟩
      rw [h1]
      constructor
      · rintro rfl; exact ⟨m, f, hd⟩
      · rintro ⟨m', f', h'⟩
        rw [hd] at h'
        simp at h'
        exact h'.2.1

/-- **C11** (`_partial`). If a layer was created on an existing child by call `c`, and no other call on that
child (before or after, successful or not) needs inverted data, then at the end the layer sees the
caller's data, negated iff its `invert_data` flag is set. Missing: children shared by several inverting
layers, for which it fails (`C11_shared_child_wrong`). -/
theorem C11_orientation_partial (s : Sys) (before after : List Call) (c : Call) (layer : LayerRec)
    (hid : layer.child < s.next) (hdata : DataArr (s.data layer.child))
    (hc : c.child = some layer.child) (hok : (add_layer (add_layers s before) c).2 = .ok layer)
    (hothers : ∀ c' ∈ before ++ after, c'.child = some layer.child → ¬ Inverts c'.model) :
    IsOriented layer.invert_data ((add_layers s (before ++ c :: after)).data layer.child)
      (s.data layer.child) := by
  have h := C11_actual_orientation s (before ++ c :: after) layer.child hid hdata
  have hz : ∀ cs : List Call, (∀ c' ∈ cs, c'.child = some layer.child → ¬ Inverts c'.model) →
      invertingCalls cs layer.child = 0 := by
    intro cs hcs
    unfold invertingCalls
    rw [List.countP_eq_zero]
    intro c' hc' h'
    have := of_decide_eq_true h'
    exact hcs c' hc' this.1 this.2
  have hcount : invertingCalls (before ++ c :: after) layer.child =
      if Inverts c.model then 1 else 0 := by
    have e : invertingCalls (before ++ c :: after) layer.child =
        invertingCalls before layer.child + (invertingCalls after layer.child +
          if c.child = some layer.child ∧ Inverts c.model then 1 else 0) := by
      unfold invertingCalls
      rw [List.countP_append, List.countP_cons]
      simp
    rw [e, hz before fun c' h' => hothers c' (List.mem_append_left _ h'),
      hz after fun c' h' => hothers c' (List.mem_append_right _ h')]
    simp [hc]
  have hflag := (add_layer_invert hok).1
  rw [hcount] at h
  by_cases hi : Inverts c.model
  · rw [if_pos hi] at h
    rw [hflag.2 hi]
    exact h
  · rw [if_neg hi] at h
    rw [show layer.invert_data = false by simpa [hi] using hflag]
    exact h

/-- **C11**, failing calls (`_partial`): a failing call leaves existing data unchanged unless both `child`
and `shape` are given together with an inverting model. -/
theorem C11_failure_partial (s : Sys) (c : Call) (e : Err) (hfail : (add_layer s c).2 = .error e)
    (hcall : c.child = none ∨ c.shape = none ∨ ¬ Inverts c.model) (id : Nat) (hid : id < s.next) :
    (add_layer s c).1.data id = s.data id := by
  rw [(add_layer_data s c id hid).1]
  rw [if_neg]
  rintro ⟨hchild, m, f, hinv⟩
  rcases hcall with h | h | h
  · rw [h] at hchild; simp at hchild
  · unfold add_layer at hfail
    simp only [hchild, Option.map_some] at hfail
    have hcan : (canonise_model c.model (some (s.data id))).2 = .ok (m, true, f) := by
      unfold canonise_model; rw [hinv]; rfl
    rw [hcan] at hfail
    simp only [attach, hchild, h] at hfail
    have hm : m ≠ "qL-AND" := by
      intro hm
      rcases canonical_form_ok hinv with ⟨o, i, ho⟩ | ⟨-, hr⟩
      · obtain ⟨m', d', f', hc', -⟩ := canonical_table o i
        rw [← ho, hinv] at hc'
        simp only [Except.ok.injEq, Prod.mk.injEq] at hc'
        rw [hc'.1] at hm
        revert hm
        cases m' <;> decide
      · simp at hr
    simp [hm] at hfail
  · exact h ⟨m, f, hinv⟩

/-- one data matrix with the single entry 1 -/
def c11Sys : Sys := ⟨fun _ => Arr.mat 1 [[1]] 0, 1, []⟩
/-- `machine.add_layer(child=data, model='AND-OR')` -/
def c11Call : Call := ⟨some 0, none, "AND-OR", fun _ => 1⟩

/-- **C11** is false for a shared child: after two layers with inverted data on the same child, both
layers have `invert_data` set but see the data that is not inverted. -/
theorem C11_shared_child_wrong :
    (add_layers c11Sys [c11Call, c11Call]).layers.map (fun l => (l.child, l.invert_data)) =
      [(0, true), (0, true)] ∧
    (add_layers c11Sys [c11Call, c11Call]).data 0 [0, 0] = 1 ∧ c11Sys.data 0 [0, 0] = 1 := by
  decide

/-- **C11** is false for failing calls: with both `child` and `shape` given, `ValueError` is raised, but the
data has been inverted. -/
theorem C11_failure_inverts :
    (add_layer c11Sys { c11Call with shape := some [1, 1] }).2 = .error .valueError ∧
    (add_layer c11Sys { c11Call with shape := some [1, 1] }).1.data 0 [0, 0] = -1 ∧
    c11Sys.data 0 [0, 0] = 1 :=
  ⟨rfl, by decide, by decide⟩

/-- non-vacuity of C11_orientation_partial: the first of the two calls alone -/
example : ∃ layer, (add_layer (add_layers c11Sys []) c11Call).2 = .ok layer ∧ layer.child < c11Sys.next ∧
    c11Call.child = some layer.child ∧ Inverts c11Call.model :=
  ⟨_, rfl, by decide, rfl, by decide⟩

end LFM

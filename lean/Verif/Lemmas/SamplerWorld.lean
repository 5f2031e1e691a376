import Verif.Model.Wiring
import Mathlib.Data.List.Sort

/-!
# Lemmas: the sampling function of a matrix does not depend on the values of matrices
-/

namespace LFM

theorem siblings_axes {ms ms' : List Member} (h : ms.map Member.child_axis = ms'.map Member.child_axis) (k : Nat) :
    (siblings ms k).map Member.child_axis = (siblings ms' k).map Member.child_axis := by
  have key : ∀ l : List Member, (siblings l k).map Member.child_axis =
      ((l.map Member.child_axis).eraseIdx k).mergeSort fun a b => decide (a ≤ b) := by
    intro l
    rw [siblings, List.map_mergeSort (s := fun a b => decide (a ≤ b)) (fun _ _ _ _ => rfl), List.eraseIdx_map]
  rw [key, key, h]

theorem get_sampling_fct_congr {ms ms' : List Member} (h : ms.map Member.child_axis = ms'.map Member.child_axis)
    (model : Option String) (a k : Nat) (p : ℝ) (ps : List (String × Nat)) :
    get_sampling_fct none model ms a k p ps = get_sampling_fct none model ms' a k p ps := by
  have hl : ms.length = ms'.length := by simpa using congrArg List.length h
  unfold get_sampling_fct
  rw [siblings_axes h k, hl]

theorem getSampler_congr (wr : Wiring) {m m' : Mach Sampler LbdaUpdate} (i : Nat) (h1 : m'.layers = m.layers)
    (h2 : m'.layerOf = m.layerOf) (h3 : m'.bernoulli_prior i = m.bernoulli_prior i) :
    getSampler wr m' i = getSampler wr m i := by
  unfold getSampler
  rw [h1, h2, h3]
  simp only
  rw [get_sampling_fct_congr (ms' := List.map (fun j : Nat => (⟨(m.world.mat j).val, (m.world.mat j).fixed_entries,
    wr.childAxis j, m.bernoulli_prior j⟩ : Member)) _)]
  rw [List.map_map, List.map_map]
  rfl

end LFM

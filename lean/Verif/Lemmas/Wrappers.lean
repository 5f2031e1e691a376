import Verif.Model.MatrixWrappers
import Verif.Spec.Logic

/-! What `get_sampling_fct` assigns to the factors of a generic layer. -/

namespace LFM
open Spec

/-- internal name of a two- or three-factor model -/
def code (m : Lom8) (s : String) : String := pyDashToUnderscore (m.name ++ s)

theorem relatives2 (m : Lom8) :
    get_relatives_models (some m.name) 2 [] = .ok (some (code m "-2D"), none, none) := by
  cases m <;> rfl

theorem relatives3 (m : Lom8) :
    get_relatives_models (some m.name) 3 [] = .ok (some (code m "-3D"), none, none) := by
  cases m <;> rfl

/-- the model name is not one of the specially treated ones -/
def Generic (mod : String) : Prop :=
  mod ≠ "MAX_AND_2D" ∧ mod ≠ "qL_AND_2D" ∧ mod ≠ "OR_AND_IBP_2D"

section dispatch
variable {model : Option String} {factors : List Member} {ax k : Nat} {q : ℝ}
  {parents : List (String × Nat)} {mod p1 p2 : String}

/-- axis order captured by the closures -/
def axisOrder (factors : List Member) (ax k : Nat) : List Nat :=
  ax :: (siblings factors k).map Member.child_axis

theorem dispatch_onechild {p2 : Option String}
    (h : get_relatives_models model factors.length parents = .ok (some mod, none, p2))
    (hg : Generic mod) :
    get_sampling_fct none model factors ax k q parents =
      (make_sampling_fct_onechild mod).map fun s => .lom s (axisOrder factors ax k) (logit q) := by
  simp only [get_sampling_fct, h, bind, Except.bind, Option.some.injEq, hg.1, hg.2.1, hg.2.2, if_false]
  cases make_sampling_fct_onechild mod <;> rfl

theorem dispatch_onechild_oneparent
    (h : get_relatives_models model factors.length parents = .ok (some mod, some p1, none))
    (hg : Generic mod) :
    get_sampling_fct none model factors ax k q parents =
      (make_sampling_fct_onechild_oneparent mod p1).map fun s =>
        .onechild_oneparent s (axisOrder factors ax k) (logit q) := by
  simp only [get_sampling_fct, h, bind, Except.bind, Option.some.injEq, hg.1, hg.2.1, hg.2.2, if_false]
  cases make_sampling_fct_onechild_oneparent mod p1 <;> rfl

theorem dispatch_onechild_twoparents
    (h : get_relatives_models model factors.length parents = .ok (some mod, some p1, some p2))
    (hg : Generic mod) :
    get_sampling_fct none model factors ax k q parents =
      (make_sampling_fct_onechild_twoparents mod p1 p2).map fun s =>
        .onechild_twoparents s (axisOrder factors ax k) (logit q) := by
  simp only [get_sampling_fct, h, bind, Except.bind, Option.some.injEq, hg.1, hg.2.1, hg.2.2, if_false]
  cases make_sampling_fct_onechild_twoparents mod p1 p2 <;> rfl

theorem dispatch_nochild_oneparent
    (h : get_relatives_models model factors.length parents = .ok (none, some p1, none)) :
    get_sampling_fct none model factors ax k q parents =
      (make_sampling_fct_nochild_oneparent p1).map fun s => .nochild_oneparent s (logit q) := by
  simp only [get_sampling_fct, h, bind, Except.bind, reduceCtorEq, if_false]
  cases make_sampling_fct_nochild_oneparent p1 <;> rfl

theorem dispatch_nochild_twoparents
    (h : get_relatives_models model factors.length parents = .ok (none, some p1, some p2)) :
    get_sampling_fct none model factors ax k q parents =
      (make_sampling_fct_nochild_twoparents p1 p2).map fun s => .nochild_twoparents s (logit q) := by
  simp only [get_sampling_fct, h, bind, Except.bind, reduceCtorEq, if_false]
  cases make_sampling_fct_nochild_twoparents p1 p2 <;> rfl

end dispatch

theorem generic_code2 (m : Lom8) : Generic (code m "-2D") := by
  unfold Generic; cases m <;> decide

theorem generic_code3 (m : Lom8) : Generic (code m "-3D") := by
  unfold Generic; cases m <;> decide

theorem make_onechild2 (m : Lom8) {f} (hf : get_posterior_score_fct (code m "-2D") = .ok (.two f)) :
    make_sampling_fct_onechild (code m "-2D") = .ok (.two (sampling_onechild_2D f)) := by
  have : pyLastTwo (code m "-2D") = "2D" := by cases m <;> decide
  simp only [make_sampling_fct_onechild, hf, this]
  rfl

theorem make_onechild3 (m : Lom8) {f} (hf : get_posterior_score_fct (code m "-3D") = .ok (.three f)) :
    make_sampling_fct_onechild (code m "-3D") = .ok (.three (sampling_onechild_3D f)) := by
  have : pyLastTwo (code m "-3D") = "3D" := by cases m <;> decide
  simp only [make_sampling_fct_onechild, hf, this]
  rfl

theorem siblings2_0 (A B : Member) : siblings [A, B] 0 = [B] := by simp [siblings]
theorem siblings2_1 (A B : Member) : siblings [A, B] 1 = [A] := by simp [siblings]

theorem siblings3_0 (A B C : Member) (hB : B.child_axis = 1) (hC : C.child_axis = 2) :
    siblings [A, B, C] 0 = [B, C] := by
  simp [siblings, List.mergeSort, List.MergeSort.Internal.splitInTwo, hB, hC]
theorem siblings3_1 (A B C : Member) (hA : A.child_axis = 0) (hC : C.child_axis = 2) :
    siblings [A, B, C] 1 = [A, C] := by
  simp [siblings, List.mergeSort, List.MergeSort.Internal.splitInTwo, hA, hC]
theorem siblings3_2 (A B C : Member) (hA : A.child_axis = 0) (hB : B.child_axis = 1) :
    siblings [A, B, C] 2 = [A, B] := by
  simp [siblings, List.mergeSort, List.MergeSort.Internal.splitInTwo, hA, hB]

end LFM

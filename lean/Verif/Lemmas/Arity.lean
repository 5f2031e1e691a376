import Verif.Props.Inferable
import Verif.Props.Parents

/-!
# Lemmas: the number of factors for which sampling functions exist
-/

namespace LFM

open Spec

theorem repr_eq_three {K : Nat} (h : (toString K).toList = ['3']) : K = 3 := by
  have h' : Nat.toDigits 10 K = ['3'] := by
    have : toString K = String.ofList (Nat.toDigits 10 K) := rfl
    rw [this] at h
    simpa using h
  by_cases hK : K < 10
  · rw [Nat.toDigits_of_lt_base hK] at h'
    interval_cases K <;> simp_all [Nat.digitChar]
  · rw [Nat.toDigits_of_base_le (by norm_num) (by omega)] at h'
    have := Nat.length_toDigits_pos (b := 10) (n := K / 10)
    have hl := congrArg List.length h'
    simp at hl

theorem digit_mem : ∀ (K : Nat) (c : Char), c ∈ Nat.toDigits 10 K →
    c ∈ ['0', '1', '2', '3', '4', '5', '6', '7', '8', '9'] := by
  intro K
  induction K using Nat.strong_induction_on with
  | _ K ih =>
    intro c hc
    have hd : ∀ d < 10, Nat.digitChar d ∈ ['0', '1', '2', '3', '4', '5', '6', '7', '8', '9'] := by decide
    by_cases hK : K < 10
    · rw [Nat.toDigits_of_lt_base hK, List.mem_singleton] at hc
      rw [hc]
      exact hd K hK
    · rw [Nat.toDigits_of_base_le (by norm_num) (by omega), List.mem_append, List.mem_singleton] at hc
      rcases hc with hc | rfl
      · exact ih (K / 10) (by omega) c hc
      · exact hd _ (Nat.mod_lt _ (by norm_num))

/-- the decimal digits of a number, as a suffix of names -/
theorem digits_suffix (K : Nat) : ∃ d : List Char,
    (∀ p : String, (pyDashToUnderscore (p ++ "-" ++ toString K ++ "D")).toList =
      (p.toList.map fun c => if c = '-' then '_' else c) ++ '_' :: (d ++ ['D'])) ∧
    (d ++ ['D'] = ['2', 'D'] → K = 2) ∧ (d ++ ['D'] = ['3', 'D'] → K = 3) ∧
    ∀ t, d ++ ['D'] ≠ 'I' :: t := by
  have hs : (toString K).toList = Nat.toDigits 10 K := by
    have : toString K = String.ofList (Nat.toDigits 10 K) := rfl
    rw [this, String.toList_ofList]
  have hmap : ((toString K).toList.map fun c => if c = '-' then '_' else c) = (toString K).toList := by
    rw [hs]
    conv_rhs => rw [← List.map_id (Nat.toDigits 10 K)]
    refine List.map_congr_left fun c hc => ?_
    have := digit_mem K c hc
    have h' : c ≠ '-' := by rintro rfl; revert this; decide
    simp [h']
  refine ⟨(toString K).toList, fun p => ?_, fun h => ?_, fun h => ?_, fun t h => ?_⟩
  · rw [pyDashToUnderscore, String.toList_ofList]
    simp only [String.toList_append, List.map_append, hmap]
    simp
  · exact repr_eq_two (List.append_cancel_right (bs := ['D']) h)
  · exact repr_eq_three (List.append_cancel_right (bs := ['D']) h)
  · cases hc : (toString K).toList with
    | nil => rw [hc] at h; simp at h
    | cons c cs =>
      rw [hc] at h
      simp only [List.cons_append, List.cons.injEq] at h
      have := digit_mem K c (by rw [← hs, hc]; simp)
      rw [h.1] at this
      revert this
      decide

/-- the names with a posterior score -/
def scoreNames : List String :=
  ["OR_AND_2D", "OR_NAND_2D", "OR_XOR_2D", "NAND_XOR_2D", "XOR_AND_2D", "XOR_XOR_2D", "XOR_NXOR_2D", "XOR_NAND_2D",
    "OR_AND_3D", "OR_NAND_3D", "OR_XOR_3D", "NAND_XOR_3D", "XOR_AND_3D", "XOR_XOR_3D", "XOR_NXOR_3D", "XOR_NAND_3D"]

theorem score_names {s : String} {f : ScoreFct} (h : get_posterior_score_fct s = .ok f) : s ∈ scoreNames := by
  by_contra hc
  simp only [scoreNames, List.mem_cons, List.not_mem_nil, or_false, not_or] at hc
  obtain ⟨h1, h2, h3, h4, h5, h6, h7, h8, h9, h10, h11, h12, h13, h14, h15, h16⟩ := hc
  simp only [get_posterior_score_fct, h1, h2, h3, h4, h5, h6, h7, h8, h9, h10, h11, h12, h13, h14, h15, h16, if_false] at h
  split at h
  · cases h
  · split at h <;> cases h

/-- beginnings of the names of generic models -/
def codePrefix : Lom8 → List Char
  | .OR_AND => ['O', 'R', '_', 'A', 'N', 'D', '_']
  | .OR_NAND => ['O', 'R', '_', 'N', 'A', 'N', 'D', '_']
  | .OR_XOR => ['O', 'R', '_', 'X', 'O', 'R', '_']
  | .NAND_XOR => ['N', 'A', 'N', 'D', '_', 'X', 'O', 'R', '_']
  | .XOR_AND => ['X', 'O', 'R', '_', 'A', 'N', 'D', '_']
  | .XOR_XOR => ['X', 'O', 'R', '_', 'X', 'O', 'R', '_']
  | .XOR_NXOR => ['X', 'O', 'R', '_', 'N', 'X', 'O', 'R', '_']
  | .XOR_NAND => ['X', 'O', 'R', '_', 'N', 'A', 'N', 'D', '_']

theorem codePrefix_eq (m : Lom8) (t : List Char) :
    (m.name.toList.map fun c => if c = '-' then '_' else c) ++ '_' :: t = codePrefix m ++ t := by
  have : (m.name.toList.map fun c => if c = '-' then '_' else c) ++ ['_'] = codePrefix m := by cases m <;> decide
  rw [← this, List.append_assoc]
  rfl

/-- a generic model with `K` factors has a name from the list only if there are two or three -/
theorem code_arity (m : Lom8) {K : Nat} (h2 : K ≠ 2) (h3 : K ≠ 3) :
    pyDashToUnderscore (m.name ++ "-" ++ toString K ++ "D") ∉ scoreNames ∧
    Generic (pyDashToUnderscore (m.name ++ "-" ++ toString K ++ "D")) := by
  obtain ⟨d, e1, e2, e3, e4⟩ := digits_suffix K
  have hn : ∀ T : String, pyDashToUnderscore (m.name ++ "-" ++ toString K ++ "D") = T →
      T.toList = codePrefix m ++ (d ++ ['D']) := by
    rintro T rfl; rw [← codePrefix_eq]; exact e1 _
  obtain ⟨t, ht⟩ : ∃ t, t = d ++ ['D'] := ⟨_, rfl⟩
  rw [← ht] at e2 e3 e4 hn
  have e2' : ['2', 'D'] ≠ t := fun h => h2 (e2 h.symm)
  have e3' : ['3', 'D'] ≠ t := fun h => h3 (e3 h.symm)
  have e4' : ['I', 'B', 'P', '_', '2', 'D'] ≠ t := fun h => e4 _ h.symm
  clear e1 e2 e3 ht
  constructor
  · intro h
    simp only [scoreNames, List.mem_cons, List.not_mem_nil, or_false] at h
    rcases h with h | h | h | h | h | h | h | h | h | h | h | h | h | h | h | h <;>
      (have h' := hn _ h; clear h hn; revert h'; cases m <;> simp [codePrefix, e2', e3'])
  · refine ⟨fun h => ?_, fun h => ?_, fun h => ?_⟩ <;>
      (have h' := hn _ h; clear h hn; revert h'; cases m <;> simp [codePrefix, e4'])

theorem no_score {s : String} (h : s ∉ scoreNames) : ∃ e, get_posterior_score_fct s = .error e := by
  cases hc : get_posterior_score_fct s with
  | error e => exact ⟨e, rfl⟩
  | ok f => exact absurd (score_names hc) h

/-- no sampling function can be assigned to a factor of a layer with other than two or three factors, or with three and a
layer on top of the factor -/
theorem family_fails (lom : Lom8) (ps : List Lom8) (fs : List Member)
    (hK : ¬ (fs.length = 2 ∨ fs.length = 3 ∧ ps = [])) (ax k : Nat) (q : ℝ) :
    ∃ e, get_sampling_fct none (some lom.name) fs ax k q (ps.map fun p => (p.name, 2)) = .error e := by
  push Not at hK
  obtain ⟨h2, h3⟩ := hK
  by_cases h3' : fs.length = 3
  · obtain ⟨A, B, C, rfl⟩ := List.length_eq_three.mp h3'
    match ps, h3 h3' with
    | [p], _ => exact ⟨_, (C23_three_factors_fail lom p p A B C ax k q).1⟩
    | p :: p' :: rest, _ =>
      rw [List.map_cons, List.map_cons, C24_extra_parents_ignored]
      exact ⟨_, (C23_three_factors_fail lom p p' A B C ax k q).2⟩
  · obtain ⟨hn, hg⟩ := code_arity lom h2 h3'
    obtain ⟨e, he⟩ := no_score hn
    refine ⟨e, ?_⟩
    match ps with
    | [] =>
      rw [List.map_nil, dispatch_onechild (relatives_none _ _) hg, make_sampling_fct_onechild, he]
      rfl
    | [p] =>
      rw [List.map_cons, List.map_nil, dispatch_onechild_oneparent (p1 := pyDashToUnderscore (p.name ++ "-2D")) rfl hg,
        make_sampling_fct_onechild_oneparent, he]
      rfl
    | p :: p' :: rest =>
      rw [List.map_cons, List.map_cons, C24_extra_parents_ignored,
        dispatch_onechild_twoparents (p1 := pyDashToUnderscore (p.name ++ "-2D"))
          (p2 := pyDashToUnderscore (p'.name ++ "-2D")) rfl hg,
        make_sampling_fct_onechild_twoparents, he]
      rfl

end LFM

import Verif.Lemmas.ScoreSums

/-!
# C14, C15: the update scores are exact score differences
-/

namespace LFM

open Spec

/-- **C14**, with the int16 return type in view: for each of the eight models the two-factor score
function that the update code looks up returns `S` wrapped to int16, where `2·S` is the sum over `d`
of `X[d]` times the change of the predicted cell when `Z[l]` goes from -1 to 1. -/
theorem C14_score_2d_wraps (m : Lom8) :
    ∃ f, get_posterior_score_fct (pyDashToUnderscore (m.name ++ "-2D")) = .ok (.two f) ∧
      ∀ (D L : Nat) (Z U X : Arr Int) (l : Nat), l < L → Z.shape = [L] → U.shape = [D, L] →
        PMArr Z → PMArr U →
        ∃ S, f Z U X l = wrap16 S ∧
          2 * S = twiceScore2 m D L (fun l => Z [l]) (fun d l => U [d, l]) (fun d => X [d]) l := by
  cases m
  · exact ⟨_, rfl, fun D L Z U X l hl hZ hU pZ pU => score_OR_AND_2D hl hZ hU pZ pU⟩
  · exact ⟨_, rfl, fun D L Z U X l hl hZ hU pZ pU => score_OR_NAND_2D hl hZ hU pZ pU⟩
  · exact ⟨_, rfl, fun D L Z U X l hl hZ hU pZ pU => score_OR_XOR_2D hl hZ hU pZ pU⟩
  · exact ⟨_, rfl, fun D L Z U X l hl hZ hU pZ pU => score_NAND_XOR_2D hl hZ hU pZ pU⟩
  · exact ⟨_, rfl, fun D L Z U X l hl hZ hU pZ pU => score_XOR_AND_2D hl hZ hU pZ pU⟩
  · exact ⟨_, rfl, fun D L Z U X l hl hZ hU pZ pU => score_XOR_XOR_2D hl hZ hU pZ pU⟩
  · exact ⟨_, rfl, fun D L Z U X l hl hZ hU pZ pU => score_XOR_NXOR_2D hl hZ hU pZ pU⟩
  · exact ⟨_, rfl, fun D L Z U X l hl hZ hU pZ pU => score_XOR_NAND_2D hl hZ hU pZ pU⟩

/-- **C14** (`_partial`: the claim for *all* `D` is false because of the int16 return type, see
`C14_int16_overflow`; it holds for `D ≤ 32767`). Twice the score is exactly the sum over `d` of
`X[d]` times the change of the predicted cell. -/
theorem C14_score_2d_partial (m : Lom8) :
    ∃ f, get_posterior_score_fct (pyDashToUnderscore (m.name ++ "-2D")) = .ok (.two f) ∧
      ∀ (D L : Nat) (Z U X : Arr Int) (l : Nat), l < L → Z.shape = [L] → U.shape = [D, L] →
        X.shape = [D] → PMArr Z → PMArr U → DataArr X → D ≤ 32767 →
        2 * f Z U X l =
          twiceScore2 m D L (fun l => Z [l]) (fun d l => U [d, l]) (fun d => X [d]) l := by
  obtain ⟨f, hf, h⟩ := C14_score_2d_wraps m
  refine ⟨f, hf, fun D L Z U X l hl hZ hU hX pZ pU pX hD => ?_⟩
  obtain ⟨S, hS, h2⟩ := h D L Z U X l hl hZ hU pZ pU
  have hb := twiceScore2_bound m D L (fun l => Z [l]) (fun d l => U [d, l]) (fun d => X [d]) l
    fun d hd => pX [d] (by rw [hX]; exact ⟨hd, trivial⟩)
  rw [hS, ← h2, wrap16, Int.bmod_eq_of_le] <;> omega

/-- **C14** fails for 32768 columns: all-ones data and factors, one latent dimension, OR-AND. The
exact score is 32768, the code returns -32768, i.e. pushes the entry the wrong way. -/
theorem C14_int16_overflow :
    posterior_score_OR_AND_2D (Arr.full [1] 1) (Arr.full [32768, 1] 1) (Arr.full [32768] 1) 0 = -32768 ∧
    twiceScore2 .OR_AND 32768 1 (fun _ => 1) (fun _ _ => 1) (fun _ => 1) 0 = 2 * 32768 := by
  have hpm : ∀ s, PMArr (Arr.full s 1) := fun s idx _ => Or.inl rfl
  have ht : twiceScore2 .OR_AND 32768 1 (fun _ => 1) (fun _ _ => 1) (fun _ => 1) 0 = 2 * 32768 := by
    have h1 : pred2 .OR_AND 1 (setEntry (fun _ => 1) 0 1) (fun _ => 1) = 1 := by
      rw [pred2, pm, if_pos]
      exact ⟨0, fun k => by match k with | 0 => rfl | 1 => rfl⟩
    have h0 : pred2 .OR_AND 1 (setEntry (fun _ => 1) 0 (-1)) (fun _ => 1) = -1 := by
      rw [pred2, pm, if_neg]
      rintro ⟨i, h⟩
      have := h 0
      rw [Fin.fin_one_eq_zero i] at this
      revert this; decide
    unfold twiceScore2
    simp only [h1, h0]
    simp
  refine ⟨?_, ht⟩
  obtain ⟨S, hS, h2⟩ := score_OR_AND_2D (D := 32768) (L := 1) (l := 0) (X := Arr.full [32768] 1)
    (by omega) rfl rfl (hpm [1]) (hpm [32768, 1])
  have : 2 * S = 2 * 32768 := h2.trans ht
  rw [hS, show S = 32768 by omega]
  decide

/-- non-vacuity of C14: a concrete non-zero score (2 = one cell explained, X = (1, 0, 1), D = 3) -/
example : posterior_score_OR_AND_2D (Arr.vec [-1, -1] 1) (Arr.mat 2 [[1, -1], [1, 1], [1, 1]] 1)
    (Arr.vec [1, 0, 1] 0) 0 = 2 := by decide

/-- **C15**, with the int64 return type in view. -/
theorem C15_score_3d_wraps (m : Lom8) :
    ∃ f, get_posterior_score_fct (pyDashToUnderscore (m.name ++ "-3D")) = .ok (.three f) ∧
      ∀ (D M L : Nat) (Z U V X : Arr Int) (l : Nat), l < L → Z.shape = [L] → U.shape = [D, L] →
        V.shape = [M, L] → PMArr Z → PMArr U → PMArr V →
        ∃ S, f Z U V X l = wrap64 S ∧
          2 * S = twiceScore3 m D M L (fun l => Z [l]) (fun d l => U [d, l]) (fun k l => V [k, l])
            (fun d k => X [d, k]) l := by
  cases m
  · exact ⟨_, rfl, fun D M L Z U V X l hl hZ hU hV pZ pU pV => score_OR_AND_3D hl hZ hU hV pZ pU pV⟩
  · exact ⟨_, rfl, fun D M L Z U V X l hl hZ hU hV pZ pU pV => score_OR_NAND_3D hl hZ hU hV pZ pU pV⟩
  · exact ⟨_, rfl, fun D M L Z U V X l hl hZ hU hV pZ pU pV => score_OR_XOR_3D hl hZ hU hV pZ pU pV⟩
  · exact ⟨_, rfl, fun D M L Z U V X l hl hZ hU hV pZ pU pV =>
      score_NAND_XOR_3D hl hZ hU hV pZ pU pV⟩
  · exact ⟨_, rfl, fun D M L Z U V X l hl hZ hU hV pZ pU pV => score_XOR_AND_3D hl hZ hU hV pZ pU pV⟩
  · exact ⟨_, rfl, fun D M L Z U V X l hl hZ hU hV pZ pU pV => score_XOR_XOR_3D hl hZ hU hV pZ pU pV⟩
  · exact ⟨_, rfl, fun D M L Z U V X l hl hZ hU hV pZ pU pV =>
      score_XOR_NXOR_3D hl hZ hU hV pZ pU pV⟩
  · exact ⟨_, rfl, fun D M L Z U V X l hl hZ hU hV pZ pU pV =>
      score_XOR_NAND_3D hl hZ hU hV pZ pU pV⟩

/-- **C15**. For each of the eight models twice the three-factor score is exactly the sum over the
cells `(d, k)` of `X[d, k]` times the change of the predicted cell (fewer than 2^63 cells). -/
theorem C15_score_3d (m : Lom8) :
    ∃ f, get_posterior_score_fct (pyDashToUnderscore (m.name ++ "-3D")) = .ok (.three f) ∧
      ∀ (D M L : Nat) (Z U V X : Arr Int) (l : Nat), l < L → Z.shape = [L] → U.shape = [D, L] →
        V.shape = [M, L] → X.shape = [D, M] → PMArr Z → PMArr U → PMArr V → DataArr X →
        D * M < 2 ^ 63 →
        2 * f Z U V X l = twiceScore3 m D M L (fun l => Z [l]) (fun d l => U [d, l])
          (fun k l => V [k, l]) (fun d k => X [d, k]) l := by
  obtain ⟨f, hf, h⟩ := C15_score_3d_wraps m
  refine ⟨f, hf, fun D M L Z U V X l hl hZ hU hV hX pZ pU pV pX hD => ?_⟩
  obtain ⟨S, hS, h2⟩ := h D M L Z U V X l hl hZ hU hV pZ pU pV
  have hb := twiceScore3_bound m D M L (fun l => Z [l]) (fun d l => U [d, l]) (fun k l => V [k, l])
    (fun d k => X [d, k]) l fun d k hd hk => pX [d, k] (by rw [hX]; exact ⟨hd, hk, trivial⟩)
  have hD' : ((D * M : Nat) : Int) < 2 ^ 63 := by exact_mod_cast hD
  rw [hS, ← h2, wrap64, Int.bmod_eq_of_le] <;> omega

/-- non-vacuity of C15: a concrete non-zero score -/
example : posterior_score_XOR_AND_3D (Arr.vec [-1, 1] 1) (Arr.mat 2 [[1, 1], [1, -1]] 1)
    (Arr.mat 2 [[1, 1]] 1) (Arr.mat 1 [[-1], [1]] 0) 0 = 2 := by decide

end LFM

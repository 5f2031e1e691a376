import Verif.Props.Lambda

/-!
# C105: lambda with pseudo-counts that may be zero
-/

namespace LFM

open Spec

/-- the value that the update assigns to lambda, given `P` correct out of `ND` predictions and pseudo-counts `a` and `b` that
may be zero. With at least one correct and one wrong (pseudo-)prediction it is the finite value of C27. Without wrong ones it
is infinite, without correct ones it is zero, without any it is nan. -/
structure IsLambdaAny (P ND : Nat) (a b : ℝ) (r : Except Err NpF) : Prop where
  finite : 0 < (P : ℝ) + a → 0 < (ND : ℝ) - P + b → ∃ lbda : ℝ, r = .ok (.fin lbda) ∧ 0 ≤ lbda ∧
    sigmoid lbda = max (1 / 2) ((P + a) / (ND + a + b))
  perfect : 0 < (P : ℝ) + a → (ND : ℝ) - P + b = 0 → r = .ok .posInf
  wrong : (P : ℝ) + a = 0 → 0 < (ND : ℝ) - P + b → r = .ok (.fin 0)
  none : (P : ℝ) + a = 0 → (ND : ℝ) - P + b = 0 → r = .ok .nan

theorem isLambdaAny (P ND : Nat) (a b : ℝ) : IsLambdaAny P ND a b (.ok (lbda_value P ND a b)) := by
  have hcast : (((ND : Int) : ℝ)) = (ND : ℝ) := by push_cast; rfl
  refine ⟨fun hp hw => ?_, fun hp hw => ?_, fun hp hw => ?_, fun hp hw => ?_⟩
  · obtain ⟨-, l, h1, h2, h3⟩ := isLambdaFor (P := 0) (ND := 0) le_rfl hp hw
    refine ⟨l, ?_, h2, ?_⟩
    · rw [← h1]
      unfold lbda_value
      congr 6
      · push_cast; ring
      · push_cast; ring
    · rw [h3]
      congr 2
      · push_cast; ring
      · push_cast; ring
  · unfold lbda_value npDiv
    have e : ((ND : Int) : ℝ) + a + b = P + a := by rw [hcast]; linarith
    rw [if_neg hp.ne', e, div_self hp.ne']
    simp [NpF.sub, NpF.log, NpF.neg, NpF.max]
  · unfold lbda_value npDiv
    have e : 0 < ((ND : Int) : ℝ) + a + b := by rw [hcast]; linarith
    rw [if_pos hp, if_neg e.ne', if_pos e]
    simp [NpF.sub, NpF.log, NpF.neg, NpF.max]
  · unfold lbda_value npDiv
    have e : ((ND : Int) : ℝ) + a + b = 0 := by rw [hcast]; linarith
    rw [if_pos hp, if_pos e]
    simp [NpF.sub, NpF.log, NpF.neg, NpF.max]

/-- **C105**, two factors: the value of lambda for all pseudo-counts, including zero -/
theorem C105_lambda_2d (m : Lom8) :
    ∃ f, get_update_fct none m.name 2 = .ok f ∧
      ∀ (N D L : Nat) (Z U X q : Arr Int) (a b : ℝ), Z.shape = [N, L] → U.shape = [D, L] →
        X.shape = [N, D] → PMArr Z → PMArr U →
        IsLambdaAny
          (correct2 m N D L (fun n d => X [n, d]) (fun n l => Z [n, l]) (fun d l => U [d, l]))
          (observed2 N D fun n d => X [n, d]) a b (f.run [Z, U] X q (a, b)) := by
  obtain ⟨c, hc, spec⟩ := C26_correct_predictions_2d m
  refine ⟨.lom (.two c), ?_, ?_⟩
  · unfold get_update_fct
    simp only []
    rw [if_neg (by cases m <;> decide)]
    unfold make_lbda_update_fct
    rw [if_neg (by cases m <;> decide), if_neg (by cases m <;> decide), hc]
    rfl
  · intro N D L Z U X q a b hZ hU hX pZ pU
    obtain ⟨h1, h2, h3⟩ := spec N D L Z U X hZ hU hX pZ pU
    unfold LbdaUpdate.run
    simp only [h1, h3]
    exact isLambdaAny _ _ a b

/-- **C105**, three factors -/
theorem C105_lambda_3d (m : Lom8) :
    ∃ f, get_update_fct none m.name 3 = .ok f ∧
      ∀ (N D M L : Nat) (Z U V X q : Arr Int) (a b : ℝ), Z.shape = [N, L] → U.shape = [D, L] →
        V.shape = [M, L] → X.shape = [N, D, M] → PMArr Z → PMArr U → PMArr V →
        IsLambdaAny
          (correct3 m N D M L (fun n d k => X [n, d, k]) (fun n l => Z [n, l]) (fun d l => U [d, l])
            (fun k l => V [k, l]))
          (observed3 N D M fun n d k => X [n, d, k]) a b (f.run [Z, U, V] X q (a, b)) := by
  obtain ⟨c, hc, spec⟩ := C26_correct_predictions_3d m
  refine ⟨.lom (.three c), ?_, ?_⟩
  · unfold get_update_fct
    simp only []
    rw [if_neg (by cases m <;> decide)]
    unfold make_lbda_update_fct
    rw [if_neg (by cases m <;> decide), if_neg (by cases m <;> decide), hc]
    rfl
  · intro N D M L Z U V X q a b hZ hU hV hX pZ pU pV
    obtain ⟨h1, h2, h3⟩ := spec N D M L Z U V X hZ hU hV hX pZ pU pV
    unfold LbdaUpdate.run
    simp only [h1, h3]
    exact isLambdaAny _ _ a b

/-- **C105**, qL-AND -/
theorem C105_lambda_qL :
    ∃ f, get_update_fct none "qL-AND" 2 = .ok f ∧
      ∀ (N D L : Nat) (Z U X q : Arr Int) (a b : ℝ), Z.shape = [N, L] → U.shape = [D, L] →
        X.shape = [N, D] → (∀ d < D, 1 ≤ q [0, d]) →
        IsLambdaAny
          (correctQ N D L (fun n d => X [n, d]) (fun n l => Z [n, l]) (fun d l => U [d, l])
            (fun d => q [0, d]))
          (observed2 N D fun n d => X [n, d]) a b (f.run [Z, U] X q (a, b)) := by
  obtain ⟨c, hc, spec⟩ := C26_correct_predictions_qL 2
  refine ⟨.qL (.qL c), ?_, ?_⟩
  · unfold get_update_fct make_lbda_update_fct
    simp only []
    rw [if_neg (by decide), if_pos trivial, hc]; rfl
  · intro N D L Z U X q a b hZ hU hX hq
    obtain ⟨h1, h2⟩ := spec N D L Z U X (q.row 0) hZ hU hX hq
    have h3 : num_observed X = observed2 N D fun n d => X [n, d] := by
      rw [num_observed_eq_countP, hX, countP_indices2]; rfl
    unfold LbdaUpdate.run
    simp only [h1, h3]
    exact isLambdaAny _ _ a b

/-- all four cases of C105 occur -/
theorem C105_hypotheses_met : (∃ l, 0 < l ∧ lbda_value 3 4 0 0 = .fin l) ∧ lbda_value 4 4 0 0 = .posInf ∧
    lbda_value 0 4 0 0 = .fin 0 ∧ (match lbda_value 0 0 0 0 with | .nan => True | _ => False) ∧
    lamZ.shape = [2, 2] ∧ lamU.shape = [2, 2] ∧ lamX.shape = [2, 2] ∧ PMArr lamZ ∧ PMArr lamU := by
  have h (P ND : Nat) := isLambdaAny P ND 0 0
  refine ⟨?_, ?_, ?_, ?_, rfl, rfl, rfl, lam_pm.1, lam_pm.2⟩
  · obtain ⟨l, h1, h2, h3⟩ := (h 3 4).finite (by norm_num) (by norm_num)
    refine ⟨l, lt_of_le_of_ne h2 ?_, by simpa using h1⟩
    rintro rfl
    norm_num [sigmoid] at h3
  · simpa using (h 4 4).perfect (by norm_num) (by norm_num)
  · simpa using (h 0 4).wrong (by norm_num) (by norm_num)
  · have := (h 0 0).none (by norm_num) (by norm_num)
    simp only [Except.ok.injEq] at this
    have e : lbda_value 0 0 0 0 = .nan := by simpa using this
    rw [e]
    trivial

end LFM

import Verif.Lemmas.Lambda
import Verif.Props.Outputs

/-!
# C26, C27, C28: the dispersion parameter

`Spec.correct2`, `Spec.observed2`, ... count cells by the specification of the models (`Spec.pred2`), not
by the code's output functions.
-/

namespace LFM

open Spec

/-- every correctly predicted cell is observed: predictions are never 0 -/
theorem correct_le_observed {ι : Type} [Fintype ι] (x : ι → Int) (P : ι → Prop)
    (q1 : DecidablePred fun i => x i = pm (P i)) :
    (Finset.univ.filter fun i => x i = pm (P i)).card ≤ (Finset.univ.filter fun i => x i ≠ 0).card := by
  apply Finset.card_le_card
  intro i hi
  simp only [Finset.mem_filter, Finset.mem_univ, true_and] at hi ⊢
  rw [hi, pm]
  split <;> decide

/-- **C26**, two factors. The counter made for each of the eight models counts exactly the cells whose
value equals the model's prediction; this never exceeds the number of observed cells, which the update
computes as `np.prod(shape) - count_nonzero(data == 0)`. -/
theorem C26_correct_predictions_2d (m : Lom8) :
    ∃ c, make_correct_predictions_counter m.name 2 = .ok (.two c) ∧
      ∀ (N D L : Nat) (Z U X : Arr Int), Z.shape = [N, L] → U.shape = [D, L] → X.shape = [N, D] →
        PMArr Z → PMArr U →
        c Z U X = correct2 m N D L (fun n d => X [n, d]) (fun n l => Z [n, l]) (fun d l => U [d, l]) ∧
        c Z U X ≤ observed2 N D (fun n d => X [n, d]) ∧
        num_observed X = observed2 N D (fun n d => X [n, d]) := by
  obtain ⟨f, hf, hspec⟩ := C01_two_factor_outputs m
  refine ⟨count_correct_2d f, by
    unfold make_correct_predictions_counter
    have h1 : m.name ≠ "OR-AND-IBP" := by cases m <;> decide
    have h2 : m.name ≠ "qL-AND" := by cases m <;> decide
    simp only [h1, h2, if_false, if_true, hf], ?_⟩
  intro N D L Z U X hZ hU hX pZ pU
  have hc : count_correct_2d f Z U X =
      correct2 m N D L (fun n d => X [n, d]) (fun n l => Z [n, l]) (fun d l => U [d, l]) := by
    rw [count_correct_2d_eq f Z U X N D hX, correct2]
    congr 1
    ext i
    obtain ⟨h1, h2⟩ := pZ.row hZ i.1.2
    obtain ⟨h3, h4⟩ := pU.row hU i.2.2
    simp only [Finset.mem_filter, Finset.mem_univ, true_and]
    rw [hspec L _ _ h1 h3 h2 h4, eq_comm]
    rfl
  refine ⟨hc, ?_, ?_⟩
  · rw [hc]
    exact correct_le_observed (fun i : Fin N × Fin D => X [i.1, i.2]) _ _
  · rw [num_observed_eq_countP, hX, countP_indices2]; rfl

/-- **C26**, three factors. -/
theorem C26_correct_predictions_3d (m : Lom8) :
    ∃ c, make_correct_predictions_counter m.name 3 = .ok (.three c) ∧
      ∀ (N D M L : Nat) (Z U V X : Arr Int), Z.shape = [N, L] → U.shape = [D, L] → V.shape = [M, L] →
        X.shape = [N, D, M] → PMArr Z → PMArr U → PMArr V →
        c Z U V X = correct3 m N D M L (fun n d k => X [n, d, k]) (fun n l => Z [n, l])
          (fun d l => U [d, l]) (fun k l => V [k, l]) ∧
        c Z U V X ≤ observed3 N D M (fun n d k => X [n, d, k]) ∧
        num_observed X = observed3 N D M (fun n d k => X [n, d, k]) := by
  obtain ⟨f, hf, hspec⟩ := C02_three_factor_outputs m
  refine ⟨count_correct_3d f, by
    unfold make_correct_predictions_counter
    have h1 : m.name ≠ "OR-AND-IBP" := by cases m <;> decide
    have h2 : m.name ≠ "qL-AND" := by cases m <;> decide
    simp [h1, h2, hf], ?_⟩
  intro N D M L Z U V X hZ hU hV hX pZ pU pV
  have hc : count_correct_3d f Z U V X = correct3 m N D M L (fun n d k => X [n, d, k])
      (fun n l => Z [n, l]) (fun d l => U [d, l]) (fun k l => V [k, l]) := by
    rw [count_correct_3d_eq f Z U V X N D M hX, correct3]
    congr 1
    ext i
    obtain ⟨h1, h2⟩ := pZ.row hZ i.1.2
    obtain ⟨h3, h4⟩ := pU.row hU i.2.1.2
    obtain ⟨h5, h6⟩ := pV.row hV i.2.2.2
    simp only [Finset.mem_filter, Finset.mem_univ, true_and]
    rw [hspec L _ _ _ h1 h3 h5 h2 h4 h6, eq_comm]
    rfl
  refine ⟨hc, ?_, ?_⟩
  · rw [hc]
    exact correct_le_observed (fun i : Fin N × Fin D × Fin M => X [i.1, i.2.1, i.2.2]) _ _
  · rw [num_observed_eq_countP, hX, countP_indices3]; rfl

/-- **C26**, qL-AND: cells whose value equals "at least `q_d` active dimensions" (thresholds ≥ 1). -/
theorem C26_correct_predictions_qL (dim : Nat) :
    ∃ c, make_correct_predictions_counter "qL-AND" dim = .ok (.qL c) ∧
      ∀ (N D L : Nat) (Z U X q : Arr Int), Z.shape = [N, L] → U.shape = [D, L] → X.shape = [N, D] →
        (∀ d < D, 1 ≤ q [d]) →
        c Z U X q = correctQ N D L (fun n d => X [n, d]) (fun n l => Z [n, l]) (fun d l => U [d, l])
          (fun d => q [d]) ∧
        c Z U X q ≤ observed2 N D (fun n d => X [n, d]) := by
  refine ⟨count_correct_qL, rfl, ?_⟩
  intro N D L Z U X q hZ hU hX hq
  have hc : count_correct_qL Z U X q = correctQ N D L (fun n d => X [n, d]) (fun n l => Z [n, l])
      (fun d l => U [d, l]) (fun d => q [d]) := by
    rw [count_correct_qL_eq Z U X q N D hX, correctQ]
    congr 1
    ext i
    have h1 : (Z.row i.1).shape = [L] := by simp [Arr.row, hZ]
    simp only [Finset.mem_filter, Finset.mem_univ, true_and]
    rw [C05_qL_threshold L _ _ _ h1 (hq _ i.2.2), eq_comm]
    rfl
  refine ⟨hc, ?_⟩
  rw [hc]
  exact correct_le_observed (fun i : Fin N × Fin D => X [i.1, i.2]) _ _

/-- the IBP model counts like OR-AND -/
theorem C26_ibp_counts_as_or_and (dim : Nat) :
    make_correct_predictions_counter "OR-AND-IBP" dim = make_correct_predictions_counter "OR-AND" dim :=
  rfl

/-- non-vacuity of C26: a 2×2 array with one missing, one wrong and two correct cells -/
def lamZ : Arr Int := Arr.mat 2 [[1, -1], [1, 1]] 1
/-- second factor of the example -/
def lamU : Arr Int := Arr.mat 2 [[1, 1], [-1, 1]] 1
/-- data of the example: the predictions are `[[1, -1], [1, 1]]` -/
def lamX : Arr Int := Arr.mat 2 [[1, 1], [0, 1]] 1

theorem lam_pm : PMArr lamZ ∧ PMArr lamU := by
  constructor <;> rintro idx hi <;>
  match idx, hi with
  | [0, 0], _ => unfold IsPM; decide
  | [0, 1], _ => unfold IsPM; decide
  | [1, 0], _ => unfold IsPM; decide
  | [1, 1], _ => unfold IsPM; decide

example : lamZ.shape = [2, 2] ∧ lamU.shape = [2, 2] ∧ lamX.shape = [2, 2] ∧ PMArr lamZ ∧ PMArr lamU ∧
    count_correct_2d OR_AND_product lamZ lamU lamX = 2 ∧ num_observed lamX = 3 :=
  ⟨rfl, rfl, rfl, lam_pm.1, lam_pm.2, by decide, by decide⟩

/-- the value assigned to lambda by the update, given counts `P ≤ ND`: it is finite, non-negative, the
logarithm is taken of a positive number, and its sigmoid is the smoothed accuracy, at least `1/2` -/
def IsLambdaFor (P ND : Nat) (a b : ℝ) (r : Except Err NpF) : Prop :=
  0 < ((ND : ℝ) + a + b) / (P + a) - 1 ∧ ∃ lbda : ℝ, r = .ok (.fin lbda) ∧ 0 ≤ lbda ∧
    sigmoid lbda = max (1 / 2) ((P + a) / (ND + a + b))

theorem isLambdaFor {P ND : Nat} {a b : ℝ} (hP : P ≤ ND) (ha : 0 < a) (hb : 0 < b) :
    IsLambdaFor P ND a b (.ok (lbda_value P ND a b)) := by
  obtain ⟨h1, h2⟩ := lbda_value_pos (P := P) (ND := ND) (by exact_mod_cast hP) ha hb
  push_cast at h1 h2
  refine ⟨h1, _, by rw [h2], le_max_right _ _, ?_⟩
  exact sigmoid_lbda (by exact_mod_cast hP) (by positivity) ha hb

/-- **C27**, two factors: for each of the eight models (nothing cached) and every Beta prior with
positive parameters, the update found by `get_update_fct` assigns the smoothed accuracy. -/
theorem C27_lambda_smoothed_accuracy_2d (m : Lom8) :
    ∃ f, get_update_fct none m.name 2 = .ok f ∧
      ∀ (N D L : Nat) (Z U X q : Arr Int) (a b : ℝ), Z.shape = [N, L] → U.shape = [D, L] →
        X.shape = [N, D] → PMArr Z → PMArr U → 0 < a → 0 < b →
        IsLambdaFor
          (correct2 m N D L (fun n d => X [n, d]) (fun n l => Z [n, l]) (fun d l => U [d, l]))
          (observed2 N D fun n d => X [n, d]) a b (f.run [Z, U] X q (a, b)) := by
  obtain ⟨c, hc, spec⟩ := C26_correct_predictions_2d m
  refine ⟨.lom (.two c), ?_, ?_⟩
  · unfold get_update_fct
    simp only []
    rw [if_neg (by cases m <;> decide)]
    unfold make_lbda_update_fct
    rw [if_neg (by cases m <;> decide), if_neg (by cases m <;> decide), hc]
    rfl
  · intro N D L Z U X q a b hZ hU hX pZ pU ha hb
    obtain ⟨h1, h2, h3⟩ := spec N D L Z U X hZ hU hX pZ pU
    unfold LbdaUpdate.run
    simp only [h1, h3]
    exact isLambdaFor (h1 ▸ h2) ha hb

/-- **C27**, three factors. -/
theorem C27_lambda_smoothed_accuracy_3d (m : Lom8) :
    ∃ f, get_update_fct none m.name 3 = .ok f ∧
      ∀ (N D M L : Nat) (Z U V X q : Arr Int) (a b : ℝ), Z.shape = [N, L] → U.shape = [D, L] →
        V.shape = [M, L] → X.shape = [N, D, M] → PMArr Z → PMArr U → PMArr V → 0 < a → 0 < b →
        IsLambdaFor
          (correct3 m N D M L (fun n d k => X [n, d, k]) (fun n l => Z [n, l]) (fun d l => U [d, l])
            (fun k l => V [k, l]))
          (observed3 N D M fun n d k => X [n, d, k]) a b (f.run [Z, U, V] X q (a, b)) := by
  obtain ⟨c, hc, spec⟩ := C26_correct_predictions_3d m
  refine ⟨.lom (.three c), ?_, ?_⟩
  · unfold get_update_fct
    simp only []
    rw [if_neg (by cases m <;> decide)]
    unfold make_lbda_update_fct
    rw [if_neg (by cases m <;> decide), if_neg (by cases m <;> decide), hc]
    rfl
  · intro N D M L Z U V X q a b hZ hU hV hX pZ pU pV ha hb
    obtain ⟨h1, h2, h3⟩ := spec N D M L Z U V X hZ hU hV hX pZ pU pV
    unfold LbdaUpdate.run
    simp only [h1, h3]
    exact isLambdaFor (h1 ▸ h2) ha hb

/-- **C27**, qL-AND with thresholds in row 0 of `q`. -/
theorem C27_lambda_smoothed_accuracy_qL :
    ∃ f, get_update_fct none "qL-AND" 2 = .ok f ∧
      ∀ (N D L : Nat) (Z U X q : Arr Int) (a b : ℝ), Z.shape = [N, L] → U.shape = [D, L] →
        X.shape = [N, D] → (∀ d < D, 1 ≤ q [0, d]) → 0 < a → 0 < b →
        IsLambdaFor
          (correctQ N D L (fun n d => X [n, d]) (fun n l => Z [n, l]) (fun d l => U [d, l])
            (fun d => q [0, d]))
          (observed2 N D fun n d => X [n, d]) a b (f.run [Z, U] X q (a, b)) := by
  obtain ⟨c, hc, spec⟩ := C26_correct_predictions_qL 2
  refine ⟨.qL (.qL c), ?_, ?_⟩
  · unfold get_update_fct make_lbda_update_fct
    simp only []
    rw [if_neg (by decide), if_pos trivial, hc]; rfl
  · intro N D L Z U X q a b hZ hU hX hq ha hb
    obtain ⟨h1, h2⟩ := spec N D L Z U X (q.row 0) hZ hU hX hq
    have h3 : num_observed X = observed2 N D fun n d => X [n, d] := by
      rw [num_observed_eq_countP, hX, countP_indices2]; rfl
    unfold LbdaUpdate.run
    simp only [h1, h3]
    exact isLambdaFor (h1 ▸ h2) ha hb

/-- without pseudo-wrong counts (`b = 0`) a perfect reconstruction makes lambda infinite, which is why
C27 needs `b > 0` -/
theorem C27_zero_beta_infinite (ND : Nat) (a : ℝ) (ha : 0 < a) : lbda_value ND ND a 0 = .posInf := by
  have hpa : 0 < (ND : ℝ) + a := by positivity
  have h : ((ND : Int) : ℝ) + a + 0 = ND + a := by push_cast; ring
  unfold lbda_value npDiv
  rw [if_neg hpa.ne', h, div_self hpa.ne']
  simp [NpF.sub, NpF.log, NpF.neg, NpF.max]

/-- a value of lambda that beats every other non-negative candidate under `P` correct, `ND - P` wrong
predictions with `a` pseudo-correct and `b` pseudo-wrong ones -/
def IsUniqueMaximiser (P ND : Nat) (a b lbda : ℝ) : Prop :=
  0 ≤ lbda ∧ ∀ mu, 0 ≤ mu → mu ≠ lbda → regLogLik P ND a b mu < regLogLik P ND a b lbda

theorem IsLambdaFor.unique {P ND : Nat} {a b : ℝ} {r : Except Err NpF} (hP : P ≤ ND) (ha : 0 < a)
    (hb : 0 < b) (h : IsLambdaFor P ND a b r) :
    ∃ lbda, r = .ok (.fin lbda) ∧ IsUniqueMaximiser P ND a b lbda := by
  obtain ⟨-, lbda, h1, h2, h3⟩ := h
  exact ⟨lbda, h1, h2, fun mu hmu hne =>
    regLogLik_lt (by exact_mod_cast hP) (by positivity) ha hb h3 hmu hne⟩

/-- **C28**, two factors: the value assigned is the only maximiser of the regularised likelihood among
all `lambda ≥ 0`. -/
theorem C28_lambda_maximises_2d (m : Lom8) :
    ∃ f, get_update_fct none m.name 2 = .ok f ∧
      ∀ (N D L : Nat) (Z U X q : Arr Int) (a b : ℝ), Z.shape = [N, L] → U.shape = [D, L] →
        X.shape = [N, D] → PMArr Z → PMArr U → 0 < a → 0 < b →
        ∃ lbda, f.run [Z, U] X q (a, b) = .ok (.fin lbda) ∧ IsUniqueMaximiser
          (correct2 m N D L (fun n d => X [n, d]) (fun n l => Z [n, l]) (fun d l => U [d, l]))
          (observed2 N D fun n d => X [n, d]) a b lbda := by
  obtain ⟨f, hf, h⟩ := C27_lambda_smoothed_accuracy_2d m
  refine ⟨f, hf, fun N D L Z U X q a b hZ hU hX pZ pU ha hb => ?_⟩
  obtain ⟨c, -, spec⟩ := C26_correct_predictions_2d m
  obtain ⟨h1, h2, -⟩ := spec N D L Z U X hZ hU hX pZ pU
  exact (h N D L Z U X q a b hZ hU hX pZ pU ha hb).unique (h1 ▸ h2) ha hb

/-- **C28**, three factors. -/
theorem C28_lambda_maximises_3d (m : Lom8) :
    ∃ f, get_update_fct none m.name 3 = .ok f ∧
      ∀ (N D M L : Nat) (Z U V X q : Arr Int) (a b : ℝ), Z.shape = [N, L] → U.shape = [D, L] →
        V.shape = [M, L] → X.shape = [N, D, M] → PMArr Z → PMArr U → PMArr V → 0 < a → 0 < b →
        ∃ lbda, f.run [Z, U, V] X q (a, b) = .ok (.fin lbda) ∧ IsUniqueMaximiser
          (correct3 m N D M L (fun n d k => X [n, d, k]) (fun n l => Z [n, l]) (fun d l => U [d, l])
            (fun k l => V [k, l]))
          (observed3 N D M fun n d k => X [n, d, k]) a b lbda := by
  obtain ⟨f, hf, h⟩ := C27_lambda_smoothed_accuracy_3d m
  refine ⟨f, hf, fun N D M L Z U V X q a b hZ hU hV hX pZ pU pV ha hb => ?_⟩
  obtain ⟨c, -, spec⟩ := C26_correct_predictions_3d m
  obtain ⟨h1, h2, -⟩ := spec N D M L Z U V X hZ hU hV hX pZ pU pV
  exact (h N D M L Z U V X q a b hZ hU hV hX pZ pU pV ha hb).unique (h1 ▸ h2) ha hb

/-- non-vacuity of C27/C28: three of four correct with the default prior `(1, 1)` gives
`sigmoid(lambda) = 4/6`; one of four correct gives `lambda = 0` -/
example : IsLambdaFor 3 4 1 1 (.ok (lbda_value 3 4 1 1)) ∧ IsLambdaFor 1 4 1 1 (.ok (lbda_value 1 4 1 1)) ∧
    max (1 / 2) (((3 : Nat) + 1 : ℝ) / ((4 : Nat) + 1 + 1)) = 4 / 6 ∧
    max (1 / 2) (((1 : Nat) + 1 : ℝ) / ((4 : Nat) + 1 + 1)) = 1 / 2 :=
  ⟨isLambdaFor (by norm_num) one_pos one_pos, isLambdaFor (by norm_num) one_pos one_pos,
    by norm_num, by norm_num⟩

end LFM

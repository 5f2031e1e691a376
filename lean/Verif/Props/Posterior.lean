import Verif.Lemmas.Flip
import Verif.Model.MatrixWrappers
import Verif.Props.Scores

/-!
# C16, C17, C18: posterior log-odds and the flip functions
-/

namespace LFM

open Spec MeasureTheory

/-- **C16**, two factors (`_partial`: up to 32767 columns, because the score is an int16, see
`C14_int16_overflow`). The logit that the sampling function computes for `Z[n, l]`,
`lambda * score + logit(bernoulli_prior)`, is the difference of the log of likelihood times prior
between `Z[n, l] = 1` and `Z[n, l] = -1`. -/
theorem C16_log_odds_2d_partial (m : Lom8) :
    ∃ f, get_posterior_score_fct (pyDashToUnderscore (m.name ++ "-2D")) = .ok (.two f) ∧
      ∀ (N D L : Nat) (Z U X : Arr Int) (lbda q : ℝ) (n l : Nat), n < N → l < L →
        Z.shape = [N, L] → U.shape = [D, L] → X.shape = [N, D] → PMArr Z → PMArr U → DataArr X →
        D ≤ 32767 → 0 < q → q < 1 →
        let G : Factor := fun d l => U [d, l]
        let F : Factor := fun n l => Z [n, l]
        let joint := fun F => lik2 m N D L lbda (fun n d => X [n, d]) F G * priorProb q N L F
        lbda * f (Z.row n) U (X.row n) l + logit q =
          Real.log (joint (F.set n l 1)) - Real.log (joint (F.set n l (-1))) := by
  obtain ⟨f, hf, h⟩ := C14_score_2d_partial m
  refine ⟨f, hf, fun N D L Z U X lbda q n l hn hl hZ hU hX pZ pU pX hD h0 h1 => ?_⟩
  intro G F joint
  have hdata : ∀ n d, n < N → d < D → IsData (X [n, d]) := fun n d hn hd =>
    pX [n, d] (by rw [hX]; exact ⟨hn, hd, trivial⟩)
  have hXs : (X.row n).shape = [D] := by simp [Arr.row, hX]
  have hXr : DataArr (X.row n) := fun idx hi => by
    rw [hXs] at hi; exact pX (n :: idx) (by rw [hX]; exact ⟨hn, hi⟩)
  have hs := h D L (Z.row n) U (X.row n) l hl (pZ.row hZ hn).1 hU hXs (pZ.row hZ hn).2 pU hXr hD
  have ha := agreement2_set m N D L (fun n d => X [n, d]) F G n l hn
  have hl2 := log_lik2_sub m N D L lbda (fun n d => X [n, d]) (F.set n l 1) G (F.set n l (-1)) G hdata
  have hpr := log_priorProb_set h0 h1 N L F hn hl
  show _ = Real.log (_ * _) - Real.log (_ * _)
  rw [Real.log_mul (lik2_pos _ _ _ _ _ _ _ _).ne' (priorProb_pos h0 h1 _ _ _).ne',
    Real.log_mul (lik2_pos _ _ _ _ _ _ _ _).ne' (priorProb_pos h0 h1 _ _ _).ne', logit]
  have hs' : 2 * f (Z.row n) U (X.row n) l =
      agreement2 m N D L (fun n d => X [n, d]) (F.set n l 1) G -
        agreement2 m N D L (fun n d => X [n, d]) (F.set n l (-1)) G := hs.trans ha.symm
  rw [← hs'] at hl2
  push_cast at hl2
  linarith

/-- **C16**, three factors. -/
theorem C16_log_odds_3d (m : Lom8) :
    ∃ f, get_posterior_score_fct (pyDashToUnderscore (m.name ++ "-3D")) = .ok (.three f) ∧
      ∀ (N D M L : Nat) (Z U V X : Arr Int) (lbda q : ℝ) (n l : Nat), n < N → l < L →
        Z.shape = [N, L] → U.shape = [D, L] → V.shape = [M, L] → X.shape = [N, D, M] →
        PMArr Z → PMArr U → PMArr V → DataArr X → D * M < 2 ^ 63 → 0 < q → q < 1 →
        let G : Factor := fun d l => U [d, l]
        let H : Factor := fun k l => V [k, l]
        let F : Factor := fun n l => Z [n, l]
        let joint := fun F => lik3 m N D M L lbda (fun n d k => X [n, d, k]) F G H * priorProb q N L F
        lbda * f (Z.row n) U V (X.row n) l + logit q =
          Real.log (joint (F.set n l 1)) - Real.log (joint (F.set n l (-1))) := by
  obtain ⟨f, hf, h⟩ := C15_score_3d m
  refine ⟨f, hf, fun N D M L Z U V X lbda q n l hn hl hZ hU hV hX pZ pU pV pX hD h0 h1 => ?_⟩
  intro G H F joint
  have hdata : ∀ n d k, n < N → d < D → k < M → IsData (X [n, d, k]) := fun n d k hn hd hk =>
    pX [n, d, k] (by rw [hX]; exact ⟨hn, hd, hk, trivial⟩)
  have hXs : (X.row n).shape = [D, M] := by simp [Arr.row, hX]
  have hXr : DataArr (X.row n) := fun idx hi => by
    rw [hXs] at hi; exact pX (n :: idx) (by rw [hX]; exact ⟨hn, hi⟩)
  have hs := h D M L (Z.row n) U V (X.row n) l hl (pZ.row hZ hn).1 hU hV hXs (pZ.row hZ hn).2 pU pV
    hXr hD
  have ha := agreement3_set m N D M L (fun n d k => X [n, d, k]) F G H n l hn
  have hl2 := log_lik3_sub m N D M L lbda (fun n d k => X [n, d, k]) (F.set n l 1) G H
    (F.set n l (-1)) G H hdata
  have hpr := log_priorProb_set h0 h1 N L F hn hl
  show _ = Real.log (_ * _) - Real.log (_ * _)
  rw [Real.log_mul (lik3_pos _ _ _ _ _ _ _ _ _ _).ne' (priorProb_pos h0 h1 _ _ _).ne',
    Real.log_mul (lik3_pos _ _ _ _ _ _ _ _ _ _).ne' (priorProb_pos h0 h1 _ _ _).ne', logit]
  have hs' : 2 * f (Z.row n) U V (X.row n) l =
      agreement3 m N D M L (fun n d k => X [n, d, k]) (F.set n l 1) G H -
        agreement3 m N D M L (fun n d k => X [n, d, k]) (F.set n l (-1)) G H := hs.trans ha.symm
  rw [← hs'] at hl2
  push_cast at hl2
  linarith

/-- non-vacuity of C16: legal arrays with a missing cell for which the log-odds are not zero:
with one column, `lambda = 1`, prior 1/2 the logit of `Z[0, 0]` is 1 -/
example : (1 : ℝ) * posterior_score_OR_AND_2D ((Arr.mat 1 [[-1]] 1).row 0) (Arr.mat 1 [[1], [1]] 1)
    ((Arr.mat 2 [[1, 0]] 0).row 0) 0 + logit (1 / 2) = 1 := by
  have : posterior_score_OR_AND_2D ((Arr.mat 1 [[-1]] 1).row 0) (Arr.mat 1 [[1], [1]] 1)
    ((Arr.mat 2 [[1, 0]] 0).row 0) 0 = 1 := by decide
  rw [this]; norm_num [logit]

/-- **C17**. With a draw uniform on `[0, 1)` an entry flips with probability
`min(1, exp(-z · logit_p))`, otherwise it stays; -/
theorem C17_flip_probability (x : ℝ) (z : Int) (hz : IsPM z) :
    volume {u | u ∈ Set.Ico (0 : ℝ) 1 ∧ flip_metropolised_gibbs_numba x z u = -z} =
        ENNReal.ofReal (min 1 (Real.exp (-(z : ℝ) * x))) ∧
      volume {u | u ∈ Set.Ico (0 : ℝ) 1 ∧ flip_metropolised_gibbs_numba x z u = z} =
        ENNReal.ofReal (1 - min 1 (Real.exp (-(z : ℝ) * x))) :=
  ⟨volume_flip x hz, volume_stay x hz⟩

/-- **C17** hence the flip is reversible with respect to Bernoulli(sigmoid(logit_p)). -/
theorem C17_reversible (x : ℝ) :
    ENNReal.ofReal (sigmoid x) *
        volume {u | u ∈ Set.Ico (0 : ℝ) 1 ∧ flip_metropolised_gibbs_numba x 1 u = -1} =
      ENNReal.ofReal (1 - sigmoid x) *
        volume {u | u ∈ Set.Ico (0 : ℝ) 1 ∧ flip_metropolised_gibbs_numba x (-1) u = 1} := by
  have h1 := volume_flip x (z := 1) (Or.inl rfl)
  have h2 := volume_flip x (z := -1) (Or.inr rfl)
  rw [neg_neg] at h2
  rw [h1, h2, ← sigmoid_neg, ← ENNReal.ofReal_mul (sigmoid_pos _).le,
    ← ENNReal.ofReal_mul (sigmoid_pos _).le]
  congr 1
  push_cast
  rw [neg_neg, one_mul, neg_one_mul, sigmoid_neg_eq]
  have h : Real.exp (-x) * Real.exp x = 1 := by rw [← Real.exp_add]; simp
  rcases le_total x 0 with hx | hx
  · rw [min_eq_left (Real.one_le_exp_iff.2 (by linarith)), min_eq_right (Real.exp_le_one_iff.2 hx)]
    linear_combination (-(sigmoid x)) * h
  · rw [min_eq_right (Real.exp_le_one_iff.2 (by linarith)), min_eq_left (Real.one_le_exp_iff.2 hx)]
    ring

/-- non-vacuity of C17: for logit 1 a one flips with probability `1/e`, neither 0 nor 1 -/
example : volume {u | u ∈ Set.Ico (0 : ℝ) 1 ∧ flip_metropolised_gibbs_numba 1 1 u = -1} =
    ENNReal.ofReal (Real.exp (-1)) := by
  rw [(C17_flip_probability 1 1 (Or.inl rfl)).1]
  congr 1
  push_cast
  rw [mul_one, min_eq_right (Real.exp_le_one_iff.2 (by norm_num))]

/-- **C18**. The two versions of the metropolised flip give the same result from the same draw. -/
theorem C18_flip_versions_agree (x : ℝ) (z : Int) (hz : IsPM z) (u : ℝ) :
    flip_metropolised_gibbs_numba_classic (sigmoid x) z u = flip_metropolised_gibbs_numba x z u := by
  have hpos := sigmoid_pos x
  have hlt := sigmoid_lt_one x
  have e1 : (1 - sigmoid x) / sigmoid x = Real.exp (-x) := by
    rw [← sigmoid_neg, sigmoid_neg_eq, mul_div_assoc, div_self hpos.ne', mul_one]
  have e2 : sigmoid x / (1 - sigmoid x) = Real.exp x := by
    have h := sigmoid_neg_eq (-x)
    rw [neg_neg, sigmoid_neg] at h
    rw [div_eq_iff (by linarith)]
    exact h
  rcases hz with rfl | rfl
  · simp only [flip_metropolised_gibbs_numba_classic, flip_metropolised_gibbs_numba, if_true,
      sigmoid_le_half_iff, e1]
    simp
  · simp only [flip_metropolised_gibbs_numba_classic, flip_metropolised_gibbs_numba, ge_iff_le,
      half_le_sigmoid_iff, e2]
    simp

/-- **C18**, second part: `flip_gibbs_numba(p)` returns 1 with probability `p` and -1 with probability
`1 - p`, independently of the current state; Bernoulli(p) is therefore invariant. -/
theorem C18_gibbs_flip (p : ℝ) (h0 : 0 ≤ p) (h1 : p ≤ 1) :
    volume {u | u ∈ Set.Ico (0 : ℝ) 1 ∧ flip_gibbs_numba p u = 1} = ENNReal.ofReal p ∧
      volume {u | u ∈ Set.Ico (0 : ℝ) 1 ∧ flip_gibbs_numba p u = -1} = ENNReal.ofReal (1 - p) := by
  have s1 : {u | u ∈ Set.Ico (0 : ℝ) 1 ∧ flip_gibbs_numba p u = 1} = Set.Ico 0 p := by
    ext u
    simp only [Set.mem_ofPred_eq, Set.mem_Ico, flip_gibbs_numba]
    split
    · rename_i h; constructor
      · rintro ⟨h, _⟩; exact ⟨h.1, by linarith⟩
      · rintro ⟨h, _⟩; exact ⟨⟨h, by linarith⟩, rfl⟩
    · rename_i h; constructor
      · rintro ⟨_, h'⟩; exact absurd h' (by decide)
      · rintro ⟨_, h'⟩; exact absurd h' h
  have s2 : {u | u ∈ Set.Ico (0 : ℝ) 1 ∧ flip_gibbs_numba p u = -1} = Set.Ico p 1 := by
    ext u
    simp only [Set.mem_ofPred_eq, Set.mem_Ico, flip_gibbs_numba]
    split
    · rename_i h; constructor
      · rintro ⟨_, h'⟩; exact absurd h' (by decide)
      · rintro ⟨h', _⟩; linarith
    · rename_i h; constructor
      · rintro ⟨h', _⟩; exact ⟨by linarith, h'.2⟩
      · rintro ⟨h', h''⟩; exact ⟨⟨by linarith, h''⟩, rfl⟩
  rw [s1, s2, Real.volume_Ico, Real.volume_Ico, sub_zero]
  exact ⟨rfl, rfl⟩

/-- non-vacuity of C18: both branches of the classic version occur -/
example : flip_metropolised_gibbs_numba_classic (sigmoid 1) (-1) 0.9 = 1 ∧
    flip_metropolised_gibbs_numba_classic (sigmoid (-1)) (-1) 0.9 = -1 := by
  rw [C18_flip_versions_agree 1 (-1) (Or.inr rfl), C18_flip_versions_agree (-1) (-1) (Or.inr rfl)]
  constructor
  · norm_num [flip_metropolised_gibbs_numba]
  · have : ¬ (9 / 10 < Real.exp (-1)) := by
      have := Real.add_one_le_exp (1 : ℝ)
      rw [Real.exp_neg, not_lt, inv_le_comm₀ (Real.exp_pos 1) (by norm_num)]
      norm_num; linarith
    norm_num [flip_metropolised_gibbs_numba]
    linarith

end LFM

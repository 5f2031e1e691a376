import Mathlib.Analysis.SpecialFunctions.Log.Basic
import Mathlib.Tactic.FieldSimp
import Mathlib.Tactic.Linarith
import Mathlib.Tactic.Positivity
import Verif.Spec.Lambda
import Verif.Lemmas.Counting
import Verif.Lemmas.Posterior
import Verif.Lemmas.Flip

/-! Real-number facts about the lambda update. -/

namespace LFM

open Spec

theorem sigmoid_strictMono : StrictMono sigmoid := by
  intro a b h
  unfold sigmoid
  apply one_div_lt_one_div_of_lt (by positivity)
  have := Real.exp_lt_exp.2 (neg_lt_neg h)
  linarith

theorem sigmoid_zero : sigmoid 0 = 1 / 2 := by simp [sigmoid]; norm_num

theorem sigmoid_neg_log {x : ℝ} (hx : 0 < x) : sigmoid (-Real.log x) = 1 / (1 + x) := by
  unfold sigmoid; rw [neg_neg, Real.exp_log hx]

theorem lbda_value_pos {P : Nat} {ND : Int} {a b : ℝ} (hP : (P : Int) ≤ ND) (ha : 0 < a)
    (hb : 0 < b) : 0 < (ND + a + b) / (P + a) - 1 ∧
    lbda_value P ND a b = .fin (max (-Real.log ((ND + a + b) / (P + a) - 1)) 0) := by
  have hPr : (P : ℝ) ≤ ND := by exact_mod_cast hP
  have hpa : 0 < (P : ℝ) + a := by positivity
  have hx : 0 < (ND + a + b) / (P + a) - 1 := by
    rw [sub_pos, lt_div_iff₀ hpa]; linarith
  refine ⟨hx, ?_⟩
  unfold lbda_value npDiv
  rw [if_neg hpa.ne']
  simp only [NpF.sub, NpF.log]
  rw [if_neg hx.ne', if_neg (not_lt.2 hx.le)]
  rfl

theorem sigmoid_lbda {P ND a b : ℝ} (hP : P ≤ ND) (h0 : 0 ≤ P) (ha : 0 < a) (hb : 0 < b) :
    sigmoid (max (-Real.log ((ND + a + b) / (P + a) - 1)) 0) =
      max (1 / 2) ((P + a) / (ND + a + b)) := by
  have hpa : 0 < P + a := by positivity
  have hx : 0 < (ND + a + b) / (P + a) - 1 := by
    rw [sub_pos, lt_div_iff₀ hpa]; linarith
  rw [sigmoid_strictMono.monotone.map_max, sigmoid_zero, sigmoid_neg_log hx, max_comm]
  rw [add_sub_cancel, one_div_div]

/-- Gibbs' inequality, constrained to `s ≥ 1/2` -/
theorem gibbs_half {p q s : ℝ} (hp : 0 < p) (hq : 0 < q) (hs : 1 / 2 ≤ s) (hs1 : s < 1)
    (hne : s ≠ max (1 / 2) (p / (p + q))) :
    p * Real.log s + q * Real.log (1 - s) <
      p * Real.log (max (1 / 2) (p / (p + q))) + q * Real.log (1 - max (1 / 2) (p / (p + q))) := by
  have key : ∀ t, 0 < t → t < 1 → s ≠ t →
      p * (s / t - 1) + q * ((1 - s) / (1 - t) - 1) ≤ 0 →
      p * Real.log s + q * Real.log (1 - s) < p * Real.log t + q * Real.log (1 - t) := by
    intro t ht0 ht1 hst hle
    have h1 : Real.log s - Real.log t < s / t - 1 := by
      rw [← Real.log_div (by linarith) ht0.ne']
      exact Real.log_lt_sub_one_of_pos (div_pos (by linarith) ht0)
        (fun h => hst ((div_eq_one_iff_eq ht0.ne').1 h))
    have h2 : Real.log (1 - s) - Real.log (1 - t) ≤ (1 - s) / (1 - t) - 1 := by
      rw [← Real.log_div (by linarith) (by linarith)]
      exact Real.log_le_sub_one_of_pos (div_pos (by linarith) (by linarith))
    nlinarith
  rcases le_total (p / (p + q)) (1 / 2) with h | h
  · rw [max_eq_left h] at hne ⊢
    refine key _ (by norm_num) (by norm_num) hne ?_
    have hpq : p ≤ q := by
      rw [div_le_iff₀ (by positivity)] at h; linarith
    have : p * (s / (1 / 2) - 1) + q * ((1 - s) / (1 - 1 / 2) - 1) = (2 * s - 1) * (p - q) := by
      ring
    rw [this]
    exact mul_nonpos_of_nonneg_of_nonpos (by linarith) (by linarith)
  · rw [max_eq_right h] at hne ⊢
    have h1 : p / (p + q) < 1 := by rw [div_lt_one (by positivity)]; linarith
    refine key _ (by positivity) h1 hne ?_
    have h2 : 1 - p / (p + q) = q / (p + q) := by field_simp; ring
    rw [h2]
    apply le_of_eq
    field_simp
    ring

theorem regLogLik_lt {P ND a b lbda mu : ℝ} (hP : P ≤ ND) (h0 : 0 ≤ P) (ha : 0 < a) (hb : 0 < b)
    (hl : sigmoid lbda = max (1 / 2) ((P + a) / (ND + a + b))) (hmu : 0 ≤ mu) (hne : mu ≠ lbda) :
    regLogLik P ND a b mu < regLogLik P ND a b lbda := by
  unfold regLogLik
  rw [sigmoid_neg, sigmoid_neg, hl]
  have e : (P + a) / (ND + a + b) = (P + a) / ((P + a) + (ND - P + b)) := by congr 1; ring
  rw [e] at hl ⊢
  apply gibbs_half (by linarith) (by linarith)
  · rw [← sigmoid_zero]; exact sigmoid_strictMono.monotone hmu
  · exact sigmoid_lt_one mu
  · rw [← hl]; exact fun h => hne (sigmoid_strictMono.injective h)

end LFM

import Verif.Props.Invariance

/-!
# C16, C19, C22 beyond 32767 columns

The two-factor score functions return int16. The theorems `C16_log_odds_2d_partial`,
`C22_axes_2d_partial` and `C19_posterior_invariant_2d_partial` therefore stop at 32767 columns; this file
shows that the limit is not an artefact of the proofs: with one more column each of the three claims is
false. The witness is an OR-AND layer with one latent dimension, all-ones data with one row and 32768
columns, and an all-ones second factor.
-/

namespace LFM

open Spec MeasureTheory

/-- the second factor of the witness: 32768 × 1, all ones -/
def wideCfg : Cfg 32768 1 := fun _ => true

/-- the data of the witness: 1 × 32768, all ones -/
def wideX : Arr Int := Arr.full [1, 32768] 1

theorem wideX_data : DataArr wideX := fun _ _ => by simp [IsData, wideX, Arr.full]

/-- helper: the int16 score depends only on entries inside the arrays; for the witness it is -32768 -/
theorem wide_score (Z U X : Arr Int) (hZ : Z.shape = [1]) (hU : U.shape = [32768, 1])
    (pZ : PMArr Z) (hU1 : ∀ d, d < 32768 → U [d, 0] = 1) (hX1 : ∀ d, d < 32768 → X [d] = 1) :
    posterior_score_OR_AND_2D Z U X 0 = -32768 := by
  have pU : PMArr U := fun idx hi => by
    rw [hU] at hi
    match idx, hi with
    | [d, l], ⟨hd, hl, _⟩ =>
      obtain rfl : l = 0 := by omega
      exact Or.inl (hU1 d hd)
  obtain ⟨S, hS, h2⟩ := score_OR_AND_2D (D := 32768) (L := 1) (l := 0) (X := X) (by omega) hZ hU pZ pU
  have h1 : ∀ d : Fin 32768, pred2 .OR_AND 1 (setEntry (fun l => Z [l]) 0 1) (fun l => U [(d : Nat), l]) = 1 := by
    intro d
    rw [pred2, pm, if_pos]
    refine ⟨0, fun k => ?_⟩
    match k with
    | 0 => rfl
    | 1 => exact hU1 d d.2
  have h0 : ∀ d : Fin 32768, pred2 .OR_AND 1 (setEntry (fun l => Z [l]) 0 (-1)) (fun l => U [(d : Nat), l]) = -1 := by
    intro d
    rw [pred2, pm, if_neg]
    rintro ⟨i, h⟩
    have := h 0
    rw [Fin.fin_one_eq_zero i] at this
    revert this; simp [setEntry]
  have ht : 2 * S = 2 * 32768 := by
    rw [h2]
    unfold twiceScore2
    simp only [h1, h0]
    rw [Finset.sum_congr rfl (g := fun _ => (2 : Int)) (fun d _ => by rw [hX1 d d.2]; norm_num)]
    simp
  rw [hS, show S = 32768 by omega]
  decide

theorem wideCfg_one {d : Nat} (hd : d < 32768) : wideCfg.arr [d, 0] = 1 := by
  simp [Cfg.arr, Cfg.fac, wideCfg, sgn, hd]

theorem wideX_row {d : Nat} (n : Nat) : (wideX.row n) [d] = 1 := rfl

/-- helper: the agreement of data and prediction changes by `2 * 32768` -/
theorem wide_agreement (F : Factor) :
    agreement2 .OR_AND 1 32768 1 (fun n d => wideX [n, d]) (F.set 0 0 1) wideCfg.fac -
      agreement2 .OR_AND 1 32768 1 (fun n d => wideX [n, d]) (F.set 0 0 (-1)) wideCfg.fac = 2 * 32768 := by
  rw [agreement2_set _ _ _ _ _ _ _ _ _ (by omega)]
  have h1 : ∀ d : Fin 32768, pred2 .OR_AND 1 (setEntry (F 0) 0 1) (wideCfg.fac d) = 1 := by
    intro d
    rw [pred2, pm, if_pos]
    refine ⟨0, fun k => ?_⟩
    match k with
    | 0 => rfl
    | 1 => exact wideCfg_one d.2
  have h0 : ∀ d : Fin 32768, pred2 .OR_AND 1 (setEntry (F 0) 0 (-1)) (wideCfg.fac d) = -1 := by
    intro d
    rw [pred2, pm, if_neg]
    rintro ⟨i, h⟩
    have := h 0
    rw [Fin.fin_one_eq_zero i] at this
    revert this; simp [setEntry]
  unfold twiceScore2
  simp only [h1, h0]
  rw [Finset.sum_congr rfl (g := fun _ => (2 : Int)) (fun d _ => by
    show (1 : Int) * (1 - -1) = 2; norm_num)]
  simp

/-- helper: log-odds of the entry under likelihood times prior -/
theorem wide_odds (lbda : ℝ) (F : Factor) :
    Real.log (lik2 .OR_AND 1 32768 1 lbda (fun n d => wideX [n, d]) (F.set 0 0 1) wideCfg.fac *
        priorProb (1 / 2) 1 1 (F.set 0 0 1)) -
      Real.log (lik2 .OR_AND 1 32768 1 lbda (fun n d => wideX [n, d]) (F.set 0 0 (-1)) wideCfg.fac *
        priorProb (1 / 2) 1 1 (F.set 0 0 (-1))) = 32768 * lbda := by
  have h0 : (0 : ℝ) < 1 / 2 := by norm_num
  have h1 : (1 / 2 : ℝ) < 1 := by norm_num
  have hdata : ∀ n d, n < 1 → d < 32768 → IsData (wideX [n, d]) := fun n d hn hd =>
    wideX_data [n, d] ⟨hn, hd, trivial⟩
  have hl := log_lik2_sub .OR_AND 1 32768 1 lbda (fun n d => wideX [n, d]) (F.set 0 0 1) wideCfg.fac
    (F.set 0 0 (-1)) wideCfg.fac hdata
  have hp := log_priorProb_set h0 h1 1 1 F (i := 0) (l := 0) (by omega) (by omega)
  rw [Real.log_mul (lik2_pos _ _ _ _ _ _ _ _).ne' (priorProb_pos h0 h1 _ _ _).ne',
    Real.log_mul (lik2_pos _ _ _ _ _ _ _ _).ne' (priorProb_pos h0 h1 _ _ _).ne']
  rw [wide_agreement] at hl
  have : Real.log ((1 / 2 : ℝ) / (1 - 1 / 2)) = 0 := by norm_num
  push_cast at hl
  linarith

/-- **C16** fails for 32768 columns: for every lambda and either value of the entry the logit the code
computes is `-32768 * lambda`, the log-odds under likelihood times prior are `32768 * lambda`. -/
theorem C16_wrong (lbda : ℝ) (a : Cfg 1 1) :
    ∃ f, get_posterior_score_fct (pyDashToUnderscore (Lom8.OR_AND.name ++ "-2D")) = .ok (.two f) ∧
      lbda * f (a.arr.row 0) wideCfg.arr (wideX.row 0) 0 + logit (1 / 2) = -(32768 * lbda) ∧
      let joint := fun F => lik2 .OR_AND 1 32768 1 lbda (fun n d => wideX [n, d]) F wideCfg.fac *
        priorProb (1 / 2) 1 1 F
      Real.log (joint (a.fac.set 0 0 1)) - Real.log (joint (a.fac.set 0 0 (-1))) = 32768 * lbda := by
  refine ⟨posterior_score_OR_AND_2D, rfl, ?_, wide_odds lbda a.fac⟩
  have hr := (Cfg.arr_pm a).row (n := 0) rfl (by omega)
  rw [wide_score _ _ _ hr.1 rfl hr.2 (fun d hd => wideCfg_one hd) (fun d _ => wideX_row 0)]
  norm_num [logit]
  ring

/-- helper: the sampler the code assigns to the first factor -/
theorem wide_get (Z U : Member) (hZ : Z.child_axis = 0) (hU : U.child_axis = 1) (q : ℝ) :
    get_sampling_fct none (some Lom8.OR_AND.name) [Z, U] Z.child_axis 0 q [] =
      .ok (.lom (.two (sampling_onechild_2D posterior_score_OR_AND_2D)) [0, 1] (logit q)) := by
  have hmk := make_onechild2 .OR_AND (f := posterior_score_OR_AND_2D) rfl
  rw [dispatch_onechild (factors := [Z, U]) (relatives2 .OR_AND) (generic_code2 .OR_AND), hmk]
  simp [Except.map, axisOrder, siblings2_0, hZ, hU]

/-- helper: it takes 1 to -1 whatever the draws -/
theorem wide_run (Z U : Member) (hZ : Z.val.shape = [1, 1]) (hp : PMArr Z.val) (h1 : Z.val [0, 0] = 1)
    (hU : U.val = wideCfg.arr) (hf : Z.fixed_entries [0, 0] = 0) (lbda : ℝ) (hl : 0 < lbda) (rnd : Rnd) :
    ∃ R, (Sampler.lom (.two (sampling_onechild_2D posterior_score_OR_AND_2D)) [0, 1] (logit (1 / 2))).run
        Z [Z, U] 0 wideX lbda [] rnd = .ok R ∧ R.shape = [1, 1] ∧ R [0, 0] = -1 := by
  refine ⟨_, by simp only [Sampler.run, siblings2_0, List.map]; rfl, ?_⟩
  rw [sampling_onechild_2D_eq, Arr.dim, Arr.dim, hZ]
  have hr := hp.row (n := 0) hZ (by omega)
  have hs : posterior_score_OR_AND_2D (Z.val.row 0) U.val ((wideX.transpose [0, 1]).row 0) 0 = -32768 := by
    rw [hU]
    exact wide_score _ _ _ hr.1 rfl hr.2 (fun d hd => wideCfg_one hd) (fun d _ => rfl)
  show (sweep _ _ _ [[0, 0]] _).shape = _ ∧ (sweep _ _ _ [[0, 0]] _) [0, 0] = _
  simp only [sweep, List.foldl, updEntry, hf]
  have h0 : lbda * ((posterior_score_OR_AND_2D (Z.val.row (i0 [0, 0])) U.val
      ((wideX.transpose [0, 1]).row (i0 [0, 0])) (i1 [0, 0]) : Int) : ℝ) + logit (1 / 2) ≤ 0 := by
    rw [show i0 [0, 0] = 0 from rfl, show i1 [0, 0] = 0 from rfl, hs]
    norm_num [logit]
    exact hl.le
  generalize lbda * ((posterior_score_OR_AND_2D (Z.val.row (i0 [0, 0])) U.val
      ((wideX.transpose [0, 1]).row (i0 [0, 0])) (i1 [0, 0]) : Int) : ℝ) + logit (1 / 2) = x at h0 ⊢
  simp [Arr.set, hZ, flip_metropolised_gibbs_numba, h1, h0]

/-- **C22** fails for 32768 columns: the sampling function that the code assigns to the first factor
takes its entry from 1 to -1 whatever the draws, though 1 agrees with 32768 more cells than -1. -/
theorem C22_wrong (A B : Member) (hA : A.child_axis = 0) (hB : B.child_axis = 1)
    (hf : A.fixed_entries [0, 0] = 0) (hq : A.bernoulli_prior = 1 / 2) (lbda : ℝ) (hl : 0 < lbda) :
    let Z : Member := { A with val := Arr.full [1, 1] 1 }
    let U : Member := { B with val := wideCfg.arr }
    IsLayer2 1 32768 1 Z U wideX ∧
    ∃ s, get_sampling_fct none (some Lom8.OR_AND.name) [Z, U] A.child_axis 0 A.bernoulli_prior [] = .ok s ∧
      (∀ rnd, ∃ R, s.run Z [Z, U] 0 wideX lbda [] rnd = .ok R ∧ R.shape = [1, 1] ∧ R [0, 0] = -1) ∧
      agreement2 .OR_AND 1 32768 1 (fun n d => wideX [n, d]) ((facOf Z.val).set 0 0 1) (facOf U.val) -
        agreement2 .OR_AND 1 32768 1 (fun n d => wideX [n, d]) ((facOf Z.val).set 0 0 (-1)) (facOf U.val) =
        2 * 32768 := by
  intro Z U
  have hp : PMArr Z.val := fun _ _ => Or.inl rfl
  refine ⟨⟨rfl, rfl, rfl, hp, Cfg.arr_pm _, wideX_data, hA, hB⟩, _, wide_get Z U hA hB _, ?_, ?_⟩
  · intro rnd
    rw [hq]
    exact wide_run Z U rfl hp rfl rfl hf lbda hl rnd
  · exact wide_agreement _

/-- **C19** fails for 32768 columns: the posterior is not preserved by the sampling function of the first
factor. -/
theorem C19_wrong (A B : Member) (hA : A.child_axis = 0) (hB : B.child_axis = 1)
    (hf : A.fixed_entries [0, 0] = 0) (hqA : A.bernoulli_prior = 1 / 2) (hqB : B.bernoulli_prior = 1 / 2)
    (lbda : ℝ) (hl : 0 < lbda) :
    let layer : Cfg 1 1 → List Member := fun a => [{ A with val := a.arr }, { B with val := wideCfg.arr }]
    ∃ s, (∀ a, get_sampling_fct none (some Lom8.OR_AND.name) (layer a) A.child_axis 0 A.bernoulli_prior [] =
        .ok s) ∧
      let W : Cfg 1 1 → ENNReal := fun a => ENNReal.ofReal
        (lik2 .OR_AND 1 32768 1 lbda (fun n d => wideX [n, d]) a.fac wideCfg.fac *
          priorProb A.bernoulli_prior 1 1 a.fac * priorProb B.bernoulli_prior 32768 1 wideCfg.fac)
      let step : Cfg 1 1 → Cfg 1 1 → ENNReal := transition fun Z rnd =>
        s.run { A with val := Z } [{ A with val := Z }, { B with val := wideCfg.arr }] 0 wideX lbda [] rnd
      ∑ a, W a * step a (fun _ => true) < W (fun _ => true) := by
  intro layer
  refine ⟨.lom (.two (sampling_onechild_2D posterior_score_OR_AND_2D)) [0, 1] (logit A.bernoulli_prior),
    fun a => wide_get { A with val := a.arr } { B with val := wideCfg.arr } hA hB A.bernoulli_prior, ?_⟩
  intro W step
  have hne : (fun _ => true : Cfg 1 1) ≠ (fun _ => false) := by decide
  have huniv : (Finset.univ : Finset (Cfg 1 1)) = {fun _ => true, fun _ => false} := by decide
  have hstep : step (fun _ => true) (fun _ => true) = 0 := by
    show uniformDraws 1 1 _ = 0
    convert measure_empty (μ := uniformDraws 1 1)
    ext u
    simp only [Set.mem_setOf_eq, Set.mem_empty_iff_false, iff_false]
    rintro ⟨R, hR, hH⟩
    obtain ⟨R', hR', _, hneg⟩ := wide_run { A with val := Cfg.arr (N := 1) (L := 1) (fun _ => true) }
      { B with val := wideCfg.arr } rfl (Cfg.arr_pm _) rfl rfl hf lbda hl (rndOf u)
    rw [← hqA] at hR'
    rw [hR] at hR'
    cases hR'
    have := hH.2 0 0
    rw [show R [((0 : Fin 1) : Nat), ((0 : Fin 1) : Nat)] = -1 from hneg] at this
    exact absurd this (by decide)
  have hle : step (fun _ => false) (fun _ => true) ≤ 1 := by
    refine le_trans (measure_mono (Set.subset_univ _)) ?_
    simp [uniformDraws, Measure.pi_univ]
  rw [huniv, Finset.sum_pair hne, hstep, mul_zero, zero_add]
  refine lt_of_le_of_lt (mul_le_of_le_one_right' hle) ?_
  have h0 : (0 : ℝ) < 1 / 2 := by norm_num
  have h1 : (1 / 2 : ℝ) < 1 := by norm_num
  show ENNReal.ofReal _ < ENNReal.ofReal _
  rw [hqA, hqB]
  have hpos := fun F => mul_pos (lik2_pos .OR_AND 1 32768 1 lbda (fun n d => wideX [n, d]) F wideCfg.fac)
    (priorProb_pos h0 h1 1 1 F)
  have hB' := priorProb_pos h0 h1 32768 1 wideCfg.fac
  refine (ENNReal.ofReal_lt_ofReal_iff (mul_pos (hpos _) hB')).2 (mul_lt_mul_of_pos_right ?_ hB')
  refine (Real.log_lt_log_iff (hpos _) (hpos _)).1 ?_
  have ho := wide_odds lbda (fun _ _ => 1)
  have e : ∀ b : Bool, Cfg.fac (N := 1) (L := 1) (fun _ => b) = Factor.set (fun _ _ => 1) 0 0 (sgn b) := by
    intro b
    funext n l
    simp only [Cfg.fac, Factor.set]
    by_cases hn : n = 0 ∧ l = 0
    · simp [hn]
    · rw [dif_neg (by omega), if_neg hn]
  rw [e, e]
  simp only [sgn, if_true, Bool.false_eq_true, if_false]
  linarith

/-- non-vacuity: members that meet the hypotheses of `C19_wrong` and `C22_wrong` -/
example : ∃ A B : Member, A.child_axis = 0 ∧ B.child_axis = 1 ∧ A.fixed_entries [0, 0] = 0 ∧
    A.bernoulli_prior = 1 / 2 ∧ B.bernoulli_prior = 1 / 2 :=
  ⟨⟨Arr.full [1, 1] 1, Arr.full [1, 1] 0, 0, 1 / 2⟩, ⟨wideCfg.arr, Arr.full [32768, 1] 0, 1, 1 / 2⟩,
    rfl, rfl, rfl, rfl, rfl⟩

end LFM

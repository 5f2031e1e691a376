import Mathlib.Probability.Distributions.Beta
import Mathlib.MeasureTheory.Measure.Typeclasses.NoAtoms
import Verif.Props.StoredLambda

/-!
# C112: stored lambdas are not samples from the posterior distribution of lambda

`lambda` is learned, not sampled: given the factors, it is always the same number (C91). So the stored lambdas are
elements of a finite set that only depends on the number of observed cells and the prior, which has probability zero
under the posterior for every prior on lambda without atoms, like the Beta prior on its sigmoid.
-/

namespace LFM

open Spec MeasureTheory ProbabilityTheory

open scoped ENNReal

namespace Spec

/-- Bayes' formula for the sigmoid `p` of lambda, up to a constant, with the factors summed out. Factors `fs c` have prior
weights `w c`; `p` has prior `π` independently; cells are what the factors predict with probability `p`, independently. -/
noncomputable def accuracyPosterior {C : Type} [Fintype C] (lom : Lom8) (X : Arr Int) (fs : C → List (Arr Int))
    (w : C → ℝ≥0∞) (π : Measure ℝ) : Measure ℝ :=
  ∑ c, w c • π.withDensity fun p =>
    ENNReal.ofReal (p ^ correctCells lom (fs c) X * (1 - p) ^ (observedCells X - correctCells lom (fs c) X))

/-- the posterior distribution of the sigmoid of lambda: a distribution that is proportional to Bayes' formula -/
def IsAccuracyPosterior {C : Type} [Fintype C] (lom : Lom8) (X : Arr Int) (fs : C → List (Arr Int)) (w : C → ℝ≥0∞)
    (π μ : Measure ℝ) : Prop :=
  IsProbabilityMeasure μ ∧ ∃ k : ℝ≥0∞, μ = k • accuracyPosterior lom X fs w π

/-- the possible accuracies of `n` predictions, smoothed by `a` and `b`, those below `1/2` replaced by `1/2` -/
noncomputable def smoothedAccuracies (n : Nat) (a b : ℝ) : Finset ℝ :=
  (Finset.range (n + 1)).image fun c : Nat => max (1 / 2) (((c : ℝ) + a) / (n + a + b))

end Spec

theorem pred2_ne_zero (m : Lom8) (L : Nat) (f g : Nat → Int) : pred2 m L f g ≠ 0 := by
  unfold pred2 pm; split <;> decide

theorem pred3_ne_zero (m : Lom8) (L : Nat) (f g h : Nat → Int) : pred3 m L f g h ≠ 0 := by
  unfold pred3 pm; split <;> decide

/-- no more cells are predicted correctly than are observed -/
theorem correctCells_le {lom : Lom8} {fs : List (Arr Int)} {X : Arr Int} (h : fs.length = X.shape.length) :
    correctCells lom fs X ≤ observedCells X := by
  unfold correctCells observedCells
  split
  · obtain ⟨N, D, hX⟩ := List.length_eq_two.mp h.symm
    simp only [hX, Arr.dim]
    refine Finset.card_le_card fun i hi => Finset.mem_filter.mpr ⟨Finset.mem_univ _, fun h0 => ?_⟩
    have := (Finset.mem_filter.mp hi).2
    rw [h0] at this
    exact pred2_ne_zero _ _ _ _ this.symm
  · obtain ⟨N, D, M, hX⟩ := List.length_eq_three.mp h.symm
    simp only [hX, Arr.dim]
    refine Finset.card_le_card fun i hi => Finset.mem_filter.mpr ⟨Finset.mem_univ _, fun h0 => ?_⟩
    have := (Finset.mem_filter.mp hi).2
    rw [h0] at this
    exact pred3_ne_zero _ _ _ _ _ this.symm
  · exact Nat.zero_le _

/-- sets of probability zero under the prior have probability zero under the posterior -/
theorem accuracyPosterior_null {C : Type} [Fintype C] {lom : Lom8} {X : Arr Int} {fs : C → List (Arr Int)} {w : C → ℝ≥0∞}
    {π μ : Measure ℝ} (h : IsAccuracyPosterior lom X fs w π μ) {s : Set ℝ} (hs : π s = 0) : μ s = 0 := by
  obtain ⟨-, k, rfl⟩ := h
  have : accuracyPosterior lom X fs w π s = 0 := by
    unfold accuracyPosterior
    rw [Measure.finsetSum_apply]
    refine Finset.sum_eq_zero fun c _ => ?_
    rw [Measure.smul_apply, withDensity_absolutelyContinuous _ _ hs, smul_zero]
  rw [Measure.smul_apply, this, smul_zero]

/-- the sigmoids of all lambdas that `infer` stores are among `observed + 1` numbers that are known beforehand, and lambda
is the same in all samples with as many correct predictions; it is the only maximiser of the likelihood with the
pseudo-counts of the prior -/
theorem C112_values_partial {wr : Wiring} {m : Mach Sampler LbdaUpdate} {lom : Lom8} {lr : LayerInfo} {x : Nat}
    {sizes : List Nat} (H : SingleLayer wr m lom lr x sizes) {X : Arr Int} (hX : X.shape = sizes)
    (hw : LegalWorld lr x sizes X m.world) (S cw bmin : Nat) (eps : ℝ) (bmax : Int) (ps fx : Nat) (ha : CanAnneal m fx)
    (hcw : 1 ≤ cw) (hps : 1 ≤ ps) (hl : m.lfixed 0 = false) :
    ∃ m', infer (genericEnv wr) S cw eps bmin bmax ps fx m = .ok m' ∧ ∃ lt, m'.ltrace 0 = some lt ∧ lt.len = S ∧
      (smoothedAccuracies (observedCells X) (wr.beta_prior 0).1 (wr.beta_prior 0).2).card ≤ observedCells X + 1 ∧
      ∀ t < S, ∃ y fs, lt.row t = some (.scalar (.fin y)) ∧ fs.length = lr.factors.length ∧
        (∀ (j i : Nat) (F : Arr Int), lr.factors[j]? = some i → fs[j]? = some F → IsFactorSample m m' S t i F) ∧
        sigmoid y ∈ smoothedAccuracies (observedCells X) (wr.beta_prior 0).1 (wr.beta_prior 0).2 ∧
        IsUniqueMaximiser (correctCells lom fs X) (observedCells X) (wr.beta_prior 0).1 (wr.beta_prior 0).2 y := by
  obtain ⟨m', hm', lt, h1, h2, h3⟩ := C91_lambda_of_sample H hX hw S cw bmin eps bmax ps fx ha hcw hps hl
  refine ⟨m', hm', lt, h1, h2, Finset.card_image_le.trans (by simp), fun t ht => ?_⟩
  obtain ⟨y, fs, e1, e2, e3, e4⟩ := h3 t ht
  have hle : correctCells lom fs X ≤ observedCells X := correctCells_le (by rw [e2, hX, H.sizes])
  refine ⟨y, fs, e1, e2, e3, ?_, e4.1, fun mu hmu hne =>
    regLogLik_lt (by exact_mod_cast hle) (by positivity) H.beta.1 H.beta.2 e4.2 hmu hne⟩
  exact Finset.mem_image.mpr ⟨_, Finset.mem_range.mpr (by omega), e4.2.symm⟩

/-- **C112** is false: whatever the distribution of the draws, of the random orders and of the factors and lambda that
inference starts from, no stored lambda of a machine with a single layer has the posterior distribution under any prior
without atoms. There is a set in which all stored lambdas are with certainty and that has posterior probability zero. -/
theorem C112_wrong {C : Type} [Fintype C] (fs : C → List (Arr Int)) (w : C → ℝ≥0∞) (π μ : Measure ℝ) [NullSingletonClass π]
    {lom : Lom8} {lr : LayerInfo} {x : Nat} {sizes : List Nat} {X : Arr Int} (hX : X.shape = sizes)
    (hμ : IsAccuracyPosterior lom X fs w π μ)
    {Ω : Type} [MeasurableSpace Ω] (P : Measure Ω) [IsProbabilityMeasure P] (wr : Ω → Wiring)
    (m m' : Ω → Mach Sampler LbdaUpdate) (a b : ℝ) (H : ∀ ω, SingleLayer (wr ω) (m ω) lom lr x sizes)
    (hab : ∀ ω, (wr ω).beta_prior 0 = (a, b)) (hw : ∀ ω, LegalWorld lr x sizes X (m ω).world) (S cw bmin : Nat) (eps : ℝ)
    (bmax : Int) (ps fx : Nat) (ha : ∀ ω, CanAnneal (m ω) fx) (hcw : 1 ≤ cw) (hps : 1 ≤ ps)
    (hl : ∀ ω, (m ω).lfixed 0 = false) (hm : ∀ ω, infer (genericEnv (wr ω)) S cw eps bmin bmax ps fx (m ω) = .ok (m' ω))
    (t : Nat) (ht : t < S) (y : Ω → ℝ) (hy : ∀ ω, ((m' ω).ltrace 0).bind (·.row t) = some (.scalar (.fin (y ω)))) :
    P.map (fun ω => sigmoid (y ω)) ≠ μ ∧
    ∃ V : Finset ℝ, (∀ ω, sigmoid (y ω) ∈ V) ∧ μ V = 0 := by
  have hV : ∀ ω, sigmoid (y ω) ∈ smoothedAccuracies (observedCells X) a b := by
    intro ω
    obtain ⟨m'', h1, lt, h2, -, -, h3⟩ := C112_values_partial (H ω) hX (hw ω) S cw bmin eps bmax ps fx (ha ω) hcw hps (hl ω)
    rw [hm ω] at h1
    cases h1
    obtain ⟨z, fs, h4, -, -, h5, -⟩ := h3 t ht
    have := hy ω
    rw [h2, Option.bind_some, h4] at this
    cases this
    rw [hab ω] at h5
    exact h5
  have h0 : μ (smoothedAccuracies (observedCells X) a b) = 0 :=
    accuracyPosterior_null hμ (Set.Finite.measure_zero (Finset.finite_toSet _) π)
  refine ⟨fun h => ?_, _, hV, h0⟩
  have hprob := hμ.1
  have hae : AEMeasurable (fun ω => sigmoid (y ω)) P := by
    by_contra hn
    rw [Measure.map_of_not_aemeasurable hn] at h
    have := hprob.measure_univ
    rw [← h] at this
    simp at this
  rw [← h, Measure.map_apply_of_aemeasurable hae (Finset.measurableSet _)] at h0
  have : (fun ω => sigmoid (y ω)) ⁻¹' (smoothedAccuracies (observedCells X) a b : Set ℝ) = Set.univ :=
    Set.eq_univ_of_forall hV
  rw [this, measure_univ] at h0
  exact one_ne_zero h0

/-- the Beta distribution has no atoms and lives on `(0, 1)` -/
theorem betaMeasure_facts {a b : ℝ} (ha : 0 < a) (hb : 0 < b) :
    IsProbabilityMeasure (betaMeasure a b) ∧ NullSingletonClass (betaMeasure a b) ∧
    ∀ᵐ p ∂betaMeasure a b, 0 < p ∧ p < 1 := by
  refine ⟨isProbabilityMeasureBeta ha hb, ?_, ?_⟩
  · unfold betaMeasure; infer_instance
  · unfold betaMeasure
    rw [ae_withDensity_iff (show Measurable (betaPDF a b) from (measurable_betaPDFReal a b).ennreal_ofReal)]
    refine Filter.Eventually.of_forall fun p hp => ⟨?_, ?_⟩ <;> by_contra h
    · exact hp (betaPDF_eq_zero_of_nonpos (not_lt.mp h))
    · exact hp (betaPDF_eq_zero_of_one_le (not_lt.mp h))

/-- there is a posterior: for every prior distribution of the sigmoid of lambda on `(0, 1)` and every prior of the factors -/
theorem C112_posterior_exists {C : Type} [Fintype C] (lom : Lom8) (X : Arr Int) (fs : C → List (Arr Int)) (w : C → ℝ≥0∞)
    (hw : ∀ c, w c ≠ ⊤) (hw0 : ∃ c, w c ≠ 0) (π : Measure ℝ) [IsProbabilityMeasure π] (hπ : ∀ᵐ p ∂π, 0 < p ∧ p < 1) :
    ∃ μ, IsAccuracyPosterior lom X fs w π μ := by
  have hmeas : ∀ i j : Nat, Measurable fun p : ℝ => ENNReal.ofReal (p ^ i * (1 - p) ^ j) := fun i j => by fun_prop
  have hfin : ∀ i j : Nat, ∫⁻ p, ENNReal.ofReal (p ^ i * (1 - p) ^ j) ∂π ≤ 1 := by
    intro i j
    calc ∫⁻ p, ENNReal.ofReal (p ^ i * (1 - p) ^ j) ∂π ≤ ∫⁻ _, 1 ∂π := by
          refine lintegral_mono_ae (hπ.mono fun p hp => ?_)
          rw [← ENNReal.ofReal_one]
          exact ENNReal.ofReal_le_ofReal (mul_le_one₀ (pow_le_one₀ hp.1.le hp.2.le) (pow_nonneg (by linarith) _)
            (pow_le_one₀ (by linarith) (by linarith)))
      _ = 1 := by simp
  have hpos : ∀ i j : Nat, ∫⁻ p, ENNReal.ofReal (p ^ i * (1 - p) ^ j) ∂π ≠ 0 := by
    intro i j h
    rw [lintegral_eq_zero_iff (hmeas i j)] at h
    have : ∀ᵐ p ∂π, False := by
      filter_upwards [h, hπ] with p h1 h2
      have : 0 < p ^ i * (1 - p) ^ j := mul_pos (pow_pos h2.1 _) (pow_pos (by linarith) _)
      exact (ENNReal.ofReal_pos.mpr this).ne' h1
    rw [ae_iff] at this
    simp at this
  have htot : accuracyPosterior lom X fs w π Set.univ = ∑ c, w c * ∫⁻ p, ENNReal.ofReal
      (p ^ correctCells lom (fs c) X * (1 - p) ^ (observedCells X - correctCells lom (fs c) X)) ∂π := by
    unfold accuracyPosterior
    rw [Measure.finsetSum_apply]
    refine Finset.sum_congr rfl fun c _ => ?_
    rw [Measure.smul_apply, withDensity_apply _ MeasurableSet.univ, Measure.restrict_univ, smul_eq_mul]
  have h0 : accuracyPosterior lom X fs w π Set.univ ≠ 0 := by
    obtain ⟨c, hc⟩ := hw0
    rw [htot]
    intro h
    exact mul_ne_zero hc (hpos _ _) ((Finset.sum_eq_zero_iff.mp h) c (Finset.mem_univ _))
  have h1 : accuracyPosterior lom X fs w π Set.univ ≠ ⊤ := by
    rw [htot]
    exact ENNReal.sum_ne_top.mpr fun c _ => ENNReal.mul_ne_top (hw c) (ne_top_of_le_ne_top ENNReal.one_ne_top (hfin _ _))
  refine ⟨(accuracyPosterior lom X fs w π Set.univ)⁻¹ • accuracyPosterior lom X fs w π, ⟨?_⟩, _, rfl⟩
  rw [Measure.smul_apply, smul_eq_mul, ENNReal.inv_mul_cancel h0 h1]

/-- the hypotheses of `C112_wrong` hold for machines of two sampled factors, with any distribution of draws and orders,
for all `3 × 1` and `2 × 1` factors with equal weights and the Beta prior with the parameters `1`, `1` of the machine -/
theorem C112_hypotheses_met {Ω : Type} [MeasurableSpace Ω] (P : Measure Ω) [IsProbabilityMeasure P]
    (rnd : Ω → Nat → Nat → Rnd) :
    ∃ (μ : Measure ℝ) (m' : Ω → Mach Sampler LbdaUpdate) (y : Ω → ℝ),
      IsAccuracyPosterior .XOR_NAND (Arr.full [3, 2] 1) (fun c : (Fin 3 → Bool) × (Fin 2 → Bool) =>
        [⟨[3, 1], fun idx => if h : idx.headD 0 < 3 then (if c.1 ⟨_, h⟩ then 1 else -1) else 0⟩,
         ⟨[2, 1], fun idx => if h : idx.headD 0 < 2 then (if c.2 ⟨_, h⟩ then 1 else -1) else 0⟩]) (fun _ => 1)
        (betaMeasure 1 1) μ ∧
      (∀ ω, infer (genericEnv (wiring2 false false (rnd ω) fun _ l => l)) 50 15 0.001 30 200 100 0 (mach2 false false []) =
        .ok (m' ω)) ∧
      (∀ ω, ((m' ω).ltrace 0).bind (·.row 7) = some (.scalar (.fin (y ω)))) ∧
      P.map (fun ω => sigmoid (y ω)) ≠ μ := by
  obtain ⟨b1, b2, b3⟩ := betaMeasure_facts one_pos one_pos
  obtain ⟨μ, hμ⟩ := C112_posterior_exists .XOR_NAND (Arr.full [3, 2] 1) (fun c : (Fin 3 → Bool) × (Fin 2 → Bool) =>
    [⟨[3, 1], fun idx => if h : idx.headD 0 < 3 then (if c.1 ⟨_, h⟩ then 1 else -1) else 0⟩,
     ⟨[2, 1], fun idx => if h : idx.headD 0 < 2 then (if c.2 ⟨_, h⟩ then 1 else -1) else 0⟩]) (fun _ => 1)
    (fun _ => ENNReal.one_ne_top) ⟨default, one_ne_zero⟩ (betaMeasure 1 1) b3
  have hS : ∀ ω, SingleLayer (wiring2 false false (rnd ω) fun _ l => l) (mach2 false false []) .XOR_NAND (layer2 false false) 2
      [3, 2] := fun ω => (C47_hypotheses_met false false [] (rnd ω) (fun _ l => l) fun _ _ _ h => h).1
  have hW : LegalWorld (layer2 false false) 2 [3, 2] (Arr.full [3, 2] 1) world2 :=
    (C47_hypotheses_met false false [] (fun _ _ _ => 0) (fun _ l => l) fun _ _ _ h => h).2.1
  have hrun : ∀ ω, ∃ m', infer (genericEnv (wiring2 false false (rnd ω) fun _ l => l)) 50 15 0.001 30 200 100 0
      (mach2 false false []) = .ok m' ∧ ∃ y, (m'.ltrace 0).bind (·.row 7) = some (.scalar (.fin y)) := by
    intro ω
    obtain ⟨m', h1, lt, h2, -, h3⟩ := C91_lambda_of_sample (hS ω) rfl hW 50 15 30 0.001 200 100 0 (.inl rfl) (by norm_num)
      (by norm_num) rfl
    obtain ⟨y, -, h4, -⟩ := h3 7 (by norm_num)
    exact ⟨m', h1, y, by rw [h2, Option.bind_some, h4]⟩
  choose m' h1 y h2 using hrun
  exact ⟨μ, m', y, hμ, h1, h2, (C112_wrong _ _ _ μ rfl hμ P (fun ω => wiring2 false false (rnd ω) fun _ l => l)
    (fun _ => mach2 false false []) m' 1 1 hS (fun _ => rfl) (fun _ => hW) 50 15 30 0.001 200 100 0 (fun _ => .inl rfl)
    (by norm_num) (by norm_num) (fun _ => rfl) h1 7 (by norm_num) y h2).1⟩

end LFM

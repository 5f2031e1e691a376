import Verif.Lemmas.HierAverages
import Verif.Props.OddData

/-!
# C80: exactly when averages over the samples approach posterior expectations
-/

namespace LFM

open Spec MeasureTheory

namespace Spec.Hier

/-- `f` is the average of `g` over the `S` samples of a call of `infer` -/
def IsAverage (h : Hier) (wr : Wiring) (m : Mach Sampler LbdaUpdate) (fe : Nat → Arr Int) (S cw : Nat) (eps : ℝ) (bmin : Nat)
    (bmax : Int) (ps fx T : Nat) (s : h.State) (g : h.State → ℝ) (f : Orders (freeMats m) T → h.Draws T → ℝ) : Prop :=
  ∀ σ ω, ∃ (m' : _) (x : Nat → h.State), infer (genericEnv (withDraws (withOrders wr σ) ω)) S cw eps bmin bmax ps fx
    { m with world := h.world fe s } = .ok m' ∧ (∀ k < S, h.IsSample m m' S k (x k)) ∧ f σ ω = (∑ k ∈ Finset.range S, g (x k)) / S

/-- with more and more samples, the mean square error of averages over the samples gets arbitrarily small, whatever the
initial state and the other arguments of `infer` -/
def AveragesConverge (h : Hier) (free : h.Site → Prop) (s0 : h.State) (wr : Wiring) (m : Mach Sampler LbdaUpdate)
    (fe : Nat → Arr Int) : Prop :=
  ∀ g : h.State → ℝ, (∀ x, |g x| ≤ 1) → ∀ δ : ℝ, 0 < δ → ∃ S0 : Nat, ∀ (S cw bmin : Nat) (eps : ℝ) (bmax : Int) (ps fx : Nat),
    1 ≤ cw → 1 ≤ ps → 1 ≤ S → S0 ≤ S → ∀ T, m.clock + bmin + bmax.toNat + S ≤ T → ∀ s : h.State, h.Agree free s s0 →
    ∃ f, h.IsAverage wr m fe S cw eps bmin bmax ps fx T s g f ∧
      (∀ σ, Integrable (fun ω => (f σ ω - ∑ x, h.posteriorGiven free s0 x * g x) ^ 2) (h.allDraws T)) ∧
      h.expectation (freeMats m) T (fun σ ω => (f σ ω - ∑ x, h.posteriorGiven free s0 x * g x) ^ 2) < δ

variable {h : Hier}

/-- convergence of the samples is more than is needed -/
theorem linking_of_mixing {free : h.Site → Prop} {s0 : h.State} (hm : h.Mixing free s0) : h.Linking free s0 := fun s s' hs hs' =>
  Relation.ReflTransGen.mono (fun _ _ hab => Or.inl hab) _ _ (hm s s' hs hs')

theorem matters_opposite {free : h.Site → Prop} {s : h.State} {q : h.Site} (hq : Matters free (opposite free s) q) :
    Matters free s q := by
  obtain ⟨hf, before, hb, x, hx, hne⟩ := hq
  refine ⟨hf, before, hb, x, ?_, hne⟩
  rw [opposite_opposite] at hx
  exact hx.symm

/-- if no entry matters in a state then it is linked to its opposite only -/
theorem not_linking {s0 s : h.State} {q q' : h.Site} (hqq : q ≠ q') (hs : ∀ q, ¬ Matters (fun _ => True) s q) :
    ¬ h.Linking (fun _ => True) s0 := by
  classical
  intro hl
  have hall : ∀ s : h.State, h.Agree (fun _ => True) s s0 := fun s q hq => absurd trivial hq
  have key : ∀ s', Relation.ReflTransGen (fun a b => (∃ q, Matters (fun _ => True) a q ∧ DifferAt a b q) ∨ b = opposite (fun _ => True) a) s s' →
      s' = s ∨ s' = opposite (fun _ => True) s := by
    intro s' hs'
    induction hs' with
    | refl => exact Or.inl rfl
    | tail _ hcd ih =>
      rcases hcd with ⟨p, hp, -⟩ | rfl
      · rcases ih with rfl | rfl
        · exact absurd hp (hs p)
        · exact absurd (matters_opposite hp) (hs p)
      · rcases ih with rfl | rfl
        · exact Or.inr rfl
        · exact Or.inl (opposite_opposite _ _)
  rcases key _ (hl s (flipAt q s) (hall _) (hall _)) with e | e
  · have := congrFun (congrFun e q.1) q.2
    rw [flipAt_self] at this
    simp at this
  · have := congrFun (congrFun e q'.1) q'.2
    rw [flipAt_of_ne hqq.symm] at this
    simp [opposite] at this

/-- Chebyshev's inequality -/
theorem prob_le_expectation {mats : List Nat} {T : Nat} {f : Orders mats T → h.Draws T → ℝ} {mu δ : ℝ} (hδ : 0 < δ)
    (hint : ∀ σ, Integrable (fun ω => (f σ ω - mu) ^ 2) (h.allDraws T)) :
    h.prob mats T (fun σ ω => δ ≤ |f σ ω - mu|) ≤
      ENNReal.ofReal (h.expectation mats T (fun σ ω => (f σ ω - mu) ^ 2) / δ ^ 2) := by
  have hprob : IsProbabilityMeasure (h.allDraws T) := by
    unfold allDraws
    infer_instance
  have hne : Nonempty {l : List Nat // l ∈ mats.permutations.toFinset} :=
    ⟨⟨mats, by rw [List.mem_toFinset, List.mem_permutations]⟩⟩
  have hterm : ∀ σ, h.allDraws T {ω | δ ≤ |f σ ω - mu|} ≤ ENNReal.ofReal ((∫ ω, (f σ ω - mu) ^ 2 ∂h.allDraws T) / δ ^ 2) := by
    intro σ
    have hset : {ω | δ ≤ |f σ ω - mu|} = {ω | δ ^ 2 ≤ (f σ ω - mu) ^ 2} := by
      ext ω
      simp only [Set.mem_ofPred_eq]
      rw [sq_le_sq, abs_of_pos hδ]
    rw [hset, ← ENNReal.ofReal_toReal (measure_ne_top (h.allDraws T) {ω | δ ^ 2 ≤ (f σ ω - mu) ^ 2})]
    refine ENNReal.ofReal_le_ofReal ?_
    rw [le_div_iff₀ (by positivity), mul_comm]
    exact mul_meas_ge_le_integral_of_nonneg (μ := h.allDraws T) (Filter.Eventually.of_forall fun ω => sq_nonneg (f σ ω - mu))
      (hint σ) (δ ^ 2)
  unfold prob expectation
  have hcard : (0 : ℝ) < Fintype.card (Orders mats T) := by exact_mod_cast Fintype.card_pos
  rw [div_right_comm, ENNReal.ofReal_div_of_pos hcard, ENNReal.ofReal_natCast, Finset.sum_div,
    ENNReal.ofReal_sum_of_nonneg fun σ _ => div_nonneg (integral_nonneg fun ω => sq_nonneg _) (by positivity)]
  exact ENNReal.div_le_div_right (Finset.sum_le_sum fun σ _ => hterm σ) _

end Spec.Hier

/-- **C80** (partial): with random orders of updates, as in the code, the mean square error of the average over the samples of
any function of the factors with values in `[-1, 1]` is at most a constant divided by the number of samples, from every initial
state and for any length of burn-in, if all configurations are linked by changes that matter and by changes of all free entries
at once. Entries may be indifferent at some times, and the samples themselves need not converge (C79). The constant does not
depend on the function. (Layers as in C76; parameters fixed, no annealing, no automatic clean-up.) -/
theorem C80_linked_partial {h : Hier} (H : h.Legal) (free : h.Site → Prop) (s0 : h.State) (hl : h.Linking free s0)
    {wr : Wiring} (hw : h.Wired wr) {m : Mach Sampler LbdaUpdate} (hm : h.FixedLbdas wr m) (fe : Nat → Arr Int)
    (hfe : ∀ q, free q ↔ h.Sampled m fe q) : ∃ C : ℝ,
      ∀ (S cw bmin : Nat) (eps : ℝ) (bmax : Int) (ps fx : Nat), 1 ≤ cw → 1 ≤ ps → 1 ≤ S →
      ∀ T, m.clock + bmin + bmax.toNat + S ≤ T → ∀ s : h.State, h.Agree free s s0 → ∀ g : h.State → ℝ, (∀ x, |g x| ≤ 1) →
      ∃ f, h.IsAverage wr m fe S cw eps bmin bmax ps fx T s g f ∧
        (∀ σ, Integrable (fun ω => (f σ ω - ∑ x, h.posteriorGiven free s0 x * g x) ^ 2) (h.allDraws T)) ∧
        h.expectation (freeMats m) T (fun σ ω => (f σ ω - ∑ x, h.posteriorGiven free s0 x * g x) ^ 2) ≤ C / S := by
  obtain ⟨C, hC⟩ := Spec.Hier.linking_square H free s0 hl (freeMats m) hm.nodup fun q hq => ((hfe q).1 hq).1
  refine ⟨C, ?_⟩
  intro S cw bmin eps bmax ps fx hcw hps hS T hT s hs g hg
  refine ⟨_, fun σ ω => ?_, hC wr m hm rfl fe hfe S (burnSweeps cw bmin bmax) hS T
    (by rw [burnSweeps]; omega) s hs g hg _ fun σ ω => rfl⟩
  have hout := fun k (hk : k < S) => Spec.Hier.infer_state H (Spec.Hier.withOrders_wired hw σ) (Spec.Hier.withOrders_fixed hm σ)
    (Spec.Hier.withOrders_perm wr σ) fe S cw bmin eps bmax ps fx hcw hps T hT k hk ω s
  obtain ⟨m', h3, -⟩ := hout 0 hS
  refine ⟨m', fun k => runSteps (fun p => Spec.Hier.matStep fe p.2) ω (Spec.Hier.sweepsSched h (Spec.Hier.withOrders wr σ).perm
      (freeMats m) T m.clock (burnSweeps cw bmin bmax + (k + 1))) s, h3, fun k hk => ?_, rfl⟩
  obtain ⟨m'', h5, h6⟩ := hout k hk
  rw [h3] at h5
  cases h5
  rw [h6]

/-- **C80**, exactly when averages converge: with more and more samples the mean square error of averages over the samples
gets arbitrarily small, for all functions of the factors and from all initial states, if and only if all configurations are
linked by changes that matter and by changes of all free entries at once. -/
theorem C80_average_iff {h : Hier} (H : h.Legal) (free : h.Site → Prop) (s0 : h.State)
    {wr : Wiring} (hw : h.Wired wr) {m : Mach Sampler LbdaUpdate} (hm : h.FixedLbdas wr m) (fe : Nat → Arr Int)
    (hfe : ∀ q, free q ↔ h.Sampled m fe q) : h.Linking free s0 ↔ h.AveragesConverge free s0 wr m fe := by
  classical
  constructor
  · intro hl g hg δ hδ
    obtain ⟨C, hC⟩ := C80_linked_partial H free s0 hl hw hm fe hfe
    obtain ⟨S0, hS0⟩ := exists_nat_gt (C / δ)
    refine ⟨S0, ?_⟩
    intro S cw bmin eps bmax ps fx hcw hps hS hSS T hT s hs
    obtain ⟨f, h1, h2, h3⟩ := hC S cw bmin eps bmax ps fx hcw hps hS T hT s hs g hg
    refine ⟨f, h1, h2, h3.trans_lt ?_⟩
    have hS' : (0 : ℝ) < S := by exact_mod_cast hS
    rw [div_lt_iff₀ hS', mul_comm, ← div_lt_iff₀ hδ]
    exact hS0.trans_le (by exact_mod_cast hSS)
  · intro hconv a b ha hb
    by_contra hab
    obtain ⟨R, hR⟩ : ∃ R : h.State → Prop, R = fun x => Relation.ReflTransGen (fun a b => (∃ q, Spec.Hier.Matters free a q ∧
      Spec.Hier.DifferAt a b q) ∨ b = Spec.Hier.opposite free a) a x := ⟨_, rfl⟩
    have hRb : ¬ R b := by rw [hR]; exact hab
    have hne : Nonempty {l : List Nat // l ∈ (freeMats m).permutations.toFinset} :=
      ⟨⟨freeMats m, by rw [List.mem_toFinset, List.mem_permutations]⟩⟩
    obtain ⟨mu, hmu⟩ : ∃ mu, mu = ∑ x, h.posteriorGiven free s0 x * (if R x then 1 else 0) := ⟨_, rfl⟩
    have hmu1 : mu < 1 := by
      rw [hmu]
      refine lt_of_lt_of_eq ?_ (Spec.Hier.posteriorGiven_sum H free s0)
      refine Finset.sum_lt_sum (fun x _ => ?_) ⟨b, Finset.mem_univ _, ?_⟩
      · refine mul_le_of_le_one_right (Spec.Hier.posteriorGiven_nonneg H free s0 x) ?_
        by_cases hx : R x
        · rw [if_pos hx]
        · rw [if_neg hx]
          exact zero_le_one
      · rw [if_neg hRb, mul_zero]
        unfold Spec.Hier.posteriorGiven
        rw [if_pos hb]
        refine div_pos (Spec.Hier.joint_pos H _) (Finset.sum_pos (fun x _ => Spec.Hier.joint_pos H x) ⟨b, ?_⟩)
        rw [Finset.mem_filter]
        exact ⟨Finset.mem_univ _, hb⟩
    obtain ⟨S0, hS0⟩ := hconv (fun x => if R x then 1 else 0) (fun x => by split <;> simp) ((1 - mu) ^ 2)
      (by have : 0 < 1 - mu := by linarith
          positivity)
    obtain ⟨S, hS⟩ : ∃ S, S = S0 + 1 := ⟨_, rfl⟩
    obtain ⟨T, hT⟩ : ∃ T, T = m.clock + 0 + (0 : Int).toNat + S := ⟨_, rfl⟩
    obtain ⟨f, hf, -, hlt⟩ := hS0 S 1 0 0 0 1 0 (le_refl _) (le_refl _) (by omega) (by omega) T hT.ge a ha
    rw [← hmu] at hlt
    have hprob : IsProbabilityMeasure (h.allDraws T) := by
      unfold Spec.Hier.allDraws
      infer_instance
    -- samples that are not linked to the start have probability 0
    have hnull : ∀ (σ : Spec.Hier.Orders (freeMats m) T) k, k < S → ∀ x, ¬ R x → h.allDraws T {ω | ∃ m', infer (genericEnv (Spec.Hier.withDraws
        (Spec.Hier.withOrders wr σ) ω)) S 1 0 0 0 1 0 { m with world := h.world fe a } = .ok m' ∧ h.IsSample m m' S k x} = 0 := by
      intro σ k hk x hx
      have hlaw := Spec.Hier.random_law H hw hm fe hfe S 1 0 0 0 1 0 (le_refl _) (le_refl _) T hT.ge k hk a x ha
      have h0 : h.prob (freeMats m) T (fun σ ω => ∃ m', infer (genericEnv (Spec.Hier.withDraws (Spec.Hier.withOrders wr σ) ω)) S 1 0 0 0
          1 0 { m with world := h.world fe a } = .ok m' ∧ h.IsSample m m' S k x) = 0 := by
        rw [hlaw]
        split
        · rename_i hz
          by_contra hc
          apply hx
          rw [hR]
          exact Spec.Hier.path_linking H hm.nodup (fun q hq => ((hfe q).1 hq).1) _ ⟨a, ha⟩ ⟨x, hz⟩ hc
        · rfl
      unfold Spec.Hier.prob at h0
      rw [ENNReal.div_eq_zero_iff] at h0
      rcases h0 with h0 | h0
      · exact Finset.sum_eq_zero_iff.1 h0 σ (Finset.mem_univ _)
      · exact absurd h0 (ENNReal.natCast_ne_top _)
    have hae : ∀ σ, ∀ᵐ ω ∂h.allDraws T, (f σ ω - mu) ^ 2 = (1 - mu) ^ 2 := by
      intro σ
      have hall : ∀ᵐ ω ∂h.allDraws T, ∀ (k : Fin S) (x : h.State), ¬ R x → ¬ ∃ m', infer (genericEnv (Spec.Hier.withDraws
          (Spec.Hier.withOrders wr σ) ω)) S 1 0 0 0 1 0 { m with world := h.world fe a } = .ok m' ∧ h.IsSample m m' S k x := by
        rw [ae_all_iff]
        intro k
        rw [ae_all_iff]
        intro x
        by_cases hx : R x
        · exact Filter.Eventually.of_forall fun ω hc => absurd hx hc
        · rw [ae_iff]
          refine measure_mono_null (fun ω hω => ?_) (hnull σ k k.2 x hx)
          simp only [Set.mem_ofPred_eq, Classical.not_imp, not_not] at hω ⊢
          exact hω.2
      filter_upwards [hall] with ω hω
      obtain ⟨m', x, e1, e2, e3⟩ := hf σ ω
      have hRx : ∀ k ∈ Finset.range S, (if R (x k) then (1 : ℝ) else 0) = 1 := by
        intro k hk
        rw [Finset.mem_range] at hk
        rw [if_pos]
        by_contra hc
        exact hω ⟨k, hk⟩ (x k) hc ⟨m', e1, e2 k hk⟩
      rw [e3, Finset.sum_congr rfl hRx, Finset.sum_const, Finset.card_range, nsmul_eq_mul, mul_one, div_self]
      rw [hS]
      positivity
    have hexp : h.expectation (freeMats m) T (fun σ ω => (f σ ω - mu) ^ 2) = (1 - mu) ^ 2 := by
      unfold Spec.Hier.expectation
      have : ∀ σ, ∫ ω, (f σ ω - mu) ^ 2 ∂h.allDraws T = (1 - mu) ^ 2 := by
        intro σ
        rw [integral_congr_ae (hae σ), integral_const]
        simp
      simp only [this]
      rw [Finset.sum_const, Finset.card_univ, nsmul_eq_mul, mul_div_cancel_left₀]
      exact_mod_cast Fintype.card_ne_zero
    exact absurd hlt (by rw [hexp]; exact lt_irrefl _)

/-- **C80** (partial): wherever the samples converge to the posterior (C79), so do averages over the samples. The converse
does not hold: a single free entry that is indifferent has averages that converge, but samples that alternate. -/
theorem C80_of_converge {h : Hier} (H : h.Legal) (free : h.Site → Prop) (s0 : h.State)
    {wr : Wiring} (hw : h.Wired wr) {m : Mach Sampler LbdaUpdate} (hm : h.FixedLbdas wr m) (fe : Nat → Arr Int)
    (hfe : ∀ q, free q ↔ h.Sampled m fe q) (hc : h.SamplesConverge free s0 wr m fe) : h.AveragesConverge free s0 wr m fe :=
  (C80_average_iff H free s0 hw hm fe hfe).1 (Spec.Hier.linking_of_mixing ((C79_mixing_iff H free s0 hw hm fe hfe).2 hc))

/-- **C80** (partial): the mean square error of the posterior mean that the machine computes (`mat.mean()`) is at most a
constant divided by the number of samples, under the same condition. -/
theorem C80_linked_mean_partial {h : Hier} (H : h.Legal) (free : h.Site → Prop) (s0 : h.State) (hl : h.Linking free s0)
    {wr : Wiring} (hw : h.Wired wr) {m : Mach Sampler LbdaUpdate} (hm : h.FixedLbdas wr m) (fe : Nat → Arr Int)
    (hfe : ∀ q, free q ↔ h.Sampled m fe q) : ∃ C : ℝ,
      ∀ (S cw bmin : Nat) (eps : ℝ) (bmax : Int) (ps fx : Nat), 1 ≤ cw → 1 ≤ ps → 1 ≤ S →
      ∀ T, m.clock + bmin + bmax.toNat + S ≤ T → ∀ s : h.State, h.Agree free s s0 →
      ∀ (i : Fin h.M), (i : Nat) ∈ freeMats m → ∀ (n : Fin (h.rows i)) (l : Fin (h.cols i)),
      ∃ f : Spec.Hier.Orders (freeMats m) T → h.Draws T → ℝ,
        (∀ σ ω, ∃ m' a, infer (genericEnv (Spec.Hier.withDraws (Spec.Hier.withOrders wr σ) ω)) S cw eps bmin bmax ps fx
          { m with world := h.world fe s } = .ok m' ∧ (m'.ofac i).mean = .nums a ∧ a.shape = [h.rows i, h.cols i] ∧
          f σ ω = a [n, l]) ∧
        (∀ σ, Integrable (fun ω => (f σ ω - ∑ x, h.posteriorGiven free s0 x * (sgn (x i (n, l)) : ℝ)) ^ 2) (h.allDraws T)) ∧
        h.expectation (freeMats m) T (fun σ ω => (f σ ω - ∑ x, h.posteriorGiven free s0 x * (sgn (x i (n, l)) : ℝ)) ^ 2) ≤ C / S := by
  obtain ⟨C, hC⟩ := Spec.Hier.linking_square H free s0 hl (freeMats m) hm.nodup fun q hq => ((hfe q).1 hq).1
  refine ⟨C, ?_⟩
  intro S cw bmin eps bmax ps fx hcw hps hS T hT s hs i hi n l
  refine ⟨_, fun σ ω => ?_, hC wr m hm rfl fe hfe S (burnSweeps cw bmin bmax) hS T
    (by rw [burnSweeps]; omega) s hs (fun x => (sgn (x i (n, l)) : ℝ))
    (fun x => by cases x i (n, l) <;> simp [sgn]) _ fun σ ω => rfl⟩
  obtain ⟨m', e1, e2⟩ := Spec.Hier.infer_mean H (Spec.Hier.withOrders_wired hw σ) (Spec.Hier.withOrders_fixed hm σ)
    (Spec.Hier.withOrders_perm wr σ) fe S cw bmin eps bmax ps fx hcw hps hS T hT ω s
  obtain ⟨a, b1, b2, b3⟩ := e2 i hi
  exact ⟨m', a, e1, b1, b2, (b3 n l).symm⟩

/-- **C80** (partial): hence the posterior mean that the machine computes is close to that of the posterior with probability
close to 1: the probability of an error of `δ` or more is at most `C / (S δ²)`. -/
theorem C80_linked_consistent_partial {h : Hier} (H : h.Legal) (free : h.Site → Prop) (s0 : h.State) (hl : h.Linking free s0)
    {wr : Wiring} (hw : h.Wired wr) {m : Mach Sampler LbdaUpdate} (hm : h.FixedLbdas wr m) (fe : Nat → Arr Int)
    (hfe : ∀ q, free q ↔ h.Sampled m fe q) : ∃ C : ℝ,
      ∀ (S cw bmin : Nat) (eps : ℝ) (bmax : Int) (ps fx : Nat), 1 ≤ cw → 1 ≤ ps → 1 ≤ S →
      ∀ T, m.clock + bmin + bmax.toNat + S ≤ T → ∀ s : h.State, h.Agree free s s0 →
      ∀ (i : Fin h.M), (i : Nat) ∈ freeMats m → ∀ (n : Fin (h.rows i)) (l : Fin (h.cols i)) (δ : ℝ), 0 < δ →
      h.prob (freeMats m) T (fun σ ω => ∃ m' a, infer (genericEnv (Spec.Hier.withDraws (Spec.Hier.withOrders wr σ) ω)) S cw eps bmin bmax
          ps fx { m with world := h.world fe s } = .ok m' ∧ (m'.ofac i).mean = .nums a ∧
          δ ≤ |a [n, l] - ∑ x, h.posteriorGiven free s0 x * (sgn (x i (n, l)) : ℝ)|) ≤ ENNReal.ofReal (C / (S * δ ^ 2)) := by
  obtain ⟨C, hC⟩ := C80_linked_mean_partial H free s0 hl hw hm fe hfe
  refine ⟨C, ?_⟩
  intro S cw bmin eps bmax ps fx hcw hps hS T hT s hs i hi n l δ hδ
  obtain ⟨f, hf, hint, hle⟩ := hC S cw bmin eps bmax ps fx hcw hps hS T hT s hs i hi n l
  obtain ⟨mu, hmu⟩ : ∃ mu, mu = ∑ x, h.posteriorGiven free s0 x * (sgn (x i (n, l)) : ℝ) := ⟨_, rfl⟩
  rw [← hmu] at hint hle ⊢
  have hev : (fun σ ω => ∃ m' a, infer (genericEnv (Spec.Hier.withDraws (Spec.Hier.withOrders wr σ) ω)) S cw eps bmin bmax
          ps fx { m with world := h.world fe s } = .ok m' ∧ (m'.ofac i).mean = .nums a ∧ δ ≤ |a [n, l] - mu|) =
      fun σ ω => δ ≤ |f σ ω - mu| := by
    funext σ ω
    obtain ⟨m', a, e1, e2, -, e3⟩ := hf σ ω
    simp only [e1, Except.ok.injEq, e3, eq_iff_iff]
    constructor
    · rintro ⟨m'', a', rfl, h2, h3⟩
      rw [e2] at h2
      cases h2
      exact h3
    · intro h3
      exact ⟨m', a, rfl, e2, h3⟩
  rw [hev]
  refine (Spec.Hier.prob_le_expectation hδ hint).trans (ENNReal.ofReal_le_ofReal ?_)
  rw [← div_div]
  exact div_le_div_of_nonneg_right hle (by positivity)

/-- **C80** (partial), with the default prior: for a single layer of two factors with one or two latent dimensions, any model
(OR-NAND: with one latent dimension), and any strength other than 0, averages over the samples converge if every row and every
column of the data has an odd number of observed cells. -/
theorem C80_odd_partial {h : Hier} (H : h.Legal) {k : HLayer} (hk : h.layers = [k]) (hv : k.v = none)
    (hprior : ∀ i < h.M, h.prior i = 1 / 2) (hl : k.lbda ≠ 0) (hL : h.cols k.z ≤ 2)
    (hmod : ¬ (k.model = .OR_NAND ∧ h.cols k.z = 2))
    (hrow : ∀ n < h.rows k.child, Odd (Finset.univ.filter fun d : Fin (h.cols k.child) => h.data k.child [n, d] ≠ 0).card)
    (hcol : ∀ d < h.cols k.child, Odd (Finset.univ.filter fun n : Fin (h.rows k.child) => h.data k.child [n, d] ≠ 0).card)
    {wr : Wiring} (hw : h.Wired wr) {m : Mach Sampler LbdaUpdate} (hm : h.FixedLbdas wr m) (fe : Nat → Arr Int)
    (hfe : ∀ q, h.Sampled m fe q) (s0 : h.State) : h.AveragesConverge (fun _ => True) s0 wr m fe :=
  C80_of_converge H _ s0 hw hm fe (fun q => iff_of_true trivial (hfe q))
    (C79_odd_partial H hk hv hprior hl hL hmod hrow hcol hw hm fe hfe s0)

/-- **C80** fails with the default prior if the data are balanced: if all row sums and all column sums of the data are 0, then
some averages over the samples of a single layer of two factors keep a mean square error above some bound, however many samples
there are, whatever the model, the number of latent dimensions and the strength. -/
theorem C80_balanced {h : Hier} (H : h.Legal) {k : HLayer} (hk : h.layers = [k]) (hv : k.v = none)
    (hprior : ∀ i < h.M, h.prior i = 1 / 2)
    (hrow : ∀ n < h.rows k.child, ∑ d : Fin (h.cols k.child), h.data k.child [n, d] = 0)
    (hcol : ∀ d < h.cols k.child, ∑ n : Fin (h.rows k.child), h.data k.child [n, d] = 0)
    {wr : Wiring} (hw : h.Wired wr) {m : Mach Sampler LbdaUpdate} (hm : h.FixedLbdas wr m) (fe : Nat → Arr Int)
    (hfe : ∀ q, h.Sampled m fe q) {q0 q1 : h.Site} (hq : q0 ≠ q1) (s0 : h.State) :
    ¬ h.AveragesConverge (fun _ => True) s0 wr m fe := by
  rw [← C80_average_iff H _ s0 hw hm fe fun q => iff_of_true trivial (hfe q)]
  exact Spec.Hier.not_linking hq (Spec.Hier.balanced_still H hk hv hprior hrow hcol)

/-- **C80** fails for OR-NAND with the default prior: with two or more latent dimensions, some averages over the samples of a
single layer of two factors do not converge, whatever the data and the strength. -/
theorem C80_or_nand {h : Hier} (H : h.Legal) {k : HLayer} (hk : h.layers = [k]) (hv : k.v = none)
    (hprior : ∀ i < h.M, h.prior i = 1 / 2) (hmod : k.model = .OR_NAND) (hL : 2 ≤ h.cols k.z)
    {wr : Wiring} (hw : h.Wired wr) {m : Mach Sampler LbdaUpdate} (hm : h.FixedLbdas wr m) (fe : Nat → Arr Int)
    (hfe : ∀ q, h.Sampled m fe q) {q0 q1 : h.Site} (hq : q0 ≠ q1) (s0 : h.State) :
    ¬ h.AveragesConverge (fun _ => True) s0 wr m fe := by
  rw [← C80_average_iff H _ s0 hw hm fe fun q => iff_of_true trivial (hfe q)]
  exact Spec.Hier.not_linking hq (Spec.Hier.or_nand_still H hk hv hprior hmod hL)

/-- **C80**, averages can converge although the samples do not: if exactly one entry is free, and the data and the prior say
nothing about it, then it changes in every sweep, so that the probability of its values after any number of sweeps is 0 or 1;
averages over the samples converge. -/
theorem C80_one_entry {h : Hier} (H : h.Legal) (s0 : h.State) {q : h.Site} (hq : h.Indifferent q.1 q.2)
    {wr : Wiring} (hw : h.Wired wr) {m : Mach Sampler LbdaUpdate} (hm : h.FixedLbdas wr m) (fe : Nat → Arr Int)
    (hfe : ∀ q', q' = q ↔ h.Sampled m fe q') :
    h.AveragesConverge (fun q' => q' = q) s0 wr m fe ∧ ¬ h.SamplesConverge (fun q' => q' = q) s0 wr m fe := by
  classical
  have hopp : ∀ s : h.State, Spec.Hier.opposite (fun q' => q' = q) s = Spec.Hier.flipAt q s := by
    intro s
    rw [← Spec.Hier.differAt_iff]
    intro q'
    unfold Spec.Hier.opposite
    split
    · rename_i hc
      simp [show q' = q from hc]
    · rename_i hc
      simp [show ¬ q' = q from hc]
  have htwo : ∀ s : h.State, h.Agree (fun q' => q' = q) s s0 → s = s0 ∨ s = Spec.Hier.flipAt q s0 := by
    intro s hs
    by_cases he : s q.1 q.2 = s0 q.1 q.2
    · left
      funext i e
      by_cases hc : (⟨i, e⟩ : h.Site) = q
      · subst hc
        exact he
      · exact hs ⟨i, e⟩ hc
    · right
      rw [← Spec.Hier.differAt_iff]
      intro q'
      constructor
      · intro hne
        by_contra hc
        exact hne (hs q' hc).symm
      · rintro rfl
        exact fun e => he e.symm
  rw [← C80_average_iff H _ s0 hw hm fe hfe, ← C79_mixing_iff H _ s0 hw hm fe hfe]
  constructor
  · intro s s' hs hs'
    have hflip : ∀ s : h.State, Relation.ReflTransGen (fun a b => (∃ p, Spec.Hier.Matters (fun q' => q' = q) a p ∧
        Spec.Hier.DifferAt a b p) ∨ b = Spec.Hier.opposite (fun q' => q' = q) a) s (Spec.Hier.flipAt q s) := fun s =>
      Relation.ReflTransGen.single (Or.inr (hopp s).symm)
    rcases htwo s hs with rfl | rfl <;> rcases htwo s' hs' with rfl | rfl
    · exact Relation.ReflTransGen.refl
    · exact hflip _
    · have := hflip (Spec.Hier.flipAt q s')
      rwa [Spec.Hier.flipAt_flipAt] at this
    · exact Relation.ReflTransGen.refl
  · intro hmix
    have h1 := hmix s0 (Spec.Hier.flipAt q s0) (Spec.Hier.Agree.refl _ _) ((Spec.Hier.Agree.refl _ _).flipAt rfl)
    rcases Relation.ReflTransGen.cases_head h1 with he | ⟨c, ⟨p, ⟨rfl, before, -, x, -, hne⟩, -⟩, -⟩
    · exact Spec.Hier.flipAt_ne q s0 he.symm
    · exact hne (hq x)

/-- there is such a machine: no data, default prior, one of four entries is not fixed; and there are two entries in the
machines of the other theorems -/
theorem C80_one_entry_met : ∃ (h : Hier) (q : h.Site) (wr : Wiring) (m : Mach Sampler LbdaUpdate) (fe : Nat → Arr Int),
    h.Legal ∧ h.Indifferent q.1 q.2 ∧ h.Wired wr ∧ h.FixedLbdas wr m ∧ (∀ q', q' = q ↔ h.Sampled m fe q') ∧ ∃ q', q' ≠ q := by
  have H := blankHier_legal
  have hM0 : (0 : Nat) < blankHier.M := by simp [blankHier]
  have hM1 : (1 : Nat) < blankHier.M := by simp [blankHier]
  have hrow : ∀ i, blankHier.rows i = 1 := fun i => rfl
  obtain ⟨fe, hfe⟩ : ∃ fe : Nat → Arr Int, fe = fun _ => ⟨[1, 2], fun idx => if idx = [0, 0] then 0 else 1⟩ := ⟨_, rfl⟩
  obtain ⟨hw, hm, -, hs⟩ := C79_given_hypotheses_met H (fun i => decide (i = 1)) fe fun _ _ => true
  refine ⟨blankHier, ⟨⟨0, hM0⟩, (⟨0, by simp [hrow]⟩, ⟨0, by simp [blankHier]⟩)⟩, _, _, fe, H,
    Spec.Hier.Unobserved.indifferent H (blankHier_unobserved _ _) _, hw, hm, fun q' => ?_,
    ⟨⟨1, hM1⟩, (⟨0, by simp [hrow]⟩, ⟨0, by simp [blankHier]⟩)⟩, fun e => ?_⟩
  · rw [hs q']
    obtain ⟨i, n, l⟩ := q'
    have hi := i.2
    simp only [blankHier] at hi
    constructor
    · intro e
      have e1 := congrArg (fun q : blankHier.Site => (q.1 : Nat)) e
      have e2 := congrArg (fun q : blankHier.Site => (q.2.1 : Nat)) e
      have e3 := congrArg (fun q : blankHier.Site => (q.2.2 : Nat)) e
      simp only at e1 e2 e3
      rw [hfe]
      simp [e1, e2, e3]
    · rw [hfe]
      simp only [decide_eq_false_iff_not]
      rintro ⟨h1, h2⟩
      have h3 : [(n : Nat), (l : Nat)] = [0, 0] := by
        by_contra hc
        exact h2 (if_neg hc)
      obtain ⟨i, hi'⟩ := i
      obtain rfl : i = 0 := by simp only at h1 hi; omega
      simp only [List.cons.injEq, and_true] at h3
      congr 2
      · exact Fin.ext h3.1
      · exact Fin.ext h3.2
  · have e1 := congrArg (fun q : blankHier.Site => (q.1 : Nat)) e
    simp at e1

end LFM

import Verif.Lemmas.Variance
import Verif.Props.NoTies
import Verif.Props.Output

/-!
# C80: posterior means get arbitrarily accurate with more samples
-/

namespace LFM

open Spec MeasureTheory

namespace Spec.Hier

variable {h : Hier}

/-- the mean of an entry after `infer`, in terms of the states after each sweep -/
theorem infer_mean (H : h.Legal) {wr : Wiring} (hw : h.Wired wr)
    {m : Mach Sampler LbdaUpdate} (hm : h.FixedLbdas wr m) (hp : ∀ t, (wr.perm t (freeMats m)).Perm (freeMats m))
    (fe : Nat → Arr Int) (S cw bmin : Nat) (eps : ℝ) (bmax : Int) (ps fx : Nat) (hcw : 1 ≤ cw) (hps : 1 ≤ ps)
    (hS : 1 ≤ S) (T : Nat) (hT : m.clock + bmin + bmax.toNat + S ≤ T) (ω : h.Draws T) (s : h.State) :
    ∃ m', infer (genericEnv (withDraws wr ω)) S cw eps bmin bmax ps fx { m with world := h.world fe s } = .ok m' ∧
      ∀ i : Fin h.M, (i : Nat) ∈ freeMats m → ∃ a, (m'.ofac i).mean = .nums a ∧ a.shape = [h.rows i, h.cols i] ∧
        ∀ (n : Fin (h.rows i)) (l : Fin (h.cols i)), a [n, l] = (∑ k ∈ Finset.range S,
          (sgn (runSteps (fun p => matStep fe p.2) ω (sweepsSched h wr.perm (freeMats m) T m.clock
            (burnSweeps cw bmin bmax + (k + 1))) s i (n, l)) : ℝ)) / S := by
  have hout := fun k (hk : k < S) => infer_state H hw hm hp fe S cw bmin eps bmax ps fx hcw hps T hT k hk ω s
  obtain ⟨m', h3, -⟩ := hout 0 hS
  refine ⟨m', h3, fun i hi => ?_⟩
  have hs : ∀ k < S, h.IsSample m m' S k (runSteps (fun p => matStep fe p.2) ω (sweepsSched h wr.perm (freeMats m) T
      m.clock (burnSweeps cw bmin bmax + (k + 1))) s) := by
    intro k hk
    obtain ⟨m'', h5, h6⟩ := hout k hk
    rw [h3] at h5
    cases h5
    rw [h6]
  obtain ⟨tr, t1, t2, -⟩ := (hs 0 hS).1 i hi
  obtain ⟨a, b1, b2, b3⟩ := ofac_mean m' i tr t1 t2 hS
  refine ⟨a, b1, b2, fun n l => ?_⟩
  rw [b3, Fin.sum_univ_eq_sum_range (fun k => (tr [k, n, l] : ℝ)) S]
  congr 1
  refine Finset.sum_congr rfl fun k hk => ?_
  obtain ⟨tr', u1, -, u3⟩ := (hs k (Finset.mem_range.1 hk)).1 i hi
  rw [t1] at u1
  cases u1
  rw [u3 n l]

open Classical in
/-- posterior probabilities add up to one -/
theorem posteriorGiven_sum (H : h.Legal) (free : h.Site → Prop) (s0 : h.State) : ∑ s, h.posteriorGiven free s0 s = 1 := by
  unfold posteriorGiven
  rw [← Finset.sum_filter, ← Finset.sum_div, div_self]
  exact (Finset.sum_pos (fun s _ => joint_pos H s) ⟨s0, by simp [Agree.refl]⟩).ne'

theorem posteriorGiven_nonneg (H : h.Legal) (free : h.Site → Prop) (s0 s : h.State) : 0 ≤ h.posteriorGiven free s0 s := by
  unfold posteriorGiven
  split
  · exact div_nonneg (joint_pos H s).le (Finset.sum_nonneg fun s _ => (joint_pos H s).le)
  · exact le_rfl

end Spec.Hier

/-- mean square error of averages over the samples -/
theorem average_square {h : Hier} (H : h.Legal) (free : h.Site → Prop) (s0 : h.State)
    (hties : h.NoTiesGiven free s0) : ∃ C : ℝ,
    ∀ (wr : Wiring) (m : Mach Sampler LbdaUpdate), h.FixedLbdas wr m →
      (∀ t, (wr.perm t (freeMats m)).Perm (freeMats m)) →
      ∀ (fe : Nat → Arr Int), (∀ q, free q ↔ h.Sampled m fe q) →
      ∀ (S B : Nat), 1 ≤ S → ∀ T, m.clock + B + S ≤ T → ∀ (s : h.State), h.Agree free s s0 → ∀ (g : h.State → ℝ), (∀ x, |g x| ≤ 1) →
      ∀ f : h.Draws T → ℝ, (∀ ω, f ω = (∑ k ∈ Finset.range S, g (runSteps (fun p => Spec.Hier.matStep fe p.2) ω
        (Spec.Hier.sweepsSched h wr.perm (freeMats m) T m.clock (B + (k + 1))) s)) / S) →
        Integrable (fun ω => (f ω - ∑ x, h.posteriorGiven free s0 x * g x) ^ 2) (h.allDraws T) ∧
        ∫ ω, (f ω - ∑ x, h.posteriorGiven free s0 x * g x) ^ 2 ∂h.allDraws T ≤ C / S := by
  obtain ⟨N, hN, ε, h0, h1, hc⟩ := Spec.Hier.sweeps_converge_given H hties
  refine ⟨8 * Fintype.card h.State * N / ε, ?_⟩
  intro wr m hm hp fe hfe S B hS T hT s hs g hg f hf
  obtain ⟨X, hX⟩ : ∃ X : Nat → h.Draws T → h.State, X = fun k ω => runSteps (fun p => Spec.Hier.matStep fe p.2) ω
    (Spec.Hier.sweepsSched h wr.perm (freeMats m) T m.clock (B + (k + 1))) s := ⟨_, rfl⟩
  obtain ⟨mu, hmu⟩ : ∃ mu, mu = ∑ x, h.posteriorGiven free s0 x * g x := ⟨_, rfl⟩
  obtain ⟨K, hK⟩ : ∃ K : Fin T × Fin h.M → h.State → h.State → ENNReal,
    K = fun p s s' => uniformDraws (h.rows p.2) (h.cols p.2) {u | Spec.Hier.matStep fe p.2 s u = s'} := ⟨_, rfl⟩
  have hprob : IsProbabilityMeasure (h.allDraws T) := by
    unfold Spec.Hier.allDraws
    infer_instance
  have hnd : ∀ c n, (Spec.Hier.sweepsSched h wr.perm (freeMats m) T c n).Nodup := fun c n =>
    Spec.Hier.sweepsSched_nodup hp hm.nodup hm.free n c
  have hmeas : ∀ (l : List (Fin T × Fin h.M)) (s s' : h.State), MeasurableSet {ω : h.Draws T | runSteps
      (fun p => Spec.Hier.matStep fe p.2) ω l s = s'} := fun l s s' =>
    measurable_runSteps (step := fun p : Fin T × Fin h.M => Spec.Hier.matStep fe p.2)
      (fun p s s' => Spec.Hier.matStep_event fe p.2 s s') l s s'
  have hXm : ∀ k s', MeasurableSet {ω | X k ω = s'} := by
    intro k s'
    rw [hX]
    exact hmeas _ s s'
  have hmu1 : |mu| ≤ 1 := by
    rw [hmu, ← Spec.Hier.posteriorGiven_sum H free s0]
    refine (Finset.abs_sum_le_sum_abs _ _).trans (Finset.sum_le_sum fun x _ => ?_)
    rw [abs_mul, abs_of_nonneg (Spec.Hier.posteriorGiven_nonneg H free s0 x)]
    exact mul_le_of_le_one_right (Spec.Hier.posteriorGiven_nonneg H free s0 x) (hg x)
  have hsecond := second_moment (μ := h.allDraws T) hS hXm (g := fun x => g x - mu) (π := h.posteriorGiven free s0)
    (by
      intro x
      refine (abs_sub _ _).trans ?_
      linarith [hg x]) (by
      simp only [mul_sub]
      rw [Finset.sum_sub_distrib, ← hmu, ← Finset.sum_mul, Spec.Hier.posteriorGiven_sum H free s0, one_mul, sub_self])
    (r := 1 - ε) (by linarith) (by linarith) hN
    (a := fun j x => (schedule K (Spec.Hier.sweepsSched h wr.perm (freeMats m) T m.clock (B + (j + 1))) s x).toReal)
    (d := fun j k x y => (schedule K (Spec.Hier.sweepsSched h wr.perm (freeMats m) T (m.clock + (B + (j + 1))) (k - j)) x y).toReal)
    (by
      intro j hj
      refine ⟨fun x => ENNReal.toReal_nonneg, ?_⟩
      have : ∑ x, (schedule K (Spec.Hier.sweepsSched h wr.perm (freeMats m) T m.clock (B + (j + 1))) s x) = 1 := by
        apply schedule_stoch
        intro p x
        rw [hK]
        exact sum_events (Spec.Hier.matStep_event fe p.2 x)
      rw [← ENNReal.toReal_sum, this, ENNReal.toReal_one]
      intro x _ e
      have := this ▸ Finset.single_le_sum (f := fun x => schedule K (Spec.Hier.sweepsSched h wr.perm (freeMats m) T m.clock
        (B + (j + 1))) s x) (fun _ _ => bot_le) (Finset.mem_univ x)
      simp only [e] at this
      simp at this)
    (by
      intro j k hjk hk x y hx
      rw [hK]
      refine (hc wr.perm (freeMats m) hp hm.nodup hm.free fe hfe T _ _ (by omega) x y ?_).2
      by_contra hag
      apply hx
      rw [hK]
      rw [(hc wr.perm (freeMats m) hp hm.nodup hm.free fe hfe T m.clock _ (by omega) s x hs).1 hag, ENNReal.toReal_zero])
    (by
      intro j k hjk hk x y
      have hsplit : Spec.Hier.sweepsSched h wr.perm (freeMats m) T m.clock (B + (k + 1)) =
          Spec.Hier.sweepsSched h wr.perm (freeMats m) T m.clock (B + (j + 1)) ++
            Spec.Hier.sweepsSched h wr.perm (freeMats m) T (m.clock + (B + (j + 1))) (k - j) := by
        rw [← Spec.Hier.sweepsSched_add]
        congr 1
        omega
      rw [hX, hK, ← ENNReal.toReal_mul]
      simp only [hsplit]
      have := runSteps_joint (fun p : Fin T × Fin h.M => uniformDraws (h.rows p.2) (h.cols p.2))
        (step := fun p => Spec.Hier.matStep fe p.2) (fun p s s' => Spec.Hier.matStep_event fe p.2 s s') _ _
        (hsplit ▸ hnd m.clock (B + (k + 1))) s x y
      exact congrArg ENNReal.toReal this)
  have hS' : (S : ℝ) ≠ 0 := by positivity
  have hfun : ∀ ω, (∑ k ∈ Finset.range S, (g (X k ω) - mu)) / S =
      (∑ k ∈ Finset.range S, g (X k ω)) / S - mu := by
    intro ω
    rw [Finset.sum_sub_distrib, Finset.sum_const, Finset.card_range, nsmul_eq_mul, sub_div, mul_div_cancel_left₀ _ hS']
  simp only [hfun, sub_sub_cancel] at hsecond
  have hfX : ∀ ω, f ω = (∑ k ∈ Finset.range S, g (X k ω)) / S := by
    intro ω
    rw [hf, hX]
  simp only [hfX]
  rw [← hmu]
  exact hsecond

/-- **C80** (partial): averages over the samples, of any function `g` of the factors with values in `[-1, 1]`, have a mean
square error of at most a constant divided by the number of samples, whatever the initial state of what is sampled and the
length of burn-in, if no sampled entry is ever indifferent (see C79). Any matrices and entries may be fixed: the expectation
is then that of the posterior given their values (`s0`). The constant depends on the hierarchy and on what is fixed only. -/
theorem C80_average_given_partial {h : Hier} (H : h.Legal) (free : h.Site → Prop) (s0 : h.State)
    (hties : h.NoTiesGiven free s0) : ∃ C : ℝ,
    ∀ (wr : Wiring), h.Wired wr → ∀ (m : Mach Sampler LbdaUpdate), h.FixedLbdas wr m →
      (∀ t, (wr.perm t (freeMats m)).Perm (freeMats m)) →
      ∀ (fe : Nat → Arr Int), (∀ q, free q ↔ h.Sampled m fe q) →
      ∀ (S cw bmin : Nat) (eps : ℝ) (bmax : Int) (ps fx : Nat), 1 ≤ cw → 1 ≤ ps → 1 ≤ S →
      ∀ T, m.clock + bmin + bmax.toNat + S ≤ T → ∀ (s : h.State), h.Agree free s s0 → ∀ (g : h.State → ℝ), (∀ x, |g x| ≤ 1) →
      ∃ f : h.Draws T → ℝ,
        (∀ ω, ∃ (m' : _) (x : Nat → h.State), infer (genericEnv (Spec.Hier.withDraws wr ω)) S cw eps bmin bmax ps fx
          { m with world := h.world fe s } = .ok m' ∧ (∀ k < S, h.IsSample m m' S k (x k)) ∧
          f ω = (∑ k ∈ Finset.range S, g (x k)) / S) ∧
        Integrable (fun ω => (f ω - ∑ x, h.posteriorGiven free s0 x * g x) ^ 2) (h.allDraws T) ∧
        ∫ ω, (f ω - ∑ x, h.posteriorGiven free s0 x * g x) ^ 2 ∂h.allDraws T ≤ C / S := by
  obtain ⟨C, hC⟩ := average_square H free s0 hties
  refine ⟨C, ?_⟩
  intro wr hw m hm hp fe hfe S cw bmin eps bmax ps fx hcw hps hS T hT s hs g hg
  refine ⟨_, fun ω => ?_, hC wr m hm hp fe hfe S (burnSweeps cw bmin bmax) hS T
    (by rw [burnSweeps]; omega) s hs g hg _ fun ω => rfl⟩
  have hout := fun k (hk : k < S) => Spec.Hier.infer_state H hw hm hp fe S cw bmin eps bmax ps fx hcw hps T hT k hk ω s
  obtain ⟨m', h3, -⟩ := hout 0 hS
  refine ⟨m', fun k => runSteps (fun p => Spec.Hier.matStep fe p.2) ω (Spec.Hier.sweepsSched h wr.perm (freeMats m) T
      m.clock (burnSweeps cw bmin bmax + (k + 1))) s, h3, fun k hk => ?_, rfl⟩
  obtain ⟨m'', h5, h6⟩ := hout k hk
  rw [h3] at h5
  cases h5
  rw [h6]

/-- **C80** (partial): the mean square error of the posterior mean that the machine computes (`mat.mean()`) is at most a
constant divided by the number of samples, whatever the initial state and the length of burn-in, if no sampled entry is
ever indifferent (see C79). The posterior is that given the values of the fixed matrices and entries (`s0`). -/
theorem C80_mean_square_given_partial {h : Hier} (H : h.Legal) (free : h.Site → Prop) (s0 : h.State)
    (hties : h.NoTiesGiven free s0) : ∃ C : ℝ,
    ∀ (wr : Wiring), h.Wired wr → ∀ (m : Mach Sampler LbdaUpdate), h.FixedLbdas wr m →
      (∀ t, (wr.perm t (freeMats m)).Perm (freeMats m)) →
      ∀ (fe : Nat → Arr Int), (∀ q, free q ↔ h.Sampled m fe q) →
      ∀ (S cw bmin : Nat) (eps : ℝ) (bmax : Int) (ps fx : Nat), 1 ≤ cw → 1 ≤ ps → 1 ≤ S →
      ∀ T, m.clock + bmin + bmax.toNat + S ≤ T → ∀ (s : h.State), h.Agree free s s0 →
      ∀ (i : Fin h.M), (i : Nat) ∈ freeMats m → ∀ (n : Fin (h.rows i)) (l : Fin (h.cols i)),
      ∃ f : h.Draws T → ℝ,
        (∀ ω, ∃ m' a, infer (genericEnv (Spec.Hier.withDraws wr ω)) S cw eps bmin bmax ps fx
          { m with world := h.world fe s } = .ok m' ∧ (m'.ofac i).mean = .nums a ∧ a.shape = [h.rows i, h.cols i] ∧
          f ω = a [n, l]) ∧
        Integrable (fun ω => (f ω - ∑ x, h.posteriorGiven free s0 x * (sgn (x i (n, l)) : ℝ)) ^ 2) (h.allDraws T) ∧
        ∫ ω, (f ω - ∑ x, h.posteriorGiven free s0 x * (sgn (x i (n, l)) : ℝ)) ^ 2 ∂h.allDraws T ≤ C / S := by
  obtain ⟨C, hC⟩ := average_square H free s0 hties
  refine ⟨C, ?_⟩
  intro wr hw m hm hp fe hfe S cw bmin eps bmax ps fx hcw hps hS T hT s hs i hi n l
  refine ⟨_, fun ω => ?_, hC wr m hm hp fe hfe S (burnSweeps cw bmin bmax) hS T
    (by rw [burnSweeps]; omega) s hs (fun x => (sgn (x i (n, l)) : ℝ))
    (fun x => by cases x i (n, l) <;> simp [sgn]) _ fun ω => rfl⟩
  obtain ⟨m', e1, e2⟩ := Spec.Hier.infer_mean H hw hm hp fe S cw bmin eps bmax ps fx hcw hps hS T hT ω s
  obtain ⟨a, b1, b2, b3⟩ := e2 i hi
  exact ⟨m', a, e1, b1, b2, (b3 n l).symm⟩

/-- **C80** (partial): hence the posterior mean that the machine computes is close to that of the posterior distribution
(given what is fixed) with probability close to 1, from any initial state: the probability of an error of `δ` or more is at
most `C / (S δ²)`. -/
theorem C80_consistent_given_partial {h : Hier} (H : h.Legal) (free : h.Site → Prop) (s0 : h.State)
    (hties : h.NoTiesGiven free s0) : ∃ C : ℝ,
    ∀ (wr : Wiring), h.Wired wr → ∀ (m : Mach Sampler LbdaUpdate), h.FixedLbdas wr m →
      (∀ t, (wr.perm t (freeMats m)).Perm (freeMats m)) →
      ∀ (fe : Nat → Arr Int), (∀ q, free q ↔ h.Sampled m fe q) →
      ∀ (S cw bmin : Nat) (eps : ℝ) (bmax : Int) (ps fx : Nat), 1 ≤ cw → 1 ≤ ps → 1 ≤ S →
      ∀ T, m.clock + bmin + bmax.toNat + S ≤ T → ∀ (s : h.State), h.Agree free s s0 →
      ∀ (i : Fin h.M), (i : Nat) ∈ freeMats m → ∀ (n : Fin (h.rows i)) (l : Fin (h.cols i))
        (δ : ℝ), 0 < δ →
      h.allDraws T {ω | ∃ m' a, infer (genericEnv (Spec.Hier.withDraws wr ω)) S cw eps bmin bmax ps fx
          { m with world := h.world fe s } = .ok m' ∧ (m'.ofac i).mean = .nums a ∧
          δ ≤ |a [n, l] - ∑ x, h.posteriorGiven free s0 x * (sgn (x i (n, l)) : ℝ)|} ≤ ENNReal.ofReal (C / (S * δ ^ 2)) := by
  obtain ⟨C, hC⟩ := C80_mean_square_given_partial H free s0 hties
  refine ⟨C, ?_⟩
  intro wr hw m hm hp fe hfe S cw bmin eps bmax ps fx hcw hps hS T hT s hs i hi n l δ hδ
  obtain ⟨f, hf, hint, hle⟩ := hC wr hw m hm hp fe hfe S cw bmin eps bmax ps fx hcw hps hS T hT s hs i hi n l
  obtain ⟨mu, hmu⟩ : ∃ mu, mu = ∑ x, h.posteriorGiven free s0 x * (sgn (x i (n, l)) : ℝ) := ⟨_, rfl⟩
  rw [← hmu] at hint hle ⊢
  have hprob : IsProbabilityMeasure (h.allDraws T) := by
    unfold Spec.Hier.allDraws
    infer_instance
  have hset : {ω | ∃ m' a, infer (genericEnv (Spec.Hier.withDraws wr ω)) S cw eps bmin bmax ps fx
          { m with world := h.world fe s } = .ok m' ∧ (m'.ofac i).mean = .nums a ∧ δ ≤ |a [n, l] - mu|} =
      {ω | δ ^ 2 ≤ (f ω - mu) ^ 2} := by
    ext ω
    obtain ⟨m', a, e1, e2, -, e3⟩ := hf ω
    simp only [Set.mem_ofPred_eq, e1, Except.ok.injEq]
    rw [e3, sq_le_sq, abs_of_pos hδ]
    constructor
    · rintro ⟨m'', a', rfl, h2, h3⟩
      rw [e2] at h2
      cases h2
      exact h3
    · intro h3
      exact ⟨m', a, rfl, e2, h3⟩
  rw [hset]
  have hmk := mul_meas_ge_le_integral_of_nonneg (μ := h.allDraws T) (Filter.Eventually.of_forall fun ω => sq_nonneg (f ω - mu))
    hint (δ ^ 2)
  have hS' : (0 : ℝ) < S := by exact_mod_cast hS
  rw [← ENNReal.ofReal_toReal (measure_ne_top (h.allDraws T) {ω | δ ^ 2 ≤ (f ω - mu) ^ 2})]
  refine ENNReal.ofReal_le_ofReal ?_
  rw [show C / (S * δ ^ 2) = C / S / δ ^ 2 by rw [div_div], le_div_iff₀ (by positivity), mul_comm]
  exact hmk.trans hle

/-- **C80** (partial): and `set_to_map` gets the more probable value of an entry with probability close to 1 (as long as
one of the two values is more probable, that is, the posterior mean is not 0). -/
theorem C80_map_given_partial {h : Hier} (H : h.Legal) (free : h.Site → Prop) (s0 : h.State)
    (hties : h.NoTiesGiven free s0) : ∃ C : ℝ,
    ∀ (wr : Wiring), h.Wired wr → ∀ (m : Mach Sampler LbdaUpdate), h.FixedLbdas wr m →
      (∀ t, (wr.perm t (freeMats m)).Perm (freeMats m)) →
      ∀ (fe : Nat → Arr Int), (∀ q, free q ↔ h.Sampled m fe q) →
      ∀ (S cw bmin : Nat) (eps : ℝ) (bmax : Int) (ps fx : Nat), 1 ≤ cw → 1 ≤ ps → 1 ≤ S →
      ∀ T, m.clock + bmin + bmax.toNat + S ≤ T → ∀ (s : h.State), h.Agree free s s0 →
      ∀ (i : Fin h.M), (i : Nat) ∈ freeMats m → ∀ (n : Fin (h.rows i)) (l : Fin (h.cols i)),
      (∑ x, h.posteriorGiven free s0 x * (sgn (x i (n, l)) : ℝ)) ≠ 0 →
      h.allDraws T {ω | ¬ ∃ m', infer (genericEnv (Spec.Hier.withDraws wr ω)) S cw eps bmin bmax ps fx
          { m with world := h.world fe s } = .ok m' ∧ (m'.ofac i).set_to_map.val [n, l] =
            (if 0 < ∑ x, h.posteriorGiven free s0 x * (sgn (x i (n, l)) : ℝ) then 1 else -1)} ≤
        ENNReal.ofReal (C / (S * (∑ x, h.posteriorGiven free s0 x * (sgn (x i (n, l)) : ℝ)) ^ 2)) := by
  obtain ⟨C, hC⟩ := C80_consistent_given_partial H free s0 hties
  refine ⟨C, ?_⟩
  intro wr hw m hm hp fe hfe S cw bmin eps bmax ps fx hcw hps hS T hT s hs i hi n l h0
  obtain ⟨mu, hmu⟩ : ∃ mu, mu = ∑ x, h.posteriorGiven free s0 x * (sgn (x i (n, l)) : ℝ) := ⟨_, rfl⟩
  have hle := hC wr hw m hm hp fe hfe S cw bmin eps bmax ps fx hcw hps hS T hT s hs i hi n l |mu|
    (abs_pos.2 (hmu ▸ h0))
  rw [← hmu, sq_abs] at hle
  rw [← hmu]
  refine (measure_mono fun ω hω => ?_).trans hle
  obtain ⟨m', e1, e2⟩ := Spec.Hier.infer_mean H hw hm hp fe S cw bmin eps bmax ps fx hcw hps hS T hT ω s
  obtain ⟨a, b1, -, -⟩ := e2 i hi
  refine ⟨m', a, e1, b1, ?_⟩
  have hne : (m'.ofac i).set_to_map.val [n, l] ≠ if 0 < mu then 1 else -1 := fun e => hω ⟨m', e1, e⟩
  rw [(toMap_get _ a b1).2] at hne
  by_cases hpos : 0 < mu
  · rw [if_pos hpos] at hne
    have ha : ¬ 0 < a [n, l] := fun h => hne (if_pos h)
    rw [abs_of_pos hpos, abs_of_neg (by linarith)]
    linarith
  · rw [if_neg hpos] at hne
    have ha : 0 < a [(n : Nat), (l : Nat)] := by
      by_contra h
      exact hne (if_neg h)
    rw [abs_of_nonpos (by linarith), abs_of_pos (by linarith)]
    linarith

/-- **C80** as stated is wrong: a machine with a missing observation that every sample predicts to be false, whatever the
draws and however many samples there are, though it is true with positive posterior probability. -/
theorem C80_wrong : ∃ h : Hier, h.Legal ∧ ∃ (z u : Fin h.M), h.layers.map (fun k => (k.model, k.factors)) = [(Lom8.OR_AND, [(z : Nat), (u : Nat)])] ∧
    ∃ (predicts : h.State → Prop), (∀ x, predicts x ↔ ∃ (n : Fin (h.rows z)) (d : Fin (h.rows u)) (l : Fin (h.cols z))
      (l' : Fin (h.cols u)), (l : Nat) = l' ∧ x z (n, l) = true ∧ x u (d, l') = true) ∧
    (∃ x, 0 < h.posterior x ∧ predicts x) ∧ ∃ s : h.State,
    ∀ perm : Nat → List Nat → List Nat, (∀ t l, (perm t l).Perm l) → ∀ (S cw bmin : Nat) (eps : ℝ) (bmax : Int) (ps fx : Nat),
      1 ≤ cw → 1 ≤ ps → 1 ≤ S → ∀ T, bmin + bmax.toNat + S ≤ T → ∀ ω : h.Draws T,
      ∃ m', infer (genericEnv (Spec.Hier.withDraws (h.wiringOf perm) ω)) S cw eps bmin bmax ps fx
        (h.machOf (fun _ => Arr.full [1, 2] 0) s) = .ok m' ∧
        ∀ k < S, ∀ x, h.IsSample (h.machOf (fun _ => Arr.full [1, 2] 0) s) m' S k x → ¬ predicts x := by
  have H := blankHier_legal
  have hM0 : (0 : Nat) < blankHier.M := by simp [blankHier]
  have hM1 : (1 : Nat) < blankHier.M := by simp [blankHier]
  have hrow : ∀ i, blankHier.rows i = 1 := fun i => rfl
  have hcol : ∀ i : Fin blankHier.M, blankHier.cols i = 2 := by
    intro i
    have := i.2
    simp only [blankHier] at this ⊢
    rw [if_neg (by omega)]
  refine ⟨blankHier, H, ⟨0, hM0⟩, ⟨1, hM1⟩, rfl, _, fun x => Iff.rfl, ⟨fun _ _ => true, ?_, ?_⟩,
    fun (i : Fin blankHier.M) e => decide ((i : Nat) = (e.2 : Nat)), ?_⟩
  · exact div_pos (Spec.Hier.joint_pos H _) (Finset.sum_pos (fun x _ => Spec.Hier.joint_pos H x) ⟨fun _ _ => true, Finset.mem_univ _⟩)
  · exact ⟨⟨0, by simp [hrow]⟩, ⟨0, by simp [hrow]⟩, ⟨0, by simp [blankHier]⟩, ⟨0, by simp [blankHier]⟩, rfl, rfl, rfl⟩
  intro perm hperm S cw bmin eps bmax ps fx hcw hps hS T hT ω
  obtain ⟨s, hs⟩ : ∃ s : blankHier.State, s = fun (i : Fin blankHier.M) e => decide ((i : Nat) = (e.2 : Nat)) := ⟨_, rfl⟩
  rw [← hs]
  have hB := fun (i : Fin blankHier.M) (n : Fin (blankHier.rows i)) => Spec.Hier.unobserved_samples H
    (Spec.Hier.wiringOf_wired H perm) (blankHier.machOf (fun _ => Arr.full [1, 2] 0) s)
    (Spec.Hier.machOf_fixed H perm _ s) (fun t => hperm t _) (fun _ => Arr.full [1, 2] 0) S cw bmin eps bmax ps fx hcw hps T
    (by show 0 + bmin + bmax.toNat + S ≤ T; omega) i ((Spec.Hier.mem_freeMats_machOf H _ s i).2 i.2) n
    (blankHier_unobserved _ _) (fun l => by simp [Arr.full]) ω s hS
  obtain ⟨m', -, h1, -, -⟩ := hB ⟨0, hM0⟩ ⟨0, by simp [hrow]⟩
  have h1' : infer (genericEnv (Spec.Hier.withDraws (blankHier.wiringOf perm) ω)) S cw eps bmin bmax ps fx
    (blankHier.machOf (fun _ => Arr.full [1, 2] 0) s) = .ok m' := h1
  refine ⟨m', h1', ?_⟩
  rintro k hk x hx ⟨n, d, l, l', hll, hz, hu⟩
  have hval : ∀ (i : Fin blankHier.M) (n : Fin (blankHier.rows i)) (l : Fin (blankHier.cols i)),
      sgn (x i (n, l)) = (-1) ^ (burnSweeps cw bmin bmax + 1 + k) * sgn (s i (n, l)) := by
    intro i n l
    obtain ⟨m'', tr, e1, e2, e3⟩ := hB i n
    rw [h1] at e1
    cases e1
    obtain ⟨tr', u1, -, u3⟩ := hx.1 i ((Spec.Hier.mem_freeMats_machOf H _ s i).2 i.2)
    rw [e2] at u1
    cases u1
    rw [← u3, e3 k hk]
  have e0 := hval _ n l
  have e1 := hval _ d l'
  have e0' : sgn true = (-1) ^ (burnSweeps cw bmin bmax + 1 + k) * sgn (decide (0 = (l : Nat))) := by
    rw [← hz, e0, hs]
  have e1' : sgn true = (-1) ^ (burnSweeps cw bmin bmax + 1 + k) * sgn (decide (1 = (l : Nat))) := by
    rw [← hu, e1, hs, hll]
  have hl2 : (l : Nat) < 2 := lt_of_lt_of_eq l.2 (hcol ⟨0, hM0⟩)
  have hl3 : (l : Nat) = 0 ∨ (l : Nat) = 1 := by omega
  rcases neg_one_pow_eq_or ℤ (burnSweeps cw bmin bmax + 1 + k) with hp | hp <;> rw [hp] at e0' e1' <;>
    rcases hl3 with h0 | h0 <;> rw [h0] at e0' e1' <;> simp [sgn] at e0' e1'

end LFM

import Verif.Lemmas.HierSteps
import Verif.Model.Posterior
import Mathlib.MeasureTheory.Integral.Bochner.Set

/-!
# C78: samples of `infer` in a machine whose state has the posterior distribution
-/

namespace LFM

open Spec MeasureTheory

namespace Spec.Hier

/-- distribution of the samples -/
theorem sample_law {h : Hier} (H : h.Legal) {wr : Wiring} (hw : h.Wired wr) {m : Mach Sampler LbdaUpdate}
    (hm : h.FixedLbdas wr m) (hp : ∀ t, (wr.perm t (freeMats m)).Perm (freeMats m)) (fe : Nat → Arr Int)
    (S cw bmin : Nat) (eps : ℝ) (bmax : Int) (ps fx : Nat) (hcw : 1 ≤ cw) (hps : 1 ≤ ps) (T : Nat)
    (hT : m.clock + bmin + bmax.toNat + S ≤ T) (k : Nat) (hk : k < S) (s s' : h.State) :
    h.allDraws T {ω | ∃ m', infer (genericEnv (withDraws wr ω)) S cw eps bmin bmax ps fx
        { m with world := h.world fe s } = .ok m' ∧ h.IsSample m m' S k s'} =
      schedule (fun p s s' => uniformDraws (h.rows p.2) (h.cols p.2) {u | matStep fe p.2 s u = s'})
        (sweepsSched h wr.perm (freeMats m) T m.clock (burnSweeps cw bmin bmax + (k + 1))) s s' := by
  rw [← runSteps_law (fun p : Fin T × Fin h.M => uniformDraws (h.rows p.2) (h.cols p.2))
    (step := fun p => matStep fe p.2) (fun p s s' => matStep_event fe p.2 s s') _
    (sweepsSched_nodup hp hm.nodup hm.free _ _) s s']
  unfold allDraws
  congr 1
  ext ω
  obtain ⟨m', h3, h4⟩ := infer_state H hw hm hp fe S cw bmin eps bmax ps fx hcw hps T hT k hk ω s
  simp only [Set.mem_ofPred_eq, h3, Except.ok.injEq, exists_eq_left', h4]

end Spec.Hier

/-- **C78** (partial): if the matrices of a machine have the posterior distribution when `infer` is called, then so has
every sample that it stores, jointly over all matrices: the weights of states before the call, times the probability
(over all draws) that sample `k` is `s'`, add up to the weight of `s'`. And `infer` returns, whatever the state and the
draws. (Layers as in C76; parameters fixed, no annealing and no automatic clean-up.) -/
theorem C78_samples_stationary_partial {h : Hier} (H : h.Legal) {wr : Wiring} (hw : h.Wired wr)
    (m : Mach Sampler LbdaUpdate) (hm : h.FixedLbdas wr m) (hp : ∀ t, (wr.perm t (freeMats m)).Perm (freeMats m))
    (fe : Nat → Arr Int) (S cw bmin : Nat) (eps : ℝ) (bmax : Int) (ps fx : Nat) (hcw : 1 ≤ cw) (hps : 1 ≤ ps) (T : Nat)
    (hT : m.clock + bmin + bmax.toNat + S ≤ T) :
    (∀ (ω : h.Draws T) (s : h.State), 1 ≤ S → ∃ m', infer (genericEnv (Spec.Hier.withDraws wr ω)) S cw eps bmin bmax ps fx
        { m with world := h.world fe s } = .ok m') ∧
    ∀ k < S, ∀ s' : h.State, ∑ s, ENNReal.ofReal (h.joint s) *
      h.allDraws T {ω | ∃ m', infer (genericEnv (Spec.Hier.withDraws wr ω)) S cw eps bmin bmax ps fx
        { m with world := h.world fe s } = .ok m' ∧ h.IsSample m m' S k s'} = ENNReal.ofReal (h.joint s') := by
  refine ⟨fun ω s hS => ?_, fun k hkS s' => ?_⟩
  · obtain ⟨m', h3, -⟩ := Spec.Hier.infer_state H hw hm hp fe S cw bmin eps bmax ps fx hcw hps T hT 0 (by omega) ω s
    exact ⟨m', h3⟩
  · rw [← schedule_invariant (fun p s' => Spec.Hier.matStep_invariant H fe p.2 s') (Spec.Hier.sweepsSched h wr.perm
      (freeMats m) T m.clock (burnSweeps cw bmin bmax + (k + 1))) s']
    refine Finset.sum_congr rfl fun s _ => ?_
    congr 1
    exact Spec.Hier.sample_law H hw hm hp fe S cw bmin eps bmax ps fx hcw hps T hT k hkS s s'

theorem ofac_mean (m' : Mach Sampler LbdaUpdate) (i : Nat) (tr : Arr Int) (h1 : m'.trace i = some tr) {S r c : Nat}
    (h2 : tr.shape = [S, r, c]) (hS : 1 ≤ S) : ∃ a, (m'.ofac i).mean = .nums a ∧ a.shape = [r, c] ∧
      ∀ n l, a [n, l] = (∑ k : Fin S, (tr [k, n, l] : ℝ)) / S := by
  have e1 : (m'.ofac i).trace = some ((List.range S).map fun t => (⟨[r, c], fun idx => tr (t :: idx)⟩ : Arr Int)) := by
    rw [Mach.ofac, h1]
    simp [samplesOf, Arr.dim, h2]
  obtain ⟨S, rfl⟩ : ∃ S', S = S' + 1 := ⟨S - 1, by omega⟩
  rw [List.range_succ_eq_map, List.map_cons] at e1
  rw [OFac.mean, e1]
  refine ⟨_, rfl, rfl, fun n l => ?_⟩
  show (List.map _ (_ :: _)).sum / _ = _
  rw [← List.map_cons (f := fun t => (⟨[r, c], fun idx => tr (t :: idx)⟩ : Arr Int)), ← List.range_succ_eq_map,
    List.map_map, List.length_map, List.length_range]
  congr 1
  rw [Fin.sum_univ_eq_sum_range (fun k => (tr [k, n, l] : ℝ)) (S + 1), ← List.sum_toFinset _ List.nodup_range,
    List.toFinset_range]
  rfl

/-- expectation of a function of a random variable with finitely many values -/
theorem integral_finite {Ω S : Type} [Fintype S] [MeasurableSpace Ω] {μ : Measure Ω} [IsFiniteMeasure μ] {X : Ω → S}
    (hX : ∀ s, MeasurableSet {ω | X ω = s}) (g : S → ℝ) :
    Integrable (fun ω => g (X ω)) μ ∧ ∫ ω, g (X ω) ∂μ = ∑ s, (μ {ω | X ω = s}).toReal * g s := by
  classical
  have e : (fun ω => g (X ω)) = fun ω => ∑ s, Set.indicator {ω | X ω = s} (fun _ => g s) ω := by
    funext ω
    rw [Finset.sum_eq_single (X ω)]
    · simp
    · intro s _ hs
      simp [Ne.symm hs]
    · simp
  have hi : ∀ s, Integrable (Set.indicator {ω | X ω = s} fun _ => g s) μ :=
    fun s => (integrable_const (g s)).indicator (hX s)
  refine ⟨?_, ?_⟩
  · rw [e]
    exact integrable_finsetSum _ fun s _ => hi s
  · rw [e, integral_finsetSum _ fun s _ => hi s]
    refine Finset.sum_congr rfl fun s _ => ?_
    rw [integral_indicator_const _ (hX s), smul_eq_mul]
    rfl

/-- **C78** (partial): then the posterior mean that the machine computes (`mat.mean()`, the average of the samples in the
trace) is an unbiased estimate of the mean of the posterior distribution: `f s ω` is the mean of entry `(n, l)` after
`infer` in state `s` with draws `ω`. -/
theorem C78_mean_unbiased_partial {h : Hier} (H : h.Legal) {wr : Wiring} (hw : h.Wired wr)
    (m : Mach Sampler LbdaUpdate) (hm : h.FixedLbdas wr m) (hp : ∀ t, (wr.perm t (freeMats m)).Perm (freeMats m))
    (fe : Nat → Arr Int) (S cw bmin : Nat) (eps : ℝ) (bmax : Int) (ps fx : Nat) (hcw : 1 ≤ cw) (hps : 1 ≤ ps)
    (hS : 1 ≤ S) (T : Nat) (hT : m.clock + bmin + bmax.toNat + S ≤ T)
    (i : Fin h.M) (hi : (i : Nat) ∈ freeMats m) (n : Fin (h.rows i)) (l : Fin (h.cols i)) :
    ∃ f : h.State → h.Draws T → ℝ,
      (∀ s ω, ∃ m' a, infer (genericEnv (Spec.Hier.withDraws wr ω)) S cw eps bmin bmax ps fx
          { m with world := h.world fe s } = .ok m' ∧ (m'.ofac i).mean = .nums a ∧ a.shape = [h.rows i, h.cols i] ∧
          f s ω = a [n, l]) ∧
      (∀ s, Integrable (f s) (h.allDraws T)) ∧
      ∑ s, h.joint s * ∫ ω, f s ω ∂h.allDraws T = ∑ s, h.joint s * (sgn (s i (n, l)) : ℝ) := by
  have hstat := (C78_samples_stationary_partial H hw m hm hp fe S cw bmin eps bmax ps fx hcw hps T hT).2
  have hout := fun k : Fin S => Spec.Hier.infer_state H hw hm hp fe S cw bmin eps bmax ps fx hcw hps T hT k k.2
  obtain ⟨sched, hsched⟩ : ∃ sched : Fin S → List (Fin T × Fin h.M), sched = fun k : Fin S => Spec.Hier.sweepsSched h wr.perm
    (freeMats m) T m.clock (burnSweeps cw bmin bmax + (k + 1)) := ⟨_, rfl⟩
  have hprob : IsProbabilityMeasure (h.allDraws T) := by
    unfold Spec.Hier.allDraws
    infer_instance
  obtain ⟨X, hX⟩ : ∃ X : Fin S → h.State → h.Draws T → h.State,
      X = fun k s ω => runSteps (fun p => Spec.Hier.matStep fe p.2) ω (sched k) s := ⟨_, rfl⟩
  have hXm : ∀ k s s', MeasurableSet {ω | X k s ω = s'} := by
    intro k s s'
    rw [hX]
    exact measurable_runSteps (step := fun p : Fin T × Fin h.M => Spec.Hier.matStep fe p.2)
      (fun p s s' => Spec.Hier.matStep_event fe p.2 s s') (sched k) s s'
  have hlaw : ∀ k s', ∑ s, h.joint s * (h.allDraws T {ω | X k s ω = s'}).toReal = h.joint s' := by
    intro k s'
    have e := hstat k k.2 s'
    have e' := congrArg ENNReal.toReal e
    rw [ENNReal.toReal_ofReal (Spec.Hier.joint_pos H s').le, ENNReal.toReal_sum] at e'
    · rw [← e']
      refine Finset.sum_congr rfl fun s _ => ?_
      rw [ENNReal.toReal_mul, ENNReal.toReal_ofReal (Spec.Hier.joint_pos H s).le]
      congr 3
      ext ω
      obtain ⟨m', h3, h4⟩ := hout k ω s
      simp only [Set.mem_ofPred_eq, h3, Except.ok.injEq, exists_eq_left', h4, hX, hsched]
    · intro s _
      exact ENNReal.mul_ne_top ENNReal.ofReal_ne_top (measure_ne_top _ _)
  refine ⟨fun s ω => (∑ k : Fin S, (sgn (X k s ω i (n, l)) : ℝ)) / S, ?_, ?_, ?_⟩
  · intro s ω
    obtain ⟨m', h3, -⟩ := hout ⟨0, hS⟩ ω s
    have hs : ∀ k : Fin S, h.IsSample m m' S k (X k s ω) := by
      intro k
      obtain ⟨m'', h5, h6⟩ := hout k ω s
      rw [h3] at h5
      cases h5
      rw [h6, hX, hsched]
    obtain ⟨tr, t1, t2, -⟩ := (hs ⟨0, hS⟩).1 i hi
    have htr : ∀ k : Fin S, tr [k, n, l] = sgn (X k s ω i (n, l)) := by
      intro k
      obtain ⟨tr', u1, -, u3⟩ := (hs k).1 i hi
      rw [t1] at u1
      cases u1
      exact u3 n l
    obtain ⟨a, b1, b2, b3⟩ := ofac_mean m' i tr t1 t2 hS
    refine ⟨m', a, h3, b1, b2, ?_⟩
    rw [b3]
    simp only [htr]
  · intro s
    refine Integrable.div_const ?_ _
    exact integrable_finsetSum _ fun k _ => (integral_finite (hXm k s) fun s' => (sgn (s' i (n, l)) : ℝ)).1
  · have e : ∀ s, ∫ ω, (∑ k : Fin S, (sgn (X k s ω i (n, l)) : ℝ)) / S ∂h.allDraws T =
        (∑ k : Fin S, ∑ s', (h.allDraws T {ω | X k s ω = s'}).toReal * (sgn (s' i (n, l)) : ℝ)) / S := by
      intro s
      rw [integral_div, integral_finsetSum]
      · congr 1
        exact Finset.sum_congr rfl fun k _ => (integral_finite (hXm k s) fun s' => (sgn (s' i (n, l)) : ℝ)).2
      · exact fun k _ => (integral_finite (hXm k s) fun s' => (sgn (s' i (n, l)) : ℝ)).1
    simp only [e]
    have e2 : ∀ k : Fin S, ∑ s, h.joint s * ∑ s', (h.allDraws T {ω | X k s ω = s'}).toReal * (sgn (s' i (n, l)) : ℝ) =
        ∑ s', h.joint s' * (sgn (s' i (n, l)) : ℝ) := by
      intro k
      simp only [Finset.mul_sum]
      rw [Finset.sum_comm]
      refine Finset.sum_congr rfl fun s' _ => ?_
      rw [← hlaw k s', Finset.sum_mul]
      exact Finset.sum_congr rfl fun s _ => by ring
    have hS0 : (S : ℝ) ≠ 0 := by positivity
    have e3 : ∀ s, h.joint s * ((∑ k : Fin S, ∑ s', (h.allDraws T {ω | X k s ω = s'}).toReal * (sgn (s' i (n, l)) : ℝ)) / S) =
        (∑ k : Fin S, h.joint s * ∑ s', (h.allDraws T {ω | X k s ω = s'}).toReal * (sgn (s' i (n, l)) : ℝ)) / S := by
      intro s
      rw [← Finset.mul_sum, mul_div_assoc]
    simp only [e3]
    rw [← Finset.sum_div, Finset.sum_comm, Finset.sum_congr rfl fun k _ => e2 k, Finset.sum_const, Finset.card_univ,
      Fintype.card_fin, nsmul_eq_mul, mul_div_cancel_left₀ _ hS0]

end LFM

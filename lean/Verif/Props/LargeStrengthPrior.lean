import Verif.Props.LargeStrength
import Verif.Props.Exchange
import Verif.Props.OneMoreCell3

/-!
# C142 for any prior
-/

namespace LFM

open Spec MeasureTheory

namespace Spec.Hier

variable (h : Hier)

/-- prior probability of the factors -/
noncomputable def priorOf (s : h.State) : ℝ := ∏ i : Fin h.M, priorProb (h.prior i) (h.rows i) (h.cols i) (Cfg.fac (s i))

variable {h}

theorem priorOf_pos (H : h.Legal) (s : h.State) : 0 < h.priorOf s :=
  Finset.prod_pos fun i _ => priorProb_pos (H.prior i i.2).1 (H.prior i i.2).2 _ _ _

end Spec.Hier

open Classical in
/-- **C142**, any prior: the posterior probability that the factors predict fewer data cells than they could is at most
`exp (-λ)` divided by the prior probability (given the entries that are fixed) of any best fit `b` -/
theorem C142_any_prior {h : Hier} (H : h.Legal) {k : HLayer} (hk : h.layers = [k]) (hl : 0 ≤ k.lbda) (free : h.Site → Prop)
    (s0 b : h.State) (hb : h.Agree free b s0) (hbest : h.BestFit k free b) :
    ∑ x, h.posteriorGiven free s0 x * (if h.BestFit k free x then 0 else 1) ≤
      Real.exp (-k.lbda) / (h.priorOf b / ∑ x with h.Agree free x s0, h.priorOf x) := by
  obtain ⟨K, hK, hj⟩ := Spec.Hier.layerLik_hits H hk
  have hj : ∀ s, h.joint s = K * Real.exp k.lbda ^ h.hits k s * h.priorOf s := by
    intro s
    unfold Spec.Hier.joint Spec.Hier.priorOf
    rw [hk]
    simp only [List.map_cons, List.map_nil, List.prod_cons, List.prod_nil, mul_one]
    rw [hj s]
  have hZ : h.joint b ≤ ∑ x with h.Agree free x s0, h.joint x :=
    Finset.single_le_sum (f := h.joint) (fun x _ => (Spec.Hier.joint_pos H x).le) (by simpa using hb)
  have hbp := Spec.Hier.joint_pos H b
  have hpb := Spec.Hier.priorOf_pos H b
  have hone : ∀ x, h.posteriorGiven free s0 x * (if h.BestFit k free x then 0 else 1) ≤
      if h.Agree free x s0 then Real.exp (-k.lbda) / h.priorOf b * h.priorOf x else 0 := by
    intro x
    have hpx := Spec.Hier.priorOf_pos H x
    unfold Spec.Hier.posteriorGiven
    split
    · rename_i hag
      split
      · rw [mul_zero]
        positivity
      · rename_i hx
        rw [mul_one]
        have hlt : h.hits k x + 1 ≤ h.hits k b := by
          by_contra hc
          refine hx fun y hy => (hbest y fun q hq => ?_).trans (by omega)
          rw [hy q hq, hag q hq, hb q hq]
        have hjx : h.joint x ≤ Real.exp (-k.lbda) / h.priorOf b * h.priorOf x * h.joint b := by
          rw [hj x, hj b]
          have h1 : Real.exp k.lbda ^ (h.hits k x + 1) ≤ Real.exp k.lbda ^ h.hits k b :=
            pow_le_pow_right₀ (Real.one_le_exp hl) hlt
          rw [pow_succ] at h1
          have h2 : Real.exp k.lbda * Real.exp (-k.lbda) = 1 := by rw [← Real.exp_add]; simp
          calc K * Real.exp k.lbda ^ h.hits k x * h.priorOf x
              = Real.exp (-k.lbda) * (K * (Real.exp k.lbda ^ h.hits k x * Real.exp k.lbda)) * h.priorOf x := by
                linear_combination (-(K * Real.exp k.lbda ^ h.hits k x * h.priorOf x)) * h2
            _ ≤ Real.exp (-k.lbda) * (K * Real.exp k.lbda ^ h.hits k b) * h.priorOf x := by gcongr
            _ = _ := by field_simp
        rw [div_le_iff₀ (hbp.trans_le hZ)]
        exact hjx.trans (by gcongr)
    · rw [zero_mul]
  refine (Finset.sum_le_sum fun x _ => hone x).trans (le_of_eq ?_)
  rw [← Finset.sum_filter, ← Finset.mul_sum, div_div_eq_mul_div, mul_comm_div, mul_div_assoc]

/-- **C142**: a best fit always exists, so the bound of `C142_any_prior` is never void -/
theorem C142_best_exists (h : Hier) (k : HLayer) (free : h.Site → Prop) (s0 : h.State) :
    ∃ b, h.Agree free b s0 ∧ h.BestFit k free b := by
  classical
  obtain ⟨b, hb, hmax⟩ := Finset.exists_max_image (Finset.univ.filter fun x => h.Agree free x s0) (h.hits k)
    ⟨s0, Finset.mem_filter.2 ⟨Finset.mem_univ _, fun _ _ => rfl⟩⟩
  simp only [Finset.mem_filter, Finset.mem_univ, true_and] at hb hmax
  exact ⟨b, hb, fun y hy => hmax y fun q hq => by rw [hy q hq, hb q hq]⟩

open Classical in
/-- **C142**, any prior: the samples of a run -/
theorem C142_any_prior_samples {h : Hier} (H : h.Legal) {k : HLayer} (hk : h.layers = [k]) (hlb : 0 ≤ k.lbda)
    (free : h.Site → Prop) (s0 b : h.State) (hb : h.Agree free b s0) (hbest : h.BestFit k free b) (hl : h.Linking free s0)
    {wr : Wiring} (hw : h.Wired wr) {m : Mach Sampler LbdaUpdate} (hm : h.FixedLbdas wr m) (fe : Nat → Arr Int)
    (hfe : ∀ q, free q ↔ h.Sampled m fe q) : ∃ C : ℝ,
      ∀ (S cw bmin : Nat) (eps : ℝ) (bmax : Int) (ps fx : Nat), 1 ≤ cw → 1 ≤ ps → 1 ≤ S →
      ∀ T, m.clock + bmin + bmax.toNat + S ≤ T → ∀ s : h.State, h.Agree free s s0 →
      ∃ f, h.IsAverage wr m fe S cw eps bmin bmax ps fx T s (fun x => if h.BestFit k free x then 0 else 1) f ∧
        ∀ δ : ℝ, 0 < δ → h.prob (freeMats m) T (fun σ ω =>
            Real.exp (-k.lbda) / (h.priorOf b / ∑ x with h.Agree free x s0, h.priorOf x) + δ ≤ f σ ω) ≤
          ENNReal.ofReal (C / (S * δ ^ 2)) := by
  obtain ⟨C, hC⟩ := C80_linked_partial H free s0 hl hw hm fe hfe
  refine ⟨C, ?_⟩
  intro S cw bmin eps bmax ps fx hcw hps hS T hT s hs
  obtain ⟨f, h1, h2, h3⟩ := hC S cw bmin eps bmax ps fx hcw hps hS T hT s hs (fun x => if h.BestFit k free x then 0 else 1)
    (fun x => by split <;> simp)
  refine ⟨f, h1, fun δ hδ => ?_⟩
  have hpost := C142_any_prior H hk hlb free s0 b hb hbest
  refine (Spec.Hier.prob_mono fun σ ω hω => ?_).trans ((Spec.Hier.prob_le_expectation hδ h2).trans (ENNReal.ofReal_le_ofReal ?_))
  · exact le_trans (by linarith) (le_abs_self _)
  · rw [← div_div]
    exact div_le_div_of_nonneg_right h3 (by positivity)

/-- the hypotheses are met by an OR-AND layer under a sparse prior, with a machine that reaches all states -/
theorem C142_any_prior_hypotheses_met : sparseHier.Legal ∧ (∀ i, sparseHier.prior i = 1 / 1000) ∧
    ∃ k, sparseHier.layers = [k] ∧ 0 ≤ k.lbda ∧
      (∀ s0, (∃ b, sparseHier.Agree (fun _ => True) b s0 ∧ sparseHier.BestFit k (fun _ => True) b) ∧ sparseHier.Linking (fun _ => True) s0) ∧
      ∃ wr : Wiring, sparseHier.Wired wr ∧ ∃ mach : Mach Sampler LbdaUpdate, sparseHier.FixedLbdas wr mach ∧
        ∀ q, sparseHier.Sampled mach (fun _ => Arr.full [] 0) q := by
  obtain ⟨w1, w2, w3⟩ := C79_odd_hypotheses_met.2.2.2.2.2.2 _ sparseHier_legal (fun _ l => l) (fun _ _ => true)
  exact ⟨sparseHier_legal, fun _ => rfl, _, rfl, zero_le_one, fun s0 => ⟨C142_best_exists _ _ _ s0,
    linking_of_noTies (fun s i e => (sparseHier_lt ⟨i, e⟩ s).ne) _ s0⟩, _, w1, _, w2, w3⟩

end LFM

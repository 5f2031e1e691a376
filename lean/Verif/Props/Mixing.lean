import Verif.Lemmas.Mixing
import Verif.Props.Converge

/-!
# C79: exactly when the samples converge to the posterior
-/

namespace LFM

open Spec MeasureTheory

namespace Spec.Hier

variable {h : Hier}

/-- there is a length of burn-in after which the probability of every sample is close to its posterior probability given
what is fixed, whatever the initial state -/
def SamplesConverge (h : Hier) (free : h.Site → Prop) (s0 : h.State) (wr : Wiring) (m : Mach Sampler LbdaUpdate)
    (fe : Nat → Arr Int) : Prop :=
  ∀ δ : ℝ, 0 < δ → ∃ B : Nat, ∀ (S cw bmin : Nat) (eps : ℝ) (bmax : Int) (ps fx : Nat), 1 ≤ cw → 1 ≤ ps →
    ∀ T, m.clock + bmin + bmax.toNat + S ≤ T → ∀ k < S, B ≤ bmin + k → ∀ s s' : h.State, h.Agree free s s0 →
    |(h.prob (freeMats m) T fun σ ω => ∃ m', infer (genericEnv (withDraws (withOrders wr σ) ω)) S cw eps bmin bmax ps fx
        { m with world := h.world fe s } = .ok m' ∧ h.IsSample m m' S k s').toReal - h.posteriorGiven free s0 s'| < δ

theorem withOrders_wired {wr : Wiring} (hw : h.Wired wr) {mats : List Nat} {T : Nat} (σ : Orders mats T) :
    h.Wired (withOrders wr σ) :=
  { hw with }

theorem withOrders_fixed {wr : Wiring} {m : Mach Sampler LbdaUpdate} (hm : h.FixedLbdas wr m) {mats : List Nat} {T : Nat}
    (σ : Orders mats T) : h.FixedLbdas (withOrders wr σ) m :=
  { hm with }

theorem withOrders_perm (wr : Wiring) {mats : List Nat} {T : Nat} (σ : Orders mats T) (t : Nat) :
    ((withOrders wr σ).perm t mats).Perm mats := by
  unfold withOrders
  simp only
  split
  · exact order_perm _
  · exact List.Perm.refl _

open Classical in
/-- distribution of the samples if the orders are random -/
theorem random_law (H : h.Legal) {wr : Wiring} (hw : h.Wired wr) {m : Mach Sampler LbdaUpdate} (hm : h.FixedLbdas wr m)
    {free : h.Site → Prop} {s0 : h.State} (fe : Nat → Arr Int) (hfe : ∀ q, free q ↔ h.Sampled m fe q)
    (S cw bmin : Nat) (eps : ℝ) (bmax : Int) (ps fx : Nat) (hcw : 1 ≤ cw) (hps : 1 ≤ ps) (T : Nat)
    (hT : m.clock + bmin + bmax.toNat + S ≤ T) (k : Nat) (hk : k < S) (s s' : h.State) (hs : h.Agree free s s0) :
    h.prob (freeMats m) T (fun σ ω => ∃ m', infer (genericEnv (withDraws (withOrders wr σ) ω)) S cw eps bmin bmax ps fx
        { m with world := h.world fe s } = .ok m' ∧ h.IsSample m m' S k s') =
      if hz : h.Agree free s' s0 then
        pw (oneSweep (fun (q : {q : h.Site // free q}) (s s' : h.Given free s0) => bitK noFix q.1 s.1 s'.1)
          (h.allOrders free (freeMats m))) (burnSweeps cw bmin bmax + (k + 1)) ⟨s, hs⟩ ⟨s', hz⟩ else 0 := by
  have hne : Nonempty {l : List Nat // l ∈ (freeMats m).permutations.toFinset} :=
    ⟨⟨freeMats m, by rw [List.mem_toFinset, List.mem_permutations]⟩⟩
  obtain ⟨n, hn⟩ : ∃ n, n = burnSweeps cw bmin bmax + (k + 1) := ⟨_, rfl⟩
  have hnT : m.clock + n ≤ T := by rw [hn, burnSweeps]; omega
  have hterm : ∀ σ : Orders (freeMats m) T, h.allDraws T {ω | ∃ m', infer (genericEnv (withDraws (withOrders wr σ) ω)) S cw eps
        bmin bmax ps fx { m with world := h.world fe s } = .ok m' ∧ h.IsSample m m' S k s'} =
      if hz : h.Agree free s' s0 then schedule (fun t => schedule (fun (q : {q : h.Site // free q}) (s s' : h.Given free s0) =>
        bitK noFix q.1 s.1 s'.1) (h.allOrders free (freeMats m) (σ t)))
        ((List.finRange n).map fun j : Fin n => (⟨m.clock + j, by have := j.2; omega⟩ : Fin T)) ⟨s, hs⟩ ⟨s', hz⟩ else 0 := by
    intro σ
    rw [sample_law H (withOrders_wired hw σ) (withOrders_fixed hm σ) (withOrders_perm wr σ) fe S cw bmin eps bmax ps fx hcw hps T
      hT k hk s s', sweeps_given (free := free) (s0 := s0) _ (freeMats m) (withOrders_perm wr σ) fe hfe T m.clock _ (by rw [← hn]; exact hnT)
      s s' hs, ← hn]
    by_cases hz : h.Agree free s' s0
    · rw [dif_pos hz, dif_pos hz, schedule_map, ← List.map_coe_finRange_eq_range, schedule_map]
      refine schedule_congr _ (fun j _ => ?_) _ _
      have hj : m.clock + (j : Nat) < T := by have := j.2; omega
      unfold withOrders allOrders
      simp only [dif_pos hj]
    · rw [dif_neg hz, dif_neg hz]
  unfold prob
  simp only [hterm]
  by_cases hz : h.Agree free s' s0
  · simp only [dif_pos hz]
    rw [average_schedule (ι := Fin T) (fun i => schedule (fun (q : {q : h.Site // free q}) (s s' : h.Given free s0) => bitK noFix q.1 s.1 s'.1)
      (h.allOrders free (freeMats m) i)), schedule_const, List.length_map, List.length_finRange, ← hn, mul_comm,
      mul_div_assoc, ENNReal.div_self, mul_one]
    · rfl
    · exact_mod_cast Fintype.card_ne_zero
    · exact ENNReal.natCast_ne_top _
    · refine (List.nodup_finRange n).map fun a b hab => ?_
      have := congrArg Fin.val hab
      simp only at this
      exact Fin.ext (by omega)
  · simp only [dif_neg hz, Finset.sum_const_zero, ENNReal.zero_div]

end Spec.Hier

/-- **C79** (partial): with random orders of updates, as in the code, the samples converge to the posterior given what is
fixed, from every initial state, if all configurations are linked by changes that matter: the probability that sample `k`
is `s'` differs from its posterior probability by an amount that decreases geometrically with the length of the burn-in.
Some entries may be indifferent at some times, as they always are if the prior is 1/2. (Layers as in C76; parameters fixed,
no annealing, no automatic clean-up.) -/
theorem C79_mixing_partial {h : Hier} (H : h.Legal) (free : h.Site → Prop) (s0 : h.State) (hmix : h.Mixing free s0)
    {wr : Wiring} (hw : h.Wired wr) {m : Mach Sampler LbdaUpdate} (hm : h.FixedLbdas wr m) (fe : Nat → Arr Int)
    (hfe : ∀ q, free q ↔ h.Sampled m fe q) : ∃ N : Nat, 1 ≤ N ∧ ∃ ε : ℝ, 0 < ε ∧ ε ≤ 1 ∧
      ∀ (S cw bmin : Nat) (eps : ℝ) (bmax : Int) (ps fx : Nat), 1 ≤ cw → 1 ≤ ps →
      ∀ T, m.clock + bmin + bmax.toNat + S ≤ T → ∀ k < S, ∀ s s' : h.State, h.Agree free s s0 →
      |(h.prob (freeMats m) T fun σ ω => ∃ m', infer (genericEnv (Spec.Hier.withDraws (Spec.Hier.withOrders wr σ) ω)) S cw eps bmin
          bmax ps fx { m with world := h.world fe s } = .ok m' ∧ h.IsSample m m' S k s').toReal - h.posteriorGiven free s0 s'| ≤
        (1 - ε) ^ ((bmin + k) / N) := by
  classical
  have hne : Nonempty {l : List Nat // l ∈ (freeMats m).permutations.toFinset} :=
    ⟨⟨freeMats m, by rw [List.mem_toFinset, List.mem_permutations]⟩⟩
  have hnS : Nonempty (h.Given free s0) := ⟨⟨s0, Spec.Hier.Agree.refl _ _⟩⟩
  have hfree : ∀ q : h.Site, free q → (q.1 : Nat) ∈ freeMats m := fun q hq => ((hfe q).1 hq).1
  have F0 := Spec.Hier.moves (free := free) (s0 := s0) H
  obtain ⟨N, hN, ε, h0, h1, hc⟩ := F0.converges (os := h.allOrders free (freeMats m))
    (fun i j => Spec.Hier.orderOf_perm free ((Spec.Hier.order_perm i).trans (Spec.Hier.order_perm j).symm))
    ((Spec.Hier.mixing_iff hm.nodup hfree).1 hmix)
  refine ⟨N, hN, ε, h0, h1, ?_⟩
  intro S cw bmin eps bmax ps fx hcw hps T hT k hk s s' hs
  rw [Spec.Hier.random_law H hw hm fe hfe S cw bmin eps bmax ps fx hcw hps T hT k hk s s' hs]
  have hle : (1 - ε) ^ ((burnSweeps cw bmin bmax + (k + 1)) / N) ≤ (1 - ε) ^ ((bmin + k) / N) :=
    pow_le_pow_of_le_one (by linarith) (by linarith) (Nat.div_le_div_right (by rw [burnSweeps]; omega))
  have hsum : ∑ y : h.Given free s0, h.joint y.1 = ∑ x with h.Agree free x s0, h.joint x := by
    rw [Finset.sum_filter, sum_class (fun x => h.Agree free x s0) _ (fun x hx => if_neg hx)]
    exact Finset.sum_congr rfl fun y _ => (if_pos y.2).symm
  unfold Spec.Hier.posteriorGiven
  by_cases hz : h.Agree free s' s0
  · rw [dif_pos hz, if_pos hz, ← hsum]
    exact (hc _ _ ⟨s', hz⟩).trans hle
  · rw [dif_neg hz, if_neg hz]
    simp only [ENNReal.toReal_zero, sub_zero, abs_zero]
    exact pow_nonneg (by linarith) _

/-- **C79**, exactly when the samples converge: there is a length of burn-in after which the probability of every sample is
close to its posterior probability (given what is fixed), whatever the initial state, if and only if all configurations are
linked by changes that matter. -/
theorem C79_mixing_iff {h : Hier} (H : h.Legal) (free : h.Site → Prop) (s0 : h.State)
    {wr : Wiring} (hw : h.Wired wr) {m : Mach Sampler LbdaUpdate} (hm : h.FixedLbdas wr m) (fe : Nat → Arr Int)
    (hfe : ∀ q, free q ↔ h.Sampled m fe q) : h.Mixing free s0 ↔ h.SamplesConverge free s0 wr m fe := by
  classical
  constructor
  · intro hmix δ hδ
    obtain ⟨N, hN, ε, h0, h1, hc⟩ := C79_mixing_partial H free s0 hmix hw hm fe hfe
    obtain ⟨q, hq⟩ := exists_pow_lt_of_lt_one hδ (by linarith : 1 - ε < 1)
    refine ⟨q * N, ?_⟩
    intro S cw bmin eps bmax ps fx hcw hps T hT k hk hB s s' hs
    refine lt_of_le_of_lt (hc S cw bmin eps bmax ps fx hcw hps T hT k hk s s' hs) (lt_of_le_of_lt ?_ hq)
    exact pow_le_pow_of_le_one (by linarith) (by linarith) ((Nat.le_div_iff_mul_le (by omega)).2 hB)
  · intro hconv
    have hfree : ∀ q : h.Site, free q → (q.1 : Nat) ∈ freeMats m := fun q hq => ((hfe q).1 hq).1
    rw [Spec.Hier.mixing_iff hm.nodup hfree]
    intro a b
    have hpos : 0 < h.posteriorGiven free s0 b.1 := by
      unfold Spec.Hier.posteriorGiven
      rw [if_pos b.2]
      refine div_pos (Spec.Hier.joint_pos H _) (Finset.sum_pos (fun x _ => Spec.Hier.joint_pos H x) ⟨b.1, ?_⟩)
      rw [Finset.mem_filter]
      exact ⟨Finset.mem_univ _, b.2⟩
    obtain ⟨B, hB⟩ := hconv _ hpos
    -- an even number of sweeps
    have := hB (2 * B + 2) 1 0 0 0 1 0 (le_refl _) (le_refl _) (m.clock + 0 + (0 : Int).toNat + (2 * B + 2)) (le_refl _) (2 * B + 1)
      (by omega) (by omega) a.1 b.1 a.2
    rw [Spec.Hier.random_law H hw hm fe hfe _ _ _ _ _ _ _ (le_refl _) (le_refl _) _ (le_refl _) _ (by omega) a.1 b.1 a.2,
      dif_pos b.2] at this
    have hev : burnSweeps 1 0 0 + (2 * B + 1 + 1) = 2 * (B + 1) := by
      have : burnSweeps 1 0 0 = 0 := by unfold burnSweeps; simp
      rw [this]
      ring
    rw [hev] at this
    have hne : Nonempty {l : List Nat // l ∈ (freeMats m).permutations.toFinset} :=
      ⟨⟨freeMats m, by rw [List.mem_toFinset, List.mem_permutations]⟩⟩
    refine (Spec.Hier.moves (free := free) (s0 := s0) H).even_linked (os := h.allOrders free (freeMats m))
      (fun i j => Spec.Hier.orderOf_perm free ((Spec.Hier.order_perm i).trans (Spec.Hier.order_perm j).symm)) (B + 1) ?_
    intro h0
    rw [h0, ENNReal.toReal_zero, zero_sub, abs_neg, abs_of_pos hpos] at this
    exact lt_irrefl _ this

end LFM

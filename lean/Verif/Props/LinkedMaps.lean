import Verif.Props.Averages
import Verif.Props.Exchange
import Verif.Props.OddData

/-!
# C80, C92 with random orders of updates: maps, and equal columns
-/

namespace LFM

open Spec MeasureTheory

namespace Spec.Hier

variable {h : Hier}

theorem prob_mono {mats : List Nat} {T : Nat} {A B : Orders mats T → h.Draws T → Prop} (hAB : ∀ σ ω, A σ ω → B σ ω) :
    h.prob mats T A ≤ h.prob mats T B := by
  unfold prob
  exact ENNReal.div_le_div_right (Finset.sum_le_sum fun σ _ => measure_mono fun ω hω => hAB σ ω hω) _

theorem prob_exists_le {mats : List Nat} {T : Nat} {ι : Type} [Fintype ι] (A : ι → Orders mats T → h.Draws T → Prop) :
    h.prob mats T (fun σ ω => ∃ i, A i σ ω) ≤ ∑ i, h.prob mats T (A i) := by
  unfold prob
  simp only [div_eq_mul_inv]
  rw [← Finset.sum_mul, Finset.sum_comm]
  refine mul_le_mul_left (Finset.sum_le_sum fun σ _ => ?_) _
  have : {ω | ∃ i, A i σ ω} = ⋃ i, {ω | A i σ ω} := by
    ext ω
    simp
  rw [this]
  exact measure_iUnion_fintype_le _ _

end Spec.Hier

/-- **C80** (partial): with random orders of updates, `set_to_map` sets an entry to its more probable value with probability at
least `1 - C / (S μ²)`, where `μ` is the posterior expectation of the entry, if all configurations are linked. -/
theorem C80_linked_map_partial {h : Hier} (H : h.Legal) (free : h.Site → Prop) (s0 : h.State) (hl : h.Linking free s0)
    {wr : Wiring} (hw : h.Wired wr) {m : Mach Sampler LbdaUpdate} (hm : h.FixedLbdas wr m) (fe : Nat → Arr Int)
    (hfe : ∀ q, free q ↔ h.Sampled m fe q) : ∃ C : ℝ,
      ∀ (S cw bmin : Nat) (eps : ℝ) (bmax : Int) (ps fx : Nat), 1 ≤ cw → 1 ≤ ps → 1 ≤ S →
      ∀ T, m.clock + bmin + bmax.toNat + S ≤ T → ∀ s : h.State, h.Agree free s s0 →
      ∀ (i : Fin h.M), (i : Nat) ∈ freeMats m → ∀ (n : Fin (h.rows i)) (l : Fin (h.cols i)),
      (∑ x, h.posteriorGiven free s0 x * (sgn (x i (n, l)) : ℝ)) ≠ 0 →
      h.prob (freeMats m) T (fun σ ω => ¬ ∃ m', infer (genericEnv (Spec.Hier.withDraws (Spec.Hier.withOrders wr σ) ω)) S cw eps bmin bmax
          ps fx { m with world := h.world fe s } = .ok m' ∧ (m'.ofac i).set_to_map.val [n, l] =
            (if 0 < ∑ x, h.posteriorGiven free s0 x * (sgn (x i (n, l)) : ℝ) then 1 else -1)) ≤
        ENNReal.ofReal (C / (S * (∑ x, h.posteriorGiven free s0 x * (sgn (x i (n, l)) : ℝ)) ^ 2)) := by
  obtain ⟨C, hC⟩ := C80_linked_consistent_partial H free s0 hl hw hm fe hfe
  refine ⟨C, ?_⟩
  intro S cw bmin eps bmax ps fx hcw hps hS T hT s hs i hi n l h0
  obtain ⟨mu, hmu⟩ : ∃ mu, mu = ∑ x, h.posteriorGiven free s0 x * (sgn (x i (n, l)) : ℝ) := ⟨_, rfl⟩
  have hle := hC S cw bmin eps bmax ps fx hcw hps hS T hT s hs i hi n l |mu| (abs_pos.2 (hmu ▸ h0))
  rw [← hmu, sq_abs] at hle
  rw [← hmu]
  refine (Spec.Hier.prob_mono fun σ ω hω => ?_).trans hle
  obtain ⟨m', e1, e2⟩ := Spec.Hier.infer_mean H (Spec.Hier.withOrders_wired hw σ) (Spec.Hier.withOrders_fixed hm σ)
    (Spec.Hier.withOrders_perm wr σ) fe S cw bmin eps bmax ps fx hcw hps hS T hT ω s
  obtain ⟨a, b1, -, -⟩ := e2 i hi
  refine ⟨m', a, e1, b1, ?_⟩
  have hne : (m'.ofac i).set_to_map.val [n, l] ≠ if 0 < mu then 1 else -1 := fun e => hω ⟨m', e1, e⟩
  rw [(toMap_get _ a b1).2] at hne
  by_cases hpos : 0 < mu
  · rw [if_pos hpos] at hne
    have ha : ¬ 0 < a [n, l] := fun h => hne (if_pos h)
    rw [abs_of_pos hpos, abs_of_neg (by linarith)]
    linarith
  · rw [if_neg hpos] at hne
    have ha : 0 < a [(n : Nat), (l : Nat)] := by
      by_contra h
      exact hne (if_neg h)
    rw [abs_of_nonpos (by linarith), abs_of_pos (by linarith)]
    linarith

/-- **C92** (partial): with random orders of updates, the averages of the samples (`mat.mean()`) of two latent dimensions differ
by `δ` or more with probability at most `C / (S δ²)`, from any initial state and for any length of burn-in, if all
configurations are linked (as with the default prior and odd data). -/
theorem C92_means_agree_linked_partial {h : Hier} (H : h.Legal) (free : h.Site → Prop) (s0 : h.State) (hl : h.Linking free s0)
    {k : HLayer} (hk : k ∈ h.layers)
    (htop : ∀ i ∈ k.factors, h.parentsOf i = []) (hfree : ∀ q : h.Site, (q.1 : Nat) ∈ k.factors → free q)
    {wr : Wiring} (hw : h.Wired wr) {m : Mach Sampler LbdaUpdate} (hm : h.FixedLbdas wr m) (fe : Nat → Arr Int)
    (hfe : ∀ q, free q ↔ h.Sampled m fe q) : ∃ C : ℝ,
      ∀ (S cw bmin : Nat) (eps : ℝ) (bmax : Int) (ps fx : Nat), 1 ≤ cw → 1 ≤ ps → 1 ≤ S →
      ∀ T, m.clock + bmin + bmax.toNat + S ≤ T → ∀ s : h.State, h.Agree free s s0 →
      ∀ (i : Fin h.M), (i : Nat) ∈ freeMats m → (i : Nat) ∈ k.factors → ∀ (n : Fin (h.rows i)) (l l' : Fin (h.cols i))
        (δ : ℝ), 0 < δ →
      h.prob (freeMats m) T (fun σ ω => ∃ m' a, infer (genericEnv (Spec.Hier.withDraws (Spec.Hier.withOrders wr σ) ω)) S cw eps bmin bmax
          ps fx { m with world := h.world fe s } = .ok m' ∧ (m'.ofac i).mean = .nums a ∧
          δ ≤ |a [n, l] - a [n, l']|) ≤ ENNReal.ofReal (C / (S * δ ^ 2)) := by
  obtain ⟨C, hC⟩ := C80_linked_consistent_partial H free s0 hl hw hm fe hfe
  refine ⟨8 * max C 0, ?_⟩
  intro S cw bmin eps bmax ps fx hcw hps hS T hT s hs i hi hik n l l' δ hδ
  have hmean := C92_equal_means H free s0 hk htop hfree i hik n l l'
  obtain ⟨mu, hmu⟩ : ∃ mu, mu = ∑ x, h.posteriorGiven free s0 x * (sgn (x i (n, l)) : ℝ) := ⟨_, rfl⟩
  have c1 := hC S cw bmin eps bmax ps fx hcw hps hS T hT s hs i hi n l (δ / 2) (by positivity)
  have c2 := hC S cw bmin eps bmax ps fx hcw hps hS T hT s hs i hi n l' (δ / 2) (by positivity)
  rw [← hmu] at c1
  rw [← hmean, ← hmu] at c2
  have hS' : (0 : ℝ) < S := by exact_mod_cast hS
  have hb : C / (S * (δ / 2) ^ 2) ≤ 4 * max C 0 / (S * δ ^ 2) := by
    rw [show C / (S * (δ / 2) ^ 2) = 4 * C / (S * δ ^ 2) by field_simp; ring]
    gcongr
    exact le_max_left _ _
  refine (Spec.Hier.prob_mono (B := fun σ ω => ∃ b : Bool, ∃ m' a, infer (genericEnv (Spec.Hier.withDraws
      (Spec.Hier.withOrders wr σ) ω)) S cw eps bmin bmax ps fx { m with world := h.world fe s } = .ok m' ∧
      (m'.ofac i).mean = .nums a ∧ δ / 2 ≤ |a [n, bif b then l else l'] - mu|) fun σ ω hω => ?_).trans
    ((Spec.Hier.prob_exists_le _).trans ?_)
  · obtain ⟨m', a, e1, e2, e3⟩ := hω
    by_contra hc
    simp only [Bool.exists_bool, not_or, not_exists, not_and, not_le, cond_true, cond_false] at hc
    have d1 := hc.1 m' a e1 e2
    have d2 := hc.2 m' a e1 e2
    rw [abs_lt] at d1 d2
    have : |a [(n : Nat), (l : Nat)] - a [(n : Nat), (l' : Nat)]| < δ := by rw [abs_lt]; constructor <;> linarith
    linarith
  · rw [Fintype.sum_bool]
    refine (add_le_add c1 c2).trans ((add_le_add (ENNReal.ofReal_le_ofReal hb) (ENNReal.ofReal_le_ofReal hb)).trans (le_of_eq ?_))
    rw [← ENNReal.ofReal_add (by positivity) (by positivity)]
    congr 1
    ring

/-- **C92** (partial): and `set_to_map` gives all latent dimensions of the layer the same column, in every factor, with
probability at least `1 - C / S`, unless the posterior expectation of some entry is exactly 0. -/
theorem C92_map_linked_partial {h : Hier} (H : h.Legal) (free : h.Site → Prop) (s0 : h.State) (hl : h.Linking free s0)
    {k : HLayer} (hk : k ∈ h.layers)
    (htop : ∀ i ∈ k.factors, h.parentsOf i = []) (hfree : ∀ q : h.Site, (q.1 : Nat) ∈ k.factors → free q)
    (hne : ∀ (i : Fin h.M), (i : Nat) ∈ k.factors → ∀ (n : Fin (h.rows i)) (l : Fin (h.cols i)),
      (∑ x, h.posteriorGiven free s0 x * (sgn (x i (n, l)) : ℝ)) ≠ 0)
    {wr : Wiring} (hw : h.Wired wr) {m : Mach Sampler LbdaUpdate} (hm : h.FixedLbdas wr m) (fe : Nat → Arr Int)
    (hfe : ∀ q, free q ↔ h.Sampled m fe q) (hin : ∀ i ∈ k.factors, i ∈ freeMats m) : ∃ C : ℝ,
      ∀ (S cw bmin : Nat) (eps : ℝ) (bmax : Int) (ps fx : Nat), 1 ≤ cw → 1 ≤ ps → 1 ≤ S →
      ∀ T, m.clock + bmin + bmax.toNat + S ≤ T → ∀ s : h.State, h.Agree free s s0 →
      h.prob (freeMats m) T (fun σ ω => ¬ ∃ m', infer (genericEnv (Spec.Hier.withDraws (Spec.Hier.withOrders wr σ) ω)) S cw eps bmin bmax
          ps fx { m with world := h.world fe s } = .ok m' ∧ ∀ i ∈ k.factors, ∀ n < h.rows i, ∀ l < h.cols i, ∀ l' < h.cols i,
            (m'.ofac i).set_to_map.val [n, l] = (m'.ofac i).set_to_map.val [n, l']) ≤ ENNReal.ofReal (C / S) := by
  classical
  obtain ⟨C, hC⟩ := C80_linked_map_partial H free s0 hl hw hm fe hfe
  obtain ⟨mu, hmu⟩ : ∃ mu : h.Site → ℝ, mu = fun q => ∑ x, h.posteriorGiven free s0 x * (sgn (x q.1 q.2) : ℝ) := ⟨_, rfl⟩
  refine ⟨∑ q : h.Site, max (C / mu q ^ 2) 0, ?_⟩
  intro S cw bmin eps bmax ps fx hcw hps hS T hT s hs
  have hS' : (0 : ℝ) < S := by exact_mod_cast hS
  obtain ⟨A, hA⟩ : ∃ A : h.Site → Spec.Hier.Orders (freeMats m) T → h.Draws T → Prop, A = fun q σ ω => (q.1 : Nat) ∈ k.factors ∧
      ¬ ∃ m', infer (genericEnv (Spec.Hier.withDraws (Spec.Hier.withOrders wr σ) ω)) S cw eps bmin bmax ps fx
          { m with world := h.world fe s } = .ok m' ∧ (m'.ofac q.1).set_to_map.val [q.2.1, q.2.2] =
            (if 0 < mu q then 1 else -1) := ⟨_, rfl⟩
  have hAle : ∀ q, h.prob (freeMats m) T (A q) ≤ ENNReal.ofReal (max (C / mu q ^ 2) 0 / S) := by
    intro q
    by_cases hq : (q.1 : Nat) ∈ k.factors
    · have := hC S cw bmin eps bmax ps fx hcw hps hS T hT s hs q.1 (hin _ hq) q.2.1 q.2.2 (hne q.1 hq q.2.1 q.2.2)
      refine ((Spec.Hier.prob_mono fun σ ω hω => ?_).trans this).trans (ENNReal.ofReal_le_ofReal ?_)
      · rw [hA] at hω
        rw [hmu] at hω
        exact hω.2
      · rw [mul_comm, ← div_div, hmu]
        gcongr
        exact le_max_left _ _
    · have h0 : A q = fun _ _ => False := by
        funext σ ω
        rw [hA]
        simp [hq]
      rw [h0]
      simp [Spec.Hier.prob]
  refine (Spec.Hier.prob_mono (B := fun σ ω => ∃ q, A q σ ω) fun σ ω hω => ?_).trans ((Spec.Hier.prob_exists_le A).trans
    ((Finset.sum_le_sum fun q _ => hAle q).trans (le_of_eq ?_)))
  · by_contra hc
    simp only [not_exists] at hc
    refine hω ?_
    obtain ⟨m', e1, -⟩ := Spec.Hier.infer_mean H (Spec.Hier.withOrders_wired hw σ) (Spec.Hier.withOrders_fixed hm σ)
      (Spec.Hier.withOrders_perm wr σ) fe S cw bmin eps bmax ps fx hcw hps hS T hT ω s
    refine ⟨m', e1, fun i hi n hn l hl l' hl' => ?_⟩
    have hM := H.latent k hk i hi
    have key : ∀ l (hl : l < h.cols i), (m'.ofac i).set_to_map.val [n, l] =
        (if 0 < mu ⟨⟨i, hM⟩, ⟨n, hn⟩, ⟨l, hl⟩⟩ then 1 else -1) := by
      intro l hl
      have := hc ⟨⟨i, hM⟩, ⟨n, hn⟩, ⟨l, hl⟩⟩
      rw [hA] at this
      simp only [hi, true_and] at this
      have := not_not.1 this
      obtain ⟨m'', f1, f2⟩ := this
      rw [e1] at f1
      cases f1
      exact f2
    rw [key l hl, key l' hl']
    have := C92_equal_means H free s0 hk htop hfree ⟨i, hM⟩ hi ⟨n, hn⟩ ⟨l, hl⟩ ⟨l', hl'⟩
    rw [hmu]
    simp only [this]
  · rw [← ENNReal.ofReal_sum_of_nonneg fun q _ => by positivity, Finset.sum_div]

/-- the hypotheses hold for OR-AND on the 2 x 2 identity matrix, with a sparse prior -/
theorem C92_linked_met (s0 : sparseHier.State) : sparseHier.Legal ∧ sparseHier.Linking (fun _ => True) s0 ∧
    (⟨.OR_AND, 0, 1, 2, 1, none⟩ : HLayer) ∈ sparseHier.layers ∧
    (∀ q : sparseHier.Site, (∑ x, sparseHier.posteriorGiven (fun _ => True) s0 x * (sgn (x q.1 q.2) : ℝ)) ≠ 0) ∧
    ∃ (wr : Wiring) (m : Mach Sampler LbdaUpdate) (fe : Nat → Arr Int), sparseHier.Wired wr ∧ sparseHier.FixedLbdas wr m ∧
      (∀ q, True ↔ sparseHier.Sampled m fe q) ∧
      ∀ i ∈ (⟨.OR_AND, 0, 1, 2, 1, none⟩ : HLayer).factors, i ∈ freeMats m := by
  obtain ⟨hw, hm, hs⟩ := C79_odd_hypotheses_met.2.2.2.2.2.2 sparseHier sparseHier_legal (fun _ l => l) s0
  refine ⟨sparseHier_legal, Spec.Hier.linking_of_mixing (Spec.Hier.mixing_of_matters fun s q _ =>
    ⟨trivial, ∅, by simp, _, .inl rfl, (sparseHier_lt q _).ne⟩), by simp [sparseHier],
    fun q => (Spec.Hier.mean_neg sparseHier_legal s0 q (sparseHier_lt q)).ne, _, _, _, hw, hm,
    fun q => iff_of_true trivial (hs q), ?_⟩
  intro i hi
  have h2 : i < sparseHier.M := sparseHier_legal.latent _ (by simp [sparseHier]) i hi
  exact (hs ⟨⟨i, h2⟩, (⟨0, by simp [sparseHier]⟩, ⟨0, by simp [sparseHier]⟩)⟩).1

end LFM

import Verif.Props.Consistent

/-!
# C92: the latent dimensions of a layer are exchangeable
-/

namespace LFM

open Spec MeasureTheory

namespace Spec.Hier

variable (h : Hier)

/-- the state with latent dimensions `a` and `b` of layer `k` swapped, in all factors of the layer -/
def swapDims (k : HLayer) (a b : Nat) (s : h.State) : h.State := fun i e =>
  if hab : (i : Nat) ∈ k.factors ∧ a < h.cols i ∧ b < h.cols i then
    s i (e.1, Equiv.swap ⟨a, hab.2.1⟩ ⟨b, hab.2.2⟩ e.2)
  else s i e

variable {h}

theorem swapDims_swapDims (k : HLayer) (a b : Nat) (s : h.State) : h.swapDims k a b (h.swapDims k a b s) = s := by
  funext i e
  unfold swapDims
  split
  · simp
  · rfl

/-- factors of other layers are as they were -/
theorem val_swapDims_of_not_mem {k : HLayer} (a b : Nat) (s : h.State) {i : Nat} (hi : i ∉ k.factors) :
    h.val (h.swapDims k a b s) i = h.val s i := by
  unfold val
  split
  · congr 1
    funext e
    simp [swapDims, hi]
  · rfl

/-- factors of the layer have these two columns swapped -/
theorem val_swapDims {k : HLayer} {a b : Nat} (s : h.State) {i : Nat} (hM : i < h.M) (hi : i ∈ k.factors)
    (ha : a < h.cols i) (hb : b < h.cols i) (n l : Nat) :
    h.val (h.swapDims k a b s) i n l = h.val s i n (Equiv.swap a b l) := by
  unfold val
  rw [dif_pos hM, dif_pos hM]
  have hlt : l < h.cols i ↔ Equiv.swap a b l < h.cols i := by
    rcases Equiv.swap_apply_eq_iff.1 (rfl : Equiv.swap a b l = _) with -
    by_cases h1 : l = a
    · subst h1; simp [ha, hb]
    · by_cases h2 : l = b
      · subst h2; simp [ha, hb]
      · rw [Equiv.swap_apply_of_ne_of_ne h1 h2]
  unfold Cfg.fac
  by_cases hb' : n < h.rows i ∧ l < h.cols i
  · have hb2 : n < h.rows i ∧ Equiv.swap a b l < h.cols i := ⟨hb'.1, hlt.1 hb'.2⟩
    rw [dif_pos hb', dif_pos hb2]
    simp only [swapDims]
    rw [dif_pos ⟨hi, ha, hb⟩]
    congr 2
    refine Prod.ext rfl (Fin.ext ?_)
    simp only
    by_cases h1 : l = a
    · subst h1; simp
    · by_cases h2 : l = b
      · subst h2; simp
      · rw [Equiv.swap_apply_of_ne_of_ne (by simpa [Fin.ext_iff] using h1) (by simpa [Fin.ext_iff] using h2),
          Equiv.swap_apply_of_ne_of_ne h1 h2]
  · have hb2 : ¬ (n < h.rows i ∧ Equiv.swap a b l < h.cols i) := by rw [← hlt]; exact hb'
    rw [dif_neg hb', dif_neg hb2]

end Spec.Hier

theorem swap_val {L a b : Nat} (ha : a < L) (hb : b < L) (l : Fin L) :
    ((Equiv.swap (⟨a, ha⟩ : Fin L) ⟨b, hb⟩ l : Fin L) : Nat) = Equiv.swap a b (l : Nat) := by
  by_cases h1 : (l : Nat) = a
  · have : l = ⟨a, ha⟩ := Fin.ext h1
    rw [this]; simp
  · by_cases h2 : (l : Nat) = b
    · have : l = ⟨b, hb⟩ := Fin.ext h2
      rw [this]; simp
    · rw [Equiv.swap_apply_of_ne_of_ne (by simpa [Fin.ext_iff] using h1) (by simpa [Fin.ext_iff] using h2),
        Equiv.swap_apply_of_ne_of_ne h1 h2]

theorem pred2_swap (m : Lom8) {L a b : Nat} (ha : a < L) (hb : b < L) (z u : Nat → Int) :
    pred2 m L (fun l => z (Equiv.swap a b l)) (fun l => u (Equiv.swap a b l)) = pred2 m L z u := by
  unfold pred2
  apply pm_congr
  rw [← lom_perm_latent (Equiv.swap (⟨a, ha⟩ : Fin L) ⟨b, hb⟩) (x := fun (l : Fin L) (k : Fin 2) => ![z l, u l] k = 1)]
  simp only [swap_val]

theorem pred3_swap (m : Lom8) {L a b : Nat} (ha : a < L) (hb : b < L) (z u v : Nat → Int) :
    pred3 m L (fun l => z (Equiv.swap a b l)) (fun l => u (Equiv.swap a b l)) (fun l => v (Equiv.swap a b l)) =
      pred3 m L z u v := by
  unfold pred3
  apply pm_congr
  rw [← lom_perm_latent (Equiv.swap (⟨a, ha⟩ : Fin L) ⟨b, hb⟩)
    (x := fun (l : Fin L) (k : Fin 3) => ![z l, u l, v l] k = 1)]
  simp only [swap_val]

theorem priorProb_swap (q : ℝ) {N L a b : Nat} (ha : a < L) (hb : b < L) (F : Factor) :
    priorProb q N L (fun n l => F n (Equiv.swap a b l)) = priorProb q N L F := by
  unfold priorProb
  refine Finset.prod_congr rfl fun n _ => ?_
  rw [← Equiv.prod_comp (Equiv.swap (⟨a, ha⟩ : Fin L) ⟨b, hb⟩) (fun l : Fin L => if F n l = 1 then q else 1 - q)]
  simp only [swap_val]

namespace Spec.Hier

variable {h : Hier}

/-- a factor belongs to one layer -/
theorem one_owner (H : h.Legal) {k k' : HLayer} (hk : k ∈ h.layers) (hk' : k' ∈ h.layers) {i : Nat} (hi : i ∈ k.factors)
    (hi' : i ∈ k'.factors) : k' = k := by
  have := H.nodup
  generalize h.layers = ls at this hk hk'
  induction ls with
  | nil => simp at hk
  | cons c ls ih =>
    rw [List.flatMap_cons, List.nodup_append] at this
    obtain ⟨-, n2, n3⟩ := this
    rcases List.mem_cons.1 hk with rfl | hk1 <;> rcases List.mem_cons.1 hk' with rfl | hk2
    · rfl
    · exact absurd rfl (n3 i hi i (List.mem_flatMap.2 ⟨k', hk2, hi'⟩))
    · exact absurd rfl (n3 i hi' i (List.mem_flatMap.2 ⟨k, hk1, hi⟩))
    · exact ih n2 hk1 hk2

/-- all factors of a layer have the same number of columns -/
theorem cols_factor (H : h.Legal) {k : HLayer} (hk : k ∈ h.layers) {i : Nat} (hi : i ∈ k.factors) : h.cols i = h.cols k.z := by
  cases hv : k.v with
  | none =>
    simp only [HLayer.factors, hv, Option.toList, List.mem_cons, List.not_mem_nil, or_false] at hi
    rcases hi with rfl | rfl
    · rfl
    · exact (H.sizes2 k hk hv).2.2
  | some v =>
    simp only [HLayer.factors, hv, Option.toList, List.mem_cons, List.not_mem_nil, or_false] at hi
    obtain ⟨e1, e2⟩ := H.sizes3 k hk v hv
    rcases hi with rfl | rfl | rfl
    · rfl
    · exact e1
    · exact e2

/-- the weight of a state does not change if two latent dimensions of a layer on top are swapped -/
theorem joint_swapDims (H : h.Legal) {k : HLayer} (hk : k ∈ h.layers) (htop : ∀ i ∈ k.factors, h.parentsOf i = [])
    {a b : Nat} (ha : a < h.cols k.z) (hb : b < h.cols k.z) (s : h.State) : h.joint (h.swapDims k a b s) = h.joint s := by
  have hin : ∀ i ∈ k.factors, h.val (h.swapDims k a b s) i = fun n l => h.val s i n (Equiv.swap a b l) := by
    intro i hi
    have hc := cols_factor H hk hi
    funext n l
    exact val_swapDims s (H.latent k hk i hi) hi (by rw [hc]; exact ha) (by rw [hc]; exact hb) n l
  have hout : ∀ i, i ∉ k.factors → h.val (h.swapDims k a b s) i = h.val s i := fun i hi =>
    val_swapDims_of_not_mem a b s hi
  have hchild : ∀ k' ∈ h.layers, k'.child ∉ k.factors := by
    intro k' hk' hc
    have : k' ∈ h.parentsOf k'.child := List.mem_filter.2 ⟨hk', by simp⟩
    rw [htop _ hc] at this
    simp at this
  unfold joint
  congr 1
  · congr 1
    refine List.map_congr_left fun k' hk' => ?_
    unfold layerLik
    by_cases hkk : k' = k
    · subst hkk
      cases hv : k'.v with
      | none =>
        simp only
        rw [hout _ (hchild k' hk'), hin k'.z (by simp [HLayer.factors]), hin k'.u (by simp [HLayer.factors])]
        unfold lik2
        refine Finset.prod_congr rfl fun n _ => Finset.prod_congr rfl fun d _ => ?_
        rw [pred2_swap k'.model ha hb]
      | some v =>
        simp only
        rw [hin k'.z (by simp [HLayer.factors]), hin k'.u (by simp [HLayer.factors]), hin v (by simp [HLayer.factors, hv])]
        unfold lik3
        refine Finset.prod_congr rfl fun n _ => Finset.prod_congr rfl fun d _ => Finset.prod_congr rfl fun e _ => ?_
        rw [pred3_swap k'.model ha hb]
    · have hne : ∀ i ∈ k'.factors, i ∉ k.factors := fun i hi hc => hkk (one_owner H hk hk' hc hi)
      cases hv : k'.v with
      | none =>
        simp only
        rw [hout _ (hchild k' hk'), hout k'.z (hne _ (by simp [HLayer.factors])), hout k'.u (hne _ (by simp [HLayer.factors]))]
      | some v =>
        simp only
        rw [hout k'.z (hne _ (by simp [HLayer.factors])), hout k'.u (hne _ (by simp [HLayer.factors])),
          hout v (hne _ (by simp [HLayer.factors, hv]))]
  · refine Finset.prod_congr rfl fun i _ => ?_
    have hv : ∀ s : h.State, Cfg.fac (s i) = h.val s i := by
      intro s
      unfold val
      rw [dif_pos i.2]
    rw [hv, hv]
    by_cases hi : (i : Nat) ∈ k.factors
    · have hc := cols_factor H hk hi
      rw [hin i hi, priorProb_swap _ (by rw [hc]; exact ha) (by rw [hc]; exact hb)]
    · rw [hout i hi]

end Spec.Hier

/-- **C92**: latent dimensions are exchangeable. If nothing in the factors of a layer is fixed, and these factors are not
themselves modelled by another layer, then the posterior probability of a state (given whatever is fixed elsewhere) is that of
the state with any two of the layer's latent dimensions swapped. -/
theorem C92_exchangeable {h : Hier} (H : h.Legal) (free : h.Site → Prop) (s0 : h.State) {k : HLayer} (hk : k ∈ h.layers)
    (htop : ∀ i ∈ k.factors, h.parentsOf i = []) (hfree : ∀ q : h.Site, (q.1 : Nat) ∈ k.factors → free q)
    {a b : Nat} (ha : a < h.cols k.z) (hb : b < h.cols k.z) (s : h.State) :
    h.posteriorGiven free s0 (h.swapDims k a b s) = h.posteriorGiven free s0 s := by
  have hag : h.Agree free (h.swapDims k a b s) s0 ↔ h.Agree free s s0 := by
    unfold Spec.Hier.Agree
    refine forall_congr' fun q => imp_congr_right fun hq => ?_
    have : (q.1 : Nat) ∉ k.factors := fun hc => hq (hfree q hc)
    simp [Spec.Hier.swapDims, this]
  unfold Spec.Hier.posteriorGiven
  by_cases hs : h.Agree free s s0
  · rw [if_pos hs, if_pos (hag.2 hs), Spec.Hier.joint_swapDims H hk htop ha hb]
  · rw [if_neg hs, if_neg fun hc => hs (hag.1 hc)]

/-- **C92**: hence the posterior expectation of an entry is the same for all latent dimensions -/
theorem C92_equal_means {h : Hier} (H : h.Legal) (free : h.Site → Prop) (s0 : h.State) {k : HLayer} (hk : k ∈ h.layers)
    (htop : ∀ i ∈ k.factors, h.parentsOf i = []) (hfree : ∀ q : h.Site, (q.1 : Nat) ∈ k.factors → free q)
    (i : Fin h.M) (hi : (i : Nat) ∈ k.factors) (n : Fin (h.rows i)) (l l' : Fin (h.cols i)) :
    ∑ x, h.posteriorGiven free s0 x * (sgn (x i (n, l)) : ℝ) = ∑ x, h.posteriorGiven free s0 x * (sgn (x i (n, l')) : ℝ) := by
  have hc := Spec.Hier.cols_factor H hk hi
  have hl : (l : Nat) < h.cols k.z := hc ▸ l.2
  have hl' : (l' : Nat) < h.cols k.z := hc ▸ l'.2
  refine Fintype.sum_equiv ⟨h.swapDims k l l', h.swapDims k l l', Spec.Hier.swapDims_swapDims k l l',
    Spec.Hier.swapDims_swapDims k l l'⟩ _ _ fun x => ?_
  simp only [Equiv.coe_fn_mk]
  rw [C92_exchangeable H free s0 hk htop hfree hl hl']
  have : h.swapDims k l l' x i (n, l') = x i (n, l) := by
    unfold Spec.Hier.swapDims
    rw [dif_pos ⟨hi, l.2, l'.2⟩]
    simp
  rw [this]

/-- **C92** (partial): hence the averages of the samples (`mat.mean()`) get the same for all latent dimensions with more
samples: the probability that those of two dimensions differ by `δ` or more is at most `C / (S δ²)`, from any initial state and
for any length of burn-in, if no sampled entry is ever indifferent (see C79). -/
theorem C92_means_agree_partial {h : Hier} (H : h.Legal) (free : h.Site → Prop) (s0 : h.State)
    (hties : h.NoTiesGiven free s0) {k : HLayer} (hk : k ∈ h.layers)
    (htop : ∀ i ∈ k.factors, h.parentsOf i = []) (hfree : ∀ q : h.Site, (q.1 : Nat) ∈ k.factors → free q) : ∃ C : ℝ,
    ∀ (wr : Wiring), h.Wired wr → ∀ (m : Mach Sampler LbdaUpdate), h.FixedLbdas wr m →
      (∀ t, (wr.perm t (freeMats m)).Perm (freeMats m)) →
      ∀ (fe : Nat → Arr Int), (∀ q, free q ↔ h.Sampled m fe q) →
      ∀ (S cw bmin : Nat) (eps : ℝ) (bmax : Int) (ps fx : Nat), 1 ≤ cw → 1 ≤ ps → 1 ≤ S →
      ∀ T, m.clock + bmin + bmax.toNat + S ≤ T → ∀ (s : h.State), h.Agree free s s0 →
      ∀ (i : Fin h.M), (i : Nat) ∈ freeMats m → (i : Nat) ∈ k.factors → ∀ (n : Fin (h.rows i)) (l l' : Fin (h.cols i))
        (δ : ℝ), 0 < δ →
      h.allDraws T {ω | ∃ m' a, infer (genericEnv (Spec.Hier.withDraws wr ω)) S cw eps bmin bmax ps fx
          { m with world := h.world fe s } = .ok m' ∧ (m'.ofac i).mean = .nums a ∧
          δ ≤ |a [n, l] - a [n, l']|} ≤ ENNReal.ofReal (C / (S * δ ^ 2)) := by
  obtain ⟨C, hC⟩ := C80_consistent_given_partial H free s0 hties
  refine ⟨8 * max C 0, ?_⟩
  intro wr hw m hm hp fe hfe S cw bmin eps bmax ps fx hcw hps hS T hT s hs i hi hik n l l' δ hδ
  have hmean := C92_equal_means H free s0 hk htop hfree i hik n l l'
  obtain ⟨mu, hmu⟩ : ∃ mu, mu = ∑ x, h.posteriorGiven free s0 x * (sgn (x i (n, l)) : ℝ) := ⟨_, rfl⟩
  have c1 := hC wr hw m hm hp fe hfe S cw bmin eps bmax ps fx hcw hps hS T hT s hs i hi n l (δ / 2) (by positivity)
  have c2 := hC wr hw m hm hp fe hfe S cw bmin eps bmax ps fx hcw hps hS T hT s hs i hi n l' (δ / 2) (by positivity)
  rw [← hmu] at c1
  rw [← hmean, ← hmu] at c2
  have hS' : (0 : ℝ) < S := by exact_mod_cast hS
  have hb : C / (S * (δ / 2) ^ 2) ≤ 4 * max C 0 / (S * δ ^ 2) := by
    rw [show C / (S * (δ / 2) ^ 2) = 4 * C / (S * δ ^ 2) by field_simp; ring]
    gcongr
    exact le_max_left _ _
  refine (measure_mono fun ω hω => ?_).trans ((measure_union_le _ _).trans ((add_le_add c1 c2).trans ?_))
  · obtain ⟨m', a, e1, e2, e3⟩ := hω
    by_contra hc
    simp only [Set.mem_union, Set.mem_setOf_eq, not_or, not_exists, not_and, not_le] at hc
    have d1 := hc.1 m' a e1 e2
    have d2 := hc.2 m' a e1 e2
    rw [abs_lt] at d1 d2
    have : |a [(n : Nat), (l : Nat)] - a [(n : Nat), (l' : Nat)]| < δ := by rw [abs_lt]; constructor <;> linarith
    linarith
  · refine (add_le_add (ENNReal.ofReal_le_ofReal hb) (ENNReal.ofReal_le_ofReal hb)).trans (le_of_eq ?_)
    rw [← ENNReal.ofReal_add (by positivity) (by positivity)]
    congr 1
    ring

/-- **C92** (partial): and `set_to_map` gives all latent dimensions of the layer the same column, in every factor, with
probability at least `1 - C / S`, unless the posterior expectation of some entry is exactly 0. -/
theorem C92_map_one_column_partial {h : Hier} (H : h.Legal) (free : h.Site → Prop) (s0 : h.State)
    (hties : h.NoTiesGiven free s0) {k : HLayer} (hk : k ∈ h.layers)
    (htop : ∀ i ∈ k.factors, h.parentsOf i = []) (hfree : ∀ q : h.Site, (q.1 : Nat) ∈ k.factors → free q)
    (hne : ∀ (i : Fin h.M), (i : Nat) ∈ k.factors → ∀ (n : Fin (h.rows i)) (l : Fin (h.cols i)),
      (∑ x, h.posteriorGiven free s0 x * (sgn (x i (n, l)) : ℝ)) ≠ 0) : ∃ C : ℝ,
    ∀ (wr : Wiring), h.Wired wr → ∀ (m : Mach Sampler LbdaUpdate), h.FixedLbdas wr m →
      (∀ t, (wr.perm t (freeMats m)).Perm (freeMats m)) →
      ∀ (fe : Nat → Arr Int), (∀ q, free q ↔ h.Sampled m fe q) → (∀ i ∈ k.factors, i ∈ freeMats m) →
      ∀ (S cw bmin : Nat) (eps : ℝ) (bmax : Int) (ps fx : Nat), 1 ≤ cw → 1 ≤ ps → 1 ≤ S →
      ∀ T, m.clock + bmin + bmax.toNat + S ≤ T → ∀ (s : h.State), h.Agree free s s0 →
      h.allDraws T {ω | ¬ ∃ m', infer (genericEnv (Spec.Hier.withDraws wr ω)) S cw eps bmin bmax ps fx
          { m with world := h.world fe s } = .ok m' ∧ ∀ i ∈ k.factors, ∀ n < h.rows i, ∀ l < h.cols i, ∀ l' < h.cols i,
            (m'.ofac i).set_to_map.val [n, l] = (m'.ofac i).set_to_map.val [n, l']} ≤ ENNReal.ofReal (C / S) := by
  classical
  obtain ⟨C, hC⟩ := C80_map_given_partial H free s0 hties
  obtain ⟨mu, hmu⟩ : ∃ mu : h.Site → ℝ, mu = fun q => ∑ x, h.posteriorGiven free s0 x * (sgn (x q.1 q.2) : ℝ) := ⟨_, rfl⟩
  refine ⟨∑ q : h.Site, max (C / mu q ^ 2) 0, ?_⟩
  intro wr hw m hm hp fe hfe hin S cw bmin eps bmax ps fx hcw hps hS T hT s hs
  have hS' : (0 : ℝ) < S := by exact_mod_cast hS
  obtain ⟨A, hA⟩ : ∃ A : h.Site → Set (h.Draws T), A = fun q => if (q.1 : Nat) ∈ k.factors then
      {ω | ¬ ∃ m', infer (genericEnv (Spec.Hier.withDraws wr ω)) S cw eps bmin bmax ps fx
          { m with world := h.world fe s } = .ok m' ∧ (m'.ofac q.1).set_to_map.val [q.2.1, q.2.2] =
            (if 0 < mu q then 1 else -1)} else ∅ := ⟨_, rfl⟩
  have hAle : ∀ q, h.allDraws T (A q) ≤ ENNReal.ofReal (max (C / mu q ^ 2) 0 / S) := by
    intro q
    rw [hA]
    simp only
    split
    · rename_i hq
      have := hC wr hw m hm hp fe hfe S cw bmin eps bmax ps fx hcw hps hS T hT s hs q.1 (hin _ hq) q.2.1 q.2.2
        (hne q.1 hq q.2.1 q.2.2)
      rw [hmu]
      refine this.trans (ENNReal.ofReal_le_ofReal ?_)
      rw [mul_comm, ← div_div]
      gcongr
      exact le_max_left _ _
    · simp
  refine (measure_mono (t := ⋃ q, A q) fun ω hω => ?_).trans ((measure_iUnion_fintype_le _ _).trans
    ((Finset.sum_le_sum fun q _ => hAle q).trans (le_of_eq ?_)))
  · by_contra hc
    simp only [Set.mem_iUnion, not_exists] at hc
    refine hω ?_
    obtain ⟨m', e1, -⟩ := Spec.Hier.infer_mean H hw hm hp fe S cw bmin eps bmax ps fx hcw hps hS T hT ω s
    refine ⟨m', e1, fun i hi n hn l hl l' hl' => ?_⟩
    have hM := H.latent k hk i hi
    have key : ∀ l (hl : l < h.cols i), (m'.ofac i).set_to_map.val [n, l] =
        (if 0 < mu ⟨⟨i, hM⟩, ⟨n, hn⟩, ⟨l, hl⟩⟩ then 1 else -1) := by
      intro l hl
      have := hc ⟨⟨i, hM⟩, ⟨n, hn⟩, ⟨l, hl⟩⟩
      rw [hA] at this
      simp only [hi, if_true] at this
      have := not_not.1 this
      obtain ⟨m'', f1, f2⟩ := this
      rw [e1] at f1
      cases f1
      exact f2
    rw [key l hl, key l' hl']
    have := C92_equal_means H free s0 hk htop hfree ⟨i, hM⟩ hi ⟨n, hn⟩ ⟨l, hl⟩ ⟨l', hl'⟩
    rw [hmu]
    simp only [this]
  · rw [← ENNReal.ofReal_sum_of_nonneg fun q _ => by positivity, Finset.sum_div]

/-- the hypotheses of C92 hold for the layer on top of the hierarchy of `C76_example` (two latent dimensions), with all
factors sampled -/
theorem C92_hypotheses_met : towerHier.Legal ∧ (⟨.XOR_AND, 2, 3, 0, 2, none⟩ : HLayer) ∈ towerHier.layers ∧
    (∀ i ∈ (⟨.XOR_AND, 2, 3, 0, 2, none⟩ : HLayer).factors, towerHier.parentsOf i = []) ∧
    towerHier.cols 2 = 2 ∧ (∀ s0, towerHier.NoTiesGiven (fun _ => True) s0) ∧
    ∀ perm s, towerHier.FixedLbdas (towerHier.wiringOf perm) (towerHier.machOf (fun _ => Arr.full [3, 2] 0) s) ∧
      ∀ q, True ↔ towerHier.Sampled (towerHier.machOf (fun _ => Arr.full [3, 2] 0) s) (fun _ => Arr.full [3, 2] 0) q := by
  refine ⟨C76_example.1, by simp [towerHier], ?_, rfl, fun s0 => Spec.Hier.NoTies.given C79_example _ _, fun perm s =>
    ⟨Spec.Hier.machOf_fixed C76_example.1 perm _ s, fun q => ?_⟩⟩
  · intro i hi
    simp only [HLayer.factors, Option.toList, List.mem_cons, List.not_mem_nil, or_false] at hi
    rcases hi with rfl | rfl <;> simp [Spec.Hier.parentsOf, towerHier]
  · refine ⟨fun _ => ⟨(Spec.Hier.mem_freeMats_machOf C76_example.1 _ _ _).2 q.1.2, by simp [Arr.full]⟩, fun _ => trivial⟩

/-! ## Posterior expectations other than 0 -/

namespace Spec.Hier

/-- if the value false is the more likely one of an entry in any state, its posterior expectation is negative -/
theorem mean_neg {h : Hier} (H : h.Legal) (s0 : h.State) (q : h.Site)
    (hlt : ∀ s : h.State, h.joint (Function.update s q.1 (Function.update (s q.1) q.2 true)) <
      h.joint (Function.update s q.1 (Function.update (s q.1) q.2 false))) :
    ∑ x, h.posteriorGiven (fun _ => True) s0 x * (sgn (x q.1 q.2) : ℝ) < 0 := by
  have hag : ∀ x, h.Agree (fun _ => True) x s0 := fun x q hq => absurd trivial hq
  have hpos : 0 < ∑ x, h.joint x := Finset.sum_pos (fun x _ => joint_pos H x) ⟨s0, Finset.mem_univ _⟩
  have e : ∀ x, h.posteriorGiven (fun _ => True) s0 x = h.joint x / ∑ x, h.joint x := by
    intro x
    unfold posteriorGiven
    rw [if_pos (hag x)]
    congr 1
    exact Finset.sum_congr (by ext y; simp [hag y]) fun _ _ => rfl
  simp only [e, div_mul_eq_mul_div]
  rw [← Finset.sum_div]
  refine div_neg_of_neg_of_pos ?_ hpos
  have hflip : ∑ x, h.joint x * (sgn (x q.1 q.2) : ℝ) = ∑ x, h.joint (flipAt q x) * (sgn ((flipAt q x) q.1 q.2) : ℝ) :=
    (Fintype.sum_equiv ⟨flipAt q, flipAt q, flipAt_flipAt q, flipAt_flipAt q⟩ _ _ fun x => rfl).symm
  have hneg : ∑ x, (h.joint x * (sgn (x q.1 q.2) : ℝ) + h.joint (flipAt q x) * (sgn ((flipAt q x) q.1 q.2) : ℝ)) < 0 := by
    refine Finset.sum_neg (fun x _ => ?_) ⟨s0, Finset.mem_univ _⟩
    have hx := hlt x
    have hself : Function.update x q.1 (Function.update (x q.1) q.2 (x q.1 q.2)) = x := by simp
    have hfl : (flipAt q x) q.1 q.2 = !(x q.1 q.2) := by simp [flipAt]
    rw [hfl]
    unfold flipAt
    cases hv : x q.1 q.2 with
    | true =>
      rw [hv] at hself
      rw [hself] at hx
      simp only [sgn, Bool.not_true, if_true]
      push_cast
      simp
      linarith
    | false =>
      rw [hv] at hself
      rw [hself] at hx
      simp only [sgn, Bool.not_false, if_true]
      push_cast
      simp
      linarith
  rw [Finset.sum_add_distrib, ← hflip] at hneg
  linarith

end Spec.Hier

theorem abs_agreement2 (m : Lom8) (N D L : Nat) (X : Nat → Nat → Int) (hX : ∀ n < N, ∀ d < D, IsData (X n d)) (F G : Factor) :
    |agreement2 m N D L X F G| ≤ N * D := by
  unfold agreement2
  refine (Finset.abs_sum_le_sum_abs _ _).trans ((Finset.sum_le_sum fun n _ => (Finset.abs_sum_le_sum_abs _ _).trans
    (Finset.sum_le_sum (g := fun _ => (1 : Int)) fun d _ => ?_)).trans ?_)
  · rw [abs_mul]
    have h1 : |X n d| ≤ 1 := by
      rcases hX n n.2 d d.2 with h | h | h <;> rw [h] <;> decide
    have h2 : |pred2 m L (F n) (G d)| ≤ 1 := by
      unfold pred2 pm
      split <;> decide
    exact mul_le_one₀ h1 (abs_nonneg _) h2
  · simp

/-- the 2 x 2 identity matrix as data for OR-AND with two latent dimensions, and a prior under which codes are sparse -/
noncomputable def sparseHier : Hier where
  M := 2
  rows _ := 2
  cols _ := 2
  layers := [⟨.OR_AND, 0, 1, 2, 1, none⟩]
  data _ := ⟨[2, 2], fun idx => if idx = [0, 0] ∨ idx = [1, 1] then 1 else -1⟩
  prior _ := 1 / 1000

theorem sparseHier_legal : sparseHier.Legal := by
  have hl : ∀ k ∈ sparseHier.layers, k = ⟨.OR_AND, 0, 1, 2, 1, none⟩ := by
    intro k hk
    simpa [sparseHier] using hk
  refine ⟨?_, ?_, ?_, ?_, ?_, ?_, ?_, ?_, ?_, ?_, ?_, ?_, ?_⟩
  · intro i _; simp only [sparseHier]; norm_num
  · intro k hk; rw [hl k hk]; simp [sparseHier, HLayer.factors]
  · intro k hk; rw [hl k hk]; simp [HLayer.factors]
  · simp [sparseHier, HLayer.factors]
  · intro i hi
    simp only [sparseHier] at hi
    have : i = 0 ∨ i = 1 := by omega
    rcases this with rfl | rfl <;> simp [sparseHier, HLayer.factors]
  · intro i hi
    simp only [sparseHier] at hi
    have : i = 0 ∨ i = 1 := by omega
    rcases this with rfl | rfl <;> simp [sparseHier, Spec.Hier.parentsOf]
  · intro k hk _; simp [sparseHier]
  · intro k hk _; rw [hl k hk]; simp [sparseHier]
  · intro k hk _ _
    rw [hl k hk]
    refine ⟨rfl, fun idx _ => ?_⟩
    simp only [sparseHier, IsData]
    split <;> simp
  · intro k hk v hv; rw [hl k hk] at hv; cases hv
  · intro k hk v hv; rw [hl k hk] at hv; cases hv
  · intro k hk v hv; rw [hl k hk] at hv; cases hv
  · intro k hk hv; rw [hl k hk] at hv; exact absurd rfl hv

theorem sparseHier_lt (q : sparseHier.Site) (s : sparseHier.State) :
    sparseHier.joint (Function.update s q.1 (Function.update (s q.1) q.2 true)) <
      sparseHier.joint (Function.update s q.1 (Function.update (s q.1) q.2 false)) := by
  have H := sparseHier_legal
  obtain ⟨k, hk, hi⟩ := H.owner q.1 q.1.2
  obtain rfl : k = ⟨.OR_AND, 0, 1, 2, 1, none⟩ := by simpa [sparseHier] using hk
  have hod := Spec.Hier.joint_odds H s q.1 q.2 (s q.1) hk hi
  have hp : sparseHier.parentsOf q.1 = [] := by
    have := q.1.2
    simp only [sparseHier] at this
    simp only [Spec.Hier.parentsOf, sparseHier]
    simp
    omega
  rw [hp] at hod
  have hagree : ∀ s' : sparseHier.State, |sparseHier.agree s' ⟨.OR_AND, 0, 1, 2, 1, none⟩| ≤ 4 := by
    intro s'
    refine abs_agreement2 .OR_AND 2 2 2 (sparseHier.val s' 2) ?_ _ _
    intro n _ d _
    unfold Spec.Hier.val
    rw [dif_neg (by simp [sparseHier])]
    simp only [sparseHier, IsData]
    split <;> simp
  have hscore : ∀ c1 c0, sparseHier.ownScore s q.1 ⟨.OR_AND, 0, 1, 2, 1, none⟩ c1 c0 ≤ 4 := by
    intro c1 c0
    have h1 := hagree (Function.update s q.1 c1)
    have h0 := hagree (Function.update s q.1 c0)
    rw [abs_le] at h1 h0
    have : ((sparseHier.agree (Function.update s q.1 c1) ⟨.OR_AND, 0, 1, 2, 1, none⟩ -
      sparseHier.agree (Function.update s q.1 c0) ⟨.OR_AND, 0, 1, 2, 1, none⟩ : Int) : ℝ) ≤ (8 : Int) := by
      exact_mod_cast (by omega)
    unfold Spec.Hier.ownScore
    push_cast at this ⊢
    linarith
  have hlogit : logit (sparseHier.prior q.1) < -4 := by
    unfold logit sparseHier
    rw [Real.log_lt_iff_lt_exp (by norm_num), Real.exp_neg, show (4 : ℝ) = ((4 : ℕ) : ℝ) * 1 by norm_num, Real.exp_nat_mul,
      lt_inv_comm₀ (by norm_num) (by positivity)]
    have h1 := Real.exp_one_lt_d9
    have h2 := Real.exp_pos 1
    calc Real.exp 1 ^ 4 < 3 ^ 4 := by gcongr; linarith
      _ < _ := by norm_num
  have := hscore (Function.update (s q.1) q.2 true) (Function.update (s q.1) q.2 false)
  simp only [List.map_nil, List.sum_nil, add_zero] at hod
  refine (Real.log_lt_log_iff (Spec.Hier.joint_pos H _) (Spec.Hier.joint_pos H _)).1 ?_
  linarith

/-- the hypotheses of `C92_map_one_column_partial` hold for OR-AND on the 2 x 2 identity matrix, which cannot be reconstructed
from two identical columns -/
theorem C92_map_hypotheses_met : sparseHier.Legal ∧ (∀ s0, sparseHier.NoTiesGiven (fun _ => True) s0 ∧
      ∀ q : sparseHier.Site, (∑ x, sparseHier.posteriorGiven (fun _ => True) s0 x * (sgn (x q.1 q.2) : ℝ)) ≠ 0) ∧
    (∀ i ∈ (⟨.OR_AND, 0, 1, 2, 1, none⟩ : HLayer).factors, sparseHier.parentsOf i = []) ∧
    ∀ F G : Factor, (∀ n l, F n l = F n 0) → (∀ d l, G d l = G d 0) →
      ∃ n < 2, ∃ d < 2, pred2 .OR_AND 2 (F n) (G d) ≠ sparseHier.data 2 [n, d] := by
  refine ⟨sparseHier_legal, fun s0 => ⟨fun s _ q _ => (sparseHier_lt q s).ne, fun q =>
    (Spec.Hier.mean_neg sparseHier_legal s0 q (sparseHier_lt q)).ne⟩, ?_, ?_⟩
  · intro i hi
    simp only [HLayer.factors, Option.toList, List.mem_cons, List.not_mem_nil, or_false] at hi
    rcases hi with rfl | rfl <;> simp [Spec.Hier.parentsOf, sparseHier]
  · intro F G hF hG
    have key : ∀ n d, pred2 .OR_AND 2 (F n) (G d) = 1 ↔ F n 0 = 1 ∧ G d 0 = 1 := by
      intro n d
      unfold pred2 pm
      have : lom Lom8.OR_AND.outer Lom8.OR_AND.inner (fun (l : Fin 2) (k : Fin 2) => ![F n l, G d l] k = 1) ↔
          F n 0 = 1 ∧ G d 0 = 1 := by
        simp only [lom, Lom8.outer, Lom8.inner, LOp.Holds, Fin.forall_fin_two, Fin.exists_fin_two]
        simp [hF n 1, hG d 1]
      rw [← this]
      split
      · simp_all
      · simp_all
    by_contra hc
    push Not at hc
    have h00 := (key 0 0).1 (by rw [hc 0 (by norm_num) 0 (by norm_num)]; simp [sparseHier])
    have h11 := (key 1 1).1 (by rw [hc 1 (by norm_num) 1 (by norm_num)]; simp [sparseHier])
    have h01 := (key 0 1).2 ⟨h00.1, h11.2⟩
    rw [hc 0 (by norm_num) 1 (by norm_num)] at h01
    simp [sparseHier] at h01

end LFM

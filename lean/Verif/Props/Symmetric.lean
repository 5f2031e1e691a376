import Verif.Props.TwinRows

/-!
# C140: symmetric data
-/

namespace LFM

open Spec MeasureTheory

namespace Spec.Hier

variable (h : Hier)

/-- the state in which matrices `a` and `b`, which have the same size, have traded places -/
def swapPair (a b : Fin h.M) (hr : h.rows a = h.rows b) (hc : h.cols a = h.cols b) (s : h.State) : h.State := fun j e =>
  if hj : j = a then s b (Fin.cast (by rw [hj, hr]) e.1, Fin.cast (by rw [hj, hc]) e.2)
  else if hj : j = b then s a (Fin.cast (by rw [hj, hr]) e.1, Fin.cast (by rw [hj, hc]) e.2)
  else s j e

/-- the data of layer `k` are a symmetric square matrix -/
def SymmetricData (k : HLayer) : Prop := h.rows k.child = h.cols k.child ∧
  ∀ n < h.rows k.child, ∀ d < h.rows k.child, h.data k.child [n, d] = h.data k.child [d, n]

variable {h}

theorem swapPair_swapPair (a b : Fin h.M) (hr : h.rows a = h.rows b) (hc : h.cols a = h.cols b) (s : h.State) :
    h.swapPair a b hr hc (h.swapPair a b hr hc s) = s := by
  funext j e
  unfold swapPair
  by_cases h1 : j = a
  · subst h1
    by_cases h2 : b = j
    · subst h2
      simp
    · simp [h2]
  · by_cases h2 : j = b
    · subst h2
      simp [h1]
    · simp [h1, h2]

theorem val_swapPair_first (a b : Fin h.M) (hr : h.rows a = h.rows b) (hc : h.cols a = h.cols b) (s : h.State) :
    h.val (h.swapPair a b hr hc s) a = h.val s b := by
  funext n l
  unfold val
  rw [dif_pos a.2, dif_pos b.2]
  unfold Cfg.fac
  by_cases hin : n < h.rows a ∧ l < h.cols a
  · rw [dif_pos hin, dif_pos (hr ▸ hc ▸ hin)]
    simp [swapPair]
  · rw [dif_neg hin, dif_neg (hr ▸ hc ▸ hin)]

theorem val_swapPair_second (a b : Fin h.M) (hr : h.rows a = h.rows b) (hc : h.cols a = h.cols b) (s : h.State) :
    h.val (h.swapPair a b hr hc s) b = h.val s a := by
  have := val_swapPair_first a b hr hc (h.swapPair a b hr hc s)
  rw [swapPair_swapPair] at this
  exact this.symm

theorem val_swapPair_ne (a b : Fin h.M) (hr : h.rows a = h.rows b) (hc : h.cols a = h.cols b) (s : h.State) {j : Nat}
    (ha : j ≠ a) (hb : j ≠ b) : h.val (h.swapPair a b hr hc s) j = h.val s j := by
  unfold val
  split
  · rename_i hM
    congr 1
    funext e
    have h1 : (⟨j, hM⟩ : Fin h.M) ≠ a := fun hc => ha (by rw [← hc])
    have h2 : (⟨j, hM⟩ : Fin h.M) ≠ b := fun hc => hb (by rw [← hc])
    simp [swapPair, h1, h2]
  · rfl

/-- exchanging the factors of a symmetric data matrix does not change the likelihood -/
theorem lik2_symmetric (m : Lom8) (N L : Nat) (lbda : ℝ) (X : Nat → Nat → Int) (hX : ∀ n < N, ∀ d < N, X n d = X d n)
    (F G : Factor) : lik2 m N N L lbda X F G = lik2 m N N L lbda X G F := by
  unfold lik2
  rw [Finset.prod_comm]
  refine Finset.prod_congr rfl fun n _ => Finset.prod_congr rfl fun d _ => ?_
  rw [pred2_comm, hX d d.2 n n.2]

theorem joint_swapPair (H : h.Legal) {k : HLayer} (hk : k ∈ h.layers) (hkv : k.v = none) (hobs : h.M ≤ k.child)
    (hsym : h.SymmetricData k) (htop : ∀ i ∈ k.factors, h.parentsOf i = []) (hprior : h.prior k.z = h.prior k.u)
    (a b : Fin h.M) (ha : (a : Nat) = k.z) (hb : (b : Nat) = k.u) (hr : h.rows a = h.rows b) (hc : h.cols a = h.cols b)
    (s : h.State) : h.joint (h.swapPair a b hr hc s) = h.joint s := by
  have hout : ∀ i, i ∉ k.factors → h.val (h.swapPair a b hr hc s) i = h.val s i := fun i hi =>
    val_swapPair_ne a b hr hc s (fun e => hi (by simp [HLayer.factors, e, ha])) (fun e => hi (by simp [HLayer.factors, e, hb]))
  have hchild : ∀ k' ∈ h.layers, k'.child ∉ k.factors := by
    intro k' hk' hc
    have : k' ∈ h.parentsOf k'.child := List.mem_filter.2 ⟨hk', by simp⟩
    rw [htop _ hc] at this
    simp at this
  have hz := val_swapPair_first a b hr hc s
  have hu := val_swapPair_second a b hr hc s
  unfold joint
  congr 1
  · congr 1
    refine List.map_congr_left fun k' hk' => ?_
    unfold layerLik
    by_cases hkk : k' = k
    · subst hkk
      rw [hkv]
      simp only
      rw [hout _ (hchild k' hk')]
      rw [ha, hb] at hz hu
      rw [hz, hu]
      obtain ⟨s1, s2⟩ := hsym
      rw [← s1]
      refine lik2_symmetric _ _ _ _ _ (fun n hn d hd => ?_) _ _
      unfold val
      rw [dif_neg (by omega)]
      exact s2 n hn d hd
    · have hne : ∀ i ∈ k'.factors, i ∉ k.factors := fun i hi hc => hkk (one_owner H hk hk' hc hi)
      cases hv : k'.v with
      | none =>
        simp only
        rw [hout _ (hchild k' hk'), hout k'.z (hne _ (by simp [HLayer.factors])), hout k'.u (hne _ (by simp [HLayer.factors]))]
      | some v =>
        simp only
        rw [hout k'.z (hne _ (by simp [HLayer.factors])), hout k'.u (hne _ (by simp [HLayer.factors])),
          hout v (hne _ (by simp [HLayer.factors, hv]))]
  · have hv : ∀ (s : h.State) (j : Fin h.M), Cfg.fac (s j) = h.val s j := by
      intro s j
      unfold val
      rw [dif_pos j.2]
    simp only [hv]
    rw [← Equiv.prod_comp (Equiv.swap a b) fun i : Fin h.M => priorProb (h.prior i) (h.rows i) (h.cols i) (h.val s i)]
    refine Finset.prod_congr rfl fun i _ => ?_
    rw [← ha, ← hb] at hprior
    by_cases h1 : i = a
    · subst h1
      rw [Equiv.swap_apply_left, hz, hprior, hr, hc]
    · by_cases h2 : i = b
      · subst h2
        rw [Equiv.swap_apply_right, hu, hprior, hr, hc]
      · rw [Equiv.swap_apply_of_ne_of_ne h1 h2,
          val_swapPair_ne a b hr hc s (fun e => h1 (Fin.ext e)) (fun e => h2 (Fin.ext e))]

end Spec.Hier

/-- **C140**: a layer on symmetric data (an undirected graph, say) whose two factors have the same prior, nothing fixed in them and no
layer on top of them. A state is as probable as the one with the factors exchanged. -/
theorem C140_exchange {h : Hier} (H : h.Legal) (free : h.Site → Prop) (s0 : h.State) {k : HLayer} (hk : k ∈ h.layers)
    (hkv : k.v = none) (hobs : h.M ≤ k.child) (hsym : h.SymmetricData k) (htop : ∀ i ∈ k.factors, h.parentsOf i = [])
    (hprior : h.prior k.z = h.prior k.u) (hfree : ∀ q : h.Site, (q.1 : Nat) ∈ k.factors → free q)
    (a b : Fin h.M) (ha : (a : Nat) = k.z) (hb : (b : Nat) = k.u) (hr : h.rows a = h.rows b) (hc : h.cols a = h.cols b)
    (s : h.State) : h.posteriorGiven free s0 (h.swapPair a b hr hc s) = h.posteriorGiven free s0 s := by
  have hag : h.Agree free (h.swapPair a b hr hc s) s0 ↔ h.Agree free s s0 := by
    unfold Spec.Hier.Agree
    refine forall_congr' fun q => imp_congr_right fun hq => ?_
    have hn : (q.1 : Nat) ∉ k.factors := fun hc => hq (hfree q hc)
    have h1 : q.1 ≠ a := fun e => hn (by simp [HLayer.factors, e, ha])
    have h2 : q.1 ≠ b := fun e => hn (by simp [HLayer.factors, e, hb])
    simp [Spec.Hier.swapPair, h1, h2]
  unfold Spec.Hier.posteriorGiven
  by_cases hs : h.Agree free s s0
  · rw [if_pos hs, if_pos (hag.2 hs), Spec.Hier.joint_swapPair H hk hkv hobs hsym htop hprior a b ha hb hr hc]
  · rw [if_neg hs, if_neg fun hc => hs (hag.1 hc)]

/-- **C140**: hence corresponding entries of the two factors have the same posterior probability of being on, and the posterior
predictive probabilities of the layer are symmetric -/
theorem C140_same_factors {h : Hier} (H : h.Legal) (free : h.Site → Prop) (s0 : h.State) {k : HLayer} (hk : k ∈ h.layers)
    (hkv : k.v = none) (hobs : h.M ≤ k.child) (hsym : h.SymmetricData k) (htop : ∀ i ∈ k.factors, h.parentsOf i = [])
    (hprior : h.prior k.z = h.prior k.u) (hfree : ∀ q : h.Site, (q.1 : Nat) ∈ k.factors → free q) :
    (∀ n l, h.onProb free s0 k.z n l = h.onProb free s0 k.u n l) ∧
      ∀ n d, h.predictive free s0 k n d = h.predictive free s0 k d n := by
  have iz : k.z ∈ k.factors := by simp [HLayer.factors]
  have iu : k.u ∈ k.factors := by simp [HLayer.factors]
  obtain ⟨a, ha⟩ : ∃ a : Fin h.M, (a : Nat) = k.z := ⟨⟨k.z, H.latent k hk _ iz⟩, rfl⟩
  obtain ⟨b, hb⟩ : ∃ b : Fin h.M, (b : Nat) = k.u := ⟨⟨k.u, H.latent k hk _ iu⟩, rfl⟩
  obtain ⟨e1, e2, e3⟩ := H.sizes2 k hk hkv
  have hr : h.rows a = h.rows b := by rw [ha, hb, e1, e2, hsym.1]
  have hc : h.cols a = h.cols b := by rw [ha, hb, e3]
  have hz := fun s => Spec.Hier.val_swapPair_first a b hr hc s
  have hu := fun s => Spec.Hier.val_swapPair_second a b hr hc s
  rw [ha, hb] at hz hu
  have hx := C140_exchange H free s0 hk hkv hobs hsym htop hprior hfree a b ha hb hr hc
  constructor
  · intro n l
    unfold Spec.Hier.onProb
    refine Fintype.sum_equiv ⟨h.swapPair a b hr hc, h.swapPair a b hr hc, Spec.Hier.swapPair_swapPair a b hr hc,
      Spec.Hier.swapPair_swapPair a b hr hc⟩ _ _ fun x => ?_
    simp only [Equiv.coe_fn_mk, hx, hu]
  · intro n d
    unfold Spec.Hier.predictive
    refine Fintype.sum_equiv ⟨h.swapPair a b hr hc, h.swapPair a b hr hc, Spec.Hier.swapPair_swapPair a b hr hc,
      Spec.Hier.swapPair_swapPair a b hr hc⟩ _ _ fun x => ?_
    simp only [Equiv.coe_fn_mk, hx, hu, hz]
    rw [pred2_comm]

/-- **C140**: hence the averages over the samples (`mat.mean()`) of the two factors approach each other: the probability that
they differ by `δ` or more in an entry is at most `C / (S δ²)`, if the sampler reaches all states (see C79). -/
theorem C140_averages_meet {h : Hier} (H : h.Legal) (free : h.Site → Prop) (s0 : h.State) (hl : h.Linking free s0)
    {k : HLayer} (hk : k ∈ h.layers) (hkv : k.v = none) (hobs : h.M ≤ k.child) (hsym : h.SymmetricData k)
    (htop : ∀ i ∈ k.factors, h.parentsOf i = []) (hprior : h.prior k.z = h.prior k.u)
    (hfree : ∀ q : h.Site, (q.1 : Nat) ∈ k.factors → free q)
    {wr : Wiring} (hw : h.Wired wr) {m : Mach Sampler LbdaUpdate} (hm : h.FixedLbdas wr m) (fe : Nat → Arr Int)
    (hfe : ∀ q, free q ↔ h.Sampled m fe q) (hin : ∀ i ∈ k.factors, i ∈ freeMats m) : ∃ C : ℝ,
      ∀ (S cw bmin : Nat) (eps : ℝ) (bmax : Int) (ps fx : Nat), 1 ≤ cw → 1 ≤ ps → 1 ≤ S →
      ∀ T, m.clock + bmin + bmax.toNat + S ≤ T → ∀ s : h.State, h.Agree free s s0 →
      ∀ n < h.rows k.z, ∀ l < h.cols k.z, ∀ δ : ℝ, 0 < δ →
      h.prob (freeMats m) T (fun σ ω => ∃ m' Z U, infer (genericEnv (Spec.Hier.withDraws (Spec.Hier.withOrders wr σ) ω)) S cw eps
          bmin bmax ps fx { m with world := h.world fe s } = .ok m' ∧ (m'.ofac k.z).mean = .nums Z ∧ (m'.ofac k.u).mean = .nums U ∧
          δ ≤ |Z [n, l] - U [n, l]|) ≤ ENNReal.ofReal (C / (S * δ ^ 2)) := by
  have iz : k.z ∈ k.factors := by simp [HLayer.factors]
  have iu : k.u ∈ k.factors := by simp [HLayer.factors]
  have hMz := H.latent k hk _ iz
  have hMu := H.latent k hk _ iu
  obtain ⟨e1, e2, e3⟩ := H.sizes2 k hk hkv
  obtain ⟨C, hC⟩ := C80_linked_consistent_partial H free s0 hl hw hm fe hfe
  refine ⟨8 * max C 0, ?_⟩
  intro S cw bmin eps bmax ps fx hcw hps hS T hT s hs n hn l hlz δ hδ
  have hnu : n < h.rows k.u := by rw [e2, ← hsym.1, ← e1]; exact hn
  have hlu : l < h.cols k.u := by rw [e3]; exact hlz
  have b1 := hC S cw bmin eps bmax ps fx hcw hps hS T hT s hs ⟨k.z, hMz⟩ (hin _ iz) ⟨n, hn⟩ ⟨l, hlz⟩ (δ / 2) (by positivity)
  have b2 := hC S cw bmin eps bmax ps fx hcw hps hS T hT s hs ⟨k.u, hMu⟩ (hin _ iu) ⟨n, hnu⟩ ⟨l, hlu⟩ (δ / 2) (by positivity)
  have hmean : (∑ x, h.posteriorGiven free s0 x * (sgn (x ⟨k.u, hMu⟩ (⟨n, hnu⟩, ⟨l, hlu⟩)) : ℝ)) =
      ∑ x, h.posteriorGiven free s0 x * (sgn (x ⟨k.z, hMz⟩ (⟨n, hn⟩, ⟨l, hlz⟩)) : ℝ) := by
    have p1 := Spec.Hier.onProb_eq H free s0 ⟨k.z, hMz⟩ ⟨n, hn⟩ ⟨l, hlz⟩
    have p2 := Spec.Hier.onProb_eq H free s0 ⟨k.u, hMu⟩ ⟨n, hnu⟩ ⟨l, hlu⟩
    have := (C140_same_factors H free s0 hk hkv hobs hsym htop hprior hfree).1 n l
    simp only at p1 p2
    rw [p1, p2] at this
    linarith
  rw [hmean] at b2
  set mu := ∑ x, h.posteriorGiven free s0 x * (sgn (x ⟨k.z, hMz⟩ (⟨n, hn⟩, ⟨l, hlz⟩)) : ℝ) with hmu
  have hle : C / (S * (δ / 2) ^ 2) ≤ 4 * max C 0 / (S * δ ^ 2) := by
    have : C / (S * (δ / 2) ^ 2) = 4 * C / (S * δ ^ 2) := by
      field_simp
      ring
    rw [this]
    gcongr
    exact le_max_left _ _
  let A : Bool → Spec.Hier.Orders (freeMats m) T → h.Draws T → Prop := fun b σ ω =>
    ∃ m' a, infer (genericEnv (Spec.Hier.withDraws (Spec.Hier.withOrders wr σ) ω)) S cw eps bmin bmax
      ps fx { m with world := h.world fe s } = .ok m' ∧ (m'.ofac (if b then k.z else k.u)).mean = .nums a ∧
      δ / 2 ≤ |a [n, l] - mu|
  have hA : ∀ b, h.prob (freeMats m) T (A b) ≤ ENNReal.ofReal (4 * max C 0 / (S * δ ^ 2)) := by
    intro b
    cases b
    · exact (le_of_eq (by simp [A])).trans (b2.trans (ENNReal.ofReal_le_ofReal hle))
    · exact (le_of_eq (by simp [A])).trans (b1.trans (ENNReal.ofReal_le_ofReal hle))
  refine (Spec.Hier.prob_mono (B := fun σ ω => ∃ j, A j σ ω) fun σ ω hω => ?_).trans
    ((Spec.Hier.prob_exists_le A).trans ((Finset.sum_le_sum fun j _ => hA j).trans (le_of_eq ?_)))
  · obtain ⟨m', Z, U, i1, i2, i3, i4⟩ := hω
    by_cases hc : δ / 2 ≤ |Z [n, l] - mu|
    · exact ⟨true, m', Z, i1, by simpa using i2, hc⟩
    · refine ⟨false, m', U, i1, by simpa using i3, ?_⟩
      have ht := abs_sub_le (Z [n, l]) mu (U [n, l])
      rw [abs_sub_comm mu] at ht
      linarith [not_le.1 hc]
  · rw [Fintype.sum_bool, ← ENNReal.ofReal_add (by positivity) (by positivity)]
    congr 1
    ring

/-- a path of three nodes: nodes 0 and 2 are joined to node 1, and every node to itself -/
def pathData : Arr Int := ⟨[3, 3], fun idx => if idx.getD 0 0 + 1 < idx.getD 1 0 ∨ idx.getD 1 0 + 1 < idx.getD 0 0 then -1 else 1⟩

theorem C140_hypotheses_met :
    ∃ h : Hier, h.Legal ∧ ∃ k ∈ h.layers, k.model = .OR_AND ∧ k.v = none ∧ h.M ≤ k.child ∧ h.data k.child = pathData ∧
      pathData [0, 2] ≠ pathData [0, 1] ∧ h.SymmetricData k ∧ (∀ i ∈ k.factors, h.parentsOf i = []) ∧
      h.prior k.z = h.prior k.u ∧ (∀ s0, h.Linking (fun _ => True) s0) ∧
      ∃ wr : Wiring, h.Wired wr ∧ ∃ mach : Mach Sampler LbdaUpdate, h.FixedLbdas wr mach ∧
        (∀ q, h.Sampled mach (fun _ => Arr.full [] 0) q) ∧ ∀ i ∈ k.factors, i ∈ freeMats mach := by
  have h3 : DataArr pathData := by
    intro idx _
    unfold pathData IsData
    dsimp only
    split <;> simp
  have H : (plainHier .OR_AND 3 3 2 pathData 1).Legal := plainHier_legal _ _ _ (by norm_num) (by norm_num) rfl h3
  obtain ⟨w1, w2, w3⟩ := C79_odd_hypotheses_met.2.2.2.2.2.2 _ H (fun _ l => l) (fun _ _ => true)
  refine ⟨_, H, ⟨.OR_AND, 0, 1, 2, 1, none⟩, by simp [plainHier], rfl, rfl, by simp [plainHier], rfl, by decide, ⟨by simp [plainHier], ?_⟩,
    ?_, rfl, ?_, _, w1, _, w2, w3, ?_⟩
  · intro n _ d _
    simp only [plainHier, pathData, List.getD_cons_zero, List.getD_cons_succ, or_comm]
  · intro i hi
    simp only [HLayer.factors, Option.toList, List.mem_cons, List.not_mem_nil, or_false] at hi
    rcases hi with rfl | rfl <;> simp [Spec.Hier.parentsOf, plainHier]
  · intro s0
    have conv := C79_odd_partial H (k := ⟨.OR_AND, 0, 1, 2, 1, none⟩) rfl rfl (fun i _ => rfl) (by norm_num) (by simp [plainHier])
      (by simp) (fun n hn => by
        have : n = 0 ∨ n = 1 ∨ n = 2 := by simp [plainHier] at hn; omega
        rcases this with rfl | rfl | rfl <;> decide) (fun n hn => by
        have : n = 0 ∨ n = 1 ∨ n = 2 := by simp [plainHier] at hn; omega
        rcases this with rfl | rfl | rfl <;> decide)
      w1 w2 _ w3 s0
    exact Spec.Hier.linking_of_mixing ((C79_mixing_iff H _ s0 w1 w2 _ (fun q => iff_of_true trivial (w3 q))).2 conv)
  · intro i hi
    rw [Spec.Hier.mem_freeMats_machOf H]
    exact H.latent _ (by simp [plainHier]) i hi

end LFM

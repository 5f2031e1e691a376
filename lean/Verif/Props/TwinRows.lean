import Verif.Props.Averages
import Verif.Props.Exchange
import Verif.Props.LinkedMaps
import Verif.Props.OddData
import Verif.Props.MeanPredictions

/-!
# C138: observations with the same data
-/

namespace LFM

open Spec MeasureTheory

theorem swap_lt {R r r' n : Nat} (hr : r < R) (hr' : r' < R) (hn : n < R) : Equiv.swap r r' n < R := by
  rw [Equiv.swap_apply_def]
  split
  · exact hr'
  · split
    · exact hr
    · exact hn

theorem swap_lt_iff {R r r' n : Nat} (hr : r < R) (hr' : r' < R) : Equiv.swap r r' n < R ↔ n < R := by
  refine ⟨fun hn => ?_, swap_lt hr hr'⟩
  have := swap_lt hr hr' hn
  rwa [Equiv.swap_apply_self] at this

/-- a product over all rows does not change if two of them trade places -/
theorem prod_swap {R r r' : Nat} (hr : r < R) (hr' : r' < R) (f : Nat → ℝ) :
    ∏ n : Fin R, f (Equiv.swap r r' n) = ∏ n : Fin R, f n := by
  rw [← Finset.prod_range (fun n => f (Equiv.swap r r' n)), ← Finset.prod_range f]
  refine Equiv.Perm.prod_comp _ _ _ ?_
  intro n hn
  simp only [Finset.coe_range, Set.mem_Iio]
  by_contra hge
  refine hn (Equiv.swap_apply_of_ne_of_ne ?_ ?_) <;> omega

namespace Spec.Hier

variable (h : Hier)

/-- the state in which rows `r` and `r'` of matrix `i` have traded places -/
def swapRows (i : Fin h.M) (r r' : Fin (h.rows i)) (s : h.State) : h.State := fun j e =>
  if hj : j = i then s j (⟨Equiv.swap (r : Nat) r' e.1, by subst hj; exact swap_lt r.2 r'.2 e.1.2⟩, e.2) else s j e

/-- rows `r` and `r'` of the data of layer `k`, along the axis that matrix `i` describes, have the same entries -/
def SameData (k : HLayer) (i r r' : Nat) : Prop :=
  match k.v with
  | none => (i = k.z → ∀ d < h.cols k.child, h.data k.child [r, d] = h.data k.child [r', d]) ∧
      (i = k.u → ∀ n < h.rows k.child, h.data k.child [n, r] = h.data k.child [n, r'])
  | some v => (i = k.z → ∀ d < h.rows k.u, ∀ e < h.rows v, h.data k.child [r, d, e] = h.data k.child [r', d, e]) ∧
      (i = k.u → ∀ n < h.rows k.z, ∀ e < h.rows v, h.data k.child [n, r, e] = h.data k.child [n, r', e]) ∧
      (i = v → ∀ n < h.rows k.z, ∀ d < h.rows k.u, h.data k.child [n, d, r] = h.data k.child [n, d, r'])

variable {h}

theorem swapRows_swapRows (i : Fin h.M) (r r' : Fin (h.rows i)) (s : h.State) :
    h.swapRows i r r' (h.swapRows i r r' s) = s := by
  funext j e
  unfold swapRows
  split
  · simp
  · rfl

theorem swapRows_first (i : Fin h.M) (r r' : Fin (h.rows i)) (s : h.State) (l : Fin (h.cols i)) :
    h.swapRows i r r' s i (r, l) = s i (r', l) := by
  simp [swapRows]

theorem val_swapRows_ne (i : Fin h.M) (r r' : Fin (h.rows i)) (s : h.State) {j : Nat} (hj : j ≠ i) :
    h.val (h.swapRows i r r' s) j = h.val s j := by
  unfold val
  split
  · rename_i hM
    congr 1
    funext e
    have : (⟨j, hM⟩ : Fin h.M) ≠ i := fun hc => hj (by rw [← hc])
    simp [swapRows, this]
  · rfl

theorem val_swapRows (i : Fin h.M) (r r' : Fin (h.rows i)) (s : h.State) :
    h.val (h.swapRows i r r' s) i = fun n => h.val s i (Equiv.swap (r : Nat) r' n) := by
  funext n l
  unfold val
  rw [dif_pos i.2, dif_pos i.2]
  unfold Cfg.fac
  simp only [Fin.eta]
  by_cases hc : n < h.rows i ∧ l < h.cols i
  · rw [dif_pos hc, dif_pos ⟨swap_lt r.2 r'.2 hc.1, hc.2⟩]
    simp [swapRows]
  · rw [dif_neg hc, dif_neg fun hc' => hc ⟨(swap_lt_iff r.2 r'.2).1 hc'.1, hc'.2⟩]

/-- if two rows of a table are equal, it does not change when they trade places -/
theorem swap_same {α : Type} {f : Nat → α} {r r' : Nat} (he : f r = f r') (n : Nat) : f (Equiv.swap r r' n) = f n := by
  rw [Equiv.swap_apply_def]
  split
  · rename_i hc
    rw [hc, he]
  · split
    · rename_i hc
      rw [hc, he]
    · rfl

theorem joint_swapRows (H : h.Legal) {k : HLayer} (hk : k ∈ h.layers) (hobs : h.M ≤ k.child) (i : Fin h.M)
    (hi : (i : Nat) ∈ k.factors) (htop : h.parentsOf i = []) (r r' : Fin (h.rows i)) (hsame : h.SameData k i r r')
    (s : h.State) : h.joint (h.swapRows i r r' s) = h.joint s := by
  have hout : ∀ j : Nat, j ≠ i → h.val (h.swapRows i r r' s) j = h.val s j := fun j hj => val_swapRows_ne i r r' s hj
  have hchild : ∀ k' ∈ h.layers, k'.child ≠ i := by
    intro k' hk' hc
    have : k' ∈ h.parentsOf i := List.mem_filter.2 ⟨hk', by simp [hc]⟩
    rw [htop] at this
    simp at this
  have hdata : ∀ s : h.State, h.val s k.child = fun n d => h.data k.child [n, d] := by
    intro s
    unfold val
    rw [dif_neg (by omega)]
  have hself : ∀ j : Nat, (i : Nat) = j → h.val (h.swapRows i r r' s) j = fun n => h.val s j (Equiv.swap (r : Nat) r' n) := by
    rintro j rfl
    exact val_swapRows i r r' s
  unfold joint
  congr 1
  · congr 1
    refine List.map_congr_left fun k' hk' => ?_
    by_cases hkk : k' = k
    · subst hkk
      have hnd : k'.factors.Nodup := (List.nodup_flatMap.1 H.nodup).1 k' hk'
      unfold layerLik
      cases hv : k'.v with
      | none =>
        simp only [HLayer.factors, hv, Option.toList, List.mem_cons, List.not_mem_nil, or_false, List.nodup_cons,
          not_false_eq_true, List.nodup_nil, and_true] at hi hnd
        obtain ⟨e1, e2, -⟩ := H.sizes2 k' hk' hv
        unfold SameData at hsame
        simp only [hv] at hsame ⊢
        rw [hdata, hdata]
        unfold lik2
        rcases hi with hi | hi
        · have hr := r.2
          have hr' := r'.2
          rw [hself _ hi, hout k'.u (by omega)]
          have hR : ∀ x, x < h.rows i → x < h.rows k'.child := fun x hx => by rw [hi] at hx; omega
          rw [← prod_swap (hR _ hr) (hR _ hr') fun n => ∏ d : Fin (h.cols k'.child), cellLik k'.lbda (h.data k'.child [n, (d : Nat)])
            (pred2 k'.model (h.cols k'.z) (h.val s k'.z n) (h.val s k'.u d))]
          refine Finset.prod_congr rfl fun n _ => Finset.prod_congr rfl fun d _ => ?_
          rw [swap_same (f := fun n => h.data k'.child [n, (d : Nat)]) (hsame.1 hi d d.2) n]
        · have hr := r.2
          have hr' := r'.2
          rw [hself _ hi, hout k'.z (by omega)]
          have hR : ∀ x, x < h.rows i → x < h.cols k'.child := fun x hx => by rw [hi] at hx; omega
          refine Finset.prod_congr rfl fun n _ => ?_
          rw [← prod_swap (hR _ hr) (hR _ hr') fun d => cellLik k'.lbda (h.data k'.child [(n : Nat), d]) (pred2 k'.model (h.cols k'.z) (h.val s k'.z n) (h.val s k'.u d))]
          refine Finset.prod_congr rfl fun d _ => ?_
          rw [swap_same (f := fun d => h.data k'.child [(n : Nat), d]) (hsame.2 hi n n.2) d]
      | some v =>
        simp only [HLayer.factors, hv, Option.toList, List.mem_cons, List.not_mem_nil, or_false, List.nodup_cons,
          not_false_eq_true, List.nodup_nil, and_true, not_or] at hi hnd
        obtain ⟨⟨n1, n2⟩, n3⟩ := hnd
        unfold SameData at hsame
        simp only [hv] at hsame ⊢
        have hr := r.2
        have hr' := r'.2
        unfold lik3
        rcases hi with hi | hi | hi
        · rw [hself _ hi, hout k'.u (by omega), hout v (by omega)]
          have hR : ∀ x, x < h.rows i → x < h.rows k'.z := fun x hx => by rwa [hi] at hx
          rw [← prod_swap (hR _ hr) (hR _ hr') fun n => ∏ d : Fin (h.rows k'.u), ∏ e : Fin (h.rows v),
            cellLik k'.lbda (h.data k'.child [n, (d : Nat), (e : Nat)])
            (pred3 k'.model (h.cols k'.z) (h.val s k'.z n) (h.val s k'.u d) (h.val s v e))]
          refine Finset.prod_congr rfl fun n _ => Finset.prod_congr rfl fun d _ => Finset.prod_congr rfl fun e _ => ?_
          rw [swap_same (f := fun n => h.data k'.child [n, (d : Nat), (e : Nat)]) (hsame.1 hi d d.2 e e.2) n]
        · rw [hself _ hi, hout k'.z (by omega), hout v (by omega)]
          have hR : ∀ x, x < h.rows i → x < h.rows k'.u := fun x hx => by rwa [hi] at hx
          refine Finset.prod_congr rfl fun n _ => ?_
          rw [← prod_swap (hR _ hr) (hR _ hr') fun d => ∏ e : Fin (h.rows v), cellLik k'.lbda (h.data k'.child [(n : Nat), d, (e : Nat)])
            (pred3 k'.model (h.cols k'.z) (h.val s k'.z n) (h.val s k'.u d) (h.val s v e))]
          refine Finset.prod_congr rfl fun d _ => Finset.prod_congr rfl fun e _ => ?_
          rw [swap_same (f := fun d => h.data k'.child [(n : Nat), d, (e : Nat)]) (hsame.2.1 hi n n.2 e e.2) d]
        · rw [hself _ hi, hout k'.z (by omega), hout k'.u (by omega)]
          have hR : ∀ x, x < h.rows i → x < h.rows v := fun x hx => by rwa [hi] at hx
          refine Finset.prod_congr rfl fun n _ => Finset.prod_congr rfl fun d _ => ?_
          rw [← prod_swap (hR _ hr) (hR _ hr') fun e => cellLik k'.lbda (h.data k'.child [(n : Nat), (d : Nat), e])
            (pred3 k'.model (h.cols k'.z) (h.val s k'.z n) (h.val s k'.u d) (h.val s v e))]
          refine Finset.prod_congr rfl fun e _ => ?_
          rw [swap_same (f := fun e => h.data k'.child [(n : Nat), (d : Nat), e]) (hsame.2.2 hi n n.2 d d.2) e]
    · have hne : ∀ j ∈ k'.factors, j ≠ i := fun j hj hc => hkk (one_owner H hk hk' hi (hc ▸ hj))
      unfold layerLik
      cases hv : k'.v with
      | none =>
        simp only
        rw [hout _ (hchild k' hk'), hout k'.z (hne _ (by simp [HLayer.factors])), hout k'.u (hne _ (by simp [HLayer.factors]))]
      | some v =>
        simp only
        rw [hout k'.z (hne _ (by simp [HLayer.factors])), hout k'.u (hne _ (by simp [HLayer.factors])),
          hout v (hne _ (by simp [HLayer.factors, hv]))]
  · refine Finset.prod_congr rfl fun j _ => ?_
    have hv : ∀ s : h.State, Cfg.fac (s j) = h.val s j := by
      intro s
      unfold val
      rw [dif_pos j.2]
    rw [hv, hv]
    by_cases hj : j = i
    · subst hj
      rw [hself _ rfl]
      unfold priorProb
      exact prod_swap r.2 r'.2 fun n => ∏ l : Fin (h.cols j), if h.val s j n l = 1 then h.prior j else 1 - h.prior j
    · rw [hout j fun hc => hj (Fin.ext hc)]

end Spec.Hier

/-- **C138**: two observations (rows of the data, or columns, or slices of an array) have the same data, and nothing is fixed in
their rows of the factor, which is not itself modelled by another layer. A state is as probable as the one in which the
two rows of the factor have traded places. -/
theorem C138_exchange {h : Hier} (H : h.Legal) (free : h.Site → Prop) (s0 : h.State) {k : HLayer} (hk : k ∈ h.layers)
    (hobs : h.M ≤ k.child) (i : Fin h.M) (hi : (i : Nat) ∈ k.factors) (htop : h.parentsOf i = []) (r r' : Fin (h.rows i))
    (hsame : h.SameData k i r r') (hfree : ∀ l : Fin (h.cols i), free ⟨i, r, l⟩ ∧ free ⟨i, r', l⟩)
    (s : h.State) : h.posteriorGiven free s0 (h.swapRows i r r' s) = h.posteriorGiven free s0 s := by
  have hag : h.Agree free (h.swapRows i r r' s) s0 ↔ h.Agree free s s0 := by
    unfold Spec.Hier.Agree
    refine forall_congr' fun q => imp_congr_right fun hq => ?_
    obtain ⟨j, n, l⟩ := q
    by_cases hj : j = i
    · subst hj
      have h1 : n ≠ r := fun hc => hq (hc ▸ (hfree l).1)
      have h2 : n ≠ r' := fun hc => hq (hc ▸ (hfree l).2)
      have : Equiv.swap (r : Nat) r' n = n :=
        Equiv.swap_apply_of_ne_of_ne (fun hc => h1 (Fin.ext hc)) (fun hc => h2 (Fin.ext hc))
      simp [Spec.Hier.swapRows, this]
    · simp [Spec.Hier.swapRows, hj]
  unfold Spec.Hier.posteriorGiven
  by_cases hs : h.Agree free s s0
  · rw [if_pos hs, if_pos (hag.2 hs), Spec.Hier.joint_swapRows H hk hobs i hi htop r r' hsame]
  · rw [if_neg hs, if_neg fun hc => hs (hag.1 hc)]

/-- **C138**: hence the two rows have the same posterior expectations -/
theorem C138_same_mean {h : Hier} (H : h.Legal) (free : h.Site → Prop) (s0 : h.State) {k : HLayer} (hk : k ∈ h.layers)
    (hobs : h.M ≤ k.child) (i : Fin h.M) (hi : (i : Nat) ∈ k.factors) (htop : h.parentsOf i = []) (r r' : Fin (h.rows i))
    (hsame : h.SameData k i r r') (hfree : ∀ l : Fin (h.cols i), free ⟨i, r, l⟩ ∧ free ⟨i, r', l⟩) (l : Fin (h.cols i)) :
    ∑ x, h.posteriorGiven free s0 x * (sgn (x i (r, l)) : ℝ) =
      ∑ x, h.posteriorGiven free s0 x * (sgn (x i (r', l)) : ℝ) := by
  symm
  refine Fintype.sum_equiv ⟨h.swapRows i r r', h.swapRows i r r', Spec.Hier.swapRows_swapRows i r r',
    Spec.Hier.swapRows_swapRows i r r'⟩ _ _ fun x => ?_
  simp only [Equiv.coe_fn_mk]
  rw [C138_exchange H free s0 hk hobs i hi htop r r' hsame hfree, Spec.Hier.swapRows_first]

/-- **C138**: and the same posterior predictive probabilities in every cell: rows with the same data are predicted alike, and
so are columns -/
theorem C138_same_predictive {h : Hier} (H : h.Legal) (free : h.Site → Prop) (s0 : h.State) {k : HLayer} (hk : k ∈ h.layers)
    (hkv : k.v = none) (hobs : h.M ≤ k.child) (i : Fin h.M) (htop : h.parentsOf i = [])
    (r r' : Fin (h.rows i)) (hsame : h.SameData k i r r')
    (hfree : ∀ l : Fin (h.cols i), free ⟨i, r, l⟩ ∧ free ⟨i, r', l⟩) :
    ((i : Nat) = k.z → ∀ d, h.predictive free s0 k r d = h.predictive free s0 k r' d) ∧
      ((i : Nat) = k.u → ∀ n, h.predictive free s0 k n r = h.predictive free s0 k n r') := by
  have hnd : k.factors.Nodup := (List.nodup_flatMap.1 H.nodup).1 k hk
  simp only [HLayer.factors, hkv, Option.toList, List.mem_cons, List.not_mem_nil, or_false, List.nodup_cons,
    not_false_eq_true, List.nodup_nil, and_true] at hnd
  have hself : ∀ x : h.State, ∀ j : Nat, (i : Nat) = j → h.val (h.swapRows i r r' x) j r = h.val x j r' := by
    rintro x j rfl
    rw [Spec.Hier.val_swapRows]
    simp
  have hout : ∀ (x : h.State) (j : Nat), j ≠ i → h.val (h.swapRows i r r' x) j = h.val x j := fun x j hj =>
    Spec.Hier.val_swapRows_ne i r r' x hj
  constructor
  · intro hi d
    unfold Spec.Hier.predictive
    symm
    refine Fintype.sum_equiv ⟨h.swapRows i r r', h.swapRows i r r', Spec.Hier.swapRows_swapRows i r r',
      Spec.Hier.swapRows_swapRows i r r'⟩ _ _ fun x => ?_
    simp only [Equiv.coe_fn_mk]
    rw [C138_exchange H free s0 hk hobs i (by simp [HLayer.factors, hi]) htop r r' hsame hfree]
    simp only [hself x _ hi, hout x k.u (by omega)]
  · intro hi n
    unfold Spec.Hier.predictive
    symm
    refine Fintype.sum_equiv ⟨h.swapRows i r r', h.swapRows i r r', Spec.Hier.swapRows_swapRows i r r',
      Spec.Hier.swapRows_swapRows i r r'⟩ _ _ fun x => ?_
    simp only [Equiv.coe_fn_mk]
    rw [C138_exchange H free s0 hk hobs i (by simp [HLayer.factors, hi]) htop r r' hsame hfree]
    simp only [hself x _ hi, hout x k.z (by omega)]

/-- **C138**: hence their averages over the samples (`mat.mean()`) approach each other: the probability that they differ by `δ`
or more in a latent dimension is at most `C / (S δ²)`, if the sampler reaches all states (see C79). -/
theorem C138_averages_meet {h : Hier} (H : h.Legal) (free : h.Site → Prop) (s0 : h.State) (hl : h.Linking free s0)
    {k : HLayer} (hk : k ∈ h.layers) (hobs : h.M ≤ k.child)
    {wr : Wiring} (hw : h.Wired wr) {m : Mach Sampler LbdaUpdate} (hm : h.FixedLbdas wr m) (fe : Nat → Arr Int)
    (hfe : ∀ q, free q ↔ h.Sampled m fe q) : ∃ C : ℝ,
      ∀ (S cw bmin : Nat) (eps : ℝ) (bmax : Int) (ps fx : Nat), 1 ≤ cw → 1 ≤ ps → 1 ≤ S →
      ∀ T, m.clock + bmin + bmax.toNat + S ≤ T → ∀ s : h.State, h.Agree free s s0 →
      ∀ (i : Fin h.M), (i : Nat) ∈ k.factors → (i : Nat) ∈ freeMats m → h.parentsOf i = [] →
      ∀ r r' : Fin (h.rows i), h.SameData k i r r' → (∀ l : Fin (h.cols i), free ⟨i, r, l⟩ ∧ free ⟨i, r', l⟩) →
      ∀ (l : Fin (h.cols i)) (δ : ℝ), 0 < δ →
      h.prob (freeMats m) T (fun σ ω => ∃ m' a, infer (genericEnv (Spec.Hier.withDraws (Spec.Hier.withOrders wr σ) ω)) S cw eps bmin bmax
          ps fx { m with world := h.world fe s } = .ok m' ∧ (m'.ofac i).mean = .nums a ∧ δ ≤ |a [r, l] - a [r', l]|) ≤
        ENNReal.ofReal (C / (S * δ ^ 2)) := by
  obtain ⟨C, hC⟩ := C80_linked_consistent_partial H free s0 hl hw hm fe hfe
  refine ⟨8 * max C 0, ?_⟩
  intro S cw bmin eps bmax ps fx hcw hps hS T hT s hs i hi hif htop r r' hsame hfree l δ hδ
  have b1 := hC S cw bmin eps bmax ps fx hcw hps hS T hT s hs i hif r l (δ / 2) (by positivity)
  have b2 := hC S cw bmin eps bmax ps fx hcw hps hS T hT s hs i hif r' l (δ / 2) (by positivity)
  rw [← C138_same_mean H free s0 hk hobs i hi htop r r' hsame hfree l] at b2
  set mu := ∑ x, h.posteriorGiven free s0 x * (sgn (x i (r, l)) : ℝ) with hmu
  have hle : C / (S * (δ / 2) ^ 2) ≤ 4 * max C 0 / (S * δ ^ 2) := by
    have : C / (S * (δ / 2) ^ 2) = 4 * C / (S * δ ^ 2) := by
      field_simp
      ring
    rw [this]
    gcongr
    exact le_max_left _ _
  let A : Bool → Spec.Hier.Orders (freeMats m) T → h.Draws T → Prop := fun b σ ω =>
    ∃ m' a, infer (genericEnv (Spec.Hier.withDraws (Spec.Hier.withOrders wr σ) ω)) S cw eps bmin bmax
      ps fx { m with world := h.world fe s } = .ok m' ∧ (m'.ofac i).mean = .nums a ∧
      δ / 2 ≤ |a [(if b then r else r' : Fin (h.rows i)), l] - mu|
  have hA : ∀ b, h.prob (freeMats m) T (A b) ≤ ENNReal.ofReal (4 * max C 0 / (S * δ ^ 2)) := by
    intro b
    cases b
    · exact (le_of_eq (by simp [A])).trans (b2.trans (ENNReal.ofReal_le_ofReal hle))
    · exact (le_of_eq (by simp [A])).trans (b1.trans (ENNReal.ofReal_le_ofReal hle))
  refine (Spec.Hier.prob_mono (B := fun σ ω => ∃ j, A j σ ω) fun σ ω hω => ?_).trans
    ((Spec.Hier.prob_exists_le A).trans ((Finset.sum_le_sum fun j _ => hA j).trans (le_of_eq ?_)))
  · obtain ⟨m', a, e1, e2, e3⟩ := hω
    by_cases hc : δ / 2 ≤ |a [r, l] - mu|
    · exact ⟨true, m', a, e1, e2, by simpa using hc⟩
    · refine ⟨false, m', a, e1, e2, ?_⟩
      have ht := abs_sub_le (a [(r : Nat), (l : Nat)]) mu (a [(r' : Nat), (l : Nat)])
      rw [abs_sub_comm mu] at ht
      simp only [Bool.false_eq_true, if_false]
      linarith [not_le.1 hc]
  · rw [Fintype.sum_bool, ← ENNReal.ofReal_add (by positivity) (by positivity)]
    congr 1
    ring

/-- three by three data whose first and third rows are equal and differ from the second -/
def twinData : Arr Int := ⟨[3, 3], fun idx => if idx.getD 0 0 = 1 then -1 else if idx.getD 1 0 = 1 then -1 else 1⟩

theorem C138_hypotheses_met :
    ∃ h : Hier, h.Legal ∧ ∃ k ∈ h.layers, k.model = .OR_AND ∧ h.M ≤ k.child ∧ h.data k.child = twinData ∧
      twinData [0, 0] ≠ twinData [1, 0] ∧
      (∃ i : Fin h.M, ∃ r r' : Fin (h.rows i), r ≠ r' ∧ (i : Nat) ∈ k.factors ∧ h.parentsOf i = [] ∧ h.SameData k i r r') ∧
      (∀ s0, h.Linking (fun _ => True) s0) ∧
      ∃ wr : Wiring, h.Wired wr ∧ ∃ mach : Mach Sampler LbdaUpdate, h.FixedLbdas wr mach ∧
        (∀ q, h.Sampled mach (fun _ => Arr.full [] 0) q) ∧ ∀ i ∈ k.factors, i ∈ freeMats mach := by
  have h3 : DataArr twinData := by
    intro idx _
    unfold twinData IsData
    dsimp only
    split <;> [simp; (split <;> simp)]
  have H : (plainHier .OR_AND 3 3 2 twinData 1).Legal := plainHier_legal _ _ _ (by norm_num) (by norm_num) rfl h3
  obtain ⟨w1, w2, w3⟩ := C79_odd_hypotheses_met.2.2.2.2.2.2 _ H (fun _ l => l) (fun _ _ => true)
  refine ⟨_, H, ⟨.OR_AND, 0, 1, 2, 1, none⟩, by simp [plainHier], rfl, by simp [plainHier], rfl, by decide, ?_, ?_, _, w1, _, w2,
    w3, ?_⟩
  · refine ⟨⟨0, by simp [plainHier]⟩, ⟨0, by simp [plainHier]⟩, ⟨2, by simp [plainHier]⟩, by simp, by simp [HLayer.factors],
      by simp [Spec.Hier.parentsOf, plainHier], ?_⟩
    refine ⟨fun _ d _ => ?_, fun hc => absurd hc (by decide)⟩
    simp [plainHier, twinData]
  · intro s0
    have conv := C79_odd_partial H (k := ⟨.OR_AND, 0, 1, 2, 1, none⟩) rfl rfl (fun i _ => rfl) (by norm_num) (by simp [plainHier])
      (by simp) (fun n hn => by
        have : n = 0 ∨ n = 1 ∨ n = 2 := by simp [plainHier] at hn; omega
        rcases this with rfl | rfl | rfl <;> decide) (fun n hn => by
        have : n = 0 ∨ n = 1 ∨ n = 2 := by simp [plainHier] at hn; omega
        rcases this with rfl | rfl | rfl <;> decide)
      w1 w2 _ w3 s0
    exact Spec.Hier.linking_of_mixing ((C79_mixing_iff H _ s0 w1 w2 _ (fun q => iff_of_true trivial (w3 q))).2 conv)
  · intro i hi
    rw [Spec.Hier.mem_freeMats_machOf H]
    exact H.latent _ (by simp [plainHier]) i hi

end LFM

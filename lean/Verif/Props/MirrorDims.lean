import Verif.Props.Averages
import Verif.Props.Exchange
import Verif.Props.MoreDimensions
import Verif.Props.Fuzzy

/-!
# C136: averages over the samples of models with an inner XOR
-/

namespace LFM

open Spec MeasureTheory

namespace Spec.Hier

variable (h : Hier)

/-- the state with latent dimension `a` of layer `k` turned over, in all factors of the layer -/
def flipDim (k : HLayer) (a : Nat) (s : h.State) : h.State := fun i e =>
  if (i : Nat) ∈ k.factors ∧ (e.2 : Nat) = a then !s i e else s i e

variable {h}

theorem flipDim_flipDim (k : HLayer) (a : Nat) (s : h.State) : h.flipDim k a (h.flipDim k a s) = s := by
  funext i e
  unfold flipDim
  split <;> simp

theorem val_flipDim_of_not_mem {k : HLayer} (a : Nat) (s : h.State) {i : Nat} (hi : i ∉ k.factors) :
    h.val (h.flipDim k a s) i = h.val s i := by
  unfold val
  split
  · congr 1
    funext e
    simp [flipDim, hi]
  · rfl

theorem val_flipDim {k : HLayer} {a : Nat} (s : h.State) {i : Nat} (hM : i < h.M) (hi : i ∈ k.factors) {n l : Nat}
    (hn : n < h.rows i) (hl : l < h.cols i) :
    (h.val (h.flipDim k a s) i n l = 1 ↔ if l = a then ¬ h.val s i n l = 1 else h.val s i n l = 1) := by
  unfold val
  rw [dif_pos hM, dif_pos hM]
  unfold Cfg.fac
  rw [dif_pos ⟨hn, hl⟩, dif_pos ⟨hn, hl⟩]
  simp only [flipDim, hi, true_and]
  split
  · cases s ⟨i, hM⟩ (⟨n, hn⟩, ⟨l, hl⟩) <;> simp [sgn]
  · rfl

end Spec.Hier

/-- the models whose inner operator is XOR or NXOR -/
def InnerXor (m : Lom8) : Prop := m.inner = .XOR ∨ m.inner = .NXOR

theorem pred2_flip {m : Lom8} (hm : InnerXor m) {L a : Nat} {z u z' u' : Nat → Int}
    (hz : ∀ l < L, (z' l = 1 ↔ if l = a then ¬ z l = 1 else z l = 1))
    (hu : ∀ l < L, (u' l = 1 ↔ if l = a then ¬ u l = 1 else u l = 1)) : pred2 m L z' u' = pred2 m L z u := by
  unfold pred2
  apply pm_congr
  have key : ∀ l : Fin L, (m.inner.Holds (fun k : Fin 2 => ![z' l, u' l] k = 1) ↔
      m.inner.Holds (fun k : Fin 2 => ![z l, u l] k = 1)) := by
    intro l
    have e : ∀ x y : Int, (fun k : Fin 2 => ![x, y] k = 1) = fun k : Fin 2 => ![x = 1, y = 1] k := by
      intro x y
      funext k
      fin_cases k <;> rfl
    rw [e, e]
    have h1 := hz l l.2
    have h2 := hu l l.2
    rcases hm with hm | hm <;> rw [hm]
    · rw [(inner_two _ _).2.2.1, (inner_two _ _).2.2.1, h1, h2]
      split <;> tauto
    · rw [(inner_two _ _).2.2.2, (inner_two _ _).2.2.2, h1, h2]
      split <;> tauto
  unfold lom
  simp only [key]

namespace Spec.Hier

variable {h : Hier}

theorem joint_flipDim (H : h.Legal) {k : HLayer} (hk : k ∈ h.layers) (hkv : k.v = none) (hm : InnerXor k.model)
    (htop : ∀ i ∈ k.factors, h.parentsOf i = []) (hprior : ∀ i ∈ k.factors, h.prior i = 1 / 2) (a : Nat) (s : h.State) :
    h.joint (h.flipDim k a s) = h.joint s := by
  have hout : ∀ i, i ∉ k.factors → h.val (h.flipDim k a s) i = h.val s i := fun i hi =>
    val_flipDim_of_not_mem a s hi
  have hchild : ∀ k' ∈ h.layers, k'.child ∉ k.factors := by
    intro k' hk' hc
    have : k' ∈ h.parentsOf k'.child := List.mem_filter.2 ⟨hk', by simp⟩
    rw [htop _ hc] at this
    simp at this
  unfold joint
  congr 1
  · congr 1
    refine List.map_congr_left fun k' hk' => ?_
    unfold layerLik
    by_cases hkk : k' = k
    · subst hkk
      rw [hkv]
      simp only
      rw [hout _ (hchild k' hk')]
      obtain ⟨e1, e2, e3⟩ := H.sizes2 k' hk' hkv
      have iz : k'.z ∈ k'.factors := by simp [HLayer.factors]
      have iu : k'.u ∈ k'.factors := by simp [HLayer.factors]
      unfold lik2
      refine Finset.prod_congr rfl fun n _ => Finset.prod_congr rfl fun d _ => ?_
      congr 1
      refine pred2_flip (a := a) hm (fun l hl => ?_) (fun l hl => ?_)
      · exact val_flipDim s (H.latent k' hk' _ iz) iz (by omega) hl
      · exact val_flipDim s (H.latent k' hk' _ iu) iu (by omega) (by omega)
    · have hne : ∀ i ∈ k'.factors, i ∉ k.factors := fun i hi hc => hkk (one_owner H hk hk' hc hi)
      cases hv : k'.v with
      | none =>
        simp only
        rw [hout _ (hchild k' hk'), hout k'.z (hne _ (by simp [HLayer.factors])), hout k'.u (hne _ (by simp [HLayer.factors]))]
      | some v =>
        simp only
        rw [hout k'.z (hne _ (by simp [HLayer.factors])), hout k'.u (hne _ (by simp [HLayer.factors])),
          hout v (hne _ (by simp [HLayer.factors, hv]))]
  · refine Finset.prod_congr rfl fun i _ => ?_
    have hv : ∀ s : h.State, Cfg.fac (s i) = h.val s i := by
      intro s
      unfold val
      rw [dif_pos i.2]
    rw [hv, hv]
    by_cases hi : (i : Nat) ∈ k.factors
    · rw [hprior i hi]
      rw [priorProb_half, priorProb_half]
    · rw [hout i hi]

end Spec.Hier

/-- **C136**: a layer of two factors whose model has XOR or NXOR as its inner operator, with the default prior. If nothing in its
factors is fixed, and they are not themselves modelled by another layer, then a state is as probable as the one with all
entries of a latent dimension turned over in both factors. -/
theorem C136_mirror {h : Hier} (H : h.Legal) (free : h.Site → Prop) (s0 : h.State) {k : HLayer} (hk : k ∈ h.layers)
    (hkv : k.v = none) (hm : InnerXor k.model) (htop : ∀ i ∈ k.factors, h.parentsOf i = [])
    (hprior : ∀ i ∈ k.factors, h.prior i = 1 / 2) (hfree : ∀ q : h.Site, (q.1 : Nat) ∈ k.factors → free q)
    (a : Nat) (s : h.State) : h.posteriorGiven free s0 (h.flipDim k a s) = h.posteriorGiven free s0 s := by
  have hag : h.Agree free (h.flipDim k a s) s0 ↔ h.Agree free s s0 := by
    unfold Spec.Hier.Agree
    refine forall_congr' fun q => imp_congr_right fun hq => ?_
    have : (q.1 : Nat) ∉ k.factors := fun hc => hq (hfree q hc)
    simp [Spec.Hier.flipDim, this]
  unfold Spec.Hier.posteriorGiven
  by_cases hs : h.Agree free s s0
  · rw [if_pos hs, if_pos (hag.2 hs), Spec.Hier.joint_flipDim H hk hkv hm htop hprior]
  · rw [if_neg hs, if_neg fun hc => hs (hag.1 hc)]

/-- **C136**: hence the posterior expectation of every entry of both factors is 0, whatever the data and the strength -/
theorem C136_mean_zero {h : Hier} (H : h.Legal) (free : h.Site → Prop) (s0 : h.State) {k : HLayer} (hk : k ∈ h.layers)
    (hkv : k.v = none) (hm : InnerXor k.model) (htop : ∀ i ∈ k.factors, h.parentsOf i = [])
    (hprior : ∀ i ∈ k.factors, h.prior i = 1 / 2) (hfree : ∀ q : h.Site, (q.1 : Nat) ∈ k.factors → free q)
    (i : Fin h.M) (hi : (i : Nat) ∈ k.factors) (n : Fin (h.rows i)) (l : Fin (h.cols i)) :
    ∑ x, h.posteriorGiven free s0 x * (sgn (x i (n, l)) : ℝ) = 0 := by
  have : ∑ x, h.posteriorGiven free s0 x * (sgn (x i (n, l)) : ℝ) =
      ∑ x, - (h.posteriorGiven free s0 x * (sgn (x i (n, l)) : ℝ)) := by
    refine Fintype.sum_equiv ⟨h.flipDim k l, h.flipDim k l, Spec.Hier.flipDim_flipDim k l,
      Spec.Hier.flipDim_flipDim k l⟩ _ _ fun x => ?_
    simp only [Equiv.coe_fn_mk]
    rw [C136_mirror H free s0 hk hkv hm htop hprior hfree]
    have : h.flipDim k l x i (n, l) = !x i (n, l) := by simp [Spec.Hier.flipDim, hi]
    rw [this]
    cases x i (n, l) <;> simp [sgn]
  rw [Finset.sum_neg_distrib] at this
  linarith

/-- **C136**: hence averages over the samples (`mat.mean()`) approach 0 for every entry: the probability that one is `δ` or more
away from 0 is at most `C / (S δ²)`, if the sampler reaches all states (see C79). -/
theorem C136_averages_vanish {h : Hier} (H : h.Legal) (free : h.Site → Prop) (s0 : h.State) (hl : h.Linking free s0)
    {k : HLayer} (hk : k ∈ h.layers)
    (hkv : k.v = none) (hmod : InnerXor k.model) (htop : ∀ i ∈ k.factors, h.parentsOf i = [])
    (hprior : ∀ i ∈ k.factors, h.prior i = 1 / 2) (hfree : ∀ q : h.Site, (q.1 : Nat) ∈ k.factors → free q)
    {wr : Wiring} (hw : h.Wired wr) {m : Mach Sampler LbdaUpdate} (hm : h.FixedLbdas wr m) (fe : Nat → Arr Int)
    (hfe : ∀ q, free q ↔ h.Sampled m fe q) : ∃ C : ℝ,
      ∀ (S cw bmin : Nat) (eps : ℝ) (bmax : Int) (ps fx : Nat), 1 ≤ cw → 1 ≤ ps → 1 ≤ S →
      ∀ T, m.clock + bmin + bmax.toNat + S ≤ T → ∀ s : h.State, h.Agree free s s0 →
      ∀ (i : Fin h.M), (i : Nat) ∈ k.factors → (i : Nat) ∈ freeMats m →
      ∀ (n : Fin (h.rows i)) (l : Fin (h.cols i)) (δ : ℝ), 0 < δ →
      h.prob (freeMats m) T (fun σ ω => ∃ m' a, infer (genericEnv (Spec.Hier.withDraws (Spec.Hier.withOrders wr σ) ω)) S cw eps bmin bmax
          ps fx { m with world := h.world fe s } = .ok m' ∧ (m'.ofac i).mean = .nums a ∧ δ ≤ |a [n, l]|) ≤
        ENNReal.ofReal (C / (S * δ ^ 2)) := by
  obtain ⟨C, hC⟩ := C80_linked_consistent_partial H free s0 hl hw hm fe hfe
  refine ⟨C, ?_⟩
  intro S cw bmin eps bmax ps fx hcw hps hS T hT s hs i hi hif n l δ hδ
  have := hC S cw bmin eps bmax ps fx hcw hps hS T hT s hs i hif n l δ hδ
  rw [C136_mean_zero H free s0 hk hkv hmod htop hprior hfree i hi n l] at this
  simpa only [sub_zero] using this

/-- **C136**: and the output from factors whose means are all 0 (entries on with probability 1/2) is the same in every cell -/
theorem C136_flat_output (m : Lom8) (N D L : Nat) (Z U : Arr ℝ) (hZ : Z.shape = [N, L]) (hU : U.shape = [D, L])
    (hz : ∀ n < N, ∀ l < L, Z [n, l] = 1 / 2) (hu : ∀ d < D, ∀ l < L, U [d, l] = 1 / 2) :
    ∃ X c, output_function_2d_fuzzy m.name Z U = .ok X ∧ X.shape = [N, D] ∧ ∀ n < N, ∀ d < D, X [n, d] = c := by
  obtain ⟨X, e1, e2, e3⟩ := C52_exact_expectation m N D L Z U hZ hU
  refine ⟨X, lomProb m.outer m.inner fun _ : Fin L => ![1 / 2, 1 / 2], e1, e2, fun n hn d hd => ?_⟩
  rw [e3 n hn d hd]
  congr 1
  funext l
  rw [hz n hn l l.2, hu d hd l l.2]

/-- a layer of two factors under the default prior, three by three data, model OR-XOR (and the three others): it is legal, and
from every state the sampler reaches all others -/
theorem C136_hypotheses_met (m : Lom8) (hm : m = .OR_XOR ∨ m = .NAND_XOR ∨ m = .XOR_XOR ∨ m = .XOR_NXOR) :
    InnerXor m ∧ ∃ h : Hier, h.Legal ∧ ∃ k ∈ h.layers, k.model = m ∧ k.v = none ∧ (∀ i ∈ k.factors, h.parentsOf i = []) ∧
      (∀ i ∈ k.factors, h.prior i = 1 / 2) ∧ (∀ n < 3, ∀ d < 3, h.data k.child [n, d] = 1) ∧
      (∀ s0, h.Linking (fun _ => True) s0) ∧
      ∃ wr : Wiring, h.Wired wr ∧ ∃ mach : Mach Sampler LbdaUpdate, h.FixedLbdas wr mach ∧
        (∀ q, h.Sampled mach (fun _ => Arr.full [] 0) q) ∧ ∀ i ∈ k.factors, i ∈ freeMats mach := by
  have hi : InnerXor m := by
    rcases hm with rfl | rfl | rfl | rfl <;> simp [InnerXor, Lom8.inner]
  have h3 : DataArr (Arr.full [3, 3] (1 : Int)) := fun idx _ => .inl rfl
  have H : (plainHier m 3 3 2 (Arr.full [3, 3] 1) 1).Legal := plainHier_legal _ _ _ (by norm_num) (by norm_num) rfl h3
  obtain ⟨w1, w2, w3⟩ := C79_odd_hypotheses_met.2.2.2.2.2.2 _ H (fun _ l => l) (fun _ _ => true)
  have hodd : ∀ n < 3, Odd (Finset.univ.filter fun _ : Fin 3 => (1 : Int) ≠ 0).card := fun n _ => by decide
  refine ⟨hi, _, H, ⟨m, 0, 1, 2, 1, none⟩, by simp [plainHier], rfl, rfl, ?_, ?_, ?_, ?_, _, w1, _, w2, w3, ?_⟩
  · intro i hi
    simp only [HLayer.factors, Option.toList, List.mem_cons, List.not_mem_nil, or_false] at hi
    rcases hi with rfl | rfl <;> simp [Spec.Hier.parentsOf, plainHier]
  · intro i hi
    simp [plainHier]
  · intro n _ d _
    rfl
  · intro s0
    have conv := C79_odd_partial H (k := ⟨m, 0, 1, 2, 1, none⟩) rfl rfl (fun i _ => rfl) (by norm_num) (by simp [plainHier])
      (by rcases hm with rfl | rfl | rfl | rfl <;> simp) hodd hodd
      w1 w2 _ w3 s0
    exact Spec.Hier.linking_of_mixing ((C79_mixing_iff H _ s0 w1 w2 _ (fun q => iff_of_true trivial (w3 q))).2 conv)
  · intro i hi
    rw [Spec.Hier.mem_freeMats_machOf H]
    exact H.latent _ (by simp [plainHier]) i hi

end LFM

import Verif.Props.TwinModels
import Verif.Spec.Lambda

/-!
# C142: a layer with a large strength looks for the best fit
-/

namespace LFM

open Spec MeasureTheory

/-- the likelihood of cells depends on the number of cells that are predicted -/
theorem prod_cellLik {ι : Type} [Fintype ι] [DecidableEq ι] (lbda : ℝ) (x p : ι → Int) (hx : ∀ i, IsData (x i)) (hp : ∀ i, IsPM (p i)) :
    ∏ i, cellLik lbda (x i) (p i) = (∏ i, if x i = 0 then 1 else sigmoid (-lbda)) *
      Real.exp lbda ^ (Finset.univ.filter fun i => x i = p i).card := by
  have h1 : ∀ i, cellLik lbda (x i) (p i) = (if x i = 0 then 1 else sigmoid (-lbda)) * if x i = p i then Real.exp lbda else 1 := by
    intro i
    have hs : sigmoid lbda = sigmoid (-lbda) * Real.exp lbda := by
      rw [sigmoid_neg_eq, mul_right_comm, ← Real.exp_add]
      simp
    unfold cellLik
    rcases hx i with h | h | h <;> rcases hp i with h' | h' <;> rw [h, h'] <;> norm_num [hs]
  simp only [h1, Finset.prod_mul_distrib]
  congr 1
  rw [Finset.prod_ite, Finset.prod_const, Finset.prod_const_one, mul_one]

namespace Spec.Hier

variable (h : Hier)

open Classical in
/-- number of data cells that layer `k` predicts in state `s` -/
noncomputable def hits (k : HLayer) (s : h.State) : Nat :=
  match k.v with
  | none => correct2 k.model (h.rows k.child) (h.cols k.child) (h.cols k.z) (fun n d => h.data k.child [n, d]) (h.val s k.z) (h.val s k.u)
  | some v => correct3 k.model (h.rows k.z) (h.rows k.u) (h.rows v) (h.cols k.z) (fun n d e => h.data k.child [n, d, e])
      (h.val s k.z) (h.val s k.u) (h.val s v)

/-- no state with the same fixed entries predicts more cells than `s` -/
def BestFit (k : HLayer) (free : h.Site → Prop) (s : h.State) : Prop := ∀ y, h.Agree free y s → h.hits k y ≤ h.hits k s

variable {h}

theorem layerLik_hits (H : h.Legal) {k : HLayer} (hk : h.layers = [k]) :
    ∃ K : ℝ, 0 < K ∧ ∀ s, h.layerLik s k = K * Real.exp k.lbda ^ h.hits k s := by
  classical
  have hmem : k ∈ h.layers := by simp [hk]
  have hobs : h.M ≤ k.child := by
    by_contra hc
    obtain ⟨k', h1, h2⟩ := H.owner k.child (not_le.1 hc)
    rw [hk, List.mem_singleton] at h1
    subst h1
    exact H.child k' hmem h2
  have hsig : 0 < sigmoid (-k.lbda) := by unfold sigmoid; positivity
  unfold layerLik hits
  cases hv : k.v with
  | none =>
    obtain ⟨d1, d2⟩ := H.data2 k hmem hv hobs
    refine ⟨∏ i : Fin (h.rows k.child) × Fin (h.cols k.child), if h.data k.child [i.1, i.2] = 0 then 1 else sigmoid (-k.lbda), ?_,
      fun s => ?_⟩
    rotate_left
    · simp only
      have hval : h.val s k.child = fun n d => h.data k.child [n, d] := by
        unfold val
        rw [dif_neg (by omega)]
      rw [hval, lik2, ← Fintype.prod_prod_type
        (f := fun i : Fin (h.rows k.child) × Fin (h.cols k.child) => cellLik k.lbda (h.data k.child [i.1, i.2])
          (pred2 k.model (h.cols k.z) (h.val s k.z i.1) (h.val s k.u i.2)))]
      rw [prod_cellLik _ (fun i : Fin (h.rows k.child) × Fin (h.cols k.child) => h.data k.child [i.1, i.2])
        (fun i => pred2 k.model (h.cols k.z) (h.val s k.z i.1) (h.val s k.u i.2))
        (fun i => d2 _ (by rw [d1]; exact ⟨i.1.2, i.2.2, trivial⟩)) (fun i => isPM_pred2 _ _ _ _)]
      unfold correct2
      congr!
    · exact Finset.prod_pos fun i _ => by split <;> first | exact one_pos | exact hsig
  | some v =>
    obtain ⟨-, d1, d2⟩ := H.data3 k hmem v hv
    refine ⟨∏ i : Fin (h.rows k.z) × Fin (h.rows k.u) × Fin (h.rows v),
      if h.data k.child [i.1, i.2.1, i.2.2] = 0 then 1 else sigmoid (-k.lbda), ?_, fun s => ?_⟩
    rotate_left
    · simp only
      have e : lik3 k.model (h.rows k.z) (h.rows k.u) (h.rows v) (h.cols k.z) k.lbda (fun n d e => h.data k.child [n, d, e])
          (h.val s k.z) (h.val s k.u) (h.val s v) = ∏ i : Fin (h.rows k.z) × Fin (h.rows k.u) × Fin (h.rows v),
          cellLik k.lbda (h.data k.child [i.1, i.2.1, i.2.2])
            (pred3 k.model (h.cols k.z) (h.val s k.z i.1) (h.val s k.u i.2.1) (h.val s v i.2.2)) := by
        rw [lik3, Fintype.prod_prod_type]
        refine Finset.prod_congr rfl fun n _ => ?_
        rw [Fintype.prod_prod_type]
      rw [e, prod_cellLik _ (fun i : Fin (h.rows k.z) × Fin (h.rows k.u) × Fin (h.rows v) => h.data k.child [i.1, i.2.1, i.2.2])
        (fun i => pred3 k.model (h.cols k.z) (h.val s k.z i.1) (h.val s k.u i.2.1) (h.val s v i.2.2))
        (fun i => d2 _ (by rw [d1]; exact ⟨i.1.2, i.2.1.2, i.2.2.2, trivial⟩)) (fun i => isPM_pred3 _ _ _ _ _)]
      unfold correct3
      congr!
    · exact Finset.prod_pos fun i _ => by split <;> first | exact one_pos | exact hsig

theorem joint_hits (H : h.Legal) {k : HLayer} (hk : h.layers = [k]) (hprior : ∀ i < h.M, h.prior i = 1 / 2) :
    ∃ K : ℝ, 0 < K ∧ ∀ s, h.joint s = K * Real.exp k.lbda ^ h.hits k s := by
  obtain ⟨K, hK, hl⟩ := layerLik_hits H hk
  refine ⟨K * ∏ i : Fin h.M, (1 / 2 : ℝ) ^ (h.rows i * h.cols i), mul_pos hK (Finset.prod_pos fun i _ => by positivity), fun s => ?_⟩
  unfold joint
  rw [hk]
  simp only [List.map_cons, List.map_nil, List.prod_cons, List.prod_nil, mul_one]
  rw [hl s, mul_right_comm]
  congr 2
  refine Finset.prod_congr rfl fun i _ => ?_
  rw [hprior i i.2, priorProb_half]

end Spec.Hier

open Classical in
/-- **C142**: a single layer with the default prior and strength `λ ≥ 0`. The posterior probability that the factors predict fewer
data cells than they could (given the entries that are fixed) is at most the number of states times `exp (-λ)`. -/
theorem C142_posterior {h : Hier} (H : h.Legal) {k : HLayer} (hk : h.layers = [k]) (hprior : ∀ i < h.M, h.prior i = 1 / 2)
    (hl : 0 ≤ k.lbda) (free : h.Site → Prop) (s0 : h.State) :
    ∑ x, h.posteriorGiven free s0 x * (if h.BestFit k free x then 0 else 1) ≤ Fintype.card h.State * Real.exp (-k.lbda) := by
  obtain ⟨K, hK, hj⟩ := Spec.Hier.joint_hits H hk hprior
  obtain ⟨b, hb, hmax⟩ := Finset.exists_max_image (Finset.univ.filter fun x => h.Agree free x s0) (h.hits k)
    ⟨s0, Finset.mem_filter.2 ⟨Finset.mem_univ _, fun _ _ => rfl⟩⟩
  simp only [Finset.mem_filter, Finset.mem_univ, true_and] at hb hmax
  have hZ : h.joint b ≤ ∑ x with h.Agree free x s0, h.joint x :=
    Finset.single_le_sum (f := h.joint) (fun x _ => (Spec.Hier.joint_pos H x).le) (by simpa using hb)
  have hbp := Spec.Hier.joint_pos H b
  have hone : ∀ x, h.posteriorGiven free s0 x * (if h.BestFit k free x then 0 else 1) ≤ Real.exp (-k.lbda) := by
    intro x
    unfold Spec.Hier.posteriorGiven
    split
    · rename_i hag
      split
      · rw [mul_zero]
        positivity
      · rename_i hx
        rw [mul_one]
        have hlt : h.hits k x + 1 ≤ h.hits k b := by
          by_contra hc
          refine hx fun y hy => (hmax y fun q hq => ?_).trans (by omega)
          rw [hy q hq, hag q hq]
        have hjx : h.joint x ≤ Real.exp (-k.lbda) * h.joint b := by
          rw [hj x, hj b]
          have h1 : Real.exp k.lbda ^ (h.hits k x + 1) ≤ Real.exp k.lbda ^ h.hits k b :=
            pow_le_pow_right₀ (Real.one_le_exp hl) hlt
          rw [pow_succ] at h1
          have h2 : Real.exp k.lbda * Real.exp (-k.lbda) = 1 := by rw [← Real.exp_add]; simp
          calc K * Real.exp k.lbda ^ h.hits k x
              = Real.exp (-k.lbda) * (K * (Real.exp k.lbda ^ h.hits k x * Real.exp k.lbda)) := by
                linear_combination (-(K * Real.exp k.lbda ^ h.hits k x)) * h2
            _ ≤ _ := by gcongr
        rw [div_le_iff₀ (hbp.trans_le hZ)]
        exact hjx.trans (by gcongr)
    · rw [zero_mul]
      positivity
  refine (Finset.sum_le_sum fun x _ => hone x).trans (le_of_eq ?_)
  rw [Finset.sum_const, Finset.card_univ, nsmul_eq_mul]

open Classical in
/-- **C142**: hence the share of the samples of a run that are not best fits exceeds this bound by `δ` or more with probability at
most `C / (S δ²)`, if the sampler reaches all states (see C79) -/
theorem C142_samples {h : Hier} (H : h.Legal) {k : HLayer} (hk : h.layers = [k]) (hprior : ∀ i < h.M, h.prior i = 1 / 2)
    (hlb : 0 ≤ k.lbda) (free : h.Site → Prop) (s0 : h.State) (hl : h.Linking free s0)
    {wr : Wiring} (hw : h.Wired wr) {m : Mach Sampler LbdaUpdate} (hm : h.FixedLbdas wr m) (fe : Nat → Arr Int)
    (hfe : ∀ q, free q ↔ h.Sampled m fe q) : ∃ C : ℝ,
      ∀ (S cw bmin : Nat) (eps : ℝ) (bmax : Int) (ps fx : Nat), 1 ≤ cw → 1 ≤ ps → 1 ≤ S →
      ∀ T, m.clock + bmin + bmax.toNat + S ≤ T → ∀ s : h.State, h.Agree free s s0 →
      ∃ f, h.IsAverage wr m fe S cw eps bmin bmax ps fx T s (fun x => if h.BestFit k free x then 0 else 1) f ∧
        ∀ δ : ℝ, 0 < δ → h.prob (freeMats m) T (fun σ ω => Fintype.card h.State * Real.exp (-k.lbda) + δ ≤ f σ ω) ≤
          ENNReal.ofReal (C / (S * δ ^ 2)) := by
  obtain ⟨C, hC⟩ := C80_linked_partial H free s0 hl hw hm fe hfe
  refine ⟨C, ?_⟩
  intro S cw bmin eps bmax ps fx hcw hps hS T hT s hs
  obtain ⟨f, h1, h2, h3⟩ := hC S cw bmin eps bmax ps fx hcw hps hS T hT s hs (fun x => if h.BestFit k free x then 0 else 1)
    (fun x => by split <;> simp)
  refine ⟨f, h1, fun δ hδ => ?_⟩
  have hpost := C142_posterior H hk hprior hlb free s0
  refine (Spec.Hier.prob_mono fun σ ω hω => ?_).trans ((Spec.Hier.prob_le_expectation hδ h2).trans (ENNReal.ofReal_le_ofReal ?_))
  · exact le_trans (by linarith) (le_abs_self _)
  · rw [← div_div]
    exact div_le_div_of_nonneg_right h3 (by positivity)

/-- the hypotheses are met by an OR-AND layer of strength 20 on the path of three nodes: less than one percent of the posterior
probability is on states that are no best fits, of which there is one -/
theorem C142_hypotheses_met :
    ∃ h : Hier, h.Legal ∧ ∃ k, h.layers = [k] ∧ k.model = .OR_AND ∧ (∀ i < h.M, h.prior i = 1 / 2) ∧ 0 ≤ k.lbda ∧
      h.data k.child = pathData ∧ (Fintype.card h.State : ℝ) * Real.exp (-k.lbda) < 1 / 100 ∧
      (∃ s, ¬ h.BestFit k (fun _ => True) s) ∧ (∀ s0, h.Linking (fun _ => True) s0) ∧
      ∃ wr : Wiring, h.Wired wr ∧ ∃ mach : Mach Sampler LbdaUpdate, h.FixedLbdas wr mach ∧
        ∀ q, h.Sampled mach (fun _ => Arr.full [] 0) q := by
  classical
  have h3 : DataArr pathData := by
    intro idx _
    unfold pathData IsData
    dsimp only
    split <;> simp
  have H : (plainHier .OR_AND 3 3 2 pathData 20).Legal := plainHier_legal _ _ _ (by norm_num) (by norm_num) rfl h3
  obtain ⟨w1, w2, w3⟩ := C79_odd_hypotheses_met.2.2.2.2.2.2 _ H (fun _ l => l) (fun _ _ => true)
  refine ⟨_, H, ⟨.OR_AND, 0, 1, 2, 20, none⟩, rfl, rfl, fun i _ => rfl, by norm_num, rfl, ?_, ⟨fun _ _ => false, fun hb => ?_⟩, ?_,
    _, w1, _, w2, w3⟩
  · have hc : Fintype.card (plainHier .OR_AND 3 3 2 pathData 20).State = 4096 := by
      show Fintype.card (∀ i : Fin 2, Cfg ((plainHier .OR_AND 3 3 2 pathData 20).rows i) ((plainHier .OR_AND 3 3 2 pathData 20).cols i)) = 4096
      rw [Fintype.card_pi, Fin.prod_univ_two]
      simp [plainHier, Cfg]
    rw [hc]
    have h1 : (2 : ℝ) ^ 20 ≤ Real.exp 20 := by
      have : Real.exp 20 = Real.exp 1 ^ 20 := by rw [← Real.exp_nat_mul]; norm_num
      rw [this]
      have := Real.exp_one_gt_d9
      gcongr
      linarith
    have h2 : Real.exp 20 * Real.exp (-20) = 1 := by rw [← Real.exp_add]; simp
    have h4 := Real.exp_pos (-20)
    have h5 : (2 : ℝ) ^ 20 * Real.exp (-20) ≤ 1 := by
      rw [← h2]
      exact mul_le_mul_of_nonneg_right h1 h4.le
    generalize Real.exp (-20) = e at h4 h5
    norm_num at h5 ⊢
    linarith
  · have hle := hb (fun _ _ => true) fun q hq => absurd trivial hq
    have hv : ∀ (v : Bool) (i : Nat), i < 2 → ∀ n < 3, ∀ l < 2,
        (plainHier .OR_AND 3 3 2 pathData 20).val (fun _ _ => v) i n l = sgn v := by
      intro v i hi n hn l hl
      unfold Spec.Hier.val
      rw [dif_pos (show i < (plainHier .OR_AND 3 3 2 pathData 20).M from hi)]
      unfold Cfg.fac
      rw [dif_pos]
      refine ⟨?_, ?_⟩
      · simp only [plainHier]
        split <;> [exact hn; (split <;> exact hn)]
      · simp only [plainHier]
        rw [if_neg (by omega)]
        exact hl
    have hp : ∀ (v : Bool), ∀ n < 3, ∀ d < 3, pred2 .OR_AND 2 ((plainHier .OR_AND 3 3 2 pathData 20).val (fun _ _ => v) 0 n)
        ((plainHier .OR_AND 3 3 2 pathData 20).val (fun _ _ => v) 1 d) = sgn v := by
      intro v n hn d hd
      rw [pred2_rows .OR_AND 2 (z := fun _ => sgn v) (u := fun _ => sgn v) (fun l hl => hv v 0 (by norm_num) n hn l hl)
        (fun l hl => hv v 1 (by norm_num) d hd l hl)]
      unfold pred2 pm lom
      cases v
      · rw [if_neg]
        · rfl
        · rintro ⟨l, hl⟩
          exact absurd (show sgn false = 1 from hl 0) (by decide)
      · rw [if_pos]
        · rfl
        · exact ⟨0, fun k => by fin_cases k <;> rfl⟩
    have hh : ∀ v : Bool, (plainHier .OR_AND 3 3 2 pathData 20).hits ⟨.OR_AND, 0, 1, 2, 20, none⟩ (fun _ _ => v) =
        (Finset.univ.filter fun i : Fin 3 × Fin 3 => pathData [i.1, i.2] = sgn v).card := by
      intro v
      show correct2 .OR_AND 3 3 2 (fun n d => pathData [n, d]) _ _ = _
      unfold correct2
      congr 1
      ext i
      simp only [Finset.mem_filter, Finset.mem_univ, true_and]
      rw [hp v i.1 i.1.2 i.2 i.2.2]
    rw [hh, hh] at hle
    exact absurd hle (by decide)
  · intro s0
    have conv := C79_odd_partial H (k := ⟨.OR_AND, 0, 1, 2, 20, none⟩) rfl rfl (fun i _ => rfl) (by norm_num) (by simp [plainHier])
      (by simp) (fun n hn => by
        have : n = 0 ∨ n = 1 ∨ n = 2 := by simp [plainHier] at hn; omega
        rcases this with rfl | rfl | rfl <;> decide) (fun n hn => by
        have : n = 0 ∨ n = 1 ∨ n = 2 := by simp [plainHier] at hn; omega
        rcases this with rfl | rfl | rfl <;> decide)
      w1 w2 _ w3 s0
    exact Spec.Hier.linking_of_mixing ((C79_mixing_iff H _ s0 w1 w2 _ (fun q => iff_of_true trivial (w3 q))).2 conv)

end LFM

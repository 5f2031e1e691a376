import Verif.Props.MirrorDims
import Verif.Props.LinkedMaps
import Verif.Props.Requested

/-!
# C137: predictions from averages over many samples
-/

namespace LFM

open Spec MeasureTheory

namespace Spec.Hier

variable (h : Hier)

open Classical in
/-- the posterior probability that entry `(n, l)` of factor `i` is on -/
noncomputable def onProb (free : h.Site → Prop) (s0 : h.State) (i n l : Nat) : ℝ :=
  ∑ x, h.posteriorGiven free s0 x * if h.val x i n l = 1 then 1 else 0

open Classical in
/-- the posterior probability that layer `k` predicts a one in cell `(n, d)` -/
noncomputable def predictive (free : h.Site → Prop) (s0 : h.State) (k : HLayer) (n d : Nat) : ℝ :=
  ∑ x, h.posteriorGiven free s0 x * if pred2 k.model (h.cols k.z) (h.val x k.z n) (h.val x k.u d) = 1 then 1 else 0

variable {h}

theorem onProb_eq (H : h.Legal) (free : h.Site → Prop) (s0 : h.State) (i : Fin h.M) (n : Fin (h.rows i)) (l : Fin (h.cols i)) :
    h.onProb free s0 i n l = ((∑ x, h.posteriorGiven free s0 x * (sgn (x i (n, l)) : ℝ)) + 1) * (1 / 2) := by
  have h1 := posteriorGiven_sum H free s0
  unfold onProb
  rw [← h1, ← Finset.sum_add_distrib, Finset.sum_mul]
  refine Finset.sum_congr rfl fun x _ => ?_
  have : h.val x i n l = sgn (x i (n, l)) := by
    unfold val Cfg.fac
    rw [dif_pos i.2, dif_pos ⟨n.2, l.2⟩]
  rw [this]
  cases x i (n, l) <;> simp [sgn]
  ring

end Spec.Hier

theorem lomProb_continuous {L : Nat} (o i : LOp) :
    Continuous fun p : Fin L ⊕ Fin L → ℝ => lomProb o i fun l : Fin L => ![p (.inl l), p (.inr l)] := by
  unfold lomProb bernProb
  refine continuous_finset_sum _ fun b _ => Continuous.mul (continuous_finset_prod _ fun j _ => ?_) continuous_const
  obtain ⟨l, c⟩ := j
  have : Continuous fun p : Fin L ⊕ Fin L → ℝ => (![p (.inl l), p (.inr l)] : Fin 2 → ℝ) c := by
    match c with
    | ⟨0, _⟩ => exact continuous_apply _
    | ⟨1, _⟩ => exact continuous_apply _
  simp only
  split
  · exact this
  · exact continuous_const.sub this

/-- `factor_mean` of a layer of two factors -/
theorem factor_mean_two (argsort : Arr ℝ → List Nat) (s : OLayer) (m : Lom8) (hm : s.model = m.name) {f1 f2 : OFac}
    (hf : s.factors = [f1, f2]) {a b : Arr ℝ} (ha : f1.mean = .nums a) (hb : f2.mean = .nums b) {N D L : Nat}
    (sa : a.shape = [N, L]) (sb : b.shape = [D, L]) :
    ∃ X, (output argsort "factor_mean" false false true s).1 = .ok X ∧ X.shape = [N, D] ∧ ∀ n < N, ∀ d < D,
      X [n, d] = .fin (lomProb m.outer m.inner fun l : Fin L => ![(a [n, l] + 1) * (1 / 2), (b [d, l] + 1) * (1 / 2)]) := by
  obtain ⟨X, h1, h2, h3⟩ := C52_exact_expectation m N D L (a.map fun x => (x + 1) * (1 / 2)) (b.map fun x => (x + 1) * (1 / 2)) sa sb
  refine ⟨finArr X, ?_, h2, fun n hn d hd => ?_⟩
  · obtain ⟨g, hg⟩ : ∃ g : OFac → Arr ℝ, g = fun f => match f.mean with | .nums x => x | _ => a := ⟨_, rfl⟩
    have g1 : g f1 = a := by simp only [hg, ha]
    have g2 : g f2 = b := by simp only [hg, hb]
    have hg' : ∀ f ∈ s.factors, f.mean = .nums (g f) := by
      intro f hfm
      rw [hf] at hfm
      simp only [List.mem_cons, List.not_mem_nil, or_false] at hfm
      rcases hfm with rfl | rfl
      · rw [g1, ha]
      · rw [g2, hb]
    have hX : lom_generate_data_fast_fuzzy ((s.factors.map g).map fun a => a.map fun x => (x + 1) * (1 / 2)) m.name = .ok X := by
      rw [hf]
      simp only [List.map_cons, List.map_nil, g1, g2]
      unfold lom_generate_data_fast_fuzzy
      rw [if_neg (not_not.2 ((implemented_iff m.name).2 ⟨m, rfl⟩))]
      exact h1
    rw [output_generic argsort "factor_mean" false true s m.outer m.inner (.inl hm) (finArr X)]
    · rfl
    · unfold outputGeneric
      rw [if_neg (by decide), if_neg (by decide), if_pos rfl, liftMeans_ok hg']
      show (finArr <$> lom_generate_data_fast_fuzzy _ m.name >>= fun out => pure out) = _
      rw [hX]
      rfl
  · show NpF.fin (X [n, d]) = _
    rw [h3 n hn d hd]
    rfl

/-- **C137** (partial): predictions from averages over the samples (technique `factor_mean`) approach, with more samples, the
probability of a one if the entries of the factors were independent, each with its posterior probability of being on.
The probability that a cell is `δ` or more away from that is at most `C / S`, from any initial state and for any length of
burn-in, if the sampler reaches all states (see C79). -/
theorem C137_limit_partial {h : Hier} (H : h.Legal) (free : h.Site → Prop) (s0 : h.State) (hl : h.Linking free s0)
    {k : HLayer} (hk : k ∈ h.layers) (hkv : k.v = none)
    {wr : Wiring} (hw : h.Wired wr) {m : Mach Sampler LbdaUpdate} (hm : h.FixedLbdas wr m) (fe : Nat → Arr Int)
    (hfe : ∀ q, free q ↔ h.Sampled m fe q) (hin : ∀ i ∈ k.factors, i ∈ freeMats m)
    {n d : Nat} (hn : n < h.rows k.z) (hd : d < h.rows k.u) (δ : ℝ) (hδ : 0 < δ) : ∃ C : ℝ,
      ∀ (S cw bmin : Nat) (eps : ℝ) (bmax : Int) (ps fx : Nat), 1 ≤ cw → 1 ≤ ps → 1 ≤ S →
      ∀ T, m.clock + bmin + bmax.toNat + S ≤ T → ∀ s : h.State, h.Agree free s s0 →
      h.prob (freeMats m) T (fun σ ω => ¬ ∃ m', infer (genericEnv (Spec.Hier.withDraws (Spec.Hier.withOrders wr σ) ω)) S cw eps
          bmin bmax ps fx { m with world := h.world fe s } = .ok m' ∧
          ∀ (argsort : Arr ℝ → List Nat) (lr : OLayer), lr.model = k.model.name → lr.factors = [m'.ofac k.z, m'.ofac k.u] →
            ∃ X x, (output argsort "factor_mean" false false true lr).1 = .ok X ∧ X.shape = [h.rows k.z, h.rows k.u] ∧
              X [n, d] = .fin x ∧ |x - lomProb k.model.outer k.model.inner fun l : Fin (h.cols k.z) =>
                ![h.onProb free s0 k.z n l, h.onProb free s0 k.u d l]| < δ) ≤ ENNReal.ofReal (C / S) := by
  have iz : k.z ∈ k.factors := by simp [HLayer.factors]
  have iu : k.u ∈ k.factors := by simp [HLayer.factors]
  have hMz := H.latent k hk _ iz
  have hMu := H.latent k hk _ iu
  have hc : h.cols k.u = h.cols k.z := Spec.Hier.cols_factor H hk iu
  obtain ⟨L, hL⟩ : ∃ L, L = h.cols k.z := ⟨_, rfl⟩
  obtain ⟨p0, hp0⟩ : ∃ p0 : Fin L ⊕ Fin L → ℝ, p0 = Sum.elim (fun l : Fin L => h.onProb free s0 k.z n l)
    (fun l : Fin L => h.onProb free s0 k.u d l) := ⟨_, rfl⟩
  obtain ⟨η, hη, hcont⟩ := Metric.continuous_iff.1 (lomProb_continuous (L := L) k.model.outer k.model.inner) p0 δ hδ
  obtain ⟨C, hC⟩ := C80_linked_consistent_partial H free s0 hl hw hm fe hfe
  refine ⟨(L + L : Nat) * (max C 0 / (2 * η) ^ 2), ?_⟩
  intro S cw bmin eps bmax ps fx hcw hps hS T hT s hs
  have hS' : (0 : ℝ) < S := by exact_mod_cast hS
  obtain ⟨mz, hmz⟩ : ∃ mz : Fin L → ℝ, mz = fun l : Fin L => ∑ x, h.posteriorGiven free s0 x *
    (sgn (x ⟨k.z, hMz⟩ (⟨n, hn⟩, ⟨l, by have := l.2; simp only; omega⟩)) : ℝ) := ⟨_, rfl⟩
  obtain ⟨mu, hmu⟩ : ∃ mu : Fin L → ℝ, mu = fun l : Fin L => ∑ x, h.posteriorGiven free s0 x *
    (sgn (x ⟨k.u, hMu⟩ (⟨d, hd⟩, ⟨l, by have := l.2; simp only; omega⟩)) : ℝ) := ⟨_, rfl⟩
  let A : Fin L ⊕ Fin L → Spec.Hier.Orders (freeMats m) T → h.Draws T → Prop := fun j σ ω => ∃ m' a,
    infer (genericEnv (Spec.Hier.withDraws (Spec.Hier.withOrders wr σ) ω)) S cw eps bmin bmax
      ps fx { m with world := h.world fe s } = .ok m' ∧
    match j with
    | .inl l => (m'.ofac k.z).mean = .nums a ∧ 2 * η ≤ |a [n, (l : Nat)] - mz l|
    | .inr l => (m'.ofac k.u).mean = .nums a ∧ 2 * η ≤ |a [d, (l : Nat)] - mu l|
  have hA : ∀ j, h.prob (freeMats m) T (A j) ≤ ENNReal.ofReal (max C 0 / (2 * η) ^ 2 / S) := by
    have hle : C / (S * (2 * η) ^ 2) ≤ max C 0 / (2 * η) ^ 2 / S := by
      rw [div_div, mul_comm]
      gcongr
      exact le_max_left _ _
    intro j
    match j with
    | .inl l =>
      have := hC S cw bmin eps bmax ps fx hcw hps hS T hT s hs ⟨k.z, hMz⟩ (hin _ iz) ⟨n, hn⟩
        ⟨l, by have := l.2; simp only; omega⟩ (2 * η) (by positivity)
      refine le_trans (le_of_eq ?_) (this.trans (ENNReal.ofReal_le_ofReal hle))
      simp only [A, hmz]
    | .inr l =>
      have := hC S cw bmin eps bmax ps fx hcw hps hS T hT s hs ⟨k.u, hMu⟩ (hin _ iu) ⟨d, hd⟩
        ⟨l, by have := l.2; simp only; omega⟩ (2 * η) (by positivity)
      refine le_trans (le_of_eq ?_) (this.trans (ENNReal.ofReal_le_ofReal hle))
      simp only [A, hmu]
  refine (Spec.Hier.prob_mono (B := fun σ ω => ∃ j, A j σ ω) fun σ ω hω => ?_).trans
    ((Spec.Hier.prob_exists_le A).trans ((Finset.sum_le_sum fun j _ => hA j).trans (le_of_eq ?_)))
  · by_contra hno
    refine hω ?_
    obtain ⟨m', e1, e2⟩ := Spec.Hier.infer_mean H (Spec.Hier.withOrders_wired hw σ) (Spec.Hier.withOrders_fixed hm σ)
      (Spec.Hier.withOrders_perm wr σ) fe S cw bmin eps bmax ps fx hcw hps hS T hT ω s
    obtain ⟨a, a1, a2, -⟩ := e2 ⟨k.z, hMz⟩ (hin _ iz)
    obtain ⟨b, b1, b2, -⟩ := e2 ⟨k.u, hMu⟩ (hin _ iu)
    refine ⟨m', e1, fun argsort lr hlm hlf => ?_⟩
    obtain ⟨X, x1, x2, x3⟩ := factor_mean_two argsort lr k.model hlm hlf a1 b1 a2 (D := h.rows k.u)
      (by rw [b2]; simp only [hc])
    refine ⟨X, _, x1, x2, x3 n hn d hd, ?_⟩
    have hz : ∀ l : Fin L, |a [n, (l : Nat)] - mz l| < 2 * η := fun l => by
      by_contra hge
      exact hno ⟨.inl l, m', a, e1, a1, not_lt.1 hge⟩
    have hu : ∀ l : Fin L, |b [d, (l : Nat)] - mu l| < 2 * η := fun l => by
      by_contra hge
      exact hno ⟨.inr l, m', b, e1, b1, not_lt.1 hge⟩
    have hzp : ∀ l : Fin L, h.onProb free s0 k.z n l = (mz l + 1) * (1 / 2) := fun l => by
      rw [hmz]
      exact Spec.Hier.onProb_eq H free s0 ⟨k.z, hMz⟩ ⟨n, hn⟩ ⟨l, by have := l.2; simp only; omega⟩
    have hup : ∀ l : Fin L, h.onProb free s0 k.u d l = (mu l + 1) * (1 / 2) := fun l => by
      rw [hmu]
      exact Spec.Hier.onProb_eq H free s0 ⟨k.u, hMu⟩ ⟨d, hd⟩ ⟨l, by have := l.2; simp only; omega⟩
    have := hcont (Sum.elim (fun l : Fin L => (a [n, (l : Nat)] + 1) * (1 / 2)) (fun l : Fin L => (b [d, (l : Nat)] + 1) * (1 / 2))) (by
      rw [dist_pi_lt_iff hη]
      intro j
      rw [hp0, Real.dist_eq]
      match j with
      | .inl l =>
        simp only [Sum.elim_inl, hzp]
        rw [show (a [n, (l : Nat)] + 1) * (1 / 2) - (mz l + 1) * (1 / 2) = (a [n, (l : Nat)] - mz l) / 2 by ring, abs_div,
          abs_of_pos (two_pos (α := ℝ))]
        linarith [hz l]
      | .inr l =>
        simp only [Sum.elim_inr, hup]
        rw [show (b [d, (l : Nat)] + 1) * (1 / 2) - (mu l + 1) * (1 / 2) = (b [d, (l : Nat)] - mu l) / 2 by ring, abs_div,
          abs_of_pos (two_pos (α := ℝ))]
        linarith [hu l])
    rw [Real.dist_eq, hp0] at this
    subst hL
    exact this
  · rw [Finset.sum_const, Finset.card_univ, Fintype.card_sum, Fintype.card_fin, nsmul_eq_mul,
      ← ENNReal.ofReal_natCast, ← ENNReal.ofReal_mul (by positivity)]
    congr 1
    ring

/-- **C137**: if the inner operator is XOR or NXOR and the conditions of C136 hold, that limit is the same for all cells and all
data -/
theorem C137_inner_xor {h : Hier} (H : h.Legal) (free : h.Site → Prop) (s0 : h.State) {k : HLayer} (hk : k ∈ h.layers)
    (hkv : k.v = none) (hm : InnerXor k.model) (htop : ∀ i ∈ k.factors, h.parentsOf i = [])
    (hprior : ∀ i ∈ k.factors, h.prior i = 1 / 2) (hfree : ∀ q : h.Site, (q.1 : Nat) ∈ k.factors → free q)
    {n d : Nat} (hn : n < h.rows k.z) (hd : d < h.rows k.u) :
    (lomProb k.model.outer k.model.inner fun l : Fin (h.cols k.z) => ![h.onProb free s0 k.z n l, h.onProb free s0 k.u d l]) =
      lomProb k.model.outer k.model.inner fun _ : Fin (h.cols k.z) => ![1 / 2, 1 / 2] := by
  have iz : k.z ∈ k.factors := by simp [HLayer.factors]
  have iu : k.u ∈ k.factors := by simp [HLayer.factors]
  have hc : h.cols k.u = h.cols k.z := Spec.Hier.cols_factor H hk iu
  congr 1
  funext l
  have e1 := Spec.Hier.onProb_eq H free s0 ⟨k.z, H.latent k hk _ iz⟩ ⟨n, hn⟩ ⟨l, l.2⟩
  have e2 := Spec.Hier.onProb_eq H free s0 ⟨k.u, H.latent k hk _ iu⟩ ⟨d, hd⟩ ⟨l, by have := l.2; simp only; omega⟩
  rw [C136_mean_zero H free s0 hk hkv hm htop hprior hfree _ iz] at e1
  rw [C136_mean_zero H free s0 hk hkv hm htop hprior hfree _ iu] at e2
  simp only at e1 e2
  rw [e1, e2]
  norm_num

namespace Spec.Hier

/-- the state with all entries of the first factor turned over -/
def flipFirst {h : Hier} (s : h.State) : h.State := fun i e => if (i : Nat) = 0 then !s i e else s i e

theorem flipFirst_flipFirst {h : Hier} (s : h.State) : flipFirst (flipFirst s) = s := by
  funext i e
  unfold flipFirst
  split <;> simp

end Spec.Hier

/-- one observed cell with value 1 -/
noncomputable def oneCell : Hier := plainHier .OR_XOR 1 1 1 (Arr.full [1, 1] 1) 1

theorem oneCell_legal : oneCell.Legal :=
  plainHier_legal _ _ _ (by norm_num) (by norm_num) rfl fun idx _ => .inl rfl

/-- whether the two entries differ -/
def oneCellOn (s : oneCell.State) : Prop := ¬ (oneCell.val s 0 0 0 = 1 ↔ oneCell.val s 1 0 0 = 1)

theorem oneCell_pred (s : oneCell.State) : pred2 .OR_XOR 1 (oneCell.val s 0 0) (oneCell.val s 1 0) = pm (oneCellOn s) := by
  unfold pred2
  apply pm_congr
  have e : ∀ x y : Int, (fun k : Fin 2 => ![x, y] k = 1) = fun k : Fin 2 => ![x = 1, y = 1] k := by
    intro x y
    funext k
    fin_cases k <;> rfl
  unfold lom oneCellOn
  simp only [e]
  constructor
  · rintro ⟨l, hl⟩
    have : l = 0 := Subsingleton.elim _ _
    subst this
    exact (inner_two _ _).2.2.1.1 hl
  · exact fun hl => ⟨0, (inner_two _ _).2.2.1.2 hl⟩

theorem oneCellOn_flip (s : oneCell.State) : oneCellOn (Spec.Hier.flipFirst s) ↔ ¬ oneCellOn s := by
  have h0 : (0 : Nat) < oneCell.rows 0 ∧ (0 : Nat) < oneCell.cols 0 := by simp [oneCell, plainHier]
  have h1 : (0 : Nat) < oneCell.rows 1 ∧ (0 : Nat) < oneCell.cols 1 := by simp [oneCell, plainHier]
  have m0 : 0 < oneCell.M := by simp [oneCell, plainHier]
  have m1 : 1 < oneCell.M := by simp [oneCell, plainHier]
  have e1 : oneCell.val (Spec.Hier.flipFirst s) 0 0 0 = 1 ↔ ¬ oneCell.val s 0 0 0 = 1 := by
    unfold Spec.Hier.val
    rw [dif_pos m0, dif_pos m0]
    unfold Cfg.fac
    rw [dif_pos h0, dif_pos h0]
    unfold Spec.Hier.flipFirst
    rw [if_pos rfl]
    generalize s _ _ = b
    cases b <;> simp [sgn]
  have e2 : oneCell.val (Spec.Hier.flipFirst s) 1 0 0 = oneCell.val s 1 0 0 := by
    unfold Spec.Hier.val
    rw [dif_pos m1, dif_pos m1]
    unfold Cfg.fac
    rw [dif_pos h1, dif_pos h1]
    unfold Spec.Hier.flipFirst
    rw [if_neg (by simp)]
  unfold oneCellOn
  rw [e1, e2]
  tauto

theorem oneCell_joint (s : oneCell.State) : oneCell.joint s = sigmoid (pm (oneCellOn s)) * (1 / 4) := by
  have hv : oneCell.val s 2 = fun _ _ => 1 := by
    unfold Spec.Hier.val
    rw [dif_neg (by simp [oneCell, plainHier])]
    rfl
  have hl : oneCell.layerLik s ⟨.OR_XOR, 0, 1, 2, 1, none⟩ = sigmoid (pm (oneCellOn s)) := by
    show lik2 .OR_XOR 1 1 1 1 (oneCell.val s 2) (oneCell.val s 0) (oneCell.val s 1) = _
    rw [hv]
    unfold lik2
    rw [Fin.prod_univ_one, Fin.prod_univ_one]
    show cellLik 1 1 (pred2 .OR_XOR 1 (oneCell.val s 0 0) (oneCell.val s 1 0)) = _
    rw [oneCell_pred, cellLik, if_neg (by norm_num)]
    norm_num
  have hp : ∏ i : Fin oneCell.M, priorProb (oneCell.prior i) (oneCell.rows i) (oneCell.cols i) (Cfg.fac (s i)) = 1 / 4 := by
    have hq : ∀ i : Fin oneCell.M, priorProb (oneCell.prior i) (oneCell.rows i) (oneCell.cols i) (Cfg.fac (s i)) =
        (fun j : Nat => (1 / 2 : ℝ) ^ (oneCell.rows j * oneCell.cols j)) i := fun i => Spec.Hier.priorProb_half _ _ _
    rw [Finset.prod_congr rfl fun i _ => hq i,
      Fin.prod_univ_eq_prod_range (fun j : Nat => (1 / 2 : ℝ) ^ (oneCell.rows j * oneCell.cols j)) oneCell.M]
    show ∏ i ∈ Finset.range 2, _ = _
    rw [Finset.prod_range_succ, Finset.prod_range_one]
    simp [oneCell, plainHier]
    norm_num
  unfold Spec.Hier.joint
  rw [hp]
  show ([oneCell.layerLik s ⟨.OR_XOR, 0, 1, 2, 1, none⟩] : List ℝ).prod * _ = _
  rw [List.prod_singleton, hl]

/-- **C137** fails: with a single cell, OR-XOR and one latent dimension the limit is one half, the posterior probability of a
one is larger. -/
theorem C137_wrong (s0 : oneCell.State) :
    (lomProb .OR .XOR fun l : Fin 1 => ![oneCell.onProb (fun _ => True) s0 0 0 l, oneCell.onProb (fun _ => True) s0 1 0 l]) = 1 / 2 ∧
    1 / 2 < oneCell.predictive (fun _ => True) s0 ⟨.OR_XOR, 0, 1, 2, 1, none⟩ 0 0 := by
  classical
  have hk : (⟨.OR_XOR, 0, 1, 2, 1, none⟩ : HLayer) ∈ oneCell.layers := by simp [oneCell, plainHier]
  constructor
  · have := C137_inner_xor oneCell_legal (fun _ => True) s0 hk rfl (.inl rfl) (by
        intro i hi
        simp only [HLayer.factors, Option.toList, List.mem_cons, List.not_mem_nil, or_false] at hi
        rcases hi with rfl | rfl <;> simp [Spec.Hier.parentsOf, oneCell, plainHier]) (fun i _ => rfl) (fun _ _ => trivial)
      (n := 0) (d := 0) (by simp [oneCell, plainHier]) (by simp [oneCell, plainHier])
    refine this.trans ?_
    rw [lomProb_eq]
    show bernProb _ (LOp.Holds .OR) = _
    rw [bernProb_OR]
    show 1 - ∏ _l : Fin 1, (1 - bernProb (![1 / 2, 1 / 2] : Fin 2 → ℝ) (LOp.Holds .XOR)) = 1 / 2
    rw [bernProb_XOR_fin, Fin.prod_univ_one, Fin.sum_univ_two]
    have u0 : (Finset.univ.erase (0 : Fin 2)) = {1} := by decide
    have u1 : (Finset.univ.erase (1 : Fin 2)) = {0} := by decide
    rw [u0, u1, Finset.prod_singleton, Finset.prod_singleton]
    norm_num
  · obtain ⟨K, hK⟩ : ∃ K : ℝ, K = ∑ x : oneCell.State, if oneCellOn x then (1 : ℝ) else 0 := ⟨_, rfl⟩
    have hK' : K = ∑ x : oneCell.State, if oneCellOn x then (0 : ℝ) else 1 := by
      rw [hK]
      refine Fintype.sum_equiv ⟨Spec.Hier.flipFirst, Spec.Hier.flipFirst, Spec.Hier.flipFirst_flipFirst,
        Spec.Hier.flipFirst_flipFirst⟩ _ _ fun x => ?_
      simp only [Equiv.coe_fn_mk, oneCellOn_flip]
      by_cases hx : oneCellOn x <;> simp [hx]
    have hpos : 0 < K := by
      by_contra hle
      have h0 : ∀ x, ¬ oneCellOn x := by
        intro x hx
        have : (if oneCellOn x then (1 : ℝ) else 0) ≤ K := by
          rw [hK]
          exact Finset.single_le_sum (f := fun x => if oneCellOn x then (1 : ℝ) else 0)
            (fun y _ => by split <;> norm_num) (Finset.mem_univ x)
        rw [if_pos hx] at this
        linarith
      exact h0 _ ((oneCellOn_flip s0).2 (h0 s0))
    have hj : ∀ x, oneCell.joint x = (if oneCellOn x then (1 : ℝ) else 0) * (sigmoid 1 / 4) +
        (if oneCellOn x then (0 : ℝ) else 1) * ((1 - sigmoid 1) / 4) := by
      intro x
      rw [oneCell_joint]
      by_cases hx : oneCellOn x
      · simp [pm, hx]; ring
      · simp [pm, hx, sigmoid_neg]; ring
    have hZ : ∑ x, oneCell.joint x = K / 4 := by
      simp only [hj]
      rw [Finset.sum_add_distrib, ← Finset.sum_mul, ← Finset.sum_mul, ← hK, ← hK']
      ring
    have hag : ∀ x, oneCell.Agree (fun _ => True) x s0 := fun x q hq => absurd trivial hq
    have e : ∀ x, oneCell.posteriorGiven (fun _ => True) s0 x = oneCell.joint x / (K / 4) := by
      intro x
      unfold Spec.Hier.posteriorGiven
      rw [if_pos (hag x), ← hZ]
      congr 1
      exact Finset.sum_congr (by ext y; simp [hag y]) fun _ _ => rfl
    have hpr : oneCell.predictive (fun _ => True) s0 ⟨.OR_XOR, 0, 1, 2, 1, none⟩ 0 0 = sigmoid 1 := by
      unfold Spec.Hier.predictive
      have : ∀ x : oneCell.State, (oneCell.posteriorGiven (fun _ => True) s0 x *
          if pred2 .OR_XOR (oneCell.cols 0) (oneCell.val x 0 0) (oneCell.val x 1 0) = 1 then (1 : ℝ) else 0) =
          (if oneCellOn x then (1 : ℝ) else 0) * (sigmoid 1 / K) := by
        intro x
        have hp : pred2 .OR_XOR (oneCell.cols 0) (oneCell.val x 0 0) (oneCell.val x 1 0) = pm (oneCellOn x) := oneCell_pred x
        rw [hp, e, hj]
        by_cases hx : oneCellOn x
        · simp [pm, hx]; field_simp
        · simp [pm, hx]
      rw [Finset.sum_congr rfl fun x _ => this x, ← Finset.sum_mul, ← hK]
      field_simp
    rw [hpr, ← sigmoid_zero]
    exact sigmoid_strictMono one_pos


/-- the hierarchy of `C137_wrong` meets the conditions of `C137_limit_partial` -/
theorem C137_hypotheses_met (s0 : oneCell.State) : oneCell.Legal ∧ oneCell.Linking (fun _ => True) s0 ∧
    (⟨.OR_XOR, 0, 1, 2, 1, none⟩ : HLayer) ∈ oneCell.layers ∧ 0 < oneCell.rows 0 ∧ 0 < oneCell.rows 1 ∧
    ∃ wr : Wiring, oneCell.Wired wr ∧ ∃ mach : Mach Sampler LbdaUpdate, oneCell.FixedLbdas wr mach ∧
      (∀ q, oneCell.Sampled mach (fun _ => Arr.full [] 0) q) ∧
      ∀ i ∈ (⟨.OR_XOR, 0, 1, 2, 1, none⟩ : HLayer).factors, i ∈ freeMats mach := by
  have H := oneCell_legal
  obtain ⟨w1, w2, w3⟩ := C79_odd_hypotheses_met.2.2.2.2.2.2 _ H (fun _ l => l) s0
  have hodd : ∀ n < 1, Odd (Finset.univ.filter fun _ : Fin 1 => (1 : Int) ≠ 0).card := fun n _ => by decide
  refine ⟨H, ?_, by simp [oneCell, plainHier], by simp [oneCell, plainHier], by simp [oneCell, plainHier], _, w1, _, w2, w3, ?_⟩
  · have conv := C79_odd_partial H (k := ⟨.OR_XOR, 0, 1, 2, 1, none⟩) rfl rfl (fun i _ => rfl) (by norm_num)
      (by simp [oneCell, plainHier]) (by simp) hodd hodd w1 w2 _ w3 s0
    exact Spec.Hier.linking_of_mixing ((C79_mixing_iff H _ s0 w1 w2 _ (fun q => iff_of_true trivial (w3 q))).2 conv)
  · intro i hi
    rw [Spec.Hier.mem_freeMats_machOf H]
    exact H.latent _ (by simp [oneCell, plainHier]) i hi

end LFM

import Verif.Props.Axes

/-!
# C19: a sweep preserves the posterior
-/

namespace LFM

open Spec MeasureTheory

/-- helper: a sweep whose score is half the change of `agr` preserves `lik * prior` -/
theorem sweep_posterior {n L : Nat} {q lbda : ℝ} (h0 : 0 < q) (h1 : q < 1) {agr : Factor → Int}
    {lik : Factor → ℝ} (hpos : ∀ F, 0 < lik F)
    (hlog : ∀ F F', Real.log (lik F) - Real.log (lik F') = lbda * ((agr F - agr F' : Int) : ℝ) / 2)
    {S : Arr Int → Nat → Nat → Int} (hS : IsHalfChange n L agr S) (Zf : Arr Int) (c' : Cfg n L) :
    ∑ c : Cfg n L, ENNReal.ofReal (lik c.fac * priorProb q n L c.fac) * uniformDraws n L
        {u | Holds (sweep (fun Z i => lbda * S Z (i0 i) (i1 i) + logit q) Zf (rndOf u) (tasks2 n L)
          c.arr) c'} =
      ENNReal.ofReal (lik c'.fac * priorProb q n L c'.fac) := by
  refine sweep_law _ Zf (fun c => lik c.fac * priorProb q n L c.fac)
    (fun c => mul_pos (hpos _) (priorProb_pos h0 h1 _ _ _)) (fun c t _ => ?_) c'
  rw [Cfg.fac_update, Cfg.fac_update,
    Real.log_mul (hpos _).ne' (priorProb_pos h0 h1 _ _ _).ne',
    Real.log_mul (hpos _).ne' (priorProb_pos h0 h1 _ _ _).ne']
  have hs : 2 * S c.arr t.1 t.2 = agr (c.fac.set t.1 t.2 1) - agr (c.fac.set t.1 t.2 (-1)) :=
    hS c.arr rfl (Cfg.arr_pm c) t.1 t.2 t.1.2 t.2.2
  have hl := hlog (c.fac.set t.1 t.2 1) (c.fac.set t.1 t.2 (-1))
  rw [← hs] at hl
  have hp := log_priorProb_set h0 h1 n L c.fac t.1.2 t.2.2
  show lbda * (S c.arr t.1 t.2 : ℝ) + logit q = _
  simp only [sgn, if_true, Bool.false_eq_true, if_false]
  rw [logit, ← hp]
  push_cast at hl
  linarith

/-- helper: the event of `transition` in terms of the sweep -/
theorem transition_eq {n L : Nat} {step : Arr Int → Rnd → Except Err (Arr Int)} {c c' : Cfg n L}
    {f : Rnd → Arr Int} (h : ∀ rnd, step c.arr rnd = .ok (f rnd)) :
    transition step c c' = uniformDraws n L {u | Holds (f (rndOf u)) c'} := by
  unfold transition
  congr 1
  ext u
  simp [h]

/-- all ones -/
private def ones {N L : Nat} : Cfg N L := fun _ => true

/-- **C19**, two factors (`_partial`: both axes at most 32767 long because scores are int16, see
`C14_int16_overflow`). For a layer with any of the eight models, any data with missing cells, any
lambda, priors in (0, 1) and any pattern of fixed entries: if the pair of factor matrices is distributed
according to the posterior (likelihood times priors), then it still is after the sampling function of
either factor has been called, and hence after a round of both calls. Weights need not be normalised. -/
theorem C19_posterior_invariant_2d_partial (m : Lom8) {N D L : Nat} (hN : N ≤ 32767) (hD : D ≤ 32767) :
    ∃ s : Nat → ℝ → Sampler, ∀ (A B : Member) (X : Arr Int) (lbda : ℝ),
      A.child_axis = 0 → B.child_axis = 1 → X.shape = [N, D] → DataArr X →
      0 < A.bernoulli_prior → A.bernoulli_prior < 1 → 0 < B.bernoulli_prior → B.bernoulli_prior < 1 →
      let layer : Cfg N L → Cfg D L → List Member := fun a b =>
        [{ A with val := a.arr }, { B with val := b.arr }]
      (∀ a b, get_sampling_fct none (some m.name) (layer a b) A.child_axis 0 A.bernoulli_prior [] =
        .ok (s 0 A.bernoulli_prior)) ∧
      (∀ a b, get_sampling_fct none (some m.name) (layer a b) B.child_axis 1 B.bernoulli_prior [] =
        .ok (s 1 B.bernoulli_prior)) ∧
      let W : Cfg N L → Cfg D L → ENNReal := fun a b => ENNReal.ofReal
        (lik2 m N D L lbda (fun n d => X [n, d]) a.fac b.fac * priorProb A.bernoulli_prior N L a.fac *
          priorProb B.bernoulli_prior D L b.fac)
      let stepA : Cfg D L → Cfg N L → Cfg N L → ENNReal := fun b => transition fun Z rnd =>
        (s 0 A.bernoulli_prior).run { A with val := Z } [{ A with val := Z }, { B with val := b.arr }] 0
          X lbda [] rnd
      let stepB : Cfg N L → Cfg D L → Cfg D L → ENNReal := fun a => transition fun Z rnd =>
        (s 1 B.bernoulli_prior).run { B with val := Z } [{ A with val := a.arr }, { B with val := Z }] 1
          X lbda [] rnd
      (∀ b a', ∑ a, W a b * stepA b a a' = W a' b) ∧ (∀ a b', ∑ b, W a b * stepB a b b' = W a b') ∧
      (∀ a' b', ∑ a, ∑ b, W a b * stepA b a a' * stepB a' b b' = W a' b') := by
  obtain ⟨SA, SB, s, h⟩ := C22_axes_2d_partial m (L := L) hN hD
  refine ⟨s, fun A B X lbda axA axB hX pX hA0 hA1 hB0 hB1 => ?_⟩
  intro layer
  have hdata : ∀ n d, n < N → d < D → IsData (X [n, d]) := fun n d hn hd =>
    pX [n, d] (by rw [hX]; exact ⟨hn, hd, trivial⟩)
  have h' := fun (a : Cfg N L) (b : Cfg D L) => h { A with val := a.arr } { B with val := b.arr } X lbda
    ⟨rfl, rfl, hX, Cfg.arr_pm a, Cfg.arr_pm b, pX, axA, axB⟩
  refine ⟨fun a b => (h' a b).1, fun a b => (h' a b).2.1, ?_⟩
  intro W stepA stepB
  have claimA : ∀ b a', ∑ a, W a b * stepA b a a' = W a' b := by
    intro b a'
    have := sweep_posterior hA0 hA1 (lbda := lbda)
      (lik := fun F => lik2 m N D L lbda (fun n d => X [n, d]) F b.fac *
        priorProb B.bernoulli_prior D L b.fac)
      (fun F => mul_pos (lik2_pos _ _ _ _ _ _ _ _) (priorProb_pos hB0 hB1 _ _ _)) (fun F F' => by
        rw [Real.log_mul (lik2_pos _ _ _ _ _ _ _ _).ne' (priorProb_pos hB0 hB1 _ _ _).ne',
          Real.log_mul (lik2_pos _ _ _ _ _ _ _ _).ne' (priorProb_pos hB0 hB1 _ _ _).ne',
          add_sub_add_right_eq_sub]
        exact log_lik2_sub m N D L lbda (fun n d => X [n, d]) F b.fac F' b.fac hdata)
      (h' ones b).2.2.2.2.1 A.fixed_entries a'
    simp only [mul_right_comm _ (priorProb B.bernoulli_prior D L b.fac)] at this
    refine Eq.trans (Finset.sum_congr rfl fun a _ => ?_) this
    congr 1
    show transition _ _ _ = _
    refine transition_eq (f := fun rnd => sweep _ _ rnd _ _) fun rnd => ?_
    exact (h' a b).2.2.1 rnd
  have claimB : ∀ a b', ∑ b, W a b * stepB a b b' = W a b' := by
    intro a b'
    have := sweep_posterior hB0 hB1 (lbda := lbda)
      (lik := fun G => lik2 m N D L lbda (fun n d => X [n, d]) a.fac G *
        priorProb A.bernoulli_prior N L a.fac)
      (fun F => mul_pos (lik2_pos _ _ _ _ _ _ _ _) (priorProb_pos hA0 hA1 _ _ _)) (fun G G' => by
        rw [Real.log_mul (lik2_pos _ _ _ _ _ _ _ _).ne' (priorProb_pos hA0 hA1 _ _ _).ne',
          Real.log_mul (lik2_pos _ _ _ _ _ _ _ _).ne' (priorProb_pos hA0 hA1 _ _ _).ne',
          add_sub_add_right_eq_sub]
        exact log_lik2_sub m N D L lbda (fun n d => X [n, d]) a.fac G a.fac G' hdata)
      (h' a ones).2.2.2.2.2 B.fixed_entries b'
    refine Eq.trans (Finset.sum_congr rfl fun b _ => ?_) this
    congr 1
    show transition _ _ _ = _
    refine transition_eq (f := fun rnd => sweep _ _ rnd _ _) fun rnd => ?_
    exact (h' a b).2.2.2.1 rnd
  refine ⟨claimA, claimB, fun a' b' => ?_⟩
  rw [Finset.sum_comm, ← claimB a' b']
  refine Finset.sum_congr rfl fun b _ => ?_
  rw [← Finset.sum_mul, claimA]

/-- **C19**, three factors. -/
theorem C19_posterior_invariant_3d (m : Lom8) {N D M L : Nat} (h1 : D * M < 2 ^ 63)
    (h2 : N * M < 2 ^ 63) (h3 : N * D < 2 ^ 63) :
    ∃ s : Nat → ℝ → Sampler, ∀ (A B C : Member) (X : Arr Int) (lbda : ℝ),
      A.child_axis = 0 → B.child_axis = 1 → C.child_axis = 2 → X.shape = [N, D, M] → DataArr X →
      0 < A.bernoulli_prior → A.bernoulli_prior < 1 → 0 < B.bernoulli_prior → B.bernoulli_prior < 1 →
      0 < C.bernoulli_prior → C.bernoulli_prior < 1 →
      let layer : Cfg N L → Cfg D L → Cfg M L → List Member := fun a b c =>
        [{ A with val := a.arr }, { B with val := b.arr }, { C with val := c.arr }]
      (∀ a b c, get_sampling_fct none (some m.name) (layer a b c) A.child_axis 0 A.bernoulli_prior [] =
        .ok (s 0 A.bernoulli_prior)) ∧
      (∀ a b c, get_sampling_fct none (some m.name) (layer a b c) B.child_axis 1 B.bernoulli_prior [] =
        .ok (s 1 B.bernoulli_prior)) ∧
      (∀ a b c, get_sampling_fct none (some m.name) (layer a b c) C.child_axis 2 C.bernoulli_prior [] =
        .ok (s 2 C.bernoulli_prior)) ∧
      let W : Cfg N L → Cfg D L → Cfg M L → ENNReal := fun a b c => ENNReal.ofReal
        (lik3 m N D M L lbda (fun n d k => X [n, d, k]) a.fac b.fac c.fac *
          priorProb A.bernoulli_prior N L a.fac * priorProb B.bernoulli_prior D L b.fac *
          priorProb C.bernoulli_prior M L c.fac)
      let stepA : Cfg D L → Cfg M L → Cfg N L → Cfg N L → ENNReal := fun b c => transition fun Z rnd =>
        (s 0 A.bernoulli_prior).run { A with val := Z }
          [{ A with val := Z }, { B with val := b.arr }, { C with val := c.arr }] 0 X lbda [] rnd
      let stepB : Cfg N L → Cfg M L → Cfg D L → Cfg D L → ENNReal := fun a c => transition fun Z rnd =>
        (s 1 B.bernoulli_prior).run { B with val := Z }
          [{ A with val := a.arr }, { B with val := Z }, { C with val := c.arr }] 1 X lbda [] rnd
      let stepC : Cfg N L → Cfg D L → Cfg M L → Cfg M L → ENNReal := fun a b => transition fun Z rnd =>
        (s 2 C.bernoulli_prior).run { C with val := Z }
          [{ A with val := a.arr }, { B with val := b.arr }, { C with val := Z }] 2 X lbda [] rnd
      (∀ b c a', ∑ a, W a b c * stepA b c a a' = W a' b c) ∧
      (∀ a c b', ∑ b, W a b c * stepB a c b b' = W a b' c) ∧
      (∀ a b c', ∑ c, W a b c * stepC a b c c' = W a b c') ∧
      (∀ a' b' c', ∑ a, ∑ b, ∑ c, W a b c * stepA b c a a' * stepB a' c b b' * stepC a' b' c c' =
        W a' b' c') := by
  obtain ⟨SA, SB, SC, s, h⟩ := C22_axes_3d m (L := L) h1 h2 h3
  refine ⟨s, fun A B C X lbda axA axB axC hX pX hA0 hA1 hB0 hB1 hC0 hC1 => ?_⟩
  intro layer
  have hdata : ∀ n d k, n < N → d < D → k < M → IsData (X [n, d, k]) := fun n d k hn hd hk =>
    pX [n, d, k] (by rw [hX]; exact ⟨hn, hd, hk, trivial⟩)
  have h' := fun (a : Cfg N L) (b : Cfg D L) (c : Cfg M L) =>
    h { A with val := a.arr } { B with val := b.arr } { C with val := c.arr } X lbda
    ⟨rfl, rfl, rfl, hX, Cfg.arr_pm a, Cfg.arr_pm b, Cfg.arr_pm c, pX, axA, axB, axC⟩
  refine ⟨fun a b c => (h' a b c).1, fun a b c => (h' a b c).2.1, fun a b c => (h' a b c).2.2.1, ?_⟩
  intro W stepA stepB stepC
  have pA := fun F => priorProb_pos hA0 hA1 N L F
  have pB := fun F => priorProb_pos hB0 hB1 D L F
  have pC := fun F => priorProb_pos hC0 hC1 M L F
  have lp := fun F G H => lik3_pos m N D M L lbda (fun n d k => X [n, d, k]) F G H
  have claimA : ∀ b c a', ∑ a, W a b c * stepA b c a a' = W a' b c := by
    intro b c a'
    have := sweep_posterior hA0 hA1 (lbda := lbda)
      (lik := fun F => lik3 m N D M L lbda (fun n d k => X [n, d, k]) F b.fac c.fac *
        (priorProb B.bernoulli_prior D L b.fac * priorProb C.bernoulli_prior M L c.fac))
      (fun F => mul_pos (lp _ _ _) (mul_pos (pB _) (pC _))) (fun F F' => by
        rw [Real.log_mul (lp _ _ _).ne' (mul_pos (pB _) (pC _)).ne',
          Real.log_mul (lp _ _ _).ne' (mul_pos (pB _) (pC _)).ne', add_sub_add_right_eq_sub]
        exact log_lik3_sub m N D M L lbda (fun n d k => X [n, d, k]) F b.fac c.fac F' b.fac c.fac hdata)
      (h' ones b c).2.2.2.2.2.2.1 A.fixed_entries a'
    have hW : ∀ a, W a b c = ENNReal.ofReal (lik3 m N D M L lbda (fun n d k => X [n, d, k]) a.fac b.fac
        c.fac * (priorProb B.bernoulli_prior D L b.fac * priorProb C.bernoulli_prior M L c.fac) *
        priorProb A.bernoulli_prior N L a.fac) := by
      intro a; show ENNReal.ofReal _ = _; congr 1; ring
    rw [hW, ← this]
    refine Finset.sum_congr rfl fun a _ => ?_
    rw [hW]
    congr 1
    show transition _ _ _ = _
    refine transition_eq (f := fun rnd => sweep _ _ rnd _ _) fun rnd => ?_
    exact (h' a b c).2.2.2.1 rnd
  have claimB : ∀ a c b', ∑ b, W a b c * stepB a c b b' = W a b' c := by
    intro a c b'
    have := sweep_posterior hB0 hB1 (lbda := lbda)
      (lik := fun G => lik3 m N D M L lbda (fun n d k => X [n, d, k]) a.fac G c.fac *
        (priorProb A.bernoulli_prior N L a.fac * priorProb C.bernoulli_prior M L c.fac))
      (fun F => mul_pos (lp _ _ _) (mul_pos (pA _) (pC _))) (fun F F' => by
        rw [Real.log_mul (lp _ _ _).ne' (mul_pos (pA _) (pC _)).ne',
          Real.log_mul (lp _ _ _).ne' (mul_pos (pA _) (pC _)).ne', add_sub_add_right_eq_sub]
        exact log_lik3_sub m N D M L lbda (fun n d k => X [n, d, k]) a.fac F c.fac a.fac F' c.fac hdata)
      (h' a ones c).2.2.2.2.2.2.2.1 B.fixed_entries b'
    have hW : ∀ b, W a b c = ENNReal.ofReal (lik3 m N D M L lbda (fun n d k => X [n, d, k]) a.fac b.fac
        c.fac * (priorProb A.bernoulli_prior N L a.fac * priorProb C.bernoulli_prior M L c.fac) *
        priorProb B.bernoulli_prior D L b.fac) := by
      intro b; show ENNReal.ofReal _ = _; congr 1; ring
    rw [hW, ← this]
    refine Finset.sum_congr rfl fun b _ => ?_
    rw [hW]
    congr 1
    show transition _ _ _ = _
    refine transition_eq (f := fun rnd => sweep _ _ rnd _ _) fun rnd => ?_
    exact (h' a b c).2.2.2.2.1 rnd
  have claimC : ∀ a b c', ∑ c, W a b c * stepC a b c c' = W a b c' := by
    intro a b c'
    have := sweep_posterior hC0 hC1 (lbda := lbda)
      (lik := fun H => lik3 m N D M L lbda (fun n d k => X [n, d, k]) a.fac b.fac H *
        (priorProb A.bernoulli_prior N L a.fac * priorProb B.bernoulli_prior D L b.fac))
      (fun F => mul_pos (lp _ _ _) (mul_pos (pA _) (pB _))) (fun F F' => by
        rw [Real.log_mul (lp _ _ _).ne' (mul_pos (pA _) (pB _)).ne',
          Real.log_mul (lp _ _ _).ne' (mul_pos (pA _) (pB _)).ne', add_sub_add_right_eq_sub]
        exact log_lik3_sub m N D M L lbda (fun n d k => X [n, d, k]) a.fac b.fac F a.fac b.fac F' hdata)
      (h' a b ones).2.2.2.2.2.2.2.2 C.fixed_entries c'
    have hW : ∀ c, W a b c = ENNReal.ofReal (lik3 m N D M L lbda (fun n d k => X [n, d, k]) a.fac b.fac
        c.fac * (priorProb A.bernoulli_prior N L a.fac * priorProb B.bernoulli_prior D L b.fac) *
        priorProb C.bernoulli_prior M L c.fac) := by
      intro c; show ENNReal.ofReal _ = _; congr 1; ring
    rw [hW, ← this]
    refine Finset.sum_congr rfl fun c _ => ?_
    rw [hW]
    congr 1
    show transition _ _ _ = _
    refine transition_eq (f := fun rnd => sweep _ _ rnd _ _) fun rnd => ?_
    exact (h' a b c).2.2.2.2.2.1 rnd
  refine ⟨claimA, claimB, claimC, fun a' b' c' => ?_⟩
  rw [← claimC a' b' c']
  calc ∑ a, ∑ b, ∑ c, W a b c * stepA b c a a' * stepB a' c b b' * stepC a' b' c c'
      = ∑ b, ∑ c, ∑ a, W a b c * stepA b c a a' * stepB a' c b b' * stepC a' b' c c' := by
        rw [Finset.sum_comm]
        exact Finset.sum_congr rfl fun b _ => Finset.sum_comm
    _ = ∑ b, ∑ c, W a' b c * stepB a' c b b' * stepC a' b' c c' := by
        refine Finset.sum_congr rfl fun b _ => Finset.sum_congr rfl fun c _ => ?_
        rw [← Finset.sum_mul, ← Finset.sum_mul, claimA]
    _ = ∑ c, W a' b' c * stepC a' b' c c' := by
        rw [Finset.sum_comm]
        refine Finset.sum_congr rfl fun c _ => ?_
        rw [← Finset.sum_mul, claimB]

/-- non-vacuity of C19: the example layer (2 × 3 data with a missing cell, one fixed entry) satisfies the
hypotheses -/
example : ∃ A B : Member, ∃ X : Arr Int, A.child_axis = 0 ∧ B.child_axis = 1 ∧ X.shape = [2, 3] ∧
    DataArr X ∧ 0 < A.bernoulli_prior ∧ A.bernoulli_prior < 1 ∧ 0 < B.bernoulli_prior ∧
    B.bernoulli_prior < 1 := by
  refine ⟨exA, exB, exX, rfl, rfl, rfl, fun i _ => ?_, ?_, ?_, ?_, ?_⟩
  · show IsData (if _ then _ else _); split <;> [skip; split] <;> simp [IsData]
  all_goals norm_num [exA, exB]

end LFM

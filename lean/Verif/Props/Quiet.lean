import Verif.Lemmas.Patterns
import Verif.Props.Averages

/-!
# C79, C80: with enough latent dimensions samples and averages converge for no data
-/

namespace LFM

open Spec

namespace Spec.Hier

variable {h : Hier}

theorem priorProb_half (N L : Nat) (F : Factor) : priorProb (1 / 2) N L F = (1 / 2) ^ (N * L) := by
  unfold priorProb
  have : ∀ (n : Fin N) (l : Fin L), (if F n l = 1 then (1 / 2 : ℝ) else 1 - 1 / 2) = 1 / 2 := by
    intro n l
    split <;> norm_num
  simp only [this, Finset.prod_const, Finset.card_univ, Fintype.card_fin]
  rw [← pow_mul, mul_comm]

theorem joint_eq_of_lik {k : HLayer} (hk : h.layers = [k]) (hprior : ∀ i < h.M, h.prior i = 1 / 2) {s s' : h.State}
    (e : h.layerLik s k = h.layerLik s' k) : h.joint s = h.joint s' := by
  unfold joint
  rw [hk]
  simp only [List.map_cons, List.map_nil, List.prod_cons, List.prod_nil, mul_one]
  rw [e]
  congr 1
  refine Finset.prod_congr rfl fun i _ => ?_
  rw [hprior i i.2, priorProb_half, priorProb_half]

/-- the rows of a matrix in the middle of a sweep -/
theorem midway_rows (R : Nat → Nat → Bool) {before : Finset (Fin h.M)} {i : Fin h.M} {e : Fin (h.rows i) × Fin (h.cols i)}
    (hb : i ∉ before) {x : h.State} (hx : x = midway (fun _ => True) before ⟨i, e⟩ (fun j f => R j f.2) ∨
      x = midway (fun _ => True) before ⟨i, e⟩ (opposite (fun _ => True) fun j f => R j f.2)) :
    (∀ j : Fin h.M, j ≠ i → ∃ t, ∀ d < h.rows j, Settled (h.cols j) (R j) t (Cfg.fac (x j) d)) ∧
    ∃ t, ∀ L, L = h.cols i → ∀ v : Bool, AtTurn L (R i) t e.2 (sgn v) (Cfg.fac (Function.update (x i) e v) e.1) := by
  classical
  constructor
  · intro j hj
    rcases midway_other _ before ⟨i, e⟩ x hx j hj with h1 | h1
    · refine ⟨false, fun d hd l hl => ?_⟩
      unfold Cfg.fac
      rw [dif_pos ⟨hd, hl⟩, h1]
      simp
    · refine ⟨true, fun d hd l hl => ?_⟩
      unfold Cfg.fac
      rw [dif_pos ⟨hd, hl⟩, h1]
      simp
  · have hown : ∃ t, ∀ l' (hl' : l' < h.cols i), l' ≠ e.2 → x i (e.1, ⟨l', hl'⟩) = ((R i l' ^^ t) ^^ decide (l' < e.2)) := by
      rcases hx with rfl | rfl
      · refine ⟨false, fun l' hl' hne => ?_⟩
        by_cases hlt : l' < e.2 <;> simp [midway, hb, hlt]
      · refine ⟨true, fun l' hl' hne => ?_⟩
        by_cases hlt : l' < e.2 <;> simp [midway, opposite, hb, hlt]
    obtain ⟨t, ht⟩ := hown
    refine ⟨t, fun L hL v => ⟨?_, fun l' hl' hne => ?_⟩⟩
    · unfold Cfg.fac
      rw [dif_pos ⟨e.1.2, e.2.2⟩]
      simp
    · unfold Cfg.fac
      rw [hL] at hl'
      rw [dif_pos ⟨e.1.2, hl'⟩, Function.update_of_ne, ht l' hl' hne]
      intro hc
      exact hne (congrArg (fun f => (f.2 : Nat)) hc)

/-- other rows are not changed -/
theorem fac_update_ne {N L : Nat} (c : Cfg N L) (e : Fin N × Fin L) (v w : Bool) {n : Nat} (hn : n ≠ e.1) :
    Cfg.fac (Function.update c e v) n = Cfg.fac (Function.update c e w) n := by
  funext l
  unfold Cfg.fac
  by_cases hh : n < N ∧ l < L
  · rw [dif_pos hh, dif_pos hh, Function.update_of_ne, Function.update_of_ne] <;>
    · intro hc
      exact hn (congrArg (fun f => (f.1 : Nat)) hc)
  · rw [dif_neg hh, dif_neg hh]

theorem single_child_ge (H : h.Legal) {k : HLayer} (hk : h.layers = [k]) : h.M ≤ k.child := by
  by_contra hc
  obtain ⟨k', hk', hm⟩ := H.owner k.child (by omega)
  rw [hk, List.mem_singleton] at hk'
  subst hk'
  exact H.child k' (by rw [hk]; simp) hm

/-- the number of latent dimensions from which on nothing need matter -/
def quietFrom (k : HLayer) : Nat := if k.v = none then quietFrom2 k.model else quietFrom3 k.model

/-- with enough latent dimensions there is a state in which nothing matters, whatever the data -/
theorem quiet_state (H : h.Legal) {k : HLayer} (hk : h.layers = [k]) (hprior : ∀ i < h.M, h.prior i = 1 / 2)
    (hL : quietFrom k ≤ h.cols k.z) : ∃ s : h.State, ∀ q, ¬ Matters (fun _ => True) s q := by
  have hmem : k ∈ h.layers := by rw [hk]; simp
  have hch := single_child_ge H hk
  have hnd := H.nodup
  rw [hk] at hnd
  have hzM := H.latent k hmem k.z (mem_z k)
  have huM := H.latent k hmem k.u (mem_u k)
  match hv : k.v with
  | none =>
    simp only [quietFrom, hv, if_true] at hL
    obtain ⟨a, b, hq⟩ := quiet2_exists k.model
    obtain ⟨e1, e2, e3⟩ := H.sizes2 k hmem hv
    have hzu : k.z ≠ k.u := by
      simp only [List.flatMap_cons, List.flatMap_nil, List.append_nil, HLayer.factors, List.nodup_cons, List.mem_cons, not_or] at hnd
      exact hnd.1.1
    obtain ⟨R, hR⟩ : ∃ R : Nat → Nat → Bool, R = fun i => if i = k.z then a else b := ⟨_, rfl⟩
    have hRz : R k.z = a := by simp [hR]
    have hRu : R k.u = b := by simp [hR, hzu.symm]
    refine ⟨fun j f => R j f.2, ?_⟩
    rintro ⟨i, e⟩ ⟨-, before, hb, x, hx, hne⟩
    obtain ⟨hoth, t, hown⟩ := midway_rows R hb hx
    apply hne
    refine joint_eq_of_lik hk hprior ?_
    unfold layerLik
    rw [hv]
    simp only
    have hci : ¬ k.child = i := by have := i.2; omega
    rw [val_update, val_update, val_update, val_update, val_update, val_update, if_neg hci, if_neg hci]
    obtain ⟨k', hk', hi⟩ := H.owner i i.2
    rw [hk, List.mem_singleton] at hk'
    subst hk'
    unfold lik2
    -- the other factors
    have other : ∀ j (hj : j < h.M), j ≠ i → ∃ r, ∀ d < h.rows j, Settled (h.cols j) (R j) r (h.val x j d) := by
      intro j hj hne
      obtain ⟨r, hr⟩ := hoth ⟨j, hj⟩ (fun hc => hne (congrArg Fin.val hc))
      refine ⟨r, fun d hd => ?_⟩
      rw [show h.val x j = Cfg.fac (x ⟨j, hj⟩) from OneLayer.val_at x ⟨j, hj⟩]
      exact hr d hd
    rcases mem_factors.1 hi with c | c | c
    · have hui : ¬ k'.u = i := fun hc => hzu (c.symm.trans hc.symm)
      rw [if_pos c.symm, if_pos c.symm, if_neg hui, if_neg hui]
      obtain ⟨r, hr⟩ := other k'.u huM hui
      refine Finset.prod_congr rfl fun n _ => Finset.prod_congr rfl fun d _ => ?_
      congr 1
      by_cases hn : (n : Nat) = e.1
      · rw [hn]
        have h1 := hown (h.cols k'.z) (by rw [c]) true
        have h2 := hown (h.cols k'.z) (by rw [c]) false
        have h3 := hr d (by show (d : Nat) < h.rows k'.u; rw [e2]; exact d.2)
        rw [show R i = a by rw [c, hRz]] at h1 h2
        rw [hRu, e3] at h3
        exact quiet_pred2 hq hL (e.2.2.trans_eq (by rw [c])) h1 h2 h3
      · rw [fac_update_ne (x i) e true false hn]
    · have hzi : ¬ k'.z = i := fun hc => hzu (hc.trans c)
      rw [if_pos c.symm, if_pos c.symm, if_neg hzi, if_neg hzi]
      obtain ⟨r, hr⟩ := other k'.z hzM hzi
      refine Finset.prod_congr rfl fun n _ => Finset.prod_congr rfl fun d _ => ?_
      congr 1
      by_cases hn : (d : Nat) = e.1
      · rw [hn, pred2_comm, pred2_comm _ _ (h.val x k'.z n)]
        have h1 := hown (h.cols k'.z) (by rw [c, e3]) true
        have h2 := hown (h.cols k'.z) (by rw [c, e3]) false
        have h3 := hr n (by show (n : Nat) < h.rows k'.z; rw [e1]; exact n.2)
        rw [show R i = b by rw [c, hRu]] at h1 h2
        rw [hRz] at h3
        exact quiet_pred2' hq hL (e.2.2.trans_eq (by rw [c, e3])) h1 h2 h3
      · rw [fac_update_ne (x i) e true false hn]
    · rw [hv] at c
      cases c
  | some v =>
    have hne : k.v ≠ none := by rw [hv]; simp
    simp only [quietFrom, hne, if_false] at hL
    obtain ⟨a, b, g, hq⟩ := quiet3_exists k.model
    obtain ⟨e1, e2⟩ := H.sizes3 k hmem v hv
    have hvM := H.latent k hmem v (by simp [HLayer.factors, hv])
    obtain ⟨⟨hzu, hzv⟩, huv⟩ : (k.z ≠ k.u ∧ k.z ≠ v) ∧ k.u ≠ v := by
      simp only [List.flatMap_cons, List.flatMap_nil, List.append_nil, HLayer.factors, hv, Option.toList_some, List.nodup_cons,
        List.mem_cons, List.not_mem_nil, or_false, not_or] at hnd
      exact ⟨hnd.1, hnd.2.1⟩
    obtain ⟨R, hR⟩ : ∃ R : Nat → Nat → Bool, R = fun i => if i = k.z then a else if i = k.u then b else g := ⟨_, rfl⟩
    have hRz : R k.z = a := by simp [hR]
    have hRu : R k.u = b := by simp [hR, hzu.symm]
    have hRv : R v = g := by simp [hR, hzv.symm, huv.symm]
    refine ⟨fun j f => R j f.2, ?_⟩
    rintro ⟨i, e⟩ ⟨-, before, hb, x, hx, hne⟩
    obtain ⟨hoth, t, hown⟩ := midway_rows R hb hx
    apply hne
    refine joint_eq_of_lik hk hprior ?_
    unfold layerLik
    rw [hv]
    simp only
    rw [val_update, val_update, val_update, val_update, val_update, val_update]
    obtain ⟨k', hk', hi⟩ := H.owner i i.2
    rw [hk, List.mem_singleton] at hk'
    subst hk'
    unfold lik3
    -- the other factors
    have other : ∀ j (hj : j < h.M), j ≠ i → ∃ r, ∀ d < h.rows j, Settled (h.cols j) (R j) r (h.val x j d) := by
      intro j hj hne
      obtain ⟨r, hr⟩ := hoth ⟨j, hj⟩ (fun hc => hne (congrArg Fin.val hc))
      refine ⟨r, fun d hd => ?_⟩
      rw [show h.val x j = Cfg.fac (x ⟨j, hj⟩) from OneLayer.val_at x ⟨j, hj⟩]
      exact hr d hd
    rcases mem_factors.1 hi with c | c | c
    · have hui : ¬ k'.u = i := fun hc => hzu (c.symm.trans hc.symm)
      have hvi : ¬ v = i := fun hc => hzv (c.symm.trans hc.symm)
      rw [if_pos c.symm, if_pos c.symm, if_neg hui, if_neg hui, if_neg hvi, if_neg hvi]
      obtain ⟨r, hr⟩ := other k'.u huM hui
      obtain ⟨p, hp⟩ := other v hvM hvi
      refine Finset.prod_congr rfl fun n _ => Finset.prod_congr rfl fun d _ => Finset.prod_congr rfl fun m _ => ?_
      congr 1
      by_cases hn : (n : Nat) = e.1
      · rw [hn]
        have h1 := hown (h.cols k'.z) (by rw [c]) true
        have h2 := hown (h.cols k'.z) (by rw [c]) false
        have h3 := hr d d.2
        have h4 := hp m m.2
        rw [show R i = a by rw [c, hRz]] at h1 h2
        rw [hRu, e1] at h3
        rw [hRv, e2] at h4
        exact (quiet_pred3 hq hL (e.2.2.trans_eq (by rw [c]))).1 h1 h2 h3 h4
      · rw [fac_update_ne (x i) e true false hn]
    · have hzi : ¬ k'.z = i := fun hc => hzu (hc.trans c)
      have hvi : ¬ v = i := fun hc => huv (c.symm.trans hc.symm)
      rw [if_pos c.symm, if_pos c.symm, if_neg hzi, if_neg hzi, if_neg hvi, if_neg hvi]
      obtain ⟨r, hr⟩ := other k'.z hzM hzi
      obtain ⟨p, hp⟩ := other v hvM hvi
      refine Finset.prod_congr rfl fun n _ => Finset.prod_congr rfl fun d _ => Finset.prod_congr rfl fun m _ => ?_
      congr 1
      by_cases hn : (d : Nat) = e.1
      · rw [hn]
        have h1 := hown (h.cols k'.z) (by rw [c, e1]) true
        have h2 := hown (h.cols k'.z) (by rw [c, e1]) false
        have h3 := hr n n.2
        have h4 := hp m m.2
        rw [show R i = b by rw [c, hRu]] at h1 h2
        rw [hRz] at h3
        rw [hRv, e2] at h4
        exact (quiet_pred3 hq hL (e.2.2.trans_eq (by rw [c, e1]))).2.1 h1 h2 h3 h4
      · rw [fac_update_ne (x i) e true false hn]
    · rw [hv] at c
      obtain rfl := Option.some.inj c
      have hzi : ¬ k'.z = i := hzv
      have hui : ¬ k'.u = i := huv
      rw [if_neg hzi, if_neg hzi, if_neg hui, if_neg hui, if_pos rfl, if_pos rfl]
      obtain ⟨r, hr⟩ := other k'.z hzM hzi
      obtain ⟨p, hp⟩ := other k'.u huM hui
      refine Finset.prod_congr rfl fun n _ => Finset.prod_congr rfl fun d _ => Finset.prod_congr rfl fun m _ => ?_
      congr 1
      by_cases hn : (m : Nat) = e.1
      · rw [hn]
        have h1 := hown (h.cols k'.z) (by rw [e2]) true
        have h2 := hown (h.cols k'.z) (by rw [e2]) false
        have h3 := hr n n.2
        have h4 := hp d d.2
        rw [hRv] at h1 h2
        rw [hRz] at h3
        rw [hRu, e1] at h4
        exact (quiet_pred3 hq hL (e.2.2.trans_eq (by rw [e2]))).2.2 h1 h2 h3 h4
      · rw [fac_update_ne (x i) e true false hn]

end Spec.Hier

/-- **C79** fails with the default prior for *every* data set if there are enough latent dimensions: the samples of a single layer of any
model, of two or of three factors, do not converge to the posterior, whatever the data and the strength, with random orders of updates.
The numbers of latent dimensions from which on this is so are those of `quietFrom2` (OR-AND: 6, OR-XOR: 3, ...) and `quietFrom3`. -/
theorem C79_quiet {h : Hier} (H : h.Legal) {k : HLayer} (hk : h.layers = [k]) (hprior : ∀ i < h.M, h.prior i = 1 / 2)
    (hL : Spec.Hier.quietFrom k ≤ h.cols k.z)
    {wr : Wiring} (hw : h.Wired wr) {m : Mach Sampler LbdaUpdate} (hm : h.FixedLbdas wr m) (fe : Nat → Arr Int)
    (hfe : ∀ q, h.Sampled m fe q) (q0 : h.Site) (s0 : h.State) : ¬ h.SamplesConverge (fun _ => True) s0 wr m fe := by
  rw [← C79_mixing_iff H _ s0 hw hm fe fun q => iff_of_true trivial (hfe q)]
  obtain ⟨s, hs⟩ := Spec.Hier.quiet_state H hk hprior hL
  exact Spec.Hier.not_mixing q0 hs

/-- **C80** fails in the same cases: averages over the samples do not converge either -/
theorem C80_quiet {h : Hier} (H : h.Legal) {k : HLayer} (hk : h.layers = [k]) (hprior : ∀ i < h.M, h.prior i = 1 / 2)
    (hL : Spec.Hier.quietFrom k ≤ h.cols k.z)
    {wr : Wiring} (hw : h.Wired wr) {m : Mach Sampler LbdaUpdate} (hm : h.FixedLbdas wr m) (fe : Nat → Arr Int)
    (hfe : ∀ q, h.Sampled m fe q) {q0 q1 : h.Site} (hq : q0 ≠ q1) (s0 : h.State) :
    ¬ h.AveragesConverge (fun _ => True) s0 wr m fe := by
  rw [← C80_average_iff H _ s0 hw hm fe fun q => iff_of_true trivial (hfe q)]
  obtain ⟨s, hs⟩ := Spec.Hier.quiet_state H hk hprior hL
  exact Spec.Hier.not_linking hq hs

end LFM

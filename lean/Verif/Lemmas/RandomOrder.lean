import Mathlib.Logic.Equiv.Fintype
import Verif.Lemmas.HierErgodic
import Verif.Lemmas.RandomSweeps
import Verif.Spec.RandomOrder

/-!
# Lemmas: hierarchical machines with random orders of updates
-/

namespace LFM

open Spec MeasureTheory

section
variable {A S ι : Type} [Fintype A] [Nonempty A] [Fintype S] [Fintype ι] [DecidableEq ι]

/-- one coordinate is independent of the others -/
theorem sum_coordinate (t : ι) (f : A → ENNReal) (g : (ι → A) → ENNReal) (hg : ∀ σ a, g (Function.update σ t a) = g σ) :
    ∑ σ : ι → A, f (σ t) * g σ = (∑ a, f a) / Fintype.card A * ∑ σ : ι → A, g σ := by
  have hc0 : (Fintype.card A : ENNReal) ≠ 0 := by exact_mod_cast Fintype.card_ne_zero
  have hct : (Fintype.card A : ENNReal) ≠ ⊤ := ENNReal.natCast_ne_top _
  -- both sides count pairs
  have key : ∑ a : A, ∑ σ : ι → A, f (σ t) * g σ = ∑ a : A, ∑ σ : ι → A, f a * g σ := by
    obtain ⟨e, he⟩ : ∃ e : A × (ι → A) ≃ A × (ι → A), ∀ p, e p = (p.2 t, Function.update p.2 t p.1) :=
      ⟨⟨fun p => (p.2 t, Function.update p.2 t p.1), fun p => (p.2 t, Function.update p.2 t p.1),
        fun p => by simp, fun p => by simp⟩, fun p => rfl⟩
    have := Fintype.sum_equiv e (fun p => f (p.2 t) * g p.2) (fun p => f p.1 * g p.2) (fun p => by rw [he]; simp [hg])
    rwa [Fintype.sum_prod_type, Fintype.sum_prod_type] at this
  rw [Finset.sum_const, Finset.card_univ, nsmul_eq_mul] at key
  have : ∑ a : A, ∑ σ : ι → A, f a * g σ = (∑ a, f a) * ∑ σ, g σ := by
    simp only [← Finset.mul_sum]
    rw [Finset.sum_mul]
  rw [this] at key
  rw [ENNReal.div_eq_inv_mul, mul_assoc, ← key, ← mul_assoc, ENNReal.inv_mul_cancel hc0 hct, one_mul]

/-- the average over all sequences of choices is a sequence of averages -/
theorem average_schedule (Q : A → S → S → ENNReal) (l : List ι) (hl : l.Nodup) (x z : S) :
    ∑ σ : ι → A, schedule (fun t => Q (σ t)) l x z =
      Fintype.card (ι → A) * schedule (fun _ : ι => fun x y => (∑ a, Q a x y) / Fintype.card A) l x z := by
  classical
  induction l generalizing x with
  | nil =>
    simp only [schedule]
    rw [Finset.sum_const, Finset.card_univ, nsmul_eq_mul]
  | cons t l ih =>
    rw [List.nodup_cons] at hl
    simp only [schedule]
    rw [Finset.sum_comm, Finset.mul_sum]
    refine Finset.sum_congr rfl fun y _ => ?_
    rw [sum_coordinate t (fun a => Q a x y) (fun σ => schedule (fun t => Q (σ t)) l y z), ih hl.2]
    · rw [← mul_assoc, mul_comm _ ((Fintype.card (ι → A) : Nat) : ENNReal), mul_assoc]
    · intro σ a
      refine schedule_congr l (fun j hj => ?_) y z
      rw [Function.update_of_ne]
      rintro rfl
      exact hl.1 hj

omit [Fintype ι] [DecidableEq ι] in
theorem schedule_const (P : S → S → ENNReal) (l : List ι) (x z : S) : schedule (fun _ : ι => P) l x z = pw P l.length x z := by
  classical
  induction l generalizing x with
  | nil => simp [pw, schedule]
  | cons t l ih =>
    rw [List.length_cons, pw, List.replicate_succ, schedule, schedule]
    exact Finset.sum_congr rfl fun y _ => by rw [ih]; rfl

end

namespace Spec.Hier

variable {h : Hier}

theorem flipAt_ne (q : h.Site) (s : h.State) : flipAt q s ≠ s := by
  intro e
  have := congrFun (congrFun e q.1) q.2
  rw [flipAt_self] at this
  cases hb : s q.1 q.2 <;> rw [hb] at this <;> cases this

theorem exp_odds (H : h.Legal) (q : h.Site) (s : h.State) :
    Real.exp (-(sgn (s q.1 q.2) : ℝ) * odds s q.1 q.2) = h.joint (flipAt q s) / h.joint s := by
  have hself : Function.update s q.1 (Function.update (s q.1) q.2 (s q.1 q.2)) = s := by
    rw [Function.update_eq_self, Function.update_eq_self]
  unfold odds flipAt
  cases hb : s q.1 q.2 with
  | true =>
    rw [hb] at hself
    rw [hself]
    have : -(sgn true : ℝ) * (Real.log (h.joint s) - Real.log (h.joint (Function.update s q.1 (Function.update (s q.1) q.2 false)))) =
        Real.log (h.joint (Function.update s q.1 (Function.update (s q.1) q.2 false))) - Real.log (h.joint s) := by
      simp [sgn]
    rw [this, Real.exp_sub, Real.exp_log (joint_pos H _), Real.exp_log (joint_pos H _)]
    rfl
  | false =>
    rw [hb] at hself
    rw [hself]
    have : -(sgn false : ℝ) * (Real.log (h.joint (Function.update s q.1 (Function.update (s q.1) q.2 true))) - Real.log (h.joint s)) =
        Real.log (h.joint (Function.update s q.1 (Function.update (s q.1) q.2 true))) - Real.log (h.joint s) := by
      simp [sgn]
    rw [this, Real.exp_sub, Real.exp_log (joint_pos H _), Real.exp_log (joint_pos H _)]
    rfl

theorem flip_or_stay (x : ℝ) {z : Int} (r : ℝ) :
    flip_metropolised_gibbs_numba x z r = -z ∨ flip_metropolised_gibbs_numba x z r = z := by
  unfold flip_metropolised_gibbs_numba
  split_ifs with a1 a2 a3
  · left; rw [a1.1]
  · left; rw [a2.1]; rfl
  · exact Or.inl rfl
  · exact Or.inr rfl

theorem bitK_flip (H : h.Legal) (q : h.Site) (s : h.State) :
    bitK noFix q s (flipAt q s) = ENNReal.ofReal (min 1 (h.joint (flipAt q s) / h.joint s)) := by
  rw [← exp_odds H, ← volume_flip _ (sgn_isPM _), ← unif_flip, bitK]
  congr 1
  ext r
  have hb := bitStep_eq noFix q (noFix_ne q) s r
  simp only [Set.mem_ofPred_eq]
  constructor
  · intro e
    rcases flip_or_stay (odds s q.1 q.2) (z := sgn (s q.1 q.2)) r with hf | hf
    · exact hf
    · rw [hb.2 hf] at e
      exact absurd e.symm (flipAt_ne q s)
  · exact hb.1

theorem bitK_stay (H : h.Legal) (q : h.Site) (s : h.State) :
    bitK noFix q s s = ENNReal.ofReal (1 - min 1 (h.joint (flipAt q s) / h.joint s)) := by
  rw [← exp_odds H, ← volume_stay _ (sgn_isPM _), ← unif_flip, bitK]
  congr 1
  ext r
  have hb := bitStep_eq noFix q (noFix_ne q) s r
  simp only [Set.mem_ofPred_eq]
  constructor
  · intro e
    rcases flip_or_stay (odds s q.1 q.2) (z := sgn (s q.1 q.2)) r with hf | hf
    · rw [hb.1 hf] at e
      exact absurd e (flipAt_ne q s)
    · exact hf
  · exact hb.2

theorem flipAt_comm (q q' : h.Site) (s : h.State) : flipAt q (flipAt q' s) = flipAt q' (flipAt q s) := by
  funext i e
  have key : ∀ (q q' : h.Site) (s : h.State) (p : h.Site), flipAt q (flipAt q' s) p.1 p.2 =
      (if p = q then !(if p = q' then !(s p.1 p.2) else s p.1 p.2) else if p = q' then !(s p.1 p.2) else s p.1 p.2) := by
    intro q q' s p
    have one : ∀ (q : h.Site) (s : h.State), flipAt q s p.1 p.2 = if p = q then !(s p.1 p.2) else s p.1 p.2 := by
      intro q s
      by_cases hp : p = q
      · rw [if_pos hp, hp, flipAt_self]
      · rw [if_neg hp, flipAt_of_ne hp]
    rw [one, one]
  have h1 := key q q' s ⟨i, e⟩
  have h2 := key q' q s ⟨i, e⟩
  simp only at h1 h2
  rw [h1, h2]
  split_ifs <;> rfl

open Classical in
theorem moves {free : h.Site → Prop} {s0 : h.State} (H : h.Legal) :
    Moves (fun (q : {q : h.Site // free q}) (s s' : h.Given free s0) => bitK noFix q.1 s.1 s'.1)
      (fun q s => ⟨flipAt q.1 s.1, s.2.flipAt q.2⟩) (fun s => h.joint s.1) where
  stoch q s := by
    have := sum_events (μ := unif) (bitStep_event (h := h) noFix q.1.1 q.1.2 s.1)
    rw [← this]
    refine (sum_class (fun x => h.Agree free x s0) (fun s' => bitK noFix q.1 s.1 s') fun s' hs' => ?_).symm
    exact bitK_event q.1 s.1 (fun e => hs' (by rw [e]; exact s.2)) (fun e => hs' (by rw [e]; exact s.2.flipAt q.2))
  invariant q z := by
    obtain ⟨z', hz'⟩ : ∃ z' : h.Given free s0, z' = ⟨flipAt q.1 z.1, z.2.flipAt q.2⟩ := ⟨_, rfl⟩
    have hne : z ≠ z' := by
      intro e
      rw [hz'] at e
      exact flipAt_ne q.1 z.1 (congrArg Subtype.val e).symm
    have hzz : flipAt q.1 z'.1 = z.1 := by rw [hz']; exact flipAt_flipAt q.1 z.1
    rw [Fintype.sum_eq_add z z' hne]
    · rw [bitK_stay H]
      have h2 : bitK noFix q.1 z'.1 z.1 = ENNReal.ofReal (min 1 (h.joint z.1 / h.joint z'.1)) := by
        have := bitK_flip H q.1 z'.1
        rwa [hzz] at this
      have h3 : flipAt q.1 z.1 = z'.1 := by rw [hz']
      have p1 := joint_pos H z.1
      have p2 := joint_pos H z'.1
      rw [h2, h3, ← ENNReal.ofReal_mul p1.le, ← ENNReal.ofReal_mul p2.le, ← ENNReal.ofReal_add]
      · congr 1
        rw [mul_sub, mul_min_of_nonneg _ _ p1.le, mul_min_of_nonneg _ _ p2.le, mul_one, mul_one, mul_div_cancel₀ _ p1.ne',
          mul_div_cancel₀ _ p2.ne', min_comm]
        ring
      · exact mul_nonneg p1.le (sub_nonneg.2 (min_le_left _ _))
      · exact mul_nonneg p2.le (le_min zero_le_one (div_nonneg p1.le p2.le))
    · rintro x ⟨h1, h2⟩
      have : bitK noFix q.1 x.1 z.1 = 0 := by
        refine bitK_event q.1 x.1 (fun e => h1 (Subtype.ext e).symm) fun e => h2 ?_
        rw [hz']
        apply Subtype.ext
        show x.1 = flipAt q.1 z.1
        rw [e, flipAt_flipAt]
      rw [this, mul_zero]
  inv q s := Subtype.ext (flipAt_flipAt q.1 s.1)
  comm q q' s := Subtype.ext (flipAt_comm q.1 q'.1 s.1)
  pos s := joint_pos H s.1
  flip_pos q s := by
    show bitK noFix q.1 s.1 (flipAt q.1 s.1) ≠ 0
    rw [bitK_flip H]
    refine (ENNReal.ofReal_pos.2 (lt_min one_pos (div_pos (joint_pos H _) (joint_pos H _)))).ne'
  stay q s := by
    show bitK noFix q.1 s.1 s.1 ≠ 0 ↔ h.joint (flipAt q.1 s.1) < h.joint s.1
    rw [bitK_stay H, ← pos_iff_ne_zero, ENNReal.ofReal_pos, sub_pos, min_lt_iff, div_lt_one (joint_pos H _)]
    simp
  off q s s' h1 h2 := bitK_event q.1 s.1 (fun e => h1 (Subtype.ext e)) (fun e => h2 (Subtype.ext e))

open Classical in
/-- the free entries in the order in which they are updated -/
noncomputable def orderOf (h : Hier) (free : h.Site → Prop) (xs : List Nat) : List {q : h.Site // free q} :=
  ((xs.filterMap fun i => if hi : i < h.M then some (⟨i, hi⟩ : Fin h.M) else none).flatMap h.sitesOf).filterMap fun e =>
    if hf : free e then some ⟨e, hf⟩ else none

theorem schedOf_sites {T t : Nat} (ht : t < T) (xs : List Nat) : (schedOf h T t xs).flatMap (fun p => h.sitesOf p.2) =
    (xs.filterMap fun i => if hi : i < h.M then some (⟨i, hi⟩ : Fin h.M) else none).flatMap h.sitesOf := by
  rw [schedOf, dif_pos ht]
  induction xs with
  | nil => rfl
  | cons i xs ih =>
    by_cases hi : i < h.M
    · rw [List.filterMap_cons_some (by rw [dif_pos hi]), List.filterMap_cons_some (by rw [dif_pos hi]), List.flatMap_cons,
        List.flatMap_cons, ih]
    · rw [List.filterMap_cons_none (by rw [dif_neg hi]), List.filterMap_cons_none (by rw [dif_neg hi]), ih]

open Classical in
/-- sweeps over all free entries, the others being fixed -/
theorem sweeps_given {free : h.Site → Prop} {s0 : h.State} (perm : Nat → List Nat → List Nat) (mats : List Nat)
    (hp : ∀ t, (perm t mats).Perm mats) (fe : Nat → Arr Int)
    (hfe : ∀ q : h.Site, free q ↔ (q.1 : Nat) ∈ mats ∧ fe q.1 (idxOf q.2) ≠ 1) (T c n : Nat) (hT : c + n ≤ T) (s s' : h.State)
    (hs : h.Agree free s s0) :
    schedule (fun p s s' => uniformDraws (h.rows p.2) (h.cols p.2) {u | matStep fe p.2 s u = s'})
        (sweepsSched h perm mats T c n) s s' =
      if hz : h.Agree free s' s0 then schedule (fun j => schedule
        (fun (q : {q : h.Site // free q}) (s s' : h.Given free s0) => bitK noFix q.1 s.1 s'.1) (h.orderOf free (perm (c + j) mats)))
        (List.range n) ⟨s, hs⟩ ⟨s', hz⟩ else 0 := by
  obtain ⟨K, hKdef⟩ : ∃ K : h.Site → h.State → h.State → ENNReal,
    K = fun q x y => if free q then bitK noFix q x y else if x = y then 1 else 0 := ⟨_, rfl⟩
  have hK : ∀ q : h.Site, (q.1 : Nat) ∈ mats → bitK (h := h) fe q = K q := by
    intro q hq
    funext x y
    rw [hKdef]
    simp only
    by_cases hf : free q
    · rw [if_pos hf]
      unfold bitK bitStep
      simp only [if_neg ((hfe q).1 hf).2, if_neg (noFix_ne q)]
    · rw [if_neg hf]
      have h1 : fe q.1 (idxOf q.2) = 1 := by
        by_contra hc
        exact hf ((hfe q).2 ⟨hq, hc⟩)
      unfold bitK bitStep
      simp only [if_pos h1]
      by_cases hxy : x = y
      · simp [hxy]
      · simp [hxy]
  have hmat : (fun (p : Fin T × Fin h.M) (s s' : h.State) => uniformDraws (h.rows p.2) (h.cols p.2) {u | matStep fe p.2 s u = s'}) =
      fun p => schedule (bitK fe) (h.sitesOf p.2) := by
    funext p s s'
    rw [matStep_law]
  have hflat : (sweepsSched h perm mats T c n).flatMap (fun p => h.sitesOf p.2) = (List.range n).flatMap fun j =>
      ((perm (c + j) mats).filterMap fun i => if hi : i < h.M then some (⟨i, hi⟩ : Fin h.M) else none).flatMap h.sitesOf := by
    rw [sweepsSched, List.flatMap_assoc]
    refine List.flatMap_congr fun j hj => ?_
    rw [List.mem_range] at hj
    exact schedOf_sites (by omega) _
  rw [hmat, schedule_flatMap, hflat]
  rw [schedule_congr (K' := K) _ (fun q hq => ?_) s s']
  swap
  · refine hK q ?_
    obtain ⟨j, -, h1⟩ := List.mem_flatMap.1 hq
    obtain ⟨i, h2, h3⟩ := List.mem_flatMap.1 h1
    obtain ⟨e, -, rfl⟩ := List.mem_map.1 h3
    obtain ⟨i', h4, h5⟩ := List.mem_filterMap.1 h2
    split at h5
    · injection h5 with h5
      have h6 : i' = (i : Nat) := congrArg Fin.val h5
      show (i : Nat) ∈ mats
      rw [← h6]
      exact (hp _).mem_iff.1 h4
    · cases h5
  have hrestrict := schedule_restrict K free (fun x => h.Agree free x s0)
    (fun e he x y => by rw [hKdef]; simp only [if_neg he]; split_ifs <;> rfl)
    (fun e he x hx y hy => by
      rw [hKdef]
      simp only [if_pos he]
      refine bitK_event e x (fun e1 => hy (e1 ▸ hx)) (fun e1 => hy (e1 ▸ hx.flipAt he)))
  have hK' : (fun (e : {e // free e}) (x y : h.Given free s0) => K e.1 x.1 y.1) =
      fun e x y => bitK noFix e.1 x.1 y.1 := by
    funext e x y
    rw [hKdef]
    simp only [if_pos e.2]
  have := hrestrict ((List.range n).flatMap fun j =>
      ((perm (c + j) mats).filterMap fun i => if hi : i < h.M then some (⟨i, hi⟩ : Fin h.M) else none).flatMap h.sitesOf) ⟨s, hs⟩ s'
  rw [hK'] at this
  refine this.trans ?_
  by_cases hz : h.Agree free s' s0
  · rw [dif_pos hz, dif_pos hz, schedule_flatMap, List.filterMap_flatMap]
    rfl
  · rw [dif_neg hz, dif_neg hz]

end Spec.Hier

end LFM

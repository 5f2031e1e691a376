import Verif.Lemmas.HierSteps
import Verif.Lemmas.Ergodic

/-!
# Lemmas: convergence of the updates of hierarchical machines
-/

namespace LFM

open Spec MeasureTheory

theorem schedule_map {ι E S : Type} [Fintype S] (K : E → S → S → ENNReal) (f : ι → E) (l : List ι) (x z : S) :
    schedule K (l.map f) x z = schedule (fun i => K (f i)) l x z := by
  induction l generalizing x with
  | nil => rfl
  | cons i l ih =>
    rw [List.map_cons, schedule, schedule]
    exact Finset.sum_congr rfl fun y _ => by rw [ih]

theorem schedule_congr {ι S : Type} [Fintype S] {K K' : ι → S → S → ENNReal} (l : List ι) (h : ∀ i ∈ l, K i = K' i)
    (x z : S) : schedule K l x z = schedule K' l x z := by
  induction l generalizing x with
  | nil => rfl
  | cons i l ih =>
    rw [schedule, schedule, h i (by simp)]
    exact Finset.sum_congr rfl fun y _ => by rw [ih fun j hj => h j (by simp [hj])]

theorem sum_class {S M : Type} [Fintype S] [AddCommMonoid M] (C : S → Prop) [DecidablePred C] (f : S → M)
    (hf : ∀ y, ¬ C y → f y = 0) : ∑ y, f y = ∑ y : {y // C y}, f y.1 := by
  rw [← Fintype.sum_subtype_add_sum_subtype C f, Finset.sum_eq_zero (s := (Finset.univ : Finset {y // ¬ C y}))
    (fun y _ => hf y.1 y.2), add_zero]

open Classical in
/-- steps that never leave a class of states, and steps that do nothing -/
theorem schedule_restrict {E S : Type} [Fintype S] (K : E → S → S → ENNReal) (free : E → Prop) (C : S → Prop)
    (h1 : ∀ e, ¬ free e → ∀ x y, K e x y = if x = y then 1 else 0)
    (h2 : ∀ e, free e → ∀ x, C x → ∀ y, ¬ C y → K e x y = 0) (l : List E) (x : {x // C x}) (z : S) :
    schedule K l x.1 z = if hz : C z then schedule (fun (e : {e // free e}) (x y : {x // C x}) => K e.1 x.1 y.1)
      (l.filterMap fun e => if h : free e then some ⟨e, h⟩ else none) x ⟨z, hz⟩ else 0 := by
  induction l generalizing x with
  | nil =>
    simp only [List.filterMap_nil, schedule]
    by_cases hz : C z
    · rw [dif_pos hz]
      by_cases hx : x.1 = z
      · rw [if_pos hx, if_pos (Subtype.ext hx)]
      · rw [if_neg hx, if_neg fun e => hx (congrArg Subtype.val e)]
    · rw [dif_neg hz, if_neg fun e => hz (by rw [← e]; exact x.2)]
  | cons e l ih =>
    rw [schedule]
    by_cases he : free e
    · rw [List.filterMap_cons_some (b := ⟨e, he⟩) (by rw [dif_pos he])]
      have e1 : ∑ y, K e x.1 y * schedule K l y z = ∑ y : {y // C y}, K e x.1 y.1 * schedule K l y.1 z := by
        refine sum_class C (fun y => K e x.1 y * schedule K l y z) fun y hy => ?_
        rw [h2 e he x.1 x.2 y hy, zero_mul]
      rw [e1]
      by_cases hz : C z
      · rw [dif_pos hz, schedule]
        refine Finset.sum_congr rfl fun y _ => ?_
        rw [ih y, dif_pos hz]
      · rw [dif_neg hz]
        refine Finset.sum_eq_zero fun y _ => ?_
        rw [ih y, dif_neg hz, mul_zero]
    · rw [List.filterMap_cons_none (by rw [dif_neg he])]
      simp only [h1 e he, ite_mul, one_mul, zero_mul, Finset.sum_ite_eq, Finset.mem_univ, if_true]
      exact ih x

/-- the values of a random variable have total probability one -/
theorem sum_events {Ω S : Type} [Fintype S] [MeasurableSpace Ω] {μ : Measure Ω} [IsProbabilityMeasure μ] {X : Ω → S}
    (hX : ∀ s, MeasurableSet {ω | X ω = s}) : ∑ s, μ {ω | X ω = s} = 1 := by
  have := measure_iUnion (μ := μ) (f := fun s => {ω | X ω = s}) (fun s s' hne =>
    Set.disjoint_left.2 fun ω h1 h2 => hne (h1.symm.trans h2)) hX
  rw [tsum_fintype] at this
  rw [← this, ← measure_univ (μ := μ)]
  congr 1
  ext ω
  simp

instance : IsProbabilityMeasure unif := ⟨unif_univ⟩

theorem unif_flip (x : ℝ) (z v : Int) : unif {r | flip_metropolised_gibbs_numba x z r = v} =
    volume {u | u ∈ Set.Ico (0 : ℝ) 1 ∧ flip_metropolised_gibbs_numba x z u = v} := by
  rw [unif, Measure.restrict_apply' measurableSet_Ico, Set.inter_comm]
  rfl

namespace Spec.Hier

variable {h : Hier}

/-- change of one entry -/
def flipAt (q : h.Site) (s : h.State) : h.State :=
  Function.update s q.1 (Function.update (s q.1) q.2 (!(s q.1 q.2)))

/-- transition probabilities of the update of one entry -/
noncomputable def bitK (fe : Nat → Arr Int) (q : h.Site) (s s' : h.State) : ENNReal :=
  unif {r | bitStep fe q.1 q.2 s r = s'}

/-- the entries of matrix `i`, in the order of their updates -/
def sitesOf (h : Hier) (i : Fin h.M) : List h.Site := (finTasks (h.rows i) (h.cols i)).map (Sigma.mk i)

theorem matStep_law (fe : Nat → Arr Int) (i : Fin h.M) (s s' : h.State) :
    uniformDraws (h.rows i) (h.cols i) {u | matStep fe i s u = s'} = schedule (bitK fe) (h.sitesOf i) s s' := by
  unfold sitesOf
  rw [schedule_map]
  exact runSteps_law (X := fun _ => ℝ) (fun _ => unif) (step := bitStep fe i) (bitStep_event fe i) _ finTasks_nodup s s'

theorem flipAt_flipAt (q : h.Site) (s : h.State) : flipAt q (flipAt q s) = s := by
  unfold flipAt
  simp only [Function.update_self, Function.update_idem, Bool.not_not]
  rw [Function.update_eq_self, Function.update_eq_self]

theorem flipAt_self (q : h.Site) (s : h.State) : flipAt q s q.1 q.2 = !(s q.1 q.2) := by
  unfold flipAt
  rw [Function.update_self, Function.update_self]

theorem flipAt_of_ne {q q' : h.Site} (hne : q' ≠ q) (s : h.State) : flipAt q s q'.1 q'.2 = s q'.1 q'.2 := by
  unfold flipAt
  obtain ⟨i, e⟩ := q
  obtain ⟨i', e'⟩ := q'
  by_cases hi : i' = i
  · subst hi
    have : e' ≠ e := fun hc => hne (by rw [hc])
    simp only [Function.update_self]
    rw [Function.update_of_ne this]
  · simp only
    rw [Function.update_of_ne hi]

/-- updates flip or keep the entry -/
theorem bitStep_eq (fe : Nat → Arr Int) (q : h.Site) (hq : fe q.1 (idxOf q.2) ≠ 1) (s : h.State) (r : ℝ) :
    (flip_metropolised_gibbs_numba (odds s q.1 q.2) (sgn (s q.1 q.2)) r = -sgn (s q.1 q.2) → bitStep fe q.1 q.2 s r = flipAt q s) ∧
    (flip_metropolised_gibbs_numba (odds s q.1 q.2) (sgn (s q.1 q.2)) r = sgn (s q.1 q.2) → bitStep fe q.1 q.2 s r = s) := by
  unfold bitStep flipAt
  rw [if_neg hq]
  constructor
  · intro e
    rw [e]
    congr 2
    cases s q.1 q.2 <;> decide
  · intro e
    rw [e]
    have : decide (sgn (s q.1 q.2) = 1) = s q.1 q.2 := by cases s q.1 q.2 <;> decide
    rw [this, Function.update_eq_self, Function.update_eq_self]

theorem odds_sign (H : h.Legal) (q : h.Site) (s : h.State) (hlt : h.joint (flipAt q s) < h.joint s) :
    0 < (sgn (s q.1 q.2) : ℝ) * odds s q.1 q.2 := by
  have hlog := Real.log_lt_log (joint_pos H _) hlt
  unfold odds
  unfold flipAt at hlog
  have hself : Function.update s q.1 (Function.update (s q.1) q.2 (s q.1 q.2)) = s := by
    rw [Function.update_eq_self, Function.update_eq_self]
  cases hb : s q.1 q.2 with
  | true =>
    rw [hb] at hself hlog
    rw [hself]
    simp only [Bool.not_true] at hlog
    simp [sgn]
    linarith
  | false =>
    rw [hb] at hself hlog
    rw [hself]
    simp only [Bool.not_false] at hlog
    simp [sgn]
    linarith

theorem Agree.refl (free : h.Site → Prop) (s : h.State) : h.Agree free s s := fun _ _ => rfl

theorem Agree.trans {free : h.Site → Prop} {s1 s2 s3 : h.State} (h1 : h.Agree free s1 s2) (h2 : h.Agree free s2 s3) :
    h.Agree free s1 s3 := fun q hq => (h1 q hq).trans (h2 q hq)

theorem Agree.symm {free : h.Site → Prop} {s1 s2 : h.State} (h1 : h.Agree free s1 s2) : h.Agree free s2 s1 :=
  fun q hq => (h1 q hq).symm

theorem Agree.flipAt {free : h.Site → Prop} {s s0 : h.State} (hs : h.Agree free s s0) {q : h.Site} (hq : free q) :
    h.Agree free (flipAt q s) s0 := fun q' hq' => by
  rw [flipAt_of_ne (q := q) (fun e => hq' (by rw [e]; exact hq))]
  exact hs q' hq'

/-- no entry is fixed -/
abbrev noFix : Nat → Arr Int := fun _ => Arr.full [] 0

theorem noFix_ne (q : h.Site) : noFix q.1 (idxOf q.2) ≠ 1 := by simp [Arr.full]

theorem bitK_event (q : h.Site) (s : h.State) {s' : h.State} (h1 : s' ≠ s) (h2 : s' ≠ flipAt q s) :
    bitK noFix q s s' = 0 := by
  unfold bitK
  convert measure_empty (μ := unif)
  ext r
  simp only [Set.mem_setOf_eq, Set.mem_empty_iff_false, iff_false]
  intro e
  have hb := bitStep_eq noFix q (noFix_ne q) s r
  have hflip : flip_metropolised_gibbs_numba (odds s q.1 q.2) (sgn (s q.1 q.2)) r = -sgn (s q.1 q.2) ∨
      flip_metropolised_gibbs_numba (odds s q.1 q.2) (sgn (s q.1 q.2)) r = sgn (s q.1 q.2) := by
    unfold flip_metropolised_gibbs_numba
    split_ifs with a1 a2 a3
    · left; rw [a1.1]
    · left; rw [a2.1]; rfl
    · exact Or.inl rfl
    · exact Or.inr rfl
  rcases hflip with hf | hf
  · exact h2 (e.symm.trans (hb.1 hf))
  · exact h1 (e.symm.trans (hb.2 hf))

/-- the states that agree with `s0` in what is fixed -/
abbrev Given (h : Hier) (free : h.Site → Prop) (s0 : h.State) := {s : h.State // h.Agree free s s0}

open Classical in
theorem flips {free : h.Site → Prop} {s0 : h.State} (H : h.Legal) (hties : h.NoTiesGiven free s0) :
    Flips (fun (q : {q : h.Site // free q}) (s s' : h.Given free s0) => bitK noFix q.1 s.1 s'.1)
      (fun q s => ⟨flipAt q.1 s.1, s.2.flipAt q.2⟩) (fun s => h.joint s.1) where
  stoch q s := by
    have := sum_events (μ := unif) (bitStep_event (h := h) noFix q.1.1 q.1.2 s.1)
    rw [← this]
    refine (sum_class (fun x => h.Agree free x s0) (fun s' => bitK noFix q.1 s.1 s') fun s' hs' => ?_).symm
    exact bitK_event q.1 s.1 (fun e => hs' (by rw [e]; exact s.2)) (fun e => hs' (by rw [e]; exact s.2.flipAt q.2))
  inv q s := Subtype.ext (flipAt_flipAt q.1 s.1)
  pos s := joint_pos H s.1
  flip_pos q s := by
    have hsub : {r | flip_metropolised_gibbs_numba (odds s.1 q.1.1 q.1.2) (sgn (s.1 q.1.1 q.1.2)) r = -sgn (s.1 q.1.1 q.1.2)} ⊆
        {r | bitStep noFix q.1.1 q.1.2 s.1 r = flipAt q.1 s.1} := fun r hr => (bitStep_eq noFix q.1 (noFix_ne q.1) s.1 r).1 hr
    have := measure_mono (μ := unif) hsub
    rw [unif_flip, volume_flip _ (sgn_isPM _)] at this
    refine (lt_of_lt_of_le ?_ this).ne'
    rw [ENNReal.ofReal_pos]
    exact lt_min one_pos (Real.exp_pos _)
  stay_pos q s hlt := by
    have hsub : {r | flip_metropolised_gibbs_numba (odds s.1 q.1.1 q.1.2) (sgn (s.1 q.1.1 q.1.2)) r = sgn (s.1 q.1.1 q.1.2)} ⊆
        {r | bitStep noFix q.1.1 q.1.2 s.1 r = s.1} := fun r hr => (bitStep_eq noFix q.1 (noFix_ne q.1) s.1 r).2 hr
    have := measure_mono (μ := unif) hsub
    rw [unif_flip, volume_stay _ (sgn_isPM _)] at this
    refine (lt_of_lt_of_le ?_ this).ne'
    rw [ENNReal.ofReal_pos, sub_pos, min_lt_iff]
    right
    rw [Real.exp_lt_one_iff]
    have := odds_sign H q.1 s.1 hlt
    linarith
  no_tie q s := by
    have := hties s.1 s.2 q.1 q.2
    have hself : Function.update s.1 q.1.1 (Function.update (s.1 q.1.1) q.1.2 (s.1 q.1.1 q.1.2)) = s.1 := by
      rw [Function.update_eq_self, Function.update_eq_self]
    show h.joint (flipAt q.1 s.1) ≠ _
    unfold flipAt
    cases hb : s.1 q.1.1 q.1.2 with
    | true =>
      rw [hb] at hself
      rw [hself] at this
      exact this.symm
    | false =>
      rw [hb] at hself
      rw [hself] at this
      exact this
  conn A hA hcl := by
    rw [Finset.eq_univ_iff_forall]
    intro s'
    obtain ⟨x, hx, hmin⟩ := Finset.exists_min_image A
      (fun x => (Finset.univ.filter fun q : h.Site => x.1 q.1 q.2 ≠ s'.1 q.1 q.2).card) hA
    by_cases hd : ∃ q : h.Site, x.1 q.1 q.2 ≠ s'.1 q.1 q.2
    · obtain ⟨q, hq⟩ := hd
      have hfree : free q := by
        by_contra hf
        exact hq ((x.2 q hf).trans (s'.2 q hf).symm)
      have := hmin _ (hcl ⟨q, hfree⟩ x hx)
      refine absurd this (not_le.2 (Finset.card_lt_card ?_))
      rw [Finset.ssubset_iff_of_subset]
      · refine ⟨q, by rw [Finset.mem_filter]; exact ⟨Finset.mem_univ _, hq⟩, ?_⟩
        rw [Finset.mem_filter]
        show ¬ (_ ∧ flipAt q x.1 q.1 q.2 ≠ _)
        rw [flipAt_self]
        rintro ⟨-, h2⟩
        apply h2
        revert hq
        cases x.1 q.1 q.2 <;> cases s'.1 q.1 q.2 <;> simp
      · intro q' hq'
        rw [Finset.mem_filter] at hq' ⊢
        refine ⟨hq'.1, ?_⟩
        by_cases hqq : q' = q
        · subst hqq; exact hq
        · have : flipAt q x.1 q'.1 q'.2 ≠ s'.1 q'.1 q'.2 := hq'.2
          rwa [flipAt_of_ne hqq] at this
    · push Not at hd
      have : x = s' := by
        apply Subtype.ext
        funext i e
        exact hd ⟨i, e⟩
      rw [← this]
      exact hx

open Classical in
/-- sweeps over all free entries, the others being fixed -/
theorem sweeps_converge_given {free : h.Site → Prop} {s0 : h.State} (H : h.Legal) (hties : h.NoTiesGiven free s0) :
    ∃ N : Nat, 1 ≤ N ∧ ∃ ε : ℝ, 0 < ε ∧ ε ≤ 1 ∧
    ∀ (perm : Nat → List Nat → List Nat) (mats : List Nat), (∀ t, (perm t mats).Perm mats) → mats.Nodup →
      (∀ i ∈ mats, i < h.M) → ∀ (fe : Nat → Arr Int), (∀ q : h.Site, free q ↔ (q.1 : Nat) ∈ mats ∧ fe q.1 (idxOf q.2) ≠ 1) →
      ∀ T c n, c + n ≤ T → ∀ s s' : h.State, h.Agree free s s0 →
      (¬ h.Agree free s' s0 → schedule (fun p s s' => uniformDraws (h.rows p.2) (h.cols p.2) {u | matStep fe p.2 s u = s'})
        (sweepsSched h perm mats T c n) s s' = 0) ∧
      |(schedule (fun p s s' => uniformDraws (h.rows p.2) (h.cols p.2) {u | matStep fe p.2 s u = s'})
        (sweepsSched h perm mats T c n) s s').toReal - h.posteriorGiven free s0 s'| ≤ (1 - ε) ^ (n / N) := by
  have F0 := flips H hties
  obtain ⟨ε, h0, h1, hε⟩ := F0.converges (Fintype.card {q : h.Site // free q})
  have hne : Nonempty (h.Given free s0) := ⟨⟨s0, Agree.refl _ _⟩⟩
  refine ⟨Fintype.card (Finset (h.Given free s0)), Fintype.card_pos, ε, h0, h1, ?_⟩
  intro perm mats hp hnd hM fe hfe T c n hT s s' hs
  obtain ⟨K, hKdef⟩ : ∃ K : h.Site → h.State → h.State → ENNReal,
    K = fun q x y => if free q then bitK noFix q x y else if x = y then 1 else 0 := ⟨_, rfl⟩
  have hK : ∀ q : h.Site, (q.1 : Nat) ∈ mats → bitK (h := h) fe q = K q := by
    intro q hq
    funext x y
    rw [hKdef]
    simp only
    by_cases hf : free q
    · rw [if_pos hf]
      unfold bitK bitStep
      simp only [if_neg ((hfe q).1 hf).2, if_neg (noFix_ne q)]
    · rw [if_neg hf]
      have h1 : fe q.1 (idxOf q.2) = 1 := by
        by_contra hc
        exact hf ((hfe q).2 ⟨hq, hc⟩)
      unfold bitK bitStep
      simp only [if_pos h1]
      by_cases hxy : x = y
      · simp [hxy]
      · simp [hxy]
  obtain ⟨Ls, hLs⟩ : ∃ Ls : List (List h.Site), Ls = (List.range n).map fun j =>
      (schedOf h T (c + j) (perm (c + j) mats)).flatMap fun p => h.sitesOf p.2 := ⟨_, rfl⟩
  have hflat : (sweepsSched h perm mats T c n).flatMap (fun p => h.sitesOf p.2) = Ls.flatten := by
    rw [hLs, sweepsSched, List.flatMap_assoc, List.flatMap_def]
  have hmem : ∀ l ∈ Ls, ∀ e : h.Site, e ∈ l ↔ (e.1 : Nat) ∈ mats := by
    intro l hl e
    rw [hLs] at hl
    obtain ⟨j, hj, rfl⟩ := List.mem_map.1 hl
    rw [List.mem_range] at hj
    have hmap := schedOf_map (h := h) (T := T) (t := c + j) (by omega) (xs := perm (c + j) mats)
      (fun i hi => hM i ((hp _).mem_iff.1 hi))
    rw [List.mem_flatMap]
    constructor
    · rintro ⟨p, hp1, hp2⟩
      obtain ⟨e2, -, rfl⟩ := List.mem_map.1 hp2
      exact (hp _).mem_iff.1 (schedOf_mem hp1).2
    · intro he
      have : (e.1 : Nat) ∈ (schedOf h T (c + j) (perm (c + j) mats)).map (fun p => (p.2 : Nat)) := by
        rw [hmap, (hp _).mem_iff]
        exact he
      obtain ⟨p, hp1, hp2⟩ := List.mem_map.1 this
      refine ⟨p, hp1, ?_⟩
      have hpe : p.2 = e.1 := Fin.ext hp2
      rw [hpe]
      exact List.mem_map.2 ⟨e.2, mem_finTasks _, rfl⟩
  have hnodup : ∀ l ∈ Ls, l.Nodup := by
    intro l hl
    rw [hLs] at hl
    obtain ⟨j, -, rfl⟩ := List.mem_map.1 hl
    rw [List.nodup_flatMap]
    refine ⟨fun p _ => finTasks_nodup.map sigma_mk_injective, ?_⟩
    have hd := schedOf_nodup (h := h) (T := T) (t := c + j) (xs := perm (c + j) mats)
      (fun i hi => hM i ((hp _).mem_iff.1 hi)) ((hp _).nodup_iff.2 hnd)
    refine hd.imp_of_mem fun {p p'} hp1 hp2 hne => ?_
    rw [Function.onFun, List.disjoint_left]
    intro q hq1 hq2
    obtain ⟨e1, -, rfl⟩ := List.mem_map.1 hq1
    obtain ⟨e2, -, he⟩ := List.mem_map.1 hq2
    apply hne
    have a1 := (schedOf_mem hp1).1
    have a2 := (schedOf_mem hp2).1
    refine Prod.ext (Fin.ext (a1.trans a2.symm)) ?_
    exact (congrArg Sigma.fst he).symm
  have hsched : ∀ x y, schedule (fun (p : Fin T × Fin h.M) (s s' : h.State) => uniformDraws (h.rows p.2) (h.cols p.2)
      {u | matStep fe p.2 s u = s'}) (sweepsSched h perm mats T c n) x y = schedule K Ls.flatten x y := by
    intro x y
    have : (fun (p : Fin T × Fin h.M) (s s' : h.State) => uniformDraws (h.rows p.2) (h.cols p.2) {u | matStep fe p.2 s u = s'}) =
        fun p => schedule (bitK fe) (h.sitesOf p.2) := by
      funext p s s'
      rw [matStep_law]
    rw [this, schedule_flatMap, hflat]
    refine schedule_congr _ (fun q hq => ?_) x y
    obtain ⟨l, hl, hql⟩ := List.mem_flatten.1 hq
    exact hK q ((hmem l hl q).1 hql)
  have hrestrict := fun (s1 : h.State) (x : h.Given free s1) (z : h.State) => schedule_restrict K free (fun x => h.Agree free x s1)
    (fun e he x y => by rw [hKdef]; simp only [if_neg he]; split_ifs <;> rfl)
    (fun e he x hx y hy => by
      rw [hKdef]
      simp only [if_pos he]
      refine bitK_event e x (fun e1 => hy (e1 ▸ hx)) (fun e1 => hy (e1 ▸ hx.flipAt he))) Ls.flatten x z
  have hK' : ∀ s1, (fun (e : {e // free e}) (x y : h.Given free s1) => K e.1 x.1 y.1) =
      fun e x y => bitK noFix e.1 x.1 y.1 := by
    intro s1
    funext e x y
    rw [hKdef]
    simp only [if_pos e.2]
  have hfm : Ls.flatten.filterMap (fun e => if h : free e then some (⟨e, h⟩ : {e // free e}) else none) =
      (Ls.map fun l => l.filterMap fun e => if h : free e then some (⟨e, h⟩ : {e // free e}) else none).flatten := by
    rw [List.filterMap_flatten]
  obtain ⟨Ls', hLs'⟩ : ∃ Ls', Ls' = Ls.map fun l => l.filterMap fun e => if h : free e then some (⟨e, h⟩ : {e // free e}) else none :=
    ⟨_, rfl⟩
  rw [← hLs'] at hfm
  have hall' : ∀ l ∈ Ls', ∀ e, e ∈ l := by
    intro l hl e
    rw [hLs'] at hl
    obtain ⟨l, hl1, rfl⟩ := List.mem_map.1 hl
    rw [List.mem_filterMap]
    exact ⟨e.1, (hmem l hl1 e.1).2 ((hfe e.1).1 e.2).1, by rw [dif_pos e.2]⟩
  have hlen' : ∀ l ∈ Ls', l.length = Fintype.card {q : h.Site // free q} := by
    intro l hl
    have hnl : l.Nodup := by
      rw [hLs'] at hl
      obtain ⟨l, hl1, rfl⟩ := List.mem_map.1 hl
      refine (hnodup l hl1).filterMap fun a a' b hb hb' => ?_
      simp only [Option.mem_def, Option.dite_none_right_eq_some, Option.some.injEq] at hb hb'
      obtain ⟨_, rfl⟩ := hb
      obtain ⟨_, e⟩ := hb'
      exact (congrArg Subtype.val e).symm
    rw [← List.toFinset_card_of_nodup hnl]
    have : l.toFinset = Finset.univ := by
      rw [Finset.eq_univ_iff_forall]
      intro e
      rw [List.mem_toFinset]
      exact hall' l hl e
    rw [this, Finset.card_univ]
  have hlenLs : Ls'.length = n := by rw [hLs', List.length_map, hLs, List.length_map, List.length_range]
  have hinv : ∀ z, ∑ x, ENNReal.ofReal (h.joint x) * schedule K Ls.flatten x z = ENNReal.ofReal (h.joint z) := by
    intro z
    simp only [← hsched]
    exact schedule_invariant (fun (p : Fin T × Fin h.M) s' => matStep_invariant H fe p.2 s') _ z
  have hconv := hε Ls' hall' hlen' (fun z => by
    rw [← hinv z.1, sum_class (fun x => h.Agree free x s0) (fun x => ENNReal.ofReal (h.joint x) * schedule K Ls.flatten x z.1)
      (fun x hx => by
        have := hrestrict x ⟨x, Agree.refl _ _⟩ z.1
        simp only at this
        rw [this, dif_neg fun hz => hx (hz.symm.trans z.2), mul_zero])]
    refine Finset.sum_congr rfl fun x _ => ?_
    rw [hrestrict s0 x z.1, dif_pos z.2, hfm, hK' s0]) ⟨s, hs⟩
  rw [hlenLs] at hconv
  rw [hsched, hrestrict s0 ⟨s, hs⟩ s', hfm, hK' s0]
  have hsum : ∑ y : h.Given free s0, h.joint y.1 = ∑ x with h.Agree free x s0, h.joint x := by
    rw [Finset.sum_filter, sum_class (fun x => h.Agree free x s0) _ (fun x hx => if_neg hx)]
    exact Finset.sum_congr rfl fun y _ => (if_pos y.2).symm
  unfold posteriorGiven
  by_cases hs' : h.Agree free s' s0
  · rw [dif_pos hs', if_pos hs', ← hsum]
    exact ⟨fun hc => absurd hs' hc, hconv ⟨s', hs'⟩⟩
  · rw [dif_neg hs', if_neg hs']
    refine ⟨fun _ => rfl, ?_⟩
    simp only [ENNReal.toReal_zero, sub_zero, abs_zero]
    exact pow_nonneg (by linarith) _

end Spec.Hier

end LFM

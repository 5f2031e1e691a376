import Verif.Lemmas.SweepLaw
import Verif.Spec.Hier

/-!
# Lemmas: sequences of steps with independent draws

Steps that each use a draw of their own have the transition probabilities of `Spec.schedule`.
-/

namespace LFM

open Spec MeasureTheory

section
variable {ι : Type} [Fintype ι] [DecidableEq ι] {X : ι → Type} [∀ p, MeasurableSpace (X p)]
variable {S : Type} [Fintype S]

/-- the state after the steps `sched`, step `p` with draw `ω p` -/
def runSteps (step : ∀ p, S → X p → S) (ω : ∀ p, X p) (sched : List ι) (s : S) : S :=
  sched.foldl (fun s p => step p s (ω p)) s

omit [Fintype ι] [DecidableEq ι] in
theorem runSteps_event (step : ∀ p, S → X p → S) (p : ι) (rest : List ι) (s s' : S) :
    {ω : ∀ p, X p | runSteps step ω (p :: rest) s = s'} =
      ⋃ s1, ({ω | step p s (ω p) = s1} ∩ {ω | runSteps step ω rest s1 = s'}) := by
  ext ω
  simp [runSteps]

omit [Fintype ι] [DecidableEq ι] in
theorem measurable_runSteps {step : ∀ p, S → X p → S} (hm : ∀ p s s', MeasurableSet {x | step p s x = s'})
    (sched : List ι) (s s' : S) : MeasurableSet {ω : ∀ p, X p | runSteps step ω sched s = s'} := by
  induction sched generalizing s with
  | nil =>
    show MeasurableSet {_ω : ∀ p, X p | s = s'}
    exact MeasurableSet.const _
  | cons p rest ih =>
    rw [runSteps_event]
    refine MeasurableSet.iUnion fun s1 => MeasurableSet.inter ?_ (ih s1)
    exact (measurable_pi_apply p) (hm p s s1)

/-- the draws of steps that are over do not matter for what follows -/
theorem runSteps_law_gen {m : ∀ p, Measure (X p)} [∀ p, IsProbabilityMeasure (m p)] {step : ∀ p, S → X p → S}
    (hm : ∀ p s s', MeasurableSet {x | step p s x = s'}) (later : List ι) (E : S → Set (∀ p, X p))
    (hEm : ∀ s, MeasurableSet (E s)) (v : S → ENNReal)
    (hE : ∀ s (A : ∀ p, Set (X p)), (∀ p, MeasurableSet (A p)) → (∀ p ∈ later, A p = Set.univ) →
      Measure.pi m (Set.univ.pi A ∩ E s) = (∏ p, m p (A p)) * v s) (sched : List ι) (hnd : (sched ++ later).Nodup) (s : S)
    (A : ∀ p, Set (X p)) (hA : ∀ p, MeasurableSet (A p)) (hu : ∀ p ∈ sched ++ later, A p = Set.univ) :
    Measure.pi m (Set.univ.pi A ∩ {ω | ω ∈ E (runSteps step ω sched s)}) =
      (∏ p, m p (A p)) * ∑ x, schedule (fun p s s' => m p {x | step p s x = s'}) sched s x * v x := by
  classical
  induction sched generalizing s A with
  | nil =>
    have : ∑ x, schedule (fun p s s' => m p {x | step p s x = s'}) [] s x * v x = v s := by
      rw [Finset.sum_eq_single s]
      · simp [schedule]
      · intro y _ hy; simp [schedule, Ne.symm hy]
      · simp
    rw [this]
    exact hE s A hA hu
  | cons p rest ih =>
    rw [List.cons_append, List.nodup_cons] at hnd
    have hset : Set.univ.pi A ∩ {ω : ∀ p, X p | ω ∈ E (runSteps step ω (p :: rest) s)} =
        ⋃ s1, (Set.univ.pi (Function.update A p {x | step p s x = s1}) ∩ {ω | ω ∈ E (runSteps step ω rest s1)}) := by
      have hev : {ω : ∀ p, X p | ω ∈ E (runSteps step ω (p :: rest) s)} =
          ⋃ s1, ({ω | step p s (ω p) = s1} ∩ {ω | ω ∈ E (runSteps step ω rest s1)}) := by
        ext ω
        simp [runSteps]
      rw [hev, Set.inter_iUnion]
      congr 1
      funext s1
      ext ω
      simp only [Set.mem_inter_iff, Set.mem_univ_pi, Set.mem_ofPred_eq]
      rw [← and_assoc]
      refine and_congr_left fun _ => ?_
      constructor
      · rintro ⟨h1, h2⟩ q
        by_cases hq : q = p
        · subst hq; simpa using h2
        · rw [Function.update_of_ne hq]; exact h1 q
      · intro h1
        refine ⟨fun q => ?_, by simpa using h1 p⟩
        by_cases hq : q = p
        · subst hq; rw [hu q (by simp)]; trivial
        · have := h1 q; rwa [Function.update_of_ne hq] at this
    have hAm : ∀ s1 q, MeasurableSet (Function.update A p {x | step p s x = s1} q) := by
      intro s1 q
      by_cases hq : q = p
      · subst hq; simpa using hm q s s1
      · rw [Function.update_of_ne hq]; exact hA q
    have hsum : ∑ x, schedule (fun p s s' => m p {x | step p s x = s'}) (p :: rest) s x * v x =
        ∑ s1, m p {x | step p s x = s1} * ∑ x, schedule (fun p s s' => m p {x | step p s x = s'}) rest s1 x * v x := by
      simp only [schedule, Finset.sum_mul, Finset.mul_sum]
      rw [Finset.sum_comm]
      exact Finset.sum_congr rfl fun s1 _ => Finset.sum_congr rfl fun x _ => by rw [mul_assoc]
    have hEm' : ∀ (l : List ι) s, MeasurableSet {ω | ω ∈ E (runSteps step ω l s)} := by
      intro l s
      have : {ω | ω ∈ E (runSteps step ω l s)} = ⋃ x, ({ω | runSteps step ω l s = x} ∩ E x) := by
        ext ω
        simp
      rw [this]
      exact MeasurableSet.iUnion fun x => (measurable_runSteps hm l s x).inter (hEm x)
    rw [hset, measure_iUnion, tsum_fintype]
    · rw [hsum, Finset.mul_sum]
      refine Finset.sum_congr rfl fun s1 _ => ?_
      rw [ih hnd.2 s1 _ (hAm s1)]
      · rw [← mul_assoc]
        congr 1
        rw [← Finset.mul_prod_erase _ _ (Finset.mem_univ p), ← Finset.mul_prod_erase _ (fun q => m q (A q)) (Finset.mem_univ p),
          hu p (by simp), measure_univ, one_mul, Function.update_self, mul_comm]
        congr 1
        refine Finset.prod_congr rfl fun q hq => ?_
        rw [Function.update_of_ne (Finset.ne_of_mem_erase hq)]
      · intro q hq
        have : q ≠ p := fun e => hnd.1 (e ▸ hq)
        rw [Function.update_of_ne this]
        exact hu q (by rw [List.cons_append]; exact List.mem_cons_of_mem _ hq)
    · intro s1 s2 hne
      refine Set.disjoint_left.2 fun ω h1 h2 => hne ?_
      have e1 := h1.1 p (Set.mem_univ _)
      have e2 := h2.1 p (Set.mem_univ _)
      rw [Function.update_self] at e1 e2
      exact e1.symm.trans e2
    · intro s1
      exact (MeasurableSet.univ_pi (hAm s1)).inter (hEm' rest s1)

theorem runSteps_law_aux {m : ∀ p, Measure (X p)} [∀ p, IsProbabilityMeasure (m p)] {step : ∀ p, S → X p → S}
    (hm : ∀ p s s', MeasurableSet {x | step p s x = s'}) (sched : List ι) (hnd : sched.Nodup) (s s' : S)
    (A : ∀ p, Set (X p)) (hA : ∀ p, MeasurableSet (A p)) (hu : ∀ p ∈ sched, A p = Set.univ) :
    Measure.pi m (Set.univ.pi A ∩ {ω | runSteps step ω sched s = s'}) =
      (∏ p, m p (A p)) * schedule (fun p s s' => m p {x | step p s x = s'}) sched s s' := by
  classical
  have := runSteps_law_gen (m := m) hm [] (fun x => {_ω | x = s'}) (fun x => MeasurableSet.const _) (fun x => if x = s' then 1 else 0)
    (fun x A hA _ => by
      by_cases hx : x = s'
      · simp [hx, Measure.pi_pi]
      · simp [hx]) sched (by simpa using hnd) s A hA (by simpa using hu)
  rw [Finset.sum_eq_single s'] at this
  · rw [if_pos rfl, mul_one] at this
    exact this
  · intro y _ hy; rw [if_neg hy, mul_zero]
  · simp

/-- steps with independent draws, each step with its own -/
theorem runSteps_law (m : ∀ p, Measure (X p)) [∀ p, IsProbabilityMeasure (m p)] {step : ∀ p, S → X p → S}
    (hm : ∀ p s s', MeasurableSet {x | step p s x = s'}) (sched : List ι) (hnd : sched.Nodup) (s s' : S) :
    Measure.pi m {ω | runSteps step ω sched s = s'} =
      schedule (fun p s s' => m p {x | step p s x = s'}) sched s s' := by
  have := runSteps_law_aux (m := m) hm sched hnd s s' (fun _ => Set.univ) (fun _ => MeasurableSet.univ) fun _ _ => rfl
  simpa using this

/-- joint distribution of the states at two times -/
theorem runSteps_joint (m : ∀ p, Measure (X p)) [∀ p, IsProbabilityMeasure (m p)] {step : ∀ p, S → X p → S}
    (hm : ∀ p s s', MeasurableSet {x | step p s x = s'}) (l1 l2 : List ι) (hnd : (l1 ++ l2).Nodup) (s x y : S) :
    Measure.pi m {ω | runSteps step ω l1 s = x ∧ runSteps step ω (l1 ++ l2) s = y} =
      schedule (fun p s s' => m p {x | step p s x = s'}) l1 s x *
        schedule (fun p s s' => m p {x | step p s x = s'}) l2 x y := by
  classical
  have := runSteps_law_gen (m := m) hm l2 (fun x' => {ω | x' = x ∧ runSteps step ω l2 x = y})
    (fun x' => by
      by_cases hx : x' = x
      · simp only [hx, true_and]; exact measurable_runSteps hm l2 x y
      · simp [hx])
    (fun x' => if x' = x then schedule (fun p s s' => m p {x | step p s x = s'}) l2 x y else 0)
    (fun x' A hA hu => by
      by_cases hx : x' = x
      · simp only [hx, true_and, if_true]
        exact runSteps_law_aux hm l2 (List.nodup_append.1 hnd).2.1 x y A hA hu
      · simp [hx]) l1 hnd s (fun _ => Set.univ) (fun _ => MeasurableSet.univ) fun _ _ => rfl
  rw [Finset.sum_eq_single x] at this
  · rw [if_pos rfl] at this
    simp only [Set.pi_univ, Set.univ_inter, measure_univ, Finset.prod_const_one, one_mul] at this
    rw [← this]
    congr 1
    ext ω
    simp only [Set.mem_ofPred_eq]
    constructor
    · rintro ⟨h1, h2⟩
      refine ⟨h1, ?_⟩
      rw [runSteps, List.foldl_append] at h2
      rw [← h1]
      exact h2
    · rintro ⟨h1, h2⟩
      refine ⟨h1, ?_⟩
      rw [runSteps, List.foldl_append]
      rw [← h1] at h2
      exact h2
  · intro z _ hz; rw [if_neg hz, mul_zero]
  · simp

end

/-- the events of a sweep are measurable -/
theorem measurable_siteSweep {ι : Type} [Fintype ι] [DecidableEq ι] {newbit : ι → ℝ → (ι → Bool) → Bool}
    (hm : ∀ t c b, MeasurableSet {r | newbit t r c = b}) (ts : List ι) (c c' : ι → Bool) :
    MeasurableSet {u : ι → ℝ | siteSweep newbit ts u c = c'} := by
  have := measurable_runSteps (X := fun _ : ι => ℝ) (S := ι → Bool)
    (step := fun t c r => Function.update c t (newbit t r c)) (fun t c c' => ?_) ts c c'
  · exact this
  · by_cases h : ∀ i, i ≠ t → c i = c' i
    · have : {r | Function.update c t (newbit t r c) = c'} = {r | newbit t r c = c' t} := by
        ext r
        constructor
        · intro e
          have := congrFun e t
          rwa [Function.update_self] at this
        · intro e
          funext i
          by_cases hi : i = t
          · subst hi; rw [Function.update_self]; exact e
          · rw [Function.update_of_ne hi]; exact h i hi
      rw [this]
      exact hm t c _
    · have : {r | Function.update c t (newbit t r c) = c'} = ∅ := by
        ext r
        simp only [Set.mem_ofPred_eq, Set.mem_empty_iff_false, iff_false]
        intro e
        apply h
        intro i hi
        rw [← e, Function.update_of_ne hi]
      rw [this]
      exact MeasurableSet.empty

theorem measurable_flip (x : ℝ) (z v : Int) : MeasurableSet {r | flip_metropolised_gibbs_numba x z r = v} := by
  have : Measurable fun r => flip_metropolised_gibbs_numba x z r := by
    unfold flip_metropolised_gibbs_numba
    split
    · exact measurable_const
    · split
      · exact measurable_const
      · exact Measurable.ite measurableSet_Iio measurable_const measurable_const
  exact this (measurableSet_singleton v)

theorem measurable_newbit {N L : Nat} (logit : Arr Int → List Nat → ℝ) (Zf : Arr Int) (t : Fin N × Fin L) (c : Cfg N L)
    (b : Bool) : MeasurableSet {r | newbitOf logit Zf t r c = b} := by
  unfold newbitOf
  split
  · exact MeasurableSet.const _
  · have h := measurable_flip (logit c.arr (idxOf t)) (sgn (c t)) 1
    cases b
    · simp only [decide_eq_false_iff_not]
      exact h.compl
    · simp only [decide_eq_true_eq]
      exact h

instance (N L : Nat) : IsProbabilityMeasure (uniformDraws N L) := by
  have : IsProbabilityMeasure (volume.restrict (Set.Ico (0 : ℝ) 1)) := ⟨by simp⟩
  unfold uniformDraws
  infer_instance

end LFM

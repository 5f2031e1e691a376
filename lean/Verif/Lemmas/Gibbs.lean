import Mathlib.MeasureTheory.Constructions.Pi
import Verif.Lemmas.Flip

/-!
Sweeps of single-site updates on `ι → Bool` with independent uniform draws, one per site, preserve every
weight that each single-site update preserves.
-/

namespace LFM

open MeasureTheory

section
variable {ι : Type} [Fintype ι] [DecidableEq ι]

/-- update of site `t` with draw `u t` -/
def siteStep (newbit : ι → ℝ → (ι → Bool) → Bool) (u : ι → ℝ) (c : ι → Bool) (t : ι) : ι → Bool :=
  Function.update c t (newbit t (u t) c)

/-- a sweep over the sites `ts` -/
def siteSweep (newbit : ι → ℝ → (ι → Bool) → Bool) (ts : List ι) (u : ι → ℝ) (c : ι → Bool) :
    ι → Bool :=
  ts.foldl (siteStep newbit u) c

/-- uniform distribution on `[0, 1)` -/
noncomputable abbrev unif : Measure ℝ := volume.restrict (Set.Ico 0 1)

/-- independent uniform draws -/
noncomputable abbrev draws (ι : Type) [Fintype ι] : Measure (ι → ℝ) := Measure.pi fun _ => unif

theorem unif_univ : unif Set.univ = 1 := by simp [unif]

variable (newbit : ι → ℝ → (ι → Bool) → Bool)

omit [Fintype ι] in
theorem siteSweep_off (ts : List ι) (u : ι → ℝ) (c : ι → Bool) {i : ι} (hi : i ∉ ts) :
    siteSweep newbit ts u c i = c i := by
  induction ts generalizing c with
  | nil => rfl
  | cons t ts ih =>
    rw [List.mem_cons, not_or] at hi
    show siteSweep newbit ts u (siteStep newbit u c t) i = c i
    rw [ih _ hi.2, siteStep, Function.update_of_ne hi.1]

omit [Fintype ι] in
theorem siteSweep_cons_iff {t : ι} {ts : List ι} (ht : t ∉ ts) (u : ι → ℝ) (c c' : ι → Bool) :
    siteSweep newbit (t :: ts) u c = c' ↔
      newbit t (u t) c = c' t ∧ siteSweep newbit ts u (Function.update c t (c' t)) = c' := by
  have h : siteSweep newbit (t :: ts) u c =
      siteSweep newbit ts u (Function.update c t (newbit t (u t) c)) := rfl
  rw [h]
  constructor
  · intro h'
    have h1 : newbit t (u t) c = c' t := by
      rw [← h', siteSweep_off newbit ts u _ ht, Function.update_self]
    exact ⟨h1, by rw [← h1]; exact h'⟩
  · rintro ⟨h1, h2⟩
    rw [h1]; exact h2

omit [Fintype ι] in
/-- the draws leading from `c` to `c'` form a box -/
theorem siteSweep_box (ts : List ι) (hts : ts.Nodup) (c c' : ι → Bool)
    (hagree : ∀ i ∉ ts, c i = c' i) :
    ∃ B : ι → Set ℝ, (∀ i ∉ ts, B i = Set.univ) ∧
      {u | siteSweep newbit ts u c = c'} = Set.pi Set.univ B := by
  induction ts generalizing c with
  | nil =>
    refine ⟨fun _ => Set.univ, fun _ _ => rfl, ?_⟩
    have : c = c' := funext fun i => hagree i (by simp)
    ext u
    simp [siteSweep, this]
  | cons t ts ih =>
    rw [List.nodup_cons] at hts
    obtain ⟨B, hB, hset⟩ := ih hts.2 (Function.update c t (c' t)) (by
      intro i hi
      by_cases h : i = t
      · subst h; simp
      · rw [Function.update_of_ne h]; exact hagree i (by simp [h, hi]))
    refine ⟨Function.update B t {r | newbit t r c = c' t}, ?_, ?_⟩
    · intro i hi
      rw [List.mem_cons, not_or] at hi
      rw [Function.update_of_ne hi.1]; exact hB i hi.2
    · ext u
      have hset' : siteSweep newbit ts u (Function.update c t (c' t)) = c' ↔ ∀ i, u i ∈ B i := by
        have : u ∈ {u | siteSweep newbit ts u (Function.update c t (c' t)) = c'} ↔
            u ∈ Set.pi Set.univ B := by rw [hset]
        simpa using this
      simp only [Set.mem_ofPred_eq, Set.mem_univ_pi]
      rw [siteSweep_cons_iff newbit hts.1, hset']
      constructor
      · rintro ⟨h1, h2⟩ i
        by_cases h : i = t
        · subst h; simpa using h1
        · rw [Function.update_of_ne h]; exact h2 i
      · intro h
        refine ⟨by simpa using h t, fun i => ?_⟩
        by_cases hi : i = t
        · subst hi; rw [hB i hts.1]; trivial
        · have := h i; rwa [Function.update_of_ne hi] at this

/-- probability of a sweep from `c` to `c'` -/
noncomputable def sweepProb (ts : List ι) (c c' : ι → Bool) : ENNReal :=
  draws ι {u | siteSweep newbit ts u c = c'}

theorem sweepProb_nil (c c' : ι → Bool) :
    sweepProb newbit [] c c' = if c = c' then 1 else 0 := by
  unfold sweepProb
  by_cases h : c = c'
  · have : {u : ι → ℝ | siteSweep newbit [] u c = c'} = Set.univ := by
      ext u; simp [siteSweep, h]
    rw [this, if_pos h, ← Set.pi_univ (Set.univ : Set ι), Measure.pi_pi]
    simp
  · have : {u : ι → ℝ | siteSweep newbit [] u c = c'} = ∅ := by
      ext u; simp [siteSweep, h]
    rw [this, if_neg h, measure_empty]

theorem sweepProb_eq_zero {ts : List ι} {c c' : ι → Bool} {i : ι} (hi : i ∉ ts) (h : c i ≠ c' i) :
    sweepProb newbit ts c c' = 0 := by
  have : {u : ι → ℝ | siteSweep newbit ts u c = c'} = ∅ := by
    ext u
    simp only [Set.mem_ofPred_eq, Set.mem_empty_iff_false, iff_false]
    intro h'
    apply h
    rw [← h', siteSweep_off newbit ts u c hi]
  unfold sweepProb
  rw [this, measure_empty]

theorem sweepProb_cons {t : ι} {ts : List ι} (hts : (t :: ts).Nodup) (c c' : ι → Bool) :
    sweepProb newbit (t :: ts) c c' =
      unif {r | newbit t r c = c' t} * sweepProb newbit ts (Function.update c t (c' t)) c' := by
  rw [List.nodup_cons] at hts
  by_cases hag : ∀ i ∉ ts, Function.update c t (c' t) i = c' i
  · obtain ⟨B, hB, hset⟩ := siteSweep_box newbit ts hts.2 (Function.update c t (c' t)) c' hag
    have hset2 : {u | siteSweep newbit (t :: ts) u c = c'} =
        Set.pi Set.univ (Function.update B t {r | newbit t r c = c' t}) := by
      ext u
      have hset' : siteSweep newbit ts u (Function.update c t (c' t)) = c' ↔ ∀ i, u i ∈ B i := by
        have : u ∈ {u | siteSweep newbit ts u (Function.update c t (c' t)) = c'} ↔
            u ∈ Set.pi Set.univ B := by rw [hset]
        simpa using this
      simp only [Set.mem_ofPred_eq, Set.mem_univ_pi]
      rw [siteSweep_cons_iff newbit hts.1, hset']
      constructor
      · rintro ⟨h1, h2⟩ i
        by_cases h : i = t
        · subst h; simpa using h1
        · rw [Function.update_of_ne h]; exact h2 i
      · intro h
        refine ⟨by simpa using h t, fun i => ?_⟩
        by_cases hi : i = t
        · subst hi; rw [hB i hts.1]; trivial
        · have := h i; rwa [Function.update_of_ne hi] at this
    unfold sweepProb
    rw [hset, hset2, Measure.pi_pi, Measure.pi_pi, ← Finset.mul_prod_erase _ _ (Finset.mem_univ t),
      ← Finset.mul_prod_erase _ (fun i => unif (B i)) (Finset.mem_univ t), hB t hts.1,
      unif_univ, one_mul, Function.update_self]
    congr 1
    refine Finset.prod_congr rfl fun i hi => ?_
    rw [Function.update_of_ne (Finset.ne_of_mem_erase hi)]
  · push Not at hag
    obtain ⟨i, hi, hne⟩ := hag
    have hit : i ≠ t := by rintro rfl; simp at hne
    rw [sweepProb_eq_zero newbit hi hne, mul_zero]
    apply sweepProb_eq_zero newbit (i := i)
    · simp [hit, hi]
    · rwa [Function.update_of_ne hit] at hne

theorem sum_split (t : ι) (b0 : Bool) (f : (ι → Bool) → ENNReal) :
    ∑ c, f c = ∑ c with c t = b0, ∑ b, f (Function.update c t b) := by
  have h2 : ∀ c : ι → Bool, ∑ b, f (Function.update c t b) =
      f (Function.update c t b0) + f (Function.update c t (!b0)) := by
    intro c
    rw [Fintype.sum_bool]
    cases b0
    · rw [add_comm]; rfl
    · rfl
  simp only [h2]
  rw [Finset.sum_add_distrib, ← Finset.sum_filter_add_sum_filter_not Finset.univ (fun c => c t = b0)]
  congr 1
  · refine Finset.sum_congr rfl fun c hc => ?_
    rw [Finset.mem_filter] at hc
    congr 1
    rw [← hc.2, Function.update_eq_self]
  · refine Finset.sum_bij' (fun c _ => Function.update c t b0) (fun c _ => Function.update c t (!b0))
      ?_ ?_ ?_ ?_ ?_
    · intro c _; simp
    · intro c _; simp
    · intro c hc
      rw [Finset.mem_filter] at hc
      have : c t = !b0 := by
        have := hc.2; revert this; cases c t <;> cases b0 <;> simp
      rw [Function.update_idem, ← this, Function.update_eq_self]
    · intro c hc
      rw [Finset.mem_filter] at hc
      rw [Function.update_idem, ← hc.2, Function.update_eq_self]
    · intro c hc
      rw [Finset.mem_filter] at hc
      have : c t = !b0 := by
        have := hc.2; revert this; cases c t <;> cases b0 <;> simp
      rw [Function.update_idem, ← this, Function.update_eq_self]

/-- if every single-site update preserves `W`, so does the sweep -/
theorem sweep_preserves (W : (ι → Bool) → ENNReal)
    (hW : ∀ (t : ι) (c : ι → Bool) (b' : Bool),
      ∑ b, W (Function.update c t b) * unif {r | newbit t r (Function.update c t b) = b'} =
        W (Function.update c t b'))
    (ts : List ι) (hts : ts.Nodup) (c' : ι → Bool) :
    ∑ c, W c * sweepProb newbit ts c c' = W c' := by
  induction ts with
  | nil =>
    simp only [sweepProb_nil]
    rw [Finset.sum_eq_single c']
    · simp
    · intro c _ h; simp [h]
    · simp
  | cons t ts ih =>
    have hnd := List.nodup_cons.1 hts
    rw [← ih hnd.2, sum_split t (c' t), sum_split t (c' t) (fun c => W c * sweepProb newbit ts c c')]
    refine Finset.sum_congr rfl fun c hc => ?_
    rw [Finset.mem_filter] at hc
    have h1 : ∀ b, W (Function.update c t b) * sweepProb newbit (t :: ts) (Function.update c t b) c' =
        (W (Function.update c t b) * unif {r | newbit t r (Function.update c t b) = c' t}) *
          sweepProb newbit ts c c' := by
      intro b
      rw [sweepProb_cons newbit hts, Function.update_idem, ← hc.2, Function.update_eq_self, mul_assoc]
    simp only [h1]
    rw [← Finset.sum_mul, hW, ← hc.2, Function.update_eq_self, Finset.sum_eq_single (c t)]
    · rw [Function.update_eq_self]
    · intro b _ hb
      rw [sweepProb_eq_zero newbit hnd.1 (by rw [Function.update_self, ← hc.2]; exact hb), mul_zero]
    · simp

end

end LFM

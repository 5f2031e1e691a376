import Verif.Lemmas.Parallel
import Verif.Lemmas.Samplers
import Verif.Props.Axes

/-!
# C20, C21, C71: fixed entries, binary entries, parallel schedules, missing entries
-/

namespace LFM

open Spec

/-- **C20**. Whatever family structure a matrix has: if a sampling function is assigned to it and the
call (which returns the new value of this one matrix and writes nothing else) succeeds, the shape is
unchanged, entries flagged in `fixed_entries` are unchanged, and entries in {-1, 1} stay in {-1, 1}.
(The MAX-AND, qL-AND and IBP samplers are not generic; see C31, C32, C38.) -/
theorem C20_sampling_keeps {model : Option String} {factors : List Member} {ax k : Nat} {q : ℝ}
    {parents : List (String × Nat)} {s : Sampler}
    (h : get_sampling_fct none model factors ax k q parents = .ok s)
    (mat : Member) (factors' : List Member) (k' : Nat) (child : Arr Int) (lbda : ℝ)
    (pa : List ParentLayer) (rnd : Rnd) (R : Arr Int)
    (hR : s.run mat factors' k' child lbda pa rnd = .ok R) :
    R.shape = mat.val.shape ∧ (∀ i, mat.fixed_entries i = 1 → R i = mat.val i) ∧
      (PMArr mat.val → PMArr R) := by
  obtain ⟨logit, ts, rfl⟩ := sweeps_of_get h mat factors' k' child lbda pa rnd R hR
  obtain ⟨h1, h2⟩ := sweep_entry logit mat.fixed_entries rnd ts mat.val
  exact ⟨h1, fun i => (h2 i).1, fun hp i hi => (h2 i).2.1 (hp i (by rwa [h1] at hi))⟩

/-- **C71**. The sampling functions never impute a missing entry and never lose an observed one: the set
of zeros of the sampled matrix is unchanged, whatever the scores and the draws. -/
theorem C71_missing_pattern_unchanged {model : Option String} {factors : List Member} {ax k : Nat}
    {q : ℝ} {parents : List (String × Nat)} {s : Sampler}
    (h : get_sampling_fct none model factors ax k q parents = .ok s)
    (mat : Member) (factors' : List Member) (k' : Nat) (child : Arr Int) (lbda : ℝ)
    (pa : List ParentLayer) (rnd : Rnd) (R : Arr Int)
    (hR : s.run mat factors' k' child lbda pa rnd = .ok R) (hd : DataArr mat.val) (i : List Nat)
    (hi : InB mat.val.shape i) :
    R i = 0 ↔ mat.val i = 0 := by
  obtain ⟨logit, ts, rfl⟩ := sweeps_of_get h mat factors' k' child lbda pa rnd R hR
  have he := (sweep_entry logit mat.fixed_entries rnd ts mat.val).2 i
  refine ⟨fun h0 => ?_, he.2.2⟩
  have key : IsPM (mat.val i) → False := fun hp => by
    rcases he.2.1 hp with h1 | h1 <;> rw [h0] at h1 <;> exact absurd h1 (by decide)
  rcases hd i hi with h1 | h1 | h1
  · exact absurd (Or.inl h1) key
  · exact absurd (Or.inr h1) key
  · exact h1

section schedules
variable {Z Zf : Arr Int} {N L D M : Nat} {rnd : Rnd} {loc : Nat → Int} {σ : List Action}

/-- **C21**. For given per-entry draws, every interleaving of the rows' actions (including every
interleaving between a row's evaluation of a new value and its store) leaves in memory exactly the matrix
that the sequential loop computes; `loc` is whatever the threads' local variables contain initially. -/
theorem C21_onechild_2D (hZ : Z.shape = [N, L]) (hσ : IsSchedule Zf [N, L] σ) (f) (U X : Arr Int)
    (lb lp : ℝ) :
    (execAll (logit_onechild_2D f U X lb lp) rnd ⟨Z, loc⟩ σ).Z =
      sampling_onechild_2D f Z Zf U X lb lp rnd := by
  rw [parallel_eq _ Zf Z loc hσ, sampling_onechild_2D_eq]
  · simp only [Arr.dim, hZ]; rfl
  · intro Z Z' i hs h
    simp only [logit_onechild_2D, row_congr hs h]

theorem C21_onechild_3D (hZ : Z.shape = [N, L]) (hσ : IsSchedule Zf [N, L] σ) (f) (U V X : Arr Int)
    (lb lp : ℝ) :
    (execAll (logit_onechild_3D f U V X lb lp) rnd ⟨Z, loc⟩ σ).Z =
      sampling_onechild_3D f Z Zf U V X lb lp rnd := by
  rw [parallel_eq _ Zf Z loc hσ, sampling_onechild_3D_eq]
  · simp only [Arr.dim, hZ]; rfl
  · intro Z Z' i hs h
    simp only [logit_onechild_3D, row_congr hs h]

theorem C21_onechild_oneparent_2D (hZ : Z.shape = [N, L]) (hσ : IsSchedule Zf [N, L] σ) (f g)
    (U X : Arr Int) (lb : ℝ) (pa1 pa2 : Arr Int) (lpa lp : ℝ) :
    (execAll (logit_onechild_oneparent_2D f g U X lb pa1 pa2 lpa lp) rnd ⟨Z, loc⟩ σ).Z =
      sampling_onechild_oneparent_2D f g Z Zf U X lb pa1 pa2 lpa lp rnd := by
  rw [parallel_eq _ Zf Z loc hσ, sampling_onechild_oneparent_2D_eq]
  · simp only [Arr.dim, hZ]; rfl
  · intro Z Z' i hs h
    simp only [logit_onechild_oneparent_2D, row_congr hs h]

theorem C21_nochild_oneparent_2D (hZ : Z.shape = [N, L]) (hσ : IsSchedule Zf [N, L] σ) (g)
    (pa1 pa2 : Arr Int) (lpa lp : ℝ) :
    (execAll (logit_nochild_oneparent_2D g pa1 pa2 lpa lp) rnd ⟨Z, loc⟩ σ).Z =
      sampling_nochild_oneparent_2D g Z Zf pa1 pa2 lpa lp rnd := by
  rw [parallel_eq _ Zf Z loc hσ, sampling_nochild_oneparent_2D_eq]
  · simp only [Arr.dim, hZ]; rfl
  · intro Z Z' i hs h; rfl

theorem C21_nochild_twoparents_2D (hZ : Z.shape = [N, L]) (hσ : IsSchedule Zf [N, L] σ) (g)
    (pa11 pa12 : Arr Int) (lpa1 : ℝ) (pa21 pa22 : Arr Int) (lpa2 lp : ℝ) :
    (execAll (logit_nochild_twoparents_2D g pa11 pa12 lpa1 pa21 pa22 lpa2 lp) rnd ⟨Z, loc⟩ σ).Z =
      sampling_nochild_twoparents_2D g Z Zf pa11 pa12 lpa1 pa21 pa22 lpa2 lp rnd := by
  rw [parallel_eq _ Zf Z loc hσ, sampling_nochild_twoparents_2D_eq]
  · simp only [Arr.dim, hZ]; rfl
  · intro Z Z' i hs h; rfl

theorem C21_nochild_twoparents_3D (hZ : Z.shape = [N, D, M]) (hσ : IsSchedule Zf [N, D, M] σ) (g)
    (pa11 pa12 pa13 : Arr Int) (lpa1 : ℝ) (pa21 pa22 pa23 : Arr Int) (lpa2 lp : ℝ) :
    (execAll (logit_nochild_twoparents_3D g pa11 pa12 pa13 lpa1 pa21 pa22 pa23 lpa2 lp) rnd
      ⟨Z, loc⟩ σ).Z =
      sampling_nochild_twoparents_3D g Z Zf pa11 pa12 pa13 lpa1 pa21 pa22 pa23 lpa2 lp rnd := by
  rw [parallel_eq _ Zf Z loc hσ, sampling_nochild_twoparents_3D_eq]
  · simp only [Arr.dim, hZ]; rfl
  · intro Z Z' i hs h; rfl

theorem C21_onechild_twoparents_2D (hZ : Z.shape = [N, L]) (hσ : IsSchedule Zf [N, L] σ) (f g)
    (U X : Arr Int) (lb : ℝ) (pa11 pa12 : Arr Int) (lpa1 : ℝ) (pa21 pa22 : Arr Int) (lpa2 lp : ℝ) :
    (execAll (logit_onechild_twoparents_2D f g U X lb pa11 pa12 lpa1 pa21 pa22 lpa2 lp) rnd
      ⟨Z, loc⟩ σ).Z =
      sampling_onechild_twoparents_2D f g Z Zf U X lb pa11 pa12 lpa1 pa21 pa22 lpa2 lp rnd := by
  rw [parallel_eq _ Zf Z loc hσ, sampling_onechild_twoparents_2D_eq]
  · simp only [Arr.dim, hZ]; rfl
  · intro Z Z' i hs h
    simp only [logit_onechild_twoparents_2D, row_congr hs h]

/-- non-vacuity of C21: two rows with two entries each, one of them fixed; the rows' actions interleave
and the stores happen out of row order -/
example : IsSchedule ⟨[2, 2], fun i => if i = [0, 1] then 1 else 0⟩ [2, 2]
    [.compute [1, 0], .compute [0, 0], .store [1, 0], .compute [1, 1], .store [0, 0], .store [1, 1]] := by
  intro n
  by_cases h0 : n = 0
  · subst h0; rfl
  · by_cases h1 : n = 1
    · subst h1; rfl
    · have a : ¬ 0 = n := fun h => h0 h.symm
      have b : ¬ 1 = n := fun h => h1 h.symm
      simp [entries, program, Action.row, List.range, List.range.loop, a, b]

end schedules

/-- non-vacuity of C20, C71: the first factor of the example layer, which has a fixed entry, gets a
sampling function, and running it succeeds -/
example : ∃ s, get_sampling_fct none (some Lom8.OR_AND.name) [exA, exB] 0 0 (1 / 2) [] = .ok s ∧
    ∃ R, s.run exA [exA, exB] 0 exX 1 [] (fun _ => 1 / 2) = .ok R := by
  refine ⟨.lom (.two (sampling_onechild_2D posterior_score_OR_AND_2D)) [0, 1] (logit (1 / 2)), ?_, ?_⟩
  · have h := dispatch_onechild (factors := [exA, exB]) (ax := 0) (k := 0) (q := 1 / 2)
      (relatives2 .OR_AND) (generic_code2 .OR_AND)
    rw [make_onechild2 .OR_AND rfl] at h
    refine h.trans ?_
    simp [Except.map, axisOrder, siblings2_0, exB]
  · simp only [Sampler.run, siblings2_0, List.map]
    exact ⟨_, rfl⟩

end LFM

import Verif.Lemmas.Sweep
import Verif.Lemmas.Flip
import Verif.Model.MatrixWrappers

/-! Every generic sampling closure is a sweep over some entries of its matrix. -/

namespace LFM
open Spec

/-- running `s` successfully amounts to a sweep of the matrix -/
def Sampler.Sweeps (s : Sampler) : Prop :=
  ∀ mat factors k child lbda parents rnd R, s.run mat factors k child lbda parents rnd = .ok R →
    ∃ logit ts, R = sweep logit mat.fixed_entries rnd ts mat.val

theorem make_onechild_cases {mod : String} {f : OneChild} (h : make_sampling_fct_onechild mod = .ok f) :
    (∃ g, f = .two (sampling_onechild_2D g)) ∨ ∃ g, f = .three (sampling_onechild_3D g) := by
  unfold make_sampling_fct_onechild at h
  cases hp : get_posterior_score_fct mod with
  | error e => rw [hp] at h; exact absurd h (by simp [bind, Except.bind])
  | ok p =>
    rw [hp] at h
    simp only [bind, Except.bind] at h
    split at h
    · cases p with
      | two g => simp at h; exact Or.inl ⟨g, h.symm⟩
      | three g => simp at h
    · split at h
      · cases p with
        | two g => simp at h
        | three g => simp at h; exact Or.inr ⟨g, h.symm⟩
      · simp at h

theorem lom_sweeps {mod : String} {f : OneChild} (h : make_sampling_fct_onechild mod = .ok f)
    (order : List Nat) (lp : ℝ) : (Sampler.lom f order lp).Sweeps := by
  intro mat factors k child lbda parents rnd R hR
  rcases make_onechild_cases h with ⟨g, rfl⟩ | ⟨g, rfl⟩
  · simp only [Sampler.run] at hR
    split at hR
    · simp only [Except.ok.injEq] at hR
      exact ⟨_, _, hR.symm.trans (sampling_onechild_2D_eq ..)⟩
    · simp at hR
  · simp only [Sampler.run] at hR
    split at hR
    · simp only [Except.ok.injEq] at hR
      exact ⟨_, _, hR.symm.trans (sampling_onechild_3D_eq ..)⟩
    · simp at hR

theorem onechild_oneparent_sweeps {mod p1 : String} {f : OneChildOneParent}
    (h : make_sampling_fct_onechild_oneparent mod p1 = .ok f)
    (order : List Nat) (lp : ℝ) : (Sampler.onechild_oneparent f order lp).Sweeps := by
  have : ∃ g p, f = sampling_onechild_oneparent_2D g p := by
    unfold make_sampling_fct_onechild_oneparent at h
    cases hp : get_posterior_score_fct mod with
    | error e => rw [hp] at h; exact absurd h (by simp [bind, Except.bind])
    | ok p =>
      cases hq : get_parent_score_fct p1 with
      | error e => rw [hp, hq] at h; exact absurd h (by simp [bind, Except.bind])
      | ok q =>
        rw [hp, hq] at h
        simp only [bind, Except.bind] at h
        split at h
        · split at h
          · simp at h; exact ⟨_, _, h.symm⟩
          · simp at h
        · split at h <;> simp at h
  obtain ⟨g, p, rfl⟩ := this
  intro mat factors k child lbda parents rnd R hR
  simp only [Sampler.run] at hR
  split at hR
  · split at hR
    · simp only [Except.ok.injEq] at hR
      exact ⟨_, _, hR.symm.trans (sampling_onechild_oneparent_2D_eq ..)⟩
    · simp at hR
  · simp at hR

theorem nochild_oneparent_sweeps {p1 : String} {f : NoChildOneParent}
    (h : make_sampling_fct_nochild_oneparent p1 = .ok f) (lp : ℝ) :
    (Sampler.nochild_oneparent f lp).Sweeps := by
  have : ∃ p, f = sampling_nochild_oneparent_2D p := by
    unfold make_sampling_fct_nochild_oneparent at h
    cases hq : get_parent_score_fct p1 with
    | error e => rw [hq] at h; exact absurd h (by simp [bind, Except.bind])
    | ok q =>
      rw [hq] at h
      simp only [bind, Except.bind] at h
      split at h
      · split at h
        · simp at h; exact ⟨_, h.symm⟩
        · simp at h
      · split at h <;> simp at h
  obtain ⟨p, rfl⟩ := this
  intro mat factors k child lbda parents rnd R hR
  simp only [Sampler.run] at hR
  split at hR
  · split at hR
    · simp only [Except.ok.injEq] at hR
      exact ⟨_, _, hR.symm.trans (sampling_nochild_oneparent_2D_eq ..)⟩
    · simp at hR
  · simp at hR

theorem nochild_twoparents_sweeps {p1 p2 : String} {f : NoChildTwoParents}
    (h : make_sampling_fct_nochild_twoparents p1 p2 = .ok f) (lp : ℝ) :
    (Sampler.nochild_twoparents f lp).Sweeps := by
  have : (∃ p, f = .two (sampling_nochild_twoparents_2D p)) ∨
      ∃ p, f = .three (sampling_nochild_twoparents_3D p) := by
    unfold make_sampling_fct_nochild_twoparents at h
    cases hp : get_parent_score_fct p1 with
    | error e => rw [hp] at h; exact absurd h (by simp [bind, Except.bind])
    | ok p =>
      cases hq : get_parent_score_fct p2 with
      | error e => rw [hp, hq] at h; exact absurd h (by simp [bind, Except.bind])
      | ok q =>
        rw [hp, hq] at h
        simp only [bind, Except.bind] at h
        split at h
        · split at h
          · simp at h; exact Or.inl ⟨_, h.symm⟩
          · simp at h
        · split at h
          · split at h
            · simp at h; exact Or.inr ⟨_, h.symm⟩
            · simp at h
          · simp at h
  intro mat factors k child lbda parents rnd R hR
  rcases this with ⟨p, rfl⟩ | ⟨p, rfl⟩
  · simp only [Sampler.run] at hR
    split at hR
    · split at hR
      · simp only [Except.ok.injEq] at hR
        exact ⟨_, _, hR.symm.trans (sampling_nochild_twoparents_2D_eq ..)⟩
      · simp at hR
    · simp at hR
  · simp only [Sampler.run] at hR
    split at hR
    · split at hR
      · simp only [Except.ok.injEq] at hR
        exact ⟨_, _, hR.symm.trans (sampling_nochild_twoparents_3D_eq ..)⟩
      · simp at hR
    · simp at hR

theorem onechild_twoparents_sweeps {mod p1 p2 : String} {f : OneChildTwoParents}
    (h : make_sampling_fct_onechild_twoparents mod p1 p2 = .ok f) (order : List Nat) (lp : ℝ) :
    (Sampler.onechild_twoparents f order lp).Sweeps := by
  have : ∃ g p, f = sampling_onechild_twoparents_2D g p := by
    unfold make_sampling_fct_onechild_twoparents at h
    cases hp : get_posterior_score_fct mod with
    | error e => rw [hp] at h; exact absurd h (by simp [bind, Except.bind])
    | ok p =>
      cases hr : get_parent_score_fct p1 with
      | error e => rw [hp, hr] at h; exact absurd h (by simp [bind, Except.bind])
      | ok r =>
        cases hq : get_parent_score_fct p2 with
        | error e => rw [hp, hr, hq] at h; exact absurd h (by simp [bind, Except.bind])
        | ok q =>
          rw [hp, hr, hq] at h
          simp only [bind, Except.bind] at h
          split at h
          · split at h
            · simp at h; exact ⟨_, _, h.symm⟩
            · simp at h
          · split at h <;> simp at h
  obtain ⟨g, p, rfl⟩ := this
  intro mat factors k child lbda parents rnd R hR
  simp only [Sampler.run] at hR
  split at hR
  · split at hR
    · simp only [Except.ok.injEq] at hR
      exact ⟨_, _, hR.symm.trans (sampling_onechild_twoparents_2D_eq ..)⟩
    · simp at hR
  · simp at hR

theorem sweeps_of_get {model : Option String} {factors : List Member} {ax k : Nat} {q : ℝ}
    {parents : List (String × Nat)} {s : Sampler}
    (h : get_sampling_fct none model factors ax k q parents = .ok s) : s.Sweeps := by
  have triv : ∀ s : Sampler, (∀ mat factors k child lbda parents rnd,
      s.run mat factors k child lbda parents rnd = .error .typingError) → s.Sweeps := by
    intro s hs mat factors k child lbda parents rnd R hR
    rw [hs] at hR
    simp at hR
  unfold get_sampling_fct at h
  cases hr : get_relatives_models model factors.length parents with
  | error e => rw [hr] at h; exact absurd h (by simp [bind, Except.bind])
  | ok r =>
    obtain ⟨mod, p1, p2⟩ := r
    rw [hr] at h
    simp only [bind, Except.bind] at h
    split at h
    · split at h
      · simp [throw, throwThe, MonadExceptOf.throw] at h
      · split at h
        · simp [throw, throwThe, MonadExceptOf.throw] at h
        · simp only [pure, Except.pure, Except.ok.injEq] at h
          subst h; exact triv _ fun _ _ _ _ _ _ _ => rfl
    · split at h
      · split at h
        · simp only [pure, Except.pure, Except.ok.injEq] at h
          subst h; exact triv _ fun _ _ _ _ _ _ _ => rfl
        · split at h
          · simp only [pure, Except.pure, Except.ok.injEq] at h
            subst h; exact triv _ fun _ _ _ _ _ _ _ => rfl
          · simp only [pure, Except.pure, Except.ok.injEq] at h
            subst h; exact triv _ fun _ _ _ _ _ _ _ => rfl
      · split at h
        · split at h
          · simp only [pure, Except.pure, Except.ok.injEq] at h
            subst h; exact triv _ fun _ _ _ _ _ _ _ => rfl
          · split at h
            · split at h
              · simp at h
              · rename_i f hf
                simp only [pure, Except.pure, Except.ok.injEq] at h
                subst h; exact lom_sweeps hf _ _
            · simp only [pure, Except.pure, Except.ok.injEq] at h
              subst h; exact triv _ fun _ _ _ _ _ _ _ => rfl
        · split at h
          · split at h
            · simp at h
            · rename_i f hf
              simp only [pure, Except.pure, Except.ok.injEq] at h
              subst h; exact lom_sweeps hf _ _
          · split at h
            · simp at h
            · rename_i f hf
              simp only [pure, Except.pure, Except.ok.injEq] at h
              subst h; exact onechild_oneparent_sweeps hf _ _
          · split at h
            · simp at h
            · rename_i f hf
              simp only [pure, Except.pure, Except.ok.injEq] at h
              subst h; exact nochild_oneparent_sweeps hf _
          · split at h
            · simp at h
            · rename_i f hf
              simp only [pure, Except.pure, Except.ok.injEq] at h
              subst h; exact nochild_twoparents_sweeps hf _
          · split at h
            · simp at h
            · rename_i f hf
              simp only [pure, Except.pure, Except.ok.injEq] at h
              subst h; exact onechild_twoparents_sweeps hf _ _
          · simp [throw, throwThe, MonadExceptOf.throw] at h

theorem flip_zero (x u : ℝ) : flip_metropolised_gibbs_numba x 0 u = 0 := by
  unfold flip_metropolised_gibbs_numba
  simp

theorem sweep_entry (logit : Arr Int → List Nat → ℝ) (Zf : Arr Int) (rnd : Rnd)
    (ts : List (List Nat)) (Z : Arr Int) :
    (sweep logit Zf rnd ts Z).shape = Z.shape ∧ ∀ i,
      (Zf i = 1 → sweep logit Zf rnd ts Z i = Z i) ∧ (IsPM (Z i) → IsPM (sweep logit Zf rnd ts Z i)) ∧
      (Z i = 0 → sweep logit Zf rnd ts Z i = 0) := by
  induction ts generalizing Z with
  | nil => exact ⟨rfl, fun i => ⟨fun _ => rfl, id, id⟩⟩
  | cons t ts ih =>
    obtain ⟨h1, h2⟩ := ih (updEntry logit Zf rnd Z t)
    have hs : (updEntry logit Zf rnd Z t).shape = Z.shape := by
      unfold updEntry; split <;> rfl
    have he : ∀ i, (Zf i = 1 → updEntry logit Zf rnd Z t i = Z i) ∧
        (IsPM (Z i) → IsPM (updEntry logit Zf rnd Z t i)) ∧
        (Z i = 0 → updEntry logit Zf rnd Z t i = 0) := by
      intro i
      unfold updEntry
      split
      · exact ⟨fun _ => rfl, id, id⟩
      · rename_i hf
        by_cases hit : i = t
        · subst hit
          refine ⟨fun h => absurd h hf, fun h => ?_, fun h => ?_⟩
          · simp only [Arr.set, if_true]; exact isPM_flip _ h _
          · simp only [Arr.set, if_true]; rw [h]; exact flip_zero _ _
        · simp only [Arr.set, if_neg hit]
          exact ⟨fun _ => trivial, id, id⟩
    refine ⟨h1.trans hs, fun i => ⟨fun hf => ?_, fun hp => ?_, fun hz => ?_⟩⟩
    · exact ((h2 i).1 hf).trans ((he i).1 hf)
    · exact (h2 i).2.1 ((he i).2.1 hp)
    · exact (h2 i).2.2 ((he i).2.2 hz)

end LFM

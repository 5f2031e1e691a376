import Verif.Lemmas.Machine
import Verif.Lemmas.CleanUp

/-!
# Lemmas about burn-in: number of sweeps, and that nothing but update functions can raise
-/

namespace LFM

variable {F G : Type}

/-! ## What the parts of a turn leave alone -/

theorem autoClean_only {lrs : List LayerInfo} {m m' : Mach F G} {b : Bool} (h : autoClean lrs m = .ok (m', b)) :
    m' = { m with world := m'.world } := by
  induction lrs generalizing m m' b with
  | nil =>
    simp only [autoClean, Except.ok.injEq, Prod.mk.injEq] at h
    rw [← h.1]
  | cons lr lrs ih =>
    rw [autoClean] at h
    split at h
    · rw [bind_ok] at h
      obtain ⟨⟨m1, b1⟩, h1, h⟩ := h
      rw [bind_ok] at h
      obtain ⟨⟨m2, b2⟩, h2, h⟩ := h
      rw [pure_ok, Prod.mk.injEq] at h
      rw [cleanLayer, bind_ok] at h1
      obtain ⟨⟨fs, b'⟩, -, h1⟩ := h1
      rw [pure_ok, Prod.mk.injEq] at h1
      have h2 := ih h2
      rw [← h.1, h2, ← h1.1]
    · exact ih h

theorem finalClean_only {lrs : List LayerInfo} {m m' : Mach F G} (h : finalClean lrs m = .ok m') :
    m' = { m with world := m'.world } := by
  induction lrs generalizing m m' with
  | nil =>
    simp only [finalClean, Except.ok.injEq] at h
    rw [← h]
  | cons lr lrs ih =>
    rw [finalClean] at h
    split at h
    · rw [bind_ok] at h
      obtain ⟨⟨m1, b1⟩, h1, h⟩ := h
      rw [cleanLayer, bind_ok] at h1
      obtain ⟨⟨fs, b'⟩, -, h1⟩ := h1
      rw [pure_ok, Prod.mk.injEq] at h1
      have h2 := ih h
      rw [h2, ← h1.1]
    · exact ih h

theorem windowTurn_only {env : Env F G} {lbdas : List Nat} {eps : ℝ} {cw pre iter : Nat} {m m' : Mach F G} {b : Bool}
    (h : windowTurn env lbdas eps cw pre iter m = .ok (m', b)) :
    m' = { m with world := m'.world, ltrace := m'.ltrace, ltrace_index := m'.ltrace_index,
                  burn_in_iters := m'.burn_in_iters } ∧
    m'.burn_in_iters = (if b = true then some (iter + pre) else m.burn_in_iters) := by
  rw [windowTurn] at h
  split at h
  · unfold windowStep at h
    simp only at h
    rw [bind_ok] at h
    obtain ⟨conv, -, h⟩ := h
    cases conv with
    | false =>
      simp only [Bool.false_eq_true, if_false] at h
      rw [pure_ok, Prod.mk.injEq] at h
      rw [← h.1, ← h.2]
      exact ⟨rfl, rfl⟩
    | true =>
      simp only [if_true] at h
      rw [bind_ok] at h
      obtain ⟨⟨m1, b1⟩, h1, h⟩ := h
      have o := autoClean_only h1
      cases b1 with
      | true =>
        simp only [if_true] at h
        rw [pure_ok, Prod.mk.injEq] at h
        rw [← h.1, ← h.2, o]
        exact ⟨rfl, rfl⟩
      | false =>
        simp only [Bool.false_eq_true, if_false] at h
        rw [pure_ok, Prod.mk.injEq] at h
        rw [← h.1, ← h.2, o]
        exact ⟨rfl, rfl⟩
  · simp only [Except.ok.injEq, Prod.mk.injEq] at h
    rw [← h.1, ← h.2]
    exact ⟨rfl, rfl⟩

theorem stopStep_only {lbdas : List Nat} {iter : Nat} {m m' : Mach F G} (h : stopStep lbdas iter m = .ok m') :
    m' = { m with world := m'.world, ltrace_index := m'.ltrace_index, burn_in_iters := some iter } ∧
    (∀ k ∈ lbdas, m'.ltrace_index k = 0) := by
  rw [stopStep, bind_ok] at h
  obtain ⟨m1, h1, h⟩ := h
  have h1 := finalClean_only h1
  rw [← pure_ok.mp h, h1]
  refine ⟨rfl, ?_⟩
  intro k hk
  show (if k ∈ lbdas then 0 else _) = 0
  rw [if_pos hk]

theorem updateTracesL_only (ks : List Nat) {m m' : Mach F G} (h : ks.foldlM updateTraceL m = .ok m') :
    m' = { m with ltrace := m'.ltrace, ltrace_index := m'.ltrace_index } := by
  refine foldlM_rel (R := fun m m' => m' = { m with ltrace := m'.ltrace, ltrace_index := m'.ltrace_index })
    (fun _ => rfl) ?_ updateTraceL ks ?_ m m' h
  · intro a b c h1 h2
    rw [h1] at h2
    exact h2
  · intro a i _ b hb
    rw [updateTraceL] at hb
    split at hb
    · cases hb
    · rw [bind_ok] at hb
      obtain ⟨t', -, hb⟩ := hb
      rw [← pure_ok.mp hb]

theorem burnSweep_only {env : Env F G} {mats lbdas : List Nat} {m m' : Mach F G}
    (h : burnSweep env mats lbdas m = .ok m') :
    m' = { m with world := m'.world, ltrace := m'.ltrace, ltrace_index := m'.ltrace_index, clock := m.clock + 1 } := by
  rw [burnSweep, bind_ok] at h
  obtain ⟨m1, h1, h⟩ := h
  rw [bind_ok] at h
  obtain ⟨m2, h2, h3⟩ := h
  obtain ⟨w, -, rfl⟩ := sampleMats_ok h1
  obtain ⟨w', -, rfl⟩ := sampleLbdas_ok h2
  rw [updateTracesL_only _ h3]

/-! ## Number of sweeps -/

theorem annealTo_only {pre : Nat} {ss : List (Nat × List ℝ)} {m m' : Mach F G} (h : annealTo pre ss m = .ok m') :
    m' = { m with world := m'.world } := by
  induction ss generalizing m with
  | nil => simp only [annealTo, Except.ok.injEq] at h; rw [← h]
  | cons p ss ih =>
    obtain ⟨k, steps⟩ := p
    rw [annealTo] at h
    cases hx : steps[pre]? with
    | none => rw [hx] at h; cases h
    | some x =>
      rw [hx] at h
      have h' := ih (m := { m with world := { m.world with lbda := upd m.world.lbda k (.scalar (.fin x)) } }) h
      rw [h']

theorem preStep_only {env : Env F G} {mats lbdas : List Nat} {b ps fx pre : Nat} {steps steps' : List (List ℝ)}
    {m m' : Mach F G} (h : preStep env mats lbdas b ps fx pre steps m = .ok (steps', m')) :
    m' = { m with world := m'.world, clock := m.clock + 1 } := by
  unfold preStep at h
  by_cases hp : ps = 0
  · simp [hp, bind, Except.bind, throw, throwThe, MonadExceptOf.throw] at h
  simp only [hp, if_false] at h
  rw [bind_ok] at h
  obtain ⟨m1, h1, h⟩ := h
  obtain ⟨w, -, rfl⟩ := sampleMats_ok h1
  by_cases hpre : pre > fx
  · simp only [hpre, if_true] at h
    by_cases ha : m.anneal = false
    · rw [if_pos ha] at h
      rw [bind_ok] at h
      obtain ⟨m2, h2, h⟩ := h
      rw [pure_ok, Prod.mk.injEq] at h
      obtain ⟨w', -, rfl⟩ := sampleLbdas_ok h2
      rw [← h.2]
    · rw [if_neg ha] at h
      by_cases hf : fx ≠ 0
      · rw [if_pos hf] at h; cases h
      · rw [if_neg hf] at h
        rw [bind_ok] at h
        obtain ⟨st, -, h⟩ := h
        rw [bind_ok] at h
        obtain ⟨m2, h2, h⟩ := h
        rw [pure_ok, Prod.mk.injEq] at h
        rw [← h.2, annealTo_only h2]
  · simp only [hpre, if_false] at h
    rw [pure_ok, Prod.mk.injEq] at h
    rw [← h.2]

theorem preLoop_only {env : Env F G} {mats lbdas : List Nat} {b ps fx todo : Nat} {steps : List (List ℝ)}
    {m m' : Mach F G} (h : preLoop env mats lbdas b ps fx todo steps m = .ok m') :
    m' = { m with world := m'.world, clock := m.clock + todo } := by
  induction todo generalizing steps m with
  | zero => simp only [preLoop, Except.ok.injEq] at h; rw [← h]; rfl
  | succ todo ih =>
    rw [preLoop, bind_ok] at h
    obtain ⟨⟨st, m1⟩, h1, h2⟩ := h
    have h1 := preStep_only h1
    have h2 := ih h2
    rw [h1] at h2
    rw [h2]
    simp only [Nat.add_assoc, Nat.add_comm 1 todo]

/-- the second loop ends at some turn `j`, and `j - iter` sweeps were done -/
theorem mainLoop_count {env : Env F G} {mats lbdas : List Nat} {eps : ℝ} {cw : Nat} {bmax : Int} {ps pre : Nat}
    (n : Nat) : ∀ {iter : Nat} {m m' : Mach F G}, (bmax + 1 - (iter + pre)).toNat = n →
    mainLoop env mats lbdas eps cw bmax ps pre iter m = .ok m' →
    ∃ j, iter ≤ j ∧ m'.clock = m.clock + (j - iter) ∧ ((j : Int) + pre ≤ max (bmax + 1) (iter + pre)) ∧
      ((m'.burn_in_iters = some (j + pre)) ∨ (bmax < (j : Int) + pre ∧ m'.burn_in_iters = some j)) := by
  induction n using Nat.strong_induction_on with
  | _ n ih =>
    intro iter m m' hn h
    obtain ⟨-, -, m1, done, h1, h2⟩ := mainLoop_cases h
    obtain ⟨o1, i1⟩ := windowTurn_only h1
    rcases h2 with ⟨hd, rfl⟩ | ⟨-, hb, h2⟩ | ⟨-, hle, m2, h2, h3⟩
    · refine ⟨iter, le_refl _, ?_, by omega, .inl ?_⟩
      · rw [o1]; simp
      · rw [i1, if_pos hd]
    · obtain ⟨o2, -⟩ := stopStep_only h2
      refine ⟨iter, le_refl _, ?_, by omega, .inr ⟨hb, by rw [o2]⟩⟩
      rw [o2, o1]; simp
    · have o2 := burnSweep_only h2
      obtain ⟨j, hj, hc, hmax, hr⟩ := ih _ (by push_cast; omega) rfl h3
      refine ⟨j, by omega, ?_, by push_cast at hmax; omega, hr⟩
      rw [hc, o2, o1]
      show m.clock + 1 + (j - (iter + 1)) = m.clock + (j - iter)
      omega

/-- burn-in ends at some turn `j ≥ 1` of the second loop after `burn_in_min + (j - 1)` sweeps -/
theorem burn_in_count {env : Env F G} {mats lbdas : List Nat} {eps : ℝ} {cw b : Nat} {bmax : Int} {ps fx : Nat}
    {m m' : Mach F G} (h : burn_in env mats lbdas eps cw b bmax ps fx m = .ok m') :
    ∃ j, 1 ≤ j ∧ m'.clock = m.clock + (b + (j - 1)) ∧ ((j : Int) + b ≤ max (bmax + 1) (1 + b)) ∧
      ((m'.burn_in_iters = some (j + b)) ∨ (bmax < (j : Int) + b ∧ m'.burn_in_iters = some j)) := by
  rw [burn_in, bind_ok] at h
  obtain ⟨m1, h1, h2⟩ := h
  have o1 := preLoop_only h1
  obtain ⟨j, hj, hc, hm, hr⟩ := mainLoop_count _ rfl h2
  refine ⟨j, hj, ?_, by simpa using hm, hr⟩
  rw [hc]
  show m1.clock + (j - 1) = _
  rw [o1]
  show m.clock + b + (j - 1) = _
  omega

end LFM

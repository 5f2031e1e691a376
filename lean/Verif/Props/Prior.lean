import Verif.Props.SingleLayer
import Verif.Lemmas.Prior

/-!
# Properties: which prior inference uses (C45)
-/

namespace LFM

open Spec

variable {F G : Type}

theorem callsM_assigned {env : Env F G} {fct : Nat → Option F} {t : Nat} (xs : List Nat) :
    ∀ {w w' : World}, callsM env fct t xs w = .ok w' → ∀ i ∈ xs, fct i ≠ none := by
  induction xs with
  | nil => intro w w' _ i hi; simp at hi
  | cons x xs ih =>
    intro w w' h i hi
    rw [callsM, List.foldlM_cons, bind_ok] at h
    obtain ⟨w1, h1, h2⟩ := h
    simp only [List.mem_cons] at hi
    rcases hi with rfl | hi
    · intro hn
      rw [hn] at h1
      cases h1
    · exact ih h2 i hi

theorem sweepL_assigned {env : Env F G} {fct : Nat → Option G} {t : Nat} (xs : List Nat) :
    ∀ {w w' : World}, sweepL env fct xs t w = .ok w' → ∀ i ∈ xs, fct i ≠ none := by
  induction xs with
  | nil => intro w w' _ i hi; simp at hi
  | cons x xs ih =>
    intro w w' h i hi
    rw [sweepL, List.foldlM_cons, bind_ok] at h
    obtain ⟨w1, h1, h2⟩ := h
    simp only [List.mem_cons] at hi
    rcases hi with rfl | hi
    · intro hn
      rw [hn] at h1
      cases h1
    · exact ih h2 i hi

/-- what inference leaves alone -/
theorem infer_static {env : Env F G} {S cw b : Nat} {eps : ℝ} {bmax : Int} {ps fx : Nat} {m m' : Mach F G}
    (hnd : (freeMats m).Nodup) (hp : ∀ t, ∀ i ∈ env.perm t (freeMats m), i ∈ freeMats m)
    (h : infer env S cw eps b bmax ps fx m = .ok m') : Static m m' ∧ ∃ m1 m2,
      (freeMats m).foldlM (assignFct env) m = .ok m1 ∧ (freeLbdas m).foldlM (assignLfct env) m1 = .ok m2 ∧
      m'.fct = m2.fct ∧ m'.lfct = m2.lfct := by
  obtain ⟨m1, m2, m3, m4, h1, h2, h3, h4, h5⟩ := infer_phases h
  have T : WSteps env (freeMats m) (freeLbdas m) m.layers (fun _ _ => True) :=
    ⟨fun _ => trivial, fun _ _ => trivial, hp, fun _ _ _ _ _ _ _ => trivial, fun _ _ _ _ _ _ _ => trivial,
      fun _ _ _ _ => trivial, fun _ _ _ _ _ _ _ _ _ => trivial⟩
  refine ⟨(T.infer_rel h).1, m1, m2, h1, h2, ?_⟩
  obtain ⟨e1, e2⟩ := samplingLoop_fct hnd (nodup_freeLbdas m) S h5
  have kb := burn_in_keeps hp h3
  obtain ⟨o4, -⟩ := allocMats_ok _ h4
  rw [e1, e2]
  constructor
  · show m4.fct = _; rw [o4]; show m3.fct = _; rw [kb]; rfl
  · show m4.lfct = _; rw [o4]; show m3.lfct = _; rw [kb]; rfl

/-- **C45** (partial): the first call of `infer` uses the current priors: the sampling function of every factor has the
log odds of the factor's prior. (That these are the prior log odds in the conditional distribution from which entries
are drawn is C16 and C22.) What is missing: later calls, see `C45_wrong`. -/
theorem C45_first_call_partial {wr : Wiring} {m m' : Mach Sampler LbdaUpdate} {lom : Lom8} {lr : LayerInfo} {x : Nat}
    {sizes : List Nat} (H : SingleLayer wr m lom lr x sizes) (S cw bmin : Nat) (eps : ℝ) (bmax : Int) (ps fx : Nat)
    (h : infer (genericEnv wr) S cw eps bmin bmax ps fx m = .ok m') :
    ∀ i ∈ freeMats m, m.fct i = none → ∃ sample order, m'.fct i = some (.lom sample order (logit (m.bernoulli_prior i))) := by
  intro i hi hn
  have hnd : (freeMats m).Nodup := by rw [H.free_eq]; exact H.nodup.filter _
  obtain ⟨-, m1, m2, h1, h2, e1, -⟩ := infer_static hnd (fun t i hi => H.perm t _ i hi) h
  obtain ⟨m1', a1, -, a3, a4, -, a6⟩ := H.assigns (freeMats m) m (fun i hi => H.mem_free hi) rfl rfl (by
    intro i hi s hs
    exact H.cached _ i (H.position hi).1 s hs)
  rw [h1] at a1
  cases a1
  obtain ⟨m2', b1, b2, -⟩ := H.lassigns (m' := m1) a3 (by rw [a4]; exact H.lcached)
  rw [h2] at b1
  cases b1
  rw [e1, b2]
  exact a6 i hi hn

/-- **C45** is wrong, for all machines: once `infer` has drawn a sample, whatever priors are set before the next call,
that call does exactly what it does with the old ones (`setPrior p` sets the attribute). -/
theorem C45_wrong (env : Env F G) (S cw bmin : Nat) (hS : 1 ≤ S) (eps : ℝ) (bmax : Int) (ps fx : Nat) (m m' : Mach F G)
    (hnd : (freeMats m).Nodup) (hp : ∀ t i, i ∈ env.perm t (freeMats m) ↔ i ∈ freeMats m)
    (h : infer env S cw eps bmin bmax ps fx m = .ok m')
    (p : Nat → ℝ) (S' cw' bmin' : Nat) (eps' : ℝ) (bmax' : Int) (ps' fx' : Nat) :
    infer env S' cw' eps' bmin' bmax' ps' fx' (setPrior p m') =
      (infer env S' cw' eps' bmin' bmax' ps' fx' m').map (setPrior p) := by
  have hp' : ∀ t, ∀ i ∈ env.perm t (freeMats m), i ∈ freeMats m := fun t i hi => (hp t i).mp hi
  obtain ⟨hs, -⟩ := infer_static hnd hp' h
  obtain ⟨wm, wl, clock, hC, -⟩ := C39_traces env S cw bmin eps bmax ps fx m m' hnd hp' h
  have e1 : freeMats m' = freeMats m := by
    rw [freeMats, freeMats, members, members, hs.layers, hs.matrices, hs.fixed]
  have e2 : freeLbdas m' = freeLbdas m := by
    rw [freeLbdas, freeLbdas, hs.layers, hs.lfixed]
  refine infer_setPrior env p m' S' cw' eps' bmin' bmax' ps' fx' ?_ ?_
  · intro i hi
    rw [e1] at hi
    exact callsM_assigned _ (hC.mats 0 (by omega)) i ((hp _ i).mpr hi)
  · intro k hk
    rw [e2] at hk
    exact sweepL_assigned _ (hC.lbdas 0 (by omega)) k hk

/-- the hypotheses of `C45_first_call_partial` and `C45_wrong` are met -/
theorem C45_hypotheses_met (rnd : Nat → Nat → Rnd) : ∃ m', infer (genericEnv (wiring2 false false rnd fun _ l => l)) 50 15 0.001 30
      2000 10 0 (mach2 false false []) = .ok m' ∧ (freeMats (mach2 false false [])).Nodup ∧
      ∀ i ∈ freeMats (mach2 false false []), (mach2 false false []).fct i = none := by
  obtain ⟨H, hw, h1, -⟩ := C47_hypotheses_met false false [] rnd (fun _ l => l) (fun _ _ _ h => h)
  obtain ⟨m', h, -⟩ := C47_infer_binary H rfl hw 50 15 30 0.001 2000 10 0 (.inl rfl) (by norm_num) (by norm_num)
  exact ⟨m', h, by rw [h1]; decide, fun _ _ => rfl⟩

end LFM

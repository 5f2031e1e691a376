import Verif.Props.Infer

/-!
# Lemmas: traces of members that are not sampled
-/

namespace LFM

variable {F G : Type}

/-- only the traces of the given matrices and parameters differ -/
def SameTraces (mats lbdas : List Nat) (a b : Mach F G) : Prop :=
  (∀ i ∉ mats, b.trace i = a.trace i) ∧ ∀ k ∉ lbdas, b.ltrace k = a.ltrace k

namespace SameTraces

variable {mats lbdas : List Nat} {a b c : Mach F G}

theorem refl (a : Mach F G) : SameTraces mats lbdas a a := ⟨fun _ _ => rfl, fun _ _ => rfl⟩

theorem trans (h1 : SameTraces mats lbdas a b) (h2 : SameTraces mats lbdas b c) : SameTraces mats lbdas a c :=
  ⟨fun i hi => (h2.1 i hi).trans (h1.1 i hi), fun k hk => (h2.2 k hk).trans (h1.2 k hk)⟩

theorem of_eq (h1 : b.trace = a.trace) (h2 : b.ltrace = a.ltrace) : SameTraces mats lbdas a b :=
  ⟨fun _ _ => by rw [h1], fun _ _ => by rw [h2]⟩

theorem fold {f : Mach F G → Nat → Except Err (Mach F G)} (xs : List Nat)
    (hf : ∀ a, ∀ i ∈ xs, ∀ b, f a i = .ok b → SameTraces mats lbdas a b) (h : xs.foldlM f a = .ok b) :
    SameTraces mats lbdas a b :=
  foldlM_rel refl (fun _ _ _ => trans) f xs hf a b h

theorem assignFct {env : Env F G} {i : Nat} (h : LFM.assignFct env a i = .ok b) : SameTraces mats lbdas a b := by
  rw [LFM.assignFct] at h
  split at h
  · cases h; exact refl _
  · rw [bind_ok] at h
    obtain ⟨⟨f, extra⟩, -, h⟩ := h
    cases extra with
    | none => rw [← pure_ok.mp h]; exact of_eq rfl rfl
    | some p => rw [← pure_ok.mp h]; exact of_eq rfl rfl

theorem assignLfct {env : Env F G} {i : Nat} (h : LFM.assignLfct env a i = .ok b) : SameTraces mats lbdas a b := by
  rw [LFM.assignLfct] at h
  split at h
  · cases h; exact refl _
  · rw [bind_ok] at h
    obtain ⟨g, -, h⟩ := h
    rw [← pure_ok.mp h]; exact of_eq rfl rfl

theorem callMat {env : Env F G} {i : Nat} (h : LFM.callMat env a i = .ok b) : SameTraces mats lbdas a b := by
  rw [LFM.callMat] at h
  split at h
  · cases h
  · rw [bind_ok] at h
    obtain ⟨w, -, h⟩ := h
    rw [← pure_ok.mp h]; exact of_eq rfl rfl

theorem callLbda {env : Env F G} {i : Nat} (h : LFM.callLbda env a i = .ok b) : SameTraces mats lbdas a b := by
  rw [LFM.callLbda] at h
  split at h
  · cases h
  · rw [bind_ok] at h
    obtain ⟨w, -, h⟩ := h
    rw [← pure_ok.mp h]; exact of_eq rfl rfl

theorem sampleMats {env : Env F G} {ms : List Nat} (h : LFM.sampleMats env ms a = .ok b) :
    SameTraces mats lbdas a b := by
  rw [LFM.sampleMats, bind_ok] at h
  obtain ⟨m1, h1, h⟩ := h
  rw [← pure_ok.mp h]
  exact (fold _ (fun _ _ _ _ => callMat) h1).trans (of_eq rfl rfl)

theorem updateTraceM {ibp : Bool} {i : Nat} (hi : i ∈ mats) (h : LFM.updateTraceM ibp a i = .ok b) :
    SameTraces mats lbdas a b := by
  rw [LFM.updateTraceM] at h
  split at h
  · cases h
  · simp only at h
    rw [bind_ok] at h
    obtain ⟨t', -, h⟩ := h
    rw [← pure_ok.mp h]
    refine ⟨fun j hj => ?_, fun _ _ => rfl⟩
    show upd _ _ _ j = _
    rw [upd, if_neg]
    rintro rfl
    exact hj hi

theorem updateTraceL {k : Nat} (hk : k ∈ lbdas) (h : LFM.updateTraceL a k = .ok b) : SameTraces mats lbdas a b := by
  rw [LFM.updateTraceL] at h
  split at h
  · cases h
  · rw [bind_ok] at h
    obtain ⟨t', -, h⟩ := h
    rw [← pure_ok.mp h]
    refine ⟨fun _ _ => rfl, fun j hj => ?_⟩
    show upd _ _ _ j = _
    rw [upd, if_neg]
    rintro rfl
    exact hj hk

theorem samplingStep {env : Env F G} {ps : Nat} (h : LFM.samplingStep env mats lbdas ps a = .ok b) :
    SameTraces mats lbdas a b := by
  rw [LFM.samplingStep, bind_ok] at h
  obtain ⟨m1, h1, h⟩ := h
  rw [bind_ok] at h
  obtain ⟨m2, h2, h⟩ := h
  rw [bind_ok] at h
  obtain ⟨m3, h3, h⟩ := h
  rw [bind_ok] at h
  obtain ⟨m4, h4, h⟩ := h
  by_cases hp : ps = 0
  · simp [hp, throw, throwThe, MonadExceptOf.throw] at h
  simp only [hp, if_false] at h
  rw [← pure_ok.mp h]
  exact (sampleMats h1).trans ((fold _ (fun _ _ hi _ => updateTraceM hi) h2).trans
    ((fold _ (fun _ _ _ _ => callLbda) h3).trans (fold _ (fun _ _ hk _ => updateTraceL hk) h4)))

theorem samplingLoop {env : Env F G} {ps : Nat} (n : Nat) : ∀ {a b : Mach F G},
    LFM.samplingLoop env mats lbdas ps n a = .ok b → SameTraces mats lbdas a b := by
  induction n with
  | zero => intro a b h; simp only [LFM.samplingLoop, Except.ok.injEq] at h; rw [h]; exact refl _
  | succ n ih =>
    intro a b h
    rw [LFM.samplingLoop, bind_ok] at h
    obtain ⟨m1, h1, h2⟩ := h
    exact (samplingStep h1).trans (ih h2)

theorem burn_in {env : Env F G} (hp : ∀ t, ∀ i ∈ env.perm t mats, i ∈ mats) {eps : ℝ} {cw bmin : Nat} {bmax : Int}
    {ps fx : Nat} (h : LFM.burn_in env mats lbdas eps cw bmin bmax ps fx a = .ok b) : SameTraces mats lbdas a b := by
  have kb := burn_in_keeps hp h
  exact ⟨fun i _ => by rw [kb], ((keepsTraces_steps a.layers hp).burn_in_rel rfl h).2⟩

end SameTraces

/-- inference changes the traces of sampled members only -/
theorem infer_sameTraces {env : Env F G} {S cw bmin : Nat} {eps : ℝ} {bmax : Int} {ps fx : Nat} {m m' : Mach F G}
    (hp : ∀ t, ∀ i ∈ env.perm t (freeMats m), i ∈ freeMats m) (h : infer env S cw eps bmin bmax ps fx m = .ok m') :
    SameTraces (freeMats m) (freeLbdas m) m m' := by
  obtain ⟨m1, m2, m3, m4, h1, h2, h3, h4, h5⟩ := infer_phases h
  have r1 : SameTraces (freeMats m) (freeLbdas m) m m1 := SameTraces.fold _ (fun _ _ _ _ => SameTraces.assignFct) h1
  have r2 : SameTraces (freeMats m) (freeLbdas m) m1 m2 := SameTraces.fold _ (fun _ _ _ _ => SameTraces.assignLfct) h2
  have r3 := SameTraces.burn_in hp h3
  obtain ⟨o4, t4⟩ := allocMats_ok _ h4
  have r4 : SameTraces (freeMats m) (freeLbdas m) m3 m4 := by
    refine ⟨fun i hi => ?_, fun k _ => by rw [o4]⟩
    rw [t4, if_neg hi]
  have r5 : SameTraces (freeMats m) (freeLbdas m) m4 (allocLbdasS env.junkSampling S (freeLbdas m) m4) :=
    ⟨fun _ _ => rfl, fun k hk => if_neg hk⟩
  exact r1.trans (r2.trans (SameTraces.trans (SameTraces.of_eq rfl rfl) (r3.trans (r4.trans (r5.trans
    (SameTraces.samplingLoop S h5))))))

end LFM

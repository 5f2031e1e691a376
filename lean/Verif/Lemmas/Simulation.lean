import Verif.Lemmas.Sampling
import Verif.Lemmas.FixedLbda

/-!
# Lemmas: two runs of inference side by side

A relation between worlds that all update functions respect is respected by burn-in and by sampling, if lambdas of related
worlds are equal: decisions during burn-in depend on lambdas only.
-/

namespace LFM

variable {F G : Type}

/-- if `x` succeeds, so does `y`, with a related result -/
def Sims {α β : Type} (P : α → β → Prop) (x : Except Err α) (y : Except Err β) : Prop :=
  ∀ a, x = .ok a → ∃ b, y = .ok b ∧ P a b

theorem Sims.ok {α β : Type} {P : α → β → Prop} {a : α} {b : β} (h : P a b) :
    Sims P (.ok a : Except Err α) (.ok b : Except Err β) := by
  intro a' ha'
  cases ha'
  exact ⟨b, rfl, h⟩

theorem Sims.error {α β : Type} {P : α → β → Prop} {e : Err} {y : Except Err β} :
    Sims P (.error e : Except Err α) y := by
  intro a ha
  cases ha

theorem Sims.bind {α β γ δ : Type} {P : α → β → Prop} {Q : γ → δ → Prop} {x : Except Err α} {y : Except Err β}
    {f : α → Except Err γ} {g : β → Except Err δ} (h : Sims P x y) (hfg : ∀ a b, P a b → Sims Q (f a) (g b)) :
    Sims Q (x >>= f) (y >>= g) := by
  intro c hc
  rw [bind_ok] at hc
  obtain ⟨a, h1, h2⟩ := hc
  obtain ⟨b, h3, h4⟩ := h a h1
  obtain ⟨d, h5, h6⟩ := hfg a b h4 c h2
  exact ⟨d, by rw [bind_ok]; exact ⟨b, h3, h5⟩, h6⟩

theorem Sims.foldlM {α β γ : Type} {P : α → β → Prop} {f : α → γ → Except Err α} {g : β → γ → Except Err β}
    (xs : List γ) : ∀ {a : α} {b : β}, (∀ a b, ∀ x ∈ xs, P a b → Sims P (f a x) (g b x)) → P a b →
      Sims P (xs.foldlM f a) (xs.foldlM g b) := by
  induction xs with
  | nil => intro a b _ h; exact Sims.ok h
  | cons x xs ih =>
    intro a b hs h
    rw [List.foldlM_cons, List.foldlM_cons]
    exact (hs a b x (by simp) h).bind fun a' b' h' => ih (fun a b y hy => hs a b y (by simp [hy])) h'

/-- update functions respect a relation between worlds -/
structure Sim (e₁ e₂ : Env F G) (mats₁ mats₂ lbdas : List Nat) (fct₁ fct₂ : Nat → Option F) (lfct₁ lfct₂ : Nat → Option G)
    (R : World → World → Prop) : Prop where
  perm : ∀ t, e₂.perm t mats₂ = e₁.perm t mats₁
  mem : ∀ t, ∀ i ∈ e₁.perm t mats₁, i ∈ mats₁
  junk : e₂.junk = e₁.junk
  mat : ∀ i ∈ mats₁, ∃ f₁ f₂, fct₁ i = some f₁ ∧ fct₂ i = some f₂ ∧
    ∀ t w₁ w₂, R w₁ w₂ → Sims R (e₁.runMat f₁ i t w₁) (e₂.runMat f₂ i t w₂)
  lbda : ∀ k ∈ lbdas, ∃ g₁ g₂, lfct₁ k = some g₁ ∧ lfct₂ k = some g₂ ∧
    ∀ t w₁ w₂, R w₁ w₂ → Sims R (e₁.runLbda g₁ k t w₁) (e₂.runLbda g₂ k t w₂)
  anneal : ∀ k ∈ lbdas, ∀ y w₁ w₂, R w₁ w₂ → R { w₁ with lbda := upd w₁.lbda k (.scalar (.fin y)) }
    { w₂ with lbda := upd w₂.lbda k (.scalar (.fin y)) }
  eq : ∀ w₁ w₂, R w₁ w₂ → ∀ k ∈ lbdas, w₂.lbda k = w₁.lbda k

/-- related machines -/
structure MRel (lbdas : List Nat) (fct₁ fct₂ : Nat → Option F) (lfct₁ lfct₂ : Nat → Option G)
    (R : World → World → Prop) (m₁ m₂ : Mach F G) : Prop where
  fct₁ : m₁.fct = fct₁
  fct₂ : m₂.fct = fct₂
  lfct₁ : m₁.lfct = lfct₁
  lfct₂ : m₂.lfct = lfct₂
  anneal : m₂.anneal = m₁.anneal
  clock : m₂.clock = m₁.clock
  off₁ : ∀ lr ∈ m₁.layers, lr.auto_clean = false ∧ lr.auto_reset = false
  off₂ : ∀ lr ∈ m₂.layers, lr.auto_clean = false ∧ lr.auto_reset = false
  world : R m₁.world m₂.world

/-- equal traces of parameters -/
def TRel (lbdas : List Nat) (m₁ m₂ : Mach F G) : Prop :=
  ∀ k ∈ lbdas, m₂.ltrace k = m₁.ltrace k ∧ m₂.ltrace_index k = m₁.ltrace_index k

namespace Sim

variable {e₁ e₂ : Env F G} {mats₁ mats₂ lbdas : List Nat} {fct₁ fct₂ : Nat → Option F} {lfct₁ lfct₂ : Nat → Option G}
  {R : World → World → Prop}

theorem sweepM (T : Sim e₁ e₂ mats₁ mats₂ lbdas fct₁ fct₂ lfct₁ lfct₂ R) (t : Nat) {w₁ w₂ : World} (h : R w₁ w₂) :
    Sims R (LFM.sweepM e₁ fct₁ mats₁ t w₁) (LFM.sweepM e₂ fct₂ mats₂ t w₂) := by
  rw [LFM.sweepM, LFM.sweepM, T.perm, callsM, callsM]
  refine Sims.foldlM _ (fun a b i hi hab => ?_) h
  obtain ⟨f₁, f₂, h1, h2, h3⟩ := T.mat i (T.mem t i hi)
  rw [h1, h2]
  exact h3 t a b hab

theorem sweepL (T : Sim e₁ e₂ mats₁ mats₂ lbdas fct₁ fct₂ lfct₁ lfct₂ R) (t : Nat) {w₁ w₂ : World} (h : R w₁ w₂) :
    Sims R (LFM.sweepL e₁ lfct₁ lbdas t w₁) (LFM.sweepL e₂ lfct₂ lbdas t w₂) := by
  rw [LFM.sweepL, LFM.sweepL]
  refine Sims.foldlM _ (fun a b k hk hab => ?_) h
  obtain ⟨g₁, g₂, h1, h2, h3⟩ := T.lbda k hk
  rw [h1, h2]
  exact h3 t a b hab

/-- related machines with equal traces of parameters, or without that -/
def Both (lbdas : List Nat) (fct₁ fct₂ : Nat → Option F) (lfct₁ lfct₂ : Nat → Option G)
    (R : World → World → Prop) (tr : Bool) (m₁ m₂ : Mach F G) : Prop :=
  MRel lbdas fct₁ fct₂ lfct₁ lfct₂ R m₁ m₂ ∧ (tr = true → TRel lbdas m₁ m₂)

variable {tr : Bool}

theorem sampleMats (T : Sim e₁ e₂ mats₁ mats₂ lbdas fct₁ fct₂ lfct₁ lfct₂ R) {m₁ m₂ : Mach F G}
    (h : Both lbdas fct₁ fct₂ lfct₁ lfct₂ R tr m₁ m₂) :
    Sims (Both lbdas fct₁ fct₂ lfct₁ lfct₂ R tr) (LFM.sampleMats e₁ mats₁ m₁) (LFM.sampleMats e₂ mats₂ m₂) := by
  obtain ⟨h, ht⟩ := h
  rw [sampleMats_eq, sampleMats_eq, h.fct₁, h.fct₂, h.clock]
  refine (T.sweepM m₁.clock h.world).bind fun a b hab => Sims.ok ⟨?_, ht⟩
  exact ⟨rfl, rfl, h.lfct₁, h.lfct₂, h.anneal, rfl, h.off₁, h.off₂, hab⟩

theorem sampleLbdas (T : Sim e₁ e₂ mats₁ mats₂ lbdas fct₁ fct₂ lfct₁ lfct₂ R) {m₁ m₂ : Mach F G}
    (h : Both lbdas fct₁ fct₂ lfct₁ lfct₂ R tr m₁ m₂) :
    Sims (Both lbdas fct₁ fct₂ lfct₁ lfct₂ R tr) (LFM.sampleLbdas e₁ lbdas m₁) (LFM.sampleLbdas e₂ lbdas m₂) := by
  obtain ⟨h, ht⟩ := h
  rw [sampleLbdas_eq, sampleLbdas_eq, h.lfct₁, h.lfct₂, h.clock]
  refine (T.sweepL m₁.clock h.world).bind fun a b hab => Sims.ok ⟨?_, ht⟩
  exact ⟨h.fct₁, h.fct₂, rfl, rfl, h.anneal, rfl, h.off₁, h.off₂, hab⟩

theorem annealTo (T : Sim e₁ e₂ mats₁ mats₂ lbdas fct₁ fct₂ lfct₁ lfct₂ R) (pre : Nat) (ss : List (Nat × List ℝ))
    (hs : ∀ p ∈ ss, p.1 ∈ lbdas) {m₁ m₂ : Mach F G} (h : Both lbdas fct₁ fct₂ lfct₁ lfct₂ R tr m₁ m₂) :
    Sims (Both lbdas fct₁ fct₂ lfct₁ lfct₂ R tr) (LFM.annealTo pre ss m₁) (LFM.annealTo pre ss m₂) := by
  induction ss generalizing m₁ m₂ with
  | nil => exact Sims.ok h
  | cons p ss ih =>
    obtain ⟨k, steps⟩ := p
    rw [LFM.annealTo, LFM.annealTo]
    cases steps[pre]? with
    | none => exact Sims.error
    | some y =>
      refine ih (fun q hq => hs q (by simp [hq])) ⟨?_, h.2⟩
      obtain ⟨h, -⟩ := h
      exact ⟨h.fct₁, h.fct₂, h.lfct₁, h.lfct₂, h.anneal, h.clock, h.off₁, h.off₂,
        T.anneal k (hs (k, steps) (by simp)) y _ _ h.world⟩

theorem annealingSteps (T : Sim e₁ e₂ mats₁ mats₂ lbdas fct₁ fct₂ lfct₁ lfct₂ R) {b fx pre : Nat} {steps : List (List ℝ)}
    {m₁ m₂ : Mach F G} (h : Both lbdas fct₁ fct₂ lfct₁ lfct₂ R tr m₁ m₂) :
    LFM.annealingSteps lbdas b fx pre steps m₂ = LFM.annealingSteps lbdas b fx pre steps m₁ := by
  unfold LFM.annealingSteps
  split
  · have : ∀ ks : List Nat, (∀ k ∈ ks, k ∈ lbdas) → (ks.mapM fun k => annealing b (m₂.world.lbda k)) =
        ks.mapM fun k => annealing b (m₁.world.lbda k) := by
      intro ks
      induction ks with
      | nil => intro _; rfl
      | cons k ks ih =>
        intro hk
        rw [List.mapM_cons, List.mapM_cons, T.eq _ _ h.1.world k (hk k (by simp)), ih fun j hj => hk j (by simp [hj])]
    exact this lbdas fun _ h => h
  · rfl

theorem preStep (T : Sim e₁ e₂ mats₁ mats₂ lbdas fct₁ fct₂ lfct₁ lfct₂ R) {b ps fx pre : Nat} {steps : List (List ℝ)}
    {m₁ m₂ : Mach F G} (h : Both lbdas fct₁ fct₂ lfct₁ lfct₂ R tr m₁ m₂) :
    Sims (fun r₁ r₂ => r₂.1 = r₁.1 ∧ Both lbdas fct₁ fct₂ lfct₁ lfct₂ R tr r₁.2 r₂.2)
      (LFM.preStep e₁ mats₁ lbdas b ps fx pre steps m₁) (LFM.preStep e₂ mats₂ lbdas b ps fx pre steps m₂) := by
  unfold LFM.preStep
  by_cases hp : ps = 0
  · simp only [hp, if_true]
    exact Sims.error
  simp only [hp, if_false]
  refine (T.sampleMats h).bind fun a₁ a₂ ha => ?_
  by_cases hpre : pre > fx
  · simp only [hpre, if_true, ha.1.anneal]
    by_cases han : a₁.anneal = false
    · simp only [han, if_true]
      exact (T.sampleLbdas ha).bind fun c₁ c₂ hc => Sims.ok ⟨rfl, hc⟩
    · simp only [han]
      by_cases hf : fx ≠ 0
      · rw [if_pos hf]
        exact Sims.error
      · rw [if_neg hf, if_neg hf, T.annealingSteps ha]
        refine Sims.bind (P := Eq) (fun s hs => ⟨s, hs, rfl⟩) ?_
        rintro s _ rfl
        refine (T.annealTo pre _ ?_ ha).bind fun c₁ c₂ hc => Sims.ok ⟨rfl, hc⟩
        rintro ⟨k, s'⟩ hk
        exact (List.of_mem_zip hk).1
  · simp only [hpre, if_false]
    exact Sims.ok ⟨rfl, ha⟩

theorem preLoop (T : Sim e₁ e₂ mats₁ mats₂ lbdas fct₁ fct₂ lfct₁ lfct₂ R) {b ps fx : Nat} (todo : Nat) :
    ∀ {steps : List (List ℝ)} {m₁ m₂ : Mach F G}, Both lbdas fct₁ fct₂ lfct₁ lfct₂ R tr m₁ m₂ →
    Sims (Both lbdas fct₁ fct₂ lfct₁ lfct₂ R tr)
      (LFM.preLoop e₁ mats₁ lbdas b ps fx todo steps m₁) (LFM.preLoop e₂ mats₂ lbdas b ps fx todo steps m₂) := by
  induction todo with
  | zero => intro steps m₁ m₂ h; exact Sims.ok h
  | succ todo ih =>
    intro steps m₁ m₂ h
    rw [LFM.preLoop, LFM.preLoop]
    refine (T.preStep h).bind ?_
    rintro ⟨s₁, a₁⟩ ⟨s₂, a₂⟩ ⟨hs, ha⟩
    dsimp only at hs ha ⊢
    subst hs
    exact ih ha

theorem updateTracesL (T : Sim e₁ e₂ mats₁ mats₂ lbdas fct₁ fct₂ lfct₁ lfct₂ R) {m₁ m₂ : Mach F G}
    (h : Both lbdas fct₁ fct₂ lfct₁ lfct₂ R true m₁ m₂) :
    Sims (Both lbdas fct₁ fct₂ lfct₁ lfct₂ R true) (lbdas.foldlM updateTraceL m₁) (lbdas.foldlM updateTraceL m₂) := by
  refine Sims.foldlM _ (fun a b k hk hab => ?_) h
  obtain ⟨h, ht⟩ := hab
  have ht := ht rfl
  rw [updateTraceL, updateTraceL, (ht k hk).1]
  cases a.ltrace k with
  | none => exact Sims.error
  | some t =>
    dsimp only
    rw [(ht k hk).2, T.eq _ _ h.world k hk]
    refine Sims.bind (P := Eq) (fun s hs => ⟨s, hs, rfl⟩) ?_
    rintro t' _ rfl
    refine Sims.ok ⟨⟨h.fct₁, h.fct₂, h.lfct₁, h.lfct₂, h.anneal, h.clock, h.off₁, h.off₂, h.world⟩, fun _ j hj => ?_⟩
    simp only [upd]
    by_cases hjk : j = k
    · simp [hjk]
    · simp [hjk, ht j hj]

theorem burnSweep (T : Sim e₁ e₂ mats₁ mats₂ lbdas fct₁ fct₂ lfct₁ lfct₂ R) {m₁ m₂ : Mach F G}
    (h : Both lbdas fct₁ fct₂ lfct₁ lfct₂ R true m₁ m₂) :
    Sims (Both lbdas fct₁ fct₂ lfct₁ lfct₂ R true) (LFM.burnSweep e₁ mats₁ lbdas m₁) (LFM.burnSweep e₂ mats₂ lbdas m₂) := by
  rw [LFM.burnSweep, LFM.burnSweep]
  exact (T.sampleMats h).bind fun _ _ ha => (T.sampleLbdas ha).bind fun _ _ hb => T.updateTracesL hb

theorem allConverged {eps : ℝ} {m₁ m₂ : Mach F G} (ks : List Nat)
    (h : ∀ k ∈ ks, m₂.ltrace k = m₁.ltrace k) : LFM.allConverged eps m₂ ks = LFM.allConverged eps m₁ ks := by
  induction ks with
  | nil => rfl
  | cons k ks ih => rw [LFM.allConverged, LFM.allConverged, h k (by simp), ih fun j hj => h j (by simp [hj])]

/-- the same results, in one or two respects -/
def Same (lbdas : List Nat) (fct₁ fct₂ : Nat → Option F) (lfct₁ lfct₂ : Nat → Option G)
    (R : World → World → Prop) (m₁ m₂ : Mach F G) : Prop :=
  Both lbdas fct₁ fct₂ lfct₁ lfct₂ R true m₁ m₂ ∧ m₂.burn_in_iters = m₁.burn_in_iters

theorem resetIndexL {m₁ m₂ : Mach F G} (h : Both lbdas fct₁ fct₂ lfct₁ lfct₂ R true m₁ m₂) :
    Both lbdas fct₁ fct₂ lfct₁ lfct₂ R true (LFM.resetIndexL lbdas m₁) (LFM.resetIndexL lbdas m₂) := by
  obtain ⟨h, ht⟩ := h
  refine ⟨⟨h.fct₁, h.fct₂, h.lfct₁, h.lfct₂, h.anneal, h.clock, h.off₁, h.off₂, h.world⟩, fun _ k hk => ⟨(ht rfl k hk).1, ?_⟩⟩
  simp [LFM.resetIndexL, hk]

theorem windowTurn {eps : ℝ} {cw pre iter : Nat} {m₁ m₂ : Mach F G}
    (h : Both lbdas fct₁ fct₂ lfct₁ lfct₂ R true m₁ m₂) :
    Sims (fun r₁ r₂ => r₂.2 = r₁.2 ∧ Both lbdas fct₁ fct₂ lfct₁ lfct₂ R true r₁.1 r₂.1 ∧
        (r₁.2 = true → r₂.1.burn_in_iters = r₁.1.burn_in_iters))
      (LFM.windowTurn e₁ lbdas eps cw pre iter m₁) (LFM.windowTurn e₂ lbdas eps cw pre iter m₂) := by
  rw [LFM.windowTurn, LFM.windowTurn]
  split
  · unfold LFM.windowStep
    have hr := resetIndexL h
    dsimp only
    rw [allConverged lbdas fun k hk => (hr.2 rfl k hk).1]
    refine Sims.bind (P := Eq) (fun s hs => ⟨s, hs, rfl⟩) ?_
    rintro conv _ rfl
    cases conv with
    | false =>
      simp only [Bool.false_eq_true, if_false]
      exact Sims.ok ⟨rfl, hr, fun h => by cases h⟩
    | true =>
      simp only [if_true]
      rw [autoClean_off hr.1.off₁, autoClean_off hr.1.off₂]
      refine Sims.ok ⟨rfl, ⟨?_, hr.2⟩, fun _ => rfl⟩
      obtain ⟨h, -⟩ := hr
      exact ⟨h.fct₁, h.fct₂, h.lfct₁, h.lfct₂, h.anneal, h.clock, h.off₁, h.off₂, h.world⟩
  · exact Sims.ok ⟨rfl, h, fun h => by cases h⟩

theorem stopStep {iter : Nat} {m₁ m₂ : Mach F G} (h : Both lbdas fct₁ fct₂ lfct₁ lfct₂ R true m₁ m₂) :
    Sims (Same lbdas fct₁ fct₂ lfct₁ lfct₂ R) (LFM.stopStep lbdas iter m₁) (LFM.stopStep lbdas iter m₂) := by
  rw [LFM.stopStep, LFM.stopStep, finalClean_off h.1.off₁, finalClean_off h.1.off₂]
  have hr := resetIndexL h
  refine Sims.ok ⟨⟨?_, hr.2⟩, rfl⟩
  obtain ⟨h, -⟩ := hr
  exact ⟨h.fct₁, h.fct₂, h.lfct₁, h.lfct₂, h.anneal, h.clock, h.off₁, h.off₂, h.world⟩

theorem mainLoop (T : Sim e₁ e₂ mats₁ mats₂ lbdas fct₁ fct₂ lfct₁ lfct₂ R) {eps : ℝ} {cw : Nat} {bmax : Int} {ps pre : Nat}
    (n : Nat) : ∀ {iter : Nat} {m₁ m₂ : Mach F G}, (bmax + 1 - (iter + pre)).toNat = n →
    Both lbdas fct₁ fct₂ lfct₁ lfct₂ R true m₁ m₂ →
    Sims (Same lbdas fct₁ fct₂ lfct₁ lfct₂ R) (LFM.mainLoop e₁ mats₁ lbdas eps cw bmax ps pre iter m₁)
      (LFM.mainLoop e₂ mats₂ lbdas eps cw bmax ps pre iter m₂) := by
  induction n using Nat.strong_induction_on with
  | _ n ih =>
    intro iter m₁ m₂ hn h
    by_cases h0 : ps = 0 ∨ cw = 0
    · rw [mainLoop_zero h0]
      exact Sims.error
    rw [mainLoop_eq (fun h => h0 (.inl h)) (fun h => h0 (.inr h)), mainLoop_eq (fun h => h0 (.inl h)) (fun h => h0 (.inr h))]
    refine (windowTurn h).bind ?_
    rintro ⟨a₁, d₁⟩ ⟨a₂, d₂⟩ ⟨hd, ha, hb⟩
    dsimp only at hd ha hb ⊢
    subst hd
    by_cases hdone : d₂ = true
    · rw [if_pos hdone, if_pos hdone]
      exact Sims.ok ⟨ha, hb hdone⟩
    · rw [if_neg hdone, if_neg hdone]
      by_cases hlt : bmax < (iter : Int) + pre
      · rw [if_pos hlt, if_pos hlt]
        exact stopStep ha
      · rw [if_neg hlt, if_neg hlt]
        exact (T.burnSweep ha).bind fun b₁ b₂ hb => ih _ (by push_cast; omega) rfl hb

theorem burn_in (T : Sim e₁ e₂ mats₁ mats₂ lbdas fct₁ fct₂ lfct₁ lfct₂ R) {eps : ℝ} {cw b : Nat} {bmax : Int} {ps fx : Nat}
    {m₁ m₂ : Mach F G} (h : MRel lbdas fct₁ fct₂ lfct₁ lfct₂ R m₁ m₂) :
    Sims (Same lbdas fct₁ fct₂ lfct₁ lfct₂ R) (LFM.burn_in e₁ mats₁ lbdas eps cw b bmax ps fx m₁)
      (LFM.burn_in e₂ mats₂ lbdas eps cw b bmax ps fx m₂) := by
  rw [LFM.burn_in, LFM.burn_in]
  refine (T.preLoop (tr := false) b ⟨h, fun h => by cases h⟩).bind ?_
  rintro a₁ a₂ ⟨ha, -⟩
  refine T.mainLoop _ rfl ⟨⟨ha.fct₁, ha.fct₂, ha.lfct₁, ha.lfct₂, ha.anneal, ha.clock, ha.off₁, ha.off₂, ha.world⟩, ?_⟩
  intro _ k hk
  simp only [allocLbdas, hk, if_true, T.junk, T.eq _ _ ha.world k hk, and_self]

/-- sampling -/
theorem chain (T : Sim e₁ e₂ mats₁ mats₂ lbdas fct₁ fct₂ lfct₁ lfct₂ R) {clock S : Nat} {wm₁ wl₁ wm₂ wl₂ : Nat → World}
    (h₁ : Chain e₁ fct₁ lfct₁ mats₁ lbdas clock S wm₁ wl₁) (h₂ : Chain e₂ fct₂ lfct₂ mats₂ lbdas clock S wm₂ wl₂)
    (h0 : R (wl₁ 0) (wl₂ 0)) : ∀ t ≤ S, R (wl₁ t) (wl₂ t) ∧ (t < S → R (wm₁ t) (wm₂ t)) := by
  have hm : ∀ t < S, R (wl₁ t) (wl₂ t) → R (wm₁ t) (wm₂ t) := by
    intro t ht h
    obtain ⟨w, e1, e2⟩ := T.sweepM (clock + t) h _ (h₁.mats t ht)
    rw [h₂.mats t ht] at e1
    cases e1
    exact e2
  intro t ht
  induction t with
  | zero => exact ⟨h0, fun h => hm 0 h h0⟩
  | succ t ih =>
    have h1 := (ih (by omega)).2 (by omega)
    obtain ⟨w, e1, e2⟩ := T.sweepL (clock + t + 1) h1 _ (h₁.lbdas t (by omega))
    rw [h₂.lbdas t (by omega)] at e1
    cases e1
    exact ⟨e2, fun h => hm _ h e2⟩

end Sim

end LFM

import Verif.Model.Machine

/-!
# Lemmas about the model of `Machine`
-/

namespace LFM

variable {F G : Type}

theorem bind_ok {α β : Type} {x : Except Err α} {f : α → Except Err β} {b : β} :
    (x >>= f) = .ok b ↔ ∃ a, x = .ok a ∧ f a = .ok b := by
  cases x with
  | error e => simp [bind, Except.bind]
  | ok a => simp [bind, Except.bind]

theorem pure_ok {α : Type} {a b : α} : (pure a : Except Err α) = .ok b ↔ a = b := by
  simp [pure, Except.pure]

theorem foldlM_rel {α β : Type} {R : β → β → Prop} (refl : ∀ b, R b b) (trans : ∀ a b c, R a b → R b c → R a c)
    (f : β → α → Except Err β) (xs : List α) (h : ∀ b, ∀ x ∈ xs, ∀ b', f b x = .ok b' → R b b') :
    ∀ b b', xs.foldlM f b = .ok b' → R b b' := by
  induction xs with
  | nil =>
    intro b b' hb
    rw [List.foldlM_nil, pure_ok] at hb
    rw [← hb]; exact refl b
  | cons x xs ih =>
    intro b b' hb
    rw [List.foldlM_cons, bind_ok] at hb
    obtain ⟨c, h1, h2⟩ := hb
    exact trans _ _ _ (h b x (by simp) c h1) (ih (fun b y hy => h b y (by simp [hy])) c b' h2)

/-! ## Sweeps in terms of worlds -/

/-- calling the update functions of matrices one after the other -/
def callsM (env : Env F G) (fct : Nat → Option F) (clock : Nat) (xs : List Nat) (w : World) : Except Err World :=
  xs.foldlM (fun w i =>
    match fct i with
    | none => .error .typingError
    | some f => env.runMat f i clock w) w

/-- calling the matrix update functions in the order of that sweep -/
def sweepM (env : Env F G) (fct : Nat → Option F) (mats : List Nat) (clock : Nat) (w : World) : Except Err World :=
  callsM env fct clock (env.perm clock mats) w

/-- calling the parameter update functions -/
def sweepL (env : Env F G) (lfct : Nat → Option G) (lbdas : List Nat) (clock : Nat) (w : World) : Except Err World :=
  lbdas.foldlM (fun w k =>
    match lfct k with
    | none => .error .typingError
    | some g => env.runLbda g k clock w) w

theorem callMats_eq (env : Env F G) (xs : List Nat) (m : Mach F G) :
    xs.foldlM (callMat env) m = callsM env m.fct m.clock xs m.world >>= fun w => pure { m with world := w } := by
  unfold callsM
  induction xs generalizing m with
  | nil => rfl
  | cons x xs ih =>
    rw [List.foldlM_cons, List.foldlM_cons, callMat]
    cases hf : m.fct x with
    | none => simp [bind, Except.bind]
    | some f =>
      simp only
      cases hr : env.runMat f x m.clock m.world with
      | error e => simp [bind, Except.bind]
      | ok w =>
        simp only [bind, Except.bind, pure, Except.pure]
        have := ih { m with world := w }
        simp only [bind, Except.bind, pure, Except.pure] at this
        exact this

theorem sampleMats_eq (env : Env F G) (mats : List Nat) (m : Mach F G) :
    sampleMats env mats m = sweepM env m.fct mats m.clock m.world >>= fun w =>
      pure { m with world := w, clock := m.clock + 1 } := by
  rw [sampleMats, callMats_eq, sweepM]
  cases callsM env m.fct m.clock (env.perm m.clock mats) m.world <;> rfl

theorem sampleLbdas_eq (env : Env F G) (lbdas : List Nat) (m : Mach F G) :
    sampleLbdas env lbdas m = sweepL env m.lfct lbdas m.clock m.world >>= fun w => pure { m with world := w } := by
  unfold sampleLbdas sweepL
  induction lbdas generalizing m with
  | nil => rfl
  | cons x xs ih =>
    rw [List.foldlM_cons, List.foldlM_cons, callLbda]
    cases hf : m.lfct x with
    | none => simp [bind, Except.bind]
    | some f =>
      simp only
      cases hr : env.runLbda f x m.clock m.world with
      | error e => simp [bind, Except.bind]
      | ok w =>
        simp only [bind, Except.bind, pure, Except.pure]
        have := ih { m with world := w }
        simp only [bind, Except.bind, pure, Except.pure] at this
        exact this

theorem sampleMats_ok {env : Env F G} {mats : List Nat} {m m' : Mach F G} (h : sampleMats env mats m = .ok m') :
    ∃ w, sweepM env m.fct mats m.clock m.world = .ok w ∧ m' = { m with world := w, clock := m.clock + 1 } := by
  rw [sampleMats_eq, bind_ok] at h
  obtain ⟨w, h1, h2⟩ := h
  exact ⟨w, h1, (pure_ok.mp h2).symm⟩

theorem sampleLbdas_ok {env : Env F G} {lbdas : List Nat} {m m' : Mach F G} (h : sampleLbdas env lbdas m = .ok m') :
    ∃ w, sweepL env m.lfct lbdas m.clock m.world = .ok w ∧ m' = { m with world := w } := by
  rw [sampleLbdas_eq, bind_ok] at h
  obtain ⟨w, h1, h2⟩ := h
  exact ⟨w, h1, (pure_ok.mp h2).symm⟩

/-! ## Attributes nobody changes -/

/-- attributes that inference only reads -/
structure Static (m m' : Mach F G) : Prop where
  layers : m'.layers = m.layers
  matrices : m'.matrices = m.matrices
  anneal : m'.anneal = m.anneal
  fixed : m'.fixed = m.fixed
  layerOf : m'.layerOf = m.layerOf
  bernoulli_prior : m'.bernoulli_prior = m.bernoulli_prior
  lfixed : m'.lfixed = m.lfixed

theorem Static.refl (m : Mach F G) : Static m m := ⟨rfl, rfl, rfl, rfl, rfl, rfl, rfl⟩

theorem Static.trans {a b c : Mach F G} (h1 : Static a b) (h2 : Static b c) : Static a c :=
  ⟨h2.1.trans h1.1, h2.2.trans h1.2, h2.3.trans h1.3, h2.4.trans h1.4, h2.5.trans h1.5, h2.6.trans h1.6,
    h2.7.trans h1.7⟩

/-- what is known about the single steps of burn-in: a reflexive and transitive relation on machines that all of them
respect -/
structure Steps (env : Env F G) (mats lbdas : List Nat) (layers : List LayerInfo) (R : Mach F G → Mach F G → Prop) :
    Prop where
  refl : ∀ m, R m m
  trans : ∀ {a b c}, R a b → R b c → R a c
  keepLayers : ∀ {a b}, R a b → b.layers = a.layers
  perm : ∀ t, ∀ i ∈ env.perm t mats, i ∈ mats
  mat : ∀ m f i w, i ∈ mats → m.fct i = some f → env.runMat f i m.clock m.world = .ok w → R m { m with world := w }
  tick : ∀ m, R m { m with clock := m.clock + 1 }
  lbda : ∀ m g k w, k ∈ lbdas → m.lfct k = some g → env.runLbda g k m.clock m.world = .ok w → R m { m with world := w }
  anneal : ∀ m k x, k ∈ lbdas →
    R m { m with world := { m.world with lbda := upd m.world.lbda k (.scalar (.fin x)) } }
  clean : ∀ m, ∀ lr ∈ layers, ∀ reset clean fs b, (lr.auto_clean = true ∨ lr.auto_reset = true) →
    clean_up_codes (lr.factors.map m.world.mat) reset clean = .ok (fs, b) →
    R m { m with world := writeFactors m.world lr.factors fs }
  traces : ∀ m lt li, (∀ k ∉ lbdas, lt k = m.ltrace k) → R m { m with ltrace := lt, ltrace_index := li }
  iters : ∀ m n, R m { m with burn_in_iters := n }

namespace Steps

variable {env : Env F G} {mats lbdas : List Nat} {layers : List LayerInfo} {R : Mach F G → Mach F G → Prop}

theorem sampleMats_rel (S : Steps env mats lbdas layers R) {m m' : Mach F G} (h : sampleMats env mats m = .ok m') :
    R m m' := by
  rw [sampleMats, bind_ok] at h
  obtain ⟨m1, h1, h2⟩ := h
  rw [← pure_ok.mp h2]
  refine S.trans ?_ (S.tick m1)
  refine foldlM_rel S.refl (fun _ _ _ => S.trans) _ _ ?_ _ _ h1
  intro a i hi b hb
  rw [callMat] at hb
  split at hb
  · cases hb
  · rename_i f hf
    rw [bind_ok] at hb
    obtain ⟨w, hw, hb⟩ := hb
    rw [← pure_ok.mp hb]
    exact S.mat a f i w (S.perm _ i hi) hf hw

theorem sampleLbdas_rel (S : Steps env mats lbdas layers R) {m m' : Mach F G} (h : sampleLbdas env lbdas m = .ok m') :
    R m m' := by
  rw [sampleLbdas] at h
  refine foldlM_rel S.refl (fun _ _ _ => S.trans) _ _ ?_ _ _ h
  intro a i hi b hb
  rw [callLbda] at hb
  split at hb
  · cases hb
  · rename_i f hf
    rw [bind_ok] at hb
    obtain ⟨w, hw, hb⟩ := hb
    rw [← pure_ok.mp hb]
    exact S.lbda a f i w hi hf hw

theorem annealTo_rel (S : Steps env mats lbdas layers R) (pre : Nat) (ss : List (Nat × List ℝ))
    (hs : ∀ p ∈ ss, p.1 ∈ lbdas) {m m' : Mach F G} (h : annealTo pre ss m = .ok m') : R m m' := by
  induction ss generalizing m with
  | nil => simp only [annealTo, Except.ok.injEq] at h; rw [← h]; exact S.refl m
  | cons p ss ih =>
    obtain ⟨k, steps⟩ := p
    rw [annealTo] at h
    cases hx : steps[pre]? with
    | none => rw [hx] at h; cases h
    | some x =>
      rw [hx] at h
      exact S.trans (S.anneal m k x (hs (k, steps) (by simp))) (ih (fun q hq => hs q (by simp [hq])) h)

theorem preStep_rel (S : Steps env mats lbdas layers R) {b ps fx pre : Nat} {steps steps' : List (List ℝ)}
    {m m' : Mach F G} (h : preStep env mats lbdas b ps fx pre steps m = .ok (steps', m')) : R m m' := by
  unfold preStep at h
  by_cases hp : ps = 0
  · simp [hp, bind, Except.bind, throw, throwThe, MonadExceptOf.throw] at h
  · simp only [hp, if_false] at h
    rw [bind_ok] at h
    obtain ⟨m1, h1, h⟩ := h
    refine S.trans (S.sampleMats_rel h1) ?_
    by_cases hpre : pre > fx
    · simp only [hpre, if_true] at h
      by_cases ha : m1.anneal = false
      · simp only [ha, if_true] at h
        rw [bind_ok] at h
        obtain ⟨m2, h2, h⟩ := h
        rw [pure_ok, Prod.mk.injEq] at h
        rw [← h.2]
        exact S.sampleLbdas_rel h2
      · rw [if_neg ha] at h
        by_cases hf : fx ≠ 0
        · rw [if_pos hf] at h; cases h
        · rw [if_neg hf] at h
          rw [bind_ok] at h
          obtain ⟨st, -, h⟩ := h
          rw [bind_ok] at h
          obtain ⟨m2, h2, h⟩ := h
          rw [pure_ok, Prod.mk.injEq] at h
          rw [← h.2]
          refine S.annealTo_rel pre _ ?_ h2
          rintro ⟨k, s⟩ hk
          exact (List.of_mem_zip hk).1
    · simp only [hpre, if_false] at h
      rw [pure_ok, Prod.mk.injEq] at h
      rw [← h.2]
      exact S.refl _

theorem preLoop_rel (S : Steps env mats lbdas layers R) {b ps fx todo : Nat} {steps : List (List ℝ)}
    {m m' : Mach F G} (h : preLoop env mats lbdas b ps fx todo steps m = .ok m') : R m m' := by
  induction todo generalizing steps m with
  | zero => simp only [preLoop, Except.ok.injEq] at h; rw [← h]; exact S.refl m
  | succ todo ih =>
    rw [preLoop, bind_ok] at h
    obtain ⟨⟨st, m1⟩, h1, h2⟩ := h
    exact S.trans (S.preStep_rel h1) (ih h2)

theorem cleanLayer_rel (S : Steps env mats lbdas layers R) {lr : LayerInfo} (hl : lr ∈ layers)
    (hflag : lr.auto_clean = true ∨ lr.auto_reset = true) {reset clean b : Bool} {m m' : Mach F G}
    (h : cleanLayer reset clean m lr = .ok (m', b)) : R m m' := by
  rw [cleanLayer, bind_ok] at h
  obtain ⟨⟨fs, b'⟩, h1, h⟩ := h
  rw [pure_ok, Prod.mk.injEq] at h
  rw [← h.1]
  exact S.clean m lr hl reset clean fs b' hflag h1

theorem autoClean_rel (S : Steps env mats lbdas layers R) {lrs : List LayerInfo} (hl : ∀ lr ∈ lrs, lr ∈ layers)
    {m m' : Mach F G} {b : Bool} (h : autoClean lrs m = .ok (m', b)) : R m m' := by
  induction lrs generalizing m m' b with
  | nil =>
    simp only [autoClean, Except.ok.injEq, Prod.mk.injEq] at h
    rw [← h.1]; exact S.refl m
  | cons lr lrs ih =>
    rw [autoClean] at h
    split at h
    · rename_i hflag
      rw [bind_ok] at h
      obtain ⟨⟨m1, b1⟩, h1, h⟩ := h
      rw [bind_ok] at h
      obtain ⟨⟨m2, b2⟩, h2, h⟩ := h
      rw [pure_ok, Prod.mk.injEq] at h
      have r2 := ih (fun l hl' => hl l (by simp [hl'])) h2
      rw [← h.1]
      exact S.trans (S.cleanLayer_rel (hl lr (by simp)) hflag h1) r2
    · exact ih (fun l hl' => hl l (by simp [hl'])) h

theorem finalClean_rel (S : Steps env mats lbdas layers R) {lrs : List LayerInfo} (hl : ∀ lr ∈ lrs, lr ∈ layers)
    {m m' : Mach F G} (h : finalClean lrs m = .ok m') : R m m' := by
  induction lrs generalizing m with
  | nil =>
    simp only [finalClean, Except.ok.injEq] at h
    rw [← h]; exact S.refl m
  | cons lr lrs ih =>
    rw [finalClean] at h
    split at h
    · rename_i hflag
      rw [bind_ok] at h
      obtain ⟨⟨m1, b1⟩, h1, h⟩ := h
      exact S.trans (S.cleanLayer_rel (hl lr (by simp)) (.inr hflag) h1) (ih (fun l hl' => hl l (by simp [hl'])) h)
    · exact ih (fun l hl' => hl l (by simp [hl'])) h

theorem updateTraceL_rel (S : Steps env mats lbdas layers R) {m m' : Mach F G} {k : Nat} (hk : k ∈ lbdas)
    (h : updateTraceL m k = .ok m') : R m m' := by
  rw [updateTraceL] at h
  split at h
  · cases h
  · rw [bind_ok] at h
    obtain ⟨t', -, h⟩ := h
    rw [← pure_ok.mp h]
    refine S.traces m _ _ fun j hj => ?_
    rw [upd, if_neg]
    rintro rfl
    exact hj hk

theorem updateTracesL_rel (S : Steps env mats lbdas layers R) {m m' : Mach F G}
    (h : lbdas.foldlM updateTraceL m = .ok m') : R m m' :=
  foldlM_rel S.refl (fun _ _ _ => S.trans) _ _ (fun _ _ hk _ hb => S.updateTraceL_rel hk hb) _ _ h

theorem windowStep_rel (S : Steps env mats lbdas layers R) {eps : ℝ} {cw pre iter : Nat} {m m' : Mach F G} {b : Bool}
    (hl : m.layers = layers) (h : windowStep env lbdas eps cw pre iter m = .ok (m', b)) : R m m' := by
  unfold windowStep at h
  have hr : R m (resetIndexL lbdas m) := S.traces m _ _ fun _ _ => rfl
  simp only at h
  rw [bind_ok] at h
  obtain ⟨conv, -, h⟩ := h
  cases conv with
  | false =>
    simp only [Bool.false_eq_true, if_false] at h
    rw [pure_ok, Prod.mk.injEq] at h
    rw [← h.1]
    exact hr
  | true =>
    simp only [if_true] at h
    rw [bind_ok] at h
    obtain ⟨⟨m1, b1⟩, h1, h⟩ := h
    have hl' : ∀ lr ∈ (resetIndexL lbdas m).layers, lr ∈ layers := by
      intro lr hlr
      rw [← hl]
      exact hlr
    have r1 := S.trans hr (S.autoClean_rel hl' h1)
    cases b1 with
    | true =>
      simp only [if_true] at h
      rw [pure_ok, Prod.mk.injEq] at h
      rw [← h.1]
      exact S.trans r1 (S.traces m1 _ _ fun j hj => if_neg hj)
    | false =>
      simp only [Bool.false_eq_true, if_false] at h
      rw [pure_ok, Prod.mk.injEq] at h
      rw [← h.1]
      exact S.trans r1 (S.iters m1 _)

theorem windowTurn_rel (S : Steps env mats lbdas layers R) {eps : ℝ} {cw pre iter : Nat} {m m' : Mach F G} {b : Bool}
    (hl : m.layers = layers) (h : windowTurn env lbdas eps cw pre iter m = .ok (m', b)) : R m m' := by
  rw [windowTurn] at h
  split at h
  · exact S.windowStep_rel hl h
  · simp only [Except.ok.injEq, Prod.mk.injEq] at h
    rw [← h.1]; exact S.refl m

theorem stopStep_rel (S : Steps env mats lbdas layers R) {iter : Nat} {m m' : Mach F G}
    (hl : m.layers = layers) (h : stopStep lbdas iter m = .ok m') : R m m' := by
  rw [stopStep, bind_ok] at h
  obtain ⟨m1, h1, h⟩ := h
  have := S.finalClean_rel (fun lr hlr => hl ▸ hlr) h1
  rw [← pure_ok.mp h]
  exact S.trans this (S.trans (S.traces m1 _ _ fun _ _ => rfl) (S.iters (resetIndexL lbdas m1) _))

theorem burnSweep_rel (S : Steps env mats lbdas layers R) {m m' : Mach F G}
    (h : burnSweep env mats lbdas m = .ok m') : R m m' := by
  rw [burnSweep, bind_ok] at h
  obtain ⟨m1, h1, h⟩ := h
  rw [bind_ok] at h
  obtain ⟨m2, h2, h3⟩ := h
  exact S.trans (S.sampleMats_rel h1) (S.trans (S.sampleLbdas_rel h2) (S.updateTracesL_rel h3))

end Steps

/-! ## The main loop, one turn at a time -/

/-- how a turn of the second loop can go, if it does not raise -/
theorem mainLoop_cases {env : Env F G} {mats lbdas : List Nat} {eps : ℝ} {cw : Nat} {bmax : Int} {ps pre iter : Nat}
    {m m' : Mach F G} (h : mainLoop env mats lbdas eps cw bmax ps pre iter m = .ok m') :
    ps ≠ 0 ∧ cw ≠ 0 ∧ ∃ m1 done,
      windowTurn env lbdas eps cw pre iter m = .ok (m1, done) ∧
      ((done = true ∧ m' = m1) ∨
       (done = false ∧ bmax < (iter : Int) + pre ∧ stopStep lbdas iter m1 = .ok m') ∨
       (done = false ∧ (iter : Int) + pre ≤ bmax ∧ ∃ m2, burnSweep env mats lbdas m1 = .ok m2 ∧
        mainLoop env mats lbdas eps cw bmax ps pre (iter + 1) m2 = .ok m')) := by
  rw [mainLoop] at h
  by_cases hp : ps = 0
  · simp [hp, bind, Except.bind, throw, throwThe, MonadExceptOf.throw] at h
  by_cases hc : cw = 0
  · simp [hp, hc, bind, Except.bind, throw, throwThe, MonadExceptOf.throw] at h
  refine ⟨hp, hc, ?_⟩
  simp only [hp, hc, if_false] at h
  rw [bind_ok] at h
  obtain ⟨⟨m1, done⟩, h1, h⟩ := h
  refine ⟨m1, done, h1, ?_⟩
  · cases done with
    | true =>
      simp only [if_true] at h
      exact .inl ⟨rfl, (pure_ok.mp h).symm⟩
    | false =>
      simp only [Bool.false_eq_true, if_false] at h
      split at h
      · rename_i hlt
        exact .inr (.inl ⟨rfl, hlt, h⟩)
      · rename_i hlt
        rw [bind_ok] at h
        obtain ⟨m2, h2, h3⟩ := h
        exact .inr (.inr ⟨rfl, by omega, m2, h2, h3⟩)

theorem mainLoop_zero {env : Env F G} {mats lbdas : List Nat} {eps : ℝ} {cw : Nat} {bmax : Int} {ps pre iter : Nat}
    {m : Mach F G} (h : ps = 0 ∨ cw = 0) :
    mainLoop env mats lbdas eps cw bmax ps pre iter m = .error .zeroDivision := by
  rw [mainLoop]
  by_cases hp : ps = 0
  · simp [hp, bind, Except.bind, throw, throwThe, MonadExceptOf.throw]
  · have hc := h.resolve_left hp
    simp [hp, hc, bind, Except.bind, throw, throwThe, MonadExceptOf.throw]

/-- the second loop as an equation, for a positive window and print step -/
theorem mainLoop_eq {env : Env F G} {mats lbdas : List Nat} {eps : ℝ} {cw : Nat} {bmax : Int} {ps pre iter : Nat}
    {m : Mach F G} (hp : ps ≠ 0) (hc : cw ≠ 0) :
    mainLoop env mats lbdas eps cw bmax ps pre iter m =
      windowTurn env lbdas eps cw pre iter m >>= fun r =>
        if r.2 = true then pure r.1
        else if bmax < (iter : Int) + pre then stopStep lbdas iter r.1
        else burnSweep env mats lbdas r.1 >>= fun m2 =>
          mainLoop env mats lbdas eps cw bmax ps pre (iter + 1) m2 := by
  rw [mainLoop]
  simp only [hp, hc, if_false]
  cases windowTurn env lbdas eps cw pre iter m with
  | error e => rfl
  | ok r => rfl

namespace Steps

variable {env : Env F G} {mats lbdas : List Nat} {layers : List LayerInfo} {R : Mach F G → Mach F G → Prop}

theorem mainLoop_rel (S : Steps env mats lbdas layers R) {eps : ℝ} {cw : Nat} {bmax : Int} {ps pre : Nat}
    (n : Nat) : ∀ {iter : Nat} {m m' : Mach F G}, (bmax + 1 - (iter + pre)).toNat = n → m.layers = layers →
    mainLoop env mats lbdas eps cw bmax ps pre iter m = .ok m' → R m m' := by
  induction n using Nat.strong_induction_on with
  | _ n ih =>
    intro iter m m' hn hl h
    obtain ⟨-, -, m1, done, h1, h2⟩ := mainLoop_cases h
    have r1 : R m m1 := S.windowTurn_rel hl h1
    rcases h2 with ⟨-, rfl⟩ | ⟨-, -, h2⟩ | ⟨-, hle, m2, h2, h3⟩
    · exact r1
    · exact S.trans r1 (S.stopStep_rel ((S.keepLayers r1).trans hl) h2)
    · have r2 := S.burnSweep_rel h2
      have hl2 : m2.layers = layers := (S.keepLayers r2).trans ((S.keepLayers r1).trans hl)
      exact S.trans r1 (S.trans r2 (ih _ (by push_cast; omega) rfl hl2 h3))

theorem burn_in_rel (S : Steps env mats lbdas layers R) {eps : ℝ} {cw b : Nat} {bmax : Int} {ps fx : Nat}
    {m m' : Mach F G} (hl : m.layers = layers) (h : burn_in env mats lbdas eps cw b bmax ps fx m = .ok m') :
    R m m' := by
  rw [burn_in, bind_ok] at h
  obtain ⟨m1, h1, h2⟩ := h
  have r1 := S.preLoop_rel h1
  have hl1 : m1.layers = layers := (S.keepLayers r1).trans hl
  have r2 : R m1 (allocLbdas (env.junk 0) cw lbdas m1) := S.traces m1 _ _ fun j hj => if_neg hj
  exact S.trans r1 (S.trans r2 (S.mainLoop_rel _ rfl hl1 h2))

end Steps

/-! ## Relations between worlds -/

theorem updateTraceL_keeps {m m' : Mach F G} {k : Nat} (h : updateTraceL m k = .ok m') :
    Static m m' ∧ m'.world = m.world := by
  rw [updateTraceL] at h
  split at h
  · cases h
  · rw [bind_ok] at h
    obtain ⟨t', -, h⟩ := h
    rw [← pure_ok.mp h]
    exact ⟨⟨rfl, rfl, rfl, rfl, rfl, rfl, rfl⟩, rfl⟩

theorem assignFct_keeps {env : Env F G} {m m' : Mach F G} {i : Nat} (h : assignFct env m i = .ok m') :
    Static m m' ∧ m'.world = m.world := by
  rw [assignFct] at h
  split at h
  · simp only [Except.ok.injEq] at h
    rw [← h]; exact ⟨.refl m, rfl⟩
  · rw [bind_ok] at h
    obtain ⟨⟨f, extra⟩, -, h⟩ := h
    cases extra with
    | none =>
      rw [← pure_ok.mp h]
      exact ⟨⟨rfl, rfl, rfl, rfl, rfl, rfl, rfl⟩, rfl⟩
    | some p =>
      rw [← pure_ok.mp h]
      exact ⟨⟨rfl, rfl, rfl, rfl, rfl, rfl, rfl⟩, rfl⟩

theorem assignLfct_keeps {env : Env F G} {m m' : Mach F G} {i : Nat} (h : assignLfct env m i = .ok m') :
    Static m m' ∧ m'.world = m.world := by
  rw [assignLfct] at h
  split at h
  · simp only [Except.ok.injEq] at h
    rw [← h]; exact ⟨.refl m, rfl⟩
  · rw [bind_ok] at h
    obtain ⟨g, -, h⟩ := h
    rw [← pure_ok.mp h]
    exact ⟨⟨rfl, rfl, rfl, rfl, rfl, rfl, rfl⟩, rfl⟩

theorem allocMat_keeps {env : Env F G} {n : Nat} {m m' : Mach F G} {i : Nat} (h : allocMat env n m i = .ok m') :
    Static m m' ∧ m'.world = m.world := by
  rw [allocMat] at h
  split at h
  · cases h
  · simp only [Except.ok.injEq] at h
    rw [← h]
    exact ⟨⟨rfl, rfl, rfl, rfl, rfl, rfl, rfl⟩, rfl⟩

theorem updateTraceM_keeps {ibp : Bool} {m m' : Mach F G} {i : Nat} (h : updateTraceM ibp m i = .ok m') :
    Static m m' ∧ m'.world = m.world := by
  rw [updateTraceM] at h
  split at h
  · cases h
  · simp only at h
    rw [bind_ok] at h
    obtain ⟨t', -, h⟩ := h
    rw [← pure_ok.mp h]
    exact ⟨⟨rfl, rfl, rfl, rfl, rfl, rfl, rfl⟩, rfl⟩

theorem fold_keeps {f : Mach F G → Nat → Except Err (Mach F G)} {xs : List Nat} {m m' : Mach F G}
    (hf : ∀ a i b, f a i = .ok b → Static a b ∧ b.world = a.world) (h : xs.foldlM f m = .ok m') :
    Static m m' ∧ m'.world = m.world :=
  foldlM_rel (R := fun a b => Static a b ∧ b.world = a.world) (fun a => ⟨.refl a, rfl⟩)
    (fun _ _ _ h1 h2 => ⟨h1.1.trans h2.1, h2.2.trans h1.2⟩) f xs (fun a i _ b => hf a i b) m m' h

/-- attributes kept, worlds related -/
def Rel (W : World → World → Prop) (m m' : Mach F G) : Prop := Static m m' ∧ W m.world m'.world

/-- the same for a relation on worlds -/
structure WSteps (env : Env F G) (mats lbdas : List Nat) (layers : List LayerInfo) (W : World → World → Prop) :
    Prop where
  refl : ∀ w, W w w
  trans : ∀ {a b c}, W a b → W b c → W a c
  perm : ∀ t, ∀ i ∈ env.perm t mats, i ∈ mats
  mat : ∀ f i t w w', i ∈ mats → env.runMat f i t w = .ok w' → W w w'
  lbda : ∀ g k t w w', k ∈ lbdas → env.runLbda g k t w = .ok w' → W w w'
  anneal : ∀ k x w, k ∈ lbdas → W w { w with lbda := upd w.lbda k (.scalar (.fin x)) }
  clean : ∀ lr ∈ layers, ∀ reset clean w fs b, (lr.auto_clean = true ∨ lr.auto_reset = true) →
    clean_up_codes (lr.factors.map w.mat) reset clean = .ok (fs, b) → W w (writeFactors w lr.factors fs)

theorem WSteps.steps {env : Env F G} {mats lbdas : List Nat} {layers : List LayerInfo} {W : World → World → Prop}
    (S : WSteps env mats lbdas layers W) : Steps env mats lbdas layers (Rel W) where
  refl m := ⟨.refl m, S.refl _⟩
  trans h1 h2 := ⟨h1.1.trans h2.1, S.trans h1.2 h2.2⟩
  keepLayers h := h.1.layers
  perm := S.perm
  mat m f i w hi _ hw := ⟨⟨rfl, rfl, rfl, rfl, rfl, rfl, rfl⟩, S.mat f i m.clock _ w hi hw⟩
  tick _ := ⟨⟨rfl, rfl, rfl, rfl, rfl, rfl, rfl⟩, S.refl _⟩
  lbda m g k w hk _ hw := ⟨⟨rfl, rfl, rfl, rfl, rfl, rfl, rfl⟩, S.lbda g k m.clock _ w hk hw⟩
  anneal m k x hk := ⟨⟨rfl, rfl, rfl, rfl, rfl, rfl, rfl⟩, S.anneal k x m.world hk⟩
  clean _ lr hl reset clean fs b hf h := ⟨⟨rfl, rfl, rfl, rfl, rfl, rfl, rfl⟩, S.clean lr hl reset clean _ fs b hf h⟩
  traces _ _ _ _ := ⟨⟨rfl, rfl, rfl, rfl, rfl, rfl, rfl⟩, S.refl _⟩
  iters _ _ := ⟨⟨rfl, rfl, rfl, rfl, rfl, rfl, rfl⟩, S.refl _⟩

namespace WSteps

variable {env : Env F G} {mats lbdas : List Nat} {layers : List LayerInfo} {W : World → World → Prop}

theorem samplingStep_rel (S : WSteps env mats lbdas layers W) {ps : Nat} {m m' : Mach F G}
    (h : samplingStep env mats lbdas ps m = .ok m') : Rel W m m' := by
  have T := S.steps
  rw [samplingStep, bind_ok] at h
  obtain ⟨m1, h1, h⟩ := h
  rw [bind_ok] at h
  obtain ⟨m2, h2, h⟩ := h
  rw [bind_ok] at h
  obtain ⟨m3, h3, h⟩ := h
  rw [bind_ok] at h
  obtain ⟨m4, h4, h⟩ := h
  have k2 := fold_keeps (fun a i b => updateTraceM_keeps) h2
  have r := T.trans (T.sampleMats_rel h1) (T.trans ⟨k2.1, by rw [k2.2]; exact S.refl _⟩
    (T.trans (T.sampleLbdas_rel h3) (T.updateTracesL_rel h4)))
  by_cases hp : ps = 0
  · simp [hp, throw, throwThe, MonadExceptOf.throw] at h
  · simp only [hp, if_false] at h
    rw [← pure_ok.mp h]
    exact r

theorem samplingLoop_rel (S : WSteps env mats lbdas layers W) {ps todo : Nat} {m m' : Mach F G}
    (h : samplingLoop env mats lbdas ps todo m = .ok m') : Rel W m m' := by
  have T := S.steps
  induction todo generalizing m with
  | zero => simp only [samplingLoop, Except.ok.injEq] at h; rw [← h]; exact T.refl m
  | succ n ih =>
    rw [samplingLoop, bind_ok] at h
    obtain ⟨m1, h1, h2⟩ := h
    exact T.trans (S.samplingStep_rel h1) (ih h2)

end WSteps

/-- the phases of `infer` -/
theorem infer_phases {env : Env F G} {S cw b : Nat} {eps : ℝ} {bmax : Int} {ps fx : Nat} {m m' : Mach F G}
    (h : infer env S cw eps b bmax ps fx m = .ok m') : ∃ m1 m2 m3 m4,
      (freeMats m).foldlM (assignFct env) m = .ok m1 ∧ (freeLbdas m).foldlM (assignLfct env) m1 = .ok m2 ∧
      burn_in env (freeMats m) (freeLbdas m) eps cw b bmax ps fx (resetIndices (freeMats m) (freeLbdas m) m2) = .ok m3 ∧
      (freeMats m).foldlM (allocMat env S) m3 = .ok m4 ∧
      samplingLoop env (freeMats m) (freeLbdas m) ps S (allocLbdasS env.junkSampling S (freeLbdas m) m4) = .ok m' := by
  rw [infer] at h
  simp only at h
  rw [bind_ok] at h
  obtain ⟨m1, h1, h⟩ := h
  rw [bind_ok] at h
  obtain ⟨m2, h2, h⟩ := h
  rw [bind_ok] at h
  obtain ⟨m3, h3, h⟩ := h
  rw [bind_ok] at h
  obtain ⟨m4, h4, h⟩ := h
  exact ⟨m1, m2, m3, m4, h1, h2, h3, h4, h⟩

theorem WSteps.infer_rel {env : Env F G} {W : World → World → Prop} {S cw b : Nat} {eps : ℝ} {bmax : Int} {ps fx : Nat}
    {m m' : Mach F G} (T : WSteps env (freeMats m) (freeLbdas m) m.layers W)
    (h : infer env S cw eps b bmax ps fx m = .ok m') : Rel W m m' := by
  obtain ⟨m1, m2, m3, m4, h1, h2, h3, h4, h5⟩ := infer_phases h
  have k1 := fold_keeps (fun a i b => assignFct_keeps) h1
  have k2 := fold_keeps (fun a i b => assignLfct_keeps) h2
  have e2 : Static m m2 := k1.1.trans k2.1
  have r2 : Rel W m (resetIndices (freeMats m) (freeLbdas m) m2) :=
    ⟨e2.trans ⟨rfl, rfl, rfl, rfl, rfl, rfl, rfl⟩, by
      show W m.world m2.world
      rw [k2.2, k1.2]; exact T.refl _⟩
  have r3 := T.steps.burn_in_rel (by exact r2.1.layers) h3
  have k4 := fold_keeps (fun a i b => allocMat_keeps) h4
  have r4 : Rel W m3 (allocLbdasS env.junkSampling S (freeLbdas m) m4) :=
    ⟨k4.1.trans ⟨rfl, rfl, rfl, rfl, rfl, rfl, rfl⟩, by
      show W m3.world m4.world
      rw [k4.2]; exact T.refl _⟩
  exact T.steps.trans r2 (T.steps.trans r3 (T.steps.trans r4 (T.samplingLoop_rel h5)))

/-- attributes that burn-in leaves alone -/
def Keeps (m m' : Mach F G) : Prop :=
  m' = { m with world := m'.world, ltrace := m'.ltrace, ltrace_index := m'.ltrace_index,
                burn_in_iters := m'.burn_in_iters, clock := m'.clock }

theorem keeps_steps {env : Env F G} {mats lbdas : List Nat} (layers : List LayerInfo)
    (hp : ∀ t, ∀ i ∈ env.perm t mats, i ∈ mats) : Steps env mats lbdas layers (Keeps (F := F) (G := G)) where
  refl _ := rfl
  trans {a b c} h1 h2 := by
    unfold Keeps at *
    rw [h1] at h2
    exact h2
  keepLayers {a b} h := by unfold Keeps at h; rw [h]
  perm := hp
  mat _ _ _ _ _ _ _ := rfl
  tick _ := rfl
  lbda _ _ _ _ _ _ _ := rfl
  anneal _ _ _ _ := rfl
  clean _ _ _ _ _ _ _ _ _ := rfl
  traces _ _ _ _ := rfl
  iters _ _ := rfl

/-- burn-in leaves the traces of other parameters alone -/
def KeepsTraces (lbdas : List Nat) (m m' : Mach F G) : Prop :=
  m'.layers = m.layers ∧ ∀ k ∉ lbdas, m'.ltrace k = m.ltrace k

theorem keepsTraces_steps {env : Env F G} {mats lbdas : List Nat} (layers : List LayerInfo)
    (hp : ∀ t, ∀ i ∈ env.perm t mats, i ∈ mats) :
    Steps env mats lbdas layers (KeepsTraces (F := F) (G := G) lbdas) where
  refl _ := ⟨rfl, fun _ _ => rfl⟩
  trans h1 h2 := ⟨h2.1.trans h1.1, fun k hk => (h2.2 k hk).trans (h1.2 k hk)⟩
  keepLayers h := h.1
  perm := hp
  mat _ _ _ _ _ _ _ := ⟨rfl, fun _ _ => rfl⟩
  tick _ := ⟨rfl, fun _ _ => rfl⟩
  lbda _ _ _ _ _ _ _ := ⟨rfl, fun _ _ => rfl⟩
  anneal _ _ _ _ := ⟨rfl, fun _ _ => rfl⟩
  clean _ _ _ _ _ _ _ _ _ := ⟨rfl, fun _ _ => rfl⟩
  traces _ _ _ h := ⟨rfl, h⟩
  iters _ _ := ⟨rfl, fun _ _ => rfl⟩

end LFM

import Verif.Lemmas.Sampling

/-!
# Lemmas: nothing but the assignment of functions reads the prior
-/

namespace LFM

variable {F G : Type}

/-- assigning `bernoulli_prior` of all matrices -/
def setPrior (p : Nat → ℝ) (m : Mach F G) : Mach F G := { m with bernoulli_prior := p }

theorem foldlM_setPrior {p : Nat → ℝ} {f : Mach F G → Nat → Except Err (Mach F G)} (xs : List Nat)
    (h : ∀ m, ∀ i ∈ xs, f (setPrior p m) i = (f m i).map (setPrior p)) (m : Mach F G) :
    xs.foldlM f (setPrior p m) = (xs.foldlM f m).map (setPrior p) := by
  induction xs generalizing m with
  | nil => rfl
  | cons x xs ih =>
    rw [List.foldlM_cons, List.foldlM_cons, h m x (by simp)]
    cases f m x with
    | error e => rfl
    | ok m1 => exact ih (fun m i hi => h m i (by simp [hi])) m1

variable (env : Env F G) (mats lbdas : List Nat) (p : Nat → ℝ) (m : Mach F G)

theorem callMat_setPrior (i : Nat) : callMat env (setPrior p m) i = (callMat env m i).map (setPrior p) := by
  unfold callMat setPrior
  simp only
  cases m.fct i with
  | none => rfl
  | some f =>
    simp only
    cases env.runMat f i m.clock m.world <;> rfl

theorem sampleMats_setPrior : sampleMats env mats (setPrior p m) = (sampleMats env mats m).map (setPrior p) := by
  unfold sampleMats
  rw [show (setPrior p m).clock = m.clock from rfl, foldlM_setPrior _ (fun m i _ => callMat_setPrior env p m i)]
  cases (env.perm m.clock mats).foldlM (callMat env) m <;> rfl

theorem callLbda_setPrior (k : Nat) : callLbda env (setPrior p m) k = (callLbda env m k).map (setPrior p) := by
  unfold callLbda setPrior
  simp only
  cases m.lfct k with
  | none => rfl
  | some f =>
    simp only
    cases env.runLbda f k m.clock m.world <;> rfl

theorem sampleLbdas_setPrior : sampleLbdas env lbdas (setPrior p m) = (sampleLbdas env lbdas m).map (setPrior p) :=
  foldlM_setPrior _ (fun m k _ => callLbda_setPrior env p m k) m

theorem updateTraceL_setPrior (k : Nat) : updateTraceL (setPrior p m) k = (updateTraceL m k).map (setPrior p) := by
  unfold updateTraceL setPrior
  simp only
  cases m.ltrace k with
  | none => rfl
  | some t =>
    simp only
    cases writeL t (m.ltrace_index k) (m.world.lbda k) <;> rfl

theorem annealTo_setPrior (pre : Nat) (l : List (Nat × List ℝ)) : ∀ m : Mach F G,
    annealTo pre l (setPrior p m) = (annealTo pre l m).map (setPrior p) := by
  induction l with
  | nil => intro m; rfl
  | cons a l ih =>
    intro m
    obtain ⟨k, steps⟩ := a
    rw [annealTo, annealTo]
    cases steps[pre]? with
    | none => rfl
    | some x => exact ih { m with world := { m.world with lbda := upd m.world.lbda k (.scalar (.fin x)) } }

theorem preStep_setPrior (b ps fx pre : Nat) (steps : List (List ℝ)) :
    preStep env mats lbdas b ps fx pre steps (setPrior p m) =
      (preStep env mats lbdas b ps fx pre steps m).map fun r => (r.1, setPrior p r.2) := by
  unfold preStep
  by_cases hps : ps = 0
  · simp [hps, Except.map, bind, Except.bind, throw, throwThe, MonadExceptOf.throw]
  · simp only [hps, if_false]
    rw [sampleMats_setPrior]
    cases sampleMats env mats m with
    | error e => rfl
    | ok m1 =>
      simp only [Except.map, bind, Except.bind]
      by_cases h1 : pre > fx
      · rw [if_pos h1, if_pos h1]
        by_cases ha : m1.anneal = false
        · rw [if_pos ha, if_pos (show (setPrior p m1).anneal = false from ha), sampleLbdas_setPrior]
          cases sampleLbdas env lbdas m1 <;> rfl
        · rw [if_neg ha, if_neg (show ¬ (setPrior p m1).anneal = false from ha)]
          by_cases hf : fx = 0
          · rw [if_neg (by simpa using hf), if_neg (by simpa using hf)]
            have : annealingSteps lbdas b fx pre steps (setPrior p m1) = annealingSteps lbdas b fx pre steps m1 := rfl
            rw [this]
            cases annealingSteps lbdas b fx pre steps m1 with
            | error e => rfl
            | ok st =>
              simp only [annealTo_setPrior]
              cases annealTo pre (lbdas.zip st) m1 <;> rfl
          · rw [if_pos hf, if_pos hf]; rfl
      · rw [if_neg h1, if_neg h1]; rfl

theorem preLoop_setPrior (b ps fx todo : Nat) : ∀ (steps : List (List ℝ)) (m : Mach F G),
    preLoop env mats lbdas b ps fx todo steps (setPrior p m) =
      (preLoop env mats lbdas b ps fx todo steps m).map (setPrior p) := by
  induction todo with
  | zero => intro steps m; rfl
  | succ n ih =>
    intro steps m
    rw [preLoop, preLoop, preStep_setPrior]
    cases preStep env mats lbdas b ps fx (b - n) steps m with
    | error e => rfl
    | ok r => exact ih _ _

theorem cleanLayer_setPrior (reset clean : Bool) (lr : LayerInfo) :
    cleanLayer reset clean (setPrior p m) lr = (cleanLayer reset clean m lr).map fun r => (setPrior p r.1, r.2) := by
  unfold cleanLayer
  rw [show (setPrior p m).world = m.world from rfl]
  cases clean_up_codes (lr.factors.map m.world.mat) reset clean <;> rfl

theorem autoClean_setPrior (l : List LayerInfo) : ∀ m : Mach F G,
    autoClean l (setPrior p m) = (autoClean l m).map fun r => (setPrior p r.1, r.2) := by
  induction l with
  | nil => intro m; rfl
  | cons lr l ih =>
    intro m
    rw [autoClean, autoClean]
    by_cases h : lr.auto_clean = true ∨ lr.auto_reset = true
    · rw [if_pos h, if_pos h, cleanLayer_setPrior]
      cases cleanLayer lr.auto_reset lr.auto_clean m lr with
      | error e => rfl
      | ok r =>
        simp only [Except.map, bind, Except.bind]
        rw [ih]
        cases autoClean l r.1 <;> rfl
    · rw [if_neg h, if_neg h]; exact ih m

theorem finalClean_setPrior (l : List LayerInfo) : ∀ m : Mach F G,
    finalClean l (setPrior p m) = (finalClean l m).map (setPrior p) := by
  induction l with
  | nil => intro m; rfl
  | cons lr l ih =>
    intro m
    rw [finalClean, finalClean]
    by_cases h : lr.auto_reset = true
    · rw [if_pos h, if_pos h, cleanLayer_setPrior]
      cases cleanLayer false true m lr with
      | error e => rfl
      | ok r => exact ih r.1
    · rw [if_neg h, if_neg h]; exact ih m

theorem allConverged_setPrior (eps : ℝ) (ks : List Nat) : allConverged eps (setPrior p m) ks = allConverged eps m ks := by
  induction ks with
  | nil => rfl
  | cons k ks ih =>
    rw [allConverged, allConverged, ih]
    rfl

theorem windowTurn_setPrior (eps : ℝ) (cw pre iter : Nat) : windowTurn env lbdas eps cw pre iter (setPrior p m) =
    (windowTurn env lbdas eps cw pre iter m).map fun r => (setPrior p r.1, r.2) := by
  unfold windowTurn
  split
  · unfold windowStep
    simp only
    rw [show resetIndexL lbdas (setPrior p m) = setPrior p (resetIndexL lbdas m) from rfl, allConverged_setPrior]
    cases allConverged eps (resetIndexL lbdas m) lbdas with
    | error e => rfl
    | ok c =>
      cases c with
      | false => rfl
      | true =>
        simp only [bind, Except.bind, if_true]
        rw [autoClean_setPrior, show (setPrior p (resetIndexL lbdas m)).layers = (resetIndexL lbdas m).layers from rfl]
        cases autoClean (resetIndexL lbdas m).layers (resetIndexL lbdas m) with
        | error e => rfl
        | ok r =>
          obtain ⟨m1, b⟩ := r
          cases b <;> rfl
  · rfl

theorem stopStep_setPrior (iter : Nat) : stopStep lbdas iter (setPrior p m) = (stopStep lbdas iter m).map (setPrior p) := by
  unfold stopStep
  rw [show (setPrior p m).layers = m.layers from rfl, finalClean_setPrior]
  cases finalClean m.layers m <;> rfl

theorem burnSweep_setPrior : burnSweep env mats lbdas (setPrior p m) = (burnSweep env mats lbdas m).map (setPrior p) := by
  unfold burnSweep
  rw [sampleMats_setPrior]
  cases sampleMats env mats m with
  | error e => rfl
  | ok m1 =>
    simp only [Except.map, bind, Except.bind]
    rw [sampleLbdas_setPrior]
    cases sampleLbdas env lbdas m1 with
    | error e => rfl
    | ok m2 =>
      simp only [Except.map]
      rw [foldlM_setPrior _ (fun m k _ => updateTraceL_setPrior p m k)]
      rfl

theorem mainLoop_setPrior (eps : ℝ) (cw : Nat) (bmax : Int) (ps pre : Nat) (hp : ps ≠ 0) (hc : cw ≠ 0) :
    ∀ (n iter : Nat) (m : Mach F G), (bmax + 1 - (iter + pre)).toNat = n →
      mainLoop env mats lbdas eps cw bmax ps pre iter (setPrior p m) =
        (mainLoop env mats lbdas eps cw bmax ps pre iter m).map (setPrior p) := by
  intro n
  induction n with
  | zero =>
    intro iter m hn
    rw [mainLoop_eq hp hc, mainLoop_eq hp hc, windowTurn_setPrior]
    cases windowTurn env lbdas eps cw pre iter m with
    | error e => rfl
    | ok r =>
      simp only [Except.map, bind, Except.bind]
      by_cases hd : r.2 = true
      · rw [if_pos hd, if_pos hd]; rfl
      · rw [if_neg hd, if_neg hd, if_pos (by omega), if_pos (by omega), stopStep_setPrior]
        rfl
  | succ n ih =>
    intro iter m hn
    rw [mainLoop_eq hp hc, mainLoop_eq hp hc, windowTurn_setPrior]
    cases windowTurn env lbdas eps cw pre iter m with
    | error e => rfl
    | ok r =>
      simp only [Except.map, bind, Except.bind]
      by_cases hd : r.2 = true
      · rw [if_pos hd, if_pos hd]; rfl
      · rw [if_neg hd, if_neg hd]
        by_cases hb : bmax < (iter : Int) + pre
        · rw [if_pos hb, if_pos hb, stopStep_setPrior]
          rfl
        · rw [if_neg hb, if_neg hb, burnSweep_setPrior]
          cases burnSweep env mats lbdas r.1 with
          | error e => rfl
          | ok m1 => exact ih (iter + 1) m1 (by push_cast; omega)

theorem burn_in_setPrior (eps : ℝ) (cw b : Nat) (bmax : Int) (ps fx : Nat) :
    burn_in env mats lbdas eps cw b bmax ps fx (setPrior p m) =
      (burn_in env mats lbdas eps cw b bmax ps fx m).map (setPrior p) := by
  unfold burn_in
  rw [preLoop_setPrior]
  cases preLoop env mats lbdas b ps fx b [] m with
  | error e => rfl
  | ok m1 =>
    show mainLoop env mats lbdas eps cw bmax ps b 1 (setPrior p (allocLbdas (env.junk 0) cw lbdas m1)) = _
    by_cases hz : ps = 0 ∨ cw = 0
    · rw [mainLoop_zero hz]
      show _ = (mainLoop env mats lbdas eps cw bmax ps b 1 (allocLbdas (env.junk 0) cw lbdas m1)).map _
      rw [mainLoop_zero hz]
      rfl
    · rw [not_or] at hz
      exact mainLoop_setPrior env mats lbdas p eps cw bmax ps b hz.1 hz.2 _ 1 _ rfl

theorem allocMat_setPrior (S i : Nat) : allocMat env S (setPrior p m) i = (allocMat env S m i).map (setPrior p) := by
  unfold allocMat
  rw [show modelOf (setPrior p m) i = modelOf m i from rfl]
  cases modelOf m i <;> rfl

theorem updateTraceM_setPrior (ibp : Bool) (i : Nat) :
    updateTraceM ibp (setPrior p m) i = (updateTraceM ibp m i).map (setPrior p) := by
  unfold updateTraceM setPrior
  simp only
  cases m.trace i with
  | none => rfl
  | some t =>
    simp only
    cases writeTrace ibp t (m.trace_index i) (m.world.mat i).val <;> rfl

theorem samplingStep_setPrior (ps : Nat) :
    samplingStep env mats lbdas ps (setPrior p m) = (samplingStep env mats lbdas ps m).map (setPrior p) := by
  unfold samplingStep
  rw [sampleMats_setPrior]
  cases sampleMats env mats m with
  | error e => rfl
  | ok m1 =>
    simp only [Except.map, bind, Except.bind]
    rw [show (mats.any fun i => decide (modelOf (setPrior p m1) i = some "OR-AND-IBP")) =
        (mats.any fun i => decide (modelOf m1 i = some "OR-AND-IBP")) from rfl,
      foldlM_setPrior _ (fun m i _ => updateTraceM_setPrior p m _ i)]
    cases mats.foldlM (updateTraceM (mats.any fun i => decide (modelOf m1 i = some "OR-AND-IBP"))) m1 with
    | error e => rfl
    | ok m2 =>
      simp only [Except.map]
      rw [sampleLbdas_setPrior]
      cases sampleLbdas env lbdas m2 with
      | error e => rfl
      | ok m3 =>
        simp only [Except.map]
        rw [foldlM_setPrior _ (fun m k _ => updateTraceL_setPrior p m k)]
        cases lbdas.foldlM updateTraceL m3 with
        | error e => rfl
        | ok m4 =>
          simp only [Except.map]
          by_cases h : ps = 0
          · rw [if_pos h, if_pos h]; rfl
          · rw [if_neg h, if_neg h]; rfl

theorem samplingLoop_setPrior (ps n : Nat) : ∀ m : Mach F G,
    samplingLoop env mats lbdas ps n (setPrior p m) = (samplingLoop env mats lbdas ps n m).map (setPrior p) := by
  induction n with
  | zero => intro m; rfl
  | succ n ih =>
    intro m
    rw [samplingLoop, samplingLoop, samplingStep_setPrior]
    cases samplingStep env mats lbdas ps m with
    | error e => rfl
    | ok m1 => exact ih m1

/-- functions that are assigned stay -/
theorem assignFcts_id (xs : List Nat) (h : ∀ i ∈ xs, m.fct i ≠ none) : xs.foldlM (assignFct env) m = .ok m := by
  induction xs with
  | nil => rfl
  | cons x xs ih =>
    obtain ⟨f, hf⟩ := Option.ne_none_iff_exists'.mp (h x (by simp))
    rw [List.foldlM_cons, assignFct, hf]
    exact ih (fun i hi => h i (by simp [hi]))

theorem assignLfcts_id (xs : List Nat) (h : ∀ i ∈ xs, m.lfct i ≠ none) : xs.foldlM (assignLfct env) m = .ok m := by
  induction xs with
  | nil => rfl
  | cons x xs ih =>
    obtain ⟨f, hf⟩ := Option.ne_none_iff_exists'.mp (h x (by simp))
    rw [List.foldlM_cons, assignLfct, hf]
    exact ih (fun i hi => h i (by simp [hi]))

/-- with assigned functions the prior does not matter -/
theorem infer_setPrior (S cw : Nat) (eps : ℝ) (b : Nat) (bmax : Int) (ps fx : Nat)
    (hf : ∀ i ∈ freeMats m, m.fct i ≠ none) (hl : ∀ k ∈ freeLbdas m, m.lfct k ≠ none) :
    infer env S cw eps b bmax ps fx (setPrior p m) = (infer env S cw eps b bmax ps fx m).map (setPrior p) := by
  unfold infer
  simp only
  rw [show freeMats (setPrior p m) = freeMats m from rfl, show freeLbdas (setPrior p m) = freeLbdas m from rfl,
    assignFcts_id env (setPrior p m) _ hf, assignFcts_id env m _ hf]
  simp only [bind, Except.bind]
  rw [assignLfcts_id env (setPrior p m) _ hl, assignLfcts_id env m _ hl]
  simp only
  rw [show resetIndices (freeMats m) (freeLbdas m) (setPrior p m) =
    setPrior p (resetIndices (freeMats m) (freeLbdas m) m) from rfl, burn_in_setPrior]
  cases burn_in env (freeMats m) (freeLbdas m) eps cw b bmax ps fx (resetIndices (freeMats m) (freeLbdas m) m) with
  | error e => rfl
  | ok m1 =>
    simp only [Except.map]
    rw [foldlM_setPrior _ (fun m i _ => allocMat_setPrior env p m S i)]
    cases (freeMats m).foldlM (allocMat env S) m1 with
    | error e => rfl
    | ok m2 =>
      exact samplingLoop_setPrior env (freeMats m) (freeLbdas m) p ps S
        (allocLbdasS env.junkSampling S (freeLbdas m) m2)

end LFM

import Verif.Lemmas.Rename

/-!
# The flag `anneal` of a machine all of whose parameters are fixed
-/

namespace LFM

variable {F G : Type}

/-- `machine.anneal = b` -/
def Mach.annealed (b : Bool) (m : Mach F G) : Mach F G := { m with anneal := b }

variable {env : Env F G} {b : Bool}

theorem callMat_annealed (m : Mach F G) (i : Nat) : callMat env (m.annealed b) i = (callMat env m i).map (Mach.annealed b) := by
  rw [callMat, callMat]
  show (match m.fct i with | none => _ | some f => _) = _
  cases m.fct i with
  | none => rfl
  | some f => exact bind_map (p := id) (map_same rfl) fun w => rfl

theorem sampleMats_annealed (mats : List Nat) (m : Mach F G) :
    sampleMats env mats (m.annealed b) = (sampleMats env mats m).map (Mach.annealed b) := by
  rw [sampleMats, sampleMats]
  exact bind_map (foldlM_same _ (fun a x _ => callMat_annealed a x) m) fun m => rfl

theorem preStep_annealed (b : Bool) (mats : List Nat) (bmin ps pre : Nat) (st : List (List ℝ)) (m : Mach F G) :
    ∃ st', preStep env mats [] bmin ps 0 pre st (m.annealed b) =
      if ps = 0 then .error .zeroDivision else (sampleMats env mats m).map fun m' => (st', m'.annealed b) := by
  unfold preStep
  by_cases hps : ps = 0
  · exact ⟨[], by simp [hps, bind, Except.bind, throw, throwThe, MonadExceptOf.throw]⟩
  simp only [hps, if_false, sampleMats_annealed]
  cases h : sampleMats env mats m with
  | error e => exact ⟨[], rfl⟩
  | ok m1 =>
    show ∃ st', (if pre > 0 then _ else _) = _
    by_cases hpre : pre > 0
    · rw [if_pos hpre]
      cases b with
      | false => exact ⟨st, rfl⟩
      | true =>
        by_cases h1 : pre = 1
        · exact ⟨[], by subst h1; rfl⟩
        · refine ⟨st, ?_⟩
          have e : annealingSteps [] bmin 0 pre st (m1.annealed true) = .ok st := by
            rw [annealingSteps, if_neg (by omega)]
          show (if (true = false) then _ else if (0 : Nat) ≠ 0 then _ else _) = _
          rw [if_neg (by simp), if_neg (by simp)]
          show ((annealingSteps [] bmin 0 pre st (m1.annealed true)) >>= _) = _
          rw [e]
          rfl
    · rw [if_neg hpre]
      exact ⟨st, rfl⟩

theorem preLoop_annealed (b b' : Bool) (mats : List Nat) (bmin ps : Nat) (todo : Nat) : ∀ (st st' : List (List ℝ)) (m : Mach F G),
    preLoop env mats [] bmin ps 0 todo st (m.annealed b) =
      (preLoop env mats [] bmin ps 0 todo st' (m.annealed b')).map (Mach.annealed b) := by
  induction todo with
  | zero => intro st st' m; rfl
  | succ todo ih =>
    intro st st' m
    rw [preLoop, preLoop]
    obtain ⟨s1, h1⟩ := preStep_annealed (env := env) b mats bmin ps (bmin - todo) st m
    obtain ⟨s2, h2⟩ := preStep_annealed (env := env) b' mats bmin ps (bmin - todo) st' m
    rw [h1, h2]
    by_cases hps : ps = 0
    · rw [if_pos hps, if_pos hps]; rfl
    · rw [if_neg hps, if_neg hps]
      cases h : sampleMats env mats m with
      | error e => rfl
      | ok m1 => exact ih s1 s2 m1

theorem cleanLayer_annealed (r c : Bool) (m : Mach F G) (lr : LayerInfo) :
    cleanLayer r c (m.annealed b) lr = (cleanLayer r c m lr).map fun x => (x.1.annealed b, x.2) := by
  rw [cleanLayer, cleanLayer]
  exact bind_map (p := id) (map_same rfl) fun w => rfl

theorem autoClean_annealed (ls : List LayerInfo) : ∀ m : Mach F G,
    autoClean ls (m.annealed b) = (autoClean ls m).map fun x => (x.1.annealed b, x.2) := by
  induction ls with
  | nil => intro m; rfl
  | cons lr ls ih =>
    intro m
    rw [autoClean, autoClean]
    split
    · exact bind_map (cleanLayer_annealed _ _ m lr) fun x => bind_map (ih x.1) fun y => rfl
    · exact ih m

theorem finalClean_annealed (ls : List LayerInfo) : ∀ m : Mach F G,
    finalClean ls (m.annealed b) = (finalClean ls m).map (Mach.annealed b) := by
  induction ls with
  | nil => intro m; rfl
  | cons lr ls ih =>
    intro m
    rw [finalClean, finalClean]
    split
    · exact bind_map (cleanLayer_annealed _ _ m lr) fun x => ih x.1
    · exact ih m

theorem windowTurn_annealed (eps : ℝ) (cw pre iter : Nat) (m : Mach F G) :
    windowTurn env [] eps cw pre iter (m.annealed b) =
      (windowTurn env [] eps cw pre iter m).map fun x => (x.1.annealed b, x.2) := by
  unfold windowTurn
  split
  · unfold windowStep
    show (autoClean m.layers ((resetIndexL [] m).annealed b) >>= _) = (Except.map _ (autoClean m.layers (resetIndexL [] m) >>= _))
    refine bind_map (autoClean_annealed _ _) ?_
    rintro ⟨x, c⟩
    cases c <;> rfl
  · rfl

theorem mainLoop_annealed (mats : List Nat) (eps : ℝ) (cw : Nat) (bmax : Int) (ps pre : Nat) (n : Nat) :
    ∀ (iter : Nat) (m : Mach F G), (bmax + 1 - (iter + pre)).toNat = n →
      mainLoop env mats [] eps cw bmax ps pre iter (m.annealed b) =
        (mainLoop env mats [] eps cw bmax ps pre iter m).map (Mach.annealed b) := by
  induction n using Nat.strong_induction_on with
  | _ n ih =>
    intro iter m hn
    rw [mainLoop, mainLoop]
    by_cases hps : ps = 0
    · simp [hps, bind, Except.bind, throw, throwThe, MonadExceptOf.throw, Except.map]
    by_cases hcw : cw = 0
    · simp [hcw, hps, bind, Except.bind, throw, throwThe, MonadExceptOf.throw, Except.map]
    simp only [hps, hcw, if_false]
    refine bind_map (windowTurn_annealed eps cw pre iter m) ?_
    rintro ⟨x, c⟩
    cases c with
    | true => rfl
    | false =>
      simp only [Bool.false_eq_true, if_false]
      split
      · unfold stopStep
        exact bind_map (finalClean_annealed _ _) fun y => rfl
      · rename_i hlt
        refine bind_map (p := Mach.annealed b) ?_ fun y => ih _ ?_ (iter + 1) y rfl
        · unfold burnSweep
          exact bind_map (sampleMats_annealed mats x) fun y => rfl
        · rw [← hn]
          push_cast
          omega

theorem burn_in_annealed (b b' : Bool) (mats : List Nat) (eps : ℝ) (cw bmin : Nat) (bmax : Int) (ps : Nat) (m : Mach F G) :
    burn_in env mats [] eps cw bmin bmax ps 0 (m.annealed b) =
      (burn_in env mats [] eps cw bmin bmax ps 0 (m.annealed b')).map (Mach.annealed b) := by
  unfold burn_in
  exact bind_map (preLoop_annealed b b' mats bmin ps bmin [] [] m) fun x =>
    mainLoop_annealed mats eps cw bmax ps bmin _ 1 (allocLbdas (env.junk 0) cw [] x) rfl

theorem assignFct_annealed (h1 : ∀ (m : Mach F G) i, env.getFct (m.annealed b) i = env.getFct m i) (m : Mach F G) (i : Nat) :
    assignFct env (m.annealed b) i = (assignFct env m i).map (Mach.annealed b) := by
  rw [assignFct, assignFct]
  show (match m.fct i with | some f => _ | none => _) = _
  cases m.fct i with
  | some f => rfl
  | none =>
    show (env.getFct (m.annealed b) i >>= _) = _
    rw [h1]
    refine bind_map (p := id) (map_same rfl) ?_
    rintro ⟨f, extra⟩
    cases extra <;> rfl

theorem allocMat_annealed (S : Nat) (m : Mach F G) (i : Nat) :
    allocMat env S (m.annealed b) i = (allocMat env S m i).map (Mach.annealed b) := by
  rw [allocMat, allocMat]
  show (match modelOf m i with | none => _ | some f => _) = _
  cases modelOf m i <;> rfl

theorem updateTraceM_annealed (c : Bool) (m : Mach F G) (i : Nat) :
    updateTraceM c (m.annealed b) i = (updateTraceM c m i).map (Mach.annealed b) := by
  rw [updateTraceM, updateTraceM]
  show (match m.trace i with | none => _ | some f => _) = _
  cases m.trace i with
  | none => rfl
  | some t => exact bind_map (p := id) (map_same rfl) fun w => rfl

theorem samplingLoop_annealed (mats : List Nat) (ps n : Nat) : ∀ m : Mach F G,
    samplingLoop env mats [] ps n (m.annealed b) = (samplingLoop env mats [] ps n m).map (Mach.annealed b) := by
  induction n with
  | zero => intro m; rfl
  | succ n ih =>
    intro m
    rw [samplingLoop, samplingLoop]
    refine bind_map ?_ ih
    unfold samplingStep
    refine bind_map (sampleMats_annealed mats m) fun x => ?_
    refine bind_map (foldlM_same _ (fun a i _ => updateTraceM_annealed _ a i) x) fun y => ?_
    by_cases hps : ps = 0
    · subst hps; rfl
    · simp [hps, sampleLbdas]
      rfl

/-- without parameters to update, annealing has no effect -/
theorem infer_annealed {b b' : Bool} (h1 : ∀ (c : Bool) (m : Mach F G) i, env.getFct (m.annealed c) i = env.getFct m i) (S cw : Nat)
    (eps : ℝ) (bmin : Nat) (bmax : Int) (ps : Nat) (m : Mach F G) (hl : freeLbdas m = []) :
    infer env S cw eps bmin bmax ps 0 (m.annealed b) =
      (infer env S cw eps bmin bmax ps 0 (m.annealed b')).map (Mach.annealed b) := by
  have hl' : ∀ c, freeLbdas (m.annealed c) = [] := fun _ => hl
  have hf : ∀ c, freeMats (m.annealed c) = freeMats m := fun _ => rfl
  unfold infer
  simp only [hl', hf]
  rw [foldlM_same (p := Mach.annealed b) _ (fun a i _ => assignFct_annealed (h1 b) a i) m,
    foldlM_same (p := Mach.annealed b') _ (fun a i _ => assignFct_annealed (h1 b') a i) m]
  cases (freeMats m).foldlM (assignFct env) m with
  | error e => rfl
  | ok m1 =>
    show (burn_in env (freeMats m) [] eps cw bmin bmax ps 0 ((resetIndices (freeMats m) [] m1).annealed b) >>= _) =
      (burn_in env (freeMats m) [] eps cw bmin bmax ps 0 ((resetIndices (freeMats m) [] m1).annealed b') >>= _).map _
    refine bind_map (burn_in_annealed b b' _ eps cw bmin bmax ps _) fun x => ?_
    refine bind_map (foldlM_same _ (fun a i _ => allocMat_annealed _ a i) x) fun y => ?_
    exact samplingLoop_annealed (freeMats m) ps S (allocLbdasS env.junkSampling S [] y)

end LFM

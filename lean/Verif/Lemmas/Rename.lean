import Verif.Lemmas.Machine

/-!
# Lemmas: numbers of matrices do not matter

Inference commutes with renaming the matrices of a machine.
-/

namespace LFM

variable {F G : Type}

/-- the same values under other numbers: matrix `i` of the result is matrix `ρ i`; parameters from number `n` on, which do
not exist, are set to zero; ratios are forgotten (MAX-AND layers are no generic layers) -/
def World.ren (ρ : Equiv.Perm Nat) (n : Nat) (w : World) : World :=
  { mat := fun i => w.mat (ρ i), lbda := fun k => if k < n then w.lbda k else .scalar (.fin 0) }

/-- a layer under other numbers -/
def LayerInfo.ren (ρ : Equiv.Perm Nat) (lr : LayerInfo) : LayerInfo :=
  { lr with factors := lr.factors.map ρ.symm, q := lr.q.map ρ.symm }

/-- a machine under other numbers -/
def Mach.ren (ρ : Equiv.Perm Nat) (n : Nat) (m : Mach F G) : Mach F G :=
  { m with
    layers := m.layers.map (LayerInfo.ren ρ)
    matrices := m.matrices.map ρ.symm
    world := m.world.ren ρ n
    fixed := fun i => m.fixed (ρ i)
    layerOf := fun i => m.layerOf (ρ i)
    bernoulli_prior := fun i => m.bernoulli_prior (ρ i)
    fct := fun i => m.fct (ρ i)
    trace := fun i => m.trace (ρ i)
    trace_index := fun i => m.trace_index (ρ i) }

/-- environments that differ in the numbers only -/
structure EnvRen (ρ : Equiv.Perm Nat) (n : Nat) (e e' : Env F G) : Prop where
  runMat : ∀ f i t w, e'.runMat f (ρ.symm i) t (w.ren ρ n) = (e.runMat f i t w).map (World.ren ρ n)
  runLbda : ∀ g, ∀ k < n, ∀ t w, e'.runLbda g k t (w.ren ρ n) = (e.runLbda g k t w).map (World.ren ρ n)
  perm : ∀ t l, e'.perm t (l.map ρ.symm) = (e.perm t l).map ρ.symm
  getFct : ∀ m i, e'.getFct (m.ren ρ n) (ρ.symm i) =
    (e.getFct m i).map fun r => (r.1, r.2.map fun p => (ρ.symm p.1, p.2))
  getLfct : ∀ m k, e'.getLfct (m.ren ρ n) k = e.getLfct m k
  junk : e'.junk = e.junk
  junkSampling : e'.junkSampling = e.junkSampling
  junkMat : ∀ i, e'.junkMat (ρ.symm i) = e.junkMat i

theorem bind_map {α β γ δ : Type} {p : α → β} {q : γ → δ} {x : Except Err α} {y : Except Err β} {f : α → Except Err γ}
    {g : β → Except Err δ} (h : y = x.map p) (hg : ∀ a, g (p a) = (f a).map q) : (y >>= g) = (x >>= f).map q := by
  subst h
  cases x with
  | error e => rfl
  | ok a => exact hg a

theorem foldlM_map {α β γ δ : Type} {p : α → β} {q : γ → δ} {f : α → γ → Except Err α} {g : β → δ → Except Err β}
    (hg : ∀ a x, g (p a) (q x) = (f a x).map p) (xs : List γ) : ∀ a, (xs.map q).foldlM g (p a) = (xs.foldlM f a).map p := by
  induction xs with
  | nil => intro a; rfl
  | cons x xs ih =>
    intro a
    rw [List.map_cons, List.foldlM_cons, List.foldlM_cons]
    exact bind_map (hg a x) ih

theorem foldlM_same {α β γ : Type} {p : α → β} {f : α → γ → Except Err α} {g : β → γ → Except Err β} (xs : List γ)
    (hg : ∀ a, ∀ x ∈ xs, g (p a) x = (f a x).map p) : ∀ a : α, xs.foldlM g (p a) = (xs.foldlM f a).map p := by
  induction xs with
  | nil => intro a; rfl
  | cons x xs ih =>
    intro a
    rw [List.foldlM_cons, List.foldlM_cons]
    exact bind_map (hg a x (by simp)) (ih fun a y hy => hg a y (by simp [hy]))

theorem upd_ren {α : Type} (ρ : Equiv.Perm Nat) (f : Nat → α) (i : Nat) (v : α) :
    (fun j => upd f i v (ρ j)) = upd (fun j => f (ρ j)) (ρ.symm i) v := by
  funext j
  unfold upd
  by_cases h : ρ j = i
  · rw [if_pos h, if_pos (by rw [← h, Equiv.symm_apply_apply])]
  · rw [if_neg h, if_neg (fun e => h (by rw [e, Equiv.apply_symm_apply]))]

variable (ρ : Equiv.Perm Nat) {n : Nat} {e e' : Env F G}

theorem callMat_ren (E : EnvRen ρ n e e') (m : Mach F G) (i : Nat) :
    callMat e' (m.ren ρ n) (ρ.symm i) = (callMat e m i).map (Mach.ren ρ n) := by
  have : (m.ren ρ n).fct (ρ.symm i) = m.fct i := congrArg m.fct (ρ.apply_symm_apply i)
  rw [callMat, callMat, this]
  cases m.fct i with
  | none => rfl
  | some f => exact bind_map (E.runMat f i m.clock m.world) fun w => rfl

theorem sampleMats_ren (E : EnvRen ρ n e e') (mats : List Nat) (m : Mach F G) :
    sampleMats e' (mats.map ρ.symm) (m.ren ρ n) = (sampleMats e mats m).map (Mach.ren ρ n) := by
  rw [sampleMats, sampleMats]
  refine bind_map (p := Mach.ren ρ n) ?_ fun a => rfl
  show (e'.perm m.clock (mats.map ρ.symm)).foldlM (callMat e') (m.ren ρ n) = _
  rw [E.perm]
  exact foldlM_map (callMat_ren ρ E) _ m

theorem callLbda_ren (E : EnvRen ρ n e e') (m : Mach F G) (k : Nat) (hk : k < n) :
    callLbda e' (m.ren ρ n) k = (callLbda e m k).map (Mach.ren ρ n) := by
  rw [callLbda, callLbda]
  show (match m.lfct k with | none => _ | some g => _) = _
  cases m.lfct k with
  | none => rfl
  | some g => exact bind_map (E.runLbda g k hk m.clock m.world) fun w => rfl

theorem sampleLbdas_ren (E : EnvRen ρ n e e') (lbdas : List Nat) (hl : ∀ k ∈ lbdas, k < n) (m : Mach F G) :
    sampleLbdas e' lbdas (m.ren ρ n) = (sampleLbdas e lbdas m).map (Mach.ren ρ n) :=
  foldlM_same lbdas (fun a k hk => callLbda_ren ρ E a k (hl k hk)) m

theorem lbda_ren {w : World} {k : Nat} (hk : k < n) : (w.ren ρ n).lbda k = w.lbda k := if_pos hk

theorem map_same {α : Type} {x y : Except Err α} (h : y = x) : y = x.map id := by
  subst h
  cases y <;> rfl

theorem updateTraceL_ren (m : Mach F G) (k : Nat) (hk : k < n) :
    updateTraceL (m.ren ρ n) k = (updateTraceL m k).map (Mach.ren ρ n) := by
  rw [updateTraceL, updateTraceL]
  show (match m.ltrace k with | none => _ | some t => _) = _
  cases m.ltrace k with
  | none => rfl
  | some t =>
    refine bind_map (p := id) (x := writeL t (m.ltrace_index k) (m.world.lbda k)) (map_same ?_) fun t' => rfl
    show writeL t (m.ltrace_index k) ((m.world.ren ρ n).lbda k) = _
    rw [lbda_ren ρ hk]

theorem updateTracesL_ren (lbdas : List Nat) (hl : ∀ k ∈ lbdas, k < n) (m : Mach F G) :
    lbdas.foldlM updateTraceL (m.ren ρ n) = (lbdas.foldlM updateTraceL m).map (Mach.ren ρ n) :=
  foldlM_same lbdas (fun a k hk => updateTraceL_ren ρ a k (hl k hk)) m

theorem annealTo_ren (pre : Nat) (ss : List (Nat × List ℝ)) (hs : ∀ p ∈ ss, p.1 < n) : ∀ m : Mach F G,
    annealTo pre ss (m.ren ρ n) = (annealTo pre ss m).map (Mach.ren ρ n) := by
  induction ss with
  | nil => intro m; rfl
  | cons p ss ih =>
    intro m
    obtain ⟨k, steps⟩ := p
    rw [annealTo, annealTo]
    cases steps[pre]? with
    | none => rfl
    | some x =>
      have hk : k < n := hs (k, steps) (by simp)
      have := ih (fun p hp => hs p (by simp [hp])) { m with world := { m.world with lbda := upd m.world.lbda k (.scalar (.fin x)) } }
      refine Eq.trans (congrArg (annealTo pre ss) ?_) this
      have e : upd (m.world.ren ρ n).lbda k (.scalar (.fin x)) =
          fun j => if j < n then upd m.world.lbda k (.scalar (.fin x)) j else .scalar (.fin 0) := by
        funext j
        unfold upd World.ren
        by_cases hj : j = k
        · subst hj
          simp [hk]
        · simp [hj]
      show ({ m.ren ρ n with world := { m.world.ren ρ n with lbda := upd (m.world.ren ρ n).lbda k (.scalar (.fin x)) } } :
        Mach F G) = _
      rw [e]
      rfl

theorem annealingSteps_ren (lbdas : List Nat) (hl : ∀ k ∈ lbdas, k < n) (b fx pre : Nat) (steps : List (List ℝ)) (m : Mach F G) :
    annealingSteps lbdas b fx pre steps (m.ren ρ n) = annealingSteps lbdas b fx pre steps m := by
  unfold annealingSteps
  split
  · have : ∀ ks : List Nat, (∀ k ∈ ks, k < n) → (ks.mapM fun k => annealing b ((m.ren ρ n).world.lbda k)) =
        ks.mapM fun k => annealing b (m.world.lbda k) := by
      intro ks
      induction ks with
      | nil => intro _; rfl
      | cons k ks ih =>
        intro hk
        rw [List.mapM_cons, List.mapM_cons, ih fun j hj => hk j (by simp [hj])]
        have : (m.ren ρ n).world.lbda k = m.world.lbda k := lbda_ren ρ (hk k (by simp))
        rw [this]
    exact this lbdas hl
  · rfl

theorem allocLbdas_ren (junk : Nat → Nat → Nat → NpF) (c : Nat) (lbdas : List Nat) (hl : ∀ k ∈ lbdas, k < n) (m : Mach F G) :
    allocLbdas junk c lbdas (m.ren ρ n) = (allocLbdas junk c lbdas m).ren ρ n := by
  have e : (fun k => if k ∈ lbdas then some (allocL (junk k) c ((m.world.ren ρ n).lbda k)) else m.ltrace k) =
      fun k => if k ∈ lbdas then some (allocL (junk k) c (m.world.lbda k)) else m.ltrace k := by
    funext k
    by_cases hk : k ∈ lbdas
    · rw [if_pos hk, if_pos hk, lbda_ren ρ (hl k hk)]
    · rw [if_neg hk, if_neg hk]
  show ({ m.ren ρ n with
    ltrace := fun k => if k ∈ lbdas then some (allocL (junk k) c ((m.world.ren ρ n).lbda k)) else m.ltrace k
    ltrace_index := fun k => if k ∈ lbdas then 0 else m.ltrace_index k } : Mach F G) = _
  rw [e]
  rfl

theorem allocLbdasS_ren (junk : Nat → Nat → Nat → NpF) (c : Nat) (lbdas : List Nat) (hl : ∀ k ∈ lbdas, k < n) (m : Mach F G) :
    allocLbdasS junk c lbdas (m.ren ρ n) = (allocLbdasS junk c lbdas m).ren ρ n := by
  have e : (fun k => if k ∈ lbdas then some (allocL (junk k) c ((m.world.ren ρ n).lbda k)) else m.ltrace k) =
      fun k => if k ∈ lbdas then some (allocL (junk k) c (m.world.lbda k)) else m.ltrace k := by
    funext k
    by_cases hk : k ∈ lbdas
    · rw [if_pos hk, if_pos hk, lbda_ren ρ (hl k hk)]
    · rw [if_neg hk, if_neg hk]
  show ({ m.ren ρ n with
    ltrace := fun k => if k ∈ lbdas then some (allocL (junk k) c ((m.world.ren ρ n).lbda k)) else m.ltrace k } : Mach F G) = _
  rw [e]
  rfl

theorem preStep_ren (E : EnvRen ρ n e e') (mats lbdas : List Nat) (hl : ∀ k ∈ lbdas, k < n) (b ps fx pre : Nat) (steps : List (List ℝ)) (m : Mach F G) :
    preStep e' (mats.map ρ.symm) lbdas b ps fx pre steps (m.ren ρ n) =
      (preStep e mats lbdas b ps fx pre steps m).map fun r => (r.1, r.2.ren ρ n) := by
  unfold preStep
  by_cases hp : ps = 0
  · simp only [hp, if_true]
    rfl
  simp only [hp, if_false]
  refine bind_map (sampleMats_ren ρ E mats m) fun a => ?_
  by_cases hpre : pre > fx
  · simp only [hpre, if_true]
    show (if a.anneal = false then _ else _) = _
    by_cases han : a.anneal = false
    · simp only [han, if_true]
      exact bind_map (sampleLbdas_ren ρ E lbdas hl a) fun c => rfl
    · simp only [han]
      by_cases hf : fx ≠ 0
      · rw [if_pos hf, if_pos hf, if_neg (by decide), if_neg (by decide)]
        rfl
      · simp only [hf, if_false]
        refine bind_map (p := id) (map_same (annealingSteps_ren ρ lbdas hl b fx pre steps a)) fun st => ?_
        exact bind_map (annealTo_ren ρ pre _ (fun p hp => hl p.1 (List.of_mem_zip hp).1) a) fun c => rfl
  · simp only [hpre, if_false]
    rfl

theorem preLoop_ren (E : EnvRen ρ n e e') (mats lbdas : List Nat) (hl : ∀ k ∈ lbdas, k < n) (b ps fx : Nat) (todo : Nat) :
    ∀ (steps : List (List ℝ)) (m : Mach F G), preLoop e' (mats.map ρ.symm) lbdas b ps fx todo steps (m.ren ρ n) =
      (preLoop e mats lbdas b ps fx todo steps m).map (Mach.ren ρ n) := by
  induction todo with
  | zero => intro steps m; rfl
  | succ todo ih =>
    intro steps m
    rw [preLoop, preLoop]
    exact bind_map (preStep_ren ρ E mats lbdas hl b ps fx _ steps m) fun r => ih r.1 r.2

theorem writeFactors_ren (fs : List Fac) : ∀ (is : List Nat) (w : World),
    writeFactors (w.ren ρ n) (is.map ρ.symm) fs = (writeFactors w is fs).ren ρ n := by
  induction fs with
  | nil => intro is w; cases is <;> rfl
  | cons f fs ih =>
    intro is w
    cases is with
    | nil => rfl
    | cons i is =>
      rw [List.map_cons, writeFactors, writeFactors, ← ih]
      congr 1
      show World.mk _ _ _ = World.mk _ _ _
      rw [upd_ren]
      rfl

theorem map_ren (w : World) (is : List Nat) : (is.map ρ.symm).map (w.ren ρ n).mat = is.map w.mat := by
  rw [List.map_map]
  refine List.map_congr_left fun i _ => ?_
  exact congrArg w.mat (ρ.apply_symm_apply i)

theorem cleanLayer_ren (reset clean : Bool) (m : Mach F G) (lr : LayerInfo) :
    cleanLayer reset clean (m.ren ρ n) (lr.ren ρ) = (cleanLayer reset clean m lr).map fun r => (r.1.ren ρ n, r.2) := by
  rw [cleanLayer, cleanLayer]
  have : (lr.ren ρ).factors.map (m.ren ρ n).world.mat = lr.factors.map m.world.mat := map_ren ρ m.world lr.factors
  rw [this]
  refine bind_map (p := id) (x := clean_up_codes (lr.factors.map m.world.mat) reset clean) (by
    cases clean_up_codes (lr.factors.map m.world.mat) reset clean <;> rfl) fun r => ?_
  obtain ⟨fs, b⟩ := r
  show Except.ok _ = Except.ok _
  have := writeFactors_ren ρ (n := n) fs lr.factors m.world
  congr 2
  show ({ m.ren ρ n with world := writeFactors (m.world.ren ρ n) (lr.factors.map ρ.symm) fs } : Mach F G) = _
  rw [this]
  rfl

theorem autoClean_ren (ls : List LayerInfo) : ∀ m : Mach F G,
    autoClean (ls.map (LayerInfo.ren ρ)) (m.ren ρ n) = (autoClean ls m).map fun r => (r.1.ren ρ n, r.2) := by
  induction ls with
  | nil => intro m; rfl
  | cons lr ls ih =>
    intro m
    rw [List.map_cons, autoClean, autoClean]
    show (if lr.auto_clean = true ∨ lr.auto_reset = true then _ else _) = _
    split
    · exact bind_map (cleanLayer_ren ρ lr.auto_reset lr.auto_clean m lr) fun r => bind_map (ih r.1) fun r' => rfl
    · exact ih m

theorem finalClean_ren (ls : List LayerInfo) : ∀ m : Mach F G,
    finalClean (ls.map (LayerInfo.ren ρ)) (m.ren ρ n) = (finalClean ls m).map (Mach.ren ρ n) := by
  induction ls with
  | nil => intro m; rfl
  | cons lr ls ih =>
    intro m
    rw [List.map_cons, finalClean, finalClean]
    show (if lr.auto_reset = true then _ else _) = _
    split
    · exact bind_map (cleanLayer_ren ρ false true m lr) fun r => ih r.1
    · exact ih m

theorem allConverged_ren (eps : ℝ) (m : Mach F G) (ks : List Nat) :
    allConverged eps (m.ren ρ n) ks = allConverged eps m ks := by
  induction ks with
  | nil => rfl
  | cons k ks ih =>
    rw [allConverged, allConverged, ih]
    rfl

theorem windowTurn_ren (E : EnvRen ρ n e e') (lbdas : List Nat) (hl : ∀ k ∈ lbdas, k < n) (eps : ℝ) (cw pre iter : Nat) (m : Mach F G) :
    windowTurn e' lbdas eps cw pre iter (m.ren ρ n) =
      (windowTurn e lbdas eps cw pre iter m).map fun r => (r.1.ren ρ n, r.2) := by
  rw [windowTurn, windowTurn]
  split
  · unfold windowStep
    refine bind_map (p := id) (x := allConverged eps (resetIndexL lbdas m) lbdas) ?_ fun conv => ?_
    · exact map_same (allConverged_ren ρ eps (resetIndexL lbdas m) lbdas)
    · cases conv with
      | false => rfl
      | true =>
        refine bind_map (autoClean_ren ρ m.layers (resetIndexL lbdas m)) fun r => ?_
        obtain ⟨a, b⟩ := r
        cases b with
        | false => rfl
        | true =>
          show Except.ok (allocLbdas (e'.junk iter) cw lbdas (a.ren ρ n), false) = _
          rw [E.junk, allocLbdas_ren ρ _ _ _ hl]
          rfl
  · rfl

theorem stopStep_ren (lbdas : List Nat) (iter : Nat) (m : Mach F G) :
    stopStep lbdas iter (m.ren ρ n) = (stopStep lbdas iter m).map (Mach.ren ρ n) := by
  rw [stopStep, stopStep]
  exact bind_map (finalClean_ren ρ m.layers m) fun a => rfl

theorem burnSweep_ren (E : EnvRen ρ n e e') (mats lbdas : List Nat) (hl : ∀ k ∈ lbdas, k < n) (m : Mach F G) :
    burnSweep e' (mats.map ρ.symm) lbdas (m.ren ρ n) = (burnSweep e mats lbdas m).map (Mach.ren ρ n) := by
  rw [burnSweep, burnSweep]
  exact bind_map (sampleMats_ren ρ E mats m) fun a => bind_map (sampleLbdas_ren ρ E lbdas hl a) fun b =>
    updateTracesL_ren ρ lbdas hl b

theorem mainLoop_ren (E : EnvRen ρ n e e') (mats lbdas : List Nat) (hl : ∀ k ∈ lbdas, k < n) (eps : ℝ) (cw : Nat) (bmax : Int) (ps pre : Nat) (d : Nat) :
    ∀ (iter : Nat) (m : Mach F G), (bmax + 1 - (iter + pre)).toNat = d →
      mainLoop e' (mats.map ρ.symm) lbdas eps cw bmax ps pre iter (m.ren ρ n) =
        (mainLoop e mats lbdas eps cw bmax ps pre iter m).map (Mach.ren ρ n) := by
  induction d using Nat.strong_induction_on with
  | _ n ih =>
    intro iter m hn
    by_cases h0 : ps = 0 ∨ cw = 0
    · rw [mainLoop_zero h0, mainLoop_zero h0]
      rfl
    rw [mainLoop_eq (fun h => h0 (.inl h)) (fun h => h0 (.inr h)), mainLoop_eq (fun h => h0 (.inl h)) (fun h => h0 (.inr h))]
    refine bind_map (windowTurn_ren ρ E lbdas hl eps cw pre iter m) fun r => ?_
    obtain ⟨a, d⟩ := r
    dsimp only
    by_cases hd : d = true
    · rw [if_pos hd, if_pos hd]
      rfl
    · rw [if_neg hd, if_neg hd]
      by_cases hlt : bmax < (iter : Int) + pre
      · rw [if_pos hlt, if_pos hlt]
        exact stopStep_ren ρ lbdas iter a
      · rw [if_neg hlt, if_neg hlt]
        exact bind_map (burnSweep_ren ρ E mats lbdas hl a) fun b => ih _ (by push_cast; omega) _ b rfl

theorem burn_in_ren (E : EnvRen ρ n e e') (mats lbdas : List Nat) (hl : ∀ k ∈ lbdas, k < n) (eps : ℝ) (cw b : Nat) (bmax : Int) (ps fx : Nat)
    (m : Mach F G) : burn_in e' (mats.map ρ.symm) lbdas eps cw b bmax ps fx (m.ren ρ n) =
      (burn_in e mats lbdas eps cw b bmax ps fx m).map (Mach.ren ρ n) := by
  rw [burn_in, burn_in]
  refine bind_map (preLoop_ren ρ E mats lbdas hl b ps fx b [] m) fun a => ?_
  dsimp only
  rw [E.junk, allocLbdas_ren ρ _ _ _ hl]
  exact mainLoop_ren ρ E mats lbdas hl eps cw bmax ps b _ 1 (allocLbdas (e.junk 0) cw lbdas a) rfl

theorem assignFct_ren (E : EnvRen ρ n e e') (m : Mach F G) (i : Nat) :
    assignFct e' (m.ren ρ n) (ρ.symm i) = (assignFct e m i).map (Mach.ren ρ n) := by
  have : (m.ren ρ n).fct (ρ.symm i) = m.fct i := congrArg m.fct (ρ.apply_symm_apply i)
  rw [assignFct, assignFct, this]
  cases m.fct i with
  | some f => rfl
  | none =>
    refine bind_map (E.getFct m i) fun r => ?_
    obtain ⟨f, extra⟩ := r
    cases extra with
    | none =>
      show Except.ok _ = Except.ok _
      congr 1
      show ({ m.ren ρ n with fct := upd (fun j => m.fct (ρ j)) (ρ.symm i) f } : Mach F G) = _
      rw [← upd_ren]
      rfl
    | some p =>
      obtain ⟨j, g⟩ := p
      show Except.ok _ = Except.ok _
      congr 1
      show ({ m.ren ρ n with fct := upd (upd (fun j => m.fct (ρ j)) (ρ.symm j) (some g)) (ρ.symm i) f } : Mach F G) = _
      rw [← upd_ren, ← upd_ren]
      rfl

theorem assignLfct_ren (E : EnvRen ρ n e e') (m : Mach F G) (k : Nat) :
    assignLfct e' (m.ren ρ n) k = (assignLfct e m k).map (Mach.ren ρ n) := by
  rw [assignLfct, assignLfct]
  show (match m.lfct k with | some _ => _ | none => _) = _
  cases m.lfct k with
  | some g => rfl
  | none =>
    refine bind_map (p := id) (x := e.getLfct m k) ?_ fun g => rfl
    rw [E.getLfct]
    cases e.getLfct m k <;> rfl

theorem modelOf_ren (m : Mach F G) (i : Nat) : modelOf (m.ren ρ n) (ρ.symm i) = modelOf m i := by
  rw [modelOf, modelOf]
  have : (m.ren ρ n).layerOf (ρ.symm i) = m.layerOf i := congrArg m.layerOf (ρ.apply_symm_apply i)
  rw [this]
  congr 1
  funext k
  show ((m.layers.map (LayerInfo.ren ρ))[k]?).map _ = _
  rw [List.getElem?_map, Option.map_map]
  rfl

theorem allocMat_ren (E : EnvRen ρ n e e') (S : Nat) (m : Mach F G) (i : Nat) :
    allocMat e' S (m.ren ρ n) (ρ.symm i) = (allocMat e S m i).map (Mach.ren ρ n) := by
  rw [allocMat, allocMat, modelOf_ren]
  cases modelOf m i with
  | none => rfl
  | some model =>
    show Except.ok _ = Except.ok _
    congr 1
    have h1 : (m.ren ρ n).world.mat (ρ.symm i) = m.world.mat i := congrArg m.world.mat (ρ.apply_symm_apply i)
    rw [h1, E.junkMat]
    show ({ m.ren ρ n with trace := upd (fun j => m.trace (ρ j)) (ρ.symm i) _ } : Mach F G) = _
    rw [← upd_ren]
    rfl

theorem updateTraceM_ren (ibp : Bool) (m : Mach F G) (i : Nat) :
    updateTraceM ibp (m.ren ρ n) (ρ.symm i) = (updateTraceM ibp m i).map (Mach.ren ρ n) := by
  have h0 : (m.ren ρ n).trace (ρ.symm i) = m.trace i := congrArg m.trace (ρ.apply_symm_apply i)
  have h1 : (m.ren ρ n).world.mat (ρ.symm i) = m.world.mat i := congrArg m.world.mat (ρ.apply_symm_apply i)
  have h2 : (m.ren ρ n).trace_index (ρ.symm i) = m.trace_index i := congrArg m.trace_index (ρ.apply_symm_apply i)
  rw [updateTraceM, updateTraceM, h0, h1, h2]
  cases m.trace i with
  | none => rfl
  | some t =>
    refine bind_map (p := id) (x := writeTrace ibp t (m.trace_index i) (m.world.mat i).val) (by
      cases writeTrace ibp t (m.trace_index i) (m.world.mat i).val <;> rfl) fun t' => ?_
    show Except.ok _ = Except.ok _
    congr 1
    show ({ m.ren ρ n with
      trace := upd (fun j => m.trace (ρ j)) (ρ.symm i) (some t')
      trace_index := upd (fun j => m.trace_index (ρ j)) (ρ.symm i) (m.trace_index i + 1) } : Mach F G) = _
    rw [← upd_ren, ← upd_ren]
    rfl

theorem samplingStep_ren (E : EnvRen ρ n e e') (mats lbdas : List Nat) (hl : ∀ k ∈ lbdas, k < n) (ps : Nat) (m : Mach F G) :
    samplingStep e' (mats.map ρ.symm) lbdas ps (m.ren ρ n) = (samplingStep e mats lbdas ps m).map (Mach.ren ρ n) := by
  unfold samplingStep
  refine bind_map (sampleMats_ren ρ E mats m) fun a => ?_
  have hany : ((mats.map ρ.symm).any fun i => decide (modelOf (a.ren ρ n) i = some "OR-AND-IBP")) =
      mats.any fun i => decide (modelOf a i = some "OR-AND-IBP") := by
    rw [List.any_map]
    congr 1
    funext i
    simp only [Function.comp_apply, modelOf_ren]
  rw [hany]
  refine bind_map (foldlM_map (updateTraceM_ren ρ _) mats a) fun b => ?_
  refine bind_map (sampleLbdas_ren ρ E lbdas hl b) fun c => ?_
  refine bind_map (updateTracesL_ren ρ lbdas hl c) fun d => ?_
  by_cases hp : ps = 0
  · simp only [hp, if_true]
    rfl
  · simp only [hp, if_false]
    rfl

theorem samplingLoop_ren (E : EnvRen ρ n e e') (mats lbdas : List Nat) (hl : ∀ k ∈ lbdas, k < n) (ps : Nat) (todo : Nat) : ∀ m : Mach F G,
    samplingLoop e' (mats.map ρ.symm) lbdas ps todo (m.ren ρ n) = (samplingLoop e mats lbdas ps todo m).map (Mach.ren ρ n) := by
  induction todo with
  | zero => intro m; rfl
  | succ todo ih =>
    intro m
    rw [samplingLoop, samplingLoop]
    exact bind_map (samplingStep_ren ρ E mats lbdas hl ps m) ih

theorem freeMats_ren (m : Mach F G) : freeMats (m.ren ρ n) = (freeMats m).map ρ.symm := by
  have : members (m.ren ρ n) = (members m).map ρ.symm := by
    unfold members
    show ((m.layers.map (LayerInfo.ren ρ)).flatMap LayerInfo.factors ++ m.matrices.map ρ.symm ++
      (m.layers.map (LayerInfo.ren ρ)).flatMap fun layer => if layer.model = "qL-AND" then layer.q.toList else []) = _
    rw [List.map_append, List.map_append, List.flatMap_map, List.flatMap_map, List.map_flatMap, List.map_flatMap]
    congr 2
    funext lr
    show (if lr.model = "qL-AND" then (lr.q.map ρ.symm).toList else []) = _
    split
    · cases lr.q <;> rfl
    · rfl
  rw [freeMats, freeMats, this, List.filter_map]
  congr 2
  funext i
  show (!m.fixed (ρ (ρ.symm i))) = _
  rw [ρ.apply_symm_apply]

theorem freeLbdas_ren (m : Mach F G) : freeLbdas (m.ren ρ n) = freeLbdas m := by
  rw [freeLbdas, freeLbdas]
  show (List.range (m.layers.map (LayerInfo.ren ρ)).length).filter _ = _
  rw [List.length_map]
  rfl

/-- inference commutes with renaming -/
theorem infer_ren (E : EnvRen ρ n e e') (S cw : Nat) (eps : ℝ) (bmin : Nat) (bmax : Int) (ps fx : Nat) (m : Mach F G)
    (hn : m.layers.length ≤ n) : infer e' S cw eps bmin bmax ps fx (m.ren ρ n) = (infer e S cw eps bmin bmax ps fx m).map (Mach.ren ρ n) := by
  have hl : ∀ k ∈ freeLbdas m, k < n := by
    intro k hk
    have := List.mem_range.1 (List.mem_of_mem_filter hk)
    omega
  unfold infer
  rw [freeMats_ren, freeLbdas_ren]
  refine bind_map (foldlM_map (assignFct_ren ρ E) (freeMats m) m) fun a => ?_
  refine bind_map (foldlM_same (freeLbdas m) (fun a k _ => assignLfct_ren ρ E a k) a) fun b => ?_
  have hr : resetIndices ((freeMats m).map ρ.symm) (freeLbdas m) (b.ren ρ n) =
      (resetIndices (freeMats m) (freeLbdas m) b).ren ρ n := by
    have h1 : (fun i => if i ∈ (freeMats m).map ρ.symm then 0 else b.trace_index (ρ i)) =
        fun i => if ρ i ∈ freeMats m then 0 else b.trace_index (ρ i) := by
      funext i
      have : i ∈ (freeMats m).map ρ.symm ↔ ρ i ∈ freeMats m := by
        rw [List.mem_map]
        constructor
        · rintro ⟨j, hj, rfl⟩
          rwa [ρ.apply_symm_apply]
        · intro hi
          exact ⟨ρ i, hi, ρ.symm_apply_apply i⟩
      simp only [this]
    show ({ b.ren ρ n with
      trace_index := fun i => if i ∈ (freeMats m).map ρ.symm then 0 else b.trace_index (ρ i)
      ltrace_index := fun k => if k ∈ freeLbdas m then 0 else b.ltrace_index k } : Mach F G) = _
    rw [h1]
    rfl
  dsimp only
  rw [hr]
  refine bind_map (burn_in_ren ρ E (freeMats m) (freeLbdas m) hl eps cw bmin bmax ps fx _) fun c => ?_
  refine bind_map (foldlM_map (allocMat_ren ρ E S) (freeMats m) c) fun d => ?_
  rw [E.junkSampling, allocLbdasS_ren ρ _ _ _ hl]
  exact samplingLoop_ren ρ E (freeMats m) (freeLbdas m) hl ps S (allocLbdasS e.junkSampling S (freeLbdas m) d)

end LFM

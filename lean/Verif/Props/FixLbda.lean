import Verif.Props.BurnIn

/-!
# Property C86: `fix_lbda_iters` keeps the dispersion parameters fixed in the first sweeps
-/

namespace LFM

variable {F G : Type}

/-- `n` sweeps over the matrices only -/
def Spec.matSweeps (env : Env F G) (mats : List Nat) : Nat → Mach F G → Except Err (Mach F G)
  | 0, m => .ok m
  | n + 1, m => sampleMats env mats m >>= Spec.matSweeps env mats n

/-- `n` sweeps over the matrices, each followed by updates of all parameters -/
def Spec.fullSweeps (env : Env F G) (mats lbdas : List Nat) : Nat → Mach F G → Except Err (Mach F G)
  | 0, m => .ok m
  | n + 1, m => sampleMats env mats m >>= sampleLbdas env lbdas >>= Spec.fullSweeps env mats lbdas n

open Spec

/-- sweeps over the matrices only leave all parameters as they are -/
theorem matSweeps_lbda {env : Env F G} (hk : KeepsLbda env) {mats : List Nat} (n : Nat) {m m' : Mach F G}
    (h : matSweeps env mats n m = .ok m') : m'.world.lbda = m.world.lbda := by
  induction n generalizing m with
  | zero => cases h; rfl
  | succ n ih =>
    rw [matSweeps, bind_ok] at h
    obtain ⟨m1, h1, h2⟩ := h
    rw [ih h2, sampleMats_lbda hk h1]

theorem sampleMats_anneal {env : Env F G} {mats : List Nat} {m m' : Mach F G} (h : sampleMats env mats m = .ok m') :
    m'.anneal = m.anneal := by
  rw [sampleMats, bind_ok] at h
  obtain ⟨m1, h1, h2⟩ := h
  rw [← pure_ok.mp h2]
  show m1.anneal = _
  refine foldlM_rel (R := fun a b : Mach F G => b.anneal = a.anneal) (fun _ => rfl)
    (fun _ _ _ h1 h2 => h2.trans h1) _ _ ?_ _ _ h1
  intro a i _ b hb
  rw [callMat] at hb
  split at hb
  · cases hb
  · rw [bind_ok] at hb
    obtain ⟨w, hw, hb⟩ := hb
    rw [← pure_ok.mp hb]

theorem sampleLbdas_anneal {env : Env F G} {lbdas : List Nat} {m m' : Mach F G} (h : sampleLbdas env lbdas m = .ok m') :
    m'.anneal = m.anneal := by
  refine foldlM_rel (R := fun a b : Mach F G => b.anneal = a.anneal) (fun _ => rfl)
    (fun _ _ _ h1 h2 => h2.trans h1) _ _ ?_ _ _ h
  intro a i _ b hb
  rw [callLbda] at hb
  split at hb
  · cases hb
  · rw [bind_ok] at hb
    obtain ⟨w, hw, hb⟩ := hb
    rw [← pure_ok.mp hb]

theorem bind_congr_ok {α β : Type} {x : Except Err α} {f g : α → Except Err β} (h : ∀ a, x = .ok a → f a = g a) :
    x >>= f = x >>= g := by
  cases x with
  | error e => rfl
  | ok a => exact h a rfl

/-- the turns of the first loop with parameters updated -/
theorem preLoop_sweeps (env : Env F G) (mats lbdas : List Nat) (b ps fx : Nat) (hps : ps ≠ 0) (todo : Nat) (st : List (List ℝ))
    (m : Mach F G) (ha : m.anneal = false) (hb : fx + todo ≤ b) :
    preLoop env mats lbdas b ps fx todo st m = fullSweeps env mats lbdas todo m := by
  induction todo generalizing m st with
  | zero => rfl
  | succ todo ih =>
    rw [preLoop, preStep, fullSweeps]
    simp only [hps, if_false, bind_assoc]
    refine bind_congr_ok fun m1 h1 => ?_
    have hgt : b - todo > fx := by omega
    simp only [hgt, if_true, (sampleMats_anneal h1).trans ha, bind_assoc]
    refine bind_congr_ok fun m2 h2 => ?_
    simp only [pure_bind]
    exact ih _ _ (((sampleLbdas_anneal h2).trans (sampleMats_anneal h1)).trans ha) (by omega)

/-- the turns of the first loop with parameters fixed -/
theorem preLoop_matOnly (env : Env F G) (mats lbdas : List Nat) (b ps fx : Nat) (hps : ps ≠ 0) (n todo : Nat) (st : List (List ℝ))
    (m : Mach F G) (hb : n + todo ≤ b) (hf : b - todo ≤ fx) :
    preLoop env mats lbdas b ps fx (n + todo) st m = matSweeps env mats n m >>= preLoop env mats lbdas b ps fx todo st := by
  induction n generalizing m with
  | zero => rw [Nat.zero_add]; rfl
  | succ n ih =>
    rw [show n + 1 + todo = (n + todo) + 1 by omega, preLoop, preStep, matSweeps]
    simp only [hps, if_false, bind_assoc]
    refine bind_congr_ok fun m1 h1 => ?_
    have hle : ¬ b - (n + todo) > fx := by omega
    simp only [hle, if_false, pure_bind]
    exact ih _ (by omega)

/-- **C86** (`_partial`: for `fix_lbda_iters` up to `burn_in_min`; beyond, see `C86_wrong`). Without annealing, burn-in
starts with `fix_lbda_iters` sweeps over the matrices only, then `burn_in_min - fix_lbda_iters` sweeps with updates of the
parameters; convergence is looked at after that. -/
theorem C86_fixed_partial (env : Env F G) (mats lbdas : List Nat) (eps : ℝ) (cw bmin : Nat) (bmax : Int) (ps fx : Nat)
    (hps : ps ≠ 0) (hfx : fx ≤ bmin) (m : Mach F G) (ha : m.anneal = false) :
    burn_in env mats lbdas eps cw bmin bmax ps fx m =
      matSweeps env mats fx m >>= fullSweeps env mats lbdas (bmin - fx) >>= fun m =>
        mainLoop env mats lbdas eps cw bmax ps bmin 1 (allocLbdas (env.junk 0) cw lbdas m) := by
  have hb : bmin = fx + (bmin - fx) := by omega
  have h := preLoop_matOnly env mats lbdas bmin ps fx hps fx (bmin - fx) [] m (by omega) (by omega)
  rw [← hb] at h
  rw [burn_in, h]
  simp only [bind_assoc]
  refine bind_congr_ok fun m1 h1 => ?_
  rw [preLoop_sweeps env mats lbdas bmin ps fx hps _ _ m1 ?_ (by omega)]
  clear h
  suffices ∀ n (m : Mach F G), matSweeps env mats n m = .ok m1 → m1.anneal = m.anneal from (this fx m h1).trans ha
  intro n
  induction n with
  | zero => intro m h; cases h; rfl
  | succ n ih =>
    intro m h
    rw [matSweeps, bind_ok] at h
    obtain ⟨m2, h2, h3⟩ := h
    rw [ih m2 h3, sampleMats_anneal h2]

/-- **C86** (what goes wrong): whatever the settings, `fix_lbda_iters` beyond `burn_in_min` is the same as `burn_in_min`:
parameters are updated from sweep `burn_in_min + 1` on -/
theorem C86_wrong (env : Env F G) (mats lbdas : List Nat) (eps : ℝ) (cw bmin : Nat) (bmax : Int) (ps fx : Nat)
    (hps : ps ≠ 0) (hfx : bmin ≤ fx) (m : Mach F G) :
    burn_in env mats lbdas eps cw bmin bmax ps fx m = burn_in env mats lbdas eps cw bmin bmax ps bmin m := by
  have h := preLoop_matOnly env mats lbdas bmin ps fx hps bmin 0 [] m (by omega) (by omega)
  have h' := preLoop_matOnly env mats lbdas bmin ps bmin hps bmin 0 [] m (by omega) (by omega)
  rw [Nat.add_zero] at h h'
  rw [burn_in, burn_in, h, h']
  rfl

theorem okBind {α β : Type} (a : α) (f : α → Except Err β) : (Except.ok a >>= f) = f a := rfl

/-- update function of parameters that counts its calls -/
noncomputable def countEnv (j : NpF) : Env Unit Unit :=
  { idleEnv j with runLbda := fun _ k _ w => .ok { w with lbda := upd w.lbda k (match w.lbda k with
      | .scalar (.fin x) => .scalar (.fin (x + 1))
      | v => v) } }

/-- **C86** (what goes wrong), an instance: parameters are to be fixed for 10 sweeps, but are updated in the second and last
one of a burn-in of two sweeps -/
theorem C86_instance (j : NpF) : ∃ m', burn_in (countEnv j) [0, 1] [0] 0.01 15 1 2 10 10 (smallMach (.fin 0)) = .ok m' ∧
    m'.clock = 2 ∧ m'.world.lbda 0 = .scalar (.fin 1) := by
  rw [C86_wrong _ _ _ _ _ _ _ _ _ (by decide) (by decide),
    C86_fixed_partial _ _ _ _ _ _ _ _ _ (by decide) le_rfl _ rfl]
  obtain ⟨m1, e1, h1, h2, h3, h4, h5⟩ : ∃ m1, (matSweeps (countEnv j) [0, 1] 1 (smallMach (.fin 0)) >>=
      fullSweeps (countEnv j) [0, 1] [0] (1 - 1)) = .ok m1 ∧ m1.clock = 1 ∧ m1.world = (smallMach (.fin 0)).world ∧
      m1.fct = (smallMach (.fin 0)).fct ∧ m1.lfct = (smallMach (.fin 0)).lfct ∧ m1.layers = (smallMach (.fin 0)).layers :=
    ⟨_, rfl, rfl, rfl, rfl, rfl, rfl⟩
  rw [e1]
  show ∃ m', mainLoop _ _ _ _ _ _ _ _ _ (allocLbdas ((countEnv j).junk 0) 15 [0] m1) = .ok m' ∧ _
  rw [mainLoop_eq (by decide) (by decide)]
  have w1 : ∀ (m : Mach Unit Unit) (i : Nat), i % 15 ≠ 0 → windowTurn (countEnv j) [0] 0.01 15 1 i m = .ok (m, false) := by
    intro m i hi
    rw [windowTurn, if_neg hi]
  rw [w1 _ _ (by decide)]
  obtain ⟨m2, e2, g1, g2, g5⟩ : ∃ m2, burnSweep (countEnv j) [0, 1] [0] (allocLbdas ((countEnv j).junk 0) 15 [0] m1) = .ok m2 ∧
      m2.clock = 2 ∧ m2.world.lbda 0 = .scalar (.fin (0 + 1)) ∧ m2.layers = (smallMach (.fin 0)).layers := by
    obtain ⟨ly, mt, an, w, fi, lo, bp, fc, tr, ti, lf, lfc, lt, lti, bi, cl⟩ := m1
    simp only at h1 h2 h3 h4 h5
    subst h1 h2 h3 h4 h5
    exact ⟨_, rfl, rfl, rfl, rfl⟩
  rw [okBind]
  beta_reduce
  rw [if_neg (by simp), if_neg (by decide), e2]
  show ∃ m', mainLoop _ _ _ _ _ _ _ _ _ m2 = .ok m' ∧ _
  rw [mainLoop_eq (by decide) (by decide), w1 _ _ (by decide)]
  rw [okBind]
  beta_reduce
  rw [if_neg (by simp), if_pos (by decide), stopStep, g5]
  refine ⟨_, rfl, g1, ?_⟩
  show m2.world.lbda 0 = _
  rw [g2, zero_add]

end LFM

import Verif.Lemmas.Sampling
import Verif.Lemmas.BurnIn

/-!
# Lemmas: inference in machines with fixed parameters

Without parameters to update, annealing and automatic clean-up, burn-in is a fixed number of sweeps.
-/

namespace LFM

variable {F G : Type}

/-- `n` sweeps over the matrices from time `clock` on -/
def sweepsM (env : Env F G) (fct : Nat → Option F) (mats : List Nat) : Nat → Nat → World → Except Err World
  | _, 0, w => .ok w
  | clock, n + 1, w => sweepM env fct mats clock w >>= sweepsM env fct mats (clock + 1) n

theorem sweepsM_add {env : Env F G} {fct : Nat → Option F} {mats : List Nat} (a b : Nat) : ∀ {clock : Nat}
    {w w1 w2 : World}, sweepsM env fct mats clock a w = .ok w1 → sweepsM env fct mats (clock + a) b w1 = .ok w2 →
    sweepsM env fct mats clock (a + b) w = .ok w2 := by
  induction a with
  | zero =>
    intro clock w w1 w2 h1 h2
    simp only [sweepsM, Except.ok.injEq] at h1
    subst h1
    simpa using h2
  | succ a ih =>
    intro clock w w1 w2 h1 h2
    rw [sweepsM, bind_ok] at h1
    obtain ⟨w', h1, h3⟩ := h1
    rw [show a + 1 + b = (a + b) + 1 by omega, sweepsM, bind_ok]
    exact ⟨w', h1, ih h3 (by rw [show clock + 1 + a = clock + (a + 1) by omega]; exact h2)⟩

/-- number of sweeps of burn-in -/
def burnSweeps (cw b : Nat) (bmax : Int) : Nat := b + min (cw - 1) (bmax - b).toNat

theorem preLoop_fixed {env : Env F G} {mats : List Nat} {b ps fx todo : Nat} {steps : List (List ℝ)} {m m' : Mach F G}
    (ha : m.anneal = false) (h : preLoop env mats [] b ps fx todo steps m = .ok m') :
    sweepsM env m.fct mats m.clock todo m.world = .ok m'.world := by
  induction todo generalizing steps m with
  | zero => simp only [preLoop, Except.ok.injEq] at h; rw [← h]; rfl
  | succ todo ih =>
    rw [preLoop, bind_ok] at h
    obtain ⟨⟨st, m1⟩, h1, h2⟩ := h
    have o1 := preStep_only h1
    have hs : sweepM env m.fct mats m.clock m.world = .ok m1.world := by
      unfold preStep at h1
      by_cases hp : ps = 0
      · simp [hp, bind, Except.bind, throw, throwThe, MonadExceptOf.throw] at h1
      simp only [hp, if_false] at h1
      rw [bind_ok] at h1
      obtain ⟨m2, e1, e2⟩ := h1
      obtain ⟨w, e3, rfl⟩ := sampleMats_ok e1
      rw [e3]
      by_cases hpre : b - todo > fx
      · simp only [hpre, if_true, ha, sampleLbdas, List.foldlM_nil] at e2
        have e2 := pure_ok.mp e2
        injection e2 with _ e2
        rw [← e2]
      · simp only [hpre, if_false] at e2
        have e2 := pure_ok.mp e2
        injection e2 with _ e2
        rw [← e2]
    have h2 := ih (by rw [o1]; exact ha) h2
    rw [sweepsM, bind_ok]
    refine ⟨m1.world, hs, ?_⟩
    have e1 : m1.fct = m.fct := by rw [o1]
    have e2 : m1.clock = m.clock + 1 := by rw [o1]
    rw [e1, e2] at h2
    exact h2

theorem autoClean_off {layers : List LayerInfo} (hoff : ∀ lr ∈ layers, lr.auto_clean = false ∧ lr.auto_reset = false)
    (m : Mach F G) : autoClean layers m = .ok (m, false) := by
  induction layers with
  | nil => rfl
  | cons lr rest ih =>
    obtain ⟨h1, h2⟩ := hoff lr (by simp)
    rw [autoClean, if_neg (by simp [h1, h2])]
    exact ih fun l hl => hoff l (by simp [hl])

theorem finalClean_off {layers : List LayerInfo} (hoff : ∀ lr ∈ layers, lr.auto_clean = false ∧ lr.auto_reset = false)
    (m : Mach F G) : finalClean layers m = .ok m := by
  induction layers with
  | nil => rfl
  | cons lr rest ih =>
    obtain ⟨h1, h2⟩ := hoff lr (by simp)
    rw [finalClean, if_neg (by simp [h2])]
    exact ih fun l hl => hoff l (by simp [hl])

theorem windowTurn_fixed {env : Env F G} {eps : ℝ} {cw pre iter : Nat} {m m1 : Mach F G} {done : Bool}
    (hoff : ∀ lr ∈ m.layers, lr.auto_clean = false ∧ lr.auto_reset = false)
    (h : windowTurn env [] eps cw pre iter m = .ok (m1, done)) :
    (done = true ↔ iter % cw = 0) ∧ m1.world = m.world := by
  rw [windowTurn] at h
  split at h
  · rename_i hi
    unfold windowStep at h
    simp only [allConverged, bind, Except.bind, if_true] at h
    have : autoClean (resetIndexL [] m).layers (resetIndexL [] m) = .ok (resetIndexL [] m, false) :=
      autoClean_off hoff _
    rw [this] at h
    simp only [Bool.false_eq_true, if_false, pure, Except.pure, Except.ok.injEq, Prod.mk.injEq] at h
    obtain ⟨h1, h2⟩ := h
    subst h1
    exact ⟨by simp [← h2, hi], rfl⟩
  · rename_i hi
    simp only [Except.ok.injEq, Prod.mk.injEq] at h
    obtain ⟨rfl, rfl⟩ := h
    exact ⟨by simp [hi], rfl⟩

theorem mainLoop_fixed {env : Env F G} {mats : List Nat} {eps : ℝ} {cw : Nat} {bmax : Int} {ps pre : Nat} (n : Nat) :
    ∀ {iter : Nat} {m m' : Mach F G}, (bmax + 1 - (iter + pre)).toNat = n → 1 ≤ iter → iter ≤ cw →
    (∀ lr ∈ m.layers, lr.auto_clean = false ∧ lr.auto_reset = false) →
    mainLoop env mats [] eps cw bmax ps pre iter m = .ok m' →
    sweepsM env m.fct mats m.clock (min (cw - iter) n) m.world = .ok m'.world ∧
      m'.clock = m.clock + min (cw - iter) n := by
  induction n using Nat.strong_induction_on with
  | _ n ih =>
    intro iter m m' hn h1 hcw hoff h
    obtain ⟨-, -, m1, done, hw, h2⟩ := mainLoop_cases h
    obtain ⟨hd, hworld⟩ := windowTurn_fixed hoff hw
    obtain ⟨o1, -⟩ := windowTurn_only hw
    have hclock : m1.clock = m.clock := by rw [o1]
    have hly : m1.layers = m.layers := by rw [o1]
    have hfct : m1.fct = m.fct := by rw [o1]
    have hmod : iter % cw = 0 ↔ iter = cw := by
      constructor
      · intro e
        by_contra hne
        rw [Nat.mod_eq_of_lt (by omega)] at e
        omega
      · rintro rfl; exact Nat.mod_self _
    rcases h2 with ⟨hd', rfl⟩ | ⟨hd', hb, h2⟩ | ⟨hd', hle, m2, h2, h3⟩
    · have : iter = cw := hmod.1 (hd.1 hd')
      rw [this, Nat.sub_self, Nat.zero_min, sweepsM, hworld, hclock]
      exact ⟨rfl, rfl⟩
    · have hn0 : n = 0 := by omega
      rw [stopStep, finalClean_off (by rw [hly]; exact hoff)] at h2
      simp only [bind, Except.bind] at h2
      have h2 := pure_ok.mp h2
      rw [hn0, Nat.min_zero, sweepsM, ← h2]
      exact ⟨congrArg Except.ok hworld.symm, hclock⟩
    · have hlt : iter < cw := by
        refine lt_of_le_of_ne hcw fun e => ?_
        have := hd.2 (hmod.2 e)
        rw [hd'] at this
        cases this
      have o2 := burnSweep_only h2
      have hs : sweepM env m.fct mats m.clock m.world = .ok m2.world := by
        rw [burnSweep, bind_ok] at h2
        obtain ⟨m3, e1, e2⟩ := h2
        obtain ⟨w, e3, rfl⟩ := sampleMats_ok e1
        rw [← hfct, ← hclock, ← hworld, e3]
        simp only [sampleLbdas, List.foldlM_nil] at e2
        have e2 := pure_ok.mp e2
        rw [← e2]
      obtain ⟨g1, g2⟩ := ih (n - 1) (by omega) (iter := iter + 1) (by push_cast; omega) (by omega) (by omega)
        (by rw [o2, hly]; exact hoff) h3
      have e1 : m2.fct = m.fct := by rw [o2, hfct]
      have e2 : m2.clock = m.clock + 1 := by rw [o2]; show m1.clock + 1 = _; rw [hclock]
      have e3 : min (cw - iter) n = min (cw - (iter + 1)) (n - 1) + 1 := by omega
      rw [e1, e2] at g1
      rw [e2] at g2
      rw [e3]
      refine ⟨?_, by omega⟩
      rw [sweepsM, bind_ok]
      exact ⟨m2.world, hs, g1⟩

/-- burn-in with fixed parameters -/
theorem burn_in_fixed {env : Env F G} {mats : List Nat} {eps : ℝ} {cw b : Nat} {bmax : Int} {ps fx : Nat}
    {m m' : Mach F G} (hcw : 1 ≤ cw) (ha : m.anneal = false)
    (hoff : ∀ lr ∈ m.layers, lr.auto_clean = false ∧ lr.auto_reset = false)
    (h : burn_in env mats [] eps cw b bmax ps fx m = .ok m') :
    sweepsM env m.fct mats m.clock (burnSweeps cw b bmax) m.world = .ok m'.world ∧
      m'.clock = m.clock + burnSweeps cw b bmax := by
  rw [burn_in, bind_ok] at h
  obtain ⟨m1, h1, h2⟩ := h
  have o1 := preLoop_only h1
  have s1 := preLoop_fixed ha h1
  obtain ⟨g1, g2⟩ := mainLoop_fixed _ rfl (le_refl 1) hcw (by show ∀ lr ∈ m1.layers, _; rw [o1]; exact hoff) h2
  have e : min (cw - 1) (bmax + 1 - ((1 : Nat) + b)).toNat = min (cw - 1) (bmax - b).toNat := by
    congr 2; push_cast; omega
  rw [e] at g1 g2
  have g1' : sweepsM env m1.fct mats m1.clock (min (cw - 1) (bmax - b).toNat) m1.world = .ok m'.world := g1
  have g2' : m'.clock = m1.clock + min (cw - 1) (bmax - b).toNat := g2
  have e1 : m1.fct = m.fct := by rw [o1]
  have e2 : m1.clock = m.clock + b := by rw [o1]
  rw [e1, e2] at g1'
  exact ⟨sweepsM_add b _ s1 g1', by rw [g2', e2, burnSweeps]; omega⟩

/-- the matrices after sampling sweep `t` -/
theorem chain_fixed {env : Env F G} {fct : Nat → Option F} {lfct : Nat → Option G} {mats : List Nat} {clock S : Nat}
    {wm wl : Nat → World} (h : Chain env fct lfct mats [] clock S wm wl) :
    ∀ t < S, sweepsM env fct mats clock (t + 1) (wl 0) = .ok (wm t) ∧ wl (t + 1) = wm t := by
  intro t
  induction t with
  | zero =>
    intro ht
    have h1 := h.mats 0 ht
    have h2 := h.lbdas 0 ht
    simp only [sweepL, List.foldlM_nil] at h2
    refine ⟨?_, (pure_ok.mp h2).symm⟩
    rw [sweepsM, bind_ok]
    exact ⟨_, by simpa using h1, rfl⟩
  | succ t ih =>
    intro ht
    obtain ⟨g1, g2⟩ := ih (by omega)
    have h1 := h.mats (t + 1) ht
    have h2 := h.lbdas (t + 1) ht
    simp only [sweepL, List.foldlM_nil] at h2
    refine ⟨sweepsM_add (t + 1) 1 g1 ?_, (pure_ok.mp h2).symm⟩
    rw [sweepsM, bind_ok]
    rw [g2] at h1
    exact ⟨_, h1, rfl⟩

end LFM

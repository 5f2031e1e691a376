import Verif.Lemmas.BesideFlip

/-! Lemmas for C125 and C126: sweeps are functions of the state before -/

namespace LFM

open Spec

variable {F G : Type} {env : Env F G} {fct : Nat → Option F} {lfct : Nat → Option G} {mats lbdas : List Nat}

/-- the state after a number of sweeps is determined -/
theorem Swept.unique {t0 : Nat} {w0 : World} {t : Nat} {w : World} (h : Swept env fct lfct mats lbdas t0 w0 t w) :
    ∀ {w' : World}, Swept env fct lfct mats lbdas t0 w0 t w' → w' = w := by
  induction h with
  | start =>
    intro w' h
    generalize ht : t0 = t at h
    cases h with
    | start => rfl
    | step h _ _ =>
      have := h.le
      omega
  | @step t w w1 w2 g1 g2 g3 ih =>
    intro w' h
    have hle := g1.le
    generalize ht : t + 1 = t' at h
    cases h with
    | start => omega
    | @step t' v v1 v2 k1 k2 k3 =>
      have : t = t' := by omega
      subst this
      have := ih k1
      subst this
      rw [g2] at k2
      cases k2
      rw [g3] at k3
      cases k3
      rfl

/-- a chain of samples that begins within another one is part of it -/
theorem Chain.part {clock S S' a : Nat} {wm wl wm' wl' : Nat → World} (h : Chain env fct lfct mats lbdas clock S wm wl)
    (h' : Chain env fct lfct mats lbdas (clock + a) S' wm' wl') (h0 : wl' 0 = wl a) (hS : a + S' ≤ S) :
    (∀ t ≤ S', wl' t = wl (a + t)) ∧ ∀ t < S', wm' t = wm (a + t) := by
  have key : ∀ t ≤ S', wl' t = wl (a + t) := by
    intro t
    induction t with
    | zero => intro _; exact h0
    | succ t ih =>
      intro ht
      have e1 := h.mats (a + t) (by omega)
      have e2 := h'.mats t (by omega)
      rw [ih (by omega), Nat.add_assoc] at e2
      rw [e1] at e2
      have e2 := Except.ok.inj e2
      have e3 := h.lbdas (a + t) (by omega)
      have e4 := h'.lbdas t (by omega)
      rw [← e2, Nat.add_assoc clock a t, e3] at e4
      exact (Except.ok.inj e4).symm
  refine ⟨key, fun t ht => ?_⟩
  have e1 := h.mats (a + t) (by omega)
  have e2 := h'.mats t ht
  rw [key t ht.le, Nat.add_assoc, e1] at e2
  exact (Except.ok.inj e2).symm

/-- a chain of samples consists of sweeps -/
theorem Chain.swept {clock S : Nat} {wm wl : Nat → World} (h : Chain env fct lfct mats lbdas clock S wm wl) (a : Nat) :
    ∀ b, a + b ≤ S → Swept env fct lfct mats lbdas (clock + a) (wl a) (clock + a + b) (wl (a + b)) := by
  intro b
  induction b with
  | zero => intro _; exact .start
  | succ b ih =>
    intro hb
    have e1 := h.mats (a + b) (by omega)
    have e2 := h.lbdas (a + b) (by omega)
    rw [← Nat.add_assoc] at e1 e2
    exact (ih (by omega)).step e1 e2

/-- nothing is assigned if all functions are there -/
theorem assign_nothing {m m1 : Mach F G} {xs : List Nat} (h : ∀ i ∈ xs, m.fct i ≠ none) (h1 : xs.foldlM (assignFct env) m = .ok m1) :
    m1 = m := by
  induction xs with
  | nil => rw [List.foldlM_nil, pure_ok] at h1; exact h1.symm
  | cons i xs ih =>
    rw [List.foldlM_cons, bind_ok] at h1
    obtain ⟨a, e1, e2⟩ := h1
    rw [assignFct] at e1
    split at e1
    · cases e1
      exact ih (fun j hj => h j (by simp [hj])) e2
    · rename_i hn
      exact absurd hn (h i (by simp))

theorem lassign_nothing {m m1 : Mach F G} {xs : List Nat} (h : ∀ i ∈ xs, m.lfct i ≠ none) (h1 : xs.foldlM (assignLfct env) m = .ok m1) :
    m1 = m := by
  induction xs with
  | nil => rw [List.foldlM_nil, pure_ok] at h1; exact h1.symm
  | cons i xs ih =>
    rw [List.foldlM_cons, bind_ok] at h1
    obtain ⟨a, e1, e2⟩ := h1
    rw [assignLfct] at e1
    split at e1
    · cases e1
      exact ih (fun j hj => h j (by simp [hj])) e2
    · rename_i hn
      exact absurd hn (h i (by simp))

/-! ### print_step -/

theorem preStep_print {b ps ps' fx todo : Nat} (h : ps ≠ 0) (h' : ps' ≠ 0) (steps : List (List ℝ)) (m : Mach F G) :
    preStep env mats lbdas b ps fx todo steps m = preStep env mats lbdas b ps' fx todo steps m := by
  simp only [preStep, h, h', if_false]

theorem preLoop_print {b ps ps' fx : Nat} (h : ps ≠ 0) (h' : ps' ≠ 0) (todo : Nat) : ∀ (steps : List (List ℝ)) (m : Mach F G),
    preLoop env mats lbdas b ps fx todo steps m = preLoop env mats lbdas b ps' fx todo steps m := by
  induction todo with
  | zero => intro steps m; rfl
  | succ todo ih =>
    intro steps m
    rw [preLoop, preLoop, preStep_print h h']
    simp only [ih]

theorem mainLoop_print {eps : ℝ} {cw : Nat} {bmax : Int} {ps ps' pre : Nat} (h : ps ≠ 0) (h' : ps' ≠ 0) (n : Nat) :
    ∀ (iter : Nat) (m : Mach F G), (bmax + 1 - (iter + pre)).toNat = n →
    mainLoop env mats lbdas eps cw bmax ps pre iter m = mainLoop env mats lbdas eps cw bmax ps' pre iter m := by
  induction n using Nat.strong_induction_on with
  | _ n ih =>
    intro iter m hn
    rw [mainLoop, mainLoop]
    simp only [h, h', if_false]
    by_cases hb : bmax < (iter : Int) + pre
    · simp only [hb, dite_true]
    · simp only [hb, dite_false]
      have : ∀ m, mainLoop env mats lbdas eps cw bmax ps pre (iter + 1) m = mainLoop env mats lbdas eps cw bmax ps' pre (iter + 1) m :=
        fun m => ih (n - 1) (by omega) (iter + 1) m (by push_cast; omega)
      simp only [this]

theorem samplingStep_print {ps ps' : Nat} (h : ps ≠ 0) (h' : ps' ≠ 0) (m : Mach F G) :
    samplingStep env mats lbdas ps m = samplingStep env mats lbdas ps' m := by
  simp only [samplingStep, h, h', if_false]

theorem samplingLoop_print {ps ps' : Nat} (h : ps ≠ 0) (h' : ps' ≠ 0) (n : Nat) : ∀ m : Mach F G,
    samplingLoop env mats lbdas ps n m = samplingLoop env mats lbdas ps' n m := by
  induction n with
  | zero => intro m; rfl
  | succ n ih =>
    intro m
    rw [samplingLoop, samplingLoop, samplingStep_print h h']
    simp only [ih]

/-! ### inference of a machine that was built by calls of the API -/

theorem Swept.trans {t0 : Nat} {w0 : World} {t1 : Nat} {w1 : World} (h : Swept env fct lfct mats lbdas t0 w0 t1 w1) {t : Nat} {w : World}
    (h' : Swept env fct lfct mats lbdas t1 w1 t w) : Swept env fct lfct mats lbdas t0 w0 t w := by
  induction h' with
  | start => exact h
  | step _ g2 g3 ih => exact ih.step g2 g3

theorem Swept.scalar {s : Workshop} (H : s.Sound) {dr : Draws} {fct : Nat → Option Sampler} {lfct : Nat → Option LbdaUpdate} {k t0 t : Nat}
    {w0 w : World} (h : Swept (genericEnv (s.wiring dr)) fct lfct mats lbdas t0 w0 t w) (h0 : (w0.lbda k).kind = none) :
    (w.lbda k).kind = none := by
  induction h with
  | start => exact h0
  | @step t w w1 w2 _ g1 g2 hw =>
    have hw1 : w1.lbda = w.lbda := by
      rw [sweepM, callsM] at g1
      refine foldlM_rel (R := fun a b : World => b.lbda = a.lbda) (fun _ => rfl) (fun _ _ _ h1 h2 => h2.trans h1) _ _ ?_
        _ _ g1
      intro a i _ b hb
      split at hb
      · cases hb
      · obtain ⟨v, rfl⟩ := runSampler_writes (SamePart.special_error s dr) hb
        rfl
    rw [sweepL] at g2
    refine foldlM_rel (R := fun a b : World => (a.lbda k).kind = none → (b.lbda k).kind = none) (fun _ h => h)
      (fun _ _ _ h1 h2 h => h2 (h1 h)) _ _ ?_ _ _ g2 (by rw [hw1]; exact hw)
    intro a i _ b hb ha
    split at hb
    · cases hb
    · rename_i g hg
      have hb : runUpdate (s.wiring dr) g i (t + 1) a = .ok b := hb
      rw [runUpdate] at hb
      split at hb
      · cases hb
      · rename_i lr hlr
        rw [(H.factors i lr hlr).2] at hb
        dsimp only at hb
        rw [bind_ok] at hb
        obtain ⟨x, -, hb⟩ := hb
        rw [← pure_ok.1 hb]
        by_cases e : k = i
        · simp [upd, e, LVal.kind]
        · simpa [upd, e] using ha

theorem Workshop.Sound.noibp {s : Workshop} (H : s.Sound) (i : Nat) : modelOf s.m i ≠ some "OR-AND-IBP" := by
  intro hi
  obtain ⟨k, -, hk⟩ := Option.bind_eq_some_iff.1 hi
  obtain ⟨lr, hk, hi⟩ := Option.map_eq_some_iff.1 hk
  obtain ⟨lom, hl⟩ := H.model k lr hk
  rw [hl] at hi
  revert hi
  cases lom <;> decide

/-- the samples of an inference are the states along the sweeps from the state before -/
theorem infer_path {s : Workshop} (H : s.Sound) {dr : Draws} (hp : ∀ t l, ∀ i ∈ dr.perm t l, i ∈ l) (ha : s.m.anneal = false)
    (hoff : ∀ lr ∈ s.m.layers, lr.auto_clean = false ∧ lr.auto_reset = false) {S cw bmin ps : Nat} {eps : ℝ} {bmax : Int}
    {r : Mach Sampler LbdaUpdate} (h : LFM.infer (genericEnv (s.wiring dr)) S cw eps bmin bmax ps 0 s.m = .ok r) :
    ∃ c, r.clock = c + S ∧ s.m.clock ≤ c ∧
      Swept (genericEnv (s.wiring dr)) r.fct r.lfct (freeMats s.m) (freeLbdas s.m) s.m.clock s.m.world r.clock r.world ∧
      ∀ t < S, ∃ w wm w', Swept (genericEnv (s.wiring dr)) r.fct r.lfct (freeMats s.m) (freeLbdas s.m) s.m.clock s.m.world (c + t) w ∧
        sweepM (genericEnv (s.wiring dr)) r.fct (freeMats s.m) (c + t) w = .ok wm ∧
        sweepL (genericEnv (s.wiring dr)) r.lfct (freeLbdas s.m) (c + t + 1) wm = .ok w' ∧
        (∀ i ∈ freeMats s.m, ∀ tr, r.trace i = some tr → ∀ idx, tr (t :: idx) = (wm.mat i).val idx) ∧
        ∀ k ∈ freeLbdas s.m, ∀ tr, r.ltrace k = some tr → tr.row t = some (w'.lbda k) := by
  have hp' : ∀ t, ∀ i ∈ (genericEnv (s.wiring dr)).perm t (freeMats s.m), i ∈ freeMats s.m := fun t i hi => hp t _ i hi
  have sw := infer_swept H.nodup_free hp' ha hoff h
  obtain ⟨wm, wl, clock, hC, hw, gm, gl, m1, m2, m3, a1, a2, a3, a4, a5⟩ := C39_traces _ S cw bmin eps bmax ps 0 s.m r H.nodup_free hp' h
  obtain ⟨n1, n2, c1, c2, efct, elfct⟩ := infer_fcts H.nodup_free hp' h
  rw [a1] at c1; cases c1
  rw [a2] at c2; cases c2
  have k1 := fold_keeps (fun a i b => assignFct_keeps) a1
  have k2 := fold_keeps (fun a i b => assignLfct_keeps) a2
  have ks := k1.1.trans k2.1
  have hclk : m2.clock = s.m.clock := (lassign_clock a2).trans (assign_clock a1)
  have sw3 := (burn_in_sweepwise (m := resetIndices (freeMats s.m) (freeLbdas s.m) m2)
    (J := Swept (genericEnv (s.wiring dr)) m2.fct m2.lfct (freeMats s.m) (freeLbdas s.m) s.m.clock s.m.world)
    (fun t w w1 w2 h g1 g2 => h.step g1 g2)
    (by show m2.anneal = false; rw [ks.anneal]; exact ha)
    (by show ∀ lr ∈ m2.layers, _; rw [ks.layers]; exact hoff)
    (by show Swept _ _ _ _ _ _ _ m2.clock m2.world; rw [k2.2, k1.2, hclk]; exact .start) a3).1
  rw [← efct, ← elfct, ← a4, ← a5] at sw3
  have key : ∀ t ≤ S, Swept (genericEnv (s.wiring dr)) r.fct r.lfct (freeMats s.m) (freeLbdas s.m) s.m.clock s.m.world (clock + t) (wl t) := by
    intro t ht
    have := hC.swept 0 t (by omega)
    rw [Nat.zero_add] at this
    exact sw3.trans this
  refine ⟨clock, by rw [infer_clock H.nodup_free hp' h a1 a2 a3, a5], sw3.le, sw, fun t ht => ?_⟩
  refine ⟨wl t, wm t, wl (t + 1), key t ht.le, hC.mats t ht, hC.lbdas t ht, ?_, ?_⟩
  · intro i hi tr htr idx
    obtain ⟨tr', t1, t2⟩ := gm i hi
    rw [htr] at t1; cases t1
    rcases t2 with ⟨-, -, t3⟩ | ⟨t2, -⟩ | ⟨-, ⟨j, -, t2⟩, -⟩
    · exact (t3 t ht).2 idx
    · exact absurd t2 (H.noibp i)
    · exact absurd t2 (H.noibp j)
  · intro k hk tr htr
    obtain ⟨tr', t1, -, t3⟩ := gl k hk
    rw [htr] at t1; cases t1
    have hkl : k < s.m.layers.length := List.mem_range.1 (List.mem_filter.1 hk).1
    have h0 : (s.m.world.lbda k).kind = none := by
      obtain ⟨y, hy⟩ := H.world.lbda k hkl
      rw [hy]; rfl
    exact t3 t ht (by rw [(key (t + 1) ht).scalar H h0, (key 0 (by omega)).scalar H h0])

end LFM

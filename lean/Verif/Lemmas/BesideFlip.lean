import Verif.Lemmas.Beside
import Verif.Lemmas.FixedLbda
import Verif.Props.Stuck

/-! Lemmas for the witness of C124: inference is a number of sweeps; with lambda 0 each of them flips all signs; burn-in that
cannot converge. -/

namespace LFM

open Spec

/-- the state after inference is that after as many sweeps as the clock says -/
theorem infer_swept {F G : Type} {env : Env F G} {S cw bmin ps : Nat} {eps : ℝ} {bmax : Int} {m m' : Mach F G}
    (hnd : (freeMats m).Nodup) (hp : ∀ t, ∀ i ∈ env.perm t (freeMats m), i ∈ freeMats m) (ha : m.anneal = false)
    (hoff : ∀ lr ∈ m.layers, lr.auto_clean = false ∧ lr.auto_reset = false)
    (h : infer env S cw eps bmin bmax ps 0 m = .ok m') :
    Swept env m'.fct m'.lfct (freeMats m) (freeLbdas m) m.clock m.world m'.clock m'.world := by
  obtain ⟨wm, wl, clock, hC, hw, -, -, m1, m2, m3, a1, a2, a3, a4, a5⟩ := C39_traces env S cw bmin eps bmax ps 0 m m' hnd hp h
  obtain ⟨n1, n2, c1, c2, efct, elfct⟩ := infer_fcts hnd hp h
  rw [a1] at c1; cases c1
  rw [a2] at c2; cases c2
  have k1 := fold_keeps (fun a i b => assignFct_keeps) a1
  have k2 := fold_keeps (fun a i b => assignLfct_keeps) a2
  have ks := k1.1.trans k2.1
  have hclk : m2.clock = m.clock := (lassign_clock a2).trans (assign_clock a1)
  have sw := (burn_in_sweepwise (m := resetIndices (freeMats m) (freeLbdas m) m2)
    (J := Swept env m2.fct m2.lfct (freeMats m) (freeLbdas m) m.clock m.world)
    (fun t w w1 w2 h g1 g2 => h.step g1 g2)
    (by show m2.anneal = false; rw [ks.anneal]; exact ha)
    (by show ∀ lr ∈ m2.layers, _; rw [ks.layers]; exact hoff)
    (by show Swept _ _ _ _ _ _ _ m2.clock m2.world; rw [k2.2, k1.2, hclk]; exact .start) a3).1
  rw [infer_clock hnd hp h a1 a2 a3, hw]
  rw [efct, elfct, a5] at hC
  rw [efct, elfct]
  have key : ∀ t, t ≤ S → Swept env m2.fct m2.lfct (freeMats m) (freeLbdas m) m.clock m.world (m3.clock + t) (wl t) := by
    intro t
    induction t with
    | zero => intro _; rw [a4]; exact sw
    | succ t ih => intro ht; exact (ih (by omega)).step (hC.mats t ht) (hC.lbdas t ht)
  exact key S le_rfl

/-- with lambda fixed at 0 and priors 1/2 all entries of the free factors change their sign in every sweep -/
theorem SingleLayer.flips_each {wr : Wiring} {m m' : Mach Sampler LbdaUpdate} {lom : Lom8} {lr : LayerInfo} {x : Nat}
    {sizes : List Nat} (H : SingleLayer wr m lom lr x sizes) {X : Arr Int}
    (hw : LegalWorld lr x sizes X m.world) (hc : lr.auto_clean = false) (hr : lr.auto_reset = false)
    (hperm : ∀ t l, (wr.perm t l).Perm l) (hanneal : m.anneal = false) (hl : freeLbdas m = [])
    (hprior : ∀ i ∈ freeMats m, m.bernoulli_prior i = 1 / 2 ∧ m.fct i = none)
    (hzero : m.world.lbda 0 = .scalar (.fin 0)) {S cw bmin ps : Nat} {eps : ℝ} {bmax : Int}
    (h : infer (genericEnv wr) S cw eps bmin bmax ps 0 m = .ok m') :
    ∀ i ∈ freeMats m, MirrorOf (m.world.mat i) ((-1) ^ (m'.clock - m.clock)) (m'.world.mat i).val := by
  have hmem : ∀ i ∈ freeMats m, i ∈ lr.factors := fun i hi => H.mem_free hi
  have hnd : (freeMats m).Nodup := by rw [H.free_eq]; exact H.nodup.filter _
  have hpm : ∀ t, ∀ i ∈ (genericEnv wr).perm t (freeMats m), i ∈ freeMats m := fun t i hi => H.perm t _ i hi
  have hoff : ∀ l ∈ m.layers, l.auto_clean = false ∧ l.auto_reset = false := by
    rw [H.layers]
    intro l hl
    rw [List.mem_singleton] at hl
    rw [hl]; exact ⟨hc, hr⟩
  have sw := infer_swept hnd hpm hanneal hoff h
  obtain ⟨m1, m2, h1, h2, efct, elfct⟩ := infer_fcts hnd hpm h
  obtain ⟨m1', a1, a2, a3, a4, a5, a6'⟩ := H.assigns (freeMats m) m hmem rfl rfl (by
    intro i hi s hs
    exact H.cached _ i (H.position hi).1 s hs)
  rw [h1] at a1; cases a1
  obtain ⟨m2', b1, b2, b3⟩ := H.lassigns (m' := m1) a3 (by rw [a4]; exact H.lcached)
  rw [h2] at b1; cases b1
  have hf : ∀ i ∈ freeMats m, ∃ s, m'.fct i = some s ∧ GenericSampler lom lr.factors.length (lr.factors.idxOf i) s ∧
      ∃ f o, s = .lom f o 0 := by
    intro i hi
    obtain ⟨f, o, hs⟩ := a6' i hi (hprior i hi).2
    rw [(hprior i hi).1, logit_half] at hs
    exact ⟨_, by rw [efct, b2]; exact hs, a2 i (hmem i hi) _ hs, f, o, rfl⟩
  rw [hl] at sw
  have key : ∀ {t w}, Swept (genericEnv wr) m'.fct m'.lfct (freeMats m) [] m.clock m.world t w →
      UpToSigns m lr x sizes X (fun _ => (-1) ^ (t - m.clock)) w := by
    intro t w sw
    induction sw with
    | start =>
      refine ⟨hw, ⟨fun _ _ => rfl, fun _ _ => rfl, fun _ _ _ => ⟨rfl, rfl, fun _ _ => rfl, fun _ => rfl⟩⟩, hzero,
        fun i _ => ⟨rfl, fun idx _ => ?_⟩⟩
      simp
    | @step t w w1 w2 g1 g2 g3 ih =>
      obtain ⟨w', q1, q2⟩ := H.calls_signs hc hr hf t (wr.perm t (freeMats m)) ((hperm _ _).nodup_iff.mpr hnd) (H.perm _ _) ih
      have hp : (genericEnv wr).perm t (freeMats m) = wr.perm t (freeMats m) := rfl
      rw [sweepM, hp, q1] at g2
      cases g2
      rw [sweepL, List.foldlM_nil, pure_ok] at g3
      subst g3
      refine ⟨q2.legal, q2.kept, q2.zero, fun i hi => ?_⟩
      have := q2.signs i hi
      simp only [(hperm _ _).mem_iff.mpr hi, if_true] at this
      have hle := g1.le
      rw [show t + 1 - m.clock = (t - m.clock) + 1 by omega, pow_succ]
      simpa using this
  exact fun i hi => (key sw).signs i hi

section Never

variable {F G : Type}

theorem allConverged_never {eps : ℝ} (he : eps ≤ 0) {m : Mach F G} {k : Nat} {xs : List NpF} (hk : m.ltrace k = some (.scalars xs))
    (ks : List Nat) : ∀ {b : Bool}, k ∈ ks → allConverged eps m ks = .ok b → b = false := by
  have hx : check_convergence_single_trace xs eps = false := by
    rw [check_convergence_single_trace]
    unfold absDiffLt
    split
    · rw [decide_eq_false_iff_not, not_lt]
      exact he.trans (abs_nonneg _)
    · rfl
  induction ks with
  | nil => intro b h; simp at h
  | cons j ks ih =>
    intro b h hb
    rw [allConverged] at hb
    split at hb
    · cases hb
    · rename_i t ht
      rw [bind_ok] at hb
      obtain ⟨rest, e1, e2⟩ := hb
      rw [pure_ok] at e2
      rw [← e2]
      rcases List.mem_cons.1 h with rfl | h
      · rw [hk] at ht
        cases ht
        simp [checkL, hx]
      · simp [ih h e1]

theorem windowTurn_never {env : Env F G} {lbdas : List Nat} {eps : ℝ} {cw pre iter : Nat} {m m1 : Mach F G} {done : Bool} (he : eps ≤ 0)
    {k : Nat} (hkl : k ∈ lbdas) {xs : List NpF} (hk : m.ltrace k = some (.scalars xs))
    (h : windowTurn env lbdas eps cw pre iter m = .ok (m1, done)) : done = false ∧ m1.ltrace k = some (.scalars xs) := by
  rw [windowTurn] at h
  split at h
  · unfold windowStep at h
    dsimp only at h
    rw [bind_ok] at h
    obtain ⟨c, e1, e2⟩ := h
    have hk' : (resetIndexL lbdas m).ltrace k = some (.scalars xs) := hk
    have := allConverged_never he hk' lbdas hkl e1
    subst this
    simp only [Bool.false_eq_true, if_false, pure_ok, Prod.mk.injEq] at e2
    obtain ⟨rfl, rfl⟩ := e2
    exact ⟨rfl, hk'⟩
  · simp only [Except.ok.injEq, Prod.mk.injEq] at h
    obtain ⟨rfl, rfl⟩ := h
    exact ⟨rfl, hk⟩

theorem mainLoop_never {env : Env F G} {mats lbdas : List Nat} {eps : ℝ} (he : eps ≤ 0) {cw : Nat} {bmax : Int} {ps pre : Nat} {k : Nat}
    (hnd : lbdas.Nodup) (hkl : k ∈ lbdas) (n : Nat) :
    ∀ {iter : Nat} {m m' : Mach F G} {xs : List NpF}, (bmax + 1 - (iter + pre)).toNat = n → m.ltrace k = some (.scalars xs) →
    mainLoop env mats lbdas eps cw bmax ps pre iter m = .ok m' → m'.clock = m.clock + n := by
  induction n using Nat.strong_induction_on with
  | _ n ih =>
    intro iter m m' xs hn hk h
    obtain ⟨-, -, m1, done, h1, h2⟩ := mainLoop_cases h
    obtain ⟨o1, -⟩ := windowTurn_only h1
    obtain ⟨rfl, hk1⟩ := windowTurn_never he hkl hk h1
    have hclock : m1.clock = m.clock := by rw [o1]
    rcases h2 with ⟨hd, -⟩ | ⟨-, hb, h2⟩ | ⟨-, hle, m2, h2, h3⟩
    · cases hd
    · obtain ⟨o2, -⟩ := stopStep_only h2
      have : m'.clock = m1.clock := by rw [o2]
      rw [this, hclock]
      omega
    · have o2 := burnSweep_only h2
      have hc2 : m2.clock = m1.clock + 1 := by rw [o2]
      obtain ⟨ys, hk2⟩ : ∃ ys, m2.ltrace k = some (.scalars ys) := by
        rw [burnSweep, bind_ok] at h2
        obtain ⟨m3, e1, e2⟩ := h2
        rw [bind_ok] at e2
        obtain ⟨m4, e2, e3⟩ := e2
        obtain ⟨w, e4, rfl⟩ := sampleMats_ok e1
        obtain ⟨w', e5, rfl⟩ := sampleLbdas_ok e2
        obtain ⟨-, t, t', t1, t2, t3⟩ := (updateTracesL_ok lbdas hnd e3).1 k hkl
        have t1' : m1.ltrace k = some t := t1
        rw [hk1] at t1'
        cases t1'
        rw [t2]
        unfold writeL at t3
        split at t3
        · split at t3
          · cases t3; rename_i hx _ _; cases hx; exact ⟨_, rfl⟩
          · cases t3
        · split at t3 <;> cases t3
        · rename_i hx _; cases hx
        · rename_i hx _; cases hx
      rw [ih (n - 1) (by omega) (by push_cast; omega) hk2 h3, hc2, hclock]
      omega

end Never

/-- burn-in of a machine with a free lambda and `eps = 0` lasts until `burn_in_max` -/
theorem workshop_never {s r : Workshop} (H : s.Sound) {dr : Draws} (hp : ∀ t l, ∀ i ∈ dr.perm t l, i ∈ l) (ha : s.m.anneal = false)
    {S cw bmin ps : Nat} {eps : ℝ} {bmax : Int} (he : eps ≤ 0) (hl : freeLbdas s.m ≠ [])
    (h : s.infer S cw eps bmin bmax ps 0 dr = .ok r) : r.m.clock = s.m.clock + bmin + (bmax - bmin).toNat + S := by
  obtain ⟨k, hk⟩ := List.exists_mem_of_ne_nil _ hl
  have hkl : k < s.m.layers.length := List.mem_range.1 (List.mem_filter.1 hk).1
  rw [Workshop.infer, bind_ok] at h
  obtain ⟨m, h, e⟩ := h
  rw [pure_ok] at e
  subst e
  obtain ⟨n1, n2, n3, n4, e1, e2, e3, e4, e5⟩ := infer_phases h
  show m.clock = _
  rw [infer_clock H.nodup_free (fun t i hi => hp t _ i hi) h e1 e2 e3]
  have hc2 : n2.clock = s.m.clock := (lassign_clock e2).trans (assign_clock e1)
  have k1 := fold_keeps (fun a i b => assignFct_keeps) e1
  have k2 := fold_keeps (fun a i b => assignLfct_keeps) e2
  have ks := k1.1.trans k2.1
  rw [burn_in, bind_ok] at e3
  obtain ⟨p1, f1, f2⟩ := e3
  have o1 := preLoop_only f1
  have hc1 : p1.clock = n2.clock + bmin := by rw [o1]; rfl
  have hkind : (p1.world.lbda k).kind = none := by
    refine preLoop_sweepwise (m := resetIndices (freeMats s.m) (freeLbdas s.m) n2) (J := fun _ w => (w.lbda k).kind = none) ?_
      (by show n2.anneal = false; rw [ks.anneal]; exact ha) le_rfl ?_ f1
    · intro t w w1 w2 hw g1 g2
      have hw1 : w1.lbda = w.lbda := by
        rw [sweepM, callsM] at g1
        refine foldlM_rel (R := fun a b : World => b.lbda = a.lbda) (fun _ => rfl) (fun _ _ _ h1 h2 => h2.trans h1) _ _ ?_
          _ _ g1
        intro a i _ b hb
        split at hb
        · cases hb
        · obtain ⟨v, rfl⟩ := runSampler_writes (SamePart.special_error s dr) hb
          rfl
      rw [sweepL] at g2
      refine foldlM_rel (R := fun a b : World => (a.lbda k).kind = none → (b.lbda k).kind = none) (fun _ h => h)
        (fun _ _ _ h1 h2 h => h2 (h1 h)) _ _ ?_ _ _ g2 (by rw [hw1]; exact hw)
      intro a i _ b hb ha
      split at hb
      · cases hb
      · rename_i g hg
        have hb : runUpdate (s.wiring dr) g i (t + 1) a = .ok b := hb
        rw [runUpdate] at hb
        split at hb
        · cases hb
        · rename_i lr hlr
          rw [(H.factors i lr hlr).2] at hb
          dsimp only at hb
          rw [bind_ok] at hb
          obtain ⟨x, -, hb⟩ := hb
          rw [← pure_ok.1 hb]
          by_cases e : k = i
          · simp [upd, e, LVal.kind]
          · simpa [upd, e] using ha
    · show (n2.world.lbda k).kind = none
      rw [k2.2, k1.2]
      obtain ⟨y, hy⟩ := H.world.lbda k hkl
      rw [hy]; rfl
  obtain ⟨x, hx⟩ : ∃ x, p1.world.lbda k = .scalar x := by
    cases hv : p1.world.lbda k with
    | scalar x => exact ⟨x, rfl⟩
    | vector xs => rw [hv] at hkind; simp [LVal.kind] at hkind
  have hk1 : ∃ xs, (allocLbdas ((genericEnv (s.wiring dr)).junk 0) cw (freeLbdas s.m) p1).ltrace k = some (.scalars xs) := by
    show ∃ xs, (if k ∈ freeLbdas s.m then some (allocL (dr.junk 0 k) cw (p1.world.lbda k)) else _) = _
    rw [if_pos hk, hx]
    exact ⟨_, rfl⟩
  obtain ⟨xs, hk1⟩ := hk1
  have := mainLoop_never he (nodup_freeLbdas s.m) hk _ rfl hk1 f2
  rw [this]
  show p1.clock + _ + S = _
  rw [hc1, hc2]
  push_cast
  omega

end LFM

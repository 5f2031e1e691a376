import Verif.Lemmas.Continue
import Verif.Props.Beside

/-! # C125, C126: inference in several calls, and what the settings of burn-in decide -/

namespace LFM

open Spec

/-- **C126**: Two calls of `infer` on the same machine with the same draws, in all settings different: where a sample of the one
and a sample of the other are drawn after the same number of sweeps, they are the same, for all matrices and lambdas; if the calls
end after the same number of sweeps they leave the same state. (Window, tolerance, `burn_in_min`, `burn_in_max`, `print_step` and
`no_samples` choose a section of one and the same path.) -/
theorem C126_one_path {s : Workshop} (hb : Built s) {dr : Draws} {S cw bmin ps S' cw' bmin' ps' : Nat} {eps eps' : ℝ} {bmax bmax' : Int}
    (hc : CallOK s cw ps 0 dr) (hc' : CallOK s cw' ps' 0 dr) (ha : s.m.anneal = false)
    (hoff : ∀ lr ∈ s.m.layers, lr.auto_clean = false ∧ lr.auto_reset = false) {r r' : Workshop}
    (h : s.infer S cw eps bmin bmax ps 0 dr = .ok r) (h' : s.infer S' cw' eps' bmin' bmax' ps' 0 dr = .ok r') :
    (r'.m.clock = r.m.clock → r'.m.world = r.m.world) ∧
    ∀ t < S, ∀ t' < S', r'.m.clock + t' + S = r.m.clock + t + S' →
      (∀ i ∈ freeMats s.m, ∃ tr tr', r.m.trace i = some tr ∧ r'.m.trace i = some tr' ∧ ∀ idx, tr' (t' :: idx) = tr (t :: idx)) ∧
      ∀ k ∈ freeLbdas s.m, ∃ tr tr', r.m.ltrace k = some tr ∧ r'.m.ltrace k = some tr' ∧ tr'.row t' = tr.row t ∧ tr.row t ≠ none := by
  have H := hb.sound
  obtain ⟨-, -, -, A1, A2, -⟩ := C102_after_infer hb S cw eps bmin bmax ps 0 dr hc h
  obtain ⟨-, -, -, A1', A2', -⟩ := C102_after_infer hb S' cw' eps' bmin' bmax' ps' 0 dr hc' h'
  rw [Workshop.infer, bind_ok] at h h'
  obtain ⟨m, h, e⟩ := h
  obtain ⟨m', h', e'⟩ := h'
  rw [pure_ok] at e e'
  subst e e'
  have hp : ∀ t, ∀ i ∈ (genericEnv (s.wiring dr)).perm t (freeMats s.m), i ∈ freeMats s.m := fun t i hi => hc.perm t _ i hi
  obtain ⟨m1, m2, c1, c2, f1, f2⟩ := infer_fcts H.nodup_free hp h
  obtain ⟨m1', m2', c1', c2', f1', f2'⟩ := infer_fcts H.nodup_free hp h'
  rw [c1] at c1'; cases c1'
  rw [c2] at c2'; cases c2'
  have F : m'.fct = m.fct := f1'.trans f1.symm
  have G : m'.lfct = m.lfct := f2'.trans f2.symm
  obtain ⟨c, p1, p2, p3, p4⟩ := infer_path H hc.perm ha hoff h
  obtain ⟨c', q1, q2, q3, q4⟩ := infer_path H hc.perm ha hoff h'
  rw [F, G] at q3 q4
  dsimp only at A1 A2 A1' A2' ⊢
  refine ⟨fun e => ?_, fun t ht t' ht' e => ?_⟩
  · rw [e] at q3
    exact p3.unique q3
  · have hcc : c' + t' = c + t := by omega
    obtain ⟨w, wm, w2, x1, x2, x3, x4, x5⟩ := p4 t ht
    obtain ⟨v, vm, v2, y1, y2, y3, y4, y5⟩ := q4 t' ht'
    rw [hcc] at y1 y2 y3
    have := x1.unique y1
    subst this
    rw [x2] at y2; cases y2
    rw [x3] at y3; cases y3
    refine ⟨fun i hi => ?_, fun k hk => ?_⟩
    · obtain ⟨tr, e1, -⟩ := A1 i hi
      obtain ⟨tr', e2, -⟩ := A1' i hi
      exact ⟨tr, tr', e1, e2, fun idx => by rw [x4 i hi tr e1, y4 i hi tr' e2]⟩
    · obtain ⟨tr, e1, -⟩ := A2 k hk
      obtain ⟨tr', e2, -⟩ := A2' k hk
      exact ⟨tr, tr', e1, e2, by rw [x5 k hk tr e1, y5 k hk tr' e2], by rw [x5 k hk tr e1]; simp⟩

/-- **C126**, how often progress is printed: two non-zero values of `print_step` give the same machine, including all traces, or the
same exception -- here for all machines, models and options. -/
theorem C126_print_step {F G : Type} (env : Env F G) (S cw : Nat) (eps : ℝ) (bmin : Nat) (bmax : Int) {ps ps' : Nat} (h : ps ≠ 0) (h' : ps' ≠ 0)
    (fx : Nat) (m : Mach F G) : infer env S cw eps bmin bmax ps fx m = infer env S cw eps bmin bmax ps' fx m := by
  simp only [infer, burn_in, preLoop_print h h', mainLoop_print h h' _ _ _ rfl, samplingLoop_print h h']

/-- **C125**: after a call of `infer` another one, with whatever settings, continues: there is a single call, with the settings of
the first one and more samples, that leaves the same state; its samples are those of the first call, those that the burn-in of the
second call passes over (`B` of them), and those of the second call. -/
theorem C125_continue {s : Workshop} (hb : Built s) {dr : Draws} {S1 cw bmin ps S2 cw2 bmin2 ps2 : Nat} {eps eps2 : ℝ} {bmax bmax2 : Int}
    (hc : CallOK s cw ps 0 dr) (ha : s.m.anneal = false)
    (hoff : ∀ lr ∈ s.m.layers, lr.auto_clean = false ∧ lr.auto_reset = false) {r1 r2 : Workshop}
    (hw2 : 1 ≤ cw2) (hp2 : 1 ≤ ps2)
    (h1 : s.infer S1 cw eps bmin bmax ps 0 dr = .ok r1) (h2 : r1.infer S2 cw2 eps2 bmin2 bmax2 ps2 0 dr = .ok r2) :
    ∃ B r, bmin2 ≤ B ∧ r2.m.clock = r1.m.clock + B + S2 ∧ s.infer (S1 + B + S2) cw eps bmin bmax ps 0 dr = .ok r ∧
      r.m.clock = r2.m.clock ∧ r.m.world = r2.m.world ∧
      (∀ i ∈ freeMats s.m, ∃ tr tr1 tr2, r.m.trace i = some tr ∧ r1.m.trace i = some tr1 ∧ r2.m.trace i = some tr2 ∧
        tr.shape = (S1 + B + S2) :: (s.m.world.mat i).val.shape ∧ tr1.shape = S1 :: (s.m.world.mat i).val.shape ∧
        tr2.shape = S2 :: (s.m.world.mat i).val.shape ∧
        (∀ t < S1, ∀ idx, tr (t :: idx) = tr1 (t :: idx)) ∧ ∀ t < S2, ∀ idx, tr ((S1 + B + t) :: idx) = tr2 (t :: idx)) ∧
      ∀ k ∈ freeLbdas s.m, ∃ tr tr1 tr2, r.m.ltrace k = some tr ∧ r1.m.ltrace k = some tr1 ∧ r2.m.ltrace k = some tr2 ∧
        tr.len = S1 + B + S2 ∧ tr1.len = S1 ∧ tr2.len = S2 ∧
        (∀ t < S1, tr.row t = tr1.row t ∧ tr1.row t ≠ none) ∧ ∀ t < S2, tr.row (S1 + B + t) = tr2.row t ∧ tr2.row t ≠ none := by
  have H := hb.sound
  have hr := (C102_infer_iff hb S1 cw eps bmin bmax ps 0 dr hc).mp ⟨r1, h1⟩
  have hb1 : Built r1 := .act (.infer S1 cw eps bmin bmax ps 0 dr) hb hc h1
  obtain ⟨-, -, sh1, A1, A2, -, -, -, -, -⟩ := C102_after_infer hb S1 cw eps bmin bmax ps 0 dr hc h1
  have h1' := h1
  rw [Workshop.infer, bind_ok] at h1'
  obtain ⟨m, h1', e⟩ := h1'
  rw [pure_ok] at e
  subst e
  have hp : ∀ t, ∀ i ∈ (genericEnv (s.wiring dr)).perm t (freeMats s.m), i ∈ freeMats s.m := fun t i hi => hc.perm t _ i hi
  have st := (infer_static H.nodup_free hp h1').1
  obtain ⟨n, z1, -, -, -, -, -, -, z2, z3, -, -⟩ := H.infer_ok hr S1 cw eps bmin bmax ps 0 dr hc
  rw [h1'] at z1; cases z1
  have hw : ({ s with m := m } : Workshop).wiring dr = s.wiring dr := by
    simp only [Workshop.wiring, st.layers, st.layerOf]
  have hfm : freeMats m = freeMats s.m := by rw [freeMats, freeMats, members, members, st.layers, st.matrices, st.fixed]
  have hfl : freeLbdas m = freeLbdas s.m := by rw [freeLbdas, freeLbdas, st.layers, st.lfixed]
  have hc2 : CallOK ({ s with m := m } : Workshop) cw2 ps2 0 dr :=
    ⟨hw2, hp2, hc.perm, fun k lr hk => hc.clean k lr (by rw [← st.layers]; exact hk), .inl (by show m.anneal = false; rw [st.anneal]; exact ha)⟩
  obtain ⟨-, -, sh2, B1, B2, -, -, -, -, -⟩ := C102_after_infer hb1 S2 cw2 eps2 bmin2 bmax2 ps2 0 dr hc2 h2
  have H1 := hb1.sound
  have ha1 : m.anneal = false := by rw [st.anneal]; exact ha
  have hoff1 : ∀ lr ∈ m.layers, lr.auto_clean = false ∧ lr.auto_reset = false := by rw [st.layers]; exact hoff
  rw [Workshop.infer, bind_ok] at h2
  obtain ⟨m', h2, e⟩ := h2
  rw [pure_ok] at e
  subst e
  dsimp only at h2 A1 A2 B1 B2 sh1 sh2 H1 ⊢
  have hp1 : ∀ t, ∀ i ∈ (genericEnv (s.wiring dr)).perm t (freeMats m), i ∈ freeMats m := fun t i hi => hc.perm t _ i hi
  obtain ⟨c, p1, p2, p3, p4⟩ := infer_path H hc.perm ha hoff h1'
  obtain ⟨c2, q1, q2, q3, q4⟩ := infer_path H1 hc.perm ha1 hoff1 h2
  rw [hw] at h2 q3 q4
  dsimp only at q2 q3 q4
  -- the functions of the second call are those of the first
  obtain ⟨n1, n2, d1, d2, f1, f2⟩ := infer_fcts H1.nodup_free hp1 h2
  have e1 := assign_nothing (by show ∀ i ∈ freeMats m, _; rw [hfm]; exact z2) d1
  subst e1
  have e2 := lassign_nothing (by show ∀ i ∈ freeLbdas _, _; rw [hfl]; exact z3) d2
  subst e2
  have hmin : n2.clock + bmin2 ≤ c2 := by
    obtain ⟨g1, g2, g3, g4, i1, i2, i3, -, -⟩ := infer_phases h2
    rw [d1] at i1; cases i1
    rw [d2] at i2; cases i2
    have := (burn_in_sweepwise (m := resetIndices (freeMats n2) (freeLbdas n2) n2) (J := fun _ _ => True) (fun _ _ _ _ _ _ _ => trivial)
      ha1 hoff1 trivial i3).2
    have hcl := infer_clock H1.nodup_free hp1 h2 d1 d2 i3
    have : n2.clock + bmin2 ≤ g3.clock := this
    omega
  rw [hfm, hfl, f1, f2] at q3 q4
  -- the long call
  obtain ⟨B, hB⟩ : ∃ B, c2 = n2.clock + B := ⟨c2 - n2.clock, by omega⟩
  obtain ⟨r, hr'⟩ := (C102_infer_iff hb (S1 + B + S2) cw eps bmin bmax ps 0 dr hc).mpr hr
  obtain ⟨-, -, -, C1, C2, -⟩ := C102_after_infer hb _ cw eps bmin bmax ps 0 dr hc hr'
  have hlong := hr'
  rw [Workshop.infer, bind_ok] at hlong
  obtain ⟨l, hlong, e⟩ := hlong
  rw [pure_ok] at e
  subst e
  dsimp only at C1 C2
  have hclock : l.clock = m'.clock := by
    obtain ⟨g1, g2, g3, g4, i1, i2, i3, -, -⟩ := infer_phases h1'
    have x1 := infer_clock H.nodup_free hp h1' i1 i2 i3
    have x2 := infer_clock H.nodup_free hp hlong i1 i2 i3
    omega
  obtain ⟨u1, u2, u3, u4, v1, v2⟩ := infer_fcts H.nodup_free hp h1'
  obtain ⟨u1', u2', u3', u4', v1', v2'⟩ := infer_fcts H.nodup_free hp hlong
  rw [u3] at u3'; cases u3'
  rw [u4] at u4'; cases u4'
  obtain ⟨cl, k1, k2, k3, k4⟩ := infer_path H hc.perm ha hoff hlong
  rw [v1', v2', ← v1, ← v2] at k3 k4
  have hcl : cl = c := by omega
  subst hcl
  have shape : ∀ i ∈ freeMats s.m, (n2.world.mat i).val.shape = (s.m.world.mat i).val.shape ∧
      (m'.world.mat i).val.shape = (s.m.world.mat i).val.shape ∧ (l.world.mat i).val.shape = (s.m.world.mat i).val.shape := by
    intro i hi
    obtain ⟨k, hk⟩ := Option.ne_none_iff_exists'.mp (hr.factor i hi)
    obtain ⟨-, lr, o1, o2⟩ := H.owner i k hk
    have nc : ¬ lr.Cleans := by
      have := hoff lr (List.mem_of_getElem? o1)
      simp [LayerInfo.Cleans, this.1, this.2]
    have y1 := (sh1 k lr i o1 nc o2).1
    have y2 := (sh2 k lr i (by rw [st.layers]; exact o1) nc o2).1
    have y3 := ((C102_after_infer hb _ cw eps bmin bmax ps 0 dr hc hr').2.2.1 k lr i o1 nc o2).1
    exact ⟨y1, y2.trans y1, y3⟩
  have same1 : ∀ t < S1, (∀ i ∈ freeMats s.m, ∀ tr tr1, l.trace i = some tr → n2.trace i = some tr1 → ∀ idx, tr (t :: idx) = tr1 (t :: idx)) ∧
      ∀ k ∈ freeLbdas s.m, ∀ tr tr1, l.ltrace k = some tr → n2.ltrace k = some tr1 → tr.row t = tr1.row t ∧ tr1.row t ≠ none := by
    intro t ht
    obtain ⟨w, wm, w2, x1, x2, x3, x4, x5⟩ := p4 t ht
    obtain ⟨v, vm, v2, y1, y2, y3, y4, y5⟩ := k4 t (by omega)
    have := x1.unique y1
    subst this
    rw [x2] at y2; cases y2
    rw [x3] at y3; cases y3
    exact ⟨fun i hi tr tr1 j1 j2 idx => by rw [x4 i hi _ j2, y4 i hi _ j1],
      fun k hk tr tr1 j1 j2 => by rw [x5 k hk _ j2, y5 k hk _ j1]; simp⟩
  have same2 : ∀ t < S2, (∀ i ∈ freeMats s.m, ∀ tr tr2, l.trace i = some tr → m'.trace i = some tr2 →
        ∀ idx, tr ((S1 + B + t) :: idx) = tr2 (t :: idx)) ∧
      ∀ k ∈ freeLbdas s.m, ∀ tr tr2, l.ltrace k = some tr → m'.ltrace k = some tr2 → tr.row (S1 + B + t) = tr2.row t ∧ tr2.row t ≠ none := by
    intro t ht
    obtain ⟨w, wm, w2, x1, x2, x3, x4, x5⟩ := q4 t ht
    obtain ⟨v, vm, v2, y1, y2, y3, y4, y5⟩ := k4 (S1 + B + t) (by omega)
    have hcc : cl + (S1 + B + t) = c2 + t := by omega
    rw [hcc] at y1 y2 y3
    have := (p3.trans x1).unique y1
    subst this
    rw [x2] at y2; cases y2
    rw [x3] at y3; cases y3
    exact ⟨fun i hi tr tr1 j1 j2 idx => by rw [x4 i hi _ j2, y4 i hi _ j1],
      fun k hk tr tr1 j1 j2 => by rw [x5 k hk _ j2, y5 k hk _ j1]; simp⟩
  refine ⟨B, { s with m := l }, by omega, by omega, hr', hclock, ?_, fun i hi => ?_, fun k hk => ?_⟩
  · show l.world = m'.world
    rw [hclock] at k3
    exact (p3.trans q3).unique k3
  · obtain ⟨tr, e1, s1, -⟩ := C1 i hi
    obtain ⟨tr1, e2, s2, -⟩ := A1 i hi
    obtain ⟨tr2, e3, s3, -⟩ := B1 i (by rw [hfm]; exact hi)
    obtain ⟨y1, y2, y3⟩ := shape i hi
    exact ⟨tr, tr1, tr2, e1, e2, e3, by rw [s1, y3], by rw [s2, y1], by rw [s3, y2],
      fun t ht => (same1 t ht).1 i hi tr tr1 e1 e2, fun t ht => (same2 t ht).1 i hi tr tr2 e1 e3⟩
  · obtain ⟨tr, e1, s1, -⟩ := C2 k hk
    obtain ⟨tr1, e2, s2, -⟩ := A2 k hk
    obtain ⟨tr2, e3, s3, -⟩ := B2 k (by rw [hfl]; exact hk)
    exact ⟨tr, tr1, tr2, e1, e2, e3, s1, s2, s3,
      fun t ht => (same1 t ht).2 k hk tr tr1 e1 e2, fun t ht => (same2 t ht).2 k hk tr tr2 e1 e3⟩

/-- **C125**, without burn-in: if the second call has `burn_in_min=0` and `burn_in_max=0`, `S1` samples and then `S2` samples are
`S1 + S2` samples: the same state, and the traces of the two calls one after the other are the trace of the single call. -/
theorem C125_in_two_calls {s : Workshop} (hb : Built s) {dr : Draws} {S1 cw bmin ps S2 cw2 ps2 : Nat} {eps eps2 : ℝ} {bmax : Int}
    (hc : CallOK s cw ps 0 dr) (ha : s.m.anneal = false)
    (hoff : ∀ lr ∈ s.m.layers, lr.auto_clean = false ∧ lr.auto_reset = false) {r1 r2 : Workshop}
    (hw2 : 1 ≤ cw2) (hp2 : 1 ≤ ps2)
    (h1 : s.infer S1 cw eps bmin bmax ps 0 dr = .ok r1) (h2 : r1.infer S2 cw2 eps2 0 0 ps2 0 dr = .ok r2) :
    ∃ r, s.infer (S1 + S2) cw eps bmin bmax ps 0 dr = .ok r ∧ r.m.clock = r2.m.clock ∧ r.m.world = r2.m.world ∧
      (∀ i ∈ freeMats s.m, ∃ tr tr1 tr2, r.m.trace i = some tr ∧ r1.m.trace i = some tr1 ∧ r2.m.trace i = some tr2 ∧
        ∀ t < S1 + S2, ∀ idx, tr (t :: idx) = if t < S1 then tr1 (t :: idx) else tr2 ((t - S1) :: idx)) ∧
      ∀ k ∈ freeLbdas s.m, ∃ tr tr1 tr2, r.m.ltrace k = some tr ∧ r1.m.ltrace k = some tr1 ∧ r2.m.ltrace k = some tr2 ∧
        ∀ t < S1 + S2, tr.row t = if t < S1 then tr1.row t else tr2.row (t - S1) := by
  obtain ⟨B, r, -, hB, e1, e2, e3, e4, e5⟩ := C125_continue hb hc ha hoff hw2 hp2 h1 h2
  have hb1 : Built r1 := .act (.infer S1 cw eps bmin bmax ps 0 dr) hb hc h1
  have := workshop_clock hb1.sound hc.perm (by norm_num) h2
  obtain rfl : B = 0 := by omega
  rw [Nat.add_zero] at e1 e4 e5
  refine ⟨r, e1, e2, e3, fun i hi => ?_, fun k hk => ?_⟩
  · obtain ⟨tr, tr1, tr2, g1, g2, g3, -, -, -, g4, g5⟩ := e4 i hi
    refine ⟨tr, tr1, tr2, g1, g2, g3, fun t ht idx => ?_⟩
    split
    · exact g4 t ‹_› idx
    · rw [← g5 (t - S1) (by omega) idx, show S1 + (t - S1) = t by omega]
  · obtain ⟨tr, tr1, tr2, g1, g2, g3, -, -, -, g4, g5⟩ := e5 k hk
    refine ⟨tr, tr1, tr2, g1, g2, g3, fun t ht => ?_⟩
    split
    · exact (g4 t ‹_›).1
    · rw [← (g5 (t - S1) (by omega)).1, show S1 + (t - S1) = t by omega]

/-- Hypotheses of **C125** and **C126** are met: a machine with a layer of two free factors, five samples after ten sweeps of burn-in
and then three samples more after two sweeps -- or after none; and a call with other settings. -/
theorem C125_hypotheses_met : ∃ s r1 r2 r2' r', Built s ∧ CallOK s 15 10 0 plainDraws ∧ s.m.anneal = false ∧
    (∀ lr ∈ s.m.layers, lr.auto_clean = false ∧ lr.auto_reset = false) ∧ (freeMats s.m).length = 2 ∧ (freeLbdas s.m).length = 1 ∧
    s.infer 5 15 0.001 10 10 10 0 plainDraws = .ok r1 ∧ r1.infer 3 15 0.001 2 2 10 0 plainDraws = .ok r2 ∧
    r1.infer 3 15 0.001 0 0 10 0 plainDraws = .ok r2' ∧ s.infer 7 15 0 12 12 10 0 plainDraws = .ok r' ∧
    r'.m.clock + 2 + 5 = r1.m.clock + 4 + 7 := by
  have hc : CallOK shop2 15 10 0 plainDraws := callOK_plain rfl fun k lr hk => by
    obtain ⟨-, h1, h2⟩ := shop2_plain lr (List.mem_of_getElem? hk)
    simp [LayerInfo.Cleans, h1, h2]
  obtain ⟨r1, h1⟩ := plain_returns shop2_built rfl rfl shop2_plain rfl 5 0.001 10 10
  obtain ⟨r', h'⟩ := plain_returns shop2_built rfl rfl shop2_plain rfl 7 0 12 12
  have hb1 : Built r1 := .act (.infer 5 15 0.001 10 10 10 0 plainDraws) shop2_built hc h1
  obtain ⟨-, -, -, -, -, e1, e2, e3, e4, hr⟩ := C102_after_infer shop2_built 5 15 0.001 10 10 10 0 plainDraws hc h1
  have hc1 : CallOK r1 15 10 0 plainDraws := by
    refine callOK_plain ?_ fun k lr hk => ?_
    · have g := h1
      rw [Workshop.infer, bind_ok] at g
      obtain ⟨m, g, e⟩ := g
      rw [pure_ok] at e
      subst e
      exact (infer_static (env := genericEnv (shop2.wiring plainDraws)) shop2_built.sound.nodup_free (fun _ _ h => h) g).1.anneal
    · rw [e1] at hk
      obtain ⟨-, h1, h2⟩ := shop2_plain lr (List.mem_of_getElem? hk)
      simp [LayerInfo.Cleans, h1, h2]
  obtain ⟨r2, h2⟩ := (C102_infer_iff hb1 3 15 0.001 2 2 10 0 plainDraws hc1).mpr hr
  obtain ⟨r2', h2'⟩ := (C102_infer_iff hb1 3 15 0.001 0 0 10 0 plainDraws hc1).mpr hr
  refine ⟨shop2, r1, r2, r2', r', shop2_built, hc, rfl, fun lr hlr => (shop2_plain lr hlr).2, rfl, rfl, h1, h2, h2', h', ?_⟩
  rw [workshop_clock shop2_built.sound (fun _ _ _ h => h) (by norm_num) h1,
    workshop_clock shop2_built.sound (fun _ _ _ h => h) (by norm_num) h']

end LFM

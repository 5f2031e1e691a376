import Verif.Lemmas.InferTotal
import Verif.Props.BurnIn

/-!
# Properties of `Machine.infer`: C39, C43, C45, C46
-/

namespace LFM

variable {F G : Type}

/-! ## The state before sampling -/

theorem nodup_freeLbdas (m : Mach F G) : (freeLbdas m).Nodup := (List.nodup_range).filter _

theorem allocMats_ok {env : Env F G} {S : Nat} (ks : List Nat) : ∀ {m m' : Mach F G},
    ks.foldlM (allocMat env S) m = .ok m' → m' = { m with trace := m'.trace } ∧
      ∀ i, m'.trace i = if i ∈ ks then some (if modelOf m i = some "OR-AND-IBP" then
        allocIBP S (m.world.mat i).val else allocM (env.junkMat i) S (m.world.mat i).val) else m.trace i := by
  induction ks with
  | nil =>
    intro m m' h
    rw [List.foldlM_nil, pure_ok] at h
    subst h
    exact ⟨rfl, fun i => by simp⟩
  | cons k ks ih =>
    intro m m' h
    rw [List.foldlM_cons, bind_ok] at h
    obtain ⟨m1, h1, h2⟩ := h
    rw [allocMat] at h1
    split at h1
    · cases h1
    · rename_i model hmod
      simp only [Except.ok.injEq] at h1
      obtain ⟨o, g⟩ := ih h2
      refine ⟨by rw [o, ← h1], ?_⟩
      intro i
      rw [g]
      have hm : modelOf m1 i = modelOf m i := by rw [← h1]; rfl
      have hw : m1.world = m.world := by rw [← h1]
      rw [hm, hw]
      by_cases hi : i ∈ ks
      · simp [hi]
      · by_cases hik : i = k
        · subst hik
          simp only [hi, if_false, List.mem_cons_self, if_true, ← h1, upd, hmod, Option.some.injEq]
        · simp only [hi, if_false, List.mem_cons, hik, or_self, ← h1, upd]

/-- burn-in leaves the attributes alone that it does not use -/
theorem burn_in_keeps {env : Env F G} {mats lbdas : List Nat} (hp : ∀ t, ∀ i ∈ env.perm t mats, i ∈ mats) {eps : ℝ}
    {cw b : Nat} {bmax : Int} {ps fx : Nat} {m m' : Mach F G}
    (h : burn_in env mats lbdas eps cw b bmax ps fx m = .ok m') : Keeps m m' :=
  (keeps_steps m.layers hp).burn_in_rel rfl h

theorem burn_in_index {env : Env F G} {mats lbdas : List Nat} {eps : ℝ} {cw b : Nat} {bmax : Int} {ps fx : Nat}
    {m m' : Mach F G} (h : burn_in env mats lbdas eps cw b bmax ps fx m = .ok m') :
    ∀ k ∈ lbdas, m'.ltrace_index k = 0 := by
  rw [burn_in, bind_ok] at h
  obtain ⟨m1, -, h2⟩ := h
  exact mainLoop_index _ rfl h2

/-! ## C39 -/

/-- sampling keeps the functions -/
theorem samplingLoop_fct {env : Env F G} {mats lbdas : List Nat} (hnd : mats.Nodup) (hndl : lbdas.Nodup) {ps : Nat}
    (n : Nat) : ∀ {m m' : Mach F G}, samplingLoop env mats lbdas ps n m = .ok m' → m'.fct = m.fct ∧ m'.lfct = m.lfct := by
  induction n with
  | zero => intro m m' h; simp only [samplingLoop, Except.ok.injEq] at h; rw [h]; exact ⟨rfl, rfl⟩
  | succ n ih =>
    intro m m' h
    rw [samplingLoop, bind_ok] at h
    obtain ⟨m6, e1, e2⟩ := h
    obtain ⟨_, -, -, o, -⟩ := samplingStep_ok hnd hndl e1
    have := ih e2
    rw [o] at this
    exact this

/-- **C39** (all machines): after `infer` with `no_samples = S` there are worlds `wl 0` (at the end of burn-in),
`wm 0, wl 1, wm 1, ...` obtained by `S` sampling sweeps, the last being the present one, such that for every sampled
matrix row `t` of the trace holds the matrix after sweep `t`, and for every parameter row `t` of its trace holds the
parameter after sweep `t`. In machines with an IBP layer, only the entries that a matrix has at that time are written,
the others of a matrix of an IBP layer are -1. -/
theorem C39_traces (env : Env F G) (S cw bmin : Nat) (eps : ℝ) (bmax : Int) (ps fx : Nat) (m m' : Mach F G)
    (hnd : (freeMats m).Nodup) (hp : ∀ t, ∀ i ∈ env.perm t (freeMats m), i ∈ freeMats m)
    (h : infer env S cw eps bmin bmax ps fx m = .ok m') :
    ∃ (wm wl : Nat → World) (clock : Nat),
      Chain env m'.fct m'.lfct (freeMats m) (freeLbdas m) clock S wm wl ∧ m'.world = wl S ∧
      (∀ i ∈ freeMats m, ∃ tr, m'.trace i = some tr ∧
        (((∀ j ∈ freeMats m, modelOf m j ≠ some "OR-AND-IBP") ∧ tr.shape = S :: ((wl 0).mat i).val.shape ∧
          ∀ t < S, ((wm t).mat i).val.shape = ((wl 0).mat i).val.shape ∧
            ∀ idx, tr (t :: idx) = ((wm t).mat i).val idx) ∨
        (modelOf m i = some "OR-AND-IBP" ∧
          tr.shape = [S, ((wl 0).mat i).val.dim 0, ((wl 0).mat i).val.dim 1 + 10] ∧
          ∀ t < S, ∀ a b, tr [t, a, b] =
            if a < ((wm t).mat i).val.dim 0 ∧ b < ((wm t).mat i).val.dim 1 then ((wm t).mat i).val [a, b] else -1) ∨
        (modelOf m i ≠ some "OR-AND-IBP" ∧ (∃ j ∈ freeMats m, modelOf m j = some "OR-AND-IBP") ∧
          tr.shape = S :: ((wl 0).mat i).val.shape ∧
          ∀ t < S, ∀ a < ((wm t).mat i).val.dim 0, ∀ b < ((wm t).mat i).val.dim 1,
            tr [t, a, b] = ((wm t).mat i).val [a, b]))) ∧
      (∀ k ∈ freeLbdas m, ∃ tr, m'.ltrace k = some tr ∧ tr.len = S ∧
        ∀ t < S, ((wl (t + 1)).lbda k).kind = ((wl 0).lbda k).kind → tr.row t = some ((wl (t + 1)).lbda k)) ∧
      ∃ m1 m2 m3, (freeMats m).foldlM (assignFct env) m = .ok m1 ∧ (freeLbdas m).foldlM (assignLfct env) m1 = .ok m2 ∧
        burn_in env (freeMats m) (freeLbdas m) eps cw bmin bmax ps fx (resetIndices (freeMats m) (freeLbdas m) m2) =
          .ok m3 ∧ wl 0 = m3.world ∧ clock = m3.clock := by
  obtain ⟨m1, m2, m3, m4, h1, h2, h3, h4, h5⟩ := infer_phases h
  have k1 := (fold_keeps (fun a i b => assignFct_keeps) h1).1
  have k2 := k1.trans (fold_keeps (fun a i b => assignLfct_keeps) h2).1
  have kb := burn_in_keeps hp h3
  have kix := burn_in_index h3
  obtain ⟨o4, t4⟩ := allocMats_ok _ h4
  obtain ⟨m5, hm5⟩ : ∃ m5, m5 = allocLbdasS env.junkSampling S (freeLbdas m) m4 := ⟨_, rfl⟩
  rw [← hm5] at h5
  obtain ⟨wm, wl, g0, gS, gC, gm, gl⟩ := samplingLoop_ok hnd (nodup_freeLbdas m) S h5
  -- attributes
  have hmodel : ∀ i, modelOf m5 i = modelOf m i := by
    intro i
    have e1 : m5.layers = m.layers := by
      rw [hm5]; show m4.layers = _; rw [o4]; show m3.layers = _; rw [kb]; exact k2.layers
    have e2 : m5.layerOf = m.layerOf := by
      rw [hm5]; show m4.layerOf = _; rw [o4]; show m3.layerOf = _; rw [kb]; exact k2.layerOf
    rw [modelOf, modelOf, e1, e2]
  have hmodel3 : ∀ i, modelOf m3 i = modelOf m i := by
    intro i
    have e1 : m3.layers = m.layers := by rw [kb]; exact k2.layers
    have e2 : m3.layerOf = m.layerOf := by rw [kb]; exact k2.layerOf
    rw [modelOf, modelOf, e1, e2]
  have hix : ∀ i ∈ freeMats m, m5.trace_index i = 0 := by
    intro i hi
    rw [hm5]; show m4.trace_index i = 0; rw [o4]; show m3.trace_index i = 0; rw [kb]
    show (if i ∈ freeMats m then 0 else _) = 0
    rw [if_pos hi]
  have hixl : ∀ k ∈ freeLbdas m, m5.ltrace_index k = 0 := by
    intro k hk
    rw [hm5]; show m4.ltrace_index k = 0; rw [o4]; exact kix k hk
  have hworld : m5.world = m3.world := by rw [hm5]; show m4.world = _; rw [o4]
  have htr : ∀ i, m5.trace i = m4.trace i := by intro i; rw [hm5]; rfl
  simp only [hmodel] at gm
  have hfct := samplingLoop_fct hnd (nodup_freeLbdas m) S h5
  refine ⟨wm, wl, m5.clock, ?_, gS.symm, ?_, ?_, m1, m2, m3, h1, h2, h3, g0.trans hworld, by rw [hm5]; show m4.clock = _; rw [o4]⟩
  · rw [hfct.1, hfct.2]; exact gC
  · intro i hi
    have ht := t4 i
    rw [if_pos hi, hmodel3, ← htr, ← hworld, ← g0] at ht
    obtain ⟨t', q1, q2, -, q4, q5⟩ := gm i hi _ ht
    refine ⟨t', q1, ?_⟩
    rw [hix i hi] at q5
    by_cases hany : (freeMats m).any (fun i => modelOf m i = some "OR-AND-IBP") = false
    · left
      have hall : ∀ j ∈ freeMats m, modelOf m j ≠ some "OR-AND-IBP" := by
        intro j hj hc
        rw [List.any_eq_false] at hany
        exact hany j hj (by simpa using hc)
      rw [if_neg (hall i hi)] at q2 q4 q5
      refine ⟨hall, q2, ?_⟩
      intro t ht'
      refine ⟨by simpa [allocM] using q4 hany t ht', ?_⟩
      intro idx
      rw [q5, if_pos ⟨Nat.zero_le _, by omega⟩, hany]
      simp [writtenEntry]
    · right
      have hany' : (freeMats m).any (fun i => modelOf m i = some "OR-AND-IBP") = true := by simpa using hany
      by_cases hibp : modelOf m i = some "OR-AND-IBP"
      · left
        rw [if_pos hibp] at q2 q5
        refine ⟨hibp, q2, ?_⟩
        intro t ht' a b
        rw [q5, if_pos ⟨Nat.zero_le _, by omega⟩, hany']
        simp [writtenEntry, allocIBP]
      · right
        rw [if_neg hibp] at q2 q5
        refine ⟨hibp, ?_, q2, ?_⟩
        · rw [List.any_eq_true] at hany'
          obtain ⟨j, hj, hj'⟩ := hany'
          exact ⟨j, hj, by simpa using hj'⟩
        · intro t ht' a ha b hb
          rw [q5, if_pos ⟨Nat.zero_le _, by omega⟩, hany']
          simp [writtenEntry, ha, hb]
  · intro k hk
    have ht : m5.ltrace k = some (allocL (env.junkSampling k) S ((wl 0).lbda k)) := by
      rw [g0, hworld, hm5]
      show (if k ∈ freeLbdas m then some (allocL (env.junkSampling k) S (m4.world.lbda k)) else _) = _
      rw [if_pos hk]
      have : m4.world = m3.world := by rw [o4]
      rw [this]
    obtain ⟨t', q1, q2, q3, q4⟩ := gl k hk _ ht
    refine ⟨t', q1, by rw [q2, allocL_len], ?_⟩
    intro t ht' hkd
    rw [q4, hixl k hk, if_pos ⟨Nat.zero_le _, by omega⟩, allocL_kind, Nat.sub_zero, castL_kind hkd]

/-- **C39** (the last sample is the present state): if parameter updates leave the matrices alone -/
theorem C39_last (env : Env F G) (S cw bmin : Nat) (hS : 1 ≤ S) (eps : ℝ) (bmax : Int) (ps fx : Nat) (m m' : Mach F G)
    (hnd : (freeMats m).Nodup) (hp : ∀ t, ∀ i ∈ env.perm t (freeMats m), i ∈ freeMats m)
    (hl : ∀ g k t w w', env.runLbda g k t w = .ok w' → w'.mat = w.mat)
    (hno : ∀ i ∈ freeMats m, modelOf m i ≠ some "OR-AND-IBP")
    (h : infer env S cw eps bmin bmax ps fx m = .ok m') :
    ∀ i ∈ freeMats m, ∃ tr, m'.trace i = some tr ∧ tr.shape = S :: (m'.world.mat i).val.shape ∧
      ∀ idx, tr ((S - 1) :: idx) = (m'.world.mat i).val idx := by
  obtain ⟨wm, wl, clock, hC, hw, hm, -⟩ := C39_traces env S cw bmin eps bmax ps fx m m' hnd hp h
  intro i hi
  obtain ⟨tr, h1, h2⟩ := hm i hi
  have hmat : m'.world.mat = (wm (S - 1)).mat := by
    have := hC.lbdas (S - 1) (by omega)
    rw [show S - 1 + 1 = S by omega, ← hw] at this
    refine foldlM_rel (R := fun a b : World => b.mat = a.mat) (fun _ => rfl) (fun _ _ _ h1 h2 => h2.trans h1) _ _ ?_
      _ _ this
    intro w k _ w' hw'
    split at hw'
    · cases hw'
    · exact hl _ _ _ _ _ hw'
  refine ⟨tr, h1, ?_⟩
  rcases h2 with ⟨-, h3, h4⟩ | ⟨h3, -⟩ | ⟨-, ⟨j, hj, h3⟩, -⟩
  · obtain ⟨h5, h6⟩ := h4 (S - 1) (by omega)
    rw [hmat, h5]
    exact ⟨h3, h6⟩
  · exact absurd h3 (hno i hi)
  · exact absurd h3 (hno j hj)

/-! ## C46 -/

/-- inference completes, and what is preserved holds afterwards, of all samples of matrices and parameters -/
theorem infer_completes (env : Env F G) (S cw bmin : Nat) (eps : ℝ) (bmax : Int) (ps fx : Nat) (hcw : 1 ≤ cw)
    (hps : 1 ≤ ps) (m m1 m2 : Mach F G) (hnd : (freeMats m).Nodup)
    (hlayer : ∀ i ∈ freeMats m, modelOf m i ≠ none ∧ modelOf m i ≠ some "OR-AND-IBP")
    (h1 : (freeMats m).foldlM (assignFct env) m = .ok m1) (h2 : (freeLbdas m).foldlM (assignLfct env) m1 = .ok m2)
    (I : World → Prop) (hI : I m.world)
    (H : Healthy env (freeMats m) (freeLbdas m) m.layers m2.fct m2.lfct I)
    (ha : AnnealOK env (freeMats m) (freeLbdas m) m2.fct fx I m)
    (hs : ∀ i ∈ freeMats m, ∀ f, m2.fct i = some f → ∀ t w w', I w → env.runMat f i t w = .ok w' →
      ∀ j ∈ freeMats m, (w'.mat j).val.shape = (w.mat j).val.shape)
    (hsl : ∀ k ∈ freeLbdas m, ∀ g, m2.lfct k = some g → ∀ t w w', I w → env.runLbda g k t w = .ok w' →
      ∀ j ∈ freeMats m, (w'.mat j).val.shape = (w.mat j).val.shape) :
    ∃ m', infer env S cw eps bmin bmax ps fx m = .ok m' ∧ I m'.world ∧
      (∀ i ∈ freeMats m, ∃ tr, m'.trace i = some tr ∧ tr.shape = S :: (m'.world.mat i).val.shape ∧
        ∀ t < S, ∃ w, I w ∧ (w.mat i).val.shape = (m'.world.mat i).val.shape ∧
          ∀ idx, tr (t :: idx) = (w.mat i).val idx) ∧
      ∀ k ∈ freeLbdas m, ∃ tr w0, m'.ltrace k = some tr ∧ tr.len = S ∧ I w0 ∧
        ∀ t < S, ∃ w, I w ∧ ((w.lbda k).kind = (w0.lbda k).kind → tr.row t = some (w.lbda k)) := by
  have k1 := fold_keeps (fun a i b => assignFct_keeps) h1
  have k2 := fold_keeps (fun a i b => assignLfct_keeps) h2
  have e2 := k1.1.trans k2.1
  obtain ⟨m2', hm2'⟩ : ∃ m2', m2' = resetIndices (freeMats m) (freeLbdas m) m2 := ⟨_, rfl⟩
  obtain ⟨m3, h3, i3⟩ := H.burn_in_anneal (nodup_freeLbdas m) (show ps ≠ 0 by omega) (show cw ≠ 0 by omega) (eps := eps)
    (b := bmin) (bmax := bmax) (fx := fx) (m := m2') (by rw [hm2']; rfl) (by rw [hm2']; rfl)
    (by rw [hm2']; exact e2.layers) (by
      have e : m2'.anneal = m.anneal := by rw [hm2']; exact e2.anneal
      have e' : m2'.world = m.world := by rw [hm2']; show m2.world = _; rw [k2.2, k1.2]
      unfold AnnealOK at ha ⊢
      rw [e, e']
      exact ha)
    (by rw [hm2']; show I m2.world; rw [k2.2, k1.2]; exact hI)
  have kb := burn_in_keeps H.perm h3
  have kix := burn_in_index h3
  have hl3 : m3.layers = m.layers := by rw [kb, hm2']; exact e2.layers
  have hlo3 : m3.layerOf = m.layerOf := by rw [kb, hm2']; exact e2.layerOf
  have hmod3 : ∀ i, modelOf m3 i = modelOf m i := by
    intro i; rw [modelOf, hl3, hlo3]; rfl
  obtain ⟨m4, h4⟩ := allocMats_total (env := env) (S := S) (freeMats m) (m := m3) (by
    intro i hi
    rw [hmod3]; exact (hlayer i hi).1)
  obtain ⟨o4, t4⟩ := allocMats_ok _ h4
  have w4 : m4.world = m3.world := by rw [o4]
  have H' : Healthy env (freeMats m) (freeLbdas m) [] m2.fct m2.lfct
      (fun w => I w ∧ ∀ i ∈ freeMats m, (w.mat i).val.shape = (m3.world.mat i).val.shape) := by
    refine ⟨H.perm, ?_, ?_, fun lr hlr => by simp at hlr⟩
    · intro i hi
      obtain ⟨f, hf, hr⟩ := H.mat i hi
      refine ⟨f, hf, ?_⟩
      rintro t w ⟨hw, hsh⟩
      obtain ⟨w', a, b, c⟩ := hr t w hw
      exact ⟨w', a, ⟨b, fun j hj => (hs i hi f hf t w w' hw a j hj).trans (hsh j hj)⟩, c⟩
    · intro k hk
      obtain ⟨f, hf, hr⟩ := H.lbda k hk
      refine ⟨f, hf, ?_⟩
      rintro t w ⟨hw, hsh⟩
      obtain ⟨w', a, b, c⟩ := hr t w hw
      exact ⟨w', a, ⟨b, fun j hj => (hsl k hk f hf t w w' hw a j hj).trans (hsh j hj)⟩, c⟩
  obtain ⟨m', h5, i5⟩ := H'.samplingLoop hnd (nodup_freeLbdas m) (show ps ≠ 0 by omega) (S := S) S
    (m := allocLbdasS env.junkSampling S (freeLbdas m) m4) (ix := 0) (by omega) (by
      refine ⟨?_, ?_, ?_, ?_, ?_, ?_⟩
      · show I m4.world ∧ ∀ i ∈ freeMats m, (m4.world.mat i).val.shape = _
        rw [w4]
        exact ⟨i3, fun _ _ => rfl⟩
      · intro i hi
        have : modelOf (allocLbdasS env.junkSampling S (freeLbdas m) m4) i = modelOf m3 i := by
          show modelOf m4 i = _; rw [o4]; rfl
        rw [this, hmod3]
        exact (hlayer i hi).2
      · show m4.fct = _; rw [o4]; show m3.fct = _; rw [kb, hm2']; rfl
      · show m4.lfct = _; rw [o4]; show m3.lfct = _; rw [kb, hm2']; rfl
      · intro i hi
        refine ⟨?_, allocM (env.junkMat i) S (m3.world.mat i).val, ?_, ?_⟩
        · show m4.trace_index i = 0
          rw [o4]; show m3.trace_index i = 0; rw [kb, hm2']
          show (if i ∈ freeMats m then 0 else _) = 0
          rw [if_pos hi]
        · show m4.trace i = _
          rw [t4, if_pos hi, hmod3, if_neg (hlayer i hi).2]
        · show S :: _ = S :: (m4.world.mat i).val.shape
          rw [w4]
      · intro k hk
        refine ⟨?_, allocL (env.junkSampling k) S (m4.world.lbda k), ?_, allocL_len _ _ _, allocL_kind _ _ _⟩
        · show m4.ltrace_index k = 0
          rw [o4]; exact kix k hk
        · show (if k ∈ freeLbdas m then _ else _) = _
          rw [if_pos hk])
  have hinf : infer env S cw eps bmin bmax ps fx m = .ok m' := by
    rw [infer]
    simp only
    rw [h1]
    show ((freeLbdas m).foldlM (assignLfct env) m1 >>= _) = _
    rw [h2]
    show (burn_in _ _ _ _ _ _ _ _ _ (resetIndices (freeMats m) (freeLbdas m) m2) >>= _) = _
    rw [← hm2', h3]
    show ((freeMats m).foldlM (allocMat env S) m3 >>= _) = _
    rw [h4]
    exact h5
  refine ⟨m', hinf, i5.1, ?_⟩
  obtain ⟨wm, wl, clock, hC, hw, hm, hlb, n1, n2, n3, a1, a2, a3, a4, -⟩ :=
    C39_traces env S cw bmin eps bmax ps fx m m' hnd H.perm hinf
  rw [h1] at a1
  cases a1
  rw [h2] at a2
  cases a2
  rw [← hm2', h3] at a3
  cases a3
  have hfct : m'.fct = m2.fct ∧ m'.lfct = m2.lfct := by
    obtain ⟨o1, o2⟩ := samplingLoop_fct hnd (nodup_freeLbdas m) S h5
    rw [o1, o2]
    constructor
    · show m4.fct = _; rw [o4]; show m3.fct = _; rw [kb, hm2']; rfl
    · show m4.lfct = _; rw [o4]; show m3.lfct = _; rw [kb, hm2']; rfl
  rw [hfct.1, hfct.2] at hC
  have hI' := H.chain hC (by rw [a4]; exact i3)
  refine ⟨fun i hi => ?_, fun k hk => ?_⟩
  swap
  · obtain ⟨tr, t1, t2, t3⟩ := hlb k hk
    exact ⟨tr, wl 0, t1, t2, (hI' 0 (Nat.zero_le _)).1, fun t ht => ⟨wl (t + 1), (hI' (t + 1) ht).1, t3 t ht⟩⟩
  obtain ⟨tr, t1, t2⟩ := hm i hi
  refine ⟨tr, t1, ?_⟩
  rcases t2 with ⟨-, t3, t5⟩ | ⟨t3, -⟩ | ⟨-, ⟨j, hj, t3⟩, -⟩
  · rw [a4] at t3 t5
    rw [i5.2 i hi]
    exact ⟨t3, fun t ht => ⟨wm t, (hI' t ht.le).2 ht, (t5 t ht).1, (t5 t ht).2⟩⟩
  · exact absurd t3 (hlayer i hi).2
  · exact absurd t3 (hlayer j hj).2

/-- **C46** (partial): inference, with or without annealing, completes if update functions can be assigned, do not raise and keep the shapes of
matrices, and all matrices to be sampled are factors of layers (other than IBP); whatever the update functions and
clean-ups preserve holds afterwards and of all samples in the traces. What is missing for the full claim:
matrices that are not in a layer, see `C46_wrong`. -/
theorem C46_completes_partial (env : Env F G) (S cw bmin : Nat) (eps : ℝ) (bmax : Int) (ps fx : Nat) (hcw : 1 ≤ cw)
    (hps : 1 ≤ ps) (m m1 m2 : Mach F G) (hnd : (freeMats m).Nodup)
    (hlayer : ∀ i ∈ freeMats m, modelOf m i ≠ none ∧ modelOf m i ≠ some "OR-AND-IBP")
    (h1 : (freeMats m).foldlM (assignFct env) m = .ok m1) (h2 : (freeLbdas m).foldlM (assignLfct env) m1 = .ok m2)
    (I : World → Prop) (hI : I m.world)
    (H : Healthy env (freeMats m) (freeLbdas m) m.layers m2.fct m2.lfct I)
    (ha : AnnealOK env (freeMats m) (freeLbdas m) m2.fct fx I m)
    (hs : ∀ i ∈ freeMats m, ∀ f, m2.fct i = some f → ∀ t w w', I w → env.runMat f i t w = .ok w' →
      ∀ j ∈ freeMats m, (w'.mat j).val.shape = (w.mat j).val.shape)
    (hsl : ∀ k ∈ freeLbdas m, ∀ g, m2.lfct k = some g → ∀ t w w', I w → env.runLbda g k t w = .ok w' →
      ∀ j ∈ freeMats m, (w'.mat j).val.shape = (w.mat j).val.shape) :
    ∃ m', infer env S cw eps bmin bmax ps fx m = .ok m' ∧ I m'.world ∧
      ∀ i ∈ freeMats m, ∃ tr, m'.trace i = some tr ∧ tr.shape = S :: (m'.world.mat i).val.shape ∧
        ∀ t < S, ∃ w, I w ∧ (w.mat i).val.shape = (m'.world.mat i).val.shape ∧
          ∀ idx, tr (t :: idx) = (w.mat i).val idx := by
  obtain ⟨m', e1, e2, e3, -⟩ := infer_completes env S cw bmin eps bmax ps fx hcw hps m m1 m2 hnd hlayer h1 h2 I hI H ha hs hsl
  exact ⟨m', e1, e2, e3⟩

theorem allocMats_error {env : Env F G} {S : Nat} (ks : List Nat) : ∀ {m : Mach F G}, (∃ i ∈ ks, modelOf m i = none) →
    ks.foldlM (allocMat env S) m = .error .attributeError := by
  induction ks with
  | nil => rintro m ⟨i, hi, -⟩; simp at hi
  | cons k ks ih =>
    rintro m ⟨i, hi, hn⟩
    rw [List.foldlM_cons]
    cases hm : allocMat env S m k with
    | error e =>
      rw [allocMat] at hm
      split at hm
      · cases hm; rfl
      · cases hm
    | ok m1 =>
      have e := (allocMat_keeps hm).1
      refine ih ⟨i, ?_, by rw [modelOf, e.layers, e.layerOf]; exact hn⟩
      rcases List.mem_cons.mp hi with rfl | hi
      · rw [allocMat, hn] at hm; cases hm
      · exact hi

/-- **C46** is wrong: if some matrix to be sampled is not a factor of a layer, `infer` raises AttributeError after
burn-in has finished, whatever the update functions and arguments. -/
theorem C46_wrong (env : Env F G) (S cw bmin : Nat) (eps : ℝ) (bmax : Int) (ps fx : Nat) (m m1 m2 m3 : Mach F G)
    (hp : ∀ t, ∀ i ∈ env.perm t (freeMats m), i ∈ freeMats m) (i : Nat) (hi : i ∈ freeMats m) (hn : m.layerOf i = none)
    (h1 : (freeMats m).foldlM (assignFct env) m = .ok m1) (h2 : (freeLbdas m).foldlM (assignLfct env) m1 = .ok m2)
    (h3 : burn_in env (freeMats m) (freeLbdas m) eps cw bmin bmax ps fx (resetIndices (freeMats m) (freeLbdas m) m2) =
      .ok m3) :
    infer env S cw eps bmin bmax ps fx m = .error .attributeError := by
  have k1 := fold_keeps (fun a i b => assignFct_keeps) h1
  have k2 := fold_keeps (fun a i b => assignLfct_keeps) h2
  have e2 := k1.1.trans k2.1
  have kb := burn_in_keeps hp h3
  have hlo3 : m3.layerOf = m.layerOf := by rw [kb]; exact e2.layerOf
  rw [infer]
  simp only
  rw [h1]
  show ((freeLbdas m).foldlM (assignLfct env) m1 >>= _) = _
  rw [h2]
  show (burn_in _ _ _ _ _ _ _ _ _ (resetIndices (freeMats m) (freeLbdas m) m2) >>= _) = _
  rw [h3]
  show ((freeMats m).foldlM (allocMat env S) m3 >>= _) = _
  rw [allocMats_error _ ⟨i, hi, by rw [modelOf, hlo3, hn]; rfl⟩]
  rfl

/-- **C46**: in any case, `infer` does not return normally then -/
theorem C46_wrong_never (env : Env F G) (S cw bmin : Nat) (eps : ℝ) (bmax : Int) (ps fx : Nat) (m m' : Mach F G)
    (hp : ∀ t, ∀ i ∈ env.perm t (freeMats m), i ∈ freeMats m) (i : Nat) (hi : i ∈ freeMats m) (hn : m.layerOf i = none) :
    infer env S cw eps bmin bmax ps fx m ≠ .ok m' := by
  intro h
  obtain ⟨m1, m2, m3, m4, h1, h2, h3, -, -⟩ := infer_phases h
  rw [C46_wrong env S cw bmin eps bmax ps fx m m1 m2 m3 hp i hi hn h1 h2 h3] at h
  cases h

/-- the hypotheses of `C46_completes_partial`, `C39_traces` and `C39_last` hold for a machine with two factors and a
parameter -/
theorem C46_hypotheses_met (j x : NpF) : freeMats (smallMach x) = [0, 1] ∧ freeLbdas (smallMach x) = [0] ∧
    ∃ m', infer (idleEnv j) 20 15 0.01 30 2000 10 0 (smallMach x) = .ok m' := by
  have e1 : freeMats (smallMach x) = [0, 1] := rfl
  have e2 : freeLbdas (smallMach x) = [0] := rfl
  refine ⟨e1, e2, ?_⟩
  refine (fun h => ⟨h.choose, h.choose_spec.1⟩ : (∃ m', _ = Except.ok m' ∧ True ∧ _) → _)
    (C46_completes_partial (idleEnv j) 20 15 30 0.01 2000 10 0 (by norm_num) (by norm_num) (smallMach x) (smallMach x)
    (smallMach x) (by rw [e1]; decide) ?_ rfl rfl (fun _ => True) trivial (by rw [e1, e2]; exact idle_healthy j x) (.inl rfl) ?_ ?_)
  · intro i _
    simp [modelOf, smallMach]
  · intro i _ f _ t w w' _ h
    cases h
    intros; rfl
  · intro i _ f _ t w w' _ h
    cases h
    intros; rfl

/-- the same machine with data that is to be imputed -/
noncomputable def imputeMach (x : NpF) : Mach Unit Unit :=
  { smallMach x with matrices := [2], layerOf := fun i => if i = 2 then none else some 0 }

/-- the hypotheses of `C46_wrong` are met -/
theorem C46_wrong_met (j x : NpF) : infer (idleEnv j) 20 15 0.01 30 2000 10 0 (imputeMach x) = .error .attributeError := by
  have e1 : freeMats (imputeMach x) = [0, 1, 2] := rfl
  have e2 : freeLbdas (imputeMach x) = [0] := rfl
  obtain ⟨m3, h3⟩ := C40_no_error (idleEnv j) [0, 1, 2] [0] (by decide) 0.01 15 30 2000 10 0 (by norm_num) (by norm_num)
    (resetIndices [0, 1, 2] [0] (imputeMach x)) (fun _ => True) (.inl rfl)
    ⟨fun _ _ hi => hi, fun _ _ => ⟨(), rfl, fun _ w _ => ⟨w, rfl, trivial, fun _ => rfl⟩⟩,
      fun _ _ => ⟨(), rfl, fun _ w _ => ⟨w, rfl, trivial, fun _ => rfl⟩⟩, fun _ _ _ _ _ _ _ _ _ _ => trivial⟩ trivial
  exact C46_wrong _ _ _ _ _ _ _ _ _ (imputeMach x) (imputeMach x) m3 (fun _ _ hi => hi) 2 (by rw [e1]; decide) rfl rfl
    rfl h3

end LFM

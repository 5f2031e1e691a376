import Verif.Lemmas.AssembleBuild

/-!
# Lemmas: numbers of rows never change in an inference, whatever clean-up does
-/

namespace LFM

open Spec

/-- all matrices have the same number of rows in both worlds, those outside of layers with clean-up the same shape -/
def SameRows (layers : List LayerInfo) (w w' : World) : Prop :=
  ∀ j, (w'.mat j).val.dim 0 = (w.mat j).val.dim 0 ∧
    ((∀ lr ∈ layers, lr.Cleans → j ∉ lr.factors) → (w'.mat j).val.shape = (w.mat j).val.shape)

theorem SameRows.refl (layers : List LayerInfo) (w : World) : SameRows layers w w := fun _ => ⟨rfl, fun _ => rfl⟩

theorem SameRows.trans {layers : List LayerInfo} {a b c : World} (h1 : SameRows layers a b) (h2 : SameRows layers b c) :
    SameRows layers a c :=
  fun j => ⟨(h2 j).1.trans (h1 j).1, fun h => ((h2 j).2 h).trans ((h1 j).2 h)⟩

theorem run_rows {a : Option CleanAction} {l : Nat} {fs fs' : List Fac} (h : CleanAction.run a l fs = .ok fs') :
    fs'.map (fun f => f.val.dim 0) = fs.map fun f => f.val.dim 0 := by
  match a with
  | none => simp [CleanAction.run] at h
  | some .reset =>
    simp only [CleanAction.run, Except.ok.injEq] at h
    subst h
    simp only [reset_dimension, List.map_map]
    rfl
  | some .remove =>
    simp only [CleanAction.run, Except.ok.injEq] at h
    subst h
    simp only [remove_dimension, List.map_map]
    rfl

theorem clean_rows {fs : List Fac} {reset clean : Bool} {r : List Fac × Bool} (h : clean_up_codes fs reset clean = .ok r) :
    r.1.map (fun f => f.val.dim 0) = fs.map fun f => f.val.dim 0 :=
  clean_up_inv (fun fs' _ => fs'.map (fun f => f.val.dim 0) = fs.map fun f => f.val.dim 0)
    (fun _ _ _ _ h1 _ _ h2 => (run_rows h2).trans h1) (fun _ _ _ _ _ h1 _ _ _ h2 => (run_rows h2).trans h1) rfl h

theorem write_rows {w : World} {layers : List LayerInfo} {lr : LayerInfo} (hl : lr ∈ layers) (hc : lr.Cleans)
    (hnd : lr.factors.Nodup) {reset clean : Bool} {fs : List Fac} {b : Bool}
    (h : clean_up_codes (lr.factors.map w.mat) reset clean = .ok (fs, b)) :
    SameRows layers w (writeFactors w lr.factors fs) := by
  have e := clean_rows h
  have hlen : fs.length = lr.factors.length := by simpa using congrArg List.length e
  obtain ⟨h1, h2⟩ := writeFactors_mat lr.factors w fs hnd hlen
  intro i
  by_cases hi : i ∈ lr.factors
  · obtain ⟨j, hj⟩ := List.getElem?_of_mem hi
    have := congrArg (·[j]?) e
    simp only [List.getElem?_map, hj, h1 j i hj, Option.map_some] at this
    exact ⟨Option.some.inj this, fun h => absurd hi (h lr hl hc)⟩
  · rw [h2 i hi]
    exact ⟨rfl, fun _ => rfl⟩

namespace Workshop.Sound

variable {s : Workshop}

theorem sampler_rows (H : s.Sound) (dr : Draws) {i : Nat} {f : Sampler} (hf : GoodFct s i f) {t : Nat} {w w' : World}
    (h : runSampler (s.wiring dr) f i t w = .ok w') : ∀ j, (w'.mat j).val.shape = (w.mat j).val.shape := by
  obtain ⟨k, lr, lom, -, -, -, ms, prior, ps, -, -, -, hget⟩ := hf
  rw [runSampler] at h
  split at h
  · rename_i fs k' child lbda parents _ _
    rw [bind_ok] at h
    obtain ⟨R, hR, h⟩ := h
    rw [pure_ok] at h
    subst h
    obtain ⟨e, -⟩ := C20_sampling_keeps hget _ _ _ _ _ _ _ _ hR
    intro j
    by_cases hj : j = i
    · subst hj
      simp only [World.setVal, upd, if_true]
      exact e
    · simp [World.setVal, upd, hj]
  · cases h

theorem update_mat (dr : Draws) {g : LbdaUpdate} {k t : Nat} {w w' : World}
    (h : runUpdate (s.wiring dr) g k t w = .ok w') : w'.mat = w.mat := by
  rw [runUpdate] at h
  split at h
  · cases h
  · rw [bind_ok] at h
    obtain ⟨v, -, h⟩ := h
    rw [← pure_ok.mp h]

/-- layers and functions stay; if the functions are those of the layers, numbers of rows stay, too -/
def RowsKept (s : Workshop) (m m' : Mach Sampler LbdaUpdate) : Prop :=
  (m'.layers = m.layers ∧ m'.fct = m.fct) ∧ ((∀ i f, m.fct i = some f → GoodFct s i f) →
    SameRows s.m.layers m.world m'.world)

theorem RowsKept.trans {a b c : Mach Sampler LbdaUpdate} (h1 : RowsKept s a b) (h2 : RowsKept s b c) : RowsKept s a c :=
  ⟨⟨h2.1.1.trans h1.1.1, h2.1.2.trans h1.1.2⟩, fun h => (h1.2 h).trans (h2.2 (by rw [h1.1.2]; exact h))⟩

theorem rows_steps (H : s.Sound) {dr : Draws} {mats lbdas : List Nat}
    (hp : ∀ t, ∀ i ∈ dr.perm t mats, i ∈ mats) :
    Steps (genericEnv (s.wiring dr)) mats lbdas s.m.layers (RowsKept s) where
  refl _ := ⟨⟨rfl, rfl⟩, fun _ => .refl _ _⟩
  trans := RowsKept.trans
  keepLayers h := h.1.1
  perm := hp
  mat m f i w _ hf hw := ⟨⟨rfl, rfl⟩, fun h j => by
    have e := H.sampler_rows dr (h i f hf) hw j
    exact ⟨by show (w.mat j).val.shape.getD 0 0 = _; rw [e]; rfl, fun _ => e⟩⟩
  tick _ := ⟨⟨rfl, rfl⟩, fun _ => .refl _ _⟩
  lbda m g k w _ _ hw := ⟨⟨rfl, rfl⟩, fun _ j => by
    have e : w.mat = m.world.mat := update_mat dr (t := m.clock) hw
    exact ⟨by show (w.mat j).val.dim 0 = _; rw [e], fun _ => by show (w.mat j).val.shape = _; rw [e]⟩⟩
  anneal _ _ _ _ := ⟨⟨rfl, rfl⟩, fun _ => .refl _ _⟩
  clean m lr hl reset clean fs b hc h := ⟨⟨rfl, rfl⟩, fun _ => by
    obtain ⟨k, hk⟩ := List.getElem?_of_mem hl
    exact write_rows hl hc (H.nodup k lr hk) h⟩
  traces _ _ _ _ := ⟨⟨rfl, rfl⟩, fun _ => .refl _ _⟩
  iters _ _ := ⟨⟨rfl, rfl⟩, fun _ => .refl _ _⟩

theorem tracesM_rows {ibp : Bool} (ks : List Nat) : ∀ {m m' : Mach Sampler LbdaUpdate},
    ks.foldlM (updateTraceM ibp) m = .ok m' → RowsKept s m m' := by
  induction ks with
  | nil =>
    intro m m' h
    rw [List.foldlM_nil, pure_ok] at h
    subst h
    exact ⟨⟨rfl, rfl⟩, fun _ => .refl _ _⟩
  | cons k ks ih =>
    intro m m' h
    rw [List.foldlM_cons, bind_ok] at h
    obtain ⟨m1, h1, h2⟩ := h
    refine RowsKept.trans ?_ (ih h2)
    rw [updateTraceM] at h1
    split at h1
    · cases h1
    · rw [bind_ok] at h1
      obtain ⟨t', -, h1⟩ := h1
      rw [← pure_ok.mp h1]
      exact ⟨⟨rfl, rfl⟩, fun _ => .refl _ _⟩

theorem sampling_rows (H : s.Sound) {dr : Draws} {mats lbdas : List Nat} (hp : ∀ t, ∀ i ∈ dr.perm t mats, i ∈ mats)
    {ps : Nat} (S : Nat) : ∀ {m m' : Mach Sampler LbdaUpdate},
    samplingLoop (genericEnv (s.wiring dr)) mats lbdas ps S m = .ok m' → RowsKept s m m' := by
  have T := H.rows_steps (dr := dr) (lbdas := lbdas) hp
  induction S with
  | zero =>
    intro m m' h
    simp only [samplingLoop, Except.ok.injEq] at h
    subst h
    exact T.refl m
  | succ n ih =>
    intro m m' h
    rw [samplingLoop, bind_ok] at h
    obtain ⟨m0, h0, h⟩ := h
    refine T.trans ?_ (ih h)
    rw [samplingStep, bind_ok] at h0
    obtain ⟨m1, h1, h0⟩ := h0
    rw [bind_ok] at h0
    obtain ⟨m2, h2, h0⟩ := h0
    rw [bind_ok] at h0
    obtain ⟨m3, h3, h0⟩ := h0
    rw [bind_ok] at h0
    obtain ⟨m4, h4, h0⟩ := h0
    have r := T.trans (T.sampleMats_rel h1) (T.trans (tracesM_rows _ h2) (T.trans (T.sampleLbdas_rel h3) (T.updateTracesL_rel h4)))
    by_cases hz : ps = 0
    · simp [hz, throw, throwThe, MonadExceptOf.throw] at h0
    · simp only [hz, if_false] at h0
      rw [← pure_ok.mp h0]
      exact r

/-- whatever inference does to a machine, all matrices keep their numbers of rows -/
theorem infer_rows (H : s.Sound) {S cw : Nat} {eps : ℝ} {bmin : Nat} {bmax : Int} {ps fx : Nat} {dr : Draws}
    (hp : ∀ t l, ∀ i ∈ dr.perm t l, i ∈ l) {m' : Mach Sampler LbdaUpdate}
    (h : LFM.infer (genericEnv (s.wiring dr)) S cw eps bmin bmax ps fx s.m = .ok m') :
    SameRows s.m.layers s.m.world m'.world := by
  obtain ⟨m1, m2, m3, m4, h1, h2, h3, h4, h5⟩ := infer_phases h
  have hr := H.infer_ready hp h
  have hfac : ∀ i ∈ freeMats s.m, ∃ (k : Nat) (lr : LayerInfo), s.m.layers[k]? = some lr ∧ i ∈ lr.factors := by
    intro i hi
    obtain ⟨k, hk⟩ := Option.ne_none_iff_exists'.mp (hr.factor i hi)
    obtain ⟨-, lr, h1, h2⟩ := H.owner i k hk
    exact ⟨k, lr, h1, h2⟩
  obtain ⟨n1, a1, a2, a3, a4, -⟩ := H.assigns dr (freeMats s.m) s.m (by
    intro i hi hn
    obtain ⟨k, lr, h1, h2⟩ := hfac i hi
    exact ⟨k, lr, h1, h2, hr.mat i hi hn k lr h1 h2⟩) rfl rfl H.fct
  rw [h1] at a1
  cases a1
  have k1 := fold_keeps (fun a i b => assignFct_keeps) h1
  have k2 := fold_keeps (fun a i b => assignLfct_keeps) h2
  have hlt : ∀ k ∈ freeLbdas s.m, m1.lfct k = none → ∃ lr : LayerInfo, s.m.layers[k]? = some lr ∧
      (lr.factors.length = 2 ∨ lr.factors.length = 3) := by
    intro k hk hn
    rw [a4] at hn
    have hlt : k < s.m.layers.length := by
      simp only [freeLbdas, List.mem_filter, List.mem_range] at hk
      exact hk.1
    exact ⟨_, List.getElem?_eq_getElem hlt, hr.lbda k hk hn _ (List.getElem?_eq_getElem hlt)⟩
  obtain ⟨n2, b1, -, f2, -⟩ := H.lassigns dr (freeLbdas s.m) m1 hlt a3 (by
    intro k g hg lr hlr
    rw [a4] at hg
    exact H.lfct k lr g hlr hg)
  rw [h2] at b1
  cases b1
  have good : ∀ i f, (resetIndices (freeMats s.m) (freeLbdas s.m) m2).fct i = some f → GoodFct s i f := by
    intro i f hf
    have : m2.fct i = some f := hf
    rw [f2] at this
    exact a2 i f this
  have T := H.rows_steps (dr := dr) (lbdas := freeLbdas s.m) (fun t i hi => hp t (freeMats s.m) i hi)
  have r3 := T.burn_in_rel (m := resetIndices (freeMats s.m) (freeLbdas s.m) m2)
    (show m2.layers = s.m.layers by rw [(k1.1.trans k2.1).layers]) h3
  have k4 := fold_keeps (fun a i b => allocMat_keeps) h4
  obtain ⟨o4, -⟩ := allocMats_ok _ h4
  have r4 : RowsKept s m3 (allocLbdasS (genericEnv (s.wiring dr)).junkSampling S (freeLbdas s.m) m4) :=
    ⟨⟨k4.1.layers, by show m4.fct = _; rw [o4]⟩, fun _ => by show SameRows _ m3.world m4.world; rw [k4.2]; exact .refl _ _⟩
  have r5 := H.sampling_rows (fun t i hi => hp t (freeMats s.m) i hi) S h5
  have := (r3.trans (r4.trans r5)).2 good
  have hw : (resetIndices (freeMats s.m) (freeLbdas s.m) m2).world = s.m.world := by
    show m2.world = _
    rw [k2.2, k1.2]
  rwa [hw] at this

end Workshop.Sound

end LFM

import Verif.Lemmas.Assemble
import Verif.Lemmas.Arity
import Verif.Props.SingleLayer

/-!
# Lemmas: inference in machines that are put together by calls of the API
-/

namespace LFM

open Spec

/-- a layer is cleaned up automatically -/
def LayerInfo.Cleans (lr : LayerInfo) : Prop := lr.auto_clean = true ∨ lr.auto_reset = true

/-- what inference leaves as it was: matrices that are no factors, lambdas that are fixed, and in layers without clean-up
shapes, fixed matrices and fixed entries -/
structure KeptIn (s : Workshop) (w : World) : Prop where
  others : ∀ i, s.m.layerOf i = none → w.mat i = s.m.world.mat i
  lbda : ∀ k ∉ freeLbdas s.m, w.lbda k = s.m.world.lbda k
  fixed : ∀ (k : Nat) (lr : LayerInfo) (i : Nat), s.m.layers[k]? = some lr → ¬ lr.Cleans → i ∈ lr.factors →
    (w.mat i).fixed_entries = (s.m.world.mat i).fixed_entries ∧
    (w.mat i).val.shape = (s.m.world.mat i).val.shape ∧
    (∀ idx, (s.m.world.mat i).fixed_entries idx = 1 → (w.mat i).val idx = (s.m.world.mat i).val idx) ∧
    (i ∉ freeMats s.m → w.mat i = s.m.world.mat i)

/-- what inference needs besides functions: a window and a print step of at least one, permutations that are, no clean-up
in layers with other layers on top, and lambdas other than zero for annealing -/
structure CallOK (s : Workshop) (cw ps fx : Nat) (dr : Draws) : Prop where
  window : 1 ≤ cw
  print : 1 ≤ ps
  perm : ∀ t l, ∀ i ∈ dr.perm t l, i ∈ l
  clean : ∀ (k : Nat) (lr : LayerInfo), s.m.layers[k]? = some lr → lr.Cleans → ∀ i ∈ lr.factors, s.parents i = []
  anneal : s.m.anneal = false ∨ fx = 0 ∧ ∀ k ∈ freeLbdas s.m, ∃ y, y ≠ 0 ∧ s.m.world.lbda k = .scalar (.fin y)

namespace Workshop.Sound

variable {s : Workshop}

theorem members_eq (H : s.Sound) : members s.m = s.m.layers.flatMap LayerInfo.factors ++ s.m.matrices := by
  have : (s.m.layers.flatMap fun layer => if layer.model = "qL-AND" then layer.q.toList else []) = [] := by
    rw [List.flatMap_eq_nil_iff]
    intro lr hlr
    obtain ⟨k, hk⟩ := List.getElem?_of_mem hlr
    simp [(H.factors k lr hk).2]
  rw [members, this, List.append_nil]

theorem mem_free (H : s.Sound) {i : Nat} : i ∈ freeMats s.m ↔
    s.m.fixed i = false ∧ (i ∈ s.m.matrices ∨ ∃ (k : Nat) (lr : LayerInfo), s.m.layers[k]? = some lr ∧ i ∈ lr.factors) := by
  rw [freeMats, List.mem_filter, H.members_eq, List.mem_append, List.mem_flatMap]
  constructor
  · rintro ⟨h | h, hf⟩
    · obtain ⟨lr, h1, h2⟩ := h
      obtain ⟨k, hk⟩ := List.getElem?_of_mem h1
      exact ⟨by simpa using hf, .inr ⟨k, lr, hk, h2⟩⟩
    · exact ⟨by simpa using hf, .inl h⟩
  · rintro ⟨hf, h | ⟨k, lr, hk, h⟩⟩
    · exact ⟨.inr h, by simp [hf]⟩
    · exact ⟨.inl ⟨lr, List.mem_of_getElem? hk, h⟩, by simp [hf]⟩

theorem nodup_factors (H : s.Sound) : (s.m.layers.flatMap LayerInfo.factors).Nodup := by
  rw [List.nodup_flatMap]
  constructor
  · intro lr hlr
    obtain ⟨k, hk⟩ := List.getElem?_of_mem hlr
    exact H.nodup k lr hk
  · rw [List.pairwise_iff_getElem]
    intro a b ha hb hab i hi hi'
    have := H.disjoint (List.getElem?_eq_getElem ha) (List.getElem?_eq_getElem hb) hi hi'
    omega

theorem nodup_free (H : s.Sound) : (freeMats s.m).Nodup := by
  rw [freeMats, H.members_eq]
  refine List.Nodup.filter _ (List.Nodup.append H.nodup_factors H.matNodup ?_)
  intro i h1 h2
  rw [List.mem_flatMap] at h1
  obtain ⟨lr, h3, h4⟩ := h1
  obtain ⟨k, hk⟩ := List.getElem?_of_mem h3
  have := (H.matrices i h2).2
  rw [H.layerOf k lr i hk h4] at this
  cases this

theorem modelOf_factor (H : s.Sound) {k : Nat} {lr : LayerInfo} (hk : s.m.layers[k]? = some lr) {i : Nat}
    (hi : i ∈ lr.factors) : ∃ lom : Lom8, modelOf s.m i = some lom.name := by
  obtain ⟨lom, hlom⟩ := H.model k lr hk
  exact ⟨lom, by rw [modelOf, H.layerOf k lr i hk hi]; show s.m.layers[k]?.map _ = _; rw [hk, ← hlom]; rfl⟩

/-- a sampling function leaves everything else as it was -/
theorem keeps_mat (H : s.Sound) (dr : Draws) {i : Nat} (hi : i ∈ freeMats s.m) {f : Sampler} (hf : GoodFct s i f) (t : Nat)
    {w : World} (hw : FitWorld s.m.layers s.child w ∧ KeptIn s w) : ∃ w', runSampler (s.wiring dr) f i t w = .ok w' ∧
      (FitWorld s.m.layers s.child w' ∧ KeptIn s w') ∧ w'.lbda = w.lbda ∧
      ∀ j, (w'.mat j).val.shape = (w.mat j).val.shape := by
  obtain ⟨hw, hkept⟩ := hw
  obtain ⟨k, lr, lom, h1, h2, h3, h4⟩ := hf
  obtain ⟨-, lr', h2', hi'⟩ := H.owner i k h1
  obtain rfl : lr = lr' := by rw [h2] at h2'; exact Option.some.inj h2'
  obtain ⟨R, r1, r2, r3, r4⟩ := H.runs_mat dr h2 hi' h4 t hw
  have hshape : ∀ j, ((w.setVal i R).mat j).val.shape = (w.mat j).val.shape := by
    intro j
    by_cases hj : j = i
    · subst hj; simpa [World.setVal, upd] using r2
    · simp [World.setVal, upd, hj]
  refine ⟨w.setVal i R, r1, ⟨H.fit_setVal hw r2 (fun _ => r3) (fun k' lr' a b => by rw [h1]; simp), ?_, hkept.lbda, ?_⟩, rfl,
    hshape⟩
  · intro j hj
    have : j ≠ i := by rintro rfl; rw [hj] at h1; cases h1
    simp [World.setVal, upd, this, hkept.others j hj]
  · intro k' lr' j a b c
    obtain ⟨k1, k2, k3, k4⟩ := hkept.fixed k' lr' j a b c
    by_cases hj : j = i
    · subst hj
      refine ⟨?_, (hshape j).trans k2, ?_, fun h => absurd hi h⟩
      · simp [World.setVal, upd, k1]
      · intro idx hidx
        simp only [World.setVal, upd, if_true]
        rw [r4 idx (by rw [k1]; exact hidx), k3 idx hidx]
    · simpa [World.setVal, upd, hj] using ⟨k1, k2, k3, k4⟩

theorem fit_lbda {layers : List LayerInfo} {child : Nat → Nat} {w : World} (hw : FitWorld layers child w) (k : Nat) (y : ℝ) :
    FitWorld layers child { w with lbda := upd w.lbda k (.scalar (.fin y)) } := by
  refine ⟨hw.dims, hw.facs, fun k' hk' => ?_⟩
  by_cases h : k' = k
  · subst h; exact ⟨y, by simp [upd]⟩
  · obtain ⟨z, hz⟩ := hw.lbda k' hk'
    exact ⟨z, by simp [upd, h, hz]⟩

theorem keeps_lbda (H : s.Sound) (dr : Draws) {k : Nat} (hk : k ∈ freeLbdas s.m) {g : LbdaUpdate} (hg : GoodLfct s k g)
    (t : Nat) {w : World} (hw : FitWorld s.m.layers s.child w ∧ KeptIn s w) :
    ∃ w', runUpdate (s.wiring dr) g k t w = .ok w' ∧ (FitWorld s.m.layers s.child w' ∧ KeptIn s w') ∧
      (∀ k, (w'.lbda k).kind = (w.lbda k).kind) ∧ w'.mat = w.mat := by
  obtain ⟨hw, hkept⟩ := hw
  have hlt : k < s.m.layers.length := by
    simp only [freeLbdas, List.mem_filter, List.mem_range] at hk
    exact hk.1
  have hlr := List.getElem?_eq_getElem hlt
  obtain ⟨hK, hg⟩ := hg _ hlr
  obtain ⟨y, -, h1⟩ := H.runs_lbda dr hlr hK hg t hw
  refine ⟨_, h1, ⟨fit_lbda hw k y, hkept.others, fun k' hk' => ?_, hkept.fixed⟩, fun k' => ?_, rfl⟩
  · have : k' ≠ k := fun h => hk' (h ▸ hk)
    simp [upd, this, hkept.lbda k' hk']
  · obtain ⟨z, hz⟩ := hw.lbda k hlt
    by_cases h : k' = k
    · subst h; simp [upd, hz, LVal.kind]
    · simp [upd, h]

/-- clean-up of a layer without layers on top -/
theorem keeps_clean (H : s.Sound) {k : Nat} {lr : LayerInfo} (hk : s.m.layers[k]? = some lr) (hc : lr.Cleans)
    (htop : ∀ i ∈ lr.factors, s.parents i = []) {w : World} (hw : FitWorld s.m.layers s.child w ∧ KeptIn s w)
    {reset clean : Bool} {fs : List Fac} {b : Bool}
    (hr : clean_up_codes (lr.factors.map w.mat) reset clean = .ok (fs, b)) :
    FitWorld s.m.layers s.child (writeFactors w lr.factors fs) ∧ KeptIn s (writeFactors w lr.factors fs) := by
  obtain ⟨hw, hkept⟩ := hw
  obtain ⟨L, hL⟩ := hw.facs k lr hk
  obtain ⟨c1, L', c2⟩ := hL.clean_up (by simpa using (H.factors k lr hk).1) hr
  obtain ⟨e1, e2⟩ := writeFactors_mat lr.factors w fs (H.nodup k lr hk) (by simpa using c1)
  have hch : ∀ k' < s.m.layers.length, (writeFactors w lr.factors fs).mat (s.child k') = w.mat (s.child k') := by
    intro k' hk'
    refine e2 _ fun hmem => ?_
    have := (H.parents (s.child k') k').mpr ⟨hk', rfl⟩
    rw [htop _ hmem] at this
    cases this
  refine ⟨⟨fun k' lr' hk' => ?_, fun k' lr' hk' => ?_, fun k' hk' => ?_⟩, ⟨fun i hi => ?_, fun k' hk' => ?_, ?_⟩⟩
  · rw [hch k' (List.getElem?_eq_some_iff.mp hk').1]
    exact hw.dims k' lr' hk'
  · rw [hch k' (List.getElem?_eq_some_iff.mp hk').1]
    by_cases hkk : k' = k
    · subst hkk
      rw [hk] at hk'
      cases hk'
      refine ⟨L', fun j f hf => ?_⟩
      simp only [List.getElem?_map, Option.map_eq_some_iff] at hf
      obtain ⟨i, hi, rfl⟩ := hf
      exact c2 j _ (e1 j i hi)
    · obtain ⟨L'', hL''⟩ := hw.facs k' lr' hk'
      refine ⟨L'', fun j f hf => ?_⟩
      simp only [List.getElem?_map, Option.map_eq_some_iff] at hf
      obtain ⟨i, hi, rfl⟩ := hf
      rw [e2 i fun h => hkk (H.disjoint hk' hk (List.mem_of_getElem? hi) h)]
      exact hL'' j _ (by rw [List.getElem?_map, hi]; rfl)
  · rw [writeFactors_lbda]
    exact hw.lbda k' hk'
  · rw [e2 i fun h => by rw [H.layerOf k lr i hk h] at hi; cases hi]
    exact hkept.others i hi
  · rw [writeFactors_lbda]
    exact hkept.lbda k' hk'
  · intro k' lr' i a b' c
    have : i ∉ lr.factors := by
      intro h
      obtain rfl := H.disjoint a hk c h
      rw [hk] at a
      cases a
      exact b' hc
    rw [e2 i this]
    exact hkept.fixed k' lr' i a b' c

/-- everything runs without error and preserves what has to be preserved -/
theorem healthy (H : s.Sound) {cw ps fx : Nat} {dr : Draws} (hc : CallOK s cw ps fx dr) {fct : Nat → Option Sampler}
    {lfct : Nat → Option LbdaUpdate} (hf : ∀ i ∈ freeMats s.m, ∃ f, fct i = some f ∧ GoodFct s i f)
    (hlf : ∀ k ∈ freeLbdas s.m, ∃ g, lfct k = some g ∧ GoodLfct s k g) :
    Healthy (genericEnv (s.wiring dr)) (freeMats s.m) (freeLbdas s.m) s.m.layers fct lfct
      fun w => FitWorld s.m.layers s.child w ∧ KeptIn s w := by
  refine ⟨fun t i hi => hc.perm t _ i hi, ?_, ?_, ?_⟩
  · intro i hi
    obtain ⟨f, h1, h2⟩ := hf i hi
    refine ⟨f, h1, fun t w hw => ?_⟩
    obtain ⟨w', e1, e2, e3, -⟩ := H.keeps_mat dr hi h2 t hw
    exact ⟨w', e1, e2, fun k => by rw [e3]⟩
  · intro k hk
    obtain ⟨g, h1, h2⟩ := hlf k hk
    refine ⟨g, h1, fun t w hw => ?_⟩
    obtain ⟨w', e1, e2, e3, -⟩ := H.keeps_lbda dr hk h2 t hw
    exact ⟨w', e1, e2, e3⟩
  · intro lr hlr reset clean w fs b hauto hw hr
    obtain ⟨k, hk⟩ := List.getElem?_of_mem hlr
    exact H.keeps_clean hk hauto (hc.clean k lr hk hauto) hw hr

theorem annealOK (H : s.Sound) {cw ps fx : Nat} {dr : Draws} (hc : CallOK s cw ps fx dr) {fct : Nat → Option Sampler}
    (hf : ∀ i ∈ freeMats s.m, ∃ f, fct i = some f ∧ GoodFct s i f) :
    AnnealOK (genericEnv (s.wiring dr)) (freeMats s.m) (freeLbdas s.m) fct fx
      (fun w => FitWorld s.m.layers s.child w ∧ KeptIn s w) s.m := by
  refine hc.anneal.imp_right fun ⟨h1, h2⟩ => ⟨h1, h2, fun i hi f hfi t w w' hI hr => ?_, fun w k y hk hI => ?_⟩
  · obtain ⟨f', e1, e2⟩ := hf i hi
    rw [e1] at hfi
    cases hfi
    obtain ⟨w1, e1, -, e3, -⟩ := H.keeps_mat dr hi e2 t hI
    have : (genericEnv (s.wiring dr)).runMat f i t w = .ok w1 := e1
    rw [this] at hr
    cases hr
    exact e3
  · refine ⟨fit_lbda hI.1 k y, hI.2.others, fun k' hk' => ?_, hI.2.fixed⟩
    have : k' ≠ k := fun h => hk' (h ▸ hk)
    simp [upd, this, hI.2.lbda k' hk']

end Workshop.Sound

/-- all free matrices and parameters have update functions, or can get one: free matrices are factors, those to which no
function has been assigned yet belong to a layer with two factors, or with three and no layer on top of them -/
structure Ready (s : Workshop) : Prop where
  factor : ∀ i ∈ freeMats s.m, s.m.layerOf i ≠ none
  mat : ∀ i ∈ freeMats s.m, s.m.fct i = none → ∀ (k : Nat) (lr : LayerInfo), s.m.layers[k]? = some lr → i ∈ lr.factors →
    lr.factors.length = 2 ∨ lr.factors.length = 3 ∧ s.parents i = []
  lbda : ∀ k ∈ freeLbdas s.m, s.m.lfct k = none → ∀ lr : LayerInfo, s.m.layers[k]? = some lr →
    lr.factors.length = 2 ∨ lr.factors.length = 3

namespace Workshop.Sound

variable {s : Workshop}

/-- inference of a machine that is ready returns -/
theorem infer_ok (H : s.Sound) (hr : Ready s) (S cw : Nat) (eps : ℝ) (bmin : Nat) (bmax : Int) (ps fx : Nat) (dr : Draws)
    (hc : CallOK s cw ps fx dr) : ∃ m', LFM.infer (genericEnv (s.wiring dr)) S cw eps bmin bmax ps fx s.m = .ok m' ∧
      FitWorld s.m.layers s.child m'.world ∧ KeptIn s m'.world ∧ Static s.m m' ∧
      (∀ i f, m'.fct i = some f → GoodFct s i f) ∧ (∀ k g, m'.lfct k = some g → GoodLfct s k g) ∧
      (∀ i f, s.m.fct i = some f → m'.fct i = some f) ∧
      (∀ i ∈ freeMats s.m, m'.fct i ≠ none) ∧ (∀ k ∈ freeLbdas s.m, m'.lfct k ≠ none) ∧
      (∀ i ∈ freeMats s.m, ∃ tr, m'.trace i = some tr ∧ tr.shape = S :: (m'.world.mat i).val.shape ∧ PMArr tr) ∧
      ∀ k ∈ freeLbdas s.m, ∃ tr, m'.ltrace k = some tr ∧ tr.len = S ∧ ∀ t < S, ∃ y, tr.row t = some (.scalar (.fin y)) := by
  have hfac : ∀ i ∈ freeMats s.m, ∃ (k : Nat) (lr : LayerInfo), s.m.layers[k]? = some lr ∧ i ∈ lr.factors := by
    intro i hi
    obtain ⟨k, hk⟩ := Option.ne_none_iff_exists'.mp (hr.factor i hi)
    obtain ⟨-, lr, h1, h2⟩ := H.owner i k hk
    exact ⟨k, lr, h1, h2⟩
  obtain ⟨m1, a1, a2, a3, a4, a5, a6⟩ := H.assigns dr (freeMats s.m) s.m (by
    intro i hi hn
    obtain ⟨k, lr, h1, h2⟩ := hfac i hi
    exact ⟨k, lr, h1, h2, hr.mat i hi hn k lr h1 h2⟩) rfl rfl H.fct
  obtain ⟨m2, b1, b2, b3, b4, b5⟩ := H.lassigns dr (freeLbdas s.m) m1 (by
    intro k hk hn
    rw [a4] at hn
    have hlt : k < s.m.layers.length := by
      simp only [freeLbdas, List.mem_filter, List.mem_range] at hk
      exact hk.1
    exact ⟨_, List.getElem?_eq_getElem hlt, hr.lbda k hk hn _ (List.getElem?_eq_getElem hlt)⟩) a3 (by
    intro k g hg lr hlr
    rw [a4] at hg
    exact H.lfct k lr g hlr hg)
  have hf : ∀ i ∈ freeMats s.m, ∃ f, m2.fct i = some f ∧ GoodFct s i f := by
    intro i hi
    obtain ⟨f, hf⟩ := Option.ne_none_iff_exists'.mp (a6 i hi)
    exact ⟨f, by rw [b3]; exact hf, a2 i f hf⟩
  have hlf : ∀ k ∈ freeLbdas s.m, ∃ g, m2.lfct k = some g ∧ GoodLfct s k g := by
    intro k hk
    obtain ⟨g, hg⟩ := Option.ne_none_iff_exists'.mp (b5 k hk)
    exact ⟨g, hg, b2 k g hg⟩
  have hH := H.healthy hc hf hlf
  obtain ⟨m', c1, ⟨c2, c3⟩, c4, c5⟩ := infer_completes (genericEnv (s.wiring dr)) S cw bmin eps bmax ps fx hc.window hc.print
    s.m m1 m2 H.nodup_free
    (by
      intro i hi
      obtain ⟨k, lr, h1, h2⟩ := hfac i hi
      obtain ⟨lom, hlom⟩ := H.modelOf_factor h1 h2
      rw [hlom]
      refine ⟨by simp, ?_⟩
      cases lom <;> decide) a1 b1 _ ⟨H.world, ⟨fun _ _ => rfl, fun _ _ => rfl, fun _ _ _ _ _ _ => ⟨rfl, rfl, fun _ _ => rfl, fun _ => rfl⟩⟩⟩
    hH (H.annealOK hc hf)
    (by
      intro i hi f hfi t w w' hI hr j _
      obtain ⟨f', h1, h2⟩ := hf i hi
      rw [h1] at hfi
      cases hfi
      obtain ⟨w1, e1, -, -, e4⟩ := H.keeps_mat dr hi h2 t hI
      have : (genericEnv (s.wiring dr)).runMat f i t w = .ok w1 := e1
      rw [this] at hr
      cases hr
      exact e4 j)
    (by
      intro k hk g hg t w w' hI hr j _
      obtain ⟨g', h1, h2⟩ := hlf k hk
      rw [h1] at hg
      cases hg
      obtain ⟨w1, e1, -, -, e4⟩ := H.keeps_lbda dr hk h2 t hI
      have : (genericEnv (s.wiring dr)).runLbda g k t w = .ok w1 := e1
      rw [this] at hr
      cases hr
      rw [e4])
  obtain ⟨d1, n1, n2, d2, d3, d4, d5⟩ := infer_static H.nodup_free (fun t i hi => hc.perm t _ i hi) c1
  have hn1 : n1 = m1 := by rw [a1] at d2; exact (Except.ok.inj d2).symm
  have hn2 : n2 = m2 := by rw [hn1, b1] at d3; exact (Except.ok.inj d3).symm
  subst hn1 hn2
  refine ⟨m', c1, c2, c3, d1, ?_, ?_, ?_, ?_, ?_, ?_, ?_⟩
  · intro i f h; rw [d4, b3] at h; exact a2 i f h
  · intro k g h; rw [d5] at h; exact b2 k g h
  · intro i f h; rw [d4, b3]; exact a5 i f h
  · intro i hi; rw [d4, b3]; exact a6 i hi
  · intro k hk; rw [d5]; exact b5 k hk
  · intro i hi
    obtain ⟨tr, t1, t2, t3⟩ := c4 i hi
    refine ⟨tr, t1, t2, ?_⟩
    intro idx hidx
    rw [t2] at hidx
    obtain ⟨k, lr, g1, g2⟩ := hfac i hi
    match idx, hidx with
    | t :: idx, hidx =>
      obtain ⟨w, ⟨hIw, -⟩, hs, he⟩ := t3 t hidx.1
      rw [he]
      obtain ⟨L', hL'⟩ := hIw.facs k lr g1
      exact (hL' _ (w.mat i) (by rw [List.getElem?_map, (H.position g2).1]; rfl)).2 idx (by rw [hs]; exact hidx.2)
  · intro k hk
    obtain ⟨tr, w0, t1, t2, ⟨i0, -⟩, t3⟩ := c5 k hk
    have hlt : k < s.m.layers.length := by
      simp only [freeLbdas, List.mem_filter, List.mem_range] at hk
      exact hk.1
    obtain ⟨y0, h0⟩ := i0.lbda k hlt
    refine ⟨tr, t1, t2, fun t ht => ?_⟩
    obtain ⟨w, ⟨iw, -⟩, hr⟩ := t3 t ht
    obtain ⟨y, hy⟩ := iw.lbda k hlt
    exact ⟨y, by rw [hr (by rw [h0, hy]; rfl), hy]⟩

theorem no_extra (H : s.Sound) {dr : Draws} {m' : Mach Sampler LbdaUpdate} (hl : m'.layers = s.m.layers) {i : Nat}
    {f : Option Sampler} {e : Option (Nat × Sampler)} (h : getSampler (s.wiring dr) m' i = .ok (f, e)) : e = none := by
  rw [getSampler] at h
  simp only at h
  rw [bind_ok] at h
  obtain ⟨g, -, h⟩ := h
  have hq : ((m'.layerOf i).bind fun k => m'.layers[k]?).bind LayerInfo.q = none := by
    cases h1 : m'.layerOf i with
    | none => rfl
    | some k =>
      show (m'.layers[k]?).bind LayerInfo.q = none
      rw [hl]
      cases h2 : s.m.layers[k]? with
      | none => rfl
      | some lr => exact (H.factors k lr h2).2
  rw [hq] at h
  split at h <;> (rw [pure_ok] at h; cases h; rfl)

/-- if functions have been assigned to all of a list of matrices, `get_sampling_fct` succeeded for those without -/
theorem assigned_all (H : s.Sound) {dr : Draws} (ks : List Nat) : ∀ {m' m'' : Mach Sampler LbdaUpdate},
    m'.layers = s.m.layers → m'.layerOf = s.m.layerOf → ks.foldlM (assignFct (genericEnv (s.wiring dr))) m' = .ok m'' →
    ∀ i ∈ ks, m'.fct i = none → ∃ n : Mach Sampler LbdaUpdate, n.layers = s.m.layers ∧ n.layerOf = s.m.layerOf ∧
      ∃ r, getSampler (s.wiring dr) n i = .ok r := by
  induction ks with
  | nil => intro m' m'' _ _ _ i hi; simp at hi
  | cons k ks ih =>
    intro m' m'' hl ho h i hi hn
    rw [List.foldlM_cons, bind_ok] at h
    obtain ⟨m1, h1, h⟩ := h
    obtain ⟨st, -⟩ := assignFct_keeps h1
    by_cases hik : i = k
    · subst hik
      rw [assignFct, hn] at h1
      simp only at h1
      rw [bind_ok] at h1
      obtain ⟨r, h1, -⟩ := h1
      exact ⟨m', hl, ho, r, h1⟩
    · refine ih (st.layers.trans hl) (st.layerOf.trans ho) h i ((List.mem_cons.mp hi).resolve_left hik) ?_
      rw [assignFct] at h1
      split at h1
      · cases h1; exact hn
      · rw [bind_ok] at h1
        obtain ⟨⟨f, e⟩, h1, h2⟩ := h1
        obtain rfl := H.no_extra hl h1
        rw [pure_ok] at h2
        rw [← h2]
        simpa [upd, hik] using hn

theorem lassigned_all {dr : Draws} (ks : List Nat) : ∀ {m' m'' : Mach Sampler LbdaUpdate},
    m'.layers = s.m.layers → ks.foldlM (assignLfct (genericEnv (s.wiring dr))) m' = .ok m'' →
    ∀ k ∈ ks, m'.lfct k = none → ∃ n : Mach Sampler LbdaUpdate, n.layers = s.m.layers ∧ ∃ r, getUpdate n k = .ok r := by
  induction ks with
  | nil => intro m' m'' _ _ i hi; simp at hi
  | cons k ks ih =>
    intro m' m'' hl h i hi hn
    rw [List.foldlM_cons, bind_ok] at h
    obtain ⟨m1, h1, h⟩ := h
    obtain ⟨st, -⟩ := assignLfct_keeps h1
    by_cases hik : i = k
    · subst hik
      rw [assignLfct, hn] at h1
      simp only at h1
      rw [bind_ok] at h1
      obtain ⟨r, h1, -⟩ := h1
      exact ⟨m', hl, r, h1⟩
    · refine ih (st.layers.trans hl) h i ((List.mem_cons.mp hi).resolve_left hik) ?_
      rw [assignLfct] at h1
      split at h1
      · cases h1; exact hn
      · rw [bind_ok] at h1
        obtain ⟨g, h1, h2⟩ := h1
        rw [pure_ok] at h2
        rw [← h2]
        simpa [upd, hik] using hn

theorem lfct_fold {F G : Type} {env : Env F G} (ks : List Nat) : ∀ {m m' : Mach F G},
    ks.foldlM (assignFct env) m = .ok m' → m'.lfct = m.lfct := by
  induction ks with
  | nil => intro m m' h; cases h; rfl
  | cons k ks ih =>
    intro m m' h
    rw [List.foldlM_cons, bind_ok] at h
    obtain ⟨m1, h1, h⟩ := h
    rw [ih h]
    rw [assignFct] at h1
    split at h1
    · cases h1; rfl
    · rw [bind_ok] at h1
      obtain ⟨⟨f, e⟩, -, h1⟩ := h1
      cases e <;> (rw [pure_ok] at h1; rw [← h1])

/-- inference returns only in a machine that is ready -/
theorem infer_ready (H : s.Sound) {S cw : Nat} {eps : ℝ} {bmin : Nat} {bmax : Int} {ps fx : Nat} {dr : Draws}
    (hp : ∀ t l, ∀ i ∈ dr.perm t l, i ∈ l) {m' : Mach Sampler LbdaUpdate}
    (h : LFM.infer (genericEnv (s.wiring dr)) S cw eps bmin bmax ps fx s.m = .ok m') : Ready s := by
  obtain ⟨m1, m2, m3, m4, h1, h2, h3, h4, -⟩ := infer_phases h
  have k1 := fold_keeps (fun a i b => assignFct_keeps) h1
  have k2 := fold_keeps (fun a i b => assignLfct_keeps) h2
  have e2 := k1.1.trans k2.1
  have kb := burn_in_keeps (fun t i hi => hp t _ i hi) h3
  refine ⟨fun i hi hn => ?_, fun i hi hn k lr hk hi' => ?_, fun k hk hn lr hlr => ?_⟩
  · have hlo3 : m3.layerOf = s.m.layerOf := by rw [kb]; exact e2.layerOf
    have : modelOf m3 i = none := by rw [modelOf, hlo3, hn]; rfl
    rw [allocMats_error _ ⟨i, hi, this⟩] at h4
    cases h4
  · obtain ⟨lom, hlom⟩ := H.model k lr hk
    obtain ⟨n, n1, n2, r, hr⟩ := H.assigned_all (freeMats s.m) rfl rfl h1 i hi hn
    obtain ⟨ms, ps, q1, q2, q3⟩ := H.getSampler_eq dr n1 n2 hk hi' hlom
    by_contra hc
    obtain ⟨e, he⟩ := family_fails lom ps ms (by
      rw [q1]
      rintro (h | ⟨h, rfl⟩)
      · exact hc (.inl h)
      · exact hc (.inr ⟨h, List.length_eq_zero_iff.mp q2.symm⟩)) (lr.factors.idxOf i) (lr.factors.idxOf i)
      (n.bernoulli_prior i)
    rw [q3, he] at hr
    cases hr
  · obtain ⟨n, n1, r, hr⟩ := lassigned_all (s := s) (freeLbdas s.m) (k1.1.layers) h2 k hk (by rw [lfct_fold _ h1]; exact hn)
    by_contra hc
    push Not at hc
    obtain ⟨lom, hlom⟩ := H.model k lr hlr
    obtain ⟨e, he⟩ := not_update (model := lr.model) hc.1 hc.2 (by rw [hlom]; cases lom <;> decide)
    rw [getUpdate, n1, hlr] at hr
    simp only [he] at hr
    cases hr

end Workshop.Sound

end LFM

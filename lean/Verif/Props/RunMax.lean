import Verif.Lemmas.Special
import Mathlib.Data.List.GetD

/-!
# Properties: inference in a machine with a MAX-AND layer
-/

namespace LFM

open Spec

/-- legal states of such a machine: `L` latent dimensions, `L + 1` lambdas between 0 and 1 of which the last is the
smallest, and the table of ratios of these lambdas -/
structure MaxWorld (z u x N D L : Nat) (X : Arr Int) (w : World) : Prop where
  shapeZ : (w.mat z).val.shape = [N, L]
  shapeU : (w.mat u).val.shape = [D, L]
  pmZ : PMArr (w.mat z).val
  pmU : PMArr (w.mat u).val
  data : (w.mat x).val = X
  lbda : ∃ ls : List ℝ, w.lbda 0 = .vector (ls.map .fin) ∧ ls.length = L + 1 ∧
    (∀ l < L + 1, 0 < ls.getD l 0 ∧ ls.getD l 0 < 1 ∧ ls.getD L 0 ≤ ls.getD l 0) ∧
    IsRatioTable L (listArr ls) (w.ratios 0)

/-- sampling functions of the two factors -/
def GoodMax (z u i : Nat) (s : Sampler) : Prop := (i = z → s = .maxAnd [0, 1]) ∧ (i = u → s = .maxAnd [1, 0])

namespace TwoFactors

variable {wr : SpecialWiring} {m : Mach Sampler LbdaUpdate} {lr : LayerInfo} {z u x N D L : Nat}

/-- the factors are assigned the MAX-AND sampler -/
theorem max_getSampler (H : TwoFactors wr m lr "MAX-AND" z u x) {m' : Mach Sampler LbdaUpdate} (hl : m'.layers = m.layers)
    (ho : m'.layerOf = m.layerOf) {i : Nat} (hi : i = z ∨ i = u) :
    ∃ s, getSampler wr.toWiring m' i = .ok (some s, none) ∧ GoodMax z u i s := by
  have hm : get_relatives_models (some "MAX-AND") 2 [] = .ok (some "MAX_AND_2D", none, none) := rfl
  rcases hi with rfl | rfl
  · obtain ⟨a, b, ha, hb, he⟩ := H.getSampler_eq hl ho H.layerZ H.parentsZ
    refine ⟨.maxAnd [0, 1], ?_, fun _ => rfl, fun h => absurd h H.ne⟩
    have h0 : siblings [a, b] 0 = [b] := by simp [siblings]
    rw [he]
    simp [get_sampling_fct, hm, H.factors, H.axisZ, h0, hb, bind, Except.bind, pure, Except.pure]
  · obtain ⟨a, b, ha, hb, he⟩ := H.getSampler_eq hl ho H.layerU H.parentsU
    refine ⟨.maxAnd [1, 0], ?_, fun h => absurd h H.ne.symm, fun _ => rfl⟩
    have h0 : siblings [a, b] 1 = [a] := by simp [siblings]
    have h1 : List.idxOf i [z, i] = 1 := by simp [List.idxOf_cons, H.ne]
    rw [he]
    simp [get_sampling_fct, hm, H.factors, H.axisU, h0, ha, h1, bind, Except.bind, pure, Except.pure]

theorem max_getUpdate (H : TwoFactors wr m lr "MAX-AND" z u x) {m' : Mach Sampler LbdaUpdate} (hl : m'.layers = m.layers) :
    getUpdate m' 0 = .ok .max_and_2d := by
  rw [getUpdate, hl, H.layers]
  simp [H.model, H.factors, get_update_fct]

/-- one call of a sampling function -/
theorem max_runs (H : TwoFactors wr m lr "MAX-AND" z u x) {X : Arr Int} (hX : X.shape = [N, D]) {i : Nat}
    (hi : i = z ∨ i = u) {s : Sampler} (hs : GoodMax z u i s) (t : Nat) {w : World} (hw : MaxWorld z u x N D L X w) :
    ∃ R, runSpecial wr s i t w = .ok (w.setVal i R) ∧ R.shape = (w.mat i).val.shape ∧
      (PMArr (w.mat i).val → PMArr R) ∧ ∀ idx, (w.mat i).fixed_entries idx = 1 → R idx = (w.mat i).val idx := by
  obtain ⟨ls, hl, -⟩ := hw.lbda
  have hlayer : m.layerOf i = some 0 := by rcases hi with rfl | rfl; exacts [H.layerZ, H.layerU]
  have key : ∀ j order, siblingIds wr.toWiring lr i = [j] → s = .maxAnd order → order.length = 2 →
      ∃ R, runSpecial wr s i t w = .ok (w.setVal i R) ∧ R.shape = (w.mat i).val.shape ∧
      (PMArr (w.mat i).val → PMArr R) ∧ ∀ idx, (w.mat i).fixed_entries idx = 1 → R idx = (w.mat i).val idx := by
    intro j order hj ho hlen
    refine ⟨draw_MAX_AND_2D (w.mat i).val (w.mat i).fixed_entries (w.mat j).val (X.transpose order)
      (wr.argsort (ls.dropLast.map fun x => -x)) (w.ratios 0) (wr.rnd t i), ?_, ?_⟩
    · rw [runSpecial, H.layer hlayer, ho]
      simp only [hj, hl, floats_fin]
      rw [H.child, hw.data, npTranspose, if_pos (by rw [hX]; exact hlen)]
      rfl
    · rw [draw_MAX_AND_2D_eq]
      obtain ⟨h1, h2⟩ := sweep_entry (fun Z i => (posterior_score_MAX_AND_2D (Z.row (i0 i)) (w.mat j).val
        ((X.transpose order).row (i0 i)) (i1 i) (wr.argsort (ls.dropLast.map fun x => -x)) (w.ratios 0) : ℝ))
        (w.mat i).fixed_entries (wr.rnd t i) (tasks2 ((w.mat i).val.dim 0) ((w.mat i).val.dim 1)) (w.mat i).val
      exact ⟨h1, fun hp idx hidx => (h2 idx).2.1 (hp idx (by rwa [h1] at hidx)), fun idx => (h2 idx).1⟩
  rcases hi with rfl | rfl
  · exact key u [0, 1] H.sibZ (hs.1 rfl) rfl
  · exact key z [1, 0] H.sibU (hs.2 rfl) rfl

/-- one call of the parameter update -/
theorem max_runs_lbda (H : TwoFactors wr m lr "MAX-AND" z u x) {X : Arr Int} (t : Nat) {w : World}
    (hw : MaxWorld z u x N D L X w) : ∃ v r, runSpecialLbda wr .max_and_2d 0 t w =
      .ok { w with lbda := upd w.lbda 0 v, ratios := upd w.ratios 0 r } ∧ v.kind = (w.lbda 0).kind ∧
      MaxWorld z u x N D L X { w with lbda := upd w.lbda 0 v, ratios := upd w.ratios 0 r } := by
  obtain ⟨ls, hl, hlen, -⟩ := hw.lbda
  obtain ⟨S, new, ratios, hrun, hshape, -, -, -, -, hval, -⟩ :=
    C29_lambda_attribution N D L (w.mat z).val (w.mat u).val X (listArr ls) hw.shapeZ hw.shapeU (by simp [listArr, hlen])
  have hdim : new.dim 0 = L + 1 := by simp [Arr.dim, hshape]
  have hv : arrLVal new = .vector (((List.range (L + 1)).map fun l => new [l]).map .fin) := by
    rw [arrLVal, hdim, List.map_map]; rfl
  have hget : ∀ l < L + 1, ((List.range (L + 1)).map fun l => new [l]).getD l 0 = new [l] := by
    intro l hl
    rw [List.getD_eq_getElem _ _ (by simpa using hl)]
    simp
  refine ⟨arrLVal new, ratios, ?_, ?_, ⟨hw.shapeZ, hw.shapeU, hw.pmZ, hw.pmU, hw.data,
    (List.range (L + 1)).map fun l => new [l], ?_, by simp, ?_, ?_⟩⟩
  · have : wr.layers[0]?.map LayerInfo.factors = some [z, u] := by
      rw [H.wrLayers, H.layers]; simp [H.factors]
    rw [runSpecialLbda]
    simp only [this, hl, floats_fin]
    rw [H.child, hw.data, hrun]
    rfl
  · rw [hv, hl]
    simp [LVal.kind, hlen]
  · simp [upd, hv]
  · intro l hl
    rw [hget l hl, hget L (by omega)]
    exact hval l hl
  · have h := (C30_ratio_table L new fun i hi => ⟨(hval i hi).1, (hval i hi).2.1⟩).1
    rw [← max_ratios hw.shapeZ hrun] at h
    simp only [upd, if_true]
    refine ⟨h.1, fun i hi j hj => ?_⟩
    have e : ∀ l < L + 1, listArr ((List.range (L + 1)).map fun l => new [l]) [l] = new [l] := fun l hl => hget l hl
    rw [e i hi, e j hj]
    exact h.2 i hi j hj

theorem max_keeps (H : TwoFactors wr m lr "MAX-AND" z u x) {X : Arr Int} (hX : X.shape = [N, D]) {i : Nat}
    (hi : i ∈ freeMats m) {s : Sampler} (hs : GoodMax z u i s) (t : Nat) {w : World}
    (hw : MaxWorld z u x N D L X w ∧ Kept m lr w) : ∃ w', runSpecial wr s i t w = .ok w' ∧
      (MaxWorld z u x N D L X w' ∧ Kept m lr w') ∧ w'.lbda = w.lbda ∧ ∀ j, (w'.mat j).val.shape = (w.mat j).val.shape := by
  obtain ⟨hw, hk⟩ := hw
  have hzu := H.free_mem (by decide) hi
  obtain ⟨R, h1, h2, h3, h4⟩ := H.max_runs hX hzu hs t hw
  have hshape : ∀ j, ((w.setVal i R).mat j).val.shape = (w.mat j).val.shape := by
    intro j
    by_cases hj : j = i
    · subst hj; simpa [World.setVal, upd] using h2
    · simp [World.setVal, upd, hj]
  have hpm : ∀ j, PMArr (w.mat j).val → PMArr ((w.setVal i R).mat j).val := by
    intro j hj
    by_cases hji : j = i
    · subst hji; simpa [World.setVal, upd] using h3 hj
    · simpa [World.setVal, upd, hji] using hj
  refine ⟨w.setVal i R, h1, ⟨⟨(hshape z).trans hw.shapeZ, (hshape u).trans hw.shapeU, hpm z hw.pmZ, hpm u hw.pmU, ?_,
    hw.lbda⟩, ⟨?_, hk.lbda, ?_⟩⟩, rfl, hshape⟩
  · have : x ≠ i := by rcases hzu with rfl | rfl; exacts [H.dataZ, H.dataU]
    simp [World.setVal, upd, this, hw.data]
  · intro j hj
    have : j ≠ i := fun h => hj (by rw [h, H.mem]; exact hzu)
    simp [World.setVal, upd, this, hk.others j hj]
  · intro a b j
    obtain ⟨k1, k2, k3, k4⟩ := hk.fixed a b j
    by_cases hj : j = i
    · subst hj
      refine ⟨?_, (hshape j).trans k2, ?_, fun h => absurd hi h⟩
      · simp [World.setVal, upd, k1]
      · intro idx hidx
        simp only [World.setVal, upd, if_true]
        rw [h4 idx (by rw [k1]; exact hidx), k3 idx hidx]
    · simpa [World.setVal, upd, hj] using ⟨k1, k2, k3, k4⟩

theorem max_keeps_lbda (H : TwoFactors wr m lr "MAX-AND" z u x) {X : Arr Int} {k : Nat} (hk : k ∈ freeLbdas m) (t : Nat)
    {w : World} (hw : MaxWorld z u x N D L X w ∧ Kept m lr w) : ∃ w', runSpecialLbda wr .max_and_2d k t w = .ok w' ∧
      (MaxWorld z u x N D L X w' ∧ Kept m lr w') ∧ (∀ k, (w'.lbda k).kind = (w.lbda k).kind) ∧ w'.mat = w.mat := by
  obtain ⟨hw, hkept⟩ := hw
  obtain rfl := H.free_lbda hk
  obtain ⟨v, r, h1, h2, h3⟩ := H.max_runs_lbda t hw
  refine ⟨_, h1, ⟨h3, ⟨hkept.others, ?_, hkept.fixed⟩⟩, ?_, rfl⟩
  · intro k' hk'
    have : k' ≠ 0 := fun h => hk' (h ▸ hk)
    simp [upd, this, hkept.lbda k' hk']
  · intro k'
    by_cases h : k' = 0
    · subst h; simp [upd, h2]
    · simp [upd, h]

end TwoFactors

/-- **C98**: inference in a machine with a single MAX-AND layer without automatic clean-up and annealing returns whatever
is drawn, from any state with binary factors, lambdas between 0 and 1 of which the last is the smallest, and their table
of ratios. Afterwards factors and all their samples are binary, lambdas and all their samples are `L + 1` numbers strictly between 0
and 1, the last the smallest, the table is that of the present lambdas; and what is fixed is unchanged. -/
theorem C98_max_infer {wr : SpecialWiring} {m : Mach Sampler LbdaUpdate} {lr : LayerInfo} {z u x N D L : Nat}
    (H : TwoFactors wr m lr "MAX-AND" z u x) {X : Arr Int} (hX : X.shape = [N, D])
    (hw : MaxWorld z u x N D L X m.world) (hc : lr.auto_clean = false) (hr : lr.auto_reset = false)
    (ha : m.anneal = false) (hfct : ∀ i s, m.fct i = some s → GoodMax z u i s)
    (hlfct : ∀ g, m.lfct 0 = some g → g = .max_and_2d)
    (S cw bmin : Nat) (eps : ℝ) (bmax : Int) (ps fx : Nat) (hcw : 1 ≤ cw) (hps : 1 ≤ ps) :
    ∃ m', infer (specialEnv wr) S cw eps bmin bmax ps fx m = .ok m' ∧
      (m'.world.mat z).val.shape = [N, L] ∧ (m'.world.mat u).val.shape = [D, L] ∧
      PMArr (m'.world.mat z).val ∧ PMArr (m'.world.mat u).val ∧
      (∃ ls : List ℝ, m'.world.lbda 0 = .vector (ls.map .fin) ∧ ls.length = L + 1 ∧
        (∀ l < L + 1, 0 < ls.getD l 0 ∧ ls.getD l 0 < 1 ∧ ls.getD L 0 ≤ ls.getD l 0) ∧
        IsRatioTable L (listArr ls) (m'.world.ratios 0)) ∧
      (∀ i ∉ freeMats m, m'.world.mat i = m.world.mat i) ∧
      (∀ k ∉ freeLbdas m, m'.world.lbda k = m.world.lbda k) ∧
      (∀ i idx, (m.world.mat i).fixed_entries idx = 1 → (m'.world.mat i).val idx = (m.world.mat i).val idx) ∧
      (∀ i ∈ freeMats m, ∃ tr, m'.trace i = some tr ∧ tr.shape = S :: (m.world.mat i).val.shape ∧ PMArr tr) ∧
      ∀ k ∈ freeLbdas m, ∃ tr, m'.ltrace k = some tr ∧ tr.len = S ∧ ∀ t < S, ∃ ls : List ℝ,
        tr.row t = some (.vector (ls.map .fin)) ∧ ls.length = L + 1 ∧
        ∀ l < L + 1, 0 < ls.getD l 0 ∧ ls.getD l 0 < 1 ∧ ls.getD L 0 ≤ ls.getD l 0 := by
  have hmem : ∀ i ∈ freeMats m, i = z ∨ i = u := fun i hi => H.free_mem (by decide) hi
  have hnd : (freeMats m).Nodup := by
    rw [H.free_eq (by decide), ← H.factors]; exact H.nodup.filter _
  obtain ⟨m1, a1, a2, a3, -, a5⟩ := assigns_good (specialEnv wr) (GoodMax z u) (freeMats m) m (by
    intro i hi m' hl ho
    obtain ⟨s, e1, e2⟩ := H.max_getSampler hl ho (hmem i hi)
    exact ⟨s, none, e1, e2, fun j g h => by cases h⟩) hfct
  have k1 := fold_keeps (fun a i b => assignFct_keeps) a1
  obtain ⟨m2, b1, b2, b3, -⟩ := lassigns_good (specialEnv wr) (· = .max_and_2d) (freeLbdas m)
    (fun k hk => H.free_lbda hk) m1 (fun m' hl => ⟨_, H.max_getUpdate (hl.trans k1.1.layers), rfl⟩)
    (by rw [a5]; exact hlfct)
  have hf : ∀ i ∈ freeMats m, ∃ s, m2.fct i = some s ∧ GoodMax z u i s := by
    intro i hi
    obtain ⟨s, hs⟩ := Option.ne_none_iff_exists'.mp (a3 i hi)
    exact ⟨s, by rw [b2]; exact hs, a2 i s hs⟩
  have hH : Healthy (specialEnv wr) (freeMats m) (freeLbdas m) m.layers m2.fct m2.lfct
      fun w => MaxWorld z u x N D L X w ∧ Kept m lr w := by
    refine ⟨fun t i hi => H.perm t _ i hi, ?_, ?_, ?_⟩
    · intro i hi
      obtain ⟨s, h1, h2⟩ := hf i hi
      refine ⟨s, h1, fun t w hw => ?_⟩
      obtain ⟨w', e1, e2, e3, -⟩ := H.max_keeps hX hi h2 t hw
      exact ⟨w', e1, e2, fun k => by rw [e3]⟩
    · intro k hk
      obtain ⟨g, h1, rfl⟩ := b3 k hk
      refine ⟨_, h1, fun t w hw => ?_⟩
      obtain ⟨w', e1, e2, e3, -⟩ := H.max_keeps_lbda hk t hw
      exact ⟨w', e1, e2, e3⟩
    · intro lr' hlr' reset clean w fs b hauto
      rw [H.layers, List.mem_singleton] at hlr'
      subst hlr'
      simp [hc, hr] at hauto
  obtain ⟨m', c1, ⟨c2, c3⟩, c4, c5⟩ := infer_completes (specialEnv wr) S cw bmin eps bmax ps fx hcw hps m m1 m2 hnd
    (by
      intro i hi
      have : m.layerOf i = some 0 := by rcases hmem i hi with rfl | rfl; exacts [H.layerZ, H.layerU]
      rw [H.modelOf_eq this]
      exact ⟨by simp, by decide⟩) a1 b1 _
    ⟨hw, ⟨fun _ _ => rfl, fun _ _ => rfl, fun _ _ _ => ⟨rfl, rfl, fun _ _ => rfl, fun _ => rfl⟩⟩⟩ hH (.inl ha)
    (by
      intro i hi f hfi t w w' hI hr j _
      obtain ⟨s, h1, h2⟩ := hf i hi
      rw [h1] at hfi
      cases hfi
      obtain ⟨w1, e1, -, -, e4⟩ := H.max_keeps hX hi h2 t hI
      have : (specialEnv wr).runMat f i t w = .ok w1 := e1
      rw [this] at hr
      cases hr
      exact e4 j)
    (by
      intro k hk g hg t w w' hI hr j _
      obtain ⟨s, h1, rfl⟩ := b3 k hk
      rw [h1] at hg
      cases hg
      obtain ⟨w1, e1, -, -, e4⟩ := H.max_keeps_lbda hk t hI
      have : (specialEnv wr).runLbda .max_and_2d k t w = .ok w1 := e1
      rw [this] at hr
      cases hr
      rw [e4])
  have hshapes : ∀ i, (m'.world.mat i).val.shape = (m.world.mat i).val.shape := fun i => (c3.fixed hc hr i).2.1
  refine ⟨m', c1, c2.shapeZ, c2.shapeU, c2.pmZ, c2.pmU, c2.lbda, fun i hi => (c3.fixed hc hr i).2.2.2 hi, c3.lbda,
    fun i idx => (c3.fixed hc hr i).2.2.1 idx, ?_, ?_⟩
  · intro i hi
    obtain ⟨tr, t1, t2, t3⟩ := c4 i hi
    refine ⟨tr, t1, by rw [t2, hshapes], ?_⟩
    intro idx hidx
    rw [t2] at hidx
    match idx, hidx with
    | t :: idx, hidx =>
      obtain ⟨w, ⟨hIw, -⟩, hs, he⟩ := t3 t hidx.1
      rw [he]
      have : PMArr (w.mat i).val := by rcases hmem i hi with rfl | rfl; exacts [hIw.pmZ, hIw.pmU]
      exact this idx (by rw [hs]; exact hidx.2)
  · intro k hk
    obtain ⟨tr, w0, t1, t2, ⟨i0, -⟩, t3⟩ := c5 k hk
    obtain rfl := H.free_lbda hk
    obtain ⟨l0, h0, n0, -⟩ := i0.lbda
    refine ⟨tr, t1, t2, fun t ht => ?_⟩
    obtain ⟨w, ⟨iw, -⟩, hr⟩ := t3 t ht
    obtain ⟨ls, hl, n1, hb, -⟩ := iw.lbda
    exact ⟨ls, by rw [hr (by rw [h0, hl]; simp [LVal.kind, n0, n1]), hl], n1, hb⟩

/-! ## The hypotheses are met -/

/-- a MAX-AND layer -/
def layerMax (auto_clean auto_reset : Bool) : LayerInfo := ⟨[0, 1], "MAX-AND", none, auto_clean, auto_reset⟩

/-- as a fresh layer with `L` latent dimensions on `3 x 2` data (machine.py:298-299, 514-516), with all entries of
factor 0 and none of factor 1 set; the last row of factor 0 is fixed -/
noncomputable def worldMax (L : Nat) : World where
  mat i := if i = 0 then ⟨Arr.full [3, L] 1, ⟨[3, L], fun idx => if idx.head? = some 2 then 1 else 0⟩⟩
    else if i = 1 then ⟨Arr.full [2, L] (-1), Arr.full [2, L] 0⟩
    else ⟨Arr.full [3, 2] 1, Arr.full [3, 2] 0⟩
  lbda _ := arrLVal (MaxLayer.init L).lbda
  ratios _ := (MaxLayer.init L).ratios

/-- attributes of this machine -/
noncomputable def wiringMax (ac ar : Bool) (rnd : Nat → Nat → Rnd) (perm : Nat → List Nat → List Nat)
    (argsort : List ℝ → List Nat) : SpecialWiring where
  toWiring := { wiring2 ac ar rnd perm with layers := [layerMax ac ar] }
  gamma _ := 1
  alpha _ := 3
  prior _ := 1 / 2
  argsort := argsort
  ibp _ _ := ⟨fun _ _ => 0, fun _ => 0, fun _ _ _ => 0⟩

/-- this machine before inference -/
noncomputable def machMax (L : Nat) (ac ar : Bool) (fixed : List Nat) : Mach Sampler LbdaUpdate :=
  { mach2 ac ar fixed with layers := [layerMax ac ar], world := worldMax L }

theorem worldMax_legal (L : Nat) : MaxWorld 0 1 2 3 2 L (Arr.full [3, 2] 1) (worldMax L) := by
  have hdim : (MaxLayer.init L).lbda.dim 0 = L + 1 := rfl
  have hv : ∀ l < L + 1, (MaxLayer.init L).lbda [l] = if l = L then 1 / 100 else 8 / 10 := by
    intro l _
    simp [MaxLayer.init]
  have hget : ∀ l < L + 1, ((List.range (L + 1)).map fun l => (MaxLayer.init L).lbda [l]).getD l 0 =
      (MaxLayer.init L).lbda [l] := by
    intro l hl
    rw [List.getD_eq_getElem _ _ (by simpa using hl)]
    simp
  refine ⟨rfl, rfl, fun _ _ => .inl rfl, fun _ _ => .inr rfl, rfl,
    (List.range (L + 1)).map fun l => (MaxLayer.init L).lbda [l], ?_, by simp, ?_, ?_⟩
  · show arrLVal _ = _
    rw [arrLVal, hdim, List.map_map]; rfl
  · intro l hl
    rw [hget l hl, hget L (by omega), hv l hl, hv L (by omega), if_pos rfl]
    split <;> norm_num
  · have h := (C30_table_current_partial L [] (by intro e he; cases he)).1
    refine ⟨h.1, fun i hi j hj => ?_⟩
    have e : ∀ l < L + 1, listArr ((List.range (L + 1)).map fun l => (MaxLayer.init L).lbda [l]) [l] =
      (MaxLayer.init L).lbda [l] := fun l hl => hget l hl
    rw [e i hi, e j hj]
    exact h.2 i hi j hj

/-- the hypotheses of `C98_max_infer` hold for this machine, whatever is drawn -/
theorem C98_hypotheses_met (L : Nat) (ac ar : Bool) (fixed : List Nat) (rnd : Nat → Nat → Rnd) (perm : Nat → List Nat → List Nat)
    (argsort : List ℝ → List Nat) (hp : ∀ t l, ∀ i ∈ perm t l, i ∈ l) :
    TwoFactors (wiringMax ac ar rnd perm argsort) (machMax L ac ar fixed) (layerMax ac ar) "MAX-AND" 0 1 2 ∧
    MaxWorld 0 1 2 3 2 L (Arr.full [3, 2] 1) (machMax L ac ar fixed).world ∧
    freeMats (machMax L ac ar []) = [0, 1] ∧ freeLbdas (machMax L ac ar fixed) = [0] := by
  refine ⟨⟨rfl, rfl, rfl, by decide, rfl, rfl, rfl, rfl, rfl, rfl, rfl, rfl, rfl, by decide, by decide, ?_, hp⟩,
    worldMax_legal L, rfl, rfl⟩
  intro i hi
  simp only [machMax, mach2, List.mem_singleton] at hi
  simp [machMax, mach2, hi]

/-! ## What is missing: annealing and clean-up -/

/-- **C98** (annealing): with annealing on, inference of a MAX-AND layer raises as soon as there is a burn-in turn -/
theorem C98_annealing_raises {wr : SpecialWiring} {m : Mach Sampler LbdaUpdate} {lr : LayerInfo} {z u x N D L : Nat}
    (H : TwoFactors wr m lr "MAX-AND" z u x) {X : Arr Int} (hX : X.shape = [N, D])
    (hw : MaxWorld z u x N D L X m.world) (hfree : 0 ∈ freeLbdas m)
    (ha : m.anneal = true) (hfct : ∀ i s, m.fct i = some s → GoodMax z u i s)
    (hlfct : ∀ g, m.lfct 0 = some g → g = .max_and_2d)
    (S cw bmin : Nat) (eps : ℝ) (bmax : Int) (ps : Nat) (hps : 1 ≤ ps) (hb : 1 ≤ bmin) :
    infer (specialEnv wr) S cw eps bmin bmax ps 0 m = .error .valueError := by
  have hmem : ∀ i ∈ freeMats m, i = z ∨ i = u := fun i hi => H.free_mem (by decide) hi
  obtain ⟨m1, a1, a2, a3, -, a5⟩ := assigns_good (specialEnv wr) (GoodMax z u) (freeMats m) m (by
    intro i hi m' hl ho
    obtain ⟨s, e1, e2⟩ := H.max_getSampler hl ho (hmem i hi)
    exact ⟨s, none, e1, e2, fun j g h => by cases h⟩) hfct
  have k1 := fold_keeps (fun a i b => assignFct_keeps) a1
  obtain ⟨m2, b1, b2, b3, -⟩ := lassigns_good (specialEnv wr) (· = .max_and_2d) (freeLbdas m)
    (fun k hk => H.free_lbda hk) m1 (fun m' hl => ⟨_, H.max_getUpdate (hl.trans k1.1.layers), rfl⟩)
    (by rw [a5]; exact hlfct)
  have k2 := fold_keeps (fun a i b => assignLfct_keeps) b1
  have hf : ∀ i ∈ freeMats m, ∃ s, m2.fct i = some s ∧ GoodMax z u i s := by
    intro i hi
    obtain ⟨s, hs⟩ := Option.ne_none_iff_exists'.mp (a3 i hi)
    exact ⟨s, by rw [b2]; exact hs, a2 i s hs⟩
  have hH : Healthy (specialEnv wr) (freeMats m) [] [] m2.fct m2.lfct
      fun w => MaxWorld z u x N D L X w ∧ Kept m lr w := by
    refine ⟨fun t i hi => H.perm t _ i hi, ?_, fun k hk => by simp at hk, fun lr hlr => by simp at hlr⟩
    intro i hi
    obtain ⟨s, h1, h2⟩ := hf i hi
    refine ⟨s, h1, fun t w hw => ?_⟩
    obtain ⟨w', e1, e2, e3, -⟩ := H.max_keeps hX hi h2 t hw
    exact ⟨w', e1, e2, fun k => by rw [e3]⟩
  obtain ⟨m3, hm3⟩ : ∃ m3, m3 = resetIndices (freeMats m) (freeLbdas m) m2 := ⟨_, rfl⟩
  have hw3 : m3.world = m.world := by rw [hm3]; show m2.world = _; rw [k2.2, k1.2]
  obtain ⟨w4, h4, ⟨i4, -⟩, -⟩ := hH.sampleMats (m := m3) (by rw [hm3]; rfl) (by
    rw [hw3]
    exact ⟨hw, ⟨fun _ _ => rfl, fun _ _ => rfl, fun _ _ _ => ⟨rfl, rfl, fun _ _ => rfl, fun _ => rfl⟩⟩⟩)
  have ha3 : m3.anneal = true := by
    rw [hm3]; show m2.anneal = _; rw [(k1.1.trans k2.1).anneal, ha]
  obtain ⟨ls, hls, -⟩ := i4.lbda
  have hsteps : ((freeLbdas m).mapM fun k => annealing bmin (w4.lbda k)) = (.error .valueError : Except Err (List (List ℝ))) := by
    obtain ⟨a, t, hat⟩ : ∃ a t, freeLbdas m = a :: t := by
      cases h : freeLbdas m with
      | nil => rw [h] at hfree; cases hfree
      | cons a t => exact ⟨a, t, rfl⟩
    obtain rfl : a = 0 := H.free_lbda (by rw [hat]; simp)
    rw [hat, List.mapM_cons, hls]
    rfl
  obtain ⟨b, rfl⟩ : ∃ b, bmin = b + 1 := ⟨bmin - 1, by omega⟩
  have hpre : preStep (specialEnv wr) (freeMats m) (freeLbdas m) (b + 1) ps 0 (b + 1 - b) [] m3 = .error .valueError := by
    rw [preStep, if_neg (by omega)]
    show (sampleMats _ _ m3 >>= _) = _
    rw [h4]
    show (if b + 1 - b > 0 then _ else _) = _
    rw [if_pos (by omega)]
    simp only [ha3, ne_eq, not_true_eq_false, if_false, Bool.true_eq_false]
    rw [annealingSteps, if_pos (by omega), hsteps]
    rfl
  rw [infer]
  simp only
  rw [a1]
  show ((freeLbdas m).foldlM (assignLfct _) m1 >>= _) = _
  rw [b1]
  show (burn_in _ _ _ _ _ _ _ _ _ (resetIndices (freeMats m) (freeLbdas m) m2) >>= _) = _
  rw [← hm3, burn_in, preLoop, hpre]
  rfl

/-- such a machine -/
theorem C98_annealing_met (L : Nat) (rnd : Nat → Nat → Rnd) (perm : Nat → List Nat → List Nat)
    (argsort : List ℝ → List Nat) (hp : ∀ t l, ∀ i ∈ perm t l, i ∈ l) (S cw bmin : Nat) (eps : ℝ) (bmax : Int)
    (ps : Nat) (hps : 1 ≤ ps) (hb : 1 ≤ bmin) :
    infer (specialEnv (wiringMax false false rnd perm argsort)) S cw eps bmin bmax ps 0
      { machMax L false false [] with anneal := true } = .error .valueError := by
  obtain ⟨h, hw, -, hl⟩ := C98_hypotheses_met L false false [] rnd perm argsort hp
  obtain ⟨m, hm⟩ : ∃ m, m = { machMax L false false [] with anneal := true } := ⟨_, rfl⟩
  have h' : TwoFactors (wiringMax false false rnd perm argsort) m (layerMax false false) "MAX-AND" 0 1 2 := by
    rw [hm]
    exact ⟨h.1, h.2, h.3, h.4, h.5, h.6, h.7, h.8, h.9, h.10, h.11, h.12, h.13, h.14, h.15, h.16, h.17⟩
  have hw' : MaxWorld 0 1 2 3 2 L (Arr.full [3, 2] 1) m.world := by rw [hm]; exact hw
  have hl' : 0 ∈ freeLbdas m := by
    have : freeLbdas m = freeLbdas (machMax L false false []) := by rw [hm]; rfl
    rw [this, hl]
    simp
  have ha : m.anneal = true := by rw [hm]
  have hf : m.fct = fun _ => none := by rw [hm]; rfl
  have hlf : m.lfct = fun _ => none := by rw [hm]; rfl
  rw [← hm]
  exact C98_annealing_raises h' rfl hw' hl' ha (fun i s h => by rw [hf] at h; cases h)
    (fun g h => by rw [hlf] at h; cases h) S cw bmin eps bmax ps hps hb

/-- **C98** (clean-up, for all states): when clean-up removes a latent dimension, lambdas and table of ratios stay as they
are: there are too many of them. -/
theorem C98_clean_misaligned {wr : SpecialWiring} {m : Mach Sampler LbdaUpdate} {lr : LayerInfo} {z u x N D L : Nat}
    (H : TwoFactors wr m lr "MAX-AND" z u x) {X : Arr Int} {w : World} (hw : MaxWorld z u x N D L X w) {fs : List Fac}
    (hc : clean_up_codes (lr.factors.map w.mat) false true = .ok (fs, true)) :
    ∃ L' < L, ((writeFactors w lr.factors fs).mat z).val.shape = [N, L'] ∧
      ((writeFactors w lr.factors fs).mat u).val.shape = [D, L'] ∧
      (∃ xs, (writeFactors w lr.factors fs).lbda 0 = .vector xs ∧ xs.length = L + 1 ∧ xs.length ≠ L' + 1) := by
  have hfac : lr.factors.map w.mat = [w.mat z, w.mat u] := by rw [H.factors]; rfl
  have hinv : (fs.length = 2 ∧ ∃ L', LegalFacs [N, D] L' fs ∧ L' ≤ L ∧ (true = true → L' < L)) := by
    refine clean_up_inv (reset := false) (clean := true) (fun fs b => fs.length = 2 ∧ ∃ L', LegalFacs [N, D] L' fs ∧
      L' ≤ L ∧ (b = true → L' < L)) ?_ ?_ ?_ hc
    · rintro l fs fs' b ⟨h1, L', h2, h3, h4⟩ hl - hrun
      have hne : fs ≠ [] := by rw [← List.length_pos_iff]; omega
      rw [h2.size hne] at hl
      change CleanAction.run (some .remove) l fs = _ at hrun
      simp only [CleanAction.run, Except.ok.injEq] at hrun
      subst hrun
      refine ⟨by simpa [remove_dimension] using h1, L' - 1, ?_, by omega, fun _ => by omega⟩
      intro j f hf
      simp only [remove_dimension, List.getElem?_map, Option.map_eq_some_iff] at hf
      obtain ⟨g, hg, rfl⟩ := hf
      obtain ⟨e1, e2⟩ := h2 j g hg
      exact PMArr.deleteCol e1 e2 hl
    · rintro l' l fs fs' b ⟨h1, L', h2, h3, h4⟩ - hl - hrun
      have hne : fs ≠ [] := by rw [← List.length_pos_iff]; omega
      rw [h2.size hne] at hl
      change CleanAction.run (some .remove) l fs = _ at hrun
      simp only [CleanAction.run, Except.ok.injEq] at hrun
      subst hrun
      refine ⟨by simpa [remove_dimension] using h1, L' - 1, ?_, by omega, fun _ => by omega⟩
      intro j f hf
      simp only [remove_dimension, List.getElem?_map, Option.map_eq_some_iff] at hf
      obtain ⟨g, hg, rfl⟩ := hf
      obtain ⟨e1, e2⟩ := h2 j g hg
      exact PMArr.deleteCol e1 e2 hl
    · refine ⟨by rw [hfac]; rfl, L, ?_, le_refl _, fun h => by cases h⟩
      intro j f hf
      rw [hfac] at hf
      match j, hf with
      | 0, hf =>
        simp only [List.getElem?_cons_zero, Option.some.injEq] at hf
        subst hf
        exact ⟨hw.shapeZ, hw.pmZ⟩
      | 1, hf =>
        simp only [List.getElem?_cons_succ, List.getElem?_cons_zero, Option.some.injEq] at hf
        subst hf
        exact ⟨hw.shapeU, hw.pmU⟩
  obtain ⟨h1, L', h2, -, h3⟩ := hinv
  obtain ⟨e1, -⟩ := writeFactors_mat lr.factors w fs H.nodup (by rw [H.factors]; exact h1)
  rw [H.factors] at e1 ⊢
  obtain ⟨ls, hl, hlen, -⟩ := hw.lbda
  refine ⟨L', h3 rfl, (h2 0 _ (e1 0 z rfl)).1, (h2 1 _ (e1 1 u rfl)).1, ls.map .fin, ?_, by simpa using hlen, ?_⟩
  · rw [writeFactors_lbda, hl]
  · have := h3 rfl
    simp only [List.length_map, hlen]
    omega

theorem maxStep_high (Z U X : Arr Int) (K : Nat) (hK : 0 < K) (s : MaxState) (h : ∀ l ∈ s.l_list, l < K) :
    (∀ l ∈ (maxStep Z U X s).l_list, l < K) ∧ (maxStep Z U X s).lbda.shape = s.lbda.shape ∧
    ∀ i, K ≤ i → (maxStep Z U X s).lbda [i] = s.lbda [i] := by
  refine ⟨fun l hl => h l (List.mem_of_mem_eraseIdx hl), rfl, fun i hi => ?_⟩
  have : ∀ k, s.l_list.getD k 0 < K := by
    intro k
    by_cases hk : k < s.l_list.length
    · rw [List.getD_eq_getElem _ _ hk]; exact h _ (List.getElem_mem _)
    · rw [List.getD_eq_default _ _ (by omega)]; exact hK
  simp only [maxStep, Arr.set]
  rw [if_neg]
  intro hc
  simp only [List.cons.injEq, and_true] at hc
  have := this (argmax (List.zipWith (fun tp fp : Int => ((tp : ℝ) + 1) / (tp + fp + 2)) s.TP s.FP))
  omega

/-- **C98** (clean-up, afterwards): with `L' < L` latent dimensions and `L + 1` lambdas, a parameter update does not touch
lambda `L'`, and that is the one the table takes for the background from then on -/
theorem C98_stale_background (N L L' : Nat) (hL : L' < L) (Z U X : Arr Int) (lbda : Arr ℝ) (hZ : Z.shape = [N, L'])
    (hl : lbda.shape = [L + 1]) (new r : Arr ℝ) (h : lbda_MAX_AND 2 Z U X lbda = .ok (new, r)) :
    new.shape = [L + 1] ∧ new [L'] = lbda [L'] ∧ r.shape = [2, L' + 1, L' + 1] ∧
      ∀ i < L', r [0, i, L'] = Real.log (new [i] / lbda [L']) := by
  have hr := max_ratios hZ h
  have key : ∀ (xs : List Nat) (s : MaxState), (xs ≠ [] → 0 < L') → (∀ l ∈ s.l_list, l < L') →
      (xs.foldl (fun s _ => maxStep Z U X s) s).lbda.shape = s.lbda.shape ∧
      (xs.foldl (fun s _ => maxStep Z U X s) s).lbda [L'] = s.lbda [L'] := by
    intro xs
    induction xs with
    | nil => intro s _ _; exact ⟨rfl, rfl⟩
    | cons a xs ih =>
      intro s h0 hs
      have hK := h0 (by simp)
      obtain ⟨e1, e2, e3⟩ := maxStep_high Z U X L' hK s hs
      obtain ⟨f1, f2⟩ := ih (maxStep Z U X s) (fun _ => hK) e1
      rw [List.foldl_cons]
      exact ⟨f1.trans e2, f2.trans (e3 L' (le_refl _))⟩
  have hdim : Z.dim 1 = L' := by simp [Arr.dim, hZ]
  obtain ⟨f1, f2⟩ := key (List.range L') (maxInit Z U X lbda) (by
    intro h
    cases L' with
    | zero => simp at h
    | succ n => omega) (by
    intro l hl
    simp only [maxInit, hdim, List.mem_range] at hl
    exact hl)
  have hnew : new.shape = [L + 1] ∧ new [L'] = lbda [L'] := by
    unfold lbda_MAX_AND at h
    simp only [ne_eq, not_true_eq_false, if_false, hdim] at h
    simp only [bind, Except.bind, pure, Except.pure, throw, throwThe, MonadExceptOf.throw] at h
    generalize (List.range L').foldl (fun s _ => maxStep Z U X s) (maxInit Z U X lbda) = s at h f1 f2
    have hlast : s.lbda.dim 0 - 1 = L := by
      have : s.lbda.dim 0 = L + 1 := by rw [Arr.dim, f1]; show lbda.dim 0 = _; simp [Arr.dim, hl]
      omega
    rw [hlast] at h
    have hne : ∀ (a : Arr ℝ) (v : ℝ), (a.set [L] v) [L'] = a [L'] := by
      intro a v
      simp only [Arr.set]
      rw [if_neg]
      intro hc
      simp only [List.cons.injEq, and_true] at hc
      omega
    have hsh : s.lbda.shape = [L + 1] := f1.trans hl
    split_ifs at h <;>
    · injection h with h
      injection h with e1 e2
      rw [← e1]
      exact ⟨hsh, by simp only [hne]; exact f2⟩
  refine ⟨hnew.1, hnew.2, ?_⟩
  rw [hr]
  obtain ⟨g1, g2⟩ := compute_lbda_ratios_spec L' new
  refine ⟨g1, fun i hi => ?_⟩
  rw [g2 0 i L' (by omega) (by omega) (by omega), ← hnew.2]
  simp [ratioEntry]

/-- **C98** (witness): inference with `auto_reset` returns a machine with no latent dimensions but two lambdas: one of
a latent dimension that no longer exists and one for the background -/
theorem C98_clean_wrong (rnd : Nat → Nat → Rnd) (perm : Nat → List Nat → List Nat) (argsort : List ℝ → List Nat)
    (hp : ∀ t l, ∀ i ∈ perm t l, i ∈ l) :
    ∃ m', infer (specialEnv (wiringMax false true rnd perm argsort)) 0 15 0.001 0 0 10 0 (machMax 1 false true []) = .ok m' ∧
      (m'.world.mat 0).val.shape = [3, 0] ∧ (m'.world.mat 1).val.shape = [2, 0] ∧
      ∃ xs, m'.world.lbda 0 = .vector xs ∧ xs.length = 2 := by
  obtain ⟨H, hw, hf, hl⟩ := C98_hypotheses_met 1 false true [] rnd perm argsort hp
  obtain ⟨m, hm⟩ : ∃ m, m = machMax 1 false true [] := ⟨_, rfl⟩
  obtain ⟨wr, hwr⟩ : ∃ wr, wr = wiringMax false true rnd perm argsort := ⟨_, rfl⟩
  have hfct : m.fct = fun _ => none := by rw [hm]; rfl
  have hlfct : m.lfct = fun _ => none := by rw [hm]; rfl
  have hw0 : m.world = worldMax 1 := by rw [hm]; rfl
  have hly0 : m.layers = [layerMax false true] := by rw [hm]; rfl
  have hlo0 : m.layerOf = fun i => if i < 2 then some 0 else none := by rw [hm]; rfl
  rw [← hm, ← hwr] at H
  rw [← hm] at hf hl
  rw [← hm, ← hwr]
  clear hm hwr hw
  obtain ⟨m1, a1, -, -, -, a5⟩ := assigns_good (specialEnv wr) (GoodMax 0 1) (freeMats m) m (by
    intro i hi m' hl ho
    obtain ⟨s, e1, e2⟩ := H.max_getSampler hl ho (H.free_mem (by decide) hi)
    exact ⟨s, none, e1, e2, fun j g h => by cases h⟩) (fun i s h => by rw [hfct] at h; cases h)
  have k1 := fold_keeps (fun a i b => assignFct_keeps) a1
  obtain ⟨m2, b1, -, -, -⟩ := lassigns_good (specialEnv wr) (· = .max_and_2d) (freeLbdas m)
    (fun k hk => H.free_lbda hk) m1 (fun m' hl => ⟨_, H.max_getUpdate (hl.trans k1.1.layers), rfl⟩)
    (fun g h => by rw [a5, hlfct] at h; cases h)
  have k2 := fold_keeps (fun a i b => assignLfct_keeps) b1
  have hw : m2.world = worldMax 1 := by rw [k2.2, k1.2, hw0]
  have hly : m2.layers = [layerMax false true] := by rw [(k1.1.trans k2.1).layers, hly0]
  have hlo : m2.layerOf = fun i => if i < 2 then some 0 else none := by rw [(k1.1.trans k2.1).layerOf, hlo0]
  have hclean : clean_up_codes ((layerMax false true).factors.map (worldMax 1).mat) false true =
      .ok (remove_dimension 0 ((layerMax false true).factors.map (worldMax 1).mat), true) := by
    have h1 : cleanInactive (some .remove) 0 ((layerMax false true).factors.map (worldMax 1).mat) false =
        .ok (remove_dimension 0 ((layerMax false true).factors.map (worldMax 1).mat), true) := by
      rw [cleanInactive_hit (fs' := remove_dimension 0 ((layerMax false true).factors.map (worldMax 1).mat)) (by decide) (by decide) rfl]
      exact cleanInactive_end (by decide)
    rw [clean_up_codes]
    show (cleanInactive (some .remove) 0 _ false >>= _) = _
    rw [h1]
    exact cleanDup_end (by decide)
  obtain ⟨m3, hm3⟩ : ∃ m3 : Mach Sampler LbdaUpdate, m3 =
    { resetIndexL [0] { allocLbdas ((specialEnv wr).junk 0) 15 [0] (resetIndices [0, 1] [0] m2) with
        world := writeFactors (worldMax 1) [0, 1] (remove_dimension 0 ((layerMax false true).factors.map (worldMax 1).mat)) } with
      burn_in_iters := some 1 } := ⟨_, rfl⟩
  have hburn : burn_in (specialEnv wr) [0, 1] [0] 0.001 15 0 0 10 0 (resetIndices [0, 1] [0] m2) = .ok m3 := by
    rw [burn_in, preLoop]
    show mainLoop _ _ _ _ _ _ _ _ _ _ = _
    rw [mainLoop_eq (by decide) (by decide), windowTurn, if_neg (by decide)]
    simp only [bind, Except.bind, Bool.false_eq_true, if_false]
    rw [if_pos (by decide), stopStep]
    have hly' : (allocLbdas ((specialEnv wr).junk 0) 15 [0] (resetIndices [0, 1] [0] m2)).layers =
      [layerMax false true] := hly
    rw [hly', finalClean, if_pos (show (layerMax false true).auto_reset = true from rfl)]
    have hcl : cleanLayer false true (allocLbdas ((specialEnv wr).junk 0) 15 [0]
        (resetIndices [0, 1] [0] m2)) (layerMax false true) = .ok ({ allocLbdas ((specialEnv wr).junk 0)
        15 [0] (resetIndices [0, 1] [0] m2) with
        world := writeFactors (worldMax 1) [0, 1] (remove_dimension 0 ((layerMax false true).factors.map (worldMax 1).mat)) }, true) := by
      rw [cleanLayer]
      have hw' : (allocLbdas ((specialEnv wr).junk 0) 15 [0] (resetIndices [0, 1] [0] m2)).world = worldMax 1 := hw
      rw [hw', hclean]
      rfl
    rw [hcl, hm3]
    rfl
  obtain ⟨m4, h4⟩ := allocMats_total (env := specialEnv wr) (S := 0) [0, 1] (m := m3) (by
    intro i hi
    rw [hm3, modelOf]
    show ((m2.layerOf i).bind fun k => m2.layers[k]?.map LayerInfo.model) ≠ none
    rw [hlo, hly]
    simp only [List.mem_cons, List.not_mem_nil, or_false] at hi
    rcases hi with rfl | rfl <;> simp)
  have k4 := fold_keeps (fun a i b => allocMat_keeps) h4
  refine ⟨allocLbdasS (specialEnv wr).junkSampling 0 [0] m4, ?_, ?_⟩
  · rw [infer]
    simp only
    rw [a1]
    show ((freeLbdas _).foldlM (assignLfct _) m1 >>= _) = _
    rw [b1, hf, hl]
    show (burn_in _ [0, 1] [0] _ _ _ _ _ _ (resetIndices [0, 1] [0] m2) >>= _) = _
    rw [hburn]
    show ([0, 1].foldlM (allocMat _ 0) m3 >>= _) = _
    rw [h4]
    rfl
  · have e : (allocLbdasS (specialEnv wr).junkSampling 0 [0] m4).world = m3.world := k4.2
    rw [e, hm3]
    exact ⟨rfl, rfl, _, rfl, rfl⟩

end LFM

import Verif.Lemmas.AssembleLater

/-!
# Properties: machines that are put together by calls of the API

C102: for all machines of generic layers that can be built by `add_matrix`, `add_layer` and assignments of attributes, with
inferences in between, when inference returns and what holds afterwards. C103: layers that are added later.
-/

namespace LFM

open Spec

/-! ## C102 -/

/-- **C102**, at any time: whatever has been done to a machine, the factors of every layer are binary, as long as the axes of
the matrix below, and have the same number of latent dimensions; lambda is a finite number. -/
theorem C102_always_binary {s : Workshop} (h : Built s) (k : Nat) (lr : LayerInfo) (hk : s.m.layers[k]? = some lr) :
    lr.factors.length = (s.m.world.mat (s.child k)).val.shape.length ∧
    (∃ L, ∀ j i, lr.factors[j]? = some i →
      (s.m.world.mat i).val.shape = [(s.m.world.mat (s.child k)).val.shape.getD j 0, L] ∧ PMArr (s.m.world.mat i).val) ∧
    ∃ y, s.m.world.lbda k = .scalar (.fin y) := by
  have H := h.sound
  obtain ⟨L, hL⟩ := H.world.facs k lr hk
  exact ⟨(H.world.dims k lr hk).symm, ⟨L, fun j i hj => hL j (s.m.world.mat i) (by rw [List.getElem?_map, hj]; rfl)⟩,
    H.world.lbda k (List.getElem?_eq_some_iff.mp hk).1⟩

/-- **C102**, when inference returns: exactly if all matrices that are not fixed are factors, of layers with two factors or
with three and no layer on top, and all lambdas that are not fixed belong to layers with two or three factors; those to
which a function has been assigned in an earlier inference do not count. -/
theorem C102_infer_iff {s : Workshop} (h : Built s) (S cw : Nat) (eps : ℝ) (bmin : Nat) (bmax : Int) (ps fx : Nat)
    (dr : Draws) (hc : CallOK s cw ps fx dr) : (∃ s', s.infer S cw eps bmin bmax ps fx dr = .ok s') ↔ Ready s := by
  constructor
  · rintro ⟨s', h'⟩
    rw [Workshop.infer, bind_ok] at h'
    obtain ⟨m', h', -⟩ := h'
    exact h.sound.infer_ready hc.perm h'
  · intro hr
    obtain ⟨m', e, -⟩ := h.sound.infer_ok hr S cw eps bmin bmax ps fx dr hc
    exact ⟨{ s with m := m' }, by rw [Workshop.infer, e]; rfl⟩

/-- **C102**, what inference does: matrices that are no factors and lambdas that are fixed are unchanged, in layers without
automatic clean-up so are shapes, fixed factors and fixed entries; all samples of factors have entries in `{-1,1}`, all
samples of lambda are finite; layers, matrices and their attributes stay, and another inference can follow. -/
theorem C102_after_infer {s s' : Workshop} (h : Built s) (S cw : Nat) (eps : ℝ) (bmin : Nat) (bmax : Int) (ps fx : Nat)
    (dr : Draws) (hc : CallOK s cw ps fx dr) (hs : s.infer S cw eps bmin bmax ps fx dr = .ok s') :
    (∀ i, s.m.layerOf i = none → s'.m.world.mat i = s.m.world.mat i) ∧
    (∀ k ∉ freeLbdas s.m, s'.m.world.lbda k = s.m.world.lbda k) ∧
    (∀ (k : Nat) (lr : LayerInfo) (i : Nat), s.m.layers[k]? = some lr → ¬ lr.Cleans → i ∈ lr.factors →
      (s'.m.world.mat i).val.shape = (s.m.world.mat i).val.shape ∧
      (s.m.fixed i = true → s'.m.world.mat i = s.m.world.mat i) ∧
      ∀ idx, (s.m.world.mat i).fixed_entries idx = 1 → (s'.m.world.mat i).val idx = (s.m.world.mat i).val idx) ∧
    (∀ i ∈ freeMats s.m, ∃ tr, s'.m.trace i = some tr ∧ tr.shape = S :: (s'.m.world.mat i).val.shape ∧ PMArr tr) ∧
    (∀ k ∈ freeLbdas s.m, ∃ tr, s'.m.ltrace k = some tr ∧ tr.len = S ∧ ∀ t < S, ∃ y, tr.row t = some (.scalar (.fin y))) ∧
    s'.m.layers = s.m.layers ∧ s'.m.matrices = s.m.matrices ∧ s'.m.fixed = s.m.fixed ∧ s'.m.lfixed = s.m.lfixed ∧
    Ready s' := by
  rw [Workshop.infer, bind_ok] at hs
  obtain ⟨m', h1, h2⟩ := hs
  rw [pure_ok] at h2
  obtain ⟨m'', e1, e2, e3, e4, e5, e6, e7, e8, e9, e10, e11⟩ :=
    h.sound.infer_ok (h.sound.infer_ready hc.perm h1) S cw eps bmin bmax ps fx dr hc
  rw [h1] at e1
  obtain rfl := Except.ok.inj e1
  have hr := h.sound.infer_ready hc.perm h1
  have hfm : freeMats m' = freeMats s.m := by rw [freeMats, freeMats, members, members, e4.layers, e4.matrices, e4.fixed]
  have hfl : freeLbdas m' = freeLbdas s.m := by rw [freeLbdas, freeLbdas, e4.layers, e4.lfixed]
  rw [← h2]
  refine ⟨e3.others, e3.lbda, fun k lr i hk hn hi => ?_, e10, e11, e4.layers, e4.matrices, e4.fixed, e4.lfixed,
    ⟨?_, ?_, ?_⟩⟩
  · obtain ⟨f1, f2, f3, f4⟩ := e3.fixed k lr i hk hn hi
    refine ⟨f2, fun hf => f4 ?_, f3⟩
    intro hmem
    rw [freeMats, List.mem_filter, hf] at hmem
    simp at hmem
  · intro i hi
    have : s.m.layerOf i ≠ none := hr.factor i (by rw [← hfm]; exact hi)
    show m'.layerOf i ≠ none
    rw [e4.layerOf]; exact this
  · intro i hi hn
    exact absurd hn (e8 i (by rw [← hfm]; exact hi))
  · intro k hk hn
    exact absurd hn (e9 k (by rw [← hfl]; exact hk))

/-! ### The hypotheses are met -/

/-- draws for a call: everything is zero, matrices in their order -/
noncomputable def plainDraws : Draws := ⟨fun _ _ => 1, fun _ _ _ => 0, fun _ l => l, fun _ _ _ _ => .nan, fun _ _ _ => .nan, fun _ _ => 0⟩

/-- data of shape 3 x 2 -/
def data32 : Arr Int := ⟨[3, 2], fun idx => if idx = [0, 0] then 1 else if idx = [1, 1] then 0 else -1⟩

/-- `machine.add_matrix(data, fixed=True)` -/
noncomputable def shop1 : Workshop := Workshop.empty.addMatrix data32 true

/-- `machine.add_layer(child=data, latent_size=2, model='NXOR-AND')`: the data is inverted and the model is XOR-AND -/
noncomputable def shop2 : Workshop :=
  (shop1.setVal 0 (data32.map fun x => wrap8 (-x))).attach 0 [3, 2] 2 "XOR-AND" fun _ _ => 1

theorem shop1_built : Built shop1 := .act (.addMatrix data32 true) .empty trivial rfl

theorem shop2_built : Built shop2 := by
  refine .act (.addLayer (some 0) none 2 "NXOR-AND" fun _ _ => 1) shop1_built ⟨fun _ _ => .inl rfl, fun i hi => ?_, by simp⟩ ?_
  · cases hi
    have : (shop1.m.world.mat 0).val.shape = [3, 2] := rfl
    exact ⟨Nat.zero_lt_one, by rw [this]; simp⟩
  · have hm : canonical_form "NXOR-AND" = .ok ("XOR-AND", true, false) := by decide
    rw [Workshop.step, Workshop.addLayer]
    have hc : canonise_model "NXOR-AND" (Option.map (fun i => (shop1.m.world.mat i).val) (some 0)) =
        (some (data32.map fun x => wrap8 (-x)), .ok ("XOR-AND", true, false)) := by
      rw [canonise_model, hm]
      rfl
    rw [hc]
    rfl

/-- a layer on top of matrix 1, the first factor -/
theorem add_top {s : Workshop} (h : Built s) (hn : s.next = 3) (hl : s.m.layers.length = 1)
    (hs : (s.m.world.mat 1).val.shape = [3, 2]) (hp : s.parents 1 = []) :
    ∃ s', Built s' ∧ Reach s s' ∧ s'.parents 1 = [1] ∧ s'.m.fixed 0 = s.m.fixed 0 ∧ s'.m.matrices = s.m.matrices ∧
      s'.m.anneal = s.m.anneal ∧
      s'.m.layers = s.m.layers ++ [⟨[3, 4], "OR-AND", none, false, false⟩] := by
  have hleg : (UserAct.addLayer (some 1) none 1 "OR-AND" fun _ _ => -1).Legal s := by
    refine ⟨fun _ _ => .inr rfl, fun i hi => ?_, by simp⟩
    cases hi
    exact ⟨by omega, by rw [hs]; simp⟩
  have hm : canonical_form "OR-AND" = .ok ("OR-AND", false, false) := by decide
  have hc : canonise_model "OR-AND" (Option.map (fun i => (s.m.world.mat i).val) (some 1)) =
      (some (s.m.world.mat 1).val, .ok ("OR-AND", false, false)) := by
    rw [canonise_model, hm]
    rfl
  obtain ⟨s', hs'⟩ : ∃ s', s' = (s.setVal 1 (s.m.world.mat 1).val).attach 1 (s.m.world.mat 1).val.shape 1 "OR-AND"
    fun _ _ => -1 := ⟨_, rfl⟩
  have hstep : s.step (.addLayer (some 1) none 1 "OR-AND" fun _ _ => -1) = .ok s' := by
    rw [Workshop.step, Workshop.addLayer, hc, hs']
    rfl
  have hadd := Workshop.addFactors_spec s.m.layers.length 1 (fun _ _ => -1) (s.m.world.mat 1).val.shape 0
    (s.setVal 1 (s.m.world.mat 1).val)
  obtain ⟨a1, a2, a3, a4, a5, a6, a7, a8, a9⟩ := hadd
  refine ⟨s', .act _ h hleg hstep, .act _ .refl hleg hstep, ?_, ?_, ?_, ?_, ?_⟩
  · rw [hs']
    show upd (Workshop.addFactors s.m.layers.length 1 (fun _ _ => -1) (s.m.world.mat 1).val.shape 0
        (s.setVal 1 (s.m.world.mat 1).val)).parents 1
      ((Workshop.addFactors s.m.layers.length 1 (fun _ _ => -1) (s.m.world.mat 1).val.shape 0
        (s.setVal 1 (s.m.world.mat 1).val)).parents 1 ++ [s.m.layers.length]) 1 = _
    simp only [upd, if_true]
    rw [(a8 1 (.inl (by show 1 < s.next; omega))).2.2.2.2.2, hl]
    show s.parents 1 ++ [1] = _
    rw [hp]
    rfl
  · rw [hs']
    exact (a8 0 (.inl (by show 0 < s.next; omega))).2.2.2.1
  · rw [hs']; exact a3
  · rw [hs', hs]; rfl
  · rw [hs', hs]
    show s.m.layers ++ [⟨[s.next, s.next + 1], "OR-AND", none, false, false⟩] = _
    rw [hn]

/-- a machine of two layers of two factors each is ready -/
theorem ready_two {s : Workshop} (h : Built s) (hm : s.m.matrices = [0]) (hf : s.m.fixed 0 = true)
    (hl : ∀ (k : Nat) (lr : LayerInfo), s.m.layers[k]? = some lr → lr.factors.length = 2) : Ready s := by
  refine ⟨fun i hi => ?_, fun i hi _ k lr hk _ => .inl (hl k lr hk), fun k _ _ lr hk => .inl (hl k lr hk)⟩
  obtain ⟨h1, h2 | ⟨k, lr, hk, h2⟩⟩ := h.sound.mem_free.mp hi
  · rw [hm, List.mem_singleton] at h2
    subst h2
    rw [hf] at h1
    cases h1
  · rw [h.sound.layerOf k lr i hk h2]
    simp

theorem callOK_plain {s : Workshop} (ha : s.m.anneal = false)
    (hl : ∀ (k : Nat) (lr : LayerInfo), s.m.layers[k]? = some lr → ¬ lr.Cleans) : CallOK s 15 10 0 plainDraws :=
  ⟨by norm_num, by norm_num, fun _ _ _ h => h, fun k lr hk hc => absurd hc (hl k lr hk), .inl ha⟩

theorem layers_two {s : Workshop} {a b : LayerInfo} (h : s.m.layers = [a, b]) {P : LayerInfo → Prop} (ha : P a) (hb : P b) :
    ∀ (k : Nat) (lr : LayerInfo), s.m.layers[k]? = some lr → P lr := by
  intro k lr hk
  rw [h] at hk
  match k, hk with
  | 0, hk => cases hk; exact ha
  | 1, hk => cases hk; exact hb

/-- C102: data, a layer, another layer on top of a factor; inference returns -/
theorem C102_hypotheses_met : ∃ s s', Built s ∧ s.m.layers.length = 2 ∧ s.parents 1 = [1] ∧ CallOK s 15 10 0 plainDraws ∧
    Ready s ∧ s.infer 5 15 0.001 10 100 10 0 plainDraws = .ok s' := by
  obtain ⟨s, h1, -, h3, h4, h5, h6, h7⟩ := add_top shop2_built rfl rfl rfl rfl
  have hl : s.m.layers = [⟨[1, 2], "XOR-AND", none, false, false⟩, ⟨[3, 4], "OR-AND", none, false, false⟩] := h7
  have hr : Ready s := ready_two h1 h5 (h4.trans rfl) (layers_two hl rfl rfl)
  have hc : CallOK s 15 10 0 plainDraws := callOK_plain h6 (layers_two hl (by simp [LayerInfo.Cleans]) (by simp [LayerInfo.Cleans]))
  obtain ⟨s', hs'⟩ := (C102_infer_iff h1 5 15 0.001 10 100 10 0 plainDraws hc).mpr hr
  exact ⟨s, s', h1, by rw [hl]; rfl, h3, hc, hr, hs'⟩

/-- C102: a machine that is not ready: data that is not fixed -/
theorem C102_not_ready : ∃ s, Built s ∧ CallOK s 15 10 0 plainDraws ∧
    ¬ ∃ s', s.infer 5 15 0.001 10 100 10 0 plainDraws = .ok s' := by
  have h : Built (Workshop.empty.addMatrix data32 false) := .act (.addMatrix data32 false) .empty trivial rfl
  have hc : CallOK (Workshop.empty.addMatrix data32 false) 15 10 0 plainDraws := callOK_plain rfl fun k lr hk => by
    have : ([] : List LayerInfo)[k]? = some lr := hk
    simp at this
  refine ⟨_, h, hc, ?_⟩
  rw [C102_infer_iff h _ _ _ _ _ _ _ _ hc]
  intro hr
  exact hr.factor 0 (h.sound.mem_free.mpr ⟨rfl, .inl (by exact List.mem_singleton.mpr rfl)⟩) rfl

/-! ## C103 -/

/-- the worlds agree on what matrix `i` depends on in machine `s`: the factors of its layer, the matrix below, lambda, and
factors and lambdas of the layers on top -/
structure AgreeOn (s : Workshop) (i : Nat) (w w' : World) : Prop where
  own : ∀ (k : Nat) (lr : LayerInfo), s.m.layerOf i = some k → s.m.layers[k]? = some lr →
    (∀ j ∈ lr.factors, w'.mat j = w.mat j) ∧ (w'.mat (s.child k)).val = (w.mat (s.child k)).val ∧ w'.lbda k = w.lbda k
  top : ∀ p ∈ s.parents i, ∀ lr : LayerInfo, s.m.layers[p]? = some lr →
    (∀ j ∈ lr.factors, (w'.mat j).val = (w.mat j).val) ∧ w'.lbda p = w.lbda p

/-- **C103** is wrong: once a factor has been sampled in machine `s`, no layer that is put on top of it later ever takes part in
its updates: whatever is done afterwards (`s'`), its sampling function is the same and its new value does not depend on
matrices and lambdas other than those that it depended on in `s`. -/
theorem C103_later_layers_ignored {s s' : Workshop} (h : Built s) {i : Nat} {f : Sampler} (hf : s.m.fct i = some f)
    (hr : Reach s s') :
    s'.m.fct i = some f ∧ ∀ (dr : Draws) (t : Nat) (w w' : World), FitWorld s'.m.layers s'.child w →
      FitWorld s'.m.layers s'.child w' → AgreeOn s i w w' →
      ∃ R, runSampler (s'.wiring dr) f i t w = .ok (w.setVal i R) ∧ runSampler (s'.wiring dr) f i t w' = .ok (w'.setVal i R) := by
  have H := h.sound
  have H' := (h.reach hr).sound
  have E := hr.extends h
  refine ⟨E.fct i f hf, fun dr t w w' hw hw' ha => ?_⟩
  obtain ⟨k, lr, lom, h1, h2, h3, h4⟩ := H.fct i f hf
  obtain ⟨hlt, lr0, h2', hi⟩ := H.owner i k h1
  obtain rfl : lr = lr0 := by rw [h2] at h2'; exact Option.some.inj h2'
  obtain ⟨lr', e1, e2, e3⟩ := E.layers k lr h2
  have hi' : i ∈ lr'.factors := by rw [e2]; exact hi
  have hklt : k < s.m.layers.length := (List.getElem?_eq_some_iff.mp h2).1
  have hch : s'.child k = s.child k := E.child k hklt
  have h4' : FamilySampler lom lr'.factors.length (lr'.factors.idxOf i) (s'.parents i).length f := by
    rw [e2]; exact h4.mono (E.parents i hlt).length_le
  obtain ⟨R, r1, -⟩ := H'.runs_mat dr e1 hi' h4' t hw
  refine ⟨R, r1, ?_⟩
  obtain ⟨a1, a2, a3⟩ := ha.own k lr h1 h2
  have hk' : k < s'.m.layers.length := (List.getElem?_eq_some_iff.mp e1).1
  obtain ⟨y, hy⟩ := hw.lbda k hk'
  have hview : ∀ w : World, w.lbda k = .scalar (.fin y) → layerView (s'.wiring dr) w i =
      some (lr'.factors.map (memberAt (s'.wiring dr) w), lr'.factors.idxOf i, (w.mat (s'.child k)).val, y) := by
    intro w hy
    rw [layerView]
    have h1 : (s'.wiring dr).layerOf i = some k := H'.layerOf k lr' i e1 hi'
    simp only [h1]
    show (s'.m.layers[k]? >>= fun lr => (w.lbda k).float? >>= fun x => _) = _
    rw [e1, hy]
    rfl
  obtain ⟨pars, p1, p2, p3⟩ := H'.parents_view dr hw e1 hi'
  obtain ⟨pars', q1, q2, q3⟩ := H'.parents_view dr hw' e1 hi'
  have htake : pars.take (s.parents i).length = pars'.take (s.parents i).length := by
    obtain ⟨rest, hrest⟩ := E.parents i hlt
    rw [← hrest, List.mapM_append] at p1 q1
    have key : ∀ l : List Nat, (∀ p ∈ l, p ∈ s.parents i) →
        l.mapM (parentAt (s'.wiring dr) w) = l.mapM (parentAt (s'.wiring dr) w') := by
      intro l hl
      induction l with
      | nil => rfl
      | cons p l ih =>
        rw [List.mapM_cons, List.mapM_cons, ih fun q hq => hl q (by simp [hq])]
        have hp := hl p (by simp)
        have hplt := ((H.parents i p).mp hp).1
        obtain ⟨b1, b2⟩ := ha.top p hp _ (List.getElem?_eq_getElem hplt)
        obtain ⟨lp, c1, c2, c3⟩ := E.layers p _ (List.getElem?_eq_getElem hplt)
        have : parentAt (s'.wiring dr) w p = parentAt (s'.wiring dr) w' p := by
          show (s'.m.layers[p]? >>= fun lr => (w.lbda p).float? >>= fun x => some (⟨lr.model, lr.factors.map fun i => (w.mat i).val, x⟩ : ParentLayer)) =
            (s'.m.layers[p]? >>= fun lr => (w'.lbda p).float? >>= fun x => some (⟨lr.model, lr.factors.map fun i => (w'.mat i).val, x⟩ : ParentLayer))
          rw [c1, b2]
          have hm : (lp.factors.map fun i => (w.mat i).val) = lp.factors.map fun i => (w'.mat i).val :=
            List.map_congr_left fun j hj => (b1 j (by rw [← c2]; exact hj)).symm
          show ((w.lbda p).float? >>= fun x => some (⟨lp.model, lp.factors.map fun i => (w.mat i).val, x⟩ : ParentLayer)) =
            ((w.lbda p).float? >>= fun x => some (⟨lp.model, lp.factors.map fun i => (w'.mat i).val, x⟩ : ParentLayer))
          rw [hm]
        rw [this]
    have hlen : ∀ (l : List Nat) (w : World) (r : List ParentLayer), l.mapM (parentAt (s'.wiring dr) w) = some r → r.length = l.length := by
      intro l w
      induction l with
      | nil => intro r h; cases h; rfl
      | cons p l ih =>
        intro r h
        rw [List.mapM_cons] at h
        simp only [Option.bind_eq_bind, Option.bind_eq_some_iff, Option.pure_def, Option.some.injEq] at h
        obtain ⟨x, -, y, hy, rfl⟩ := h
        simp [ih y hy]
    simp only [Option.bind_eq_bind, Option.bind_eq_some_iff, Option.pure_def, Option.some.injEq] at p1 q1
    obtain ⟨x, hx, y, -, rfl⟩ := p1
    obtain ⟨x', hx', y', -, rfl⟩ := q1
    rw [key _ fun p hp => hp, hx'] at hx
    obtain rfl := Option.some.inj hx
    have := hlen _ _ _ hx'
    rw [← this, List.take_left', List.take_left']
    · rfl
    · rfl
  have hmem : ∀ j ∈ lr'.factors, memberAt (s'.wiring dr) w' j = memberAt (s'.wiring dr) w j := by
    intro j hj
    rw [memberAt, memberAt, a1 j (by rw [← e2]; exact hj)]
  have hn := (E.parents i hlt).length_le
  rw [runSampler, hview w hy] at r1
  have hp : ((s'.wiring dr).parents i).mapM (parentAt (s'.wiring dr) w) = some pars := p1
  have hq : ((s'.wiring dr).parents i).mapM (parentAt (s'.wiring dr) w') = some pars' := q1
  rw [hp] at r1
  rw [runSampler, hview w' (by rw [a3]; exact hy), hq]
  have hmap : lr'.factors.map (memberAt (s'.wiring dr) w') = lr'.factors.map (memberAt (s'.wiring dr) w) :=
    List.map_congr_left hmem
  simp only at r1 ⊢
  rw [bind_ok] at r1
  obtain ⟨v, v1, v2⟩ := r1
  rw [pure_ok] at v2
  have hv : v = R := by
    have := congrArg (fun w : World => (w.mat i).val) v2
    simpa [World.setVal, upd] using this
  rw [hmap, hmem i hi', hch, a2, ← family_prefix (h4) (memberAt (s'.wiring dr) w i) _ _ _ _ (by rw [p2]; exact hn) (by rw [q2]; exact hn) htake,
    ← hch, v1, hv]
  rfl

/-- **C103** is wrong, in terms of the API: after an inference, the updates of all matrices that were not fixed ignore
whatever is put on top of them later. -/
theorem C103_after_inference {s s1 s' : Workshop} (h : Built s) (S cw : Nat) (eps : ℝ) (bmin : Nat) (bmax : Int) (ps fx : Nat)
    (dr : Draws) (hc : CallOK s cw ps fx dr) (hs : s.infer S cw eps bmin bmax ps fx dr = .ok s1) (hr : Reach s1 s')
    (i : Nat) (hi : i ∈ freeMats s.m) :
    ∃ f, s'.m.fct i = some f ∧ ∀ (dr : Draws) (t : Nat) (w w' : World), FitWorld s'.m.layers s'.child w →
      FitWorld s'.m.layers s'.child w' → AgreeOn s1 i w w' →
      ∃ R, runSampler (s'.wiring dr) f i t w = .ok (w.setVal i R) ∧ runSampler (s'.wiring dr) f i t w' = .ok (w'.setVal i R) := by
  have hb : Built s1 := .act (.infer S cw eps bmin bmax ps fx dr) h hc hs
  rw [Workshop.infer, bind_ok] at hs
  obtain ⟨m', h1, h2⟩ := hs
  rw [pure_ok] at h2
  obtain ⟨m'', e1, e2, e3, e4, e5, e6, e7, e8, e9, e10, e11⟩ :=
    h.sound.infer_ok (h.sound.infer_ready hc.perm h1) S cw eps bmin bmax ps fx dr hc
  rw [h1] at e1
  obtain rfl := Except.ok.inj e1
  obtain ⟨f, hf⟩ := Option.ne_none_iff_exists'.mp (e8 i hi)
  have hf' : s1.m.fct i = some f := by rw [← h2]; exact hf
  exact ⟨f, C103_later_layers_ignored hb hf' hr⟩

/-- C103: the hypotheses are met: inference, then a layer on top of a factor, which is ready for inference again -/
theorem C103_hypotheses_met : ∃ s s1 s', Built s ∧ CallOK s 15 10 0 plainDraws ∧
    s.infer 5 15 0.001 10 100 10 0 plainDraws = .ok s1 ∧ 1 ∈ freeMats s.m ∧ s1.parents 1 = [] ∧ Reach s1 s' ∧
    s'.parents 1 = [1] ∧ Ready s' ∧ CallOK s' 15 10 0 plainDraws := by
  have hl : ∀ (k : Nat) (lr : LayerInfo), shop2.m.layers[k]? = some lr → lr = ⟨[1, 2], "XOR-AND", none, false, false⟩ := by
    intro k lr hk
    have hk' : [(⟨[1, 2], "XOR-AND", none, false, false⟩ : LayerInfo)][k]? = some lr := hk
    match k, hk' with
    | 0, hk' => cases hk'; rfl
  have hm : shop2.m.matrices = [0] := rfl
  have hf0 : shop2.m.fixed 0 = true := rfl
  have hc : CallOK shop2 15 10 0 plainDraws := callOK_plain rfl fun k lr hk => by
    rw [hl k lr hk]; simp [LayerInfo.Cleans]
  have hr : Ready shop2 := ready_two shop2_built hm hf0 fun k lr hk => by rw [hl k lr hk]; rfl
  obtain ⟨s1, hs1⟩ := (C102_infer_iff shop2_built 5 15 0.001 10 100 10 0 plainDraws hc).mpr hr
  have hb : Built s1 := .act (.infer 5 15 0.001 10 100 10 0 plainDraws) shop2_built hc hs1
  obtain ⟨-, -, c3, -, -, c6, c7, c8, c9, -⟩ := C102_after_infer shop2_built 5 15 0.001 10 100 10 0 plainDraws hc hs1
  have hst : s1.next = shop2.next ∧ s1.parents = shop2.parents ∧ s1.m.anneal = shop2.m.anneal := by
    rw [Workshop.infer, bind_ok] at hs1
    obtain ⟨m', h1, h2⟩ := hs1
    rw [pure_ok] at h2
    rw [← h2]
    exact ⟨rfl, rfl, (infer_static shop2_built.sound.nodup_free (fun t i hi => hc.perm t _ i hi) h1).1.anneal⟩
  have hp1 : s1.parents 1 = [] := by rw [hst.2.1]; rfl
  have h0 : shop2.m.layers[0]? = some ⟨[1, 2], "XOR-AND", none, false, false⟩ := rfl
  have hsh : (s1.m.world.mat 1).val.shape = [3, 2] :=
    (c3 0 _ 1 h0 (by simp [LayerInfo.Cleans]) (by simp)).1.trans rfl
  obtain ⟨s', k1, k2, k3, k4, k5, k6, k7⟩ := add_top hb (hst.1.trans rfl) (by rw [c6]; rfl) hsh hp1
  have hl2 : s'.m.layers = [⟨[1, 2], "XOR-AND", none, false, false⟩, ⟨[3, 4], "OR-AND", none, false, false⟩] := by
    rw [k7, c6]; rfl
  exact ⟨shop2, s1, s', shop2_built, hc, hs1, shop2_built.sound.mem_free.mpr ⟨rfl, .inr ⟨0, _, h0, by simp⟩⟩, hp1, k2, k3,
    ready_two k1 (by rw [k5, c7, hm]) (by rw [k4, c8, hf0]) (layers_two hl2 rfl rfl),
    callOK_plain (by rw [k6, hst.2.2]; rfl) (layers_two hl2 (by simp [LayerInfo.Cleans]) (by simp [LayerInfo.Cleans]))⟩

/-- **C103**, the part that holds: at its first inference a factor gets the function that `get_sampling_fct` makes for the
layers that are on top of it then, in the order of their addition; with one of them it reads factors and lambda of that
one, with more of the first two (C23 says how they enter). -/
theorem C103_layers_before_partial {s : Workshop} (h : Built s) (dr : Draws) {k i : Nat} {lr : LayerInfo}
    (hk : s.m.layers[k]? = some lr) (hi : i ∈ lr.factors) (h2 : lr.factors.length = 2) :
    ∃ f, getSampler (s.wiring dr) s.m i = .ok (some f, none) ∧
      get_sampling_fct none (some lr.model) (lr.factors.map fun j =>
          (⟨(s.m.world.mat j).val, (s.m.world.mat j).fixed_entries, s.childAxis j, s.m.bernoulli_prior j⟩ : Member))
        (s.childAxis i) (lr.factors.idxOf i) (s.m.bernoulli_prior i)
        ((s.parents i).filterMap fun p => (s.m.layers[p]?).map fun lp => (lp.model, lp.factors.length)) = .ok f ∧
      ((s.parents i).length = 1 → ∃ g o p, f = .onechild_oneparent g o p) ∧
      (2 ≤ (s.parents i).length → ∃ g o p, f = .onechild_twoparents g o p) := by
  have H := h.sound
  obtain ⟨lom, hlom⟩ := H.model k lr hk
  have hlr : (s.m.layerOf i).bind (fun k => s.m.layers[k]?) = some lr := by
    rw [H.layerOf k lr i hk hi]; exact hk
  obtain ⟨ps, p1, p2⟩ := H.parent_models hk hi
  obtain ⟨f, e1, e2, e3, e4, e5⟩ := family_assign2 lom ps (lr.factors.map fun j =>
      (⟨(s.m.world.mat j).val, (s.m.world.mat j).fixed_entries, s.childAxis j, s.m.bernoulli_prior j⟩ : Member)) (by simp [h2])
      (s.childAxis i) (lr.factors.idxOf i) (s.m.bernoulli_prior i)
  refine ⟨f, ?_, ?_, ?_, ?_⟩
  · have h1 : (s.wiring dr).childAxis = s.childAxis := rfl
    have h2 : (s.wiring dr).parents i = s.parents i := rfl
    rw [getSampler]
    simp only [hlr, Option.map_some, h1, h2, p2, hlom, e1]
    cases f <;> first | rfl | exact absurd rfl e2 | exact absurd rfl (e3 _) | exact absurd rfl (e4 _)
  · rw [hlom, p2]; exact e1
  · rw [← p1]; exact (family_kind (by simp [h2]) e1).1
  · rw [← p1]; exact (family_kind (by simp [h2]) e1).2

end LFM

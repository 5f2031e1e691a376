import Verif.Model.Special
import Verif.Lemmas.Machine
import Verif.Lemmas.Wrappers

/-! Lemmas on MAX-AND, qL-AND and OR-AND-IBP layers in machines of several layers. -/

namespace LFM

/-- sampling functions that read nothing but the layer of the matrix -/
def OwnSampler : Sampler → Prop
  | .qL_q | .qL_Z _ | .qL_U _ | .ibp _ | .lom _ _ _ => True
  | _ => False

/-- the same data, factors, thresholds and lambda of layer `k` -/
structure LowAgree (lr : LayerInfo) (k x : Nat) (w w' : World) : Prop where
  mats : ∀ i, i ∈ lr.factors ∨ lr.q = some i ∨ i = x → w'.mat i = w.mat i
  lbda : w'.lbda k = w.lbda k

/-- layer `k` of a machine: its matrices belong to no other layer, its data is no factor of another layer; `fct` are the
sampling functions -/
structure BottomLayer (wr : SpecialWiring) (fct : Nat → Option Sampler) (lr : LayerInfo) (k x : Nat) : Prop where
  layer : wr.layers[k]? = some lr
  child : wr.child k = x
  own : ∀ i, i ∈ lr.factors ∨ lr.q = some i → wr.layerOf i = some k
  back : ∀ i, wr.layerOf i = some k → i ∈ lr.factors ∨ lr.q = some i
  fct : ∀ i s, wr.layerOf i = some k → fct i = some s → OwnSampler s
  disjoint : ∀ k' lr', wr.layers[k']? = some lr' → k' ≠ k → ∀ i ∈ lr'.factors, i ∉ lr.factors ∧ lr.q ≠ some i ∧ i ≠ x
  special : ∀ s i t w, ∃ e, wr.special s i t w = .error e

theorem World.setVal_ne (w : World) {i j : Nat} (v : Arr Int) (h : j ≠ i) : (w.setVal i v).mat j = w.mat j := by
  simp [World.setVal, upd, h]

theorem LowAgree.setVal {lr : LayerInfo} {k x : Nat} {w w' : World} (h : LowAgree lr k x w w') (i : Nat) (v : Arr Int)
    (hi : i ∈ lr.factors ∨ lr.q = some i ∨ i = x) : LowAgree lr k x (w.setVal i v) (w'.setVal i v) := by
  refine ⟨fun j hj => ?_, h.lbda⟩
  by_cases e : j = i
  · subst e; simp [World.setVal, upd, h.mats j hi]
  · rw [World.setVal_ne _ _ e, World.setVal_ne _ _ e, h.mats j hj]

theorem siblingIds_mem {wr : Wiring} {lr : LayerInfo} {i j : Nat} {rest : List Nat} (h : siblingIds wr lr i = j :: rest) :
    j ∈ lr.factors := by
  have : j ∈ siblingIds wr lr i := by rw [h]; exact List.mem_cons_self ..
  rw [siblingIds, List.mem_mergeSort] at this
  exact (List.mem_filter.1 this).1

/-- what one call of a generic sampling function changes -/
theorem runSampler_writes {wr : Wiring} (hsp : ∀ s i t w, ∃ e, wr.special s i t w = .error e) {s : Sampler} {i t : Nat}
    {w w1 : World} (h : runSampler wr s i t w = .ok w1) : ∃ v, w1 = w.setVal i v := by
  rw [runSampler] at h
  split at h
  · rw [bind_ok] at h
    obtain ⟨v, -, h⟩ := h
    exact ⟨v, (pure_ok.1 h).symm⟩
  · obtain ⟨e, he⟩ := hsp s i t w
    rw [he] at h; cases h

/-- what one call of a sampling function changes -/
theorem runSpecial_writes {wr : SpecialWiring} (hsp : ∀ s i t w, ∃ e, wr.special s i t w = .error e) {s : Sampler} {i t : Nat}
    {w w1 : World} (h : runSpecial wr s i t w = .ok w1) :
    w1.lbda = w.lbda ∧ ∀ j, w1.mat j ≠ w.mat j → j = i ∨ ∃ k lr, wr.layerOf i = some k ∧ wr.layers[k]? = some lr ∧ j ∈ lr.factors := by
  have one : ∀ v, w1 = w.setVal i v → w1.lbda = w.lbda ∧ ∀ j, w1.mat j ≠ w.mat j →
      j = i ∨ ∃ k lr, wr.layerOf i = some k ∧ wr.layers[k]? = some lr ∧ j ∈ lr.factors := by
    rintro v rfl
    refine ⟨rfl, fun j hj => .inl ?_⟩
    by_contra e
    exact hj (World.setVal_ne _ _ e)
  have no : ∀ {p : Prop}, wr.special s i t w = .ok w1 → p := by
    intro p h
    obtain ⟨e, he⟩ := hsp s i t w
    rw [he] at h; cases h
  rw [runSpecial] at h
  split at h
  · obtain ⟨v, hv⟩ := runSampler_writes hsp h
    exact one v hv
  · rename_i k lr hk
    obtain ⟨k', hk1, hk2⟩ := Option.bind_eq_some_iff.1 hk
    obtain ⟨lr', hk3, hk4⟩ := Option.map_eq_some_iff.1 hk2
    cases hk4
    dsimp only at h
    split at h
    · split at h
      · rw [bind_ok] at h
        obtain ⟨X, -, h⟩ := h
        exact one _ (pure_ok.1 h).symm
      · cases h
      · exact no h
    · split at h
      · exact one _ (Except.ok.inj h).symm
      · cases h
      · exact no h
    · split at h
      · rw [bind_ok] at h
        obtain ⟨X, -, h⟩ := h
        exact one _ (pure_ok.1 h).symm
      · cases h
      · cases h
      · exact no h
    · split at h
      · rw [bind_ok] at h
        obtain ⟨X, -, h⟩ := h
        exact one _ (pure_ok.1 h).symm
      · cases h
      · cases h
      · exact no h
    · split at h
      · rename_i j rest lb hs hl
        rw [bind_ok] at h
        obtain ⟨X, -, h⟩ := h
        have h := (pure_ok.1 h).symm
        subst h
        refine ⟨rfl, fun a ha => ?_⟩
        by_cases e : a = i
        · exact .inl e
        by_cases e' : a = j
        · exact .inr ⟨k, lr, hk1, hk3, e' ▸ siblingIds_mem hs⟩
        · exact absurd (by rw [World.setVal_ne _ _ e', World.setVal_ne _ _ e]) ha
      · cases h
      · exact no h
    · obtain ⟨v, hv⟩ := runSampler_writes hsp h
      exact one v hv

variable {wr : SpecialWiring} {fct : Nat → Option Sampler} {lr : LayerInfo} {k x : Nat}

/-- two calls of the same sampling function in states that agree on the layer -/
theorem BottomLayer.runMat (B : BottomLayer wr fct lr k x) {w w' w1 w1' : World} (A : LowAgree lr k x w w') {i t : Nat}
    {s : Sampler} (hs : fct i = some s) (hx : i ≠ x) (h : runSpecial wr s i t w = .ok w1)
    (h' : runSpecial wr s i t w' = .ok w1') : LowAgree lr k x w1 w1' := by
  by_cases hk : wr.layerOf i = some k
  · have hi : i ∈ lr.factors ∨ lr.q = some i ∨ i = x := (B.back i hk).imp id .inl
    have ei : w'.mat i = w.mat i := A.mats i hi
    have ex : w'.mat (wr.child k) = w.mat (wr.child k) := A.mats _ (.inr (.inr B.child))
    have el : w'.lbda k = w.lbda k := A.lbda
    have hb : ((wr.layerOf i).bind fun k => wr.layers[k]?.map fun lr => (k, lr)) = some (k, lr) := by
      rw [hk]; simp [B.layer]
    have no : ∀ {p : Prop} {w w1 : World}, wr.special s i t w = .ok w1 → p := by
      intro p w w1 h
      obtain ⟨e, he⟩ := B.special s i t w
      rw [he] at h; cases h
    have ho := B.fct i s hk hs
    have fin : ∀ v, w1 = w.setVal i v → w1' = w'.setVal i v → LowAgree lr k x w1 w1' := by
      rintro v rfl rfl
      exact A.setVal i v hi
    rw [runSpecial, hb] at h h'
    dsimp only at h h'
    rw [ei, ex, el] at h'
    match s, ho with
    | .qL_q, _ =>
      dsimp only at h h'
      split at h
      · rename_i z u rest lb hf hl
        rw [hf, hl] at h'
        dsimp only at h'
        have ez := A.mats z (.inl (by rw [hf]; simp))
        have eu := A.mats u (.inl (by rw [hf]; simp))
        rw [ez, eu] at h'
        exact fin _ (Except.ok.inj h).symm (Except.ok.inj h').symm
      · cases h
      · exact no h
    | .qL_Z order, _ =>
      dsimp only at h h'
      split at h
      · rename_i j rest q lb hj hq hl
        rw [hj, hq, hl] at h'
        dsimp only at h'
        rw [A.mats j (.inl (siblingIds_mem hj)), A.mats q (.inr (.inl hq))] at h'
        rw [bind_ok] at h h'
        obtain ⟨X, h1, h⟩ := h
        obtain ⟨X', h1', h'⟩ := h'
        rw [h1] at h1'
        cases h1'
        exact fin _ (pure_ok.1 h).symm (pure_ok.1 h').symm
      · cases h
      · cases h
      · exact no h
    | .qL_U order, _ =>
      dsimp only at h h'
      split at h
      · rename_i j rest q lb hj hq hl
        rw [hj, hq, hl] at h'
        dsimp only at h'
        rw [A.mats j (.inl (siblingIds_mem hj)), A.mats q (.inr (.inl hq))] at h'
        rw [bind_ok] at h h'
        obtain ⟨X, h1, h⟩ := h
        obtain ⟨X', h1', h'⟩ := h'
        rw [h1] at h1'
        cases h1'
        exact fin _ (pure_ok.1 h).symm (pure_ok.1 h').symm
      · cases h
      · cases h
      · exact no h
    | .ibp order, _ =>
      dsimp only at h h'
      split at h
      · rename_i j rest lb hj hl
        rw [hj, hl] at h'
        dsimp only at h'
        rw [A.mats j (.inl (siblingIds_mem hj))] at h'
        rw [bind_ok] at h h'
        obtain ⟨X, h1, h⟩ := h
        obtain ⟨X', h1', h'⟩ := h'
        rw [h1] at h1'
        cases h1'
        rw [← pure_ok.1 h, ← pure_ok.1 h']
        exact (A.setVal i _ hi).setVal j _ (.inl (siblingIds_mem hj))
      · cases h
      · exact no h
    | .lom f order lp, _ =>
      dsimp only at h h'
      have hv : layerView wr.toWiring w' i = layerView wr.toWiring w i := by
        have hm : lr.factors.map (memberAt wr.toWiring w') = lr.factors.map (memberAt wr.toWiring w) :=
          List.map_congr_left fun j hj => by rw [memberAt, memberAt, A.mats j (.inl hj)]
        simp only [layerView, hk, B.layer, el]
        show ((w.lbda k).float?.bind fun a => some (lr.factors.map (memberAt wr.toWiring w'), lr.factors.idxOf i,
          (w'.mat (wr.child k)).val, a)) = ((w.lbda k).float?.bind fun a => some (lr.factors.map (memberAt wr.toWiring w),
          lr.factors.idxOf i, (w.mat (wr.child k)).val, a))
        rw [hm, ex]
      have hmem : memberAt wr.toWiring w' i = memberAt wr.toWiring w i := by rw [memberAt, memberAt, ei]
      rw [runSampler] at h h'
      rw [hv, hmem] at h'
      split at h
      · rename_i fs kk child lb pars hv1 hp
        rw [hv1] at h'
        split at h'
        · rename_i fs' kk' child' lb' pars' hv1' hp'
          cases hv1'
          have e : (Sampler.lom f order lp).run (memberAt wr.toWiring w i) fs kk child lb pars' (wr.rnd t i) =
              (Sampler.lom f order lp).run (memberAt wr.toWiring w i) fs kk child lb pars (wr.rnd t i) := by
            cases f <;> rfl
          rw [e] at h'
          rw [bind_ok] at h h'
          obtain ⟨X, h1, h⟩ := h
          obtain ⟨X', h1', h'⟩ := h'
          rw [h1] at h1'
          cases h1'
          exact fin _ (pure_ok.1 h).symm (pure_ok.1 h').symm
        · exact no h'
      · exact no h
  · obtain ⟨a1, a2⟩ := runSpecial_writes B.special h
    obtain ⟨b1, b2⟩ := runSpecial_writes B.special h'
    have key : ∀ j, j ∈ lr.factors ∨ lr.q = some j ∨ j = x →
        ¬(j = i ∨ ∃ k lr, wr.layerOf i = some k ∧ wr.layers[k]? = some lr ∧ j ∈ lr.factors) := by
      rintro j hj (rfl | ⟨k', lr', e1, e2, e3⟩)
      · rcases hj with hj | hj | hj
        · exact hk (B.own j (.inl hj))
        · exact hk (B.own j (.inr hj))
        · exact hx hj
      · have hne : k' ≠ k := fun e => hk (e ▸ e1)
        obtain ⟨d1, d2, d3⟩ := B.disjoint k' lr' e2 hne j e3
        rcases hj with hj | hj | hj
        · exact d1 hj
        · exact d2 hj
        · exact d3 hj
    refine ⟨fun j hj => ?_, by rw [a1, b1, A.lbda]⟩
    have e1 : w1.mat j = w.mat j := by by_contra e; exact key j hj (a2 j e)
    have e2 : w1'.mat j = w'.mat j := by by_contra e; exact key j hj (b2 j e)
    rw [e1, e2, A.mats j hj]

/-- two updates of a lambda in states that agree on the layer -/
theorem BottomLayer.runLbda (B : BottomLayer wr fct lr k x) {w w' w1 w1' : World} (A : LowAgree lr k x w w') {k' t : Nat}
    {g : LbdaUpdate} (h : runSpecialLbda wr g k' t w = .ok w1) (h' : runSpecialLbda wr g k' t w' = .ok w1') :
    LowAgree lr k x w1 w1' := by
  have fin : ∀ {v v' : LVal} {r r'}, (k' = k → v' = v) → w1 = { w with lbda := upd w.lbda k' v, ratios := r } →
      w1' = { w' with lbda := upd w'.lbda k' v', ratios := r' } → LowAgree lr k x w1 w1' := by
    rintro v v' r r' hv rfl rfl
    refine ⟨A.mats, ?_⟩
    show upd w'.lbda k' v' k = upd w.lbda k' v k
    by_cases e : k = k'
    · subst e; simp [upd, hv rfl]
    · simp [upd, e, A.lbda]
  by_cases hg : g = .max_and_2d
  · subst hg
    rw [runSpecialLbda] at h h'
    split at h
    · rename_i z u rest lb hf hl
      split at h'
      · rename_i z' u' rest' lb' hf' hl'
        rw [bind_ok] at h h'
        obtain ⟨⟨a, r⟩, h1, h⟩ := h
        obtain ⟨⟨a', r'⟩, h1', h'⟩ := h'
        refine fin (v := arrLVal a) (v' := arrLVal a') ?_ (pure_ok.1 h).symm (pure_ok.1 h').symm
        rintro rfl
        rw [hf] at hf'
        cases hf'
        rw [B.layer, Option.map_some, Option.some.injEq] at hf
        rw [A.lbda, hl] at hl'
        cases hl'
        rw [A.mats z (.inl (by rw [hf]; simp)), A.mats u (.inl (by rw [hf]; simp)), B.child, A.mats x (.inr (.inr rfl))] at h1'
        rw [B.child, h1'] at h1
        cases h1
        rfl
      · cases h'
    · cases h
  · have h : runUpdate wr.toWiring g k' t w = .ok w1 := by
      cases g <;> first | exact absurd rfl hg | exact h
    have h2 : runUpdate wr.toWiring g k' t w' = .ok w1' := by
      cases g <;> first | exact absurd rfl hg | exact h'
    rw [runUpdate] at h h2
    split at h
    · cases h
    · rename_i lr1 hl
      rw [hl] at h2
      dsimp only at h2
      rw [bind_ok] at h h2
      obtain ⟨a, h1, h⟩ := h
      obtain ⟨a', h1', h2⟩ := h2
      refine fin (v := .scalar a) (v' := .scalar a') (r := w.ratios) (r' := w'.ratios) ?_ (pure_ok.1 h).symm (pure_ok.1 h2).symm
      rintro rfl
      rw [B.layer] at hl
      cases hl
      have hm : lr.factors.map (fun i => (w'.mat i).val) = lr.factors.map (fun i => (w.mat i).val) :=
        List.map_congr_left fun j hj => by rw [A.mats j (.inl hj)]
      rw [hm, B.child, A.mats x (.inr (.inr rfl))] at h1'
      rw [B.child] at h1
      have e : (Except.ok a : Except Err NpF) = .ok a' := by
        rw [← h1, ← h1']
        cases hq : lr.q with
        | none => rfl
        | some q =>
          have := A.mats q (.inr (.inl hq))
          dsimp only
          rw [this]
      exact congrArg LVal.scalar (Except.ok.inj e).symm

end LFM

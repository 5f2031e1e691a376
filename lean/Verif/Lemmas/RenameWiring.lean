import Verif.Lemmas.Rename
import Verif.Model.Wiring

/-!
# Lemmas: numbers of matrices do not matter, for the update functions of the generic models
-/

namespace LFM

variable (ρ : Equiv.Perm Nat) {n : Nat}

/-- the objects of a machine under other numbers -/
def Wiring.ren (wr : Wiring) : Wiring where
  layers := wr.layers.map (LayerInfo.ren ρ)
  layerOf i := wr.layerOf (ρ i)
  childAxis i := wr.childAxis (ρ i)
  parents i := wr.parents (ρ i)
  child k := ρ.symm (wr.child k)
  beta_prior := wr.beta_prior
  rnd t i := wr.rnd t (ρ i)
  perm t l := (wr.perm t (l.map ρ)).map ρ.symm
  junk := wr.junk
  junkSampling := wr.junkSampling
  junkMat i := wr.junkMat (ρ i)
  special _ _ _ _ := .error .notImplemented

theorem memberAt_ren (wr : Wiring) (w : World) (i : Nat) :
    memberAt (wr.ren ρ) (w.ren ρ n) (ρ.symm i) = memberAt wr w i := by
  show (⟨(w.mat (ρ (ρ.symm i))).val, (w.mat (ρ (ρ.symm i))).fixed_entries, wr.childAxis (ρ (ρ.symm i)), 1 / 2⟩ : Member) = _
  rw [ρ.apply_symm_apply]
  rfl

theorem layer_ren {wr : Wiring} (k : Nat) : (wr.ren ρ).layers[k]? = wr.layers[k]?.map (LayerInfo.ren ρ) := List.getElem?_map

theorem parentAt_ren {wr : Wiring} (hn : wr.layers.length ≤ n) (w : World) (p : Nat) :
    parentAt (wr.ren ρ) (w.ren ρ n) p = parentAt wr w p := by
  unfold parentAt
  rw [layer_ren]
  cases hp : wr.layers[p]? with
  | none => rfl
  | some lr =>
    have hk : p < n := lt_of_lt_of_le (List.getElem?_eq_some_iff.1 hp).1 hn
    rw [lbda_ren ρ hk]
    cases (w.lbda p).float? with
    | none => rfl
    | some x =>
      show some (⟨lr.model, (lr.factors.map ρ.symm).map (fun i => (w.mat (ρ i)).val), x⟩ : ParentLayer) = _
      rw [List.map_map]
      have : (fun i => (w.mat (ρ i)).val) ∘ ρ.symm = fun i => (w.mat i).val := by
        funext i
        exact congrArg (fun j => (w.mat j).val) (ρ.apply_symm_apply i)
      rw [this]
      rfl

theorem idxOf_ren (l : List Nat) (i : Nat) : (l.map ρ.symm).idxOf (ρ.symm i) = l.idxOf i := by
  induction l with
  | nil => rfl
  | cons a l ih =>
    rw [List.map_cons, List.idxOf_cons, List.idxOf_cons, ih]
    congr 1
    by_cases h : a = i
    · subst h; simp
    · have : ρ.symm a ≠ ρ.symm i := fun e => h (ρ.symm.injective e)
      simp [h, this]

theorem layerView_ren {wr : Wiring} (hn : wr.layers.length ≤ n) (w : World) (i : Nat) :
    layerView (wr.ren ρ) (w.ren ρ n) (ρ.symm i) = layerView wr w i := by
  unfold layerView
  have h1 : (wr.ren ρ).layerOf (ρ.symm i) = wr.layerOf i := congrArg wr.layerOf (ρ.apply_symm_apply i)
  rw [h1]
  cases wr.layerOf i with
  | none => rfl
  | some k =>
    dsimp only
    rw [layer_ren]
    cases hk : wr.layers[k]? with
    | none => rfl
    | some lr =>
      have hkn : k < n := lt_of_lt_of_le (List.getElem?_eq_some_iff.1 hk).1 hn
      show (((w.ren ρ n).lbda k).float? >>= _) = ((w.lbda k).float? >>= _)
      rw [lbda_ren ρ hkn]
      cases (w.lbda k).float? with
      | none => rfl
      | some x =>
        show some ((lr.factors.map ρ.symm).map (memberAt (wr.ren ρ) (w.ren ρ n)), (lr.factors.map ρ.symm).idxOf (ρ.symm i),
          (w.mat (ρ (ρ.symm (wr.child k)))).val, x) = _
        rw [List.map_map, idxOf_ren, ρ.apply_symm_apply]
        have : memberAt (wr.ren ρ) (w.ren ρ n) ∘ ρ.symm = memberAt wr w := funext fun j => memberAt_ren ρ wr w j
        rw [this]
        rfl

theorem setVal_ren (w : World) (i : Nat) (v : Arr Int) : (w.ren ρ n).setVal (ρ.symm i) v = (w.setVal i v).ren ρ n := by
  have h1 : (w.ren ρ n).mat (ρ.symm i) = w.mat i := congrArg w.mat (ρ.apply_symm_apply i)
  show ({ w.ren ρ n with mat := upd (fun j => w.mat (ρ j)) (ρ.symm i) { (w.ren ρ n).mat (ρ.symm i) with val := v } } : World) = _
  rw [h1, ← upd_ren]
  rfl

theorem runSampler_ren {wr : Wiring} (hn : wr.layers.length ≤ n)
    (hs : ∀ s i t w, wr.special s i t w = .error .notImplemented) (s : Sampler) (i t : Nat) (w : World) :
    runSampler (wr.ren ρ) s (ρ.symm i) t (w.ren ρ n) = (runSampler wr s i t w).map (World.ren ρ n) := by
  unfold runSampler
  have hp : (wr.ren ρ).parents (ρ.symm i) = wr.parents i := congrArg wr.parents (ρ.apply_symm_apply i)
  have hr : (wr.ren ρ).rnd t (ρ.symm i) = wr.rnd t i := congrArg (wr.rnd t) (ρ.apply_symm_apply i)
  have hpa : parentAt (wr.ren ρ) (w.ren ρ n) = parentAt wr w := funext fun p => parentAt_ren ρ hn w p
  rw [layerView_ren ρ hn, hp, hpa, hr, memberAt_ren]
  split
  · exact bind_map (p := id) (map_same rfl) fun v => congrArg Except.ok (setVal_ren ρ w i v)
  · rw [hs]
    rfl

theorem runUpdate_ren {wr : Wiring} (f : LbdaUpdate) (k : Nat) (hk : k < n) (t : Nat) (w : World) :
    runUpdate (wr.ren ρ) f k t (w.ren ρ n) = (runUpdate wr f k t w).map (World.ren ρ n) := by
  unfold runUpdate
  rw [layer_ren]
  cases wr.layers[k]? with
  | none => rfl
  | some lr =>
    have e1 : (lr.ren ρ).factors.map (fun i => ((w.ren ρ n).mat i).val) = lr.factors.map fun i => (w.mat i).val := by
      show (lr.factors.map ρ.symm).map _ = _
      rw [List.map_map]
      refine List.map_congr_left fun i _ => ?_
      exact congrArg (fun j => (w.mat j).val) (ρ.apply_symm_apply i)
    have e2 : ((w.ren ρ n).mat ((wr.ren ρ).child k)).val = (w.mat (wr.child k)).val :=
      congrArg (fun j => (w.mat j).val) (ρ.apply_symm_apply (wr.child k))
    refine bind_map (p := id) (x := f.run (lr.factors.map fun i => (w.mat i).val) (w.mat (wr.child k)).val
      (match lr.q with
        | some q => (w.mat q).val
        | none => Arr.full [] 0) (wr.beta_prior k)) (map_same ?_) fun x => congrArg Except.ok ?_
    · rw [e1, e2]
      obtain ⟨fs, mo, q, ac, ar⟩ := lr
      cases q with
      | none => rfl
      | some q =>
        show f.run _ _ (w.mat (ρ (ρ.symm q))).val _ = _
        rw [ρ.apply_symm_apply]
        rfl
    have e : upd (w.ren ρ n).lbda k (.scalar x) =
        fun j => if j < n then upd w.lbda k (.scalar x) j else .scalar (.fin 0) := by
      funext j
      unfold upd World.ren
      by_cases hj : j = k
      · subst hj
        simp [hk]
      · simp [hj]
    show ({ w.ren ρ n with lbda := upd (w.ren ρ n).lbda k (.scalar x) } : World) = _
    rw [e]
    rfl

theorem getSampler_ren {wr : Wiring} (m : Mach Sampler LbdaUpdate) (i : Nat) :
    getSampler (wr.ren ρ) (m.ren ρ n) (ρ.symm i) =
      (getSampler wr m i).map fun r => (r.1, r.2.map fun p => (ρ.symm p.1, p.2)) := by
  have hl : ∀ k, (m.ren ρ n).layers[k]? = m.layers[k]?.map (LayerInfo.ren ρ) := fun k => List.getElem?_map
  have h0 : (m.ren ρ n).layerOf (ρ.symm i) = m.layerOf i := congrArg m.layerOf (ρ.apply_symm_apply i)
  have h1 : (((m.ren ρ n).layerOf (ρ.symm i)).bind fun k => (m.ren ρ n).layers[k]?) =
      ((m.layerOf i).bind fun k => m.layers[k]?).map (LayerInfo.ren ρ) := by
    rw [h0]
    cases m.layerOf i with
    | none => rfl
    | some k => exact hl k
  have h2 : (wr.ren ρ).parents (ρ.symm i) = wr.parents i := congrArg wr.parents (ρ.apply_symm_apply i)
  have h3 : (m.ren ρ n).bernoulli_prior (ρ.symm i) = m.bernoulli_prior i := congrArg m.bernoulli_prior (ρ.apply_symm_apply i)
  have h4 : (wr.ren ρ).childAxis (ρ.symm i) = wr.childAxis i := congrArg wr.childAxis (ρ.apply_symm_apply i)
  have h5 : (fun p : Nat => (m.ren ρ n).layers[p]?.map fun lr : LayerInfo => (lr.model, lr.factors.length)) =
      fun p : Nat => m.layers[p]?.map fun lr : LayerInfo => (lr.model, lr.factors.length) := by
    funext p
    rw [hl, Option.map_map]
    congr 1
    funext lr
    show (lr.model, (lr.factors.map ρ.symm).length) = _
    rw [List.length_map]
  have h6 : (fun j : Nat => (⟨((m.ren ρ n).world.mat j).val, ((m.ren ρ n).world.mat j).fixed_entries, (wr.ren ρ).childAxis j,
        (m.ren ρ n).bernoulli_prior j⟩ : Member)) ∘ ρ.symm =
      fun j => ⟨(m.world.mat j).val, (m.world.mat j).fixed_entries, wr.childAxis j, m.bernoulli_prior j⟩ := by
    funext j
    show (fun j : Nat => (⟨(m.world.mat j).val, (m.world.mat j).fixed_entries, wr.childAxis j, m.bernoulli_prior j⟩ : Member))
      (ρ (ρ.symm j)) = _
    rw [ρ.apply_symm_apply]
  unfold getSampler
  dsimp only
  rw [h1, h2, h3, h4, h5]
  generalize (m.layerOf i).bind (fun k => m.layers[k]?) = lr
  cases lr with
  | none =>
    refine bind_map (p := id) (map_same rfl) fun s => ?_
    cases s <;> rfl
  | some lr =>
    show (get_sampling_fct none (some lr.model) (List.map _ (lr.factors.map ρ.symm)) (wr.childAxis i)
      ((lr.factors.map ρ.symm).idxOf (ρ.symm i)) _ _ >>= _) = _
    rw [List.map_map, idxOf_ren, h6]
    refine bind_map (p := id) (map_same rfl) fun s => ?_
    have hq : ((Option.map (LayerInfo.ren ρ) (some lr)).bind LayerInfo.q).map (fun q => (q, Sampler.qL_q)) =
        (((some lr).bind LayerInfo.q).map fun q => (q, Sampler.qL_q)).map fun p => (ρ.symm p.1, p.2) := by
      show (lr.q.map ρ.symm).map _ = (lr.q.map _).map _
      cases lr.q <;> rfl
    cases s <;> first | rfl | exact congrArg (fun z => Except.ok (_, z)) hq

theorem getUpdate_ren (m : Mach Sampler LbdaUpdate) (k : Nat) : getUpdate (m.ren ρ n) k = getUpdate m k := by
  unfold getUpdate
  have : (m.ren ρ n).layers[k]? = m.layers[k]?.map (LayerInfo.ren ρ) := List.getElem?_map
  rw [this]
  cases m.layers[k]? with
  | none => rfl
  | some lr =>
    show get_update_fct none lr.model (lr.factors.map ρ.symm).length = _
    rw [List.length_map]

/-- the environments of a machine under two numberings -/
theorem genericEnv_ren {wr : Wiring} (hn : wr.layers.length ≤ n)
    (hs : ∀ s i t w, wr.special s i t w = .error .notImplemented) : EnvRen ρ n (genericEnv wr) (genericEnv (wr.ren ρ)) where
  runMat := runSampler_ren ρ hn hs
  runLbda := fun g k hk t w => runUpdate_ren ρ g k hk t w
  perm t l := by
    show (wr.perm t ((l.map ρ.symm).map ρ)).map ρ.symm = _
    rw [List.map_map]
    have : ρ ∘ ρ.symm = id := funext ρ.apply_symm_apply
    rw [this, List.map_id]
    rfl
  getFct := getSampler_ren ρ
  getLfct := getUpdate_ren ρ
  junk := rfl
  junkSampling := rfl
  junkMat i := congrArg wr.junkMat (ρ.apply_symm_apply i)

end LFM

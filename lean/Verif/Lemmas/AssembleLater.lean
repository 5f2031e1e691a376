import Verif.Lemmas.AssembleBuild

/-!
# Lemmas: what stays when a machine is extended
-/

namespace LFM

open Spec

/-- `s'` comes about from `s` by legal actions -/
inductive Reach (s : Workshop) : Workshop → Prop
  | refl : Reach s s
  | act {s1 s2 : Workshop} (a : UserAct) : Reach s s1 → a.Legal s1 → s1.step a = .ok s2 → Reach s s2

theorem Built.reach {s s' : Workshop} (h : Built s) (hr : Reach s s') : Built s' := by
  induction hr with
  | refl => exact h
  | act a _ h1 h2 ih => exact .act a ih h1 h2

/-- matrices and layers are never taken away and never moved; sampling functions stay; layers on top are only added -/
structure Extends (s s' : Workshop) : Prop where
  next : s.next ≤ s'.next
  fct : ∀ i f, s.m.fct i = some f → s'.m.fct i = some f
  layerOf : ∀ i < s.next, s'.m.layerOf i = s.m.layerOf i
  layers : ∀ (k : Nat) (lr : LayerInfo), s.m.layers[k]? = some lr → ∃ lr' : LayerInfo, s'.m.layers[k]? = some lr' ∧
    lr'.factors = lr.factors ∧ lr'.model = lr.model
  child : ∀ k < s.m.layers.length, s'.child k = s.child k
  parents : ∀ i < s.next, s.parents i <+: s'.parents i
  childAxis : ∀ i < s.next, s'.childAxis i = s.childAxis i

theorem Extends.refl (s : Workshop) : Extends s s :=
  ⟨le_rfl, fun _ _ h => h, fun _ _ => rfl, fun _ lr h => ⟨lr, h, rfl, rfl⟩, fun _ _ => rfl, fun _ _ => List.prefix_rfl,
    fun _ _ => rfl⟩

theorem Extends.trans {a b c : Workshop} (h1 : Extends a b) (h2 : Extends b c) : Extends a c := by
  refine ⟨h1.next.trans h2.next, fun i f h => h2.fct i f (h1.fct i f h), fun i hi => ?_, fun k lr h => ?_, fun k hk => ?_,
    fun i hi => ?_, fun i hi => ?_⟩
  · rw [h2.layerOf i (hi.trans_le h1.next), h1.layerOf i hi]
  · obtain ⟨lr1, e1, e2, e3⟩ := h1.layers k lr h
    obtain ⟨lr2, f1, f2, f3⟩ := h2.layers k lr1 e1
    exact ⟨lr2, f1, f2.trans e2, f3.trans e3⟩
  · obtain ⟨lr1, e1, -⟩ := h1.layers k _ (List.getElem?_eq_getElem hk)
    rw [h2.child k (List.getElem?_eq_some_iff.mp e1).1, h1.child k hk]
  · exact (h1.parents i hi).trans (h2.parents i (hi.trans_le h1.next))
  · rw [h2.childAxis i (hi.trans_le h1.next), h1.childAxis i hi]

namespace Workshop

theorem Sound.fct_lt {s : Workshop} (H : s.Sound) {i : Nat} {f : Sampler} (h : s.m.fct i = some f) : i < s.next := by
  obtain ⟨k, lr, lom, h1, -⟩ := H.fct i f h
  exact (H.owner i k h1).1

theorem Sound.extends_newMatrix {s : Workshop} (H : s.Sound) (val : Arr Int) (ax : Nat) (fixed : Bool)
    (layer : Option Nat) : Extends s (s.newMatrix val ax fixed layer) := by
  refine ⟨Nat.le_succ _, fun i f h => ?_, fun i hi => ?_, fun k lr h => ⟨lr, h, rfl, rfl⟩, fun _ _ => rfl, fun i hi => ?_,
    fun i hi => ?_⟩
  · have : i ≠ s.next := by have := H.fct_lt h; omega
    simpa [Workshop.newMatrix, upd, this] using h
  · have : i ≠ s.next := by omega
    simp [Workshop.newMatrix, upd, this]
  · have : i ≠ s.next := by omega
    simp [Workshop.newMatrix, upd, this]
  · have : i ≠ s.next := by omega
    simp [Workshop.newMatrix, upd, this]

theorem extends_attach {s : Workshop} (H : ∀ i f, s.m.fct i = some f → i < s.next) (c L : Nat) (shape : List Nat) (model : String)
    (init : Nat → List Nat → Int) (hc : c < s.next) : Extends s (s.attach c shape L model init) := by
  obtain ⟨a1, a2, a3, a4, a5, a6, a7, a8, a9⟩ := addFactors_spec s.m.layers.length L init shape 0 s
  refine ⟨?_, fun i f h => ?_, fun i hi => ?_, fun k lr h => ⟨lr, ?_, rfl, rfl⟩, fun k hk => ?_, fun i hi => ?_,
    fun i hi => ?_⟩
  · show s.next ≤ (addFactors _ _ _ _ _ _).next
    rw [a1]; omega
  · show (addFactors _ _ _ _ _ _).m.fct i = _
    rw [(a8 i (.inl (H i f h))).2.2.1]; exact h
  · show (addFactors _ _ _ _ _ _).m.layerOf i = _
    exact (a8 i (.inl hi)).2.1
  · show ((addFactors _ _ _ _ _ _).m.layers ++ _)[k]? = _
    rw [a2, List.getElem?_append_left (List.getElem?_eq_some_iff.mp h).1]; exact h
  · show upd (addFactors _ _ _ _ _ _).child s.m.layers.length c k = _
    have : k ≠ s.m.layers.length := by omega
    rw [a6]
    simp [upd, this]
  · show _ <+: upd (addFactors s.m.layers.length L init shape 0 s).parents c _ i
    by_cases h : i = c
    · subst h
      simp only [upd, if_true, (a8 i (.inl hi)).2.2.2.2.2]
      exact List.prefix_append _ _
    · simp only [upd, h, if_false, (a8 i (.inl hi)).2.2.2.2.2]
      exact List.prefix_rfl
  · show (addFactors _ _ _ _ _ _).childAxis i = _
    exact (a8 i (.inl hi)).2.2.2.2.1

theorem Sound.extends_step {s s' : Workshop} (H : s.Sound) {a : UserAct} (hl : a.Legal s) (h : s.step a = .ok s') :
    Extends s s' := by
  cases a with
  | addMatrix val fixed =>
    cases h
    have := H.extends_newMatrix val 0 fixed none
    exact ⟨this.1, this.2, this.3, this.4, this.5, this.6, this.7⟩
  | addLayer child shape L model init =>
    rw [Workshop.step, Workshop.addLayer] at h
    simp only at h
    split at h
    · cases h
    · rename_i m0 d f hr
      split at h
      · cases h
      · rename_i hn
        split at h
        · cases h
          refine (H.extends_newMatrix _ 0 false none).trans
            (extends_attach (fun i f h => (H.newMatrix _ 0 false).fct_lt h) s.next L _ _ init (Nat.lt_succ_self _))
        · rename_i i
          have hi := (hl.2.1 i rfl).1
          cases h
          have hs : ∀ v, Extends s (s.setVal i v) := fun v =>
            ⟨le_rfl, fun _ _ h => h, fun _ _ => rfl, fun _ lr h => ⟨lr, h, rfl, rfl⟩, fun _ _ => rfl,
              fun _ _ => List.prefix_rfl, fun _ _ => rfl⟩
          split
          · rename_i v _
            exact (hs v).trans (extends_attach (s := s.setVal i v) (fun i f h => H.fct_lt h) i L _ _ init hi)
          · exact extends_attach (fun i f h => H.fct_lt h) i L _ _ init hi
        · cases h
  | setFixed i b => cases h; exact ⟨le_rfl, fun _ _ h => h, fun _ _ => rfl, fun _ lr h => ⟨lr, h, rfl, rfl⟩, fun _ _ => rfl, fun _ _ => List.prefix_rfl, fun _ _ => rfl⟩
  | setPrior i q => cases h; exact ⟨le_rfl, fun _ _ h => h, fun _ _ => rfl, fun _ lr h => ⟨lr, h, rfl, rfl⟩, fun _ _ => rfl, fun _ _ => List.prefix_rfl, fun _ _ => rfl⟩
  | setEntries i mask => cases h; exact ⟨le_rfl, fun _ _ h => h, fun _ _ => rfl, fun _ lr h => ⟨lr, h, rfl, rfl⟩, fun _ _ => rfl, fun _ _ => List.prefix_rfl, fun _ _ => rfl⟩
  | setVal i v => cases h; exact ⟨le_rfl, fun _ _ h => h, fun _ _ => rfl, fun _ lr h => ⟨lr, h, rfl, rfl⟩, fun _ _ => rfl, fun _ _ => List.prefix_rfl, fun _ _ => rfl⟩
  | setLbda k x => cases h; exact ⟨le_rfl, fun _ _ h => h, fun _ _ => rfl, fun _ lr h => ⟨lr, h, rfl, rfl⟩, fun _ _ => rfl, fun _ _ => List.prefix_rfl, fun _ _ => rfl⟩
  | setLbdaFixed k b => cases h; exact ⟨le_rfl, fun _ _ h => h, fun _ _ => rfl, fun _ lr h => ⟨lr, h, rfl, rfl⟩, fun _ _ => rfl, fun _ _ => List.prefix_rfl, fun _ _ => rfl⟩
  | setBeta k x y => cases h; exact ⟨le_rfl, fun _ _ h => h, fun _ _ => rfl, fun _ lr h => ⟨lr, h, rfl, rfl⟩, fun _ _ => rfl, fun _ _ => List.prefix_rfl, fun _ _ => rfl⟩
  | setClean k ac ar =>
    cases h
    refine ⟨le_rfl, fun _ _ h => h, fun _ _ => rfl, fun k' lr h => ?_, fun _ _ => rfl, fun _ _ => List.prefix_rfl, fun _ _ => rfl⟩
    show ∃ lr', (s.m.layers.modify k fun lr => { lr with auto_clean := ac, auto_reset := ar })[k']? = some lr' ∧ _
    rw [List.getElem?_modify, h]
    refine ⟨_, rfl, ?_⟩
    split <;> exact ⟨rfl, rfl⟩
  | setAnneal b => cases h; exact ⟨le_rfl, fun _ _ h => h, fun _ _ => rfl, fun _ lr h => ⟨lr, h, rfl, rfl⟩, fun _ _ => rfl, fun _ _ => List.prefix_rfl, fun _ _ => rfl⟩
  | infer S cw eps bmin bmax ps fx dr =>
    have hc : CallOK s cw ps fx dr := hl
    have h : s.infer S cw eps bmin bmax ps fx dr = .ok s' := h
    rw [Workshop.infer, bind_ok] at h
    obtain ⟨m', h, h'⟩ := h
    rw [pure_ok] at h'
    obtain ⟨m'', e1, e2, e3, e4, e5, e6, e7, -⟩ := H.infer_ok (H.infer_ready hc.perm h) S cw eps bmin bmax ps fx dr hc
    rw [h] at e1
    obtain rfl := Except.ok.inj e1
    rw [← h']
    refine ⟨le_rfl, e7, fun i _ => by rw [e4.layerOf], fun k lr h => ⟨lr, ?_, rfl, rfl⟩, fun _ _ => rfl, fun _ _ => List.prefix_rfl,
      fun _ _ => rfl⟩
    show m'.layers[k]? = _
    rw [e4.layers]; exact h

end Workshop

theorem Reach.extends {s s' : Workshop} (h : Built s) (hr : Reach s s') : Extends s s' := by
  induction hr with
  | refl => exact .refl s
  | act a hr h1 h2 ih => exact ih.trans ((h.reach hr).sound.extends_step h1 h2)

/-- a sampling function reads the layers that were on top when it was assigned, not those that came later -/
theorem family_prefix {lom : Lom8} {K j n : Nat} {f : Sampler} (h : FamilySampler lom K j n f) (mat : Member)
    (fs : List Member) (k : Nat) (child : Arr Int) (lbda : ℝ) {pa pb : List ParentLayer} (h1 : n ≤ pa.length)
    (h2 : n ≤ pb.length) (h3 : pa.take n = pb.take n) (rnd : Rnd) :
    f.run mat fs k child lbda pa rnd = f.run mat fs k child lbda pb rnd := by
  obtain ⟨ms, prior, ps, hms, hps, hK, hs⟩ := h
  rcases hK with rfl | ⟨rfl, rfl⟩
  · obtain ⟨s', e1, -, -, -, e2⟩ := family_assign2 lom ps ms hms j j prior
    rw [hs] at e1
    cases e1
    rcases e2 with ⟨f, o, lp, rfl⟩ | ⟨f, o, lp, rfl, h4⟩ | ⟨f, o, lp, rfl, h4⟩
    · rfl
    · obtain ⟨n, rfl⟩ : ∃ n', n = n' + 1 := ⟨n - 1, by omega⟩
      match pa, pb, h1, h2, h3 with
      | p :: pa, q :: pb, _, _, h3 =>
        simp only [List.take_succ_cons, List.cons.injEq] at h3
        rw [h3.1]
        simp only [Sampler.run]
        obtain ⟨l, hl⟩ : ∃ l, l = (siblings fs k).map Member.val := ⟨_, rfl⟩
        rw [← hl]
        match l with
        | [] => rfl
        | [u] => rfl
        | _ :: _ :: _ => rfl
    · obtain ⟨n, rfl⟩ : ∃ n', n = n' + 2 := ⟨n - 2, by omega⟩
      match pa, pb, h1, h2, h3 with
      | p :: p' :: pa, q :: q' :: pb, _, _, h3 =>
        simp only [List.take_succ_cons, List.cons.injEq] at h3
        rw [h3.1, h3.2.1]
        simp only [Sampler.run]
        obtain ⟨l, hl⟩ : ∃ l, l = (siblings fs k).map Member.val := ⟨_, rfl⟩
        rw [← hl]
        match l with
        | [] => rfl
        | [u] => rfl
        | _ :: _ :: _ => rfl
      | [_], _, h1, _, _ => simp at h1
      | _, [_], _, h2, _ => simp at h2
  · obtain ⟨f, o, lp, e1⟩ := family_assign3 lom ms hms j j prior
    rw [List.map_nil, e1] at hs
    cases hs
    rfl

theorem family_kind {lom : Lom8} {ps : List Lom8} {fs : List Member} (hf : fs.length = 2) {ax k : Nat} {q : ℝ} {s : Sampler}
    (h : get_sampling_fct none (some lom.name) fs ax k q (ps.map fun p => (p.name, 2)) = .ok s) :
    (ps.length = 1 → ∃ f o lp, s = .onechild_oneparent f o lp) ∧ (2 ≤ ps.length → ∃ f o lp, s = .onechild_twoparents f o lp) := by
  obtain ⟨f, hf', -⟩ := C14_score_2d_partial lom
  match ps with
  | [] => simp
  | [p] =>
    obtain ⟨g, hg, -⟩ := parent_fct p
    rw [List.map_cons, List.map_nil, dispatch_onechild_oneparent (by rw [hf]; exact relatives2_1 lom p) (generic_code2 lom),
      make_onechild_oneparent2 lom _ hf' hg] at h
    cases h
    exact ⟨fun _ => ⟨_, _, _, rfl⟩, by simp⟩
  | p :: p' :: rest =>
    obtain ⟨g, hg, -⟩ := parent_fct p
    obtain ⟨g', hg', -⟩ := parent_fct p'
    rw [List.map_cons, List.map_cons, C24_extra_parents_ignored,
      dispatch_onechild_twoparents (by rw [hf]; exact relatives2_2 lom p p') (generic_code2 lom),
      make_onechild_twoparents2 lom p p' hf' hg hg'] at h
    cases h
    exact ⟨by simp, fun _ => ⟨_, _, _, rfl⟩⟩

theorem Workshop.Sound.parent_models {s : Workshop} (H : s.Sound) {k : Nat} {lr : LayerInfo}
    (hk : s.m.layers[k]? = some lr) {i : Nat} (hi : i ∈ lr.factors) : ∃ ps : List Lom8, ps.length = (s.parents i).length ∧
      ((s.parents i).filterMap fun p => s.m.layers[p]?.map fun lr => (lr.model, lr.factors.length)) =
        ps.map fun p => (p.name, 2) := by
  have key : ∀ l : List Nat, (∀ p ∈ l, p ∈ s.parents i) → ∃ ps : List Lom8, ps.length = l.length ∧
      (l.filterMap fun p => s.m.layers[p]?.map fun lr => (lr.model, lr.factors.length)) =
        ps.map fun p => (p.name, 2) := by
    intro l
    induction l with
    | nil => intro _; exact ⟨[], rfl, rfl⟩
    | cons p l ih =>
      intro h
      obtain ⟨ps, e1, e2⟩ := ih fun q hq => h q (by simp [hq])
      obtain ⟨lr', h1, h2⟩ := H.parent_two H.world hk hi (h p (by simp))
      obtain ⟨lom', h3⟩ := H.model p lr' h1
      refine ⟨lom' :: ps, by simp [e1], ?_⟩
      rw [List.filterMap_cons, h1]
      simp [e2, h2, h3]
  exact key _ fun p hp => hp

end LFM

import Verif.Lemmas.AssembleLater

/-!
# Lemmas: a further invariant of machines that are put together by calls of the API
-/

namespace LFM

open Spec

/-- layers are created after the matrix below, layers on top are listed in the order of creation, factors have proper
priors -/
structure Workshop.Neat (s : Workshop) : Prop where
  below : ∀ (k : Nat) (lr : LayerInfo) (i : Nat), s.m.layers[k]? = some lr → i ∈ lr.factors → s.child k < i
  parents : ∀ i, s.parents i = (List.range s.m.layers.length).filter fun k => s.child k = i
  prior : ∀ i, s.m.layerOf i ≠ none → 0 < s.m.bernoulli_prior i ∧ s.m.bernoulli_prior i < 1

namespace Workshop

theorem Neat.empty : Workshop.empty.Neat := by
  refine ⟨?_, ?_, ?_⟩ <;> simp [Workshop.empty]

theorem Neat.newMatrix {s : Workshop} (H : s.Sound) (N : s.Neat) (val : Arr Int) (ax : Nat) (fixed : Bool)
    (layer : Option Nat) : (s.newMatrix val ax fixed layer).Neat := by
  refine ⟨N.below, fun i => ?_, fun i hi => ?_⟩
  · show upd s.parents s.next [] i = (List.range s.m.layers.length).filter fun k => s.child k = i
    by_cases h : i = s.next
    · subst h
      rw [← N.parents]
      simp only [upd, if_true]
      cases hp : s.parents s.next with
      | nil => rfl
      | cons p l =>
        obtain ⟨h1, h2⟩ := (H.parents s.next p).mp (by rw [hp]; simp)
        have := H.childLt p h1
        omega
    · simp only [upd, h, if_false]
      exact N.parents i
  · show 0 < upd s.m.bernoulli_prior s.next (1 / 2) i ∧ upd s.m.bernoulli_prior s.next (1 / 2) i < 1
    have hi' : upd s.m.layerOf s.next layer i ≠ none := hi
    by_cases h : i = s.next
    · subst h
      norm_num [upd]
    · simp only [upd, h, if_false] at hi' ⊢
      exact N.prior i hi'

theorem addFactors_prior (k L : Nat) (init : Nat → List Nat → Int) (shape : List Nat) : ∀ (j : Nat) (s : Workshop),
    (∀ i, i < s.next ∨ s.next + shape.length ≤ i →
      (addFactors k L init shape j s).m.bernoulli_prior i = s.m.bernoulli_prior i) ∧
    ∀ i, s.next ≤ i → i < s.next + shape.length → (addFactors k L init shape j s).m.bernoulli_prior i = 1 / 2 := by
  induction shape with
  | nil =>
    intro j s
    exact ⟨fun _ _ => rfl, fun i h1 h2 => by simp at h2; omega⟩
  | cons K shape ih =>
    intro j s
    obtain ⟨s1, hs1⟩ : ∃ s1, s1 = s.newMatrix ⟨[K, L], init j⟩ j false (some k) := ⟨_, rfl⟩
    have hstep : addFactors k L init (K :: shape) j s = addFactors k L init shape (j + 1) s1 := by rw [hs1]; rfl
    obtain ⟨a1, a2⟩ := ih (j + 1) s1
    have hn : s1.next = s.next + 1 := by rw [hs1]; rfl
    rw [hstep]
    refine ⟨fun i hi => ?_, fun i h1 h2 => ?_⟩
    · rw [List.length_cons] at hi
      rw [a1 i (by rw [hn]; omega), hs1]
      have hne : i ≠ s.next := by omega
      simp [Workshop.newMatrix, upd, hne]
    · rw [List.length_cons] at h2
      by_cases h : i = s.next
      · subst h
        rw [a1 _ (by rw [hn]; omega), hs1]
        simp [Workshop.newMatrix, upd]
      · exact a2 i (by rw [hn]; omega) (by rw [hn]; omega)

theorem Neat.attach {s : Workshop} (H : s.Sound) (N : s.Neat) {c L : Nat} {shape : List Nat} {model : String}
    {init : Nat → List Nat → Int} (hc : c < s.next) : (s.attach c shape L model init).Neat := by
  obtain ⟨a1, a2, a3, a4, a5, a6, a7, a8, a9⟩ := addFactors_spec s.m.layers.length L init shape 0 s
  obtain ⟨b1, b2⟩ := addFactors_prior s.m.layers.length L init shape 0 s
  have hcase : ∀ i, (i < s.next ∨ s.next + shape.length ≤ i) ∨ (s.next ≤ i ∧ i < s.next + shape.length) := by
    intro i; omega
  have hpar : ∀ i, (addFactors s.m.layers.length L init shape 0 s).parents i =
      (List.range s.m.layers.length).filter fun k => s.child k = i := by
    intro i
    rcases hcase i with hi | ⟨h1, h2⟩
    · rw [(a8 i hi).2.2.2.2.2, N.parents]
    · obtain ⟨t, rfl⟩ : ∃ t, i = s.next + t := ⟨i - s.next, by omega⟩
      have ht : t < shape.length := by omega
      rw [(a9 t _ (List.getElem?_eq_getElem ht)).2.2.2.2.2, eq_comm, List.filter_eq_nil_iff]
      intro p hp
      have := H.childLt p (List.mem_range.1 hp)
      simp only [decide_eq_true_eq]
      omega
  refine ⟨fun k lr i hk hi => ?_, fun i => ?_, fun i hi => ?_⟩
  · have hk' : ((addFactors s.m.layers.length L init shape 0 s).m.layers ++
        [⟨(List.range shape.length).map (s.next + ·), model, none, false, false⟩])[k]? = some lr := hk
    show upd (addFactors s.m.layers.length L init shape 0 s).child s.m.layers.length c k < i
    rw [a6]
    rw [a2] at hk'
    by_cases hlt : k < s.m.layers.length
    · rw [List.getElem?_append_left hlt] at hk'
      have hne : k ≠ s.m.layers.length := by omega
      simpa [upd, hne] using N.below k lr i hk' hi
    · rw [List.getElem?_append_right (by omega)] at hk'
      have h0 := (List.getElem?_eq_some_iff.mp hk').1
      simp only [List.length_singleton] at h0
      have h1 : k - s.m.layers.length = 0 := by omega
      rw [h1] at hk'
      have hk2 : k = s.m.layers.length := by omega
      simp only [List.getElem?_cons_zero, Option.some.injEq] at hk'
      subst hk'
      simp only [List.mem_map, List.mem_range] at hi
      obtain ⟨t, ht, rfl⟩ := hi
      simp only [upd, hk2, if_true]
      omega
  · show upd (addFactors s.m.layers.length L init shape 0 s).parents c
      ((addFactors s.m.layers.length L init shape 0 s).parents c ++ [s.m.layers.length]) i =
      (List.range ((addFactors s.m.layers.length L init shape 0 s).m.layers ++
        [(⟨(List.range shape.length).map (s.next + ·), model, none, false, false⟩ : LayerInfo)]).length).filter fun k =>
          upd (addFactors s.m.layers.length L init shape 0 s).child s.m.layers.length c k = i
    rw [a2, a6, List.length_append, List.length_singleton, List.range_succ, List.filter_append]
    have hf : (List.range s.m.layers.length).filter (fun k => upd s.child s.m.layers.length c k = i) =
        (List.range s.m.layers.length).filter fun k => s.child k = i := by
      refine List.filter_congr fun k hk => ?_
      have hne : k ≠ s.m.layers.length := by have := List.mem_range.1 hk; omega
      simp [upd, hne]
    rw [hf]
    by_cases h : i = c
    · subst h
      simp [upd, hpar]
    · have h' : c ≠ i := fun e => h e.symm
      simp [upd, h, h', hpar]
  · have hi' : (addFactors s.m.layers.length L init shape 0 s).m.layerOf i ≠ none := hi
    show 0 < (addFactors s.m.layers.length L init shape 0 s).m.bernoulli_prior i ∧
      (addFactors s.m.layers.length L init shape 0 s).m.bernoulli_prior i < 1
    rcases hcase i with h | ⟨h1, h2⟩
    · rw [(a8 i h).2.1] at hi'
      rw [b1 i h]
      exact N.prior i hi'
    · rw [b2 i h1 h2]
      norm_num

theorem Neat.step {s s' : Workshop} (H : s.Sound) (N : s.Neat) {a : UserAct} (hl : a.Legal s) (h : s.step a = .ok s') :
    s'.Neat := by
  cases a with
  | addMatrix val fixed =>
    cases h
    have := Neat.newMatrix H N val 0 fixed none
    exact ⟨this.1, this.2, this.3⟩
  | addLayer child shape L model init =>
    rw [Workshop.step, Workshop.addLayer] at h
    simp only at h
    split at h
    · cases h
    · rename_i m0 d f hr
      split at h
      · cases h
      · rename_i hn
        split at h
        · cases h
          exact Neat.attach (H.newMatrix _ 0 false) (Neat.newMatrix H N _ 0 false none) (Nat.lt_succ_self _)
        · rename_i i
          obtain ⟨hi, hne⟩ := hl.2.1 i rfl
          obtain ⟨-, hflip⟩ := canonise_generic hr hn
          cases h
          have hs : ∀ v, (s.setVal i v).Neat := fun v => ⟨N.1, N.2, N.3⟩
          split
          · rename_i v hv
            refine Neat.attach (s := s.setVal i v) ?_ (hs v) hi
            rcases hflip with hflip | ⟨a, ha, hflip⟩
            · rw [hflip] at hv
              simp only [Option.map_some, Option.some.injEq] at hv
              subst hv
              refine H.setVal rfl fun hlay => ?_
              obtain ⟨k, hk⟩ := Option.ne_none_iff_exists'.mp hlay
              obtain ⟨-, lr, e1, e2⟩ := H.owner i k hk
              obtain ⟨L', hL'⟩ := H.world.facs k lr e1
              exact (hL' _ (s.m.world.mat i) (by rw [List.getElem?_map, (H.position e2).1]; rfl)).2
            · rw [hflip] at hv
              simp only [Option.map_some, Option.some.injEq] at ha hv
              subst ha
              subst hv
              refine H.setVal (i := i) (v := (s.m.world.mat i).val.map fun x => wrap8 (-x)) rfl fun hlay => ?_
              obtain ⟨k, hk⟩ := Option.ne_none_iff_exists'.mp hlay
              obtain ⟨-, lr, e1, e2⟩ := H.owner i k hk
              obtain ⟨L', hL'⟩ := H.world.facs k lr e1
              exact PMArr.flip (hL' _ (s.m.world.mat i) (by rw [List.getElem?_map, (H.position e2).1]; rfl)).2
          · exact Neat.attach H N hi
        · cases h
  | setFixed i b => cases h; exact ⟨N.1, N.2, N.3⟩
  | setPrior i q =>
    cases h
    refine ⟨N.1, N.2, fun j hj => ?_⟩
    have hl' : 0 < q ∧ q < 1 := hl
    show 0 < upd s.m.bernoulli_prior i q j ∧ upd s.m.bernoulli_prior i q j < 1
    by_cases h : j = i
    · subst h; simpa [upd] using hl'
    · simpa [upd, h] using N.prior j hj
  | setEntries i mask => cases h; exact ⟨N.1, N.2, N.3⟩
  | setVal i v => cases h; exact ⟨N.1, N.2, N.3⟩
  | setLbda k x => cases h; exact ⟨N.1, N.2, N.3⟩
  | setLbdaFixed k b => cases h; exact ⟨N.1, N.2, N.3⟩
  | setBeta k x y => cases h; exact ⟨N.1, N.2, N.3⟩
  | setClean k ac ar =>
    cases h
    refine ⟨fun k' lr' i hk hi => ?_, fun i => ?_, N.3⟩
    · have hk' : (s.m.layers.modify k fun lr => { lr with auto_clean := ac, auto_reset := ar })[k']? = some lr' := hk
      rw [List.getElem?_modify] at hk'
      obtain ⟨lr, h1, rfl⟩ := Option.map_eq_some_iff.mp hk'
      refine N.below k' lr i h1 ?_
      split at hi <;> exact hi
    · show s.parents i = (List.range (s.m.layers.modify k _).length).filter _
      rw [List.length_modify]
      exact N.parents i
  | setAnneal b => cases h; exact ⟨N.1, N.2, N.3⟩
  | infer S cw eps bmin bmax ps fx dr =>
    have hc : CallOK s cw ps fx dr := hl
    have h : s.infer S cw eps bmin bmax ps fx dr = .ok s' := h
    rw [Workshop.infer, bind_ok] at h
    obtain ⟨m', h, h'⟩ := h
    rw [pure_ok] at h'
    obtain ⟨m'', e1, e2, e3, e4, -⟩ := H.infer_ok (H.infer_ready hc.perm h) S cw eps bmin bmax ps fx dr hc
    rw [h] at e1
    obtain rfl := Except.ok.inj e1
    rw [← h']
    refine ⟨?_, ?_, ?_⟩ <;> simp only [e4.layers, e4.layerOf, e4.bernoulli_prior]
    · exact N.below
    · exact N.parents
    · exact N.prior

end Workshop

theorem Built.neat {s : Workshop} (h : Built s) : s.Neat := by
  induction h with
  | empty => exact Workshop.Neat.empty
  | act a hb hl hs N => exact N.step hb.sound hl hs

end LFM

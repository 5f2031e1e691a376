import Verif.Lemmas.AssembleRun

/-!
# Lemmas: every legal action keeps a machine sound
-/

namespace LFM

open Spec

/-- what a user may do: layers are put on existing matrices with at least one axis and start from factors of `{-1,1}`
entries; values that are written have the same shape and, for factors, entries in `{-1,1}`; priors are positive;
inference is called as in `CallOK` -/
def UserAct.Legal (s : Workshop) : UserAct → Prop
  | .addMatrix _ _ => True
  | .addLayer child shape _ _ init => (∀ j idx, IsPM (init j idx)) ∧
    (∀ i, child = some i → i < s.next ∧ (s.m.world.mat i).val.shape ≠ []) ∧ ∀ sh, shape = some sh → sh ≠ []
  | .setFixed _ _ => True
  | .setPrior _ q => 0 < q ∧ q < 1
  | .setEntries i mask => mask.shape = (s.m.world.mat i).val.shape
  | .setVal i v => v.shape = (s.m.world.mat i).val.shape ∧ (s.m.layerOf i ≠ none → PMArr v)
  | .setLbda _ _ => True
  | .setLbdaFixed _ _ => True
  | .setBeta _ a b => 0 < a ∧ 0 < b
  | .setClean _ _ _ => True
  | .setAnneal _ => True
  | .infer _ cw _ _ _ ps fx dr => CallOK s cw ps fx dr

/-- machines that come about by legal actions -/
inductive Built : Workshop → Prop
  | empty : Built .empty
  | act {s s' : Workshop} (a : UserAct) : Built s → a.Legal s → s.step a = .ok s' → Built s'

namespace Workshop

theorem FitWorld.congr {layers layers' : List LayerInfo} {child child' : Nat → Nat} {w w' : World}
    (hw : FitWorld layers child w)
    (h : ∀ (k : Nat) (lr' : LayerInfo), layers'[k]? = some lr' → ∃ lr : LayerInfo, layers[k]? = some lr ∧
      lr'.factors = lr.factors ∧ child' k = child k ∧ (w'.mat (child k)).val = (w.mat (child k)).val ∧
      (∀ i ∈ lr.factors, (w'.mat i).val = (w.mat i).val) ∧ ∃ y, w'.lbda k = .scalar (.fin y)) :
    FitWorld layers' child' w' := by
  refine ⟨fun k lr' hk => ?_, fun k lr' hk => ?_, fun k hk => ?_⟩
  · obtain ⟨lr, h1, h2, h3, h4, -⟩ := h k lr' hk
    rw [h3, h4, h2]
    exact hw.dims k lr h1
  · obtain ⟨lr, h1, h2, h3, h4, h5, -⟩ := h k lr' hk
    obtain ⟨L, hL⟩ := hw.facs k lr h1
    refine ⟨L, ?_⟩
    rw [h3, h4, h2]
    intro j f hf
    simp only [List.getElem?_map, Option.map_eq_some_iff] at hf
    obtain ⟨i, hi, rfl⟩ := hf
    rw [h5 i (List.mem_of_getElem? hi)]
    exact hL j (w.mat i) (by rw [List.getElem?_map, hi]; rfl)
  · obtain ⟨lr, -, -, -, -, -, h6⟩ := h k _ (List.getElem?_eq_getElem hk)
    exact h6

theorem Sound.empty : Workshop.empty.Sound := by
  refine ⟨?_, ?_, ?_, ?_, ?_, ?_, ?_, ?_, ?_, ?_, ?_, ⟨?_, ?_, ?_⟩, ?_, ?_⟩ <;> simp [Workshop.empty]

/-- writing values of the same shape -/
theorem Sound.setVal {s : Workshop} (H : s.Sound) {i : Nat} {v : Arr Int} (h1 : v.shape = (s.m.world.mat i).val.shape)
    (h2 : s.m.layerOf i ≠ none → PMArr v) : (s.setVal i v).Sound :=
  ⟨H.model, H.nodup, H.factors, H.axis, H.layerOf, H.owner, H.matrices, H.matNodup, H.parents, H.childLt, H.beta,
    H.fit_setVal H.world h1 (fun h _ => h2 h) (fun k lr hk hi => by rw [H.layerOf k lr i hk hi]; simp), H.fct, H.lfct⟩

/-- a new matrix outside of layers -/
theorem Sound.newMatrix {s : Workshop} (H : s.Sound) (val : Arr Int) (ax : Nat) (fixed : Bool) :
    (s.newMatrix val ax fixed none).Sound := by
  have hlt : ∀ (k : Nat) (lr : LayerInfo) (i : Nat), s.m.layers[k]? = some lr → i ∈ lr.factors → i ≠ s.next := by
    rintro k lr i hk hi rfl
    have := (H.owner _ k (H.layerOf k lr _ hk hi)).1
    omega
  have hnone : s.m.layerOf s.next = none := by
    cases h : s.m.layerOf s.next with
    | none => rfl
    | some k => have := (H.owner _ k h).1; omega
  have hpar : s.parents s.next = [] := by
    cases h : s.parents s.next with
    | nil => rfl
    | cons p l =>
      obtain ⟨h1, h2⟩ := (H.parents s.next p).mp (by rw [h]; simp)
      have := H.childLt p h1
      omega
  have hlay : (s.newMatrix val ax fixed none).m.layerOf = s.m.layerOf := by
    funext i
    by_cases hi : i = s.next
    · subst hi; simp [Workshop.newMatrix, upd, hnone]
    · simp [Workshop.newMatrix, upd, hi]
  have hpars : (s.newMatrix val ax fixed none).parents = s.parents := by
    funext i
    by_cases hi : i = s.next
    · subst hi; simp [Workshop.newMatrix, upd, hpar]
    · simp [Workshop.newMatrix, upd, hi]
  refine ⟨H.model, H.nodup, H.factors, ?_, ?_, ?_, ?_, H.matNodup, ?_, ?_, H.beta, ?_, ?_, H.lfct⟩
  · intro k lr j i hk hi
    have := hlt k lr i hk (List.mem_of_getElem? hi)
    show upd s.childAxis s.next ax i = j
    simpa [upd, this] using H.axis k lr j i hk hi
  · rw [hlay]; exact H.layerOf
  · rw [hlay]
    intro i k h
    obtain ⟨h1, h2⟩ := H.owner i k h
    exact ⟨Nat.lt_succ_of_lt h1, h2⟩
  · rw [hlay]
    intro i hi
    obtain ⟨h1, h2⟩ := H.matrices i hi
    exact ⟨Nat.lt_succ_of_lt h1, h2⟩
  · rw [hpars]; exact H.parents
  · intro k hk
    exact Nat.lt_succ_of_lt (H.childLt k hk)
  · refine FitWorld.congr H.world fun k lr hk => ⟨lr, hk, rfl, rfl, ?_, ?_, ?_⟩
    · have := H.childLt k (List.getElem?_eq_some_iff.mp hk).1
      have h' : s.child k ≠ s.next := by omega
      simp [Workshop.newMatrix, upd, h']
    · intro i hi
      simp [Workshop.newMatrix, upd, hlt k lr i hk hi]
    · exact H.world.lbda k (List.getElem?_eq_some_iff.mp hk).1
  · rw [hlay, hpars]
    intro i f hf
    refine H.fct i f ?_
    by_cases hi : i = s.next
    · subst hi; simp [Workshop.newMatrix, upd] at hf
    · simpa [Workshop.newMatrix, upd, hi] using hf

/-- what `addFactors` does -/
theorem addFactors_spec (k L : Nat) (init : Nat → List Nat → Int) (shape : List Nat) : ∀ (j : Nat) (s : Workshop),
    (addFactors k L init shape j s).next = s.next + shape.length ∧
    (addFactors k L init shape j s).m.layers = s.m.layers ∧
    (addFactors k L init shape j s).m.matrices = s.m.matrices ∧
    (addFactors k L init shape j s).m.world.lbda = s.m.world.lbda ∧
    (addFactors k L init shape j s).m.lfct = s.m.lfct ∧
    (addFactors k L init shape j s).child = s.child ∧
    (addFactors k L init shape j s).beta_prior = s.beta_prior ∧
    (∀ i, i < s.next ∨ s.next + shape.length ≤ i →
      (addFactors k L init shape j s).m.world.mat i = s.m.world.mat i ∧
      (addFactors k L init shape j s).m.layerOf i = s.m.layerOf i ∧
      (addFactors k L init shape j s).m.fct i = s.m.fct i ∧
      (addFactors k L init shape j s).m.fixed i = s.m.fixed i ∧
      (addFactors k L init shape j s).childAxis i = s.childAxis i ∧
      (addFactors k L init shape j s).parents i = s.parents i) ∧
    ∀ (t K : Nat), shape[t]? = some K →
      (addFactors k L init shape j s).m.world.mat (s.next + t) = ⟨⟨[K, L], init (j + t)⟩, Arr.full [K, L] 0⟩ ∧
      (addFactors k L init shape j s).m.layerOf (s.next + t) = some k ∧
      (addFactors k L init shape j s).m.fct (s.next + t) = none ∧
      (addFactors k L init shape j s).m.fixed (s.next + t) = false ∧
      (addFactors k L init shape j s).childAxis (s.next + t) = j + t ∧
      (addFactors k L init shape j s).parents (s.next + t) = [] := by
  induction shape with
  | nil =>
    intro j s
    refine ⟨rfl, rfl, rfl, rfl, rfl, rfl, rfl, fun _ _ => ⟨rfl, rfl, rfl, rfl, rfl, rfl⟩, fun t K h => by simp at h⟩
  | cons K shape ih =>
    intro j s
    obtain ⟨s1, hs1⟩ : ∃ s1, s1 = s.newMatrix ⟨[K, L], init j⟩ j false (some k) := ⟨_, rfl⟩
    have hstep : addFactors k L init (K :: shape) j s = addFactors k L init shape (j + 1) s1 := by rw [hs1]; rfl
    obtain ⟨a1, a2, a3, a4, a5, a6, a7, a8, a9⟩ := ih (j + 1) s1
    have hn : s1.next = s.next + 1 := by rw [hs1]; rfl
    rw [hstep]
    refine ⟨?_, a2.trans (by rw [hs1]; rfl), a3.trans (by rw [hs1]; rfl), a4.trans (by rw [hs1]; rfl),
      a5.trans (by rw [hs1]; rfl), a6.trans (by rw [hs1]; rfl), a7.trans (by rw [hs1]; rfl), ?_, ?_⟩
    · rw [a1, hn, List.length_cons]; omega
    · intro i hi
      rw [List.length_cons] at hi
      obtain ⟨b1, b2, b3, b4, b5, b6⟩ := a8 i (by rw [hn]; omega)
      have hne : i ≠ s.next := by omega
      rw [b1, b2, b3, b4, b5, b6, hs1]
      simp [Workshop.newMatrix, upd, hne]
    · intro t K' ht
      match t, ht with
      | 0, ht =>
        simp only [List.getElem?_cons_zero, Option.some.injEq] at ht
        subst ht
        obtain ⟨b1, b2, b3, b4, b5, b6⟩ := a8 s.next (by rw [hn]; omega)
        simp only [Nat.add_zero]
        rw [b1, b2, b3, b4, b5, b6, hs1]
        simp [Workshop.newMatrix, upd]
      | t + 1, ht =>
        rw [List.getElem?_cons_succ] at ht
        have := a9 t K' ht
        rw [hn] at this
        have e1 : s.next + 1 + t = s.next + (t + 1) := by omega
        have e2 : j + 1 + t = j + (t + 1) := by omega
        rw [e1, e2] at this
        exact this

/-- a new layer -/
theorem Sound.attach {s : Workshop} (H : s.Sound) {c L : Nat} {shape : List Nat} {lom : Lom8} {init : Nat → List Nat → Int}
    (hc : c < s.next) (hs : (s.m.world.mat c).val.shape = shape) (hne : shape ≠ []) (hinit : ∀ j idx, IsPM (init j idx)) :
    (s.attach c shape L lom.name init).Sound := by
  obtain ⟨s', hs'⟩ : ∃ s', s' = addFactors s.m.layers.length L init shape 0 s := ⟨_, rfl⟩
  have hspec := addFactors_spec s.m.layers.length L init shape 0 s
  rw [← hs'] at hspec
  obtain ⟨a1, a2, a3, a4, a5, a6, a7, a8, a9⟩ := hspec
  obtain ⟨r, hr⟩ : ∃ r, r = s.attach c shape L lom.name init := ⟨_, rfl⟩
  obtain ⟨k, hk0⟩ : ∃ k, k = s.m.layers.length := ⟨_, rfl⟩
  rw [← hk0] at a9
  have r1 : r.next = s.next + shape.length := by rw [hr, ← a1, hs']; rfl
  have r2 : r.m.layers = s.m.layers ++ [⟨(List.range shape.length).map (s.next + ·), lom.name, none, false, false⟩] := by
    rw [hr, ← a2, hs']; rfl
  have r3 : r.m.matrices = s.m.matrices := by rw [hr, ← a3, hs']; rfl
  have r4 : r.m.world.mat = s'.m.world.mat := by rw [hr, hs']; rfl
  have r5 : r.m.world.lbda = upd s.m.world.lbda k (.scalar (.fin (5 / 100))) := by rw [hr, ← a4, hs', hk0]; rfl
  have r6 : r.m.lfct = upd s.m.lfct k none := by rw [hr, ← a5, hs', hk0]; rfl
  have r7 : r.child = upd s.child k c := by rw [hr, ← a6, hs', hk0]; rfl
  have r8 : r.beta_prior = upd s.beta_prior k (1, 1) := by rw [hr, ← a7, hs', hk0]; rfl
  have r9 : r.m.layerOf = s'.m.layerOf := by rw [hr, hs']; rfl
  have r10 : r.m.fct = s'.m.fct := by rw [hr, hs']; rfl
  have r11 : r.childAxis = s'.childAxis := by rw [hr, hs']; rfl
  have r12 : r.parents = upd s'.parents c (s'.parents c ++ [k]) := by rw [hr, hs', hk0]; rfl
  rw [← hr]
  clear hr hs' a1 a2 a3 a4 a5 a6 a7
  -- layers are the old ones and the new one
  have hlay : ∀ (k' : Nat) (lr : LayerInfo), r.m.layers[k']? = some lr → (s.m.layers[k']? = some lr ∧ k' < k) ∨
      (k' = k ∧ lr = ⟨(List.range shape.length).map (s.next + ·), lom.name, none, false, false⟩) := by
    intro k' lr h
    rw [r2] at h
    by_cases hlt : k' < s.m.layers.length
    · rw [List.getElem?_append_left hlt] at h
      exact .inl ⟨h, by omega⟩
    · rw [List.getElem?_append_right (by omega)] at h
      have h0 := (List.getElem?_eq_some_iff.mp h).1
      simp only [List.length_singleton] at h0
      have h1 : k' - s.m.layers.length = 0 := by omega
      rw [h1] at h
      exact .inr ⟨by omega, by simpa using h.symm⟩
  have hold : ∀ (k' : Nat) (lr : LayerInfo) (i : Nat), s.m.layers[k']? = some lr → i ∈ lr.factors → i < s.next :=
    fun k' lr i h hi => (H.owner i k' (H.layerOf k' lr i h hi)).1
  have hlen : r.m.layers.length = k + 1 := by rw [r2, List.length_append, hk0]; rfl
  have hnew : ∀ i, i ∈ (List.range shape.length).map (s.next + ·) → ∃ t K, shape[t]? = some K ∧ i = s.next + t := by
    intro i hi
    simp only [List.mem_map, List.mem_range] at hi
    obtain ⟨t, ht, rfl⟩ := hi
    exact ⟨t, _, List.getElem?_eq_getElem ht, rfl⟩
  have hnewpos : ∀ j i, ((List.range shape.length).map (s.next + ·))[j]? = some i → ∃ K, shape[j]? = some K ∧ i = s.next + j := by
    intro j i h
    simp only [List.getElem?_map, Option.map_eq_some_iff, List.getElem?_eq_some_iff, List.length_range] at h
    obtain ⟨t, ⟨ht, h1⟩, rfl⟩ := h
    rw [List.getElem_range] at h1
    subst h1
    exact ⟨_, List.getElem?_eq_getElem ht, rfl⟩
  -- matrices are old ones, new factors, or none
  have hcase : ∀ i, (i < s.next ∨ s.next + shape.length ≤ i) ∨ ∃ t K, shape[t]? = some K ∧ i = s.next + t := by
    intro i
    by_cases h : i < s.next ∨ s.next + shape.length ≤ i
    · exact .inl h
    · push Not at h
      have : i - s.next < shape.length := by omega
      exact .inr ⟨i - s.next, _, List.getElem?_eq_getElem this, by omega⟩
  have hparc : s'.parents c = s.parents c := (a8 c (.inl hc)).2.2.2.2.2
  have hpmono : ∀ i, i < s.next → (s.parents i).length ≤ (r.parents i).length := by
    intro i hi
    rw [r12]
    by_cases h : i = c
    · subst h; simp [upd, hparc]
    · simp [upd, h, (a8 i (.inl hi)).2.2.2.2.2]
  refine ⟨?_, ?_, ?_, ?_, ?_, ?_, ?_, ?_, ?_, ?_, ?_, ⟨?_, ?_, ?_⟩, ?_, ?_⟩
  · intro k' lr h
    rcases hlay k' lr h with ⟨h, -⟩ | ⟨-, rfl⟩
    · exact H.model k' lr h
    · exact ⟨lom, rfl⟩
  · intro k' lr h
    rcases hlay k' lr h with ⟨h, -⟩ | ⟨-, rfl⟩
    · exact H.nodup k' lr h
    · exact List.nodup_range.map fun a b h => by simpa using h
  · intro k' lr h
    rcases hlay k' lr h with ⟨h, -⟩ | ⟨-, rfl⟩
    · exact H.factors k' lr h
    · exact ⟨by simpa using hne, rfl⟩
  · intro k' lr j i h hi
    rcases hlay k' lr h with ⟨h, -⟩ | ⟨-, rfl⟩
    · rw [r11, (a8 i (.inl (hold k' lr i h (List.mem_of_getElem? hi)))).2.2.2.2.1]
      exact H.axis k' lr j i h hi
    · obtain ⟨K, hK, rfl⟩ := hnewpos j i hi
      rw [r11, (a9 j K hK).2.2.2.2.1, Nat.zero_add]
  · intro k' lr i h hi
    rcases hlay k' lr h with ⟨h, -⟩ | ⟨rfl, rfl⟩
    · rw [r9, (a8 i (.inl (hold k' lr i h hi))).2.1]
      exact H.layerOf k' lr i h hi
    · obtain ⟨t, K, hK, rfl⟩ := hnew i hi
      rw [r9, (a9 t K hK).2.1]
  · intro i k' h
    rw [r9] at h
    rw [r1]
    rcases hcase i with hi | ⟨t, K, hK, rfl⟩
    · rw [(a8 i hi).2.1] at h
      obtain ⟨h1, lr, h2, h3⟩ := H.owner i k' h
      refine ⟨by omega, lr, ?_, h3⟩
      rw [r2, List.getElem?_append_left (List.getElem?_eq_some_iff.mp h2).1]
      exact h2
    · rw [(a9 t K hK).2.1] at h
      obtain rfl := Option.some.inj h
      have ht := (List.getElem?_eq_some_iff.mp hK).1
      refine ⟨by omega, ⟨(List.range shape.length).map (s.next + ·), lom.name, none, false, false⟩, ?_, ?_⟩
      · rw [r2, List.getElem?_append_right (by omega), hk0, Nat.sub_self, List.getElem?_cons_zero]
      · simp only [List.mem_map, List.mem_range]
        exact ⟨t, ht, rfl⟩
  · intro i hi
    rw [r3] at hi
    obtain ⟨h1, h2⟩ := H.matrices i hi
    rw [r9, r1, (a8 i (.inl h1)).2.1]
    exact ⟨by omega, h2⟩
  · rw [r3]; exact H.matNodup
  · intro i p
    rw [hlen, r7, r12]
    have hbase : ∀ i, p ∈ s'.parents i ↔ p < k ∧ s.child p = i := by
      intro i
      rw [hk0]
      rcases hcase i with hi | ⟨t, K, hK, rfl⟩
      · rw [(a8 i hi).2.2.2.2.2]
        exact H.parents i p
      · rw [(a9 t K hK).2.2.2.2.2]
        simp only [List.not_mem_nil, false_iff, not_and]
        intro hp hcp
        have := H.childLt p hp
        omega
    by_cases hi : i = c
    · subst hi
      simp only [upd, if_true, List.mem_append, List.mem_singleton, hbase]
      by_cases hp : p = k
      · subst hp; simp
      · simp only [hp, or_false, if_false]
        constructor
        · rintro ⟨h1, h2⟩; exact ⟨by omega, h2⟩
        · rintro ⟨h1, h2⟩; exact ⟨by omega, h2⟩
    · simp only [upd, hi, if_false, hbase]
      by_cases hp : p = k
      · subst hp
        simp only [lt_irrefl, false_and, if_true, false_iff, not_and]
        intro _ h
        exact hi h.symm
      · simp only [hp, if_false]
        constructor
        · rintro ⟨h1, h2⟩; exact ⟨by omega, h2⟩
        · rintro ⟨h1, h2⟩; exact ⟨by omega, h2⟩
  · intro k' h
    rw [hlen] at h
    rw [r7, r1]
    by_cases hkk : k' = k
    · subst hkk; simp [upd]; omega
    · have := H.childLt k' (by omega)
      simp [upd, hkk]; omega
  · intro k' h
    rw [hlen] at h
    rw [r8]
    by_cases hkk : k' = k
    · subst hkk; simp [upd]
    · simpa [upd, hkk] using H.beta k' (by omega)
  · intro k' lr h
    rcases hlay k' lr h with ⟨h, hlt⟩ | ⟨rfl, rfl⟩
    · have hkk : k' ≠ k := by omega
      rw [r7, r4]
      simp only [upd, hkk, if_false]
      rw [(a8 _ (.inl (H.childLt k' (by omega)))).1]
      exact H.world.dims k' lr h
    · rw [r7, r4]
      simp only [upd, if_true]
      rw [(a8 c (.inl hc)).1, hs]
      simp
  · intro k' lr h
    rcases hlay k' lr h with ⟨h, hlt⟩ | ⟨rfl, rfl⟩
    · have hkk : k' ≠ k := by omega
      obtain ⟨L', hL'⟩ := H.world.facs k' lr h
      refine ⟨L', ?_⟩
      rw [r7, r4]
      simp only [upd, hkk, if_false]
      rw [(a8 _ (.inl (H.childLt k' (by omega)))).1]
      have : lr.factors.map s'.m.world.mat = lr.factors.map s.m.world.mat :=
        List.map_congr_left fun i hi => (a8 i (.inl (hold k' lr i h hi))).1
      rw [this]
      exact hL'
    · refine ⟨L, ?_⟩
      rw [r7, r4]
      simp only [upd, if_true]
      rw [(a8 c (.inl hc)).1, hs]
      intro j f hf
      simp only [List.getElem?_map, Option.map_eq_some_iff] at hf
      obtain ⟨i, hi, rfl⟩ := hf
      obtain ⟨K, hK, rfl⟩ := hnewpos j i (by rw [List.getElem?_map]; simpa using hi)
      rw [(a9 j K hK).1]
      refine ⟨?_, fun idx _ => hinit _ _⟩
      rw [List.getD_eq_getElem?_getD, hK]
      rfl
  · intro k' h
    rw [hlen] at h
    rw [r5]
    by_cases hkk : k' = k
    · subst hkk; exact ⟨5 / 100, by simp [upd]⟩
    · obtain ⟨y, hy⟩ := H.world.lbda k' (by omega)
      exact ⟨y, by simp [upd, hkk, hy]⟩
  · intro i f h
    rw [r10] at h
    rcases hcase i with hi | ⟨t, K, hK, rfl⟩
    · rw [(a8 i hi).2.2.1] at h
      obtain ⟨k', lr, lom', h1, h2, h3, h4⟩ := H.fct i f h
      have hlt := (H.owner i k' h1).1
      refine ⟨k', lr, lom', ?_, ?_, h3, h4.mono (hpmono i hlt)⟩
      · rw [r9, (a8 i hi).2.1]; exact h1
      · rw [r2, List.getElem?_append_left (List.getElem?_eq_some_iff.mp h2).1]; exact h2
    · rw [(a9 t K hK).2.2.1] at h
      cases h
  · intro k' lr g h hg
    rw [r6] at hg
    rcases hlay k' lr h with ⟨h, hlt⟩ | ⟨rfl, rfl⟩
    · have hkk : k' ≠ k := by omega
      exact H.lfct k' lr g h (by simpa [upd, hkk] using hg)
    · simp [upd] at hg

/-- names of layers are those of the eight generic models -/
theorem canonise_generic {model : String} {c : Option (Arr Int)} {r : String × Bool × Bool}
    (h : (canonise_model model c).2 = .ok r) (hr : ¬ (r.1 = "MAX-AND" ∨ r.1 = "OR-AND-IBP" ∨ r.1 = "qL-AND")) :
    (∃ lom : Lom8, r.1 = lom.name) ∧ ((canonise_model model c).1 = c ∨
      ∃ a, c = some a ∧ (canonise_model model c).1 = some (a.map fun x => wrap8 (-x))) := by
  unfold canonise_model at h ⊢
  cases hc : canonical_form model with
  | error e => rw [hc] at h; simp at h
  | ok q =>
    obtain ⟨name, d, f⟩ := q
    rw [hc] at h
    have hq : r = (name, d, f) := by
      cases d
      · simpa using h.symm
      · cases c with
        | none => simp at h
        | some a => simpa using h.symm
    refine ⟨?_, ?_⟩
    · rcases canonical_form_ok hc with ⟨o, i, ho⟩ | ⟨h1, h2⟩
      · obtain ⟨m', d', f', hc', -⟩ := canonical_table o i
        rw [← ho, hc] at hc'
        simp only [Except.ok.injEq, Prod.mk.injEq] at hc'
        exact ⟨m', by rw [hq]; exact hc'.1⟩
      · exfalso
        apply hr
        simp only [Prod.mk.injEq] at h2
        rw [hq]
        simp only [specialModels, List.mem_cons, List.not_mem_nil, or_false] at h1
        rw [h2.1]
        tauto
    · cases d
      · exact .inl (by simp)
      · cases c with
        | none => rw [hq] at h; simp at h
        | some a => exact .inr ⟨a, rfl, by simp⟩

theorem PMArr.flip {a : Arr Int} (h : PMArr a) : PMArr (a.map fun x => wrap8 (-x)) := by
  intro idx hidx
  rcases h idx hidx with h1 | h1
  · right; show wrap8 (-a idx) = -1; rw [h1]; decide
  · left; show wrap8 (-a idx) = 1; rw [h1]; decide

theorem Sound.addLayer {s s' : Workshop} (H : s.Sound) {child : Option Nat} {shape : Option (List Nat)} {L : Nat}
    {model : String} {init : Nat → List Nat → Int} (hl : (UserAct.addLayer child shape L model init).Legal s)
    (h : s.addLayer child shape L model init = .ok s') : s'.Sound := by
  obtain ⟨h1, h2, h3⟩ := hl
  rw [Workshop.addLayer] at h
  simp only at h
  split at h
  · cases h
  · rename_i m0 d f hr
    split at h
    · cases h
    · rename_i hn
      obtain ⟨⟨lom, hlom⟩, hflip⟩ := canonise_generic hr hn
      simp only at hlom
      subst hlom
      split at h
      · rename_i sh
        cases h
        refine (H.newMatrix _ 0 false).attach (Nat.lt_succ_self _) ?_ (h3 sh rfl) h1
        simp [Workshop.newMatrix, upd]
      · rename_i i
        obtain ⟨hi, hne⟩ := h2 i rfl
        cases h
        rcases hflip with hflip | ⟨a, ha, hflip⟩
        · rw [hflip]
          simp only [Option.map_some]
          have he : s.setVal i (s.m.world.mat i).val = s := by
            obtain ⟨m, n, ca, pa, ch, bp⟩ := s
            obtain ⟨ly, ms, an, w⟩ := m
            simp only [Workshop.setVal, World.setVal]
            congr 2
            obtain ⟨mat, lb⟩ := w
            congr 1
            funext j
            by_cases hj : j = i
            · subst hj; simp [upd]
            · simp [upd, hj]
          rw [he]
          exact H.attach hi rfl hne h1
        · rw [hflip]
          simp only [Option.map_some, Option.some.injEq] at ha
          subst ha
          refine Sound.attach (s := s.setVal i ((s.m.world.mat i).val.map fun x => wrap8 (-x)))
            (H.setVal (i := i) (v := (s.m.world.mat i).val.map fun x => wrap8 (-x)) rfl fun hlay => ?_) hi ?_ hne h1
          · obtain ⟨k, hk⟩ := Option.ne_none_iff_exists'.mp hlay
            obtain ⟨-, lr, e1, e2⟩ := H.owner i k hk
            obtain ⟨L', hL'⟩ := H.world.facs k lr e1
            exact PMArr.flip (hL' _ (s.m.world.mat i) (by rw [List.getElem?_map, (H.position e2).1]; rfl)).2
          · simp [Workshop.setVal, World.setVal, upd, Arr.map]
      · cases h

theorem Sound.addMatrix {s : Workshop} (H : s.Sound) (val : Arr Int) (fixed : Bool) : (s.addMatrix val fixed).Sound := by
  have H' := H.newMatrix val 0 fixed
  have hn : s.m.layerOf s.next = none := by
    cases h : s.m.layerOf s.next with
    | none => rfl
    | some k => have := (H.owner _ k h).1; omega
  refine ⟨H'.model, H'.nodup, H'.factors, H'.axis, H'.layerOf, H'.owner, ?_, ?_, H'.parents, H'.childLt, H'.beta, H'.world,
    H'.fct, H'.lfct⟩
  · intro i hi
    have hi' : i ∈ s.m.matrices ++ [s.next] := hi
    rcases List.mem_append.mp hi' with h | h
    · exact H'.matrices i h
    · rw [List.mem_singleton] at h
      subst h
      exact ⟨Nat.lt_succ_self _, by simp [Workshop.addMatrix, Workshop.newMatrix, upd]⟩
  · show (s.m.matrices ++ [s.next]).Nodup
    refine List.Nodup.append H.matNodup (List.nodup_singleton _) ?_
    intro i h1 h2
    rw [List.mem_singleton] at h2
    have := (H.matrices i h1).1
    omega

theorem Sound.setClean {s : Workshop} (H : s.Sound) (k : Nat) (ac ar : Bool) :
    Sound { s with m := { s.m with
      layers := s.m.layers.modify k fun lr => { lr with auto_clean := ac, auto_reset := ar } } } := by
  have hl : ∀ (k' : Nat) (lr' : LayerInfo),
      (s.m.layers.modify k fun lr => { lr with auto_clean := ac, auto_reset := ar })[k']? = some lr' →
      ∃ lr : LayerInfo, s.m.layers[k']? = some lr ∧ lr'.factors = lr.factors ∧ lr'.model = lr.model ∧ lr'.q = lr.q := by
    intro k' lr' h
    rw [List.getElem?_modify] at h
    obtain ⟨lr, h1, rfl⟩ := Option.map_eq_some_iff.mp h
    refine ⟨lr, h1, ?_⟩
    split <;> exact ⟨rfl, rfl, rfl⟩
  have hl' : ∀ (k' : Nat) (lr : LayerInfo), s.m.layers[k']? = some lr → ∃ lr' : LayerInfo,
      (s.m.layers.modify k fun lr => { lr with auto_clean := ac, auto_reset := ar })[k']? = some lr' ∧
        lr'.factors = lr.factors ∧ lr'.model = lr.model := by
    intro k' lr h
    rw [List.getElem?_modify, h]
    refine ⟨_, rfl, ?_⟩
    split <;> exact ⟨rfl, rfl⟩
  refine ⟨?_, ?_, ?_, ?_, ?_, ?_, H.matrices, H.matNodup, ?_, ?_, ?_, ?_, ?_, ?_⟩
  · intro k' lr' h
    obtain ⟨lr, e1, e2, e3, e4⟩ := hl k' lr' h
    rw [e3]; exact H.model k' lr e1
  · intro k' lr' h
    obtain ⟨lr, e1, e2, e3, e4⟩ := hl k' lr' h
    rw [e2]; exact H.nodup k' lr e1
  · intro k' lr' h
    obtain ⟨lr, e1, e2, e3, e4⟩ := hl k' lr' h
    rw [e2, e4]; exact H.factors k' lr e1
  · intro k' lr' j i h hi
    obtain ⟨lr, e1, e2, e3, e4⟩ := hl k' lr' h
    rw [e2] at hi
    exact H.axis k' lr j i e1 hi
  · intro k' lr' i h hi
    obtain ⟨lr, e1, e2, e3, e4⟩ := hl k' lr' h
    rw [e2] at hi
    exact H.layerOf k' lr i e1 hi
  · intro i k' h
    obtain ⟨h1, lr, h2, h3⟩ := H.owner i k' h
    obtain ⟨lr', e1, e2, -⟩ := hl' k' lr h2
    exact ⟨h1, lr', e1, by rw [e2]; exact h3⟩
  · intro i p
    show p ∈ s.parents i ↔ p < (s.m.layers.modify k _).length ∧ s.child p = i
    rw [List.length_modify]; exact H.parents i p
  · intro p hp
    have : p < s.m.layers.length := by
      have h' : p < (s.m.layers.modify k _).length := hp
      rwa [List.length_modify] at h'
    exact H.childLt p this
  · intro p hp
    have : p < s.m.layers.length := by
      have h' : p < (s.m.layers.modify k _).length := hp
      rwa [List.length_modify] at h'
    exact H.beta p this
  · refine FitWorld.congr H.world fun k' lr' h => ?_
    obtain ⟨lr, e1, e2, e3, e4⟩ := hl k' lr' h
    exact ⟨lr, e1, e2, rfl, rfl, fun _ _ => rfl, H.world.lbda k' (List.getElem?_eq_some_iff.mp e1).1⟩
  · intro i f hf
    obtain ⟨k', lr, lom, h1, h2, h3, h4⟩ := H.fct i f hf
    obtain ⟨lr', e1, e2, e3⟩ := hl' k' lr h2
    exact ⟨k', lr', lom, h1, e1, by rw [e3]; exact h3, by rw [e2]; exact h4⟩
  · intro k' lr' g h hg
    obtain ⟨lr, e1, e2, e3, e4⟩ := hl k' lr' h
    rw [e2, e3]
    exact H.lfct k' lr g e1 hg

theorem Sound.infer {s s' : Workshop} (H : s.Sound) {S cw : Nat} {eps : ℝ} {bmin : Nat} {bmax : Int} {ps fx : Nat}
    {dr : Draws} (hc : CallOK s cw ps fx dr) (h : s.infer S cw eps bmin bmax ps fx dr = .ok s') : s'.Sound := by
  rw [Workshop.infer, bind_ok] at h
  obtain ⟨m', h, h'⟩ := h
  rw [pure_ok] at h'
  obtain ⟨m'', e1, e2, e3, e4, e5, e6, -⟩ := H.infer_ok (H.infer_ready hc.perm h) S cw eps bmin bmax ps fx dr hc
  rw [h] at e1
  obtain rfl := Except.ok.inj e1
  rw [← h']
  refine ⟨?_, ?_, ?_, ?_, ?_, ?_, ?_, ?_, ?_, ?_, ?_, ?_, ?_, ?_⟩ <;>
    simp only [e4.layers, e4.layerOf, e4.matrices]
  · exact H.model
  · exact H.nodup
  · exact H.factors
  · exact H.axis
  · exact H.layerOf
  · exact H.owner
  · exact H.matrices
  · exact H.matNodup
  · exact H.parents
  · exact H.childLt
  · exact H.beta
  · exact e2
  · exact e5
  · intro k lr g hk hg
    exact e6 k g hg lr hk

end Workshop

theorem Built.sound {s : Workshop} (h : Built s) : s.Sound := by
  induction h with
  | empty => exact Workshop.Sound.empty
  | @act s s' a _ hl hs H =>
    cases a with
    | addMatrix val fixed => cases hs; exact H.addMatrix val fixed
    | addLayer child shape L model init => exact H.addLayer hl hs
    | setFixed i b => cases hs; exact ⟨H.1, H.2, H.3, H.4, H.5, H.6, H.7, H.8, H.9, H.10, H.11, H.12, H.13, H.14⟩
    | setPrior i q => cases hs; exact ⟨H.1, H.2, H.3, H.4, H.5, H.6, H.7, H.8, H.9, H.10, H.11, H.12, H.13, H.14⟩
    | setEntries i mask =>
      cases hs
      refine ⟨H.1, H.2, H.3, H.4, H.5, H.6, H.7, H.8, H.9, H.10, H.11, ?_, H.13, H.14⟩
      have hv : ∀ j, (upd s.m.world.mat i { s.m.world.mat i with fixed_entries := mask } j).val = (s.m.world.mat j).val := by
        intro j
        by_cases hj : j = i
        · subst hj; simp [upd]
        · simp [upd, hj]
      exact Workshop.FitWorld.congr H.world fun k lr hk => ⟨lr, hk, rfl, rfl, hv _, fun j _ => hv j,
        H.world.lbda k (List.getElem?_eq_some_iff.mp hk).1⟩
    | setVal i v => cases hs; exact H.setVal hl.1 hl.2
    | setLbda k x =>
      cases hs
      exact ⟨H.1, H.2, H.3, H.4, H.5, H.6, H.7, H.8, H.9, H.10, H.11, Workshop.Sound.fit_lbda H.world k x, H.13, H.14⟩
    | setLbdaFixed k b => cases hs; exact ⟨H.1, H.2, H.3, H.4, H.5, H.6, H.7, H.8, H.9, H.10, H.11, H.12, H.13, H.14⟩
    | setBeta k a b =>
      cases hs
      refine ⟨H.1, H.2, H.3, H.4, H.5, H.6, H.7, H.8, H.9, H.10, fun k' hk' => ?_, H.12, H.13, H.14⟩
      by_cases h : k' = k
      · have hl' : 0 < a ∧ 0 < b := hl
        subst h; simpa [upd] using hl'
      · simpa [upd, h] using H.beta k' hk'
    | setClean k ac ar => cases hs; exact H.setClean k ac ar
    | setAnneal b => cases hs; exact ⟨H.1, H.2, H.3, H.4, H.5, H.6, H.7, H.8, H.9, H.10, H.11, H.12, H.13, H.14⟩
    | infer S cw eps bmin bmax ps fx dr => exact H.infer hl hs

end LFM

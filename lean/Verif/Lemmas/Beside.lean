import Verif.Lemmas.AssembleLater
import Verif.Lemmas.SpecialHier
import Verif.Lemmas.Sweepwise
import Verif.Props.Infer
import Verif.Props.Relabel
import Verif.Props.StoredLambda

/-! Lemmas on machines with parts that are not connected: machine `s'` has the matrices and layers of machine `s` and others
that have nothing to do with them. -/

namespace LFM

open Spec

/-- an action that concerns only matrices from number `c` and layers from number `n` on; `anneal` and inference concern all -/
def UserAct.Beyond (c n : Nat) : UserAct → Prop
  | .addMatrix _ _ => True
  | .addLayer child _ _ _ _ => ∀ i, child = some i → c ≤ i
  | .setFixed i _ | .setPrior i _ | .setEntries i _ | .setVal i _ => c ≤ i
  | .setLbda k _ | .setLbdaFixed k _ | .setBeta k _ _ | .setClean k _ _ => n ≤ k
  | .setAnneal _ | .infer .. => False

/-- `s'` comes about from `s` by legal actions that concern only what is new -/
inductive Beside (s : Workshop) : Workshop → Prop
  | refl : Beside s s
  | act {s1 s2 : Workshop} (a : UserAct) : Beside s s1 → a.Legal s1 → a.Beyond s.next s.m.layers.length →
      s1.step a = .ok s2 → Beside s s2

theorem Beside.reach {s s' : Workshop} (h : Beside s s') : Reach s s' := by
  induction h with
  | refl => exact .refl
  | act a _ h1 _ h2 ih => exact .act a ih h1 h2

/-- the first `c` matrices and `n` layers of the two machines are the same, and no other layer has factors among them -/
structure SamePart (c n : Nat) (s s' : Workshop) : Prop where
  next : c ≤ s'.next
  mat : ∀ i < c, s'.m.world.mat i = s.m.world.mat i
  lbda : ∀ k < n, s'.m.world.lbda k = s.m.world.lbda k
  layers : ∃ ls, s'.m.layers = s.m.layers ++ ls ∧ ∀ lr ∈ ls, ∀ i ∈ lr.factors, c ≤ i
  matrices : ∃ ms, s'.m.matrices = s.m.matrices ++ ms ∧ ∀ i ∈ ms, c ≤ i
  layerOf : ∀ i < c, s'.m.layerOf i = s.m.layerOf i
  prior : ∀ i < c, s'.m.bernoulli_prior i = s.m.bernoulli_prior i
  fixed : ∀ i < c, s'.m.fixed i = s.m.fixed i
  fct : ∀ i < c, s'.m.fct i = s.m.fct i
  childAxis : ∀ i < c, s'.childAxis i = s.childAxis i
  parents : ∀ i < c, s'.parents i = s.parents i
  child : ∀ k < n, s'.child k = s.child k
  beta : ∀ k < n, s'.beta_prior k = s.beta_prior k
  lfct : ∀ k < n, s'.m.lfct k = s.m.lfct k
  lfixed : ∀ k < n, s'.m.lfixed k = s.m.lfixed k
  clock : s'.m.clock = s.m.clock
  anneal : s'.m.anneal = s.m.anneal

namespace SamePart

variable {c n : Nat} {s s1 s' : Workshop}

theorem refl (c n : Nat) (s : Workshop) (h : c ≤ s.next) : SamePart c n s s :=
  ⟨h, fun _ _ => rfl, fun _ _ => rfl, ⟨[], by simp, by simp⟩, ⟨[], by simp, by simp⟩, fun _ _ => rfl, fun _ _ => rfl,
    fun _ _ => rfl, fun _ _ => rfl, fun _ _ => rfl, fun _ _ => rfl, fun _ _ => rfl, fun _ _ => rfl, fun _ _ => rfl,
    fun _ _ => rfl, rfl, rfl⟩

theorem upd_lt {α : Type} {f : Nat → α} {j i c : Nat} {v : α} (hj : c ≤ j) (hi : i < c) : upd f j v i = f i := by
  have : i ≠ j := by omega
  simp [upd, this]

theorem newMatrix (h : SamePart c n s s1) (val : Arr Int) (ax : Nat) (fixed : Bool) (layer : Option Nat) :
    SamePart c n s (s1.newMatrix val ax fixed layer) :=
  ⟨h.next.trans (Nat.le_succ _), fun i hi => (upd_lt h.next hi).trans (h.mat i hi), h.lbda, h.layers, h.matrices,
    fun i hi => (upd_lt h.next hi).trans (h.layerOf i hi), fun i hi => (upd_lt h.next hi).trans (h.prior i hi),
    fun i hi => (upd_lt h.next hi).trans (h.fixed i hi), fun i hi => (upd_lt h.next hi).trans (h.fct i hi),
    fun i hi => (upd_lt h.next hi).trans (h.childAxis i hi), fun i hi => (upd_lt h.next hi).trans (h.parents i hi),
    h.child, h.beta, h.lfct, h.lfixed, h.clock, h.anneal⟩

theorem setVal (h : SamePart c n s s1) (i : Nat) (v : Arr Int) (hi : c ≤ i) : SamePart c n s (s1.setVal i v) :=
  ⟨h.next, fun j hj => (upd_lt hi hj).trans (h.mat j hj), h.lbda, h.layers, h.matrices, h.layerOf, h.prior, h.fixed, h.fct,
    h.childAxis, h.parents, h.child, h.beta, h.lfct, h.lfixed, h.clock, h.anneal⟩

theorem addFactors (k L : Nat) (init : Nat → List Nat → Int) (shape : List Nat) : ∀ (j : Nat) {s1 : Workshop},
    SamePart c n s s1 → SamePart c n s (Workshop.addFactors k L init shape j s1) := by
  induction shape with
  | nil => intro j s1 h; exact h
  | cons K shape ih => intro j s1 h; exact ih (j + 1) (h.newMatrix _ _ _ _)

theorem len (h : SamePart c n s s1) : s.m.layers.length ≤ s1.m.layers.length := by
  obtain ⟨ls, e, -⟩ := h.layers
  rw [e, List.length_append]; omega

theorem attach (hn : n = s.m.layers.length) (h : SamePart c n s s1) (i : Nat) (hi : c ≤ i) (shape : List Nat) (L : Nat)
    (model : String) (init : Nat → List Nat → Int) : SamePart c n s (s1.attach i shape L model init) := by
  have hk : n ≤ s1.m.layers.length := hn ▸ h.len
  have h' := addFactors s1.m.layers.length L init shape 0 h
  obtain ⟨ls, e, hls⟩ := h'.layers
  refine ⟨h'.next, h'.mat, fun k hk' => (upd_lt hk hk').trans (h'.lbda k hk'), ⟨ls ++ [⟨(List.range shape.length).map (s1.next + ·), model, none, false, false⟩], ?_, ?_⟩, h'.matrices, h'.layerOf,
    h'.prior, h'.fixed, h'.fct, h'.childAxis, fun j hj => (upd_lt hi hj).trans (h'.parents j hj),
    fun k hk' => (upd_lt hk hk').trans (h'.child k hk'), fun k hk' => (upd_lt hk hk').trans (h'.beta k hk'),
    fun k hk' => (upd_lt hk hk').trans (h'.lfct k hk'), fun k hk' => (upd_lt hk hk').trans (h'.lfixed k hk'), h'.clock,
    h'.anneal⟩
  · exact (congrArg (· ++ [_]) e).trans (List.append_assoc _ _ _)
  · intro lr hlr j hj
    rw [List.mem_append, List.mem_singleton] at hlr
    rcases hlr with hlr | rfl
    · exact hls lr hlr j hj
    · obtain ⟨a, -, rfl⟩ := List.mem_map.1 hj
      have := h.next
      omega

theorem step (hn : n = s.m.layers.length) (h : SamePart c n s s1) {a : UserAct} (ha : a.Beyond c n) (hs : s1.step a = .ok s') :
    SamePart c n s s' := by
  cases a with
  | addMatrix val fixed =>
    cases hs
    have h' := h.newMatrix val 0 fixed none
    obtain ⟨ms, e, hms⟩ := h'.matrices
    refine ⟨h'.next, h'.mat, h'.lbda, h'.layers, ⟨ms ++ [s1.next], ?_, ?_⟩, h'.layerOf, h'.prior, h'.fixed, h'.fct, h'.childAxis,
      h'.parents, h'.child, h'.beta, h'.lfct, h'.lfixed, h'.clock, h'.anneal⟩
    · exact (congrArg (· ++ [_]) e).trans (List.append_assoc _ _ _)
    · intro i hi
      rw [List.mem_append, List.mem_singleton] at hi
      rcases hi with hi | rfl
      · exact hms i hi
      · exact h.next
  | addLayer child shape L model init =>
    rw [Workshop.step, Workshop.addLayer] at hs
    simp only at hs
    split at hs
    · cases hs
    · rename_i m0 d f hr
      split at hs
      · cases hs
      · rename_i hnn
        split at hs
        · cases hs
          exact (h.newMatrix _ _ _ _).attach hn _ h.next _ _ _ _
        · rename_i i
          cases hs
          split
          · exact (h.setVal i _ (ha i rfl)).attach hn i (ha i rfl) _ _ _ _
          · exact h.attach hn i (ha i rfl) _ _ _ _
        · cases hs
  | setFixed i b =>
    cases hs
    exact ⟨h.next, h.mat, h.lbda, h.layers, h.matrices, h.layerOf, h.prior, fun j hj => (upd_lt ha hj).trans (h.fixed j hj), h.fct,
      h.childAxis, h.parents, h.child, h.beta, h.lfct, h.lfixed, h.clock, h.anneal⟩
  | setPrior i q =>
    cases hs
    exact ⟨h.next, h.mat, h.lbda, h.layers, h.matrices, h.layerOf, fun j hj => (upd_lt ha hj).trans (h.prior j hj), h.fixed, h.fct,
      h.childAxis, h.parents, h.child, h.beta, h.lfct, h.lfixed, h.clock, h.anneal⟩
  | setEntries i mask =>
    cases hs
    exact ⟨h.next, fun j hj => (upd_lt ha hj).trans (h.mat j hj), h.lbda, h.layers, h.matrices, h.layerOf, h.prior, h.fixed, h.fct,
      h.childAxis, h.parents, h.child, h.beta, h.lfct, h.lfixed, h.clock, h.anneal⟩
  | setVal i v => cases hs; exact h.setVal i v ha
  | setLbda k x =>
    cases hs
    exact ⟨h.next, h.mat, fun j hj => (upd_lt ha hj).trans (h.lbda j hj), h.layers, h.matrices, h.layerOf, h.prior, h.fixed, h.fct,
      h.childAxis, h.parents, h.child, h.beta, h.lfct, h.lfixed, h.clock, h.anneal⟩
  | setLbdaFixed k b =>
    cases hs
    exact ⟨h.next, h.mat, h.lbda, h.layers, h.matrices, h.layerOf, h.prior, h.fixed, h.fct,
      h.childAxis, h.parents, h.child, h.beta, h.lfct, fun j hj => (upd_lt ha hj).trans (h.lfixed j hj), h.clock, h.anneal⟩
  | setBeta k x y =>
    cases hs
    exact ⟨h.next, h.mat, h.lbda, h.layers, h.matrices, h.layerOf, h.prior, h.fixed, h.fct,
      h.childAxis, h.parents, h.child, fun j hj => (upd_lt ha hj).trans (h.beta j hj), h.lfct, h.lfixed, h.clock, h.anneal⟩
  | setClean k ac ar =>
    cases hs
    obtain ⟨ls, e, hls⟩ := h.layers
    refine ⟨h.next, h.mat, h.lbda, ⟨ls.modify (k - n) fun lr => { lr with auto_clean := ac, auto_reset := ar }, ?_, ?_⟩, h.matrices,
      h.layerOf, h.prior, h.fixed, h.fct, h.childAxis, h.parents, h.child, h.beta, h.lfct, h.lfixed, h.clock, h.anneal⟩
    · show s1.m.layers.modify k _ = _
      have hk : n ≤ k := ha
      apply List.ext_getElem?
      intro j
      rw [List.getElem?_modify, e]
      by_cases hj : j < s.m.layers.length
      · have : ¬ k = j := by omega
        rw [List.getElem?_append_left hj, List.getElem?_append_left hj]
        simp [this]
      · rw [List.getElem?_append_right (by omega), List.getElem?_append_right (by omega), List.getElem?_modify]
        have : (k = j) = (k - n = j - s.m.layers.length) := by
          apply propext; omega
        simp only [this]
    · intro lr hlr i hi
      obtain ⟨j, hj⟩ := List.getElem?_of_mem hlr
      rw [List.getElem?_modify] at hj
      obtain ⟨lr0, h0, h1⟩ := Option.map_eq_some_iff.1 hj
      refine hls lr0 (List.mem_of_getElem? h0) i ?_
      rw [← h1] at hi
      split at hi <;> exact hi
  | setAnneal b => exact ha.elim
  | infer S cw eps bmin bmax ps fx dr => exact ha.elim

end SamePart

theorem Beside.samePart {s s' : Workshop} (h : Beside s s') : SamePart s.next s.m.layers.length s s' := by
  induction h with
  | refl => exact .refl _ _ s le_rfl
  | act a _ _ h2 h3 ih => exact ih.step rfl h2 h3

/-- two runs over lists that have the elements with `p` in common, in the same order, if the others have no effect -/
theorem foldlM_common {α β : Type} {P : α → β → Prop} {f : α → Nat → Except Err α} {g : β → Nat → Except Err β} {p : Nat → Bool}
    (hl : ∀ a b x a', p x = false → P a b → f a x = .ok a' → P a' b)
    (hr : ∀ a b x b', p x = false → P a b → g b x = .ok b' → P a b')
    (hb : ∀ a b x a' b', p x = true → P a b → f a x = .ok a' → g b x = .ok b' → P a' b') (xs : List Nat) :
    ∀ (ys : List Nat) (a a' : α) (b b' : β), xs.filter p = ys.filter p → P a b → xs.foldlM f a = .ok a' →
      ys.foldlM g b = .ok b' → P a' b' := by
  induction xs with
  | nil =>
    intro ys
    induction ys with
    | nil =>
      intro a a' b b' _ h h1 h2
      rw [List.foldlM_nil, pure_ok] at h1 h2
      rwa [← h1, ← h2]
    | cons y ys ih =>
      intro a a' b b' e h h1 h2
      rw [List.foldlM_cons, bind_ok] at h2
      obtain ⟨b1, e1, e2⟩ := h2
      have hy : p y = false := by
        by_contra hc
        rw [List.filter_cons_of_pos (by simpa using hc)] at e
        simp at e
      rw [List.filter_cons_of_neg (by simp [hy])] at e
      exact ih a a' b1 b' e (hr _ _ _ _ hy h e1) h1 e2
  | cons x xs ihx =>
    intro ys
    by_cases hx : p x = true
    · induction ys with
      | nil =>
        intro a a' b b' e
        rw [List.filter_cons_of_pos hx] at e
        simp at e
      | cons y ys ih =>
        intro a a' b b' e h h1 h2
        rw [List.foldlM_cons, bind_ok] at h2
        obtain ⟨b1, e1, e2⟩ := h2
        by_cases hy : p y = true
        · rw [List.filter_cons_of_pos hx, List.filter_cons_of_pos hy, List.cons.injEq] at e
          obtain ⟨rfl, e⟩ := e
          rw [List.foldlM_cons, bind_ok] at h1
          obtain ⟨a1, d1, d2⟩ := h1
          exact ihx ys a1 a' b1 b' e (hb _ _ _ _ _ hx h d1 e1) d2 e2
        · have hy' : p y = false := by simpa using hy
          rw [List.filter_cons_of_neg hy] at e
          exact ih a a' b1 b' e (hr _ _ _ _ hy' h e1) h1 e2
    · intro a a' b b' e h h1 h2
      have hx' : p x = false := by simpa using hx
      rw [List.filter_cons_of_neg hx] at e
      rw [List.foldlM_cons, bind_ok] at h1
      obtain ⟨a1, d1, d2⟩ := h1
      exact ihx ys a1 a' b b' e (hl _ _ _ _ hx' h d1) d2 h2

/-- the worlds are the same on the first `c` matrices and `n` layers; lambdas are single numbers -/
structure PartAgree (c n : Nat) (w w' : World) : Prop where
  mat : ∀ i < c, w'.mat i = w.mat i
  lbda : ∀ k < n, w'.lbda k = w.lbda k
  kind : ∀ k < n, (w.lbda k).kind = none

/-- the random draws for the first `c` matrices are the same, and these matrices are visited in the same order -/
structure SameDraws (c : Nat) (s s' : Workshop) (dr dr' : Draws) : Prop where
  rnd : ∀ t, ∀ i < c, dr'.rnd t i = dr.rnd t i
  perm : ∀ t, (dr'.perm t (freeMats s'.m)).filter (· < c) = dr.perm t (freeMats s.m)
  mem : ∀ t l, ∀ i ∈ dr.perm t l, i ∈ l
  mem' : ∀ t l, ∀ i ∈ dr'.perm t l, i ∈ l

namespace SamePart

variable {s s' : Workshop}

theorem layer (h : SamePart s.next s.m.layers.length s s') {k : Nat} (hk : k < s.m.layers.length) :
    s'.m.layers[k]? = s.m.layers[k]? := by
  obtain ⟨ls, e, -⟩ := h.layers
  rw [e, List.getElem?_append_left hk]

theorem factor_lt (H : s.Sound) {k : Nat} {lr : LayerInfo} (hk : s.m.layers[k]? = some lr) {i : Nat} (hi : i ∈ lr.factors) :
    i < s.next := (H.owner i k (H.layerOf k lr i hk hi)).1

theorem freeMats_common (H : s.Sound) (H' : s'.Sound) (h : SamePart s.next s.m.layers.length s s') :
    (freeMats s'.m).filter (· < s.next) = freeMats s.m := by
  obtain ⟨ls, e, hls⟩ := h.layers
  obtain ⟨ms, e', hms⟩ := h.matrices
  have hmem : ∀ i ∈ members s.m, i < s.next := by
    intro i hi
    rw [H.members_eq, List.mem_append, List.mem_flatMap] at hi
    rcases hi with ⟨lr, hlr, hi⟩ | hi
    · obtain ⟨k, hk⟩ := List.getElem?_of_mem hlr
      exact factor_lt H hk hi
    · exact (H.matrices i hi).1
  have hmm : (members s'.m).filter (· < s.next) = members s.m := by
    have hm1 := hmem
    rw [H'.members_eq, H.members_eq, e, e', List.flatMap_append]
    rw [H.members_eq] at hm1
    have k1 : (s.m.layers.flatMap LayerInfo.factors).filter (· < s.next) = s.m.layers.flatMap LayerInfo.factors :=
      List.filter_eq_self.2 fun i hi => by simpa using hm1 i (List.mem_append_left _ hi)
    have k2 : (s.m.matrices).filter (· < s.next) = s.m.matrices :=
      List.filter_eq_self.2 fun i hi => by simpa using hm1 i (List.mem_append_right _ hi)
    have k3 : (ls.flatMap LayerInfo.factors).filter (· < s.next) = [] := by
      rw [List.filter_eq_nil_iff]
      intro i hi
      obtain ⟨lr, hlr, hi⟩ := List.mem_flatMap.1 hi
      have := hls lr hlr i hi
      simpa using this
    have k4 : ms.filter (· < s.next) = [] := by
      rw [List.filter_eq_nil_iff]
      intro i hi
      have := hms i hi
      simpa using this
    simp only [List.filter_append, k1, k2, k3, k4, List.append_nil]
  rw [freeMats, List.filter_filter]
  have : (members s'.m).filter (fun a => decide (a < s.next) && !s'.m.fixed a) =
      ((members s'.m).filter (· < s.next)).filter fun a => !s'.m.fixed a := by
    rw [List.filter_filter]
    congr 1
    funext a
    exact Bool.and_comm _ _
  rw [this, hmm, freeMats]
  exact List.filter_congr fun i hi => by rw [h.fixed i (hmem i hi)]

theorem freeLbdas_common (h : SamePart s.next s.m.layers.length s s') :
    (freeLbdas s'.m).filter (· < s.m.layers.length) = freeLbdas s.m := by
  obtain ⟨ls, e, -⟩ := h.layers
  rw [freeLbdas, freeLbdas, e, List.length_append, List.range_add, List.filter_append, List.filter_append]
  have : ((List.map (s.m.layers.length + ·) (List.range ls.length)).filter fun k => !s'.m.lfixed k).filter
      (· < s.m.layers.length) = [] := by
    rw [List.filter_eq_nil_iff]
    intro i hi
    obtain ⟨j, -, rfl⟩ := List.mem_map.1 (List.mem_filter.1 hi).1
    simp
  rw [this, List.append_nil, List.filter_filter]
  refine List.filter_congr fun k hk => ?_
  have hk : k < s.m.layers.length := List.mem_range.1 hk
  simp [hk, h.lfixed k hk]

variable {dr dr' : Draws}

theorem setVal_agree {c n : Nat} {w w' : World} (A : PartAgree c n w w') {i : Nat} (hi : i < c) (v : Arr Int) :
    PartAgree c n (w.setVal i v) (w'.setVal i v) := by
  refine ⟨fun j hj => ?_, A.lbda, A.kind⟩
  by_cases e : j = i
  · subst e; simp [World.setVal, upd, A.mat j hj]
  · rw [World.setVal_ne _ _ e, World.setVal_ne _ _ e, A.mat j hj]

theorem parentAt_eq (H : s.Sound) (h : SamePart s.next s.m.layers.length s s') {w w' : World}
    (A : PartAgree s.next s.m.layers.length w w') {p : Nat} (hp : p < s.m.layers.length) :
    parentAt (s'.wiring dr') w' p = parentAt (s.wiring dr) w p := by
  show (s'.m.layers[p]?.bind fun lr => (w'.lbda p).float?.bind fun x => some (⟨lr.model, lr.factors.map fun i => (w'.mat i).val, x⟩ : ParentLayer)) =
    (s.m.layers[p]?.bind fun lr => (w.lbda p).float?.bind fun x => some (⟨lr.model, lr.factors.map fun i => (w.mat i).val, x⟩ : ParentLayer))
  rw [h.layer hp, A.lbda p hp]
  cases hk : s.m.layers[p]? with
  | none => rfl
  | some lr =>
    have : lr.factors.map (fun i => (w'.mat i).val) = lr.factors.map fun i => (w.mat i).val :=
      List.map_congr_left fun i hi => by rw [A.mat i (factor_lt H hk hi)]
    simp only [Option.bind_some, this]

theorem memberAt_eq (h : SamePart s.next s.m.layers.length s s') {w w' : World} (A : PartAgree s.next s.m.layers.length w w')
    {i : Nat} (hi : i < s.next) : memberAt (s'.wiring dr') w' i = memberAt (s.wiring dr) w i := by
  show (⟨(w'.mat i).val, (w'.mat i).fixed_entries, s'.childAxis i, 1 / 2⟩ : Member) =
    ⟨(w.mat i).val, (w.mat i).fixed_entries, s.childAxis i, 1 / 2⟩
  rw [A.mat i hi, h.childAxis i hi]

theorem layerView_eq (H : s.Sound) (h : SamePart s.next s.m.layers.length s s') {w w' : World}
    (A : PartAgree s.next s.m.layers.length w w') {i : Nat} (hi : i < s.next) :
    layerView (s'.wiring dr') w' i = layerView (s.wiring dr) w i := by
  unfold layerView
  have e : (s'.wiring dr').layerOf i = (s.wiring dr).layerOf i := h.layerOf i hi
  rw [e]
  cases hk : (s.wiring dr).layerOf i with
  | none => rfl
  | some k =>
    obtain ⟨-, lr, hlr, -⟩ := H.owner i k hk
    have hlt : k < s.m.layers.length := (List.getElem?_eq_some_iff.1 hlr).1
    have e1 : (s'.wiring dr').layers[k]? = some lr := (h.layer hlt).trans hlr
    have e2 : (s.wiring dr).layers[k]? = some lr := hlr
    have e3 : (s'.wiring dr').child k = (s.wiring dr).child k := h.child k hlt
    have e4 : lr.factors.map (memberAt (s'.wiring dr') w') = lr.factors.map (memberAt (s.wiring dr) w) :=
      List.map_congr_left fun j hj => memberAt_eq h A (factor_lt H hlr hj)
    have e5 : (w'.mat ((s.wiring dr).child k)) = w.mat ((s.wiring dr).child k) := A.mat _ (H.childLt k hlt)
    simp only [e1, e2, e3, e4, e5, A.lbda k hlt, Option.bind_eq_bind, Option.bind_some]

/-- sampling a common matrix -/
theorem runMat (H : s.Sound) (h : SamePart s.next s.m.layers.length s s') (D : SameDraws s.next s s' dr dr') {w w' w1 w1' : World}
    (A : PartAgree s.next s.m.layers.length w w') {f : Sampler} {i t : Nat} (hi : i < s.next)
    (h1 : runSampler (s.wiring dr) f i t w = .ok w1) (h2 : runSampler (s'.wiring dr') f i t w' = .ok w1') :
    PartAgree s.next s.m.layers.length w1 w1' := by
  have e1 := layerView_eq (dr := dr) (dr' := dr') H h A hi
  have e2 : ((s'.wiring dr').parents i).mapM (parentAt (s'.wiring dr') w') =
      ((s.wiring dr).parents i).mapM (parentAt (s.wiring dr) w) := by
    have : (s'.wiring dr').parents i = (s.wiring dr).parents i := h.parents i hi
    rw [this]
    have hlt : ∀ p ∈ s.parents i, p < s.m.layers.length := fun p hp => ((H.parents i p).1 hp).1
    have : ∀ ps : List Nat, (∀ p ∈ ps, p < s.m.layers.length) → ps.mapM (parentAt (s'.wiring dr') w') =
        ps.mapM (parentAt (s.wiring dr) w) := by
      intro ps
      induction ps with
      | nil => intro _; rfl
      | cons p ps ih =>
        intro hp
        rw [List.mapM_cons, List.mapM_cons, parentAt_eq (dr := dr) (dr' := dr') H h A (hp p (by simp)),
          ih fun q hq => hp q (by simp [hq])]
    exact this _ hlt
  have e3 : (s'.wiring dr').rnd t i = (s.wiring dr).rnd t i := D.rnd t i hi
  rw [runSampler] at h1 h2
  rw [e1, e2, e3, memberAt_eq (dr := dr) h A hi] at h2
  split at h1
  · rename_i fs k child lb pars hv hp
    rw [hv, hp] at h2
    dsimp only at h2
    rw [bind_ok] at h1 h2
    obtain ⟨v, a1, a2⟩ := h1
    obtain ⟨v', b1, b2⟩ := h2
    rw [a1] at b1
    cases b1
    rw [← pure_ok.1 a2, ← pure_ok.1 b2]
    exact setVal_agree A hi v
  · cases h1

theorem runLbda (H : s.Sound) (h : SamePart s.next s.m.layers.length s s') {w w' w1 w1' : World}
    (A : PartAgree s.next s.m.layers.length w w') {g : LbdaUpdate} {k t : Nat} (hk : k < s.m.layers.length)
    (h1 : runUpdate (s.wiring dr) g k t w = .ok w1) (h2 : runUpdate (s'.wiring dr') g k t w' = .ok w1') :
    PartAgree s.next s.m.layers.length w1 w1' := by
  obtain ⟨lr, hlr⟩ : ∃ lr, s.m.layers[k]? = some lr := ⟨_, List.getElem?_eq_getElem hk⟩
  have e1 : (s'.wiring dr').layers[k]? = some lr := (h.layer hk).trans hlr
  have e2 : (s.wiring dr).layers[k]? = some lr := hlr
  have e3 : (s'.wiring dr').child k = (s.wiring dr).child k := h.child k hk
  have e4 : lr.factors.map (fun i => (w'.mat i).val) = lr.factors.map fun i => (w.mat i).val :=
    List.map_congr_left fun i hi => by rw [A.mat i (factor_lt H hlr hi)]
  have e5 : (w'.mat ((s.wiring dr).child k)) = w.mat ((s.wiring dr).child k) := A.mat _ (H.childLt k hk)
  have e6 : (s'.wiring dr').beta_prior k = (s.wiring dr).beta_prior k := h.beta k hk
  rw [runUpdate, e2] at h1
  rw [runUpdate, e1] at h2
  simp only [(H.factors k lr hlr).2, e3, e4, e5, e6] at h1 h2
  rw [bind_ok] at h1 h2
  obtain ⟨x, a1, a2⟩ := h1
  obtain ⟨x', b1, b2⟩ := h2
  rw [a1] at b1
  cases b1
  rw [← pure_ok.1 a2, ← pure_ok.1 b2]
  refine ⟨A.mat, fun j hj => ?_, fun j hj => ?_⟩
  · by_cases e : j = k
    · simp [upd, e]
    · simp only [upd, e, if_false]; exact A.lbda j hj
  · by_cases e : j = k
    · simp [upd, e, LVal.kind]
    · simp only [upd, e, if_false]; exact A.kind j hj

theorem special_error (s : Workshop) (dr : Draws) : ∀ f i t w, ∃ e, (s.wiring dr).special f i t w = .error e :=
  fun _ _ _ _ => ⟨_, rfl⟩

theorem runLbda_only {wr : Wiring} {g : LbdaUpdate} {k t : Nat} {w w1 : World} (h : runUpdate wr g k t w = .ok w1) :
    w1.mat = w.mat ∧ ∀ j, j ≠ k → w1.lbda j = w.lbda j := by
  rw [runUpdate] at h
  split at h
  · cases h
  · rw [bind_ok] at h
    obtain ⟨x, -, h⟩ := h
    rw [← pure_ok.1 h]
    exact ⟨rfl, fun j hj => by simp [upd, hj]⟩

variable {fct fct' : Nat → Option Sampler} {lfct lfct' : Nat → Option LbdaUpdate}

theorem sweepM_agree (H : s.Sound) (h : SamePart s.next s.m.layers.length s s') (D : SameDraws s.next s s' dr dr')
    (hs : ∀ i ∈ freeMats s.m, i < s.next) (hf : ∀ i < s.next, fct' i = fct i) {w w' w1 w1' : World} {t : Nat} (A : PartAgree s.next s.m.layers.length w w')
    (h1 : sweepM (genericEnv (s.wiring dr)) fct (freeMats s.m) t w = .ok w1)
    (h2 : sweepM (genericEnv (s'.wiring dr')) fct' (freeMats s'.m) t w' = .ok w1') :
    PartAgree s.next s.m.layers.length w1 w1' := by
  rw [sweepM, callsM] at h1 h2
  refine foldlM_common (p := (· < s.next)) ?_ ?_ ?_ _ _ w w1 w' w1' ?_ A h1 h2
  · intro a b x a' hx hab ha
    have hx : ¬ x < s.next := by simpa using hx
    split at ha
    · cases ha
    · obtain ⟨v, rfl⟩ := runSampler_writes (special_error s dr) ha
      exact ⟨fun i hi => by rw [World.setVal_ne _ _ (by omega)]; exact hab.mat i hi, hab.lbda, hab.kind⟩
  · intro a b x b' hx hab hb
    have hx : ¬ x < s.next := by simpa using hx
    split at hb
    · cases hb
    · obtain ⟨v, rfl⟩ := runSampler_writes (special_error s' dr') hb
      exact ⟨fun i hi => by rw [World.setVal_ne _ _ (by omega)]; exact hab.mat i hi, hab.lbda, hab.kind⟩
  · intro a b x a' b' hx hab ha hb
    have hx : x < s.next := by simpa using hx
    rw [hf x hx] at hb
    split at ha
    · cases ha
    · rename_i f hfx
      rw [hfx] at hb
      exact runMat H h D hab hx ha hb
  · show (dr.perm t (freeMats s.m)).filter _ = (dr'.perm t (freeMats s'.m)).filter _
    rw [D.perm t]
    exact List.filter_eq_self.2 fun i hi => by simpa using hs i (D.mem t _ i hi)

theorem sweepL_agree (H : s.Sound) (h : SamePart s.next s.m.layers.length s s') (hf : ∀ k < s.m.layers.length, lfct' k = lfct k)
    {w w' w1 w1' : World} {t : Nat} (A : PartAgree s.next s.m.layers.length w w')
    (h1 : sweepL (genericEnv (s.wiring dr)) lfct (freeLbdas s.m) t w = .ok w1)
    (h2 : sweepL (genericEnv (s'.wiring dr')) lfct' (freeLbdas s'.m) t w' = .ok w1') :
    PartAgree s.next s.m.layers.length w1 w1' := by
  rw [sweepL] at h1 h2
  refine foldlM_common (p := (· < s.m.layers.length)) ?_ ?_ ?_ _ _ w w1 w' w1' ?_ A h1 h2
  · intro a b x a' hx hab ha
    have hx : ¬ x < s.m.layers.length := by simpa using hx
    split at ha
    · cases ha
    · obtain ⟨e1, e2⟩ := runLbda_only (t := t) ha
      exact ⟨fun i hi => by rw [e1]; exact hab.mat i hi, fun k hk => by rw [e2 k (by omega)]; exact hab.lbda k hk,
        fun k hk => by rw [e2 k (by omega)]; exact hab.kind k hk⟩
  · intro a b x b' hx hab hb
    have hx : ¬ x < s.m.layers.length := by simpa using hx
    split at hb
    · cases hb
    · obtain ⟨e1, e2⟩ := runLbda_only (t := t) hb
      exact ⟨fun i hi => by rw [e1]; exact hab.mat i hi, fun k hk => by rw [e2 k (by omega)]; exact hab.lbda k hk, hab.kind⟩
  · intro a b x a' b' hx hab ha hb
    have hx : x < s.m.layers.length := by simpa using hx
    rw [hf x hx] at hb
    split at ha
    · cases ha
    · rename_i f hfx
      rw [hfx] at hb
      exact runLbda (t := t) H h hab hx ha hb
  · rw [freeLbdas_common h]
    exact List.filter_eq_self.2 fun i hi => by simpa using (List.mem_range.1 (List.mem_filter.1 hi).1)

end SamePart

/-- `w` is the state after sweep number `t`, beginning with `w0` after sweep number `t0` -/
inductive Swept {F G : Type} (env : Env F G) (fct : Nat → Option F) (lfct : Nat → Option G) (mats lbdas : List Nat) (t0 : Nat) (w0 : World) :
    Nat → World → Prop
  | start : Swept env fct lfct mats lbdas t0 w0 t0 w0
  | step {t : Nat} {w w1 w2 : World} : Swept env fct lfct mats lbdas t0 w0 t w → sweepM env fct mats t w = .ok w1 →
      sweepL env lfct lbdas (t + 1) w1 = .ok w2 → Swept env fct lfct mats lbdas t0 w0 (t + 1) w2

theorem Swept.le {F G : Type} {env : Env F G} {fct : Nat → Option F} {lfct : Nat → Option G} {mats lbdas : List Nat} {t0 t : Nat}
    {w0 w : World} (h : Swept env fct lfct mats lbdas t0 w0 t w) : t0 ≤ t := by
  induction h with
  | start => exact le_rfl
  | step _ _ _ ih => omega

theorem samplingLoop_clock {F G : Type} {env : Env F G} {mats lbdas : List Nat} (hnd : mats.Nodup) (hndl : lbdas.Nodup) {ps : Nat} (n : Nat) :
    ∀ {m m' : Mach F G}, samplingLoop env mats lbdas ps n m = .ok m' → m'.clock = m.clock + n := by
  induction n with
  | zero => intro m m' h; simp only [samplingLoop, Except.ok.injEq] at h; rw [h]; rfl
  | succ n ih =>
    intro m m' h
    rw [samplingLoop, bind_ok] at h
    obtain ⟨m6, e1, e2⟩ := h
    obtain ⟨_, -, -, o, -⟩ := samplingStep_ok hnd hndl e1
    have := ih e2
    rw [o] at this
    rw [this]
    show m.clock + 1 + n = _
    omega

namespace SamePart

variable {s s' : Workshop} {dr dr' : Draws} {fct fct' : Nat → Option Sampler} {lfct lfct' : Nat → Option LbdaUpdate}

theorem swept_agree (H : s.Sound) (h : SamePart s.next s.m.layers.length s s') (D : SameDraws s.next s s' dr dr')
    (hs : ∀ i ∈ freeMats s.m, i < s.next) (hf : ∀ i < s.next, fct' i = fct i) (hlf : ∀ k < s.m.layers.length, lfct' k = lfct k)
    {t0 : Nat} {w0 w0' : World} (A : PartAgree s.next s.m.layers.length w0 w0') {t : Nat} {w : World}
    (h1 : Swept (genericEnv (s.wiring dr)) fct lfct (freeMats s.m) (freeLbdas s.m) t0 w0 t w) :
    ∀ {w' : World}, Swept (genericEnv (s'.wiring dr')) fct' lfct' (freeMats s'.m) (freeLbdas s'.m) t0 w0' t w' →
      PartAgree s.next s.m.layers.length w w' := by
  induction h1 with
  | start =>
    intro w' h2
    generalize ht : t0 = t at h2
    cases h2 with
    | start => exact A
    | step h2 _ _ =>
      have := h2.le
      omega
  | @step t w w1 w2 g1 g2 g3 ih =>
    intro w' h2
    have hle := g1.le
    generalize ht : t + 1 = t' at h2
    cases h2 with
    | start => omega
    | @step t' v v1 v2 k1 k2 k3 =>
      have : t = t' := by omega
      subst this
      exact sweepL_agree H h hlf (sweepM_agree H h D hs hf (ih k1) g2 k2) g3 k3

/-- the sampling functions that are assigned to the common matrices are the same -/
theorem assign_agree (H : s.Sound) (H' : s'.Sound) (h : SamePart s.next s.m.layers.length s s') {m1 m1' : Mach Sampler LbdaUpdate}
    (hs : ∀ i ∈ freeMats s.m, i < s.next)
    (h1 : (freeMats s.m).foldlM (assignFct (genericEnv (s.wiring dr))) s.m = .ok m1)
    (h2 : (freeMats s'.m).foldlM (assignFct (genericEnv (s'.wiring dr'))) s'.m = .ok m1') :
    m1 = { s.m with fct := m1.fct } ∧ m1' = { s'.m with fct := m1'.fct } ∧ ∀ i < s.next, m1'.fct i = m1.fct i := by
  have one : ∀ (s : Workshop) (dr : Draws) (_ : s.Sound) (a a' : Mach Sampler LbdaUpdate) (i : Nat), a = { s.m with fct := a.fct } →
      assignFct (genericEnv (s.wiring dr)) a i = .ok a' → a' = { s.m with fct := a'.fct } ∧
      (a.fct i ≠ none ∧ a'.fct = a.fct ∨ a.fct i = none ∧
        ∃ f e, getSampler (s.wiring dr) a i = .ok (f, e) ∧ a'.fct = upd a.fct i f) := by
    intro s dr H a a' i ha h
    rw [assignFct] at h
    cases hf : a.fct i with
    | some f =>
      rw [hf] at h
      simp only [Except.ok.injEq] at h
      subst h
      exact ⟨ha, .inl ⟨by simp, rfl⟩⟩
    | none =>
      rw [hf] at h
      dsimp only at h
      rw [bind_ok] at h
      obtain ⟨⟨f, extra⟩, g1, g2⟩ := h
      have hx : extra = none := by
        change getSampler (s.wiring dr) a i = _ at g1
        unfold getSampler at g1
        dsimp only at g1
        rw [bind_ok] at g1
        obtain ⟨sm, -, g1⟩ := g1
        have hq : ((a.layerOf i).bind fun k => a.layers[k]?).bind LayerInfo.q = none := by
          have e1 : a.layerOf = s.m.layerOf := by rw [ha]
          have e2 : a.layers = s.m.layers := by rw [ha]
          rw [e1, e2]
          cases hk : s.m.layerOf i with
          | none => rfl
          | some k =>
            obtain ⟨-, lr, hlr, -⟩ := H.owner i k hk
            simp [hlr, (H.factors k lr hlr).2]
        split at g1
        · have := pure_ok.1 g1; cases this; rfl
        · rw [hq] at g1; have := pure_ok.1 g1; cases this; rfl
        · rw [hq] at g1; have := pure_ok.1 g1; cases this; rfl
        · have := pure_ok.1 g1; cases this; rfl
      subst hx
      have g2 := pure_ok.1 g2
      subst g2
      refine ⟨?_, .inr ⟨rfl, f, none, g1, rfl⟩⟩
      rw [ha]
  refine foldlM_common (p := (· < s.next))
    (P := fun a b => a = { s.m with fct := a.fct } ∧ b = { s'.m with fct := b.fct } ∧ ∀ i < s.next, b.fct i = a.fct i)
    ?_ ?_ ?_ _ _ s.m m1 s'.m m1' ?_ ⟨rfl, rfl, h.fct⟩ h1 h2
  · rintro a b x a' hx ⟨e1, e2, e3⟩ ha
    have hx : ¬ x < s.next := by simpa using hx
    obtain ⟨g1, g2⟩ := one s dr H a a' x e1 ha
    refine ⟨g1, e2, fun i hi => ?_⟩
    rcases g2 with ⟨-, g2⟩ | ⟨-, f, e, -, g2⟩
    · rw [g2]; exact e3 i hi
    · rw [g2, upd_lt (by omega) hi]; exact e3 i hi
  · rintro a b x b' hx ⟨e1, e2, e3⟩ hb
    have hx : ¬ x < s.next := by simpa using hx
    obtain ⟨g1, g2⟩ := one s' dr' H' b b' x e2 hb
    refine ⟨e1, g1, fun i hi => ?_⟩
    rcases g2 with ⟨-, g2⟩ | ⟨-, f, e, -, g2⟩
    · rw [g2]; exact e3 i hi
    · rw [g2, upd_lt (by omega) hi]; exact e3 i hi
  · rintro a b x a' b' hx ⟨e1, e2, e3⟩ ha hb
    have hx : x < s.next := by simpa using hx
    obtain ⟨g1, g2⟩ := one s dr H a a' x e1 ha
    obtain ⟨k1, k2⟩ := one s' dr' H' b b' x e2 hb
    refine ⟨g1, k1, fun i hi => ?_⟩
    rcases g2 with ⟨g0, g2⟩ | ⟨g0, f, e, g3, g2⟩ <;> rcases k2 with ⟨k0, k2⟩ | ⟨k0, f', e', k3, k2⟩
    · rw [g2, k2]; exact e3 i hi
    · rw [e3 x hx] at k0; exact absurd k0 g0
    · rw [e3 x hx] at k0; exact absurd g0 k0
    · have hg : getSampler (s'.wiring dr') b x = getSampler (s.wiring dr) a x := by
        have a1 : a.layerOf = s.m.layerOf := by rw [e1]
        have a2 : a.layers = s.m.layers := by rw [e1]
        have a3 : a.world = s.m.world := by rw [e1]
        have a4 : a.bernoulli_prior = s.m.bernoulli_prior := by rw [e1]
        have b1 : b.layerOf = s'.m.layerOf := by rw [e2]
        have b2 : b.layers = s'.m.layers := by rw [e2]
        have b3 : b.world = s'.m.world := by rw [e2]
        have b4 : b.bernoulli_prior = s'.m.bernoulli_prior := by rw [e2]
        have hlr : ((s'.m.layerOf x).bind fun k => s'.m.layers[k]?) = (s.m.layerOf x).bind fun k => s.m.layers[k]? := by
          rw [h.layerOf x hx]
          cases hk : s.m.layerOf x with
          | none => rfl
          | some k =>
            obtain ⟨-, lr, hlr, -⟩ := H.owner x k hk
            exact h.layer (List.getElem?_eq_some_iff.1 hlr).1
        have hpar : ((s'.wiring dr').parents x).filterMap (fun p => s'.m.layers[p]?.map fun lr => (lr.model, lr.factors.length)) =
            ((s.wiring dr).parents x).filterMap fun p => s.m.layers[p]?.map fun lr => (lr.model, lr.factors.length) := by
          have : (s'.wiring dr').parents x = s.parents x := h.parents x hx
          rw [this]
          show _ = (s.parents x).filterMap _
          refine List.filterMap_congr fun p hp => ?_
          rw [h.layer ((H.parents x p).1 hp).1]
        unfold getSampler
        dsimp only
        rw [a1, a2, a3, a4, b1, b2, b3, b4, hlr, hpar, h.prior x hx]
        have hax : (s'.wiring dr').childAxis x = (s.wiring dr).childAxis x := h.childAxis x hx
        rw [hax]
        cases hl : (s.m.layerOf x).bind fun k => s.m.layers[k]? with
        | none => rfl
        | some lr =>
          obtain ⟨k, -, hlr'⟩ := Option.bind_eq_some_iff.1 hl
          dsimp only
          have hm : lr.factors.map (fun j => (⟨(s'.m.world.mat j).val, (s'.m.world.mat j).fixed_entries, (s'.wiring dr').childAxis j,
                s'.m.bernoulli_prior j⟩ : Member)) =
              lr.factors.map fun j => (⟨(s.m.world.mat j).val, (s.m.world.mat j).fixed_entries, (s.wiring dr).childAxis j,
                s.m.bernoulli_prior j⟩ : Member) := by
            refine List.map_congr_left fun j hj => ?_
            have hj := factor_lt H hlr' hj
            have hax : (s'.wiring dr').childAxis j = (s.wiring dr).childAxis j := h.childAxis j hj
            rw [h.mat j hj, h.prior j hj, hax]
          rw [hm]
      rw [hg, g3] at k3
      cases k3
      rw [g2, k2]
      by_cases e : i = x
      · simp [upd, e]
      · simp only [upd, e, if_false]; exact e3 i hi
  · rw [freeMats_common H H' h]
    exact List.filter_eq_self.2 fun i hi => by simpa using hs i hi

theorem assignL_agree (h : SamePart s.next s.m.layers.length s s') {m1 m1' m2 m2' : Mach Sampler LbdaUpdate}
    (e1 : m1 = { s.m with fct := m1.fct }) (e2 : m1' = { s'.m with fct := m1'.fct })
    (h1 : (freeLbdas s.m).foldlM (assignLfct (genericEnv (s.wiring dr))) m1 = .ok m2)
    (h2 : (freeLbdas s'.m).foldlM (assignLfct (genericEnv (s'.wiring dr'))) m1' = .ok m2') :
    m2 = { m1 with lfct := m2.lfct } ∧ m2' = { m1' with lfct := m2'.lfct } ∧ ∀ k < s.m.layers.length, m2'.lfct k = m2.lfct k := by
  have one : ∀ (wr : Wiring) (a0 a a' : Mach Sampler LbdaUpdate) (i : Nat), a = { a0 with lfct := a.lfct } →
      assignLfct (genericEnv wr) a i = .ok a' → a' = { a0 with lfct := a'.lfct } ∧
      (a.lfct i ≠ none ∧ a'.lfct = a.lfct ∨ a.lfct i = none ∧ ∃ g, getUpdate a i = .ok g ∧ a'.lfct = upd a.lfct i (some g)) := by
    intro wr a0 a a' i ha h
    rw [assignLfct] at h
    cases hf : a.lfct i with
    | some f =>
      rw [hf] at h
      simp only [Except.ok.injEq] at h
      subst h
      exact ⟨ha, .inl ⟨by simp, rfl⟩⟩
    | none =>
      rw [hf] at h
      dsimp only at h
      rw [bind_ok] at h
      obtain ⟨g, g1, g2⟩ := h
      have g2 := pure_ok.1 g2
      subst g2
      refine ⟨?_, .inr ⟨rfl, g, g1, rfl⟩⟩
      rw [ha]
  have l1 : m1.lfct = s.m.lfct := by rw [e1]
  have l2 : m1'.lfct = s'.m.lfct := by rw [e2]
  refine foldlM_common (p := (· < s.m.layers.length))
    (P := fun a b => a = { m1 with lfct := a.lfct } ∧ b = { m1' with lfct := b.lfct } ∧ ∀ i < s.m.layers.length, b.lfct i = a.lfct i)
    ?_ ?_ ?_ _ _ m1 m2 m1' m2' ?_ ⟨rfl, rfl, fun k hk => by rw [l1, l2]; exact h.lfct k hk⟩ h1 h2
  · rintro a b x a' hx ⟨e1, e2, e3⟩ ha
    have hx : ¬ x < s.m.layers.length := by simpa using hx
    obtain ⟨g1, g2⟩ := one _ m1 a a' x e1 ha
    refine ⟨g1, e2, fun i hi => ?_⟩
    rcases g2 with ⟨-, g2⟩ | ⟨-, f, -, g2⟩
    · rw [g2]; exact e3 i hi
    · rw [g2, upd_lt (by omega) hi]; exact e3 i hi
  · rintro a b x b' hx ⟨e1, e2, e3⟩ hb
    have hx : ¬ x < s.m.layers.length := by simpa using hx
    obtain ⟨g1, g2⟩ := one _ m1' b b' x e2 hb
    refine ⟨e1, g1, fun i hi => ?_⟩
    rcases g2 with ⟨-, g2⟩ | ⟨-, f, -, g2⟩
    · rw [g2]; exact e3 i hi
    · rw [g2, upd_lt (by omega) hi]; exact e3 i hi
  · rintro a b x a' b' hx ⟨d1, d2, d3⟩ ha hb
    have hx : x < s.m.layers.length := by simpa using hx
    obtain ⟨g1, g2⟩ := one _ m1 a a' x d1 ha
    obtain ⟨k1, k2⟩ := one _ m1' b b' x d2 hb
    refine ⟨g1, k1, fun i hi => ?_⟩
    rcases g2 with ⟨g0, g2⟩ | ⟨g0, f, g3, g2⟩ <;> rcases k2 with ⟨k0, k2⟩ | ⟨k0, f', k3, k2⟩
    · rw [g2, k2]; exact d3 i hi
    · rw [d3 x hx] at k0; exact absurd k0 g0
    · rw [d3 x hx] at k0; exact absurd g0 k0
    · have a2 : a.layers = s.m.layers := by rw [d1]; show m1.layers = _; rw [e1]
      have b2 : b.layers = s'.m.layers := by rw [d2]; show m1'.layers = _; rw [e2]
      have hg : getUpdate b x = getUpdate a x := by
        unfold getUpdate
        rw [a2, b2, h.layer hx]
      rw [hg, g3] at k3
      cases k3
      rw [g2, k2]
      by_cases e : i = x
      · simp [upd, e]
      · simp only [upd, e, if_false]; exact d3 i hi
  · rw [freeLbdas_common h]
    exact List.filter_eq_self.2 fun i hi => by simpa using (List.mem_range.1 (List.mem_filter.1 hi).1)

end SamePart

/-- the number of sweeps of inference -/
theorem infer_clock {F G : Type} {env : Env F G} {S cw bmin ps fx : Nat} {eps : ℝ} {bmax : Int} {m m' m1 m2 m3 : Mach F G}
    (hnd : (freeMats m).Nodup) (hp : ∀ t, ∀ i ∈ env.perm t (freeMats m), i ∈ freeMats m)
    (h : infer env S cw eps bmin bmax ps fx m = .ok m') (h1 : (freeMats m).foldlM (assignFct env) m = .ok m1)
    (h2 : (freeLbdas m).foldlM (assignLfct env) m1 = .ok m2)
    (h3 : burn_in env (freeMats m) (freeLbdas m) eps cw bmin bmax ps fx (resetIndices (freeMats m) (freeLbdas m) m2) = .ok m3) :
    m'.clock = m3.clock + S := by
  obtain ⟨n1, n2, n3, n4, e1, e2, e3, e4, e5⟩ := infer_phases h
  rw [h1] at e1; cases e1
  rw [h2] at e2; cases e2
  rw [h3] at e3; cases e3
  obtain ⟨o4, -⟩ := allocMats_ok _ e4
  rw [samplingLoop_clock hnd (nodup_freeLbdas m) S e5]
  show n4.clock + S = _
  rw [o4]

/-- the number of sweeps if `burn_in_max` is at most `burn_in_min` -/
theorem workshop_clock {s r : Workshop} (H : s.Sound) {dr : Draws} (hp : ∀ t l, ∀ i ∈ dr.perm t l, i ∈ l) {S cw bmin ps fx : Nat}
    {eps : ℝ} {bmax : Int} (hm : bmax ≤ bmin) (h : s.infer S cw eps bmin bmax ps fx dr = .ok r) :
    r.m.clock = s.m.clock + bmin + S := by
  rw [Workshop.infer, bind_ok] at h
  obtain ⟨m, h, e⟩ := h
  rw [pure_ok] at e
  subst e
  obtain ⟨n1, n2, n3, n4, e1, e2, e3, e4, e5⟩ := infer_phases h
  show m.clock = _
  rw [infer_clock H.nodup_free (fun t i hi => hp t _ i hi) h e1 e2 e3]
  obtain ⟨j, j1, j2, j3, -⟩ := burn_in_count e3
  have : n2.clock = s.m.clock := (lassign_clock e2).trans (assign_clock e1)
  have j2' : n3.clock = n2.clock + (bmin + (j - 1)) := j2
  rw [max_eq_right (by omega)] at j3
  omega

end LFM

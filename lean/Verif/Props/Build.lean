import Verif.Model.Build
import Verif.Props.AddLayer

/-!
# C77: the caller's arrays
-/

namespace LFM

open Spec

/-- the action is a call of `add_layer` with an inverting model whose child refers to array `a` -/
def Spec.InvertsAt (s : Session) (a : Nat) (act : BAct) : Prop :=
  ∃ m size model init mat, act = .addLayer m size model init ∧ s.mats[m]? = some mat ∧ mat.val = a ∧ Inverts model

namespace Session

/-- every matrix refers to an existing int8 array -/
def Ok (s : Session) : Prop := ∀ m ∈ s.mats, m.val < s.next ∧ (s.mem m.val).dtype = .int8

theorem Ok.alloc {s : Session} (h : s.Ok) (a : NpArr) : (s.alloc a).Ok := by
  intro m hm
  obtain ⟨h1, h2⟩ := h m hm
  have : m.val ≠ s.next := by omega
  exact ⟨Nat.lt_succ_of_lt h1, by simp [Session.alloc, this, h2]⟩

theorem Ok.inplace {s : Session} (h : s.Ok) (addr : Nat) (f : Arr Int → Arr Int) : (s.inplace addr f).Ok := by
  intro m hm
  obtain ⟨h1, h2⟩ := h m hm
  refine ⟨h1, ?_⟩
  by_cases e : m.val = addr
  · subst e; simp [Session.inplace, h2]
  · simp [Session.inplace, e, h2]

theorem Ok.machineMatrix {s : Session} (h : s.Ok) {addr : Nat} (h1 : addr < s.next) (h2 : (s.mem addr).dtype = .int8)
    (fixed : Bool) : (s.machineMatrix addr fixed).Ok := by
  intro m hm
  rcases List.mem_append.1 hm with hm | hm
  · exact h m hm
  · rw [List.mem_singleton.1 hm]; exact ⟨h1, h2⟩

theorem Ok.alloc_matrix {s : Session} (h : s.Ok) (a : Arr Int) (fixed : Bool) :
    ((s.alloc ⟨.int8, a⟩).machineMatrix s.next fixed).Ok :=
  (h.alloc _).machineMatrix (Nat.lt_succ_self _) (by simp [Session.alloc]) fixed

theorem addFactors_spec (size : Nat) (init : Nat → List Nat → Int) : ∀ (shape : List Nat) (i : Nat) (s : Session),
    (s.Ok → (s.addFactors size init shape i).Ok) ∧ s.next ≤ (s.addFactors size init shape i).next ∧
      (∀ a < s.next, (s.addFactors size init shape i).mem a = s.mem a) ∧
      ∃ ms, (s.addFactors size init shape i).mats = s.mats ++ ms ∧ ∀ m ∈ ms, s.next ≤ m.val
  | [], _, s => ⟨id, le_rfl, fun _ _ => rfl, [], by simp [addFactors], by simp⟩
  | K :: shape, i, s => by
    obtain ⟨h1, h2, h3, ms, h4, h5⟩ := addFactors_spec size init shape (i + 1)
      ((s.alloc ⟨.int8, ⟨[K, size], init i⟩⟩).machineMatrix s.next false)
    rw [addFactors]
    refine ⟨fun h => h1 (h.alloc_matrix _ _), le_trans (Nat.le_succ _) h2, fun a ha => ?_,
      ⟨s.next, false⟩ :: ms, ?_, ?_⟩
    · rw [h3 a (Nat.lt_succ_of_lt ha)]
      have : a ≠ s.next := by omega
      simp [Session.machineMatrix, Session.alloc, this]
    · rw [h4]; simp [Session.machineMatrix, Session.alloc]
    · intro m hm
      rcases List.mem_cons.1 hm with rfl | hm
      · exact le_rfl
      · exact le_trans (Nat.le_succ _) (h5 m hm)

/-- what `add_layer` does: an in-place inversion if the model asks for it, and new matrices -/
theorem addLayer_cases (s : Session) (m size : Nat) (model : String) (init : Nat → List Nat → Int) :
    s.addLayer m size model init = s ∧ (∀ mat, s.mats[m]? = some mat → ¬ Inverts model) ∨
    ∃ mat, s.mats[m]? = some mat ∧ s.addLayer m size model init =
      (s.inplace mat.val fun a => if Inverts model then a.map (fun x => wrap8 (-x)) else a).addFactors size init
        (s.mem mat.val).arr.shape 0 := by
  unfold addLayer
  cases hm : s.mats[m]? with
  | none => left; simp
  | some mat =>
    simp only []
    have hv := canonise_model_val model (s.mem mat.val).arr
    cases hc : canonise_model model (some (s.mem mat.val).arr) with
    | mk v r =>
      rw [hc] at hv
      simp only at hv
      subst hv
      cases r with
      | ok r =>
        right
        refine ⟨mat, rfl, ?_⟩
        congr 1
      | error e =>
        left
        refine ⟨rfl, fun mat' h' => ?_⟩
        rintro ⟨m', f, hcf⟩
        rw [canonise_model, hcf] at hc
        simp at hc

theorem Ok.step {s : Session} (h : s.Ok) (a : BAct) (ha : ∀ addr fixed, a = .addMatrix addr fixed → addr < s.next) :
    (s.step a).Ok ∧ s.next ≤ (s.step a).next := by
  cases a with
  | alloc a => exact ⟨h.alloc a, Nat.le_succ _⟩
  | write addr f => exact ⟨h.inplace _ _, le_rfl⟩
  | addMatrix addr fixed =>
    show (s.addMatrix addr fixed).Ok ∧ s.next ≤ (s.addMatrix addr fixed).next
    unfold addMatrix
    split
    · exact ⟨h.alloc_matrix _ _, Nat.le_succ _⟩
    · rename_i hd
      exact ⟨h.machineMatrix (ha _ _ rfl) (by simpa using hd) fixed, le_rfl⟩
  | addLayer m size model init =>
    show (s.addLayer m size model init).Ok ∧ s.next ≤ (s.addLayer m size model init).next
    rcases addLayer_cases s m size model init with ⟨e, -⟩ | ⟨mat, -, e⟩
    · rw [e]; exact ⟨h, le_rfl⟩
    · rw [e]
      obtain ⟨h1, h2, -⟩ := addFactors_spec size init (s.mem mat.val).arr.shape 0
        (s.inplace mat.val fun a => if Inverts model then a.map (fun x => wrap8 (-x)) else a)
      exact ⟨h1 (h.inplace _ _), h2⟩
  | sample m f =>
    simp only [Session.step]
    split
    · split
      · exact ⟨h, le_rfl⟩
      · exact ⟨h.inplace _ _, le_rfl⟩
    · exact ⟨h, le_rfl⟩
  | setToMap m mean =>
    simp only [Session.step]
    split
    · rename_i mat hm
      refine ⟨fun m' hm' => ?_, Nat.le_succ _⟩
      rcases List.mem_or_eq_of_mem_set hm' with hm' | rfl
      · exact h.alloc _ m' hm'
      · exact ⟨Nat.lt_succ_self _, by simp [Session.alloc]⟩
    · exact ⟨h, le_rfl⟩

/-- what one action does to an existing array -/
theorem step_mem (s : Session) (act : BAct) {a : Nat} (ha : a < s.next) (hw : ∀ f, act ≠ .write a f)
    (hs : ∀ (m : Nat) (mat : MatRef), s.mats[m]? = some mat → mat.val = a → mat.fixed = true) :
    (¬ InvertsAt s a act ∧ (s.step act).mem a = s.mem a) ∨ (InvertsAt s a act ∧
      (s.step act).mem a = ⟨(s.mem a).dtype, (s.mem a).arr.map fun x => wrap8 (-x)⟩) := by
  have hn : ∀ {act}, (∀ m size model init, act ≠ .addLayer m size model init) → ¬ InvertsAt s a act := by
    rintro act h ⟨m, size, model, init, -, e, -⟩
    exact h m size model init e
  have hne : a ≠ s.next := by omega
  cases act with
  | alloc x => refine Or.inl ⟨hn (by simp), ?_⟩; simp [Session.step, Session.alloc, hne]
  | write addr f =>
    refine Or.inl ⟨hn (by simp), ?_⟩
    have : a ≠ addr := fun e => hw f (by rw [e])
    simp [Session.step, Session.inplace, this]
  | addMatrix addr fixed =>
    refine Or.inl ⟨hn (by simp), ?_⟩
    simp only [Session.step, addMatrix]
    split
    · simp [Session.machineMatrix, Session.alloc, hne]
    · rfl
  | addLayer m size model init =>
    simp only [Session.step]
    rcases addLayer_cases s m size model init with ⟨e, hi⟩ | ⟨mat, hm, e⟩
    · refine Or.inl ⟨?_, by rw [e]⟩
      rintro ⟨m', size', model', init', mat', e1, e2, e3, e4⟩
      cases e1
      exact hi mat' e2 e4
    · obtain ⟨-, -, h3, -⟩ := addFactors_spec size init (s.mem mat.val).arr.shape 0
        (s.inplace mat.val fun a => if Inverts model then a.map (fun x => wrap8 (-x)) else a)
      rw [e, h3 a ha]
      by_cases hv : a = mat.val
      · subst hv
        by_cases hi : Inverts model
        · right
          exact ⟨⟨m, size, model, init, mat, rfl, hm, rfl, hi⟩, by simp [Session.inplace, hi]⟩
        · refine Or.inl ⟨?_, by simp [Session.inplace, hi]⟩
          rintro ⟨m', size', model', init', mat', e1, e2, e3, e4⟩
          cases e1
          exact hi e4
      · refine Or.inl ⟨?_, by simp [Session.inplace, hv]⟩
        rintro ⟨m', size', model', init', mat', e1, e2, e3, e4⟩
        cases e1
        rw [hm] at e2
        cases e2
        exact hv e3.symm
  | sample m f =>
    refine Or.inl ⟨hn (by simp), ?_⟩
    simp only [Session.step]
    split
    · rename_i mat hm
      split
      · rfl
      · rename_i hf
        have : a ≠ mat.val := fun e => hf (hs m mat hm e.symm)
        simp [Session.inplace, this]
    · rfl
  | setToMap m mean =>
    refine Or.inl ⟨hn (by simp), ?_⟩
    simp only [Session.step]
    split
    · simp [Session.alloc, hne]
    · rfl

/-- which matrices refer to `a` after an action -/
theorem step_mats (s : Session) (act : BAct) {a : Nat} (ha : a < s.next) {m' : MatRef} (hm : m' ∈ (s.step act).mats)
    (hv : m'.val = a) : (∃ m'' ∈ s.mats, m''.val = a ∧ m''.fixed = m'.fixed) ∨
      (act = .addMatrix a m'.fixed ∧ (s.mem a).dtype = .int8) := by
  have hne : a ≠ s.next := by omega
  cases act with
  | alloc x => exact Or.inl ⟨m', hm, hv, rfl⟩
  | write addr f => exact Or.inl ⟨m', hm, hv, rfl⟩
  | addMatrix addr fixed =>
    simp only [Session.step, addMatrix] at hm
    split at hm
    · rcases List.mem_append.1 hm with hm | hm
      · exact Or.inl ⟨m', hm, hv, rfl⟩
      · rw [List.mem_singleton.1 hm] at hv
        exact absurd hv.symm hne
    · rename_i hd
      rcases List.mem_append.1 hm with hm | hm
      · exact Or.inl ⟨m', hm, hv, rfl⟩
      · have e := List.mem_singleton.1 hm
        subst e
        simp only at hv
        subst hv
        exact Or.inr ⟨rfl, by simpa using hd⟩
  | addLayer m size model init =>
    simp only [Session.step] at hm
    rcases addLayer_cases s m size model init with ⟨e, -⟩ | ⟨mat, -, e⟩
    · rw [e] at hm; exact Or.inl ⟨m', hm, hv, rfl⟩
    · obtain ⟨-, -, -, ms, h4, h5⟩ := addFactors_spec size init (s.mem mat.val).arr.shape 0
        (s.inplace mat.val fun a => if Inverts model then a.map (fun x => wrap8 (-x)) else a)
      rw [e, h4] at hm
      rcases List.mem_append.1 hm with hm | hm
      · exact Or.inl ⟨m', hm, hv, rfl⟩
      · have : s.next ≤ m'.val := h5 m' hm
        omega
  | sample m f =>
    simp only [Session.step] at hm
    split at hm
    · split at hm <;> exact Or.inl ⟨m', hm, hv, rfl⟩
    · exact Or.inl ⟨m', hm, hv, rfl⟩
  | setToMap m mean =>
    simp only [Session.step] at hm
    split at hm
    · rcases List.mem_or_eq_of_mem_set hm with hm | rfl
      · exact Or.inl ⟨m', hm, hv, rfl⟩
      · exact absurd hv.symm hne
    · exact Or.inl ⟨m', hm, hv, rfl⟩

end Session

/-! ## Specification -/

/-- sessions that can come about: `add_matrix` is given arrays that exist -/
inductive Spec.Reached : Session → Prop
  | empty : Reached Session.empty
  | step {s : Session} (h : Reached s) (act : BAct) (ha : ∀ addr fixed, act = .addMatrix addr fixed → addr < s.next) :
    Reached (s.step act)

/-- a history of actions that refer to existing arrays; the caller does not write to array `a` -/
def Spec.LeavesAlone (a : Nat) : Session → List BAct → Prop
  | _, [] => True
  | s, act :: h => (∀ addr fixed, act = .addMatrix addr fixed → addr < s.next) ∧ (∀ f, act ≠ .write a f) ∧
    LeavesAlone a (s.step act) h

open Classical in
/-- number of calls of `add_layer` with an inverting model whose child refers to array `a` -/
noncomputable def Spec.inversions (a : Nat) : Session → List BAct → Nat
  | _, [] => 0
  | s, act :: h => (if InvertsAt s a act then 1 else 0) + inversions a (s.step act) h

theorem Spec.Reached.ok {s : Session} (h : Reached s) : s.Ok := by
  induction h with
  | empty => intro m hm; simp [Session.empty] at hm
  | step h act ha ih => exact (ih.step act ha).1

/-! ## C77 -/

/-- **C77** (other types): an array of another type than int8 is never changed by machines, and what the caller writes to it
does not change any matrix. -/
theorem C77_other_types {s : Session} (hs : Reached s) {a : Nat} (ha : a < s.next) (hd : (s.mem a).dtype ≠ .int8) :
    (∀ h, LeavesAlone a s h → (s.run h).mem a = s.mem a) ∧
    ∀ f, ∀ m ∈ s.mats, (s.step (.write a f)).mem m.val = s.mem m.val := by
  constructor
  · intro h hl
    induction h generalizing s with
    | nil => rfl
    | cons act h ih =>
      obtain ⟨h1, h2, h3⟩ := hl
      have hno : ∀ (m : Nat) (mat : MatRef), s.mats[m]? = some mat → mat.val ≠ a := fun m mat hm e =>
        hd (by rw [← e]; exact (hs.ok mat (List.mem_of_getElem? hm)).2)
      have hst : (s.step act).mem a = s.mem a := by
        rcases s.step_mem act ha h2 (fun m mat hm e => absurd e (hno m mat hm)) with ⟨-, e⟩ | ⟨⟨m, _, _, _, mat, _, hm, e, _⟩, -⟩
        · exact e
        · exact absurd e (hno m mat hm)
      have := ih (hs.step act h1) (lt_of_lt_of_le ha (hs.ok.step act h1).2) (by rw [hst]; exact hd) h3
      rw [hst] at this
      exact this
  · intro f m hm
    have : m.val ≠ a := fun e => hd (by rw [← e]; exact (hs.ok m hm).2)
    simp [Session.step, Session.inplace, this]

/-- **C77** (int8, partial): an int8 array of data all of whose matrices are fixed is negated once per call of `add_layer`
with an inverting model on one of its matrices, and otherwise unchanged. What is missing: that it is unchanged. -/
theorem C77_int8_partial {s : Session} (hs : Reached s) {a : Nat} (ha : a < s.next) {h : List BAct}
    (hl : LeavesAlone a s h) (hf : ∀ m ∈ s.mats, m.val = a → m.fixed = true) (hf' : .addMatrix a false ∉ h)
    (hdata : ∀ i, IsData ((s.mem a).arr i)) :
    (s.run h).mem a = ⟨(s.mem a).dtype, (s.mem a).arr.map fun x => (-1) ^ inversions a s h * x⟩ := by
  induction h generalizing s with
  | nil => simp [Session.run, inversions, Arr.map]
  | cons act h ih =>
    obtain ⟨h1, h2, h3⟩ := hl
    have hn := lt_of_lt_of_le ha (hs.ok.step act h1).2
    have hff : ∀ m ∈ (s.step act).mats, m.val = a → m.fixed = true := by
      intro m hm hv
      rcases s.step_mats act ha hm hv with ⟨m'', hm'', hv'', e⟩ | ⟨e, -⟩
      · rw [← e]; exact hf m'' hm'' hv''
      · by_contra hc
        refine hf' (List.mem_cons.2 (Or.inl ?_))
        rw [e]
        simp [Bool.not_eq_true _ ▸ hc]
    have hgo := fun hd => ih (hs.step act h1) hn h3 hff (fun hc => hf' (List.mem_cons_of_mem _ hc)) hd
    show ((s.step act).run h).mem a = _
    rcases s.step_mem act ha h2 fun m mat hm e => hf mat (List.mem_of_getElem? hm) e with ⟨hi, e⟩ | ⟨hi, e⟩
    · rw [inversions, if_neg hi, Nat.zero_add, hgo (by rw [e]; exact hdata), e]
    · have hneg : ∀ i, wrap8 (-((s.mem a).arr i)) = -((s.mem a).arr i) := fun i => wrap8_neg_data (hdata i)
      rw [inversions, if_pos hi, hgo (fun i => ?_), e]
      · simp only [Arr.map, NpArr.mk.injEq, true_and, Arr.mk.injEq]
        funext i
        rw [hneg, Nat.add_comm, pow_succ]
        ring
      · rw [e]
        show IsData (wrap8 (-((s.mem a).arr i)))
        rw [hneg]
        rcases hdata i with h | h | h <;> rw [h] <;> simp [IsData]

/-- the caller's data -/
def callersArray : NpArr := ⟨.int8, Arr.full [2, 2] 1⟩

/-- two machines for the same data -/
def twoMachines : List BAct :=
  [.alloc callersArray, .addMatrix 0 true, .addLayer 0 1 "AND-AND" fun _ _ => 1, .addMatrix 0 true,
    .addLayer 3 1 "AND-AND" fun _ _ => 1]

/-- the hypotheses of the theorems are met by a session in which a layer is added to a matrix of int8 data,
and by an array of another type -/
theorem C77_hypotheses_met : Reached (Session.empty.run (twoMachines.take 2)) ∧
    LeavesAlone 0 (Session.empty.run (twoMachines.take 2)) (twoMachines.drop 2) ∧
    Reached (Session.empty.run [.alloc ⟨.float64, Arr.full [2, 2] 1⟩]) ∧
    LeavesAlone 0 (Session.empty.run [.alloc ⟨.float64, Arr.full [2, 2] 1⟩]) (twoMachines.drop 1) := by
  have r : ∀ (s : Session) (h : List BAct) (act : BAct), Reached (s.run h) →
      (∀ addr fixed, act = .addMatrix addr fixed → addr < (s.run h).next) → Reached (s.run (h ++ [act])) := by
    intro s h act hr ha
    rw [Session.run, List.foldl_append]
    exact hr.step act ha
  have r1 : ∀ x, Reached (Session.empty.run [.alloc x]) := fun x =>
    r Session.empty [] (.alloc x) .empty (by simp)
  have n1 : ∀ x, (Session.empty.run [.alloc x]).next = 1 := fun _ => rfl
  refine ⟨r Session.empty [.alloc callersArray] (.addMatrix 0 true) (r1 _) ?_, ⟨?_, ?_, ?_, ?_, ?_, ?_, trivial⟩, r1 _,
    ⟨?_, ?_, ?_, ?_, ?_, ?_, ?_, ?_, trivial⟩⟩
  · intro addr fixed e
    cases e
    exact Nat.zero_lt_one
  all_goals first | (intro f e; cases e; done) | (intro addr fixed e; cases e; done) | skip
  · intro addr fixed e
    cases e
    decide
  · intro addr fixed e
    cases e
    decide
  · intro addr fixed e
    cases e
    decide

/-- **C77** is false for int8 arrays: after `add_layer(model='AND-AND')` the caller's array is negated; after a second
machine is built on it, it is back, so that the first machine's layer, flagged as inverted, sees data that is not. -/
theorem C77_int8_wrong :
    ((Session.empty.run (twoMachines.take 3)).mem 0).arr = Arr.full [2, 2] (-1) ∧
    ((Session.empty.run twoMachines).mem 0).arr = Arr.full [2, 2] 1 ∧
    ((Session.empty.run twoMachines).mats.map MatRef.val)[0]? = some 0 ∧
    ((Session.empty.run twoMachines).mats.map MatRef.val)[3]? = some 0 := by
  refine ⟨rfl, rfl, rfl, rfl⟩

end LFM

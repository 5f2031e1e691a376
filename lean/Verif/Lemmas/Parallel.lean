import Verif.Model.Parallel
import Verif.Lemmas.Sweep

/-! Interleavings of row programs give the result of the sequential sweep. -/

namespace LFM

/-- states agree on row `n` -/
def PAgree (n : Nat) (s t : PState) : Prop :=
  s.Z.shape = t.Z.shape ∧ (∀ i : List Nat, i.getD 0 0 = n → s.Z i = t.Z i) ∧ s.loc n = t.loc n

/-- the logit of an entry only depends on that entry's row -/
def RowLocal (logit : Arr Int → List Nat → ℝ) : Prop :=
  ∀ Z Z' : Arr Int, ∀ i : List Nat, Z.shape = Z'.shape →
    (∀ j : List Nat, j.getD 0 0 = i.getD 0 0 → Z j = Z' j) → logit Z i = logit Z' i

theorem row_congr {Z Z' : Arr Int} {n : Nat} (hs : Z.shape = Z'.shape)
    (h : ∀ j : List Nat, j.getD 0 0 = n → Z j = Z' j) : Z.row n = Z'.row n := by
  unfold Arr.row
  rw [hs]
  congr 1
  funext i
  exact h (n :: i) rfl

variable {logit : Arr Int → List Nat → ℝ} {rnd : Rnd}

theorem exec_agree (hl : RowLocal logit) {n : Nat} {s t : PState} (h : PAgree n s t) {a : Action}
    (ha : a.row = n) : PAgree n (a.exec logit rnd s) (a.exec logit rnd t) := by
  obtain ⟨h1, h2, h3⟩ := h
  cases a with
  | compute i =>
    refine ⟨h1, h2, ?_⟩
    simp only [Action.exec, ha, if_true]
    rw [hl s.Z t.Z i h1 (fun j hj => h2 j (hj.trans ha)), h2 i ha]
  | store i =>
    refine ⟨h1, fun j hj => ?_, h3⟩
    simp only [Action.exec, Arr.set, ha, h3]
    split
    · rfl
    · exact h2 j hj

theorem exec_other {n : Nat} {s t : PState} (h : PAgree n s t) {a : Action}
    (ha : a.row ≠ n) : PAgree n (a.exec logit rnd s) t := by
  obtain ⟨h1, h2, h3⟩ := h
  cases a with
  | compute i =>
    refine ⟨h1, h2, ?_⟩
    simp only [Action.exec]
    rw [if_neg (Ne.symm ha)]
    exact h3
  | store i =>
    refine ⟨h1, fun j hj => ?_, h3⟩
    simp only [Action.exec, Arr.set]
    split
    · rename_i hji
      subst hji
      exact absurd hj ha
    · exact h2 j hj

theorem execAll_filter (hl : RowLocal logit) (n : Nat) (σ : List Action) (s t : PState)
    (h : PAgree n s t) :
    PAgree n (execAll logit rnd s σ) (execAll logit rnd t (σ.filter fun a => a.row = n)) := by
  induction σ generalizing s t with
  | nil => exact h
  | cons a σ ih =>
    by_cases ha : a.row = n
    · rw [List.filter_cons_of_pos (by simpa using ha)]
      exact ih _ _ (exec_agree hl h ha)
    · rw [List.filter_cons_of_neg (by simpa using ha)]
      exact ih _ _ (exec_other h ha)

theorem PAgree.symm {n : Nat} {s t : PState} (h : PAgree n s t) : PAgree n t s :=
  ⟨h.1.symm, fun i hi => (h.2.1 i hi).symm, h.2.2.symm⟩

theorem PAgree.trans {n : Nat} {s t r : PState} (h : PAgree n s t) (h' : PAgree n t r) : PAgree n s r :=
  ⟨h.1.trans h'.1, fun i hi => (h.2.1 i hi).trans (h'.2.1 i hi), h.2.2.trans h'.2.2⟩

theorem execAll_congr (hl : RowLocal logit) {σ τ : List Action}
    (h : ∀ n, σ.filter (fun a => a.row = n) = τ.filter fun a => a.row = n) (s : PState) :
    (execAll logit rnd s σ).Z = (execAll logit rnd s τ).Z := by
  have key : ∀ n, PAgree n (execAll logit rnd s σ) (execAll logit rnd s τ) := by
    intro n
    have h1 := execAll_filter (rnd := rnd) hl n σ s s ⟨rfl, fun _ _ => rfl, rfl⟩
    have h2 := execAll_filter (rnd := rnd) hl n τ s s ⟨rfl, fun _ _ => rfl, rfl⟩
    rw [h n] at h1
    exact h1.trans h2.symm
  have hs := (key 0).1
  have hg : ∀ i, (execAll logit rnd s σ).Z i = (execAll logit rnd s τ).Z i := fun i =>
    (key (i.getD 0 0)).2.1 i rfl
  cases hA : (execAll logit rnd s σ).Z
  cases hB : (execAll logit rnd s τ).Z
  rw [hA, hB] at hs
  rw [hA, hB] at hg
  simp only [Arr.mk.injEq]
  exact ⟨hs, funext hg⟩

theorem execAll_program (Zf : Arr Int) (ts : List (List Nat)) (s : PState) :
    (execAll logit rnd s (program Zf ts)).Z = sweep logit Zf rnd ts s.Z := by
  induction ts generalizing s with
  | nil => rfl
  | cons i ts ih =>
    unfold program sweep
    rw [List.flatMap_cons, List.foldl_cons, updEntry]
    split
    · exact ih s
    · unfold execAll
      rw [List.foldl_append]
      have := ih (([Action.compute i, Action.store i]).foldl (Action.exec logit rnd) s)
      rw [execAll, program] at this
      rw [this, sweep]
      congr 1
      simp [Action.exec, Action.row]

theorem entries2 (N L : Nat) : entries [N, L] = tasks2 N L := rfl
theorem entries3 (N D M : Nat) : entries [N, D, M] = tasks3 N D M := rfl

theorem parallel_eq (hl : RowLocal logit) (Zf : Arr Int) (Z : Arr Int) (loc : Nat → Int)
    {shape : List Nat} {σ : List Action} (hσ : IsSchedule Zf shape σ) :
    (execAll logit rnd ⟨Z, loc⟩ σ).Z = sweep logit Zf rnd (entries shape) Z := by
  rw [execAll_congr hl hσ, execAll_program]

end LFM

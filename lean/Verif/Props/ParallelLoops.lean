import Verif.Model.ParallelLoops
import Verif.Lemmas.Counting
import Verif.Lemmas.Arrays
import Verif.Lemmas.MaxFuzzy

/-!
# C113: predictions and counts do not depend on threads
-/

namespace LFM

/-! ## Counters -/

theorem count_thread (hit : List Nat → Bool) (t : Nat) (σ : List LoopAction) (s : CountState) :
    (σ.foldl (LoopAction.count hit) s).priv t =
      ((σ.filter fun a => a.thread = t).foldl (LoopAction.count hit) s).priv t ∧
    (σ.foldl (LoopAction.count hit) s).reg t =
      ((σ.filter fun a => a.thread = t).foldl (LoopAction.count hit) s).reg t := by
  have key : ∀ (σ : List LoopAction) (s s' : CountState), s.priv t = s'.priv t → s.reg t = s'.reg t →
      (σ.foldl (LoopAction.count hit) s).priv t =
        ((σ.filter fun a => a.thread = t).foldl (LoopAction.count hit) s').priv t ∧
      (σ.foldl (LoopAction.count hit) s).reg t =
        ((σ.filter fun a => a.thread = t).foldl (LoopAction.count hit) s').reg t := by
    intro σ
    induction σ with
    | nil => exact fun s s' h1 h2 => ⟨h1, h2⟩
    | cons a σ ih =>
      intro s s' h1 h2
      by_cases ha : a.thread = t
      · rw [List.filter_cons_of_pos (by simpa using ha), List.foldl_cons, List.foldl_cons]
        refine ih _ _ ?_ ?_
        · cases a <;> simp_all [LoopAction.count, LoopAction.thread, upd]
        · cases a <;> simp_all [LoopAction.count, LoopAction.thread, upd]
      · rw [List.filter_cons_of_neg (by simpa using ha), List.foldl_cons]
        refine ih _ _ ?_ ?_
        · cases a <;> simp_all [LoopAction.count, LoopAction.thread, upd, Ne.symm]
        · cases a <;> simp_all [LoopAction.count, LoopAction.thread, upd, Ne.symm]
  exact key σ s s rfl rfl

theorem count_program (hit : List Nat → Bool) (t : Nat) (cells : List (List Nat)) (s : CountState) :
    ((threadProgram t cells).foldl (LoopAction.count hit) s).priv t = s.priv t + cells.countP hit := by
  induction cells generalizing s with
  | nil => rfl
  | cons i cells ih =>
    have : threadProgram t (i :: cells) = .eval t i :: .store t i :: threadProgram t cells := rfl
    rw [this, List.foldl_cons, List.foldl_cons, ih, List.countP_cons]
    simp only [LoopAction.count, upd, if_true]
    split <;> omega

theorem count_parallel (hit : List Nat → Bool) {cells : List (List Nat)} {T order : List Nat} {work : Nat → List (List Nat)}
    {σ : List LoopAction} (hd : Divided cells T work) (hσ : Interleaved T work σ) (ho : order.Perm T) (reg : Nat → Nat) :
    reduceCount order (σ.foldl (LoopAction.count hit) ⟨fun _ => 0, reg⟩) = cells.countP hit := by
  rw [reduceCount, foldl_count, zero_add, (ho.map _).sum_eq, ← hd.all.countP_eq, List.countP_flatMap]
  congr 1
  refine List.map_congr_left fun t ht => ?_
  rw [(count_thread hit t σ _).1, hσ.order t ht, count_program]
  simp

theorem countP_entries2 (N D : Nat) (hit : List Nat → Bool) :
    (entries [N, D]).countP hit = (Finset.univ.filter fun i : Fin N × Fin D => hit [i.1, i.2] = true).card := by
  rw [← countP_indices2 N D fun i => hit i = true]
  congr 1
  · simp
  · simp [entries, indices, List.map_eq_flatMap, List.flatMap_assoc]

theorem countP_entries3 (N D M : Nat) (hit : List Nat → Bool) :
    (entries [N, D, M]).countP hit =
      (Finset.univ.filter fun i : Fin N × Fin D × Fin M => hit [i.1, i.2.1, i.2.2] = true).card := by
  rw [← countP_indices3 N D M fun i => hit i = true]
  congr 1
  · simp
  · simp [entries, indices, List.map_eq_flatMap, List.flatMap_assoc]

/-- **C113 (counters, two factors).** However the cells are divided among threads, however these are interleaved, and in
whatever order their counters are added up: the result is that of the sequential loop. `reg` is whatever the threads'
variables contain initially. -/
theorem C113_count_2d (f : Arr Int → Arr Int → Int) (Z U X : Arr Int) {N D : Nat} (hX : X.shape = [N, D])
    {T order : List Nat} {work : Nat → List (List Nat)} {σ : List LoopAction} (hd : Divided (entries [N, D]) T work)
    (hσ : Interleaved T work σ) (ho : order.Perm T) (reg : Nat → Nat) :
    reduceCount order (σ.foldl (LoopAction.count fun i => f (Z.row (i.getD 0 0)) (U.row (i.getD 1 0)) = X i)
      ⟨fun _ => 0, reg⟩) = count_correct_2d f Z U X := by
  rw [count_parallel _ hd hσ ho, countP_entries2, count_correct_2d_eq f Z U X N D hX]
  simp

/-- **C113 (counters, three factors).** -/
theorem C113_count_3d (f : Arr Int → Arr Int → Arr Int → Int) (Z U V X : Arr Int) {N D M : Nat} (hX : X.shape = [N, D, M])
    {T order : List Nat} {work : Nat → List (List Nat)} {σ : List LoopAction} (hd : Divided (entries [N, D, M]) T work)
    (hσ : Interleaved T work σ) (ho : order.Perm T) (reg : Nat → Nat) :
    reduceCount order (σ.foldl (LoopAction.count fun i =>
      f (Z.row (i.getD 0 0)) (U.row (i.getD 1 0)) (V.row (i.getD 2 0)) = X i) ⟨fun _ => 0, reg⟩) =
      count_correct_3d f Z U V X := by
  rw [count_parallel _ hd hσ ho, countP_entries3, count_correct_3d_eq f Z U V X N D M hX]
  simp

/-- **C113 (counters, qL-AND).** -/
theorem C113_count_qL (Z U X q : Arr Int) {N D : Nat} (hX : X.shape = [N, D])
    {T order : List Nat} {work : Nat → List (List Nat)} {σ : List LoopAction} (hd : Divided (entries [N, D]) T work)
    (hσ : Interleaved T work σ) (ho : order.Perm T) (reg : Nat → Nat) :
    reduceCount order (σ.foldl (LoopAction.count fun i =>
      qL_AND_product (Z.row (i.getD 0 0)) (U.row (i.getD 1 0)) (q [i.getD 1 0]) = X i) ⟨fun _ => 0, reg⟩) =
      count_correct_qL Z U X q := by
  rw [count_parallel _ hd hσ ho, countP_entries2, count_correct_qL_eq Z U X q N D hX]
  simp

/-! ## Outputs -/

/-- at every time a thread has its program ahead of it, or a store of a value that has been computed -/
def Pending {α : Type} (val : List Nat → α) (σ : List LoopAction) (s : WriteState α) : Prop :=
  ∀ t, ∃ cells, σ.filter (fun a => a.thread = t) = threadProgram t cells ∨
    ∃ i, σ.filter (fun a => a.thread = t) = .store t i :: threadProgram t cells ∧ s.loc t = val i

open Classical in
theorem write_pending {α : Type} (val : List Nat → α) (σ : List LoopAction) (s : WriteState α) (h : Pending val σ s) :
    (σ.foldl (LoopAction.write val) s).out.shape = s.out.shape ∧
    ∀ j, (σ.foldl (LoopAction.write val) s).out j = if ∃ t, LoopAction.store t j ∈ σ then val j else s.out j := by
  induction σ generalizing s with
  | nil => simp
  | cons a σ ih =>
    have hpend : Pending val σ (LoopAction.write val s a) := by
      intro t
      obtain ⟨cells, hc⟩ := h t
      by_cases ha : a.thread = t
      · rw [List.filter_cons_of_pos (by simpa using ha)] at hc
        rcases hc with hc | ⟨i, hc, hl⟩
        · cases cells with
          | nil => cases hc
          | cons i cells =>
            have e : threadProgram t (i :: cells) = .eval t i :: .store t i :: threadProgram t cells := rfl
            rw [e] at hc
            obtain ⟨rfl, hc'⟩ := List.cons.inj hc
            exact ⟨cells, .inr ⟨i, hc', by simp [LoopAction.write, upd]⟩⟩
        · obtain ⟨rfl, hc'⟩ := List.cons.inj hc
          exact ⟨cells, .inl hc'⟩
      · rw [List.filter_cons_of_neg (by simpa using ha)] at hc
        refine ⟨cells, hc.imp_right ?_⟩
        rintro ⟨i, h1, h2⟩
        refine ⟨i, h1, ?_⟩
        cases a with
        | eval t' i' =>
          have : t ≠ t' := fun e => ha e.symm
          simpa [LoopAction.write, upd, this] using h2
        | store t' i' => exact h2
    obtain ⟨h1, h2⟩ := ih _ hpend
    rw [List.foldl_cons]
    cases a with
    | eval t i =>
      refine ⟨h1, fun j => ?_⟩
      rw [h2 j]
      have : (∃ t', LoopAction.store t' j ∈ LoopAction.eval t i :: σ) ↔ ∃ t', LoopAction.store t' j ∈ σ := by simp
      simp only [this]
      rfl
    | store t i =>
      have hv : s.loc t = val i := by
        obtain ⟨cells, hc⟩ := h t
        rw [List.filter_cons_of_pos (by simp [LoopAction.thread])] at hc
        rcases hc with hc | ⟨i', hc, hl⟩
        · cases cells <;> simp [threadProgram] at hc
        · obtain ⟨e, -⟩ := List.cons.inj hc
          cases e
          exact hl
      refine ⟨h1, fun j => ?_⟩
      rw [h2 j]
      by_cases hj : j = i
      · subst hj
        rw [if_pos (⟨t, by simp⟩ : ∃ t', LoopAction.store t' j ∈ LoopAction.store t j :: σ)]
        split
        · rfl
        · simp [LoopAction.write, Arr.set, hv]
      · have : (∃ t', LoopAction.store t' j ∈ LoopAction.store t i :: σ) ↔ ∃ t', LoopAction.store t' j ∈ σ := by
          simp [hj]
        simp only [this]
        split
        · rfl
        · simp [LoopAction.write, Arr.set, hj]

theorem store_mem_program {t t' : Nat} {i : List Nat} {cells : List (List Nat)} :
    LoopAction.store t i ∈ threadProgram t' cells ↔ t = t' ∧ i ∈ cells := by
  simp only [threadProgram, List.mem_flatMap, List.mem_cons, reduceCtorEq, LoopAction.store.injEq, List.not_mem_nil,
    or_false, false_or]
  constructor
  · rintro ⟨j, hj, rfl, rfl⟩; exact ⟨rfl, hj⟩
  · rintro ⟨rfl, h⟩; exact ⟨i, h, rfl, rfl⟩

open Classical in
theorem write_parallel {α : Type} (val : List Nat → α) {cells : List (List Nat)} {T : List Nat} {work : Nat → List (List Nat)}
    {σ : List LoopAction} (hd : Divided cells T work) (hσ : Interleaved T work σ) (X : Arr α) (loc : Nat → α) :
    (σ.foldl (LoopAction.write val) ⟨X, loc⟩).out = ⟨X.shape, fun j => if j ∈ cells then val j else X j⟩ := by
  have hp : Pending val σ ⟨X, loc⟩ := by
    intro t
    by_cases ht : t ∈ T
    · exact ⟨work t, .inl (hσ.order t ht)⟩
    · refine ⟨[], .inl ?_⟩
      rw [List.filter_eq_nil_iff.mpr]
      · rfl
      · intro a ha h
        exact ht (by simpa using (of_decide_eq_true h) ▸ hσ.only a ha)
  obtain ⟨h1, h2⟩ := write_pending val σ _ hp
  have hm : ∀ j, (∃ t, LoopAction.store t j ∈ σ) ↔ j ∈ cells := by
    intro j
    rw [← hd.all.mem_iff, List.mem_flatMap]
    constructor
    · rintro ⟨t, ht⟩
      have hT := hσ.only _ ht
      refine ⟨t, hT, ?_⟩
      have : LoopAction.store t j ∈ σ.filter fun a => a.thread = t := List.mem_filter.mpr ⟨ht, by simp [LoopAction.thread]⟩
      rw [hσ.order t hT] at this
      exact (store_mem_program.mp this).2
    · rintro ⟨t, hT, hj⟩
      refine ⟨t, ?_⟩
      have : LoopAction.store t j ∈ threadProgram t (work t) := store_mem_program.mpr ⟨rfl, hj⟩
      rw [← hσ.order t hT] at this
      exact (List.mem_filter.mp this).1
  generalize (σ.foldl (LoopAction.write val) ⟨X, loc⟩).out = Y at h1 h2
  obtain ⟨sh, g⟩ := Y
  have : g = fun j => if j ∈ cells then val j else X j := by
    funext j
    have := h2 j
    simp only [hm j] at this
    exact this
  rw [this, show sh = X.shape from h1]

open Classical in
theorem sequential2 {α : Type} (N D : Nat) (v : Nat → Nat → α) (X : Arr α) :
    ((List.range N).foldl (fun X n => (List.range D).foldl (fun X d => X.set [n, d] (v n d)) X) X) =
      ⟨X.shape, fun j => if j ∈ entries [N, D] then v (j.getD 0 0) (j.getD 1 0) else X j⟩ := by
  have o := overwrites2 N D v
  have e1 := o.shape X
  have e2 := o.on X
  have e3 := o.off X
  generalize ((List.range N).foldl (fun X n => (List.range D).foldl (fun X d => X.set [n, d] (v n d)) X) X) = Y at *
  obtain ⟨sh, g⟩ := Y
  have : g = fun j => if j ∈ entries [N, D] then v (j.getD 0 0) (j.getD 1 0) else X j := by
    funext j
    have hm : j ∈ entries [N, D] ↔ ∃ n ∈ List.range N, ∃ d ∈ List.range D, j = [n, d] := by
      simp [entries, eq_comm]
    split
    · rename_i h; exact e2 j (hm.mp h)
    · rename_i h; exact e3 j fun h' => h (hm.mpr h')
  rw [this, show sh = X.shape from e1]

open Classical in
theorem sequential3 {α : Type} (N D M : Nat) (v : Nat → Nat → Nat → α) (X : Arr α) :
    ((List.range N).foldl (fun X n => (List.range D).foldl (fun X d => (List.range M).foldl (fun X m =>
      X.set [n, d, m] (v n d m)) X) X) X) =
      ⟨X.shape, fun j => if j ∈ entries [N, D, M] then v (j.getD 0 0) (j.getD 1 0) (j.getD 2 0) else X j⟩ := by
  have o := overwrites3 N D M v
  have e1 := o.shape X
  have e2 := o.on X
  have e3 := o.off X
  generalize ((List.range N).foldl (fun X n => (List.range D).foldl (fun X d => (List.range M).foldl (fun X m =>
      X.set [n, d, m] (v n d m)) X) X) X) = Y at *
  obtain ⟨sh, g⟩ := Y
  have : g = fun j => if j ∈ entries [N, D, M] then v (j.getD 0 0) (j.getD 1 0) (j.getD 2 0) else X j := by
    funext j
    have hm : j ∈ entries [N, D, M] ↔ ∃ n ∈ List.range N, ∃ d ∈ List.range D, ∃ m ∈ List.range M, j = [n, d, m] := by
      simp [entries, eq_comm]
    split
    · rename_i h; exact e2 j (hm.mp h)
    · rename_i h; exact e3 j fun h' => h (hm.mpr h')
  rw [this, show sh = X.shape from e1]

/-- **C113 (outputs, two factors).** Whatever the division of the cells among threads and their interleaving, the array
computed is that of the sequential loop. -/
theorem C113_output_2d (model : String) (f : Arr Int → Arr Int → Int) (hf : get_scalar_output_function_2d model = some f)
    (Z U : Arr Int) {T : List Nat} {work : Nat → List (List Nat)} {σ : List LoopAction}
    (hd : Divided (entries [Z.dim 0, U.dim 0]) T work) (hσ : Interleaved T work σ) (loc : Nat → Int) :
    output_function_2d model Z U = .ok (σ.foldl (LoopAction.write fun i => f (Z.row (i.getD 0 0)) (U.row (i.getD 1 0)))
      ⟨Arr.full [Z.dim 0, U.dim 0] 0, loc⟩).out := by
  rw [write_parallel _ hd hσ]
  unfold output_function_2d
  rw [hf]
  simp only [Id.run_bind]
  congr 1
  rw [← sequential2 (Z.dim 0) (U.dim 0) (fun n d => f (Z.row n) (U.row d))]
  apply run_forIn_yield
  intro n X
  simp only [Id.run_bind]
  rw [run_forIn_yield _ _ _ (fun X d => X.set [n, d] (f (Z.row n) (U.row d)))]
  · rfl
  · intro d X; rfl

/-- **C113 (outputs, three factors).** -/
theorem C113_output_3d (model : String) (f : Arr Int → Arr Int → Arr Int → Int)
    (hf : get_scalar_output_function_3d model = some f) (Z U V : Arr Int) {T : List Nat} {work : Nat → List (List Nat)}
    {σ : List LoopAction} (hd : Divided (entries [Z.dim 0, U.dim 0, V.dim 0]) T work) (hσ : Interleaved T work σ)
    (loc : Nat → Int) :
    output_function_3d model Z U V = .ok (σ.foldl (LoopAction.write fun i =>
      f (Z.row (i.getD 0 0)) (U.row (i.getD 1 0)) (V.row (i.getD 2 0))) ⟨Arr.full [Z.dim 0, U.dim 0, V.dim 0] 0, loc⟩).out := by
  rw [write_parallel _ hd hσ]
  unfold output_function_3d
  rw [hf]
  simp only [Id.run_bind]
  congr 1
  rw [← sequential3 (Z.dim 0) (U.dim 0) (V.dim 0) (fun n d m => f (Z.row n) (U.row d) (V.row m))]
  apply run_forIn_yield
  intro n X
  simp only [Id.run_bind]
  rw [run_forIn_yield _ _ _ (fun X d => (List.range (V.dim 0)).foldl (fun X m =>
    X.set [n, d, m] (f (Z.row n) (U.row d) (V.row m))) X)]
  · rfl
  · intro d X
    simp only [Id.run_bind]
    rw [run_forIn_yield _ _ _ (fun X m => X.set [n, d, m] (f (Z.row n) (U.row d) (V.row m)))]
    · rfl
    · intro m X; rfl

/-- **C113 (outputs from means, two factors).** -/
theorem C113_fuzzy_2d (model : String) (f : Arr ℝ → Arr ℝ → ℝ) (hf : get_scalar_output_function_2d_fuzzy model = some f)
    (Z U : Arr ℝ) {T : List Nat} {work : Nat → List (List Nat)} {σ : List LoopAction}
    (hd : Divided (entries [Z.dim 0, U.dim 0]) T work) (hσ : Interleaved T work σ) (loc : Nat → ℝ) :
    output_function_2d_fuzzy model Z U = .ok (σ.foldl (LoopAction.write fun i =>
      f (Z.row (i.getD 0 0)) (U.row (i.getD 1 0))) ⟨Arr.full [Z.dim 0, U.dim 0] 0, loc⟩).out := by
  rw [write_parallel _ hd hσ]
  unfold output_function_2d_fuzzy
  rw [hf]
  simp only [Id.run_bind]
  congr 1
  rw [← sequential2 (Z.dim 0) (U.dim 0) (fun n d => f (Z.row n) (U.row d))]
  apply run_forIn_yield
  intro n X
  simp only [Id.run_bind]
  rw [run_forIn_yield _ _ _ (fun X d => X.set [n, d] (f (Z.row n) (U.row d)))]
  · rfl
  · intro d X; rfl

/-- **C113 (outputs from means, three factors).** -/
theorem C113_fuzzy_3d (model : String) (f : Arr ℝ → Arr ℝ → Arr ℝ → ℝ)
    (hf : get_scalar_output_function_3d_fuzzy model = some f) (Z U V : Arr ℝ) {T : List Nat} {work : Nat → List (List Nat)}
    {σ : List LoopAction} (hd : Divided (entries [Z.dim 0, U.dim 0, V.dim 0]) T work) (hσ : Interleaved T work σ)
    (loc : Nat → ℝ) :
    output_function_3d_fuzzy model Z U V = .ok (σ.foldl (LoopAction.write fun i =>
      f (Z.row (i.getD 0 0)) (U.row (i.getD 1 0)) (V.row (i.getD 2 0))) ⟨Arr.full [Z.dim 0, U.dim 0, V.dim 0] 0, loc⟩).out := by
  rw [write_parallel _ hd hσ]
  unfold output_function_3d_fuzzy
  rw [hf]
  simp only [Id.run_bind]
  congr 1
  rw [← sequential3 (Z.dim 0) (U.dim 0) (V.dim 0) (fun n d m => f (Z.row n) (U.row d) (V.row m))]
  apply run_forIn_yield
  intro n X
  simp only [Id.run_bind]
  rw [run_forIn_yield _ _ _ (fun X d => (List.range (V.dim 0)).foldl (fun X m =>
    X.set [n, d, m] (f (Z.row n) (U.row d) (V.row m))) X)]
  · rfl
  · intro d X
    simp only [Id.run_bind]
    rw [run_forIn_yield _ _ _ (fun X m => X.set [n, d, m] (f (Z.row n) (U.row d) (V.row m)))]
    · rfl
    · intro m X; rfl

/-- **C113 (outputs from means, MAX-AND).** -/
theorem C113_fuzzy_max (Z U lb : Arr ℝ) {N D L : Nat} (hZ : Z.shape = [N, L]) (hU : U.shape = [D, L]) {T : List Nat}
    {work : Nat → List (List Nat)} {σ : List LoopAction} (hd : Divided (entries [N, D]) T work) (hσ : Interleaved T work σ)
    (loc : Nat → ℝ) (n d : Nat) (hn : n < N) (hD : d < D) :
    (σ.foldl (LoopAction.write fun i => maxFuzzyCell L (fun l => Z [i.getD 0 0, l] * U [i.getD 1 0, l]) fun l => lb [l])
      ⟨Arr.full [N, D] 0, loc⟩).out [n, d] = MAX_AND_product_fuzzy Z U lb [n, d] := by
  rw [write_parallel _ hd hσ, (MAX_AND_product_fuzzy_get hZ hU lb).2 n d hn hD]
  exact if_pos (by simp [entries, hn, hD])

/-- two threads share the cells of a 2 × 2 matrix (three for one, one for the other) and interrupt each
other between evaluation and store: the hypotheses of the theorems are met -/
theorem C113_hypotheses_met : ∃ (T : List Nat) (work : Nat → List (List Nat)) (σ : List LoopAction),
    Divided (entries [2, 2]) T work ∧ Interleaved T work σ ∧ (work 0).length = 3 ∧ (work 1).length = 1 ∧
    σ ≠ threadProgram 0 (work 0) ++ threadProgram 1 (work 1) ∧ σ ≠ threadProgram 1 (work 1) ++ threadProgram 0 (work 0) := by
  refine ⟨[0, 1], fun t => if t = 0 then [[0, 0], [1, 0], [0, 1]] else [[1, 1]],
    [.eval 0 [0, 0], .eval 1 [1, 1], .store 0 [0, 0], .eval 0 [1, 0], .store 1 [1, 1], .store 0 [1, 0], .eval 0 [0, 1],
      .store 0 [0, 1]], ⟨by decide, by decide⟩, ⟨by decide, by decide⟩, by decide, by decide, by decide, by decide⟩

end LFM

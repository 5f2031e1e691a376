import Verif.Model.DataPrep
import Verif.Spec.Lists
import Verif.Lemmas.Loops
import Verif.Lemmas.Generate

/-!
# C60–C62: `check_binary_coding`, `unique_ordered`, `find_centers_of_ordered_list`
-/

namespace LFM

/-! ## C61 -/

theorem unique_ordered_eq {α : Type} [DecidableEq α] (seq : List α) :
    unique_ordered seq = seq.foldl (fun out x => if x ∈ out then out else out ++ [x]) [] := by
  unfold unique_ordered
  simp only [Id.run_bind, Id.run_pure]
  rw [run_forIn_yield _ _ _ (fun (s : List α × List α) x =>
    if x ∈ s.1 then s else ⟨x :: s.1, s.2 ++ [x]⟩) (by intro a b; split <;> rfl)]
  have key : ∀ (xs out seen : List α), (∀ x, x ∈ seen ↔ x ∈ out) →
      (xs.foldl (fun (s : List α × List α) x =>
        if x ∈ s.1 then s else ⟨x :: s.1, s.2 ++ [x]⟩) ⟨seen, out⟩).2 =
      xs.foldl (fun out x => if x ∈ out then out else out ++ [x]) out := by
    intro xs
    induction xs with
    | nil => intro out seen _; rfl
    | cons y ys ih =>
      intro out seen h
      simp only [List.foldl_cons]
      by_cases hy : y ∈ seen
      · rw [if_pos hy, if_pos ((h y).mp hy)]
        exact ih out seen h
      · rw [if_neg hy, if_neg (fun h' => hy ((h y).mpr h'))]
        exact ih _ _ fun x => by simp [h x, or_comm]
  exact key seq [] [] (by simp)

/-- **C61.** `unique_ordered` returns the distinct elements in the order of their first occurrence. -/
theorem C61_unique_ordered {α : Type} [DecidableEq α] (seq : List α) : Spec.Distinct seq (unique_ordered seq) := by
  rw [unique_ordered_eq]
  induction seq using List.reverseRecOn with
  | nil => exact ⟨by simp, by simp, by simp⟩
  | append_singleton xs x ih =>
    rw [List.foldl_append]
    simp only [List.foldl_cons, List.foldl_nil]
    split
    · rename_i hx
      have hx' := (ih.mem x).mp hx
      refine ⟨ih.nodup, fun y => ?_, ?_⟩
      · rw [ih.mem y]
        simp only [List.mem_append, List.mem_singleton]
        exact ⟨Or.inl, fun h => h.elim id fun h => h ▸ hx'⟩
      · refine List.Pairwise.imp_of_mem (fun {a b} ha hb h => ?_) ih.order
        rwa [List.idxOf_append_of_mem ((ih.mem a).mp ha), List.idxOf_append_of_mem ((ih.mem b).mp hb)]
    · rename_i hx
      have hx' : x ∉ xs := fun h => hx ((ih.mem x).mpr h)
      refine ⟨?_, fun y => ?_, ?_⟩
      · rw [List.nodup_append]
        refine ⟨ih.nodup, by simp, fun a ha b hb => ?_⟩
        rw [List.mem_singleton] at hb
        rintro rfl
        exact hx (hb ▸ ha)
      · simp [ih.mem y]
      · rw [List.pairwise_append]
        refine ⟨?_, by simp, ?_⟩
        · refine List.Pairwise.imp_of_mem (fun {a b} ha hb h => ?_) ih.order
          rwa [List.idxOf_append_of_mem ((ih.mem a).mp ha), List.idxOf_append_of_mem ((ih.mem b).mp hb)]
        · intro a ha b hb
          rw [List.mem_singleton] at hb
          subst hb
          have ha' := (ih.mem a).mp ha
          rw [List.idxOf_append_of_mem ha', List.idxOf_append_of_notMem hx']
          have := List.idxOf_lt_length_of_mem ha'
          omega

/-- **C61 (idempotence).** -/
theorem C61_idempotent {α : Type} [DecidableEq α] (seq : List α) :
    unique_ordered (unique_ordered seq) = unique_ordered seq := by
  have key : ∀ (xs out : List α), (out ++ xs).Nodup →
      xs.foldl (fun out x => if x ∈ out then out else out ++ [x]) out = out ++ xs := by
    intro xs
    induction xs with
    | nil => simp
    | cons y ys ih =>
      intro out h
      have hy : y ∉ out := by
        intro hy
        rw [List.nodup_append] at h
        exact h.2.2 y hy y (by simp) rfl
      simp only [List.foldl_cons, if_neg hy]
      rw [ih _ (by simpa using h)]
      simp
  rw [unique_ordered_eq (unique_ordered seq), key _ _ (by simpa using (C61_unique_ordered seq).nodup)]
  simp

/-! ## C62 -/

theorem sum_div_bounds {xs : List Nat} (hne : xs ≠ []) {a b : Nat} (ha : ∀ x ∈ xs, a ≤ x) (hb : ∀ x ∈ xs, x ≤ b) :
    a ≤ xs.sum / xs.length ∧ xs.sum / xs.length ≤ b := by
  have hpos := List.length_pos_iff.mpr hne
  have h1 : ∀ ys : List Nat, (∀ x ∈ ys, a ≤ x) → a * ys.length ≤ ys.sum := by
    intro ys
    induction ys with
    | nil => simp
    | cons y ys ih =>
      intro h
      have := ih fun x hx => h x (by simp [hx])
      have := h y (by simp)
      simp only [List.length_cons, List.sum_cons, Nat.mul_succ]
      omega
  have h2 : ∀ ys : List Nat, (∀ x ∈ ys, x ≤ b) → ys.sum ≤ b * ys.length := by
    intro ys
    induction ys with
    | nil => simp
    | cons y ys ih =>
      intro h
      have := ih fun x hx => h x (by simp [hx])
      have := h y (by simp)
      simp only [List.length_cons, List.sum_cons, Nat.mul_succ]
      omega
  exact ⟨(Nat.le_div_iff_mul_le hpos).mpr (h1 xs ha), Nat.div_le_of_le_mul (by rw [Nat.mul_comm]; exact h2 xs hb)⟩

theorem center_in_block {α : Type} [DecidableEq α] {ls : List α} (hb : Spec.Blocks ls) {u : α} (hu : u ∈ ls) :
    let idxs := (List.range ls.length).filter fun index => ls[index]? = some u
    ls[idxs.sum / idxs.length]? = some u := by
  intro idxs
  obtain ⟨i, hi, rfl⟩ := List.getElem_of_mem hu
  have hne : idxs ≠ [] := List.ne_nil_of_mem (a := i) (by
    simp only [idxs, List.mem_filter, List.mem_range, decide_eq_true_eq]
    exact ⟨hi, by simp [hi]⟩)
  -- smallest and largest position
  obtain ⟨a, ha, hmin⟩ : ∃ a ∈ idxs, ∀ x ∈ idxs, a ≤ x := by
    have := Finset.exists_min_image idxs.toFinset id (by simpa [List.toFinset_nonempty_iff] using hne)
    obtain ⟨a, ha, h⟩ := this
    exact ⟨a, by simpa using ha, fun x hx => h x (by simpa using hx)⟩
  obtain ⟨b, hb', hmax⟩ : ∃ b ∈ idxs, ∀ x ∈ idxs, x ≤ b := by
    have := Finset.exists_max_image idxs.toFinset id (by simpa [List.toFinset_nonempty_iff] using hne)
    obtain ⟨a, ha, h⟩ := this
    exact ⟨a, by simpa using ha, fun x hx => h x (by simpa using hx)⟩
  obtain ⟨h1, h2⟩ := sum_div_bounds hne hmin hmax
  have ea : ls[a]? = some ls[i] := by
    have := (List.mem_filter.mp ha).2
    simpa using this
  have eb : ls[b]? = some ls[i] := by
    have := (List.mem_filter.mp hb').2
    simpa using this
  have lb : b < ls.length := List.mem_range.mp (List.mem_filter.mp hb').1
  rcases Nat.eq_or_lt_of_le h1 with e | h1
  · rw [← e, ea]
  · rcases Nat.eq_or_lt_of_le h2 with e | h2
    · rw [e, eb]
    · rw [hb a _ b h1 h2 lb (ea.trans eb.symm), ea]

/-- **C62.** For a list whose equal elements are contiguous, `find_centers_of_ordered_list` returns one position per
distinct value, in increasing order, and the list carries that value there. -/
theorem C62_centers {α : Type} [DecidableEq α] (ls : List α) (hb : Spec.Blocks ls) :
    (find_centers_of_ordered_list ls).map (fun i => ls[i]?) = (unique_ordered ls).map some ∧
    (find_centers_of_ordered_list ls).Pairwise (· < ·) := by
  have hd := C61_unique_ordered ls
  constructor
  · unfold find_centers_of_ordered_list
    rw [List.map_map]
    refine List.map_congr_left fun u hu => ?_
    exact center_in_block hb ((hd.mem u).mp hu)
  · unfold find_centers_of_ordered_list
    rw [List.pairwise_map]
    refine List.Pairwise.imp_of_mem (fun {u v} hu hv h => ?_) hd.order
    have eu := center_in_block hb ((hd.mem u).mp hu)
    have ev := center_in_block hb ((hd.mem v).mp hv)
    simp only at eu ev ⊢
    generalize List.sum _ / List.length _ = m at eu ⊢
    generalize List.sum _ / List.length _ = n at ev ⊢
    have hne : u ≠ v := by rintro rfl; exact absurd h (lt_irrefl _)
    by_contra hmn
    rcases Nat.eq_or_lt_of_le (Nat.not_lt.mp hmn) with e | hlt
    · subst e
      rw [eu] at ev
      exact hne (Option.some.inj ev)
    · -- first u < first v ≤ n < m, and the list is u at both ends
      have hn : n < ls.length := by
        by_contra hc
        rw [List.getElem?_eq_none (Nat.not_lt.mp hc)] at ev
        simp at ev
      have hm : m < ls.length := by
        by_contra hc
        rw [List.getElem?_eq_none (Nat.not_lt.mp hc)] at eu
        simp at eu
      have hvn : ls.idxOf v ≤ n := by
        by_contra hc
        have := List.not_of_lt_findIdx (p := (· == v)) (xs := ls) (i := n) (by simpa [List.idxOf] using hc)
        rw [List.getElem?_eq_getElem hn] at ev
        simp [Option.some.inj ev] at this
      have hui : ls[ls.idxOf u]? = some u := by
        rw [List.getElem?_eq_getElem (List.idxOf_lt_length_of_mem ((hd.mem u).mp hu))]
        simp
      have := hb (ls.idxOf u) n m (by omega) hlt hm (hui.trans eu.symm)
      rw [hui, ev] at this
      exact hne (Option.some.inj this).symm

/-- a list with two blocks, and the positions found -/
theorem C62_hypothesis_met : Spec.Blocks [7, 7, 7, 3, 3] ∧ find_centers_of_ordered_list [7, 7, 7, 3, 3] = [1, 3] := by
  constructor
  · intro i j k h1 h2 h3 h
    simp only [List.length_cons, List.length_nil] at h3
    have : ∀ k < 5, ∀ j < k, ∀ i < j, ([7, 7, 7, 3, 3] : List Nat)[i]? = [7, 7, 7, 3, 3][k]? →
        ([7, 7, 7, 3, 3] : List Nat)[j]? = [7, 7, 7, 3, 3][i]? := by decide
    exact this k h3 j h2 i h1 h
  · decide

/-- without contiguity the position may carry another value -/
theorem C62_needs_blocks : (find_centers_of_ordered_list [7, 3, 7]) = [1, 1] := by decide

/-! ## C60 -/

theorem hasMinusOne_iff (data : Arr Int) : hasMinusOne data = true ↔ ∃ i, InB data.shape i ∧ data i = -1 := by
  simp [hasMinusOne, mem_indices]

/-- **C60 (recoding).** On arrays over {-1, 0, 1}: data that contains a -1 is unchanged, 0/1 data becomes -1/1 data. -/
theorem C60_recodes (data : Arr Int) (hd : Spec.DataArr data) :
    (check_binary_coding data).shape = data.shape ∧
    ((∃ i, InB data.shape i ∧ data i = -1) → ∀ i, InB data.shape i → check_binary_coding data i = data i) ∧
    ((¬ ∃ i, InB data.shape i ∧ data i = -1) → ∀ i, InB data.shape i →
      (data i = 1 → check_binary_coding data i = 1) ∧ (data i = 0 → check_binary_coding data i = -1)) := by
  refine ⟨?_, fun h i hi => ?_, fun h i hi => ?_⟩
  · unfold check_binary_coding
    simp only [Arr.map]
    split <;> rfl
  · rw [← hasMinusOne_iff] at h
    simp only [check_binary_coding, h, if_true, Arr.map]
    rcases hd i hi with e | e | e <;> rw [e] <;> rfl
  · rw [← hasMinusOne_iff] at h
    simp only [check_binary_coding, h, Bool.false_eq_true, if_false, Arr.map]
    exact ⟨fun e => by rw [e]; rfl, fun e => by rw [e]; rfl⟩

/-- **C60 (idempotence).** Coding twice is coding once, on arrays over {-1, 0, 1}. -/
theorem C60_idempotent (data : Arr Int) (hd : Spec.DataArr data) (i : List Nat) (hi : InB data.shape i) :
    check_binary_coding (check_binary_coding data) i = check_binary_coding data i := by
  have h := C60_recodes data hd
  have hd' : Spec.DataArr (check_binary_coding data) := by
    intro j hj
    rw [h.1] at hj
    by_cases hm : ∃ i, InB data.shape i ∧ data i = -1
    · rw [h.2.1 hm j hj]; exact hd j hj
    · rcases hd j hj with e | e | e
      · exact Or.inl ((h.2.2 hm j hj).1 e)
      · exact absurd ⟨j, hj, e⟩ hm
      · exact Or.inr (Or.inl ((h.2.2 hm j hj).2 e))
  have h' := C60_recodes _ hd'
  rw [h.1] at h'
  by_cases hm : ∃ i, InB data.shape i ∧ check_binary_coding data i = -1
  · exact h'.2.1 hm i hi
  · rcases hd' i (by rw [h.1]; exact hi) with e | e | e
    · rw [e]; exact (h'.2.2 hm i hi).1 e
    · exact absurd ⟨i, hi, e⟩ hm
    · -- a 0 survives only next to a -1
      exfalso
      by_cases hm' : ∃ i, InB data.shape i ∧ data i = -1
      · obtain ⟨j, hj, ej⟩ := hm'
        exact hm ⟨j, hj, by rw [h.2.1 ⟨j, hj, ej⟩ j hj]; exact ej⟩
      · rcases hd i hi with e' | e' | e'
        · rw [(h.2.2 hm' i hi).1 e'] at e; simp at e
        · exact hm' ⟨i, hi, e'⟩
        · rw [(h.2.2 hm' i hi).2 e'] at e; simp at e

/-- 0/1 data that is recoded -/
theorem C60_hypothesis_met : Spec.DataArr (Arr.vec [0, 1] 0) ∧ check_binary_coding (Arr.vec [0, 1] 0) [0] = -1 := by
  constructor
  · rintro idx -
    simp only [Arr.vec]
    generalize idx.getD 0 0 = i
    rcases i with _ | _ | i <;> simp [Spec.IsData]
  · decide

end LFM

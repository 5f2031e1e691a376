import Verif.Model.Wrappers
import Verif.Props.Splits

/-!
# C123: wrappers for whole analyses
-/

namespace LFM

/-- **C123** is false: whatever data, draws and settings, none of the four functions returns -/
theorem C123_never (data : Arr Int) (N_sub : Int) (t f : List Nat) (L : Nat) (attributes : Option (List String)) (order : String) :
    (∃ e, predict_applicability_simple data t f = .error e) ∧ (∃ e, predict_applicability_fast data N_sub t f = .error e) ∧
    plot_codes attributes order = .error .nameError ∧ tensorm_reconstruct_indp data L = .error .typingError := by
  refine ⟨?_, ?_, rfl, rfl⟩
  · unfold predict_applicability_simple
    simp only [bind, Except.bind]
    split
    · exact ⟨_, rfl⟩
    · exact ⟨_, rfl⟩
  · unfold predict_applicability_fast
    simp only [bind, Except.bind]
    split
    · exact ⟨_, rfl⟩
    · split
      · exact ⟨_, rfl⟩
      · exact ⟨_, rfl⟩

/-- **C123**, the exception for data over -1, 0 and 1 from which a test set can be taken: NameError -/
theorem C123_wrong (data : Arr Int) (N D : Nat) (hs : data.shape = [N, D]) (hd : ∀ i, Spec.IsData (data i))
    (hm : ∃ j, InB data.shape j ∧ data j = -1) (N_sub : Int) (hN : 0 ≤ N_sub) (t f : List Nat)
    (ht : Choice (Spec.cells [N, D] fun i => data i = 1) (pyInt ((N * D : Nat) * (1 / 10) / 2)) t)
    (hf : Choice (Spec.cells [N, D] fun i => data i = -1) (pyInt ((N * D : Nat) * (1 / 10) / 2)) f) :
    predict_applicability_simple data t f = .error .nameError ∧ predict_applicability_fast data N_sub t f = .error .nameError := by
  have hr : ∀ i, Spec.recoded data i = data i := fun i => by
    unfold Spec.recoded
    rw [if_pos hm]
  have hm' : hasMinusOne data = true := (hasMinusOne_iff data).mpr hm
  obtain ⟨out, ho, -⟩ := C57_hides_balanced data N D hs (1 / 10) t f (by simpa only [hr] using ht) (by simpa only [hr] using hf)
  have hc : check_binary_coding data = data := by
    unfold check_binary_coding
    rw [if_pos hm']
    obtain ⟨sh, g⟩ := data
    simp only [Arr.map]
    congr 1
    funext i
    have h : g i = 1 ∨ g i = -1 ∨ g i = 0 := hd i
    rcases h with h | h | h <;> rw [h] <;> decide
  have hk : choiceCheck (data.dim 0) (if N_sub > data.dim 0 then (data.dim 0 : Int) else N_sub) = .ok () := by
    unfold choiceCheck
    rw [if_neg]
    split <;> omega
  constructor
  · unfold predict_applicability_simple
    simp only [hm', if_true, ho, bind, Except.bind]
    rfl
  · unfold predict_applicability_fast
    simp only [hc, ho, hk, bind, Except.bind]
    rfl

/-- **C123**, the exception for data with fewer ones or minus ones than a test set needs: ValueError -/
theorem C123_too_few (data : Arr Int) (N D : Nat) (hs : data.shape = [N, D])
    (hm : ∃ j, InB data.shape j ∧ data j = -1) (t f : List Nat)
    (h : (Spec.cells [N, D] (fun i => data i = 1) : Int) < pyInt ((N * D : Nat) * (1 / 10) / 2) ∨
      (Spec.cells [N, D] (fun i => data i = -1) : Int) < pyInt ((N * D : Nat) * (1 / 10) / 2)) :
    predict_applicability_simple data t f = .error .valueError := by
  have hr : ∀ i, Spec.recoded data i = data i := fun i => by
    unfold Spec.recoded
    rw [if_pos hm]
  have hm' : hasMinusOne data = true := (hasMinusOne_iff data).mpr hm
  have := C57_too_few data N D hs (1 / 10) t f (by simp only [hr]; tauto)
  unfold predict_applicability_simple
  simp only [hm', if_true, this, bind, Except.bind]

/-- the hypotheses are met: a matrix of a one and a minus one, of which nothing is held out -/
theorem C123_met : let data : Arr Int := ⟨[1, 2], fun i => if i = [0, 0] then 1 else -1⟩
    (∀ i, Spec.IsData (data i)) ∧ (∃ j, InB data.shape j ∧ data j = -1) ∧
    Choice (Spec.cells [1, 2] fun i => data i = 1) (pyInt ((1 * 2 : Nat) * (1 / 10) / 2)) [] ∧
    Choice (Spec.cells [1, 2] fun i => data i = -1) (pyInt ((1 * 2 : Nat) * (1 / 10) / 2)) [] := by
  intro data
  have hk : pyInt ((1 * 2 : Nat) * (1 / 10) / 2) = 0 := by
    unfold pyInt
    rw [if_neg (by norm_num)]
    rw [Int.floor_eq_iff]
    norm_num
  refine ⟨?_, ?_, ⟨?_, List.nodup_nil, by simp⟩, ⟨?_, List.nodup_nil, by simp⟩⟩
  · intro i
    show (if i = [0, 0] then (1 : Int) else -1) = 1 ∨ (if i = [0, 0] then (1 : Int) else -1) = -1 ∨ _
    split
    · exact .inl rfl
    · exact .inr (.inl rfl)
  · exact (hasMinusOne_iff data).mp (by decide)
  · rw [hk]; rfl
  · rw [hk]; rfl

end LFM

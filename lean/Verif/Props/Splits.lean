import Verif.Model.DataPrep
import Verif.Props.Lists
import Verif.Lemmas.Arrays
import Verif.Lemmas.Counting

/-!
# C57, C58, C68, C74: hold-out sets
-/

namespace LFM

theorem nodup_indices (shape : List Nat) : (indices shape).Nodup := by
  induction shape with
  | nil => simp [indices]
  | cons d ds ih =>
    simp only [indices]
    rw [List.nodup_flatMap]
    refine ⟨fun i _ => ih.map (fun a b h => by simpa using h), ?_⟩
    refine List.Pairwise.imp_of_mem ?_ (List.nodup_range (n := d))
    intro i j _ _ hij
    simp only [Function.onFun, List.disjoint_left, List.mem_map, not_exists, not_and]
    rintro a ⟨x, _, rfl⟩ y _ h
    simp only [List.cons.injEq] at h
    exact hij h.1.symm

theorem foldl_set {β : Type} (zs : List (List Nat)) (v : β) (X : Arr β) :
    (zs.foldl (fun a i => a.set i v) X).shape = X.shape ∧
    ∀ idx, (zs.foldl (fun a i => a.set i v) X) idx = if idx ∈ zs then v else X idx := by
  have h := overwrites_foldl zs (fun (X : Arr β) i => X.set i v) (fun i idx => idx = i) (fun _ => v)
    fun i _ => overwrites_set i (fun _ => v)
  refine ⟨h.shape X, fun idx => ?_⟩
  split
  · rename_i hi; exact h.on X idx ⟨idx, hi, rfl⟩
  · rename_i hi; exact h.off X idx (by rintro ⟨a, ha, rfl⟩; exact hi ha)

/-- the cells picked by a draw without replacement -/
theorem picked {L : List (List Nat)} (hL : L.Nodup) {k : Int} {draw : List Nat} (h : Choice L.length k draw) :
    (draw.map fun i => L.getD i []).Nodup ∧ (∀ x ∈ draw.map fun i => L.getD i [], x ∈ L) ∧
    ((draw.map fun i => L.getD i []).length : Int) = k := by
  refine ⟨?_, ?_, by simpa using h.length⟩
  · refine (List.nodup_map_iff_inj_on h.nodup).mpr fun a ha b hb e => ?_
    have ha' := h.lt a ha
    have hb' := h.lt b hb
    rw [List.getD_eq_getElem?_getD, List.getD_eq_getElem?_getD, List.getElem?_eq_getElem ha',
      List.getElem?_eq_getElem hb'] at e
    exact (hL.getElem_inj_iff).mp (by simpa using e)
  · intro x hx
    obtain ⟨i, hi, rfl⟩ := List.mem_map.mp hx
    have hi' := h.lt i hi
    rw [List.getD_eq_getElem?_getD, List.getElem?_eq_getElem hi']
    exact List.getElem_mem hi'

/-- counting the cells of a list -/
theorem countP_cells {shape : List Nat} {T : List (List Nat)} (hT : T.Nodup) (P : List Nat → Prop) [DecidablePred P]
    (h : ∀ idx, idx ∈ T ↔ InB shape idx ∧ P idx) : (indices shape).countP (fun i => decide (P i)) = T.length := by
  rw [List.countP_eq_length_filter]
  refine List.Perm.length_eq ((List.perm_ext_iff_of_nodup ((nodup_indices shape).filter _) hT).mpr fun idx => ?_)
  rw [h idx, List.mem_filter, mem_indices]
  simp

/-! ## C57 -/

/-- the data in -1/1 coding: recoded unless it contains a -1 -/
noncomputable def Spec.recoded (data : Arr Int) (i : List Nat) : Int :=
  open Classical in if ∃ j, InB data.shape j ∧ data j = -1 then data i else 2 * data i - 1

/-- number of cells with a property -/
noncomputable def Spec.cells (shape : List Nat) (P : List Nat → Prop) : Nat :=
  open Classical in (indices shape).countP fun i => decide (P i)

theorem cells_eq {shape : List Nat} {T : List (List Nat)} (hT : T.Nodup) (P : List Nat → Prop)
    (h : ∀ idx, idx ∈ T ↔ InB shape idx ∧ P idx) : Spec.cells shape P = T.length := by
  classical
  unfold Spec.cells
  convert countP_cells hT P h

theorem cells_filter (shape : List Nat) (P : List Nat → Prop) [DecidablePred P] :
    ((indices shape).filter fun i => decide (P i)).length = Spec.cells shape P := by
  rw [cells_eq (T := (indices shape).filter fun i => decide (P i)) ((nodup_indices shape).filter _)]
  intro idx
  simp [mem_indices]

/-- **C57.** For a matrix over {-1, 0, 1} and draws without replacement: if there are at least `int(p*size/2)` ones and
minus-ones, `split_test_train` returns a matrix that equals the recoded data except that exactly that many ones and
as many minus-ones are 0. -/
theorem C57_hides_balanced (data : Arr Int) (N D : Nat) (hs : data.shape = [N, D]) (p : ℝ) (dt df : List Nat)
    (ht : Choice (Spec.cells [N, D] fun i => Spec.recoded data i = 1) (pyInt ((N * D : Nat) * p / 2)) dt)
    (hf : Choice (Spec.cells [N, D] fun i => Spec.recoded data i = -1) (pyInt ((N * D : Nat) * p / 2)) df) :
    ∃ out, split_test_train data p dt df = .ok out ∧ out.shape = data.shape ∧
      (∀ i, InB [N, D] i → out i = Spec.recoded data i ∨
        (out i = 0 ∧ (Spec.recoded data i = 1 ∨ Spec.recoded data i = -1))) ∧
      (Spec.cells [N, D] (fun i => Spec.recoded data i = 1 ∧ out i = 0) : Int) = pyInt ((N * D : Nat) * p / 2) ∧
      (Spec.cells [N, D] (fun i => Spec.recoded data i = -1 ∧ out i = 0) : Int) = pyInt ((N * D : Nat) * p / 2) := by
  obtain ⟨rec, hrec⟩ : ∃ rec, rec = (if hasMinusOne data then data else data.map fun x => 2 * x - 1) := ⟨_, rfl⟩
  have hrs : rec.shape = [N, D] := by rw [hrec]; split <;> simp [hs, Arr.map]
  have hrv : ∀ i, rec i = Spec.recoded data i := by
    intro i
    rw [hrec]
    unfold Spec.recoded
    by_cases h : ∃ j, InB data.shape j ∧ data j = -1
    · rw [if_pos h, if_pos ((hasMinusOne_iff data).mpr h)]
    · rw [if_neg h, if_neg (fun h' => h ((hasMinusOne_iff data).mp h'))]
      rfl
  simp only [← hrv] at *
  obtain ⟨T, hT⟩ : ∃ T, T = (indices [N, D]).filter fun i => decide (rec i = 1) := ⟨_, rfl⟩
  obtain ⟨F, hF⟩ : ∃ F, F = (indices [N, D]).filter fun i => decide (rec i = -1) := ⟨_, rfl⟩
  have lT : T.length = Spec.cells [N, D] fun i => rec i = 1 := by rw [hT]; exact cells_filter _ _
  have lF : F.length = Spec.cells [N, D] fun i => rec i = -1 := by rw [hF]; exact cells_filter _ _
  rw [← lT] at ht
  rw [← lF] at hf
  have nT : T.Nodup := by rw [hT]; exact (nodup_indices _).filter _
  have nF : F.Nodup := by rw [hF]; exact (nodup_indices _).filter _
  have mT : ∀ i, i ∈ T ↔ InB [N, D] i ∧ rec i = 1 := by intro i; rw [hT]; simp [mem_indices]
  have mF : ∀ i, i ∈ F ↔ InB [N, D] i ∧ rec i = -1 := by intro i; rw [hF]; simp [mem_indices]
  obtain ⟨pt1, pt2, pt3⟩ := picked nT ht
  obtain ⟨pf1, pf2, pf3⟩ := picked nF hf
  have chk : ∀ {n : Nat} {k : Int} {d : List Nat}, Choice n k d → choiceCheck n k = .ok () := by
    intro n k d h
    have h1 : d.length ≤ n := by
      have := h.nodup.subperm (l₂ := List.range n) fun i hi => List.mem_range.mpr (h.lt i hi)
      simpa using this.length_le
    have := h.length
    unfold choiceCheck
    rw [if_neg (by omega)]
  have hrun : split_test_train data p dt df = .ok
      ((dt.map (fun i => T.getD i []) ++ df.map (fun i => F.getD i [])).foldl (fun a ij => a.set ij 0) rec) := by
    unfold split_test_train
    rw [← hrec]
    have d0 : rec.dim 0 = N := by simp [Arr.dim, hrs]
    have d1 : rec.dim 1 = D := by simp [Arr.dim, hrs]
    simp only [d0, d1, ← hT, ← hF, hrs, List.prod_cons, List.prod_nil, Nat.mul_one]
    rw [chk ht, chk hf]
    rfl
  obtain ⟨fs1, fs2⟩ := foldl_set (dt.map (fun i => T.getD i []) ++ df.map (fun i => F.getD i [])) (0 : Int) rec
  refine ⟨_, hrun, by rw [fs1, hrs, hs], fun i hi => ?_, ?_, ?_⟩
  · rw [fs2 i]
    split
    · rename_i hm
      rcases List.mem_append.mp hm with h | h
      · exact Or.inr ⟨rfl, Or.inl ((mT i).mp (pt2 i h)).2⟩
      · exact Or.inr ⟨rfl, Or.inr ((mF i).mp (pf2 i h)).2⟩
    · exact Or.inl rfl
  · rw [cells_eq pt1]
    · exact pt3
    · intro i
      rw [fs2 i]
      constructor
      · intro h
        have := (mT i).mp (pt2 i h)
        exact ⟨this.1, this.2, by rw [if_pos (List.mem_append_left _ h)]⟩
      · rintro ⟨h1, h2, h3⟩
        split at h3
        · rename_i hm
          rcases List.mem_append.mp hm with h | h
          · exact h
          · have := ((mF i).mp (pf2 i h)).2
            rw [h2] at this
            simp at this
        · rw [h2] at h3; simp at h3
  · rw [cells_eq pf1]
    · exact pf3
    · intro i
      rw [fs2 i]
      constructor
      · intro h
        have := (mF i).mp (pf2 i h)
        exact ⟨this.1, this.2, by rw [if_pos (List.mem_append_right _ h)]⟩
      · rintro ⟨h1, h2, h3⟩
        split at h3
        · rename_i hm
          rcases List.mem_append.mp hm with h | h
          · have := ((mT i).mp (pt2 i h)).2
            rw [h2] at this
            simp at this
          · exact h
        · rw [h2] at h3; simp at h3

theorem choiceCheck_ok {n : Nat} {k : Int} {d : List Nat} (h : Choice n k d) : choiceCheck n k = .ok () := by
  have h1 : d.length ≤ n := by
    have := h.nodup.subperm (l₂ := List.range n) fun i hi => List.mem_range.mpr (h.lt i hi)
    simpa using this.length_le
  have := h.length
  unfold choiceCheck
  rw [if_neg (by omega)]

/-- **C57 (error branch).** With fewer ones or fewer minus-ones than are to be hidden, or a negative number to be hidden,
the function raises ValueError. -/
theorem C57_too_few (data : Arr Int) (N D : Nat) (hs : data.shape = [N, D]) (p : ℝ) (dt df : List Nat)
    (h : (Spec.cells [N, D] (fun i => Spec.recoded data i = 1) : Int) < pyInt ((N * D : Nat) * p / 2) ∨
      (Spec.cells [N, D] (fun i => Spec.recoded data i = -1) : Int) < pyInt ((N * D : Nat) * p / 2) ∨
      pyInt ((N * D : Nat) * p / 2) < 0) :
    split_test_train data p dt df = .error .valueError := by
  obtain ⟨rec, hrec⟩ : ∃ rec, rec = (if hasMinusOne data then data else data.map fun x => 2 * x - 1) := ⟨_, rfl⟩
  have hrs : rec.shape = [N, D] := by rw [hrec]; split <;> simp [hs, Arr.map]
  have hrv : ∀ i, rec i = Spec.recoded data i := by
    intro i
    rw [hrec]
    unfold Spec.recoded
    by_cases h : ∃ j, InB data.shape j ∧ data j = -1
    · rw [if_pos h, if_pos ((hasMinusOne_iff data).mpr h)]
    · rw [if_neg h, if_neg (fun h' => h ((hasMinusOne_iff data).mp h'))]
      rfl
  simp only [← hrv] at h
  rw [← cells_filter, ← cells_filter] at h
  unfold split_test_train
  rw [← hrec]
  have d0 : rec.dim 0 = N := by simp [Arr.dim, hrs]
  have d1 : rec.dim 1 = D := by simp [Arr.dim, hrs]
  simp only [d0, d1, hrs, List.prod_cons, List.prod_nil, Nat.mul_one]
  by_cases c1 : choiceCheck ((indices [N, D]).filter fun i => decide (rec i = 1)).length
      (pyInt ((N * D : Nat) * p / 2)) = .ok ()
  · have c2 : choiceCheck ((indices [N, D]).filter fun i => decide (rec i = -1)).length
        (pyInt ((N * D : Nat) * p / 2)) = .error .valueError := by
      unfold choiceCheck at c1 ⊢
      split at c1
      · cases c1
      · rw [if_pos (by tauto)]
    rw [c1, c2]
    rfl
  · have c2 : choiceCheck ((indices [N, D]).filter fun i => decide (rec i = 1)).length
        (pyInt ((N * D : Nat) * p / 2)) = .error .valueError := by
      unfold choiceCheck at c1 ⊢
      split at c1
      · rw [if_pos (by assumption)]
      · exact absurd rfl c1
    rw [c2]
    rfl

/-- a matrix with two ones and two minus-ones, of each of which one is hidden -/
theorem C57_hypotheses_met :
    let data : Arr Int := Arr.mat 2 [[1, -1], [1, -1]] 0
    Choice (Spec.cells [2, 2] fun i => Spec.recoded data i = 1) (pyInt ((2 * 2 : Nat) * (1/2) / 2)) [1] ∧
    Choice (Spec.cells [2, 2] fun i => Spec.recoded data i = -1) (pyInt ((2 * 2 : Nat) * (1/2) / 2)) [0] := by
  intro data
  have hm : hasMinusOne data = true := by decide
  have hr : ∀ i, Spec.recoded data i = data i := by
    intro i
    unfold Spec.recoded
    rw [if_pos ((hasMinusOne_iff data).mp hm)]
  have hk : pyInt ((2 * 2 : Nat) * (1/2) / 2) = 1 := by
    have : ((2 * 2 : Nat) : ℝ) * (1/2) / 2 = 1 := by norm_num
    rw [this]
    unfold pyInt
    norm_num
  simp only [hr, hk]
  rw [← cells_filter, ← cells_filter]
  exact ⟨⟨by simp, by simp, by decide⟩, ⟨by simp, by simp, by decide⟩⟩

/-! ## C58 -/

/-- **C58 (mask and training tensor).** Whatever is drawn (in balanced mode: without replacement), if the function
returns, the training tensor is 0 on the mask and equals the input elsewhere, and the mask covers observed cells only. -/
theorem C58_hides_observed (tensor : Arr Int) (split : ℝ) (balanced : Bool) (maskDraw : List Nat → Bool)
    (p_draw n_draw : List Nat) (train : Arr Int) (mask : Arr Bool)
    (hp : ∀ i ∈ p_draw, i < Spec.cells tensor.shape fun i => tensor i = 1)
    (hn : ∀ i ∈ n_draw, i < Spec.cells tensor.shape fun i => tensor i = -1)
    (h : split_train_test tensor split balanced maskDraw p_draw n_draw = .ok (train, mask)) :
    train.shape = tensor.shape ∧ mask.shape = tensor.shape ∧
    ∀ i, (mask i = true → train i = 0 ∧ tensor i ≠ 0) ∧ (mask i = false → train i = tensor i) := by
  have obs : ∀ (v : Int) (d : List Nat), v ≠ 0 → (∀ i ∈ d, i < Spec.cells tensor.shape fun i => tensor i = v) →
      ∀ x ∈ d.map (fun k => ((indices tensor.shape).filter fun i => decide (tensor i = v)).getD k []),
        tensor x ≠ 0 := by
    intro v d hv hd x hx
    obtain ⟨k, hk, rfl⟩ := List.mem_map.mp hx
    have hk' := hd k hk
    rw [← cells_filter] at hk'
    rw [List.getD_eq_getElem?_getD, List.getElem?_eq_getElem hk']
    have := (List.mem_filter.mp (List.getElem_mem hk')).2
    simp only [decide_eq_true_eq] at this
    simp only [Option.getD_some]
    rw [this]
    exact hv
  have fin : ∀ m : Arr Bool, m.shape = tensor.shape → (∀ i, m i = true → tensor i ≠ 0) →
      train = ⟨tensor.shape, fun i => if m i then 0 else tensor i⟩ → mask = m →
      train.shape = tensor.shape ∧ mask.shape = tensor.shape ∧
      ∀ i, (mask i = true → train i = 0 ∧ tensor i ≠ 0) ∧ (mask i = false → train i = tensor i) := by
    rintro m hm hobs rfl rfl
    exact ⟨rfl, hm, fun i => ⟨fun h => ⟨by simp [h], hobs i h⟩, fun h => by simp [h]⟩⟩
  unfold split_train_test at h
  simp only [bind, Except.bind, pure, Except.pure, throw, throwThe, MonadExceptOf.throw] at h
  split at h
  · simp at h
  · split at h
    · simp at h
    · rename_i m hm
      simp only [Except.ok.injEq, Prod.mk.injEq] at h
      have key : m.shape = tensor.shape ∧ ∀ i, m i = true → tensor i ≠ 0 := by
        cases balanced with
        | false =>
          simp only [if_true] at hm
          split at hm
          · simp at hm
          · split at hm
            · simp at hm
            · simp only [Except.ok.injEq] at hm
              subst hm
              refine ⟨rfl, fun i hi => ?_⟩
              simp only at hi
              split at hi
              · simp at hi
              · assumption
        | true =>
          simp only [Bool.true_eq_false, if_false] at hm
          split at hm
          · simp at hm
          · split at hm
            · simp at hm
            · split at hm
              · simp at hm
              · split at hm
                · simp at hm
                · simp only [Except.ok.injEq] at hm
                  subst hm
                  obtain ⟨a1, a2⟩ := foldl_set (n_draw.map fun k =>
                    ((indices tensor.shape).filter fun i => decide (tensor i = -1)).getD k []) true
                    (Arr.full tensor.shape false)
                  obtain ⟨b1, b2⟩ := foldl_set (p_draw.map fun k =>
                    ((indices tensor.shape).filter fun i => decide (tensor i = 1)).getD k []) true
                    ((n_draw.map fun k => ((indices tensor.shape).filter fun i => decide (tensor i = -1)).getD k
                      []).foldl (fun (m : Arr Bool) i => m.set i true) (Arr.full tensor.shape false))
                  refine ⟨by rw [b1, a1]; rfl, fun i hi => ?_⟩
                  rw [b2 i] at hi
                  split at hi
                  · rename_i hin
                    exact obs 1 p_draw (by decide) hp i hin
                  · rw [a2 i] at hi
                    split at hi
                    · rename_i hin
                      exact obs (-1) n_draw (by decide) hn i hin
                    · simp [Arr.full] at hi
      exact fin m key.1 key.2 h.1.symm h.2.symm

/-- **C58 (balanced mode).** With `S = int(observed * split / 2)` of each kind available, the mask covers exactly `S`
ones and `S` minus-ones. -/
theorem C58_balanced (tensor : Arr Int) (split : ℝ) (hsp : 0 ≤ split) (maskDraw : List Nat → Bool)
    (p_draw n_draw : List Nat) (S : Int) (hS : S = pyInt (Spec.cells tensor.shape (fun i => tensor i ≠ 0) * split * 0.5))
    (hp : Choice (Spec.cells tensor.shape fun i => tensor i = 1) S p_draw)
    (hn : Choice (Spec.cells tensor.shape fun i => tensor i = -1) S n_draw)
    (h1 : 0 < Spec.cells tensor.shape fun i => tensor i = 1)
    (h2 : 0 < Spec.cells tensor.shape fun i => tensor i = -1) :
    ∃ train mask, split_train_test tensor split true maskDraw p_draw n_draw = .ok (train, mask) ∧
      (Spec.cells tensor.shape (fun i => mask i = true ∧ tensor i = 1) : Int) = S ∧
      (Spec.cells tensor.shape (fun i => mask i = true ∧ tensor i = -1) : Int) = S := by
  obtain ⟨P, hP⟩ : ∃ P, P = (indices tensor.shape).filter fun i => decide (tensor i = 1) := ⟨_, rfl⟩
  obtain ⟨Q, hQ⟩ : ∃ Q, Q = (indices tensor.shape).filter fun i => decide (tensor i = -1) := ⟨_, rfl⟩
  have lP : P.length = Spec.cells tensor.shape fun i => tensor i = 1 := by rw [hP]; exact cells_filter _ _
  have lQ : Q.length = Spec.cells tensor.shape fun i => tensor i = -1 := by rw [hQ]; exact cells_filter _ _
  rw [← lP] at hp h1
  rw [← lQ] at hn h2
  have nP : P.Nodup := by rw [hP]; exact (nodup_indices _).filter _
  have nQ : Q.Nodup := by rw [hQ]; exact (nodup_indices _).filter _
  have mP : ∀ i, i ∈ P ↔ InB tensor.shape i ∧ tensor i = 1 := by intro i; rw [hP]; simp [mem_indices]
  have mQ : ∀ i, i ∈ Q ↔ InB tensor.shape i ∧ tensor i = -1 := by intro i; rw [hQ]; simp [mem_indices]
  obtain ⟨pt1, pt2, pt3⟩ := picked nP hp
  obtain ⟨pf1, pf2, pf3⟩ := picked nQ hn
  have hnz : (indices tensor.shape).countP (fun i => decide (tensor i ≠ 0)) =
      Spec.cells tensor.shape fun i => tensor i ≠ 0 := by
    rw [List.countP_eq_length_filter]
    exact cells_filter _ _
  have hns : ¬ pyInt ((Spec.cells tensor.shape fun i => tensor i ≠ 0 : Nat) * split) < 0 := by
    have : 0 ≤ ((Spec.cells tensor.shape fun i => tensor i ≠ 0 : Nat) : ℝ) * split := by positivity
    unfold pyInt
    rw [if_neg (not_lt.mpr this), not_lt]
    exact Int.floor_nonneg.mpr this
  have half : ∀ (n : Nat) (d : List Nat), 0 < n → Choice n S d → (S : ℝ) / 2 < n := by
    intro n d h0 hc
    have hle : S ≤ n := by
      have := choiceCheck_ok hc
      unfold choiceCheck at this
      split at this
      · simp at this
      · rename_i hh
        push Not at hh
        exact hh.2
    have hS0 : 0 ≤ S := by
      have := hc.length
      omega
    have : (S : ℝ) ≤ n := by exact_mod_cast hle
    have h0' : (0 : ℝ) < n := by exact_mod_cast h0
    linarith
  obtain ⟨a1, a2⟩ := foldl_set (n_draw.map fun k => Q.getD k []) true (Arr.full tensor.shape false)
  obtain ⟨b1, b2⟩ := foldl_set (p_draw.map fun k => P.getD k []) true
    ((n_draw.map fun k => Q.getD k []).foldl (fun (m : Arr Bool) i => m.set i true) (Arr.full tensor.shape false))
  obtain ⟨M, hM⟩ : ∃ M, M = (p_draw.map fun k => P.getD k []).foldl (fun (m : Arr Bool) i => m.set i true)
    ((n_draw.map fun k => Q.getD k []).foldl (fun (m : Arr Bool) i => m.set i true) (Arr.full tensor.shape false)) :=
    ⟨_, rfl⟩
  rw [← hM] at b2
  refine ⟨⟨tensor.shape, fun i => if M i then 0 else tensor i⟩, M, ?_, ?_, ?_⟩
  rotate_left
  · rw [cells_eq pt1]
    · exact pt3
    · intro i
      rw [b2 i, a2 i]
      constructor
      · intro h
        have := (mP i).mp (pt2 i h)
        exact ⟨this.1, by rw [if_pos h], this.2⟩
      · rintro ⟨g1, g2, g3⟩
        split at g2
        · assumption
        · split at g2
          · rename_i hm
            have := ((mQ i).mp (pf2 i hm)).2
            rw [g3] at this
            simp at this
          · simp [Arr.full] at g2
  · rw [cells_eq pf1]
    · exact pf3
    · intro i
      rw [b2 i, a2 i]
      constructor
      · intro h
        have := (mQ i).mp (pf2 i h)
        refine ⟨this.1, ?_, this.2⟩
        rw [if_pos h]
        split <;> rfl
      · rintro ⟨g1, g2, g3⟩
        split at g2
        · rename_i hm
          have := ((mP i).mp (pt2 i hm)).2
          rw [g3] at this
          simp at this
        · split at g2
          · assumption
          · simp [Arr.full] at g2
  · unfold split_train_test
    simp only [bind, Except.bind, pure, Except.pure, throw, throwThe, MonadExceptOf.throw, hnz, if_neg hns, ← hP,
      ← hQ, ← hS, Bool.true_eq_false, if_false, not_true_eq_false, choiceCheck_ok hp, choiceCheck_ok hn,
      half _ _ h1 hp, half _ _ h2 hn, ← hM]

/-- **C58 (balanced mode, when it fails).** With `S = int(observed * split / 2)`: AssertionError if there are at most `S / 2`
ones or minus-ones; ValueError if there are more of both, but fewer than `S` of one of them. -/
theorem C58_balanced_raises (tensor : Arr Int) (split : ℝ) (hsp : 0 ≤ split) (maskDraw : List Nat → Bool)
    (p_draw n_draw : List Nat) (S : Int) (n1 n2 : Nat)
    (hS : S = pyInt (Spec.cells tensor.shape (fun i => tensor i ≠ 0) * split * 0.5))
    (h1 : n1 = Spec.cells tensor.shape fun i => tensor i = 1) (h2 : n2 = Spec.cells tensor.shape fun i => tensor i = -1) :
    ((n1 : ℝ) ≤ S / 2 ∨ (n2 : ℝ) ≤ S / 2 →
      split_train_test tensor split true maskDraw p_draw n_draw = .error .assertionError) ∧
    ((S : ℝ) / 2 < n1 → (S : ℝ) / 2 < n2 → ((n1 : Int) < S ∨ (n2 : Int) < S) →
      split_train_test tensor split true maskDraw p_draw n_draw = .error .valueError) := by
  obtain ⟨P, hP⟩ : ∃ P, P = (indices tensor.shape).filter fun i => decide (tensor i = 1) := ⟨_, rfl⟩
  obtain ⟨Q, hQ⟩ : ∃ Q, Q = (indices tensor.shape).filter fun i => decide (tensor i = -1) := ⟨_, rfl⟩
  have lP : P.length = n1 := by rw [hP, h1]; exact cells_filter _ _
  have lQ : Q.length = n2 := by rw [hQ, h2]; exact cells_filter _ _
  have hnz : (indices tensor.shape).countP (fun i => decide (tensor i ≠ 0)) =
      Spec.cells tensor.shape fun i => tensor i ≠ 0 := by
    rw [List.countP_eq_length_filter]
    exact cells_filter _ _
  have hns : ¬ pyInt ((Spec.cells tensor.shape fun i => tensor i ≠ 0 : Nat) * split) < 0 := by
    have : 0 ≤ ((Spec.cells tensor.shape fun i => tensor i ≠ 0 : Nat) : ℝ) * split := by positivity
    unfold pyInt
    rw [if_neg (not_lt.mpr this), not_lt]
    exact Int.floor_nonneg.mpr this
  have run : split_train_test tensor split true maskDraw p_draw n_draw =
      if ¬ (S : ℝ) / 2 < n1 then .error .assertionError else if ¬ (S : ℝ) / 2 < n2 then .error .assertionError else
        (choiceCheck n1 S).bind fun _ => (choiceCheck n2 S).bind fun _ =>
          split_train_test tensor split true maskDraw p_draw n_draw := by
    by_cases c1 : (S : ℝ) / 2 < n1
    · by_cases c2 : (S : ℝ) / 2 < n2
      · rw [if_neg (not_not.mpr c1), if_neg (not_not.mpr c2)]
        cases e1 : choiceCheck n1 S with
        | error e =>
          unfold split_train_test
          simp only [bind, Except.bind, pure, Except.pure, throw, throwThe, MonadExceptOf.throw, hnz, if_neg hns, ← hP,
            ← hQ, ← hS, lP, lQ, Bool.true_eq_false, if_false, not_true_eq_false, c1, c2, e1]
        | ok u =>
          cases e2 : choiceCheck n2 S with
          | error e =>
            unfold split_train_test
            simp only [bind, Except.bind, pure, Except.pure, throw, throwThe, MonadExceptOf.throw, hnz, if_neg hns, ← hP,
              ← hQ, ← hS, lP, lQ, Bool.true_eq_false, if_false, not_true_eq_false, c1, c2, e1, e2]
          | ok u => rfl
      · rw [if_neg (not_not.mpr c1), if_pos c2]
        unfold split_train_test
        simp only [bind, Except.bind, pure, Except.pure, throw, throwThe, MonadExceptOf.throw, hnz, if_neg hns, ← hP,
          ← hQ, ← hS, lP, lQ, Bool.true_eq_false, if_false, not_true_eq_false, c1, c2, not_false_eq_true, if_true]
    · rw [if_pos c1]
      unfold split_train_test
      simp only [bind, Except.bind, pure, Except.pure, throw, throwThe, MonadExceptOf.throw, hnz, if_neg hns, ← hP,
        ← hQ, ← hS, lP, lQ, Bool.true_eq_false, if_false, c1, not_false_eq_true, if_true]
  constructor
  · intro h
    rw [run]
    by_cases c1 : (S : ℝ) / 2 < n1
    · rw [if_neg (not_not.mpr c1), if_pos]
      rcases h with h | h
      · exact absurd c1 (not_lt.mpr h)
      · exact not_lt.mpr h
    · rw [if_pos c1]
  · intro c1 c2 h
    rw [run, if_neg (not_not.mpr c1), if_neg (not_not.mpr c2)]
    by_cases c3 : (n1 : Int) < S
    · rw [choiceCheck, if_pos (.inr c3)]; rfl
    · have c4 : (n2 : Int) < S := by tauto
      have e2 : choiceCheck n2 S = .error .valueError := by rw [choiceCheck, if_pos (.inr c4)]
      have e1 : choiceCheck n1 S = .ok () := by rw [choiceCheck, if_neg (by omega)]
      rw [e1, e2]; rfl

/-- **C58 (unbalanced mode, when it fails).** The only exception is ValueError. -/
theorem C58_unbalanced_raises (tensor : Arr Int) (split : ℝ) (maskDraw : List Nat → Bool) (p_draw n_draw : List Nat) (e : Err)
    (h : split_train_test tensor split false maskDraw p_draw n_draw = .error e) : e = .valueError := by
  unfold split_train_test at h
  simp only [bind, Except.bind, pure, Except.pure, throw, throwThe, MonadExceptOf.throw, if_true] at h
  split_ifs at h
  all_goals first
    | exact (Except.error.inj h).symm
    | exact absurd h (by simp)

/-- **C58 (unbalanced mode, when it works).** Without balancing the function returns exactly if `0 ≤ split`, something
is observed and `split * size` is at most the number of observed cells (otherwise it raises ValueError,
`C58_unbalanced_raises`). -/
theorem C58_unbalanced_iff (tensor : Arr Int) (split : ℝ) (maskDraw : List Nat → Bool) (p_draw n_draw : List Nat) :
    (∃ r, split_train_test tensor split false maskDraw p_draw n_draw = .ok r) ↔
      0 < Spec.cells tensor.shape (fun i => tensor i ≠ 0) ∧ 0 ≤ split ∧
      split * tensor.shape.prod ≤ Spec.cells tensor.shape (fun i => tensor i ≠ 0) := by
  have hnz : (indices tensor.shape).countP (fun i => decide (tensor i ≠ 0)) =
      Spec.cells tensor.shape fun i => tensor i ≠ 0 := by
    rw [List.countP_eq_length_filter]
    exact cells_filter _ _
  have hz : (indices tensor.shape).countP (fun i => decide (tensor i = 0)) +
      (indices tensor.shape).countP (fun i => decide (tensor i ≠ 0)) = tensor.shape.prod := by
    rw [← length_indices, List.length_eq_countP_add_countP (fun i => decide (tensor i = 0))]
    congr 1
    refine List.countP_congr fun i _ => ?_
    simp
  rw [hnz] at hz
  obtain ⟨nz, hnz'⟩ : ∃ nz, nz = Spec.cells tensor.shape fun i => tensor i ≠ 0 := ⟨_, rfl⟩
  obtain ⟨z, hz'⟩ : ∃ z, z = (indices tensor.shape).countP (fun i => decide (tensor i = 0)) := ⟨_, rfl⟩
  unfold split_train_test
  simp only [bind, Except.bind, pure, Except.pure, throw, throwThe, MonadExceptOf.throw, hnz]
  rw [← hnz'] at hz
  rw [← hz'] at hz
  simp only [← hnz', ← hz', if_true]
  have hzr : (z : ℝ) + nz = (tensor.shape.prod : ℝ) := by exact_mod_cast hz
  by_cases h0 : nz = 0
  · subst h0
    simp only [if_true, lt_irrefl, false_and, iff_false, not_exists]
    intro r
    split <;> simp
  · have hpos : (0 : ℝ) < nz := by exact_mod_cast Nat.pos_of_ne_zero h0
    have hsz : (0 : ℝ) < tensor.shape.prod := by
      have : (0 : ℝ) ≤ z := by positivity
      linarith
    have hp : split / (1 - (z : ℝ) / tensor.shape.prod) = split * tensor.shape.prod / nz := by
      have e : (1 : ℝ) - z / tensor.shape.prod = nz / tensor.shape.prod := by
        field_simp
        linarith
      rw [e]
      field_simp
    rw [hp]
    simp only [h0, if_false]
    have c1 : split * tensor.shape.prod / nz < 0 ↔ split < 0 := by
      rw [div_lt_iff₀ hpos, zero_mul]
      constructor
      · intro h
        by_contra hc
        have := mul_nonneg (not_lt.mp hc) hsz.le
        linarith
      · intro h
        exact mul_neg_of_neg_of_pos h hsz
    have c2 : 1 < split * tensor.shape.prod / nz ↔ (nz : ℝ) < split * tensor.shape.prod := by
      rw [lt_div_iff₀ hpos, one_mul]
    by_cases hs : split < 0
    · have : split * (tensor.shape.prod : ℝ) / nz < 0 := c1.mpr hs
      constructor
      · rintro ⟨r, hr⟩
        split at hr
        · simp at hr
        · rw [if_pos (Or.inl this)] at hr
          simp at hr
      · rintro ⟨-, h, -⟩
        linarith
    · have hns : ¬ pyInt (nz * split) < 0 := by
        have : 0 ≤ (nz : ℝ) * split := mul_nonneg hpos.le (not_lt.mp hs)
        unfold pyInt
        rw [if_neg (not_lt.mpr this), not_lt]
        exact Int.floor_nonneg.mpr this
      rw [if_neg hns]
      by_cases hl : (nz : ℝ) < split * tensor.shape.prod
      · rw [if_pos (Or.inr (c2.mpr hl))]
        simp only [reduceCtorEq, exists_false, false_iff]
        rintro ⟨-, -, h⟩
        linarith
      · rw [if_neg (by rw [c1, c2]; tauto)]
        simp only [Except.ok.injEq, exists_eq', true_iff]
        exact ⟨Nat.pos_of_ne_zero h0, not_lt.mp hs, not_lt.mp hl⟩

/-- a 2 × 2 tensor with a one, a minus-one and two missing cells meets the hypotheses of `C58_balanced` with `S = 1` -/
theorem C58_hypotheses_met :
    let tensor : Arr Int := Arr.mat 2 [[1, 0], [0, -1]] 0
    (1 : Int) = pyInt (Spec.cells tensor.shape (fun i => tensor i ≠ 0) * 1 * 0.5) ∧
    Choice (Spec.cells tensor.shape fun i => tensor i = 1) 1 [0] ∧
    Choice (Spec.cells tensor.shape fun i => tensor i = -1) 1 [0] := by
  intro tensor
  rw [← cells_filter, ← cells_filter, ← cells_filter]
  refine ⟨?_, ⟨by simp, by simp, by decide⟩, ⟨by simp, by simp, by decide⟩⟩
  have : ((indices tensor.shape).filter fun i => decide (tensor i ≠ 0)).length = 2 := by decide
  rw [this]
  have e : ((2 : Nat) : ℝ) * 1 * 0.5 = 1 := by norm_num
  rw [e]
  unfold pyInt
  norm_num

/-- four ones and no minus-one, split 1: AssertionError; four ones and two minus-ones, split 1: ValueError; the same without
balancing and a negative split: ValueError -/
theorem C58_raises_met (maskDraw : List Nat → Bool) (p_draw n_draw : List Nat) :
    split_train_test (Arr.mat 2 [[1, 1], [1, 1]] 0) 1 true maskDraw p_draw n_draw = .error .assertionError ∧
    split_train_test (Arr.mat 3 [[1, 1, -1], [1, 1, -1]] 0) 1 true maskDraw p_draw n_draw = .error .valueError ∧
    split_train_test (Arr.mat 3 [[1, 1, -1], [1, 1, -1]] 0) (-1) false maskDraw p_draw n_draw = .error .valueError := by
  refine ⟨(C58_balanced_raises _ 1 (by norm_num) maskDraw p_draw n_draw 2 4 0 ?_ ?_ ?_).1 (.inr (by norm_num)),
    (C58_balanced_raises _ 1 (by norm_num) maskDraw p_draw n_draw 3 4 2 ?_ ?_ ?_).2 (by norm_num) (by norm_num)
      (.inr (by norm_num)), ?_⟩
  · have : Spec.cells (Arr.mat 2 [[1, 1], [1, 1]] (0 : Int)).shape
        (fun i => (Arr.mat 2 [[1, 1], [1, 1]] (0 : Int)) i ≠ 0) = 4 := by rw [← cells_filter]; decide
    rw [this]
    unfold pyInt
    norm_num
  · rw [← cells_filter]; decide
  · rw [← cells_filter]; decide
  · have : Spec.cells (Arr.mat 3 [[1, 1, -1], [1, 1, -1]] (0 : Int)).shape
        (fun i => (Arr.mat 3 [[1, 1, -1], [1, 1, -1]] (0 : Int)) i ≠ 0) = 6 := by rw [← cells_filter]; decide
    rw [this]
    unfold pyInt
    norm_num
  · rw [← cells_filter]; decide
  · rw [← cells_filter]; decide
  · cases h : split_train_test (Arr.mat 3 [[1, 1, -1], [1, 1, -1]] 0) (-1) false maskDraw p_draw n_draw with
    | error e => rw [C58_unbalanced_raises _ _ _ _ _ e h]
    | ok r =>
      have := ((C58_unbalanced_iff _ _ _ _ _).mp ⟨r, h⟩).2.1
      norm_num at this

/-! ## C74: the old split -/

/-- **C74.** `split_tensor_train_test_old`: the training tensor is 0 on the mask, equals the input elsewhere, the mask
covers observed cells only: as many as drawn numbers are below the number of observed cells. -/
theorem C74_old_split (tensor : Arr Int) (split : ℝ) (rand_idx : List Nat)
    (hc : Choice tensor.shape.prod (pyInt (split * tensor.shape.prod)) rand_idx) :
    ∃ train mask, split_tensor_train_test_old tensor split rand_idx = .ok (train, mask) ∧
      train.shape = tensor.shape ∧ mask.shape = tensor.shape ∧
      (∀ i, (mask i = true → train i = 0 ∧ tensor i ≠ 0) ∧ (mask i = false → train i = tensor i)) ∧
      Spec.cells tensor.shape (fun i => mask i = true) =
        (rand_idx.filter fun k => k < Spec.cells tensor.shape fun i => tensor i ≠ 0).length := by
  obtain ⟨W, hW⟩ : ∃ W, W = (indices tensor.shape).filter fun i => decide (tensor i ≠ 0) := ⟨_, rfl⟩
  have lW : W.length = Spec.cells tensor.shape fun i => tensor i ≠ 0 := by rw [hW]; exact cells_filter _ _
  have nW : W.Nodup := by rw [hW]; exact (nodup_indices _).filter _
  have mW : ∀ i, i ∈ W ↔ InB tensor.shape i ∧ tensor i ≠ 0 := by intro i; rw [hW]; simp [mem_indices]
  have nR : ((List.range W.length).filter fun i => decide (i ∈ rand_idx)).Nodup := List.nodup_range.filter _
  obtain ⟨p1, p2, p3⟩ := picked (k := ((List.range W.length).filter fun i => decide (i ∈ rand_idx)).length) nW
    (draw := (List.range W.length).filter fun i => decide (i ∈ rand_idx))
    ⟨rfl, nR, fun i hi => List.mem_range.mp (List.mem_filter.mp hi).1⟩
  obtain ⟨T, hT⟩ : ∃ T, T = ((List.range W.length).filter fun i => decide (i ∈ rand_idx)).map fun i => W.getD i [] :=
    ⟨_, rfl⟩
  rw [← hT] at p1 p2 p3
  obtain ⟨a1, a2⟩ := foldl_set T true (Arr.full tensor.shape false)
  obtain ⟨M, hM⟩ : ∃ M, M = T.foldl (fun (m : Arr Bool) i => m.set i true) (Arr.full tensor.shape false) := ⟨_, rfl⟩
  rw [← hM] at a1 a2
  have hMT : ∀ i, M i = true ↔ i ∈ T := by
    intro i
    rw [a2 i]
    split <;> simp_all [Arr.full]
  refine ⟨⟨tensor.shape, fun i => if M i then 0 else tensor i⟩, M, ?_, rfl, a1, fun i => ⟨fun h => ?_, fun h => ?_⟩, ?_⟩
  · unfold split_tensor_train_test_old
    simp only [bind, Except.bind, pure, Except.pure, choiceCheck_ok hc, ← hW, ← hT, ← hM]
  · exact ⟨by simp [h], ((mW i).mp (p2 i ((hMT i).mp h))).2⟩
  · simp [h]
  · rw [cells_eq p1]
    · rw [hT, List.length_map, ← lW]
      refine List.Perm.length_eq ((List.perm_ext_iff_of_nodup nR (hc.nodup.filter _)).mpr fun k => ?_)
      simp [and_comm]
    · intro i
      rw [hMT i]
      exact ⟨fun h => ⟨((mW i).mp (p2 i h)).1, h⟩, fun h => h.2⟩

/-- **C74 (fully observed tensor).** Then exactly `int(split * size)` cells are hidden. -/
theorem C74_old_split_full (tensor : Arr Int) (split : ℝ) (rand_idx : List Nat)
    (hc : Choice tensor.shape.prod (pyInt (split * tensor.shape.prod)) rand_idx)
    (hobs : ∀ i, InB tensor.shape i → tensor i ≠ 0) (train : Arr Int) (mask : Arr Bool)
    (h : split_tensor_train_test_old tensor split rand_idx = .ok (train, mask)) :
    (Spec.cells tensor.shape (fun i => mask i = true) : Int) = pyInt (split * tensor.shape.prod) := by
  obtain ⟨train', mask', h', -, -, -, hcount⟩ := C74_old_split tensor split rand_idx hc
  rw [h] at h'
  simp only [Except.ok.injEq, Prod.mk.injEq] at h'
  obtain ⟨rfl, rfl⟩ := h'
  have hfull : (Spec.cells tensor.shape fun i => tensor i ≠ 0) = tensor.shape.prod := by
    rw [cells_eq (nodup_indices tensor.shape), length_indices]
    intro i
    rw [mem_indices]
    exact ⟨fun h => ⟨h, hobs i h⟩, fun h => h.1⟩
  rw [hcount, hfull, List.filter_eq_self.mpr fun k hk => by simpa using hc.lt k hk]
  exact hc.length

/-- **C74 (missing data).** With missing cells fewer may be hidden than asked for: of the tensor (1, 0), asking for
one of the two cells, the draw 1 hides none. -/
theorem C74_missing_data : ∃ (tensor : Arr Int) (rand_idx : List Nat),
    Choice tensor.shape.prod (pyInt (1/2 * tensor.shape.prod)) rand_idx ∧ pyInt (1/2 * tensor.shape.prod) = 1 ∧
    ∃ train mask, split_tensor_train_test_old tensor (1/2) rand_idx = .ok (train, mask) ∧
      Spec.cells tensor.shape (fun i => mask i = true) = 0 := by
  have hk : pyInt (1/2 * ((Arr.vec [1, 0] 0 : Arr Int).shape.prod : Nat)) = 1 := by
    have : (1/2 : ℝ) * ((Arr.vec [1, 0] 0 : Arr Int).shape.prod : Nat) = 1 := by norm_num [Arr.vec]
    rw [this]
    unfold pyInt
    norm_num
  have hc : Choice (Arr.vec [1, 0] 0 : Arr Int).shape.prod (pyInt (1/2 * ((Arr.vec [1, 0] 0 : Arr Int).shape.prod : Nat)))
      [1] := ⟨by rw [hk]; simp, by simp, by simp [Arr.vec]⟩
  refine ⟨Arr.vec [1, 0] 0, [1], hc, hk, ?_⟩
  obtain ⟨train, mask, h, -, -, -, hcount⟩ := C74_old_split _ _ _ hc
  refine ⟨train, mask, h, ?_⟩
  rw [hcount, ← cells_filter]
  decide

/-- a matrix without missing cells and two distinct positions, as `C74_old_split_full` asks for -/
theorem C74_hypotheses_met : Choice (Arr.full [2, 2] (1 : Int)).shape.prod (pyInt (1/2 * ((Arr.full [2, 2] (1 : Int)).shape.prod : Nat))) [3, 1] ∧
    ∀ i, InB (Arr.full [2, 2] (1 : Int)).shape i → (Arr.full [2, 2] (1 : Int)) i ≠ 0 := by
  have hk : pyInt (1/2 * ((Arr.full [2, 2] (1 : Int)).shape.prod : Nat)) = 2 := by
    have : (1/2 : ℝ) * ((Arr.full [2, 2] (1 : Int)).shape.prod : Nat) = 2 := by norm_num [Arr.full]
    rw [this]
    unfold pyInt
    norm_num
  exact ⟨⟨by rw [hk]; simp, by simp, by simp [Arr.full]⟩, fun i _ => by simp [Arr.full]⟩

/-! ## C68 -/

/-- **C68 (labels).** The labels passed to the AUC routine are those of the held-out cells in row-major order.
Missing for the full claim: the predictions, see `C68_wrong`. -/
theorem C68_labels_partial (data data_train : Arr Int) (prediction : Arr ℝ) :
    (get_roc_auc_args data data_train prediction).1 =
      ((indices data_train.shape).filter fun i => decide (data_train i = 0)).map fun i => decide (data i = 1) := rfl

/-- **C68 is wrong.** For all inputs, the list of predictions passed is empty (the iterator has been used up), so the
numbers of labels and predictions differ as soon as a cell is held out. -/
theorem C68_wrong (data data_train : Arr Int) (prediction : Arr ℝ) :
    (get_roc_auc_args data data_train prediction).2 = [] ∧
    ((∃ i, InB data_train.shape i ∧ data_train i = 0) →
      (get_roc_auc_args data data_train prediction).1.length ≠ (get_roc_auc_args data data_train prediction).2.length) := by
  refine ⟨rfl, fun ⟨i, hi, h0⟩ h => ?_⟩
  rw [C68_labels_partial] at h
  have h2 : (get_roc_auc_args data data_train prediction).2 = [] := rfl
  rw [h2] at h
  simp only [List.length_map, List.length_nil, List.length_eq_zero_iff, List.filter_eq_nil_iff, mem_indices,
    decide_eq_true_eq] at h
  exact h i hi h0

end LFM

import Verif.Props.Predictive

/-!
# C89, C90: the grid search over models and sizes
-/

namespace LFM

open Spec

/-- the fraction that attempt `k` tries to hold out -/
noncomputable def Spec.attempt (k : Nat) : ℝ := 1 / 10 ^ (k + 1)

theorem attempt_pos (k : Nat) : 0 < attempt k := by unfold attempt; positivity

theorem attempt_tends (c : ℝ) (hc : 0 < c) (x : ℝ) : ∃ k, x * attempt k ≤ c := by
  obtain ⟨n, hn⟩ := pow_unbounded_of_one_lt (x / c) (by norm_num : (1 : ℝ) < 10)
  refine ⟨n, ?_⟩
  rw [div_lt_iff₀ hc] at hn
  unfold attempt
  rw [mul_one_div, div_le_iff₀ (by positivity), pow_succ]
  nlinarith [mul_pos hc (by positivity : (0 : ℝ) < 10 ^ n)]

/-- the loop returns the first split that succeeds -/
theorem splitLoop_iff (X : Arr Int) (balanced : Bool) (draws : Nat → (List Nat → Bool) × List Nat × List Nat) (r : Arr Int × Arr Bool)
    (fuel k : Nat) :
    splitLoop X balanced draws fuel (attempt k) k = some r ↔
      ∃ j, k ≤ j ∧ j < k + fuel ∧ split_train_test X (attempt j) balanced (draws j).1 (draws j).2.1 (draws j).2.2 = .ok r ∧
        ∀ j', k ≤ j' → j' < j → ∃ e, split_train_test X (attempt j') balanced (draws j').1 (draws j').2.1 (draws j').2.2 = .error e := by
  induction fuel generalizing k with
  | zero =>
    simp only [splitLoop, reduceCtorEq, false_iff]
    rintro ⟨j, h1, h2, -⟩
    omega
  | succ fuel ih =>
    rw [splitLoop]
    have hs : attempt k * (1 / 10) = attempt (k + 1) := by
      unfold attempt
      rw [pow_succ _ (k + 1)]
      field_simp
    cases h : split_train_test X (attempt k) balanced (draws k).1 (draws k).2.1 (draws k).2.2 with
    | ok r' =>
      simp only [Option.some.injEq]
      constructor
      · rintro rfl
        exact ⟨k, le_rfl, by omega, h, fun j' h1 h2 => by omega⟩
      · rintro ⟨j, h1, h2, h3, h4⟩
        rcases Nat.eq_or_lt_of_le h1 with rfl | hlt
        · rw [h] at h3
          injection h3
        · obtain ⟨e, he⟩ := h4 k le_rfl hlt
          rw [h] at he
          cases he
    | error e =>
      simp only
      rw [hs, ih]
      constructor
      · rintro ⟨j, h1, h2, h3, h4⟩
        refine ⟨j, by omega, by omega, h3, fun j' h5 h6 => ?_⟩
        rcases Nat.eq_or_lt_of_le h5 with rfl | hlt
        · exact ⟨e, h⟩
        · exact h4 j' hlt h6
      · rintro ⟨j, h1, h2, h3, h4⟩
        rcases Nat.eq_or_lt_of_le h1 with rfl | hlt
        · rw [h] at h3
          cases h3
        · exact ⟨j, hlt, by omega, h3, fun j' h5 h6 => h4 j' (by omega) h6⟩

theorem splitLoop_start (X : Arr Int) (balanced : Bool) (draws : Nat → (List Nat → Bool) × List Nat × List Nat) (r : Arr Int × Arr Bool)
    (fuel : Nat) :
    splitLoop X balanced draws fuel (1 / 10) 0 = some r ↔
      ∃ j, j < fuel ∧ split_train_test X (attempt j) balanced (draws j).1 (draws j).2.1 (draws j).2.2 = .ok r ∧
        ∀ j' < j, ∃ e, split_train_test X (attempt j') balanced (draws j').1 (draws j').2.1 (draws j').2.2 = .error e := by
  have : (1 / 10 : ℝ) = attempt 0 := by unfold attempt; norm_num
  rw [this, splitLoop_iff]
  simp

theorem not_ok_error {α : Type} {x : Except Err α} (h : ¬ ∃ r, x = .ok r) : ∃ e, x = .error e := by
  cases x with
  | error e => exact ⟨e, rfl⟩
  | ok r => exact absurd ⟨r, rfl⟩ h

/-- the mask of an unbalanced split -/
theorem unbalanced_ok {X : Arr Int} {split : ℝ} {draw : List Nat → Bool} {p n : List Nat} {train : Arr Int} {mask : Arr Bool}
    (h : split_train_test X split false draw p n = .ok (train, mask)) :
    mask = ⟨X.shape, fun i => if X i = 0 then false else draw i⟩ ∧ train = ⟨X.shape, fun i => if mask i then 0 else X i⟩ := by
  unfold split_train_test at h
  simp only [bind, Except.bind, pure, Except.pure, throw, throwThe, MonadExceptOf.throw] at h
  split at h
  · simp at h
  · split at h
    · simp at h
    · rename_i m hm
      simp only [Except.ok.injEq, Prod.mk.injEq] at h
      simp only [if_true] at hm
      split at hm
      · simp at hm
      · split at hm
        · simp at hm
        · simp only [Except.ok.injEq] at hm
          obtain ⟨h1, rfl⟩ := h
          exact ⟨hm.symm, h1.symm⟩

/-- number of cells of each kind that a balanced split holds out -/
noncomputable def Spec.heldOut (X : Arr Int) (k : Nat) : Int := pyInt (cells X.shape (fun i => X i ≠ 0) * attempt k * 0.5)

theorem pyInt_nonneg {x : ℝ} (h : 0 ≤ x) : 0 ≤ pyInt x := by
  rw [pyInt, if_neg (not_lt.mpr h)]
  exact Int.floor_nonneg.mpr h

theorem heldOut_nonneg (X : Arr Int) (k : Nat) : 0 ≤ heldOut X k :=
  pyInt_nonneg (by have := (attempt_pos k).le; positivity)

/-- when a balanced split succeeds -/
theorem balanced_ok_iff (X : Arr Int) (k : Nat) (draw : List Nat → Bool) (p n : List Nat) :
    (∃ r, split_train_test X (attempt k) true draw p n = .ok r) ↔
      (0 < cells X.shape fun i => X i = 1) ∧ (0 < cells X.shape fun i => X i = -1) ∧
      heldOut X k ≤ cells X.shape (fun i => X i = 1) ∧ heldOut X k ≤ cells X.shape (fun i => X i = -1) := by
  have hnz : (indices X.shape).countP (fun i => decide (X i ≠ 0)) = cells X.shape fun i => X i ≠ 0 := by
    rw [List.countP_eq_length_filter]
    exact cells_filter _ _
  have hpos : ((indices X.shape).filter fun i => decide (X i = 1)).length = cells X.shape fun i => X i = 1 := cells_filter _ _
  have hneg : ((indices X.shape).filter fun i => decide (X i = -1)).length = cells X.shape fun i => X i = -1 := cells_filter _ _
  have h0 := heldOut_nonneg X k
  have hns : ¬ pyInt (((cells X.shape fun i => X i ≠ 0 : Nat) : ℝ) * attempt k) < 0 :=
    not_lt.mpr (pyInt_nonneg (by have := (attempt_pos k).le; positivity))
  unfold split_train_test
  simp only [bind, Except.bind, pure, Except.pure, throw, throwThe, MonadExceptOf.throw, hnz, hpos, hneg, if_neg hns,
    Bool.true_eq_false, if_false]
  have hS : pyInt (((cells X.shape fun i => X i ≠ 0 : Nat) : ℝ) * attempt k * 0.5) = heldOut X k := rfl
  simp only [hS, choiceCheck]
  generalize heldOut X k = S at h0 ⊢
  generalize (cells X.shape fun i => X i = 1) = a
  generalize (cells X.shape fun i => X i = -1) = b
  have h0' : (0 : ℝ) ≤ S := by exact_mod_cast h0
  by_cases ha : (S : ℝ) / 2 < a
  · by_cases hb : (S : ℝ) / 2 < b
    · simp only [ha, hb, not_true_eq_false, if_false]
      have ha0 : 0 < a := by
        have : (0 : ℝ) < a := by linarith
        exact_mod_cast this
      have hb0 : 0 < b := by
        have : (0 : ℝ) < b := by linarith
        exact_mod_cast this
      by_cases h1 : (a : Int) < S
      · rw [if_pos (.inr h1)]
        simp only [reduceCtorEq, exists_false, false_iff]
        omega
      · rw [if_neg (by omega)]
        by_cases h2 : (b : Int) < S
        · rw [if_pos (.inr h2)]
          simp only [reduceCtorEq, exists_false, false_iff]
          omega
        · rw [if_neg (by omega)]
          simp only [Except.ok.injEq, exists_eq', true_iff]
          omega
    · simp only [ha, hb, not_true_eq_false, not_false_eq_true, if_false, if_true, reduceCtorEq, exists_false, false_iff]
      rintro ⟨-, h1, -, h2⟩
      have h1 : (0 : ℝ) < b := by exact_mod_cast h1
      have h2 : (S : ℝ) ≤ b := by exact_mod_cast h2
      linarith
  · simp only [ha, not_false_eq_true, if_true, reduceCtorEq, exists_false, false_iff]
    rintro ⟨h1, -, h2, -⟩
    have h1 : (0 : ℝ) < a := by exact_mod_cast h1
    have h2 : (S : ℝ) ≤ a := by exact_mod_cast h2
    linarith

/-- **C89 (unbalanced).** If something is observed, the loop ends, whatever is drawn: with the first fraction
`1/10, 1/100, ...` of the cells of the tensor that is at most the number of observed cells. Only observed cells are held
out, and the training tensor is 0 there and the given one elsewhere. -/
theorem C89_unbalanced (X : Arr Int) (hobs : 0 < cells X.shape fun i => X i ≠ 0)
    (draws : Nat → (List Nat → Bool) × List Nat × List Nat) :
    ∃ j, X.shape.prod * attempt j ≤ cells X.shape (fun i => X i ≠ 0) ∧
      (∀ j' < j, (cells X.shape (fun i => X i ≠ 0) : ℝ) < X.shape.prod * attempt j') ∧
      ∃ train mask, (∀ fuel, j < fuel → splitLoop X false draws fuel (1 / 10) 0 = some (train, mask)) ∧
        (∀ fuel ≤ j, splitLoop X false draws fuel (1 / 10) 0 = none) ∧
        train.shape = X.shape ∧ mask.shape = X.shape ∧
        ∀ i, (mask i = true ↔ X i ≠ 0 ∧ (draws j).1 i = true) ∧ train i = if mask i then 0 else X i := by
  classical
  have hex := attempt_tends (cells X.shape (fun i => X i ≠ 0)) (by exact_mod_cast hobs) X.shape.prod
  have hj := Nat.find_spec hex
  obtain ⟨j, hje⟩ : ∃ j, j = Nat.find hex := ⟨_, rfl⟩
  rw [← hje] at hj
  have hmin : ∀ j' < j, (cells X.shape (fun i => X i ≠ 0) : ℝ) < X.shape.prod * attempt j' := fun j' h =>
    not_le.mp (Nat.find_min hex (hje ▸ h))
  obtain ⟨⟨train, mask⟩, hr⟩ := (C58_unbalanced_iff X (attempt j) (draws j).1 (draws j).2.1 (draws j).2.2).mpr
    ⟨hobs, (attempt_pos j).le, by rw [mul_comm]; exact hj⟩
  have herr : ∀ j' < j, ∃ e, split_train_test X (attempt j') false (draws j').1 (draws j').2.1 (draws j').2.2 = .error e := by
    intro j' h
    refine not_ok_error fun hok => ?_
    have := ((C58_unbalanced_iff X (attempt j') (draws j').1 (draws j').2.1 (draws j').2.2).mp hok).2.2
    rw [mul_comm] at this
    exact absurd (hmin j' h) (not_lt.mpr this)
  refine ⟨j, hj, hmin, train, mask, fun fuel hf => (splitLoop_start _ _ _ _ _).mpr ⟨j, hf, hr, herr⟩, fun fuel hf => ?_, ?_⟩
  · rw [Option.eq_none_iff_forall_ne_some]
    intro r hr'
    obtain ⟨j', h1, h2, -⟩ := (splitLoop_start _ _ _ _ _).mp hr'
    obtain ⟨e, he⟩ := herr j' (by omega)
    rw [he] at h2
    cases h2
  · obtain ⟨rfl, rfl⟩ := unbalanced_ok hr
    refine ⟨rfl, rfl, fun i => ⟨?_, rfl⟩⟩
    by_cases hi : X i = 0 <;> simp [hi]

/-- **C89 (balanced).** With a one and a minus-one, the loop ends, whatever is drawn: with the first fraction
`1/10, 1/100, ...` of the observed cells of which one half is at most the number of ones and at most that of minus-ones
(rounded down). So many of both are held out; the training tensor is 0 there and the given one elsewhere. -/
theorem C89_balanced (X : Arr Int) (h1 : 0 < cells X.shape fun i => X i = 1) (h2 : 0 < cells X.shape fun i => X i = -1)
    (draws : Nat → (List Nat → Bool) × List Nat × List Nat)
    (hp : ∀ k, heldOut X k ≤ cells X.shape (fun i => X i = 1) →
      Choice (cells X.shape fun i => X i = 1) (heldOut X k) (draws k).2.1)
    (hn : ∀ k, heldOut X k ≤ cells X.shape (fun i => X i = -1) →
      Choice (cells X.shape fun i => X i = -1) (heldOut X k) (draws k).2.2) :
    ∃ j, heldOut X j ≤ cells X.shape (fun i => X i = 1) ∧ heldOut X j ≤ cells X.shape (fun i => X i = -1) ∧
      (∀ j' < j, (cells X.shape (fun i => X i = 1) : Int) < heldOut X j' ∨ (cells X.shape (fun i => X i = -1) : Int) < heldOut X j') ∧
      ∃ train mask, (∀ fuel, j < fuel → splitLoop X true draws fuel (1 / 10) 0 = some (train, mask)) ∧
        (∀ fuel ≤ j, splitLoop X true draws fuel (1 / 10) 0 = none) ∧
        train.shape = X.shape ∧ mask.shape = X.shape ∧
        (∀ i, (mask i = true → train i = 0 ∧ X i ≠ 0) ∧ (mask i = false → train i = X i)) ∧
        (cells X.shape (fun i => mask i = true ∧ X i = 1) : Int) = heldOut X j ∧
        (cells X.shape (fun i => mask i = true ∧ X i = -1) : Int) = heldOut X j := by
  classical
  have hex : ∃ k, heldOut X k ≤ cells X.shape (fun i => X i = 1) ∧ heldOut X k ≤ cells X.shape (fun i => X i = -1) := by
    obtain ⟨k, hk⟩ := attempt_tends 1 one_pos (cells X.shape fun i => X i ≠ 0)
    refine ⟨k, ?_⟩
    have h0 : (0 : ℝ) ≤ cells X.shape (fun i => X i ≠ 0) * attempt k * 0.5 := by have := (attempt_pos k).le; positivity
    have : heldOut X k = 0 := by
      rw [heldOut, pyInt, if_neg (not_lt.mpr h0), Int.floor_eq_zero_iff]
      exact ⟨h0, by linarith⟩
    rw [this]
    omega
  obtain ⟨j, hje⟩ : ∃ j, j = Nat.find hex := ⟨_, rfl⟩
  have hj := Nat.find_spec hex
  rw [← hje] at hj
  have hmin : ∀ j' < j, ¬ (heldOut X j' ≤ cells X.shape (fun i => X i = 1) ∧ heldOut X j' ≤ cells X.shape (fun i => X i = -1)) :=
    fun j' h => Nat.find_min hex (hje ▸ h)
  obtain ⟨train, mask, hr, hc1, hc2⟩ := C58_balanced X (attempt j) (attempt_pos j).le (draws j).1 (draws j).2.1 (draws j).2.2
    (heldOut X j) rfl (hp j hj.1) (hn j hj.2) h1 h2
  obtain ⟨hs1, hs2, hs3⟩ := C58_hides_observed X (attempt j) true _ _ _ train mask (hp j hj.1).lt (hn j hj.2).lt hr
  have herr : ∀ j' < j, ∃ e, split_train_test X (attempt j') true (draws j').1 (draws j').2.1 (draws j').2.2 = .error e := by
    intro j' h
    refine not_ok_error fun hok => ?_
    exact hmin j' h ((balanced_ok_iff X j' _ _ _).mp hok).2.2
  refine ⟨j, hj.1, hj.2, fun j' h => ?_, train, mask, fun fuel hf => (splitLoop_start _ _ _ _ _).mpr ⟨j, hf, hr, herr⟩,
    fun fuel hf => ?_, hs1, hs2, hs3, hc1, hc2⟩
  · have := hmin j' h
    omega
  · rw [Option.eq_none_iff_forall_ne_some]
    intro r hr'
    obtain ⟨j', h1, h2, -⟩ := (splitLoop_start _ _ _ _ _).mp hr'
    obtain ⟨e, he⟩ := herr j' (by omega)
    rw [he] at h2
    cases h2

/-- **C89**: without an observed cell, and in balanced mode without a one or without a minus-one, the grid search never ends -/
theorem C89_forever (X : Arr Int) (balanced : Bool) (draws : Nat → (List Nat → Bool) × List Nat × List Nat)
    (h : if balanced then (cells X.shape fun i => X i = 1) = 0 ∨ (cells X.shape fun i => X i = -1) = 0
      else (cells X.shape fun i => X i ≠ 0) = 0) (fuel : Nat) :
    splitLoop X balanced draws fuel (1 / 10) 0 = none := by
  rw [Option.eq_none_iff_forall_ne_some]
  intro r hr
  obtain ⟨j, -, hj, -⟩ := (splitLoop_start _ _ _ _ _).mp hr
  cases balanced with
  | false =>
    simp only [Bool.false_eq_true, if_false] at h
    have := ((C58_unbalanced_iff X _ _ _ _).mp ⟨r, hj⟩).1
    omega
  | true =>
    simp only [if_true] at h
    have := (balanced_ok_iff X j _ _ _).mp ⟨r, hj⟩
    omega

/-- **C89**: below 200 observed cells a balanced split that fails once is a split that holds out nothing -/
theorem C89_nothing_held_out (X : Arr Int) (h1 : 0 < cells X.shape fun i => X i = 1) (h2 : 0 < cells X.shape fun i => X i = -1)
    (hfew : (cells X.shape fun i => X i ≠ 0) < 200)
    (hfail : (cells X.shape (fun i => X i = 1) : Int) < heldOut X 0 ∨ (cells X.shape (fun i => X i = -1) : Int) < heldOut X 0)
    (draws : Nat → (List Nat → Bool) × List Nat × List Nat)
    (hp : ∀ k, heldOut X k ≤ cells X.shape (fun i => X i = 1) →
      Choice (cells X.shape fun i => X i = 1) (heldOut X k) (draws k).2.1)
    (hn : ∀ k, heldOut X k ≤ cells X.shape (fun i => X i = -1) →
      Choice (cells X.shape fun i => X i = -1) (heldOut X k) (draws k).2.2)
    (htri : ∀ i, InB X.shape i → X i = 0 ∨ IsPM (X i)) :
    ∃ train mask, (∀ fuel, 2 ≤ fuel → splitLoop X true draws fuel (1 / 10) 0 = some (train, mask)) ∧
      ∀ i, InB X.shape i → mask i = false := by
  classical
  have hz : heldOut X 1 = 0 := by
    have h0 : (0 : ℝ) ≤ cells X.shape (fun i => X i ≠ 0) * attempt 1 * 0.5 := by have := (attempt_pos 1).le; positivity
    rw [heldOut, pyInt, if_neg (not_lt.mpr h0), Int.floor_eq_zero_iff]
    refine ⟨h0, ?_⟩
    have : ((cells X.shape fun i => X i ≠ 0 : Nat) : ℝ) < 200 := by exact_mod_cast hfew
    unfold attempt
    norm_num
    linarith
  obtain ⟨j, h3, h4, h5, train, mask, h6, h7, hs1, hs2, hs3, hc1, hc2⟩ := C89_balanced X h1 h2 draws hp hn
  have hj1 : j = 1 := by
    rcases Nat.lt_trichotomy j 1 with h | h | h
    · obtain rfl : j = 0 := by omega
      omega
    · exact h
    · have := h5 1 h
      omega
  subst hj1
  refine ⟨train, mask, fun fuel hf => h6 fuel (by omega), fun i hi => ?_⟩
  rw [hz] at hc1 hc2
  by_contra hm
  have hm : mask i = true := by simpa using hm
  have key : ∀ v : Int, (cells X.shape fun i => mask i = true ∧ X i = v) = 0 → X i ≠ v := by
    intro v hv hx
    unfold cells at hv
    rw [List.countP_eq_zero] at hv
    exact hv i (mem_indices.mpr hi) (by simp [hm, hx])
  rcases htri i hi with h | h | h
  · exact ((hs3 i).1 hm).2 h
  · exact key 1 (by exact_mod_cast hc1) h
  · exact key (-1) (by exact_mod_cast hc2) h

/-- the hypotheses of `C89_balanced` and `C89_nothing_held_out` are met: 40 cells, of which one is not a one -/
theorem C89_hypotheses_met : ∃ (X : Arr Int) (draws : Nat → (List Nat → Bool) × List Nat × List Nat),
    (cells X.shape fun i => X i = 1) = 39 ∧ (cells X.shape fun i => X i = -1) = 1 ∧
    (cells X.shape fun i => X i ≠ 0) < 200 ∧
    ((cells X.shape (fun i => X i = 1) : Int) < heldOut X 0 ∨ (cells X.shape (fun i => X i = -1) : Int) < heldOut X 0) ∧
    (∀ k, heldOut X k ≤ cells X.shape (fun i => X i = 1) →
      Choice (cells X.shape fun i => X i = 1) (heldOut X k) (draws k).2.1) ∧
    (∀ k, heldOut X k ≤ cells X.shape (fun i => X i = -1) →
      Choice (cells X.shape fun i => X i = -1) (heldOut X k) (draws k).2.2) ∧
    ∀ i, InB X.shape i → X i = 0 ∨ IsPM (X i) := by
  obtain ⟨X, hX⟩ : ∃ X : Arr Int, X = ⟨[1, 40], fun idx => if idx = [0, 0] then -1 else 1⟩ := ⟨_, rfl⟩
  have c1 : (cells X.shape fun i => X i = 1) = 39 := by rw [← cells_filter, hX]; decide
  have c2 : (cells X.shape fun i => X i = -1) = 1 := by rw [← cells_filter, hX]; decide
  have c3 : (cells X.shape fun i => X i ≠ 0) = 40 := by rw [← cells_filter, hX]; decide
  have ch : ∀ (k n : Nat), heldOut X k ≤ n → Choice n (heldOut X k) (List.range (heldOut X k).toNat) := by
    intro k n h
    have h0 := heldOut_nonneg X k
    refine ⟨by simp [h0], List.nodup_range, fun i hi => ?_⟩
    rw [List.mem_range] at hi
    omega
  have hh : heldOut X 0 = 2 := by
    rw [heldOut, c3, attempt]
    norm_num [pyInt]
  refine ⟨X, fun k => (fun _ => false, List.range (heldOut X k).toNat, List.range (heldOut X k).toNat), c1, c2, by omega, ?_,
    fun k h => ch k _ h, fun k h => ch k _ h, fun i _ => ?_⟩
  · rw [c2, hh]; right; decide
  · rw [hX]
    by_cases h : i = [0, 0]
    · exact .inr (.inr (if_pos h))
    · exact .inr (.inl (if_neg h))

/-! ## C90 -/

/-- does `add_layer` invert the data for this model? -/
def Spec.inverts (machine : String) : Bool :=
  match canonical_form machine with
  | .ok (_, d, _) => d
  | .error _ => false

/-- the same array, up to entries out of bounds -/
def Spec.SameArr (A B : Arr Int) : Prop := A.shape = B.shape ∧ ∀ idx, InB A.shape idx → A idx = B idx

/-- the array with all entries negated `n` times -/
def Spec.negated (n : Nat) (X : Arr Int) : Arr Int := ⟨X.shape, fun idx => (-1) ^ n * X idx⟩

theorem canonised_shared {X A : Arr Int} {n : Nat} (htri : ∀ i, InB X.shape i → X i = 0 ∨ IsPM (X i))
    (hA : SameArr A (negated n X)) (machine : String) :
    SameArr ((canonise_model machine (some A)).1.getD A) (negated (n + [machine].countP inverts) X) := by
  have hc : [machine].countP inverts = if inverts machine then 1 else 0 := by
    rw [List.countP_singleton]
  rw [hc]
  unfold canonise_model inverts
  cases h : canonical_form machine with
  | error e => exact hA
  | ok r =>
    obtain ⟨m, d, f⟩ := r
    cases d with
    | false => exact hA
    | true =>
      refine ⟨hA.1, fun idx hidx => ?_⟩
      show wrap8 (-A idx) = (-1) ^ (n + 1) * X idx
      rw [hA.2 idx hidx]
      show wrap8 (-((-1) ^ n * X idx)) = _
      have e : (-1 : Int) ^ (n + 1) * X idx = -((-1) ^ n * X idx) := by ring
      rw [e]
      have hX := htri idx (by have := hA.1; rw [← show A.shape = X.shape from this]; exact hidx)
      rcases neg_one_pow_eq_or Int n with h1 | h1 <;> rw [h1] <;> rcases hX with h2 | h2 | h2 <;> rw [h2] <;> decide

theorem gridDataFrom_spec {X : Arr Int} (htri : ∀ i, InB X.shape i → X i = 0 ∨ IsPM (X i)) {size : Nat} (hs : 0 < size)
    (ms : List String) : ∀ (left : Nat) (shared : Arr Int) (c : Nat), SameArr shared (negated c X) → ∀ j < ms.length,
      ∃ a, (gridDataFrom true X size left shared ms)[j]? = some a ∧
        SameArr a (negated (if j < left then c + (ms.take j).countP inverts
          else ((ms.take j).drop (left + (j - left) / size * size)).countP inverts) X) := by
  induction ms with
  | nil => intro _ _ _ _ j hj; simp at hj
  | cons machine rest ih =>
    intro left shared c hsh j hj
    have h0 : SameArr X (negated 0 X) := ⟨rfl, fun idx _ => by simp [negated]⟩
    cases left with
    | zero =>
      cases j with
      | zero => exact ⟨X, rfl, by simpa using h0⟩
      | succ j =>
        obtain ⟨a, h1, h2⟩ := ih (size - 1) _ _ (canonised_shared htri h0 machine) j (by simpa using hj)
        refine ⟨a, h1, ?_⟩
        convert h2 using 2
        simp only [Nat.not_lt_zero, if_false, Nat.zero_add, Nat.sub_zero, List.take_succ_cons]
        by_cases hlt : j < size - 1
        · rw [if_pos hlt, Nat.div_eq_of_lt (by omega), Nat.zero_mul, List.drop_zero, ← List.singleton_append, List.countP_append]
        · rw [if_neg hlt]
          have e : (j + 1) / size * size = (size - 1 + (j - (size - 1)) / size * size) + 1 := by
            have : j + 1 = (j - (size - 1)) + size := by omega
            rw [this, Nat.add_div_right _ hs, Nat.succ_mul]
            omega
          rw [e, List.drop_succ_cons]
    | succ left =>
      cases j with
      | zero => exact ⟨shared, rfl, by simpa using hsh⟩
      | succ j =>
        obtain ⟨a, h1, h2⟩ := ih left _ _ (canonised_shared htri hsh machine) j (by simpa using hj)
        refine ⟨a, h1, ?_⟩
        convert h2 using 2
        simp only [Nat.add_lt_add_iff_right, List.take_succ_cons]
        by_cases hlt : j < left
        · rw [if_pos hlt, if_pos hlt, ← List.singleton_append, List.countP_append]
          omega
        · rw [if_neg hlt, if_neg hlt]
          have e : left + 1 + (j + 1 - (left + 1)) / size * size = (left + (j - left) / size * size) + 1 := by
            rw [Nat.add_sub_add_right]
            omega
          rw [e, List.drop_succ_cons]

/-- **C90 (what experiments are run on).** Tasks `c * size, ..., (c + 1) * size - 1` of a grid are run in one process,
where `size` is the number of tasks divided by four times the number of processes, rounded up. With an int8 tensor, the
training data of a task is the training tensor, negated once for each model that inverts its data among the previous
tasks of that process. -/
theorem C90_shared_data (X_train : Arr Int) (htri : ∀ i, InB X_train.shape i → X_train i = 0 ∨ IsPM (X_train i))
    (processes : Nat) (hp : 0 < processes) (machines : List String) (j : Nat) (hj : j < machines.length) :
    ∃ a, (gridData true X_train processes machines)[j]? = some a ∧
      let size := chunkSize machines.length processes
      SameArr a (negated (((machines.take j).drop (j / size * size)).countP inverts) X_train) := by
  have hs : 0 < chunkSize machines.length processes := by
    unfold chunkSize
    exact Nat.div_pos (by omega) (by omega)
  obtain ⟨a, h1, h2⟩ := gridDataFrom_spec htri hs machines 0 X_train 0 ⟨rfl, fun idx _ => by simp [negated]⟩ j hj
  refine ⟨a, h1, ?_⟩
  simpa using h2

theorem gridDataFrom_length (int8 : Bool) (X : Arr Int) (size : Nat) (ms : List String) :
    ∀ (left : Nat) (shared : Arr Int), (gridDataFrom int8 X size left shared ms).length = ms.length := by
  induction ms with
  | nil => intro left shared; cases left <;> rfl
  | cons machine rest ih =>
    intro left shared
    cases left with
    | zero => rw [gridDataFrom, List.length_cons, ih, List.length_cons]
    | succ left => rw [gridDataFrom, List.length_cons, ih, List.length_cons]

/-- **C90 (separate data).** All experiments are run on the training tensor if there are at most four times as many
as processes, if the tensor is not of type int8, or if no model inverts its data. -/
theorem C90_separate_data (int8 : Bool) (X_train : Arr Int) (processes : Nat) (machines : List String)
    (h : machines.length ≤ 4 * processes ∨ int8 = false ∨ ∀ m ∈ machines, inverts m = false) :
    gridData int8 X_train processes machines = List.replicate machines.length X_train := by
  rw [List.eq_replicate_iff]
  refine ⟨gridDataFrom_length .., ?_⟩
  have hrest : ∀ ms : List String, (int8 = false ∨ ∀ m ∈ ms, inverts m = false) → ∀ size left,
      ∀ a ∈ gridDataFrom int8 X_train size left X_train ms, a = X_train := by
    intro ms
    induction ms with
    | nil =>
      intro _ size left a ha
      cases left <;> cases ha
    | cons machine rest ih =>
      intro h size left a ha
      have hnext : (if int8 then (canonise_model machine (some X_train)).1.getD X_train else X_train) = X_train := by
        rcases h with h | h
        · rw [h]; rfl
        · have := h machine List.mem_cons_self
          unfold inverts at this
          unfold canonise_model
          cases hc : canonical_form machine with
          | error e => simp
          | ok r =>
            rw [hc] at this
            simp only at this
            simp [this]
      have h' := h.imp_right fun h m hm => h m (List.mem_cons_of_mem _ hm)
      cases left with
      | zero =>
        rw [gridDataFrom, hnext, List.mem_cons] at ha
        rcases ha with ha | ha
        · exact ha
        · exact ih h' _ _ a ha
      | succ left =>
        rw [gridDataFrom, hnext, List.mem_cons] at ha
        rcases ha with ha | ha
        · exact ha
        · exact ih h' _ _ a ha
  rcases h with h | h
  · have hs : chunkSize machines.length processes ≤ 1 := by
      unfold chunkSize
      rcases Nat.eq_zero_or_pos processes with rfl | hp
      · simp
      · rw [Nat.div_le_iff_le_mul_add_pred (by omega)]
        omega
    have hone : ∀ (size : Nat), size ≤ 1 → ∀ (ms : List String) (shared : Arr Int),
        ∀ a ∈ gridDataFrom int8 X_train size 0 shared ms, a = X_train := by
      intro size hsz ms
      induction ms with
      | nil => intro shared a ha; cases ha
      | cons machine rest ih =>
        intro shared a ha
        rw [gridDataFrom, List.mem_cons] at ha
        rcases ha with ha | ha
        · exact ha
        · have : size - 1 = 0 := by omega
          rw [this] at ha
          exact ih _ a ha
    exact hone _ hs machines X_train
  · exact hrest machines h _ 0

/-- **C90** is wrong for larger grids of int8 tensors: with more than four times as many experiments as processes and a
first model that inverts its data, the second experiment is run on training data of which all observed cells are
inverted. -/
theorem C90_large_grid_wrong (X_train : Arr Int) (htri : ∀ i, InB X_train.shape i → X_train i = 0 ∨ IsPM (X_train i))
    (processes : Nat) (hp : 0 < processes) (machines : List String) (hlen : 4 * processes < machines.length)
    (hinv : ∀ m, machines[0]? = some m → inverts m = true) :
    ∃ a, (gridData true X_train processes machines)[1]? = some a ∧ a.shape = X_train.shape ∧
      ∀ idx, InB X_train.shape idx → a idx = -X_train idx ∧ (X_train idx ≠ 0 → a idx ≠ X_train idx) := by
  obtain ⟨a, h1, h2⟩ := C90_shared_data X_train htri processes hp machines 1 (by omega)
  refine ⟨a, h1, h2.1, fun idx hidx => ?_⟩
  have hsize : 1 < chunkSize machines.length processes := by
    unfold chunkSize
    rw [Nat.lt_div_iff_mul_lt (by omega)]
    omega
  have hv := h2.2 idx (by rw [h2.1]; exact hidx)
  rw [Nat.div_eq_of_lt hsize, Nat.zero_mul, List.drop_zero] at hv
  cases machines with
  | nil => simp at hlen
  | cons m rest =>
    have := hinv m rfl
    rw [List.take_succ_cons, List.take_zero, List.countP_singleton, if_pos this] at hv
    simp only [negated, pow_one] at hv
    refine ⟨by rw [hv]; ring, fun h0 h => ?_⟩
    rw [hv] at h
    omega

/-- shapes of what a split returns -/
theorem split_shapes {X : Arr Int} {split : ℝ} {b : Bool} {draw : List Nat → Bool} {p n : List Nat} {train : Arr Int} {mask : Arr Bool}
    (h : split_train_test X split b draw p n = .ok (train, mask)) : train.shape = X.shape ∧ mask.shape = X.shape := by
  unfold split_train_test at h
  simp only [bind, Except.bind, pure, Except.pure, throw, throwThe, MonadExceptOf.throw] at h
  split at h
  · simp at h
  · split at h
    · simp at h
    · rename_i m hm
      simp only [Except.ok.injEq, Prod.mk.injEq] at h
      obtain ⟨rfl, rfl⟩ := h
      refine ⟨rfl, ?_⟩
      cases b with
      | false =>
        simp only [if_true] at hm
        split at hm
        · simp at hm
        · split at hm
          · simp at hm
          · simp only [Except.ok.injEq] at hm
            subst hm
            rfl
      | true =>
        simp only [Bool.true_eq_false, if_false] at hm
        split at hm
        · simp at hm
        · split at hm
          · simp at hm
          · split at hm
            · simp at hm
            · split at hm
              · simp at hm
              · simp only [Except.ok.injEq] at hm
                subst hm
                rw [(foldl_set _ true _).1, (foldl_set _ true _).1]
                rfl

/-- a row of the results: the experiment's model and size, posterior means of the factors, and the share of held-out
cells of `X` that the model predicts (see C88) -/
def Spec.Scored (X : Arr Int) (mask : Arr Bool) (machine : String) (L : Nat) (r : Predictive) : Prop :=
  ∀ o i, machine = modelName o i → ∃ (m : String) (d f : Bool) (means : List (Arr ℝ)),
    canonical_form machine = .ok (m, d, f) ∧ means.length = X.shape.length ∧
    (∀ k, (hk : k < means.length) → means[k].shape = [X.shape.getD k 0, L]) ∧
    r = ⟨.fin (testShare mask fun idx =>
      let p := lomProb o i fun (l : Fin L) (k : Fin means.length) =>
        let q := (means[k] [idx.getD k 0, l] + 1) / 2
        if f then 1 - q else q
      if d then (1 / 2 < 1 - p ↔ X idx = -1) else (1 / 2 < p ↔ X idx = 1)), machine, L, means.map .nums⟩

theorem flatMap_get {α β : Type} {n : Nat} (f : α → List β) (l : List α) (hf : ∀ x ∈ l, (f x).length = n) (a b : Nat) (hb : b < n)
    (x : α) (hx : l[a]? = some x) : (l.flatMap f)[a * n + b]? = (f x)[b]? := by
  induction l generalizing a with
  | nil => simp at hx
  | cons y l ih =>
    rw [List.flatMap_cons]
    have hy := hf y List.mem_cons_self
    cases a with
    | zero =>
      simp only [List.getElem?_cons_zero, Option.some.injEq] at hx
      subst hx
      rw [Nat.zero_mul, Nat.zero_add, List.getElem?_append_left (by omega)]
    | succ a =>
      rw [List.getElem?_append_right (by rw [hy, Nat.succ_mul]; omega)]
      have : (a + 1) * n + b - (f y).length = a * n + b := by rw [hy, Nat.succ_mul]; omega
      rw [this]
      exact ih (fun x hx => hf x (List.mem_cons_of_mem _ hx)) a (by simpa using hx)

theorem flatMap_length {α β : Type} {n : Nat} (f : α → List β) (l : List α) (hf : ∀ x ∈ l, (f x).length = n) :
    (l.flatMap f).length = l.length * n := by
  induction l with
  | nil => simp
  | cons y l ih =>
    rw [List.flatMap_cons, List.length_append, ih fun x hx => hf x (List.mem_cons_of_mem _ hx), hf y List.mem_cons_self,
      List.length_cons, Nat.succ_mul, Nat.add_comm]

/-- **C90 (the table).** (`_partial`: two axes, a split that holds something out, no shared data.) The grid search
returns a row for each combination of model, size and random index, in lexicographic order, with the model, the size and
the share of held-out cells that the model predicts. -/
theorem C90_table_partial (argsort : Arr ℝ → List Nat) (X : Arr Int) (int8 : Bool) (machines : List String)
    (L_inits random_idxs : List Nat) (lbda_init : ℝ) (balanced anneal : Bool)
    (draws : Nat → (List Nat → Bool) × List Nat × List Nat) (dr : Nat → Draws) (fuel : Nat)
    (hX : X.shape.length = 2) (hm : ∀ m ∈ machines, ∃ o i, m = modelName o i)
    (hl : anneal = false ∨ lbda_init ≠ 0) (hinit : ∀ j k idx, IsPM ((dr j).init k idx))
    (hperm : ∀ j t l, ∀ i ∈ (dr j).perm t l, i ∈ l) (X_train : Arr Int) (mask : Arr Bool)
    (hsplit : splitLoop X balanced draws fuel (1 / 10) 0 = some (X_train, mask))
    (hsome : ∃ idx, InB X.shape idx ∧ mask idx = true)
    (hsep : machines.length * L_inits.length * random_idxs.length ≤ 112 ∨ int8 = false ∨ ∀ m ∈ machines, inverts m = false) :
    ∃ rows, gridsearch argsort X int8 (some machines) L_inits random_idxs lbda_init balanced anneal draws dr fuel = .ok (some rows) ∧
      rows.length = machines.length * L_inits.length * random_idxs.length ∧
      ∀ (a b c : Nat) (machine : String) (L idx : Nat), machines[a]? = some machine → L_inits[b]? = some L →
        random_idxs[c]? = some idx → ∃ r, rows[(a * L_inits.length + b) * random_idxs.length + c]? = some r ∧
          Scored X mask machine L r := by
  classical
  obtain ⟨j0, -, hok, -⟩ := (splitLoop_start _ _ _ _ _).mp hsplit
  obtain ⟨htr, hmk⟩ := split_shapes hok
  obtain ⟨grid, hgrid⟩ : ∃ grid, grid = gridOf machines L_inits random_idxs := ⟨_, rfl⟩
  have hin : ∀ (mc : String), (L_inits.flatMap fun L => random_idxs.map fun idx => (mc, L, idx)).length =
      L_inits.length * random_idxs.length := fun mc => flatMap_length _ _ fun L _ => by simp
  have hglen : grid.length = machines.length * L_inits.length * random_idxs.length := by
    rw [hgrid, gridOf, flatMap_length _ _ fun mc _ => hin mc, Nat.mul_assoc]
  have hgmem : ∀ g ∈ grid, g.1 ∈ machines := by
    intro g hg
    rw [hgrid, gridOf, List.mem_flatMap] at hg
    obtain ⟨mc, hmc, hg⟩ := hg
    rw [List.mem_flatMap] at hg
    obtain ⟨L, -, hg⟩ := hg
    rw [List.mem_map] at hg
    obtain ⟨idx, -, rfl⟩ := hg
    exact hmc
  have hdata : gridData int8 X_train 28 (grid.map fun g => g.1) = List.replicate grid.length X_train := by
    rw [C90_separate_data, List.length_map]
    refine hsep.imp (fun h => by rw [List.length_map, hglen]; omega) (Or.imp_right fun h m hmm => ?_)
    obtain ⟨g, hg, rfl⟩ := List.mem_map.mp hmm
    exact h _ (hgmem g hg)
  have hrun : ∀ g ∈ grid, ∀ j, ∃ r, LOM_predictive argsort ⟨X, X_train, int8, false, mask, g.1, g.2.1, lbda_init, anneal⟩ (dr j) =
      .ok r ∧ Scored X mask g.1 g.2.1 r := by
    intro g hg j
    obtain ⟨o, i, hname⟩ := hm g.1 (hgmem g hg)
    have key : ∀ o i, g.1 = modelName o i → _ := fun o i hname =>
      C88_accuracy_partial argsort o i ⟨X, X_train, int8, false, mask, g.1, g.2.1, lbda_init, anneal⟩ (dr j) hname
        (.inl (by rw [htr]; exact hX)) htr.symm (by rw [hmk, htr]) (by simpa [hmk] using hsome) (.inl rfl) hl (hinit j) (hperm j)
    obtain ⟨m, d, f, means, h1, h2, h3, h4⟩ := key o i hname
    refine ⟨_, h4, fun o' i' hname' => ?_⟩
    obtain ⟨m', d', f', means', h1', h2', h3', h4'⟩ := key o' i' hname'
    rw [h4] at h4'
    injection h4' with h4'
    refine ⟨m', d', f', means', h1', by rw [h2', htr], fun k hk => ?_, h4'⟩
    rw [(h3' k hk).1, htr]
  have : Nonempty Predictive := ⟨⟨.nan, "", 0, []⟩⟩
  choose! row hrow using hrun
  have hmap : ((grid.zip (List.replicate grid.length X_train)).zipIdx.mapM fun (((machine, L, _), X_train), j) =>
        LOM_predictive argsort ⟨X, X_train, int8, false, mask, machine, L, lbda_init, anneal⟩ (dr j)) =
      .ok ((grid.zip (List.replicate grid.length X_train)).zipIdx.map fun x => row x.1.1 x.2) := by
    refine mapM_ok _ _ _ fun x hx => ?_
    obtain ⟨⟨g, T⟩, j⟩ := x
    have hz := List.mem_zipIdx hx
    have hz' : (g, T) ∈ grid.zip (List.replicate grid.length X_train) := by
      rw [hz.2.2]
      exact List.getElem_mem _
    have hg := (List.of_mem_zip hz').1
    have hT := List.eq_of_mem_replicate (List.of_mem_zip hz').2
    subst hT
    exact (hrow g hg j).1
  refine ⟨(grid.zip (List.replicate grid.length X_train)).zipIdx.map fun x => row x.1.1 x.2, ?_, ?_, ?_⟩
  · unfold gridsearch
    rw [hsplit]
    simp only
    rw [← hgrid, hdata, hmap]
    rfl
  · simp [hglen]
  · intro a b c machine L idx ha hb hc
    have hbl : b < L_inits.length := (List.getElem?_eq_some_iff.mp hb).1
    have hcl : c < random_idxs.length := (List.getElem?_eq_some_iff.mp hc).1
    have hg : grid[(a * L_inits.length + b) * random_idxs.length + c]? = some (machine, L, idx) := by
      rw [hgrid, gridOf]
      have e : (a * L_inits.length + b) * random_idxs.length + c =
          a * (L_inits.length * random_idxs.length) + (b * random_idxs.length + c) := by ring
      have hlt : b * random_idxs.length + c < L_inits.length * random_idxs.length := by
        calc b * random_idxs.length + c < b * random_idxs.length + random_idxs.length := by omega
          _ = (b + 1) * random_idxs.length := by ring
          _ ≤ L_inits.length * random_idxs.length := Nat.mul_le_mul_right _ hbl
      rw [e, flatMap_get _ _ (fun mc _ => hin mc) a _ hlt machine ha,
        flatMap_get (n := random_idxs.length) _ _ (fun L _ => by simp) b c hcl L hb]
      simp [hc]
    obtain ⟨hlt, hge⟩ := List.getElem?_eq_some_iff.mp hg
    refine ⟨row (machine, L, idx) ((a * L_inits.length + b) * random_idxs.length + c), ?_, ?_⟩
    · rw [List.getElem?_map, List.getElem?_zipIdx, List.getElem?_zip_eq_some (z := ((machine, L, idx), X_train)) |>.mpr ⟨hg, List.getElem?_replicate_of_lt hlt⟩]
      simp
    · exact (hrow (machine, L, idx) (hge ▸ List.getElem_mem hlt) _).2

/-- **C90**: with the default `machines=None` the grid search raises NameError -/
theorem C90_default_machines (argsort : Arr ℝ → List Nat) (X : Arr Int) (int8 : Bool) (L_inits random_idxs : List Nat)
    (lbda_init : ℝ) (balanced anneal : Bool) (draws : Nat → (List Nat → Bool) × List Nat × List Nat) (dr : Nat → Draws)
    (fuel : Nat) :
    gridsearch argsort X int8 none L_inits random_idxs lbda_init balanced anneal draws dr fuel = .error .nameError := rfl

/-- the hypotheses of `C90_table_partial` are met: two models, one of which inverts its data, two sizes, and a split that
holds out a cell -/
theorem C90_hypotheses_met : ∃ (X : Arr Int) (machines : List String) (draws : Nat → (List Nat → Bool) × List Nat × List Nat)
    (dr : Nat → Draws) (X_train : Arr Int) (mask : Arr Bool), X.shape.length = 2 ∧ machines.length = 2 ∧
    (∀ m ∈ machines, ∃ o i, m = modelName o i) ∧ (∃ m ∈ machines, inverts m = true) ∧
    (∀ j k idx, IsPM ((dr j).init k idx)) ∧ (∀ j t l, ∀ i ∈ (dr j).perm t l, i ∈ l) ∧
    splitLoop X false draws 9 (1 / 10) 0 = some (X_train, mask) ∧ (∃ idx, InB X.shape idx ∧ mask idx = true) ∧
    machines.length * [2, 3].length * [0].length ≤ 112 := by
  obtain ⟨X, hX⟩ : ∃ X : Arr Int, X = ⟨[1, 2], fun _ => 1⟩ := ⟨_, rfl⟩
  have hobs : (cells X.shape fun i => X i ≠ 0) = 2 := by rw [← cells_filter, hX]; decide
  obtain ⟨j, h1, h2, train, mask, h3, -, -, -, h4⟩ :=
    C89_unbalanced X (by omega) fun _ => (fun _ => true, [], [])
  have hj : j = 0 := by
    by_contra hj
    have := h2 0 (by omega)
    rw [hobs, hX, attempt] at this
    norm_num at this
  subst hj
  refine ⟨X, ["OR-AND", "AND-AND"], fun _ => (fun _ => true, [], []), fun _ => ⟨fun _ _ => 1, fun _ _ _ => 0, fun _ l => l,
    fun _ _ _ _ => .fin 0, fun _ _ _ => .fin 0, fun _ _ => 0⟩, train, mask, by rw [hX]; rfl, rfl, ?_, ⟨"AND-AND", by simp, rfl⟩,
    fun _ _ _ => .inl rfl, fun _ _ _ _ h => h, h3 9 (by omega), ⟨[0, 0], by rw [hX]; exact ⟨by decide, by decide, trivial⟩, ?_⟩,
    by decide⟩
  · intro m hm
    simp only [List.mem_cons, List.not_mem_nil, or_false] at hm
    rcases hm with rfl | rfl
    · exact ⟨.OR, .AND, by decide⟩
    · exact ⟨.AND, .AND, by decide⟩
  · exact ((h4 [0, 0]).1).mpr ⟨by rw [hX]; decide, rfl⟩

end LFM

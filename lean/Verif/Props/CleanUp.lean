import Verif.Lemmas.CleanUp

/-!
# C54–C56: `clean_up_codes`
-/

namespace LFM

/-! ## C54 -/

/-- **C54 (return value).** `clean_up_codes(layer, reset=False, clean=True)` always terminates without an error,
returns True exactly if a dimension was removed, and if it returns False the layer is as before. -/
theorem C54_return_value (layer : List Fac) : ∃ r, clean_up_codes layer false true = .ok r ∧
    (r.2 = true ↔ layerSize r.1 < layerSize layer) ∧ (r.2 = false → r.1 = layer) := by
  obtain ⟨r, hr⟩ := clean_up_ok (reset := false) (clean := true) (Or.inr rfl) layer
  refine ⟨r, hr, ?_⟩
  have key := clean_up_inv (reset := false) (clean := true)
    (fun fs b => layerSize fs ≤ layerSize layer ∧ (b = true ↔ layerSize fs < layerSize layer) ∧ (b = false → fs = layer))
    ?_ ?_ ⟨le_refl _, by simp, fun _ => rfl⟩ hr
  · exact key.2
  · intro l fs fs' b hI hl _ hrun
    simp only [cleaning_action, Bool.false_eq_true, if_false, if_true, CleanAction.run, Except.ok.injEq] at hrun
    have := layerSize_remove hl
    rw [hrun] at this
    exact ⟨by omega, ⟨fun _ => by omega, fun _ => rfl⟩, by simp⟩
  · intro l l' fs fs' b hI _ hl _ hrun
    simp only [cleaning_action, Bool.false_eq_true, if_false, if_true, CleanAction.run, Except.ok.injEq] at hrun
    have := layerSize_remove hl
    rw [hrun] at this
    exact ⟨by omega, ⟨fun _ => by omega, fun _ => rfl⟩, by simp⟩

/-- **C54 (False certifies).** In any mode, the function returns False exactly if no dimension is all -1 in some
factor and no two dimensions coincide in some factor. Missing for the full claim: the same after a call that
returned True, see `C54_wrong`. -/
theorem C54_false_certifies_partial (layer layer' : List Fac) (reset clean : Bool) :
    clean_up_codes layer reset clean = .ok (layer', false) ↔
      layer' = layer ∧ Spec.Tidy (layerSize layer) (vals layer) := clean_up_false_iff

/-- `n` calls that return True followed by one that returns False -/
inductive CallsUntilFalse : Nat → List Fac → List Fac → Prop
  | stop {fs} : clean_up_codes fs false true = .ok (fs, false) → CallsUntilFalse 0 fs fs
  | call {n fs fs' fs''} : clean_up_codes fs false true = .ok (fs', true) → CallsUntilFalse n fs' fs'' →
      CallsUntilFalse (n + 1) fs fs''

/-- **C54 (repetition).** Repeating the call until it returns False ends after at most one call per dimension, with a
layer in which there is nothing left to clean up. -/
theorem C54_repeat (layer : List Fac) : ∃ n layer', n ≤ layerSize layer ∧ CallsUntilFalse n layer layer' ∧
    Spec.Tidy (layerSize layer') (vals layer') := by
  induction hs : layerSize layer using Nat.strong_induction_on generalizing layer with
  | _ s ih =>
    obtain ⟨⟨fs', b⟩, hr, h1, h2⟩ := C54_return_value layer
    cases b with
    | false =>
      have := h2 rfl
      simp only at this
      subst this
      exact ⟨0, fs', by omega, .stop hr, (clean_up_false_iff.mp hr).2⟩
    | true =>
      have hlt := h1.mp rfl
      simp only at hlt
      obtain ⟨n, fs'', hn, hc, ht⟩ := ih _ (by omega) fs' rfl
      exact ⟨n + 1, fs'', by omega, .call hr hc, ht⟩

/-- a factor with nothing fixed -/
def layerFac (c : Nat) (rows : List (List Int)) : Fac := ⟨Arr.mat c rows (-1), Arr.full [rows.length, c] 0⟩

/-- one row, three dimensions, of which the first two are unused -/
def twoUnused : List Fac := [layerFac 3 [[-1, -1, 1]], layerFac 3 [[1, 1, 1], [1, -1, 1]]]

theorem clean_twoUnused :
    clean_up_codes twoUnused false true = .ok (remove_dimension 0 twoUnused, true) := by
  have s0 : layerSize twoUnused = 3 := rfl
  have s1 : layerSize (remove_dimension 0 twoUnused) = 2 := rfl
  have h1 : cleanInactive (cleaning_action false true) 0 twoUnused false =
      .ok (remove_dimension 0 twoUnused, true) := by
    rw [cleanInactive_hit (by omega) (by decide) rfl, cleanInactive_miss (by omega) (by decide),
      cleanInactive_end (by omega)]
  simp only [clean_up_codes, bind, Except.bind, h1]
  refine cleanDup_none fun x y _ hxy hy => ?_
  obtain ⟨rfl, rfl⟩ : x = 0 ∧ y = 1 := by omega
  decide

/-- **C54 is wrong for a single call.** Of two adjacent unused dimensions the second one survives a call that reports
success: deleting a column moves the next one to the index that has just been examined. -/
theorem C54_wrong : ∃ (layer : List Fac) (r : List Fac × Bool), Spec.LatentColumns 3 (vals layer) ∧
    clean_up_codes layer false true = .ok r ∧ r.2 = true ∧ 0 < layerSize r.1 ∧ Spec.Useless (vals r.1) 0 :=
  ⟨twoUnused, _, by simp [Spec.LatentColumns, vals, twoUnused, layerFac, Arr.mat, Arr.dim], clean_twoUnused, rfl, by decide,
    (inactive_iff _ _).mp (by decide)⟩

/-- **C54 (reset mode).** With `reset=True` the number of dimensions never changes, and a call that returned True
leaves a layer for which the next call returns True again: the return value is not "something is left to do". -/
theorem C54_reset_reports_again (layer : List Fac) : ∃ r, clean_up_codes layer true false = .ok r ∧
    layerSize r.1 = layerSize layer ∧
    (r.2 = true → ∃ r', clean_up_codes r.1 true false = .ok r' ∧ r'.2 = true) := by
  obtain ⟨r, hr⟩ := clean_up_ok (reset := true) (clean := false) (Or.inl rfl) layer
  refine ⟨r, hr, ?_⟩
  have key := clean_up_inv (reset := true) (clean := false)
    (fun fs b => layerSize fs = layerSize layer ∧ (b = true → ∃ l < layerSize fs, inactive fs l = true))
    ?_ ?_ ⟨rfl, by simp⟩ hr
  · refine ⟨key.1, fun h => ?_⟩
    obtain ⟨l, hl, hi⟩ := key.2 h
    obtain ⟨⟨fs, b⟩, hr'⟩ := clean_up_ok (reset := true) (clean := false) (Or.inl rfl) r.1
    refine ⟨_, hr', ?_⟩
    cases b with
    | true => rfl
    | false =>
      have := (tidy_iff _).mp (clean_up_false_iff.mp hr').2
      rw [this.1 l hl] at hi
      simp at hi
  all_goals
    have step : ∀ (l : Nat) (fs : List Fac), l < layerSize fs → inactive (reset_dimension l fs) l = true := by
      intro l fs hl
      rw [inactive_iff, vals_reset]
      match fs with
      | [] => simp [layerSize] at hl
      | f :: t => exact ⟨f.val.setCol l (-1), by simp [vals], fun i _ => by simp [Arr.setCol]⟩
  · intro l fs fs' b hI hl _ hrun
    simp only [cleaning_action, if_true, CleanAction.run, Except.ok.injEq] at hrun
    subst hrun
    exact ⟨by rw [layerSize_reset, hI.1], fun _ => ⟨l, by rwa [layerSize_reset], step l fs hl⟩⟩
  · intro l l' fs fs' b hI _ hl _ hrun
    simp only [cleaning_action, if_true, CleanAction.run, Except.ok.injEq] at hrun
    subst hrun
    exact ⟨by rw [layerSize_reset, hI.1], fun _ => ⟨l', by rwa [layerSize_reset], step l' fs hl⟩⟩

/-! ## C54: neither flag -/

/-- **C54 (no action).** With both flags False the call raises UnboundLocalError as soon as there is something to
clean up, and otherwise returns False. -/
theorem C54_no_action (layer : List Fac) : clean_up_codes layer false false =
    open Classical in
    if Spec.Tidy (layerSize layer) (vals layer) then .ok (layer, false) else .error .unboundLocal := by
  split
  · rename_i h
    exact clean_up_false_iff.mpr ⟨rfl, h⟩
  · rename_i h
    cases hr : clean_up_codes layer false false with
    | ok r =>
      have := clean_up_inv (reset := false) (clean := false) (fun _ b => b = false)
        (by simp [cleaning_action, CleanAction.run]) (by simp [cleaning_action, CleanAction.run]) rfl hr
      obtain ⟨fs, b⟩ := r
      simp only at this
      subst this
      exact absurd (clean_up_false_iff.mp hr).2 h
    | error e =>
      have e1 : ∀ l fs b e, cleanInactive (cleaning_action false false) l fs b = .error e → e = .unboundLocal := by
        intro l fs b e h
        fun_induction cleanInactive (cleaning_action false false) l fs b <;>
          simp_all [cleaning_action, CleanAction.run]
      have e2 : ∀ l l' fs b e, cleanDupInner (cleaning_action false false) l l' fs b = .error e → e = .unboundLocal := by
        intro l l' fs b e h
        fun_induction cleanDupInner (cleaning_action false false) l l' fs b <;>
          simp_all [cleaning_action, CleanAction.run]
      have e3 : ∀ l fs b e, cleanDup (cleaning_action false false) l fs b = .error e → e = .unboundLocal := by
        intro l fs b e h
        fun_induction cleanDup (cleaning_action false false) l fs b with
        | case1 l layer b h1 e' h3 =>
          simp only [Except.error.injEq] at h
          subst h
          exact e2 _ _ _ _ _ h3
        | case2 l layer b h1 r' h2 ih => exact ih h
        | case3 l layer b h1 => simp at h
      simp only [clean_up_codes, bind, Except.bind] at hr
      split at hr
      · rename_i e' he
        simp only [Except.error.injEq] at hr
        subst hr
        rw [e1 _ _ _ _ he]
      · rw [e3 _ _ _ _ hr]

/-! ## C55 -/

theorem orAnd_iff (L : Nat) (V : List (Arr Int)) (idx : Nat → Nat) :
    Spec.orAnd L V idx ↔ ∃ l < L, ∀ (k : Nat) (hk : k < V.length), V[k] [idx k, l] = 1 := by
  constructor
  · rintro ⟨l, h⟩
    exact ⟨l, l.2, fun k hk => h ⟨k, hk⟩⟩
  · rintro ⟨l, hl, h⟩
    exact ⟨⟨l, hl⟩, fun k => h k k.2⟩

/-- a superfluous dimension: useless, or the same in all factors as an earlier one -/
def Superfluous (V : List (Arr Int)) (c : Nat) : Prop := Spec.Useless V c ∨ ∃ l < c, Spec.Same V l c

/-- leaving out a superfluous dimension does not change the product -/
theorem orAnd_skip {L : Nat} {V : List (Arr Int)} {c : Nat} (h : Superfluous V c) (idx : Nat → Nat)
    (hp : Spec.Position V idx) : Spec.orAnd L V idx ↔
      ∃ l < L, l ≠ c ∧ ∀ (k : Nat) (hk : k < V.length), V[k] [idx k, l] = 1 := by
  rw [orAnd_iff]
  constructor
  · rintro ⟨l, hl, hk⟩
    by_cases hc : l = c
    · subst hc
      rcases h with ⟨a, ha, hu⟩ | ⟨l', hl', hs⟩
      · obtain ⟨k, hkV, rfl⟩ := List.getElem_of_mem ha
        have h1 := hk k hkV
        rw [hu _ (hp ⟨k, hkV⟩)] at h1
        simp at h1
      · exact ⟨l', by omega, by omega, fun k hkV => by
          rw [hs _ (List.getElem_mem hkV) _ (hp ⟨k, hkV⟩)]
          exact hk k hkV⟩
    · exact ⟨l, hl, hc, hk⟩
  · rintro ⟨l, hl, -, hk⟩
    exact ⟨l, hl, hk⟩

theorem orAnd_delete {L : Nat} {V : List (Arr Int)} {c : Nat} (hc : c < L) (h : Superfluous V c) (idx : Nat → Nat)
    (hp : Spec.Position V idx) : Spec.orAnd (L - 1) (V.map (·.deleteCol c)) idx ↔ Spec.orAnd L V idx := by
  rw [orAnd_skip h idx hp, orAnd_iff]
  constructor
  · rintro ⟨l, hl, hk⟩
    refine ⟨if l < c then l else l + 1, by split <;> omega, by split <;> omega, fun k hkV => ?_⟩
    have := hk k (by simpa using hkV)
    simpa [Arr.deleteCol] using this
  · rintro ⟨l, hl, hne, hk⟩
    refine ⟨if l < c then l else l - 1, by split <;> omega, fun k hkV => ?_⟩
    have hk' : k < V.length := by simpa using hkV
    have := hk k hk'
    simp only [List.getElem_map, Arr.deleteCol, List.getD_cons_zero, List.getD_cons_succ]
    have e : (if (if l < c then l else l - 1) < c then (if l < c then l else l - 1) else
        (if l < c then l else l - 1) + 1) = l := by
      split_ifs <;> omega
    rw [e]
    exact this

theorem orAnd_setCol {L : Nat} {V : List (Arr Int)} {c : Nat} (hV : V ≠ []) (h : Superfluous V c) (idx : Nat → Nat)
    (hp : Spec.Position V idx) : Spec.orAnd L (V.map (·.setCol c (-1))) idx ↔ Spec.orAnd L V idx := by
  rw [orAnd_skip h idx hp, orAnd_iff]
  constructor
  · rintro ⟨l, hl, hk⟩
    have hne : l ≠ c := by
      rintro rfl
      have := hk 0 (by simpa using List.length_pos_iff.mpr hV)
      simp [Arr.setCol] at this
    refine ⟨l, hl, hne, fun k hkV => ?_⟩
    have := hk k (by simpa using hkV)
    simpa [Arr.setCol, hne] using this
  · rintro ⟨l, hl, hne, hk⟩
    refine ⟨l, hl, fun k hkV => ?_⟩
    simpa [Arr.setCol, hne] using hk k (by simpa using hkV)

/-- columns that coincide in one factor do so in all, unless the later one is useless -/
def Spec.NoPartialDuplicates (L : Nat) (V : List (Arr Int)) : Prop :=
  ∀ l l', l < l' → l' < L → Spec.Coincide V l l' → Spec.Same V l l' ∨ Spec.Useless V l'

theorem noPartial_delete {L : Nat} {V : List (Arr Int)} {c : Nat} (hc : c < L) (h : Spec.NoPartialDuplicates L V) :
    Spec.NoPartialDuplicates (L - 1) (V.map (·.deleteCol c)) := by
  rintro l l' hll hl' ⟨a, ha, he⟩
  obtain ⟨a, ha', rfl⟩ := List.mem_map.mp ha
  have he' : ∀ i < a.dim 0, a [i, if l < c then l else l + 1] = a [i, if l' < c then l' else l' + 1] := by
    intro i hi
    simpa [Arr.deleteCol] using he i (by simpa [Arr.deleteCol, Arr.dim] using hi)
  rcases h (if l < c then l else l + 1) (if l' < c then l' else l' + 1) (by split_ifs <;> omega)
    (by split_ifs <;> omega) ⟨a, ha', he'⟩ with hs | ⟨u, hu, hu'⟩
  · left
    intro b hb i hi
    obtain ⟨b, hb', rfl⟩ := List.mem_map.mp hb
    simpa [Arr.deleteCol] using hs b hb' i (by simpa [Arr.deleteCol, Arr.dim] using hi)
  · right
    refine ⟨u.deleteCol c, List.mem_map.mpr ⟨u, hu, rfl⟩, fun i hi => ?_⟩
    simpa [Arr.deleteCol] using hu' i (by simpa [Arr.deleteCol, Arr.dim] using hi)

theorem noPartial_setCol {L : Nat} {V : List (Arr Int)} {c : Nat} (h : Spec.NoPartialDuplicates L V) :
    Spec.NoPartialDuplicates L (V.map (·.setCol c (-1))) := by
  rintro l l' hll hl' ⟨a, ha, he⟩
  obtain ⟨a, ha', rfl⟩ := List.mem_map.mp ha
  by_cases h1 : l' = c
  · right
    exact ⟨_, ha, fun i _ => by simp [Arr.setCol, h1]⟩
  · by_cases h2 : l = c
    · right
      refine ⟨_, ha, fun i hi => ?_⟩
      rw [← he i hi]
      simp [Arr.setCol, h2]
    · have he' : ∀ i < a.dim 0, a [i, l] = a [i, l'] := by
        intro i hi
        simpa [Arr.setCol, h1, h2] using he i (by simpa [Arr.setCol, Arr.dim] using hi)
      rcases h l l' hll hl' ⟨a, ha', he'⟩ with hs | ⟨u, hu, hu'⟩
      · left
        intro b hb i hi
        obtain ⟨b, hb', rfl⟩ := List.mem_map.mp hb
        simpa [Arr.setCol, h1, h2] using hs b hb' i (by simpa [Arr.setCol, Arr.dim] using hi)
      · right
        refine ⟨u.setCol c (-1), List.mem_map.mpr ⟨u, hu, rfl⟩, fun i hi => ?_⟩
        simpa [Arr.setCol, h1] using hu' i (by simpa [Arr.setCol, Arr.dim] using hi)

/-- what the proof of C55 maintains -/
structure C55Inv (layer : List Fac) (fs : List Fac) : Prop where
  ne : fs ≠ []
  noPart : Spec.NoPartialDuplicates (layerSize fs) (vals fs)
  rows : (vals fs).map (·.dim 0) = (vals layer).map (·.dim 0)
  prod : ∀ idx, Spec.Position (vals layer) idx →
    (Spec.orAnd (layerSize fs) (vals fs) idx ↔ Spec.orAnd (layerSize layer) (vals layer) idx)

theorem position_of_rows {V W : List (Arr Int)} (h : V.map (·.dim 0) = W.map (·.dim 0)) {idx : Nat → Nat}
    (hp : Spec.Position W idx) : Spec.Position V idx := by
  intro k
  have hlen : V.length = W.length := by simpa using congrArg List.length h
  have := hp ⟨k, by omega⟩
  have e : (V.map (·.dim 0))[(k : Nat)]'(by simp) = (W.map (·.dim 0))[(k : Nat)]'(by simp; omega) := by
    simp only [h]
  simp only [List.getElem_map] at e
  simpa [e] using this

theorem C55Inv.step {layer fs fs' : List Fac} {a : Option CleanAction} {c : Nat} (h : C55Inv layer fs)
    (hc : c < layerSize fs) (hs : Superfluous (vals fs) c) (hr : CleanAction.run a c fs = .ok fs') : C55Inv layer fs' := by
  match a with
  | none => simp [CleanAction.run] at hr
  | some .remove =>
    simp only [CleanAction.run, Except.ok.injEq] at hr
    subst hr
    have hsz : layerSize (remove_dimension c fs) = layerSize fs - 1 := by
      cases fs <;> simp [layerSize, remove_dimension, Arr.deleteCol, Arr.dim]
    refine ⟨?_, ?_, ?_, fun idx hp => ?_⟩
    · have := h.ne
      cases fs <;> simp_all [remove_dimension]
    · rw [hsz, vals_remove]
      exact noPartial_delete hc h.noPart
    · rw [vals_remove, ← h.rows]
      simp [Function.comp_def, Arr.deleteCol, Arr.dim]
    · rw [hsz, vals_remove, orAnd_delete hc hs idx (position_of_rows h.rows hp)]
      exact h.prod idx hp
  | some .reset =>
    simp only [CleanAction.run, Except.ok.injEq] at hr
    subst hr
    refine ⟨?_, ?_, ?_, fun idx hp => ?_⟩
    · have := h.ne
      cases fs <;> simp_all [reset_dimension]
    · rw [layerSize_reset, vals_reset]
      exact noPartial_setCol h.noPart
    · rw [vals_reset, ← h.rows]
      simp [Function.comp_def, Arr.setCol, Arr.dim]
    · rw [layerSize_reset, vals_reset, orAnd_setCol (by simpa [vals] using h.ne) hs idx (position_of_rows h.rows hp)]
      exact h.prod idx hp

/-- **C55 (partial).** In both modes and for any number of factors, the OR-AND product is unchanged — provided that
dimensions that coincide in one factor coincide in all of them (or the later one is useless). Missing: layers with
dimensions that coincide in one factor only, where the claim is false, see `C55_wrong`. -/
theorem C55_product_partial (layer : List Fac) (hne : layer ≠ [])
    (hdup : Spec.NoPartialDuplicates (layerSize layer) (vals layer)) (reset clean : Bool) (r : List Fac × Bool)
    (h : clean_up_codes layer reset clean = .ok r) :
    (vals r.1).map (·.dim 0) = (vals layer).map (·.dim 0) ∧
    ∀ idx, Spec.Position (vals layer) idx →
      (Spec.orAnd (layerSize r.1) (vals r.1) idx ↔ Spec.orAnd (layerSize layer) (vals layer) idx) := by
  have key := clean_up_inv (reset := reset) (clean := clean) (fun fs _ => C55Inv layer fs) ?_ ?_
    ⟨hne, hdup, rfl, fun _ _ => Iff.rfl⟩ h
  · exact ⟨key.rows, key.prod⟩
  · intro l fs fs' b hI hl hin hrun
    exact hI.step hl (Or.inl ((inactive_iff _ _).mp hin)) hrun
  · intro l l' fs fs' b hI hll hl hd hrun
    refine hI.step hl ?_ hrun
    rcases hI.noPart l l' hll hl ((duplicate_iff _ _ _).mp hd) with hs | hu
    · exact Or.inr ⟨l, hll, hs⟩
    · exact Or.inl hu

/-- **C55 (first phase).** Removing or resetting the dimensions that are all -1 in some factor never changes the
product, whatever the factors. -/
theorem C55_inactive (layer : List Fac) (hne : layer ≠ []) (a : CleanAction) (c : Nat) (hc : c < layerSize layer)
    (hu : Spec.Useless (vals layer) c) (layer' : List Fac) (h : CleanAction.run (some a) c layer = .ok layer') :
    ∀ idx, Spec.Position (vals layer) idx →
      (Spec.orAnd (layerSize layer') (vals layer') idx ↔ Spec.orAnd (layerSize layer) (vals layer) idx) := by
  intro idx hp
  match a with
  | .remove =>
    simp only [CleanAction.run, Except.ok.injEq] at h
    subst h
    have hsz : layerSize (remove_dimension c layer) = layerSize layer - 1 := by
      cases layer <;> simp [layerSize, remove_dimension, Arr.deleteCol, Arr.dim]
    rw [hsz, vals_remove]
    exact orAnd_delete hc (Or.inl hu) idx hp
  | .reset =>
    simp only [CleanAction.run, Except.ok.injEq] at h
    subst h
    rw [layerSize_reset, vals_reset]
    exact orAnd_setCol (by simpa [vals] using hne) (Or.inl hu) idx hp

/-- three dimensions, the last one a copy of the first -/
def trueDuplicate : List Fac :=
  [layerFac 3 [[1, -1, 1], [-1, 1, -1]], layerFac 3 [[-1, 1, -1], [1, 1, 1]]]

/-- the hypotheses of `C55_product_partial` hold for `trueDuplicate`, from which a dimension is removed -/
theorem C55_hypotheses_met : Spec.NoPartialDuplicates (layerSize trueDuplicate) (vals trueDuplicate) ∧
    ∃ r, clean_up_codes trueDuplicate false true = .ok r ∧ layerSize r.1 < layerSize trueDuplicate := by
  have h3 : layerSize trueDuplicate = 3 := rfl
  constructor
  · intro l l' h1 h2 hco
    rw [← duplicate_iff] at hco
    obtain ⟨rfl, rfl⟩ | ⟨rfl, rfl⟩ | ⟨rfl, rfl⟩ : (l = 0 ∧ l' = 1) ∨ (l = 0 ∧ l' = 2) ∨ (l = 1 ∧ l' = 2) := by omega
    · exact absurd hco (by decide)
    · left
      have : ∀ a ∈ vals trueDuplicate, (List.range (a.dim 0)).all fun i => a [i, 0] = a [i, 2] := by
        intro a ha
        simp only [vals, trueDuplicate, List.map_cons, List.map_nil, List.mem_cons, List.not_mem_nil, or_false] at ha
        rcases ha with rfl | rfl <;> decide
      intro a ha i hi
      have := List.all_eq_true.mp (this a ha) i (List.mem_range.mpr hi)
      simpa using this
    · exact absurd hco (by decide)
  · obtain ⟨⟨fs, b⟩, hr, h1, h2⟩ := C54_return_value trueDuplicate
    refine ⟨_, hr, h1.mp ?_⟩
    cases b with
    | true => rfl
    | false =>
      have := ((tidy_iff _).mp (clean_up_false_iff.mp hr).2).2 0 2 (by omega) (by omega)
      exact absurd this (by decide)

/-- one row that uses both dimensions, which differ in the second factor -/
def halfDuplicates : List Fac := [layerFac 2 [[1, 1]], layerFac 2 [[1, -1], [-1, 1]]]

/-- **C55 is wrong in general.** Dimensions that coincide in one factor only are treated as duplicates: a call on
`halfDuplicates` (data row (1, 1)) deletes the second dimension and the prediction at column 1 becomes -1. -/
theorem C55_wrong : ∃ (layer : List Fac) (r : List Fac × Bool) (idx : Nat → Nat), Spec.LatentColumns 2 (vals layer) ∧
    clean_up_codes layer false true = .ok r ∧ Spec.Position (vals layer) idx ∧
    Spec.orAnd (layerSize layer) (vals layer) idx ∧ ¬ Spec.orAnd (layerSize r.1) (vals r.1) idx := by
  have s0 : layerSize halfDuplicates = 2 := rfl
  have s1 : layerSize (remove_dimension 1 halfDuplicates) = 1 := rfl
  have h1 : cleanInactive (cleaning_action false true) 0 halfDuplicates false = .ok (halfDuplicates, false) := by
    rw [cleanInactive_miss (by omega) (by decide), cleanInactive_miss (by omega) (by decide),
      cleanInactive_end (by omega)]
  have h2 : cleanDup (cleaning_action false true) 0 halfDuplicates false =
      .ok (remove_dimension 1 halfDuplicates, true) := by
    rw [cleanDup_step (by omega) (fs' := remove_dimension 1 halfDuplicates) (b' := true), cleanDup_end (by omega)]
    exact (cleanDupInner_hit (by omega) (by decide) rfl).trans (cleanDupInner_end (by rw [s1]; omega))
  refine ⟨halfDuplicates, (remove_dimension 1 halfDuplicates, true), fun k => k,
    by simp [Spec.LatentColumns, vals, halfDuplicates, layerFac, Arr.mat, Arr.dim], ?_, ?_, ?_, ?_⟩
  · simp only [clean_up_codes, bind, Except.bind, h1, h2]
  · intro k
    match k with
    | ⟨0, _⟩ => exact Nat.zero_lt_one
    | ⟨1, _⟩ => exact Nat.one_lt_two
  · rw [orAnd_iff]
    refine ⟨1, by decide, fun k hk => ?_⟩
    match k, hk with
    | 0, _ => rfl
    | 1, _ => rfl
  · rw [orAnd_iff, s1]
    rintro ⟨l, hl, h⟩
    obtain rfl : l = 0 := by omega
    exact absurd (h 1 (by decide)) (by decide)

/-! ## C56 -/

/-- every mask of fixed entries has the shape of its matrix -/
def Spec.MasksFit (layer : List Fac) : Prop := ∀ f ∈ layer, f.fixed_entries.shape = f.val.shape

/-- **C56 (partial).** With `reset=True` masks and shapes are unchanged, so a mask designates the same entries as
before; the same if nothing is removed. Missing: removal, where the claim is false, see `C56_wrong`. -/
theorem C56_reset_partial (layer : List Fac) (hm : Spec.MasksFit layer) (r : List Fac × Bool) (clean : Bool)
    (h : clean_up_codes layer true clean = .ok r) :
    Spec.MasksFit r.1 ∧ r.1.map Fac.fixed_entries = layer.map Fac.fixed_entries := by
  refine clean_up_inv (reset := true) (clean := clean)
    (fun fs _ => Spec.MasksFit fs ∧ fs.map Fac.fixed_entries = layer.map Fac.fixed_entries) ?_ ?_ ⟨hm, rfl⟩ h
  all_goals
    have step : ∀ l fs, Spec.MasksFit fs ∧ fs.map Fac.fixed_entries = layer.map Fac.fixed_entries →
        Spec.MasksFit (reset_dimension l fs) ∧
          (reset_dimension l fs).map Fac.fixed_entries = layer.map Fac.fixed_entries := by
      rintro l fs ⟨h1, h2⟩
      refine ⟨fun f hf => ?_, ?_⟩
      · obtain ⟨g, hg, rfl⟩ := List.mem_map.mp hf
        exact h1 g hg
      · rw [← h2]
        simp [reset_dimension, Function.comp_def]
  · intro l fs fs' b hI _ _ hrun
    simp only [cleaning_action, if_true, CleanAction.run, Except.ok.injEq] at hrun
    subst hrun
    exact step l fs hI
  · intro l l' fs fs' b hI _ _ _ hrun
    simp only [cleaning_action, if_true, CleanAction.run, Except.ok.injEq] at hrun
    subst hrun
    exact step l' fs hI

/-- **C56 is wrong.** Whatever the layer: whenever `clean_up_codes(reset=False, clean=True)` removes a dimension, the
mask of the first factor no longer has the shape of its matrix. -/
theorem C56_wrong (layer : List Fac) (hne : layer ≠ []) (hm : Spec.MasksFit layer) (r : List Fac × Bool)
    (h : clean_up_codes layer false true = .ok r) (hr : r.2 = true) : ¬ Spec.MasksFit r.1 := by
  obtain ⟨r', h', h1, -⟩ := C54_return_value layer
  rw [h] at h'
  simp only [Except.ok.injEq] at h'
  subst h'
  have hlt := h1.mp hr
  have key := clean_up_inv (reset := false) (clean := true)
    (fun fs _ => fs.map Fac.fixed_entries = layer.map Fac.fixed_entries) ?_ ?_ rfl h
  · intro hm'
    obtain ⟨fs, b⟩ := r
    simp only at *
    match layer, fs, hne with
    | f :: t, [], _ => simp at key
    | f :: t, g :: s, _ =>
      simp only [List.map_cons, List.cons.injEq] at key
      have a1 := hm f (by simp)
      have a2 := hm' g (by simp)
      rw [key.1, a1] at a2
      simp [layerSize, Arr.dim, a2] at hlt
  all_goals
    have step : ∀ l fs, fs.map Fac.fixed_entries = layer.map Fac.fixed_entries →
        (remove_dimension l fs).map Fac.fixed_entries = layer.map Fac.fixed_entries := by
      intro l fs h2
      rw [← h2]
      simp [remove_dimension, Function.comp_def]
  · intro l fs fs' b hI _ _ hrun
    simp only [cleaning_action, Bool.false_eq_true, if_false, if_true, CleanAction.run, Except.ok.injEq] at hrun
    subst hrun
    exact step l fs hI
  · intro l l' fs fs' b hI _ _ _ hrun
    simp only [cleaning_action, Bool.false_eq_true, if_false, if_true, CleanAction.run, Except.ok.injEq] at hrun
    subst hrun
    exact step l' fs hI

/-- the hypotheses of `C56_wrong` are met by `twoUnused` -/
theorem C56_hypotheses_met : twoUnused ≠ [] ∧ Spec.MasksFit twoUnused ∧
    ∃ r, clean_up_codes twoUnused false true = .ok r ∧ r.2 = true :=
  ⟨by simp [twoUnused], by simp [Spec.MasksFit, twoUnused, layerFac, Arr.mat, Arr.full], _, clean_twoUnused, rfl⟩

end LFM

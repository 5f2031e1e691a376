import Verif.Props.CleanUp
import Mathlib.Data.Fintype.Basic

/-!
# C133: clean-up of layers of other models than OR-AND
-/

namespace LFM

open Spec

namespace Spec

/-- what the machine of outer operator `o` and inner operator `i` predicts at the data position with index `idx k` on the axis of
the `k`-th factor -/
def predicts (o i : LOp) (L : Nat) (vals : List (Arr Int)) (idx : Nat → Nat) : Prop :=
  lom o i fun (l : Fin L) (k : Fin vals.length) => vals[k] [idx k, l] = 1

end Spec

/-- unused in the first dimension, the second is on -/
def cleanW1 : List Fac := [layerFac 2 [[-1, 1]], layerFac 2 [[1, 1]]]
/-- two equal dimensions -/
def cleanW2 : List Fac := [layerFac 2 [[1, 1]], layerFac 2 [[1, 1]]]
/-- each dimension is unused in one factor -/
def cleanW3 : List Fac := [layerFac 2 [[-1, 1]], layerFac 2 [[1, -1]]]
/-- the second factor uses no dimension -/
def cleanW4 : List Fac := [layerFac 2 [[-1, 1]], layerFac 2 [[-1, -1]]]

theorem remove_W1 : clean_up_codes cleanW1 false true = .ok (remove_dimension 0 cleanW1, true) := by
  have s0 : layerSize cleanW1 = 2 := rfl
  have s1 : layerSize (remove_dimension 0 cleanW1) = 1 := rfl
  have h1 : cleanInactive (cleaning_action false true) 0 cleanW1 false = .ok (remove_dimension 0 cleanW1, true) := by
    rw [cleanInactive_hit (by omega) (by decide) rfl, cleanInactive_end (by omega)]
  simp only [clean_up_codes, bind, Except.bind, h1]
  exact cleanDup_none fun x y _ hxy hy => by omega

theorem remove_W4 : clean_up_codes cleanW4 false true = .ok (remove_dimension 0 cleanW4, true) := by
  have s0 : layerSize cleanW4 = 2 := rfl
  have s1 : layerSize (remove_dimension 0 cleanW4) = 1 := rfl
  have h1 : cleanInactive (cleaning_action false true) 0 cleanW4 false = .ok (remove_dimension 0 cleanW4, true) := by
    rw [cleanInactive_hit (by omega) (by decide) rfl, cleanInactive_end (by omega)]
  simp only [clean_up_codes, bind, Except.bind, h1]
  exact cleanDup_none fun x y _ hxy hy => by omega

theorem remove_W2 : clean_up_codes cleanW2 false true = .ok (remove_dimension 1 cleanW2, true) := by
  have s0 : layerSize cleanW2 = 2 := rfl
  have s1 : layerSize (remove_dimension 1 cleanW2) = 1 := rfl
  have h1 : cleanInactive (cleaning_action false true) 0 cleanW2 false = .ok (cleanW2, false) := by
    rw [cleanInactive_miss (by omega) (by decide), cleanInactive_miss (by omega) (by decide), cleanInactive_end (by omega)]
  have h2 : cleanDupInner (cleaning_action false true) 0 1 cleanW2 false = .ok (remove_dimension 1 cleanW2, true) := by
    rw [cleanDupInner_hit (by omega) (by decide) rfl, cleanDupInner_end (by omega)]
  simp only [clean_up_codes, bind, Except.bind, h1]
  rw [cleanDup_step (by omega) h2, cleanDup_end (by omega)]

theorem reset_W1 : clean_up_codes cleanW1 true false = .ok (reset_dimension 0 cleanW1, true) := by
  have s0 : layerSize cleanW1 = 2 := rfl
  have s1 : layerSize (reset_dimension 0 cleanW1) = 2 := rfl
  have h1 : cleanInactive (cleaning_action true false) 0 cleanW1 false = .ok (reset_dimension 0 cleanW1, true) := by
    rw [cleanInactive_hit (by omega) (by decide) rfl, cleanInactive_miss (by omega) (by decide), cleanInactive_end (by omega)]
  simp only [clean_up_codes, bind, Except.bind, h1]
  refine cleanDup_none fun x y _ hxy hy => ?_
  obtain ⟨rfl, rfl⟩ : x = 0 ∧ y = 1 := by omega
  decide

theorem reset_W2 : clean_up_codes cleanW2 true false = .ok (reset_dimension 1 cleanW2, true) := by
  have s0 : layerSize cleanW2 = 2 := rfl
  have s1 : layerSize (reset_dimension 1 cleanW2) = 2 := rfl
  have h1 : cleanInactive (cleaning_action true false) 0 cleanW2 false = .ok (cleanW2, false) := by
    rw [cleanInactive_miss (by omega) (by decide), cleanInactive_miss (by omega) (by decide), cleanInactive_end (by omega)]
  have h2 : cleanDupInner (cleaning_action true false) 0 1 cleanW2 false = .ok (reset_dimension 1 cleanW2, true) := by
    rw [cleanDupInner_hit (by omega) (by decide) rfl, cleanDupInner_end (by omega)]
  have h3 : cleanDupInner (cleaning_action true false) 1 2 (reset_dimension 1 cleanW2) true = .ok (reset_dimension 1 cleanW2, true) :=
    cleanDupInner_end (by omega)
  simp only [clean_up_codes, bind, Except.bind, h1]
  rw [cleanDup_step (by omega) h2, cleanDup_step (by omega) h3, cleanDup_end (by omega)]

/-- both dimensions of the third layer are reset, the second one twice -/
def resetW3 : List Fac := reset_dimension 1 (reset_dimension 1 (reset_dimension 0 cleanW3))

theorem reset_W3 : clean_up_codes cleanW3 true false = .ok (resetW3, true) := by
  have s0 : layerSize cleanW3 = 2 := rfl
  have s1 : layerSize (reset_dimension 0 cleanW3) = 2 := rfl
  have s2 : layerSize (reset_dimension 1 (reset_dimension 0 cleanW3)) = 2 := rfl
  have s3 : layerSize resetW3 = 2 := rfl
  have h1 : cleanInactive (cleaning_action true false) 0 cleanW3 false = .ok (reset_dimension 1 (reset_dimension 0 cleanW3), true) := by
    rw [cleanInactive_hit (by omega) (by decide) rfl, cleanInactive_hit (by omega) (by decide) rfl, cleanInactive_end (by decide)]
  have h2 : cleanDupInner (cleaning_action true false) 0 1 (reset_dimension 1 (reset_dimension 0 cleanW3)) true = .ok (resetW3, true) := by
    rw [cleanDupInner_hit (by omega) (by decide) rfl, cleanDupInner_end (by rw [← resetW3]; omega)]; rfl
  have h3 : cleanDupInner (cleaning_action true false) 1 2 resetW3 true = .ok (resetW3, true) := cleanDupInner_end (by omega)
  simp only [clean_up_codes, bind, Except.bind, h1]
  rw [cleanDup_step (by omega) h2, cleanDup_step (by omega) h3, cleanDup_end (by omega)]

theorem layerFac_pm {c : Nat} {rows : List (List Int)} (h : ∀ r ∈ rows, r.length = c ∧ ∀ x ∈ r, IsPM x) : PMArr (layerFac c rows).val := by
  intro idx hi
  match idx, hi with
  | [n, l], hi =>
    have hn : n < rows.length := hi.1
    have hl : l < c := hi.2.1
    obtain ⟨h1, h2⟩ := h rows[n] (List.getElem_mem hn)
    have e : (layerFac c rows).val [n, l] = rows[n][l]'(by omega) := by
      simp [layerFac, Arr.mat, hn, h1, hl]
    rw [e]
    exact h2 _ (List.getElem_mem _)

instance (o : LOp) (n : Nat) (p : Fin n → Prop) [DecidablePred p] : Decidable (o.Holds p) := by
  cases o with
  | AND => exact inferInstanceAs (Decidable (∀ i, p i))
  | NAND => exact inferInstanceAs (Decidable (¬ ∀ i, p i))
  | OR => exact inferInstanceAs (Decidable (∃ i, p i))
  | NOR => exact inferInstanceAs (Decidable (¬ ∃ i, p i))
  | XOR => exact inferInstanceAs (Decidable (∃ i, p i ∧ ∀ j, p j → j = i))
  | NXOR => exact inferInstanceAs (Decidable (¬ ∃ i, p i ∧ ∀ j, p j → j = i))

instance (o i : LOp) (L : Nat) (vals : List (Arr Int)) (idx : Nat → Nat) : Decidable (predicts o i L vals idx) := by
  unfold predicts lom; infer_instance

/-- **C133 is false for every model but OR-AND.** For each of the other seven there are layers of binary factors with one cell
whose prediction changes when unused or duplicate dimensions are removed (`clean`), and others for which it changes when
they are reset (`reset`). The dimensions that are cleaned up here are unused in a factor or equal in all factors. -/
theorem C133_wrong (m : Lom8) (hm : m ≠ .OR_AND) :
    (∃ (layer : List Fac) (r : List Fac × Bool), (∀ f ∈ layer, PMArr f.val) ∧ clean_up_codes layer false true = .ok r ∧ 0 < layerSize r.1 ∧
      ¬ (predicts m.outer m.inner (layerSize r.1) (vals r.1) (fun _ => 0) ↔
        predicts m.outer m.inner (layerSize layer) (vals layer) fun _ => 0)) ∧
    ∃ (layer : List Fac) (r : List Fac × Bool), (∀ f ∈ layer, PMArr f.val) ∧ clean_up_codes layer true false = .ok r ∧
      ¬ (predicts m.outer m.inner (layerSize r.1) (vals r.1) (fun _ => 0) ↔
        predicts m.outer m.inner (layerSize layer) (vals layer) fun _ => 0) := by
  have p1 : ∀ f ∈ cleanW1, PMArr f.val := by
    intro f hf
    simp only [cleanW1, List.mem_cons, List.not_mem_nil, or_false] at hf
    rcases hf with rfl | rfl <;> exact layerFac_pm (by simp [IsPM])
  have p2 : ∀ f ∈ cleanW2, PMArr f.val := by
    intro f hf
    simp only [cleanW2, List.mem_cons, List.not_mem_nil, or_false] at hf
    rcases hf with rfl | rfl <;> exact layerFac_pm (by simp [IsPM])
  have p3 : ∀ f ∈ cleanW3, PMArr f.val := by
    intro f hf
    simp only [cleanW3, List.mem_cons, List.not_mem_nil, or_false] at hf
    rcases hf with rfl | rfl <;> exact layerFac_pm (by simp [IsPM])
  have p4 : ∀ f ∈ cleanW4, PMArr f.val := by
    intro f hf
    simp only [cleanW4, List.mem_cons, List.not_mem_nil, or_false] at hf
    rcases hf with rfl | rfl <;> exact layerFac_pm (by simp [IsPM])
  cases m with
  | OR_AND => exact absurd rfl hm
  | OR_NAND => exact ⟨⟨_, _, p1, remove_W1, by decide, by decide⟩, _, _, p2, reset_W2, by decide⟩
  | OR_XOR => exact ⟨⟨_, _, p1, remove_W1, by decide, by decide⟩, _, _, p1, reset_W1, by decide⟩
  | NAND_XOR => exact ⟨⟨_, _, p4, remove_W4, by decide, by decide⟩, _, _, p3, reset_W3, by decide⟩
  | XOR_AND => exact ⟨⟨_, _, p2, remove_W2, by decide, by decide⟩, _, _, p2, reset_W2, by decide⟩
  | XOR_XOR => exact ⟨⟨_, _, p1, remove_W1, by decide, by decide⟩, _, _, p1, reset_W1, by decide⟩
  | XOR_NXOR => exact ⟨⟨_, _, p4, remove_W4, by decide, by decide⟩, _, _, p1, reset_W1, by decide⟩
  | XOR_NAND => exact ⟨⟨_, _, p1, remove_W1, by decide, by decide⟩, _, _, p2, reset_W2, by decide⟩

/-- **C133 (OR-AND).** What holds: an OR-AND layer in which dimensions that coincide in one factor coincide in all keeps its
predictions, whatever the settings (C55). -/
theorem C133_or_and_partial (layer : List Fac) (hne : layer ≠ []) (hdup : NoPartialDuplicates (layerSize layer) (vals layer))
    (reset clean : Bool) (r : List Fac × Bool) (h : clean_up_codes layer reset clean = .ok r) (idx : Nat → Nat)
    (hi : Position (vals layer) idx) : predicts .OR .AND (layerSize r.1) (vals r.1) idx ↔ predicts .OR .AND (layerSize layer) (vals layer) idx :=
  (C55_product_partial layer hne hdup reset clean r h).2 idx hi

/-- after a reset that returned True some dimension is off in all factors -/
theorem reset_leaves_off {layer : List Fac} {clean : Bool} {r : List Fac × Bool} (h : clean_up_codes layer true clean = .ok r) :
    r.1.length = layer.length ∧ (r.2 = true → ∃ l < layerSize r.1, ∀ a ∈ vals r.1, ∀ i, a [i, l] = -1) := by
  have step : ∀ (l : Nat) (fs : List Fac), ∀ a ∈ vals (reset_dimension l fs), ∀ i, a [i, l] = -1 := by
    intro l fs a ha i
    rw [vals_reset] at ha
    obtain ⟨b, -, rfl⟩ := List.mem_map.mp ha
    simp [Arr.setCol]
  refine clean_up_inv (reset := true) (clean := clean)
    (fun fs b => fs.length = layer.length ∧ (b = true → ∃ l < layerSize fs, ∀ a ∈ vals fs, ∀ i, a [i, l] = -1)) ?_ ?_ ⟨rfl, by simp⟩ h
  · intro l fs fs' b hI hl _ hrun
    simp only [cleaning_action, if_true, CleanAction.run, Except.ok.injEq] at hrun
    subst hrun
    exact ⟨by simp [reset_dimension, hI.1], fun _ => ⟨l, by rwa [layerSize_reset], step l fs⟩⟩
  · intro l l' fs fs' b hI _ hl _ hrun
    simp only [cleaning_action, if_true, CleanAction.run, Except.ok.injEq] at hrun
    subst hrun
    exact ⟨by simp [reset_dimension, hI.1], fun _ => ⟨l', by rwa [layerSize_reset], step l' fs⟩⟩

/-- **C133 (OR-NAND).** Whenever dimensions of an OR-NAND layer are reset, the layer predicts one in every cell afterwards,
whatever the factors. -/
theorem C133_or_nand_reset (layer : List Fac) (hne : layer ≠ []) (clean : Bool) (r : List Fac × Bool)
    (h : clean_up_codes layer true clean = .ok r) (hr : r.2 = true) (idx : Nat → Nat) :
    predicts .OR .NAND (layerSize r.1) (vals r.1) idx := by
  obtain ⟨hlen, hoff⟩ := reset_leaves_off h
  obtain ⟨l, hl, hl'⟩ := hoff hr
  refine ⟨⟨l, hl⟩, fun hall => ?_⟩
  have hpos : 0 < (vals r.1).length := by
    rw [vals, List.length_map, hlen]
    exact List.length_pos_iff.mpr hne
  have h1 := hall ⟨0, hpos⟩
  have h2 := hl' _ (List.getElem_mem hpos) (idx 0)
  change (vals r.1)[0] [idx 0, l] = 1 at h1
  rw [h2] at h1
  exact absurd h1 (by decide)

/-- **C133 (XOR-NAND and XOR-NXOR).** Whenever dimensions of such a layer are reset, a cell is one afterwards only if no
other dimension speaks for it. -/
theorem C133_xor_reset (i : LOp) (hi : i = .NAND ∨ i = .NXOR) (layer : List Fac) (hne : layer ≠ []) (clean : Bool) (r : List Fac × Bool)
    (h : clean_up_codes layer true clean = .ok r) (hr : r.2 = true) : ∃ l < layerSize r.1, ∀ idx,
      (predicts .XOR i (layerSize r.1) (vals r.1) idx ↔ ∀ l' : Fin (layerSize r.1), (l' : Nat) ≠ l →
        ¬ i.Holds fun k : Fin (vals r.1).length => (vals r.1)[k] [idx k, l'] = 1) := by
  obtain ⟨hlen, hoff⟩ := reset_leaves_off h
  obtain ⟨l, hl, hl'⟩ := hoff hr
  have hpos : 0 < (vals r.1).length := by
    rw [vals, List.length_map, hlen]
    exact List.length_pos_iff.mpr hne
  have hoff' : ∀ (idx : Nat → Nat) (k : Fin (vals r.1).length), ¬ (vals r.1)[k] [idx k, l] = 1 := by
    intro idx k h1
    have h2 := hl' _ (List.getElem_mem k.2) (idx k)
    change (vals r.1)[k.1] [idx k, l] = 1 at h1
    rw [h2] at h1
    exact absurd h1 (by decide)
  refine ⟨l, hl, fun idx => ?_⟩
  have hon : i.Holds fun k : Fin (vals r.1).length => (vals r.1)[k] [idx k, ((⟨l, hl⟩ : Fin (layerSize r.1)) : Nat)] = 1 := by
    rcases hi with rfl | rfl
    · exact fun hall => hoff' idx ⟨0, hpos⟩ (hall _)
    · rintro ⟨k, hk, -⟩
      exact hoff' idx k hk
  constructor
  · rintro ⟨l0, h0, hu⟩ l' hne' hl''
    have e1 := hu l' hl''
    have e2 := hu ⟨l, hl⟩ hon
    exact hne' (by rw [e1, ← e2])
  · intro hall
    refine ⟨⟨l, hl⟩, hon, fun l' hl'' => ?_⟩
    by_contra hne'
    exact hall l' (fun e => hne' (Fin.ext e)) hl''

/-- hypotheses of C133 met: two equal dimensions, of which one is reset -/
theorem C133_hypotheses_met : cleanW2 ≠ [] ∧ ∃ r, clean_up_codes cleanW2 true false = .ok r ∧ r.2 = true ∧
    ¬ predicts .OR .NAND (layerSize cleanW2) (vals cleanW2) fun _ => 0 :=
  ⟨by simp [cleanW2], _, reset_W2, rfl, by decide⟩

end LFM

import Verif.Model.CleanUp
import Verif.Spec.CleanUp
import Mathlib.Tactic.Push
import Mathlib.Data.Fin.Basic

/-!
# Loops of `clean_up_codes`
-/

namespace LFM

/-- the matrices of a layer -/
abbrev vals (layer : List Fac) : List (Arr Int) := layer.map Fac.val

theorem inactive_iff (layer : List Fac) (l : Nat) : inactive layer l = true ↔ Spec.Useless (vals layer) l := by
  simp [inactive, Spec.Useless, vals]

theorem duplicate_iff (layer : List Fac) (l l' : Nat) :
    duplicate layer l l' = true ↔ Spec.Coincide (vals layer) l l' := by
  simp [duplicate, Spec.Coincide, vals]

section inv
variable {a : Option CleanAction} (I : List Fac → Bool → Prop)

theorem cleanInactive_inv
    (step : ∀ l fs fs' b, I fs b → l < layerSize fs → inactive fs l = true → CleanAction.run a l fs = .ok fs' → I fs' true)
    {l : Nat} {fs : List Fac} {b : Bool} {r : List Fac × Bool} (h0 : I fs b) (h : cleanInactive a l fs b = .ok r) :
    I r.1 r.2 := by
  fun_induction cleanInactive a l fs b with
  | case1 l layer b h1 h2 e h3 => simp at h
  | case2 l layer b h1 h2 layer' h3 ih => exact ih (step _ _ _ _ h0 h1 h2 h3) h
  | case3 l layer b h1 h2 ih => exact ih h0 h
  | case4 l layer b h1 =>
    simp only [Except.ok.injEq] at h
    subst h
    exact h0

theorem cleanDupInner_inv
    (step : ∀ l l' fs fs' b, I fs b → l < l' → l' < layerSize fs → duplicate fs l l' = true →
      CleanAction.run a l' fs = .ok fs' → I fs' true)
    {l l' : Nat} {fs : List Fac} {b : Bool} {r : List Fac × Bool} (hl : l < l') (h0 : I fs b)
    (h : cleanDupInner a l l' fs b = .ok r) : I r.1 r.2 := by
  fun_induction cleanDupInner a l l' fs b with
  | case1 l' layer b h1 h2 e h3 => simp at h
  | case2 l' layer b h1 h2 layer' h3 ih => exact ih (by omega) (step _ _ _ _ _ h0 hl h1 h2 h3) h
  | case3 l' layer b h1 h2 ih => exact ih (by omega) h0 h
  | case4 l' layer b h1 =>
    simp only [Except.ok.injEq] at h
    subst h
    exact h0

theorem cleanDup_inv
    (step : ∀ l l' fs fs' b, I fs b → l < l' → l' < layerSize fs → duplicate fs l l' = true →
      CleanAction.run a l' fs = .ok fs' → I fs' true)
    {l : Nat} {fs : List Fac} {b : Bool} {r : List Fac × Bool} (h0 : I fs b)
    (h : cleanDup a l fs b = .ok r) : I r.1 r.2 := by
  fun_induction cleanDup a l fs b with
  | case1 l layer b h1 e h3 => simp at h
  | case2 l layer b h1 r' h2 ih => exact ih (cleanDupInner_inv I step (by omega) h0 h2) h
  | case3 l layer b h1 =>
    simp only [Except.ok.injEq] at h
    subst h
    exact h0

end inv

theorem clean_up_inv {reset clean : Bool} (I : List Fac → Bool → Prop)
    (step1 : ∀ l fs fs' b, I fs b → l < layerSize fs → inactive fs l = true →
      CleanAction.run (cleaning_action reset clean) l fs = .ok fs' → I fs' true)
    (step2 : ∀ l l' fs fs' b, I fs b → l < l' → l' < layerSize fs → duplicate fs l l' = true →
      CleanAction.run (cleaning_action reset clean) l' fs = .ok fs' → I fs' true)
    {fs : List Fac} {r : List Fac × Bool} (h0 : I fs false) (h : clean_up_codes fs reset clean = .ok r) :
    I r.1 r.2 := by
  simp only [clean_up_codes, bind, Except.bind] at h
  split at h
  · simp at h
  · rename_i r' h'
    exact cleanDup_inv I step2 (cleanInactive_inv I step1 h0 h') h

/-- with an action bound, the loops do not fail -/
theorem cleanInactive_ok (a : CleanAction) (l : Nat) (fs : List Fac) (b : Bool) :
    ∃ r, cleanInactive (some a) l fs b = .ok r := by
  fun_induction cleanInactive (some a) l fs b with
  | case1 l layer b h1 h2 e h3 => cases a <;> simp [CleanAction.run] at h3
  | case2 l layer b h1 h2 layer' h3 ih => exact ih
  | case3 l layer b h1 h2 ih => exact ih
  | case4 l layer b h1 => exact ⟨_, rfl⟩

theorem cleanDupInner_ok (a : CleanAction) (l l' : Nat) (fs : List Fac) (b : Bool) :
    ∃ r, cleanDupInner (some a) l l' fs b = .ok r := by
  fun_induction cleanDupInner (some a) l l' fs b with
  | case1 l layer b h1 h2 e h3 => cases a <;> simp [CleanAction.run] at h3
  | case2 l layer b h1 h2 layer' h3 ih => exact ih
  | case3 l layer b h1 h2 ih => exact ih
  | case4 l layer b h1 => exact ⟨_, rfl⟩

theorem cleanDup_ok (a : CleanAction) (l : Nat) (fs : List Fac) (b : Bool) :
    ∃ r, cleanDup (some a) l fs b = .ok r := by
  fun_induction cleanDup (some a) l fs b with
  | case1 l layer b h1 e h3 =>
    obtain ⟨r, hr⟩ := cleanDupInner_ok a l (l + 1) layer b
    rw [hr] at h3
    simp at h3
  | case2 l layer b h1 r' h2 ih => exact ih
  | case3 l layer b h1 => exact ⟨_, rfl⟩

theorem clean_up_ok {reset clean : Bool} (h : reset = true ∨ clean = true) (fs : List Fac) :
    ∃ r, clean_up_codes fs reset clean = .ok r := by
  obtain ⟨a, ha⟩ : ∃ a, cleaning_action reset clean = some a := by
    rcases reset <;> rcases clean <;> simp_all [cleaning_action]
  obtain ⟨r1, h1⟩ := cleanInactive_ok a 0 fs false
  obtain ⟨r2, h2⟩ := cleanDup_ok a 0 r1.1 r1.2
  exact ⟨r2, by simp [clean_up_codes, bind, Except.bind, ha, h1, h2]⟩

/-- nothing found: nothing done -/
theorem cleanInactive_none {a : Option CleanAction} {l : Nat} {fs : List Fac} {b : Bool}
    (h : ∀ x, l ≤ x → x < layerSize fs → inactive fs x = false) : cleanInactive a l fs b = .ok (fs, b) := by
  fun_induction cleanInactive a l fs b with
  | case1 l layer b h1 h2 e h3 => rw [h l (le_refl _) h1] at h2; simp at h2
  | case2 l layer b h1 h2 layer' h3 ih => rw [h l (le_refl _) h1] at h2; simp at h2
  | case3 l layer b h1 h2 ih => exact ih fun x hx hx' => h x (by omega) hx'
  | case4 l layer b h1 => rfl

theorem cleanDupInner_none {a : Option CleanAction} {l l' : Nat} {fs : List Fac} {b : Bool}
    (h : ∀ x, l' ≤ x → x < layerSize fs → duplicate fs l x = false) : cleanDupInner a l l' fs b = .ok (fs, b) := by
  fun_induction cleanDupInner a l l' fs b with
  | case1 l' layer b h1 h2 e h3 => rw [h l' (le_refl _) h1] at h2; simp at h2
  | case2 l' layer b h1 h2 layer' h3 ih => rw [h l' (le_refl _) h1] at h2; simp at h2
  | case3 l' layer b h1 h2 ih => exact ih fun x hx hx' => h x (by omega) hx'
  | case4 l' layer b h1 => rfl

theorem cleanDup_none {a : Option CleanAction} {l : Nat} {fs : List Fac} {b : Bool}
    (h : ∀ x y, l ≤ x → x < y → y < layerSize fs → duplicate fs x y = false) : cleanDup a l fs b = .ok (fs, b) := by
  fun_induction cleanDup a l fs b with
  | case1 l layer b h1 e h3 =>
    rw [cleanDupInner_none fun x hx hx' => h l x (le_refl _) (by omega) hx'] at h3
    simp at h3
  | case2 l layer b h1 r' h2 ih =>
    rw [cleanDupInner_none fun x hx hx' => h l x (le_refl _) (by omega) hx'] at h2
    simp only [Except.ok.injEq] at h2
    subst h2
    exact ih fun x y hx hxy hy => h x y (by simp only at *; omega) hxy hy
  | case3 l layer b h1 => rfl

/-- a flag once set stays set -/
theorem cleanInactive_flag {a : Option CleanAction} {l : Nat} {fs : List Fac} {r : List Fac × Bool}
    (h : cleanInactive a l fs true = .ok r) : r.2 = true :=
  cleanInactive_inv (fun _ b => b = true) (fun _ _ _ _ _ _ _ _ => rfl) rfl h

theorem cleanDupInner_flag {a : Option CleanAction} {l l' : Nat} {fs : List Fac} {r : List Fac × Bool} (hl : l < l')
    (h : cleanDupInner a l l' fs true = .ok r) : r.2 = true :=
  cleanDupInner_inv (fun _ b => b = true) (fun _ _ _ _ _ _ _ _ _ _ => rfl) hl rfl h

theorem cleanDup_flag {a : Option CleanAction} {l : Nat} {fs : List Fac} {r : List Fac × Bool}
    (h : cleanDup a l fs true = .ok r) : r.2 = true :=
  cleanDup_inv (fun _ b => b = true) (fun _ _ _ _ _ _ _ _ _ _ => rfl) rfl h

/-- flag not set: nothing found -/
theorem cleanInactive_false {a : Option CleanAction} {l : Nat} {fs : List Fac} {b : Bool} {r : List Fac × Bool}
    (h : cleanInactive a l fs b = .ok r) (hr : r.2 = false) :
    r.1 = fs ∧ b = false ∧ ∀ x, l ≤ x → x < layerSize fs → inactive fs x = false := by
  fun_induction cleanInactive a l fs b with
  | case1 l layer b h1 h2 e h3 => simp at h
  | case2 l layer b h1 h2 layer' h3 ih => rw [cleanInactive_flag h] at hr; simp at hr
  | case3 l layer b h1 h2 ih =>
    obtain ⟨e1, e2, e3⟩ := ih h
    refine ⟨e1, e2, fun x hx hx' => ?_⟩
    rcases Nat.eq_or_lt_of_le hx with rfl | hx
    · simpa using h2
    · exact e3 x hx hx'
  | case4 l layer b h1 =>
    simp only [Except.ok.injEq] at h
    subst h
    exact ⟨rfl, hr, fun x hx hx' => by omega⟩

theorem cleanDupInner_false {a : Option CleanAction} {l l' : Nat} {fs : List Fac} {b : Bool} {r : List Fac × Bool}
    (hl : l < l') (h : cleanDupInner a l l' fs b = .ok r) (hr : r.2 = false) :
    r.1 = fs ∧ b = false ∧ ∀ x, l' ≤ x → x < layerSize fs → duplicate fs l x = false := by
  fun_induction cleanDupInner a l l' fs b with
  | case1 l' layer b h1 h2 e h3 => simp at h
  | case2 l' layer b h1 h2 layer' h3 ih => rw [cleanDupInner_flag (by omega) h] at hr; simp at hr
  | case3 l' layer b h1 h2 ih =>
    obtain ⟨e1, e2, e3⟩ := ih (by omega) h
    refine ⟨e1, e2, fun x hx hx' => ?_⟩
    rcases Nat.eq_or_lt_of_le hx with rfl | hx
    · simpa using h2
    · exact e3 x hx hx'
  | case4 l' layer b h1 =>
    simp only [Except.ok.injEq] at h
    subst h
    exact ⟨rfl, hr, fun x hx hx' => by omega⟩

theorem cleanDup_false {a : Option CleanAction} {l : Nat} {fs : List Fac} {b : Bool} {r : List Fac × Bool}
    (h : cleanDup a l fs b = .ok r) (hr : r.2 = false) :
    r.1 = fs ∧ b = false ∧ ∀ x y, l ≤ x → x < y → y < layerSize fs → duplicate fs x y = false := by
  fun_induction cleanDup a l fs b with
  | case1 l layer b h1 e h3 => simp at h
  | case2 l layer b h1 r' h2 ih =>
    obtain ⟨e1, e2, e3⟩ := ih h
    obtain ⟨f1, f2, f3⟩ := cleanDupInner_false (by omega) h2 e2
    rw [f1] at e1 e3
    refine ⟨e1, f2, fun x y hx hxy hy => ?_⟩
    rcases Nat.eq_or_lt_of_le hx with rfl | hx
    · exact f3 y hxy hy
    · exact e3 x y hx hxy hy
  | case3 l layer b h1 =>
    simp only [Except.ok.injEq] at h
    subst h
    exact ⟨rfl, hr, fun x y hx hxy hy => by omega⟩

theorem tidy_iff (fs : List Fac) : Spec.Tidy (layerSize fs) (vals fs) ↔
    (∀ x, x < layerSize fs → inactive fs x = false) ∧
      ∀ x y, x < y → y < layerSize fs → duplicate fs x y = false := by
  simp only [Spec.Tidy, ← inactive_iff, ← duplicate_iff, Bool.not_eq_true]

theorem clean_up_false_iff {fs fs' : List Fac} {reset clean : Bool} :
    clean_up_codes fs reset clean = .ok (fs', false) ↔ fs' = fs ∧ Spec.Tidy (layerSize fs) (vals fs) := by
  rw [tidy_iff]
  constructor
  · intro h
    simp only [clean_up_codes, bind, Except.bind] at h
    split at h
    · simp at h
    · rename_i r h'
      obtain ⟨e1, e2, e3⟩ := cleanDup_false h rfl
      obtain ⟨f1, f2, f3⟩ := cleanInactive_false h' e2
      rw [f1] at e1 e3
      exact ⟨e1, fun x hx => f3 x (by omega) hx, fun x y hxy hy => e3 x y (by omega) hxy hy⟩
  · rintro ⟨rfl, h1, h2⟩
    simp only [clean_up_codes, bind, Except.bind]
    rw [cleanInactive_none fun x _ hx => h1 x hx]
    exact cleanDup_none fun x y _ hxy hy => h2 x y hxy hy

/-! ### single steps -/

theorem cleanInactive_hit {a : Option CleanAction} {l : Nat} {fs fs' : List Fac} {b : Bool} (h1 : l < layerSize fs)
    (h2 : inactive fs l = true) (h3 : CleanAction.run a l fs = .ok fs') :
    cleanInactive a l fs b = cleanInactive a (l + 1) fs' true := by
  rw [cleanInactive, if_pos h1, if_pos h2]
  split <;> simp_all

theorem cleanInactive_miss {a : Option CleanAction} {l : Nat} {fs : List Fac} {b : Bool} (h1 : l < layerSize fs)
    (h2 : inactive fs l = false) : cleanInactive a l fs b = cleanInactive a (l + 1) fs b := by
  rw [cleanInactive, if_pos h1, if_neg (by simp [h2])]

theorem cleanInactive_end {a : Option CleanAction} {l : Nat} {fs : List Fac} {b : Bool} (h1 : layerSize fs ≤ l) :
    cleanInactive a l fs b = .ok (fs, b) := by
  rw [cleanInactive, if_neg (by omega)]

theorem cleanDupInner_hit {a : Option CleanAction} {l l' : Nat} {fs fs' : List Fac} {b : Bool} (h1 : l' < layerSize fs)
    (h2 : duplicate fs l l' = true) (h3 : CleanAction.run a l' fs = .ok fs') :
    cleanDupInner a l l' fs b = cleanDupInner a l (l' + 1) fs' true := by
  rw [cleanDupInner, if_pos h1, if_pos h2]
  split <;> simp_all

theorem cleanDupInner_miss {a : Option CleanAction} {l l' : Nat} {fs : List Fac} {b : Bool} (h1 : l' < layerSize fs)
    (h2 : duplicate fs l l' = false) : cleanDupInner a l l' fs b = cleanDupInner a l (l' + 1) fs b := by
  rw [cleanDupInner, if_pos h1, if_neg (by simp [h2])]

theorem cleanDupInner_end {a : Option CleanAction} {l l' : Nat} {fs : List Fac} {b : Bool} (h1 : layerSize fs ≤ l') :
    cleanDupInner a l l' fs b = .ok (fs, b) := by
  rw [cleanDupInner, if_neg (by omega)]

theorem cleanDup_step {a : Option CleanAction} {l : Nat} {fs fs' : List Fac} {b b' : Bool} (h1 : l < layerSize fs)
    (h2 : cleanDupInner a l (l + 1) fs b = .ok (fs', b')) : cleanDup a l fs b = cleanDup a (l + 1) fs' b' := by
  rw [cleanDup, if_pos h1]
  split <;> simp_all

theorem cleanDup_end {a : Option CleanAction} {l : Nat} {fs : List Fac} {b : Bool} (h1 : layerSize fs ≤ l) :
    cleanDup a l fs b = .ok (fs, b) := by
  rw [cleanDup, if_neg (by omega)]

/-! ### the two actions -/

theorem vals_remove (l : Nat) (fs : List Fac) : vals (remove_dimension l fs) = (vals fs).map (·.deleteCol l) := by
  simp [vals, remove_dimension, Function.comp_def]

theorem vals_reset (l : Nat) (fs : List Fac) : vals (reset_dimension l fs) = (vals fs).map (·.setCol l (-1)) := by
  simp [vals, reset_dimension, Function.comp_def]

theorem layerSize_eq (fs : List Fac) (h : fs ≠ []) {L : Nat} (hc : Spec.LatentColumns L (vals fs)) : layerSize fs = L := by
  match fs, h with
  | f :: t, _ =>
    have := hc f.val (by simp [vals])
    simp only [layerSize, Arr.dim] at *
    rw [this]
    rfl

theorem layerSize_remove {l : Nat} {fs : List Fac} (h : l < layerSize fs) :
    layerSize (remove_dimension l fs) < layerSize fs := by
  match fs with
  | [] => simp [layerSize] at h
  | f :: t =>
    simp only [layerSize, remove_dimension, List.map_cons, Arr.deleteCol, Arr.dim, List.getD_cons_succ,
      List.getD_cons_zero] at *
    omega

theorem layerSize_reset (l : Nat) (fs : List Fac) : layerSize (reset_dimension l fs) = layerSize fs := by
  cases fs <;> simp [layerSize, reset_dimension, Arr.setCol, Arr.dim]

end LFM

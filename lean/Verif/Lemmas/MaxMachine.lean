import Mathlib.Tactic.Linarith
import Mathlib.Tactic.Positivity
import Verif.Model.MaxMachine
import Verif.Lemmas.Arrays
import Verif.Lemmas.Counting
import Verif.Spec.MaxMachine

/-! Facts about the functions of the MAX-AND machine. -/

namespace LFM

open Spec

/-! ### expansion of one latent dimension -/

theorem OR_AND_product_expand_get (z u : Arr Int) (n d : Nat) (hn : n < z.dim 0) (hd : d < u.dim 0) :
    OR_AND_product_expand z u [n, d] = if u [d] = 1 ∧ z [n] = 1 then 1 else 0 := by
  have h : ∀ X : Arr Int, ((List.range (z.dim 0)).foldl (fun X n => (List.range (u.dim 0)).foldl
      (fun X d => if u [d] = 1 ∧ z [n] = 1 then X.set [n, d] 1 else X) X) X).get [n, d] =
      if u [d] = 1 ∧ z [n] = 1 then 1 else X.get [n, d] := by
    intro X
    have m := modifies_foldl (List.range (z.dim 0)) (fun X n => (List.range (u.dim 0)).foldl
      (fun X d => if u [d] = 1 ∧ z [n] = 1 then X.set [n, d] 1 else X) X)
      (fun n idx => ∃ d ∈ List.range (u.dim 0), idx = [n, d])
      (fun idx x => if u [idx.getD 1 0] = 1 ∧ z [idx.getD 0 0] = 1 then (1 : Int) else x)
      (List.nodup_range.imp fun {a b} hab idx ⟨⟨_, _, h1⟩, ⟨_, _, h2⟩⟩ => hab (by
        rw [h1] at h2; exact (List.cons.inj h2).1)) ?_
    · exact m.on X [n, d] ⟨n, by simpa using hn, d, by simpa using hd, rfl⟩
    · intro n _
      refine modifies_foldl (List.range (u.dim 0)) _ (fun d idx => idx = [n, d]) _
        (List.nodup_range.imp fun {a b} hab idx ⟨h1, h2⟩ => hab (by
          rw [h1] at h2; exact (List.cons.inj (List.cons.inj h2).2).1)) ?_
      intro d _
      refine ⟨fun X => ?_, fun X idx hi => ?_, fun X idx hi => ?_⟩
      · split <;> rfl
      · subst hi
        simp only [List.getD_cons_zero, List.getD_cons_succ]
        split <;> simp [Arr.set]
      · split <;> simp [Arr.set, hi]
  have e : OR_AND_product_expand z u = (List.range (z.dim 0)).foldl (fun X n =>
      (List.range (u.dim 0)).foldl
      (fun X d => if u [d] = 1 ∧ z [n] = 1 then X.set [n, d] 1 else X) X)
      (Arr.full [z.dim 0, u.dim 0] 0) := by
    unfold OR_AND_product_expand
    simp only [Id.run_bind, Id.run_pure]
    apply run_forIn_yield
    intro n X
    simp only [Id.run_bind, Id.run_pure]
    rw [run_forIn_yield _ _ _
      (fun X d => if u [d] = 1 ∧ z [n] = 1 then X.set [n, d] 1 else X)
      (by intros; split <;> rfl)]
  rw [e, h]; rfl

theorem expand_get {Z U : Arr Int} {N D L : Nat} (hZ : Z.shape = [N, L]) (hU : U.shape = [D, L])
    {n d l : Nat} (hn : n < N) (hd : d < D) :
    OR_AND_product_expand (Z.col l) (U.col l) [n, d] =
      if Active (fun l => Z [n, l]) (fun l => U [d, l]) l then 1 else 0 := by
  rw [OR_AND_product_expand_get _ _ _ _ (by simpa [Arr.col, Arr.dim, hZ] using hn)
    (by simpa [Arr.col, Arr.dim, hU] using hd)]
  simp only [Arr.col, Active, and_comm]
  rfl

theorem max_predictions_iff {Z U : Arr Int} {N D L : Nat} (hZ : Z.shape = [N, L])
    (hU : U.shape = [D, L]) {n d l : Nat} (hn : n < N) (hd : d < D) :
    max_predictions Z U l n d = true ↔ Active (fun l => Z [n, l]) (fun l => U [d, l]) l := by
  unfold max_predictions
  rw [expand_get hZ hU hn hd]
  split <;> simp_all

/-! ### ratios -/

/-- entry of the table of log ratios -/
noncomputable def ratioEntry (lbda : Arr ℝ) (idx : List Nat) : ℝ :=
  if idx.getD 0 0 = 0 then Real.log (lbda [idx.getD 1 0] / lbda [idx.getD 2 0])
  else Real.log ((1 - lbda [idx.getD 1 0]) / (1 - lbda [idx.getD 2 0]))

theorem neg_log_div (a b : ℝ) : -Real.log (a / b) = Real.log (b / a) := by
  rw [← Real.log_inv, inv_div]

theorem ratio_step (lbda : Arr ℝ) (l1 l2 : Nat) : Overwrites (fun r : Arr ℝ =>
    (((r.set [0, l1, l2] (Real.log (lbda [l1] / lbda [l2]))).set [0, l2, l1]
      (-Real.log (lbda [l1] / lbda [l2]))).set [1, l1, l2]
      (Real.log ((1 - lbda [l1]) / (1 - lbda [l2])))).set [1, l2, l1]
      (-Real.log ((1 - lbda [l1]) / (1 - lbda [l2]))))
    (fun idx => idx = [0, l1, l2] ∨ idx = [0, l2, l1] ∨ idx = [1, l1, l2] ∨ idx = [1, l2, l1])
    (ratioEntry lbda) := by
  refine ⟨fun _ => rfl, fun X idx h => ?_, fun X idx h => ?_⟩
  · rcases h with rfl | rfl | rfl | rfl <;>
      by_cases h12 : l1 = l2 <;> simp [Arr.set, ratioEntry, neg_log_div, h12, eq_comm]
  · push Not at h
    obtain ⟨h1, h2, h3, h4⟩ := h
    simp [Arr.set, h1, h2, h3, h4]

theorem compute_lbda_ratios_spec (size : Nat) (lbda : Arr ℝ) :
    (compute_lbda_ratios size lbda).shape = [2, size + 1, size + 1] ∧
    ∀ s i j, s < 2 → i < size + 1 → j < size + 1 →
      compute_lbda_ratios size lbda [s, i, j] = ratioEntry lbda [s, i, j] := by
  have e : compute_lbda_ratios size lbda = (List.range (size + 1)).foldl (fun r l1 =>
      (List.range (l1 + 1)).foldl (fun r l2 =>
      (((r.set [0, l1, l2] (Real.log (lbda [l1] / lbda [l2]))).set [0, l2, l1]
      (-Real.log (lbda [l1] / lbda [l2]))).set [1, l1, l2]
      (Real.log ((1 - lbda [l1]) / (1 - lbda [l2])))).set [1, l2, l1]
      (-Real.log ((1 - lbda [l1]) / (1 - lbda [l2])))) r) (Arr.full [2, size + 1, size + 1] 0) := by
    unfold compute_lbda_ratios
    simp only [Id.run_bind, Id.run_pure]
    apply run_forIn_yield
    intro n X
    simp only [Id.run_bind, Id.run_pure]
    rw [run_forIn_yield _ _ _ _ (by intros; rfl)]
  have ow := overwrites_foldl (List.range (size + 1)) (fun r l1 =>
      (List.range (l1 + 1)).foldl (fun (r : Arr ℝ) l2 =>
      (((r.set [0, l1, l2] (Real.log (lbda [l1] / lbda [l2]))).set [0, l2, l1]
      (-Real.log (lbda [l1] / lbda [l2]))).set [1, l1, l2]
      (Real.log ((1 - lbda [l1]) / (1 - lbda [l2])))).set [1, l2, l1]
      (-Real.log ((1 - lbda [l1]) / (1 - lbda [l2])))) r) _ (ratioEntry lbda)
      (fun l1 _ => overwrites_foldl _ _ _ _ fun l2 _ => ratio_step lbda l1 l2)
  rw [e]
  refine ⟨ow.shape _, fun s i j hs hi hj => ow.on _ _ ?_⟩
  rcases le_total j i with h | h
  · refine ⟨i, by simpa using hi, j, by simp; omega, ?_⟩
    have : s = 0 ∨ s = 1 := by omega
    rcases this with rfl | rfl <;> simp
  · refine ⟨j, by simpa using hj, i, by simp; omega, ?_⟩
    have : s = 0 ∨ s = 1 := by omega
    rcases this with rfl | rfl <;> simp

/-! ### argmax and minimum -/

theorem foldl_max_spec (xs : List ℝ) (x : ℝ) :
    (xs.foldl max x = x ∨ xs.foldl max x ∈ xs) ∧ x ≤ xs.foldl max x ∧ ∀ y ∈ xs, y ≤ xs.foldl max x := by
  induction xs generalizing x with
  | nil => simp
  | cons a xs ih =>
    obtain ⟨h1, h2, h3⟩ := ih (max x a)
    simp only [List.foldl_cons, List.mem_cons]
    refine ⟨?_, (le_max_left _ _).trans h2, ?_⟩
    · rcases h1 with h | h
      · rcases max_choice x a with h' | h'
        · left; rw [h, h']
        · right; left; rw [h, h']
      · right; right; exact h
    · rintro y (rfl | hy)
      · exact (le_max_right _ _).trans h2
      · exact h3 y hy

theorem argmax_spec (xs : List ℝ) (h : xs ≠ []) :
    ∃ hi : argmax xs < xs.length, ∀ y ∈ xs, y ≤ xs[argmax xs] := by
  obtain ⟨h1, h2, h3⟩ := foldl_max_spec xs (xs.getD 0 0)
  have hmem : xs.foldl max (xs.getD 0 0) ∈ xs := by
    rcases h1 with h1 | h1
    · rw [h1]
      cases xs with
      | nil => exact absurd rfl h
      | cons a xs => simp
    · exact h1
  refine ⟨List.idxOf_lt_length_of_mem hmem, fun y hy => ?_⟩
  unfold argmax
  rw [List.getElem_idxOf]
  exact h3 y hy

theorem foldl_min_spec (xs : List ℝ) (x : ℝ) :
    (xs.foldl min x = x ∨ xs.foldl min x ∈ xs) ∧ xs.foldl min x ≤ x ∧ ∀ y ∈ xs, xs.foldl min x ≤ y := by
  induction xs generalizing x with
  | nil => simp
  | cons a xs ih =>
    obtain ⟨h1, h2, h3⟩ := ih (min x a)
    simp only [List.foldl_cons, List.mem_cons]
    refine ⟨?_, h2.trans (min_le_left _ _), ?_⟩
    · rcases h1 with h | h
      · rcases min_choice x a with h' | h'
        · left; rw [h, h']
        · right; left; rw [h, h']
      · right; right; exact h
    · rintro y (rfl | hy)
      · exact h2.trans (min_le_right _ _)
      · exact h3 y hy

theorem npMin_spec {a : Arr ℝ} {n : Nat} (ha : a.shape = [n + 1]) :
    (∃ i < n + 1, npMin a = a [i]) ∧ ∀ i < n + 1, npMin a ≤ a [i] := by
  have hd : a.dim 0 = n + 1 := by simp [Arr.dim, ha]
  obtain ⟨h1, h2, h3⟩ := foldl_min_spec ((List.range (a.dim 0)).map fun i => a [i]) (a [0])
  constructor
  · rcases h1 with h | h
    · exact ⟨0, by omega, h⟩
    · obtain ⟨i, hi, he⟩ := List.mem_map.1 h
      exact ⟨i, by simpa [hd] using hi, he.symm⟩
  · intro i hi
    exact h3 _ (List.mem_map.2 ⟨i, by simpa [hd] using hi, rfl⟩)

/-! ### the loop of the lambda update -/

theorem countCells_eq {N D : Nat} (p : Nat → Nat → Bool) (q : Fin N × Fin D → Prop) [DecidablePred q]
    (h : ∀ i : Fin N × Fin D, p i.1 i.2 = true ↔ q i) :
    countCells N D p = ((Finset.univ.filter q).card : Int) := by
  unfold countCells
  rw [show ((indices [N, D]).countP fun i => p (i.getD 0 0) (i.getD 1 0)) =
    (indices [N, D]).countP (fun i => decide (p (i.getD 0 0) (i.getD 1 0) = true)) by simp,
    countP_indices2 N D fun i => p (i.getD 0 0) (i.getD 1 0) = true]
  congr 2
  ext i
  simp [← h i]

variable {Z U X : Arr Int} {N D L : Nat}

/-- attributed cells, in terms of the arrays -/
noncomputable def att (Z U X : Arr Int) (N D : Nat) (prev : List Nat) (l : Nat) (v : Int) : Nat :=
  attributed N D (fun n d => X [n, d]) (fun n l => Z [n, l]) (fun d l => U [d, l]) prev l v

/-- state after the dimensions `S` have been processed in this order -/
structure MaxInv (Z U X : Arr Int) (N D L : Nat) (S : List Nat) (s : MaxState) : Prop where
  perm : (S ++ s.l_list).Perm (List.range L)
  mask : ∀ n < N, ∀ d < D, s.mask n d = true ↔
    ∃ l ∈ S, Active (fun l => Z [n, l]) (fun l => U [d, l]) l
  TP : s.TP = s.l_list.map fun l => (att Z U X N D S l 1 : Int)
  FP : s.FP = s.l_list.map fun l => (att Z U X N D S l (-1) : Int)
  shape : s.lbda.shape = [L + 1]
  done : ∀ (i : Nat) (hi : i < S.length), s.lbda [S[i]] =
    laplace (att Z U X N D (S.take i) S[i] 1) (att Z U X N D (S.take i) S[i] (-1))
  greedy : ∀ (i : Nat) (hi : i < S.length), ∀ l < L, l ∉ S.take i →
    laplace (att Z U X N D (S.take i) l 1) (att Z U X N D (S.take i) l (-1)) ≤ s.lbda [S[i]]

theorem maxInv_init (hZ : Z.shape = [N, L]) (hU : U.shape = [D, L]) (lbda : Arr ℝ)
    (hl : lbda.shape = [L + 1]) : MaxInv Z U X N D L [] (maxInit Z U X lbda) := by
  have hN : Z.dim 0 = N := by simp [Arr.dim, hZ]
  have hL : Z.dim 1 = L := by simp [Arr.dim, hZ]
  have hD : U.dim 0 = D := by simp [Arr.dim, hU]
  have h : ∀ v : Int, ∀ l, (countCells N D fun n d => max_predictions Z U l n d &&
      decide (X [n, d] = v)) = (att Z U X N D [] l v : Int) := by
    intro v l
    refine countCells_eq _ _ fun i => ?_
    simp only [Bool.and_eq_true, decide_eq_true_eq, max_predictions_iff hZ hU i.1.2 i.2.2]
    simp [and_comm]
  constructor
  · simp [maxInit, hL]
  · simp [maxInit]
  · simp only [maxInit, hN, hD, hL]
    exact List.map_congr_left fun l _ => h 1 l
  · simp only [maxInit, hN, hD, hL]
    exact List.map_congr_left fun l _ => h (-1) l
  · exact hl
  · intro i hi; simp at hi
  · intro i hi; simp at hi

/-- cells attributed to `l` split into those `lm` also predicts and the others -/
theorem att_split (S : List Nat) (l lm : Nat) (v : Int) :
    att Z U X N D S l v = (Finset.univ.filter fun i : Fin N × Fin D =>
      (X [i.1, i.2] = v ∧ Active (fun l => Z [i.1, l]) (fun l => U [i.2, l]) l ∧
        ∀ l' ∈ S, ¬ Active (fun l => Z [i.1, l]) (fun l => U [i.2, l]) l') ∧
        Active (fun l => Z [i.1, l]) (fun l => U [i.2, l]) lm).card +
      att Z U X N D (S ++ [lm]) l v := by
  unfold att attributed
  rw [← Finset.card_filter_add_card_filter_not (s := Finset.univ.filter _)
    (fun i : Fin N × Fin D => Active (fun l => Z [i.1, l]) (fun l => U [i.2, l]) lm),
    Finset.filter_filter, Finset.filter_filter]
  congr 2
  ext i
  simp only [Finset.mem_filter, Finset.mem_univ, true_and, List.mem_append, List.mem_singleton]
  constructor
  · rintro ⟨⟨h1, h2, h3⟩, h4⟩
    exact ⟨h1, h2, by rintro l' (h | rfl); exacts [h3 l' h, h4]⟩
  · rintro ⟨h1, h2, h3⟩
    exact ⟨⟨h1, h2, fun l' h => h3 l' (Or.inl h)⟩, h3 lm (Or.inr rfl)⟩

theorem eraseIdx_map_sub {α : Type} (xs : List α) (idx : Nat) (f g : α → Int) (dflt : α) :
    ((List.range (xs.eraseIdx idx).length).map fun l =>
      (xs.map f).getD (l + if l ≥ idx then 1 else 0) 0 - g ((xs.eraseIdx idx).getD l dflt)) =
    (xs.eraseIdx idx).map fun x => f x - g x := by
  apply List.ext_getElem
  · simp
  · intro i h1 h2
    simp only [List.length_map] at h2
    simp only [List.getElem_map, List.getElem_range]
    have e : (xs.eraseIdx idx).getD i dflt = (xs.eraseIdx idx)[i] := by simp [h2]
    rw [e, List.getElem_eraseIdx]
    have hlen : i + 1 ≤ (xs.eraseIdx idx).length := h2
    have hx := List.length_eraseIdx_le xs idx
    by_cases h : i < idx
    · have hi : i < xs.length := by omega
      rw [if_neg (by omega), dif_pos h]
      simp [hi]
    · have hi : i + 1 < xs.length := by
        rw [List.length_eraseIdx] at h2; split at h2 <;> omega
      rw [if_pos (by omega), dif_neg h]
      simp [hi]

theorem maxInv_step (hZ : Z.shape = [N, L]) (hU : U.shape = [D, L]) {S : List Nat} {s : MaxState}
    (h : MaxInv Z U X N D L S s) (hne : s.l_list ≠ []) :
    ∃ lm, MaxInv Z U X N D L (S ++ [lm]) (maxStep Z U X s) ∧
      (maxStep Z U X s).l_list.length + 1 = s.l_list.length := by
  have hN : Z.dim 0 = N := by simp [Arr.dim, hZ]
  have hD : U.dim 0 = D := by simp [Arr.dim, hU]
  let rate := List.zipWith (fun tp fp : Int => ((tp : ℝ) + 1) / (tp + fp + 2)) s.TP s.FP
  have hrate : rate = s.l_list.map fun l =>
      laplace (att Z U X N D S l 1) (att Z U X N D S l (-1)) := by
    simp only [rate, h.TP, h.FP, List.zipWith_map, List.zipWith_self]
    apply List.map_congr_left
    intro l _
    simp [laplace]
  have hrne : rate ≠ [] := by rw [hrate]; simpa using hne
  obtain ⟨hir, hmax⟩ := argmax_spec rate hrne
  let idx := argmax rate
  have hidx : idx < s.l_list.length := by
    have : rate.length = s.l_list.length := by rw [hrate]; simp
    omega
  let lm := s.l_list[idx]
  have hlm : s.l_list.getD idx 0 = lm := by simp [hidx, lm]
  have hval : rate.getD idx 0 = laplace (att Z U X N D S lm 1) (att Z U X N D S lm (-1)) := by
    simp [hrate, hidx, lm]
  have hnd : (S ++ s.l_list).Nodup := h.perm.nodup_iff.2 List.nodup_range
  have hlmS : lm ∉ S := fun hm => (List.disjoint_of_nodup_append hnd) hm (List.getElem_mem hidx)
  have hlmL : lm < L := by
    have : lm ∈ S ++ s.l_list := List.mem_append_right _ (List.getElem_mem hidx)
    simpa using h.perm.mem_iff.1 this
  have hstep : maxStep Z U X s =
      { lbda := s.lbda.set [lm] (laplace (att Z U X N D S lm 1) (att Z U X N D S lm (-1)))
        l_list := s.l_list.eraseIdx idx
        TP := (List.range (s.l_list.eraseIdx idx).length).map fun l =>
          s.TP.getD (l + if l ≥ idx then 1 else 0) 0 -
            countCells N D fun n d => (max_predictions Z U lm n d && !s.mask n d && X [n, d] = 1) &&
              max_predictions Z U ((s.l_list.eraseIdx idx).getD l 0) n d
        FP := (List.range (s.l_list.eraseIdx idx).length).map fun l =>
          s.FP.getD (l + if l ≥ idx then 1 else 0) 0 -
            countCells N D fun n d => (max_predictions Z U lm n d && !s.mask n d && X [n, d] = -1) &&
              max_predictions Z U ((s.l_list.eraseIdx idx).getD l 0) n d
        mask := fun n d => s.mask n d || max_predictions Z U lm n d } := by
    rw [← hval, ← hlm, ← hN, ← hD]; rfl
  have hsub : ∀ v : Int, (List.range (s.l_list.eraseIdx idx).length).map (fun l =>
      (s.l_list.map fun l => (att Z U X N D S l v : Int)).getD (l + if l ≥ idx then 1 else 0) 0 -
        countCells N D fun n d =>
          (max_predictions Z U lm n d && !s.mask n d && decide (X [n, d] = v)) &&
            max_predictions Z U ((s.l_list.eraseIdx idx).getD l 0) n d) =
      (s.l_list.eraseIdx idx).map fun l => (att Z U X N D (S ++ [lm]) l v : Int) := by
    intro v
    rw [eraseIdx_map_sub s.l_list idx (fun l => (att Z U X N D S l v : Int))
      (fun l' => countCells N D fun n d =>
        (max_predictions Z U lm n d && !s.mask n d && decide (X [n, d] = v)) &&
          max_predictions Z U l' n d) 0]
    apply List.map_congr_left
    intro l _
    rw [countCells_eq _ (fun i : Fin N × Fin D =>
      (X [i.1, i.2] = v ∧ Active (fun l => Z [i.1, l]) (fun l => U [i.2, l]) l ∧
        ∀ l' ∈ S, ¬ Active (fun l => Z [i.1, l]) (fun l => U [i.2, l]) l') ∧
        Active (fun l => Z [i.1, l]) (fun l => U [i.2, l]) lm), att_split S l lm v]
    · push_cast; ring
    · intro i
      have hm := h.mask i.1 i.1.2 i.2 i.2.2
      have hm' : s.mask i.1 i.2 = false ↔
          ∀ l' ∈ S, ¬ Active (fun l => Z [i.1, l]) (fun l => U [i.2, l]) l' := by
        rw [← Bool.not_eq_true, hm]; push Not; rfl
      simp only [Bool.and_eq_true, decide_eq_true_eq, Bool.not_eq_true', hm',
        max_predictions_iff hZ hU i.1.2 i.2.2]
      tauto
  refine ⟨lm, ?_, ?_⟩
  · rw [hstep]
    constructor
    · refine List.Perm.trans ?_ h.perm
      dsimp only
      rw [List.append_assoc]
      refine List.Perm.append_left S ?_
      exact List.getElem_cons_eraseIdx_perm hidx
    · intro n hn d hd
      simp only [Bool.or_eq_true, h.mask n hn d hd, max_predictions_iff hZ hU hn hd, List.mem_append,
        List.mem_singleton]
      constructor
      · rintro (⟨l, h1, h2⟩ | h1)
        · exact ⟨l, Or.inl h1, h2⟩
        · exact ⟨lm, Or.inr rfl, h1⟩
      · rintro ⟨l, (h1 | rfl), h2⟩
        · exact Or.inl ⟨l, h1, h2⟩
        · exact Or.inr h2
    · dsimp only; rw [h.TP]; exact hsub 1
    · dsimp only; rw [h.FP]; exact hsub (-1)
    · exact h.shape
    · intro i hi
      simp only [List.length_append, List.length_singleton] at hi
      rcases Nat.lt_or_ge i S.length with h1 | h1
      · have e : (S ++ [lm])[i]'(by simp; omega) = S[i] := by simp [h1]
        simp only [e, List.take_append_of_le_length h1.le]
        rw [← h.done i h1]
        have : S[i] ≠ lm := fun he => hlmS (he ▸ List.getElem_mem h1)
        simp [Arr.set, this]
      · obtain rfl : i = S.length := by omega
        simp [Arr.set]
    · intro i hi l hl hls
      simp only [List.length_append, List.length_singleton] at hi
      rcases Nat.lt_or_ge i S.length with h1 | h1
      · have e : (S ++ [lm])[i]'(by simp; omega) = S[i] := by simp [h1]
        rw [List.take_append_of_le_length h1.le] at hls ⊢
        simp only [e]
        have : S[i] ≠ lm := fun he => hlmS (he ▸ List.getElem_mem h1)
        simp only [Arr.set, List.cons.injEq, this, false_and, if_false]
        exact h.greedy i h1 l hl hls
      · obtain rfl : i = S.length := by omega
        have e : (S ++ [lm]).take S.length = S := by simp
        rw [e] at hls ⊢
        have hmem : l ∈ s.l_list := by
          have : l ∈ S ++ s.l_list := h.perm.mem_iff.2 (by simpa using hl)
          rcases List.mem_append.1 this with h' | h'
          · exact absurd h' hls
          · exact h'
        have := hmax (laplace (att Z U X N D S l 1) (att Z U X N D S l (-1)))
          (by rw [hrate]; exact List.mem_map.2 ⟨l, hmem, rfl⟩)
        have hv : rate[argmax rate] = rate.getD idx 0 := by simp [idx, hir]
        rw [hv, hval] at this
        simpa [Arr.set] using this
  · rw [hstep]
    simp only [List.length_eraseIdx, hidx, if_true]
    omega

theorem maxInv_loop (hZ : Z.shape = [N, L]) (hU : U.shape = [D, L]) (lbda : Arr ℝ)
    (hl : lbda.shape = [L + 1]) : ∃ S, MaxInv Z U X N D L S
      ((List.range L).foldl (fun s _ => maxStep Z U X s) (maxInit Z U X lbda)) ∧
      ((List.range L).foldl (fun s _ => maxStep Z U X s) (maxInit Z U X lbda)).l_list = [] := by
  have key : ∀ (xs : List Nat) (S : List Nat) (s : MaxState), MaxInv Z U X N D L S s →
      s.l_list.length = xs.length → ∃ S', MaxInv Z U X N D L S'
        (xs.foldl (fun s _ => maxStep Z U X s) s) ∧
        (xs.foldl (fun s _ => maxStep Z U X s) s).l_list = [] := by
    intro xs
    induction xs with
    | nil => intro S s h hlen; exact ⟨S, h, List.length_eq_zero_iff.1 hlen⟩
    | cons x xs ih =>
      intro S s h hlen
      obtain ⟨lm, h1, h2⟩ := maxInv_step hZ hU h (by intro he; simp [he] at hlen)
      refine ih _ _ h1 ?_
      simp only [List.length_cons] at hlen
      show (maxStep Z U X s).l_list.length = _
      omega
  refine key _ [] _ (maxInv_init hZ hU lbda hl) ?_
  have hL : Z.dim 1 = L := by simp [Arr.dim, hZ]
  simp [maxInit, hL]

end LFM

import Verif.Model.IBP
import Verif.Lemmas.Loops
import Verif.Lemmas.Flip
import Verif.Lemmas.Arrays
import Verif.Spec.Logic

/-!
# Lemmas about the model of the Indian buffet process update
-/

namespace LFM

open Spec

/-- one step of the loop over the existing columns -/
noncomputable def existingStep (m : Nat → Nat) (U X : Arr Int) (lbda : ℝ) (n N : Nat) (rnd : Nat → ℝ)
    (s : Arr Int × Arr Bool) (l : Nat) : Arr Int × Arr Bool :=
  if m l > 0 then
    (s.1.set [n, l] (flip_gibbs_numba (expit (lbda * posterior_score_OR_AND_2D (s.1.row n) U (X.row n) l +
      logit ((m l : ℝ) / N))) (rnd l)), s.2)
  else (s.1, s.2.set [l] false)

theorem ibp_existing_eq (Z U X : Arr Int) (lbda : ℝ) (n N L : Nat) (rnd : Nat → ℝ) :
    ibp_existing Z U X lbda n N L rnd =
      (List.range L).foldl (existingStep (ibp_m Z n) U X lbda n N rnd) (Z, Arr.full [L] true) := by
  unfold ibp_existing
  simp only [Id.run_bind, Id.run_pure]
  obtain ⟨m, hm⟩ : ∃ m, ibp_m Z n = m := ⟨_, rfl⟩
  simp only [hm]
  obtain ⟨keep, hk⟩ : ∃ k : Arr Bool, Arr.full [L] true = k := ⟨_, rfl⟩
  rw [hk]
  clear hm hk
  generalize List.range L = xs
  induction xs generalizing Z keep with
  | nil => rfl
  | cons l xs ih =>
    simp only [List.forIn_cons, List.foldl_cons]
    by_cases h : m l > 0
    · simp only [h, if_true]
      have := ih (Z.set [n, l] (flip_gibbs_numba (expit (lbda * posterior_score_OR_AND_2D (Z.row n) U (X.row n) l +
        logit ((m l : ℝ) / N))) (rnd l))) keep
      rw [existingStep, if_pos h]
      exact this
    · simp only [h, if_false]
      have h0 : m l = 0 := by omega
      have := ih Z (keep.set [l] false)
      rw [existingStep, if_neg h]
      simp only [h0, if_true]
      exact this


theorem getD_of_lt {α : Type} (xs : List α) (d : α) {i : Nat} (h : i < xs.length) : xs.getD i d = xs[i] := by
  simp [List.getD, h]

theorem isPM_gibbs (p u : ℝ) : IsPM (flip_gibbs_numba p u) := by
  unfold flip_gibbs_numba
  split
  · exact Or.inl rfl
  · exact Or.inr rfl

theorem foldl_existing (m : Nat → Nat) (U X : Arr Int) (lbda : ℝ) (n N : Nat) (rnd : Nat → ℝ) (xs : List Nat)
    (Z : Arr Int) (keep : Arr Bool) :
    let r := xs.foldl (existingStep m U X lbda n N rnd) (Z, keep)
    r.1.shape = Z.shape ∧ (∀ idx, (∀ l ∈ xs, 0 < m l → idx ≠ [n, l]) → r.1 idx = Z idx) ∧
      (∀ idx, IsPM (Z idx) → IsPM (r.1 idx)) ∧
      ∀ l, r.2 [l] = (keep [l] && !(decide (l ∈ xs) && decide (m l = 0))) := by
  induction xs generalizing Z keep with
  | nil => simp
  | cons a xs ih =>
    simp only [List.foldl_cons]
    by_cases h : m a > 0
    · rw [existingStep, if_pos h]
      obtain ⟨h1, h2, h3, h4⟩ := ih (Z.set [n, a] (flip_gibbs_numba (expit (lbda * posterior_score_OR_AND_2D
        (Z.row n) U (X.row n) a + logit ((m a : ℝ) / N))) (rnd a))) keep
      refine ⟨h1, fun idx hidx => ?_, fun idx hp => h3 idx ?_, fun l => ?_⟩
      · rw [h2 idx fun l hl => hidx l (by simp [hl])]
        simp only [Arr.set]
        rw [if_neg (hidx a (by simp) h)]
      · simp only [Arr.set]
        split
        · exact isPM_gibbs _ _
        · exact hp
      · rw [h4 l]
        by_cases hla : l = a
        · subst hla
          have : m l ≠ 0 := by omega
          simp [this]
        · simp [hla]
    · rw [existingStep, if_neg h]
      obtain ⟨h1, h2, h3, h4⟩ := ih Z (keep.set [a] false)
      refine ⟨h1, fun idx hidx => h2 idx fun l hl => hidx l (by simp [hl]), h3, fun l => ?_⟩
      rw [h4 l]
      have h0 : m a = 0 := by omega
      by_cases hla : l = a
      · subst hla
        simp [Arr.set, h0]
      · simp [Arr.set, hla]

/-- columns of `Z` that rows other than `n` use -/
def keptCols (Z : Arr Int) (n L : Nat) : List Nat := (List.range L).filter fun l => decide (0 < ibp_m Z n l)

theorem existing_spec {N L : Nat} (Z U X : Arr Int) (lbda : ℝ) (n : Nat) (rnd : Nat → ℝ) :
    let r := ibp_existing Z U X lbda n N L rnd
    r.1.shape = Z.shape ∧ (∀ n' l, n' ≠ n → r.1 [n', l] = Z [n', l]) ∧ (∀ idx, IsPM (Z idx) → IsPM (r.1 idx)) ∧
      (List.range L).filter (fun l => r.2 [l]) = keptCols Z n L := by
  intro r
  obtain ⟨h1, h2, h3, h4⟩ := foldl_existing (ibp_m Z n) U X lbda n N rnd (List.range L) Z (Arr.full [L] true)
  rw [← ibp_existing_eq] at h1 h2 h3 h4
  refine ⟨h1, fun n' l hne => h2 _ fun l' _ _ h => hne ?_, h3, ?_⟩
  · simpa using congrArg List.head? h
  · apply List.filter_congr
    intro l hl
    rw [h4 l]
    simp only [Arr.full, hl, decide_true, Bool.true_and, ← decide_not]
    simp [Nat.pos_iff_ne_zero]

theorem maskCols_pm {a : Arr Int} {N L : Nat} {mask : Arr Bool} (hs : a.shape = [N, L]) (pa : PMArr a) :
    (a.maskCols mask).shape = [N, ((List.range L).filter fun l => mask [l]).length] ∧ PMArr (a.maskCols mask) := by
  have h0 : a.dim 0 = N := by simp [Arr.dim, hs]
  have h1 : a.dim 1 = L := by simp [Arr.dim, hs]
  have hsh : (a.maskCols mask).shape = [N, ((List.range L).filter fun l => mask [l]).length] := by
    simp [Arr.maskCols, h0, h1]
  refine ⟨hsh, ?_⟩
  intro idx hidx
  rw [hsh] at hidx
  match idx, hidx with
  | [i, j], hidx =>
    simp only [InB, and_true] at hidx
    simp only [Arr.maskCols, h1, List.getD_cons_zero, List.getD_cons_succ]
    apply pa
    rw [hs]
    refine ⟨hidx.1, ?_, trivial⟩
    rw [getD_of_lt _ _ hidx.2]
    have := List.getElem_mem hidx.2
    simp only [List.mem_filter, List.mem_range] at this
    exact this.1

theorem hstackFull_pm {a : Arr Int} {N L k : Nat} {v : Int} (hv : IsPM v) (hs : a.shape = [N, L]) (pa : PMArr a) :
    (a.hstackFull k v).shape = [N, L + k] ∧ PMArr (a.hstackFull k v) := by
  have h0 : a.dim 0 = N := by simp [Arr.dim, hs]
  have h1 : a.dim 1 = L := by simp [Arr.dim, hs]
  have hsh : (a.hstackFull k v).shape = [N, L + k] := by simp [Arr.hstackFull, h0, h1]
  refine ⟨hsh, ?_⟩
  intro idx hidx
  rw [hsh] at hidx
  match idx, hidx with
  | [i, j], hidx =>
    simp only [InB, and_true] at hidx
    simp only [Arr.hstackFull, h1, List.getD_cons_zero, List.getD_cons_succ]
    split
    · apply pa
      rw [hs]
      rename_i h
      exact ⟨hidx.1, h, trivial⟩
    · exact hv

theorem new_causes_pm (Z U X : Arr Int) (lbda : ℝ) (D L L_new : Nat) (rnd : Nat → Nat → ℝ) :
    (ibp_new_causes Z U X lbda D L L_new rnd).shape = U.shape ∧
      (∀ idx, IsPM (U idx) → IsPM (ibp_new_causes Z U X lbda D L L_new rnd idx)) ∧
      ∀ d l, l < L → ibp_new_causes Z U X lbda D L L_new rnd [d, l] = U [d, l] := by
  unfold ibp_new_causes
  simp only [Id.run_bind, Id.run_pure]
  obtain ⟨step, hstep⟩ : ∃ step : Nat → Arr Int → Nat → Arr Int, step = fun l U d => U.set [d, l]
    (flip_gibbs_numba (expit (lbda * posterior_score_OR_AND_2D (U.row d) Z (X.col d) l)) (rnd d l)) := ⟨_, rfl⟩
  rw [run_forIn_yield _ _ _ (fun U l => (List.range D).foldl (step l) U)
    (by
      intro l U
      simp only [Id.run_bind, Id.run_pure]
      rw [run_forIn_yield _ _ _ (step l) (by intros; rw [hstep]; rfl)])]
  have inner : ∀ l (xs : List Nat) (U : Arr Int), (xs.foldl (step l) U).shape = U.shape ∧
      (∀ idx, IsPM (U idx) → IsPM (xs.foldl (step l) U idx)) ∧
      ∀ d l', l' ≠ l → xs.foldl (step l) U [d, l'] = U [d, l'] := by
    intro l xs
    induction xs with
    | nil => intro U; simp
    | cons d xs ih =>
      intro U
      obtain ⟨h1, h2, h3⟩ := ih (step l U d)
      simp only [List.foldl_cons]
      refine ⟨?_, fun idx hp => h2 idx ?_, fun d' l' hl => ?_⟩
      · rw [h1, hstep]; rfl
      · rw [hstep]
        simp only [Arr.set]
        split
        · exact isPM_gibbs _ _
        · exact hp
      · rw [h3 d' l' hl, hstep]
        simp [Arr.set, hl]
  have hge : ∀ l ∈ (List.range L_new).map (L + ·), L ≤ l := by simp
  generalize (List.range L_new).map (L + ·) = ls at hge
  clear hstep
  induction ls generalizing U with
  | nil => simp
  | cons l ls ih =>
    obtain ⟨h1, h2, h3⟩ := inner l (List.range D) U
    obtain ⟨g1, g2, g3⟩ := ih ((List.range D).foldl (step l) U) fun l' hl => hge l' (by simp [hl])
    simp only [List.foldl_cons]
    refine ⟨by rw [g1, h1], fun idx hp => g2 idx (h2 idx hp), fun d l' hl => ?_⟩
    rw [g3 d l' hl, h3 d l']
    have := hge l (by simp)
    omega

/-- what `ibp_add` returns -/
theorem ibp_add_spec {N D L : Nat} (Z U X : Arr Int) (lbda : ℝ) (n L_new : Nat) (rnd : Nat → Nat → ℝ)
    (hZ : Z.shape = [N, L]) (hU : U.shape = [D, L]) (pZ : PMArr Z) (pU : PMArr U) :
    let r := ibp_add Z U X lbda n D L L_new rnd
    r.1.shape = [N, L + L_new] ∧ r.2.shape = [D, L + L_new] ∧ PMArr r.1 ∧ PMArr r.2 ∧
      (∀ i l, l < L → r.1 [i, l] = Z [i, l]) ∧ (∀ l, L ≤ l → l < L + L_new → r.1 [n, l] = 1) ∧
      ∀ d l, l < L → r.2 [d, l] = U [d, l] := by
  intro r
  by_cases hL : L_new > 0
  · have hr : r = ibp_add Z U X lbda n D L L_new rnd := rfl
    rw [ibp_add, if_pos hL] at hr
    obtain ⟨a1, a2⟩ := hstackFull_pm (k := L_new) (v := -1) (Or.inr rfl) hZ pZ
    obtain ⟨b1, b2⟩ := hstackFull_pm (k := L_new) (v := -1) (Or.inr rfl) hU pU
    have hd : (Z.hstackFull L_new (-1)).dim 1 = L + L_new := by simp [Arr.dim, a1]
    have hd' : Z.dim 1 = L := by simp [Arr.dim, hZ]
    have hd'' : U.dim 1 = L := by simp [Arr.dim, hU]
    simp only [hd, Nat.add_sub_cancel] at hr
    generalize hZ2 : (⟨(Z.hstackFull L_new (-1)).shape, fun i => if i.getD 0 0 = n ∧ L ≤ i.getD 1 0 then 1 else
      (Z.hstackFull L_new (-1)) i⟩ : Arr Int) = Z2 at hr
    obtain ⟨c1, c2, c3⟩ := new_causes_pm Z2 (U.hstackFull L_new (-1)) X lbda D L L_new rnd
    refine ⟨?_, ?_, ?_, ?_, ?_, ?_, ?_⟩
    · rw [hr, ← hZ2]; exact a1
    · rw [hr]; exact c1.trans b1
    · rw [hr, ← hZ2]
      intro idx hidx
      simp only at hidx ⊢
      split
      · exact Or.inl rfl
      · exact a2 idx hidx
    · rw [hr]
      intro idx hidx
      exact c2 idx (b2 idx (by rw [c1] at hidx; exact hidx))
    · intro i l hl
      rw [hr, ← hZ2]
      have : ¬ L ≤ l := by omega
      simp [this, Arr.hstackFull, hd', hl]
    · intro l h1 h2
      rw [hr, ← hZ2]
      simp [h1]
    · intro d l hl
      rw [hr]
      simp only [c3 d l hl]
      simp [Arr.hstackFull, hd'', hl]
  · have h0 : L_new = 0 := by omega
    have hr : r = (Z, U) := by
      show ibp_add Z U X lbda n D L L_new rnd = (Z, U)
      rw [ibp_add, if_neg hL]
    subst h0
    refine ⟨?_, ?_, ?_, ?_, ?_, ?_, ?_⟩ <;> rw [hr]
    · exact hZ
    · exact hU
    · exact pZ
    · exact pU
    · intros; rfl
    · intro l h1 h2; omega
    · intros; rfl

/-- the state of the row loop -/
structure IBPInv (N D : Nat) (s : Arr Int × Arr Int × Nat) : Prop where
  hZ : s.1.shape = [N, s.2.2]
  hU : s.2.1.shape = [D, s.2.2]
  pZ : PMArr s.1
  pU : PMArr s.2.1

theorem ibp_row_inv {N D : Nat} {s : Arr Int × Arr Int × Nat} (h : IBPInv N D s) (X : Arr Int) (lbda q alpha : ℝ)
    (rnd : IBPDraws) (n : Nat) (hn : n < N) :
    IBPInv N D (ibp_row X lbda q alpha N D rnd n s) ∧
      ∀ l, l < (ibp_row X lbda q alpha N D rnd n s).2.2 → ∃ n', n' < N ∧ (ibp_row X lbda q alpha N D rnd n s).1 [n', l] = 1 := by
  obtain ⟨Z, U, L⟩ := s
  obtain ⟨hZ, hU, pZ, pU⟩ := h
  simp only at hZ hU pZ pU
  obtain ⟨e1, e2, e3, e4⟩ := existing_spec (N := N) (L := L) Z U X lbda n (rnd.z n)
  generalize hr : ibp_existing Z U X lbda n N L (rnd.z n) = r at e1 e2 e3 e4
  have pr : PMArr r.1 := by
    intro idx hidx
    rw [e1] at hidx
    exact e3 idx (pZ idx hidx)
  obtain ⟨f1, f2⟩ := maskCols_pm (mask := r.2) (e1.trans hZ) pr
  obtain ⟨g1, g2⟩ := maskCols_pm (mask := r.2) hU pU
  rw [e4] at f1 g1
  have hcount : (List.range L).countP (fun l => r.2 [l]) = (keptCols Z n L).length := by
    rw [List.countP_eq_length_filter, e4]
  obtain ⟨Lnew, hLnew⟩ : ∃ Lnew, np_choice (ibp_p_L_new lbda q alpha N (keptCols Z n L).length
    (ibp_negatives (r.1.maskCols r.2) (U.maskCols r.2) X n).1
    (ibp_negatives (r.1.maskCols r.2) (U.maskCols r.2) X n).2) (rnd.new n) = Lnew := ⟨_, rfl⟩
  obtain ⟨a1, a2, a3, a4, a5, a6, a7⟩ := ibp_add_spec _ _ X lbda n Lnew (rnd.u n) f1 g1 f2 g2
  have hrow : ibp_row X lbda q alpha N D rnd n (Z, U, L) =
      ((ibp_add (r.1.maskCols r.2) (U.maskCols r.2) X lbda n D (keptCols Z n L).length Lnew (rnd.u n)).1,
       (ibp_add (r.1.maskCols r.2) (U.maskCols r.2) X lbda n D (keptCols Z n L).length Lnew (rnd.u n)).2,
       (keptCols Z n L).length + Lnew) := by
    simp only [ibp_row, hr, hcount, hLnew]
  rw [hrow]
  refine ⟨⟨a1, a2, a3, a4⟩, ?_⟩
  intro l hl
  simp only at hl ⊢
  by_cases hlk : l < (keptCols Z n L).length
  · have hmem := List.getElem_mem hlk
    have hget := getD_of_lt (keptCols Z n L) 0 hlk
    generalize (keptCols Z n L)[l] = c at hmem hget
    simp only [keptCols, List.mem_filter, List.mem_range, decide_eq_true_eq] at hmem
    obtain ⟨n', hn', hne, h1⟩ : ∃ n', n' < N ∧ n' ≠ n ∧ Z [n', c] = 1 := by
      have := hmem.2
      simp only [ibp_m, List.countP_pos_iff, List.mem_range, decide_eq_true_eq] at this
      obtain ⟨n', h1, h2, h3⟩ := this
      exact ⟨n', by simpa [Arr.dim, hZ] using h1, h2, h3⟩
    refine ⟨n', hn', ?_⟩
    rw [a5 n' l hlk]
    have hd : r.1.dim 1 = L := by simp [Arr.dim, e1, hZ]
    simp only [Arr.maskCols, hd, e4, List.getD_cons_zero, List.getD_cons_succ, hget]
    rw [e2 n' _ hne]
    exact h1
  · exact ⟨n, hn, a6 l (by omega) hl⟩

theorem sample_2d_IBP_eq (Z U X : Arr Int) (lbda q alpha : ℝ) (rnd : IBPDraws) :
    sample_2d_IBP Z U X lbda q alpha rnd =
      (((List.range (Z.dim 0)).foldl (fun s n => ibp_row X lbda q alpha (Z.dim 0) (U.dim 0) rnd n s) (Z, U, Z.dim 1)).1,
       ((List.range (Z.dim 0)).foldl (fun s n => ibp_row X lbda q alpha (Z.dim 0) (U.dim 0) rnd n s) (Z, U, Z.dim 1)).2.1) := by
  unfold sample_2d_IBP
  simp only [Id.run_bind, Id.run_pure]
  rw [run_forIn_yield _ _ _ (fun s n => ibp_row X lbda q alpha (Z.dim 0) (U.dim 0) rnd n s) (by intros; rfl)]

theorem ibp_foldl_inv {N D : Nat} (X : Arr Int) (lbda q alpha : ℝ) (rnd : IBPDraws) (xs : List Nat)
    (hxs : ∀ n ∈ xs, n < N) (s : Arr Int × Arr Int × Nat) (h : IBPInv N D s) :
    IBPInv N D (xs.foldl (fun s n => ibp_row X lbda q alpha N D rnd n s) s) := by
  induction xs generalizing s with
  | nil => exact h
  | cons n xs ih =>
    exact ih (fun n' hn' => hxs n' (by simp [hn'])) _ (ibp_row_inv h X lbda q alpha rnd n (hxs n (by simp))).1

end LFM

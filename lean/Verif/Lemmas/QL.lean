import Verif.Model.QL
import Verif.Lemmas.Loops
import Verif.Lemmas.Arrays
import Verif.Lemmas.Outputs
import Verif.Lemmas.Counting
import Verif.Lemmas.ScoreSums
import Verif.Lemmas.Sweep
import Verif.Lemmas.Posterior
import Verif.Spec.Threshold

/-! Closed forms of the qL-AND samplers. -/

namespace LFM

open Spec

/-- `for i in range(len(p)): acc += p[i]; if r < acc: return f i` followed by `return d` -/
theorem run_choice (p : List ℝ) (r : ℝ) (f : Nat → Int) (dflt : Int) :
    (Id.run do
      let mut acc : ℝ := 0
      for i in List.range p.length do
        acc := acc + p.getD i 0
        if r < acc then
          return f i
      return dflt) = (match (List.range p.length).find? (fun i => decide (r < (p.take (i + 1)).sum)) with
        | some i => f i
        | none => dflt) := by
  simp only [Id.run_bind]
  have key : ∀ (n s : Nat), s + n = p.length →
      ∀ body : Nat → Option Int × ℝ → Id (ForInStep (Option Int × ℝ)),
      (∀ i st, (body i st).run = if r < st.2 + p.getD i 0 then .done (some (f i), st.2 + p.getD i 0)
        else .yield (none, st.2 + p.getD i 0)) →
      ∀ a : ℝ, a = (p.take s).sum → (forIn (List.range' s n) (none, a) body).run =
        match (List.range' s n).find? (fun i => decide (r < (p.take (i + 1)).sum)) with
        | some i => (some (f i), (p.take (i + 1)).sum)
        | none => (none, p.sum) := by
    intro n
    induction n with
    | zero =>
      intro s hs body _ a ha
      subst ha
      simp only [List.range'_zero, List.forIn_nil, List.find?_nil, Id.run_pure]
      rw [List.take_of_length_le (by omega)]
    | succ n ih =>
      intro s hs body hb a ha
      subst ha
      have hsum : (p.take s).sum + p.getD s 0 = (p.take (s + 1)).sum := by
        rw [List.take_add_one, List.sum_append, List.getD_eq_getElem?_getD,
          List.getElem?_eq_getElem (by omega)]
        simp
      rw [List.range'_succ, List.forIn_cons]
      have hx := hb s (none, (p.take s).sum)
      simp only [hsum] at hx
      by_cases hp : r < (p.take (s + 1)).sum
      · simp only [if_pos hp] at hx
        simp [hx, hp]
      · simp only [if_neg hp] at hx
        simp only [Id.run_bind, hx]
        rw [show (forIn (List.range' (s + 1) n) _ body).run = _ from ih (s + 1) (by omega) body hb _ rfl]
        simp [hp]
  rw [List.range_eq_range', key p.length 0 (by omega) _ (by
    intro i st
    by_cases h : r < st.2 + p.getD i 0
    · rw [if_pos h, if_pos h]; rfl
    · rw [if_neg h, if_neg h]; rfl) 0 (by simp)]
  cases (List.range' 0 p.length).find? (fun i => decide (r < (p.take (i + 1)).sum)) <;> rfl

theorem random_choice_eq (p : List ℝ) (r : ℝ) : random_choice p r =
    (match (List.range p.length).find? (fun i => decide (r < (p.take (i + 1)).sum)) with
      | some i => wrap8 (i + 1)
      | none => wrap8 (p.length + 1)) :=
  run_choice p r (fun i => wrap8 (i + 1)) (wrap8 (p.length + 1))

theorem take_sum_mono {p : List ℝ} (hp : ∀ x ∈ p, 0 ≤ x) {i j : Nat} (h : i ≤ j) :
    (p.take i).sum ≤ (p.take j).sum := by
  obtain ⟨k, rfl⟩ := Nat.exists_eq_add_of_le h
  rw [List.take_add, List.sum_append]
  have : 0 ≤ ((p.drop i).take k).sum :=
    List.sum_nonneg fun x hx => hp x (List.mem_of_mem_drop (List.mem_of_mem_take hx))
  linarith

/-- the unnormalised log weight of threshold `k + 1` -/
noncomputable def logW (Z U : Arr Int) (N d : Nat) (p_lbda m_lbda gamma : ℝ) (k : Nat) : ℝ :=
  (k + 1) * Real.log gamma - gamma - Real.log (Real.Gamma (k + 2)) +
    true_predictions Z U d k * p_lbda + ((N : ℝ) - true_predictions Z U d k) * m_lbda

theorem Arr.set_set {α : Type} (A : Arr α) (i : List Nat) (a b : α) :
    (A.set i a).set i b = A.set i b := by
  simp only [Arr.set, Arr.mk.injEq, true_and]
  funext j
  by_cases h : j = i <;> simp [h]

theorem Arr.set_get_self {α : Type} (A : Arr α) (i : List Nat) (a : α) : (A.set i a).get i = a := by
  simp [Arr.set]

theorem qL_logconditional_eq (Z U : Arr Int) (N d Q : Nat) (pl ml g : ℝ) (A : Arr ℝ) :
    qL_logconditional Z U N d Q pl ml g A =
      (List.range (Q - 1)).foldl (fun A k => A.set [k, d] (logW Z U N d pl ml g k)) A := by
  unfold qL_logconditional
  simp only [Id.run_bind, Id.run_pure]
  rw [run_forIn_yield _ _ _ _ (by intros; rfl)]
  congr 1
  funext A k
  rw [Arr.set_set, Arr.set_get_self, logW]

theorem qL_logconditional_get (Z U : Arr Int) (N d Q : Nat) (pl ml g : ℝ) (A : Arr ℝ) (k : Nat)
    (hk : k < Q - 1) : qL_logconditional Z U N d Q pl ml g A [k, d] = logW Z U N d pl ml g k := by
  rw [qL_logconditional_eq]
  have := overwrites_foldl (List.range (Q - 1)) (fun (A : Arr ℝ) k => A.set [k, d] (logW Z U N d pl ml g k))
    (fun k idx => idx = [k, d]) (fun idx => logW Z U N d pl ml g (idx.getD 0 0))
    (fun k _ => overwrites_set [k, d] fun idx => logW Z U N d pl ml g (idx.getD 0 0))
  exact this.on A [k, d] ⟨k, by simpa using hk, rfl⟩

/-- a loop that rewrites column `d` entry by entry -/
theorem modifies_col (d n : Nat) (h : ℝ → ℝ) :
    Modifies (fun A : Arr ℝ => (List.range n).foldl (fun A k => A.set [k, d] (h (A [k, d]))) A)
      (fun idx => ∃ k ∈ List.range n, idx = [k, d]) (fun _ x => h x) := by
  apply modifies_foldl
  · refine List.Pairwise.imp ?_ (List.nodup_range (n := n))
    rintro a b hab idx ⟨rfl, h2⟩
    simp at h2
    exact hab h2
  · intro k _
    exact ⟨fun _ => rfl, fun X idx hi => by subst hi; simp [Arr.set], fun X idx hi => by simp [Arr.set, hi]⟩

theorem qL_normalise_get (d Q : Nat) (A : Arr ℝ) (k : Nat) (hk : k < Q - 1) :
    qL_normalise d Q A [k, d] = Real.exp (A [k, d]) /
      ((List.range (Q - 1)).map fun j => Real.exp (A [j, d])).sum := by
  unfold qL_normalise
  obtain ⟨M, hM⟩ : ∃ M, npMax2 A = M := ⟨_, rfl⟩
  simp only [Id.run_bind, Id.run_pure, hM]
  rw [run_forIn_yield _ _ _ _ (by intros; rfl), run_forIn_yield _ _ _ _ (by intros; rfl)]
  obtain ⟨B, hB⟩ : ∃ B, (List.range (Q - 1)).foldl
    (fun A k => A.set [k, d] (Real.exp (A [k, d] - M))) A = B := ⟨_, rfl⟩
  have hBk : ∀ k < Q - 1, B [k, d] = Real.exp (A [k, d] - M) := by
    intro k hk
    rw [← hB]
    exact (modifies_col d (Q - 1) fun x => Real.exp (x - M)).on A [k, d] ⟨k, by simpa using hk, rfl⟩
  rw [hB]
  obtain ⟨S, hS⟩ : ∃ S, ((List.range (Q - 1)).map fun k => B [k, d]).sum = S := ⟨_, rfl⟩
  rw [hS]
  refine ((modifies_col d (Q - 1) fun x => x / S).on B [k, d] ⟨k, by simpa using hk, rfl⟩).trans ?_
  rw [← hS, hBk k hk, List.map_congr_left (g := fun j => Real.exp (A [j, d]) * Real.exp (-M)) (fun j hj => by
    rw [hBk j (by simpa using hj), sub_eq_add_neg, Real.exp_add]),
    List.sum_map_mul_right, sub_eq_add_neg, Real.exp_add, mul_div_mul_right _ _ (Real.exp_pos _).ne']

/-- the probability vector used for column `d` -/
noncomputable def qProbs (Z U : Arr Int) (N d : Nat) (lbda gamma : ℝ) : List ℝ :=
  (List.range 5).map fun k =>
    Real.exp (logW Z U N d (Real.log (1 + Real.exp lbda)) (Real.log (1 + Real.exp (-lbda))) gamma k) /
      ((List.range 5).map fun j => Real.exp (logW Z U N d (Real.log (1 + Real.exp lbda))
        (Real.log (1 + Real.exp (-lbda))) gamma j)).sum

theorem sample_qL_q_spec (Z U X q : Arr Int) (lbda gamma : ℝ) (rnd : Nat → ℝ) :
    (sample_qL_q Z U X q lbda gamma rnd).shape = q.shape ∧
    ∀ idx, sample_qL_q Z U X q lbda gamma rnd idx = match idx with
      | [0, d] => if d < X.dim 1 then random_choice (qProbs Z U (X.dim 0) d lbda gamma) (rnd d) else q [0, d]
      | idx => q idx := by
  unfold sample_qL_q
  simp only [Id.run_bind, Id.run_pure]
  rw [run_forIn_yield _ _ _ _ (by intros; rfl)]
  generalize X.dim 1 = D
  generalize Arr.full [6 - 1, D] (0 : ℝ) = A
  induction D with
  | zero =>
    refine ⟨rfl, fun idx => ?_⟩
    split
    · rfl
    · rfl
  | succ D ih =>
    rw [List.range_succ (n := D), List.foldl_append]
    generalize (List.range D).foldl _ _ = s at ih
    refine ⟨ih.1, fun idx => ?_⟩
    simp only [List.foldl_cons, List.foldl_nil]
    have hcol : (List.range (6 - 1)).map (fun k => qL_normalise D 6
        (qL_logconditional Z U (X.dim 0) D 6 (Real.log (1 + Real.exp lbda)) (Real.log (1 + Real.exp (-lbda)))
          gamma s.1) [k, D]) = qProbs Z U (X.dim 0) D lbda gamma := by
      rw [qProbs]
      refine List.map_congr_left fun k hk => ?_
      rw [qL_normalise_get D 6 _ k (by simpa using hk), qL_logconditional_get _ _ _ _ _ _ _ _ _ _ (by simpa using hk)]
      congr 2
      refine List.map_congr_left fun j hj => ?_
      rw [qL_logconditional_get _ _ _ _ _ _ _ _ _ _ (by simpa using hj)]
    rw [hcol]
    have hset : ∀ (v : Int), (s.2.set [0, D] v).get idx = if idx = [0, D] then v else s.2.get idx :=
      fun v => rfl
    rw [hset]
    by_cases h : idx = [0, D]
    · subst h; simp
    · rw [if_neg h, show s.2.get idx = _ from ih.2 idx]
      split
      · rename_i d
        have h3 : d ≠ D := by rintro rfl; exact h rfl
        by_cases h2 : d < D
        · rw [if_pos h2, if_pos (by omega)]
        · rw [if_neg h2, if_neg (by omega)]
      · rfl

/-- the counting loop that stops at the threshold -/
theorem run_qcap (xs : List Nat) (p : Nat → Prop) [DecidablePred p] (q : Int)
    (body : Nat → Int → Id (ForInStep Int)) (c : Int) (hc : c < q)
    (h : ∀ a s, (body a s).run = if p a then if s + 1 = q then .done (s + 1) else .yield (s + 1)
      else if s = q then .done s else .yield s) :
    (forIn xs c body).run = min q (c + xs.countP p) := by
  induction xs generalizing c with
  | nil => simp; omega
  | cons x xs ih =>
    rw [List.forIn_cons]
    have hx := h x c
    by_cases hp : p x
    · have hcount : (x :: xs).countP p = xs.countP p + 1 := by simp [hp]
      by_cases h1 : c + 1 = q
      · simp only [hp, if_true, h1] at hx
        simp only [Id.run_bind, hx, Id.run_pure, hcount]
        push_cast
        omega
      · simp only [hp, if_true, h1, if_false] at hx
        simp only [Id.run_bind, hx]
        rw [show (forIn xs (c + 1) body).run = _ from ih (c + 1) (by omega), hcount]
        push_cast
        omega
    · have hcount : (x :: xs).countP p = xs.countP p := by simp [hp]
      simp only [hp, if_false, show ¬ c = q by omega] at hx
      simp only [Id.run_bind, hx]
      rw [show (forIn xs c body).run = _ from ih c hc, hcount]

/-- loop nest of the qL-AND scores -/
theorem run_qscore (D L : Nat) (w : Int → Int) (skip : Nat → Prop) [DecidablePred skip]
    (p : Nat → Nat → Prop) [∀ d, DecidablePred (p d)] (q : Nat → Int) (hq : ∀ d, d < D → 1 ≤ q d) (t : Nat → Int) :
    (Id.run do
      let mut score : Int := 0
      for d in List.range D do
        if skip d then
          continue
        let mut counter : Int := 0
        for l' in List.range L do
          if p d l' then
            counter := counter + 1
          if counter = q d then
            break
        if counter = q d - 1 then
          score := score + t d
      return w score) =
    w ((List.range D).map fun d => if skip d then 0 else
      if ((List.range L).countP (p d) : Int) = q d - 1 then t d else 0).sum := by
  simp only [Id.run_bind, Id.run_pure]
  have key : ∀ (xs : List Nat), (∀ d ∈ xs, 1 ≤ q d) → ∀ (s : Int) (body : Nat → Int → Id (ForInStep Int)),
      (∀ d s, 1 ≤ q d → (body d s).run = .yield (s + (if skip d then 0 else
        if ((List.range L).countP (p d) : Int) = q d - 1 then t d else 0))) →
      (forIn xs s body).run = s + (xs.map fun d => if skip d then 0 else
        if ((List.range L).countP (p d) : Int) = q d - 1 then t d else 0).sum := by
    intro xs
    induction xs with
    | nil => intros; simp
    | cons x xs ih =>
      intro hxs s body hb
      rw [List.forIn_cons]
      simp only [Id.run_bind, hb x s (hxs x List.mem_cons_self)]
      rw [show (forIn xs _ body).run = _ from ih (fun d hd => hxs d (List.mem_cons_of_mem _ hd)) _ body hb]
      rw [List.map_cons, List.sum_cons, add_assoc]
  rw [key _ (fun d hd => hq d (List.mem_range.1 hd)) 0 _ ?_, zero_add]
  intro d s hqd
  by_cases hs : skip d
  · simp [hs]
  · simp only [hs, if_false, Id.run_bind]
    rw [run_qcap (List.range L) (p d) (q d) _ 0 (by omega) (by
      intro a s
      by_cases h1 : p d a
      · by_cases h2 : s + 1 = q d
        · simp [h1, h2]
        · simp [h1, h2]
      · by_cases h2 : s = q d
        · simp [h1, h2]
        · simp [h1, h2])]
    rw [zero_add]
    by_cases hc : ((List.range L).countP (p d) : Int) = q d - 1
    · rw [if_pos hc, if_pos (by omega)]; rfl
    · rw [if_neg hc, if_neg (by omega), add_zero]; rfl

/-- number of active dimensions after setting one entry -/
theorem card_setEntry (L l : Nat) (hl : l < L) (z u : Nat → Int) (v : Int) :
    (Finset.univ.filter fun l' : Fin L => setEntry z l v l' = 1 ∧ u l' = 1).card =
      (List.range L).countP (fun l' => z l' = 1 ∧ u l' = 1 ∧ l' ≠ l) + if v = 1 ∧ u l = 1 then 1 else 0 := by
  rw [← countP_range_eq_card_fin L (fun l' => setEntry z l v l' = 1 ∧ u l' = 1), countP_range_eq_card,
    countP_range_eq_card]
  by_cases hr : v = 1 ∧ u l = 1
  · rw [if_pos hr, ← Finset.card_insert_of_notMem (a := l)]
    · congr 1
      ext x
      simp only [Finset.mem_filter, Finset.mem_range, Finset.mem_insert]
      unfold setEntry
      by_cases e : x = l
      · subst e; simp [hl, hr]
      · simp [e]
    · simp
  · rw [if_neg hr, add_zero]
    congr 1
    ext x
    simp only [Finset.mem_filter, Finset.mem_range]
    unfold setEntry
    by_cases e : x = l
    · subst e; simp; intro _ h1 h2; exact hr ⟨h1, h2⟩
    · simp [e]

theorem predQ_diff (L l : Nat) (hl : l < L) (z u : Nat → Int) (q : Int) (x : Int) :
    2 * (1 * (if u l ≠ 1 then 0 else
      if ((List.range L).countP (fun l' => z l' = 1 ∧ u l' = 1 ∧ l' ≠ l) : Int) = q - 1 then x else 0)) =
    x * (predQ L q (setEntry z l 1) u - predQ L q (setEntry z l (-1)) u) := by
  unfold predQ
  rw [card_setEntry L l hl, card_setEntry L l hl, pm_eq_ite, pm_eq_ite]
  by_cases h : u l = 1
  · simp only [h, ne_eq, not_true, if_false, if_true, and_self, and_true,
      show ¬ ((-1 : Int) = 1) by decide]
    push_cast
    split_ifs <;> omega
  · simp [h]

theorem predQ_comm (L : Nat) (q : Int) (z u : Nat → Int) : predQ L q z u = predQ L q u z := by
  unfold predQ
  simp only [and_comm]

theorem sample_qL_factors_Z_eq (Z U X q : Arr Int) (lbda : ℝ) (rnd : Rnd) :
    sample_qL_factors_Z Z U X q lbda rnd =
      sweep (fun Z i => (posterior_score_fct_qL_Z (Z.row (i0 i)) U (X.row (i0 i)) (i1 i) q : ℝ))
        (Arr.full Z.shape 0) rnd (tasks2 (Z.dim 0) (Z.dim 1)) Z := by
  rw [sweep, ← foldl_tasks2]
  unfold sample_qL_factors_Z
  simp only [Id.run_bind, Id.run_pure]
  rw [run_forIn_yield _ _ _ _ (by
    intro n Z
    simp only [Id.run_bind, Id.run_pure]
    rw [run_forIn_yield _ _ _ _ (by intros; rfl)])]
  rfl

theorem sample_qL_factors_U_eq (U Z X q : Arr Int) (lbda : ℝ) (rnd : Rnd) :
    sample_qL_factors_U U Z X q lbda rnd =
      sweep (fun U i => (posterior_score_fct_qL_U (U.row (i0 i)) Z (X.row (i0 i)) (i1 i) (q [0, i0 i]) : ℝ))
        (Arr.full U.shape 0) rnd (tasks2 (U.dim 0) (U.dim 1)) U := by
  rw [sweep, ← foldl_tasks2]
  unfold sample_qL_factors_U
  simp only [Id.run_bind, Id.run_pure]
  rw [run_forIn_yield _ _ _ _ (by
    intro n Z
    simp only [Id.run_bind, Id.run_pure]
    rw [run_forIn_yield _ _ _ _ (by intros; rfl)])]
  rfl

end LFM

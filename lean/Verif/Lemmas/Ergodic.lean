import Mathlib.Data.Set.Finite.List
import Verif.Lemmas.Hier

/-!
# Lemmas: convergence of sequences of flips

Finitely many states; step `e` moves to the state `flip e x` with positive probability, and stays with positive
probability if `x` has more weight than `flip e x`. If no flip leaves the weight unchanged, all sequences of sweeps
converge to their common stationary distribution, whatever the orders of the steps within sweeps.
-/

namespace LFM

open Spec

section
variable {E S : Type} [Fintype E] [Fintype S] [DecidableEq S]

/-- what is assumed of the steps -/
structure Flips (K : E → S → S → ENNReal) (flip : E → S → S) (W : S → ℝ) : Prop where
  stoch : ∀ e x, ∑ y, K e x y = 1
  inv : ∀ e x, flip e (flip e x) = x
  pos : ∀ x, 0 < W x
  flip_pos : ∀ e x, K e x (flip e x) ≠ 0
  stay_pos : ∀ e x, W (flip e x) < W x → K e x x ≠ 0
  no_tie : ∀ e x, W (flip e x) ≠ W x
  conn : ∀ A : Finset S, A.Nonempty → (∀ e, ∀ x ∈ A, flip e x ∈ A) → A = Finset.univ

omit [Fintype E] [DecidableEq S] in
theorem schedule_append (K : E → S → S → ENNReal) (l1 l2 : List E) (x z : S) :
    schedule K (l1 ++ l2) x z = ∑ y, schedule K l1 x y * schedule K l2 y z := by
  classical
  induction l1 generalizing x with
  | nil =>
    rw [List.nil_append, Finset.sum_eq_single x]
    · simp [schedule]
    · intro y _ hy; simp [schedule, Ne.symm hy]
    · simp
  | cons e l1 ih =>
    simp only [List.cons_append, schedule, ih, Finset.sum_mul, Finset.mul_sum]
    rw [Finset.sum_comm]
    exact Finset.sum_congr rfl fun y _ => Finset.sum_congr rfl fun w _ => by rw [mul_assoc]

omit [Fintype E] [DecidableEq S] in
/-- sequences of sequences -/
theorem schedule_flatMap {ι : Type} (K : E → S → S → ENNReal) (l : ι → List E) (sched : List ι) (x z : S) :
    schedule (fun p => schedule K (l p)) sched x z = schedule K (sched.flatMap l) x z := by
  induction sched generalizing x with
  | nil => rfl
  | cons p sched ih =>
    rw [List.flatMap_cons, schedule_append, schedule]
    exact Finset.sum_congr rfl fun y _ => by rw [ih]

omit [Fintype E] [DecidableEq S] in
theorem schedule_stoch {K : E → S → S → ENNReal} (h : ∀ e x, ∑ y, K e x y = 1) (l : List E) (x : S) :
    ∑ y, schedule K l x y = 1 := by
  classical
  induction l generalizing x with
  | nil => simp [schedule]
  | cons e l ih =>
    simp only [schedule]
    rw [Finset.sum_comm]
    simp only [← Finset.mul_sum, ih, mul_one]
    exact h e x

omit [Fintype E] in
/-- sequences of sweeps from different states agree more and more, if `N` sweeps lead from everywhere to everywhere -/
theorem contract {K : E → S → S → ENNReal} (hst : ∀ e x, ∑ y, K e x y = 1) (good : List E → Prop) (N : Nat) {ε : ℝ}
    (hε0 : 0 < ε) (hε1 : ε ≤ 1)
    (hε : ∀ (Ls : List (List E)), (∀ l ∈ Ls, good l) → Ls.length = N → ∀ x y, ε ≤ (schedule K Ls.flatten x y).toReal)
    (z : S) (q : Nat) : ∀ (Ls : List (List E)), (∀ l ∈ Ls, good l) → q * N ≤ Ls.length →
      ∃ a b : ℝ, b - a ≤ (1 - ε) ^ q ∧ ∀ x, a ≤ (schedule K Ls.flatten x z).toReal ∧ (schedule K Ls.flatten x z).toReal ≤ b := by
  have hle : ∀ l x y, schedule K l x y ≤ 1 := by
    intro l x y
    rw [← schedule_stoch hst l x]
    exact Finset.single_le_sum (f := fun y => schedule K l x y) (fun _ _ => bot_le) (Finset.mem_univ y)
  have htop : ∀ l x y, schedule K l x y ≠ ⊤ := fun l x y => ne_top_of_le_ne_top ENNReal.one_ne_top (hle l x y)
  have hsum : ∀ l x, ∑ y, (schedule K l x y).toReal = 1 := by
    intro l x
    rw [← ENNReal.toReal_sum fun y _ => htop l x y, schedule_stoch hst, ENNReal.toReal_one]
  induction q with
  | zero =>
    intro Ls _ _
    refine ⟨0, 1, by simp, fun x => ⟨ENNReal.toReal_nonneg, ?_⟩⟩
    exact ENNReal.toReal_mono ENNReal.one_ne_top (hle _ x z)
  | succ q ih =>
    intro Ls h1 h3
    rw [Nat.succ_mul] at h3
    have hsplit : Ls.flatten = (Ls.take N).flatten ++ (Ls.drop N).flatten := by
      rw [← List.flatten_append, List.take_append_drop]
    obtain ⟨a, b, h4, h5⟩ := ih (Ls.drop N) (fun l hl => h1 l (List.mem_of_mem_drop hl)) (by rw [List.length_drop]; omega)
    have hmin := hε (Ls.take N) (fun l hl => h1 l (List.mem_of_mem_take hl))
      (by rw [List.length_take]; omega)
    obtain ⟨P, hP⟩ : ∃ P : S → S → ℝ, P = fun x y => (schedule K (Ls.take N).flatten x y).toReal := ⟨_, rfl⟩
    obtain ⟨g, hg⟩ : ∃ g : S → ℝ, g = fun y => (schedule K (Ls.drop N).flatten y z).toReal := ⟨_, rfl⟩
    have hval : ∀ x, (schedule K Ls.flatten x z).toReal = ∑ y, P x y * g y := by
      intro x
      rw [hsplit, schedule_append, ENNReal.toReal_sum fun y _ => ENNReal.mul_ne_top (htop _ _ _) (htop _ _ _), hP, hg]
      exact Finset.sum_congr rfl fun y _ => ENNReal.toReal_mul
    -- a common part of all distributions
    refine ⟨ε * g z + (1 - ε) * a, ε * g z + (1 - ε) * b, ?_, fun x => ?_⟩
    · have : 0 ≤ 1 - ε := by linarith
      calc _ = (1 - ε) * (b - a) := by ring
        _ ≤ (1 - ε) * (1 - ε) ^ q := mul_le_mul_of_nonneg_left h4 this
        _ = _ := by rw [pow_succ, mul_comm]
    · have hPx : ∑ y, P x y = 1 := by rw [hP]; exact hsum _ x
      have hPz : ε ≤ P x z := by rw [hP]; exact hmin x z
      have hP0 : ∀ y, 0 ≤ P x y := by intro y; rw [hP]; exact ENNReal.toReal_nonneg
      have hgb : ∀ y, a ≤ g y ∧ g y ≤ b := by intro y; rw [hg]; exact h5 y
      have e1 : ∑ y, P x y * g y = ε * g z + ∑ y, (P x y - if y = z then ε else 0) * g y := by
        simp only [sub_mul, Finset.sum_sub_distrib, ite_mul, zero_mul, Finset.sum_ite_eq', Finset.mem_univ, if_true]
        ring
      have e2 : ∑ y, (P x y - if y = z then ε else 0) = 1 - ε := by
        rw [Finset.sum_sub_distrib, hPx]
        simp
      have hnn : ∀ y, 0 ≤ P x y - if y = z then ε else 0 := by
        intro y
        split
        · rename_i h; subst h; linarith
        · rw [sub_zero]; exact hP0 y
      rw [hval, e1, ← e2, Finset.sum_mul, Finset.sum_mul]
      constructor
      · have := Finset.sum_le_sum fun y (_ : y ∈ Finset.univ) => mul_le_mul_of_nonneg_left (hgb y).1 (hnn y)
        linarith
      · have := Finset.sum_le_sum fun y (_ : y ∈ Finset.univ) => mul_le_mul_of_nonneg_left (hgb y).2 (hnn y)
        linarith

omit [Fintype E] in
/-- and converge to the stationary distribution -/
theorem contract_limit {K : E → S → S → ENNReal} {W : S → ℝ} (hst : ∀ e x, ∑ y, K e x y = 1) (hpos : ∀ x, 0 < W x)
    (l : List E) (hinv : ∀ z, ∑ x, ENNReal.ofReal (W x) * schedule K l x z = ENNReal.ofReal (W z)) (x z : S) {a b c : ℝ}
    (hab : b - a ≤ c) (hq : ∀ x, a ≤ (schedule K l x z).toReal ∧ (schedule K l x z).toReal ≤ b) :
    |(schedule K l x z).toReal - W z / ∑ y, W y| ≤ c := by
  have hW : 0 < ∑ y, W y := Finset.sum_pos (fun y _ => hpos y) ⟨x, Finset.mem_univ _⟩
  have htop : ∀ x, schedule K l x z ≠ ⊤ := by
    intro x
    refine ne_top_of_le_ne_top ENNReal.one_ne_top ?_
    rw [← schedule_stoch hst l x]
    exact Finset.single_le_sum (f := fun y => schedule K l x y) (fun _ _ => bot_le) (Finset.mem_univ z)
  have hst : ∑ x, W x * (schedule K l x z).toReal = W z := by
    have := congrArg ENNReal.toReal (hinv z)
    rw [ENNReal.toReal_sum fun y _ => ENNReal.mul_ne_top ENNReal.ofReal_ne_top (htop y),
      ENNReal.toReal_ofReal (hpos z).le] at this
    rw [← this]
    exact Finset.sum_congr rfl fun y _ => by rw [ENNReal.toReal_mul, ENNReal.toReal_ofReal (hpos y).le]
  have l1 : a * ∑ y, W y ≤ W z := by
    rw [← hst, Finset.mul_sum]
    refine Finset.sum_le_sum fun y _ => ?_
    rw [mul_comm]
    exact mul_le_mul_of_nonneg_left (hq y).1 (hpos y).le
  have l2 : W z ≤ b * ∑ y, W y := by
    rw [← hst, Finset.mul_sum]
    refine Finset.sum_le_sum fun y _ => ?_
    rw [mul_comm b]
    exact mul_le_mul_of_nonneg_left (hq y).2 (hpos y).le
  have m1 : a ≤ W z / ∑ y, W y := (le_div_iff₀ hW).2 l1
  have m2 : W z / ∑ y, W y ≤ b := (div_le_iff₀ hW).2 l2
  obtain ⟨q1, q2⟩ := hq x
  rw [abs_le]
  constructor <;> linarith

namespace Flips

variable {K : E → S → S → ENNReal} {flip : E → S → S} {W : S → ℝ}

open Classical in
/-- states reached from `A` by step `e` -/
noncomputable def post (K : E → S → S → ENNReal) (e : E) (A : Finset S) : Finset S :=
  Finset.univ.filter fun y => ∃ x ∈ A, K e x y ≠ 0

omit [Fintype E] [DecidableEq S] in
theorem reach_iff (K : E → S → S → ENNReal) (l : List E) (A : Finset S) (y : S) :
    y ∈ l.foldl (fun A e => post K e A) A ↔ ∃ x ∈ A, schedule K l x y ≠ 0 := by
  classical
  induction l generalizing A with
  | nil => simp [schedule]
  | cons e l ih =>
    rw [List.foldl_cons, ih]
    simp only [post, Finset.mem_filter, Finset.mem_univ, true_and, schedule]
    constructor
    · rintro ⟨z, ⟨x, hx, h1⟩, h2⟩
      refine ⟨x, hx, fun h0 => ?_⟩
      rw [Finset.sum_eq_zero_iff] at h0
      exact mul_ne_zero h1 h2 (h0 z (Finset.mem_univ _))
    · rintro ⟨x, hx, h1⟩
      by_contra hc
      apply h1
      refine Finset.sum_eq_zero fun z _ => ?_
      by_contra h0
      exact hc ⟨z, ⟨x, hx, left_ne_zero_of_mul h0⟩, right_ne_zero_of_mul h0⟩

/-- grows with every step -/
noncomputable def height (W : S → ℝ) (A : Finset S) : ℝ := ∑ y ∈ A, (W y + ∑ x, W x)

section
variable (F : Flips K flip W)
include F

omit [Fintype E] in
theorem height_mono {A B : Finset S} (h : A ⊆ B) : height W A ≤ height W B :=
  Finset.sum_le_sum_of_subset_of_nonneg h fun y _ _ =>
    add_nonneg (F.pos y).le (Finset.sum_nonneg fun x _ => (F.pos x).le)

omit [Fintype E] in
theorem height_strict {A B : Finset S} (h : A ⊂ B) : height W A < height W B := by
  obtain ⟨hs, y, hy, hn⟩ := Finset.ssubset_iff_exists_cons_subset.mp h |> fun ⟨a, ha, hc⟩ =>
    (⟨h.1, a, hc (Finset.mem_cons_self _ _), ha⟩ : A ⊆ B ∧ ∃ y, y ∈ B ∧ y ∉ A)
  exact Finset.sum_lt_sum_of_subset hs hy hn (add_pos_of_pos_of_nonneg (F.pos y) (Finset.sum_nonneg fun x _ => (F.pos x).le))
    fun z _ _ => add_nonneg (F.pos z).le (Finset.sum_nonneg fun x _ => (F.pos x).le)

omit [Fintype E] in
/-- one step raises the height, unless the set is closed under it -/
theorem height_post (e : E) (A : Finset S) :
    height W A ≤ height W (post K e A) ∧ (height W (post K e A) = height W A → (∀ x ∈ A, flip e x ∈ A) ∧ post K e A = A) := by
  classical
  have hinj : Function.Injective (flip e) := fun x y h => by rw [← F.inv e x, h, F.inv]
  obtain ⟨R, hR⟩ : ∃ R, R = A.filter fun y => flip e y ∉ A := ⟨_, rfl⟩
  obtain ⟨Q, hQ⟩ : ∃ Q, Q = R.filter fun y => W (flip e y) < W y := ⟨_, rfl⟩
  have hdis : Disjoint (A.image (flip e)) Q := by
    rw [Finset.disjoint_left]
    intro y hy hy'
    obtain ⟨x, hx, rfl⟩ := Finset.mem_image.1 hy
    rw [hQ, Finset.mem_filter, hR, Finset.mem_filter, F.inv] at hy'
    exact hy'.1.2 hx
  have hsub : A.image (flip e) ∪ Q ⊆ post K e A := by
    intro y hy
    rw [post, Finset.mem_filter]
    refine ⟨Finset.mem_univ _, ?_⟩
    rcases Finset.mem_union.1 hy with hy | hy
    · obtain ⟨x, hx, rfl⟩ := Finset.mem_image.1 hy
      exact ⟨x, hx, F.flip_pos e x⟩
    · rw [hQ, Finset.mem_filter, hR, Finset.mem_filter] at hy
      exact ⟨y, hy.1.1, F.stay_pos e y hy.2⟩
  obtain ⟨C, hC⟩ : ∃ C, C = ∑ x, W x := ⟨_, rfl⟩
  have hCW : ∀ y, W y ≤ C := by
    intro y
    rw [hC]
    exact Finset.single_le_sum (fun x _ => (F.pos x).le) (Finset.mem_univ y)
  -- flips within `A` cancel
  have hpairs : ∑ y ∈ A, (W (flip e y) - W y) = ∑ y ∈ R, (W (flip e y) - W y) := by
    rw [← Finset.sum_filter_add_sum_filter_not A (fun y => flip e y ∈ A)]
    have : ∑ y ∈ A.filter (fun y => flip e y ∈ A), (W (flip e y) - W y) = 0 := by
      refine Finset.sum_involution (fun y _ => flip e y) ?_ ?_ ?_ ?_
      · intro y _
        rw [F.inv]; ring
      · intro y _ hne heq
        apply hne
        rw [heq]; ring
      · intro y hy
        rw [Finset.mem_filter] at hy ⊢
        exact ⟨hy.2, by rw [F.inv]; exact hy.1⟩
      · intro y _
        exact F.inv e y
    rw [this, zero_add, hR]
  have hB : height W (A.image (flip e) ∪ Q) = height W A + ∑ y ∈ R, (W (flip e y) - W y) + ∑ y ∈ Q, (W y + C) := by
    rw [height, Finset.sum_union hdis, Finset.sum_image (fun x _ y _ h => hinj h), ← hC, ← hpairs, height, ← hC]
    rw [← Finset.sum_add_distrib]
    congr 1
    exact Finset.sum_congr rfl fun y _ => by ring
  have hgain : 0 ≤ ∑ y ∈ R, (W (flip e y) - W y) + ∑ y ∈ Q, (W y + C) ∧
      (R.Nonempty → 0 < ∑ y ∈ R, (W (flip e y) - W y) + ∑ y ∈ Q, (W y + C)) := by
    have e1 : ∑ y ∈ R, (W (flip e y) - W y) + ∑ y ∈ Q, (W y + C) =
        ∑ y ∈ R, (W (flip e y) - W y + if W (flip e y) < W y then W y + C else 0) := by
      rw [hQ, Finset.sum_filter, ← Finset.sum_add_distrib]
    have e2 : ∀ y ∈ R, 0 < W (flip e y) - W y + if W (flip e y) < W y then W y + C else 0 := by
      intro y _
      split
      · have := F.pos (flip e y)
        have := hCW y
        have := F.pos y
        linarith
      · rename_i hlt
        have := lt_of_le_of_ne (not_lt.1 hlt) (F.no_tie e y).symm
        linarith
    rw [e1]
    exact ⟨Finset.sum_nonneg fun y hy => (e2 y hy).le, fun hne => Finset.sum_pos e2 hne⟩
  have hle := F.height_mono hsub
  refine ⟨by linarith [hgain.1], fun heq => ?_⟩
  have hclosed : ∀ x ∈ A, flip e x ∈ A := by
    by_contra hc
    push Not at hc
    obtain ⟨x, hx, hn⟩ := hc
    have := hgain.2 ⟨x, by rw [hR, Finset.mem_filter]; exact ⟨hx, hn⟩⟩
    linarith
  refine ⟨hclosed, ?_⟩
  have hA : A ⊆ post K e A := by
    intro y hy
    apply hsub
    rw [Finset.mem_union]
    left
    exact Finset.mem_image.2 ⟨flip e y, hclosed y hy, F.inv e y⟩
  by_contra hne
  have := F.height_strict (lt_of_le_of_ne hA (Ne.symm hne))
  linarith

omit [Fintype E] in
/-- a sweep raises the height, unless all states are reached already -/
theorem height_sweep (l : List E) (A : Finset S) :
    height W A ≤ height W (l.foldl (fun A e => post K e A) A) ∧
      (height W (l.foldl (fun A e => post K e A) A) = height W A →
        (∀ e ∈ l, ∀ x ∈ A, flip e x ∈ A) ∧ l.foldl (fun A e => post K e A) A = A) := by
  induction l generalizing A with
  | nil => exact ⟨le_refl _, fun _ => ⟨by simp, rfl⟩⟩
  | cons e l ih =>
    obtain ⟨h1, h2⟩ := F.height_post e A
    obtain ⟨h3, h4⟩ := ih (post K e A)
    rw [List.foldl_cons]
    refine ⟨h1.trans h3, fun heq => ?_⟩
    obtain ⟨h5, h6⟩ := h2 (le_antisymm (by linarith) h1)
    rw [h6] at h4 h3 heq ⊢
    obtain ⟨h7, h8⟩ := h4 heq
    refine ⟨fun e' he' => ?_, h8⟩
    rcases List.mem_cons.1 he' with rfl | he'
    · exact h5
    · exact h7 e' he'

omit [Fintype E] in
theorem univ_stays (l : List E) : l.foldl (fun A e => post K e A) Finset.univ = Finset.univ := by
  have h1 := (F.height_sweep l Finset.univ).1
  have h2 := F.height_mono (Finset.subset_univ (l.foldl (fun A e => post K e A) Finset.univ))
  exact ((F.height_sweep l Finset.univ).2 (le_antisymm h2 h1)).2

omit [Fintype E] in
/-- enough sweeps reach all states -/
theorem sweeps_reach (Ls : List (List E)) (hall : ∀ l ∈ Ls, ∀ e, e ∈ l) (A : Finset S) (hA : A.Nonempty)
    (hlen : (Finset.univ.filter fun B : Finset S => height W A < height W B).card ≤ Ls.length) :
    Ls.flatten.foldl (fun A e => post K e A) A = Finset.univ := by
  induction Ls generalizing A with
  | nil =>
    have h0 : (Finset.univ.filter fun B : Finset S => height W A < height W B) = ∅ := by
      rw [← Finset.card_eq_zero]
      simpa using hlen
    by_contra hne
    have hlt := F.height_strict (lt_of_le_of_ne (Finset.subset_univ A) hne)
    have : Finset.univ ∈ (Finset.univ.filter fun B : Finset S => height W A < height W B) := by
      rw [Finset.mem_filter]; exact ⟨Finset.mem_univ _, hlt⟩
    rw [h0] at this
    simp at this
  | cons l Ls ih =>
    rw [List.flatten_cons, List.foldl_append]
    by_cases hU : A = Finset.univ
    · subst hU
      rw [F.univ_stays, F.univ_stays]
    · obtain ⟨h1, h2⟩ := F.height_sweep l A
      have hlt : height W A < height W (l.foldl (fun A e => post K e A) A) := by
        refine lt_of_le_of_ne h1 fun heq => hU ?_
        obtain ⟨h3, -⟩ := h2 heq.symm
        exact F.conn A hA fun e => h3 e (hall l (by simp) e)
      refine ih (fun l' hl' => hall l' (by simp [hl'])) _ ?_ ?_
      · by_contra hc
        rw [Finset.not_nonempty_iff_eq_empty] at hc
        rw [hc] at hlt
        have := F.height_mono (Finset.empty_subset A)
        linarith
      · have hss : (Finset.univ.filter fun B : Finset S => height W (l.foldl (fun A e => post K e A) A) < height W B) ⊂
            (Finset.univ.filter fun B : Finset S => height W A < height W B) := by
          rw [Finset.ssubset_iff_of_subset]
          · exact ⟨l.foldl (fun A e => post K e A) A, by rw [Finset.mem_filter]; exact ⟨Finset.mem_univ _, hlt⟩, by
              rw [Finset.mem_filter]; exact fun hc => lt_irrefl _ hc.2⟩
          · intro B hB
            rw [Finset.mem_filter] at hB ⊢
            exact ⟨hB.1, hlt.trans hB.2⟩
        have := Finset.card_lt_card hss
        rw [List.length_cons] at hlen
        omega

omit [Fintype E] in
/-- after `2 ^ |S|` sweeps every state has positive probability -/
theorem sweeps_pos (Ls : List (List E)) (hall : ∀ l ∈ Ls, ∀ e, e ∈ l) (hlen : Ls.length = Fintype.card (Finset S))
    (x y : S) : schedule K Ls.flatten x y ≠ 0 := by
  have h := F.sweeps_reach Ls hall {x} (Finset.singleton_nonempty x) (by
    rw [hlen]; exact Finset.card_le_univ _)
  have : y ∈ Ls.flatten.foldl (fun A e => post K e A) {x} := by rw [h]; exact Finset.mem_univ _
  rw [reach_iff] at this
  obtain ⟨x', hx', h'⟩ := this
  rw [Finset.mem_singleton] at hx'
  rwa [hx'] at h'

/-- uniformly in the orders -/
theorem sweeps_bound (n : Nat) : ∃ ε : ℝ, 0 < ε ∧ ε ≤ 1 ∧ ∀ (Ls : List (List E)), (∀ l ∈ Ls, ∀ e, e ∈ l) →
    (∀ l ∈ Ls, l.length = n) → Ls.length = Fintype.card (Finset S) →
    ∀ x y, ε ≤ (schedule K Ls.flatten x y).toReal := by
  classical
  have hfin : {l : List E | l.length = Fintype.card (Finset S) * n}.Finite := List.finite_length_eq _ _
  have hpos : ∀ v ∈ (hfin.toFinset ×ˢ (Finset.univ : Finset (S × S))).image
      (fun p => (schedule K p.1 p.2.1 p.2.2).toReal) |>.filter (0 < ·), 0 < v := by
    intro v hv
    exact (Finset.mem_filter.1 hv).2
  obtain ⟨V, hV⟩ : ∃ V : Finset ℝ, V = ((hfin.toFinset ×ˢ (Finset.univ : Finset (S × S))).image
      (fun p => (schedule K p.1 p.2.1 p.2.2).toReal)).filter (0 < ·) := ⟨_, rfl⟩
  rw [← hV] at hpos
  refine ⟨(insert 1 V).min' (Finset.insert_nonempty _ _), ?_, Finset.min'_le _ _ (Finset.mem_insert_self _ _), ?_⟩
  · rw [Finset.lt_min'_iff]
    intro v hv
    rcases Finset.mem_insert.1 hv with rfl | hv
    · exact one_pos
    · exact hpos v hv
  · intro Ls h1 h2 h3 x y
    refine Finset.min'_le _ _ (Finset.mem_insert_of_mem ?_)
    rw [hV, Finset.mem_filter, Finset.mem_image]
    have hne := F.sweeps_pos Ls h1 h3 x y
    have htop : schedule K Ls.flatten x y ≠ ⊤ := by
      have := schedule_stoch F.stoch Ls.flatten x
      have hle : schedule K Ls.flatten x y ≤ 1 := by
        rw [← this]
        exact Finset.single_le_sum (f := fun y => schedule K Ls.flatten x y) (fun _ _ => bot_le) (Finset.mem_univ y)
      exact ne_top_of_le_ne_top ENNReal.one_ne_top hle
    refine ⟨⟨(Ls.flatten, (x, y)), ?_, rfl⟩, ENNReal.toReal_pos hne htop⟩
    rw [Finset.mem_product]
    refine ⟨?_, Finset.mem_univ _⟩
    rw [Set.Finite.mem_toFinset, Set.mem_ofPred_eq, List.length_flatten, ← h3]
    have : Ls.map List.length = List.replicate Ls.length n := by
      rw [List.eq_replicate_iff]
      refine ⟨by simp, fun v hv => ?_⟩
      obtain ⟨l, hl, rfl⟩ := List.mem_map.1 hv
      exact h2 l hl
    rw [this, List.sum_replicate, smul_eq_mul]

/-- and converge to the stationary distribution -/
theorem converges (n : Nat) :
    ∃ ε : ℝ, 0 < ε ∧ ε ≤ 1 ∧ ∀ (Ls : List (List E)), (∀ l ∈ Ls, ∀ e, e ∈ l) → (∀ l ∈ Ls, l.length = n) →
      (∀ z, ∑ x, ENNReal.ofReal (W x) * schedule K Ls.flatten x z = ENNReal.ofReal (W z)) →
      ∀ x z, |(schedule K Ls.flatten x z).toReal - W z / ∑ y, W y| ≤ (1 - ε) ^ (Ls.length / Fintype.card (Finset S)) := by
  obtain ⟨ε, h0, h1, hε⟩ := F.sweeps_bound n
  refine ⟨ε, h0, h1, fun Ls hall hlen hinv x z => ?_⟩
  obtain ⟨a, b, hab, hq⟩ := contract F.stoch (fun l => (∀ e, e ∈ l) ∧ l.length = n) (Fintype.card (Finset S)) h0 h1
    (fun Ls hg hl => hε Ls (fun l h => (hg l h).1) (fun l h => (hg l h).2) hl) z (Ls.length / Fintype.card (Finset S)) Ls
    (fun l h => ⟨hall l h, hlen l h⟩) (Nat.div_mul_le_self _ _)
  exact contract_limit F.stoch F.pos _ hinv x z hab hq

end

end Flips

end

end LFM

import Mathlib.Algebra.BigOperators.Fin
import Mathlib.Algebra.Order.BigOperators.Ring.Finset
import Verif.Model.Relevance
import Verif.Lemmas.MaxMachine

/-!
# Property C85: relevance of the latent dimensions of a MAX-AND layer
-/

namespace LFM

open Spec

/-- Specification: the ones of the data that dimension `l` accounts for: it is active there, and no dimension with a larger
parameter is -/
def Spec.Explains (x z u : Nat → Nat → Int) (alpha : Nat → ℝ) (L l n d : Nat) : Prop :=
  x n d = 1 ∧ z n l = 1 ∧ u d l = 1 ∧ ∀ l' < L, alpha l < alpha l' → ¬ (z n l' = 1 ∧ u d l' = 1)

open Classical in
/-- number of ones of the data -/
noncomputable def Spec.onesOf (N D : Nat) (x : Nat → Nat → Int) : Nat :=
  (Finset.univ.filter fun c : Fin N × Fin D => x c.1 c.2 = 1).card

open Classical in
/-- number of ones of the data that dimension `l` accounts for -/
noncomputable def Spec.explained (N D : Nat) (x z u : Nat → Nat → Int) (alpha : Nat → ℝ) (L l : Nat) : Nat :=
  (Finset.univ.filter fun c : Fin N × Fin D => Explains x z u alpha L l c.1 c.2).card

/-- sample `t` of a trace -/
def Spec.at' {α : Type} [Inhabited α] (tr : List (Arr α)) (t : Nat) : Arr α := tr.getD t (Arr.full [] default)

theorem foldl_or {α : Type} (xs : List α) (c : α → Prop) [DecidablePred c] (p : α → Bool) (b : Bool) :
    xs.foldl (fun alt a => if c a then alt || p a else alt) b = (b || xs.any fun a => decide (c a) && p a) := by
  induction xs generalizing b with
  | nil => simp
  | cons x xs ih =>
    rw [List.foldl_cons, ih, List.any_cons]
    by_cases h : c x <;> simp [h, Bool.or_assoc]

theorem relTerm_eq (x z u : Arr Int) (alpha : Arr ℝ) (L l : Nat) :
    relTerm x z u alpha L l = alpha [l] * (explained (x.dim 0) (x.dim 1) (fun n d => x [n, d]) (fun n l => z [n, l])
      (fun d l => u [d, l]) (fun l => alpha [l]) L l : ℝ) := by
  classical
  rw [relTerm, explained]
  rw [countCells_eq (N := x.dim 0) (D := x.dim 1) _ (fun c => Explains (fun n d => x [n, d]) (fun n l => z [n, l])
    (fun d l => u [d, l]) (fun l => alpha [l]) L l c.1 c.2)]
  · push_cast
    congr!
  · intro c
    rw [relAlt, foldl_or]
    simp only [relPred, Bool.false_or, Bool.and_eq_true, Bool.not_eq_true', decide_eq_true_eq, List.any_eq_false,
      List.mem_range, gt_iff_lt, Explains]
    constructor
    · rintro ⟨⟨⟨h1, h2⟩, h3⟩, h4⟩
      exact ⟨h4, h1, h2, fun l' hl' ha hb => h3 l' hl' ⟨ha, hb⟩⟩
    · rintro ⟨h4, h1, h2, h3⟩
      exact ⟨⟨⟨h1, h2⟩, fun l' hl' h => h3 l' hl' h.1 h.2⟩, h4⟩

theorem set1_get (e : Arr ℝ) (k l : Nat) (v : ℝ) : (e.set [k] v) [l] = if l = k then v else e [l] := by
  simp [Arr.set]

theorem addFold (g : Nat → ℝ) (e : Arr ℝ) (k : Nat) :
    ((List.range k).foldl (fun (e : Arr ℝ) l => e.set [l] (e [l] + g l)) e).shape = e.shape ∧
    ∀ l, ((List.range k).foldl (fun (e : Arr ℝ) l => e.set [l] (e [l] + g l)) e) [l] = if l < k then e [l] + g l else e [l] := by
  induction k with
  | zero => simp
  | succ k ih =>
    rw [List.range_succ, List.foldl_append]
    obtain ⟨h1, h2⟩ := ih
    refine ⟨h1, fun l => ?_⟩
    simp only [List.foldl_cons, List.foldl_nil]
    rw [set1_get]
    by_cases h : l = k
    · subst h; rw [if_pos rfl, h2]; simp
    · rw [if_neg h, h2]
      have : l < k + 1 ↔ l < k := by omega
      simp [this]

theorem relSample_get (x z u : Arr Int) (alpha : Arr ℝ) (L : Nat) (e : Arr ℝ) :
    (relSample x z u alpha L (L + 1) e).shape = e.shape ∧
    (∀ l < L, relSample x z u alpha L (L + 1) e [l] = e [l] + relTerm x z u alpha L l) ∧
    relSample x z u alpha L (L + 1) e [L] = e [L] + alpha [L] := by
  obtain ⟨h1, h2⟩ := addFold (relTerm x z u alpha L) e L
  rw [relSample]
  refine ⟨h1, fun l hl => ?_, ?_⟩
  · rw [set1_get, Nat.add_sub_cancel, if_neg hl.ne, h2, if_pos hl]
  · rw [set1_get, Nat.add_sub_cancel, if_pos rfl, h2, if_neg (lt_irrefl _)]

theorem relFold (x : Arr Int) (z u : Nat → Arr Int) (a : Nat → Arr ℝ) (L S : Nat) :
    let e := (List.range S).foldl (fun (e : Arr ℝ) t => relSample x (z t) (u t) (a t) L (L + 1) e) (Arr.full [L + 1] 0)
    e.shape = [L + 1] ∧ (∀ l < L, e [l] = ∑ t ∈ Finset.range S, relTerm x (z t) (u t) (a t) L l) ∧
      e [L] = ∑ t ∈ Finset.range S, a t [L] := by
  induction S with
  | zero => exact ⟨rfl, fun _ _ => rfl, rfl⟩
  | succ S ih =>
    intro e
    obtain ⟨h1, h2, h3⟩ := ih
    obtain ⟨g1, g2, g3⟩ := relSample_get x (z S) (u S) (a S) L
      ((List.range S).foldl (fun (e : Arr ℝ) t => relSample x (z t) (u t) (a t) L (L + 1) e) (Arr.full [L + 1] 0))
    have he : e = relSample x (z S) (u S) (a S) L (L + 1)
      ((List.range S).foldl (fun (e : Arr ℝ) t => relSample x (z t) (u t) (a t) L (L + 1) e) (Arr.full [L + 1] 0)) := by
      simp only [e, List.range_succ, List.foldl_append, List.foldl_cons, List.foldl_nil]
    rw [he]
    refine ⟨g1.trans h1, fun l hl => ?_, ?_⟩
    · rw [g2 l hl, h2 l hl, Finset.sum_range_succ]
    · rw [g3, h3, Finset.sum_range_succ]

/-- Specification: relevance of dimension `l`: average over the samples of the fraction of ones it accounts for, times its
parameter -/
noncomputable def Spec.relevance (N D S L : Nat) (x : Nat → Nat → Int) (z u : Nat → Nat → Nat → Int) (alpha : Nat → Nat → ℝ)
    (l : Nat) : ℝ :=
  (∑ t ∈ Finset.range S, alpha t l * (explained N D x (z t) (u t) (alpha t) L l / onesOf N D x)) / S

/-- **C85** (`_partial`: the attribute has to be set to `None` by hand, `C85_wrong`; the entry of the clamped unit is its
average parameter over the number of ones, not a fraction of ones). The relevance of a dimension is the average over the
samples of the fraction of the ones of the data that it accounts for, times its parameter. -/
theorem C85_relevance_partial (s : RLayer) (a : List (Arr ℝ)) (z u : List (Arr Int)) (N D L S : Nat)
    (he : s.eigenvals = some none) (ha : s.lbdaTrace = some a) (hz : s.zTrace = some z) (hu : s.uTrace = some u)
    (hx : s.child.shape = [N, D]) (hL : s.L = L) (hn : s.nLbda = L + 1) (hS : u.length = S) (hpos : 0 < S)
    (hones : 0 < onesOf N D fun n d => s.child [n, d]) :
    ∃ e, maxmachine_relevance s "mcmc" = .ok (e, { s with eigenvals := some (some e) }) ∧ e.shape = [L + 1] ∧
      (∀ l < L, e [l] = .fin (relevance N D S L (fun n d => s.child [n, d]) (fun t n l => at' z t [n, l])
        (fun t d l => at' u t [d, l]) (fun t l => at' a t [l]) l)) ∧
      e [L] = .fin ((∑ t ∈ Finset.range S, at' a t [L]) / (S * (onesOf N D fun n d => s.child [n, d] : ℝ))) := by
  classical
  obtain ⟨h1, h2, h3⟩ := relFold s.child (fun t => z.getD t (Arr.full [] 0)) (fun t => u.getD t (Arr.full [] 0))
    (fun t => a.getD t (Arr.full [] 0)) L S
  have d0 : s.child.dim 0 = N := by simp [Arr.dim, hx]
  have d1 : s.child.dim 1 = D := by simp [Arr.dim, hx]
  have hc : countCells (s.child.dim 0) (s.child.dim 1) (fun n d => decide (s.child [n, d] = 1)) =
      (onesOf N D fun n d => s.child [n, d] : ℕ) := by
    rw [d0, d1, countCells_eq (N := N) (D := D) _ fun c => s.child [c.1, c.2] = 1]
    · rw [onesOf]
    · intro c; simp
  have hne : ((S : ℝ) * ((onesOf N D fun n d => s.child [n, d] : ℕ) : ℝ)) ≠ 0 := by
    have : (0 : ℝ) < S := by exact_mod_cast hpos
    have : (0 : ℝ) < ((onesOf N D fun n d => s.child [n, d] : ℕ) : ℝ) := by exact_mod_cast hones
    positivity
  rw [maxmachine_relevance, he, ha, hz, hu]
  simp only [hL, hn, hS, hc]
  rw [if_neg (by decide)]
  simp only [if_true]
  refine ⟨_, rfl, h1, fun l hl => ?_, ?_⟩
  · show npDiv _ _ = _
    simp only [Int.cast_natCast, npDiv, if_neg hne]
    rw [h2 l hl]
    simp only [relTerm_eq, d0, d1, relevance]
    congr 1
    rw [mul_comm (S : ℝ), ← div_div]
    congr 1
    rw [Finset.sum_div]
    refine Finset.sum_congr rfl fun t _ => ?_
    rw [mul_div_assoc]
    rfl
  · show npDiv _ _ = _
    simp only [Int.cast_natCast, npDiv, if_neg hne]
    rw [h3]
    rfl

/-- **C85**: if the parameters of the dimensions are probabilities and differ from each other in every sample, relevances
are fractions of the ones: non-negative, with sum at most 1. -/
theorem C85_fractions (N D S L : Nat) (x : Nat → Nat → Int) (z u : Nat → Nat → Nat → Int) (alpha : Nat → Nat → ℝ)
    (hpos : 0 < S) (hones : 0 < onesOf N D x) (ha : ∀ t < S, ∀ l < L, 0 ≤ alpha t l ∧ alpha t l ≤ 1)
    (hd : ∀ t < S, ∀ l < L, ∀ l' < L, l ≠ l' → alpha t l ≠ alpha t l') :
    (∀ l < L, 0 ≤ relevance N D S L x z u alpha l) ∧ ∑ l ∈ Finset.range L, relevance N D S L x z u alpha l ≤ 1 := by
  classical
  have hS : (0 : ℝ) < S := by exact_mod_cast hpos
  have hO : (0 : ℝ) < onesOf N D x := by exact_mod_cast hones
  refine ⟨fun l hl => ?_, ?_⟩
  · rw [relevance]
    refine div_nonneg (Finset.sum_nonneg fun t ht => mul_nonneg (ha t (Finset.mem_range.mp ht) l hl).1 ?_) hS.le
    positivity
  · simp only [relevance]
    rw [← Finset.sum_div, Finset.sum_comm, div_le_one hS]
    refine (Finset.sum_le_card_nsmul _ _ 1 fun t ht => ?_).trans (by simp)
    have ht := Finset.mem_range.mp ht
    have h1 : ∑ l ∈ Finset.range L, alpha t l * (explained N D x (z t) (u t) (alpha t) L l / (onesOf N D x : ℝ)) ≤
        ∑ l ∈ Finset.range L, (explained N D x (z t) (u t) (alpha t) L l : ℝ) / onesOf N D x := by
      refine Finset.sum_le_sum fun l hl => ?_
      exact mul_le_of_le_one_left (by positivity) (ha t ht l (Finset.mem_range.mp hl)).2
    refine h1.trans ?_
    rw [← Finset.sum_div, div_le_one hO]
    have h2 : ∑ l ∈ Finset.range L, explained N D x (z t) (u t) (alpha t) L l ≤ onesOf N D x := by
      simp only [explained, onesOf]
      rw [← Finset.card_biUnion]
      · refine Finset.card_le_card fun c hc => ?_
        rw [Finset.mem_biUnion] at hc
        obtain ⟨l, _, hc⟩ := hc
        rw [Finset.mem_filter] at hc ⊢
        exact ⟨Finset.mem_univ _, hc.2.1⟩
      · intro l hl l' hl' hne
        rw [Function.onFun, Finset.disjoint_left]
        intro c hc hc'
        rw [Finset.mem_filter] at hc hc'
        have hl := Finset.mem_range.mp hl
        have hl' := Finset.mem_range.mp hl'
        rcases lt_trichotomy (alpha t l) (alpha t l') with h | h | h
        · exact hc.2.2.2.2 l' hl' h ⟨hc'.2.2.1, hc'.2.2.2.1⟩
        · exact hd t ht l hl l' hl' hne h
        · exact hc'.2.2.2.2 l hl h ⟨hc.2.2.1, hc.2.2.2.1⟩
    exact_mod_cast h2

/-- **C85** (what goes wrong): with equal parameters the ones are counted several times: a single cell with two equal
dimensions has relevances that sum to 8/5 -/
theorem C85_ties_wrong : ∑ l ∈ Finset.range 2, relevance 1 1 1 2 (fun _ _ => 1) (fun _ _ _ => 1) (fun _ _ _ => 1)
    (fun _ _ => 4 / 5) l = 8 / 5 := by
  classical
  have h1 : ∀ l, explained 1 1 (fun _ _ => 1) (fun _ _ => 1) (fun _ _ => 1) (fun _ => (4 / 5 : ℝ)) 2 l = 1 := by
    intro l
    rw [explained, Finset.filter_true_of_mem]
    · simp
    · intro c _
      exact ⟨rfl, rfl, rfl, fun l' _ h => absurd h (lt_irrefl _)⟩
  have h2 : onesOf 1 1 (fun _ _ => 1) = 1 := by simp [onesOf]
  simp only [relevance, Finset.sum_range_succ, Finset.sum_range_zero, h1, h2]
  norm_num

/-- **C85** (what goes wrong): a layer as constructed has no attribute `eigenvals`: whatever its state, the call raises
AttributeError; `'plugin'` raises TypeError even if the attribute has been set; and once computed, the relevances stay
the same whatever is sampled afterwards. -/
theorem C85_wrong (s : RLayer) (model_type : String) :
    (s.eigenvals = none → maxmachine_relevance s model_type = .error .attributeError) ∧
    (s.eigenvals = some none → maxmachine_relevance s "plugin" = .error .typingError) ∧
    ∀ e, s.eigenvals = some (some e) → ∀ a z u x, maxmachine_relevance { s with lbdaTrace := a, zTrace := z, uTrace := u, child := x }
      model_type = .ok (e, { s with lbdaTrace := a, zTrace := z, uTrace := u, child := x }) := by
  refine ⟨fun h => ?_, fun h => ?_, fun e h a z u x => ?_⟩
  · rw [maxmachine_relevance, h]
  · rw [maxmachine_relevance, h]; simp
  · rw [maxmachine_relevance]; simp [h]

/-- the hypotheses of `C85_relevance_partial` and `C85_fractions` are met -/
theorem C85_hypotheses_met : ∃ s : RLayer, ∃ a z u, s.eigenvals = some none ∧ s.lbdaTrace = some a ∧ s.zTrace = some z ∧
    s.uTrace = some u ∧ s.child.shape = [1, 1] ∧ s.L = 2 ∧ s.nLbda = 2 + 1 ∧ u.length = 1 ∧
    0 < onesOf 1 1 (fun n d => s.child [n, d]) ∧
    (∀ t < 1, ∀ l < 2, 0 ≤ at' a t [l] ∧ at' a t [l] ≤ 1) ∧
    ∀ t < 1, ∀ l < 2, ∀ l' < 2, l ≠ l' → at' a t [l] ≠ at' a t [l'] := by
  classical
  refine ⟨⟨some none, some [Arr.vec [1/2, 3/4, 1/100] 0], some [Arr.full [1, 2] 1], some [Arr.full [1, 2] 1],
    Arr.full [1, 1] 1, 3, 2⟩, _, _, _, rfl, rfl, rfl, rfl, rfl, rfl, rfl, rfl, ?_, ?_, ?_⟩
  · simp [onesOf, Arr.full]
  · intro t ht l hl
    interval_cases t
    interval_cases l <;> simp [at', Arr.vec] <;> norm_num
  · intro t ht l hl l' hl' hne
    interval_cases t
    interval_cases l <;> interval_cases l' <;> simp [at', Arr.vec] at hne ⊢ <;> norm_num

end LFM

import Verif.Spec.Prob
import Mathlib.Tactic.Ring
import Mathlib.Algebra.Order.BigOperators.Ring.Finset
import Mathlib.Tactic.Linarith

/-! Probabilities of the six operators on independent bits, and of their composition. -/

namespace LFM

open Spec Classical

variable {ι : Type} [Fintype ι]

theorem bern_total (p : ι → ℝ) : ∑ b : ι → Bool, (∏ i, if b i then p i else 1 - p i) = 1 := by
  have h := Finset.prod_univ_sum (fun _ : ι => (Finset.univ : Finset Bool))
    (fun i b => if b then p i else 1 - p i)
  rw [Fintype.piFinset_univ] at h
  rw [← h]
  simp

theorem bernProb_congr {p : ι → ℝ} {P Q : (ι → Prop) → Prop} (h : ∀ b, P b ↔ Q b) :
    bernProb p P = bernProb p Q := by
  unfold bernProb
  simp only [h]

theorem bernProb_not (p : ι → ℝ) (P : (ι → Prop) → Prop) :
    bernProb p (fun b => ¬ P b) = 1 - bernProb p P := by
  unfold bernProb
  refine eq_sub_of_add_eq ?_
  rw [← Finset.sum_add_distrib]
  refine Eq.trans (Finset.sum_congr rfl fun b _ => ?_) (bern_total p)
  by_cases h : P fun i => b i = true <;> simp [h]

theorem bernProb_AND (p : ι → ℝ) : bernProb p (LOp.Holds .AND) = ∏ i, p i := by
  unfold bernProb
  rw [Finset.sum_eq_single (fun _ => true)]
  · simp [LOp.Holds]
  · intro b _ hb
    have : ¬ LOp.Holds .AND (fun i => b i = true) := fun h => hb (funext h)
    simp [this]
  · simp

theorem bernProb_NAND (p : ι → ℝ) : bernProb p (LOp.Holds .NAND) = 1 - ∏ i, p i := by
  rw [← bernProb_AND, ← bernProb_not]
  exact bernProb_congr fun b => Iff.rfl

theorem bernProb_NOR (p : ι → ℝ) : bernProb p (LOp.Holds .NOR) = ∏ i, (1 - p i) := by
  unfold bernProb
  rw [Finset.sum_eq_single (fun _ => false)]
  · simp [LOp.Holds]
  · intro b _ hb
    have : ¬ LOp.Holds .NOR (fun i => b i = true) := by
      intro h
      apply hb
      funext i
      by_contra hc
      exact h ⟨i, by simpa using hc⟩
    simp [this]
  · simp

theorem bernProb_OR (p : ι → ℝ) : bernProb p (LOp.Holds .OR) = 1 - ∏ i, (1 - p i) := by
  rw [← bernProb_NOR, ← bernProb_not]
  exact bernProb_congr fun b => not_not.symm

theorem bernProb_XOR (p : ι → ℝ) : bernProb p (LOp.Holds .XOR) =
    ∑ j, p j * ∏ i ∈ Finset.univ.erase j, (1 - p i) := by
  have hind : ∀ b : ι → Bool, (if LOp.Holds .XOR (fun i => b i = true) then (1 : ℝ) else 0) =
      ∑ j, if b = (fun i => decide (i = j)) then 1 else 0 := by
    intro b
    by_cases h : LOp.Holds .XOR (fun i => b i = true)
    · rw [if_pos h]
      obtain ⟨j, hj, hu⟩ := h
      rw [Finset.sum_eq_single j]
      · rw [if_pos]
        funext i
        by_cases hi : i = j
        · subst hi; simpa using hj
        · have : b i ≠ true := fun hb => hi (hu i hb)
          simpa [hi] using this
      · intro j' _ hj'
        rw [if_neg]
        intro hb
        have : b j' = true := by rw [hb]; simp
        exact hj' (hu j' this)
      · simp
    · rw [if_neg h, Finset.sum_eq_zero]
      intro j _
      rw [if_neg]
      rintro rfl
      exact h ⟨j, by simp, fun i hi => by simpa using hi⟩
  unfold bernProb
  simp only [hind, Finset.mul_sum]
  rw [Finset.sum_comm]
  refine Finset.sum_congr rfl fun j _ => ?_
  rw [Finset.sum_eq_single (fun i => decide (i = j))]
  · rw [if_pos rfl, mul_one, ← Finset.mul_prod_erase _ _ (Finset.mem_univ j)]
    congr 1
    · simp
    · refine Finset.prod_congr rfl fun i hi => ?_
      simp [Finset.ne_of_mem_erase hi]
  · intro b _ hb
    rw [if_neg hb, mul_zero]
  · simp

theorem bernProb_NXOR (p : ι → ℝ) : bernProb p (LOp.Holds .NXOR) =
    1 - ∑ j, p j * ∏ i ∈ Finset.univ.erase j, (1 - p i) := by
  rw [← bernProb_XOR, ← bernProb_not]
  exact bernProb_congr fun b => Iff.rfl

/-- the outer operator is applied to independent bits whose probabilities are those of the inner one -/
theorem bernProb_lom {κ : Type} [Fintype κ] (o i : LOp) (p : ι → κ → ℝ) :
    bernProb (fun i : ι × κ => p i.1 i.2) (fun b => lom o i fun l k => b (l, k)) =
      bernProb (fun l => bernProb (p l) i.Holds) o.Holds := by
  let W : ι → (κ → Bool) → ℝ := fun l y => ∏ k, if y k then p l k else 1 - p l k
  let β : (κ → Bool) → Bool := fun y => decide (i.Holds fun k => y k = true)
  have h1 : bernProb (fun i : ι × κ => p i.1 i.2) (fun b => lom o i fun l k => b (l, k)) =
      ∑ x : ι → κ → Bool, (∏ l, W l (x l)) *
      (if o.Holds fun l => β (x l) = true then (1 : ℝ) else 0) := by
    unfold bernProb
    refine Finset.sum_equiv (Equiv.curry ι κ Bool) (fun b => by simp only [Finset.mem_univ]) fun b _ => ?_
    congr 1
    · rw [Fintype.prod_prod_type]; rfl
    · simp only [lom, β, decide_eq_true_eq]; rfl
  have h2 : ∀ x : ι → κ → Bool, (if o.Holds fun l => β (x l) = true then (1 : ℝ) else 0) =
      ∑ b : ι → Bool, (∏ l, if β (x l) = b l then (1 : ℝ) else 0) *
        if o.Holds fun l => b l = true then 1 else 0 := by
    intro x
    rw [Finset.sum_eq_single (fun l => β (x l))]
    · simp
    · intro b _ hb
      have : ∃ l, ¬ β (x l) = b l := by
        by_contra hc
        push Not at hc
        exact hb (funext fun l => (hc l).symm)
      obtain ⟨l, hl⟩ := this
      rw [Finset.prod_eq_zero (Finset.mem_univ l) (if_neg hl), zero_mul]
    · simp
  rw [h1]
  simp only [h2, Finset.mul_sum]
  rw [Finset.sum_comm]
  unfold bernProb
  refine Finset.sum_congr rfl fun b _ => ?_
  have h3 : ∀ x : ι → κ → Bool, (∏ l, W l (x l)) *
      ((∏ l, if β (x l) = b l then (1 : ℝ) else 0) * if o.Holds fun l => b l = true then 1 else 0) =
      (∏ l, W l (x l) * if β (x l) = b l then (1 : ℝ) else 0) *
        if o.Holds fun l => b l = true then 1 else 0 := by
    intro x
    rw [Finset.prod_mul_distrib, mul_assoc]
  simp only [h3]
  rw [← Finset.sum_mul]
  congr 1
  have h4 := Finset.prod_univ_sum (fun _ : ι => (Finset.univ : Finset (κ → Bool)))
    (fun l y => W l y * if β y = b l then (1 : ℝ) else 0)
  rw [Fintype.piFinset_univ] at h4
  rw [← h4]
  refine Finset.prod_congr rfl fun l _ => ?_
  cases hb : b l with
  | true =>
    simp only [if_true]
    refine Finset.sum_congr rfl fun y _ => ?_
    simp only [β, decide_eq_true_eq, W]
  | false =>
    rw [if_neg (by simp)]
    refine eq_sub_of_add_eq ?_
    rw [← Finset.sum_add_distrib]
    refine Eq.trans (Finset.sum_congr rfl fun y _ => ?_) (bern_total (p l))
    by_cases h : i.Holds fun k => y k = true <;> simp [β, h, W]

theorem lomProb_eq {L K : Nat} (o i : LOp) (p : Fin L → Fin K → ℝ) :
    lomProb o i p = bernProb (fun l => bernProb (p l) i.Holds) o.Holds := bernProb_lom o i p

theorem bernProb_mem {p : ι → ℝ} (hp : ∀ i, 0 ≤ p i ∧ p i ≤ 1) (P : (ι → Prop) → Prop) :
    0 ≤ bernProb p P ∧ bernProb p P ≤ 1 := by
  have hnn : ∀ P : (ι → Prop) → Prop, 0 ≤ bernProb p P := by
    intro P
    unfold bernProb
    refine Finset.sum_nonneg fun b _ => mul_nonneg (Finset.prod_nonneg fun i _ => ?_) ?_
    · split
      · exact (hp i).1
      · linarith [(hp i).2]
    · split <;> norm_num
  refine ⟨hnn P, ?_⟩
  have := hnn fun b => ¬ P b
  rw [bernProb_not] at this
  linarith

/-- if the bits are known, the probability is 0 or 1 -/
theorem bernProb_crisp (x : ι → Prop) (P : (ι → Prop) → Prop) :
    bernProb (fun i => if x i then 1 else 0) P = if P x then 1 else 0 := by
  unfold bernProb
  rw [Finset.sum_eq_single (fun i => decide (x i))]
  · have h1 : ∀ i, (if decide (x i) = true then (if x i then (1 : ℝ) else 0)
        else 1 - if x i then (1 : ℝ) else 0) = 1 := by
      intro i; by_cases h : x i <;> simp [h]
    simp only [h1]
    simp
  · intro b _ hb
    have : ∃ i, ¬ b i = decide (x i) := by
      by_contra hc
      push Not at hc
      exact hb (funext hc)
    obtain ⟨i, hi⟩ := this
    rw [Finset.prod_eq_zero (Finset.mem_univ i), zero_mul]
    by_cases h : x i <;> cases h' : b i <;> simp_all
  · simp

end LFM

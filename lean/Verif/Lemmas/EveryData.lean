import Verif.Lemmas.OddData
import Verif.Props.Clans
import Verif.Props.GetsStuck

/-! Factors whose rows are all equal, and which predict the same value in every cell, also with all signs changed. -/

namespace LFM

open Spec

theorem outer_single {op : LOp} (h : op = .OR ∨ op = .XOR) {L : Nat} {t : Fin L → Prop} (i : Fin L) (ht : ∀ l, t l ↔ l = i) :
    op.Holds t := by
  rcases h with rfl | rfl
  · exact ⟨i, (ht i).mpr rfl⟩
  · exact ⟨i, (ht i).mpr rfl, fun l hl => (ht l).mp hl⟩

theorem outer_none {op : LOp} (h : op = .OR ∨ op = .XOR) {L : Nat} {t : Fin L → Prop} (ht : ∀ l, ¬ t l) : ¬ op.Holds t := by
  rcases h with rfl | rfl
  · rintro ⟨i, hi⟩; exact ht i hi
  · rintro ⟨i, hi, -⟩; exact ht i hi

theorem sgn_flip (b : Bool) {σ : Int} (hσ : IsPM σ) : σ * sgn b = 1 ↔ (b == decide (σ = 1)) = true := by
  rcases hσ with rfl | rfl <;> cases b <;> simp [sgn]

/-- inner operator on two entries with sign `σ` -/
theorem inner2 (op : LOp) {σ : Int} (hσ : IsPM σ) (a b : Bool) :
    (op.Holds fun k : Fin 2 => ![σ * sgn a, σ * sgn b] k = 1) ↔
      holds2 op (a == decide (σ = 1)) (b == decide (σ = 1)) = true := by
  classical
  rw [holds2_iff]
  have e1 : ∀ i : Decidable (![σ * sgn a, σ * sgn b] 0 = 1), @decide _ i = (a == decide (σ = 1)) := by
    intro i
    rw [Bool.eq_iff_iff, decide_eq_true_eq]; exact sgn_flip a hσ
  have e2 : ∀ i : Decidable (![σ * sgn a, σ * sgn b] 1 = 1), @decide _ i = (b == decide (σ = 1)) := by
    intro i
    rw [Bool.eq_iff_iff, decide_eq_true_eq]; exact sgn_flip b hσ
  rw [e1, e2]

theorem inner3 (op : LOp) {σ : Int} (hσ : IsPM σ) (a b c : Bool) :
    (op.Holds fun k : Fin 3 => ![σ * sgn a, σ * sgn b, σ * sgn c] k = 1) ↔
      LOp.eval3 op (a == decide (σ = 1)) (b == decide (σ = 1)) (c == decide (σ = 1)) = true := by
  have := LOp.eval3_iff op ![a == decide (σ = 1), b == decide (σ = 1), c == decide (σ = 1)]
  rw [show (![a == decide (σ = 1), b == decide (σ = 1), c == decide (σ = 1)] 0) = (a == decide (σ = 1)) from rfl,
    show (![a == decide (σ = 1), b == decide (σ = 1), c == decide (σ = 1)] 1) = (b == decide (σ = 1)) from rfl,
    show (![a == decide (σ = 1), b == decide (σ = 1), c == decide (σ = 1)] 2) = (c == decide (σ = 1)) from rfl] at this
  rw [this]
  have : (fun k : Fin 3 => ![σ * sgn a, σ * sgn b, σ * sgn c] k = 1) =
      fun k : Fin 3 => ![a == decide (σ = 1), b == decide (σ = 1), c == decide (σ = 1)] k = true := by
    funext k
    apply propext
    fin_cases k
    · exact sgn_flip a hσ
    · exact sgn_flip b hσ
    · exact sgn_flip c hσ
  rw [this]

theorem pm_true {P : Prop} (h : P) : pm P = 1 := by simp [pm, h]
theorem pm_false {P : Prop} (h : ¬ P) : pm P = -1 := by simp [pm, h]

namespace Spec

/-- two rows from which a model predicts `v`, whichever sign both rows have -/
def BothGive2 (lom : Lom8) (L : Nat) (a b : Nat → Bool) (v : Int) : Prop :=
  ∀ σ : Int, IsPM σ → pred2 lom L (fun l => σ * sgn (a l)) (fun l => σ * sgn (b l)) = v

/-- three rows from which a model predicts `v`, whichever sign all rows have -/
def BothGive3 (lom : Lom8) (L : Nat) (a b c : Nat → Bool) (v : Int) : Prop :=
  ∀ σ : Int, IsPM σ → pred3 lom L (fun l => σ * sgn (a l)) (fun l => σ * sgn (b l)) (fun l => σ * sgn (c l)) = v

end Spec

/-- two factors -/
theorem bothGive2 (lom : Lom8) (hlom : lom ≠ .OR_NAND ∧ lom ≠ .XOR_NAND) {L : Nat} (hL : 2 ≤ L) {v : Int} (hv : IsPM v) :
    ∃ a b : Nat → Bool, BothGive2 lom L a b v := by
  have i0 : Fin L := ⟨0, by omega⟩
  have one : ∀ (lom : Lom8) (a b : Nat → Bool), (lom.outer = .OR ∨ lom.outer = .XOR) →
      (∀ σ : Int, IsPM σ → ∃ i : Fin L, ∀ l : Fin L,
        holds2 lom.inner (a l == decide (σ = 1)) (b l == decide (σ = 1)) = true ↔ l = i) → BothGive2 lom L a b 1 := by
    intro lom a b ho h σ hσ
    obtain ⟨i, hi⟩ := h σ hσ
    exact pm_true (outer_single ho i fun l => (inner2 _ hσ _ _).trans (hi l))
  have none : ∀ (lom : Lom8) (a b : Nat → Bool), (lom.outer = .OR ∨ lom.outer = .XOR) →
      (∀ σ : Int, IsPM σ → ∀ l : Fin L,
        holds2 lom.inner (a l == decide (σ = 1)) (b l == decide (σ = 1)) = false) → BothGive2 lom L a b (-1) := by
    intro lom a b ho h σ hσ
    refine pm_false (outer_none ho fun l => ?_)
    rw [inner2 _ hσ, h σ hσ l]
    simp
  have key : ∀ l : Fin L, ((l : Nat) = 0 ↔ l = (⟨0, by omega⟩ : Fin L)) ∧ ((l : Nat) = 1 ↔ l = (⟨1, by omega⟩ : Fin L)) := by
    intro l
    simp [Fin.ext_iff]
  have hand : ∀ lom : Lom8, lom.inner = .AND → (lom.outer = .OR ∨ lom.outer = .XOR) → ∃ a b, BothGive2 lom L a b v := by
    intro lom hi ho
    rcases hv with rfl | rfl
    · refine ⟨fun l => decide (l ≠ 1), fun l => decide (l = 0), one _ _ _ ho ?_⟩
      intro σ hσ
      rcases hσ with rfl | rfl
      · refine ⟨⟨0, by omega⟩, fun l => ?_⟩
        rw [hi, ← (key l).1]
        simp [holds2]
        omega
      · refine ⟨⟨1, by omega⟩, fun l => ?_⟩
        rw [hi, ← (key l).2]
        simp [holds2]
        omega
    · refine ⟨fun _ => true, fun _ => false, none _ _ _ ho ?_⟩
      intro σ hσ l
      rw [hi]
      rcases hσ with rfl | rfl <;> simp [holds2]
  have hxor : ∀ lom : Lom8, (lom.inner = .XOR ∨ lom.inner = .NXOR) → (lom.outer = .OR ∨ lom.outer = .XOR) →
      ∃ a b, BothGive2 lom L a b v := by
    intro lom hi ho
    rcases hv with rfl | rfl
    · refine ⟨fun _ => true, fun l => decide (l = 0) == decide (lom.inner = .NXOR), one _ _ _ ho ?_⟩
      intro σ hσ
      refine ⟨⟨0, by omega⟩, fun l => ?_⟩
      rw [← (key l).1]
      rcases hi with hi | hi <;> rw [hi] <;> rcases hσ with rfl | rfl <;> by_cases h : (l : Nat) = 0 <;> simp [holds2, h]
    · refine ⟨fun _ => true, fun _ => decide (lom.inner = .XOR), none _ _ _ ho ?_⟩
      intro σ hσ l
      rcases hi with hi | hi <;> rw [hi] <;> rcases hσ with rfl | rfl <;> simp [holds2]
  cases lom
  · exact hand _ rfl (.inl rfl)
  · exact absurd rfl hlom.1
  · exact hxor _ (.inl rfl) (.inl rfl)
  · rcases hv with rfl | rfl
    · refine ⟨fun _ => true, fun _ => true, fun σ hσ => pm_true fun h => ?_⟩
      have := (inner2 .XOR hσ _ _).mp (h i0)
      simp [holds2] at this
    · refine ⟨fun _ => true, fun _ => false, fun σ hσ => pm_false fun h => h fun l => (inner2 .XOR hσ _ _).mpr ?_⟩
      rcases hσ with rfl | rfl <;> simp [holds2]
  · exact hand _ rfl (.inr rfl)
  · exact hxor _ (.inl rfl) (.inr rfl)
  · exact hxor _ (.inr rfl) (.inr rfl)
  · exact absurd rfl hlom.2

/-- three factors -/
theorem bothGive3 (lom : Lom8) (hlom : lom = .OR_AND ∨ lom = .XOR_AND ∨ lom = .OR_XOR ∨ lom = .XOR_XOR) {L : Nat} (hL : 2 ≤ L)
    {v : Int} (hv : IsPM v) : ∃ a b c : Nat → Bool, BothGive3 lom L a b c v := by
  have ho : lom.outer = .OR ∨ lom.outer = .XOR := by rcases hlom with rfl | rfl | rfl | rfl <;> simp [Lom8.outer]
  have one : ∀ a b c : Nat → Bool, (∀ σ : Int, IsPM σ → ∃ i : Fin L, ∀ l : Fin L,
        LOp.eval3 lom.inner (a l == decide (σ = 1)) (b l == decide (σ = 1)) (c l == decide (σ = 1)) = true ↔ l = i) →
      BothGive3 lom L a b c 1 := by
    intro a b c h σ hσ
    obtain ⟨i, hi⟩ := h σ hσ
    exact pm_true (outer_single ho i fun l => (inner3 _ hσ _ _ _).trans (hi l))
  have none : ∀ a b c : Nat → Bool, (∀ σ : Int, IsPM σ → ∀ l : Fin L,
        LOp.eval3 lom.inner (a l == decide (σ = 1)) (b l == decide (σ = 1)) (c l == decide (σ = 1)) = false) →
      BothGive3 lom L a b c (-1) := by
    intro a b c h σ hσ
    refine pm_false (outer_none ho fun l => ?_)
    rw [inner3 _ hσ, h σ hσ l]
    simp
  have key : ∀ l : Fin L, ((l : Nat) = 0 ↔ l = (⟨0, by omega⟩ : Fin L)) ∧ ((l : Nat) = 1 ↔ l = (⟨1, by omega⟩ : Fin L)) := by
    intro l
    simp [Fin.ext_iff]
  have hi : lom.inner = .AND ∨ lom.inner = .XOR := by rcases hlom with rfl | rfl | rfl | rfl <;> simp [Lom8.inner]
  rcases hi with hi | hi
  · rcases hv with rfl | rfl
    · refine ⟨fun l => decide (l ≠ 1), fun l => decide (l = 0), fun l => decide (l = 0), one _ _ _ ?_⟩
      intro σ hσ
      rcases hσ with rfl | rfl
      · refine ⟨⟨0, by omega⟩, fun l => ?_⟩
        rw [hi, ← (key l).1]
        simp [LOp.eval3]
        omega
      · refine ⟨⟨1, by omega⟩, fun l => ?_⟩
        rw [hi, ← (key l).2]
        simp [LOp.eval3]
        omega
    · refine ⟨fun _ => true, fun _ => false, fun _ => false, none _ _ _ ?_⟩
      intro σ hσ l
      rw [hi]
      rcases hσ with rfl | rfl <;> simp [LOp.eval3]
  · rcases hv with rfl | rfl
    · refine ⟨fun _ => true, fun l => decide (l ≠ 0), fun l => decide (l ≠ 0 ∧ l ≠ 1), one _ _ _ ?_⟩
      intro σ hσ
      rcases hσ with rfl | rfl
      · refine ⟨⟨0, by omega⟩, fun l => ?_⟩
        rw [hi, ← (key l).1]
        by_cases h0 : (l : Nat) = 0
        · simp [LOp.eval3, h0]
        · by_cases h1 : (l : Nat) = 1 <;> simp [LOp.eval3, h0, h1]
      · refine ⟨⟨1, by omega⟩, fun l => ?_⟩
        rw [hi, ← (key l).2]
        by_cases h0 : (l : Nat) = 0
        · simp [LOp.eval3, h0]
        · by_cases h1 : (l : Nat) = 1 <;> simp [LOp.eval3, h0, h1]
    · refine ⟨fun _ => true, fun _ => true, fun _ => true, none _ _ _ ?_⟩
      intro σ hσ l
      rw [hi]
      rcases hσ with rfl | rfl <;> simp [LOp.eval3]

/-- a value that at most half of the observed cells have -/
theorem minority {α : Type} [Fintype α] [DecidableEq α] (f : α → Int) (hf : ∀ i, IsData (f i)) : ∃ v, IsPM v ∧
    2 * (Finset.univ.filter fun i => f i = v).card ≤ (Finset.univ.filter fun i => f i ≠ 0).card := by
  have h : (Finset.univ.filter fun i => f i ≠ 0).card =
      (Finset.univ.filter fun i => f i = 1).card + (Finset.univ.filter fun i => f i = -1).card := by
    rw [← Finset.card_union_of_disjoint]
    · congr 1
      ext i
      simp only [Finset.mem_filter, Finset.mem_univ, true_and, Finset.mem_union]
      rcases hf i with h | h | h <;> rw [h] <;> simp
    · rw [Finset.disjoint_filter]
      intro i _ h1 h2
      rw [h1] at h2
      norm_num at h2
  by_cases hle : (Finset.univ.filter fun i => f i = 1).card ≤ (Finset.univ.filter fun i => f i = -1).card
  · exact ⟨1, .inl rfl, by omega⟩
  · exact ⟨-1, .inr rfl, by omega⟩

/-- the configuration all rows of which are `a` -/
def constCfg (N L : Nat) (a : Nat → Bool) : Cfg N L := fun e => a e.2

/-- a factor without fixed entries -/
def Cfg.free {N L : Nat} (c : Cfg N L) : Fac := ⟨c.arr, Arr.full [N, L] 0⟩

theorem mirror_const {N L : Nat} {a : Nat → Bool} {σ : Int} {A : Arr Int} (h : MirrorOf (Cfg.free (constCfg N L a)) σ A) :
    A.shape = [N, L] ∧ ∀ n < N, ∀ l < L, A [n, l] = σ * sgn (a l) := by
  refine ⟨h.1, fun n hn l hl => ?_⟩
  rw [h.2 [n, l] ⟨hn, hl, trivial⟩]
  simp only [Cfg.free, Arr.full, zero_ne_one, if_false]
  congr 1
  show Spec.Cfg.fac _ n l = _
  simp [Spec.Cfg.fac, hn, hl, constCfg]

end LFM

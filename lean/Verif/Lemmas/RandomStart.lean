import Verif.Lemmas.Patterns
import Verif.Props.Deaf
import Mathlib.Data.Fintype.BigOperators
import Mathlib.Algebra.Order.BigOperators.Ring.Finset

/-!
# Lemmas: how many initial values of the factors leave an entry without effect
-/

namespace LFM

open Spec

/-- the values of one latent dimension `l'` with the signs `s`, at the turn of entry `l` of factor `j` -/
def flipB {K : Nat} (s : Fin K → Bool) (j : Fin K) (l l' : Nat) (x : Fin K → Bool) : Fin K → Bool :=
  fun k => if k = j then ((x k ^^ s k) ^^ decide (l' < l)) else x k ^^ s k

theorem flipB_flipB {K : Nat} (s : Fin K → Bool) (j : Fin K) (l l' : Nat) (x : Fin K → Bool) : flipB s j l l' (flipB s j l l' x) = x := by
  funext k
  unfold flipB
  by_cases h : k = j
  · simp only [h, if_true]
    cases x j <;> cases s j <;> cases decide (l' < l) <;> rfl
  · simp only [h, if_false]
    cases x k <;> cases s k <;> rfl

/-- at most one latent dimension other than `l` is active -/
def FewActive (lom : Lom8) {K L : Nat} (s : Fin K → Bool) (j : Fin K) (l : Fin L) (w : Fin L → Fin K → Bool) : Prop :=
  ∃ l1 : Fin L, ∀ l' : Fin L, l' ≠ l → l' ≠ l1 → activeB lom (flipB s j l l' (w l')) = false

theorem quiet_of_active {lom : Lom8} {K L : Nat} {R : Fin K → Nat → Bool} {s : Fin K → Bool} {j : Fin K} {l : Fin L}
    (h : ¬ FewActive lom s j l fun l' k => R k l') : QuietAt lom L R s j l := by
  unfold FewActive at h
  push Not at h
  obtain ⟨a, a1, -, a2⟩ := h l
  obtain ⟨b, b1, b2, b3⟩ := h a
  have hs : needed lom ≤ ({a, b} : Finset (Fin L)).card := by
    rw [Finset.card_pair (Ne.symm b2)]
    unfold needed
    split <;> omega
  have key : ∀ l' : Fin L, l' ≠ l → ∀ v, turnB R s j l v l' = flipB s j l l' fun k => R k l' := by
    intro l' hl' v
    have : (l' : Nat) ≠ l := fun e => hl' (Fin.ext e)
    funext k
    simp [turnB, flipB, this]
  refine lom_settled lom {a, b} hs ?_ ?_ <;>
  · intro l' hl'
    have hne : l' ≠ l := by
      rcases Finset.mem_insert.1 hl' with rfl | hl'
      · exact a1
      · rw [Finset.mem_singleton] at hl'; rw [hl']; exact b1
    rw [key l' hne, ← activeB_iff]
    rcases Finset.mem_insert.1 hl' with rfl | hl'
    · simpa using a2
    · rw [Finset.mem_singleton] at hl'; rw [hl']; simpa using b3

/-- functions restricted to fewer values but for two arguments -/
theorem card_restricted {W : Type} [Fintype W] [DecidableEq W] {L : Nat} (p : Fin L → W → Prop) [∀ l, DecidablePred (p l)]
    (hp : ∀ l, ∃ x, ¬ p l x) (l l1 : Fin L) :
    (Fintype.card W - 1) ^ 2 * (Finset.univ.filter fun w : Fin L → W => ∀ l', l' ≠ l → l' ≠ l1 → p l' (w l')).card ≤
      Fintype.card W ^ 2 * (Fintype.card W - 1) ^ L := by
  obtain ⟨q, hq⟩ : ∃ q, q = Fintype.card W - 1 := ⟨_, rfl⟩
  have hW : 0 < Fintype.card W := Fintype.card_pos_iff.2 ⟨(hp l).choose⟩
  have hle : ∀ l', (Finset.univ.filter (p l')).card ≤ q := by
    intro l'
    obtain ⟨x, hx⟩ := hp l'
    have : (Finset.univ.filter (p l')).card < Fintype.card W := by
      rw [← Finset.card_univ]
      refine Finset.card_lt_card ⟨Finset.filter_subset _ _, fun h => hx ?_⟩
      exact (Finset.mem_filter.1 (h (Finset.mem_univ x))).2
    omega
  have hset : (Finset.univ.filter fun w : Fin L → W => ∀ l', l' ≠ l → l' ≠ l1 → p l' (w l')) =
      Fintype.piFinset fun l' => if l' ≠ l ∧ l' ≠ l1 then Finset.univ.filter (p l') else Finset.univ := by
    ext w
    rw [Finset.mem_filter, Fintype.mem_piFinset]
    constructor
    · intro h l'
      split
      · next hh => exact Finset.mem_filter.2 ⟨Finset.mem_univ _, h.2 l' hh.1 hh.2⟩
      · exact Finset.mem_univ _
    · intro h
      refine ⟨Finset.mem_univ _, fun l' h1 h2 => ?_⟩
      have := h l'
      rw [if_pos ⟨h1, h2⟩] at this
      exact (Finset.mem_filter.1 this).2
  rw [hset, Fintype.card_piFinset, ← hq]
  have h1 : ∏ l', (if l' ≠ l ∧ l' ≠ l1 then Finset.univ.filter (p l') else Finset.univ).card ≤
      ∏ l' : Fin L, (if l' ≠ l ∧ l' ≠ l1 then q else q + 1) := by
    refine Finset.prod_le_prod' fun l' _ => ?_
    split
    · exact hle l'
    · rw [Finset.card_univ]; omega
  refine (Nat.mul_le_mul_left _ h1).trans ?_
  have hWq : Fintype.card W = q + 1 := by omega
  rw [hWq]
  by_cases hll : l = l1
  · subst hll
    have : ∏ l' : Fin L, (if l' ≠ l ∧ l' ≠ l then q else q + 1) = (q + 1) * q ^ (L - 1) := by
      rw [← Finset.mul_prod_erase _ _ (Finset.mem_univ l)]
      rw [Finset.prod_congr rfl (g := fun _ => q)]
      · simp
      · intro x hx
        simp [(Finset.mem_erase.1 hx).1]
    rw [this]
    obtain ⟨L', rfl⟩ : ∃ L', L = L' + 1 := ⟨L - 1, by have := l.2; omega⟩
    have : q * (q + 1) ≤ (q + 1) ^ 2 := by nlinarith
    calc q ^ 2 * ((q + 1) * q ^ (L' + 1 - 1)) = q * (q + 1) * q ^ (L' + 1) := by rw [Nat.add_sub_cancel]; ring
      _ ≤ (q + 1) ^ 2 * q ^ (L' + 1) := Nat.mul_le_mul_right _ this
  · have : ∏ l' : Fin L, (if l' ≠ l ∧ l' ≠ l1 then q else q + 1) = (q + 1) ^ 2 * q ^ (L - 2) := by
      rw [← Finset.mul_prod_erase _ _ (Finset.mem_univ l), ← Finset.mul_prod_erase _ _ (Finset.mem_erase.2 ⟨Ne.symm hll, Finset.mem_univ l1⟩)]
      rw [Finset.prod_congr rfl (g := fun _ => q)]
      · rw [Finset.prod_const, Finset.card_erase_of_mem (Finset.mem_erase.2 ⟨Ne.symm hll, Finset.mem_univ l1⟩),
          Finset.card_erase_of_mem (Finset.mem_univ _), Finset.card_univ, Fintype.card_fin]
        simp
        rw [Nat.sub_sub]
        ring
      · intro x hx
        simp only [Finset.mem_erase] at hx
        simp [hx.1, hx.2.1]
    rw [this]
    obtain ⟨L', rfl⟩ : ∃ L', L = L' + 2 := by
      have := l.2; have := l1.2
      refine ⟨L - 2, ?_⟩
      have : (l : Nat) ≠ l1 := fun e => hll (Fin.ext e)
      omega
    exact le_of_eq (by rw [Nat.add_sub_cancel]; ring)

theorem exists_active (lom : Lom8) : (∃ x : Fin 2 → Bool, activeB lom x = true) ∧ ∃ x : Fin 3 → Bool, activeB lom x = true := by
  cases lom
  · exact ⟨⟨![true, true], by decide⟩, ⟨![true, true, true], by decide⟩⟩
  · exact ⟨⟨![false, true], by decide⟩, ⟨![false, true, true], by decide⟩⟩
  · exact ⟨⟨![false, true], by decide⟩, ⟨![false, false, true], by decide⟩⟩
  · exact ⟨⟨![true, true], by decide⟩, ⟨![true, true, true], by decide⟩⟩
  · exact ⟨⟨![true, true], by decide⟩, ⟨![true, true, true], by decide⟩⟩
  · exact ⟨⟨![false, true], by decide⟩, ⟨![false, false, true], by decide⟩⟩
  · exact ⟨⟨![true, true], by decide⟩, ⟨![true, true, true], by decide⟩⟩
  · exact ⟨⟨![false, true], by decide⟩, ⟨![false, true, true], by decide⟩⟩

open Classical in
/-- the rows with at most one active latent dimension are few -/
theorem card_few (lom : Lom8) {K L : Nat} (hx : ∃ x : Fin K → Bool, activeB lom x = true) (s : Fin K → Bool) (j : Fin K) (l : Fin L) :
    (2 ^ K - 1) ^ 2 * (Finset.univ.filter fun w : Fin L → Fin K → Bool => FewActive lom s j l w).card ≤
      L * ((2 ^ K) ^ 2 * (2 ^ K - 1) ^ L) := by
  have hsub : (Finset.univ.filter fun w : Fin L → Fin K → Bool => FewActive lom s j l w) ⊆
      Finset.univ.biUnion fun l1 : Fin L => Finset.univ.filter fun w : Fin L → Fin K → Bool =>
        ∀ l', l' ≠ l → l' ≠ l1 → activeB lom (flipB s j l l' (w l')) = false := by
    intro w hw
    obtain ⟨l1, h⟩ := (Finset.mem_filter.1 hw).2
    exact Finset.mem_biUnion.2 ⟨l1, Finset.mem_univ _, Finset.mem_filter.2 ⟨Finset.mem_univ _, h⟩⟩
  have hc : Fintype.card (Fin K → Bool) = 2 ^ K := by simp
  calc _ ≤ (2 ^ K - 1) ^ 2 * ∑ l1 : Fin L, (Finset.univ.filter fun w : Fin L → Fin K → Bool =>
        ∀ l', l' ≠ l → l' ≠ l1 → activeB lom (flipB s j l l' (w l')) = false).card :=
        Nat.mul_le_mul_left _ ((Finset.card_le_card hsub).trans Finset.card_biUnion_le)
    _ = ∑ l1 : Fin L, (2 ^ K - 1) ^ 2 * (Finset.univ.filter fun w : Fin L → Fin K → Bool =>
        ∀ l', l' ≠ l → l' ≠ l1 → activeB lom (flipB s j l l' (w l')) = false).card := by rw [Finset.mul_sum]
    _ ≤ ∑ _l1 : Fin L, (2 ^ K) ^ 2 * (2 ^ K - 1) ^ L := by
        refine Finset.sum_le_sum fun l1 _ => ?_
        have := card_restricted (fun (l' : Fin L) x => activeB lom (flipB s j l l' x) = false) (by
          intro l'
          obtain ⟨x, hx⟩ := hx
          refine ⟨flipB s j l l' x, ?_⟩
          rw [flipB_flipB, hx]
          decide) l l1
        rw [hc] at this
        convert this using 3
    _ = L * ((2 ^ K) ^ 2 * (2 ^ K - 1) ^ L) := by simp

/-! ## Rows of configurations -/

/-- row `n` of a factor -/
def rowB {N L : Nat} (c : Cfg N L) (n : Fin N) : Nat → Bool := fun l => if h : l < L then c (n, ⟨l, h⟩) else true

theorem rowB_val {N L : Nat} (c : Cfg N L) (n : Fin N) (l : Fin L) : rowB c n l = c (n, l) := by
  simp [rowB]

theorem settled_row {N L : Nat} (c : Cfg N L) {σ : Int} (hσ : IsPM σ) (n : Fin N) :
    Settled L (rowB c n) (decide (σ = -1)) (signedRow (Cfg.free c) σ n) := by
  intro l hl
  have e : (Cfg.free c).fixed_entries [(n : Nat), l] ≠ 1 := by simp [Cfg.free, Arr.full]
  unfold signedRow
  have h : (Cfg.free c).val [(n : Nat), l] = sgn (rowB c n l) := by
    show Spec.Cfg.fac _ _ _ = _
    simp [Spec.Cfg.fac, hl, rowB]
  rw [if_neg e, h, mul_sgn hσ]

theorem atTurn_row {N L : Nat} (c : Cfg N L) {σ : Int} (hσ : IsPM σ) (n : Fin N) (l : Nat) (v : Int) :
    AtTurn L (rowB c n) (decide (σ = -1)) l v (turnRow (Cfg.free c) σ n l v) := by
  refine ⟨by simp [turnRow], fun l' hl' hne => ?_⟩
  unfold turnRow
  rw [if_neg hne]
  have hσ' : IsPM (if l' < l then -σ else σ) := by
    split
    · rcases hσ with rfl | rfl
      · exact .inr rfl
      · exact .inl (by norm_num)
    · exact hσ
  rw [settled_row c hσ' n l' hl']
  congr 1
  rcases hσ with rfl | rfl <;> by_cases h : l' < l <;> simp [h]

theorem pred2_of_quietAt {lom : Lom8} {a b : Nat → Bool} {L l : Nat} {s t : Bool} (hq : QuietAt lom L ![a, b] ![s, t] 0 l)
    {z z' u : Nat → Int} (hz : AtTurn L a s l 1 z) (hz' : AtTurn L a s l (-1) z') (hu : Settled L b t u) :
    pred2 lom L z u = pred2 lom L z' u := by
  have key : ∀ (v : Bool) (z : Nat → Int), AtTurn L a s l (sgn v) z →
      (fun (l' : Fin L) (k : Fin 2) => ![z l', u l'] k = 1) = fun (l' : Fin L) k => turnB ![a, b] ![s, t] 0 l v l' k = true := by
    intro v z hz
    funext l' k
    apply propext
    fin_cases k
    · exact turn_eq hz l'.2
    · show u l' = 1 ↔ (b l' ^^ t) = true
      rw [hu l' l'.2, sgn_one]
  unfold pred2
  rw [key true z hz, key false z' hz']
  exact pm_congr hq

theorem pred3_of_quietAt {lom : Lom8} {a b c : Nat → Bool} {L l : Nat} {s t r : Bool} (hq : QuietAt lom L ![a, b, c] ![s, t, r] 0 l)
    {z z' u w : Nat → Int} (hz : AtTurn L a s l 1 z) (hz' : AtTurn L a s l (-1) z') (hu : Settled L b t u) (hw : Settled L c r w) :
    pred3 lom L z u w = pred3 lom L z' u w := by
  have key : ∀ (v : Bool) (z : Nat → Int), AtTurn L a s l (sgn v) z →
      (fun (l' : Fin L) (k : Fin 3) => ![z l', u l', w l'] k = 1) =
        fun (l' : Fin L) k => turnB ![a, b, c] ![s, t, r] 0 l v l' k = true := by
    intro v z hz
    funext l' k
    apply propext
    fin_cases k
    · exact turn_eq hz l'.2
    · show u l' = 1 ↔ (b l' ^^ t) = true
      rw [hu l' l'.2, sgn_one]
    · show w l' = 1 ↔ (c l' ^^ r) = true
      rw [hw l' l'.2, sgn_one]
  unfold pred3
  rw [key true z hz, key false z' hz']
  exact pm_congr hq

/-- two rows at the turn of an entry of the first -/
def Few2 (lom : Lom8) {L : Nat} (l : Fin L) (s : Fin 2 → Bool) (a b : Fin L → Bool) : Prop :=
  FewActive lom s 0 l fun l' => ![a l', b l']

/-- three rows at the turn of an entry of the first -/
def Few3 (lom : Lom8) {L : Nat} (l : Fin L) (s : Fin 3 → Bool) (a b c : Fin L → Bool) : Prop :=
  FewActive lom s 0 l fun l' => ![a l', b l', c l']

theorem unheard2_of_few {lom : Lom8} {N D L : Nat} (c : Cfg N L) (d : Cfg D L)
    (h : ∀ (n : Fin N) (e : Fin D) (l : Fin L) (s : Fin 2 → Bool), ¬ Few2 lom l s (fun l => c (n, l)) fun l => d (e, l)) (f g : Bool) :
    Unheard2 lom L (Cfg.free c, f) (Cfg.free d, g) := by
  intro _ σ τ hσ hτ n hn e he l hl _
  have h' := h ⟨n, hn⟩ ⟨e, he⟩ ⟨l, hl⟩ ![decide (σ = -1), decide (τ = -1)]
  refine pred2_of_quietAt (a := rowB c ⟨n, hn⟩) (b := rowB d ⟨e, he⟩) (quiet_of_active (l := ⟨l, hl⟩) fun hf => h' ?_)
    (atTurn_row c (isPM_signOf hσ) ⟨n, hn⟩ l 1) (atTurn_row c (isPM_signOf hσ) ⟨n, hn⟩ l (-1)) (settled_row d (isPM_signOf hτ) ⟨e, he⟩)
  unfold Few2
  convert hf using 1
  funext l' k
  fin_cases k
  · exact (rowB_val c _ l').symm
  · exact (rowB_val d _ l').symm

theorem unheard3_of_few {lom : Lom8} {N D M L : Nat} (c : Cfg N L) (d : Cfg D L) (e : Cfg M L)
    (h : ∀ (n : Fin N) (i : Fin D) (m : Fin M) (l : Fin L) (s : Fin 3 → Bool),
      ¬ Few3 lom l s (fun l => c (n, l)) (fun l => d (i, l)) fun l => e (m, l)) (f g k : Bool) :
    Unheard3 lom L (Cfg.free c, f) (Cfg.free d, g) (Cfg.free e, k) := by
  intro _ σ τ ρ hσ hτ hρ n hn i hi m hm l hl _
  have h' := h ⟨n, hn⟩ ⟨i, hi⟩ ⟨m, hm⟩ ⟨l, hl⟩ ![decide (σ = -1), decide (τ = -1), decide (ρ = -1)]
  refine pred3_of_quietAt (a := rowB c ⟨n, hn⟩) (b := rowB d ⟨i, hi⟩) (c := rowB e ⟨m, hm⟩)
    (quiet_of_active (l := ⟨l, hl⟩) fun hf => h' ?_)
    (atTurn_row c (isPM_signOf hσ) ⟨n, hn⟩ l 1) (atTurn_row c (isPM_signOf hσ) ⟨n, hn⟩ l (-1)) (settled_row d (isPM_signOf hτ) ⟨i, hi⟩)
    (settled_row e (isPM_signOf hρ) ⟨m, hm⟩)
  unfold Few3
  convert hf using 1
  funext l' k
  fin_cases k
  · exact (rowB_val c _ l').symm
  · exact (rowB_val d _ l').symm
  · exact (rowB_val e _ l').symm

/-! ## Counting -/

open Classical in
/-- a property of one row of each of two factors -/
theorem card_rows2 {N D L : Nat} (P : (Fin L → Bool) → (Fin L → Bool) → Prop) (n : Fin N) (d : Fin D) :
    (Finset.univ.filter fun c : Cfg N L × Cfg D L => P (fun l => c.1 (n, l)) fun l => c.2 (d, l)).card * 4 ^ L ≤
      (Finset.univ.filter fun p : (Fin L → Bool) × (Fin L → Bool) => P p.1 p.2).card * Fintype.card (Cfg N L × Cfg D L) := by
  have hsub : (Finset.univ.filter fun c : Cfg N L × Cfg D L => P (fun l => c.1 (n, l)) fun l => c.2 (d, l)) ⊆
      (Finset.univ.filter fun p : (Fin L → Bool) × (Fin L → Bool) => P p.1 p.2).biUnion fun p =>
        (Finset.univ.filter fun c : Cfg N L => ∀ l, c (n, l) = p.1 l) ×ˢ (Finset.univ.filter fun c : Cfg D L => ∀ l, c (d, l) = p.2 l) := by
    intro c hc
    refine Finset.mem_biUnion.2 ⟨(fun l => c.1 (n, l), fun l => c.2 (d, l)), Finset.mem_filter.2 ⟨Finset.mem_univ _, (Finset.mem_filter.1 hc).2⟩, ?_⟩
    simp
  have h4 : (4 : Nat) ^ L = 2 ^ L * 2 ^ L := by rw [← Nat.mul_pow]
  refine (Nat.mul_le_mul_right _ ((Finset.card_le_card hsub).trans Finset.card_biUnion_le)).trans ?_
  rw [Finset.sum_mul, ← smul_eq_mul (a := (Finset.card _)), ← Finset.sum_const]
  refine Finset.sum_le_sum fun p _ => ?_
  rw [Finset.card_product, h4, Fintype.card_prod]
  calc _ = ((Finset.univ.filter fun c : Cfg N L => ∀ l, c (n, l) = p.1 l).card * 2 ^ L) *
        ((Finset.univ.filter fun c : Cfg D L => ∀ l, c (d, l) = p.2 l).card * 2 ^ L) := by ring
    _ ≤ _ := Nat.mul_le_mul (card_row n p.1) (card_row d p.2)

open Classical in
/-- a property of one row of each of three factors -/
theorem card_rows3 {N D M L : Nat} (P : (Fin L → Bool) → (Fin L → Bool) → (Fin L → Bool) → Prop) (n : Fin N) (d : Fin D) (m : Fin M) :
    (Finset.univ.filter fun c : Cfg N L × Cfg D L × Cfg M L =>
        P (fun l => c.1 (n, l)) (fun l => c.2.1 (d, l)) fun l => c.2.2 (m, l)).card * 8 ^ L ≤
      (Finset.univ.filter fun p : (Fin L → Bool) × (Fin L → Bool) × (Fin L → Bool) => P p.1 p.2.1 p.2.2).card *
        Fintype.card (Cfg N L × Cfg D L × Cfg M L) := by
  have hsub : (Finset.univ.filter fun c : Cfg N L × Cfg D L × Cfg M L =>
        P (fun l => c.1 (n, l)) (fun l => c.2.1 (d, l)) fun l => c.2.2 (m, l)) ⊆
      (Finset.univ.filter fun p : (Fin L → Bool) × (Fin L → Bool) × (Fin L → Bool) => P p.1 p.2.1 p.2.2).biUnion fun p =>
        (Finset.univ.filter fun c : Cfg N L => ∀ l, c (n, l) = p.1 l) ×ˢ
          ((Finset.univ.filter fun c : Cfg D L => ∀ l, c (d, l) = p.2.1 l) ×ˢ (Finset.univ.filter fun c : Cfg M L => ∀ l, c (m, l) = p.2.2 l)) := by
    intro c hc
    refine Finset.mem_biUnion.2 ⟨(fun l => c.1 (n, l), fun l => c.2.1 (d, l), fun l => c.2.2 (m, l)),
      Finset.mem_filter.2 ⟨Finset.mem_univ _, (Finset.mem_filter.1 hc).2⟩, ?_⟩
    simp
  have h4 : (8 : Nat) ^ L = 2 ^ L * (2 ^ L * 2 ^ L) := by rw [← Nat.mul_pow, ← Nat.mul_pow]
  refine (Nat.mul_le_mul_right _ ((Finset.card_le_card hsub).trans Finset.card_biUnion_le)).trans ?_
  rw [Finset.sum_mul, ← smul_eq_mul (a := (Finset.card _)), ← Finset.sum_const]
  refine Finset.sum_le_sum fun p _ => ?_
  rw [Finset.card_product, Finset.card_product, h4, Fintype.card_prod, Fintype.card_prod]
  calc _ = ((Finset.univ.filter fun c : Cfg N L => ∀ l, c (n, l) = p.1 l).card * 2 ^ L) *
        (((Finset.univ.filter fun c : Cfg D L => ∀ l, c (d, l) = p.2.1 l).card * 2 ^ L) *
          ((Finset.univ.filter fun c : Cfg M L => ∀ l, c (m, l) = p.2.2 l).card * 2 ^ L)) := by ring
    _ ≤ _ := Nat.mul_le_mul (card_row n p.1) (Nat.mul_le_mul (card_row d p.2.1) (card_row m p.2.2))

open Classical in
theorem card_few2 (lom : Lom8) {L : Nat} (l : Fin L) (s : Fin 2 → Bool) :
    9 * (Finset.univ.filter fun p : (Fin L → Bool) × (Fin L → Bool) => Few2 lom l s p.1 p.2).card ≤ L * (16 * 3 ^ L) := by
  have h := card_few lom (exists_active lom).1 s 0 l
  norm_num at h
  refine (Nat.mul_le_mul_left _ ?_).trans h
  refine Finset.card_le_card_of_injOn (fun p l' => ![p.1 l', p.2 l']) ?_ ?_
  · intro p hp
    have := (Finset.mem_filter.1 hp).2
    exact Finset.mem_filter.2 ⟨Finset.mem_univ _, this⟩
  · intro p _ p' _ e
    refine Prod.ext (funext fun l' => ?_) (funext fun l' => ?_)
    · exact congrFun (congrFun e l') 0
    · exact congrFun (congrFun e l') 1

open Classical in
theorem card_few3 (lom : Lom8) {L : Nat} (l : Fin L) (s : Fin 3 → Bool) :
    49 * (Finset.univ.filter fun p : (Fin L → Bool) × (Fin L → Bool) × (Fin L → Bool) => Few3 lom l s p.1 p.2.1 p.2.2).card ≤
      L * (64 * 7 ^ L) := by
  have h := card_few lom (exists_active lom).2 s 0 l
  norm_num at h
  refine (Nat.mul_le_mul_left _ ?_).trans h
  refine Finset.card_le_card_of_injOn (fun p l' => ![p.1 l', p.2.1 l', p.2.2 l']) ?_ ?_
  · intro p hp
    have := (Finset.mem_filter.1 hp).2
    exact Finset.mem_filter.2 ⟨Finset.mem_univ _, this⟩
  · intro p _ p' _ e
    refine Prod.ext (funext fun l' => ?_) (Prod.ext (funext fun l' => ?_) (funext fun l' => ?_))
    · exact congrFun (congrFun e l') 0
    · exact congrFun (congrFun e l') 1
    · exact congrFun (congrFun e l') 2

open Classical in
/-- the initial values for which some entry of the first factor may have an effect -/
theorem card_heard2 (lom : Lom8) (N D L : Nat) :
    9 * (Finset.univ.filter fun c : Cfg N L × Cfg D L => ¬ Unheard2 lom L (Cfg.free c.1, false) (Cfg.free c.2, false)).card * 4 ^ L ≤
      64 * N * D * L ^ 2 * 3 ^ L * Fintype.card (Cfg N L × Cfg D L) := by
  have hsub : (Finset.univ.filter fun c : Cfg N L × Cfg D L => ¬ Unheard2 lom L (Cfg.free c.1, false) (Cfg.free c.2, false)) ⊆
      Finset.univ.biUnion fun q : Fin N × Fin D × Fin L × (Fin 2 → Bool) => Finset.univ.filter fun c : Cfg N L × Cfg D L =>
        Few2 lom q.2.2.1 q.2.2.2 (fun l => c.1 (q.1, l)) fun l => c.2 (q.2.1, l) := by
    intro c hc
    by_contra hn
    refine (Finset.mem_filter.1 hc).2 (unheard2_of_few c.1 c.2 (fun n e l s hf => hn ?_) false false)
    exact Finset.mem_biUnion.2 ⟨(n, e, l, s), Finset.mem_univ _, Finset.mem_filter.2 ⟨Finset.mem_univ _, hf⟩⟩
  have hq : ∀ q : Fin N × Fin D × Fin L × (Fin 2 → Bool), 9 * (Finset.univ.filter fun c : Cfg N L × Cfg D L =>
        Few2 lom q.2.2.1 q.2.2.2 (fun l => c.1 (q.1, l)) fun l => c.2 (q.2.1, l)).card * 4 ^ L ≤
      L * (16 * 3 ^ L) * Fintype.card (Cfg N L × Cfg D L) := by
    intro q
    rw [Nat.mul_assoc]
    refine (Nat.mul_le_mul_left _ (card_rows2 (fun a b => Few2 lom q.2.2.1 q.2.2.2 a b) q.1 q.2.1)).trans ?_
    rw [← Nat.mul_assoc]
    exact Nat.mul_le_mul_right _ (card_few2 lom q.2.2.1 q.2.2.2)
  calc _ ≤ 9 * (∑ q : Fin N × Fin D × Fin L × (Fin 2 → Bool), (Finset.univ.filter fun c : Cfg N L × Cfg D L =>
        Few2 lom q.2.2.1 q.2.2.2 (fun l => c.1 (q.1, l)) fun l => c.2 (q.2.1, l)).card) * 4 ^ L :=
        Nat.mul_le_mul_right _ (Nat.mul_le_mul_left _ ((Finset.card_le_card hsub).trans Finset.card_biUnion_le))
    _ = ∑ q : Fin N × Fin D × Fin L × (Fin 2 → Bool), 9 * (Finset.univ.filter fun c : Cfg N L × Cfg D L =>
        Few2 lom q.2.2.1 q.2.2.2 (fun l => c.1 (q.1, l)) fun l => c.2 (q.2.1, l)).card * 4 ^ L := by
        rw [Finset.mul_sum, Finset.sum_mul]
    _ ≤ ∑ _q : Fin N × Fin D × Fin L × (Fin 2 → Bool), L * (16 * 3 ^ L) * Fintype.card (Cfg N L × Cfg D L) := Finset.sum_le_sum fun q _ => hq q
    _ = _ := by
        rw [Finset.sum_const, Finset.card_univ, smul_eq_mul]
        have : Fintype.card (Fin N × Fin D × Fin L × (Fin 2 → Bool)) = N * (D * (L * 4)) := by
          simp only [Fintype.card_prod, Fintype.card_fin, Fintype.card_fun, Fintype.card_bool]
          norm_num
        rw [this]
        ring

open Classical in
/-- the same for three factors -/
theorem card_heard3 (lom : Lom8) (N D M L : Nat) :
    49 * (Finset.univ.filter fun c : Cfg N L × Cfg D L × Cfg M L =>
        ¬ Unheard3 lom L (Cfg.free c.1, false) (Cfg.free c.2.1, false) (Cfg.free c.2.2, false)).card * 8 ^ L ≤
      512 * N * D * M * L ^ 2 * 7 ^ L * Fintype.card (Cfg N L × Cfg D L × Cfg M L) := by
  have hsub : (Finset.univ.filter fun c : Cfg N L × Cfg D L × Cfg M L =>
        ¬ Unheard3 lom L (Cfg.free c.1, false) (Cfg.free c.2.1, false) (Cfg.free c.2.2, false)) ⊆
      Finset.univ.biUnion fun q : Fin N × Fin D × Fin M × Fin L × (Fin 3 → Bool) => Finset.univ.filter fun c : Cfg N L × Cfg D L × Cfg M L =>
        Few3 lom q.2.2.2.1 q.2.2.2.2 (fun l => c.1 (q.1, l)) (fun l => c.2.1 (q.2.1, l)) fun l => c.2.2 (q.2.2.1, l) := by
    intro c hc
    by_contra hn
    refine (Finset.mem_filter.1 hc).2 (unheard3_of_few c.1 c.2.1 c.2.2 (fun n e m l s hf => hn ?_) false false false)
    exact Finset.mem_biUnion.2 ⟨(n, e, m, l, s), Finset.mem_univ _, Finset.mem_filter.2 ⟨Finset.mem_univ _, hf⟩⟩
  have hq : ∀ q : Fin N × Fin D × Fin M × Fin L × (Fin 3 → Bool), 49 * (Finset.univ.filter fun c : Cfg N L × Cfg D L × Cfg M L =>
        Few3 lom q.2.2.2.1 q.2.2.2.2 (fun l => c.1 (q.1, l)) (fun l => c.2.1 (q.2.1, l)) fun l => c.2.2 (q.2.2.1, l)).card * 8 ^ L ≤
      L * (64 * 7 ^ L) * Fintype.card (Cfg N L × Cfg D L × Cfg M L) := by
    intro q
    rw [Nat.mul_assoc]
    refine (Nat.mul_le_mul_left _ (card_rows3 (fun a b c => Few3 lom q.2.2.2.1 q.2.2.2.2 a b c) q.1 q.2.1 q.2.2.1)).trans ?_
    rw [← Nat.mul_assoc]
    exact Nat.mul_le_mul_right _ (card_few3 lom q.2.2.2.1 q.2.2.2.2)
  calc _ ≤ 49 * (∑ q : Fin N × Fin D × Fin M × Fin L × (Fin 3 → Bool), (Finset.univ.filter fun c : Cfg N L × Cfg D L × Cfg M L =>
        Few3 lom q.2.2.2.1 q.2.2.2.2 (fun l => c.1 (q.1, l)) (fun l => c.2.1 (q.2.1, l)) fun l => c.2.2 (q.2.2.1, l)).card) * 8 ^ L :=
        Nat.mul_le_mul_right _ (Nat.mul_le_mul_left _ ((Finset.card_le_card hsub).trans Finset.card_biUnion_le))
    _ = ∑ q : Fin N × Fin D × Fin M × Fin L × (Fin 3 → Bool), 49 * (Finset.univ.filter fun c : Cfg N L × Cfg D L × Cfg M L =>
        Few3 lom q.2.2.2.1 q.2.2.2.2 (fun l => c.1 (q.1, l)) (fun l => c.2.1 (q.2.1, l)) fun l => c.2.2 (q.2.2.1, l)).card * 8 ^ L := by
        rw [Finset.mul_sum, Finset.sum_mul]
    _ ≤ ∑ _q : Fin N × Fin D × Fin M × Fin L × (Fin 3 → Bool), L * (64 * 7 ^ L) * Fintype.card (Cfg N L × Cfg D L × Cfg M L) :=
        Finset.sum_le_sum fun q _ => hq q
    _ = _ := by
        rw [Finset.sum_const, Finset.card_univ, smul_eq_mul]
        have : Fintype.card (Fin N × Fin D × Fin M × Fin L × (Fin 3 → Bool)) = N * (D * (M * (L * 8))) := by
          simp only [Fintype.card_prod, Fintype.card_fin, Fintype.card_fun, Fintype.card_bool]
          norm_num
        rw [this]
        ring

end LFM

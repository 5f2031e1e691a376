import Verif.Lemmas.Unheard
import Verif.Lemmas.EveryData

/-!
# Lemmas: rows none of whose entries has an effect when its turn comes

All rows of a factor are equal. An entry has no effect if enough other latent dimensions are active, or if it has no effect on whether
its own latent dimension is active.
-/

namespace LFM

open Spec

instance LOp.decidableHolds (op : LOp) {K : Nat} (f : Fin K → Bool) : Decidable (op.Holds fun k => f k = true) :=
  match op with
  | .AND => (inferInstance : Decidable (∀ i, f i = true))
  | .NAND => (inferInstance : Decidable (¬ ∀ i, f i = true))
  | .OR => (inferInstance : Decidable (∃ i, f i = true))
  | .NOR => (inferInstance : Decidable (¬ ∃ i, f i = true))
  | .XOR => (inferInstance : Decidable (∃ i, f i = true ∧ ∀ j, f j = true → j = i))
  | .NXOR => (inferInstance : Decidable (¬ ∃ i, f i = true ∧ ∀ j, f j = true → j = i))

/-- the number of active latent dimensions that determines the prediction -/
def needed (lom : Lom8) : Nat := if lom.outer = .XOR then 2 else 1

/-- a latent dimension is active: inner operator true, for NAND-XOR false -/
def Active (lom : Lom8) {K : Nat} (p : Fin K → Prop) : Prop := if lom = .NAND_XOR then ¬ lom.inner.Holds p else lom.inner.Holds p

/-- enough active latent dimensions determine the prediction -/
theorem lom_settled (lom : Lom8) {K L : Nat} {x x' : Fin L → Fin K → Prop} (s : Finset (Fin L)) (hs : needed lom ≤ s.card)
    (hx : ∀ l ∈ s, Active lom (x l)) (hx' : ∀ l ∈ s, Active lom (x' l)) :
    Spec.lom lom.outer lom.inner x ↔ Spec.lom lom.outer lom.inner x' := by
  have hor : ∀ inner : LOp, 1 ≤ s.card → (∀ l ∈ s, inner.Holds (x l)) → (∀ l ∈ s, inner.Holds (x' l)) →
      (Spec.lom .OR inner x ↔ Spec.lom .OR inner x') := by
    intro inner h1 h2 h3
    obtain ⟨l, hl⟩ := Finset.card_pos.1 h1
    exact iff_of_true ⟨l, h2 l hl⟩ ⟨l, h3 l hl⟩
  have hxor : ∀ inner : LOp, 2 ≤ s.card → (∀ l ∈ s, inner.Holds (x l)) → (∀ l ∈ s, inner.Holds (x' l)) →
      (Spec.lom .XOR inner x ↔ Spec.lom .XOR inner x') := by
    intro inner h1 h2 h3
    obtain ⟨l, hl, l', hl', hne⟩ := Finset.one_lt_card.1 h1
    refine iff_of_false ?_ ?_
    · rintro ⟨a, -, ha⟩
      exact hne ((ha l (h2 l hl)).trans (ha l' (h2 l' hl')).symm)
    · rintro ⟨a, -, ha⟩
      exact hne ((ha l (h3 l hl)).trans (ha l' (h3 l' hl')).symm)
  cases lom
  case NAND_XOR =>
    obtain ⟨l, hl⟩ := Finset.card_pos.1 (show 1 ≤ s.card from hs)
    exact iff_of_true (fun h => hx l hl (h l)) fun h => hx' l hl (h l)
  case OR_AND => exact hor _ hs hx hx'
  case OR_NAND => exact hor _ hs hx hx'
  case OR_XOR => exact hor _ hs hx hx'
  case XOR_AND => exact hxor _ hs hx hx'
  case XOR_XOR => exact hxor _ hs hx hx'
  case XOR_NXOR => exact hxor _ hs hx hx'
  case XOR_NAND => exact hxor _ hs hx hx'

/-- so do the activities of all latent dimensions -/
theorem lom_active (lom : Lom8) {K L : Nat} {x x' : Fin L → Fin K → Prop} (h : ∀ l, Active lom (x l) ↔ Active lom (x' l)) :
    Spec.lom lom.outer lom.inner x ↔ Spec.lom lom.outer lom.inner x' := by
  have : ∀ l, lom.inner.Holds (x l) ↔ lom.inner.Holds (x' l) := by
    intro l
    have := h l
    unfold Active at this
    split at this
    · exact not_iff_not.1 this
    · exact this
  unfold Spec.lom
  rw [show (fun l => lom.inner.Holds (x l)) = fun l => lom.inner.Holds (x' l) from funext fun l => propext (this l)]

/-- a latent dimension is active -/
def activeB (lom : Lom8) {K : Nat} (f : Fin K → Bool) : Bool :=
  decide (lom.inner.Holds fun k => f k = true) != decide (lom = .NAND_XOR)

theorem activeB_iff (lom : Lom8) {K : Nat} (f : Fin K → Bool) : activeB lom f = true ↔ Active lom fun k => f k = true := by
  unfold activeB Active
  by_cases h : lom = .NAND_XOR
  · simp [h]
  · simp [h]

/-- equal rows `R k` of the factors with signs `s`, at the turn of entry `l` of factor `j`, which has the value `v` -/
def turnB {K : Nat} (R : Fin K → Nat → Bool) (s : Fin K → Bool) (j : Fin K) (l : Nat) (v : Bool) (l' : Nat) : Fin K → Bool :=
  fun k => if k = j then (if l' = l then v else ((R k l' ^^ s k) ^^ decide (l' < l))) else R k l' ^^ s k

/-- the entry has no effect on the prediction -/
def QuietAt (lom : Lom8) (L : Nat) {K : Nat} (R : Fin K → Nat → Bool) (s : Fin K → Bool) (j : Fin K) (l : Nat) : Prop :=
  Spec.lom lom.outer lom.inner (fun (l' : Fin L) k => turnB R s j l true l' k = true) ↔
    Spec.lom lom.outer lom.inner (fun (l' : Fin L) k => turnB R s j l false l' k = true)

/-- a check of the first `L0` latent dimensions that says so for any number of latent dimensions -/
def quietCheck (lom : Lom8) (L0 : Nat) {K : Nat} (R : Fin K → Nat → Bool) (s : Fin K → Bool) (j : Fin K) : Bool :=
  (List.range (L0 + 1)).all fun l =>
    decide (needed lom ≤ (List.range L0).countP fun l' => decide (l' ≠ l) && activeB lom (turnB R s j l true l')) ||
    (decide (l < L0) && (activeB lom (turnB R s j l true l) == activeB lom (turnB R s j l false l)))

theorem turnB_ne {K : Nat} (R : Fin K → Nat → Bool) (s : Fin K → Bool) (j : Fin K) {l l' : Nat} (h : l' ≠ l) (v w : Bool) :
    turnB R s j l v l' = turnB R s j l w l' := by
  funext k
  simp [turnB, h]

theorem quiet_of_check {lom : Lom8} {L0 K : Nat} {R : Fin K → Nat → Bool} {s : Fin K → Bool} {j : Fin K}
    (h : quietCheck lom L0 R s j = true) {L : Nat} (hL : L0 ≤ L) {l : Nat} (hl : l < L) : QuietAt lom L R s j l := by
  unfold quietCheck at h
  rw [List.all_eq_true] at h
  obtain ⟨l0, hl0⟩ : ∃ l0, l0 = min l L0 := ⟨_, rfl⟩
  have h0 := h l0 (List.mem_range.2 (by omega))
  rw [Bool.or_eq_true, Bool.and_eq_true, decide_eq_true_eq, decide_eq_true_eq, beq_iff_eq] at h0
  rcases h0 with h0 | ⟨h1, h2⟩
  · have hsame : ∀ l' < L0, l' ≠ l0 → ∀ v, turnB R s j l v l' = turnB R s j l0 true l' := by
      intro l' hl' hne v
      have : l' ≠ l := by omega
      funext k
      have hd : decide (l' < l) = decide (l' < l0) := decide_eq_decide.2 (by omega)
      simp [turnB, this, hne, hd]
    obtain ⟨S, hS⟩ : ∃ S : Finset (Fin L), S = Finset.univ.filter fun l' : Fin L =>
        (l' : Nat) < L0 ∧ (l' : Nat) ≠ l0 ∧ activeB lom (turnB R s j l0 true l') = true := ⟨_, rfl⟩
    have hcard : (List.range L0).countP (fun l' => decide (l' ≠ l0) && activeB lom (turnB R s j l0 true l')) ≤ S.card := by
      rw [List.countP_eq_length_filter]
      have hnd : ((List.range L0).filter fun l' => decide (l' ≠ l0) && activeB lom (turnB R s j l0 true l')).Nodup :=
        List.Nodup.filter _ List.nodup_range
      rw [← List.toFinset_card_of_nodup hnd, ← Finset.card_map Fin.valEmbedding]
      refine Finset.card_le_card fun l' hl' => ?_
      simp only [List.mem_toFinset, List.mem_filter, List.mem_range, Bool.and_eq_true, decide_eq_true_eq] at hl'
      rw [Finset.mem_map]
      refine ⟨⟨l', by omega⟩, ?_, rfl⟩
      rw [hS, Finset.mem_filter]
      exact ⟨Finset.mem_univ _, hl'.1, hl'.2.1, hl'.2.2⟩
    refine lom_settled lom S (h0.trans hcard) ?_ ?_ <;>
    · intro l' hl'
      rw [hS, Finset.mem_filter] at hl'
      obtain ⟨-, a, b, c⟩ := hl'
      rw [hsame l' a b]
      exact (activeB_iff lom _).1 c
  · have hll : l0 = l := by omega
    subst hll
    refine lom_active lom fun l' => ?_
    by_cases hne : (l' : Nat) = l0
    · rw [hne]
      rw [← activeB_iff, ← activeB_iff, h2]
    · rw [turnB_ne R s j hne true false]

/-! ## Two factors -/

/-- a row given by its first entries -/
def rowOf (l : List Bool) : Nat → Bool := fun i => l.getD i true

/-- all entries of both factors pass the check -/
def Quiet2 (lom : Lom8) (L0 : Nat) (a b : Nat → Bool) : Prop :=
  ∀ (s0 s1 : Bool) (j : Fin 2), quietCheck lom L0 ![a, b] ![s0, s1] j = true

instance (lom : Lom8) (L0 : Nat) (a b : Nat → Bool) : Decidable (Quiet2 lom L0 a b) := by
  unfold Quiet2; infer_instance

/-- all entries of the three factors pass the check -/
def Quiet3 (lom : Lom8) (L0 : Nat) (a b c : Nat → Bool) : Prop :=
  ∀ (s0 s1 s2 : Bool) (j : Fin 3), quietCheck lom L0 ![a, b, c] ![s0, s1, s2] j = true

instance (lom : Lom8) (L0 : Nat) (a b c : Nat → Bool) : Decidable (Quiet3 lom L0 a b c) := by
  unfold Quiet3; infer_instance

theorem quiet2_exists (lom : Lom8) : ∃ a b : Nat → Bool, Quiet2 lom (quietFrom2 lom) a b := by
  cases lom
  · exact ⟨rowOf [false, true, false, true, false, true], rowOf [false, true, true, false, false, true],
      by decide +kernel⟩
  · exact ⟨rowOf [false, true], rowOf [false, true],
      by decide +kernel⟩
  · exact ⟨rowOf [false, false, false], rowOf [false, true, false],
      by decide +kernel⟩
  · exact ⟨rowOf [false, false, false], rowOf [false, true, false],
      by decide +kernel⟩
  · exact ⟨rowOf [false, true, true, false, false, true, false, true, false, true], rowOf [true, false, true, false, true, false, false, true, true, false],
      by decide +kernel⟩
  · exact ⟨rowOf [false, false, false, false, false], rowOf [false, true, false, true, false],
      by decide +kernel⟩
  · exact ⟨rowOf [false, false, false, false, false], rowOf [false, true, false, true, false],
      by decide +kernel⟩
  · exact ⟨rowOf [false, false, false, true], rowOf [false, true, false, true],
      by decide +kernel⟩

theorem quiet3_exists (lom : Lom8) : ∃ a b c : Nat → Bool, Quiet3 lom (quietFrom3 lom) a b c := by
  cases lom
  · exact ⟨rowOf [true, true, false, true, false, true, false, true, false, false, false, true],
      rowOf [true, false, false, false, true, true, false, false, true, false, true, true],
      rowOf [false, true, false, false, true, true, true, true, false, false, true, false],
      by decide +kernel⟩
  · exact ⟨rowOf [false, false],
      rowOf [false, true],
      rowOf [false, true],
      by decide +kernel⟩
  · exact ⟨rowOf [false, false, true, true, true],
      rowOf [true, false, false, false, true],
      rowOf [false, false, false, true, true],
      by decide +kernel⟩
  · exact ⟨rowOf [false, false, false],
      rowOf [false, false, false],
      rowOf [false, true, false],
      by decide +kernel⟩
  · exact ⟨rowOf [true, false, false, false, true, true, false, false, true, true, false, true, true, false, false, true, true, true, false, true, false, false, false],
      rowOf [true, true, false, false, false, false, true, false, true, false, true, false, true, true, false, true, true, false, true, false, false, true, false],
      rowOf [true, false, true, false, true, false, true, true, false, true, true, false, true, false, false, false, true, true, true, false, false, false, true],
      by decide +kernel⟩
  · exact ⟨rowOf [false, true, false, true, false, true, false, true, false],
      rowOf [false, true, false, true, true, true, true, false, false],
      rowOf [true, true, false, false, false, false, true, false, true],
      by decide +kernel⟩
  · exact ⟨rowOf [false, false, true, false, false],
      rowOf [false, false, false, true, true],
      rowOf [true, false, false, true, false],
      by decide +kernel⟩
  · exact ⟨rowOf [false, false, true],
      rowOf [false, true, false],
      rowOf [false, true, true],
      by decide +kernel⟩

/-! ## Predictions -/

theorem sgn_one (b : Bool) : sgn b = 1 ↔ b = true := by cases b <;> simp [sgn]

/-- a row `z` at the turn of its entry `l`, which has the value `v` -/
def AtTurn (L : Nat) (a : Nat → Bool) (s : Bool) (l : Nat) (v : Int) (z : Nat → Int) : Prop :=
  z l = v ∧ ∀ l' < L, l' ≠ l → z l' = sgn ((a l' ^^ s) ^^ decide (l' < l))

/-- a row of another factor -/
def Settled (L : Nat) (a : Nat → Bool) (s : Bool) (z : Nat → Int) : Prop := ∀ l' < L, z l' = sgn (a l' ^^ s)

theorem turn_eq {L : Nat} {a : Nat → Bool} {s : Bool} {l : Nat} {v : Bool} {z : Nat → Int} (h : AtTurn L a s l (sgn v) z) {l' : Nat}
    (hl' : l' < L) : z l' = 1 ↔ (if l' = l then v else ((a l' ^^ s) ^^ decide (l' < l))) = true := by
  by_cases e : l' = l
  · subst e
    rw [h.1, sgn_one, if_pos rfl]
  · rw [h.2 l' hl' e, sgn_one, if_neg e]

theorem quiet_pred2 {lom : Lom8} {L0 : Nat} {a b : Nat → Bool} (h : Quiet2 lom L0 a b) {L : Nat} (hL : L0 ≤ L) {l : Nat} (hl : l < L)
    {s t : Bool} {z z' u : Nat → Int} (hz : AtTurn L a s l 1 z) (hz' : AtTurn L a s l (-1) z') (hu : Settled L b t u) :
    pred2 lom L z u = pred2 lom L z' u := by
  have hq := quiet_of_check (h s t 0) hL hl
  have key : ∀ (v : Bool) (z : Nat → Int), AtTurn L a s l (sgn v) z →
      (fun (l' : Fin L) (k : Fin 2) => ![z l', u l'] k = 1) = fun (l' : Fin L) k => turnB ![a, b] ![s, t] 0 l v l' k = true := by
    intro v z hz
    funext l' k
    apply propext
    fin_cases k
    · exact turn_eq hz l'.2
    · show u l' = 1 ↔ (b l' ^^ t) = true
      rw [hu l' l'.2, sgn_one]
  unfold pred2
  rw [key true z hz, key false z' hz']
  exact pm_congr hq

theorem quiet_pred2' {lom : Lom8} {L0 : Nat} {a b : Nat → Bool} (h : Quiet2 lom L0 a b) {L : Nat} (hL : L0 ≤ L) {l : Nat} (hl : l < L)
    {s t : Bool} {z z' u : Nat → Int} (hz : AtTurn L b t l 1 z) (hz' : AtTurn L b t l (-1) z') (hu : Settled L a s u) :
    pred2 lom L z u = pred2 lom L z' u := by
  have hq := quiet_of_check (h s t 1) hL hl
  have key : ∀ (v : Bool) (z : Nat → Int), AtTurn L b t l (sgn v) z →
      (fun (l' : Fin L) (k : Fin 2) => ![u l', z l'] k = 1) = fun (l' : Fin L) k => turnB ![a, b] ![s, t] 1 l v l' k = true := by
    intro v z hz
    funext l' k
    apply propext
    fin_cases k
    · show u l' = 1 ↔ (a l' ^^ s) = true
      rw [hu l' l'.2, sgn_one]
    · exact turn_eq hz l'.2
  rw [pred2_comm, pred2_comm lom L z']
  unfold pred2
  rw [key true z hz, key false z' hz']
  exact pm_congr hq

theorem quiet_pred3 {lom : Lom8} {L0 : Nat} {a b c : Nat → Bool} (h : Quiet3 lom L0 a b c) {L : Nat} (hL : L0 ≤ L) {l : Nat} (hl : l < L)
    {s t r : Bool} :
    (∀ {z z' u w : Nat → Int}, AtTurn L a s l 1 z → AtTurn L a s l (-1) z' → Settled L b t u → Settled L c r w →
      pred3 lom L z u w = pred3 lom L z' u w) ∧
    (∀ {z z' u w : Nat → Int}, AtTurn L b t l 1 z → AtTurn L b t l (-1) z' → Settled L a s u → Settled L c r w →
      pred3 lom L u z w = pred3 lom L u z' w) ∧
    (∀ {z z' u w : Nat → Int}, AtTurn L c r l 1 z → AtTurn L c r l (-1) z' → Settled L a s u → Settled L b t w →
      pred3 lom L u w z = pred3 lom L u w z') := by
  refine ⟨fun {z z' u w} hz hz' hu hw => ?_, fun {z z' u w} hz hz' hu hw => ?_, fun {z z' u w} hz hz' hu hw => ?_⟩
  · have hq := quiet_of_check (h s t r 0) hL hl
    have key : ∀ (v : Bool) (z : Nat → Int), AtTurn L a s l (sgn v) z →
        (fun (l' : Fin L) (k : Fin 3) => ![z l', u l', w l'] k = 1) =
          fun (l' : Fin L) k => turnB ![a, b, c] ![s, t, r] 0 l v l' k = true := by
      intro v z hz
      funext l' k
      apply propext
      fin_cases k
      · exact turn_eq hz l'.2
      · show u l' = 1 ↔ (b l' ^^ t) = true
        rw [hu l' l'.2, sgn_one]
      · show w l' = 1 ↔ (c l' ^^ r) = true
        rw [hw l' l'.2, sgn_one]
    unfold pred3
    rw [key true z hz, key false z' hz']
    exact pm_congr hq
  · have hq := quiet_of_check (h s t r 1) hL hl
    have key : ∀ (v : Bool) (z : Nat → Int), AtTurn L b t l (sgn v) z →
        (fun (l' : Fin L) (k : Fin 3) => ![u l', z l', w l'] k = 1) =
          fun (l' : Fin L) k => turnB ![a, b, c] ![s, t, r] 1 l v l' k = true := by
      intro v z hz
      funext l' k
      apply propext
      fin_cases k
      · show u l' = 1 ↔ (a l' ^^ s) = true
        rw [hu l' l'.2, sgn_one]
      · exact turn_eq hz l'.2
      · show w l' = 1 ↔ (c l' ^^ r) = true
        rw [hw l' l'.2, sgn_one]
    unfold pred3
    rw [key true z hz, key false z' hz']
    exact pm_congr hq
  · have hq := quiet_of_check (h s t r 2) hL hl
    have key : ∀ (v : Bool) (z : Nat → Int), AtTurn L c r l (sgn v) z →
        (fun (l' : Fin L) (k : Fin 3) => ![u l', w l', z l'] k = 1) =
          fun (l' : Fin L) k => turnB ![a, b, c] ![s, t, r] 2 l v l' k = true := by
      intro v z hz
      funext l' k
      apply propext
      fin_cases k
      · show u l' = 1 ↔ (a l' ^^ s) = true
        rw [hu l' l'.2, sgn_one]
      · show w l' = 1 ↔ (b l' ^^ t) = true
        rw [hw l' l'.2, sgn_one]
      · exact turn_eq hz l'.2
    unfold pred3
    rw [key true z hz, key false z' hz']
    exact pm_congr hq

/-! ## Factors whose rows are all equal -/

theorem constCfg_val {N L : Nat} (a : Nat → Bool) {n l : Nat} (hn : n < N) (hl : l < L) :
    (Cfg.free (constCfg N L a)).val [n, l] = sgn (a l) := by
  show Spec.Cfg.fac _ n l = _
  simp [Spec.Cfg.fac, hn, hl, constCfg]

theorem mul_sgn {σ : Int} (hσ : IsPM σ) (b : Bool) : σ * sgn b = sgn (b ^^ decide (σ = -1)) := by
  rcases hσ with rfl | rfl <;> cases b <;> simp [sgn]

theorem isPM_signOf {f : Bool} {σ : Int} (h : SignOf f σ) : IsPM σ := h.imp_right And.right

theorem settled_const {N L : Nat} (a : Nat → Bool) {σ : Int} (hσ : IsPM σ) {n : Nat} (hn : n < N) :
    Settled L a (decide (σ = -1)) (signedRow (Cfg.free (constCfg N L a)) σ n) := by
  intro l hl
  have e : (Cfg.free (constCfg N L a)).fixed_entries [n, l] ≠ 1 := by simp [Cfg.free, Arr.full]
  unfold signedRow
  rw [if_neg e, constCfg_val a hn hl, mul_sgn hσ]

theorem atTurn_const {N L : Nat} (a : Nat → Bool) {σ : Int} (hσ : IsPM σ) {n : Nat} (hn : n < N) (l : Nat) (v : Int) :
    AtTurn L a (decide (σ = -1)) l v (turnRow (Cfg.free (constCfg N L a)) σ n l v) := by
  refine ⟨by simp [turnRow], fun l' hl' hne => ?_⟩
  unfold turnRow
  rw [if_neg hne]
  have hσ' : IsPM (if l' < l then -σ else σ) := by
    split
    · rcases hσ with rfl | rfl
      · exact .inr rfl
      · exact .inl (by norm_num)
    · exact hσ
  rw [settled_const a hσ' hn l' hl']
  congr 1
  rcases hσ with rfl | rfl <;> by_cases h : l' < l <;> simp [h]

/-- two such factors -/
theorem unheard_const2 {lom : Lom8} {L0 : Nat} {a b : Nat → Bool} (h : Quiet2 lom L0 a b) {N D L : Nat} (hL : L0 ≤ L) (f g : Bool) :
    Unheard lom [(Cfg.free (constCfg N L a), f), (Cfg.free (constCfg D L b), g)] := by
  refine ⟨?_, ?_⟩
  · intro _ σ τ hσ hτ n hn d hd l hl _
    exact quiet_pred2 h hL hl (atTurn_const a (isPM_signOf hσ) hn l 1) (atTurn_const a (isPM_signOf hσ) hn l (-1))
      (settled_const b (isPM_signOf hτ) hd)
  · intro _ σ τ hσ hτ n hn d hd l hl _
    exact quiet_pred2' h hL hl (atTurn_const b (isPM_signOf hσ) hn l 1) (atTurn_const b (isPM_signOf hσ) hn l (-1))
      (settled_const a (isPM_signOf hτ) hd)

/-- three such factors -/
theorem unheard_const3 {lom : Lom8} {L0 : Nat} {a b c : Nat → Bool} (h : Quiet3 lom L0 a b c) {N D M L : Nat} (hL : L0 ≤ L)
    (f g k : Bool) : Unheard lom [(Cfg.free (constCfg N L a), f), (Cfg.free (constCfg D L b), g), (Cfg.free (constCfg M L c), k)] := by
  refine ⟨?_, ?_, ?_⟩
  · intro _ σ τ ρ hσ hτ hρ n hn d hd e he l hl _
    exact (quiet_pred3 h hL hl).1 (atTurn_const a (isPM_signOf hσ) hn l 1) (atTurn_const a (isPM_signOf hσ) hn l (-1))
      (settled_const b (isPM_signOf hτ) hd) (settled_const c (isPM_signOf hρ) he)
  · intro _ σ τ ρ hσ hτ hρ n hn d hd e he l hl _
    refine (pred3_swap01 lom L _ _ _).trans (Eq.trans ?_ (pred3_swap01 lom L _ _ _).symm)
    exact (quiet_pred3 h hL hl).2.1 (atTurn_const b (isPM_signOf hσ) hn l 1) (atTurn_const b (isPM_signOf hσ) hn l (-1))
      (settled_const a (isPM_signOf hτ) hd) (settled_const c (isPM_signOf hρ) he)
  · intro _ σ τ ρ hσ hτ hρ n hn d hd e he l hl _
    refine (pred3_rot lom L _ _ _).trans (Eq.trans ?_ (pred3_rot lom L _ _ _).symm)
    exact (quiet_pred3 h hL hl).2.2 (atTurn_const c (isPM_signOf hσ) hn l 1) (atTurn_const c (isPM_signOf hσ) hn l (-1))
      (settled_const a (isPM_signOf hτ) hd) (settled_const b (isPM_signOf hρ) he)

end LFM

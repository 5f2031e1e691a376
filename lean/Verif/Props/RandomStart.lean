import Verif.Lemmas.RandomStart
import Verif.Props.EveryModel
import Mathlib.Analysis.SpecificLimits.Normed

/-!
# C108: for every model, random initial values are likely to be such that inference ignores the data
-/

namespace LFM

open Spec Filter Topology

open Classical in
/-- **C108**, how often it happens, for all models with two factors: if all initial values are equally likely, as they are by
default, no entry is heard with probability at least `1 - 128/9 N D L^2 (3/4)^L` -/
theorem C108_random_start_2d (lom : Lom8) (N D L : Nat) :
    9 * (Finset.univ.filter fun c : Cfg N L × Cfg D L => ¬ Unheard lom [(Cfg.free c.1, false), (Cfg.free c.2, false)]).card * 4 ^ L ≤
      128 * N * D * L ^ 2 * 3 ^ L * Fintype.card (Cfg N L × Cfg D L) := by
  have hsub : (Finset.univ.filter fun c : Cfg N L × Cfg D L => ¬ Unheard lom [(Cfg.free c.1, false), (Cfg.free c.2, false)]) ⊆
      (Finset.univ.filter fun c : Cfg N L × Cfg D L => ¬ Unheard2 lom L (Cfg.free c.1, false) (Cfg.free c.2, false)) ∪
      ((Finset.univ.filter fun c : Cfg D L × Cfg N L => ¬ Unheard2 lom L (Cfg.free c.1, false) (Cfg.free c.2, false)).map
        (Equiv.prodComm _ _).toEmbedding) := by
    intro c hc
    have h := (Finset.mem_filter.1 hc).2
    by_cases h1 : Unheard2 lom L (Cfg.free c.1, false) (Cfg.free c.2, false)
    · by_cases h2 : Unheard2 lom L (Cfg.free c.2, false) (Cfg.free c.1, false)
      · exact absurd ⟨h1, h2⟩ h
      · refine Finset.mem_union_right _ (Finset.mem_map.2 ⟨(c.2, c.1), Finset.mem_filter.2 ⟨Finset.mem_univ _, h2⟩, rfl⟩)
    · exact Finset.mem_union_left _ (Finset.mem_filter.2 ⟨Finset.mem_univ _, h1⟩)
  have hle := (Finset.card_le_card hsub).trans (Finset.card_union_le _ _)
  rw [Finset.card_map] at hle
  have e1 := card_heard2 lom N D L
  have e2 := card_heard2 lom D N L
  have e3 : Fintype.card (Cfg D L × Cfg N L) = Fintype.card (Cfg N L × Cfg D L) := Fintype.card_congr (Equiv.prodComm _ _)
  rw [e3] at e2
  refine (Nat.mul_le_mul_right _ (Nat.mul_le_mul_left _ hle)).trans ?_
  rw [Nat.mul_add, Nat.add_mul]
  refine (Nat.add_le_add e1 e2).trans (le_of_eq ?_)
  ring

open Classical in
/-- **C108**, the same for three factors: the probability is at least `1 - 1536/49 N D M L^2 (7/8)^L` -/
theorem C108_random_start_3d (lom : Lom8) (N D M L : Nat) :
    49 * (Finset.univ.filter fun c : Cfg N L × Cfg D L × Cfg M L =>
        ¬ Unheard lom [(Cfg.free c.1, false), (Cfg.free c.2.1, false), (Cfg.free c.2.2, false)]).card * 8 ^ L ≤
      1536 * N * D * M * L ^ 2 * 7 ^ L * Fintype.card (Cfg N L × Cfg D L × Cfg M L) := by
  let e1 : Cfg D L × Cfg N L × Cfg M L ≃ Cfg N L × Cfg D L × Cfg M L :=
    ⟨fun c => (c.2.1, c.1, c.2.2), fun c => (c.2.1, c.1, c.2.2), fun _ => rfl, fun _ => rfl⟩
  let e2 : Cfg M L × Cfg N L × Cfg D L ≃ Cfg N L × Cfg D L × Cfg M L :=
    ⟨fun c => (c.2.1, c.2.2, c.1), fun c => (c.2.2, c.1, c.2.1), fun _ => rfl, fun _ => rfl⟩
  have hsub : (Finset.univ.filter fun c : Cfg N L × Cfg D L × Cfg M L =>
        ¬ Unheard lom [(Cfg.free c.1, false), (Cfg.free c.2.1, false), (Cfg.free c.2.2, false)]) ⊆
      (Finset.univ.filter fun c : Cfg N L × Cfg D L × Cfg M L =>
        ¬ Unheard3 lom L (Cfg.free c.1, false) (Cfg.free c.2.1, false) (Cfg.free c.2.2, false)) ∪
      (((Finset.univ.filter fun c : Cfg D L × Cfg N L × Cfg M L =>
        ¬ Unheard3 lom L (Cfg.free c.1, false) (Cfg.free c.2.1, false) (Cfg.free c.2.2, false)).map e1.toEmbedding) ∪
      ((Finset.univ.filter fun c : Cfg M L × Cfg N L × Cfg D L =>
        ¬ Unheard3 lom L (Cfg.free c.1, false) (Cfg.free c.2.1, false) (Cfg.free c.2.2, false)).map e2.toEmbedding)) := by
    intro c hc
    have h := (Finset.mem_filter.1 hc).2
    by_cases h1 : Unheard3 lom L (Cfg.free c.1, false) (Cfg.free c.2.1, false) (Cfg.free c.2.2, false)
    · refine Finset.mem_union_right _ ?_
      by_cases h2 : Unheard3 lom L (Cfg.free c.2.1, false) (Cfg.free c.1, false) (Cfg.free c.2.2, false)
      · by_cases h3 : Unheard3 lom L (Cfg.free c.2.2, false) (Cfg.free c.1, false) (Cfg.free c.2.1, false)
        · exact absurd ⟨h1, h2, h3⟩ h
        · exact Finset.mem_union_right _ (Finset.mem_map.2 ⟨(c.2.2, c.1, c.2.1), Finset.mem_filter.2 ⟨Finset.mem_univ _, h3⟩, rfl⟩)
      · exact Finset.mem_union_left _ (Finset.mem_map.2 ⟨(c.2.1, c.1, c.2.2), Finset.mem_filter.2 ⟨Finset.mem_univ _, h2⟩, rfl⟩)
    · exact Finset.mem_union_left _ (Finset.mem_filter.2 ⟨Finset.mem_univ _, h1⟩)
  have hle := (Finset.card_le_card hsub).trans ((Finset.card_union_le _ _).trans (Nat.add_le_add_left (Finset.card_union_le _ _) _))
  rw [Finset.card_map, Finset.card_map] at hle
  have h1 := card_heard3 lom N D M L
  have h2 := card_heard3 lom D N M L
  have h3 := card_heard3 lom M N D L
  rw [Fintype.card_congr e1] at h2
  rw [Fintype.card_congr e2] at h3
  refine (Nat.mul_le_mul_right _ (Nat.mul_le_mul_left _ hle)).trans ?_
  rw [Nat.mul_add, Nat.mul_add, Nat.add_mul, Nat.add_mul]
  refine (Nat.add_le_add h1 (Nat.add_le_add h2 h3)).trans (le_of_eq ?_)
  ring

namespace Spec

/-- from the initial values `c` of two factors, inference with the default settings sees nothing of any data, whatever is drawn -/
def Blind2 (lom : Lom8) {N D L : Nat} (c : Cfg N L × Cfg D L) : Prop :=
  ∀ (X : Arr Int) (_ : X.shape = [N, D]) (rnd : Nat → Nat → Rnd) (perm : Nat → List Nat → List Nat) (_ : ∀ t l, (perm t l).Perm l),
    SeesNothing (plainWiring lom rnd perm) (plainMach lom c.1 c.2 X) 50 15 0.005 30 2000 10 0

open Classical in
/-- the fraction of the initial values for which this is so -/
noncomputable def blindFraction2 (lom : Lom8) (N D L : Nat) : ℝ :=
  (Finset.univ.filter fun c : Cfg N L × Cfg D L => Blind2 lom c).card / Fintype.card (Cfg N L × Cfg D L)

/-- the same for three factors -/
def Blind3 (lom : Lom8) {N D M L : Nat} (c : Cfg N L × Cfg D L × Cfg M L) : Prop :=
  ∀ (X : Arr Int) (_ : X.shape = [N, D, M]) (rnd : Nat → Nat → Rnd) (perm : Nat → List Nat → List Nat) (_ : ∀ t l, (perm t l).Perm l),
    SeesNothing (tensorWiring lom rnd perm) (tensorMach lom c.1 c.2.1 c.2.2 X) 50 15 0.005 30 2000 10 0

open Classical in
noncomputable def blindFraction3 (lom : Lom8) (N D M L : Nat) : ℝ :=
  (Finset.univ.filter fun c : Cfg N L × Cfg D L × Cfg M L => Blind3 lom c).card / Fintype.card (Cfg N L × Cfg D L × Cfg M L)

end Spec

theorem blind2_of_unheard {lom : Lom8} {N D L : Nat} {c : Cfg N L × Cfg D L}
    (h : Unheard lom [(Cfg.free c.1, false), (Cfg.free c.2, false)]) : Blind2 lom c := by
  intro X hX rnd perm hp
  refine sees_nothing (plain_single lom c.1 c.2 X rnd perm hp) hX (plain_legal lom c.1 c.2 X) rfl rfl hp
    (fun i _ => ⟨rfl, fun s hs => by cases hs⟩) h ?_ 50 15 30 0.005 2000 10 0 (.inl rfl) (by norm_num) (by norm_num) (by norm_num) (by decide)
  intro i hi idx
  simp only [plainLayer, List.mem_cons, List.not_mem_nil, or_false] at hi
  rcases hi with rfl | rfl <;> simp [plainMach, deafWorld, Arr.full]

theorem blind3_of_unheard {lom : Lom8} {N D M L : Nat} {c : Cfg N L × Cfg D L × Cfg M L}
    (h : Unheard lom [(Cfg.free c.1, false), (Cfg.free c.2.1, false), (Cfg.free c.2.2, false)]) : Blind3 lom c := by
  intro X hX rnd perm hp
  refine sees_nothing (tensor_single lom c.1 c.2.1 c.2.2 X rnd perm hp) hX (tensor_legal lom c.1 c.2.1 c.2.2 X) rfl rfl hp
    (fun i _ => ⟨rfl, fun s hs => by cases hs⟩) h ?_ 50 15 30 0.005 2000 10 0 (.inl rfl) (by norm_num) (by norm_num) (by norm_num) (by decide)
  intro i hi idx
  simp only [List.mem_cons, List.not_mem_nil, or_false] at hi
  rcases hi with rfl | rfl | rfl <;> simp [tensorMach, tensorWorld, Cfg.free, Arr.full]

open Classical in
/-- from a bound on the exceptions to a fraction -/
theorem fraction_of_count {α : Type} [Fintype α] [Nonempty α] {P Q : α → Prop} (hPQ : ∀ x, Q x → P x) {a b : Nat} (ha : 0 < a)
    (h : a * (Finset.univ.filter fun x => ¬ Q x).card ≤ b * Fintype.card α) :
    1 - (b : ℝ) / a ≤ (Finset.univ.filter fun x => P x).card / Fintype.card α := by
  have hc : (0 : ℝ) < Fintype.card α := by exact_mod_cast Fintype.card_pos
  have ha' : (0 : ℝ) < a := by exact_mod_cast ha
  have h1 : (Finset.univ.filter fun x => Q x).card + (Finset.univ.filter fun x => ¬ Q x).card = Fintype.card α := by
    rw [Finset.card_filter_add_card_filter_not, Finset.card_univ]
  have h2 : (Finset.univ.filter fun x => Q x).card ≤ (Finset.univ.filter fun x => P x).card :=
    Finset.card_le_card fun x hx => Finset.mem_filter.2 ⟨Finset.mem_univ _, hPQ x (Finset.mem_filter.1 hx).2⟩
  rw [le_div_iff₀ hc]
  have h1' : ((Finset.univ.filter fun x => Q x).card : ℝ) + (Finset.univ.filter fun x => ¬ Q x).card = Fintype.card α := by exact_mod_cast h1
  have h2' : ((Finset.univ.filter fun x => Q x).card : ℝ) ≤ (Finset.univ.filter fun x => P x).card := by exact_mod_cast h2
  have h' : (a : ℝ) * (Finset.univ.filter fun x => ¬ Q x).card ≤ b * Fintype.card α := by exact_mod_cast h
  have : ((Finset.univ.filter fun x => ¬ Q x).card : ℝ) ≤ (b : ℝ) / a * Fintype.card α := by
    rw [div_mul_eq_mul_div, le_div_iff₀ ha']
    linarith
  nlinarith

/-- **C108** with default settings: for every model with two factors and `L` latent dimensions, inference from random initial values sees
nothing of the data with probability at least `1 - 128/9 N D L^2 (3/4)^L`, whatever the data and whatever else is drawn -/
theorem C108_random_default_2d (lom : Lom8) (N D L : Nat) :
    1 - 128 / 9 * (N * D * L ^ 2) * (3 / 4 : ℝ) ^ L ≤ blindFraction2 lom N D L := by
  have h := C108_random_start_2d lom N D L
  have := fraction_of_count (P := fun c : Cfg N L × Cfg D L => Blind2 lom c)
    (Q := fun c => Unheard lom [(Cfg.free c.1, false), (Cfg.free c.2, false)]) (a := 9 * 4 ^ L) (b := 128 * N * D * L ^ 2 * 3 ^ L)
    (fun c hc => blind2_of_unheard hc) (by positivity) (by
      refine le_trans (le_of_eq ?_) h
      ring)
  refine le_trans (le_of_eq ?_) this
  rw [div_pow]
  push_cast
  field_simp

/-- **C108** with default settings, three factors -/
theorem C108_random_default_3d (lom : Lom8) (N D M L : Nat) :
    1 - 1536 / 49 * (N * D * M * L ^ 2) * (7 / 8 : ℝ) ^ L ≤ blindFraction3 lom N D M L := by
  have h := C108_random_start_3d lom N D M L
  have := fraction_of_count (P := fun c : Cfg N L × Cfg D L × Cfg M L => Blind3 lom c)
    (Q := fun c => Unheard lom [(Cfg.free c.1, false), (Cfg.free c.2.1, false), (Cfg.free c.2.2, false)]) (a := 49 * 8 ^ L)
    (b := 1536 * N * D * M * L ^ 2 * 7 ^ L)
    (fun c hc => blind3_of_unheard hc) (by positivity) (by
      refine le_trans (le_of_eq ?_) h
      ring)
  refine le_trans (le_of_eq ?_) this
  rw [div_pow]
  push_cast
  field_simp

open Classical in
theorem fraction_le_one {α : Type} [Fintype α] (P : α → Prop) : ((Finset.univ.filter fun x => P x).card : ℝ) / Fintype.card α ≤ 1 := by
  refine div_le_one_of_le₀ ?_ (by positivity)
  exact_mod_cast Finset.card_le_univ _

/-- **C108** with default settings: for data of any given size, whatever they are, this probability tends to 1 as the number of latent
dimensions grows, for every model -/
theorem C108_random_limit (lom : Lom8) (N D M : Nat) :
    Tendsto (fun L => blindFraction2 lom N D L) atTop (𝓝 1) ∧ Tendsto (fun L => blindFraction3 lom N D M L) atTop (𝓝 1) := by
  have key : ∀ (K r : ℝ), |r| < 1 → Tendsto (fun L : Nat => 1 - K * ((L : ℝ) ^ 2 * r ^ L)) atTop (𝓝 1) := by
    intro K r hr
    have h := (tendsto_pow_const_mul_const_pow_of_abs_lt_one 2 hr).const_mul K
    simpa using h.const_sub 1
  constructor
  · refine tendsto_of_tendsto_of_tendsto_of_le_of_le (key (128 / 9 * (N * D)) (3 / 4) (by rw [abs_of_pos] <;> norm_num)) tendsto_const_nhds ?_ ?_
    · intro L
      refine le_trans (le_of_eq ?_) (C108_random_default_2d lom N D L)
      ring
    · intro L
      exact fraction_le_one _
  · refine tendsto_of_tendsto_of_tendsto_of_le_of_le (key (1536 / 49 * (N * D * M)) (7 / 8) (by rw [abs_of_pos] <;> norm_num)) tendsto_const_nhds ?_ ?_
    · intro L
      refine le_trans (le_of_eq ?_) (C108_random_default_3d lom N D M L)
      ring
    · intro L
      exact fraction_le_one _

/-- the bound is not void: 10 x 10 data and 100 latent dimensions, any model -/
theorem C108_random_example (lom : Lom8) : 0.9999 ≤ blindFraction2 lom 10 10 100 := by
  refine le_trans ?_ (C108_random_default_2d lom 10 10 100)
  norm_num

end LFM

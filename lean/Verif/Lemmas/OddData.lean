import Verif.Lemmas.Mixing
import Verif.Lemmas.RelabelData

/-!
# Lemmas: data with odd numbers of observed cells
-/

namespace LFM

open Spec

/-- the operators on two arguments -/
def holds2 : LOp → Bool → Bool → Bool
  | .AND, a, b => a && b
  | .NAND, a, b => !(a && b)
  | .OR, a, b => a || b
  | .NOR, a, b => !(a || b)
  | .XOR, a, b => a != b
  | .NXOR, a, b => a == b

/-- the operators on one argument -/
def holds1 : LOp → Bool → Bool
  | .AND, a => a
  | .NAND, a => !a
  | .OR, a => a
  | .NOR, a => !a
  | .XOR, a => a
  | .NXOR, a => !a

open Classical in
theorem holds2_iff (op : LOp) (p : Fin 2 → Prop) : op.Holds p ↔ holds2 op (decide (p 0)) (decide (p 1)) = true := by
  cases op <;> simp only [LOp.Holds, ExistsUnique, Fin.forall_fin_two, Fin.exists_fin_two] <;>
    by_cases h0 : p 0 <;> by_cases h1 : p 1 <;> simp [holds2, h0, h1]

open Classical in
theorem holds1_iff (op : LOp) (p : Fin 1 → Prop) : op.Holds p ↔ holds1 op (decide (p 0)) = true := by
  cases op <;> simp only [LOp.Holds, ExistsUnique, Fin.forall_fin_one, Fin.exists_fin_one] <;>
    by_cases h0 : p 0 <;> simp [holds1, h0]

/-- predictions of models with two latent dimensions -/
def table2 (m : Lom8) (z0 z1 u0 u1 : Bool) : Int :=
  if holds2 m.outer (holds2 m.inner z0 u0) (holds2 m.inner z1 u1) then 1 else -1

/-- predictions of models with one latent dimension -/
def table1 (m : Lom8) (z0 u0 : Bool) : Int := if holds1 m.outer (holds2 m.inner z0 u0) then 1 else -1

theorem pred2_two (m : Lom8) (z u : Nat → Int) :
    pred2 m 2 z u = table2 m (decide (z 0 = 1)) (decide (z 1 = 1)) (decide (u 0 = 1)) (decide (u 1 = 1)) := by
  classical
  unfold pred2 lom pm table2
  simp only [holds2_iff]
  refine if_congr ?_ rfl rfl
  simp
  congr! <;> exact decide_eq_decide.2 Iff.rfl

theorem pred2_one (m : Lom8) (z u : Nat → Int) : pred2 m 1 z u = table1 m (decide (z 0 = 1)) (decide (u 0 = 1)) := by
  classical
  unfold pred2 lom pm table1
  simp only [holds2_iff, holds1_iff]
  refine if_congr ?_ rfl rfl
  simp

/-- change of the prediction -/
noncomputable def change (m : Lom8) (L : Nat) (z u : Nat → Int) (l : Nat) : Int :=
  pred2 m L (setEntry z l 1) u - pred2 m L (setEntry z l (-1)) u

theorem decide_neg {x : Int} (hx : IsPM x) : decide (-x = 1) = !decide (x = 1) := by
  rcases hx with e | e <;> rw [e] <;> decide

theorem table_two (m : Lom8) (hm : m ≠ .OR_NAND) : ∀ a : Bool,
    ((∀ u0 u1 : Bool, ((table2 m true a u0 u1 - table2 m false a u0 u1) + (table2 m true a (!u0) (!u1) - table2 m false a (!u0) (!u1))) % 4 = 2) ∨
    (∀ u0 u1 : Bool, ((table2 m true (!a) u0 u1 - table2 m false (!a) u0 u1) +
      (table2 m true (!a) (!u0) (!u1) - table2 m false (!a) (!u0) (!u1))) % 4 = 2) ∨
    (∀ u0 u1 : Bool, (table2 m true a u0 u1 - table2 m false a u0 u1) % 4 = 2)) ∧
    ((∀ u0 u1 : Bool, ((table2 m a true u0 u1 - table2 m a false u0 u1) + (table2 m a true (!u0) (!u1) - table2 m a false (!u0) (!u1))) % 4 = 2) ∨
    (∀ u0 u1 : Bool, ((table2 m (!a) true u0 u1 - table2 m (!a) false u0 u1) +
      (table2 m (!a) true (!u0) (!u1) - table2 m (!a) false (!u0) (!u1))) % 4 = 2) ∨
    (∀ u0 u1 : Bool, (table2 m a true u0 u1 - table2 m a false u0 u1) % 4 = 2)) := by
  cases m <;> first | exact absurd rfl hm | decide

theorem table_one (m : Lom8) :
    (∀ u0 : Bool, ((table1 m true u0 - table1 m false u0) + (table1 m true (!u0) - table1 m false (!u0))) % 4 = 2) ∨
    (∀ u0 : Bool, (table1 m true u0 - table1 m false u0) % 4 = 2) := by
  cases m <;> decide

/-- for every configuration of a row of the other factor, an entry is relevant for one of a row and its opposite -/
theorem change_cases (m : Lom8) {L : Nat} (hL : L ≤ 2) (hm : ¬ (m = .OR_NAND ∧ L = 2)) (z : Nat → Int) (hz : ∀ l, IsPM (z l))
    {l : Nat} (hl : l < L) :
    (∀ u : Nat → Int, (∀ l, IsPM (u l)) → (change m L z u l + change m L z (fun l => -u l) l) % 4 = 2) ∨
    (∀ u : Nat → Int, (∀ l, IsPM (u l)) →
      (change m L (fun l => -z l) u l + change m L (fun l => -z l) (fun l => -u l) l) % 4 = 2) ∨
    (∀ u : Nat → Int, (∀ l, IsPM (u l)) → change m L z u l % 4 = 2) := by
  have h1 : decide ((-1 : Int) = 1) = false := rfl
  obtain rfl | rfl : L = 1 ∨ L = 2 := by omega
  · obtain rfl : l = 0 := by omega
    have e : ∀ z u : Nat → Int, change m 1 z u 0 = table1 m true (decide (u 0 = 1)) - table1 m false (decide (u 0 = 1)) := by
      intro z u
      rw [change, pred2_one, pred2_one]
      simp [setEntry]
    simp only [e]
    rcases table_one m with h | h
    · left
      intro u hu
      rw [decide_neg (hu 0)]
      exact h _
    · right; right
      intro u hu
      exact h _
  · obtain rfl | rfl : l = 0 ∨ l = 1 := by omega
    · have e : ∀ z u : Nat → Int, change m 2 z u 0 = table2 m true (decide (z 1 = 1)) (decide (u 0 = 1)) (decide (u 1 = 1)) -
          table2 m false (decide (z 1 = 1)) (decide (u 0 = 1)) (decide (u 1 = 1)) := by
        intro z u
        rw [change, pred2_two, pred2_two]
        simp [setEntry]
      simp only [e, decide_neg (hz 1)]
      rcases (table_two m (fun h => hm ⟨h, rfl⟩) (decide (z 1 = 1))).1 with h | h | h
      · left
        intro u hu
        rw [decide_neg (hu 0), decide_neg (hu 1)]
        exact h _ _
      · right; left
        intro u hu
        rw [decide_neg (hu 0), decide_neg (hu 1)]
        exact h _ _
      · right; right
        intro u hu
        exact h _ _
    · have e : ∀ z u : Nat → Int, change m 2 z u 1 = table2 m (decide (z 0 = 1)) true (decide (u 0 = 1)) (decide (u 1 = 1)) -
          table2 m (decide (z 0 = 1)) false (decide (u 0 = 1)) (decide (u 1 = 1)) := by
        intro z u
        rw [change, pred2_two, pred2_two]
        simp [setEntry]
      simp only [e, decide_neg (hz 0)]
      rcases (table_two m (fun h => hm ⟨h, rfl⟩) (decide (z 0 = 1))).2 with h | h | h
      · left
        intro u hu
        rw [decide_neg (hu 0), decide_neg (hu 1)]
        exact h _ _
      · right; left
        intro u hu
        rw [decide_neg (hu 0), decide_neg (hu 1)]
        exact h _ _
      · right; right
        intro u hu
        exact h _ _

/-- a sum of changes over an odd number of observed cells -/
theorem odd_sum_ne {D : Nat} (x : Fin D → Int) (hx : ∀ d, IsData (x d)) (hodd : Odd (Finset.univ.filter fun d => x d ≠ 0).card)
    (g : Fin D → Int) (hg : ∀ d, g d % 4 = 2) : ∑ d, x d * g d ≠ 0 := by
  have key : (∑ d, x d * g d) % 4 = (∑ d, if x d ≠ 0 then (2 : Int) else 0) % 4 := by
    rw [Finset.sum_int_mod, Finset.sum_int_mod Finset.univ 4 (fun d => if x d ≠ 0 then (2 : Int) else 0)]
    congr 1
    refine Finset.sum_congr rfl fun d _ => ?_
    have := hg d
    rcases hx d with e | e | e <;> rw [e] <;> simp <;> omega
  rw [← Finset.sum_filter, Finset.sum_const, nsmul_eq_mul] at key
  obtain ⟨k, hk⟩ := hodd
  rw [hk] at key
  intro h0
  rw [h0] at key
  push_cast at key
  omega

/-- some pair of a row or its opposite with the other factor or its opposite makes the entry relevant -/
theorem row_matters (m : Lom8) {L : Nat} (hL : L ≤ 2) (hm : ¬ (m = .OR_NAND ∧ L = 2)) (z : Nat → Int) (hz : ∀ l, IsPM (z l))
    {l : Nat} (hl : l < L) {D : Nat} (u : Nat → Nat → Int) (hu : ∀ d l, IsPM (u d l)) (x : Nat → Int)
    (hx : ∀ d < D, IsData (x d)) (hodd : Odd (Finset.univ.filter fun d : Fin D => x d ≠ 0).card) :
    twiceScore2 m D L z u x l ≠ 0 ∨ twiceScore2 m D L z (fun d l => -u d l) x l ≠ 0 ∨
    twiceScore2 m D L (fun l => -z l) u x l ≠ 0 ∨ twiceScore2 m D L (fun l => -z l) (fun d l => -u d l) x l ≠ 0 := by
  have hs : ∀ z u, twiceScore2 m D L z u x l = ∑ d : Fin D, x d * change m L z (u d) l := fun z u => rfl
  simp only [hs]
  rcases change_cases m hL hm z hz hl with h | h | h
  · have := odd_sum_ne (fun d : Fin D => x d) (fun d => hx d d.2) hodd _ (fun d => h (u d) (hu d))
    simp only [mul_add, Finset.sum_add_distrib] at this
    by_contra hc
    push Not at hc
    rw [hc.1, hc.2.1] at this
    exact this rfl
  · have := odd_sum_ne (fun d : Fin D => x d) (fun d => hx d d.2) hodd _ (fun d => h (u d) (hu d))
    simp only [mul_add, Finset.sum_add_distrib] at this
    by_contra hc
    push Not at hc
    rw [hc.2.2.1, hc.2.2.2] at this
    exact this rfl
  · exact .inl (odd_sum_ne (fun d : Fin D => x d) (fun d => hx d d.2) hodd _ (fun d => h (u d) (hu d)))

namespace Spec.Hier

variable {h : Hier}

/-- if every entry matters in every state then all states are linked -/
theorem mixing_of_matters {free : h.Site → Prop} {s0 : h.State} (hmat : ∀ s q, free q → Matters free s q) : h.Mixing free s0 := by
  classical
  intro s s' hs hs'
  obtain ⟨n, hn⟩ : ∃ n, n = (Finset.univ.filter fun q : h.Site => s q.1 q.2 ≠ s' q.1 q.2).card := ⟨_, rfl⟩
  induction n generalizing s with
  | zero =>
    have : s = s' := by
      funext i e
      by_contra hc
      have hmem : (⟨i, e⟩ : h.Site) ∈ Finset.univ.filter fun q : h.Site => s q.1 q.2 ≠ s' q.1 q.2 :=
        Finset.mem_filter.2 ⟨Finset.mem_univ _, hc⟩
      rw [Finset.card_eq_zero.1 hn.symm] at hmem
      exact Finset.notMem_empty _ hmem
    rw [this]
  | succ n ih =>
    obtain ⟨q, hq⟩ := Finset.card_pos.1 (by rw [← hn]; omega : 0 < (Finset.univ.filter fun q : h.Site => s q.1 q.2 ≠ s' q.1 q.2).card)
    have hne := (Finset.mem_filter.1 hq).2
    have hf : free q := by
      by_contra hc
      exact hne ((hs q hc).trans (hs' q hc).symm)
    refine Relation.ReflTransGen.head ⟨q, hmat s q hf, (differAt_iff s (flipAt q s) q).2 rfl⟩ (ih (flipAt q s) ?_ ?_)
    · intro q' hq'
      have : q' ≠ q := by rintro rfl; exact hq' hf
      rw [flipAt_of_ne this]
      exact hs q' hq'
    · have he : (Finset.univ.filter fun q' : h.Site => flipAt q s q'.1 q'.2 ≠ s' q'.1 q'.2) =
          (Finset.univ.filter fun q : h.Site => s q.1 q.2 ≠ s' q.1 q.2).erase q := by
        ext q'
        simp only [Finset.mem_filter, Finset.mem_univ, true_and, Finset.mem_erase]
        by_cases he : q' = q
        · subst he
          rw [flipAt_self]
          revert hne
          cases s q'.1 q'.2 <;> cases s' q'.1 q'.2 <;> simp
        · rw [flipAt_of_ne he]
          simp [he]
      rw [he, Finset.card_erase_of_mem hq, ← hn]
      rfl

theorem twiceScore2_size {m : Lom8} {D D' L : Nat} {z : Nat → Int} {u : Nat → Nat → Int} {x : Nat → Int} {l : Nat} (hD : D = D') :
    twiceScore2 m D L z u x l = twiceScore2 m D' L z u x l := by rw [hD]

/-- the other factor of the layer, and the data of one row or column -/
structure OneLayer (h : Hier) (k : HLayer) (i j : Fin h.M) (X : Nat → Nat → Int) : Prop where
  layers : h.layers = [k]
  two : k.v = none
  sides : ((i : Nat) = k.z ∧ (j : Nat) = k.u ∧ X = fun n d => h.data k.child [n, d]) ∨
    ((i : Nat) = k.u ∧ (j : Nat) = k.z ∧ X = fun n d => h.data k.child [d, n])

namespace OneLayer

variable {k : HLayer} {i j : Fin h.M} {X : Nat → Nat → Int}

theorem mem (O : OneLayer h k i j X) : k ∈ h.layers := by rw [O.layers]; simp

theorem ne (O : OneLayer h k i j X) (H : h.Legal) : j ≠ i := by
  have := H.nodup
  rw [O.layers] at this
  simp only [List.flatMap_cons, List.flatMap_nil, List.append_nil, HLayer.factors, O.two, Option.toList_none, List.nodup_cons,
    List.mem_cons, List.not_mem_nil, or_false] at this
  rintro rfl
  rcases O.sides with ⟨a, b, -⟩ | ⟨a, b, -⟩
  · exact this.1 (a.symm.trans b)
  · exact this.1 (b.symm.trans a)

theorem child_ge (O : OneLayer h k i j X) (H : h.Legal) : h.M ≤ k.child := by
  by_contra hc
  obtain ⟨k', hk', hm⟩ := H.owner k.child (by omega)
  rw [O.layers, List.mem_singleton] at hk'
  subst hk'
  exact H.child k' O.mem hm

theorem no_parents (O : OneLayer h k i j X) (H : h.Legal) (i' : Fin h.M) : h.parentsOf i' = [] := by
  have := O.child_ge H
  have := i'.2
  rw [parentsOf, O.layers, List.filter_cons, if_neg (by simp; omega)]
  rfl

theorem own (O : OneLayer h k i j X) : (i : Nat) ∈ k.factors := by
  rcases O.sides with ⟨a, -⟩ | ⟨a, -⟩
  · rw [a]; exact mem_z k
  · rw [a]; exact mem_u k

theorem cols_eq (O : OneLayer h k i j X) (H : h.Legal) : h.cols i = h.cols k.z ∧ h.cols j = h.cols k.z := by
  obtain ⟨-, -, e⟩ := H.sizes2 k O.mem O.two
  rcases O.sides with ⟨a, b, -⟩ | ⟨a, b, -⟩ <;> rw [a, b] <;> simp [e]

theorem data (O : OneLayer h k i j X) (H : h.Legal) (n d : Nat) (hn : n < h.rows i) (hd : d < h.rows j) : IsData (X n d) := by
  obtain ⟨e1, e2, -⟩ := H.sizes2 k O.mem O.two
  obtain ⟨e3, e4⟩ := H.data2 k O.mem O.two (O.child_ge H)
  rcases O.sides with ⟨a, b, rfl⟩ | ⟨a, b, rfl⟩
  · rw [a, e1] at hn
    rw [b, e2] at hd
    exact e4 [n, d] (by rw [e3]; exact ⟨hn, hd, trivial⟩)
  · rw [a, e2] at hn
    rw [b, e1] at hd
    exact e4 [d, n] (by rw [e3]; exact ⟨hd, hn, trivial⟩)

theorem val_child (O : OneLayer h k i j X) (H : h.Legal) (x : h.State) :
    h.val x k.child = fun n d => h.data k.child [n, d] := by
  unfold val
  rw [dif_neg (by have := O.child_ge H; omega)]

theorem val_at (x : h.State) (i' : Fin h.M) : h.val x i' = Cfg.fac (x i') := by
  unfold val
  rw [dif_pos i'.2]

/-- log-odds of an entry -/
theorem odds (O : OneLayer h k i j X) (H : h.Legal) (hprior : h.prior i = 1 / 2) (x : h.State) (e : Fin (h.rows i) × Fin (h.cols i)) :
    Real.log (h.joint (Function.update x i (Function.update (x i) e true))) -
      Real.log (h.joint (Function.update x i (Function.update (x i) e false))) =
    k.lbda * (twiceScore2 k.model (h.rows j) (h.cols k.z) (Cfg.fac (x i) e.1) (Cfg.fac (x j)) (X e.1) e.2 : ℝ) / 2 := by
  rw [joint_odds H x i e (x i) O.mem O.own, O.no_parents H i, hprior]
  have hlog : logit (1 / 2) = 0 := by
    unfold logit
    norm_num
  rw [hlog]
  simp only [List.map_nil, List.sum_nil, add_zero]
  have hne := O.ne H
  have hne' : ¬ (j : Nat) = i := fun hc => hne (Fin.ext hc)
  have hch := O.child_ge H
  have hch' : ¬ k.child = i := by have := i.2; omega
  obtain ⟨e1, e2, -⟩ := H.sizes2 k O.mem O.two
  unfold ownScore agree
  rw [O.two]
  simp only
  rw [val_update, val_update, val_update, val_update, val_update, val_update, if_neg hch', if_neg hch', O.val_child H x]
  have hf1 : Cfg.fac (Function.update (x i) e true) = (Cfg.fac (x i)).set e.1 e.2 1 := by rw [Cfg.fac_update]; rfl
  have hf0 : Cfg.fac (Function.update (x i) e false) = (Cfg.fac (x i)).set e.1 e.2 (-1) := by rw [Cfg.fac_update]; rfl
  rw [hf1, hf0]
  rcases O.sides with ⟨a, b, rfl⟩ | ⟨a, b, rfl⟩
  · rw [if_pos a.symm, if_pos a.symm, ← b, if_neg hne', if_neg hne', val_at, agreement2_set _ _ _ _ _ _ _ _ _ (by rw [← e1, ← a]; exact e.1.2),
      twiceScore2_size (by rw [b, e2] : h.rows j = h.cols k.child)]
  · rw [← b, if_neg hne', if_neg hne', if_pos a.symm, if_pos a.symm, val_at]
    rw [← agreement2_swap, ← agreement2_swap _ _ _ _ _ _ ((Cfg.fac (x i)).set e.1 e.2 (-1)),
      agreement2_set _ _ _ _ _ _ _ _ _ (by rw [← e2, ← a]; exact e.1.2),
      twiceScore2_size (by rw [b, e1] : h.rows j = h.rows k.child)]

theorem joint_ne (O : OneLayer h k i j X) (H : h.Legal) (hprior : h.prior i = 1 / 2) (hl : k.lbda ≠ 0) (x : h.State)
    (e : Fin (h.rows i) × Fin (h.cols i)) : h.joint (Function.update x i (Function.update (x i) e true)) ≠
      h.joint (Function.update x i (Function.update (x i) e false)) ↔
    twiceScore2 k.model (h.rows j) (h.cols k.z) (Cfg.fac (x i) e.1) (Cfg.fac (x j)) (X e.1) e.2 ≠ 0 := by
  have ho := O.odds H hprior x e
  rw [not_iff_not]
  constructor
  · intro he
    rw [he, sub_self] at ho
    have : (twiceScore2 k.model (h.rows j) (h.cols k.z) (Cfg.fac (x i) e.1) (Cfg.fac (x j)) (X e.1) e.2 : ℝ) = 0 := by
      rcases mul_eq_zero.1 ((div_eq_zero_iff.1 ho.symm).resolve_right (by norm_num)) with h1 | h1
      · exact absurd h1 hl
      · exact h1
    exact_mod_cast this
  · intro he
    rw [he] at ho
    simp only [Int.cast_zero, mul_zero, zero_div] at ho
    exact Real.log_injOn_pos (joint_pos H _) (joint_pos H _) (by linarith)

end OneLayer

theorem twiceScore2_congr (m : Lom8) (D L : Nat) {z z' : Nat → Int} {u u' : Nat → Nat → Int} (x : Nat → Int) (l : Nat)
    (hz : ∀ l < L, z' l = z l) (hu : ∀ d < D, ∀ l < L, u' d l = u d l) : twiceScore2 m D L z' u' x l = twiceScore2 m D L z u x l := by
  unfold twiceScore2
  refine Finset.sum_congr rfl fun d _ => ?_
  have hs : ∀ v, ∀ l' < L, setEntry z' l v l' = setEntry z l v l' := by
    intro v l' hl'
    unfold setEntry
    rw [hz l' hl']
  rw [pred2_rows m L (hs 1) (hu d d.2), pred2_rows m L (hs (-1)) (hu d d.2)]

theorem fac_not {N L : Nat} (c c' : Cfg N L) (hc : ∀ e, c' e = !(c e)) (n l : Nat) (hn : n < N) (hl : l < L) :
    Cfg.fac c' n l = -Cfg.fac c n l := by
  unfold Cfg.fac
  rw [dif_pos ⟨hn, hl⟩, dif_pos ⟨hn, hl⟩, hc]
  cases c (⟨n, hn⟩, ⟨l, hl⟩) <;> simp [sgn]

/-- every entry matters in every state -/
theorem matters_odd (H : h.Legal) {k : HLayer} {i j : Fin h.M} {X : Nat → Nat → Int} (O : OneLayer h k i j X)
    (hprior : h.prior i = 1 / 2) (hl : k.lbda ≠ 0) (hL : h.cols k.z ≤ 2) (hm : ¬ (k.model = .OR_NAND ∧ h.cols k.z = 2))
    (hodd : ∀ n < h.rows i, Odd (Finset.univ.filter fun d : Fin (h.rows j) => X n d ≠ 0).card)
    (s : h.State) (e : Fin (h.rows i) × Fin (h.cols i)) : Matters (fun _ => True) s ⟨i, e⟩ := by
  classical
  have hne := O.ne H
  obtain ⟨c1, c2⟩ := O.cols_eq H
  obtain ⟨x1, hx1⟩ : ∃ x, x = midway (fun _ => True) ∅ ⟨i, e⟩ s := ⟨_, rfl⟩
  obtain ⟨x2, hx2⟩ : ∃ x, x = midway (fun _ => True) {j} ⟨i, e⟩ s := ⟨_, rfl⟩
  obtain ⟨x3, hx3⟩ : ∃ x, x = midway (fun _ => True) ∅ ⟨i, e⟩ (opposite (fun _ => True) s) := ⟨_, rfl⟩
  obtain ⟨x4, hx4⟩ : ∃ x, x = midway (fun _ => True) {j} ⟨i, e⟩ (opposite (fun _ => True) s) := ⟨_, rfl⟩
  have hi2 : x2 i = x1 i := by
    funext e'
    rw [hx1, hx2]
    simp [midway, hne.symm]
  have hi3 : ∀ e', x3 i e' = !(x1 i e') := by
    intro e'
    rw [hx1, hx3]
    simp only [midway, opposite]
    split <;> simp
  have hi4 : ∀ e', x4 i e' = !(x1 i e') := by
    intro e'
    rw [hx1, hx4]
    simp only [midway, opposite, Finset.mem_singleton, Finset.notMem_empty, hne.symm, false_or]
    split <;> simp
  have hj2 : ∀ e', x2 j e' = !(x1 j e') := by
    intro e'
    rw [hx1, hx2]
    simp [midway, hne]
  have hj3 : ∀ e', x3 j e' = !(x1 j e') := by
    intro e'
    rw [hx1, hx3]
    simp [midway, opposite, hne]
  have hj4 : x4 j = x1 j := by
    funext e'
    rw [hx1, hx4]
    simp [midway, opposite, hne]
  have key := row_matters k.model hL hm (Cfg.fac (x1 i) e.1) (fun l => Cfg.isPM_fac _ _ _) (l := e.2) (by rw [← c1]; exact e.2.2)
    (D := h.rows j) (Cfg.fac (x1 j)) (fun d l => Cfg.isPM_fac _ _ _) (X e.1) (fun d hd => O.data H _ _ e.1.2 hd) (hodd e.1 e.1.2)
  have hz : ∀ x : h.State, (∀ e', x i e' = !(x1 i e')) → ∀ l < h.cols k.z, Cfg.fac (x i) e.1 l = -Cfg.fac (x1 i) e.1 l :=
    fun x hx l hl => fac_not _ _ hx _ _ e.1.2 (by rw [c1]; exact hl)
  have hu : ∀ x : h.State, (∀ e', x j e' = !(x1 j e')) → ∀ d < h.rows j, ∀ l < h.cols k.z, Cfg.fac (x j) d l = -Cfg.fac (x1 j) d l :=
    fun x hx d hd l hl => fac_not _ _ hx _ _ hd (by rw [c2]; exact hl)
  have hnj : i ∉ ({j} : Finset (Fin h.M)) := by rw [Finset.mem_singleton]; exact hne.symm
  refine ⟨trivial, ?_⟩
  rcases key with h1 | h1 | h1 | h1
  · exact ⟨∅, Finset.notMem_empty _, x1, .inl hx1, (O.joint_ne H hprior hl x1 e).2 h1⟩
  · refine ⟨{j}, hnj, x2, .inl hx2, (O.joint_ne H hprior hl x2 e).2 ?_⟩
    rw [hi2, twiceScore2_congr _ _ _ _ _ (fun _ _ => rfl) (hu x2 hj2)]
    exact h1
  · refine ⟨{j}, hnj, x4, .inr hx4, (O.joint_ne H hprior hl x4 e).2 ?_⟩
    rw [hj4, twiceScore2_congr _ _ _ _ _ (hz x4 hi4) (fun _ _ _ _ => rfl)]
    exact h1
  · refine ⟨∅, Finset.notMem_empty _, x3, .inr hx3, (O.joint_ne H hprior hl x3 e).2 ?_⟩
    rw [twiceScore2_congr _ _ _ _ _ (hz x3 hi3) (hu x3 hj3)]
    exact h1

end Spec.Hier

end LFM

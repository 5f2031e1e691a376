import Mathlib.Data.List.Count
import Mathlib.Algebra.BigOperators.Group.List.Basic
import Mathlib.Data.Fin.Basic
import Mathlib.Data.Nat.Count
import Mathlib.Tactic.Ring

/-! Closed forms of the loop shapes that occur in the model (all in the `Id` monad). -/

namespace LFM

open List

/-- a loop whose body never leaves early is a left fold -/
theorem run_forIn_yield {α β : Type} (xs : List α) (init : β) (body : α → β → Id (ForInStep β))
    (f : β → α → β) (h : ∀ a b, (body a b).run = .yield (f b a)) :
    (forIn xs init body).run = xs.foldl f init := by
  induction xs generalizing init with
  | nil => simp
  | cons x xs ih =>
    rw [List.forIn_cons]
    have hx := h x init
    simp only [Id.run_bind, hx, List.foldl_cons]
    exact ih _

/-- an accumulating loop is a sum -/
theorem run_forIn_add {α : Type} (xs : List α) (init : Int) (body : α → Int → Id (ForInStep Int))
    (t : α → Int) (h : ∀ a b, (body a b).run = .yield (b + t a)) :
    (forIn xs init body).run = init + (xs.map t).sum := by
  rw [run_forIn_yield xs init body (fun b a => b + t a) h]
  clear h
  induction xs generalizing init with
  | nil => simp
  | cons x xs ih => simp [ih, add_assoc]

/-- a loop that either stops with the final state `s` or leaves the state alone -/
theorem run_forIn_find {α σ : Type} (xs : List α) (s0 s : σ) (body : α → σ → Id (ForInStep σ))
    (p : α → Prop) [DecidablePred p]
    (h : ∀ a, (body a s0).run = if p a then .done s else .yield s0) :
    (forIn xs s0 body).run = if ∃ a ∈ xs, p a then s else s0 := by
  induction xs with
  | nil => simp
  | cons x xs ih =>
    rw [List.forIn_cons]
    have hx := h x
    by_cases hp : p x
    · simp only [hp, if_true] at hx
      simp [hx, hp]
    · simp only [hp, if_false] at hx
      simp only [Id.run_bind, hx]
      rw [show (forIn xs s0 body).run = _ from ih]
      simp [hp]

/-- `for l in range(n): if p l: return a` followed by `return b` -/
theorem run_find {β : Type} (n : Nat) (p : Nat → Prop) [DecidablePred p] (a b : β) :
    (Id.run do
      for l in List.range n do
        if p l then
          return a
      return b) = if ∃ l < n, p l then a else b := by
  simp only [Id.run_bind]
  rw [run_forIn_find (List.range n) _ (some a, ()) _ p (by intro a; split <;> rfl)]
  simp only [List.mem_range]
  by_cases h : ∃ l < n, p l
  · simp only [if_pos h]; rfl
  · simp only [if_neg h]; rfl

/-- counting loop with early return, as in the XOR products -/
theorem run_xor (n : Nat) (p : Nat → Prop) [DecidablePred p] :
    (Id.run do
      let mut c : Nat := 0
      for l in List.range n do
        if p l then
          c := c + 1
        if c > 1 then
          return (-1 : Int)
      if c = 1 then
        return 1
      else
        return -1) = if (List.range n).countP p = 1 then 1 else -1 := by
  simp only [Id.run_bind]
  have key : ∀ (xs : List Nat) (c : Nat), c ≤ 1 →
      ∀ body : Nat → Option Int × Nat → Id (ForInStep (Option Int × Nat)),
      (∀ l s, (body l s).run =
        if p l then if s.2 + 1 > 1 then .done (some (-1), s.2 + 1) else .yield (none, s.2 + 1)
        else if s.2 > 1 then .done (some (-1), s.2) else .yield (none, s.2)) →
      (forIn xs (none, c) body).run =
        if c + xs.countP p ≤ 1 then (none, c + xs.countP p) else (some (-1), 2) := by
    intro xs
    induction xs with
    | nil => intro c hc body _; simp [hc]
    | cons x xs ih =>
      intro c hc body hb
      rw [List.forIn_cons]
      have hx := hb x (none, c)
      by_cases hp : p x
      · by_cases h1 : c = 1
        · subst h1
          simp only [hp, if_true, show (1 + 1 > 1) by omega] at hx
          simp [hx, hp]
        · have h0 : c = 0 := by omega
          subst h0
          simp only [hp, if_true, show ¬ (0 + 1 > 1) by omega, if_false] at hx
          simp only [Id.run_bind, hx]
          rw [show (forIn xs (none, 0 + 1) body).run = _ from ih 1 (by omega) body hb]
          simp [hp, add_comm]
      · simp only [hp, if_false, show ¬ (c > 1) by omega] at hx
        simp only [Id.run_bind, hx]
        rw [show (forIn xs (none, c) body).run = _ from ih c hc body hb]
        simp [hp]
  rw [key _ 0 (by omega) _ (by intro l s; repeat (first | rfl | split))]
  rw [zero_add]
  by_cases h : (List.range n).countP p ≤ 1
  · simp only [if_pos h]; split <;> rfl
  · rw [if_neg h, if_neg (show ¬ (List.range n).countP p = 1 by omega)]; rfl

theorem countP_range_eq_card (n : Nat) (p : Nat → Prop) [DecidablePred p] :
    (List.range n).countP p = ((Finset.range n).filter p).card := by
  rw [← Nat.count_eq_card_filter_range]; rfl

/-- `countP` over a range is one iff there is exactly one index -/
theorem countP_range_eq_one (n : Nat) (p : Nat → Prop) [DecidablePred p] :
    (List.range n).countP p = 1 ↔ ∃! l : Fin n, p l := by
  rw [countP_range_eq_card, Finset.card_eq_one]
  constructor
  · rintro ⟨a, ha⟩
    have h : ∀ x, x ∈ (Finset.range n).filter p ↔ x = a := by simp [ha]
    simp only [Finset.mem_filter, Finset.mem_range] at h
    obtain ⟨h1, h2⟩ := (h a).2 rfl
    exact ⟨⟨a, h1⟩, h2, fun y hy => Fin.ext ((h y).1 ⟨y.2, hy⟩)⟩
  · rintro ⟨a, ha, hu⟩
    refine ⟨a, ?_⟩
    ext x
    simp only [Finset.mem_filter, Finset.mem_range, Finset.mem_singleton]
    constructor
    · rintro ⟨h1, h2⟩
      exact congrArg Fin.val (hu ⟨x, h1⟩ h2)
    · rintro rfl
      exact ⟨a.2, ha⟩

theorem exists_lt_iff_fin (n : Nat) (p : Nat → Prop) : (∃ l < n, p l) ↔ ∃ l : Fin n, p l :=
  ⟨fun ⟨l, h, hp⟩ => ⟨⟨l, h⟩, hp⟩, fun ⟨l, hp⟩ => ⟨l, l.2, hp⟩⟩


/-- counting loop that returns `1` as soon as the counter reaches `q`, started below `q` -/
theorem run_threshold (xs : List Nat) (p : Nat → Prop) [DecidablePred p] (q : Int) (c : Nat)
    (hc : (c : Int) < q) (body : Nat → Option Int × Nat → Id (ForInStep (Option Int × Nat)))
    (hb : ∀ l s, (body l s).run =
      if p l then
        if ((s.2 + 1 : Nat) : Int) = q then .done (some 1, s.2 + 1) else .yield (none, s.2 + 1)
      else if (s.2 : Int) = q then .done (some 1, s.2) else .yield (none, s.2)) :
    (forIn xs (none, c) body).run.1 =
      if q ≤ ((c + xs.countP p : Nat) : Int) then some 1 else none := by
  induction xs generalizing c with
  | nil => simp [hc]
  | cons x xs ih =>
    rw [List.forIn_cons]
    have hx := hb x (none, c)
    by_cases hp : p x
    · have hcount : (x :: xs).countP p = xs.countP p + 1 := by simp [hp]
      by_cases h1 : ((c + 1 : Nat) : Int) = q
      · simp only [hp, if_true, h1] at hx
        simp only [Id.run_bind, hx]
        rw [hcount, if_pos (by push_cast at h1 ⊢; omega)]; rfl
      · simp only [hp, if_true, h1, if_false] at hx
        simp only [Id.run_bind, hx]
        rw [show (forIn xs (none, c + 1) body).run.1 = _ from ih (c + 1) (by push_cast at h1 ⊢; omega),
          hcount, show c + 1 + xs.countP p = c + (xs.countP p + 1) by omega]
    · simp only [hp, if_false, show ¬ ((c : Int) = q) by omega] at hx
      simp only [Id.run_bind, hx]
      rw [show (forIn xs (none, c) body).run.1 = _ from ih c hc]
      simp [hp]

end LFM

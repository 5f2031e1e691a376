import Verif.Model.OutputDispatch
import Verif.Lemmas.Loops
import Verif.Lemmas.Arrays
import Mathlib.Data.Fintype.Card
import Mathlib.Logic.Equiv.Basic
import Verif.Spec.Logic

/-! Closed forms of the crisp output functions, and the logic they compute. -/

namespace LFM

open Spec

theorem OR_AND_product_eq (u z : Arr Int) : OR_AND_product u z =
    if ∃ l < u.dim 0, u [l] = 1 ∧ z [l] = 1 then 1 else -1 := by
  exact run_find _ (fun l => u [l] = 1 ∧ z [l] = 1) 1 (-1)
theorem OR_AND_product_3d_eq (u z v : Arr Int) : OR_AND_product_3d u z v =
    if ∃ l < u.dim 0, u [l] = 1 ∧ z [l] = 1 ∧ v [l] = 1 then 1 else -1 := by
  exact run_find _ (fun l => u [l] = 1 ∧ z [l] = 1 ∧ v [l] = 1) 1 (-1)
theorem OR_NAND_product_eq (u z : Arr Int) : OR_NAND_product u z =
    if ∃ l < u.dim 0, u [l] = -1 ∨ z [l] = -1 then 1 else -1 := by
  exact run_find _ (fun l => u [l] = -1 ∨ z [l] = -1) 1 (-1)
theorem OR_NAND_product_3d_eq (u z v : Arr Int) : OR_NAND_product_3d u z v =
    if ∃ l < u.dim 0, u [l] = -1 ∨ z [l] = -1 ∨ v [l] = -1 then 1 else -1 := by
  exact run_find _ (fun l => u [l] = -1 ∨ z [l] = -1 ∨ v [l] = -1) 1 (-1)
theorem OR_XOR_product_eq (u z : Arr Int) : OR_XOR_product u z =
    if ∃ l < u.dim 0, u [l] ≠ z [l] then 1 else -1 := by
  exact run_find _ (fun l => u [l] ≠ z [l]) 1 (-1)
theorem OR_XOR_product_3d_eq (u z v : Arr Int) : OR_XOR_product_3d u z v =
    if ∃ l < u.dim 0, u [l] + z [l] + v [l] = -1 then 1 else -1 := by
  exact run_find _ (fun l => u [l] + z [l] + v [l] = -1) 1 (-1)
theorem NAND_XOR_product_eq (u z : Arr Int) : NAND_XOR_product u z =
    if ∃ l < u.dim 0, u [l] = z [l] then 1 else -1 := by
  exact run_find _ (fun l => u [l] = z [l]) 1 (-1)
theorem NAND_XOR_product_3d_eq (u z v : Arr Int) : NAND_XOR_product_3d u z v =
    if ∃ l < u.dim 0, u [l] + z [l] + v [l] ≠ -1 then 1 else -1 := by
  exact run_find _ (fun l => u [l] + z [l] + v [l] ≠ -1) 1 (-1)

theorem XOR_AND_product_eq (u z : Arr Int) : XOR_AND_product u z =
    if (List.range (u.dim 0)).countP (fun l => u [l] = 1 ∧ z [l] = 1) = 1 then 1 else -1 := by
  exact run_xor _ (fun l => u [l] = 1 ∧ z [l] = 1)
theorem XOR_AND_product_3d_eq (u z v : Arr Int) : XOR_AND_product_3d u z v =
    if (List.range (u.dim 0)).countP (fun l => u [l] = 1 ∧ z [l] = 1 ∧ v [l] = 1) = 1
    then 1 else -1 := by
  exact run_xor _ (fun l => u [l] = 1 ∧ z [l] = 1 ∧ v [l] = 1)
theorem XOR_XOR_product_eq (u z : Arr Int) : XOR_XOR_product u z =
    if (List.range (u.dim 0)).countP (fun l => u [l] ≠ z [l]) = 1 then 1 else -1 := by
  exact run_xor _ (fun l => u [l] ≠ z [l])
theorem XOR_XOR_product_3d_eq (u z v : Arr Int) : XOR_XOR_product_3d u z v =
    if (List.range (u.dim 0)).countP (fun l => u [l] + z [l] + v [l] = -1) = 1
    then 1 else -1 := by
  exact run_xor _ (fun l => u [l] + z [l] + v [l] = -1)
theorem XOR_NXOR_product_eq (u z : Arr Int) : XOR_NXOR_product u z =
    if (List.range (u.dim 0)).countP (fun l => u [l] = z [l]) = 1 then 1 else -1 := by
  exact run_xor _ (fun l => u [l] = z [l])
theorem XOR_NXOR_product_3d_eq (u z v : Arr Int) : XOR_NXOR_product_3d u z v =
    if (List.range (u.dim 0)).countP (fun l => u [l] + z [l] + v [l] ≠ -1) = 1
    then 1 else -1 := by
  exact run_xor _ (fun l => u [l] + z [l] + v [l] ≠ -1)
theorem XOR_NAND_product_eq (u z : Arr Int) : XOR_NAND_product u z =
    if (List.range (u.dim 0)).countP (fun l => u [l] ≠ 1 ∨ z [l] ≠ 1) = 1 then 1 else -1 := by
  exact run_xor _ (fun l => u [l] ≠ 1 ∨ z [l] ≠ 1)
theorem XOR_NAND_product_3d_eq (u z v : Arr Int) : XOR_NAND_product_3d u z v =
    if (List.range (u.dim 0)).countP (fun l => u [l] ≠ 1 ∨ z [l] ≠ 1 ∨ v [l] ≠ 1) = 1
    then 1 else -1 := by
  exact run_xor _ (fun l => u [l] ≠ 1 ∨ z [l] ≠ 1 ∨ v [l] ≠ 1)

theorem Spec.PMArr.one {a : Arr Int} {L : Nat} (h : PMArr a) (hs : a.shape = [L]) {l : Nat}
    (hl : l < L) : IsPM (a [l]) := h [l] (by rw [hs]; exact ⟨hl, trivial⟩)

theorem Spec.PMArr.row {a : Arr Int} {N L : Nat} (h : PMArr a) (hs : a.shape = [N, L]) {n : Nat}
    (hn : n < N) : (a.row n).shape = [L] ∧ PMArr (a.row n) := by
  have h1 : (a.row n).shape = [L] := by simp [Arr.row, hs]
  refine ⟨h1, fun idx hi => ?_⟩
  rw [h1] at hi
  exact h (n :: idx) (by rw [hs]; exact ⟨hn, hi⟩)

theorem pm_eq_ite (P : Prop) [Decidable P] : pm P = if P then 1 else -1 := by
  unfold pm; split <;> simp_all

theorem pm_congr {P Q : Prop} (h : P ↔ Q) : pm P = pm Q := by rw [propext h]

section inner
variable {a b c : Int}

theorem and2 (ha : IsPM a) (hb : IsPM b) :
    LOp.AND.Holds (fun k : Fin 2 => ![a, b] k = 1) ↔ a = 1 ∧ b = 1 := by
  rcases ha with rfl | rfl <;> rcases hb with rfl | rfl <;> simp only [LOp.Holds] <;> decide
theorem nand2 (ha : IsPM a) (hb : IsPM b) :
    LOp.NAND.Holds (fun k : Fin 2 => ![a, b] k = 1) ↔ a = -1 ∨ b = -1 := by
  rcases ha with rfl | rfl <;> rcases hb with rfl | rfl <;> simp only [LOp.Holds] <;> decide
theorem nand2' (ha : IsPM a) (hb : IsPM b) :
    LOp.NAND.Holds (fun k : Fin 2 => ![a, b] k = 1) ↔ a ≠ 1 ∨ b ≠ 1 := by
  rcases ha with rfl | rfl <;> rcases hb with rfl | rfl <;> simp only [LOp.Holds] <;> decide
theorem xor2 (ha : IsPM a) (hb : IsPM b) :
    LOp.XOR.Holds (fun k : Fin 2 => ![a, b] k = 1) ↔ a ≠ b := by
  rcases ha with rfl | rfl <;> rcases hb with rfl | rfl <;>
    simp only [LOp.Holds, ExistsUnique] <;> decide
theorem nxor2 (ha : IsPM a) (hb : IsPM b) :
    LOp.NXOR.Holds (fun k : Fin 2 => ![a, b] k = 1) ↔ a = b := by
  rcases ha with rfl | rfl <;> rcases hb with rfl | rfl <;>
    simp only [LOp.Holds, ExistsUnique] <;> decide

theorem and3 (ha : IsPM a) (hb : IsPM b) (hc : IsPM c) :
    LOp.AND.Holds (fun k : Fin 3 => ![a, b, c] k = 1) ↔ a = 1 ∧ b = 1 ∧ c = 1 := by
  rcases ha with rfl | rfl <;> rcases hb with rfl | rfl <;> rcases hc with rfl | rfl <;>
    simp only [LOp.Holds] <;> decide
theorem nand3 (ha : IsPM a) (hb : IsPM b) (hc : IsPM c) :
    LOp.NAND.Holds (fun k : Fin 3 => ![a, b, c] k = 1) ↔ a = -1 ∨ b = -1 ∨ c = -1 := by
  rcases ha with rfl | rfl <;> rcases hb with rfl | rfl <;> rcases hc with rfl | rfl <;>
    simp only [LOp.Holds] <;> decide
theorem nand3' (ha : IsPM a) (hb : IsPM b) (hc : IsPM c) :
    LOp.NAND.Holds (fun k : Fin 3 => ![a, b, c] k = 1) ↔ a ≠ 1 ∨ b ≠ 1 ∨ c ≠ 1 := by
  rcases ha with rfl | rfl <;> rcases hb with rfl | rfl <;> rcases hc with rfl | rfl <;>
    simp only [LOp.Holds] <;> decide
theorem xor3 (ha : IsPM a) (hb : IsPM b) (hc : IsPM c) :
    LOp.XOR.Holds (fun k : Fin 3 => ![a, b, c] k = 1) ↔ a + b + c = -1 := by
  rcases ha with rfl | rfl <;> rcases hb with rfl | rfl <;> rcases hc with rfl | rfl <;>
    simp only [LOp.Holds, ExistsUnique] <;> decide
theorem nxor3 (ha : IsPM a) (hb : IsPM b) (hc : IsPM c) :
    LOp.NXOR.Holds (fun k : Fin 3 => ![a, b, c] k = 1) ↔ a + b + c ≠ -1 := by
  rcases ha with rfl | rfl <;> rcases hb with rfl | rfl <;> rcases hc with rfl | rfl <;>
    simp only [LOp.Holds, ExistsUnique] <;> decide

end inner

/-- outer OR / XOR over `Fin L` in the form the loops produce -/
theorem outer_or (L : Nat) (p : Nat → Prop) [DecidablePred p] (q : Fin L → Prop)
    (h : ∀ l, q l ↔ p l) : (if ∃ l < L, p l then (1 : Int) else -1) = pm (LOp.OR.Holds q) := by
  rw [← pm_eq_ite]
  apply pm_congr
  rw [exists_lt_iff_fin]
  exact exists_congr fun l => (h l).symm

theorem outer_xor (L : Nat) (p : Nat → Prop) [DecidablePred p] (q : Fin L → Prop)
    (h : ∀ l, q l ↔ p l) :
    (if (List.range L).countP p = 1 then (1 : Int) else -1) = pm (LOp.XOR.Holds q) := by
  rw [← pm_eq_ite]
  apply pm_congr
  rw [countP_range_eq_one]
  exact existsUnique_congr fun l => (h l).symm

theorem outer_nand (L : Nat) (p : Nat → Prop) [DecidablePred p] (q : Fin L → Prop)
    (h : ∀ l, ¬ q l ↔ p l) : (if ∃ l < L, p l then (1 : Int) else -1) = pm (LOp.NAND.Holds q) := by
  rw [← pm_eq_ite]
  apply pm_congr
  rw [exists_lt_iff_fin]
  simp only [LOp.Holds, not_forall]
  exact exists_congr fun l => (h l).symm

theorem qL_AND_product_eq (u z : Arr Int) (q : Int) (hq : 1 ≤ q) : qL_AND_product u z q =
    if q ≤ ((List.range (u.dim 0)).countP (fun l => u [l] = 1 ∧ z [l] = 1) : Nat)
    then 1 else -1 := by
  unfold qL_AND_product
  simp only [Id.run_bind]
  rw [run_threshold (List.range (u.dim 0)) (fun l => u [l] = 1 ∧ z [l] = 1) q 0 (by omega)
    _ (by intro l s; repeat (first | rfl | split))]
  rw [zero_add]
  by_cases h : q ≤ ((List.range (u.dim 0)).countP (fun l => u [l] = 1 ∧ z [l] = 1) : Nat)
  · rw [if_pos h, if_pos h]; rfl
  · rw [if_neg h, if_neg h]; rfl

theorem qL_AND_product_eq_neg (u z : Arr Int) (q : Int) (hq : q < 0) :
    qL_AND_product u z q = -1 := by
  unfold qL_AND_product
  simp only [Id.run_bind]
  have key : ∀ (xs : List Nat) (c : Nat)
      (body : Nat → Option Int × Nat → Id (ForInStep (Option Int × Nat))),
      (∀ l s, ∃ c', (body l s).run = .yield (none, c')) →
      (forIn xs (none, c) body).run.1 = none := by
    intro xs
    induction xs with
    | nil => intro c body _; rfl
    | cons x xs ih =>
      intro c body hb
      obtain ⟨c', hc'⟩ := hb x (none, c)
      rw [List.forIn_cons]
      simp only [Id.run_bind, hc']
      exact ih c' body hb
  rw [key]
  · rfl
  · rintro l ⟨_, c⟩
    by_cases h : u [l] = 1 ∧ z [l] = 1
    · refine ⟨c + 1, ?_⟩
      simp only [h, and_self, if_true]
      rw [if_neg (by omega)]; rfl
    · refine ⟨c, ?_⟩
      simp only [h, if_false]
      rw [if_neg (by omega)]; rfl

theorem qL_AND_product_eq_zero (u z : Arr Int) : qL_AND_product u z 0 =
    if 0 < u.dim 0 ∧ ¬ (u [0] = 1 ∧ z [0] = 1) then 1 else -1 := by
  unfold qL_AND_product
  simp only [Id.run_bind]
  rcases hn : u.dim 0 with _ | n
  · rfl
  · have key : ∀ (xs : List Nat) (c : Nat), 0 < c →
        ∀ body : Nat → Option Int × Nat → Id (ForInStep (Option Int × Nat)),
        (∀ l (s : Option Int × Nat), 0 < s.2 →
          ∃ c', 0 < c' ∧ (body l s).run = .yield (none, c')) →
        (forIn xs (none, c) body).run.1 = none := by
      intro xs
      induction xs with
      | nil => intro c _ body _; rfl
      | cons x xs ih =>
        intro c hc body hb
        obtain ⟨c', h0, hc'⟩ := hb x (none, c) hc
        rw [List.forIn_cons]
        simp only [Id.run_bind, hc']
        exact ih c' h0 body hb
    rw [List.range_succ_eq_map, List.forIn_cons]
    by_cases h : u [0] = 1 ∧ z [0] = 1
    · simp only [h, and_self, if_true, not_true, and_false, if_false]
      rw [if_neg (by omega)]
      simp only [pure_bind]
      rw [key _ (0 + 1) (by omega)]
      · rfl
      · rintro l ⟨_, c⟩ hc
        by_cases h : u [l] = 1 ∧ z [l] = 1
        · refine ⟨c + 1, by omega, ?_⟩
          simp only [h, and_self, if_true]
          rw [if_neg (by omega)]; rfl
        · refine ⟨c, hc, ?_⟩
          simp only [h, if_false]
          rw [if_neg (by simp only at hc; omega)]; rfl
    · simp only [h, if_false, not_false_eq_true, and_true, Nat.zero_lt_succ, if_true]
      rfl

theorem countP_range_eq_card_fin (n : Nat) (p : Nat → Prop) [DecidablePred p] :
    (List.range n).countP p = (Finset.univ.filter fun l : Fin n => p l).card := by
  rw [countP_range_eq_card]
  symm
  apply Finset.card_bij (fun (l : Fin n) _ => (l : Nat))
  · intro l hl; simpa using hl
  · intro a _ b _ h; exact Fin.ext h
  · intro b hb
    simp only [Finset.mem_filter, Finset.mem_range] at hb
    exact ⟨⟨b, hb.1⟩, by simpa using hb.2, rfl⟩

theorem Spec.PMArr.of_perm {a b : Arr Int} {L : Nat} {σ : Equiv.Perm (Fin L)} (ha : a.shape = [L])
    (h : ∀ l : Fin L, a [l] = b [σ l]) (hb : ∀ l : Fin L, IsPM (b [σ l])) : PMArr a := by
  intro idx hi
  rw [ha] at hi
  match idx, hi with
  | [i], hi => rw [h ⟨i, hi.1⟩]; exact hb _

theorem holds_perm {ι : Type} (op : LOp) (σ : Equiv.Perm ι) (p : ι → Prop) :
    op.Holds (fun i => p (σ i)) ↔ op.Holds p := by
  have h1 : (∀ i, p (σ i)) ↔ ∀ i, p i := σ.forall_congr fun _ => Iff.rfl
  have h2 : (∃ i, p (σ i)) ↔ ∃ i, p i := σ.exists_congr fun _ => Iff.rfl
  have h3 : (∃! i, p (σ i)) ↔ ∃! i, p i := σ.existsUnique_congr fun _ => Iff.rfl
  cases op
  · exact h1
  · exact not_congr h1
  · exact h2
  · exact not_congr h2
  · exact h3
  · exact not_congr h3

theorem lom_perm_latent {ι κ : Type} {o i : LOp} (σ : Equiv.Perm ι) {x : ι → κ → Prop} :
    lom o i (fun l k => x (σ l) k) ↔ lom o i x := by
  exact holds_perm o σ (fun l => i.Holds (x l))

theorem lom_perm_factor {ι κ : Type} {o i : LOp} (τ : Equiv.Perm κ) {x : ι → κ → Prop} :
    lom o i (fun l k => x l (τ k)) ↔ lom o i x := by
  unfold lom
  simp only [holds_perm]

theorem wrap8_add (x y : Int) : wrap8 (wrap8 x + y) = wrap8 (x + y) := by
  simp [wrap8, Int.bmod_add_bmod]

/-- `if p l: g[i] += 1` for `l` in `xs` -/
theorem modifies_count (xs : List Nat) (p : Nat → Prop) [DecidablePred p] (i : List Nat) :
    Modifies (fun g : Arr Int => xs.foldl
        (fun g l => if p l then g.set i (wrap8 (g i + 1)) else g) g)
      (fun idx => idx = i)
      (fun _ x => if xs.countP p = 0 then x else wrap8 (x + xs.countP p)) := by
  induction xs with
  | nil => exact ⟨fun _ => rfl, fun _ _ _ => by simp, fun _ _ _ => rfl⟩
  | cons x xs ih =>
    by_cases h : p x
    · have hc : (x :: xs).countP p = xs.countP p + 1 := by simp [h]
      refine ⟨fun g => ?_, fun g idx hi => ?_, fun g idx hi => ?_⟩
      · simp only [List.foldl_cons, h, if_true]; exact ih.shape _
      · simp only [List.foldl_cons, h, if_true]
        refine (ih.on _ idx hi).trans ?_
        subst hi
        rw [hc, if_neg (show ¬ xs.countP p + 1 = 0 by omega)]
        simp only [Arr.set, if_true]
        split
        · rename_i h0; rw [h0]; rfl
        · rw [wrap8_add]; congr 1; push_cast; ring
      · simp only [List.foldl_cons, h, if_true]
        refine (ih.off _ idx hi).trans ?_
        simp [Arr.set, hi]
    · have hc : (x :: xs).countP p = xs.countP p := by simp [h]
      simp only [List.foldl_cons, h, if_false, hc]
      exact ih

theorem compute_g_eq (Z U g : Arr Int) : compute_g Z U g =
    (List.range (Z.dim 0)).foldl (fun g n => (List.range (U.dim 0)).foldl (fun g d =>
      (List.range (Z.dim 1)).foldl (fun g l =>
        if Z [n, l] = U [d, l] ∧ U [d, l] = 1 then g.set [n, d] (wrap8 (g [n, d] + 1)) else g)
        g) g) g := by
  unfold compute_g
  simp only [Id.run_bind]
  apply run_forIn_yield
  intro n X
  simp only [Id.run_bind]
  rw [run_forIn_yield _ _ _ (fun X d => (List.range (Z.dim 1)).foldl (fun g l =>
    if Z [n, l] = U [d, l] ∧ U [d, l] = 1 then g.set [n, d] (wrap8 (g [n, d] + 1)) else g) X)]
  · rfl
  · intro d X
    simp only [Id.run_bind]
    rw [run_forIn_yield _ _ _ (fun g l =>
      if Z [n, l] = U [d, l] ∧ U [d, l] = 1 then g.set [n, d] (wrap8 (g [n, d] + 1)) else g)]
    · rfl
    · intro l X; split <;> rfl

theorem modifies_compute_g (Z U : Arr Int) : Modifies (fun g => compute_g Z U g)
    (fun idx => ∃ n ∈ List.range (Z.dim 0), ∃ d ∈ List.range (U.dim 0), idx = [n, d])
    (fun idx x =>
      let c := (List.range (Z.dim 1)).countP
        (fun l => Z [idx.getD 0 0, l] = 1 ∧ U [idx.getD 1 0, l] = 1)
      if c = 0 then x else wrap8 (x + c)) := by
  simp only [compute_g_eq]
  apply modifies_foldl
  · apply List.Pairwise.imp _ List.nodup_range
    rintro a b hab idx ⟨⟨d, _, rfl⟩, ⟨d', _, h⟩⟩
    simp at h; exact hab h.1
  intro n _
  apply modifies_foldl
  · apply List.Pairwise.imp _ List.nodup_range
    rintro a b hab idx ⟨rfl, h⟩
    simp at h; exact hab h
  intro d _
  have h := modifies_count (List.range (Z.dim 1))
    (fun l => Z [n, l] = U [d, l] ∧ U [d, l] = 1) [n, d]
  refine ⟨h.shape, fun X idx hi => ?_, h.off⟩
  rw [h.on X idx hi]
  subst hi
  have : (fun l => decide (Z [n, l] = U [d, l] ∧ U [d, l] = 1)) =
      (fun l => decide (Z [n, l] = 1 ∧ U [d, l] = 1)) := by
    funext l
    congr 1
    rw [eq_iff_iff]
    constructor
    · rintro ⟨h1, h2⟩; exact ⟨h1.trans h2, h2⟩
    · rintro ⟨h1, h2⟩; exact ⟨h1.trans h2.symm, h2⟩
  rw [this]
  rfl

theorem compute_g_shape (Z U g : Arr Int) : (compute_g Z U g).shape = g.shape :=
  (modifies_compute_g Z U).shape g

theorem compute_g_get (Z U g : Arr Int) (n d : Nat) (hn : n < Z.dim 0) (hd : d < U.dim 0) :
    compute_g Z U g [n, d] =
      let c := (List.range (Z.dim 1)).countP (fun l => Z [n, l] = 1 ∧ U [d, l] = 1)
      if c = 0 then g [n, d] else wrap8 (g [n, d] + c) :=
  (modifies_compute_g Z U).on g [n, d] ⟨n, by simpa using hn, d, by simpa using hd, rfl⟩

end LFM

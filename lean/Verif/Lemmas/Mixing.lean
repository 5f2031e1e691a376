import Verif.Lemmas.RandomOrder

/-!
# Lemmas: the changes that matter
-/

namespace LFM

open Spec MeasureTheory

namespace Spec.Hier

variable {h : Hier}

/-- `e'` comes before `e` in row-major order -/
def rowMajor {N L : Nat} (e' e : Fin N × Fin L) : Prop := (e'.1 : Nat) < e.1 ∨ (e'.1 : Nat) = e.1 ∧ (e'.2 : Nat) < e.2

theorem finTasks_sorted (N L : Nat) : (finTasks N L).Pairwise rowMajor := by
  unfold finTasks
  rw [List.pairwise_flatMap]
  constructor
  · intro n _
    rw [List.pairwise_map]
    exact (List.pairwise_lt_finRange L).imp fun {a b} hab => Or.inr ⟨rfl, hab⟩
  · refine (List.pairwise_lt_finRange N).imp fun {a b} hab => ?_
    intro x hx y hy
    obtain ⟨l, -, rfl⟩ := List.mem_map.1 hx
    obtain ⟨l', -, rfl⟩ := List.mem_map.1 hy
    exact Or.inl hab

theorem finTasks_split {N L : Nat} (e : Fin N × Fin L) :
    ∃ A B, finTasks N L = A ++ e :: B ∧ ∀ e', e' ∈ A ↔ rowMajor e' e := by
  obtain ⟨A, B, hAB⟩ := List.append_of_mem (mem_finTasks e)
  refine ⟨A, B, hAB, fun e' => ?_⟩
  have hs := finTasks_sorted N L
  rw [hAB, List.pairwise_append] at hs
  obtain ⟨-, h2, h3⟩ := hs
  rw [List.pairwise_cons] at h2
  constructor
  · intro he
    exact h3 e' he e (by simp)
  · intro he
    have hm := mem_finTasks e'
    rw [hAB, List.mem_append, List.mem_cons] at hm
    rcases hm with hm | rfl | hm
    · exact hm
    · unfold rowMajor at he
      omega
    · have := h2.1 e' hm
      unfold rowMajor at this he
      omega

open Classical in
/-- free entries -/
noncomputable def keepFree (free : h.Site → Prop) (l : List h.Site) : List {q : h.Site // free q} :=
  l.filterMap fun e => if hf : free e then some ⟨e, hf⟩ else none

theorem mem_keepFree {free : h.Site → Prop} {l : List h.Site} {q : {q : h.Site // free q}} : q ∈ keepFree free l ↔ q.1 ∈ l := by
  unfold keepFree
  rw [List.mem_filterMap]
  constructor
  · rintro ⟨a, ha, e⟩
    split at e
    · injection e with e
      rw [← e]
      exact ha
    · cases e
  · intro hq
    exact ⟨q.1, hq, by rw [dif_pos q.2]⟩

theorem keepFree_append (free : h.Site → Prop) (l l' : List h.Site) :
    keepFree free (l ++ l') = keepFree free l ++ keepFree free l' := List.filterMap_append

theorem keepFree_cons {free : h.Site → Prop} (q : {q : h.Site // free q}) (l : List h.Site) :
    keepFree free (q.1 :: l) = q :: keepFree free l := List.filterMap_cons_some (by rw [dif_pos q.2])

theorem keepFree_nodup {free : h.Site → Prop} {l : List h.Site} (hl : l.Nodup) : (keepFree free l).Nodup := by
  refine hl.filterMap fun a a' b hb hb' => ?_
  simp only [Option.mem_def, Option.dite_none_right_eq_some, Option.some.injEq] at hb hb'
  obtain ⟨_, rfl⟩ := hb
  obtain ⟨_, e⟩ := hb'
  exact (congrArg Subtype.val e).symm

/-- the matrices of a list of numbers -/
def toFin (h : Hier) (xs : List Nat) : List (Fin h.M) :=
  xs.filterMap fun i => if hi : i < h.M then some (⟨i, hi⟩ : Fin h.M) else none

theorem mem_toFin {xs : List Nat} {i : Fin h.M} : i ∈ h.toFin xs ↔ (i : Nat) ∈ xs := by
  unfold toFin
  rw [List.mem_filterMap]
  constructor
  · rintro ⟨a, ha, e⟩
    split at e
    · injection e with e
      rw [← e]
      exact ha
    · cases e
  · intro hi
    exact ⟨i, hi, by rw [dif_pos i.2]⟩

theorem toFin_append (xs ys : List Nat) : h.toFin (xs ++ ys) = h.toFin xs ++ h.toFin ys := List.filterMap_append

theorem toFin_cons (i : Fin h.M) (xs : List Nat) : h.toFin ((i : Nat) :: xs) = i :: h.toFin xs :=
  List.filterMap_cons_some (by rw [dif_pos i.2])

theorem toFin_nodup {xs : List Nat} (hx : xs.Nodup) : (h.toFin xs).Nodup := by
  refine hx.filterMap fun a a' b hb hb' => ?_
  simp only [Option.mem_def, Option.dite_none_right_eq_some, Option.some.injEq] at hb hb'
  obtain ⟨_, rfl⟩ := hb
  obtain ⟨_, e⟩ := hb'
  exact (congrArg Fin.val e).symm

theorem orderOf_eq (free : h.Site → Prop) (xs : List Nat) : h.orderOf free xs = keepFree free ((h.toFin xs).flatMap h.sitesOf) := rfl

theorem mem_sitesOf {i : Fin h.M} {q : h.Site} : q ∈ h.sitesOf i ↔ q.1 = i := by
  unfold sitesOf
  rw [List.mem_map]
  constructor
  · rintro ⟨e, -, rfl⟩
    rfl
  · rintro rfl
    exact ⟨q.2, mem_finTasks _, rfl⟩

theorem mem_orderOf {free : h.Site → Prop} {xs : List Nat} {q : {q : h.Site // free q}} :
    q ∈ h.orderOf free xs ↔ (q.1.1 : Nat) ∈ xs := by
  rw [orderOf_eq, mem_keepFree, List.mem_flatMap]
  constructor
  · rintro ⟨i, hi, hq⟩
    rw [mem_sitesOf] at hq
    rw [hq]
    exact mem_toFin.1 hi
  · intro hq
    exact ⟨q.1.1, mem_toFin.2 hq, mem_sitesOf.2 rfl⟩

theorem orderOf_nodup (free : h.Site → Prop) {xs : List Nat} (hx : xs.Nodup) : (h.orderOf free xs).Nodup := by
  rw [orderOf_eq]
  refine keepFree_nodup ?_
  rw [List.nodup_flatMap]
  refine ⟨fun i _ => finTasks_nodup.map sigma_mk_injective, ?_⟩
  refine (toFin_nodup hx).imp fun {a b} hab => ?_
  rw [Function.onFun, List.disjoint_left]
  intro q h1 h2
  rw [mem_sitesOf] at h1 h2
  exact hab (h1.symm.trans h2)

theorem orderOf_perm (free : h.Site → Prop) {xs ys : List Nat} (hxy : xs.Perm ys) :
    (h.orderOf free xs).Perm (h.orderOf free ys) :=
  ((hxy.filterMap _).flatMap_right _).filterMap _

/-- changes of a list of entries -/
theorem flips_apply {free : h.Site → Prop} {s0 : h.State} (l : List {q : h.Site // free q}) (hl : l.Nodup) (y : h.Given free s0)
    (q : h.Site) : (flipAll (fun (q : {q : h.Site // free q}) (s : h.Given free s0) => (⟨flipAt q.1 s.1, s.2.flipAt q.2⟩ : h.Given free s0))
      l y).1 q.1 q.2 = if q ∈ l.map Subtype.val then !(y.1 q.1 q.2) else y.1 q.1 q.2 := by
  classical
  induction l generalizing y with
  | nil => simp [flipAll]
  | cons a l ih =>
    rw [List.nodup_cons] at hl
    refine (ih hl.2 ⟨flipAt a.1 y.1, y.2.flipAt a.2⟩).trans ?_
    by_cases hq : q = a.1
    · subst hq
      have : ¬ a.1 ∈ l.map Subtype.val := by
        rintro hc
        obtain ⟨b, hb, e⟩ := List.mem_map.1 hc
        rw [Subtype.ext e] at hb
        exact hl.1 hb
      rw [if_neg this, if_pos (by simp)]
      exact flipAt_self a.1 y.1
    · simp only [flipAt_of_ne hq, List.map_cons, List.mem_cons, hq, false_or]

theorem flips_opposite {free : h.Site → Prop} {s0 : h.State} {xs : List Nat} (hx : xs.Nodup)
    (hfree : ∀ q, free q → (q.1 : Nat) ∈ xs) (y : h.Given free s0) :
    (flipAll (fun (q : {q : h.Site // free q}) (s : h.Given free s0) => (⟨flipAt q.1 s.1, s.2.flipAt q.2⟩ : h.Given free s0))
      (h.orderOf free xs) y).1 = opposite free y.1 := by
  classical
  funext i e
  have := flips_apply (h.orderOf free xs) (orderOf_nodup free hx) y ⟨i, e⟩
  simp only at this
  rw [this]
  unfold opposite
  by_cases hf : free ⟨i, e⟩
  · rw [if_pos hf, if_pos]
    exact List.mem_map.2 ⟨⟨⟨i, e⟩, hf⟩, mem_orderOf.2 (hfree _ hf), rfl⟩
  · rw [if_neg hf, if_neg]
    rintro hc
    obtain ⟨b, -, hb⟩ := List.mem_map.1 hc
    exact hf (hb ▸ b.2)

/-- the order of updates around an entry -/
theorem orderOf_split {free : h.Site → Prop} (q : {q : h.Site // free q}) (pre post : List Nat) :
    ∃ l1 l2, h.orderOf free (pre ++ (q.1.1 : Nat) :: post) = l1 ++ q :: l2 ∧
      ∀ p : {q : h.Site // free q}, p ∈ l1 ↔ (p.1.1 : Nat) ∈ pre ∨ p.1.1 = q.1.1 ∧
        ((p.1.2.1 : Nat) < q.1.2.1 ∨ (p.1.2.1 : Nat) = q.1.2.1 ∧ (p.1.2.2 : Nat) < q.1.2.2) := by
  obtain ⟨A, B, hAB, hA⟩ := finTasks_split q.1.2
  refine ⟨h.orderOf free pre ++ keepFree free (A.map (Sigma.mk q.1.1)),
    keepFree free (B.map (Sigma.mk q.1.1)) ++ h.orderOf free post, ?_, fun p => ?_⟩
  · have hsites : h.sitesOf q.1.1 = A.map (Sigma.mk q.1.1) ++ q.1 :: B.map (Sigma.mk q.1.1) := by
      unfold sitesOf
      rw [hAB, List.map_append, List.map_cons]
    rw [orderOf_eq, toFin_append, toFin_cons, List.flatMap_append, List.flatMap_cons, hsites, keepFree_append, keepFree_append,
      keepFree_append, keepFree_cons, orderOf_eq, orderOf_eq]
    simp
  · rw [List.mem_append, mem_orderOf, mem_keepFree, List.mem_map]
    refine or_congr Iff.rfl ?_
    constructor
    · rintro ⟨e, he, hp⟩
      rw [← hp]
      exact ⟨rfl, (hA e).1 he⟩
    · rintro ⟨h1, h2⟩
      obtain ⟨⟨i, e⟩, hf⟩ := p
      simp only at h1 h2
      subst h1
      exact ⟨e, (hA e).2 h2, rfl⟩

theorem flips_midway {free : h.Site → Prop} {s0 : h.State} (q : {q : h.Site // free q}) (l1 : List {q : h.Site // free q})
    (hnd : l1.Nodup) (before : Finset (Fin h.M)) (hl : ∀ p : {q : h.Site // free q}, p ∈ l1 ↔ p.1.1 ∈ before ∨ p.1.1 = q.1.1 ∧
        ((p.1.2.1 : Nat) < q.1.2.1 ∨ (p.1.2.1 : Nat) = q.1.2.1 ∧ (p.1.2.2 : Nat) < q.1.2.2)) (y : h.Given free s0) :
    (flipAll (fun (q : {q : h.Site // free q}) (s : h.Given free s0) => (⟨flipAt q.1 s.1, s.2.flipAt q.2⟩ : h.Given free s0))
      l1 y).1 = midway free before q.1 y.1 := by
  classical
  funext i e
  have := flips_apply l1 hnd y ⟨i, e⟩
  simp only at this
  rw [this]
  unfold midway
  refine if_congr ?_ rfl rfl
  constructor
  · intro hm
    obtain ⟨b, hb, hbe⟩ := List.mem_map.1 hm
    have hf : free ⟨i, e⟩ := hbe ▸ b.2
    obtain rfl : b = ⟨⟨i, e⟩, hf⟩ := Subtype.ext hbe
    exact ⟨hf, (hl _).1 hb⟩
  · rintro ⟨hf, hc⟩
    exact List.mem_map.2 ⟨⟨⟨i, e⟩, hf⟩, (hl ⟨⟨i, e⟩, hf⟩).2 hc, rfl⟩

theorem differAt_iff (s s' : h.State) (q : h.Site) : DifferAt s s' q ↔ s' = flipAt q s := by
  constructor
  · intro hd
    funext i e
    have hq := hd ⟨i, e⟩
    simp only at hq
    by_cases he : (⟨i, e⟩ : h.Site) = q
    · have h1 := hq.2 he
      have h2 : flipAt q s i e = !(s i e) := by
        subst he
        exact flipAt_self ⟨i, e⟩ s
      rw [h2]
      revert h1
      cases s i e <;> cases s' i e <;> simp
    · have h1 : ¬ (s i e ≠ s' i e) := fun hc => he (hq.1 hc)
      have h2 : flipAt q s i e = s i e := flipAt_of_ne (q := q) (q' := ⟨i, e⟩) he s
      rw [h2]
      exact (not_not.1 h1).symm
  · rintro rfl q'
    by_cases he : q' = q
    · subst he
      rw [flipAt_self]
      cases s q'.1 q'.2 <;> simp
    · rw [flipAt_of_ne he]
      simp [he]

/-- a change matters if it changes the weight -/
theorem joint_flip_iff (q : h.Site) (x : h.State) : h.joint (flipAt q x) ≠ h.joint x ↔
    h.joint (Function.update x q.1 (Function.update (x q.1) q.2 true)) ≠
      h.joint (Function.update x q.1 (Function.update (x q.1) q.2 false)) := by
  have hself : Function.update x q.1 (Function.update (x q.1) q.2 (x q.1 q.2)) = x := by
    rw [Function.update_eq_self, Function.update_eq_self]
  unfold flipAt
  cases hb : x q.1 q.2 with
  | true =>
    rw [hb] at hself
    rw [hself]
    exact ne_comm
  | false =>
    rw [hb] at hself
    rw [hself]
    exact Iff.rfl

/-- all orders of the sampled matrices -/
noncomputable def allOrders (h : Hier) (free : h.Site → Prop) (mats : List Nat) :
    {l : List Nat // l ∈ mats.permutations.toFinset} → List {q : h.Site // free q} := fun i => h.orderOf free i.1

theorem order_perm {mats : List Nat} (i : {l : List Nat // l ∈ mats.permutations.toFinset}) : i.1.Perm mats := by
  have := i.2
  rwa [List.mem_toFinset, List.mem_permutations] at this

theorem linked_iff {free : h.Site → Prop} {s0 : h.State} {mats : List Nat} (hnd : mats.Nodup)
    (hfree : ∀ q : h.Site, free q → (q.1 : Nat) ∈ mats) (a b : h.Given free s0) :
    linked (fun (q : {q : h.Site // free q}) (s : h.Given free s0) => (⟨flipAt q.1 s.1, s.2.flipAt q.2⟩ : h.Given free s0))
      (fun s => h.joint s.1) (h.allOrders free mats) a b ↔ ∃ q, Matters free a.1 q ∧ DifferAt a.1 b.1 q := by
  classical
  obtain ⟨flip, hflip⟩ : ∃ flip : {q : h.Site // free q} → h.Given free s0 → h.Given free s0,
    flip = fun q s => ⟨flipAt q.1 s.1, s.2.flipAt q.2⟩ := ⟨_, rfl⟩
  rw [← hflip]
  have hopp : ∀ i y, (flipAll flip (h.allOrders free mats i) y).1 = opposite free y.1 := by
    intro i y
    rw [hflip]
    exact flips_opposite ((order_perm i).nodup_iff.2 hnd) (fun q hq => (order_perm i).mem_iff.2 (hfree q hq)) y
  constructor
  · rintro ⟨i, l1, q, l2, hi, hb, m, hm, hne⟩
    refine ⟨q.1, ⟨q.2, ?_⟩, ?_⟩
    · have hq : (q.1.1 : Nat) ∈ i.1 := (order_perm i).mem_iff.2 (hfree q.1 q.2)
      obtain ⟨pre, post, hpp⟩ := List.append_of_mem hq
      have hndi : i.1.Nodup := (order_perm i).nodup_iff.2 hnd
      obtain ⟨k1, k2, hk, hk1⟩ := orderOf_split q pre post
      rw [← hpp] at hk
      have hndo : (h.orderOf free i.1).Nodup := orderOf_nodup free hndi
      have hkk : k1 = l1 := by
        have e : k1 ++ q :: k2 = l1 ++ q :: l2 := hk.symm.trans hi
        rw [hk, List.nodup_append, List.nodup_cons] at hndo
        refine ((List.append_cons_inj_of_notMem ?_ ?_).1 e).1
        · intro hc
          exact hndo.2.2 q hc q (by simp) rfl
        · exact hndo.2.1.1
      have hl1 : l1.Nodup := by
        rw [← hkk]
        rw [hk, List.nodup_append] at hndo
        exact hndo.1
      rw [hkk] at hk1
      obtain ⟨before, hbef⟩ : ∃ before : Finset (Fin h.M), before = Finset.univ.filter fun j : Fin h.M => (j : Nat) ∈ pre := ⟨_, rfl⟩
      have hmem : ∀ j, j ∈ before ↔ (j : Nat) ∈ pre := by intro j; rw [hbef]; simp
      refine ⟨before, ?_, ?_⟩
      · rw [hmem]
        intro hc
        rw [hpp, List.nodup_append] at hndi
        exact hndi.2.2 _ hc _ (by simp) rfl
      · have hmid : ∀ y, (flipAll flip l1 y).1 = midway free before q.1 y.1 := by
          intro y
          rw [hflip]
          exact flips_midway q l1 hl1 before (fun p => by rw [hk1, hmem]) y
        have hne' : h.joint (flipAt q.1 (flipAll flip l1 (flipAll flip m a)).1) ≠ h.joint (flipAll flip l1 (flipAll flip m a)).1 := by
          have := hne
          rw [hflip] at this ⊢
          exact this
        rw [joint_flip_iff] at hne'
        refine ⟨_, ?_, hne'⟩
        rcases hm with rfl | rfl
        · left
          rw [hmid]
          rfl
        · right
          rw [hmid, hopp]
    · rw [differAt_iff, hb, hflip]
  · rintro ⟨q, ⟨hq, before, hbq, x, hx, hne⟩, hd⟩
    rw [differAt_iff] at hd
    have hqm := hfree q hq
    obtain ⟨pre, hpre⟩ : ∃ pre, pre = mats.filter fun j => decide (∃ j' ∈ before, (j' : Nat) = j) := ⟨_, rfl⟩
    obtain ⟨post, hpost⟩ : ∃ post, post = (mats.filter fun j => !decide (∃ j' ∈ before, (j' : Nat) = j)).erase q.1 := ⟨_, rfl⟩
    have hperm : (pre ++ (q.1 : Nat) :: post).Perm mats := by
      have h1 : ((q.1 : Nat) :: post).Perm (mats.filter fun j => !decide (∃ j' ∈ before, (j' : Nat) = j)) := by
        rw [hpost]
        refine (List.perm_cons_erase ?_).symm
        rw [List.mem_filter]
        refine ⟨hqm, ?_⟩
        simp only [Bool.not_eq_true', decide_eq_false_iff_not]
        rintro ⟨j', hj', e⟩
        exact hbq (Fin.ext e ▸ hj')
      refine ((List.Perm.refl pre).append h1).trans ?_
      rw [hpre]
      exact List.filter_append_perm _ mats
    obtain ⟨l1, l2, hl, hl1⟩ := orderOf_split (free := free) ⟨q, hq⟩ pre post
    obtain ⟨i, hi⟩ : ∃ i : {l : List Nat // l ∈ mats.permutations.toFinset}, i.1 = pre ++ (q.1 : Nat) :: post :=
      ⟨⟨_, by rw [List.mem_toFinset, List.mem_permutations]; exact hperm⟩, rfl⟩
    have hdec : h.allOrders free mats i = l1 ++ ⟨q, hq⟩ :: l2 := by
      unfold allOrders
      rw [hi]
      exact hl
    have hnd1 : l1.Nodup := by
      have := orderOf_nodup free (hperm.nodup_iff.2 hnd)
      rw [hl, List.nodup_append] at this
      exact this.1
    have hmid : ∀ y, (flipAll flip l1 y).1 = midway free before q y.1 := by
      intro y
      rw [hflip]
      refine flips_midway ⟨q, hq⟩ l1 hnd1 before (fun p => ?_) y
      rw [hl1]
      refine or_congr ?_ Iff.rfl
      rw [hpre, List.mem_filter]
      simp only [decide_eq_true_eq]
      constructor
      · rintro ⟨-, j', hj', e⟩
        exact Fin.ext e ▸ hj'
      · intro hp
        exact ⟨hfree p.1 p.2, p.1.1, hp, rfl⟩
    refine ⟨i, l1, ⟨q, hq⟩, l2, hdec, ?_, ?_⟩
    · rw [hflip]
      exact Subtype.ext hd
    · rcases hx with rfl | rfl
      · refine ⟨[], Or.inl rfl, ?_⟩
        have h1 : (flipAll flip l1 (flipAll flip [] a)).1 = midway free before q a.1 := hmid a
        have h2 := (joint_flip_iff q _).2 hne
        rw [← h1] at h2
        rw [hflip] at h2 ⊢
        exact h2
      · refine ⟨h.allOrders free mats i, Or.inr rfl, ?_⟩
        have h1 : (flipAll flip l1 (flipAll flip (h.allOrders free mats i) a)).1 = midway free before q (opposite free a.1) := by
          rw [hmid, hopp]
        have h2 := (joint_flip_iff q _).2 hne
        rw [← h1] at h2
        rw [hflip] at h2 ⊢
        exact h2

/-- the same for chains of changes -/
theorem mixing_iff {free : h.Site → Prop} {s0 : h.State} {mats : List Nat} (hnd : mats.Nodup)
    (hfree : ∀ q : h.Site, free q → (q.1 : Nat) ∈ mats) : h.Mixing free s0 ↔ ∀ a b : h.Given free s0, Relation.ReflTransGen
      (linked (fun (q : {q : h.Site // free q}) (s : h.Given free s0) => (⟨flipAt q.1 s.1, s.2.flipAt q.2⟩ : h.Given free s0))
      (fun s => h.joint s.1) (h.allOrders free mats)) a b := by
  constructor
  · intro hm a b
    have key : ∀ s', Relation.ReflTransGen (fun a b => ∃ q, Matters free a q ∧ DifferAt a b q) a.1 s' →
        ∃ hs : h.Agree free s' s0, Relation.ReflTransGen (linked (fun (q : {q : h.Site // free q}) (s : h.Given free s0) =>
          (⟨flipAt q.1 s.1, s.2.flipAt q.2⟩ : h.Given free s0)) (fun s => h.joint s.1) (h.allOrders free mats)) a ⟨s', hs⟩ := by
      intro s' hs'
      induction hs' with
      | refl => exact ⟨a.2, Relation.ReflTransGen.refl⟩
      | @tail c d _ hcd ih =>
        obtain ⟨hc, hp⟩ := ih
        obtain ⟨q, hq, hd⟩ := hcd
        have hd' := (differAt_iff c d q).1 hd
        have hdA : h.Agree free d s0 := by
          rw [hd']
          exact hc.flipAt hq.1
        exact ⟨hdA, hp.tail ((linked_iff hnd hfree ⟨c, hc⟩ ⟨d, hdA⟩).2 ⟨q, hq, hd⟩)⟩
    obtain ⟨hs, hp⟩ := key b.1 (hm a.1 b.1 a.2 b.2)
    exact hp
  · intro hall s s' hs hs'
    have := hall ⟨s, hs⟩ ⟨s', hs'⟩
    exact this.lift (fun x : h.Given free s0 => x.1) fun a b hab => (linked_iff hnd hfree a b).1 hab

end Spec.Hier

end LFM
